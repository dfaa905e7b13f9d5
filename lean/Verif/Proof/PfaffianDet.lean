import Verif.Proof.Pfaffian
import Verif.Proof.PfUpdateTwo
import Mathlib.LinearAlgebra.Determinant
import Mathlib.Data.List.FinRange

/-! `Pf(B A Bᵀ) = det B · Pf A`: the Pfaffian of the form `u A v` is an alternating multilinear function of a list of vectors. -/
namespace MVMC
open Spec

variable {R : Type} [Field R]

section form
variable {n : Nat} {A : (Fin n → R) → (Fin n → R) → R}

theorem pf_linear (hA : Skew A) (hadd : ∀ x y z, A (x + y) z = A x z + A y z) (p s : List (Fin n → R)) (x y : Fin n → R) :
    pf A (p ++ (x + y) :: s) = pf A (p ++ x :: s) + pf A (p ++ y :: s) := by
  rw [pf_front hA, pf_front hA, pf_front hA, pf_cons, pf_cons, pf_cons, ← mul_add, ← altSum_add_left]
  congr 1
  exact congrArg (fun c => altSum c (pf A) (p ++ s)) (funext fun z => hadd x y z)

theorem pf_homog (hA : Skew A) (hsmul : ∀ (c : R) x z, A (c • x) z = c * A x z) (p s : List (Fin n → R)) (c : R) (x : Fin n → R) :
    pf A (p ++ (c • x) :: s) = c * pf A (p ++ x :: s) := by
  rw [pf_front hA, pf_front hA, pf_cons, pf_cons, mul_left_comm c, ← altSum_smul_left (A x) (pf A) c]
  congr 1
  exact congrArg (fun c => altSum c (pf A) (p ++ s)) (funext fun z => hsmul c x z)

theorem finRange_split (i : Fin n) : ∃ p s : List (Fin n), List.finRange n = p ++ i :: s ∧ i ∉ p ∧ i ∉ s := by
  obtain ⟨p, s, h⟩ := List.append_of_mem (List.mem_finRange i)
  refine ⟨p, s, h, ?_, ?_⟩
  · have hnd := List.nodup_finRange n
    rw [h, List.nodup_append] at hnd
    exact fun hi => hnd.2.2 i hi i (by simp) rfl
  · have hnd := List.nodup_finRange n
    rw [h, List.nodup_append] at hnd
    exact (List.nodup_cons.mp hnd.2.1).1

theorem map_update_split {β : Type} {i : Fin n} {p s : List (Fin n)} (hp : i ∉ p) (hs : i ∉ s) (v : Fin n → β) (x : β) :
    (p ++ i :: s).map (Function.update v i x) = p.map v ++ x :: s.map v := by
  rw [List.map_append, List.map_cons, Function.update_self]
  congr 1
  · exact List.map_congr_left (fun j hj => Function.update_of_ne (by rintro rfl; exact hp hj) _ _)
  · congr 1
    exact List.map_congr_left (fun j hj => Function.update_of_ne (by rintro rfl; exact hs hj) _ _)

/-- The Pfaffian of the rows as an alternating map. -/
def pfAlt (hA : Skew A) (hadd : ∀ x y z, A (x + y) z = A x z + A y z) (hsmul : ∀ (c : R) x z, A (c • x) z = c * A x z) :
    (Fin n → R) [⋀^Fin n]→ₗ[R] R where
  toFun v := pf A ((List.finRange n).map v)
  map_update_add' := by
    intro inst v i x y
    obtain ⟨p, s, h, hp, hs⟩ := finRange_split i
    rw [Subsingleton.elim inst (instDecidableEqFin n), h, map_update_split hp hs, map_update_split hp hs, map_update_split hp hs]
    exact pf_linear hA hadd _ _ x y
  map_update_smul' := by
    intro inst v i c x
    obtain ⟨p, s, h, hp, hs⟩ := finRange_split i
    rw [Subsingleton.elim inst (instDecidableEqFin n), h, map_update_split hp hs, map_update_split hp hs]
    exact pf_homog hA hsmul _ _ c x
  map_eq_zero_of_eq' := by
    intro v i j hv hij
    apply pf_eq_zero_of_not_nodup hA
    intro hnd
    exact hij (List.inj_on_of_nodup_map hnd (List.mem_finRange i) (List.mem_finRange j) hv)

end form

/-- the bilinear form of a matrix -/
def formOf {n : Nat} (A : Fin n → Fin n → R) (u v : Fin n → R) : R := ∑ i, ∑ j, u i * A i j * v j

theorem formOf_skew {n : Nat} {A : Fin n → Fin n → R} (hA : Skew A) : Skew (formOf A) where
  neg u v := by
    unfold formOf
    rw [Finset.sum_comm, ← Finset.sum_neg_distrib]
    refine Finset.sum_congr rfl (fun j _ => ?_)
    rw [← Finset.sum_neg_distrib]
    refine Finset.sum_congr rfl (fun i _ => ?_)
    rw [hA.neg i j]
    ring
  diag u := by
    unfold formOf
    rw [← Finset.sum_product']
    refine Finset.sum_involution (fun x _ => (x.2, x.1)) ?_ ?_ ?_ ?_
    · rintro ⟨i, j⟩ _
      simp only
      rw [hA.neg i j]
      ring
    · rintro ⟨i, j⟩ _ h e
      simp only [Prod.mk.injEq] at e
      rw [e.1] at h
      simp [hA.diag] at h
    · intro x _; simp
    · rintro ⟨i, j⟩ _; rfl

theorem formOf_single {n : Nat} (A : Fin n → Fin n → R) (i j : Fin n) : formOf A (Pi.single i 1) (Pi.single j 1) = A i j := by
  unfold formOf
  rw [Finset.sum_eq_single i, Finset.sum_eq_single j]
  · simp
  · intro b _ hb; simp [hb]
  · simp
  · intro b _ hb; simp [hb]
  · simp

theorem pf_finRange {n : Nat} (A : Nat → Nat → R) : pf (fun i j : Fin n => A i j) (List.finRange n) = pfOf A n id := by
  unfold pfOf
  rw [List.map_id, ← pf_map (fun i : Fin n => (i : Nat)) A _ _ (Nat.le_refl _)]
  congr 1
  exact List.map_coe_finRange_eq_range

/-- Congruence of the Pfaffian. -/
theorem pf_conj {n : Nat} {A : Fin n → Fin n → R} (hA : Skew A) (B : Matrix (Fin n) (Fin n) R) :
    pf (fun i j => ∑ k, ∑ l, B i k * A k l * B j l) (List.finRange n) = B.det * pf A (List.finRange n) := by
  have hadd : ∀ x y z, formOf A (x + y) z = formOf A x z + formOf A y z := by
    intro x y z
    simp only [formOf, Pi.add_apply, add_mul, Finset.sum_add_distrib]
  have hsmul : ∀ (c : R) x z, formOf A (c • x) z = c * formOf A x z := by
    intro c x z
    simp only [formOf, Pi.smul_apply, smul_eq_mul, Finset.mul_sum, mul_assoc]
  have h := (pfAlt (formOf_skew hA) hadd hsmul).eq_smul_basis_det (Pi.basisFun R (Fin n))
  have h2 := congrArg (fun f => f (fun i => B i)) h
  simp only [AlternatingMap.smul_apply, Pi.basisFun_det_apply, smul_eq_mul] at h2
  have e1 : pfAlt (formOf_skew hA) hadd hsmul (fun i => B i) = pf (formOf A) ((List.finRange n).map (fun i => B i)) := rfl
  have e2 : pfAlt (formOf_skew hA) hadd hsmul (Pi.basisFun R (Fin n)) = pf (formOf A) ((List.finRange n).map (Pi.basisFun R (Fin n))) := rfl
  rw [e1, e2, pf_map _ _ _ _ (Nat.le_refl _), pf_map _ _ _ _ (Nat.le_refl _)] at h2
  have e3 : (fun i j => formOf A (Pi.basisFun R (Fin n) i) (Pi.basisFun R (Fin n) j)) = A := by
    funext i j
    rw [Pi.basisFun_apply, Pi.basisFun_apply, formOf_single]
  rw [e3, mul_comm] at h2
  exact h2

/-- The same for matrices indexed by numbers. -/
theorem pfOf_conj {n : Nat} {A : Nat → Nat → R} (hA : ∀ i j, i < n → j < n → A i j = - A j i) (hA0 : ∀ i, i < n → A i i = 0)
    (B : Nat → Nat → R) :
    pfOf (fun i j => ∑ k ∈ Finset.range n, ∑ l ∈ Finset.range n, B i k * A k l * B j l) n id =
      (Matrix.of (fun i j : Fin n => B i j)).det * pfOf A n id := by
  rw [← pf_finRange, ← pf_finRange, ← pf_conj ⟨fun i j => hA i j i.2 j.2, fun i => hA0 i i.2⟩]
  congr 1
  funext i j
  rw [Finset.sum_range]
  refine Finset.sum_congr rfl (fun k _ => ?_)
  rw [Finset.sum_range]
  rfl

end MVMC
