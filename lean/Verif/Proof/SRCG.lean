import Verif.Model.SR
import Verif.Proof.PfUpdate
import Mathlib.LinearAlgebra.Dimension.Finrank
import Mathlib.LinearAlgebra.Dimension.Constructions
import Mathlib.LinearAlgebra.FiniteDimensional.Basic
import Mathlib.LinearAlgebra.Dimension.StrongRankCondition
import Mathlib.Tactic.FieldSimp
import Mathlib.Tactic.Linarith

/-! # Conjugate gradients: residual, orthogonality, termination -/
namespace MVMC
open Finset

theorem xdot_eq (n : Nat) (p q : Nat → ℝ) : xdot n p q = ∑ i ∈ range n, p i * q i := by
  unfold xdot
  rw [sumLoop_eq]

theorem xdot_comm (n : Nat) (p q : Nat → ℝ) : xdot n p q = xdot n q p := by
  rw [xdot_eq, xdot_eq]
  exact sum_congr rfl (fun i _ => mul_comm _ _)

theorem xdot_congr {n : Nat} {p q p' q' : Nat → ℝ} (hp : ∀ i, i < n → p i = p' i) (hq : ∀ i, i < n → q i = q' i) : xdot n p q = xdot n p' q' := by
  rw [xdot_eq, xdot_eq]
  exact sum_congr rfl (fun i hi => by rw [hp i (mem_range.mp hi), hq i (mem_range.mp hi)])

theorem xdot_lin (n : Nat) (p q : Nat → ℝ) (a : ℝ) (s : Nat → ℝ) : xdot n (fun i => p i + a * q i) s = xdot n p s + a * xdot n q s := by
  rw [xdot_eq, xdot_eq, xdot_eq, mul_sum, ← sum_add_distrib]
  exact sum_congr rfl (fun i _ => by ring)

theorem xdot_lin' (n : Nat) (p q : Nat → ℝ) (a : ℝ) (s : Nat → ℝ) : xdot n s (fun i => p i + a * q i) = xdot n s p + a * xdot n s q := by
  rw [xdot_comm, xdot_lin, xdot_comm n p, xdot_comm n q]

theorem xdot_self_nonneg (n : Nat) (p : Nat → ℝ) : 0 ≤ xdot n p p := by
  rw [xdot_eq]
  exact sum_nonneg (fun i _ => mul_self_nonneg _)

theorem xdot_self_zero {n : Nat} {p : Nat → ℝ} (h : xdot n p p = 0) : ∀ i, i < n → p i = 0 := by
  rw [xdot_eq, sum_eq_zero_iff_of_nonneg (fun i _ => mul_self_nonneg _)] at h
  exact fun i hi => mul_self_eq_zero.mp (h i (mem_range.mpr hi))

/-- matrix times vector -/
noncomputable def mulV (n : Nat) (A : Nat → Nat → ℝ) (x : Nat → ℝ) (i : Nat) : ℝ := ∑ j ∈ range n, A i j * x j

theorem mulV_lin (n : Nat) (A : Nat → Nat → ℝ) (x y : Nat → ℝ) (a : ℝ) (i : Nat) :
    mulV n A (fun j => x j + a * y j) i = mulV n A x i + a * mulV n A y i := by
  unfold mulV
  rw [mul_sum, ← sum_add_distrib]
  exact sum_congr rfl (fun j _ => by ring)

theorem mulV_symm {n : Nat} {A : Nat → Nat → ℝ} (hA : ∀ i j, i < n → j < n → A i j = A j i) (x y : Nat → ℝ) :
    xdot n x (mulV n A y) = xdot n (mulV n A x) y := by
  rw [xdot_eq, xdot_eq]
  unfold mulV
  simp only [mul_sum, sum_mul]
  rw [sum_comm]
  refine sum_congr rfl (fun j hj => sum_congr rfl (fun i hi => ?_))
  rw [hA i j (mem_range.mp hi) (mem_range.mp hj)]
  ring

section
variable {n : Nat} {A : Nat → Nat → ℝ} {S : (Nat → ℝ) → Nat → ℝ} {g : Nat → ℝ} (hS : ∀ x i, i < n → S x i = mulV n A x i)
include hS

/-! ### the residual -/

/-- residual and its square are what they claim to be -/
def ResOK (n : Nat) (A : Nat → Nat → ℝ) (g : Nat → ℝ) (c : CGSt) : Prop :=
  (∀ i, i < n → c.r i = g i - mulV n A c.x i) ∧ c.delta = xdot n c.r c.r

/-- what one pass does, on the first `n` components -/
theorem cgStep_spec {iter : Nat} {c c' : CGSt} (hc : ResOK n A g c) (h : cgStep n S g iter c = some c') :
    xdot n c.d (mulV n A c.d) ≠ 0 ∧ c.delta ≠ 0 ∧ ∃ al be, al = c.delta / xdot n c.d (mulV n A c.d) ∧ be = xdot n c'.r c'.r / c.delta ∧
      (∀ i, i < n → c'.r i = c.r i + -al * mulV n A c.d i) ∧ (∀ i, c'.d i = c'.r i + be * c.d i) ∧ ResOK n A g c' := by
  have hq : ∀ i, i < n → S c.d i = mulV n A c.d i := hS c.d
  have hdq : xdot n c.d (S c.d) = xdot n c.d (mulV n A c.d) := xdot_congr (fun _ _ => rfl) hq
  unfold cgStep at h
  simp only [hdq] at h
  by_cases hz : xdot n c.d (mulV n A c.d) = 0 ∨ c.delta = 0
  · rw [if_pos hz] at h; exact absurd h (by simp)
  · rw [if_neg hz] at h
    have h1 : xdot n c.d (mulV n A c.d) ≠ 0 := fun e => hz (.inl e)
    have h2 : c.delta ≠ 0 := fun e => hz (.inr e)
    have hr : ∀ i, i < n → (if (iter + 1) % 20 = 0 then fun i => g i - S (fun i => c.x i + c.delta / xdot n c.d (mulV n A c.d) * c.d i) i
        else fun i => c.r i - c.delta / xdot n c.d (mulV n A c.d) * S c.d i) i = c.r i + -(c.delta / xdot n c.d (mulV n A c.d)) * mulV n A c.d i := by
      intro i hi
      split_ifs
      · beta_reduce
        rw [hS _ i hi, mulV_lin, hc.1 i hi]
        ring
      · beta_reduce
        rw [hq i hi]
        ring
    refine ⟨h1, h2, _, _, rfl, rfl, ?_, ?_, ?_, ?_⟩
    · rw [← Option.some.inj h]
      exact hr
    · rw [← Option.some.inj h]
      intro i
      rfl
    · rw [← Option.some.inj h]
      intro i hi
      refine (hr i hi).trans ?_
      show _ = g i - mulV n A (fun i => c.x i + c.delta / xdot n c.d (mulV n A c.d) * c.d i) i
      rw [mulV_lin, hc.1 i hi]
      ring
    · rw [← Option.some.inj h]
      exact div_mul_cancel₀ _ h2

theorem cgLoop_res {thr : ℝ} : ∀ (fuel iter : Nat) (c : CGSt), ResOK n A g c → ∀ c' k, cgLoop n S g thr fuel iter c = some (c', k) →
    ResOK n A g c' ∧ k ≤ iter + fuel
  | 0, iter, c, hc, c', k, h => by
    unfold cgLoop at h
    obtain ⟨rfl, rfl⟩ := Prod.mk.inj (Option.some.inj h)
    exact ⟨hc, by omega⟩
  | fuel + 1, iter, c, hc, c', k, h => by
    unfold cgLoop at h
    split_ifs at h with hd
    · obtain ⟨rfl, rfl⟩ := Prod.mk.inj (Option.some.inj h)
      exact ⟨hc, by omega⟩
    · cases hst : cgStep n S g iter c with
      | none => rw [hst] at h; exact absurd h (by simp)
      | some c1 =>
        rw [hst] at h
        obtain ⟨_, _, _, _, _, _, _, _, hok⟩ := cgStep_spec hS hc hst
        have := cgLoop_res fuel (iter + 1) c1 hok c' k h
        exact ⟨this.1, by omega⟩

/-! ### conjugacy -/

/-- the history of the first `k` passes -/
structure Hist (n : Nat) (A : Nat → Nat → ℝ) (k : Nat) (R D : Nat → Nat → ℝ) : Prop where
  rr : ∀ i j, i < j → j ≤ k → xdot n (R i) (R j) = 0
  dd : ∀ i j, i < j → j ≤ k → xdot n (D i) (mulV n A (D j)) = 0
  dr : ∀ i j, i < j → j ≤ k → xdot n (D i) (R j) = 0
  self : ∀ i, i ≤ k → xdot n (D i) (R i) = xdot n (R i) (R i)
  ne : ∀ i, i < k → xdot n (R i) (R i) ≠ 0
  first : ∀ i, i < n → R 0 i = D 0 i
  step : ∀ j, j < k → ∃ be, ∀ i, i < n → R (j + 1) i = D (j + 1) i + be * D j i
  move : ∀ j, j < k → ∃ a, a ≠ 0 ∧ ∀ i, i < n → R (j + 1) i = R j i + a * mulV n A (D j) i

omit hS in
/-- a product with `R i` is a combination of products with `D i` and `D (i-1)` -/
theorem Hist.onR {k : Nat} {R D : Nat → Nat → ℝ} (h : Hist n A k R D) (v : Nat → ℝ) {i : Nat} (hi : i ≤ k) (h1 : xdot n v (D i) = 0)
    (h2 : ∀ j, j < i → xdot n v (D j) = 0) : xdot n v (R i) = 0 := by
  cases i with
  | zero => rw [xdot_congr (fun _ _ => rfl) h.first, h1]
  | succ i =>
    obtain ⟨be, e⟩ := h.step i (by omega)
    rw [xdot_congr (fun _ _ => rfl) e, xdot_lin', h1, h2 i (by omega), mul_zero, add_zero]

theorem Hist.next (hA : ∀ i j, i < n → j < n → A i j = A j i) {k : Nat} {R D : Nat → Nat → ℝ} (h : Hist n A k R D) {iter : Nat} {c c' : CGSt}
    (hc : ResOK n A g c) (hr : c.r = R k) (hd : c.d = D k) (hst : cgStep n S g iter c = some c') :
    Hist n A (k + 1) (fun i => if i = k + 1 then c'.r else R i) (fun i => if i = k + 1 then c'.d else D i) := by
  obtain ⟨hdq, hdel, al, be, eal, ebe, er, ed, hok⟩ := cgStep_spec hS hc hst
  have hδ : c.delta = xdot n (R k) (R k) := by rw [hc.2, hr]
  rw [hd] at hdq eal er ed
  rw [hr] at er
  have hal : al ≠ 0 := by rw [eal]; exact div_ne_zero hdel hdq
  have hadq : al * xdot n (D k) (mulV n A (D k)) = c.delta := by rw [eal]; exact div_mul_cancel₀ _ hdq
  -- products with the new residual
  have rNew : ∀ v, xdot n v c'.r = xdot n v (R k) + -al * xdot n v (mulV n A (D k)) := by
    intro v
    rw [xdot_congr (fun _ _ => rfl) er, xdot_lin']
  have SkRk : xdot n (R k) (mulV n A (D k)) = xdot n (D k) (mulV n A (D k)) := by
    cases k with
    | zero => exact xdot_congr h.first (fun _ _ => rfl)
    | succ k =>
      obtain ⟨b, e⟩ := h.step k (by omega)
      rw [xdot_congr e (fun _ _ => rfl), xdot_lin, h.dd k (k + 1) (by omega) (by omega), mul_zero, add_zero]
  have RiSk : ∀ i, i < k → xdot n (R i) (mulV n A (D k)) = 0 := by
    intro i hi
    rw [xdot_comm]
    exact h.onR _ (by omega) (by rw [xdot_comm]; exact h.dd i k hi le_rfl) (fun j hj => by rw [xdot_comm]; exact h.dd j k (by omega) le_rfl)
  have rr : ∀ i, i ≤ k → xdot n (R i) c'.r = 0 := by
    intro i hi
    rw [rNew]
    by_cases e : i = k
    · subst e
      rw [SkRk, neg_mul, hadq, hδ]
      ring
    · rw [h.rr i k (by omega) le_rfl, RiSk i (by omega)]
      ring
  have dr : ∀ i, i ≤ k → xdot n (D i) c'.r = 0 := by
    intro i hi
    rw [rNew]
    by_cases e : i = k
    · subst e
      rw [h.self i le_rfl, neg_mul, hadq, hδ]
      ring
    · rw [h.dr i k (by omega) le_rfl, h.dd i k (by omega) le_rfl]
      ring
  have dd : ∀ i, i ≤ k → xdot n (D i) (mulV n A c'.d) = 0 := by
    intro i hi
    rw [mulV_symm hA, xdot_congr (fun _ _ => rfl) (fun j _ => ed j), xdot_lin', ← mulV_symm hA]
    have e2 : xdot n (mulV n A (D i)) (D k) = xdot n (D i) (mulV n A (D k)) := (mulV_symm hA _ _).symm
    have e1 : xdot n (D i) (mulV n A c'.r) = xdot n (mulV n A (D i)) c'.r := mulV_symm hA _ _
    rw [e1, e2]
    by_cases e : i = k
    · subst e
      have : xdot n (mulV n A (D i)) c'.r = -(xdot n c'.r c'.r / al) := by
        have q := rNew c'.r
        have q2 : xdot n c'.r (R i) = 0 := by rw [xdot_comm]; exact rr i le_rfl
        rw [q2, zero_add] at q
        rw [xdot_comm, q]
        field_simp
      rw [this, ebe, eal]
      field_simp
      ring
    · obtain ⟨a, ha, em⟩ := h.move i (by omega)
      have : xdot n (mulV n A (D i)) c'.r = 0 := by
        have q : xdot n (R (i + 1)) c'.r = xdot n (R i) c'.r + a * xdot n (mulV n A (D i)) c'.r := by
          rw [xdot_congr em (fun _ _ => rfl), xdot_lin]
        rw [rr (i + 1) (by omega), rr i (by omega), zero_add] at q
        exact (mul_eq_zero.mp q.symm).resolve_left ha
      rw [this, h.dd i k (by omega) le_rfl]
      ring
  have self : xdot n c'.d c'.r = xdot n c'.r c'.r := by
    rw [xdot_congr (fun j _ => ed j) (fun _ _ => rfl), xdot_lin, dr k le_rfl]
    ring
  have eL : ∀ (X : Nat → Nat → ℝ) (v : Nat → ℝ) i, i ≤ k → (if i = k + 1 then v else X i) = X i := by
    intro X v i hi
    rw [if_neg (by omega)]
  have eN : ∀ (X : Nat → Nat → ℝ) (v : Nat → ℝ), (if k + 1 = k + 1 then v else X (k + 1)) = v := by
    intro X v
    rw [if_pos rfl]
  refine ⟨?_, ?_, ?_, ?_, ?_, ?_, ?_, ?_⟩
  · intro i j hij hj
    rw [eL R c'.r i (by omega)]
    by_cases e : j = k + 1
    · subst e; rw [eN]; exact rr i (by omega)
    · rw [eL R c'.r j (by omega)]; exact h.rr i j hij (by omega)
  · intro i j hij hj
    rw [eL D c'.d i (by omega)]
    by_cases e : j = k + 1
    · subst e; rw [eN]; exact dd i (by omega)
    · rw [eL D c'.d j (by omega)]; exact h.dd i j hij (by omega)
  · intro i j hij hj
    rw [eL D c'.d i (by omega)]
    by_cases e : j = k + 1
    · subst e; rw [eN]; exact dr i (by omega)
    · rw [eL R c'.r j (by omega)]; exact h.dr i j hij (by omega)
  · intro i hi
    by_cases e : i = k + 1
    · subst e; rw [eN, eN]; exact self
    · rw [eL D c'.d i (by omega), eL R c'.r i (by omega)]; exact h.self i (by omega)
  · intro i hi
    rw [eL R c'.r i (by omega)]
    by_cases e : i = k
    · subst e; rw [← hδ]; exact hdel
    · exact h.ne i (by omega)
  · rw [eL R c'.r 0 (by omega), eL D c'.d 0 (by omega)]
    exact h.first
  · intro j hj
    by_cases e : j = k
    · subst e
      rw [eN, eN, eL D c'.d j le_rfl]
      exact ⟨-be, fun i _ => by rw [ed i]; ring⟩
    · rw [eL R c'.r (j + 1) (by omega), eL D c'.d (j + 1) (by omega), eL D c'.d j (by omega)]
      exact h.step j (by omega)
  · intro j hj
    by_cases e : j = k
    · subst e
      rw [eN, eL R c'.r j le_rfl, eL D c'.d j le_rfl]
      exact ⟨-al, neg_ne_zero.mpr hal, er⟩
    · rw [eL R c'.r (j + 1) (by omega), eL R c'.r j (by omega), eL D c'.d j (by omega)]
      exact h.move j (by omega)

omit hS in
/-- at most `n` non-zero orthogonal residuals -/
theorem Hist.done {k : Nat} {R D : Nat → Nat → ℝ} (h : Hist n A k R D) (hk : n ≤ k) : xdot n (R k) (R k) = 0 := by
  by_contra hne
  have horth : ∀ i j, i ≤ k → j ≤ k → i ≠ j → xdot n (R i) (R j) = 0 := by
    intro i j hi hj hij
    rcases Nat.lt_or_gt_of_ne hij with q | q
    · exact h.rr i j q hj
    · rw [xdot_comm]; exact h.rr j i q hi
  have hnz : ∀ i, i ≤ k → xdot n (R i) (R i) ≠ 0 := by
    intro i hi
    rcases Nat.lt_or_eq_of_le hi with q | rfl
    · exact h.ne i q
    · exact hne
  have hli : LinearIndependent ℝ (fun i : Fin (n + 1) => (fun j : Fin n => R i j)) := by
    rw [Fintype.linearIndependent_iff]
    intro c hc m
    have q : ∑ i : Fin (n + 1), c i * xdot n (R i) (R m) = 0 := by
      have : ∀ i : Fin (n + 1), c i * xdot n (R i) (R m) = ∑ j : Fin n, (c i * R i j) * R m j := by
        intro i
        rw [xdot_eq, mul_sum, ← Fin.sum_univ_eq_sum_range (fun j => c i * (R i j * R m j))]
        exact sum_congr rfl (fun j _ => by ring)
      rw [sum_congr rfl (fun i _ => this i), sum_comm]
      refine sum_eq_zero (fun j _ => ?_)
      rw [← sum_mul]
      have := congrFun hc j
      simp only [Finset.sum_apply, Pi.smul_apply, smul_eq_mul, Pi.zero_apply] at this
      rw [this, zero_mul]
    rw [sum_eq_single m] at q
    · exact (mul_eq_zero.mp q).resolve_right (hnz m (by omega))
    · intro i _ hi
      rw [horth i m (by omega) (by omega) (fun e => hi (Fin.ext e)), mul_zero]
    · intro hm; exact absurd (mem_univ m) hm
  have := hli.fintype_card_le_finrank
  simp at this

/-- The loop on a symmetric positive definite matrix: no division by zero, stops after at most `n` passes. -/
theorem cgLoop_spd (hA : ∀ i j, i < n → j < n → A i j = A j i)
    (hP : ∀ v : Nat → ℝ, (∃ i, i < n ∧ v i ≠ 0) → 0 < xdot n v (mulV n A v)) {thr : ℝ} (ht : 0 < thr) :
    ∀ (fuel k : Nat) (c : CGSt) (R D : Nat → Nat → ℝ), ResOK n A g c → Hist n A k R D → c.r = R k → c.d = D k → n ≤ k + fuel →
    ∃ c' k', cgLoop n S g thr fuel k c = some (c', k') ∧ k' ≤ max k n ∧ c'.delta < thr ∧ ResOK n A g c' ∧
      ∃ R' D', Hist n A k' R' D' ∧ c'.r = R' k'
  | 0, k, c, R, D, hc, hh, hr, hd, hk => by
    refine ⟨c, k, rfl, le_max_left _ _, ?_, hc, R, D, hh, hr⟩
    have := hh.done (by omega)
    rw [hc.2, hr, this]
    exact ht
  | fuel + 1, k, c, R, D, hc, hh, hr, hd, hk => by
    unfold cgLoop
    by_cases hlt : c.delta < thr
    · rw [if_pos hlt]
      exact ⟨c, k, rfl, le_max_left _ _, hlt, hc, R, D, hh, hr⟩
    · rw [if_neg hlt]
      have hδ : c.delta ≠ 0 := by intro e; rw [e] at hlt; exact hlt ht
      have hkn : k < n := by
        by_contra hcon
        have := hh.done (by omega)
        rw [← hr, ← hc.2] at this
        exact hδ this
      have hdne : ∃ i, i < n ∧ c.d i ≠ 0 := by
        by_contra hcon
        have hz : ∀ i, i < n → c.d i = 0 := by
          intro i hi
          by_contra q
          exact hcon ⟨i, hi, q⟩
        have := hh.self k le_rfl
        rw [← hd, ← hr, xdot_congr (p' := fun _ => 0) hz (fun _ _ => rfl), ← hc.2, xdot_eq] at this
        simp at this
        exact hδ this.symm
      have hdq : xdot n c.d (S c.d) ≠ 0 := by
        rw [xdot_congr (fun _ _ => rfl) (fun i hi => hS c.d i hi)]
        exact ne_of_gt (hP c.d hdne)
      have hst : ∃ c1, cgStep n S g k c = some c1 := by
        unfold cgStep
        simp only []
        rw [if_neg (by rintro (e | e); exacts [hdq e, hδ e])]
        exact ⟨_, rfl⟩
      obtain ⟨c1, hst⟩ := hst
      rw [hst]
      have hn := hh.next hS hA hc hr hd hst
      obtain ⟨_, _, _, _, _, _, _, _, hok⟩ := cgStep_spec hS hc hst
      obtain ⟨c', k', h1, h2, h3⟩ := cgLoop_spd hA hP ht fuel (k + 1) c1 _ _ hok hn (by simp) (by simp) (by omega)
      refine ⟨c', k', h1, ?_, h3⟩
      omega

end

end MVMC
