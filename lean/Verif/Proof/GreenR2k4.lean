import Verif.Proof.GreenR2k3
import Mathlib.LinearAlgebra.Matrix.ToLinearEquiv

/-! # Proofs about the Fourier tool: the lattice from the geometry file -/
namespace MVMC
open Spec

theorem r2kCubic_cond (box : R2V × R2V × R2V) (v : R2V) (h1 : ∀ s ∈ r2kShifts, r2kSq (r2kMove box v s) ≤ 10 ^ 8) :
    (∀ s ∈ r2kShifts, r2kLen r2kCubic (r2kMove box v s) < 10 ^ 10 - 1 / 10 ^ 6) ∧
    (∀ s ∈ r2kShifts, ∀ t ∈ r2kShifts, r2kLen r2kCubic (r2kMove box v s) = r2kLen r2kCubic (r2kMove box v t) ∨
      1 / 10 ^ 6 < |r2kLen r2kCubic (r2kMove box v s) - r2kLen r2kCubic (r2kMove box v t)|) := by
  constructor
  · intro s hs
    rw [r2kLen_cubic]
    have : Real.sqrt (r2kSq (r2kMove box v s)) ≤ 10 ^ 4 := by
      rw [Real.sqrt_le_left (by norm_num)]
      have : ((r2kSq (r2kMove box v s) : ℕ) : ℝ) ≤ ((10 ^ 8 : ℕ) : ℝ) := by exact_mod_cast h1 s hs
      norm_num at this ⊢
      exact this
    refine lt_of_le_of_lt this ?_
    norm_num
  · intro s hs t ht
    rw [r2kLen_cubic, r2kLen_cubic]
    rcases lt_trichotomy (r2kSq (r2kMove box v s)) (r2kSq (r2kMove box v t)) with h | h | h
    · right
      rw [abs_sub_comm]
      exact lt_of_lt_of_le (r2k_sqrt_sep (h1 s hs) h) (le_abs_self _)
    · left; rw [h]
    · right
      exact lt_of_lt_of_le (r2k_sqrt_sep (h1 t ht) h) (le_abs_self _)

/-- only the zero vector has length 0 if the lattice vectors are independent -/
theorem r2kLen_zero {d : Fin 3 → Fin 3 → ℝ} (hd : (Matrix.of d).det ≠ 0) {v : R2V} : r2kLen d v = 0 ↔ v = 0 := by
  constructor
  · intro h
    rw [r2kLen, Real.sqrt_eq_zero (Finset.sum_nonneg fun _ _ => sq_nonneg _), Finset.sum_eq_zero_iff_of_nonneg (fun _ _ => sq_nonneg _)] at h
    have e : Matrix.vecMul ![(v.1 : ℝ), (v.2.1 : ℝ), (v.2.2 : ℝ)] (Matrix.of d) = 0 := by
      funext i
      have := pow_eq_zero_iff (two_ne_zero) |>.mp (h i (Finset.mem_univ _))
      simp only [Matrix.vecMul, dotProduct, Fin.sum_univ_three, Matrix.of_apply, Pi.zero_apply]
      simp only [Matrix.cons_val_zero, Matrix.cons_val_one, Matrix.cons_val_two, Matrix.vecHead, Matrix.vecTail, Function.comp, Fin.succ_zero_eq_one]
      linarith
    have z := Matrix.eq_zero_of_vecMul_eq_zero hd e
    have z0 := congrFun z 0
    have z1 := congrFun z 1
    have z2 := congrFun z 2
    simp at z0 z1 z2
    exact Prod.ext z0 (Prod.ext z1 z2)
  · rintro rfl
    simp [r2kLen]

theorem r2kMove_back (box : R2V × R2V × R2V) (v w s t : R2V) (h : r2kMove box v s = r2kMove box w t) : r2kMove box v (s - t) = w := by
  have : r2kMove box v (s - t) = r2kMove box v s - (t.1 • box.1 + t.2.1 • box.2.1 + t.2.2 • box.2.2) := by
    simp only [r2kMove, Prod.fst_sub, Prod.snd_sub, sub_smul]
    abel
  rw [this, h]
  simp only [r2kMove]
  abel

/-- the index of the R-vector of a site -/
theorem r2kGeoOf_rindx (d : Fin 3 → Fin 3 → ℝ) (box : R2V × R2V × R2V) (sites : List (R2V × ℕ)) (i : ℕ) (hi : i < sites.length) :
    (r2kSites (sites.map Prod.fst) [] []).1[(r2kGeoOf d box sites).rindx i]? = some sites[i].1 := by
  obtain ⟨ext, new, e, _, hf, _⟩ := r2kSites_spec (sites.map Prod.fst) [] [] List.nodup_nil
  simp only [List.nil_append] at hf e
  have hlen := hf.length_eq
  rw [List.length_map] at hlen
  simp only [r2kGeoOf]
  rw [e]
  have hi' : i < new.length := by omega
  have := hf.get (by simpa using hi) hi'
  simp only [List.get_eq_getElem, List.getElem_map] at this
  rw [List.getD_eq_getElem?_getD, List.getElem?_eq_getElem hi']
  exact this

end MVMC
