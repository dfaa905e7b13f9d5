import Verif.Proof.Lanczos
import Mathlib.Analysis.Matrix.Spectrum

/-! # Averages of local values, and the variational principle, for matrices -/
namespace MVMC
open Complex Matrix Finset MVMC.Spec

section
variable {ι : Type} [Fintype ι] [DecidableEq ι]

omit [DecidableEq ι] in
/-- the average of the local value over `|ψ|²` is the expectation value, zeros of `ψ` included -/
theorem sum_local_one (ψ : ι → ℂ) (A : Matrix ι ι ℂ) : ∑ x, (normSq (ψ x) : ℂ) * localValue ψ A x = ev ψ A := by
  have e : ∀ x, (normSq (ψ x) : ℂ) * localValue ψ A x = (∑ y, (starRingEnd ℂ) (ψ y) * A y x) * ψ x := by
    intro x
    unfold localValue
    by_cases h : ψ x = 0
    · simp [h]
    · have h2 : (starRingEnd ℂ) (ψ x) ≠ 0 := by simpa using h
      rw [← Complex.mul_conj]
      field_simp
  rw [Finset.sum_congr rfl (fun x _ => e x)]
  unfold ev dotProduct mulVec dotProduct
  simp only [Finset.sum_mul, Finset.mul_sum, Pi.star_apply]
  rw [Finset.sum_comm]
  refine Finset.sum_congr rfl fun y _ => Finset.sum_congr rfl fun x _ => ?_
  rw [mul_assoc]
  rfl

omit [DecidableEq ι] in
/-- an eigenvector has the same local value everywhere -/
theorem localValue_eigen (ψ : ι → ℂ) (A : Matrix ι ι ℂ) (hA : A.IsHermitian) (E : ℝ) (h : A *ᵥ ψ = (E : ℂ) • ψ) (x : ι) (hx : ψ x ≠ 0) :
    localValue ψ A x = E := by
  unfold localValue
  rw [div_eq_iff (by simpa using hx)]
  have := congrArg (starRingEnd ℂ) (congrFun h x)
  simp only [mulVec, dotProduct, map_sum, map_mul, Pi.smul_apply, smul_eq_mul, conj_ofReal] at this
  rw [← this]
  refine Finset.sum_congr rfl fun y _ => ?_
  have e : (starRingEnd ℂ) (A x y) = A y x := by
    have := congrFun (congrFun hA.eq y) x
    rw [conjTranspose_apply] at this
    exact this
  rw [e, mul_comm]

omit [DecidableEq ι] in
theorem norm2_pos_of {ψ : ι → ℂ} (h : ψ ≠ 0) : 0 < norm2 ψ := by
  obtain ⟨x, hx⟩ := Function.ne_iff.mp h
  unfold norm2
  exact Finset.sum_pos' (fun _ _ => normSq_nonneg _) ⟨x, mem_univ x, normSq_pos.mpr hx⟩

/-- some eigenvalue is not above the energy of the state -/
theorem exists_eigen_le (A : Matrix ι ι ℂ) (hA : A.IsHermitian) (ψ : ι → ℂ) (hψ : ψ ≠ 0) :
    ∃ (lam : ℝ) (v : ι → ℂ), v ≠ 0 ∧ A *ᵥ v = (lam : ℂ) • v ∧ lam ≤ energyOfState ψ A := by
  classical
  set U : Matrix ι ι ℂ := (hA.eigenvectorUnitary : Matrix ι ι ℂ) with hU
  have hUU : U * Uᴴ = 1 := (Matrix.mem_unitaryGroup_iff).mp hA.eigenvectorUnitary.2
  have hUU' : Uᴴ * U = 1 := (Matrix.mem_unitaryGroup_iff').mp hA.eigenvectorUnitary.2
  set φ : ι → ℂ := Uᴴ *ᵥ ψ with hφ
  have hback : ψ = U *ᵥ φ := by rw [hφ, mulVec_mulVec, hUU, one_mulVec]
  have hspec : Uᴴ * A * U = diagonal (fun i => ((hA.eigenvalues i : ℝ) : ℂ)) := by
    have := hA.conjStarAlgAut_star_eigenvectorUnitary
    rw [Unitary.conjStarAlgAut_apply] at this
    have h2 : Uᴴ * A * U = diagonal (ofReal ∘ hA.eigenvalues) := by simpa [hU, star_eq_conjTranspose] using this
    exact h2
  have hev : ev ψ A = ∑ i, ((hA.eigenvalues i * normSq (φ i) : ℝ) : ℂ) := by
    rw [hback, ev_mulVec, hspec]
    unfold ev dotProduct
    refine Finset.sum_congr rfl fun i _ => ?_
    rw [mulVec_diagonal, Pi.star_apply]
    push_cast
    rw [← Complex.mul_conj]
    simp only [RCLike.star_def]
    ring
  have hno : norm2 ψ = ∑ i, normSq (φ i) := by
    have h1 := ev_one ψ
    rw [hback, ev_mulVec, Matrix.mul_one, hUU', ev_one, ← hback] at h1
    have : norm2 φ = norm2 ψ := by exact_mod_cast h1
    rw [← this]; rfl
  have hE : energyOfState ψ A * norm2 ψ = ∑ i, hA.eigenvalues i * normSq (φ i) := by
    unfold energyOfState Spec.expect
    rw [hev, ← ofReal_sum, ← ofReal_div, ofReal_re, div_mul_cancel₀ _ (ne_of_gt (norm2_pos_of hψ))]
  by_contra hcon
  push Not at hcon
  have hbig : ∀ i, energyOfState ψ A < hA.eigenvalues i := by
    intro i
    refine hcon (hA.eigenvalues i) (fun x => hA.eigenvectorBasis i x) ?_ ?_
    · intro h0
      have := hA.eigenvectorBasis.orthonormal.ne_zero i
      apply this
      ext x
      exact congrFun h0 x
    · have := hA.mulVec_eigenvectorBasis i
      simpa using this
  have hφ0 : φ ≠ 0 := by
    intro h
    apply hψ
    rw [hback, h, mulVec_zero]
  obtain ⟨x, hx⟩ := Function.ne_iff.mp hφ0
  have : energyOfState ψ A * norm2 ψ < ∑ i, hA.eigenvalues i * normSq (φ i) := by
    rw [hno, Finset.mul_sum]
    refine Finset.sum_lt_sum (fun i _ => mul_le_mul_of_nonneg_right (le_of_lt (hbig i)) (normSq_nonneg _)) ⟨x, mem_univ x, ?_⟩
    exact mul_lt_mul_of_pos_right (hbig x) (normSq_pos.mpr hx)
  rw [hE] at this
  exact lt_irrefl _ this

/-- the same inside a sector that the operator does not leave -/
theorem exists_eigen_le_sector (A : Matrix ι ι ℂ) (hA : A.IsHermitian) (P : ι → Prop) [DecidablePred P] (hP : ∀ S T, P S → ¬ P T → A T S = 0)
    (ψ : ι → ℂ) (hψ : ψ ≠ 0) (hs : ∀ x, ¬ P x → ψ x = 0) :
    ∃ (lam : ℝ) (v : ι → ℂ), v ≠ 0 ∧ (∀ x, ¬ P x → v x = 0) ∧ A *ᵥ v = (lam : ℂ) • v ∧ lam ≤ energyOfState ψ A := by
  let B : Matrix {x // P x} {x // P x} ℂ := fun a b => A a.1 b.1
  have hB : B.IsHermitian := by
    ext a b
    exact congrFun (congrFun hA.eq a.1) b.1
  let φ : {x // P x} → ℂ := fun a => ψ a.1
  have hφ : φ ≠ 0 := by
    obtain ⟨x, hx⟩ := Function.ne_iff.mp hψ
    have px : P x := by
      by_contra h
      exact hx (hs x h)
    exact fun h => hx (congrFun h ⟨x, px⟩)
  have hsum : ∀ f : ι → ℂ, (∀ x, ¬ P x → f x = 0) → ∑ a : {x // P x}, f a.1 = ∑ x, f x := by
    intro f hf
    rw [← Finset.sum_subtype (univ.filter P) (by simp) f, Finset.sum_filter]
    refine Finset.sum_congr rfl fun x _ => ?_
    by_cases h : P x
    · rw [if_pos h]
    · rw [if_neg h, hf x h]
  obtain ⟨lam, w, hw, he, hl⟩ := exists_eigen_le B hB φ hφ
  refine ⟨lam, fun x => if h : P x then w ⟨x, h⟩ else 0, ?_, fun x h => by simp [h], ?_, ?_⟩
  · intro h0
    apply hw
    funext a
    have := congrFun h0 a.1
    simpa [a.2] using this
  · funext x
    have e : (A *ᵥ fun x => if h : P x then w ⟨x, h⟩ else 0) x = ∑ a : {x // P x}, A x a.1 * w a := by
      unfold mulVec dotProduct
      rw [← hsum]
      · refine Finset.sum_congr rfl fun a _ => by simp [a.2]
      · intro y hy; simp [hy]
    rw [e]
    by_cases h : P x
    · have := congrFun he ⟨x, h⟩
      simp only [mulVec, dotProduct, Pi.smul_apply, smul_eq_mul] at this
      simp only [Pi.smul_apply, smul_eq_mul, h, dif_pos]
      exact this
    · simp only [Pi.smul_apply, smul_eq_mul, h, dif_neg, not_false_eq_true, mul_zero]
      exact Finset.sum_eq_zero fun a _ => by rw [hP a.1 x a.2 h, zero_mul]
  · have e1 : ev φ B = ev ψ A := by
      unfold ev dotProduct mulVec dotProduct
      rw [← hsum (fun x => star ψ x * ∑ y, A x y * ψ y) (fun x hx => by simp [hs x hx])]
      refine Finset.sum_congr rfl fun a _ => ?_
      congr 1
      exact hsum (fun y => A a.1 y * ψ y) (fun y hy => by simp [hs y hy])
    have e2 : norm2 φ = norm2 ψ := by
      have := hsum (fun x => (normSq (ψ x) : ℂ)) (fun x hx => by simp [hs x hx])
      unfold norm2
      exact_mod_cast this
    have : energyOfState φ B = energyOfState ψ A := by unfold energyOfState Spec.expect; rw [e1, e2]
    rw [← this]
    exact hl

theorem energyOfState_eq (A : Matrix ι ι ℂ) (hA : A.IsHermitian) (ψ : ι → ℂ) : Spec.expect ψ A = (energyOfState ψ A : ℂ) := by
  unfold energyOfState Spec.expect
  rw [ev_real ψ A hA, ← ofReal_div, ofReal_re]

end
end MVMC
