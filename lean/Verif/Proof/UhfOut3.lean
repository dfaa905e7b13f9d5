import Verif.Proof.UhfOut2
import Verif.Proof.Uhf4

/-! The orbitals of the two spins diagonalised separately span the same space as the lowest orbitals of the full matrix. -/
namespace MVMC
open MVMC.Spec Finset

theorem hermU_herm (M : Nat) (A : Mat2) : HermOn M (hermU A) := by
  intro i _ j _
  unfold hermU
  rcases lt_trichotomy i j with h | h | h
  · rw [if_pos h, if_neg (show ¬ j < i by omega), if_neg (show ¬ j = i by omega), Complex.conj_conj]
  · subst h; rw [if_neg (lt_irrefl _), if_pos rfl, Complex.conj_ofReal]
  · rw [if_neg (show ¬ i < j by omega), if_neg (show ¬ i = j by omega), if_pos h]

/-- eigenvectors of a Hermitian matrix with different eigenvalues -/
theorem eig_orth {M : Nat} {h : Mat2} (hh : HermOn M h) {v w : Nat → ℂ} {a b : ℝ}
    (hv : ∀ i < M, ∑ l ∈ range M, h i l * v l = (a : ℂ) * v i) (hw : ∀ i < M, ∑ l ∈ range M, h i l * w l = (b : ℂ) * w i) (hab : a ≠ b) :
    ∑ l ∈ range M, (starRingEnd ℂ) (v l) * w l = 0 := by
  have e1 : ∑ i ∈ range M, (starRingEnd ℂ) (v i) * ∑ l ∈ range M, h i l * w l = (b : ℂ) * ∑ l ∈ range M, (starRingEnd ℂ) (v l) * w l := by
    rw [Finset.mul_sum]
    refine Finset.sum_congr rfl fun i hi => ?_
    rw [hw i (Finset.mem_range.mp hi)]; ring
  have e2 : ∑ i ∈ range M, (starRingEnd ℂ) (v i) * ∑ l ∈ range M, h i l * w l = (a : ℂ) * ∑ l ∈ range M, (starRingEnd ℂ) (v l) * w l := by
    rw [Finset.mul_sum]
    simp only [Finset.mul_sum]
    rw [Finset.sum_comm]
    refine Finset.sum_congr rfl fun l hl => ?_
    have hl' := Finset.mem_range.mp hl
    have := congrArg (starRingEnd ℂ) (hv l hl')
    rw [map_sum, map_mul, Complex.conj_ofReal] at this
    rw [← mul_assoc, ← this, Finset.sum_mul]
    refine Finset.sum_congr rfl fun i hi => ?_
    rw [map_mul, ← hh i (Finset.mem_range.mp hi) l hl']; ring
  have e3 : ((a : ℂ) - b) * ∑ l ∈ range M, (starRingEnd ℂ) (v l) * w l = 0 := by rw [sub_mul, ← e1, ← e2, sub_self]
  rcases mul_eq_zero.mp e3 with h | h
  · exact absurd (by exact_mod_cast sub_eq_zero.mp h) hab
  · exact h

theorem ortho_full {M : Nat} {φ : Mat2} (h : Orthonormal M M φ) {i j : Nat} (hi : i < M) (hj : j < M) :
    ∑ k ∈ range M, φ k i * (starRingEnd ℂ) (φ k j) = if i = j then 1 else 0 := by
  let V : Matrix (Fin M) (Fin M) ℂ := Matrix.of fun k l => φ k l
  have h1 : V.map (starRingEnd ℂ) * V.transpose = 1 := by
    ext a b
    rw [Matrix.mul_apply, Matrix.one_apply]
    have := h a a.2 b b.2
    rw [Finset.sum_range] at this
    simp only [Fin.ext_iff]
    exact this
  have h2 := mul_eq_one_comm.mp h1
  have h3 := congrFun (congrFun h2 ⟨i, hi⟩) ⟨j, hj⟩
  rw [Matrix.mul_apply, Matrix.one_apply] at h3
  rw [Finset.sum_range]
  simp only [Fin.mk.injEq] at h3
  exact h3

/-- If `n` orthonormal orbitals are orthogonal to all but the first `n` of a complete set, the two determinants differ by a phase. -/
theorem same_slater {M n : Nat} {φ ψ : Mat2} (hn : n ≤ M) (hφ : Orthonormal M M φ) (hψ : Orthonormal M n ψ)
    (ho : ∀ a < n, ∀ k, n ≤ k → k < M → ∑ l ∈ range M, (starRingEnd ℂ) (φ k l) * ψ a l = 0) :
    ∃ c : ℂ, Complex.normSq c = 1 ∧ ∀ x : List Nat, x.length = n → (∀ y ∈ x, y < M) → slater n ψ x = c * slater n φ x := by
  let w : Nat → Nat → ℂ := fun a k => ∑ l ∈ range M, (starRingEnd ℂ) (φ k l) * ψ a l
  have exp : ∀ a < n, ∀ y < M, ψ a y = ∑ k ∈ range n, w a k * φ k y := by
    intro a ha y hy
    have e1 : ∑ k ∈ range M, w a k * φ k y = ψ a y := by
      simp only [w, Finset.sum_mul]
      rw [Finset.sum_comm]
      rw [Finset.sum_congr rfl (g := fun l => ψ a l * if y = l then 1 else 0)]
      · rw [Finset.sum_eq_single y]
        · rw [if_pos rfl, mul_one]
        · intro l _ hl; rw [if_neg (Ne.symm hl), mul_zero]
        · intro h; exact absurd (Finset.mem_range.mpr hy) h
      · intro l hl
        rw [← ortho_full hφ hy (Finset.mem_range.mp hl), Finset.mul_sum]
        refine Finset.sum_congr rfl fun k _ => by ring
    rw [← e1]
    symm
    apply Finset.sum_subset (Finset.range_mono hn)
    intro k hk hk'
    rw [Finset.mem_range] at hk hk'
    show w a k * _ = 0
    rw [show w a k = 0 from ho a ha k (by omega) hk, zero_mul]
  let W : Matrix (Fin n) (Fin n) ℂ := Matrix.of fun a k => w a k
  have unit : W * W.conjTranspose = 1 := by
    ext a b
    rw [Matrix.mul_apply, Matrix.one_apply]
    have e1 : ∀ k : Fin n, W a k * W.conjTranspose k b = w a k * (starRingEnd ℂ) (w b k) := fun k => rfl
    simp only [e1]
    rw [← Finset.sum_range (fun k => w a k * (starRingEnd ℂ) (w b k))]
    have h1 := hψ b b.2 a a.2
    have e2 : ∑ l ∈ range M, (starRingEnd ℂ) (ψ b l) * ψ a l = ∑ k ∈ range n, w a k * (starRingEnd ℂ) (w b k) := by
      have e3 : ∀ k, (starRingEnd ℂ) (w b k) = ∑ l ∈ range M, φ k l * (starRingEnd ℂ) (ψ b l) := by
        intro k
        simp only [w]
        rw [map_sum]
        refine Finset.sum_congr rfl fun l _ => ?_
        rw [map_mul, Complex.conj_conj]
      simp only [e3, Finset.mul_sum]
      rw [Finset.sum_comm]
      refine Finset.sum_congr rfl fun l hl => ?_
      rw [exp a a.2 l (Finset.mem_range.mp hl), Finset.mul_sum]
      refine Finset.sum_congr rfl fun k _ => by ring
    rw [← e2, h1]
    simp only [Fin.ext_iff, eq_comm]
  refine ⟨W.det, ?_, ?_⟩
  · have := congrArg Matrix.det unit
    rw [Matrix.det_mul, Matrix.det_conjTranspose, Matrix.det_one] at this
    have h2 : ((Complex.normSq W.det : ℝ) : ℂ) = 1 := by rw [← Complex.mul_conj]; exact this
    exact_mod_cast h2
  · intro x hx hM
    unfold slater
    rw [if_pos hx, if_pos hx, ← Matrix.det_mul]
    congr 1
    ext a i
    rw [Matrix.mul_apply]
    show ψ a (x.getD i 0) = ∑ k : Fin n, w a k * φ k (x.getD i 0)
    have hlt : x.getD i 0 < M := by
      apply hM
      rw [List.getD_eq_getElem?_getD, List.getElem?_eq_getElem (by rw [hx]; exact i.2)]
      exact List.getElem_mem _
    rw [exp a a.2 _ hlt, Finset.sum_range]

section
variable {N : Nat} {U D : Nat → Nat → ℂ}

theorem spin_even (m z : Nat) : spinOrbitals N U D (2 * m) z = if z < N then U m z else 0 := by
  unfold spinOrbitals; rw [if_pos (by omega), show 2 * m / 2 = m by omega]
theorem spin_odd (m z : Nat) : spinOrbitals N U D (2 * m + 1) z = if z < N then 0 else D m (z - N) := by
  unfold spinOrbitals; rw [if_neg (by omega), show (2 * m + 1) / 2 = m by omega]

theorem sum_spin (f : Nat → ℂ) : ∑ l ∈ range (2 * N), f l = ∑ l ∈ range N, f l + ∑ l ∈ range N, f (l + N) := by
  rw [two_mul, Finset.sum_range_add]
  congr 1
  exact Finset.sum_congr rfl fun l _ => by rw [add_comm]

theorem spin_ortho {n : Nat} (hU : Orthonormal N n U) (hD : Orthonormal N n D) : Orthonormal (2 * N) (2 * n) (spinOrbitals N U D) := by
  intro k hk m hm
  obtain ⟨k', rfl | rfl⟩ : ∃ k', k = 2 * k' ∨ k = 2 * k' + 1 := ⟨k / 2, by omega⟩ <;>
  obtain ⟨m', rfl | rfl⟩ : ∃ m', m = 2 * m' ∨ m = 2 * m' + 1 := ⟨m / 2, by omega⟩
  · rw [sum_spin]
    simp only [spin_even]
    rw [Finset.sum_congr rfl (g := fun l => (starRingEnd ℂ) (U k' l) * U m' l), hU k' (by omega) m' (by omega), Finset.sum_eq_zero]
    · rw [add_zero]; by_cases h : k' = m'
      · rw [if_pos h, if_pos (by omega)]
      · rw [if_neg h, if_neg (by omega)]
    · intro l _; rw [if_neg (by omega), map_zero, zero_mul]
    · intro l hl; rw [Finset.mem_range] at hl; rw [if_pos hl, if_pos hl]
  · rw [if_neg (by omega)]
    apply Finset.sum_eq_zero
    intro l _
    rw [spin_even, spin_odd]
    by_cases h : l < N
    · rw [if_pos h, if_pos h, mul_zero]
    · rw [if_neg h, map_zero, zero_mul]
  · rw [if_neg (by omega)]
    apply Finset.sum_eq_zero
    intro l _
    rw [spin_even, spin_odd]
    by_cases h : l < N
    · rw [if_pos h, map_zero, zero_mul]
    · rw [if_neg h, if_neg h, mul_zero]
  · rw [sum_spin]
    simp only [spin_odd]
    rw [Finset.sum_eq_zero, Finset.sum_congr rfl (g := fun l => (starRingEnd ℂ) (D k' l) * D m' l), hD k' (by omega) m' (by omega)]
    · rw [zero_add]; by_cases h : k' = m'
      · rw [if_pos h, if_pos (by omega)]
      · rw [if_neg h, if_neg (by omega)]
    · intro l _; rw [if_neg (by omega), if_neg (by omega), Nat.add_sub_cancel]
    · intro l hl; rw [Finset.mem_range] at hl; rw [if_pos hl, map_zero, zero_mul]

/-- no matrix elements between the two spins -/
def SpinDiag (N : Nat) (A : Mat2) : Prop := ∀ i < N, ∀ j < N, A i (j + N) = 0

theorem hermU_block (A : Mat2) {i j : Nat} : hermU (fun i j => A (i + N) (j + N)) i j = hermU A (i + N) (j + N) := by
  unfold hermU
  simp only [Nat.add_lt_add_iff_right, Nat.add_right_cancel_iff]

theorem hermU_off {A : Mat2} (hs : SpinDiag N A) {i j : Nat} (hi : i < N) (hj : j < N) : hermU A i (j + N) = 0 ∧ hermU A (i + N) j = 0 := by
  unfold hermU
  refine ⟨?_, ?_⟩
  · rw [if_pos (by omega)]; exact hs i hi j hj
  · rw [if_neg (by omega), if_neg (by omega), hs j hj i hi, map_zero]

theorem spin_eig_up {A : Mat2} (hs : SpinDiag N A) {a : Nat} {e : ℝ}
    (hU : ∀ i < N, ∑ l ∈ range N, hermU A i l * U a l = (e : ℂ) * U a i) :
    ∀ i < 2 * N, ∑ l ∈ range (2 * N), hermU A i l * spinOrbitals N U D (2 * a) l = (e : ℂ) * spinOrbitals N U D (2 * a) i := by
  intro i hi
  rw [sum_spin]
  simp only [spin_even]
  rw [Finset.sum_congr rfl (g := fun l => hermU A i l * U a l) (s₁ := range N) (fun l hl => by rw [Finset.mem_range] at hl; rw [if_pos hl])]
  rw [Finset.sum_eq_zero (f := fun l => hermU A i (l + N) * _) (fun l _ => by rw [if_neg (by omega), mul_zero]), add_zero]
  by_cases h : i < N
  · rw [if_pos h, hU i h]
  · rw [if_neg h, mul_zero]
    apply Finset.sum_eq_zero
    intro l hl
    rw [Finset.mem_range] at hl
    obtain ⟨j, rfl⟩ : ∃ j, i = j + N := ⟨i - N, by omega⟩
    rw [(hermU_off hs (by omega) hl).2, zero_mul]

theorem spin_eig_dn {A : Mat2} (hs : SpinDiag N A) {a : Nat} {e : ℝ}
    (hD : ∀ i < N, ∑ l ∈ range N, hermU A (i + N) (l + N) * D a l = (e : ℂ) * D a i) :
    ∀ i < 2 * N, ∑ l ∈ range (2 * N), hermU A i l * spinOrbitals N U D (2 * a + 1) l = (e : ℂ) * spinOrbitals N U D (2 * a + 1) i := by
  intro i hi
  rw [sum_spin]
  simp only [spin_odd]
  rw [Finset.sum_congr rfl (g := fun l => hermU A i (l + N) * D a l) (s₁ := range N) (f := fun l => hermU A i (l + N) * _)
    (fun l hl => by rw [if_neg (by omega), Nat.add_sub_cancel])]
  rw [Finset.sum_eq_zero (f := fun l => hermU A i l * _) (fun l hl => by rw [Finset.mem_range] at hl; rw [if_pos hl, mul_zero]), zero_add]
  by_cases h : i < N
  · rw [if_pos h, mul_zero]
    apply Finset.sum_eq_zero
    intro l hl
    rw [Finset.mem_range] at hl
    rw [(hermU_off hs h hl).1, zero_mul]
  · obtain ⟨j, rfl⟩ : ∃ j, i = j + N := ⟨i - N, by omega⟩
    rw [if_neg h, Nat.add_sub_cancel, hD j (by omega)]

end

end MVMC
