import Verif.Proof.Uhf
import Mathlib.LinearAlgebra.Matrix.NonsingularInverse

/-! Hermiticity, band energy and expectation value of the Hartree–Fock program. -/
namespace MVMC
open MVMC.Spec

/-! ### Hermitian conjugate lines -/

section
variable {N : Nat} {H : HamPar}

theorem sum_involution_range {n : Nat} (π : Nat → Nat) (h : ∀ i < n, π i < n ∧ π (π i) = i) (f g : Nat → ℂ)
    (e : ∀ i < n, f i = g (π i)) : ∑ i ∈ Finset.range n, f i = ∑ i ∈ Finset.range n, g i := by
  refine Finset.sum_nbij' π π (fun i hi => Finset.mem_range.mpr (h i (Finset.mem_range.mp hi)).1)
    (fun i hi => Finset.mem_range.mpr (h i (Finset.mem_range.mp hi)).1) (fun i hi => (h i (Finset.mem_range.mp hi)).2)
    (fun i hi => (h i (Finset.mem_range.mp hi)).2) (fun i hi => e i (Finset.mem_range.mp hi))

/-- conjugating a sum over the lines of a Hermitian Hamiltonian -/
theorem conj_lineSum (hi : HamIdx N H) (hd : HamDistinct H) (hh : HamHerm H) (f f' : List Op → ℂ)
    (h1 : ∀ I J, I < 2 * N → J < 2 * N → (starRingEnd ℂ) (f [.cr I, .an J]) = f' [.cr J, .an I])
    (h2 : ∀ I J K L, I < 2 * N → J < 2 * N → K < 2 * N → L < 2 * N →
      (starRingEnd ℂ) (f [.cr I, .an J, .cr K, .an L]) = f' [.cr L, .an K, .cr J, .an I])
    (h3 : ∀ I J K L, J ≠ K → L ≠ I → f' [.cr I, .an J, .cr K, .an L] = f' [.cr K, .an L, .cr I, .an J]) :
    (starRingEnd ℂ) (lineSum f (hamTerms N H)) = lineSum f' (hamTerms N H) := by
  unfold hamTerms
  simp only [lineSum_append, lineSum_flat, map_add, map_sum]
  congr 1
  · congr 1
    · congr 1
      · congr 1
        · congr 1
          · congr 1
            · refine Finset.sum_congr rfl fun i h => ?_
              have a := hi.ci i (Finset.mem_range.mp h)
              simp only [lineSum, termCoulombIntra, numOp, List.cons_append, List.nil_append, List.map_cons, List.map_nil, List.sum_cons,
                List.sum_nil, add_zero, map_mul, Complex.conj_ofReal]
              rw [h2 _ _ _ _ (by omega) (by omega) (by omega) (by omega), h3 _ _ _ _ (by omega) (by omega)]
            · refine Finset.sum_congr rfl fun i h => ?_
              obtain ⟨a, b⟩ := hi.co i (Finset.mem_range.mp h)
              have hne := hd.co i (Finset.mem_range.mp h)
              simp only [lineSum, termCoulombInter, numOp, List.cons_append, List.nil_append, List.map_cons, List.map_nil, List.sum_cons,
                List.sum_nil, add_zero, map_add, map_mul, Complex.conj_ofReal]
              rw [h2 _ _ _ _ (by omega) (by omega) (by omega) (by omega), h2 _ _ _ _ (by omega) (by omega) (by omega) (by omega),
                h2 _ _ _ _ (by omega) (by omega) (by omega) (by omega), h2 _ _ _ _ (by omega) (by omega) (by omega) (by omega),
                h3 (H.co i 1) (H.co i 1) (H.co i 0) (H.co i 0) (by omega) (by omega),
                h3 (H.co i 1 + N) (H.co i 1 + N) (H.co i 0) (H.co i 0) (by omega) (by omega),
                h3 (H.co i 1) (H.co i 1) (H.co i 0 + N) (H.co i 0 + N) (by omega) (by omega),
                h3 (H.co i 1 + N) (H.co i 1 + N) (H.co i 0 + N) (H.co i 0 + N) (by omega) (by omega)]
          · refine Finset.sum_congr rfl fun i h => ?_
            obtain ⟨a, b⟩ := hi.hu i (Finset.mem_range.mp h)
            have hne := hd.hu i (Finset.mem_range.mp h)
            simp only [lineSum, termHund, numOp, List.cons_append, List.nil_append, List.map_cons, List.map_nil, List.sum_cons,
              List.sum_nil, add_zero, map_add, map_mul, map_neg, Complex.conj_ofReal]
            rw [h2 _ _ _ _ (by omega) (by omega) (by omega) (by omega), h2 _ _ _ _ (by omega) (by omega) (by omega) (by omega),
              h3 (H.hu i 1) (H.hu i 1) (H.hu i 0) (H.hu i 0) (by omega) (by omega),
              h3 (H.hu i 1 + N) (H.hu i 1 + N) (H.hu i 0 + N) (H.hu i 0 + N) (by omega) (by omega)]
        · obtain ⟨π, hπ⟩ := hh.tr
          refine sum_involution_range π (fun i h => ⟨(hπ i h).1, (hπ i h).2.1⟩) _ _ fun i h => ?_
          obtain ⟨_, _, e0, e1, e2, e3, e4⟩ := hπ i h
          obtain ⟨a, b, c, d⟩ := hi.tr i h
          simp only [lineSum, termTransfer, List.map_cons, List.map_nil, List.sum_cons,
            List.sum_nil, add_zero, map_mul, map_neg]
          rw [h1 _ _ (by nlinarith) (by nlinarith), e0, e1, e2, e3, e4]
      · obtain ⟨π, hπ⟩ := hh.ph
        refine sum_involution_range π (fun i h => ⟨(hπ i h).1, (hπ i h).2.1⟩) _ _ fun i h => ?_
        obtain ⟨_, _, e0, e1, e2⟩ := hπ i h
        obtain ⟨a, b⟩ := hi.ph i h
        simp only [lineSum, termPairHop, List.map_cons, List.map_nil, List.sum_cons,
          List.sum_nil, add_zero, map_mul, Complex.conj_ofReal]
        rw [h2 _ _ _ _ (by omega) (by omega) (by omega) (by omega), h3 _ _ _ _ (by omega) (by omega), e0, e1, e2]
    · refine Finset.sum_congr rfl fun i h => ?_
      obtain ⟨a, b⟩ := hi.ex i (Finset.mem_range.mp h)
      simp only [lineSum, termExchange, List.map_cons, List.map_nil, List.sum_cons,
        List.sum_nil, add_zero, map_add, map_mul, Complex.conj_ofReal]
      rw [h2 _ _ _ _ (by omega) (by omega) (by omega) (by omega), h2 _ _ _ _ (by omega) (by omega) (by omega) (by omega), add_comm]
  · obtain ⟨π, hπ⟩ := hh.ia
    refine sum_involution_range π (fun i h => ⟨(hπ i h).1, (hπ i h).2.1⟩) _ _ fun i h => ?_
    obtain ⟨_, _, e0, ⟨e1, e2⟩, ⟨e3, e4⟩, ⟨e5, e6⟩, e7, e8⟩ := hπ i h
    obtain ⟨⟨a, b, c, d⟩, a', b', c', d'⟩ := hi.ia i h
    simp only [lineSum, termInterAll, List.map_cons, List.map_nil, List.sum_cons, List.sum_nil, add_zero, map_mul]
    rw [h2 _ _ _ _ (by nlinarith) (by nlinarith) (by nlinarith) (by nlinarith), e0, e1, e2, e3, e4, e5, e6, e7, e8]

theorem conj_ite_one (p : Prop) [Decidable p] : (starRingEnd ℂ) (if p then (1 : ℂ) else 0) = if p then 1 else 0 := by
  split_ifs <;> simp

theorem realDiag_of_herm {M : Nat} {G : Mat2} (h : HermOn M G) : RealDiag M G := by
  intro i hi
  have := congrArg Complex.im (h i hi i hi)
  rw [Complex.conj_im] at this
  linarith

/-- `Σ_ij` with a unit matrix picks an entry -/
theorem pairing_unit {M : Nat} (A : Mat2) {a b : Nat} (ha : a < M) (hb : b < M) :
    pairing M A (fun i j => if i = a ∧ j = b then 1 else 0) = A a b := by
  unfold pairing
  rw [Finset.sum_eq_single a, Finset.sum_eq_single b]
  · simp
  · intro j _ hj; simp [hj]
  · intro h; exact absurd (Finset.mem_range.mpr hb) h
  · intro i _ hi; apply Finset.sum_eq_zero; intro j _; simp [hi]
  · intro h; exact absurd (Finset.mem_range.mpr ha) h

theorem wickLin_conj {G D D' : Mat2} (hG : HermOn (2 * N) G) (hD : ∀ i < 2 * N, ∀ j < 2 * N, (starRingEnd ℂ) (D i j) = D' j i)
    {I J K L : Nat} (hI : I < 2 * N) (hJ : J < 2 * N) (hK : K < 2 * N) (hL : L < 2 * N) :
    (starRingEnd ℂ) (wickLin G D [.cr I, .an J, .cr K, .an L]) = wickLin G D' [.cr L, .an K, .cr J, .an I] := by
  simp only [wickLin, map_add, map_sub, map_mul, conj_ite_one]
  rw [hD K hK L hL, hD I hI J hJ, hD I hI L hL, hD K hK J hJ, ← hG J hJ I hI, ← hG L hL K hK, ← hG J hJ K hK, ← hG L hL I hI]
  by_cases h : J = K
  · subst h; ring
  · rw [if_neg h, if_neg (fun e => h e.symm)]; ring

theorem wickLin_comm (G D : Mat2) {I J K L : Nat} (h : J ≠ K) (h' : L ≠ I) :
    wickLin G D [.cr I, .an J, .cr K, .an L] = wickLin G D [.cr K, .an L, .cr I, .an J] := by
  simp only [wickLin, if_neg h, if_neg h']; ring

theorem makeham_herm (hi : HamIdx N H) (hd : HamDistinct H) (hh : HamHerm H) {G : Mat2} (hG : HermOn (2 * N) G) :
    HermOn (2 * N) (makeham N H true G) := by
  intro a ha b hb
  rw [← pairing_unit (makeham N H true G) ha hb, ← pairing_unit (makeham N H true G) hb ha, pair_makeham hi hd _ (realDiag_of_herm hG),
    pair_makeham hi hd _ (realDiag_of_herm hG)]
  have hD : ∀ i < 2 * N, ∀ j < 2 * N, (starRingEnd ℂ) ((fun i j => if i = b ∧ j = a then (1 : ℂ) else 0) i j) =
      (fun i j => if i = a ∧ j = b then (1 : ℂ) else 0) j i := by
    intro i _ j _
    simp only [conj_ite_one]
    by_cases h : i = b ∧ j = a
    · rw [if_pos h, if_pos ⟨h.2, h.1⟩]
    · rw [if_neg h, if_neg (fun h' => h ⟨h'.2, h'.1⟩)]
  exact (conj_lineSum hi hd hh _ _ (fun I J hI hJ => hD I hI J hJ) (fun I J K L hI hJ hK hL => wickLin_conj hG hD hI hJ hK hL)
    (fun I J K L h h' => wickLin_comm G _ h h')).symm

theorem wickQuad_conj {G : Mat2} (hG : HermOn (2 * N) G) {I J K L : Nat} (hI : I < 2 * N) (hJ : J < 2 * N) (hK : K < 2 * N) (hL : L < 2 * N) :
    (starRingEnd ℂ) (wickQuad G [.cr I, .an J, .cr K, .an L]) = wickQuad G [.cr L, .an K, .cr J, .an I] := by
  simp only [wickQuad, map_sub, map_mul]
  rw [← hG J hJ I hI, ← hG L hL K hK, ← hG J hJ K hK, ← hG L hL I hI]
  ring

theorem quad_real (hi : HamIdx N H) (hd : HamDistinct H) (hh : HamHerm H) {G : Mat2} (hG : HermOn (2 * N) G) :
    (((lineSum (wickQuad G) (hamTerms N H)).re : ℝ) : ℂ) = lineSum (wickQuad G) (hamTerms N H) := by
  have := conj_lineSum hi hd hh (wickQuad G) (wickQuad G) (fun I J _ _ => by simp [wickQuad])
    (fun I J K L hI hJ hK hL => wickQuad_conj hG hI hJ hK hL) (fun I J K L _ _ => by simp only [wickQuad]; ring)
  exact Complex.conj_eq_iff_re.mp this

/-! ### expectation value -/

theorem expect_hf {n : Nat} {φ : Mat2} (hφ : Orthonormal (2 * N) n φ) (hi : HamIdx N H) :
    expectOf (2 * N) n (slater n φ) (hamTerms N H) = hfEnergy (rho n φ) (hamTerms N H) := by
  unfold expectOf hfEnergy
  congr 1
  apply List.map_congr_left
  have one : ∀ I J, I < 2 * N → J < 2 * N → average (2 * N) n (slater n φ) (matrixElement (slater n φ) [.cr I, .an J]) =
      wickValue (rho n φ) [.cr I, .an J] := fun I J hI hJ => wick1 φ hφ hI hJ
  have two : ∀ I J K L, I < 2 * N → J < 2 * N → K < 2 * N → L < 2 * N →
      average (2 * N) n (slater n φ) (matrixElement (slater n φ) [.cr I, .an J, .cr K, .an L]) =
      wickValue (rho n φ) [.cr I, .an J, .cr K, .an L] := by
    intro I J K L hI hJ hK hL
    rw [wick2 φ hφ hI hJ hK hL]
    simp only [wickValue]
    by_cases h : J = K
    · rw [if_pos h, if_pos h.symm]; ring
    · rw [if_neg h, if_neg (fun e => h e.symm)]; ring
  intro t ht
  congr 1
  unfold hamTerms at ht
  simp only [List.mem_append, List.mem_flatMap, List.mem_range] at ht
  rcases ht with (((((ht | ht) | ht) | ht) | ht) | ht) | ht
  · obtain ⟨i, h, ht⟩ := ht
    have a := hi.ci i h
    simp only [termCoulombIntra, numOp, List.cons_append, List.nil_append, List.mem_singleton] at ht
    subst ht
    exact two _ _ _ _ (by omega) (by omega) (by omega) (by omega)
  · obtain ⟨i, h, ht⟩ := ht
    obtain ⟨a, b⟩ := hi.co i h
    simp only [termCoulombInter, numOp, List.cons_append, List.nil_append, List.mem_cons, List.not_mem_nil, or_false] at ht
    rcases ht with rfl | rfl | rfl | rfl <;> exact two _ _ _ _ (by omega) (by omega) (by omega) (by omega)
  · obtain ⟨i, h, ht⟩ := ht
    obtain ⟨a, b⟩ := hi.hu i h
    simp only [termHund, numOp, List.cons_append, List.nil_append, List.mem_cons, List.not_mem_nil, or_false] at ht
    rcases ht with rfl | rfl <;> exact two _ _ _ _ (by omega) (by omega) (by omega) (by omega)
  · obtain ⟨i, h, ht⟩ := ht
    obtain ⟨a, b, c, d⟩ := hi.tr i h
    simp only [termTransfer, List.mem_singleton] at ht
    subst ht
    exact one _ _ (by nlinarith) (by nlinarith)
  · obtain ⟨i, h, ht⟩ := ht
    obtain ⟨a, b⟩ := hi.ph i h
    simp only [termPairHop, List.mem_singleton] at ht
    subst ht
    exact two _ _ _ _ (by omega) (by omega) (by omega) (by omega)
  · obtain ⟨i, h, ht⟩ := ht
    obtain ⟨a, b⟩ := hi.ex i h
    simp only [termExchange, List.mem_cons, List.not_mem_nil, or_false] at ht
    rcases ht with rfl | rfl <;> exact two _ _ _ _ (by omega) (by omega) (by omega) (by omega)
  · obtain ⟨i, h, ht⟩ := ht
    obtain ⟨⟨a, b, c, d⟩, a', b', c', d'⟩ := hi.ia i h
    simp only [termInterAll, List.mem_singleton] at ht
    subst ht
    exact two _ _ _ _ (by nlinarith) (by nlinarith) (by nlinarith) (by nlinarith)

end

/-! ### diagonalisation -/

section
variable {zheev : Nat → (Nat → ℂ) → (Nat → ℝ) × (Nat → ℂ)} {n : Nat} {A : Mat2}

theorem hermU_congr {A B : Mat2} {i j : Nat} (h : A i j = B i j) (h' : A j i = B j i) (h'' : A i i = B i i) : hermU A i j = hermU B i j := by
  unfold hermU; rw [h, h', h'']

theorem zheevAll_eigen (hz : ZheevOK zheev n (fun k => A (k % n) (k / n))) :
    (∀ k < n, ∀ i < n, ∑ l ∈ Finset.range n, hermU A i l * (zheevAll zheev n A).2 k l = ((zheevAll zheev n A).1 k : ℂ) * (zheevAll zheev n A).2 k i) ∧
    Orthonormal n n (zheevAll zheev n A).2 := by
  have flat : ∀ i < n, ∀ j < n, A ((i + j * n) % n) ((i + j * n) / n) = A i j := by
    intro i hi j hj
    rw [Nat.add_mul_mod_self_right, Nat.mod_eq_of_lt hi, Nat.add_mul_div_right _ _ (by omega), Nat.div_eq_of_lt hi, Nat.zero_add]
  constructor
  · intro k hk i hi
    have h := hz.eigen k hk i hi
    unfold zheevAll
    simp only [Nat.add_comm (k * n)]
    rw [← h]
    refine Finset.sum_congr rfl fun l hl => ?_
    congr 1
    have hl := Finset.mem_range.mp hl
    exact (hermU_congr (A := fun i j => A ((i + j * n) % n) ((i + j * n) / n)) (flat i hi l hl) (flat l hl i hi) (flat i hi i hi)).symm
  · have := hz.ortho
    unfold zheevAll
    simp only [Nat.add_comm _ (_ : Nat)] at this ⊢
    exact this

theorem ortho_mono {M n m : Nat} {φ : Mat2} (h : Orthonormal M n φ) (hm : m ≤ n) : Orthonormal M m φ :=
  fun k hk l hl => h k (by omega) l (by omega)

theorem rho_range (n : Nat) (φ : Mat2) (I J : Nat) : rho n φ I J = ∑ k ∈ Finset.range n, (starRingEnd ℂ) (φ k I) * φ k J := by
  unfold rho; rw [Finset.sum_range]

theorem rho_herm (n M : Nat) (φ : Mat2) : HermOn M (rho n φ) := by
  intro i _ j _
  rw [rho_range, rho_range, map_sum]
  refine Finset.sum_congr rfl fun k _ => ?_
  rw [map_mul, Complex.conj_conj, mul_comm]

/-- sum of the eigenvalues of occupied orbitals -/
theorem band_eq {M n : Nat} {B φ : Mat2} {w : Nat → ℝ} (hφ : Orthonormal M n φ)
    (he : ∀ k < n, ∀ i < M, ∑ l ∈ Finset.range M, B i l * φ k l = (w k : ℂ) * φ k i) :
    ((∑ k ∈ Finset.range n, w k : ℝ) : ℂ) = pairing M B (rho n φ) := by
  have e : ∀ k ∈ Finset.range n, (w k : ℂ) = ∑ i ∈ Finset.range M, ∑ l ∈ Finset.range M, B i l * ((starRingEnd ℂ) (φ k i) * φ k l) := by
    intro k hk
    have hk := Finset.mem_range.mp hk
    calc (w k : ℂ) = w k * ∑ i ∈ Finset.range M, (starRingEnd ℂ) (φ k i) * φ k i := by rw [hφ k hk k hk, if_pos rfl, mul_one]
      _ = ∑ i ∈ Finset.range M, (starRingEnd ℂ) (φ k i) * (w k * φ k i) := by
          rw [Finset.mul_sum]; refine Finset.sum_congr rfl fun i _ => by ring
      _ = _ := by
          refine Finset.sum_congr rfl fun i hi => ?_
          rw [← he k hk i (Finset.mem_range.mp hi), Finset.mul_sum]
          refine Finset.sum_congr rfl fun l _ => by ring
  rw [Complex.ofReal_sum, Finset.sum_congr rfl e]
  unfold pairing
  rw [Finset.sum_comm]
  refine Finset.sum_congr rfl fun i _ => ?_
  rw [Finset.sum_comm]
  refine Finset.sum_congr rfl fun l _ => ?_
  rw [rho_range, Finset.mul_sum]

theorem hermU_self {M : Nat} {B : Mat2} (h : HermOn M B) {i j : Nat} (hi : i < M) (hj : j < M) : hermU B i j = B i j := by
  unfold hermU
  split_ifs with h1 h2
  · rfl
  · subst h2
    apply Complex.ext
    · simp
    · simp [realDiag_of_herm h i hi]
  · exact (h i hi j hj).symm

end
end MVMC
