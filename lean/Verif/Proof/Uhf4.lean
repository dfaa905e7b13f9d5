import Verif.Proof.Uhf3
import Mathlib.Analysis.Matrix.Spectrum
import Mathlib.Data.Fin.Tuple.Sort

/-! The contract of `zheev_` can be met, and one iteration of the Hartree–Fock program. -/
namespace MVMC
open MVMC.Spec

section
variable (n : Nat) (a : Nat → ℂ)

/-- the stored Hermitian matrix -/
noncomputable def stored : Matrix (Fin n) (Fin n) ℂ := Matrix.of fun i j => hermU (fun i j => a (i + j * n)) i j

theorem stored_herm : (stored n a).IsHermitian := by
  ext i j
  show (starRingEnd ℂ) (hermU (fun i j => a (i + j * n)) j i) = hermU (fun i j => a (i + j * n)) i j
  unfold hermU
  split_ifs with h1 h2 h3 h4 h5
  · omega
  · omega
  · rfl
  · omega
  · rw [h4]; simp
  · omega
  · simp
  · omega
  · omega

/-- an eigensolver, from the spectral theorem -/
noncomputable def idealZheev : (Nat → ℝ) × (Nat → ℂ) :=
  (fun k => if h : k < n then (stored_herm n a).eigenvalues (Tuple.sort (stored_herm n a).eigenvalues ⟨k, h⟩) else 0,
   fun m => if h : m / n < n ∧ m % n < n then
      (stored_herm n a).eigenvectorBasis (Tuple.sort (stored_herm n a).eigenvalues ⟨m / n, h.1⟩) ⟨m % n, h.2⟩ else 0)

theorem idealZheev_vec {k l : Nat} (hk : k < n) (hl : l < n) : (idealZheev n a).2 (l + k * n) =
    (stored_herm n a).eigenvectorBasis (Tuple.sort (stored_herm n a).eigenvalues ⟨k, hk⟩) ⟨l, hl⟩ := by
  have e1 : (l + k * n) / n = k := by rw [Nat.add_mul_div_right _ _ (by omega), Nat.div_eq_of_lt hl, Nat.zero_add]
  have e2 : (l + k * n) % n = l := by rw [Nat.add_mul_mod_self_right, Nat.mod_eq_of_lt hl]
  unfold idealZheev
  have h : (l + k * n) / n < n ∧ (l + k * n) % n < n := by rw [e1, e2]; exact ⟨hk, hl⟩
  simp only [dif_pos h]
  have f1 : (⟨(l + k * n) / n, h.1⟩ : Fin n) = ⟨k, hk⟩ := Fin.ext e1
  have f2 : (⟨(l + k * n) % n, h.2⟩ : Fin n) = ⟨l, hl⟩ := Fin.ext e2
  rw [f1, f2]

theorem idealZheev_ok : ZheevOK idealZheev n a where
  eigen k hk i hi := by
    have h := congrFun ((stored_herm n a).mulVec_eigenvectorBasis (Tuple.sort (stored_herm n a).eigenvalues ⟨k, hk⟩)) ⟨i, hi⟩
    rw [idealZheev_vec n a hk hi]
    have w : (idealZheev n a).1 k = (stored_herm n a).eigenvalues (Tuple.sort (stored_herm n a).eigenvalues ⟨k, hk⟩) := by
      unfold idealZheev; simp only [dif_pos hk]
    rw [w, Finset.sum_range]
    rw [Pi.smul_apply, Complex.real_smul] at h
    rw [← h]
    unfold Matrix.mulVec dotProduct
    refine Finset.sum_congr rfl fun l _ => ?_
    rw [idealZheev_vec n a hk l.2]
    rfl
  ortho := by
    intro k hk m hm
    have h := orthonormal_iff_ite.mp (stored_herm n a).eigenvectorBasis.orthonormal (Tuple.sort (stored_herm n a).eigenvalues ⟨k, hk⟩)
      (Tuple.sort (stored_herm n a).eigenvalues ⟨m, hm⟩)
    simp only [EmbeddingLike.apply_eq_iff_eq, Fin.mk.injEq] at h
    rw [← h, PiLp.inner_apply, Finset.sum_range]
    refine Finset.sum_congr rfl fun l _ => ?_
    show (starRingEnd ℂ) ((idealZheev n a).2 (l + k * n)) * (idealZheev n a).2 (l + m * n) = _
    rw [idealZheev_vec n a hk l.2, idealZheev_vec n a hm l.2]
    rw [RCLike.inner_apply, mul_comm]
  sorted k hk := by
    unfold idealZheev
    have hk' : k < n := by omega
    simp only [dif_pos hk, dif_pos hk']
    exact Tuple.monotone_sort (stored_herm n a).eigenvalues (by show k ≤ k + 1; omega)

end

section
variable {zheev : Nat → (Nat → ℂ) → (Nat → ℝ) × (Nat → ℂ)} {N nsize : Nat} {H : HamPar} {jPH jIA mix : ℝ} {s : UhfSt}

/-- what `zheev_` is called with -/
noncomputable def zheevArg (N : Nat) (ham : Mat2) : Nat → ℂ := fun k => ham (k % (2 * N)) (k / (2 * N))

theorem green_eq (R L : Mat2) (h : R = fun l k => (starRingEnd ℂ) (L k l)) : green nsize R L = rho nsize L := by
  subst h; funext i j; unfold green; rw [sumLoop_eq, rho_range]

theorem sorted_le {n : Nat} {w : Nat → ℝ} (h : ∀ k, k + 1 < n → w k ≤ w (k + 1)) {k m : Nat} (hkm : k ≤ m) (hm : m < n) : w k ≤ w m := by
  induction m with
  | zero => have : k = 0 := by omega
            rw [this]
  | succ m ih =>
    rcases Nat.lt_or_ge k (m + 1) with hlt | hge
    · exact le_trans (ih (by omega) (by omega)) (h m hm)
    · have : k = m + 1 := by omega
      rw [this]

theorem step_facts (hz : ZheevOK zheev (2 * N) (zheevArg N (makeham N H true s.G))) :
    let s' := uhfStep zheev N nsize H true jPH jIA mix s
    Orthonormal (2 * N) (2 * N) s'.L ∧
    (∀ k < 2 * N, ∀ i < 2 * N, ∑ l ∈ Finset.range (2 * N), hermU (makeham N H true s.G) i l * s'.L k l = (s'.eig k : ℂ) * s'.L k i) ∧
    (∀ k, k + 1 < 2 * N → s'.eig k ≤ s'.eig (k + 1)) ∧
    s'.energy = calEnergy N nsize H true jPH jIA s'.eig (rho nsize s'.L) ∧ s'.num = uhfNum N (rho nsize s'.L) ∧
    s'.rest = uhfRest N s.G (rho nsize s'.L) ∧ s'.G = uhfMix mix s.G (rho nsize s'.L) := by
  obtain ⟨h1, h2⟩ := zheevAll_eigen (A := makeham N H true s.G) hz
  have g : green nsize (diag zheev N (makeham N H true s.G)).2.1 (diag zheev N (makeham N H true s.G)).2.2 =
      rho nsize (diag zheev N (makeham N H true s.G)).2.2 := green_eq _ _ rfl
  refine ⟨h2, h1, hz.sorted, ?_, ?_, ?_, ?_⟩
  · show calEnergy _ _ _ _ _ _ _ (green _ _ _) = _
    rw [g]; rfl
  · show uhfNum N (green _ _ _) = _
    rw [g]; rfl
  · show uhfRest N _ (green _ _ _) = _
    rw [g]; rfl
  · show uhfMix _ _ (green _ _ _) = _
    rw [g]; rfl

/-- energy of one iteration, for any density matrix at its start -/
theorem step_energy (hi : HamIdx N H) (hd : HamDistinct H) (hh : HamHerm H) (hn : nsize ≤ 2 * N)
    (hz : ZheevOK zheev (2 * N) (zheevArg N (makeham N H true s.G))) :
    let s' := uhfStep zheev N nsize H true jPH jIA mix s
    (s'.energy : ℂ) = expectOf (2 * N) nsize (slater nsize s'.L) (hamTerms N H) +
      (pairing (2 * N) (hermU (makeham N H true s.G)) (rho nsize s'.L) -
        pairing (2 * N) (makeham N H true (rho nsize s'.L)) (rho nsize s'.L)) := by
  intro s'
  obtain ⟨f1, f2, _, f4, _, _, _⟩ := step_facts (zheev := zheev) (nsize := nsize) (H := H) (jPH := jPH) (jIA := jIA) (mix := mix) (s := s) hz
  have ho := ortho_mono f1 hn
  have hr := rho_herm nsize (2 * N) s'.L
  rw [expect_hf ho hi]
  show ((uhfStep zheev N nsize H true jPH jIA mix s).energy : ℂ) = _
  rw [f4, calEnergy_eq hi (realDiag_of_herm hr), Complex.ofReal_sub, quad_real hi hd hh hr, band_eq ho (fun k hk i hi' => f2 k (by omega) i hi'),
    pair_makeham hi hd _ (realDiag_of_herm hr)]
  have e := lineSum_combine (wickValue (rho nsize s'.L)) (fun _ => 0) (wickLin (rho nsize s'.L) (rho nsize s'.L)) (wickQuad (rho nsize s'.L)) 1 (-1)
    (fun ops => by rw [← wick_lin_self]; ring) (hamTerms N H)
  have z : lineSum (fun _ => 0) (hamTerms N H) = 0 := by unfold lineSum; simp
  rw [z] at e
  have e' : hfEnergy (rho nsize s'.L) (hamTerms N H) = lineSum (wickValue (rho nsize s'.L)) (hamTerms N H) := rfl
  rw [e', e]; ring

theorem step_bound (hi : HamIdx N H) (hd : HamDistinct H) (hh : HamHerm H) (hn : nsize ≤ 2 * N) (hN : 0 < N)
    (hz : ZheevOK zheev (2 * N) (zheevArg N (makeham N H true s.G))) :
    let s' := uhfStep zheev N nsize H true jPH jIA mix s
    ‖(s'.energy : ℂ) - expectOf (2 * N) nsize (slater nsize s'.L) (hamTerms N H)‖ ≤
      16 * N ^ 2 * twoBodyWeight (hamTerms N H) * s'.rest := by
  intro s'
  obtain ⟨f1, _, _, _, _, f6, _⟩ := step_facts (zheev := zheev) (nsize := nsize) (H := H) (jPH := jPH) (jIA := jIA) (mix := mix) (s := s) hz
  have f6 : s'.rest = uhfRest N s.G (rho nsize s'.L) := f6
  have hr := rho_herm nsize (2 * N) s'.L
  rw [step_energy hi hd hh hn hz, add_sub_cancel_left]
  have hδ : ∀ i < 2 * N, ∀ j < 2 * N, ‖s.G i j - rho nsize s'.L i j‖ ≤ 2 * N * N * s'.rest := by
    intro i hi' j hj; rw [f6]; exact rest_entry hN _ _ hi' hj
  have hδ0 : 0 ≤ 2 * (N : ℝ) * N * s'.rest := le_trans (norm_nonneg _) (hδ 0 (by omega) 0 (by omega))
  refine le_trans (pairing_sub_le (fun i hi' j hj => rho_le_one f1 hn hi' hj)) ?_
  refine le_trans (l1_hermU (makeham_herm hi hd hh hr)) ?_
  have := l1_makeham hi hδ hδ0
  nlinarith

theorem l1_zero {M : Nat} {A B : Mat2} (h : l1 M A B ≤ 0) {i j : Nat} (hi : i < M) (hj : j < M) : A i j = B i j := by
  have h0 : l1 M A B = 0 := le_antisymm h (l1_nonneg M A B)
  unfold l1 at h0
  have h1 := (Finset.sum_eq_zero_iff_of_nonneg (fun _ _ => Finset.sum_nonneg fun _ _ => norm_nonneg _)).mp h0 i (Finset.mem_range.mpr hi)
  have h2 := (Finset.sum_eq_zero_iff_of_nonneg (fun _ _ => norm_nonneg _)).mp h1 j (Finset.mem_range.mpr hj)
  exact sub_eq_zero.mp (norm_eq_zero.mp h2)

/-- at self-consistency the matrix that was diagonalised belongs to the final density matrix -/
theorem fix_ham (hi : HamIdx N H) (hd : HamDistinct H) (hh : HamHerm H) {G ρ : Mat2} (hρ : HermOn (2 * N) ρ)
    (hf : ∀ i < 2 * N, ∀ j < 2 * N, G i j = ρ i j) {i j : Nat} (hi' : i < 2 * N) (hj : j < 2 * N) :
    hermU (makeham N H true G) i j = makeham N H true ρ i j := by
  have h := l1_makeham (G := G) (G' := ρ) (δ := 0) hi (fun i hi j hj => by rw [hf i hi j hj]; simp) (le_refl 0)
  have h' : l1 (2 * N) (hermU (makeham N H true G)) (makeham N H true ρ) ≤ 0 := by
    refine le_trans (l1_hermU (makeham_herm hi hd hh hρ)) ?_
    linarith
  exact l1_zero h' hi' hj

theorem pairing_congr {M : Nat} {A B D : Mat2} (h : ∀ i < M, ∀ j < M, A i j = B i j) : pairing M A D = pairing M B D := by
  unfold pairing
  exact Finset.sum_congr rfl fun i hi => Finset.sum_congr rfl fun j hj => by
    rw [h i (Finset.mem_range.mp hi) j (Finset.mem_range.mp hj)]

/-- an operator that has the orbitals as eigenvectors gives no first-order change under a rotation of the density matrix -/
theorem stationary {M n : Nat} {h φ : Mat2} {w : Nat → ℝ} (hh : HermOn M h)
    (he : ∀ k < n, ∀ i < M, ∑ l ∈ Finset.range M, h i l * φ k l = (w k : ℂ) * φ k i) (A : Mat2) :
    pairing M h (fun i j => ∑ l ∈ Finset.range M, (rho n φ i l * A l j - A i l * rho n φ l j)) = 0 := by
  have hl : ∀ k < n, ∀ j < M, ∑ i ∈ Finset.range M, h i j * (starRingEnd ℂ) (φ k i) = (w k : ℂ) * (starRingEnd ℂ) (φ k j) := by
    intro k hk j hj
    have := congrArg (starRingEnd ℂ) (he k hk j hj)
    rw [map_sum, map_mul, Complex.conj_ofReal] at this
    rw [← this]
    refine Finset.sum_congr rfl fun i hi => ?_
    rw [map_mul, ← hh i (Finset.mem_range.mp hi) j hj]
  have p1 : ∀ l, ∀ j < M, ∑ i ∈ Finset.range M, h i j * rho n φ i l = ∑ k ∈ Finset.range n, (w k : ℂ) * (starRingEnd ℂ) (φ k j) * φ k l := by
    intro l j hj
    simp only [rho_range, Finset.mul_sum]
    rw [Finset.sum_comm]
    refine Finset.sum_congr rfl fun k hk => ?_
    rw [← hl k (Finset.mem_range.mp hk) j hj, Finset.sum_mul]
    refine Finset.sum_congr rfl fun i _ => by ring
  have p2 : ∀ l, ∀ i < M, ∑ j ∈ Finset.range M, h i j * rho n φ l j = ∑ k ∈ Finset.range n, (w k : ℂ) * (starRingEnd ℂ) (φ k l) * φ k i := by
    intro l i hi
    simp only [rho_range, Finset.mul_sum]
    rw [Finset.sum_comm]
    refine Finset.sum_congr rfl fun k hk => ?_
    have := he k (Finset.mem_range.mp hk) i hi
    calc _ = (starRingEnd ℂ) (φ k l) * ∑ j ∈ Finset.range M, h i j * φ k j := by
            rw [Finset.mul_sum]; refine Finset.sum_congr rfl fun j _ => by ring
      _ = _ := by rw [this]; ring
  have s1 : pairing M h (fun i j => ∑ l ∈ Finset.range M, rho n φ i l * A l j) =
      ∑ j ∈ Finset.range M, ∑ l ∈ Finset.range M, (∑ k ∈ Finset.range n, (w k : ℂ) * (starRingEnd ℂ) (φ k j) * φ k l) * A l j := by
    unfold pairing
    rw [Finset.sum_comm]
    refine Finset.sum_congr rfl fun j hj => ?_
    simp only [Finset.mul_sum]
    rw [Finset.sum_comm]
    refine Finset.sum_congr rfl fun l _ => ?_
    rw [← p1 l j (Finset.mem_range.mp hj), Finset.sum_mul]
    refine Finset.sum_congr rfl fun i _ => by ring
  have s2 : pairing M h (fun i j => ∑ l ∈ Finset.range M, A i l * rho n φ l j) =
      ∑ i ∈ Finset.range M, ∑ l ∈ Finset.range M, (∑ k ∈ Finset.range n, (w k : ℂ) * (starRingEnd ℂ) (φ k l) * φ k i) * A i l := by
    unfold pairing
    refine Finset.sum_congr rfl fun i hi => ?_
    simp only [Finset.mul_sum]
    rw [Finset.sum_comm]
    refine Finset.sum_congr rfl fun l _ => ?_
    rw [← p2 l i (Finset.mem_range.mp hi), Finset.sum_mul]
    refine Finset.sum_congr rfl fun j _ => by ring
  have d : pairing M h (fun i j => ∑ l ∈ Finset.range M, (rho n φ i l * A l j - A i l * rho n φ l j)) =
      pairing M h (fun i j => ∑ l ∈ Finset.range M, rho n φ i l * A l j) - pairing M h (fun i j => ∑ l ∈ Finset.range M, A i l * rho n φ l j) := by
    unfold pairing
    simp only [Finset.sum_sub_distrib, mul_sub]
  rw [d, s1, s2, Finset.sum_comm, sub_self]

theorem rho_trace {M n : Nat} {φ : Mat2} (h : Orthonormal M n φ) : ∑ i ∈ Finset.range M, rho n φ i i = n := by
  simp only [rho_range]
  rw [Finset.sum_comm, Finset.sum_congr rfl fun k hk => h k (Finset.mem_range.mp hk) k (Finset.mem_range.mp hk)]
  simp

/-- a loop left by `break` ends with an iteration whose `rest` is below `eps` -/
theorem loop_last {fock : Bool} {eps : ℝ} : ∀ (k : Nat) (s0 s' : UhfSt),
    uhfLoop zheev N nsize H fock jPH jIA mix eps k s0 = (s', true) →
    ∃ s, s' = uhfStep zheev N nsize H fock jPH jIA mix s ∧ s'.rest < eps := by
  intro k
  induction k with
  | zero => intro s0 s' h; simp [uhfLoop] at h
  | succ k ih =>
    intro s0 s' h
    unfold uhfLoop at h
    simp only at h
    split_ifs at h with hc
    · have := (Prod.mk.injEq _ _ _ _).mp h
      exact ⟨s0, this.1.symm, by rw [← this.1]; exact hc⟩
    · exact ih _ _ h

/-- the anti-Hermitian part of the start is damped by the mixing -/
theorem mix_herm (Gold : Mat2) (φ : Mat2) {i j : Nat} :
    uhfMix mix Gold (rho nsize φ) i j - (starRingEnd ℂ) (uhfMix mix Gold (rho nsize φ) j i) =
      (1 - mix) * (Gold i j - (starRingEnd ℂ) (Gold j i)) := by
  unfold uhfMix
  have := rho_herm nsize (max i j + 1) φ i (by omega) j (by omega)
  simp only [map_add, map_mul, map_sub, map_one, Complex.conj_ofReal]
  rw [this]; ring

end
end MVMC
