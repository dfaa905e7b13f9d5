import Verif.Proof.Uhf4

/-!
# C60: the Hartree–Fock program diagonalises the mean field of the Hamiltonian and reports its energy

The Hamiltonian is `hamTerms N H`, the operator whose local energy the variational program evaluates (C57). Expectation values
are sums over all configurations weighted with the squared Slater determinant.
-/
namespace MVMC
open MVMC.Spec

section
variable {zheev : Nat → (Nat → ℂ) → (Nat → ℝ) × (Nat → ℂ)} {N nsize : Nat} {H : HamPar} {jPH jIA mix : ℝ}

/-- Wick's theorem: an operator product has the value given by the density matrix. -/
theorem C60_wick {M n : Nat} {φ : Nat → Nat → ℂ} (hφ : Orthonormal M n φ) {I J K L : Nat} (hI : I < M) (hJ : J < M) (hK : K < M) (hL : L < M) :
    average M n (slater n φ) (matrixElement (slater n φ) [.cr I, .an J]) = wickValue (density n φ) [.cr I, .an J] ∧
    average M n (slater n φ) (matrixElement (slater n φ) [.cr I, .an J, .cr K, .an L]) =
      wickValue (density n φ) [.cr I, .an J, .cr K, .an L] := by
  have e : density n φ = rho n φ := by funext i j; rw [rho_range]; rfl
  rw [e]
  refine ⟨wick1 φ hφ hI hJ, ?_⟩
  rw [wick2 φ hφ hI hJ hK hL]
  simp only [wickValue]
  by_cases h : J = K
  · rw [if_pos h, if_pos h.symm]; ring
  · rw [if_neg h, if_neg (fun e => h e.symm)]; ring

/-- `makeham` computes the derivative of the energy functional. -/
theorem C60_mean_field (hi : HamIdx N H) (hd : HamDistinct H) {G : Mat2} (hG : RealDiag (2 * N) G) :
    MeanFieldOf (2 * N) (hamTerms N H) G (makeham N H true G) := by
  intro D
  refine ⟨lineSum (wickQuad D) (hamTerms N H), fun t => ?_⟩
  rw [pair_makeham hi hd D hG]
  exact lineSum_combine _ _ _ _ t (t ^ 2) (fun ops => wick_expand G D t ops) (hamTerms N H)

/-- The matrix handed to the eigensolver is Hermitian, so nothing is lost by storing one triangle. -/
theorem C60_hermitian (hi : HamIdx N H) (hd : HamDistinct H) (hh : HamHerm H) {G : Mat2} (hG : HermOn (2 * N) G) :
    HermOn (2 * N) (makeham N H true G) := makeham_herm hi hd hh hG

/-- The number of electrons printed in every iteration is `Nsize`. -/
theorem C60_number (hn : nsize ≤ 2 * N) {s : UhfSt} (hz : ZheevOK zheev (2 * N) (zheevArg N (makeham N H true s.G))) :
    (uhfStep zheev N nsize H true jPH jIA mix s).num = nsize := by
  obtain ⟨f1, _, _, _, f5, _, _⟩ := step_facts (zheev := zheev) (nsize := nsize) (H := H) (jPH := jPH) (jIA := jIA) (mix := mix) (s := s) hz
  rw [f5]
  unfold uhfNum
  rw [sumLoop_eq, ← Complex.re_sum, rho_trace (ortho_mono f1 hn)]
  simp

/-- In any iteration, from any density matrix, the printed energy differs from the expectation value of the Hamiltonian in the
Slater determinant of the new orbitals by at most `16·Nsite²·W` times the printed residue, `W` being the total strength of the
two-body lines. -/
theorem C60_energy (hi : HamIdx N H) (hd : HamDistinct H) (hh : HamHerm H) (hn : nsize ≤ 2 * N) (hN : 0 < N) {s : UhfSt}
    (hz : ZheevOK zheev (2 * N) (zheevArg N (makeham N H true s.G))) :
    let s' := uhfStep zheev N nsize H true jPH jIA mix s
    ‖(s'.energy : ℂ) - expectOf (2 * N) nsize (slater nsize s'.L) (hamTerms N H)‖ ≤
      16 * N ^ 2 * twoBodyWeight (hamTerms N H) * s'.rest :=
  step_bound hi hd hh hn hN hz

/-- If the program reports convergence, its energy is that of its Slater determinant within `16·Nsite²·W·eps`. -/
theorem C60_converged (hi : HamIdx N H) (hd : HamDistinct H) (hh : HamHerm H) (hn : nsize ≤ 2 * N) (hN : 0 < N)
    (hz : ∀ a, ZheevOK zheev (2 * N) a) {eps : ℝ} {k : Nat} {s0 s' : UhfSt}
    (hr : uhfLoop zheev N nsize H true jPH jIA mix eps k s0 = (s', true)) :
    ‖(s'.energy : ℂ) - expectOf (2 * N) nsize (slater nsize s'.L) (hamTerms N H)‖ ≤
      16 * N ^ 2 * twoBodyWeight (hamTerms N H) * eps := by
  obtain ⟨s, rfl, hlt⟩ := loop_last k s0 s' hr
  refine le_trans (C60_energy hi hd hh hn hN (hz _)) ?_
  have hw : 0 ≤ twoBodyWeight (hamTerms N H) := by
    unfold twoBodyWeight
    apply List.sum_nonneg
    intro x hx
    obtain ⟨t, _, rfl⟩ := List.mem_map.mp hx
    split_ifs
    · exact norm_nonneg _
    · exact le_refl 0
  exact mul_le_mul_of_nonneg_left (le_of_lt hlt) (by positivity)

/-- At self-consistency the energy is exact, the orbitals solve the Hartree–Fock equations with the lowest ones occupied, and the
energy is stationary under rotations of the orbitals. -/
theorem C60_self_consistent (hi : HamIdx N H) (hd : HamDistinct H) (hh : HamHerm H) (hn : nsize ≤ 2 * N) {s : UhfSt}
    (hz : ZheevOK zheev (2 * N) (zheevArg N (makeham N H true s.G)))
    (hf : ∀ i < 2 * N, ∀ j < 2 * N, s.G i j = density nsize (uhfStep zheev N nsize H true jPH jIA mix s).L i j) :
    let s' := uhfStep zheev N nsize H true jPH jIA mix s
    let ρ := density nsize s'.L
    (s'.energy : ℂ) = expectOf (2 * N) nsize (slater nsize s'.L) (hamTerms N H) ∧
    HartreeFock (2 * N) nsize (makeham N H true ρ) s'.L s'.eig ∧
    ∀ A : Mat2, pairing (2 * N) (makeham N H true ρ)
      (fun i j => ∑ l ∈ Finset.range (2 * N), (ρ i l * A l j - A i l * ρ l j)) = 0 := by
  intro s' ρ
  obtain ⟨f1, f2, f3, _, _, _, _⟩ := step_facts (zheev := zheev) (nsize := nsize) (H := H) (jPH := jPH) (jIA := jIA) (mix := mix) (s := s) hz
  have eρ : ρ = rho nsize s'.L := by funext i j; rw [rho_range]; rfl
  have hr := rho_herm nsize (2 * N) s'.L
  have hf' : ∀ i < 2 * N, ∀ j < 2 * N, s.G i j = rho nsize s'.L i j := by intro i h j h'; rw [hf i h j h', ← eρ]
  have hfix := fun i (h : i < 2 * N) j (h' : j < 2 * N) => fix_ham hi hd hh hr hf' h h'
  have he : ∀ k < 2 * N, ∀ i < 2 * N, ∑ l ∈ Finset.range (2 * N), makeham N H true (rho nsize s'.L) i l * s'.L k l = (s'.eig k : ℂ) * s'.L k i := by
    intro k hk i h
    rw [← f2 k hk i h]
    refine Finset.sum_congr rfl fun l hl => ?_
    rw [hfix i h l (Finset.mem_range.mp hl)]
  refine ⟨?_, ⟨f1, ?_, ?_⟩, ?_⟩
  · rw [step_energy hi hd hh hn hz, pairing_congr hfix, sub_self, add_zero]
  · rw [eρ]; exact he
  · intro k hk m hm hm'
    exact sorted_le f3 (by omega) hm'
  · rw [eρ]
    intro A
    exact stationary (makeham_herm hi hd hh hr) (fun k hk => he k (by omega)) A

/-- The mixing keeps a Hermitian density matrix Hermitian, and damps the anti-Hermitian part of the random start by `1-mix` per
iteration. -/
theorem C60_mixing {s : UhfSt} (hz : ZheevOK zheev (2 * N) (zheevArg N (makeham N H true s.G))) (i j : Nat) :
    let s' := uhfStep zheev N nsize H true jPH jIA mix s
    s'.G i j - (starRingEnd ℂ) (s'.G j i) = (1 - mix) * (s.G i j - (starRingEnd ℂ) (s.G j i)) := by
  obtain ⟨_, _, _, _, _, _, f7⟩ := step_facts (zheev := zheev) (nsize := nsize) (H := H) (jPH := jPH) (jIA := jIA) (mix := mix) (s := s) hz
  simp only [f7]
  exact mix_herm s.G _

end

/-- The eigensolver contract can be met for every matrix. -/
theorem C60_contract_met : ∃ zheev, ∀ n a, ZheevOK zheev n a := ⟨idealZheev, idealZheev_ok⟩

/-! ### a line that couples a site to itself -/

/-- one site, one inter-site line `V n_0 n_0` -/
noncomputable def exSame : HamPar where
  nCI := 0
  ci := fun _ => 0
  pCI := fun _ => 0
  nCO := 1
  co := fun _ _ => 0
  pCO := fun _ => 1
  nHU := 0
  hu := fun _ _ => 0
  pHU := fun _ => 0
  nTR := 0
  tr := fun _ _ => 0
  pTR := fun _ => 0
  nPH := 0
  ph := fun _ _ => 0
  pPH := fun _ => 0
  nEX := 0
  ex := fun _ _ => 0
  pEX := fun _ => 0
  nIA := 0
  ia := fun _ _ => 0
  pIA := fun _ => 0

/-- one site, level `-1` for spin up, repulsion 4 -/
noncomputable def exUhf : HamPar := { exSame with nCO := 0, nCI := 1, pCI := fun _ => 4, nTR := 1, pTR := fun _ => 1 }

/-- reads the eigenvalues of a diagonal matrix off its diagonal -/
noncomputable def diagZheev (n : Nat) (a : Nat → ℂ) : (Nat → ℝ) × (Nat → ℂ) :=
  (fun k => (a (k + k * n)).re, fun m => if m % n = m / n then 1 else 0)

theorem diagZheev_ok {a : Nat → ℂ} (h2 : a 2 = 0) (hs : (a 0).re ≤ (a 3).re) : ZheevOK diagZheev 2 a where
  eigen k hk i hi := by
    have : k = 0 ∨ k = 1 := by omega
    have : i = 0 ∨ i = 1 := by omega
    rcases ‹k = 0 ∨ k = 1› with rfl | rfl <;> rcases ‹i = 0 ∨ i = 1› with rfl | rfl <;>
      simp [Finset.sum_range_succ, diagZheev, hermU, h2]
  ortho := by
    intro k hk m hm
    have : k = 0 ∨ k = 1 := by omega
    have : m = 0 ∨ m = 1 := by omega
    rcases ‹k = 0 ∨ k = 1› with rfl | rfl <;> rcases ‹m = 0 ∨ m = 1› with rfl | rfl <;>
      simp [Finset.sum_range_succ, diagZheev]
  sorted k hk := by
    have : k = 0 := by omega
    subst this
    simpa [diagZheev] using hs

/-- both orbitals of the site filled -/
noncomputable def exFull : UhfSt where
  G := fun i j => if i = j then 1 else 0
  ham := fun _ _ => 0
  eig := fun _ => 0
  R := fun _ _ => 0
  L := fun _ _ => 0
  energy := 0
  num := 0
  rest := 0

theorem two_cases {i : Nat} (h : i < 2) : i = 0 ∨ i = 1 := by omega

theorem exSame_ham {i j : Nat} (hi : i < 2) (hj : j < 2) : makeham 1 exSame true exFull.G i j = if i = j then 2 else 0 := by
  rcases two_cases hi with rfl | rfl <;> rcases two_cases hj with rfl | rfl <;>
    simp [makeham, exSame, exFull, mkInter, addAt2] <;> norm_num

theorem exUhf_ham {i j : Nat} (hi : i < 2) (hj : j < 2) : makeham 1 exUhf true exFull.G i j = if i = j then (if i = 0 then 3 else 4) else 0 := by
  rcases two_cases hi with rfl | rfl <;> rcases two_cases hj with rfl | rfl <;>
    simp [makeham, exUhf, exSame, exFull, mkIntra, mkTransfer, addAt2] <;> norm_num

theorem exStep_L (H : HamPar) (jPH jIA mix : ℝ) (s : UhfSt) {k l : Nat} (hk : k < 2) (hl : l < 2) :
    (uhfStep diagZheev 1 2 H true jPH jIA mix s).L k l = if k = l then 1 else 0 := by
  rcases two_cases hk with rfl | rfl <;> rcases two_cases hl with rfl | rfl <;> simp [uhfStep, diag, zheevAll, diagZheev]

theorem exStep_eig (H : HamPar) (jPH jIA mix : ℝ) (s : UhfSt) {k : Nat} (hk : k < 2) :
    (uhfStep diagZheev 1 2 H true jPH jIA mix s).eig k = (makeham 1 H true s.G k k).re := by
  rcases two_cases hk with rfl | rfl <;> simp [uhfStep, diag, zheevAll, diagZheev]

theorem exStep_rho (H : HamPar) (jPH jIA mix : ℝ) (s : UhfSt) {i j : Nat} (hi : i < 2) (hj : j < 2) :
    rho 2 (uhfStep diagZheev 1 2 H true jPH jIA mix s).L i j = if i = j then 1 else 0 := by
  rw [rho_range, Finset.sum_range_succ, Finset.sum_range_one]
  rw [exStep_L _ _ _ _ _ (by omega) hi, exStep_L _ _ _ _ _ (by omega) hi, exStep_L _ _ _ _ _ (by omega) hj, exStep_L _ _ _ _ _ (by omega) hj]
  rcases two_cases hi with rfl | rfl <;> rcases two_cases hj with rfl | rfl <;> simp

theorem exSame_idx : HamIdx 1 exSame := by
  constructor <;> simp [exSame]

theorem exSame_herm : HamHerm exSame where
  tr := ⟨id, by simp [exSame]⟩
  ph := ⟨id, by simp [exSame]⟩
  ia := ⟨id, by simp [exSame]⟩

theorem exUhf_idx : HamIdx 1 exUhf := by
  constructor <;> simp [exUhf, exSame]

theorem exUhf_herm : HamHerm exUhf where
  tr := ⟨id, by simp [exUhf, exSame]⟩
  ph := ⟨id, by simp [exUhf, exSame]⟩
  ia := ⟨id, by simp [exUhf, exSame]⟩

theorem exUhf_distinct : HamDistinct exUhf := by
  constructor <;> simp [exUhf, exSame]

theorem exFull_fix (H : HamPar) (jPH jIA mix : ℝ) : ∀ i < 2 * 1, ∀ j < 2 * 1,
    exFull.G i j = density 2 (uhfStep diagZheev 1 2 H true jPH jIA mix exFull).L i j := by
  intro i hi j hj
  have e := exStep_rho H jPH jIA mix exFull hi hj
  rw [rho_range] at e
  unfold density
  rw [e]; rfl

/-- A self-interaction line: the energy reported at self-consistency is 2, the expectation value 4. So `HamDistinct` is needed. -/
theorem C60_same_site_violated (jPH jIA mix : ℝ) :
    HamIdx 1 exSame ∧ HamHerm exSame ∧ ZheevOK diagZheev 2 (zheevArg 1 (makeham 1 exSame true exFull.G)) ∧
    (∀ i < 2 * 1, ∀ j < 2 * 1, exFull.G i j = density 2 (uhfStep diagZheev 1 2 exSame true jPH jIA mix exFull).L i j) ∧
    (uhfStep diagZheev 1 2 exSame true jPH jIA mix exFull).energy = 2 ∧
    expectOf 2 2 (slater 2 (uhfStep diagZheev 1 2 exSame true jPH jIA mix exFull).L) (hamTerms 1 exSame) = 4 := by
  have hz : ZheevOK diagZheev 2 (zheevArg 1 (makeham 1 exSame true exFull.G)) := by
    apply diagZheev_ok
    · show makeham 1 exSame true exFull.G 0 1 = 0
      rw [exSame_ham (by omega) (by omega)]; simp
    · show (makeham 1 exSame true exFull.G 0 0).re ≤ (makeham 1 exSame true exFull.G 1 1).re
      rw [exSame_ham (by omega) (by omega), exSame_ham (by omega) (by omega)]; simp
  obtain ⟨f1, _, _, f4, _⟩ := step_facts (N := 1) (nsize := 2) (H := exSame) (jPH := jPH) (jIA := jIA) (mix := mix) (s := exFull) hz
  have r := fun i j (hi : i < 2) (hj : j < 2) => exStep_rho exSame jPH jIA mix exFull hi hj
  have g := fun k (hk : k < 2) => exStep_eig exSame jPH jIA mix exFull hk
  refine ⟨exSame_idx, exSame_herm, hz, exFull_fix _ _ _ _, ?_, ?_⟩
  · rw [f4]
    generalize rho 2 (uhfStep diagZheev 1 2 exSame true jPH jIA mix exFull).L = ρ at r
    have g0 := g 0 (by omega)
    have g1 := g 1 (by omega)
    rw [exSame_ham (by omega) (by omega)] at g0 g1
    generalize (uhfStep diagZheev 1 2 exSame true jPH jIA mix exFull).eig = w at g0 g1
    have r00 := r 0 0 (by omega) (by omega)
    have r01 := r 0 1 (by omega) (by omega)
    have r10 := r 1 0 (by omega) (by omega)
    have r11 := r 1 1 (by omega) (by omega)
    simp [calEnergy, exSame, enInter, accRe_eq, sumLoop, List.range_succ, r00, r01, r10, r11, g0, g1]
    norm_num
  · have e := expect_hf (N := 1) (n := 2) f1 exSame_idx
    refine Eq.trans e ?_
    generalize rho 2 (uhfStep diagZheev 1 2 exSame true jPH jIA mix exFull).L = ρ at r
    have r00 := r 0 0 (by omega) (by omega)
    have r01 := r 0 1 (by omega) (by omega)
    have r10 := r 1 0 (by omega) (by omega)
    have r11 := r 1 1 (by omega) (by omega)
    simp [hfEnergy, hamTerms, exSame, termCoulombInter, numOp, wickValue, r00, r01, r10, r11]
    norm_num

/-- The hypotheses of `C60_self_consistent` are met by a filled site with level -1 and repulsion 4; the energy is 3 (the occupied
levels 3 and 4 count the repulsion twice). -/
example (jPH jIA mix : ℝ) : HamIdx 1 exUhf ∧ HamDistinct exUhf ∧ HamHerm exUhf ∧
    ZheevOK diagZheev 2 (zheevArg 1 (makeham 1 exUhf true exFull.G)) ∧
    (∀ i < 2 * 1, ∀ j < 2 * 1, exFull.G i j = density 2 (uhfStep diagZheev 1 2 exUhf true jPH jIA mix exFull).L i j) ∧
    (uhfStep diagZheev 1 2 exUhf true jPH jIA mix exFull).energy = 3 := by
  have hz : ZheevOK diagZheev 2 (zheevArg 1 (makeham 1 exUhf true exFull.G)) := by
    apply diagZheev_ok
    · show makeham 1 exUhf true exFull.G 0 1 = 0
      rw [exUhf_ham (by omega) (by omega)]; simp
    · show (makeham 1 exUhf true exFull.G 0 0).re ≤ (makeham 1 exUhf true exFull.G 1 1).re
      rw [exUhf_ham (by omega) (by omega), exUhf_ham (by omega) (by omega)]; simp; norm_num
  obtain ⟨f1, _, _, f4, _⟩ := step_facts (N := 1) (nsize := 2) (H := exUhf) (jPH := jPH) (jIA := jIA) (mix := mix) (s := exFull) hz
  have r := fun i j (hi : i < 2) (hj : j < 2) => exStep_rho exUhf jPH jIA mix exFull hi hj
  have g := fun k (hk : k < 2) => exStep_eig exUhf jPH jIA mix exFull hk
  refine ⟨exUhf_idx, exUhf_distinct, exUhf_herm, hz, exFull_fix _ _ _ _, ?_⟩
  rw [f4]
  generalize rho 2 (uhfStep diagZheev 1 2 exUhf true jPH jIA mix exFull).L = ρ at r
  have g0 := g 0 (by omega)
  have g1 := g 1 (by omega)
  rw [exUhf_ham (by omega) (by omega)] at g0 g1
  generalize (uhfStep diagZheev 1 2 exUhf true jPH jIA mix exFull).eig = w at g0 g1
  have r00 := r 0 0 (by omega) (by omega)
  have r01 := r 0 1 (by omega) (by omega)
  have r10 := r 1 0 (by omega) (by omega)
  have r11 := r 1 1 (by omega) (by omega)
  simp [calEnergy, exUhf, exSame, enIntra, accRe_eq, sumLoop, List.range_succ, r00, r01, r10, r11, g0, g1]

end MVMC
