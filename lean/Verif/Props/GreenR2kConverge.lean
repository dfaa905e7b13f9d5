import Verif.Props.GreenR2kRun
import Verif.Props.SRConverge
import Verif.Props.ErgodicZ
import Mathlib.Analysis.Complex.Basic

/-! # C84: the correlation functions of a run converge to those of the state -/
namespace MVMC
open Spec Matrix
open scoped ENNReal

theorem r2kVal_continuous (n i : ℕ) : Continuous fun x : Fin n → ℂ => r2kVal (List.ofFn x) i := by
  unfold r2kVal
  by_cases hi : i = 0
  · simp only [hi, if_true]
    exact continuous_const
  · simp only [hi, if_false]
    by_cases h : i - 1 < n
    · have : (fun x : Fin n → ℂ => (List.ofFn x).getD (i - 1) 0) = fun x => x ⟨i - 1, h⟩ := by
        funext x
        rw [List.getD_eq_getElem?_getD, List.getElem?_ofFn]
        simp [h]
      rw [this]
      exact continuous_apply _
    · have : (fun x : Fin n → ℂ => (List.ofFn x).getD (i - 1) 0) = fun _ => 0 := by
        funext x
        rw [List.getD_eq_getElem?_getD, List.getElem?_ofFn]
        simp [h]
      rw [this]
      exact continuous_const

/-- the correlation functions depend continuously on the values that are read -/
theorem r2kCor_continuous (T : R2kIdx) (mvmc : Bool) (n1 n2 ir0 ir k o1 o2 : ℕ) :
    Continuous fun x : (Fin n1 → ℂ) × (Fin n2 → ℂ) => r2kCor T mvmc (List.ofFn x.1) (List.ofFn x.2) ir0 ir k o1 o2 := by
  have h1 : ∀ i, Continuous fun x : (Fin n1 → ℂ) × (Fin n2 → ℂ) => r2kVal (List.ofFn x.1) i := fun i => (r2kVal_continuous n1 i).comp continuous_fst
  have h2 : ∀ i, Continuous fun x : (Fin n1 → ℂ) × (Fin n2 → ℂ) => r2kVal (List.ofFn x.2) i := fun i => (r2kVal_continuous n2 i).comp continuous_snd
  have h56 : ∀ kk, Continuous fun x : (Fin n1 → ℂ) × (Fin n2 → ℂ) => r2kCor56 T mvmc (List.ofFn x.1) (List.ofFn x.2) ir kk o1 o2 := by
    intro kk
    unfold r2kCor56 r2kCor1
    cases mvmc
    · simpa using h2 _
    · simp only [if_true]
      refine (h2 _).neg.add ?_
      split
      · exact h1 _
      · exact continuous_const
  have h4 : Continuous fun x : (Fin n1 → ℂ) × (Fin n2 → ℂ) => r2kCor4 T (List.ofFn x.2) ir o1 o2 := by
    unfold r2kCor4
    exact ((((h2 _).sub (h2 _)).sub (h2 _)).add (h2 _)).mul continuous_const
  unfold r2kCor
  split
  · unfold r2kCor3 r2kCor1
    exact ((((h2 _).add (h2 _)).add (h2 _)).add (h2 _)).sub (((h1 _).add (h1 _)).mul ((h1 _).add (h1 _)))
  split
  · exact h4
  split
  · exact h56 5
  split
  · exact h4.add (continuous_const.mul ((h56 5).add (h56 6)))
  · exact h1 _

theorem ofFn_range (n : ℕ) (f : ℕ → ℂ) : (List.range n).map f = List.ofFn fun i : Fin n => f i := by
  apply List.ext_getElem <;> simp

/-- values that are close to the right ones give correlation functions that are close -/
theorem r2kCor_close (T : R2kIdx) (mvmc : Bool) (n1 n2 ir0 ir k o1 o2 : ℕ) (f1 f2 : ℕ → ℂ) {ε : ℝ} (hε : 0 < ε) :
    ∃ δ : ℝ, 0 < δ ∧ ∀ f1' f2' : ℕ → ℂ, (∀ i < n1, ‖f1' i - f1 i‖ < δ) → (∀ i < n2, ‖f2' i - f2 i‖ < δ) →
      ‖r2kCor T mvmc ((List.range n1).map f1') ((List.range n2).map f2') ir0 ir k o1 o2
        - r2kCor T mvmc ((List.range n1).map f1) ((List.range n2).map f2) ir0 ir k o1 o2‖ < ε := by
  obtain ⟨δ, hδ, h⟩ := Metric.continuous_iff.mp (r2kCor_continuous T mvmc n1 n2 ir0 ir k o1 o2) (fun i => f1 i, fun i => f2 i) ε hε
  refine ⟨δ, hδ, fun f1' f2' h1 h2 => ?_⟩
  rw [ofFn_range, ofFn_range, ofFn_range, ofFn_range, ← dist_eq_norm]
  refine h (fun i => f1' i, fun i => f2' i) ?_
  rw [Prod.dist_eq]
  refine max_lt ((dist_pi_lt_iff hδ).mpr fun i => ?_) ((dist_pi_lt_iff hδ).mpr fun i => ?_)
  · rw [dist_eq_norm]; exact h1 i i.2
  · rw [dist_eq_norm]; exact h2 i i.2

/-- the correlations converge if the averages of the local values do -/
theorem r2k_converge {X : Type} {K : X → X → ℝ≥0∞} {c0 : X} {m : ℕ} (g : GrnEnv) (T : GrnTab) (lst : X → List ℕ) (ψ : Conf (2 * g.p.Nsite) → ℂ)
    (c1 : ∀ i < T.n1, ∃ C : ℝ, ∀ w n, meanSqErr K c0 w m n (fun c => matrixElement (psi g) (grnOp1 g.p.Nsite T i) (lst c))
      (Spec.expect ψ (prodMat (2 * g.p.Nsite) (grnOp1 g.p.Nsite T i))) ≤ ENNReal.ofReal (C / (n + 1)))
    (c2 : ∀ i < T.nDC, ∃ C : ℝ, ∀ w n, meanSqErr K c0 w m n (fun c => matrixElement (psi g) (grnOpDC g.p.Nsite T i) (lst c))
      (Spec.expect ψ (prodMat (2 * g.p.Nsite) (grnOpDC g.p.Nsite T i))) ≤ ENNReal.ofReal (C / (n + 1))) {G : R2kGeo}
    (hG : R2kGood g.p.Nsite 0 G.rindx G.orb G.zero) (hF : R2kFiles g.p.Nsite 0 G.rindx true ((List.range T.n1).map (grnLine1 T)) ((List.range T.nDC).map (grnLineDC T)))
    {a b b0 : ℕ} (ha : a < g.p.Nsite) (hb : b < g.p.Nsite) (hb0 : b0 < g.p.Nsite) (ha0 : G.rindx a = 0) (hb00 : G.rindx b0 = 0) (ho : G.orb b0 = G.orb b) {k : ℕ} (hk : 1 ≤ k ∧ k ≤ 6)
    (hψ : norm2 (ψ) ≠ 0) (ht : Spec.expect (ψ) (opRho g.p.Nsite b) = Spec.expect (ψ) (opRho g.p.Nsite b0))
    (ε : ℝ) (hε : 0 < ε) :
    ∃ C : ℝ, ∀ w n, failProb (K) c0 w m n (fun l =>
      ‖r2kCor (r2kTable G true ((List.range T.n1).map (grnLine1 T)) ((List.range T.nDC).map (grnLineDC T))) true
        ((List.range T.n1).map fun i => sampleMean (fun c => matrixElement (psi g) (grnOp1 g.p.Nsite T i) (lst c)) l)
        ((List.range T.nDC).map fun i => sampleMean (fun c => matrixElement (psi g) (grnOpDC g.p.Nsite T i) (lst c)) l) 0 (G.rindx b) k (G.orb a) (G.orb b)
        - docCor g.p.Nsite (expectL (ψ)) a b k‖ < ε) ≤ ENNReal.ofReal (C / (n + 1)) := by
  have hval := C84_values_partial (expectL ψ) (expectL_one _ hψ) hG hF (fun _ => rfl) ha hb hb0 ha0 hb00 ho ht hk
  rw [← r2k_lines_one T (expectL ψ) (fun i => Spec.expect ψ (prodMat (2 * g.p.Nsite) (grnOp1 g.p.Nsite T i))) (fun _ _ => rfl),
    ← r2k_lines_two T (expectL ψ) (fun i => Spec.expect ψ (prodMat (2 * g.p.Nsite) (grnOpDC g.p.Nsite T i))) (fun _ _ => rfl)] at hval
  obtain ⟨δ, hδ, hclose⟩ := r2kCor_close (r2kTable G true ((List.range T.n1).map (grnLine1 T)) ((List.range T.nDC).map (grnLineDC T))) true T.n1 T.nDC 0 (G.rindx b) k (G.orb a) (G.orb b)
    (fun i => Spec.expect ψ (prodMat (2 * g.p.Nsite) (grnOp1 g.p.Nsite T i))) (fun i => Spec.expect ψ (prodMat (2 * g.p.Nsite) (grnOpDC g.p.Nsite T i))) hε
  obtain ⟨C1, p1, h1⟩ := fail_all (K := K) (c0 := c0) (m := m) hδ
    (fun (i : Fin T.n1) (c : X) => matrixElement (psi g) (grnOp1 g.p.Nsite T i) (lst c)) _ (fun i => c1 i i.2) (List.finRange T.n1)
  obtain ⟨C2, p2, h2⟩ := fail_all (K := K) (c0 := c0) (m := m) hδ
    (fun (i : Fin T.nDC) (c : X) => matrixElement (psi g) (grnOpDC g.p.Nsite T i) (lst c)) _ (fun i => c2 i i.2) (List.finRange T.nDC)
  refine ⟨C1 + C2, fun w n => ?_⟩
  rw [add_div, ENNReal.ofReal_add (by positivity) (by positivity)]
  refine (failProb_add fun l _ q r => ?_).trans (add_le_add (h1 w n) (h2 w n))
  rw [← hval]
  exact hclose _ _ (fun i hi => q ⟨i, hi⟩ (List.mem_finRange _)) fun i hi => r ⟨i, hi⟩ (List.mem_finRange _)

/-- C84 with C75: the probability that the tool makes from the averages over `n+1` samples of a run a correlation that is off by `ε` or more is at most `C/(n+1)`. -/
theorem C84_converge_partial (g : GrnEnv) (hg : GrnOK g) (ls : Nat → Int) (ex : Int) (hNe : 0 < g.p.Ne) (hNs : 0 < g.p.Nsite) (hd : g.p.Nsite ∣ drawBound)
    (hz : ∀ S : Conf (2 * g.p.Nsite), szSector g ls S → psi g (S.1.sort (· ≤ ·)) ≠ 0) (hp : PathOK (g.szPar ls ex))
    (hconst : ex = 2 → ∃ S S' : Conf (2 * g.p.Nsite), szSector g ls S ∧ szSector g ls S' ∧ ‖psi g (S.1.sort (· ≤ ·))‖ ≠ ‖psi g (S'.1.sort (· ≤ ·))‖)
    (c0 : CfgState (g.szPar ls ex)) (hl : LocalSingle g.p.Nsite ls c0.1.num) (m : Nat) (hm : 0 < m)
    (T : GrnTab) (hT : GrnIdx g.p.Nsite T) (hTl : GrnLocal g.p.Nsite ls T) (hs : GrnSz T) {G : R2kGeo}
    (hG : R2kGood g.p.Nsite 0 G.rindx G.orb G.zero) (hF : R2kFiles g.p.Nsite 0 G.rindx true ((List.range T.n1).map (grnLine1 T)) ((List.range T.nDC).map (grnLineDC T)))
    {a b b0 : ℕ} (ha : a < g.p.Nsite) (hb : b < g.p.Nsite) (hb0 : b0 < g.p.Nsite) (ha0 : G.rindx a = 0) (hb00 : G.rindx b0 = 0) (ho : G.orb b0 = G.orb b) {k : ℕ} (hk : 1 ≤ k ∧ k ≤ 6)
    (hψ : norm2 (trialSz g ls) ≠ 0) (ht : Spec.expect (trialSz g ls) (opRho g.p.Nsite b) = Spec.expect (trialSz g ls) (opRho g.p.Nsite b0))
    (ε : ℝ) (hε : 0 < ε) :
    ∃ C : ℝ, ∀ w n, failProb (samplerK g ls ex) c0 w m n (fun l =>
      ‖r2kCor (r2kTable G true ((List.range T.n1).map (grnLine1 T)) ((List.range T.nDC).map (grnLineDC T))) true
        ((List.range T.n1).map fun i => sampleMean (fun c => matrixElement (psi g) (grnOp1 g.p.Nsite T i) (szList g c.1)) l)
        ((List.range T.nDC).map fun i => sampleMean (fun c => matrixElement (psi g) (grnOpDC g.p.Nsite T i) (szList g c.1)) l) 0 (G.rindx b) k (G.orb a) (G.orb b)
        - docCor g.p.Nsite (expectL (trialSz g ls)) a b k‖ < ε) ≤ ENNReal.ofReal (C / (n + 1)) := by
  obtain ⟨c1, c2⟩ := C75_green g hg ls ex hNe hNs hd hz hp hconst c0 hl m hm T hT hTl hs
  exact r2k_converge g T (fun c : CfgState (g.szPar ls ex) => szList g c.1) (trialSz g ls) c1 c2 hG hF ha hb hb0 ha0 hb00 ho hk hψ ht ε hε

/-- the same for general Sz -/
theorem C84_converge_fsz_partial (g : GrnEnv) (hg : GrnOK g) (ls : Nat → Int) (ex : Int) (hNe : 0 < g.p.Ne) (hNs : 0 < g.p.Nsite) (hlb : ∀ r < g.p.Nsite, ls r = 0 ∨ ls r = 1)
    (hd : g.p.Nsite ∣ drawBound) (hb2 : 2 * g.p.Nsite ≤ drawBound)
    (hz : ∀ S : Conf (2 * g.p.Nsite), fszSector g ls S → psi g (S.1.sort (· ≤ ·)) ≠ 0) (hp : PathOKF (g.fszPar ls ex (-1)))
    (c0 : CfgStateF (g.fszPar ls ex (-1))) (m : Nat) (hm : 0 < m)
    (T : GrnTab) (hT : GrnIdx g.p.Nsite T) (hTl : GrnLocal g.p.Nsite ls T) {G : R2kGeo}
    (hG : R2kGood g.p.Nsite 0 G.rindx G.orb G.zero) (hF : R2kFiles g.p.Nsite 0 G.rindx true ((List.range T.n1).map (grnLine1 T)) ((List.range T.nDC).map (grnLineDC T)))
    {a b b0 : ℕ} (ha : a < g.p.Nsite) (hb : b < g.p.Nsite) (hb0 : b0 < g.p.Nsite) (ha0 : G.rindx a = 0) (hb00 : G.rindx b0 = 0) (ho : G.orb b0 = G.orb b) {k : ℕ} (hk : 1 ≤ k ∧ k ≤ 6)
    (hψ : norm2 (trialFsz g ls) ≠ 0) (ht : Spec.expect (trialFsz g ls) (opRho g.p.Nsite b) = Spec.expect (trialFsz g ls) (opRho g.p.Nsite b0))
    (ε : ℝ) (hε : 0 < ε) :
    ∃ C : ℝ, ∀ w n, failProb (samplerKF g ls ex (-1)) c0 w m n (fun l =>
      ‖r2kCor (r2kTable G true ((List.range T.n1).map (grnLine1 T)) ((List.range T.nDC).map (grnLineDC T))) true
        ((List.range T.n1).map fun i => sampleMean (fun c => matrixElement (psi g) (grnOp1 g.p.Nsite T i) (fszList g c.1)) l)
        ((List.range T.nDC).map fun i => sampleMean (fun c => matrixElement (psi g) (grnOpDC g.p.Nsite T i) (fszList g c.1)) l) 0 (G.rindx b) k (G.orb a) (G.orb b)
        - docCor g.p.Nsite (expectL (trialFsz g ls)) a b k‖ < ε) ≤ ENNReal.ofReal (C / (n + 1)) := by
  obtain ⟨c1, c2⟩ := C75_green_fsz g hg ls ex hNe hNs hlb hd hb2 hz hp c0 m hm T hT hTl
  exact r2k_converge g T (fun c : CfgStateF (g.fszPar ls ex (-1)) => fszList g c.1) (trialFsz g ls) c1 c2 hG hF ha hb hb0 ha0 hb00 ho hk hψ ht ε hε

/-- the same for general Sz with 2Sz fixed: in the state with the `N↑ - N↓` of the start -/
theorem C84_converge_csz_partial (g : GrnEnv) (hg : GrnOK g) (ls : Nat → Int) (ex tz M : Int) (hNe : 0 < g.p.Ne) (hNs : 0 < g.p.Nsite) (hlb : ∀ r < g.p.Nsite, ls r = 0 ∨ ls r = 1)
    (htz : tz ≠ -1) (hd : g.p.Nsite ∣ drawBound) (hb2 : 2 * g.p.Nsite ≤ drawBound)
    (hz : ∀ S : Conf (2 * g.p.Nsite), magSector g ls M S → psi g (S.1.sort (· ≤ ·)) ≠ 0) (hp : PathOKZ (g.fszPar ls ex tz))
    (hconst : ex = 2 → ∃ S S' : Conf (2 * g.p.Nsite), magSector g ls M S ∧ magSector g ls M S' ∧ ‖psi g (S.1.sort (· ≤ ·))‖ ≠ ‖psi g (S'.1.sort (· ≤ ·))‖)
    (c0 : CfgStateF (g.fszPar ls ex tz)) (hm0 : magnetisation g.p.Nsite c0.1.num = M) (m : Nat) (hm : 0 < m)
    (T : GrnTab) (hT : GrnIdx g.p.Nsite T) (hTl : GrnLocal g.p.Nsite ls T) (hs : GrnSz T) {G : R2kGeo}
    (hG : R2kGood g.p.Nsite 0 G.rindx G.orb G.zero) (hF : R2kFiles g.p.Nsite 0 G.rindx true ((List.range T.n1).map (grnLine1 T)) ((List.range T.nDC).map (grnLineDC T)))
    {a b b0 : ℕ} (ha : a < g.p.Nsite) (hb : b < g.p.Nsite) (hb0 : b0 < g.p.Nsite) (ha0 : G.rindx a = 0) (hb00 : G.rindx b0 = 0) (ho : G.orb b0 = G.orb b) {k : ℕ} (hk : 1 ≤ k ∧ k ≤ 6)
    (hψ : norm2 (trialMag g ls M) ≠ 0) (ht : Spec.expect (trialMag g ls M) (opRho g.p.Nsite b) = Spec.expect (trialMag g ls M) (opRho g.p.Nsite b0))
    (ε : ℝ) (hε : 0 < ε) :
    ∃ C : ℝ, ∀ w n, failProb (samplerKF g ls ex tz) c0 w m n (fun l =>
      ‖r2kCor (r2kTable G true ((List.range T.n1).map (grnLine1 T)) ((List.range T.nDC).map (grnLineDC T))) true
        ((List.range T.n1).map fun i => sampleMean (fun c => matrixElement (psi g) (grnOp1 g.p.Nsite T i) (fszList g c.1)) l)
        ((List.range T.nDC).map fun i => sampleMean (fun c => matrixElement (psi g) (grnOpDC g.p.Nsite T i) (fszList g c.1)) l) 0 (G.rindx b) k (G.orb a) (G.orb b)
        - docCor g.p.Nsite (expectL (trialMag g ls M)) a b k‖ < ε) ≤ ENNReal.ofReal (C / (n + 1)) := by
  obtain ⟨c1, c2⟩ := C75_green_csz g hg ls ex tz M hNe hNs hlb htz hd hb2 hz hp hconst c0 hm0 m hm T hT hs hTl
  exact r2k_converge g T (fun c : CfgStateF (g.fszPar ls ex tz) => fszList g c.1) (trialMag g ls M) c1 c2 hG hF ha hb hb0 ha0 hb00 ho hk hψ ht ε hε

/-! ## Example: a ring of two sites with two electrons -/

/-- all lines that the manual asks for -/
def ringTab : GrnTab := ⟨4, fun i k => ((r2kRingLines true 0 [1, 2]).getD i []).getD k 0, 12, fun i k => ((r2kRingLines true 0 [3, 4, 5, 6, 7, 8]).getD i []).getD k 0, 0, fun _ _ => 0⟩

theorem ringTab_ok : GrnIdx 2 ringTab ∧ GrnSz ringTab :=
  ⟨⟨by decide, by decide, by simp [ringTab]⟩, ⟨by decide, by decide⟩⟩

theorem ringTab_lines : (List.range ringTab.n1).map (grnLine1 ringTab) = r2kRingLines true 0 [1, 2] ∧
    (List.range ringTab.nDC).map (grnLineDC ringTab) = r2kRingLines true 0 [3, 4, 5, 6, 7, 8] := by decide

/-- the densities of both sites and spins -/
def densTab : GrnTab := ⟨4, fun i k => if k % 2 = 0 then i % 2 else i / 2, 0, fun _ _ => 0, 0, fun _ _ => 0⟩

theorem dens_half (i : ℕ) (hi : i < 4) : Spec.expect (trialSz dimEnv fun _ => 0) (prodMat (2 * dimEnv.p.Nsite) (grnOp1 dimEnv.p.Nsite densTab i)) = 1 / 2 := by
  rw [← (C73_green dimEnv dimEnv_ok densTab ⟨by decide, by simp [densTab], by simp [densTab]⟩ (fun _ => 0) ⟨by simp, by simp⟩ ⟨by simp [densTab], by simp [densTab]⟩).1 i hi]
  unfold psiMean
  rw [sum_two_sites dimEnv rfl fun l => (Complex.normSq (psi dimEnv l) : ℂ) * matrixElement (psi dimEnv) (grnOp1 dimEnv.p.Nsite densTab i) l,
    Complex.ofReal_sum, sum_two_sites dimEnv rfl fun l => (Complex.normSq (psi dimEnv l) : ℂ)]
  have hi' : i = 0 ∨ i = 1 ∨ i = 2 ∨ i = 3 := by omega
  have hN : dimEnv.p.Nsite = 2 := rfl
  rcases hi' with rfl | rfl | rfl | rfl <;>
  · simp only [grnOp1, densTab, matrixElement, psi, dim_corr, hN]
    simp [actAll, Op.act, dimEnv, exEnv, overlap, pf, pfN, altSum, entry, waveFunction]
    try norm_num

theorem dim_norm : norm2 (trialSz dimEnv fun _ => 0) ≠ 0 := by
  intro h
  have e := dens_half 0 (by omega)
  rw [Spec.expect, h] at e
  simp at e

theorem dim_rho (b : ℕ) (hb : b < 2) : Spec.expect (trialSz dimEnv fun _ => 0) (opRho dimEnv.p.Nsite b) = 1 := by
  have e : expectL (trialSz dimEnv fun _ => 0) (opRho dimEnv.p.Nsite b) = expectL (trialSz dimEnv fun _ => 0) (prodMat (2 * dimEnv.p.Nsite) (grnOp1 dimEnv.p.Nsite densTab b)) +
      expectL (trialSz dimEnv fun _ => 0) (prodMat (2 * dimEnv.p.Nsite) (grnOp1 dimEnv.p.Nsite densTab (b + 2))) := by
    rw [← map_add, opRho]
    have hN : dimEnv.p.Nsite = 2 := rfl
    have hb' : b = 0 ∨ b = 1 := by omega
    rcases hb' with rfl | rfl <;> simp [grnOp1, densTab, numOp, hN]
  change expectL (trialSz dimEnv fun _ => 0) (opRho dimEnv.p.Nsite b) = 1
  rw [e]
  change Spec.expect _ _ + Spec.expect _ _ = 1
  rw [dens_half b (by omega), dens_half (b + 2) (by omega)]
  norm_num

/-- The conditions hold for this ring: all six correlations between site 0 and both sites converge from any start. -/
theorem C84_converge_ring (i j : ℕ) (hi : i < 2) (hj : j < 2) (m : ℕ) (hm : 0 < m) (b : ℕ) (hb : b < 2) (k : ℕ) (hk : 1 ≤ k ∧ k ≤ 6) (ε : ℝ) (hε : 0 < ε) :
    ∃ C : ℝ, ∀ w n, failProb (samplerK dimEnv (fun _ => 0) 1) (dimState _ _ i j hi hj) w m n (fun l =>
      ‖r2kCor (r2kTable (r2kRing 0) true (r2kRingLines true 0 [1, 2]) (r2kRingLines true 0 [3, 4, 5, 6, 7, 8])) true
        ((List.range 4).map fun i => sampleMean (fun c => matrixElement (psi dimEnv) (grnOp1 2 ringTab i) (szList dimEnv c.1)) l)
        ((List.range 12).map fun i => sampleMean (fun c => matrixElement (psi dimEnv) (grnOpDC 2 ringTab i) (szList dimEnv c.1)) l) 0 b k 0 0
        - docCor 2 (expectL (trialSz dimEnv fun _ => 0)) 0 b k‖ < ε) ≤ ENNReal.ofReal (C / (n + 1)) := by
  obtain ⟨g1, g2, _⟩ := C84_ring true 0 (by decide)
  have := C84_converge_partial dimEnv dimEnv_ok (fun _ => 0) 1 (by decide) (by decide) (by decide) (dim_nz _) (Or.inl ⟨Or.inl rfl, by decide⟩) (fun h => absurd h (by decide))
    (dimState _ _ i j hi hj) (fun r hr h => absurd h (by simp)) m hm ringTab ringTab_ok.1 ⟨by simp, by simp⟩ ringTab_ok.2 (G := r2kRing 0) g1
    (by rw [ringTab_lines.1, ringTab_lines.2]; exact g2) (a := 0) (b := b) (b0 := 0) (by decide) hb (by decide) rfl rfl rfl hk dim_norm
    ((dim_rho b hb).trans (dim_rho 0 (by omega)).symm) ε hε
  rw [ringTab_lines.1, ringTab_lines.2] at this
  exact this

end MVMC
