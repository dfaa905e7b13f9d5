import Verif.Props.SRConverge
import Verif.Props.ErgodicZ

/-! # C76 for any sampler whose averages converge -/
namespace MVMC
open Spec Finset
open scoped ENNReal Topology
open Filter

section step
variable (g : GrnEnv) (hg : GrnOK g) (P : Conf (2 * g.p.Nsite) → Prop) [DecidablePred P] {X : Type} (L : X → List Nat) (obs : X → Conf (2 * g.p.Nsite))
  (K : X → X → ℝ≥0∞) (c0 : X) (hsec : P (obs c0)) (mi : Nat)
  (hconv : ∀ G : List Nat → ℂ, (∀ c, G (L c) = G ((obs c).1.sort (· ≤ ·))) →
    ∃ C : ℝ, ∀ w n, meanSqErr K c0 w mi n (fun c => G (L c)) (psiMean (psi g) P G) ≤ ENNReal.ofReal (C / (n + 1)))
  (H : HamPar) (hlocE : ∀ c, locE g H (L c) = locE g H ((obs c).1.sort (· ≤ ·)))
  (hz : ∀ S : Conf (2 * g.p.Nsite), P S → psi g (S.1.sort (· ≤ ·)) ≠ 0) (hH : HamIdx g.p.Nsite H) (hcl : ClosedOn P (hamOf g H)) (hh : HamHermitian H)
  (Φ : (Nat → ℂ) → List Nat → ℂ) (para : Nat → ℂ) (m : Nat) (O : List Nat → Nat → ℂ) (st : Nat → ℂ) (flag : Nat → Int) (redCut staDel : ℝ)

/-- `O l (pi+2)` is the logarithmic derivative of the amplitude with respect to component `pi`, `O l 0 = 1`, independent of the order of the
electrons; the amplitudes depend continuously on the parameters -/
structure StepFamilyP (g : GrnEnv) (P : Conf (2 * g.p.Nsite) → Prop) {X : Type} (L : X → List Nat) (obs : X → Conf (2 * g.p.Nsite)) (Φ : (Nat → ℂ) → List Nat → ℂ) (para : Nat → ℂ) (m : Nat) (O : List Nat → Nat → ℂ) : Prop where
  here : ∀ S : Conf (2 * g.p.Nsite), P S → Φ para (S.1.sort (· ≤ ·)) = psi g (S.1.sort (· ≤ ·))
  cont : ∀ S : Conf (2 * g.p.Nsite), P S → Continuous fun q => Φ q (S.1.sort (· ≤ ·))
  deriv : ∀ S : Conf (2 * g.p.Nsite), P S → ∀ v : Nat → ℂ, HasDerivAt (fun t : ℝ => Φ (fun k => para k + t * v k) (S.1.sort (· ≤ ·)))
    ((∑ pi ∈ range m, (compOf v pi : ℂ) * O (S.1.sort (· ≤ ·)) (pi + 2)) * psi g (S.1.sort (· ≤ ·))) 0
  one : ∀ S : Conf (2 * g.p.Nsite), P S → O (S.1.sort (· ≤ ·)) 0 = 1
  order : ∀ c : X, O (L c) = O ((obs c).1.sort (· ≤ ·))

/-- energy of the trial state as a function of the parameters -/
noncomputable def energyAtP (g : GrnEnv) (P : Conf (2 * g.p.Nsite) → Prop) [DecidablePred P] (H : HamPar) (Φ : (Nat → ℂ) → List Nat → ℂ) (q : Nat → ℂ) : ℝ :=
  energyOfState (stateOn (2 * g.p.Nsite) P (Φ q)) (hamOf g H)

/-- exact averages -/
noncomputable def meanOOP (g : GrnEnv) (P : Conf (2 * g.p.Nsite) → Prop) [DecidablePred P] (H : HamPar) (O : List Nat → Nat → ℂ) (i j : Nat) : ℂ :=
  psiMean (psi g) P (fun l => ooTerm ⟨1, locE g H l, O l⟩ i j)
noncomputable def meanHOP (g : GrnEnv) (P : Conf (2 * g.p.Nsite) → Prop) [DecidablePred P] (H : HamPar) (O : List Nat → Nat → ℂ) (j : Nat) : ℂ :=
  psiMean (psi g) P (fun l => locE g H l * O l j)

/-- the same as the arrays of the code -/
noncomputable def exactOOP (g : GrnEnv) (P : Conf (2 * g.p.Nsite) → Prop) [DecidablePred P] (H : HamPar) (O : List Nat → Nat → ℂ) (m : Nat) (k : Nat) : ℂ := meanOOP g P H O (k / (m + 2)) (k % (m + 2))

/-- the step computed from the samples `l` is well defined and lowers the energy: the linear system has a solution and every solution leads to a
state of lower energy -/
def StepLowersP (g : GrnEnv) (P : Conf (2 * g.p.Nsite) → Prop) [DecidablePred P] {X : Type} (L : X → List Nat) (H : HamPar) (Φ : (Nat → ℂ) → List Nat → ℂ) (para : Nat → ℂ) (m : Nat) (O : List Nat → Nat → ℂ)
    (st : Nat → ℂ) (flag : Nat → Int) (redCut staDel dt : ℝ) (l : List (X)) : Prop :=
  let OO := runOO m (fun c : X => locE g H (L c)) (fun c => O (L c)) st l
  let HO := runHO m (fun c : X => locE g H (L c)) (fun c => O (L c)) st l
  let sel := smatToPara m flag (sDiag (m + 2) OO) redCut
  (∃ r, Solves sel.length (smat (m + 2) OO staDel (sel.getD · 0)) (gvec OO HO dt (sel.getD · 0)) r) ∧
  ∀ r, Solves sel.length (smat (m + 2) OO staDel (sel.getD · 0)) (gvec OO HO dt (sel.getD · 0)) r →
    energyAtP g P H Φ (updatePara true sel r para) < energyAtP g P H Φ para

/-- the exact samples of C70 -/
noncomputable def exactYP (g : GrnEnv) (P : Conf (2 * g.p.Nsite) → Prop) [DecidablePred P] (H : HamPar) (O : List Nat → Nat → ℂ) (x : Nat) : Samp :=
  let l := (secConf P x).1.sort (· ≤ ·)
  ⟨Complex.normSq (psi g l), locE g H l, O l⟩

noncomputable def exactSmpP (g : GrnEnv) (P : Conf (2 * g.p.Nsite) → Prop) [DecidablePred P] (H : HamPar) (O : List Nat → Nat → ℂ) (_ : Nat) (k : Nat) : Option Samp := some (exactYP g P H O k)

theorem kept_exactP : allKept 1 (exactSmpP g P H O) (fun _ => 0) (fun _ => secN P) = (List.range (secN P)).map (exactYP g P H O) := by
  unfold allKept kept
  simp only [List.range_one, List.flatMap_cons, List.flatMap_nil, List.append_nil, Nat.sub_zero, ← List.range_eq_range']
  rw [show exactSmpP g P H O 0 = some ∘ exactYP g P H O from rfl, List.filterMap_eq_map]

theorem exact_meanP (G : List Nat → ℂ) :
    (∑ x ∈ range (secN P), ((exactYP g P H O x).w : ℂ) * G ((secConf P x).1.sort (· ≤ ·))) *
      ((1 / ∑ x ∈ range (secN P), (exactYP g P H O x).w : ℝ) : ℂ) = psiMean (psi g) P G := by
  unfold psiMean
  have h1 := sec_sum P (fun S => (Complex.normSq (psi g (S.1.sort (· ≤ ·))) : ℂ) * G (S.1.sort (· ≤ ·)))
  have h2 := sec_sum P (fun S => Complex.normSq (psi g (S.1.sort (· ≤ ·))))
  rw [← h1, ← h2]
  push_cast
  rw [one_div, div_eq_mul_inv]
  rfl

theorem exact_OOP {i j : Nat} (hi : i < m + 2) (hj : j < m + 2) :
    avgOO 1 (fun p => mainCal false false (m + 2) (exactSmpP g P H O p) 0 (secN P) st) (i * (m + 2) + j) = meanOOP g P H O i j := by
  have := avgOO_direct (np := 1) (n := m + 2) (smp := exactSmpP g P H O) (lo := fun _ => 0) (hi := fun _ => secN P) (st := fun _ => st) hi hj
  rw [this, kept_exactP, List.map_map, List.map_map, sum_map_range_list, sum_map_range_list]
  unfold meanOOP
  rw [← exact_meanP g P H O]
  congr 1
  refine sum_congr rfl fun x _ => ?_
  simp only [Function.comp, ooTerm, exactYP]
  split
  · simp
  · split
    · simp
    · simp [mul_assoc]

theorem exact_HOP {j : Nat} (hj : j < m + 2) :
    avgHO 1 (fun p => mainCal false false (m + 2) (exactSmpP g P H O p) 0 (secN P) st) j = meanHOP g P H O j := by
  have := avgHO_direct (np := 1) (n := m + 2) (smp := exactSmpP g P H O) (lo := fun _ => 0) (hi := fun _ => secN P) (st := fun _ => st) hj
  rw [this, kept_exactP, List.map_map, List.map_map, sum_map_range_list, sum_map_range_list]
  unfold meanHOP
  rw [← exact_meanP g P H O]
  congr 1
  refine sum_congr rfl fun x _ => ?_
  simp only [Function.comp, exactYP]
  ring

/-- variance of the derivative of component `pi` in the trial state -/
noncomputable def varOP (g : GrnEnv) (P : Conf (2 * g.p.Nsite) → Prop) [DecidablePred P] (H : HamPar) (O : List Nat → Nat → ℂ) (pi : Nat) : ℝ :=
  (meanOOP g P H O (pi + 2) (pi + 2)).re - (meanOOP g P H O 0 (pi + 2)).re * (meanOOP g P H O 0 (pi + 2)).re

/-- force on component `pi`: `Re⟨H O⟩ - ⟨H⟩Re⟨O⟩` -/
noncomputable def forceOP (g : GrnEnv) (P : Conf (2 * g.p.Nsite) → Prop) [DecidablePred P] (H : HamPar) (O : List Nat → Nat → ℂ) (pi : Nat) : ℝ :=
  (meanHOP g P H O (pi + 2)).re - (meanHOP g P H O 0).re * (meanOOP g P H O 0 (pi + 2)).re

theorem exact_sDiagP {pi : Nat} (hpi : pi < m) :
    sDiag (m + 2) (avgOO 1 (fun p => mainCal false false (m + 2) (exactSmpP g P H O p) 0 (secN P) st)) pi = varOP g P H O pi := by
  have h0 := exact_OOP g P H m O st (i := 0) (j := pi + 2) (by omega) (by omega)
  rw [zero_mul, zero_add] at h0
  unfold sDiag varOP
  rw [exact_OOP g P H m O st (by omega) (by omega), h0]

include hg hz hH hcl in
theorem exact_samplesP (hΦ : StepFamilyP g P L obs Φ para m O) :
    ExactSamples (secN P) (fun x' x => hamOf g H (secConf P x') (secConf P x))
      (fun x => Φ para ((secConf P x).1.sort (· ≤ ·))) 1 (exactSmpP g P H O) (fun _ => 0) (fun _ => secN P) (exactYP g P H O) where
  perm := by rw [kept_exactP]
  w := fun x hx => by
    simp only [exactYP, hΦ.here _ (sec_mem _ hx)]
  one := fun x hx => hΦ.one _ (sec_mem _ hx)
  e := fun x hx => by
    have hP := sec_mem P hx
    have hc : confOf ((secConf P x).1.sort (· ≤ ·)) (fun z h => mem_range.mp (mem_powerset.mp (secConf P x).2 ((mem_sort (· ≤ ·)).mp h))) =
        secConf P x := by
      apply Subtype.ext
      simp [confOf]
    have h1 := energyOf_sector (psi g) (psi_anti hg) _ (hamTerms_orb hH) P (hcl) _
      (sort_nodup (secConf P x).1 (· ≤ ·)) (fun z h => mem_range.mp (mem_powerset.mp (secConf P x).2 ((mem_sort (· ≤ ·)).mp h)))
      (by rw [hc]; exact hP)
    rw [hc] at h1
    simp only [exactYP, locE]
    rw [h1, hΦ.here _ hP]
    have hs := sec_sum P (fun S => star (Φ para (S.1.sort (· ≤ ·))) * hamOf g H S (secConf P x))
    rw [hs]
    have hne := hz _ hP
    unfold localValue
    have hst : stateOn (2 * g.p.Nsite) P (psi g) (secConf P x) = psi g ((secConf P x).1.sort (· ≤ ·)) := if_pos hP
    rw [hst, show star (psi g ((secConf P x).1.sort (· ≤ ·))) = (starRingEnd ℂ) (psi g ((secConf P x).1.sort (· ≤ ·))) from rfl,
      div_mul_cancel₀ _ ((map_ne_zero _).mpr hne), Finset.sum_filter]
    refine sum_congr rfl fun S _ => ?_
    by_cases hS : P S
    · rw [if_pos hS, hΦ.here _ hS]
      simp [stateOn, hS]
    · rw [if_neg hS]
      simp [stateOn, hS]

theorem energyAt_continuousP (hc : ∀ S : Conf (2 * g.p.Nsite), P S → Continuous fun q => Φ q (S.1.sort (· ≤ ·))) {q : Nat → ℂ}
    (hq : norm2 (stateOn (2 * g.p.Nsite) P (Φ q)) ≠ 0) : ContinuousAt (energyAtP g P H Φ) q := by
  have h1 : ∀ S, Continuous fun q => stateOn (2 * g.p.Nsite) P (Φ q) S := by
    intro S
    by_cases hS : P S
    · simpa [stateOn, hS] using hc S hS
    · simpa [stateOn, hS] using continuous_const
  have h2 : Continuous fun q => norm2 (stateOn (2 * g.p.Nsite) P (Φ q)) := by
    unfold norm2
    exact continuous_finsetSum _ fun S _ => Complex.continuous_normSq.comp (h1 S)
  have h3 : Continuous fun q => ev (stateOn (2 * g.p.Nsite) P (Φ q)) (hamOf g H) := by
    unfold ev
    simp only [dotProduct, Matrix.mulVec, Pi.star_apply]
    exact continuous_finsetSum _ fun S _ => (continuous_star.comp (h1 S)).mul (continuous_finsetSum _ fun T _ => continuous_const.mul (h1 T))
  unfold energyAtP energyOfState Spec.expect
  refine Complex.continuous_re.continuousAt.comp ?_
  exact h3.continuousAt.div (Complex.continuous_ofReal.comp h2).continuousAt (by exact_mod_cast hq)

theorem norm2_continuousP (hc : ∀ S : Conf (2 * g.p.Nsite), P S → Continuous fun q => Φ q (S.1.sort (· ≤ ·))) :
    Continuous fun q => norm2 (stateOn (2 * g.p.Nsite) P (Φ q)) := by
  unfold norm2
  refine continuous_finsetSum _ fun S _ => Complex.continuous_normSq.comp ?_
  by_cases hS : P S
  · simpa [stateOn, hS] using hc S hS
  · simpa [stateOn, hS] using continuous_const

include hg hz hH hcl hh hsec hconv hlocE in
/-- for every small enough step size the parameters computed from `n+1` samples of the sampler have a lower energy, with a probability of
at least `1 - C/(n+1)`. -/
theorem step_lowersP (hΦ : StepFamilyP g P L obs Φ para m O)
    (hmax : ∃ pi < m, 0 < varOP g P H O pi) (hcut : 0 < redCut) (hdel : 0 < staDel)
    (hgap : ∀ pi < m, flag pi = 1 → varOP g P H O pi ≠ sDiagMax m (varOP g P H O) * redCut)
    (hforce : ∃ pi < m, flag pi = 1 ∧ sDiagMax m (varOP g P H O) * redCut ≤ varOP g P H O pi ∧ forceOP g P H O pi ≠ 0) :
    ∃ δ : ℝ, 0 < δ ∧ ∀ dt, 0 < dt → dt < δ → ∃ C : ℝ, ∀ w n,
      failProb (K) c0 w mi n (StepLowersP g P L H Φ para m O st flag redCut staDel dt) ≤ ENNReal.ofReal (C / (n + 1)) := by
  classical
  set N := secN P with hNdef
  set A : Nat → Nat → ℂ := fun x' x => hamOf g H (secConf P x') (secConf P x) with hA
  set Ψ : (Nat → ℂ) → Nat → ℂ := fun q x => Φ q ((secConf P x).1.sort (· ≤ ·)) with hΨdef
  have hE : ∀ q, energyRQ N A (Ψ q) = energyAtP g P H Φ q := fun q => sec_energy P (hamOf g H) (Φ q)
  have hm : 0 < m := by obtain ⟨pi, h, _⟩ := hmax; omega
  have hN : 0 < N := Finset.card_pos.mpr ⟨obs c0, mem_filter.mpr ⟨mem_univ _, hsec⟩⟩
  have hpos : ∀ x, x < N → Ψ para x ≠ 0 := fun x hx => by
    simp only [hΨdef]
    rw [hΦ.here _ (sec_mem _ hx)]
    exact hz _ (sec_mem _ hx)
  have hherm : ∀ x x', x < N → x' < N → star (A x' x) = A x x' := fun x x' _ _ => (hamMat_hermitian hH hh).apply _ _
  have hex := exact_samplesP g hg P L obs H hz hH hcl Φ para m O hΦ
  have hlog : LogDerivs N m Ψ para (fun x => (exactYP g P H O x).O) := fun x hx v => by
    have := hΦ.deriv _ (sec_mem P hx) v
    rw [← hΦ.here _ (sec_mem P hx)] at this
    exact this
  set OO := avgOO 1 (fun p => mainCal false false (m + 2) (exactSmpP g P H O p) 0 (secN P) st) with hOO
  set HO := avgHO 1 (fun p => mainCal false false (m + 2) (exactSmpP g P H O p) 0 (secN P) st) with hHO
  have hsd : ∀ pi < m, sDiag (m + 2) OO pi = varOP g P H O pi := fun pi h => exact_sDiagP g P H m O st h
  have hmx : sDiagMax m (sDiag (m + 2) OO) = sDiagMax m (varOP g P H O) := sDiagMax_congr hm hsd
  have hmax' : 0 < sDiagMax m (sDiag (m + 2) OO) := by
    obtain ⟨pi, h1, h2⟩ := hmax
    rw [hmx]
    exact lt_of_lt_of_le h2 ((C30_max m _ hm).1 _ h1)
  set sel := smatToPara m flag (sDiag (m + 2) OO) redCut with hsel
  have hf' : ∃ i, i < sel.length ∧ gvec OO HO 1 (sel.getD · 0) i ≠ 0 := by
    obtain ⟨pi, h1, h2, h3, h4⟩ := hforce
    have hmem : pi ∈ sel := ((C30_selection m flag _ redCut).1 pi).mpr ⟨h1, h2, by rw [hsd pi h1, hmx]; exact h3⟩
    obtain ⟨i, hi, he⟩ := List.mem_iff_getElem.mp hmem
    refine ⟨i, hi, ?_⟩
    have e1 : sel.getD i 0 = pi := by rw [List.getD_eq_getElem?_getD, List.getElem?_eq_getElem hi, Option.getD_some, he]
    have h0 := exact_OOP g P H m O st (i := 0) (j := pi + 2) (by omega) (by omega)
    rw [zero_mul, zero_add] at h0
    unfold gvec
    simp only [e1]
    rw [hHO, exact_HOP g P H m O st (by omega), exact_HOP g P H m O st (by omega), hOO, h0]
    unfold forceOP at h4
    exact mul_ne_zero (by norm_num) h4
  obtain ⟨δ1, hδ1, hdec⟩ := C70_energy_decreases N A Ψ para 1 m (exactSmpP g P H O) (fun _ => 0) (fun _ => N) (fun _ => st) (exactYP g P H O) flag redCut staDel
    hherm hN hpos hex hlog hmax' hcut hdel hf'
  obtain ⟨⟨r1, hr1⟩, _⟩ := C70_solvable N A Ψ para 1 m (exactSmpP g P H O) (fun _ => 0) (fun _ => N) (fun _ => st) (exactYP g P H O) flag redCut staDel
    hN hpos hex hmax' hcut hdel (gvec OO HO 1 (sel.getD · 0))
  have hreg : ∀ c, Solves sel.length (smat (m + 2) OO staDel (sel.getD · 0)) (fun _ => 0) c → ∀ i < sel.length, c i = 0 := fun c hc i hi =>
    (C70_solvable N A Ψ para 1 m (exactSmpP g P H O) (fun _ => 0) (fun _ => N) (fun _ => st) (exactYP g P H O) flag redCut staDel
      hN hpos hex hmax' hcut hdel (fun _ => 0)).2 c (fun _ => 0) hc (fun i _ => by simp) i hi
  -- the norm at the new parameters
  have hpath : Tendsto (fun dt : ℝ => updatePara true sel (fun i => dt * r1 i) para) (𝓝 0) (𝓝 (updatePara true sel (fun _ => 0) para)) :=
    updatePara_tendsto sel (fun i _ => by
      have : Tendsto (fun dt : ℝ => dt * r1 i) (𝓝 0) (𝓝 (0 * r1 i)) := tendsto_id.mul_const _
      rwa [zero_mul] at this) para
  have h0p : updatePara true sel (fun _ => 0) para = para := by
    have := updatePara_smul sel (fun _ => 0) (fun _ => 0) 0 (fun i _ => by simp) para
    funext k
    rw [this k]; simp
  rw [h0p] at hpath
  have hn0 : norm2 (stateOn (2 * g.p.Nsite) P (Φ para)) ≠ 0 := by
    rw [← norm2_stateOn]
    refine ne_of_gt (sum_pos' (fun _ _ => Complex.normSq_nonneg _) ⟨obs c0, mem_filter.mpr ⟨mem_univ _, hsec⟩, ?_⟩)
    rw [hΦ.here _ hsec]
    exact Complex.normSq_pos.mpr (hz _ hsec)
  have hev := (((norm2_continuousP g P Φ hΦ.cont).continuousAt (x := para)).tendsto.comp hpath).eventually_ne hn0
  obtain ⟨δ2, hδ2, hball⟩ := Metric.eventually_nhds_iff.mp hev
  refine ⟨min δ1 δ2, lt_min hδ1 hδ2, fun dt h0 hlt => ?_⟩
  have hr : Solves sel.length (smat (m + 2) OO staDel (sel.getD · 0)) (gvec OO HO dt (sel.getD · 0)) (fun i => dt * r1 i) := by
    intro i hi
    have e : gvec OO HO dt (sel.getD · 0) i = dt * gvec OO HO 1 (sel.getD · 0) i := by unfold gvec; ring
    rw [e, ← hr1 i hi, mul_sum]
    exact sum_congr rfl (fun j _ => by ring)
  have hlow := hdec dt h0 (hlt.trans_le (min_le_left _ _)) _ hr
  rw [hE, hE] at hlow
  have hcont : ContinuousAt (energyAtP g P H Φ) (updatePara true sel (fun i => dt * r1 i) para) :=
    energyAt_continuousP g P H Φ hΦ.cont (hball (by rw [Real.dist_eq, sub_zero, abs_of_pos h0]; exact hlt.trans_le (min_le_right _ _)))
  obtain ⟨ε, hε, hst⟩ := step_stable (flag := flag) (redCut := redCut) sel hsel.symm (fun pi h1 h2 => by rw [hsd pi h1, hmx]; exact hgap pi h1 h2) hreg hr hlow hcont
  -- all averages
  let f : (Nat × Nat) ⊕ Nat → X → ℂ := fun t c => match t with
    | .inl ij => (fun l => ooTerm ⟨1, locE g H l, O l⟩ ij.1 ij.2) (L c)
    | .inr j => (fun l => locE g H l * O l j) (L c)
  let μ : (Nat × Nat) ⊕ Nat → ℂ := fun t => match t with
    | .inl ij => meanOOP g P H O ij.1 ij.2
    | .inr j => meanHOP g P H O j
  have hconv2 : ∀ t, ∃ C : ℝ, ∀ w n, meanSqErr (K) c0 w mi n (f t) (μ t) ≤ ENNReal.ofReal (C / (n + 1)) := by
    intro t
    rcases t with ⟨i, j⟩ | j
    · exact hconv (fun l => ooTerm ⟨1, locE g H l, O l⟩ i j) (fun c => by simp only [hlocE c, hΦ.order c])
    · exact hconv (fun l => locE g H l * O l j) (fun c => by simp only [hlocE c, hΦ.order c])
  obtain ⟨C, _, hC⟩ := fail_all hε f μ hconv2
    (((List.range (m + 2)).flatMap fun i => (List.range (m + 2)).map fun j => Sum.inl (i, j)) ++ (List.range (m + 2)).map Sum.inr)
  refine ⟨C, fun w n => le_trans (failProb_mono fun l _ hcl => ?_) (hC w n)⟩
  have hclose : CloseAvg m ε OO HO (runOO m (fun c : X => locE g H (L c)) (fun c => O (L c)) st l)
      (runHO m (fun c : X => locE g H (L c)) (fun c => O (L c)) st l) := by
    refine ⟨fun i hi j hj => ?_, fun j hj => ?_⟩
    · rw [runOO_eq hi hj, hOO, exact_OOP g P H m O st hi hj]
      exact hcl (.inl (i, j)) (List.mem_append_left _ (List.mem_flatMap.mpr ⟨i, List.mem_range.mpr hi, List.mem_map.mpr ⟨j, List.mem_range.mpr hj, rfl⟩⟩))
    · rw [runHO_eq hj, hHO, exact_HOP g P H m O st hj]
      exact hcl (.inr j) (List.mem_append_right _ (List.mem_map.mpr ⟨j, List.mem_range.mpr hj, rfl⟩))
  obtain ⟨a1, a2, a3⟩ := hst _ _ hclose
  unfold StepLowersP
  simp only []
  rw [a1]
  exact ⟨a2, a3⟩

end step

end MVMC
