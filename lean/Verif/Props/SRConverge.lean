import Verif.Props.Ergodic
import Verif.Proof.SRStable

/-! # An optimisation step computed from samples lowers the energy with a probability that tends to one (C76) -/
namespace MVMC
open Spec Finset Filter Topology
open scoped ENNReal

/-! ## Probability that one of several averages is off -/

theorem errSum_zero {X : Type} {K : X → X → ℝ≥0∞} {c0 : X} {w m n : Nat} {P : List X → Prop} (h : ∀ l, l ≠ [] → P l) : failProb K c0 w m n P = 0 := by
  classical
  unfold failProb
  refine ENNReal.tsum_eq_zero.mpr fun c => ?_
  have : pathMean (stepsProb K m) n c (fun l => if P l then 0 else 1) ≤ pathMean (stepsProb K m) n c (fun l => 0 * (fun _ => 1) l) :=
    pathMean_mono fun l hl => by rw [if_pos (h l hl)]; exact bot_le
  rw [pathMean_mul, zero_mul, nonpos_iff_eq_zero] at this
  rw [this, mul_zero]

theorem failProb_add {X : Type} {K : X → X → ℝ≥0∞} {c0 : X} {w m n : Nat} {P Q R : List X → Prop} (h : ∀ l, l ≠ [] → Q l → R l → P l) :
    failProb K c0 w m n P ≤ failProb K c0 w m n Q + failProb K c0 w m n R := by
  classical
  unfold failProb
  rw [← ENNReal.tsum_add]
  refine ENNReal.tsum_le_tsum fun c => ?_
  rw [← mul_add, ← pathMean_add]
  refine mul_le_mul' le_rfl (pathMean_mono fun l hl => ?_)
  by_cases h1 : Q l <;> by_cases h2 : R l
  · simp [h1, h2, h l hl h1 h2]
  all_goals
    by_cases h3 : P l <;> simp [h1, h2, h3]

theorem failProb_err {X : Type} {K : X → X → ℝ≥0∞} {c0 : X} {w m n : Nat} {f : X → ℂ} {μ : ℂ} {ε : ℝ} :
    failProb K c0 w m n (fun l => ‖sampleMean f l - μ‖ < ε) = errProb K c0 w m n f μ ε := by
  unfold failProb errProb
  refine tsum_congr fun c => ?_
  congr 2
  funext l
  by_cases h : ‖sampleMean f l - μ‖ < ε
  · rw [if_pos h, if_neg (not_le.mpr h)]
  · rw [if_neg h, if_pos (not_lt.mp h)]

theorem failProb_mono {X : Type} {K : X → X → ℝ≥0∞} {c0 : X} {w m n : Nat} {P Q : List X → Prop} (h : ∀ l, l ≠ [] → Q l → P l) :
    failProb K c0 w m n P ≤ failProb K c0 w m n Q := by
  have := failProb_add (K := K) (c0 := c0) (w := w) (m := m) (n := n) (P := P) (Q := Q) (R := fun _ => True) (fun l hl q _ => h l hl q)
  rwa [errSum_zero (P := fun _ => True) (fun _ _ => trivial), add_zero] at this

/-- finitely many averages are all close with probability `1 - C/(n+1)` -/
theorem fail_all {X ι : Type} {K : X → X → ℝ≥0∞} {c0 : X} {m : Nat} {ε : ℝ} (hε : 0 < ε) (f : ι → X → ℂ) (μ : ι → ℂ)
    (h : ∀ i, ∃ C : ℝ, ∀ w n, meanSqErr K c0 w m n (f i) (μ i) ≤ ENNReal.ofReal (C / (n + 1))) (s : List ι) :
    ∃ C : ℝ, 0 ≤ C ∧ ∀ w n, failProb K c0 w m n (fun l => ∀ i ∈ s, ‖sampleMean (f i) l - μ i‖ < ε) ≤ ENNReal.ofReal (C / (n + 1)) := by
  induction s with
  | nil => exact ⟨0, le_rfl, fun w n => by rw [errSum_zero (fun l _ i hi => absurd hi List.not_mem_nil)]; exact bot_le⟩
  | cons a s ih =>
    obtain ⟨C1, h1, hC1⟩ := ih
    obtain ⟨C2, hC2⟩ := h a
    refine ⟨C1 + max C2 0 / ε ^ 2, by positivity, fun w n => ?_⟩
    have e := failProb_add (K := K) (c0 := c0) (w := w) (m := m) (n := n) (P := fun l => ∀ i ∈ a :: s, ‖sampleMean (f i) l - μ i‖ < ε)
      (Q := fun l => ∀ i ∈ s, ‖sampleMean (f i) l - μ i‖ < ε) (R := fun l => ‖sampleMean (f a) l - μ a‖ < ε)
      (fun l _ q r i hi => by rcases List.mem_cons.mp hi with rfl | hi; exacts [r, q i hi])
    refine e.trans ?_
    rw [failProb_err, add_div, ENNReal.ofReal_add (by positivity) (by positivity)]
    refine add_le_add (hC1 w n) (err_prob_bound hε ((hC2 w n).trans (ENNReal.ofReal_le_ofReal ?_)))
    gcongr
    exact le_max_left _ _

/-! ## The averages of the code are sample means -/

/-- the samples of a run: weight 1, local energy `e`, derivatives `O` of each visited state -/
def runSmp {X : Type} (e : X → ℂ) (O : X → Nat → ℂ) (l : List X) (_ : Nat) (k : Nat) : Option Samp := l[k]?.map fun c => ⟨1, e c, O c⟩

theorem kept_run {X : Type} (e : X → ℂ) (O : X → Nat → ℂ) (l : List X) :
    allKept 1 (runSmp e O l) (fun _ => 0) (fun _ => l.length) = l.map fun c => ⟨1, e c, O c⟩ := by
  unfold allKept kept
  simp only [List.range_one, List.flatMap_cons, List.flatMap_nil, List.append_nil, Nat.sub_zero, ← List.range_eq_range']
  refine List.ext_getElem? fun k => ?_
  have : ∀ l : List X, (List.range l.length).filterMap (runSmp e O l 0) = l.map fun c => ⟨1, e c, O c⟩ := by
    intro l
    rw [show runSmp e O l 0 = fun k => l[k]?.map fun c => ⟨1, e c, O c⟩ from rfl]
    have h2 : (List.range l.length).filterMap (fun k => l[k]?) = l := by
      induction l with
      | nil => rfl
      | cons a l ih =>
        rw [List.length_cons, List.range_succ_eq_map, List.filterMap_cons]
        simp only [List.getElem?_cons_zero, List.filterMap_map]
        congr 1
    conv_rhs => rw [← h2]
    rw [List.map_filterMap]
  rw [this]

/-- the averages of the code, one process, from a list of samples -/
noncomputable def runOO {X : Type} (m : Nat) (e : X → ℂ) (O : X → Nat → ℂ) (st : Nat → ℂ) (l : List X) : Nat → ℂ :=
  avgOO 1 (fun p => mainCal false false (m + 2) (runSmp e O l p) 0 l.length st)
noncomputable def runHO {X : Type} (m : Nat) (e : X → ℂ) (O : X → Nat → ℂ) (st : Nat → ℂ) (l : List X) : Nat → ℂ :=
  avgHO 1 (fun p => mainCal false false (m + 2) (runSmp e O l p) 0 l.length st)

theorem runOO_eq {X : Type} {m : Nat} {e : X → ℂ} {O : X → Nat → ℂ} {st : Nat → ℂ} {l : List X} {i j : Nat} (hi : i < m + 2) (hj : j < m + 2) :
    runOO m e O st l (i * (m + 2) + j) = sampleMean (fun c => ooTerm ⟨1, e c, O c⟩ i j) l := by
  have := avgOO_direct (np := 1) (n := m + 2) (smp := runSmp e O l) (lo := fun _ => 0) (hi := fun _ => l.length) (st := fun _ => st) hi hj
  unfold runOO
  rw [this, kept_run, List.map_map, List.map_map]
  unfold sampleMean
  have e1 : (l.map ((fun x : Samp => x.w) ∘ fun c => (⟨1, e c, O c⟩ : Samp))).sum = l.length := by
    simp [Function.comp_def]
  rw [e1]
  push_cast
  rw [one_div, div_eq_mul_inv]
  rfl

theorem runHO_eq {X : Type} {m : Nat} {e : X → ℂ} {O : X → Nat → ℂ} {st : Nat → ℂ} {l : List X} {j : Nat} (hj : j < m + 2) :
    runHO m e O st l j = sampleMean (fun c => e c * O c j) l := by
  have := avgHO_direct (np := 1) (n := m + 2) (smp := runSmp e O l) (lo := fun _ => 0) (hi := fun _ => l.length) (st := fun _ => st) hj
  unfold runHO
  rw [this, kept_run, List.map_map, List.map_map]
  unfold sampleMean
  have e1 : (l.map ((fun x : Samp => x.w) ∘ fun c => (⟨1, e c, O c⟩ : Samp))).sum = l.length := by
    simp [Function.comp_def]
  rw [e1]
  push_cast
  rw [one_div, div_eq_mul_inv]
  simp [Function.comp_def]

/-! ## The configurations of the sector as a list -/

section sector
variable {M : Nat} (P : Conf M → Prop) [DecidablePred P]

/-- number of configurations -/
def secN : Nat := (univ.filter P).card

/-- configuration number `x` -/
noncomputable def secConf (x : Nat) : Conf M := (univ.filter P).toList.getD x ⟨∅, by simp⟩

theorem sec_list : (List.range (secN P)).map (secConf P) = (univ.filter P).toList := by
  unfold secN secConf
  rw [← Finset.length_toList]
  refine List.ext_getElem (by simp) fun k h1 h2 => ?_
  rw [List.getElem_map, List.getElem_range, List.getD_eq_getElem?_getD, List.getElem?_eq_getElem h2, Option.getD_some]

theorem sec_sum {A : Type} [AddCommMonoid A] (f : Conf M → A) : ∑ x ∈ range (secN P), f (secConf P x) = ∑ S ∈ univ.filter P, f S := by
  rw [← Finset.sum_map_toList (univ.filter P), ← sec_list, List.map_map, sum_map_range_list]
  rfl

theorem sec_mem {x : Nat} (hx : x < secN P) : P (secConf P x) := by
  have : secConf P x ∈ (univ.filter P).toList := by
    rw [← sec_list]
    exact List.mem_map.mpr ⟨x, List.mem_range.mpr hx, rfl⟩
  exact (mem_filter.mp (Finset.mem_toList.mp this)).2

/-- the energy of C70 is the energy of the state vector -/
theorem sec_energy (A : Matrix (Conf M) (Conf M) ℂ) (F : List Nat → ℂ) :
    energyRQ (secN P) (fun x' x => A (secConf P x') (secConf P x)) (fun x => F ((secConf P x).1.sort (· ≤ ·))) = energyOfState (stateOn M P F) A := by
  have h1 : normSqOf (secN P) (fun x => F ((secConf P x).1.sort (· ≤ ·))) = norm2 (stateOn M P F) := by
    unfold normSqOf
    rw [sec_sum P (fun S => Complex.normSq (F (S.1.sort (· ≤ ·)))), norm2_stateOn]
  have h2 : expH (secN P) (fun x' x => A (secConf P x') (secConf P x)) (fun x => F ((secConf P x).1.sort (· ≤ ·))) = ev (stateOn M P F) A := by
    unfold expH ev
    have a1 : ∀ x, ∑ x' ∈ range (secN P), star (F ((secConf P x').1.sort (· ≤ ·))) * A (secConf P x') (secConf P x) * F ((secConf P x).1.sort (· ≤ ·)) =
        ∑ S ∈ univ.filter P, star (F (S.1.sort (· ≤ ·))) * A S (secConf P x) * F ((secConf P x).1.sort (· ≤ ·)) := fun x =>
      sec_sum P (fun S => star (F (S.1.sort (· ≤ ·))) * A S (secConf P x) * F ((secConf P x).1.sort (· ≤ ·)))
    simp only [a1]
    rw [sec_sum P (fun T => ∑ S ∈ univ.filter P, star (F (S.1.sort (· ≤ ·))) * A S T * F (T.1.sort (· ≤ ·))), sum_comm, Finset.sum_filter]
    simp only [dotProduct, Matrix.mulVec, Pi.star_apply]
    refine sum_congr rfl fun S _ => ?_
    by_cases hS : P S
    · rw [if_pos hS, Finset.sum_filter, Finset.mul_sum]
      refine sum_congr rfl fun T _ => ?_
      by_cases hT : P T
      · rw [if_pos hT]
        simp [stateOn, hS, hT, mul_assoc]
      · rw [if_neg hT]
        simp [stateOn, hT]
    · rw [if_neg hS]
      simp [stateOn, hS]
  unfold energyRQ energyOfState Spec.expect
  rw [h1, h2, Complex.div_ofReal_re]

end sector

/-! ## One step -/

section step
variable (g : GrnEnv) (hg : GrnOK g) (ls : Nat → Int) (ex : Int) (hNe : 0 < g.p.Ne) (hNs : 0 < g.p.Nsite) (hd : g.p.Nsite ∣ drawBound)
  (hz : ∀ S : Conf (2 * g.p.Nsite), szSector g ls S → psi g (S.1.sort (· ≤ ·)) ≠ 0) (hp : PathOK (g.szPar ls ex))
  (hconst : ex = 2 → ∃ S S' : Conf (2 * g.p.Nsite), szSector g ls S ∧ szSector g ls S' ∧ ‖psi g (S.1.sort (· ≤ ·))‖ ≠ ‖psi g (S'.1.sort (· ≤ ·))‖)
  (c0 : CfgState (g.szPar ls ex)) (hl : LocalSingle g.p.Nsite ls c0.1.num)
  (H : HamPar) (hH : HamIdx g.p.Nsite H) (hsz : HamSzConserving H) (hloc : HamLocal g.p.Nsite ls H) (hh : HamHermitian H)
  (Φ : (Nat → ℂ) → List Nat → ℂ) (para : Nat → ℂ) (m : Nat) (O : List Nat → Nat → ℂ) (st : Nat → ℂ) (flag : Nat → Int) (redCut staDel : ℝ)

/-- local energy of an occupation list -/
noncomputable def locE (g : GrnEnv) (H : HamPar) : List Nat → ℂ := energyOf (psi g) (hamTerms g.p.Nsite H)

/-- `O l (pi+2)` is the logarithmic derivative of the amplitude with respect to component `pi`, `O l 0 = 1`, independent of the order of the
electrons; the amplitudes depend continuously on the parameters -/
structure StepFamily (g : GrnEnv) (ls : Nat → Int) (ex : Int) (Φ : (Nat → ℂ) → List Nat → ℂ) (para : Nat → ℂ) (m : Nat) (O : List Nat → Nat → ℂ) : Prop where
  here : ∀ S : Conf (2 * g.p.Nsite), szSector g ls S → Φ para (S.1.sort (· ≤ ·)) = psi g (S.1.sort (· ≤ ·))
  cont : ∀ S : Conf (2 * g.p.Nsite), szSector g ls S → Continuous fun q => Φ q (S.1.sort (· ≤ ·))
  deriv : ∀ S : Conf (2 * g.p.Nsite), szSector g ls S → ∀ v : Nat → ℂ, HasDerivAt (fun t : ℝ => Φ (fun k => para k + t * v k) (S.1.sort (· ≤ ·)))
    ((∑ pi ∈ range m, (compOf v pi : ℂ) * O (S.1.sort (· ≤ ·)) (pi + 2)) * psi g (S.1.sort (· ≤ ·))) 0
  one : ∀ S : Conf (2 * g.p.Nsite), szSector g ls S → O (S.1.sort (· ≤ ·)) 0 = 1
  order : ∀ c : CfgState (g.szPar ls ex), LocalSingle g.p.Nsite ls c.1.num → O (szList g c.1) = O ((obsOf c).1.sort (· ≤ ·))

/-- energy of the trial state as a function of the parameters -/
noncomputable def energyAt (g : GrnEnv) (ls : Nat → Int) (H : HamPar) (Φ : (Nat → ℂ) → List Nat → ℂ) (q : Nat → ℂ) : ℝ :=
  energyOfState (stateOn (2 * g.p.Nsite) (szSector g ls) (Φ q)) (hamOf g H)

/-- exact averages -/
noncomputable def meanOO (g : GrnEnv) (ls : Nat → Int) (H : HamPar) (O : List Nat → Nat → ℂ) (i j : Nat) : ℂ :=
  psiMean (psi g) (szSector g ls) (fun l => ooTerm ⟨1, locE g H l, O l⟩ i j)
noncomputable def meanHO (g : GrnEnv) (ls : Nat → Int) (H : HamPar) (O : List Nat → Nat → ℂ) (j : Nat) : ℂ :=
  psiMean (psi g) (szSector g ls) (fun l => locE g H l * O l j)

/-- the same as the arrays of the code -/
noncomputable def exactOO (g : GrnEnv) (ls : Nat → Int) (H : HamPar) (O : List Nat → Nat → ℂ) (m : Nat) (k : Nat) : ℂ := meanOO g ls H O (k / (m + 2)) (k % (m + 2))

/-- the step computed from the samples `l` is well defined and lowers the energy: the linear system has a solution and every solution leads to a
state of lower energy -/
def StepLowers (g : GrnEnv) (ls : Nat → Int) (ex : Int) (H : HamPar) (Φ : (Nat → ℂ) → List Nat → ℂ) (para : Nat → ℂ) (m : Nat) (O : List Nat → Nat → ℂ)
    (st : Nat → ℂ) (flag : Nat → Int) (redCut staDel dt : ℝ) (l : List (CfgState (g.szPar ls ex))) : Prop :=
  let OO := runOO m (fun c : CfgState (g.szPar ls ex) => locE g H (szList g c.1)) (fun c => O (szList g c.1)) st l
  let HO := runHO m (fun c : CfgState (g.szPar ls ex) => locE g H (szList g c.1)) (fun c => O (szList g c.1)) st l
  let sel := smatToPara m flag (sDiag (m + 2) OO) redCut
  (∃ r, Solves sel.length (smat (m + 2) OO staDel (sel.getD · 0)) (gvec OO HO dt (sel.getD · 0)) r) ∧
  ∀ r, Solves sel.length (smat (m + 2) OO staDel (sel.getD · 0)) (gvec OO HO dt (sel.getD · 0)) r →
    energyAt g ls H Φ (updatePara true sel r para) < energyAt g ls H Φ para

/-- the exact samples of C70 -/
noncomputable def exactY (g : GrnEnv) (ls : Nat → Int) (H : HamPar) (O : List Nat → Nat → ℂ) (x : Nat) : Samp :=
  let l := (secConf (szSector g ls) x).1.sort (· ≤ ·)
  ⟨Complex.normSq (psi g l), locE g H l, O l⟩

noncomputable def exactSmp (g : GrnEnv) (ls : Nat → Int) (H : HamPar) (O : List Nat → Nat → ℂ) (_ : Nat) (k : Nat) : Option Samp := some (exactY g ls H O k)

theorem kept_exact : allKept 1 (exactSmp g ls H O) (fun _ => 0) (fun _ => secN (szSector g ls)) = (List.range (secN (szSector g ls))).map (exactY g ls H O) := by
  unfold allKept kept
  simp only [List.range_one, List.flatMap_cons, List.flatMap_nil, List.append_nil, Nat.sub_zero, ← List.range_eq_range']
  rw [show exactSmp g ls H O 0 = some ∘ exactY g ls H O from rfl, List.filterMap_eq_map]

theorem exact_mean (G : List Nat → ℂ) :
    (∑ x ∈ range (secN (szSector g ls)), ((exactY g ls H O x).w : ℂ) * G ((secConf (szSector g ls) x).1.sort (· ≤ ·))) *
      ((1 / ∑ x ∈ range (secN (szSector g ls)), (exactY g ls H O x).w : ℝ) : ℂ) = psiMean (psi g) (szSector g ls) G := by
  unfold psiMean
  have h1 := sec_sum (szSector g ls) (fun S => (Complex.normSq (psi g (S.1.sort (· ≤ ·))) : ℂ) * G (S.1.sort (· ≤ ·)))
  have h2 := sec_sum (szSector g ls) (fun S => Complex.normSq (psi g (S.1.sort (· ≤ ·))))
  rw [← h1, ← h2]
  push_cast
  rw [one_div, div_eq_mul_inv]
  rfl

theorem exact_OO {i j : Nat} (hi : i < m + 2) (hj : j < m + 2) :
    avgOO 1 (fun p => mainCal false false (m + 2) (exactSmp g ls H O p) 0 (secN (szSector g ls)) st) (i * (m + 2) + j) = meanOO g ls H O i j := by
  have := avgOO_direct (np := 1) (n := m + 2) (smp := exactSmp g ls H O) (lo := fun _ => 0) (hi := fun _ => secN (szSector g ls)) (st := fun _ => st) hi hj
  rw [this, kept_exact, List.map_map, List.map_map, sum_map_range_list, sum_map_range_list]
  unfold meanOO
  rw [← exact_mean g ls H O]
  congr 1
  refine sum_congr rfl fun x _ => ?_
  simp only [Function.comp, ooTerm, exactY]
  split
  · simp
  · split
    · simp
    · simp [mul_assoc]

theorem exact_HO {j : Nat} (hj : j < m + 2) :
    avgHO 1 (fun p => mainCal false false (m + 2) (exactSmp g ls H O p) 0 (secN (szSector g ls)) st) j = meanHO g ls H O j := by
  have := avgHO_direct (np := 1) (n := m + 2) (smp := exactSmp g ls H O) (lo := fun _ => 0) (hi := fun _ => secN (szSector g ls)) (st := fun _ => st) hj
  rw [this, kept_exact, List.map_map, List.map_map, sum_map_range_list, sum_map_range_list]
  unfold meanHO
  rw [← exact_mean g ls H O]
  congr 1
  refine sum_congr rfl fun x _ => ?_
  simp only [Function.comp, exactY]
  ring

/-- variance of the derivative of component `pi` in the trial state -/
noncomputable def varO (g : GrnEnv) (ls : Nat → Int) (H : HamPar) (O : List Nat → Nat → ℂ) (pi : Nat) : ℝ :=
  (meanOO g ls H O (pi + 2) (pi + 2)).re - (meanOO g ls H O 0 (pi + 2)).re * (meanOO g ls H O 0 (pi + 2)).re

/-- force on component `pi`: `Re⟨H O⟩ - ⟨H⟩Re⟨O⟩` -/
noncomputable def forceO (g : GrnEnv) (ls : Nat → Int) (H : HamPar) (O : List Nat → Nat → ℂ) (pi : Nat) : ℝ :=
  (meanHO g ls H O (pi + 2)).re - (meanHO g ls H O 0).re * (meanOO g ls H O 0 (pi + 2)).re

theorem sDiagMax_congr {m : Nat} (hm : 0 < m) {sd sd' : Nat → ℝ} (h : ∀ pi < m, sd pi = sd' pi) : sDiagMax m sd = sDiagMax m sd' := by
  unfold sDiagMax
  rw [h 0 hm]
  refine List.foldl_ext _ _ _ fun a x hx => ?_
  rw [h x (List.mem_range.mp hx)]

theorem exact_sDiag {pi : Nat} (hpi : pi < m) :
    sDiag (m + 2) (avgOO 1 (fun p => mainCal false false (m + 2) (exactSmp g ls H O p) 0 (secN (szSector g ls)) st)) pi = varO g ls H O pi := by
  have h0 := exact_OO g ls H m O st (i := 0) (j := pi + 2) (by omega) (by omega)
  rw [zero_mul, zero_add] at h0
  unfold sDiag varO
  rw [exact_OO g ls H m O st (by omega) (by omega), h0]

include hg hz hH hsz hloc in
theorem exact_samples (hΦ : StepFamily g ls ex Φ para m O) :
    ExactSamples (secN (szSector g ls)) (fun x' x => hamOf g H (secConf (szSector g ls) x') (secConf (szSector g ls) x))
      (fun x => Φ para ((secConf (szSector g ls) x).1.sort (· ≤ ·))) 1 (exactSmp g ls H O) (fun _ => 0) (fun _ => secN (szSector g ls)) (exactY g ls H O) where
  perm := by rw [kept_exact]
  w := fun x hx => by
    simp only [exactY, hΦ.here _ (sec_mem _ hx)]
  one := fun x hx => hΦ.one _ (sec_mem _ hx)
  e := fun x hx => by
    have hP := sec_mem (szSector g ls) hx
    have hc : confOf ((secConf (szSector g ls) x).1.sort (· ≤ ·)) (fun z h => mem_range.mp (mem_powerset.mp (secConf (szSector g ls) x).2 ((mem_sort (· ≤ ·)).mp h))) =
        secConf (szSector g ls) x := by
      apply Subtype.ext
      simp [confOf]
    have h1 := energyOf_sector (psi g) (psi_anti hg) _ (hamTerms_orb hH) (szSector g ls) (closed_sz g H hH hsz ls hloc) _
      (sort_nodup (secConf (szSector g ls) x).1 (· ≤ ·)) (fun z h => mem_range.mp (mem_powerset.mp (secConf (szSector g ls) x).2 ((mem_sort (· ≤ ·)).mp h)))
      (by rw [hc]; exact hP)
    rw [hc] at h1
    simp only [exactY, locE]
    rw [h1, hΦ.here _ hP]
    have hs := sec_sum (szSector g ls) (fun S => star (Φ para (S.1.sort (· ≤ ·))) * hamOf g H S (secConf (szSector g ls) x))
    rw [hs]
    have hne := hz _ hP
    unfold localValue
    have hst : stateOn (2 * g.p.Nsite) (szSector g ls) (psi g) (secConf (szSector g ls) x) = psi g ((secConf (szSector g ls) x).1.sort (· ≤ ·)) := if_pos hP
    rw [hst, show star (psi g ((secConf (szSector g ls) x).1.sort (· ≤ ·))) = (starRingEnd ℂ) (psi g ((secConf (szSector g ls) x).1.sort (· ≤ ·))) from rfl,
      div_mul_cancel₀ _ ((map_ne_zero _).mpr hne), Finset.sum_filter]
    refine sum_congr rfl fun S _ => ?_
    by_cases hS : szSector g ls S
    · rw [if_pos hS, hΦ.here _ hS]
      simp [stateOn, hS]
    · rw [if_neg hS]
      simp [stateOn, hS]

theorem energyAt_continuous (hc : ∀ S : Conf (2 * g.p.Nsite), szSector g ls S → Continuous fun q => Φ q (S.1.sort (· ≤ ·))) {q : Nat → ℂ}
    (hq : norm2 (stateOn (2 * g.p.Nsite) (szSector g ls) (Φ q)) ≠ 0) : ContinuousAt (energyAt g ls H Φ) q := by
  have h1 : ∀ S, Continuous fun q => stateOn (2 * g.p.Nsite) (szSector g ls) (Φ q) S := by
    intro S
    by_cases hS : szSector g ls S
    · simpa [stateOn, hS] using hc S hS
    · simpa [stateOn, hS] using continuous_const
  have h2 : Continuous fun q => norm2 (stateOn (2 * g.p.Nsite) (szSector g ls) (Φ q)) := by
    unfold norm2
    exact continuous_finsetSum _ fun S _ => Complex.continuous_normSq.comp (h1 S)
  have h3 : Continuous fun q => ev (stateOn (2 * g.p.Nsite) (szSector g ls) (Φ q)) (hamOf g H) := by
    unfold ev
    simp only [dotProduct, Matrix.mulVec, Pi.star_apply]
    exact continuous_finsetSum _ fun S _ => (continuous_star.comp (h1 S)).mul (continuous_finsetSum _ fun T _ => continuous_const.mul (h1 T))
  unfold energyAt energyOfState Spec.expect
  refine Complex.continuous_re.continuousAt.comp ?_
  exact h3.continuousAt.div (Complex.continuous_ofReal.comp h2).continuousAt (by exact_mod_cast hq)

theorem norm2_continuous (hc : ∀ S : Conf (2 * g.p.Nsite), szSector g ls S → Continuous fun q => Φ q (S.1.sort (· ≤ ·))) :
    Continuous fun q => norm2 (stateOn (2 * g.p.Nsite) (szSector g ls) (Φ q)) := by
  unfold norm2
  refine continuous_finsetSum _ fun S _ => Complex.continuous_normSq.comp ?_
  by_cases hS : szSector g ls S
  · simpa [stateOn, hS] using hc S hS
  · simpa [stateOn, hS] using continuous_const

include hg hNe hNs hd hz hp hconst hl hH hsz hloc hh in
/-- C76: for every small enough step size the parameters computed from `n+1` samples of the sampler have a lower energy, with a probability of
at least `1 - C/(n+1)`. -/
theorem C76_step (hΦ : StepFamily g ls ex Φ para m O) (mi : Nat) (hmi : 0 < mi)
    (hmax : ∃ pi < m, 0 < varO g ls H O pi) (hcut : 0 < redCut) (hdel : 0 < staDel)
    (hgap : ∀ pi < m, flag pi = 1 → varO g ls H O pi ≠ sDiagMax m (varO g ls H O) * redCut)
    (hforce : ∃ pi < m, flag pi = 1 ∧ sDiagMax m (varO g ls H O) * redCut ≤ varO g ls H O pi ∧ forceO g ls H O pi ≠ 0) :
    ∃ δ : ℝ, 0 < δ ∧ ∀ dt, 0 < dt → dt < δ → ∃ C : ℝ, ∀ w n,
      failProb (samplerK g ls ex) c0 w mi n (StepLowers g ls ex H Φ para m O st flag redCut staDel dt) ≤ ENNReal.ofReal (C / (n + 1)) := by
  classical
  set N := secN (szSector g ls) with hNdef
  set A : Nat → Nat → ℂ := fun x' x => hamOf g H (secConf (szSector g ls) x') (secConf (szSector g ls) x) with hA
  set Ψ : (Nat → ℂ) → Nat → ℂ := fun q x => Φ q ((secConf (szSector g ls) x).1.sort (· ≤ ·)) with hΨdef
  have hE : ∀ q, energyRQ N A (Ψ q) = energyAt g ls H Φ q := fun q => sec_energy (szSector g ls) (hamOf g H) (Φ q)
  have hm : 0 < m := by obtain ⟨pi, h, _⟩ := hmax; omega
  have hsec : szSector g ls (obsOf c0) := szSector_of c0.2 hl
  have hN : 0 < N := Finset.card_pos.mpr ⟨obsOf c0, mem_filter.mpr ⟨mem_univ _, hsec⟩⟩
  have hpos : ∀ x, x < N → Ψ para x ≠ 0 := fun x hx => by
    simp only [hΨdef]
    rw [hΦ.here _ (sec_mem _ hx)]
    exact hz _ (sec_mem _ hx)
  have hherm : ∀ x x', x < N → x' < N → star (A x' x) = A x x' := fun x x' _ _ => (hamMat_hermitian hH hh).apply _ _
  have hex := exact_samples g hg ls ex hz H hH hsz hloc Φ para m O hΦ
  have hlog : LogDerivs N m Ψ para (fun x => (exactY g ls H O x).O) := fun x hx v => by
    have := hΦ.deriv _ (sec_mem (szSector g ls) hx) v
    rw [← hΦ.here _ (sec_mem (szSector g ls) hx)] at this
    exact this
  set OO := avgOO 1 (fun p => mainCal false false (m + 2) (exactSmp g ls H O p) 0 (secN (szSector g ls)) st) with hOO
  set HO := avgHO 1 (fun p => mainCal false false (m + 2) (exactSmp g ls H O p) 0 (secN (szSector g ls)) st) with hHO
  have hsd : ∀ pi < m, sDiag (m + 2) OO pi = varO g ls H O pi := fun pi h => exact_sDiag g ls H m O st h
  have hmx : sDiagMax m (sDiag (m + 2) OO) = sDiagMax m (varO g ls H O) := sDiagMax_congr hm hsd
  have hmax' : 0 < sDiagMax m (sDiag (m + 2) OO) := by
    obtain ⟨pi, h1, h2⟩ := hmax
    rw [hmx]
    exact lt_of_lt_of_le h2 ((C30_max m _ hm).1 _ h1)
  set sel := smatToPara m flag (sDiag (m + 2) OO) redCut with hsel
  have hf' : ∃ i, i < sel.length ∧ gvec OO HO 1 (sel.getD · 0) i ≠ 0 := by
    obtain ⟨pi, h1, h2, h3, h4⟩ := hforce
    have hmem : pi ∈ sel := ((C30_selection m flag _ redCut).1 pi).mpr ⟨h1, h2, by rw [hsd pi h1, hmx]; exact h3⟩
    obtain ⟨i, hi, he⟩ := List.mem_iff_getElem.mp hmem
    refine ⟨i, hi, ?_⟩
    have e1 : sel.getD i 0 = pi := by rw [List.getD_eq_getElem?_getD, List.getElem?_eq_getElem hi, Option.getD_some, he]
    have h0 := exact_OO g ls H m O st (i := 0) (j := pi + 2) (by omega) (by omega)
    rw [zero_mul, zero_add] at h0
    unfold gvec
    simp only [e1]
    rw [hHO, exact_HO g ls H m O st (by omega), exact_HO g ls H m O st (by omega), hOO, h0]
    unfold forceO at h4
    exact mul_ne_zero (by norm_num) h4
  obtain ⟨δ1, hδ1, hdec⟩ := C70_energy_decreases N A Ψ para 1 m (exactSmp g ls H O) (fun _ => 0) (fun _ => N) (fun _ => st) (exactY g ls H O) flag redCut staDel
    hherm hN hpos hex hlog hmax' hcut hdel hf'
  obtain ⟨⟨r1, hr1⟩, _⟩ := C70_solvable N A Ψ para 1 m (exactSmp g ls H O) (fun _ => 0) (fun _ => N) (fun _ => st) (exactY g ls H O) flag redCut staDel
    hN hpos hex hmax' hcut hdel (gvec OO HO 1 (sel.getD · 0))
  have hreg : ∀ c, Solves sel.length (smat (m + 2) OO staDel (sel.getD · 0)) (fun _ => 0) c → ∀ i < sel.length, c i = 0 := fun c hc i hi =>
    (C70_solvable N A Ψ para 1 m (exactSmp g ls H O) (fun _ => 0) (fun _ => N) (fun _ => st) (exactY g ls H O) flag redCut staDel
      hN hpos hex hmax' hcut hdel (fun _ => 0)).2 c (fun _ => 0) hc (fun i _ => by simp) i hi
  -- the norm at the new parameters
  have hpath : Tendsto (fun dt : ℝ => updatePara true sel (fun i => dt * r1 i) para) (𝓝 0) (𝓝 (updatePara true sel (fun _ => 0) para)) :=
    updatePara_tendsto sel (fun i _ => by
      have : Tendsto (fun dt : ℝ => dt * r1 i) (𝓝 0) (𝓝 (0 * r1 i)) := tendsto_id.mul_const _
      rwa [zero_mul] at this) para
  have h0p : updatePara true sel (fun _ => 0) para = para := by
    have := updatePara_smul sel (fun _ => 0) (fun _ => 0) 0 (fun i _ => by simp) para
    funext k
    rw [this k]; simp
  rw [h0p] at hpath
  have hn0 : norm2 (stateOn (2 * g.p.Nsite) (szSector g ls) (Φ para)) ≠ 0 := by
    rw [← norm2_stateOn]
    refine ne_of_gt (sum_pos' (fun _ _ => Complex.normSq_nonneg _) ⟨obsOf c0, mem_filter.mpr ⟨mem_univ _, hsec⟩, ?_⟩)
    rw [hΦ.here _ hsec]
    exact Complex.normSq_pos.mpr (hz _ hsec)
  have hev := (((norm2_continuous g ls Φ hΦ.cont).continuousAt (x := para)).tendsto.comp hpath).eventually_ne hn0
  obtain ⟨δ2, hδ2, hball⟩ := Metric.eventually_nhds_iff.mp hev
  refine ⟨min δ1 δ2, lt_min hδ1 hδ2, fun dt h0 hlt => ?_⟩
  have hr : Solves sel.length (smat (m + 2) OO staDel (sel.getD · 0)) (gvec OO HO dt (sel.getD · 0)) (fun i => dt * r1 i) := by
    intro i hi
    have e : gvec OO HO dt (sel.getD · 0) i = dt * gvec OO HO 1 (sel.getD · 0) i := by unfold gvec; ring
    rw [e, ← hr1 i hi, mul_sum]
    exact sum_congr rfl (fun j _ => by ring)
  have hlow := hdec dt h0 (hlt.trans_le (min_le_left _ _)) _ hr
  rw [hE, hE] at hlow
  have hcont : ContinuousAt (energyAt g ls H Φ) (updatePara true sel (fun i => dt * r1 i) para) :=
    energyAt_continuous g ls H Φ hΦ.cont (hball (by rw [Real.dist_eq, sub_zero, abs_of_pos h0]; exact hlt.trans_le (min_le_right _ _)))
  obtain ⟨ε, hε, hst⟩ := step_stable (flag := flag) (redCut := redCut) sel hsel.symm (fun pi h1 h2 => by rw [hsd pi h1, hmx]; exact hgap pi h1 h2) hreg hr hlow hcont
  -- all averages
  let f : (Nat × Nat) ⊕ Nat → CfgState (g.szPar ls ex) → ℂ := fun t c => match t with
    | .inl ij => (fun l => ooTerm ⟨1, locE g H l, O l⟩ ij.1 ij.2) (szList g c.1)
    | .inr j => (fun l => locE g H l * O l j) (szList g c.1)
  let μ : (Nat × Nat) ⊕ Nat → ℂ := fun t => match t with
    | .inl ij => meanOO g ls H O ij.1 ij.2
    | .inr j => meanHO g ls H O j
  have hloc' : ∀ c : CfgState (g.szPar ls ex), locE g H (szList g c.1) = locE g H ((obsOf c).1.sort (· ≤ ·)) := fun c => local_obs hg _ (hamTerms_orb hH) c
  have hconv : ∀ t, ∃ C : ℝ, ∀ w n, meanSqErr (samplerK g ls ex) c0 w mi n (f t) (μ t) ≤ ENNReal.ofReal (C / (n + 1)) := by
    intro t
    rcases t with ⟨i, j⟩ | j
    · exact C75_converge g hg ls ex hNe hNs hd hz hp hconst c0 hl mi hmi (fun l => ooTerm ⟨1, locE g H l, O l⟩ i j)
        (fun c hc => by simp only [hloc' c, hΦ.order c hc])
    · exact C75_converge g hg ls ex hNe hNs hd hz hp hconst c0 hl mi hmi (fun l => locE g H l * O l j)
        (fun c hc => by simp only [hloc' c, hΦ.order c hc])
  obtain ⟨C, _, hC⟩ := fail_all hε f μ hconv
    (((List.range (m + 2)).flatMap fun i => (List.range (m + 2)).map fun j => Sum.inl (i, j)) ++ (List.range (m + 2)).map Sum.inr)
  refine ⟨C, fun w n => le_trans (failProb_mono fun l _ hcl => ?_) (hC w n)⟩
  have hclose : CloseAvg m ε OO HO (runOO m (fun c : CfgState (g.szPar ls ex) => locE g H (szList g c.1)) (fun c => O (szList g c.1)) st l)
      (runHO m (fun c : CfgState (g.szPar ls ex) => locE g H (szList g c.1)) (fun c => O (szList g c.1)) st l) := by
    refine ⟨fun i hi j hj => ?_, fun j hj => ?_⟩
    · rw [runOO_eq hi hj, hOO, exact_OO g ls H m O st hi hj]
      exact hcl (.inl (i, j)) (List.mem_append_left _ (List.mem_flatMap.mpr ⟨i, List.mem_range.mpr hi, List.mem_map.mpr ⟨j, List.mem_range.mpr hj, rfl⟩⟩))
    · rw [runHO_eq hj, hHO, exact_HO g ls H m O st hj]
      exact hcl (.inr j) (List.mem_append_right _ (List.mem_map.mpr ⟨j, List.mem_range.mpr hj, rfl⟩))
  obtain ⟨a1, a2, a3⟩ := hst _ _ hclose
  unfold StepLowers
  simp only []
  rw [a1]
  exact ⟨a2, a3⟩

end step

end MVMC
