import Verif.Proof.ParLineF
import Verif.Props.SRLower

/-! # C76 in general-Sz mode: with enough samples an optimisation step lowers the energy -/
namespace MVMC
open MVMC.Spec Finset
open scoped ENNReal

section
variable (G : ParGlob) (hG : ParOK G) (para : Nat → ℂ) (ls : Nat → Int) (ex : Int) (hNe : 0 < G.p.Ne) (hlb : ∀ r < G.p.Nsite, ls r = 0 ∨ ls r = 1)
  (hd : G.p.Nsite ∣ drawBound) (hb2 : 2 * G.p.Nsite ≤ drawBound)
  (H : HamPar) (hH : HamIdx G.p.Nsite H) (hloc : HamLocal G.p.Nsite ls H) (hh : HamHermitian H)
  (st : Nat → ℂ) (flag : Nat → Int) (redCut staDel : ℝ)
include hG hNe hlb hd hb2 hH hloc hh

/-- C76, general Sz, 2Sz free: let the trial state have non-zero amplitudes on all configurations with `2Ne` electrons and singly occupied local-spin
sites, a connected sampler, some derivative of non-zero variance, no diagonal element exactly at the threshold, and a non-zero force on one of the
selected components. Then for every small enough step size the probability that the step computed from `n+1` samples fails to lower the energy is at
most `C/(n+1)`. The Hamiltonian may flip spins. -/
theorem C76_lowers_fsz (hz : ∀ S : Conf (2 * G.p.Nsite), fszSector (G.envF para) ls S → psi (G.envF para) (S.1.sort (· ≤ ·)) ≠ 0)
    (hp : PathOKF ((G.envF para).fszPar ls ex (-1))) (c0 : CfgStateF ((G.envF para).fszPar ls ex (-1))) (mi : Nat) (hmi : 0 < mi)
    (hmax : ∃ pi < 2 * G.oOpt, 0 < varOP (G.envF para) (fszSector (G.envF para) ls) H (logDF G para) pi) (hcut : 0 < redCut) (hdel : 0 < staDel)
    (hgap : ∀ pi < 2 * G.oOpt, flag pi = 1 → varOP (G.envF para) (fszSector (G.envF para) ls) H (logDF G para) pi ≠
      sDiagMax (2 * G.oOpt) (varOP (G.envF para) (fszSector (G.envF para) ls) H (logDF G para)) * redCut)
    (hforce : ∃ pi < 2 * G.oOpt, flag pi = 1 ∧
      sDiagMax (2 * G.oOpt) (varOP (G.envF para) (fszSector (G.envF para) ls) H (logDF G para)) * redCut ≤
        varOP (G.envF para) (fszSector (G.envF para) ls) H (logDF G para) pi ∧
      forceOP (G.envF para) (fszSector (G.envF para) ls) H (logDF G para) pi ≠ 0) :
    ∃ δ : ℝ, 0 < δ ∧ ∀ dt, 0 < dt → dt < δ → ∃ C : ℝ, ∀ w n,
      failProb (samplerKF (G.envF para) ls ex (-1)) c0 w mi n
        (StepLowersP (G.envF para) (fszSector (G.envF para) ls) (fun c => fszList (G.envF para) c.1) H (famOfF G para) para (2 * G.oOpt) (logDF G para)
          st flag redCut staDel dt) ≤ ENNReal.ofReal (C / (n + 1)) :=
  step_lowersP (G.envF para) (env_okF hG para) (fszSector (G.envF para) ls) (fun c => fszList (G.envF para) c.1) obsOfF
    (samplerKF (G.envF para) ls ex (-1)) c0 (fszSector_of c0.2.1 c0.2.2) mi
    (C75_converge_fsz (G.envF para) (env_okF hG para) ls ex hNe hG.hN hlb hd hb2 hz hp c0 mi hmi) H
    (fun c => localF_obs (env_okF hG para) _ (hamTerms_orb hH) c) hz hH (closed_fsz (G.envF para) H hH ls hloc) hh (famOfF G para) para (2 * G.oOpt)
    (logDF G para) st flag redCut staDel (fam_stepF hG para ls ex (-1) _ hz) hmax hcut hdel hgap hforce

/-- C76, general Sz, 2Sz fixed: the same on the configurations with the `N↑ - N↓` of the start. -/
theorem C76_lowers_csz (hsz : HamSzConserving H) (tz M : Int) (htz : tz ≠ -1)
    (hz : ∀ S : Conf (2 * G.p.Nsite), magSector (G.envF para) ls M S → psi (G.envF para) (S.1.sort (· ≤ ·)) ≠ 0)
    (hp : PathOKZ ((G.envF para).fszPar ls ex tz))
    (hconst : ex = 2 → ∃ S S' : Conf (2 * G.p.Nsite), magSector (G.envF para) ls M S ∧ magSector (G.envF para) ls M S' ∧
      ‖psi (G.envF para) (S.1.sort (· ≤ ·))‖ ≠ ‖psi (G.envF para) (S'.1.sort (· ≤ ·))‖)
    (c0 : CfgStateF ((G.envF para).fszPar ls ex tz)) (hm0 : magnetisation G.p.Nsite c0.1.num = M) (mi : Nat) (hmi : 0 < mi)
    (hmax : ∃ pi < 2 * G.oOpt, 0 < varOP (G.envF para) (magSector (G.envF para) ls M) H (logDF G para) pi) (hcut : 0 < redCut) (hdel : 0 < staDel)
    (hgap : ∀ pi < 2 * G.oOpt, flag pi = 1 → varOP (G.envF para) (magSector (G.envF para) ls M) H (logDF G para) pi ≠
      sDiagMax (2 * G.oOpt) (varOP (G.envF para) (magSector (G.envF para) ls M) H (logDF G para)) * redCut)
    (hforce : ∃ pi < 2 * G.oOpt, flag pi = 1 ∧
      sDiagMax (2 * G.oOpt) (varOP (G.envF para) (magSector (G.envF para) ls M) H (logDF G para)) * redCut ≤
        varOP (G.envF para) (magSector (G.envF para) ls M) H (logDF G para) pi ∧
      forceOP (G.envF para) (magSector (G.envF para) ls M) H (logDF G para) pi ≠ 0) :
    ∃ δ : ℝ, 0 < δ ∧ ∀ dt, 0 < dt → dt < δ → ∃ C : ℝ, ∀ w n,
      failProb (samplerKF (G.envF para) ls ex tz) c0 w mi n
        (StepLowersP (G.envF para) (magSector (G.envF para) ls M) (fun c => fszList (G.envF para) c.1) H (famOfF G para) para (2 * G.oOpt) (logDF G para)
          st flag redCut staDel dt) ≤ ENNReal.ofReal (C / (n + 1)) := by
  have hg := env_okF hG para
  have hsec : magSector (G.envF para) ls M (obsOfF c0) := (magSector_obs (g := G.envF para) c0).mpr hm0
  have hconv := C75_converge_csz (G.envF para) hg ls ex tz M hNe hG.hN hlb htz hd hb2 hz hp hconst c0 hm0 mi hmi
  have hcl : ClosedOn (magSector (G.envF para) ls M) (hamOf (G.envF para) H) := closed_mag (G.envF para) ls M hH hsz hloc
  have hfam := fam_stepF hG para ls ex tz (magSector (G.envF para) ls M) hz
  have hE : ∀ c : CfgStateF ((G.envF para).fszPar ls ex tz), locE (G.envF para) H (fszList (G.envF para) c.1) =
      locE (G.envF para) H ((obsOfF c).1.sort (· ≤ ·)) := fun c => localF_obs hg _ (hamTerms_orb hH) c
  have key := step_lowersP (G.envF para) hg (magSector (G.envF para) ls M) (fun c : CfgStateF ((G.envF para).fszPar ls ex tz) => fszList (G.envF para) c.1) obsOfF
    (samplerKF (G.envF para) ls ex tz) c0 hsec mi hconv H hE hz hH hcl hh (famOfF G para) para (2 * G.oOpt) (logDF G para) st flag redCut staDel hfam
  exact key hmax hcut hdel hgap hforce

end

/-- C76, general Sz: the vector of derivatives that enters is the one the code stores for the sample, for every interleaving of the threads. Without
Boltzmann machine; with one C50 fails. -/
theorem C76_derivatives_fsz (G : ParGlob) (hG : ParOK G) (hOrb : OrbOK G.Q (2 * G.Q.Nsite)) (para : Nat → ℂ) (c : FCfg) (ip : ℂ) (projCnt : Arr)
    (hs : SampledF (G.envF para) c ip projCnt) (h0 : psi (G.envF para) (fszList (G.envF para) c) ≠ 0) (tevs : List (Nat × (Nat × Int)))
    (ht : tevs.Perm ((List.range (G.Q.nMP * G.Q.nOpt)).flatMap (tableStoresF G.Q (2 * G.p.Ne) c.idx c.spn))) (t0 : Nat → Nat × Int) (evs : List (Nat × ℂ))
    (hp : evs.Perm ((List.range G.Q.nFull).flatMap (diffAddsF G.Q (2 * G.p.Ne) G.st.pfM G.st.invM (runStores tevs t0)))) (out : Nat → ℂ)
    (k : Nat) (hk : k < 2 * G.oOpt + 2) :
    srOptOF G para (runAdds evs (fun _ => 0)) ip projCnt out k = logDF G para (fszList (G.envF para) c) k :=
  logD_codeF hG hOrb para c ip projCnt hs h0 tevs ht t0 evs hp out hk

/-! ## Two sites, two electrons of any spin; amplitudes 2 (same site), 4 (opposite spins, different sites), 2 (same spin), hopping -/

noncomputable def exGF : ParGlob :=
  { exG with
    Q := { exQ with
      nSP := 1, nMP := 1, nSlater := 3
      orbIdx := fun x y => if x % 2 = y % 2 then 0 else if x / 2 = y / 2 then 2 else 1
      orbSgn := fun x y => if x < y then 1 else -1 } }

theorem exGF_ok : ParOK exGF where
  hN := by decide
  hq := rfl
  hQ := rfl
  tab := exG_ok.tab
  tr := exG_ok.tr
  opt := fun _ => rfl
  noRBM := fun _ => rfl
  rN := fun h => absurd h (by decide)
  rTab := fun h => absurd h (by decide)
  rIdx := fun h => absurd h (by decide)

/-- which parameter an occupation list of `pairLists` uses -/
def pairCls (l : List Nat) : Nat := if l = [0, 2] ∨ l = [1, 3] then 0 else if l = [0, 3] ∨ l = [1, 2] then 1 else 2

theorem exGF_amp (q : Nat → ℂ) (l : List Nat) (hl : l ∈ pairLists) : psi (exGF.envF q) l = 2 * q (pairCls l) := by
  have c : corrSpec (exGF.envF q) = fun _ => 1 := by
    funext num
    simp [corrSpec, projSpec, exGF, exG, ParGlob.envF, ParGlob.envWith, logCorr]
  have hw : (exGF.envF q).w 0 = 1 := by
    show qpFullWeight exGF.Q false (fun i => q (exGF.oOpt + i)) exGF.fix exGF.w0 0 = 1
    rw [qpFull_fix (by decide)]; rfl
  have he : ∀ x y, x < y → y < 4 → entry 4 (exGF.envF q).slt 0 x y = 2 * q (pairCls [x, y]) := by
    intro x y h h4
    refine (slaterF_entry exGF.Q (fun k => q (exGF.oSlater + k)) (List.Perm.refl _) exGF.slt0 (q := 0) (x := x) (y := y) (by decide)
      (show x < 4 by omega) (show y < 4 by omega)).trans ?_
    interval_cases y <;> interval_cases x <;>
    norm_num [antisym, pairF, pairCls, exGF, exG, exQ, QPPar.tr, QPPar.sg, QPPar.optidx, QPPar.mpidx, QPPar.spidx, QPPar.nFix,
      ParGlob.oSlater, ParGlob.nR, ProjPar.NProj] <;> ring
  have key : ∀ x y, x < y → y < 4 → psi (exGF.envF q) [x, y] = 2 * q (pairCls [x, y]) := by
    intro x y h h4
    have hn : (exGF.envF q).nQP = 1 := rfl
    have hs : 2 * (exGF.envF q).p.Nsite = 4 := rfl
    unfold psi waveFunction
    rw [c, hn, hs, sum_range_one, hw]
    simp only [pf, pfN, altSum, List.length, he x y h h4]
    simp
  simp only [pairLists, List.mem_cons, List.not_mem_nil, or_false] at hl
  rcases hl with rfl | rfl | rfl | rfl | rfl | rfl <;> exact key _ _ (by omega) (by omega)

noncomputable def lowParaF : Nat → ℂ := fun k => if k = 1 then 2 else 1

theorem lowF_logD (l : List Nat) (hl : l ∈ pairLists) (k : Nat) : logDF exGF lowParaF l (k + 2) =
    if k / 2 = pairCls l then (if k % 2 = 0 then 1 else Complex.I) / lowParaF (pairCls l) else 0 := by
  unfold logDF
  rw [if_neg (by omega), if_neg (by omega)]
  simp only [exGF_amp _ l hl]
  have e1 : (k + 2) / 2 - 1 = k / 2 := by omega
  have e2 : (k + 2) % 2 = k % 2 := by omega
  rw [e1, e2, deriv_const_mul_field, mul_div_mul_left _ _ (by norm_num)]
  have hd : ∀ (J x : Nat) (u : ℂ), deriv (fun t : ℝ => Function.update lowParaF J (lowParaF J + t * u) x) 0 = if J = x then u else 0 := by
    intro J x u
    by_cases h : J = x
    · subst h
      simp only [Function.update_self, if_true]
      have := ((Complex.ofRealCLM.hasDerivAt (x := (0 : ℝ))).mul_const u).const_add (lowParaF J)
      simpa using this.deriv
    · simp only [Function.update_of_ne (Ne.symm h), if_neg h]
      exact deriv_const _ _
  rw [hd]
  by_cases h : k / 2 = pairCls l
  · rw [if_pos h, if_pos h]
  · rw [if_neg h, if_neg h, zero_div]

theorem lowF_energy (l : List Nat) (hl : l ∈ pairLists) :
    locE (exGF.envF lowParaF) dimHam l = if pairCls l = 0 then -4 else if pairCls l = 1 then -1 else 0 := by
  have a := fun l hl => exGF_amp lowParaF l hl
  have a01 := a [0, 1] (by decide)
  have a02 := a [0, 2] (by decide)
  have a03 := a [0, 3] (by decide)
  have a12 := a [1, 2] (by decide)
  have a13 := a [1, 3] (by decide)
  have a23 := a [2, 3] (by decide)
  simp [pairCls, lowParaF] at a01 a02 a03 a12 a13 a23
  have b : ∀ x y, x ≠ y → x < 4 → y < 4 → psi (exGF.envF lowParaF) [x, y] = - psi (exGF.envF lowParaF) [y, x] := fun x y h hx hy =>
    (psi_anti (env_okF exGF_ok lowParaF)) [] x y [] (by simpa using h) (by
      intro z hz
      have hz : z = x ∨ z = y := by simpa using hz
      show z < 4
      omega)
  have b20 := b 2 0 (by omega) (by omega) (by omega)
  have b30 := b 3 0 (by omega) (by omega) (by omega)
  have b21 := b 2 1 (by omega) (by omega) (by omega)
  have b31 := b 3 1 (by omega) (by omega) (by omega)
  have c2 : (starRingEnd ℂ) 2 = 2 := Complex.conj_ofNat 2
  have hs : (exGF.envF lowParaF).p.Nsite = 2 := rfl
  unfold locE
  rw [hs]
  simp only [pairLists, List.mem_cons, List.not_mem_nil, or_false] at hl
  rcases hl with rfl | rfl | rfl | rfl | rfl | rfl <;>
    simp only [energyOf, hamTerms, dimHam, exHam, List.range_succ, List.range_zero, List.flatMap_cons, List.flatMap_nil,
      List.nil_append, List.append_nil, termTransfer, matrixElement, List.cons_append] <;>
    simp [actAll, Op.act, overlap, a01, a02, a03, a12, a13, a23, b20, b30, b21, b31, c2, pairCls] <;> norm_num

theorem lowF_sorts {S : Conf (2 * exGF.p.Nsite)} (h : fszSector (exGF.envF lowParaF) (fun _ => 0) S) : S.1.sort (· ≤ ·) ∈ pairLists := pair_sorts h

theorem lowF_nz : ∀ S : Conf (2 * exGF.p.Nsite), fszSector (exGF.envF lowParaF) (fun _ => 0) S → psi (exGF.envF lowParaF) (S.1.sort (· ≤ ·)) ≠ 0 := by
  intro S hS
  rw [exGF_amp _ _ (lowF_sorts hS)]
  simp only [lowParaF]
  split_ifs <;> simp

theorem lowF_mean (F : List Nat → ℂ) :
    psiMean (psi (exGF.envF lowParaF)) (fszSector (exGF.envF lowParaF) (fun _ => 0)) F =
      (F [0, 1] + F [0, 2] + 4 * F [0, 3] + 4 * F [1, 2] + F [1, 3] + F [2, 3]) / 12 := by
  have a := fun l hl => exGF_amp lowParaF l hl
  have a01 := a [0, 1] (by decide)
  have a02 := a [0, 2] (by decide)
  have a03 := a [0, 3] (by decide)
  have a12 := a [1, 2] (by decide)
  have a13 := a [1, 3] (by decide)
  have a23 := a [2, 3] (by decide)
  simp [pairCls, lowParaF] at a01 a02 a03 a12 a13 a23
  have key : ∀ {A : Type} [AddCommMonoid A] (f : List Nat → A), ∑ S ∈ univ.filter (fszSector (exGF.envF lowParaF) (fun _ => 0)), f (S.1.sort (· ≤ ·)) =
      f [0, 1] + (f [0, 2] + (f [0, 3] + (f [1, 2] + (f [1, 3] + f [2, 3])))) := by
    intro A _ f
    have h := pair_sector
    have h : univ.filter (fszSector (exGF.envF lowParaF) (fun _ => 0)) = pairConfs.toFinset := h
    have nd : ([confOf [0, 1] (by decide), confOf [0, 2] (by decide), confOf [0, 3] (by decide), confOf [1, 2] (by decide), confOf [1, 3] (by decide),
      confOf [2, 3] (by decide)] : List (Conf 4)).Nodup := pairConfs_nodup
    have e1 := List.sum_toFinset (fun S : Conf 4 => f (S.1.sort (· ≤ ·))) nd
    rw [h]
    refine e1.trans ?_
    simp only [List.map_cons, List.map_nil]
    rw [sort_conf [0, 1] (by decide) (by decide) (by decide), sort_conf [0, 2] (by decide) (by decide) (by decide),
      sort_conf [0, 3] (by decide) (by decide) (by decide), sort_conf [1, 2] (by decide) (by decide) (by decide),
      sort_conf [1, 3] (by decide) (by decide) (by decide), sort_conf [2, 3] (by decide) (by decide) (by decide)]
    simp
  have n2 : Complex.normSq (2 : ℂ) = 4 := by rw [Complex.normSq_ofNat]; norm_num
  unfold psiMean
  rw [key (fun l => (Complex.normSq (psi (exGF.envF lowParaF) l) : ℂ) * F l), key (fun l => Complex.normSq (psi (exGF.envF lowParaF) l)), a01, a02, a03, a12, a13, a23]
  simp only [map_mul, n2]
  push_cast
  norm_num
  ring

theorem lowF_var (pi : Nat) (h : pi < 6) : varOP (exGF.envF lowParaF) (fszSector (exGF.envF lowParaF) (fun _ => 0)) dimHam (logDF exGF lowParaF) pi =
    if pi = 0 ∨ pi = 4 then 5 / 36 else if pi = 2 then 1 / 18 else 1 / 6 := by
  unfold varOP meanOOP
  rw [lowF_mean, lowF_mean]
  simp only [ooTerm]
  rw [lowF_logD [0, 1] (by decide), lowF_logD [0, 2] (by decide), lowF_logD [0, 3] (by decide), lowF_logD [1, 2] (by decide), lowF_logD [1, 3] (by decide),
    lowF_logD [2, 3] (by decide)]
  interval_cases pi <;> norm_num [pairCls, lowParaF, Complex.div_re, Complex.mul_re, Complex.normSq]

theorem lowF_force : forceOP (exGF.envF lowParaF) (fszSector (exGF.envF lowParaF) (fun _ => 0)) dimHam (logDF exGF lowParaF) 0 = -4 / 9 := by
  unfold forceOP meanHOP meanOOP
  rw [lowF_mean, lowF_mean, lowF_mean]
  have z : ∀ l, logDF exGF lowParaF l 0 = 1 := fun l => by simp [logDF]
  simp only [ooTerm, z]
  rw [lowF_logD [0, 1] (by decide), lowF_logD [0, 2] (by decide), lowF_logD [0, 3] (by decide), lowF_logD [1, 2] (by decide), lowF_logD [1, 3] (by decide),
    lowF_logD [2, 3] (by decide), lowF_energy [0, 1] (by decide), lowF_energy [0, 2] (by decide), lowF_energy [0, 3] (by decide),
    lowF_energy [1, 2] (by decide), lowF_energy [1, 3] (by decide), lowF_energy [2, 3] (by decide)]
  norm_num [pairCls, lowParaF, Complex.div_re, Complex.mul_re, Complex.normSq]

theorem lowF_max : sDiagMax (2 * exGF.oOpt) (varOP (exGF.envF lowParaF) (fszSector (exGF.envF lowParaF) (fun _ => 0)) dimHam (logDF exGF lowParaF)) = 1 / 6 := by
  have h6 : 2 * exGF.oOpt = 6 := by decide
  rw [h6, sDiagMax_congr (by omega) lowF_var]
  simp only [sDiagMax, List.range_succ, List.range_zero, List.nil_append, List.cons_append, List.foldl_cons, List.foldl_nil]
  norm_num

/-- 2Sz free, from electrons with opposite spins, optimisation of the real part of the same-site amplitude -/
example (mi : Nat) (hmi : 0 < mi) (st : Nat → ℂ) :
    ∃ δ : ℝ, 0 < δ ∧ ∀ dt, 0 < dt → dt < δ → ∃ C : ℝ, ∀ w n,
      failProb (samplerKF (exGF.envF lowParaF) (fun _ => 0) 0 (-1)) ⟨pairTab, pairTab_ok⟩ w mi n
        (StepLowersP (exGF.envF lowParaF) (fszSector (exGF.envF lowParaF) (fun _ => 0)) (fun c => fszList (exGF.envF lowParaF) c.1) dimHam (famOfF exGF lowParaF)
          lowParaF (2 * exGF.oOpt) (logDF exGF lowParaF) st (fun pi => if pi = 0 then 1 else 0) (1 / 1000) (1 / 50) dt) ≤ ENNReal.ofReal (C / (n + 1)) := by
  have h6 : 2 * exGF.oOpt = 6 := by decide
  refine C76_lowers_fsz exGF exGF_ok lowParaF (fun _ => 0) 0 (by decide) (fun r _ => Or.inl rfl) (by decide) (by decide) dimHam dimHam_idx dimHam_local dimHam_herm st
    _ _ _ lowF_nz (Or.inl ⟨rfl, by decide⟩) _ mi hmi ⟨0, by omega, ?_⟩ (by norm_num) (by norm_num) (fun pi h1 h2 => ?_) ⟨0, by omega, by simp, ?_, ?_⟩
  · rw [lowF_var 0 (by omega)]; norm_num
  · have : pi = 0 := by
      by_contra h
      simp [h] at h2
    subst this
    rw [lowF_max, lowF_var 0 (by omega)]; norm_num
  · rw [lowF_max, lowF_var 0 (by omega)]; norm_num
  · rw [lowF_force]; norm_num

/-! ## The same electrons with 2Sz = 0 -/

theorem lowZ_mean (F : List Nat → ℂ) :
    psiMean (psi (exGF.envF lowParaF)) (magSector (exGF.envF lowParaF) (fun _ => 0) 0) F = (F [0, 2] + 4 * F [0, 3] + 4 * F [1, 2] + F [1, 3]) / 10 := by
  have a := fun l hl => exGF_amp lowParaF l hl
  have a02 := a [0, 2] (by decide)
  have a03 := a [0, 3] (by decide)
  have a12 := a [1, 2] (by decide)
  have a13 := a [1, 3] (by decide)
  simp [pairCls, lowParaF] at a02 a03 a12 a13
  have nd : ([confOf [0, 2] (by decide), confOf [0, 3] (by decide), confOf [1, 2] (by decide), confOf [1, 3] (by decide)] : List (Conf 4)).Nodup :=
    of_decide_eq_true (p := List.Nodup (α := Conf 4) _) rfl
  have key : ∀ {A : Type} [AddCommMonoid A] (f : List Nat → A), ∑ S ∈ univ.filter (magSector (exGF.envF lowParaF) (fun _ => 0) 0), f (S.1.sort (· ≤ ·)) =
      f [0, 2] + (f [0, 3] + (f [1, 2] + f [1, 3])) := by
    intro A _ f
    have h := pair_mag
    have h : univ.filter (magSector (exGF.envF lowParaF) (fun _ => 0) 0) =
      ([confOf [0, 2] (by decide), confOf [0, 3] (by decide), confOf [1, 2] (by decide), confOf [1, 3] (by decide)] : List (Conf 4)).toFinset := h
    have e1 := List.sum_toFinset (fun S : Conf 4 => f (S.1.sort (· ≤ ·))) nd
    rw [h]
    refine e1.trans ?_
    simp only [List.map_cons, List.map_nil]
    rw [sort_conf [0, 2] (by decide) (by decide) (by decide), sort_conf [0, 3] (by decide) (by decide) (by decide),
      sort_conf [1, 2] (by decide) (by decide) (by decide), sort_conf [1, 3] (by decide) (by decide) (by decide)]
    simp
  have n2 : Complex.normSq (2 : ℂ) = 4 := by rw [Complex.normSq_ofNat]; norm_num
  unfold psiMean
  rw [key (fun l => (Complex.normSq (psi (exGF.envF lowParaF) l) : ℂ) * F l), key (fun l => Complex.normSq (psi (exGF.envF lowParaF) l)), a02, a03, a12, a13]
  simp only [map_mul, n2]
  push_cast
  norm_num
  ring

theorem lowZ_var (pi : Nat) (h : pi < 6) : varOP (exGF.envF lowParaF) (magSector (exGF.envF lowParaF) (fun _ => 0) 0) dimHam (logDF exGF lowParaF) pi =
    if pi = 0 then 4 / 25 else if pi = 2 then 1 / 25 else if pi < 4 then 1 / 5 else 0 := by
  unfold varOP meanOOP
  rw [lowZ_mean, lowZ_mean]
  simp only [ooTerm]
  rw [lowF_logD [0, 2] (by decide), lowF_logD [0, 3] (by decide), lowF_logD [1, 2] (by decide), lowF_logD [1, 3] (by decide)]
  interval_cases pi <;> norm_num [pairCls, lowParaF, Complex.div_re, Complex.mul_re, Complex.normSq]

theorem lowZ_force : forceOP (exGF.envF lowParaF) (magSector (exGF.envF lowParaF) (fun _ => 0) 0) dimHam (logDF exGF lowParaF) 0 = -12 / 25 := by
  unfold forceOP meanHOP meanOOP
  rw [lowZ_mean, lowZ_mean, lowZ_mean]
  have z : ∀ l, logDF exGF lowParaF l 0 = 1 := fun l => by simp [logDF]
  simp only [ooTerm, z]
  rw [lowF_logD [0, 2] (by decide), lowF_logD [0, 3] (by decide), lowF_logD [1, 2] (by decide), lowF_logD [1, 3] (by decide),
    lowF_energy [0, 2] (by decide), lowF_energy [0, 3] (by decide), lowF_energy [1, 2] (by decide), lowF_energy [1, 3] (by decide)]
  norm_num [pairCls, lowParaF, Complex.div_re, Complex.mul_re, Complex.normSq]

theorem lowZ_max : sDiagMax (2 * exGF.oOpt) (varOP (exGF.envF lowParaF) (magSector (exGF.envF lowParaF) (fun _ => 0) 0) dimHam (logDF exGF lowParaF)) = 1 / 5 := by
  have h6 : 2 * exGF.oOpt = 6 := by decide
  rw [h6, sDiagMax_congr (by omega) lowZ_var]
  simp only [sDiagMax, List.range_succ, List.range_zero, List.nil_append, List.cons_append, List.foldl_cons, List.foldl_nil]
  norm_num

example (mi : Nat) (hmi : 0 < mi) (st : Nat → ℂ) :
    ∃ δ : ℝ, 0 < δ ∧ ∀ dt, 0 < dt → dt < δ → ∃ C : ℝ, ∀ w n,
      failProb (samplerKF (exGF.envF lowParaF) (fun _ => 0) 0 0) ⟨pairTab, pairTab_ok⟩ w mi n
        (StepLowersP (exGF.envF lowParaF) (magSector (exGF.envF lowParaF) (fun _ => 0) 0) (fun c => fszList (exGF.envF lowParaF) c.1) dimHam (famOfF exGF lowParaF)
          lowParaF (2 * exGF.oOpt) (logDF exGF lowParaF) st (fun pi => if pi = 0 then 1 else 0) (1 / 1000) (1 / 50) dt) ≤ ENNReal.ofReal (C / (n + 1)) := by
  have h6 : 2 * exGF.oOpt = 6 := by decide
  refine C76_lowers_csz exGF exGF_ok lowParaF (fun _ => 0) 0 (by decide) (fun r _ => Or.inl rfl) (by decide) (by decide) dimHam dimHam_idx dimHam_local dimHam_herm st
    _ _ _ dimHam_sz 0 0 (by decide) (fun S hS => lowF_nz S hS.1) (Or.inr (Or.inl ⟨rfl, by decide⟩)) (fun h => absurd h (by decide)) _ (by decide) mi hmi
    ⟨0, by omega, ?_⟩ (by norm_num) (by norm_num) (fun pi h1 h2 => ?_) ⟨0, by omega, by simp, ?_, ?_⟩
  · rw [lowZ_var 0 (by omega)]; norm_num
  · have : pi = 0 := by
      by_contra h
      simp [h] at h2
    subst this
    rw [lowZ_max, lowZ_var 0 (by omega)]; norm_num
  · rw [lowZ_max, lowZ_var 0 (by omega)]; norm_num
  · rw [lowZ_force]; norm_num

end MVMC
