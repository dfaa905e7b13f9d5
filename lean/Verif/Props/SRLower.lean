import Verif.Proof.ParLine

/-! # C76: with enough samples an optimisation step lowers the energy -/
namespace MVMC
open MVMC.Spec Finset
open scoped ENNReal

section
variable (G : ParGlob) (hG : ParOK G) (para : Nat → ℂ) (ls : Nat → Int) (ex : Int) (hNe : 0 < G.p.Ne) (hd : G.p.Nsite ∣ drawBound)
  (hz : ∀ S : Conf (2 * G.p.Nsite), szSector (G.env para) ls S → psi (G.env para) (S.1.sort (· ≤ ·)) ≠ 0) (hp : PathOK ((G.env para).szPar ls ex))
  (hconst : ex = 2 → ∃ S S' : Conf (2 * G.p.Nsite), szSector (G.env para) ls S ∧ szSector (G.env para) ls S' ∧
    ‖psi (G.env para) (S.1.sort (· ≤ ·))‖ ≠ ‖psi (G.env para) (S'.1.sort (· ≤ ·))‖)
  (c0 : CfgState ((G.env para).szPar ls ex)) (hl : LocalSingle G.p.Nsite ls c0.1.num)
  (H : HamPar) (hH : HamIdx G.p.Nsite H) (hsz : HamSzConserving H) (hloc : HamLocal G.p.Nsite ls H) (hh : HamHermitian H)
  (st : Nat → ℂ) (flag : Nat → Int) (redCut staDel : ℝ)
include hG hNe hd hz hp hconst hl hH hsz hloc hh

/-- C76: let the trial state have non-zero amplitudes, a connected sampler, some derivative of non-zero variance, no diagonal element exactly at the
threshold, and a non-zero force on one of the selected components. Then for every small enough step size `dt` there is a `C` such that the
probability that the step computed from `n+1` samples (any warm-up, any interval) fails to lower the energy is at most `C/(n+1)`: the linear system
of the averages has a solution, and the parameters after the update with any solution of it have a lower energy `⟨Ψ|H|Ψ⟩/⟨Ψ|Ψ⟩`. -/
theorem C76_lowers (mi : Nat) (hmi : 0 < mi)
    (hmax : ∃ pi < 2 * G.oOpt, 0 < varO (G.env para) ls H (logD G para) pi) (hcut : 0 < redCut) (hdel : 0 < staDel)
    (hgap : ∀ pi < 2 * G.oOpt, flag pi = 1 →
      varO (G.env para) ls H (logD G para) pi ≠ sDiagMax (2 * G.oOpt) (varO (G.env para) ls H (logD G para)) * redCut)
    (hforce : ∃ pi < 2 * G.oOpt, flag pi = 1 ∧
      sDiagMax (2 * G.oOpt) (varO (G.env para) ls H (logD G para)) * redCut ≤ varO (G.env para) ls H (logD G para) pi ∧
      forceO (G.env para) ls H (logD G para) pi ≠ 0) :
    ∃ δ : ℝ, 0 < δ ∧ ∀ dt, 0 < dt → dt < δ → ∃ C : ℝ, ∀ w n,
      failProb (samplerK (G.env para) ls ex) c0 w mi n
        (StepLowers (G.env para) ls ex H (famOf G para) para (2 * G.oOpt) (logD G para) st flag redCut staDel dt) ≤ ENNReal.ofReal (C / (n + 1)) :=
  C76_step (G.env para) (env_ok hG para) ls ex hNe hG.hN hd hz hp hconst c0 hl H hH hsz hloc hh (famOf G para) para (2 * G.oOpt) (logD G para) st flag
    redCut staDel (fam_step hG para ls ex hz) mi hmi hmax hcut hdel hgap hforce

end

/-- C76: the vector of derivatives that enters is the one the code stores for the sample (`SROptO`), for every interleaving of the threads. -/
theorem C76_derivatives (G : ParGlob) (hG : ParOK G) (hOrb : OrbOK G.Q G.Q.Nsite) (para : Nat → ℂ) (c : EleCfg) (ip : ℂ) (projCnt : Arr)
    (rbmCnt : Nat → ℂ) (hs : Sampled (G.env para) c ip projCnt rbmCnt) (h0 : psi (G.env para) (szList (G.env para) c) ≠ 0)
    (hc : G.flagRBM = true → ∀ h < G.rbm.nNeuron, Complex.cosh (makeRBMCnt (G.rbmOf para) c.num (h + G.rbm.nPhys)) ≠ 0)
    (tevs : List (Nat × (Nat × Int)))
    (ht : tevs.Perm ((List.range (G.Q.nMP * G.Q.nOpt)).flatMap (tableStores G.Q (2 * G.p.Ne) c.idx))) (t0 : Nat → Nat × Int) (evs : List (Nat × ℂ))
    (hp : evs.Perm ((List.range G.Q.nFull).flatMap (diffAdds G.Q G.p.Ne G.cs G.cc G.ss G.st.pfM G.st.invM (runStores tevs t0)))) (out : Nat → ℂ)
    (k : Nat) (hk : k < 2 * G.oOpt + 2) :
    srOptO G para (runAdds evs (fun _ => 0)) ip projCnt rbmCnt c.num out k = logD G para (szList (G.env para) c) k :=
  logD_code hG hOrb para c ip projCnt rbmCnt hs h0 hc tevs ht t0 evs hp out hk

/-! ## Two sites, one electron of either spin, pair amplitudes 1 (same site) and 2 (different sites), hopping -/

theorem exG_amp (q : Nat → ℂ) (i j : Nat) (hi : i < 2) (hj : j < 2) : psi (exG.env q) [i, j + 2] = if i = j then q 0 else q 1 := by
  have c : corrSpec (exG.env q) = fun _ => 1 := by
    funext num
    simp [corrSpec, projSpec, exG, ParGlob.env, ParGlob.envWith, logCorr]
  have hw : (exG.env q).w 0 = 1 := by
    show qpFullWeight exG.Q false (fun i => q (exG.oOpt + i)) exG.fix exG.w0 0 = 1
    rw [qpFull_fix (by decide)]; rfl
  have he : entry 4 (exG.env q).slt 0 i (j + 2) = if i = j then q 0 else q 1 := by
    have := slater_entry exG.Q exG.cs exG.cc exG.ss (fun k => q (exG.oSlater + k)) (List.Perm.refl _) exG.slt0 (q := 0) (x := i) (y := j + 2)
      (by decide) (show i < 4 by omega) (show j + 2 < 4 by omega)
    refine this.trans ?_
    interval_cases i <;> interval_cases j <;>
    norm_num [antisym, pairP, translated, spinCoef, exG, exQ, QPPar.tr, QPPar.sg, QPPar.optidx, QPPar.mpidx, QPPar.spidx, QPPar.nFix,
      ParGlob.oSlater, ParGlob.nR, ProjPar.NProj]
  have hn : (exG.env q).nQP = 1 := rfl
  have hs : 2 * (exG.env q).p.Nsite = 4 := rfl
  unfold psi waveFunction
  rw [c, hn, hs, sum_range_one, hw]
  simp only [pf, pfN, altSum, List.length, he]
  simp

noncomputable def lowPara : Nat → ℂ := fun k => if k = 0 then 1 else 2

theorem low_logD (i j : Nat) (hi : i < 2) (hj : j < 2) (k : Nat) (hk : k < 4) : logD exG lowPara [i, j + 2] (k + 2) =
    if k / 2 = (if i = j then 0 else 1) then (if k % 2 = 0 then 1 else Complex.I) / (if i = j then 1 else 2) else 0 := by
  unfold logD
  rw [if_neg (by omega), if_neg (by omega)]
  simp only [exG_amp _ i j hi hj]
  have e1 : (k + 2) / 2 - 1 = k / 2 := by omega
  have e2 : (k + 2) % 2 = k % 2 := by omega
  rw [e1, e2]
  have hd : ∀ (J x : Nat) (u : ℂ), deriv (fun t : ℝ => Function.update lowPara J (lowPara J + t * u) x) 0 = if J = x then u else 0 := by
    intro J x u
    by_cases h : J = x
    · subst h
      simp only [Function.update_self, if_true]
      have := ((Complex.ofRealCLM.hasDerivAt (x := (0 : ℝ))).mul_const u).const_add (lowPara J)
      simpa using this.deriv
    · simp only [Function.update_of_ne (Ne.symm h), if_neg h]
      exact deriv_const _ _
  by_cases h : i = j
  · simp only [h, if_true]
    rw [hd]
    simp only [lowPara, if_true]
    split_ifs <;> simp
  · simp only [h, if_false]
    rw [hd]
    simp only [lowPara]
    split_ifs <;> simp_all

theorem low_energy (i j : Nat) (hi : i < 2) (hj : j < 2) :
    energyOf (psi (exG.env lowPara)) (hamTerms 2 dimHam) [i, j + 2] = if i = j then -4 else -1 := by
  have a : ∀ i j, i < 2 → j < 2 → psi (exG.env lowPara) [i, j + 2] = if i = j then 1 else 2 := by
    intro i j hi hj
    rw [exG_amp _ i j hi hj]; simp [lowPara]
  have a02 := a 0 0 (by omega) (by omega)
  have a03 := a 0 1 (by omega) (by omega)
  have a12 := a 1 0 (by omega) (by omega)
  have a13 := a 1 1 (by omega) (by omega)
  simp only [zero_add, Nat.reduceAdd, if_true, zero_ne_one, one_ne_zero, if_false] at a02 a03 a12 a13
  have b : ∀ x y, x ≠ y → x < 4 → y < 4 → psi (exG.env lowPara) [x, y] = - psi (exG.env lowPara) [y, x] := fun x y h hx hy =>
    (psi_anti (env_ok exG_ok lowPara)) [] x y [] (by simpa using h) (by
      intro z hz
      have hz : z = x ∨ z = y := by simpa using hz
      show z < 4
      omega)
  have b20 := b 2 0 (by omega) (by omega) (by omega)
  have b30 := b 3 0 (by omega) (by omega) (by omega)
  have b21 := b 2 1 (by omega) (by omega) (by omega)
  have b31 := b 3 1 (by omega) (by omega) (by omega)
  have c2 : (starRingEnd ℂ) 2 = 2 := Complex.conj_ofNat 2
  interval_cases i <;> interval_cases j <;>
    simp only [energyOf, hamTerms, dimHam, exHam, List.range_succ, List.range_zero, List.flatMap_cons, List.flatMap_nil,
      List.nil_append, List.append_nil, termTransfer, matrixElement, List.cons_append] <;>
    simp [actAll, Op.act, overlap, a02, a03, a12, a13, b20, b30, b21, b31, c2] <;> norm_num

def lowConfs : List (Conf (2 * (exG.env lowPara).p.Nsite)) :=
  ([confOf [0, 2] (by decide), confOf [0, 3] (by decide), confOf [1, 2] (by decide), confOf [1, 3] (by decide)] : List (Conf 4))

theorem lowConfs_nodup : lowConfs.Nodup := by
  unfold lowConfs
  exact of_decide_eq_true (p := List.Nodup (α := Conf 4) _) rfl

theorem low_sector : univ.filter (szSector (exG.env lowPara) (fun _ => 0)) = lowConfs.toFinset := by
  have : ∀ S : Conf 4, (fixedSz 1 2 S ∧ localOne 2 (fun _ => 0) S) ↔
    S ∈ ([confOf [0, 2] (by decide), confOf [0, 3] (by decide), confOf [1, 2] (by decide), confOf [1, 3] (by decide)] : List (Conf 4)).toFinset := by decide
  ext S
  rw [mem_filter]
  exact ⟨fun h => (this S).mp h.2, fun h => ⟨mem_univ _, (this S).mpr h⟩⟩

theorem low_mean (F : List Nat → ℂ) :
    psiMean (psi (exG.env lowPara)) (szSector (exG.env lowPara) (fun _ => 0)) F = (F [0, 2] + 4 * F [0, 3] + 4 * F [1, 2] + F [1, 3]) / 10 := by
  have a : ∀ i j, i < 2 → j < 2 → psi (exG.env lowPara) [i, j + 2] = if i = j then 1 else 2 := by
    intro i j hi hj
    rw [exG_amp _ i j hi hj]; simp [lowPara]
  have a02 := a 0 0 (by omega) (by omega)
  have a03 := a 0 1 (by omega) (by omega)
  have a12 := a 1 0 (by omega) (by omega)
  have a13 := a 1 1 (by omega) (by omega)
  simp only [zero_add, Nat.reduceAdd, if_true, zero_ne_one, one_ne_zero, if_false] at a02 a03 a12 a13
  have key : ∀ {A : Type} [AddCommMonoid A] (f : List Nat → A), ∑ S ∈ univ.filter (szSector (exG.env lowPara) (fun _ => 0)), f (S.1.sort (· ≤ ·)) =
      f [0, 2] + (f [0, 3] + (f [1, 2] + f [1, 3])) := by
    intro A _ f
    rw [low_sector, List.sum_toFinset _ lowConfs_nodup]
    show (([confOf [0, 2] (by decide), confOf [0, 3] (by decide), confOf [1, 2] (by decide), confOf [1, 3] (by decide)] : List (Conf 4)).map
      (fun S => f (S.1.sort (· ≤ ·)))).sum = _
    simp only [List.map_cons, List.map_nil]
    rw [sort_conf [0, 2] (by decide) (by decide) (by decide), sort_conf [0, 3] (by decide) (by decide) (by decide),
      sort_conf [1, 2] (by decide) (by decide) (by decide), sort_conf [1, 3] (by decide) (by decide) (by decide)]
    simp
  have n2 : Complex.normSq (2 : ℂ) = 4 := by rw [Complex.normSq_ofNat]; norm_num
  unfold psiMean
  rw [key (fun l => (Complex.normSq (psi (exG.env lowPara) l) : ℂ) * F l), key (fun l => Complex.normSq (psi (exG.env lowPara) l)), a02, a03, a12, a13]
  simp only [map_one, n2]
  push_cast
  norm_num
  ring

theorem low_var (pi : Nat) (h : pi < 4) :
    varO (exG.env lowPara) (fun _ => 0) dimHam (logD exG lowPara) pi = if pi = 0 then 4 / 25 else if pi = 2 then 1 / 25 else 1 / 5 := by
  unfold varO meanOO
  rw [low_mean, low_mean]
  simp only [ooTerm]
  have l0 := low_logD 0 0 (by omega) (by omega) pi h
  have l1 := low_logD 0 1 (by omega) (by omega) pi h
  have l2 := low_logD 1 0 (by omega) (by omega) pi h
  have l3 := low_logD 1 1 (by omega) (by omega) pi h
  simp only [zero_add, Nat.reduceAdd, if_true, zero_ne_one, one_ne_zero, if_false] at l0 l1 l2 l3
  rw [l0, l1, l2, l3]
  interval_cases pi <;> norm_num [Complex.div_re, Complex.mul_re, Complex.normSq]

theorem low_force : forceO (exG.env lowPara) (fun _ => 0) dimHam (logD exG lowPara) 0 = -12 / 25 := by
  unfold forceO meanHO meanOO
  rw [low_mean, low_mean, low_mean]
  have e : ∀ i j, i < 2 → j < 2 → locE (exG.env lowPara) dimHam [i, j + 2] = if i = j then -4 else -1 := low_energy
  have e0 := e 0 0 (by omega) (by omega)
  have e1 := e 0 1 (by omega) (by omega)
  have e2 := e 1 0 (by omega) (by omega)
  have e3 := e 1 1 (by omega) (by omega)
  have l0 := low_logD 0 0 (by omega) (by omega) 0 (by omega)
  have l1 := low_logD 0 1 (by omega) (by omega) 0 (by omega)
  have l2 := low_logD 1 0 (by omega) (by omega) 0 (by omega)
  have l3 := low_logD 1 1 (by omega) (by omega) 0 (by omega)
  simp only [zero_add, Nat.reduceAdd, if_true, zero_ne_one, one_ne_zero, if_false] at l0 l1 l2 l3 e0 e1 e2 e3
  simp only [ooTerm, zero_add, if_true, l0, l1, l2, l3, e0, e1, e2, e3]
  have z : ∀ l, logD exG lowPara l 0 = 1 := fun l => by simp [logD]
  simp only [z]
  norm_num [Complex.div_re, Complex.mul_re, Complex.normSq]

theorem low_nz : ∀ S : Conf (2 * exG.p.Nsite), szSector (exG.env lowPara) (fun _ => 0) S → psi (exG.env lowPara) (S.1.sort (· ≤ ·)) ≠ 0 := by
  intro S hS
  obtain ⟨i, hi, j, hj, e⟩ := dim_sorts hS.1
  rw [e, exG_amp _ i j hi hj]
  simp only [lowPara]
  split_ifs <;> simp_all

theorem low_max : sDiagMax (2 * exG.oOpt) (varO (exG.env lowPara) (fun _ => 0) dimHam (logD exG lowPara)) = 1 / 5 := by
  have h4 : 2 * exG.oOpt = 4 := by decide
  rw [h4, sDiagMax_congr (by omega) low_var]
  simp only [sDiagMax, List.range_succ, List.range_zero, List.nil_append, List.cons_append, List.foldl_cons, List.foldl_nil]
  norm_num

/-- optimisation of the real part of the same-site amplitude: the probability that a step does not lower the energy goes to zero -/
example (i j : Nat) (hi : i < 2) (hj : j < 2) (mi : Nat) (hmi : 0 < mi) (st : Nat → ℂ) :
    ∃ δ : ℝ, 0 < δ ∧ ∀ dt, 0 < dt → dt < δ → ∃ C : ℝ, ∀ w n,
      failProb (samplerK (exG.env lowPara) (fun _ => 0) 1) ⟨dimTab i j, dimTab_cons i j hi hj⟩ w mi n
        (StepLowers (exG.env lowPara) (fun _ => 0) 1 dimHam (famOf exG lowPara) lowPara (2 * exG.oOpt) (logD exG lowPara) st
          (fun pi => if pi = 0 then 1 else 0) (1 / 1000) (1 / 50) dt) ≤ ENNReal.ofReal (C / (n + 1)) := by
  have h4 : 2 * exG.oOpt = 4 := by decide
  refine C76_lowers exG exG_ok lowPara (fun _ => 0) 1 (by decide) (by decide) low_nz (Or.inl ⟨Or.inl rfl, by decide⟩) (fun h => absurd h (by decide)) _
    (fun r hr h => absurd h (by simp)) dimHam dimHam_idx dimHam_sz dimHam_local dimHam_herm st _ _ _ mi hmi ⟨0, by omega, ?_⟩ (by norm_num) (by norm_num)
    (fun pi h1 h2 => ?_) ⟨0, by omega, by simp, ?_, ?_⟩
  · rw [low_var 0 (by omega)]; norm_num
  · have : pi = 0 := by
      by_contra h
      simp [h] at h2
    subst this
    rw [low_max, low_var 0 (by omega)]; norm_num
  · rw [low_max, low_var 0 (by omega)]; norm_num
  · rw [low_force]; norm_num

end MVMC
