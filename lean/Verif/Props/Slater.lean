import Verif.Proof.SrOptOMain
import Verif.Props.LocGrn

/-! # C28, C29, C46: pair matrix, logarithmic derivatives, projection index -/
namespace MVMC
open MVMC.Spec Finset

variable {K : Type} [Field K]

/-! ## C28 -/

/-- C28: whatever the parameters, tables, signs and rotation coefficients, and in whatever order the threads store the entries, every
block of the pair matrix after `UpdateSlaterElm_fcmp` is antisymmetric with a zero diagonal. -/
theorem C28_skew (Q : QPPar) (cs cc ss S : Nat → K) (evs : List (Nat × K))
    (hp : evs.Perm ((List.range Q.nFull).flatMap (slaterStores Q cs cc ss S))) (old : Nat → K) (q : Nat) (hq : q < Q.nFull) :
    SlaterSkew (2 * Q.Nsite) (runStores evs old) q := by
  constructor
  · intro x y hx hy
    rw [slater_entry Q cs cc ss S hp old hq hx hy, slater_entry Q cs cc ss S hp old hq hy hx]
    unfold antisym; ring
  · intro x hx
    rw [slater_entry Q cs cc ss S hp old hq hx hx]
    unfold antisym; ring

/-- C28: the same for `UpdateSlaterElm_fsz`. -/
theorem C28_skew_fsz (Q : QPPar) (S : Nat → K) (evs : List (Nat × K))
    (hp : evs.Perm ((List.range Q.nFull).flatMap (slaterStoresF Q S))) (old : Nat → K) (q : Nat) (hq : q < Q.nFull) :
    SlaterSkew (2 * Q.Nsite) (runStores evs old) q := by
  constructor
  · intro x y hx hy
    rw [slaterF_entry Q S hp old hq hx hy, slaterF_entry Q S hp old hq hy hx]
    unfold antisym; ring
  · intro x hx
    rw [slaterF_entry Q S hp old hq hx hx]
    unfold antisym; ring

/-- C28: with the rotation coefficients of `InitQPWeight` (`cs = c·s`, `cc = c²`, `ss = s²`) the matrix is the antisymmetrised
coefficient matrix of the translated pair operator written in rotated spins. -/
theorem C28_rotated_pair (Q : QPPar) (co si S : Nat → K) (evs : List (Nat × K))
    (hp : evs.Perm ((List.range Q.nFull).flatMap
      (slaterStores Q (fun i => co i * si i) (fun i => co i * co i) (fun i => si i * si i) S))) (old : Nat → K) (q x y : Nat)
    (hq : q < Q.nFull) (hx : x < 2 * Q.Nsite) (hy : y < 2 * Q.Nsite) :
    entry (2 * Q.Nsite) (runStores evs old) q x y =
      antisym (rotatedPair Q.Nsite (co (Q.spidx q)) (si (Q.spidx q))
        (translated S Q.orbIdx Q.orbSgn (Q.tr (Q.optidx q) (Q.mpidx q)) (Q.sg (Q.optidx q) (Q.mpidx q)))) x y := by
  rw [slater_entry Q _ _ _ S hp old hq hx hy]
  unfold antisym pairP rotatedPair
  rw [spinCoef_rot, spinCoef_rot]

/-- two sites, two translations (the second exchanges the sites with a sign on site 1), two quadrature points -/
def exQ : QPPar where
  Nsite := 2
  nSP := 2
  nMP := 2
  nOpt := 1
  nSlater := 2
  trans := fun m r => if m = 0 then r else 1 - r
  transSgn := fun m r => if m = 0 then 1 else if r = 1 then -1 else 1
  opt := fun _ r => r
  optSgn := fun _ _ => 1
  orbIdx := fun x y => if x = y then 0 else 1
  orbSgn := fun x y => if x < y then -1 else 1

/-- up site 0 with down site 0 under the second projection of the second quadrature point -/
example : entry 4 (updateSlaterElm exQ (fun i => (i : ℚ) + 1) (fun i => i + 3) (fun i => i + 5) (fun k => k + 7) (fun _ => 0)) 3 0 2 = 70 := by
  rw [show (4 : Nat) = 2 * exQ.Nsite from rfl]
  unfold updateSlaterElm
  rw [slater_entry exQ _ _ _ _ (List.Perm.refl _) _ (q := 3) (by decide) (x := 0) (y := 2) (by decide) (by decide)]
  norm_num [antisym, pairP, translated, spinCoef, exQ, QPPar.tr, QPPar.sg, QPPar.optidx, QPPar.mpidx, QPPar.spidx, QPPar.nFix]

/-! ## C46 -/

/-- C46: the flat index runs through each triple (spin quadrature, translation, optional translation) exactly once. -/
theorem C46_triples (Q : QPPar) (hs : 0 < Q.nSP) (hm : 0 < Q.nMP) :
    (∀ q, q < Q.nFull → Q.spidx q < Q.nSP ∧ Q.mpidx q < Q.nMP ∧ Q.optidx q < Q.nOpt ∧
      q = Q.spidx q + Q.mpidx q * Q.nSP + Q.optidx q * Q.nFix) ∧
    (∀ i, i < Q.nSP → ∀ j, j < Q.nMP → ∀ o, o < Q.nOpt → i + j * Q.nSP + o * Q.nFix < Q.nFull ∧
      Q.spidx (i + j * Q.nSP + o * Q.nFix) = i ∧ Q.mpidx (i + j * Q.nSP + o * Q.nFix) = j ∧
      Q.optidx (i + j * Q.nSP + o * Q.nFix) = o) := by
  have hF : Q.nFix = Q.nSP * Q.nMP := rfl
  have hFp : 0 < Q.nFix := Nat.mul_pos hs hm
  constructor
  · intro q hq
    have hq : q < Q.nFix * Q.nOpt := hq
    refine ⟨Nat.mod_lt _ hs, Nat.div_lt_of_lt_mul (Nat.mod_lt _ hFp), Nat.div_lt_of_lt_mul hq, ?_⟩
    unfold QPPar.spidx QPPar.mpidx QPPar.optidx
    have h1 := Nat.mod_add_div q Q.nFix
    have h2 := Nat.mod_add_div (q % Q.nFix) Q.nSP
    have h3 : q % Q.nFix % Q.nSP = q % Q.nSP := by rw [hF, Nat.mod_mul_right_mod]
    rw [h3] at h2
    rw [Nat.mul_comm (q % Q.nFix / Q.nSP), Nat.mul_comm (q / Q.nFix)]
    omega
  · intro i hi j hj o ho
    have hij : i + j * Q.nSP < Q.nFix := by
      have := Nat.mul_le_mul_right Q.nSP (show j + 1 ≤ Q.nMP from hj)
      rw [Nat.add_mul] at this
      rw [hF, Nat.mul_comm Q.nSP]
      omega
    have hfull : i + j * Q.nSP + o * Q.nFix < Q.nFull := by
      have := Nat.mul_le_mul_right Q.nFix (show o + 1 ≤ Q.nOpt from ho)
      rw [Nat.add_mul] at this
      rw [show Q.nFull = Q.nOpt * Q.nFix from Nat.mul_comm _ _]
      omega
    have hm1 : (i + j * Q.nSP + o * Q.nFix) % Q.nFix = i + j * Q.nSP := by
      rw [Nat.add_mul_mod_self_right, Nat.mod_eq_of_lt hij]
    refine ⟨hfull, ?_, ?_, ?_⟩
    · unfold QPPar.spidx
      rw [hF, Nat.mul_left_comm, Nat.add_assoc, show j * Q.nSP + Q.nSP * (o * Q.nMP) = (j + o * Q.nMP) * Q.nSP by ring,
        Nat.add_mul_mod_self_right, Nat.mod_eq_of_lt hi]
    · unfold QPPar.mpidx
      rw [hm1, Nat.add_mul_div_right _ _ hs, Nat.div_eq_of_lt hi, Nat.zero_add]
    · unfold QPPar.optidx
      rw [Nat.add_mul_div_right _ _ hFp, Nat.div_eq_of_lt hij, Nat.zero_add]

/-- C46: the weight of projection `q` is the product of the weights of its decoded quadrature point, translation and optional
translation. -/
theorem C46_weight (Q : QPPar) (hs : 0 < Q.nSP) (hm : 0 < Q.nMP) (flagOpt : Bool) (hOpt : flagOpt = false → Q.nOpt = 1)
    (wsp paraQP optT old old' : Nat → ℂ) (q : Nat) (hq : q < Q.nFull) :
    qpFullWeight Q flagOpt optT (qpFixWeight Q wsp paraQP old) old' q =
      (if flagOpt then optT (Q.optidx q) else 1) * (wsp (Q.spidx q) * paraQP (Q.mpidx q)) := by
  obtain ⟨h1, h2, h3, h4⟩ := (C46_triples Q hs hm).1 q hq
  have hij : Q.spidx q + Q.mpidx q * Q.nSP < Q.nFix := by
    have := Nat.mul_le_mul_right Q.nSP (show Q.mpidx q + 1 ≤ Q.nMP from h2)
    rw [Nat.add_mul] at this
    rw [show Q.nFix = Q.nMP * Q.nSP from Nat.mul_comm _ _]
    omega
  have fixv : qpFixWeight Q wsp paraQP old (Q.spidx q + Q.mpidx q * Q.nSP) = wsp (Q.spidx q) * paraQP (Q.mpidx q) := by
    unfold qpFixWeight
    refine runStores_mem _ old ?_ (Q.spidx q + Q.mpidx q * Q.nSP, wsp (Q.spidx q) * paraQP (Q.mpidx q)) ?_
    · intro e he e' he' h
      simp only [List.mem_flatMap, List.mem_map, List.mem_range] at he he'
      obtain ⟨a, ha, b, _, rfl⟩ := he
      obtain ⟨c, hc, d, _, rfl⟩ := he'
      have h : a + b * Q.nSP = c + d * Q.nSP := h
      rw [Nat.add_comm a, Nat.add_comm c] at h
      obtain ⟨rfl, rfl⟩ := flat2_inj ha hc h
      rfl
    · simp only [List.mem_flatMap, List.mem_map, List.mem_range]
      exact ⟨_, h1, _, h2, rfl⟩
  cases flagOpt with
  | true =>
    simp only [if_true]
    conv_lhs => rw [h4, Nat.add_comm]
    rw [qpFull_opt h3 hij, fixv]
  | false =>
    have h5 := hOpt rfl
    have h6 : Q.optidx q = 0 := by omega
    rw [h6, Nat.zero_mul, Nat.add_zero] at h4
    simp only [Bool.false_eq_true, if_false, one_mul]
    conv_lhs => rw [h4]
    rw [qpFull_fix hij, fixv]

/-- C46: the table that the derivative of projection `q` reads (block `q / NSPGaussLeg`, decoded on its own when the table is
filled) belongs to the same translation and optional translation as the pair matrix of projection `q`; the quadrature point
is the same by definition. -/
theorem C46_table (Q : QPPar) (n : Nat) (idx : Arr) (tevs : List (Nat × (Nat × Int)))
    (ht : tevs.Perm ((List.range (Q.nMP * Q.nOpt)).flatMap (tableStores Q n idx))) (t0 : Nat → Nat × Int) (q i j : Nat) (hq : q < Q.nFull)
    (hi : i < n) (hj : j < n) :
    runStores tevs t0 (q / Q.nSP * n * n + i * n + j) =
      (Q.orbIdx (Q.tr (Q.optidx q) (Q.mpidx q) (idx i).toNat) (Q.tr (Q.optidx q) (Q.mpidx q) (idx j).toNat),
        Q.sg (Q.optidx q) (Q.mpidx q) (idx i).toNat * Q.sg (Q.optidx q) (Q.mpidx q) (idx j).toNat
        * Q.orbSgn (Q.tr (Q.optidx q) (Q.mpidx q) (idx i).toNat) (Q.tr (Q.optidx q) (Q.mpidx q) (idx j).toNat)) := by
  rw [table_form (V := fun q i j => (Q.orbIdx (Q.tr (q / Q.nMP) (q % Q.nMP) (idx i).toNat) (Q.tr (q / Q.nMP) (q % Q.nMP) (idx j).toNat),
      Q.sg (q / Q.nMP) (q % Q.nMP) (idx i).toNat * Q.sg (q / Q.nMP) (q % Q.nMP) (idx j).toNat
        * Q.orbSgn (Q.tr (q / Q.nMP) (q % Q.nMP) (idx i).toNat) (Q.tr (q / Q.nMP) (q % Q.nMP) (idx j).toNat)))
      (fun _ => rfl) ht t0 (trans_lt hq) hi hj, (trans_decode Q q).1, (trans_decode Q q).2]

/-- 2 quadrature points, 3 translations, 2 optional translations -/
def exQ2 : QPPar := { exQ with nMP := 3, nOpt := 2 }

example : (List.range 12).map (fun q => (exQ2.spidx q, exQ2.mpidx q, exQ2.optidx q)) =
    [(0, 0, 0), (1, 0, 0), (0, 1, 0), (1, 1, 0), (0, 2, 0), (1, 2, 0), (0, 0, 1), (1, 0, 1), (0, 1, 1), (1, 1, 1), (0, 2, 1), (1, 2, 1)] := by
  decide

/-! ## C29 -/

/-- C29: for every correlation-factor, Boltzmann-machine and pair parameter `J` the entries `2(J+1)` and `2(J+1)+1` of `SROptO` are
the logarithmic derivatives of the whole trial wave function along the real and the imaginary direction of parameter `J`; for
every configuration of non-zero amplitude, all tables and projections, and every interleaving of the threads in
`SlaterElmDiff_fcmp`. (Correlation parameters enter through their real part, so their second entry is zero.) -/
theorem C29_logderiv (G : ParGlob) (hG : ParOK G) (hOrb : OrbOK G.Q G.Q.Nsite) (Para : Nat → ℂ) (c : EleCfg) (ip : ℂ) (projCnt : Arr)
    (rbmCnt : Nat → ℂ) (hs : Sampled (G.env Para) c ip projCnt rbmCnt)
    (hc : G.flagRBM = true → ∀ h < G.rbm.nNeuron, Complex.cosh (makeRBMCnt (G.rbmOf Para) c.num (h + G.rbm.nPhys)) ≠ 0)
    (tevs : List (Nat × (Nat × Int)))
    (ht : tevs.Perm ((List.range (G.Q.nMP * G.Q.nOpt)).flatMap (tableStores G.Q (2 * G.p.Ne) c.idx))) (t0 : Nat → Nat × Int) (evs : List (Nat × ℂ))
    (hp : evs.Perm ((List.range G.Q.nFull).flatMap (diffAdds G.Q G.p.Ne G.cs G.cc G.ss G.st.pfM G.st.invM (runStores tevs t0)))) (out : Nat → ℂ)
    (J : Nat) (hJ : J < G.oOpt) :
    LogDeriv (fun z => psi (G.env (Function.update Para J z)) (szList (G.env Para) c)) (Para J) 1
      (srOptO G Para (runAdds evs (fun _ => 0)) ip projCnt rbmCnt c.num out (2 * (J + 1))) ∧
    LogDeriv (fun z => psi (G.env (Function.update Para J z)) (szList (G.env Para) c)) (Para J) Complex.I
      (srOptO G Para (runAdds evs (fun _ => 0)) ip projCnt rbmCnt c.num out (2 * (J + 1) + 1)) :=
  srOptO_main hG hs hOrb hc ht t0 hp out hJ

/-- C29: the same in general-Sz mode (`SlaterElmDiff_fsz`), without Boltzmann machine. -/
theorem C29_logderiv_fsz (G : ParGlob) (hG : ParOK G) (hOrb : OrbOK G.Q (2 * G.Q.Nsite)) (Para : Nat → ℂ) (c : FCfg) (ip : ℂ) (projCnt : Arr)
    (hs : SampledF (G.envF Para) c ip projCnt) (tevs : List (Nat × (Nat × Int)))
    (ht : tevs.Perm ((List.range (G.Q.nMP * G.Q.nOpt)).flatMap (tableStoresF G.Q (2 * G.p.Ne) c.idx c.spn))) (t0 : Nat → Nat × Int) (evs : List (Nat × ℂ))
    (hp : evs.Perm ((List.range G.Q.nFull).flatMap (diffAddsF G.Q (2 * G.p.Ne) G.st.pfM G.st.invM (runStores tevs t0)))) (out : Nat → ℂ)
    (J : Nat) (hJ : J < G.oOpt) :
    LogDeriv (fun z => psi (G.envF (Function.update Para J z)) (fszList (G.envF Para) c)) (Para J) 1
      (srOptOF G Para (runAdds evs (fun _ => 0)) ip projCnt out (2 * (J + 1))) ∧
    LogDeriv (fun z => psi (G.envF (Function.update Para J z)) (fszList (G.envF Para) c)) (Para J) Complex.I
      (srOptOF G Para (runAdds evs (fun _ => 0)) ip projCnt out (2 * (J + 1) + 1)) :=
  srOptOF_main hG hs hOrb ht t0 hp out hJ

/-- C29: the constant entries. -/
theorem C29_constant (G : ParGlob) (Para buf : Nat → ℂ) (ip : ℂ) (projCnt : Arr) (rbmCnt : Nat → ℂ) (num : Arr) (out : Nat → ℂ) :
    srOptO G Para buf ip projCnt rbmCnt num out 0 = 1 ∧ srOptO G Para buf ip projCnt rbmCnt num out 1 = 0 := by
  refine ⟨?_, ?_⟩
  · rw [srOptO_lo _ _ _ _ _ _ _ (by omega), srOptOProj_val, if_pos (by omega)]; rfl
  · rw [srOptO_lo _ _ _ _ _ _ _ (by omega), srOptOProj_val, if_pos (by omega)]; rfl

/-- C50 for the weights of the optional translations, as far as it holds: the number computed for weight `i` is its logarithmic
derivative (along the real direction). Missing: it is stored at offset `i` instead of `2*i` (`/repo/src/mVMC/vmccal.c:649`), so for
`i > 0` it is not the entry that belongs to the parameter; see `C50_optTrans_not_stored`. -/
theorem C50_optTrans_partial (G : ParGlob) (hG : ParOK G) (hOrb : OrbOK G.Q G.Q.Nsite) (Para : Nat → ℂ) (c : EleCfg) (ip : ℂ) (projCnt : Arr)
    (rbmCnt : Nat → ℂ) (hs : Sampled (G.env Para) c ip projCnt rbmCnt)
    (hc : G.flagRBM = true → ∀ h < G.rbm.nNeuron, Complex.cosh (makeRBMCnt (G.rbmOf Para) c.num (h + G.rbm.nPhys)) ≠ 0)
    (buf out : Nat → ℂ) (hf : G.flagOpt = true) (i : Nat) (hi : i < G.Q.nOpt) :
    LogDeriv (fun z => psi (G.env (Function.update Para (G.oOpt + i) z)) (szList (G.env Para) c)) (Para (G.oOpt + i)) 1
      (srOptO G Para buf ip projCnt rbmCnt c.num out (2 * G.oOpt + 2 + i)) :=
  srOptO_optT hG hs hOrb hc buf out hf hi

/-- C50 fails for the weights of the optional translations in the code as it is: the entries `2(J+1)` of the upper half of
these parameters are never written; they keep whatever the previous sample left there. -/
theorem C50_optTrans_not_stored (G : ParGlob) (hR : G.flagRBM = false) (hR0 : G.rbm.nRBM = 0) (Para buf : Nat → ℂ) (ip : ℂ) (projCnt : Arr)
    (rbmCnt : Nat → ℂ) (num : Arr) (out : Nat → ℂ) (i : Nat) (hi : G.Q.nOpt ≤ 2 * i) :
    srOptO G Para buf ip projCnt rbmCnt num out (2 * (G.oOpt + i + 1)) = out (2 * (G.oOpt + i + 1)) := by
  have hn : G.nR = 0 := by unfold ParGlob.nR; simp [hR]
  have e1 : 2 * (G.oOpt + i + 1) = 2 * G.q.NProj + 2 * G.nR + 2 * G.Q.nSlater + 2 + 2 * i := by unfold ParGlob.oOpt ParGlob.oSlater; omega
  have e2 : 2 * (G.oOpt + i + 1) = 2 * G.q.NProj + 2 * G.rbm.nRBM + 2 + (2 * G.Q.nSlater + 2 * i) := by rw [e1, hn, hR0]; omega
  have l1 : ∀ a : Nat → ℂ, atOffset (2 * G.q.NProj + 2 * G.rbm.nRBM + 2) (diffStore G.Q (G.env Para).w buf ip) a (2 * (G.oOpt + i + 1))
      = a (2 * (G.oOpt + i + 1)) := by
    intro a
    rw [e2, atOffset_ge]
    unfold diffStore
    rw [if_neg (by omega)]
  have l3 : ∀ a : Nat → ℂ, atOffset (2 * G.q.NProj + 2 * G.nR + 2 * G.Q.nSlater + 2) (optTransDiff G.Q G.fix G.st.pfM ip) a (2 * (G.oOpt + i + 1))
      = a (2 * (G.oOpt + i + 1)) := by
    intro a
    rw [e1, atOffset_ge]
    unfold optTransDiff
    rw [if_neg (by omega)]
  have l0 : srOptOProj G.q projCnt out (2 * (G.oOpt + i + 1)) = out (2 * (G.oOpt + i + 1)) := by
    rw [srOptOProj_val, if_neg]
    unfold ParGlob.oOpt ParGlob.oSlater
    omega
  unfold srOptO
  simp only [hR, Bool.false_eq_true, if_false]
  cases G.flagOpt with
  | true => simp only [if_true]; rw [l3, l1, l0]
  | false => simp only [Bool.false_eq_true, if_false]; rw [l1, l0]

/-- so there are contents of the buffer for which that entry is not the logarithmic derivative -/
theorem C50_optTrans_violated (G : ParGlob) (hR : G.flagRBM = false) (hR0 : G.rbm.nRBM = 0) (Para buf : Nat → ℂ) (ip : ℂ) (projCnt : Arr)
    (rbmCnt : Nat → ℂ) (num : Arr) (x : List Nat) (hx : psi (G.env Para) x ≠ 0) (i : Nat) (hi : G.Q.nOpt ≤ 2 * i) :
    ∃ out : Nat → ℂ, ¬ LogDeriv (fun z => psi (G.env (Function.update Para (G.oOpt + i) z)) x) (Para (G.oOpt + i)) 1
      (srOptO G Para buf ip projCnt rbmCnt num out (2 * (G.oOpt + i + 1))) := by
  by_contra hcon
  have h := fun out => not_not.mp (not_exists.mp hcon out)
  have h0 := h (fun _ => 0)
  have h1 := h (fun _ => 1)
  rw [C50_optTrans_not_stored G hR hR0 _ _ _ _ _ _ _ _ hi] at h0 h1
  unfold LogDeriv at h0 h1
  have := h0.unique h1
  simp only [Function.update_eq_self, zero_mul, one_mul] at this
  exact hx this.symm

/-- C50 fails in general-Sz mode with RBM parameters: `vmccal_fsz.c` leaves no room for them, so the pair derivatives are stored
`NRBM` places too low and the entries of the last pair parameters are never written. -/
theorem C50_fsz_rbm_not_stored (G : ParGlob) (hO : G.flagOpt = false) (Para buf : Nat → ℂ) (ip : ℂ) (projCnt : Arr)
    (out : Nat → ℂ) (k : Nat) (hk : G.Q.nSlater ≤ G.nR + k) :
    srOptOF G Para buf ip projCnt out (2 * (G.oSlater + k + 1)) = out (2 * (G.oSlater + k + 1)) := by
  have e1 : 2 * (G.oSlater + k + 1) = 2 * G.q.NProj + 2 + (2 * G.nR + 2 * k) := by unfold ParGlob.oSlater; omega
  unfold srOptOF
  simp only [hO, Bool.false_eq_true, if_false]
  rw [e1, atOffset_ge]
  unfold diffStore
  rw [if_neg (by omega)]
  show srOptOProj G.q projCnt out _ = _
  rw [srOptOProj_val, if_neg (by omega)]

/-- so there are contents of the buffer for which such an entry is not the logarithmic derivative -/
theorem C50_fsz_rbm_violated (G : ParGlob) (hO : G.flagOpt = false) (Para buf : Nat → ℂ) (ip : ℂ) (projCnt : Arr)
    (x : List Nat) (hx : psi (G.envF Para) x ≠ 0) (k : Nat) (hk : G.Q.nSlater ≤ G.nR + k) :
    ∃ out : Nat → ℂ, ¬ LogDeriv (fun z => psi (G.envF (Function.update Para (G.oSlater + k) z)) x) (Para (G.oSlater + k)) 1
      (srOptOF G Para buf ip projCnt out (2 * (G.oSlater + k + 1))) := by
  by_contra hcon
  have h := fun out => not_not.mp (not_exists.mp hcon out)
  have h0 := h (fun _ => 0)
  have h1 := h (fun _ => 1)
  rw [C50_fsz_rbm_not_stored G hO _ _ _ _ _ _ hk] at h0 h1
  unfold LogDeriv at h0 h1
  have := h0.unique h1
  simp only [Function.update_eq_self, zero_mul, one_mul] at this
  exact hx this.symm

/-! ### a concrete configuration -/

/-- two sites, one pair, two translation-invariant pair parameters, no projections -/
noncomputable def exG : ParGlob where
  p := ⟨1, 2⟩
  q := ⟨2, 0, 0, 0, 0, fun _ => 0, fun _ _ => 0, fun _ _ => 0, fun _ _ => 0⟩
  flagRBM := false
  rbm := ⟨2, 0, 0, 0, 0, 0, 0, 0, 0, 0, 0, 0, 0, 0, fun _ => 0, fun _ => 0, fun _ => 0, fun _ => 0, fun _ => 0, fun _ => 0,
    fun _ _ => 0, fun _ _ => 0, fun _ _ => 0, fun _ => 0⟩
  B := 1
  Q := { exQ with nSP := 1, nMP := 1, orbSgn := fun _ _ => 1 }
  cs := fun _ => 0
  cc := fun _ => 1
  ss := fun _ => 0
  flagOpt := false
  fix := fun _ => 1
  slt0 := fun _ => 0
  w0 := fun _ => 0
  st := ⟨fun _ => 3, fun k => if k = 1 then -(1 / 3) else if k = 2 then 1 / 3 else 0⟩

noncomputable def exPara : Nat → ℂ := fun k => if k = 0 then 2 else 3

theorem exG_ok : ParOK exG where
  hN := by decide
  hq := rfl
  hQ := rfl
  tab := ⟨by intro h; exact absurd h (by decide), by intro h; exact absurd h (by decide),
    by intro x h; exact absurd h (Nat.not_lt_zero x), by intro x h; exact absurd h (Nat.not_lt_zero x)⟩
  tr := by
    intro o m r hr
    have hr : r < 2 := hr
    show (if m = 0 then r else 1 - r) < 2
    split_ifs <;> omega
  opt := fun _ => rfl
  noRBM := fun _ => rfl
  rN := fun h => absurd h (by decide)
  rTab := fun h => absurd h (by decide)
  rIdx := fun h => absurd h (by decide)

theorem exG_orb : OrbOK exG.Q exG.Q.Nsite := by
  intro x _ y _
  show (if x = y then 0 else 1) < 2
  split_ifs <;> omega

theorem exG_entry (x y : Nat) (hx : x < 4) (hy : y < 4) : entry 4 (exG.env exPara).slt 0 x y = antisym (pairP exG.Q exG.cs exG.cc exG.ss
    (fun k => exPara (exG.oSlater + k)) 0) x y :=
  slater_entry exG.Q exG.cs exG.cc exG.ss (fun k => exPara (exG.oSlater + k)) (List.Perm.refl _) exG.slt0 (q := 0) (by decide) hx hy

theorem exG_val : entry 4 (exG.env exPara).slt 0 0 3 = 3 ∧ entry 4 (exG.env exPara).slt 0 3 0 = -3 ∧
    entry 4 (exG.env exPara).slt 0 0 0 = 0 ∧ entry 4 (exG.env exPara).slt 0 3 3 = 0 := by
  refine ⟨?_, ?_, ?_, ?_⟩ <;> rw [exG_entry _ _ (by decide) (by decide)] <;>
  norm_num [antisym, pairP, translated, spinCoef, exG, exQ, exPara, QPPar.tr, QPPar.sg, QPPar.optidx, QPPar.mpidx, QPPar.spidx, QPPar.nFix,
    ParGlob.oSlater, ParGlob.nR, ProjPar.NProj]

theorem exG_pf : pfOf (entry 4 (exG.env exPara).slt 0) 2 (occSz 1 2 exCfg.idx) = 3 := by
  have h : (List.range 2).map (occSz 1 2 exCfg.idx) = [0, 3] := by decide
  unfold pfOf
  rw [h]
  simp only [pf, pfN, altSum, List.length, exG_val.1]
  simp

theorem exG_sampled : Sampled (exG.env exPara) exCfg 3 (fun _ => 0) (fun _ => 0) where
  cons := by
    constructor
    · intro s hs m hm
      have hm : m < 1 := hm
      have : m = 0 := by omega
      subst this
      rcases (show s = 0 ∨ s = 1 by omega) with rfl | rfl
      · exact ⟨0, by decide, by simp [exCfg], by simp [exCfg]⟩
      · exact ⟨1, by decide, rfl, rfl⟩
    · intro s hs r hr
      have hr : r < 2 := hr
      rcases (show s = 0 ∨ s = 1 by omega) with rfl | rfl <;> rcases (show r = 0 ∨ r = 1 by omega) with rfl | rfl <;>
        decide
  pf := by
    intro k hk
    have hk : k < 1 := hk
    have : k = 0 := by omega
    subst this
    refine ⟨?_, ?_⟩
    · exact exG_pf.symm
    · intro i hi j hj
      have hi : i < 2 := hi
      have hj : j < 2 := hj
      obtain ⟨v1, v2, v3, v4⟩ := exG_val
      show ∑ k ∈ range 2, entry 2 exG.st.invM 0 i k * entry 4 (exG.env exPara).slt 0 (occSz 1 2 exCfg.idx k) (occSz 1 2 exCfg.idx j) = _
      have m0 : entry 2 exG.st.invM 0 0 0 = 0 := by simp [entry, exG]
      have m1 : entry 2 exG.st.invM 0 0 1 = -(1 / 3) := by simp [entry, exG]
      have m2 : entry 2 exG.st.invM 0 1 0 = 1 / 3 := by simp [entry, exG]
      have m3 : entry 2 exG.st.invM 0 1 1 = 0 := by simp [entry, exG]
      have o0 : occSz 1 2 exCfg.idx 0 = 0 := by decide
      have o1 : occSz 1 2 exCfg.idx 1 = 3 := by decide
      rcases (show i = 0 ∨ i = 1 by omega) with rfl | rfl <;> rcases (show j = 0 ∨ j = 1 by omega) with rfl | rfl <;>
        simp [o0, o1, sum_range_succ, v1, v2, v3, v4, m0, m1, m2, m3]
  hip := by
    show (3 : ℂ) = ∑ q ∈ range 1, (exG.env exPara).w (q + 0) * pfOf (entry 4 (exG.env exPara).slt (q + 0)) 2 (occSz 1 2 exCfg.idx)
    rw [sum_range_one, exG_pf]
    have : (exG.env exPara).w 0 = 1 := qpFull_fix (Q := exG.Q) (optT := fun i => exPara (exG.oOpt + i)) (fix := exG.fix) (old := exG.w0) (j := 0) (by decide)
    rw [Nat.add_zero, this, one_mul]
  hne := by norm_num
  proj := fun k hk => absurd hk (Nat.not_lt_zero k)
  rbm := fun h => absurd h (by decide)

/-- the hypotheses of `C29_logderiv` are satisfiable: derivative with respect to pair parameter 1 -/
example (out : Nat → ℂ) : LogDeriv (fun z => psi (exG.env (Function.update exPara 1 z)) [0, 3]) 3 1
    (srOptO exG exPara (runAdds ((List.range exG.Q.nFull).flatMap (diffAdds exG.Q exG.p.Ne exG.cs exG.cc exG.ss exG.st.pfM exG.st.invM
      (runStores ((List.range (exG.Q.nMP * exG.Q.nOpt)).flatMap (tableStores exG.Q (2 * exG.p.Ne) exCfg.idx)) (fun _ => (0, 0))))) (fun _ => 0))
      3 (fun _ => 0) (fun _ => 0) exCfg.num out 4) := by
  have := (C29_logderiv exG exG_ok exG_orb exPara exCfg 3 _ _ exG_sampled (fun h => absurd h (by decide)) _ (List.Perm.refl _) (fun _ => (0, 0))
    _ (List.Perm.refl _) out 1 (by decide)).1
  have hl : szList (exG.env exPara) exCfg = [0, 3] := by decide
  rw [hl] at this
  exact this

/-- the same lattice with general pair orbitals and one Boltzmann-machine parameter -/
noncomputable def exGR : ParGlob :=
  { exG with
    flagRBM := true
    rbm := ⟨2, 1, 0, 0, 0, 0, 0, 0, 0, 0, 0, 0, 0, 0, fun _ => 0, fun _ => 0, fun _ => 0, fun _ => 0, fun _ => 0, fun _ => 0,
      fun _ _ => 0, fun _ _ => 0, fun _ _ => 0, fun _ => 0⟩
    Q := { exQ with nSP := 1, nMP := 1 } }

theorem exGR_psi : psi (exGR.envF fun _ => 1) [0, 3] ≠ 0 := by
  have he : entry 4 (exGR.envF fun _ => 1).slt 0 0 3 = -2 := by
    refine (slaterF_entry exGR.Q (fun k => (1 : ℂ)) (List.Perm.refl _) exGR.slt0 (q := 0) (x := 0) (y := 3) (by decide) (by decide)
      (by decide)).trans ?_
    norm_num [antisym, pairF, exGR, exQ, QPPar.tr, QPPar.sg, QPPar.optidx, QPPar.mpidx, QPPar.spidx, QPPar.nFix]
  have hw : (exGR.envF fun _ => 1).w 0 = 1 :=
    qpFull_fix (Q := exGR.Q) (optT := fun _ => (1 : ℂ)) (fix := exGR.fix) (old := exGR.w0) (j := 0) (by decide)
  unfold psi waveFunction
  refine mul_ne_zero (mul_ne_zero ?_ ?_) ?_
  · exact Complex.ofReal_ne_zero.mpr (Real.exp_pos _).ne'
  · rw [if_pos (show (exGR.envF fun _ => 1).flagRBM = true from rfl)]
    unfold rbmSpec rbmFactor
    refine mul_ne_zero (Complex.exp_ne_zero _) (mul_ne_zero (mul_ne_zero ?_ ?_) ?_) <;>
      exact (show (∏ h ∈ range 0, _ : ℂ) ≠ 0 by rw [prod_range_zero]; exact one_ne_zero)
  · show (∑ q ∈ range 1, (exGR.envF fun _ => 1).w q * pf (entry 4 (exGR.envF fun _ => 1).slt q) [0, 3]) ≠ 0
    rw [sum_range_one, hw]
    simp only [pf, pfN, altSum, List.length, he]
    simp

/-- the premises of `C50_fsz_rbm_violated` are satisfiable: the last pair parameter -/
example : ∃ out : Nat → ℂ, ¬ LogDeriv (fun z => psi (exGR.envF (Function.update (fun _ => 1) (exGR.oSlater + 1) z)) [0, 3]) 1 1
    (srOptOF exGR (fun _ => 1) (fun _ => 0) 1 (fun _ => 0) out (2 * (exGR.oSlater + 1 + 1))) :=
  C50_fsz_rbm_violated exGR rfl _ _ _ _ _ exGR_psi 1 (by decide)

end MVMC
