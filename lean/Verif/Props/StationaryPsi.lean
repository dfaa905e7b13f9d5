import Verif.Props.Stationary
import Verif.Proof.MainCal

/-!
# C71, continued: the acceptance test of `VMCMakeSample` is the one for `|Ψ|²`

`C71_stationary` holds for any weight. Here the weight is the squared modulus of the trial wave function `psi`, and the test is the one the
code makes with its own running Pfaffians, counters and inner product (`szHooks`).
-/
namespace MVMC
open Spec
open scoped ENNReal

/-- what the sampler has computed for the candidate `c'` -/
structure NewOK (g : GrnEnv) (c' : EleCfg) (n : SzNew) : Prop where
  ip : n.ip = amplitude (2 * g.p.Ne) (2 * g.p.Nsite) g.slt g.w 0 g.nQP (occSz g.p.Ne g.p.Nsite c'.idx)
  proj : ∀ k < g.q.NProj, n.projCnt k = makeProjCnt g.q c'.num k
  rbm : g.flagRBM = true → ∀ k < g.rbm.nPhys + g.rbm.nNeuron, n.rbmCnt k = makeRBMCnt g.rbm c'.num k

/-- the Metropolis test in terms of the product of a factor and an inner product -/
theorem metropolis_iff {x : ℝ} {C C' a a' : ℂ} (hex : Real.exp x = ‖C'‖ / ‖C‖) (hip : a ≠ 0) (u : Nat) :
    metropolis x a a' u = true ↔ Accepted (‖C' * a'‖ ^ 2 / ‖C * a‖ ^ 2) u := by
  unfold metropolis Accepted
  rw [decide_eq_true_eq, norm_mul, norm_mul]
  by_cases hz : a' = 0
  · simp only [hz, norm_zero, mul_zero]
    constructor
    · intro h; exact absurd rfl h.2.1
    · intro h
      have : (0 : ℝ) ≤ (u : ℝ) / 4294967296 := by positivity
      norm_num at h
      linarith
  · have hw := C19_weight 0 (x : ℂ) a a' hip hz
    rw [norm_mul, norm_mul, Complex.norm_exp, Complex.norm_exp, Complex.ofReal_re, hex] at hw
    have e : ((x : ℂ) - 0 + (Complex.log a' - Complex.log a)) = (x : ℂ) + Complex.log a' - Complex.log a := by ring
    rw [e] at hw
    rw [hw]
    have e2 : (‖C'‖ / ‖C‖ * ‖a'‖) ^ 2 / (Real.exp (Complex.re 0) * ‖a‖) ^ 2
        = (‖C'‖ * ‖a'‖) ^ 2 / (‖C‖ * ‖a‖) ^ 2 := by
      simp only [Complex.zero_re, Real.exp_zero, one_mul]
      rw [← div_pow, ← div_pow]
      congr 1
      rw [div_mul_eq_mul_div, div_div]
    rw [e2]
    exact ⟨fun h => h.2.2, fun h => ⟨hip, hz, h⟩⟩

section
variable {g : GrnEnv} (hg : GrnOK g) (hr : g.flagRBM = true → GrnRBM g) (lib : SkLib ℂ) (nT : Nat) (rj : (Nat → ℂ) → (Nat → ℂ) → ℂ)
  (mF : EleCfg → SzMem → PfState ℂ × ℂ) (ls : Nat → Int) (ex : Int)
include hg hr

theorem newOK_hop {c : EleCfg} {h : Hop} {b : SzMem} (hc : Cons (g.szPar ls ex) c) (ok : HopOK (g.szPar ls ex) c h) (hq : SzCarry g c b) :
    NewOK g (updateEleConfig (g.szPar ls ex) h c)
      ((szHooks g lib nT rj mF).propHop (updateEleConfig (g.szPar ls ex) h c) h b) := by
  refine ⟨?_, ?_, ?_⟩
  · refine calculateIPLocal_eq (fun q hqq => ?_)
    exact newPfM_ok (p := g.p) (idx := c.idx) ok.mi ok.s (by have := hg.skew q (by omega); rw [Nat.add_zero]; exact this)
      (onSites_of_cons hc) (onSites_of_cons (update_cons hc ok)) (fun i _ hne => set_ne hne) hqq hq.1.1.1
  · exact fun i hi => update_core hg.tab (hop_numHop (show g.q.Nsite = (g.szPar ls ex).Nsite from hg.hq) hc ok) (hopOK_ne hc ok) _ hq.2.1 i hi
  · intro hf i hi
    have h0 := (rbm_qok (p := g.szPar ls ex) (k := { szHooks g lib nT rj mF with accept := fun _ _ _ => true })
      (rc := SzMem.rbmCnt) (rn := SzNew.rbmCnt) (show g.rbm.Nsite = g.p.Nsite from (hr hf).hN)
      ⟨(sz_rbm g lib hf nT rj mF).hop, (sz_rbm g lib hf nT rj mF).exch, (sz_rbm g lib hf nT rj mF).commitHop,
        (sz_rbm g lib hf nT rj mF).commitExch, (sz_rbm g lib hf nT rj mF).refresh⟩).hop c h b 0 hc ok (hq.2.2 hf) rfl i hi
    rw [← h0]
    exact ((sz_rbm g lib hf nT rj mF).commitHop _ _ _ _ i).symm ▸ (if_pos hi).symm

theorem newOK_exch {c : EleCfg} {h h2 : Hop} {b : SzMem} (hc : Cons (g.szPar ls ex) c) (ok : HopOK (g.szPar ls ex) c h)
    (ok2 : HopOK (g.szPar ls ex) (updateEleConfig (g.szPar ls ex) h c) h2) (e1 : h2.ri = h.rj) (e2 : h2.rj = h.ri) (e3 : h2.s = 1 - h.s)
    (hq : SzCarry g c b) :
    NewOK g (updateEleConfig (g.szPar ls ex) h2 (updateEleConfig (g.szPar ls ex) h c))
      ((szHooks g lib nT rj mF).propExch (updateEleConfig (g.szPar ls ex) h c)
        (updateEleConfig (g.szPar ls ex) h2 (updateEleConfig (g.szPar ls ex) h c)) h h2 b) := by
  have hc1 := update_cons hc ok
  have hc2 := update_cons hc1 ok2
  refine ⟨?_, ?_, ?_⟩
  · refine calculateIPLocal_eq (fun q hqq => ?_)
    refine newPfMTwo_ok (p := g.p) (idx := c.idx) ok.mi ok.s ok2.mi ok2.s (by have := hg.skew q (by omega); rw [Nat.add_zero]; exact this)
      (onSites_of_cons hc) (onSites_of_cons hc2) ?_ hqq hq.1.1.1
    intro i _ n1 n2
    have n1 : i ≠ h.mi + h.s * (g.szPar ls ex).Ne := n1
    have n2 : i ≠ h2.mi + h2.s * (g.szPar ls ex).Ne := n2
    show (c.idx.set _ _).set _ _ i = _
    rw [set_ne n2, set_ne n1]
  · intro i hi
    have hN : g.q.Nsite = (g.szPar ls ex).Nsite := hg.hq
    refine update_core hg.tab (hop_numHop hN hc1 ok2) (hopOK_ne hc1 ok2) _ ?_ i hi
    intro j hj
    exact update_core hg.tab (hop_numHop hN hc ok) (hopOK_ne hc ok) _ hq.2.1 j hj
  · intro hf i hi
    have h0 := (rbm_qok (p := g.szPar ls ex) (k := { szHooks g lib nT rj mF with accept := fun _ _ _ => true })
      (rc := SzMem.rbmCnt) (rn := SzNew.rbmCnt) (show g.rbm.Nsite = g.p.Nsite from (hr hf).hN)
      ⟨(sz_rbm g lib hf nT rj mF).hop, (sz_rbm g lib hf nT rj mF).exch, (sz_rbm g lib hf nT rj mF).commitHop,
        (sz_rbm g lib hf nT rj mF).commitExch, (sz_rbm g lib hf nT rj mF).refresh⟩).exch c h h2 b 0 hc ok ok2 e1 e2 e3 (hq.2.2 hf) rfl i hi
    rw [← h0]
    exact ((sz_rbm g lib hf nT rj mF).commitExch _ _ _ _ _ i).symm ▸ (if_pos hi).symm

/-- the number compared with the draw is the ratio of the squared moduli of the wave function -/
theorem accept_iff (hT : g.flagRBM = true → nT = 1) {c c' : EleCfg} {b : SzMem} {n : SzNew} (hc : Cons (g.szPar ls ex) c)
    (hc' : Cons (g.szPar ls ex) c') (hq : SzCarry g c b) (hn : NewOK g c' n) (u : Nat) :
    (szHooks g lib nT rj mF).accept b n u = true ↔ Accepted (‖psi g (szList g c')‖ ^ 2 / ‖psi g (szList g c)‖ ^ 2) u := by
  have hpl := placed_sz (g := g) (c := c) hc
  have hpl' := placed_sz (g := g) (c := c') hc'
  have hb := hpl.bin
  have hb' := hpl'.bin
  have hps : psi g (szList g c) = corrSpec g c.num * b.ip := by
    rw [show szList g c = occList _ _ from rfl, psi_placed hg hr hpl, hq.1.1.2]; rfl
  have hps' : psi g (szList g c') = corrSpec g c'.num * n.ip := by
    rw [show szList g c' = occList _ _ from rfl, psi_placed hg hr hpl', hn.ip]
  have hip : b.ip ≠ 0 := hq.1.2
  rw [hps, hps']
  have hproj : (Real.exp (logProjRatio g.q.NProj g.Proj n.projCnt b.projCnt) : ℂ) = (projSpec g.q g.Proj c'.num : ℂ) / (projSpec g.q g.Proj c.num : ℂ) :=
    projRatio_spec hg hb hb' hn.proj hq.2.1
  have hproj' : Real.exp (logProjRatio g.q.NProj g.Proj n.projCnt b.projCnt) = projSpec g.q g.Proj c'.num / projSpec g.q g.Proj c.num := by
    exact_mod_cast hproj
  -- the exponent of the occupation-only factors
  obtain ⟨x, hx, hex⟩ : ∃ x : ℝ, (szHooks g lib nT rj mF).accept b n u = metropolis x b.ip n.ip u ∧
      Real.exp x = ‖corrSpec g c'.num‖ / ‖corrSpec g c.num‖ := by
    by_cases hf : g.flagRBM = true
    · obtain ⟨z, hz⟩ := logRBMRatio_some_of_one g.rbm g.B n.rbmCnt b.rbmCnt
      have h1 := rbmRatio_spec (hr hf) hb hb' (hn.rbm hf) (hq.2.2 hf)
      unfold rbmRatioOne rbmRatio at h1
      rw [hz] at h1
      simp only [Option.map_some, Option.getD_some] at h1
      refine ⟨logProjRatio g.q.NProj g.Proj n.projCnt b.projCnt + z.re, ?_, ?_⟩
      · simp only [szHooks, hf, if_true, hT hf, hz, Option.getD_some]
      · rw [Real.exp_add, hproj', ← Complex.norm_exp, h1]
        unfold corrSpec
        simp only [hf, if_true, norm_mul, norm_div, Complex.norm_real, Real.norm_eq_abs]
        rw [abs_of_pos (show 0 < projSpec g.q g.Proj c'.num from Real.exp_pos _), abs_of_pos (show 0 < projSpec g.q g.Proj c.num from Real.exp_pos _)]
        rw [mul_div_mul_comm]
    · have hf : g.flagRBM = false := by simpa using hf
      refine ⟨logProjRatio g.q.NProj g.Proj n.projCnt b.projCnt, ?_, ?_⟩
      · simp [szHooks, hf]
      · rw [hproj']
        unfold corrSpec
        simp only [hf, norm_mul, Complex.norm_real, Real.norm_eq_abs]
        rw [abs_of_pos (show 0 < projSpec g.q g.Proj c'.num from Real.exp_pos _), abs_of_pos (show 0 < projSpec g.q g.Proj c.num from Real.exp_pos _)]
        simp
  rw [hx]
  exact metropolis_iff hex hip u

end

/-- C71: at a state of the chain (consistent tables, exact Pfaffians and counters), after a stream that proposes `c'`, the next draw `u` moves
to `c'` exactly if `u/2^32 < |Ψ(c')|²/|Ψ(c)|²`, and stays at `c` otherwise; the chain's quantities stay exact. With a Boltzmann machine, for
a team of one thread (`C17_threads_undefined`). -/
theorem C71_accept (g : GrnEnv) (hg : GrnOK g) (hr : g.flagRBM = true → GrnRBM g) (hz : NoZero g) (lib : SkLib ℂ) (hlib : LibOK lib) (htot : LibTotal lib)
    (nT : Nat) (hT : g.flagRBM = true → nT = 1) (rj : (Nat → ℂ) → (Nat → ℂ) → ℂ) (mF : EleCfg → SzMem → PfState ℂ × ℂ)
    (ls : Nat → Int) (ex : Int) (hNe : 0 < g.p.Ne) (hNs : 0 < g.p.Nsite)
    (st : SState SzMem) (hi : SInv (g.szPar ls ex) (SzCarry g) st) (c' : CfgState (g.szPar ls ex)) (hne : c'.1 ≠ st.c)
    (r : List Nat) (hs : r ∈ MoveStreams (g.szPar ls ex) st.c c'.1) (u : Nat) (tl : List Nat) :
    ∃ st', innerStep (szHooks g lib nT rj mF) (g.szPar ls ex) st (r ++ u :: tl) = some (st', tl) ∧ SInv (g.szPar ls ex) (SzCarry g) st' ∧
      (Accepted (‖psi g (szList g c'.1)‖ ^ 2 / ‖psi g (szList g st.c)‖ ^ 2) u → st'.c = c'.1) ∧
      (¬ Accepted (‖psi g (szList g c'.1)‖ ^ 2 / ‖psi g (szList g st.c)‖ ^ 2) u → st'.c = st.c) := by
  obtain ⟨_, st0, h0, h1⟩ := hs
  obtain ⟨st', n, hn, e, ec⟩ := streamMove_stepP (szHooks g lib nT rj mF) hi.cons hNe hNs (streamMove_of hne h0 h1) st rfl u tl
    (P := NewOK g c'.1)
    (fun h ok e => by rw [e]; exact newOK_hop hg hr lib nT rj mF ls ex hi.cons ok hi.q)
    (fun h ok ok2 e => by
      rw [e]
      exact newOK_exch hg hr lib nT rj mF ls ex hi.cons ok ok2 rfl rfl rfl hi.q)
  have hacc := accept_iff hg hr lib nT rj mF ls ex hT hi.cons c'.2 hi.q hn u
  refine ⟨st', e, innerStep_inv (szCarry_qok hg hlib htot hz hr nT rj mF ls ex) hNe hNs hi e, ?_, ?_⟩
  · intro ha; rw [ec, if_pos (hacc.mpr ha)]
  · intro ha; rw [ec, if_neg (fun q => ha (hacc.mp q))]

/-- the squared modulus of the trial wave function as a weight -/
noncomputable def psiWeight (g : GrnEnv) (ls : Nat → Int) (ex : Int) (c : CfgState (g.szPar ls ex)) : ℝ≥0∞ :=
  ENNReal.ofReal (‖psi g (szList g c.1)‖ ^ 2)

/-- C71: `|Ψ|²` is invariant under any number of steps (`Nsite` divides `2^32`, acceptance probability `min(1, |Ψ(c')|²/|Ψ(c)|²)`, which the
32-bit draw of `C71_accept` meets up to `2^-32`: `C19_accept_close`). -/
theorem C71_psi (g : GrnEnv) (ls : Nat → Int) (ex : Int) (hNe : 0 < g.p.Ne) (hNs : 0 < g.p.Nsite) (hd : g.p.Nsite ∣ drawBound) (n : Nat) :
    (pushStep (metroKernel drawBound (fun a b : CfgState (g.szPar ls ex) => MoveStreams (g.szPar ls ex) a.1 b.1) (psiWeight g ls ex)))^[n]
      (psiWeight g ls ex) = psiWeight g ls ex :=
  C71_steps (g.szPar ls ex) hNe hNs hd _ (fun _ => ENNReal.ofReal_ne_top) n

end MVMC
