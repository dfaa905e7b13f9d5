import Verif.Proof.LsLocGrn
import Verif.Props.CalHam
import Verif.Props.LocGrnN

/-! # C56: second-order local quantities of the Lanczos step -/
namespace MVMC
open Spec Finset

/-- C56: `LSLocalQ` stores `1`, `<ψ|H|x>/<ψ|x>` (twice) and `<ψ|H·H|x>/<ψ|x>`, and leaves the electron tables, `InvM` and `PfM` as they
were — for every number of threads, division of the loops, order of the reductions and old content of the workspaces, and on both sides
of the threshold `10⁻¹²`. Covered: Hamiltonians whose only non-diagonal terms are transfers (both files, Boltzmann machine included),
and all Hamiltonians with the real Pfaffian routine and no Boltzmann machine. -/
theorem C56_second_order_partial (g : GrnEnv) (hg : GrnOK g) (hr : g.flagRBM = true → GrnRBM g) (c : EleCfg) (ip : ℂ) (projCnt : Arr)
    (rbmCnt : Nat → ℂ) (h : Sampled g c ip projCnt rbmCnt) (H : HamPar) (hH : HamIdx g.p.Nsite H) (hsz : HamSzConserving H)
    (T : Nat) (runs : Nat → Nat → LsRun) (hrun : ∀ a i, LsOK H T (runs a i)) (run0 run1 : OmpRun) (hrun0 : OmpOK H T run0)
    (hrun1 : OmpOK H T run1) (hz : NoZero g) (child : LsChild) (hch : LsChildOK g H child) (LSLQ : Nat → ℂ) :
    ∃ out st', lsLocalQ g child H run0 runs (calculateHamiltonian g H run1.sched run1.order run1.junk ip projCnt rbmCnt c) ip projCnt
        rbmCnt c LSLQ = some (out, c, st') ∧
      out 0 = 1 ∧
      out 1 = energyOf (psi g) (hamTerms g.p.Nsite H) (szList g c) ∧
      out 2 = energyOf (psi g) (hamTerms g.p.Nsite H) (szList g c) ∧
      out 3 = energyOf (psi g) (hamProd (hamTerms g.p.Nsite H) (hamTerms g.p.Nsite H)) (szList g c) ∧
      SameState g g.st st' := by
  have hh := calculateHamiltonian_val hg hr h hH hsz hrun1.1 hrun1.2 run1.junk
  obtain ⟨st', e, s⟩ := lsLocalQ_val hg hr h hH hsz hrun hrun0 hz hh hch LSLQ
  exact ⟨_, st', e, by simp [setAt], by simp [setAt, hh], by simp [setAt, hh], by simp [setAt], s⟩

/-- C56: `LSLocalCisAjs` stores the local Green functions and behind them `<ψ|H c†_i c_j|x>/<ψ|x>`; nothing else is written. -/
theorem C56_green_partial (g : GrnEnv) (hg : GrnOK g) (hr : g.flagRBM = true → GrnRBM g) (c : EleCfg) (ip : ℂ) (projCnt : Arr)
    (rbmCnt : Nat → ℂ) (h : Sampled g c ip projCnt rbmCnt) (H : HamPar) (hH : HamIdx g.p.Nsite H) (hsz : HamSzConserving H)
    (T : Nat) (runs : Nat → LsRun) (hrun : ∀ i, LsOK H T (runs i)) (hz : NoZero g) (h1 : ℂ)
    (hh : h1 = energyOf (psi g) (hamTerms g.p.Nsite H) (szList g c)) (child : LsChild)
    (hch : LsChildOK g H child) (n1 : Nat) (t1 : Nat → Nat → Nat)
    (ht : ∀ i < n1, t1 i 0 < g.p.Nsite ∧ t1 i 2 < g.p.Nsite ∧ t1 i 3 < 2) (loc arr : Nat → ℂ) :
    ∃ out st', lsLocalCisAjs g child H runs n1 t1 loc h1 ip projCnt rbmCnt c arr = some (out, c, st') ∧ SameState g g.st st' ∧
      (∀ i < n1, out i = loc i ∧ out (i + n1) = energyOf (psi g) (hamTimes (hamTerms g.p.Nsite H)
        [.cr (t1 i 0 + t1 i 3 * g.p.Nsite), .an (t1 i 2 + t1 i 3 * g.p.Nsite)]) (szList g c)) ∧
      ∀ i, 2 * n1 ≤ i → out i = arr i :=
  lsLocalCisAjs_val hg hr h hH hsz hrun hz hh hch ht loc arr

/-- C56: with one projection the condition `NoZero` holds by itself. -/
theorem C56_single_projection (g : GrnEnv) (h : g.nQP = 1) : NoZero g := by
  intro rs _ _ ha q hq
  rw [h] at ha hq
  have : q = 0 := by omega
  subst this
  intro e
  apply ha
  simp only [amplitude, sum_range_one, Nat.add_zero]
  rw [e, mul_zero]

/-- C56, `calHCA` alone: `<ψ|H c†_i c_j|x>/<ψ|x>`. -/
theorem C56_hca_partial (g : GrnEnv) (hg : GrnOK g) (hr : g.flagRBM = true → GrnRBM g) (c : EleCfg) (ip : ℂ) (projCnt : Arr)
    (rbmCnt : Nat → ℂ) (h : Sampled g c ip projCnt rbmCnt) (H : HamPar) (hH : HamIdx g.p.Nsite H) (hsz : HamSzConserving H)
    (T : Nat) (run : LsRun) (hrun : LsOK H T run) (hz : NoZero g) (child : LsChild) (hch : LsChildOK g H child)
    (ri rj s : Nat) (hs : s < 2) (hi : ri < g.p.Nsite) (hj : rj < g.p.Nsite) (h1 : ℂ)
    (hh : h1 = energyOf (psi g) (hamTerms g.p.Nsite H) (szList g c)) :
    ∃ st', calHCA g (child g) H run ri rj s h1 ip projCnt rbmCnt c
      = some (energyOf (psi g) (hamTimes (hamTerms g.p.Nsite H) [.cr (ri + s * g.p.Nsite), .an (rj + s * g.p.Nsite)]) (szList g c), c,
          st') ∧ SameState g g.st st' :=
  hca_val hg hr h hH hsz hrun hz (hch.at g.st) hs hi hj hh

/-- C56, `calHCACA` alone: `<ψ|H c†_i c_j c†_k c_l|x>/<ψ|x>`, whatever coincidences there are among `i, j, k, l`. -/
theorem C56_hcaca_partial (g : GrnEnv) (hg : GrnOK g) (hr : g.flagRBM = false) (c : EleCfg) (ip : ℂ) (projCnt : Arr)
    (rbmCnt : Nat → ℂ) (h : Sampled g c ip projCnt rbmCnt) (H : HamPar) (hH : HamIdx g.p.Nsite H) (hsz : HamSzConserving H)
    (T : Nat) (run : LsRun) (hrun : LsOK H T run) (hz : NoZero g) (pfa : Nat → (Nat → ℂ) → ℂ) (hpfa : PfaOK pfa)
    (ri rj rk rl si sk : Nat) (hs : si < 2) (ht : sk < 2)
    (hi : ri < g.p.Nsite) (hj : rj < g.p.Nsite) (hk : rk < g.p.Nsite) (hl : rl < g.p.Nsite) (h1 : ℂ)
    (hh : h1 = energyOf (psi g) (hamTerms g.p.Nsite H) (szList g c)) :
    ∃ st', calHCACA g (lsChildReal pfa g) H run ri rj rk rl si sk h1 ip projCnt rbmCnt c
      = some (energyOf (psi g) (hamTimes (hamTerms g.p.Nsite H)
          [.cr (ri + si * g.p.Nsite), .an (rj + si * g.p.Nsite), .cr (rk + sk * g.p.Nsite), .an (rl + sk * g.p.Nsite)]) (szList g c), c,
          st') ∧ SameState g g.st st' :=
  hcaca_val hg hr h hH hsz hrun hz hpfa hs ht hi hj hk hl hh

/-! ### what the code does wrong -/

/-- C56: `calHCACA2` takes more thread workspace than it asks for; `calHCA2` does not. -/
theorem C56_workspace_overrun (nQP nsize : Nat) (h : 0 < nsize) :
    hcacaRequest nQP nsize < hcacaUse nQP nsize ∧ hcaUse nQP nsize ≤ hcaRequest nQP nsize := by
  unfold hcacaRequest hcacaUse hcaUse hcaRequest; omega

/-- C56: two threads copying with the shared counter: both leave their loops, the private array of thread 0 has not received entry 1. -/
theorem C56_copy_race : ∃ acts : List (Nat × Bool), ∀ src junk : Arr, src 1 ≠ junk 1 →
    let s := acts.foldl (copyStep 2 src) ⟨0, fun _ => junk, fun _ => false⟩
    s.run 0 = false ∧ s.run 1 = false ∧ s.my 0 1 ≠ src 1 :=
  ⟨[(0, false), (0, true), (1, false), (1, true), (1, true), (0, true), (1, true)], by
    intro src junk hne
    refine ⟨by simp [copyStep], by simp [copyStep], ?_⟩
    simp [copyStep, Arr.set]
    exact Ne.symm hne⟩

/-- C56: with a Boltzmann machine the branch below the threshold of `calHCACA` is undefined (uninitialised pointer). -/
theorem C56_rbm_undefined (g : GrnEnv) (hf : g.flagRBM = true) (child : Nat → (Nat → Nat) → Arr → Nat → Option ℂ) (H : HamPar) (run : LsRun)
    (ri rj rk rl si sk : Nat) (ip : ℂ) (projCnt : Arr) (rbmCnt : Nat → ℂ) (c : EleCfg) :
    calHCACA2 g child H run ri rj rk rl si sk ip projCnt rbmCnt c = none := by
  unfold calHCACA2; simp [hf]

/-- two projections; the second one vanishes when the up electron moves to site 1 -/
noncomputable def exTwo : GrnEnv :=
  { exEnv with
    nQP := 2
    slt := fun k => if k = 19 then 1 else if k = 28 then -1 else exEnv.slt k
    st := ⟨fun q => if q = 0 then 2 else 1, fun k => if k = 1 then -(1 / 2) else if k = 2 then 1 / 2 else if k = 5 then -1
      else if k = 6 then 1 else 0⟩ }

theorem exTwo_sampled : Sampled exTwo exCfg 3 (fun _ => 0) (fun _ => 0) where
  cons := exSampled.cons
  pf := by
    intro k hk
    have hk : k < 2 := hk
    rcases (show k = 0 ∨ k = 1 by omega) with rfl | rfl
    · refine ⟨?_, ?_⟩
      · simp [pfOf, pf, pfN, altSum, exTwo, exEnv, exCfg, occSz, entry, List.range_succ]
      · intro i hi j hj
        have hi : i < 2 := hi
        have hj : j < 2 := hj
        rcases (show i = 0 ∨ i = 1 by omega) with rfl | rfl <;> rcases (show j = 0 ∨ j = 1 by omega) with rfl | rfl <;>
          simp [exTwo, exEnv, exCfg, occSz, entry, Finset.sum_range_succ]
    · refine ⟨?_, ?_⟩
      · simp [pfOf, pf, pfN, altSum, exTwo, exEnv, exCfg, occSz, entry, List.range_succ]
      · intro i hi j hj
        have hi : i < 2 := hi
        have hj : j < 2 := hj
        rcases (show i = 0 ∨ i = 1 by omega) with rfl | rfl <;> rcases (show j = 0 ∨ j = 1 by omega) with rfl | rfl <;>
          simp [exTwo, exEnv, exCfg, occSz, entry, Finset.sum_range_succ]
  hip := by
    simp [amplitude, pfOf, pf, pfN, altSum, exTwo, exEnv, exCfg, occSz, entry, List.range_succ, Finset.sum_range_succ]
    norm_num
  hne := by norm_num
  proj := fun k hk => absurd hk (Nat.not_lt_zero k)
  rbm := fun h => absurd h (by decide)

/-- C56: `NoZero` cannot be dropped. A sample of a state with two projections, for which `calHCA` divides by the vanishing new Pfaffian of
one of them although the new amplitude is `2i` times the old one. -/
theorem C56_zero_projection_division (child : Nat → (Nat → Nat) → Arr → Nat → Option ℂ) (H : HamPar) (run : LsRun) (h1 : ℂ) :
    Sampled exTwo exCfg 3 (fun _ => 0) (fun _ => 0) ∧
      (checkGF1 exTwo 1 0 0 3 exCfg).1 = 2 * Complex.I ∧
      calHCA exTwo child H run 1 0 0 h1 3 (fun _ => 0) (fun _ => 0) exCfg = none := by
  have e : checkGF1 exTwo 1 0 0 3 exCfg = (2 * Complex.I, exCfg) := by
    unfold checkGF1
    refine Prod.ext ?_ ?_
    · simp [exTwo, exEnv, exCfg, calculateIPLocal, calculateNewPfM, sumLoop, List.range_succ, PfPar.Nsize,
        PfPar.Nsite2, Arr.set, rsSz, sltAt, invAt]
      ring
    · simp only [exCfg, exTwo, exEnv, EleCfg.mk.injEq, true_and]
      refine ⟨?_, ?_⟩
      · funext x; by_cases h : x = 0 <;> simp [Arr.set, h]
      · funext x
        simp only [Arr.set]
        by_cases h0 : x = 0
        · simp [h0]
        · by_cases h1 : x = 1 <;> simp [h0, h1]
  refine ⟨exTwo_sampled, by rw [e], ?_⟩
  unfold calHCA
  simp only []
  rw [if_neg (by decide), if_neg (by decide), if_neg (by decide), e]
  simp only []
  rw [if_pos (by rw [norm_mul, Complex.norm_I, Complex.norm_ofNat]; norm_num)]
  unfold calHCA1
  simp only []
  rw [if_pos]
  refine ⟨1, by decide, ?_⟩
  simp [exTwo, exEnv, exCfg, calculateNewPfM, sumLoop, List.range_succ, PfPar.Nsize,
        PfPar.Nsite2, Arr.set, rsSz, sltAt, invAt]

/-! ### example -/

/-- `<ψ|H²|x>/<ψ|x>` for the state and the Hamiltonian of the example of C27 (`<ψ|H|x>/<ψ|x> = 5 + 3i`) -/
example (runs : Nat → Nat → LsRun) (hrun : ∀ a i, LsOK exHam 2 (runs a i)) (run0 run1 : OmpRun) (hrun0 : OmpOK exHam 2 run0)
    (hrun1 : OmpOK exHam 2 run1) : ∃ out st', lsLocalQ exEnv lsChildComplex exHam run0 runs
      (calculateHamiltonian exEnv exHam run1.sched run1.order run1.junk 2 (fun _ => 0) (fun _ => 0) exCfg) 2 (fun _ => 0) (fun _ => 0) exCfg
      (fun _ => 0) = some (out, exCfg, st') ∧ out 3 = 25 + 36 * Complex.I := by
  obtain ⟨out, st', e, _, _, _, e3, _⟩ := C56_second_order_partial exEnv exEnv_ok (fun h => absurd h (by decide)) exCfg 2 _ _ exSampled exHam
    (by
      refine ⟨?_, ?_, ?_, ?_, ?_, ?_, ?_⟩
      · intro i hi; exact hi
      · intro i hi; exact ⟨show 0 < 2 by decide, show 1 < 2 by decide⟩
      · intro i hi; exact absurd hi (Nat.not_lt_zero i)
      · intro i hi; exact ⟨show 1 < 2 by decide, show 0 < 2 by decide, show 0 < 2 by decide, show 0 < 2 by decide⟩
      · intro i hi; exact absurd hi (Nat.not_lt_zero i)
      · intro i hi; exact absurd hi (Nat.not_lt_zero i)
      · intro i hi; exact absurd hi (Nat.not_lt_zero i))
    ⟨fun i hi => rfl, fun i hi => absurd hi (Nat.not_lt_zero i)⟩ 2 runs hrun run0 run1 hrun0 hrun1
    (C56_single_projection _ rfl) lsChildComplex (Or.inl ⟨rfl, rfl, rfl⟩) (fun _ => 0)
  refine ⟨out, st', e, ?_⟩
  rw [e3]
  have hl : szList exEnv exCfg = [0, 3] := by decide
  have c : corrSpec exEnv = fun _ => 1 := by
    funext num
    simp [corrSpec, projSpec, exEnv, logCorr]
  have e2 : (starRingEnd ℂ) 2 = 2 := Complex.conj_ofReal 2
  have e6 : (starRingEnd ℂ) 6 = 6 := Complex.conj_ofReal 6
  rw [hl]
  simp only [energyOf, hamProd, hamTerms, exHam, List.range_succ, List.range_zero, List.flatMap_cons, List.flatMap_nil,
    List.nil_append, List.append_nil, termCoulombIntra, termCoulombInter, termTransfer, numOp, matrixElement, psi, c, List.cons_append,
    List.map_cons, List.map_nil]
  simp [actAll, Op.act, exEnv, overlap, pf, pfN, altSum, entry, waveFunction, e2, e6]
  ring

end MVMC
