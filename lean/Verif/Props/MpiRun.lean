import Verif.Proof.MpiTerm
import Verif.Props.Ranks

/-!
# C67: the whole program on any number of processes

`WRun s n ps qs`: the processes `ps` execute `n` collective operations, in any order that MPI allows, and are then at `qs`. An operation takes place
when all processes of one communicator are in it. A state without continuation in which a process has neither returned nor stopped is a deadlock.
-/
namespace MVMC

section schedule
variable {K α : Type} [AddCommMonoid K] {N : Nat}

/-- C67: whatever the processes do, all executions end, with the same result after the same number of operations: the order in which
the communicators make progress does not matter. -/
theorem C67_schedule (s : Nat) (ps : Fin N → WProg K α) : ∃ (n : Nat) (T : Fin N → WProg K α), (∀ us, ¬ WStep s T us) ∧
    ∀ m qs, WRun s m ps qs → m ≤ n ∧ WRun s (n - m) qs T := by
  obtain ⟨n, T, h1, h2⟩ := exists_final (s := s) ps
  refine ⟨n, T, h2, fun m qs h => ?_⟩
  obtain ⟨k, rfl, hk⟩ := run_final h2 h1 h
  refine ⟨Nat.le_add_right m k, ?_⟩
  rw [Nat.add_sub_cancel_left]
  exact hk

end schedule

section main
variable {δ ρ π K : Type} [Field K] {n s : Nat} (O : WholeOps δ ρ π K) (hs : 0 < s)
  (c0 : Fin (n + 1) → EleCfg) (d0 : Fin (n + 1) → δ) (l0 : Fin (n + 1) → ρ)
include hs

/-- C67: the optimisation on `n+1` processes with `NSplitSize = s` does not deadlock: an execution that cannot be continued has a process that
stopped (`MPI_Abort`, or an execution for which too few random numbers were given), or all processes have returned, with the same status, parameters,
averages and stored data, and within a chain with the same burn sample and the same position in the random number sequence. -/
theorem C67_optimise {m : Nat} {T : Fin (n + 1) → WProg K (Int × Proc δ ρ K)}
    (hr : WRun s m (fun r : Fin (n + 1) => mainOpt O (srPhase O) (n + 1) s r (c0 r) (d0 r) (l0 r)) T) (hT : ∀ us, ¬ WStep s T us) :
    (∃ r, T r = .stuck ∨ T r = .abort) ∨ ∃ ys : Fin (n + 1) → Int × Proc δ ρ K, (∀ r, T r = .ret (ys r)) ∧
      (∀ r r', (ys r).1 = (ys r').1 ∧ (ys r).2.para = (ys r').2.para ∧ (ys r).2.we = (ys r').2.we ∧ (ys r).2.sr = (ys r').2.sr ∧
        (ys r).2.store = (ys r').2.store) ∧
      ∀ r r' : Fin (n + 1), r.val / s = r'.val / s → (ys r).2.rng = (ys r').2.rng ∧ (ys r).2.burn = (ys r').2.burn ∧
        ((ys r).2.burn = true → (ys r).2.bc = (ys r').2.bc ∧ (ys r).2.bcnt = (ys r').2.bcnt) := by
  rcases (gets_mainOpt O (srPhase_good O) hs c0 d0 l0).final ⟨m, hr⟩ hT with h | ⟨ys, h, e⟩
  · exact .inl h
  · refine .inr ⟨ys, fun r => congrFun e r, fun r r' => ⟨(h.1 r r').1, h.2.2 r r', (h.1 r r').2⟩, fun r r' hr => ?_⟩
    obtain ⟨h1, h2, h3⟩ := h.2.1 r r' hr
    exact ⟨h2, h1, h3⟩

/-- C67: the same with the conjugate-gradient solver, in which the processes also communicate in every iteration (`NSRCG!=0`). -/
theorem C67_optimise_cg (prep : (Nat → K) → (Nat → K) → CGPrep ρ K) {m : Nat} {T : Fin (n + 1) → WProg K (Int × Proc δ ρ K)}
    (hr : WRun s m (fun r : Fin (n + 1) => mainOpt O (cgPhase O prep) (n + 1) s r (c0 r) (d0 r) (l0 r)) T) (hT : ∀ us, ¬ WStep s T us) :
    (∃ r, T r = .stuck ∨ T r = .abort) ∨ ∃ ys : Fin (n + 1) → Int × Proc δ ρ K, (∀ r, T r = .ret (ys r)) ∧
      (∀ r r', (ys r).1 = (ys r').1 ∧ (ys r).2.para = (ys r').2.para ∧ (ys r).2.we = (ys r').2.we ∧ (ys r).2.sr = (ys r').2.sr ∧
        (ys r).2.store = (ys r').2.store) ∧
      ∀ r r' : Fin (n + 1), r.val / s = r'.val / s → (ys r).2.rng = (ys r').2.rng ∧ (ys r).2.burn = (ys r').2.burn ∧
        ((ys r).2.burn = true → (ys r).2.bc = (ys r').2.bc ∧ (ys r).2.bcnt = (ys r').2.bcnt) := by
  rcases (gets_mainOpt O (cgPhase_good O prep) hs c0 d0 l0).final ⟨m, hr⟩ hT with h | ⟨ys, h, e⟩
  · exact .inl h
  · refine .inr ⟨ys, fun r => congrFun e r, fun r r' => ⟨(h.1 r r').1, h.2.2 r r', (h.1 r r').2⟩, fun r r' hr => ?_⟩
    obtain ⟨h1, h2, h3⟩ := h.2.1 r r' hr
    exact ⟨h2, h1, h3⟩

/-- C67: the measurement does not deadlock either. -/
theorem C67_measure (nData : Nat) {m : Nat} {T : Fin (n + 1) → WProg K (Proc δ ρ K)}
    (hr : WRun s m (fun r : Fin (n + 1) => mainPhys O (n + 1) s r nData (c0 r) (d0 r) (l0 r)) T) (hT : ∀ us, ¬ WStep s T us) :
    (∃ r, T r = .stuck ∨ T r = .abort) ∨ ∃ ys : Fin (n + 1) → Proc δ ρ K, (∀ r, T r = .ret (ys r)) ∧
      (∀ r r', (ys r).para = (ys r').para ∧ (ys r).we = (ys r').we) ∧
      ∀ r r' : Fin (n + 1), r.val / s = r'.val / s → (ys r).rng = (ys r').rng ∧ (ys r).burn = (ys r').burn ∧
        ((ys r).burn = true → (ys r).bc = (ys r').bc ∧ (ys r).bcnt = (ys r').bcnt) := by
  rcases (gets_mainPhys O hs nData c0 d0 l0).final ⟨m, hr⟩ hT with h | ⟨ys, h, e⟩
  · exact .inl h
  · refine .inr ⟨ys, fun r => congrFun e r, fun r r' => ⟨h.1.para r r', h.2 r r'⟩, fun r r' hr => ?_⟩
    obtain ⟨h1, h2, h3⟩ := h.1.grp r r' hr
    exact ⟨h2, h1, h3⟩

/-! ### what one pass delivers -/

variable {ms : Fin (n + 1) → Proc δ ρ K} (hpara : ∀ r r', (ms r).para = (ms r').para) (hstore : ∀ r r', (ms r).store = (ms r').store)
  (hgrp : ∀ r r' : Fin (n + 1), r.val / s = r'.val / s → (ms r).burn = (ms r').burn ∧ (ms r).rng = (ms r').rng ∧
    ((ms r).burn = true → (ms r).bc = (ms r').bc ∧ (ms r).bcnt = (ms r').bcnt))
include hpara hstore hgrp

omit hstore hgrp in
theorem chains_of {O : WholeOps δ ρ π K} {xs} (hx : ChainsDone O s ms xs) (g k : Nat) (hk : g * s + k ≤ n) (hks : k < s)
    (hl : k + 1 = s ∨ g * s + k = n) :
    runRanks (fun i : Fin (k + 1) => sampleR (k + 1) (O.L (g * s + i) (ms 0).para) (O.S (ms 0).para) O.p (ms ⟨g * s, by omega⟩).burn O.warmUp
      O.nSample O.interval (ms ⟨g * s, by omega⟩).bc (ms ⟨g * s, by omega⟩).bcnt (ms ⟨g * s + i, by omega⟩).loc (ms ⟨g * s, by omega⟩).rng) =
    .done fun i => xs ⟨g * s + i, by omega⟩ := by
  have h := hx ⟨g * s, by omega⟩
  have hg : (⟨g * s, by omega⟩ : Fin (n + 1)).val / s = g := Nat.mul_div_cancel _ hs
  rw [hg, hpara _ 0] at h
  have hkl : k = grpLast n s g := by
    unfold grpLast
    rcases hl with h | h
    · rw [min_eq_left (by omega)]; omega
    · rw [min_eq_right (by omega)]; omega
  subst hkl
  have hrk : ∀ i : Fin (grpLast n s g + 1), grpRank n s g i = ⟨g * s + i, by omega⟩ := fun i => by
    apply Fin.ext
    unfold grpRank
    rw [Fin.val_ofNat]
    exact Nat.mod_eq_of_lt (by omega)
  simp only [hrk] at h
  exact h

/-- C67: one pass of the optimisation. `xs r`: what the sampling leaves on process `r` (chain `g` is run by the processes
`g·s … g·s+k`); `W`, `Y`: the sums over *all* processes of what they
accumulated. If process 0 finds a usable solution, every process continues with the parameters that process 0 computed from the normalised sums, and
nothing else differs between the processes of a chain; otherwise the parameters stay and all processes return the error. Process 0 writes the
normalised averages, the parameters used in the sampling, and counters in which every chain is counted once. -/
theorem C67_step (step : Nat) {m : Nat} {T : Fin (n + 1) → WProg K (Int × Proc δ ρ K)}
    (hr : WRun s m (fun r : Fin (n + 1) => optStep O (srPhase O) (n + 1) s r step (ms r)) T) (hT : ∀ us, ¬ WStep s T us) :
    (∃ r, T r = .stuck ∨ T r = .abort) ∨
    ∃ xs : Fin (n + 1) → SState (RB δ ρ K) × List (Nat × SState (RB δ ρ K)) × List Nat,
      let W := fun i => ∑ r : Fin (n + 1), O.mainWe r (ms r).para (xs r).2.1 (xs r).1.b.loc i
      let Y := fun i => ∑ r : Fin (n + 1), O.mainSr r (ms r).para (xs r).2.1 (xs r).1.b.loc i
      let S := O.normSr W Y
      let err := if O.bad S (O.solve 0 S).2 = true then 1 else (O.solve 0 S).1
      let q := O.gauge (O.upd S (O.solve 0 S).2 (ms 0).para)
      (∀ (g k : Nat) (hk : g * s + k ≤ n), k < s → (k + 1 = s ∨ g * s + k = n) →
        runRanks (fun i : Fin (k + 1) => sampleR (k + 1) (O.L (g * s + i) (ms 0).para) (O.S (ms 0).para) O.p (ms ⟨g * s, by omega⟩).burn O.warmUp
          O.nSample O.interval (ms ⟨g * s, by omega⟩).bc (ms ⟨g * s, by omega⟩).bcnt (ms ⟨g * s + i, by omega⟩).loc (ms ⟨g * s, by omega⟩).rng) =
        .done fun i => xs ⟨g * s + i, by omega⟩) ∧
      ∃ ys : Fin (n + 1) → Int × Proc δ ρ K, (∀ r, T r = .ret (ys r)) ∧
        (∀ r, (ys r).1 = err ∧ (ys r).2.we = O.normWe W ∧ (ys r).2.sr = S ∧ (ys r).2.burn = true ∧ (ys r).2.bc = (xs r).1.c ∧
          (ys r).2.rng = (xs r).2.2 ∧ (ys r).2.para = (if err = 0 then q else (ms 0).para) ∧
          (ys r).2.store = (if err = 0 ∧ step + O.keep ≥ O.steps then (step + O.keep - O.steps, O.normWe W, q) :: (ms 0).store
            else (ms 0).store)) ∧
        (ys 0).2.out = (O.normWe W, (ms 0).para, fun i => ∑ r : Fin (n + 1), if s ∣ r.val then
          (if i = 0 then (xs r).1.hopTry else if i = 1 then (xs r).1.hopAcc else if i = 2 then (xs r).1.exTry else if i = 3 then (xs r).1.exAcc
            else 0 : Int) else 0) :: (ms 0).out ∧
        ∀ r, r ≠ 0 → (ys r).2.out = (ms r).out := by
  rcases (gets_optStep O (srPhase_good O) hs step ⟨hpara, hstore, hgrp⟩).final ⟨m, hr⟩ hT with h | ⟨ys, ⟨xs, hx, hys⟩, e⟩
  · exact .inl h
  · refine .inr ⟨xs, chains_of hs hpara hx, ys, fun r => congrFun e r, fun r => ?_, ?_, fun r hr => ?_⟩
    · rw [hys r, ← hpara r 0, ← hstore r 0]
      have e1 : (optRef O (srFun O) s step ms xs r).1 = (srFun O (avgRef O s ms xs)).1 := rfl
      by_cases hv : (srFun O (avgRef O s ms xs)).1 = 0
      · refine ⟨rfl, ?_⟩
        have e2 : (optRef O (srFun O) s step ms xs r).2 = _ := if_pos hv
        rw [e2]
        refine ⟨rfl, rfl, rfl, rfl, rfl, ?_, ?_⟩
        · rw [hpara r 0]
          exact (if_pos hv).symm
        · dsimp only
          rw [hpara r 0]
          by_cases hk : step + O.keep ≥ O.steps
          · rw [if_pos hk]
            exact (if_pos ⟨hv, hk⟩).symm
          · rw [if_neg hk]
            exact (if_neg (fun h => hk h.2)).symm
      · refine ⟨rfl, ?_⟩
        have e2 : (optRef O (srFun O) s step ms xs r).2 = avgRef O s ms xs r := if_neg hv
        rw [e2]
        refine ⟨rfl, rfl, rfl, rfl, rfl, ?_, ?_⟩
        · exact (if_neg hv).symm
        · exact (if_neg (fun h => hv h.1)).symm
    · have e3 : (ys 0).2.out = (avgRef O s ms xs 0).out := by
        rw [hys 0]
        unfold optRef
        dsimp only
        split <;> rfl
      rw [e3]
      unfold avgRef
      dsimp only
      rw [if_pos (Fin.val_zero _)]
      congr 3
      unfold cntRef
      rw [if_pos (by rw [Fin.val_zero]; exact hs)]
      funext i
      refine Finset.sum_congr rfl fun r _ => ?_
      rw [Fin.val_zero, Nat.zero_mod]
      by_cases hd : s ∣ r.val
      · rw [if_pos hd, if_pos (Nat.mod_eq_zero_of_dvd hd)]; rfl
      · rw [if_neg hd, if_neg (fun h => hd (Nat.dvd_of_mod_eq_zero h))]
    · have e3 : (ys r).2.out = (avgRef O s ms xs r).out := by
        rw [hys r]
        unfold optRef
        dsimp only
        split <;> rfl
      rw [e3]
      unfold avgRef
      dsimp only
      exact if_neg (fun h => hr (Fin.ext h))

/-- C67: one pass of the measurement: process 0 writes the averages over all processes (`W`, `Y` as in `C67_step`) and counters in which every chain is
counted once; the other processes write nothing. -/
theorem C67_measure_step {m : Nat} {T : Fin (n + 1) → WProg K (Proc δ ρ K)}
    (hr : WRun s m (fun r : Fin (n + 1) => physStep O (n + 1) s r (ms r)) T) (hT : ∀ us, ¬ WStep s T us) :
    (∃ r, T r = .stuck ∨ T r = .abort) ∨
    ∃ xs : Fin (n + 1) → SState (RB δ ρ K) × List (Nat × SState (RB δ ρ K)) × List Nat,
      let W := fun i => ∑ r : Fin (n + 1), O.mainWe r (ms r).para (xs r).2.1 (xs r).1.b.loc i
      let Y := fun i => ∑ r : Fin (n + 1), O.mainSr r (ms r).para (xs r).2.1 (xs r).1.b.loc i
      (∀ (g k : Nat) (hk : g * s + k ≤ n), k < s → (k + 1 = s ∨ g * s + k = n) →
        runRanks (fun i : Fin (k + 1) => sampleR (k + 1) (O.L (g * s + i) (ms 0).para) (O.S (ms 0).para) O.p (ms ⟨g * s, by omega⟩).burn O.warmUp
          O.nSample O.interval (ms ⟨g * s, by omega⟩).bc (ms ⟨g * s, by omega⟩).bcnt (ms ⟨g * s + i, by omega⟩).loc (ms ⟨g * s, by omega⟩).rng) =
        .done fun i => xs ⟨g * s + i, by omega⟩) ∧
      ∃ ys : Fin (n + 1) → Proc δ ρ K, (∀ r, T r = .ret (ys r)) ∧
        (∀ r, (ys r).we = O.normWe W ∧ (ys r).burn = true ∧ (ys r).bc = (xs r).1.c ∧ (ys r).rng = (xs r).2.2 ∧ (ys r).para = (ms r).para) ∧
        (ys 0).out = (O.normWe W, O.normSr W Y, fun i => ∑ r : Fin (n + 1), if s ∣ r.val then
          (if i = 0 then (xs r).1.hopTry else if i = 1 then (xs r).1.hopAcc else if i = 2 then (xs r).1.exTry else if i = 3 then (xs r).1.exAcc
            else 0 : Int) else 0) :: (ms 0).out ∧
        ∀ r, r ≠ 0 → (ys r).out = (ms r).out := by
  rcases (gets_physStep O hs ⟨hpara, hstore, hgrp⟩).final ⟨m, hr⟩ hT with h | ⟨ys, ⟨xs, hx, hys⟩, e⟩
  · exact .inl h
  · refine .inr ⟨xs, chains_of hs hpara hx, ys, fun r => congrFun e r, fun r => ?_, ?_, fun r hr => ?_⟩
    · rw [hys r]
      exact ⟨rfl, rfl, rfl, rfl, rfl⟩
    · rw [hys 0]
      unfold physRef
      dsimp only
      rw [if_pos (Fin.val_zero _)]
      congr 3
      unfold cntRef
      rw [if_pos (by rw [Fin.val_zero]; exact hs)]
      funext i
      refine Finset.sum_congr rfl fun r _ => ?_
      rw [Fin.val_zero, Nat.zero_mod]
      by_cases hd : s ∣ r.val
      · rw [if_pos hd, if_pos (Nat.mod_eq_zero_of_dvd hd)]; rfl
      · rw [if_neg hd, if_neg (fun h => hd (Nat.dvd_of_mod_eq_zero h))]
    · rw [hys r]
      unfold physRef
      dsimp only
      exact if_neg (fun h => hr (Fin.ext h))

end main

/-- C67: the conjugate gradients on `n+1` processes, each with its own stored samples `os r`: all processes get the vector that `cgMain` of C32 computes
with the product over the samples of all processes; the status is the verdict of process 0 about it, and only process 0 changes its
parameters. -/
theorem C67_cg {δ π : Type} {n s : Nat} (O : WholeOps δ (Nat → Nat → ℝ × ℝ) π ℝ)
    (prep : (Nat → ℝ) → (Nat → ℝ) → CGPrep (Nat → Nat → ℝ × ℝ) ℝ)
    (ms : Fin (n + 1) → Proc δ (Nat → Nat → ℝ × ℝ) ℝ)
    (hms : ∀ r r', (ms r).para = (ms r').para ∧ (ms r).we = (ms r').we ∧ (ms r).sr = (ms r').sr)
    (nSmat nS maxIter : Nat) (tol W staDel : ℝ) (stcO sdiag g : Nat → ℝ)
    (hp : prep (ms 0).we (ms 0).sr = storePrep nSmat nS maxIter tol W staDel stcO sdiag g)
    (os : Nat → Nat → Nat → ℝ × ℝ) (ho : ∀ r : Fin (n + 1), os r = (ms r).loc) (c : CGSt) (k : Nat)
    (hc : cgMain nSmat (operateByS nSmat (n + 1) nS os W staDel stcO sdiag) g maxIter tol = some (c, k))
    {m : Nat} {T : Fin (n + 1) → WProg ℝ (Int × Proc δ (Nat → Nat → ℝ × ℝ) ℝ)}
    (hr : WRun s m (fun r : Fin (n + 1) => cgPhase O prep r (ms r)) T) (hT : ∀ us, ¬ WStep s T us) :
    ∀ r, T r = .ret (if O.bad (ms 0).sr c.x = true then (1, ms r) else
      (0, if r = 0 then { ms r with para := O.upd (ms 0).sr c.x (ms 0).para } else ms r)) := by
  intro r
  rcases (cgPhase_good O prep ms hms).final ⟨m, hr⟩ hT with ⟨r', h⟩ | ⟨ys, h, e⟩
  · exact ((sure_run hr (fun r => sure_cgPhase O prep r (ms r)) r').not_stopped h).elim
  · have ex : cgSol (prep (ms 0).we (ms 0).sr) (fun r => (ms r).loc) = c.x := by
      rw [hp]
      exact cgSol_cgMain nSmat nS maxIter tol W staDel stcO sdiag g _ os ho hc
    rw [e]
    dsimp only
    rw [h r]
    have e1 : cgFun O prep ms = (if O.bad (ms 0).sr c.x = true then 1 else 0, O.upd (ms 0).sr c.x (ms 0).para) := by
      unfold cgFun
      rw [ex]
    rw [e1]
    by_cases hb : O.bad (ms 0).sr c.x = true
    · simp [hb]
    · by_cases h0 : r = 0
      · subst h0; simp [hb]
      · have : ¬ r.val = 0 := fun h => h0 (Fin.ext h)
        simp [hb, h0, this]

/-! ### examples -/

section exec
variable {K α : Type} [AddCommMonoid K] {N : Nat}

/-- the operation of communicator `c` in which the process waits -/
def waitOp (c : Comm) : WProg K α → Option CollOp
  | .coll c' o _ _ => if c' = c then some o else none
  | _ => none

/-- let the operation of communicator `c` of process `r` take place, if it can -/
def tryFire (s : Nat) (c : Comm) (r : Fin N) (ps : Fin N → WProg K α) : Option (Fin N → WProg K α) :=
  match waitOp c (ps r) with
  | none => none
  | some o => if ∀ r' : Fin N, colour s c r' = colour s c r → waitOp c (ps r') = some o then some (fire s c (colour s c r) o ps) else none

/-- the state of the processes as a list -/
def atRank (l : List (WProg K α)) : Fin N → WProg K α := fun r => l.getD r .stuck

/-- an execution in which the communicators are served in the given order; at most `fuel` operations -/
def serve (s : Nat) (order : List (Comm × Fin N)) : Nat → List (WProg K α) → Nat × List (WProg K α)
  | 0, l => (0, l)
  | fuel + 1, l => match order.findSome? (fun x => tryFire s x.1 x.2 (atRank l)) with
    | none => (0, l)
    | some qs => let z := serve s order fuel (List.ofFn qs); (z.1 + 1, z.2)

omit [AddCommMonoid K] in
theorem atRank_ofFn (qs : Fin N → WProg K α) : atRank (List.ofFn qs) = qs := by
  funext r
  simp [atRank, List.getD_eq_getElem?_getD]

omit [AddCommMonoid K] in
theorem waitOp_waits {c : Comm} {o : CollOp} {p : WProg K α} (h : waitOp c p = some o) : p.waits c o := by
  cases p with
  | coll c' o' x k =>
    have h : (if c' = c then some o' else none) = some o := h
    by_cases e : c' = c
    · rw [if_pos e] at h
      exact ⟨e, Option.some.inj h⟩
    · rw [if_neg e] at h
      cases h
  | _ => cases h

theorem tryFire_step {s : Nat} {c : Comm} {r : Fin N} {ps qs : Fin N → WProg K α} (h : tryFire s c r ps = some qs) : WStep s ps qs := by
  unfold tryFire at h
  split at h
  · cases h
  · next o _ =>
    split at h
    · next hall =>
      exact ⟨c, colour s c r, o, ⟨⟨r, rfl⟩, fun r' e => waitOp_waits (hall r' e)⟩, (Option.some.inj h).symm⟩
    · cases h

theorem serve_run (s : Nat) (order : List (Comm × Fin N)) : ∀ (fuel : Nat) (l : List (WProg K α)),
    WRun (N := N) s (serve s order fuel l).1 (atRank l) (atRank (serve s order fuel l).2)
  | 0, l => .nil _
  | fuel + 1, l => by
    unfold serve
    cases e : order.findSome? (fun x => tryFire s x.1 x.2 (atRank l)) with
    | none => exact .nil _
    | some qs =>
      obtain ⟨x, _, hx⟩ := List.exists_of_findSome?_eq_some e
      have h := serve_run s order fuel (List.ofFn qs)
      rw [atRank_ofFn] at h
      exact .cons (tryFire_step hx) h
end exec

/-- what a process has returned -/
def retOf {K α : Type} : WProg K α → Option α
  | .ret a => some a
  | _ => none

/-- amplitudes: processes 0 and 1 have one projection each, process 2 has both -/
def wholeL (r : Nat) (q : Nat → ℚ) : LocalOps ℚ ℚ ℚ where
  newHop _ h _ := if r = 0 then q 0 * (1 + h.rj) else if r = 1 then 1 + h.rj else q 0 * (1 + h.rj) + 1
  newExch _ _ _ b := b
  updHop _ h _ := if r = 0 then q 0 * (1 + h.rj) else if r = 1 then 1 + h.rj else q 0 * (1 + h.rj) + 1
  updExch _ _ _ b := b
  mAll _ _ := (if r = 0 then q 0 else 1, 0)
  ipNew x := x
  ipCur b := b

/-- a small program: two sites, one electron per spin; the averages are the summed amplitudes and numbers of samples -/
def wholeO : WholeOps Unit ℚ ℚ ℚ where
  p := ranksPar
  warmUp := 1
  nSample := 2
  interval := 1
  steps := 2
  keep := 1
  nPara := 1
  nSr := 1
  nCnt := 4
  L := wholeL
  S := fun _ => { ranksS with accept := fun _ _ new old u => decide (old * old * (u % 16 : Nat) < 4 * (new * new)) }
  seed g := (List.range 160).map fun i => (i * i * i + 5 * i + 7 * g) % 97 * 1073741823 % 4294967296
  initPara l := match l with
    | [] => none
    | a :: l => some (fun i => if i = 0 then 1 + ((a % 3 : Nat) : ℚ) else 0, l)
  readFiles q := fun i => q i + 2
  gauge q := q
  mainWe _ _ sv _ := fun i => if i = 0 then ((sv.map fun x => x.2.b.ip).sum : ℚ) else if i = 1 then (sv.length : ℚ) else 0
  mainSr r _ sv _ := fun i => if i = 0 then ((sv.map fun x => x.2.b.ip * ((r + 1 : Nat) : ℚ)).sum : ℚ) else 0
  mainLoc _ _ _ b := b
  normWe w := fun i => w i / w 1
  normSr w y := fun i => y i / w 1
  solve _ y := (0, fun i => y i / 2)
  bad _ _ := false
  upd _ x q := fun i => q i + x i

/-- status, parameter, averages, counters, remaining random numbers, positions of the electrons, numbers of stored and written lines -/
def wholeShow (x : Int × Proc Unit ℚ ℚ) : List ℚ :=
  [x.1, x.2.para 0, x.2.we 0, x.2.sr 0, x.2.cnt 0, x.2.cnt 1, x.2.rng.length, x.2.bc.idx 0, x.2.bc.idx 1, x.2.store.length, x.2.out.length]

/-- three processes, two of them share a chain; two steps -/
def wholeRun (order : List (Comm × Fin 3)) :=
  serve 2 order 1000 (List.ofFn fun r : Fin 3 => mainOpt wholeO (srPhase wholeO) 3 2 r ranksCfg () 0)

/-- The three processes return after 27 operations: 12 hops tried in the two chains, 3 accepted; same parameters, averages and stored data everywhere;
processes 0 and 1 have used equally many random numbers, process 2 a different number of them; only process 0 has written. -/
theorem whole_shown : (wholeRun [(.c0, 0), (.c1, 0), (.c1, 2), (.c2, 0), (.c2, 1)]).1 = 27 ∧
    (wholeRun [(.c0, 0), (.c1, 0), (.c1, 2), (.c2, 0), (.c2, 1)]).2.map (fun r => (retOf r).map wholeShow) =
    [some [0, 105 / 4, 109 / 6, 36, 12, 3, 101, 1, 1, 1, 2], some [0, 105 / 4, 109 / 6, 36, 6, 1, 101, 1, 1, 1, 0],
      some [0, 105 / 4, 109 / 6, 36, 6, 2, 94, 1, 1, 1, 0]] := by
  decide +kernel

/-- Every execution of the example ends there, whatever the order of the operations. -/
example {m : Nat} {T : Fin 3 → WProg ℚ (Int × Proc Unit ℚ ℚ)}
    (hr : WRun 2 m (fun r : Fin 3 => mainOpt wholeO (srPhase wholeO) 3 2 r ranksCfg () 0) T) (hT : ∀ us, ¬ WStep 2 T us) :
    m = 27 ∧ ∀ r, (retOf (T r)).map wholeShow = [some [0, 105 / 4, 109 / 6, 36, 12, 3, 101, 1, 1, 1, 2],
      some [0, 105 / 4, 109 / 6, 36, 6, 1, 101, 1, 1, 1, 0], some [0, 105 / 4, 109 / 6, 36, 6, 2, 94, 1, 1, 1, 0]].getD r none := by
  obtain ⟨h1, h2⟩ := whole_shown
  have hw := serve_run (N := 3) 2 [(.c0, 0), (.c1, 0), (.c1, 2), (.c2, 0), (.c2, 1)] 1000
    (List.ofFn fun r : Fin 3 => mainOpt wholeO (srPhase wholeO) 3 2 r ranksCfg () 0)
  rw [atRank_ofFn] at hw
  have hw : WRun 2 27 _ (atRank (wholeRun [(.c0, 0), (.c1, 0), (.c1, 2), (.c2, 0), (.c2, 1)]).2) := h1 ▸ hw
  obtain ⟨k, e, hk⟩ := run_final hT hr hw
  generalize (wholeRun [(.c0, 0), (.c1, 0), (.c1, 2), (.c2, 0), (.c2, 1)]).2 = l at *
  have hret : ∀ r : Fin 3, (retOf (atRank l r)).map wholeShow = ([some [0, 105 / 4, 109 / 6, 36, 12, 3, 101, 1, 1, 1, 2],
      some [0, 105 / 4, 109 / 6, 36, 6, 1, 101, 1, 1, 1, 0], some [0, 105 / 4, 109 / 6, 36, 6, 2, 94, 1, 1, 1, 0]] : List (Option (List ℚ))).getD r none := by
    intro r
    rw [← h2]
    unfold atRank
    rw [List.getD_eq_getElem?_getD, List.getD_eq_getElem?_getD, List.getElem?_map]
    cases l[r.val]? <;> rfl
  have hno : ∀ us, ¬ WStep 2 (atRank l : Fin 3 → _) us := by
    rintro us ⟨c, g, o, ⟨⟨r, hg⟩, hw⟩, -⟩
    obtain ⟨x, k, e⟩ := waits_coll (hw r hg)
    have := hret r
    rw [e] at this
    fin_cases r <;> cases this
  cases hk with
  | nil => exact ⟨e, hret⟩
  | cons h _ => exact (hno _ h).elim

/-- What the broadcast of the verdict prevents: process 0 has found an unusable solution and returned, process 1 expects the new parameters: no
operation can take place, and process 1 has not returned. -/
example (T : Fin 2 → WProg ℚ (Nat → ℚ)) (h0 : T 0 = .ret fun _ => 0) (h1 : T 1 = bcastV 1 fun _ => 0) :
    (∀ us, ¬ WStep 1 T us) ∧ retOf (T 1) = none ∧ T 1 ≠ .stuck ∧ T 1 ≠ .abort := by
  refine ⟨?_, by rw [h1]; rfl, by rw [h1]; nofun, by rw [h1]; nofun⟩
  rintro us ⟨c, g, o, ⟨⟨r, hg⟩, hw⟩, -⟩
  have h0' : ¬ (T 0).waits c o := by rw [h0]; exact id
  have hc : c = .c0 ∧ g = 0 := by
    have hr : r = 1 := by
      fin_cases r
      · exact (h0' (hw 0 hg)).elim
      · rfl
    have := hw r hg
    rw [hr, h1] at this
    have hc : c = .c0 := this.1.symm
    subst hc
    exact ⟨rfl, hg.symm⟩
  obtain ⟨rfl, rfl⟩ := hc
  exact h0' (hw 0 rfl)

end MVMC
