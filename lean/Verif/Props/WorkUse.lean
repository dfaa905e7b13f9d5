import Verif.Proof.Workspace
import Verif.Model.WorkUse
import Verif.Props.Workspace
import Mathlib.Tactic.Ring

/-! # C74: every function stays inside the scratch memory it requested -/
namespace MVMC
open Spec

/-! ## Rounds of request, gets and release -/

/-- The calls on one stack come in rounds: nothing held, a request, gets that stay within the request (or
within `c`, when at least `c` was requested before), a release. -/
def Fit (c : Nat) : Option (Nat × Nat) → List WSOp → Prop
  | none, [] => True
  | none, .request n :: l => Fit c (some (n, 0)) l
  | some (n, u), .get m :: l => u + m ≤ max c n ∧ Fit c (some (n, u + m)) l
  | some _, .release :: l => Fit c none l
  | _, _ => False

theorem fit_append {c : Nat} {st : Option (Nat × Nat)} {l l' : List WSOp}
    (h : Fit c st l) (h' : Fit c none l') : Fit c st (l ++ l') := by
  induction l generalizing st with
  | nil =>
    cases st with
    | none => exact h'
    | some p => simp [Fit] at h
  | cons op l ih =>
    cases st with
    | none =>
      cases op with
      | request n => exact ih h
      | get n => simp [Fit] at h
      | release => simp [Fit] at h
    | some p =>
      obtain ⟨n, u⟩ := p
      cases op with
      | request n => simp [Fit] at h
      | get m => exact ⟨h.1, ih h.2⟩
      | release => exact ih h

theorem fit_disciplined {c : Nat} {st : Option (Nat × Nat)} {l : List WSOp} (h : Fit c st l)
    (s : WS) (past : List Event) (hd : Disciplined past) (hc : c ≤ reserved past)
    (hs : match st with
      | none => held past = []
      | some (n, u) => n ≤ reserved past ∧ heldTotal past = u) :
    Disciplined (WS.trace s past l).2 := by
  induction l generalizing st s past with
  | nil => exact hd
  | cons op l ih =>
    cases st with
    | none =>
      cases op with
      | request n =>
        refine ih (st := some (n, 0)) h _ _ ⟨hd, Or.inr hs⟩ ?_ ⟨?_, ?_⟩
        · simp only [reserved]; omega
        · simp only [reserved]; omega
        · simp only [heldTotal, held]; simp only at hs; rw [hs]; rfl
      | get n => simp [Fit] at h
      | release => simp [Fit] at h
    | some p =>
      obtain ⟨n, u⟩ := p
      obtain ⟨h1, h2⟩ := hs
      cases op with
      | request n => simp [Fit] at h
      | get m =>
        refine ih (st := some (n, u + m)) h.2 _ _ ⟨hd, ?_⟩ hc ⟨h1, ?_⟩
        · have := h.1; omega
        · simp only [heldTotal, held, List.map_cons, List.sum_cons]; unfold heldTotal at h2; omega
      | release => exact ih (st := none) h _ _ hd hc rfl

theorem onFam_append (f : Fam) (l l' : List WCall) : onFam f (l ++ l') = onFam f l ++ onFam f l' :=
  List.filterMap_append

theorem trace_append (s : WS) (past : List Event) (l l' : List WSOp) :
    WS.trace s past (l ++ l') = WS.trace (WS.trace s past l).1 (WS.trace s past l).2 l' := by
  induction l generalizing s past with
  | nil => rfl
  | cons op l ih => cases op <;> exact ih _ _

/-- A disciplined history is disciplined at every earlier moment. -/
theorem disciplined_prefix {ops all : List WSOp} (hp : ops <+: all)
    (h : Disciplined (WS.trace WS.init [] all).2) : Disciplined (WS.trace WS.init [] ops).2 := by
  obtain ⟨rest, rfl⟩ := hp
  rw [trace_append] at h
  exact disciplined_suffix _ _ _ h

/-! ## The functions -/

/-- The functions that keep to their requests on stack `f`: all of them on the three stacks of the main
thread and on the per-thread integers; `calHCACA2(_real)` not on the per-thread numbers; `calHCA2` and
`calHCACA2` not on the per-thread doubles. -/
def WFun.Keeps (f : Fam) : WFun → Prop
  | .hCA2 _ => f ≠ .tDbl
  | .hCACA2 _ => f ≠ .tDbl ∧ f ≠ .tCplx
  | .hCACA2Real => f ≠ .tDbl
  | _ => True

theorem onFam_children (d : Dims) (k : Nat) (f : Fam) (hf : f ≠ .tDbl) : onFam f (useChildren d k) = [] := by
  unfold onFam useChildren
  rw [List.filterMap_eq_nil_iff]
  intro p hp
  rw [List.eq_of_mem_replicate hp, gt, if_neg]
  exact fun h => hf h.symm

theorem fit_ops (d : Dims) (hr : d.rbm = false → d.phys = 0) (c : Nat) (f : Fam) (g : WFun)
    (hk : g.Keeps f) : Fit c none (onFam f (g.ops d)) := by
  have e1 : d.nQP * (d.nSize * d.nSize + 1) = d.nQP * d.nSize * d.nSize + d.nQP := by ring
  have e2 : 2 * d.nTrans * d.nSize * d.nSize = 2 * (d.nTrans * d.nSize * d.nSize) := by ring
  cases hb : d.rbm <;> (try have hp := hr hb) <;> cases g <;> (try rename_i r; cases r) <;> cases f <;>
    first
    | (simp only [WFun.Keeps, ne_eq, not_true_eq_false, and_false, false_and] at hk; done)
    | ((try simp only [WFun.ops, useHCA2, useHCACA2, useHCACA2Body, onFam_append, onFam_children, ne_eq,
          reduceCtorEq, not_false_eq_true])
       simp [thrNum, useBuf, useCalGrn, useBF, useFsz, useHam1Fsz, useCalHam, useHam1, useHam2,
        useMAll, useMAllReal, useUpdate, useUpdateTwo, useHCA1, useHCA1Real, useHCA2Real, useGF2,
        useHCACA1, useHCACA1Real, useHCACA2Real, useHCACA2RealBody, useSlaterDiff, useSlaterBFDiff,
        useBackFlowDiff, useQPWeight, useStcOpt, useStcOptDiag, gtRbm, Dims.rbmSize,
        onFam, rq, gt, rl, Fit, *] <;> omega)

theorem runOn_cons (d : Dims) (f : Fam) (g : WFun) (calls : List WFun) :
    runOn d f (g :: calls) = onFam f (g.ops d) ++ runOn d f calls := by
  simp [runOn, onFam_append]

theorem runOn_append (d : Dims) (f : Fam) (l l' : List WFun) :
    runOn d f (l ++ l') = runOn d f l ++ runOn d f l' := by
  simp [runOn, onFam_append]

theorem fit_runOn (d : Dims) (c : Nat) (f : Fam) (calls : List WFun)
    (h : ∀ g ∈ calls, Fit c none (onFam f (g.ops d))) : Fit c none (runOn d f calls) := by
  induction calls with
  | nil => trivial
  | cons g calls ih =>
    rw [runOn_cons]
    exact fit_append (h g (by simp)) (ih fun x hx => h x (by simp [hx]))

/-- C74: at every moment of every sequence of calls of the functions that use scratch memory, whatever the
lattice, electron and projection numbers are, the blocks held on every stack are pairwise disjoint, lie in
the current memory object (no nested request has freed them) and inside its capacity. `hr` holds for every
input: the hidden-layer sizes are read only from files that set `FlagRBM`. Excluded are the functions that
break the rule (`WFun.Keeps`, see `C74_calHCACA2_violated` and `C74_rwork_violated`). -/
theorem C74_blocks (d : Dims) (hr : d.rbm = false → d.phys = 0) (f : Fam) (calls : List WFun)
    (hk : ∀ g ∈ calls, g.Keeps f) (now : List WSOp) (hn : now <+: runOn d f calls) :
    let r := WS.trace WS.init [] now
    (held r.2).Pairwise Apart ∧ ∀ b ∈ held r.2, b.1 = r.1.base ∧ b.2.1 + b.2.2 ≤ r.1.num :=
  C05_blocks_disjoint_in_bounds now (disciplined_prefix hn
    (fit_disciplined (fit_runOn d 0 f calls fun g hg => fit_ops d hr 0 f g (hk g hg)) _ _ trivial
      (Nat.zero_le _) rfl))

theorem fit_HCACA2 (d : Dims) (k : Nat) (c : Nat) (hc : d.nQP + 4 * d.nSize + d.rbmSize ≤ c) :
    Fit c none (onFam .tCplx ((WFun.hCACA2 k).ops d)) := by
  unfold Dims.rbmSize at hc
  cases hb : d.rbm <;> rw [hb] at hc <;>
    simp only [WFun.ops, useHCACA2, useHCACA2Body, onFam_append, onFam_children, ne_eq,
          reduceCtorEq, not_false_eq_true] <;>
    simp [gtRbm, Dims.rbmSize, onFam, rq, gt, rl, Fit, hb] <;> simp at hc <;> omega

theorem fit_HCACA2Real (d : Dims) (c : Nat) (hc : d.nQP + 4 * d.nSize ≤ c) :
    Fit c none (onFam .tDbl (WFun.hCACA2Real.ops d)) := by
  simp [WFun.ops, useHCACA2Real, useHCACA2RealBody, onFam, rq, gt, rl, Fit]; omega

theorem reserved_mono (s : WS) (past : List Event) (l : List WSOp) :
    reserved past ≤ reserved (WS.trace s past l).2 := by
  induction l generalizing s past with
  | nil => exact le_refl _
  | cons op l ih =>
    cases op with
    | request n => exact le_trans (by simp only [reserved]; omega) (ih (s.request n) (.reserve n :: past))
    | get n => exact ih (s.get n).1 (.take n (s.get n).2.base (s.get n).2.off :: past)
    | release => exact ih s.release (.giveBack :: past)

theorem fit_held {c : Nat} {l : List WSOp} (h : Fit c none l) (s : WS) (past : List Event)
    (hh : held past = []) : held (WS.trace s past l).2 = [] := by
  suffices H : ∀ (l : List WSOp) (st : Option (Nat × Nat)) (s : WS) (past : List Event), Fit c st l →
      (st = none → held past = []) → held (WS.trace s past l).2 = [] from H l none s past h fun _ => hh
  intro l
  induction l with
  | nil =>
    intro st s past h hh
    cases st with
    | none => exact hh rfl
    | some p => simp [Fit] at h
  | cons op l ih =>
    intro st s past h hh
    cases st with
    | none =>
      cases op with
      | request n => exact ih _ _ _ h fun e => by simp at e
      | get n => simp [Fit] at h
      | release => simp [Fit] at h
    | some p =>
      obtain ⟨n, u⟩ := p
      cases op with
      | request n => simp [Fit] at h
      | get m => exact ih _ _ _ h.2 fun e => by simp at e
      | release => exact ih _ _ _ h fun _ => rfl

/-- After a call `a` that reserves at least `c`, the calls `rest` may use `c` elements. -/
theorem disciplined_after (d : Dims) (f : Fam) (pre rest : List WFun) (a : WFun) (c : Nat)
    (hp : ∀ g ∈ pre, Fit 0 none (onFam f (g.ops d))) (ha : Fit 0 none (onFam f (a.ops d)))
    (hc : ∀ s past, c ≤ reserved (WS.trace s past (onFam f (a.ops d))).2)
    (hrest : ∀ g ∈ rest, Fit c none (onFam f (g.ops d))) :
    Disciplined (WS.trace WS.init [] (runOn d f (pre ++ a :: rest))).2 := by
  have hpre : Fit 0 none (runOn d f (pre ++ [a])) :=
    fit_runOn d 0 f _ fun g hg => by
      rcases List.mem_append.1 hg with h | h
      · exact hp g h
      · rw [List.mem_singleton.1 h]; exact ha
  have e : pre ++ a :: rest = (pre ++ [a]) ++ rest := by simp
  rw [e, runOn_append, trace_append]
  refine fit_disciplined (fit_runOn d c f rest hrest) _ _
    (fit_disciplined hpre _ _ trivial (Nat.zero_le _) rfl) ?_ (fit_held hpre _ _ rfl)
  rw [runOn_append, trace_append]
  simpa [runOn] using hc _ _

/-- C74 for the Lanczos step of the complex mode: once the inverse matrices have been computed from scratch
(`CalculateMAll_fcmp`, the start of every chain), the per-thread complex blocks of all functions, including
`calHCACA2`, stay in bounds, provided `NQPFull + 4*Nsize` (and the RBM counts) fit into
`Nsize*Nsize + LapackLWork`. Without that condition see `C74_calHCACA2_violated`. -/
theorem C74_lanczos_partial (d : Dims) (hr : d.rbm = false → d.phys = 0)
    (hs : d.nQP + 4 * d.nSize + d.rbmSize ≤ d.nSize * d.nSize + d.lwork) (pre rest : List WFun)
    (hk : ∀ g ∈ pre, g.Keeps .tCplx) (now : List WSOp)
    (hn : now <+: runOn d .tCplx (pre ++ .mAll :: rest)) :
    let r := WS.trace WS.init [] now
    (held r.2).Pairwise Apart ∧ ∀ b ∈ held r.2, b.1 = r.1.base ∧ b.2.1 + b.2.2 ≤ r.1.num := by
  refine C05_blocks_disjoint_in_bounds now (disciplined_prefix hn
    (disciplined_after d .tCplx pre rest .mAll (d.nSize * d.nSize + d.lwork) (fun g hg => fit_ops d hr 0 _ g (hk g hg))
      (fit_ops d hr 0 _ _ trivial) ?_ ?_))
  · intro s past
    simp only [WFun.ops, useMAll, onFam, rq, gt, rl]
    simp [WS.trace, reserved]
  · intro g _
    cases g with
    | hCACA2 k => exact fit_HCACA2 d k _ hs
    | _ => exact fit_ops d hr _ _ _ (by simp [WFun.Keeps])

/-- C74 for the Lanczos step of the real mode. -/
theorem C74_lanczos_real_partial (d : Dims) (hr : d.rbm = false → d.phys = 0)
    (hs : d.nQP + 4 * d.nSize ≤ d.nSize * d.nSize + d.lwork) (pre rest : List WFun)
    (hk : ∀ g ∈ pre, g.Keeps .tDbl) (hk' : ∀ g ∈ rest, g = .hCACA2Real ∨ g.Keeps .tDbl) (now : List WSOp)
    (hn : now <+: runOn d .tDbl (pre ++ .mAllReal :: rest)) :
    let r := WS.trace WS.init [] now
    (held r.2).Pairwise Apart ∧ ∀ b ∈ held r.2, b.1 = r.1.base ∧ b.2.1 + b.2.2 ≤ r.1.num := by
  refine C05_blocks_disjoint_in_bounds now (disciplined_prefix hn
    (disciplined_after d .tDbl pre rest .mAllReal (d.nSize * d.nSize + d.lwork) (fun g hg => fit_ops d hr 0 _ g (hk g hg))
      (fit_ops d hr 0 _ _ trivial) ?_ ?_))
  · intro s past
    simp only [WFun.ops, useMAllReal, onFam, rq, gt, rl]
    simp [WS.trace, reserved]
  · intro g hg
    rcases hk' g hg with rfl | h
    · exact fit_HCACA2Real d _ hs
    · exact fit_ops d hr _ _ _ h

/-! ## The functions that break the rule -/

/-- Capacity after a history, when no request exceeds `M`. -/
theorem trace_num_le (M : Nat) (l : List WSOp) (h : ∀ n, WSOp.request n ∈ l → n ≤ M) (s : WS)
    (past : List Event) (hs : s.num ≤ M) : (WS.trace s past l).1.num ≤ M := by
  induction l generalizing s past with
  | nil => exact hs
  | cons op l ih =>
    cases op with
    | request n =>
      refine ih (fun m hm => h m (by simp [hm])) _ _ ?_
      unfold WS.request
      split
      · exact h n (by simp)
      · exact hs
    | get n => exact ih (fun m hm => h m (by simp [hm])) _ _ hs
    | release => exact ih (fun m hm => h m (by simp [hm])) _ _ hs

/-- All requests of a sequence of calls are at most `M`. -/
theorem runOn_request_le (d : Dims) (f : Fam) (M : Nat) (calls : List WFun)
    (h : ∀ g ∈ calls, ∀ n, WSOp.request n ∈ onFam f (g.ops d) → n ≤ M) :
    ∀ n, WSOp.request n ∈ runOn d f calls → n ≤ M := by
  induction calls with
  | nil => intro n hn; simp [runOn, onFam] at hn
  | cons g calls ih =>
    intro n hn
    rw [runOn_cons, List.mem_append] at hn
    rcases hn with hn | hn
    · exact h g (by simp) n hn
    · exact ih (fun x hx => h x (by simp [hx])) n hn

theorem mem_onFam (f : Fam) (l : List WCall) (op : WSOp) : op ∈ onFam f l ↔ (f, op) ∈ l := by
  simp [onFam]

theorem children_no_request (d : Dims) (k : Nat) (f : Fam) (n : Nat) :
    (f, WSOp.request n) ∉ useChildren d k := by
  intro h
  have := List.eq_of_mem_replicate h
  simp [gt] at this

/-- Not one of the back-flow functions (their inputs are rejected, C39). -/
def WFun.NoBF : WFun → Prop
  | .bf _ => False
  | _ => True

/-- **The unchanged code violates C74.** `calHCACA2` (second-order terms of the Lanczos step) requests
`NQPFull+3*Nsize` complex numbers per thread and takes `NQPFull+4*Nsize`. Whenever this does not happen to fit
into the `Nsize*Nsize+LapackLWork` numbers requested by `CalculateMAll_fcmp`, the block ends behind the
allocated memory, whatever was called before. (`lslocgrn.c:664,702`) -/
theorem C74_calHCACA2_violated (d : Dims) (hr : d.rbm = false) (hp : d.phys = 0) (hne : d.neuron = 0)
    (h0 : 0 < d.nSize) (hq : 0 < d.nQP)
    (hs : d.nSize * d.nSize + d.lwork < d.nQP + 4 * d.nSize) (calls : List WFun)
    (hk : ∀ g ∈ calls, g.NoBF) (k : Nat) :
    let r := WS.trace WS.init [] (runOn d .tCplx calls ++ onFam .tCplx (useHCACA2Body d k))
    ∃ b ∈ held r.2, r.1.num < b.2.1 + b.2.2 := by
  intro r
  have e : r = WS.trace (WS.trace WS.init [] (runOn d .tCplx calls)).1
      (WS.trace WS.init [] (runOn d .tCplx calls)).2
      [.request (d.nQP + 3 * d.nSize), .get (d.nQP + 4 * d.nSize)] := by
    show WS.trace _ _ _ = _
    rw [trace_append]
    congr 1
    simp only [useHCACA2Body, onFam_append, onFam_children, ne_eq, reduceCtorEq, not_false_eq_true]
    simp [gtRbm, Dims.rbmSize, onFam, rq, gt, hr]
  have hM : (WS.trace WS.init [] (runOn d .tCplx calls)).1.num ≤ d.nQP + 4 * d.nSize - 1 := by
    refine trace_num_le _ _ (runOn_request_le d _ _ _ ?_) _ _ (Nat.zero_le _)
    intro g hg n hn
    rw [mem_onFam] at hn
    have hb := hk g hg
    cases g <;> (try rename_i c; cases c) <;>
      simp [WFun.ops, thrNum, useBuf, useCalGrn, useFsz, useHam1Fsz, useCalHam, useHam1, useHam2,
        useMAll, useMAllReal, useUpdate, useUpdateTwo, useHCA1, useHCA1Real, useHCA2Real, useGF2, useHCA2,
        useHCACA2, useHCACA2Body, useHCACA1, useHCACA1Real, useHCACA2Real, useHCACA2RealBody, useSlaterDiff,
        useSlaterBFDiff, useBackFlowDiff, useQPWeight, useStcOpt, useStcOptDiag, gtRbm, Dims.rbmSize, hr,
        hp, hne, rq, gt, rl, children_no_request, WFun.NoBF] at hn hb <;> omega
  generalize (WS.trace WS.init [] (runOn d .tCplx calls)).1 = s at e hM
  refine ⟨((s.request (d.nQP + 3 * d.nSize)).base, (s.request (d.nQP + 3 * d.nSize)).cur,
    d.nQP + 4 * d.nSize), ?_, ?_⟩
  · rw [e]; simp [WS.trace, held, WS.get]
  · have : r.1.num ≤ d.nQP + 4 * d.nSize - 1 := by
      rw [e]
      refine trace_num_le _ _ ?_ _ _ hM
      intro n hn
      simp at hn
      omega
    show r.1.num < _ + (d.nQP + 4 * d.nSize)
    omega

/-- The same in the real mode. (`lslocgrn_real.c:636,671`) -/
theorem C74_calHCACA2_real_violated (d : Dims) (h0 : 0 < d.nSize) (hq : 0 < d.nQP)
    (hs : d.nSize * d.nSize + d.lwork < d.nQP + 4 * d.nSize) (calls : List WFun)
    (hk : ∀ g ∈ calls, g.NoBF) :
    let r := WS.trace WS.init [] (runOn d .tDbl calls ++ onFam .tDbl (useHCACA2RealBody d))
    ∃ b ∈ held r.2, r.1.num < b.2.1 + b.2.2 := by
  intro r
  have e : r = WS.trace (WS.trace WS.init [] (runOn d .tDbl calls)).1
      (WS.trace WS.init [] (runOn d .tDbl calls)).2
      [.request (d.nQP + 3 * d.nSize), .get (d.nQP + 4 * d.nSize)] := by
    show WS.trace _ _ _ = _
    rw [trace_append]
    congr 1
  have hM : (WS.trace WS.init [] (runOn d .tDbl calls)).1.num ≤ d.nQP + 4 * d.nSize - 1 := by
    refine trace_num_le _ _ (runOn_request_le d _ _ _ ?_) _ _ (Nat.zero_le _)
    intro g hg n hn
    rw [mem_onFam] at hn
    have hb := hk g hg
    cases hr : d.rbm <;> cases g <;> (try rename_i c; cases c) <;>
      simp [WFun.ops, thrNum, useBuf, useCalGrn, useFsz, useHam1Fsz, useCalHam, useHam1, useHam2,
        useMAll, useMAllReal, useUpdate, useUpdateTwo, useHCA1, useHCA1Real, useHCA2Real, useGF2, useHCA2,
        useHCACA2, useHCACA2Body, useHCACA1, useHCACA1Real, useHCACA2Real, useHCACA2RealBody, useSlaterDiff,
        useSlaterBFDiff, useBackFlowDiff, useQPWeight, useStcOpt, useStcOptDiag, gtRbm, Dims.rbmSize, hr,
        rq, gt, rl, children_no_request, WFun.NoBF] at hn hb <;> omega
  generalize (WS.trace WS.init [] (runOn d .tDbl calls)).1 = s at e hM
  refine ⟨((s.request (d.nQP + 3 * d.nSize)).base, (s.request (d.nQP + 3 * d.nSize)).cur,
    d.nQP + 4 * d.nSize), ?_, ?_⟩
  · rw [e]; simp [WS.trace, held, WS.get]
  · have : r.1.num ≤ d.nQP + 4 * d.nSize - 1 := by
      rw [e]
      refine trace_num_le _ _ ?_ _ _ hM
      intro n hn
      simp at hn
      omega
    show r.1.num < _ + (d.nQP + 4 * d.nSize)
    omega

-- eight electrons, 1024 projections, the workspace 64*Nsize of the reference LAPACK: after a Hamiltonian
-- and the inverse matrices the capacity is 1048 and `calHCACA2` takes 1056
example :
    let d : Dims := ⟨1024, 8, 16, 32, 3, 0, 40, 16, 8, 512, false, 0, 0⟩
    let r := WS.trace WS.init [] (runOn d .tCplx [.mAll, .calHam] ++ onFam .tCplx (useHCACA2Body d 0))
    r.1.num = 1048 ∧ held r.2 = [(3, 0, 1056)] := by decide +kernel

theorem trace_children (m n : Nat) (s : WS) (past : List Event) :
    let r := WS.trace s past (List.replicate (m + 1) (.get n))
    r.1.num = s.num ∧ ∃ b ∈ held r.2, b.2.1 + b.2.2 = s.cur + (m + 1) * n := by
  induction m generalizing s past with
  | zero => exact ⟨rfl, (s.base, s.cur, n), by simp [WS.trace, held, WS.get], by simp⟩
  | succ m ih =>
    obtain ⟨h1, b, hb, e⟩ := ih (s.get n).1 (.take n (s.get n).2.base (s.get n).2.off :: past)
    refine ⟨h1, b, hb, ?_⟩
    rw [e]
    show s.cur + n + _ = _
    ring

/-- **The unchanged code violates C74 on the per-thread doubles.** Every Pfaffian of three or more hops of the
complex mode takes `LapackLWork` doubles inside the parallel region and none of them is given back. From the
second one on the block lies behind the memory (`LapackLWork` numbers, requested by `CalculateMAll_fcmp`). The
Pfaffian routine does not use this array, so the pointer is never followed. (`locgrn.c:342`) -/
theorem C74_rwork_violated (d : Dims) (hl : 0 < d.lwork) (k : Nat) :
    let r := WS.trace WS.init [] (runOn d .tDbl [.mAll, .calHam] ++ onFam .tDbl (useChildren d (k + 2)))
    ∃ b ∈ held r.2, r.1.num < b.2.1 + b.2.2 := by
  intro r
  have e : r = WS.trace (WS.trace WS.init [] (runOn d .tDbl [.mAll, .calHam])).1
      (WS.trace WS.init [] (runOn d .tDbl [.mAll, .calHam])).2 (List.replicate (k + 1 + 1) (.get d.lwork)) := by
    show WS.trace _ _ _ = _
    rw [trace_append]
    congr 1
    simp [onFam, useChildren, gt]
  have hn : (WS.trace WS.init [] (runOn d .tDbl [.mAll, .calHam])).1.num ≤ d.lwork := by
    refine trace_num_le _ _ (runOn_request_le d _ _ _ ?_) _ _ (Nat.zero_le _)
    intro g hg n hn
    rw [mem_onFam] at hn
    simp only [List.mem_cons, List.not_mem_nil, or_false] at hg
    rcases hg with rfl | rfl
    · simp [WFun.ops, useMAll, rq, gt, rl] at hn; omega
    · cases hr : d.rbm <;> simp [WFun.ops, useCalHam, gtRbm, rq, gt, rl, hr] at hn
  obtain ⟨h1, b, hb, h2⟩ := trace_children (k + 1) d.lwork
    (WS.trace WS.init [] (runOn d .tDbl [.mAll, .calHam])).1
    (WS.trace WS.init [] (runOn d .tDbl [.mAll, .calHam])).2
  rw [← e] at h1 hb
  refine ⟨b, hb, ?_⟩
  rw [h1, h2, Nat.add_mul, Nat.add_mul]
  omega

-- non-vacuity of C74_blocks: a measurement with Lanczos step up to the middle of the nested Hamiltonian;
-- the old inverse and Pfaffian are held on the complex stack while the per-thread stack is used
example :
    let d : Dims := ⟨2, 4, 4, 8, 3, 0, 40, 1, 2, 256, true, 4, 2⟩
    held (WS.trace WS.init [] (onFam .cplx ((useHCA1 d).take 16))).2 = [(1, 34, 6), (1, 32, 2), (1, 0, 32)]
    ∧ held (WS.trace WS.init [] (onFam .tCplx ((useHCA1 d).take 16))).2 = [(2, 0, 6)] := by decide +kernel

end MVMC
