import Mathlib.Algebra.BigOperators.Fin
import Mathlib.Data.Fintype.Basic
import Verif.Model.PfSampler
import Verif.Model.SplitLoop

/-!
# The sampler as it runs on several MPI processes

`/repo/src/mVMC/vmcmake.c:45-425`: the processes of `comm` (`comm1` of `main`) sample *one* Markov chain together. Each
process holds its own electron tables, its own random number generator and the Pfaffians of its own share of the
projections; the shares are combined with `MPI_Allreduce`.
-/
namespace MVMC

/-- What one process does, as far as the other processes can see it: it finishes, it runs out of the given random numbers
(an unfinished execution), it calls `MPI_Abort`, or it enters `MPI_Allreduce` with its contribution and goes on with the
result. Source: `/repo/src/mVMC/vmcmake.c:45-425`, `/repo/src/mVMC/qp.c:87-127`. -/
inductive Prog (K α : Type) : Type
  | ret (a : α)
  | stuck
  | abort
  | allSum (x : K) (k : K → Prog K α)
  | allMax (x : Int) (k : Int → Prog K α)

/-- sequential composition (`;` of C). Source: `/repo/src/mVMC/vmcmake.c:45-357`. -/
def Prog.bind {K α β : Type} : Prog K α → (α → Prog K β) → Prog K β
  | .ret a, f => f a
  | .stuck, _ => .stuck
  | .abort, _ => .abort
  | .allSum x k, f => .allSum x (fun s => (k s).bind f)
  | .allMax x k, f => .allMax x (fun s => (k s).bind f)

/-- Outcome of a joint execution; `mismatch`: the processes are not at the same kind of operation, so that one of them
waits for ever. Source: the MPI standard (collective operations), used at `/repo/src/mVMC/qp.c:87-127`. -/
inductive JOut (n : Nat) (α : Type) : Type
  | done (as : Fin n → α)
  | stuck
  | abort
  | mismatch

/-- the result of a process that has finished (no `/repo` function: part of the semantics of `MPI_Allreduce`,
`/repo/src/mVMC/qp.c:120`) -/
def Prog.asRet {K α : Type} : Prog K α → Option α
  | .ret a => some a
  | _ => none

/-- the contribution and the continuation of a process that waits in a sum (`/repo/src/mVMC/qp.c:120`) -/
def Prog.asSum {K α : Type} : Prog K α → Option (K × (K → Prog K α))
  | .allSum x k => some (x, k)
  | _ => none

/-- the same for a maximum (`/repo/src/mVMC/vmcmake.c:414`) -/
def Prog.asMax {K α : Type} : Prog K α → Option (Int × (Int → Prog K α))
  | .allMax x k => some (x, k)
  | _ => none

/-- whether a process has stopped for lack of random numbers / by `MPI_Abort` (`/repo/src/mVMC/vmcmake.c:418-421`) -/
def Prog.isStuck {K α : Type} : Prog K α → Bool
  | .stuck => true
  | _ => false

/-- see `Prog.isStuck` (`/repo/src/mVMC/vmcmake.c:418-421`) -/
def Prog.isAbort {K α : Type} : Prog K α → Bool
  | .abort => true
  | _ => false

/-- all processes are at an operation of the same kind (`/repo/src/mVMC/qp.c:120`) -/
def collect {n : Nat} {β : Type} (f : Fin n → Option β) : Option (Fin n → β) :=
  if h : ∀ i, (f i).isSome = true then some (fun i => (f i).get (h i)) else none

/-- Joint execution of process 0 (`p0`) and the `n` other processes: a reduction takes place when *all* processes are in
it, and all of them get the same result. Source: `MPI_Allreduce` at `/repo/src/mVMC/qp.c:120`, `/repo/src/mVMC/vmcmake.c:414`. -/
def joint {K α : Type} [AddCommMonoid K] {n : Nat} : Prog K α → (Fin n → Prog K α) → JOut (n + 1) α
  | .ret a, ps =>
    match collect (fun i => (ps i).asRet) with
    | some as => .done (Fin.cons a as)
    | none => .mismatch
  | .stuck, ps => if ∀ i, (ps i).isStuck = true then .stuck else .mismatch
  | .abort, ps => if ∀ i, (ps i).isAbort = true then .abort else .mismatch
  | .allSum x k, ps =>
    match collect (fun i => (ps i).asSum) with
    | some xs => joint (k (x + ∑ i, (xs i).1)) (fun i => (xs i).2 (x + ∑ i, (xs i).1))
    | none => .mismatch
  | .allMax x k, ps =>
    match collect (fun i => (ps i).asMax) with
    | some xs => joint (k (Finset.univ.fold max x (fun i => (xs i).1))) (fun i => (xs i).2 (Finset.univ.fold max x (fun i => (xs i).1)))
    | none => .mismatch

/-- Joint execution of all processes of a communicator (`/repo/src/mVMC/vmcmake.c:45-425`). -/
def runRanks {K α : Type} [AddCommMonoid K] {n : Nat} (ps : Fin (n + 1) → Prog K α) : JOut (n + 1) α :=
  joint (ps 0) (fun i => ps i.succ)

/-- `if(size>1) MPI_Allreduce(…,MPI_SUM,comm)` (`/repo/src/mVMC/qp.c:119-122`). -/
def reduceSum {K : Type} (size : Nat) (x : K) : Prog K K :=
  if size > 1 then .allSum x .ret else .ret x

/-- `if(size>1) { MPI_Allreduce(&flag,&flagRdc,1,MPI_INT,MPI_MAX,comm); flag = flagRdc; }`
(`/repo/src/mVMC/vmcmake.c:413-416`). -/
def reduceMax {K : Type} (size : Nat) (x : Int) : Prog K Int :=
  if size > 1 then .allMax x .ret else .ret x

/-- The computations that differ from process to process because they concern only the projections `qpStart … qpEnd-1`;
`ρ`: the arrays `PfM`, `InvM`; `π`: `pfMNew`.
`newHop`: `CalculateNewPfM2`; `newExch`: `CalculateNewPfMTwo2_fcmp`; `updHop`: `UpdateMAll`; `updExch`: `UpdateMAllTwo_fcmp`;
`mAll`: `CalculateMAll_fcmp` with its status; `ipNew`, `ipCur`: the loop of `CalculateLogIP_fcmp` over `pfMNew` and `PfM`.
Source: `/repo/src/mVMC/vmcmake.c:111,178-186,204,263-269,287,323-326,411`. -/
structure LocalOps (ρ π K : Type) where
  newHop : EleCfg → Hop → ρ → π
  newExch : EleCfg → Hop → Hop → ρ → π
  updHop : EleCfg → Hop → ρ → ρ
  updExch : EleCfg → Hop → Hop → ρ → ρ
  mAll : EleCfg → ρ → ρ × Int
  ipNew : π → K
  ipCur : ρ → K

/-- The computations that are the same on every process: they depend on the tables and on the parameters, which
`SyncModifiedParameter` broadcasts. `δ`: `eleProjCnt` and `rbmCnt`. `mkCnt`: `MakeProjCnt`, `MakeRBMCnt`; `reCnt`: only `MakeRBMCnt`
(after `copyFromBurnSample`); `updCnt`: `UpdateProjCnt`, `UpdateRBMCnt`; `finite`: `isfinite(creal(logIp)+cimag(logIp))`;
`accept new old ipNew ipOld u`: `w > genrand_real2()` with `w = exp(2 Re(x+logIpNew-logIpOld))`, `-1` when it is not finite.
Source: `/repo/src/mVMC/vmcmake.c:70-80,115,163-200`. -/
structure ShOps (δ K : Type) where
  mkCnt : EleCfg → δ
  reCnt : EleCfg → δ → δ
  updCnt : Hop → EleCfg → δ → δ
  finite : K → Bool
  accept : δ → δ → K → K → Nat → Bool

/-- what a process keeps besides the electron tables: counts, its arrays, `logIpOld`
(`/repo/src/mVMC/vmcmake.c:45-72`). -/
structure RB (δ ρ K : Type) where
  cnt : δ
  loc : ρ
  ip : K

section
variable {δ ρ π K : Type}

/-- `if(nAccept>Nsite) {…}` (`/repo/src/mVMC/vmcmake.c:308-329`). -/
def maybeRefreshR (size : Nat) (L : LocalOps ρ π K) (p : SamplerPar) (st : SState (RB δ ρ K)) :
    Prog K (SState (RB δ ρ K)) :=
  if st.nAccept > p.Nsite then
    (reduceSum size (L.ipCur (L.mAll st.c st.b.loc).1)).bind fun ip =>
      .ret { st with b := ⟨st.b.cnt, (L.mAll st.c st.b.loc).1, ip⟩, nAccept := 0 }
  else .ret st

/-- One iteration of the inner loop (`/repo/src/mVMC/vmcmake.c:147-330`) on one process. -/
def innerStepR (size : Nat) (L : LocalOps ρ π K) (S : ShOps δ K) (p : SamplerPar) (st : SState (RB δ ρ K)) (r : List Nat) :
    Prog K (SState (RB δ ρ K) × List Nat) :=
  match getUpdateType p.exPath false 0 r with
  | none => .stuck
  | some (.hopping, r) =>
    let st := { st with hopTry := st.hopTry + 1 }
    match makeCandidateHopping p st.c r with
    | none => .stuck
    | some ((_, true), r) => .ret (st, r)                       -- `continue`
    | some ((h, false), r) =>
      let c' := updateEleConfig p h st.c
      let cnt' := S.updCnt h c' st.b.cnt
      (reduceSum size (L.ipNew (L.newHop c' h st.b.loc))).bind fun ip =>
      match r with
      | [] => .stuck
      | u :: r =>
        if S.accept cnt' st.b.cnt ip st.b.ip u then
          (maybeRefreshR size L p { st with c := c', b := ⟨cnt', L.updHop c' h st.b.loc, ip⟩,
                                            nAccept := st.nAccept + 1, hopAcc := st.hopAcc + 1 }).bind fun st => .ret (st, r)
        else
          (maybeRefreshR size L p { st with c := revertEleConfig p h c' }).bind fun st => .ret (st, r)
  | some (.exchange, r) =>
    let st := { st with exTry := st.exTry + 1 }
    match makeCandidateExchange p st.c r with
    | none => .stuck
    | some (none, r) => .ret (st, r)                            -- `continue`
    | some (some h, r) =>
      let h2 := partnerHop p st.c h
      let c1 := updateEleConfig p h st.c
      let c' := updateEleConfig p h2 c1
      let cnt' := S.updCnt h2 c' (S.updCnt h c1 st.b.cnt)
      (reduceSum size (L.ipNew (L.newExch c' h h2 st.b.loc))).bind fun ip =>
      match r with
      | [] => .stuck
      | u :: r =>
        if S.accept cnt' st.b.cnt ip st.b.ip u then
          (maybeRefreshR size L p { st with c := c', b := ⟨cnt', L.updExch c' h h2 st.b.loc, ip⟩,
                                            nAccept := st.nAccept + 1, exAcc := st.exAcc + 1 }).bind fun st => .ret (st, r)
        else
          (maybeRefreshR size L p { st with c := revertEleConfig p h (revertEleConfig p h2 c') }).bind fun st => .ret (st, r)
  | some (_, r) => (maybeRefreshR size L p st).bind fun st => .ret (st, r)

/-- `for(inStep=0;inStep<nInStep;inStep++)` (`/repo/src/mVMC/vmcmake.c:147-330`). -/
def innerLoopR (size : Nat) (L : LocalOps ρ π K) (S : ShOps δ K) (p : SamplerPar) :
    Nat → SState (RB δ ρ K) → List Nat → Prog K (SState (RB δ ρ K) × List Nat)
  | 0, st, r => .ret (st, r)
  | n + 1, st, r => (innerStepR size L S p st r).bind fun x => innerLoopR size L S p n x.1 x.2

/-- Outer loop (`/repo/src/mVMC/vmcmake.c:146-343`). -/
def outerLoopR (size : Nat) (L : LocalOps ρ π K) (S : ShOps δ K) (p : SamplerPar) (nInStep nOutStep nSample : Nat) :
    (left outStep : Nat) → SState (RB δ ρ K) → List (Nat × SState (RB δ ρ K)) → List Nat →
    Prog K (SState (RB δ ρ K) × List (Nat × SState (RB δ ρ K)) × List Nat)
  | 0, _, st, saved, r => .ret (st, saved, r)
  | left + 1, outStep, st, saved, r =>
    (innerLoopR size L S p nInStep st r).bind fun x =>
      outerLoopR size L S p nInStep nOutStep nSample left (outStep + 1) x.1
        (if outStep ≥ nOutStep - nSample then (outStep - (nOutStep - nSample), x.1) :: saved else saved) x.2

/-- `makeInitialSample` (`/repo/src/mVMC/vmcmake.c:359-425`) on one process; `left` as in `makeInitialSample`. -/
def makeInitR (size : Nat) (L : LocalOps ρ π K) (p : SamplerPar) : Nat → ρ → List Nat → Prog K (EleCfg × ρ × List Nat)
  | 0, loc, r =>
    match initialPass p r with
    | none => .stuck
    | some (c, _) => (reduceMax size (L.mAll c loc).2).bind fun _ => .abort
  | left + 1, loc, r =>
    match initialPass p r with
    | none => .stuck
    | some (c, r) =>
      (reduceMax size (L.mAll c loc).2).bind fun flag =>
        if flag > 0 then makeInitR size L p left (L.mAll c loc).1 r else .ret (c, (L.mAll c loc).1, r)

/-- The start of `VMCMakeSample` up to the loops (`/repo/src/mVMC/vmcmake.c:68-138`): a new configuration or the one of the
burn buffer `bc`, `bcnt`; a second attempt when the inner product is not finite, which also clears `BurnFlag`. -/
def startR (size : Nat) (L : LocalOps ρ π K) (S : ShOps δ K) (p : SamplerPar) (burn : Bool) (bc : EleCfg) (bcnt : δ) (loc : ρ)
    (r : List Nat) : Prog K ((EleCfg × RB δ ρ K) × Bool × List Nat) :=
  ((if burn = false then (makeInitR size L p 100 loc r).bind fun x => .ret (x.1, S.mkCnt x.1, x.2.1, x.2.2)
    else .ret (bc, S.reCnt bc bcnt, loc, r)) : Prog K (EleCfg × δ × ρ × List Nat)).bind fun x =>
  (reduceSum size (L.ipCur (L.mAll x.1 x.2.2.1).1)).bind fun ip =>
  if S.finite ip then .ret ((x.1, ⟨x.2.1, (L.mAll x.1 x.2.2.1).1, ip⟩), burn, x.2.2.2)
  else
    (makeInitR size L p 100 (L.mAll x.1 x.2.2.1).1 x.2.2.2).bind fun y =>
    (reduceSum size (L.ipCur (L.mAll y.1 y.2.1).1)).bind fun ip =>
    .ret ((y.1, ⟨S.mkCnt y.1, (L.mAll y.1 y.2.1).1, ip⟩), false, y.2.2)

/-- `VMCMakeSample` (`/repo/src/mVMC/vmcmake.c:45-357`) on one process of a communicator of `size` processes: the final state (whose
tables and counts go to the burn buffer), the stored samples and the remaining random numbers. -/
def sampleR (size : Nat) (L : LocalOps ρ π K) (S : ShOps δ K) (p : SamplerPar) (burn : Bool) (warmUp nSample interval : Nat)
    (bc : EleCfg) (bcnt : δ) (loc : ρ) (r : List Nat) :
    Prog K (SState (RB δ ρ K) × List (Nat × SState (RB δ ρ K)) × List Nat) :=
  (startR size L S p burn bc bcnt loc r).bind fun x =>
    outerLoopR size L S p (interval * p.Nsite) (nOutStep x.2.1 warmUp nSample) nSample (nOutStep x.2.1 warmUp nSample) 0
      ⟨x.1.1, x.1.2, 0, 0, 0, 0, 0⟩ [] x.2.2

end

/-- The Pfaffian computations of the process that has the projections `qpStart … qpEnd-1` (without `_pf_block_update`). A failed
factorisation leaves unspecified contents (`junk`) and a positive status.
Source: `/repo/src/mVMC/vmcmake.c:111,178-186,204,263-269,287,323-326,411`. -/
def pfLocal {K : Type} [Field K] (p : SamplerPar) (lib : SkLib K) (slt w : Nat → K) (junk : EleCfg → PfState K → PfState K)
    (qp : Nat × Nat) : LocalOps (PfState K) (Nat → K) K where
  newHop c' h st := calculateNewPfM p.pf slt h.mi h.s c'.idx qp.1 st
  newExch c' h h2 st := calculateNewPfMTwo p.pf slt h.mi h.s h2.mi h2.s c'.idx qp.1 st
  updHop c' h st := updateMAll p.pf slt h.mi h.s c'.idx qp.1 qp.2 st
  updExch c' h h2 st := updateMAllTwo p.pf slt h.mi h.s h2.mi h2.s h.ri c'.idx qp.1 qp.2 st
  mAll c st :=
    match calculateMAll p.pf lib slt qp.1 qp.2 (rsSz p.pf c.idx) st with
    | some st' => (st', 0)
    | none => (junk c st, 1)
  ipNew pfMNew := calculateIPLocal w pfMNew qp.1 qp.2
  ipCur st := calculateIPLocal w st.pfM qp.1 qp.2

/-- With `_pf_block_update` every process keeps one updater per projection (`updated_tdi_v_init_z(NQPFull,…)`) and
`updated_tdi_v_get_pfa_z(NQPFull, pfMNew, …)` writes the Pfaffian of projection `q` to `pfMNew[q]` for all `q < NQPFull`, while
`CalculateLogIP_fcmp(pfMNew,qpStart,qpEnd,comm)` takes `pfMNew[0]` for projection `qpStart`. `pf q c` is the Pfaffian of
projection `q` at the configuration `c` (that the updaters deliver it is C63); the local state is the configuration of the updaters.
Source: `/repo/src/mVMC/vmcmake.c:83-110,173-186,256-269,311-326`. -/
def blockLocal {K : Type} [Field K] (pf : Nat → EleCfg → K) (w : Nat → K) (qp : Nat × Nat) : LocalOps EleCfg (Nat → K) K where
  newHop c' _ _ := fun q => pf q c'
  newExch c' _ _ _ := fun q => pf q c'
  updHop c' _ _ := c'
  updExch c' _ _ _ := c'
  mAll c _ := (c, 0)
  ipNew pfMNew := calculateIPLocal w pfMNew qp.1 qp.2
  ipCur c := calculateIPLocal w (fun q => pf q c) qp.1 qp.2

end MVMC
