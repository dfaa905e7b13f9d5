import Verif.Model.LocGrn

/-!
# Model of the local energy and of the measured Green functions

`/repo/src/mVMC/calham.c`, `/repo/src/mVMC/calham_fsz.c`, `/repo/src/mVMC/calgrn.c`, `/repo/src/mVMC/calgrn_fsz.c`.

An OpenMP work-sharing loop is modelled by an arbitrary assignment `sched loop idx` of iterations to threads; a thread runs
its iterations in increasing order on its private copy of the electron tables. Private copies are filled entry by entry over
arbitrary old workspace content. The reduction adds the threads' partial sums in an arbitrary order. Exact arithmetic.
-/
namespace MVMC

/-- The Hamiltonian tables (`/repo/src/mVMC/include/global.h:94-120`). -/
structure HamPar where
  nCI : Nat
  ci : Nat → Nat
  pCI : Nat → ℝ
  nCO : Nat
  co : Nat → Nat → Nat
  pCO : Nat → ℝ
  nHU : Nat
  hu : Nat → Nat → Nat
  pHU : Nat → ℝ
  nTR : Nat
  tr : Nat → Nat → Nat
  pTR : Nat → ℂ
  nPH : Nat
  ph : Nat → Nat → Nat
  pPH : Nat → ℝ
  nEX : Nat
  ex : Nat → Nat → Nat
  pEX : Nat → ℝ
  nIA : Nat
  ia : Nat → Nat → Nat
  pIA : Nat → ℂ

/-- `#pragma omp for` seen by thread `τ`.
(`/repo/src/mVMC/calham.c:108,115,123,135,150,160,171`) -/
def ompFor {σ : Type} (sched : Nat → Nat) (τ n : Nat) (body : σ → Nat → σ) (st : σ) : σ :=
  (List.range n).foldl (fun st i => if sched i = τ then body st i else st) st

/-- `for(idx=0;idx<n;idx++) my[idx] = src[idx];` over old content `junk`.
(`/repo/src/mVMC/calham.c:88-99`) -/
def privCopy (n : Nat) (src junk : Arr) : Arr := (List.range n).foldl (fun a i => a.set i (src i)) junk

/-- private tables of a thread (`/repo/src/mVMC/calham.c:90-101`, `/repo/src/mVMC/calgrn.c:50-59`) -/
def privS (g : GrnEnv) (c junk : EleCfg) : EleCfg :=
  { idx := privCopy (2 * g.p.Ne) c.idx junk.idx, cfg := c.cfg, num := privCopy (2 * g.p.Nsite) c.num junk.num }

/-- private tables of a thread (`/repo/src/mVMC/calham_fsz.c:81-91`, `/repo/src/mVMC/calgrn_fsz.c:49-60`) -/
def privF (g : GrnEnv) (c junk : FCfg) : FCfg :=
  { idx := privCopy (2 * g.p.Ne) c.idx junk.idx, spn := privCopy (2 * g.p.Ne) c.spn junk.spn, cfg := c.cfg,
    num := privCopy (2 * g.p.Nsite) c.num junk.num }

/-- The loops that use number operators only (`/repo/src/mVMC/calham.c:112-135`, again at 212-233). -/
noncomputable def diagLoops (N : Nat) (H : HamPar) (sched : Nat → Nat → Nat) (τ : Nat) (num : Arr) (e : ℂ) : ℂ :=
  let n0 := fun r => num r
  let n1 := fun r => num (r + N)
  let e := ompFor (sched 0) τ H.nCI (fun e i => e + (H.pCI i : ℂ) * n0 (H.ci i) * n1 (H.ci i)) e
  let e := ompFor (sched 1) τ H.nCO (fun e i =>
    e + (H.pCO i : ℂ) * ((n0 (H.co i 0) + n1 (H.co i 0) : Int) : ℂ) * ((n0 (H.co i 1) + n1 (H.co i 1) : Int) : ℂ)) e
  ompFor (sched 2) τ H.nHU (fun e i =>
    e - (H.pHU i : ℂ) * ((n0 (H.hu i 0) * n0 (H.hu i 1) + n1 (H.hu i 0) * n1 (H.hu i 1) : Int) : ℂ)) e

/-- One thread of `CalculateHamiltonian` (`/repo/src/mVMC/calham.c:89-188`). -/
noncomputable def hamThread (g : GrnEnv) (H : HamPar) (sched : Nat → Nat → Nat) (τ : Nat) (junk : EleCfg) (ip : ℂ) (projCnt : Arr)
    (rbmCnt : Nat → ℂ) (c : EleCfg) : ℂ :=
  let my := privS g c junk
  let st := (diagLoops g.p.Nsite H sched τ c.num 0, my)
  let st := ompFor (sched 3) τ H.nTR (fun st i =>
    let x := greenFunc1 g (H.tr i 0) (H.tr i 2) (H.tr i 3) ip projCnt rbmCnt st.2
    (st.1 - H.pTR i * x.1, x.2)) st
  let st := ompFor (sched 4) τ H.nPH (fun st i =>
    let x := greenFunc2 g (H.ph i 0) (H.ph i 1) (H.ph i 0) (H.ph i 1) 0 1 ip projCnt rbmCnt st.2
    (st.1 + H.pPH i * x.1, x.2)) st
  let st := ompFor (sched 5) τ H.nEX (fun st i =>
    let x := greenFunc2 g (H.ex i 0) (H.ex i 1) (H.ex i 1) (H.ex i 0) 0 1 ip projCnt rbmCnt st.2
    let y := greenFunc2 g (H.ex i 0) (H.ex i 1) (H.ex i 1) (H.ex i 0) 1 0 ip projCnt rbmCnt x.2
    (st.1 + H.pEX i * (x.1 + y.1), y.2)) st
  let st := ompFor (sched 6) τ H.nIA (fun st i =>
    let x := greenFunc2 g (H.ia i 0) (H.ia i 2) (H.ia i 4) (H.ia i 6) (H.ia i 3) (H.ia i 7) ip projCnt rbmCnt st.2
    (st.1 + H.pIA i * x.1, x.2)) st
  st.1

/-- `CalculateHamiltonian` (`/repo/src/mVMC/calham.c:59-193`): the reduction adds the threads in the order `order`. -/
noncomputable def calculateHamiltonian (g : GrnEnv) (H : HamPar) (sched : Nat → Nat → Nat) (order : List Nat) (junk : Nat → EleCfg)
    (ip : ℂ) (projCnt : Arr) (rbmCnt : Nat → ℂ) (c : EleCfg) : ℂ :=
  order.foldl (fun e τ => e + hamThread g H sched τ (junk τ) ip projCnt rbmCnt c) 0

/-- `CalculateHamiltonian0` (`/repo/src/mVMC/calham.c:198-239`, `CalculateHamiltonian0_fsz` `/repo/src/mVMC/calham_fsz.c:202-243`). -/
noncomputable def calculateHamiltonian0 (N : Nat) (H : HamPar) (sched : Nat → Nat → Nat) (order : List Nat) (num : Arr) : ℂ :=
  order.foldl (fun e τ => e + diagLoops N H sched τ num 0) 0

/-- `CalculateDoubleOccupation` (`/repo/src/mVMC/calham.c:37-57`). -/
noncomputable def calculateDoubleOccupation (N : Nat) (sched : Nat → Nat) (order : List Nat) (num : Arr) : ℝ :=
  order.foldl (fun e τ => e + ompFor sched τ N (fun e ri => e + ((num ri * num (ri + N) : Int) : ℝ)) 0) 0

/-- `CalculateSz_fsz` (`/repo/src/mVMC/calham_fsz.c:32-45`), `2Sz` as a number. -/
noncomputable def calculateSzF (N : Nat) (num : Arr) : ℝ := (List.range N).foldl (fun z ri => z + ((num ri - num (ri + N) : Int) : ℝ)) 0

/-- One thread of `CalculateHamiltonian_fsz` (`/repo/src/mVMC/calham_fsz.c:74-192`). -/
noncomputable def hamThreadF (g : GrnEnv) (H : HamPar) (sched : Nat → Nat → Nat) (τ : Nat) (junk : FCfg) (ip : ℂ) (projCnt : Arr)
    (c : FCfg) : ℂ :=
  let my := privF g c junk
  let st := (diagLoops g.p.Nsite H sched τ c.num 0, my)
  let st := ompFor (sched 3) τ H.nTR (fun st i =>
    let x := if H.tr i 1 = H.tr i 3 then greenFunc1F g (H.tr i 0) (H.tr i 2) (H.tr i 1) ip projCnt st.2
      else greenFunc1F2 g (H.tr i 0) (H.tr i 2) (H.tr i 1) (H.tr i 3) ip projCnt st.2
    (st.1 - H.pTR i * x.1, x.2)) st
  let st := ompFor (sched 4) τ H.nPH (fun st i =>
    let x := greenFunc2F g (H.ph i 0) (H.ph i 1) (H.ph i 0) (H.ph i 1) 0 1 ip projCnt st.2
    (st.1 + H.pPH i * x.1, x.2)) st
  let st := ompFor (sched 5) τ H.nEX (fun st i =>
    let x := greenFunc2F g (H.ex i 0) (H.ex i 1) (H.ex i 1) (H.ex i 0) 0 1 ip projCnt st.2
    let y := greenFunc2F g (H.ex i 0) (H.ex i 1) (H.ex i 1) (H.ex i 0) 1 0 ip projCnt x.2
    (st.1 + H.pEX i * (x.1 + y.1), y.2)) st
  let st := ompFor (sched 6) τ H.nIA (fun st i =>
    let x := if H.ia i 1 = H.ia i 3 ∧ H.ia i 5 = H.ia i 7
      then greenFunc2F g (H.ia i 0) (H.ia i 2) (H.ia i 4) (H.ia i 6) (H.ia i 1) (H.ia i 5) ip projCnt st.2
      else greenFunc2F2 g (H.ia i 0) (H.ia i 2) (H.ia i 4) (H.ia i 6) (H.ia i 1) (H.ia i 3) (H.ia i 5) (H.ia i 7) ip projCnt st.2
    (st.1 + H.pIA i * x.1, x.2)) st
  st.1

/-- `CalculateHamiltonian_fsz` (`/repo/src/mVMC/calham_fsz.c:49-197`). -/
noncomputable def calculateHamiltonianF (g : GrnEnv) (H : HamPar) (sched : Nat → Nat → Nat) (order : List Nat) (junk : Nat → FCfg)
    (ip : ℂ) (projCnt : Arr) (c : FCfg) : ℂ :=
  order.foldl (fun e τ => e + hamThreadF g H sched τ (junk τ) ip projCnt c) 0

/-! ### measured Green functions -/

/-- Index tables of the measured operators (`/repo/src/mVMC/include/global.h:158-160`). -/
structure GrnTab where
  n1 : Nat
  t1 : Nat → Nat → Nat
  nDC : Nat
  tDC : Nat → Nat → Nat
  n2 : Nat
  t2 : Nat → Nat → Nat

/-- `PhysCisAjs`, `PhysCisAjsCktAlt`, `PhysCisAjsCktAltDC` and the local arrays.
(`/repo/src/mVMC/calgrn.c:32-60`) -/
structure GrnAcc where
  phys1 : Nat → ℂ
  phys2 : Nat → ℂ
  physDC : Nat → ℂ
  loc1 : Nat → ℂ
  locDC : Nat → ℂ

/-- Source: `/repo/src/mVMC/calgrn.c:72,89`. -/
def setC (a : Nat → ℂ) (i : Nat) (v : ℂ) : Nat → ℂ := fun k => if k = i then v else a k

/-- Part of `CalculateGreenFunc` before the barrier, one thread (`/repo/src/mVMC/calgrn.c:50-88`). -/
noncomputable def grnThread (g : GrnEnv) (T : GrnTab) (sched : Nat → Nat → Nat) (junk : Nat → EleCfg) (ip : ℂ) (projCnt : Arr)
    (rbmCnt : Nat → ℂ) (c : EleCfg) (a : GrnAcc) (τ : Nat) : GrnAcc :=
  let my := privS g c (junk τ)
  let st := (a, my)
  let st := ompFor (sched 0) τ T.n1 (fun st i =>
    let x := greenFunc1 g (T.t1 i 0) (T.t1 i 2) (T.t1 i 3) ip projCnt rbmCnt st.2
    ({ st.1 with loc1 := setC st.1.loc1 i x.1 }, x.2)) st
  let st := ompFor (sched 1) τ T.nDC (fun st i =>
    let x := greenFunc2 g (T.tDC i 0) (T.tDC i 2) (T.tDC i 4) (T.tDC i 6) (T.tDC i 1) (T.tDC i 5) ip projCnt rbmCnt st.2
    ({ st.1 with locDC := setC st.1.locDC i x.1 }, x.2)) st
  st.1

/-- Part of `CalculateGreenFunc` after the barrier (`/repo/src/mVMC/calgrn.c:93-111`). -/
noncomputable def accThread (T : GrnTab) (sched : Nat → Nat → Nat) (w : ℝ) (a : GrnAcc) (τ : Nat) : GrnAcc :=
  let a := ompFor (sched 2) τ T.n1 (fun a i => { a with phys1 := setC a.phys1 i (a.phys1 i + w * a.loc1 i) }) a
  let a := ompFor (sched 3) τ T.nDC (fun a i => { a with physDC := setC a.physDC i (a.physDC i + w * a.locDC i) }) a
  ompFor (sched 4) τ T.n2 (fun a i =>
    { a with phys2 := setC a.phys2 i (a.phys2 i + w * a.loc1 (T.t2 i 0) * (starRingEnd ℂ) (a.loc1 (T.t2 i 1))) }) a

/-- `CalculateGreenFunc` (`/repo/src/mVMC/calgrn.c:32-120`). Iterations touch only private tables and their own array cell, so
the threads of each phase are run one after the other, in any order; the implicit barrier of the second loop separates the
phases. -/
noncomputable def calculateGreenFunc (g : GrnEnv) (T : GrnTab) (sched : Nat → Nat → Nat) (order order' : List Nat)
    (junk : Nat → EleCfg) (w : ℝ) (ip : ℂ) (projCnt : Arr) (rbmCnt : Nat → ℂ) (c : EleCfg) (a : GrnAcc) : GrnAcc :=
  order'.foldl (accThread T sched w) (order.foldl (grnThread g T sched junk ip projCnt rbmCnt c) a)

/-! `CalculateGreenFunc_fsz` (`/repo/src/mVMC/calgrn_fsz.c:33-139`): the loop variables `t` (first loop) and `u`, `v` (second loop)
are declared outside the parallel region and missing in the `private` clauses, so all threads share them. The two loops are
therefore modelled by events: fetching the indices of an iteration (which stores the shared variables) and evaluating it. -/

/-- Source: `/repo/src/mVMC/calgrn_fsz.c:65-115`. -/
inductive GrnEv where
  | fetch1 (τ i : Nat)
  | eval1 (τ i : Nat)
  | fetch2 (τ i : Nat)
  | eval2 (τ i : Nat)
  deriving DecidableEq, Repr

/-- Shared variables `t`, `u`, `v`, the private tables and the private `t` of the second loop, and the arrays.
(`/repo/src/mVMC/calgrn_fsz.c:39-60`) -/
structure GrnFState where
  t : Nat
  u : Nat
  v : Nat
  my : Nat → FCfg
  acc : GrnAcc

/-- One event of the two loops (`/repo/src/mVMC/calgrn_fsz.c:66-112`). -/
noncomputable def grnStepF (g : GrnEnv) (T : GrnTab) (w : ℝ) (ip : ℂ) (projCnt : Arr) (st : GrnFState) : GrnEv → GrnFState
  | .fetch1 _ i => { st with t := T.t1 i 3 }
  | .eval1 τ i =>
    let x := if T.t1 i 1 = st.t then greenFunc1F g (T.t1 i 0) (T.t1 i 2) (T.t1 i 1) ip projCnt (st.my τ)
      else greenFunc1F2 g (T.t1 i 0) (T.t1 i 2) (T.t1 i 1) st.t ip projCnt (st.my τ)
    { st with acc := { st.acc with loc1 := setC st.acc.loc1 i x.1 }, my := fun k => if k = τ then x.2 else st.my k }
  | .fetch2 _ i => { st with u := T.tDC i 5, v := T.tDC i 7 }
  | .eval2 τ i =>
    let x := if T.tDC i 1 = T.tDC i 3 ∧ st.u = st.v
      then greenFunc2F g (T.tDC i 0) (T.tDC i 2) (T.tDC i 4) (T.tDC i 6) (T.tDC i 1) st.u ip projCnt (st.my τ)
      else greenFunc2F2 g (T.tDC i 0) (T.tDC i 2) (T.tDC i 4) (T.tDC i 6) (T.tDC i 1) (T.tDC i 3) st.u st.v ip projCnt (st.my τ)
    { st with acc := { st.acc with physDC := setC st.acc.physDC i (st.acc.physDC i + w * x.1) },
              my := fun k => if k = τ then x.2 else st.my k }

/-- thread of an event (`/repo/src/mVMC/calgrn_fsz.c:65,84`) -/
def GrnEv.thread : GrnEv → Nat
  | .fetch1 τ _ | .eval1 τ _ | .fetch2 τ _ | .eval2 τ _ => τ

/-- What thread `τ` executes, in program order, if the iterations are divided by `sched`.
(`/repo/src/mVMC/calgrn_fsz.c:65-115`) -/
def grnProgram (T : GrnTab) (sched : Nat → Nat → Nat) (τ : Nat) : List GrnEv :=
  ((List.range T.n1).filter (sched 0 · = τ)).flatMap (fun i => [.fetch1 τ i, .eval1 τ i]) ++
    ((List.range T.nDC).filter (sched 1 · = τ)).flatMap (fun i => [.fetch2 τ i, .eval2 τ i])

/-- An execution of the two loops: every thread's events in program order, arbitrarily interleaved.
(`/repo/src/mVMC/calgrn_fsz.c:65-115`) -/
def GrnRun (T : GrnTab) (sched : Nat → Nat → Nat) (nT : Nat) (evs : List GrnEv) : Prop :=
  (∀ e ∈ evs, e.thread < nT) ∧ ∀ τ < nT, evs.filter (·.thread = τ) = grnProgram T sched τ

/-- The loops after the barrier (`/repo/src/mVMC/calgrn_fsz.c:117-130`). -/
noncomputable def accThreadF (T : GrnTab) (sched : Nat → Nat → Nat) (w : ℝ) (a : GrnAcc) (τ : Nat) : GrnAcc :=
  let a := ompFor (sched 2) τ T.n1 (fun a i => { a with phys1 := setC a.phys1 i (a.phys1 i + w * a.loc1 i) }) a
  ompFor (sched 4) τ T.n2 (fun a i =>
    { a with phys2 := setC a.phys2 i (a.phys2 i + w * a.loc1 (T.t2 i 0) * (starRingEnd ℂ) (a.loc1 (T.t2 i 1))) }) a

/-- `CalculateGreenFunc_fsz` (`/repo/src/mVMC/calgrn_fsz.c:33-139`) along the execution `evs` of the first two loops; `t₀, u₀, v₀`
are the uninitialised shared variables. -/
noncomputable def calculateGreenFuncF (g : GrnEnv) (T : GrnTab) (sched : Nat → Nat → Nat) (evs : List GrnEv) (order' : List Nat)
    (junk : Nat → FCfg) (t₀ u₀ v₀ : Nat) (w : ℝ) (ip : ℂ) (projCnt : Arr) (c : FCfg) (a : GrnAcc) : GrnAcc :=
  order'.foldl (accThreadF T sched w)
    (evs.foldl (grnStepF g T w ip projCnt) ⟨t₀, u₀, v₀, fun τ => privF g c (junk τ), a⟩).acc

end MVMC
