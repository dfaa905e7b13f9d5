import Verif.Model.Ranks

/-!
# The whole program as it runs on several MPI processes

`/repo/src/mVMC/vmcmain.c:198-328` (`main` after the definition files have been read), `:331-528` (`VMCParaOpt`), `:531-637` (`VMCPhysCal`).
Every process belongs to three communicators: `comm0` (all processes), `comm1` (the processes that share one Markov chain) and `comm2` (the processes
with the same number within their chain). The numerical routines are arbitrary functions of the memory of the process; what is modelled is which
process does what, what it communicates, and in which order.
-/
namespace MVMC

/-- The three communicators of `main` (`/repo/src/mVMC/vmcmain.c:239-246`). -/
inductive Comm : Type
  | c0 | c1 | c2
  deriving DecidableEq

/-- The collective operations; the vector operations carry the number of elements, which must agree (`/repo/src/mVMC/average.c:57,97`,
`/repo/src/mVMC/qp.c:102`, `/repo/src/mVMC/vmcmake.c:413,505`, `/repo/src/mVMC/stcopt.c:166`, `/repo/src/mVMC/parameter.c:131`,
`/repo/src/mVMC/stcopt_cg_impl.c:382,407,409`). `redVec`: `MPI_Reduce` to process 0, only process 0 uses the result. -/
inductive CollOp : Type
  | sumNum | maxInt | sumVec (n : Nat) | sumCnt (n : Nat) | bcastVec (n : Nat) | bcastInt | redVec (n : Nat) | barrier
  deriving DecidableEq

/-- the data of a collective operation: a number, an integer, an array of numbers, an array of integers
(`/repo/src/mVMC/average.c:57`, `/repo/src/mVMC/vmcmake.c:505`) -/
inductive MVal (K : Type) : Type
  | num (x : K)
  | int (i : Int)
  | vec (v : Nat → K)
  | cnt (v : Nat → Int)

/-- reading the received data with the type of the operation (`/repo/src/mVMC/average.c:57`) -/
def MVal.toNum {K : Type} [Zero K] : MVal K → K
  | .num x => x
  | _ => 0

/-- see `MVal.toNum` (`/repo/src/mVMC/vmcmake.c:413`) -/
def MVal.toInt {K : Type} : MVal K → Int
  | .int x => x
  | _ => 0

/-- see `MVal.toNum` (`/repo/src/mVMC/average.c:57`) -/
def MVal.toVec {K : Type} [Zero K] : MVal K → Nat → K
  | .vec x => x
  | _ => fun _ => 0

/-- see `MVal.toNum` (`/repo/src/mVMC/vmcmake.c:505`) -/
def MVal.toCnt {K : Type} : MVal K → Nat → Int
  | .cnt x => x
  | _ => fun _ => 0

/-- What one process of the whole program does, as far as the others can see it. `stuck`: it would need more random numbers than given (an
unfinished execution); `abort`: `MPI_Abort`. Source: `/repo/src/mVMC/vmcmain.c:198-637`. -/
inductive WProg (K α : Type) : Type
  | ret (a : α)
  | stuck
  | abort
  | coll (c : Comm) (o : CollOp) (x : MVal K) (k : MVal K → WProg K α)

/-- sequential composition (`;` of C). Source: `/repo/src/mVMC/vmcmain.c:331-528`. -/
def WProg.bind {K α β : Type} : WProg K α → (α → WProg K β) → WProg K β
  | .ret a, f => f a
  | .stuck, _ => .stuck
  | .abort, _ => .abort
  | .coll c o x k, f => .coll c o x (fun v => (k v).bind f)

/-- the process waits in the operation `o` of its communicator `c` (`/repo/src/mVMC/average.c:57`) -/
def WProg.waits {K α : Type} (c : Comm) (o : CollOp) : WProg K α → Prop
  | .coll c' o' _ _ => c' = c ∧ o' = o
  | _ => False

/-- what the process contributes (`/repo/src/mVMC/average.c:57`) -/
def WProg.value {K α : Type} : WProg K α → Option (MVal K)
  | .coll _ _ x _ => some x
  | _ => none

/-- the process gets the result and goes on (`/repo/src/mVMC/average.c:57`) -/
def WProg.resume {K α : Type} (v : MVal K) : WProg K α → WProg K α
  | .coll _ _ _ k => k v
  | p => p

/-- Size and partition of the processes: `N` processes, `NSplitSize = s` (`/repo/src/mVMC/vmcmain.c:239-246`): the colour of a process in
`comm0`, `comm1 = rank0/NSplitSize` and `comm2 = rank1`. -/
def colour (s : Nat) : Comm → Nat → Nat
  | .c0, _ => 0
  | .c1, r => r / s
  | .c2, r => r % s

/-- the values contributed by the members of the communicator `(c, g)`, none for the other processes (`/repo/src/mVMC/average.c:57`) -/
def contributions {K α : Type} {N : Nat} (s : Nat) (c : Comm) (g : Nat) (ps : Fin N → WProg K α) : Fin N → Option (MVal K) :=
  fun r => if colour s c r = g then (ps r).value else none

/-- the values in the order of the ranks (`/repo/src/mVMC/average.c:57`) -/
def valueList {K : Type} {N : Nat} (f : Fin N → Option (MVal K)) : List (MVal K) := (List.finRange N).filterMap f

/-- the largest element (`MPI_MAX`; `/repo/src/mVMC/vmcmake.c:413`) -/
def maxList (l : List Int) : Int := l.foldl max (l.headD 0)

/-- The result of a collective operation; a broadcast delivers the value of the first process of the communicator.
Source: the MPI standard, used at the places given at `CollOp` (`/repo/src/mVMC/average.c:57`). -/
def collect0 {K : Type} [AddCommMonoid K] {N : Nat} : CollOp → (Fin N → Option (MVal K)) → MVal K
  | .sumNum, f => .num (∑ r, ((f r).map MVal.toNum).getD 0)
  | .maxInt, f => .int (maxList ((valueList f).map MVal.toInt))
  | .sumVec _, f => .vec (fun i => ∑ r, ((f r).map (fun v => v.toVec i)).getD 0)
  | .redVec _, f => .vec (fun i => ∑ r, ((f r).map (fun v => v.toVec i)).getD 0)
  | .sumCnt _, f => .cnt (fun i => ∑ r, ((f r).map (fun v => v.toCnt i)).getD 0)
  | .bcastVec _, f => (valueList f).headD (.int 0)
  | .bcastInt, f => (valueList f).headD (.int 0)
  | .barrier, _ => .int 0

/-- The members of the communicator with colour `g` all wait in the operation `o`: it can take place
(`/repo/src/mVMC/average.c:57`). -/
def Enabled {K α : Type} {N : Nat} (s : Nat) (c : Comm) (g : Nat) (o : CollOp) (ps : Fin N → WProg K α) : Prop :=
  (∃ r : Fin N, colour s c r = g) ∧ ∀ r : Fin N, colour s c r = g → (ps r).waits c o

/-- the operation takes place (`/repo/src/mVMC/average.c:57`) -/
def fire {K α : Type} [AddCommMonoid K] {N : Nat} (s : Nat) (c : Comm) (g : Nat) (o : CollOp) (ps : Fin N → WProg K α) : Fin N → WProg K α :=
  fun r => if colour s c r = g then (ps r).resume (collect0 o (contributions s c g ps)) else ps r

/-- One step of an execution: one enabled collective operation, whichever happens first (`/repo/src/mVMC/vmcmain.c:331-637`). -/
def WStep {K α : Type} [AddCommMonoid K] {N : Nat} (s : Nat) (ps qs : Fin N → WProg K α) : Prop :=
  ∃ c g o, Enabled s c g o ps ∧ qs = fire s c g o ps

/-- An execution of `n` steps (`/repo/src/mVMC/vmcmain.c:331-637`). -/
inductive WRun {K α : Type} [AddCommMonoid K] {N : Nat} (s : Nat) : Nat → (Fin N → WProg K α) → (Fin N → WProg K α) → Prop
  | nil (ps) : WRun s 0 ps ps
  | cons {n ps qs us} : WStep s ps qs → WRun s n qs us → WRun s (n + 1) ps us

/-- a routine that uses only `comm1`, as part of the whole program (`/repo/src/mVMC/vmcmain.c:395`) -/
def WProg.lift {K α : Type} [Zero K] (c : Comm) : Prog K α → WProg K α
  | .ret a => .ret a
  | .stuck => .stuck
  | .abort => .abort
  | .allSum x k => .coll c .sumNum (.num x) (fun v => WProg.lift c (k v.toNum))
  | .allMax x k => .coll c .maxInt (.int x) (fun v => WProg.lift c (k v.toInt))

/-- `MPI_Comm_size(comm1,&size1)`: the last group may be smaller (`/repo/src/mVMC/vmcmain.c:239-242`). -/
def size1 (N s r : Nat) : Nat := min s (N - r / s * s)

/-- `if(size>1) SafeMpiAllReduce(…)` on an array of `n` elements (`/repo/src/mVMC/average.c:50-71,93-108`). -/
def allSumV {K : Type} [Zero K] (size n : Nat) (x : Nat → K) : WProg K (Nat → K) :=
  if size > 1 then .coll .c0 (.sumVec n) (.vec x) (fun v => .ret v.toVec) else .ret x

/-- `MPI_Bcast` of an array from process 0 of `comm0` (`/repo/src/mVMC/parameter.c:131`, `/repo/src/mVMC/stcopt_cg_impl.c:382`). -/
def bcastV {K : Type} [Zero K] (n : Nat) (x : Nat → K) : WProg K (Nat → K) := .coll .c0 (.bcastVec n) (.vec x) (fun v => .ret v.toVec)

/-- The memory of one process between the phases: `para`: `Para`; `burn`, `bc`, `bcnt`: `BurnFlag` and the burn sample; `loc`: `PfM`, `InvM`; `rng`:
the numbers that the generator will deliver; `cnt`: `Counter`; `we`, `sr`: `Wc`, `Etot`, … and `SROptOO`, `SROptHO`; `store`: `SROptData`; `out`: what
process 0 has written. Source: `/repo/src/mVMC/include/global.h:60-260`. -/
structure Proc (δ ρ K : Type) where
  para : Nat → K
  burn : Bool
  bc : EleCfg
  bcnt : δ
  loc : ρ
  rng : List Nat
  cnt : Nat → Int
  we : Nat → K
  sr : Nat → K
  store : List (Nat × (Nat → K) × (Nat → K))
  out : List ((Nat → K) × (Nat → K) × (Nat → Int))

/-- The numerical routines. `N`, `s`: number of processes and `NSplitSize`; `steps`, `keep`: `NSROptItrStep`, `NSROptItrSmp`; `L r para`: the routines of
the sampler on process `r`; `S para`: the parts that are the same on all processes; `seed g`: the numbers delivered after
`init_gen_rand(RndSeed+g)`; `initPara`: `InitParameter` (parameters and remaining numbers); `readFiles`: `ReadInitParameter` and
`ReadInputParameters`; `gauge`: `SyncModifiedParameter` after the broadcast; `mainWe r`, `mainSr r`: what `VMCMainCal` leaves on process `r`, from the
parameters, the stored samples and the Pfaffian arrays; `normWe`, `normSr`: the divisions in `WeightAverageWE`, `WeightAverageSROpt`;
`solve`: `stcOptMain` without collectives (status and parameter change); `bad`: the test for infinite and undefined changes; `upd`: the update of
`Para`. Source: `/repo/src/mVMC/vmcmain.c:198-637`, `/repo/src/mVMC/stcopt.c:32-190`. -/
structure WholeOps (δ ρ π K : Type) where
  p : SamplerPar
  warmUp : Nat
  nSample : Nat
  interval : Nat
  steps : Nat
  keep : Nat
  nPara : Nat
  nSr : Nat
  nCnt : Nat
  L : Nat → (Nat → K) → LocalOps ρ π K
  S : (Nat → K) → ShOps δ K
  seed : Nat → List Nat
  initPara : List Nat → Option ((Nat → K) × List Nat)
  readFiles : (Nat → K) → Nat → K
  gauge : (Nat → K) → Nat → K
  mainWe : Nat → (Nat → K) → List (Nat × SState (RB δ ρ K)) → ρ → Nat → K
  mainSr : Nat → (Nat → K) → List (Nat × SState (RB δ ρ K)) → ρ → Nat → K
  mainLoc : Nat → (Nat → K) → List (Nat × SState (RB δ ρ K)) → ρ → ρ
  normWe : (Nat → K) → Nat → K
  normSr : (Nat → K) → (Nat → K) → Nat → K
  solve : Nat → (Nat → K) → Int × (Nat → K)
  bad : (Nat → K) → (Nat → K) → Bool
  upd : (Nat → K) → (Nat → K) → (Nat → K) → Nat → K

section
variable {δ ρ π K : Type} [Zero K]

/-- The memory of process `r` after the sampling delivered `x` (last configuration with buffers and counters, stored samples, remaining random
numbers) and after `VMCMainCal` (`/repo/src/mVMC/vmcmain.c:395-416`, `/repo/src/mVMC/vmcmake.c:345-349`). The counters are those of the sampling. -/
def afterSample (O : WholeOps δ ρ π K) (r : Nat) (m : Proc δ ρ K)
    (x : SState (RB δ ρ K) × List (Nat × SState (RB δ ρ K)) × List Nat) : Proc δ ρ K :=
  { m with
    burn := true, bc := x.1.c, bcnt := x.1.b.cnt, rng := x.2.2
    loc := O.mainLoc r m.para x.2.1 x.1.b.loc
    we := O.mainWe r m.para x.2.1 x.1.b.loc
    sr := O.mainSr r m.para x.2.1 x.1.b.loc
    cnt := fun i => if i = 0 then x.1.hopTry else if i = 1 then x.1.hopAcc else if i = 2 then x.1.exTry else if i = 3 then x.1.exAcc else 0 }

/-- `UpdateSlaterElm`, `UpdateQPWeight`, `VMCMakeSample(comm1)` and `VMCMainCal(comm1)` on process `r` of `N`
(`/repo/src/mVMC/vmcmain.c:353-416`, `:533-616`). -/
def samplePhase (O : WholeOps δ ρ π K) (N s r : Nat) (m : Proc δ ρ K) : WProg K (Proc δ ρ K) :=
  (WProg.lift .c1 (sampleR (size1 N s r) (O.L r m.para) (O.S m.para) O.p m.burn O.warmUp O.nSample O.interval m.bc m.bcnt m.loc m.rng)).bind
    fun x => .ret (afterSample O r m x)

/-- `ReduceCounter(comm2)`: only the first process of `comm2`, i.e. the ones with `rank0 < NSplitSize`, keep the sum
(`/repo/src/mVMC/vmcmake.c:496-511`). -/
def counterPhase (O : WholeOps δ ρ π K) (s r : Nat) (m : Proc δ ρ K) : WProg K (Proc δ ρ K) :=
  .coll .c2 (.sumCnt O.nCnt) (.cnt m.cnt) fun v => .ret (if r < s then { m with cnt := v.toCnt } else m)

/-- `StochasticOpt` with `stcopt_dposv.c`: every process solves the equations, process 0 decides and updates `Para`
(`/repo/src/mVMC/stcopt.c:130-190`). -/
def srPhase (O : WholeOps δ ρ π K) (r : Nat) (m : Proc δ ρ K) : WProg K (Int × Proc δ ρ K) :=
  .coll .c0 .bcastInt (.int (if r = 0 ∧ O.bad m.sr (O.solve r m.sr).2 = true then 1 else (O.solve r m.sr).1)) fun v =>
    .ret (v.toInt, if v.toInt = 0 ∧ r = 0 then { m with para := O.upd m.sr (O.solve r m.sr).2 m.para } else m)

/-- `SyncModifiedParameter(comm0)` (`/repo/src/mVMC/parameter.c:122-169`). -/
def syncPhase (O : WholeOps δ ρ π K) (N : Nat) (m : Proc δ ρ K) : WProg K (Proc δ ρ K) :=
  (if N > 1 then bcastV O.nPara m.para else .ret m.para).bind fun q => .ret { m with para := O.gauge q }

/-- One pass of the loop of `VMCParaOpt` (`/repo/src/mVMC/vmcmain.c:339-514`): the status and the memory. `sr`: the optimisation step. -/
def optStep (O : WholeOps δ ρ π K) (sr : Nat → Proc δ ρ K → WProg K (Int × Proc δ ρ K)) (N s r step : Nat) (m : Proc δ ρ K) :
    WProg K (Int × Proc δ ρ K) :=
  (samplePhase O N s r m).bind fun m =>
  (allSumV N 5 m.we).bind fun we =>
  (allSumV N O.nSr m.sr).bind fun sr' =>
  (counterPhase O s r { m with we := O.normWe we, sr := O.normSr we sr' }).bind fun m =>
  (sr r (if r = 0 then { m with out := (m.we, m.para, m.cnt) :: m.out } else m)).bind fun y =>
  if y.1 ≠ 0 then .ret y
  else (syncPhase O N y.2).bind fun m =>
    .ret (0, if step + O.keep ≥ O.steps then { m with store := (step + O.keep - O.steps, m.we, m.para) :: m.store } else m)

/-- The loop of `VMCParaOpt` (`/repo/src/mVMC/vmcmain.c:339-527`) from step `step` on, with its return value. -/
def optLoop (O : WholeOps δ ρ π K) (sr : Nat → Proc δ ρ K → WProg K (Int × Proc δ ρ K)) (N s r : Nat) :
    (left step : Nat) → Proc δ ρ K → WProg K (Int × Proc δ ρ K)
  | 0, _, m => .ret (0, m)
  | left + 1, step, m => (optStep O sr N s r step m).bind fun y =>
      if y.1 ≠ 0 then .ret y else optLoop O sr N s r left (step + 1) y.2

/-- One pass of the loop of `VMCPhysCal` (`/repo/src/mVMC/vmcmain.c:549-632`): `sr` stands for the Green functions, which only process 0 receives. -/
def physStep (O : WholeOps δ ρ π K) (N s r : Nat) (m : Proc δ ρ K) : WProg K (Proc δ ρ K) :=
  (samplePhase O N s r m).bind fun m =>
  (allSumV N 5 m.we).bind fun we =>
  (if N > 1 then .coll .c0 (.redVec O.nSr) (.vec m.sr) (fun v => .ret (if r = 0 then O.normSr we v.toVec else m.sr))
   else .ret (O.normSr we m.sr) : WProg K (Nat → K)).bind fun gr =>
  (counterPhase O s r { m with we := O.normWe we, sr := gr }).bind fun m =>
  .ret (if r = 0 then { m with out := (m.we, m.sr, m.cnt) :: m.out } else m)

/-- The loop of `VMCPhysCal` (`/repo/src/mVMC/vmcmain.c:549-636`). -/
def physLoop (O : WholeOps δ ρ π K) (N s r : Nat) : Nat → Proc δ ρ K → WProg K (Proc δ ρ K)
  | 0, m => .ret m
  | left + 1, m => (physStep O N s r m).bind fun m => physLoop O N s r left m

/-- The start-up of `main` on process `r` (`/repo/src/mVMC/vmcmain.c:257-276`): the generator of the group, `InitParameter` on every process, the
files on process 0, the broadcast. `c0`, `d0`, `l0`: the contents of the allocated arrays. -/
def startUp (O : WholeOps δ ρ π K) (N s r : Nat) (c0 : EleCfg) (d0 : δ) (l0 : ρ) : WProg K (Proc δ ρ K) :=
  match O.initPara (O.seed (r / s)) with
  | none => .stuck
  | some (q, rng) => syncPhase O N ⟨if r = 0 then O.readFiles q else q, false, c0, d0, l0, rng, fun _ => 0, fun _ => 0, fun _ => 0, [], []⟩

/-- `main` after the definition files, `NVMCCalMode==0` (`/repo/src/mVMC/vmcmain.c:257-296`). -/
def mainOpt (O : WholeOps δ ρ π K) (sr : Nat → Proc δ ρ K → WProg K (Int × Proc δ ρ K)) (N s r : Nat) (c0 : EleCfg) (d0 : δ) (l0 : ρ) :
    WProg K (Int × Proc δ ρ K) :=
  (startUp O N s r c0 d0 l0).bind fun m => optLoop O sr N s r O.steps 0 m

/-- `main` after the definition files, `NVMCCalMode==1` (`/repo/src/mVMC/vmcmain.c:257-303`); `nData`: `NDataQtySmp`. -/
def mainPhys (O : WholeOps δ ρ π K) (N s r nData : Nat) (c0 : EleCfg) (d0 : δ) (l0 : ρ) : WProg K (Proc δ ρ K) :=
  (startUp O N s r c0 d0 l0).bind fun m => physLoop O N s r nData m

end

/-! ### `StochasticOptCG` -/

/-- What `fn_StochasticOptCG_Init` prepares from the averages (the same on every process) and the local part of the product with the overlap
matrix: `n`: `nSmat`; `maxIter`: `max_iter`; `below delta`: `delta < cg_thresh`; `part loc x`: `z_local` after the four `DGEMV` with the derivatives of
the samples of the process (in `loc`); `comb z x`: `z` after the last loop of `fn_operate_by_S`. Source: `/repo/src/mVMC/stcopt_cg_impl.c:258-425,428-505`. -/
structure CGPrep (ρ K : Type) where
  n : Nat
  maxIter : Nat
  g : Nat → K
  below : K → Bool
  part : ρ → (Nat → K) → Nat → K
  comb : (Nat → K) → (Nat → K) → Nat → K

section
variable {ρ K : Type} [Field K]

/-- `xdot` (`/repo/src/mVMC/stcopt_cg.c:26-34`). -/
def vdot (n : Nat) (a b : Nat → K) : K := (List.range n).foldl (fun s i => s + a i * b i) 0

/-- `fn_operate_by_S`: the vector (overwritten by the broadcast) and the product (`/repo/src/mVMC/stcopt_cg_impl.c:356-425`). -/
def opByS (P : CGPrep ρ K) (loc : ρ) (x : Nat → K) : WProg K ((Nat → K) × (Nat → K)) :=
  (bcastV P.n x).bind fun x =>
  .coll .c0 .barrier (.int 0) fun _ =>
  .coll .c0 (.sumVec P.n) (.vec (P.part loc x)) fun z => .ret (x, P.comb z.toVec x)

/-- `x`, `r`, `d`, `delta` of `fn_StochasticOptCG_Main` (`/repo/src/mVMC/stcopt_cg_impl.c:258-300`). -/
structure CGMem (K : Type) where
  x : Nat → K
  r : Nat → K
  d : Nat → K
  delta : K

/-- The loop of `fn_StochasticOptCG_Main` (`/repo/src/mVMC/stcopt_cg_impl.c:299-344`); division is total here. -/
def cgProg (P : CGPrep ρ K) (loc : ρ) : (fuel iter : Nat) → CGMem K → WProg K (Nat → K)
  | 0, _, c => .ret c.x
  | fuel + 1, iter, c =>
    if P.below c.delta then .ret c.x
    else
      (opByS P loc c.d).bind fun dq =>
      let alpha := c.delta / vdot P.n dq.1 dq.2
      let x := fun i => c.x i + alpha * dq.1 i
      (if (iter + 1) % 20 = 0 then (opByS P loc x).bind fun xs => .ret (xs.1, fun i => P.g i - xs.2 i)
       else .ret (x, fun i => c.r i - alpha * dq.2 i) : WProg K ((Nat → K) × (Nat → K))).bind fun xr =>
      let beta := vdot P.n xr.2 xr.2 / c.delta
      cgProg P loc fuel (iter + 1) ⟨xr.1, xr.2, fun i => xr.2 i + beta * dq.1 i, beta * c.delta⟩

/-- `StochasticOptCG` (`/repo/src/mVMC/stcopt_cg_impl.c:73-249`): the number of iterations in `info` is dropped (`:203`). -/
def cgPhase {δ π : Type} (O : WholeOps δ ρ π K) (prep : (Nat → K) → (Nat → K) → CGPrep ρ K) (r : Nat) (m : Proc δ ρ K) :
    WProg K (Int × Proc δ ρ K) :=
  let P := prep m.we m.sr
  (cgProg P m.loc P.maxIter 0 ⟨fun _ => 0, P.g, P.g, vdot P.n P.g P.g⟩).bind fun x =>
  .coll .c0 .bcastInt (.int (if r = 0 ∧ O.bad m.sr x = true then 1 else 0)) fun v =>
    .ret (v.toInt, if v.toInt = 0 ∧ r = 0 then { m with para := O.upd m.sr x m.para } else m)

end
end MVMC
