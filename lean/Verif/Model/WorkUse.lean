import Verif.Model.Workspace
/-!
# Model: which scratch memory every function requests and takes

`/repo/src/mVMC/workspace.c` keeps six independent stacks (`Int`, `Double`, `Complex` and one of each kind per
thread). The functions of the program reserve a capacity (`RequestWorkSpace…`), take blocks
(`GetWorkSpace…`) and give everything back (`ReleaseWorkSpace…`). Here every function is the list of these
calls, in program order, with the sizes written in the source; nested calls are expanded. For the per-thread
stacks the list is that of one thread (requests and releases act on all threads, a parallel region takes the
same blocks in every thread).

Simplifications: sizes are natural numbers (the `int` products do not wrap); branches that skip a whole
function body (`if(size>1)` in `average.c`) are covered by leaving the call out.
-/
namespace MVMC
open Spec

/-- The six stacks (`/repo/src/mVMC/workspace.c:31-62`). -/
inductive Fam where
  | int | dbl | cplx | tInt | tDbl | tCplx
  deriving DecidableEq, Repr

/-- The global sizes that occur in the requests (`/repo/src/mVMC/include/global.h:36-354`):
`NQPFull`, `Nsize`, `Nsite`, `Nsite2`, `NProj`, `Nrange`, `NSlater`, `NMPTrans*NOptTrans`, `NSPGaussLeg`,
`LapackLWork`, `FlagRBM`, `NRBM_PhysLayerIdx`, `Nneuron`. -/
structure Dims where
  nQP : Nat
  nSize : Nat
  nSite : Nat
  nSite2 : Nat
  nProj : Nat
  nRange : Nat
  nSlater : Nat
  nTrans : Nat
  nGauss : Nat
  lwork : Nat
  rbm : Bool
  phys : Nat
  neuron : Nat

/-- `FlagRBM*(NRBM_PhysLayerIdx+Nneuron)` (`/repo/src/mVMC/calham.c:72`). -/
def Dims.rbmSize (d : Dims) : Nat := if d.rbm then d.phys + d.neuron else 0

/-- A call on one stack. Source: `/repo/src/mVMC/workspace.c:81-330`. -/
abbrev WCall := Fam × WSOp

/-- Source: `/repo/src/mVMC/workspace.c:81-330`. -/
def rq (f : Fam) (n : Nat) : WCall := (f, .request n)
/-- Source: `/repo/src/mVMC/workspace.c:81-330`. -/
def gt (f : Fam) (n : Nat) : WCall := (f, .get n)
/-- Source: `/repo/src/mVMC/workspace.c:81-330`. -/
def rl (f : Fam) : WCall := (f, .release)

/-- `if (FlagRBM) … = GetWorkSpace…(NRBM_PhysLayerIdx+Nneuron)` (`/repo/src/mVMC/calham.c:91-93`). -/
def gtRbm (d : Dims) (f : Fam) : List WCall := if d.rbm then [gt f (d.phys + d.neuron)] else []

/-- One buffer of `n` elements: `WeightAverageSROpt`, `weightAverageReduce_fcmp` (complex),
`WeightAverageSROpt_real`, `weightAverageReduce`, `weightAverageReduce_real` (double), the conjugate
gradient workspace `SIZE_VecCG` (double).
(`/repo/src/mVMC/average.c:94-103,131-140,176-185,256-266,285-295,314-324`,
`/repo/src/mVMC/stcopt_cg_impl.c:172-248`) -/
def useBuf (f : Fam) (n : Nat) : List WCall := [rq f n, gt f n, rl f]

/-- `CalculateGreenFunc` (`/repo/src/mVMC/calgrn.c:42-54,117-118`). The request multiplies only
`NRBM_PhysLayerIdx` by `FlagRBM`. -/
def useCalGrn (d : Dims) : List WCall :=
  [rq .tInt (d.nSize + d.nSite2 + d.nProj),
   rq .tCplx (d.nQP + 2 * d.nSize + (if d.rbm then d.phys else 0) + d.neuron),
   gt .tInt d.nSize, gt .tInt d.nSite2, gt .tInt d.nProj,
   gt .tCplx (d.nQP + 2 * d.nSize), gt .tCplx (d.phys + d.neuron),
   rl .tInt, rl .tCplx]

/-- `CalculateGreenFuncBF`, `CalculateHamiltonianBF_fcmp` (`c = .tCplx`), `CalculateHamiltonianBF_real`
(`c = .tDbl`). (`/repo/src/mVMC/calgrn.c:133-146,210-211`, `/repo/src/mVMC/calham.c:392-406,519-520`,
`/repo/src/mVMC/calham_real.c:225-239,340-341`) -/
def useBF (d : Dims) (c : Fam) : List WCall :=
  [rq .tInt (d.nSize + 2 * d.nSite2 + d.nProj + 16 * d.nSite * d.nRange),
   rq c (d.nQP + 2 * d.nSize + d.nQP * d.nSite2 * d.nSite2),
   gt .tInt d.nSize, gt .tInt d.nSite2, gt .tInt d.nSite2, gt .tInt d.nProj,
   gt .tInt (16 * d.nSite * d.nRange),
   gt c (d.nQP + 2 * d.nSize), gt c (d.nQP * d.nSite2 * d.nSite2),
   rl .tInt, rl c]

/-- `CalculateGreenFunc_fsz`, `CalculateHamiltonian_fsz`, `CalculateHamiltonian2_fsz` (`c = .tCplx`),
`CalculateHamiltonian_fsz_real` (`c = .tDbl`), all with two further integer blocks than the fixed-Sz
versions. (`/repo/src/mVMC/calgrn_fsz.c:42-53,136-137`,
`/repo/src/mVMC/calham_fsz.c:60-81,194-195,312-324,377-378`,
`/repo/src/mVMC/calham_fsz_real.c:43-64,174-175`) -/
def useFsz (d : Dims) (c : Fam) : List WCall :=
  [rq .tInt (d.nSize + d.nSize + d.nSite2 + d.nProj), rq c (d.nQP + 2 * d.nSize),
   gt .tInt d.nSize, gt .tInt d.nSize, gt .tInt d.nSite2, gt .tInt d.nProj,
   gt c (d.nQP + 2 * d.nSize),
   rl .tInt, rl c]

/-- `CalculateHamiltonian1_fsz` (`/repo/src/mVMC/calham_fsz.c:257-269,295-296`). -/
def useHam1Fsz (d : Dims) : List WCall :=
  [rq .tInt (d.nSize + d.nSize + d.nSite2 + d.nProj), rq .tCplx d.nQP,
   gt .tInt d.nSize, gt .tInt d.nSize, gt .tInt d.nSite2, gt .tInt d.nProj, gt .tCplx d.nQP,
   rl .tInt, rl .tCplx]

/-- `CalculateHamiltonian` (`/repo/src/mVMC/calham.c:71-94,190-191`). -/
def useCalHam (d : Dims) : List WCall :=
  [rq .tInt (d.nSize + d.nSite2 + d.nProj), rq .tCplx (d.nQP + 2 * d.nSize + d.rbmSize),
   gt .tInt d.nSize, gt .tInt d.nSite2, gt .tInt d.nProj]
  ++ gtRbm d .tCplx ++
  [gt .tCplx (d.nQP + 2 * d.nSize), rl .tInt, rl .tCplx]

/-- `CalculateHamiltonian1` (`/repo/src/mVMC/calham.c:256-267,291-292`). -/
def useHam1 (d : Dims) : List WCall :=
  [rq .tInt (d.nSize + d.nSite2 + d.nProj), rq .tCplx d.nQP,
   gt .tInt d.nSize, gt .tInt d.nSite2, gt .tInt d.nProj, gt .tCplx d.nQP,
   rl .tInt, rl .tCplx]

/-- `CalculateHamiltonian2` (`c = .tCplx`), `CalculateHamiltonian_real` (`c = .tDbl`).
(`/repo/src/mVMC/calham.c:311-322,373-374`, `/repo/src/mVMC/calham_real.c:54-74,203-204`) -/
def useHam2 (d : Dims) (c : Fam) : List WCall :=
  [rq .tInt (d.nSize + d.nSite2 + d.nProj), rq c (d.nQP + 2 * d.nSize),
   gt .tInt d.nSize, gt .tInt d.nSite2, gt .tInt d.nProj, gt c (d.nQP + 2 * d.nSize),
   rl .tInt, rl c]

/-- `CalculateMAll_fsz`, `CalculateMAll_fcmp`, `CalculateMAll_BF_fcmp`.
(`/repo/src/mVMC/matrix.c:90-121,297-328,401-430`) -/
def useMAll (d : Dims) : List WCall :=
  [rq .tInt d.nSize, rq .tCplx (d.nSize * d.nSize + d.lwork), rq .tDbl d.lwork,
   gt .tInt d.nSize, gt .tCplx (d.nSize * d.nSize), gt .tCplx d.lwork, gt .tDbl d.lwork,
   rl .tInt, rl .tCplx, rl .tDbl]

/-- `CalculateMAll_fsz_real`, `CalculateMAll_real`, `CalculateMAll_BF_real`.
(`/repo/src/mVMC/matrix.c:194-219,527-553,627-651`) -/
def useMAllReal (d : Dims) : List WCall :=
  [rq .tInt d.nSize, rq .tDbl (d.nSize * d.nSize + d.lwork),
   gt .tInt d.nSize, gt .tDbl (d.nSize * d.nSize), gt .tDbl d.lwork,
   rl .tInt, rl .tDbl]

/-- `UpdateMAll`, `UpdateMAll_fsz`, `CalculateNewPfMTwo2_fcmp`, `CalculateNewPfMTwo2_fsz` (`c = .tCplx`) and
their `_real` versions (`c = .tDbl`).
(`/repo/src/mVMC/pfupdate.c:125-139`, `/repo/src/mVMC/pfupdate_fsz.c:120-134`,
`/repo/src/mVMC/pfupdate_two_fcmp.c:87-102`, `/repo/src/mVMC/pfupdate_two_fsz.c:92-107`,
`/repo/src/mVMC/pfupdate_real.c:129-143`, `/repo/src/mVMC/pfupdate_fsz_real.c:110-124`,
`/repo/src/mVMC/pfupdate_two_real.c:89-104`, `/repo/src/mVMC/pfupdate_two_fsz_real.c:78-93`) -/
def useUpdate (d : Dims) (c : Fam) : List WCall :=
  [rq c (2 * d.nSize), gt c d.nSize, gt c d.nSize, rl c]

/-- `UpdateMAllTwo_fcmp`, `UpdateMAllTwo_fsz` (`c = .tCplx`), `UpdateMAllTwo_real`, `UpdateMAllTwo_fsz_real`
(`c = .tDbl`). (`/repo/src/mVMC/pfupdate_two_fcmp.c:196-213`, `/repo/src/mVMC/pfupdate_two_fsz.c:201-218`,
`/repo/src/mVMC/pfupdate_two_real.c:196-213`, `/repo/src/mVMC/pfupdate_two_fsz_real.c:187-204`) -/
def useUpdateTwo (d : Dims) (c : Fam) : List WCall :=
  [rq c (4 * d.nSize), gt c d.nSize, gt c d.nSize, gt c d.nSize, gt c d.nSize, rl c]

/-- The calls of `calculateNewPfMN_child` by one thread inside a parallel region: each takes `LapackLWork`
doubles and nobody gives them back (`/repo/src/mVMC/locgrn.c:342`; once per `qpidx` of a `GreenFuncN` with
three or more hops, `/repo/src/mVMC/locgrn.c:292-299`). -/
def useChildren (d : Dims) (k : Nat) : List WCall := List.replicate k (gt .tDbl d.lwork)

/-- `calHCA1` with the nested `UpdateMAll` and `CalculateHamiltonian`
(`/repo/src/mVMC/lslocgrn.c:249-257,277-280,294-295`). -/
def useHCA1 (d : Dims) : List WCall :=
  [rq .int d.nProj, rq .cplx (d.nQP * (d.nSize * d.nSize + 1) + d.rbmSize),
   gt .int d.nProj, gt .cplx (d.nQP * d.nSize * d.nSize), gt .cplx d.nQP]
  ++ gtRbm d .cplx ++ useUpdate d .tCplx ++ useCalHam d ++ [rl .int, rl .cplx]

/-- `calHCA1_real` with the nested `UpdateMAll_real` and `CalculateHamiltonian_real`
(`/repo/src/mVMC/lslocgrn_real.c:192-197,212-229`). -/
def useHCA1Real (d : Dims) : List WCall :=
  [rq .int d.nProj, rq .dbl (d.nQP * (d.nSize * d.nSize + 1)),
   gt .int d.nProj, gt .dbl (d.nQP * d.nSize * d.nSize), gt .dbl d.nQP]
  ++ useUpdate d .tDbl ++ useHam2 d .tDbl ++ [rl .int, rl .dbl]

/-- `calHCA2`; the thread evaluates `k` Pfaffians of more than two hops
(`/repo/src/mVMC/lslocgrn.c:324-333,355-363,441-444`). -/
def useHCA2 (d : Dims) (k : Nat) : List WCall :=
  [rq .int d.nProj, rq .cplx (d.nQP + d.rbmSize), rq .tInt (d.nSize + d.nSite2 + d.nProj + 6),
   rq .tCplx (d.nQP + 3 * d.nSize + d.rbmSize), gt .int d.nProj, gt .cplx d.nQP]
  ++ gtRbm d .cplx ++
  [gt .tInt d.nSize, gt .tInt d.nSite2, gt .tInt d.nProj, gt .tInt 3, gt .tInt 3,
   gt .tCplx (d.nQP + 3 * d.nSize)]
  ++ gtRbm d .tCplx ++ useChildren d k ++ [rl .int, rl .cplx, rl .tInt, rl .tCplx]

/-- `calHCA2_real` (`/repo/src/mVMC/lslocgrn_real.c:261-267,289-294,372-375`). -/
def useHCA2Real (d : Dims) : List WCall :=
  [rq .int d.nProj, rq .dbl d.nQP, rq .tInt (d.nSize + d.nSite2 + d.nProj + 6),
   rq .tDbl (d.nQP + 3 * d.nSize), gt .int d.nProj, gt .dbl d.nQP,
   gt .tInt d.nSize, gt .tInt d.nSite2, gt .tInt d.nProj, gt .tInt 3, gt .tInt 3,
   gt .tDbl (d.nQP + 3 * d.nSize), rl .int, rl .dbl, rl .tInt, rl .tDbl]

/-- `checkGF2` (`c = .cplx`), `checkGF2_real` (`c = .dbl`).
(`/repo/src/mVMC/lslocgrn.c:509-511,544`, `/repo/src/mVMC/lslocgrn_real.c:497-499,532`) -/
def useGF2 (d : Dims) (c : Fam) : List WCall :=
  [rq c (d.nQP + 2 * d.nSize), gt c d.nQP, gt c (2 * d.nSize), rl c]

/-- `calHCACA1` with the nested `UpdateMAllTwo_fcmp` and `CalculateHamiltonian`
(`/repo/src/mVMC/lslocgrn.c:564-572,607-610,627-628`). -/
def useHCACA1 (d : Dims) : List WCall :=
  [rq .int d.nProj, rq .cplx (d.nQP * (d.nSize * d.nSize + 1) + d.rbmSize),
   gt .int d.nProj, gt .cplx (d.nQP * d.nSize * d.nSize), gt .cplx d.nQP]
  ++ gtRbm d .cplx ++ useUpdateTwo d .tCplx ++ useCalHam d ++ [rl .int, rl .cplx]

/-- `calHCACA1_real` with the nested `UpdateMAllTwo_real` and `CalculateHamiltonian_real`
(`/repo/src/mVMC/lslocgrn_real.c:551-556,582-603`). -/
def useHCACA1Real (d : Dims) : List WCall :=
  [rq .int d.nProj, rq .dbl (d.nQP * (d.nSize * d.nSize + 1)),
   gt .int d.nProj, gt .dbl (d.nQP * d.nSize * d.nSize), gt .dbl d.nQP]
  ++ useUpdateTwo d .tDbl ++ useHam2 d .tDbl ++ [rl .int, rl .dbl]

/-- `calHCACA2` up to its last block, `k` Pfaffians of more than two hops: requests `NQPFull+3*Nsize` per
thread and takes `NQPFull+4*Nsize` (`/repo/src/mVMC/lslocgrn.c:661-705`). -/
def useHCACA2Body (d : Dims) (k : Nat) : List WCall :=
  [rq .int d.nProj, rq .cplx (d.nQP + 2 * d.nSize + d.rbmSize),
   rq .tInt (d.nSize + d.nSite2 + d.nProj + 8), rq .tCplx (d.nQP + 3 * d.nSize + d.rbmSize),
   gt .int d.nProj, gt .cplx (d.nQP + 2 * d.nSize)]
  ++ gtRbm d .cplx ++
  [gt .tInt d.nSize, gt .tInt d.nSite2, gt .tInt d.nProj, gt .tInt 4, gt .tInt 4,
   gt .tCplx (d.nQP + 4 * d.nSize)]
  ++ gtRbm d .tCplx ++ useChildren d k

/-- `calHCACA2` (`/repo/src/mVMC/lslocgrn.c:661-705,794-797`). -/
def useHCACA2 (d : Dims) (k : Nat) : List WCall :=
  useHCACA2Body d k ++ [rl .int, rl .cplx, rl .tInt, rl .tCplx]

/-- `calHCACA2_real` up to its last block (`/repo/src/mVMC/lslocgrn_real.c:633-671`). -/
def useHCACA2RealBody (d : Dims) : List WCall :=
  [rq .int d.nProj, rq .dbl (d.nQP + 2 * d.nSize),
   rq .tInt (d.nSize + d.nSite2 + d.nProj + 8), rq .tDbl (d.nQP + 3 * d.nSize),
   gt .int d.nProj, gt .dbl (d.nQP + 2 * d.nSize),
   gt .tInt d.nSize, gt .tInt d.nSite2, gt .tInt d.nProj, gt .tInt 4, gt .tInt 4,
   gt .tDbl (d.nQP + 4 * d.nSize)]

/-- `calHCACA2_real` (`/repo/src/mVMC/lslocgrn_real.c:633-671,760-763`). -/
def useHCACA2Real (d : Dims) : List WCall :=
  useHCACA2RealBody d ++ [rl .int, rl .dbl, rl .tInt, rl .tDbl]

/-- `SlaterElmDiff_fcmp`, `SlaterElmDiff_fsz` (`/repo/src/mVMC/slater.c:124-129,241-242`,
`/repo/src/mVMC/slater_fsz.c:143-148,240-241`). -/
def useSlaterDiff (d : Dims) : List WCall :=
  [rq .int (2 * d.nTrans * d.nSize * d.nSize), rq .cplx (d.nQP * d.nSlater),
   gt .int (d.nTrans * d.nSize * d.nSize), gt .int (d.nTrans * d.nSize * d.nSize),
   gt .cplx (d.nQP * d.nSlater), rl .int, rl .cplx]

/-- `SlaterElmBFDiff_fcmp` (`/repo/src/mVMC/slater.c:293-298,513-514`). -/
def useSlaterBFDiff (d : Dims) : List WCall :=
  [rq .int (2 * d.nTrans * d.nSize * d.nSize), rq .cplx (d.nQP * d.nSlater),
   gt .int (d.nTrans * d.nSize * d.nSize), gt .cplx (d.nQP * d.nSlater), rl .int, rl .cplx]

/-- `BackFlowDiff_fcmp` (`/repo/src/mVMC/slater.c:559-566,715-716`). -/
def useBackFlowDiff (d : Dims) : List WCall :=
  [rq .int (2 * d.nTrans * d.nSize * d.nSize), rq .cplx (16 * d.nQP * d.nSize * d.nSize),
   gt .int (d.nTrans * d.nSize * d.nSize), gt .cplx (16 * d.nQP * d.nSize * d.nSize), rl .int, rl .cplx]

/-- `InitQPWeight` (`/repo/src/mVMC/qp.c:44-46,84`). -/
def useQPWeight (d : Dims) : List WCall :=
  [rq .dbl (2 * d.nGauss), gt .dbl d.nGauss, gt .dbl d.nGauss, rl .dbl]

/-- `stcOptMain` with ScaLAPACK, local matrix `mlocr × mlocc`
(`/repo/src/mVMC/stcopt_pdposv.c:113-122,233-234`). When `PDPOSV` fails the function returns at line 197
without the releases; the program then ends (`/repo/src/mVMC/vmcmain.c:502-505`), so that execution is a
prefix of a call sequence. -/
def useStcOpt (sSize gSize wSize mlocr mlocc : Nat) : List WCall :=
  [rq .dbl (sSize + gSize + wSize), gt .dbl sSize, gt .dbl gSize, gt .dbl wSize,
   rq .int (2 * mlocr + mlocc), gt .int mlocr, gt .int mlocr, gt .int mlocc, rl .int, rl .dbl]

/-- `stcOptMainDiag`, both exits (`/repo/src/mVMC/stcopt_pdposv.c:421-434,508-509,599-600`; not called). -/
def useStcOptDiag (sSize zSize gSize xSize wSize vlocr mlocr mlocc : Nat) : List WCall :=
  [rq .dbl (sSize + zSize + gSize + xSize + wSize), gt .dbl sSize, gt .dbl zSize, gt .dbl gSize,
   gt .dbl xSize, gt .dbl wSize,
   rq .int (vlocr + 2 * mlocr + mlocc), gt .int vlocr, gt .int mlocr, gt .int mlocr, gt .int mlocc,
   rl .int, rl .dbl]

/-- Every function that uses scratch memory; functions with the same calls share a constructor, `real`
distinguishes the real versions. Source: the files cited at the definitions above
(`/repo/src/mVMC/workspace.c:81-330`). -/
inductive WFun where
  | bufD (n : Nat) | bufC (n : Nat)
  | calGrn | bf (real : Bool) | fsz (real : Bool) | ham1Fsz | calHam | ham1 | ham2 (real : Bool)
  | mAll | mAllReal | update (real : Bool) | updateTwo (real : Bool)
  | hCA1 | hCA1Real | hCA2 (k : Nat) | hCA2Real | gF2 (real : Bool)
  | hCACA1 | hCACA1Real | hCACA2 (k : Nat) | hCACA2Real
  | slaterDiff | slaterBFDiff | backFlowDiff | qpWeight
  | stcOpt (sSize gSize wSize mlocr mlocc : Nat)
  | stcOptDiag (sSize zSize gSize xSize wSize vlocr mlocr mlocc : Nat)
  deriving DecidableEq

/-- Per-thread number type of a version. Source: `/repo/src/mVMC/workspace.c:31-62`. -/
def thrNum (real : Bool) : Fam := if real then .tDbl else .tCplx

/-- The scratch-memory calls of a function. Source: as cited at each definition
(`/repo/src/mVMC/workspace.c:81-330`). -/
def WFun.ops (d : Dims) : WFun → List WCall
  | .bufD n => useBuf .dbl n
  | .bufC n => useBuf .cplx n
  | .calGrn => useCalGrn d
  | .bf r => useBF d (thrNum r)
  | .fsz r => useFsz d (thrNum r)
  | .ham1Fsz => useHam1Fsz d
  | .calHam => useCalHam d
  | .ham1 => useHam1 d
  | .ham2 r => useHam2 d (thrNum r)
  | .mAll => useMAll d
  | .mAllReal => useMAllReal d
  | .update r => useUpdate d (thrNum r)
  | .updateTwo r => useUpdateTwo d (thrNum r)
  | .hCA1 => useHCA1 d
  | .hCA1Real => useHCA1Real d
  | .hCA2 k => useHCA2 d k
  | .hCA2Real => useHCA2Real d
  | .gF2 r => useGF2 d (if r then .dbl else .cplx)
  | .hCACA1 => useHCACA1 d
  | .hCACA1Real => useHCACA1Real d
  | .hCACA2 k => useHCACA2 d k
  | .hCACA2Real => useHCACA2Real d
  | .slaterDiff => useSlaterDiff d
  | .slaterBFDiff => useSlaterBFDiff d
  | .backFlowDiff => useBackFlowDiff d
  | .qpWeight => useQPWeight d
  | .stcOpt s g w r c => useStcOpt s g w r c
  | .stcOptDiag s z g x w v r c => useStcOptDiag s z g x w v r c

/-- The calls on one stack, in order. Source: `/repo/src/mVMC/workspace.c:81-330`. -/
def onFam (f : Fam) (l : List WCall) : List WSOp :=
  l.filterMap (fun p => if p.1 = f then some p.2 else none)

/-- What happens on one stack during a sequence of function calls.
Source: `/repo/src/mVMC/workspace.c:81-330`. -/
def runOn (d : Dims) (f : Fam) (calls : List WFun) : List WSOp :=
  onFam f (calls.flatMap (WFun.ops d))

end MVMC
