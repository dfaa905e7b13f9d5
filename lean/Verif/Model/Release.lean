import Mathlib.Data.List.Basic
import Mathlib.Logic.Function.Basic
import Mathlib.Data.Int.Notation
import Mathlib.Data.Nat.Notation

/-! # What the program allocates and gives back (`setmemory.c`, `workspace.c`), and the copies of the burn sample

Blocks are named by the variable that holds their address; no other variable is passed to `free`. `malloc` never fails. -/
namespace MVMC

/-- The variables that hold addresses of blocks. (`/repo/src/mVMC/setmemory.c:37-255,291-460`, `/repo/src/mVMC/workspace.c:31-62`, `/repo/src/mVMC/readdef.c:202,257-262,340,579`,
`/repo/src/mVMC/vmcmain.c:767`) -/
inductive MemVar
  | dirNameList | cFileNameListFile | iOneBodyGIdx | cacaIdx | caIdx
  | locSpn | transfer | coulombInter | hundCoupling | pairHopping | exchangeCoupling | jastrowIdx | dh2 | dh4
  | chargeRBM | spinRBM | generalRBM | posBF | rangeIdx | backFlowIdx | orbitalIdx | orbitalSgn | qpTrans | qpTransInv | qpTransSgn
  | cisAjsIdx | cisAjsCktAltIdx | cisAjsCktAltDCIdx | interAll | qpOptTrans | qpOptTransSgn | paraTransfer | paraCoulombIntra | paraQPTrans
  | para | eleIdx | eleCfg | eleNum | eleProjCnt | eleSpn | logSqPf | eleProjBFCnt | smpSltElmBF | smpEta | smpEtaFlag | slaterElmBF | eta | etaFlag | bfSubIdx
  | tmpEleIdx | burnEleIdx | rbmCnt | tmpRBMCnt | burnRBMCnt | slaterElm | invM | slaterElmReal | invMReal | qpFullWeight
  | srOptOO | srOptOOReal | srOptOStoreReal | srOptOStore | srOptData | physCisAjs | qqqq | qqqqReal | qCisAjsQ | qCisAjsQReal
  | wsInt | wsDouble | wsComplex | wsTInt | wsTIntNow | wsTDouble | wsTDoubleNow | wsTComplex | wsTComplexNow
  deriving DecidableEq

/-- A variable, or entry `i` of the table that it points to. (`/repo/src/mVMC/setmemory.c:262`) -/
inductive MemBlk
  | var (v : MemVar)
  | row (v : MemVar) (i : ℕ)
  deriving DecidableEq

/-- The calls of `malloc` and `free`, and reads or writes of entries of a table. (`/repo/src/mVMC/setmemory.c:257-289`) -/
inductive MemOp
  | malloc (b : MemBlk)
  | free (b : MemBlk)
  | use (b : MemBlk)
  deriving DecidableEq

/-- State of an address: `NULL` (global variables start with it), address of a block, address of a block that was given back. (`/repo/src/mVMC/include/global.h:161`) -/
inductive PtrSt
  | null | live | freed
  deriving DecidableEq

/-- The parameters. `world`: rank in `MPI_COMM_WORLD`, `rank`: rank in `comm0`. (`/repo/src/mVMC/vmcmain.c:194-203`, `/repo/src/mVMC/include/global.h:60-200`) -/
structure MemPar where
  NVMCCalMode : ℤ
  NLanczosMode : ℤ
  NSRCG : ℤ
  NStoreO : ℤ
  AllComplexFlag : ℤ
  FlagRBM : ℤ
  NBackFlowIdx : ℤ
  NCisAjsCktAlt : ℤ
  nOneBodyG : ℕ
  Nsite : ℕ
  NrangeIdx : ℕ
  NThread : ℕ
  world : ℕ
  rank : ℕ
  multi : Bool

/-- One call. The number counts blocks whose address was overwritten. `none`: a block is given back twice, or a table is used that does not exist; `free(NULL)` does nothing.
(`/repo/src/mVMC/setmemory.c:257-289,466-500`) -/
def ptrStep : MemOp → PtrSt × ℕ → Option (PtrSt × ℕ)
  | .malloc _, (.live, k) => some (.live, k + 1)
  | .malloc _, (_, k) => some (.live, k)
  | .free _, (.null, k) => some (.null, k)
  | .free _, (.live, k) => some (.freed, k)
  | .free _, (.freed, _) => none
  | .use _, (.live, k) => some (.live, k)
  | .use _, _ => none

/-- The block of a call. (`/repo/src/mVMC/setmemory.c:257-289`) -/
def MemOp.blk : MemOp → MemBlk
  | .malloc b | .free b | .use b => b

/-- A sequence of calls. (`/repo/src/mVMC/setmemory.c:37-504`) -/
def memRun : List MemOp → (MemBlk → PtrSt × ℕ) → Option (MemBlk → PtrSt × ℕ)
  | [], s => some s
  | o :: os, s => (ptrStep o (s o.blk)).bind fun x => memRun os (Function.update s o.blk x)

/-- Assignments of `malloc` to variables. (`/repo/src/mVMC/setmemory.c:43-253`) -/
def mallocs (l : List MemVar) : List MemOp := l.map fun v => .malloc (.var v)

/-- Calls of `free` with variables. (`/repo/src/mVMC/setmemory.c:266-287`) -/
def frees (l : List MemVar) : List MemOp := l.map fun v => .free (.var v)

/-- A table with one block per entry. (`/repo/src/mVMC/readdef.c:257-262,579-582`, `/repo/src/mVMC/setmemory.c:320-331,366-377`) -/
def mallocTab (v : MemVar) (n : ℕ) : List MemOp := .malloc (.var v) :: (List.range n).flatMap fun i => [.use (.var v), .malloc (.row v i)]

/-- The entries are given back, then the table. (`/repo/src/mVMC/readdef.c:309-314`, `/repo/src/mVMC/setmemory.c:261-263`) -/
def freeTab (v : MemVar) (n : ℕ) : List MemOp := ((List.range n).flatMap fun i => [.use (.var v), .free (.row v i)]) ++ [.free (.var v)]

/-- `initMultiDefMode` and `ReadDefFileNInt` with `CountOneBodyGForLanczos` and `ReadGreen`.
(`/repo/src/mVMC/vmcmain.c:766-767`, `/repo/src/mVMC/readdef.c:202,257-262,309-314,339-340,576-586,706`) -/
def memRead (P : MemPar) : List MemOp :=
  (if P.multi = true ∧ P.world = 0 then mallocs [.dirNameList] else []) ++
  if P.rank = 0 then mallocs [.cFileNameListFile] ++
    if P.NCisAjsCktAlt > 0 ∨ P.NLanczosMode > 1 then
      mallocTab .iOneBodyGIdx (2 * P.Nsite) ++ mallocTab .cacaIdx P.NCisAjsCktAlt.toNat ++ mallocTab .caIdx P.nOneBodyG ++
      mallocs [.cFileNameListFile] ++ freeTab .cacaIdx P.NCisAjsCktAlt.toNat ++ freeTab .caIdx P.nOneBodyG
    else []
  else []

/-- `SetMemoryDef` (`/repo/src/mVMC/setmemory.c:43-253`) -/
def memSetDef (P : MemPar) : List MemOp :=
  mallocs [.locSpn, .transfer, .coulombInter, .hundCoupling, .pairHopping, .exchangeCoupling, .jastrowIdx, .dh2, .dh4] ++
  (if P.FlagRBM ≠ 0 then mallocs [.chargeRBM, .spinRBM, .generalRBM] else []) ++
  (if P.NBackFlowIdx > 0 then mallocs [.posBF, .rangeIdx, .backFlowIdx] else []) ++
  mallocs [.orbitalIdx, .orbitalSgn, .qpTrans, .qpTransInv, .qpTransSgn, .cisAjsIdx, .cisAjsCktAltIdx, .cisAjsCktAltDCIdx, .interAll, .qpOptTrans, .qpOptTransSgn,
    .paraTransfer, .paraCoulombIntra, .paraQPTrans]

/-- The tables of the back flow, which are also allocated for an RBM. (`/repo/src/mVMC/setmemory.c:319-331,365-377`) -/
def memBF (P : MemPar) : List MemOp :=
  mallocs [.slaterElmBF] ++ mallocTab .eta P.Nsite ++ mallocTab .etaFlag P.Nsite ++ mallocTab .bfSubIdx P.NrangeIdx

/-- `SetMemory` with `initializeWorkSpaceAll` (`/repo/src/mVMC/setmemory.c:296-462`, `/repo/src/mVMC/workspace.c:34-59`) -/
def memSet (P : MemPar) : List MemOp :=
  mallocs [.para, .eleIdx, .eleCfg, .eleNum, .eleProjCnt, .eleSpn, .logSqPf] ++
  (if P.NBackFlowIdx > 0 then mallocs [.eleProjBFCnt, .smpSltElmBF, .smpEta, .smpEtaFlag] ++ memBF P else []) ++
  mallocs [.tmpEleIdx, .burnEleIdx] ++
  (if P.FlagRBM ≠ 0 then mallocs [.rbmCnt, .tmpRBMCnt, .burnRBMCnt] else []) ++
  mallocs [.slaterElm, .invM, .slaterElmReal] ++
  (if P.FlagRBM ≠ 0 then memBF P else []) ++
  mallocs [.invMReal, .qpFullWeight] ++
  (if P.NVMCCalMode = 0 then mallocs [.srOptOO, .srOptOOReal] ++
    (if P.NSRCG = 1 ∨ P.NStoreO ≠ 0 then if P.AllComplexFlag = 0 then mallocs [.srOptOStoreReal] else mallocs [.srOptOStore] else []) ++ mallocs [.srOptData] else []) ++
  (if P.NVMCCalMode = 1 then mallocs [.physCisAjs] ++
    (if P.NLanczosMode > 0 then mallocs [.qqqq, .qqqqReal] ++ (if P.NLanczosMode > 1 then mallocs [.qCisAjsQ, .qCisAjsQReal] else []) else []) else []) ++
  mallocs [.wsTInt, .wsTIntNow, .wsTDouble, .wsTDoubleNow, .wsTComplex, .wsTComplexNow]

/-- The six work spaces. (`/repo/src/mVMC/workspace.c:82-250`) -/
inductive WsKind
  | int | double | complex | tInt | tDouble | tComplex
  deriving DecidableEq

/-- A work space is replaced by a larger one; the threads do this for their own entry, in any order. (`/repo/src/mVMC/workspace.c:86-88,107-109,128-130,153-160,185-192,217-224`) -/
def wsGrow (P : MemPar) : WsKind → List MemOp
  | .int => [.free (.var .wsInt), .malloc (.var .wsInt)]
  | .double => [.free (.var .wsDouble), .malloc (.var .wsDouble)]
  | .complex => [.free (.var .wsComplex), .malloc (.var .wsComplex)]
  | .tInt => (List.range P.NThread).flatMap fun i => [.use (.var .wsTInt), .free (.row .wsTInt i), .malloc (.row .wsTInt i)]
  | .tDouble => (List.range P.NThread).flatMap fun i => [.use (.var .wsTDouble), .free (.row .wsTDouble i), .malloc (.row .wsTDouble i)]
  | .tComplex => (List.range P.NThread).flatMap fun i => [.use (.var .wsTComplex), .free (.row .wsTComplex i), .malloc (.row .wsTComplex i)]

/-- `RequestWorkSpace…` for a sequence of sizes: `num` are the sizes so far. (`/repo/src/mVMC/workspace.c:82-250`) -/
def wsOps (P : MemPar) : List (WsKind × ℤ) → (WsKind → ℤ) → List MemOp
  | [], _ => []
  | (k, n) :: rs, num => if n > num k then wsGrow P k ++ wsOps P rs (Function.update num k n) else wsOps P rs num

/-- `FreeMemory` with `FreeWorkSpaceAll` (`/repo/src/mVMC/setmemory.c:466-502`, `/repo/src/mVMC/workspace.c:64-80`) -/
def memFree (P : MemPar) : List MemOp :=
  ((List.range P.NThread).flatMap fun i => [.use (.var .wsTInt), .free (.row .wsTInt i), .use (.var .wsTDouble), .free (.row .wsTDouble i)]) ++
  frees [.wsTDoubleNow, .wsTDouble, .wsTIntNow, .wsTInt, .wsDouble, .wsInt] ++
  (if P.NVMCCalMode = 1 then frees [.physCisAjs] ++
    (if P.NLanczosMode > 0 then frees [.qqqq, .qqqqReal] ++ (if P.NLanczosMode > 1 then frees [.qCisAjsQ, .qCisAjsQReal] else []) else []) else []) ++
  (if P.NVMCCalMode = 0 then frees [.srOptData, .srOptOO] else []) ++
  frees [.qpFullWeight, .invM, .slaterElm, .burnEleIdx, .tmpEleIdx, .logSqPf, .eleProjCnt, .eleIdx, .eleCfg, .para]

/-- `FreeMemoryDef` (`/repo/src/mVMC/setmemory.c:257-289`) -/
def memFreeDef (P : MemPar) : List MemOp :=
  (if P.world = 0 ∧ P.NCisAjsCktAlt > 0 then freeTab .iOneBodyGIdx (2 * P.Nsite) else []) ++
  frees [.qpOptTransSgn, .qpOptTrans, .interAll, .cisAjsCktAltDCIdx, .cisAjsCktAltIdx, .cisAjsIdx, .qpTransSgn, .qpTrans, .orbitalIdx, .dh4, .dh2, .jastrowIdx, .paraTransfer,
    .exchangeCoupling, .pairHopping, .hundCoupling, .coulombInter, .transfer, .locSpn, .posBF, .rangeIdx, .backFlowIdx]

/-- All calls of a process that comes to the end; `reqs` are its requests for work space. (`/repo/src/mVMC/vmcmain.c:194-321`) -/
def memProg (P : MemPar) (reqs : List (WsKind × ℤ)) : List MemOp :=
  memRead P ++ memSetDef P ++ memSet P ++ wsOps P reqs (fun _ => 0) ++ memFree P ++ memFreeDef P

/-! ## Burn sample -/

/-- `for(i=0;i<n;i++) dst[i] = src[i]` with blocks of known size; `none`: outside one of the blocks. (`/repo/src/mVMC/vmcmake.c:432,441`, `/repo/src/mVMC/vmcmake_fsz.c:525,535`) -/
def copyInts (n : ℕ) (src dst : List ℤ) : Option (List ℤ) :=
  (List.range n).foldlM (fun d i => if i < src.length ∧ i < d.length then some (d.set i (src.getD i 0)) else none) dst

/-- The number of elements that `copyFromBurnSample` and `copyToBurnSample` copy. (`/repo/src/mVMC/vmcmake.c:430,439`) -/
def burnLen (Nsize Nsite NProj : ℕ) : ℕ := Nsize + 2 * Nsite + 2 * Nsite + NProj

/-- The same for `copyFromBurnSample_fsz` and `copyToBurnSample_fsz`. (`/repo/src/mVMC/vmcmake_fsz.c:523,533`) -/
def burnLenF (Nsize Nsite NProj : ℕ) : ℕ := Nsize + 2 * Nsite + 2 * Nsite + NProj + Nsize

/-- The same for `copyFromBurnSampleBF` and `copyToBurnSampleBF`. (`/repo/src/mVMC/vmcmake.c:903,912`) -/
def burnLenBF (Nsize Nsite NProj Nrange : ℕ) : ℕ := Nsize + 2 * Nsite + 2 * Nsite + NProj + 16 * Nsite * Nrange

/-- The size of `TmpEleIdx` and of `BurnEleIdx`. (`/repo/src/mVMC/setmemory.c:334,343`) -/
def burnSize (Ne Nsite NProj : ℕ) : ℕ := 2 * Ne + 2 * Nsite + 2 * Nsite + NProj + 2 * Ne

/-- The tables in such a block: places, numbers of the electrons, occupations, counts of the correlation factors, spins. (`/repo/src/mVMC/setmemory.c:334-347`) -/
def burnTables (Ne Nsite NProj : ℕ) (m : List ℤ) : List ℤ × List ℤ × List ℤ × List ℤ × List ℤ :=
  (m.take (2 * Ne), (m.drop (2 * Ne)).take (2 * Nsite), (m.drop (2 * Ne + 2 * Nsite)).take (2 * Nsite), (m.drop (2 * Ne + 2 * Nsite + 2 * Nsite)).take NProj,
    (m.drop (2 * Ne + 2 * Nsite + 2 * Nsite + NProj)).take (2 * Ne))

end MVMC
