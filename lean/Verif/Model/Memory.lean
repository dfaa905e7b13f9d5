import Mathlib.Algebra.Order.Ring.Int

/-!
# Tables carved out of single allocations

`SetMemoryDef` and `SetMemory` allocate one array and place several tables in it by
pointer arithmetic.  Addresses are element numbers in the array.  Sizes are mathematical
integers; the C code computes them in `int`.
-/

namespace MVMC

/-- The input sizes, after the assignments of /repo/src/mVMC/readdef.c:672-745. -/
structure DefSizes where
  Nsite : ℤ
  NTransfer : ℤ
  NCoulombIntra : ℤ
  NCoulombInter : ℤ
  NHundCoupling : ℤ
  NPairHopping : ℤ
  NExchangeCoupling : ℤ
  NDH2 : ℤ
  NDH4 : ℤ
  FlagRBM : Bool
  NneuronCharge : ℤ
  NneuronSpin : ℤ
  NneuronGeneral : ℤ
  NBackFlowIdx : ℤ
  Nrange : ℤ
  iFlgOrbitalGeneral : Bool
  NQPTrans : ℤ
  NCisAjs : ℤ
  NCisAjsCktAlt : ℤ
  NCisAjsCktAltDC : ℤ
  NInterAll : ℤ
  NQPOptTrans : ℤ
  NPara : ℤ

/-- The integer tables. (`/repo/src/mVMC/setmemory.c:37-255`) -/
inductive DefTab
  | locSpn | transfer | coulombIntra | coulombInter | hund | pairHop | exchange
  | gutzwiller | jastrow | dh2 | dh4
  | chargePhys | spinPhys | generalPhys | chargeHidden | spinHidden | generalHidden
  | chargePhysHidden | spinPhysHidden | generalPhysHidden
  | posBF | rangeIdx | backFlowIdx
  | orbitalIdx | orbitalSgn | qpTrans | qpTransInv | qpTransSgn
  | cisAjs | cisAjsCktAlt | cisAjsCktAltDC | interAll | qpOptTrans | qpOptTransSgn | optFlag
  deriving DecidableEq

/-- `for(i=0;i<n;i++) { T[i] = p; p += w; }`: the row pointers and the pointer behind.
(`/repo/src/mVMC/setmemory.c:46-50`) -/
def carveRows : ℕ → ℤ → ℤ → List ℤ × ℤ
  | 0, _, p => ([], p)
  | n + 1, w, p => (p :: (carveRows n w (p + w)).1, (carveRows n w (p + w)).2)

/-- Tables placed one behind the other: name, number of rows, width.  A table without row
pointers is one row. (`/repo/src/mVMC/setmemory.c:37-255`) -/
def carveAll {α : Type} : List (α × ℤ × ℤ) → ℤ → List (α × List ℤ) × ℤ
  | [], p => ([], p)
  | (t, r, w) :: L, p =>
    let c := carveRows r.toNat w p
    ((t, c.1) :: (carveAll L c.2).1, (carveAll L c.2).2)

/-- The order of the integer tables in `SetMemoryDef`; `OptFlag` is what is left.
/repo/src/mVMC/setmemory.c:42-227. -/
def defLayout (S : DefSizes) : List (DefTab × ℤ × ℤ) :=
  let NOrbit := if S.iFlgOrbitalGeneral then 2 * S.Nsite else S.Nsite
  [(.locSpn, 1, S.Nsite),
   (.transfer, S.NTransfer, 4),
   (.coulombIntra, 1, S.NCoulombIntra),
   (.coulombInter, S.NCoulombInter, 2),
   (.hund, S.NHundCoupling, 2),
   (.pairHop, S.NPairHopping, 2),
   (.exchange, S.NExchangeCoupling, 2),
   (.gutzwiller, 1, S.Nsite),
   (.jastrow, S.Nsite, S.Nsite),
   (.dh2, S.NDH2, 2 * S.Nsite),
   (.dh4, S.NDH4, 4 * S.Nsite)] ++
  (if S.FlagRBM then
   [(.chargePhys, 1, S.Nsite),
    (.spinPhys, 1, S.Nsite),
    (.generalPhys, 1, 2 * S.Nsite),
    (.chargeHidden, 1, S.NneuronCharge),
    (.spinHidden, 1, S.NneuronSpin),
    (.generalHidden, 1, S.NneuronGeneral),
    (.chargePhysHidden, S.Nsite, S.NneuronCharge),
    (.spinPhysHidden, S.Nsite, S.NneuronSpin),
    (.generalPhysHidden, 2 * S.Nsite, S.NneuronGeneral)] else []) ++
  (if S.NBackFlowIdx > 0 then
   [(.posBF, S.Nsite, S.Nrange),
    (.rangeIdx, S.Nsite, S.Nsite),
    (.backFlowIdx, S.Nsite * S.Nsite, S.Nsite * S.Nsite)] else []) ++
  [(.orbitalIdx, NOrbit, NOrbit),
   (.orbitalSgn, NOrbit, NOrbit),
   (.qpTrans, S.NQPTrans, S.Nsite),
   (.qpTransInv, S.NQPTrans, S.Nsite),
   (.qpTransSgn, S.NQPTrans, S.Nsite),
   (.cisAjs, S.NCisAjs, 4),
   (.cisAjsCktAlt, S.NCisAjsCktAlt, 2),
   (.cisAjsCktAltDC, S.NCisAjsCktAltDC, 8),
   (.interAll, S.NInterAll, 8),
   (.qpOptTrans, S.NQPOptTrans, S.Nsite),
   (.qpOptTransSgn, S.NQPOptTrans, S.Nsite)]

/-- The row pointers after `SetMemoryDef`. /repo/src/mVMC/setmemory.c:37-227. -/
def setMemoryDef (S : DefSizes) : List (DefTab × List ℤ) :=
  (carveAll (defLayout S) 0).1 ++ [(.optFlag, [(carveAll (defLayout S) 0).2])]

/-- `T[i]` for a table with row pointers, `T` for `i = 0` otherwise.
(`/repo/src/mVMC/setmemory.c:43-227`) -/
def defRow (S : DefSizes) (t : DefTab) (i : ℕ) : Option ℤ :=
  ((setMemoryDef S).lookup t).bind fun r => r[i]?

/-- `NTotalDefInt`. /repo/src/mVMC/readdef.c:782-832. -/
def nTotalDefInt (S : DefSizes) : ℤ :=
  let n := S.Nsite + 4 * S.NTransfer + S.NCoulombIntra + 2 * S.NCoulombInter
    + 2 * S.NHundCoupling + 2 * S.NPairHopping + 2 * S.NExchangeCoupling
    + S.Nsite + S.Nsite * S.Nsite + 2 * S.Nsite * S.NDH2 + 4 * S.Nsite * S.NDH4
    + S.Nsite * S.NQPTrans + S.Nsite * S.NQPTrans + S.Nsite * S.NQPTrans
    + 4 * S.NCisAjs + 2 * S.NCisAjsCktAlt + 8 * S.NCisAjsCktAltDC + 8 * S.NInterAll
    + S.Nsite * S.NQPOptTrans + S.Nsite * S.NQPOptTrans
    + (if S.FlagRBM then 1 else 0) *
      (S.NneuronCharge + S.Nsite + S.Nsite * S.NneuronCharge
        + S.NneuronSpin + S.Nsite + S.Nsite * S.NneuronSpin
        + S.NneuronGeneral + 2 * S.Nsite + 2 * S.Nsite * S.NneuronGeneral)
    + 2 * S.NPara
  let n := if S.iFlgOrbitalGeneral then n + 2 * S.Nsite * (2 * S.Nsite) + 2 * S.Nsite * (2 * S.Nsite)
    else n + S.Nsite * S.Nsite + S.Nsite * S.Nsite
  if S.NBackFlowIdx > 0 then n + S.Nsite * S.Nsite * S.Nsite * S.Nsite else n

/-- The tables of real numbers. (`/repo/src/mVMC/setmemory.c:229-252`) -/
inductive DblTab
  | coulombIntra | coulombInter | hund | pairHop | exchange | qpOptTrans
  deriving DecidableEq

/-- Their places; the last one is what is left. /repo/src/mVMC/setmemory.c:232-252. -/
def dblPtr (S : DefSizes) : DblTab → ℤ
  | .coulombIntra => 0
  | .coulombInter => S.NCoulombIntra
  | .hund => S.NCoulombIntra + S.NCoulombInter
  | .pairHop => S.NCoulombIntra + S.NCoulombInter + S.NHundCoupling
  | .exchange => S.NCoulombIntra + S.NCoulombInter + S.NHundCoupling + S.NPairHopping
  | .qpOptTrans =>
    S.NCoulombIntra + S.NCoulombInter + S.NHundCoupling + S.NPairHopping + S.NExchangeCoupling

/-- `NTotalDefDouble`. /repo/src/mVMC/readdef.c:834-842. -/
def nTotalDefDouble (S : DefSizes) : ℤ :=
  S.NCoulombIntra + S.NCoulombInter + S.NHundCoupling + S.NPairHopping + S.NExchangeCoupling
    + S.NQPOptTrans

/-! ## Work arrays -/

/-- Sizes used by `SetMemory`. (`/repo/src/mVMC/setmemory.c:291-460`) -/
structure WorkSizes where
  Ne : ℤ
  Nsite : ℤ
  NProj : ℤ
  NSlater : ℤ
  NOptTrans : ℤ
  NProjBF : ℤ
  NRBM : ℤ
  FlagRBM : ℤ
  NQPOptTrans : ℤ
  NSPGaussLeg : ℤ
  NMPTrans : ℤ
  NSRCG : ℤ
  NCisAjs : ℤ
  NCisAjsCktAlt : ℤ
  NCisAjsCktAltDC : ℤ

/-- /repo/src/mVMC/readdef.c:757. -/
def WorkSizes.nSize (S : WorkSizes) : ℤ := 2 * S.Ne
/-- /repo/src/mVMC/readdef.c:777. -/
def WorkSizes.nPara (S : WorkSizes) : ℤ :=
  S.NProj + S.NSlater + S.NOptTrans + S.NProjBF + S.NRBM * S.FlagRBM
/-- /repo/src/mVMC/readdef.c:778. -/
def WorkSizes.nQPFix (S : WorkSizes) : ℤ := S.NSPGaussLeg * S.NMPTrans
/-- /repo/src/mVMC/readdef.c:779. -/
def WorkSizes.nQPFull (S : WorkSizes) : ℤ := S.nQPFix * S.NQPOptTrans
/-- /repo/src/mVMC/readdef.c:780. -/
def WorkSizes.srOptSize (S : WorkSizes) : ℤ := S.nPara + 1

/-- The work arrays that share an allocation. (`/repo/src/mVMC/setmemory.c:291-460`) -/
inductive WorkTab
  | proj | rbm | projBF | slater | optTrans
  | tmpEleIdx | tmpEleCfg | tmpEleNum | tmpEleProjCnt | tmpEleSpn
  | invM | pfM
  | qpFullWeight | qpFixWeight | spglCos | spglSin | spglCosSin | spglCosCos | spglSinSin
  | srOptOO | srOptHO | srOptO
  | srOptOOReal | srOptHOReal | srOptOReal
  | physCisAjs | physCisAjsCktAlt | physCisAjsCktAltDC | localCisAjs | localCisAjsCktAltDC
  | qqqq | lslq
  | qCisAjsQ | qCisAjsCktAltQ | qCisAjsCktAltQDC | lslCisAjs
  deriving DecidableEq

/-- The allocations.  `TmpEle…` and `BurnEle…` are laid out alike, so are `InvM`, `QQQQ`,
`QCisAjsQ` and their real versions. (`/repo/src/mVMC/setmemory.c:291-460`) -/
inductive WorkAlloc
  | para | tmpEle | invM | qp | srOpt | srOptReal | phys | qqqq | qCisAjsQ
  deriving DecidableEq

/-- Which allocation a work array is part of. /repo/src/mVMC/setmemory.c:296-456. -/
def workAlloc : WorkTab → WorkAlloc
  | .proj | .rbm | .projBF | .slater | .optTrans => .para
  | .tmpEleIdx | .tmpEleCfg | .tmpEleNum | .tmpEleProjCnt | .tmpEleSpn => .tmpEle
  | .invM | .pfM => .invM
  | .qpFullWeight | .qpFixWeight | .spglCos | .spglSin | .spglCosSin | .spglCosCos | .spglSinSin => .qp
  | .srOptOO | .srOptHO | .srOptO => .srOpt
  | .srOptOOReal | .srOptHOReal | .srOptOReal => .srOptReal
  | .physCisAjs | .physCisAjsCktAlt | .physCisAjsCktAltDC | .localCisAjs | .localCisAjsCktAltDC => .phys
  | .qqqq | .lslq => .qqqq
  | .qCisAjsQ | .qCisAjsCktAltQ | .qCisAjsCktAltQDC | .lslCisAjs => .qCisAjsQ

/-- `NLSHam`. /repo/src/mVMC/include/global.h:303. -/
def nLSHam : ℤ := 2

/-- The number of elements allocated. /repo/src/mVMC/setmemory.c:296, 334, 359, 383,
395-413, 429-430, 437-438, 446-447. -/
def workSize (S : WorkSizes) : WorkAlloc → ℤ
  | .para => S.nPara
  | .tmpEle => 2 * S.Ne + 2 * S.Nsite + 2 * S.Nsite + S.NProj + 2 * S.Ne
  | .invM => S.nQPFull * (S.nSize * S.nSize + 1)
  | .qp => S.nQPFull + S.nQPFix + 5 * S.NSPGaussLeg
  | .srOpt => if S.NSRCG = 0 then (2 * S.srOptSize) * (2 * S.srOptSize + 2) else (2 * S.srOptSize) * 4
  | .srOptReal => if S.NSRCG = 0 then S.srOptSize * (S.srOptSize + 2) else S.srOptSize * 4
  | .phys => S.NCisAjs + S.NCisAjsCktAlt + S.NCisAjsCktAltDC + S.NCisAjs + S.NCisAjsCktAltDC
  | .qqqq => nLSHam * nLSHam * nLSHam * nLSHam + nLSHam * nLSHam
  | .qCisAjsQ => nLSHam * nLSHam * S.NCisAjs
      + nLSHam * nLSHam * (S.NCisAjsCktAltDC + S.NCisAjsCktAlt) + nLSHam * S.NCisAjs

/-- The place in the allocation. /repo/src/mVMC/setmemory.c:298-302, 334-339, 359-360,
383-389, 395-413, 429-434, 437-439, 446-450. -/
def workPtr (S : WorkSizes) : WorkTab → ℤ
  | .proj => 0
  | .rbm => S.NProj
  | .projBF => S.NProj + S.FlagRBM * S.NRBM
  | .slater => S.NProj + S.FlagRBM * S.NRBM + S.NProjBF
  | .optTrans => S.NProj + S.FlagRBM * S.NRBM + S.NProjBF + S.NSlater
  | .tmpEleIdx => 0
  | .tmpEleCfg => 2 * S.Ne
  | .tmpEleNum => 2 * S.Ne + 2 * S.Nsite
  | .tmpEleProjCnt => 2 * S.Ne + 2 * S.Nsite + 2 * S.Nsite
  | .tmpEleSpn => 2 * S.Ne + 2 * S.Nsite + 2 * S.Nsite + S.NProj
  | .invM => 0
  | .pfM => S.nQPFull * S.nSize * S.nSize
  | .qpFullWeight => 0
  | .qpFixWeight => S.nQPFull
  | .spglCos => S.nQPFull + S.nQPFix
  | .spglSin => S.nQPFull + S.nQPFix + S.NSPGaussLeg
  | .spglCosSin => S.nQPFull + S.nQPFix + 2 * S.NSPGaussLeg
  | .spglCosCos => S.nQPFull + S.nQPFix + 3 * S.NSPGaussLeg
  | .spglSinSin => S.nQPFull + S.nQPFix + 4 * S.NSPGaussLeg
  | .srOptOO => 0
  | .srOptHO => if S.NSRCG = 0 then (2 * S.srOptSize) * (2 * S.srOptSize) else 2 * S.srOptSize * 2
  | .srOptO => (if S.NSRCG = 0 then (2 * S.srOptSize) * (2 * S.srOptSize) else 2 * S.srOptSize * 2)
      + 2 * S.srOptSize
  | .srOptOOReal => 0
  | .srOptHOReal => if S.NSRCG = 0 then S.srOptSize * S.srOptSize else S.srOptSize * 2
  | .srOptOReal => (if S.NSRCG = 0 then S.srOptSize * S.srOptSize else S.srOptSize * 2) + S.srOptSize
  | .physCisAjs => 0
  | .physCisAjsCktAlt => S.NCisAjs
  | .physCisAjsCktAltDC => S.NCisAjs + S.NCisAjsCktAlt
  | .localCisAjs => S.NCisAjs + S.NCisAjsCktAlt + S.NCisAjsCktAltDC
  | .localCisAjsCktAltDC => S.NCisAjs + S.NCisAjsCktAlt + S.NCisAjsCktAltDC + S.NCisAjs
  | .qqqq => 0
  | .lslq => nLSHam * nLSHam * nLSHam * nLSHam
  | .qCisAjsQ => 0
  | .qCisAjsCktAltQ => nLSHam * nLSHam * S.NCisAjs
  | .qCisAjsCktAltQDC => nLSHam * nLSHam * S.NCisAjs + nLSHam * nLSHam * S.NCisAjsCktAlt
  | .lslCisAjs => nLSHam * nLSHam * S.NCisAjs + nLSHam * nLSHam * S.NCisAjsCktAlt
      + nLSHam * nLSHam * S.NCisAjsCktAltDC

end MVMC
