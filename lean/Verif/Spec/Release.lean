import Verif.Model.Release

/-! # Which blocks a process still holds at the end (C85) -/
namespace MVMC.Spec

/-- blocks that are not given back: the last one of a variable and those whose address was overwritten -/
def heldBy : PtrSt × ℕ → ℕ
  | (.live, k) => k + 1
  | (_, k) => k

/-- a work space was asked for -/
def Asked (k : WsKind) (reqs : List (WsKind × ℤ)) : Prop := ∃ r ∈ reqs, r.1 = k ∧ 0 < r.2

instance (k : WsKind) (reqs : List (WsKind × ℤ)) : Decidable (Asked k reqs) :=
  inferInstanceAs (Decidable (∃ r ∈ reqs, r.1 = k ∧ 0 < r.2))

/-- the table of the one-body lines is made but not given back -/
def LineTableKept (P : MemPar) : Prop := P.rank = 0 ∧ (P.NCisAjsCktAlt > 0 ∨ P.NLanczosMode > 1) ∧ ¬ (P.world = 0 ∧ P.NCisAjsCktAlt > 0)

instance (P : MemPar) : Decidable (LineTableKept P) := inferInstanceAs (Decidable (_ ∧ _))

/-- the blocks that are never given back -/
def memHeld (P : MemPar) (reqs : List (WsKind × ℤ)) : MemBlk → ℕ
  | .var .dirNameList => if P.multi = true ∧ P.world = 0 then 1 else 0
  | .var .cFileNameListFile => if P.rank = 0 then if P.NCisAjsCktAlt > 0 ∨ P.NLanczosMode > 1 then 2 else 1 else 0
  | .var .iOneBodyGIdx => if LineTableKept P then 1 else 0
  | .row .iOneBodyGIdx i => if LineTableKept P ∧ i < 2 * P.Nsite then 1 else 0
  | .var .chargeRBM | .var .spinRBM | .var .generalRBM | .var .rbmCnt | .var .tmpRBMCnt | .var .burnRBMCnt => if P.FlagRBM ≠ 0 then 1 else 0
  | .var .orbitalSgn | .var .qpTransInv | .var .paraCoulombIntra | .var .paraQPTrans | .var .eleNum | .var .eleSpn | .var .slaterElmReal | .var .invMReal
  | .var .wsTComplex | .var .wsTComplexNow => 1
  | .var .eleProjBFCnt | .var .smpSltElmBF | .var .smpEta | .var .smpEtaFlag => if P.NBackFlowIdx > 0 then 1 else 0
  | .var .slaterElmBF | .var .eta | .var .etaFlag | .var .bfSubIdx => (if P.NBackFlowIdx > 0 then 1 else 0) + if P.FlagRBM ≠ 0 then 1 else 0
  | .row .eta i | .row .etaFlag i => if i < P.Nsite then (if P.NBackFlowIdx > 0 then 1 else 0) + if P.FlagRBM ≠ 0 then 1 else 0 else 0
  | .row .bfSubIdx i => if i < P.NrangeIdx then (if P.NBackFlowIdx > 0 then 1 else 0) + if P.FlagRBM ≠ 0 then 1 else 0 else 0
  | .var .srOptOOReal => if P.NVMCCalMode = 0 then 1 else 0
  | .var .srOptOStoreReal => if P.NVMCCalMode = 0 ∧ (P.NSRCG = 1 ∨ P.NStoreO ≠ 0) ∧ P.AllComplexFlag = 0 then 1 else 0
  | .var .srOptOStore => if P.NVMCCalMode = 0 ∧ (P.NSRCG = 1 ∨ P.NStoreO ≠ 0) ∧ P.AllComplexFlag ≠ 0 then 1 else 0
  | .var .wsComplex => if Asked .complex reqs then 1 else 0
  | .row .wsTComplex i => if i < P.NThread ∧ Asked .tComplex reqs then 1 else 0
  | _ => 0

end MVMC.Spec
