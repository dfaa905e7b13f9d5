import Mathlib.Data.Rat.Floor
import Mathlib.Data.List.Basic

/-!
# Keywords and the name list

Models of `CheckWords`, `CheckKW`, `GetFileName` and the keyword part of
`GetInfoFromModPara` (readdef.c).  Words are lists of characters without the NUL
character; `none` or `ub` stands for an access outside a buffer or a read of an
uninitialised variable.
-/

namespace MVMC

/-- A word in C. (`/repo/src/mVMC/readdef.c:1496-1520`) -/
abbrev Word := List Char

/-- A zeroed buffer into which a word was copied. (`/repo/src/mVMC/readdef.c:1503-1507,1514`) -/
def cbuf (w : Word) (i : Nat) : Char := w.getD i '\x00'

/-- `strncmp(a + i, b + i, n)`. (`/repo/src/mVMC/readdef.c:1519`) -/
def strncmp (a b : Nat → Char) : Nat → Nat → Int
  | 0, _ => 0
  | n + 1, i =>
    if a i ≠ b i then (a i).toNat - (b i).toNat
    else if a i = '\x00' then 0
    else strncmp a b n (i + 1)

/-- `CheckWords`; both words are copied into buffers of 256 characters.
/repo/src/mVMC/readdef.c:1497-1521. -/
def checkWords (ctmp kw : Word) : Option Int :=
  if kw.length ≥ 256 ∨ ctmp.length ≥ 257 then none
  else
    let cKW_small := cbuf (kw.map Char.toLower)
    let ctmp_small := cbuf (ctmp.map Char.toLower)
    let n := ctmp.length
    let n := if n < kw.length then kw.length else n
    some (strncmp ctmp_small cKW_small n 0)

/-- The loop of `CheckKW`; the index found so far is kept in `iKWidx`.
/repo/src/mVMC/readdef.c:1607-1625. -/
def checkKWLoop (cKW : Word) : List Word → Nat → Option Nat → Option (Option Nat)
  | [], _, iKWidx => some iKWidx
  | w :: ws, itmp, iKWidx =>
    if cKW = [] then some iKWidx
    else match checkWords cKW w with
      | none => none
      | some r => checkKWLoop cKW ws (itmp + 1) (if r = 0 then some itmp else iKWidx)

/-- `CheckKW`: outer `none` is undefined behaviour, inner `none` the return value -1.
(`/repo/src/mVMC/readdef.c:1607-1625`) -/
def checkKW (cKW : Word) (list : List Word) : Option (Option Nat) :=
  checkKWLoop cKW list 0 none

/-- `cKWListOfFileNameList`. /repo/src/mVMC/include/readdef.h:33-60. -/
def kwList : List Word :=
  ["ModPara", "LocSpin", "Trans", "CoulombIntra", "CoulombInter", "Hund", "PairHop", "Exchange",
   "Gutzwiller", "Jastrow", "DH2", "DH4",
   "ChargeRBM_HiddenLayer", "ChargeRBM_PhysLayer", "ChargeRBM_PhysHidden",
   "SpinRBM_HiddenLayer", "SpinRBM_PhysLayer", "SpinRBM_PhysHidden",
   "GeneralRBM_HiddenLayer", "GeneralRBM_PhysLayer", "GeneralRBM_PhysHidden",
   "Orbital", "OrbitalAntiParallel", "OrbitalParallel", "OrbitalGeneral",
   "TransSym", "InGutzwiller", "InJastrow", "InDH2", "InDH4",
   "InChargeRBM_HiddenLayer", "InChargeRBM_PhysLayer", "InChargeRBM_PhysHidden",
   "InSpinRBM_HiddenLayer", "InSpinRBM_PhysLayer", "InSpinRBM_PhysHidden",
   "InGeneralRBM_HiddenLayer", "InGeneralRBM_PhysLayer", "InGeneralRBM_PhysHidden",
   "InOrbital", "InOrbitalAntiParallel", "InOrbitalParallel", "InOrbitalGeneral",
   "OneBodyG", "TwoBodyG", "TwoBodyGEx", "InterAll", "OptTrans", "InOptTrans",
   "BF", "BFRange"].map String.toList

/-- `enum KWIdxInt`. /repo/src/mVMC/include/readdef.h:64-90. -/
inductive KWIdxInt
  | KWModPara | KWLocSpin | KWTrans | KWCoulombIntra | KWCoulombInter | KWHund | KWPairHop | KWExchange | KWGutzwiller | KWJastrow | KWDH2 | KWDH4
  | KWChargeRBM_HiddenLayer | KWChargeRBM_PhysLayer | KWChargeRBM_PhysHidden
  | KWSpinRBM_HiddenLayer | KWSpinRBM_PhysLayer | KWSpinRBM_PhysHidden
  | KWGeneralRBM_HiddenLayer | KWGeneralRBM_PhysLayer | KWGeneralRBM_PhysHidden
  | KWOrbital | KWOrbitalAntiParallel | KWOrbitalParallel | KWOrbitalGeneral | KWTransSym | KWInGutzwiller | KWInJastrow | KWInDH2 | KWInDH4
  | KWInChargeRBM_HiddenLayer | KWInChargeRBM_PhysLayer | KWInChargeRBM_PhysHidden
  | KWInSpinRBM_HiddenLayer | KWInSpinRBM_PhysLayer | KWInSpinRBM_PhysHidden
  | KWInGeneralRBM_HiddenLayer | KWInGeneralRBM_PhysLayer | KWInGeneralRBM_PhysHidden
  | KWInOrbital | KWInOrbitalAntiParallel | KWInOrbitalParallel | KWInorbitalGeneral | KWOneBodyG | KWTwoBodyG | KWTwoBodyGEx | KWInterAll | KWOptTrans | KWInOptTrans | KWBF | KWBFRange
  deriving DecidableEq

/-- Result of reading a text file with a C function. (`/repo/src/mVMC/readdef.c:1607-1625`) -/
inductive KwOut (α : Type)
  | ok (a : α)
  | err
  | ub
  deriving DecidableEq, Repr

/-- A line of the name list: whether its first character is the newline, and the words
that `sscanf` finds (at most two are used). (`/repo/src/mVMC/readdef.c:1715-1717`) -/
structure NLLine where
  blank : Bool
  words : List Word
  deriving DecidableEq

/-- The loop of `GetFileName`.  `kw`, `fn` are the variables `ctmpKW`, `ctmpFileName`
which are not initialised and keep their value when a line has too few words.
/repo/src/mVMC/readdef.c:1703-1745. -/
def getFileNameLoop : List NLLine → Option Word → Option Word → (Nat → Option Word) →
    KwOut (Nat → Option Word)
  | [], _, _, tab => .ok tab
  | l :: ls, kw, fn, tab =>
    let kw := match l.words with | w :: _ => some w | [] => kw
    let fn := match l.words with | _ :: f :: _ => some f | _ => fn
    if (l.words.headD []).length ≥ 200 then .ub
    else if l.blank then getFileNameLoop ls kw fn tab
    else match kw with
      | none => .ub
      | some k =>
        if k.head? = some '#' then getFileNameLoop ls kw fn tab
        else match fn with
          | none => .ub
          | some f =>
            if k = [] ∨ f = [] then getFileNameLoop ls kw fn tab
            else match checkKW k kwList with
              | none => .ub
              | some none => .err
              | some (some idx) =>
                if tab idx ≠ none then .err
                else if f.length ≥ 200 then .ub
                else getFileNameLoop ls kw fn (fun j => if j = idx then some f else tab j)

/-- `GetFileName` on an existing file. (`/repo/src/mVMC/readdef.c:1699-1746`) -/
def getFileName (ls : List NLLine) : KwOut (Nat → Option Word) :=
  getFileNameLoop ls none none (fun _ => none)

/-! ## ModPara -/

/-- The variables set by `modpara.def`. (`/repo/src/mVMC/readdef.c:1825-1970`) -/
inductive MPVar
  | VMCCalMode | LanczosMode | DataIdxStart | DataQtySmp | Nsite | Ne | NCond | TwoSz
  | SPGaussLeg | SPStot | MPTrans | SROptItrStep | SROptItrSmp | RedCut | StaDel | StepDt
  | CGMaxIter | CGTol | WarmUp | Interval | Sample | ExUpdatePath | RndSeed | SplitSize
  | Store | SRCG | Nneuron | NneuronCharge | NneuronSpin | NneuronGeneral | BlockSize
  deriving DecidableEq

/-- The chain of comparisons in `GetInfoFromModPara`, in order.
/repo/src/mVMC/readdef.c:1880-1945. -/
def mpList : List (Word × MPVar) :=
  [("NVMCCalMode", .VMCCalMode), ("NLanczosMode", .LanczosMode), ("NDataIdxStart", .DataIdxStart),
   ("NDataQtySmp", .DataQtySmp), ("Nsite", .Nsite), ("Ne", .Ne), ("Nelectron", .Ne),
   ("Ncond", .NCond), ("2Sz", .TwoSz), ("NSPGaussLeg", .SPGaussLeg), ("NSPStot", .SPStot),
   ("NMPTrans", .MPTrans), ("NSROptItrStep", .SROptItrStep), ("NSROptItrSmp", .SROptItrSmp),
   ("DSROptRedCut", .RedCut), ("DSROptStaDel", .StaDel), ("DSROptStepDt", .StepDt),
   ("NSROptCGMaxIter", .CGMaxIter), ("DSROptCGTol", .CGTol), ("NVMCWarmUp", .WarmUp),
   ("NVMCInterval", .Interval), ("NVMCSample", .Sample), ("NExUpdatePath", .ExUpdatePath),
   ("RndSeed", .RndSeed), ("NSplitSize", .SplitSize), ("NStore", .Store), ("NSRCG", .SRCG),
   ("Nneuron", .Nneuron), ("NneuronCharge", .NneuronCharge), ("NneuronSpin", .NneuronSpin),
   ("NneuronGeneral", .NneuronGeneral), ("NBlockSize_RBMRatio", .BlockSize)].map
     fun p => (p.1.toList, p.2)

/-- First entry of the chain that matches. (`/repo/src/mVMC/readdef.c:1850-1960`) -/
def mpFind (w : Word) : List (Word × MPVar) → Option (Option MPVar)
  | [] => some none
  | p :: ps => match checkWords w p.1 with
    | none => none
    | some r => if r = 0 then some (some p.2) else mpFind w ps

/-- The floating-point parameters keep the number, the others its integer part.
(`/repo/src/mVMC/readdef.c:1850-1960`) -/
def isDouble : MPVar → Bool
  | .RedCut | .StaDel | .StepDt | .CGTol => true
  | _ => false

/-- C's conversion from `double` to `int`: truncation, undefined outside the range.
(`/repo/src/mVMC/readdef.c:1850-1960`) -/
def toCInt (q : ℚ) : Option ℤ :=
  let t : ℤ := if 0 ≤ q then ⌊q⌋ else ⌈q⌉
  if -2147483648 ≤ t ∧ t ≤ 2147483647 then some t else none

/-- A line of `modpara.def`: whether it is skipped (it starts with a newline or `-`),
the word and the number found by `sscanf`. (`/repo/src/mVMC/readdef.c:1847-1875`) -/
structure MPLine where
  skip : Bool
  word : Option Word
  num : Option ℚ

/-- The loop of `GetInfoFromModPara`; `ctmp` and `dtmp` keep their value when a line
has too few fields, `dtmp` is not initialised.
/repo/src/mVMC/readdef.c:1876-1951. -/
def modParaLoop : List MPLine → Word → Option ℚ → (MPVar → ℚ) → KwOut (MPVar → ℚ)
  | [], _, _, st => .ok st
  | l :: ls, ctmp, dtmp, st =>
    if l.skip then modParaLoop ls ctmp dtmp st
    else
      let ctmp := l.word.getD ctmp
      let dtmp := match l.word, l.num with | some _, some q => some q | _, _ => dtmp
      match mpFind ctmp mpList with
      | none => .ub
      | some none => .err
      | some (some v) =>
        match dtmp with
        | none => .ub
        | some q =>
          if isDouble v then
            modParaLoop ls ctmp (some q) (fun x => if x = v then q else st x)
          else match toCInt q with
            | none => .ub
            | some z =>
              if v = .TwoSz ∧ z = -1 then .err
              else modParaLoop ls ctmp (some q) (fun x => if x = v then (z : ℚ) else st x)

end MVMC
