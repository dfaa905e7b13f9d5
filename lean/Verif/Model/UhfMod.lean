import Verif.Model.KeyWord
import Verif.Model.UhfRead

/-!
# Model of the reader of `modpara.def` in the Hartree–Fock program

`CheckWords` is the same as in the main program (`Model/KeyWord.lean`). Numbers are exact.
-/
namespace MVMC

/-- The variables set by `modpara.def`. (`/repo/src/ComplexUHF/readdef.c:235-261`) -/
inductive UMP
  | nsite | ne | ncond | twoSz | mix | eps | print | iterMax | rndSeed | epsSlater | mpTrans
  deriving DecidableEq

/-- The words that are skipped with a warning, as in the code with one of them three times. (`/repo/src/ComplexUHF/readdef.c:212-230`) -/
def umpUnused : List Word :=
  ["NVMCCalMode", "NLanczosMode", "NDataIdxStart", "NDataQtySmp", "NDataQtySmp", "NDataQtySmp", "NSPGaussLeg", "NSPStot", "NSROptItrStep", "NSROptItrSmp", "DSROptRedCut",
   "DSROptStaDel", "DSROptStepDt", "NVMCWarmUp", "NVMCInterval", "NVMCSample", "NExUpdatePath", "NSplitSize", "NStore"].map String.toList

/-- The comparisons in order; a word without variable is not used. (`/repo/src/ComplexUHF/readdef.c:212-261`) -/
def umpList : List (Word × Option UMP) :=
  umpUnused.map (fun w => (w, none)) ++
  [("Nsite", UMP.nsite), ("Ne", .ne), ("Nelectron", .ne), ("Ncond", .ncond), ("2Sz", .twoSz), ("Mix", .mix), ("EPS", .eps), ("Print", .print), ("IterationMax", .iterMax),
   ("RndSeed", .rndSeed), ("EpsSlater", .epsSlater), ("NMPTrans", .mpTrans)].map fun p => (p.1.toList, some p.2)

/-- The first comparison that succeeds; outer `none` is undefined behaviour. (`/repo/src/ComplexUHF/readdef.c:212-263`) -/
def umpFind (w : Word) : List (Word × Option UMP) → Option (Option (Option UMP))
  | [] => some none
  | p :: ps => match checkWords w p.1 with
    | none => none
    | some r => if r = 0 then some (some p.2) else umpFind w ps

/-- The loop over the lines. `ctmp` and `dtmp` keep their value if a line has too few fields, `dtmp` is not initialised; `ctmp` has 200 characters. After an unknown word there is only a
warning. (`/repo/src/ComplexUHF/readdef.c:208-264`) -/
def umpLoop : List MPLine → Word → Option ℚ → (UMP → ℚ) → KwOut (UMP → ℚ)
  | [], _, _, st => .ok st
  | l :: ls, ctmp, dtmp, st =>
    if l.skip then umpLoop ls ctmp dtmp st
    else
      let ctmp := l.word.getD ctmp
      let dtmp := match l.word, l.num with | some _, some q => some q | _, _ => dtmp
      if ctmp.length ≥ 200 then .ub
      else match umpFind ctmp umpList with
      | none => .ub
      | some none => umpLoop ls ctmp dtmp st
      | some (some none) => umpLoop ls ctmp dtmp st
      | some (some (some v)) =>
        match dtmp with
        | none => .ub
        | some q =>
          if v = .mix then umpLoop ls ctmp (some q) (fun x => if x = v then q else st x)
          else match toCInt q with
            | none => .ub
            | some z =>
              if v = .twoSz ∧ z = -1 then .err
              else umpLoop ls ctmp (some q) (fun x => if x = v then (z : ℚ) else st x)

/-- `SetInitialValue`; the other variables belong to a global variable and start at 0. (`/repo/src/ComplexUHF/readdef.c:981-998`, `/repo/src/ComplexUHF/UHFmain.c:46`) -/
def umpDefault : UMP → ℚ
  | .mix => 1 / 2
  | .eps => 10
  | .print => 0
  | .iterMax => 2000
  | .epsSlater => 6
  | .ncond => 0
  | .twoSz => -1
  | _ => 0

/-- The boundary: `APFlag` and `NMPTrans`. (`/repo/src/ComplexUHF/readdef.c:384-389`) -/
def umpAP (n : ℤ) : Bool × ℤ := if n < 0 then (true, -n) else (false, n)

/-- The first pass from the lines of `modpara.def` on: `2Sz` is -1 if it is not given. (`/repo/src/ComplexUHF/readdef.c:136-393`) -/
def uhfFirstPass (mod : Word × List MPLine) (files : UKW → Option (Option HdrFile)) : KwOut ((UMP → ℚ) × USizes) :=
  if files .locSpin = none then .err
  else match umpLoop mod.2 mod.1 none umpDefault with
  | .ub => .ub
  | .err => .err
  | .ok st =>
    match uhfNInt ⟨⌊st .nsite⌋, some ⌊st .ne⌋, some ⌊st .ncond⌋, if st .twoSz = -1 then none else some ⌊st .twoSz⌋⟩ files with
    | .ub => .ub
    | .err => .err
    | .ok z => .ok (st, z)

end MVMC
