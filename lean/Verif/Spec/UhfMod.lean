import Verif.Model.UhfMod
import Verif.Props.KeyWord

/-! # Specification for the parameters of the Hartree–Fock program -/
namespace MVMC.Spec
open MVMC

/-- The documented names of the parameters. -/
def uhfDocVar : UMP → List String
  | .nsite => ["Nsite"]
  | .ne => ["Ne", "Nelectron"]
  | .ncond => ["Ncond"]
  | .twoSz => ["2Sz"]
  | .mix => ["Mix"]
  | .eps => ["EPS"]
  | .print => ["Print"]
  | .iterMax => ["IterationMax"]
  | .rndSeed => ["RndSeed"]
  | .epsSlater => ["EpsSlater"]
  | .mpTrans => ["NMPTrans"]

/-- The word names the parameter `v`, in any case. -/
def UNames (c : Word) (v : UMP) : Prop := ∃ n ∈ uhfDocVar v, c.map Char.toLower = n.toList.map Char.toLower

/-- A line as a user means it: skipped, or a word and a number. -/
def RegU (l : MPLine) : Prop := l.skip = true ∨ ∃ w q, l.word = some w ∧ l.num = some q ∧ NulFree w ∧ w.length < 200

/-- The line gives the parameter `v` the number `q`. -/
def USets (l : MPLine) (v : UMP) (q : ℚ) : Prop := l.skip = false ∧ l.num = some q ∧ ∃ w, l.word = some w ∧ UNames w v

/-- The number is what the parameter can hold: an integer variable holds numbers whose integer part fits into an `int`. -/
def UFits (v : UMP) (q : ℚ) : Prop := v = .mix ∨ (-2147483649 < q ∧ q < 2147483648)

/-- The parameter holds the number of the file or, except for the mixing, its integer part. -/
def UStored (v : UMP) (q r : ℚ) : Prop := (v = .mix ∧ r = q) ∨ (v ≠ .mix ∧ ∃ z : ℤ, r = z ∧ IsTrunc q z)

/-- The number is refused. -/
def URefused (v : UMP) (q : ℚ) : Prop := v = .twoSz ∧ IsTrunc q (-1)

/-- The parameters both programs read. -/
def uhfShared : UMP → Option MPVar
  | .nsite => some .Nsite
  | .ne => some .Ne
  | .ncond => some .NCond
  | .twoSz => some .TwoSz
  | .rndSeed => some .RndSeed
  | .mpTrans => some .MPTrans
  | _ => none

end MVMC.Spec
