import Verif.Model.UhfRead

/-! # Specification for the readers of the Hartree–Fock program -/
namespace MVMC.Spec
open MVMC

/-- The tables filled row by row: the integers at the start of a line and the numbers that must follow. -/
def uhfCols : UKW → Option (ℕ × ℕ)
  | .trans => some (4, 1)
  | .coulombIntra => some (1, 1)
  | .coulombInter => some (2, 1)
  | .hund => some (2, 1)
  | .exchange => some (2, 1)
  | .interAll => some (8, 2)
  | .initial => some (4, 1)
  | .oneBodyG => some (4, 0)
  | _ => none

/-- The row that a complete line means: hoppings, general interactions and initial values are complex, and hoppings and initial values without imaginary part are real. -/
def uhfRowOf (k : UKW) (n : ℕ) (l : DLine) : URow :=
  match k with
  | .trans | .initial => ⟨l.ints.take n, l.vals.head?, some (l.vals[1]?.getD 0)⟩
  | .interAll => ⟨l.ints.take n, l.vals.head?, l.vals[1]?⟩
  | .oneBodyG => ⟨l.ints.take n, none, none⟩
  | _ => ⟨l.ints.take n, l.vals.head?, none⟩

/-- The keyword of the manual for each kind of file. -/
def uhfDocName : UKW → String
  | .locSpin => "LocSpin"
  | .trans => "Trans"
  | .coulombIntra => "CoulombIntra"
  | .coulombInter => "CoulombInter"
  | .hund => "Hund"
  | .pairHop => "PairHop"
  | .exchange => "Exchange"
  | .orbital => "Orbital"
  | .orbitalAP => "OrbitalAntiParallel"
  | .orbitalP => "OrbitalParallel"
  | .orbitalG => "OrbitalGeneral"
  | .oneBodyG => "OneBodyG"
  | .interAll => "InterAll"
  | .initial => "Initial"

/-- The table that complete lines mean; a pair hopping is stored in both directions. -/
def uhfTable (k : UKW) (ls : List DLine) : List URow :=
  match uhfCols k with
  | some (n, _) => ls.map (uhfRowOf k n)
  | none => ls.flatMap fun l => [⟨l.ints.take 2, l.vals.head?, none⟩, ⟨(l.ints.take 2).reverse, l.vals.head?, none⟩]

/-- A line with all its numbers. -/
def UhfComplete (k : UKW) (l : DLine) : Prop :=
  match uhfCols k with
  | some (n, m) => n ≤ l.ints.length ∧ m ≤ l.vals.length
  | none => 2 ≤ l.ints.length ∧ 1 ≤ l.vals.length

/-- A row no line has filled. -/
def uhfNoRow (k : UKW) : URow :=
  match uhfCols k with
  | some (n, _) => ⟨List.replicate n 0, none, none⟩
  | none => ⟨[0, 0], none, none⟩

/-- The count a file of a keyword announces. -/
def uhfAnnounced (files : UKW → Option (Option HdrFile)) (k : UKW) : ℤ :=
  match files k with
  | some (some f) => f.num.getD 0
  | _ => 0

/-- A head as meant: at least two lines, the second with a number. -/
def UhfHead (f : HdrFile) : Prop := 2 ≤ f.nLines ∧ f.num ≠ none

/-- A line of the file of one-body operators whose spins agree. -/
def UhfSameSpin (l : DLine) : Prop := ∃ a s b r, l.ints = a :: s :: b :: s :: r

/-- Input of the second pass with complete head lines, complete lines in `locspn.def`, agreeing spins in the file of one-body operators and no orbital files. -/
structure UhfRegular (z : USizes) (files : UKW → Option (Option (List DLine))) (loc : List DLine) : Prop where
  heads : ∀ k, files k ≠ some none
  locFile : files .locSpin = some (some loc)
  locLines : ∀ l ∈ loc, 2 ≤ l.ints.length
  spins : ∀ ls, files .oneBodyG = some (some ls) → ∀ l ∈ ls, UhfSameSpin l
  noOrb : files .orbital = none ∧ files .orbitalAP = none ∧ files .orbitalP = none ∧ files .orbitalG = none
  counts : ∀ k, 0 ≤ z.buf.cnt k
  even : Even (z.buf.cnt .pairHop)

/-- The number of rows a line fills. -/
def uhfPerLine (k : UKW) : ℤ := if k = .pairHop then 2 else 1

/-- A file of a table with a positive count. -/
def UhfUsed (z : USizes) (files : UKW → Option (Option (List DLine))) (k : UKW) (ls : List DLine) : Prop :=
  k ≠ .locSpin ∧ files k = some (some ls) ∧ 0 < z.buf.cnt k

/-- The keywords of orbital files. -/
def uhfOrbKW (k : UKW) : Prop := k = .orbital ∨ k = .orbitalAP ∨ k = .orbitalP ∨ k = .orbitalG

end MVMC.Spec
