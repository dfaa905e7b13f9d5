import Verif.Model.R2kOut

/-! # The name list that `greenr2k` reads

A line is its first word and its second word. A word ends at a comma or at a slash, as Fortran reads it with format `*`. Quotation marks, asterisks and semicolons
in words, lines whose first word starts with a comma or a slash, and lines with one word are not modelled. -/
namespace MVMC

/-- A word that is read with format `*`. (`/repo/tool/greenr2k.F90:118,123-129`) -/
def r2kWord (w : List Char) : List Char := w.takeWhile fun c => c ≠ '/' && c ≠ ','

/-- Reading into a variable: it is left unchanged when nothing is before the separator. (`/repo/tool/greenr2k.F90:123-129`) -/
def r2kRead (old : Option (List Char)) (w : List Char) : Option (List Char) := if r2kWord w = [] then old else some (r2kWord w)

/-- The names of the files; `none`: no defined value, for `cmod` the empty word. (`/repo/tool/greenr2k.F90:97-98,102,115`) -/
structure R2kNames where
  one : Option (List Char)
  two : Option (List Char)
  modp : Option (List Char)
  cmod : Option (List Char)

/-- One line of the name list. (`/repo/tool/greenr2k.F90:117-132`) -/
def r2kNameLine (S : R2kNames) (l : List Char × List Char) : R2kNames :=
  if r2kLower (r2kWord l.1) = ['o', 'n', 'e', 'b', 'o', 'd', 'y', 'g'] then { S with one := r2kRead S.one l.2 }
  else if r2kLower (r2kWord l.1) = ['t', 'w', 'o', 'b', 'o', 'd', 'y', 'g'] then { S with two := r2kRead S.two l.2 }
  else if r2kLower (r2kWord l.1) = ['m', 'o', 'd', 'p', 'a', 'r', 'a'] then { S with modp := r2kRead S.modp l.2 }
  else if r2kLower (r2kWord l.1) = ['c', 'a', 'l', 'c', 'm', 'o', 'd'] then { S with cmod := r2kRead S.cmod l.2 }
  else S

/-- The name list. (`/repo/tool/greenr2k.F90:113-136`) -/
def r2kNameList (lines : List (List Char × List Char)) : R2kNames := lines.foldl r2kNameLine ⟨none, none, none, none⟩

/-- The kind of calculation: 4 is a run of mVMC, else the number in the file that is named. (`/repo/tool/greenr2k.F90:183-209`) -/
def r2kCalcType (fileType : List Char → ℤ) (S : R2kNames) : ℤ :=
  match S.cmod with
  | none => 4
  | some f => fileType f

end MVMC
