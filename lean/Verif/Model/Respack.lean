import Mathlib.Data.Nat.Sqrt
import Mathlib.LinearAlgebra.Matrix.NonsingularInverse
import Mathlib.Data.Int.Notation
import Mathlib.Logic.Function.Basic

/-!
# Conversion of RESPACK matrices to the Wannier90 format

`res2wan` of `/repo/tool/respack2wan90.py`. The input starts after the three lines of the header; a line is given by the values Python reads from it. Numbers are
values of an arbitrary type (no rounding to six decimals). Simplified: an orbital number 0, which Python takes as the last row, is an error here, and so is a line
of the wrong kind; `numpy.sqrt(n)+0.1` is the integer square root, which is the same if the first block is complete.
-/

namespace MVMC

/-- A line of the input: empty, a lattice vector, or an element with its two orbitals (`/repo/tool/respack2wan90.py:41-45,56,62-63`). -/
inductive RLine (V : Type) where
  | blank
  | vec (r : ℤ × ℤ × ℤ)
  | hop (e : ℕ × ℕ × V)

variable {V : Type}

/-- `temp1` after the loop (`/repo/tool/respack2wan90.py:38-45`), read from the end: an empty line starts a new block. -/
def rSplit : List (RLine V) → List (List (RLine V))
  | [] => [[]]
  | .blank :: l => [] :: rSplit l
  | x :: l => (x :: (rSplit l).headD []) :: (rSplit l).tail

/-- The assignments to `hopping[ir, ., .]` (`/repo/tool/respack2wan90.py:58-63`); an index out of range raises an exception. -/
def rFill (norb : ℕ) : List (RLine V) → (ℕ → ℕ → V) → Option (ℕ → ℕ → V)
  | [], h => some h
  | .hop (i, j, v) :: l, h =>
    if 1 ≤ i ∧ i ≤ norb ∧ 1 ≤ j ∧ j ≤ norb then
      rFill norb l fun a b => if a = i - 1 ∧ b = j - 1 then v else h a b
    else none
  | _ :: _, _ => none

/-- One pass of the loop over `ir` (`/repo/tool/respack2wan90.py:54-63`): the vector and `norb*norb` elements; fewer lines raise an exception. -/
def rBlock (zero : V) (norb : ℕ) : List (RLine V) → Option ((ℤ × ℤ × ℤ) × (ℕ → ℕ → V))
  | .vec r :: l =>
    if l.length < norb * norb then none
    else (rFill norb (l.take (norb * norb)) fun _ _ => zero).map fun h => (r, h)
  | _ => none

/-- The lines written for one vector (`/repo/tool/respack2wan90.py:79-83`). -/
def rOut (norb : ℕ) (b : (ℤ × ℤ × ℤ) × (ℕ → ℕ → V)) : List ((ℤ × ℤ × ℤ) × ℕ × ℕ × V) :=
  (List.range norb).flatMap fun iorb => (List.range norb).map fun jorb => (b.1, jorb + 1, iorb + 1, b.2 jorb iorb)

/-- All blocks in order, or an exception (`/repo/tool/respack2wan90.py:54-63,78-83`). -/
def rBlocks (zero : V) (norb : ℕ) : List (List (RLine V)) → Option (List ((ℤ × ℤ × ℤ) × ℕ × ℕ × V))
  | [] => some []
  | b :: bs =>
    match rBlock zero norb b, rBlocks zero norb bs with
    | some x, some y => some (rOut norb x ++ y)
    | _, _ => none

/-- `res2wan` (`/repo/tool/respack2wan90.py:24-83`): number of orbitals, number of vectors (`nr`, the number of empty lines) and the lines of the table. -/
def res2wan (zero : V) (lines : List (RLine V)) : Option (ℕ × ℕ × List ((ℤ × ℤ × ℤ) × ℕ × ℕ × V)) :=
  let t := rSplit lines
  let nr := t.length - 1
  let norb := Nat.sqrt ((t.headD []).length - 1)
  (rBlocks zero norb (t.take nr)).map fun out => (norb, nr, out)

/-- The line of weights (`/repo/tool/respack2wan90.py:72-75`): the numbers of ones in the finished lines and in the open line after `n` passes. -/
def wtLoop : ℕ → List ℕ × ℕ
  | 0 => ([], 0)
  | n + 1 => if n % 15 = 14 then ((wtLoop n).1 ++ [(wtLoop n).2 + 1], 0) else ((wtLoop n).1, (wtLoop n).2 + 1)

/-- The lines of weights with the last line break (`/repo/tool/respack2wan90.py:72-77`). -/
def wtLines (nr : ℕ) : List ℕ := if nr % 15 ≠ 0 then (wtLoop nr).1 ++ [(wtLoop nr).2] else (wtLoop nr).1

open Classical in
/-- `ref2geom` (`/repo/tool/respack2wan90.py:86-126`): lattice vectors in Bohr and centres in, lattice vectors in units of `bohr` and centres as written out;
`numpy.linalg.inv` raises an exception for a singular matrix. -/
noncomputable def ref2geom {K : Type} [Field K] (bohr : K) {nwan : ℕ} (avec : Matrix (Fin 3) (Fin 3) K) (centre : Matrix (Fin nwan) (Fin 3) K) :
    Option (Matrix (Fin 3) (Fin 3) K × Matrix (Fin nwan) (Fin 3) K) :=
  if avec.det = 0 then none else some (bohr • avec, centre * avec⁻¹)

end MVMC
