import Mathlib.Data.List.Basic
import Mathlib.Data.Matrix.Mul
import Mathlib.Analysis.Real.Sqrt

/-! # Meaning of a file of words and values (C86) -/
namespace MVMC.Spec

/-- the value on the last line whose word is one of the given ones, in capital or small letters -/
def lastSet (ws : List (List Char)) (lines : List (List Char × List Char)) : Option (List Char) :=
  (lines.reverse.find? fun l => decide (l.1.map Char.toLower ∈ ws)).map fun l => l.2

/-- `b` are the vectors dual to the vectors `d` -/
def IsDual (d b : Fin 3 → Fin 3 → ℝ) : Prop := ∀ i j, (∑ x, d i x * b j x) = if i = j then 1 else 0

/-- length of the vector with coordinates `q` in the basis `b` -/
noncomputable def cartLen (b : Fin 3 → Fin 3 → ℝ) (q : ℚ × ℚ × ℚ) : ℝ :=
  let v : Fin 3 → ℝ := (q.1 : ℝ) • b 0 + (q.2.1 : ℝ) • b 1 + (q.2.2 : ℝ) • b 2
  Real.sqrt (dotProduct v v)

end MVMC.Spec
