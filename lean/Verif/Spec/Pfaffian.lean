import Mathlib.Algebra.Ring.Int.Defs
import Mathlib.Tactic.Ring
import Mathlib.Algebra.BigOperators.Group.Finset.Basic

/-!
# The Pfaffian of an antisymmetric kernel on an ordered list

`pf A [x₁,…,xₙ]` is the Pfaffian of the matrix `A x_i x_j`, defined by expansion along the first row:
`pf A [] = 1`, `pf A (x :: l) = Σ_k (-1)^k A x l_k · pf A (l without l_k)` (zero for odd length).
-/
namespace MVMC.Spec

variable {α R : Type} [CommRing R]

/-- Alternating sum over the elements of a list: `Σ_k (-1)^k c(l_k) F(l without l_k)`. -/
def altSum (c : α → R) (F : List α → R) : List α → R
  | [] => 0
  | y :: l => c y * F l - altSum c (fun m => F (y :: m)) l

/-- Pfaffian with at most `n` expansion steps. -/
def pfN (A : α → α → R) : Nat → List α → R
  | _, [] => 1
  | 0, _ :: _ => 0
  | n + 1, x :: l => altSum (A x) (pfN A n) l

/-- The Pfaffian. -/
def pf (A : α → α → R) (l : List α) : R := pfN A l.length l

/-- The Pfaffian of the `n × n` matrix `A (rs i) (rs j)`. -/
def pfOf (A : α → α → R) (n : Nat) (rs : Nat → α) : R := pf A ((List.range n).map rs)

/-- `N` is the inverse of the `n × n` matrix `A (rs i) (rs j)`. -/
def IsInv (A : α → α → R) (n : Nat) (rs : Nat → α) (N : Nat → Nat → R) : Prop :=
  ∀ i, i < n → ∀ j, j < n → ∑ k ∈ Finset.range n, N i k * A (rs k) (rs j) = if i = j then 1 else 0

-- the 4 x 4 Pfaffian
example (A : Nat → Nat → Int) : pf A [0, 1, 2, 3] = A 0 1 * A 2 3 - A 0 2 * A 1 3 + A 0 3 * A 1 2 := by
  simp only [pf, pfN, altSum, List.length]
  ring

-- an odd number of particles has no pairing
example (A : Nat → Nat → Int) : pf A [0, 1, 2] = 0 := by
  simp only [pf, pfN, altSum, List.length]
  ring

example : pf (fun i j : Nat => ((j : Int) - i) ^ 3) [0, 1, 3, 7] = -3024 := by decide

end MVMC.Spec
