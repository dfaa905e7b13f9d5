import Mathlib.Algebra.Polynomial.Derivative
import Mathlib.MeasureTheory.Integral.IntervalIntegral.Basic

/-! # Legendre polynomials and quadrature rules -/
namespace MVMC.Spec
open Polynomial

/-- Rodrigues' formula: `P_n = 1/(2ⁿ n!) dⁿ/dxⁿ (x² - 1)ⁿ`. -/
noncomputable def legP (n : Nat) : ℝ[X] := C (1 / ((2 : ℝ) ^ n * n.factorial)) * derivative^[n] ((X ^ 2 - 1) ^ n)

/-- The rule with nodes `x i` and weights `w i` (`i < n`) integrates `f` exactly over `[a, b]`. -/
def IntegratesExactly (a b : ℝ) (n : Nat) (x w : Nat → ℝ) (f : ℝ → ℝ) : Prop :=
  ∑ i ∈ Finset.range n, w i * f (x i) = ∫ t in a..b, f t

/-- The nodes `x i` (`i < n`) on `[a, b]` are further apart than `(b - a)(n + 1)·eps`. -/
def Separated (a b eps : ℝ) (n : Nat) (x : Nat → ℝ) : Prop := ∀ i < n, ∀ j < n, i ≠ j → (b - a) * (n + 1) * eps < |x i - x j|

end MVMC.Spec
