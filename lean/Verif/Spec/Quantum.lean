import Mathlib.LinearAlgebra.Matrix.ConjTranspose
import Mathlib.LinearAlgebra.Matrix.Hermitian
import Mathlib.Data.Complex.Basic
import Mathlib.Data.Complex.BigOperators
import Mathlib.Data.Matrix.Mul
import Mathlib.Tactic.Ring
import Mathlib.Tactic.Abel
import Mathlib.Tactic.Linarith
import Mathlib.Tactic.NormNum
import Mathlib.Tactic.FieldSimp
import Mathlib.Tactic.Positivity

/-!
# States and operators on a finite configuration space

Plain finite-dimensional quantum mechanics, with no reference to the code: a
state is a vector over the configurations, an operator a matrix.
-/

namespace MVMC
open Complex Matrix

namespace Spec

variable {ι : Type} [Fintype ι] [DecidableEq ι]

/-- `<psi|A|psi>` -/
noncomputable def ev (ψ : ι → ℂ) (A : Matrix ι ι ℂ) : ℂ := star ψ ⬝ᵥ (A *ᵥ ψ)

/-- `<psi|psi>` as a real number -/
noncomputable def norm2 (ψ : ι → ℂ) : ℝ := ∑ x, normSq (ψ x)

/-- `<psi|A|psi>/<psi|psi>` -/
noncomputable def expect (ψ : ι → ℂ) (A : Matrix ι ι ℂ) : ℂ := ev ψ A / norm2 ψ

/-- energy of a state -/
noncomputable def energyOfState (ψ : ι → ℂ) (H : Matrix ι ι ℂ) : ℝ := (expect ψ H).re

/-- `<psi|A|x>/<psi|x>` -/
noncomputable def localValue (ψ : ι → ℂ) (A : Matrix ι ι ℂ) (x : ι) : ℂ :=
  (∑ y, (starRingEnd ℂ) (ψ y) * A y x) / (starRingEnd ℂ) (ψ x)

/-- `(1 + alpha H) psi` -/
noncomputable def lanczosState (ψ : ι → ℂ) (H : Matrix ι ι ℂ) (α : ℂ) : ι → ℂ :=
  (1 + α • H) *ᵥ ψ

end Spec
end MVMC
