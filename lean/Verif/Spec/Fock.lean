import Verif.Spec.PfState
import Mathlib.Data.Complex.BigOperators

/-!
# Second quantisation on ordered occupation lists

A basis state is an ordered list of distinct spin orbitals `[x₁,…,xₙ] = c†_{x₁} … c†_{xₙ}|0>`; a ket is zero or a signed
list. Operators act by the anticommutation rules. `matrixElement Ψ ops x` is `<ψ|ops|x>/<ψ|x>` for the wave function
`Ψ(x) = <x|ψ>` (so `<ψ|x>` is the conjugate).
-/
namespace MVMC.Spec

/-- `c†_x` or `c_x` -/
inductive Op where
  | cr (x : Nat)
  | an (x : Nat)
  deriving DecidableEq, Repr

/-- A ket: `none` is the zero vector, `some (σ, l)` is `σ |l>`. -/
abbrev Ket := Option (Int × List Nat)

/-- `c_x |l> = (-1)^k |l without x>` if `x` is at position `k`, else 0; `c†_x |l> = |x :: l>`, or 0 if `x` is occupied. -/
def Op.act : Op → Ket → Ket
  | _, none => none
  | .an x, some (σ, l) => if x ∈ l then some (σ * (-1) ^ l.idxOf x, l.erase x) else none
  | .cr x, some (σ, l) => if x ∈ l then none else some (σ, x :: l)

/-- A product of operators, the rightmost acting first. -/
def actAll (ops : List Op) (k : Ket) : Ket := ops.foldr Op.act k

/-- `<k|ψ>`. -/
noncomputable def overlap (Ψ : List Nat → ℂ) : Ket → ℂ
  | none => 0
  | some (σ, l) => (σ : ℂ) * Ψ l

/-- `<ψ| ops |x> / <ψ|x>`. -/
noncomputable def matrixElement (Ψ : List Nat → ℂ) (ops : List Op) (x : List Nat) : ℂ :=
  (starRingEnd ℂ) (overlap Ψ (actAll ops (some (1, x))) / Ψ x)

/-- Occupation number of an orbital in a list. -/
def occupation (l : List Nat) (x : Nat) : Int := if x ∈ l then 1 else 0

/-- Projected pair state times a factor that depends on the occupations only:
`Ψ(x) = C(n(x)) · Σ_q w_q Pf[A_q(x_i,x_j)]`. -/
noncomputable def waveFunction (C : (Nat → Int) → ℂ) (nq : Nat) (w : Nat → ℂ) (A : Nat → Nat → Nat → ℂ) (l : List Nat) : ℂ :=
  C (occupation l) * ∑ q ∈ Finset.range nq, w q * pf (A q) l

-- {c_1, c†_1} = 1 and signs on an example
example : actAll [.cr 3, .an 1] (some (1, [0, 1, 2])) = some (-1, [3, 0, 2]) := by decide
example : actAll [.an 1, .cr 3] (some (1, [0, 1, 2])) = some (1, [3, 0, 2]) := by decide
example : actAll [.cr 1, .an 1] (some (1, [0, 1, 2])) = some (-1, [1, 0, 2]) := by decide
example : actAll [.cr 0, .an 1] (some (1, [0, 1, 2])) = none := by decide

end MVMC.Spec
