import Verif.Spec.LsLocal
import Verif.Spec.Legendre
import Verif.Spec.PairMatrix
import Mathlib.Analysis.SpecialFunctions.Trigonometric.Basic

/-!
# Total spin

`S² = S⁻S⁺ + Sz² + Sz` as a sum of operator products, and the projection of a pair state to total spin `S`:
`½ ∫₀^π sin β P_S(cos β) e^{-iβSy} |φ> dβ`. Orbitals are `site + N·spin`.
-/
namespace MVMC.Spec

/-- `S⁺ = Σ c†_{i↑} c_{i↓}` -/
noncomputable def spinRaise (N : Nat) : List (ℂ × List Op) := (List.range N).map fun i => (1, [.cr i, .an (i + N)])
/-- `S⁻ = Σ c†_{i↓} c_{i↑}` -/
noncomputable def spinLower (N : Nat) : List (ℂ × List Op) := (List.range N).map fun i => (1, [.cr (i + N), .an i])
/-- `Sz = ½ Σ (n_{i↑} - n_{i↓})` -/
noncomputable def spinZ (N : Nat) : List (ℂ × List Op) :=
  (List.range N).map (fun i => (1 / 2, numOp i)) ++ (List.range N).map (fun i => (-(1 / 2), numOp (i + N)))
/-- `S²` -/
noncomputable def spinSq (N : Nat) : List (ℂ × List Op) :=
  hamProd (spinLower N) (spinRaise N) ++ hamProd (spinZ N) (spinZ N) ++ spinZ N

/-- `<x|A†|ψ>`, that is `(Aψ)(x)` for a self-adjoint `A`. -/
noncomputable def applyAdj (A : List (ℂ × List Op)) (Ψ : List Nat → ℂ) (x : List Nat) : ℂ :=
  (A.map fun t => (starRingEnd ℂ) t.1 * overlap Ψ (actAll t.2 (some (1, x)))).sum

/-- as many up as down electrons -/
def SzZero (N : Nat) (x : List Nat) : Prop := (x.filter (· < N)).length = (x.filter (N ≤ ·)).length

/-- a configuration: distinct orbitals of the lattice -/
def IsConfig (N : Nat) (x : List Nat) : Prop := x.Nodup ∧ ∀ y ∈ x, y < 2 * N

/-- the pair state in spins rotated by `β` -/
noncomputable def rotatedState (N : Nat) (f : Nat → Nat → ℂ) (β : ℝ) (x : List Nat) : ℂ :=
  pf (antisym (rotatedPair N ((Real.cos (β / 2) : ℝ) : ℂ) ((Real.sin (β / 2) : ℝ) : ℂ) f)) x

/-- the pair state projected to total spin `S` -/
noncomputable def spinProjected (N S : Nat) (f : Nat → Nat → ℂ) (x : List Nat) : ℂ :=
  ∫ β in (0 : ℝ)..Real.pi, ((1 / 2 * Real.sin β * (legP S).eval (Real.cos β) : ℝ) : ℂ) * rotatedState N f β x

end MVMC.Spec
