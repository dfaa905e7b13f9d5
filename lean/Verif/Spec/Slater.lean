import Verif.Spec.Fock
import Mathlib.LinearAlgebra.Matrix.Determinant.Basic

/-!
# Slater determinants and quantum expectation values

`slater n φ` is the wave function of `n` particles in the orbitals `φ 0, …, φ (n-1)`. `average M n Ψ e` is the mean of a local
quantity `e` over all ordered configurations of `n` particles in `M` orbitals, weighted with `|Ψ|²`; for
`e = matrixElement Ψ ops` it is `<ψ|ops|ψ>/<ψ|ψ>`.
-/
namespace MVMC.Spec

/-- `det[φ_k(x_i)]`, and 0 on lists of another length -/
noncomputable def slater (n : Nat) (φ : Nat → Nat → ℂ) (l : List Nat) : ℂ :=
  if l.length = n then Matrix.det (Matrix.of fun (k i : Fin n) => φ k (l.getD i 0)) else 0

/-- `Σ_x |Ψ(x)|² e(x) / Σ_x |Ψ(x)|²` -/
noncomputable def average (M n : Nat) (Ψ : List Nat → ℂ) (e : List Nat → ℂ) : ℂ :=
  (∑ f : Fin n → Fin M, (Complex.normSq (Ψ (List.ofFn fun i => (f i : Nat))) : ℂ) * e (List.ofFn fun i => (f i : Nat))) /
    ((∑ f : Fin n → Fin M, Complex.normSq (Ψ (List.ofFn fun i => (f i : Nat))) : ℝ) : ℂ)

/-- `<ψ|H|ψ>/<ψ|ψ>` for a sum of operator products -/
noncomputable def expectOf (M n : Nat) (Ψ : List Nat → ℂ) (H : List (ℂ × List Op)) : ℂ :=
  (H.map (fun t => t.1 * average M n Ψ (matrixElement Ψ t.2))).sum

/-- orthonormal orbitals on `M` points -/
def Orthonormal (M n : Nat) (φ : Nat → Nat → ℂ) : Prop :=
  ∀ k < n, ∀ m < n, ∑ l ∈ Finset.range M, (starRingEnd ℂ) (φ k l) * φ m l = if k = m then 1 else 0

end MVMC.Spec
