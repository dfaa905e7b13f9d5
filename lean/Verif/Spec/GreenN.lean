import Verif.Spec.Fock
import Verif.Spec.Pfaffian

/-! Specification of the n-body Green function. -/
namespace MVMC.Spec

/-- the operator string `c†_{i0} c_{j0} c†_{i1} c_{j1} … c†_{i(n-1)} c_{j(n-1)}` -/
def pairString (i j : Nat → Nat) (n : Nat) : List Op := (List.range n).flatMap (fun k => [.cr (i k), .an (j k)])

/-- all indices are orbitals and each pair keeps the spin -/
def SpinPairs (N : Nat) (i j : Nat → Nat) (n : Nat) : Prop :=
  ∀ k, k < n → i k < 2 * N ∧ j k < 2 * N ∧ i k / N = j k / N

/-- What the external Pfaffian routine (`DSKPFA`) is trusted to return for a column-major skew matrix of order `n`. -/
def PfaOK {K : Type} [Field K] (pfa : Nat → (Nat → K) → K) : Prop :=
  ∀ n (b : Nat → K), (∀ i j, i < n → j < n → b (i + n * j) = - b (j + n * i)) → (∀ i, i < n → b (i + n * i) = 0) →
    pfa n b = pfOf (fun i j => b (i + n * j)) n id

end MVMC.Spec
