import Verif.Spec.Fock
import Mathlib.Analysis.Complex.Basic

/-!
# Lattice symmetries

A lattice map `T` with signs `σ` (antiperiodic boundaries) acts on the creation operators by `c†_{r,s} ↦ σ(r) c†_{T r,s}`, hence on
configurations by `|x> ↦ σ(x)|T x>`. Orbitals are `site + N·spin`.
-/
namespace MVMC.Spec

/-- the lattice map on orbitals -/
def moveOrb (N : Nat) (T : Nat → Nat) (x : Nat) : Nat := T (x % N) + x / N * N

/-- the moved configuration -/
def moved (N : Nat) (T : Nat → Nat) (l : List Nat) : List Nat := l.map (moveOrb N T)

/-- the sign collected by a configuration -/
def movedSgn (N : Nat) (σ : Nat → Int) (l : List Nat) : Int := (l.map fun x => σ (x % N)).prod

/-- all electrons on the lattice -/
def OnLattice (N : Nat) (l : List Nat) : Prop := ∀ x ∈ l, x < 2 * N

/-- a permutation of the sites -/
structure SitePerm (N : Nat) (T : Nat → Nat) : Prop where
  lt : ∀ r < N, T r < N
  inj : ∀ r < N, ∀ s < N, T r = T s → r = s

/-- `nT` site permutations with signs that are closed under composition: `T_m ∘ T_a = T_{mul m a}`, and the signs multiply up to a common
sign, which an even number of electrons does not see (once around an antiperiodic ring is `-1`). -/
structure SymGroup (N nT : Nat) (T : Nat → Nat → Nat) (σ : Nat → Nat → Int) (mul : Nat → Nat → Nat) : Prop where
  perm : ∀ a < nT, SitePerm N (T a)
  unit : ∀ a < nT, ∀ r < N, σ a r = 1 ∨ σ a r = -1
  mul_lt : ∀ m < nT, ∀ a < nT, mul m a < nT
  cancel : ∀ m < nT, ∀ m' < nT, ∀ a < nT, mul m a = mul m' a → m = m'
  comp : ∀ m < nT, ∀ a < nT, ∀ r < N, T (mul m a) r = T m (T a r)
  comp_sgn : ∀ m < nT, ∀ a < nT, ∃ ε : Int, (ε = 1 ∨ ε = -1) ∧ ∀ r < N, σ (mul m a) r = ε * (σ m (T a r) * σ a r)

/-- a one-dimensional representation -/
structure Character (nT : Nat) (mul : Nat → Nat → Nat) (χ : Nat → ℂ) : Prop where
  ne : ∀ a < nT, χ a ≠ 0
  map : ∀ m < nT, ∀ a < nT, χ (mul m a) = χ m * χ a

/-- the second kind of symmetry operations commutes with the first -/
structure OptCommute (N nT nO : Nat) (T : Nat → Nat → Nat) (σ : Nat → Nat → Int) (O : Nat → Nat → Nat) (τ : Nat → Nat → Int) : Prop where
  lt : ∀ o < nO, ∀ r < N, O o r < N
  comm : ∀ o < nO, ∀ a < nT, ∀ r < N, O o (T a r) = T a (O o r)
  comm_sgn : ∀ o < nO, ∀ a < nT, ∃ ε : Int, (ε = 1 ∨ ε = -1) ∧ ∀ r < N, τ o (T a r) * σ a r = ε * (σ a (O o r) * τ o r)

/-- `T ψ = λ ψ` up to the order of the factors: `λ Ψ(T x) = σ(x) Ψ(x)` for every configuration -/
def SymState (N : Nat) (T : Nat → Nat) (σ : Nat → Int) (lam : ℂ) (Ψ : List Nat → ℂ) : Prop :=
  ∀ l, OnLattice N l → lam * Ψ (moved N T l) = (movedSgn N σ l : ℂ) * Ψ l

/-- the operator seen through the symmetry -/
def moveOp (N : Nat) (T : Nat → Nat) : Op → Op
  | .cr x => .cr (moveOrb N T x)
  | .an x => .an (moveOrb N T x)

/-- orbital of an operator -/
def Op.orb : Op → Nat
  | .cr x => x
  | .an x => x

/-- the sign collected by a product of operators -/
def opsSgn (N : Nat) (σ : Nat → Int) (ops : List Op) : Int := (ops.map fun o => σ (o.orb % N)).prod

end MVMC.Spec
