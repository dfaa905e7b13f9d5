import Verif.Spec.Pfaffian

/-! What `PfM` and `InvM` have to contain. -/
namespace MVMC.Spec

variable {R : Type} [CommRing R]

/-- entry `(i,j)` of the `q`-th `size × size` block of an array of row-major blocks -/
def entry (size : Nat) (arr : Nat → R) (q i j : Nat) : R := arr (q * size * size + i * size + j)

/-- All Slater matrices (blocks of size `Nsite2`) are antisymmetric with a zero diagonal. -/
def SlaterSkew (nsite2 : Nat) (slt : Nat → R) (q : Nat) : Prop :=
  (∀ x y, x < nsite2 → y < nsite2 → entry nsite2 slt q x y = - entry nsite2 slt q y x) ∧
    ∀ x, x < nsite2 → entry nsite2 slt q x x = 0

/-- For each of the `nq` projections starting at `qpStart`: `PfM[q]` is the Pfaffian of the Slater matrix restricted
to the occupied spin orbitals `rs 0 … rs (n-1)`, and block `q` of `InvM` is its inverse. -/
def PfOK (n nsite2 : Nat) (slt : Nat → R) (qpStart nq : Nat) (rs : Nat → Nat) (pfM invM : Nat → R) : Prop :=
  ∀ q, q < nq →
    pfM q = pfOf (entry nsite2 slt (q + qpStart)) n rs ∧
    IsInv (entry nsite2 slt (q + qpStart)) n rs (entry n invM q)

/-- The spin orbital (site + Nsite·spin) of electron `i`: the first `ne` electrons are up, the others down. -/
def occSz (ne nsite : Nat) (idx : Nat → Int) (i : Nat) : Nat :=
  if i < ne then (idx i).toNat else (idx i).toNat + nsite

/-- The spin orbital of electron `i` in general-Sz mode. -/
def occF (nsite : Nat) (idx spn : Nat → Int) (i : Nat) : Nat :=
  if spn i = 0 then (idx i).toNat else (idx i).toNat + nsite

/-- Electrons sit on existing sites. -/
def OnSites (n nsite : Nat) (idx : Nat → Int) : Prop := ∀ i, i < n → 0 ≤ idx i ∧ idx i < ((nsite : Nat) : Int)

/-- Spins are 0 or 1. -/
def Spins (n : Nat) (spn : Nat → Int) : Prop := ∀ i, i < n → spn i = 0 ∨ spn i = 1

/-- The weighted sum over projections that defines the amplitude `<φ|x>`. -/
def amplitude (n nsite2 : Nat) (slt w : Nat → R) (qpStart nq : Nat) (rs : Nat → Nat) : R :=
  ∑ q ∈ Finset.range nq, w (q + qpStart) * pfOf (entry nsite2 slt (q + qpStart)) n rs

end MVMC.Spec
