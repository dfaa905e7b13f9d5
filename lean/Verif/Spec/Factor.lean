import Mathlib.Algebra.BigOperators.Group.Finset.Basic
import Mathlib.Algebra.Field.Basic

/-!
# What the factorisation routine returns

A skew matrix `b` is written as `b(i,j) = (U T Uᵀ)(π i, π j)` with `U` unit upper triangular whose last column is a unit vector, `T` skew
tridiagonal, and `π` a product of transpositions.
-/
namespace MVMC.Spec
variable {K : Type} [Field K]

/-- unit upper triangular matrix stored column by column -/
def unitU (a : Nat → K) (ld i j : Nat) : K := if i = j then 1 else if i < j then a (i + j * ld) else 0

/-- `U`: column `j` is stored above the superdiagonal of column `j+1` -/
def factU (n : Nat) (a : Nat → K) (ld i j : Nat) : K := if i = j then 1 else if i < j ∧ j + 1 < n then a (i + (j + 1) * ld) else 0

/-- `T`: superdiagonal stored in place -/
def factT (a : Nat → K) (ld i j : Nat) : K := if j = i + 1 then a (i + j * ld) else if i = j + 1 then - a (j + i * ld) else 0

/-- exchange of `a` and `b` -/
def swapIdx (a b x : Nat) : Nat := if x = a then b else if x = b then a else x

/-- `s₀ ∘ s₁ ∘ … ∘ s_{n-1}` with `s_t` the exchange of `t` and `p t` -/
def pivPerm (n : Nat) (p : Nat → Nat) (x : Nat) : Nat := (List.range n).foldr (fun t x => swapIdx t (p t) x) x

/-- The contract of ZSKTRF/DSKTRF with `UPLO='U'`, `MODE='N'`: pivots in range (counted from 1), the entries `T(0,1)`, `T(2,3)`, … do not vanish on success,
and the product of the factors is the matrix. -/
def SktrfOK (sktrf : Nat → (Nat → K) → Option ((Nat → K) × (Nat → Int))) : Prop :=
  ∀ n (b : Nat → K) A piv, n % 2 = 0 → (∀ i j, i < n → j < n → b (i + n * j) = - b (j + n * i)) → (∀ i, i < n → b (i + n * i) = 0) →
    sktrf n b = some (A, piv) →
    (∀ i, i < n → 1 ≤ piv i ∧ piv i ≤ n) ∧ (∀ k, 2 * k + 1 < n → A (2 * k + (2 * k + 1) * n) ≠ 0) ∧
    ∀ i j, i < n → j < n → b (i + n * j) = ∑ k ∈ Finset.range n, ∑ l ∈ Finset.range n,
      factU n A n (pivPerm n (fun t => (piv t - 1).toNat) i) k * factT A n k l * factU n A n (pivPerm n (fun t => (piv t - 1).toNat) j) l

/-- ZSKTRF/DSKTRF report success for a regular matrix of even size. -/
def SktrfTotal (sktrf : Nat → (Nat → K) → Option ((Nat → K) × (Nat → Int))) : Prop :=
  ∀ n (b inv : Nat → K), n % 2 = 0 → (∀ i j, i < n → j < n → b (i + n * j) = - b (j + n * i)) → (∀ i, i < n → b (i + n * i) = 0) →
    (∀ i, i < n → ∀ j, j < n → ∑ k ∈ Finset.range n, inv (i + n * k) * b (k + n * j) = if i = j then 1 else 0) →
    ∃ r, sktrf n b = some r

/-- The contract of ZTRTRI/DTRTRI with `UPLO='U'`, `DIAG='U'`: the strict upper triangle is replaced by that of the inverse, nothing else is touched. -/
def TrtriOK (trtri : Nat → Nat → (Nat → K) → (Nat → K)) : Prop :=
  ∀ n ld (a : Nat → K), n ≤ ld →
    (∀ i j, i < n → j < n → ∑ k ∈ Finset.range n, unitU a ld i k * unitU (trtri n ld a) ld k j = if i = j then 1 else 0) ∧
    ∀ x, (∀ i j, i < j → j < n → x ≠ i + j * ld) → trtri n ld a x = a x

end MVMC.Spec
