import Verif.Spec.Slater
import Verif.Spec.Hamiltonian
import Mathlib.Analysis.Complex.Norm

/-!
# Mean-field theory of the Hamiltonian in the definition files

`wickValue G ops` is the value Wick's theorem gives to an operator product from the one-particle density matrix
`G i j = <c†_i c_j>`. `MeanFieldOf N H G h` says that the one-body matrix `h` is the derivative of the energy functional.
-/
namespace MVMC.Spec
open MVMC

/-- value of a product of one or two `c† c` pairs in a state without correlations -/
noncomputable def wickValue (G : Nat → Nat → ℂ) : List Op → ℂ
  | [.cr I, .an J] => G I J
  | [.cr I, .an J, .cr K, .an L] => G I J * G K L + G I L * ((if J = K then 1 else 0) - G K J)
  | _ => 0

/-- the Hartree–Fock energy functional -/
noncomputable def hfEnergy (G : Nat → Nat → ℂ) (T : List (ℂ × List Op)) : ℂ := (T.map (fun t => t.1 * wickValue G t.2)).sum

/-- Hermitian on indices below `M` -/
def HermOn (M : Nat) (A : Nat → Nat → ℂ) : Prop := ∀ i < M, ∀ j < M, A i j = (starRingEnd ℂ) (A j i)

/-- real diagonal -/
def RealDiag (M : Nat) (A : Nat → Nat → ℂ) : Prop := ∀ i < M, (A i i).im = 0

/-- `Σ_ij A_ij D_ij` -/
noncomputable def pairing (M : Nat) (A D : Nat → Nat → ℂ) : ℂ := ∑ i ∈ Finset.range M, ∑ j ∈ Finset.range M, A i j * D i j

/-- `h` is the derivative of the energy functional at `G`: in every direction the functional is a quadratic polynomial whose linear
coefficient is `Σ h_ij D_ij`. -/
def MeanFieldOf (M : Nat) (T : List (ℂ × List Op)) (G h : Nat → Nat → ℂ) : Prop :=
  ∀ D : Nat → Nat → ℂ, ∃ q : ℂ, ∀ t : ℂ,
    hfEnergy (fun i j => G i j + t * D i j) T = hfEnergy G T + t * pairing M h D + t ^ 2 * q

/-- no line couples a site to itself (for such lines the manual's `n_i n_i` has a one-body part) -/
structure HamDistinct (H : HamPar) : Prop where
  co : ∀ i < H.nCO, H.co i 0 ≠ H.co i 1
  hu : ∀ i < H.nHU, H.hu i 0 ≠ H.hu i 1

/-- the lines come in Hermitian conjugate pairs -/
structure HamHerm (H : HamPar) : Prop where
  tr : ∃ π : Nat → Nat, ∀ i < H.nTR, π i < H.nTR ∧ π (π i) = i ∧ H.pTR (π i) = (starRingEnd ℂ) (H.pTR i) ∧
    H.tr (π i) 0 = H.tr i 2 ∧ H.tr (π i) 1 = H.tr i 3 ∧ H.tr (π i) 2 = H.tr i 0 ∧ H.tr (π i) 3 = H.tr i 1
  ph : ∃ π : Nat → Nat, ∀ i < H.nPH, π i < H.nPH ∧ π (π i) = i ∧ H.pPH (π i) = H.pPH i ∧
    H.ph (π i) 0 = H.ph i 1 ∧ H.ph (π i) 1 = H.ph i 0
  ia : ∃ π : Nat → Nat, ∀ i < H.nIA, π i < H.nIA ∧ π (π i) = i ∧ H.pIA (π i) = (starRingEnd ℂ) (H.pIA i) ∧
    (H.ia (π i) 0 = H.ia i 6 ∧ H.ia (π i) 1 = H.ia i 7) ∧ (H.ia (π i) 2 = H.ia i 4 ∧ H.ia (π i) 3 = H.ia i 5) ∧
    (H.ia (π i) 4 = H.ia i 2 ∧ H.ia (π i) 5 = H.ia i 3) ∧ (H.ia (π i) 6 = H.ia i 0 ∧ H.ia (π i) 7 = H.ia i 1)

/-- the Hermitian matrix given by an upper triangle -/
noncomputable def hermU (A : Nat → Nat → ℂ) (i j : Nat) : ℂ :=
  if i < j then A i j else if i = j then ((A i i).re : ℂ) else (starRingEnd ℂ) (A j i)

/-- Contract of LAPACK `zheev_` with `jobz='V'`, `uplo='U'` for the column-ordered input `a`: eigenvalues in ascending order and
orthonormal eigenvectors in the columns, of the Hermitian matrix whose upper triangle is stored. -/
structure ZheevOK (zheev : Nat → (Nat → ℂ) → (Nat → ℝ) × (Nat → ℂ)) (n : Nat) (a : Nat → ℂ) : Prop where
  eigen : ∀ k < n, ∀ i < n, ∑ l ∈ Finset.range n, hermU (fun i j => a (i + j * n)) i l * (zheev n a).2 (l + k * n) =
    ((zheev n a).1 k : ℂ) * (zheev n a).2 (i + k * n)
  ortho : Orthonormal n n (fun k l => (zheev n a).2 (l + k * n))
  sorted : ∀ k, k + 1 < n → (zheev n a).1 k ≤ (zheev n a).1 (k + 1)

/-- total strength of the two-body lines -/
noncomputable def twoBodyWeight (T : List (ℂ × List Op)) : ℝ := (T.map (fun t => if t.2.length = 4 then ‖t.1‖ else 0)).sum

/-- the orbitals solve the Hartree–Fock equations of their own density matrix, and the lowest ones are occupied -/
structure HartreeFock (M n : Nat) (h φ : Nat → Nat → ℂ) (w : Nat → ℝ) : Prop where
  ortho : Orthonormal M M φ
  eigen : ∀ k < M, ∀ i < M, ∑ l ∈ Finset.range M, h i l * φ k l = (w k : ℂ) * φ k i
  aufbau : ∀ k < n, ∀ m, n ≤ m → m < M → w k ≤ w m

/-- density matrix of the lowest `n` orbitals -/
noncomputable def density (n : Nat) (φ : Nat → Nat → ℂ) (i j : Nat) : ℂ := ∑ k ∈ Finset.range n, (starRingEnd ℂ) (φ k i) * φ k j

end MVMC.Spec
