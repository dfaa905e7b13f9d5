import Verif.Spec.JordanWigner
import Mathlib.Algebra.Module.LinearMap.Defs
import Mathlib.Analysis.SpecialFunctions.Trigonometric.Basic

/-!
# Correlations in real space and in momentum space

The quantities of the manual of the Fourier tool, as operators of `N` sites with orbitals `site + N·spin`.
-/
namespace MVMC.Spec
open Matrix

/-- the lines that the manual asks for: site and spin of every operator; `a` is the site in the cell 0, `b` the other one -/
def r2kWanted (mvmc : Bool) (a b : ℕ) : ℕ → List ℕ
  | 1 => [a, 0, b, 0]
  | 2 => [a, 1, b, 1]
  | 3 => [a, 0, a, 0, b, 0, b, 0]
  | 4 => [a, 0, a, 0, b, 1, b, 1]
  | 5 => [a, 1, a, 1, b, 0, b, 0]
  | 6 => [a, 1, a, 1, b, 1, b, 1]
  | 7 => if mvmc then [a, 0, b, 0, b, 1, a, 1] else [a, 0, a, 1, b, 1, b, 0]
  | 8 => if mvmc then [a, 1, b, 1, b, 0, a, 0] else [a, 1, a, 0, b, 0, b, 1]
  | _ => []

/-- the operators of a line: creation and annihilation operators alternate -/
def lineOps (N : ℕ) : List ℕ → List Op
  | i :: s :: j :: t :: l => .cr (i + N * s) :: .an (j + N * t) :: lineOps N l
  | _ => []

/-- `n` is the number of the last line with a property, counted from 1, or 0 -/
def IsLastLine (P : List ℕ → Prop) (ls : List (List ℕ)) (n : ℕ) : Prop :=
  (n = 0 ∧ ∀ l ∈ ls, ¬ P l) ∨ ∃ m, n = m + 1 ∧ (∃ l, ls[m]? = some l ∧ P l) ∧ ∀ m' l, m < m' → ls[m']? = some l → ¬ P l

/-- number of electrons of a site -/
noncomputable def opRho (N i : ℕ) : Matrix (Conf (2 * N)) (Conf (2 * N)) ℂ := prodMat (2 * N) (numOp i) + prodMat (2 * N) (numOp (i + N))

/-- `Sz` of a site -/
noncomputable def opSz (N i : ℕ) : Matrix (Conf (2 * N)) (Conf (2 * N)) ℂ :=
  (1 / 2 : ℂ) • (prodMat (2 * N) (numOp i) - prodMat (2 * N) (numOp (i + N)))

/-- `S⁺` of a site -/
noncomputable def opSplus (N i : ℕ) : Matrix (Conf (2 * N)) (Conf (2 * N)) ℂ := prodMat (2 * N) [.cr i, .an (i + N)]

/-- `S⁻` of a site -/
noncomputable def opSminus (N i : ℕ) : Matrix (Conf (2 * N)) (Conf (2 * N)) ℂ := prodMat (2 * N) [.cr (i + N), .an i]

/-- `S·S` of two sites -/
noncomputable def opSS (N i j : ℕ) : Matrix (Conf (2 * N)) (Conf (2 * N)) ℂ :=
  opSz N i * opSz N j + (1 / 2 : ℂ) • (opSplus N i * opSminus N j + opSminus N i * opSplus N j)

/-- the correlations of the manual between the site `a` in the cell 0 and the site `b`, for an expectation value `E` -/
noncomputable def docCor (N : ℕ) (E : Matrix (Conf (2 * N)) (Conf (2 * N)) ℂ →ₗ[ℂ] ℂ) (a b : ℕ) : ℕ → ℂ
  | 1 => E (prodMat (2 * N) [.cr a, .an b])
  | 2 => E (prodMat (2 * N) [.cr (a + N), .an (b + N)])
  | 3 => E ((opRho N a - E (opRho N a) • 1) * (opRho N b - E (opRho N b) • 1))
  | 4 => E (opSz N a * opSz N b)
  | 5 => E (opSplus N a * opSminus N b)
  | 6 => E (opSS N a b)
  | _ => 0

/-- a lattice: cell and orbital determine the site, `ir0` is the only cell that is recognised as cell 0 -/
structure R2kGood (N ir0 : ℕ) (rindx orb : ℕ → ℕ) (zero : ℕ → Bool) : Prop where
  inj : ∀ i < N, ∀ j < N, rindx i = rindx j → orb i = orb j → i = j
  zero : ∀ i < N, zero (rindx i) = true ↔ rindx i = ir0

/-- index files: sites of the lattice only, and every line that the manual asks for is there -/
structure R2kFiles (N ir0 : ℕ) (rindx : ℕ → ℕ) (mvmc : Bool) (one two : List (List ℕ)) : Prop where
  one_in : ∀ l ∈ one, ∀ p, l.getD (2 * p) 0 < N
  two_in : ∀ l ∈ two, ∀ p, l.getD (2 * p) 0 < N
  one_all : ∀ a < N, rindx a = ir0 → ∀ b < N, ∀ k, k = 1 ∨ k = 2 → r2kWanted mvmc a b k ∈ one
  two_all : ∀ a < N, rindx a = ir0 → ∀ b < N, ∀ k, 3 ≤ k → k ≤ 8 → r2kWanted mvmc a b k ∈ two

/-- `e^{-2πi k·R}` -/
noncomputable def planeWave (k : ℝ × ℝ × ℝ) (v : ℤ × ℤ × ℤ) : ℂ :=
  Complex.exp (-(2 * Real.pi * (k.1 * v.1 + k.2.1 * v.2.1 + k.2.2 * v.2.2) : ℝ) * Complex.I)

end MVMC.Spec
