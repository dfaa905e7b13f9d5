import Verif.Model.UhfStart

/-! # Specification for the start and the output of the Hartree–Fock program -/
namespace MVMC.Spec
open MVMC

/-- A complete row of the table `Initial` gives the value `v` for the entry `(i, j)`; spin orbital `(site, spin)` has number `site + spin·N`. -/
def UInitRow (N : ℕ) (r : URow) (i j : ℕ) (v : ℂ) : Prop :=
  ∃ s0 p0 s1 p1 re im, r = ⟨[s0, p0, s1, p1], some re, some im⟩ ∧ s0 + p0 * N = i ∧ s1 + p1 * N = j ∧ v = ⟨(re : ℝ), (im : ℝ)⟩

/-- A row as meant: existing sites, spins 0 or 1. -/
def UInitGood (N : ℕ) (r : URow) : Prop :=
  ∃ (s0 p0 s1 p1 : ℕ) (re im : ℚ), s0 < N ∧ p0 < 2 ∧ s1 < N ∧ p1 < 2 ∧ r = ⟨[(s0 : ℤ), (p0 : ℤ), (s1 : ℤ), (p1 : ℤ)], some re, some im⟩

/-- A line of the file of Green functions as the readers see it; `pr` is the number printed. -/
def cisajsLine (pr : ℝ → ℚ) (l : List ℕ × ℂ) : DLine := ⟨l.1.map fun (n : ℕ) => (n : ℤ), [pr l.2.re, pr l.2.im]⟩

end MVMC.Spec
