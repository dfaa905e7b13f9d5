import Verif.Model.GreenR2k
import Mathlib.LinearAlgebra.Matrix.NonsingularInverse

/-! # The words that `greenr2k` reads and the files that it writes

A line of the parameter file is its first word and its second word; `num` reads an integer. Numbers are exact. -/
namespace MVMC

/-- `key2lower` (`/repo/tool/greenr2k.F90:80-91`) -/
def r2kLower (w : List Char) : List Char := w.map fun c => if 65 ≤ c.toNat ∧ c.toNat ≤ 90 then Char.ofNat (c.toNat + 32) else c

/-- What the parameter file sets; `none`: not set, the variable has no defined value. (`/repo/tool/greenr2k.F90:97-98,101`) -/
structure R2kSet where
  nsite : Option ℤ
  filehead : Option (List Char)
  numave : Option ℤ
  lanczosMax : Option ℤ
  interval : Option ℤ
  nwfc : Option ℤ
  idxStart : Option ℤ

/-- One line of the parameter file. (`/repo/tool/greenr2k.F90:150-173`) -/
def r2kModLine (num : List Char → ℤ) (S : R2kSet) (l : List Char × List Char) : R2kSet :=
  if r2kLower l.1 = ['n', 's', 'i', 't', 'e'] then { S with nsite := some (num l.2) }
  else if r2kLower l.1 = ['c', 'd', 'a', 't', 'a', 'f', 'i', 'l', 'e', 'h', 'e', 'a', 'd'] then { S with filehead := some l.2 }
  else if r2kLower l.1 = ['n', 'u', 'm', 'a', 'v', 'e'] then { S with numave := some (num l.2) }
  else if r2kLower l.1 = ['l', 'a', 'n', 'c', 'z', 'o', 's', '_', 'm', 'a', 'x'] then { S with lanczosMax := some (num l.2) }
  else if r2kLower l.1 = ['e', 'x', 'p', 'e', 'c', 'i', 'n', 't', 'e', 'r', 'v', 'a', 'l'] then { S with interval := some (num l.2) }
  else if r2kLower l.1 = ['e', 'x', 'c', 't'] then { S with nwfc := some (num l.2) }
  else if r2kLower l.1 = ['n', 'd', 'a', 't', 'a', 'i', 'd', 'x', 's', 't', 'a', 'r', 't'] then { S with idxStart := some (num l.2) }
  else if r2kLower l.1 = ['n', 'd', 'a', 't', 'a', 'q', 't', 'y', 's', 'm', 'p'] then { S with numave := some (num l.2) }
  else S

/-- The parameter file. (`/repo/tool/greenr2k.F90:148-174`) -/
def r2kModPara (num : List Char → ℤ) (lines : List (List Char × List Char)) : R2kSet :=
  lines.foldl (r2kModLine num) ⟨none, none, none, none, none, none, none⟩

/-- The files of a calculation with thermal pure quantum states: run and step of each. (`/repo/tool/greenr2k.F90:228-237`) -/
def r2kTpqTails (numave lmax interval : ℕ) : List (ℕ × ℕ) :=
  (List.range lmax).flatMap fun istep => (List.range numave).flatMap fun irun => if istep % interval = 0 then [(irun, istep)] else []

/-- The number of files that is allocated. (`/repo/tool/greenr2k.F90:225`) -/
def r2kTpqNum (numave lmax interval : ℕ) : ℕ := numave * (1 + (lmax - 1) / interval)

/-- The files of block `istep` (from 0) over which the average is taken. (`/repo/tool/greenr2k.F90:861-869`) -/
def r2kBlock (numave istep : ℕ) (files : List α) : List α := (files.drop (numave * istep)).take numave

/-- The reciprocal lattice vectors: column `j` is vector `j`; `dgetrf` and `dgetri` give the inverse. `d` are the columns of `direct`, as in `r2kLen`, so `Matrix.of d` is `transpose(direct)`.
(`/repo/tool/greenr2k.F90:380-382`) -/
noncomputable def r2kRecipr (d : Fin 3 → Fin 3 → ℝ) : Fin 3 → Fin 3 → ℝ := fun x j => (Matrix.of d)⁻¹ x j

/-- The length of a vector in k-space. (`/repo/tool/greenr2k.F90:837-838`) -/
noncomputable def r2kKlen (recipr : Fin 3 → Fin 3 → ℝ) (dk : ℚ × ℚ × ℚ) : ℝ :=
  Real.sqrt (∑ i, (recipr i 0 * dk.1 + recipr i 1 * dk.2.1 + recipr i 2 * dk.2.2) ^ 2)

/-- Positions on the axis of the plot, one line between two nodes. (`/repo/tool/greenr2k.F90:836-844`) -/
noncomputable def r2kXkLine (recipr : Fin 3 → Fin 3 → ℝ) (knode : List (ℚ × ℚ × ℚ)) (nkLine : ℕ) (st : List ℝ × List ℝ) (inode : ℕ) : List ℝ × List ℝ :=
  ((List.range nkLine).foldl (fun x _ => x ++ [x.getLastD 0 + r2kKlen recipr (knode.getD (inode + 1) 0 - knode.getD inode 0) / nkLine]) st.1, st.2 ++ [st.1.getLastD 0])

/-- All positions and the positions of the labels. (`/repo/tool/greenr2k.F90:833-846`) -/
noncomputable def r2kXk (recipr : Fin 3 → Fin 3 → ℝ) (knode : List (ℚ × ℚ × ℚ)) (nkLine : ℕ) : List ℝ × List ℝ :=
  let st := (List.range (knode.length - 1)).foldl (r2kXkLine recipr knode nkLine) ([0], [])
  (st.1, st.2 ++ [st.1.getLastD 0])

/-- The two loops over orbitals. (`/repo/tool/greenr2k.F90:903-904,920-921`) -/
def r2kPairs (norb : ℕ) : List (ℕ × ℕ) := (List.range norb).flatMap fun iorb => (List.range norb).map fun jorb => (iorb, jorb)

/-- Format `i4`; `none`: asterisks. (`/repo/tool/greenr2k.F90:906`) -/
def r2kI4 (n : ℕ) : Option ℕ := if n < 10000 then some n else none

/-- The lines of the head: two orbitals and the columns of the six correlations. (`/repo/tool/greenr2k.F90:902-917,946-957`) -/
def r2kHead (cols : ℕ → List (List ℕ)) (step : ℕ) : List (ℕ × ℕ) → ℕ → List ((ℕ × ℕ) × List (List (Option ℕ)))
  | [], _ => []
  | p :: ps, ii => (p, (cols ii).map fun l => l.map r2kI4) :: r2kHead cols step ps (ii + step)

/-- Columns with errors: real part, imaginary part and their errors. (`/repo/tool/greenr2k.F90:906-914`) -/
def r2kColsErr (ii : ℕ) : List (List ℕ) :=
  [[ii + 1, ii + 2, ii + 13, ii + 14], [ii + 3, ii + 4, ii + 15, ii + 16], [ii + 5, ii + 6, ii + 17, ii + 18], [ii + 7, ii + 8, ii + 19, ii + 20],
   [ii + 9, ii + 10, ii + 21, ii + 22], [ii + 11, ii + 12, ii + 23, ii + 24]]

/-- Columns without errors. (`/repo/tool/greenr2k.F90:951-955`) -/
def r2kCols (ii : ℕ) : List (List ℕ) := [[ii + 1, ii + 2], [ii + 3, ii + 4], [ii + 5, ii + 6], [ii + 7, ii + 8], [ii + 9, ii + 10], [ii + 11, ii + 12]]

/-- The numbers of six correlations. (`/repo/tool/greenr2k.F90:922,961`) -/
def r2kSix (c : ℕ → ℂ) : List ℝ := (List.range 6).flatMap fun k => [(c (k + 1)).re, (c (k + 1)).im]

/-- A line with averages and errors. (`/repo/tool/greenr2k.F90:918-926`) -/
def r2kLineErr (norb : ℕ) (x : ℝ) (ave err : ℕ → ℕ → ℕ → ℂ) : List ℝ :=
  x :: (r2kPairs norb).flatMap fun p => r2kSix (fun k => ave k p.2 p.1) ++ r2kSix (fun k => err k p.2 p.1)

/-- A line without errors; the first index of an array runs fastest. (`/repo/tool/greenr2k.F90:961`) -/
def r2kLine (norb : ℕ) (x : ℝ) (cor : ℕ → ℕ → ℕ → ℂ) : List ℝ :=
  x :: (List.range norb).flatMap fun o2 => (List.range norb).flatMap fun o1 => r2kSix fun k => cor k o1 o2

/-- Format `1000e15.5`: a new record after 1000 numbers. (`/repo/tool/greenr2k.F90:961`) -/
def r2kRecords (l : List ℝ) : List (List ℝ) := (List.range ((l.length + 999) / 1000)).map fun i => (l.drop (1000 * i)).take 1000

/-- The numbers of a FermiSurfer file: occupations of the orbitals on the grid, and the number of the orbital. `path`: number of k-points before the grid.
(`/repo/tool/greenr2k.F90:989-998`) -/
def r2kFrmsf (path nk norb : ℕ) (cor : ℕ → ℕ → ℕ → ℕ → ℂ) : List ℝ × List ℝ :=
  ((List.range norb).flatMap fun iorb => (List.range (nk - path)).map fun ik => (cor (path + ik) 1 iorb iorb).re + (cor (path + ik) 2 iorb iorb).re,
   (List.range norb).flatMap fun (iorb : ℕ) => (List.range (nk - path)).map fun _ => ((iorb + 1 : ℕ) : ℝ))

end MVMC
