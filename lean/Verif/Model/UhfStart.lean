import Verif.Model.Uhf
import Verif.Model.UhfRead

/-!
# Model of the start of the Hartree–Fock iteration and of the file of Green functions

Exact arithmetic. `d` are the numbers `gen_rand32` returns; `genrand_real2` is `gen_rand32()/2^32`.
-/
namespace MVMC

/-- `G[i][j] = v` (`/repo/src/ComplexUHF/initial.c:40,63`) -/
noncomputable def setAt2 (h : Mat2) (i j : ℕ) (v : ℂ) : Mat2 := fun a b => if a = i ∧ b = j then v else h a b

/-- the accuracy of the convergence test: `eps_int` factors 0.1 (`/repo/src/ComplexUHF/UHFmain.c:89-92,100`) -/
noncomputable def uhfEps (k : ℤ) : ℝ := (List.range k.toNat).foldl (fun e _ => e * 0.1) 1

/-- The random Green functions and the number of random numbers drawn. (`/repo/src/ComplexUHF/initial.c:36-45`) -/
noncomputable def uhfInitRandom (N : ℕ) (d : ℕ → ℕ) (s : Mat2 × ℕ) : Mat2 × ℕ :=
  (List.range (2 * N)).foldl (fun s i => (List.range (2 * N)).foldl (fun s j =>
    (setAt2 s.1 i j ((0.01 * ((d s.2 : ℝ) / 2 ^ 32 - 0.5) : ℝ) : ℂ), s.2 + 1)) s) s

/-- The Green functions of the file `Initial`. Neither sites nor spins are checked. The rows of `G` follow each other in one allocation, so a second index outside its row
reaches another row; a first index outside takes a pointer that was never set. (`/repo/src/ComplexUHF/initial.c:51-64`, `/repo/src/common/setmemory.c:139-149`) -/
noncomputable def uhfInitLines (N : ℕ) : List URow → Mat2 → RdOut Mat2
  | [], G => .ok G
  | ⟨[s0, p0, s1, p1], some re, some im⟩ :: rs, G =>
    let t0 := s0 + p0 * N
    let t1 := s1 + p1 * N
    let k := t0 * (2 * N) + t1
    if t0 < 0 ∨ t0 ≥ 2 * N ∨ k < 0 ∨ k ≥ 2 * N * (2 * N) then .ub
    else uhfInitLines N rs (setAt2 G (k.toNat / (2 * N)) (k.toNat % (2 * N)) ⟨(re : ℝ), (im : ℝ)⟩)
  | _ :: _, _ => .ub

/-- `initial`: the Green functions, zero after their allocation, and the number of random numbers drawn; `rows` is the table `Initial` with `n` rows.
(`/repo/src/ComplexUHF/initial.c:25-68`, `/repo/src/ComplexUHF/xsetmem_large.c:26`, `/repo/src/common/setmemory.c:139-149`) -/
noncomputable def uhfInitial (N : ℕ) (n : ℤ) (rows : List URow) (d : ℕ → ℕ) : RdOut (Mat2 × ℕ) :=
  let s := if n = 0 then uhfInitRandom N d (fun _ _ => 0, 0) else (fun _ _ => 0, 0)
  match uhfInitLines N (rows.take n.toNat) s.1 with
  | .ok G => .ok (G, s.2)
  | _ => .ub

/-- The lines of `cal_cisajs`: site, spin, site, spin and the number. (`/repo/src/ComplexUHF/output.c:92-121`) -/
noncomputable def uhfCisajs (N : ℕ) (G : Mat2) : List (List ℕ × ℂ) :=
  (List.range N).flatMap fun s1 => (List.range 2).flatMap fun p1 => (List.range N).flatMap fun s2 => (List.range 2).flatMap fun p2 =>
    let t1 := s1 + N * p1
    let t2 := s2 + N * p2
    [([s1, p1, s2, p2], G t1 t2)]

/-- The lines of the file of eigenvalues. (`/repo/src/ComplexUHF/output.c:69-75`) -/
def uhfEigenLines (N : ℕ) (eig : ℕ → ℝ) : List (ℕ × ℝ) := (List.range (2 * N)).map fun i => (i + 1, eig i)

end MVMC
