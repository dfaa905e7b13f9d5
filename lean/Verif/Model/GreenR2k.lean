import Mathlib.Analysis.SpecialFunctions.Trigonometric.Basic

/-!
# Model of the Fourier tool `greenr2k`

Indices of R-vectors and orbitals count from 0 instead of 1, sites as in the files from 0. Arithmetic is exact. Simplified: every site in the index files is a site of the lattice, files
are complete.
-/
namespace MVMC

/-- An integer vector. (`/repo/tool/greenr2k.F90:300`) -/
abbrev R2V : Type := ℤ × ℤ × ℤ

/-- The sites: the different R-vectors and the index of the R-vector of every site. (`/repo/tool/greenr2k.F90:343-358`) -/
def r2kSites : List R2V → List R2V → List ℕ → List R2V × List ℕ
  | [], irv1, rindx => (irv1, rindx)
  | v :: vs, irv1, rindx =>
    if v ∈ irv1 then r2kSites vs irv1 (rindx ++ [irv1.idxOf v])
    else r2kSites vs (irv1 ++ [v]) (rindx ++ [irv1.length])

/-- The shifts by the supercell in the order of the three loops. (`/repo/tool/greenr2k.F90:393-395`) -/
def r2kShifts : List R2V :=
  [-2, -1, 0, 1, 2].flatMap fun i1 => [-2, -1, 0, 1, 2].flatMap fun i2 => [-2, -1, 0, 1, 2].map fun i3 => (i1, i2, i3)

/-- `irv1 + MATMUL(box, shift)`; `box` by columns. (`/repo/tool/greenr2k.F90:397`) -/
def r2kMove (box : R2V × R2V × R2V) (v s : R2V) : R2V := v + s.1 • box.1 + s.2.1 • box.2.1 + s.2.2 • box.2.2

/-- The length of `MATMUL(direct, v)`; `direct` by columns. (`/repo/tool/greenr2k.F90:398-399`) -/
noncomputable def r2kLen (d : Fin 3 → Fin 3 → ℝ) (v : R2V) : ℝ :=
  Real.sqrt (∑ i, (d 0 i * v.1 + d 1 i * v.2.1 + d 2 i * v.2.2) ^ 2)

/-- One shift: the shortest length so far and the shifts kept. (`/repo/tool/greenr2k.F90:400-410`) -/
noncomputable def r2kImgStep (len : R2V → ℝ) (st : ℝ × List R2V) (s : R2V) : ℝ × List R2V :=
  if len s < st.1 - 1 / 10 ^ 6 then (len s, [s])
  else if |len s - st.1| < 1 / 10 ^ 6 then (st.1, st.2 ++ [s])
  else st

/-- The shifts of one R-vector to its nearest images. (`/repo/tool/greenr2k.F90:391-414`) -/
noncomputable def r2kImages (d : Fin 3 → Fin 3 → ℝ) (box : R2V × R2V × R2V) (v : R2V) : ℝ × List R2V :=
  r2kShifts.foldl (r2kImgStep fun s => r2kLen d (r2kMove box v s)) (10 ^ 10, [])

/-- What the index files are read with: index of the R-vector and orbital of the sites, and whether the first image of an R-vector is zero.
(`/repo/tool/greenr2k.F90:345-360,501,544,599`) -/
structure R2kGeo where
  rindx : ℕ → ℕ
  orb : ℕ → ℕ
  zero : ℕ → Bool

/-- The same from the lines of the geometry file, vector and orbital of each site; orbitals stay as in the file.
(`/repo/tool/greenr2k.F90:343-360,390-414,501,681`) -/
noncomputable def r2kGeoOf (d : Fin 3 → Fin 3 → ℝ) (box : R2V × R2V × R2V) (sites : List (R2V × ℕ)) : R2kGeo :=
  let p := r2kSites (sites.map Prod.fst) [] []
  ⟨fun i => p.2.getD i 0, fun i => (sites.getD i (0, 0)).2,
    fun ir => decide (((r2kImages d box (p.1.getD ir 0)).2.map (r2kMove box (p.1.getD ir 0))).head? = some 0)⟩

/-- `indx(ir, kind, orb1, orb2)`; 0 if there is no such correlation. (`/repo/tool/greenr2k.F90:480-481`) -/
abbrev R2kIdx : Type := ℕ → ℕ → ℕ → ℕ → ℕ

/-- One entry of the table is set; `a` is the site of the left operator, `b` the other one. (`/repo/tool/greenr2k.F90:510,515`) -/
def R2kIdx.put (T : R2kIdx) (G : R2kGeo) (k a b n : ℕ) : R2kIdx := fun ir k' o1 o2 =>
  if ir = G.rindx b ∧ k' = k ∧ o1 = G.orb a ∧ o2 = G.orb b then n else T ir k' o1 o2

/-- A line of `greenone.def`. (`/repo/tool/greenr2k.F90:499-516`) -/
def r2kOne (G : R2kGeo) (T : R2kIdx) (n : ℕ) : List ℕ → R2kIdx
  | [i, s, j, t] =>
    if G.zero (G.rindx i) = false then T
    else if s = 0 ∧ t = 0 then T.put G 1 i j n
    else if s = 1 ∧ t = 1 then T.put G 2 i j n
    else T
  | _ => T

/-- The first part of a line of `greentwo.def`: density-density correlations and, for the other program, the spin flips. (`/repo/tool/greenr2k.F90:549-595`) -/
def r2kTwoA (G : R2kGeo) (mvmc : Bool) (T : R2kIdx) (n i1 s2 s4 i5 s6 s8 : ℕ) : R2kIdx :=
  if s2 = 0 ∧ s4 = 0 then
    if s6 = 0 ∧ s8 = 0 then T.put G 3 i1 i5 n
    else if s6 = 1 ∧ s8 = 1 then T.put G 4 i1 i5 n
    else T
  else if s2 = 1 ∧ s4 = 1 then
    if s6 = 0 ∧ s8 = 0 then T.put G 5 i1 i5 n
    else if s6 = 1 ∧ s8 = 1 then T.put G 6 i1 i5 n
    else T
  else if mvmc = false then
    if (s2 = 0 ∧ s4 = 1) ∧ (s6 = 1 ∧ s8 = 0) then T.put G 7 i1 i5 n
    else if (s2 = 1 ∧ s4 = 0) ∧ (s6 = 0 ∧ s8 = 1) then T.put G 8 i1 i5 n
    else T
  else T

/-- The second part: the spin flips in the order of mVMC. (`/repo/tool/greenr2k.F90:605-617`) -/
def r2kTwoB (G : R2kGeo) (T : R2kIdx) (n i1 s2 s4 i5 s6 s8 : ℕ) : R2kIdx :=
  if (s2 = 0 ∧ s4 = 0) ∧ (s6 = 1 ∧ s8 = 1) then T.put G 7 i1 i5 n
  else if (s2 = 1 ∧ s4 = 1) ∧ (s6 = 0 ∧ s8 = 0) then T.put G 8 i1 i5 n
  else T

/-- A line of `greentwo.def`. (`/repo/tool/greenr2k.F90:540-618`) -/
def r2kTwo (G : R2kGeo) (mvmc : Bool) (T : R2kIdx) (n : ℕ) : List ℕ → R2kIdx
  | [i1, s2, i3, s4, i5, s6, i7, s8] =>
    if i1 = i3 ∧ i5 = i7 ∧ G.zero (G.rindx i1) = false then T
    else
      let T := if i1 = i3 ∧ i5 = i7 then r2kTwoA G mvmc T n i1 s2 s4 i5 s6 s8 else T
      if mvmc = true ∧ (i1 = i7 ∧ i3 = i5) then
        if G.zero (G.rindx i1) = false then T else r2kTwoB G T n i1 s2 s4 i5 s6 s8
      else T
  | _ => T

/-- The loop over the lines, which count from 1. (`/repo/tool/greenr2k.F90:497-517,538-620`) -/
def r2kLines (step : R2kIdx → ℕ → List ℕ → R2kIdx) : List (List ℕ) → ℕ → R2kIdx → R2kIdx
  | [], _, T => T
  | l :: ls, n, T => r2kLines step ls (n + 1) (step T n l)

/-- The whole table. (`/repo/tool/greenr2k.F90:481-620`) -/
def r2kTable (G : R2kGeo) (mvmc : Bool) (one two : List (List ℕ)) : R2kIdx :=
  r2kLines (r2kTwo G mvmc) two 1 (r2kLines (r2kOne G) one 1 fun _ _ _ _ => 0)

/-- The program goes on: no two-body correlation is missing. (`/repo/tool/greenr2k.F90:622-649`) -/
def r2kGoes (T : R2kIdx) (nr norb : ℕ) : Bool :=
  (List.range nr).all fun ir => [3, 4, 5, 6, 7, 8].all fun k => (List.range norb).all fun o1 => (List.range norb).all fun o2 => decide (T ir k o1 o2 ≠ 0)

/-- The index of the first R-vector that is zero. (`/repo/tool/greenr2k.F90:680-685`) -/
def r2kIr0 (zero : ℕ → Bool) (nr : ℕ) : Option ℕ := (List.range nr).find? zero

/-- The value of a file at an index; 0 at 0. (`/repo/tool/greenr2k.F90:678,694-697,716-719`) -/
def r2kVal (c : List ℂ) (n : ℕ) : ℂ := if n = 0 then 0 else c.getD (n - 1) 0

/-- `cor(ir, 1:2, ...)` (`/repo/tool/greenr2k.F90:703-709`) -/
def r2kCor1 (T : R2kIdx) (c1 : List ℂ) (ir k o1 o2 : ℕ) : ℂ := r2kVal c1 (T ir k o1 o2)

/-- `cor(ir, 3, ...)` (`/repo/tool/greenr2k.F90:731-738`) -/
def r2kCor3 (T : R2kIdx) (c1 c2 : List ℂ) (ir0 ir o1 o2 : ℕ) : ℂ :=
  r2kVal c2 (T ir 3 o1 o2) + r2kVal c2 (T ir 4 o1 o2) + r2kVal c2 (T ir 5 o1 o2) + r2kVal c2 (T ir 6 o1 o2)
    - (r2kCor1 T c1 ir0 1 o2 o2 + r2kCor1 T c1 ir0 2 o2 o2) * (r2kCor1 T c1 ir0 1 o1 o1 + r2kCor1 T c1 ir0 2 o1 o1)

/-- `cor(ir, 4, ...)` (`/repo/tool/greenr2k.F90:740-745`) -/
noncomputable def r2kCor4 (T : R2kIdx) (c2 : List ℂ) (ir o1 o2 : ℕ) : ℂ :=
  (r2kVal c2 (T ir 3 o1 o2) - r2kVal c2 (T ir 4 o1 o2) - r2kVal c2 (T ir 5 o1 o2) + r2kVal c2 (T ir 6 o1 o2)) * (1 / 4)

/-- `cor(ir, 5:6, ...)` before the sum; `k` is 5 or 6. For mVMC the one-body term is added at the first R-vector. (`/repo/tool/greenr2k.F90:749,760-766`) -/
def r2kCor56 (T : R2kIdx) (mvmc : Bool) (c1 c2 : List ℂ) (ir k o1 o2 : ℕ) : ℂ :=
  if mvmc then - r2kVal c2 (T ir (k + 2) o1 o2) + if ir = 0 ∧ o1 = o2 then r2kCor1 T c1 0 (k - 4) o1 o1 else 0
  else r2kVal c2 (T ir (k + 2) o1 o2)

/-- The six correlations of a state. (`/repo/tool/greenr2k.F90:687-774`) -/
noncomputable def r2kCor (T : R2kIdx) (mvmc : Bool) (c1 c2 : List ℂ) (ir0 ir k o1 o2 : ℕ) : ℂ :=
  if k = 3 then r2kCor3 T c1 c2 ir0 ir o1 o2
  else if k = 4 then r2kCor4 T c2 ir o1 o2
  else if k = 5 then r2kCor56 T mvmc c1 c2 ir 5 o1 o2
  else if k = 6 then r2kCor4 T c2 ir o1 o2 + 1 / 2 * (r2kCor56 T mvmc c1 c2 ir 5 o1 o2 + r2kCor56 T mvmc c1 c2 ir 6 o1 o2)
  else r2kCor1 T c1 ir k o1 o2

/-- The scalar product of a real and an integer vector. (`/repo/tool/greenr2k.F90:410,799-800`) -/
def r2kDot (k : ℝ × ℝ × ℝ) (v : R2V) : ℝ := k.1 * v.1 + k.2.1 * v.2.1 + k.2.2 * v.2.2

/-- `fmat(ik, ir)`: the images of the R-vector are given by their shifts. (`/repo/tool/greenr2k.F90:410,795-805`) -/
noncomputable def r2kFmat (box : R2V × R2V × R2V) (phase0 : ℝ × ℝ × ℝ) (v : R2V) (imgs : List R2V) (k : ℝ × ℝ × ℝ) : ℂ :=
  (imgs.map fun s =>
    let theta := - (2 * Real.pi) * r2kDot k (r2kMove box v s) + r2kDot phase0 s
    (⟨Real.cos theta, Real.sin theta⟩ : ℂ)).sum / imgs.length

/-- `cor_k(ik, kind, ...)` (`/repo/tool/greenr2k.F90:807-811`) -/
noncomputable def r2kCorK (nr : ℕ) (fmat : ℕ → ℂ) (cor : ℕ → ℕ → ℂ) (kind : ℕ) : ℂ :=
  if kind ≤ 2 then ∑ ir ∈ Finset.range nr, fmat ir * cor ir kind
  else (∑ ir ∈ Finset.range nr, fmat ir * cor ir kind) / nr

/-- The k-points: the path and the grid; the nodes are given as a list. (`/repo/tool/greenr2k.F90:442-461`) -/
def r2kKpoints (knode : List (ℚ × ℚ × ℚ)) (nkLine n1 n2 n3 : ℕ) : List (ℚ × ℚ × ℚ) :=
  [knode.getD 0 0] ++
  ((List.range (knode.length - 1)).flatMap fun inode => (List.range nkLine).map fun ik =>
    let xx : ℚ := ((ik + 1 : ℕ) : ℚ) / nkLine
    (1 - xx) • knode.getD inode 0 + xx • knode.getD (inode + 1) 0) ++
  ((List.range n1).flatMap fun (i1 : ℕ) => (List.range n2).flatMap fun (i2 : ℕ) => (List.range n3).map fun (i3 : ℕ) => ((i1 / n1 : ℚ), (i2 / n2 : ℚ), (i3 / n3 : ℚ)))

/-- The number of k-points that is allocated. (`/repo/tool/greenr2k.F90:438`) -/
def r2kNk (nnode nkLine n1 n2 n3 : ℕ) : ℕ := nkLine * (nnode - 1) + 1 + n1 * n2 * n3

/-- The average over the runs. (`/repo/tool/greenr2k.F90:868-869`) -/
noncomputable def r2kAve (x : List ℂ) : ℂ := x.sum / x.length

/-- The standard error, real and imaginary part. (`/repo/tool/greenr2k.F90:873-889`) -/
noncomputable def r2kErr (x : List ℂ) : ℂ :=
  if x.length = 1 then 0
  else
    let e := (x.map fun z => (⟨(z - r2kAve x).re ^ 2, (z - r2kAve x).im ^ 2⟩ : ℂ)).sum
    (⟨Real.sqrt e.re, Real.sqrt e.im⟩ : ℂ) / (Real.sqrt (((x.length * (x.length - 1) : ℕ)) : ℝ) : ℂ)

/-- The tail of a file name of mVMC: `i3.3` has room for three digits. (`/repo/tool/greenr2k.F90:279-281`) -/
def r2kTail (n : ℕ) : List Char :=
  if n < 1000 then '_' :: Nat.digitChar (n / 100) :: Nat.digitChar (n / 10 % 10) :: Nat.digitChar (n % 10) :: ['.', 'd', 'a', 't'] else ['_', '*', '*', '*', '.', 'd', 'a', 't']

end MVMC
