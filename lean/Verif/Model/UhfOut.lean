import Verif.Model.Uhf
import Verif.Model.ReadOrb

/-!
# Model of the pair orbitals written by the Hartree–Fock program

`/repo/src/ComplexUHF/output.c`, the orbital part of `/repo/src/ComplexUHF/readdef.c` and the electron numbers set there.

Numbers are exact; a file of integers is a list of lines. Tables `OrbitalIdx`, `OrbitalSgn` are the same `OrbT` as in the variational
program. `none` is undefined behaviour (a store outside an array); a parameter `none` is the quotient `0/0`.
-/
namespace MVMC

/-! ### pair functions -/

/-- `UHF_Fij` from the occupied orbitals. (`/repo/src/ComplexUHF/output.c:203-218`) -/
noncomputable def uhfFij (Ne : Nat) (R : Mat2) : Mat2 := fun isite jsite =>
  sumLoop Ne (fun m => (starRingEnd ℂ) (R isite (2 * m)) * (starRingEnd ℂ) (R jsite (2 * m + 1)) -
    (starRingEnd ℂ) (R isite (2 * m + 1)) * (starRingEnd ℂ) (R jsite (2 * m)))

/-- `AP_UHF_fij`: the blocks of the mean-field matrix for the two spins are diagonalised separately.
(`/repo/src/ComplexUHF/output.c:138-187`) -/
noncomputable def uhfApFij (zheev : Nat → (Nat → ℂ) → (Nat → ℝ) × (Nat → ℂ)) (N Ne : Nat) (ham : Mat2) : Mat2 :=
  let U := (zheevAll zheev N (fun i j => ham i j)).2
  let D := (zheevAll zheev N (fun i j => ham (i + N) (j + N))).2
  fun i j => sumLoop Ne (fun n => U n i * D n j)

/-! ### averages over the pairs with the same parameter -/

/-- `ParamOrbital` and `CountOrbital` (`/repo/src/ComplexUHF/output.c:245-253`) -/
structure OrbAcc where
  par : Nat → ℂ
  cnt : Nat → Nat

/-- One pair `(isite, jsite)` with value `v`; an index outside the arrays is undefined behaviour.
(`/repo/src/ComplexUHF/output.c:259-269`) -/
noncomputable def orbAdd (nIdx : Nat) (T : OrbT) (acc : Option OrbAcc) (e : Nat × Nat × ℂ) : Option OrbAcc :=
  acc.bind fun acc =>
    let idx := T.idx e.1 e.2.1
    if idx = -1 then some acc
    else if 0 ≤ idx ∧ idx < nIdx then
      some ⟨fun k => if k = idx.toNat then acc.par k + e.2.2 * (T.sgn e.1 e.2.1 : ℂ) else acc.par k,
        fun k => if k = idx.toNat then acc.cnt k + 1 else acc.cnt k⟩
    else none

/-- All pairs, after clearing. (`/repo/src/ComplexUHF/output.c:250-271`) -/
noncomputable def orbCollect (nIdx : Nat) (T : OrbT) (evs : List (Nat × Nat × ℂ)) : Option OrbAcc :=
  evs.foldl (orbAdd nIdx T) (some ⟨fun _ => 0, fun _ => 0⟩)

/-- `ParamOrbital[i] /= CountOrbital[i]; ParamOrbital[i] += genrand_real2() * pow(10.0, -eps_int_slater)`; `u` are the random
numbers. (`/repo/src/ComplexUHF/output.c:273-276`) -/
noncomputable def orbFinish (acc : OrbAcc) (u : Nat → ℝ) (δ : ℝ) (i : Nat) : Option ℂ :=
  if acc.cnt i = 0 then none else some (acc.par i / (acc.cnt i : ℂ) + (u i : ℂ) * δ)

/-- the pairs of `OutputAntiParallel_2` (`/repo/src/ComplexUHF/output.c:256-271`) -/
noncomputable def apPairs2 (N : Nat) (F : Mat2) : List (Nat × Nat × ℂ) :=
  (List.range N).flatMap fun i => (List.range N).map fun j => (i + 0 * N, j + 1 * N, F i j)

/-- the pairs of `OutputAntiParallel` (`/repo/src/ComplexUHF/output.c:294-308`) -/
noncomputable def apPairs (N : Nat) (F : Mat2) : List (Nat × Nat × ℂ) :=
  (List.range N).flatMap fun i => (List.range N).map fun j => (i + 0 * N, j + 1 * N, F (i + 0 * N) (j + 1 * N))

/-- the pairs of `OutputParallel` (`/repo/src/ComplexUHF/output.c:331-353`) -/
noncomputable def parPairs (N : Nat) (F : Mat2) : List (Nat × Nat × ℂ) :=
  (List.range N).flatMap fun i => (List.range' (i + 1) (N - (i + 1))).flatMap fun j =>
    [(i + 0 * N, j + 0 * N, F (i + 0 * N) (j + 0 * N)), (i + 1 * N, j + 1 * N, F (i + 1 * N) (j + 1 * N))]

/-- the pairs of `OutputGeneral` (`/repo/src/ComplexUHF/output.c:376-395`) -/
noncomputable def genPairs (N : Nat) (F : Mat2) : List (Nat × Nat × ℂ) :=
  (List.range 2).flatMap fun ispin => (List.range 2).flatMap fun jspin => (List.range N).flatMap fun i => (List.range N).map fun j =>
    (i + ispin * N, j + jspin * N, F (i + ispin * N) (j + jspin * N))

/-- `OutputAntiParallel_2`: the parameters written to the file. (`/repo/src/ComplexUHF/output.c:245-280`) -/
noncomputable def outAP2 (N nIdx : Nat) (T : OrbT) (F : Mat2) (u : Nat → ℝ) (δ : ℝ) : Option (Nat → Option ℂ) :=
  (orbCollect nIdx T (apPairs2 N F)).map fun acc => orbFinish acc u δ

/-- `OutputAntiParallel` (`/repo/src/ComplexUHF/output.c:283-315`) -/
noncomputable def outAP (N nIdx : Nat) (T : OrbT) (F : Mat2) (u : Nat → ℝ) (δ : ℝ) : Option (Nat → Option ℂ) :=
  (orbCollect nIdx T (apPairs N F)).map fun acc => orbFinish acc u δ

/-- `OutputParallel`: entries from `NOrbitalAP` on are finished and then moved to the front.
(`/repo/src/ComplexUHF/output.c:317-365`) -/
noncomputable def outP (N nAP nP nIdx : Nat) (T : OrbT) (F : Mat2) (u : Nat → ℝ) (δ : ℝ) : Option (Nat → Option ℂ) :=
  (orbCollect nIdx T (parPairs N F)).map fun acc =>
    let par := fun i => if nAP ≤ i ∧ i < nAP + nP then orbFinish acc u δ i else some (acc.par i)
    (List.range' nAP nP).foldl (fun par i => storeAt par (i - nAP, par i)) par

/-- `OutputGeneral` (`/repo/src/ComplexUHF/output.c:367-405`) -/
noncomputable def outG (N nIdx : Nat) (T : OrbT) (F : Mat2) (u : Nat → ℝ) (δ : ℝ) : Option (Nat → Option ℂ) :=
  (orbCollect nIdx T (genPairs N F)).map fun acc => orbFinish acc u δ

/-! ### reading the orbital files -/

/-- `JudgeOrbitalMode`: `OrbitalOutputMode` and the new `iFlgOrbitalGeneral`. (`/repo/src/ComplexUHF/readdef.c:93-131`) -/
def judgeOrbitalMode (general ap p : Bool) : RdOut (Nat × Bool) :=
  if general then if !ap && !p then .ok (0, true) else .err
  else if ap then if p then .ok (2, true) else .ok (1, false)
  else .err

/-- The kinds of orbital files: antiparallel, parallel, general. (`/repo/src/ComplexUHF/output.c:276,362,402`) -/
inductive OrbFile | ap | p | g
deriving DecidableEq

/-- `MakeOrbitalFile`: the files written, with their parameters. (`/repo/src/ComplexUHF/output.c:123-242`) -/
noncomputable def makeOrbitalFile (zheev : Nat → (Nat → ℂ) → (Nat → ℝ) × (Nat → ℂ)) (N Ne nAP nP nIdx mode : Nat) (T : OrbT) (ham : Mat2)
    (u : Nat → ℝ) (δ : ℝ) : List (OrbFile × Option (Nat → Option ℂ)) :=
  if nIdx = 0 then []
  else if mode = 1 then [(.ap, outAP2 N nIdx T (uhfApFij zheev N Ne ham) u δ)]
  else
    let F := uhfFij Ne (diag zheev N ham).2.1
    if mode = 2 then [(.ap, outAP N nIdx T F u δ), (.p, outP N nAP nP nIdx T F u δ)]
    else if mode = 0 then [(.g, outG N nIdx T F u δ)]
    else []

/-- The tables before the files are read: zero after `setmem`, then `-1` where the code initialises them.
(`/repo/src/ComplexUHF/readdef.c:413-430`, `/repo/src/common/setmemory.c:49-59`) -/
def uhfOrbInit (general : Bool) (N : Nat) : OrbT :=
  let n := if general then 2 * N else N
  ⟨fun a b => if a < n ∧ b < n then -1 else 0, fun _ _ => 0⟩

/-- `sscanf` on a line, with the sign set to 1 if it is the only item missing.
(`/repo/src/ComplexUHF/readdef.c:602-613,624-634,659-664,690-701`) -/
def uhfScan (n : Nat) (x : List (Option ℤ)) (l : List ℤ) : List (Option ℤ) :=
  if (l.take n).length = n - 1 then (scanO n x l).set (n - 1) (some 1) else scanO n x l

/-- The loop over the lines of an orbital file: `info`, the number of entries and the tables. A step tells whether the sites of the line are right; if not, `info` becomes 1
and the loop is left (`stop`) or only the line is skipped. (`/repo/src/ComplexUHF/readdef.c:600-712`) -/
def uhfOrbLoop (n inc limit : Nat) (stop : Bool) (step : List (Option ℤ) → OrbT → RdOut (Bool × OrbT)) :
    List (List ℤ) → List (Option ℤ) → ℤ → Nat → OrbT → RdOut (ℤ × Nat × OrbT)
  | [], _, info, idx, T => .ok (info, idx, T)
  | l :: ls, x, info, idx, T =>
    match step (uhfScan n x l) T with
    | .ok (true, T) =>
      if idx + inc = limit then .ok (info, idx + inc, T) else uhfOrbLoop n inc limit stop step ls (uhfScan n x l) info (idx + inc) T
    | .ok (false, T) =>
      if stop ∨ idx = limit then .ok (1, idx, T) else uhfOrbLoop n inc limit stop step ls (uhfScan n x l) 1 idx T
    | .err => .err
    | .ub => .ub
    | .hang => .hang

/-- One line of the antiparallel file; the tables are written before the sites are checked.
(`/repo/src/ComplexUHF/readdef.c:602-621`) -/
def uhfApStep (N : Nat) (x : List (Option ℤ)) (T : OrbT) : RdOut (Bool × OrbT) :=
  match x with
  | [some i, some j, some f, some s] =>
    let a := i + N * 0
    let b := j + N * 1
    if a < 0 ∨ a ≥ 2 * N ∨ b < 0 ∨ b ≥ 2 * N then .ub
    else .ok (checkPairSite i j N = 0, T.set a.toNat b.toNat f s)
  | _ => .ub

/-- The same if the orbitals are stored for all spins. (`/repo/src/ComplexUHF/readdef.c:626-650`) -/
def uhfApGenStep (N : Nat) (x : List (Option ℤ)) (T : OrbT) : RdOut (Bool × OrbT) :=
  match x with
  | [some i, some j, some f, some s] =>
    if checkPairSite i j N ≠ 0 then .ok (false, T)
    else .ok (true, T.mirror (i + 0 * (N : ℤ)).toNat (j + 1 * (N : ℤ)).toNat f s)
  | _ => .ub

/-- One line of the parallel file; a wrong site only leaves the loop over the spins. (`/repo/src/ComplexUHF/readdef.c:658-684`) -/
def uhfParStep (N nAP : Nat) (x : List (Option ℤ)) (T : OrbT) : RdOut (Bool × OrbT) :=
  match x with
  | [some i, some j, some f, some s] =>
    if checkPairSite i j N ≠ 0 then .ok (false, T)
    else
      let T := T.mirror (i + 0 * (N : ℤ)).toNat (j + 0 * (N : ℤ)).toNat (nAP + 2 * f + 0) s
      .ok (true, T.mirror (i + 1 * (N : ℤ)).toNat (j + 1 * (N : ℤ)).toNat (nAP + 2 * f + 1) s)
  | _ => .ub

/-- One line of the general file; sites and spins are not checked. (`/repo/src/ComplexUHF/readdef.c:690-709`) -/
def uhfGenStep (N : Nat) (x : List (Option ℤ)) (T : OrbT) : RdOut (Bool × OrbT) :=
  match x with
  | [some i, some si, some j, some sj, some f, some s] =>
    let a := i + N * si
    let b := j + N * sj
    if a < 0 ∨ a ≥ 2 * N ∨ b < 0 ∨ b ≥ 2 * N then .ub
    else .ok (true, T.set a.toNat b.toNat f s)
  | _ => .ub

/-- `ReadDefFileError` returns 0, so `info=ReadDefFileError(defname)` clears `info`. (`/repo/src/ComplexUHF/readdef.c:70-75`) -/
def uhfDefError : ℤ := 0

/-- The antiparallel file. (`/repo/src/ComplexUHF/readdef.c:598-652`) -/
def uhfReadAP (general : Bool) (N : Nat) (ls : List (List ℤ)) (info : ℤ) (T : OrbT) : RdOut (ℤ × OrbT) :=
  match uhfOrbLoop 4 1 (N * N) true (if general then uhfApGenStep N else uhfApStep N) ls [none, none, none, none] info 0 T with
  | .ok (info, idx, T) => if !general && idx ≠ N * N then .ok (uhfDefError, T) else .ok (info, T)
  | .err => .err
  | .ub => .ub
  | .hang => .hang

/-- The parallel file. (`/repo/src/ComplexUHF/readdef.c:653-686`) -/
def uhfReadP (N nAP : Nat) (ls : List (List ℤ)) (info : ℤ) (T : OrbT) : RdOut (ℤ × OrbT) :=
  match uhfOrbLoop 4 2 (N * (N - 1)) false (uhfParStep N nAP) ls [none, none, none, none] info 0 T with
  | .ok (info, _, T) => .ok (info, T)
  | .err => .err
  | .ub => .ub
  | .hang => .hang

/-- The general file. (`/repo/src/ComplexUHF/readdef.c:687-715`) -/
def uhfReadG (N nIdx : Nat) (ls : List (List ℤ)) (info : ℤ) (T : OrbT) : RdOut (ℤ × OrbT) :=
  if nIdx = 0 then .ok (info, T)
  else match uhfOrbLoop 6 1 (N * (2 * N - 1)) false (uhfGenStep N) ls [none, none, none, none, none, none] info 0 T with
    | .ok (info, idx, T) => if idx ≠ N * (2 * N - 1) then .ok (uhfDefError, T) else .ok (info, T)
    | .err => .err
    | .ub => .ub
    | .hang => .hang

/-! ### electron numbers -/

/-- `Ne` and `Nsize` after `ReadDefFileNInt`: `ne`, `ncond` are the values in the parameter file, if present, `orbital` tells whether
an orbital file is given. `Ne` and `Nsize` start at 0 (a global variable). (`/repo/src/ComplexUHF/readdef.c:237-240,354-366,996`) -/
def uhfCounts (ne ncond : Option ℤ) (nLocSpn : ℤ) (orbital : Bool) : RdOut (ℤ × ℤ) :=
  let Ne := ne.getD 0
  let Ncond := ncond.getD 0
  if Ncond ≠ -1 then
    if orbital then
      if Ncond.tmod 2 ≠ 0 then .err
      else
        let Ne := (nLocSpn + Ncond).tdiv 2
        .ok (Ne, 2 * Ne)
    else .ok (Ne, nLocSpn + Ncond)
  else .ok (Ne, 0)

/-- The indices of `EigenValues` read for the gap. (`/repo/src/ComplexUHF/output.c:78-82`) -/
def uhfGap (N : Nat) (nsize : ℤ) (eig : Nat → ℝ) : RdOut ℝ :=
  if nsize - 1 < 0 ∨ nsize ≥ 2 * N then .ub else .ok (eig nsize.toNat - eig (nsize - 1).toNat)

end MVMC
