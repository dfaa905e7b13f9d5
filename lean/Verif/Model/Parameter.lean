import Mathlib.Analysis.Complex.Norm
import Verif.Model.Projection
import Verif.Model.Slater

/-!
# Model of the parameter gauge fixing

`/repo/src/mVMC/parameter.c:122-336`. Parameters are functions of the flat index; exact numbers instead of `double`.
The broadcast of `Para` at the start of `SyncModifiedParameter` is the identity on the root and is not modelled. A
division by zero is the distinct outcome `none`.
-/
namespace MVMC

/-- `a[n] -= shift` for each `n` of a list. (`/repo/src/mVMC/parameter.c:181-252`) -/
def subAll (a : Nat → ℂ) (ns : List Nat) (s : ℝ) : Nat → ℂ :=
  ns.foldl (fun a n => fun k => if k = n then a k - (s : ℂ) else a k) a

/-- `shiftGJ` (`/repo/src/mVMC/parameter.c:173-190`). -/
noncomputable def shiftGJ (q : ProjPar) (P : Nat → ℂ) : Nat → ℂ :=
  if q.NG = 0 ∨ q.NJ = 0 then P else
  let n := q.NG + q.NJ
  let shift := (List.range n).foldl (fun s i => s + (P i).re) 0 / (n : ℝ)
  subAll P (List.range n) shift

/-- One iteration of `shiftDH2` (`/repo/src/mVMC/parameter.c:203-212`): the accumulated `gShift` and the parameters. -/
noncomputable def shiftDH2Step (q : ProjPar) (st : ℝ × (Nat → ℂ)) (xn : Nat) : ℝ × (Nat → ℂ) :=
  let n0 := q.NG + q.NJ + xn
  let n1 := n0 + 2 * q.N2
  let n2 := n0 + 4 * q.N2
  let shift := ((st.2 n0).re + (st.2 n1).re + (st.2 n2).re) / 3
  (st.1 + shift, subAll st.2 [n0, n1, n2] shift)

/-- `shiftDH2` (`/repo/src/mVMC/parameter.c:194-216`). -/
noncomputable def shiftDH2 (q : ProjPar) (P : Nat → ℂ) : ℝ × (Nat → ℂ) :=
  if q.N2 = 0 then (0, P) else (List.range (2 * q.N2)).foldl (shiftDH2Step q) (0, P)

/-- One iteration of `shiftDH4` (`/repo/src/mVMC/parameter.c:228-241`). -/
noncomputable def shiftDH4Step (q : ProjPar) (st : ℝ × (Nat → ℂ)) (xn : Nat) : ℝ × (Nat → ℂ) :=
  let n0 := q.NG + q.NJ + 6 * q.N2 + xn
  let n1 := n0 + 2 * q.N4
  let n2 := n0 + 4 * q.N4
  let n3 := n0 + 6 * q.N4
  let n4 := n0 + 8 * q.N4
  let shift := ((st.2 n0).re + (st.2 n1).re + (st.2 n2).re + (st.2 n3).re + (st.2 n4).re) / 5
  (st.1 + shift, subAll st.2 [n0, n1, n2, n3, n4] shift)

/-- `shiftDH4` (`/repo/src/mVMC/parameter.c:220-245`). -/
noncomputable def shiftDH4 (q : ProjPar) (P : Nat → ℂ) : ℝ × (Nat → ℂ) :=
  if q.N4 = 0 then (0, P) else (List.range (2 * q.N4)).foldl (shiftDH4Step q) (0, P)

/-- `FlagShiftGJ`, `FlagShiftDH2`, `FlagShiftDH4`. (`/repo/src/mVMC/parameter.c:255-310`) -/
structure ShiftFlags where
  gj : Bool
  dh2 : Bool
  dh4 : Bool

/-- all flags `OptFlag[2*i]`, `start ≤ i < start + len`, are 1
(`/repo/src/mVMC/parameter.c:255-310`) -/
def allOne (optFlag : Nat → Int) (start len : Nat) : Bool :=
  (List.range len).all (fun i => optFlag (2 * (start + i)) == 1)

/-- `SetFlagShift` (`/repo/src/mVMC/parameter.c:247-303`). -/
def setFlagShift (q : ProjPar) (optFlag : Nat → Int) : ShiftFlags :=
  if q.NG = 0 then ⟨false, false, false⟩ else
  if !allOne optFlag 0 q.NG then ⟨false, false, false⟩ else
  let e := q.NG
  let gj := if q.NJ > 0 then allOne optFlag e q.NJ else false
  let e := if q.NJ > 0 then e + q.NJ else e
  let d2 := if q.N2 > 0 then allOne optFlag e (6 * q.N2) else false
  let e := if q.N2 > 0 then e + 6 * q.N2 else e
  let d4 := if q.N4 > 0 then allOne optFlag e (10 * q.N4) else false
  ⟨gj, d2, d4⟩

/-- The correlation-factor part of `SyncModifiedParameter` (`/repo/src/mVMC/parameter.c:134-141`). -/
noncomputable def syncProj (q : ProjPar) (f : ShiftFlags) (P : Nat → ℂ) : Nat → ℂ :=
  let r2 := if f.dh2 then shiftDH2 q P else (0, P)
  let r4 := if f.dh4 then shiftDH4 q r2.2 else (0, r2.2)
  let gShift := r2.1 + r4.1
  let P := (List.range q.NG).foldl (fun a i => fun k => if k = i then a k + (gShift : ℂ) else a k) r4.2
  if f.gj then shiftGJ q P else P

/-- `xmax` (`/repo/src/mVMC/parameter.c:144-147,154-157`). -/
noncomputable def maxAbs (S : Nat → ℂ) (n : Nat) : ℝ :=
  (List.range' 1 (n - 1)).foldl (fun x i => if x < ‖S i‖ then ‖S i‖ else x) ‖S 0‖

/-- `a[i] *= ratio` for `i < n`. (`/repo/src/mVMC/parameter.c:159-161,170-174`) -/
def scaleAll (r : ℝ) (S : Nat → ℂ) (n : Nat) : Nat → ℂ :=
  (List.range n).foldl (fun a i => fun k => if k = i then a k * (r : ℂ) else a k) S

/-- `SyncModifiedParameter` on the flat array `Para` (`/repo/src/mVMC/parameter.c:122-169`, block pointers
`/repo/src/mVMC/setmemory.c:298-302`); `none` is a division by zero. -/
noncomputable def syncModified (G : ParGlob) (f : ShiftFlags) (Para : Nat → ℂ) : Option (Nat → ℂ) :=
  let P := syncProj G.q f Para
  let x := maxAbs (fun i => P (G.oSlater + i)) G.Q.nSlater
  if x = 0 then none else
  let P := atOffset G.oSlater (fun S => scaleAll (4 / x) S G.Q.nSlater) P
  if G.flagOpt then
    let y := maxAbs (fun i => P (G.oOpt + i)) G.Q.nOpt
    if y = 0 then none else some (atOffset G.oOpt (fun S => scaleAll (1 / y) S G.Q.nOpt) P)
  else some P

end MVMC
