import Mathlib.Analysis.SpecialFunctions.Trigonometric.Basic
import Verif.Model.ParamIO

/-!
# The variable file of a run and the random initial parameters

Models of `outputData` (vmcmain.c: the line of `zvo_out.dat` and the record of `zvo_var.dat` written at
every step), of the header of the binary variable file (initfile.c) and of `InitParameter` (parameter.c).

Simplifications:
* text produced by `"% .18e"` is the number itself, as in `Model/ParamIO.lean`; numbers are exact;
* a binary file is a pair: its header (two C `int`s) and the `double`s that follow;
* `genrand_real2()` is the next element of a sequence; how the generator produces it is not modelled;
* the parallel loop that clears `Proj` is written as a sequential loop.
-/

namespace MVMC
open Complex

/-! ## The variable file -/

/-- What a step prints: `Etot`, `Etot2`, `Sztot`, `Sztot2` and `Para`. /repo/src/mVMC/vmcmain.c:640-661. -/
structure StepOut where
  etot : ℂ
  etot2 : ℂ
  sz : ℂ
  sz2 : ℂ
  para : Nat → ℂ

/-- The line of `zvo_out.dat`. /repo/src/mVMC/vmcmain.c:647. -/
noncomputable def outLine (o : StepOut) : List ℝ :=
  [o.etot.re, o.etot.im, o.etot2.re, ((o.etot2 - o.etot * o.etot) / (o.etot * o.etot)).re,
    o.sz.re, o.sz2.re]

/-- The record of `zvo_var.dat` in text mode. /repo/src/mVMC/vmcmain.c:654-657. -/
noncomputable def varLine (nPara : Nat) (o : StepOut) : List ℝ :=
  [o.etot.re, o.etot.im, 0, o.etot2.re, o.etot2.im, 0] ++
    (List.range nPara).flatMap fun i => [(o.para i).re, (o.para i).im, 0]

/-- `zvo_var.dat` after the given steps; the text file has no header.
/repo/src/mVMC/initfile.c:58-60, /repo/src/mVMC/vmcmain.c:439. -/
noncomputable def varFile (nPara : Nat) (steps : List StepOut) : List ℝ :=
  steps.flatMap (varLine nPara)

/-- The array `Para` seen as `double`s: real and imaginary parts alternate (C11 6.2.5p13). /repo/src/mVMC/vmcmain.c:660. -/
noncomputable def paraDoubles (para : Nat → ℂ) (k : Nat) : ℝ :=
  if k % 2 = 0 then (para (k / 2)).re else (para (k / 2)).im

/-- `fwrite(Para, sizeof(double), NPara, FileVar)`. /repo/src/mVMC/vmcmain.c:660. -/
noncomputable def varBinRecord (nPara : Nat) (o : StepOut) : List ℝ :=
  (List.range nPara).map (paraDoubles o.para)

/-- `zvo_varbin.dat`: `NPara` and `NSROptItrStep`, then one record per step.
/repo/src/mVMC/initfile.c:61-66, /repo/src/mVMC/vmcmain.c:660. -/
noncomputable def varBinFile (nPara nStep : Nat) (steps : List StepOut) : (Nat × Nat) × List ℝ :=
  ((nPara, nStep), steps.flatMap (varBinRecord nPara))

/-! ## Random initial parameters -/

/-- What `InitParameter` reads: sizes, `AllComplexFlag`, `OptFlag`, `Nneuron`, `ParaQPOptTrans`.
/repo/src/mVMC/parameter.c:36-92. -/
structure InitIn where
  S : IOSizes
  allComplex : Bool
  optFlag : Nat → Int
  nNeuron : Nat
  paraQPOpt : Nat → ℂ

/-- The parameters (`none`: not a finite number) and how many random numbers have been drawn.
/repo/src/mVMC/parameter.c:36-92. -/
abbrev InitSt := (Nat → Option ℂ) × Nat

/-- `0.01*(genrand_real2() -0.5)/(double)Nneuron`; a division by zero gives no finite number.
/repo/src/mVMC/parameter.c:45. -/
noncomputable def rbmReal (nNeuron : Nat) (u : ℝ) : Option ℂ :=
  if nNeuron = 0 then none else some ((0.01 * (u - 0.5) / nNeuron : ℝ) : ℂ)

/-- `1e-2*genrand_real2()*cexp(2.0*I*M_PI*genrand_real2())`; `x` is the left and `y` the right call.
/repo/src/mVMC/parameter.c:53. -/
noncomputable def rbmComplex (x y : ℝ) : ℂ := ((1e-2 * x : ℝ) : ℂ) * Complex.exp (2 * I * Real.pi * y)

/-- One iteration of the RBM loop.  C leaves open which of the two calls in line 53 is made first;
`rightFirst` says so.  /repo/src/mVMC/parameter.c:43-58. -/
noncomputable def initRBMStep (A : InitIn) (rightFirst : Bool) (u : Nat → ℝ) (st : InitSt) (i : Nat) : InitSt :=
  if 0 < A.optFlag (2 * i + 2 * A.S.nProj) then
    if A.allComplex then
      (Function.update st.1 (A.S.oRBM + i) (some (if rightFirst then rbmComplex (u (st.2 + 1)) (u st.2)
        else rbmComplex (u st.2) (u (st.2 + 1)))), st.2 + 2)
    else (Function.update st.1 (A.S.oRBM + i) (rbmReal A.nNeuron (u st.2)), st.2 + 1)
  else (Function.update st.1 (A.S.oRBM + i) (some 0), st.2)

/-- One iteration of the orbital loop. /repo/src/mVMC/parameter.c:63-86. -/
noncomputable def initSlaterStep (A : InitIn) (u : Nat → ℝ) (st : InitSt) (i : Nat) : InitSt :=
  if 0 < A.optFlag (2 * i + 2 * A.S.nProj + 2 * A.S.nR) then
    if A.allComplex then
      (Function.update st.1 (A.S.oSlater + i)
        (some ((((2 * (u st.2 - 0.5) : ℝ) : ℂ) + 2 * I * ((u (st.2 + 1) - 0.5 : ℝ) : ℂ)) /
          (Real.sqrt 2 : ℂ))), st.2 + 2)
    else (Function.update st.1 (A.S.oSlater + i) (some ((2 * (u st.2 - 0.5) : ℝ) : ℂ)), st.2 + 1)
  else (Function.update st.1 (A.S.oSlater + i) (some 0), st.2)

/-- `InitParameter`, with `k` random numbers drawn before.  /repo/src/mVMC/parameter.c:36-92. -/
noncomputable def initParameter (A : InitIn) (rightFirst : Bool) (u : Nat → ℝ) (st : InitSt) : InitSt :=
  let st := (List.range A.S.nProj).foldl (fun st i => (Function.update st.1 i (some 0), st.2)) st
  let st := if A.S.flagRBM then (List.range A.S.nRBM).foldl (initRBMStep A rightFirst u) st else st
  let st := (List.range A.S.nSlater).foldl (initSlaterStep A u) st
  (List.range A.S.nOpt).foldl
    (fun st i => (Function.update st.1 (A.S.oOpt + i) (some (A.paraQPOpt i)), st.2)) st

end MVMC
