import Mathlib.Data.Nat.Digits.Defs
import Mathlib.Logic.Function.Basic

/-!
# The output files of a run

`/repo/src/mVMC/initfile.c` and the places of `vmcmain.c`, `vmcclock.c`, `stcopt.c`, `physcal_lanczos.c` that write to the files opened there. The model is
the sequence of file operations of one process (`List FileOp`) and its execution on a table of handles and files.

Simplifications:
* an operation that writes prints a record; a record names what is printed and the step (and the line), its numbers are those of `Model/VarFile.lean`,
  `Model/GreenOut.lean`, `Model/Lanczos.lean`;
* output is not buffered (`fflush` only checks the handle); a write never fails;
* the files of `OutputOptData`, which are opened and closed inside one function (C42), are left out;
* the numbers of steps and samples are natural numbers (a negative number means no step).
-/
namespace MVMC

/-- The handles. `timer` is the local `fp` of `OutputTimerParaOpt`, `OutputTimerPhysCal`. (`/repo/src/mVMC/include/global.h:321-336`,
`/repo/src/mVMC/vmcclock.c:81,142`) -/
inductive OutH
  | time | srInfo | out | var | cis | ckt | cktDC | ls | lsQQQQ | lsQCis | lsQCkt | lsCis | lsCkt | lsCktDC | timer
  deriving DecidableEq, Repr

/-- What one `fprintf` or `fwrite` prints. (`/repo/src/mVMC/vmcmain.c:640-705`, `/repo/src/mVMC/initfile.c:33-66`, `/repo/src/mVMC/vmcclock.c:34-48`,
`/repo/src/mVMC/stcopt.c:157`, `/repo/src/mVMC/physcal_lanczos.c:78-142`) -/
inductive OutRec
  | time (step : Nat) | srHead (eigen : Bool) | sr (step : Nat) | out (step : Nat) | var (step : Nat) | binHead (nPara n : Nat) | bin (step : Nat)
  | cis (step i : Nat) | ckt (step i : Nat) | cktDC (step i : Nat) | ls (step k : Nat) | lsQQQQ (step i : Nat) | lsQCis (step i : Nat) | lsQCkt (step i : Nat)
  | lsCis (step i : Nat) | lsCkt (step i : Nat) | lsCktDC (step i : Nat) | newline | timers
  deriving DecidableEq, Repr

/-- File operations; `ub` is undefined behaviour outside of the files. (`/repo/src/mVMC/initfile.c:33-204`) -/
inductive FileOp
  | open (h : OutH) (name : List Char)
  | write (h : OutH) (x : OutRec)
  | flush (h : OutH)
  | close (h : OutH)
  | ub
  deriving DecidableEq, Repr

/-- The decimal digits of a number; none for 0. (`/repo/src/mVMC/initfile.c:41`: conversion `%d`) -/
def decDigits (n : Nat) : List Char := ((Nat.digits 10 n).map Nat.digitChar).reverse

/-- Zeros in front up to the width. (`/repo/src/mVMC/initfile.c:41`: conversion `%03d`) -/
def zeroPad (w : Nat) (l : List Char) : List Char := List.replicate (w - l.length) '0' ++ l

/-- `%03d`. (`/repo/src/mVMC/initfile.c:41`) -/
def fmt03 (i : Int) : List Char := if i < 0 then '-' :: zeroPad 2 (decDigits i.natAbs) else zeroPad 3 (decDigits i.natAbs)

/-- The parameters that decide which files are opened. `eigen` is `SRFlag != 0`, `real` is `AllComplexFlag == 0`, `debug` is `_DEBUG`.
(`/repo/src/mVMC/include/global.h:33-190`) -/
structure OutPar where
  head : List Char
  idxStart : Int
  calMode : Int
  binary : Bool
  eigen : Bool
  nPara : Nat
  nStep : Nat
  nSmp : Nat
  flushInt : Nat
  nCis : Nat
  nCkt : Nat
  nDC : Nat
  lanczos : Nat
  nLSHam : Nat
  real : Bool
  debug : Bool

/-- `sprintf(fileName, "%s_tag_%03d.dat", CDataFileHead, idx)`. (`/repo/src/mVMC/initfile.c:41`) -/
def OutPar.name (q : OutPar) (tag : String) (idx : Int) : List Char := q.head ++ (tag.toList ++ (fmt03 idx ++ ".dat".toList))

/-- `sprintf(fileName, "%s_tag.dat", CDataFileHead)`. (`/repo/src/mVMC/initfile.c:45`, `/repo/src/mVMC/vmcclock.c:82`) -/
def OutPar.plainName (q : OutPar) (tag : String) : List Char := q.head ++ (tag.toList ++ ".dat".toList)

/-- `InitFile`. (`/repo/src/mVMC/initfile.c:33-70`) -/
def initFile (q : OutPar) (rank : Nat) : List FileOp :=
  if rank ≠ 0 then [] else
    [.open .time (q.name "_time_" q.idxStart)] ++
    if q.calMode = 0 then
      [.open .srInfo (q.plainName "_SRinfo"), .write .srInfo (.srHead q.eigen), .open .out (q.name "_out_" q.idxStart)] ++
      if q.binary = false then [.open .var (q.name "_var_" q.idxStart)]
      else [.open .var (q.name "_varbin_" q.idxStart), .write .var (.binHead q.nPara q.nStep)]
    else []

/-- `InitFilePhysCal`. (`/repo/src/mVMC/initfile.c:72-142`) -/
def initFilePhysCal (q : OutPar) (i rank : Nat) : List FileOp :=
  let idx : Int := i + q.idxStart
  if rank ≠ 0 then [] else
    [.open .out (q.name "_out_" idx)] ++
    (if q.binary = false then [.open .var (q.name "_var_" idx)]
      else [.open .var (q.name "_varbin_" idx), .write .var (.binHead q.nPara 1)]) ++
    (if q.nCis > 0 then [.open .cis (q.name "_cisajs_" idx)] else []) ++
    (if q.nCkt > 0 then [.open .ckt (q.name "_cisajscktaltex_" idx)] else []) ++
    (if q.nDC > 0 then [.open .cktDC (q.name "_cisajscktalt_" idx)] else []) ++
    (if q.lanczos > 0 then
      [.open .ls (q.name "_ls_out_" idx), .open .lsQQQQ (q.name "_ls_qqqq_" idx)] ++
      (if q.lanczos > 1 then
        (if q.debug then [.open .lsQCis (q.name "_ls_qcisajsq_" idx), .open .lsQCkt (q.name "_ls_qcisajscktaltq_" idx)] else []) ++
        [.open .lsCis (q.name "_ls_cisajs_" idx), .open .lsCkt (q.name "_ls_cisajscktaltex_" idx), .open .lsCktDC (q.name "_ls_cisajscktalt_" idx)]
      else [])
    else [])

/-- `CloseFile`. (`/repo/src/mVMC/initfile.c:144-156`) -/
def closeFile (q : OutPar) (rank : Nat) : List FileOp :=
  if rank ≠ 0 then [] else
    [.close .time] ++ if q.calMode = 0 then [.close .srInfo, .close .out, .close .var] else []

/-- `CloseFilePhysCal`. (`/repo/src/mVMC/initfile.c:158-190`) -/
def closeFilePhysCal (q : OutPar) (rank : Nat) : List FileOp :=
  if rank ≠ 0 then [] else
    [.close .out, .close .var] ++
    (if q.nCis > 0 then [.close .cis] else []) ++
    (if q.nCkt > 0 then [.close .ckt] else []) ++
    (if q.nDC > 0 then [.close .cktDC] else []) ++
    (if q.lanczos > 0 then
      [.close .ls, .close .lsQQQQ] ++
      (if q.lanczos > 1 then
        (if q.debug then [.close .lsQCis, .close .lsQCkt] else []) ++ [.close .lsCis, .close .lsCkt, .close .lsCktDC]
      else [])
    else [])

/-- `FlushFile`. (`/repo/src/mVMC/initfile.c:192-204`) -/
def flushFile (q : OutPar) (step rank : Nat) : List FileOp :=
  if rank ≠ 0 then [] else
    if q.flushInt = 0 then [.ub]
    else if step % q.flushInt = 0 then
      [.flush .time] ++ if q.calMode = 0 then [.flush .srInfo, .flush .out, .flush .var] else []
    else []

/-- `OutputTime`. (`/repo/src/mVMC/vmcclock.c:34-48`) -/
def outputTime (step : Nat) : List FileOp := [.write .time (.time step)]

/-- A loop that prints `n` numbers or lines and the final line break. (`/repo/src/mVMC/vmcmain.c:665-688`) -/
def writeLines (h : OutH) (n : Nat) (x : Nat → OutRec) : List FileOp := (List.range n).map (fun i => .write h (x i)) ++ [.write h .newline]

/-- The files of `PhysCalLanczos_real`, `PhysCalLanczos_fcmp`; the second one stops when `CalculateEne` fails.
(`/repo/src/mVMC/physcal_lanczos.c:63-147,185-268`) -/
def physCalLanczosOut (q : OutPar) (step : Nat) (eneOk : Bool) : List FileOp :=
  if q.real = false ∧ eneOk = false then [] else
    [.write .ls (.ls step 0), .write .ls (.ls step 1), .write .ls (.ls step 2)] ++
    writeLines .lsQQQQ (q.nLSHam * q.nLSHam * q.nLSHam * q.nLSHam) (.lsQQQQ step) ++
    (if q.lanczos > 1 then
      (if q.debug then writeLines .lsQCis (q.nLSHam * q.nLSHam * q.nCis) (.lsQCis step) else []) ++
      writeLines .lsCis q.nCis (.lsCis step) ++
      (if q.debug then writeLines .lsQCkt (q.nLSHam * q.nLSHam * q.nCkt) (.lsQCkt step) else []) ++
      writeLines .lsCktDC q.nDC (.lsCktDC step) ++
      writeLines .lsCkt q.nCkt (.lsCkt step)
    else [])

/-- `outputData`. (`/repo/src/mVMC/vmcmain.c:640-706`) -/
def outputDataOps (q : OutPar) (step : Nat) (eneOk : Bool) : List FileOp :=
  [.write .out (.out step)] ++
  (if q.binary = false then [.write .var (.var step)] else [.write .var (.bin step)]) ++
  if q.calMode = 1 then
    (if q.nCis > 0 then writeLines .cis q.nCis (.cis step) else []) ++
    (if q.nCkt > 0 then writeLines .ckt q.nCkt (.ckt step) else []) ++
    (if q.nDC > 0 then writeLines .cktDC q.nDC (.cktDC step) else []) ++
    (if q.lanczos > 0 then physCalLanczosOut q step eneOk else [])
  else []

/-- Steps `step, step+1, …` of `VMCParaOpt`; `srOk` tells whether the optimisation of a step returned 0. (`/repo/src/mVMC/vmcmain.c:339-516`,
`/repo/src/mVMC/stcopt.c:147-159`, `/repo/src/mVMC/stcopt_cg_impl.c:193-204`) -/
def paraOptSteps (q : OutPar) (srOk : Nat → Bool) (rank : Nat) : Nat → Nat → List FileOp × Bool
  | 0, _ => ([], true)
  | left + 1, step =>
    let ops := (if rank = 0 then outputTime step ++ outputDataOps q step true ++ [.write .srInfo (.sr step)] else [])
    if srOk step = false then (ops, false)
    else
      let rest := paraOptSteps q srOk rank left (step + 1)
      (ops ++ flushFile q step rank ++ rest.1, rest.2)

/-- `VMCParaOpt`. (`/repo/src/mVMC/vmcmain.c:331-528`) -/
def vmcParaOptOps (q : OutPar) (srOk : Nat → Bool) (rank : Nat) : List FileOp :=
  let r := paraOptSteps q srOk rank q.nStep 0
  r.1 ++ if r.2 ∧ rank = 0 then outputTime q.nStep else []

/-- One sample of `VMCPhysCal`. (`/repo/src/mVMC/vmcmain.c:546-631`) -/
def physCalSample (q : OutPar) (eneOk : Nat → Bool) (rank i : Nat) : List FileOp :=
  (if rank = 0 then outputTime i else []) ++ flushFile q 0 rank ++ initFilePhysCal q i rank ++
  (if rank = 0 then outputDataOps q i (eneOk i) else []) ++ closeFilePhysCal q rank

/-- `VMCPhysCal`. (`/repo/src/mVMC/vmcmain.c:531-637`) -/
def vmcPhysCalOps (q : OutPar) (eneOk : Nat → Bool) (rank : Nat) : List FileOp :=
  (List.range q.nSmp).flatMap (physCalSample q eneOk rank) ++ if rank = 0 then outputTime q.nSmp else []

/-- `OutputTimerParaOpt`, `OutputTimerPhysCal`. (`/repo/src/mVMC/vmcclock.c:79-194`) -/
def outputTimer (q : OutPar) : List FileOp := [.open .timer (q.plainName "_CalcTimer"), .write .timer .timers, .close .timer]

/-- The files of `main`. (`/repo/src/mVMC/vmcmain.c:284-317`) -/
def mainOps (q : OutPar) (srOk eneOk : Nat → Bool) (rank : Nat) : List FileOp :=
  (if rank = 0 then initFile q rank else []) ++
  (if q.calMode = 0 then vmcParaOptOps q srOk rank else if q.calMode = 1 then vmcPhysCalOps q eneOk rank else []) ++
  (if rank = 0 ∧ (q.calMode = 0 ∨ q.calMode = 1) then outputTimer q else []) ++
  (if rank = 0 then closeFile q rank else [])

/-- The value returned by `VMCParaOpt`: `info` of the step that failed, or 0. (`/repo/src/mVMC/vmcmain.c:331-528`) -/
def vmcParaOptRet (info : Nat → Int) : Nat → Nat → Int
  | 0, _ => 0
  | left + 1, step => if info step ≠ 0 then info step else vmcParaOptRet info left (step + 1)

/-- `info` of `main` as returned at the end: the values of `VMCParaOpt` and `VMCPhysCal` (first argument) are dropped. (`/repo/src/mVMC/vmcmain.c:288-327`) -/
def mainInfo (_ret : Int) (calMode info : Int) : Int := if calMode = 0 then info else if calMode = 1 then info else 1

/-! ## Execution -/

/-- Handles and files. `hd h = none`: the handle is a null pointer or has been closed. `leak`: a handle was overwritten while its file was open; `clash`: a
file was opened twice at the same time. (`/repo/src/mVMC/include/global.h:321-336`) -/
structure FileSys where
  hd : OutH → Option (List Char)
  files : List Char → Option (List OutRec)
  leak : Bool
  clash : Bool

/-- The size of the buffers for file names. (`/repo/src/mVMC/include/global.h:33`) -/
def fileNameMax : Nat := 256

/-- All handles. (`/repo/src/mVMC/include/global.h:321-336`) -/
def allH : List OutH := [.time, .srInfo, .out, .var, .cis, .ckt, .cktDC, .ls, .lsQQQQ, .lsQCis, .lsQCkt, .lsCis, .lsCkt, .lsCktDC, .timer]

/-- One operation; `none` is undefined behaviour: a name longer than its buffer, or a handle that is not open. `can` tells which files can be opened for
writing. (`/repo/src/mVMC/initfile.c:33-204`) -/
def execOp (can : List Char → Bool) (s : FileSys) : FileOp → Option FileSys
  | .ub => none
  | .open h nm =>
    if nm.length ≥ fileNameMax then none
    else
      let leak := s.leak || (s.hd h).isSome
      if can nm then
        some { hd := Function.update s.hd h (some nm), files := Function.update s.files nm (some []), leak := leak,
               clash := s.clash || allH.any (fun k => k ≠ h && s.hd k == some nm) }
      else some { s with hd := Function.update s.hd h none, leak := leak }
  | .write h x =>
    match s.hd h with
    | none => none
    | some nm => some { s with files := Function.update s.files nm ((s.files nm).map (· ++ [x])) }
  | .flush h => if (s.hd h).isSome then some s else none
  | .close h => if (s.hd h).isSome then some { s with hd := Function.update s.hd h none } else none

/-- All operations. (`/repo/src/mVMC/vmcmain.c:284-317`) -/
def execOps (can : List Char → Bool) : List FileOp → FileSys → Option FileSys
  | [], s => some s
  | o :: r, s =>
    match execOp can s o with
    | none => none
    | some s => execOps can r s

/-- No handle is open; the files are those of the directory. (`/repo/src/mVMC/include/global.h:321-336`) -/
def startFiles (files : List Char → Option (List OutRec)) : FileSys := ⟨fun _ => none, files, false, false⟩

/-! ## The prefix of the names in the input -/

/-- `output/` and the second word of line 6 of `modpara.def`; the line fits into its buffer. `none`: the result is longer than the buffer `ctmp` (undefined
behaviour). (`/repo/src/mVMC/readdef.c:1860-1867`) -/
def readDataFileHead (h : List Char) : Option (List Char) :=
  if "output/".toList.length + h.length ≥ fileNameMax then none else some ("output/".toList ++ h)

end MVMC
