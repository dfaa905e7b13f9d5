import Mathlib.Data.List.Basic

/-!
# Command lines of the Hartree-Fock program and of the program that only writes input files

`words` are the arguments after the program name (`argc-1` of them; `argc` is at least 1).
-/

namespace MVMC

/-- What the programs do: stop with an exit code, or work on one file (`/repo/src/ComplexUHF/UHFmain.c:59-63,72`, `/repo/src/mVMC/vmcdry.c:31-42`). -/
inductive SmallRun where
  | exit (code : Int)
  | file (name : List Char)
  deriving DecidableEq

/-- `main` of ComplexUHF up to the input (`/repo/src/ComplexUHF/UHFmain.c:59-63,72,81`); `argv[2]` is not used. -/
def uhfCmd (words : List (List Char)) : SmallRun :=
  if words.length + 1 = 1 ∨ words.length + 1 > 3 then .exit 1 else .file (words.headD [])

/-- `main` of `vmcdry.out` (`/repo/src/mVMC/vmcdry.c:29-43`); the file goes to `StdFace_main`. -/
def dryCmd (words : List (List Char)) : SmallRun :=
  if words.length + 1 = 1 then .exit 1
  else if words.headD [] = ['-', 'v'] then .exit 0
  else .file (words.headD [])

end MVMC
