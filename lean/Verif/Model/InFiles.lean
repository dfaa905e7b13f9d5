import Mathlib.Data.List.Basic

/-!
# Model: the handles of the input files

Every function of `readdef.c` that reads the files of the name list has one variable `fp`. The list of names has one place per keyword, an
empty name is a keyword that is not used. Only the calls of `fopen` and `fclose` are kept. A branch of the `switch` either runs to its end
or returns while the file is open.
-/

namespace MVMC

/-- The value of `fp`: not set, a null pointer, or the handle with this number (`/repo/src/mVMC/readdef.c:193,1821`). -/
inductive FPtr where
  | wild
  | null
  | file (i : ℕ)
  deriving DecidableEq, Repr

/-- `fp`, the handles that are open, and the number of the next one. (`/repo/src/mVMC/readdef.c:193,1821`) -/
structure InSt where
  fp : FPtr
  opened : List ℕ
  next : ℕ
  deriving DecidableEq, Repr

/-- `fp = fopen(defname, "r")`; `ex` tells which files can be opened (`/repo/src/mVMC/readdef.c:214`). -/
def inOpen (ex : List Char → Bool) (nm : List Char) (s : InSt) : InSt :=
  if ex nm then { fp := .file s.next, opened := s.next :: s.opened, next := s.next + 1 } else { s with fp := .null }

/-- `fclose(fp)`; `none` is undefined behaviour (`/repo/src/mVMC/readdef.c:217,238`). -/
def inClose (s : InSt) : Option InSt :=
  match s.fp with
  | .file i => if i ∈ s.opened then some { s with opened := s.opened.erase i } else none
  | _ => none

/-- The loop of `GetInfoFromModPara` with what follows it (`/repo/src/mVMC/readdef.c:1838-1966`); `k` is the keyword, `ret k` that the branch of keyword `k`
returns. The result tells whether the value that is returned is 0. -/
def modParaFiles (ex : List Char → Bool) (ret : ℕ → Bool) : ℕ → List (List Char) → InSt → Option (Bool × InSt)
  | _, [], s => (inClose s).map fun s => (true, s)
  | k, nm :: r, s =>
    if nm = [] then modParaFiles ex ret (k + 1) r s
    else
      let s := inOpen ex nm s
      if s.fp = .null then
        match inClose s with
        | none => none
        | some s => (inClose s).map fun s => (false, s)
      else if ret k then some (false, s)
      else modParaFiles ex ret (k + 1) r s

/-- The loops of `ReadDefFileNInt` (`brk`: it leaves the loop at a missing file), `ReadGreen`, `ReadDefFileIdxPara` and `ReadInputParameters`
(`/repo/src/mVMC/readdef.c:383-568,209-240,862-1128,1196-1469`). The result tells whether all files were found and no branch returned. -/
def readFiles (ex : List Char → Bool) (brk : Bool) (ret : ℕ → Bool) : ℕ → List (List Char) → InSt → Option (Bool × InSt)
  | _, [], s => some (true, s)
  | k, nm :: r, s =>
    if nm = [] then readFiles ex brk ret (k + 1) r s
    else
      let s := inOpen ex nm s
      if s.fp = .null then
        match inClose s with
        | none => none
        | some s => if brk then some (false, s) else (readFiles ex brk ret (k + 1) r s).map fun x => (false, x.2)
      else if ret k then some (false, s)
      else
        match inClose s with
        | none => none
        | some s => readFiles ex brk ret (k + 1) r s

/-- The next function, with its own `fp`, if the one before was successful; otherwise the program stops
(`/repo/src/mVMC/readdef.c:363-369,1143-1150,1474-1479`). -/
def thenRead (x : Option (Bool × InSt)) (f : InSt → Option (Bool × InSt)) : Option (Bool × InSt) :=
  match x with
  | none => none
  | some (true, s) => f { s with fp := .wild }
  | some (false, s) => some (false, s)

/-- All functions that read input files, in order: `GetInfoFromModPara`, the loop of `ReadDefFileNInt`, `ReadGreen` if `green`, `ReadDefFileIdxPara` from
`KWLocSpin = 1` on, and `ReadInputParameters` from `KWInGutzwiller = 26` on (`/repo/src/mVMC/vmcmain.c:216,226,268`,
`/repo/src/mVMC/readdef.c:363,383,583`, `/repo/src/mVMC/include/readdef.h:63-89`). `ret j k`: function `j` returns in the branch of keyword `k`. -/
def readInput (ex : List Char → Bool) (ret : ℕ → ℕ → Bool) (green : Bool) (names : List (List Char)) : Option (Bool × InSt) :=
  let a := modParaFiles ex (ret 0) 0 names { fp := .wild, opened := [], next := 0 }
  let b := thenRead a (readFiles ex true (fun _ => false) 0 names)
  let c := if green then thenRead b (readFiles ex false (ret 1) 1 (names.drop 1)) else b
  let d := thenRead c (readFiles ex false (fun _ => false) 1 (names.drop 1))
  thenRead d (readFiles ex false (ret 2) 26 (names.drop 26))

end MVMC
