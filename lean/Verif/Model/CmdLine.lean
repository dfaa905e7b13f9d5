import Verif.Model.MultiDef

/-!
# Model of the command line of `vmc.out`

`/repo/src/mVMC/vmcmain.c:49-197`, `:727-806`. `getopt` and `strtol` are library functions, modelled by their documentation (GNU `getopt` without
`POSIXLY_CORRECT`: operands and options may be mixed; 64-bit `long`, 32-bit `int`). Words of the command line are lists of characters without the
program name. The text printed to the error output is not modelled. `MPI_Init` does not change the arguments.
-/
namespace MVMC

/-- What one call of `getopt` reports: an option, an option with its argument, or `'?'`. (`/repo/src/mVMC/vmcmain.c:83`) -/
inductive OptEv where
  | flag (c : Char)
  | arg (c : Char) (a : List Char)
  | bad
  deriving DecidableEq, Repr

/-- kinds of option characters (`/repo/src/mVMC/vmcmain.c:83`) -/
inductive OptKind where
  | unknown
  | plain
  | withArg
  deriving DecidableEq, Repr

/-- Look-up of a character in the option string; `:` after a letter marks an argument, `:` itself is not an option. (`/repo/src/mVMC/vmcmain.c:83`) -/
def optKind : List Char → Char → OptKind
  | [], _ => .unknown
  | x :: os, c =>
    if c = ':' then .unknown
    else if x = c then (match os with
      | ':' :: _ => .withArg
      | _ => .plain)
    else optKind os c

/-- the option string (`/repo/src/mVMC/vmcmain.c:83`) -/
def optString : List Char := ['b', 'h', 'm', ':', 'o', 'F', ':', 'e', 's', 'v']

/-- One word of options without its leading `-`: the events, and the option that still needs an argument. (`/repo/src/mVMC/vmcmain.c:83`) -/
def optCluster (os : List Char) : List Char → List OptEv × Option Char
  | [] => ([], none)
  | c :: cs =>
    match optKind os c with
    | .unknown => (.bad :: (optCluster os cs).1, (optCluster os cs).2)
    | .plain => (.flag c :: (optCluster os cs).1, (optCluster os cs).2)
    | .withArg => if cs = [] then ([], some c) else ([.arg c cs], none)

/-- All calls of `getopt`: the events, and the words from `optind` on when it returns -1. `pend`: an option waiting for its argument.
(`/repo/src/mVMC/vmcmain.c:83`) -/
def getoptAll (os : List Char) : Option Char → List (List Char) → List OptEv × List (List Char)
  | some _, [] => ([.bad], [])
  | some c, w :: ws => (.arg c w :: (getoptAll os none ws).1, (getoptAll os none ws).2)
  | none, [] => ([], [])
  | none, w :: ws =>
    if w = ['-', '-'] then ([], ws)
    else match w with
      | '-' :: c :: cs =>
        let e := optCluster os (c :: cs)
        (e.1 ++ (getoptAll os e.2 ws).1, (getoptAll os e.2 ws).2)
      | _ => ((getoptAll os none ws).1, w :: (getoptAll os none ws).2)

/-! ## Numbers -/

/-- `isspace` in the C locale (`/repo/src/mVMC/vmcmain.c:97`) -/
def cSpace (c : Char) : Bool := c.toNat = 32 || (9 ≤ c.toNat && c.toNat ≤ 13)
/-- decimal digit (`/repo/src/mVMC/vmcmain.c:97`) -/
def cDigit (c : Char) : Bool := 48 ≤ c.toNat && c.toNat ≤ 57
/-- value of a string of digits (`/repo/src/mVMC/vmcmain.c:97`) -/
def cDigits (ds : List Char) : Nat := ds.foldl (fun a c => 10 * a + (c.toNat - 48)) 0

/-- `LONG_MAX` (`/repo/src/mVMC/vmcmain.c:98`) -/
def longMax : Int := 2 ^ 63 - 1
/-- `INT_MAX` (`/repo/src/mVMC/vmcmain.c:110`) -/
def cIntMax : Int := 2 ^ 31 - 1

/-- result of `strtol`: value, number of characters left, `errno == ERANGE` (`/repo/src/mVMC/vmcmain.c:97`) -/
structure StrtolRes where
  num : Int
  left : Nat
  erange : Bool
  deriving DecidableEq

/-- the sign of a number and what follows (`/repo/src/mVMC/vmcmain.c:97`) -/
def cSign : List Char → Bool × List Char
  | '-' :: u => (true, u)
  | '+' :: u => (false, u)
  | u => (false, u)

/-- `strtol(s,&endptr,10)` (`/repo/src/mVMC/vmcmain.c:97`) -/
def strtol10 (s : List Char) : StrtolRes :=
  let u := cSign (s.dropWhile cSpace)
  let ds := u.2.takeWhile cDigit
  if ds = [] then ⟨0, s.length, false⟩
  else
    let v : Int := if u.1 then -(cDigits ds) else cDigits ds
    let left := (u.2.dropWhile cDigit).length
    if v > longMax then ⟨longMax, left, true⟩
    else if v < -longMax - 1 then ⟨-longMax - 1, left, true⟩
    else ⟨v, left, false⟩

/-- The argument of `-m` and `-F` as a number; `none`: the program exits with a failure. Characters after the number only give a warning.
(`/repo/src/mVMC/vmcmain.c:96-113`, `:124-141`) -/
def numArg (s : List Char) : Option Int :=
  let r := strtol10 s
  if (r.erange = true ∧ (r.num = -longMax - 1 ∨ r.num = longMax)) ∨ (r.erange = true ∧ r.num = 0) then none
  else if r.left = s.length then none
  else if r.num > cIntMax ∨ r.num < -cIntMax - 1 then none
  else some r.num

/-! ## The loop over the options -/

/-- the variables set by the options (`/repo/src/mVMC/vmcmain.c:55-60`; `FlagBinary`, `FlagOptTrans`, `NFileFlushInterval`:
`/repo/src/mVMC/include/global.h:180-186`) -/
structure CmdVars where
  flagBinary : Int := 0
  flagOptTrans : Int := 0
  nFlush : Int := 1
  flagMultiDef : Int := 0
  nMultiDef : Int := 1
  flagStandard : Int := 0
  deriving DecidableEq

/-- One turn of the loop: the new variables or the exit status. (`/repo/src/mVMC/vmcmain.c:84-168`) -/
def cmdStep (v : CmdVars) : OptEv → CmdVars ⊕ Int
  | .bad => .inr 1
  | .flag c =>
    if c = 'b' then .inl { v with flagBinary := 1 }
    else if c = 'h' then .inr 0
    else if c = 'o' then .inl { v with flagOptTrans := 1 }
    else if c = 'e' then .inl { v with flagMultiDef := 0 }
    else if c = 's' then .inl { v with flagMultiDef := 0, flagStandard := 1 }
    else if c = 'v' then .inr 0
    else .inr 1
  | .arg c a =>
    if c = 'm' then (match numArg a with
      | none => .inr 1
      | some n => .inl { v with flagMultiDef := 1, nMultiDef := n })
    else if c = 'F' then (match numArg a with
      | none => .inr 1
      | some n => if n < 1 then .inr 1 else .inl { v with nFlush := n })
    else .inr 1

/-- the loop (`/repo/src/mVMC/vmcmain.c:83-169`) -/
def cmdLoop (v : CmdVars) : List OptEv → CmdVars ⊕ Int
  | [] => .inl v
  | e :: es => match cmdStep v e with
    | .inr x => .inr x
    | .inl v' => cmdLoop v' es

/-- What the command line leads to: the process ends with a status, a file name is copied beyond the end of its buffer (undefined behaviour), or the run
starts with these settings. `files`: list of directories (multi-definition mode), name list, parameter file. (`/repo/src/mVMC/vmcmain.c:171-197`) -/
inductive CmdOut where
  | exit (status : Int)
  | overflow
  | run (v : CmdVars) (dirList : Option (List Char)) (defList : List Char) (initPara : Option (List Char))
  deriving DecidableEq

/-- size of `fileDefList` and `fileInitPara` (`/repo/src/mVMC/vmcmain.c:49-50`) -/
def cmdBuf : Nat := 256

/-- the `strcpy` of the file names, with the terminating zero (`/repo/src/mVMC/vmcmain.c:179-190`) -/
def copyNames (v : CmdVars) (dirList : Option (List Char)) (a : List Char) (b : Option (List Char)) : CmdOut :=
  if a.length + 1 > cmdBuf then .overflow
  else match b with
    | none => .run v dirList a none
    | some b => if b.length + 1 > cmdBuf then .overflow else .run v dirList a (some b)

/-- From the start of `main` to the file names. (`/repo/src/mVMC/vmcmain.c:49-191`) -/
def cmdLine (words : List (List Char)) : CmdOut :=
  let g := getoptAll optString none words
  match cmdLoop {} g.1 with
  | .inr x => .exit x
  | .inl v =>
    if (v.flagMultiDef = 0 ∧ g.2.length < 1) ∨ (v.flagMultiDef = 1 ∧ g.2.length < 2) then .exit 1
    else if v.flagMultiDef = 0 then copyNames v none (g.2.getD 0 []) g.2[1]?
    else copyNames v g.2[0]? (g.2.getD 1 []) g.2[2]?

/-! ## Directories of multi-definition mode -/

/-- outcome of the reading of the list of directories: `MPI_Abort`, an entry longer than its place (it runs over the next entry or the end of the array), or the entries
(`/repo/src/mVMC/vmcmain.c:766-786`) -/
inductive DirOut where
  | abort
  | overflow
  | dirs (l : List (List Char))
  deriving DecidableEq

/-- `words`: the words of the list file, `none` if it cannot be opened. (`/repo/src/mVMC/vmcmain.c:766-786`) -/
def readDirs : Nat → Option (List (List Char)) → DirOut
  | _, none => .abort
  | 0, some _ => .dirs []
  | _ + 1, some [] => .abort
  | n + 1, some (w :: ws) =>
    if w.length + 1 > cmdBuf then .overflow
    else match readDirs n (some ws) with
      | .dirs l => .dirs (w :: l)
      | x => x

/-- `rank1`: the rank in `comm_child1`, the communicator of the group; `MPI_Comm_split` keeps the order of the ranks. (`/repo/src/mVMC/vmcmain.c:760-761`) -/
def childRank (size n r : Nat) : Nat :=
  ((List.range r).filter fun r' : Nat => decide (multiDefGroup size r' n = multiDefGroup size r n)).length

/-- the rank in `comm_child2` of a process with `rank1 == 0`, the number of its entry of the scattered list (`/repo/src/mVMC/vmcmain.c:762-763`, `:788-790`) -/
def leaderRank (size n r : Nat) : Nat := ((List.range r).filter fun r' => childRank size n r' = 0).length

/-- The directory a process changes to; `none`: it stays where it was started. (`/repo/src/mVMC/vmcmain.c:788-800`) -/
def workDir (size n : Nat) (dirs : List (List Char)) (r : Nat) : Option (List Char) :=
  if childRank size n r = 0 then dirs[leaderRank size n r]? else none

end MVMC
