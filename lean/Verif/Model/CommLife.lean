import Mathlib.Data.List.Basic
import Mathlib.Data.Int.Notation
import Mathlib.Data.Nat.Notation

/-!
# Life of the communicators and of the process grid

One process; MPI and BLACS calls that create, use or free a communicator or grid become events in program order. Not modelled: the bookkeeping of
`Csys2blacs_handle` inside BLACS, `MPI_Finalize` (which frees what is left), builds without `_mpi_use` or ScaLAPACK, and runs that end with `exit` or `MPI_Abort` before the split.
-/

namespace MVMC

/-- The handles: `comm0`, `comm1`, `comm2` of `main` (`/repo/src/mVMC/vmcmain.c:194,240,244`), `comm_child2` of `initMultiDefMode`
(`/repo/src/mVMC/vmcmain.c:737,763`), `comm_col` and `ictxt` of `stcOptMain` (`/repo/src/mVMC/stcopt_pdposv.c:48,90-91`). -/
inductive CommH | comm0 | comm1 | comm2 | child | col | grid
  deriving DecidableEq

/-- Calls on a handle: created by `MPI_Comm_dup`, `MPI_Comm_split` or `Cblacs_gridinit`, passed to a collective operation or to `M_PDPOSV`, freed by `MPI_Comm_free` or
`Cblacs_gridexit` (`/repo/src/mVMC/vmcmain.c:194,240,790,801`, `/repo/src/mVMC/stcopt_pdposv.c:91,192,221,235-236`). -/
inductive CommEv | mk (h : CommH) | use (h : CommH) | rel (h : CommH)
  deriving DecidableEq

/-- `stcOptMain` with ScaLAPACK (`/repo/src/mVMC/stcopt_pdposv.c:35-237`): `pd` is the status of PDPOSV (line 192), `col0` tells whether this process has `mypcol==0`
(line 209). The return at line 197 leaves the grid. -/
def pdposvEvs (col0 : Bool) (pd : ℤ) : List CommEv :=
  [.use .comm0, .mk .grid, .use .grid] ++
  if pd ≠ 0 then [] else
    [.use .comm0, .mk .col] ++ (if col0 then [.use .col] else []) ++ [.rel .col, .rel .grid]

/-- What one step of `VMCParaOpt` does with the handles up to the update of the parameters (`/repo/src/mVMC/vmcmain.c:379-435,484-489`): sampling and measurement on `comm1`,
averages on `comm0`, counters on `comm2`, then the solver; CG works on `comm0` alone (`/repo/src/mVMC/stcopt_cg_impl.c:73-219`). `StochasticOpt` broadcasts its
status on `comm0` (`/repo/src/mVMC/stcopt.c:142,171`). -/
def optStepEvs (cg col0 : Bool) (pd : ℤ) : List CommEv :=
  [.use .comm1, .use .comm0, .use .comm2] ++ (if cg then [] else pdposvEvs col0 pd) ++ [.use .comm0]

/-- `VMCParaOpt` (`/repo/src/mVMC/vmcmain.c:339-510`): `steps` has for each step the status of PDPOSV and the status returned by the solver function; a status other than 0 ends the
function (line 502-505), otherwise the parameters are synchronised on `comm0` (line 508). -/
def paraOptEvs (cg col0 : Bool) : List (ℤ × ℤ) → List CommEv
  | [] => []
  | (pd, info) :: rest =>
    optStepEvs cg col0 pd ++ if info ≠ 0 then [] else .use .comm0 :: paraOptEvs cg col0 rest

/-- `VMCPhysCal` with `n` data sets (`/repo/src/mVMC/vmcmain.c:531-634`). -/
def physCalEvs : ℕ → List CommEv
  | 0 => []
  | n + 1 => [.use .comm1, .use .comm0, .use .comm2] ++ physCalEvs n

/-- `initMultiDefMode` on one process (`/repo/src/mVMC/vmcmain.c:760-803`): `first` tells whether `rank1==0`. -/
def multiDefEvs (first : Bool) : List CommEv :=
  [.mk .comm0, .use .comm0, .mk .child] ++ (if first then [.use .child] else []) ++ [.rel .child]

/-- Start of `main` up to the split of `comm0` (`/repo/src/mVMC/vmcmain.c:193-246`); `multi`: MultiDef mode. -/
def startEvs (multi first : Bool) : List CommEv :=
  (if multi then multiDefEvs first else [.mk .comm0]) ++ [.use .comm0, .mk .comm1, .mk .comm2]

/-- `main` for both calculation modes (`/repo/src/mVMC/vmcmain.c:193-324`): `opt` is the list of steps of an optimisation or the number of data sets. -/
def mainEvs (multi first cg col0 : Bool) (opt : List (ℤ × ℤ) ⊕ ℕ) : List CommEv :=
  startEvs multi first ++ match opt with
    | .inl steps => paraOptEvs cg col0 steps
    | .inr n => physCalEvs n

end MVMC
