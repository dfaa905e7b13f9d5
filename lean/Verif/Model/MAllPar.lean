import Verif.Model.PfUpdate

/-! # The parallel loop over the projections in `CalculateMAll`

The iterations are distributed over threads. An iteration reads the shared variable `info`, calls the child function, which writes only to the block of its projection, and
writes `info` when the child failed. The child is one event: two children write to disjoint memory. -/
namespace MVMC

/-- The events of iteration `q`. (`/repo/src/mVMC/matrix.c:108,110,112-114`) -/
inductive MAllEv
  | check (q : ℕ)
  | run (q : ℕ)
  | post (q : ℕ)
  deriving DecidableEq

/-- The number of the iteration. (`/repo/src/mVMC/matrix.c:107`) -/
def MAllEv.idx : MAllEv → ℕ
  | .check q => q
  | .run q => q
  | .post q => q

/-- Shared memory, and the private state of each iteration: whether the child is called and whether it failed.
(`/repo/src/mVMC/matrix.c:82,87,106-116`) -/
structure MAllState (K : Type) where
  info : ℤ
  active : ℕ → Bool
  failed : ℕ → Bool
  st : PfState K

variable {K : Type} [Field K]

/-- One event. `junk q` is what a failing child leaves in memory, `code q` the nonzero value it returns.
(`/repo/src/mVMC/matrix.c:106-116,313-323`) -/
def mAllStep (p : PfPar) (lib : SkLib K) (slt : Nat → K) (qpStart : ℕ) (rs : ℕ → ℕ) (code : ℕ → ℤ) (junk : ℕ → PfState K → PfState K) (S : MAllState K) : MAllEv → MAllState K
  | .check q => { S with active := fun j => if j = q then decide (S.info = 0) else S.active j }
  | .run q =>
    if S.active q then
      match calculateMAllChild p lib slt qpStart q rs S.st with
      | some st => { S with st := st }
      | none => { S with st := junk q S.st, failed := fun j => if j = q then true else S.failed j }
    else S
  | .post q => if S.failed q then { S with info := code q } else S

/-- The whole loop in one order of the events. (`/repo/src/mVMC/matrix.c:82,96-117`) -/
def mAllPar (p : PfPar) (lib : SkLib K) (slt : Nat → K) (qpStart : ℕ) (rs : ℕ → ℕ) (code : ℕ → ℤ) (junk : ℕ → PfState K → PfState K) (st : PfState K) (evs : List MAllEv) : MAllState K :=
  evs.foldl (mAllStep p lib slt qpStart rs code junk) ⟨0, fun _ => false, fun _ => false, st⟩

/-- A thread takes its scratch memory and uses it. (`/repo/src/mVMC/matrix.c:104,110-111`) -/
inductive WkEv
  | get (th : ℕ)
  | use (th : ℕ)
  deriving DecidableEq

/-- The pointer is private: which thread's memory each use gets. (`/repo/src/mVMC/matrix.c:303-318,406-420`) -/
def wkPrivate : List WkEv → (ℕ → Option ℕ) → List (ℕ × Option ℕ)
  | [], _ => []
  | .get th :: es, v => wkPrivate es (fun j => if j = th then some th else v j)
  | .use th :: es, v => (th, v th) :: wkPrivate es v

/-- The pointer `myRWork` of `CalculateMAll_fsz` is shared. (`/repo/src/mVMC/matrix.c:96-111`) -/
def wkShared : List WkEv → Option ℕ → List (ℕ × Option ℕ)
  | [], _ => []
  | .get th :: es, _ => wkShared es (some th)
  | .use th :: es, v => (th, v) :: wkShared es v

end MVMC
