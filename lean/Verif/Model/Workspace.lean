import Verif.Spec.Alloc
/-!
# Model of the scratch-buffer allocator

`/repo/src/mVMC/workspace.c`. The six families (Int, Double, Complex and their per-thread variants) run the
same code; in the per-thread variants each thread owns one copy of this state.
-/
namespace MVMC
open Spec

/-- State of one family: capacity `NumWorkSpaceInt`, cursor `WorkSpaceIntNow - WorkSpaceInt`
and the identity `base` of the current `malloc` block (a `free`+`malloc` gives a new identity).
(`/repo/src/mVMC/workspace.c:31-62`) -/
structure WS where
  num : Nat
  cur : Nat
  base : Nat
  deriving DecidableEq, Repr

/-- A pointer handed out by `Get`, with the number of elements asked for.
(`/repo/src/mVMC/workspace.c:93-96`) -/
structure Block where
  base : Nat
  off : Nat
  len : Nat
  deriving DecidableEq, Repr

/-- Source: `/repo/src/mVMC/workspace.c:83-102`. -/
inductive WSOp where
  | request (n : Nat)
  | get (n : Nat)
  | release
  deriving DecidableEq, Repr

/-- `initializeWorkSpaceAll` (`/repo/src/mVMC/workspace.c:31-47`). -/
def WS.init : WS := ⟨0, 0, 0⟩

/-- `RequestWorkSpaceInt` (`/repo/src/mVMC/workspace.c:83-92`): reallocates and resets the cursor only when
the capacity has to grow. -/
def WS.request (s : WS) (n : Nat) : WS :=
  if n > s.num then ⟨n, 0, s.base + 1⟩ else s

/-- `GetWorkSpaceInt` (`/repo/src/mVMC/workspace.c:93-97`): no bounds check. -/
def WS.get (s : WS) (n : Nat) : WS × Block :=
  ({ s with cur := s.cur + n }, ⟨s.base, s.cur, n⟩)

/-- `ReleaseWorkSpaceInt` (`/repo/src/mVMC/workspace.c:98-101`). -/
def WS.release (s : WS) : WS := { s with cur := 0 }

/-- A whole call history started in state `s`: the final state and the client-visible history (newest
event first), where every `Get` records the block it returned.
(`/repo/src/mVMC/workspace.c:83-102`) -/
def WS.trace (s : WS) (past : List Event) : List WSOp → WS × List Event
  | [] => (s, past)
  | .request n :: ops => WS.trace (s.request n) (.reserve n :: past) ops
  | .get n :: ops => WS.trace (s.get n).1 (.take n (s.get n).2.base (s.get n).2.off :: past) ops
  | .release :: ops => WS.trace s.release (.giveBack :: past) ops

end MVMC
