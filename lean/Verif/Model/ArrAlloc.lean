import Mathlib.Data.List.Basic
import Mathlib.Logic.Function.Basic

/-!
# Model: arrays with two and three indices (`src/common/setmemory.c`)

The memory is a set of blocks of cells. A pointer is a block and an offset. Storing or loading outside a block, loading a cell
that was never set, and freeing anything but the start of a block are undefined behaviour (`none`). One cell is one element: sizes are counted in elements and
products do not wrap; `malloc` does not fail. `cd_2d_allocate` takes `sizeof(complex double)` per pointer, twice what is needed; the model has one cell
per pointer.
-/

namespace MVMC

/-- The contents of a cell (`/repo/src/common/setmemory.c:49-60`). -/
inductive HVal where
  | undef
  | ptr (b o : ℕ)
  | zero
  deriving DecidableEq, Repr

/-- Blocks with their sizes (`none`: not allocated) and contents; `next` is the next new block. (`/repo/src/common/setmemory.c:29-33`) -/
structure Heap where
  size : ℕ → Option ℕ
  cell : ℕ → ℕ → HVal
  next : ℕ

/-- `malloc` of `n` elements (`/repo/src/common/setmemory.c:31`). -/
def hMalloc (n : ℕ) (h : Heap) : Heap :=
  { size := Function.update h.size h.next (some n), cell := Function.update h.cell h.next (fun _ => .undef), next := h.next + 1 }

/-- Store a value (`/repo/src/common/setmemory.c:53`). -/
def hStore (b o : ℕ) (v : HVal) (h : Heap) : Option Heap :=
  match h.size b with
  | none => none
  | some n => if o < n then some { h with cell := Function.update h.cell b (Function.update (h.cell b) o v) } else none

/-- Load a pointer (`/repo/src/common/setmemory.c:55`). -/
def hLoadPtr (b o : ℕ) (h : Heap) : Option (ℕ × ℕ) :=
  match h.size b with
  | none => none
  | some n =>
    if o < n then
      match h.cell b o with
      | .ptr b' o' => some (b', o')
      | _ => none
    else none

/-- `memset` of `n` elements to zero (`/repo/src/common/setmemory.c:57`). -/
def hZero (p : ℕ × ℕ) (n : ℕ) (h : Heap) : Option Heap :=
  match h.size p.1 with
  | none => none
  | some k =>
    if p.2 + n ≤ k then
      some { h with cell := Function.update h.cell p.1 (fun o => if p.2 ≤ o ∧ o < p.2 + n then .zero else h.cell p.1 o) }
    else none

/-- `free` (`/repo/src/common/setmemory.c:39`). -/
def hFree (p : ℕ × ℕ) (h : Heap) : Option Heap :=
  if p.2 = 0 ∧ (h.size p.1).isSome then some { h with size := Function.update h.size p.1 none } else none

/-- The loop of `i_2d_allocate`, `d_2d_allocate`, `cd_2d_allocate`: `A[int_i] = A[0] + int_i*M` (`/repo/src/common/setmemory.c:54-56,98-100,144-146`). -/
def rowPtrs (a M : ℕ) : ℕ → Heap → Option Heap
  | 0, h => some h
  | n + 1, h => do
    let h ← rowPtrs a M n h
    let p ← hLoadPtr a 0 h
    hStore a n (.ptr p.1 (p.2 + n * M)) h

/-- `i_2d_allocate`, `d_2d_allocate`, `cd_2d_allocate` (`/repo/src/common/setmemory.c:49-59,93-103,139-149`): the block of row pointers and the memory. -/
def alloc2 (N M : ℕ) (h : Heap) : Option (ℕ × Heap) := do
  let a := h.next
  let h := hMalloc N h
  let d := h.next
  let h := hMalloc (M * N) h
  let h ← hStore a 0 (.ptr d 0) h
  let h ← rowPtrs a M N h
  let p ← hLoadPtr a 0 h
  let h ← hZero p (M * N) h
  some (a, h)

/-- `free_i_2d_allocate`, `free_d_2d_allocate`, `free_cd_2d_allocate` (`/repo/src/common/setmemory.c:63-66,108-111,154-157`). -/
def free2 (a : ℕ) (h : Heap) : Option Heap := do
  let p ← hLoadPtr a 0 h
  let h ← hFree p h
  hFree (a, 0) h

/-- The element `A[i][j]` (for instance `/repo/src/ComplexUHF/diag.c:44`). -/
def elem2 (a i j : ℕ) (h : Heap) : Option (ℕ × ℕ) := do
  let p ← hLoadPtr a i h
  some (p.1, p.2 + j)

/-- The numbers of entries that `ComplexUHF` finds in its input; 0 for a keyword that is not used, also where `SetInitialValue` does not set it, since `X` is a global
variable (`/repo/src/ComplexUHF/readdef.c:981-999`, `/repo/src/ComplexUHF/UHFmain.c:46`). -/
structure UhfCounts where
  nSite : ℕ
  nTransfer : ℕ
  nCoulombIntra : ℕ
  nCoulombInter : ℕ
  nHund : ℕ
  nPairHop : ℕ
  nExchange : ℕ
  nInterAll : ℕ
  nInitial : ℕ
  nCisAjs : ℕ
  nCisAjsCktAltDC : ℕ

/-- The integer tables with two indices of `ComplexUHF`, rows and columns in the order of their allocation; the arrays with one index between them do not
matter here (`/repo/src/ComplexUHF/xsetmem_def.c:28-51`). -/
def uhfTables (c : UhfCounts) : List (ℕ × ℕ) :=
  [(c.nSite * c.nSite, 2), (c.nTransfer, 4), (c.nCoulombIntra, 1), (c.nCoulombInter, 2), (c.nHund, 2), (c.nPairHop, 2), (c.nExchange, 2),
   (c.nInterAll, 8), (c.nInitial, 4), (c.nSite * 2, c.nSite * 2), (c.nSite * 2, c.nSite * 2), (c.nCisAjs, 4), (c.nCisAjsCktAltDC, 8)]

/-- Allocation of tables in turn (`/repo/src/ComplexUHF/xsetmem_def.c:28-51`). -/
def allocTables : List (ℕ × ℕ) → Heap → Option Heap
  | [], h => some h
  | t :: r, h => do
    let x ← alloc2 t.1 t.2 h
    allocTables r x.2

end MVMC
