/-!
# Model of the chunked MPI wrappers

`/repo/src/mVMC/safempi.c`, `/repo/src/mVMC/safempi_fcmp.c`.
-/
namespace MVMC

/-- `INT_MAX` of a 32-bit `int`. (`/repo/src/mVMC/safempi.c:36-94`) -/
def intMax : Nat := 2147483647

/-- `D_MpiSendMax` (`/repo/src/mVMC/safempi.c:29`). -/
def mpiSendMax : Nat := 1048576

/-- Outcome of the chunk loop: list of `(offset, count)` transfers in call order, or signed
overflow (undefined behaviour) in `idx+nSend`. (`/repo/src/mVMC/safempi.c:36-94`) -/
inductive ChunkOutcome where
  | ok (chunks : List (Nat × Nat))
  | overflow
  deriving DecidableEq, Repr

/-- Body of all `SafeMpi*` wrappers (`/repo/src/mVMC/safempi.c:41-45,57-61,73-77,89-93`):
```
int nSend = D_MpiSendMax; int idx = 0;
while(idx<nData) { if(idx+nSend > nData) nSend = nData-idx; op(buf+idx, nSend); idx += nSend; }
```
`imax` is the largest `int`. The first argument bounds the number of iterations; `none` is
returned if it does not suffice (shown impossible for `fuel ≥ nData`). -/
def chunkLoop (imax : Nat) : (fuel idx nSend nData : Nat) → List (Nat × Nat) → Option ChunkOutcome
  | 0, idx, _, nData, acc => if idx < nData then none else some (.ok acc.reverse)
  | fuel+1, idx, nSend, nData, acc =>
    if idx < nData then
      if idx + nSend > imax then some .overflow
      else
        let nSend' := if idx + nSend > nData then nData - idx else nSend
        chunkLoop imax fuel (idx + nSend') nSend' nData ((idx, nSend') :: acc)
    else some (.ok acc.reverse)

/-- A `SafeMpi*` call on `nData` elements with chunk limit `nMax`.
(`/repo/src/mVMC/safempi.c:36-94`) -/
def safeMpi (imax nMax nData : Nat) : Option ChunkOutcome := chunkLoop imax nData 0 nMax nData []

/-- Effect of a sequence of element-wise transfers: `op i` (the reduced or broadcast value of
element `i`) replaces element `i` for every `i` inside a chunk.
(`/repo/src/mVMC/safempi.c:36-94`) -/
def applyChunks {α : Type} (op : Nat → α) (buf : Nat → α) (chunks : List (Nat × Nat)) : Nat → α :=
  chunks.foldl (fun b c i => if c.1 ≤ i ∧ i < c.1 + c.2 then op i else b i) buf

end MVMC
