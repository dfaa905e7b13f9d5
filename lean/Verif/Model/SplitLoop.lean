/-!
# Model of the loop splitter

`/repo/src/mVMC/splitloop.c`.
-/
namespace MVMC

/-- `SplitLoop` (`/repo/src/mVMC/splitloop.c:31-69`): the half-open range
`(*start, *end)` given to worker `mpiRank` of `mpiSize`.
All quantities are non-negative `int`s in the callers, so `Nat` is used; the two subtractions
`mpiSize-imod` and `mpiRank-(mpiSize-imod)` are non-negative on the paths that execute them. -/
def splitLoop (loopLength mpiRank mpiSize : Nat) : Nat × Nat :=
  if mpiSize < loopLength then
    let imod := loopLength % mpiSize
    if imod = 0 then
      let idiv := loopLength / mpiSize
      let ist := idiv * mpiRank
      (ist, ist + idiv)
    else
      let idiv := (loopLength - imod) / mpiSize
      if mpiRank < mpiSize - imod then
        let ist := idiv * mpiRank
        (ist, ist + idiv)
      else
        let ist := idiv * mpiRank + mpiRank - (mpiSize - imod)
        (ist, ist + idiv + 1)
  else
    if mpiRank < loopLength then
      (mpiRank, mpiRank + 1)
    else
      (loopLength, loopLength)

/-- A loop `for(i=ist;i<ien;++i) acc += f(i)` over the own share of a worker, as in
`CalculateLogIP_fcmp` (`/repo/src/mVMC/qp.c`), followed by the reduction
`MPI_Allreduce(..., MPI_SUM, comm)`, modelled as the sum of the shares in rank order. -/
def ownShare {α : Type} [Add α] [Zero α] (f : Nat → α) (r : Nat × Nat) : α :=
  (List.range' r.1 (r.2 - r.1)).foldl (fun acc i => acc + f i) 0

/-- Partial results of all ranks added up by the reduction. (`/repo/src/mVMC/qp.c:110-127`) -/
def reduceShares {α : Type} [Add α] [Zero α] (f : Nat → α) (len size : Nat) : α :=
  (List.range size).foldl (fun acc r => acc + ownShare f (splitLoop len r size)) 0

/-- `CalculateIP_fcmp` (`/repo/src/mVMC/qp.c:107-126`), the contribution of one rank:
`for(qpidx=0;qpidx<qpNum;qpidx++) ip += QPFullWeight[qpidx+qpStart] * pfM[qpidx]` where `pfM` is the
rank-local array (index 0 is projection index `qpStart`). -/
def localIP {α : Type} [Add α] [Mul α] [Zero α] (weight pfLocal : Nat → α) (qp : Nat × Nat) : α :=
  (List.range (qp.2 - qp.1)).foldl (fun ip q => ip + weight (q + qp.1) * pfLocal q) 0

/-- `CalculateIP_fcmp` on a communicator of `size` ranks (`/repo/src/mVMC/qp.c:107-126`): one rank returns its own
sum, several ranks return the `MPI_Allreduce(MPI_SUM)` of the local sums. `pfM r` is the local array of
rank `r`. -/
def calculateIP {α : Type} [Add α] [Mul α] [Zero α] (weight : Nat → α) (pfM : Nat → Nat → α)
    (nqp size : Nat) : α :=
  if size > 1 then
    (List.range size).foldl
      (fun acc r => acc + localIP weight (pfM r) (splitLoop nqp r size)) 0
  else localIP weight (pfM 0) (splitLoop nqp 0 size)

end MVMC
