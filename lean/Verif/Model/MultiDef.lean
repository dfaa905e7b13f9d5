/-!
# Model of the rank-to-group assignment in multi-definition mode

`/repo/src/mVMC/vmcmain.c:727-764` and `:239`.
-/
namespace MVMC

/-- Outcome of the group computation: the process either stops with an error message, executes an
integer division by zero (undefined behaviour), or obtains a group colour.
(`/repo/src/mVMC/vmcmain.c:727-763`) -/
inductive GroupOutcome where
  | exitFailure
  | divByZero
  | group (g : Int)
  deriving DecidableEq, Repr

/-- `initMultiDefMode` (`/repo/src/mVMC/vmcmain.c:742-762`), the part that computes `group1`.
C integer division truncates: `Int.tdiv`, `Int.tmod`. The option value `nMultiDef` is any `int`
(`/repo/src/mVMC/vmcmain.c:95-115` performs no sign check). -/
def multiDefGroup (size rank nMultiDef : Int) : GroupOutcome :=
  if size < nMultiDef then .exitFailure
  else if nMultiDef = 0 then .divByZero        -- `size%nMultiDef`
  else
    let div := size.tdiv nMultiDef
    let mod := size.tmod nMultiDef
    let threshold := (div + 1) * mod
    if rank < threshold then
      if div + 1 = 0 then .divByZero else .group (rank.tdiv (div + 1))
    else
      if div = 0 then .divByZero else .group (mod + (rank - threshold).tdiv div)

/-- `main` (`/repo/src/mVMC/vmcmain.c:239`): `group1 = rank0/NSplitSize`.  `NSplitSize` is the number
read from the parameter file (`/repo/src/mVMC/readdef.c:1930,691`) without a check. -/
def splitGroup (rank0 nSplitSize : Int) : GroupOutcome :=
  if nSplitSize = 0 then .divByZero else .group (rank0.tdiv nSplitSize)

/-- `main` (`/repo/src/mVMC/vmcmain.c:257`): the seed of the generator of a process. -/
def groupSeed (rndSeed rank0 nSplitSize : Int) : Int := rndSeed + rank0.tdiv nSplitSize

end MVMC
