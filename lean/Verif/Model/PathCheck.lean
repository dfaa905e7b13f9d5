/-! # The check of the update path against the local spins in the input reader -/
namespace MVMC

/-- `ReadDefFileNInt`, `//Check LocSpn` (`/repo/src/mVMC/readdef.c:621-637`): the run goes on. `nLoc` is `bufInt[IdxNLocSpin]` (first line of the
local-spin file), `path` is `bufInt[IdxExUpdatePath]`. -/
def locSpnCheck (nLoc ne path : Int) : Bool :=
  if nLoc > 0 then
    if nLoc = 2 * ne ∧ path ≠ 2 then false
    else if path = 0 then false
    else if nLoc > 2 * ne then false
    else true
  else true

end MVMC
