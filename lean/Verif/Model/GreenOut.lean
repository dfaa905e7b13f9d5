import Verif.Model.GreenIdx
import Verif.Model.CalHam

/-!
# The files of Green functions

The part of `outputData` (vmcmain.c) that writes the Green functions in mode 1, and the tables of indices in the form in which the loops
of calgrn.c use them. As in `Model/VarFile.lean` a printed number is the number itself.
-/
namespace MVMC

/-- the entries `CisAjsIdx[i][0..3]`, `CisAjsCktAltIdx[i][0..1]` of the tables as the indices they are used as; an entry that the reader does not
write is 0 here. /repo/src/mVMC/calgrn.c:79-83,129-130. -/
def tabOf (n1 n2 : Nat) (t : GTab) (c : ℕ → Option (ℤ × ℤ)) (nDC : Nat) (tDC : Nat → Nat → Nat) : GrnTab where
  n1 := n1
  t1 i k := let o := (t i).getD (0, 0, 0, 0); if k = 0 then o.1.toNat else if k = 1 then o.2.1.toNat else if k = 2 then o.2.2.1.toNat else o.2.2.2.toNat
  nDC := nDC
  tDC := tDC
  n2 := n2
  t2 i k := let p := (c i).getD (0, 0); if k = 0 then p.1.toNat else p.2.toNat

/-- The lines of `zvo_cisajs`: four indices and the two parts of the number. /repo/src/mVMC/vmcmain.c:664-670. -/
noncomputable def outCisAjs (T : GrnTab) (phys : Nat → ℂ) : List (List Nat × ℝ × ℝ) :=
  if T.n1 > 0 then (List.range T.n1).map fun i => ([T.t1 i 0, T.t1 i 1, T.t1 i 2, T.t1 i 3], (phys i).re, (phys i).im) else []

/-- The one line of `zvo_cisajscktaltex`: the numbers without indices. /repo/src/mVMC/vmcmain.c:671-676. -/
noncomputable def outCisAjsCktAlt (T : GrnTab) (phys : Nat → ℂ) : List ℝ :=
  if T.n2 > 0 then (List.range T.n2).flatMap fun i => [(phys i).re, (phys i).im] else []

/-- The lines of `zvo_cisajscktalt`: eight indices and the two parts of the number. /repo/src/mVMC/vmcmain.c:679-688. -/
noncomputable def outCisAjsCktAltDC (T : GrnTab) (phys : Nat → ℂ) : List (List Nat × ℝ × ℝ) :=
  if T.nDC > 0 then (List.range T.nDC).map fun i =>
    ([T.tDC i 0, T.tDC i 1, T.tDC i 2, T.tDC i 3, T.tDC i 4, T.tDC i 5, T.tDC i 6, T.tDC i 7], (phys i).re, (phys i).im) else []

end MVMC
