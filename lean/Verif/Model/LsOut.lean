import Verif.Model.GreenIdx
import Verif.Model.Lanczos

/-! # The file of one-body Green functions of the Lanczos step -/
namespace MVMC

/-- One line of `zvo_ls_cisajs`: the number of the operator in row `i` is looked up, then the indices and the value with that number are printed; `none`: access outside a
table or to an entry that was never written. (`/repo/src/mVMC/physcal_lanczos.c:108-111,229-232`) -/
def lsRow (Ns n : ℕ) (toIdx : ℤ × ℤ → ℤ) (t : GTab) (val : ℕ → α) (i : ℕ) : Option (GOp × α) :=
  match t i with
  | none => none
  | some o =>
    match gcell Ns o with
    | none => none
    | some p =>
      if toIdx p < 0 ∨ toIdx p ≥ n then none
      else match t (toIdx p).toNat with
        | none => none
        | some q => some (q, val (toIdx p).toNat)

/-- The loop over the lines. (`/repo/src/mVMC/physcal_lanczos.c:108-111,229-232`, `/repo/src/mVMC/vmcmain.c:691-701`) -/
def lsRows (Ns n : ℕ) (toIdx : ℤ × ℤ → ℤ) (t : GTab) (val : ℕ → α) : Option (List (GOp × α)) :=
  (List.range n).mapM (lsRow Ns n toIdx t val)

/-- `zvo_ls_cisajs`: the loop with the values of `CalculatePhysVal_fcmp`. (`/repo/src/mVMC/physcal_lanczos.c:225-233`) -/
noncomputable def lsCisAjs (Ns n : ℕ) (toIdx : ℤ × ℤ → ℤ) (t : GTab) (H1 H2_1 alpha : ℂ) (Q : ℕ → ℂ) (nLSHam : ℕ) : Option (List (GOp × Option ℂ)) :=
  lsRows Ns n toIdx t (calculatePhysVal H1 H2_1 alpha Q n nLSHam)

/-- The blocks that `PhysCalLanczos_fcmp` takes and those that it gives back, by the array. (`/repo/src/mVMC/physcal_lanczos.c:180-192,261-263`) -/
def lsBlocks (eneOk : Bool) : List String × List String :=
  (["LS_CisAjs", "LS_CisAjsCktAlt", "LS_CisAjsCktAltDC"],
   if eneOk then ["LS_CisAjs", "LS_CisAjsCktAlt", "LS_CisAjsCktAltDC"] else ["LS_CisAjs", "LS_CisAjsCktAlt"])

end MVMC
