import Verif.Model.MainCal

/-!
# The measurement of a general-Sz run

`VMCMainCal_fsz` (vmccal_fsz.c) with `NVMCCalMode = 1`: the sums of `Model/MainCal.lean` and the Green functions. `CalculateGreenFunc_fsz` shares its loop variables
between threads, so the order of the events of its threads is part of what the environment decides.
-/
namespace MVMC

/-- What the environment decides for the Green functions of a sample: an execution of the two loops and the uninitialised shared variables
(`/repo/src/mVMC/calgrn_fsz.c:36-40,65-115`). -/
structure GrnOrF where
  evs : List GrnEv
  t₀ : Nat
  u₀ : Nat
  v₀ : Nat

/-- One iteration of the sample loop of `VMCMainCal_fsz` with `NVMCCalMode==1` (`/repo/src/mVMC/vmccal_fsz.c:67-225`): the sums of `mainStepF`, then
`CalculateGreenFunc_fsz` unless the sample was skipped. -/
noncomputable def mainStepGF (g : GrnEnv) (H : HamPar) (T : GrnTab) (lib : SkLib ℂ) (S : EleStore) (o : Nat → MainOr FCfg) (e : Nat → GrnOrF)
    (a : PhysAcc) (sample : Nat) : PhysAcc :=
  let c := loadCfgF g S sample
  let a' := mainStepF g H lib S o a sample
  match calculateMAll g.p lib g.slt 0 g.nQP (rsFsz g.p c.idx c.spn) a.st with
  | none => a'
  | some st =>
    let ip := calculateIPLocal g.w st.pfM 0 g.nQP
    if ip = 0 then
      match (o sample).eZero with
      | none => a'
      | some _ => { a' with grn := (o sample).gZero a'.grn }
    else
      { a' with grn := calculateGreenFuncF { g with st := st } T (o sample).gSched (e sample).evs (o sample).gOrder' (o sample).gJunk
                  (e sample).t₀ (e sample).u₀ (e sample).v₀ 1 ip (loadProj g S sample) c a'.grn }

/-- `VMCMainCal_fsz` with `NVMCCalMode==1` on rank `rank` of a group of `size` processes (`/repo/src/mVMC/vmccal_fsz.c:58-225`). -/
noncomputable def vmcMainCalGF (g : GrnEnv) (H : HamPar) (T : GrnTab) (lib : SkLib ℂ) (nSample rank size : Nat) (S : EleStore)
    (o : Nat → MainOr FCfg) (e : Nat → GrnOrF) (a : PhysAcc) : PhysAcc :=
  let r := splitLoop nSample rank size
  (List.range' r.1 (r.2 - r.1)).foldl (mainStepGF g H T lib S o e) (PhysAcc.clear a.st a.grn.loc1 a.grn.locDC)

end MVMC
