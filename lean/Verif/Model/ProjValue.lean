import Mathlib.Analysis.SpecialFunctions.Exp
import Mathlib.Data.Complex.Basic
import Verif.Model.Projection
import Verif.Model.SamplerFsz

/-!
# Value of the correlation factor, and its counters inside the samplers

`/repo/src/mVMC/projection.c:32-57`, `/repo/src/mVMC/vmcmake.c`, `/repo/src/mVMC/vmcmake_fsz.c`.
Real arithmetic instead of `double`.
-/
namespace MVMC

/-- `LogProjVal` (`/repo/src/mVMC/projection.c:32-39`). -/
noncomputable def logProjVal (nProj : Nat) (Proj : Nat → ℂ) (cnt : Arr) : ℝ :=
  (List.range nProj).foldl (fun z idx => z + (Proj idx).re * ((cnt idx : Int) : ℝ)) 0

/-- `LogProjRatio` (`/repo/src/mVMC/projection.c:41-48`). -/
noncomputable def logProjRatio (nProj : Nat) (Proj : Nat → ℂ) (cntNew cntOld : Arr) : ℝ :=
  (List.range nProj).foldl (fun z idx => z + (Proj idx).re * ((cntNew idx - cntOld idx : Int) : ℝ)) 0

/-- `ProjRatio` (`/repo/src/mVMC/projection.c:50-57`). -/
noncomputable def projRatio (nProj : Nat) (Proj : Nat → ℂ) (cntNew cntOld : Arr) : ℝ :=
  Real.exp
    ((List.range nProj).foldl (fun z idx => z + (Proj idx).re * ((cntNew idx - cntOld idx : Int) : ℝ)) 0)

/-- The counters in `VMCMakeSample`: `pc` is `TmpEleProjCnt` inside the sampler's memory, `pn` is `projCntNew`
inside the candidate quantities. Hop: `/repo/src/mVMC/vmcmake.c:165`; exchange: 242 and 248 (the second call
updates `projCntNew` in place); commit: `for(i=0;i<NProj;i++) TmpEleProjCnt[i] = projCntNew[i]` (206, 287);
the refresh (308-329) does not touch them. -/
structure CountsProj {β γ : Type} (q : ProjPar) (k : Hooks β γ) (pc : β → Arr) (pn : γ → Arr) : Prop where
  hop : ∀ c' h b, pn (k.propHop c' h b) = updateProjCnt q h.ri h.rj (pc b) c'.num
  exch : ∀ c1 c2 h h2 b, pn (k.propExch c1 c2 h h2 b) =
    updateProjCnt q h2.ri h2.rj (updateProjCnt q h.ri h.rj (pc b) c1.num) c2.num
  commitHop : ∀ c' h b g i, pc (k.commitHop c' h b g) i = if i < q.NProj then pn g i else pc b i
  commitExch : ∀ c' h h2 b g i, pc (k.commitExch c' h h2 b g) i = if i < q.NProj then pn g i else pc b i
  refresh : ∀ c b, pc (k.refresh c b) = pc b

/-- The counters in `VMCMakeSample_fsz`: `/repo/src/mVMC/vmcmake_fsz.c:188-192` (hop with `s==t` or not),
258-262 (exchange), 328 (spin flip, always `UpdateProjCnt_fsz`; there `s≠t`). -/
structure CountsProjF {β γ : Type} (q : ProjPar) (k : FHooks β γ) (pc : β → Arr) (pn : γ → Arr) : Prop where
  move : ∀ c' h b, pn (k.propMove c' h b) =
    if h.s = h.t then updateProjCnt q h.ri h.rj (pc b) c'.num else updateProjCntFsz q h.ri h.rj (pc b) c'.num
  exch : ∀ c1 c2 h h2 b, pn (k.propExch c1 c2 h h2 b) =
    updateProjCnt q h2.ri h2.rj (updateProjCnt q h.ri h.rj (pc b) c1.num) c2.num
  commitMove : ∀ c' h b g i, pc (k.commitMove c' h b g) i = if i < q.NProj then pn g i else pc b i
  commitExch : ∀ c' h h2 b g i, pc (k.commitExch c' h h2 b g) i = if i < q.NProj then pn g i else pc b i
  refresh : ∀ c b, pc (k.refresh c b) = pc b

end MVMC
