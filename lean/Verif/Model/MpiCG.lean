import Verif.Model.MpiRun
import Verif.Model.SR

/-! The data of `StochasticOptCG` with the stored samples of the processes. -/
namespace MVMC

/-- `fn_operate_by_S` on a process with `nS` stored samples, `(os si i)`: real and imaginary part of component `si` of sample `i` (`stcOs` of
`Verif/Model/SR.lean`); threshold and number of iterations of `fn_StochasticOptCG_Main`. Source: `/repo/src/mVMC/stcopt_cg_impl.c:258-264,356-425`. -/
noncomputable def storePrep (nSmat nS maxIter : Nat) (tol W staDel : ℝ) (stcO sdiag g : Nat → ℝ) : CGPrep (Nat → Nat → ℝ × ℝ) ℝ where
  n := nSmat
  maxIter := if maxIter > 0 then maxIter else nSmat
  g := g
  below := fun d => decide (d < tol * tol * nSmat * nSmat)
  part := fun os x si => (sumLoop nS fun i => (os si i).1 * sumLoop nSmat fun sj => x sj * (os sj i).1) +
    sumLoop nS fun i => (os si i).2 * sumLoop nSmat fun sj => x sj * (os sj i).2
  comb := fun z x si => ((1 / W) * z si - xdot nSmat stcO x * stcO si) + sdiag si * staDel * x si

end MVMC
