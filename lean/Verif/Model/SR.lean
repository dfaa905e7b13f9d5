import Verif.Model.Slater
import Mathlib.Analysis.SpecialFunctions.Pow.Real
import Mathlib.Analysis.Complex.Basic

/-!
# Model of stochastic reconfiguration

`/repo/src/mVMC/vmccal.c:56-310` (sample loop), `/repo/src/mVMC/vmccal.c:656-810` (`calculateOO…`), `/repo/src/mVMC/average.c:41-145`, `/repo/src/mVMC/stcopt.c:33-192`,
`/repo/src/mVMC/stcopt_dposv.c:33-85`, `/repo/src/mVMC/stcopt_pdposv.c:35-313`, `/repo/src/mVMC/stcopt_cg.c:26-34`, `/repo/src/mVMC/stcopt_cg_impl.c:73-505`.

Exact numbers instead of `double`. Loops are lists of stores/additions in program order (see `Verif.Model.Slater`). The
BLAS/LAPACK/ScaLAPACK calls (`xGEMM`, `DGER`, `DGEMV`, `DPOSV`, `PDPOSV`, `NUMROC`) are given by their mathematical definition.
-/
namespace MVMC

/-- What one sample contributes: weight, local energy, derivative vector.
(`/repo/src/mVMC/vmccal.c:136-300`) -/
structure Samp where
  w : ℝ
  e : ℂ
  O : Nat → ℂ

/-- The accumulators of one process: `Wc`, `SROptOO`, `SROptHO`, `SROptO_Store`.
(`/repo/src/mVMC/vmccal.c:571-637`) -/
structure Acc where
  W : ℝ
  OO : Nat → ℂ
  HO : Nat → ℂ
  store : Nat → ℂ

/-- `clearPhysQuantity` (`/repo/src/mVMC/vmccal.c:565-590`): `SROptO_Store` keeps its contents. -/
def Acc.clear (store : Nat → ℂ) : Acc := ⟨0, fun _ => 0, fun _ => 0, store⟩

/-- `calculateOO` (`/repo/src/mVMC/vmccal.c:769-794`), additions to `SROptOO`; `n = 2*SROptSize`. -/
noncomputable def ooAdds (n : Nat) (x : Samp) : List (Nat × ℂ) :=
  ((List.range n).flatMap fun j => [(0 * n + j, (x.w : ℂ) * x.O j), (1 * n + j, 0)]) ++
  (List.range' 2 (n - 2)).flatMap fun i => (List.range n).map fun j => (i * n + j, (x.w : ℂ) * x.O j * star (x.O i))

/-- `calculateOO` (`/repo/src/mVMC/vmccal.c:776-781`), additions to `SROptHO`. -/
noncomputable def hoAdds (n : Nat) (x : Samp) : List (Nat × ℂ) := (List.range n).map fun j => (j, x.e * ((x.w : ℂ) * x.O j))

/-- One sample of `VMCMainCal` with `NVMCCalMode == 0` (`/repo/src/mVMC/vmccal.c:104-240`); `none`: the sample is skipped because of a singular
matrix or a non-finite energy (`continue`). `storeMode`: `NSRCG != 0 || NStoreO != 0`. -/
noncomputable def sampleStep (storeMode : Bool) (n : Nat) (smp : Nat → Option Samp) (a : Acc) (s : Nat) : Acc :=
  match smp s with
  | none => a
  | some x =>
    if storeMode then
      { W := a.W + x.w
        OO := a.OO
        HO := runAdds ((List.range n).map fun i => (i, (x.w : ℂ) * x.e * x.O i)) a.HO
        store := runStores ((List.range n).map fun i => (i + s * n, (Real.sqrt x.w : ℂ) * x.O i)) a.store }
    else
      { W := a.W + x.w
        OO := runAdds (ooAdds n x) a.OO
        HO := runAdds (hoAdds n x) a.HO
        store := a.store }

/-- `calculateOO_Store` (`/repo/src/mVMC/vmccal.c:692-726`): `ZGEMM('N','C')` for the full matrix, sums of `O` and `|O|²` for `NSRCG`. -/
noncomputable def ooStore (cg : Bool) (n size : Nat) (store OO : Nat → ℂ) : Nat → ℂ :=
  if cg then
    let OO := runStores ((List.range n).flatMap fun i => [(i, 0), (i + n, 0)]) OO
    runAdds ((List.range size).flatMap fun j => (List.range n).flatMap fun i =>
      [(i, store (i + j * n)), (i + n, (((store (i + j * n)).re * (store (i + j * n)).re + (store (i + j * n)).im * (store (i + j * n)).im : ℝ) : ℂ))]) OO
  else
    runStores ((List.range n).flatMap fun j => (List.range n).map fun i =>
      (i + j * n, sumLoop size fun s => store (i + s * n) * star (store (j + s * n)))) OO

/-- `VMCMainCal` with `NVMCCalMode == 0` for the samples `lo … hi-1` of this process (`/repo/src/mVMC/vmccal.c:100-310`). -/
noncomputable def mainCal (storeMode cg : Bool) (n : Nat) (smp : Nat → Option Samp) (lo hi : Nat) (store : Nat → ℂ) : Acc :=
  let a := (List.range' lo (hi - lo)).foldl (sampleStep storeMode n smp) (Acc.clear store)
  if storeMode then { a with OO := ooStore cg n (hi - lo) a.store a.OO } else a

/-- `calculateOO_real` (`/repo/src/mVMC/vmccal.c:796-810`), `DGER`: column-major rank-one update; `n = SROptSize`. -/
def ooAddsR (n : Nat) (w : ℝ) (O : Nat → ℝ) : List (Nat × ℝ) :=
  (List.range n).flatMap fun j => (List.range n).map fun i => (i + j * n, w * O i * O j)

/-- One sample in real mode (`/repo/src/mVMC/vmccal.c:218-229`, `calculateOO_real`): additions to the array that holds `SROptOO_real` and, behind it,
`SROptHO_real` (`/repo/src/mVMC/setmemory.c:406-407`); `n = SROptSize`, `O_real[i] = creal(O[2*i])`. -/
noncomputable def sampleStepR (n : Nat) (a : Nat → ℝ) (x : Samp) : Nat → ℝ :=
  runAdds (ooAddsR n x.w (fun i => (x.O (2 * i)).re) ++ (List.range n).map fun i => (n * n + i, x.w * x.e.re * (x.O (2 * i)).re)) a

/-- `SROptOO_real`, `SROptHO_real` after the sample loop over the samples that are not skipped.
(`/repo/src/mVMC/vmccal.c:136-310`) -/
noncomputable def mainCalR (n : Nat) (l : List Samp) : Nat → ℝ := l.foldl (sampleStepR n) (fun _ => 0)

/-- `WeightAverageSROpt_real` (`/repo/src/mVMC/average.c:115-145`). -/
noncomputable def avgR (np : Nat) (W : ℝ) (acc : Nat → Nat → ℝ) (k : Nat) : ℝ := sumLoop np (fun p => acc p k) * (1 / W)

/-- `Wc` after `WeightAverageWE` (`/repo/src/mVMC/average.c:41-70`). -/
noncomputable def totalW (np : Nat) (acc : Nat → Acc) : ℝ := sumLoop np fun p => (acc p).W

/-- `SROptOO` after `WeightAverageSROpt` (`/repo/src/mVMC/average.c:78-110`): sum over the processes times `1/Wc`. -/
noncomputable def avgOO (np : Nat) (acc : Nat → Acc) (k : Nat) : ℂ := sumLoop np (fun p => (acc p).OO k) * ((1 / totalW np acc : ℝ) : ℂ)

/-- `SROptHO` after `WeightAverageSROpt`. (`/repo/src/mVMC/average.c:78-113`) -/
noncomputable def avgHO (np : Nat) (acc : Nat → Acc) (k : Nat) : ℂ := sumLoop np (fun p => (acc p).HO k) * ((1 / totalW np acc : ℝ) : ℂ)

/-- Expansion of the real accumulators (`/repo/src/mVMC/stcopt.c:70-83`); `OOr` includes `SROptHO_real` behind the matrix, `n = 2*SROptSize`. -/
def expandReal (srOptSize : Nat) (OOr : Nat → ℝ) : Nat → ℂ := fun i =>
  let x := i % (2 * srOptSize)
  let y := (i - x) / (2 * srOptSize)
  if x % 2 = 0 ∧ y % 2 = 0 then (OOr (x / 2 + y / 2 * srOptSize) : ℂ) else 0

/-- The diagonal of the overlap matrix (`/repo/src/mVMC/stcopt.c:88-96`). -/
def sDiag (n : Nat) (OO : Nat → ℂ) (pi : Nat) : ℝ := (OO ((pi + 2) * n + (pi + 2))).re - (OO (pi + 2)).re * (OO (pi + 2)).re

/-- `sDiagMax` (`/repo/src/mVMC/stcopt.c:99-105`). -/
noncomputable def sDiagMax (m : Nat) (sd : Nat → ℝ) : ℝ := (List.range m).foldl (fun mx pi => if sd pi > mx then sd pi else mx) (sd 0)

/-- `smatToParaIdx[0 … nSmat-1]` (`/repo/src/mVMC/stcopt.c:110-126`, `/repo/src/mVMC/stcopt_cg_impl.c:134-158`); `m`: number of derivative components, `flag pi`: the
entry of `OptFlag` that is looked at (`OptFlag[pi]`, in the real CG version `OptFlag[2*pi]`). -/
noncomputable def smatToPara (m : Nat) (flag : Nat → Int) (sd : Nat → ℝ) (redCut : ℝ) : List Nat :=
  let thr := sDiagMax m sd * redCut
  (List.range m).foldl (fun l pi => if flag pi ≠ 1 then l else if sd pi < thr then l else l ++ [pi]) []

/-- One parameter update (`/repo/src/mVMC/stcopt.c:178-185`). -/
noncomputable def paraAdd (r : Nat → ℝ) (idx : List Nat) (si : Nat) : Nat × ℂ :=
  let pi := idx.getD si 0
  if pi % 2 = 0 then (pi / 2, (r si : ℂ)) else ((pi - 1) / 2, (r si : ℂ) * Complex.I)

/-- The parameter update of `StochasticOpt` (`/repo/src/mVMC/stcopt.c:162-187`): nothing if the solver failed or a component is not finite. -/
noncomputable def updatePara (ok : Bool) (idx : List Nat) (r : Nat → ℝ) (para : Nat → ℂ) : Nat → ℂ :=
  if ok then runAdds ((List.range idx.length).map (paraAdd r idx)) para else para

/-- One parameter update of the real CG version (`/repo/src/mVMC/stcopt_cg_impl.c:222-224`). -/
noncomputable def paraAddReal (r : Nat → ℝ) (idx : List Nat) (si : Nat) : Nat × ℂ := (idx.getD si 0, (r si : ℂ))

/-- Events of the parallel parameter update of the CG version (`/repo/src/mVMC/stcopt_cg_impl.c:217-231`): iteration `si` reads its parameter,
then writes it back. -/
inductive UpdEv where
  | load (si : Nat)
  | store (si : Nat)
deriving DecidableEq, Repr

/-- iteration of an event (`/repo/src/mVMC/stcopt_cg_impl.c:221-238`) -/
def UpdEv.iter : UpdEv → Nat
  | .load si | .store si => si

/-- One event; `tmp si`: the value read by iteration `si`, `add si`: place and increment of iteration `si`.
(`/repo/src/mVMC/stcopt_cg_impl.c:221-238`) -/
def updEv (add : Nat → Nat × ℂ) (st : (Nat → ℂ) × (Nat → ℂ)) : UpdEv → (Nat → ℂ) × (Nat → ℂ)
  | .load si => (st.1, fun k => if k = si then st.1 (add si).1 else st.2 k)
  | .store si => (fun k => if k = (add si).1 then st.2 si + (add si).2 else st.1 k, st.2)

/-- An execution of the loop over `si < m` by any number of threads: each iteration's read precedes its write.
(`/repo/src/mVMC/stcopt_cg_impl.c:221-238`) -/
def UpdRun (m : Nat) (evs : List UpdEv) : Prop :=
  (∀ e ∈ evs, e.iter < m) ∧ ∀ si < m, evs.filter (·.iter = si) = [.load si, .store si]

/-- The parallel parameter update of the CG version (`/repo/src/mVMC/stcopt_cg_impl.c:217-231`) along the execution `evs`. -/
def updatePar (add : Nat → Nat × ℂ) (evs : List UpdEv) (tmp para : Nat → ℂ) : Nat → ℂ := (evs.foldl (updEv add) (para, tmp)).1

/-- The matrix of `stcOptInit` (`/repo/src/mVMC/stcopt_dposv.c:60-76`) before the diagonal is modified. -/
def smat0 (n : Nat) (OO : Nat → ℂ) (idx : Nat → Nat) (si sj : Nat) : ℝ :=
  (OO ((idx si + 2) * n + (idx sj + 2))).re - (OO (idx si + 2)).re * (OO (idx sj + 2)).re

/-- The matrix of `stcOptInit` (`/repo/src/mVMC/stcopt_dposv.c:60-76`); `staDel = DSROptStaDel`. -/
def smat (n : Nat) (OO : Nat → ℂ) (staDel : ℝ) (idx : Nat → Nat) (si sj : Nat) : ℝ :=
  if si = sj then smat0 n OO idx si sj * (1 + staDel) else smat0 n OO idx si sj

/-- The right-hand side of `stcOptInit` (`/repo/src/mVMC/stcopt_dposv.c:79-83`). -/
def gvec (OO HO : Nat → ℂ) (dt : ℝ) (idx : Nat → Nat) (si : Nat) : ℝ :=
  -dt * 2 * ((HO (idx si + 2)).re - (HO 0).re * (OO (idx si + 2)).re)

/-! ### Block-cyclic distribution (`stcopt_pdposv.c`) -/

/-- ScaLAPACK's `NUMROC` with source process 0. (`/repo/src/mVMC/stcopt_pdposv.c:90-110`) -/
def numroc (n nb iproc nprocs : Nat) : Nat :=
  let nblocks := n / nb
  let base := nblocks / nprocs * nb
  let extra := nblocks % nprocs
  if iproc < extra then base + nb else if iproc = extra then base + n % nb else base

/-- Global index of a local one (`/repo/src/mVMC/stcopt_pdposv.c:126,132`). -/
def globalIdx (mb nprow myprow ir : Nat) : Nat := ir / mb * nprow * mb + myprow * mb + ir % mb

/-- The local part of the distributed matrix (`/repo/src/mVMC/stcopt_pdposv.c:139-155`), as a function of local row and column. -/
def pSmat (n : Nat) (OO : Nat → ℂ) (staDel : ℝ) (idx : Nat → Nat) (mb nb nprow npcol myprow mypcol ir ic : Nat) : ℝ :=
  let pi := idx (globalIdx mb nprow myprow ir)
  let pj := idx (globalIdx nb npcol mypcol ic)
  let s := (OO ((pi + 2) * n + (pj + 2))).re - (OO (pi + 2)).re * (OO (pj + 2)).re
  if pi = pj then s * (1 + staDel) else s

/-- Copy of the local solution to the zeroed workspace (`/repo/src/mVMC/stcopt_pdposv.c:205-216`). -/
def gatherLocal (nSmat mb nprow myprow : Nat) (g : Nat → ℝ) : Nat → ℝ :=
  runStores ((List.range (numroc nSmat mb myprow nprow)).map fun ir => (globalIdx mb nprow myprow ir, g ir)) (fun _ => 0)

/-- The reduction over the process column (`/repo/src/mVMC/stcopt_pdposv.c:219`). -/
noncomputable def gatherAll (nSmat mb nprow : Nat) (g : Nat → Nat → ℝ) (si : Nat) : ℝ :=
  sumLoop nprow fun p => gatherLocal nSmat mb nprow p (g p) si

/-- The places of `smatToParaIdx` written by `StochasticOptDiag` (`/repo/src/mVMC/stcopt_pdposv.c:268-282`), declared with `nPara` elements (`:247`). -/
def diagWrites (nPara : Nat) (flag : Nat → Int) : List Nat :=
  let nSmat := ((List.range (2 * nPara)).filter fun pi => flag pi = 1).length
  List.range nSmat ++ List.range' nSmat (2 * nPara - nSmat)

/-! ### Conjugate gradients (`stcopt_cg_impl.c`) -/

/-- `xdot` (`/repo/src/mVMC/stcopt_cg.c:26-34`). -/
noncomputable def xdot (n : Nat) (p q : Nat → ℝ) : ℝ := sumLoop n fun i => p i * q i

/-- The stored samples of one process as `fn_StochasticOptCG_Init` copies them (`/repo/src/mVMC/stcopt_cg_impl.c:468-483`): real and imaginary part
of component `si` of sample `i`. -/
def stcOs (n : Nat) (store : Nat → ℂ) (idx : Nat → Nat) (si i : Nat) : ℝ × ℝ :=
  ((store (i * n + idx si + 2)).re, (store (i * n + idx si + 2)).im)

/-- `fn_operate_by_S` (`/repo/src/mVMC/stcopt_cg_impl.c:356-425`): `np` processes, each with `nS` stored samples. -/
noncomputable def operateByS (nSmat np nS : Nat) (os : Nat → Nat → Nat → ℝ × ℝ) (W staDel : ℝ) (stcO sdiag x : Nat → ℝ) (si : Nat) : ℝ :=
  let yr := fun p s => sumLoop nSmat fun sj => x sj * (os p sj s).1
  let yi := fun p s => sumLoop nSmat fun sj => x sj * (os p sj s).2
  let zl := fun p => (sumLoop nS fun s => (os p si s).1 * yr p s) + sumLoop nS fun s => (os p si s).2 * yi p s
  let z := sumLoop np zl
  let coef := xdot nSmat stcO x
  ((1 / W) * z - coef * stcO si) + sdiag si * staDel * x si

/-- State of `fn_StochasticOptCG_Main`. (`/repo/src/mVMC/stcopt_cg_impl.c:258-354`) -/
structure CGSt where
  x : Nat → ℝ
  r : Nat → ℝ
  d : Nat → ℝ
  delta : ℝ

/-- One pass of the loop (`/repo/src/mVMC/stcopt_cg_impl.c:302-343`); `none`: a division by zero (infinite or undefined numbers from here on). -/
noncomputable def cgStep (n : Nat) (S : (Nat → ℝ) → Nat → ℝ) (g : Nat → ℝ) (iter : Nat) (c : CGSt) : Option CGSt :=
  let q := S c.d
  let dq := xdot n c.d q
  if dq = 0 ∨ c.delta = 0 then none
  else
    let alpha := c.delta / dq
    let x := fun i => c.x i + alpha * c.d i
    let r := if (iter + 1) % 20 = 0 then fun i => g i - S x i else fun i => c.r i - alpha * q i
    let beta := xdot n r r / c.delta
    some { x := x, r := r, d := fun i => r i + beta * c.d i, delta := beta * c.delta }

/-- The loop of `fn_StochasticOptCG_Main` (`/repo/src/mVMC/stcopt_cg_impl.c:299-344`): final state and number of passes. -/
noncomputable def cgLoop (n : Nat) (S : (Nat → ℝ) → Nat → ℝ) (g : Nat → ℝ) (thr : ℝ) : (fuel iter : Nat) → CGSt → Option (CGSt × Nat)
  | 0, iter, c => some (c, iter)
  | fuel + 1, iter, c =>
    if c.delta < thr then some (c, iter)
    else match cgStep n S g iter c with
      | none => none
      | some c' => cgLoop n S g thr fuel (iter + 1) c'

/-- `fn_StochasticOptCG_Main` (`/repo/src/mVMC/stcopt_cg_impl.c:258-350`); `x` starts at zero (`:463-465`). -/
noncomputable def cgMain (n : Nat) (S : (Nat → ℝ) → Nat → ℝ) (g : Nat → ℝ) (maxIter : Nat) (tol : ℝ) : Option (CGSt × Nat) :=
  cgLoop n S g (tol * tol * n * n) (if maxIter > 0 then maxIter else n) 0 ⟨fun _ => 0, g, g, xdot n g g⟩

end MVMC
