import Mathlib.Analysis.SpecialFunctions.Complex.Log
import Mathlib.Analysis.SpecialFunctions.Trigonometric.Basic
import Verif.Model.PfUpdate

/-!
# Model of the Boltzmann-machine factor

`/repo/src/mVMC/rbm.c`. Exact complex numbers instead of `double complex` (the counters over any field); arrays are functions from the flat index and
the loops perform the same additions in the same order.
-/
namespace MVMC

variable {K : Type} [Field K]

/-- Sizes, index tables and parameters (`/repo/src/mVMC/include/global.h:135-145`, `/repo/src/mVMC/readdef.c:720-740`).
`nCP = NChargeRBM_PhysLayerIdx`, `nSH = NSpinRBM_HiddenLayerIdx`, `nGX = NGeneralRBM_PhysHiddenIdx` and so on (C, S, G =
charge, spin, general; P, H, X = physical layer, hidden layer, coupling); `hC`, `hS`, `hG` = `NneuronCharge`,
`NneuronSpin`, `NneuronGeneral`; `extra` = the value of the keyword `Nneuron`, whose units are never coupled. -/
structure RBMPar (K : Type) where
  Nsite : Nat
  nCP : Nat
  nSP : Nat
  nGP : Nat
  nCH : Nat
  nSH : Nat
  nGH : Nat
  nCX : Nat
  nSX : Nat
  nGX : Nat
  hC : Nat
  hS : Nat
  hG : Nat
  extra : Nat
  cP : Nat → Nat
  sP : Nat → Nat
  gP : Nat → Nat
  cH : Nat → Nat
  sH : Nat → Nat
  gH : Nat → Nat
  cX : Nat → Nat → Nat
  sX : Nat → Nat → Nat
  gX : Nat → Nat → Nat
  par : Nat → K

/-- `NRBM_PhysLayerIdx` (`/repo/src/mVMC/readdef.c:738`). -/
def RBMPar.nPhys (p : RBMPar K) : Nat := p.nCP + p.nSP + p.nGP
/-- `NRBM_HiddenLayerIdx` (`/repo/src/mVMC/readdef.c:739`). -/
def RBMPar.nHid (p : RBMPar K) : Nat := p.nCH + p.nSH + p.nGH
/-- `Nneuron` (`/repo/src/mVMC/readdef.c:720,724`). -/
def RBMPar.nNeuron (p : RBMPar K) : Nat := p.extra + (p.hC + p.hS + p.hG)
/-- `RBM_Hidden[i]` (`/repo/src/mVMC/rbm.c:202`). -/
def RBMPar.hidden (p : RBMPar K) (i : Nat) : K := p.par (p.nPhys + i)
/-- `RBM_PhysHidden[i]` (`/repo/src/mVMC/rbm.c:203`). -/
def RBMPar.physHidden (p : RBMPar K) (i : Nat) : K := p.par (p.nPhys + p.nHid + i)

/-- Physical-layer part of `MakeRBMCnt` (`/repo/src/mVMC/rbm.c:209-226`). -/
def makeRBMPhys (p : RBMPar K) (num : Arr) (a : Nat → K) : Nat → K :=
  let a := if p.nCP > 0 then
    (List.range p.Nsite).foldl (fun a ri => addAt a (p.cP ri) ((num ri + num (ri + p.Nsite) - 1 : Int) : K)) a else a
  let a := if p.nSP > 0 then
    (List.range p.Nsite).foldl (fun a ri => addAt a (p.sP ri + p.nCP) ((num ri - num (ri + p.Nsite) : Int) : K)) a else a
  if p.nGP > 0 then
    (List.range (2 * p.Nsite)).foldl (fun a ri =>
      addAt a (p.gP ri + (p.nCP + p.nSP)) ((2 * num ri - 1 : Int) : K)) a else a

/-- Hidden-layer part of `MakeRBMCnt` (`/repo/src/mVMC/rbm.c:228-248`). -/
def makeRBMHid (p : RBMPar K) (a : Nat → K) : Nat → K :=
  let a := if p.nCH > 0 then
    (List.range p.hC).foldl (fun a hi => addAt a (hi + p.nPhys) (p.hidden (p.cH hi))) a else a
  let a := if p.nSH > 0 then
    (List.range p.hS).foldl (fun a hi => addAt a (hi + p.nPhys + p.hC) (p.hidden (p.sH hi + p.nCH))) a else a
  if p.nGH > 0 then
    (List.range p.hG).foldl (fun a hi =>
      addAt a (hi + (p.nPhys + p.hC + p.hS)) (p.hidden (p.gH hi + (p.nCH + p.nSH)))) a else a

/-- Coupling part of `MakeRBMCnt` (`/repo/src/mVMC/rbm.c:250-286`); `ctmp` is accumulated over the sites first. -/
def makeRBMCoup (p : RBMPar K) (num : Arr) (a : Nat → K) : Nat → K :=
  let a := if p.nCX > 0 then
    (List.range p.hC).foldl (fun a hi =>
      addAt a (hi + p.nPhys) (sumLoop p.Nsite (fun ri =>
        p.physHidden (p.cX ri hi) * ((num ri + num (ri + p.Nsite) - 1 : Int) : K)))) a else a
  let a := if p.nSX > 0 then
    (List.range p.hS).foldl (fun a hi =>
      addAt a (hi + p.nPhys + p.hC) (sumLoop p.Nsite (fun ri =>
        p.physHidden (p.sX ri hi + p.nCX) * ((num ri - num (ri + p.Nsite) : Int) : K)))) a else a
  if p.nGX > 0 then
    (List.range p.hG).foldl (fun a hi =>
      addAt a (hi + (p.nPhys + p.hC + p.hS)) (sumLoop (2 * p.Nsite) (fun ri =>
        p.physHidden (p.gX ri hi + (p.nCX + p.nSX)) * ((2 * num ri - 1 : Int) : K)))) a else a

/-- `MakeRBMCnt` (`/repo/src/mVMC/rbm.c:187-288`). -/
def makeRBMCnt (p : RBMPar K) (num : Arr) : Nat → K :=
  makeRBMCoup p num (makeRBMHid p (makeRBMPhys p num (fun _ => 0)))

/-- `rbmCntNew[h(hi)] += d * RBM_PhysHidden[c(hi)]` for all hidden units of one kind.
(`/repo/src/mVMC/rbm.c:386-468`) -/
def addHidden (n : Nat) (pos : Nat → Nat) (val : Nat → K) (a : Nat → K) : Nat → K :=
  (List.range n).foldl (fun a hi => addAt a (pos hi) (val hi)) a

/-- `UpdateRBMCnt` (`/repo/src/mVMC/rbm.c:386-467`). The copy at the start makes aliasing harmless; `eleNum` is read into
`nit`, `njt`, which are not used. -/
def updateRBMCnt (p : RBMPar K) (ri rj s : Nat) (old : Nat → K) : Nat → K :=
  let rsi := ri + s * p.Nsite
  let rsj := rj + s * p.Nsite
  if ri = rj then old else
  let a := old
  let a := if p.nCP > 0 then addAt (addAt a (p.cP ri) (-1)) (p.cP rj) 1 else a
  let a := if p.nSP > 0 then
    addAt (addAt a (p.sP ri + p.nCP) (2 * (s : K) - 1)) (p.sP rj + p.nCP) (1 - 2 * (s : K)) else a
  let a := if p.nGP > 0 then
    addAt (addAt a (p.gP rsi + p.nCP + p.nSP) (-2)) (p.gP rsj + p.nCP + p.nSP) 2 else a
  let a := if p.nCX > 0 then
    addHidden p.hC (fun hi => hi + p.nPhys) (fun hi => p.physHidden (p.cX rj hi))
      (addHidden p.hC (fun hi => hi + p.nPhys) (fun hi => -p.physHidden (p.cX ri hi)) a) else a
  let a := if p.nSX > 0 then
    addHidden p.hS (fun hi => hi + p.nPhys + p.hC) (fun hi => (1 - 2 * (s : K)) * p.physHidden (p.sX rj hi + p.nCX))
      (addHidden p.hS (fun hi => hi + p.nPhys + p.hC)
        (fun hi => -((1 - 2 * (s : K)) * p.physHidden (p.sX ri hi + p.nCX))) a) else a
  if p.nGX > 0 then
    addHidden p.hG (fun hi => hi + p.nPhys + p.hC + p.hS) (fun hi => 2 * p.physHidden (p.gX rsj hi + p.nCX + p.nSX))
      (addHidden p.hG (fun hi => hi + p.nPhys + p.hC + p.hS)
        (fun hi => -(2 * p.physHidden (p.gX rsi hi + p.nCX + p.nSX))) a) else a

/-- `UpdateRBMCnt_fsz` (`/repo/src/mVMC/rbm.c:470-580`): an electron moves from `ri,s` to `rj,t`. The branch `ri==rj`,
`s≠t` (491-523) does not touch the general physical layer. -/
def updateRBMCntFsz (p : RBMPar K) (ri rj s t : Nat) (old : Nat → K) : Nat → K :=
  let rsi := ri + s * p.Nsite
  let rtj := rj + t * p.Nsite
  if ri = rj then
    if s = t then old else
    let a := old
    let a := if p.nSP > 0 then
      addAt (addAt a (p.sP ri + p.nCP) (2 * (s : K) - 1)) (p.sP rj + p.nCP) (1 - 2 * (t : K)) else a
    let a := if p.nSX > 0 then
      addHidden p.hS (fun hi => hi + p.nPhys + p.hC) (fun hi => (1 - 2 * (t : K)) * p.physHidden (p.sX rj hi + p.nCX))
        (addHidden p.hS (fun hi => hi + p.nPhys + p.hC)
          (fun hi => -((1 - 2 * (s : K)) * p.physHidden (p.sX ri hi + p.nCX))) a) else a
    if p.nGX > 0 then
      addHidden p.hG (fun hi => hi + p.nPhys + p.hC + p.hS) (fun hi => 2 * p.physHidden (p.gX rtj hi + p.nCX + p.nSX))
        (addHidden p.hG (fun hi => hi + p.nPhys + p.hC + p.hS)
          (fun hi => -(2 * p.physHidden (p.gX rsi hi + p.nCX + p.nSX))) a) else a
  else
  let a := old
  let a := if p.nCP > 0 then addAt (addAt a (p.cP ri) (-1)) (p.cP rj) 1 else a
  let a := if p.nSP > 0 then
    addAt (addAt a (p.sP ri + p.nCP) (2 * (s : K) - 1)) (p.sP rj + p.nCP) (1 - 2 * (t : K)) else a
  let a := if p.nGP > 0 then
    addAt (addAt a (p.gP rsi + p.nCP + p.nSP) (-2)) (p.gP rtj + p.nCP + p.nSP) 2 else a
  let a := if p.nCX > 0 then
    addHidden p.hC (fun hi => hi + p.nPhys) (fun hi => p.physHidden (p.cX rj hi))
      (addHidden p.hC (fun hi => hi + p.nPhys) (fun hi => -p.physHidden (p.cX ri hi)) a) else a
  let a := if p.nSX > 0 then
    addHidden p.hS (fun hi => hi + p.nPhys + p.hC) (fun hi => (1 - 2 * (t : K)) * p.physHidden (p.sX rj hi + p.nCX))
      (addHidden p.hS (fun hi => hi + p.nPhys + p.hC)
        (fun hi => -((1 - 2 * (s : K)) * p.physHidden (p.sX ri hi + p.nCX))) a) else a
  if p.nGX > 0 then
    addHidden p.hG (fun hi => hi + p.nPhys + p.hC + p.hS) (fun hi => 2 * p.physHidden (p.gX rtj hi + p.nCX + p.nSX))
      (addHidden p.hG (fun hi => hi + p.nPhys + p.hC + p.hS)
        (fun hi => -(2 * p.physHidden (p.gX rsi hi + p.nCX + p.nSX))) a) else a

/-- The hidden-unit inputs in `VMCMakeSample`: `rc` is `TmpRBMCnt` inside the sampler's memory, `rn` is `rbmCntNew` inside the
candidate quantities. Hop: `/repo/src/mVMC/vmcmake.c:167`; exchange: 244 and 250 (the second call updates in place); commit: 210,
293 (all `NRBM_PhysLayerIdx + Nneuron` entries); the refresh does not touch them. The general-Sz sampler carries none. -/
structure CountsRBM {β γ : Type} (q : RBMPar K) (k : Hooks β γ) (rc : β → Nat → K) (rn : γ → Nat → K) : Prop where
  hop : ∀ c' h b, rn (k.propHop c' h b) = updateRBMCnt q h.ri h.rj h.s (rc b)
  exch : ∀ c1 c2 h h2 b, rn (k.propExch c1 c2 h h2 b) =
    updateRBMCnt q h2.ri h2.rj h2.s (updateRBMCnt q h.ri h.rj h.s (rc b))
  commitHop : ∀ c' h b g i, rc (k.commitHop c' h b g) i = if i < q.nPhys + q.nNeuron then rn g i else rc b i
  commitExch : ∀ c' h h2 b g i, rc (k.commitExch c' h h2 b g) i = if i < q.nPhys + q.nNeuron then rn g i else rc b i
  refresh : ∀ c b, rc (k.refresh c b) = rc b

/-! ### values and ratios -/

/-- `LogWeightRBM` (`/repo/src/mVMC/rbm.c:47-62`). -/
noncomputable def logWeightRBM (p : RBMPar ℂ) (cnt : Nat → ℂ) : ℂ :=
  (List.range p.nNeuron).foldl (fun z hi => z + Complex.log (Complex.cosh (cnt (hi + p.nPhys))))
    ((List.range p.nPhys).foldl (fun z idx => z + p.par idx * cnt idx) 0)

/-- `WeightRBM` (`/repo/src/mVMC/rbm.c:30-45`). -/
noncomputable def weightRBM (p : RBMPar ℂ) (cnt : Nat → ℂ) : ℂ := Complex.exp (logWeightRBM p cnt)

/-- `if(creal(x) <= 0.0) x = -x;` (`/repo/src/mVMC/rbm.c:91-92`). -/
noncomputable def rbmFold (x : ℂ) : ℂ := if x.re ≤ 0 then -x else x

/-- `(1.0+cexp(-2.0*RbmCntNew)) / (1.0+cexp(-2.0*RbmCntOld))` (`/repo/src/mVMC/rbm.c:94`). -/
noncomputable def rbmTmp (new old : ℂ) : ℂ := (1 + Complex.exp (-2 * rbmFold new)) / (1 + Complex.exp (-2 * rbmFold old))

/-- The iterations of thread `t` of `T` in a statically scheduled loop of `n` iterations, as (first, count): the first
`n % T` threads get one more (libgomp). (`/repo/src/mVMC/rbm.c:64-123`) -/
def ompChunk (n T t : Nat) : Nat × Nat := (t * (n / T) + min t (n % T), n / T + if t < n % T then 1 else 0)

/-- The second loop of a block for one thread (`/repo/src/mVMC/rbm.c:98-118`): `c` is the number of entries of the private
array `zzTmp`, `n = hiend-hist`. If `c%8==0` the loop over `hi` has step 8 and so `(n+7)/8` iterations, of which this
thread gets `ompChunk`; the private counter `icnt` runs from 0. -/
noncomputable def rbmThreadProd (n T t : Nat) (zzTmp : Nat → ℂ) : ℂ :=
  let c := (ompChunk n T t).2
  if c % 8 = 0 then
    (List.range (ompChunk ((n + 7) / 8) T t).2).foldl (fun zz k =>
      zz * (zzTmp (8 * k) * zzTmp (8 * k + 1) * zzTmp (8 * k + 2) * zzTmp (8 * k + 3) *
        zzTmp (8 * k + 4) * zzTmp (8 * k + 5) * zzTmp (8 * k + 6) * zzTmp (8 * k + 7))) 1
  else (List.range c).foldl (fun zz k => zz * zzTmp k) 1

/-- All threads of the team take the same branch in `if((icnt%8)==0)`. Otherwise they meet different worksharing loops in
one parallel region, which OpenMP leaves undefined. (`/repo/src/mVMC/rbm.c:64-123`) -/
def rbmUniform (n T : Nat) : Bool :=
  (List.range T).all (fun t => decide ((ompChunk n T t).2 % 8 = 0)) ||
    (List.range T).all (fun t => !decide ((ompChunk n T t).2 % 8 = 0))

/-- One block of `LogRBMRatio` (`/repo/src/mVMC/rbm.c:141-181`, `RBMRatio` the same): the terms added to `z` by the team of
`T` threads, `none` if the behaviour is undefined. -/
noncomputable def rbmBlock (p : RBMPar ℂ) (T hist hiend : Nat) (new old : Nat → ℂ) : Option ℂ :=
  let n := hiend - hist
  if rbmUniform n T then
    let zs := (List.range T).map (fun t =>
      (List.range (ompChunk n T t).2).foldl (fun z k =>
        let hi := hist + (ompChunk n T t).1 + k
        z + (rbmFold (new (hi + p.nPhys)) - rbmFold (old (hi + p.nPhys)))) 0)
    let zzs := (List.range T).map (fun t =>
      rbmThreadProd n T t (fun k =>
        let hi := hist + (ompChunk n T t).1 + k
        rbmTmp (new (hi + p.nPhys)) (old (hi + p.nPhys))))
    some (zs.sum + Complex.log (zzs.foldl (· * ·) 1))
  else none

/-- `LogRBMRatio` (`/repo/src/mVMC/rbm.c:125-184`) run by a team of `T` threads with block size `B = NBlockSize_RBMRatio`;
`Nblk = (Nneuron-1)/B + 1` with C division (1 for `Nneuron = 0`, `B > 1`). -/
noncomputable def logRBMRatio (p : RBMPar ℂ) (B T : Nat) (new old : Nat → ℂ) : Option ℂ :=
  let z0 := (List.range p.nPhys).foldl (fun z idx => z + p.par idx * (new idx - old idx)) 0
  let Nblk := (p.nNeuron - 1) / B + 1
  (List.range Nblk).foldl (fun o iblk =>
    match o with
    | none => none
    | some z =>
      let hist := iblk * B
      let hiend := if hist + B > p.nNeuron then p.nNeuron else hist + B
      match rbmBlock p T hist hiend new old with
      | none => none
      | some d => some (z + d)) (some z0)

/-- `RBMRatio` (`/repo/src/mVMC/rbm.c:64-123`): the same loops, then `cexp`. -/
noncomputable def rbmRatio (p : RBMPar ℂ) (B T : Nat) (new old : Nat → ℂ) : Option ℂ :=
  (logRBMRatio p B T new old).map Complex.exp

end MVMC
