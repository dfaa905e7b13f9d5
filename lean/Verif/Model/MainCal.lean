import Verif.Model.CalHam
import Verif.Model.PfSampler
import Verif.Model.SplitLoop

/-!
# Model of the path from the Monte-Carlo chain to the reported averages

`/repo/src/mVMC/vmcmake.c:45-355,445-469` and `/repo/src/mVMC/vmcmake_fsz.c` (chain with all its data, storing of samples), `/repo/src/mVMC/rbm.c:308-321`,
`/repo/src/mVMC/vmccal.c:82-325`, `/repo/src/mVMC/vmccal_fsz.c:36-245` (loop over the stored samples), `/repo/src/mVMC/average.c:41-75,200-290`
(averages), `/repo/src/mVMC/vmcmain.c:239-257` (groups of processes).

Here the hooks of the samplers are filled in: correlation counters, inputs of the Boltzmann machine, Pfaffians, inverse
matrices, inner product and the Metropolis test of the code. The processes of one group (`comm_child1`) hold the projections
`qpStart..qpEnd` each and reduce the inner product, so all of them carry the same chain (C02); the model keeps the
union of their projections in one memory. Exact numbers instead of `double`. `-D_pf_block_update` is off.
-/
namespace MVMC

/-! ### the chain with its data -/

/-- `TmpEleProjCnt`, `TmpRBMCnt`, (`PfM`, `InvM`), the number whose logarithm is `logIpOld`.
(`/repo/src/mVMC/vmcmake.c:45-72`) -/
structure SzMem where
  projCnt : Arr
  rbmCnt : Nat → ℂ
  ps : PfState ℂ
  ip : ℂ

/-- `projCntNew`, `rbmCntNew`, `pfMNew`, the number whose logarithm is `logIpNew`.
(`/repo/src/mVMC/vmcmake.c:45-72`) -/
structure SzNew where
  projCnt : Arr
  rbmCnt : Nat → ℂ
  pf : Nat → ℂ
  ip : ℂ

/-- the sampler parameters that belong to the data `g`. (`/repo/src/mVMC/vmcmake.c:45-72`) -/
def GrnEnv.szPar (g : GrnEnv) (locSpn : Nat → Int) (exPath : Int) : SamplerPar := ⟨g.p.Ne, g.p.Nsite, locSpn, exPath⟩

/-- `w > genrand_real2()` with `w = exp(2.0*creal(x+logIpNew-logIpOld))` and `if(!isfinite(w)) w = -1.0`
(`/repo/src/mVMC/vmcmake.c:191-200`). `clog(0)` has real part `-∞`: `w = 0` for a vanishing new inner product, `+∞` or NaN for a vanishing
old one; both are rejected. -/
noncomputable def metropolis (x : ℝ) (ipOld ipNew : ℂ) (u : Nat) : Bool :=
  open Classical in
  decide (ipOld ≠ 0 ∧ ipNew ≠ 0 ∧
    Real.exp (2 * ((x : ℂ) + Complex.log ipNew - Complex.log ipOld).re) > (u : ℝ) / 4294967296)

/-- All that `VMCMakeSample` does with its data (`/repo/src/mVMC/vmcmake.c:160-330`), for `FlagRBM = g.flagRBM` and a team of `nT` threads.
`rbmJunk` stands for the result of `LogRBMRatio` when OpenMP leaves it undefined; `mFail` for what a failed `CalculateMAll_fcmp`
(whose status is ignored) leaves in the arrays. -/
noncomputable def szHooks (g : GrnEnv) (lib : SkLib ℂ) (nT : Nat) (rbmJunk : (Nat → ℂ) → (Nat → ℂ) → ℂ)
    (mFail : EleCfg → SzMem → PfState ℂ × ℂ) : Hooks SzMem SzNew where
  propHop c' h b :=
    let pf := calculateNewPfM g.p g.slt h.mi h.s c'.idx 0 b.ps
    { projCnt := updateProjCnt g.q h.ri h.rj b.projCnt c'.num
      rbmCnt := if g.flagRBM then updateRBMCnt g.rbm h.ri h.rj h.s b.rbmCnt else b.rbmCnt
      pf := pf
      ip := calculateIPLocal g.w pf 0 g.nQP }
  propExch c1 c2 h h2 b :=
    let pf := calculateNewPfMTwo g.p g.slt h.mi h.s h2.mi h2.s c2.idx 0 b.ps
    { projCnt := updateProjCnt g.q h2.ri h2.rj (updateProjCnt g.q h.ri h.rj b.projCnt c1.num) c2.num
      rbmCnt := if g.flagRBM then updateRBMCnt g.rbm h2.ri h2.rj h2.s (updateRBMCnt g.rbm h.ri h.rj h.s b.rbmCnt) else b.rbmCnt
      pf := pf
      ip := calculateIPLocal g.w pf 0 g.nQP }
  accept b n u :=
    let x := logProjRatio g.q.NProj g.Proj n.projCnt b.projCnt
    let x := if g.flagRBM then
        x + ((logRBMRatio g.rbm g.B nT n.rbmCnt b.rbmCnt).getD (rbmJunk n.rbmCnt b.rbmCnt)).re else x
    metropolis x b.ip n.ip u
  commitHop c' h b n :=
    { projCnt := fun i => if i < g.q.NProj then n.projCnt i else b.projCnt i
      rbmCnt := if g.flagRBM then fun i => if i < g.rbm.nPhys + g.rbm.nNeuron then n.rbmCnt i else b.rbmCnt i else b.rbmCnt
      ps := updateMAll g.p g.slt h.mi h.s c'.idx 0 g.nQP b.ps
      ip := n.ip }
  commitExch c' h h2 b n :=
    { projCnt := fun i => if i < g.q.NProj then n.projCnt i else b.projCnt i
      rbmCnt := if g.flagRBM then fun i => if i < g.rbm.nPhys + g.rbm.nNeuron then n.rbmCnt i else b.rbmCnt i else b.rbmCnt
      ps := updateMAllTwo g.p g.slt h.mi h.s h2.mi h2.s h.ri c'.idx 0 g.nQP b.ps
      ip := n.ip }
  refresh c b :=
    match calculateMAll g.p lib g.slt 0 g.nQP (rsSz g.p c.idx) b.ps with
    | some st => { b with ps := st, ip := calculateIPLocal g.w st.pfM 0 g.nQP }
    | none => { b with ps := (mFail c b).1, ip := (mFail c b).2 }

/-- The same for the general-Sz sampler (`/repo/src/mVMC/vmcmake_fsz.c:148-403`); no Boltzmann machine. -/
noncomputable def fszHooks (g : GrnEnv) (lib : SkLib ℂ) (mFail : FCfg → SzMem → PfState ℂ × ℂ) : FHooks SzMem SzNew where
  propMove c' h b :=
    let pf := calculateNewPfMFsz g.p g.slt h.mi h.t c'.idx c'.spn 0 b.ps
    { projCnt := if h.s = h.t then updateProjCnt g.q h.ri h.rj b.projCnt c'.num else updateProjCntFsz g.q h.ri h.rj b.projCnt c'.num
      rbmCnt := b.rbmCnt
      pf := pf
      ip := calculateIPLocal g.w pf 0 g.nQP }
  propExch c1 c2 h h2 b :=
    let pf := calculateNewPfMTwoFsz g.p g.slt h.mi h.s h2.mi h2.s c2.idx c2.spn 0 b.ps
    { projCnt := updateProjCnt g.q h2.ri h2.rj (updateProjCnt g.q h.ri h.rj b.projCnt c1.num) c2.num
      rbmCnt := b.rbmCnt
      pf := pf
      ip := calculateIPLocal g.w pf 0 g.nQP }
  accept b n u := metropolis (logProjRatio g.q.NProj g.Proj n.projCnt b.projCnt) b.ip n.ip u
  commitMove c' h b n :=
    { projCnt := fun i => if i < g.q.NProj then n.projCnt i else b.projCnt i
      rbmCnt := b.rbmCnt
      ps := updateMAllFsz g.p g.slt h.mi h.t c'.idx c'.spn 0 g.nQP b.ps
      ip := n.ip }
  commitExch c' h h2 b n :=
    { projCnt := fun i => if i < g.q.NProj then n.projCnt i else b.projCnt i
      rbmCnt := b.rbmCnt
      ps := updateMAllTwoFsz g.p g.slt h.mi h.s h2.mi h2.s h.ri c'.idx c'.spn 0 g.nQP b.ps
      ip := n.ip }
  refresh c b :=
    match calculateMAll g.p lib g.slt 0 g.nQP (rsFsz g.p c.idx c.spn) b.ps with
    | some st => { b with ps := st, ip := calculateIPLocal g.w st.pfM 0 g.nQP }
    | none => { b with ps := (mFail c b).1, ip := (mFail c b).2 }

/-- The start of `VMCMakeSample` after the configuration `c` and its counters are in place (`/repo/src/mVMC/vmcmake.c:69-82,113-117`):
`MakeRBMCnt`, `CalculateMAll_fcmp`, the inner product. `none`: `CalculateMAll_fcmp` failed. -/
noncomputable def szStart (g : GrnEnv) (lib : SkLib ℂ) (c : EleCfg) (projCnt : Arr) (rbm0 : Nat → ℂ) (st0 : PfState ℂ) : Option SzMem :=
  match calculateMAll g.p lib g.slt 0 g.nQP (rsSz g.p c.idx) st0 with
  | none => none
  | some st => some ⟨projCnt, if g.flagRBM then makeRBMCnt g.rbm c.num else rbm0, st, calculateIPLocal g.w st.pfM 0 g.nQP⟩

/-- The same for `VMCMakeSample_fsz` (`/repo/src/mVMC/vmcmake_fsz.c:70-82,113-117`). -/
noncomputable def fszStart (g : GrnEnv) (lib : SkLib ℂ) (c : FCfg) (projCnt : Arr) (rbm0 : Nat → ℂ) (st0 : PfState ℂ) : Option SzMem :=
  match calculateMAll g.p lib g.slt 0 g.nQP (rsFsz g.p c.idx c.spn) st0 with
  | none => none
  | some st => some ⟨projCnt, rbm0, st, calculateIPLocal g.w st.pfM 0 g.nQP⟩

/-! ### storing samples -/

/-- `EleIdx`, `EleCfg`, `EleNum`, `EleProjCnt`, `EleSpn`, `RBMCnt` (`/repo/src/mVMC/setmemory.c:240-290`). -/
structure EleStore where
  idx : Arr
  cfg : Arr
  num : Arr
  proj : Arr
  spn : Arr
  rbm : Nat → ℂ

/-- `for(i=0;i<n;i++) A[offset+i] = a[i];` (`/repo/src/mVMC/vmcmake.c:453-464`) -/
def copyAt {α : Type} (A : Nat → α) (offset n : Nat) (a : Nat → α) : Nat → α :=
  (List.range n).foldl (fun A i => fun k => if k = offset + i then a i else A k) A

/-- `saveEleConfig` (`/repo/src/mVMC/vmcmake.c:445-469`) and `saveRBMCnt` (`/repo/src/mVMC/rbm.c:308-321`); `logSqPfFullSlater` is not read again. -/
def saveEleConfig (g : GrnEnv) (sample : Nat) (c : EleCfg) (b : SzMem) (S : EleStore) : EleStore where
  idx := copyAt S.idx (sample * g.p.Nsize) g.p.Nsize c.idx
  cfg := copyAt S.cfg (sample * g.p.Nsite2) g.p.Nsite2 c.cfg
  num := copyAt S.num (sample * g.p.Nsite2) g.p.Nsite2 c.num
  proj := copyAt S.proj (sample * g.q.NProj) g.q.NProj b.projCnt
  spn := S.spn
  rbm := if g.flagRBM then copyAt S.rbm (sample * (g.rbm.nPhys + g.rbm.nNeuron)) (g.rbm.nPhys + g.rbm.nNeuron) b.rbmCnt else S.rbm

/-- `saveEleConfig_fsz` (`/repo/src/mVMC/vmcmake_fsz.c:539-566`). -/
def saveEleConfigF (g : GrnEnv) (sample : Nat) (c : FCfg) (b : SzMem) (S : EleStore) : EleStore where
  idx := copyAt S.idx (sample * g.p.Nsize) g.p.Nsize c.idx
  cfg := copyAt S.cfg (sample * g.p.Nsite2) g.p.Nsite2 c.cfg
  num := copyAt S.num (sample * g.p.Nsite2) g.p.Nsite2 c.num
  proj := copyAt S.proj (sample * g.q.NProj) g.q.NProj b.projCnt
  spn := copyAt S.spn (sample * g.p.Nsize) g.p.Nsize c.spn
  rbm := S.rbm

/-- The stores of one sampling run, in program order (`saved`: newest first). (`/repo/src/mVMC/vmcmake.c:334-342`) -/
def storeRun (g : GrnEnv) (saved : List (Nat × SState SzMem)) (S : EleStore) : EleStore :=
  saved.reverse.foldl (fun S x => saveEleConfig g x.1 x.2.c x.2.b S) S

/-- The stores of one sampling run of the general-Sz sampler. (`/repo/src/mVMC/vmcmake_fsz.c:405-415`) -/
def storeRunF (g : GrnEnv) (saved : List (Nat × FState SzMem)) (S : EleStore) : EleStore :=
  saved.reverse.foldl (fun S x => saveEleConfigF g x.1 x.2.c x.2.b S) S

/-- `a + offset` as an array. (`/repo/src/mVMC/vmccal.c:116-120`) -/
def ptrAt {α : Type} (a : Nat → α) (offset : Nat) : Nat → α := fun i => a (offset + i)

/-- `eleIdx`, `eleCfg`, `eleNum` of a stored sample (`/repo/src/mVMC/vmccal.c:116-118`). -/
def loadCfg (g : GrnEnv) (S : EleStore) (sample : Nat) : EleCfg :=
  ⟨ptrAt S.idx (sample * g.p.Nsize), ptrAt S.cfg (sample * g.p.Nsite2), ptrAt S.num (sample * g.p.Nsite2)⟩

/-- `eleIdx`, `eleSpn`, `eleCfg`, `eleNum` of a stored sample (`/repo/src/mVMC/vmccal_fsz.c:68-72`). -/
def loadCfgF (g : GrnEnv) (S : EleStore) (sample : Nat) : FCfg :=
  ⟨ptrAt S.idx (sample * g.p.Nsize), ptrAt S.spn (sample * g.p.Nsize), ptrAt S.cfg (sample * g.p.Nsite2),
    ptrAt S.num (sample * g.p.Nsite2)⟩

/-- `eleProjCnt` of a stored sample (`/repo/src/mVMC/vmccal.c:119`). -/
def loadProj (g : GrnEnv) (S : EleStore) (sample : Nat) : Arr := ptrAt S.proj (sample * g.q.NProj)

/-- `rbmCnt` of a stored sample (`/repo/src/mVMC/vmccal.c:120`). -/
def loadRBM (g : GrnEnv) (S : EleStore) (sample : Nat) : Nat → ℂ := ptrAt S.rbm (sample * (g.rbm.nPhys + g.rbm.nNeuron))

/-! ### the loop over the stored samples -/

/-- What the environment decides for a sample: OpenMP schedules, orders and workspace contents, the arrays left by a failed
`CalculateMAll_*`, and what the divisions by a vanishing inner product produce (`none`: a non-finite energy).
(`/repo/src/mVMC/vmccal.c:115-290`) -/
structure MainOr (C : Type) where
  sched : Nat → Nat → Nat
  order : List Nat
  junk : Nat → C
  gSched : Nat → Nat → Nat
  gOrder : List Nat
  gOrder' : List Nat
  gJunk : Nat → C
  mFail : PfState ℂ
  eZero : Option ℂ
  gZero : GrnAcc → GrnAcc

/-- `Wc`, `Etot`, `Etot2`, `Sztot`, `Sztot2`, (`PfM`, `InvM`), the measured Green functions (`/repo/src/mVMC/include/global.h:283-300`). -/
structure PhysAcc where
  wc : ℂ
  etot : ℂ
  etot2 : ℂ
  sz : ℂ
  sz2 : ℂ
  st : PfState ℂ
  grn : GrnAcc

/-- `clearPhysQuantity` (`/repo/src/mVMC/vmccal.c:571-637`): the measured arrays and the sums are set to zero; the local arrays keep their content. -/
def PhysAcc.clear (st : PfState ℂ) (loc1 locDC : Nat → ℂ) : PhysAcc :=
  ⟨0, 0, 0, 0, 0, st, ⟨fun _ => 0, fun _ => 0, fun _ => 0, loc1, locDC⟩⟩

/-- `Wc += w; Etot += w*e; Etot2 += w*conj(e)*e;` with `w = 1.0` (`/repo/src/mVMC/vmccal.c:153,189-191`). -/
noncomputable def addE (a : PhysAcc) (e : ℂ) : PhysAcc :=
  { a with wc := a.wc + 1, etot := a.etot + 1 * e, etot2 := a.etot2 + 1 * (starRingEnd ℂ) e * e }

/-- One iteration of the sample loop of `VMCMainCal` (`/repo/src/mVMC/vmccal.c:115-307`) in complex mode, sums of the energy and, for
`NVMCCalMode==1`, of the Green functions (the derivatives of `NVMCCalMode==0` are in `Verif.Model.SR`). -/
noncomputable def mainStep (g : GrnEnv) (H : HamPar) (T : GrnTab) (lib : SkLib ℂ) (mode : Nat) (S : EleStore) (o : Nat → MainOr EleCfg)
    (a : PhysAcc) (sample : Nat) : PhysAcc :=
  let c := loadCfg g S sample
  let projCnt := loadProj g S sample
  let rbmCnt := loadRBM g S sample
  match calculateMAll g.p lib g.slt 0 g.nQP (rsSz g.p c.idx) a.st with
  | none => { a with st := (o sample).mFail }
  | some st =>
    let a := { a with st := st }
    let ip := calculateIPLocal g.w st.pfM 0 g.nQP
    if ip = 0 then
      match (o sample).eZero with
      | none => a
      | some e =>
        let a := addE a e
        if mode = 1 then { a with grn := (o sample).gZero a.grn } else a
    else
      let e := calculateHamiltonian { g with st := st } H (o sample).sched (o sample).order (o sample).junk ip projCnt rbmCnt c
      let a := addE a e
      if mode = 1 then
        { a with grn := calculateGreenFunc { g with st := st } T (o sample).gSched (o sample).gOrder (o sample).gOrder' (o sample).gJunk 1 ip
                  projCnt rbmCnt c a.grn }
      else a

/-- One iteration of the sample loop of `VMCMainCal_fsz` (`/repo/src/mVMC/vmccal_fsz.c:67-225`), complex mode, energies and `Sz`. -/
noncomputable def mainStepF (g : GrnEnv) (H : HamPar) (lib : SkLib ℂ) (S : EleStore) (o : Nat → MainOr FCfg)
    (a : PhysAcc) (sample : Nat) : PhysAcc :=
  let c := loadCfgF g S sample
  let projCnt := loadProj g S sample
  match calculateMAll g.p lib g.slt 0 g.nQP (rsFsz g.p c.idx c.spn) a.st with
  | none => { a with st := (o sample).mFail }
  | some st =>
    let a := { a with st := st }
    let ip := calculateIPLocal g.w st.pfM 0 g.nQP
    let Sz := calculateSzF g.p.Nsite c.num
    let add := fun e : ℂ => { addE a e with sz := a.sz + 1 * Sz, sz2 := a.sz2 + 1 * Sz * Sz }
    if ip = 0 then
      match (o sample).eZero with
      | none => a
      | some e => add e
    else
      add (calculateHamiltonianF { g with st := st } H (o sample).sched (o sample).order (o sample).junk ip projCnt c)

/-- `VMCMainCal` on rank `rank` of a group of `size` processes (`/repo/src/mVMC/vmccal.c:108-307`). -/
noncomputable def vmcMainCal (g : GrnEnv) (H : HamPar) (T : GrnTab) (lib : SkLib ℂ) (mode nSample rank size : Nat) (S : EleStore)
    (o : Nat → MainOr EleCfg) (a : PhysAcc) : PhysAcc :=
  let r := splitLoop nSample rank size
  (List.range' r.1 (r.2 - r.1)).foldl (mainStep g H T lib mode S o) (PhysAcc.clear a.st a.grn.loc1 a.grn.locDC)

/-- `VMCMainCal_fsz` (`/repo/src/mVMC/vmccal_fsz.c:67-225`). -/
noncomputable def vmcMainCalF (g : GrnEnv) (H : HamPar) (lib : SkLib ℂ) (nSample rank size : Nat) (S : EleStore)
    (o : Nat → MainOr FCfg) (a : PhysAcc) : PhysAcc :=
  let r := splitLoop nSample rank size
  (List.range' r.1 (r.2 - r.1)).foldl (mainStepF g H lib S o) (PhysAcc.clear a.st a.grn.loc1 a.grn.locDC)

/-! ### groups and averages -/

/-- number of processes in group `γ` (`comm_child1`) of `np` processes with `NSplitSize = S`; process `k` belongs to group `k/S` and has rank
`k%S` there (`/repo/src/mVMC/vmcmain.c:239-247`). -/
def groupSize (np S γ : Nat) : Nat := min S (np - γ * S)

/-- number of groups (`/repo/src/mVMC/vmcmain.c:239`) -/
def groupCount (np S : Nat) : Nat := (np + S - 1) / S

/-- `Wc`, `Etot`, `Etot2`, `Sztot`, `Sztot2` after `WeightAverageWE` (`/repo/src/mVMC/average.c:41-75`) of `np` processes. -/
structure AvgWE where
  wc : ℂ
  etot : ℂ
  etot2 : ℂ
  sz : ℂ
  sz2 : ℂ

/-- `WeightAverageWE` (`/repo/src/mVMC/average.c:41-75`): all-reduce, then multiply by `1.0/Wc`. -/
noncomputable def weightAverageWE (np : Nat) (acc : Nat → PhysAcc) : AvgWE :=
  let wc := sumLoop np fun k => (acc k).wc
  let invW := 1 / wc
  ⟨wc, sumLoop np (fun k => (acc k).etot) * invW, sumLoop np (fun k => (acc k).etot2) * invW,
    sumLoop np (fun k => (acc k).sz) * invW, sumLoop np (fun k => (acc k).sz2) * invW⟩

/-- `WeightAverageGreenFunc` (`/repo/src/mVMC/average.c:200-240`, `weightAverageReduce_fcmp` 276-301) on rank 0 for one of the arrays; runs after
`WeightAverageWE`, so `Wc` is the total weight. -/
noncomputable def weightAverageGreen (np : Nat) (wc : ℂ) (arr : Nat → Nat → ℂ) (i : Nat) : ℂ := sumLoop np (fun k => arr k i) * (1 / wc)

end MVMC
