import Verif.Model.MainCal

/-!
# Model of the real mode (`AllComplexFlag == 0`)

`/repo/src/mVMC/locgrn_real.c`, `/repo/src/mVMC/locgrn_fsz_real.c`, `/repo/src/mVMC/calham_real.c`, `/repo/src/mVMC/calham_fsz_real.c`,
`/repo/src/mVMC/qp_real.c`, `/repo/src/mVMC/vmcmake_real.c`, `/repo/src/mVMC/vmcmake_fsz_real.c` and the `AllComplexFlag==0` branches of `VMCMainCal`,
`VMCMainCal_fsz` and `vmcmain.c`. The update functions of `pfupdate*_real.c` and `CalculateMAll*_real` are `Verif.Model.PfUpdate` over `ℝ`.

These files have no Boltzmann machine and no complex conjugation. Proposals and configuration tables are the ones of
`Verif.Model.Sampler` and `Verif.Model.SamplerFsz` (the real samplers call the same functions). `LogProjRatio`/`ProjRatio` are shared by both modes.
Not modelled: the averages of `NVMCCalMode==0` (`Verif.Model.SR`), `GreenFuncN_real`.
-/
namespace MVMC

/-- `AllComplexFlag` from the flags in the headers of the parameter files (`/repo/src/mVMC/readdef.c:641-642`). The flags of
the transfer, InterAll, `QPTrans` and Boltzmann-machine files are not part of the sum. -/
def allComplexFlag (gutzwiller jastrow dh2 dh4 orbital : Nat) : Nat := gutzwiller + jastrow + dh2 + dh4 + orbital

/-- What the real mode reads from global memory: `Proj`, `SlaterElm_real` (`slt`), `QPFullWeight` (`w`, a complex array), `PfM_real` and `InvM_real`
(`st`). (`/repo/src/mVMC/include/global.h:190-260`) -/
structure RealEnv where
  p : PfPar
  q : ProjPar
  Proj : Nat → ℂ
  slt : Nat → ℝ
  w : Nat → ℂ
  nQP : Nat
  st : PfState ℝ

/-- `SlaterElm_real[tmp_i] = creal(SlaterElm[tmp_i])`, `InvM_real[tmp_i] = creal(InvM[tmp_i])`
(`/repo/src/mVMC/vmcmain.c:372-391`, again 555-595); `PfM_real` points to the end of `InvM_real` and is copied with it. -/
noncomputable def GrnEnv.real (g : GrnEnv) (st : PfState ℝ) : RealEnv :=
  ⟨g.p, g.q, g.Proj, fun i => (g.slt i).re, g.w, g.nQP, st⟩

/-- `InvM[tmp_i] = InvM_real[tmp_i]` (`/repo/src/mVMC/vmccal.c:129`, `/repo/src/mVMC/vmccal_fsz.c:82`). -/
def PfState.cast (st : PfState ℝ) : PfState ℂ := ⟨fun q => (st.pfM q : ℂ), fun k => (st.invM k : ℂ)⟩

/-- `CalculateIP_real` (`/repo/src/mVMC/qp_real.c:53-71`), also inside `CalculateLogIP_real` (34-50), on one process. -/
noncomputable def calculateIPR (g : RealEnv) (pfM : Nat → ℝ) : ℝ := sumLoop g.nQP (fun q => (g.w q).re * pfM q)

/-! ### local Green functions -/

/-- `GreenFunc1_real` (`/repo/src/mVMC/locgrn_real.c:44-76`). -/
noncomputable def greenFunc1R (g : RealEnv) (ri rj s : Nat) (ip : ℝ) (projCnt : Arr) (c : EleCfg) : ℝ × EleCfg :=
  let N := g.p.Nsite
  if ri = rj then ((c.num (ri + s * N) : ℝ), c)
  else if c.num (ri + s * N) = 1 ∨ c.num (rj + s * N) = 0 then (0, c)
  else
    let mj := (c.cfg (rj + s * N)).toNat
    let msj := mj + s * g.p.Ne
    let rsi := ri + s * N
    let rsj := rj + s * N
    let idx := c.idx.set msj ri
    let num := (c.num.set rsj 0).set rsi 1
    let projNew := updateProjCnt g.q rj ri projCnt num
    let z := projRatio g.q.NProj g.Proj projNew projCnt
    let z := z * calculateIPR g (calculateNewPfM g.p g.slt mj s idx 0 g.st)
    (z / ip, { c with idx := idx.set msj rj, num := (num.set rsj 1).set rsi 0 })

/-- The end of `GreenFunc2_real` (`/repo/src/mVMC/locgrn_real.c:132-164`), reached when no two operators share an orbital. -/
noncomputable def greenFunc2HopR (g : RealEnv) (ri rj rk rl s t : Nat) (ip : ℝ) (projCnt : Arr) (c : EleCfg) :
    ℝ × EleCfg :=
  let N := g.p.Nsite
  let rsi := ri + s * N
  let rsj := rj + s * N
  let rtk := rk + t * N
  let rtl := rl + t * N
  if c.num rsi = 1 ∨ c.num rsj = 0 ∨ c.num rtk = 1 ∨ c.num rtl = 0 then (0, c)
  else
    let mj := (c.cfg (rj + s * N)).toNat
    let ml := (c.cfg (rl + t * N)).toNat
    let msj := mj + s * g.p.Ne
    let mtl := ml + t * g.p.Ne
    let idx := c.idx.set mtl rk
    let num := (c.num.set rtl 0).set rtk 1
    let projNew := updateProjCnt g.q rl rk projCnt num
    let idx := idx.set msj ri
    let num := (num.set rsj 0).set rsi 1
    let projNew := updateProjCnt g.q rj ri projNew num
    let z := projRatio g.q.NProj g.Proj projNew projCnt
    let z := z * calculateIPR g (calculateNewPfMTwo g.p g.slt ml t mj s idx 0 g.st)
    (z / ip,
      { c with
        idx := (idx.set mtl rl).set msj rj
        num := (((num.set rtl 1).set rtk 0).set rsj 1).set rsi 0 })

/-- `GreenFunc2_real` (`/repo/src/mVMC/locgrn_real.c:80-164`). -/
noncomputable def greenFunc2R (g : RealEnv) (ri rj rk rl s t : Nat) (ip : ℝ) (projCnt : Arr) (c : EleCfg) :
    ℝ × EleCfg :=
  let N := g.p.Nsite
  let rsi := ri + s * N
  let rsj := rj + s * N
  let rtk := rk + t * N
  if s = t then
    if rk = rl then
      if c.num rtk = 0 then (0, c) else greenFunc1R g ri rj s ip projCnt c
    else if rj = rl then (0, c)
    else if ri = rl then
      if c.num rsi = 0 then (0, c)
      else if rj = rk then (1 - (c.num rsj : ℝ), c)
      else
        let x := greenFunc1R g rk rj s ip projCnt c
        (-x.1, x.2)
    else if rj = rk then
      if c.num rsj = 1 then (0, c)
      else if ri = rl then ((c.num rsi : ℝ), c)
      else greenFunc1R g ri rl s ip projCnt c
    else if ri = rk then (0, c)
    else if ri = rj then
      if c.num rsi = 0 then (0, c) else greenFunc1R g rk rl s ip projCnt c
    else greenFunc2HopR g ri rj rk rl s t ip projCnt c
  else
    if rk = rl then
      if c.num rtk = 0 then (0, c)
      else if ri = rj then ((c.num rsi : ℝ), c)
      else greenFunc1R g ri rj s ip projCnt c
    else if ri = rj then
      if c.num rsi = 0 then (0, c) else greenFunc1R g rk rl t ip projCnt c
    else greenFunc2HopR g ri rj rk rl s t ip projCnt c

/-! ### general-Sz mode (`/repo/src/mVMC/locgrn_fsz_real.c`) -/

/-- `GreenFunc1_fsz_real` (`/repo/src/mVMC/locgrn_fsz_real.c:37-71`). -/
noncomputable def greenFunc1FR (g : RealEnv) (ri rj s : Nat) (ip : ℝ) (projCnt : Arr) (c : FCfg) : ℝ × FCfg :=
  let N := g.p.Nsite
  if ri = rj then ((c.num (ri + s * N) : ℝ), c)
  else if c.num (ri + s * N) = 1 ∨ c.num (rj + s * N) = 0 then (0, c)
  else
    let mj := (c.cfg (rj + s * N)).toNat
    let msj := mj
    let rsi := ri + s * N
    let rsj := rj + s * N
    let idx := c.idx.set msj ri
    let spn := c.spn.set msj s
    let num := (c.num.set rsj 0).set rsi 1
    let projNew := updateProjCnt g.q rj ri projCnt num
    let z := projRatio g.q.NProj g.Proj projNew projCnt
    let z := z * calculateIPR g (calculateNewPfMFsz g.p g.slt mj s idx spn 0 g.st)
    (z / ip,
      { c with idx := idx.set msj rj, spn := spn.set msj s, num := (num.set rsj 1).set rsi 0 })

/-- `GreenFunc1_fsz2_real` (`/repo/src/mVMC/locgrn_fsz_real.c:75-110`). -/
noncomputable def greenFunc1F2R (g : RealEnv) (ri rj s t : Nat) (ip : ℝ) (projCnt : Arr) (c : FCfg) : ℝ × FCfg :=
  let N := g.p.Nsite
  if c.num (ri + s * N) = 1 ∨ c.num (rj + t * N) = 0 then (0, c)
  else
    let mj := (c.cfg (rj + t * N)).toNat
    let rsi := ri + s * N
    let rtj := rj + t * N
    let idx := c.idx.set mj ri
    let spn := c.spn.set mj s
    let num := (c.num.set rtj 0).set rsi 1
    let projNew := updateProjCntFsz g.q rj ri projCnt num
    let z := projRatio g.q.NProj g.Proj projNew projCnt
    let z := z * calculateIPR g (calculateNewPfMFsz g.p g.slt mj s idx spn 0 g.st)
    (z / ip,
      { c with idx := idx.set mj rj, spn := spn.set mj t, num := (num.set rtj 1).set rsi 0 })

/-- The end of `GreenFunc2_fsz_real` (`/repo/src/mVMC/locgrn_fsz_real.c:167-203`). -/
noncomputable def greenFunc2FHopR (g : RealEnv) (ri rj rk rl s t : Nat) (ip : ℝ) (projCnt : Arr) (c : FCfg) : ℝ × FCfg :=
  let N := g.p.Nsite
  let rsi := ri + s * N
  let rsj := rj + s * N
  let rtk := rk + t * N
  let rtl := rl + t * N
  if c.num rsi = 1 ∨ c.num rsj = 0 ∨ c.num rtk = 1 ∨ c.num rtl = 0 then (0, c)
  else
    let mj := (c.cfg (rj + s * N)).toNat
    let ml := (c.cfg (rl + t * N)).toNat
    let msj := mj
    let mtl := ml
    let idx := c.idx.set mtl rk
    let spn := c.spn.set mtl t
    let num := (c.num.set rtl 0).set rtk 1
    let projNew := updateProjCnt g.q rl rk projCnt num
    let idx := idx.set msj ri
    let spn := spn.set msj s
    let num := (num.set rsj 0).set rsi 1
    let projNew := updateProjCnt g.q rj ri projNew num
    let z := projRatio g.q.NProj g.Proj projNew projCnt
    let z := z * calculateIPR g (calculateNewPfMTwoFsz g.p g.slt ml t mj s idx spn 0 g.st)
    (z / ip,
      { c with
        idx := (idx.set mtl rl).set msj rj
        spn := (spn.set mtl t).set msj s
        num := (((num.set rtl 1).set rtk 0).set rsj 1).set rsi 0 })

/-- `GreenFunc2_fsz_real` (`/repo/src/mVMC/locgrn_fsz_real.c:115-203`). -/
noncomputable def greenFunc2FR (g : RealEnv) (ri rj rk rl s t : Nat) (ip : ℝ) (projCnt : Arr) (c : FCfg) : ℝ × FCfg :=
  let N := g.p.Nsite
  let rsi := ri + s * N
  let rsj := rj + s * N
  let rtk := rk + t * N
  if s = t then
    if rk = rl then
      if c.num rtk = 0 then (0, c) else greenFunc1FR g ri rj s ip projCnt c
    else if rj = rl then (0, c)
    else if ri = rl then
      if c.num rsi = 0 then (0, c)
      else if rj = rk then (1 - (c.num rsj : ℝ), c)
      else
        let x := greenFunc1FR g rk rj s ip projCnt c
        (-x.1, x.2)
    else if rj = rk then
      if c.num rsj = 1 then (0, c)
      else if ri = rl then ((c.num rsi : ℝ), c)
      else greenFunc1FR g ri rl s ip projCnt c
    else if ri = rk then (0, c)
    else if ri = rj then
      if c.num rsi = 0 then (0, c) else greenFunc1FR g rk rl s ip projCnt c
    else greenFunc2FHopR g ri rj rk rl s t ip projCnt c
  else
    if rk = rl then
      if c.num rtk = 0 then (0, c)
      else if ri = rj then ((c.num rsi : ℝ), c)
      else greenFunc1FR g ri rj s ip projCnt c
    else if ri = rj then
      if c.num rsi = 0 then (0, c) else greenFunc1FR g rk rl t ip projCnt c
    else greenFunc2FHopR g ri rj rk rl s t ip projCnt c

/-- The end of `GreenFunc2_fsz2_real` (`/repo/src/mVMC/locgrn_fsz_real.c:291-329`). -/
noncomputable def greenFunc2F2HopR (g : RealEnv) (ri rj rk rl s t u v : Nat) (ip : ℝ) (projCnt : Arr) (c : FCfg) : ℝ × FCfg :=
  let N := g.p.Nsite
  let XI := ri + s * N
  let XJ := rj + t * N
  let XK := rk + u * N
  let XL := rl + v * N
  if c.num XI = 1 ∨ c.num XJ = 0 ∨ c.num XK = 1 ∨ c.num XL = 0 then (0, c)
  else
    let mj := (c.cfg XJ).toNat
    let ml := (c.cfg XL).toNat
    let idx := c.idx.set ml rk
    let spn := c.spn.set ml u
    let num := (c.num.set XL 0).set XK 1
    let projNew := updateProjCntFsz g.q rl rk projCnt num
    let idx := idx.set mj ri
    let spn := spn.set mj s
    let num := (num.set XJ 0).set XI 1
    let projNew := updateProjCntFsz g.q rj ri projNew num
    let z := projRatio g.q.NProj g.Proj projNew projCnt
    let z := z * calculateIPR g (calculateNewPfMTwoFsz g.p g.slt ml u mj s idx spn 0 g.st)
    (z / ip,
      { c with
        idx := (idx.set ml rl).set mj rj
        spn := (spn.set ml v).set mj t
        num := (((num.set XL 1).set XK 0).set XJ 1).set XI 0 })

/-- `GreenFunc2_fsz2_real` (`/repo/src/mVMC/locgrn_fsz_real.c:207-329`). -/
noncomputable def greenFunc2F2R (g : RealEnv) (ri rj rk rl s t u v : Nat) (ip : ℝ) (projCnt : Arr) (c : FCfg) : ℝ × FCfg :=
  let N := g.p.Nsite
  let XI := ri + s * N
  let XJ := rj + t * N
  let XK := rk + u * N
  let XL := rl + v * N
  if XI = XJ then
    if XJ = XK then
      if XK = XL then ((c.num XI : ℝ), c)                                            -- 1
      else if c.num XI = 1 then (0, c) else greenFunc1F2R g rk rl u v ip projCnt c     -- 2
    else if XJ = XL then (0, c)                                                      -- 3
    else if XK = XL then ((c.num XI : ℝ) * (c.num XK : ℝ), c)                         -- 4
    else if c.num XI = 0 then (0, c) else greenFunc1F2R g rk rl u v ip projCnt c       -- 5
  else if XI = XK then (0, c)                                                        -- 6, 7, 8
  else if XI = XL then
    if XJ = XK then ((c.num XI : ℝ) * (1 - (c.num XJ : ℝ)), c)                        -- 9
    else if c.num XI = 0 then (0, c)                                                 -- 10
    else
      let x := greenFunc1F2R g rk rj u t ip projCnt c
      (-1 * x.1, x.2)
  else if XJ = XK then
    if XK = XL then                                                                  -- 11
      if c.num XJ = 0 then (0, c) else greenFunc1F2R g ri rj s t ip projCnt c
    else if c.num XJ = 1 then (0, c) else greenFunc1F2R g ri rl s v ip projCnt c       -- 12
  else if XJ = XL then (0, c)                                                        -- 13
  else if XK = XL then                                                               -- 14
    if c.num XK = 0 then (0, c) else greenFunc1F2R g ri rj s t ip projCnt c
  else greenFunc2F2HopR g ri rj rk rl s t u v ip projCnt c

/-! ### local energy -/

/-- private tables of a thread (`/repo/src/mVMC/calham_real.c:72-81`) -/
def privSR (g : RealEnv) (c junk : EleCfg) : EleCfg :=
  { idx := privCopy (2 * g.p.Ne) c.idx junk.idx, cfg := c.cfg, num := privCopy (2 * g.p.Nsite) c.num junk.num }

/-- private tables of a thread (`/repo/src/mVMC/calham_fsz_real.c:57-70`) -/
def privFR (g : RealEnv) (c junk : FCfg) : FCfg :=
  { idx := privCopy (2 * g.p.Ne) c.idx junk.idx, spn := privCopy (2 * g.p.Ne) c.spn junk.spn, cfg := c.cfg,
    num := privCopy (2 * g.p.Nsite) c.num junk.num }

/-- The loops that use number operators only (`/repo/src/mVMC/calham_real.c:92-118`). -/
noncomputable def diagLoopsR (N : Nat) (H : HamPar) (sched : Nat → Nat → Nat) (τ : Nat) (num : Arr) (e : ℝ) : ℝ :=
  let n0 := fun r => num r
  let n1 := fun r => num (r + N)
  let e := ompFor (sched 0) τ H.nCI (fun e i => e + H.pCI i * n0 (H.ci i) * n1 (H.ci i)) e
  let e := ompFor (sched 1) τ H.nCO (fun e i =>
    e + H.pCO i * ((n0 (H.co i 0) + n1 (H.co i 0) : Int) : ℝ) * ((n0 (H.co i 1) + n1 (H.co i 1) : Int) : ℝ)) e
  ompFor (sched 2) τ H.nHU (fun e i =>
    e - H.pHU i * ((n0 (H.hu i 0) * n0 (H.hu i 1) + n1 (H.hu i 0) * n1 (H.hu i 1) : Int) : ℝ)) e

/-- One thread of `CalculateHamiltonian_real` (`/repo/src/mVMC/calham_real.c:71-204`); `creal` of the hopping and interaction parameters in 136 and 188. -/
noncomputable def hamThreadR (g : RealEnv) (H : HamPar) (sched : Nat → Nat → Nat) (τ : Nat) (junk : EleCfg) (ip : ℝ) (projCnt : Arr)
    (c : EleCfg) : ℝ :=
  let my := privSR g c junk
  let st := (diagLoopsR g.p.Nsite H sched τ c.num 0, my)
  let st := ompFor (sched 3) τ H.nTR (fun st i =>
    let x := greenFunc1R g (H.tr i 0) (H.tr i 2) (H.tr i 3) ip projCnt st.2
    (st.1 - (H.pTR i).re * x.1, x.2)) st
  let st := ompFor (sched 4) τ H.nPH (fun st i =>
    let x := greenFunc2R g (H.ph i 0) (H.ph i 1) (H.ph i 0) (H.ph i 1) 0 1 ip projCnt st.2
    (st.1 + H.pPH i * x.1, x.2)) st
  let st := ompFor (sched 5) τ H.nEX (fun st i =>
    let x := greenFunc2R g (H.ex i 0) (H.ex i 1) (H.ex i 1) (H.ex i 0) 0 1 ip projCnt st.2
    let y := greenFunc2R g (H.ex i 0) (H.ex i 1) (H.ex i 1) (H.ex i 0) 1 0 ip projCnt x.2
    (st.1 + H.pEX i * (x.1 + y.1), y.2)) st
  let st := ompFor (sched 6) τ H.nIA (fun st i =>
    let x := greenFunc2R g (H.ia i 0) (H.ia i 2) (H.ia i 4) (H.ia i 6) (H.ia i 3) (H.ia i 7) ip projCnt st.2
    (st.1 + (H.pIA i).re * x.1, x.2)) st
  st.1

/-- `CalculateHamiltonian_real` (`/repo/src/mVMC/calham_real.c:43-210`): the reduction adds the threads in the order `order`. -/
noncomputable def calculateHamiltonianR (g : RealEnv) (H : HamPar) (sched : Nat → Nat → Nat) (order : List Nat) (junk : Nat → EleCfg)
    (ip : ℝ) (projCnt : Arr) (c : EleCfg) : ℝ :=
  order.foldl (fun e τ => e + hamThreadR g H sched τ (junk τ) ip projCnt c) 0

/-- One thread of `CalculateHamiltonian_fsz_real` (`/repo/src/mVMC/calham_fsz_real.c:56-173`); a product of a complex parameter
and a `double` is converted to `double` (114, 117, 160, 163). -/
noncomputable def hamThreadFR (g : RealEnv) (H : HamPar) (sched : Nat → Nat → Nat) (τ : Nat) (junk : FCfg) (ip : ℝ) (projCnt : Arr)
    (c : FCfg) : ℝ :=
  let my := privFR g c junk
  let st := (diagLoopsR g.p.Nsite H sched τ c.num 0, my)
  let st := ompFor (sched 3) τ H.nTR (fun st i =>
    let x := if H.tr i 1 = H.tr i 3 then greenFunc1FR g (H.tr i 0) (H.tr i 2) (H.tr i 1) ip projCnt st.2
      else greenFunc1F2R g (H.tr i 0) (H.tr i 2) (H.tr i 1) (H.tr i 3) ip projCnt st.2
    (st.1 - (H.pTR i).re * x.1, x.2)) st
  let st := ompFor (sched 4) τ H.nPH (fun st i =>
    let x := greenFunc2FR g (H.ph i 0) (H.ph i 1) (H.ph i 0) (H.ph i 1) 0 1 ip projCnt st.2
    (st.1 + H.pPH i * x.1, x.2)) st
  let st := ompFor (sched 5) τ H.nEX (fun st i =>
    let x := greenFunc2FR g (H.ex i 0) (H.ex i 1) (H.ex i 1) (H.ex i 0) 0 1 ip projCnt st.2
    let y := greenFunc2FR g (H.ex i 0) (H.ex i 1) (H.ex i 1) (H.ex i 0) 1 0 ip projCnt x.2
    (st.1 + H.pEX i * (x.1 + y.1), y.2)) st
  let st := ompFor (sched 6) τ H.nIA (fun st i =>
    let x := if H.ia i 1 = H.ia i 3 ∧ H.ia i 5 = H.ia i 7
      then greenFunc2FR g (H.ia i 0) (H.ia i 2) (H.ia i 4) (H.ia i 6) (H.ia i 1) (H.ia i 5) ip projCnt st.2
      else greenFunc2F2R g (H.ia i 0) (H.ia i 2) (H.ia i 4) (H.ia i 6) (H.ia i 1) (H.ia i 3) (H.ia i 5) (H.ia i 7) ip projCnt st.2
    (st.1 + (H.pIA i).re * x.1, x.2)) st
  st.1

/-- `CalculateHamiltonian_fsz_real` (`/repo/src/mVMC/calham_fsz_real.c:32-177`). -/
noncomputable def calculateHamiltonianFR (g : RealEnv) (H : HamPar) (sched : Nat → Nat → Nat) (order : List Nat) (junk : Nat → FCfg)
    (ip : ℝ) (projCnt : Arr) (c : FCfg) : ℝ :=
  order.foldl (fun e τ => e + hamThreadFR g H sched τ (junk τ) ip projCnt c) 0

/-- `CalculateHamiltonian0_real` (`/repo/src/mVMC/calham_real.c:351-393`). -/
noncomputable def calculateHamiltonian0R (N : Nat) (H : HamPar) (sched : Nat → Nat → Nat) (order : List Nat) (num : Arr) : ℝ :=
  order.foldl (fun e τ => e + diagLoopsR N H sched τ num 0) 0

/-! ### the chain -/

/-- `TmpEleProjCnt`, (`PfM_real`, `InvM_real`), the number whose logarithm is `logIpOld`. (`/repo/src/mVMC/vmcmake_real.c:45-66`) -/
structure RMem where
  projCnt : Arr
  ps : PfState ℝ
  ip : ℝ

/-- `projCntNew`, `pfMNew_real`, the number whose logarithm is `logIpNew`. (`/repo/src/mVMC/vmcmake_real.c:45-66`) -/
structure RNew where
  projCnt : Arr
  pf : Nat → ℝ
  ip : ℝ

/-- `w > genrand_real2()` with `w = exp(2.0*(x+(logIpNew-logIpOld)))` and `if(!isfinite(w)) w = -1.0` (`/repo/src/mVMC/vmcmake_real.c:175-181`);
`CalculateLogIP_real` returns `clog(ip)` converted to `double`, its real part (`/repo/src/mVMC/qp_real.c:49`). -/
noncomputable def metropolisR (x ipOld ipNew : ℝ) (u : Nat) : Bool :=
  open Classical in
  decide (ipOld ≠ 0 ∧ ipNew ≠ 0 ∧
    Real.exp (2 * (x + ((Complex.log ipNew).re - (Complex.log ipOld).re))) > (u : ℝ) / 4294967296)

/-- All that `VMCMakeSample_real` does with its data (`/repo/src/mVMC/vmcmake_real.c:150-302`). -/
noncomputable def szHooksR (g : RealEnv) (lib : SkLib ℝ) (mFail : EleCfg → RMem → PfState ℝ × ℝ) : Hooks RMem RNew where
  propHop c' h b :=
    let pf := calculateNewPfM g.p g.slt h.mi h.s c'.idx 0 b.ps
    { projCnt := updateProjCnt g.q h.ri h.rj b.projCnt c'.num
      pf := pf
      ip := calculateIPR g pf }
  propExch c1 c2 h h2 b :=
    let pf := calculateNewPfMTwo g.p g.slt h.mi h.s h2.mi h2.s c2.idx 0 b.ps
    { projCnt := updateProjCnt g.q h2.ri h2.rj (updateProjCnt g.q h.ri h.rj b.projCnt c1.num) c2.num
      pf := pf
      ip := calculateIPR g pf }
  accept b n u := metropolisR (logProjRatio g.q.NProj g.Proj n.projCnt b.projCnt) b.ip n.ip u
  commitHop c' h b n :=
    { projCnt := fun i => if i < g.q.NProj then n.projCnt i else b.projCnt i
      ps := updateMAll g.p g.slt h.mi h.s c'.idx 0 g.nQP b.ps
      ip := n.ip }
  commitExch c' h h2 b n :=
    { projCnt := fun i => if i < g.q.NProj then n.projCnt i else b.projCnt i
      ps := updateMAllTwo g.p g.slt h.mi h.s h2.mi h2.s h.ri c'.idx 0 g.nQP b.ps
      ip := n.ip }
  refresh c b :=
    match calculateMAll g.p lib g.slt 0 g.nQP (rsSz g.p c.idx) b.ps with
    | some st => { b with ps := st, ip := calculateIPR g st.pfM }
    | none => { b with ps := (mFail c b).1, ip := (mFail c b).2 }

/-- The same for `VMCMakeSample_fsz_real` (`/repo/src/mVMC/vmcmake_fsz_real.c:140-390`). -/
noncomputable def fszHooksR (g : RealEnv) (lib : SkLib ℝ) (mFail : FCfg → RMem → PfState ℝ × ℝ) : FHooks RMem RNew where
  propMove c' h b :=
    let pf := calculateNewPfMFsz g.p g.slt h.mi h.t c'.idx c'.spn 0 b.ps
    { projCnt := if h.s = h.t then updateProjCnt g.q h.ri h.rj b.projCnt c'.num else updateProjCntFsz g.q h.ri h.rj b.projCnt c'.num
      pf := pf
      ip := calculateIPR g pf }
  propExch c1 c2 h h2 b :=
    let pf := calculateNewPfMTwoFsz g.p g.slt h.mi h.s h2.mi h2.s c2.idx c2.spn 0 b.ps
    { projCnt := updateProjCnt g.q h2.ri h2.rj (updateProjCnt g.q h.ri h.rj b.projCnt c1.num) c2.num
      pf := pf
      ip := calculateIPR g pf }
  accept b n u := metropolisR (logProjRatio g.q.NProj g.Proj n.projCnt b.projCnt) b.ip n.ip u
  commitMove c' h b n :=
    { projCnt := fun i => if i < g.q.NProj then n.projCnt i else b.projCnt i
      ps := updateMAllFsz g.p g.slt h.mi h.t c'.idx c'.spn 0 g.nQP b.ps
      ip := n.ip }
  commitExch c' h h2 b n :=
    { projCnt := fun i => if i < g.q.NProj then n.projCnt i else b.projCnt i
      ps := updateMAllTwoFsz g.p g.slt h.mi h.s h2.mi h2.s h.ri c'.idx c'.spn 0 g.nQP b.ps
      ip := n.ip }
  refresh c b :=
    match calculateMAll g.p lib g.slt 0 g.nQP (rsFsz g.p c.idx c.spn) b.ps with
    | some st => { b with ps := st, ip := calculateIPR g st.pfM }
    | none => { b with ps := (mFail c b).1, ip := (mFail c b).2 }

/-- The start of `VMCMakeSample_real` after the configuration `c` and its counters are in place (`/repo/src/mVMC/vmcmake_real.c:68-74,102-105`). -/
noncomputable def szStartR (g : RealEnv) (lib : SkLib ℝ) (c : EleCfg) (projCnt : Arr) (st0 : PfState ℝ) : Option RMem :=
  match calculateMAll g.p lib g.slt 0 g.nQP (rsSz g.p c.idx) st0 with
  | none => none
  | some st => some ⟨projCnt, st, calculateIPR g st.pfM⟩

/-- The same for `VMCMakeSample_fsz_real` (`/repo/src/mVMC/vmcmake_fsz_real.c:60-102`). -/
noncomputable def fszStartR (g : RealEnv) (lib : SkLib ℝ) (c : FCfg) (projCnt : Arr) (st0 : PfState ℝ) : Option RMem :=
  match calculateMAll g.p lib g.slt 0 g.nQP (rsFsz g.p c.idx c.spn) st0 with
  | none => none
  | some st => some ⟨projCnt, st, calculateIPR g st.pfM⟩

/-- `saveEleConfig` in `VMCMakeSample_real` (`/repo/src/mVMC/vmcmake_real.c:308`); `saveRBMCnt` is not called. -/
def saveEleConfigR (g : RealEnv) (sample : Nat) (c : EleCfg) (b : RMem) (S : EleStore) : EleStore where
  idx := copyAt S.idx (sample * g.p.Nsize) g.p.Nsize c.idx
  cfg := copyAt S.cfg (sample * g.p.Nsite2) g.p.Nsite2 c.cfg
  num := copyAt S.num (sample * g.p.Nsite2) g.p.Nsite2 c.num
  proj := copyAt S.proj (sample * g.q.NProj) g.q.NProj b.projCnt
  spn := S.spn
  rbm := S.rbm

/-- `saveEleConfig_fsz` in `VMCMakeSample_fsz_real` (`/repo/src/mVMC/vmcmake_fsz_real.c:396`). -/
def saveEleConfigFR (g : RealEnv) (sample : Nat) (c : FCfg) (b : RMem) (S : EleStore) : EleStore where
  idx := copyAt S.idx (sample * g.p.Nsize) g.p.Nsize c.idx
  cfg := copyAt S.cfg (sample * g.p.Nsite2) g.p.Nsite2 c.cfg
  num := copyAt S.num (sample * g.p.Nsite2) g.p.Nsite2 c.num
  proj := copyAt S.proj (sample * g.q.NProj) g.q.NProj b.projCnt
  spn := copyAt S.spn (sample * g.p.Nsize) g.p.Nsize c.spn
  rbm := S.rbm

/-- The stores of one sampling run, in program order (`saved`: newest first). (`/repo/src/mVMC/vmcmake_real.c:304-310`) -/
def storeRunR (g : RealEnv) (saved : List (Nat × SState RMem)) (S : EleStore) : EleStore :=
  saved.reverse.foldl (fun S x => saveEleConfigR g x.1 x.2.c x.2.b S) S

/-- (`/repo/src/mVMC/vmcmake_fsz_real.c:391-400`) -/
def storeRunFR (g : RealEnv) (saved : List (Nat × FState RMem)) (S : EleStore) : EleStore :=
  saved.reverse.foldl (fun S x => saveEleConfigFR g x.1 x.2.c x.2.b S) S

/-! ### the loop over the stored samples -/

/-- What the environment decides for a sample, as `MainOr`; the energy is a `double` and a failed `CalculateMAll_real` leaves real arrays.
(`/repo/src/mVMC/vmccal.c:115-290`) -/
structure MainOrR (C : Type) where
  sched : Nat → Nat → Nat
  order : List Nat
  junk : Nat → C
  gSched : Nat → Nat → Nat
  gOrder : List Nat
  gOrder' : List Nat
  gJunk : Nat → C
  mFail : PfState ℝ
  eZero : Option ℝ
  gZero : GrnAcc → GrnAcc

/-- The sums and (`PfM_real`, `InvM_real`); `ps.st` is (`PfM`, `InvM`). (`/repo/src/mVMC/include/global.h:240-300`) -/
structure PhysAccR where
  a : PhysAcc
  stR : PfState ℝ

/-- One iteration of the sample loop of `VMCMainCal` (`/repo/src/mVMC/vmccal.c:115-307`) in real mode. `InvM` is overwritten with `InvM_real` before
the status is looked at; the Green functions of `NVMCCalMode==1` are the complex ones, they read `InvM`, `PfM`, `SlaterElm`, the complex
`QPFullWeight` and, with `FlagRBM`, the Boltzmann machine and the stored `RBMCnt`. -/
noncomputable def mainStepR (g : GrnEnv) (H : HamPar) (T : GrnTab) (lib : SkLib ℝ) (mode : Nat) (S : EleStore) (o : Nat → MainOrR EleCfg)
    (a : PhysAccR) (sample : Nat) : PhysAccR :=
  let c := loadCfg g S sample
  let projCnt := loadProj g S sample
  let rbmCnt := loadRBM g S sample
  match calculateMAll g.p lib (g.real a.stR).slt 0 g.nQP (rsSz g.p c.idx) a.stR with
  | none => { a := { a.a with st := (o sample).mFail.cast }, stR := (o sample).mFail }
  | some st =>
    let a : PhysAccR := { a := { a.a with st := st.cast }, stR := st }
    let ip := calculateIPR (g.real st) st.pfM
    if ip = 0 then
      match (o sample).eZero with
      | none => a
      | some e =>
        let a := { a with a := addE a.a (e : ℂ) }
        if mode = 1 then { a with a := { a.a with grn := (o sample).gZero a.a.grn } } else a
    else
      let e := calculateHamiltonianR (g.real st) H (o sample).sched (o sample).order (o sample).junk ip projCnt c
      let a := { a with a := addE a.a (e : ℂ) }
      if mode = 1 then
        let gr := calculateGreenFunc { g with st := st.cast } T (o sample).gSched (o sample).gOrder (o sample).gOrder' (o sample).gJunk 1 (ip : ℂ)
          projCnt rbmCnt c a.a.grn
        { a with a := { a.a with grn := gr } }
      else a

/-- One iteration of the sample loop of `VMCMainCal_fsz` (`/repo/src/mVMC/vmccal_fsz.c:67-225`) in real mode, energies and `Sz`. -/
noncomputable def mainStepFR (g : GrnEnv) (H : HamPar) (lib : SkLib ℝ) (S : EleStore) (o : Nat → MainOrR FCfg)
    (a : PhysAccR) (sample : Nat) : PhysAccR :=
  let c := loadCfgF g S sample
  let projCnt := loadProj g S sample
  match calculateMAll g.p lib (g.real a.stR).slt 0 g.nQP (rsFsz g.p c.idx c.spn) a.stR with
  | none => { a := { a.a with st := (o sample).mFail.cast }, stR := (o sample).mFail }
  | some st =>
    let a : PhysAccR := { a := { a.a with st := st.cast }, stR := st }
    let ip := calculateIPR (g.real st) st.pfM
    let Sz := calculateSzF g.p.Nsite c.num
    let add := fun e : ℝ => { a with a := { addE a.a (e : ℂ) with sz := a.a.sz + 1 * Sz, sz2 := a.a.sz2 + 1 * Sz * Sz } }
    if ip = 0 then
      match (o sample).eZero with
      | none => a
      | some e => add e
    else
      add (calculateHamiltonianFR (g.real st) H (o sample).sched (o sample).order (o sample).junk ip projCnt c)

/-- `VMCMainCal` in real mode (`/repo/src/mVMC/vmccal.c:108-307`). -/
noncomputable def vmcMainCalR (g : GrnEnv) (H : HamPar) (T : GrnTab) (lib : SkLib ℝ) (mode nSample rank size : Nat) (S : EleStore)
    (o : Nat → MainOrR EleCfg) (a : PhysAccR) : PhysAccR :=
  let r := splitLoop nSample rank size
  (List.range' r.1 (r.2 - r.1)).foldl (mainStepR g H T lib mode S o) ⟨PhysAcc.clear a.a.st a.a.grn.loc1 a.a.grn.locDC, a.stR⟩

/-- `VMCMainCal_fsz` in real mode (`/repo/src/mVMC/vmccal_fsz.c:67-225`). -/
noncomputable def vmcMainCalFR (g : GrnEnv) (H : HamPar) (lib : SkLib ℝ) (nSample rank size : Nat) (S : EleStore)
    (o : Nat → MainOrR FCfg) (a : PhysAccR) : PhysAccR :=
  let r := splitLoop nSample rank size
  (List.range' r.1 (r.2 - r.1)).foldl (mainStepFR g H lib S o) ⟨PhysAcc.clear a.a.st a.a.grn.loc1 a.a.grn.locDC, a.stR⟩

end MVMC
