import Verif.Model.CalHam
import Verif.Model.LocGrnN

/-!
# Model of the second-order local quantities of the Lanczos step

`/repo/src/mVMC/lslocgrn.c`, `/repo/src/mVMC/lslocgrn_real.c`. One model serves both files. `child` is the Pfaffian of three or more
moved electrons, as in `Model/LocGrnN.lean`: `none` for the complex file (undefined behaviour), `calculateNewPfMN` for the real file.
The real file has no Boltzmann machine and no complex conjugation; on real data the conjugation does nothing.

`none` is a division by zero in `UpdateMAll`/`UpdateMAllTwo`, or undefined behaviour. Functions return the value, the electron tables
and `InvM`/`PfM` as they are left behind. The parallel regions follow `Model/CalHam.lean`: arbitrary schedule, arbitrary workspace
content, arbitrary order of the reduction. The private copies of the electron tables are taken as complete; the shared loop counter of
those copies is modelled separately by `copyStep`.
-/
namespace MVMC

/-- `copyMAll` for one array (`/repo/src/mVMC/lslocgrn.c:804-816`, `/repo/src/mVMC/lslocgrn_real.c:382-394`) -/
def copyArr {K : Type} (n : Nat) (src dst : Nat → K) : Nat → K := (List.range n).foldl (fun a i => setAt a i (src i)) dst

/-- `copyMAll` (`/repo/src/mVMC/lslocgrn.c:804-816`, `/repo/src/mVMC/lslocgrn_real.c:382-394`) -/
def copyMAll {K : Type} (p : PfPar) (nQP : Nat) (src dst : PfState K) : PfState K :=
  { invM := copyArr (nQP * p.Nsize * p.Nsize) src.invM dst.invM, pfM := copyArr nQP src.pfM dst.pfM }

/-- One execution of a parallel region: assignment of iterations, order of the reduction, old content of the thread workspaces.
(`/repo/src/mVMC/lslocgrn.c:351-368`) -/
structure OmpRun where
  sched : Nat → Nat → Nat
  order : List Nat
  junk : Nat → EleCfg

/-- The parallel regions met by one call of `calHCA` or `calHCACA`, and the old content of the workspace for `oldInvM`, `oldPfM`.
(`/repo/src/mVMC/lslocgrn.c:236-447`) -/
structure LsRun where
  ham : OmpRun
  ham0 : OmpRun
  reg : OmpRun
  old : PfState ℂ

/-- `#pragma omp for` with a body that may be undefined (`/repo/src/mVMC/lslocgrn.c:373,385,401,425`) -/
def ompForO {σ : Type} (sched : Nat → Nat) (τ n : Nat) (body : σ → Nat → Option σ) (st : σ) : Option σ :=
  (List.range n).foldl (fun o i => o.bind (fun st => if sched i = τ then body st i else some st)) (some st)

/-- `myRsi[0] = a; myRsi[1] = b; …` (`/repo/src/mVMC/lslocgrn.c:389-394`) -/
def lst (l : List Nat) : Nat → Nat := fun k => l.getD k 0

/-- the value of a call of `GreenFuncN`, accumulated with a factor (`/repo/src/mVMC/lslocgrn.c:396-397`) -/
noncomputable def accN (g : GrnEnv) (child : Nat → (Nat → Nat) → Arr → Nat → Option ℂ) (ip : ℂ) (projCnt : Arr) (rbmCnt : Nat → ℂ)
    (rsi rsj : List Nat) (a : ℂ) (st : ℂ × EleCfg) : Option (ℂ × EleCfg) :=
  match greenFuncN g child ip projCnt rbmCnt st.2 rsi.length (lst rsi) (lst rsj) with
  | none => none
  | some x => some (st.1 + a * x.1, x.2)

/-- `checkGF1` (`/repo/src/mVMC/lslocgrn.c:207-233`, `/repo/src/mVMC/lslocgrn_real.c:141-167`) -/
noncomputable def checkGF1 (g : GrnEnv) (ri rj s : Nat) (ip : ℂ) (c : EleCfg) : ℂ × EleCfg :=
  let N := g.p.Nsite
  let mj := (c.cfg (rj + s * N)).toNat
  let msj := mj + s * g.p.Ne
  let rsi := ri + s * N
  let rsj := rj + s * N
  let idx := c.idx.set msj ri
  let num := (c.num.set rsj 0).set rsi 1
  let z := calculateIPLocal g.w (calculateNewPfM g.p g.slt mj s idx 0 g.st) 0 g.nQP
  (z / ip, { c with idx := idx.set msj rj, num := (num.set rsj 1).set rsi 0 })

/-- `calHCA1` (`/repo/src/mVMC/lslocgrn.c:236-297`, `/repo/src/mVMC/lslocgrn_real.c:180-231`). `UpdateMAll` divides by a number
proportional to each new Pfaffian. -/
noncomputable def calHCA1 (g : GrnEnv) (H : HamPar) (run : LsRun) (ri rj s : Nat) (ip : ℂ) (projCnt : Arr) (rbmCnt : Nat → ℂ)
    (c : EleCfg) : Option (ℂ × EleCfg × PfState ℂ) :=
  let N := g.p.Nsite
  let rsi := ri + s * N
  let rsj := rj + s * N
  let old := copyMAll g.p g.nQP g.st run.old
  let mj := (c.cfg rsj).toNat
  let c' : EleCfg :=
    { idx := c.idx.set (mj + s * g.p.Ne) ri
      cfg := (c.cfg.set rsj (-1)).set rsi mj
      num := (c.num.set rsj 0).set rsi 1 }
  let projNew := updateProjCnt g.q rj ri projCnt c'.num
  let rbmNew := updateRBMCnt g.rbm rj ri s rbmCnt
  let z := projRatioC g projNew projCnt
  let z := if g.flagRBM then z * rbmRatioOne g rbmNew rbmCnt else z
  if ∃ q < g.nQP, calculateNewPfM g.p g.slt mj s c'.idx 0 g.st q = 0 then none
  else
    let st := updateMAll g.p g.slt mj s c'.idx 0 g.nQP g.st
    let ipNew := calculateIPLocal g.w st.pfM 0 g.nQP
    let e := calculateHamiltonian { g with st := st } H run.ham.sched run.ham.order run.ham.junk ipNew projNew rbmNew c'
    let c'' : EleCfg :=
      { idx := c'.idx.set (mj + s * g.p.Ne) rj
        cfg := (c'.cfg.set rsj mj).set rsi (-1)
        num := (c'.num.set rsj 1).set rsi 0 }
    some (e * (starRingEnd ℂ) (z * ipNew / ip), c'', copyMAll g.p g.nQP old st)

/-- One thread of the parallel region of `calHCA2`
(`/repo/src/mVMC/lslocgrn.c:351-438`, `/repo/src/mVMC/lslocgrn_real.c:285-369`). -/
noncomputable def hcaThread (g : GrnEnv) (child : Nat → (Nat → Nat) → Arr → Nat → Option ℂ) (H : HamPar) (sched : Nat → Nat → Nat)
    (τ : Nat) (junk : EleCfg) (ri rj s : Nat) (ip : ℂ) (projCnt : Arr) (rbmCnt : Nat → ℂ) (c : EleCfg) : Option ℂ :=
  let N := g.p.Nsite
  let rsi := ri + s * N
  let rsj := rj + s * N
  let st := ((0 : ℂ), privS g c junk)
  let o := ompForO (sched 3) τ H.nTR (fun st i =>
    let x := greenFunc2 g (H.tr i 0) (H.tr i 2) ri rj (H.tr i 3) s ip projCnt rbmCnt st.2
    some (st.1 - H.pTR i * x.1, x.2)) st
  let o := o.bind (ompForO (sched 4) τ H.nPH (fun st i =>
    accN g child ip projCnt rbmCnt [H.ph i 0, H.ph i 0 + N, rsi] [H.ph i 1, H.ph i 1 + N, rsj] (H.pPH i) st))
  let o := o.bind (ompForO (sched 5) τ H.nEX (fun st i =>
    (accN g child ip projCnt rbmCnt [H.ex i 0, H.ex i 1 + N, rsi] [H.ex i 1, H.ex i 0 + N, rsj] (H.pEX i) st).bind
      (accN g child ip projCnt rbmCnt [H.ex i 0 + N, H.ex i 1, rsi] [H.ex i 1 + N, H.ex i 0, rsj] (H.pEX i))))
  let o := o.bind (ompForO (sched 6) τ H.nIA (fun st i =>
    accN g child ip projCnt rbmCnt [H.ia i 0 + H.ia i 3 * N, H.ia i 4 + H.ia i 7 * N, rsi]
      [H.ia i 2 + H.ia i 3 * N, H.ia i 6 + H.ia i 7 * N, rsj] (H.pIA i) st))
  o.map (·.1)

/-- the reduction `v += myValue` (`/repo/src/mVMC/lslocgrn.c:437`) -/
noncomputable def reduceO (order : List Nat) (f : Nat → Option ℂ) : Option ℂ :=
  order.foldl (fun o τ => o.bind (fun v => (f τ).map (fun x => v + x))) (some 0)

/-- `calHCA2` (`/repo/src/mVMC/lslocgrn.c:301-447`, `/repo/src/mVMC/lslocgrn_real.c:235-378`) -/
noncomputable def calHCA2 (g : GrnEnv) (child : Nat → (Nat → Nat) → Arr → Nat → Option ℂ) (H : HamPar) (run : LsRun) (ri rj s : Nat)
    (ip : ℂ) (projCnt : Arr) (rbmCnt : Nat → ℂ) (c : EleCfg) : Option (ℂ × EleCfg × PfState ℂ) :=
  let N := g.p.Nsite
  let rsi := ri + s * N
  let rsj := rj + s * N
  let x := greenFunc1 g ri rj s ip projCnt rbmCnt c
  let num := (x.2.num.set rsi 1).set rsj 0
  let val := x.1 * calculateHamiltonian0 N H run.ham0.sched run.ham0.order num
  let c := { x.2 with num := (num.set rsi 0).set rsj 1 }
  match reduceO run.reg.order (fun τ =>
      hcaThread g child H run.reg.sched τ (run.reg.junk τ) ri rj s ip projCnt rbmCnt c) with
  | none => none
  | some v => some (val + v, c, g.st)

/-- `calHCA` (`/repo/src/mVMC/lslocgrn.c:180-205`, `/repo/src/mVMC/lslocgrn_real.c:104-129`) -/
noncomputable def calHCA (g : GrnEnv) (child : Nat → (Nat → Nat) → Arr → Nat → Option ℂ) (H : HamPar) (run : LsRun) (ri rj s : Nat)
    (h1 ip : ℂ) (projCnt : Arr) (rbmCnt : Nat → ℂ) (c : EleCfg) : Option (ℂ × EleCfg × PfState ℂ) :=
  let rsi := ri + s * g.p.Nsite
  let rsj := rj + s * g.p.Nsite
  if rsi = rsj then
    if c.num rsi = 1 then some (h1, c, g.st) else some (0, c, g.st)
  else if c.num rsj = 0 then some (0, c, g.st)
  else if c.num rsi = 1 then some (0, c, g.st)
  else
    let x := checkGF1 g ri rj s ip c
    if ‖x.1‖ > 1 / 10 ^ 12 then calHCA1 g H run ri rj s ip projCnt rbmCnt x.2
    else calHCA2 g child H run ri rj s ip projCnt rbmCnt x.2

/-- `checkGF2` (`/repo/src/mVMC/lslocgrn.c:500-546`, `/repo/src/mVMC/lslocgrn_real.c:488-534`) -/
noncomputable def checkGF2 (g : GrnEnv) (ri rj rk rl s t : Nat) (ip : ℂ) (c : EleCfg) : ℂ × EleCfg :=
  let N := g.p.Nsite
  let rsi := ri + s * N
  let rsj := rj + s * N
  let rtk := rk + t * N
  let rtl := rl + t * N
  let mj := (c.cfg (rj + s * N)).toNat
  let ml := (c.cfg (rl + t * N)).toNat
  let msj := mj + s * g.p.Ne
  let mtl := ml + t * g.p.Ne
  let idx := (c.idx.set mtl rk).set msj ri
  let num := (((c.num.set rtl 0).set rtk 1).set rsj 0).set rsi 1
  let z := calculateIPLocal g.w (calculateNewPfMTwo g.p g.slt ml t mj s idx 0 g.st) 0 g.nQP
  (z / ip, { c with
    idx := (idx.set mtl rl).set msj rj
    num := (((num.set rtl 1).set rtk 0).set rsj 1).set rsi 0 })

/-- `calHCACA1` (`/repo/src/mVMC/lslocgrn.c:548-632`, `/repo/src/mVMC/lslocgrn_real.c:536-605`). The complex file hands the counters
`rbmCnt` of the old configuration to `CalculateHamiltonian` (line 609). -/
noncomputable def calHCACA1 (g : GrnEnv) (H : HamPar) (run : LsRun) (ri rj rk rl si sk : Nat) (ip : ℂ) (projCnt : Arr)
    (rbmCnt : Nat → ℂ) (c : EleCfg) : Option (ℂ × EleCfg × PfState ℂ) :=
  let N := g.p.Nsite
  let rsi := ri + si * N
  let rsj := rj + si * N
  let rsk := rk + sk * N
  let rsl := rl + sk * N
  let old := copyMAll g.p g.nQP g.st run.old
  let ml := (c.cfg rsl).toNat
  let c1 : EleCfg :=
    { idx := c.idx.set (ml + sk * g.p.Ne) rk
      cfg := (c.cfg.set rsl (-1)).set rsk ml
      num := (c.num.set rsl 0).set rsk 1 }
  let projNew := updateProjCnt g.q rl rk projCnt c1.num
  let rbmNew := updateRBMCnt g.rbm rl rk sk rbmCnt
  let mj := (c1.cfg rsj).toNat
  let c2 : EleCfg :=
    { idx := c1.idx.set (mj + si * g.p.Ne) ri
      cfg := (c1.cfg.set rsj (-1)).set rsi mj
      num := (c1.num.set rsj 0).set rsi 1 }
  let projNew := updateProjCnt g.q rj ri projNew c2.num
  let rbmNew := updateRBMCnt g.rbm rj ri si rbmNew
  let z := projRatioC g projNew projCnt
  let z := if g.flagRBM then z * rbmRatioOne g rbmNew rbmCnt else z
  if ∃ q < g.nQP, calculateNewPfMTwo g.p g.slt ml sk mj si c2.idx 0 g.st q = 0 then none
  else
    let st := updateMAllTwo g.p g.slt ml sk mj si rl c2.idx 0 g.nQP g.st
    let ipNew := calculateIPLocal g.w st.pfM 0 g.nQP
    let e := calculateHamiltonian { g with st := st } H run.ham.sched run.ham.order run.ham.junk ipNew projNew rbmCnt c2
    let c3 : EleCfg :=
      { idx := c2.idx.set (mj + si * g.p.Ne) rj
        cfg := (c2.cfg.set rsj mj).set rsi (-1)
        num := (c2.num.set rsj 1).set rsi 0 }
    let c4 : EleCfg :=
      { idx := c3.idx.set (ml + sk * g.p.Ne) rl
        cfg := (c3.cfg.set rsl ml).set rsk (-1)
        num := (c3.num.set rsl 1).set rsk 0 }
    some (e * (starRingEnd ℂ) (z * ipNew / ip), c4, copyMAll g.p g.nQP old st)

/-- One thread of the parallel region of `calHCACA2`
(`/repo/src/mVMC/lslocgrn.c:693-791`, `/repo/src/mVMC/lslocgrn_real.c:662-757`). -/
noncomputable def hcacaThread (g : GrnEnv) (child : Nat → (Nat → Nat) → Arr → Nat → Option ℂ) (H : HamPar) (sched : Nat → Nat → Nat)
    (τ : Nat) (junk : EleCfg) (ri rj rk rl si sk : Nat) (ip : ℂ) (projCnt : Arr) (rbmCnt : Nat → ℂ) (c : EleCfg) : Option ℂ :=
  let N := g.p.Nsite
  let rsi := ri + si * N
  let rsj := rj + si * N
  let rsk := rk + sk * N
  let rsl := rl + sk * N
  let st := ((0 : ℂ), privS g c junk)
  let o := ompForO (sched 3) τ H.nTR (fun st i =>
    accN g child ip projCnt rbmCnt [H.tr i 0 + H.tr i 1 * N, rsi, rsk] [H.tr i 2 + H.tr i 3 * N, rsj, rsl] (- H.pTR i) st) st
  let o := o.bind (ompForO (sched 4) τ H.nPH (fun st i =>
    accN g child ip projCnt rbmCnt [H.ph i 0, H.ph i 0 + N, rsi, rsk] [H.ph i 1, H.ph i 1 + N, rsj, rsl] (H.pPH i) st))
  let o := o.bind (ompForO (sched 5) τ H.nEX (fun st i =>
    (accN g child ip projCnt rbmCnt [H.ex i 0, H.ex i 1 + N, rsi, rsk] [H.ex i 1, H.ex i 0 + N, rsj, rsl] (H.pEX i) st).bind
      (accN g child ip projCnt rbmCnt [H.ex i 0 + N, H.ex i 1, rsi, rsk] [H.ex i 1 + N, H.ex i 0, rsj, rsl] (H.pEX i))))
  let o := o.bind (ompForO (sched 6) τ H.nIA (fun st i =>
    accN g child ip projCnt rbmCnt [H.ia i 0 + H.ia i 3 * N, H.ia i 4 + H.ia i 7 * N, rsi, rsk]
      [H.ia i 2 + H.ia i 3 * N, H.ia i 6 + H.ia i 7 * N, rsj, rsl] (H.pIA i) st))
  o.map (·.1)

/-- `calHCACA2` (`/repo/src/mVMC/lslocgrn.c:636-800`, `/repo/src/mVMC/lslocgrn_real.c:609-766`). With a Boltzmann machine `GreenFunc2`
writes through the pointer `myRBMCntNew`, which is not set at that point (line 675): undefined. The size of the thread workspace is
modelled separately (`hcacaRequest`, `hcacaUse`). -/
noncomputable def calHCACA2 (g : GrnEnv) (child : Nat → (Nat → Nat) → Arr → Nat → Option ℂ) (H : HamPar) (run : LsRun)
    (ri rj rk rl si sk : Nat) (ip : ℂ) (projCnt : Arr) (rbmCnt : Nat → ℂ) (c : EleCfg) : Option (ℂ × EleCfg × PfState ℂ) :=
  let N := g.p.Nsite
  let rsi := ri + si * N
  let rsj := rj + si * N
  let rsk := rk + sk * N
  let rsl := rl + sk * N
  if g.flagRBM then none
  else
    let x := greenFunc2 g ri rj rk rl si sk ip projCnt rbmCnt c
    let num := (((x.2.num.set rsi 1).set rsj 0).set rsk 1).set rsl 0
    let val := x.1 * calculateHamiltonian0 N H run.ham0.sched run.ham0.order num
    let c := { x.2 with num := (((num.set rsi 0).set rsj 1).set rsk 0).set rsl 1 }
    match reduceO run.reg.order (fun τ =>
        hcacaThread g child H run.reg.sched τ (run.reg.junk τ) ri rj rk rl si sk ip projCnt rbmCnt c) with
    | none => none
    | some v => some (val + v, c, g.st)

/-- `calHCACA` (`/repo/src/mVMC/lslocgrn.c:449-498`, `/repo/src/mVMC/lslocgrn_real.c:437-486`) -/
noncomputable def calHCACA (g : GrnEnv) (child : Nat → (Nat → Nat) → Arr → Nat → Option ℂ) (H : HamPar) (run : LsRun)
    (ri rj rk rl si sk : Nat) (h1 ip : ℂ) (projCnt : Arr) (rbmCnt : Nat → ℂ) (c : EleCfg) : Option (ℂ × EleCfg × PfState ℂ) :=
  let N := g.p.Nsite
  let rsi := ri + si * N
  let rsj := rj + si * N
  let rsk := rk + sk * N
  let rsl := rl + sk * N
  if rsk = rsl then
    if c.num rsk = 1 then calHCA g child H run ri rj si h1 ip projCnt rbmCnt c else some (0, c, g.st)
  else if rsj = rsk then
    if c.num rsj = 1 then some (0, c, g.st) else calHCA g child H run ri rl si h1 ip projCnt rbmCnt c
  else if rsj = rsl then some (0, c, g.st)
  else if rsi = rsj then
    if c.num rsi = 1 then calHCA g child H run rk rl sk h1 ip projCnt rbmCnt c else some (0, c, g.st)
  else if rsi = rsk then some (0, c, g.st)
  else if rsi = rsl then
    if c.num rsi = 1 then (calHCA g child H run rk rj sk h1 ip projCnt rbmCnt c).map (fun x => (- x.1, x.2)) else some (0, c, g.st)
  else if c.num rsl = 0 then some (0, c, g.st)
  else if c.num rsk = 1 then some (0, c, g.st)
  else if c.num rsj = 0 then some (0, c, g.st)
  else if c.num rsi = 1 then some (0, c, g.st)
  else
    let x := checkGF2 g ri rj rk rl si sk ip c
    if ‖x.1‖ > 1 / 10 ^ 12 then calHCACA1 g H run ri rj rk rl si sk ip projCnt rbmCnt x.2
    else calHCACA2 g child H run ri rj rk rl si sk ip projCnt rbmCnt x.2

/-- State carried through the loops: value, electron tables, `InvM`/`PfM`. (`/repo/src/mVMC/lslocgrn.c:122-137`) -/
abbrev LsAcc := ℂ × EleCfg × PfState ℂ

/-- `for(idx=0;idx<n;idx++) val += a * f(…)` (`/repo/src/mVMC/lslocgrn.c:127-134`, 145-174) -/
noncomputable def lsLoop (n : Nat) (body : LsAcc → Nat → Option LsAcc) (st : LsAcc) : Option LsAcc :=
  (List.range n).foldl (fun o i => o.bind (fun st => body st i)) (some st)

/-- What the Pfaffian routine of three or more moved electrons is: it reads `InvM`, `PfM` from global memory.
(`/repo/src/mVMC/locgrn_real.c:304-405`) -/
abbrev LsChild := GrnEnv → Nat → (Nat → Nat) → Arr → Nat → Option ℂ

/-- `calculateHK` (`/repo/src/mVMC/lslocgrn.c:122-137`, `/repo/src/mVMC/lslocgrn_real.c:75-90`) -/
noncomputable def calculateHK (g : GrnEnv) (child : LsChild) (H : HamPar) (runs : Nat → Nat → LsRun) (h1 ip : ℂ) (projCnt : Arr)
    (rbmCnt : Nat → ℂ) (c : EleCfg) (st : PfState ℂ) : Option LsAcc :=
  lsLoop H.nTR (fun a i =>
    let g' := { g with st := a.2.2 }
    (calHCA g' (child g') H (runs 0 i) (H.tr i 0) (H.tr i 2) (H.tr i 3) h1 ip projCnt rbmCnt a.2.1).map
      (fun x => (a.1 - H.pTR i * x.1, x.2))) (0, c, st)

/-- `calculateHW` (`/repo/src/mVMC/lslocgrn.c:139-177`, `/repo/src/mVMC/lslocgrn_real.c:396-434`) -/
noncomputable def calculateHW (g : GrnEnv) (child : LsChild) (H : HamPar) (runs : Nat → Nat → LsRun) (h1 ip : ℂ) (projCnt : Arr)
    (rbmCnt : Nat → ℂ) (c : EleCfg) (st : PfState ℂ) : Option LsAcc :=
  let o := lsLoop H.nPH (fun a i =>
    let g' := { g with st := a.2.2 }
    (calHCACA g' (child g') H (runs 1 i) (H.ph i 0) (H.ph i 1) (H.ph i 0) (H.ph i 1) 0 1 h1 ip projCnt rbmCnt a.2.1).map
      (fun x => (a.1 + H.pPH i * x.1, x.2))) (0, c, st)
  let o := o.bind (lsLoop H.nEX (fun a i =>
    let g' := { g with st := a.2.2 }
    (calHCACA g' (child g') H (runs 2 i) (H.ex i 0) (H.ex i 1) (H.ex i 1) (H.ex i 0) 0 1 h1 ip projCnt rbmCnt a.2.1).bind (fun x =>
      let g'' := { g with st := x.2.2 }
      (calHCACA g'' (child g'') H (runs 3 i) (H.ex i 0) (H.ex i 1) (H.ex i 1) (H.ex i 0) 1 0 h1 ip projCnt rbmCnt x.2.1).map
        (fun y => (a.1 + H.pEX i * (x.1 + y.1), y.2)))))
  o.bind (lsLoop H.nIA (fun a i =>
    let g' := { g with st := a.2.2 }
    (calHCACA g' (child g') H (runs 4 i) (H.ia i 0) (H.ia i 2) (H.ia i 4) (H.ia i 6) (H.ia i 3) (H.ia i 7) h1 ip projCnt rbmCnt
      a.2.1).map (fun x => (a.1 + H.pIA i * x.1, x.2))))

/-- `LSLocalQ` (`/repo/src/mVMC/lslocgrn.c:76-95`, `/repo/src/mVMC/lslocgrn_real.c:45-64`): the array `_LSLQ`. -/
noncomputable def lsLocalQ (g : GrnEnv) (child : LsChild) (H : HamPar) (run0 : OmpRun) (runs : Nat → Nat → LsRun) (h1 ip : ℂ)
    (projCnt : Arr) (rbmCnt : Nat → ℂ) (c : EleCfg) (LSLQ : Nat → ℂ) : Option ((Nat → ℂ) × EleCfg × PfState ℂ) :=
  let e0 := calculateHamiltonian0 g.p.Nsite H run0.sched run0.order c.num
  let h2 := h1 * e0
  (calculateHK g child H runs h1 ip projCnt rbmCnt c g.st).bind (fun x =>
    let h2 := h2 + x.1
    (calculateHW g child H runs h1 ip projCnt rbmCnt x.2.1 x.2.2).map (fun y =>
      let h2 := h2 + y.1
      (setAt (setAt (setAt (setAt LSLQ 0 1) 1 h1) 2 h1) 3 h2, y.2)))

/-- `LSLocalCisAjs` (`/repo/src/mVMC/lslocgrn.c:98-120`, `/repo/src/mVMC/lslocgrn_real.c:770-792`): the array `LSLCisAjs`;
`t1 = CisAjsIdx`, `loc = LocalCisAjs`. -/
noncomputable def lsLocalCisAjs (g : GrnEnv) (child : LsChild) (H : HamPar) (runs : Nat → LsRun) (n1 : Nat) (t1 : Nat → Nat → Nat)
    (loc : Nat → ℂ) (h1 ip : ℂ) (projCnt : Arr) (rbmCnt : Nat → ℂ) (c : EleCfg) (arr : Nat → ℂ) :
    Option ((Nat → ℂ) × EleCfg × PfState ℂ) :=
  let arr := copyArr n1 loc arr
  (List.range n1).foldl (fun o i => o.bind (fun (a : (Nat → ℂ) × EleCfg × PfState ℂ) =>
    let g' := { g with st := a.2.2 }
    (calHCA g' (child g') H (runs i) (t1 i 0) (t1 i 2) (t1 i 3) h1 ip projCnt rbmCnt a.2.1).map (fun x =>
      (setAt a.1 (i + n1) x.1, x.2)))) (some (arr, c, g.st))

/-- the Pfaffian routine of the complex file (`/repo/src/mVMC/locgrn.c:317-422`) -/
def lsChildComplex : LsChild := fun _ => calculateNewPfMNComplex (K := ℂ)

/-- the Pfaffian routine of the real file (`/repo/src/mVMC/locgrn_real.c:304-405`) -/
noncomputable def lsChildReal (pfa : Nat → (Nat → ℂ) → ℂ) : LsChild :=
  fun g n msa idx q => some (calculateNewPfMN g.p pfa g.slt n msa idx g.st q)

/-! ### thread workspace and the shared loop counter -/

/-- thread workspace asked for by `calHCACA2`, without a Boltzmann machine
(`/repo/src/mVMC/lslocgrn.c:664`, `/repo/src/mVMC/lslocgrn_real.c:636`) -/
def hcacaRequest (nQP nsize : Nat) : Nat := nQP + 3 * nsize
/-- thread workspace taken by `calHCACA2` (`/repo/src/mVMC/lslocgrn.c:702`, `/repo/src/mVMC/lslocgrn_real.c:671`) -/
def hcacaUse (nQP nsize : Nat) : Nat := nQP + 4 * nsize
/-- thread workspace asked for by `calHCA2` (`/repo/src/mVMC/lslocgrn.c:327`, `/repo/src/mVMC/lslocgrn_real.c:264`) -/
def hcaRequest (nQP nsize : Nat) : Nat := nQP + 3 * nsize
/-- thread workspace taken by `calHCA2` (`/repo/src/mVMC/lslocgrn.c:360`, `/repo/src/mVMC/lslocgrn_real.c:294`) -/
def hcaUse (nQP nsize : Nat) : Nat := nQP + 3 * nsize

/-- The copy loop `for(idx=0;idx<nsize;idx++) myEleIdx[idx] = eleIdx[idx];` inside the parallel region: `idx` is shared
(`default(shared)`, not in the `private` list). `my τ` is the private array of thread `τ`, `run τ` whether thread `τ` is inside its loop.
(`/repo/src/mVMC/lslocgrn.c:351-368`, 693-710; `/repo/src/mVMC/lslocgrn_real.c:285-299`, 662-676) -/
structure CopySt where
  idx : Nat
  my : Nat → Arr
  run : Nat → Bool

/-- Thread `τ` does its next action: `false` = `idx=0` and entry into the loop; `true` = one test of the loop condition followed by
one iteration, if the condition holds. Each action is taken as indivisible; the source does not even guarantee that.
(`/repo/src/mVMC/lslocgrn.c:366`) -/
def copyStep (n : Nat) (src : Arr) (s : CopySt) (a : Nat × Bool) : CopySt :=
  if a.2 then
    if s.run a.1 then
      if s.idx < n then { s with my := fun t => if t = a.1 then (s.my t).set s.idx (src s.idx) else s.my t, idx := s.idx + 1 }
      else { s with run := fun t => if t = a.1 then false else s.run t }
    else s
  else { s with idx := 0, run := fun t => if t = a.1 then true else s.run t }

end MVMC
