import Verif.Model.RBM
import Verif.Model.ProjValue
import Verif.Model.PfUpdate

/-!
# Model of the local Green functions

`/repo/src/mVMC/locgrn.c`, `/repo/src/mVMC/locgrn_fsz.c`. Exact complex numbers; the electron tables are edited in place and
reverted as in C, and returned with the value. `projCntNew`, `rbmCntNew`, `buffer` are scratch outputs and not returned.
The complex versions are modelled; the `_real` versions (`locgrn_real.c`) repeat the statements with `double`.
-/
namespace MVMC

/-- Everything the Green functions read from global memory: `Proj`, `RBM`, `SlaterElm` (`slt`), `QPFullWeight` (`w`), `PfM` and
`InvM` (`st`). `B = NBlockSize_RBMRatio`, `nQP = NQPFull`.
(`/repo/src/mVMC/include/global.h:60-200`) -/
structure GrnEnv where
  p : PfPar
  q : ProjPar
  Proj : Nat → ℂ
  flagRBM : Bool
  rbm : RBMPar ℂ
  B : Nat
  slt : Nat → ℂ
  w : Nat → ℂ
  nQP : Nat
  st : PfState ℂ

/-- `RBMRatio` in a team of one thread: all callers of the Green functions are inside a parallel region and nested parallelism
is off. `none` does not occur then (`C45_single_thread`). (`/repo/src/mVMC/rbm.c:64-123`) -/
noncomputable def rbmRatioOne (g : GrnEnv) (new old : Nat → ℂ) : ℂ := (rbmRatio g.rbm g.B 1 new old).getD 0

/-- `ProjRatio` as a complex number. (`/repo/src/mVMC/projection.c:50-56`) -/
noncomputable def projRatioC (g : GrnEnv) (new old : Arr) : ℂ := (projRatio g.q.NProj g.Proj new old : ℝ)

/-- `GreenFunc1` (`/repo/src/mVMC/locgrn.c:41-83`). -/
noncomputable def greenFunc1 (g : GrnEnv) (ri rj s : Nat) (ip : ℂ) (projCnt : Arr) (rbmCnt : Nat → ℂ) (c : EleCfg) : ℂ × EleCfg :=
  let N := g.p.Nsite
  if ri = rj then ((c.num (ri + s * N) : ℂ), c)
  else if c.num (ri + s * N) = 1 ∨ c.num (rj + s * N) = 0 then (0, c)
  else
    let mj := (c.cfg (rj + s * N)).toNat
    let msj := mj + s * g.p.Ne
    let rsi := ri + s * N
    let rsj := rj + s * N
    let idx := c.idx.set msj ri
    let num := (c.num.set rsj 0).set rsi 1
    let projNew := updateProjCnt g.q rj ri projCnt num
    let z :=
      if g.flagRBM then
        let rbmNew := updateRBMCnt g.rbm rj ri s rbmCnt
        projRatioC g projNew projCnt * rbmRatioOne g rbmNew rbmCnt
      else
        let projNew := updateProjCnt g.q rj ri projCnt num
        projRatioC g projNew projCnt
    let z := z * calculateIPLocal g.w (calculateNewPfM g.p g.slt mj s idx 0 g.st) 0 g.nQP
    ((starRingEnd ℂ) (z / ip), { c with idx := idx.set msj rj, num := (num.set rsj 1).set rsi 0 })

/-- The end of `GreenFunc2` (`/repo/src/mVMC/locgrn.c:138-180`), reached when no two operators share an orbital. -/
noncomputable def greenFunc2Hop (g : GrnEnv) (ri rj rk rl s t : Nat) (ip : ℂ) (projCnt : Arr) (rbmCnt : Nat → ℂ) (c : EleCfg) :
    ℂ × EleCfg :=
  let N := g.p.Nsite
  let rsi := ri + s * N
  let rsj := rj + s * N
  let rtk := rk + t * N
  let rtl := rl + t * N
  if c.num rsi = 1 ∨ c.num rsj = 0 ∨ c.num rtk = 1 ∨ c.num rtl = 0 then (0, c)
  else
    let mj := (c.cfg (rj + s * N)).toNat
    let ml := (c.cfg (rl + t * N)).toNat
    let msj := mj + s * g.p.Ne
    let mtl := ml + t * g.p.Ne
    let idx := c.idx.set mtl rk
    let num := (c.num.set rtl 0).set rtk 1
    let projNew := updateProjCnt g.q rl rk projCnt num
    let rbmNew := updateRBMCnt g.rbm rl rk t rbmCnt
    let idx := idx.set msj ri
    let num := (num.set rsj 0).set rsi 1
    let projNew := updateProjCnt g.q rj ri projNew num
    let rbmNew := updateRBMCnt g.rbm rj ri s rbmNew
    let z := projRatioC g projNew projCnt
    let z := if g.flagRBM then z * rbmRatioOne g rbmNew rbmCnt else z
    let z := z * calculateIPLocal g.w (calculateNewPfMTwo g.p g.slt ml t mj s idx 0 g.st) 0 g.nQP
    ((starRingEnd ℂ) (z / ip),
      { c with
        idx := (idx.set mtl rl).set msj rj
        num := (((num.set rtl 1).set rtk 0).set rsj 1).set rsi 0 })

/-- `GreenFunc2` (`/repo/src/mVMC/locgrn.c:87-180`). -/
noncomputable def greenFunc2 (g : GrnEnv) (ri rj rk rl s t : Nat) (ip : ℂ) (projCnt : Arr) (rbmCnt : Nat → ℂ) (c : EleCfg) :
    ℂ × EleCfg :=
  let N := g.p.Nsite
  let rsi := ri + s * N
  let rsj := rj + s * N
  let rtk := rk + t * N
  if s = t then
    if rk = rl then
      if c.num rtk = 0 then (0, c) else greenFunc1 g ri rj s ip projCnt rbmCnt c
    else if rj = rl then (0, c)
    else if ri = rl then
      if c.num rsi = 0 then (0, c)
      else if rj = rk then (1 - (c.num rsj : ℂ), c)
      else
        let x := greenFunc1 g rk rj s ip projCnt rbmCnt c
        (-x.1, x.2)
    else if rj = rk then
      if c.num rsj = 1 then (0, c)
      else if ri = rl then ((c.num rsi : ℂ), c)
      else greenFunc1 g ri rl s ip projCnt rbmCnt c
    else if ri = rk then (0, c)
    else if ri = rj then
      if c.num rsi = 0 then (0, c) else greenFunc1 g rk rl s ip projCnt rbmCnt c
    else greenFunc2Hop g ri rj rk rl s t ip projCnt rbmCnt c
  else
    if rk = rl then
      if c.num rtk = 0 then (0, c)
      else if ri = rj then ((c.num rsi : ℂ), c)
      else greenFunc1 g ri rj s ip projCnt rbmCnt c
    else if ri = rj then
      if c.num rsi = 0 then (0, c) else greenFunc1 g rk rl t ip projCnt rbmCnt c
    else greenFunc2Hop g ri rj rk rl s t ip projCnt rbmCnt c

/-! ### general-Sz mode (`/repo/src/mVMC/locgrn_fsz.c`; the Boltzmann machine is not used there) -/

/-- `GreenFunc1_fsz` (`/repo/src/mVMC/locgrn_fsz.c:50-86`). -/
noncomputable def greenFunc1F (g : GrnEnv) (ri rj s : Nat) (ip : ℂ) (projCnt : Arr) (c : FCfg) : ℂ × FCfg :=
  let N := g.p.Nsite
  if ri = rj then ((c.num (ri + s * N) : ℂ), c)
  else if c.num (ri + s * N) = 1 ∨ c.num (rj + s * N) = 0 then (0, c)
  else
    let mj := (c.cfg (rj + s * N)).toNat
    let msj := mj
    let rsi := ri + s * N
    let rsj := rj + s * N
    let idx := c.idx.set msj ri
    let spn := c.spn.set msj s
    let num := (c.num.set rsj 0).set rsi 1
    let projNew := updateProjCnt g.q rj ri projCnt num
    let z := projRatioC g projNew projCnt
    let z := z * calculateIPLocal g.w (calculateNewPfMFsz g.p g.slt mj s idx spn 0 g.st) 0 g.nQP
    ((starRingEnd ℂ) (z / ip),
      { c with idx := idx.set msj rj, spn := spn.set msj s, num := (num.set rsj 1).set rsi 0 })

/-- `GreenFunc1_fsz2` (`/repo/src/mVMC/locgrn_fsz.c:88-123`). -/
noncomputable def greenFunc1F2 (g : GrnEnv) (ri rj s t : Nat) (ip : ℂ) (projCnt : Arr) (c : FCfg) : ℂ × FCfg :=
  let N := g.p.Nsite
  if c.num (ri + s * N) = 1 ∨ c.num (rj + t * N) = 0 then (0, c)
  else
    let mj := (c.cfg (rj + t * N)).toNat
    let rsi := ri + s * N
    let rtj := rj + t * N
    let idx := c.idx.set mj ri
    let spn := c.spn.set mj s
    let num := (c.num.set rtj 0).set rsi 1
    let projNew := updateProjCntFsz g.q rj ri projCnt num
    let z := projRatioC g projNew projCnt
    let z := z * calculateIPLocal g.w (calculateNewPfMFsz g.p g.slt mj s idx spn 0 g.st) 0 g.nQP
    ((starRingEnd ℂ) (z / ip),
      { c with idx := idx.set mj rj, spn := spn.set mj t, num := (num.set rtj 1).set rsi 0 })

/-- The end of `GreenFunc2_fsz` (`/repo/src/mVMC/locgrn_fsz.c:181-223`). -/
noncomputable def greenFunc2FHop (g : GrnEnv) (ri rj rk rl s t : Nat) (ip : ℂ) (projCnt : Arr) (c : FCfg) : ℂ × FCfg :=
  let N := g.p.Nsite
  let rsi := ri + s * N
  let rsj := rj + s * N
  let rtk := rk + t * N
  let rtl := rl + t * N
  if c.num rsi = 1 ∨ c.num rsj = 0 ∨ c.num rtk = 1 ∨ c.num rtl = 0 then (0, c)
  else
    let mj := (c.cfg (rj + s * N)).toNat
    let ml := (c.cfg (rl + t * N)).toNat
    let msj := mj
    let mtl := ml
    let idx := c.idx.set mtl rk
    let spn := c.spn.set mtl t
    let num := (c.num.set rtl 0).set rtk 1
    let projNew := updateProjCnt g.q rl rk projCnt num
    let idx := idx.set msj ri
    let spn := spn.set msj s
    let num := (num.set rsj 0).set rsi 1
    let projNew := updateProjCnt g.q rj ri projNew num
    let z := projRatioC g projNew projCnt
    let z := z * calculateIPLocal g.w (calculateNewPfMTwoFsz g.p g.slt ml t mj s idx spn 0 g.st) 0 g.nQP
    ((starRingEnd ℂ) (z / ip),
      { c with
        idx := (idx.set mtl rl).set msj rj
        spn := (spn.set mtl t).set msj s
        num := (((num.set rtl 1).set rtk 0).set rsj 1).set rsi 0 })

/-- `GreenFunc2_fsz` (`/repo/src/mVMC/locgrn_fsz.c:128-223`). -/
noncomputable def greenFunc2F (g : GrnEnv) (ri rj rk rl s t : Nat) (ip : ℂ) (projCnt : Arr) (c : FCfg) : ℂ × FCfg :=
  let N := g.p.Nsite
  let rsi := ri + s * N
  let rsj := rj + s * N
  let rtk := rk + t * N
  if s = t then
    if rk = rl then
      if c.num rtk = 0 then (0, c) else greenFunc1F g ri rj s ip projCnt c
    else if rj = rl then (0, c)
    else if ri = rl then
      if c.num rsi = 0 then (0, c)
      else if rj = rk then (1 - (c.num rsj : ℂ), c)
      else
        let x := greenFunc1F g rk rj s ip projCnt c
        (-x.1, x.2)
    else if rj = rk then
      if c.num rsj = 1 then (0, c)
      else if ri = rl then ((c.num rsi : ℂ), c)
      else greenFunc1F g ri rl s ip projCnt c
    else if ri = rk then (0, c)
    else if ri = rj then
      if c.num rsi = 0 then (0, c) else greenFunc1F g rk rl s ip projCnt c
    else greenFunc2FHop g ri rj rk rl s t ip projCnt c
  else
    if rk = rl then
      if c.num rtk = 0 then (0, c)
      else if ri = rj then ((c.num rsi : ℂ), c)
      else greenFunc1F g ri rj s ip projCnt c
    else if ri = rj then
      if c.num rsi = 0 then (0, c) else greenFunc1F g rk rl t ip projCnt c
    else greenFunc2FHop g ri rj rk rl s t ip projCnt c

/-- The end of `GreenFunc2_fsz2` (`/repo/src/mVMC/locgrn_fsz.c:301-341`). -/
noncomputable def greenFunc2F2Hop (g : GrnEnv) (ri rj rk rl s t u v : Nat) (ip : ℂ) (projCnt : Arr) (c : FCfg) : ℂ × FCfg :=
  let N := g.p.Nsite
  let XI := ri + s * N
  let XJ := rj + t * N
  let XK := rk + u * N
  let XL := rl + v * N
  if c.num XI = 1 ∨ c.num XJ = 0 ∨ c.num XK = 1 ∨ c.num XL = 0 then (0, c)
  else
    let mj := (c.cfg XJ).toNat
    let ml := (c.cfg XL).toNat
    let idx := c.idx.set ml rk
    let spn := c.spn.set ml u
    let num := (c.num.set XL 0).set XK 1
    let projNew := updateProjCntFsz g.q rl rk projCnt num
    let idx := idx.set mj ri
    let spn := spn.set mj s
    let num := (num.set XJ 0).set XI 1
    let projNew := updateProjCntFsz g.q rj ri projNew num
    let z := projRatioC g projNew projCnt
    let z := z * calculateIPLocal g.w (calculateNewPfMTwoFsz g.p g.slt ml u mj s idx spn 0 g.st) 0 g.nQP
    ((starRingEnd ℂ) (z / ip),
      { c with
        idx := (idx.set ml rl).set mj rj
        spn := (spn.set ml v).set mj t
        num := (((num.set XL 1).set XK 0).set XJ 1).set XI 0 })

/-- `GreenFunc2_fsz2` (`/repo/src/mVMC/locgrn_fsz.c:225-341`). -/
noncomputable def greenFunc2F2 (g : GrnEnv) (ri rj rk rl s t u v : Nat) (ip : ℂ) (projCnt : Arr) (c : FCfg) : ℂ × FCfg :=
  let N := g.p.Nsite
  let XI := ri + s * N
  let XJ := rj + t * N
  let XK := rk + u * N
  let XL := rl + v * N
  if XI = XJ then
    if XJ = XK then
      if XK = XL then ((c.num XI : ℂ), c)                                            -- 1
      else if c.num XI = 1 then (0, c) else greenFunc1F2 g rk rl u v ip projCnt c     -- 2
    else if XJ = XL then (0, c)                                                      -- 3
    else if XK = XL then ((c.num XI : ℂ) * (c.num XK : ℂ), c)                         -- 4
    else if c.num XI = 0 then (0, c) else greenFunc1F2 g rk rl u v ip projCnt c       -- 5
  else if XI = XK then (0, c)                                                        -- 6, 7, 8
  else if XI = XL then
    if XJ = XK then ((c.num XI : ℂ) * (1 - (c.num XJ : ℂ)), c)                        -- 9
    else if c.num XI = 0 then (0, c)                                                 -- 10
    else
      let x := greenFunc1F2 g rk rj u t ip projCnt c
      (-1 * x.1, x.2)
  else if XJ = XK then
    if XK = XL then                                                                  -- 11
      if c.num XJ = 0 then (0, c) else greenFunc1F2 g ri rj s t ip projCnt c
    else if c.num XJ = 1 then (0, c) else greenFunc1F2 g ri rl s v ip projCnt c       -- 12
  else if XJ = XL then (0, c)                                                        -- 13
  else if XK = XL then                                                               -- 14
    if c.num XK = 0 then (0, c) else greenFunc1F2 g ri rj s t ip projCnt c
  else greenFunc2F2Hop g ri rj rk rl s t u v ip projCnt c

end MVMC
