import Verif.Model.LocGrn

/-!
# Model of the pair matrix, its derivative and the logarithmic derivatives

`/repo/src/mVMC/slater.c:37-271`, `/repo/src/mVMC/slater_fsz.c:32-243`, `/repo/src/mVMC/qp.c:38-152`,
`/repo/src/mVMC/rbm.c:323-382`, `/repo/src/mVMC/vmccal.c:193-217,639-653`, `/repo/src/mVMC/vmccal_fsz.c:152-169`.

OpenMP loops over the projection index are given as the list of their stores (or additions) in program order; the
theorems hold for every rearrangement of these lists, hence for every schedule and interleaving. The two tables
`transOrbIdx`, `transOrbSgn` are one table of pairs. Exact numbers instead of `double complex`.
-/
namespace MVMC

/-- Sizes and tables of the quantum-number projection (`/repo/src/mVMC/include/global.h:143-158`): `nSP = NSPGaussLeg`,
`nMP = NMPTrans`, `nOpt = NQPOptTrans`. -/
structure QPPar where
  Nsite : Nat
  nSP : Nat
  nMP : Nat
  nOpt : Nat
  nSlater : Nat
  trans : Nat → Nat → Nat
  transSgn : Nat → Nat → Int
  opt : Nat → Nat → Nat
  optSgn : Nat → Nat → Int
  orbIdx : Nat → Nat → Nat
  orbSgn : Nat → Nat → Int

/-- `NQPFix` (`/repo/src/mVMC/readdef.c:778`). -/
def QPPar.nFix (Q : QPPar) : Nat := Q.nSP * Q.nMP
/-- `NQPFull` (`/repo/src/mVMC/readdef.c:779`). -/
def QPPar.nFull (Q : QPPar) : Nat := Q.nFix * Q.nOpt
/-- `optidx` (`/repo/src/mVMC/slater.c:56`). -/
def QPPar.optidx (Q : QPPar) (q : Nat) : Nat := q / Q.nFix
/-- `mpidx` (`/repo/src/mVMC/slater.c:57`). -/
def QPPar.mpidx (Q : QPPar) (q : Nat) : Nat := q % Q.nFix / Q.nSP
/-- `spidx` (`/repo/src/mVMC/slater.c:58`). -/
def QPPar.spidx (Q : QPPar) (q : Nat) : Nat := q % Q.nSP
/-- `tri = xqp[xqpOpt[ri]]` (`/repo/src/mVMC/slater.c:71-72`). -/
def QPPar.tr (Q : QPPar) (opt mp r : Nat) : Nat := Q.trans mp (Q.opt opt r)
/-- `sgni` (`/repo/src/mVMC/slater.c:73`). -/
def QPPar.sg (Q : QPPar) (opt mp r : Nat) : Int := Q.transSgn mp (Q.opt opt r) * Q.optSgn opt r

/-- array store (`/repo/src/mVMC/slater.c:37-97`) -/
def storeAt {β : Type} (a : Nat → β) (e : Nat × β) : Nat → β := fun k => if k = e.1 then e.2 else a k

/-- a sequence of stores (`/repo/src/mVMC/slater.c:37-97`) -/
def runStores {β : Type} (evs : List (Nat × β)) (a : Nat → β) : Nat → β := evs.foldl storeAt a

section
variable {K : Type} [Field K]

/-- a sequence of `+=` (`/repo/src/mVMC/slater.c:100-243`) -/
def runAdds (evs : List (Nat × K)) (a : Nat → K) : Nat → K := evs.foldl (fun a e => addAt a e.1 e.2) a

/-- The stores of one `qpidx` in `UpdateSlaterElm_fcmp` (`/repo/src/mVMC/slater.c:53-93`). -/
def slaterStores (Q : QPPar) (cs cc ss : Nat → K) (S : Nat → K) (q : Nat) : List (Nat × K) :=
  let N := Q.Nsite
  let N2 := 2 * Q.Nsite
  let o := Q.optidx q
  let m := Q.mpidx q
  let sp := Q.spidx q
  (List.range N).flatMap fun ri => (List.range N).flatMap fun rj =>
    let tri := Q.tr o m ri
    let sgni := Q.sg o m ri
    let trj := Q.tr o m rj
    let sgnj := Q.sg o m rj
    let ij := S (Q.orbIdx tri trj) * ((Q.orbSgn tri trj * sgni * sgnj : Int) : K)
    let ji := S (Q.orbIdx trj tri) * ((Q.orbSgn trj tri * sgni * sgnj : Int) : K)
    let b := q * N2 * N2
    [(b + ri * N2 + rj, -(ij - ji) * cs sp),
     (b + ri * N2 + (rj + N), ij * cc sp + ji * ss sp),
     (b + (ri + N) * N2 + rj, -ij * ss sp - ji * cc sp),
     (b + (ri + N) * N2 + (rj + N), (ij - ji) * cs sp)]

/-- `UpdateSlaterElm_fcmp` in program order. (`/repo/src/mVMC/slater.c:37-97`) -/
def updateSlaterElm (Q : QPPar) (cs cc ss : Nat → K) (S : Nat → K) (slt : Nat → K) : Nat → K :=
  runStores ((List.range Q.nFull).flatMap (slaterStores Q cs cc ss S)) slt

/-- The stores of one `qpidx` in `UpdateSlaterElm_fsz` (`/repo/src/mVMC/slater_fsz.c:51-114`). -/
def slaterStoresF (Q : QPPar) (S : Nat → K) (q : Nat) : List (Nat × K) :=
  let N := Q.Nsite
  let N2 := 2 * Q.Nsite
  let o := Q.optidx q
  let m := Q.mpidx q
  (List.range N).flatMap fun ri => (List.range N).flatMap fun rj =>
    let i0 := Q.tr o m ri
    let i1 := i0 + N
    let sgni := Q.sg o m ri
    let j0 := Q.tr o m rj
    let j1 := j0 + N
    let sgnj := Q.sg o m rj
    let f := fun x y => S (Q.orbIdx x y) * ((Q.orbSgn x y * sgni * sgnj : Int) : K)
    let b := q * N2 * N2
    [(b + ri * N2 + rj, f i0 j0 - f j0 i0),
     (b + ri * N2 + (rj + N), f i0 j1 - f j1 i0),
     (b + (ri + N) * N2 + rj, f i1 j0 - f j0 i1),
     (b + (ri + N) * N2 + (rj + N), f i1 j1 - f j1 i1)]

/-- `UpdateSlaterElm_fsz` in program order. (`/repo/src/mVMC/slater_fsz.c:32-117`) -/
def updateSlaterElmF (Q : QPPar) (S : Nat → K) (slt : Nat → K) : Nat → K :=
  runStores ((List.range Q.nFull).flatMap (slaterStoresF Q S)) slt

/-- The table stores of one `qpidx` (`/repo/src/mVMC/slater.c:146-174`); `n = Nsize`. -/
def tableStores (Q : QPPar) (n : Nat) (idx : Arr) (q : Nat) : List (Nat × (Nat × Int)) :=
  let o := q / Q.nMP
  let m := q % Q.nMP
  (List.range n).flatMap fun msi => (List.range n).map fun msj =>
    let ri := (idx msi).toNat
    let rj := (idx msj).toNat
    let tri := Q.tr o m ri
    let trj := Q.tr o m rj
    (q * n * n + msi * n + msj, (Q.orbIdx tri trj, Q.sg o m ri * Q.sg o m rj * Q.orbSgn tri trj))

/-- The additions of one `qpidx` (`/repo/src/mVMC/slater.c:182-230`): up-up, up-down, then down-up, down-down. -/
def diffAdds (Q : QPPar) (ne : Nat) (cs cc ss : Nat → K) (pfM invM : Nat → K) (tab : Nat → Nat × Int) (q : Nat) : List (Nat × K) :=
  let n := 2 * ne
  let m := q / Q.nSP
  let sp := q % Q.nSP
  let t := fun msi msj => tab (m * n * n + msi * n + msj)
  let inv := fun msi msj => invM (q * n * n + msi * n + msj)
  let ad := fun (c : K) msi msj => (q * Q.nSlater + (t msi msj).1, inv msi msj * c * ((t msi msj).2 : K))
  ((List.range ne).flatMap fun msi =>
    ((List.range ne).map fun msj => ad (pfM q * cs sp) msi msj) ++
    ((List.range' ne ne).map fun msj => ((ad (pfM q * cc sp) msi msj).1, -(ad (pfM q * cc sp) msi msj).2))) ++
  ((List.range' ne ne).flatMap fun msi =>
    ((List.range ne).map fun msj => ad (pfM q * ss sp) msi msj) ++
    ((List.range' ne ne).map fun msj => ((ad (pfM q * cs sp) msi msj).1, -(ad (pfM q * cs sp) msi msj).2)))

/-- The table stores of one `qpidx` in `SlaterElmDiff_fsz` (`/repo/src/mVMC/slater_fsz.c:155-187`). -/
def tableStoresF (Q : QPPar) (n : Nat) (idx spn : Arr) (q : Nat) : List (Nat × (Nat × Int)) :=
  let o := q / Q.nMP
  let m := q % Q.nMP
  (List.range n).flatMap fun msi => (List.range n).map fun msj =>
    let ri := (idx msi).toNat
    let rj := (idx msj).toNat
    let tri := Q.tr o m ri + (spn msi).toNat * Q.Nsite
    let trj := Q.tr o m rj + (spn msj).toNat * Q.Nsite
    (q * n * n + msi * n + msj, (Q.orbIdx tri trj, Q.sg o m ri * Q.sg o m rj * Q.orbSgn tri trj))

/-- The additions of one `qpidx` in `SlaterElmDiff_fsz` (`/repo/src/mVMC/slater_fsz.c:195-216`). -/
def diffAddsF (Q : QPPar) (n : Nat) (pfM invM : Nat → K) (tab : Nat → Nat × Int) (q : Nat) : List (Nat × K) :=
  let m := q / Q.nSP
  let t := fun msi msj => tab (m * n * n + msi * n + msj)
  let inv := fun msi msj => invM (q * n * n + msi * n + msj)
  (List.range n).flatMap fun msi => (List.range n).map fun msj =>
    (q * Q.nSlater + (t msi msj).1, -1 * inv msi msj * pfM q * ((t msi msj).2 : K))

end

/-- The end of both routines: weighted sum over the projections and division by the amplitude (`/repo/src/mVMC/slater.c:232-257`,
`/repo/src/mVMC/slater_fsz.c:218-236`). -/
noncomputable def diffStore (Q : QPPar) (w buf : Nat → ℂ) (ip : ℂ) (out : Nat → ℂ) : Nat → ℂ := fun j =>
  if j < 2 * Q.nSlater then
    if j % 2 = 0 then sumLoop Q.nFull (fun q => w q * buf (q * Q.nSlater + j / 2)) * (1 / ip)
    else sumLoop Q.nFull (fun q => w q * buf (q * Q.nSlater + j / 2) * Complex.I) * (1 / ip)
  else out j

/-- `QPFixWeight` after `InitQPWeight` (`/repo/src/mVMC/qp.c:38-82`): `wsp` is the spin part of the weight (1 for `NSPGaussLeg = 1`). -/
def qpFixWeight {K : Type} [Field K] (Q : QPPar) (wsp paraQP : Nat → K) (old : Nat → K) : Nat → K :=
  runStores ((List.range Q.nSP).flatMap fun i => (List.range Q.nMP).map fun j => (i + j * Q.nSP, wsp i * paraQP j)) old

/-- `QPFullWeight` after `UpdateQPWeight` (`/repo/src/mVMC/qp.c:130-150`). -/
def qpFullWeight {K : Type} [Field K] (Q : QPPar) (flagOpt : Bool) (optTrans fix : Nat → K) (old : Nat → K) : Nat → K :=
  if flagOpt then
    runStores ((List.range Q.nOpt).flatMap fun i => (List.range Q.nFix).map fun j => (i * Q.nFix + j, optTrans i * fix j)) old
  else runStores ((List.range Q.nFix).map fun j => (j, fix j)) old

/-- `calculateOptTransDiff` (`/repo/src/mVMC/vmccal.c:639-653`): entry `i`, not `2*i`. -/
noncomputable def optTransDiff (Q : QPPar) (fix pfM : Nat → ℂ) (ip : ℂ) (out : Nat → ℂ) : Nat → ℂ := fun i =>
  if i < Q.nOpt then sumLoop Q.nFix (fun j => fix j * pfM (i * Q.nFix + j)) / ip else out i

/-- `NRBM` (`/repo/src/mVMC/readdef.c:737-740`). -/
def RBMPar.nRBM {K : Type} (p : RBMPar K) : Nat := p.nHid + p.nPhys + (p.nCX + p.nSX + p.nGX)

/-- The `+=` of one group of hidden units in `RBMDiff` (`/repo/src/mVMC/rbm.c:342-353` and alike): bias at `offB + 2*idx`, couplings at
`offX + 2*idx`, `ctmp = ctanh(θ)`. -/
noncomputable def rbmDiffAdds (nh nr offB offX : Nat) (H : Nat → Nat) (X : Nat → Nat → Nat) (th : Nat → ℂ) (xi : Nat → Int) : List (Nat × ℂ) :=
  (List.range nh).flatMap fun hi =>
    [(2 * H hi + offB, th hi), (2 * H hi + offB + 1, Complex.I * th hi)] ++
    (List.range nr).flatMap fun ri =>
      [(2 * X ri hi + offX, (xi ri : ℂ) * th hi), (2 * X ri hi + offX + 1, Complex.I * (xi ri : ℂ) * th hi)]

/-- `RBMDiff` (`/repo/src/mVMC/rbm.c:323-382`); entries from `2*NRBM` on are not touched. -/
noncomputable def rbmDiff (p : RBMPar ℂ) (cnt : Nat → ℂ) (num : Arr) (out : Nat → ℂ) : Nat → ℂ :=
  let a := runStores ((List.range (2 * p.nRBM)).map fun i => (i, 0)) out
  let a := runStores ((List.range p.nPhys).flatMap fun i => [(2 * i, cnt i), (2 * i + 1, Complex.I * cnt i)]) a
  let o1 := 2 * p.nPhys
  let o2 := 2 * p.nPhys + 2 * p.nHid
  let th := fun k => Complex.tanh (cnt k)
  let a := runAdds (rbmDiffAdds p.hC p.Nsite o1 o2 p.cH p.cX (fun h => th (h + p.nPhys)) (fun r => num r + num (r + p.Nsite) - 1)) a
  let a := runAdds (rbmDiffAdds p.hS p.Nsite (o1 + 2 * p.nCH) (o2 + 2 * p.nCX) p.sH p.sX (fun h => th (h + p.nPhys + p.hC))
    (fun r => num r - num (r + p.Nsite))) a
  runAdds (rbmDiffAdds p.hG (2 * p.Nsite) (o1 + 2 * p.nCH + 2 * p.nSH) (o2 + 2 * p.nCX + 2 * p.nSX) p.gH p.gX
    (fun h => th (h + p.nPhys + p.hC + p.hS)) (fun r => 2 * num r - 1)) a

/-- writing through a pointer into the middle of an array: `f(a + off)`
(`/repo/src/mVMC/vmccal.c:185-200`) -/
def atOffset {β : Type} (off : Nat) (f : (Nat → β) → Nat → β) (a : Nat → β) : Nat → β :=
  fun k => if k < off then a k else f (fun j => a (off + j)) (k - off)

/-- The data the trial wave function is built from, without the variational parameters: `fix = QPFixWeight`, `slt0` and `w0` are
the previous contents of `SlaterElm` and `QPFullWeight`.
(`/repo/src/mVMC/include/global.h:40-200`) -/
structure ParGlob where
  p : PfPar
  q : ProjPar
  flagRBM : Bool
  rbm : RBMPar ℂ
  B : Nat
  Q : QPPar
  cs : Nat → ℂ
  cc : Nat → ℂ
  ss : Nat → ℂ
  flagOpt : Bool
  fix : Nat → ℂ
  slt0 : Nat → ℂ
  w0 : Nat → ℂ
  st : PfState ℂ

/-- `FlagRBM*NRBM` (`/repo/src/mVMC/setmemory.c:298-300`) -/
def ParGlob.nR (G : ParGlob) : Nat := if G.flagRBM then G.rbm.nRBM else 0
/-- `Slater - Para` (`/repo/src/mVMC/setmemory.c:298-302`; `NProjBF = 0`). -/
def ParGlob.oSlater (G : ParGlob) : Nat := G.q.NProj + G.nR
/-- `OptTrans - Para` (`/repo/src/mVMC/setmemory.c:302`). -/
def ParGlob.oOpt (G : ParGlob) : Nat := G.oSlater + G.Q.nSlater

/-- The wave-function data for a parameter array given the pair matrix (`/repo/src/mVMC/setmemory.c:298-302`, `UpdateQPWeight`). -/
noncomputable def ParGlob.envWith (G : ParGlob) (Para : Nat → ℂ) (slt : Nat → ℂ) : GrnEnv where
  p := G.p
  q := G.q
  Proj := Para
  flagRBM := G.flagRBM
  rbm := { G.rbm with par := fun i => Para (G.q.NProj + i) }
  B := G.B
  slt := slt
  w := qpFullWeight G.Q G.flagOpt (fun i => Para (G.oOpt + i)) G.fix G.w0
  nQP := G.Q.nFull
  st := G.st

/-- with `UpdateSlaterElm_fcmp` (`/repo/src/mVMC/vmcmain.c:330-420`) -/
noncomputable def ParGlob.env (G : ParGlob) (Para : Nat → ℂ) : GrnEnv :=
  G.envWith Para (updateSlaterElm G.Q G.cs G.cc G.ss (fun k => Para (G.oSlater + k)) G.slt0)

/-- with `UpdateSlaterElm_fsz` (`/repo/src/mVMC/vmcmain.c:330-420`) -/
noncomputable def ParGlob.envF (G : ParGlob) (Para : Nat → ℂ) : GrnEnv :=
  G.envWith Para (updateSlaterElmF G.Q (fun k => Para (G.oSlater + k)) G.slt0)

/-- The constant and the correlation-factor entries of `SROptO` (`/repo/src/mVMC/vmccal.c:195-201`, `/repo/src/mVMC/vmccal_fsz.c:154-160`). -/
noncomputable def srOptOProj (q : ProjPar) (projCnt : Arr) (out : Nat → ℂ) : Nat → ℂ :=
  runStores ([(0, 1), (1, 0)] ++ (List.range q.NProj).flatMap fun i => [((i + 1) * 2, ((projCnt i : Int) : ℂ)), ((i + 1) * 2 + 1, 0)]) out

/-- The vector `SROptO` of one sample (`/repo/src/mVMC/vmccal.c:193-212`); `buf`: the accumulation buffer of
`SlaterElmDiff_fcmp`. -/
noncomputable def srOptO (G : ParGlob) (Para : Nat → ℂ) (buf : Nat → ℂ) (ip : ℂ) (projCnt : Arr) (rbmCnt : Nat → ℂ)
    (num : Arr) (out : Nat → ℂ) : Nat → ℂ :=
  let g := G.env Para
  let a := srOptOProj G.q projCnt out
  let a := if G.flagRBM then atOffset (2 * G.q.NProj + 2) (rbmDiff g.rbm rbmCnt num) a else a
  let a := atOffset (2 * G.q.NProj + 2 * G.rbm.nRBM + 2) (diffStore G.Q g.w buf ip) a
  if G.flagOpt then atOffset (2 * G.q.NProj + 2 * G.nR + 2 * G.Q.nSlater + 2) (optTransDiff G.Q G.fix G.st.pfM ip) a else a

/-- The vector `SROptO` of one sample in general-Sz mode (`/repo/src/mVMC/vmccal_fsz.c:152-169`): no RBM entries, and no gap for
them. -/
noncomputable def srOptOF (G : ParGlob) (Para : Nat → ℂ) (buf : Nat → ℂ) (ip : ℂ) (projCnt : Arr) (out : Nat → ℂ) : Nat → ℂ :=
  let g := G.envF Para
  let a := srOptOProj G.q projCnt out
  let a := atOffset (2 * G.q.NProj + 2) (diffStore G.Q g.w buf ip) a
  if G.flagOpt then atOffset (2 * G.q.NProj + 2 * G.Q.nSlater + 2) (optTransDiff G.Q G.fix G.st.pfM ip) a else a

end MVMC
