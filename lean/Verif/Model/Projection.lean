import Verif.Model.Sampler

/-!
# Model of the correlation-factor counters

`/repo/src/mVMC/projection.c`. `projCnt` is a function from the flat index; the loops are folds that
perform the same updates in the same order. The OpenMP loops over `xn` are modelled serially; the theorem
`C12_parallel_iterations_disjoint` shows that two different iterations never touch the same counter.
-/
namespace MVMC

/-- Sizes and index tables (`/repo/src/mVMC/include/global.h`): `gIdx = GutzwillerIdx`, `jIdx = JastrowIdx`,
`dh2 xn k = DoublonHolon2siteIdx[xn][k]`, `dh4` likewise. -/
structure ProjPar where
  Nsite : Nat
  NG : Nat
  NJ : Nat
  N2 : Nat
  N4 : Nat
  gIdx : Nat → Nat
  jIdx : Nat → Nat → Nat
  dh2 : Nat → Nat → Nat
  dh4 : Nat → Nat → Nat

/-- `NProj` (`/repo/src/mVMC/readdef.c:760-762`). -/
def ProjPar.NProj (p : ProjPar) : Nat := p.NG + p.NJ + 6 * p.N2 + 10 * p.N4

/-- `a[i] += v`. (`/repo/src/mVMC/projection.c:174-203`) -/
def Arr.add (a : Arr) (i : Nat) (v : Int) : Arr := fun k => if k = i then a k + v else a k

/-- `n0[r]`. (`/repo/src/mVMC/projection.c:158`) -/
def nUp (num : Arr) (r : Nat) : Int := num r
/-- `n1[r]`. (`/repo/src/mVMC/projection.c:159`) -/
def nDn (p : ProjPar) (num : Arr) (r : Nat) : Int := num (r + p.Nsite)

/-- Gutzwiller loop of `MakeProjCnt` (`/repo/src/mVMC/projection.c:73-78`). -/
def makeGutz (p : ProjPar) (num : Arr) (a : Arr) : Arr :=
  if p.NG > 0 then
    (List.range p.Nsite).foldl (fun a ri => a.add (p.gIdx ri) (nUp num ri * nDn p num ri)) a
  else a

/-- Jastrow loop of `MakeProjCnt` (`/repo/src/mVMC/projection.c:80-92`). -/
def makeJast (p : ProjPar) (num : Arr) (a : Arr) : Arr :=
  if p.NJ > 0 then
    (List.range p.Nsite).foldl (fun a ri =>
      let xi := nUp num ri + nDn p num ri - 1
      if xi = 0 then a else
      ((List.range p.Nsite).filter (fun rj => ri + 1 ≤ rj)).foldl (fun a rj =>
        let xj := nUp num rj + nDn p num rj - 1
        a.add (p.NG + p.jIdx ri rj) (xi * xj)) a) a
  else a

/-- One site of the 2-site doublon-holon loop (`/repo/src/mVMC/projection.c:100-116,215-231`). -/
def dh2Site (p : ProjPar) (num : Arr) (xn ri : Nat) (a : Arr) : Arr :=
  let x := nUp num ri + nDn p num ri
  if x = 1 then a else
  let xi := x / 2
  let r0 := p.dh2 xn (2 * ri)
  let r1 := p.dh2 xn (2 * ri + 1)
  let xm := if xi = 0 then nUp num r0 * nDn p num r0 + nUp num r1 * nDn p num r1
    else (1 - nUp num r0) * (1 - nDn p num r0) + (1 - nUp num r1) * (1 - nDn p num r1)
  a.add (p.NG + p.NJ + xn + ((xi + 2 * xm) * p.N2).toNat) 1

/-- 2-site doublon-holon loops (`/repo/src/mVMC/projection.c:94-118,210-233`). -/
def makeDH2 (p : ProjPar) (num : Arr) (a : Arr) : Arr :=
  (List.range p.N2).foldl (fun a xn => (List.range p.Nsite).foldl (fun a ri => dh2Site p num xn ri a) a) a

/-- One site of the 4-site loop (`/repo/src/mVMC/projection.c:126-148,240-262`). -/
def dh4Site (p : ProjPar) (num : Arr) (xn ri : Nat) (a : Arr) : Arr :=
  let x := nUp num ri + nDn p num ri
  if x = 1 then a else
  let xi := x / 2
  let r0 := p.dh4 xn (4 * ri)
  let r1 := p.dh4 xn (4 * ri + 1)
  let r2 := p.dh4 xn (4 * ri + 2)
  let r3 := p.dh4 xn (4 * ri + 3)
  let xm := if xi = 0 then
      nUp num r0 * nDn p num r0 + nUp num r1 * nDn p num r1
        + nUp num r2 * nDn p num r2 + nUp num r3 * nDn p num r3
    else (1 - nUp num r0) * (1 - nDn p num r0) + (1 - nUp num r1) * (1 - nDn p num r1)
        + (1 - nUp num r2) * (1 - nDn p num r2) + (1 - nUp num r3) * (1 - nDn p num r3)
  a.add (p.NG + p.NJ + 6 * p.N2 + xn + ((xi + 2 * xm) * p.N4).toNat) 1

/-- 4-site doublon-holon loops (`/repo/src/mVMC/projection.c:120-150,235-263`). -/
def makeDH4 (p : ProjPar) (num : Arr) (a : Arr) : Arr :=
  (List.range p.N4).foldl (fun a xn => (List.range p.Nsite).foldl (fun a ri => dh4Site p num xn ri a) a) a

/-- `MakeProjCnt` (`/repo/src/mVMC/projection.c:58-152`). -/
def makeProjCnt (p : ProjPar) (num : Arr) : Arr :=
  makeDH4 p num (makeDH2 p num (makeJast p num (makeGutz p num (fun _ => 0))))

/-- `JastrowIdx` with the smaller site first, as all uses in `UpdateProjCnt` select it.
(`/repo/src/mVMC/projection.c:184-200`) -/
def jSel (p : ProjPar) (a b : Nat) : Nat := if a < b then p.jIdx a b else p.jIdx b a

/-- Gutzwiller part of `UpdateProjCnt` (`/repo/src/mVMC/projection.c:174-179`); `num` is the
occupation after the move. -/
def updGutz (p : ProjPar) (ri rj : Nat) (num : Arr) (a : Arr) : Arr :=
  if p.NG > 0 then
    (a.add (p.gIdx ri) (-(nUp num ri + nDn p num ri))).add (p.gIdx rj) (nUp num rj * nDn p num rj)
  else a

/-- Jastrow part of `UpdateProjCnt` (`/repo/src/mVMC/projection.c:181-203`). -/
def updJast (p : ProjPar) (ri rj : Nat) (num : Arr) (a : Arr) : Arr :=
  if p.NJ > 0 then
    let a := a.add (p.NG + jSel p ri rj)
      (nUp num ri + nDn p num ri - nUp num rj - nDn p num rj + 1)
    let a := (List.range p.Nsite).foldl (fun a rk =>
      if rk = rj then a else if rk = ri then a else
      a.add (p.NG + if rk > ri then p.jIdx ri rk else p.jIdx rk ri) (-(nUp num rk + nDn p num rk - 1))) a
    (List.range p.Nsite).foldl (fun a rk =>
      if rk = ri then a else if rk = rj then a else
      a.add (p.NG + if rk > rj then p.jIdx rj rk else p.jIdx rk rj) (nUp num rk + nDn p num rk - 1)) a
  else a

/-- `for(idx=offset;idx<nProj;idx++) projCntNew[idx] = 0;` (`/repo/src/mVMC/projection.c:207-208`). -/
def clearDH (p : ProjPar) (a : Arr) : Arr :=
  fun k => if p.NG + p.NJ ≤ k ∧ k < p.NProj then 0 else a k

/-- `UpdateProjCnt` (`/repo/src/mVMC/projection.c:155-266`). The argument `s` of the C function is not used
there. `old` is `projCntOld`; the copy at the start makes aliasing of old and new harmless. -/
def updateProjCnt (p : ProjPar) (ri rj : Nat) (old : Arr) (num : Arr) : Arr :=
  if ri = rj then old else
  let a := updJast p ri rj num (updGutz p ri rj num old)
  if p.N2 = 0 ∧ p.N4 = 0 then a else
  makeDH4 p num (makeDH2 p num (clearDH p a))

/-- `UpdateProjCnt_fsz` (`/repo/src/mVMC/projection.c:271-382`): a separate function in C with the
same statements; `s` and `t` are not used in the body. -/
def updateProjCntFsz (p : ProjPar) (ri rj : Nat) (old : Arr) (num : Arr) : Arr :=
  if ri = rj then old else
  let a := updGutz p ri rj num old
  let a := updJast p ri rj num a
  if p.N2 = 0 ∧ p.N4 = 0 then a else
  makeDH4 p num (makeDH2 p num (clearDH p a))

end MVMC
