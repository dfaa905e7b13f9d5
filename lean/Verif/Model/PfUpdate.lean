import Mathlib.Algebra.Field.Defs
import Verif.Model.SamplerFsz

/-!
# Model of the Pfaffian and inverse-matrix updates

`/repo/src/mVMC/matrix.c` (`calculateMAll_child_*`), `pfupdate.c`, `pfupdate_real.c`, `pfupdate_fsz.c`,
`pfupdate_fsz_real.c`, `pfupdate_two_fcmp.c`, `pfupdate_two_real.c`, `pfupdate_two_fsz.c`, `pfupdate_two_fsz_real.c`.

`SlaterElm`, `PfM` and `InvM` are flat arrays, addressed with the C index expressions. `K` is the number
type: `ℂ` for the `_fcmp`/`_fsz` files, `ℝ` for the `_real` files, whose text is the same apart from the type
(exact arithmetic instead of floating point). The `_fsz` files differ from the others only in the row number
of an electron (`ma` instead of `ma+s*Ne`) and in the spin lookup (`eleSpn[msi]` instead of `msi/Ne`); both
enter through `msa` and the function `rs` (electron row → spin-orbital row of the Slater matrix).
The OpenMP loop over `qpidx` writes disjoint parts of `PfM` and `InvM` and is modelled as an ordinary loop.
-/
namespace MVMC

variable {K : Type} [Field K]

/-- `a[i] += v` (`/repo/src/mVMC/pfupdate.c:143-215`) -/
def addAt (a : Nat → K) (i : Nat) (v : K) : Nat → K := fun k => if k = i then a k + v else a k

/-- `a[i] = v` (`/repo/src/mVMC/pfupdate.c:143-215`) -/
def setAt (a : Nat → K) (i : Nat) (v : K) : Nat → K := fun k => if k = i then v else a k

/-- `z = 0.0; for(j=0;j<n;j++) z += f(j);` (`/repo/src/mVMC/pfupdate.c:60-75`) -/
def sumLoop (n : Nat) (f : Nat → K) : K := (List.range n).foldl (fun z j => z + f j) 0

/-- `Ne`, `Nsite`; `Nsize = 2*Ne` and `Nsite2 = 2*Nsite` (`/repo/src/mVMC/readdef.c:757-758`). -/
structure PfPar where
  Ne : Nat
  Nsite : Nat

/-- Source: `/repo/src/mVMC/include/global.h:54`. -/
def PfPar.Nsize (p : PfPar) : Nat := 2 * p.Ne
/-- Source: `/repo/src/mVMC/include/global.h:55`. -/
def PfPar.Nsite2 (p : PfPar) : Nat := 2 * p.Nsite

/-- `rsi = eleIdx[msi] + (msi/Ne)*Nsite` (`/repo/src/mVMC/pfupdate.c:66-70`) -/
def rsSz (p : PfPar) (idx : Arr) (msi : Nat) : Nat := (idx msi).toNat + (msi / p.Ne) * p.Nsite

/-- `rsi = eleIdx[msi] + eleSpn[msi]*Nsite` (`/repo/src/mVMC/pfupdate_fsz.c:60-66`) -/
def rsFsz (p : PfPar) (idx spn : Arr) (msi : Nat) : Nat := (idx msi).toNat + (spn msi).toNat * p.Nsite

/-- The arrays `PfM` and `InvM`. (`/repo/src/mVMC/include/global.h:247-249`) -/
structure PfState (K : Type) where
  pfM : Nat → K
  invM : Nat → K

/-- `SlaterElm[(qpidx+qpStart)*Nsite2*Nsite2 + rsi*Nsite2 + rsj]`
(`/repo/src/mVMC/pfupdate.c:60-66`) -/
def sltAt (p : PfPar) (slt : Nat → K) (q rsi rsj : Nat) : K := slt (q * p.Nsite2 * p.Nsite2 + rsi * p.Nsite2 + rsj)

/-- `InvM[qpidx*Nsize*Nsize + msi*Nsize + msj]` (`/repo/src/mVMC/pfupdate.c:60-66`) -/
def invAt (p : PfPar) (inv : Nat → K) (q msi msj : Nat) : K := inv (q * p.Nsize * p.Nsize + msi * p.Nsize + msj)

/-! ### from scratch -/

/-- What the linear algebra library is trusted to return for a column-major skew matrix
(`M_ZSKTRF`, `utu2pfa_z`, `utu2inv_z`): `none` for `info≠0` or a non-finite Pfaffian, otherwise the Pfaffian and
the column-major inverse. (`/repo/src/mVMC/matrix.c:165-176`) -/
abbrev SkLib (K : Type) := Nat → (Nat → K) → Option (K × (Nat → K))

/-- `calculateMAll_child_fcmp` (`/repo/src/mVMC/matrix.c:332-387`; `_fsz` 125-179, `_fsz_real` 223-278, `_real` 557-614):
store `-sltE`, factorise, store the Pfaffian, change the sign of the inverse. -/
def calculateMAllChild (p : PfPar) (lib : SkLib K) (slt : Nat → K) (qpStart q : Nat) (rs : Nat → Nat)
    (st : PfState K) : Option (PfState K) :=
  let base := q * p.Nsize * p.Nsize
  let inv1 := (List.range p.Nsize).foldl (fun m msi =>
    (List.range p.Nsize).foldl (fun m msj =>
      setAt m (base + msi * p.Nsize + msj) (- sltAt p slt (q + qpStart) (rs msi) (rs msj))) m) st.invM
  match lib p.Nsize (fun k => inv1 (base + k)) with
  | none => none
  | some (pfaff, inv2) =>
    some {
      pfM := setAt st.pfM q pfaff
      invM := (List.range (p.Nsize * p.Nsize)).foldl (fun m k => setAt m (base + k) (-1 * inv2 k)) inv1 }

/-- `CalculateMAll_fcmp` (`/repo/src/mVMC/matrix.c:285-330`): all projections from `qpStart` to `qpEnd`. -/
def calculateMAll (p : PfPar) (lib : SkLib K) (slt : Nat → K) (qpStart qpEnd : Nat) (rs : Nat → Nat)
    (st : PfState K) : Option (PfState K) :=
  (List.range (qpEnd - qpStart)).foldl (fun o q =>
    match o with
    | none => none
    | some st => calculateMAllChild p lib slt qpStart q rs st) (some st)

/-! ### one electron -/

/-- `CalculateNewPfM` (`/repo/src/mVMC/pfupdate.c:39-75`), `CalculateNewPfM2` (78-116): `pfMNew[qpidx]`. The sum is
split into the up and the down electrons. `msa = ma+s*Ne`, `rsa = eleIdx[msa]+s*Nsite`. -/
def calculateNewPfM (p : PfPar) (slt : Nat → K) (ma s : Nat) (idx : Arr) (qpStart : Nat) (st : PfState K) (q : Nat) : K :=
  let msa := ma + s * p.Ne
  let rsa := (idx msa).toNat + s * p.Nsite
  let r1 := (List.range p.Ne).foldl (fun z msj =>
    z + invAt p st.invM q msa msj * sltAt p slt (q + qpStart) rsa (idx msj).toNat) 0
  let ratio := (List.range' p.Ne (p.Nsize - p.Ne)).foldl (fun z msj =>
    z + invAt p st.invM q msa msj * sltAt p slt (q + qpStart) rsa ((idx msj).toNat + p.Nsite)) r1
  let pfMNew := -ratio * st.pfM q
  pfMNew

/-- `CalculateNewPfM_fsz` (`/repo/src/mVMC/pfupdate_fsz.c:35-71`), `CalculateNewPfM2_fsz` (74-111). -/
def calculateNewPfMFsz (p : PfPar) (slt : Nat → K) (ma s : Nat) (idx spn : Arr) (qpStart : Nat) (st : PfState K) (q : Nat) : K :=
  let rsa := (idx ma).toNat + s * p.Nsite
  let ratio := sumLoop p.Nsize (fun msj =>
    invAt p st.invM q ma msj * sltAt p slt (q + qpStart) rsa ((idx msj).toNat + (spn msj).toNat * p.Nsite))
  let pfMNew := -ratio * st.pfM q
  pfMNew

/-- `updateMAll_child` (`/repo/src/mVMC/pfupdate.c:143-216`), `updateMAll_child_fsz`
(`/repo/src/mVMC/pfupdate_fsz.c:138-213`). -/
def updateMAllChild (p : PfPar) (slt : Nat → K) (msa rsa : Nat) (rs : Nat → Nat) (qpStart q : Nat) (st : PfState K) : PfState K :=
  let n := p.Nsize
  let base := q * p.Nsize * p.Nsize
  let vec1 : Nat → K := (List.range n).foldl (fun v msj =>
    (List.range n).foldl (fun v msi =>
      addAt v msi (- invAt p st.invM q msj msi * sltAt p slt (q + qpStart) rsa (rs msj))) v) (fun _ => 0)
  let tmp := vec1 msa
  let invVec1 := -1 / tmp
  let vec2 : Nat → K := fun msi => invAt p st.invM q msa msi * invVec1
  let inv1 := (List.range n).foldl (fun m msi =>
    addAt ((List.range n).foldl (fun m msj =>
      addAt m (base + msi * p.Nsize + msj) (vec1 msi * vec2 msj - vec1 msj * vec2 msi)) m)
      (base + msi * p.Nsize + msa) (- vec2 msi)) st.invM
  let inv2 := (List.range n).foldl (fun m msj => addAt m (base + msa * p.Nsize + msj) (vec2 msj)) inv1
  { pfM := setAt st.pfM q (st.pfM q * (- tmp)), invM := inv2 }

/-- `UpdateMAll` (`/repo/src/mVMC/pfupdate.c:119-141`). -/
def updateMAll (p : PfPar) (slt : Nat → K) (ma s : Nat) (idx : Arr) (qpStart qpEnd : Nat) (st : PfState K) : PfState K :=
  (List.range (qpEnd - qpStart)).foldl (fun st q =>
    updateMAllChild p slt (ma + s * p.Ne) ((idx (ma + s * p.Ne)).toNat + s * p.Nsite) (rsSz p idx) qpStart q st) st

/-- `UpdateMAll_fsz` (`/repo/src/mVMC/pfupdate_fsz.c:114-136`). -/
def updateMAllFsz (p : PfPar) (slt : Nat → K) (ma s : Nat) (idx spn : Arr) (qpStart qpEnd : Nat) (st : PfState K) : PfState K :=
  (List.range (qpEnd - qpStart)).foldl (fun st q =>
    updateMAllChild p slt ma ((idx ma).toNat + s * p.Nsite) (rsFsz p idx spn) qpStart q st) st

/-! ### two electrons -/

/-- `calculateNewPfMTwo_child_fcmp` (`/repo/src/mVMC/pfupdate_two_fcmp.c:107-184`), `_fsz`
(`/repo/src/mVMC/pfupdate_two_fsz.c:112-189`): `pfMNew[qpidx]`. -/
def calculateNewPfMTwoChild (p : PfPar) (slt : Nat → K) (msa rsa msb rsb : Nat) (rs : Nat → Nat) (qpStart : Nat)
    (st : PfState K) (q : Nat) : K :=
  let n := p.Nsize
  let vec_a : Nat → K := fun msi => sltAt p slt (q + qpStart) rsa (rs msi)
  let vec_b : Nat → K := fun msi => sltAt p slt (q + qpStart) rsb (rs msi)
  let vec_ba := vec_b msa
  let invM := invAt p st.invM q
  let invM_ab := invM msa msb
  let p_a := sumLoop n (fun msi => invM msa msi * vec_a msi)
  let p_b := sumLoop n (fun msi => invM msb msi * vec_a msi)
  let q_a := sumLoop n (fun msi => invM msa msi * vec_b msi)
  let q_b := sumLoop n (fun msi => invM msb msi * vec_b msi)
  let bMa := sumLoop n (fun msi => vec_b msi * sumLoop n (fun msj => invM msi msj * vec_a msj))
  let ratio := invM_ab * vec_ba + invM_ab * bMa + p_a * q_b - p_b * q_a
  ratio * st.pfM q

/-- `CalculateNewPfMTwo_fcmp` (`/repo/src/mVMC/pfupdate_two_fcmp.c:45-67`), `CalculateNewPfMTwo2_fcmp` (73-104). -/
def calculateNewPfMTwo (p : PfPar) (slt : Nat → K) (ma s mb t : Nat) (idx : Arr) (qpStart : Nat) (st : PfState K) (q : Nat) : K :=
  let msa := ma + s * p.Ne
  let msb := mb + t * p.Ne
  if msa = msb then calculateNewPfM p slt mb t idx qpStart st q
  else calculateNewPfMTwoChild p slt msa ((idx msa).toNat + s * p.Nsite) msb ((idx msb).toNat + t * p.Nsite)
    (rsSz p idx) qpStart st q

/-- `CalculateNewPfMTwo_fsz` (`/repo/src/mVMC/pfupdate_two_fsz.c:50-72`), `CalculateNewPfMTwo2_fsz` (78-109). -/
def calculateNewPfMTwoFsz (p : PfPar) (slt : Nat → K) (ma s mb t : Nat) (idx spn : Arr) (qpStart : Nat) (st : PfState K) (q : Nat) : K :=
  if ma = mb then calculateNewPfMFsz p slt mb t idx spn qpStart st q
  else calculateNewPfMTwoChild p slt ma ((idx ma).toNat + s * p.Nsite) mb ((idx mb).toNat + t * p.Nsite)
    (rsFsz p idx spn) qpStart st q

/-- `updateMAllTwo_child_fcmp` (`/repo/src/mVMC/pfupdate_two_fcmp.c:217-344`), `_fsz`
(`/repo/src/mVMC/pfupdate_two_fsz.c:222-349`). `mOld` is the number stored into `vecS[msb]`
(line 260; the code reads it from the Slater matrix at `(raOld+s*Nsite, raOld+t*Nsite)`). -/
def updateMAllTwoChild (p : PfPar) (slt : Nat → K) (msa rsa msb rsb : Nat) (rs : Nat → Nat) (mOld : K) (qpStart q : Nat)
    (st : PfState K) : PfState K :=
  let n := p.Nsize
  let base := q * p.Nsize * p.Nsize
  let invM := invAt p st.invM q
  let invM_ab := invM msa msb
  let vecS : Nat → K := setAt (fun msi => sltAt p slt (q + qpStart) rsa (rs msi)) msb mOld
  let vecT : Nat → K := fun msi => sltAt p slt (q + qpStart) rsb (rs msi)
  let vecP : Nat → K := fun msi => sumLoop n (fun msj => invM msi msj * vecS msj)
  let vecQ : Nat → K := fun msi => sumLoop n (fun msj => invM msi msj * vecT msj)
  let bMa := sumLoop n (fun msi => vecT msi * vecP msi)
  let ratio := invM_ab * vecT msa + invM_ab * bMa + vecP msa * vecQ msb - vecP msb * vecQ msa
  let a := - vecP msa
  let b := vecP msb
  let c := vecQ msa
  let d := - vecQ msb
  let e := - bMa - vecT msa
  let f := invM msa msb
  let det := a * d - b * c - e * f
  let invDet := 1 / det
  let vs : Nat → K := fun msi => invDet * invM msa msi
  let vt : Nat → K := fun msi => invDet * invM msb msi
  let inv1 := (List.range n).foldl (fun m i =>
    addAt (addAt ((List.range n).foldl (fun m j =>
      addAt m (base + i * p.Nsize + j)
        (a * (vecQ i * vt j - vecQ j * vt i) + b * (vecQ i * vs j - vecQ j * vs i)
          + c * (vecP i * vt j - vecP j * vt i) + d * (vecP i * vs j - vecP j * vs i)
          + e * det * (vs i * vt j - vs j * vt i) + f * invDet * (vecP i * vecQ j - vecQ i * vecP j))) m)
      (base + i * p.Nsize + msa) (- c * vt i - d * vs i - f * invDet * vecQ i))
      (base + i * p.Nsize + msb) (- a * vt i - b * vs i + f * invDet * vecP i)) st.invM
  let inv2 := (List.range n).foldl (fun m j =>
    addAt (addAt m (base + msa * p.Nsize + j) (c * vt j + d * vs j + f * invDet * vecQ j))
      (base + msb * p.Nsize + j) (a * vt j + b * vs j - f * invDet * vecP j)) inv1
  let inv3 := addAt (addAt inv2 (base + msa * p.Nsize + msb) (f * invDet)) (base + msb * p.Nsize + msa) (- (f * invDet))
  { pfM := setAt st.pfM q (st.pfM q * ratio), invM := inv3 }

/-- `UpdateMAllTwo_fcmp` (`/repo/src/mVMC/pfupdate_two_fcmp.c:189-215`). -/
def updateMAllTwo (p : PfPar) (slt : Nat → K) (ma s mb t raOld : Nat) (idx : Arr) (qpStart qpEnd : Nat) (st : PfState K) : PfState K :=
  let msa := ma + s * p.Ne
  let msb := mb + t * p.Ne
  (List.range (qpEnd - qpStart)).foldl (fun st q =>
    updateMAllTwoChild p slt msa ((idx msa).toNat + s * p.Nsite) msb ((idx msb).toNat + t * p.Nsite) (rsSz p idx)
      (sltAt p slt (q + qpStart) (raOld + s * p.Nsite) (raOld + t * p.Nsite)) qpStart q st) st

/-- `UpdateMAllTwo_fsz` (`/repo/src/mVMC/pfupdate_two_fsz.c:194-220`). -/
def updateMAllTwoFsz (p : PfPar) (slt : Nat → K) (ma s mb t raOld : Nat) (idx spn : Arr) (qpStart qpEnd : Nat) (st : PfState K) : PfState K :=
  (List.range (qpEnd - qpStart)).foldl (fun st q =>
    updateMAllTwoChild p slt ma ((idx ma).toNat + s * p.Nsite) mb ((idx mb).toNat + t * p.Nsite) (rsFsz p idx spn)
      (sltAt p slt (q + qpStart) (raOld + s * p.Nsite) (raOld + t * p.Nsite)) qpStart q st) st

/-- `CalculateIP_fcmp` (`/repo/src/mVMC/qp.c:110-127`) on one process: `Σ QPFullWeight[qpidx+qpStart] * pfM[qpidx]`. -/
def calculateIPLocal (w : Nat → K) (pfM : Nat → K) (qpStart qpEnd : Nat) : K :=
  sumLoop (qpEnd - qpStart) (fun q => w (q + qpStart) * pfM q)

end MVMC
