import Verif.Model.ReadDef

/-!
# Model of the readers of the symmetry tables

`/repo/src/mVMC/readdef.c:2232-2264,2385-2418,1138-1144`. Lines are seen through `sscanf` as in `Model/ReadDef.lean`. The tables are
allocated without being filled (`/repo/src/mVMC/setmemory.c:174-190,215-225`): `none` is an entry that has not been written. A store
outside a row is undefined behaviour.
-/
namespace MVMC

/-- `QPTrans`, `QPTransSgn`, `QPTransInv` and `ParaQPTrans` (real and imaginary part)
(`/repo/src/mVMC/include/global.h:143-158`). -/
structure TransT where
  trans : ℕ → ℕ → Option ℤ
  sgn : ℕ → ℕ → Option ℤ
  inv : ℕ → ℕ → Option ℤ
  para : ℕ → Option (ℚ × ℚ)

/-- after `SetMemoryDef` (`/repo/src/mVMC/setmemory.c:174-190`) -/
def TransT.fresh : TransT := ⟨fun _ _ => none, fun _ _ => none, fun _ _ => none, fun _ => none⟩

/-- a store into a table (`/repo/src/mVMC/readdef.c:2251-2253`) -/
def putAt (a : ℕ → ℕ → Option ℤ) (i j : ℕ) (v : ℤ) : ℕ → ℕ → Option ℤ := fun x y => if x = i ∧ y = j then some v else a x y

/-- The first loop (`/repo/src/mVMC/readdef.c:2241-2248`): `buf` is the content of `ctmp2`; at the end of the file `fgets` leaves it as
it was. Returns the coefficients, the last `itmp` and the unread lines. -/
def coefLoop (NArray : ℕ) : ℕ → List DLine → Option DLine → (ℕ → Option (ℚ × ℚ)) → ℤ → RdOut ((ℕ → Option (ℚ × ℚ)) × ℤ × List DLine)
  | 0, ls, _, p, it => .ok (p, it, ls)
  | k + 1, ls, buf, p, _ =>
    match (match ls with | [] => buf | l :: _ => some l) with
    | none => .ub
    | some l =>
      let it := (scanI 1 [0] l).getD 0 0
      let v := scanV 1 2 [0, 0] l
      if it < 0 ∨ it ≥ NArray then .ub
      else coefLoop NArray k ls.tail (some l) (fun x => if x = it.toNat then some (v.getD 0 0, v.getD 1 0) else p x) it

/-- The second loop (`/repo/src/mVMC/readdef.c:2250-2256`); `x = [i, j, itmp, itmpsgn]`. -/
def transLoop (Nsite NArray : ℕ) : List DLine → List ℤ → ℕ → TransT → RdOut (ℕ × TransT)
  | [], _, idx, t => .ok (idx, t)
  | l :: ls, x, idx, t =>
    let x := scanI 4 x l
    let i := x.getD 0 0
    let j := x.getD 1 0
    let v := x.getD 2 0
    let s := x.getD 3 0
    if i < 0 ∨ i ≥ NArray ∨ j < 0 ∨ j ≥ Nsite ∨ v < 0 ∨ v ≥ Nsite then .ub
    else transLoop Nsite NArray ls x (idx + 1)
      { t with trans := putAt t.trans i.toNat j.toNat v, sgn := putAt t.sgn i.toNat j.toNat s, inv := putAt t.inv i.toNat v.toNat j }

/-- `GetInfoTransSym` (`/repo/src/mVMC/readdef.c:2232-2264`) -/
def getInfoTransSym (apFlag : ℤ) (Nsite NArray : ℕ) (ls : List DLine) (t : TransT) : RdOut TransT :=
  if NArray = 0 then .ok t
  else match coefLoop NArray NArray ls none t.para 0 with
    | .err => .err
    | .ub => .ub
    | .hang => .hang
    | .ok (p, it, ls) =>
      match transLoop Nsite NArray ls [NArray, 0, it, 0] 0 { t with para := p } with
      | .err => .err
      | .ub => .ub
      | .hang => .hang
      | .ok (idx, t) =>
        let t := if apFlag = 0 then { t with sgn := fun i j => if i < NArray ∧ j < Nsite then some 1 else t.sgn i j } else t
        if idx ≠ Nsite * NArray then .err else .ok t

/-- The table part of `GetInfoOptTrans` after the coefficients (`/repo/src/mVMC/readdef.c:2404-2416`): the count is not compared with anything;
the flags are `optTransFlags` of `Model/ReadOrb.lean`. -/
def optTransLoop (Nsite NArray : ℕ) : List DLine → List ℤ → TransT → RdOut TransT
  | [], _, t => .ok t
  | l :: ls, x, t =>
    let x := scanI 4 x l
    let i := x.getD 0 0
    let j := x.getD 1 0
    if i < 0 ∨ i ≥ NArray ∨ j < 0 ∨ j ≥ Nsite then .ub
    else optTransLoop Nsite NArray ls x
      { t with trans := putAt t.trans i.toNat j.toNat (x.getD 2 0), sgn := putAt t.sgn i.toNat j.toNat (x.getD 3 0) }

/-- The table of `GetInfoOptTrans` and its signs when no file is given (`/repo/src/mVMC/readdef.c:1138-1144`). -/
def defaultOptTrans (r : ℕ) : ℕ × ℤ := (r, 1)

end MVMC
