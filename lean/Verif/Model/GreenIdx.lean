import Verif.Model.ReadDef

/-!
# Numbering of the one-body operators for indirect two-body Green functions

A one-body operator `c†_{x0,x1} c_{x2,x3}` is `(x0, x1, x2, x3)` (site, spin, site, spin).
-/

namespace MVMC

/-- Site, spin, site, spin. (`/repo/src/mVMC/readdef.c:2282,2317`) -/
abbrev GOp := ℤ × ℤ × ℤ × ℤ

/-- The integers of each line after `sscanf`; missing ones keep the value of the line
before. (`/repo/src/mVMC/readdef.c:2282,2367`) -/
def sscanRows (n : ℕ) : List DLine → List ℤ → List (List ℤ)
  | [], _ => []
  | l :: ls, x => scanI n x l :: sscanRows n ls (scanI n x l)

/-- The first operator of a row. (`/repo/src/mVMC/readdef.c:2282`) -/
def gop1 (x : List ℤ) : GOp := (x.getD 0 0, x.getD 1 0, x.getD 2 0, x.getD 3 0)

/-- The operator stored for the second half of a row of eight.
/repo/src/mVMC/readdef.c:298-299, 2328-2339. -/
def gop2 (x : List ℤ) : GOp := (x.getD 6 0, x.getD 7 0, x.getD 4 0, x.getD 5 0)

/-- `isite1 = x0 + x1*Ns`, `isite2 = x2 + x3*Ns`; `none` outside the table of size `2*Ns`.
(`/repo/src/mVMC/readdef.c:2288-2294`) -/
def gcell (Ns : ℕ) (o : GOp) : Option (ℤ × ℤ) :=
  let isite1 := o.1 + o.2.1 * (Ns : ℤ)
  let isite2 := o.2.2.1 + o.2.2.2 * (Ns : ℤ)
  if 0 ≤ isite1 ∧ isite1 < 2 * Ns ∧ 0 ≤ isite2 ∧ isite2 < 2 * Ns then some (isite1, isite2) else none

/-- `if (iFlgOneBodyG[isite1][isite2] == -1) { … = icount; icount++; }`.
/repo/src/mVMC/readdef.c:279-284, 288-293, 299-304. -/
def assignIdx (Ns : ℕ) (o : GOp) (st : (ℤ × ℤ → ℤ) × ℕ) : RdOut ((ℤ × ℤ → ℤ) × ℕ) :=
  match gcell Ns o with
  | none => .ub
  | some p =>
    if st.1 p = -1 then .ok (fun q => if q = p then (st.2 : ℤ) else st.1 q, st.2 + 1) else .ok st

/-- Operators assigned in turn. (`/repo/src/mVMC/readdef.c:280-307`) -/
def assignAll (Ns : ℕ) : List GOp → (ℤ × ℤ → ℤ) × ℕ → RdOut ((ℤ × ℤ → ℤ) × ℕ)
  | [], st => .ok st
  | o :: os, st =>
    match assignIdx Ns o st with
    | .ok st => assignAll Ns os st
    | .err => .err
    | .ub => .ub
    | .hang => .hang

/-- `CountOneBodyGForLanczos` with `ReadGreen`: the table of numbers and their count; if
the files cannot be read the count is −1. /repo/src/mVMC/readdef.c:193-315. -/
def countOneBodyG (Ns : ℕ) (Nca Ncaca : ℤ) (l1 l2 : List DLine) : RdOut ((ℤ × ℤ → ℤ) × ℤ) :=
  match getInfoOneBodyG Ns Nca l1 with
  | .ub => .ub
  | .hang => .hang
  | .err => .ok (fun _ => -1, -1)
  | .ok r1 =>
    match getInfoTwoBodyG Ns Ncaca l2 with
    | .ub => .ub
    | .hang => .hang
    | .err => .ok (fun _ => -1, -1)
    | .ok r2 =>
      match assignAll Ns (r1.map fun r => gop1 r.1) (fun _ => -1, 0) with
      | .err => .err
      | .ub => .ub
      | .hang => .hang
      | .ok st =>
        match assignAll Ns (r2.flatMap fun r => [gop1 r.1, gop2 r.1]) st with
        | .err => .err
        | .ub => .ub
        | .hang => .hang
        | .ok st => .ok (st.1, st.2)

/-- The table `CisAjsIdx`: `none` is not written. (`/repo/src/mVMC/readdef.c:2288-2294`) -/
abbrev GTab := ℕ → Option GOp

/-- `idxLanczos = ArrayToIdx[isite1][isite2]; ArrayIdx[idxLanczos][…] = …;`, returns also
the number. /repo/src/mVMC/readdef.c:2283-2290, 2319-2326, 2328-2340. -/
def putOp (Ns : ℕ) (NC : ℤ) (toIdx : ℤ × ℤ → ℤ) (o : GOp) (t : GTab) : Option (ℤ × GTab) :=
  match gcell Ns o with
  | none => none
  | some p =>
    if toIdx p < 0 ∨ toIdx p ≥ NC then none
    else some (toIdx p, fun k => if k = (toIdx p).toNat then some o else t k)

/-- The loop of `GetInfoOneBodyG` with indirection. /repo/src/mVMC/readdef.c:2275-2297. -/
def oneBodyLoop (Ns : ℕ) (NC : ℤ) (toIdx : ℤ × ℤ → ℤ) : List (List ℤ) → GTab → RdOut GTab
  | [], t => .ok t
  | x :: rows, t =>
    match putOp Ns NC toIdx (gop1 x) t with
    | none => .ub
    | some (_, t) =>
      if checkPairSite (x.getD 0 0) (x.getD 2 0) Ns ≠ 0 then .err
      else oneBodyLoop Ns NC toIdx rows t

/-- `GetInfoTwoBodyGEx`: the loop. /repo/src/mVMC/readdef.c:2314-2350. -/
def twoBodyExLoop (Ns : ℕ) (NC N2 : ℤ) (toIdx : ℤ × ℤ → ℤ) :
    List (List ℤ) → ℕ → GTab → (ℕ → Option (ℤ × ℤ)) → RdOut (GTab × (ℕ → Option (ℤ × ℤ)))
  | [], idx, t, c => if (idx : ℤ) ≠ N2 then .err else .ok (t, c)
  | x :: rows, idx, t, c =>
    match putOp Ns NC toIdx (gop1 x) t with
    | none => .ub
    | some (k1, t) =>
      if (idx : ℤ) ≥ N2 then .ub
      else match putOp Ns NC toIdx (gop2 x) t with
        | none => .ub
        | some (k2, t) =>
          let c := fun k => if k = idx then some (k1, k2) else c k
          if checkQuadSite (x.getD 0 0) (x.getD 2 0) (x.getD 4 0) (x.getD 6 0) Ns ≠ 0 then .err
          else twoBodyExLoop Ns NC N2 toIdx rows (idx + 1) t c

/-- The tables `CisAjsIdx` and `CisAjsCktAltIdx` with `NCisAjs`: the first pass counts if
two-body functions are requested (`N2`) or the Lanczos step computes Green functions;
the second pass reads directly unless two-body functions are requested.
/repo/src/mVMC/readdef.c:575-587, 1044-1052, 2266-2302, 2305-2351. -/
def greenTables (Ns : ℕ) (LanczosMode N1 N2 : ℤ) (l1 l2 : List DLine) :
    RdOut (ℤ × GTab × (ℕ → Option (ℤ × ℤ))) :=
  match (if N2 > 0 ∨ LanczosMode > 1 then countOneBodyG Ns N1 N2 l1 l2 else .ok (fun _ => -1, N1)) with
  | .err => .err
  | .ub => .ub
  | .hang => .hang
  | .ok (toIdx, NC) =>
    if N2 > 0 then
      match (if NC = 0 then .ok fun _ => none
        else oneBodyLoop Ns NC toIdx (sscanRows 4 l1 [0, 0, 0, 0]) fun _ => none) with
      | .err => .err
      | .ub => .ub
      | .hang => .hang
      | .ok t =>
        match twoBodyExLoop Ns NC N2 toIdx (sscanRows 8 l2 [0, 0, 0, 0, 0, 0, 0, 0]) 0 t fun _ => none with
        | .err => .err
        | .ub => .ub
        | .hang => .hang
        | .ok (t, c) => .ok (NC, t, c)
    else
      match getInfoOneBodyG Ns NC l1 with
      | .err => .err
      | .ub => .ub
      | .hang => .hang
      | .ok r => .ok (NC, fun k => (r[k]?).map fun r => gop1 r.1, fun _ => none)

end MVMC
