import Mathlib.Data.Rat.Floor
import Mathlib.Data.List.Basic

/-!
# Readers of the definition files

Models of the functions of readdef.c that fill the tables of the Hamiltonian, the
correlation factors and the orbitals.  A file is what is left after the five header
lines.  `ub` stands for a write outside the table or the use of an uninitialised
variable, `hang` for a loop that does not end.  Integers are mathematical integers;
numbers are rationals.
-/

namespace MVMC

/-- Result of a reader. (`/repo/src/mVMC/readdef.c:1973-2380`) -/
inductive RdOut (α : Type)
  | ok (a : α)
  | err
  | ub
  | hang
  deriving DecidableEq, Repr

/-- `CheckSite`. /repo/src/mVMC/readdef.c:1532-1538. -/
def checkSite (iSite iMaxNum : ℤ) : ℤ :=
  if iSite ≥ iMaxNum ∨ iSite < 0 then -1 else 0

/-- `CheckPairSite`. /repo/src/mVMC/readdef.c:1551-1563. -/
def checkPairSite (iSite1 iSite2 iMaxNum : ℤ) : ℤ :=
  if checkSite iSite1 iMaxNum ≠ 0 then -1
  else if checkSite iSite2 iMaxNum ≠ 0 then -1
  else 0

/-- `CheckQuadSite`. /repo/src/mVMC/readdef.c:1578-1592. -/
def checkQuadSite (iSite1 iSite2 iSite3 iSite4 iMaxNum : ℤ) : ℤ :=
  if checkPairSite iSite1 iSite2 iMaxNum ≠ 0 then -1
  else if checkPairSite iSite3 iSite4 iMaxNum ≠ 0 then -1
  else 0

/-! ## Tables read line by line -/

/-- A line as `sscanf` sees it: the conversions `%d` and `%lf` that succeed.
(`/repo/src/mVMC/readdef.c:1973-1995`) -/
structure DLine where
  ints : List ℤ
  vals : List ℚ
  deriving DecidableEq

/-- The integer variables after `sscanf`; those not reached keep their value.
(`/repo/src/mVMC/readdef.c:1980-1990`) -/
def scanI (n : ℕ) (cur : List ℤ) (l : DLine) : List ℤ :=
  l.ints.take n ++ cur.drop l.ints.length

/-- The floating-point variables after `sscanf`; they follow `n` integers.
(`/repo/src/mVMC/readdef.c:1980-1990`) -/
def scanV (n m : ℕ) (cur : List ℚ) (l : DLine) : List ℚ :=
  if l.ints.length < n then cur else l.vals.take m ++ cur.drop l.vals.length

/-- The loop common to the readers: the row is written, then checked.  `rows` is the
part of the table filled so far. (`/repo/src/mVMC/readdef.c:1973-2083`) -/
def rowLoop (n m : ℕ) (check : List ℤ → Bool) (NArray : ℤ) :
    List DLine → List ℤ → List ℚ → List (List ℤ × List ℚ) → RdOut (List (List ℤ × List ℚ))
  | [], _, _, rows => if (rows.length : ℤ) ≠ NArray then .err else .ok rows
  | l :: ls, x, v, rows =>
    let x := scanI n x l
    let v := scanV n m v l
    if (rows.length : ℤ) ≥ NArray then .ub
    else if check x = false then .err
    else rowLoop n m check NArray ls x v (rows ++ [(x, v)])

/-- The readers do nothing if no entry is announced. (`/repo/src/mVMC/readdef.c:1973-2083`) -/
def rowReader (n m : ℕ) (check : List ℤ → Bool) (NArray : ℤ) (ls : List DLine) :
    RdOut (List (List ℤ × List ℚ)) :=
  if NArray = 0 then .ok []
  else rowLoop n m check NArray ls (List.replicate n 0) (List.replicate m 0) []

/-- `GetTransferInfo`. /repo/src/mVMC/readdef.c:1973-1997. -/
def getTransferInfo (Nsite NArray : ℤ) (ls : List DLine) :=
  rowReader 4 2 (fun x => checkPairSite (x.getD 0 0) (x.getD 2 0) Nsite = 0) NArray ls

/-- `GetInfoCoulombIntra`. /repo/src/mVMC/readdef.c:2017-2036. -/
def getInfoCoulombIntra (Nsite NArray : ℤ) (ls : List DLine) :=
  rowReader 1 1 (fun x => checkSite (x.getD 0 0) Nsite = 0) NArray ls

/-- `ReadPairDValue`. /repo/src/mVMC/readdef.c:2063-2083. -/
def readPairDValue (Nsite NArray : ℤ) (ls : List DLine) :=
  rowReader 2 1 (fun x => checkPairSite (x.getD 0 0) (x.getD 1 0) Nsite = 0) NArray ls

/-- `GetInfoTwoBodyG`. /repo/src/mVMC/readdef.c:2354-2383. -/
def getInfoTwoBodyG (Nsite NArray : ℤ) (ls : List DLine) :=
  rowReader 8 0 (fun x => checkQuadSite (x.getD 0 0) (x.getD 2 0) (x.getD 4 0) (x.getD 6 0) Nsite = 0)
    NArray ls

/-- `GetInfoOneBodyG` without indirection. /repo/src/mVMC/readdef.c:2266-2302. -/
def getInfoOneBodyG (Nsite NArray : ℤ) (ls : List DLine) :=
  rowReader 4 0 (fun x => checkPairSite (x.getD 0 0) (x.getD 2 0) Nsite = 0) NArray ls

/-- `GetInfoInterAll`; the magnetisation must be conserved unless it is free.
/repo/src/mVMC/readdef.c:2420-2460. -/
def getInfoInterAll (TwoSz Nsite NArray : ℤ) (ls : List DLine) :=
  rowReader 8 2 (fun x =>
    checkQuadSite (x.getD 0 0) (x.getD 2 0) (x.getD 4 0) (x.getD 6 0) Nsite = 0 ∧
    ¬ (TwoSz ≠ -1 ∧ ¬ (x.getD 1 0 = x.getD 3 0 ∧ x.getD 5 0 = x.getD 7 0))) NArray ls

/-- The loop of `ReadPairHopValue`: each line fills two rows.
/repo/src/mVMC/readdef.c:2044-2060. -/
def pairHopLoop (Nsite NArray : ℤ) :
    List DLine → ℕ → List ℤ → List ℚ → List (List ℤ × List ℚ) → RdOut (List (List ℤ × List ℚ))
  | [], idx, _, _, rows => if 2 * (idx : ℤ) ≠ NArray then .err else .ok rows
  | l :: ls, idx, x, v, rows =>
    let x := scanI 2 x l
    let v := scanV 2 1 v l
    if 2 * (idx : ℤ) ≥ NArray then .ub
    else if checkPairSite (x.getD 0 0) (x.getD 1 0) Nsite ≠ 0 then .err
    else if 2 * (idx : ℤ) + 1 ≥ NArray then .ub
    else pairHopLoop Nsite NArray ls (idx + 1) x v (rows ++ [(x, v), ([x.getD 1 0, x.getD 0 0], v)])

/-- `ReadPairHopValue`. /repo/src/mVMC/readdef.c:2038-2061. -/
def readPairHopValue (Nsite NArray : ℤ) (ls : List DLine) : RdOut (List (List ℤ × List ℚ)) :=
  if NArray = 0 then .ok []
  else pairHopLoop Nsite NArray ls 0 [0, 0] [0] []

/-- The loop of `GetLocSpinInfo`; the entry is written before the site is checked.
`none` is an entry never written. /repo/src/mVMC/readdef.c:2003-2012. -/
def locSpinLoop (Nsite : ℕ) : List DLine → ℕ → List ℤ → (ℕ → Option ℤ) → RdOut (ℕ → Option ℤ)
  | [], idx, _, tab => if idx ≠ Nsite then .err else .ok tab
  | l :: ls, idx, x, tab =>
    let x := scanI 2 x l
    let x0 := x.getD 0 0
    let x1 := x.getD 1 0
    if x0 < 0 ∨ x0 ≥ Nsite then .ub
    else
      let tab := fun j => if j = x0.toNat then some x1 else tab j
      if checkSite x0 Nsite ≠ 0 then .err
      else locSpinLoop Nsite ls (idx + 1) x tab

/-- `GetLocSpinInfo`. /repo/src/mVMC/readdef.c:1999-2015. -/
def getLocSpinInfo (Nsite : ℕ) (ls : List DLine) : RdOut (ℕ → Option ℤ) :=
  locSpinLoop Nsite ls 0 [0, 0] (fun _ => none)

/-! ## Tables read word by word -/

/-- A word for `fscanf("%d")`: an integer, or something else, at which the stream stays.
(`/repo/src/mVMC/readdef.c:1999-2015,2117-2230`) -/
abbrev Tok := Option ℤ

/-- Up to `n` integers at the start of the stream, and the rest.
(`/repo/src/mVMC/readdef.c:2117-2230`) -/
def lead : ℕ → List Tok → List ℤ × List Tok
  | 0, s => ([], s)
  | _ + 1, [] => ([], [])
  | _ + 1, none :: s => ([], none :: s)
  | n + 1, some z :: s => (z :: (lead n s).1, (lead n s).2)

/-- `fscanf` of `n` integers: the variables and the rest of the stream.
(`/repo/src/mVMC/readdef.c:2117-2230`) -/
def fscanI (n : ℕ) (cur : List ℤ) (s : List Tok) : List ℤ × List Tok :=
  ((lead n s).1 ++ cur.drop (lead n s).1.length, (lead n s).2)

/-- A table of integers; `none` is an entry never written.
(`/repo/src/mVMC/readdef.c:2117-2230`) -/
abbrev Tab := ℕ → Option ℤ

/-- Store a value in a table. (`/repo/src/mVMC/readdef.c:2117-2230`) -/
def Tab.put (t : Tab) (i : ℕ) (v : Option ℤ) : Tab := fun j => if j = i then v else t j

/-- What the body of an entry loop does: leave with an error, write outside the
table, or go on. (`/repo/src/mVMC/readdef.c:2117-2230`) -/
inductive Step
  | stop
  | ub
  | cont (s : List Tok) (t : Tab)

/-- The loop over the entries: `rem` more entries until the loop is left.  With
`rem = 0` at the start the counter never reaches the limit.  The result is the number of
entries, the variable `info`, the table and the rest of the file.
(`/repo/src/mVMC/readdef.c:2117-2230`) -/
def entryLoop (nk : ℕ) (body : List ℤ → List Tok → Tab → Step) :
    ℕ → List ℤ → List Tok → Tab → ℕ → RdOut (ℕ × ℤ × Tab × List Tok)
  | 0, x, s, t, cnt =>
    if s = [] then .ok (cnt, 0, t, s)
    else match body (fscanI nk x s).1 (fscanI nk x s).2 t with
      | .stop => .ok (cnt, 1, t, (fscanI nk x s).2)
      | .ub => .ub
      | .cont _ _ => .hang
  | rem + 1, x, s, t, cnt =>
    if s = [] then .ok (cnt, 0, t, s)
    else match body (fscanI nk x s).1 (fscanI nk x s).2 t with
      | .stop => .ok (cnt, 1, t, (fscanI nk x s).2)
      | .ub => .ub
      | .cont s' t' =>
        if rem = 0 then .ok (cnt + 1, 0, t', s')
        else entryLoop nk body rem (fscanI nk x s).1 s' t' (cnt + 1)

/-- `GetInfoOpt`: flag number `fidx` and, for complex parameters, its imaginary part.
The index read before each flag is not used.  Words that are not integers keep the loop
going. /repo/src/mVMC/readdef.c:2101-2114. -/
def getInfoOpt (cap : ℕ) (iComplxFlag : ℤ) : List Tok → ℕ → Tab → ℕ → RdOut (ℕ × Tab)
  | [], _, opt, cnt => .ok (cnt, opt)
  | none :: _, _, _, _ => if iComplxFlag > 0 then .ub else .hang
  | some _ :: some f :: s, fidx, opt, cnt =>
    if 2 * fidx ≥ cap then .ub
    else
      let opt := opt.put (2 * fidx) (some f)
      if iComplxFlag > 0 then
        if 2 * fidx + 1 ≥ cap then .ub
        else getInfoOpt cap iComplxFlag s (fidx + 1) (opt.put (2 * fidx + 1) (opt (2 * fidx))) (cnt + 1)
      else getInfoOpt cap iComplxFlag s (fidx + 1) opt (cnt + 1)
  | some _ :: s, fidx, opt, cnt =>
    if iComplxFlag > 0 then
      if 2 * fidx + 1 ≥ cap then .ub
      else getInfoOpt cap iComplxFlag s (fidx + 1) (opt.put (2 * fidx + 1) (opt (2 * fidx))) (cnt + 1)
    else getInfoOpt cap iComplxFlag s (fidx + 1) opt (cnt + 1)

/-- Entries followed by flags: the shape of the readers of parameter indices.  `cap` is
the size of the flag array. (`/repo/src/mVMC/readdef.c:2117-2230`) -/
def groupReader (nk : ℕ) (body : List ℤ → List Tok → Tab → Step) (limit nOpt : ℕ) (cap : ℕ)
    (iComplxFlag : ℤ) (fidx : ℕ) (NArray : ℤ) (s : List Tok) (t opt : Tab) : RdOut (Tab × Tab) :=
  if NArray > 0 then
    match entryLoop nk body limit (List.replicate nk 0) s t 0 with
    | .err => .err
    | .ub => .ub
    | .hang => .hang
    | .ok (idx0, info, t, s) =>
      match getInfoOpt cap iComplxFlag s fidx opt 0 with
      | .err => .err
      | .ub => .ub
      | .hang => .hang
      | .ok (idx1, opt) => 
        if idx0 ≠ limit ∨ idx1 ≠ nOpt then .err else if info ≠ 0 then .err else .ok (t, opt)
  else .ok (t, opt)

/-- Body of `GetInfoGutzwiller` and `GetInfoRBM_Layer`: the index of site `i` is stored
before `i` is checked. /repo/src/mVMC/readdef.c:2126-2133, 2650-2658. -/
def layerBody (Nlayer : ℕ) (x : List ℤ) (s : List Tok) (t : Tab) : Step :=
  let i := x.getD 0 0
  match s with
  | some v :: s' =>
    if i < 0 ∨ i ≥ Nlayer then .ub
    else if checkSite i Nlayer ≠ 0 then .stop
    else .cont s' (t.put i.toNat (some v))
  | s => if checkSite i Nlayer ≠ 0 then .stop else .cont s t

/-- `GetInfoGutzwiller`. /repo/src/mVMC/readdef.c:2117-2142. -/
def getInfoGutzwiller (Nsite : ℕ) (cap : ℕ) (c : ℤ) (NArray : ℤ) (s : List Tok) (t opt : Tab) :=
  groupReader 1 (layerBody Nsite) Nsite NArray.toNat cap c 0 NArray s t opt

/-- `GetInfoRBM_Layer`. /repo/src/mVMC/readdef.c:2642-2667. -/
def getInfoRBM_Layer (Nlayer : ℕ) (cap : ℕ) (c : ℤ) (fidx : ℕ) (NArray : ℤ) (s : List Tok)
    (t opt : Tab) :=
  groupReader 1 (layerBody Nlayer) Nlayer NArray.toNat cap c fidx NArray s t opt

/-- Body of `GetInfoJastrow`; entry `(i, j)` is number `i * Nsite + j`.
/repo/src/mVMC/readdef.c:2150-2168. -/
def jastrowBody (Nsite : ℕ) (x : List ℤ) (s : List Tok) (t : Tab) : Step :=
  let i := x.getD 0 0
  let j := x.getD 1 0
  if i = j then .stop
  else if checkPairSite i j Nsite ≠ 0 then .stop
  else
    let diag := fun t : Tab => t.put (i.toNat * Nsite + i.toNat) (some (-1))
    match s with
    | some v :: s' => .cont s' (diag (t.put (i.toNat * Nsite + j.toNat) (some v)))
    | s => .cont s (diag t)

/-- `GetInfoJastrow`. /repo/src/mVMC/readdef.c:2144-2175. -/
def getInfoJastrow (Nsite : ℕ) (cap : ℕ) (c : ℤ) (fidx : ℕ) (NArray : ℤ) (s : List Tok)
    (t opt : Tab) :=
  groupReader 2 (jastrowBody Nsite) (Nsite * (Nsite - 1)) NArray.toNat cap c fidx NArray s t opt

/-- Body of `GetInfoDH2`; entry `(n, k)` is number `n * 2 * Nsite + k`.
/repo/src/mVMC/readdef.c:2186-2195. -/
def dh2Body (Nsite NArray : ℕ) (x : List ℤ) (s : List Tok) (t : Tab) : Step :=
  let i := x.getD 0 0
  let x0 := x.getD 1 0
  let x1 := x.getD 2 0
  let n := x.getD 3 0
  if n < 0 ∨ n ≥ NArray ∨ i < 0 ∨ i ≥ Nsite then .ub
  else
    let b := n.toNat * (2 * Nsite)
    let t := t.put (b + 2 * i.toNat) (some x0)
    let t := t.put (b + (2 * i.toNat + 1)) (some x1)
    if checkSite i Nsite ≠ 0 ∨ checkPairSite x0 x1 Nsite ≠ 0 then .stop
    else .cont s t

/-- `GetInfoDH2`. /repo/src/mVMC/readdef.c:2178-2202. -/
def getInfoDH2 (Nsite : ℕ) (cap : ℕ) (c : ℤ) (fidx : ℕ) (NArray : ℤ) (s : List Tok)
    (t opt : Tab) :=
  groupReader 4 (dh2Body Nsite NArray.toNat) (Nsite * NArray.toNat) (2 * 3 * NArray.toNat) cap c fidx
    NArray s t opt

/-- Body of `GetInfoDH4`; entry `(n, k)` is number `n * 4 * Nsite + k`.
/repo/src/mVMC/readdef.c:2213-2225. -/
def dh4Body (Nsite NArray : ℕ) (x : List ℤ) (s : List Tok) (t : Tab) : Step :=
  let i := x.getD 0 0
  let x0 := x.getD 1 0
  let x1 := x.getD 2 0
  let x2 := x.getD 3 0
  let x3 := x.getD 4 0
  let n := x.getD 5 0
  if n < 0 ∨ n ≥ NArray ∨ i < 0 ∨ i ≥ Nsite then .ub
  else
    let b := n.toNat * (4 * Nsite)
    let t := t.put (b + 4 * i.toNat) (some x0)
    let t := t.put (b + (4 * i.toNat + 1)) (some x1)
    let t := t.put (b + (4 * i.toNat + 2)) (some x2)
    let t := t.put (b + (4 * i.toNat + 3)) (some x3)
    if checkSite i Nsite ≠ 0 ∨ checkQuadSite x0 x1 x2 x3 Nsite ≠ 0 then .stop
    else .cont s t

/-- `GetInfoDH4`. /repo/src/mVMC/readdef.c:2204-2230. -/
def getInfoDH4 (Nsite : ℕ) (cap : ℕ) (c : ℤ) (fidx : ℕ) (NArray : ℤ) (s : List Tok)
    (t opt : Tab) :=
  groupReader 6 (dh4Body Nsite NArray.toNat) (Nsite * NArray.toNat) (2 * 5 * NArray.toNat) cap c fidx
    NArray s t opt

/-- Body of `GetInfoGeneralRBM_Layer`. /repo/src/mVMC/readdef.c:2677-2685. -/
def genLayerBody (Nsite : ℕ) (x : List ℤ) (s : List Tok) (t : Tab) : Step :=
  let i := x.getD 0 0
  let sp := x.getD 1 0
  match s with
  | some v :: s' =>
    if i + sp * Nsite < 0 ∨ i + sp * Nsite ≥ 2 * Nsite then .ub
    else if checkSite i Nsite ≠ 0 ∨ checkSite sp 2 ≠ 0 then .stop
    else .cont s' (t.put (i + sp * Nsite).toNat (some v))
  | s => if checkSite i Nsite ≠ 0 ∨ checkSite sp 2 ≠ 0 then .stop else .cont s t

/-- `GetInfoGeneralRBM_Layer`, called with `Nlayer = Nsite`.
/repo/src/mVMC/readdef.c:2669-2694. -/
def getInfoGeneralRBM_Layer (Nsite : ℕ) (cap : ℕ) (c : ℤ) (fidx : ℕ) (NArray : ℤ) (s : List Tok)
    (t opt : Tab) :=
  groupReader 2 (genLayerBody Nsite) (2 * Nsite) NArray.toNat cap c fidx NArray s t opt

/-- Body of `GetInfoRBM_PhysHidden`; entry `(i, j)` is number `i * Nlayer2 + j`.
/repo/src/mVMC/readdef.c:2703-2713. -/
def physHiddenBody (Nlayer Nlayer2 : ℕ) (x : List ℤ) (s : List Tok) (t : Tab) : Step :=
  let i := x.getD 0 0
  let j := x.getD 1 0
  if checkSite i Nlayer ≠ 0 ∨ checkSite j Nlayer2 ≠ 0 then .stop
  else match s with
    | some v :: s' => .cont s' (t.put (i.toNat * Nlayer2 + j.toNat) (some v))
    | s => .cont s t

/-- `GetInfoRBM_PhysHidden`. /repo/src/mVMC/readdef.c:2697-2721. -/
def getInfoRBM_PhysHidden (Nlayer Nlayer2 : ℕ) (cap : ℕ) (c : ℤ) (fidx : ℕ) (NArray : ℤ)
    (s : List Tok) (t opt : Tab) :=
  groupReader 2 (physHiddenBody Nlayer Nlayer2) (Nlayer * Nlayer2) NArray.toNat cap c fidx NArray s t opt

/-- Body of `GetInfoGeneralRBM_PhysHidden`; entry `(i + s * Nsite, j)` is number
`(i + s * Nsite) * Nlayer2 + j`. /repo/src/mVMC/readdef.c:2729-2739. -/
def genPhysHiddenBody (Nsite Nlayer2 : ℕ) (x : List ℤ) (s : List Tok) (t : Tab) : Step :=
  let i := x.getD 0 0
  let sp := x.getD 1 0
  let j := x.getD 2 0
  if checkSite i Nsite ≠ 0 ∨ checkSite sp 2 ≠ 0 ∨ checkSite j Nlayer2 ≠ 0 then .stop
  else match s with
    | some v :: s' => .cont s' (t.put ((i + sp * Nsite).toNat * Nlayer2 + j.toNat) (some v))
    | s => .cont s t

/-- `GetInfoGeneralRBM_PhysHidden`, called with `Nlayer = Nsite`.
/repo/src/mVMC/readdef.c:2723-2747. -/
def getInfoGeneralRBM_PhysHidden (Nsite Nlayer2 : ℕ) (cap : ℕ) (c : ℤ) (fidx : ℕ) (NArray : ℤ)
    (s : List Tok) (t opt : Tab) :=
  groupReader 3 (genPhysHiddenBody Nsite Nlayer2) (2 * Nsite * Nlayer2) NArray.toNat cap c fidx NArray
    s t opt

end MVMC
