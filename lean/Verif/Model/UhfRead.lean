import Verif.Model.UhfOut
import Verif.Model.KeyWord
import Verif.Model.ReadSizes

/-!
# Model of the readers of the Hartree–Fock program

`/repo/src/ComplexUHF/readdef.c`: the name list, the first pass over the heads of the files (`ReadDefFileNInt`) and the second pass over their lines
(`ReadDefFileIdxPara`). The values of `modpara.def` are given (`UhfMod`). Files of keywords that this program does not use are only opened and closed; they are
left out. Integers are exact; a value `none` is memory that was never written. The first `strlen` of the uninitialised name buffers is taken as 0.
-/
namespace MVMC

/-! ## The name list -/

/-- `cKWListOfFileNameList` (`/repo/src/ComplexUHF/readdef.c:37-50`) -/
def uhfKwList : List Word :=
  ["ModPara", "LocSpin", "Trans", "CoulombIntra", "CoulombInter", "Hund", "PairHop", "Exchange", "Gutzwiller", "Jastrow", "DH2", "DH4", "Orbital",
   "OrbitalAntiParallel", "OrbitalParallel", "OrbitalGeneral", "TransSym", "InGutzwiller", "InJastrow", "InDH2", "InDH4", "InOrbital", "OneBodyG", "TwoBodyG",
   "TwoBodyGEx", "InterAll", "OptTrans", "InOptTrans", "Initial"].map String.toList

/-- The loop of `GetFileName`. Both words are cleared for every line; a line without two words is skipped. After an unknown keyword only a warning is printed and the
name is copied to index -1, before the first entry of the array. (`/repo/src/ComplexUHF/readdef.c:938-972`) -/
def uhfNameLoop : List NLLine → (Nat → Option Word) → KwOut (Nat → Option Word)
  | [], tab => .ok tab
  | l :: ls, tab =>
    let k := l.words.getD 0 []
    let f := l.words.getD 1 []
    if k.length ≥ 200 ∨ f.length ≥ 200 then .ub
    else if k.head? = some '#' ∨ l.blank ∨ k = [] ∨ f = [] then uhfNameLoop ls tab
    else match checkKW k uhfKwList with
      | none => .ub
      | some none => .ub
      | some (some idx) => if tab idx ≠ none then .err else uhfNameLoop ls (fun j => if j = idx then some f else tab j)

/-- `GetFileName` on an existing file (`/repo/src/ComplexUHF/readdef.c:919-975`) -/
def uhfGetFileName (ls : List NLLine) : KwOut (Nat → Option Word) := uhfNameLoop ls (fun _ => none)

/-! ## The first pass -/

/-- The keywords with an effect besides `ModPara`, in the order of the enumeration. (`/repo/src/ComplexUHF/readdef.c:53-66`) -/
inductive UKW
  | locSpin | trans | coulombIntra | coulombInter | hund | pairHop | exchange | orbital | orbitalAP | orbitalP | orbitalG | oneBodyG | interAll | initial
  deriving DecidableEq

/-- the order of the loops over the files (`/repo/src/ComplexUHF/readdef.c:53-66`) -/
def uhfOrder : List UKW :=
  [.locSpin, .trans, .coulombIntra, .coulombInter, .hund, .pairHop, .exchange, .orbital, .orbitalAP, .orbitalP, .orbitalG, .oneBodyG, .interAll, .initial]

/-- `enum KWIdxInt` of this program: the number under which the file of a keyword is opened. (`/repo/src/ComplexUHF/readdef.c:53-66`) -/
def uhfKwIndex : UKW → ℕ
  | .locSpin => 1
  | .trans => 2
  | .coulombIntra => 3
  | .coulombInter => 4
  | .hund => 5
  | .pairHop => 6
  | .exchange => 7
  | .orbital => 12
  | .orbitalAP => 13
  | .orbitalP => 14
  | .orbitalG => 15
  | .oneBodyG => 22
  | .interAll => 25
  | .initial => 28

/-- values of `modpara.def`; `ncond` and `twoSz` are 0 and -1 without their lines (`/repo/src/ComplexUHF/readdef.c:235-262`, `:996-997`) -/
structure UhfMod where
  nsite : ℤ
  ne : Option ℤ
  ncond : Option ℤ
  twoSz : Option ℤ

/-- the counts and flags of the first pass (`/repo/src/ComplexUHF/readdef.c:145-155`) -/
structure UBuf where
  cnt : UKW → ℤ := fun _ => 0
  nAP : ℤ := 0
  nP : ℤ := 0
  nIdx : ℤ := 0
  iAP : ℤ := 0
  iP : ℤ := 0
  orb : Bool := false
  gen : Bool := false
  ap : Bool := false
  par : Bool := false

/-- One turn of the loop: the new counts and whether the head was complete; `none` is undefined behaviour. (`/repo/src/ComplexUHF/readdef.c:269-343`) -/
def uhfHdrStep (k : UKW) (f : HdrFile) (b : UBuf) : Option (UBuf × Bool) :=
  match k with
  | .orbital | .orbitalAP => match readBuffInt f b.iAP with
    | none => none
    | some (n, ok) => some ({ b with orb := true, iAP := n, nAP := n, ap := true, nIdx := b.nIdx + n }, ok)
  | .orbitalP => match readBuffInt f b.iP with
    | none => none
    | some (n, ok) => some ({ b with orb := true, iP := n, nP := 2 * n, par := true, nIdx := b.nIdx + 2 * n }, ok)
  | .orbitalG => match readBuffInt f b.nIdx with
    | none => none
    | some (n, ok) => some ({ b with orb := true, nIdx := n, gen := true }, ok)
  | .pairHop => match readBuffInt f (b.cnt k) with
    | none => none
    | some (n, ok) => some ({ b with cnt := fun j => if j = k then n * 2 else b.cnt j }, ok)
  | _ => match readBuffInt f (b.cnt k) with
    | none => none
    | some (n, ok) => some ({ b with cnt := fun j => if j = k then n else b.cnt j }, ok)

/-- The loop over the files. Outer `none`: no such keyword; inner `none`: the file cannot be opened (`fclose(NULL)`). (`/repo/src/ComplexUHF/readdef.c:181-344`) -/
def uhfHdrLoop (files : UKW → Option (Option HdrFile)) : List UKW → UBuf → KwOut UBuf
  | [], b => .ok b
  | k :: ks, b => match files k with
    | none => uhfHdrLoop files ks b
    | some none => .ub
    | some (some f) => match uhfHdrStep k f b with
      | none => .ub
      | some (b, ok) => if ok then uhfHdrLoop files ks b else .err

/-- the result of the first pass (`/repo/src/ComplexUHF/readdef.c:346-397`) -/
structure USizes where
  buf : UBuf
  gen : Bool
  ne : ℤ
  nsize : ℤ

/-- `ReadDefFileNInt` after the name list; the file `LocSpin` must be present. (`/repo/src/ComplexUHF/readdef.c:164-397`) -/
def uhfNInt (m : UhfMod) (files : UKW → Option (Option HdrFile)) : KwOut USizes :=
  if files .locSpin = none then .err
  else if m.twoSz = some (-1) then .err
  else match uhfHdrLoop files uhfOrder {} with
    | .ub => .ub
    | .err => .err
    | .ok b =>
      match (if b.orb then judgeOrbitalMode b.gen b.ap b.par else .ok (0, b.gen)) with
      | .ok (_, gen) => (match uhfCounts m.ne m.ncond (b.cnt .locSpin) b.orb with
        | .ok (ne, nsize) =>
          let twoSz := m.twoSz.getD (-1)
          if twoSz ≠ 0 ∧ b.orb ∧ (gen = false ∨ (twoSz.tmod 2 ≠ 0 ∧ twoSz ≠ -1)) then .err
          else .ok ⟨b, gen, ne, nsize⟩
        | _ => .err)
      | _ => .err

/-! ## The second pass -/

/-- A row of a table: its integers and its number, real and imaginary part; `none` was never written. (`/repo/src/ComplexUHF/xsetmem_def.c:30-49`) -/
structure URow where
  ints : List ℤ
  re : Option ℚ
  im : Option ℚ
  deriving DecidableEq

/-- a row that no line has filled: the integer tables are zeroed, the others are not (`/repo/src/common/setmemory.c:49-60`, `:75-79`, `:120-124`) -/
def uRowEmpty (n : ℕ) : URow := ⟨List.replicate n 0, none, none⟩

/-- The loop for tables with real numbers; they are read directly into the table. (`/repo/src/ComplexUHF/readdef.c:484-563`) -/
def uhfRealLoop (n : ℕ) (N : ℤ) : List DLine → List URow → RdOut (List URow)
  | [], rows => .ok rows
  | l :: ls, rows =>
    if (rows.length : ℤ) ≥ N then .ub
    else uhfRealLoop n N ls (rows ++ [⟨scanI n (List.replicate n 0) l, if l.ints.length < n then none else l.vals.head?, none⟩])

/-- The loop for tables with complex numbers; the parts are read into `dReValue` and `dImValue`, which keep their values if a line is too short (`dImValue` is set to 0 for
every line if `zero`). (`/repo/src/ComplexUHF/readdef.c:464-481`, `:565-591`, `:741-757`) -/
def uhfCplxLoop (n : ℕ) (zero : Bool) (N : ℤ) : List DLine → Option ℚ → Option ℚ → List URow → RdOut (Option ℚ × Option ℚ × List URow)
  | [], re, im, rows => .ok (re, im, rows)
  | l :: ls, re, im, rows =>
    let im := if zero then some 0 else im
    let re := if l.ints.length < n then re else (l.vals[0]?).or re
    let im := if l.ints.length < n then im else (l.vals[1]?).or im
    if (rows.length : ℤ) ≥ N then .ub
    else uhfCplxLoop n zero N ls re im (rows ++ [⟨scanI n (List.replicate n 0) l, re, im⟩])

/-- The loop over pair hoppings; each line fills two rows. (`/repo/src/ComplexUHF/readdef.c:533-549`) -/
def uhfPairLoop (N : ℤ) : List DLine → ℕ → List URow → RdOut (ℕ × List URow)
  | [], idx, rows => .ok (idx, rows)
  | l :: ls, idx, rows =>
    if 2 * (idx : ℤ) + 1 ≥ N then .ub
    else
      let x := scanI 2 [0, 0] l
      let v := if l.ints.length < 2 then none else l.vals.head?
      uhfPairLoop N ls (idx + 1) (rows ++ [⟨x, v, none⟩, ⟨[x.getD 1 0, x.getD 0 0], v, none⟩])

/-- The loop over one-body operators: stopped by different spins. Result: whether it was stopped, the number of counted rows, the rows.
(`/repo/src/ComplexUHF/readdef.c:717-735`) -/
def uhfOneBodyLoop (N : ℤ) : List DLine → List (Option ℤ) → List URow → RdOut (Bool × List URow × List URow)
  | [], _, rows => .ok (false, rows, rows)
  | l :: ls, x, rows =>
    let x := scanO 4 x l.ints
    match x with
    | [some a, some b, some c, some d] =>
      if (rows.length : ℤ) ≥ N then .ub
      else if b ≠ d then .ok (true, rows, rows ++ [⟨[a, b, c, d], none, none⟩])
      else uhfOneBodyLoop N ls x (rows ++ [⟨[a, b, c, d], none, none⟩])
    | _ => .ub

/-- The loop over local spins: the site is not checked. (`/repo/src/ComplexUHF/readdef.c:451-455`) -/
def uhfLocLoop (Nsite : ℤ) : List DLine → List (Option ℤ) → ℕ → (ℕ → Option ℤ) → RdOut (ℕ × (ℕ → Option ℤ))
  | [], _, idx, t => .ok (idx, t)
  | l :: ls, x, idx, t =>
    let x := scanO 2 x l.ints
    match x with
    | [some a, some b] => if a < 0 ∨ a ≥ Nsite then .ub else uhfLocLoop Nsite ls x (idx + 1) (fun j => if j = a.toNat then some b else t j)
    | _ => .ub

/-- The tables, `info` and the variables kept from file to file. (`/repo/src/ComplexUHF/readdef.c:400-411`) -/
structure UTabs where
  loc : ℕ → Option ℤ
  rows : UKW → List URow
  orb : OrbT
  info : ℤ
  re : Option ℚ
  im : Option ℚ

/-- the table after its file: rows without a line stay empty (`/repo/src/ComplexUHF/xsetmem_def.c:30-49`) -/
def uhfFill (n : ℕ) (N : ℤ) (rows : List URow) : List URow := rows ++ List.replicate (N.toNat - rows.length) (uRowEmpty n)

/-- store a table; a wrong number of lines sets `info` to the value of `ReadDefFileError`, 0 (`/repo/src/ComplexUHF/readdef.c:478-480`) -/
def uhfStore (k : UKW) (n : ℕ) (N : ℤ) (counted rows : List URow) (t : UTabs) : UTabs :=
  { t with rows := fun j => if j = k then uhfFill n N rows else t.rows j, info := if (counted.length : ℤ) ≠ N then uhfDefError else t.info }

/-- One file of the second pass after its five head lines. `N`, `ne`, `nLoc`: numbers of sites, electron pairs and local spins.
(`/repo/src/ComplexUHF/readdef.c:446-763`) -/
def uhfFileStep (N : ℕ) (z : USizes) (k : UKW) (ls : List DLine) (t : UTabs) : RdOut UTabs :=
  let cnt := z.buf.cnt k
  let real (n : ℕ) : RdOut UTabs :=
    if cnt > 0 then (match uhfRealLoop n cnt ls [] with
      | .ok rows => .ok (uhfStore k n cnt rows rows t)
      | _ => .ub)
    else .ok t
  match k with
  | .locSpin => match uhfLocLoop N ls [none, none] 0 t.loc with
    | .ok (idx, loc) =>
      let info := if 2 * z.ne < z.buf.cnt .locSpin then 1 else t.info
      .ok { t with loc := loc, info := if idx ≠ N then uhfDefError else info }
    | _ => .ub
  | .trans =>
    if cnt > 0 then (match uhfCplxLoop 4 true cnt ls t.re t.im [] with
      | .ok (re, im, rows) => .ok (uhfStore k 4 cnt rows rows { t with re := re, im := im })
      | _ => .ub)
    else .ok t
  | .coulombIntra => real 1
  | .coulombInter => real 2
  | .hund => real 2
  | .exchange => real 2
  | .pairHop =>
    if cnt > 0 then (match uhfPairLoop cnt ls 0 [] with
      | .ok (idx, rows) => .ok { uhfStore k 2 cnt rows rows t with info := if (idx : ℤ) ≠ cnt.tdiv 2 then uhfDefError else t.info }
      | _ => .ub)
    else .ok t
  | .interAll =>
    if cnt > 0 then (match uhfCplxLoop 8 false cnt ls t.re t.im [] with
      | .ok (re, im, rows) => .ok (uhfStore k 8 cnt rows rows { t with re := re, im := im })
      | _ => .ub)
    else .ok t
  | .oneBodyG =>
    if cnt > 0 then (match uhfOneBodyLoop cnt ls [none, none, none, none] [] with
      | .ok (stopped, counted, rows) => .ok (uhfStore k 4 cnt counted rows { t with info := if stopped then uhfDefError else t.info })
      | _ => .ub)
    else .ok t
  | .initial =>
    if cnt > 0 then (match uhfCplxLoop 4 true cnt ls t.re t.im [] with
      | .ok (re, im, rows) => .ok (uhfStore k 4 cnt rows rows { t with re := re, im := im })
      | _ => .ub)
    else .ok { t with info := if cnt ≠ 0 then uhfDefError else t.info }
  | .orbital | .orbitalAP => match uhfReadAP z.gen N (ls.map DLine.ints) t.info t.orb with
    | .ok (info, T) => .ok { t with info := info, orb := T }
    | _ => .ub
  | .orbitalP => match uhfReadP N z.buf.nAP.toNat (ls.map DLine.ints) t.info t.orb with
    | .ok (info, T) => .ok { t with info := info, orb := T }
    | _ => .ub
  | .orbitalG => match uhfReadG N z.buf.nIdx.toNat (ls.map DLine.ints) t.info t.orb with
    | .ok (info, T) => .ok { t with info := info, orb := T }
    | _ => .ub

/-- The loop over the files; `none`: fewer than five lines. (`/repo/src/ComplexUHF/readdef.c:430-769`) -/
def uhfFileLoop (N : ℕ) (z : USizes) (files : UKW → Option (Option (List DLine))) : List UKW → UTabs → RdOut UTabs
  | [], t => .ok t
  | k :: ks, t => match files k with
    | none => uhfFileLoop N z files ks t
    | some none => .err
    | some (some ls) => match uhfFileStep N z k ls t with
      | .ok t => uhfFileLoop N z files ks t
      | .err => .err
      | .ub => .ub
      | .hang => .hang

/-- the tables before the second pass (`/repo/src/ComplexUHF/xsetmem_def.c:24-51`, `/repo/src/ComplexUHF/readdef.c:409-428`) -/
def uhfTabs0 (N : ℕ) (z : USizes) : UTabs :=
  { loc := fun _ => none, rows := fun _ => [], orb := uhfOrbInit z.gen N, info := 0, re := none, im := none }

/-- `ReadDefFileIdxPara` (`/repo/src/ComplexUHF/readdef.c:400-776`) -/
def uhfIdxPara (N : ℕ) (z : USizes) (files : UKW → Option (Option (List DLine))) : RdOut UTabs :=
  match uhfFileLoop N z files uhfOrder (uhfTabs0 N z) with
  | .ok t => if t.info ≠ 0 then .err else .ok t
  | .err => .err
  | .ub => .ub
  | .hang => .hang

end MVMC
