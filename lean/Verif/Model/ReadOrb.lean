import Verif.Model.ReadDef
import Verif.Model.ParamIO
import Verif.Model.Slater

/-!
# Orbital definition files and the layout of the optimisation flags

Files of integers: each line is the list of its integers.  `APFlag` (antiperiodic
boundaries) decides whether the signs of the file are used.
-/

namespace MVMC

/-- `OrbitalIdx` and `OrbitalSgn`; `SetMemoryDef` fills both with 0.
/repo/src/mVMC/setmemory.c:154-172. -/
structure OrbT where
  idx : ℕ → ℕ → ℤ
  sgn : ℕ → ℕ → ℤ

/-- The tables after `SetMemoryDef`. /repo/src/mVMC/setmemory.c:154-172. -/
def OrbT.zero : OrbT := ⟨fun _ _ => 0, fun _ _ => 0⟩

/-- `Array[a][b] = f; ArraySgn[a][b] = s;`. (`/repo/src/mVMC/readdef.c:2462-2640`) -/
def OrbT.set (T : OrbT) (a b : ℕ) (f s : ℤ) : OrbT :=
  ⟨fun x y => if x = a ∧ y = b then f else T.idx x y,
   fun x y => if x = a ∧ y = b then s else T.sgn x y⟩

/-- Both orders of a pair. /repo/src/mVMC/readdef.c:2505-2509, 2560-2564, 2610-2614. -/
def OrbT.mirror (T : OrbT) (a b : ℕ) (f s : ℤ) : OrbT :=
  (T.set a b f s).set b a f (-s)

/-- `sscanf` on a line of integers: the variables that are reached get a value, the others
keep theirs; `none` is an uninitialised variable. (`/repo/src/mVMC/readdef.c:2462-2640`) -/
def scanO (n : ℕ) (x : List (Option ℤ)) (l : List ℤ) : List (Option ℤ) :=
  (l.take n).map some ++ x.drop (l.take n).length

/-- The loop over the lines.  `step` gives the new tables and whether the order of the pair
is wrong (`itmp`); every line counts `inc`; the loop ends at `limit`.  The rest of the
text is returned. (`/repo/src/mVMC/readdef.c:2462-2640`) -/
def orbLoop (n inc limit : ℕ) (step : List (Option ℤ) → OrbT → RdOut (Bool × OrbT)) :
    List (List ℤ) → List (Option ℤ) → ℕ → Bool → OrbT → RdOut (ℕ × Bool × OrbT × List (List ℤ))
  | [], _, idx0, itmp, T => .ok (idx0, itmp, T, [])
  | l :: ls, x, idx0, itmp, T =>
    match step (scanO n x l) T with
    | .err => .err
    | .ub => .ub
    | .hang => .hang
    | .ok (bad, T) =>
      if idx0 + inc = limit then .ok (idx0 + inc, itmp || bad, T, ls)
      else orbLoop n inc limit step ls (scanO n x l) (idx0 + inc) (itmp || bad) T

/-- One line of `GetInfoOrbitalAntiParallel`, tables of size `Nsite`.
/repo/src/mVMC/readdef.c:2477-2485. -/
def apStep (Nsite : ℕ) (x : List (Option ℤ)) (T : OrbT) : RdOut (Bool × OrbT) :=
  match x with
  | [some i, some j, some fij, some fijSign] =>
    if checkPairSite i j Nsite ≠ 0 then .err
    else .ok (false, T.set i.toNat j.toNat fij fijSign)
  | _ => .ub

/-- One line of `GetInfoOrbitalAntiParallel`, tables of size `2*Nsite`.
/repo/src/mVMC/readdef.c:2496-2510. -/
def apGenStep (Nsite : ℕ) (x : List (Option ℤ)) (T : OrbT) : RdOut (Bool × OrbT) :=
  match x with
  | [some i, some j, some fij, some fijSign] =>
    let all_i := i + 0 * (Nsite : ℤ)
    let all_j := j + 1 * (Nsite : ℤ)
    if checkPairSite i j Nsite ≠ 0 then .err
    else .ok (decide (all_i ≥ all_j), T.mirror all_i.toNat all_j.toNat fij fijSign)
  | _ => .ub

/-- One line of `GetInfoOrbitalGeneral`; the spins are not checked.
/repo/src/mVMC/readdef.c:2549-2565. -/
def orbGenStep (Nsite : ℕ) (x : List (Option ℤ)) (T : OrbT) : RdOut (Bool × OrbT) :=
  match x with
  | [some i, some spn_i, some j, some spn_j, some fij, some fijSign] =>
    let all_i := i + spn_i * (Nsite : ℤ)
    let all_j := j + spn_j * (Nsite : ℤ)
    if checkPairSite i j Nsite ≠ 0 then .err
    else if all_i < 0 ∨ all_i ≥ 2 * Nsite ∨ all_j < 0 ∨ all_j ≥ 2 * Nsite then .ub
    else .ok (decide (all_i ≥ all_j), T.mirror all_i.toNat all_j.toNat fij fijSign)
  | _ => .ub

/-- One line of `GetInfoOrbitalParallel`: both spins get their own parameter.
/repo/src/mVMC/readdef.c:2597-2617. -/
def parStep (Nsite NArrayAP : ℕ) (x : List (Option ℤ)) (T : OrbT) : RdOut (Bool × OrbT) :=
  match x with
  | some i :: some j :: rest =>
    if checkPairSite i j Nsite ≠ 0 then .err
    else match rest with
      | [some fij_org, some fijSign] =>
        let T := T.mirror i.toNat j.toNat (NArrayAP + 2 * fij_org + 0) fijSign
        let T := T.mirror (i + Nsite).toNat (j + Nsite).toNat (NArrayAP + 2 * fij_org + 1) fijSign
        .ok (decide (i ≥ j), T)
      | _ => .ub
  | _ => .ub

/-- `GetInfoOptOrbitalParalell`: two parameters per flag; the imaginary parts get the
complex flag, whatever the flag in the file. `cap` is the size of the flag array.
/repo/src/mVMC/readdef.c:2085-2099. -/
def getInfoOptPar (cap : ℕ) (iComplxFlag : ℤ) (fidx : ℕ) : List Tok → Tab → ℕ → RdOut (ℕ × Tab)
  | [], opt, cnt => .ok (cnt, opt)
  | none :: _, _, _ => .ub
  | some _ :: some f :: s, opt, cnt =>
    let k := 2 * (fidx + 2 * cnt)
    if k + 3 ≥ cap then .ub
    else getInfoOptPar cap iComplxFlag fidx s
      ((((opt.put k (some f)).put (k + 1) (some iComplxFlag)).put (k + 2) (some f)).put (k + 3)
        (some iComplxFlag)) (cnt + 1)
  | some _ :: s, opt, cnt =>
    let k := 2 * (fidx + 2 * cnt)
    if k + 3 ≥ cap then .ub
    else getInfoOptPar cap iComplxFlag fidx s
      (((opt.put (k + 1) (some iComplxFlag)).put (k + 2) (opt k)).put (k + 3) (some iComplxFlag))
      (cnt + 1)

/-- Signs of `GetInfoOrbitalAntiParallel` without antiperiodic boundaries, tables of size
`Nsite`. /repo/src/mVMC/readdef.c:2487-2493. -/
def apSgn (Nsite : ℕ) (T : OrbT) : OrbT :=
  ⟨T.idx, fun a b => if a < Nsite ∧ b < Nsite then 1 else T.sgn a b⟩

/-- The same for tables of size `2*Nsite`. /repo/src/mVMC/readdef.c:2513-2520. -/
def apGenSgn (Nsite : ℕ) (T : OrbT) : OrbT :=
  ⟨T.idx, fun a b =>
    if a < Nsite ∧ Nsite ≤ b ∧ b < 2 * Nsite then 1
    else if b < Nsite ∧ Nsite ≤ a ∧ a < 2 * Nsite then -1 else T.sgn a b⟩

/-- Signs of `GetInfoOrbitalGeneral` without antiperiodic boundaries.
/repo/src/mVMC/readdef.c:2568-2575. -/
def orbGenSgn (Nsite : ℕ) (T : OrbT) : OrbT :=
  ⟨T.idx, fun a b =>
    if a < b ∧ b < 2 * Nsite then 1 else if b < a ∧ a < 2 * Nsite then -1 else T.sgn a b⟩

/-- Signs of `GetInfoOrbitalParallel` without antiperiodic boundaries.
/repo/src/mVMC/readdef.c:2620-2631. -/
def parSgn (Nsite : ℕ) (T : OrbT) : OrbT :=
  ⟨T.idx, fun a b =>
    if a < b ∧ b < Nsite then 1 else if b < a ∧ a < Nsite then -1
    else if Nsite ≤ a ∧ a < b ∧ b < 2 * Nsite then 1
    else if Nsite ≤ b ∧ b < a ∧ a < 2 * Nsite then -1 else T.sgn a b⟩

/-- The shape of the orbital readers. (`/repo/src/mVMC/readdef.c:2462-2640`) -/
def orbReader (n inc limit : ℕ) (x0 : List (Option ℤ))
    (step : List (Option ℤ) → OrbT → RdOut (Bool × OrbT)) (sgn : OrbT → OrbT)
    (flags : List Tok → RdOut (ℕ × Tab)) (APFlag : ℤ) (NArray : ℕ) (ls : List (List ℤ)) (T : OrbT)
    (opt : Tab) : RdOut (OrbT × Tab) :=
  if NArray = 0 then .ok (T, opt)
  else match orbLoop n inc limit step ls x0 0 false T with
    | .err => .err
    | .ub => .ub
    | .hang => .hang
    | .ok (idx0, itmp, T, rest) =>
      let T := if APFlag = 0 then sgn T else T
      match flags (rest.flatten.map some) with
      | .err => .err
      | .ub => .ub
      | .hang => .hang
      | .ok (idx1, opt) => if idx0 ≠ limit ∨ idx1 ≠ NArray ∨ itmp = true then .err else .ok (T, opt)

/-- `GetInfoOrbitalAntiParallel`. /repo/src/mVMC/readdef.c:2462-2531. -/
def getInfoOrbitalAntiParallel (general : Bool) (Nsite cap : ℕ) (c : ℤ) (fidx : ℕ) (APFlag : ℤ)
    (NArray : ℕ) (ls : List (List ℤ)) (T : OrbT) (opt : Tab) : RdOut (OrbT × Tab) :=
  orbReader 4 1 (Nsite * Nsite) [none, none, some 0, some 1]
    (if general then apGenStep Nsite else apStep Nsite)
    (if general then apGenSgn Nsite else apSgn Nsite)
    (fun s => getInfoOpt cap c s fidx opt 0) APFlag NArray ls T opt

/-- `GetInfoOrbitalGeneral`. /repo/src/mVMC/readdef.c:2533-2583. -/
def getInfoOrbitalGeneral (Nsite cap : ℕ) (c : ℤ) (fidx : ℕ) (APFlag : ℤ) (NArray : ℕ)
    (ls : List (List ℤ)) (T : OrbT) (opt : Tab) : RdOut (OrbT × Tab) :=
  orbReader 6 1 (2 * Nsite * Nsite - Nsite) [none, none, none, none, some 0, some 1]
    (orbGenStep Nsite) (orbGenSgn Nsite) (fun s => getInfoOpt cap c s fidx opt 0) APFlag NArray ls T opt

/-- `GetInfoOrbitalParallel`. /repo/src/mVMC/readdef.c:2585-2640. -/
def getInfoOrbitalParallel (Nsite cap : ℕ) (c : ℤ) (fidx : ℕ) (APFlag : ℤ) (NArray NArrayAP : ℕ)
    (ls : List (List ℤ)) (T : OrbT) (opt : Tab) : RdOut (OrbT × Tab) :=
  orbReader 4 2 (Nsite * (Nsite - 1)) [none, none, none, some 1] (parStep Nsite NArrayAP)
    (parSgn Nsite) (fun s => getInfoOptPar cap c fidx s opt 0) APFlag NArray ls T opt

/-! ## Where the flags of a group go -/

/-- The first flag number `fidx` given to the reader of a group.
/repo/src/mVMC/readdef.c:906-1079. -/
def optOffset (S : IOSizes) : InKW → ℕ
  | .gutz => 0
  | .jast => S.nG
  | .dh2 => S.nG + S.nJ
  | .dh4 => S.nG + S.nJ + 2 * 3 * S.n2
  | .cP => S.nProj
  | .sP => S.nProj + S.cP
  | .gP => S.nProj + S.cP + S.sP
  | .cH => S.nProj + S.nPhys
  | .sH => S.nProj + S.nPhys + S.cH
  | .gH => S.nProj + S.nPhys + S.cH + S.sH
  | .cX => S.nProj + S.nPhys + S.nHid
  | .sX => S.nProj + S.nPhys + S.nHid + S.cX
  | .gX => S.nProj + S.nPhys + S.nHid + S.cX + S.sX
  | .orb => S.nProj + S.nR
  | .orbAP => S.nProj + S.nR
  | .orbG => S.nProj + S.nR
  | .orbP => S.nProj + S.nR + S.orb.nAP
  | .opt => S.nProj + S.orb.nOrb

/-- The number of flags a group file must have. /repo/src/mVMC/readdef.c:2128-2146, 2170,
2198, 2226, 2524, 2578, 2635, 2662, 2690, 2716, 2742 with the arguments of 906-1071. -/
def optNumber (S : IOSizes) : InKW → ℕ
  | .gutz => S.nG
  | .jast => S.nJ
  | .dh2 => 2 * 3 * S.n2
  | .dh4 => 2 * 5 * S.n4
  | .cP => S.cP
  | .sP => S.sP
  | .gP => S.gP
  | .cH => S.cH
  | .sH => S.sH
  | .gH => S.gH
  | .cX => S.cX
  | .sX => S.sX
  | .gX => S.gX
  | .orb => S.orb.nAP
  | .orbAP => S.orb.nAP
  | .orbG => S.orb.nOrb
  | .orbP => S.orb.nP
  | .opt => S.nOpt

/-- The loop over the first lines of `GetInfoOptTrans`: the flags are set to 1.
/repo/src/mVMC/readdef.c:2394-2403. -/
def optTransFlags (fidx n : ℕ) (cap : ℕ) (opt : Tab) : RdOut (ℕ × Tab) :=
  if n ≠ 0 ∧ fidx + n > cap then .ub
  else .ok (n, runStores ((List.range n).map fun k => (fidx + k, some 1)) opt)

/-- The flag part of a group file: `tail` are the integers behind the entries; for the
orbital file and the layers a group without parameters is not read.  Returns the
increase of `count_idx` and the flags. /repo/src/mVMC/readdef.c:902-1079. -/
def readFlags (S : IOSizes) (cap : ℕ) (kw : InKW) (c : ℤ) (tail : List Tok) (opt : Tab) :
    RdOut (ℕ × Tab) :=
  match kw with
  | .opt => optTransFlags (optOffset S .opt) S.nOpt cap opt
  | .orbP =>
    if optNumber S kw = 0 then .ok (0, opt)
    else match getInfoOptPar cap c (optOffset S kw) tail opt 0 with
      | .ok (n, opt) => if n ≠ optNumber S kw then .err else .ok (2 * n, opt)
      | .err => .err
      | .ub => .ub
      | .hang => .hang
  | kw =>
    if optNumber S kw = 0 then .ok (0, opt)
    else match getInfoOpt cap c tail (optOffset S kw) opt 0 with
      | .ok (n, opt) => if n ≠ optNumber S kw then .err else .ok (n, opt)
      | .err => .err
      | .ub => .ub
      | .hang => .hang

/-- `ReadDefFileIdxPara`, reduced to the flags: the group files are read in turn and
finally `count_idx` is compared with `NPara`.  The array has room for `2*NPara` flags.
/repo/src/mVMC/readdef.c:847-1145 (`OptFlag`: setmemory.c:227). -/
def readIdxParaFlags (S : IOSizes) : List (InKW × ℤ × List Tok) → ℕ → Tab → RdOut Tab
  | [], count_idx, opt => if count_idx ≠ S.nPara then .err else .ok opt
  | (kw, c, tail) :: fs, count_idx, opt =>
    match readFlags S (2 * S.nPara) kw c tail opt with
    | .ok (n, opt) => readIdxParaFlags S fs (count_idx + n) opt
    | .err => .err
    | .ub => .ub
    | .hang => .hang

/-- The same with `NProjBF = nBF` back-flow parameters: `NPara` contains them, but the case `KWBF` does not raise
`count_idx`.  What that case does to `BackFlowIdx` and `OptFlag` is left out, so the flags of the result are not those of the code.
/repo/src/mVMC/readdef.c:766-777, 1093-1134. -/
def readIdxParaFlagsBF (S : IOSizes) (nBF : ℕ) : List (InKW × ℤ × List Tok) → ℕ → Tab → RdOut Tab
  | [], count_idx, opt => if count_idx ≠ S.nPara + nBF then .err else .ok opt
  | (kw, c, tail) :: fs, count_idx, opt =>
    match readFlags S (2 * (S.nPara + nBF)) kw c tail opt with
    | .ok (n, opt) => readIdxParaFlagsBF S nBF fs (count_idx + n) opt
    | .err => .err
    | .ub => .ub
    | .hang => .hang

end MVMC
