import Mathlib.Data.Complex.Basic
import Mathlib.Analysis.Real.Sqrt

/-!
# Writing and reading variational parameters

Models of `avevar.c` (mean and deviation of the stored optimisation steps, the
summary file `*_opt.dat` and one file per parameter group), of
`ReadInitParameter` (parameter.c) and of `ReadInputParameters` (readdef.c), and
of the loop in `vmcmain.c` that stores the steps.

Simplifications:
* the text produced by `"% .18e"` and read back by `"%lf"` is taken to be the
  number itself (the decimal round trip of a double is trusted);
* row indices and header counts are natural numbers;
* the back-flow block is absent (`NProjBF = 0`), as in the shipped build.
-/

namespace MVMC
open Complex

/-! ## Sizes and the parameter vector -/

/-- The three ways the pairing orbitals can be given:
`iFlgOrbitalGeneral == 0`; general with separate antiparallel / parallel tables
(`iNOrbitalParallel != 0`); general with one table.
/repo/src/mVMC/readdef.c:164-192, /repo/src/mVMC/avevar.c:246-269. -/
inductive OrbKind
  | plain (n : Nat)
  | split (nAP nP : Nat)
  | general (n : Nat)
  deriving DecidableEq, Repr

/-- `NOrbitalIdx`, i.e. `NSlater`. /repo/src/mVMC/readdef.c:486-503, 759. -/
def OrbKind.nOrb : OrbKind → Nat
  | .plain n => n
  | .split a p => a + 2 * p
  | .general n => n

/-- `iNOrbitalAntiParallel`: set only from the orbital / antiparallel files.
/repo/src/mVMC/readdef.c:486-503. -/
def OrbKind.nAP : OrbKind → Nat
  | .plain n => n
  | .split a _ => a
  | .general _ => 0

/-- `iNOrbitalParallel`. /repo/src/mVMC/readdef.c:493-497. -/
def OrbKind.nP : OrbKind → Nat
  | .plain _ => 0
  | .split _ p => p
  | .general _ => 0

/-- `iFlgOrbitalGeneral > 0`. /repo/src/mVMC/readdef.c:164-192. -/
def OrbKind.isGeneral : OrbKind → Bool
  | .plain _ => false
  | .split _ _ => true
  | .general _ => true

/-- The sizes of all parameter groups. /repo/src/mVMC/readdef.c:700-777. -/
structure IOSizes where
  /-- `NGutzwillerIdx`, `NJastrowIdx`, `NDoublonHolon2siteIdx`, `NDoublonHolon4siteIdx` -/
  nG : Nat
  nJ : Nat
  n2 : Nat
  n4 : Nat
  /-- `FlagRBM` -/
  flagRBM : Bool
  /-- physical, hidden and coupling groups (charge, spin, general) -/
  cP : Nat
  sP : Nat
  gP : Nat
  cH : Nat
  sH : Nat
  gH : Nat
  cX : Nat
  sX : Nat
  gX : Nat
  orb : OrbKind
  /-- `NOptTrans` -/
  nOpt : Nat

namespace IOSizes

/-- `NProj`. /repo/src/mVMC/readdef.c:760-762. -/
def nProj (S : IOSizes) : Nat := S.nG + S.nJ + 2 * 3 * S.n2 + 2 * 5 * S.n4
/-- `NRBM_PhysLayerIdx`. /repo/src/mVMC/readdef.c:737. -/
def nPhys (S : IOSizes) : Nat := S.cP + S.sP + S.gP
/-- `NRBM_HiddenLayerIdx`. /repo/src/mVMC/readdef.c:738. -/
def nHid (S : IOSizes) : Nat := S.cH + S.sH + S.gH
/-- `NRBM`. /repo/src/mVMC/readdef.c:736-739. -/
def nRBM (S : IOSizes) : Nat := S.nHid + S.nPhys + (S.cX + S.sX + S.gX)
/-- `FlagRBM*NRBM`. (`/repo/src/mVMC/setmemory.c:298-300`) -/
def nR (S : IOSizes) : Nat := if S.flagRBM then S.nRBM else 0
/-- `NSlater`. (`/repo/src/mVMC/setmemory.c:298-302`) -/
def nSlater (S : IOSizes) : Nat := S.orb.nOrb
/-- `NPara`. /repo/src/mVMC/readdef.c:777. -/
def nPara (S : IOSizes) : Nat := S.nProj + S.nSlater + S.nOpt + S.nR
/-- `RBM - Para`. /repo/src/mVMC/setmemory.c:299. -/
def oRBM (S : IOSizes) : Nat := S.nProj
/-- `Slater - Para`. /repo/src/mVMC/setmemory.c:301. -/
def oSlater (S : IOSizes) : Nat := S.nProj + S.nR
/-- `OptTrans - Para`. /repo/src/mVMC/setmemory.c:302. -/
def oOpt (S : IOSizes) : Nat := S.nProj + S.nR + S.nSlater

end IOSizes

/-! ## The stored steps and their statistics -/

/-- `StoreOptData(sample)`: one row `(Etot, Etot2, Para…)` of length `2+NPara`.
/repo/src/mVMC/avevar.c:84-94. -/
def storeOptData (nPara : Nat) (Etot Etot2 : ℂ) (Para : Nat → ℂ) (sample : Nat)
    (D : Nat → Option ℂ) : Nat → Option ℂ := fun k =>
  let n := 2 + nPara
  if k < n * sample ∨ n * (sample + 1) ≤ k then D k
  else if k = n * sample then some Etot
  else if k = n * sample + 1 then some Etot2
  else some (Para (k - n * sample - 2))

/-- The part of the optimisation loop that stores steps: `nStep`, `nSmp` are
`NSROptItrStep`, `NSROptItrSmp`; `run step` is what the step leaves in
`(Etot, Etot2, Para)`.  The array starts uninitialised (`malloc`).  The integer
subtraction is signed.
/repo/src/mVMC/vmcmain.c:339, 511-513; /repo/src/mVMC/setmemory.c:424. -/
def storeLoop (nPara nStep nSmp : Nat) (run : Nat → ℂ × ℂ × (Nat → ℂ)) : Nat → Option ℂ :=
  (List.range nStep).foldl (fun D step =>
    let r := run step
    if (step : Int) ≥ (nStep : Int) - nSmp then
      storeOptData nPara r.1 r.2.1 r.2.2 ((step : Int) - ((nStep : Int) - nSmp)).toNat D
    else D) (fun _ => none)

/-- `ave` of `CalcAveVar(i, n, …)`. /repo/src/mVMC/avevar.c:34-43. -/
noncomputable def calcAve (nSmp : Nat) (D : Nat → ℂ) (i n : Nat) : ℂ :=
  (List.range nSmp).foldl (fun a sample => a + D (i + n * sample)) 0 / (nSmp : ℝ)

/-- `var` of `CalcAveVar(i, n, …)`. /repo/src/mVMC/avevar.c:45-54. -/
noncomputable def calcVar (nSmp : Nat) (D : Nat → ℂ) (i n : Nat) : ℝ :=
  Real.sqrt ((List.range nSmp).foldl (fun v sample =>
    let data := D (i + n * sample) - calcAve nSmp D i n
    v + (data * (starRingEnd ℂ) data).re) 0 / ((nSmp : ℝ) - 1))

/-! ## Writing -/

/-- The input-file keywords of the parameter groups. /repo/src/mVMC/include/readdef.h:76-87. -/
inductive InKW
  | gutz | jast | dh2 | dh4
  | cP | sP | gP | cH | sH | gH | cX | sX | gX
  | orb | orbAP | orbP | orbG | opt
  deriving DecidableEq, Repr

/-- A parameter group file: the count in the header and the rows
`index, value`. /repo/src/mVMC/avevar.c:57-82. -/
structure PFile where
  head : Nat
  rows : List (Nat × ℂ)

/-- `Child_OutputOptData`, group file. /repo/src/mVMC/avevar.c:66-82. -/
def childFile (ave : Nat → ℂ) (head len count : Nat) : PFile :=
  { head := head, rows := (List.range len).map fun i => (i, ave (count + i)) }

/-- `Child_OutputOptData`, contribution to the summary file.
/repo/src/mVMC/avevar.c:66-82. -/
def childAll (ave : Nat → ℂ) (var : Nat → ℝ) (len count : Nat) : List ℝ :=
  (List.range len).flatMap fun i =>
    [(ave (count + i)).re, (ave (count + i)).im, var (count + i)]

/-- One `if(...){ Child_OutputOptData(...); count_i += ...; }` block: keyword the
file is later given under, condition, header count, number of rows.
(`/repo/src/mVMC/avevar.c:94-260`) -/
structure OutGroup where
  kw : InKW
  cond : Bool
  head : Nat
  len : Nat

/-- The blocks of `OutputOptData` in order.
/repo/src/mVMC/avevar.c:119-277. -/
def outGroups (S : IOSizes) : List OutGroup :=
  [ ⟨.gutz, S.nG != 0, S.nG, S.nG⟩,
    ⟨.jast, S.nJ != 0, S.nJ, S.nJ⟩,
    ⟨.dh2, S.n2 != 0, S.n2, S.n2 * 2 * 3⟩,
    ⟨.dh4, S.n4 != 0, S.n4, S.n4 * 2 * 5⟩,
    ⟨.cP, S.cP != 0, S.cP, S.cP⟩,
    ⟨.sP, S.sP != 0, S.sP, S.sP⟩,
    ⟨.gP, S.gP != 0, S.gP, S.gP⟩,
    ⟨.cH, S.cH != 0, S.cH, S.cH⟩,
    ⟨.sH, S.sH != 0, S.sH, S.sH⟩,
    ⟨.gH, S.gH != 0, S.gH, S.gH⟩,
    ⟨.cX, S.cX != 0, S.cX, S.cX⟩,
    ⟨.sX, S.sX != 0, S.sX, S.sX⟩,
    ⟨.gX, S.gX != 0, S.gX, S.gX⟩ ] ++
  (match S.orb with
    | .plain n => [⟨.orb, n != 0, n, n⟩]
    | .split a p =>
        if p != 0 then
          [⟨.orbAP, a + 2 * p != 0, a, a⟩, ⟨.orbP, a + 2 * p != 0, 2 * p, 2 * p⟩]
        else [⟨.orbG, a + 2 * p != 0, a + 2 * p, a + 2 * p⟩]
    | .general n => [⟨.orbG, n != 0, n, n⟩]) ++
  [⟨.opt, S.nOpt != 0, S.nOpt, S.nOpt⟩]

/-- The group files written by the blocks, threading `count_i`.
/repo/src/mVMC/avevar.c:118-277. -/
def writeFiles (ave : Nat → ℂ) : List OutGroup → Nat → List (InKW × PFile)
  | [], _ => []
  | g :: gs, count =>
    if g.cond then (g.kw, childFile ave g.head g.len count) :: writeFiles ave gs (count + g.len)
    else writeFiles ave gs count

/-- The summary numbers written by the blocks. /repo/src/mVMC/avevar.c:118-277. -/
def writeAll (ave : Nat → ℂ) (var : Nat → ℝ) : List OutGroup → Nat → List ℝ
  | [], _ => []
  | g :: gs, count =>
    if g.cond then childAll ave var g.len count ++ writeAll ave var gs (count + g.len)
    else writeAll ave var gs count

/-- `OutputOptData`: the group files and the numbers of `*_opt.dat`.
/repo/src/mVMC/avevar.c:96-283. -/
noncomputable def outputOptData (S : IOSizes) (nSmp : Nat) (D : Nat → ℂ) :
    List (InKW × PFile) × List ℝ :=
  let n := 2 + S.nPara
  if nSmp = 1 then
    ([], (List.range n).flatMap fun i => [(D i).re, 0])
  else
    let ave := fun i => calcAve nSmp D i n
    let var := fun i => calcVar nSmp D i n
    (writeFiles ave (outGroups S) 2,
      childAll ave var 2 0 ++ writeAll ave var (outGroups S) 2)

/-! ## Reading the summary file -/

/-- `fscanf("%lf %lf %lf ", &re, &im, &xtmp)`: at the end of the file the
variables keep their values. (`/repo/src/mVMC/parameter.c:104-125`) -/
def scan3 : List ℝ → ℝ × ℝ → (ℝ × ℝ) × List ℝ
  | re :: im :: _ :: rest, _ => ((re, im), rest)
  | [re, im], _ => ((re, im), [])
  | [re], v => ((re, v.2), [])
  | [], v => (v, [])

/-- `for(xi=0;xi<len;xi++){ fscanf…; Block[xi] = re + im*I; }` with
`Block = Para + off`. /repo/src/mVMC/parameter.c:106-126. -/
noncomputable def readTriples (off len : Nat) (st : (Nat → ℂ) × (ℝ × ℝ) × List ℝ) :
    (Nat → ℂ) × (ℝ × ℝ) × List ℝ :=
  (List.range len).foldl (fun st xi =>
    let r := scan3 st.2.2 st.2.1
    (Function.update st.1 (off + xi) ((r.1.1 : ℂ) + (r.1.2 : ℂ) * I), r.1, r.2)) st

/-- The body of the `while` loop, after the first number has been read.
/repo/src/mVMC/parameter.c:103-126. -/
noncomputable def readInitBody (S : IOSizes) (st : (Nat → ℂ) × (ℝ × ℝ) × List ℝ) :
    (Nat → ℂ) × (ℝ × ℝ) × List ℝ :=
  let st := (st.1, st.2.1, st.2.2.drop 5)
  let st := readTriples 0 S.nProj st
  let st := if S.flagRBM then readTriples S.oRBM S.nRBM st else st
  let st := readTriples S.oSlater S.nSlater st
  readTriples S.oOpt S.nOpt st

/-- `ReadInitParameter`: `while(fscanf("%lf ",&xtmp)!=EOF) …`.  Each pass eats at
least one number, so as many passes as numbers are enough.  `junk` is the
uninitialised content of `tmp_real`, `tmp_comp`.
/repo/src/mVMC/parameter.c:94-131. -/
noncomputable def readInitParameter (S : IOSizes) (file : List ℝ) (junk : ℝ × ℝ) (P : Nat → ℂ) :
    Nat → ℂ :=
  let rec go : Nat → (Nat → ℂ) × (ℝ × ℝ) × List ℝ → (Nat → ℂ)
    | 0, st => st.1
    | fuel + 1, (P, v, toks) =>
      match toks with
      | [] => P
      | _ :: rest => go fuel (readInitBody S (P, v, rest))
  go file.length (P, junk, file)

/-! ## Reading the group files -/

/-- `Block[idx+count] - Para` minus `idx`: where the rows of a group go.
/repo/src/mVMC/readdef.c:1229, 1242, 1255, 1268, 1281-1400 (RBM), 1410-1450 (orbitals, OptTrans). -/
def inOffset (S : IOSizes) : InKW → Nat
  | .gutz => 0
  | .jast => S.nG
  | .dh2 => S.nG + S.nJ
  | .dh4 => S.nG + S.nJ + 2 * 3 * S.n2
  | .cP => S.oRBM
  | .sP => S.oRBM + S.cP
  | .gP => S.oRBM + (S.cP + S.sP)
  | .cH => S.oRBM + S.nPhys
  | .sH => S.oRBM + (S.nPhys + S.cH)
  | .gH => S.oRBM + (S.nPhys + S.cH + S.sH)
  | .cX => S.oRBM + (S.nPhys + S.nHid)
  | .sX => S.oRBM + (S.nPhys + S.nHid + S.cX)
  | .gX => S.oRBM + (S.nPhys + S.nHid + S.cX + S.sX)
  | .orb => S.oSlater
  | .orbAP => S.oSlater
  | .orbP => S.oSlater + S.orb.nAP
  | .orbG => S.oSlater
  | .opt => S.oOpt

/-- The number of rows read for a group. /repo/src/mVMC/readdef.c:1220-1455. -/
def inLen (S : IOSizes) : InKW → Nat
  | .gutz => S.nG
  | .jast => S.nJ
  | .dh2 => 2 * 3 * S.n2
  | .dh4 => 2 * 5 * S.n4
  | .cP => S.cP
  | .sP => S.sP
  | .gP => S.gP
  | .cH => S.cH
  | .sH => S.sH
  | .gH => S.gH
  | .cX => S.cX
  | .sX => S.sX
  | .gX => S.gX
  | .orb => if S.orb.isGeneral then S.orb.nAP else S.orb.nOrb
  | .orbAP => if S.orb.isGeneral then S.orb.nAP else S.orb.nOrb
  | .orbP => 2 * S.orb.nP
  | .orbG => S.orb.nOrb
  | .opt => S.nOpt

/-- The test on the header count. /repo/src/mVMC/readdef.c:1220-1455. -/
def inHeadOK (S : IOSizes) (idx : Nat) : InKW → Bool
  | .gutz => idx == S.nG
  | .jast => idx == S.nJ
  | .dh2 => idx == S.n2
  | .dh4 => idx == S.n4
  | .cP => idx == S.cP
  | .sP => idx == S.sP
  | .gP => idx == S.gP
  | .cH => idx == S.cH
  | .sH => idx == S.sH
  | .gH => idx == S.gH
  | .cX => idx == S.cX
  | .sX => idx == S.sX
  | .gX => idx == S.gX
  | .orb => idx == (if S.orb.isGeneral then S.orb.nAP else S.orb.nOrb)
  | .orbAP => idx == (if S.orb.isGeneral then S.orb.nAP else S.orb.nOrb)
  | .orbP => idx / 2 == S.orb.nP
  | .orbG => idx == S.orb.nOrb
  | .opt => idx == S.nOpt

/-- Result of reading. `ub`: a row index leaves the parameter array.
(`/repo/src/mVMC/readdef.c:1183-1490`) -/
inductive ReadOut (α : Type)
  | ok (a : α)
  | abort
  | ub

/-- `for(…){ fscanf("%d %lf %lf ",&idx,&re,&im); Block[idx+count] = …; }`: at the
end of the file the variables keep their values.
/repo/src/mVMC/readdef.c:1220-1455. -/
def readRows (nPara off : Nat) : Nat → List (Nat × ℂ) → (Nat × ℂ) → (Nat → ℂ) →
    ReadOut ((Nat × ℂ) × (Nat → ℂ))
  | 0, _, cur, P => .ok (cur, P)
  | k + 1, rows, cur, P =>
    let cur := rows.headD cur
    if off + cur.1 < nPara then
      readRows nPara off k rows.tail cur (Function.update P (off + cur.1) cur.2)
    else .ub

/-- One entry of the name list met by the loop of `ReadInputParameters`: a
parameter group or one of the other keywords in the scanned range (`OneBodyG`,
`TwoBodyG`, `InterAll`, `OptTrans`, …). /repo/src/mVMC/include/readdef.h:76-88. -/
inductive NameEntry
  | inFile (kw : InKW) (f : PFile)
  | other

/-- `ReadInputParameters`, the loop over the keywords that have a file name.  A
wrong header count sets `info = 1` and goes to the next keyword; any other
keyword takes the `default` branch, which sets `info = 0`.  The value left in
`tmp_real`, `tmp_comp` is carried from file to file; `idx` is overwritten by the
header. /repo/src/mVMC/readdef.c:1196-1476. -/
def readInputLoop (S : IOSizes) : List NameEntry → Bool → ℂ → (Nat → ℂ) → ReadOut (Nat → ℂ)
  | [], info, _, P => if info then .abort else .ok P
  | .other :: es, _, v, P => readInputLoop S es false v P
  | .inFile kw f :: es, info, v, P =>
    if inHeadOK S f.head kw then
      match readRows S.nPara (inOffset S kw) (inLen S kw) f.rows (f.head, v) P with
      | .ok (cur, P') => if info then .abort else readInputLoop S es info cur.2 P'
      | .abort => .abort
      | .ub => .ub
    else readInputLoop S es true v P

/-- `ReadInputParameters`. /repo/src/mVMC/readdef.c:1183-1476. -/
def readInputParameters (S : IOSizes) (es : List NameEntry) (junk : ℂ) (P : Nat → ℂ) :
    ReadOut (Nat → ℂ) :=
  readInputLoop S es false junk P

end MVMC
