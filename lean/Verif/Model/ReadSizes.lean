import Verif.Model.KeyWord
import Verif.Model.PathCheck

/-! # The first pass over the input files: `ReadDefFileNInt`

Exact integers (overflow of the sizes: C41). File names and buffer lengths of the name list: C37. `CountOneBodyGForLanczos` is a parameter (C40). -/
namespace MVMC

/-- The head of a definition file: number of its lines (as far as needed), the numbers in the second and third line if `sscanf` finds one there.
(`/repo/src/mVMC/readdef.c:114-144`) -/
structure HdrFile where
  nLines : Nat
  num : Option Int
  cmp : Option Int
  deriving DecidableEq

/-- `ReadBuffInt`: the count and whether the return value is not NULL. With one line the second `fgets` fails and `sscanf` reads an uninitialised array
(`none`). (`/repo/src/mVMC/readdef.c:114-124`) -/
def readBuffInt (f : HdrFile) (old : Int) : Option (Int × Bool) :=
  if f.nLines = 0 then some (old, false)
  else if f.nLines = 1 then none
  else some (f.num.getD old, true)

/-- `ReadBuffIntCmpFlg`: count, flag and whether the return value is not NULL. Without a third line `ctmp2` still holds the second.
(`/repo/src/mVMC/readdef.c:126-144`) -/
def readBuffIntCmpFlg (f : HdrFile) (old oldc : Int) : Option (Int × Int × Bool) :=
  if f.nLines = 0 then some (old, oldc, false)
  else if f.nLines = 1 then none
  else
    let n := f.num.getD old
    if n = 0 then some (n, oldc, false)
    else if f.nLines = 2 then some (n, f.num.getD oldc, false)
    else some (n, f.cmp.getD oldc, true)

/-- `JudgeOrbitalMode`: the new `iFlgOrbitalGeneral` and whether the return value is 0. (`/repo/src/mVMC/readdef.c:164-191`) -/
def judgeOrbFiles (gen ap par : Bool) : Bool × Bool :=
  if gen then (true, !ap && !par)
  else if ap then (par, true)
  else (false, false)

/-- The variables that the loop over the files fills: the counts in `bufInt`, the orbital counts and flags, `FlagRBM` and whether `info` is not 0.
(`/repo/src/mVMC/readdef.c:317-352`) -/
structure NBuf where
  cnt : KWIdxInt → Int
  cmp : KWIdxInt → Int
  nOrbit : Int
  nAP : Int
  nP : Int
  gen : Bool
  ap : Bool
  par : Bool
  iOrb : Int
  cOrb : Int
  rbm : Bool
  bad : Bool

/-- `SetDefaultValuesModPara` (counts) and the initial values of the flags. (`/repo/src/mVMC/readdef.c:1756-1823`, `/repo/src/mVMC/include/readdef.h:142-160`) -/
def nBufDefault : NBuf :=
  { cnt := fun k => if k = .KWOptTrans then 1 else 0, cmp := fun _ => 0, nOrbit := 0, nAP := 0, nP := 0, gen := false, ap := false, par := false,
    iOrb := 0, cOrb := 0, rbm := false, bad := false }

/-- The values before `modpara.def` is read. (`/repo/src/mVMC/readdef.c:1756-1823`) -/
def mpDefault : MPVar → ℚ
  | .VMCCalMode => 0 | .LanczosMode => 0 | .DataIdxStart => 0 | .DataQtySmp => 1 | .Nsite => 16 | .Ne => 8 | .NCond => -1 | .TwoSz => -1
  | .SPGaussLeg => 1 | .SPStot => 0 | .MPTrans => 0 | .SROptItrStep => 1000 | .SROptItrSmp => 100 | .RedCut => 1 / 1000 | .StaDel => 2 / 100
  | .StepDt => 2 / 100 | .CGMaxIter => 0 | .CGTol => 1 / 10000000000 | .WarmUp => 10 | .Interval => 1 | .Sample => 10 | .ExUpdatePath => 0
  | .RndSeed => 11272 | .SplitSize => 1 | .Store => 1 | .SRCG => 0 | .Nneuron => 0 | .NneuronCharge => 0 | .NneuronSpin => 0 | .NneuronGeneral => 0
  | .BlockSize => 200

/-- The files whose head holds only a count. (`/repo/src/mVMC/readdef.c:399-560`) -/
def cntKinds : List KWIdxInt :=
  [.KWLocSpin, .KWTrans, .KWCoulombIntra, .KWCoulombInter, .KWHund, .KWPairHop, .KWExchange, .KWTransSym, .KWOneBodyG, .KWTwoBodyG, .KWTwoBodyGEx,
   .KWInterAll]

/-- The files of Boltzmann-machine parameters. (`/repo/src/mVMC/readdef.c:434-472`) -/
def rbmKinds : List KWIdxInt :=
  [.KWGeneralRBM_HiddenLayer, .KWChargeRBM_HiddenLayer, .KWSpinRBM_HiddenLayer, .KWGeneralRBM_PhysLayer, .KWChargeRBM_PhysLayer, .KWSpinRBM_PhysLayer,
   .KWGeneralRBM_PhysHidden, .KWChargeRBM_PhysHidden, .KWSpinRBM_PhysHidden]

/-- The files of correlation factors. (`/repo/src/mVMC/readdef.c:425-432,474-482`) -/
def corrKinds : List KWIdxInt := [.KWGutzwiller, .KWJastrow, .KWDH2, .KWDH4]

/-- One turn of the loop over the files; `none` is undefined behaviour. (`/repo/src/mVMC/readdef.c:386-566`) -/
def hdrStep (optTrans : Bool) (k : KWIdxInt) (f : HdrFile) (b : NBuf) : Option NBuf :=
  if k ∈ cntKinds then
    match readBuffInt f (b.cnt k) with
    | none => none
    | some (n, ok) => some { b with cnt := fun j => if j = k then n else b.cnt j, bad := b.bad || !ok }
  else if k ∈ corrKinds then
    match readBuffIntCmpFlg f (b.cnt k) (b.cmp k) with
    | none => none
    | some (n, c, ok) => some { b with cnt := fun j => if j = k then n else b.cnt j, cmp := fun j => if j = k then c else b.cmp j, bad := b.bad || !ok }
  else if k ∈ rbmKinds then
    match readBuffIntCmpFlg f (b.cnt k) (b.cmp k) with
    | none => none
    | some (n, c, ok) => some { b with cnt := fun j => if j = k then n else b.cnt j, cmp := fun j => if j = k then c else b.cmp j, rbm := true, bad := b.bad || !ok }
  else if k = .KWOrbital ∨ k = .KWOrbitalAntiParallel then
    match readBuffIntCmpFlg f b.nAP b.iOrb with
    | none => none
    | some (n, c, ok) => some { b with nAP := n, iOrb := c, ap := true, nOrbit := b.nOrbit + n, cOrb := b.cOrb + c, bad := b.bad || !ok }
  else if k = .KWOrbitalParallel then
    match readBuffIntCmpFlg f b.nP b.iOrb with
    | none => none
    | some (n, c, ok) => some { b with nP := n, iOrb := c, par := true, nOrbit := b.nOrbit + 2 * n, cOrb := b.cOrb + c, bad := b.bad || !ok }
  else if k = .KWOrbitalGeneral then
    match readBuffIntCmpFlg f b.nOrbit b.iOrb with
    | none => none
    | some (n, c, ok) => some { b with nOrbit := n, iOrb := c, gen := true, cOrb := b.cOrb + c, bad := b.bad || !ok }
  else if k = .KWOptTrans then
    if optTrans then
      match readBuffInt f 1 with
      | none => none
      | some (n, ok) => some { b with cnt := fun j => if j = k then n else b.cnt j, bad := b.bad || decide (n < 1) || !ok }
    else some { b with cnt := fun j => if j = k then 1 else b.cnt j }
  else if k = .KWBF ∨ k = .KWBFRange then some { b with bad := true }
  else some b

/-- `enum KWIdxInt` in its order. (`/repo/src/mVMC/include/readdef.h:63-90`) -/
def kwOrder : List KWIdxInt :=
  [.KWModPara, .KWLocSpin, .KWTrans, .KWCoulombIntra, .KWCoulombInter, .KWHund, .KWPairHop, .KWExchange, .KWGutzwiller, .KWJastrow, .KWDH2, .KWDH4,
   .KWChargeRBM_HiddenLayer, .KWChargeRBM_PhysLayer, .KWChargeRBM_PhysHidden, .KWSpinRBM_HiddenLayer, .KWSpinRBM_PhysLayer, .KWSpinRBM_PhysHidden,
   .KWGeneralRBM_HiddenLayer, .KWGeneralRBM_PhysLayer, .KWGeneralRBM_PhysHidden, .KWOrbital, .KWOrbitalAntiParallel, .KWOrbitalParallel,
   .KWOrbitalGeneral, .KWTransSym, .KWInGutzwiller, .KWInJastrow, .KWInDH2, .KWInDH4, .KWInChargeRBM_HiddenLayer, .KWInChargeRBM_PhysLayer,
   .KWInChargeRBM_PhysHidden, .KWInSpinRBM_HiddenLayer, .KWInSpinRBM_PhysLayer, .KWInSpinRBM_PhysHidden, .KWInGeneralRBM_HiddenLayer,
   .KWInGeneralRBM_PhysLayer, .KWInGeneralRBM_PhysHidden, .KWInOrbital, .KWInOrbitalAntiParallel, .KWInOrbitalParallel, .KWInorbitalGeneral,
   .KWOneBodyG, .KWTwoBodyG, .KWTwoBodyGEx, .KWInterAll, .KWOptTrans, .KWInOptTrans, .KWBF, .KWBFRange]

/-- The files of the name list: not listed, listed but it cannot be opened, or its head. (`/repo/src/mVMC/readdef.c:386-395`) -/
abbrev DefFiles := KWIdxInt → Option (Option HdrFile)

/-- The loop over the files. A file that cannot be opened is closed nevertheless (undefined). (`/repo/src/mVMC/readdef.c:383-566`) -/
def hdrLoop (optTrans : Bool) (files : DefFiles) : List KWIdxInt → NBuf → Option NBuf
  | [], b => some b
  | k :: ks, b => match files k with
    | none => hdrLoop optTrans files ks b
    | some none => none
    | some (some f) => match hdrStep optTrans k f b with
      | none => none
      | some b => hdrLoop optTrans files ks b

/-- The sizes and flags that `ReadDefFileNInt` sets. (`/repo/src/mVMC/readdef.c:640-780`) -/
structure RunSizes where
  calMode : Int
  lanczos : Int
  Nsite : Int
  Ne : Int
  twoSz : Int
  gaussLeg : Int
  sTot : Int
  mpTrans : Int
  apFlag : Bool
  srFlag : Bool
  stepDt : ℚ
  itrStep : Int
  itrSmp : Int
  warmUp : Int
  interval : Int
  sample : Int
  exPath : Int
  seed : Int
  split : Int
  nLoc : Int
  nTransfer : Int
  nCoulombIntra : Int
  nCoulombInter : Int
  nHund : Int
  nPairHop : Int
  nExchange : Int
  nInterAll : Int
  nGutz : Int
  nJast : Int
  nDH2 : Int
  nDH4 : Int
  nOrbital : Int
  nQPTrans : Int
  nQPOptTrans : Int
  nCisAjs : Int
  nCktAlt : Int
  nCktAltDC : Int
  nNeuron : Int
  nRBM : Int
  flagRBM : Bool
  blockSize : Int
  general : Bool
  allComplex : Int
  nProj : Int
  nOptTrans : Int
  nPara : Int
  nQPFix : Int
  nQPFull : Int
  Nsize : Int

/-- Result of `ReadDefFileNInt`: undefined behaviour, `MPI_Abort`, or the sizes. (`/repo/src/mVMC/readdef.c:318`) -/
inductive NOut
  | ub
  | abort
  | ok (s : RunSizes)

/-- Integer part of a `bufInt` value. (`/repo/src/mVMC/readdef.c:1880-1945`) -/
def mpInt (mp : MPVar → ℚ) (v : MPVar) : Int := ⌊mp v⌋

/-- The size of a block of neurons becomes a multiple of 8; `%` and `/` of C truncate. (`/repo/src/mVMC/readdef.c:371-381`) -/
def blockAdjust (n : Int) : Int :=
  if n.tmod 8 > 0 then (if n.tdiv 8 = 0 then 1 else n.tdiv 8) * 8 else n

/-- The assignments after the checks; the same on every process, from the broadcast buffers. (`/repo/src/mVMC/readdef.c:640-780`) -/
def setSizes (optTrans : Bool) (mp : MPVar → ℚ) (b : NBuf) (ne gaussLeg oneBody seed : Int) (general : Bool) : RunSizes :=
  let c := b.cnt
  let neuron := mpInt mp .Nneuron + (mpInt mp .NneuronCharge + mpInt mp .NneuronSpin + mpInt mp .NneuronGeneral)
  let physHidden := c .KWChargeRBM_PhysHidden + c .KWSpinRBM_PhysHidden + c .KWGeneralRBM_PhysHidden
  let physLayer := c .KWChargeRBM_PhysLayer + c .KWSpinRBM_PhysLayer + c .KWGeneralRBM_PhysLayer
  let hidden := c .KWChargeRBM_HiddenLayer + c .KWSpinRBM_HiddenLayer + c .KWGeneralRBM_HiddenLayer
  let nRBM := hidden + physLayer + physHidden
  let mt := mpInt mp .MPTrans
  let mpTrans := if mt < 0 then mt * -1 else mt
  let nProj := c .KWGutzwiller + c .KWJastrow + 2 * 3 * c .KWDH2 + 2 * 5 * c .KWDH4
  let nOptTrans := if optTrans then c .KWOptTrans else 0
  let nQPFix := gaussLeg * mpTrans
  { calMode := mpInt mp .VMCCalMode, lanczos := mpInt mp .LanczosMode, Nsite := mpInt mp .Nsite, Ne := ne, twoSz := mpInt mp .TwoSz,
    gaussLeg := gaussLeg, sTot := mpInt mp .SPStot, mpTrans := mpTrans, apFlag := decide (mt < 0), srFlag := decide (mp .StepDt < 0),
    stepDt := if mp .StepDt < 0 then mp .StepDt * -1 else mp .StepDt, itrStep := mpInt mp .SROptItrStep, itrSmp := mpInt mp .SROptItrSmp,
    warmUp := mpInt mp .WarmUp, interval := mpInt mp .Interval, sample := mpInt mp .Sample, exPath := mpInt mp .ExUpdatePath, seed := seed,
    split := mpInt mp .SplitSize, nLoc := c .KWLocSpin, nTransfer := c .KWTrans, nCoulombIntra := c .KWCoulombIntra,
    nCoulombInter := c .KWCoulombInter, nHund := c .KWHund, nPairHop := 2 * c .KWPairHop, nExchange := c .KWExchange, nInterAll := c .KWInterAll,
    nGutz := c .KWGutzwiller, nJast := c .KWJastrow, nDH2 := c .KWDH2, nDH4 := c .KWDH4, nOrbital := b.nOrbit, nQPTrans := c .KWTransSym,
    nQPOptTrans := c .KWOptTrans, nCisAjs := oneBody, nCktAlt := c .KWTwoBodyGEx, nCktAltDC := c .KWTwoBodyG, nNeuron := neuron, nRBM := nRBM,
    flagRBM := b.rbm, blockSize := blockAdjust (mpInt mp .BlockSize), general := general,
    allComplex := b.cmp .KWGutzwiller + b.cmp .KWJastrow + b.cmp .KWDH2 + (b.cmp .KWDH4 + b.cOrb), nProj := nProj, nOptTrans := nOptTrans,
    nPara := nProj + b.nOrbit + nOptTrans + (if b.rbm then nRBM else 0), nQPFix := nQPFix, nQPFull := nQPFix * c .KWOptTrans, Nsize := 2 * ne }

/-- `ReadDefFileNInt` after the values of `modpara.def` are known; `lz` is `CountOneBodyGForLanczos`, `now` the time.
(`/repo/src/mVMC/readdef.c:340-780`) -/
def readNInt (optTrans : Bool) (lz : Int → Int → Int → Int) (now : Int) (files : DefFiles) (mp : MPVar → ℚ) : NOut :=
  match hdrLoop optTrans files kwOrder nBufDefault with
  | none => .ub
  | some b =>
    let j := judgeOrbFiles b.gen b.ap b.par
    let bad1 := b.bad || !j.2
    let general := j.1
    let lan := mpInt mp .LanczosMode
    let oneBody := if b.cnt .KWTwoBodyGEx > 0 ∨ lan > 1 then lz (b.cnt .KWOneBodyG) (b.cnt .KWTwoBodyGEx) (mpInt mp .Nsite) else b.cnt .KWOneBodyG
    let nc := mpInt mp .NCond
    let bad2 := bad1 || decide (nc ≠ -1 ∧ nc.tmod 2 ≠ 0)
    let ne := if nc ≠ -1 ∧ nc.tmod 2 = 0 then (b.cnt .KWLocSpin + nc).tdiv 2 else mpInt mp .Ne
    let sz := mpInt mp .TwoSz
    let bad3 := bad2 || (if sz ≠ 0 then (if !general then true else decide (sz.tmod 2 ≠ 0 ∧ sz ≠ -1)) else false)
    let gl := mpInt mp .SPGaussLeg
    let gaussLeg := if general ∧ gl > 1 then 1 else gl
    let bad4 := bad3 || (general && (if gl > 1 then false else decide (lan ≠ 0)))
    let bad5 := bad4 || !locSpnCheck (b.cnt .KWLocSpin) ne (mpInt mp .ExUpdatePath)
    if bad5 then .abort
    else .ok (setSizes optTrans mp b ne gaussLeg oneBody (if mpInt mp .RndSeed < 0 then now else mpInt mp .RndSeed) general)

/-- `ReadDefFileNInt`. `ModPara` and `LocSpin` must be listed. `GetInfoFromModPara` opens the listed files in turn, `modpara.def` first (`modp`: word left
in `ctmp` by line 8 and the later lines; `none` with fewer than 8 lines), and closes a file that it could not open (undefined); `mkdir` must succeed.
(`/repo/src/mVMC/readdef.c:340-368,1825-1970`) -/
def readDefFileNInt (optTrans : Bool) (lz : Int → Int → Int → Int) (now : Int) (mkdirOK : Bool) (files : DefFiles) (modp : Option (Word × List MPLine)) :
    NOut :=
  if files .KWModPara = none ∨ files .KWLocSpin = none then .abort
  else if files .KWModPara = some none then .ub
  else match modp with
    | none => .abort
    | some (ctmp, lines) => match modParaLoop lines ctmp none mpDefault with
      | .ub => .ub
      | .err => .abort
      | .ok mp =>
        if kwOrder.any (fun k => files k == some none) then .ub
        else if mkdirOK then readNInt optTrans lz now files mp else .abort

end MVMC
