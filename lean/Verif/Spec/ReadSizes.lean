import Verif.Model.ReadSizes
import Mathlib.Algebra.Order.Ring.Rat

/-! # Which input the program accepts, and the sizes it announces -/
namespace MVMC.Spec

/-- The number in the head of the file; 0 if it is not listed. -/
def announced (files : DefFiles) (k : KWIdxInt) : Int :=
  match files k with
  | some (some f) => f.num.getD 0
  | _ => 0

/-- The flag in the head of the file; 0 if it is not listed. -/
def announcedFlag (files : DefFiles) (k : KWIdxInt) : Int :=
  match files k with
  | some (some f) => f.cmp.getD 0
  | _ => 0

/-- The file is named in the list. -/
def Listed (files : DefFiles) (k : KWIdxInt) : Prop := files k ≠ none

instance (files : DefFiles) (k : KWIdxInt) : Decidable (Listed files k) := inferInstanceAs (Decidable (_ ≠ _))

/-- Files with a count. -/
def countFile : KWIdxInt → Bool
  | .KWLocSpin | .KWTrans | .KWCoulombIntra | .KWCoulombInter | .KWHund | .KWPairHop | .KWExchange | .KWTransSym | .KWOneBodyG | .KWTwoBodyG
  | .KWTwoBodyGEx | .KWInterAll => true
  | _ => false

/-- Files of variational parameters with a count and a flag (real or complex), other than orbitals. -/
def paramFile : KWIdxInt → Bool
  | .KWGutzwiller | .KWJastrow | .KWDH2 | .KWDH4 | .KWGeneralRBM_HiddenLayer | .KWChargeRBM_HiddenLayer | .KWSpinRBM_HiddenLayer
  | .KWGeneralRBM_PhysLayer | .KWChargeRBM_PhysLayer | .KWSpinRBM_PhysLayer | .KWGeneralRBM_PhysHidden | .KWChargeRBM_PhysHidden
  | .KWSpinRBM_PhysHidden => true
  | _ => false

/-- Files of Boltzmann-machine parameters. -/
def rbmFile : KWIdxInt → Bool
  | .KWGeneralRBM_HiddenLayer | .KWChargeRBM_HiddenLayer | .KWSpinRBM_HiddenLayer | .KWGeneralRBM_PhysLayer | .KWChargeRBM_PhysLayer
  | .KWSpinRBM_PhysLayer | .KWGeneralRBM_PhysHidden | .KWChargeRBM_PhysHidden | .KWSpinRBM_PhysHidden => true
  | _ => false

/-- Files of pair orbitals. -/
def orbFile : KWIdxInt → Bool
  | .KWOrbital | .KWOrbitalAntiParallel | .KWOrbitalParallel | .KWOrbitalGeneral => true
  | _ => false

/-- What the head of a file must look like. -/
def HeadOK (optTrans : Bool) (k : KWIdxInt) (f : HdrFile) : Prop :=
  (countFile k → 2 ≤ f.nLines) ∧
  (paramFile k ∨ orbFile k → 3 ≤ f.nLines ∧ ∃ n, f.num = some n ∧ n ≠ 0) ∧
  (k = .KWOptTrans → optTrans → 2 ≤ f.nLines ∧ ∀ n, f.num = some n → 1 ≤ n) ∧
  k ≠ .KWBF ∧ k ≠ .KWBFRange

/-- Antiparallel pairs are given. -/
def hasAP (files : DefFiles) : Prop := Listed files .KWOrbital ∨ Listed files .KWOrbitalAntiParallel

/-- The orbitals depend on the spins of both electrons. -/
def generalOrb (files : DefFiles) : Prop := Listed files .KWOrbitalGeneral ∨ (hasAP files ∧ Listed files .KWOrbitalParallel)

/-- `2Ne` electrons: given directly, or by the number of conduction electrons. -/
def electrons (files : DefFiles) (ne ncond : Int) : Int := if ncond = -1 then ne else (announced files .KWLocSpin + ncond).tdiv 2

/-- The values of `modpara.def` that are accepted together with the files. -/
structure ValuesOK (files : DefFiles) (ne ncond twoSz gaussLeg lanczos path : Int) : Prop where
  orbitals : Listed files .KWOrbitalGeneral ∧ ¬ hasAP files ∧ ¬ Listed files .KWOrbitalParallel ∨ ¬ Listed files .KWOrbitalGeneral ∧ hasAP files
  cond : ncond = -1 ∨ 2 ∣ ncond
  sz : twoSz = 0 ∨ generalOrb files ∧ (2 ∣ twoSz ∨ twoSz = -1)
  lanczos : generalOrb files → lanczos = 0 ∨ 1 < gaussLeg
  spins : 0 < announced files .KWLocSpin → announced files .KWLocSpin ≤ 2 * electrons files ne ncond ∧ path ≠ 0 ∧
    (announced files .KWLocSpin = 2 * electrons files ne ncond → path = 2)

/-- The number of pair orbitals. -/
def orbitals (files : DefFiles) : Int :=
  announced files .KWOrbital + announced files .KWOrbitalAntiParallel + 2 * announced files .KWOrbitalParallel + announced files .KWOrbitalGeneral

/-- The number of Boltzmann-machine parameters. -/
def machine (files : DefFiles) : Int :=
  announced files .KWGeneralRBM_HiddenLayer + announced files .KWChargeRBM_HiddenLayer + announced files .KWSpinRBM_HiddenLayer +
  announced files .KWGeneralRBM_PhysLayer + announced files .KWChargeRBM_PhysLayer + announced files .KWSpinRBM_PhysLayer +
  announced files .KWGeneralRBM_PhysHidden + announced files .KWChargeRBM_PhysHidden + announced files .KWSpinRBM_PhysHidden

/-- The number of correlation factors. -/
def factors (files : DefFiles) : Int :=
  announced files .KWGutzwiller + announced files .KWJastrow + 6 * announced files .KWDH2 + 10 * announced files .KWDH4

/-- The number of translations that are optimised: 1, or what the file says if the option `-o` is given. -/
def optCount (optTrans : Bool) (files : DefFiles) : Int :=
  match files .KWOptTrans, optTrans with
  | some (some f), true => f.num.getD 1
  | _, _ => 1

/-- The sizes that belong to an input. `v` gives the integer parameters of `modpara.def`. -/
structure SizesOK (optTrans : Bool) (lz : Int → Int → Int → Int) (now : Int) (files : DefFiles) (mp : MPVar → ℚ) (v : MPVar → Int) (s : RunSizes) : Prop where
  direct : s.calMode = v .VMCCalMode ∧ s.lanczos = v .LanczosMode ∧ s.Nsite = v .Nsite ∧ s.twoSz = v .TwoSz ∧ s.sTot = v .SPStot ∧
    s.itrStep = v .SROptItrStep ∧ s.itrSmp = v .SROptItrSmp ∧ s.warmUp = v .WarmUp ∧ s.interval = v .Interval ∧ s.exPath = v .ExUpdatePath ∧
    s.sample = v .Sample ∧ s.split = v .SplitSize
  ne : s.Ne = electrons files (v .Ne) (v .NCond)
  size : s.Nsize = 2 * s.Ne
  seed : s.seed = if v .RndSeed < 0 then now else v .RndSeed
  gaussLeg : generalOrb files ∧ s.gaussLeg = min 1 (v .SPGaussLeg) ∨ ¬ generalOrb files ∧ s.gaussLeg = v .SPGaussLeg
  general : s.general = true ↔ generalOrb files
  mpTrans : s.mpTrans = |v .MPTrans| ∧ (s.apFlag = true ↔ v .MPTrans < 0)
  stepDt : s.stepDt = |mp .StepDt| ∧ (s.srFlag = true ↔ mp .StepDt < 0)
  counts : s.nLoc = announced files .KWLocSpin ∧ s.nTransfer = announced files .KWTrans ∧ s.nCoulombIntra = announced files .KWCoulombIntra ∧
    s.nCoulombInter = announced files .KWCoulombInter ∧ s.nHund = announced files .KWHund ∧ s.nPairHop = 2 * announced files .KWPairHop ∧
    s.nExchange = announced files .KWExchange ∧ s.nInterAll = announced files .KWInterAll
  tables : s.nQPTrans = announced files .KWTransSym ∧ s.nCktAlt = announced files .KWTwoBodyGEx ∧ s.nCktAltDC = announced files .KWTwoBodyG
  oneBody : s.nCisAjs = if 0 < announced files .KWTwoBodyGEx ∨ 1 < v .LanczosMode then
    lz (announced files .KWOneBodyG) (announced files .KWTwoBodyGEx) (v .Nsite) else announced files .KWOneBodyG
  corr : s.nGutz = announced files .KWGutzwiller ∧ s.nJast = announced files .KWJastrow ∧ s.nDH2 = announced files .KWDH2 ∧
    s.nDH4 = announced files .KWDH4
  orb : s.nOrbital = orbitals files
  opt : s.nQPOptTrans = optCount optTrans files
  flagRBM : s.flagRBM = true ↔ ∃ k, Listed files k ∧ rbmFile k = true
  neurons : s.nNeuron = v .Nneuron + v .NneuronCharge + v .NneuronSpin + v .NneuronGeneral
  nProj : s.nProj = factors files
  nPara : s.nPara = factors files + orbitals files + (if optTrans then optCount optTrans files else 0) + machine files
  qp : s.nQPFix = s.gaussLeg * s.mpTrans ∧ s.nQPFull = s.gaussLeg * s.mpTrans * optCount optTrans files
  complex : (∀ k f, orbFile k = true → files k = some (some f) → f.cmp ≠ none) → s.allComplex = announcedFlag files .KWGutzwiller +
    announcedFlag files .KWJastrow + announcedFlag files .KWDH2 + announcedFlag files .KWDH4 + (announcedFlag files .KWOrbital +
    announcedFlag files .KWOrbitalAntiParallel + announcedFlag files .KWOrbitalParallel + announcedFlag files .KWOrbitalGeneral)
  block : s.blockSize = blockAdjust (v .BlockSize)

end MVMC.Spec
