import Verif.Model.LocGrn
import Verif.Spec.Fock
import Verif.Spec.RBM
import Verif.Spec.CorrelationValue
import Verif.Spec.Config
import Verif.Spec.ConfigFsz
import Verif.Proof.RBM

/-!
# The trial wave function and what a stored sample has to satisfy

`psi` is built from the specifications of the correlation factor, the Boltzmann machine and the Pfaffian; only parameter
structures of the model are used, plus the recomputed counters `makeProjCnt`, `makeRBMCnt` in the hypotheses.
-/
namespace MVMC
open MVMC.Spec Finset

/-- the factor of `WeightRBM` in terms of the occupations -/
noncomputable def rbmSpec (p : RBMPar ℂ) (num : Nat → Int) : ℂ :=
  rbmFactor p.Nsite p.nCP p.nSP p.nGP p.hC p.hS p.hG p.cP p.sP p.gP p.par (fun c => p.par (p.nCP + c))
    (fun c => p.par (p.nCP + p.nSP + c))
    (fun h => if p.nCH > 0 then p.hidden (p.cH h) else 0)
    (fun h => if p.nSH > 0 then p.hidden (p.sH h + p.nCH) else 0)
    (fun h => if p.nGH > 0 then p.hidden (p.gH h + (p.nCH + p.nSH)) else 0)
    (fun h r => if p.nCX > 0 then p.physHidden (p.cX r h) else 0)
    (fun h r => if p.nSX > 0 then p.physHidden (p.sX r h + p.nCX) else 0)
    (fun h r => if p.nGX > 0 then p.physHidden (p.gX r h + (p.nCX + p.nSX)) else 0) num

/-- the correlation factor in terms of the occupations -/
noncomputable def projSpec (q : ProjPar) (Proj : Nat → ℂ) (num : Nat → Int) : ℝ :=
  Real.exp (logCorr q.Nsite q.NG q.NJ q.N2 q.N4 q.gIdx q.jIdx
    (fun t r => [q.dh2 t (2 * r), q.dh2 t (2 * r + 1)])
    (fun t r => [q.dh4 t (4 * r), q.dh4 t (4 * r + 1), q.dh4 t (4 * r + 2), q.dh4 t (4 * r + 3)])
    (fun i => (Proj i).re) (fun i => (Proj (q.NG + i)).re)
    (fun t d m => (Proj (q.NG + q.NJ + (t + (d + 2 * m) * q.N2))).re)
    (fun t d m => (Proj (q.NG + q.NJ + 6 * q.N2 + (t + (d + 2 * m) * q.N4))).re)
    num (fun r => num (r + q.Nsite)))

/-- the product of the factors that depend only on the occupations -/
noncomputable def corrSpec (g : GrnEnv) (num : Nat → Int) : ℂ :=
  (projSpec g.q g.Proj num : ℝ) * if g.flagRBM then rbmSpec g.rbm num else 1

/-- the trial wave function -/
noncomputable def psi (g : GrnEnv) : List Nat → ℂ :=
  waveFunction (corrSpec g) g.nQP g.w (entry (2 * g.p.Nsite) g.slt)

/-- requirements on the global data -/
structure GrnOK (g : GrnEnv) : Prop where
  hq : g.q.Nsite = g.p.Nsite
  tab : TabOK g.q
  skew : ∀ k, k < g.nQP → SlaterSkew (2 * g.p.Nsite) g.slt k

/-- additional requirements if a Boltzmann machine is present: no hidden unit's `cosh` vanishes on any occupation -/
structure GrnRBM (g : GrnEnv) : Prop where
  hN : g.rbm.Nsite = g.p.Nsite
  tab : RBMTab g.rbm
  blk : 0 < g.B
  cosh : ∀ num : Arr, (∀ x < 2 * g.p.Nsite, num x = 0 ∨ num x = 1) →
    ∀ h < g.rbm.nNeuron, Complex.cosh (makeRBMCnt g.rbm num (h + g.rbm.nPhys)) ≠ 0

/-- the ordered occupation list -/
def occList (n : Nat) (rs : Nat → Nat) : List Nat := (List.range n).map rs

/-- what the Green functions may assume about a stored sample (Sz-conserving mode) -/
structure Sampled (g : GrnEnv) (c : EleCfg) (ip : ℂ) (projCnt : Arr) (rbmCnt : Nat → ℂ) : Prop where
  cons : Consistent g.p.Ne g.p.Nsite c.idx c.cfg c.num
  pf : PfOK (2 * g.p.Ne) (2 * g.p.Nsite) g.slt 0 g.nQP (occSz g.p.Ne g.p.Nsite c.idx) g.st.pfM g.st.invM
  hip : ip = amplitude (2 * g.p.Ne) (2 * g.p.Nsite) g.slt g.w 0 g.nQP (occSz g.p.Ne g.p.Nsite c.idx)
  hne : ip ≠ 0
  proj : ∀ k < g.q.NProj, projCnt k = makeProjCnt g.q c.num k
  rbm : g.flagRBM = true → ∀ k < g.rbm.nPhys + g.rbm.nNeuron, rbmCnt k = makeRBMCnt g.rbm c.num k

/-- the occupation list of a configuration -/
def szList (g : GrnEnv) (c : EleCfg) : List Nat := occList (2 * g.p.Ne) (occSz g.p.Ne g.p.Nsite c.idx)

/-- what the Green functions may assume about a stored sample (general-Sz mode) -/
structure SampledF (g : GrnEnv) (c : FCfg) (ip : ℂ) (projCnt : Arr) : Prop where
  cons : ConsistentF (2 * g.p.Ne) g.p.Nsite c.idx c.spn c.cfg c.num
  pf : PfOK (2 * g.p.Ne) (2 * g.p.Nsite) g.slt 0 g.nQP (occF g.p.Nsite c.idx c.spn) g.st.pfM g.st.invM
  hip : ip = amplitude (2 * g.p.Ne) (2 * g.p.Nsite) g.slt g.w 0 g.nQP (occF g.p.Nsite c.idx c.spn)
  hne : ip ≠ 0
  proj : ∀ k < g.q.NProj, projCnt k = makeProjCnt g.q c.num k
  noRBM : g.flagRBM = false

/-- the occupation list of a configuration -/
def fszList (g : GrnEnv) (c : FCfg) : List Nat := occList (2 * g.p.Ne) (occF g.p.Nsite c.idx c.spn)

end MVMC
