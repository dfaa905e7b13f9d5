import Verif.Spec.Hamiltonian
import Verif.Spec.TrialState
import Verif.Spec.GreenN
import Verif.Model.LsLocGrn

/-!
# Specification of the second-order local quantities

Products of sums of operator products, so that `<ψ|H·H|x>/<ψ|x>` is `energyOf Ψ (hamProd H H) x`.
-/
namespace MVMC.Spec

/-- `H · ops` for `H = Σ coefficient · operator product` -/
noncomputable def hamTimes (A : List (ℂ × List Op)) (ops : List Op) : List (ℂ × List Op) := A.map (fun t => (t.1, t.2 ++ ops))

/-- `A · B` -/
noncomputable def hamProd (A B : List (ℂ × List Op)) : List (ℂ × List Op) :=
  A.flatMap (fun a => B.map (fun b => (a.1 * b.1, a.2 ++ b.2)))

end MVMC.Spec

namespace MVMC
open MVMC.Spec

/-- Wherever the projected pair state does not vanish, none of its projected components vanishes. -/
def NoZero (g : GrnEnv) : Prop :=
  ∀ rs : Nat → Nat, (∀ i < 2 * g.p.Ne, ∀ j < 2 * g.p.Ne, rs i = rs j → i = j) → (∀ i < 2 * g.p.Ne, rs i < 2 * g.p.Nsite) →
    amplitude (2 * g.p.Ne) (2 * g.p.Nsite) g.slt g.w 0 g.nQP rs ≠ 0 →
    ∀ q < g.nQP, pfOf (entry (2 * g.p.Nsite) g.slt q) (2 * g.p.Ne) rs ≠ 0

/-- the same contents of `InvM` and `PfM` -/
def SameState (g : GrnEnv) (st st' : PfState ℂ) : Prop :=
  (∀ i < g.nQP * (2 * g.p.Ne) * (2 * g.p.Ne), st'.invM i = st.invM i) ∧ ∀ q < g.nQP, st'.pfM q = st.pfM q

/-- an execution of a parallel region by the threads `0..T-1` -/
def OmpOK (H : HamPar) (T : Nat) (r : OmpRun) : Prop := SchedOK H T r.sched ∧ r.order.Perm (List.range T)

/-- executions of the parallel regions of one call -/
def LsOK (H : HamPar) (T : Nat) (r : LsRun) : Prop := OmpOK H T r.ham ∧ OmpOK H T r.ham0 ∧ OmpOK H T r.reg

/-- no off-diagonal two-body terms -/
def OneBody (H : HamPar) : Prop := H.nPH = 0 ∧ H.nEX = 0 ∧ H.nIA = 0

/-- Which Pfaffian routines of three or more moved electrons the theorems cover: any, if the Hamiltonian never needs them; otherwise the
routine of the real file, without a Boltzmann machine. -/
def LsChildOK (g : GrnEnv) (H : HamPar) (child : LsChild) : Prop :=
  OneBody H ∨ (g.flagRBM = false ∧ ∃ pfa, PfaOK pfa ∧ child = lsChildReal pfa)

end MVMC
