import Mathlib.Algebra.BigOperators.Group.Finset.Basic
import Mathlib.Data.Finset.Card

/-!
# What the correlation counters are supposed to count

Independent of the loops: sums and cardinalities over sites. `n0`, `n1` are the up and down occupations.
-/
namespace MVMC.Spec

/-- Number of doubly occupied sites in Gutzwiller class `g`. -/
def gutzCount (Nsite : Nat) (gIdx : Nat → Nat) (n0 n1 : Nat → Int) (g : Nat) : Int :=
  ∑ r ∈ Finset.range Nsite, if gIdx r = g then n0 r * n1 r else 0

/-- `Σ_{i<j, class(i,j)=v} (n_i - 1)(n_j - 1)`. -/
def jastCount (Nsite : Nat) (jIdx : Nat → Nat → Nat) (n0 n1 : Nat → Int) (v : Nat) : Int :=
  ∑ i ∈ Finset.range Nsite, ∑ j ∈ Finset.range Nsite,
    if i < j ∧ jIdx i j = v then (n0 i + n1 i - 1) * (n0 j + n1 j - 1) else 0

def isDoublon (n0 n1 : Nat → Int) (r : Nat) : Prop := n0 r = 1 ∧ n1 r = 1
def isHolon (n0 n1 : Nat → Int) (r : Nat) : Prop := n0 r = 0 ∧ n1 r = 0

instance (n0 n1 : Nat → Int) (r : Nat) : Decidable (isDoublon n0 n1 r) := by unfold isDoublon; infer_instance
instance (n0 n1 : Nat → Int) (r : Nat) : Decidable (isHolon n0 n1 r) := by unfold isHolon; infer_instance

/-- Number of holons (`d = false`) that have exactly `m` doublons among the listed neighbours, or of doublons
(`d = true`) that have exactly `m` holons among them. -/
def dhCount (Nsite : Nat) (nbr : Nat → List Nat) (n0 n1 : Nat → Int) (d : Bool) (m : Nat) : Int :=
  (((Finset.range Nsite).filter (fun r =>
    if d then isDoublon n0 n1 r ∧ ((nbr r).filter (fun q => isHolon n0 n1 q)).length = m
    else isHolon n0 n1 r ∧ ((nbr r).filter (fun q => isDoublon n0 n1 q)).length = m)).card : Int)

end MVMC.Spec
