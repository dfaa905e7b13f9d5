import Verif.Spec.Config

/-!
# Specification of a consistent electron configuration (general-Sz mode)
-/
namespace MVMC.Spec

/-- The four tables describe one placement of `Nsize` electrons on `2*Nsite` spin-orbitals. -/
structure ConsistentF (Nsize Nsite : Nat) (idx spn cfg num : Nat → Int) : Prop where
  electron : ∀ mi < Nsize, ∃ ri < Nsite, ∃ s < 2,
    idx mi = ((ri : Nat) : Int) ∧ spn mi = ((s : Nat) : Int) ∧ cfg (ri + s * Nsite) = ((mi : Nat) : Int)
  site : ∀ s < 2, ∀ ri < Nsite,
    (cfg (ri + s * Nsite) = -1 ∧ num (ri + s * Nsite) = 0) ∨
    (∃ mi < Nsize, cfg (ri + s * Nsite) = ((mi : Nat) : Int) ∧ idx mi = ((ri : Nat) : Int) ∧
      spn mi = ((s : Nat) : Int) ∧ num (ri + s * Nsite) = 1)

/-- `2 S^z` according to the occupation table. -/
def magnetisation (Nsite : Nat) (num : Nat → Int) : Int := spinCount Nsite num 0 - spinCount Nsite num 1

end MVMC.Spec
