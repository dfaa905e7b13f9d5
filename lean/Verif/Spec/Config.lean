/-!
# Specification of a consistent electron configuration (Sz-conserving mode)

Mentions only the three tables; no model function is used.
-/
namespace MVMC.Spec

/-- The three tables describe one and the same placement of `Ne` up and `Ne` down electrons on `Nsite`
sites: electron `mi` of spin `s` sits on a site, and that site's entry points back to it; a site that
is not pointed at is marked empty. -/
structure Consistent (Ne Nsite : Nat) (idx cfg num : Nat → Int) : Prop where
  electron : ∀ s < 2, ∀ mi < Ne, ∃ ri < Nsite,
    idx (mi + s * Ne) = (ri : Int) ∧ cfg (ri + s * Nsite) = (mi : Int)
  site : ∀ s < 2, ∀ ri < Nsite,
    (cfg (ri + s * Nsite) = -1 ∧ num (ri + s * Nsite) = 0) ∨
    (∃ mi < Ne, cfg (ri + s * Nsite) = (mi : Int) ∧ idx (mi + s * Ne) = (ri : Int) ∧
      num (ri + s * Nsite) = 1)

/-- Local-spin sites hold exactly one electron. -/
def LocalSingle (Nsite : Nat) (locSpn : Nat → Int) (num : Nat → Int) : Prop :=
  ∀ ri < Nsite, locSpn ri = 1 → num ri + num (ri + Nsite) = 1

/-- Number of electrons of spin `s` according to the occupation table. -/
def spinCount (Nsite : Nat) (num : Nat → Int) (s : Nat) : Int :=
  ((List.range Nsite).map (fun ri => num (ri + s * Nsite))).sum

end MVMC.Spec
