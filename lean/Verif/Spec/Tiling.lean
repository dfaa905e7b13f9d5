/-!
# Specification: a family of ranges that tiles `[0, len)`

Independent of any model definition.
-/
namespace MVMC.Spec

/-- The ranges `f 0, …, f (n-1)` are consecutive and cover `[0, len)`. -/
structure Tiles (f : Nat → Nat × Nat) (n len : Nat) : Prop where
  first : (f 0).1 = 0
  last : (f (n - 1)).2 = len
  ordered : ∀ r, r < n → (f r).1 ≤ (f r).2
  consecutive : ∀ r, r + 1 < n → (f r).2 = (f (r + 1)).1

/-- Every index of `[0, len)` lies in the range of exactly one worker and no worker gets an
index outside `[0, len)`. -/
def ExactlyOneOwner (f : Nat → Nat × Nat) (n len : Nat) : Prop :=
  (∀ i, i < len → ∃ r, (r < n ∧ (f r).1 ≤ i ∧ i < (f r).2) ∧
      ∀ r', (r' < n ∧ (f r').1 ≤ i ∧ i < (f r').2) → r' = r) ∧
  (∀ r i, r < n → (f r).1 ≤ i → i < (f r).2 → i < len)

/-- Shares of two workers differ by at most one item. -/
def Balanced (f : Nat → Nat × Nat) (n : Nat) : Prop :=
  ∀ r r', r < n → r' < n → (f r).2 - (f r).1 ≤ (f r').2 - (f r').1 + 1

end MVMC.Spec
