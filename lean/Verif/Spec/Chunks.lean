/-!
# Specification of a chunked transfer
-/
namespace MVMC.Spec

/-- `chunks` are consecutive non-empty pieces of size at most `m` from `s` to `e`. -/
def Consecutive (m : Nat) : Nat → Nat → List (Nat × Nat) → Prop
  | s, e, [] => s = e
  | s, e, (o, n) :: l => o = s ∧ 0 < n ∧ n ≤ m ∧ Consecutive m (s + n) e l

/-- number of chunks that contain element `i` -/
def timesMoved (chunks : List (Nat × Nat)) (i : Nat) : Nat :=
  (chunks.filter (fun c => decide (c.1 ≤ i ∧ i < c.1 + c.2))).length

end MVMC.Spec
