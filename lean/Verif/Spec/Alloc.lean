/-!
# Specification: what a client expects from a scratch allocator, in terms of the call history only
-/
namespace MVMC.Spec

/-- A call, as seen by the client: it asks for a capacity, takes `n` elements and receives address range
`[addr, addr+n)` in memory object `obj`, or gives everything back. -/
inductive Event where
  | reserve (n : Nat)
  | take (n obj addr : Nat)
  | giveBack
  deriving DecidableEq, Repr

/-- The blocks taken since everything was last given back, newest first. -/
def held : List Event → List (Nat × Nat × Nat)
  | [] => []
  | .take n o a :: past => (o, a, n) :: held past
  | .giveBack :: _ => []
  | .reserve _ :: past => held past

/-- Elements taken since everything was last given back. -/
def heldTotal (past : List Event) : Nat := ((held past).map (fun b => b.2.2)).sum

/-- The largest reservation made so far: the client is entitled to that many elements. -/
def reserved : List Event → Nat
  | [] => 0
  | .reserve n :: past => max n (reserved past)
  | _ :: past => reserved past

/-- Client discipline (history, newest event first): reservations that exceed everything reserved
so far are made only while nothing is held; takes stay within the reserved total. -/
def Disciplined : List Event → Prop
  | [] => True
  | .reserve n :: past => Disciplined past ∧ (n ≤ reserved past ∨ held past = [])
  | .take n _ _ :: past => Disciplined past ∧ heldTotal past + n ≤ reserved past
  | .giveBack :: past => Disciplined past

/-- Two ranges do not overlap. -/
def Apart (b c : Nat × Nat × Nat) : Prop :=
  b.1 ≠ c.1 ∨ b.2.1 + b.2.2 ≤ c.2.1 ∨ c.2.1 + c.2.2 ≤ b.2.1

end MVMC.Spec
