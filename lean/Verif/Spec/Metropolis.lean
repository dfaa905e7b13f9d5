import Mathlib.Topology.Algebra.InfiniteSum.ENNReal

/-! # Metropolis chains driven by a stream of draws

Spec of C71. `M c c'` is the set of finite streams of draws (each uniform in `0 … B-1`) by which a step proposes `c'` when it is at `c`;
the proposal is accepted with probability `min(1, W c'/W c)`. -/
namespace MVMC
namespace Spec
open scoped ENNReal

/-- probability that a stream of fair draws starts with `r` -/
noncomputable def streamProb (B : Nat) (r : List Nat) : ℝ≥0∞ := ((B : ℝ≥0∞)⁻¹) ^ r.length

/-- probability of the proposals in `S` (`S` prefix-free: a step consumes exactly one of its streams) -/
noncomputable def propProb (B : Nat) (S : Set (List Nat)) : ℝ≥0∞ := ∑' r : S, streamProb B r.1

/-- probability to move from `c` to another state `c'` -/
noncomputable def moveProb {X : Type} (B : Nat) (M : X → X → Set (List Nat)) (W : X → ℝ≥0∞) (c c' : X) : ℝ≥0∞ :=
  propProb B (M c c') * min 1 (W c' / W c)

open Classical in
/-- probability to move anywhere -/
noncomputable def leaveProb {X : Type} (B : Nat) (M : X → X → Set (List Nat)) (W : X → ℝ≥0∞) (c : X) : ℝ≥0∞ :=
  ∑' c'' : X, if c'' = c then 0 else moveProb B M W c c''

open Classical in
/-- the transition probabilities: a step that does not move stays -/
noncomputable def metroKernel {X : Type} (B : Nat) (M : X → X → Set (List Nat)) (W : X → ℝ≥0∞) (c c' : X) : ℝ≥0∞ :=
  if c = c' then 1 - leaveProb B M W c else moveProb B M W c c'

/-- distribution after one step -/
noncomputable def pushStep {X : Type} (K : X → X → ℝ≥0∞) (μ : X → ℝ≥0∞) (c' : X) : ℝ≥0∞ := ∑' c : X, μ c * K c c'

end Spec
end MVMC
