import Verif.Spec.Metropolis
import Mathlib.Analysis.Complex.Norm

/-! # Runs of a Markov chain and the error of an average over a run

Spec of C75. -/
namespace MVMC
namespace Spec
open scoped ENNReal

open Classical in
/-- probability to be at `c'` after `n` steps from `c` -/
noncomputable def stepsProb {X : Type} (K : X → X → ℝ≥0∞) : Nat → X → X → ℝ≥0∞
  | 0, c, c' => if c = c' then 1 else 0
  | n + 1, c, c' => ∑' y, K c y * stepsProb K n y c'

/-- mean of `F` over the lists of the `n+1` states visited by `n` transitions that start at `c` -/
noncomputable def pathMean {X : Type} (P : X → X → ℝ≥0∞) : Nat → X → (List X → ℝ≥0∞) → ℝ≥0∞
  | 0, c, F => F [c]
  | n + 1, c, F => ∑' y, P c y * pathMean P n y (fun l => F (c :: l))

/-- arithmetic mean of `f` over the visited states -/
noncomputable def sampleMean {X : Type} (f : X → ℂ) (l : List X) : ℂ := (l.map f).sum / l.length

/-- mean square of the difference between `μ` and the average of `f` over `n+1` samples: the chain makes `w` steps from `c0`, is sampled there,
and is sampled again `n` times after `m` steps each -/
noncomputable def meanSqErr {X : Type} (K : X → X → ℝ≥0∞) (c0 : X) (w m n : Nat) (f : X → ℂ) (μ : ℂ) : ℝ≥0∞ :=
  ∑' c, stepsProb K w c0 c * pathMean (stepsProb K m) n c (fun l => ENNReal.ofReal (‖sampleMean f l - μ‖ ^ 2))

open Classical in
/-- probability that this average is off by `ε` or more -/
noncomputable def errProb {X : Type} (K : X → X → ℝ≥0∞) (c0 : X) (w m n : Nat) (f : X → ℂ) (μ : ℂ) (ε : ℝ) : ℝ≥0∞ :=
  ∑' c, stepsProb K w c0 c * pathMean (stepsProb K m) n c (fun l => if ε ≤ ‖sampleMean f l - μ‖ then 1 else 0)

open Classical in
/-- probability that the list of `n+1` samples does not have the property `P` -/
noncomputable def failProb {X : Type} (K : X → X → ℝ≥0∞) (c0 : X) (w m n : Nat) (P : List X → Prop) : ℝ≥0∞ :=
  ∑' c, stepsProb K w c0 c * pathMean (stepsProb K m) n c (fun l => if P l then 0 else 1)

/-- a step can lead from `c` to `c'` -/
def CanStep {X : Type} (K : X → X → ℝ≥0∞) (c c' : X) : Prop := K c c' ≠ 0

/-- some number of steps can lead from `c` to `c'` -/
inductive CanReach {X : Type} (K : X → X → ℝ≥0∞) (c : X) : X → Prop
  | refl : CanReach K c c
  | step {a b : X} : CanReach K c a → CanStep K a b → CanReach K c b

end Spec
end MVMC
