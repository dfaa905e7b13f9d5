import Mathlib.Analysis.Calculus.Deriv.Basic
import Mathlib.Analysis.Complex.Basic
import Verif.Spec.PfState

/-!
# The projected pair state

`|φ_q> = (Σ f_q(i,j) c̃†_{i↑} c̃†_{j↓})^{Ne}|0>` where `f_q` is the pair function seen through one lattice translation with its
signs, and `c̃` are the electrons after a spin rotation: `c̃†_↑ = c c†_↑ + s c†_↓`, `c̃†_↓ = -s c†_↑ + c c†_↓`. Its amplitude is the
Pfaffian of the antisymmetrised coefficient matrix.
-/
namespace MVMC.Spec

variable {R : Type} [CommRing R]

/-- coefficient of spin `σ` in the rotated up (down) creation operator -/
def rotUp (c s : R) (σ : Nat) : R := if σ = 0 then c else s
def rotDn (c s : R) (σ : Nat) : R := if σ = 0 then -s else c

/-- pair function after the translation `T` with signs `σ` -/
def translated (S : Nat → R) (idx : Nat → Nat → Nat) (sgn : Nat → Nat → Int) (T : Nat → Nat) (σ : Nat → Int) (i j : Nat) : R :=
  S (idx (T i) (T j)) * ((sgn (T i) (T j) * σ i * σ j : Int) : R)

/-- coefficient of `c†_x c†_y` (orbital = site + N·spin) in the rotated pair operator -/
def rotatedPair (N : Nat) (c s : R) (f : Nat → Nat → R) (x y : Nat) : R :=
  f (x % N) (y % N) * (rotUp c s (x / N) * rotDn c s (y / N))

/-- antisymmetrisation -/
def antisym (P : Nat → Nat → R) (x y : Nat) : R := P x y - P y x

/-- `o` is the logarithmic derivative of `F` at `z` in the direction `u` (real step) -/
def LogDeriv (F : ℂ → ℂ) (z u o : ℂ) : Prop := HasDerivAt (fun t : ℝ => F (z + t * u)) (o * F z) 0

end MVMC.Spec
