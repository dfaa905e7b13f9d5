import Mathlib.Analysis.SpecialFunctions.Trigonometric.Basic

/-!
# The Boltzmann-machine factor

Visible variables: charge `n↑+n↓-1` and spin `n↑-n↓` per site, `2n-1` per spin orbital. The factor is
`exp(Σ a·(class sum of visible variables)) · ∏_h cosh(b_h + Σ_i W_{ih} x_i)`.
-/
namespace MVMC.Spec

variable {R : Type} [CommRing R]

def chargeVar (nsite : Nat) (num : Nat → Int) (r : Nat) : R := (num r : R) + num (r + nsite) - 1
def spinVar (nsite : Nat) (num : Nat → Int) (r : Nat) : R := (num r : R) - num (r + nsite)
def orbitalVar (num : Nat → Int) (r : Nat) : R := 2 * (num r : R) - 1

/-- Sum of the visible variables `x` of one class. -/
def classSum (n : Nat) (cls : Nat → Nat) (x : Nat → R) (c : Nat) : R :=
  ∑ r ∈ Finset.range n, if cls r = c then x r else 0

/-- Input of one hidden unit: bias plus couplings to the visible variables. -/
def hiddenInput (b : R) (n : Nat) (W : Nat → R) (x : Nat → R) : R := b + ∑ r ∈ Finset.range n, W r * x r

/-- Value of the factor for given visible class sums and hidden inputs. -/
noncomputable def rbmValue (nVis nHid : Nat) (a vis θ : Nat → ℂ) : ℂ :=
  Complex.exp (∑ i ∈ Finset.range nVis, a i * vis i) * ∏ h ∈ Finset.range nHid, Complex.cosh (θ h)

/-- The whole factor as a function of the occupations: three kinds of variables (charge, spin, spin orbital), each with biases
`a` per class and hidden units with bias `b h` and couplings `W h r`. -/
noncomputable def rbmFactor (nsite nC nS nG hC hS hG : Nat) (clsC clsS clsG : Nat → Nat) (aC aS aG bC bS bG : Nat → ℂ)
    (WC WS WG : Nat → Nat → ℂ) (num : Nat → Int) : ℂ :=
  Complex.exp ((∑ c ∈ Finset.range nC, aC c * classSum nsite clsC (chargeVar nsite num) c)
    + (∑ c ∈ Finset.range nS, aS c * classSum nsite clsS (spinVar nsite num) c)
    + ∑ c ∈ Finset.range nG, aG c * classSum (2 * nsite) clsG (orbitalVar num) c)
  * ((∏ h ∈ Finset.range hC, Complex.cosh (hiddenInput (bC h) nsite (WC h) (chargeVar nsite num)))
    * (∏ h ∈ Finset.range hS, Complex.cosh (hiddenInput (bS h) nsite (WS h) (spinVar nsite num)))
    * ∏ h ∈ Finset.range hG, Complex.cosh (hiddenInput (bG h) (2 * nsite) (WG h) (orbitalVar num)))

end MVMC.Spec
