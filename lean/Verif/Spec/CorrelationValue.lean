import Mathlib.Data.Real.Basic
import Verif.Spec.Correlation

/-!
# Exponent of the correlation factor

`log P(x) = Σ_g α_g D_g(x) + Σ_v v_v J_v(x) + Σ α^{d-h}_{(t,d,m)} N_{t,d,m}(x)`, written with the counts of
`Spec/Correlation.lean`; `g`, `v`, `a2 t d m`, `a4 t d m` are the real parameters of the four blocks.
-/
namespace MVMC.Spec

noncomputable def logCorr (Nsite NG NJ N2 N4 : Nat) (gIdx : Nat → Nat) (jIdx : Nat → Nat → Nat)
    (nb2 nb4 : Nat → Nat → List Nat) (g v : Nat → ℝ) (a2 a4 : Nat → Nat → Nat → ℝ) (n0 n1 : Nat → Int) : ℝ :=
  (∑ i ∈ Finset.range NG, g i * (gutzCount Nsite gIdx n0 n1 i : ℝ))
  + (∑ i ∈ Finset.range NJ, v i * (jastCount Nsite jIdx n0 n1 i : ℝ))
  + (∑ m ∈ Finset.range 3, ∑ d ∈ Finset.range 2, ∑ t ∈ Finset.range N2,
      a2 t d m * (dhCount Nsite (nb2 t) n0 n1 (d == 1) m : ℝ))
  + (∑ m ∈ Finset.range 5, ∑ d ∈ Finset.range 2, ∑ t ∈ Finset.range N4,
      a4 t d m * (dhCount Nsite (nb4 t) n0 n1 (d == 1) m : ℝ))

end MVMC.Spec
