import Verif.Proof.Gauss2
import Mathlib.Topology.MetricSpace.Pseudo.Pi

/-! Convergence of the rule computed by `GaussLeg`. -/
namespace MVMC
open MVMC.Spec Polynomial Finset

/-- the nodes found belong to different roots -/
theorem gaussLeg_roots {x1 x2 eps : ℝ} (hx : x1 < x2) {fuel n : Nat} {x w : Nat → ℝ} {b : (Nat → ℝ) × (Nat → ℝ)}
    (h : gaussLeg x1 x2 eps fuel n x w = some b) (hs : Separated x1 x2 eps n b.1) :
    ∃ (e : Fin n ≃ legRoots n) (z1 z : Fin n → ℝ), ∀ i : Fin n, NodeOK x1 x2 eps n (b.1 i) (b.2 i) (z1 i) (z i) ∧
      |z1 i - e i| ≤ n * eps ∧ |z i - e i| ≤ (n + 1) * eps := by
  choose z1 z hz using fun i : Fin n => gaussLeg_nodes h i i.2
  choose r hr hr1 hr2 using fun i : Fin n => newton_root (n := n) (by have := i.2; omega) (hz i).newton
  have hinj : Function.Injective (fun i : Fin n => (⟨r i, hr i⟩ : legRoots n)) := by
    intro i j hij
    have e : r i = r j := congrArg Subtype.val hij
    by_contra hne
    have hsep := hs i i.2 j j.2 (fun h => hne (Fin.ext h))
    have hd : |z i - z j| ≤ 2 * ((n + 1) * eps) := by
      have h1 := hr2 i
      have h2 := hr2 j
      rw [← e] at h2
      calc |z i - z j| = |(z i - r i) - (z j - r i)| := by ring_nf
        _ ≤ |z i - r i| + |z j - r i| := abs_sub _ _
        _ ≤ _ := by linarith
    have he : b.1 i - b.1 j = 0.5 * (x2 - x1) * (z i - z j) := by rw [(hz i).node, (hz j).node]; ring
    rw [he, abs_mul, abs_of_pos (by linarith)] at hsep
    have := mul_le_mul_of_nonneg_left hd (show (0 : ℝ) ≤ 0.5 * (x2 - x1) by linarith)
    nlinarith
  have hbij : Function.Bijective (fun i : Fin n => (⟨r i, hr i⟩ : legRoots n)) := by
    rw [Fintype.bijective_iff_injective_and_card]
    refine ⟨hinj, ?_⟩
    rw [Fintype.card_fin, Fintype.card_coe, legRoots_card]
  exact ⟨Equiv.ofBijective _ hbij, z1, z, fun i => ⟨hz i, hr1 i, hr2 i⟩⟩

/-- a rule with nodes near the roots -/
noncomputable def nearSum (n : Nat) (xm xl : ℝ) (f : ℝ → ℝ) (p : (legRoots n → ℝ) × (legRoots n → ℝ)) : ℝ :=
  ∑ r : legRoots n, 2 * xl / ((1 - p.2 r * p.2 r) * (derivative (legP n)).eval (p.1 r) * (derivative (legP n)).eval (p.1 r)) * f (xm + xl * p.2 r)

theorem nearSum_cont (n : Nat) (xm xl : ℝ) {f : ℝ → ℝ} (hf : Continuous f) :
    ContinuousAt (nearSum n xm xl f) (fun r => (r : ℝ), fun r => (r : ℝ)) := by
  unfold nearSum
  refine tendsto_finsetSum _ fun r _ => ?_
  have h1 : ContinuousAt (fun p : (legRoots n → ℝ) × (legRoots n → ℝ) => p.1 r) (fun r => (r : ℝ), fun r => (r : ℝ)) :=
    ((continuous_apply r).comp continuous_fst).continuousAt
  have h2 : ContinuousAt (fun p : (legRoots n → ℝ) × (legRoots n → ℝ) => p.2 r) (fun r => (r : ℝ), fun r => (r : ℝ)) :=
    ((continuous_apply r).comp continuous_snd).continuousAt
  have hd : ContinuousAt (fun p : (legRoots n → ℝ) × (legRoots n → ℝ) => (derivative (legP n)).eval (p.1 r)) (fun r => (r : ℝ), fun r => (r : ℝ)) :=
    (Polynomial.continuous _).continuousAt.comp h1
  refine ContinuousAt.mul (ContinuousAt.div continuousAt_const (((continuousAt_const.sub (h2.mul h2)).mul hd).mul hd) ?_)
    (hf.continuousAt.comp (continuousAt_const.add (continuousAt_const.mul h2)))
  have := (root_sq r.2).ne'
  have h3 := root_deriv r.2
  refine mul_ne_zero (mul_ne_zero ?_ h3) h3
  intro h0; apply this; linarith

theorem nearSum_exact (n : Nat) (xm xl : ℝ) (f : ℝ → ℝ) :
    nearSum n xm xl f (fun r => (r : ℝ), fun r => (r : ℝ)) = xl * ∑ r ∈ legRoots n, glW n r * f (xm + xl * r) := by
  unfold nearSum
  rw [Finset.mul_sum, ← Finset.sum_coe_sort (legRoots n)]
  refine Finset.sum_congr rfl fun r _ => ?_
  unfold glW
  ring

theorem integral_scale (x1 x2 : ℝ) (f : ℝ → ℝ) :
    ∫ t in x1..x2, f t = 0.5 * (x2 - x1) * ∫ t in (-1 : ℝ)..1, f (0.5 * (x2 + x1) + 0.5 * (x2 - x1) * t) := by
  have := intervalIntegral.smul_integral_comp_add_mul (a := (-1 : ℝ)) (b := 1) f (0.5 * (x2 - x1)) (0.5 * (x2 + x1))
  rw [smul_eq_mul] at this
  rw [this]
  congr 1 <;> ring

/-- the rule of `GaussLeg` converges for every continuous function -/
theorem gaussLeg_limit {x1 x2 : ℝ} (hx : x1 < x2) {f : ℝ → ℝ} (hf : Continuous f) {δ : ℝ} (hδ : 0 < δ) :
    ∃ n0, ∀ n ≥ n0, ∃ ε0 > 0, ∀ eps ≤ ε0, ∀ fuel x w b, gaussLeg x1 x2 eps fuel n x w = some b → Separated x1 x2 eps n b.1 →
      |∑ i ∈ range n, b.2 i * f (b.1 i) - ∫ t in x1..x2, f t| < δ := by
  set xm := 0.5 * (x2 + x1) with hxm
  set xl := 0.5 * (x2 - x1) with hxl
  have hxl0 : 0 < xl := by rw [hxl]; linarith
  have hlim := gauss_tendsto (f := fun t => f (xm + xl * t)) (hf.comp (continuous_const.add (continuous_const.mul continuous_id)))
  rw [Metric.tendsto_atTop] at hlim
  obtain ⟨n0, hn0⟩ := hlim (δ / 2 / xl) (by positivity)
  refine ⟨n0, fun n hn => ?_⟩
  have h1 := hn0 n hn
  rw [Real.dist_eq] at h1
  have h1' : |xl * ∑ r ∈ legRoots n, glW n r * f (xm + xl * r) - ∫ t in x1..x2, f t| < δ / 2 := by
    rw [integral_scale, ← hxl, ← hxm, ← mul_sub, abs_mul, abs_of_pos hxl0]
    rw [lt_div_iff₀ hxl0] at h1
    linarith
  obtain ⟨η, hη, hc⟩ := Metric.continuousAt_iff.mp (nearSum_cont n xm xl hf) (δ / 2) (by positivity)
  refine ⟨η / (2 * (n + 1)), by positivity, fun eps heps fuel x w b hb hs => ?_⟩
  obtain ⟨e, z1, z, hz⟩ := gaussLeg_roots hx hb hs
  have hsmall : (n + 1 : ℝ) * eps < η := by
    have hp : (0 : ℝ) < n + 1 := by positivity
    calc (n + 1 : ℝ) * eps ≤ (n + 1) * (η / (2 * (n + 1))) := mul_le_mul_of_nonneg_left heps hp.le
      _ = η / 2 := by field_simp
      _ < η := by linarith
  have hsum : ∑ i ∈ range n, b.2 i * f (b.1 i) = nearSum n xm xl f (fun r => z1 (e.symm r), fun r => z (e.symm r)) := by
    unfold nearSum
    rw [Finset.sum_range, ← e.sum_comp]
    refine Finset.sum_congr rfl fun i _ => ?_
    simp only [Equiv.symm_apply_apply]
    rw [(hz i).1.node, (hz i).1.weight]
  have hdist : dist (fun r => z1 (e.symm r), fun r => z (e.symm r)) ((fun r => (r : ℝ), fun r => (r : ℝ)) : (legRoots n → ℝ) × (legRoots n → ℝ)) < η := by
    rw [Prod.dist_eq, max_lt_iff, dist_pi_lt_iff hη, dist_pi_lt_iff hη]
    have key : ∀ r, |z1 (e.symm r) - r| ≤ n * eps ∧ |z (e.symm r) - r| ≤ (n + 1) * eps := by
      intro r
      have := (hz (e.symm r)).2
      rwa [Equiv.apply_symm_apply] at this
    refine ⟨fun r => ?_, fun r => ?_⟩
    · rw [Real.dist_eq]
      have h0 : 0 ≤ eps := (abs_nonneg _).trans (hz (e.symm r)).1.newton.small
      have := (key r).1
      linarith
    · rw [Real.dist_eq]; exact lt_of_le_of_lt (key r).2 hsmall
  have h2 := hc hdist
  rw [Real.dist_eq, nearSum_exact] at h2
  rw [hsum]
  calc _ = |(nearSum n xm xl f (fun r => z1 (e.symm r), fun r => z (e.symm r)) - xl * ∑ r ∈ legRoots n, glW n r * f (xm + xl * r)) +
      (xl * ∑ r ∈ legRoots n, glW n r * f (xm + xl * r) - ∫ t in x1..x2, f t)| := by ring_nf
    _ ≤ _ := abs_add_le _ _
    _ < δ := by linarith

/-- the same for complex functions -/
theorem gaussLeg_limit_complex {x1 x2 : ℝ} (hx : x1 < x2) {f : ℝ → ℂ} (hf : Continuous f) {δ : ℝ} (hδ : 0 < δ) :
    ∃ n0, ∀ n ≥ n0, ∃ ε0 > 0, ∀ eps ≤ ε0, ∀ fuel x w b, gaussLeg x1 x2 eps fuel n x w = some b → Separated x1 x2 eps n b.1 →
      ‖∑ i ∈ range n, (b.2 i : ℂ) * f (b.1 i) - ∫ t in x1..x2, f t‖ < δ := by
  obtain ⟨n1, h1⟩ := gaussLeg_limit hx (Complex.continuous_re.comp hf) (half_pos hδ)
  obtain ⟨n2, h2⟩ := gaussLeg_limit hx (Complex.continuous_im.comp hf) (half_pos hδ)
  refine ⟨max n1 n2, fun n hn => ?_⟩
  obtain ⟨e1, he1, g1⟩ := h1 n (le_trans (le_max_left _ _) hn)
  obtain ⟨e2, he2, g2⟩ := h2 n (le_trans (le_max_right _ _) hn)
  refine ⟨min e1 e2, lt_min he1 he2, fun eps heps fuel x w b hb hs => ?_⟩
  have a1 := g1 eps (heps.trans (min_le_left _ _)) fuel x w b hb hs
  have a2 := g2 eps (heps.trans (min_le_right _ _)) fuel x w b hb hs
  have hi := hf.intervalIntegrable (μ := MeasureTheory.volume) x1 x2
  have r1 : (∫ t in x1..x2, f t).re = ∫ t in x1..x2, (f t).re := (Complex.reCLM.intervalIntegral_comp_comm hi).symm
  have r2 : (∫ t in x1..x2, f t).im = ∫ t in x1..x2, (f t).im := (Complex.imCLM.intervalIntegral_comp_comm hi).symm
  refine lt_of_le_of_lt (Complex.norm_le_abs_re_add_abs_im _) ?_
  rw [Complex.sub_re, Complex.sub_im, r1, r2, Complex.re_sum, Complex.im_sum]
  simp only [Complex.re_ofReal_mul, Complex.im_ofReal_mul]
  simp only [Function.comp] at a1 a2
  linarith

/-- with tolerance 0 the rule is exact for polynomials -/
theorem gaussLeg_exact {x1 x2 : ℝ} (hx : x1 < x2) {fuel n : Nat} {x w : Nat → ℝ} {b : (Nat → ℝ) × (Nat → ℝ)}
    (h : gaussLeg x1 x2 0 fuel n x w = some b) (hs : ∀ i < n, ∀ j < n, i ≠ j → b.1 i ≠ b.1 j) {p : ℝ[X]}
    (hp : p.natDegree < 2 * n) : IntegratesExactly x1 x2 n b.1 b.2 (fun t => p.eval t) := by
  have hs' : Separated x1 x2 0 n b.1 := by
    intro i hi j hj hij
    rw [mul_zero]
    exact abs_pos.mpr (sub_ne_zero.mpr (hs i hi j hj hij))
  obtain ⟨e, z1, z, hz⟩ := gaussLeg_roots hx h hs'
  set xm := 0.5 * (x2 + x1) with hxm
  set xl := 0.5 * (x2 - x1) with hxl
  unfold IntegratesExactly
  rw [integral_scale, ← hxm, ← hxl]
  set q : ℝ[X] := p.comp (C xm + C xl * X) with hq
  have hqe : ∀ t, q.eval t = p.eval (xm + xl * t) := by intro t; simp [hq]
  have hdeg : q.natDegree < 2 * n := by
    refine lt_of_le_of_lt ?_ hp
    rw [hq]
    refine natDegree_comp_le.trans ?_
    have : (C xm + C xl * X : ℝ[X]).natDegree ≤ 1 := by
      refine (natDegree_add_le _ _).trans ?_
      rw [natDegree_C]
      exact max_le (by omega) ((natDegree_C_mul_le _ _).trans natDegree_X_le)
    calc p.natDegree * _ ≤ p.natDegree * 1 := Nat.mul_le_mul_left _ this
      _ = _ := by omega
  have hex := gauss_exact hdeg
  unfold intP at hex
  simp only [hqe] at hex
  rw [hex, Finset.mul_sum, Finset.sum_range, ← Finset.sum_coe_sort (legRoots n), ← e.sum_comp]
  refine Finset.sum_congr rfl fun i _ => ?_
  have h1 : z1 i = e i := by have := (hz i).2.1; rw [mul_zero] at this; exact sub_eq_zero.mp (abs_nonpos_iff.mp this)
  have h2 : z i = e i := by have := (hz i).2.2; rw [mul_zero] at this; exact sub_eq_zero.mp (abs_nonpos_iff.mp this)
  rw [(hz i).1.weight, (hz i).1.node, h1, h2, ← hxm, ← hxl]
  unfold glW
  ring

end MVMC
