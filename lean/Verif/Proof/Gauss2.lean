import Verif.Proof.Gauss

/-! What `GaussLeg` returns, and convergence of the rule. -/
namespace MVMC
open MVMC.Spec Polynomial Finset

/-! ### convergence of the exact rule -/

theorem gauss_tendsto {f : ℝ → ℝ} (hf : Continuous f) :
    Filter.Tendsto (fun n => ∑ r ∈ legRoots n, glW n r * f r) Filter.atTop (nhds (∫ t in (-1 : ℝ)..1, f t)) := by
  rw [Metric.tendsto_atTop]
  intro ε hε
  obtain ⟨p, hp⟩ := exists_polynomial_near_of_continuousOn (-1) 1 f hf.continuousOn (ε / 5) (by linarith)
  refine ⟨p.natDegree + 1, fun n hn => ?_⟩
  have hex := gauss_exact (n := n) (q := p) (by omega)
  have h1 : |∑ r ∈ legRoots n, glW n r * f r - intP p| ≤ 2 * (ε / 5) := by
    rw [hex, ← Finset.sum_sub_distrib]
    refine (Finset.abs_sum_le_sum_abs _ _).trans ?_
    rw [← glW_sum (n := n) (by omega), Finset.sum_mul]
    refine Finset.sum_le_sum fun r hr => ?_
    rw [← mul_sub, abs_mul, abs_of_pos (glW_pos hr)]
    refine mul_le_mul_of_nonneg_left ?_ (glW_pos hr).le
    obtain ⟨_, r1, r2⟩ := mem_legRoots.mp hr
    have := hp r ⟨r1.le, r2.le⟩
    rw [abs_sub_comm] at this
    exact this.le
  have h2 : |intP p - ∫ t in (-1 : ℝ)..1, f t| ≤ 2 * (ε / 5) := by
    unfold intP
    rw [← intervalIntegral.integral_sub (int_integrable p _ _) (hf.intervalIntegrable _ _)]
    have := intervalIntegral.norm_integral_le_of_norm_le_const (a := (-1 : ℝ)) (b := 1) (f := fun t => p.eval t - f t) (C := ε / 5)
      (fun t ht => by
        rw [Set.uIoc_of_le (by norm_num)] at ht
        rw [Real.norm_eq_abs]
        exact (hp t ⟨ht.1.le, ht.2⟩).le)
    rw [Real.norm_eq_abs] at this
    refine this.trans ?_
    norm_num; linarith
  rw [Real.dist_eq]
  calc _ = |(∑ r ∈ legRoots n, glW n r * f r - intP p) + (intP p - ∫ t in (-1 : ℝ)..1, f t)| := by ring_nf
    _ ≤ _ := abs_add_le _ _
    _ < ε := by linarith

/-! ### the Newton loop -/

/-- every point is close to a root, measured by the Newton step -/
theorem near_root {n : Nat} (hn : 0 < n) {z : ℝ} (hd : (derivative (legP n)).eval z ≠ 0) :
    ∃ r ∈ legRoots n, |z - r| ≤ n * |(legP n).eval z / (derivative (legP n)).eval z| := by
  classical
  by_cases h0 : (legP n).eval z = 0
  · exact ⟨z, legRoots_all h0, by simp [h0]⟩
  by_contra hc
  push Not at hc
  obtain ⟨a, ha, e⟩ := legP_nodal n
  set K := (n : ℝ) * |(legP n).eval z / (derivative (legP n)).eval z| with hK
  have hKpos : 0 < K := by
    have : 0 < |(legP n).eval z / (derivative (legP n)).eval z| := abs_pos.mpr (div_ne_zero h0 hd)
    positivity
  have hP : |(legP n).eval z| = |a| * ∏ r ∈ legRoots n, |z - r| := by
    rw [e, eval_mul, eval_C, Lagrange.eval_nodal, abs_mul, Finset.abs_prod]; rfl
  have hD : |(derivative (legP n)).eval z| ≤ |a| * ∑ r ∈ legRoots n, ∏ s ∈ (legRoots n).erase r, |z - s| := by
    rw [e, derivative_C_mul, Lagrange.derivative_nodal, eval_mul, eval_C, abs_mul, eval_finsetSum]
    refine mul_le_mul_of_nonneg_left ((Finset.abs_sum_le_sum_abs _ _).trans (le_of_eq ?_)) (abs_nonneg _)
    refine Finset.sum_congr rfl fun r _ => ?_
    rw [Lagrange.eval_nodal, Finset.abs_prod]; rfl
  have hne : (legRoots n).Nonempty := by
    rw [← Finset.card_pos, legRoots_card]; exact hn
  have hlt : ∑ r ∈ legRoots n, ∏ s ∈ (legRoots n).erase r, |z - s| < ∑ r ∈ legRoots n, (∏ s ∈ legRoots n, |z - s|) / K := by
    refine Finset.sum_lt_sum_of_nonempty hne fun r hr => ?_
    rw [← Finset.mul_prod_erase _ _ hr, lt_div_iff₀ hKpos, mul_comm]
    refine mul_lt_mul_of_pos_right (hc r hr) (Finset.prod_pos fun s hs => ?_)
    exact lt_trans hKpos (hc s (Finset.mem_of_mem_erase hs))
  rw [Finset.sum_const, legRoots_card, nsmul_eq_mul] at hlt
  have hapos : 0 < |a| := abs_pos.mpr ha
  have h1 : |(derivative (legP n)).eval z| < n * |(legP n).eval z| / K := by
    refine lt_of_le_of_lt hD ?_
    rw [hP]
    have := mul_lt_mul_of_pos_left hlt hapos
    calc _ < _ := this
      _ = _ := by ring
  have hdp : 0 < |(derivative (legP n)).eval z| := abs_pos.mpr hd
  rw [lt_div_iff₀ hKpos, hK, abs_div] at h1
  have : |(derivative (legP n)).eval z| * (n * (|(legP n).eval z| / |(derivative (legP n)).eval z|)) = n * |(legP n).eval z| := by
    field_simp
  linarith

/-- the exit of the loop: a last Newton step, not longer than `eps` -/
structure NewtonStep (eps : ℝ) (n : Nat) (z1 z : ℝ) : Prop where
  sq : z1 * z1 - 1 ≠ 0
  dv : (derivative (legP n)).eval z1 ≠ 0
  step : z = z1 - (legP n).eval z1 / (derivative (legP n)).eval z1
  small : |z - z1| ≤ eps

theorem glNewton_some {eps : ℝ} {n : Nat} : ∀ {k : Nat} {z0 : ℝ} {r : ℝ × ℝ}, glNewton eps n k z0 = some r → NewtonStep eps n r.1 r.2
  | 0, z0, r, h => by simp [glNewton] at h
  | k + 1, z0, r, h => by
    unfold glNewton at h
    split_ifs at h with h1
    simp only at h
    split_ifs at h with h2
    · exact glNewton_some h
    · push Not at h1
      obtain ⟨h1, h3⟩ := h1
      have e := Option.some.inj h
      rw [glPp_eq n h1] at h3 h2 e
      rw [glPoly_fst] at h2 e
      rw [← e]
      exact ⟨h1, h3, rfl, not_lt.mp h2⟩

theorem newton_root {eps : ℝ} {n : Nat} (hn : 0 < n) {z1 z : ℝ} (h : NewtonStep eps n z1 z) :
    ∃ r ∈ legRoots n, |z1 - r| ≤ n * eps ∧ |z - r| ≤ (n + 1) * eps := by
  obtain ⟨r, hr, hle⟩ := near_root hn h.dv
  have hs := h.small
  have e : |z - z1| = |(legP n).eval z1 / (derivative (legP n)).eval z1| := by
    rw [h.step, sub_sub_cancel_left, abs_neg]
  rw [← e] at hle
  have h1 : |z1 - r| ≤ n * eps := hle.trans (mul_le_mul_of_nonneg_left hs (by positivity))
  refine ⟨r, hr, h1, ?_⟩
  calc |z - r| = |(z - z1) + (z1 - r)| := by ring_nf
    _ ≤ |z - z1| + |z1 - r| := abs_add_le _ _
    _ ≤ _ := by linarith

/-! ### parity -/

theorem leg_parity (n : Nat) (x : ℝ) : (legP n).eval (-x) = (-1) ^ n * (legP n).eval x := by
  induction n using Nat.strong_induction_on with
  | _ n ih =>
    rcases n with _ | _ | n
    · rw [legP_zero]; simp
    · rw [legP_one]; simp
    · rw [leg_rec, leg_rec, ih (n + 1) (by omega), ih n (by omega)]
      have h2 : (n : ℝ) + 2 ≠ 0 := by positivity
      field_simp
      ring

theorem leg_deriv_parity (n : Nat) {x : ℝ} (hx : x * x - 1 ≠ 0) :
    (derivative (legP n)).eval (-x) = -((-1) ^ n * (derivative (legP n)).eval x) := by
  rcases n with _ | n
  · rw [legP_zero]; simp
  · have h1 := congrArg (eval x) (leg_A n)
    have h2 := congrArg (eval (-x)) (leg_A n)
    simp only [eval_mul, eval_sub, eval_pow, eval_X, eval_one, eval_C] at h1 h2
    rw [leg_parity, leg_parity] at h2
    apply mul_left_cancel₀ hx
    linear_combination h2 + (-1) ^ (n + 1) * h1

theorem NewtonStep.neg {eps : ℝ} {n : Nat} {z1 z : ℝ} (h : NewtonStep eps n z1 z) : NewtonStep eps n (-z1) (-z) where
  sq := by have := h.sq; rwa [neg_mul_neg]
  dv := by
    rw [leg_deriv_parity n h.sq, neg_ne_zero]
    exact mul_ne_zero (pow_ne_zero _ (by norm_num)) h.dv
  step := by
    rw [leg_deriv_parity n h.sq, leg_parity, h.step, div_neg, mul_div_mul_left _ _ (pow_ne_zero n (by norm_num))]; ring
  small := by rw [← neg_sub', abs_neg]; exact h.small

theorem deriv_sq_neg (n : Nat) {x : ℝ} (hx : x * x - 1 ≠ 0) :
    (derivative (legP n)).eval (-x) * (derivative (legP n)).eval (-x) = (derivative (legP n)).eval x * (derivative (legP n)).eval x := by
  rw [leg_deriv_parity n hx]
  have : ((-1 : ℝ) ^ n) * (-1) ^ n = 1 := by rw [← mul_pow]; norm_num
  linear_combination (derivative (legP n)).eval x * (derivative (legP n)).eval x * this

/-! ### the arrays -/

/-- what is stored for node `i`: `z` scaled to the interval, and the weight from the last step -/
structure NodeOK (x1 x2 eps : ℝ) (n : Nat) (x w : ℝ) (z1 z : ℝ) : Prop where
  newton : NewtonStep eps n z1 z
  node : x = 0.5 * (x2 + x1) + 0.5 * (x2 - x1) * z
  den : (1 - z * z) * (derivative (legP n)).eval z1 * (derivative (legP n)).eval z1 ≠ 0
  weight : w = 2 * (0.5 * (x2 - x1)) / ((1 - z * z) * (derivative (legP n)).eval z1 * (derivative (legP n)).eval z1)

theorem storeAt_self {β : Type} (a : Nat → β) (i : Nat) (v : β) : storeAt a (i, v) i = v := by simp [storeAt]
theorem storeAt_ne {β : Type} (a : Nat → β) {i k : Nat} (v : β) (h : k ≠ i) : storeAt a (i, v) k = a k := by simp [storeAt, h]

theorem glBody_some {x1 x2 eps : ℝ} {fuel n i : Nat} {a : Option ((Nat → ℝ) × (Nat → ℝ))} {b : (Nat → ℝ) × (Nat → ℝ)} (hi : i < n)
    (h : glBody x1 x2 eps fuel n i a = some b) : ∃ a', a = some a' ∧ (∀ k, k ≠ i → k ≠ n - i - 1 → b.1 k = a'.1 k ∧ b.2 k = a'.2 k) ∧
      (∃ z1 z, NodeOK x1 x2 eps n (b.1 i) (b.2 i) z1 z) ∧ ∃ z1 z, NodeOK x1 x2 eps n (b.1 (n - i - 1)) (b.2 (n - i - 1)) z1 z := by
  unfold glBody at h
  rcases a with _ | a
  · simp at h
  rcases hN : glNewton eps n fuel (glStart n i) with _ | r
  · simp [hN] at h
  rw [hN] at h
  simp only [Option.bind_some] at h
  have hst := glNewton_some hN
  rw [glPp_eq n hst.sq] at h
  split_ifs at h with h0
  have e := Option.some.inj h
  refine ⟨a, rfl, ?_, ?_, ?_⟩
  · intro k h1 h2
    rw [← e]
    simp only
    rw [storeAt_ne _ _ h2, storeAt_ne _ _ h1, storeAt_ne _ _ h2, storeAt_ne _ _ h1]
    exact ⟨rfl, rfl⟩
  · rw [← e]
    simp only
    by_cases hm : i = n - i - 1
    · rw [← hm]
      simp only [storeAt_self]
      exact ⟨r.1, r.2, hst, rfl, h0, rfl⟩
    · rw [storeAt_ne _ _ hm, storeAt_ne _ _ hm, storeAt_self, storeAt_self]
      refine ⟨-r.1, -r.2, hst.neg, by ring, ?_, ?_⟩
      · rw [mul_assoc, deriv_sq_neg n hst.sq, neg_mul_neg, ← mul_assoc]; exact h0
      · rw [mul_assoc (1 - -r.2 * -r.2), deriv_sq_neg n hst.sq, neg_mul_neg, mul_assoc (1 - r.2 * r.2)]
  · rw [← e]
    simp only [storeAt_self]
    exact ⟨r.1, r.2, hst, rfl, h0, rfl⟩

theorem gaussLeg_fold {x1 x2 eps : ℝ} {fuel n : Nat} {x w : Nat → ℝ} : ∀ (m : Nat), 2 * m ≤ n + 1 → ∀ {b : (Nat → ℝ) × (Nat → ℝ)},
    (List.range m).foldl (fun a i => glBody x1 x2 eps fuel n i a) (some (x, w)) = some b →
    ∀ k, (k < m ∨ (n - m ≤ k ∧ k < n)) → ∃ z1 z, NodeOK x1 x2 eps n (b.1 k) (b.2 k) z1 z := by
  intro m
  induction m with
  | zero => intro _ b _ k hk; omega
  | succ m ih =>
    intro hm b h k hk
    rw [List.range_succ, List.foldl_append] at h
    simp only [List.foldl_cons, List.foldl_nil] at h
    obtain ⟨a', ha, hsame, h1, h2⟩ := glBody_some (by omega) h
    by_cases e1 : k = m
    · rw [e1]; exact h1
    · by_cases e2 : k = n - m - 1
      · rw [e2]; exact h2
      · rw [(hsame k e1 e2).1, (hsame k e1 e2).2]
        exact ih (by omega) ha k (by omega)

/-- every node and weight returned by `GaussLeg` -/
theorem gaussLeg_nodes {x1 x2 eps : ℝ} {fuel n : Nat} {x w : Nat → ℝ} {b : (Nat → ℝ) × (Nat → ℝ)}
    (h : gaussLeg x1 x2 eps fuel n x w = some b) : ∀ k < n, ∃ z1 z, NodeOK x1 x2 eps n (b.1 k) (b.2 k) z1 z := by
  intro k hk
  unfold gaussLeg at h
  exact gaussLeg_fold _ (by omega) h k (by omega)

end MVMC
