import Verif.Proof.Legendre
import Mathlib.Analysis.Calculus.Deriv.Polynomial
import Mathlib.MeasureTheory.Integral.IntervalIntegral.FundThmCalculus
import Mathlib.LinearAlgebra.Lagrange
import Mathlib.Topology.ContinuousMap.Weierstrass
import Mathlib.Tactic.Positivity

/-! Gauss–Legendre quadrature. -/
namespace MVMC
open MVMC.Spec Polynomial Finset

/-! ### degree and orthogonality -/

theorem monic_u : (X ^ 2 - 1 : ℝ[X]).Monic := by
  have := monic_X_pow_sub_C (1 : ℝ) (n := 2) (by norm_num)
  simpa using this

theorem natDegree_u : (X ^ 2 - 1 : ℝ[X]).natDegree = 2 := by
  have := natDegree_X_pow_sub_C (n := 2) (r := (1 : ℝ))
  simpa using this

theorem legP_natDegree (n : Nat) : (legP n).natDegree = n := by
  have hc : (1 : ℝ) / (2 ^ n * (n.factorial : ℝ)) ≠ 0 := by positivity
  unfold legP
  rw [natDegree_C_mul hc]
  have hd : ((X ^ 2 - 1 : ℝ[X]) ^ n).natDegree = 2 * n := by rw [monic_u.natDegree_pow, natDegree_u, mul_comm]
  apply natDegree_eq_of_le_of_coeff_ne_zero
  · refine (natDegree_iterate_derivative _ _).trans ?_
    rw [hd]; omega
  · rw [coeff_iterate_derivative]
    have : ((X ^ 2 - 1 : ℝ[X]) ^ n).coeff (n + n) = 1 := by
      rw [show n + n = ((X ^ 2 - 1 : ℝ[X]) ^ n).natDegree by rw [hd]; ring]
      exact (monic_u.pow n).coeff_natDegree
    rw [this, nsmul_eq_mul, mul_one]
    exact_mod_cast (Nat.descFactorial_pos.mpr (by omega : n ≤ n + n)).ne'

theorem legP_ne (n : Nat) : legP n ≠ 0 := by
  intro h
  have := legP_one_eval n
  rw [h] at this; simp at this

/-- integral over `[-1, 1]` -/
noncomputable def intP (p : ℝ[X]) : ℝ := ∫ t in (-1 : ℝ)..1, p.eval t

theorem int_integrable (p : ℝ[X]) (a b : ℝ) : IntervalIntegrable (fun t => p.eval t) MeasureTheory.volume a b :=
  p.continuous.intervalIntegrable _ _

theorem intP_add (p q : ℝ[X]) : intP (p + q) = intP p + intP q := by
  unfold intP
  rw [← intervalIntegral.integral_add (int_integrable p _ _) (int_integrable q _ _)]
  simp

theorem intP_C_mul (c : ℝ) (p : ℝ[X]) : intP (C c * p) = c * intP p := by
  unfold intP
  rw [← intervalIntegral.integral_const_mul]
  simp

theorem intP_sub (p q : ℝ[X]) : intP (p - q) = intP p - intP q := by
  have := intP_add (p - q) q
  rw [sub_add_cancel] at this
  linarith

theorem intP_sum {ι : Type} (s : Finset ι) (f : ι → ℝ[X]) : intP (∑ i ∈ s, f i) = ∑ i ∈ s, intP (f i) := by
  classical
  induction s using Finset.induction_on with
  | empty => simp [intP]
  | insert a s ha ih => rw [Finset.sum_insert ha, Finset.sum_insert ha, intP_add, ih]

theorem intP_deriv (p : ℝ[X]) : intP (derivative p) = p.eval 1 - p.eval (-1) := by
  unfold intP
  exact intervalIntegral.integral_eq_sub_of_hasDerivAt (fun x _ => p.hasDerivAt x) (int_integrable _ _ _)

theorem rod_end {n k : Nat} (h : k < n) (c : ℝ) (hc : c ^ 2 - 1 = 0) : (rod n k).eval c = 0 := by
  have hd : (X ^ 2 - 1 : ℝ[X]) ^ (n - k) ∣ rod n k := pow_sub_dvd_iterate_derivative_of_pow_dvd k dvd_rfl
  have hd2 : (X ^ 2 - 1 : ℝ[X]) ∣ rod n k := (dvd_pow_self _ (by omega)).trans hd
  obtain ⟨r, hr⟩ := hd2
  rw [hr, eval_mul]
  simp [hc]

theorem rod_parts (n : Nat) : ∀ (k j : Nat), k + j = n → ∀ q : ℝ[X], intP (rod n n * q) = (-1) ^ j * intP (rod n k * derivative^[j] q) := by
  intro k j
  induction j generalizing k with
  | zero => intro h q; rw [← h]; simp
  | succ j ih =>
    intro h q
    rw [ih (k + 1) (by omega) q]
    have e : rod n (k + 1) * derivative^[j] q = derivative (rod n k * derivative^[j] q) - rod n k * derivative^[j + 1] q := by
      rw [derivative_mul, rod_succ, Function.iterate_succ_apply']; ring
    rw [e, intP_sub, intP_deriv, eval_mul, eval_mul, rod_end (by omega) 1 (by norm_num), rod_end (by omega) (-1) (by norm_num)]
    rw [pow_succ]; ring

/-- orthogonality to all lower degrees -/
theorem leg_orth {n : Nat} {q : ℝ[X]} (h : q.natDegree < n) : intP (legP n * q) = 0 := by
  unfold legP
  rw [mul_assoc, intP_C_mul]
  have := rod_parts n 0 n (by omega) q
  unfold rod at this
  rw [this, iterate_derivative_eq_zero h, mul_zero]
  simp [intP]

/-! ### roots -/

theorem leg_simple (n : Nat) {x : ℝ} (hx : x ^ 2 - 1 ≠ 0) (h : (legP n).eval x = 0) : (derivative (legP n)).eval x ≠ 0 := by
  intro hd
  induction n with
  | zero => rw [legP_zero] at h; simp at h
  | succ n ih =>
    have ha := congrArg (eval x) (leg_A n)
    have hc := congrArg (eval x) (leg_C n)
    simp only [eval_mul, eval_sub, eval_add, eval_pow, eval_X, eval_one, eval_C, h, hd] at ha hc
    have hn : (n : ℝ) + 1 ≠ 0 := by positivity
    have h0 : (legP n).eval x = 0 := by
      have : ((n : ℝ) + 1) * (legP n).eval x = 0 := by linear_combination ha
      exact (mul_eq_zero.mp this).resolve_left hn
    refine ih h0 ?_
    rw [h0] at hc
    have : (x ^ 2 - 1) * (derivative (legP n)).eval x = 0 := by linear_combination -hc
    exact (mul_eq_zero.mp this).resolve_left hx

/-- the roots inside the interval -/
noncomputable def legRoots (n : Nat) : Finset ℝ := (legP n).roots.toFinset.filter (fun x => -1 < x ∧ x < 1)

theorem mem_legRoots {n : Nat} {x : ℝ} : x ∈ legRoots n ↔ (legP n).eval x = 0 ∧ -1 < x ∧ x < 1 := by
  unfold legRoots
  rw [mem_filter, Multiset.mem_toFinset, mem_roots (legP_ne n), IsRoot.def]

theorem nodal_dvd {s : Finset ℝ} {p : ℝ[X]} (h : ∀ x ∈ s, p.eval x = 0) : Lagrange.nodal s id ∣ p := by
  rw [Lagrange.nodal_eq]
  apply Finset.prod_dvd_of_coprime
  · intro a _ b _ hab
    exact pairwise_coprime_X_sub_C Function.injective_id hab
  · intro a ha
    exact dvd_iff_isRoot.mpr (h a ha)

theorem legRoots_card (n : Nat) : (legRoots n).card = n := by
  classical
  obtain ⟨h, hh⟩ := nodal_dvd (s := legRoots n) (p := legP n) (fun x hx => (mem_legRoots.mp hx).1)
  set q := Lagrange.nodal (legRoots n) (id : ℝ → ℝ) with hq
  have hq0 : q ≠ 0 := Lagrange.nodal_ne_zero
  have hh0 : h ≠ 0 := by intro e; rw [e, mul_zero] at hh; exact legP_ne n hh
  have hdeg : n = (legRoots n).card + h.natDegree := by
    have := congrArg natDegree hh
    rwa [legP_natDegree, natDegree_mul hq0 hh0, Lagrange.natDegree_nodal] at this
  by_contra hne
  have hlt : (legRoots n).card < n := by omega
  have horth := leg_orth (n := n) (q := q) (by rw [hq, Lagrange.natDegree_nodal]; exact hlt)
  -- the cofactor has no root inside
  have hno : ∀ x ∈ Set.Ioo (-1 : ℝ) 1, h.eval x ≠ 0 := by
    intro x hx h0
    have hx2 : x ^ 2 - 1 ≠ 0 := by
      have h1 := hx.1; have h2 := hx.2
      intro e; nlinarith
    have hp : (legP n).eval x = 0 := by rw [hh, eval_mul, h0, mul_zero]
    have hqx : q.eval x = 0 := Lagrange.eval_nodal_at_node (v := id) (mem_legRoots.mpr ⟨hp, hx.1, hx.2⟩)
    apply leg_simple n hx2 hp
    rw [hh, derivative_mul, eval_add, eval_mul, eval_mul, h0, hqx]; simp
  -- hence it has a fixed sign
  have hsign : (∀ x ∈ Set.Ioo (-1 : ℝ) 1, 0 < h.eval x) ∨ (∀ x ∈ Set.Ioo (-1 : ℝ) 1, h.eval x < 0) := by
    by_contra hc
    push Not at hc
    obtain ⟨⟨x, hx, hx0⟩, y, hy, hy0⟩ := hc
    have hpre : IsPreconnected (Set.Ioo (-1 : ℝ) 1) := isPreconnected_Ioo
    have := hpre.intermediate_value hx hy (f := fun t => h.eval t) h.continuous.continuousOn
    obtain ⟨z, hz, hz0⟩ := this ⟨hx0, hy0⟩
    exact hno z hz hz0
  have hint : intP (legP n * q) = ∫ t in (-1 : ℝ)..1, h.eval t * (q.eval t) ^ 2 := by
    unfold intP
    congr 1; funext t
    rw [hh]; simp only [eval_mul]; ring
  rw [hint] at horth
  have hcont : Continuous fun t => h.eval t * (q.eval t) ^ 2 := h.continuous.mul (q.continuous.pow 2)
  -- a point inside where `q` does not vanish
  obtain ⟨c, hc, hcq⟩ : ∃ c ∈ Set.Ioo (-1 : ℝ) 1, q.eval c ≠ 0 := by
    by_contra hall
    push Not at hall
    apply hq0
    refine eq_zero_of_infinite_isRoot q (Set.Infinite.mono (s := Set.Ioo (-1 : ℝ) 1) (fun x hx => hall x hx) (Set.Ioo_infinite (by norm_num)))
  have hc' : c ∈ Set.Icc (-1 : ℝ) 1 := ⟨hc.1.le, hc.2.le⟩
  have hnb : (nhdsWithin (1 : ℝ) (Set.Ioo (-1) 1)).NeBot := by
    rw [← mem_closure_iff_nhdsWithin_neBot, closure_Ioo (by norm_num)]; constructor <;> norm_num
  rcases hsign with hs | hs
  · have : 0 < ∫ t in (-1 : ℝ)..1, h.eval t * (q.eval t) ^ 2 := by
      refine intervalIntegral.integral_pos (by norm_num) hcont.continuousOn ?_ ⟨c, hc', ?_⟩
      · intro x hx
        rcases eq_or_lt_of_le hx.2 with h1 | h1
        · refine mul_nonneg ?_ (sq_nonneg _)
          rw [h1]
          have := hnb; exact ge_of_tendsto (x := nhdsWithin (1 : ℝ) (Set.Ioo (-1) 1)) (h.continuous.continuousAt.tendsto.mono_left nhdsWithin_le_nhds)
            (Filter.eventually_of_mem self_mem_nhdsWithin fun y hy => (hs y hy).le)
        · exact mul_nonneg (hs x ⟨hx.1, h1⟩).le (sq_nonneg _)
      · exact mul_pos (hs c hc) (by positivity)
    linarith
  · have : 0 < ∫ t in (-1 : ℝ)..1, -(h.eval t * (q.eval t) ^ 2) := by
      refine intervalIntegral.integral_pos (by norm_num) hcont.neg.continuousOn ?_ ⟨c, hc', ?_⟩
      · intro x hx
        rw [neg_nonneg]
        rcases eq_or_lt_of_le hx.2 with h1 | h1
        · refine mul_nonpos_of_nonpos_of_nonneg ?_ (sq_nonneg _)
          rw [h1]
          have := hnb; exact le_of_tendsto (x := nhdsWithin (1 : ℝ) (Set.Ioo (-1) 1)) (h.continuous.continuousAt.tendsto.mono_left nhdsWithin_le_nhds)
            (Filter.eventually_of_mem self_mem_nhdsWithin fun y hy => (hs y hy).le)
        · exact mul_nonpos_of_nonpos_of_nonneg (hs x ⟨hx.1, h1⟩).le (sq_nonneg _)
      · rw [neg_pos]; exact mul_neg_of_neg_of_pos (hs c hc) (by positivity)
    rw [intervalIntegral.integral_neg] at this
    linarith

/-- the polynomial is determined by its roots -/
theorem legP_nodal (n : Nat) : ∃ a : ℝ, a ≠ 0 ∧ legP n = C a * Lagrange.nodal (legRoots n) id := by
  obtain ⟨h, hh⟩ := nodal_dvd (s := legRoots n) (p := legP n) (fun x hx => (mem_legRoots.mp hx).1)
  have hh0 : h ≠ 0 := by intro e; rw [e, mul_zero] at hh; exact legP_ne n hh
  have hd := congrArg natDegree hh
  rw [legP_natDegree, natDegree_mul Lagrange.nodal_ne_zero hh0, Lagrange.natDegree_nodal, legRoots_card] at hd
  have : h.natDegree = 0 := by omega
  obtain ⟨a, ha⟩ := natDegree_eq_zero.mp this
  refine ⟨a, ?_, by rw [hh, ← ha, mul_comm]⟩
  intro e; rw [e, map_zero] at ha; exact hh0 ha.symm

theorem legRoots_all {n : Nat} {x : ℝ} (h : (legP n).eval x = 0) : x ∈ legRoots n := by
  obtain ⟨a, ha, e⟩ := legP_nodal n
  rw [e, eval_mul, eval_C, Lagrange.eval_nodal] at h
  obtain ⟨y, hy, h0⟩ := Finset.prod_eq_zero_iff.mp ((mul_eq_zero.mp h).resolve_left ha)
  have : x = y := by simpa [sub_eq_zero] using h0
  rw [this]; exact hy

/-! ### the rule -/

/-- the weight of a node -/
noncomputable def glW (n : Nat) (r : ℝ) : ℝ := 2 / ((1 - r * r) * (derivative (legP n)).eval r * (derivative (legP n)).eval r)

theorem root_sq {n : Nat} {r : ℝ} (h : r ∈ legRoots n) : 0 < 1 - r * r := by
  obtain ⟨_, h1, h2⟩ := mem_legRoots.mp h
  nlinarith

theorem root_deriv {n : Nat} {r : ℝ} (h : r ∈ legRoots n) : (derivative (legP n)).eval r ≠ 0 :=
  leg_simple n (by have := root_sq h; intro e; nlinarith) (mem_legRoots.mp h).1

theorem glW_pos {n : Nat} {r : ℝ} (h : r ∈ legRoots n) : 0 < glW n r := by
  unfold glW
  have h1 := root_sq h
  have h2 := root_deriv h
  rw [mul_assoc]
  exact div_pos (by norm_num) (mul_pos h1 (mul_self_pos.mpr h2))

/-- interpolatory weights -/
noncomputable def intW (n : Nat) (r : ℝ) : ℝ := intP (Lagrange.basis (legRoots n) id r)

theorem exact_intW {n : Nat} {q : ℝ[X]} (hq : q.natDegree < 2 * n) : intP q = ∑ r ∈ legRoots n, intW n r * q.eval r := by
  classical
  have hn : 0 < n := by omega
  -- low degrees
  have low : ∀ t : ℝ[X], t.degree < (legRoots n).card → intP t = ∑ r ∈ legRoots n, intW n r * t.eval r := by
    intro t ht
    have h := Lagrange.eq_interpolate (s := legRoots n) (v := (id : ℝ → ℝ)) (fun a _ b _ h => h) ht
    rw [Lagrange.interpolate_apply] at h
    conv_lhs => rw [h]
    rw [intP_sum]
    refine Finset.sum_congr rfl fun r _ => ?_
    rw [intP_C_mul]; unfold intW; simp only [id]; ring
  have hdiv := EuclideanDomain.div_add_mod q (legP n)
  have hmod : (q % legP n).degree < (legRoots n).card := by
    rw [legRoots_card]
    have := EuclideanDomain.mod_lt q (legP_ne n)
    have h2 : (legP n).degree = n := by rw [degree_eq_natDegree (legP_ne n), legP_natDegree]
    rw [← h2]; exact this
  have hquo : (q / legP n).natDegree < n := by
    have h2 : (legP n).degree = n := by rw [degree_eq_natDegree (legP_ne n), legP_natDegree]
    by_cases hle : (legP n).degree ≤ q.degree
    · have hq0 : q ≠ 0 := by
        intro e; rw [e, degree_zero, h2] at hle; exact absurd hle (by simp)
      have hd0 : q / legP n ≠ 0 := by
        intro e
        rw [Polynomial.div_eq_zero_iff (legP_ne n)] at e
        exact absurd hle (not_le.mpr e)
      have := degree_add_div (legP_ne n) hle
      rw [h2, degree_eq_natDegree hq0, degree_eq_natDegree hd0] at this
      have h3 : n + (q / legP n).natDegree = q.natDegree := by exact_mod_cast this
      omega
    · have : q / legP n = 0 := (Polynomial.div_eq_zero_iff (legP_ne n)).mpr (not_le.mp hle)
      rw [this]; simpa using hn
  rw [← hdiv, intP_add, leg_orth hquo, zero_add, low _ hmod]
  refine Finset.sum_congr rfl fun r hr => ?_
  rw [eval_add, eval_mul, (mem_legRoots.mp hr).1, zero_mul, zero_add]

theorem leg_neg_one (n : Nat) : (legP n).eval (-1) ^ 2 = 1 := by
  have : ∀ n, (legP n).eval (-1) = (-1) ^ n := by
    intro n
    induction n using Nat.strong_induction_on with
    | _ n ih =>
      rcases n with _ | _ | n
      · rw [legP_zero]; simp
      · rw [legP_one]; simp
      · rw [leg_rec, ih (n + 1) (by omega), ih n (by omega)]
        have h2 : (n : ℝ) + 2 ≠ 0 := by positivity
        rw [div_eq_iff h2]; ring
  rw [this, ← pow_mul, mul_comm, pow_mul]; norm_num

theorem intW_eq {n : Nat} {r : ℝ} (hr : r ∈ legRoots n) : intW n r = glW n r := by
  classical
  have hn : 0 < n := by
    rcases Nat.eq_zero_or_pos n with h | h
    · subst h
      have := (mem_legRoots.mp hr).1
      rw [legP_zero] at this; simp at this
    · exact h
  obtain ⟨h, hh⟩ := dvd_iff_isRoot.mpr (mem_legRoots.mp hr).1
  have hh0 : h ≠ 0 := by intro e; rw [e, mul_zero] at hh; exact legP_ne n hh
  have hdeg : h.natDegree = n - 1 := by
    have := congrArg natDegree hh
    rw [legP_natDegree, natDegree_mul (X_sub_C_ne_zero r) hh0, natDegree_X_sub_C] at this
    omega
  have hd : derivative (legP n) = h + (X - C r) * derivative h := by rw [hh, derivative_mul]; simp
  have hr' : (derivative (legP n)).eval r = h.eval r := by rw [hd]; simp
  have hz : ∀ x ∈ legRoots n, x ≠ r → h.eval x = 0 := by
    intro x hx hne
    have := (mem_legRoots.mp hx).1
    rw [hh, eval_mul] at this
    refine (mul_eq_zero.mp this).resolve_left ?_
    simp [sub_eq_zero, hne]
  have e1 : intP (h * h) = intW n r * (h.eval r * h.eval r) := by
    rw [exact_intW (n := n) (by rw [natDegree_mul hh0 hh0]; omega), Finset.sum_eq_single r]
    · rw [eval_mul]
    · intro x hx hne; rw [eval_mul, hz x hx hne]; simp
    · intro hx; exact absurd hr hx
  have e2 : intP (h * derivative (legP n)) = intW n r * (h.eval r * h.eval r) := by
    rw [exact_intW (n := n) (by
      refine lt_of_le_of_lt natDegree_mul_le ?_
      have := natDegree_derivative_le (legP n)
      rw [legP_natDegree] at this
      omega), Finset.sum_eq_single r]
    · rw [eval_mul, hr']
    · intro x hx hne; rw [eval_mul, hz x hx hne]; simp
    · intro hx; exact absurd hr hx
  have e3 : intP (derivative ((X - C r) * (h * h))) = 2 * intP (h * derivative (legP n)) - intP (h * h) := by
    have : derivative ((X - C r) * (h * h)) = C 2 * (h * derivative (legP n)) - h * h := by
      rw [hd]; simp only [derivative_mul, derivative_sub, derivative_X, derivative_C, map_ofNat]; ring
    rw [this, intP_sub, intP_C_mul]
  rw [e1, e2, intP_deriv] at e3
  simp only [eval_mul, eval_sub, eval_X, eval_C] at e3
  have b1 : (1 - r) * h.eval 1 = 1 := by
    have := legP_one_eval n
    rw [hh, eval_mul] at this; simpa using this
  have b2 : ((-1 - r) * h.eval (-1)) ^ 2 = 1 := by
    have := leg_neg_one n
    rw [hh, eval_mul] at this; simpa using this
  obtain ⟨_, r1, r2⟩ := mem_legRoots.mp hr
  have n1 : 1 - r ≠ 0 := by linarith
  have n2 : 1 + r ≠ 0 := by linarith
  have n0 := root_sq hr
  have hv := root_deriv hr
  rw [hr'] at hv
  have c1 : (1 - r) * (h.eval 1 * h.eval 1) = 1 / (1 - r) := by
    field_simp; linear_combination ((1 - r) * h.eval 1 + 1) * b1
  have c2 : (-1 - r) * (h.eval (-1) * h.eval (-1)) = -1 / (1 + r) := by
    field_simp; linear_combination (-1 : ℝ) * b2
  rw [c1, c2] at e3
  unfold glW
  rw [hr', eq_div_iff (by rw [mul_assoc]; exact mul_ne_zero n0.ne' (mul_ne_zero hv hv))]
  have c3 : 1 / (1 - r) - -1 / (1 + r) = 2 / (1 - r * r) := by
    have : (1 - r * r) = (1 - r) * (1 + r) := by ring
    rw [this]; field_simp; ring
  rw [c3] at e3
  have c4 : intW n r * (h.eval r * h.eval r) = 2 / (1 - r * r) := by linarith
  have := n0.ne'
  rw [eq_div_iff this] at c4
  linear_combination c4

/-- the rule with the weights of the code is exact below degree `2n` -/
theorem gauss_exact {n : Nat} {q : ℝ[X]} (hq : q.natDegree < 2 * n) : intP q = ∑ r ∈ legRoots n, glW n r * q.eval r := by
  rw [exact_intW hq]
  exact Finset.sum_congr rfl fun r hr => by rw [intW_eq hr]

theorem glW_sum {n : Nat} (hn : 0 < n) : ∑ r ∈ legRoots n, glW n r = 2 := by
  have h := gauss_exact (n := n) (q := 1) (by simp; omega)
  simp only [eval_one, mul_one] at h
  rw [← h]
  simp [intP]; norm_num

end MVMC
