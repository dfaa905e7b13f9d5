import Verif.Proof.SpinCode

/-! The two-point rule, and the amplitude of a doubly occupied site. -/
namespace MVMC
open MVMC.Spec Finset

theorem glPoly_two (z : ℝ) : glPoly 2 z = ((3 * z * z - 1) / 2, z) := by
  unfold glPoly
  simp only [show List.range' 1 2 = [1, 2] from rfl, List.foldl]
  refine Prod.ext ?_ ?_
  · push_cast; ring
  · push_cast; ring

theorem glPp_two {z : ℝ} (h : z * z - 1 ≠ 0) : glPp 2 z = 3 * z := by
  unfold glPp
  rw [glPoly_two, div_eq_iff h]
  push_cast; ring

theorem step_two {z : ℝ} (h0 : 1 / 2 ≤ z) (h1 : z < 1) : z * z - 1 ≠ 0 ∧ glPp 2 z = 3 * z ∧
    z - (glPoly 2 z).1 / glPp 2 z = (3 * z * z + 1) / (6 * z) := by
  have h : z * z - 1 ≠ 0 := by nlinarith
  refine ⟨h, glPp_two h, ?_⟩
  rw [glPp_two h, glPoly_two]
  have : z ≠ 0 := by linarith
  field_simp
  ring

theorem next_two {z : ℝ} (h0 : 1 / 2 ≤ z) (h1 : z < 1) : 1 / 2 ≤ (3 * z * z + 1) / (6 * z) ∧ (3 * z * z + 1) / (6 * z) < 1 ∧
    1 ≤ 3 * ((3 * z * z + 1) / (6 * z)) ^ 2 := by
  have hz : 0 < 6 * z := by linarith
  refine ⟨?_, ?_, ?_⟩
  · rw [le_div_iff₀ hz]; nlinarith [sq_nonneg (z - 1 / 2)]
  · rw [div_lt_one hz]; nlinarith
  · rw [div_pow, ← mul_div_assoc, le_div_iff₀ (by positivity)]
    nlinarith [sq_nonneg (3 * z * z - 1)]

theorem newton_two {eps : ℝ} : ∀ (k : Nat) {z1 a z : ℝ}, 1 / 2 ≤ z1 → z1 < 1 → glNewton eps 2 k z1 = some (a, z) →
    1 / 2 ≤ a ∧ a < 1 ∧ z = (3 * a * a + 1) / (6 * a)
  | 0, _, _, _, _, _, h => by cases h
  | k + 1, z1, a, z, h0, h1, h => by
    obtain ⟨s1, s2, s3⟩ := step_two h0 h1
    unfold glNewton at h
    rw [if_neg (by rw [s2]; push Not; exact ⟨s1, by linarith⟩)] at h
    simp only [s3] at h
    split_ifs at h
    · exact newton_two k (next_two h0 h1).1 (next_two h0 h1).2.1 h
    · have e := Option.some.inj h
      rw [Prod.mk.injEq] at e
      obtain ⟨rfl, rfl⟩ := e
      exact ⟨h0, h1, rfl⟩

theorem start_two : 1 / 2 ≤ glStart 2 0 ∧ glStart 2 0 < 1 := by
  have e : glStart 2 0 = Real.cos (Real.pi * (3 / 10)) := by unfold glStart; congr 1; push_cast; ring
  rw [e]
  have hp := Real.pi_pos
  constructor
  · rw [← Real.cos_pi_div_three]
    exact Real.cos_le_cos_of_nonneg_of_le_pi (by positivity) (by linarith) (by linarith)
  · rw [← Real.cos_zero]
    exact Real.cos_lt_cos_of_nonneg_of_le_pi (le_refl _) (by linarith) (by positivity)

theorem newton_two_ends {eps r : ℝ} (hr0 : 0 < r) (hr : 3 * r ^ 2 = 1) (k : Nat) : ∀ {z1 : ℝ}, r ≤ z1 → 1 / 2 ≤ z1 → z1 < 1 →
    z1 - r ≤ 2 ^ k * eps → ∃ p, glNewton eps 2 (k + 1) z1 = some p := by
  have key : ∀ {z1 : ℝ}, r ≤ z1 → 1 / 2 ≤ z1 → 0 ≤ (3 * z1 * z1 + 1) / (6 * z1) - r ∧ (3 * z1 * z1 + 1) / (6 * z1) - r ≤ (z1 - r) / 2 := by
    intro z1 hz h0
    have hz0 : 0 < z1 := by linarith
    have hd : (3 * z1 * z1 + 1) / (6 * z1) - r = (z1 - r) * (z1 - r) / (2 * z1) := by
      field_simp
      nlinarith
    rw [hd]
    refine ⟨div_nonneg (mul_self_nonneg _) (by linarith), ?_⟩
    rw [div_le_div_iff₀ (by linarith) (by norm_num)]
    nlinarith [mul_nonneg (sub_nonneg.mpr hz) hr0.le]
  have stop : ∀ {z1 : ℝ} {k : Nat}, 1 / 2 ≤ z1 → z1 < 1 → glNewton eps 2 (k + 1) z1 =
      if |(3 * z1 * z1 + 1) / (6 * z1) - z1| > eps then glNewton eps 2 k ((3 * z1 * z1 + 1) / (6 * z1)) else
        some (z1, (3 * z1 * z1 + 1) / (6 * z1)) := by
    intro z1 k h0 h1
    obtain ⟨s1, s2, s3⟩ := step_two h0 h1
    rw [glNewton, if_neg (by rw [s2]; push Not; exact ⟨s1, by linarith⟩)]
    simp only [s3]
  induction k with
  | zero =>
    intro z1 hz h0 h1 hk
    obtain ⟨k0, k1⟩ := key hz h0
    rw [pow_zero, one_mul] at hk
    rw [stop h0 h1, if_neg (by rw [abs_of_nonpos (by linarith)]; push Not; linarith)]
    exact ⟨_, rfl⟩
  | succ k ih =>
    intro z1 hz h0 h1 hk
    obtain ⟨k0, k1⟩ := key hz h0
    rw [stop h0 h1]
    split_ifs
    · refine ih (by linarith) (next_two h0 h1).1 (next_two h0 h1).2.1 ?_
      rw [pow_succ] at hk
      linarith
    · exact ⟨_, rfl⟩

/-- the two-point run ends for every positive tolerance -/
theorem newton_two_exists {eps : ℝ} (he : 0 < eps) : ∃ fuel p, glNewton eps 2 fuel (glStart 2 0) = some p := by
  obtain ⟨h0, h1⟩ := start_two
  obtain ⟨k, hk⟩ := pow_unbounded_of_one_lt (1 / eps) (show (1 : ℝ) < 2 by norm_num)
  have hr0 : 0 < Real.sqrt (1 / 3) := Real.sqrt_pos.mpr (by norm_num)
  have hr : 3 * Real.sqrt (1 / 3) ^ 2 = 1 := by rw [Real.sq_sqrt (by norm_num)]; norm_num
  obtain ⟨s1, s2, s3⟩ := step_two h0 h1
  obtain ⟨n0, n1, n2⟩ := next_two h0 h1
  refine ⟨k + 1 + 1, ?_⟩
  unfold glNewton
  rw [if_neg (by rw [s2]; push Not; exact ⟨s1, by linarith⟩)]
  simp only [s3]
  split_ifs
  · refine newton_two_ends hr0 hr k ?_ n0 n1 ?_
    · exact Real.sqrt_le_iff.mpr ⟨by linarith, by linarith⟩
    · have : 1 < 2 ^ k * eps := by rw [div_lt_iff₀ he] at hk; exact hk
      linarith
  · exact ⟨_, rfl⟩

/-- the stored two-point rule -/
theorem gaussLeg_two {x1 x2 eps : ℝ} {fuel : Nat} {x w : Nat → ℝ} {b : (Nat → ℝ) × (Nat → ℝ)} (h : gaussLeg x1 x2 eps fuel 2 x w = some b) :
    ∃ z v, 1 / 2 ≤ z ∧ z < 1 ∧ 1 ≤ 3 * z ^ 2 ∧ 0 < v ∧ b.1 0 = 0.5 * (x2 + x1) - 0.5 * (x2 - x1) * z ∧
      b.1 1 = 0.5 * (x2 + x1) + 0.5 * (x2 - x1) * z ∧ b.2 0 = 2 * (0.5 * (x2 - x1)) / v ∧ b.2 1 = 2 * (0.5 * (x2 - x1)) / v := by
  unfold gaussLeg at h
  simp only [show List.range ((2 + 1) / 2) = [0] from rfl, List.foldl, glBody, Option.bind_some] at h
  rcases hN : glNewton eps 2 fuel (glStart 2 0) with _ | ⟨a, z⟩
  · rw [hN] at h; cases h
  · rw [hN] at h
    simp only [Option.bind_some] at h
    obtain ⟨ha0, ha1, hz⟩ := newton_two fuel start_two.1 start_two.2 hN
    obtain ⟨n0, n1, n2⟩ := next_two ha0 ha1
    rw [← hz] at n0 n1 n2
    split_ifs at h with hv
    have e := Option.some.inj h
    refine ⟨z, (1 - z * z) * glPp 2 a * glPp 2 a, n0, n1, n2, ?_, ?_, ?_, ?_, ?_⟩
    · rw [(step_two ha0 ha1).2.1]
      have : 0 < 1 - z * z := by nlinarith
      positivity
    all_goals rw [← e]; simp [storeAt]

theorem gaussLeg_two_exists {x1 x2 eps : ℝ} (he : 0 < eps) (x w : Nat → ℝ) : ∃ fuel b, gaussLeg x1 x2 eps fuel 2 x w = some b := by
  obtain ⟨fuel, ⟨a, z⟩, hp⟩ := newton_two_exists he
  refine ⟨fuel, ?_⟩
  unfold gaussLeg
  simp only [show List.range ((2 + 1) / 2) = [0] from rfl, List.foldl, glBody, Option.bind_some]
  rw [hp]
  simp only [Option.bind_some]
  obtain ⟨ha0, ha1, hz⟩ := newton_two fuel start_two.1 start_two.2 hp
  obtain ⟨n0, n1, n2⟩ := next_two ha0 ha1
  rw [← hz] at n0 n1 n2
  rw [if_neg]
  · exact ⟨_, rfl⟩
  · rw [(step_two ha0 ha1).2.1]
    have : 0 < 1 - z * z := by nlinarith
    have : 0 < a := by linarith
    positivity

/-- a doubly occupied site has no spin -/
theorem spinSq_double {N i : Nat} (hi : i < N) {F : List Nat → ℂ} (hF : AltL (2 * N) F) : applyAdj (spinSq N) F [i, i + N] = 0 := by
  have hc : IsConfig N [i, i + N] := by
    constructor
    · simp; omega
    · intro y hy; simp at hy; omega
  have hz : SzZero N [i, i + N] := by
    unfold SzZero
    rw [List.filter_cons_of_pos (by simpa using hi), List.filter_cons_of_neg (by simp), List.filter_cons_of_neg (by simp; omega), List.filter_cons_of_pos (by simp)]
    rfl
  rw [apply_spinSq hF hc hz]
  have e0 : flipS N i = i + N := by unfold flipS; rw [if_pos hi]
  have e1 : flipS N (i + N) = i := by unfold flipS; rw [if_neg (by omega), if_pos (by omega)]; omega
  simp only [derL, e0, e1]
  have u0 : dnS N i = 0 := by unfold dnS; rw [if_pos hi]
  have u1 : dnS N (i + N) = 1 := by unfold dnS; rw [if_neg (by omega)]
  have u2 : upS N i = 1 := by unfold upS; rw [if_pos hi]
  have hs := hF [] i (i + N) [] (by intro z hz; simp at hz; omega)
  simp only [List.nil_append] at hs
  rw [u0, u1, u2]
  rw [hs]
  ring

/-- the pair amplitude of a doubly occupied site does not change under rotation -/
theorem pf_double {N i : Nat} (hi : i < N) (c s : ℂ) (f : Nat → Nat → ℂ) : pf (antisym (rotatedPair N c s f)) [i, i + N] = f i i * (c * c + s * s) := by
  have h1 : i % N = i := Nat.mod_eq_of_lt hi
  have h2 : (i + N) % N = i := by rw [Nat.add_mod_right, h1]
  have h3 : i / N = 0 := Nat.div_eq_of_lt hi
  have h4 : (i + N) / N = 1 := by rw [Nat.add_div_right _ (by omega), h3]
  have e : pf (antisym (rotatedPair N c s f)) [i, i + N] = antisym (rotatedPair N c s f) i (i + N) := by
    simp [pf, pfN, altSum]
  rw [e]
  simp only [antisym, rotatedPair, rotUp, rotDn, h1, h2, h3, h4]
  simp
  ring

end MVMC
