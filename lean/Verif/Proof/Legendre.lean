import Verif.Spec.Legendre
import Verif.Model.QPWeight
import Mathlib.Tactic.LinearCombination
import Mathlib.Tactic.FieldSimp

/-! Legendre polynomials: recurrences, differential equation, and the loops that evaluate them. -/
namespace MVMC
open MVMC.Spec Polynomial

/-- `(x² - 1)ⁿ` differentiated `k` times -/
noncomputable def rod (n k : Nat) : ℝ[X] := derivative^[k] ((X ^ 2 - 1) ^ n)

theorem rod_succ (n k : Nat) : derivative (rod n k) = rod n (k + 1) := by
  unfold rod; rw [Function.iterate_succ_apply']

theorem rod_base (n : Nat) : rod (n + 1) 1 = C (2 * (n + 1 : ℝ)) * (X * rod n 0) := by
  unfold rod
  simp only [Function.iterate_one, Function.iterate_zero, id]
  rw [derivative_pow_succ]
  simp only [derivative_sub, derivative_X_pow, derivative_one, sub_zero, map_add, map_mul, map_natCast, map_one, map_ofNat, Nat.cast_ofNat]
  ring

theorem rod_up (n k : Nat) : rod (n + 1) (k + 1) = C (2 * (n + 1 : ℝ)) * (X * rod n k + C (k : ℝ) * rod n (k - 1)) := by
  induction k with
  | zero => rw [rod_base]; simp
  | succ k ih =>
    rw [← rod_succ, ih, derivative_C_mul, derivative_add, derivative_mul, derivative_C_mul, rod_succ, rod_succ, derivative_X]
    rcases k with _ | k
    · simp only [Nat.cast_zero, map_zero, zero_mul, zero_add, add_zero, Nat.cast_one, map_one]; ring
    · simp only [Nat.add_sub_cancel, Nat.cast_add, Nat.cast_one, map_add, map_one]; ring

theorem rod_ode (n k : Nat) : (X ^ 2 - 1) * rod n (k + 1) = C (2 * ((n : ℝ) - k)) * (X * rod n k) +
    C ((k : ℝ) * (2 * n - k + 1)) * rod n (k - 1) := by
  induction k with
  | zero =>
    rcases n with _ | n
    · have : rod 0 1 = 0 := by unfold rod; simp
      rw [this]; simp
    · rw [rod_base]
      have : rod (n + 1) 0 = (X ^ 2 - 1) * rod n 0 := by unfold rod; simp [pow_succ, mul_comm]
      rw [this]; simp; ring
  | succ k ih =>
    have h := congrArg derivative ih
    rw [derivative_mul, derivative_add, derivative_C_mul, derivative_C_mul, derivative_mul, rod_succ, rod_succ, rod_succ, derivative_X] at h
    simp only [derivative_sub, derivative_X_pow, derivative_one, sub_zero, Nat.cast_ofNat] at h
    rcases k with _ | k
    · simp at h ⊢; linear_combination h
    · simp only [Nat.add_sub_cancel, Nat.cast_add, Nat.cast_one, map_add, map_mul, map_sub, map_one, map_natCast, map_ofNat] at h ⊢
      linear_combination h

/-- `P_n' ` in terms of the previous one -/
theorem leg_B (n : Nat) : derivative (legP (n + 1)) = X * derivative (legP n) + C ((n : ℝ) + 1) * legP n := by
  unfold legP
  change derivative (C _ * rod (n + 1) (n + 1)) = X * derivative (C _ * rod n n) + C _ * (C _ * rod n n)
  rw [derivative_C_mul, derivative_C_mul, rod_succ, rod_succ, rod_up n (n + 1), Nat.add_sub_cancel]
  have : (1 : ℝ) / (2 ^ (n + 1) * ((n + 1).factorial : ℝ)) * (2 * (n + 1)) = 1 / (2 ^ n * (n.factorial : ℝ)) := by
    rw [Nat.factorial_succ]; push_cast
    have h1 : (n : ℝ) + 1 ≠ 0 := by positivity
    have h2 : (n.factorial : ℝ) ≠ 0 := by positivity
    field_simp
    ring
  rw [← mul_assoc, ← C_mul, this]
  push_cast
  ring

theorem leg_C (n : Nat) : C ((n : ℝ) + 1) * legP (n + 1) = C ((n : ℝ) + 1) * (X * legP n) + (X ^ 2 - 1) * derivative (legP n) := by
  unfold legP
  change C _ * (C _ * rod (n + 1) (n + 1)) = C _ * (X * (C _ * rod n n)) + (X ^ 2 - 1) * derivative (C _ * rod n n)
  rw [derivative_C_mul, rod_succ, rod_up n n]
  have hode := rod_ode n n
  have e : (X ^ 2 - 1) * (C (1 / ((2 : ℝ) ^ n * n.factorial)) * rod n (n + 1)) =
      C (1 / ((2 : ℝ) ^ n * n.factorial)) * ((X ^ 2 - 1) * rod n (n + 1)) := by ring
  rw [e, hode]
  have : (1 : ℝ) / (2 ^ (n + 1) * ((n + 1).factorial : ℝ)) * (2 * (n + 1)) = 1 / (2 ^ n * (n.factorial : ℝ)) := by
    rw [Nat.factorial_succ]; push_cast
    have h1 : (n : ℝ) + 1 ≠ 0 := by positivity
    have h2 : (n.factorial : ℝ) ≠ 0 := by positivity
    field_simp
    ring
  rw [← mul_assoc (C (1 / ((2 : ℝ) ^ (n + 1) * ((n + 1).factorial : ℝ)))), ← C_mul, this]
  have e2 : C (2 * ((n : ℝ) - n)) = 0 := by rw [sub_self, mul_zero, map_zero]
  have e3 : (n : ℝ) * (2 * n - n + 1) = (n + 1) * n := by ring
  rw [e2, e3]
  simp only [C_mul]
  ring

/-- `(x² - 1) P_n' = n (x P_n - P_{n-1})` -/
theorem leg_A (n : Nat) : (X ^ 2 - 1) * derivative (legP (n + 1)) = C ((n : ℝ) + 1) * (X * legP (n + 1) - legP n) := by
  rw [leg_B]
  linear_combination -X * leg_C n

/-- Bonnet's recurrence -/
theorem leg_bonnet (n : Nat) : C ((n : ℝ) + 2) * legP (n + 2) = C (2 * (n : ℝ) + 3) * (X * legP (n + 1)) - C ((n : ℝ) + 1) * legP n := by
  have h1 := leg_C (n + 1)
  have h2 := leg_A n
  simp only [map_add, map_mul, map_natCast, map_one, map_ofNat, Nat.cast_add, Nat.cast_one] at h1 h2 ⊢
  linear_combination h1 + h2

theorem legP_zero : legP 0 = 1 := by unfold legP; simp

theorem legP_one : legP 1 = X := by
  have h := leg_C 0
  rw [legP_zero] at h
  simpa using h

/-- Legendre's differential equation -/
theorem leg_ode (n : Nat) : derivative ((X ^ 2 - 1) * derivative (legP n)) = C ((n : ℝ) * (n + 1)) * legP n := by
  rcases n with _ | n
  · rw [legP_zero]; simp
  · rw [leg_A, derivative_C_mul, derivative_sub, derivative_mul, derivative_X]
    have h := leg_B n
    have e : X * derivative (legP (n + 1)) - derivative (legP n) = C ((n : ℝ) + 1) * legP (n + 1) := by
      have h3 : (X ^ 2 - 1) * (X * derivative (legP (n + 1)) - derivative (legP n) - C ((n : ℝ) + 1) * legP (n + 1)) = 0 := by
        have h1 := leg_A n
        have h2 := leg_C n
        linear_combination X * h1 + h2
      have h4 : (X ^ 2 - 1 : ℝ[X]) ≠ 0 := by
        intro h0
        have := congrArg (eval 2) h0
        norm_num at this
      have := (mul_eq_zero.mp h3).resolve_left h4
      linear_combination this
    simp only [map_add, map_mul, map_natCast, map_one, Nat.cast_add, Nat.cast_one] at e ⊢
    linear_combination ((n : ℝ[X]) + 1) * e

/-- evaluation of the recurrence -/
theorem leg_rec (n : Nat) (x : ℝ) : (legP (n + 2)).eval x =
    ((2 * n + 3) * x * (legP (n + 1)).eval x - (n + 1) * (legP n).eval x) / (n + 2) := by
  have h := congrArg (eval x) (leg_bonnet n)
  simp only [eval_mul, eval_C, eval_sub, eval_X] at h
  have h2 : (n : ℝ) + 2 ≠ 0 := by positivity
  rw [eq_div_iff h2]
  linear_combination h

theorem legP_one_eval (n : Nat) : (legP n).eval 1 = 1 := by
  induction n using Nat.strong_induction_on with
  | _ n ih =>
    rcases n with _ | _ | n
    · rw [legP_zero]; simp
    · rw [legP_one]; simp
    · rw [leg_rec, ih (n + 1) (by omega), ih n (by omega)]
      have h2 : (n : ℝ) + 2 ≠ 0 := by positivity
      rw [div_eq_one_iff_eq h2]; ring

/-! ### the loops -/

theorem legendre_loop (x : ℝ) (k : Nat) : (List.range' 2 (k + 1)).foldl (fun (p : ℝ × ℝ × ℝ) (i : Nat) =>
    let P03 := 1 / (1 * i) * ((2 * i - 1) * x * p.2.1 - (1 * i - 1) * p.1)
    (p.2.1, P03, P03)) (1, x, 0) = ((legP (k + 1)).eval x, (legP (k + 2)).eval x, (legP (k + 2)).eval x) := by
  induction k with
  | zero =>
    have h := leg_rec 0 x
    rw [legP_zero, legP_one] at h
    simp only [Nat.reduceAdd, List.range'_one, List.foldl_cons, List.foldl_nil]
    rw [legP_one]
    simp only [Nat.reduceAdd, Nat.cast_zero, eval_X, eval_one] at h ⊢
    refine Prod.ext rfl (Prod.ext ?_ ?_) <;> · simp only; rw [h]; norm_num; ring
  | succ k ih =>
    rw [List.range'_concat, List.foldl_append, ih]
    simp only [List.foldl_cons, List.foldl_nil]
    have h := leg_rec (k + 1) x
    have h2 : (k : ℝ) + 3 ≠ 0 := by positivity
    refine Prod.ext rfl (Prod.ext ?_ ?_) <;>
    · simp only
      rw [show k + 1 + 2 = k + 1 + 2 from rfl, h]
      push_cast
      have e1 : (2 : ℝ) + 1 * (k + 1) = k + 3 := by ring
      have e2 : (k : ℝ) + 1 + 2 = k + 3 := by ring
      rw [e1, e2, one_mul]
      field_simp
      ring

theorem legendrePoly_eq (x : ℝ) (n : Nat) : legendrePoly x n = (legP n).eval x := by
  unfold legendrePoly
  rcases n with _ | _ | n
  · simp [legP_zero]
  · rw [if_neg (by simp), if_pos (by simp)]
    simp [legP_one]
  · rw [if_neg (by push_cast; omega), if_neg (by push_cast; omega)]
    have : ((n + 1 + 1 : Nat) : ℤ).toNat - 1 = n + 1 := by omega
    rw [this, legendre_loop]

theorem glPoly_eq (n : Nat) (z : ℝ) : glPoly (n + 1) z = ((legP (n + 1)).eval z, (legP n).eval z) := by
  unfold glPoly
  induction n with
  | zero => simp [legP_one, legP_zero]; norm_num
  | succ n ih =>
    rw [List.range'_concat, List.foldl_append, ih]
    simp only [List.foldl_cons, List.foldl_nil]
    refine Prod.ext ?_ rfl
    simp only
    rw [leg_rec]
    push_cast
    congr 1 <;> ring

theorem glPoly_fst (n : Nat) (z : ℝ) : (glPoly n z).1 = (legP n).eval z := by
  rcases n with _ | n
  · simp [glPoly, legP_zero]
  · rw [glPoly_eq]

theorem glPp_eq (n : Nat) {z : ℝ} (hz : z * z - 1 ≠ 0) : glPp n z = (derivative (legP n)).eval z := by
  unfold glPp
  rcases n with _ | n
  · rw [legP_zero]; simp
  · rw [glPoly_eq]
    have h := congrArg (eval z) (leg_A n)
    simp only [eval_mul, eval_sub, eval_pow, eval_X, eval_one, eval_C] at h
    rw [div_eq_iff hz]
    push_cast
    linear_combination -h

end MVMC
