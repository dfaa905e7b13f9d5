import Verif.Proof.SpinRot
import Mathlib.MeasureTheory.Integral.IntervalIntegral.FundThmCalculus

/-! The integral over the rotation angle. -/
namespace MVMC
open MVMC.Spec Polynomial

theorem rotC_diff (N : Nat) (f : Nat → Nat → ℂ) (x y : Nat) : Differentiable ℂ (fun z => rotC N f z x y) := by
  have h : ∀ x y, Differentiable ℂ (fun z : ℂ => rotatedPair N (Complex.cos (z / 2)) (Complex.sin (z / 2)) f x y) := by
    intro x y
    unfold rotatedPair rotUp rotDn
    split_ifs <;> fun_prop
  unfold rotC antisym
  exact (h x y).sub (h y x)

theorem rot_diff (N : Nat) (f : Nat → Nat → ℂ) (l : List Nat) : Differentiable ℂ (fun z => pf (rotC N f z) l) := fun z =>
  (pfN_deriv (B := fun x y => deriv (fun z => rotC N f z x y) z) l.length l (fun x _ y _ => (rotC_diff N f x y z).hasDerivAt)).differentiableAt

theorem rot_cont (N : Nat) (f : Nat → Nat → ℂ) (l : List Nat) : Continuous (fun β : ℝ => pf (rotC N f β) l) :=
  (rot_diff N f l).continuous.comp Complex.continuous_ofReal

theorem apply_cont {F : ℝ → List Nat → ℂ} (h : ∀ m, Continuous fun β => F β m) : ∀ (A : List (ℂ × List Op)) (l : List Nat),
    Continuous fun β => applyAdj A (F β) l
  | [], _ => by unfold applyAdj; simpa using continuous_const
  | t :: A, l => by
    have ih := apply_cont h A l
    unfold applyAdj at ih ⊢
    simp only [List.map_cons, List.sum_cons]
    refine Continuous.add (continuous_const.mul ?_) ih
    rcases actAll t.2 (some (1, l)) with _ | ⟨σ, m⟩
    · exact continuous_const
    · exact continuous_const.mul (h m)

theorem apply_integral {F : ℝ → List Nat → ℂ} (h : ∀ m, Continuous fun β => F β m) (a b : ℝ) : ∀ (A : List (ℂ × List Op)) (l : List Nat),
    applyAdj A (fun m => ∫ β in a..b, F β m) l = ∫ β in a..b, applyAdj A (F β) l
  | [], _ => by unfold applyAdj; simp
  | t :: A, l => by
    have ih := apply_integral h a b A l
    have hc := apply_cont h A l
    unfold applyAdj at ih hc ⊢
    simp only [List.map_cons, List.sum_cons]
    rw [ih]
    have ho : Continuous fun β => overlap (F β) (actAll t.2 (some (1, l))) := by
      rcases actAll t.2 (some (1, l)) with _ | ⟨σ, m⟩
      · exact continuous_const
      · exact continuous_const.mul (h m)
    have ho' : Continuous fun β => (starRingEnd ℂ) t.1 * overlap (F β) (actAll t.2 (some (1, l))) := continuous_const.mul ho
    rw [intervalIntegral.integral_add (ho'.intervalIntegrable _ _) (hc.intervalIntegrable _ _),
      intervalIntegral.integral_const_mul]
    congr 2
    rcases actAll t.2 (some (1, l)) with _ | ⟨σ, m⟩
    · simp [overlap]
    · simp only [overlap]
      rw [intervalIntegral.integral_const_mul]

section
variable {N : Nat} (f : Nat → Nat → ℂ) {l : List Nat}

/-- the projection weight -/
noncomputable def spinW (S : Nat) (β : ℝ) : ℝ := 1 / 2 * Real.sin β * (legP S).eval (Real.cos β)

theorem spinW_cont (S : Nat) : Continuous (spinW S) := by
  unfold spinW
  exact (continuous_const.mul Real.continuous_sin).mul ((Polynomial.continuous _).comp Real.continuous_cos)

theorem spinW_real_deriv (S : Nat) (β : ℝ) : HasDerivAt (fun β => Real.sin β ^ 2 * (derivative (legP S)).eval (Real.cos β))
    (Real.sin β * (S * (S + 1)) * (legP S).eval (Real.cos β)) β := by
  have h := congrArg (eval (Real.cos β)) (leg_ode S)
  have hd : HasDerivAt (fun u : ℝ => ((X ^ 2 - 1) * derivative (legP S)).eval u) ((derivative ((X ^ 2 - 1) * derivative (legP S))).eval (Real.cos β))
    (Real.cos β) := Polynomial.hasDerivAt _ _
  have hc := hd.comp β (Real.hasDerivAt_cos β)
  rw [h] at hc
  refine (hc.neg.congr_deriv ?_).congr_of_eventuallyEq (Filter.Eventually.of_forall fun b => ?_)
  · simp only [eval_mul, eval_C]
    try simp
    try ring
  · simp only [Pi.neg_apply, Function.comp, eval_mul, eval_sub, eval_pow, eval_X, eval_one]
    linear_combination (derivative (legP S)).eval (Real.cos b) * Real.sin_sq_add_cos_sq b

theorem spin_integral (S : Nat) (hl : IsConfig N l) (hz : SzZero N l) :
    ∫ β in (0 : ℝ)..Real.pi, (spinW S β : ℂ) * applyAdj (spinSq N) (pf (rotC N f β)) l =
      S * (S + 1) * ∫ β in (0 : ℝ)..Real.pi, (spinW S β : ℂ) * pf (rotC N f β) l := by
  have hφ : ∀ x < 2 * N, flipS N x < 2 * N := fun x hx => flipS_lt hx
  set g1 : ℂ → ℂ := fun z => derL (tS N) (flipS N) (pf (rotC N f z)) l with hg1
  set g2 : ℂ → ℂ := fun z => derL (tS N) (flipS N) (derL (tS N) (flipS N) (pf (rotC N f z))) l with hg2
  have d0 : ∀ β : ℝ, HasDerivAt (fun β : ℝ => pf (rotC N f β) l) (g1 β) β := fun β => (rot_deriv f β hl.2).comp_ofReal
  have d1 : ∀ β : ℝ, HasDerivAt (fun β : ℝ => g1 β) (g2 β) β := fun β =>
    (derL_deriv (s := tS N) hφ (F := fun z => pf (rotC N f z)) hl.2 (fun m hm => rot_deriv f (β : ℂ) hm)).comp_ofReal
  have dP : ∀ β : ℝ, HasDerivAt (fun β : ℝ => ((legP S).eval (Real.cos β) * Real.sin β : ℝ))
      (-(Real.sin β ^ 2 * (derivative (legP S)).eval (Real.cos β)) + (legP S).eval (Real.cos β) * Real.cos β) β := fun β =>
    ((((legP S).hasDerivAt (Real.cos β)).comp β (Real.hasDerivAt_cos β)).mul (Real.hasDerivAt_sin β)).congr_deriv (by
      simp only [Function.comp]; ring)
  have dΦ : ∀ β : ℝ, HasDerivAt (fun β : ℝ => (((legP S).eval (Real.cos β) * Real.sin β : ℝ) : ℂ) * g1 β +
        ((Real.sin β ^ 2 * (derivative (legP S)).eval (Real.cos β) : ℝ) : ℂ) * pf (rotC N f β) l)
      (2 * (S * (S + 1) * ((spinW S β : ℂ) * pf (rotC N f β) l) - (spinW S β : ℂ) * applyAdj (spinSq N) (pf (rotC N f β)) l)) β := by
    intro β
    refine ((((dP β).ofReal_comp).mul (d1 β)).add (((spinW_real_deriv S β).ofReal_comp).mul (d0 β))).congr_deriv ?_
    have ode := rot_ode f (β : ℂ) hl hz
    unfold spinW
    push_cast
    simp only [hg1, hg2] at ode ⊢
    linear_combination ((eval (Real.cos β) (legP S) : ℝ) : ℂ) * ode
  have hc0 := rot_cont N f l
  have hcA := apply_cont (F := fun β : ℝ => pf (rotC N f β)) (rot_cont N f) (spinSq N) l
  have hw : Continuous fun β : ℝ => (spinW S β : ℂ) := Complex.continuous_ofReal.comp (spinW_cont S)
  have h1 : Continuous fun β : ℝ => (S : ℂ) * (S + 1) * ((spinW S β : ℂ) * pf (rotC N f β) l) := continuous_const.mul (hw.mul hc0)
  have h3 : Continuous fun β : ℝ => (spinW S β : ℂ) * applyAdj (spinSq N) (pf (rotC N f β)) l := hw.mul hcA
  have hint := intervalIntegral.integral_eq_sub_of_hasDerivAt (a := 0) (b := Real.pi) (fun β _ => dΦ β)
    ((continuous_const.mul (h1.sub h3)).intervalIntegrable _ _)
  simp only [Real.sin_pi, Real.sin_zero] at hint
  rw [intervalIntegral.integral_const_mul, intervalIntegral.integral_sub (h1.intervalIntegrable _ _) (h3.intervalIntegrable _ _),
    intervalIntegral.integral_const_mul] at hint
  simp only [mul_zero, Complex.ofReal_zero, zero_mul, ne_eq, OfNat.ofNat_ne_zero, not_false_eq_true, zero_pow, add_zero, sub_self] at hint
  have h2 : (2 : ℂ) ≠ 0 := two_ne_zero
  have := (mul_eq_zero.mp hint).resolve_left h2
  exact (sub_eq_zero.mp this).symm

/-- the projected state is an eigenstate of `S²` -/
theorem spinProjected_eigen (S : Nat) (hl : IsConfig N l) (hz : SzZero N l) :
    applyAdj (spinSq N) (spinProjected N S f) l = S * (S + 1) * spinProjected N S f l := by
  have e : spinProjected N S f = fun m => ∫ β in (0 : ℝ)..Real.pi, (spinW S β : ℂ) * pf (rotC N f β) m := by
    funext m
    unfold spinProjected
    congr 1; funext β
    rw [rotC_real]; rfl
  have hw : Continuous fun β : ℝ => (spinW S β : ℂ) := Complex.continuous_ofReal.comp (spinW_cont S)
  rw [e, apply_integral (F := fun β m => (spinW S β : ℂ) * pf (rotC N f β) m) (fun m => hw.mul (rot_cont N f m)), ← spin_integral f S hl hz]
  congr 1; funext β
  unfold applyAdj
  rw [← List.sum_map_mul_left]
  congr 1
  refine List.map_congr_left fun t _ => ?_
  rcases actAll t.2 (some (1, l)) with _ | ⟨σ, m⟩
  · simp [overlap]
  · simp only [overlap]; ring

end

end MVMC
