import Verif.Proof.SRStore
import Mathlib.Analysis.Calculus.Deriv.Mul
import Mathlib.Analysis.Calculus.Deriv.Add
import Mathlib.Analysis.Calculus.Deriv.Star
import Mathlib.Analysis.Calculus.Deriv.Inv
import Mathlib.Analysis.Complex.RealDeriv

/-! # The optimisation force is the energy gradient; real mode -/
namespace MVMC
open Finset

/-- `⟨ψ|H|ψ⟩` -/
noncomputable def expH (N : Nat) (H : Nat → Nat → ℂ) (ψ : Nat → ℂ) : ℂ := ∑ x ∈ range N, ∑ x' ∈ range N, star (ψ x') * H x' x * ψ x

/-- `⟨ψ|ψ⟩` -/
noncomputable def normSqOf (N : Nat) (ψ : Nat → ℂ) : ℝ := ∑ x ∈ range N, Complex.normSq (ψ x)

/-- the energy of the state `ψ` -/
noncomputable def energyRQ (N : Nat) (H : Nat → Nat → ℂ) (ψ : Nat → ℂ) : ℝ := (expH N H ψ).re / normSqOf N ψ

section
variable {N : Nat} {H : Nat → Nat → ℂ} {ψ : ℝ → Nat → ℂ} {O e : Nat → ℂ}

theorem normSq_re (z : ℂ) : (Complex.normSq z : ℂ) = star z * z := Complex.normSq_eq_conj_mul_self

theorem normSqOf_eq (φ : Nat → ℂ) : normSqOf N φ = (∑ x ∈ range N, star (φ x) * φ x).re := by
  unfold normSqOf
  rw [Complex.re_sum]
  refine sum_congr rfl (fun x _ => ?_)
  rw [← normSq_re, Complex.ofReal_re]

theorem hasDerivAt_re {f : ℝ → ℂ} {f' : ℂ} {t : ℝ} (h : HasDerivAt f f' t) : HasDerivAt (fun t => (f t).re) f'.re t := by
  exact (Complex.reCLM.hasFDerivAt.comp_hasDerivAt t h)

theorem expH_deriv (hψ : ∀ x, x < N → HasDerivAt (fun t => ψ t x) (O x * ψ 0 x) 0) :
    HasDerivAt (fun t => expH N H (ψ t))
      (∑ x ∈ range N, ∑ x' ∈ range N, (star (O x' * ψ 0 x') * H x' x * ψ 0 x + star (ψ 0 x') * H x' x * (O x * ψ 0 x))) 0 := by
  unfold expH
  refine HasDerivAt.fun_sum (fun x hx => HasDerivAt.fun_sum (fun x' hx' => ?_))
  have h1 := (hψ x' (mem_range.mp hx')).star
  have h2 := hψ x (mem_range.mp hx)
  exact (h1.mul_const (H x' x)).mul h2

theorem norm_deriv (hψ : ∀ x, x < N → HasDerivAt (fun t => ψ t x) (O x * ψ 0 x) 0) :
    HasDerivAt (fun t => normSqOf N (ψ t)) (2 * ∑ x ∈ range N, Complex.normSq (ψ 0 x) * (O x).re) 0 := by
  have h : HasDerivAt (fun t => ∑ x ∈ range N, star (ψ t x) * ψ t x)
      (∑ x ∈ range N, (star (O x * ψ 0 x) * ψ 0 x + star (ψ 0 x) * (O x * ψ 0 x))) 0 :=
    HasDerivAt.fun_sum (fun x hx => ((hψ x (mem_range.mp hx)).star).mul (hψ x (mem_range.mp hx)))
  have h2 := hasDerivAt_re h
  have e1 : (fun t => normSqOf N (ψ t)) = fun t => (∑ x ∈ range N, star (ψ t x) * ψ t x).re := by
    funext t; exact normSqOf_eq _
  rw [e1]
  refine h2.congr_deriv ?_
  rw [Complex.re_sum, mul_sum]
  refine sum_congr rfl (fun x _ => ?_)
  have : star (O x * ψ 0 x) * ψ 0 x + star (ψ 0 x) * (O x * ψ 0 x) = (Complex.normSq (ψ 0 x) : ℂ) * (star (O x) + O x) := by
    rw [normSq_re, star_mul']
    ring
  rw [this, Complex.re_ofReal_mul]
  simp
  ring

/-- derivative of the numerator in terms of the samples -/
theorem expH_deriv_re (hH : ∀ x x', x < N → x' < N → star (H x' x) = H x x')
    (he : ∀ x, x < N → e x * star (ψ 0 x) = ∑ x' ∈ range N, star (ψ 0 x') * H x' x) :
    (∑ x ∈ range N, ∑ x' ∈ range N, (star (O x' * ψ 0 x') * H x' x * ψ 0 x + star (ψ 0 x') * H x' x * (O x * ψ 0 x))).re =
      2 * ∑ x ∈ range N, (e x * ((Complex.normSq (ψ 0 x) : ℂ) * O x)).re := by
  have h2 : ∑ x ∈ range N, ∑ x' ∈ range N, star (ψ 0 x') * H x' x * (O x * ψ 0 x) = ∑ x ∈ range N, e x * ((Complex.normSq (ψ 0 x) : ℂ) * O x) := by
    refine sum_congr rfl (fun x hx => ?_)
    rw [← sum_mul, ← he x (mem_range.mp hx), normSq_re]
    ring
  have h1 : ∑ x ∈ range N, ∑ x' ∈ range N, star (O x' * ψ 0 x') * H x' x * ψ 0 x =
      star (∑ x ∈ range N, ∑ x' ∈ range N, star (ψ 0 x') * H x' x * (O x * ψ 0 x)) := by
    rw [star_sum, sum_comm]
    refine sum_congr rfl (fun x hx => ?_)
    rw [star_sum]
    refine sum_congr rfl (fun x' hx' => ?_)
    rw [star_mul', star_mul', star_mul', star_mul', star_star, hH x x' (mem_range.mp hx) (mem_range.mp hx')]
    ring
  simp only [sum_add_distrib]
  rw [h1, h2, Complex.add_re, ← Complex.re_sum]
  show ((starRingEnd ℂ) _).re + _ = _
  rw [Complex.conj_re]
  ring

theorem expH_val (he : ∀ x, x < N → e x * star (ψ 0 x) = ∑ x' ∈ range N, star (ψ 0 x') * H x' x) :
    expH N H (ψ 0) = ∑ x ∈ range N, e x * (Complex.normSq (ψ 0 x) : ℂ) := by
  unfold expH
  refine sum_congr rfl (fun x hx => ?_)
  rw [← sum_mul, ← he x (mem_range.mp hx), normSq_re]
  ring

theorem energyRQ_deriv (hψ : ∀ x, x < N → HasDerivAt (fun t => ψ t x) (O x * ψ 0 x) 0)
    (hH : ∀ x x', x < N → x' < N → star (H x' x) = H x x')
    (he : ∀ x, x < N → e x * star (ψ 0 x) = ∑ x' ∈ range N, star (ψ 0 x') * H x' x) (hn : normSqOf N (ψ 0) ≠ 0) :
    HasDerivAt (fun t => energyRQ N H (ψ t))
      (2 * ((∑ x ∈ range N, (e x * ((Complex.normSq (ψ 0 x) : ℂ) * O x)).re) / normSqOf N (ψ 0) -
        (∑ x ∈ range N, (e x * (Complex.normSq (ψ 0 x) : ℂ)).re) / normSqOf N (ψ 0) *
          ((∑ x ∈ range N, Complex.normSq (ψ 0 x) * (O x).re) / normSqOf N (ψ 0)))) 0 := by
  have h1 := hasDerivAt_re (expH_deriv (H := H) hψ)
  rw [expH_deriv_re (e := e) hH he] at h1
  have h2 := h1.div (norm_deriv hψ) hn
  refine h2.congr_deriv ?_
  rw [expH_val he, Complex.re_sum]
  field_simp

end

/-! ### real mode -/

theorem stepR_val {n : Nat} (a : Nat → ℝ) (x : Samp) {i j : Nat} (hi : i < n) (hj : j < n) :
    sampleStepR n a x (i + j * n) = a (i + j * n) + x.w * (x.O (2 * i)).re * (x.O (2 * j)).re := by
  unfold sampleStepR ooAddsR
  rw [runAdds_eq, List.map_append, List.sum_append, sum_flatMap]
  congr 1
  have h2 : (List.map (fun e : ℕ × ℝ => if e.1 = i + j * n then e.2 else 0)
      ((List.range n).map fun i => (n * n + i, x.w * x.e.re * (x.O (2 * i)).re))).sum = 0 := by
    rw [List.map_map, sum_map_range]
    refine sum_eq_zero (fun k _ => ?_)
    show (if n * n + k = i + j * n then _ else _) = _
    rw [if_neg]
    have : (j + 1) * n ≤ n * n := Nat.mul_le_mul_right _ hj
    rw [Nat.add_mul] at this
    omega
  rw [h2, add_zero, sum_eq_single j, List.map_map, sum_map_range, sum_eq_single i]
  · show (if i + j * n = i + j * n then _ else _) = _
    rw [if_pos rfl]
  · intro k hk hne
    show (if k + j * n = i + j * n then _ else _) = _
    rw [if_neg (by omega)]
  · intro h; exact absurd (mem_range.mpr hi) h
  · intro q hq hne
    rw [List.map_map, sum_map_range]
    refine sum_eq_zero (fun k hk => ?_)
    show (if k + q * n = i + j * n then _ else _) = _
    rw [if_neg]
    intro e
    have := (flat2_inj (mem_range.mp hk) hi (by rw [Nat.add_comm, e, Nat.add_comm] : q * n + k = j * n + i)).1
    exact hne this
  · intro h; exact absurd (mem_range.mpr hj) h

theorem stepR_HO {n : Nat} (a : Nat → ℝ) (x : Samp) {i : Nat} (hi : i < n) :
    sampleStepR n a x (n * n + i) = a (n * n + i) + x.w * x.e.re * (x.O (2 * i)).re := by
  unfold sampleStepR ooAddsR
  rw [runAdds_eq, List.map_append, List.sum_append, sum_flatMap]
  congr 1
  rw [sum_eq_zero, zero_add, List.map_map, sum_map_range, sum_eq_single i]
  · show (if n * n + i = n * n + i then _ else _) = _
    rw [if_pos rfl]
  · intro k hk hne
    show (if n * n + k = n * n + i then _ else _) = _
    rw [if_neg (by omega)]
  · intro h; exact absurd (mem_range.mpr hi) h
  · intro q hq
    rw [List.map_map, sum_map_range]
    refine sum_eq_zero (fun k hk => ?_)
    show (if k + q * n = n * n + i then _ else _) = _
    rw [if_neg]
    have : (q + 1) * n ≤ n * n := Nat.mul_le_mul_right _ (mem_range.mp hq)
    rw [Nat.add_mul] at this
    have := mem_range.mp hk
    omega

theorem foldR {n : Nat} (k : Nat) (f : Samp → ℝ) (h : ∀ a x, sampleStepR n a x k = a k + f x) : ∀ (l : List Samp) (a : Nat → ℝ),
    l.foldl (sampleStepR n) a k = a k + (l.map f).sum
  | [], a => by simp
  | x :: l, a => by
    rw [List.foldl_cons, foldR k f h l, h, List.map_cons, List.sum_cons]
    ring

theorem mainCalR_OO {n : Nat} (l : List Samp) {i j : Nat} (hi : i < n) (hj : j < n) :
    mainCalR n l (i + j * n) = (l.map fun x => x.w * (x.O (2 * i)).re * (x.O (2 * j)).re).sum := by
  unfold mainCalR
  rw [foldR _ (fun x => x.w * (x.O (2 * i)).re * (x.O (2 * j)).re) (fun a x => stepR_val a x hi hj), zero_add]

theorem mainCalR_HO {n : Nat} (l : List Samp) {i : Nat} (hi : i < n) : mainCalR n l (n * n + i) = (l.map fun x => x.w * x.e.re * (x.O (2 * i)).re).sum := by
  unfold mainCalR
  rw [foldR _ (fun x => x.w * x.e.re * (x.O (2 * i)).re) (fun a x => stepR_HO a x hi), zero_add]

/-- the expanded array, by row and column -/
theorem expandReal_at (m : Nat) (OOr : Nat → ℝ) {x y : Nat} (hx : x < 2 * m) :
    expandReal m OOr (y * (2 * m) + x) = if x % 2 = 0 ∧ y % 2 = 0 then (OOr (x / 2 + y / 2 * m) : ℂ) else 0 := by
  unfold expandReal
  have h1 : (y * (2 * m) + x) % (2 * m) = x := by
    rw [Nat.add_comm, Nat.mul_comm, Nat.add_mul_mod_self_left, Nat.mod_eq_of_lt hx]
  simp only [h1]
  have h2 : (y * (2 * m) + x - x) / (2 * m) = y := by
    rw [Nat.add_sub_cancel]
    exact Nat.mul_div_cancel _ (by omega)
  rw [h2]

end MVMC
