import Verif.Model.Lanczos
import Verif.Spec.Quantum
import Verif.Proof.SlaterDiff

/-! # Lemmas for the Lanczos step -/

namespace MVMC
open Complex Matrix Finset MVMC.Spec

/-! ## Accumulators -/

theorem foldl_runAdds {S : Type} (smps : List (S × List (Nat × ℂ))) (a : Nat → ℂ) (k : Nat) :
    smps.foldl (fun a x => runAdds x.2 a) a k =
      a k + (smps.map fun x => runAdds x.2 (fun _ => 0) k).sum := by
  induction smps generalizing a with
  | nil => simp
  | cons x xs ih =>
    rw [List.foldl_cons, ih, runAdds_eq, List.map_cons, List.sum_cons, runAdds_eq]
    ring

theorem foldl_w (smps : List (LSample × List (Nat × ℂ))) (a : ℝ) :
    smps.foldl (fun a x => a + x.1.w) a = a + (smps.map fun x => x.1.w).sum := by
  induction smps generalizing a with
  | nil => simp
  | cons x xs ih =>
    rw [List.foldl_cons, ih, List.map_cons, List.sum_cons]
    ring

/-- One event per index: the entry receives its own event only. -/
theorem runAdds_own {K : Type} [Field K] {evs : List (Nat × K)} (N : Nat) (f : Nat → K)
    (h : evs.Perm ((List.range N).map fun i => (i, f i))) (k : Nat) (hk : k < N) :
    runAdds evs (fun _ => 0) k = f k := by
  rw [runAdds_perm h, runAdds_eq, List.map_map, zero_add]
  have : ((List.range N).map ((fun e : Nat × K => if e.1 = k then e.2 else 0) ∘ fun i => (i, f i))).sum
      = ∑ i ∈ Finset.range N, if i = k then f i else 0 := sum_map_range N _
  rw [this, Finset.sum_ite_eq' (Finset.range N) k f, if_pos (Finset.mem_range.2 hk)]

theorem lsAverage_val (smps : List (LSample × List (Nat × ℂ))) (N : Nat)
    (f : LSample → Nat → ℂ)
    (h : ∀ x ∈ smps, x.2.Perm ((List.range N).map fun i => (i, f x.1 i))) (k : Nat) (hk : k < N) :
    lsAverage smps k = (smps.map fun x => f x.1 k).sum / ((smps.map fun x => x.1.w).sum : ℝ) := by
  unfold lsAverage
  rw [foldl_runAdds, foldl_w, zero_add, zero_add, mul_one_div]
  congr 1
  congr 1
  refine List.map_congr_left fun x hx => ?_
  exact runAdds_own N (f x.1) (h x hx) k hk

/-- Mixed radix decoding. -/
theorem radix2 {n a b : Nat} (hb : b < n) : (a * n + b) % n = b ∧ (a * n + b) / n = a := by
  constructor
  · rw [Nat.mul_comm, Nat.mul_add_mod, Nat.mod_eq_of_lt hb]
  · rw [Nat.mul_comm, Nat.mul_add_div (by omega), Nat.div_eq_of_lt hb, Nat.add_zero]

theorem radix_lt {n m a b : Nat} (ha : a < m) (hb : b < n) : a * n + b < m * n := by
  calc a * n + b < a * n + n := by omega
    _ = (a + 1) * n := by ring
    _ ≤ m * n := Nat.mul_le_mul_right _ ha

/-! ## Expectation values -/

section
variable {ι : Type} [Fintype ι] [DecidableEq ι]

theorem ev_add (ψ : ι → ℂ) (A B : Matrix ι ι ℂ) : ev ψ (A + B) = ev ψ A + ev ψ B := by
  unfold ev; rw [add_mulVec, dotProduct_add]

theorem ev_smul (ψ : ι → ℂ) (c : ℂ) (A : Matrix ι ι ℂ) : ev ψ (c • A) = c * ev ψ A := by
  unfold ev; rw [smul_mulVec, dotProduct_smul, smul_eq_mul]

theorem ev_mulVec (ψ : ι → ℂ) (M A : Matrix ι ι ℂ) :
    ev (M *ᵥ ψ) A = ev ψ (Mᴴ * A * M) := by
  unfold ev
  rw [star_mulVec, ← dotProduct_mulVec, mulVec_mulVec, mulVec_mulVec, Matrix.mul_assoc]

theorem ev_one (ψ : ι → ℂ) : ev ψ 1 = norm2 ψ := by
  unfold ev norm2
  rw [one_mulVec]
  simp only [dotProduct, Pi.star_apply, RCLike.star_def]
  push_cast
  refine Finset.sum_congr rfl fun x _ => ?_
  rw [mul_comm, Complex.mul_conj]

theorem ev_conj (ψ : ι → ℂ) (A : Matrix ι ι ℂ) : (starRingEnd ℂ) (ev ψ A) = ev ψ Aᴴ := by
  unfold ev
  change star (star ψ ⬝ᵥ (A *ᵥ ψ)) = _
  rw [star_dotProduct, star_mulVec, ← dotProduct_mulVec, star_star]

theorem ev_real (ψ : ι → ℂ) (A : Matrix ι ι ℂ) (h : A.IsHermitian) :
    ev ψ A = ((ev ψ A).re : ℂ) := by
  have := ev_conj ψ A
  rw [h.eq] at this
  exact (Complex.conj_eq_iff_re.1 this).symm

omit [DecidableEq ι] in
/-- Weighted sums of products of local values are expectation values. -/
theorem sum_local (ψ : ι → ℂ) (h : ∀ x, ψ x ≠ 0) (A B : Matrix ι ι ℂ) :
    ∑ x, (normSq (ψ x) : ℂ) * (starRingEnd ℂ) (localValue ψ B x) * localValue ψ A x =
      ev ψ (A * Bᴴ) := by
  have e : ∀ x, (normSq (ψ x) : ℂ) * (starRingEnd ℂ) (localValue ψ B x) * localValue ψ A x =
      (∑ y, (starRingEnd ℂ) (ψ y) * A y x) * (∑ z, (starRingEnd ℂ) (B z x) * ψ z) := by
    intro x
    unfold localValue
    have h1 : ψ x ≠ 0 := h x
    have h2 : (starRingEnd ℂ) (ψ x) ≠ 0 := by simpa using h1
    rw [map_div₀, map_sum, Complex.conj_conj, ← Complex.mul_conj]
    have e2 : ∑ y, (starRingEnd ℂ) ((starRingEnd ℂ) (ψ y) * B y x) =
        ∑ z, (starRingEnd ℂ) (B z x) * ψ z := by
      refine Finset.sum_congr rfl fun y _ => ?_
      rw [map_mul, Complex.conj_conj, mul_comm]
    rw [e2]
    field_simp
  rw [Finset.sum_congr rfl fun x _ => e x]
  unfold ev
  rw [← mulVec_mulVec, dotProduct_mulVec]
  simp only [dotProduct, vecMul, mulVec, conjTranspose_apply, Pi.star_apply, RCLike.star_def]

omit [DecidableEq ι] in
theorem norm2_pos (ψ : ι → ℂ) [Nonempty ι] (h : ∀ x, ψ x ≠ 0) : 0 < norm2 ψ := by
  unfold norm2
  exact Finset.sum_pos (fun x _ => normSq_pos.2 (h x)) Finset.univ_nonempty

theorem ev_lanczos (ψ : ι → ℂ) (H A : Matrix ι ι ℂ) (hH : H.IsHermitian) (α : ℂ) :
    ev (lanczosState ψ H α) A = ev ψ A + α * ev ψ (A * H) + (starRingEnd ℂ) α * ev ψ (H * A) +
      (starRingEnd ℂ) α * α * ev ψ (H * A * H) := by
  unfold lanczosState
  rw [ev_mulVec]
  have : (1 + α • H)ᴴ * A * (1 + α • H) = A + α • (A * H) + ((starRingEnd ℂ) α) • (H * A) +
      ((starRingEnd ℂ) α * α) • (H * A * H) := by
    rw [conjTranspose_add, conjTranspose_one, conjTranspose_smul, hH.eq]
    simp only [Matrix.add_mul, Matrix.mul_add, Matrix.one_mul, Matrix.mul_one, Matrix.smul_mul,
      Matrix.mul_smul, RCLike.star_def, smul_add]
    rw [smul_smul, mul_comm α]
    abel
  rw [this, ev_add, ev_add, ev_add, ev_smul, ev_smul, ev_smul]

end

/-! ## The quadratic problem -/

section
variable {u a b c : ℝ}

/-- Numerator and denominator of the energy of `1 + x H`. -/
def lzN (u a b c x : ℝ) : ℝ := u + x * (a + b) + x * x * c
def lzD (u a x : ℝ) : ℝ := 1 + 2 * x * u + x * x * a

theorem lzD_pos (h : u ^ 2 < a) (x : ℝ) : 0 < lzD u a x := by
  unfold lzD
  have h0 : 0 < a := lt_of_le_of_lt (sq_nonneg u) h
  have h1 : a * (1 + 2 * x * u + x * x * a) = (a * x + u) ^ 2 + (a - u ^ 2) := by ring
  have h2 : 0 < a * (1 + 2 * x * u + x * x * a) := by rw [h1]; nlinarith [sq_nonneg (a * x + u)]
  exact (mul_pos_iff_of_pos_left h0).1 h2

/-- lower bound of the norm -/
theorem lzD_ge (h : u ^ 2 < a) (x : ℝ) : (a - u ^ 2) / a ≤ lzD u a x := by
  unfold lzD
  have h0 : 0 < a := lt_of_le_of_lt (sq_nonneg u) h
  rw [div_le_iff₀ h0]
  nlinarith [sq_nonneg (a * x + u)]

def lzAA (u a b c : ℝ) : ℝ := a * (a + b) - 2 * u * c
def lzBB (u a c : ℝ) : ℝ := -u * a + c
def lzCC (u a b c : ℝ) : ℝ := a * (a + b) ^ 2 - u ^ 2 * a * (a + 2 * b) + 4 * u ^ 3 * c
    - 2 * u * (2 * a + b) * c + c * c

/-- The discriminant is a sum of squares. -/
theorem lzCC_sos (u a b c : ℝ) : 
    lzCC u a b c = ((c - 2 * u * ((a + b) / 2) + u ^ 3) - u * (a - u ^ 2)) ^ 2 +
      4 * (a - u ^ 2) * ((a + b) / 2 - u ^ 2) ^ 2 := by
  unfold lzCC; ring

theorem lzCC_nonneg (h : u ^ 2 ≤ a) : 0 ≤ lzCC u a b c := by
  rw [lzCC_sos]
  have : 0 ≤ a - u ^ 2 := by linarith
  positivity

theorem lzCC_pos (h : u ^ 2 < a) (hA : lzAA u a b c ≠ 0) : 0 < lzCC u a b c := by
  rcases lt_or_eq_of_le (lzCC_nonneg (b := b) (c := c) h.le) with h1 | h1
  · exact h1
  · exfalso
    apply hA
    have hd : 0 < a - u ^ 2 := by linarith
    rw [lzCC_sos] at h1
    have q0 : ((a + b) / 2 - u ^ 2) ^ 2 = 0 := by
      have e1 := sq_nonneg ((c - 2 * u * ((a + b) / 2) + u ^ 3) - u * (a - u ^ 2))
      have e2 : 0 ≤ 4 * (a - u ^ 2) * ((a + b) / 2 - u ^ 2) ^ 2 := by positivity
      have e3 : 4 * (a - u ^ 2) * ((a + b) / 2 - u ^ 2) ^ 2 = 0 := by linarith
      have : (4 * (a - u ^ 2)) ≠ 0 := by positivity
      exact (mul_eq_zero.1 e3).resolve_left this
    have q : (a + b) / 2 = u ^ 2 := by
      have := pow_eq_zero_iff (two_ne_zero) |>.1 q0
      linarith
    rw [q0, mul_zero, add_zero] at h1
    have r := (pow_eq_zero_iff (two_ne_zero)).1 h1.symm
    rw [q] at r
    have hb : b = 2 * u ^ 2 - a := by linarith
    have hc : c = 2 * u ^ 3 - u ^ 3 + u * (a - u ^ 2) := by linarith
    unfold lzAA
    rw [hb, hc]; ring

/-- At a root of the stationarity condition the energy deficit is a square. -/
theorem lz_square (x : ℝ) (h : u ^ 2 < a)
    (hx : (a + b - 2 * u ^ 2) + 2 * lzBB u a c * x - lzAA u a b c * x ^ 2 = 0) (t : ℝ) :
    lzN u a b c t - lzN u a b c x / lzD u a x * lzD u a t =
      (c - lzN u a b c x / lzD u a x * a) * (t - x) ^ 2 := by
  have hD := lzD_pos h x
  have hD' := ne_of_gt hD
  -- N' D = N D'
  have hs : ((a + b) + 2 * x * c) * lzD u a x = lzN u a b c x * (2 * u + 2 * x * a) := by
    unfold lzAA lzBB at hx
    unfold lzD lzN
    linear_combination hx
  set e := lzN u a b c x / lzD u a x with he
  have h1 : lzN u a b c x = e * lzD u a x := by rw [he, div_mul_cancel₀ _ hD']
  have h2 : (a + b) + 2 * x * c = e * (2 * u + 2 * x * a) := by
    rw [h1] at hs
    have : ((a + b) + 2 * x * c - e * (2 * u + 2 * x * a)) * lzD u a x = 0 := by
      linear_combination hs
    have := (mul_eq_zero.1 this).resolve_right hD'
    linarith
  have hN : lzN u a b c x = u + x * (a + b) + x * x * c := rfl
  have hDx : lzD u a x = 1 + 2 * x * u + x * x * a := rfl
  rw [hN, hDx] at h1
  unfold lzN lzD
  linear_combination h1 + (t - x) * h2

theorem lz_root (s : ℝ) (hs : s ^ 2 = lzCC u a b c) (hA : lzAA u a b c ≠ 0) :
    (a + b - 2 * u ^ 2) + 2 * lzBB u a c * ((lzBB u a c + s) / lzAA u a b c) -
      lzAA u a b c * ((lzBB u a c + s) / lzAA u a b c) ^ 2 = 0 := by
  have key : lzCC u a b c = lzBB u a c ^ 2 + lzAA u a b c * (a + b - 2 * u ^ 2) := by
    unfold lzCC lzBB lzAA; ring
  field_simp
  have : lzAA u a b c * (a + b - u ^ 2 * 2) = s ^ 2 - lzBB u a c ^ 2 := by
    rw [hs, key]; ring
  linear_combination this

/-- The lower of the two stationary energies bounds the energy everywhere. -/
theorem lz_lowest (h : u ^ 2 < a) (xp xm : ℝ) (hne : xp ≠ xm)
    (hp : (a + b - 2 * u ^ 2) + 2 * lzBB u a c * xp - lzAA u a b c * xp ^ 2 = 0)
    (hle : lzN u a b c xp / lzD u a xp ≤ lzN u a b c xm / lzD u a xm) :
    0 ≤ c - lzN u a b c xp / lzD u a xp * a ∧
    ∀ t, lzN u a b c xp / lzD u a xp * lzD u a t ≤ lzN u a b c t := by
  have k : 0 ≤ c - lzN u a b c xp / lzD u a xp * a := by
    have e := lz_square xp h hp xm
    have hD := lzD_pos h xm
    have : 0 ≤ lzN u a b c xm - lzN u a b c xp / lzD u a xp * lzD u a xm := by
      rw [le_div_iff₀ hD] at hle
      linarith
    rw [e] at this
    have sq : 0 < (xm - xp) ^ 2 := by
      have : xm - xp ≠ 0 := sub_ne_zero.2 (Ne.symm hne)
      positivity
    exact nonneg_of_mul_nonneg_left this sq
  refine ⟨k, fun t => ?_⟩
  have e := lz_square xp h hp t
  have : 0 ≤ (c - lzN u a b c xp / lzD u a xp * a) * (t - xp) ^ 2 := mul_nonneg k (sq_nonneg _)
  linarith

end

end MVMC
