import Verif.Proof.SRAcc
import Mathlib.Tactic.FieldSimp
import Mathlib.Tactic.Positivity
import Mathlib.Tactic.Linarith
import Mathlib.Tactic.NormNum

/-! # The overlap matrix is a covariance -/
namespace MVMC
open Finset

/-- all samples of all processes that were not skipped -/
def allKept (np : Nat) (smp : Nat → Nat → Option Samp) (lo hi : Nat → Nat) : List Samp :=
  (List.range np).flatMap fun p => kept (smp p) (List.range' (lo p) (hi p - lo p))

theorem sum_allKept {M : Type} [Field M] (np : Nat) (smp : Nat → Nat → Option Samp) (lo hi : Nat → Nat) (f : Samp → M) :
    ∑ p ∈ range np, ((kept (smp p) (List.range' (lo p) (hi p - lo p))).map f).sum = ((allKept np smp lo hi).map f).sum := by
  unfold allKept
  rw [sum_flatMap]

section
variable {np n : Nat} {smp : Nat → Nat → Option Samp} {lo hi : Nat → Nat} {st : Nat → Nat → ℂ}

theorem totalW_direct : totalW np (fun p => mainCal false false n (smp p) (lo p) (hi p) (st p)) = ((allKept np smp lo hi).map (·.w)).sum := by
  unfold totalW
  rw [sumLoop_eq, ← sum_allKept]
  exact sum_congr rfl (fun p _ => direct_W n false (smp p) (lo p) (hi p) (st p))

theorem avgOO_direct {i j : Nat} (hi' : i < n) (hj : j < n) :
    avgOO np (fun p => mainCal false false n (smp p) (lo p) (hi p) (st p)) (i * n + j) =
      ((allKept np smp lo hi).map (fun x => ooTerm x i j)).sum * ((1 / ((allKept np smp lo hi).map (·.w)).sum : ℝ) : ℂ) := by
  unfold avgOO
  rw [totalW_direct, sumLoop_eq, ← sum_allKept np smp lo hi (fun x => ooTerm x i j)]
  congr 1
  exact sum_congr rfl (fun p _ => direct_OO n false (smp p) (lo p) (hi p) (st p) hi' hj)

theorem avgHO_direct {j : Nat} (hj : j < n) :
    avgHO np (fun p => mainCal false false n (smp p) (lo p) (hi p) (st p)) j =
      ((allKept np smp lo hi).map (fun x => x.e * ((x.w : ℂ) * x.O j))).sum * ((1 / ((allKept np smp lo hi).map (·.w)).sum : ℝ) : ℂ) := by
  unfold avgHO
  rw [totalW_direct, sumLoop_eq, ← sum_allKept np smp lo hi (fun x => x.e * ((x.w : ℂ) * x.O j))]
  congr 1
  exact sum_congr rfl (fun p _ => direct_HO n false (smp p) (lo p) (hi p) (st p) hj)

end

theorem re_sum {β : Type} (l : List β) (f : β → ℂ) : (l.map f).sum.re = (l.map fun x => (f x).re).sum := by
  induction l with
  | nil => simp
  | cons a l ih => simp [ih]

/-- the sample average with the given weights -/
noncomputable def wavg (L : List Samp) (f : Samp → ℝ) : ℝ := (L.map fun x => x.w * f x).sum / (L.map (·.w)).sum

theorem wavg_add (L : List Samp) (f g : Samp → ℝ) : wavg L (fun x => f x + g x) = wavg L f + wavg L g := by
  unfold wavg
  rw [← add_div, ← List.sum_map_add]
  congr 3
  funext x
  ring

theorem wavg_mul (L : List Samp) (c : ℝ) (f : Samp → ℝ) : wavg L (fun x => c * f x) = c * wavg L f := by
  unfold wavg
  rw [← mul_div_assoc, ← List.sum_map_mul_left]
  congr 3
  funext x
  ring

theorem wavg_sum (L : List Samp) (m : Nat) (f : Nat → Samp → ℝ) : wavg L (fun x => ∑ i ∈ range m, f i x) = ∑ i ∈ range m, wavg L (f i) := by
  induction m with
  | zero => simp [wavg]
  | succ m ih =>
    simp only [sum_range_succ]
    rw [wavg_add, ih]

theorem wavg_nonneg (L : List Samp) (hw : ∀ x ∈ L, 0 ≤ x.w) (f : Samp → ℝ) (hf : ∀ x, 0 ≤ f x) : 0 ≤ wavg L f := by
  unfold wavg
  refine div_nonneg (List.sum_nonneg ?_) (List.sum_nonneg ?_)
  · intro y hy
    obtain ⟨x, hx, rfl⟩ := List.mem_map.mp hy
    exact mul_nonneg (hw x hx) (hf x)
  · intro y hy
    obtain ⟨x, hx, rfl⟩ := List.mem_map.mp hy
    exact hw x hx

theorem wavg_one (L : List Samp) (h : (L.map (·.w)).sum ≠ 0) : wavg L (fun _ => 1) = 1 := by
  unfold wavg
  simp only [mul_one]
  exact div_self h

/-- the variance is not negative -/
theorem wavg_sq (L : List Samp) (hw : ∀ x ∈ L, 0 ≤ x.w) (h : (L.map (·.w)).sum ≠ 0) (f : Samp → ℝ) : wavg L f * wavg L f ≤ wavg L (fun x => f x * f x) := by
  have h0 := wavg_nonneg L hw (fun x => (f x - wavg L f) * (f x - wavg L f)) (fun x => mul_self_nonneg _)
  have e : (fun x => (f x - wavg L f) * (f x - wavg L f)) = fun x => f x * f x + ((-2 * wavg L f) * f x + (wavg L f * wavg L f) * 1) := by
    funext x; ring
  rw [e, wavg_add, wavg_add, wavg_mul, wavg_mul, wavg_one L h] at h0
  linarith

/-- the entries in terms of sample averages -/
theorem smat0_avg (n : Nat) (L : List Samp) (OO : Nat → ℂ)
    (hOO : ∀ i j, i < n → j < n → OO (i * n + j) = (L.map (fun x => ooTerm x i j)).sum * ((1 / (L.map (·.w)).sum : ℝ) : ℂ))
    (idx : Nat → Nat) {si sj : Nat} (hi : idx si + 2 < n) (hj : idx sj + 2 < n) :
    smat0 n OO idx si sj = wavg L (fun x => (x.O (idx si + 2)).re * (x.O (idx sj + 2)).re + (x.O (idx si + 2)).im * (x.O (idx sj + 2)).im)
      - wavg L (fun x => (x.O (idx si + 2)).re) * wavg L (fun x => (x.O (idx sj + 2)).re) := by
  have row0 : ∀ k, k < n → (OO k).re = wavg L (fun x => (x.O k).re) := by
    intro k hk
    have := hOO 0 k (by omega) hk
    rw [Nat.zero_mul, Nat.zero_add] at this
    rw [this, Complex.re_mul_ofReal, re_sum]
    unfold wavg
    rw [mul_one_div]
    congr 3
    funext x
    simp [ooTerm]
  unfold smat0
  rw [row0 _ hi, row0 _ hj, hOO _ _ hi hj, Complex.re_mul_ofReal, re_sum]
  congr 1
  unfold wavg
  rw [mul_one_div]
  congr 3
  funext x
  simp only [ooTerm, if_neg (show ¬ idx si + 2 = 0 by omega), if_neg (show ¬ idx si + 2 = 1 by omega)]
  simp
  ring

/-- the quadratic form of the overlap matrix -/
theorem smat0_quad (n m : Nat) (L : List Samp) (OO : Nat → ℂ)
    (hOO : ∀ i j, i < n → j < n → OO (i * n + j) = (L.map (fun x => ooTerm x i j)).sum * ((1 / (L.map (·.w)).sum : ℝ) : ℂ))
    (idx : Nat → Nat) (hidx : ∀ s, s < m → idx s + 2 < n) (c : Nat → ℝ) :
    ∑ i ∈ range m, ∑ j ∈ range m, c i * smat0 n OO idx i j * c j =
      wavg L (fun x => (∑ i ∈ range m, c i * (x.O (idx i + 2)).re) * (∑ i ∈ range m, c i * (x.O (idx i + 2)).re)
        + (∑ i ∈ range m, c i * (x.O (idx i + 2)).im) * (∑ i ∈ range m, c i * (x.O (idx i + 2)).im))
      - wavg L (fun x => ∑ i ∈ range m, c i * (x.O (idx i + 2)).re) * wavg L (fun x => ∑ i ∈ range m, c i * (x.O (idx i + 2)).re) := by
  have e : ∀ i ∈ range m, ∀ j ∈ range m, c i * smat0 n OO idx i j * c j =
      wavg L (fun x => c i * (x.O (idx i + 2)).re * (c j * (x.O (idx j + 2)).re) + c i * (x.O (idx i + 2)).im * (c j * (x.O (idx j + 2)).im))
      - wavg L (fun x => c i * (x.O (idx i + 2)).re) * wavg L (fun x => c j * (x.O (idx j + 2)).re) := by
    intro i hi j hj
    rw [smat0_avg n L OO hOO idx (hidx i (mem_range.mp hi)) (hidx j (mem_range.mp hj)), wavg_mul, wavg_mul]
    have : (fun x : Samp => c i * (x.O (idx i + 2)).re * (c j * (x.O (idx j + 2)).re) + c i * (x.O (idx i + 2)).im * (c j * (x.O (idx j + 2)).im))
        = fun x => (c i * c j) * ((x.O (idx i + 2)).re * (x.O (idx j + 2)).re + (x.O (idx i + 2)).im * (x.O (idx j + 2)).im) := by funext x; ring
    rw [this, wavg_mul]
    ring
  rw [sum_congr rfl (fun i hi => sum_congr rfl (e i hi))]
  simp only [sum_sub_distrib]
  congr 1
  · simp only [← wavg_sum]
    congr 1
    funext x
    rw [sum_mul_sum, sum_mul_sum, ← sum_add_distrib]
    refine sum_congr rfl (fun i _ => ?_)
    rw [← sum_add_distrib]
  · rw [wavg_sum, sum_mul_sum]

/-- positive semi-definite -/
theorem smat0_psd (n m : Nat) (L : List Samp) (hw : ∀ x ∈ L, 0 ≤ x.w) (hW : (L.map (·.w)).sum ≠ 0) (OO : Nat → ℂ)
    (hOO : ∀ i j, i < n → j < n → OO (i * n + j) = (L.map (fun x => ooTerm x i j)).sum * ((1 / (L.map (·.w)).sum : ℝ) : ℂ))
    (idx : Nat → Nat) (hidx : ∀ s, s < m → idx s + 2 < n) (c : Nat → ℝ) : 0 ≤ ∑ i ∈ range m, ∑ j ∈ range m, c i * smat0 n OO idx i j * c j := by
  rw [smat0_quad n m L OO hOO idx hidx c, wavg_add]
  have h1 := wavg_sq L hw hW (fun x => ∑ i ∈ range m, c i * (x.O (idx i + 2)).re)
  have h2 := wavg_nonneg L hw (fun x => (∑ i ∈ range m, c i * (x.O (idx i + 2)).im) * (∑ i ∈ range m, c i * (x.O (idx i + 2)).im))
    (fun x => mul_self_nonneg _)
  linarith

/-- the modified diagonal -/
theorem smat_quad (n m : Nat) (OO : Nat → ℂ) (staDel : ℝ) (idx : Nat → Nat) (c : Nat → ℝ) :
    ∑ i ∈ range m, ∑ j ∈ range m, c i * smat n OO staDel idx i j * c j =
      (∑ i ∈ range m, ∑ j ∈ range m, c i * smat0 n OO idx i j * c j) + staDel * ∑ i ∈ range m, smat0 n OO idx i i * (c i * c i) := by
  have : ∀ i ∈ range m, ∑ j ∈ range m, c i * smat n OO staDel idx i j * c j =
      (∑ j ∈ range m, c i * smat0 n OO idx i j * c j) + staDel * (smat0 n OO idx i i * (c i * c i)) := by
    intro i hi
    have : ∀ j ∈ range m, c i * smat n OO staDel idx i j * c j =
        c i * smat0 n OO idx i j * c j + if i = j then staDel * (smat0 n OO idx i i * (c i * c i)) else 0 := by
      intro j _
      unfold smat
      by_cases h : i = j
      · subst h; simp only [if_true]; ring
      · simp [h]
    rw [sum_congr rfl this, sum_add_distrib, sum_ite_eq, if_pos hi]
  rw [sum_congr rfl this, sum_add_distrib, mul_sum]

end MVMC
