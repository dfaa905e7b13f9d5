import Verif.Proof.PfaffianRow
import Mathlib.Tactic.FieldSimp
import Mathlib.Algebra.BigOperators.Field

/-! Replacing rows and columns of the inverse matrix; restriction of the kernel to valid indices. -/
namespace MVMC
open Spec

section congr
variable {α R : Type} [CommRing R]

theorem altSum_congr_mem {c d : α → R} : ∀ {F G : List α → R} {l : List α},
    (∀ x ∈ l, c x = d x) → (∀ m, m.length + 1 = l.length → (∀ x ∈ m, x ∈ l) → F m = G m) →
      altSum c F l = altSum d G l
  | _, _, [], _, _ => rfl
  | F, G, y :: l, h, hF => by
    rw [altSum_cons', altSum_cons', h y (by simp), hF l (by simp) (fun x hx => by simp [hx]),
      altSum_congr_mem (F := fun m => F (y :: m)) (G := fun m => G (y :: m)) (fun x hx => h x (by simp [hx]))]
    intro m hm hx
    apply hF
    · simp only [List.length_cons]; omega
    · intro x hxm
      rcases List.mem_cons.mp hxm with e | e
      · simp [e]
      · simp [hx x e]

theorem pf_congr_le {A B : α → α → R} : ∀ (n : Nat) (l : List α), l.length ≤ n →
    (∀ x ∈ l, ∀ y ∈ l, A x y = B x y) → pf A l = pf B l
  | _, [], _, _ => rfl
  | n + 1, x :: l, hl, h => by
    rw [pf_cons, pf_cons]
    apply altSum_congr_mem
    · intro y hy; exact h x (by simp) y (by simp [hy])
    · intro m hm hx
      simp only [List.length_cons] at hl
      apply pf_congr_le n m (by omega)
      intro y hy z hz
      exact h y (by simp [hx y hy]) z (by simp [hx z hz])

theorem pf_congr {A B : α → α → R} {l : List α} (h : ∀ x ∈ l, ∀ y ∈ l, A x y = B x y) : pf A l = pf B l :=
  pf_congr_le _ l (Nat.le_refl _) h

theorem pfOf_congr {A B : α → α → R} {n : Nat} {rs rs' : Nat → α} (hr : ∀ i, i < n → rs i = rs' i)
    (h : ∀ i, i < n → ∀ j, j < n → A (rs i) (rs j) = B (rs i) (rs j)) : pfOf A n rs = pfOf B n rs' := by
  unfold pfOf
  have e : (List.range n).map rs = (List.range n).map rs' := by
    apply List.map_congr_left
    intro i hi; exact hr i (List.mem_range.mp hi)
  rw [← e]
  apply pf_congr
  intro x hx y hy
  obtain ⟨i, hi, rfl⟩ := List.mem_map.mp hx
  obtain ⟨j, hj, rfl⟩ := List.mem_map.mp hy
  exact h i (List.mem_range.mp hi) j (List.mem_range.mp hj)

theorem isInv_congr {A B : α → α → R} {n : Nat} {rs rs' : Nat → α} {N N' : Nat → Nat → R}
    (hr : ∀ i, i < n → rs i = rs' i)
    (h : ∀ i, i < n → ∀ j, j < n → A (rs i) (rs j) = B (rs i) (rs j))
    (hN : ∀ i, i < n → ∀ j, j < n → N i j = N' i j) (hI : IsInv A n rs N) : IsInv B n rs' N' := by
  intro i hi j hj
  rw [← hI i hi j hj]
  apply Finset.sum_congr rfl
  intro k hk
  have hk := Finset.mem_range.mp hk
  rw [hN i hi k hk, h k hk j hj, hr k hk, hr j hj]

/-- the kernel restricted to valid indices -/
def cut (S : α → Prop) [DecidablePred S] (A : α → α → R) : α → α → R := fun x y => if S x ∧ S y then A x y else 0

structure SkewOn (S : α → Prop) (A : α → α → R) : Prop where
  neg : ∀ x y, S x → S y → A x y = - A y x
  diag : ∀ x, S x → A x x = 0

theorem SkewOn.cut {S : α → Prop} [DecidablePred S] {A : α → α → R} (h : SkewOn S A) : Skew (cut S A) where
  neg x y := by
    unfold MVMC.cut
    by_cases hx : S x <;> by_cases hy : S y <;> simp [hx, hy]
    exact h.neg x y hx hy
  diag x := by
    unfold MVMC.cut
    by_cases hx : S x <;> simp [hx]
    exact h.diag x hx

theorem cut_eq {S : α → Prop} [DecidablePred S] {A : α → α → R} {x y : α} (hx : S x) (hy : S y) :
    cut S A x y = A x y := by simp [cut, hx, hy]

end congr

section field
variable {α K : Type} [Field K] {A : α → α → K}

/-- sums of the form `Σ_j x_j (N x)_j` vanish -/
theorem quad_zero (n : Nat) (N : Nat → Nat → K) (hs : ∀ i, i < n → ∀ j, j < n → N i j = - N j i)
    (hd : ∀ i, i < n → N i i = 0) (x : Nat → K) :
    ∑ i ∈ Finset.range n, x i * ∑ j ∈ Finset.range n, N i j * x j = 0 := by
  induction n with
  | zero => simp
  | succ n ih =>
    have e : ∀ i ∈ Finset.range n, x i * ∑ j ∈ Finset.range (n + 1), N i j * x j
        = x i * ∑ j ∈ Finset.range n, N i j * x j + x i * (N i n * x n) := by
      intro i _; rw [Finset.sum_range_succ]; ring
    rw [Finset.sum_range_succ, Finset.sum_congr rfl e, Finset.sum_add_distrib,
      ih (fun i hi j hj => hs i (by omega) j (by omega)) (fun i hi => hd i (by omega)), Finset.sum_range_succ,
      hd n (by omega)]
    rw [mul_add, Finset.mul_sum]
    have e2 : ∀ i ∈ Finset.range n, x i * (N i n * x n) = - (x n * (N n i * x i)) := by
      intro i hi
      rw [hs i (by have := Finset.mem_range.mp hi; omega) n (by omega)]; ring
    rw [Finset.sum_congr rfl e2, Finset.sum_neg_distrib]; ring

/-- the inverse of a skew matrix has a zero diagonal -/
theorem isInv_diag (hA : Skew A) {n : Nat} {rs : Nat → α} {N : Nat → Nat → K} (hN : IsInv A n rs N) :
    ∀ i, i < n → N i i = 0 := by
  intro i hi
  -- N i i = Σ_k N i k δ_{k i}, δ_{k i} = Σ_m A k m N m i = - Σ_m A k m N i m
  have h1 : ∑ k ∈ Finset.range n, N i k * (∑ m ∈ Finset.range n, A (rs k) (rs m) * N m i) = N i i := by
    rw [Finset.sum_eq_single i]
    · rw [isInv_right hN i hi i hi]; simp
    · intro k hk hki
      rw [isInv_right hN k (Finset.mem_range.mp hk) i hi, if_neg hki, mul_zero]
    · intro hc; exact absurd (Finset.mem_range.mpr hi) hc
  have h2 := quad_zero n (fun k m => A (rs k) (rs m)) (fun a _ b _ => hA.neg _ _) (fun a _ => hA.diag _) (fun k => N i k)
  rw [← h1]
  have : ∑ k ∈ Finset.range n, N i k * (∑ m ∈ Finset.range n, A (rs k) (rs m) * N m i)
      = - ∑ k ∈ Finset.range n, N i k * ∑ m ∈ Finset.range n, A (rs k) (rs m) * N i m := by
    rw [← Finset.sum_neg_distrib]
    apply Finset.sum_congr rfl
    intro k _
    rw [← mul_neg, ← Finset.sum_neg_distrib]
    congr 1
    apply Finset.sum_congr rfl
    intro m hm
    rw [isInv_skew hA hN m (Finset.mem_range.mp hm) i hi]; ring
  rw [this, h2, neg_zero]

/-- `Σ_j (N u)_j M_jl = -u_l` -/
theorem vec_mul (hA : Skew A) {n : Nat} {rs : Nat → α} {N : Nat → Nat → K} (hN : IsInv A n rs N) (u : Nat → K)
    {l : Nat} (hl : l < n) :
    ∑ j ∈ Finset.range n, (∑ k ∈ Finset.range n, N j k * u k) * A (rs j) (rs l) = - u l := by
  have h := coef_spec hN u l hl
  rw [h, ← Finset.sum_neg_distrib]
  apply Finset.sum_congr rfl
  intro j hj
  rw [← neg_mul, ← Finset.sum_neg_distrib]
  congr 1
  apply Finset.sum_congr rfl
  intro k hk
  rw [isInv_skew hA hN j (Finset.mem_range.mp hj) k (Finset.mem_range.mp hk)]; ring

/-- difference of two matrices in one row -/
theorem sum_row_change (n : Nat) (x f g : Nat → K) {a : Nat} (ha : a < n) (h : ∀ j, j < n → j ≠ a → f j = g j) :
    ∑ j ∈ Finset.range n, x j * f j = (∑ j ∈ Finset.range n, x j * g j) + x a * (f a - g a) := by
  have : ∀ j ∈ Finset.range n, x j * f j = x j * g j + (if j = a then x a * (f a - g a) else 0) := by
    intro j hj
    by_cases e : j = a
    · simp only [e, if_true]; ring
    · rw [h j (Finset.mem_range.mp hj) e, if_neg e, add_zero]
  rw [Finset.sum_congr rfl this, Finset.sum_add_distrib, Finset.sum_ite_eq', if_pos (Finset.mem_range.mpr ha)]

theorem sum_row_change2 (n : Nat) (x f g : Nat → K) {a b : Nat} (ha : a < n) (hb : b < n) (hab : a ≠ b)
    (h : ∀ j, j < n → j ≠ a → j ≠ b → f j = g j) :
    ∑ j ∈ Finset.range n, x j * f j
      = (∑ j ∈ Finset.range n, x j * g j) + x a * (f a - g a) + x b * (f b - g b) := by
  have h1 := sum_row_change n x f (fun j => if j = a then f a else g j) (a := b) hb (by
    intro j hj hjb
    by_cases e : j = a
    · simp [e]
    · simp [e, h j hj e hjb])
  have h2 := sum_row_change n x (fun j => if j = a then f a else g j) g (a := a) ha (by
    intro j hj hja; simp [hja])
  rw [h1, h2]
  simp [hab.symm]

/-- **One-row update of the inverse.** `u` holds the new row, `p = N u`. -/
theorem isInv_update (hA : Skew A) {n : Nat} {rs : Nat → α} {N N' : Nat → Nat → K} (hN : IsInv A n rs N)
    {a : Nat} (ha : a < n) (y : α) (u P r : Nat → K) (hua : u a = 0)
    (hu : ∀ i, i < n → i ≠ a → u i = A y (rs i))
    (hP : ∀ i, i < n → P i = ∑ j ∈ Finset.range n, N i j * u j) (hp0 : P a ≠ 0)
    (hr : ∀ i, i < n → r i = N a i * (-1 / P a))
    (hN' : ∀ i, i < n → ∀ j, j < n → N' i j = N i j + (P i * r j - P j * r i) + (if j = a then - r i else 0)
      + (if i = a then r j else 0)) :
    IsInv A n (Function.update rs a y) N' := by
  have hsk := isInv_skew hA hN
  have hdg := isInv_diag hA hN
  intro i hi l hl
  -- value of Σ_j N'_ij f_j
  have key : ∀ f : Nat → K, ∑ j ∈ Finset.range n, N' i j * f j
      = (∑ j ∈ Finset.range n, N i j * f j) + P i * (∑ j ∈ Finset.range n, r j * f j)
        - r i * (∑ j ∈ Finset.range n, P j * f j) - r i * f a
        + (if i = a then ∑ j ∈ Finset.range n, r j * f j else 0) := by
    intro f
    have e : ∀ j ∈ Finset.range n, N' i j * f j = N i j * f j + P i * (r j * f j) - r i * (P j * f j)
        + (if j = a then - r i * f a else 0) + (if i = a then r j * f j else 0) := by
      intro j hj
      rw [hN' i hi j (Finset.mem_range.mp hj)]
      by_cases h1 : j = a <;> by_cases h2 : i = a <;> simp [h1, h2] <;> ring
    rw [Finset.sum_congr rfl e]
    simp only [Finset.sum_add_distrib, Finset.sum_sub_distrib, ← Finset.mul_sum, Finset.sum_ite_eq']
    rw [if_pos (Finset.mem_range.mpr ha)]
    by_cases h2 : i = a
    · simp [h2]; ring
    · simp [h2]; ring
  have hrf : ∀ f : Nat → K, ∑ j ∈ Finset.range n, r j * f j = (-1 / P a) * ∑ j ∈ Finset.range n, N a j * f j := by
    intro f
    rw [Finset.mul_sum]
    apply Finset.sum_congr rfl
    intro j hj
    rw [hr j (Finset.mem_range.mp hj)]; ring
  have hra : r i = N a i * (-1 / P a) := hr i hi
  rw [key]
  by_cases hla : l = a
  · -- column a
    subst hla
    have hcol : ∀ x : Nat → K, ∑ j ∈ Finset.range n, x j * A (Function.update rs l y j) (Function.update rs l y l)
        = - ∑ j ∈ Finset.range n, x j * u j := by
      intro x
      rw [← Finset.sum_neg_distrib]
      apply Finset.sum_congr rfl
      intro j hj
      rw [Function.update_self]
      by_cases hj' : j = l
      · subst hj'; rw [Function.update_self, hA.diag, hua]; ring
      · rw [Function.update_of_ne hj', hu j (Finset.mem_range.mp hj) hj', hA.neg (rs j) y]; ring
    have hPu : ∑ j ∈ Finset.range n, P j * u j = 0 := by
      have := quad_zero n N hsk hdg u
      rw [← this]
      apply Finset.sum_congr rfl
      intro j hj; rw [hP j (Finset.mem_range.mp hj)]; ring
    have hru : ∑ j ∈ Finset.range n, r j * u j = -1 := by
      rw [hrf, ← hP l ha]; field_simp
    have e1 := hcol (fun j => N i j)
    have e2 := hcol r
    have e3 := hcol P
    rw [e1, e2, e3, hPu, hru, ← hP i hi, Function.update_self, hA.diag]
    by_cases h2 : i = l <;> simp [h2]
  · have hcol : ∀ x : Nat → K, ∑ j ∈ Finset.range n, x j * A (Function.update rs a y j) (Function.update rs a y l)
        = (∑ j ∈ Finset.range n, x j * A (rs j) (rs l)) + x a * (u l - A (rs a) (rs l)) := by
      intro x
      rw [Function.update_of_ne hla]
      have := sum_row_change n x (fun j => A (Function.update rs a y j) (rs l)) (fun j => A (rs j) (rs l)) ha
        (by intro j _ hj; simp only [Function.update_of_ne hj])
      simp only [Function.update_self] at this
      rw [this, hu l hl hla]
    have hPM : ∑ j ∈ Finset.range n, P j * A (rs j) (rs l) = - u l := by
      rw [← vec_mul hA hN u hl]
      apply Finset.sum_congr rfl
      intro j hj; rw [hP j (Finset.mem_range.mp hj)]
    have hrM : ∑ j ∈ Finset.range n, r j * A (rs j) (rs l) = 0 := by
      rw [hrf, hN a ha l hl, if_neg (Ne.symm hla), mul_zero]
    have hraa : r a = 0 := by rw [hr a ha, hdg a ha, zero_mul]
    have e1 := hcol (fun j => N i j)
    have e2 := hcol r
    have e3 := hcol P
    rw [e1, e2, e3, hPM, hrM, hN i hi l hl, hraa, Function.update_self, Function.update_of_ne hla, ← hu l hl hla]
    have hrP : r i * P a = N i a := by rw [hra, hsk i hi a ha]; field_simp
    by_cases h2 : i = a
    · simp [h2]
      rw [hraa, hdg a ha]; ring
    · simp only [if_neg h2]
      linear_combination (A (rs a) (rs l) - u l) * hrP

/-- **Two-row update of the inverse.** `u`, `w` hold the new rows; the entry `u b` is not used. -/
theorem isInv_update2 (hA : Skew A) {n : Nat} {rs : Nat → α} {N N' : Nat → Nat → K} (hN : IsInv A n rs N)
    {a b : Nat} (ha : a < n) (hb : b < n) (hab : a ≠ b) (y z : α) (u w P Q s t : Nat → K) {B D : K}
    (hua : u a = 0) (hwb : w b = 0) (hwa : w a = A z y)
    (hu : ∀ i, i < n → i ≠ a → i ≠ b → u i = A y (rs i)) (hw : ∀ i, i < n → i ≠ a → i ≠ b → w i = A z (rs i))
    (hP : ∀ i, i < n → P i = ∑ j ∈ Finset.range n, N i j * u j)
    (hQ : ∀ i, i < n → Q i = ∑ j ∈ Finset.range n, N i j * w j)
    (hB : B = ∑ i ∈ Finset.range n, w i * P i)
    (hD : D = P a * Q b - P b * Q a + (B + w a) * N a b) (hD0 : D ≠ 0)
    (hs : ∀ i, i < n → s i = N a i / D) (ht : ∀ i, i < n → t i = N b i / D)
    (hN' : ∀ i, i < n → ∀ j, j < n → N' i j = N i j
      + (- P a * (Q i * t j - Q j * t i) + P b * (Q i * s j - Q j * s i) + Q a * (P i * t j - P j * t i)
        - Q b * (P i * s j - P j * s i) - (B + w a) * D * (s i * t j - s j * t i)
        + N a b / D * (P i * Q j - Q i * P j))
      + (if j = a then - Q a * t i + Q b * s i - N a b / D * Q i else 0)
      + (if j = b then P a * t i - P b * s i + N a b / D * P i else 0)
      + (if i = a then Q a * t j - Q b * s j + N a b / D * Q j else 0)
      + (if i = b then - P a * t j + P b * s j - N a b / D * P j else 0)
      + (if i = a ∧ j = b then N a b / D else 0) - (if i = b ∧ j = a then N a b / D else 0)) :
    IsInv A n (Function.update (Function.update rs a y) b z) N' := by
  have hsk := isInv_skew hA hN
  have hdg := isInv_diag hA hN
  have hba := hab.symm
  intro i hi l hl
  have key : ∀ f : Nat → K, ∑ j ∈ Finset.range n, N' i j * f j
      = (∑ j ∈ Finset.range n, N i j * f j)
        - P a * (Q i * (∑ j ∈ Finset.range n, t j * f j) - (∑ j ∈ Finset.range n, Q j * f j) * t i)
        + P b * (Q i * (∑ j ∈ Finset.range n, s j * f j) - (∑ j ∈ Finset.range n, Q j * f j) * s i)
        + Q a * (P i * (∑ j ∈ Finset.range n, t j * f j) - (∑ j ∈ Finset.range n, P j * f j) * t i)
        - Q b * (P i * (∑ j ∈ Finset.range n, s j * f j) - (∑ j ∈ Finset.range n, P j * f j) * s i)
        - (B + w a) * D * (s i * (∑ j ∈ Finset.range n, t j * f j) - (∑ j ∈ Finset.range n, s j * f j) * t i)
        + N a b / D * (P i * (∑ j ∈ Finset.range n, Q j * f j) - Q i * (∑ j ∈ Finset.range n, P j * f j))
        + (- Q a * t i + Q b * s i - N a b / D * Q i) * f a
        + (P a * t i - P b * s i + N a b / D * P i) * f b
        + (if i = a then Q a * (∑ j ∈ Finset.range n, t j * f j) - Q b * (∑ j ∈ Finset.range n, s j * f j)
            + N a b / D * (∑ j ∈ Finset.range n, Q j * f j) + N a b / D * f b else 0)
        + (if i = b then - P a * (∑ j ∈ Finset.range n, t j * f j) + P b * (∑ j ∈ Finset.range n, s j * f j)
            - N a b / D * (∑ j ∈ Finset.range n, P j * f j) - N a b / D * f a else 0) := by
    intro f
    have e : ∀ j ∈ Finset.range n, N' i j * f j = N i j * f j
        + (- P a * Q i + Q a * P i - (B + w a) * D * s i) * (t j * f j)
        + (P b * Q i - Q b * P i + (B + w a) * D * t i) * (s j * f j)
        + (P a * t i - P b * s i + N a b / D * P i) * (Q j * f j)
        + (- Q a * t i + Q b * s i - N a b / D * Q i) * (P j * f j)
        + (if j = a then (- Q a * t i + Q b * s i - N a b / D * Q i) * f a else 0)
        + (if j = b then (P a * t i - P b * s i + N a b / D * P i) * f b else 0)
        + (if i = a then Q a else 0) * (t j * f j) + (if i = a then - Q b else 0) * (s j * f j)
        + (if i = a then N a b / D else 0) * (Q j * f j)
        + (if i = b then - P a else 0) * (t j * f j) + (if i = b then P b else 0) * (s j * f j)
        + (if i = b then - (N a b / D) else 0) * (P j * f j)
        + (if j = b then (if i = a then N a b / D * f b else 0) else 0)
        + (if j = a then (if i = b then - (N a b / D) * f a else 0) else 0) := by
      intro j hj
      rw [hN' i hi j (Finset.mem_range.mp hj)]
      by_cases h1 : j = a
      · have h1' : j ≠ b := fun h => hab (h1 ▸ h)
        by_cases h2 : i = a
        · have h2' : i ≠ b := fun h => hab (h2 ▸ h)
          simp only [h1, h2, hab, hba, if_true, if_false, true_and, and_true, false_and, and_false]; ring
        · by_cases h3 : i = b
          · simp only [h1, h3, hab, hba, if_true, if_false, true_and, and_true, false_and, and_false]; ring
          · simp only [h1, h2, h3, hab, hba, if_true, if_false, true_and, and_true, false_and, and_false]; ring
      · by_cases h1b : j = b
        · by_cases h2 : i = a
          · simp only [h1b, h2, hab, hba, if_true, if_false, true_and, and_true, false_and, and_false]; ring
          · by_cases h3 : i = b
            · simp only [h1b, h3, hab, hba, if_true, if_false, true_and, and_true, false_and, and_false]; ring
            · simp only [h1b, h2, h3, hab, hba, if_true, if_false, true_and, and_true, false_and, and_false]; ring
        · by_cases h2 : i = a
          · simp only [h1, h1b, h2, hab, hba, if_true, if_false, true_and, and_true, false_and, and_false]; ring
          · by_cases h3 : i = b
            · simp only [h1, h1b, h3, hab, hba, if_true, if_false, true_and, and_true, false_and, and_false]; ring
            · simp only [h1, h1b, h2, h3, hab, hba, if_true, if_false, true_and, and_true, false_and, and_false]; ring
    rw [Finset.sum_congr rfl e]
    simp only [Finset.sum_add_distrib, ← Finset.mul_sum, Finset.sum_ite_eq']
    rw [if_pos (Finset.mem_range.mpr ha), if_pos (Finset.mem_range.mpr hb), if_pos (Finset.mem_range.mpr ha),
      if_pos (Finset.mem_range.mpr hb)]
    by_cases h2 : i = a
    · simp only [h2, hab, if_true, if_false]; ring
    · by_cases h3 : i = b
      · simp only [h3, hba, if_true, if_false]; ring
      · simp only [h2, h3, if_false]; ring
  have hsf : ∀ f : Nat → K, ∑ j ∈ Finset.range n, s j * f j = (∑ j ∈ Finset.range n, N a j * f j) / D := by
    intro f
    rw [Finset.sum_div]
    apply Finset.sum_congr rfl
    intro j hj
    rw [hs j (Finset.mem_range.mp hj)]; ring
  have htf : ∀ f : Nat → K, ∑ j ∈ Finset.range n, t j * f j = (∑ j ∈ Finset.range n, N b j * f j) / D := by
    intro f
    rw [Finset.sum_div]
    apply Finset.sum_congr rfl
    intro j hj
    rw [ht j (Finset.mem_range.mp hj)]; ring
  -- products of the vectors
  have hPu : ∑ j ∈ Finset.range n, P j * u j = 0 := by
    rw [← quad_zero n N hsk hdg u]
    apply Finset.sum_congr rfl
    intro j hj; rw [hP j (Finset.mem_range.mp hj)]; ring
  have hQw : ∑ j ∈ Finset.range n, Q j * w j = 0 := by
    rw [← quad_zero n N hsk hdg w]
    apply Finset.sum_congr rfl
    intro j hj; rw [hQ j (Finset.mem_range.mp hj)]; ring
  have hPw : ∑ j ∈ Finset.range n, P j * w j = B := by
    rw [hB]; apply Finset.sum_congr rfl; intro j _; ring
  have hQu : ∑ j ∈ Finset.range n, Q j * u j = - B := by
    rw [hB, ← Finset.sum_neg_distrib]
    have e1 : ∑ j ∈ Finset.range n, Q j * u j = ∑ j ∈ Finset.range n, ∑ k ∈ Finset.range n, N j k * w k * u j := by
      apply Finset.sum_congr rfl
      intro j hj; rw [hQ j (Finset.mem_range.mp hj), Finset.sum_mul]
    have e2 : ∑ j ∈ Finset.range n, - (w j * P j) = ∑ j ∈ Finset.range n, ∑ k ∈ Finset.range n, N k j * w j * u k := by
      apply Finset.sum_congr rfl
      intro j hj
      rw [hP j (Finset.mem_range.mp hj), Finset.mul_sum, ← Finset.sum_neg_distrib]
      apply Finset.sum_congr rfl
      intro k hk
      rw [hsk j (Finset.mem_range.mp hj) k (Finset.mem_range.mp hk)]; ring
    rw [e1, e2, Finset.sum_comm]
  have hNba : N b a = - N a b := hsk b hb a ha
  have hsi : s i = - N i a / D := by rw [hs i hi, hsk a ha i hi]
  have hti : t i = - N i b / D := by rw [ht i hi, hsk b hb i hi]
  rw [key]
  simp only [hsf, htf, hsi, hti]
  -- the three kinds of columns
  by_cases hla : l = a
  · have hcol : ∀ x : Nat → K, ∑ j ∈ Finset.range n, x j * A (Function.update (Function.update rs a y) b z j)
          (Function.update (Function.update rs a y) b z l)
        = - (∑ j ∈ Finset.range n, x j * u j) + x b * (u b + w a) := by
      intro x
      have := sum_row_change n x (fun j => A (Function.update (Function.update rs a y) b z j)
          (Function.update (Function.update rs a y) b z l)) (fun j => - u j) hb (by
        intro j hj hjb
        rw [hla, Function.update_of_ne hab, Function.update_self, Function.update_of_ne hjb]
        by_cases hja : j = a
        · rw [hja, Function.update_self, hA.diag, hua, neg_zero]
        · rw [Function.update_of_ne hja, hu j hj hja hjb, hA.neg])
      rw [this]
      simp only [Function.update_self]
      rw [hla, Function.update_of_ne hab, Function.update_self, ← hwa]
      simp only [mul_neg, Finset.sum_neg_distrib]; ring
    have hfa : A (Function.update (Function.update rs a y) b z a) (Function.update (Function.update rs a y) b z l) = 0 := by
      rw [hla, hA.diag]
    have hfb : A (Function.update (Function.update rs a y) b z b) (Function.update (Function.update rs a y) b z l) = w a := by
      rw [hla, Function.update_self, Function.update_of_ne hab, Function.update_self, hwa]
    rw [hfa, hfb, hcol (fun j => N i j), hcol (fun j => N a j), hcol (fun j => N b j), hcol P, hcol Q,
      ← hP i hi, ← hP a ha, ← hP b hb, hPu, hQu, hdg b hb]
    subst hla
    by_cases h2 : i = l
    · subst h2
      rw [hdg i hi]
      simp only [if_true, if_neg hab]
      field_simp
      rw [hD]; ring
    · by_cases h3 : i = b
      · subst h3
        rw [hdg i hi, hNba]
        simp only [if_true, if_neg hba]
        field_simp
        rw [hD]; ring
      · simp only [if_neg h2, if_neg h3]
        field_simp
        rw [hD]; ring
  · by_cases hlb : l = b
    · have hcol : ∀ x : Nat → K, ∑ j ∈ Finset.range n, x j * A (Function.update (Function.update rs a y) b z j)
            (Function.update (Function.update rs a y) b z l)
          = - (∑ j ∈ Finset.range n, x j * w j) := by
        intro x
        rw [← Finset.sum_neg_distrib]
        apply Finset.sum_congr rfl
        intro j hj
        rw [hlb, Function.update_self]
        by_cases hjb : j = b
        · rw [hjb, Function.update_self, hA.diag, hwb]; ring
        · rw [Function.update_of_ne hjb]
          by_cases hja : j = a
          · rw [hja, Function.update_self, hwa, hA.neg]; ring
          · rw [Function.update_of_ne hja, hw j (Finset.mem_range.mp hj) hja hjb, hA.neg]; ring
      have hfb : A (Function.update (Function.update rs a y) b z b) (Function.update (Function.update rs a y) b z l) = 0 := by
        rw [hlb, hA.diag]
      have hfa : A (Function.update (Function.update rs a y) b z a) (Function.update (Function.update rs a y) b z l) = - w a := by
        rw [hlb, Function.update_self, Function.update_of_ne hab, Function.update_self, hwa, hA.neg]
      rw [hfa, hfb, hcol (fun j => N i j), hcol (fun j => N a j), hcol (fun j => N b j), hcol P, hcol Q,
        ← hQ i hi, ← hQ a ha, ← hQ b hb, hPw, hQw]
      subst hlb
      by_cases h2 : i = a
      · subst h2
        rw [hdg i hi]
        simp only [if_true, if_neg hab]
        field_simp
        rw [hD]; ring
      · by_cases h3 : i = l
        · subst h3
          rw [hdg i hi, hNba]
          simp only [if_true, if_neg hba]
          field_simp
          rw [hD]; ring
        · simp only [if_neg h2, if_neg h3]
          field_simp
          rw [hD]; ring
    · have hcol : ∀ x : Nat → K, ∑ j ∈ Finset.range n, x j * A (Function.update (Function.update rs a y) b z j)
            (Function.update (Function.update rs a y) b z l)
          = (∑ j ∈ Finset.range n, x j * A (rs j) (rs l)) + x a * (u l - A (rs a) (rs l))
            + x b * (w l - A (rs b) (rs l)) := by
        intro x
        rw [Function.update_of_ne hlb, Function.update_of_ne hla]
        have := sum_row_change2 n x (fun j => A (Function.update (Function.update rs a y) b z j) (rs l))
          (fun j => A (rs j) (rs l)) ha hb hab
          (by intro j _ hj1 hj2; simp only [Function.update_of_ne hj2, Function.update_of_ne hj1])
        simp only [Function.update_self, Function.update_of_ne hab] at this
        rw [this, hu l hl hla hlb, hw l hl hla hlb]
      have hPM : ∑ j ∈ Finset.range n, P j * A (rs j) (rs l) = - u l := by
        rw [← vec_mul hA hN u hl]
        apply Finset.sum_congr rfl
        intro j hj; rw [hP j (Finset.mem_range.mp hj)]
      have hQM : ∑ j ∈ Finset.range n, Q j * A (rs j) (rs l) = - w l := by
        rw [← vec_mul hA hN w hl]
        apply Finset.sum_congr rfl
        intro j hj; rw [hQ j (Finset.mem_range.mp hj)]
      have hfa : A (Function.update (Function.update rs a y) b z a) (Function.update (Function.update rs a y) b z l) = u l := by
        rw [Function.update_of_ne hlb, Function.update_of_ne hla, Function.update_of_ne hab, Function.update_self,
          hu l hl hla hlb]
      have hfb : A (Function.update (Function.update rs a y) b z b) (Function.update (Function.update rs a y) b z l) = w l := by
        rw [Function.update_of_ne hlb, Function.update_of_ne hla, Function.update_self, hw l hl hla hlb]
      rw [hfa, hfb, hcol (fun j => N i j), hcol (fun j => N a j), hcol (fun j => N b j), hcol P, hcol Q,
        hPM, hQM, hN i hi l hl, hN a ha l hl, hN b hb l hl, hdg a ha, hdg b hb, if_neg (Ne.symm hla),
        if_neg (Ne.symm hlb), hNba]
      generalize A (rs a) (rs l) = mal
      generalize A (rs b) (rs l) = mbl
      by_cases h2 : i = a
      · subst h2
        rw [hdg i hi, if_neg (Ne.symm hla)]
        simp only [if_true, if_neg hab]
        field_simp
        rw [hD]; ring
      · by_cases h3 : i = b
        · subst h3
          rw [hdg i hi, hNba, if_neg (Ne.symm hlb)]
          simp only [if_true, if_neg hba]
          field_simp
          rw [hD]; ring
        · simp only [if_neg h2, if_neg h3]
          field_simp
          rw [hD]; ring

end field
end MVMC
