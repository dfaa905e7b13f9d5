import Verif.Proof.PfaffianSchur
import Mathlib.Data.Matrix.Mul
import Mathlib.Tactic.NoncommRing

/-! Low-rank changes of a skew matrix: Pfaffian and inverse. -/
namespace MVMC
open Spec

variable {K : Type} [Field K]

/-- moving a block of entries past another one -/
theorem pf_block_swap {α : Type} {A : α → α → K} (hA : Skew A) (q : List α) : ∀ p : List α,
    pf A (q ++ p) = (-1) ^ (q.length * p.length) * pf A (p ++ q) := by
  intro p
  induction p generalizing q with
  | nil => simp
  | cons x p ih =>
    have h1 := pf_move hA q [] x p
    simp only [List.nil_append] at h1
    rw [h1]
    have h3 := ih (x :: q)
    rw [h3, pf_front hA p x q]
    simp only [List.length_cons, List.cons_append]
    rw [← mul_assoc, ← mul_assoc, ← pow_add, ← pow_add]
    congr 1
    rw [show q.length + (q.length + 1) * p.length + p.length = q.length * (p.length + 1) + 2 * p.length by ring, pow_add, pow_mul]
    simp

/-- the matrix `[[A, B], [-Bᵀ, C]]` -/
def bordered (A B C : Nat → Nat → K) : Nat ⊕ Nat → Nat ⊕ Nat → K
  | .inl i, .inl j => A i j
  | .inl i, .inr a => B i a
  | .inr a, .inl i => - B i a
  | .inr a, .inr b => C a b

theorem bordered_skew {A B C : Nat → Nat → K} (hA : Skew A) (hC : Skew C) : Skew (bordered A B C) where
  neg := by
    rintro (i | a) (j | b) <;> simp only [bordered, neg_neg]
    · exact hA.neg _ _
    · exact hC.neg _ _
  diag := by
    rintro (i | a)
    · exact hA.diag i
    · exact hC.diag a

/-- **Pfaffian of a low-rank change.** -/
theorem pf_lowrank {A B C : Nat → Nat → K} (hA : Skew A) (hC : Skew C) {n m : Nat} (hm : m % 2 = 0) {N D : Nat → Nat → K}
    (hN : IsInv A n id N) (hD : IsInv C m id D) :
    pfOf (fun i j => A i j + ∑ b ∈ Finset.range m, (∑ a ∈ Finset.range m, B i a * D a b) * B j b) n id * pfOf C m id =
      pfOf (fun a b => C a b + ∑ j ∈ Finset.range n, (∑ i ∈ Finset.range n, B i a * N i j) * B j b) m id * pfOf A n id := by
  have hG : Skew (bordered A B C) := bordered_skew hA hC
  have s1 := pf_schur hG (n := n) (rs := Sum.inl) (N := N) (fun i hi j hj => hN i hi j hj) _ ((List.range m).map Sum.inr) (Nat.le_refl _)
  have s2 := pf_schur hG (n := m) (rs := Sum.inr) (N := D) (fun i hi j hj => hD i hi j hj) _ ((List.range n).map Sum.inl) (Nat.le_refl _)
  have s3 := pf_block_swap hG ((List.range n).map Sum.inl) ((List.range m).map Sum.inr)
  have ev : ((-1 : K)) ^ (((List.range n).map (Sum.inl : Nat → Nat ⊕ Nat)).length * ((List.range m).map (Sum.inr : Nat → Nat ⊕ Nat)).length) = 1 := by
    simp only [List.length_map, List.length_range]
    obtain ⟨c, rfl⟩ : ∃ c, m = 2 * c := ⟨m / 2, by omega⟩
    rw [show n * (2 * c) = 2 * (n * c) by ring, pow_mul]; simp
  rw [ev, one_mul] at s3
  rw [s1, s2] at s3
  have eA : pfOf (bordered A B C) n Sum.inl = pfOf A n id := by
    unfold pfOf
    rw [pf_map _ _ _ _ (Nat.le_refl _), pf_map _ _ _ _ (Nat.le_refl _)]; rfl
  have eC : pfOf (bordered A B C) m Sum.inr = pfOf C m id := by
    unfold pfOf
    rw [pf_map _ _ _ _ (Nat.le_refl _), pf_map _ _ _ _ (Nat.le_refl _)]; rfl
  rw [eA, eC, pf_map _ _ _ _ (Nat.le_refl _), pf_map _ _ _ _ (Nat.le_refl _)] at s3
  have e1 : pfOf (fun i j => A i j + ∑ b ∈ Finset.range m, (∑ a ∈ Finset.range m, B i a * D a b) * B j b) n id =
      pf (fun i j => bordered A B C (.inl i) (.inl j) - ∑ b ∈ Finset.range m, (∑ a ∈ Finset.range m, bordered A B C (.inl i) (.inr a) * D a b) * bordered A B C (.inr b) (.inl j)) (List.range n) := by
    unfold pfOf
    rw [List.map_id]
    refine pf_congr (fun i _ j _ => ?_)
    simp only [bordered, mul_neg, Finset.sum_neg_distrib, sub_neg_eq_add]
  have e2 : pfOf (fun a b => C a b + ∑ j ∈ Finset.range n, (∑ i ∈ Finset.range n, B i a * N i j) * B j b) m id =
      pf (fun a b => bordered A B C (.inr a) (.inr b) - ∑ j ∈ Finset.range n, (∑ i ∈ Finset.range n, bordered A B C (.inr a) (.inl i) * N i j) * bordered A B C (.inl j) (.inr b)) (List.range m) := by
    unfold pfOf
    rw [List.map_id]
    refine pf_congr (fun i _ j _ => ?_)
    simp only [bordered, neg_mul, Finset.sum_neg_distrib, sub_neg_eq_add]
  rw [e1, e2]
  exact s3

/-- **Inverse of a low-rank change** (Woodbury). -/
theorem inv_lowrank {A B C : Nat → Nat → K} (hA : Skew A) {n m : Nat} {N D S' : Nat → Nat → K}
    (hN : IsInv A n id N) (hD : IsInv C m id D)
    (hS : IsInv (fun a b => C a b + ∑ j ∈ Finset.range n, (∑ i ∈ Finset.range n, B i a * N i j) * B j b) m id S') :
    IsInv (fun i j => A i j + ∑ b ∈ Finset.range m, (∑ a ∈ Finset.range m, B i a * D a b) * B j b) n id
      (fun i j => N i j + ∑ b ∈ Finset.range m, (∑ a ∈ Finset.range m, (∑ k ∈ Finset.range n, N i k * B k a) * S' a b) *
        (∑ k ∈ Finset.range n, N j k * B k b)) := by
  let Am : Matrix (Fin n) (Fin n) K := fun i j => A i j
  let Nm : Matrix (Fin n) (Fin n) K := fun i j => N i j
  let Bm : Matrix (Fin n) (Fin m) K := fun i j => B i j
  let Cm : Matrix (Fin m) (Fin m) K := fun i j => C i j
  let Dm : Matrix (Fin m) (Fin m) K := fun i j => D i j
  let Sm : Matrix (Fin m) (Fin m) K := fun i j => S' i j
  have hNA : Nm * Am = 1 := by
    ext i j
    rw [Matrix.mul_apply, Matrix.one_apply]
    have := hN i.1 i.2 j.1 j.2
    rw [Finset.sum_range] at this
    rw [show (∑ k, Nm i k * Am k j) = ∑ k : Fin n, N i k * A (id (k:Nat)) (id (j:Nat)) from rfl, this]
    simp [Fin.ext_iff]
  have hDC : Cm * Dm = 1 := by
    apply mul_eq_one_comm.mp
    ext i j
    rw [Matrix.mul_apply, Matrix.one_apply]
    have := hD i.1 i.2 j.1 j.2
    rw [Finset.sum_range] at this
    rw [show (∑ k, Dm i k * Cm k j) = ∑ k : Fin m, D i k * C (id (k:Nat)) (id (j:Nat)) from rfl, this]
    simp [Fin.ext_iff]
  have hNt : Nm.transpose = - Nm := by
    ext i j
    exact isInv_skew hA hN j.1 j.2 i.1 i.2
  have hSS : Sm * (Cm + Bm.transpose * Nm * Bm) = 1 := by
    ext i j
    rw [Matrix.mul_apply, Matrix.one_apply]
    have := hS i.1 i.2 j.1 j.2
    rw [Finset.sum_range] at this
    have e : (∑ k, Sm i k * (Cm + Bm.transpose * Nm * Bm) k j) = if i.1 = j.1 then 1 else 0 := by
      rw [← this]
      refine Finset.sum_congr rfl (fun k _ => ?_)
      rw [Matrix.add_apply, Matrix.mul_apply]
      simp only [Matrix.mul_apply, Matrix.transpose_apply]
      rw [Finset.sum_range]
      simp only [Finset.sum_range]
      rfl
    rw [e]; simp [Fin.ext_iff]
  have key : (Nm + Nm * Bm * Sm * (Nm * Bm).transpose) * (Am + Bm * Dm * Bm.transpose) = 1 := by
    rw [Matrix.transpose_mul, hNt]
    have h1 : Sm * (Bm.transpose * Nm * Bm) = 1 - Sm * Cm := by
      rw [← hSS, mul_add]; abel
    calc (Nm + Nm * Bm * Sm * (Bm.transpose * -Nm)) * (Am + Bm * Dm * Bm.transpose)
        = Nm * Am + Nm * Bm * Dm * Bm.transpose - Nm * Bm * Sm * Bm.transpose * (Nm * Am)
          - Nm * Bm * (Sm * (Bm.transpose * Nm * Bm)) * Dm * Bm.transpose := by
          simp only [Matrix.mul_neg, Matrix.mul_add, Matrix.add_mul, Matrix.neg_mul, Matrix.mul_assoc]
          abel
      _ = 1 := by
          rw [hNA, h1]
          simp only [Matrix.mul_sub, Matrix.sub_mul, Matrix.mul_one, Matrix.mul_assoc]
          rw [← Matrix.mul_assoc Cm Dm, hDC, Matrix.one_mul]
          abel
  intro i hi j hj
  have := congrFun (congrFun key ⟨i, hi⟩) ⟨j, hj⟩
  rw [Matrix.mul_apply, Matrix.one_apply] at this
  rw [Finset.sum_range]
  simp only [Fin.mk.injEq] at this
  rw [← this]
  refine Finset.sum_congr rfl (fun k _ => ?_)
  congr 1
  · rw [Matrix.add_apply, Matrix.mul_apply]
    simp only [Matrix.mul_apply, Matrix.transpose_apply]
    simp only [Finset.sum_range]
    rfl
  · rw [Matrix.add_apply, Matrix.mul_apply]
    simp only [Matrix.mul_apply, Matrix.transpose_apply]
    simp only [Finset.sum_range]
    rfl

/-- the matrix `[[W, -1], [1, 0]]` -/
def hopC (t : Nat) (W : Nat → Nat → K) (a b : Nat) : K :=
  if a < t then (if b < t then W a b else if b = t + a then -1 else 0) else if b < t then (if a = t + b then 1 else 0) else 0

/-- its inverse `[[0, 1], [-1, W]]` -/
def hopD (t : Nat) (W : Nat → Nat → K) (a b : Nat) : K :=
  if a < t then (if b < t then 0 else if b = t + a then 1 else 0) else if b < t then (if a = t + b then -1 else 0) else W (a - t) (b - t)

theorem hopC_skew (t : Nat) {W : Nat → Nat → K} (hW : Skew W) : Skew (hopC t W) where
  neg x y := by
    unfold hopC
    by_cases h1 : x < t <;> by_cases h2 : y < t <;> simp only [h1, h2, if_true, if_false, neg_zero]
    · exact hW.neg x y
    · split_ifs <;> simp
    · split_ifs <;> simp
  diag x := by
    unfold hopC
    by_cases h1 : x < t <;> simp only [h1, if_true, if_false]
    exact hW.diag x

theorem sum_two (t : Nat) (f : Nat → K) : ∑ k ∈ Finset.range (2 * t), f k = ∑ k ∈ Finset.range t, f k + ∑ k ∈ Finset.range t, f (t + k) := by
  rw [two_mul, Finset.sum_range_add]

theorem hopD_inv (t : Nat) (W : Nat → Nat → K) : IsInv (hopC t W) (2 * t) id (hopD t W) := by
  intro i hi j hj
  rw [sum_two]
  simp only [id]
  have c1 : ∀ k ∈ Finset.range t, hopD t W i k * hopC t W k j = if i = t + k then - hopC t W k j else 0 := by
    intro k hk
    have hk := Finset.mem_range.mp hk
    unfold hopD
    by_cases h1 : i < t
    · rw [if_pos h1, if_pos hk, if_neg (by omega), zero_mul]
    · rw [if_neg h1, if_pos hk]; split_ifs <;> ring
  have c2 : ∀ k ∈ Finset.range t, hopD t W i (t + k) * hopC t W (t + k) j = if j = k then hopD t W i (t + k) else 0 := by
    intro k hk
    have hk := Finset.mem_range.mp hk
    unfold hopC
    rw [if_neg (by omega)]
    by_cases h1 : j < t
    · rw [if_pos h1]
      by_cases h2 : j = k
      · rw [if_pos (by omega), if_pos h2, mul_one]
      · rw [if_neg (by omega), if_neg h2, mul_zero]
    · rw [if_neg h1, if_neg (by omega), mul_zero]
  rw [Finset.sum_congr rfl c1, Finset.sum_congr rfl c2]
  have s2 : ∑ k ∈ Finset.range t, (if j = k then hopD t W i (t + k) else 0) = if j < t then hopD t W i (t + j) else 0 := by
    rw [Finset.sum_ite_eq]; simp
  have s1 : ∑ k ∈ Finset.range t, (if i = t + k then - hopC t W k j else 0) = if i < t then 0 else - hopC t W (i - t) j := by
    by_cases h : i < t
    · rw [if_pos h]; exact Finset.sum_eq_zero (fun k _ => if_neg (by omega))
    · rw [if_neg h, Finset.sum_eq_single (i - t)]
      · rw [if_pos (by omega)]
      · intro k _ hk; exact if_neg (by omega)
      · intro hk; exact absurd (Finset.mem_range.mpr (by omega)) hk
  rw [s1, s2]
  unfold hopC hopD
  by_cases h1 : i < t <;> by_cases h2 : j < t
  · simp only [h1, h2, if_true]
    rw [if_neg (by omega : ¬ t + j < t), zero_add]
    by_cases h : i = j
    · rw [if_pos (by omega), if_pos h]
    · rw [if_neg (by omega), if_neg h]
  · simp only [h1, h2, if_true, if_false]
    rw [if_neg (by omega)]; ring
  · simp only [h1, h2, if_true, if_false]
    rw [if_pos (by omega : i - t < t), if_neg (by omega : ¬ t + j < t), if_neg (by omega)]
    rw [show t + j - t = j by omega]; ring
  · simp only [h1, h2, if_false]
    rw [if_pos (by omega : i - t < t)]
    by_cases h : i = j
    · rw [if_pos (by omega), if_pos h]; ring
    · rw [if_neg (by omega), if_neg h]; ring

theorem pf_hopC (T : Nat) {W : Nat → Nat → K} (hW : Skew W) : ∀ t, t ≤ T →
    pf (hopC T W) (List.range t ++ (List.range t).map (T + ·)) = (-1) ^ (t * (t + 1) / 2) := by
  intro t
  induction t with
  | zero => intro _; simp [pf_nil]
  | succ t ih =>
    intro ht
    have hS := hopC_skew T hW
    have e1 : List.range (t + 1) ++ (List.range (t + 1)).map (T + ·) =
        (List.range (t + 1) ++ (List.range t).map (T + ·)) ++ (T + t) :: [] := by
      rw [List.range_succ (n := t), List.map_append]; simp
    rw [e1, pf_front hS, List.append_nil, pf_cons, List.range_succ, List.append_assoc, List.singleton_append, altSum_single]
    · have : hopC T W (T + t) t = 1 := by
        unfold hopC
        rw [if_neg (by omega), if_pos (by omega), if_pos rfl]
      rw [this, ih (by omega)]
      simp only [List.length_append, List.length_range, List.length_cons, List.length_map]
      rw [one_mul, ← pow_add, ← pow_add]
      have : (t + 1) * (t + 1 + 1) / 2 = t * (t + 1) / 2 + (t + 1) := by
        rw [show (t + 1) * (t + 1 + 1) = t * (t + 1) + (t + 1) * 2 by ring, Nat.add_mul_div_right _ _ (by norm_num)]
      rw [this, show t + (t + 1) + (t + t * (t + 1) / 2) = t * (t + 1) / 2 + (t + 1) + 2 * t by ring, pow_add _ _ (2 * t), pow_mul]
      simp
    · intro y hy
      obtain ⟨a, ha, rfl⟩ := List.mem_map.mp hy
      unfold hopC
      rw [if_neg (by omega), if_neg (by omega)]
    · intro y hy
      have hy := List.mem_range.mp hy
      unfold hopC
      rw [if_neg (by omega), if_pos (by omega), if_neg (by omega)]

theorem pfOf_hopC (t : Nat) {W : Nat → Nat → K} (hW : Skew W) : pfOf (hopC t W) (2 * t) id = (-1) ^ (t * (t + 1) / 2) := by
  rw [← pf_hopC t hW t (Nat.le_refl _)]
  unfold pfOf
  rw [List.map_id, two_mul, List.range_add]

end MVMC
