import Verif.Proof.Pfaffian
import Mathlib.Algebra.BigOperators.Ring.Finset
import Mathlib.Algebra.BigOperators.Group.Finset.Piecewise
import Mathlib.Algebra.BigOperators.Group.Finset.Sigma
import Mathlib.Data.Matrix.Mul
import Mathlib.LinearAlgebra.Matrix.NonsingularInverse
import Mathlib.Data.List.Range

/-! Replacing rows and columns of a Pfaffian. -/
namespace MVMC
open Spec

variable {α R : Type} [CommRing R]

theorem altSum_congr_left {c d : α → R} : ∀ {F : List α → R} {l : List α},
    (∀ x ∈ l, c x = d x) → altSum c F l = altSum d F l
  | _, [], _ => rfl
  | F, y :: l, h => by
    rw [altSum_cons', altSum_cons', h y (by simp),
      altSum_congr_left (F := fun m => F (y :: m)) (fun x hx => h x (by simp [hx]))]

theorem altSum_sum_left {ι : Type} (s : Finset ι) (w : ι → R) (c : ι → α → R) (F : List α → R) (l : List α) :
    altSum (fun x => ∑ k ∈ s, w k * c k x) F l = ∑ k ∈ s, w k * altSum (c k) F l := by
  classical
  induction s using Finset.induction_on with
  | empty =>
    simp only [Finset.sum_empty]
    have := altSum_smul_left (fun _ : α => (0 : R)) F (0 : R) l
    simpa using this
  | insert a s ha ih =>
    simp only [Finset.sum_insert ha]
    rw [altSum_add_left (fun x => w a * c a x), altSum_smul_left, ih]

theorem altSum_sum {ι : Type} (s : Finset ι) (w : ι → R) (c : α → R) (F : ι → List α → R) (l : List α) :
    altSum c (fun m => ∑ k ∈ s, w k * F k m) l = ∑ k ∈ s, w k * altSum c (F k) l := by
  classical
  induction s using Finset.induction_on with
  | empty =>
    simp only [Finset.sum_empty]
    have := altSum_smul c (fun _ : List α => (0 : R)) (0 : R) l
    simpa using this
  | insert a s ha ih =>
    simp only [Finset.sum_insert ha]
    rw [altSum_add c (fun m => w a * F a m), altSum_smul, ih]

/-- Reordering the positions changes the Pfaffian by a sign that does not depend on the entries. -/
theorem pf_perm_sign {ι : Type} {A : α → α → R} (hA : Skew A) {L L' : List ι} (h : L.Perm L') :
    ∃ σ : R, σ * σ = 1 ∧ ∀ (f : ι → α) (p : List α), pf A (p ++ L.map f) = σ * pf A (p ++ L'.map f) := by
  induction h with
  | nil => exact ⟨1, by ring, fun f p => by simp⟩
  | cons x _ ih =>
    obtain ⟨σ, h1, h2⟩ := ih
    refine ⟨σ, h1, fun f p => ?_⟩
    have := h2 f (p ++ [f x])
    simpa using this
  | swap x y l =>
    refine ⟨-1, by ring, fun f p => ?_⟩
    have := pf_swap hA p (f y) (f x) (l.map f)
    simp only [List.map_cons]
    rw [this]; ring
  | trans _ _ ih1 ih2 =>
    obtain ⟨σ, h1, h2⟩ := ih1
    obtain ⟨τ, h3, h4⟩ := ih2
    refine ⟨σ * τ, by linear_combination τ * τ * h1 + h3, fun f p => ?_⟩
    rw [h2, h4]; ring

theorem isInv_right {A : α → α → R} {n : Nat} {rs : Nat → α} {N : Nat → Nat → R} (h : IsInv A n rs N) :
    ∀ i, i < n → ∀ j, j < n → ∑ k ∈ Finset.range n, A (rs i) (rs k) * N k j = if i = j then 1 else 0 := by
  classical
  let MM : Matrix (Fin n) (Fin n) R := fun i j => A (rs i) (rs j)
  let NN : Matrix (Fin n) (Fin n) R := fun i j => N i j
  have e : NN * MM = 1 := by
    ext i j
    rw [Matrix.mul_apply, Matrix.one_apply]
    have := h i.1 i.2 j.1 j.2
    rw [Finset.sum_range] at this
    rw [show (∑ k, NN i k * MM k j) = ∑ k : Fin n, N i k * A (rs k) (rs j) from rfl, this]
    simp [Fin.ext_iff]
  have e2 : MM * NN = 1 := mul_eq_one_comm.mp e
  intro i hi j hj
  have := congrFun (congrFun e2 ⟨i, hi⟩) ⟨j, hj⟩
  rw [Matrix.mul_apply, Matrix.one_apply] at this
  rw [Finset.sum_range]
  rw [show (∑ k : Fin n, A (rs i) (rs k) * N k j) = ∑ k, MM ⟨i, hi⟩ k * NN k ⟨j, hj⟩ from rfl, this]
  simp [Fin.ext_iff]

/-- the inverse of an antisymmetric matrix is antisymmetric -/
theorem isInv_skew {A : α → α → R} (hA : Skew A) {n : Nat} {rs : Nat → α} {N : Nat → Nat → R} (h : IsInv A n rs N) :
    ∀ i, i < n → ∀ j, j < n → N i j = - N j i := by
  intro i hi j hj
  -- N i j = Σ_k N i k δ_kj, with δ_kj = Σ_m N j m A m k (left inverse)
  have h1 : ∑ k ∈ Finset.range n, N i k * (∑ m ∈ Finset.range n, N j m * A (rs m) (rs k)) = N i j := by
    rw [Finset.sum_eq_single j]
    · rw [h j hj j hj]; simp
    · intro k hk hkj
      rw [h j hj k (Finset.mem_range.mp hk), if_neg (Ne.symm hkj), mul_zero]
    · intro hc; exact absurd (Finset.mem_range.mpr hj) hc
  have h2 : ∑ m ∈ Finset.range n, N j m * (∑ k ∈ Finset.range n, N i k * A (rs k) (rs m)) = N j i := by
    rw [Finset.sum_eq_single i]
    · rw [h i hi i hi]; simp
    · intro k hk hkj
      rw [h i hi k (Finset.mem_range.mp hk), if_neg (Ne.symm hkj), mul_zero]
    · intro hc; exact absurd (Finset.mem_range.mpr hi) hc
  rw [← h1, ← h2]
  simp only [Finset.mul_sum]
  rw [Finset.sum_comm, ← Finset.sum_neg_distrib]
  apply Finset.sum_congr rfl
  intro m _
  rw [← Finset.sum_neg_distrib]
  apply Finset.sum_congr rfl
  intro k _
  rw [hA.neg (rs m) (rs k)]; ring

section row
variable {A : α → α → R} (hA : Skew A) {n : Nat} {rs : Nat → α} {N : Nat → Nat → R} (hN : IsInv A n rs N)
include hN

/-- coefficients of the vector `c` in the rows of the matrix -/
theorem coef_spec (c : Nat → R) : ∀ j, j < n →
    c j = ∑ k ∈ Finset.range n, (∑ i ∈ Finset.range n, c i * N i k) * A (rs k) (rs j) := by
  intro j hj
  simp only [Finset.sum_mul]
  rw [Finset.sum_comm]
  have : ∀ i ∈ Finset.range n, ∑ k ∈ Finset.range n, c i * N i k * A (rs k) (rs j)
      = c i * (if i = j then 1 else 0) := by
    intro i hi
    rw [← hN i (Finset.mem_range.mp hi) j hj, Finset.mul_sum]
    apply Finset.sum_congr rfl
    intro k _; ring
  rw [Finset.sum_congr rfl this]
  rw [Finset.sum_eq_single j]
  · simp
  · intro i _ hij; simp [hij]
  · intro hc; exact absurd (Finset.mem_range.mpr hj) hc

include hA

theorem altSum_row {a : Nat} (ha : a < n) {rest : List Nat} (hp : (List.range n).Perm (a :: rest)) (c : α → R)
    (u : Nat → R) (hu : ∀ i, i < n → i ≠ a → u i = c (rs i))
    {σ : R} (hσ : σ * σ = 1) (hs : ∀ (f : Nat → α) (p : List α), pf A (p ++ (List.range n).map f) = σ * pf A (p ++ (a :: rest).map f)) :
    altSum c (pf A) (rest.map rs) = (∑ i ∈ Finset.range n, u i * N i a) * (σ * pfOf A n rs) := by
  have hmem : ∀ x ∈ rest, x < n := fun x hx => List.mem_range.mp (hp.symm.subset (by simp [hx]))
  have hnd : (a :: rest).Nodup := hp.nodup_iff.mp List.nodup_range
  have hc : ∀ x ∈ rest.map rs, c x = ∑ k ∈ Finset.range n, (∑ i ∈ Finset.range n, u i * N i k) * A (rs k) x := by
    intro x hx
    obtain ⟨j, hj, rfl⟩ := List.mem_map.mp hx
    rw [← hu j (hmem j hj) (fun h => (List.nodup_cons.mp hnd).1 (h ▸ hj))]
    exact coef_spec hN u j (hmem j hj)
  rw [altSum_congr_left hc, altSum_sum_left]
  rw [Finset.sum_eq_single a]
  · congr 1
    rw [← pf_cons]
    have := hs rs []
    simp only [List.nil_append, List.map_cons] at this
    show _ = σ * pf A _
    rw [this, ← mul_assoc, hσ, one_mul]
  · intro k hk hka
    have hkr : k ∈ rest := by
      have : k ∈ a :: rest := hp.subset (List.mem_range.mpr (Finset.mem_range.mp hk))
      simpa [hka] using this
    rw [← pf_cons, pf_eq_zero_of_not_nodup hA, mul_zero]
    rw [List.nodup_cons]
    intro hcon
    exact hcon.1 (List.mem_map_of_mem hkr)
  · intro hcon; exact absurd (Finset.mem_range.mpr ha) hcon

/-- **One row**: the new Pfaffian after entry `a` is replaced by `y`; entry `a` of the vector `u` does not matter. -/
theorem pfOf_update {a : Nat} (ha : a < n) (y : α) (u : Nat → R) (hu : ∀ i, i < n → i ≠ a → u i = A y (rs i)) :
    pfOf A n (Function.update rs a y) = (- ∑ j ∈ Finset.range n, N a j * u j) * pfOf A n rs := by
  have hp := List.perm_cons_erase (List.mem_range.mpr ha)
  set rest := (List.range n).erase a with hrest
  obtain ⟨σ, hσ, hs⟩ := pf_perm_sign hA hp
  have hnd : (a :: rest).Nodup := hp.nodup_iff.mp List.nodup_range
  have har : a ∉ rest := (List.nodup_cons.mp hnd).1
  have hmap : rest.map (Function.update rs a y) = rest.map rs := by
    apply List.map_congr_left
    intro x hx
    have hxa : x ≠ a := fun h => har (h ▸ hx)
    exact Function.update_of_ne hxa _ _
  have h1 := hs (Function.update rs a y) []
  simp only [List.nil_append, List.map_cons, Function.update_self, hmap] at h1
  unfold pfOf
  rw [h1, pf_cons, altSum_row hA hN ha hp (A y) u hu hσ hs]
  have h2 : ∑ i ∈ Finset.range n, u i * N i a = - ∑ j ∈ Finset.range n, N a j * u j := by
    rw [← Finset.sum_neg_distrib]
    apply Finset.sum_congr rfl
    intro i hi
    rw [isInv_skew hA hN i (Finset.mem_range.mp hi) a ha]; ring
  rw [h2]
  unfold pfOf
  linear_combination (- ∑ j ∈ Finset.range n, N a j * u j) * pf A ((List.range n).map rs) * hσ

/-- **Two rows**: entries `a ≠ b` are replaced by `y` and `z`; entries `a`, `b` of the vectors do not matter. -/
theorem pfOf_update2 {a b : Nat} (ha : a < n) (hb : b < n) (hab : a ≠ b) (y z : α)
    (u t : Nat → R) (hu : ∀ i, i < n → i ≠ a → i ≠ b → u i = A y (rs i))
    (ht : ∀ i, i < n → i ≠ a → i ≠ b → t i = A z (rs i)) :
    pfOf A n (Function.update (Function.update rs a y) b z) =
      (N a b * (A z y + ∑ i ∈ Finset.range n, t i * ∑ j ∈ Finset.range n, N i j * u j)
        + (∑ j ∈ Finset.range n, N a j * u j) * (∑ j ∈ Finset.range n, N b j * t j)
        - (∑ j ∈ Finset.range n, N b j * u j) * (∑ j ∈ Finset.range n, N a j * t j)) * pfOf A n rs := by
  have hp1 := List.perm_cons_erase (List.mem_range.mpr ha)
  have hb1 : b ∈ (List.range n).erase a := (List.mem_erase_of_ne hab.symm).mpr (List.mem_range.mpr hb)
  have hp : (List.range n).Perm (a :: b :: ((List.range n).erase a).erase b) :=
    hp1.trans ((List.perm_cons_erase hb1).cons a)
  set rest := ((List.range n).erase a).erase b with hrest
  obtain ⟨σ, hσ, hs⟩ := pf_perm_sign hA hp
  have hnd : (a :: b :: rest).Nodup := hp.nodup_iff.mp List.nodup_range
  have har : a ∉ rest := fun h => (List.nodup_cons.mp hnd).1 (by simp [h])
  have hbr : b ∉ rest := (List.nodup_cons.mp (List.nodup_cons.mp hnd).2).1
  have hxa : ∀ x ∈ rest, x ≠ a := fun x hx h => har (h ▸ hx)
  have hxb : ∀ x ∈ rest, x ≠ b := fun x hx h => hbr (h ▸ hx)
  have hmem : ∀ x ∈ rest, x < n := fun x hx => List.mem_range.mp (hp.symm.subset (by simp [hx]))
  have hmap : rest.map (Function.update (Function.update rs a y) b z) = rest.map rs := by
    apply List.map_congr_left
    intro x hx
    rw [Function.update_of_ne (hxb x hx), Function.update_of_ne (hxa x hx)]
  have h1 := hs (Function.update (Function.update rs a y) b z) []
  simp only [List.nil_append, List.map_cons, hmap, Function.update_self, Function.update_of_ne hab] at h1
  have h0 := hs rs []
  simp only [List.nil_append, List.map_cons] at h0
  set P := pfOf A n rs with hP
  have h0' : pf A (rs a :: rs b :: rest.map rs) = σ * P := by
    rw [hP]; unfold pfOf; rw [h0, ← mul_assoc, hσ, one_mul]
  -- coefficients
  let w : Nat → R := fun k => ∑ i ∈ Finset.range n, u i * N i k
  let v : Nat → R := fun k => ∑ i ∈ Finset.range n, t i * N i k
  -- pf of the rest
  have hrestv : pf A (rest.map rs) = N b a * (σ * P) := by
    let c : α → R := fun x => ∑ k ∈ Finset.range n, N b k * A (rs k) x
    have hc : ∀ j, j < n → c (rs j) = if b = j then 1 else 0 := fun j hj => hN b hb j hj
    have e := altSum_row hA hN ha hp c (fun i => c (rs i)) (fun _ _ _ => rfl) hσ hs
    simp only [List.map_cons] at e
    rw [altSum_cons', hc b hb, if_pos rfl, one_mul] at e
    have e0 : altSum c (fun m => pf A (rs b :: m)) (rest.map rs) = 0 := by
      rw [altSum_congr_left (d := fun _ => (0 : R) * 0)]
      · rw [altSum_smul_left]; ring
      · intro x hx
        obtain ⟨j, hj, rfl⟩ := List.mem_map.mp hx
        rw [hc j (hmem j hj), if_neg (hxb j hj).symm]; ring
    rw [e0, sub_zero] at e
    rw [e]
    congr 1
    rw [Finset.sum_eq_single b]
    · rw [hc b hb, if_pos rfl, one_mul]
    · intro i hi hib
      rw [hc i (Finset.mem_range.mp hi), if_neg (Ne.symm hib), zero_mul]
    · intro hcon; exact absurd (Finset.mem_range.mpr hb) hcon
  -- the bilinear part
  have hpair : ∀ k, k < n → ∀ m, m < n → altSum (A (rs k)) (altSum (A (rs m)) (pf A)) (rest.map rs)
      = A (rs k) (rs m) * (N b a * (σ * P))
        - ((if k = a ∧ m = b then 1 else 0) - (if k = b ∧ m = a then 1 else 0)) * (σ * P) := by
    intro k hk m hm
    have e := pf_cons2 A (rs k) (rs m) (rest.map rs)
    rw [hrestv] at e
    have e2 : pf A (rs k :: rs m :: rest.map rs)
        = ((if k = a ∧ m = b then 1 else 0) - (if k = b ∧ m = a then 1 else 0)) * (σ * P) := by
      by_cases hkr : k ∈ rest
      · rw [if_neg (fun h : k = a ∧ m = b => hxa k hkr h.1), if_neg (fun h : k = b ∧ m = a => hxb k hkr h.1), pf_eq_zero_of_not_nodup hA]
        · ring
        · rw [List.nodup_cons]; intro h; exact h.1 (List.mem_cons_of_mem _ (List.mem_map_of_mem hkr))
      by_cases hmr : m ∈ rest
      · rw [if_neg (fun h : k = a ∧ m = b => hxb m hmr h.2), if_neg (fun h : k = b ∧ m = a => hxa m hmr h.2), pf_eq_zero_of_not_nodup hA]
        · ring
        · rw [List.nodup_cons, List.nodup_cons]; intro h; exact h.2.1 (List.mem_map_of_mem hmr)
      have hk' : k = a ∨ k = b := by
        have : k ∈ a :: b :: rest := hp.subset (List.mem_range.mpr hk)
        simp only [List.mem_cons] at this; tauto
      have hm' : m = a ∨ m = b := by
        have : m ∈ a :: b :: rest := hp.subset (List.mem_range.mpr hm)
        simp only [List.mem_cons] at this; tauto
      have hba := hab.symm
      have hd : ∀ x, pf A (rs x :: rs x :: rest.map rs) = 0 := fun x => by
        have := pf_dup_adj hA [] (rs x) (rest.map rs)
        simpa using this
      rcases hk' with hk' | hk' <;> rcases hm' with hm' | hm' <;> rw [hk', hm']
      · simp [hd, hab]
      · simp [h0', hab]
      · have := pf_swap hA [] (rs b) (rs a) (rest.map rs)
        simp only [List.nil_append] at this
        rw [this, h0']; simp [hba]
      · simp [hd, hba]
    rw [e2] at e
    linear_combination e
  have hbil : altSum (A y) (altSum (A z) (pf A)) (rest.map rs)
      = ∑ k ∈ Finset.range n, w k * ∑ m ∈ Finset.range n, v m *
          (A (rs k) (rs m) * (N b a * (σ * P))
        - ((if k = a ∧ m = b then 1 else 0) - (if k = b ∧ m = a then 1 else 0)) * (σ * P)) := by
    have hcy : ∀ x ∈ rest.map rs, A y x = ∑ k ∈ Finset.range n, w k * A (rs k) x := by
      intro x hx
      obtain ⟨j, hj, rfl⟩ := List.mem_map.mp hx
      rw [← hu j (hmem j hj) (hxa j hj) (hxb j hj)]
      exact coef_spec hN u j (hmem j hj)
    have hcz : ∀ x ∈ rest.map rs, A z x = ∑ k ∈ Finset.range n, v k * A (rs k) x := by
      intro x hx
      obtain ⟨j, hj, rfl⟩ := List.mem_map.mp hx
      rw [← ht j (hmem j hj) (hxa j hj) (hxb j hj)]
      exact coef_spec hN t j (hmem j hj)
    rw [altSum_congr_left hcy, altSum_sum_left]
    apply Finset.sum_congr rfl
    intro k hk
    congr 1
    rw [altSum_comm, altSum_congr_left hcz, altSum_sum_left, ← Finset.sum_neg_distrib]
    apply Finset.sum_congr rfl
    intro m hm
    rw [altSum_comm, hpair k (Finset.mem_range.mp hk) m (Finset.mem_range.mp hm)]
    ring
  -- evaluate the sums
  have hwM : ∀ m, m < n → ∑ k ∈ Finset.range n, w k * A (rs k) (rs m) = u m :=
    fun m hm => (coef_spec hN u m hm).symm
  have hsum : ∑ k ∈ Finset.range n, w k * ∑ m ∈ Finset.range n, v m *
          (A (rs k) (rs m) * (N b a * (σ * P))
        - ((if k = a ∧ m = b then 1 else 0) - (if k = b ∧ m = a then 1 else 0)) * (σ * P))
      = (∑ m ∈ Finset.range n, v m * u m) * (N b a * (σ * P)) - (w a * v b - w b * v a) * (σ * P) := by
    have t1 : ∀ k ∈ Finset.range n, w k * ∑ m ∈ Finset.range n, v m *
          (A (rs k) (rs m) * (N b a * (σ * P))
        - ((if k = a ∧ m = b then 1 else 0) - (if k = b ∧ m = a then 1 else 0)) * (σ * P))
      = (∑ m ∈ Finset.range n, v m * (w k * A (rs k) (rs m))) * (N b a * (σ * P))
        - ((if k = a then w a * v b else 0) - (if k = b then w b * v a else 0)) * (σ * P) := by
      intro k _
      have t2 : ∑ m ∈ Finset.range n, v m * ((if k = a ∧ m = b then (1 : R) else 0) - (if k = b ∧ m = a then 1 else 0))
          = (if k = a then v b else 0) - (if k = b then v a else 0) := by
        simp only [mul_sub, Finset.sum_sub_distrib]
        congr 1
        · by_cases hka : k = a
          · simp only [hka, true_and, if_true, mul_ite, mul_one, mul_zero]
            rw [Finset.sum_ite_eq' (Finset.range n) b]; simp [hb]
          · simp [hka]
        · by_cases hkb : k = b
          · simp only [hkb, true_and, if_true, mul_ite, mul_one, mul_zero]
            rw [Finset.sum_ite_eq' (Finset.range n) a]; simp [ha]
          · simp [hkb]
      have t3 : ∑ m ∈ Finset.range n, v m * (A (rs k) (rs m) * (N b a * (σ * P))
        - ((if k = a ∧ m = b then 1 else 0) - (if k = b ∧ m = a then 1 else 0)) * (σ * P))
        = (∑ m ∈ Finset.range n, v m * A (rs k) (rs m)) * (N b a * (σ * P))
          - (∑ m ∈ Finset.range n, v m * ((if k = a ∧ m = b then (1 : R) else 0) - (if k = b ∧ m = a then 1 else 0))) * (σ * P) := by
        rw [Finset.sum_mul, Finset.sum_mul, ← Finset.sum_sub_distrib]
        apply Finset.sum_congr rfl
        intro m _; ring
      rw [t3, t2]
      have t4 : ∑ m ∈ Finset.range n, v m * (w k * A (rs k) (rs m)) = w k * ∑ m ∈ Finset.range n, v m * A (rs k) (rs m) := by
        rw [Finset.mul_sum]; apply Finset.sum_congr rfl; intro m _; ring
      rw [t4]
      have t5 : (if k = a then w a * v b else 0) = w k * (if k = a then v b else 0) := by
        by_cases hka : k = a
        · simp [hka]
        · simp [hka]
      have t6 : (if k = b then w b * v a else 0) = w k * (if k = b then v a else 0) := by
        by_cases hkb : k = b
        · simp [hkb]
        · simp [hkb]
      rw [t5, t6]; ring
    rw [Finset.sum_congr rfl t1, Finset.sum_sub_distrib, ← Finset.sum_mul, ← Finset.sum_mul, Finset.sum_sub_distrib,
      Finset.sum_ite_eq', Finset.sum_ite_eq', if_pos (Finset.mem_range.mpr ha), if_pos (Finset.mem_range.mpr hb)]
    congr 2
    rw [Finset.sum_comm]
    apply Finset.sum_congr rfl
    intro m hm
    rw [← Finset.mul_sum, hwM m (Finset.mem_range.mp hm)]
  have hneg : ∀ (x : Nat → R) k, k < n → ∑ i ∈ Finset.range n, x i * N i k = - ∑ j ∈ Finset.range n, N k j * x j := by
    intro x k hk
    rw [← Finset.sum_neg_distrib]
    apply Finset.sum_congr rfl
    intro i hi
    rw [isInv_skew hA hN i (Finset.mem_range.mp hi) k hk]; ring
  have hvA : ∑ m ∈ Finset.range n, v m * u m
      = ∑ i ∈ Finset.range n, t i * ∑ j ∈ Finset.range n, N i j * u j := by
    simp only [v, Finset.sum_mul, Finset.mul_sum]
    rw [Finset.sum_comm]
    apply Finset.sum_congr rfl; intro i _
    apply Finset.sum_congr rfl; intro j _
    ring
  show pf A _ = _
  rw [h1, pf_cons2, hrestv, hbil, hsum, hvA]
  have e1 : w a = - ∑ j ∈ Finset.range n, N a j * u j := hneg u a ha
  have e2 : w b = - ∑ j ∈ Finset.range n, N b j * u j := hneg u b hb
  have e3 : v a = - ∑ j ∈ Finset.range n, N a j * t j := hneg t a ha
  have e4 : v b = - ∑ j ∈ Finset.range n, N b j * t j := hneg t b hb
  rw [e1, e2, e3, e4, isInv_skew hA hN b hb a ha, hA.neg y z]
  set s1 := ∑ j ∈ Finset.range n, N a j * u j
  set s2 := ∑ j ∈ Finset.range n, N b j * u j
  set s3 := ∑ j ∈ Finset.range n, N a j * t j
  set s4 := ∑ j ∈ Finset.range n, N b j * t j
  set s5 := ∑ i ∈ Finset.range n, t i * ∑ j ∈ Finset.range n, N i j * u j
  linear_combination (N a b * (A z y + s5) + s1 * s4 - s2 * s3) * P * hσ
end row

end MVMC
