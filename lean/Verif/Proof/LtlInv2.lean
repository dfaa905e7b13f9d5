import Verif.Proof.LtlInv
import Mathlib.LinearAlgebra.Matrix.Block
import Mathlib.GroupTheory.Perm.Sign
import Mathlib.LinearAlgebra.Matrix.NonsingularInverse
import Verif.Proof.PfaffianSchur
import Verif.Proof.PfSampler

/-! Lemmas for C59: exchanges, the Pfaffian, the inverse. -/
namespace MVMC
open Spec
variable {K : Type} [Field K]

/-! ### exchanges -/

theorem swapLoop_at {n x ix y iy : Nat} (a : Nat → K)
    (hx : ∀ i k, i < n → k < n → x + i * ix = x + k * ix → i = k) (hy : ∀ i k, i < n → k < n → y + i * iy = y + k * iy → i = k)
    (hxy : ∀ i k, i < n → k < n → x + i * ix ≠ y + k * iy) :
    ∀ m, m ≤ n → (∀ i, i < m → swapLoop m a x ix y iy (x + i * ix) = a (y + i * iy)) ∧
      (∀ i, i < m → swapLoop m a x ix y iy (y + i * iy) = a (x + i * ix)) ∧
      ∀ z, (∀ i, i < m → z ≠ x + i * ix ∧ z ≠ y + i * iy) → swapLoop m a x ix y iy z = a z := by
  intro m
  induction m with
  | zero => intro _; exact ⟨fun i hi => by omega, fun i hi => by omega, fun z _ => rfl⟩
  | succ m ih =>
    intro hm
    obtain ⟨h1, h2, h3⟩ := ih (by omega)
    have e : swapLoop (m + 1) a x ix y iy = setAt (setAt (swapLoop m a x ix y iy) (x + m * ix) (swapLoop m a x ix y iy (y + m * iy))) (y + m * iy)
        (swapLoop m a x ix y iy (x + m * ix)) := by
      unfold swapLoop
      rw [List.range_succ, List.foldl_append]
      rfl
    have f1 : swapLoop m a x ix y iy (x + m * ix) = a (x + m * ix) := h3 _ (fun i hi =>
      ⟨fun h => by have := hx _ _ (by omega) (by omega) h; omega, hxy _ _ (by omega) (by omega)⟩)
    have f2 : swapLoop m a x ix y iy (y + m * iy) = a (y + m * iy) := h3 _ (fun i hi =>
      ⟨fun h => hxy _ _ (by omega) (by omega) h.symm, fun h => by have := hy _ _ (by omega) (by omega) h; omega⟩)
    rw [e, f1, f2]
    unfold setAt
    refine ⟨fun i hi => ?_, fun i hi => ?_, fun z hz => ?_⟩
    · rw [if_neg (hxy _ _ (by omega) (by omega))]
      by_cases c : i = m
      · subst c; rw [if_pos rfl]
      · rw [if_neg (fun h => c (hx _ _ (by omega) (by omega) h))]
        exact h1 i (by omega)
    · by_cases c : i = m
      · subst c; rw [if_pos rfl]
      · rw [if_neg (fun h => c (hy _ _ (by omega) (by omega) h)), if_neg (fun h => hxy _ _ (by omega) (by omega) h.symm)]
        exact h2 i (by omega)
    · rw [if_neg (hz m (by omega)).2, if_neg (hz m (by omega)).1]
      exact h3 z (fun i hi => hz i (by omega))

theorem colSwap_at {n ld j p : Nat} (hld : n ≤ ld) (hjp : j ≠ p) (a : Nat → K) {r c : Nat} (hr : r < n) :
    cmAt (swapLoop n a (j * ld) 1 (p * ld) 1) ld r c = cmAt a ld r (swapIdx j p c) := by
  obtain ⟨h1, h2, h3⟩ := swapLoop_at (n := n) (x := j * ld) (ix := 1) (y := p * ld) (iy := 1) a (fun _ _ _ _ h => by omega) (fun _ _ _ _ h => by omega)
    (fun i k hi hk h => by
      have := (cm_inj (ld := ld) (i := i) (j := j) (i' := k) (j' := p) (by omega) (by omega) (by omega)).2
      exact hjp this) n (Nat.le_refl _)
  unfold cmAt swapIdx
  by_cases c1 : c = j
  · subst c1
    rw [if_pos rfl, Nat.add_comm r, Nat.add_comm r]
    simpa using h1 r hr
  · rw [if_neg c1]
    by_cases c2 : c = p
    · subst c2
      rw [if_pos rfl, Nat.add_comm r, Nat.add_comm r]
      simpa using h2 r hr
    · rw [if_neg c2]
      refine h3 _ (fun i hi => ⟨fun h => ?_, fun h => ?_⟩)
      · exact c1 (cm_inj (ld := ld) (i := r) (i' := i) (by omega) (by omega) (by omega)).2
      · exact c2 (cm_inj (ld := ld) (i := r) (i' := i) (by omega) (by omega) (by omega)).2

theorem rowSwap_at {n ld j p : Nat} (hjp : j ≠ p) (hj : j < ld) (hp : p < ld) (a : Nat → K) {r c : Nat} (hr : r < ld) (hc : c < n) :
    cmAt (swapLoop n a j ld p ld) ld r c = cmAt a ld (swapIdx j p r) c := by
  obtain ⟨h1, h2, h3⟩ := swapLoop_at (n := n) (x := j) (ix := ld) (y := p) (iy := ld) a (fun i k _ _ h => (cm_inj hj hj h).2) (fun i k _ _ h => (cm_inj hp hp h).2)
    (fun i k hi hk h => hjp (cm_inj hj hp h).1) n (Nat.le_refl _)
  unfold cmAt swapIdx
  by_cases c1 : r = j
  · subst c1
    rw [if_pos rfl]
    exact h1 c hc
  · rw [if_neg c1]
    by_cases c2 : r = p
    · subst c2
      rw [if_pos rfl]
      exact h2 c hc
    · rw [if_neg c2]
      refine h3 _ (fun i hi => ⟨fun h => c1 (cm_inj hr hj h).1, fun h => c2 (cm_inj hr hp h).1⟩)

theorem swapIdx_lt {n j p x : Nat} (hj : j < n) (hp : p < n) (hx : x < n) : swapIdx j p x < n := by
  unfold swapIdx
  split_ifs <;> assumption

theorem swapIdx_self (j x : Nat) : swapIdx j j x = x := by
  unfold swapIdx
  split_ifs with h1
  · exact h1.symm
  · rfl

theorem pivPerm_succ (m : Nat) (p : Nat → Nat) (x : Nat) : pivPerm (m + 1) p x = pivPerm m p (swapIdx m (p m) x) := by
  unfold pivPerm
  rw [List.range_succ, List.foldr_append]
  rfl

theorem pivPerm_lt {n : Nat} {p : Nat → Nat} (hp : ∀ t, t < n → p t < n) : ∀ m, m ≤ n → ∀ x, x < n → pivPerm m p x < n := by
  intro m
  induction m with
  | zero => intro _ x hx; exact hx
  | succ m ih =>
    intro hm x hx
    rw [pivPerm_succ]
    exact ih (by omega) _ (swapIdx_lt (by omega) (hp m (by omega)) hx)

/-- all column exchanges -/
theorem colSwaps_at {n ld : Nat} (hld : n ≤ ld) {piv : Nat → Int} (hp : ∀ i, i < n → 1 ≤ piv i ∧ piv i ≤ n) (a : Nat → K) {r : Nat} (hr : r < n) :
    ∀ m, m ≤ n → ∀ c, cmAt ((List.range m).foldl (fun A j =>
      if piv j - 1 ≠ (j : Int) then swapLoop n A (j * ld) 1 ((piv j - 1).toNat * ld) 1 else A) a) ld r c =
      cmAt a ld r (pivPerm m (fun t => (piv t - 1).toNat) c) := by
  intro m
  induction m with
  | zero => intro _ c; rfl
  | succ m ih =>
    intro hm c
    rw [List.range_succ, List.foldl_append, pivPerm_succ]
    simp only [List.foldl_cons, List.foldl_nil]
    have h1 := hp m (by omega)
    by_cases e : piv m - 1 ≠ (m : Int)
    · rw [if_pos e, colSwap_at hld (by omega) _ hr, ih (by omega)]
    · rw [if_neg e, ih (by omega), show (piv m - 1).toNat = m by omega, swapIdx_self]

/-- all row exchanges -/
theorem rowSwaps_at {n ld : Nat} (hld : n ≤ ld) {piv : Nat → Int} (hp : ∀ i, i < n → 1 ≤ piv i ∧ piv i ≤ n) (a : Nat → K) {c : Nat} (hc : c < n) :
    ∀ m, m ≤ n → ∀ r, r < n → cmAt ((List.range m).foldl (fun A j =>
      if piv j - 1 ≠ (j : Int) then swapLoop n A j ld (piv j - 1).toNat ld else A) a) ld r c =
      cmAt a ld (pivPerm m (fun t => (piv t - 1).toNat) r) c := by
  intro m
  induction m with
  | zero => intro _ r _; rfl
  | succ m ih =>
    intro hm r hr
    rw [List.range_succ, List.foldl_append, pivPerm_succ]
    simp only [List.foldl_cons, List.foldl_nil]
    have h1 := hp m (by omega)
    by_cases e : piv m - 1 ≠ (m : Int)
    · rw [if_pos e, rowSwap_at (by omega) (by omega) (by omega) _ (by omega) hc, ih (by omega) _ (swapIdx_lt (by omega) (by omega) hr)]
    · rw [if_neg e, ih (by omega) _ hr, show (piv m - 1).toNat = m by omega, swapIdx_self]

/-! ### the mirror loop -/

theorem cmSet_at {ld r i : Nat} (hi : i < ld) (hr : r < ld) (a : Nat → K) (c j : Nat) (v : K) :
    cmAt (cmSet a ld r c v) ld i j = if i = r ∧ j = c then v else cmAt a ld i j := by
  unfold cmAt cmSet setAt
  by_cases e : i = r ∧ j = c
  · rw [if_pos e, e.1, e.2]
    simp
  · rw [if_neg e]
    rw [if_neg (fun h => e (cm_inj hi hr h))]

theorem mirror_at {n ld : Nat} (hld : n ≤ ld) (a : Nat → K) : ∀ m, m ≤ n → ∀ i j, i < n → j < n →
    cmAt ((List.range m).foldl (fun A j =>
      let A := cmSet A ld j j 0
      (List.range (n - (j + 1))).foldl (fun A k => cmSet A ld (j + 1 + k) j (- cmAt A ld j (j + 1 + k))) A) a) ld i j =
    if j < m ∧ j ≤ i then (if i = j then 0 else - cmAt a ld j i) else cmAt a ld i j := by
  intro m
  induction m with
  | zero => intro _ i j _ _; rw [if_neg (by omega)]; rfl
  | succ m ih =>
    intro hm i j hi hj
    rw [List.range_succ, List.foldl_append]
    simp only [List.foldl_cons, List.foldl_nil]
    have ih := ih (by omega)
    generalize (List.range m).foldl _ a = D at ih ⊢
    have w := writeLoop (fun k => (m + 1 + k) + m * ld) (fun A k => - cmAt A ld m (m + 1 + k)) (cmSet D ld m m 0) (List.range (n - (m + 1))) (by
      intro x hx y hy e
      rw [show x = y by omega]) (by
      intro A hA x hx
      unfold cmAt
      rw [hA]
      intro y hy e
      have := cm_inj (ld := ld) (by omega) (by have := List.mem_range.mp hy; omega) e
      omega)
    by_cases c : j = m
    · subst c
      by_cases c1 : j < i
      · have := w.1 (i - (j + 1)) (List.mem_range.mpr (by omega))
        simp only [show j + 1 + (i - (j + 1)) = i by omega] at this
        rw [if_pos (by omega), if_neg (by omega)]
        refine this.trans ?_
        rw [cmSet_at (by omega) (by omega), if_neg (by omega), ih j i hj hi, if_neg (by omega)]
      · have e : cmAt ((List.range (n - (j + 1))).foldl (fun A k => cmSet A ld (j + 1 + k) j (- cmAt A ld j (j + 1 + k))) (cmSet D ld j j 0)) ld i j =
            cmAt (cmSet D ld j j 0) ld i j := w.2 _ (by
          intro y hy e
          have := cm_inj (ld := ld) (by omega) (by have := List.mem_range.mp hy; omega) e
          omega)
        rw [e, cmSet_at (by omega) (by omega)]
        by_cases c2 : i = j
        · rw [if_pos ⟨c2, rfl⟩, if_pos (by omega), if_pos c2]
        · rw [if_neg (show ¬ (i = j ∧ j = j) from fun h => c2 h.1), if_neg (show ¬ (j < j + 1 ∧ j ≤ i) by omega), ih i j hi hj, if_neg (by omega)]
    · have e : cmAt ((List.range (n - (m + 1))).foldl (fun A k => cmSet A ld (m + 1 + k) m (- cmAt A ld m (m + 1 + k))) (cmSet D ld m m 0)) ld i j =
          cmAt (cmSet D ld m m 0) ld i j := w.2 _ (by
        intro y hy e
        have := cm_inj (ld := ld) (by omega) (by have := List.mem_range.mp hy; omega) e
        omega)
      rw [e]
      have e2 : cmAt (cmSet D ld m m 0) ld i j = cmAt D ld i j := by
        rw [cmSet_at (by omega) (by omega), if_neg (fun h => c h.2)]
      rw [e2, ih i j hi hj]
      by_cases c3 : j < m ∧ j ≤ i
      · rw [if_pos c3, if_pos (show j < m + 1 ∧ j ≤ i by omega)]
      · rw [if_neg c3, if_neg (show ¬ (j < m + 1 ∧ j ≤ i) by omega)]

/-! ### the Pfaffian -/

theorem pf_tri (a : Nat → K) (ld : Nat) : ∀ m s, pf (factT a ld) (List.range' s (2 * m)) = ∏ k ∈ Finset.range m, a (s + 2 * k + (s + 2 * k + 1) * ld) := by
  intro m
  induction m with
  | zero => intro s; rfl
  | succ m ih =>
    intro s
    rw [show 2 * (m + 1) = (2 * m + 1) + 1 by ring, List.range'_succ, List.range'_succ, pf_cons, altSum_cons', altSum_zero_left, sub_zero,
      ih, Finset.prod_range_succ']
    · rw [mul_comm]
      congr 1
      · refine Finset.prod_congr rfl (fun k _ => ?_)
        congr 1; ring
      · unfold factT
        rw [if_pos rfl]
        rfl
    · intro x hx
      have := (List.mem_range'_1.mp hx).1
      unfold factT
      rw [if_neg (by omega), if_neg (by omega)]

/-- sign of one pivot -/
def pivSign (piv : Nat → Int) (t : Nat) : K := if piv t - 1 ≠ (t : Int) then -1 else 1

theorem utu2pfa_eq (h : Nat) (A : Nat → K) (ldA : Nat) (piv : Nat → Int) :
    utu2pfa (2 * h) A ldA piv = (∏ t ∈ Finset.range (2 * h), pivSign piv t) * ∏ k ∈ Finset.range h, A (2 * k + (2 * k + 1) * ldA) := by
  unfold utu2pfa
  rw [show (2 * h + 1) / 2 = h by omega]
  induction h with
  | zero => simp
  | succ h ih =>
    rw [List.range_succ, List.foldl_append, ih, show 2 * (h + 1) = 2 * h + 1 + 1 by ring, Finset.prod_range_succ, Finset.prod_range_succ,
      Finset.prod_range_succ]
    simp only [List.foldl_cons, List.foldl_nil]
    unfold pivSign cmAt
    split_ifs <;> ring

/-- the pivots as a permutation -/
def pivEquiv {n : Nat} (p : Fin n → Fin n) : Equiv.Perm (Fin n) := ((List.finRange n).map (fun t => Equiv.swap t (p t))).prod

theorem pivEquiv_val {n : Nat} (p : Fin n → Fin n) (q : Nat → Nat) (hq : ∀ t : Fin n, q t = p t) (x : Fin n) : (pivEquiv p x : Nat) = pivPerm n q x := by
  unfold pivEquiv pivPerm
  rw [show List.range n = (List.finRange n).map Fin.val by simp, List.foldr_map]
  generalize List.finRange n = L
  induction L with
  | nil => rfl
  | cons t L ih =>
    rw [List.map_cons, List.prod_cons, List.foldr_cons, ← ih, Equiv.Perm.mul_apply]
    generalize (List.map (fun t => Equiv.swap t (p t)) L).prod x = y
    rw [Equiv.swap_apply_def]
    unfold swapIdx
    rw [hq]
    by_cases c : y = t
    · rw [if_pos c, if_pos (by rw [c])]
    · rw [if_neg c, if_neg (fun h => c (Fin.ext h))]
      by_cases c' : y = p t
      · rw [if_pos c', if_pos (by rw [c'])]
      · rw [if_neg c', if_neg (fun h => c' (Fin.ext h))]

theorem pivEquiv_sign {n : Nat} (p : Fin n → Fin n) {piv : Nat → Int} (hq : ∀ t : Fin n, piv t - 1 = ((p t : Nat) : Int)) :
    (((Equiv.Perm.sign (pivEquiv p) : ℤˣ) : ℤ) : K) = ∏ t ∈ Finset.range n, pivSign piv t := by
  unfold pivEquiv
  rw [Finset.prod_range, ← List.prod_ofFn, List.ofFn_eq_map]
  generalize List.finRange n = L
  induction L with
  | nil => simp
  | cons t L ih =>
    rw [List.map_cons, List.map_cons, List.prod_cons, List.prod_cons, Equiv.Perm.sign_mul, ← ih]
    push_cast
    congr 1
    unfold pivSign
    rw [hq]
    by_cases c : t = p t
    · rw [← c, Equiv.swap_self, if_neg (by simp)]
      simp
    · rw [Equiv.Perm.sign_swap c, if_pos (by intro h; exact c (Fin.ext (by omega)))]
      simp

theorem factU_det (n : Nat) (a : Nat → K) (ld : Nat) : (Matrix.of (fun i j : Fin n => factU n a ld i j)).det = 1 := by
  rw [Matrix.det_of_isUpperTriangular]
  · refine Finset.prod_eq_one (fun i _ => ?_)
    simp [factU]
  · intro i j hij
    have : (j : Nat) < i := hij
    simp only [Matrix.of_apply]
    unfold factU
    rw [if_neg (by omega), if_neg (by omega)]

theorem factT_neg (a : Nat → K) (ld i j : Nat) : factT a ld i j = - factT a ld j i := by
  unfold factT
  by_cases c : j = i + 1
  · rw [if_pos c, if_neg (by omega), if_pos c, neg_neg]
  · rw [if_neg c]
    by_cases c2 : i = j + 1
    · rw [if_pos c2, if_pos c2]
    · rw [if_neg c2, if_neg c2, if_neg c, neg_zero]

theorem factT_diag (a : Nat → K) (ld i : Nat) : factT a ld i i = 0 := by
  unfold factT
  rw [if_neg (by omega), if_neg (by omega)]

/-- the Pfaffian of a matrix from its factors -/
theorem pf_of_factors {h : Nat} (b : Nat → Nat → K) (A : Nat → K) (piv : Nat → Int) (hp : ∀ i, i < 2 * h → 1 ≤ piv i ∧ piv i ≤ (2 * h : Nat))
    (hb : ∀ i j, i < 2 * h → j < 2 * h → b i j = ∑ k ∈ Finset.range (2 * h), ∑ l ∈ Finset.range (2 * h),
      factU (2 * h) A (2 * h) (pivPerm (2 * h) (fun t => (piv t - 1).toNat) i) k * factT A (2 * h) k l *
        factU (2 * h) A (2 * h) (pivPerm (2 * h) (fun t => (piv t - 1).toNat) j) l) :
    pfOf b (2 * h) id = utu2pfa (2 * h) A (2 * h) piv := by
  have e : pfOf b (2 * h) id = pfOf (fun i j => ∑ k ∈ Finset.range (2 * h), ∑ l ∈ Finset.range (2 * h),
      factU (2 * h) A (2 * h) (pivPerm (2 * h) (fun t => (piv t - 1).toNat) i) k * factT A (2 * h) k l *
        factU (2 * h) A (2 * h) (pivPerm (2 * h) (fun t => (piv t - 1).toNat) j) l) (2 * h) id := by
    rw [← pf_finRange, ← pf_finRange]
    congr 1
    funext i j
    exact hb i j i.2 j.2
  rw [e, pfOf_conj (A := factT A (2 * h)) (fun i j _ _ => factT_neg _ _ _ _) (fun i _ => factT_diag _ _ _)
    (fun i k => factU (2 * h) A (2 * h) (pivPerm (2 * h) (fun t => (piv t - 1).toNat) i) k), utu2pfa_eq]
  have hlt : ∀ t : Fin (2 * h), (piv t - 1).toNat < 2 * h := fun t => by have := hp t t.2; omega
  have d : Matrix.of (fun i k : Fin (2 * h) => factU (2 * h) A (2 * h) (pivPerm (2 * h) (fun t => (piv t - 1).toNat) i) k) =
      (Matrix.of (fun i j : Fin (2 * h) => factU (2 * h) A (2 * h) i j)).submatrix (pivEquiv (fun t => ⟨(piv t - 1).toNat, hlt t⟩)) id := by
    ext i k
    simp only [Matrix.of_apply, Matrix.submatrix_apply, id]
    rw [pivEquiv_val _ (fun t => (piv t - 1).toNat) (fun t => rfl)]
  rw [d, Matrix.det_permute, factU_det, mul_one, pivEquiv_sign (piv := piv) _ (fun t => by have := hp t t.2; simp only; omega)]
  congr 1
  unfold pfOf
  rw [List.map_id, List.range_eq_range', pf_tri]
  simp

/-! ### the inverse -/

/-- matrix of an array -/
def cmMat (n : Nat) (a : Nat → Nat → K) : Matrix (Fin n) (Fin n) K := Matrix.of (fun i j => a i j)

theorem cmMat_mul {n : Nat} {a b c : Nat → Nat → K} (h : ∀ i j, i < n → j < n → ∑ k ∈ Finset.range n, a i k * b k j = c i j) :
    cmMat n a * cmMat n b = cmMat n c := by
  ext i j
  rw [Matrix.mul_apply]
  unfold cmMat
  simp only [Matrix.of_apply]
  rw [← h i j i.2 j.2, Finset.sum_range]

theorem cmMat_one {n : Nat} : cmMat n (fun i j => if i = j then (1 : K) else 0) = 1 := by
  ext i j
  unfold cmMat
  simp only [Matrix.of_apply, Matrix.one_apply, Fin.ext_iff]

/-- a unit upper triangular matrix, transposed, times `C` -/
theorem unit_sum {n : Nat} (a C : Nat → K) (ld ldC : Nat) {i j : Nat} (hi : i < n) :
    ∑ k ∈ Finset.range n, factU n a ld k i * cmAt C ldC k j =
      cmAt C ldC i j + ∑ k ∈ Finset.range i, factU n a ld k i * cmAt C ldC k j := by
  obtain ⟨d, rfl⟩ : ∃ d, n = i + 1 + d := ⟨n - (i + 1), by omega⟩
  rw [Finset.sum_range_add, Finset.sum_range_succ]
  have z : ∑ x ∈ Finset.range d, factU (i + 1 + d) a ld (i + 1 + x) i * cmAt C ldC (i + 1 + x) j = 0 := by
    refine Finset.sum_eq_zero (fun x _ => ?_)
    unfold factU
    rw [if_neg (by omega), if_neg (by omega), zero_mul]
  rw [z, add_zero]
  have o : factU (i + 1 + d) a ld i i = 1 := by unfold factU; rw [if_pos rfl]
  rw [o, one_mul, add_comm]

section
variable {trtri : Nat → Nat → (Nat → K) → (Nat → K)}

/-- the array `vT` -/
def vOf (n : Nat) (A : Nat → K) (ldA : Nat) (vT : Nat → K) : Nat → K :=
  (List.range (n - 1)).foldl (fun vT i => setAt vT i (- cmAt A ldA i (i + 1))) vT

theorem vOf_at {n : Nat} (A : Nat → K) (ldA : Nat) (vT : Nat → K) {i : Nat} (hi : i + 1 < n) : vOf n A ldA vT i = - A (i + (i + 1) * ldA) :=
  (writeLoop (fun i => i) (fun _ i => - cmAt A ldA i (i + 1)) vT (List.range (n - 1)) (fun x _ y _ e => by rw [show x = y from e])
    (fun _ _ _ _ => rfl)).1 i (List.mem_range.mpr (by omega))

/-- the solution of `T C = U⁻¹` -/
def cOf (trtri : Nat → Nat → (Nat → K) → (Nat → K)) (n : Nat) (A : Nat → K) (ldA : Nat) (vT M : Nat → K) (ldM : Nat) : Nat → K :=
  sktdsmx n (vOf n (afterTri trtri n ldA A) ldA vT) (mOf trtri n A ldA M ldM) ldM (afterTri trtri n ldA A) ldA

/-- `G = Mᵀ C` -/
def gOf (trtri : Nat → Nat → (Nat → K) → (Nat → K)) (n : Nat) (A : Nat → K) (ldA : Nat) (vT M : Nat → K) (ldM : Nat) (i j : Nat) : K :=
  cmAt (cOf trtri n A ldA vT M ldM) ldA i j + ∑ k ∈ Finset.range i, cmAt (mOf trtri n A ldA M ldM) ldM k i * cmAt (cOf trtri n A ldA vT M ldM) ldA k j

variable (ht : TrtriOK trtri) {h : Nat} (hh : 0 < h) {A : Nat → K} (hA : ∀ k, 2 * k + 1 < 2 * h → A (2 * k + (2 * k + 1) * (2 * h)) ≠ 0)
  (vT M : Nat → K)
include ht hh hA

theorem cOf_solves {i j : Nat} (hi : i < 2 * h) (hj : j < 2 * h) :
    ∑ k ∈ Finset.range (2 * h), factT A (2 * h) i k * cmAt (cOf trtri (2 * h) A (2 * h) vT M (2 * h)) (2 * h) k j =
      factU (2 * h) (afterTri trtri (2 * h) (2 * h) A) (2 * h) i j := by
  rw [← mOf_at trtri (Nat.le_refl _) A M hi hj]
  refine sktdsmx_solves hh (Nat.le_refl _) hA (fun i hi => ?_) _ hi hj
  rw [vOf_at _ _ _ hi, afterTri_super ht (Nat.le_refl _) A hi]

omit hh hA in
theorem gOf_eq {i j : Nat} (hi : i < 2 * h) : gOf trtri (2 * h) A (2 * h) vT M (2 * h) i j =
    ∑ k ∈ Finset.range (2 * h), factU (2 * h) (afterTri trtri (2 * h) (2 * h) A) (2 * h) k i *
      cmAt (cOf trtri (2 * h) A (2 * h) vT M (2 * h)) (2 * h) k j := by
  rw [unit_sum _ _ _ _ hi]
  unfold gOf
  congr 1
  refine Finset.sum_congr rfl (fun k hk => ?_)
  rw [mOf_at trtri (Nat.le_refl _) A M (by have := Finset.mem_range.mp hk; omega) hi]

/-- `G` is skew -/
theorem gOf_form (i j : Fin (2 * h)) : gOf trtri (2 * h) A (2 * h) vT M (2 * h) i j =
    formOf (fun k l : Fin (2 * h) => factT A (2 * h) k l) (fun k => cmAt (cOf trtri (2 * h) A (2 * h) vT M (2 * h)) (2 * h) k j)
      (fun k => cmAt (cOf trtri (2 * h) A (2 * h) vT M (2 * h)) (2 * h) k i) := by
  rw [gOf_eq ht vT M i.2, Finset.sum_range]
  unfold formOf
  refine Finset.sum_congr rfl (fun k _ => ?_)
  rw [← cOf_solves ht hh hA vT M k.2 i.2, Finset.sum_range, Finset.sum_mul]
  refine Finset.sum_congr rfl (fun l _ => ?_)
  ring

theorem gOf_neg {i j : Nat} (hi : i < 2 * h) (hj : j < 2 * h) :
    gOf trtri (2 * h) A (2 * h) vT M (2 * h) i j = - gOf trtri (2 * h) A (2 * h) vT M (2 * h) j i := by
  have s : Skew (fun k l : Fin (2 * h) => factT A (2 * h) k l) := ⟨fun k l => factT_neg _ _ _ _, fun k => factT_diag _ _ _⟩
  have := (formOf_skew s).neg (fun k => cmAt (cOf trtri (2 * h) A (2 * h) vT M (2 * h)) (2 * h) k j)
    (fun k => cmAt (cOf trtri (2 * h) A (2 * h) vT M (2 * h)) (2 * h) k i)
  have e1 := gOf_form ht hh hA vT M ⟨i, hi⟩ ⟨j, hj⟩
  have e2 := gOf_form ht hh hA vT M ⟨j, hj⟩ ⟨i, hi⟩
  simp only at e1 e2
  rw [e1, e2]
  exact this

theorem gOf_diag {i : Nat} (hi : i < 2 * h) : gOf trtri (2 * h) A (2 * h) vT M (2 * h) i i = 0 := by
  have s : Skew (fun k l : Fin (2 * h) => factT A (2 * h) k l) := ⟨fun k l => factT_neg _ _ _ _, fun k => factT_diag _ _ _⟩
  have := (formOf_skew s).diag (fun k => cmAt (cOf trtri (2 * h) A (2 * h) vT M (2 * h)) (2 * h) k i)
  have e1 := gOf_form ht hh hA vT M ⟨i, hi⟩ ⟨i, hi⟩
  simp only at e1
  rw [e1]
  exact this

/-- `G` is the inverse of `U T Uᵀ` -/
theorem gOf_inv {i j : Nat} (hi : i < 2 * h) (hj : j < 2 * h) :
    ∑ k ∈ Finset.range (2 * h), gOf trtri (2 * h) A (2 * h) vT M (2 * h) i k *
      (∑ a ∈ Finset.range (2 * h), ∑ b ∈ Finset.range (2 * h), factU (2 * h) A (2 * h) k a * factT A (2 * h) a b * factU (2 * h) A (2 * h) j b) =
      if i = j then 1 else 0 := by
  set U := cmMat (2 * h) (factU (2 * h) A (2 * h)) with hU
  set W := cmMat (2 * h) (factU (2 * h) (afterTri trtri (2 * h) (2 * h) A) (2 * h)) with hW
  set T := cmMat (2 * h) (factT A (2 * h)) with hT
  set C := cmMat (2 * h) (cmAt (cOf trtri (2 * h) A (2 * h) vT M (2 * h)) (2 * h)) with hC
  have h1 : U * W = 1 := by
    rw [← cmMat_one]
    exact cmMat_mul (fun i j hi hj => factU_inv ht (Nat.le_refl _) A hi hj)
  have h2 : W * U = 1 := mul_eq_one_comm.mp h1
  have h3 : T * C = W := cmMat_mul (fun i j hi hj => cOf_solves ht hh hA vT M hi hj)
  have h4 : (U * T * U.transpose) * (W.transpose * C) = 1 := by
    rw [Matrix.mul_assoc (U * T), ← Matrix.mul_assoc U.transpose, ← Matrix.transpose_mul, h2, Matrix.transpose_one, Matrix.one_mul, Matrix.mul_assoc, h3, h1]
  have h5 : (W.transpose * C) * (U * T * U.transpose) = 1 := mul_eq_one_comm.mp h4
  have h6 := congrFun (congrFun h5 ⟨i, hi⟩) ⟨j, hj⟩
  rw [Matrix.mul_apply, Matrix.one_apply] at h6
  simp only [Fin.mk.injEq] at h6
  rw [← h6, Finset.sum_range]
  refine Finset.sum_congr rfl (fun k _ => ?_)
  congr 1
  · rw [gOf_eq ht vT M hi, Finset.sum_range, Matrix.mul_apply]
    rfl
  · rw [Finset.sum_comm, Finset.sum_range, Matrix.mul_apply]
    refine Finset.sum_congr rfl (fun b _ => ?_)
    rw [Finset.sum_range, Matrix.mul_apply, Finset.sum_mul]
    rfl

/-- the result of `utu2inv` -/
theorem utu2inv_at {npanel : Int} {piv : Nat → Int} (hp : ∀ i, i < 2 * h → 1 ≤ piv i ∧ piv i ≤ (2 * h : Nat)) {i j : Nat} (hi : i < 2 * h) (hj : j < 2 * h) :
    cmAt (utu2inv trtri npanel (2 * h) A (2 * h) piv vT M (2 * h)) (2 * h) i j =
      gOf trtri (2 * h) A (2 * h) vT M (2 * h) (pivPerm (2 * h) (fun t => (piv t - 1).toNat) i) (pivPerm (2 * h) (fun t => (piv t - 1).toNat) j) := by
  have hlt : ∀ t, t < 2 * h → (piv t - 1).toNat < 2 * h := fun t ht => by have := hp t ht; omega
  have hi' := pivPerm_lt hlt _ (Nat.le_refl _) i hi
  have hj' := pivPerm_lt hlt _ (Nat.le_refl _) j hj
  unfold utu2inv
  simp only
  rw [rowSwaps_at (Nat.le_refl _) hp _ hj _ (Nat.le_refl _) i hi]
  by_cases full : npanel ≤ 1 ∨ npanel ≥ (2 * h : Nat)
  · rw [if_pos full, if_pos full]
    have t0 := trmm_at (m := 2 * h) (n := 2 * h) (ldA := 2 * h) (ldB := 2 * h) (j0 := 0) (Nat.le_refl _) (mOf trtri (2 * h) A (2 * h) M (2 * h))
      ((List.range (2 * h)).foldl (fun A j =>
        if piv j - 1 ≠ (j : Int) then swapLoop (2 * h) A (j * (2 * h)) 1 ((piv j - 1).toNat * (2 * h)) 1 else A) (cOf trtri (2 * h) A (2 * h) vT M (2 * h)))
      (j := j) hi'
    rw [zero_mul, if_pos ⟨by omega, by omega, hi'⟩] at t0
    refine t0.trans ?_
    unfold gOf
    rw [colSwaps_at (Nat.le_refl _) hp _ hi' _ (Nat.le_refl _)]
    congr 1
    refine Finset.sum_congr rfl (fun k hk => ?_)
    rw [colSwaps_at (Nat.le_refl _) hp _ (by have := Finset.mem_range.mp hk; omega) _ (Nat.le_refl _)]
  · rw [if_neg full, if_neg full]
    rw [colSwaps_at (Nat.le_refl _) hp _ hi' _ (Nat.le_refl _)]
    rw [mirror_at (Nat.le_refl _) _ _ (Nat.le_refl _) _ _ hi' hj']
    have tt := fun {i j : Nat} (hij : i ≤ j) (hj : j < 2 * h) => trmmt_at (np := npanel.toNat) (ldA := 2 * h) (by omega) (Nat.le_refl _)
      (mOf trtri (2 * h) A (2 * h) M (2 * h)) (cOf trtri (2 * h) A (2 * h) vT M (2 * h)) hij hj
    generalize pivPerm (2 * h) (fun t => (piv t - 1).toNat) i = x at hi' ⊢
    generalize pivPerm (2 * h) (fun t => (piv t - 1).toNat) j = y at hj' ⊢
    by_cases c : y ≤ x
    · rw [if_pos ⟨hj', c⟩]
      by_cases c2 : x = y
      · rw [if_pos c2, c2, gOf_diag ht hh hA vT M hj']
      · rw [if_neg c2, gOf_neg ht hh hA vT M hi' hj']
        exact congrArg _ (tt c hi')
    · rw [if_neg (fun e => c e.2)]
      exact tt (by omega) hj'

end

theorem pivPerm_inj {n : Nat} {p : Nat → Nat} (hp : ∀ t, t < n → p t < n) {i j : Nat} (hi : i < n) (hj : j < n) (e : pivPerm n p i = pivPerm n p j) : i = j := by
  have e1 := pivEquiv_val (fun t : Fin n => ⟨p t, hp t t.2⟩) p (fun _ => rfl) ⟨i, hi⟩
  have e2 := pivEquiv_val (fun t : Fin n => ⟨p t, hp t t.2⟩) p (fun _ => rfl) ⟨j, hj⟩
  have := (pivEquiv (fun t : Fin n => (⟨p t, hp t t.2⟩ : Fin n))).injective (a₁ := ⟨i, hi⟩) (a₂ := ⟨j, hj⟩) (Fin.ext (by rw [e1, e2]; exact e))
  exact Fin.mk.inj_iff.mp this

theorem pivPerm_sum {n : Nat} {p : Nat → Nat} (hp : ∀ t, t < n → p t < n) (f : Nat → K) :
    ∑ k ∈ Finset.range n, f (pivPerm n p k) = ∑ k ∈ Finset.range n, f k := by
  rw [Finset.sum_range, Finset.sum_range, ← Equiv.sum_comp (pivEquiv (fun t : Fin n => (⟨p t, hp t t.2⟩ : Fin n))) (fun k => f k)]
  refine Finset.sum_congr rfl (fun k _ => ?_)
  rw [pivEquiv_val (fun t : Fin n => ⟨p t, hp t t.2⟩) p (fun _ => rfl) k]

/-- `skLibOf` meets the contract the rest of the model uses -/
theorem skLibOf_ok {sktrf : Nat → (Nat → K) → Option ((Nat → K) × (Nat → Int))} {trtri : Nat → Nat → (Nat → K) → (Nat → K)} (hs : SktrfOK sktrf)
    (ht : TrtriOK trtri) (npanel : Nat → Int) (vT0 M0 : Nat → K) : LibOK (skLibOf sktrf trtri npanel vT0 M0) := by
  intro n b pfaff inv e hsk h0
  unfold skLibOf at e
  by_cases c : n % 2 = 1
  · rw [if_pos c] at e; exact absurd e (by simp)
  rw [if_neg c] at e
  obtain ⟨h, rfl⟩ : ∃ h, n = 2 * h := ⟨n / 2, by omega⟩
  cases hr : sktrf (2 * h) b with
  | none => rw [hr] at e; exact absurd e (by simp)
  | some r =>
    obtain ⟨A, piv⟩ := r
    rw [hr] at e
    simp only [Option.some.injEq, Prod.mk.injEq] at e
    obtain ⟨e1, e2⟩ := e
    obtain ⟨hp, hA, hb⟩ := hs _ _ _ _ (by omega) hsk h0 hr
    refine ⟨?_, fun i hi j hj => ?_⟩
    · rw [← e1]
      exact (pf_of_factors (fun i j => b (i + 2 * h * j)) A piv hp hb).symm
    · have hlt : ∀ t, t < 2 * h → (piv t - 1).toNat < 2 * h := fun t ht => by have := hp t ht; omega
      have hi' := pivPerm_lt hlt _ (Nat.le_refl _) i hi
      have hj' := pivPerm_lt hlt _ (Nat.le_refl _) j hj
      have q := gOf_inv ht (by omega : 0 < h) hA vT0 M0 hi' hj'
      have d : (if pivPerm (2 * h) (fun t => (piv t - 1).toNat) i = pivPerm (2 * h) (fun t => (piv t - 1).toNat) j then (1 : K) else 0) =
          if i = j then 1 else 0 := by
        by_cases c : i = j
        · rw [if_pos c, if_pos (by rw [c])]
        · rw [if_neg c, if_neg (fun e => c (pivPerm_inj hlt hi hj e))]
      rw [d] at q
      rw [← q, ← pivPerm_sum hlt (fun k => gOf trtri (2 * h) A (2 * h) vT0 M0 (2 * h) _ k * _)]
      refine Finset.sum_congr rfl (fun k hk => ?_)
      rw [hb k j (Finset.mem_range.mp hk) hj, ← e2, Nat.mul_comm (2 * h) k]
      congr 1
      exact utu2inv_at ht (by omega) hA vT0 M0 hp hi (Finset.mem_range.mp hk)

/-- a skew matrix of odd size is singular -/
theorem odd_singular [CharZero K] {n : Nat} (hn : n % 2 = 1) (b inv : Nat → K) (hsk : ∀ i j, i < n → j < n → b (i + n * j) = - b (j + n * i))
    (hinv : ∀ i, i < n → ∀ j, j < n → ∑ k ∈ Finset.range n, inv (i + n * k) * b (k + n * j) = if i = j then 1 else 0) : False := by
  set B := cmMat n (fun i j => b (i + n * j)) with hB
  have h1 : cmMat n (fun i j => inv (i + n * j)) * B = 1 := by
    rw [← cmMat_one]
    exact cmMat_mul (fun i j hi hj => hinv i hi j hj)
  have h2 : B.transpose = -B := by
    ext i j
    exact hsk j i j.2 i.2
  have h3 : B.det = - B.det := by
    conv_lhs => rw [← Matrix.det_transpose, h2, Matrix.det_neg]
    rw [Fintype.card_fin, Odd.neg_one_pow (Nat.odd_iff.mpr hn), neg_one_mul]
  have h4 : B.det = 0 := self_eq_neg.mp h3
  have h5 := congrArg Matrix.det h1
  rw [Matrix.det_mul, h4, mul_zero, Matrix.det_one] at h5
  exact zero_ne_one h5

theorem skLibOf_total [CharZero K] {sktrf : Nat → (Nat → K) → Option ((Nat → K) × (Nat → Int))} (hs : SktrfTotal sktrf)
    (trtri : Nat → Nat → (Nat → K) → (Nat → K)) (npanel : Nat → Int) (vT0 M0 : Nat → K) : LibTotal (skLibOf sktrf trtri npanel vT0 M0) := by
  intro n b inv hsk h0 hinv
  by_cases c : n % 2 = 1
  · exact (odd_singular c b inv hsk hinv).elim
  · obtain ⟨r, hr⟩ := hs n b inv (by omega) hsk h0 hinv
    refine ⟨(utu2pfa n r.1 n r.2, utu2inv trtri (npanel n) n r.1 n r.2 vT0 M0 n), ?_⟩
    unfold skLibOf
    rw [if_neg c, hr]

/-! ### a `trtri` -/

open Classical in
/-- a `trtri` that meets its contract -/
noncomputable def trtriEx (n ld : Nat) (a : Nat → K) (x : Nat) : K :=
  if h : ∃ p : Fin n × Fin n, p.1 < p.2 ∧ x = p.1 + p.2 * ld then ((cmMat n (unitU a ld))⁻¹ : Matrix (Fin n) (Fin n) K) h.choose.1 h.choose.2 else a x

theorem trtriEx_ok : TrtriOK (trtriEx (K := K)) := by
  intro n ld a hn
  set U := cmMat n (unitU a ld) with hU
  have tri : U.IsUpperTriangular := by
    intro i j hij
    have : (j : Nat) < i := hij
    show unitU a ld i j = 0
    unfold unitU
    rw [if_neg (by omega), if_neg (by omega)]
  have det : U.det = 1 := by
    rw [Matrix.det_of_isUpperTriangular tri]
    refine Finset.prod_eq_one (fun i _ => ?_)
    show unitU a ld i i = 1
    unfold unitU
    rw [if_pos rfl]
  have hdet : IsUnit U.det := by rw [det]; exact isUnit_one
  have inv : U * U⁻¹ = 1 := Matrix.mul_nonsing_inv U hdet
  have : Invertible U := Matrix.invertibleOfIsUnitDet U hdet
  have tri' : (U⁻¹).IsUpperTriangular := Matrix.blockTriangular_inv_of_blockTriangular tri
  have low : ∀ i j : Fin n, j < i → U⁻¹ i j = 0 := fun i j hij => tri' hij
  have dg : ∀ i : Fin n, U⁻¹ i i = 1 := by
    intro i
    have e := congrFun (congrFun inv i) i
    rw [Matrix.mul_apply, Matrix.one_apply, if_pos rfl, Finset.sum_eq_single i] at e
    · have o : U i i = 1 := by
        show unitU a ld i i = 1
        unfold unitU
        rw [if_pos rfl]
      rwa [o, one_mul] at e
    · intro k _ hk
      rcases lt_or_gt_of_ne hk with h | h
      · rw [show U i k = 0 from tri h, zero_mul]
      · rw [low k i h, mul_zero]
    · intro h; exact absurd (Finset.mem_univ _) h
  have val : ∀ i j : Fin n, unitU (trtriEx n ld a) ld i j = U⁻¹ i j := by
    intro i j
    unfold unitU
    by_cases c : i = j
    · rw [if_pos (by rw [c]), c, dg]
    · rw [if_neg (fun h => c (Fin.ext h))]
      by_cases c2 : i < j
      · rw [if_pos (show (i : Nat) < j from c2)]
        unfold trtriEx
        have ex : ∃ p : Fin n × Fin n, p.1 < p.2 ∧ (i : Nat) + j * ld = p.1 + p.2 * ld := ⟨(i, j), c2, rfl⟩
        rw [dif_pos ex]
        obtain ⟨_, h2⟩ := ex.choose_spec
        obtain ⟨e1, e2⟩ := cm_inj (by have := i.2; omega) (by have := ex.choose.1.2; omega) h2
        rw [← Fin.ext e1, ← Fin.ext e2]
      · rw [if_neg (show ¬ (i : Nat) < j from fun h => c2 h), low i j (lt_of_le_of_ne (not_lt.mp c2) (fun h => c h.symm))]
  refine ⟨fun i j hi hj => ?_, fun x hx => ?_⟩
  · have e := congrFun (congrFun inv ⟨i, hi⟩) ⟨j, hj⟩
    rw [Matrix.mul_apply, Matrix.one_apply] at e
    simp only [Fin.mk.injEq] at e
    rw [← e, Finset.sum_range]
    refine Finset.sum_congr rfl (fun k _ => ?_)
    rw [← val k ⟨j, hj⟩]
    rfl
  · unfold trtriEx
    rw [dif_neg]
    rintro ⟨p, h1, h2⟩
    exact hx p.1 p.2 h1 p.2.2 h2

end MVMC
