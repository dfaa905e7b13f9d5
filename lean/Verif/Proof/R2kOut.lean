import Verif.Model.R2kOut
import Verif.Spec.R2kOut
import Verif.Proof.GreenR2k3
import Mathlib.Tactic.IntervalCases
import Mathlib.Tactic.Module

/-! # Words and files of `greenr2k` -/
namespace MVMC
open Spec

theorem r2kLower_char (c : Char) : (if 65 ≤ c.toNat ∧ c.toNat ≤ 90 then Char.ofNat (c.toNat + 32) else c) = c.toLower := by
  by_cases h : 65 ≤ c.toNat ∧ c.toNat ≤ 90
  · rw [if_pos h]
    obtain ⟨n, hn⟩ : ∃ n, n = c.toNat := ⟨_, rfl⟩
    have e : c = Char.ofNat n := by rw [hn, Char.ofNat_toNat]
    rw [← hn] at h ⊢
    obtain ⟨h1, h2⟩ := h
    rw [e]
    clear hn e
    interval_cases n <;> rfl
  · rw [if_neg h]
    unfold Char.toLower
    rw [dif_neg]
    intro hc
    exact h ⟨UInt32.le_iff_toNat_le.mp hc.1, UInt32.le_iff_toNat_le.mp hc.2⟩

theorem r2kLower_eq (w : List Char) : r2kLower w = w.map Char.toLower := by
  unfold r2kLower
  congr 1
  funext c
  exact r2kLower_char c

theorem r2k_lastSet_append (ws : List (List Char)) (lines : List (List Char × List Char)) (l : List Char × List Char) :
    lastSet ws (lines ++ [l]) = if r2kLower l.1 ∈ ws then some l.2 else lastSet ws lines := by
  rw [r2kLower_eq]
  unfold lastSet
  rw [List.reverse_append, List.reverse_singleton, List.singleton_append, List.find?_cons]
  by_cases h : l.1.map Char.toLower ∈ ws <;> simp [h]

theorem r2k_field {β : Type} (num : List Char → ℤ) (f : R2kSet → Option β) (g : List Char → β) (ws : List (List Char))
    (h0 : f ⟨none, none, none, none, none, none, none⟩ = none) (hs : ∀ S l, f (r2kModLine num S l) = if r2kLower l.1 ∈ ws then some (g l.2) else f S)
    (lines : List (List Char × List Char)) : f (r2kModPara num lines) = (lastSet ws lines).map g := by
  induction lines using List.reverseRecOn with
  | nil => exact h0
  | append_singleton ls l ih =>
    unfold r2kModPara at ih ⊢
    rw [List.foldl_append, List.foldl_cons, List.foldl_nil, hs, r2k_lastSet_append, ih]
    split <;> rfl

theorem r2k_step_nsite (num : List Char → ℤ) (S : R2kSet) (l : List Char × List Char) :
    (r2kModLine num S l).nsite = if r2kLower l.1 ∈ [['n', 's', 'i', 't', 'e']] then some (num l.2) else S.nsite := by
  unfold r2kModLine
  generalize r2kLower l.1 = w
  split_ifs <;> first | rfl | (exfalso; simp_all)

theorem r2k_step_filehead (num : List Char → ℤ) (S : R2kSet) (l : List Char × List Char) :
    (r2kModLine num S l).filehead = if r2kLower l.1 ∈ [['c', 'd', 'a', 't', 'a', 'f', 'i', 'l', 'e', 'h', 'e', 'a', 'd']] then some (id l.2) else S.filehead := by
  unfold r2kModLine
  generalize r2kLower l.1 = w
  split_ifs <;> first | rfl | (exfalso; simp_all)

theorem r2k_step_numave (num : List Char → ℤ) (S : R2kSet) (l : List Char × List Char) :
    (r2kModLine num S l).numave = if r2kLower l.1 ∈ [['n', 'u', 'm', 'a', 'v', 'e'], ['n', 'd', 'a', 't', 'a', 'q', 't', 'y', 's', 'm', 'p']] then some (num l.2) else S.numave := by
  unfold r2kModLine
  generalize r2kLower l.1 = w
  split_ifs <;> first | rfl | (exfalso; simp_all)

theorem r2k_step_lanczosMax (num : List Char → ℤ) (S : R2kSet) (l : List Char × List Char) :
    (r2kModLine num S l).lanczosMax = if r2kLower l.1 ∈ [['l', 'a', 'n', 'c', 'z', 'o', 's', '_', 'm', 'a', 'x']] then some (num l.2) else S.lanczosMax := by
  unfold r2kModLine
  generalize r2kLower l.1 = w
  split_ifs <;> first | rfl | (exfalso; simp_all)

theorem r2k_step_interval (num : List Char → ℤ) (S : R2kSet) (l : List Char × List Char) :
    (r2kModLine num S l).interval = if r2kLower l.1 ∈ [['e', 'x', 'p', 'e', 'c', 'i', 'n', 't', 'e', 'r', 'v', 'a', 'l']] then some (num l.2) else S.interval := by
  unfold r2kModLine
  generalize r2kLower l.1 = w
  split_ifs <;> first | rfl | (exfalso; simp_all)

theorem r2k_step_nwfc (num : List Char → ℤ) (S : R2kSet) (l : List Char × List Char) :
    (r2kModLine num S l).nwfc = if r2kLower l.1 ∈ [['e', 'x', 'c', 't']] then some (num l.2) else S.nwfc := by
  unfold r2kModLine
  generalize r2kLower l.1 = w
  split_ifs <;> first | rfl | (exfalso; simp_all)

theorem r2k_step_idxStart (num : List Char → ℤ) (S : R2kSet) (l : List Char × List Char) :
    (r2kModLine num S l).idxStart = if r2kLower l.1 ∈ [['n', 'd', 'a', 't', 'a', 'i', 'd', 'x', 's', 't', 'a', 'r', 't']] then some (num l.2) else S.idxStart := by
  unfold r2kModLine
  generalize r2kLower l.1 = w
  split_ifs <;> first | rfl | (exfalso; simp_all)

/-! ## Axis of the plot -/

theorem r2k_line_loop (s : ℝ) (x : List ℝ) : ∀ n : ℕ, (List.range n).foldl (fun x _ => x ++ [x.getLastD 0 + s]) x = x ++ (List.range n).map (fun (i : ℕ) => x.getLastD 0 + ((i + 1 : ℕ) : ℝ) * s) ∧
    ((List.range n).foldl (fun x _ => x ++ [x.getLastD 0 + s]) x).getLastD 0 = x.getLastD 0 + n * s
  | 0 => by simp
  | n + 1 => by
    obtain ⟨h1, h2⟩ := r2k_line_loop s x n
    rw [List.range_succ, List.foldl_append, List.foldl_cons, List.foldl_nil, h2, h1]
    constructor
    · rw [List.map_append, List.append_assoc]
      simp only [List.map_cons, List.map_nil]
      congr 3
      push_cast; ring
    · rw [List.getLastD_concat]
      push_cast; ring

variable (recipr : Fin 3 → Fin 3 → ℝ) (knode : List (ℚ × ℚ × ℚ)) (nkLine : ℕ)

/-- step on line `i` -/
noncomputable def r2kS (i : ℕ) : ℝ := r2kKlen recipr (knode.getD (i + 1) 0 - knode.getD i 0) / nkLine

/-- position of node `i` -/
noncomputable def r2kX : ℕ → ℝ
  | 0 => 0
  | i + 1 => r2kX i + nkLine * r2kS recipr knode nkLine i

theorem r2k_xk_loop : ∀ m : ℕ, (List.range m).foldl (r2kXkLine recipr knode nkLine) ([0], []) =
      ([0] ++ (List.range m).flatMap (fun i => (List.range nkLine).map fun (j : ℕ) => r2kX recipr knode nkLine i + ((j + 1 : ℕ) : ℝ) * r2kS recipr knode nkLine i),
        (List.range m).map (r2kX recipr knode nkLine)) ∧
    ((List.range m).foldl (r2kXkLine recipr knode nkLine) ([0], [])).1.getLastD 0 = r2kX recipr knode nkLine m
  | 0 => by simp [r2kX]
  | m + 1 => by
    obtain ⟨h1, h2⟩ := r2k_xk_loop m
    rw [List.range_succ, List.foldl_append, List.foldl_cons, List.foldl_nil]
    obtain ⟨e1, e2⟩ := r2k_line_loop (r2kS recipr knode nkLine m) ((List.range m).foldl (r2kXkLine recipr knode nkLine) ([0], [])).1 nkLine
    rw [h2] at e1 e2
    constructor
    · refine Prod.ext ?_ ?_
      · change List.foldl _ _ _ = _
        rw [show (fun (x : List ℝ) (_ : ℕ) => x ++ [x.getLastD 0 + r2kKlen recipr (knode.getD (m + 1) 0 - knode.getD m 0) / nkLine]) = fun x _ => x ++ [x.getLastD 0 + r2kS recipr knode nkLine m] from rfl,
          e1, h1, List.flatMap_append, List.append_assoc]
        simp
      · change ((List.range m).foldl (r2kXkLine recipr knode nkLine) ([0], [])).2 ++ [_] = _
        rw [h2, h1, List.map_append]
        rfl
    · exact e2

theorem r2k_xk_get {i j : ℕ} (hn : 0 < nkLine) (hi : i < knode.length - 1) (hj : j ≤ nkLine) :
    (r2kXk recipr knode nkLine).1[i * nkLine + j]? = some (r2kX recipr knode nkLine i + j * r2kS recipr knode nkLine i) := by
  have base : ∀ i < knode.length - 1, ∀ j < nkLine, (r2kXk recipr knode nkLine).1[1 + (i * nkLine + j)]? =
      some (r2kX recipr knode nkLine i + ((j + 1 : ℕ) : ℝ) * r2kS recipr knode nkLine i) := by
    intro i hi j hj
    unfold r2kXk
    rw [(r2k_xk_loop recipr knode nkLine _).1, List.getElem?_append_right (by simp), List.length_singleton, Nat.add_sub_cancel_left,
      r2k_flatMap_get _ nkLine _ (fun i _ => by simp) i hi j hj]
    simp [List.getElem?_range hj]
  rcases j with _ | j
  · rcases i with _ | i
    · unfold r2kXk
      rw [(r2k_xk_loop recipr knode nkLine _).1]
      simp [r2kX]
    · have := base i (by omega) (nkLine - 1) (by omega)
      rw [show 1 + (i * nkLine + (nkLine - 1)) = (i + 1) * nkLine + 0 by rw [Nat.succ_mul]; omega] at this
      rw [this, r2kX, show nkLine - 1 + 1 = nkLine by omega]
      simp
  · have := base i hi j (by omega)
    rwa [show 1 + (i * nkLine + j) = i * nkLine + (j + 1) by ring] at this

theorem r2kKlen_smul (c : ℚ) (hc : 0 ≤ c) (d : ℚ × ℚ × ℚ) : r2kKlen recipr (c • d) = c * r2kKlen recipr d := by
  unfold r2kKlen
  have e : ∑ i, (recipr i 0 * ((c • d).1 : ℚ) + recipr i 1 * ((c • d).2.1 : ℚ) + recipr i 2 * ((c • d).2.2 : ℚ)) ^ 2 =
      (c : ℝ) ^ 2 * ∑ i, (recipr i 0 * (d.1 : ℚ) + recipr i 1 * (d.2.1 : ℚ) + recipr i 2 * (d.2.2 : ℚ)) ^ 2 := by
    rw [Finset.mul_sum]
    refine Finset.sum_congr rfl fun i _ => ?_
    simp only [Prod.smul_fst, Prod.smul_snd, smul_eq_mul, Rat.cast_mul]
    ring
  rw [e, Real.sqrt_mul (sq_nonneg _), Real.sqrt_sq (by exact_mod_cast hc)]

theorem r2kRecipr_eq {d b : Fin 3 → Fin 3 → ℝ} (h : IsDual d b) (x j : Fin 3) : r2kRecipr d x j = b j x := by
  have e : Matrix.of d * Matrix.of (fun x j => b j x) = 1 := by
    ext i j
    rw [Matrix.mul_apply, Matrix.one_apply]
    exact h i j
  unfold r2kRecipr
  rw [Matrix.inv_eq_right_inv e, Matrix.of_apply]

theorem r2kKlen_cart {d b : Fin 3 → Fin 3 → ℝ} (h : IsDual d b) (q : ℚ × ℚ × ℚ) : r2kKlen (r2kRecipr d) q = cartLen b q := by
  unfold r2kKlen cartLen
  congr 1
  refine Finset.sum_congr rfl fun i _ => ?_
  simp only [r2kRecipr_eq h, Pi.add_apply, Pi.smul_apply, smul_eq_mul]
  ring

/-! ## Columns -/

theorem r2k_blocks {α β : Type} (f : α → List β) (c : ℕ) (hc : ∀ p, (f p).length = c) : ∀ (l : List α) (m q : ℕ) (p : α), l[m]? = some p → q < c → (l.flatMap f)[m * c + q]? = (f p)[q]?
  | [], m, q, p, h, _ => by simp at h
  | a :: l, 0, q, p, h, hq => by
    simp only [List.getElem?_cons_zero, Option.some.injEq] at h
    subst h
    rw [List.flatMap_cons, Nat.zero_mul, Nat.zero_add, List.getElem?_append_left (by rw [hc]; exact hq)]
  | a :: l, m + 1, q, p, h, hq => by
    rw [List.flatMap_cons, List.getElem?_append_right (by rw [hc, Nat.succ_mul]; omega), hc, show (m + 1) * c + q - c = m * c + q by rw [Nat.succ_mul]; omega]
    exact r2k_blocks f c hc l m q p (by simpa using h) hq

theorem r2kPairs_get {norb i j : ℕ} (hi : i < norb) (hj : j < norb) : (r2kPairs norb)[i * norb + j]? = some (i, j) := by
  unfold r2kPairs
  rw [r2k_flatMap_get _ norb norb (fun i _ => by simp) i hi j hj]
  simp [List.getElem?_range hj]

theorem r2kHead_get (cols : ℕ → List (List ℕ)) (step : ℕ) : ∀ (l : List (ℕ × ℕ)) (ii m : ℕ) (p : ℕ × ℕ), l[m]? = some p →
    (r2kHead cols step l ii)[m]? = some (p, (cols (ii + m * step)).map fun l => l.map r2kI4)
  | [], _, _, _, h => by simp at h
  | a :: l, ii, 0, p, h => by
    simp only [List.getElem?_cons_zero, Option.some.injEq] at h
    subst h
    simp [r2kHead]
  | a :: l, ii, m + 1, p, h => by
    rw [r2kHead, List.getElem?_cons_succ, r2kHead_get cols step l (ii + step) m p (by simpa using h), show ii + step + m * step = ii + (m + 1) * step by ring]

end MVMC
