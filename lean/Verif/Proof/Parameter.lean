import Verif.Model.Parameter
import Verif.Proof.Projection
import Verif.Proof.SlaterBase
import Verif.Proof.InvUpdate
import Verif.Spec.TrialState
import Mathlib.Tactic.Linarith
import Mathlib.Tactic.FieldSimp
import Mathlib.Tactic.LinearCombination
import Mathlib.Tactic.FinCases

namespace MVMC
open Spec

/-! ## the spec level: which shifts leave the correlation factor invariant -/

theorem dhCount_fiber (N : Nat) (nbr : Nat → List Nat) (n0 n1 : Nat → Int) (d : Bool) (L : Nat) (h : ∀ r < N, (nbr r).length < L) :
    ∑ m ∈ Finset.range L, dhCount N nbr n0 n1 d m =
      ∑ r ∈ Finset.range N, if (if d then isDoublon n0 n1 r else isHolon n0 n1 r) then (1 : Int) else 0 := by
  have h1 : ∀ m, dhCount N nbr n0 n1 d m = ∑ r ∈ Finset.range N,
      if (if d then isDoublon n0 n1 r ∧ ((nbr r).filter (fun q => isHolon n0 n1 q)).length = m
        else isHolon n0 n1 r ∧ ((nbr r).filter (fun q => isDoublon n0 n1 q)).length = m) then (1 : Int) else 0 := by
    intro m
    unfold dhCount
    rw [Finset.card_filter]
    push_cast
    rfl
  simp only [h1]
  rw [Finset.sum_comm]
  refine Finset.sum_congr rfl fun r hr => ?_
  have hl := h r (Finset.mem_range.mp hr)
  cases d
  · simp only [Bool.false_eq_true, if_false]
    have h2 : ((nbr r).filter (fun q => decide (isDoublon n0 n1 q))).length < L := lt_of_le_of_lt (List.length_filter_le _ _) hl
    by_cases hh : isHolon n0 n1 r
    · simp only [hh, true_and]
      rw [Finset.sum_eq_single_of_mem _ (Finset.mem_range.mpr h2)]
      · simp
      · intro m _ hm
        rw [if_neg]
        exact fun e => hm e.symm
    · simp [hh]
  · simp only [if_true]
    have h2 : ((nbr r).filter (fun q => decide (isHolon n0 n1 q))).length < L := lt_of_le_of_lt (List.length_filter_le _ _) hl
    by_cases hh : isDoublon n0 n1 r
    · simp only [hh, true_and]
      rw [Finset.sum_eq_single_of_mem _ (Finset.mem_range.mpr h2)]
      · simp
      · intro m _ hm
        rw [if_neg]
        exact fun e => hm e.symm
    · simp [hh]

/-- occupation numbers are 0 or 1 -/
def Bin01 (N : Nat) (n0 n1 : Nat → Int) : Prop := ∀ r < N, (n0 r = 0 ∨ n0 r = 1) ∧ (n1 r = 0 ∨ n1 r = 1)

/-- doublons and holons -/
def numD (N : Nat) (n0 n1 : Nat → Int) : Int := ∑ r ∈ Finset.range N, n0 r * n1 r
def numH (N : Nat) (n0 n1 : Nat → Int) : Int := ∑ r ∈ Finset.range N, (1 - n0 r) * (1 - n1 r)

theorem dh_site {N : Nat} {n0 n1 : Nat → Int} (hb : Bin01 N n0 n1) (d : Bool) {r : Nat} (hr : r < N) :
    (if (if d then isDoublon n0 n1 r else isHolon n0 n1 r) then (1 : Int) else 0) = if d then n0 r * n1 r else (1 - n0 r) * (1 - n1 r) := by
  obtain ⟨h0, h1⟩ := hb r hr
  unfold isDoublon isHolon
  rcases h0 with h0 | h0 <;> rcases h1 with h1 | h1 <;> cases d <;> simp [h0, h1]

theorem dhCount_total {N : Nat} {n0 n1 : Nat → Int} (hb : Bin01 N n0 n1) (nbr : Nat → List Nat) (d : Bool) (L : Nat)
    (h : ∀ r < N, (nbr r).length < L) :
    ∑ m ∈ Finset.range L, dhCount N nbr n0 n1 d m = if d then numD N n0 n1 else numH N n0 n1 := by
  rw [dhCount_fiber N nbr n0 n1 d L h, Finset.sum_congr rfl fun r hr => dh_site hb d (Finset.mem_range.mp hr)]
  cases d <;> rfl

theorem numD_sub_numH (N : Nat) (n0 n1 : Nat → Int) : numD N n0 n1 - numH N n0 n1 = ∑ r ∈ Finset.range N, (n0 r + n1 r - 1) := by
  unfold numD numH
  rw [← Finset.sum_sub_distrib]
  exact Finset.sum_congr rfl fun r _ => by ring

theorem gutzCount_total (N NG : Nat) (gIdx : Nat → Nat) (n0 n1 : Nat → Int) (h : ∀ r < N, gIdx r < NG) :
    ∑ g ∈ Finset.range NG, gutzCount N gIdx n0 n1 g = numD N n0 n1 := by
  unfold gutzCount numD
  rw [Finset.sum_comm]
  refine Finset.sum_congr rfl fun r hr => ?_
  rw [Finset.sum_ite_eq, if_pos (Finset.mem_range.mpr (h r (Finset.mem_range.mp hr)))]

theorem jastCount_total (N NJ : Nat) (jIdx : Nat → Nat → Nat) (n0 n1 : Nat → Int) (h : ∀ a < N, ∀ b < N, a ≠ b → jIdx a b < NJ) :
    ∑ v ∈ Finset.range NJ, jastCount N jIdx n0 n1 v =
      ∑ i ∈ Finset.range N, ∑ j ∈ Finset.range N, if i < j then (n0 i + n1 i - 1) * (n0 j + n1 j - 1) else 0 := by
  unfold jastCount
  rw [Finset.sum_comm]
  refine Finset.sum_congr rfl fun i hi => ?_
  rw [Finset.sum_comm]
  refine Finset.sum_congr rfl fun j hj => ?_
  by_cases hij : i < j
  · simp only [hij, true_and, if_true]
    rw [Finset.sum_ite_eq, if_pos]
    exact Finset.mem_range.mpr (h i (Finset.mem_range.mp hi) j (Finset.mem_range.mp hj) (by omega))
  · simp [hij]

theorem sum_sq_pairs (N : Nat) (x : Nat → Int) :
    (∑ i ∈ Finset.range N, x i) ^ 2 = ∑ i ∈ Finset.range N, x i ^ 2 +
      2 * ∑ i ∈ Finset.range N, ∑ j ∈ Finset.range N, if i < j then x i * x j else 0 := by
  have h1 : (∑ i ∈ Finset.range N, x i) ^ 2 = ∑ i ∈ Finset.range N, ∑ j ∈ Finset.range N, x i * x j := by
    rw [sq, Finset.sum_mul_sum]
  have h2 : ∀ i ∈ Finset.range N, x i ^ 2 = ∑ j ∈ Finset.range N, if i = j then x i * x j else 0 := by
    intro i hi
    rw [Finset.sum_ite_eq, if_pos hi, sq]
  have h3 : ∑ i ∈ Finset.range N, ∑ j ∈ Finset.range N, (if i < j then x i * x j else 0) =
      ∑ i ∈ Finset.range N, ∑ j ∈ Finset.range N, (if j < i then x i * x j else 0) := by
    rw [Finset.sum_comm]
    refine Finset.sum_congr rfl fun i _ => Finset.sum_congr rfl fun j _ => ?_
    rw [mul_comm]
  rw [h1, Finset.sum_congr rfl h2, two_mul]
  nth_rw 2 [h3]
  rw [← Finset.sum_add_distrib, ← Finset.sum_add_distrib]
  refine Finset.sum_congr rfl fun i _ => ?_
  rw [← Finset.sum_add_distrib, ← Finset.sum_add_distrib]
  refine Finset.sum_congr rfl fun j _ => ?_
  rcases lt_trichotomy i j with h | h | h
  · rw [if_neg (by omega), if_pos h, if_neg (by omega)]; ring
  · rw [if_pos h, if_neg (by omega), if_neg (by omega)]; ring
  · rw [if_neg (by omega), if_neg (by omega), if_pos h]; ring

/-- the doublon number plus the uniform Jastrow sum depends on the particle number only -/
theorem gj_const {N : Nat} {n0 n1 : Nat → Int} (hb : Bin01 N n0 n1) :
    2 * (numD N n0 n1 + ∑ i ∈ Finset.range N, ∑ j ∈ Finset.range N, if i < j then (n0 i + n1 i - 1) * (n0 j + n1 j - 1) else 0) =
      (∑ r ∈ Finset.range N, (n0 r + n1 r - 1)) ^ 2 + ∑ r ∈ Finset.range N, (n0 r + n1 r - 1) := by
  rw [sum_sq_pairs]
  have h : 2 * numD N n0 n1 = ∑ i ∈ Finset.range N, (n0 i + n1 i - 1) ^ 2 + ∑ r ∈ Finset.range N, (n0 r + n1 r - 1) := by
    unfold numD
    rw [Finset.mul_sum, ← Finset.sum_add_distrib]
    refine Finset.sum_congr rfl fun r hr => ?_
    obtain ⟨h0, h1⟩ := hb r (Finset.mem_range.mp hr)
    rcases h0 with h0 | h0 <;> rcases h1 with h1 | h1 <;> simp [h0, h1]
  linear_combination h

/-- the change of the exponent when the four blocks are shifted as in `SyncModifiedParameter` -/
theorem logCorr_shift {N NG NJ N2 N4 : Nat} {gIdx : Nat → Nat} {jIdx : Nat → Nat → Nat} {nb2 nb4 : Nat → Nat → List Nat}
    (hg : ∀ r < N, gIdx r < NG) (σ : ℝ) (hj : σ = 0 ∨ ∀ a < N, ∀ b < N, a ≠ b → jIdx a b < NJ)
    (h2 : ∀ t r, (nb2 t r).length < 3) (h4 : ∀ t r, (nb4 t r).length < 5)
    (g v : Nat → ℝ) (a2 a4 : Nat → Nat → Nat → ℝ) (s2 s4 : Nat → Nat → ℝ) {n0 n1 : Nat → Int} (hb : Bin01 N n0 n1) :
    logCorr N NG NJ N2 N4 gIdx jIdx nb2 nb4
      (fun i => g i + ((∑ d ∈ Finset.range 2, ∑ t ∈ Finset.range N2, s2 t d) + ∑ d ∈ Finset.range 2, ∑ t ∈ Finset.range N4, s4 t d) - σ)
      (fun i => v i - σ) (fun t d m => a2 t d m - s2 t d) (fun t d m => a4 t d m - s4 t d) n0 n1
    = logCorr N NG NJ N2 N4 gIdx jIdx nb2 nb4 g v a2 a4 n0 n1
      + (((∑ r ∈ Finset.range N, (n0 r + n1 r - 1) : Int) : ℝ)
          * ((∑ t ∈ Finset.range N2, s2 t 0) + ∑ t ∈ Finset.range N4, s4 t 0)
        - σ * ((((∑ r ∈ Finset.range N, (n0 r + n1 r - 1) : Int) : ℝ) ^ 2 + ((∑ r ∈ Finset.range N, (n0 r + n1 r - 1) : Int) : ℝ)) / 2)) := by
  have hG : ∑ i ∈ Finset.range NG, (gutzCount N gIdx n0 n1 i : ℝ) = (numD N n0 n1 : ℝ) := by
    rw [← gutzCount_total N NG gIdx n0 n1 hg]; push_cast; rfl
  have hDH : ∀ (M L : Nat) (nb : Nat → Nat → List Nat) (a : Nat → Nat → Nat → ℝ) (s : Nat → Nat → ℝ), (∀ t r, (nb t r).length < L) →
      ∑ m ∈ Finset.range L, ∑ d ∈ Finset.range 2, ∑ t ∈ Finset.range M, (a t d m - s t d) * (dhCount N (nb t) n0 n1 (d == 1) m : ℝ)
      = (∑ m ∈ Finset.range L, ∑ d ∈ Finset.range 2, ∑ t ∈ Finset.range M, a t d m * (dhCount N (nb t) n0 n1 (d == 1) m : ℝ))
        - ((∑ t ∈ Finset.range M, s t 0) * (numH N n0 n1 : ℝ) + (∑ t ∈ Finset.range M, s t 1) * (numD N n0 n1 : ℝ)) := by
    intro M L nb a s hL
    have e : ∀ m d t, (a t d m - s t d) * (dhCount N (nb t) n0 n1 (d == 1) m : ℝ)
        = a t d m * (dhCount N (nb t) n0 n1 (d == 1) m : ℝ) - s t d * (dhCount N (nb t) n0 n1 (d == 1) m : ℝ) := fun _ _ _ => by ring
    simp only [e, Finset.sum_sub_distrib]
    congr 1
    rw [Finset.sum_comm]
    have e2 : ∀ d, ∑ m ∈ Finset.range L, ∑ t ∈ Finset.range M, s t d * (dhCount N (nb t) n0 n1 (d == 1) m : ℝ)
        = (∑ t ∈ Finset.range M, s t d) * ((if (d == 1) = true then numD N n0 n1 else numH N n0 n1 : Int) : ℝ) := by
      intro d
      rw [Finset.sum_comm, Finset.sum_mul]
      refine Finset.sum_congr rfl fun t _ => ?_
      rw [← Finset.mul_sum, ← dhCount_total hb (nb t) (d == 1) L (fun r _ => hL t r)]
      push_cast; rfl
    simp only [e2, Finset.sum_range_succ, Finset.sum_range_zero, zero_add]
    norm_num
  unfold logCorr
  rw [hDH N2 3 nb2 a2 s2 h2, hDH N4 5 nb4 a4 s4 h4]
  have eG : ∀ (x : ℝ), ∑ i ∈ Finset.range NG, (g i + x - σ) * (gutzCount N gIdx n0 n1 i : ℝ)
      = (∑ i ∈ Finset.range NG, g i * (gutzCount N gIdx n0 n1 i : ℝ)) + (x - σ) * (numD N n0 n1 : ℝ) := by
    intro x
    rw [← hG, Finset.mul_sum, ← Finset.sum_add_distrib]
    exact Finset.sum_congr rfl fun i _ => by ring
  rw [eG]
  have eJ : ∑ i ∈ Finset.range NJ, (v i - σ) * (jastCount N jIdx n0 n1 i : ℝ)
      = (∑ i ∈ Finset.range NJ, v i * (jastCount N jIdx n0 n1 i : ℝ)) - σ * ((∑ i ∈ Finset.range NJ, jastCount N jIdx n0 n1 i : Int) : ℝ) := by
    push_cast
    rw [Finset.mul_sum, ← Finset.sum_sub_distrib]
    exact Finset.sum_congr rfl fun i _ => by ring
  rw [eJ]
  have hc : (numD N n0 n1 : ℝ) - (numH N n0 n1 : ℝ) = ((∑ r ∈ Finset.range N, (n0 r + n1 r - 1) : Int) : ℝ) := by
    rw [← numD_sub_numH]; push_cast; rfl
  have hσ : σ * ((numD N n0 n1 : ℝ) + ((∑ i ∈ Finset.range NJ, jastCount N jIdx n0 n1 i : Int) : ℝ)) =
      σ * ((((∑ r ∈ Finset.range N, (n0 r + n1 r - 1) : Int) : ℝ) ^ 2 + ((∑ r ∈ Finset.range N, (n0 r + n1 r - 1) : Int) : ℝ)) / 2) := by
    rcases hj with hj | hj
    · rw [hj]; ring
    · rw [jastCount_total N NJ jIdx n0 n1 hj]
      have := congrArg (fun z : Int => (z : ℝ)) (gj_const hb)
      push_cast at this ⊢
      rw [← this]; ring
  simp only [Finset.sum_range_succ (n := 1), Finset.sum_range_succ (n := 0), Finset.sum_range_zero, zero_add]
  rw [← hc] at hσ ⊢
  linear_combination -hσ

/-! ## the model: what the loops compute -/

theorem subAll_val (s : ℝ) : ∀ (ns : List Nat) (a : Nat → ℂ) (k : Nat), ns.Nodup →
    subAll a ns s k = if k ∈ ns then a k - (s : ℂ) else a k
  | [], a, k, _ => by simp [subAll]
  | n :: ns, a, k, h => by
    have h2 := List.nodup_cons.mp h
    unfold subAll
    rw [List.foldl_cons]
    have := subAll_val s ns (fun k => if k = n then a k - (s : ℂ) else a k) k h2.2
    unfold subAll at this
    rw [this]
    by_cases hk : k = n
    · subst hk
      simp [h2.1]
    · simp [hk]

theorem foldSet_val (f : ℂ → ℂ) (a : Nat → ℂ) (k : Nat) : ∀ n,
    (List.range n).foldl (fun a i => fun k => if k = i then f (a k) else a k) a k = if k < n then f (a k) else a k
  | 0 => by simp
  | n + 1 => by
    rw [List.range_succ, List.foldl_append, List.foldl_cons, List.foldl_nil]
    have := foldSet_val f a k n
    by_cases h : k = n
    · rw [if_pos h, this, if_neg (by omega), if_pos (by omega)]
    · rw [if_neg h, this]
      by_cases h2 : k < n
      · rw [if_pos h2, if_pos (by omega)]
      · rw [if_neg h2, if_neg (by omega)]

/-- a loop of group shifts: disjoint groups `off + xn + j*M`, `j < L` -/
theorem shift_loop (off M L : Nat) (sh : (Nat → ℂ) → Nat → ℝ) (step : ℝ × (Nat → ℂ) → Nat → ℝ × (Nat → ℂ))
    (hstep : ∀ st xn, xn < M → (step st xn).1 = st.1 + sh st.2 xn ∧
      ∀ k, (step st xn).2 k = if ∃ j < L, k = off + xn + j * M then st.2 k - (sh st.2 xn : ℂ) else st.2 k)
    (hsh : ∀ a b xn, xn < M → (∀ j < L, a (off + xn + j * M) = b (off + xn + j * M)) → sh a xn = sh b xn) (P : Nat → ℂ) :
    ∀ X, X ≤ M → ((List.range X).foldl step (0, P)).1 = ∑ x ∈ Finset.range X, sh P x ∧
      (∀ x < M, ∀ j < L, ((List.range X).foldl step (0, P)).2 (off + x + j * M) =
        if x < X then P (off + x + j * M) - (sh P x : ℂ) else P (off + x + j * M)) ∧
      (∀ k, (k < off ∨ off + L * M ≤ k) → ((List.range X).foldl step (0, P)).2 k = P k)
  | 0, _ => ⟨by simp, fun x _ j _ => by simp, fun k _ => rfl⟩
  | X + 1, hX => by
    obtain ⟨h1, h2, h3⟩ := shift_loop off M L sh step hstep hsh P X (by omega)
    rw [List.range_succ, List.foldl_append, List.foldl_cons, List.foldl_nil]
    obtain ⟨s1, s2⟩ := hstep ((List.range X).foldl step (0, P)) X (by omega)
    have hs : sh ((List.range X).foldl step (0, P)).2 X = sh P X :=
      hsh _ _ X (by omega) fun j hj => by rw [h2 X (by omega) j hj, if_neg (by omega)]
    refine ⟨by rw [s1, h1, hs, Finset.sum_range_succ], fun x hx j hj => ?_, fun k hk => ?_⟩
    · rw [s2, hs, h2 x hx j hj]
      by_cases hxX : x = X
      · subst hxX
        rw [if_pos ⟨j, hj, rfl⟩, if_neg (by omega), if_pos (by omega)]
      · rw [if_neg]
        · by_cases h : x < X
          · rw [if_pos h, if_pos (by omega)]
          · rw [if_neg h, if_neg (by omega)]
        · rintro ⟨j', hj', e⟩
          have e' : x + j * M = X + j' * M := by omega
          have := congrArg (· % M) e'
          simp only [Nat.add_mul_mod_self_right] at this
          rw [Nat.mod_eq_of_lt hx, Nat.mod_eq_of_lt (by omega)] at this
          exact hxX this
    · rw [s2, hs, h3 k hk, if_neg]
      rintro ⟨j', hj', e⟩
      have : (j' + 1) * M ≤ L * M := Nat.mul_le_mul_right M hj'
      have e3 : (j' + 1) * M = j' * M + M := by ring
      omega

/-- the mean that is subtracted from group `xn` -/
noncomputable def mean3 (q : ProjPar) (P : Nat → ℂ) (xn : Nat) : ℝ :=
  ((P (q.NG + q.NJ + xn)).re + (P (q.NG + q.NJ + xn + 2 * q.N2)).re + (P (q.NG + q.NJ + xn + 4 * q.N2)).re) / 3

noncomputable def mean5 (q : ProjPar) (P : Nat → ℂ) (xn : Nat) : ℝ :=
  ((P (q.NG + q.NJ + 6 * q.N2 + xn)).re + (P (q.NG + q.NJ + 6 * q.N2 + xn + 2 * q.N4)).re + (P (q.NG + q.NJ + 6 * q.N2 + xn + 4 * q.N4)).re
    + (P (q.NG + q.NJ + 6 * q.N2 + xn + 6 * q.N4)).re + (P (q.NG + q.NJ + 6 * q.N2 + xn + 8 * q.N4)).re) / 5

theorem shiftDH2_val (q : ProjPar) (P : Nat → ℂ) :
    (shiftDH2 q P).1 = ∑ x ∈ Finset.range (2 * q.N2), mean3 q P x ∧
    (∀ x < 2 * q.N2, ∀ j < 3, (shiftDH2 q P).2 (q.NG + q.NJ + x + j * (2 * q.N2)) =
      P (q.NG + q.NJ + x + j * (2 * q.N2)) - (mean3 q P x : ℂ)) ∧
    (∀ k, (k < q.NG + q.NJ ∨ q.NG + q.NJ + 6 * q.N2 ≤ k) → (shiftDH2 q P).2 k = P k) := by
  unfold shiftDH2
  by_cases h0 : q.N2 = 0
  · rw [if_pos h0, h0]
    exact ⟨by simp, fun x hx => by omega, fun k _ => rfl⟩
  rw [if_neg h0]
  have H := shift_loop (q.NG + q.NJ) (2 * q.N2) 3 (mean3 q) (shiftDH2Step q) (fun st xn hx => by
      refine ⟨rfl, fun k => ?_⟩
      change subAll st.2 [q.NG + q.NJ + xn, q.NG + q.NJ + xn + 2 * q.N2, q.NG + q.NJ + xn + 4 * q.N2] (mean3 q st.2 xn) k = _
      rw [subAll_val]
      · congr 1
        simp only [List.mem_cons, List.not_mem_nil, or_false, eq_iff_iff]
        constructor
        · rintro (h | h | h)
          · exact ⟨0, by omega, by omega⟩
          · exact ⟨1, by omega, by omega⟩
          · exact ⟨2, by omega, by omega⟩
        · rintro ⟨j, hj, e⟩
          have : j = 0 ∨ j = 1 ∨ j = 2 := by omega
          rcases this with rfl | rfl | rfl <;> omega
      · simp only [List.nodup_cons, List.mem_cons, List.not_mem_nil, or_false, not_false_eq_true, List.nodup_nil, and_true]
        omega) (fun a b xn hx h => by
      unfold mean3
      have e0 := h 0 (by omega)
      have e1 := h 1 (by omega)
      have e2 := h 2 (by omega)
      rw [show q.NG + q.NJ + xn + 0 * (2 * q.N2) = q.NG + q.NJ + xn by ring] at e0
      rw [show q.NG + q.NJ + xn + 1 * (2 * q.N2) = q.NG + q.NJ + xn + 2 * q.N2 by ring] at e1
      rw [show q.NG + q.NJ + xn + 2 * (2 * q.N2) = q.NG + q.NJ + xn + 4 * q.N2 by ring] at e2
      rw [e0, e1, e2]) P (2 * q.N2) le_rfl
  refine ⟨H.1, fun x hx j hj => ?_, fun k hk => H.2.2 k (by omega)⟩
  rw [H.2.1 x hx j hj, if_pos hx]

theorem shiftDH4_val (q : ProjPar) (P : Nat → ℂ) :
    (shiftDH4 q P).1 = ∑ x ∈ Finset.range (2 * q.N4), mean5 q P x ∧
    (∀ x < 2 * q.N4, ∀ j < 5, (shiftDH4 q P).2 (q.NG + q.NJ + 6 * q.N2 + x + j * (2 * q.N4)) =
      P (q.NG + q.NJ + 6 * q.N2 + x + j * (2 * q.N4)) - (mean5 q P x : ℂ)) ∧
    (∀ k, (k < q.NG + q.NJ + 6 * q.N2 ∨ q.NG + q.NJ + 6 * q.N2 + 10 * q.N4 ≤ k) → (shiftDH4 q P).2 k = P k) := by
  unfold shiftDH4
  by_cases h0 : q.N4 = 0
  · rw [if_pos h0, h0]
    exact ⟨by simp, fun x hx => by omega, fun k _ => rfl⟩
  rw [if_neg h0]
  have H := shift_loop (q.NG + q.NJ + 6 * q.N2) (2 * q.N4) 5 (mean5 q) (shiftDH4Step q) (fun st xn hx => by
      refine ⟨rfl, fun k => ?_⟩
      change subAll st.2 [q.NG + q.NJ + 6 * q.N2 + xn, q.NG + q.NJ + 6 * q.N2 + xn + 2 * q.N4, q.NG + q.NJ + 6 * q.N2 + xn + 4 * q.N4,
        q.NG + q.NJ + 6 * q.N2 + xn + 6 * q.N4, q.NG + q.NJ + 6 * q.N2 + xn + 8 * q.N4] (mean5 q st.2 xn) k = _
      rw [subAll_val]
      · congr 1
        simp only [List.mem_cons, List.not_mem_nil, or_false, eq_iff_iff]
        constructor
        · rintro (h | h | h | h | h)
          · exact ⟨0, by omega, by omega⟩
          · exact ⟨1, by omega, by omega⟩
          · exact ⟨2, by omega, by omega⟩
          · exact ⟨3, by omega, by omega⟩
          · exact ⟨4, by omega, by omega⟩
        · rintro ⟨j, hj, e⟩
          have : j = 0 ∨ j = 1 ∨ j = 2 ∨ j = 3 ∨ j = 4 := by omega
          rcases this with rfl | rfl | rfl | rfl | rfl <;> omega
      · simp only [List.nodup_cons, List.mem_cons, List.not_mem_nil, or_false, not_false_eq_true, List.nodup_nil, and_true]
        omega) (fun a b xn hx h => by
      unfold mean5
      have e0 := h 0 (by omega)
      have e1 := h 1 (by omega)
      have e2 := h 2 (by omega)
      have e3 := h 3 (by omega)
      have e4 := h 4 (by omega)
      generalize q.NG + q.NJ + 6 * q.N2 = o at *
      rw [show o + xn + 0 * (2 * q.N4) = o + xn by ring] at e0
      rw [show o + xn + 1 * (2 * q.N4) = o + xn + 2 * q.N4 by ring] at e1
      rw [show o + xn + 2 * (2 * q.N4) = o + xn + 4 * q.N4 by ring] at e2
      rw [show o + xn + 3 * (2 * q.N4) = o + xn + 6 * q.N4 by ring] at e3
      rw [show o + xn + 4 * (2 * q.N4) = o + xn + 8 * q.N4 by ring] at e4
      rw [e0, e1, e2, e3, e4]) P (2 * q.N4) le_rfl
  refine ⟨H.1, fun x hx j hj => ?_, fun k hk => H.2.2 k (by omega)⟩
  rw [H.2.1 x hx j hj, if_pos hx]

/-- the mean subtracted by `shiftGJ` -/
noncomputable def meanGJ (q : ProjPar) (P : Nat → ℂ) : ℝ :=
  (∑ i ∈ Finset.range (q.NG + q.NJ), (P i).re) / ((q.NG + q.NJ : Nat) : ℝ)

theorem shiftGJ_val {q : ProjPar} (hG : q.NG ≠ 0) (hJ : q.NJ ≠ 0) (P : Nat → ℂ) (k : Nat) :
    shiftGJ q P k = if k < q.NG + q.NJ then P k - (meanGJ q P : ℂ) else P k := by
  unfold shiftGJ
  rw [if_neg (by omega)]
  rw [subAll_val _ _ _ _ List.nodup_range]
  simp only [List.mem_range]
  have h : (List.range (q.NG + q.NJ)).foldl (fun s i => s + (P i).re) 0 = ∑ i ∈ Finset.range (q.NG + q.NJ), (P i).re := by
    generalize q.NG + q.NJ = n
    induction n with
    | zero => rfl
    | succ n ih => rw [List.range_succ, List.foldl_append, ih, Finset.sum_range_succ]; rfl
  rw [h]
  rfl

theorem sum_two_blocks (f : Nat → ℝ) (N : Nat) :
    ∑ x ∈ Finset.range (2 * N), f x = ∑ d ∈ Finset.range 2, ∑ t ∈ Finset.range N, f (t + d * N) := by
  rw [two_mul, Finset.sum_range_add]
  simp only [Finset.sum_range_succ (n := 1), Finset.sum_range_succ (n := 0), Finset.sum_range_zero, zero_add, zero_mul, add_zero, one_mul]
  congr 1
  exact Finset.sum_congr rfl fun t _ => by rw [add_comm]

/-- the shifts of one call -/
noncomputable def syS2 (q : ProjPar) (f : ShiftFlags) (P : Nat → ℂ) (t d : Nat) : ℝ := if f.dh2 then mean3 q P (t + d * q.N2) else 0
noncomputable def syS4 (q : ProjPar) (f : ShiftFlags) (P : Nat → ℂ) (t d : Nat) : ℝ := if f.dh4 then mean5 q P (t + d * q.N4) else 0
noncomputable def syG (q : ProjPar) (f : ShiftFlags) (P : Nat → ℂ) : ℝ :=
  (∑ d ∈ Finset.range 2, ∑ t ∈ Finset.range q.N2, syS2 q f P t d) + ∑ d ∈ Finset.range 2, ∑ t ∈ Finset.range q.N4, syS4 q f P t d
noncomputable def syσ (q : ProjPar) (f : ShiftFlags) (P : Nat → ℂ) : ℝ :=
  if f.gj then meanGJ q (fun k => if k < q.NG then P k + (syG q f P : ℂ) else P k) else 0

theorem dh_index {N t d m : Nat} (ht : t < N) (hd : d < 2) (o : Nat) :
    o + (t + (d + 2 * m) * N) = o + (t + d * N) + m * (2 * N) ∧ t + d * N < 2 * N := by
  constructor
  · ring
  · have : d * N ≤ 1 * N := Nat.mul_le_mul_right N (by omega)
    omega

theorem syncProj_val (q : ProjPar) (f : ShiftFlags) (P : Nat → ℂ) (hj : f.gj = true → q.NG ≠ 0 ∧ q.NJ ≠ 0) :
    (∀ k < q.NG, syncProj q f P k = P k + (syG q f P : ℂ) - (syσ q f P : ℂ)) ∧
    (∀ k < q.NJ, syncProj q f P (q.NG + k) = P (q.NG + k) - (syσ q f P : ℂ)) ∧
    (∀ t < q.N2, ∀ d < 2, ∀ m < 3, syncProj q f P (q.NG + q.NJ + (t + (d + 2 * m) * q.N2)) =
      P (q.NG + q.NJ + (t + (d + 2 * m) * q.N2)) - (syS2 q f P t d : ℂ)) ∧
    (∀ t < q.N4, ∀ d < 2, ∀ m < 5, syncProj q f P (q.NG + q.NJ + 6 * q.N2 + (t + (d + 2 * m) * q.N4)) =
      P (q.NG + q.NJ + 6 * q.N2 + (t + (d + 2 * m) * q.N4)) - (syS4 q f P t d : ℂ)) ∧
    (∀ k, q.NProj ≤ k → syncProj q f P k = P k) := by
  -- after the doublon-holon shifts
  obtain ⟨r2, hr2⟩ : ∃ r, (if f.dh2 then shiftDH2 q P else (0, P)) = r := ⟨_, rfl⟩
  obtain ⟨r4, hr4⟩ : ∃ r, (if f.dh4 then shiftDH4 q r2.2 else (0, r2.2)) = r := ⟨_, rfl⟩
  have V2 := shiftDH2_val q P
  have a1 : r2.1 = ∑ d ∈ Finset.range 2, ∑ t ∈ Finset.range q.N2, syS2 q f P t d := by
    rw [← hr2]
    unfold syS2
    cases f.dh2
    · simp
    · simp only [if_true]; rw [V2.1, sum_two_blocks]
  have a2 : ∀ t < q.N2, ∀ d < 2, ∀ m < 3, r2.2 (q.NG + q.NJ + (t + (d + 2 * m) * q.N2)) =
      P (q.NG + q.NJ + (t + (d + 2 * m) * q.N2)) - (syS2 q f P t d : ℂ) := by
    intro t ht d hd m hm
    rw [← hr2]
    unfold syS2
    obtain ⟨e1, e2⟩ := dh_index (m := m) ht hd (q.NG + q.NJ)
    cases f.dh2
    · simp
    · simp only [if_true]; rw [e1, V2.2.1 _ e2 m hm]
  have a3 : ∀ k, (k < q.NG + q.NJ ∨ q.NG + q.NJ + 6 * q.N2 ≤ k) → r2.2 k = P k := by
    intro k hk
    rw [← hr2]
    cases f.dh2
    · rfl
    · simp only [if_true]; exact V2.2.2 k hk
  have V4 := shiftDH4_val q r2.2
  have hm5 : ∀ x, mean5 q r2.2 x = mean5 q P x := by
    intro x
    unfold mean5
    rw [a3 _ (by omega), a3 _ (by omega), a3 _ (by omega), a3 _ (by omega), a3 _ (by omega)]
  simp only [hm5] at V4
  have b1 : r4.1 = ∑ d ∈ Finset.range 2, ∑ t ∈ Finset.range q.N4, syS4 q f P t d := by
    rw [← hr4]
    unfold syS4
    cases f.dh4
    · simp
    · simp only [if_true]; rw [V4.1, sum_two_blocks]
  have b2 : ∀ t < q.N4, ∀ d < 2, ∀ m < 5, r4.2 (q.NG + q.NJ + 6 * q.N2 + (t + (d + 2 * m) * q.N4)) =
      P (q.NG + q.NJ + 6 * q.N2 + (t + (d + 2 * m) * q.N4)) - (syS4 q f P t d : ℂ) := by
    intro t ht d hd m hm
    rw [← hr4]
    unfold syS4
    obtain ⟨e1, e2⟩ := dh_index (m := m) ht hd (q.NG + q.NJ + 6 * q.N2)
    cases f.dh4
    · simp only [Bool.false_eq_true, if_false]; rw [a3 _ (by omega)]; simp
    · simp only [if_true]; rw [e1, V4.2.1 _ e2 m hm, a3 _ (by omega)]
  have b3 : ∀ k, (k < q.NG + q.NJ + 6 * q.N2 ∨ q.NG + q.NJ + 6 * q.N2 + 10 * q.N4 ≤ k) → r4.2 k = r2.2 k := by
    intro k hk
    rw [← hr4]
    cases f.dh4
    · rfl
    · simp only [if_true]; exact V4.2.2 k hk
  have c1 : r2.1 + r4.1 = syG q f P := by rw [a1, b1]; rfl
  -- the Gutzwiller shift
  obtain ⟨P1, hP1⟩ : ∃ p, (List.range q.NG).foldl (fun a i => fun k => if k = i then a k + ((r2.1 + r4.1 : ℝ) : ℂ) else a k) r4.2 = p := ⟨_, rfl⟩
  have v1 : ∀ k, P1 k = if k < q.NG then r4.2 k + (syG q f P : ℂ) else r4.2 k := by
    intro k
    rw [← hP1, foldSet_val (fun z => z + ((r2.1 + r4.1 : ℝ) : ℂ)), c1]
  have hs : syncProj q f P = if f.gj then shiftGJ q P1 else P1 := by
    unfold syncProj
    simp only [hr2, hr4, hP1]
  have hσ : ∀ k, syncProj q f P k = if k < q.NG + q.NJ then P1 k - (syσ q f P : ℂ) else P1 k := by
    intro k
    rw [hs]
    unfold syσ
    cases hgj : f.gj
    · simp
    · simp only [if_true]
      obtain ⟨hG, hJ⟩ := hj hgj
      rw [shiftGJ_val hG hJ]
      have : meanGJ q P1 = meanGJ q (fun k => if k < q.NG then P k + (syG q f P : ℂ) else P k) := by
        unfold meanGJ
        congr 1
        refine Finset.sum_congr rfl fun i hi => ?_
        have hi := Finset.mem_range.mp hi
        rw [v1, b3 i (by omega), a3 i (by omega)]
      rw [this]
  refine ⟨fun k hk => ?_, fun k hk => ?_, fun t ht d hd m hm => ?_, fun t ht d hd m hm => ?_, fun k hk => ?_⟩
  · rw [hσ, if_pos (by omega), v1, if_pos hk, b3 k (by omega), a3 k (by omega)]
  · rw [hσ, if_pos (by omega), v1, if_neg (by omega), b3 _ (by omega), a3 _ (by omega)]
  · obtain ⟨e1, e2⟩ := dh_index (m := m) ht hd (q.NG + q.NJ)
    have : m * (2 * q.N2) ≤ 2 * (2 * q.N2) := Nat.mul_le_mul_right _ (by omega)
    rw [hσ, if_neg (by omega), v1, if_neg (by omega), b3 _ (by omega), a2 t ht d hd m hm]
  · rw [hσ, if_neg (by omega), v1, if_neg (by omega), b2 t ht d hd m hm]
  · unfold ProjPar.NProj at hk
    rw [hσ, if_neg (by omega), v1, if_neg (by omega), b3 k (by omega), a3 k (by omega)]

/-- flags set by `SetFlagShift` -/
theorem allOne_iff (o : Nat → Int) (s l : Nat) : allOne o s l = true ↔ ∀ i < l, o (2 * (s + i)) = 1 := by
  unfold allOne
  simp [List.all_eq_true]

theorem setFlagShift_val (q : ProjPar) (o : Nat → Int) :
    ((setFlagShift q o).gj = true ↔ q.NG ≠ 0 ∧ q.NJ ≠ 0 ∧ (∀ i < q.NG, o (2 * i) = 1) ∧ ∀ i < q.NJ, o (2 * (q.NG + i)) = 1) ∧
    ((setFlagShift q o).dh2 = true ↔ q.NG ≠ 0 ∧ q.N2 ≠ 0 ∧ (∀ i < q.NG, o (2 * i) = 1) ∧ ∀ i < 6 * q.N2, o (2 * (q.NG + q.NJ + i)) = 1) ∧
    ((setFlagShift q o).dh4 = true ↔ q.NG ≠ 0 ∧ q.N4 ≠ 0 ∧ (∀ i < q.NG, o (2 * i) = 1) ∧
      ∀ i < 10 * q.N4, o (2 * (q.NG + q.NJ + 6 * q.N2 + i)) = 1) := by
  unfold setFlagShift
  by_cases hG : q.NG = 0
  · simp [hG]
  rw [if_neg hG]
  by_cases hO : allOne o 0 q.NG = true
  · have hO' := (allOne_iff o 0 q.NG).mp hO
    simp only [zero_add] at hO'
    have e1 : (if q.NJ > 0 then q.NG + q.NJ else q.NG) = q.NG + q.NJ := by split <;> omega
    have e2 : (if q.N2 > 0 then q.NG + q.NJ + 6 * q.N2 else q.NG + q.NJ) = q.NG + q.NJ + 6 * q.N2 := by split <;> omega
    simp only [hO, Bool.not_true, Bool.false_eq_true, if_false, e1, e2]
    refine ⟨?_, ?_, ?_⟩
    · by_cases h : q.NJ > 0
      · simp only [h, if_true, allOne_iff]
        exact ⟨fun x => ⟨hG, by omega, hO', x⟩, fun x => x.2.2.2⟩
      · simp only [h, if_false]
        exact ⟨fun x => (by cases x), fun x => absurd x.2.1 (by omega)⟩
    · by_cases h : q.N2 > 0
      · simp only [h, if_true, allOne_iff]
        exact ⟨fun x => ⟨hG, by omega, hO', x⟩, fun x => x.2.2.2⟩
      · simp only [h, if_false]
        exact ⟨fun x => (by cases x), fun x => absurd x.2.1 (by omega)⟩
    · by_cases h : q.N4 > 0
      · simp only [h, if_true, allOne_iff]
        exact ⟨fun x => ⟨hG, by omega, hO', x⟩, fun x => x.2.2.2⟩
      · simp only [h, if_false]
        exact ⟨fun x => (by cases x), fun x => absurd x.2.1 (by omega)⟩
  · have hn : ¬ ∀ i < q.NG, o (2 * i) = 1 := by
      intro h
      exact hO ((allOne_iff o 0 q.NG).mpr (by simpa using h))
    simp only [Bool.not_eq_true] at hO
    simp only [hO, Bool.not_false, if_true]
    refine ⟨⟨fun h => (by cases h), fun h => absurd h.2.2.1 hn⟩, ⟨fun h => (by cases h), fun h => absurd h.2.2.1 hn⟩,
      ⟨fun h => (by cases h), fun h => absurd h.2.2.1 hn⟩⟩

/-! ## rescaling -/

theorem maxAbs_spec (S : Nat → ℂ) : ∀ n, (∀ i < n, ‖S i‖ ≤ maxAbs S n) ∧ (∃ i, (i = 0 ∨ i < n) ∧ maxAbs S n = ‖S i‖)
  | 0 => ⟨fun i hi => by omega, 0, Or.inl rfl, rfl⟩
  | 1 => ⟨fun i hi => by
      have : i = 0 := by omega
      subst this
      exact le_rfl, 0, Or.inl rfl, rfl⟩
  | n + 2 => by
    have h1 := maxAbs_spec S (n + 1)
    have e : maxAbs S (n + 2) = if maxAbs S (n + 1) < ‖S (n + 1)‖ then ‖S (n + 1)‖ else maxAbs S (n + 1) := by
      unfold maxAbs
      simp only [Nat.add_sub_cancel, show n + 2 - 1 = n + 1 by omega]
      rw [List.range'_1_concat, List.foldl_append, List.foldl_cons, List.foldl_nil, add_comm 1 n]
    rw [e]
    obtain ⟨i0, hi0, e0⟩ := h1.2
    split_ifs with h
    · refine ⟨fun i hi => ?_, n + 1, Or.inr (by omega), rfl⟩
      by_cases hi' : i = n + 1
      · rw [hi']
      · exact le_trans (h1.1 i (by omega)) h.le
    · refine ⟨fun i hi => ?_, i0, by omega, e0⟩
      by_cases hi' : i = n + 1
      · rw [hi']; exact not_lt.mp h
      · exact h1.1 i (by omega)

theorem scaleAll_val (r : ℝ) (S : Nat → ℂ) (n k : Nat) : scaleAll r S n k = if k < n then S k * (r : ℂ) else S k := by
  unfold scaleAll
  rw [foldSet_val (fun z => z * (r : ℂ))]

/-! ## homogeneity of the Pfaffian -/

theorem pf_smul {α R : Type} [CommRing R] (c : R) (A : α → α → R) : ∀ (n : Nat) (l : List α), l.length ≤ n →
    pf (fun x y => c * A x y) l = c ^ (l.length / 2) * pf A l
  | _, [], _ => by simp [pf_nil]
  | 0, _ :: _, h => by simp at h
  | n + 1, x :: l, h => by
    rw [pf_cons, pf_cons, altSum_smul_left]
    rcases l with _ | ⟨y, l⟩
    · simp [altSum]
    · have hl : l.length + 1 ≤ n := by simpa using h
      rw [altSum_congr (G := fun m => c ^ (l.length / 2) * pf A m)]
      · rw [altSum_smul]
        simp only [List.length_cons]
        rw [show (l.length + 1 + 1) / 2 = l.length / 2 + 1 by omega, pow_succ]
        ring
      · intro m hm
        simp only [List.length_cons] at hm
        rw [pf_smul c A n m (by omega)]
        congr 3
        omega

end MVMC
