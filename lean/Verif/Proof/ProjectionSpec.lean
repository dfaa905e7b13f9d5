import Verif.Proof.Projection

/-! `MakeProjCnt` computes the counts of `Spec/Correlation.lean`. -/
namespace MVMC
open Spec Finset

theorem block_inj_base {B N xn yn c d : Nat} (hx : xn < N) (hy : yn < N)
    (h : B + (xn + c * N) = B + yn + d * N) : xn = yn :=
  (block_inj hx hy (show xn + c * N = yn + d * N by omega)).1

theorem make_gutz {p : ProjPar} (ht : TabOK p) {num : Arr} (hb : Bin p num) {g : Nat} (hg : g < p.NG) :
    makeProjCnt p num g = gutzCount p.Nsite p.gIdx (nUp num) (nDn p num) g := by
  rw [makeProjCnt_apply, jC_out ht num (by omega), d2C_out ht hb (by omega), d4C_out ht hb (by omega)]
  unfold gC gutzCount
  rw [if_pos (by omega)]
  simp only [add_zero]
  apply Finset.sum_congr rfl
  intro r _
  simp only [eq_comm]

theorem make_jast {p : ProjPar} (ht : TabOK p) {num : Arr} (hb : Bin p num) {v : Nat} (hv : v < p.NJ) :
    makeProjCnt p num (p.NG + v) = jastCount p.Nsite p.jIdx (nUp num) (nDn p num) v := by
  rw [makeProjCnt_apply, gC_out ht num (by omega), d2C_out ht hb (by omega), d4C_out ht hb (by omega)]
  unfold jC jastCount
  rw [if_pos (by omega)]
  simp only [add_zero, zero_add]
  apply Finset.sum_congr rfl
  intro i _
  apply Finset.sum_congr rfl
  intro j _
  by_cases h1 : i < j
  · by_cases h2 : p.jIdx i j = v
    · rw [if_pos h1, if_pos (by omega), if_pos ⟨h1, h2⟩]; rfl
    · rw [if_pos h1, if_neg (by omega), if_neg (by tauto)]
  · rw [if_neg h1, if_neg (by tauto)]

theorem filter_len (P : Nat → Prop) [DecidablePred P] (l : List Nat) :
    (l.filter (fun q => decide (P q))).length = (l.map (fun q => if P q then 1 else 0)).sum := by
  induction l with
  | nil => rfl
  | cons a l ih =>
    rw [List.filter_cons, List.map_cons, List.sum_cons, ← ih]
    by_cases h : P a
    · simp [h]; omega
    · simp [h]

theorem dhCount_sum (N : Nat) (nbr : Nat → List Nat) (n0 n1 : Nat → Int) (d : Bool) (m : Nat) :
    dhCount N nbr n0 n1 d m = ∑ r ∈ range N,
      if (if d then isDoublon n0 n1 r ∧ ((nbr r).map (fun q => if isHolon n0 n1 q then 1 else 0)).sum = m
        else isHolon n0 n1 r ∧ ((nbr r).map (fun q => if isDoublon n0 n1 q then 1 else 0)).sum = m)
      then (1 : Int) else 0 := by
  unfold dhCount
  rw [Finset.card_filter]
  push_cast
  apply Finset.sum_congr rfl
  intro r _
  rw [filter_len, filter_len]

theorem make_dh2 {p : ProjPar} (ht : TabOK p) {num : Arr} (hb : Bin p num) {xn m : Nat} (d : Bool)
    (hx : xn < p.N2) (hm : m < 3) :
    makeProjCnt p num (p.NG + p.NJ + (xn + ((if d then 1 else 0) + 2 * m) * p.N2)) =
      dhCount p.Nsite (fun r => [p.dh2 xn (2 * r), p.dh2 xn (2 * r + 1)]) (nUp num) (nDn p num) d m := by
  have hlt := block_lt (m := 6) hx (show (if d then 1 else 0) + 2 * m < 6 by split <;> omega)
  rw [makeProjCnt_apply, gC_out ht num (by omega), jC_out ht num (by omega), d4C_out ht hb (by omega),
    dhCount_sum]
  simp only [zero_add, add_zero]
  unfold d2C
  rw [Finset.sum_eq_single xn]
  · apply Finset.sum_congr rfl
    intro r hr
    have hr := Finset.mem_range.mp hr
    rw [dh2Site_eq ht hb hx hr]
    simp only [List.map_cons, List.map_nil, List.sum_cons, List.sum_nil]
    change _ = if (if d then _ ∧ (holI p num _ + (holI p num _ + 0) = m) else
      _ ∧ (dblI p num _ + (dblI p num _ + 0) = m)) then (1 : Int) else 0
    have key : ∀ c : Nat, (p.NG + p.NJ + (xn + ((if d then 1 else 0) + 2 * m) * p.N2) =
        p.NG + p.NJ + xn + c * p.N2) ↔ c = (if d then 1 else 0) + 2 * m := by
      intro c
      constructor
      · intro e
        exact (block_inj hx hx (show xn + c * p.N2 = xn + ((if d then 1 else 0) + 2 * m) * p.N2 by omega)).2
      · intro e; rw [e]; omega
    simp only [key]
    by_cases h1 : isHolon (nUp num) (nDn p num) r
    · have h2 : ¬ isDoublon (nUp num) (nDn p num) r := by
        unfold isHolon at h1; unfold isDoublon; omega
      cases d
      · simp only [h1, if_true, true_and, Bool.false_eq_true, if_false]
        congr 1; simp only [eq_iff_iff]; omega
      · simp only [h1, h2, if_true, false_and, if_false]
        rw [if_neg (by omega)]
    · by_cases h2 : isDoublon (nUp num) (nDn p num) r
      · cases d
        · simp only [h1, h2, if_false, if_true, false_and, Bool.false_eq_true]
          rw [if_neg (by omega)]
        · simp only [h1, h2, if_false, if_true, true_and]
          congr 1; simp only [eq_iff_iff]; omega
      · simp [h1, h2]
  · intro yn hy hne
    have hy := Finset.mem_range.mp hy
    apply Finset.sum_eq_zero
    intro r hr
    have hr := Finset.mem_range.mp hr
    rw [dh2Site_eq ht hb hy hr]
    split
    · rw [if_neg]
      intro e
      exact hne (block_inj_base hx hy e).symm
    · split
      · rw [if_neg]
        intro e
        exact hne (block_inj_base hx hy e).symm
      · rfl
  · intro h; exact absurd (Finset.mem_range.mpr hx) h

theorem make_dh4 {p : ProjPar} (ht : TabOK p) {num : Arr} (hb : Bin p num) {xn m : Nat} (d : Bool)
    (hx : xn < p.N4) (hm : m < 5) :
    makeProjCnt p num (p.NG + p.NJ + 6 * p.N2 + (xn + ((if d then 1 else 0) + 2 * m) * p.N4)) =
      dhCount p.Nsite (fun r => [p.dh4 xn (4 * r), p.dh4 xn (4 * r + 1), p.dh4 xn (4 * r + 2), p.dh4 xn (4 * r + 3)])
        (nUp num) (nDn p num) d m := by
  have hlt := block_lt (m := 10) hx (show (if d then 1 else 0) + 2 * m < 10 by split <;> omega)
  rw [makeProjCnt_apply, gC_out ht num (by omega), jC_out ht num (by omega), d2C_out ht hb (by omega),
    dhCount_sum]
  simp only [zero_add]
  unfold d4C
  rw [Finset.sum_eq_single xn]
  · apply Finset.sum_congr rfl
    intro r hr
    have hr := Finset.mem_range.mp hr
    rw [dh4Site_eq ht hb hx hr]
    simp only [List.map_cons, List.map_nil, List.sum_cons, List.sum_nil]
    change _ = if (if d then _ ∧ (holI p num _ + (holI p num _ + (holI p num _ + (holI p num _ + 0))) = m) else
      _ ∧ (dblI p num _ + (dblI p num _ + (dblI p num _ + (dblI p num _ + 0))) = m)) then (1 : Int) else 0
    have key : ∀ c : Nat, (p.NG + p.NJ + 6 * p.N2 + (xn + ((if d then 1 else 0) + 2 * m) * p.N4) =
        p.NG + p.NJ + 6 * p.N2 + xn + c * p.N4) ↔ c = (if d then 1 else 0) + 2 * m := by
      intro c
      constructor
      · intro e
        exact (block_inj hx hx (show xn + c * p.N4 = xn + ((if d then 1 else 0) + 2 * m) * p.N4 by omega)).2
      · intro e; rw [e]; omega
    simp only [key]
    by_cases h1 : isHolon (nUp num) (nDn p num) r
    · have h2 : ¬ isDoublon (nUp num) (nDn p num) r := by
        unfold isHolon at h1; unfold isDoublon; omega
      cases d
      · simp only [h1, if_true, true_and, Bool.false_eq_true, if_false]
        congr 1; simp only [eq_iff_iff]; omega
      · simp only [h1, h2, if_true, false_and, if_false]
        rw [if_neg (by omega)]
    · by_cases h2 : isDoublon (nUp num) (nDn p num) r
      · cases d
        · simp only [h1, h2, if_false, if_true, false_and, Bool.false_eq_true]
          rw [if_neg (by omega)]
        · simp only [h1, h2, if_false, if_true, true_and]
          congr 1; simp only [eq_iff_iff]; omega
      · simp [h1, h2]
  · intro yn hy hne
    have hy := Finset.mem_range.mp hy
    apply Finset.sum_eq_zero
    intro r hr
    have hr := Finset.mem_range.mp hr
    rw [dh4Site_eq ht hb hy hr]
    split
    · rw [if_neg]
      intro e
      exact hne (block_inj_base hx hy e).symm
    · split
      · rw [if_neg]
        intro e
        exact hne (block_inj_base hx hy e).symm
      · rfl
  · intro h; exact absurd (Finset.mem_range.mpr hx) h

end MVMC
