import Mathlib.Algebra.BigOperators.Group.Finset.Basic
import Mathlib.Algebra.BigOperators.Intervals
import Mathlib.Tactic.Ring
import Verif.Model.SplitLoop
import Verif.Spec.Tiling

namespace MVMC

/-- closed form of the start index -/
def splitStart (len r size : Nat) : Nat :=
  if size < len then (len / size) * r + (r - (size - len % size)) else min r len

theorem splitLoop_eq (len r size : Nat) (hr : r < size) :
    splitLoop len r size = (splitStart len r size, splitStart len (r+1) size) := by
  have hs : 0 < size := by omega
  have hm := Nat.mod_lt len hs
  have hdm := Nat.div_add_mod len size
  unfold splitLoop splitStart
  by_cases h : size < len
  · simp only [h, if_true]
    by_cases h0 : len % size = 0
    · simp only [h0, if_true, Nat.mul_add]
      have : r - (size - 0) = 0 := by omega
      have : r + 1 - (size - 0) = 0 := by omega
      ext <;> simp <;> omega
    · simp only [h0, if_false]
      have hd : (len - len % size) / size = len / size := by
        have : len - len % size = size * (len / size) := by omega
        rw [this, Nat.mul_div_cancel_left _ hs]
      rw [hd]
      simp only [Nat.mul_add]
      split <;> ext <;> simp <;> omega
  · simp only [h, if_false]
    split <;> ext <;> simp <;> omega

theorem splitStart_zero (len size : Nat) : splitStart len 0 size = 0 := by
  unfold splitStart; split <;> simp

theorem splitStart_size (len size : Nat) (hs : 0 < size) : splitStart len size size = len := by
  have hm := Nat.mod_lt len hs
  have hdm := Nat.div_add_mod len size
  unfold splitStart
  split
  · rw [Nat.mul_comm]; omega
  · omega

theorem splitStart_mono (len size : Nat) : Monotone (fun r => splitStart len r size) := by
  apply monotone_nat_of_le_succ
  intro r
  unfold splitStart
  simp only [Nat.mul_add]
  split <;> omega

theorem splitStart_step (len size : Nat) :
    ∃ q, ∀ r, splitStart len r size + q ≤ splitStart len (r+1) size ∧
      splitStart len (r+1) size ≤ splitStart len r size + q + 1 := by
  unfold splitStart
  by_cases h : size < len
  · refine ⟨len / size, fun r => ?_⟩
    simp only [h, if_true, Nat.mul_add]; omega
  · refine ⟨0, fun r => ?_⟩
    simp only [h, if_false]; omega

/-- existence of the cell containing `i` in a monotone subdivision -/
theorem exists_cell (g : Nat → Nat) (n i : Nat) (h0 : g 0 ≤ i) (hn : i < g n) :
    ∃ r, r < n ∧ g r ≤ i ∧ i < g (r+1) := by
  induction n with
  | zero => omega
  | succ n ih =>
    by_cases h : i < g n
    · obtain ⟨r, hr, h1⟩ := ih h
      exact ⟨r, by omega, h1⟩
    · exact ⟨n, by omega, by omega, hn⟩

theorem cell_unique (g : Nat → Nat) (hg : Monotone g) (i r r' : Nat)
    (h1 : g r ≤ i) (h2 : i < g (r+1)) (h1' : g r' ≤ i) (h2' : i < g (r'+1)) : r' = r := by
  rcases Nat.lt_trichotomy r r' with h | h | h
  · have := hg (show r+1 ≤ r' by omega); omega
  · exact h.symm
  · have := hg (show r'+1 ≤ r by omega); omega

theorem tiles_exactlyOne {f : Nat → Nat × Nat} {g : Nat → Nat} {n len : Nat}
    (hf : ∀ r, r < n → f r = (g r, g (r+1))) (hg : Monotone g) (h0 : g 0 = 0) (hn : g n = len) :
    Spec.ExactlyOneOwner f n len := by
  constructor
  · intro i hi
    obtain ⟨r, hr, h1, h2⟩ := exists_cell g n i (by omega) (by omega)
    refine ⟨r, ⟨hr, by rw [hf r hr]; exact h1, by rw [hf r hr]; exact h2⟩, ?_⟩
    rintro r' ⟨hr', h1', h2'⟩
    rw [hf r' hr'] at h1' h2'
    exact cell_unique g hg i r r' h1 h2 h1' h2'
  · intro r i hr h1 h2
    rw [hf r hr] at h2
    have := hg (show r+1 ≤ n by omega)
    simp only at h2; omega

theorem foldl_add_eq_sum {α : Type} [AddCommMonoid α] (f : Nat → α) (l : List Nat) (a : α) :
    l.foldl (fun acc i => acc + f i) a = a + (l.map f).sum := by
  induction l generalizing a with
  | nil => simp
  | cons x l ih => simp [ih, add_assoc]

theorem ownShare_eq {α : Type} [AddCommMonoid α] (f : Nat → α) (a b : Nat) :
    ownShare f (a, b) = ∑ i ∈ Finset.Ico a b, f i := by
  unfold ownShare
  rw [foldl_add_eq_sum, zero_add]
  rw [Finset.sum_Ico_eq_sum_range]
  simp only
  generalize b - a = n
  induction n generalizing a with
  | zero => simp
  | succ n ih =>
    rw [List.range'_succ, List.map_cons, List.sum_cons, ih, Finset.sum_range_succ', add_comm]
    simp [add_comm, add_left_comm]

theorem sum_cells {α : Type} [AddCommMonoid α] (f : Nat → α) (g : Nat → Nat) (hg : Monotone g)
    (n : Nat) : ((List.range n).map (fun r => ∑ i ∈ Finset.Ico (g r) (g (r+1)), f i)).sum
      = ∑ i ∈ Finset.Ico (g 0) (g n), f i := by
  induction n with
  | zero => simp
  | succ n ih =>
    rw [List.range_succ, List.map_append, List.sum_append, ih]
    simp only [List.map_cons, List.map_nil, List.sum_cons, List.sum_nil, add_zero]
    exact Finset.sum_Ico_consecutive f (hg (Nat.zero_le n)) (hg (Nat.le_succ n))

theorem list_range_map_sum {α : Type} [AddCommMonoid α] (f : Nat → α) (n : Nat) :
    ((List.range n).map f).sum = ∑ i ∈ Finset.range n, f i := by
  induction n with
  | zero => simp
  | succ n ih => rw [List.range_succ, Finset.sum_range_succ, ← ih]; simp

theorem localIP_eq {α : Type} [Semiring α] (w pf : Nat → α) (a b : Nat) :
    localIP w pf (a, b) = ∑ i ∈ Finset.Ico a b, w i * pf (i - a) := by
  unfold localIP
  rw [foldl_add_eq_sum (fun q => w (q + (a, b).1) * pf q), zero_add, Finset.sum_Ico_eq_sum_range,
    list_range_map_sum]
  apply Finset.sum_congr rfl
  intro i _
  simp [Nat.add_comm]

end MVMC
