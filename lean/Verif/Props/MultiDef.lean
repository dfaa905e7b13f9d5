import Mathlib.Data.Finset.Card
import Mathlib.Order.Interval.Finset.Nat
import Verif.Proof.MultiDef

/-! # C03: rank groups in multi-definition mode -/
namespace MVMC

/-- the members of group `g` among the ranks `0..size-1` -/
def members (size n g : Nat) : Finset Nat :=
  (Finset.range size).filter (fun r => multiDefGroup size r n = .group g)

/-- C03: with `1 ≤ n ≤ size` every rank gets a group number in `0..n-1`. -/
theorem C03_group_in_range (size n r : Nat) (hn : 0 < n) (hns : n ≤ size) (hr : r < size) :
    ∃ g : Nat, g < n ∧ multiDefGroup size r n = .group g := by
  refine ⟨groupNat size n r, ?_, multiDefGroup_eq size n r hn hns⟩
  have h := (groupNat_iff size n r (groupNat size n r) hn hns).mp rfl
  by_contra hge
  have h1 := groupStart_mono size n (show n ≤ groupNat size n r by omega)
  rw [groupStart_last size n hn] at h1
  omega

/-- C03: group numbers are non-decreasing in the rank. -/
theorem C03_group_monotone (size n r r' g g' : Nat) (hn : 0 < n) (hns : n ≤ size)
    (hrr : r ≤ r') (h : multiDefGroup size r n = .group g)
    (h' : multiDefGroup size r' n = .group g') : g ≤ g' := by
  rw [multiDefGroup_eq size n _ hn hns] at h h'
  injection h with h; injection h' with h'
  have h := Int.ofNat.inj h
  have h' := Int.ofNat.inj h'
  rw [groupNat_iff size n _ _ hn hns] at h h'
  by_contra hlt
  have := groupStart_mono size n (show g' + 1 ≤ g by omega)
  omega

theorem members_eq (size n g : Nat) (hn : 0 < n) (hns : n ≤ size) (hg : g < n) :
    members size n g = Finset.Ico (groupStart size n g) (groupStart size n (g+1)) := by
  ext r
  simp only [members, Finset.mem_filter, Finset.mem_range, Finset.mem_Ico]
  rw [multiDefGroup_eq size n r hn hns]
  have e : (GroupOutcome.group (groupNat size n r : Int) = .group (g:Int)) ↔ groupNat size n r = g := by
    constructor
    · intro h; injection h with h; exact Int.ofNat.inj h
    · intro h; rw [h]
  rw [e, groupNat_iff size n r g hn hns]
  have := groupStart_mono size n (show g+1 ≤ n by omega)
  rw [groupStart_last size n hn] at this
  constructor
  · exact fun h => h.2
  · exact fun h => ⟨by omega, h⟩

/-- C03: no group is empty and every group has `size/n` or `size/n+1` members. -/
theorem C03_group_sizes (size n g : Nat) (hn : 0 < n) (hns : n ≤ size) (hg : g < n) :
    0 < (members size n g).card ∧
    size / n ≤ (members size n g).card ∧ (members size n g).card ≤ size / n + 1 := by
  rw [members_eq size n g hn hns hg, Nat.card_Ico, groupStart_step]
  have hd : 0 < size / n := Nat.div_pos hns hn
  split <;> omega

/-- C03 fails for the option value 0: every rank divides by zero. -/
theorem C03_option_zero_divides_by_zero (size rank : Nat) :
    multiDefGroup size rank 0 = .divByZero := by
  unfold multiDefGroup; simp

/-- C03 fails for negative option values too: a negative colour reaches `MPI_Comm_split`. -/
theorem C03_option_negative_colour : multiDefGroup 4 1 (-4) = .group (-1) := by decide

/-- C03 (all of it that is true for the shipped option parser: values `1 ≤ n ≤ size`, and values larger
than `size` are refused).  Missing from the full statement: option values `≤ 0`. -/
theorem C03_multidef_partial (size n r : Nat) (hn : 0 < n) (hr : r < size) :
    (n ≤ size ∧ ∃ g : Nat, g < n ∧ multiDefGroup size r n = .group g) ∨
    (size < n ∧ multiDefGroup size r n = .exitFailure) := by
  by_cases h : n ≤ size
  · exact Or.inl ⟨h, C03_group_in_range size n r hn h hr⟩
  · refine Or.inr ⟨by omega, ?_⟩
    unfold multiDefGroup
    rw [if_pos (by omega)]

/-- Splitting by `NSplitSize`: two ranks are in the same group iff they are in the same block of
`NSplitSize` consecutive ranks, and seeds of different groups differ. -/
theorem C03_seed_distinct (seed : Int) (r r' s : Nat) :
    groupSeed seed r s = groupSeed seed r' s ↔ splitGroup r s = splitGroup r' s ∨ s = 0 := by
  unfold groupSeed splitGroup
  by_cases hs : s = 0
  · subst hs; simp
  · have : (s:Int) ≠ 0 := by omega
    simp [hs]

/-- `NSplitSize = 0` in the parameter file reaches a division by zero. -/
theorem C03_splitsize_zero_divides_by_zero (r : Int) : splitGroup r 0 = .divByZero := by
  simp [splitGroup]

-- concrete case: 7 ranks, 3 definitions
example : (List.range 7).map (fun r => multiDefGroup 7 r 3) =
  [.group 0, .group 0, .group 0, .group 1, .group 1, .group 2, .group 2] := by decide

end MVMC
