import Mathlib.Order.Monotone.Basic
import Mathlib.Tactic.Ring
import Mathlib.Tactic.Linarith
import Verif.Model.MultiDef

namespace MVMC

/-- closed form of the first rank of group `g` -/
def groupStart (size n g : Nat) : Nat := (size / n) * g + min g (size % n)

/-- natural-number version of the group formula -/
def groupNat (size n r : Nat) : Nat :=
  let d := size / n
  let m := size % n
  if r < (d+1)*m then r / (d+1) else m + (r - (d+1)*m) / d

theorem multiDefGroup_eq (size n r : Nat) (hn : 0 < n) (hns : n ≤ size) :
    multiDefGroup size r n = .group (groupNat size n r) := by
  unfold multiDefGroup groupNat
  have hd : 0 < size / n := Nat.div_pos hns hn
  simp only [← Int.natCast_ediv, Int.tdiv_eq_ediv_of_nonneg (Int.natCast_nonneg _),
    Int.tmod_eq_emod_of_nonneg (Int.natCast_nonneg _), ← Int.natCast_emod]
  generalize size / n = d at *
  generalize size % n = m at *
  have e1 : ((d:Int) + 1) * (m:Int) = (((d+1)*m : Nat) : Int) := by push_cast; ring
  rw [e1]
  generalize (d+1)*m = t
  rw [if_neg (by omega), if_neg (by omega)]
  by_cases h : r < t
  · rw [if_pos (by exact_mod_cast h), if_neg (by omega), if_pos h]
    congr 1
  · rw [if_neg (by exact_mod_cast h), if_neg (by omega), if_neg h]
    congr 1
    rw [Int.tdiv_eq_ediv_of_nonneg (by omega)]
    push_cast [Nat.cast_sub (Nat.le_of_not_lt h)]
    rfl

theorem groupNat_iff (size n r g : Nat) (hn : 0 < n) (hns : n ≤ size) :
    groupNat size n r = g ↔ groupStart size n g ≤ r ∧ r < groupStart size n (g+1) := by
  have hd : 0 < size / n := Nat.div_pos hns hn
  have hm := Nat.mod_lt size hn
  unfold groupNat groupStart
  simp only
  generalize size / n = d at *
  generalize size % n = m at *
  by_cases h : r < (d+1)*m
  · rw [if_pos h, Nat.div_eq_iff (by omega)]
    have hg : g < m ∨ m ≤ g := Nat.lt_or_ge g m
    rcases hg with hg | hg
    · rw [Nat.min_eq_left (by omega), Nat.min_eq_left (by omega)]
      have e1 : d*g + g = g*(d+1) := by ring
      have e2 : d*(g+1) + (g+1) = g*(d+1) + d + 1 := by ring
      rw [e1, e2]
      omega
    · rw [Nat.min_eq_right (by omega)]
      have : (d+1)*m ≤ d*g + m := by nlinarith
      constructor
      · rintro ⟨h1, h2⟩; exfalso; nlinarith
      · rintro ⟨h1, h2⟩; omega
  · rw [if_neg h]
    have h' : (d+1)*m ≤ r := Nat.le_of_not_lt h
    obtain ⟨k, hk⟩ := Nat.exists_eq_add_of_le h'
    have e : r - (d+1)*m = k := by omega
    rw [e]
    rcases Nat.lt_or_ge g m with hg | hg
    · rw [Nat.min_eq_left (by omega : g + 1 ≤ m)]
      constructor
      · intro h1; have := Nat.zero_le (k/d); omega
      · rintro ⟨_, h2⟩; exfalso
        have : d*(g+1) + (g+1) = (d+1)*(g+1) := by ring
        have : (d+1)*(g+1) ≤ (d+1)*m := Nat.mul_le_mul_left _ hg
        omega
    · obtain ⟨j, rfl⟩ := Nat.exists_eq_add_of_le hg
      rw [Nat.min_eq_right (by omega), Nat.min_eq_right (by omega)]
      rw [Nat.add_left_cancel_iff, Nat.div_eq_iff hd, hk]
      have e2 : (d+1)*m = d*m + m := by ring
      have e3 : d*(m+j) = d*m + j*d := by ring
      have e4 : d*(m+j+1) = d*m + j*d + d := by ring
      rw [e2, e3, e4]
      have e5 : (j+1)*d = j*d + d := by ring
      omega

theorem groupStart_zero (size n : Nat) : groupStart size n 0 = 0 := by simp [groupStart]

theorem groupStart_last (size n : Nat) (hn : 0 < n) : groupStart size n n = size := by
  have hm := Nat.mod_lt size hn
  have := Nat.div_add_mod size n
  unfold groupStart
  rw [Nat.min_eq_right (by omega), Nat.mul_comm]; exact this

theorem groupStart_step (size n g : Nat) :
    groupStart size n (g+1) = groupStart size n g + size / n + (if g < size % n then 1 else 0) := by
  unfold groupStart
  rw [Nat.mul_add]
  split <;> omega

theorem groupStart_mono (size n : Nat) : Monotone (groupStart size n) := by
  apply monotone_nat_of_le_succ
  intro g; rw [groupStart_step]
  generalize size / n = d
  split <;> omega

end MVMC
