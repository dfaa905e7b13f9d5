import Verif.Model.SafeMpi
import Verif.Spec.Chunks

namespace MVMC
open Spec

theorem consecutive_append (m s e : Nat) (l : List (Nat × Nat)) (n : Nat) (h : Consecutive m s e l)
    (h0 : 0 < n) (hm : n ≤ m) : Consecutive m s (e+n) (l ++ [(e, n)]) := by
  induction l generalizing s with
  | nil => simp only [Consecutive] at h; subst h; simp [Consecutive, h0, hm]
  | cons c l ih =>
    obtain ⟨o, k⟩ := c
    simp only [Consecutive, List.cons_append] at h ⊢
    exact ⟨h.1, h.2.1, h.2.2.1, ih _ h.2.2.2⟩

theorem chunkLoop_correct (imax m fuel idx nSend nData : Nat) (acc : List (Nat × Nat))
    (hfuel : nData - idx ≤ fuel) (hidx : idx ≤ nData)
    (hs : 0 < nSend ∨ idx = nData) (hsm : nSend ≤ m) (hb : nData + nSend ≤ imax + 1)
    (hacc : Consecutive m 0 idx acc.reverse) :
    ∃ chunks, chunkLoop imax fuel idx nSend nData acc = some (.ok chunks) ∧
      Consecutive m 0 nData chunks := by
  induction fuel generalizing idx nSend acc with
  | zero =>
    have : idx = nData := by omega
    subst this
    exact ⟨acc.reverse, by simp [chunkLoop], hacc⟩
  | succ fuel ih =>
    unfold chunkLoop
    by_cases h : idx < nData
    · rw [if_pos h, if_neg (by omega)]
      simp only
      by_cases h2 : idx + nSend > nData
      · rw [if_pos h2]
        refine ih _ _ _ (by omega) (by omega) (by omega) (by omega) (by omega) ?_
        rw [List.reverse_cons]
        exact consecutive_append m 0 idx _ _ hacc (by omega) (by omega)
      · rw [if_neg h2]
        refine ih _ _ _ (by omega) (by omega) (by omega) (by omega) (by omega) ?_
        rw [List.reverse_cons]
        exact consecutive_append m 0 idx _ _ hacc (by omega) (by omega)
    · have : idx = nData := by omega
      subst this
      exact ⟨acc.reverse, by simp, hacc⟩

theorem timesMoved_consecutive (m s e : Nat) (l : List (Nat × Nat)) (h : Consecutive m s e l) (i : Nat) :
    s ≤ e ∧ timesMoved l i = if s ≤ i ∧ i < e then 1 else 0 := by
  induction l generalizing s with
  | nil =>
    simp only [Consecutive] at h; subst h
    refine ⟨Nat.le_refl _, ?_⟩
    rw [if_neg (by omega)]; rfl
  | cons c l ih =>
    obtain ⟨o, k⟩ := c
    simp only [Consecutive] at h
    obtain ⟨rfl, h0, _, h3⟩ := h
    obtain ⟨hle, hih⟩ := ih _ h3
    refine ⟨by omega, ?_⟩
    unfold timesMoved at hih ⊢
    rw [List.filter_cons]
    by_cases hc : o ≤ i ∧ i < o + k
    · rw [if_pos (by simpa using hc), List.length_cons, hih]
      rw [if_neg (by omega), if_pos (by omega)]
    · rw [if_neg (by simpa using hc), hih]
      by_cases h5 : o + k ≤ i ∧ i < e
      · rw [if_pos h5, if_pos (by omega)]
      · rw [if_neg h5, if_neg (by omega)]

theorem applyChunks_eq {α : Type} (op : Nat → α) (buf : Nat → α) (l : List (Nat × Nat)) (i : Nat) :
    applyChunks op buf l i = if timesMoved l i = 0 then buf i else op i := by
  unfold applyChunks
  induction l generalizing buf with
  | nil => simp [timesMoved]
  | cons c l ih =>
    rw [List.foldl_cons, ih]
    unfold timesMoved
    rw [List.filter_cons]
    by_cases hc : c.1 ≤ i ∧ i < c.1 + c.2
    · simp [hc]
    · simp only [hc, if_false, decide_false]
      simp

end MVMC
