import Verif.Model.ArrAlloc

/-!
# Proof: arrays with two indices
-/

namespace MVMC

theorem hStore_ok {b o n : ℕ} {h : Heap} (v : HVal) (hs : h.size b = some n) (ho : o < n) :
    hStore b o v h = some { h with cell := Function.update h.cell b (Function.update (h.cell b) o v) } := by
  simp [hStore, hs, ho]

theorem hLoadPtr_ok {b o n b' o' : ℕ} {h : Heap} (hs : h.size b = some n) (ho : o < n) (hc : h.cell b o = .ptr b' o') :
    hLoadPtr b o h = some (b', o') := by
  simp [hLoadPtr, hs, ho, hc]

/-- After `k` turns the first `k` row pointers are set; the rest of the memory is as before. -/
theorem rowPtrs_ok (a d N M : ℕ) (h : Heap) (hs : h.size a = some N) (hN : 0 < N) (hc : h.cell a 0 = .ptr d 0) :
    ∀ k ≤ N, ∃ h', rowPtrs a M k h = some h' ∧ h'.size = h.size ∧ h'.next = h.next ∧ (∀ b, b ≠ a → h'.cell b = h.cell b) ∧
      h'.cell a 0 = .ptr d 0 ∧ ∀ i < k, h'.cell a i = .ptr d (i * M) := by
  intro k
  induction k with
  | zero => exact fun _ => ⟨h, rfl, rfl, rfl, fun _ _ => rfl, hc, fun i hi => absurd hi (Nat.not_lt_zero _)⟩
  | succ k ih =>
    intro hk
    obtain ⟨h1, e1, s1, n1, o1, z1, r1⟩ := ih (by omega)
    have hl := hLoadPtr_ok (h := h1) (b := a) (o := 0) (s1 ▸ hs) hN z1
    have hst := hStore_ok (h := h1) (b := a) (o := k) (.ptr d (0 + k * M)) (s1 ▸ hs) (by omega)
    refine ⟨{ h1 with cell := Function.update h1.cell a (Function.update (h1.cell a) k (.ptr d (0 + k * M))) }, ?_, s1, n1, ?_, ?_, ?_⟩
    · simp only [rowPtrs, e1, hl, hst, Option.bind_eq_bind, Option.bind_some]
    · intro b hb
      simp only [Function.update_of_ne hb]
      exact o1 b hb
    · simp only [Function.update_self]
      by_cases h0 : k = 0
      · subst h0; simp
      · rw [Function.update_of_ne (by omega)]; exact z1
    · intro i hi
      simp only [Function.update_self]
      by_cases h0 : i = k
      · subst h0; simp
      · rw [Function.update_of_ne h0]; exact r1 i (by omega)

/-- The memory after an allocation with rows. -/
theorem alloc2_ok (N M : ℕ) (h : Heap) (hN : 0 < N) :
    ∃ h', alloc2 N M h = some (h.next, h') ∧
      h'.size = Function.update (Function.update h.size h.next (some N)) (h.next + 1) (some (M * N)) ∧ h'.next = h.next + 2 ∧
      (∀ b, b ≠ h.next → b ≠ h.next + 1 → h'.cell b = h.cell b) ∧ (∀ i < N, h'.cell h.next i = .ptr (h.next + 1) (i * M)) ∧
      ∀ o < M * N, h'.cell (h.next + 1) o = .zero := by
  have ne : h.next ≠ h.next + 1 := by omega
  have hsz : (hMalloc (M * N) (hMalloc N h)).size h.next = some N := by
    simp [hMalloc]
  have e1 := hStore_ok (o := 0) (.ptr (h.next + 1) 0) hsz hN
  obtain ⟨h2, e2, s2, n2, o2, z2, r2⟩ := rowPtrs_ok h.next (h.next + 1) N M
    { hMalloc (M * N) (hMalloc N h) with cell := Function.update (hMalloc (M * N) (hMalloc N h)).cell h.next (Function.update ((hMalloc (M * N) (hMalloc N h)).cell h.next) 0 (.ptr (h.next + 1) 0)) } hsz hN (by simp) N (Nat.le_refl N)
  have hl := hLoadPtr_ok (h := h2) (b := h.next) (o := 0) (s2 ▸ hsz) hN z2
  have hsd : h2.size (h.next + 1) = some (M * N) := by
    rw [s2]; simp [hMalloc]
  refine ⟨{ h2 with cell := Function.update h2.cell (h.next + 1) (fun o => if 0 ≤ o ∧ o < 0 + M * N then .zero else h2.cell (h.next + 1) o) },
    ?_, ?_, ?_, ?_, ?_, ?_⟩
  · unfold alloc2
    have hn : (hMalloc N h).next = h.next + 1 := rfl
    simp only [hn, e1, Option.bind_eq_bind, Option.bind_some, e2, hl, hZero, hsd]
    simp
  · exact s2
  · exact n2
  · intro b hb hb'
    dsimp only
    rw [Function.update_of_ne hb', o2 b hb]
    simp [hMalloc, hb, hb']
  · intro i hi
    dsimp only
    rw [Function.update_of_ne ne]
    exact r2 i hi
  · intro o ho
    simp [ho]

end MVMC
