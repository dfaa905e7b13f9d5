import Verif.Model.InFiles

/-!
# Proof: handles of the input files
-/

namespace MVMC

/-- The number of names that are not empty. -/
def usedNames (names : List (List Char)) : ℕ := (names.filter (· ≠ [])).length

theorem readFiles_all (ex : List Char → Bool) (brk : Bool) (ret : ℕ → Bool) : ∀ (names : List (List Char)) (k : ℕ) (s : InSt),
    (∀ nm ∈ names, nm ≠ [] → ex nm = true) → (∀ k, ret k = false) →
    ∃ fp n, readFiles ex brk ret k names s = some (true, { fp := fp, opened := s.opened, next := n })
  | [], _, s, _, _ => ⟨s.fp, s.next, rfl⟩
  | nm :: r, k, s, h, hr => by
    unfold readFiles
    by_cases he : nm = []
    · rw [if_pos he]
      exact readFiles_all ex brk ret r (k + 1) s (fun x hx => h x (by simp [hx])) hr
    · rw [if_neg he]
      have hx := h nm (by simp) he
      have ho : inOpen ex nm s = { fp := .file s.next, opened := s.next :: s.opened, next := s.next + 1 } := by
        unfold inOpen; rw [if_pos hx]
      dsimp only
      rw [ho]
      have hc : inClose { fp := .file s.next, opened := s.next :: s.opened, next := s.next + 1 } =
          some { fp := .file s.next, opened := s.opened, next := s.next + 1 } := by
        simp [inClose]
      rw [hc, hr k]
      obtain ⟨fp, n, e⟩ := readFiles_all ex brk ret r (k + 1) { fp := .file s.next, opened := s.opened, next := s.next + 1 }
        (fun x hx => h x (by simp [hx])) hr
      refine ⟨fp, n, ?_⟩
      rw [← e]
      simp

/-- All files are there: the loop runs to the end with one more handle per file, then the last one is closed. -/
theorem modParaFiles_all (ex : List Char → Bool) (ret : ℕ → Bool) : ∀ (names : List (List Char)) (k : ℕ) (s : InSt),
    (∀ nm ∈ names, nm ≠ [] → ex nm = true) → (∀ k, ret k = false) →
    (s.fp = .wild ∨ ∃ i, s.fp = .file i ∧ i ∈ s.opened) → (s.fp = .wild → 0 < usedNames names) →
    ∃ t, modParaFiles ex ret k names s = some (true, t) ∧ t.opened.length + 1 = s.opened.length + usedNames names
  | [], _, s, _, _, hs, hw => by
    rcases hs with hs | ⟨i, hi, hm⟩
    · exact absurd (hw hs) (by simp [usedNames])
    · refine ⟨{ s with opened := s.opened.erase i }, ?_, ?_⟩
      · simp [modParaFiles, inClose, hi, hm]
      · have := List.length_erase_of_mem hm
        have := List.length_pos_of_mem hm
        simp only [usedNames, List.filter_nil, List.length_nil]
        omega
  | nm :: r, k, s, h, hr, hs, hw => by
    unfold modParaFiles
    by_cases he : nm = []
    · rw [if_pos he]
      have e : usedNames (nm :: r) = usedNames r := by simp [usedNames, he]
      rw [e] at hw ⊢
      exact modParaFiles_all ex ret r (k + 1) s (fun x hx => h x (by simp [hx])) hr hs hw
    · rw [if_neg he]
      have ho : inOpen ex nm s = { fp := .file s.next, opened := s.next :: s.opened, next := s.next + 1 } := by
        unfold inOpen; rw [if_pos (h nm (by simp) he)]
      dsimp only
      rw [ho, hr k, if_neg (by simp), if_neg (by simp)]
      obtain ⟨t, e, hl⟩ := modParaFiles_all ex ret r (k + 1) { fp := .file s.next, opened := s.next :: s.opened, next := s.next + 1 }
        (fun x hx => h x (by simp [hx])) hr (Or.inr ⟨s.next, rfl, by simp⟩) (by simp)
      refine ⟨t, e, ?_⟩
      have e2 : usedNames (nm :: r) = usedNames r + 1 := by simp [usedNames, he]
      rw [e2, hl, List.length_cons]
      omega

/-- A missing file: a null pointer is closed. -/
theorem modParaFiles_missing (ex : List Char → Bool) (ret : ℕ → Bool) : ∀ (names : List (List Char)) (k : ℕ) (s : InSt),
    (∃ nm ∈ names, nm ≠ [] ∧ ex nm = false) → (∀ k, ret k = false) → modParaFiles ex ret k names s = none
  | [], _, _, h, _ => by obtain ⟨nm, hm, _⟩ := h; simp at hm
  | nm :: r, k, s, h, hr => by
    unfold modParaFiles
    by_cases he : nm = []
    · rw [if_pos he]
      refine modParaFiles_missing ex ret r (k + 1) s ?_ hr
      obtain ⟨x, hx, h1, h2⟩ := h
      rcases List.mem_cons.1 hx with rfl | hx
      · exact absurd he h1
      · exact ⟨x, hx, h1, h2⟩
    · rw [if_neg he]
      dsimp only
      cases hx : ex nm with
      | false => simp [inOpen, hx, inClose]
      | true =>
        have hn : (inOpen ex nm s).fp ≠ .null := by simp [inOpen, hx]
        rw [if_neg hn, hr k, if_neg (by simp)]
        refine modParaFiles_missing ex ret r (k + 1) _ ?_ hr
        obtain ⟨x, hxm, h1, h2⟩ := h
        rcases List.mem_cons.1 hxm with rfl | hxm
        · rw [hx] at h2; cases h2
        · exact ⟨x, hxm, h1, h2⟩

end MVMC
