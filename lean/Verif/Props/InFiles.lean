import Verif.Proof.InFiles

/-!
# C90: input files are closed, and a missing one is reported

`names` are the file names of the keywords, empty if the keyword is not used; `ex` tells which files can be opened.
-/

namespace MVMC

/-- C90: the loops of `ReadDefFileNInt`, `ReadGreen`, `ReadDefFileIdxPara` and `ReadInputParameters` close what they open, whatever was open before, if
all files can be opened and no branch returns early. Missing: a branch that returns early (`C90_return_violated`), a missing
file and the loop of `GetInfoFromModPara` (`C90_missing_violated`, `C90_leak_violated`). -/
theorem C90_loops_partial (ex : List Char → Bool) (brk : Bool) (ret : ℕ → Bool) (k : ℕ) (names : List (List Char)) (s : InSt)
    (h : ∀ nm ∈ names, nm ≠ [] → ex nm = true) (hr : ∀ k, ret k = false) :
    ∃ t, readFiles ex brk ret k names s = some (true, t) ∧ t.opened = s.opened := by
  obtain ⟨fp, n, e⟩ := readFiles_all ex brk ret names k s h hr
  exact ⟨_, e, rfl⟩

/-- C90: the whole input, with at least one file, is read without undefined behaviour exactly if every file of the name list can be opened; then it is accepted.
The files themselves are supposed to be complete (no branch returns early). -/
theorem C90_input_partial (ex : List Char → Bool) (ret : ℕ → ℕ → Bool) (green : Bool) (names : List (List Char))
    (hn : ∃ nm ∈ names, nm ≠ []) (hr : ∀ j k, ret j k = false) :
    ((∃ t, readInput ex ret green names = some (true, t)) ↔ ∀ nm ∈ names, nm ≠ [] → ex nm = true) ∧
    (readInput ex ret green names ≠ none → ∀ nm ∈ names, nm ≠ [] → ex nm = true) ∧
    ∀ t, readInput ex ret green names = some (true, t) → t.opened.length + 1 = usedNames names := by
  have hpos : 0 < usedNames names := by
    obtain ⟨nm, hm, he⟩ := hn
    exact List.length_pos_of_mem (List.mem_filter.2 ⟨hm, by simpa using he⟩)
  have bad : (¬ ∀ nm ∈ names, nm ≠ [] → ex nm = true) → readInput ex ret green names = none := by
    intro hx
    have hm : ∃ nm ∈ names, nm ≠ [] ∧ ex nm = false := by
      push Not at hx
      obtain ⟨nm, h1, h2, h3⟩ := hx
      exact ⟨nm, h1, h2, by simpa using h3⟩
    unfold readInput
    rw [modParaFiles_missing ex (ret 0) names 0 _ hm (hr 0)]
    cases green <;> rfl
  have good : (∀ nm ∈ names, nm ≠ [] → ex nm = true) →
      ∃ t, readInput ex ret green names = some (true, t) ∧ t.opened.length + 1 = usedNames names := by
    intro hx
    have hd : ∀ n, ∀ nm ∈ names.drop n, nm ≠ [] → ex nm = true := fun n nm hm => hx nm (List.mem_of_mem_drop hm)
    obtain ⟨t, e, hl⟩ := modParaFiles_all ex (ret 0) names 0 { fp := .wild, opened := [], next := 0 } hx (hr 0) (Or.inl rfl) (fun _ => hpos)
    have step : ∀ (brk : Bool) (rt : ℕ → Bool) (k n : ℕ) (s : InSt), (∀ k, rt k = false) → s.opened = t.opened →
        ∃ s', thenRead (some (true, s)) (readFiles ex brk rt k (names.drop n)) = some (true, s') ∧ s'.opened = t.opened := by
      intro brk rt k n s hrt hs
      obtain ⟨s', e', h'⟩ := C90_loops_partial ex brk rt k (names.drop n) { s with fp := .wild } (hd n) hrt
      exact ⟨s', e', h'.trans hs⟩
    obtain ⟨t1, e1, h1⟩ := step true (fun _ => false) 0 0 t (fun _ => rfl) rfl
    rw [List.drop_zero] at e1
    have green' : ∃ t2, (if green then thenRead (some (true, t1)) (readFiles ex false (ret 1) 1 (names.drop 1)) else some (true, t1)) =
        some (true, t2) ∧ t2.opened = t.opened := by
      cases green
      · exact ⟨t1, rfl, h1⟩
      · exact step false (ret 1) 1 1 t1 (hr 1) h1
    obtain ⟨t2, e2, h2⟩ := green'
    obtain ⟨t3, e3, h3⟩ := step false (fun _ => false) 1 1 t2 (fun _ => rfl) h2
    obtain ⟨t4, e4, h4⟩ := step false (ret 2) 26 26 t3 (hr 2) h3
    refine ⟨t4, ?_, ?_⟩
    · unfold readInput
      dsimp only
      rw [e, e1, e2, e3, e4]
    · rw [h4]
      simpa using hl
  refine ⟨⟨?_, fun h => (good h).imp fun t ht => ht.1⟩, ?_, ?_⟩
  · rintro ⟨t, e⟩
    by_contra hx
    rw [bad hx] at e
    cases e
  · intro e
    by_contra hx
    exact e (bad hx)
  · intro t e
    by_cases hx : ∀ nm ∈ names, nm ≠ [] → ex nm = true
    · obtain ⟨t', e', h'⟩ := good hx
      rw [e] at e'
      injection e' with e'
      injection e' with _ e'
      exact e' ▸ h'
    · rw [bad hx] at e
      cases e

/-- C90 is violated by the code for every name list with a missing file: the program closes a null pointer instead of stopping with an error. -/
theorem C90_missing_violated (ex : List Char → Bool) (ret : ℕ → ℕ → Bool) (green : Bool) (names : List (List Char))
    (hm : ∃ nm ∈ names, nm ≠ [] ∧ ex nm = false) (hr : ∀ k, ret 0 k = false) : readInput ex ret green names = none := by
  unfold readInput
  rw [modParaFiles_missing ex (ret 0) names 0 _ hm hr]
  cases green <;> rfl

/-- C90 is violated by the code for every accepted input with two files or more: `GetInfoFromModPara` opens all files and closes the last one. -/
theorem C90_leak_violated (ex : List Char → Bool) (ret : ℕ → ℕ → Bool) (green : Bool) (names : List (List Char))
    (hx : ∀ nm ∈ names, nm ≠ [] → ex nm = true) (hr : ∀ j k, ret j k = false) (h2 : 2 ≤ usedNames names) :
    ∃ t, readInput ex ret green names = some (true, t) ∧ t.opened ≠ [] := by
  have hn : ∃ nm ∈ names, nm ≠ [] := by
    obtain ⟨nm, hm⟩ := List.exists_mem_of_length_pos (l := names.filter (· ≠ [])) (by unfold usedNames at h2; omega)
    rw [List.mem_filter] at hm
    exact ⟨nm, hm.1, by simpa using hm.2⟩
  obtain ⟨a, -, c⟩ := C90_input_partial ex ret green names hn hr
  obtain ⟨t, e⟩ := a.2 hx
  refine ⟨t, e, fun h => ?_⟩
  have := c t e
  rw [h] at this
  simp at this
  omega

/-- C90 is violated by the code for a file that ends in its head: `ReadGreen` and `ReadInputParameters` return while it is open. -/
theorem C90_return_violated (ex : List Char → Bool) (nm : List Char) (he : nm ≠ []) (hx : ex nm = true) (k : ℕ) (s : InSt) :
    ∃ t, readFiles ex false (fun _ => true) k [nm] s = some (false, t) ∧ t.opened = s.next :: s.opened := by
  refine ⟨{ fp := .file s.next, opened := s.next :: s.opened, next := s.next + 1 }, ?_, rfl⟩
  simp [readFiles, he, inOpen, hx]

/-- Three files, the name of the second keyword empty: two handles stay open; without the last file a null pointer is closed. -/
example :
    (readInput (fun _ => true) (fun _ _ => false) true [['m'], [], ['l'], ['t']]).map (fun x => (x.1, x.2.opened.length)) = some (true, 2) ∧
    readInput (fun nm => nm ≠ ['t']) (fun _ _ => false) true [['m'], [], ['l'], ['t']] = none := by
  decide

/-- With one file nothing stays open. -/
example : (readInput (fun _ => true) (fun _ _ => false) false [['m']]).map (fun x => (x.1, x.2.opened)) = some (true, []) := by
  decide

end MVMC
