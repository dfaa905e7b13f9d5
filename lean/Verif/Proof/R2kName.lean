import Verif.Model.R2kName
import Verif.Proof.R2kOut
import Verif.Props.KeyWord

/-! # The name list of `greenr2k`: proofs -/
namespace MVMC
open Spec

/-- no comma and no slash in a word -/
def R2kPlain (w : List Char) : Prop := ∀ c ∈ w, c ≠ '/' ∧ c ≠ ','

theorem r2kWord_plain {w : List Char} (h : R2kPlain w) : r2kWord w = w := by
  unfold r2kWord
  induction w with
  | nil => rfl
  | cons c w ih =>
    have := h c (by simp)
    rw [List.takeWhile_cons, if_pos (by simp [this.1, this.2]), ih (fun c hc => h c (by simp [hc]))]

theorem r2kRead_plain {w : List Char} (h : R2kPlain w) (h0 : w ≠ []) (old : Option (List Char)) : r2kRead old w = some w := by
  unfold r2kRead
  rw [r2kWord_plain h, if_neg h0]

theorem r2k_name_field (f : R2kNames → Option (List Char)) (key : List Char) (hinit : f ⟨none, none, none, none⟩ = none)
    (hstep : ∀ S l, f (r2kNameLine S l) = if r2kLower (r2kWord l.1) = key then r2kRead (f S) l.2 else f S)
    (lines : List (List Char × List Char)) (hp : ∀ l ∈ lines, R2kPlain l.1 ∧ R2kPlain l.2 ∧ l.2 ≠ []) :
    f (r2kNameList lines) = lastSet [key] lines := by
  unfold r2kNameList
  induction lines using List.reverseRecOn with
  | nil => exact hinit
  | append_singleton ls l ih =>
    obtain ⟨h1, h2, h3⟩ := hp l (by simp)
    rw [List.foldl_append, List.foldl_cons, List.foldl_nil, hstep, r2k_lastSet_append, ih (fun l hl => hp l (by simp [hl])), r2kWord_plain h1, r2kLower_eq,
      r2kRead_plain h2 h3]
    simp

theorem r2k_name_one (S : R2kNames) (l : List Char × List Char) : (r2kNameLine S l).one =
    if r2kLower (r2kWord l.1) = ['o', 'n', 'e', 'b', 'o', 'd', 'y', 'g'] then r2kRead S.one l.2 else S.one := by
  unfold r2kNameLine
  split_ifs <;> rfl

theorem r2k_name_two (S : R2kNames) (l : List Char × List Char) : (r2kNameLine S l).two =
    if r2kLower (r2kWord l.1) = ['t', 'w', 'o', 'b', 'o', 'd', 'y', 'g'] then r2kRead S.two l.2 else S.two := by
  unfold r2kNameLine
  generalize r2kLower (r2kWord l.1) = w
  split_ifs <;> first | rfl | (exfalso; simp_all)

theorem r2k_name_modp (S : R2kNames) (l : List Char × List Char) : (r2kNameLine S l).modp =
    if r2kLower (r2kWord l.1) = ['m', 'o', 'd', 'p', 'a', 'r', 'a'] then r2kRead S.modp l.2 else S.modp := by
  unfold r2kNameLine
  generalize r2kLower (r2kWord l.1) = w
  split_ifs <;> first | rfl | (exfalso; simp_all)

theorem r2k_name_cmod (S : R2kNames) (l : List Char × List Char) : (r2kNameLine S l).cmod =
    if r2kLower (r2kWord l.1) = ['c', 'a', 'l', 'c', 'm', 'o', 'd'] then r2kRead S.cmod l.2 else S.cmod := by
  unfold r2kNameLine
  generalize r2kLower (r2kWord l.1) = w
  split_ifs <;> first | rfl | (exfalso; simp_all)

/-- the two words of every line that has words, comments included -/
def r2kTwoWords (ls : List NLLine) : List (List Char × List Char) :=
  ls.filterMap fun l => match l.words with | w :: f :: _ => some (w, f) | _ => none

theorem r2k_mem_twoWords {ls : List NLLine} {e : List Char × List Char} : e ∈ r2kTwoWords ls ↔ ∃ l ∈ ls, ∃ rest, l.words = e.1 :: e.2 :: rest := by
  unfold r2kTwoWords
  rw [List.mem_filterMap]
  refine exists_congr fun l => and_congr_right fun _ => ?_
  constructor
  · intro h
    split at h
    · rename_i w f rest hw
      rw [Option.some.injEq] at h
      subst h
      exact ⟨rest, hw⟩
    · cases h
  · rintro ⟨rest, h⟩
    rw [h]

theorem r2k_mem_entries {ls : List NLLine} (hreg : ∀ l ∈ ls, RegLine l) {w f : List Char} :
    (w, f) ∈ entries ls ↔ (w, f) ∈ r2kTwoWords ls ∧ w.head? ≠ some '#' := by
  induction ls with
  | nil => simp [entries, r2kTwoWords]
  | cons l ls ih =>
    have ih := ih (fun l hl => hreg l (List.mem_cons_of_mem _ hl))
    unfold entries r2kTwoWords
    rw [List.filterMap_cons]
    rcases hreg l (by simp) with ⟨-, hw⟩ | ⟨hb, w', f', rest, hw, -⟩
    · rw [hw]
      exact ih
    · rw [hw]
      simp only [hb, Bool.false_eq_true, false_or, List.mem_cons, Prod.mk.injEq]
      by_cases hh : w'.head? = some '#'
      · rw [if_pos hh, ih]
        constructor
        · exact fun h => ⟨Or.inr h.1, h.2⟩
        · rintro ⟨⟨rfl, rfl⟩ | h, h2⟩
          · exact absurd hh h2
          · exact ⟨h, h2⟩
      · rw [if_neg hh, List.mem_cons, ih, Prod.mk.injEq]
        constructor
        · rintro (⟨rfl, rfl⟩ | h)
          · exact ⟨Or.inl ⟨rfl, rfl⟩, hh⟩
          · exact ⟨Or.inr h.1, h.2⟩
        · rintro ⟨h | h, h2⟩
          · exact Or.inl h
          · exact Or.inr ⟨h, h2⟩

theorem r2k_lower_hash {w key : List Char} (hk : key.head? ≠ some '#') (h : w.map Char.toLower = key) : w.head? ≠ some '#' := by
  intro e
  apply hk
  rw [← h, List.head?_map, e]
  decide

theorem r2k_lastSet_some {key f : List Char} {lines : List (List Char × List Char)} (h : lastSet [key] lines = some f) : ∃ w, (w, f) ∈ lines ∧ w.map Char.toLower = key := by
  unfold lastSet at h
  rw [Option.map_eq_some_iff] at h
  obtain ⟨⟨w, f'⟩, h1, rfl⟩ := h
  have hm := List.mem_of_find?_eq_some h1
  have hp := List.find?_some h1
  exact ⟨w, by simpa using hm, by simpa using hp⟩

theorem r2k_lastSet_none {key : List Char} {lines : List (List Char × List Char)} (h : lastSet [key] lines = none) : ∀ l ∈ lines, l.1.map Char.toLower ≠ key := by
  unfold lastSet at h
  rw [Option.map_eq_none_iff, List.find?_eq_none] at h
  intro l hl
  simpa using h l (by simpa using hl)

/-- one file, found by the tool and by the main program -/
theorem r2k_name_same {ls : List NLLine} (hreg : ∀ l ∈ ls, RegLine l) {t : ℕ → Option Word} (ht : getFileName ls = .ok t) (k : ℕ) (kw key : List Char)
    (hkw : kwList[k]? = some kw) (hkey : kw.map Char.toLower = key) (hk : key.head? ≠ some '#') : lastSet [key] (r2kTwoWords ls) = t k := by
  have H := (C37_file_names_partial ls hreg).2.1 t ht k
  cases e : lastSet [key] (r2kTwoWords ls) with
  | some f =>
    obtain ⟨w, hw, hl⟩ := r2k_lastSet_some e
    exact ((H f).2 ⟨w, (r2k_mem_entries hreg).2 ⟨hw, r2k_lower_hash hk hl⟩, kw, hkw, by rw [hl, hkey]⟩).symm
  | none =>
    cases e2 : t k with
    | none => rfl
    | some f =>
      obtain ⟨w, hw, v, hv, hl⟩ := (H f).1 e2
      rw [hkw, Option.some.injEq] at hv
      subst hv
      exact absurd (hl.trans hkey) (r2k_lastSet_none e _ ((r2k_mem_entries hreg).1 hw).1)

end MVMC
