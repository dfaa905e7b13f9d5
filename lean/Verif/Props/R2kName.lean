import Verif.Proof.R2kName

/-! # C86: the files that the Fourier tool opens -/
namespace MVMC
open Spec

/-- C86: from every name list that the main program accepts, the tool takes the same parameter file and the same lists of Green functions, comments and empty lines
included, and it takes the calculation for one of mVMC. Missing: words with a comma or a slash. -/
theorem C86_names_partial (ls : List NLLine) (hreg : ∀ l ∈ ls, RegLine l) (t : ℕ → Option Word) (ht : getFileName ls = .ok t)
    (hp : ∀ l ∈ ls, ∀ w ∈ l.words, ∀ c ∈ w, c ≠ '/' ∧ c ≠ ',') :
    (r2kNameList (r2kTwoWords ls)).one = t KWIdxInt.KWOneBodyG.ctorIdx ∧
    (r2kNameList (r2kTwoWords ls)).two = t KWIdxInt.KWTwoBodyG.ctorIdx ∧
    (r2kNameList (r2kTwoWords ls)).modp = t KWIdxInt.KWModPara.ctorIdx ∧
    ∀ fileType, r2kCalcType fileType (r2kNameList (r2kTwoWords ls)) = 4 := by
  have hl : ∀ l ∈ r2kTwoWords ls, R2kPlain l.1 ∧ R2kPlain l.2 ∧ l.2 ≠ [] := by
    intro e he
    obtain ⟨l, hl, rest, hw⟩ := r2k_mem_twoWords.1 he
    refine ⟨hp l hl _ (by rw [hw]; simp), hp l hl _ (by rw [hw]; simp), ?_⟩
    rcases hreg l hl with ⟨-, h⟩ | ⟨-, w, f, r, h, -, -, hf, -⟩
    · rw [hw] at h
      cases h
    · rw [hw] at h
      simp only [List.cons.injEq] at h
      rw [h.2.1]
      exact hf
  refine ⟨?_, ?_, ?_, ?_⟩
  · rw [r2k_name_field (fun S => S.one) _ rfl r2k_name_one _ hl]
    exact r2k_name_same hreg ht _ "OneBodyG".toList _ (by decide +kernel) (by decide +kernel) (by decide)
  · rw [r2k_name_field (fun S => S.two) _ rfl r2k_name_two _ hl]
    exact r2k_name_same hreg ht _ "TwoBodyG".toList _ (by decide +kernel) (by decide +kernel) (by decide)
  · rw [r2k_name_field (fun S => S.modp) _ rfl r2k_name_modp _ hl]
    exact r2k_name_same hreg ht _ "ModPara".toList _ (by decide +kernel) (by decide +kernel) (by decide)
  · intro fileType
    have e : (r2kNameList (r2kTwoWords ls)).cmod = none := by
      rw [r2k_name_field (fun S => S.cmod) _ rfl r2k_name_cmod _ hl]
      cases e : lastSet [['c', 'a', 'l', 'c', 'm', 'o', 'd']] (r2kTwoWords ls) with
      | none => rfl
      | some f =>
        obtain ⟨w, hw, hlow⟩ := r2k_lastSet_some e
        obtain ⟨k, v, hv, h⟩ := ((C37_file_names_partial ls hreg).2.2.1 ⟨t, ht⟩).1 _ ((r2k_mem_entries hreg).2 ⟨hw, r2k_lower_hash (by decide) hlow⟩)
        have hno : ∀ v ∈ kwList, v.map Char.toLower ≠ ['c', 'a', 'l', 'c', 'm', 'o', 'd'] := by decide +kernel
        exact absurd (h.symm.trans hlow) (hno v (List.mem_of_getElem? hv))
    unfold r2kCalcType
    rw [e]

/-- C86 is violated for a file in another directory: the main program opens it, the tool reads the name up to the slash. -/
theorem C86_names_violated : ∃ (ls : List NLLine) (t : ℕ → Option Word), (∀ l ∈ ls, RegLine l) ∧ getFileName ls = .ok t ∧
    t KWIdxInt.KWOneBodyG.ctorIdx = some "defs/one.def".toList ∧ (r2kNameList (r2kTwoWords ls)).one = some "defs".toList := by
  have hreg : ∀ l ∈ [(⟨false, ["OneBodyG".toList, "defs/one.def".toList]⟩ : NLLine)], RegLine l := by
    intro l hl
    rw [List.mem_singleton] at hl
    subst hl
    exact Or.inr ⟨rfl, _, _, [], rfl, by decide, by decide, by decide, by decide, by decide⟩
  obtain ⟨-, h2, h3⟩ := C37_file_names_partial _ hreg
  obtain ⟨t, ht⟩ := h3.2 ⟨by
    intro e he
    rw [r2k_mem_entries hreg] at he
    obtain ⟨l, hl, rest, hw⟩ := r2k_mem_twoWords.1 he.1
    rw [List.mem_singleton] at hl
    subst hl
    simp only [List.cons.injEq] at hw
    exact ⟨43, "OneBodyG".toList, by decide +kernel, by rw [← hw.1]⟩, by
    rw [show entries [(⟨false, ["OneBodyG".toList, "defs/one.def".toList]⟩ : NLLine)] = [("OneBodyG".toList, "defs/one.def".toList)] by decide +kernel]
    exact List.pairwise_singleton _ _⟩
  refine ⟨_, t, hreg, ht, (h2 t ht _ _).2 ⟨"OneBodyG".toList, ?_, "OneBodyG".toList, by decide +kernel, rfl⟩, by decide +kernel⟩
  rw [show entries [(⟨false, ["OneBodyG".toList, "defs/one.def".toList]⟩ : NLLine)] = [("OneBodyG".toList, "defs/one.def".toList)] by decide +kernel]
  exact List.mem_singleton_self _

/-- C86 is violated for an absolute path: nothing is before the slash, so the line leaves the name as it was, without a defined value if it is the only one. -/
theorem C86_absolute_violated (ls : List (List Char × List Char)) (w : List Char) :
    (r2kNameList (ls ++ [("OneBodyG".toList, '/' :: w)])).one = (r2kNameList ls).one ∧
    (r2kNameList [("OneBodyG".toList, '/' :: w)]).one = none := by
  have h : ∀ S : R2kNames, (r2kNameLine S ("OneBodyG".toList, '/' :: w)).one = S.one := by
    intro S
    simp only [r2kNameLine, r2kRead, r2kWord]
    simp
  refine ⟨?_, h _⟩
  simp only [r2kNameList, List.foldl_append, List.foldl_cons, List.foldl_nil]
  exact h _

example : (r2kNameList [("ModPara".toList, "modpara.def".toList), ("#OneBodyG".toList, "old.def".toList), ("onebodyg".toList, "one.def".toList)]).one = some "one.def".toList ∧
    (r2kNameList [("ModPara".toList, "modpara.def".toList)]).two = none ∧
    r2kCalcType (fun _ => 2) (r2kNameList [("CalcMod".toList, "calcmod.def".toList)]) = 2 := by decide +kernel

end MVMC
