import Verif.Proof.KeyWord
import Mathlib.Tactic.Linarith

/-!
# C37: keywords
-/

namespace MVMC

/-- C37: `CheckWords` returns 0 iff the words are equal after lower-casing. -/
theorem C37_check_words_partial {c k : Word} (hc : NulFree c) (hk : NulFree k) (lc : c.length < 257)
    (lk : k.length < 256) :
    checkWords c k ≠ none ∧ (checkWords c k = some 0 ↔ c.map Char.toLower = k.map Char.toLower) := by
  obtain ⟨r, e, h⟩ := checkWords_iff hc hk lc lk
  rw [e]
  refine ⟨by simp, ?_⟩
  rw [Option.some_inj]
  exact h

/-- C37: in particular neither proper prefixes nor extensions are accepted. -/
theorem C37_no_prefix_partial {c d : Word} (hc : NulFree c) (hd : NulFree d) (h : d ≠ [])
    (l : (c ++ d).length < 256) :
    checkWords c (c ++ d) ≠ some 0 ∧ checkWords (c ++ d) c ≠ some 0 := by
  have hcd : NulFree (c ++ d) := by
    intro x hx
    rcases List.mem_append.1 hx with h | h
    · exact hc x h
    · exact hd x h
  have lc : c.length < 256 := by rw [List.length_append] at l; omega
  have hne : 0 < d.length := List.length_pos_of_ne_nil h
  refine ⟨fun e => ?_, fun e => ?_⟩
  · have := congrArg List.length ((C37_check_words_partial hc hcd (by omega) l).2.1 e)
    simp at this
    exact h this
  · have := congrArg List.length ((C37_check_words_partial hcd hc (by omega) lc).2.1 e)
    simp at this
    exact h this

/-- C37 is violated by the code for words longer than its buffers. -/
theorem C37_long_word_violated (c k : Word) (h : 257 ≤ c.length) : checkWords c k = none := by
  unfold checkWords
  rw [if_pos (Or.inr h)]

/-- C37: `CheckKW` finds keyword number `k` of the name list iff the word is that
keyword ignoring case, and reports failure iff there is none. -/
theorem C37_check_kw_partial {c : Word} (hc : NulFree c) (lc : c.length < 257) (h0 : c ≠ []) :
    (∀ k, checkKW c kwList = some (some k) ↔
      ∃ w, kwList[k]? = some w ∧ c.map Char.toLower = w.map Char.toLower) ∧
    (checkKW c kwList = some none ↔
      ∀ w ∈ kwList, c.map Char.toLower ≠ w.map Char.toLower) := by
  obtain ⟨r, e, h⟩ := checkKW_iff hc lc h0
  rw [e]
  constructor
  · intro k
    rw [Option.some_inj]
    exact h k
  · rw [Option.some_inj]
    constructor
    · rintro rfl w hw e
      obtain ⟨i, hi⟩ := List.getElem?_of_mem hw
      exact (Option.some_ne_none i ((h i).2 ⟨w, hi, e⟩).symm).elim
    · intro hall
      cases r with
      | none => rfl
      | some k =>
        obtain ⟨w, hk, hl⟩ := (h k).1 rfl
        exact absurd hl (hall w (List.mem_of_getElem? hk))

/-- The keyword documented for each file. -/
def docName : KWIdxInt → String
  | .KWModPara => "ModPara"
  | .KWLocSpin => "LocSpin"
  | .KWTrans => "Trans"
  | .KWCoulombIntra => "CoulombIntra"
  | .KWCoulombInter => "CoulombInter"
  | .KWHund => "Hund"
  | .KWPairHop => "PairHop"
  | .KWExchange => "Exchange"
  | .KWGutzwiller => "Gutzwiller"
  | .KWJastrow => "Jastrow"
  | .KWDH2 => "DH2"
  | .KWDH4 => "DH4"
  | .KWChargeRBM_HiddenLayer => "ChargeRBM_HiddenLayer"
  | .KWChargeRBM_PhysLayer => "ChargeRBM_PhysLayer"
  | .KWChargeRBM_PhysHidden => "ChargeRBM_PhysHidden"
  | .KWSpinRBM_HiddenLayer => "SpinRBM_HiddenLayer"
  | .KWSpinRBM_PhysLayer => "SpinRBM_PhysLayer"
  | .KWSpinRBM_PhysHidden => "SpinRBM_PhysHidden"
  | .KWGeneralRBM_HiddenLayer => "GeneralRBM_HiddenLayer"
  | .KWGeneralRBM_PhysLayer => "GeneralRBM_PhysLayer"
  | .KWGeneralRBM_PhysHidden => "GeneralRBM_PhysHidden"
  | .KWOrbital => "Orbital"
  | .KWOrbitalAntiParallel => "OrbitalAntiParallel"
  | .KWOrbitalParallel => "OrbitalParallel"
  | .KWOrbitalGeneral => "OrbitalGeneral"
  | .KWTransSym => "TransSym"
  | .KWInGutzwiller => "InGutzwiller"
  | .KWInJastrow => "InJastrow"
  | .KWInDH2 => "InDH2"
  | .KWInDH4 => "InDH4"
  | .KWInChargeRBM_HiddenLayer => "InChargeRBM_HiddenLayer"
  | .KWInChargeRBM_PhysLayer => "InChargeRBM_PhysLayer"
  | .KWInChargeRBM_PhysHidden => "InChargeRBM_PhysHidden"
  | .KWInSpinRBM_HiddenLayer => "InSpinRBM_HiddenLayer"
  | .KWInSpinRBM_PhysLayer => "InSpinRBM_PhysLayer"
  | .KWInSpinRBM_PhysHidden => "InSpinRBM_PhysHidden"
  | .KWInGeneralRBM_HiddenLayer => "InGeneralRBM_HiddenLayer"
  | .KWInGeneralRBM_PhysLayer => "InGeneralRBM_PhysLayer"
  | .KWInGeneralRBM_PhysHidden => "InGeneralRBM_PhysHidden"
  | .KWInOrbital => "InOrbital"
  | .KWInOrbitalAntiParallel => "InOrbitalAntiParallel"
  | .KWInOrbitalParallel => "InOrbitalParallel"
  | .KWInorbitalGeneral => "InOrbitalGeneral"
  | .KWOneBodyG => "OneBodyG"
  | .KWTwoBodyG => "TwoBodyG"
  | .KWTwoBodyGEx => "TwoBodyGEx"
  | .KWInterAll => "InterAll"
  | .KWOptTrans => "OptTrans"
  | .KWInOptTrans => "InOptTrans"
  | .KWBF => "BF"
  | .KWBFRange => "BFRange"

set_option maxRecDepth 4000 in
/-- C37: the number `CheckKW` finds is the enumeration constant of that keyword, so the
`switch` statements of the readers get the right case. -/
theorem C37_enum (k : KWIdxInt) : checkKW (docName k).toList kwList = some (some k.ctorIdx) := by
  cases k <;> decide

example : checkKW "lOcSpIn".toList kwList = some (some 1) := by decide
example : checkKW "LocSpins".toList kwList = some none := by decide
example : checkWords "ne".toList "Ne".toList = some 0 := by decide
example : checkWords "ne".toList "Nelectron".toList ≠ some 0 := by decide

/-! ## The name list -/

/-- A line as a user means it: empty, or two words of fewer than 200 characters. -/
def RegLine (l : NLLine) : Prop :=
  (l.blank = true ∧ l.words = []) ∨
  (l.blank = false ∧ ∃ w f rest, l.words = w :: f :: rest ∧ NulFree w ∧ w ≠ [] ∧ f ≠ [] ∧
    w.length < 200 ∧ f.length < 200)

/-- The entries of the name list: the two words of each line that is not a comment. -/
def entries : List NLLine → List (Word × Word)
  | [] => []
  | l :: ls => match l.words with
    | w :: f :: _ => if l.blank ∨ w.head? = some '#' then entries ls else (w, f) :: entries ls
    | _ => entries ls

theorem getFileNameLoop_spec (ls : List NLLine) : ∀ kw fn tab, (∀ l ∈ ls, RegLine l) →
    getFileNameLoop ls kw fn tab ≠ .ub ∧
    (∀ t, getFileNameLoop ls kw fn tab = .ok t →
      (∀ k f, t k = some f ↔ tab k = some f ∨ ∃ w, (w, f) ∈ entries ls ∧ IsKw w k)) ∧
    ((∃ t, getFileNameLoop ls kw fn tab = .ok t) ↔
      (∀ e ∈ entries ls, ∃ k, IsKw e.1 k ∧ tab k = none) ∧
      (entries ls).Pairwise (fun a b => lowerW a.1 ≠ lowerW b.1)) := by
  induction ls with
  | nil =>
    intro kw fn tab _
    refine ⟨by simp [getFileNameLoop], ?_, ?_⟩
    · intro t ht k f
      simp only [getFileNameLoop, KwOut.ok.injEq] at ht
      subst ht
      simp [entries]
    · simp [getFileNameLoop, entries]
  | cons l ls ih =>
    intro kw fn tab hreg
    have hr := hreg l (by simp)
    have hls : ∀ l ∈ ls, RegLine l := fun x hx => hreg x (by simp [hx])
    rcases hr with ⟨hb, hw⟩ | ⟨hb, w, f, rest, hw, hnul, hw0, hf0, hlw, hlf⟩
    · have e1 : getFileNameLoop (l :: ls) kw fn tab = getFileNameLoop ls kw fn tab := by
        rw [getFileNameLoop, hw]
        simp [hb]
      have e2 : entries (l :: ls) = entries ls := by
        rw [entries, hw]
      rw [e1, e2]
      exact ih kw fn tab hls
    · by_cases hc : w.head? = some '#'
      · have e1 : getFileNameLoop (l :: ls) kw fn tab =
            getFileNameLoop ls (some w) (some f) tab := by
          rw [getFileNameLoop, hw]
          simp [hb, hc, show ¬ 200 ≤ w.length by omega]
        have e2 : entries (l :: ls) = entries ls := by
          rw [entries, hw]
          simp [hc]
        rw [e1, e2]
        exact ih _ _ tab hls
      · obtain ⟨r, hr, hrk⟩ := checkKW_iff hnul (by omega) hw0
        have e2 : entries (l :: ls) = (w, f) :: entries ls := by
          rw [entries, hw]
          simp [hc, hb]
        have e1 : getFileNameLoop (l :: ls) kw fn tab =
            match r with
            | none => .err
            | some idx => if tab idx ≠ none then .err else
              getFileNameLoop ls (some w) (some f) (fun j => if j = idx then some f else tab j) := by
          rw [getFileNameLoop, hw]
          simp only [List.headD_cons, if_neg (show ¬ 200 ≤ w.length by omega), hb, if_neg hc, hr,
            if_neg (show ¬ (w = [] ∨ f = []) by simp [hw0, hf0]), ge_iff_le,
            if_neg (show ¬ 200 ≤ f.length by omega)]
          cases r <;> simp
        rw [e1, e2]
        cases r with
        | none =>
          dsimp only
          refine ⟨by simp, by simp, ?_⟩
          constructor
          · rintro ⟨t, ht⟩; cases ht
          · rintro ⟨h, _⟩
            obtain ⟨k, hk, _⟩ := h (w, f) (by simp)
            exact absurd ((hrk k).2 hk) (by simp)
        | some idx =>
          have hidx : IsKw w idx := (hrk idx).1 rfl
          have huniq : ∀ k, IsKw w k → k = idx := fun k hk => (Option.some.inj ((hrk k).2 hk)).symm
          dsimp only
          by_cases ht : tab idx = none
          · rw [if_neg (by simpa using ht)]
            obtain ⟨i1, i2, i3⟩ := ih (some w) (some f) (fun j => if j = idx then some f else tab j) hls
            refine ⟨i1, ?_, ?_⟩
            · intro t ht' k g
              rw [i2 t ht' k g]
              constructor
              · rintro (h | ⟨v, hv, hk⟩)
                · by_cases c : k = idx
                  · subst c
                    rw [if_pos rfl] at h
                    right
                    exact ⟨w, by rw [← Option.some.inj h]; simp, hidx⟩
                  · rw [if_neg c] at h
                    exact Or.inl h
                · exact Or.inr ⟨v, by simp [hv], hk⟩
              · rintro (h | ⟨v, hv, hk⟩)
                · by_cases c : k = idx
                  · subst c; rw [ht] at h; cases h
                  · rw [if_neg c]; exact Or.inl h
                · rcases List.mem_cons.1 hv with e | hv
                  · cases e
                    rw [if_pos (huniq k hk)]
                    exact Or.inl rfl
                  · exact Or.inr ⟨v, hv, hk⟩
            · rw [i3]
              constructor
              · rintro ⟨a1, a2⟩
                refine ⟨?_, List.pairwise_cons.2 ⟨?_, a2⟩⟩
                · intro e he
                  rcases List.mem_cons.1 he with rfl | he
                  · exact ⟨idx, hidx, ht⟩
                  · obtain ⟨k, hk, hn⟩ := a1 e he
                    refine ⟨k, hk, ?_⟩
                    by_contra c
                    by_cases c2 : k = idx
                    · rw [if_pos c2] at hn; cases hn
                    · rw [if_neg c2] at hn; exact c hn
                · intro e he heq
                  obtain ⟨k, ⟨v, hv, hl⟩, hn⟩ := a1 e he
                  have : k = idx := huniq k ⟨v, hv, heq.trans hl⟩
                  rw [if_pos this] at hn
                  cases hn
              · rintro ⟨a1, a2⟩
                obtain ⟨b1, b2⟩ := List.pairwise_cons.1 a2
                refine ⟨fun e he => ?_, b2⟩
                obtain ⟨k, hk, hn⟩ := a1 e (by simp [he])
                refine ⟨k, hk, ?_⟩
                have : k ≠ idx := by
                  rintro rfl
                  obtain ⟨v, hv, hl⟩ := hk
                  obtain ⟨v', hv', hl'⟩ := hidx
                  rw [hv] at hv'
                  cases hv'
                  exact b1 e he (hl'.trans hl.symm)
                rw [if_neg this]
                exact hn
          · rw [if_pos (by simpa using ht)]
            refine ⟨by simp, by simp, ?_⟩
            constructor
            · rintro ⟨t, h⟩; cases h
            · rintro ⟨h, _⟩
              obtain ⟨k, hk, hn⟩ := h (w, f) (by simp)
              rw [huniq k hk] at hn
              exact absurd hn ht

/-- C37: for a name list whose lines are empty, comments or pairs of words, the file
recorded for a keyword is the one on the line with that keyword; the list is accepted
iff all keywords are known and none is given twice. -/
theorem C37_file_names_partial (ls : List NLLine) (hreg : ∀ l ∈ ls, RegLine l) :
    getFileName ls ≠ .ub ∧
    (∀ t, getFileName ls = .ok t → ∀ k f, t k = some f ↔
      ∃ w, (w, f) ∈ entries ls ∧ ∃ v, kwList[k]? = some v ∧
        w.map Char.toLower = v.map Char.toLower) ∧
    ((∃ t, getFileName ls = .ok t) ↔
      (∀ e ∈ entries ls, ∃ (k : ℕ) (v : Word), kwList[k]? = some v ∧
        e.1.map Char.toLower = v.map Char.toLower) ∧
      (entries ls).Pairwise (fun a b => a.1.map Char.toLower ≠ b.1.map Char.toLower)) := by
  obtain ⟨h1, h2, h3⟩ := getFileNameLoop_spec ls none none (fun _ => none) hreg
  refine ⟨h1, ?_, ?_⟩
  · intro t ht k f
    have := h2 t ht k f
    simp only [reduceCtorEq, false_or] at this
    exact this
  · unfold getFileName
    rw [h3]
    constructor
    · rintro ⟨a, b⟩
      exact ⟨fun e he => let ⟨k, ⟨v, hv⟩, _⟩ := a e he; ⟨k, v, hv⟩, b⟩
    · rintro ⟨a, b⟩
      exact ⟨fun e he => let ⟨k, v, hv⟩ := a e he; ⟨k, ⟨v, hv⟩, rfl⟩, b⟩

/-- C37 is violated by the code for a keyword without a file name: the name on the line
before is silently used, here the parameter file for the hopping amplitudes. -/
theorem C37_missing_name_violated :
    ∃ t, getFileName [⟨false, ["ModPara".toList, "modpara.def".toList]⟩, ⟨false, ["Trans".toList]⟩] =
      .ok t ∧ t 2 = some "modpara.def".toList := by
  refine ⟨fun j => if j = 2 then some "modpara.def".toList else
    if j = 0 then some "modpara.def".toList else none, ?_, rfl⟩
  have h1 : checkKW "ModPara".toList kwList = some (some 0) := by decide
  have h2 : checkKW "Trans".toList kwList = some (some 2) := by decide
  simp only [getFileName, getFileNameLoop, h1, h2]
  rw [if_neg (by decide), if_neg (by decide), if_neg (by decide), if_neg (by decide),
    if_neg (by decide), if_neg (by decide), if_neg (by decide), if_neg (by decide), if_neg (by decide),
    if_neg (by decide), if_neg (by decide), if_neg (by decide)]

/-- C37 is violated by the code for a line of blanks: it counts as a repetition of the
line before, so the list is rejected. -/
theorem C37_space_line_violated :
    getFileName [⟨false, ["ModPara".toList, "modpara.def".toList]⟩, ⟨false, []⟩] = .err := by
  have h1 : checkKW "ModPara".toList kwList = some (some 0) := by decide
  simp only [getFileName, getFileNameLoop, h1]
  rw [if_neg (by decide), if_neg (by decide), if_neg (by decide), if_neg (by decide),
    if_neg (by decide), if_neg (by decide), if_neg (by decide), if_neg (by decide), if_neg (by decide),
    if_neg (by decide), if_pos (by decide)]

/-- C37 is violated by the code for a keyword of 200 characters or more: it overruns the
variable that receives it. -/
theorem C37_long_keyword_violated (w : Word) (h : 200 ≤ w.length) (rest : List NLLine) :
    getFileName (⟨false, [w]⟩ :: rest) = .ub := by
  simp [getFileName, getFileNameLoop, h]

/-! ## ModPara -/

theorem mpList_ok : KwOK (mpList.map Prod.fst) := by
  unfold KwOK mpList
  decide

theorem mpList_nodup : (mpList.map fun p => lowerW p.1).Nodup := by
  unfold mpList
  decide

theorem mpFind_spec {c : Word} (hc : NulFree c) (lc : c.length < 257) (ps : List (Word × MPVar))
    (hw : KwOK (ps.map Prod.fst)) (hn : (ps.map fun p => lowerW p.1).Nodup) :
    ∃ r, mpFind c ps = some r ∧
      ∀ v, r = some v ↔ ∃ k, (k, v) ∈ ps ∧ lowerW c = lowerW k := by
  induction ps with
  | nil => exact ⟨none, rfl, by simp⟩
  | cons p ps ih =>
    obtain ⟨r, e, hr⟩ := checkWords_iff hc (hw p.1 (by simp)).1 lc (hw p.1 (by simp)).2
    rw [List.map_cons, List.nodup_cons] at hn
    unfold mpFind
    rw [e]
    dsimp only
    by_cases h : r = 0
    · rw [if_pos h]
      refine ⟨some p.2, rfl, fun v => ?_⟩
      constructor
      · rintro ⟨⟩
        exact ⟨p.1, by simp, hr.1 h⟩
      · rintro ⟨k, hk, hl⟩
        rcases List.mem_cons.1 hk with rfl | hk
        · rfl
        · exfalso
          apply hn.1
          rw [← hr.1 h, hl]
          exact List.mem_map.2 ⟨(k, v), hk, rfl⟩
    · rw [if_neg h]
      obtain ⟨r', e', hr'⟩ := ih (fun w hw' => hw w (by simp at hw' ⊢; exact Or.inr hw')) hn.2
      refine ⟨r', e', fun v => ?_⟩
      rw [hr' v]
      constructor
      · rintro ⟨k, hk, hl⟩
        exact ⟨k, by simp [hk], hl⟩
      · rintro ⟨k, hk, hl⟩
        rcases List.mem_cons.1 hk with rfl | hk
        · exact absurd (hr.2 hl) h
        · exact ⟨k, hk, hl⟩

/-- The documented names of the variables of the parameter file. -/
def docVar : MPVar → List String
  | .VMCCalMode => ["NVMCCalMode"]
  | .LanczosMode => ["NLanczosMode"]
  | .DataIdxStart => ["NDataIdxStart"]
  | .DataQtySmp => ["NDataQtySmp"]
  | .Nsite => ["Nsite"]
  | .Ne => ["Ne", "Nelectron"]
  | .NCond => ["Ncond"]
  | .TwoSz => ["2Sz"]
  | .SPGaussLeg => ["NSPGaussLeg"]
  | .SPStot => ["NSPStot"]
  | .MPTrans => ["NMPTrans"]
  | .SROptItrStep => ["NSROptItrStep"]
  | .SROptItrSmp => ["NSROptItrSmp"]
  | .RedCut => ["DSROptRedCut"]
  | .StaDel => ["DSROptStaDel"]
  | .StepDt => ["DSROptStepDt"]
  | .CGMaxIter => ["NSROptCGMaxIter"]
  | .CGTol => ["DSROptCGTol"]
  | .WarmUp => ["NVMCWarmUp"]
  | .Interval => ["NVMCInterval"]
  | .Sample => ["NVMCSample"]
  | .ExUpdatePath => ["NExUpdatePath"]
  | .RndSeed => ["RndSeed"]
  | .SplitSize => ["NSplitSize"]
  | .Store => ["NStore"]
  | .SRCG => ["NSRCG"]
  | .Nneuron => ["Nneuron"]
  | .NneuronCharge => ["NneuronCharge"]
  | .NneuronSpin => ["NneuronSpin"]
  | .NneuronGeneral => ["NneuronGeneral"]
  | .BlockSize => ["NBlockSize_RBMRatio"]

/-- The word names the variable `v` of the parameter file. -/
def Names (c : Word) (v : MPVar) : Prop :=
  ∃ n ∈ docVar v, c.map Char.toLower = n.toList.map Char.toLower

theorem mem_mpList (k : Word) (v : MPVar) : (k, v) ∈ mpList ↔ ∃ n ∈ docVar v, k = n.toList := by
  constructor
  · intro h
    have : ∀ p ∈ mpList, ∃ n ∈ docVar p.2, p.1 = n.toList := by decide
    exact this _ h
  · rintro ⟨n, hn, rfl⟩
    have : ∀ n ∈ docVar v, (n.toList, v) ∈ mpList := by cases v <;> decide
    exact this n hn

theorem names_iff (c : Word) (v : MPVar) :
    Names c v ↔ ∃ k, (k, v) ∈ mpList ∧ lowerW c = lowerW k := by
  constructor
  · rintro ⟨n, hn, e⟩
    exact ⟨n.toList, (mem_mpList _ _).2 ⟨n, hn, rfl⟩, e⟩
  · rintro ⟨k, hk, e⟩
    obtain ⟨n, hn, rfl⟩ := (mem_mpList _ _).1 hk
    exact ⟨n, hn, e⟩

/-- The parameters that are not integers. -/
def docReal : MPVar → Prop
  | .RedCut | .StaDel | .StepDt | .CGTol => True
  | _ => False

theorem isDouble_iff (v : MPVar) : isDouble v = true ↔ docReal v := by
  cases v <;> simp [isDouble, docReal]

instance (v : MPVar) : Decidable (docReal v) := decidable_of_iff _ (isDouble_iff v)

/-- A line as a user means it: skipped, or a word and a number. -/
def RegMP (l : MPLine) : Prop :=
  l.skip = true ∨ ∃ w q, l.word = some w ∧ l.num = some q ∧ NulFree w ∧ w.length < 256

/-- `z` is the integer part of `q`. -/
def IsTrunc (q : ℚ) (z : ℤ) : Prop :=
  if 0 ≤ q then (z : ℚ) ≤ q ∧ q < z + 1 else q ≤ z ∧ (z : ℚ) - 1 < q

theorem toCInt_trunc {q : ℚ} {z : ℤ} (h : toCInt q = some z) : IsTrunc q z := by
  unfold toCInt at h
  unfold IsTrunc
  by_cases h0 : 0 ≤ q
  · simp only [if_pos h0] at h ⊢
    split at h
    · cases h
      exact ⟨Int.floor_le q, Int.lt_floor_add_one q⟩
    · cases h
  · simp only [if_neg h0] at h ⊢
    split at h
    · cases h
      refine ⟨Int.le_ceil q, ?_⟩
      have := Int.ceil_lt_add_one q
      linarith
    · cases h

/-- Variable `v` holds the number `q` of the file: as it is or, for the integer
variables, its integer part. -/
def Stored (v : MPVar) (q r : ℚ) : Prop :=
  (docReal v ∧ r = q) ∨ (¬ docReal v ∧ ∃ z : ℤ, r = z ∧ IsTrunc q z)

theorem modPara_unchanged (ls : List MPLine) : ∀ c d st st', (∀ l ∈ ls, RegMP l) →
    modParaLoop ls c d st = .ok st' → ∀ v,
    (∀ l ∈ ls, l.skip = false → ∀ w, l.word = some w → ¬ Names w v) → st' v = st v := by
  induction ls with
  | nil =>
    intro c d st st' _ h v _
    simp only [modParaLoop, KwOut.ok.injEq] at h
    rw [h]
  | cons l ls ih =>
    intro c d st st' hreg h v hv
    have hls : ∀ l ∈ ls, RegMP l := fun x hx => hreg x (by simp [hx])
    have hv' : ∀ l ∈ ls, l.skip = false → ∀ w, l.word = some w → ¬ Names w v :=
      fun x hx => hv x (by simp [hx])
    unfold modParaLoop at h
    by_cases hs : l.skip = true
    · rw [if_pos hs] at h
      exact ih _ _ _ _ hls h v hv'
    · rw [if_neg hs] at h
      rcases hreg l (by simp) with h' | ⟨w, q, hw, hq, hnul, hlen⟩
      · exact absurd h' hs
      · rw [hw, hq] at h
        dsimp only [Option.getD_some] at h
        obtain ⟨r, hr, hrv⟩ := mpFind_spec hnul (by omega) mpList mpList_ok mpList_nodup
        rw [hr] at h
        cases r with
        | none => cases h
        | some x =>
          have hx : Names w x := (names_iff _ _).2 ((hrv x).1 rfl)
          have hne : v ≠ x := by
            rintro rfl
            exact hv l (by simp) (by simpa using hs) w hw hx
          dsimp only at h
          split at h
          · rw [ih _ _ _ _ hls h v hv', if_neg hne]
          · split at h
            · cases h
            · split at h
              · cases h
              · rw [ih _ _ _ _ hls h v hv', if_neg hne]

/-- C37: in an accepted parameter file whose lines are skipped or consist of a word and a
number, every keyword is known and each variable gets the number of the last line naming
it, or keeps its default. -/
theorem C37_modpara_partial (ls : List MPLine) : ∀ (c : Word) (d : Option ℚ) (st st' : MPVar → ℚ),
    (∀ l ∈ ls, RegMP l) → modParaLoop ls c d st = .ok st' →
    (∀ l ∈ ls, l.skip = false → ∀ w, l.word = some w → ∃ v, Names w v) ∧
    (∀ v, (∀ l ∈ ls, l.skip = false → ∀ w, l.word = some w → ¬ Names w v) → st' v = st v) ∧
    (∀ (a : List MPLine) l b w q v, ls = a ++ l :: b → l.skip = false → l.word = some w →
      l.num = some q → Names w v →
      (∀ x ∈ b, x.skip = false → ∀ w, x.word = some w → ¬ Names w v) →
      Stored v q (st' v)) := by
  induction ls with
  | nil =>
    intro c d st st' hreg h
    refine ⟨by simp, fun v hv => modPara_unchanged [] c d st st' hreg h v hv, ?_⟩
    intro a l b w q v h
    simp at h
  | cons l ls ih =>
    intro c d st st' hreg h
    refine ⟨?_, fun v hv => modPara_unchanged (l :: ls) c d st st' hreg h v hv, ?_⟩
    all_goals
      have hls : ∀ l ∈ ls, RegMP l := fun x hx => hreg x (by simp [hx])
      unfold modParaLoop at h
      by_cases hs : l.skip = true
    · rw [if_pos hs] at h
      intro x hx hxs w hw
      rcases List.mem_cons.1 hx with rfl | hx
      · rw [hs] at hxs; cases hxs
      · exact (ih _ _ _ _ hls h).1 x hx hxs w hw
    · rw [if_neg hs] at h
      rcases hreg l (by simp) with h' | ⟨w, q, hw, hq, hnul, hlen⟩
      · exact absurd h' hs
      rw [hw, hq] at h
      dsimp only [Option.getD_some] at h
      obtain ⟨r, hr, hrv⟩ := mpFind_spec hnul (by omega) mpList mpList_ok mpList_nodup
      rw [hr] at h
      cases r with
      | none => cases h
      | some x =>
        intro y hy hys w' hw'
        rcases List.mem_cons.1 hy with rfl | hy
        · rw [hw] at hw'
          cases hw'
          exact ⟨x, (names_iff _ _).2 ((hrv x).1 rfl)⟩
        · dsimp only at h
          split at h
          · exact (ih _ _ _ _ hls h).1 y hy hys w' hw'
          · split at h
            · cases h
            · split at h
              · cases h
              · exact (ih _ _ _ _ hls h).1 y hy hys w' hw'
    · rw [if_pos hs] at h
      intro a l' b w q v e hl'
      cases a with
      | nil =>
        rw [List.nil_append, List.cons.injEq] at e
        rw [← e.1, hs] at hl'
        cases hl'
      | cons x a =>
        rw [List.cons_append, List.cons.injEq] at e
        exact (ih _ _ _ _ hls h).2.2 a l' b w q v e.2 hl'
    · rw [if_neg hs] at h
      rcases hreg l (by simp) with h' | ⟨w, q, hw, hq, hnul, hlen⟩
      · exact absurd h' hs
      rw [hw, hq] at h
      dsimp only [Option.getD_some] at h
      obtain ⟨r, hr, hrv⟩ := mpFind_spec hnul (by omega) mpList mpList_ok mpList_nodup
      rw [hr] at h
      cases r with
      | none => cases h
      | some x =>
        intro a l' b w' q' v e hl' hw' hq' hnames hb
        dsimp only at h
        cases a with
        | nil =>
          rw [List.nil_append, List.cons.injEq] at e
          obtain ⟨rfl, rfl⟩ := e
          rw [hw] at hw'
          rw [hq] at hq'
          cases hw'
          cases hq'
          have hxv : x = v := Option.some.inj ((hrv v).2 ((names_iff _ _).1 hnames))
          subst hxv
          split at h
          · rename_i hd
            left
            rw [modPara_unchanged _ _ _ _ _ hls h x hb]
            exact ⟨(isDouble_iff x).1 hd, by simp⟩
          · rename_i hd
            right
            split at h
            · cases h
            · rename_i z hz
              split at h
              · cases h
              · rw [modPara_unchanged _ _ _ _ _ hls h x hb]
                exact ⟨fun c => hd ((isDouble_iff x).2 c), z, by simp, toCInt_trunc hz⟩
        | cons y a =>
          rw [List.cons_append, List.cons.injEq] at e
          split at h
          · exact (ih _ _ _ _ hls h).2.2 a l' b w' q' v e.2 hl' hw' hq' hnames hb
          · split at h
            · cases h
            · split at h
              · cases h
              · exact (ih _ _ _ _ hls h).2.2 a l' b w' q' v e.2 hl' hw' hq' hnames hb

/-- C37 is violated by the code for a parameter without a number: it gets the number of
the line before, here 16 electrons because there are 16 sites. -/
theorem C37_missing_number_violated (st : MPVar → ℚ) :
    ∃ st', modParaLoop [⟨false, some "Nsite".toList, some 16⟩, ⟨false, some "Nelectron".toList, none⟩]
      [] none st = .ok st' ∧ st' .Ne = 16 := by
  have h1 : mpFind "Nsite".toList mpList = some (some .Nsite) := by decide
  have h2 : mpFind "Nelectron".toList mpList = some (some .Ne) := by decide
  have h3 : toCInt 16 = some 16 := by
    unfold toCInt
    norm_num
  refine ⟨fun x => if x = .Ne then 16 else if x = .Nsite then 16 else st x, ?_, ?_⟩
  · simp only [modParaLoop, Option.getD_some, h1, h2, h3, isDouble]
    simp
  · simp

example (st : MPVar → ℚ) : ∃ st', modParaLoop [⟨false, some "nsite".toList, some 8⟩,
    ⟨true, none, none⟩, ⟨false, some "DSROptStepDt".toList, some (1 / 50)⟩] [] none st = .ok st' ∧
    st' .Nsite = 8 ∧ st' .StepDt = 1 / 50 := by
  have h1 : mpFind "nsite".toList mpList = some (some .Nsite) := by decide
  have h2 : mpFind "DSROptStepDt".toList mpList = some (some .StepDt) := by decide
  have h3 : toCInt 8 = some 8 := by
    unfold toCInt
    norm_num
  refine ⟨fun x => if x = .StepDt then 1 / 50 else if x = .Nsite then 8 else st x, ?_, ?_, ?_⟩
  · simp only [modParaLoop, Option.getD_some, h1, h2, h3, isDouble]
    simp
  · simp
  · simp

end MVMC
