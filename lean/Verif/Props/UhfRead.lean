import Verif.Proof.UhfRead
import Verif.Proof.UhfRead2

/-!
# C81: what the Hartree–Fock program makes of its input files
-/
namespace MVMC
open Spec

/-- C81: for a name list whose lines are empty, comments or pairs of words, the list is accepted iff all keywords are known and none is given twice; the file of a keyword
is then the one on its line. The behaviour is undefined iff an unknown keyword follows known and different ones. -/
theorem C81_names_partial (ls : List NLLine) (hreg : ∀ l ∈ ls, RegLine l) :
    (∀ t, uhfGetFileName ls = .ok t → ∀ k f, t k = some f ↔
      ∃ w, (w, f) ∈ entries ls ∧ ∃ v, uhfKwList[k]? = some v ∧ w.map Char.toLower = v.map Char.toLower) ∧
    ((∃ t, uhfGetFileName ls = .ok t) ↔
      (∀ e ∈ entries ls, ∃ v ∈ uhfKwList, e.1.map Char.toLower = v.map Char.toLower) ∧
      (entries ls).Pairwise (fun a b => a.1.map Char.toLower ≠ b.1.map Char.toLower)) ∧
    (uhfGetFileName ls = .ub ↔ ∃ pre e post, entries ls = pre ++ e :: post ∧ (∀ v ∈ uhfKwList, e.1.map Char.toLower ≠ v.map Char.toLower) ∧
      (∀ d ∈ pre, ∃ v ∈ uhfKwList, d.1.map Char.toLower = v.map Char.toLower) ∧
      pre.Pairwise (fun a b => a.1.map Char.toLower ≠ b.1.map Char.toLower)) := by
  obtain ⟨h1, h2⟩ := uhfNameLoop_ent ls (fun _ => none) hreg
  obtain ⟨s1, s2, s3⟩ := uhfEntLoop_spec (entries ls) (fun _ => none) h2
  have kw : ∀ w : Word, (∃ k, UhfIsKw w k) ↔ ∃ v ∈ uhfKwList, w.map Char.toLower = v.map Char.toLower := by
    intro w
    constructor
    · rintro ⟨k, v, hv, hl⟩
      exact ⟨v, List.mem_of_getElem? hv, hl⟩
    · rintro ⟨v, hv, hl⟩
      obtain ⟨i, hi⟩ := List.getElem?_of_mem hv
      exact ⟨i, v, hi, hl⟩
  have kn : ∀ w : Word, (∀ k, ¬ UhfIsKw w k) ↔ ∀ v ∈ uhfKwList, w.map Char.toLower ≠ v.map Char.toLower := by
    intro w
    constructor
    · intro h v hv hl
      obtain ⟨i, hi⟩ := List.getElem?_of_mem hv
      exact h i ⟨v, hi, hl⟩
    · rintro h k ⟨v, hv, hl⟩
      exact h v (List.mem_of_getElem? hv) hl
  unfold uhfGetFileName
  rw [h1]
  refine ⟨?_, ?_, ?_⟩
  · intro t ht k f
    rw [s1 t ht k f]
    simp only [reduceCtorEq, false_or]
    rfl
  · rw [s2]
    simp only [and_true, kw]
    rfl
  · rw [s3]
    simp only [and_true, kw, kn]
    rfl

example : (∃ t, uhfGetFileName [⟨false, ["modpara".toList, "a.def".toList]⟩, ⟨true, []⟩, ⟨false, ["Initial".toList, "i.def".toList]⟩] = .ok t ∧
    t 28 = some "i.def".toList ∧ t 1 = none) := ⟨_, rfl, rfl, rfl⟩

/-- C81: the table of keywords and the enumeration agree with the manual, so the file named on the line of a keyword is read as the file of that keyword. -/
theorem C81_enum (k : UKW) : checkKW (uhfDocName k).toList uhfKwList = some (some (uhfKwIndex k)) ∧ checkKW "ModPara".toList uhfKwList = some (some 0) := by
  cases k <;> decide

/-- C81 is violated by the code for keywords that only the main program knows: with the name list that the main program accepts, the file name is written before the
array. -/
theorem C81_unknown_keyword_violated (f : Word) (hf : f ≠ []) (hl : f.length < 200) :
    uhfGetFileName [⟨false, ["InOrbitalAntiParallel".toList, f]⟩] = .ub ∧ ∃ t, getFileName [⟨false, ["InOrbitalAntiParallel".toList, f]⟩] = .ok t := by
  have hr : RegLine ⟨false, ["InOrbitalAntiParallel".toList, f]⟩ := Or.inr ⟨rfl, _, f, [], rfl, by unfold NulFree; decide, by decide, hf, by decide, hl⟩
  have he : entries [⟨false, ["InOrbitalAntiParallel".toList, f]⟩] = [("InOrbitalAntiParallel".toList, f)] := by
    simp only [entries]
    rw [if_neg (by decide)]
  constructor
  · refine ((C81_names_partial _ (by simpa using hr)).2.2).2 ⟨[], ("InOrbitalAntiParallel".toList, f), [], he, ?_, by simp, by simp⟩
    show ∀ v ∈ uhfKwList, "InOrbitalAntiParallel".toList.map Char.toLower ≠ v.map Char.toLower
    decide
  · refine ((C37_file_names_partial _ (by simpa using hr)).2.2).2 ⟨?_, by rw [he]; simp⟩
    rw [he]
    simp only [List.mem_singleton, forall_eq]
    exact ⟨40, _, rfl, rfl⟩

/-- C81: if all files exist and their heads announce a count, the first pass is defined. It accepts the input iff `locspn.def` is given, `2Sz` is not -1, and with orbital files: these are
either a general one alone or an antiparallel one, perhaps with a parallel one; `NCond` is even or -1; `2Sz` is given as 0, or the orbitals are general and `2Sz` is even or not given. The
counts are those announced, a pair hopping counting twice; with orbital files the number of electron pairs follows from `NCond`, not from `Ne`. -/
theorem C81_sizes_partial (m : UhfMod) (files : UKW → Option (Option HdrFile)) (hf : ∀ k f, files k = some f → ∃ g, f = some g ∧ UhfHead g) :
    let AP := files .orbital ≠ none ∨ files .orbitalAP ≠ none
    let P := files .orbitalP ≠ none
    let G := files .orbitalG ≠ none
    let nc := m.ncond.getD 0
    uhfNInt m files ≠ .ub ∧
    ((∃ z, uhfNInt m files = .ok z) ↔ files .locSpin ≠ none ∧ m.twoSz ≠ some (-1) ∧
      (AP ∨ P ∨ G → ((G ∧ ¬ AP ∧ ¬ P) ∨ (¬ G ∧ AP)) ∧ (nc = -1 ∨ 2 ∣ nc) ∧
        (m.twoSz = some 0 ∨ ((P ∨ G) ∧ ∀ s, m.twoSz = some s → 2 ∣ s)))) ∧
    (∀ z, uhfNInt m files = .ok z →
      (∀ k, ¬ uhfOrbKW k → z.buf.cnt k = uhfPerLine k * uhfAnnounced files k) ∧
      (z.gen = true ↔ P ∨ G) ∧
      (G → z.buf.nIdx = uhfAnnounced files .orbitalG) ∧
      (¬ G → z.buf.nIdx = uhfAnnounced files .orbital + uhfAnnounced files .orbitalAP + 2 * uhfAnnounced files .orbitalP) ∧
      (files .orbitalAP = none → z.buf.nAP = uhfAnnounced files .orbital) ∧
      (files .orbitalAP ≠ none → z.buf.nAP = uhfAnnounced files .orbitalAP) ∧
      ((AP ∨ P ∨ G) ∧ nc ≠ -1 → z.ne = (uhfAnnounced files .locSpin + nc).tdiv 2 ∧ z.nsize = 2 * z.ne) ∧
      (¬ (AP ∨ P ∨ G) ∧ nc ≠ -1 → z.ne = m.ne.getD 0 ∧ z.nsize = uhfAnnounced files .locSpin + nc) ∧
      (nc = -1 → z.ne = m.ne.getD 0)) := by
  intro AP P G nc
  obtain ⟨b, hb, b1, b2, b3, b4, b5, b6, b7, b8⟩ := uhfHdrLoop_all files hf
  have someIff : ∀ k, (files k).isSome = true ↔ files k ≠ none := fun k => by cases files k <;> simp
  have hAP : b.ap = true ↔ AP := by rw [b5, Bool.or_eq_true, someIff, someIff]
  have hP : b.par = true ↔ P := by rw [b6, someIff]
  have hG : b.gen = true ↔ G := by rw [b7, someIff]
  have hO : b.orb = true ↔ AP ∨ P ∨ G := by
    rw [b8, Bool.or_eq_true, Bool.or_eq_true, Bool.or_eq_true, someIff, someIff, someIff, someIff]
    tauto
  have hOb : b.orb = (b.ap || b.par || b.gen) := by rw [b8, b5, b6, b7]
  have hloc : b.cnt .locSpin = uhfAnnounced files .locSpin := by
    rw [b1 .locSpin (by simp [uhfOrbKW])]
    simp [uhfPerLine]
  have tm : ∀ x : ℤ, x.tmod 2 ≠ 0 ↔ ¬ 2 ∣ x := fun x => by rw [Int.dvd_iff_tmod_eq_zero]
  rw [uhfNInt]
  by_cases hl : files .locSpin = none
  · rw [if_pos hl]
    exact ⟨by simp, by simp [hl], by simp⟩
  rw [if_neg hl]
  by_cases ht : m.twoSz = some (-1)
  · rw [if_pos ht]
    exact ⟨by simp, by simp [ht], by simp⟩
  rw [if_neg ht, hb]
  dsimp only
  -- without orbital files
  by_cases ho : AP ∨ P ∨ G
  swap
  · have ho' : b.orb = false := by simpa using fun c => ho (hO.1 c)
    have hg : b.gen = false := by simpa using fun c => ho (Or.inr (Or.inr (hG.1 c)))
    have hPG : ¬ (P ∨ G) := fun c => ho (Or.inr c)
    rw [ho', hg]
    simp only [Bool.false_eq_true, if_false, uhfCounts, false_and, and_false]
    have fin : ∀ ne ns : ℤ, (nc = -1 → ne = m.ne.getD 0) → (nc ≠ -1 → ne = m.ne.getD 0 ∧ ns = uhfAnnounced files .locSpin + nc) →
        (KwOut.ok (⟨b, false, ne, ns⟩ : USizes) ≠ .ub ∧ ((∃ z, KwOut.ok (⟨b, false, ne, ns⟩ : USizes) = .ok z) ↔ files .locSpin ≠ none ∧ m.twoSz ≠ some (-1) ∧
      (AP ∨ P ∨ G → ((G ∧ ¬ AP ∧ ¬ P) ∨ (¬ G ∧ AP)) ∧ (nc = -1 ∨ 2 ∣ nc) ∧
        (m.twoSz = some 0 ∨ ((P ∨ G) ∧ ∀ s, m.twoSz = some s → 2 ∣ s)))) ∧ (∀ z, KwOut.ok (⟨b, false, ne, ns⟩ : USizes) = .ok z →
      (∀ k, ¬ uhfOrbKW k → z.buf.cnt k = uhfPerLine k * uhfAnnounced files k) ∧
      (z.gen = true ↔ P ∨ G) ∧
      (G → z.buf.nIdx = uhfAnnounced files .orbitalG) ∧
      (¬ G → z.buf.nIdx = uhfAnnounced files .orbital + uhfAnnounced files .orbitalAP + 2 * uhfAnnounced files .orbitalP) ∧
      (files .orbitalAP = none → z.buf.nAP = uhfAnnounced files .orbital) ∧
      (files .orbitalAP ≠ none → z.buf.nAP = uhfAnnounced files .orbitalAP) ∧
      ((AP ∨ P ∨ G) ∧ nc ≠ -1 → z.ne = (uhfAnnounced files .locSpin + nc).tdiv 2 ∧ z.nsize = 2 * z.ne) ∧
      (¬ (AP ∨ P ∨ G) ∧ nc ≠ -1 → z.ne = m.ne.getD 0 ∧ z.nsize = uhfAnnounced files .locSpin + nc) ∧
      (nc = -1 → z.ne = m.ne.getD 0))) := by
      intro ne ns q1 q2
      refine ⟨by simp, ⟨fun _ => ⟨hl, ht, fun c => absurd c ho⟩, fun _ => ⟨_, rfl⟩⟩, ?_⟩
      intro z hz
      cases hz
      refine ⟨b1, ⟨fun c => by simp at c, fun c => absurd c hPG⟩, fun c => absurd (Or.inr c) hPG, fun _ => ?_, fun c => ?_, fun c => ?_, fun c => absurd c.1 ho,
        fun c => q2 c.2, q1⟩
      · rw [b4, if_neg (by rw [someIff]; exact fun c => hPG (Or.inr c))]
      · rw [b2, if_neg (by rw [someIff]; exact not_not.2 c)]
      · rw [b2, if_pos ((someIff _).2 c)]
    by_cases hn : nc = -1
    · rw [if_neg (not_not.2 hn)]
      exact fin _ _ (fun _ => rfl) (fun c => absurd hn c)
    · rw [if_pos hn]
      exact fin _ _ (fun _ => rfl) (fun _ => ⟨rfl, by rw [hloc]⟩)
  · have ho' : b.orb = true := hO.2 ho
    rw [ho']
    simp only [if_true]
    by_cases hm : (G ∧ ¬ AP ∧ ¬ P) ∨ (¬ G ∧ AP)
    swap
    · have : judgeOrbitalMode b.gen b.ap b.par = .err := by
        unfold judgeOrbitalMode
        cases hg : b.gen <;> cases ha : b.ap <;> cases hp : b.par <;> simp_all
      rw [this]
      exact ⟨by simp, by simp only [reduceCtorEq, exists_false, false_iff]; exact fun c => hm (c.2.2 ho).1, by simp⟩
    · obtain ⟨mode, hmode⟩ : ∃ mode, judgeOrbitalMode b.gen b.ap b.par = .ok (mode, decide (P ∨ G)) := by
        unfold judgeOrbitalMode
        cases hg : b.gen <;> cases ha : b.ap <;> cases hp : b.par <;> simp_all
      rw [hmode]
      dsimp only
      by_cases hn : nc = -1 ∨ 2 ∣ nc
      swap
      · have : uhfCounts m.ne m.ncond (b.cnt .locSpin) true = .err := by
          unfold uhfCounts
          simp only [if_true]
          rw [if_pos (fun c => hn (Or.inl c)), if_pos ((tm _).2 (fun c => hn (Or.inr c)))]
        rw [this]
        exact ⟨by simp, by simp only [reduceCtorEq, exists_false, false_iff]; exact fun c => hn (c.2.2 ho).2.1, by simp⟩
      · obtain ⟨ne, ns, hc, q1, q2⟩ : ∃ ne ns, uhfCounts m.ne m.ncond (b.cnt .locSpin) true = .ok (ne, ns) ∧ (nc = -1 → ne = m.ne.getD 0) ∧
            (nc ≠ -1 → ne = (uhfAnnounced files .locSpin + nc).tdiv 2 ∧ ns = 2 * ne) := by
          unfold uhfCounts
          simp only [if_true]
          by_cases h1 : nc = -1
          · rw [if_neg (not_not.2 h1)]
            exact ⟨_, _, rfl, fun _ => rfl, fun c => absurd h1 c⟩
          · rw [if_pos h1, if_neg (fun c => (tm nc).1 c (hn.resolve_left h1))]
            exact ⟨_, _, rfl, fun c => absurd c h1, fun _ => ⟨by rw [hloc], rfl⟩⟩
        rw [hc]
        dsimp only
        by_cases hz : m.twoSz = some 0 ∨ ((P ∨ G) ∧ ∀ s, m.twoSz = some s → 2 ∣ s)
        · rw [if_neg]
          · refine ⟨by simp, ⟨fun _ => ⟨hl, ht, fun _ => ⟨hm, hn, hz⟩⟩, fun _ => ⟨_, rfl⟩⟩, ?_⟩
            intro z hz
            cases hz
            refine ⟨b1, by simp, fun c => ?_, fun c => ?_, fun c => ?_, fun c => ?_, fun c => q2 c.2, fun c => absurd ho c.1, q1⟩
            · show b.nIdx = _
              rw [b4, if_pos ((someIff _).2 c)]
            · show b.nIdx = _
              rw [b4, if_neg (by rw [someIff]; exact c)]
            · show b.nAP = _
              rw [b2, if_neg (by rw [someIff]; exact not_not.2 c)]
            · show b.nAP = _
              rw [b2, if_pos ((someIff _).2 c)]
          · rintro ⟨c1, -, c2⟩
            rcases hz with hz | ⟨hz1, hz2⟩
            · rw [hz] at c1; exact c1 rfl
            · rcases c2 with c2 | ⟨c2, c3⟩
              · exact absurd hz1 (by simpa using c2)
              · cases hs : m.twoSz with
                | none => rw [hs] at c3; exact c3 rfl
                | some s =>
                  rw [hs] at c2
                  exact (tm s).1 c2 (hz2 s hs)
        · rw [if_pos]
          · exact ⟨by simp, by simp only [reduceCtorEq, exists_false, false_iff]; exact fun c => hz (c.2.2 ho).2.2, by simp⟩
          · push Not at hz
            obtain ⟨z1, z2⟩ := hz
            refine ⟨?_, trivial, ?_⟩
            · cases hs : m.twoSz with
              | none => simp
              | some s => rintro rfl; exact z1 hs
            · by_cases hpg : P ∨ G
              · right
                obtain ⟨s, hs, hd⟩ := z2 hpg
                rw [hs]
                refine ⟨(tm s).2 hd, ?_⟩
                rintro rfl
                exact ht hs
              · left
                simpa using hpg

example : (∃ z, uhfNInt ⟨4, none, some 4, some 0⟩ (fun k => if k = .locSpin then some (some ⟨9, some 0, none⟩) else
    if k = .pairHop then some (some ⟨9, some 3, none⟩) else if k = .orbital then some (some ⟨9, some 5, none⟩) else none) = .ok z ∧
    z.buf.cnt .pairHop = 6 ∧ z.ne = 2 ∧ z.buf.nIdx = 5 ∧ z.gen = false) := ⟨_, rfl, rfl, rfl, rfl, rfl⟩

/-- C81: an accepted input has a head of at least two lines in every file. The behaviour of the first pass is defined if every file can be opened and none has exactly one line; empty files are rejected. -/
theorem C81_heads (m : UhfMod) (files : UKW → Option (Option HdrFile)) :
    (∀ z, uhfNInt m files = .ok z → ∀ k f, files k = some f → ∃ g, f = some g ∧ 2 ≤ g.nLines) ∧
    ((∀ k f, files k = some f → ∃ g, f = some g ∧ g.nLines ≠ 1) → uhfNInt m files ≠ .ub) := by
  have step : ∀ k f b, (f.nLines = 0 → ∃ b', uhfHdrStep k f b = some (b', false)) ∧ (f.nLines = 1 → uhfHdrStep k f b = none) ∧
      (2 ≤ f.nLines → ∃ b', uhfHdrStep k f b = some (b', true)) := by
    intro k f b
    refine ⟨fun h => ?_, fun h => ?_, fun h => ?_⟩
    · cases k <;> exact ⟨_, by simp only [uhfHdrStep, readBuffInt, if_pos h]; rfl⟩
    · cases k <;> simp [uhfHdrStep, readBuffInt, h]
    · have h0 : f.nLines ≠ 0 := by omega
      have h1 : f.nLines ≠ 1 := by omega
      cases k <;> exact ⟨_, by simp only [uhfHdrStep, readBuffInt, if_neg h0, if_neg h1]; rfl⟩
  have loop1 : ∀ ks b b', uhfHdrLoop files ks b = .ok b' → ∀ k ∈ ks, ∀ f, files k = some f → ∃ g, f = some g ∧ 2 ≤ g.nLines := by
    intro ks
    induction ks with
    | nil => simp
    | cons a ks ih =>
      intro b b' h k hk f hf
      rw [uhfHdrLoop] at h
      cases ha : files a with
      | none =>
        rw [ha] at h
        rcases List.mem_cons.1 hk with rfl | hk
        · rw [ha] at hf; cases hf
        · exact ih b b' h k hk f hf
      | some o =>
        cases o with
        | none => rw [ha] at h; cases h
        | some g =>
          rw [ha] at h
          dsimp only at h
          rcases Nat.lt_or_ge g.nLines 2 with c | c
          · rcases (by omega : g.nLines = 0 ∨ g.nLines = 1) with c | c
            · obtain ⟨x, hx⟩ := (step a g b).1 c
              rw [hx] at h; simp at h
            · rw [(step a g b).2.1 c] at h; cases h
          · obtain ⟨x, hx⟩ := (step a g b).2.2 c
            rw [hx] at h
            simp only [if_true] at h
            rcases List.mem_cons.1 hk with rfl | hk
            · rw [ha] at hf; cases hf; exact ⟨g, rfl, c⟩
            · exact ih x b' h k hk f hf
  have loop2 : (∀ k f, files k = some f → ∃ g, f = some g ∧ g.nLines ≠ 1) → ∀ ks b, uhfHdrLoop files ks b ≠ .ub := by
    intro hf ks
    induction ks with
    | nil => simp [uhfHdrLoop]
    | cons a ks ih =>
      intro b
      rw [uhfHdrLoop]
      cases ha : files a with
      | none => exact ih b
      | some o =>
        obtain ⟨g, rfl, hg⟩ := hf a o ha
        dsimp only
        rcases Nat.lt_or_ge g.nLines 2 with c | c
        · obtain ⟨x, hx⟩ := (step a g b).1 (by omega)
          rw [hx]; simp
        · obtain ⟨x, hx⟩ := (step a g b).2.2 c
          rw [hx]; simpa using ih x
  constructor
  · intro z hz k f hf
    rw [uhfNInt] at hz
    split_ifs at hz
    cases hb : uhfHdrLoop files uhfOrder {} with
    | ok b => exact loop1 _ _ _ hb k (by cases k <;> decide) f hf
    | err => rw [hb] at hz; cases hz
    | ub => rw [hb] at hz; cases hz
  · intro hf h
    rw [uhfNInt] at h
    split_ifs at h
    cases hb : uhfHdrLoop files uhfOrder {} with
    | ok b =>
      rw [hb] at h
      dsimp only at h
      split at h
      · split at h
        · split_ifs at h
        · cases h
      · cases h
    | err => rw [hb] at h; cases h
    | ub => exact loop2 hf _ _ hb

example : uhfNInt ⟨4, none, none, none⟩ (fun k => if k = .locSpin then some (some ⟨0, none, none⟩) else none) = .err := rfl

/-- C81 is violated by the code if a file cannot be opened: the error branch closes a null pointer instead of rejecting the input. -/
theorem C81_missing_file_violated (m : UhfMod) (files : UKW → Option (Option HdrFile)) (hm : m.twoSz ≠ some (-1)) (h : files .locSpin = some none) :
    uhfNInt m files = .ub := by
  rw [uhfNInt, if_neg (by simp [h]), if_neg hm, uhfOrder, uhfHdrLoop, h]

/-- C81: for regular input of the second pass the behaviour is undefined iff a line of `locspn.def` names a site that does not exist or a table has more lines than
announced. Otherwise the input is rejected iff there are more local spins than electrons, `locspn.def` has a line for every site, and no later table has too few lines. If accepted, the tables hold the lines
of their files, in order, followed by empty rows if lines are missing, and each site the last value its lines give. -/
theorem C81_second_pass_partial (N : ℕ) (z : USizes) (files : UKW → Option (Option (List DLine))) (loc : List DLine) (hr : UhfRegular z files loc) :
    (uhfIdxPara N z files = .ub ↔ (∃ l ∈ loc, ¬ (0 ≤ l.ints.headD 0 ∧ l.ints.headD 0 < N)) ∨
      ∃ k ls, UhfUsed z files k ls ∧ uhfPerLine k * (ls.length : ℤ) > z.buf.cnt k) ∧
    (uhfIdxPara N z files = .err ↔ uhfIdxPara N z files ≠ .ub ∧ 2 * z.ne < z.buf.cnt .locSpin ∧ loc.length = N ∧
      ∀ k ls, UhfUsed z files k ls → uhfPerLine k * (ls.length : ℤ) = z.buf.cnt k) ∧
    uhfIdxPara N z files ≠ .hang ∧
    (∀ t, uhfIdxPara N z files = .ok t →
      (∀ k ls, UhfUsed z files k ls → (∀ l ∈ ls, UhfComplete k l) →
        t.rows k = uhfTable k ls ++ List.replicate ((z.buf.cnt k).toNat - (uhfTable k ls).length) (uhfNoRow k)) ∧
      (∀ pre l post, loc = pre ++ l :: post → (∀ l' ∈ post, l'.ints.headD 0 ≠ l.ints.headD 0) → t.loc (l.ints.headD 0).toNat = l.ints[1]?) ∧
      (∀ j : ℕ, (∀ l ∈ loc, l.ints.headD 0 ≠ j) → t.loc j = none)) := by
  obtain ⟨hh, hloc, hlines, hs, ⟨o1, o2, o3, o4⟩, hc, hp⟩ := hr
  obtain ⟨l1, l2⟩ := uhfLocLoop_spec N loc [none, none] 0 (uhfTabs0 N z).loc rfl hlines
  have hfirst : uhfFileLoop N z files uhfOrder (uhfTabs0 N z) = match uhfFileStep N z .locSpin loc (uhfTabs0 N z) with
      | .ok t => uhfFileLoop N z files uhfOrder.tail t
      | .err => .err
      | .ub => .ub
      | .hang => .hang := by
    rw [uhfOrder, uhfFileLoop, hloc]
    rfl
  have hmem : ∀ k : UKW, k ≠ .locSpin → k ∈ uhfOrder.tail := by intro k; cases k <;> simp [uhfOrder]
  have hin : ∀ k ∈ uhfOrder.tail, k ≠ .locSpin := by decide
  by_cases hsite : ∃ l ∈ loc, ¬ (0 ≤ l.ints.headD 0 ∧ l.ints.headD 0 < (N : ℤ))
  · have e : uhfIdxPara N z files = .ub := by
      rw [uhfIdxPara, hfirst, uhfFileStep]
      simp only [l1 hsite]
    rw [e]
    exact ⟨⟨fun _ => Or.inl hsite, fun _ => rfl⟩, by simp, by simp, by simp⟩
  have hsite' : ∀ l ∈ loc, 0 ≤ l.ints.headD 0 ∧ l.ints.headD 0 < (N : ℤ) := by
    intro l hl
    by_contra c
    exact hsite ⟨l, hl, c⟩
  obtain ⟨t1, e1, e2, e3⟩ := l2 hsite'
  have hstep : uhfFileStep N z .locSpin loc (uhfTabs0 N z) = .ok { uhfTabs0 N z with loc := t1, info := if loc.length ≠ N then 0 else if 2 * z.ne < z.buf.cnt .locSpin then 1 else 0 } := by
    rw [uhfFileStep]
    simp only [e1, Nat.zero_add]
    rfl
  rw [hstep] at hfirst
  dsimp only at hfirst
  obtain ⟨s1, s2⟩ := uhfFileLoop_spec N z files hh hs hc hp uhfOrder.tail { uhfTabs0 N z with loc := t1, info := if loc.length ≠ N then 0 else if 2 * z.ne < z.buf.cnt .locSpin then 1 else 0 } (by decide) (by
    intro k hk ls hf
    rw [utab_iff]
    refine ⟨hin k hk, ?_, ?_, ?_, ?_⟩ <;> rintro rfl
    · rw [o1] at hf; cases hf
    · rw [o2] at hf; cases hf
    · rw [o3] at hf; cases hf
    · rw [o4] at hf; cases hf)
  by_cases hmany : ∃ k ls, UhfUsed z files k ls ∧ uhfPerLine k * (ls.length : ℤ) > z.buf.cnt k
  · obtain ⟨k, ls, u, hm⟩ := hmany
    have e : uhfIdxPara N z files = .ub := by
      rw [uhfIdxPara, hfirst, s1 ⟨k, hmem k u.1, ls, u, by omega⟩]
    rw [e]
    exact ⟨by simp only [true_iff]; exact Or.inr ⟨k, ls, u, hm⟩, by simp, by simp, by simp⟩
  · obtain ⟨t', a1, a2, a3, a4, a5, a6⟩ := s2 (fun k _ ls u => by by_contra c; exact hmany ⟨k, ls, u, by omega⟩)
    have e : uhfIdxPara N z files = if t'.info ≠ 0 then .err else .ok t' := by
      rw [uhfIdxPara, hfirst, a1]
    have hinfo : t'.info ≠ 0 ↔ 2 * z.ne < z.buf.cnt .locSpin ∧ loc.length = N ∧ ∀ k ls, UhfUsed z files k ls → uhfPerLine k * (ls.length : ℤ) = z.buf.cnt k := by
      by_cases hall : ∀ k ls, UhfUsed z files k ls → uhfPerLine k * (ls.length : ℤ) = z.buf.cnt k
      · rw [a5 (fun k _ ls u => hall k ls u)]
        dsimp only
        by_cases h1 : loc.length = N
        · by_cases h2 : 2 * z.ne < z.buf.cnt .locSpin
          · simp only [h1, h2, ne_eq, not_true, if_false, if_true]
            simpa using hall
          · simp [h1, h2]
        · simp [h1]
      · have : t'.info = 0 := by
          push Not at hall
          obtain ⟨k, ls, u, b⟩ := hall
          exact a4 ⟨k, hmem k u.1, ls, u, b⟩
        simp only [this, ne_eq, not_true, hall, and_false]
    have hnub : uhfIdxPara N z files ≠ .ub := by rw [e]; split <;> simp
    refine ⟨?_, ?_, by rw [e]; split <;> simp, ?_⟩
    · simp only [hnub, hsite, hmany, or_self]
    · simp only [hnub, ne_eq, not_false_eq_true, true_and]
      rw [← hinfo, e]
      split <;> simp_all
    · intro t ht
      rw [e] at ht
      by_cases hi : t'.info ≠ 0
      · rw [if_pos hi] at ht; cases ht
      · rw [if_neg hi] at ht
        cases ht
        refine ⟨fun k ls u => a6 k (hmem k u.1) ls u, ?_, ?_⟩
        · rw [a2]; exact e3
        · intro j hj
          rw [a2]
          exact e2 j hj

/-- One hopping and one local spin on a site. -/
def uhfEx (n : ℤ) (ls locs : List DLine) (k : UKW) : Option (Option (List DLine)) :=
  if k = .locSpin then some (some locs) else if k = .trans ∧ 0 < n then some (some ls) else none

/-- the sizes of the example: `n` hoppings, one local spin, `ne` electron pairs -/
def uhfExZ (n ne : ℤ) : USizes := ⟨{ cnt := fun k => if k = .trans then n else if k = .locSpin then 1 else 0 }, false, ne, 2⟩

example : ∃ t, uhfIdxPara 2 (uhfExZ 2 1) (uhfEx 2 [⟨[0, 0, 1, 0], [1]⟩, ⟨[1, 0, 0, 0], [1, 3]⟩] [⟨[0, 1], []⟩, ⟨[1, 0], []⟩]) = .ok t ∧
    t.rows .trans = [⟨[0, 0, 1, 0], some 1, some 0⟩, ⟨[1, 0, 0, 0], some 1, some 3⟩] ∧ t.loc 0 = some 1 ∧ t.loc 1 = some 0 := ⟨_, rfl, rfl, rfl, rfl⟩

/-- C81 is violated by the code for a table with too few lines: it is accepted, and the missing amplitude is memory that was never written. -/
theorem C81_short_violated : ∃ t, uhfIdxPara 2 (uhfExZ 2 1) (uhfEx 2 [⟨[0, 0, 1, 0], [1]⟩] [⟨[0, 1], []⟩, ⟨[1, 0], []⟩]) = .ok t ∧
    t.rows .trans = [⟨[0, 0, 1, 0], some 1, some 0⟩, ⟨[0, 0, 0, 0], none, none⟩] := ⟨_, rfl, rfl⟩

/-- C81 is violated by the code for a table with more lines than announced: it is written beyond its end. -/
theorem C81_surplus_violated :
    uhfIdxPara 2 (uhfExZ 1 1) (uhfEx 1 [⟨[0, 0, 1, 0], [1]⟩, ⟨[1, 0, 0, 0], [1]⟩] [⟨[0, 1], []⟩, ⟨[1, 0], []⟩]) = .ub := rfl

/-- C81 is violated by the code for too few electrons: the error is found, but forgotten if a file read later has too few lines. -/
theorem C81_erased_violated :
    uhfIdxPara 2 (uhfExZ 2 0) (uhfEx 2 [⟨[0, 0, 1, 0], [1]⟩, ⟨[1, 0, 0, 0], [1]⟩] [⟨[0, 1], []⟩, ⟨[1, 0], []⟩]) = .err ∧
    (∃ t, uhfIdxPara 2 (uhfExZ 2 0) (uhfEx 2 [⟨[0, 0, 1, 0], [1]⟩] [⟨[0, 1], []⟩, ⟨[1, 0], []⟩]) = .ok t) := ⟨rfl, _, rfl⟩

/-- C81 is violated by the code for a site that does not exist in an antiparallel orbital file: the line is stored, reading stops, and the file is accepted. -/
theorem C81_orbital_site_violated (info : ℤ) (ls : List (List ℤ)) :
    ∃ T, uhfReadAP false 2 ([3, 0, 7, 1] :: ls) info (uhfOrbInit false 2) = .ok (0, T) := ⟨_, rfl⟩

/-- C81 is violated by the code for one-body operators with different spins: an error is printed, reading stops, and the file is accepted. -/
theorem C81_spin_violated (N : ℕ) (z : USizes) (t : UTabs) (ls : List DLine) (hz : 0 < z.buf.cnt .oneBodyG) :
    ∃ t', uhfFileStep N z .oneBodyG (⟨[0, 0, 0, 1], []⟩ :: ls) t = .ok t' ∧ t'.info = 0 := by
  simp only [uhfFileStep, gt_iff_lt, if_pos hz, uhfOneBodyLoop, scanO]
  simp [show ¬ z.buf.cnt .oneBodyG ≤ 0 by omega, uhfStore, uhfDefError]

end MVMC
