import Verif.Spec.UhfRead
import Verif.Props.KeyWord

/-! # The name list and the first pass of the Hartree–Fock reader -/
namespace MVMC
open Spec

/-! ## The name list -/

theorem uhfKwList_ok : KwOK uhfKwList := by
  unfold KwOK uhfKwList
  decide

theorem uhfKwList_nodup : (uhfKwList.map lowerW).Nodup := by
  unfold uhfKwList
  decide

theorem uhfKwList_inj {i j : Nat} {v w : Word} (hi : uhfKwList[i]? = some v) (hj : uhfKwList[j]? = some w)
    (h : lowerW v = lowerW w) : i = j := by
  have h1 : (uhfKwList.map lowerW)[i]? = some (lowerW v) := by rw [List.getElem?_map, hi]; rfl
  have h2 : (uhfKwList.map lowerW)[j]? = some (lowerW w) := by rw [List.getElem?_map, hj]; rfl
  have l1 : i < (uhfKwList.map lowerW).length := by
    rw [List.getElem?_eq_some_iff] at h1; exact h1.1
  exact (List.getElem?_inj l1 uhfKwList_nodup).1 (h1.trans (h ▸ h2.symm))

/-- The keyword `k` of the list is the word `c`, ignoring case. -/
def UhfIsKw (c : Word) (k : Nat) : Prop := ∃ w, uhfKwList[k]? = some w ∧ lowerW c = lowerW w

theorem uhfCheckKW_iff {c : Word} (hc : NulFree c) (lc : c.length < 257) (h0 : c ≠ []) :
    ∃ r, checkKW c uhfKwList = some r ∧ ∀ k, r = some k ↔ UhfIsKw c k := by
  unfold checkKW
  by_cases h : ∃ k, UhfIsKw c k
  · obtain ⟨k, w, hk, hl⟩ := h
    refine ⟨some k, ?_, ?_⟩
    · rw [checkKWLoop_some hc lc h0 uhfKwList uhfKwList_ok 0 none k w hk hl]
      · rw [Nat.zero_add]
      · intro j' w' hlt hj' e
        exact absurd (uhfKwList_inj hk hj' (hl.symm.trans e)) (by omega)
    · intro k'
      constructor
      · rintro ⟨⟩; exact ⟨w, hk, hl⟩
      · rintro ⟨w', hk', hl'⟩
        rw [uhfKwList_inj hk hk' (hl.symm.trans hl')]
  · refine ⟨none, ?_, fun k => ⟨fun e => (Option.some_ne_none k e.symm).elim,
      fun e => absurd ⟨k, e⟩ h⟩⟩
    refine checkKWLoop_none hc lc h0 uhfKwList uhfKwList_ok 0 none fun w hw e => h ?_
    obtain ⟨i, hi⟩ := List.getElem?_of_mem hw
    exact ⟨i, w, hi, e⟩

/-- the loop over entries (keyword, name) instead of lines -/
def uhfEntLoop : List (Word × Word) → (Nat → Option Word) → KwOut (Nat → Option Word)
  | [], tab => .ok tab
  | e :: es, tab => match checkKW e.1 uhfKwList with
    | some (some idx) => if tab idx ≠ none then .err else uhfEntLoop es (fun j => if j = idx then some e.2 else tab j)
    | _ => .ub

theorem uhfNameLoop_ent (ls : List NLLine) : ∀ tab, (∀ l ∈ ls, RegLine l) →
    uhfNameLoop ls tab = uhfEntLoop (entries ls) tab ∧ ∀ e ∈ entries ls, NulFree e.1 ∧ e.1.length < 257 ∧ e.1 ≠ [] := by
  induction ls with
  | nil => intro tab _; exact ⟨rfl, by simp [entries]⟩
  | cons l ls ih =>
    intro tab hreg
    have hr := hreg l (by simp)
    have hls : ∀ l ∈ ls, RegLine l := fun x hx => hreg x (by simp [hx])
    rcases hr with ⟨hb, hw⟩ | ⟨hb, w, f, rest, hw, hnul, hw0, hf0, hlw, hlf⟩
    · have e1 : uhfNameLoop (l :: ls) tab = uhfNameLoop ls tab := by
        rw [uhfNameLoop, hw]
        simp [hb]
      have e2 : entries (l :: ls) = entries ls := by
        rw [entries, hw]
      rw [e1, e2]
      exact ih tab hls
    · have hlen : ¬ (w.length ≥ 200 ∨ f.length ≥ 200) := by omega
      by_cases hc : w.head? = some '#'
      · have e1 : uhfNameLoop (l :: ls) tab = uhfNameLoop ls tab := by
          rw [uhfNameLoop, hw]
          simp only [List.getD_cons_zero, List.getD_cons_succ, if_neg hlen, if_pos (Or.inl hc : w.head? = some '#' ∨ _)]
        have e2 : entries (l :: ls) = entries ls := by
          rw [entries, hw]
          simp [hc]
        rw [e1, e2]
        exact ih tab hls
      · have e2 : entries (l :: ls) = (w, f) :: entries ls := by
          rw [entries, hw]
          simp [hc, hb]
        have hno : ¬ (w.head? = some '#' ∨ l.blank = true ∨ w = [] ∨ f = []) := by simp [hc, hb, hw0, hf0]
        constructor
        · rw [e2, uhfNameLoop, hw, uhfEntLoop]
          simp only [List.getD_cons_zero, List.getD_cons_succ, if_neg hlen, if_neg hno]
          cases checkKW w uhfKwList with
          | none => rfl
          | some r =>
            cases r with
            | none => rfl
            | some idx => dsimp only; rw [(ih _ hls).1]
        · intro e he
          rw [e2] at he
          rcases List.mem_cons.1 he with rfl | he
          · exact ⟨hnul, by dsimp only; omega, hw0⟩
          · exact (ih tab hls).2 e he

theorem uhfEntLoop_spec (es : List (Word × Word)) : ∀ tab, (∀ e ∈ es, NulFree e.1 ∧ e.1.length < 257 ∧ e.1 ≠ []) →
    (∀ t, uhfEntLoop es tab = .ok t → (∀ k f, t k = some f ↔ tab k = some f ∨ ∃ w, (w, f) ∈ es ∧ UhfIsKw w k)) ∧
    ((∃ t, uhfEntLoop es tab = .ok t) ↔
      (∀ e ∈ es, ∃ k, UhfIsKw e.1 k ∧ tab k = none) ∧ es.Pairwise (fun a b => lowerW a.1 ≠ lowerW b.1)) ∧
    (uhfEntLoop es tab = .ub ↔ ∃ pre e post, es = pre ++ e :: post ∧ (∀ k, ¬ UhfIsKw e.1 k) ∧
      (∀ d ∈ pre, ∃ k, UhfIsKw d.1 k ∧ tab k = none) ∧ pre.Pairwise (fun a b => lowerW a.1 ≠ lowerW b.1)) := by
  induction es with
  | nil =>
    intro tab _
    refine ⟨?_, by simp [uhfEntLoop], by simp [uhfEntLoop]⟩
    intro t ht k f
    simp only [uhfEntLoop, KwOut.ok.injEq] at ht
    subst ht
    simp
  | cons e es ih =>
    intro tab hes
    obtain ⟨h1, h2, h3⟩ := hes e (by simp)
    obtain ⟨r, hr, hrk⟩ := uhfCheckKW_iff h1 h2 h3
    rw [uhfEntLoop, hr]
    cases r with
    | none =>
      dsimp only
      have hno : ∀ k, ¬ UhfIsKw e.1 k := fun k hk => absurd ((hrk k).2 hk) (by simp)
      refine ⟨by simp, ?_, ?_⟩
      · constructor
        · rintro ⟨t, ht⟩; cases ht
        · rintro ⟨h, _⟩
          obtain ⟨k, hk, _⟩ := h e (by simp)
          exact absurd hk (hno k)
      · exact ⟨fun _ => ⟨[], e, es, rfl, hno, by simp, by simp⟩, fun _ => rfl⟩
    | some idx =>
      have hidx : UhfIsKw e.1 idx := (hrk idx).1 rfl
      have huniq : ∀ k, UhfIsKw e.1 k → k = idx := fun k hk => (Option.some.inj ((hrk k).2 hk)).symm
      dsimp only
      by_cases ht : tab idx = none
      · rw [if_neg (by simpa using ht)]
        obtain ⟨i2, i3, i4⟩ := ih (fun j => if j = idx then some e.2 else tab j) (fun x hx => hes x (by simp [hx]))
        -- the two forms of "known, free and pairwise different"
        have key : ∀ ds : List (Word × Word),
            ((∀ d ∈ ds, ∃ k, UhfIsKw d.1 k ∧ (if k = idx then some e.2 else tab k) = none) ∧ ds.Pairwise (fun a b => lowerW a.1 ≠ lowerW b.1)) ↔
            ((∀ d ∈ e :: ds, ∃ k, UhfIsKw d.1 k ∧ tab k = none) ∧ (e :: ds).Pairwise (fun a b => lowerW a.1 ≠ lowerW b.1)) := by
          intro ds
          constructor
          · rintro ⟨a1, a2⟩
            refine ⟨?_, List.pairwise_cons.2 ⟨?_, a2⟩⟩
            · intro d hd
              rcases List.mem_cons.1 hd with rfl | hd
              · exact ⟨idx, hidx, ht⟩
              · obtain ⟨k, hk, hn⟩ := a1 d hd
                refine ⟨k, hk, ?_⟩
                by_cases c2 : k = idx
                · rw [if_pos c2] at hn; cases hn
                · rwa [if_neg c2] at hn
            · intro d hd heq
              obtain ⟨k, ⟨v, hv, hl⟩, hn⟩ := a1 d hd
              have : k = idx := huniq k ⟨v, hv, heq.trans hl⟩
              rw [if_pos this] at hn
              cases hn
          · rintro ⟨a1, a2⟩
            obtain ⟨b1, b2⟩ := List.pairwise_cons.1 a2
            refine ⟨fun d hd => ?_, b2⟩
            obtain ⟨k, hk, hn⟩ := a1 d (by simp [hd])
            refine ⟨k, hk, ?_⟩
            have : k ≠ idx := by
              rintro rfl
              obtain ⟨v, hv, hl⟩ := hk
              obtain ⟨v', hv', hl'⟩ := hidx
              rw [hv] at hv'
              cases hv'
              exact b1 d hd (hl'.trans hl.symm)
            rw [if_neg this]
            exact hn
        refine ⟨?_, i3.trans (key es), i4.trans ?_⟩
        · intro t ht' k g
          rw [i2 t ht' k g]
          constructor
          · rintro (h | ⟨v, hv, hk⟩)
            · by_cases c : k = idx
              · subst c
                rw [if_pos rfl] at h
                right
                exact ⟨e.1, by rw [← Option.some.inj h]; simp, hidx⟩
              · rw [if_neg c] at h
                exact Or.inl h
            · exact Or.inr ⟨v, by simp [hv], hk⟩
          · rintro (h | ⟨v, hv, hk⟩)
            · by_cases c : k = idx
              · subst c; rw [ht] at h; cases h
              · rw [if_neg c]; exact Or.inl h
            · rcases List.mem_cons.1 hv with e | hv
              · cases e
                rw [if_pos (huniq k hk)]
                exact Or.inl rfl
              · exact Or.inr ⟨v, hv, hk⟩
        · constructor
          · rintro ⟨pre, d, post, q1, q2, q3⟩
            exact ⟨e :: pre, d, post, by rw [q1]; rfl, q2, (key pre).1 q3⟩
          · rintro ⟨pre, d, post, q1, q2, q3⟩
            cases pre with
            | nil =>
              simp only [List.nil_append, List.cons.injEq] at q1
              exact absurd (q1.1 ▸ hidx) (q2 idx)
            | cons p pre =>
              simp only [List.cons_append, List.cons.injEq] at q1
              obtain ⟨rfl, rfl⟩ := q1
              exact ⟨pre, d, post, rfl, q2, (key pre).2 q3⟩
      · rw [if_pos (by simpa using ht)]
        have hbad : ¬ ∃ k, UhfIsKw e.1 k ∧ tab k = none := by
          rintro ⟨k, hk, hn⟩
          rw [huniq k hk] at hn
          exact ht hn
        refine ⟨by simp, ?_, ?_⟩
        · constructor
          · rintro ⟨t, h⟩; cases h
          · rintro ⟨h, _⟩
            exact absurd (h e (by simp)) hbad
        · constructor
          · intro h; cases h
          · rintro ⟨pre, d, post, q1, q2, q3, _⟩
            cases pre with
            | nil =>
              simp only [List.nil_append, List.cons.injEq] at q1
              exact absurd (q1.1 ▸ hidx) (q2 idx)
            | cons p pre =>
              simp only [List.cons_append, List.cons.injEq] at q1
              exact absurd (q1.1 ▸ q3 p (by simp)) hbad

/-! ## The first pass -/

/-- the change of the counts by a file of keyword `k` announcing `n` -/
def uhfEff (k : UKW) (n : ℤ) (b : UBuf) : UBuf :=
  match k with
  | .orbital | .orbitalAP => { b with orb := true, iAP := n, nAP := n, ap := true, nIdx := b.nIdx + n }
  | .orbitalP => { b with orb := true, iP := n, nP := 2 * n, par := true, nIdx := b.nIdx + 2 * n }
  | .orbitalG => { b with orb := true, nIdx := n, gen := true }
  | .pairHop => { b with cnt := fun j => if j = k then n * 2 else b.cnt j }
  | _ => { b with cnt := fun j => if j = k then n else b.cnt j }

theorem uhfHdrStep_eff (k : UKW) (f : HdrFile) (b : UBuf) (h : UhfHead f) : uhfHdrStep k f b = some (uhfEff k (f.num.getD 0) b, true) := by
  obtain ⟨h1, h2⟩ := h
  obtain ⟨n, hn⟩ := Option.ne_none_iff_exists'.1 h2
  have hr : ∀ old, readBuffInt f old = some (n, true) := by
    intro old
    rw [readBuffInt, if_neg (by omega), if_neg (by omega), hn]
    rfl
  cases k <;> simp [uhfHdrStep, hr, uhfEff, hn]

/-- the same for a keyword with or without file -/
def uhfEffF (files : UKW → Option (Option HdrFile)) (b : UBuf) (k : UKW) : UBuf :=
  if (files k).isSome then uhfEff k (uhfAnnounced files k) b else b

theorem uhfHdrLoop_fold (files : UKW → Option (Option HdrFile)) (hf : ∀ k f, files k = some f → ∃ g, f = some g ∧ UhfHead g) (ks : List UKW) :
    ∀ b, uhfHdrLoop files ks b = .ok (ks.foldl (uhfEffF files) b) := by
  induction ks with
  | nil => intro b; rfl
  | cons k ks ih =>
    intro b
    rw [uhfHdrLoop, List.foldl_cons]
    cases h : files k with
    | none => simp only [ih]; simp [uhfEffF, h]
    | some f =>
      obtain ⟨g, rfl, hg⟩ := hf k f h
      simp only [uhfHdrStep_eff k g b hg, if_true, ih]
      simp [uhfEffF, h, uhfAnnounced]

/-- The result of the loop in closed form. -/
theorem uhfHdrLoop_all (files : UKW → Option (Option HdrFile)) (hf : ∀ k f, files k = some f → ∃ g, f = some g ∧ UhfHead g) :
    ∃ b, uhfHdrLoop files uhfOrder {} = .ok b ∧
      (∀ k, ¬ uhfOrbKW k → b.cnt k = uhfPerLine k * uhfAnnounced files k) ∧
      b.nAP = (if (files .orbitalAP).isSome then uhfAnnounced files .orbitalAP else uhfAnnounced files .orbital) ∧
      b.nP = 2 * uhfAnnounced files .orbitalP ∧
      b.nIdx = (if (files .orbitalG).isSome then uhfAnnounced files .orbitalG else
        uhfAnnounced files .orbital + uhfAnnounced files .orbitalAP + 2 * uhfAnnounced files .orbitalP) ∧
      b.ap = ((files .orbital).isSome || (files .orbitalAP).isSome) ∧ b.par = (files .orbitalP).isSome ∧ b.gen = (files .orbitalG).isSome ∧
      b.orb = ((files .orbital).isSome || (files .orbitalAP).isSome || (files .orbitalP).isSome || (files .orbitalG).isSome) := by
  refine ⟨_, uhfHdrLoop_fold files hf uhfOrder {}, ?_⟩
  have a0 : ∀ k, (files k).isSome = false → uhfAnnounced files k = 0 := by
    intro k h
    cases h' : files k with
    | none => simp [uhfAnnounced, h']
    | some f => simp [h'] at h
  simp only [uhfOrder, List.foldl_cons, List.foldl_nil]
  have c1 : ∀ k b j, ¬ uhfOrbKW k → (uhfEffF files b k).cnt j = if (files k).isSome ∧ j = k then uhfPerLine k * uhfAnnounced files k else b.cnt j := by
    intro k b j hk
    unfold uhfEffF
    by_cases h : (files k).isSome
    · cases k <;> simp_all [uhfEff, uhfOrbKW, uhfPerLine, mul_comm]
    · simp [h]
  have c2 : ∀ k b j, uhfOrbKW k → (uhfEffF files b k).cnt j = b.cnt j := by
    intro k b j hk
    unfold uhfEffF
    split
    · rcases hk with rfl | rfl | rfl | rfl <;> rfl
    · rfl
  have c3 : ∀ k b, ¬ uhfOrbKW k → (uhfEffF files b k).nAP = b.nAP ∧ (uhfEffF files b k).nP = b.nP ∧ (uhfEffF files b k).nIdx = b.nIdx ∧
      (uhfEffF files b k).ap = b.ap ∧ (uhfEffF files b k).par = b.par ∧ (uhfEffF files b k).gen = b.gen ∧ (uhfEffF files b k).orb = b.orb := by
    intro k b hk
    unfold uhfEffF
    split
    · cases k <;> simp_all [uhfEff, uhfOrbKW]
    · simp
  refine ⟨?_, ?_⟩
  · intro k hk
    have e1 := fun b j => c2 .orbital b j (by simp [uhfOrbKW])
    have e2 := fun b j => c2 .orbitalAP b j (by simp [uhfOrbKW])
    have e3 := fun b j => c2 .orbitalP b j (by simp [uhfOrbKW])
    have e4 := fun b j => c2 .orbitalG b j (by simp [uhfOrbKW])
    have hp : ¬ (files k).isSome → uhfAnnounced files k = 0 := fun h => a0 k (by simpa using h)
    by_cases h : (files k).isSome
    · cases k <;> first | (exfalso; simp [uhfOrbKW] at hk; done) | simp [c1, e1, e2, e3, e4, uhfOrbKW, h]
    · rw [hp h, mul_zero]
      cases k <;> first | (exfalso; simp [uhfOrbKW] at hk; done) | (simp at h; simp [c1, e1, e2, e3, e4, uhfOrbKW, h])
  · have d3 : ∀ k b, ¬ uhfOrbKW k → (uhfEffF files b k).nAP = b.nAP := fun k b h => (c3 k b h).1
    have d4 : ∀ k b, ¬ uhfOrbKW k → (uhfEffF files b k).nP = b.nP := fun k b h => (c3 k b h).2.1
    have d5 : ∀ k b, ¬ uhfOrbKW k → (uhfEffF files b k).nIdx = b.nIdx := fun k b h => (c3 k b h).2.2.1
    have d6 : ∀ k b, ¬ uhfOrbKW k → (uhfEffF files b k).ap = b.ap := fun k b h => (c3 k b h).2.2.2.1
    have d7 : ∀ k b, ¬ uhfOrbKW k → (uhfEffF files b k).par = b.par := fun k b h => (c3 k b h).2.2.2.2.1
    have d8 : ∀ k b, ¬ uhfOrbKW k → (uhfEffF files b k).gen = b.gen := fun k b h => (c3 k b h).2.2.2.2.2.1
    have d9 : ∀ k b, ¬ uhfOrbKW k → (uhfEffF files b k).orb = b.orb := fun k b h => (c3 k b h).2.2.2.2.2.2
    have o1 : ∀ b, uhfEffF files b .orbital = if (files .orbital).isSome then uhfEff .orbital (uhfAnnounced files .orbital) b else b := fun _ => rfl
    have o2 : ∀ b, uhfEffF files b .orbitalAP = if (files .orbitalAP).isSome then uhfEff .orbitalAP (uhfAnnounced files .orbitalAP) b else b := fun _ => rfl
    have o3 : ∀ b, uhfEffF files b .orbitalP = if (files .orbitalP).isSome then uhfEff .orbitalP (uhfAnnounced files .orbitalP) b else b := fun _ => rfl
    have o4 : ∀ b, uhfEffF files b .orbitalG = if (files .orbitalG).isSome then uhfEff .orbitalG (uhfAnnounced files .orbitalG) b else b := fun _ => rfl
    rw [d3 .initial, d3 .interAll, d3 .oneBodyG, d4 .initial, d4 .interAll, d4 .oneBodyG, d5 .initial, d5 .interAll, d5 .oneBodyG, d6 .initial, d6 .interAll,
      d6 .oneBodyG, d7 .initial, d7 .interAll, d7 .oneBodyG, d8 .initial, d8 .interAll, d8 .oneBodyG, d9 .initial, d9 .interAll, d9 .oneBodyG]
    · generalize hb : uhfEffF files _ .exchange = b
      have hb1 : b.nAP = 0 ∧ b.nP = 0 ∧ b.nIdx = 0 ∧ b.ap = false ∧ b.par = false ∧ b.gen = false ∧ b.orb = false := by
        rw [← hb]
        simp [d3, d4, d5, d6, d7, d8, d9, uhfOrbKW]
      obtain ⟨q1, q2, q3, q4, q5, q6, q7⟩ := hb1
      rw [o1, o2, o3, o4]
      have z1 := a0 .orbital
      have z2 := a0 .orbitalAP
      have z3 := a0 .orbitalP
      have z4 := a0 .orbitalG
      cases h1 : (files .orbital).isSome <;> cases h2 : (files .orbitalAP).isSome <;> cases h3 : (files .orbitalP).isSome <;>
        cases h4 : (files .orbitalG).isSome <;> simp_all [uhfEff]
    all_goals simp [uhfOrbKW]

end MVMC
