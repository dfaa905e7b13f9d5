import Verif.Spec.ReadSizes
import Mathlib.Tactic.Linarith

/-! # Lemmas for C79 -/
namespace MVMC
open Spec

theorem mem_cntKinds (k : KWIdxInt) : k ∈ cntKinds ↔ countFile k = true := by cases k <;> simp [cntKinds, countFile]

theorem mem_corrKinds (k : KWIdxInt) : k ∈ corrKinds ↔ (paramFile k && !rbmFile k) = true := by cases k <;> simp [corrKinds, paramFile, rbmFile]

theorem mem_rbmKinds (k : KWIdxInt) : k ∈ rbmKinds ↔ rbmFile k = true := by cases k <;> simp [rbmKinds, rbmFile]

theorem rbm_param (k : KWIdxInt) (h : rbmFile k = true) : paramFile k = true := by cases k <;> simp_all [paramFile, rbmFile]

theorem count_excl (k : KWIdxInt) (h : countFile k = true) : paramFile k = false ∧ orbFile k = false ∧ rbmFile k = false ∧ k ≠ .KWOptTrans ∧ k ≠ .KWBF ∧ k ≠ .KWBFRange := by
  cases k <;> simp_all [countFile, paramFile, orbFile, rbmFile]

theorem param_excl (k : KWIdxInt) (h : paramFile k = true) : countFile k = false ∧ orbFile k = false ∧ k ≠ .KWOptTrans ∧ k ≠ .KWBF ∧ k ≠ .KWBFRange := by
  cases k <;> simp_all [countFile, paramFile, orbFile]

theorem orb_excl (k : KWIdxInt) (h : orbFile k = true) : countFile k = false ∧ paramFile k = false ∧ rbmFile k = false ∧ k ≠ .KWOptTrans ∧ k ≠ .KWBF ∧ k ≠ .KWBFRange := by
  cases k <;> simp_all [countFile, paramFile, orbFile, rbmFile]

theorem orb_iff (k : KWIdxInt) : orbFile k = true ↔ k = .KWOrbital ∨ k = .KWOrbitalAntiParallel ∨ k = .KWOrbitalParallel ∨ k = .KWOrbitalGeneral := by
  cases k <;> simp [orbFile]

/-- The file is looked at. -/
def readsHead (o : Bool) (k : KWIdxInt) : Bool := countFile k || paramFile k || orbFile k || (decide (k = .KWOptTrans) && o)

theorem hdrStep_count {o : Bool} {k : KWIdxInt} {f : HdrFile} {b : NBuf} (h : countFile k = true) :
    hdrStep o k f b = match readBuffInt f (b.cnt k) with
    | none => none
    | some (n, ok) => some { b with cnt := fun j => if j = k then n else b.cnt j, bad := b.bad || !ok } := by
  rw [hdrStep, if_pos ((mem_cntKinds k).2 h)]
  cases readBuffInt f (b.cnt k) <;> rfl

theorem hdrStep_param {o : Bool} {k : KWIdxInt} {f : HdrFile} {b : NBuf} (h : paramFile k = true) :
    hdrStep o k f b = match readBuffIntCmpFlg f (b.cnt k) (b.cmp k) with
    | none => none
    | some (n, c, ok) => some { b with cnt := fun j => if j = k then n else b.cnt j, cmp := fun j => if j = k then c else b.cmp j,
                                        rbm := b.rbm || rbmFile k, bad := b.bad || !ok } := by
  have hc : k ∉ cntKinds := by rw [mem_cntKinds]; simp [(param_excl k h).1]
  rw [hdrStep, if_neg hc]
  by_cases hr : rbmFile k = true
  · have h1 : k ∉ corrKinds := by rw [mem_corrKinds]; simp [hr]
    rw [if_neg h1, if_pos ((mem_rbmKinds k).2 hr)]
    cases readBuffIntCmpFlg f (b.cnt k) (b.cmp k) <;> simp [hr]
  · have h1 : k ∈ corrKinds := by rw [mem_corrKinds]; simp [hr, h]
    rw [if_pos h1]
    cases readBuffIntCmpFlg f (b.cnt k) (b.cmp k) <;> simp [hr]

theorem hdrStep_rest {o : Bool} {k : KWIdxInt} {f : HdrFile} {b : NBuf} (h1 : countFile k = false) (h2 : paramFile k = false) (h3 : orbFile k = false) :
    hdrStep o k f b = if k = .KWOptTrans then
      if o then
        match readBuffInt f 1 with
        | none => none
        | some (n, ok) => some { b with cnt := fun j => if j = k then n else b.cnt j, bad := b.bad || decide (n < 1) || !ok }
      else some { b with cnt := fun j => if j = k then 1 else b.cnt j }
    else if k = .KWBF ∨ k = .KWBFRange then some { b with bad := true } else some b := by
  have a1 : k ∉ cntKinds := by rw [mem_cntKinds]; simp [h1]
  have a2 : k ∉ corrKinds := by rw [mem_corrKinds]; simp [h2]
  have a3 : k ∉ rbmKinds := by
    rw [mem_rbmKinds]; intro h; have := rbm_param k h; simp [this] at h2
  have a4 : ¬ (k = .KWOrbital ∨ k = .KWOrbitalAntiParallel) := fun h => by have := (orb_iff k).2 (by tauto); simp [this] at h3
  have a5 : k ≠ .KWOrbitalParallel := fun h => by have := (orb_iff k).2 (by tauto); simp [this] at h3
  have a6 : k ≠ .KWOrbitalGeneral := fun h => by have := (orb_iff k).2 (by tauto); simp [this] at h3
  rw [hdrStep, if_neg a1, if_neg a2, if_neg a3, if_neg a4, if_neg a5, if_neg a6]
  cases readBuffInt f 1 <;> rfl

theorem readBuffInt_none {f : HdrFile} {n : Int} : readBuffInt f n = none ↔ f.nLines = 1 := by
  unfold readBuffInt
  split
  · simp; omega
  · split <;> simp_all

theorem readBuffIntCmpFlg_none {f : HdrFile} {n c : Int} : readBuffIntCmpFlg f n c = none ↔ f.nLines = 1 := by
  unfold readBuffIntCmpFlg
  split
  · simp; omega
  · split
    · simp_all
    · dsimp only
      split
      · simp_all
      · split <;> simp_all

theorem hdrStep_none {o : Bool} {k : KWIdxInt} {f : HdrFile} {b : NBuf} : hdrStep o k f b = none ↔ f.nLines = 1 ∧ readsHead o k = true := by
  by_cases h1 : countFile k = true
  · rw [hdrStep_count h1]
    have : readsHead o k = true := by simp [readsHead, h1]
    rw [this, ← readBuffInt_none (n := b.cnt k)]
    cases readBuffInt f (b.cnt k) <;> simp
  by_cases h2 : paramFile k = true
  · rw [hdrStep_param h2]
    have : readsHead o k = true := by simp [readsHead, h2]
    rw [this, ← readBuffIntCmpFlg_none (n := b.cnt k) (c := b.cmp k)]
    cases readBuffIntCmpFlg f (b.cnt k) (b.cmp k) <;> simp
  by_cases h3 : orbFile k = true
  · have : readsHead o k = true := by simp [readsHead, h3]
    rw [this]
    rcases (orb_iff k).1 h3 with rfl | rfl | rfl | rfl
    · rw [← readBuffIntCmpFlg_none (n := b.nAP) (c := b.iOrb)]
      simp only [hdrStep, cntKinds, corrKinds, rbmKinds]
      cases readBuffIntCmpFlg f b.nAP b.iOrb <;> simp
    · rw [← readBuffIntCmpFlg_none (n := b.nAP) (c := b.iOrb)]
      simp only [hdrStep, cntKinds, corrKinds, rbmKinds]
      cases readBuffIntCmpFlg f b.nAP b.iOrb <;> simp
    · rw [← readBuffIntCmpFlg_none (n := b.nP) (c := b.iOrb)]
      simp only [hdrStep, cntKinds, corrKinds, rbmKinds]
      cases readBuffIntCmpFlg f b.nP b.iOrb <;> simp
    · rw [← readBuffIntCmpFlg_none (n := b.nOrbit) (c := b.iOrb)]
      simp only [hdrStep, cntKinds, corrKinds, rbmKinds]
      cases readBuffIntCmpFlg f b.nOrbit b.iOrb <;> simp
  simp only [Bool.not_eq_true] at h1 h2 h3
  rw [hdrStep_rest h1 h2 h3]
  simp only [readsHead, h1, h2, h3, Bool.false_or]
  by_cases h4 : k = .KWOptTrans
  · cases o
    · simp [h4]
    · simp only [h4, if_true]
      rw [← readBuffInt_none (n := 1)]
      cases readBuffInt f 1 <;> simp
  · rw [if_neg h4]
    split <;> simp [h4]

/-- The loop is undefined exactly if some listed file cannot be opened or has one line only. -/
theorem hdrLoop_none {o : Bool} {files : DefFiles} : ∀ (ks : List KWIdxInt) (b : NBuf), hdrLoop o files ks b = none ↔
    ∃ k ∈ ks, files k = some none ∨ ∃ f, files k = some (some f) ∧ f.nLines = 1 ∧ readsHead o k = true
  | [], b => by simp [hdrLoop]
  | k :: ks, b => by
    rw [hdrLoop]
    cases h : files k with
    | none => simp [hdrLoop_none ks b, h]
    | some m =>
      cases m with
      | none => simp [h]
      | some f =>
        dsimp only
        cases hs : hdrStep o k f b with
        | none =>
          rw [hdrStep_none] at hs
          simp [h, hs]
        | some b' =>
          have : ¬ (f.nLines = 1 ∧ readsHead o k = true) := by rw [← hdrStep_none (b := b), hs]; simp
          dsimp only
          rw [hdrLoop_none ks b']
          simp only [List.mem_cons, exists_eq_or_imp, h]
          constructor
          · exact fun h => Or.inr h
          · rintro (h | h)
            · simp only [Option.some.injEq, reduceCtorEq, false_or] at h
              obtain ⟨g, rfl, h⟩ := h
              exact absurd h this
            · exact h

theorem hdrLoop_append {o : Bool} {files : DefFiles} : ∀ (ks js : List KWIdxInt) (b : NBuf),
    hdrLoop o files (ks ++ js) b = (hdrLoop o files ks b).bind (hdrLoop o files js)
  | [], js, b => by simp [hdrLoop]
  | k :: ks, js, b => by
    rw [List.cons_append, hdrLoop, hdrLoop]
    cases files k with
    | none => exact hdrLoop_append ks js b
    | some m =>
      cases m with
      | none => rfl
      | some f =>
        dsimp only
        cases hdrStep o k f b with
        | none => rfl
        | some b' => exact hdrLoop_append ks js b'

/-- The orbital part of the state. -/
def NBuf.orb (b : NBuf) : Int × Int × Int × Bool × Bool × Bool × Int × Int := (b.nOrbit, b.nAP, b.nP, b.gen, b.ap, b.par, b.iOrb, b.cOrb)

/-- The count that a good head sets. -/
def headCount (o : Bool) (k : KWIdxInt) (f : HdrFile) : Int :=
  if k = .KWOptTrans then (if o then f.num.getD 1 else 1) else if countFile k || paramFile k then f.num.getD 0 else 0

/-- The effect of one file other than an orbital file. -/
theorem hdrStep_spec {o : Bool} {k : KWIdxInt} {f : HdrFile} {b b' : NBuf} (ho : orbFile k = false) (hc : b.cnt k = nBufDefault.cnt k)
    (h : hdrStep o k f b = some b') :
    b'.orb = b.orb ∧ (∀ j, j ≠ k → b'.cnt j = b.cnt j) ∧ (∀ j, j ≠ k → b'.cmp j = b.cmp j) ∧ (b'.bad = false ↔ b.bad = false ∧ HeadOK o k f) ∧
      (HeadOK o k f → b'.cnt k = headCount o k f) ∧ (HeadOK o k f → paramFile k = true → b'.cmp k = f.cmp.getD (b.cmp k)) ∧
      b'.rbm = (b.rbm || rbmFile k) := by
  have h1' : ¬ (f.nLines = 1 ∧ readsHead o k = true) := by rw [← hdrStep_none (b := b), h]; simp
  by_cases h1 : countFile k = true
  · rw [hdrStep_count h1] at h
    obtain ⟨e1, e2, e3, e4, e5, e6⟩ := count_excl k h1
    have hl : f.nLines ≠ 1 := fun h => h1' ⟨h, by simp [readsHead, h1]⟩
    have hd : b.cnt k = 0 := by rw [hc]; simp [nBufDefault, e4]
    by_cases h0 : f.nLines = 0
    · simp only [readBuffInt, h0, if_true, Option.some.injEq] at h
      subst h
      refine ⟨rfl, fun j hj => by simp [hj], fun j _ => rfl, ?_, ?_, ?_, by simp [e3]⟩
      · simp [HeadOK, h1, h0]
      · simp [HeadOK, h1, h0]
      · simp [HeadOK, h1, h0]
    · simp only [readBuffInt, h0, hl, if_false, Option.some.injEq] at h
      subst h
      have : 2 ≤ f.nLines := by omega
      refine ⟨rfl, fun j hj => by simp [hj], fun j _ => rfl, ?_, ?_, by simp [e1], by simp [e3]⟩
      · simp [HeadOK, this, e1, e2, e4, e5, e6]
      · intro _; simp [headCount, e4, h1, hd]
  simp only [Bool.not_eq_true] at h1
  by_cases h2 : paramFile k = true
  · rw [hdrStep_param h2] at h
    obtain ⟨e1, e2, e4, e5, e6⟩ := param_excl k h2
    have hl : f.nLines ≠ 1 := fun h => h1' ⟨h, by simp [readsHead, h2]⟩
    have hd : b.cnt k = 0 := by rw [hc]; simp [nBufDefault, e4]
    have hne : ∀ n, f.num.getD 0 = n → n ≠ 0 → f.num = some n := by
      intro n hn hn0
      cases hf : f.num with
      | none => rw [hf] at hn; simp at hn; omega
      | some m => rw [hf] at hn; simp at hn; rw [hn]
    by_cases h0 : f.nLines = 0
    · simp only [readBuffIntCmpFlg, h0, if_true, Option.some.injEq] at h
      subst h
      refine ⟨rfl, fun j hj => by simp [hj], fun j hj => by simp [hj], ?_, ?_, ?_, rfl⟩
      · simp [HeadOK, h2, h0]
      · simp [HeadOK, h2, h0]
      · simp [HeadOK, h2, h0]
    · simp only [readBuffIntCmpFlg, h0, hl, if_false, hd] at h
      by_cases hz : f.num.getD 0 = 0
      · simp only [hz, if_true, Option.some.injEq] at h
        have hno : ¬ HeadOK o k f := by
          intro hh
          obtain ⟨_, n, hn, hn0⟩ := hh.2.1 (Or.inl h2)
          rw [hn] at hz; exact hn0 hz
        subst h
        exact ⟨rfl, fun j hj => by simp [hj], fun j hj => by simp [hj], by simp [hno], fun h => absurd h hno, fun h => absurd h hno, rfl⟩
      · simp only [hz, if_false] at h
        by_cases h2' : f.nLines = 2
        · simp only [h2', if_true, Option.some.injEq] at h
          subst h
          refine ⟨rfl, fun j hj => by simp [hj], fun j hj => by simp [hj], ?_, ?_, ?_, rfl⟩
          · simp [HeadOK, h2, h2']
          · simp [HeadOK, h2, h2']
          · simp [HeadOK, h2, h2']
        · simp only [h2', if_false, Option.some.injEq] at h
          subst h
          have h3 : 3 ≤ f.nLines := by omega
          refine ⟨rfl, fun j hj => by simp [hj], fun j hj => by simp [hj], ?_, ?_, ?_, rfl⟩
          · have hok : HeadOK o k f := ⟨by simp [e1], fun _ => ⟨h3, _, hne _ rfl hz, hz⟩, fun h => absurd h e4, e5, e6⟩
            simp [hok]
          · intro _; simp [headCount, e4, h2]
          · intro _ _; simp
  simp only [Bool.not_eq_true] at h2
  rw [hdrStep_rest h1 h2 ho] at h
  have hr : rbmFile k = false := by
    by_contra hr; simp only [Bool.not_eq_false] at hr; have := rbm_param k hr; simp [this] at h2
  by_cases h4 : k = .KWOptTrans
  · subst h4
    cases o
    · simp only [if_true, Bool.false_eq_true, if_false, Option.some.injEq] at h
      subst h
      exact ⟨rfl, fun j hj => by simp [hj], fun j _ => rfl, by simp [HeadOK, h1, h2, ho], by simp [headCount], by simp [h2], by simp [hr]⟩
    · simp only [if_true] at h
      have hl : f.nLines ≠ 1 := fun h => h1' ⟨h, by simp [readsHead]⟩
      by_cases h0 : f.nLines = 0
      · simp only [readBuffInt, h0, if_true, Option.some.injEq] at h
        subst h
        exact ⟨rfl, fun j hj => by simp [hj], fun j _ => rfl, by simp [HeadOK, h0], by simp [HeadOK, h0], by simp [h2], by simp [hr]⟩
      · simp only [readBuffInt, h0, hl, if_false, Option.some.injEq] at h
        subst h
        have h2l : 2 ≤ f.nLines := by omega
        refine ⟨rfl, fun j hj => by simp [hj], fun j _ => rfl, ?_, by simp [headCount], by simp [h2], by simp [hr]⟩
        cases hn : f.num <;> simp [HeadOK, h1, h2, ho, h2l, hn]
  · rw [if_neg h4] at h
    by_cases h5 : k = .KWBF ∨ k = .KWBFRange
    · rw [if_pos h5] at h
      simp only [Option.some.injEq] at h
      subst h
      have hno : ¬ HeadOK o k f := by rintro ⟨_, _, _, h6, h7⟩; tauto
      exact ⟨rfl, fun j _ => rfl, fun j _ => rfl, by simp [hno], fun h => absurd h hno, by simp [h2], by simp [hr]⟩
    · rw [if_neg h5] at h
      simp only [Option.some.injEq] at h
      subst h
      have hd : b.cnt k = 0 := by rw [hc]; simp [nBufDefault, h4]
      have hok : HeadOK o k f := by
        refine ⟨by simp [h1], by simp [h2, ho], by simp [h4], ?_, ?_⟩ <;> tauto
      exact ⟨rfl, fun j _ => rfl, fun j _ => rfl, by simp [hok], fun _ => by simp [hd, headCount, h4, h1, h2], by simp [h2], by simp [hr]⟩

/-- The loop over files other than orbital files. -/
theorem hdrLoop_spec {o : Bool} {files : DefFiles} : ∀ (ks : List KWIdxInt) (b b' : NBuf), ks.Nodup → (∀ k ∈ ks, orbFile k = false) →
    (∀ k ∈ ks, b.cnt k = nBufDefault.cnt k) → (∀ k ∈ ks, b.cmp k = 0) → hdrLoop o files ks b = some b' →
    b'.orb = b.orb ∧ (∀ j, j ∉ ks → b'.cnt j = b.cnt j) ∧ (∀ j, j ∉ ks → b'.cmp j = b.cmp j) ∧
      (b'.bad = false ↔ b.bad = false ∧ ∀ k ∈ ks, ∀ f, files k = some (some f) → HeadOK o k f) ∧
      (∀ k ∈ ks, ∀ f, files k = some (some f) → HeadOK o k f → b'.cnt k = headCount o k f ∧ (paramFile k = true → b'.cmp k = f.cmp.getD 0)) ∧
      (∀ k ∈ ks, files k = none → b'.cnt k = b.cnt k ∧ b'.cmp k = b.cmp k) ∧
      (b'.rbm = true ↔ b.rbm = true ∨ ∃ k ∈ ks, files k ≠ none ∧ rbmFile k = true)
  | [], b, b', _, _, _, _, h => by
    simp only [hdrLoop, Option.some.injEq] at h
    subst h
    simp
  | k :: ks, b, b', hn, ho, hc, hm, h => by
    rw [List.nodup_cons] at hn
    rw [hdrLoop] at h
    cases hf : files k with
    | none =>
      simp only [hf] at h
      obtain ⟨i1, i2, i3, i4, i5, i6, i7⟩ := hdrLoop_spec ks b b' hn.2 (fun j hj => ho j (by simp [hj])) (fun j hj => hc j (by simp [hj]))
        (fun j hj => hm j (by simp [hj])) h
      refine ⟨i1, fun j hj => i2 j (by simp_all), fun j hj => i3 j (by simp_all), ?_, ?_, ?_, ?_⟩
      · rw [i4]; simp [hf]
      · intro j hj f hjf
        rcases List.mem_cons.1 hj with rfl | hj
        · rw [hf] at hjf; simp at hjf
        · exact i5 j hj f hjf
      · intro j hj hjf
        rcases List.mem_cons.1 hj with rfl | hj
        · exact ⟨i2 j hn.1, i3 j hn.1⟩
        · exact i6 j hj hjf
      · rw [i7]; simp [hf]
    | some m =>
      cases m with
      | none => simp [hf] at h
      | some f =>
        simp only [hf] at h
        cases hs : hdrStep o k f b with
        | none => simp [hs] at h
        | some b1 =>
          simp only [hs] at h
          obtain ⟨s1, s2, s3, s4, s5, s6, s7⟩ := hdrStep_spec (ho k (by simp)) (hc k (by simp)) hs
          have hne : ∀ j ∈ ks, j ≠ k := fun j hj h => hn.1 (h ▸ hj)
          obtain ⟨i1, i2, i3, i4, i5, i6, i7⟩ := hdrLoop_spec ks b1 b' hn.2 (fun j hj => ho j (by simp [hj]))
            (fun j hj => by rw [s2 j (hne j hj)]; exact hc j (by simp [hj])) (fun j hj => by rw [s3 j (hne j hj)]; exact hm j (by simp [hj])) h
          refine ⟨i1.trans s1, ?_, ?_, ?_, ?_, ?_, ?_⟩
          · intro j hj
            rw [List.mem_cons, not_or] at hj
            rw [i2 j hj.2, s2 j hj.1]
          · intro j hj
            rw [List.mem_cons, not_or] at hj
            rw [i3 j hj.2, s3 j hj.1]
          · rw [i4, s4]
            simp only [List.mem_cons, forall_eq_or_imp, hf, Option.some.injEq, forall_eq', and_assoc]
          · intro j hj g hjf hok
            rcases List.mem_cons.1 hj with rfl | hj
            · rw [hf] at hjf
              simp only [Option.some.injEq] at hjf
              subst hjf
              refine ⟨by rw [i2 j hn.1, s5 hok], fun hp => by rw [i3 j hn.1, s6 hok hp, hm j (by simp)]⟩
            · exact i5 j hj g hjf hok
          · intro j hj hjf
            rcases List.mem_cons.1 hj with rfl | hj
            · rw [hf] at hjf; simp at hjf
            · have := i6 j hj hjf
              rw [s2 j (hne j hj), s3 j (hne j hj)] at this
              exact this
          · rw [i7, s7]
            simp only [List.mem_cons, exists_eq_or_imp, hf, Bool.or_eq_true, ne_eq, reduceCtorEq, not_false_eq_true, true_and, or_assoc]

theorem cmpFlg_spec {f : HdrFile} (c : Int) (hl : f.nLines ≠ 1) : ∃ n c' ok, readBuffIntCmpFlg f 0 c = some (n, c', ok) ∧
    (ok = true ↔ 3 ≤ f.nLines ∧ ∃ n, f.num = some n ∧ n ≠ 0) ∧ (ok = true → n = f.num.getD 0 ∧ c' = f.cmp.getD c) := by
  by_cases h0 : f.nLines = 0
  · exact ⟨0, c, false, by simp [readBuffIntCmpFlg, h0], by simp [h0], by simp⟩
  · by_cases hz : f.num.getD 0 = 0
    · refine ⟨0, c, false, by simp [readBuffIntCmpFlg, h0, hl, hz], ?_, by simp⟩
      simp only [Bool.false_eq_true, false_iff, not_and, not_exists]
      rintro _ n hn hn0
      rw [hn] at hz
      exact hn0 hz
    · by_cases h2 : f.nLines = 2
      · exact ⟨f.num.getD 0, f.num.getD c, false, by simp [readBuffIntCmpFlg, hz, h2], by simp [h2], by simp⟩
      · refine ⟨f.num.getD 0, f.cmp.getD c, true, by simp [readBuffIntCmpFlg, h0, hl, hz, h2], ?_, by simp⟩
        cases hn : f.num with
        | none => simp [hn] at hz
        | some n =>
          rw [hn] at hz
          simp only [true_iff]
          exact ⟨by omega, n, rfl, hz⟩

theorem headOK_orb {o : Bool} {k : KWIdxInt} {f : HdrFile} (h : orbFile k = true) : HeadOK o k f ↔ 3 ≤ f.nLines ∧ ∃ n, f.num = some n ∧ n ≠ 0 := by
  obtain ⟨e1, e2, e3, e4, e5, e6⟩ := orb_excl k h
  simp [HeadOK, e1, e4, e5, e6, h]

/-- The orbital files in their order. -/
def orbFileKinds : List KWIdxInt := [.KWOrbital, .KWOrbitalAntiParallel, .KWOrbitalParallel, .KWOrbitalGeneral]

/-- Orbital files that go together: the general one alone, or antiparallel ones with or without parallel ones. -/
def OrbChoice (files : DefFiles) : Prop :=
  Listed files .KWOrbitalGeneral ∧ ¬ hasAP files ∧ ¬ Listed files .KWOrbitalParallel ∨ ¬ Listed files .KWOrbitalGeneral ∧ hasAP files

theorem hdrStep_ap {o : Bool} {k : KWIdxInt} {f : HdrFile} {b : NBuf} (h : k = .KWOrbital ∨ k = .KWOrbitalAntiParallel) :
    hdrStep o k f b = match readBuffIntCmpFlg f b.nAP b.iOrb with
    | none => none
    | some (n, c, ok) => some { b with nAP := n, iOrb := c, ap := true, nOrbit := b.nOrbit + n, cOrb := b.cOrb + c, bad := b.bad || !ok } := by
  rcases h with rfl | rfl <;> cases h : readBuffIntCmpFlg f b.nAP b.iOrb <;> simp [hdrStep, cntKinds, corrKinds, rbmKinds, h]

theorem hdrStep_p {o : Bool} {f : HdrFile} {b : NBuf} :
    hdrStep o .KWOrbitalParallel f b = match readBuffIntCmpFlg f b.nP b.iOrb with
    | none => none
    | some (n, c, ok) => some { b with nP := n, iOrb := c, par := true, nOrbit := b.nOrbit + 2 * n, cOrb := b.cOrb + c, bad := b.bad || !ok } := by
  cases h : readBuffIntCmpFlg f b.nP b.iOrb <;> simp [hdrStep, cntKinds, corrKinds, rbmKinds, h]

theorem hdrStep_g {o : Bool} {f : HdrFile} {b : NBuf} :
    hdrStep o .KWOrbitalGeneral f b = match readBuffIntCmpFlg f b.nOrbit b.iOrb with
    | none => none
    | some (n, c, ok) => some { b with nOrbit := n, iOrb := c, gen := true, cOrb := b.cOrb + c, bad := b.bad || !ok } := by
  cases h : readBuffIntCmpFlg f b.nOrbit b.iOrb <;> simp [hdrStep, cntKinds, corrKinds, rbmKinds, h]

/-- Flags and frame of one orbital file. -/
theorem hdrStep_orb_frame {o : Bool} {k : KWIdxInt} {f : HdrFile} {b b' : NBuf} (hk : orbFile k = true) (h : hdrStep o k f b = some b') :
    b'.cnt = b.cnt ∧ b'.cmp = b.cmp ∧ b'.rbm = b.rbm ∧ b'.gen = (b.gen || decide (k = .KWOrbitalGeneral)) ∧
      b'.ap = (b.ap || decide (k = .KWOrbital ∨ k = .KWOrbitalAntiParallel)) ∧ b'.par = (b.par || decide (k = .KWOrbitalParallel)) := by
  rcases (orb_iff k).1 hk with rfl | rfl | rfl | rfl
  · rw [hdrStep_ap (by simp)] at h
    cases hr : readBuffIntCmpFlg f b.nAP b.iOrb <;> simp only [hr, reduceCtorEq, Option.some.injEq] at h
    subst h; simp
  · rw [hdrStep_ap (by simp)] at h
    cases hr : readBuffIntCmpFlg f b.nAP b.iOrb <;> simp only [hr, reduceCtorEq, Option.some.injEq] at h
    subst h; simp
  · rw [hdrStep_p] at h
    cases hr : readBuffIntCmpFlg f b.nP b.iOrb <;> simp only [hr, reduceCtorEq, Option.some.injEq] at h
    subst h; simp
  · rw [hdrStep_g] at h
    cases hr : readBuffIntCmpFlg f b.nOrbit b.iOrb <;> simp only [hr, reduceCtorEq, Option.some.injEq] at h
    subst h; simp

theorem orbLoop_frame {o : Bool} {files : DefFiles} : ∀ (ks : List KWIdxInt) (b b' : NBuf), (∀ k ∈ ks, orbFile k = true) → hdrLoop o files ks b = some b' →
    b'.cnt = b.cnt ∧ b'.cmp = b.cmp ∧ b'.rbm = b.rbm ∧ (b'.gen = true ↔ b.gen = true ∨ ∃ k ∈ ks, Listed files k ∧ k = .KWOrbitalGeneral) ∧
      (b'.ap = true ↔ b.ap = true ∨ ∃ k ∈ ks, Listed files k ∧ (k = .KWOrbital ∨ k = .KWOrbitalAntiParallel)) ∧
      (b'.par = true ↔ b.par = true ∨ ∃ k ∈ ks, Listed files k ∧ k = .KWOrbitalParallel)
  | [], b, b', _, h => by
    simp only [hdrLoop, Option.some.injEq] at h
    subst h
    simp
  | k :: ks, b, b', hk, h => by
    rw [hdrLoop] at h
    cases hf : files k with
    | none =>
      simp only [hf] at h
      have hl : ¬ Listed files k := by simp [Listed, hf]
      obtain ⟨i1, i2, i3, i4, i5, i6⟩ := orbLoop_frame ks b b' (fun j hj => hk j (by simp [hj])) h
      refine ⟨i1, i2, i3, ?_, ?_, ?_⟩
      · rw [i4]; simp only [List.mem_cons, exists_eq_or_imp, hl, false_and, false_or]
      · rw [i5]; simp only [List.mem_cons, exists_eq_or_imp, hl, false_and, false_or]
      · rw [i6]; simp only [List.mem_cons, exists_eq_or_imp, hl, false_and, false_or]
    | some m =>
      cases m with
      | none => simp [hf] at h
      | some f =>
        simp only [hf] at h
        have hl : Listed files k := by simp [Listed, hf]
        cases hs : hdrStep o k f b with
        | none => simp [hs] at h
        | some b1 =>
          simp only [hs] at h
          obtain ⟨s1, s2, s3, s4, s5, s6⟩ := hdrStep_orb_frame (hk k (by simp)) hs
          obtain ⟨i1, i2, i3, i4, i5, i6⟩ := orbLoop_frame ks b1 b' (fun j hj => hk j (by simp [hj])) h
          refine ⟨i1.trans s1, i2.trans s2, i3.trans s3, ?_, ?_, ?_⟩
          · rw [i4, s4]; simp only [List.mem_cons, exists_eq_or_imp, hl, true_and, Bool.or_eq_true, decide_eq_true_eq, or_assoc]
          · rw [i5, s5]; simp only [List.mem_cons, exists_eq_or_imp, hl, true_and, Bool.or_eq_true, decide_eq_true_eq, or_assoc]
          · rw [i6, s6]; simp only [List.mem_cons, exists_eq_or_imp, hl, true_and, Bool.or_eq_true, decide_eq_true_eq, or_assoc]

/-- One antiparallel file, starting from nothing. -/
theorem hdrStep_ap_spec {o : Bool} {k : KWIdxInt} {f : HdrFile} {b b' : NBuf} (hk : k = .KWOrbital ∨ k = .KWOrbitalAntiParallel) (h0 : b.nAP = 0)
    (h : hdrStep o k f b = some b') : (b'.bad = false ↔ b.bad = false ∧ HeadOK o k f) ∧ b'.nP = b.nP ∧
      (HeadOK o k f → b'.nOrbit = b.nOrbit + f.num.getD 0 ∧ b'.nAP = f.num.getD 0 ∧ (∀ c, f.cmp = some c → b'.cOrb = b.cOrb + c)) := by
  have ho : orbFile k = true := by rcases hk with rfl | rfl <;> rfl
  have hl : f.nLines ≠ 1 := fun hl => by
    have := (hdrStep_none (o := o) (k := k) (f := f) (b := b)).2 ⟨hl, by simp [readsHead, ho]⟩
    rw [this] at h; simp at h
  obtain ⟨n, c', ok, e, hok, hv⟩ := cmpFlg_spec b.iOrb hl
  rw [hdrStep_ap hk, h0, e] at h
  simp only [Option.some.injEq] at h
  subst h
  rw [headOK_orb ho, ← hok]
  refine ⟨by simp, rfl, fun h => ?_⟩
  obtain ⟨rfl, rfl⟩ := hv h
  exact ⟨rfl, rfl, fun c hc => by simp [hc]⟩

theorem hdrStep_p_spec {o : Bool} {f : HdrFile} {b b' : NBuf} (h0 : b.nP = 0)
    (h : hdrStep o .KWOrbitalParallel f b = some b') : (b'.bad = false ↔ b.bad = false ∧ HeadOK o .KWOrbitalParallel f) ∧ b'.nAP = b.nAP ∧
      (HeadOK o .KWOrbitalParallel f → b'.nOrbit = b.nOrbit + 2 * f.num.getD 0 ∧ b'.nP = f.num.getD 0 ∧ (∀ c, f.cmp = some c → b'.cOrb = b.cOrb + c)) := by
  have hl : f.nLines ≠ 1 := fun hl => by
    have := (hdrStep_none (o := o) (k := .KWOrbitalParallel) (f := f) (b := b)).2 ⟨hl, by simp [readsHead, orbFile]⟩
    rw [this] at h; simp at h
  obtain ⟨n, c', ok, e, hok, hv⟩ := cmpFlg_spec b.iOrb hl
  rw [hdrStep_p, h0, e] at h
  simp only [Option.some.injEq] at h
  subst h
  rw [headOK_orb rfl, ← hok]
  refine ⟨by simp, rfl, fun h => ?_⟩
  obtain ⟨rfl, rfl⟩ := hv h
  exact ⟨rfl, rfl, fun c hc => by simp [hc]⟩

theorem hdrStep_g_spec {o : Bool} {f : HdrFile} {b b' : NBuf} (h0 : b.nOrbit = 0)
    (h : hdrStep o .KWOrbitalGeneral f b = some b') : (b'.bad = false ↔ b.bad = false ∧ HeadOK o .KWOrbitalGeneral f) ∧ b'.nAP = b.nAP ∧ b'.nP = b.nP ∧
      (HeadOK o .KWOrbitalGeneral f → b'.nOrbit = f.num.getD 0 ∧ (∀ c, f.cmp = some c → b'.cOrb = b.cOrb + c)) := by
  have hl : f.nLines ≠ 1 := fun hl => by
    have := (hdrStep_none (o := o) (k := .KWOrbitalGeneral) (f := f) (b := b)).2 ⟨hl, by simp [readsHead, orbFile]⟩
    rw [this] at h; simp at h
  obtain ⟨n, c', ok, e, hok, hv⟩ := cmpFlg_spec b.iOrb hl
  rw [hdrStep_g, h0, e] at h
  simp only [Option.some.injEq] at h
  subst h
  rw [headOK_orb rfl, ← hok]
  refine ⟨by simp, rfl, rfl, fun h => ?_⟩
  obtain ⟨rfl, rfl⟩ := hv h
  exact ⟨rfl, fun c hc => by simp [hc]⟩

/-- The sum of the flags of the orbital files. -/
def orbFlags (files : DefFiles) : Int :=
  announcedFlag files .KWOrbital + announcedFlag files .KWOrbitalAntiParallel + announcedFlag files .KWOrbitalParallel + announcedFlag files .KWOrbitalGeneral

/-- The four orbital files. -/
theorem orbLoop_spec {o : Bool} {files : DefFiles} {b b' : NBuf} (hb : b.nOrbit = 0 ∧ b.nAP = 0 ∧ b.nP = 0 ∧ b.cOrb = 0)
    (h1 : ¬ (Listed files .KWOrbital ∧ Listed files .KWOrbitalAntiParallel)) (hch : OrbChoice files) (h : hdrLoop o files orbFileKinds b = some b') :
    (b'.bad = false ↔ b.bad = false ∧ ∀ k ∈ orbFileKinds, ∀ f, files k = some (some f) → HeadOK o k f) ∧
      ((∀ k ∈ orbFileKinds, ∀ f, files k = some (some f) → HeadOK o k f) → b'.nOrbit = orbitals files ∧
        b'.nAP = announced files .KWOrbital + announced files .KWOrbitalAntiParallel ∧ b'.nP = announced files .KWOrbitalParallel ∧
        ((∀ k ∈ orbFileKinds, ∀ f, files k = some (some f) → f.cmp ≠ none) → b'.cOrb = orbFlags files)) := by
  obtain ⟨z1, z2, z3, z4⟩ := hb
  have hne : ∀ k ∈ orbFileKinds, files k ≠ some none := by
    intro k hk hf
    have := (hdrLoop_none (o := o) (files := files) orbFileKinds b).2 ⟨k, hk, Or.inl hf⟩
    rw [this] at h; simp at h
  have n1 := hne .KWOrbital (by simp [orbFileKinds])
  have n2 := hne .KWOrbitalAntiParallel (by simp [orbFileKinds])
  have n3 := hne .KWOrbitalParallel (by simp [orbFileKinds])
  have n4 := hne .KWOrbitalGeneral (by simp [orbFileKinds])
  simp only [OrbChoice, hasAP, Listed] at hch
  simp only [Listed] at h1
  simp only [orbFileKinds, List.mem_cons, List.not_mem_nil, or_false, forall_eq_or_imp, forall_eq, orbitals, orbFlags, announced, announcedFlag]
  simp only [orbFileKinds, hdrLoop] at h
  cases hg : files .KWOrbitalGeneral with
  | some m =>
    obtain ⟨g, rfl⟩ : ∃ g, m = some g := by cases m with
      | none => exact absurd hg n4
      | some g => exact ⟨g, rfl⟩
    have q1 : files .KWOrbital = none := by by_contra q; simp [hg, q] at hch
    have q2 : files .KWOrbitalAntiParallel = none := by by_contra q; simp [hg, q] at hch
    have q3 : files .KWOrbitalParallel = none := by by_contra q; simp [hg, q] at hch
    simp only [hg, q1, q2, q3] at h ⊢
    cases hs : hdrStep o .KWOrbitalGeneral g b with
    | none => simp [hs] at h
    | some b1 =>
      simp only [hs, Option.some.injEq] at h
      subst h
      obtain ⟨r1, r2, r3, r4⟩ := hdrStep_g_spec z1 hs
      refine ⟨by simp [r1], fun hh => ?_⟩
      have hh' : HeadOK o .KWOrbitalGeneral g := hh.2.2.2 g rfl
      obtain ⟨u1, u2⟩ := r4 hh'
      refine ⟨by simp [u1], by simp [r2, z2], by simp [r3, z3], fun hc => ?_⟩
      cases hcm : g.cmp with
      | none => exact absurd hcm (hc.2.2.2 g rfl)
      | some c => simp [u2 c hcm, z4]
  | none =>
    have key : ∀ (k : KWIdxInt) (f : HdrFile) (b1 : NBuf), (k = .KWOrbital ∨ k = .KWOrbitalAntiParallel) → hdrStep o k f b = some b1 →
        (match files .KWOrbitalParallel with
          | none => some b1
          | some none => none
          | some (some g) => hdrStep o .KWOrbitalParallel g b1) = some b' →
        (b'.bad = false ↔ b.bad = false ∧ HeadOK o k f ∧ ∀ g, files .KWOrbitalParallel = some (some g) → HeadOK o .KWOrbitalParallel g) ∧
          (HeadOK o k f → (∀ g, files .KWOrbitalParallel = some (some g) → HeadOK o .KWOrbitalParallel g) →
            b'.nOrbit = f.num.getD 0 + 2 * announced files .KWOrbitalParallel ∧ b'.nAP = f.num.getD 0 ∧ b'.nP = announced files .KWOrbitalParallel ∧
            (f.cmp ≠ none → (∀ g, files .KWOrbitalParallel = some (some g) → g.cmp ≠ none) → b'.cOrb = f.cmp.getD 0 + announcedFlag files .KWOrbitalParallel)) := by
      intro k f b1 hk hs hp
      obtain ⟨r1, r2, r3⟩ := hdrStep_ap_spec hk z2 hs
      cases hpf : files .KWOrbitalParallel with
      | none =>
        simp only [hpf, Option.some.injEq] at hp
        subst hp
        refine ⟨by simp [r1], fun hh _ => ?_⟩
        obtain ⟨u1, u2, u3⟩ := r3 hh
        refine ⟨by simp [u1, z1, announced, hpf], u2, by simp [r2, z3, announced, hpf], fun hc _ => ?_⟩
        cases hcm : f.cmp with
        | none => exact absurd hcm hc
        | some c => simp [u3 c hcm, z4, announcedFlag, hpf]
      | some m =>
        cases m with
        | none => exact absurd hpf n3
        | some g =>
          simp only [hpf] at hp
          obtain ⟨p1, p2, p3⟩ := hdrStep_p_spec (r2.trans z3) hp
          refine ⟨by simp [p1, r1, and_assoc], fun hh hhp => ?_⟩
          obtain ⟨u1, u2, u3⟩ := r3 hh
          obtain ⟨v1, v2, v3⟩ := p3 (hhp g rfl)
          refine ⟨by simp [v1, u1, z1, announced, hpf], p2.trans u2, by simp [v2, announced, hpf], fun hc hcp => ?_⟩
          cases hcm : f.cmp with
          | none => exact absurd hcm hc
          | some c =>
            cases hcg : g.cmp with
            | none => exact absurd hcg (hcp g rfl)
            | some d => simp [v3 d hcg, u3 c hcm, z4, announcedFlag, hpf, hcg]
    cases ho : files .KWOrbital with
    | some m =>
      obtain ⟨f, rfl⟩ : ∃ f, m = some f := by cases m with
        | none => exact absurd ho n1
        | some g => exact ⟨g, rfl⟩
      have q2 : files .KWOrbitalAntiParallel = none := by by_contra q; exact h1 ⟨by simp [ho], q⟩
      simp only [hg, ho, q2] at h ⊢
      cases hs : hdrStep o .KWOrbital f b with
      | none => simp [hs] at h
      | some b1 =>
        simp only [hs] at h
        obtain ⟨k1, k2⟩ := key .KWOrbital f b1 (by simp) hs (by
          revert h
          cases files .KWOrbitalParallel with
          | none => exact id
          | some m => cases m with
            | none => exact id
            | some g => dsimp only; cases hdrStep o .KWOrbitalParallel g b1 <;> exact id)
        refine ⟨by rw [k1]; simp, fun hh => ?_⟩
        obtain ⟨v1, v2, v3, v4⟩ := k2 (hh.1 f rfl) hh.2.2.1
        refine ⟨?_, by simp [v2], v3, fun hc => ?_⟩
        · rw [v1]; simp [announced]
        · rw [v4 (hc.1 f rfl) hc.2.2.1]; simp [announcedFlag]
    | none =>
      have q2 : files .KWOrbitalAntiParallel ≠ none := by intro q; simp [hg, ho, q] at hch
      obtain ⟨f, q2⟩ : ∃ f, files .KWOrbitalAntiParallel = some (some f) := by
        cases hq : files .KWOrbitalAntiParallel with
        | none => exact absurd hq q2
        | some m => cases m with
          | none => exact absurd hq n2
          | some f => exact ⟨f, rfl⟩
      simp only [hg, ho, q2] at h ⊢
      cases hs : hdrStep o .KWOrbitalAntiParallel f b with
      | none => simp [hs] at h
      | some b1 =>
        simp only [hs] at h
        obtain ⟨k1, k2⟩ := key .KWOrbitalAntiParallel f b1 (by simp) hs (by
          revert h
          cases files .KWOrbitalParallel with
          | none => exact id
          | some m => cases m with
            | none => exact id
            | some g => dsimp only; cases hdrStep o .KWOrbitalParallel g b1 <;> exact id)
        refine ⟨by rw [k1]; simp, fun hh => ?_⟩
        obtain ⟨v1, v2, v3, v4⟩ := k2 (hh.2.1 f rfl) hh.2.2.1
        refine ⟨?_, by simp [v2], v3, fun hc => ?_⟩
        · rw [v1]; simp [announced]
        · rw [v4 (hc.2.1 f rfl) hc.2.2.1]; simp [announcedFlag]

/-- The files before the orbital files. -/
def preKinds : List KWIdxInt :=
  [.KWModPara, .KWLocSpin, .KWTrans, .KWCoulombIntra, .KWCoulombInter, .KWHund, .KWPairHop, .KWExchange, .KWGutzwiller, .KWJastrow, .KWDH2, .KWDH4,
   .KWChargeRBM_HiddenLayer, .KWChargeRBM_PhysLayer, .KWChargeRBM_PhysHidden, .KWSpinRBM_HiddenLayer, .KWSpinRBM_PhysLayer, .KWSpinRBM_PhysHidden,
   .KWGeneralRBM_HiddenLayer, .KWGeneralRBM_PhysLayer, .KWGeneralRBM_PhysHidden]

/-- The files after the orbital files. -/
def postKinds : List KWIdxInt :=
  [.KWTransSym, .KWInGutzwiller, .KWInJastrow, .KWInDH2, .KWInDH4, .KWInChargeRBM_HiddenLayer, .KWInChargeRBM_PhysLayer,
   .KWInChargeRBM_PhysHidden, .KWInSpinRBM_HiddenLayer, .KWInSpinRBM_PhysLayer, .KWInSpinRBM_PhysHidden, .KWInGeneralRBM_HiddenLayer,
   .KWInGeneralRBM_PhysLayer, .KWInGeneralRBM_PhysHidden, .KWInOrbital, .KWInOrbitalAntiParallel, .KWInOrbitalParallel, .KWInorbitalGeneral,
   .KWOneBodyG, .KWTwoBodyG, .KWTwoBodyGEx, .KWInterAll, .KWOptTrans, .KWInOptTrans, .KWBF, .KWBFRange]

theorem kwOrder_split : kwOrder = preKinds ++ (orbFileKinds ++ postKinds) := rfl

theorem kwOrder_all (k : KWIdxInt) : k ∈ kwOrder := by cases k <;> simp [kwOrder]

theorem kind_cases (k : KWIdxInt) : k ∈ preKinds ∨ k ∈ orbFileKinds ∨ k ∈ postKinds := by
  have := kwOrder_all k
  rw [kwOrder_split] at this
  simpa using this

theorem pre_nodup : preKinds.Nodup := by decide
theorem post_nodup : postKinds.Nodup := by decide
theorem pre_orb : ∀ k ∈ preKinds, orbFile k = false := by decide
theorem post_orb : ∀ k ∈ postKinds, orbFile k = false := by decide
theorem orb_orb : ∀ k ∈ orbFileKinds, orbFile k = true := by decide
theorem pre_post : ∀ k ∈ postKinds, k ∉ preKinds := by decide
theorem orb_post : ∀ k ∈ orbFileKinds, k ∉ postKinds := by decide
theorem orb_pre : ∀ k ∈ orbFileKinds, k ∉ preKinds := by decide
theorem pre_post' : ∀ k ∈ preKinds, k ∉ postKinds := by decide

/-- All heads are good. -/
def HeadsOK (o : Bool) (files : DefFiles) : Prop := ∀ k f, files k = some (some f) → HeadOK o k f

/-- The state after the loop over all files. -/
theorem loop_all {o : Bool} {files : DefFiles} {b : NBuf} (h : hdrLoop o files kwOrder nBufDefault = some b) :
    (b.gen = true ↔ Listed files .KWOrbitalGeneral) ∧ (b.ap = true ↔ hasAP files) ∧ (b.par = true ↔ Listed files .KWOrbitalParallel) ∧
    (b.rbm = true ↔ ∃ k, Listed files k ∧ rbmFile k = true) ∧
    (OrbChoice files → ¬ (Listed files .KWOrbital ∧ Listed files .KWOrbitalAntiParallel) → (b.bad = false ↔ HeadsOK o files)) ∧
    (OrbChoice files → ¬ (Listed files .KWOrbital ∧ Listed files .KWOrbitalAntiParallel) → HeadsOK o files → b.nOrbit = orbitals files ∧
      b.nAP = announced files .KWOrbital + announced files .KWOrbitalAntiParallel ∧ b.nP = announced files .KWOrbitalParallel ∧
      ((∀ k ∈ orbFileKinds, ∀ f, files k = some (some f) → f.cmp ≠ none) → b.cOrb = orbFlags files)) ∧
    (HeadsOK o files → ∀ k, (∀ f, files k = some (some f) → orbFile k = false → b.cnt k = headCount o k f) ∧
      (files k = none → b.cnt k = nBufDefault.cnt k) ∧ (paramFile k = true → b.cmp k = announcedFlag files k)) := by
  have hnn : ∀ k, files k ≠ some none := by
    intro k hf
    have := (hdrLoop_none (o := o) (files := files) kwOrder nBufDefault).2 ⟨k, kwOrder_all k, Or.inl hf⟩
    rw [this] at h; simp at h
  rw [kwOrder_split, hdrLoop_append] at h
  cases e1 : hdrLoop o files preKinds nBufDefault with
  | none => simp [e1] at h
  | some b1 =>
    rw [e1, Option.bind_some, hdrLoop_append] at h
    cases e2 : hdrLoop o files orbFileKinds b1 with
    | none => simp [e2] at h
    | some b2 =>
      rw [e2, Option.bind_some] at h
      obtain ⟨p1, p2, p3, p4, p5, p6, p7⟩ := hdrLoop_spec preKinds nBufDefault b1 pre_nodup pre_orb (fun _ _ => rfl) (fun _ _ => rfl) e1
      obtain ⟨f1, f2, f3, f4, f5, f6⟩ := orbLoop_frame orbFileKinds b1 b2 orb_orb e2
      obtain ⟨q1, q2, q3, q4, q5, q6, q7⟩ := hdrLoop_spec postKinds b2 b post_nodup post_orb
        (fun k hk => by rw [f1, p2 k (pre_post k hk)]) (fun k hk => by rw [f2, p3 k (pre_post k hk)]; rfl) h
      simp only [NBuf.orb, Prod.mk.injEq] at p1 q1
      obtain ⟨o1, o2, o3, o4, o5, o6, o7, o8⟩ := p1
      obtain ⟨t1, t2, t3, t4, t5, t6, t7, t8⟩ := q1
      have hsplit : HeadsOK o files ↔ (∀ k ∈ preKinds, ∀ f, files k = some (some f) → HeadOK o k f) ∧
          (∀ k ∈ orbFileKinds, ∀ f, files k = some (some f) → HeadOK o k f) ∧ ∀ k ∈ postKinds, ∀ f, files k = some (some f) → HeadOK o k f := by
        constructor
        · intro hh
          exact ⟨fun k _ f => hh k f, fun k _ f => hh k f, fun k _ f => hh k f⟩
        · rintro ⟨h1, h2, h3⟩ k f
          rcases kind_cases k with hk | hk | hk
          · exact h1 k hk f
          · exact h2 k hk f
          · exact h3 k hk f
      refine ⟨?_, ?_, ?_, ?_, ?_, ?_, ?_⟩
      · rw [t4, f4, o4]
        simp [orbFileKinds, nBufDefault]
      · rw [t5, f5, o5]
        simp [orbFileKinds, nBufDefault, hasAP]
      · rw [t6, f6, o6]
        simp [orbFileKinds, nBufDefault]
      · rw [q7, f3, p7]
        simp only [nBufDefault, Bool.false_eq_true, false_or]
        constructor
        · rintro (⟨k, _, h1, h2⟩ | ⟨k, _, h1, h2⟩) <;> exact ⟨k, h1, h2⟩
        · rintro ⟨k, h1, h2⟩
          rcases kind_cases k with hk | hk | hk
          · exact Or.inl ⟨k, hk, h1, h2⟩
          · have := (orb_excl k (orb_orb k hk)).2.2.1
            rw [this] at h2; simp at h2
          · exact Or.inr ⟨k, hk, h1, h2⟩
      · intro hch h1
        obtain ⟨r1, _⟩ := orbLoop_spec (b := b1) ⟨o1, o2, o3, o8⟩ h1 hch e2
        rw [q4, r1, p4, hsplit]
        simp [nBufDefault, and_assoc]
      · intro hch h1 hh
        obtain ⟨_, r2⟩ := orbLoop_spec (b := b1) ⟨o1, o2, o3, o8⟩ h1 hch e2
        have := r2 (hsplit.1 hh).2.1
        rw [t1, t2, t3, t8]
        exact this
      · intro hh k
        refine ⟨?_, ?_, ?_⟩
        · intro f hf ho
          rcases kind_cases k with hk | hk | hk
          · rw [q2 k (pre_post' k hk), f1]
            exact (p5 k hk f hf (hh k f hf)).1
          · rw [orb_orb k hk] at ho; simp at ho
          · exact (q5 k hk f hf (hh k f hf)).1
        · intro hf
          rcases kind_cases k with hk | hk | hk
          · rw [q2 k (pre_post' k hk), f1]
            exact (p6 k hk hf).1
          · have g1 := orb_post k hk
            have g2 := orb_pre k hk
            rw [q2 k g1, f1, p2 k g2]
          · rw [(q6 k hk hf).1, f1, p2 k (pre_post k hk)]
        · intro hp
          cases hf : files k with
          | none =>
            rcases kind_cases k with hk | hk | hk
            · rw [q3 k (pre_post' k hk), f2, (p6 k hk hf).2]
              simp [nBufDefault, announcedFlag, hf]
            · rw [(orb_excl k (orb_orb k hk)).2.1] at hp; simp at hp
            · rw [(q6 k hk hf).2, f2, p3 k (pre_post k hk)]
              simp [nBufDefault, announcedFlag, hf]
          | some m =>
            cases m with
            | none => exact absurd hf (hnn k)
            | some f =>
              rcases kind_cases k with hk | hk | hk
              · rw [q3 k (pre_post' k hk), f2, (p5 k hk f hf (hh k f hf)).2 hp]
                simp [announcedFlag, hf]
              · rw [(orb_excl k (orb_orb k hk)).2.1] at hp; simp at hp
              · rw [(q5 k hk f hf (hh k f hf)).2 hp]
                simp [announcedFlag, hf]

/-- The counts after the loop. -/
theorem loop_cnt {o : Bool} {files : DefFiles} {b : NBuf} (h : hdrLoop o files kwOrder nBufDefault = some b) (hh : HeadsOK o files) (k : KWIdxInt)
    (hk : (countFile k || paramFile k) = true) : b.cnt k = announced files k := by
  obtain ⟨-, -, -, -, -, -, h7⟩ := loop_all h
  obtain ⟨c1, c2, -⟩ := h7 hh k
  have e : orbFile k = false ∧ k ≠ .KWOptTrans := by
    rw [Bool.or_eq_true] at hk
    rcases hk with hk | hk
    · exact ⟨(count_excl k hk).2.1, (count_excl k hk).2.2.2.1⟩
    · exact ⟨(param_excl k hk).2.1, (param_excl k hk).2.2.1⟩
  cases hf : files k with
  | none => rw [c2 hf]; simp [nBufDefault, e.2, announced, hf]
  | some m =>
    cases m with
    | none =>
      have := (hdrLoop_none (o := o) (files := files) kwOrder nBufDefault).2 ⟨k, kwOrder_all k, Or.inl hf⟩
      rw [this] at h; simp at h
    | some f => rw [c1 f hf e.1]; simp [headCount, e.2, hk, announced, hf]

/-- The count of the optimised translations. -/
theorem loop_opt {o : Bool} {files : DefFiles} {b : NBuf} (h : hdrLoop o files kwOrder nBufDefault = some b) (hh : HeadsOK o files) :
    b.cnt .KWOptTrans = match files .KWOptTrans with | some (some f) => (if o then f.num.getD 1 else 1) | _ => 1 := by
  obtain ⟨-, -, -, -, -, -, h7⟩ := loop_all h
  obtain ⟨c1, c2, -⟩ := h7 hh .KWOptTrans
  cases hf : files .KWOptTrans with
  | none => rw [c2 hf]; simp [nBufDefault]
  | some m =>
    cases m with
    | none =>
      have := (hdrLoop_none (o := o) (files := files) kwOrder nBufDefault).2 ⟨_, kwOrder_all _, Or.inl hf⟩
      rw [this] at h; simp at h
    | some f => rw [c1 f hf rfl]; simp [headCount]

end MVMC
