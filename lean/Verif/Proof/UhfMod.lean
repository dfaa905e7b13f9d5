import Verif.Spec.UhfMod

/-! # The parameters of the Hartree–Fock program -/
namespace MVMC
open Spec

theorem umpList_ok : KwOK (umpList.map Prod.fst) := by
  unfold KwOK umpList umpUnused
  decide

theorem umpFind_find {c : Word} (hc : NulFree c) (lc : c.length < 257) (ps : List (Word × Option UMP)) (hw : KwOK (ps.map Prod.fst)) :
    umpFind c ps = some ((ps.find? fun p => decide (lowerW c = lowerW p.1)).map Prod.snd) := by
  induction ps with
  | nil => rfl
  | cons p ps ih =>
    have hp := hw p.1 (by simp)
    obtain ⟨r, hr, hr0⟩ := checkWords_iff hc hp.1 lc hp.2
    rw [umpFind, hr]
    dsimp only
    by_cases h : r = 0
    · rw [if_pos h, List.find?_cons_of_pos (by simpa using hr0.1 h)]
      rfl
    · rw [if_neg h, List.find?_cons_of_neg (by simpa using fun c => h (hr0.2 c))]
      exact ih (fun w hx => hw w (by simp at hx ⊢; tauto))

theorem umpFind_names {c : Word} (hc : NulFree c) (lc : c.length < 257) {v : UMP} (h : UNames c v) : umpFind c umpList = some (some (some v)) := by
  rw [umpFind_find hc lc _ umpList_ok]
  obtain ⟨n, hn, e⟩ := h
  have e' : lowerW c = lowerW n.toList := e
  rw [e']
  have : ∀ n ∈ uhfDocVar v, (umpList.find? fun p => decide (lowerW n.toList = lowerW p.1)).map Prod.snd = some (some v) := by
    cases v <;> decide
  rw [this n hn]

theorem umpFind_other {c : Word} (hc : NulFree c) (lc : c.length < 257) (h : ∀ v, ¬ UNames c v) :
    umpFind c umpList = some none ∨ umpFind c umpList = some (some none) := by
  rw [umpFind_find hc lc _ umpList_ok]
  cases hf : umpList.find? fun p => decide (lowerW c = lowerW p.1) with
  | none => exact Or.inl rfl
  | some p =>
    right
    obtain ⟨w, o⟩ := p
    cases o with
    | none => rfl
    | some v =>
      exfalso
      have h1 := List.find?_some hf
      have h2 := List.mem_of_find?_eq_some hf
      have : ∀ p ∈ umpList, ∀ v, p.2 = some v → ∃ n ∈ uhfDocVar v, p.1 = n.toList := by
        have key : ∀ p ∈ umpList, p.2.elim true (fun v => decide (∃ n ∈ uhfDocVar v, p.1 = n.toList)) = true := by decide
        intro p hp v hv
        have := key p hp
        rw [hv] at this
        exact of_decide_eq_true this
      obtain ⟨n, hn, e⟩ := this _ h2 v rfl
      dsimp only at e
      subst e
      exact h v ⟨n, hn, of_decide_eq_true h1⟩

theorem uNames_unique {c : Word} (hc : NulFree c) (lc : c.length < 257) {v v' : UMP} (h : UNames c v) (h' : UNames c v') : v = v' := by
  have := (umpFind_names hc lc h).symm.trans (umpFind_names hc lc h')
  simpa using this

/-- the effect of one line of a regular file -/
theorem umpLoop_cons {l : MPLine} {w : Word} {q : ℚ} (hs : l.skip = false) (hw : l.word = some w) (hq : l.num = some q) (hnul : NulFree w) (hlen : w.length < 200)
    (ls : List MPLine) (c : Word) (d : Option ℚ) (st : UMP → ℚ) :
    ((∀ v, ¬ UNames w v) → umpLoop (l :: ls) c d st = umpLoop ls w (some q) st) ∧
    (∀ v, UNames w v → umpLoop (l :: ls) c d st = if v = .mix then umpLoop ls w (some q) (fun x => if x = v then q else st x)
      else match toCInt q with
        | none => .ub
        | some z => if v = .twoSz ∧ z = -1 then .err else umpLoop ls w (some q) (fun x => if x = v then (z : ℚ) else st x)) := by
  have e : umpLoop (l :: ls) c d st = match umpFind w umpList with
      | none => .ub
      | some none => umpLoop ls w (some q) st
      | some (some none) => umpLoop ls w (some q) st
      | some (some (some v)) => if v = .mix then umpLoop ls w (some q) (fun x => if x = v then q else st x)
          else match toCInt q with
            | none => .ub
            | some z => if v = .twoSz ∧ z = -1 then .err else umpLoop ls w (some q) (fun x => if x = v then (z : ℚ) else st x) := by
    rw [umpLoop]
    simp only [hs, hw, hq, Bool.false_eq_true, if_false, Option.getD_some]
    rw [if_neg (by omega)]
    generalize umpFind w umpList = o
    generalize toCInt q = t
    rcases o with _ | _ | _ | v
    · rfl
    · rfl
    · rfl
    · cases t <;> rfl
  rw [e]
  constructor
  · intro h
    rcases umpFind_other hnul (by omega) h with h | h <;> rw [h]
  · intro v h
    rw [umpFind_names hnul (by omega) h]

theorem umpLoop_skip {l : MPLine} (hs : l.skip = true) (ls : List MPLine) (c : Word) (d : Option ℚ) (st : UMP → ℚ) :
    umpLoop (l :: ls) c d st = umpLoop ls c d st := by
  rw [umpLoop, if_pos hs]

theorem toCInt_some_iff (q : ℚ) : (∃ z, toCInt q = some z) ↔ (-2147483649 < q ∧ q < 2147483648) := by
  unfold toCInt
  by_cases h0 : 0 ≤ q
  · simp only [if_pos h0]
    have h1 : (0 : ℤ) ≤ ⌊q⌋ := Int.floor_nonneg.2 h0
    constructor
    · rintro ⟨z, hz⟩
      split_ifs at hz with c
      refine ⟨by linarith, ?_⟩
      have := Int.floor_lt.1 (show ⌊q⌋ < 2147483648 by omega)
      exact_mod_cast this
    · rintro ⟨_, h2⟩
      have : ⌊q⌋ < 2147483648 := Int.floor_lt.2 (by exact_mod_cast h2)
      exact ⟨_, if_pos ⟨by omega, by omega⟩⟩
  · simp only [if_neg h0]
    have h1 : ⌈q⌉ ≤ 0 := Int.ceil_le.2 (by push_cast; linarith)
    constructor
    · rintro ⟨z, hz⟩
      split_ifs at hz with c
      refine ⟨?_, by linarith⟩
      have := Int.lt_ceil.1 (show (-2147483649 : ℤ) < ⌈q⌉ by omega)
      exact_mod_cast this
    · rintro ⟨h2, _⟩
      have : (-2147483649 : ℤ) < ⌈q⌉ := Int.lt_ceil.2 (by exact_mod_cast h2)
      exact ⟨_, if_pos ⟨by omega, by omega⟩⟩

theorem isTrunc_unique {q : ℚ} {z z' : ℤ} (h : IsTrunc q z) (h' : IsTrunc q z') : z = z' := by
  unfold IsTrunc at h h'
  split_ifs at h h'
  · have a : (z : ℚ) < (z' + 1 : ℤ) := by push_cast; linarith [h.1, h'.2]
    have b : (z' : ℚ) < (z + 1 : ℤ) := by push_cast; linarith [h'.1, h.2]
    have a' : z < z' + 1 := by exact_mod_cast a
    have b' : z' < z + 1 := by exact_mod_cast b
    omega
  · have a : ((z - 1 : ℤ) : ℚ) < (z' : ℤ) := by push_cast; linarith [h.2, h'.1]
    have b : ((z' - 1 : ℤ) : ℚ) < (z : ℤ) := by push_cast; linarith [h'.2, h.1]
    have a' : z - 1 < z' := by exact_mod_cast a
    have b' : z' - 1 < z := by exact_mod_cast b
    omega

/-- The whole reader for regular lines: outcome and values. -/
theorem umpLoop_spec (ls : List MPLine) : ∀ (c : Word) (d : Option ℚ) (st : UMP → ℚ), (∀ l ∈ ls, RegU l) →
    ((∃ st', umpLoop ls c d st = .ok st') ↔ ∀ l ∈ ls, ∀ v q, USets l v q → UFits v q ∧ ¬ URefused v q) ∧
    (umpLoop ls c d st = .ub ↔ ∃ pre l post v q, ls = pre ++ l :: post ∧ USets l v q ∧ ¬ UFits v q ∧ ∀ l' ∈ pre, ∀ v q, USets l' v q → UFits v q ∧ ¬ URefused v q) ∧
    (∀ st', umpLoop ls c d st = .ok st' →
      (∀ v, (∀ l ∈ ls, ∀ q, ¬ USets l v q) → st' v = st v) ∧
      (∀ pre l post v q, ls = pre ++ l :: post → USets l v q → (∀ l' ∈ post, ∀ q', ¬ USets l' v q') → UStored v q (st' v))) := by
  induction ls with
  | nil =>
    intro c d st _
    refine ⟨by simp [umpLoop], by simp [umpLoop], ?_⟩
    intro st' h
    simp only [umpLoop, KwOut.ok.injEq] at h
    subst h
    exact ⟨fun _ _ => rfl, by simp⟩
  | cons l ls ih =>
    intro c d st hreg
    have hls : ∀ l ∈ ls, RegU l := fun x hx => hreg x (by simp [hx])
    -- the case in which the line has no effect
    have noeff : (∀ v q, ¬ USets l v q) → ∀ c' d', umpLoop (l :: ls) c d st = umpLoop ls c' d' st →
        ((∃ st', umpLoop (l :: ls) c d st = .ok st') ↔ ∀ x ∈ l :: ls, ∀ v q, USets x v q → UFits v q ∧ ¬ URefused v q) ∧
        (umpLoop (l :: ls) c d st = .ub ↔ ∃ pre x post v q, l :: ls = pre ++ x :: post ∧ USets x v q ∧ ¬ UFits v q ∧ ∀ l' ∈ pre, ∀ v q, USets l' v q → UFits v q ∧ ¬ URefused v q) ∧
        (∀ st', umpLoop (l :: ls) c d st = .ok st' →
          (∀ v, (∀ x ∈ l :: ls, ∀ q, ¬ USets x v q) → st' v = st v) ∧
          (∀ pre x post v q, l :: ls = pre ++ x :: post → USets x v q → (∀ l' ∈ post, ∀ q', ¬ USets l' v q') → UStored v q (st' v))) := by
      intro hn c' d' e
      obtain ⟨i1, i2, i3⟩ := ih c' d' st hls
      rw [e]
      refine ⟨?_, ?_, ?_⟩
      · rw [i1]
        constructor
        · intro h x hx v q hs
          rcases List.mem_cons.1 hx with rfl | hx
          · exact absurd hs (hn v q)
          · exact h x hx v q hs
        · intro h x hx
          exact h x (by simp [hx])
      · rw [i2]
        constructor
        · rintro ⟨pre, x, post, v, q, rfl, h1, h2, h3⟩
          refine ⟨l :: pre, x, post, v, q, rfl, h1, h2, ?_⟩
          intro y hy v q hs
          rcases List.mem_cons.1 hy with rfl | hy
          · exact absurd hs (hn v q)
          · exact h3 y hy v q hs
        · rintro ⟨pre, x, post, v, q, he, h1, h2, h3⟩
          cases pre with
          | nil =>
            simp only [List.nil_append, List.cons.injEq] at he
            obtain ⟨rfl, rfl⟩ := he
            exact absurd h1 (hn v q)
          | cons y pre =>
            simp only [List.cons_append, List.cons.injEq] at he
            exact ⟨pre, x, post, v, q, he.2, h1, h2, fun y hy => h3 y (by simp [hy])⟩
      · intro st' h
        obtain ⟨j1, j2⟩ := i3 st' h
        refine ⟨fun v hv => j1 v (fun x hx => hv x (by simp [hx])), ?_⟩
        intro pre x post v q he hs hp
        cases pre with
        | nil =>
          simp only [List.nil_append, List.cons.injEq] at he
          obtain ⟨rfl, rfl⟩ := he
          exact absurd hs (hn v q)
        | cons y pre =>
          simp only [List.cons_append, List.cons.injEq] at he
          exact j2 pre x post v q he.2 hs hp
    rcases hreg l (by simp) with hs | ⟨w, q, hw, hq, hnul, hlen⟩
    · refine noeff (fun v q h => ?_) c d (umpLoop_skip hs ls c d st)
      rw [h.1] at hs; cases hs
    by_cases hsk : l.skip = true
    · refine noeff (fun v q h => ?_) c d (umpLoop_skip hsk ls c d st)
      rw [h.1] at hsk; cases hsk
    have hsk' : l.skip = false := by simpa using hsk
    obtain ⟨e1, e2⟩ := umpLoop_cons hsk' hw hq hnul hlen ls c d st
    have sets : ∀ v' q', USets l v' q' ↔ q' = q ∧ UNames w v' := by
      intro v' q'
      constructor
      · rintro ⟨_, h2, w', h3, h4⟩
        rw [hq] at h2; rw [hw] at h3
        cases h2; cases h3
        exact ⟨rfl, h4⟩
      · rintro ⟨rfl, h⟩
        exact ⟨hsk', hq, w, hw, h⟩
    by_cases hn : ∃ v, UNames w v
    swap
    · have hn' : ∀ v, ¬ UNames w v := fun v h => hn ⟨v, h⟩
      exact noeff (fun v q h => hn' v ((sets v q).1 h).2) w (some q) (e1 hn')
    obtain ⟨v, hv⟩ := hn
    have uniq : ∀ v', UNames w v' → v' = v := fun v' h => uNames_unique hnul (by omega) h hv
    have e := e2 v hv
    -- the line is bad
    have good_iff : (∀ v' q', USets l v' q' → UFits v' q' ∧ ¬ URefused v' q') ↔ UFits v q ∧ ¬ URefused v q := by
      constructor
      · intro h; exact h v q ((sets v q).2 ⟨rfl, hv⟩)
      · intro h v' q' hs
        obtain ⟨rfl, h'⟩ := (sets v' q').1 hs
        rw [uniq v' h']; exact h
    -- the line is good: it stores r
    have good : ∀ r, UStored v q r → UFits v q → ¬ URefused v q → umpLoop (l :: ls) c d st = umpLoop ls w (some q) (fun x => if x = v then r else st x) →
        ((∃ st', umpLoop (l :: ls) c d st = .ok st') ↔ ∀ x ∈ l :: ls, ∀ v q, USets x v q → UFits v q ∧ ¬ URefused v q) ∧
        (umpLoop (l :: ls) c d st = .ub ↔ ∃ pre x post v q, l :: ls = pre ++ x :: post ∧ USets x v q ∧ ¬ UFits v q ∧ ∀ l' ∈ pre, ∀ v q, USets l' v q → UFits v q ∧ ¬ URefused v q) ∧
        (∀ st', umpLoop (l :: ls) c d st = .ok st' →
          (∀ v, (∀ x ∈ l :: ls, ∀ q, ¬ USets x v q) → st' v = st v) ∧
          (∀ pre x post v q, l :: ls = pre ++ x :: post → USets x v q → (∀ l' ∈ post, ∀ q', ¬ USets l' v q') → UStored v q (st' v))) := by
      intro r hr hf hnr he
      have hg := good_iff.2 ⟨hf, hnr⟩
      obtain ⟨i1, i2, i3⟩ := ih w (some q) (fun x => if x = v then r else st x) hls
      rw [he]
      refine ⟨?_, ?_, ?_⟩
      · rw [i1]
        constructor
        · intro h x hx v q hs
          rcases List.mem_cons.1 hx with rfl | hx
          · exact hg v q hs
          · exact h x hx v q hs
        · intro h x hx
          exact h x (by simp [hx])
      · rw [i2]
        constructor
        · rintro ⟨pre, x, post, v, q, rfl, h1, h2, h3⟩
          refine ⟨l :: pre, x, post, v, q, rfl, h1, h2, ?_⟩
          intro y hy v q hs
          rcases List.mem_cons.1 hy with rfl | hy
          · exact hg v q hs
          · exact h3 y hy v q hs
        · rintro ⟨pre, x, post, v', q', he', h1, h2, h3⟩
          cases pre with
          | nil =>
            simp only [List.nil_append, List.cons.injEq] at he'
            obtain ⟨rfl, rfl⟩ := he'
            exact absurd (hg v' q' h1).1 h2
          | cons y pre =>
            simp only [List.cons_append, List.cons.injEq] at he'
            exact ⟨pre, x, post, v', q', he'.2, h1, h2, fun y hy => h3 y (by simp [hy])⟩
      · intro st' h
        obtain ⟨j1, j2⟩ := i3 st' h
        refine ⟨fun v' hv' => ?_, ?_⟩
        · rw [j1 v' (fun x hx => hv' x (by simp [hx]))]
          rw [if_neg]
          rintro rfl
          exact hv' l (by simp) q ((sets v' q).2 ⟨rfl, hv⟩)
        · intro pre x post v' q' he' hs hp
          cases pre with
          | nil =>
            simp only [List.nil_append, List.cons.injEq] at he'
            obtain ⟨rfl, rfl⟩ := he'
            obtain ⟨rfl, h'⟩ := (sets v' q').1 hs
            rw [j1 v' hp, uniq v' h', if_pos rfl]
            exact hr
          | cons y pre =>
            simp only [List.cons_append, List.cons.injEq] at he'
            exact j2 pre x post v' q' he'.2 hs hp
    by_cases hm : v = .mix
    · rw [if_pos hm] at e
      exact good q (Or.inl ⟨hm, rfl⟩) (Or.inl hm) (fun h => by rw [h.1] at hm; cases hm) e
    rw [if_neg hm] at e
    have hset := (sets v q).2 ⟨rfl, hv⟩
    cases hz : toCInt q with
    | none =>
      rw [hz] at e
      have hnf : ¬ UFits v q := by
        rintro (h | h)
        · exact hm h
        · obtain ⟨z, hz'⟩ := (toCInt_some_iff q).2 h
          rw [hz] at hz'; cases hz'
      rw [e]
      refine ⟨⟨by simp, fun h => absurd (h l (by simp) v q hset).1 hnf⟩, ⟨fun _ => ⟨[], l, ls, v, q, rfl, hset, hnf, by simp⟩, fun _ => rfl⟩, by simp⟩
    | some z =>
      rw [hz] at e
      dsimp only at e
      have hf : UFits v q := Or.inr ((toCInt_some_iff q).1 ⟨z, hz⟩)
      have ht := toCInt_trunc hz
      by_cases hc : v = .twoSz ∧ z = -1
      · rw [if_pos hc] at e
        have href : URefused v q := ⟨hc.1, by rw [← hc.2]; exact ht⟩
        rw [e]
        refine ⟨⟨by simp, fun h => absurd href (h l (by simp) v q hset).2⟩, ⟨by simp, ?_⟩, by simp⟩
        rintro ⟨pre, x, post, v', q', he', h1, h2, h3⟩
        exfalso
        cases pre with
        | nil =>
          simp only [List.nil_append, List.cons.injEq] at he'
          obtain ⟨rfl, rfl⟩ := he'
          obtain ⟨rfl, h'⟩ := (sets v' q').1 h1
          rw [uniq v' h'] at h2
          exact h2 hf
        | cons y pre =>
          simp only [List.cons_append, List.cons.injEq] at he'
          obtain ⟨rfl, _⟩ := he'
          exact (h3 l (by simp) v q hset).2 href
      · rw [if_neg hc] at e
        exact good z (Or.inr ⟨hm, z, rfl, ht⟩) hf (fun h => hc ⟨h.1, isTrunc_unique ht h.2⟩) e

end MVMC
