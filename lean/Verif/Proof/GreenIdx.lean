import Verif.Model.GreenIdx
import Verif.Props.ReadDef

/-!
# Numbering of one-body operators: invariants
-/

namespace MVMC

/-- Sites of the lattice and spins 0 or 1. -/
def GoodOp (Ns : ℕ) (o : GOp) : Prop :=
  InLat Ns o.1 ∧ InLat 2 o.2.1 ∧ InLat Ns o.2.2.1 ∧ InLat 2 o.2.2.2

theorem gcell_good {Ns : ℕ} {o : GOp} (h : GoodOp Ns o) :
    gcell Ns o = some (o.1 + o.2.1 * (Ns : ℤ), o.2.2.1 + o.2.2.2 * (Ns : ℤ)) := by
  obtain ⟨h1, h2, h3, h4⟩ := h
  unfold gcell
  unfold InLat at *
  have c : o.2.1 = 0 ∨ o.2.1 = 1 := by omega
  have c' : o.2.2.2 = 0 ∨ o.2.2.2 = 1 := by omega
  rw [if_pos]
  rcases c with c | c <;> rcases c' with c' | c' <;> rw [c, c'] <;> omega

theorem gcell_inj {Ns : ℕ} {o q : GOp} (h : GoodOp Ns o) (k : GoodOp Ns q)
    (e : gcell Ns o = gcell Ns q) : o = q := by
  rw [gcell_good h, gcell_good k, Option.some.injEq, Prod.mk.injEq] at e
  obtain ⟨a1, a2⟩ := spinSite h.1 h.2.1 k.1 k.2.1 (congrArg Int.toNat e.1)
  obtain ⟨b1, b2⟩ := spinSite h.2.2.1 h.2.2.2 k.2.2.1 k.2.2.2 (congrArg Int.toNat e.2)
  obtain ⟨x, y, z, w⟩ := o
  obtain ⟨x', y', z', w'⟩ := q
  simp_all

/-- The numbers given so far: `seen` lists the operators in the order of their numbers. -/
def Numbered (Ns : ℕ) (st : (ℤ × ℤ → ℤ) × ℕ) (seen : List GOp) : Prop :=
  st.2 = seen.length ∧ seen.Nodup ∧ (∀ o ∈ seen, GoodOp Ns o) ∧
  ∀ o p, GoodOp Ns o → gcell Ns o = some p →
    (o ∈ seen → ∃ k : ℕ, st.1 p = k ∧ seen[k]? = some o) ∧ (o ∉ seen → st.1 p = -1)

theorem numbered_nil (Ns : ℕ) : Numbered Ns (fun _ => -1, 0) [] :=
  ⟨rfl, List.nodup_nil, by simp, fun _ _ _ _ => ⟨by simp, fun _ => rfl⟩⟩

theorem assignAll_ok (Ns : ℕ) : ∀ (os : List GOp) (st : (ℤ × ℤ → ℤ) × ℕ) (seen : List GOp),
    Numbered Ns st seen → (∀ o ∈ os, GoodOp Ns o) →
    ∃ st' seen', assignAll Ns os st = .ok st' ∧ Numbered Ns st' seen' ∧
      ∀ o, o ∈ seen' ↔ o ∈ seen ∨ o ∈ os := by
  intro os
  induction os with
  | nil => intro st seen h _; exact ⟨st, seen, rfl, h, by simp⟩
  | cons o os ih =>
    intro st seen h hg
    have ho := hg o (by simp)
    obtain ⟨p, hp⟩ : ∃ p, gcell Ns o = some p := ⟨_, gcell_good ho⟩
    obtain ⟨h1, h2, h3, h4⟩ := h
    by_cases c : o ∈ seen
    · obtain ⟨k, hk, _⟩ := (h4 o p ho hp).1 c
      have e : assignIdx Ns o st = .ok st := by
        unfold assignIdx
        rw [hp]
        simp only
        rw [if_neg (by rw [hk]; omega)]
      obtain ⟨st', seen', a, b, m⟩ := ih st seen ⟨h1, h2, h3, h4⟩ (fun o ho => hg o (by simp [ho]))
      refine ⟨st', seen', ?_, b, ?_⟩
      · rw [assignAll, e]; exact a
      · intro q
        rw [m q, List.mem_cons]
        constructor
        · rintro (x | x) <;> tauto
        · rintro (x | rfl | x) <;> tauto
    · have e : assignIdx Ns o st =
          .ok (fun q => if q = p then (st.2 : ℤ) else st.1 q, st.2 + 1) := by
        unfold assignIdx
        rw [hp]
        simp only
        rw [if_pos ((h4 o p ho hp).2 c)]
      have hn : Numbered Ns (fun q => if q = p then (st.2 : ℤ) else st.1 q, st.2 + 1) (seen ++ [o]) := by
        refine ⟨by simp [h1], ?_, ?_, ?_⟩
        · rw [List.nodup_append]
          refine ⟨h2, List.nodup_singleton o, ?_⟩
          intro a ha b hb
          rw [List.mem_singleton] at hb
          rintro rfl
          exact c (hb ▸ ha)
        · intro q hq
          rcases List.mem_append.1 hq with hq | hq
          · exact h3 q hq
          · rw [List.mem_singleton.1 hq]; exact ho
        · intro q r hq hr
          by_cases d : q = o
          · subst d
            have : r = p := by rw [hp] at hr; exact (Option.some.inj hr).symm
            subst this
            refine ⟨fun _ => ⟨st.2, by simp, ?_⟩, fun x => absurd (by simp) x⟩
            rw [h1]
            simp
          · have hne : r ≠ p := by
              rintro rfl
              exact d (gcell_inj hq ho (hr.trans hp.symm))
            simp only [if_neg hne]
            obtain ⟨u, v⟩ := h4 q r hq hr
            refine ⟨fun x => ?_, fun x => v fun y => x (by simp [y])⟩
            obtain ⟨k, k1, k2⟩ := u (by simpa [d] using x)
            refine ⟨k, k1, ?_⟩
            have : k < seen.length := (List.getElem?_eq_some_iff.1 k2).1
            rw [List.getElem?_append_left this]
            exact k2
      obtain ⟨st', seen', a, b, m⟩ := ih _ _ hn (fun o ho => hg o (by simp [ho]))
      refine ⟨st', seen', ?_, b, ?_⟩
      · rw [assignAll, e]; exact a
      · intro q
        rw [m q, List.mem_append, List.mem_singleton, List.mem_cons]
        tauto

/-- Entries written so far agree with the numbers. -/
def Filled (seen : List GOp) (t : GTab) : Prop := ∀ k o, t k = some o → seen[k]? = some o

theorem putOp_ok {Ns : ℕ} {st : (ℤ × ℤ → ℤ) × ℕ} {seen : List GOp} (h : Numbered Ns st seen)
    {o : GOp} (ho : o ∈ seen) {t : GTab} (ht : Filled seen t) :
    ∃ (k : ℕ) (t' : GTab), putOp Ns st.2 st.1 o t = some ((k : ℤ), t') ∧ seen[k]? = some o ∧
      Filled seen t' ∧ t' k = some o ∧ ∀ j q, t j = some q → t' j = some q := by
  obtain ⟨h1, h2, h3, h4⟩ := h
  have hg := h3 o ho
  obtain ⟨p, hp⟩ : ∃ p, gcell Ns o = some p := ⟨_, gcell_good hg⟩
  obtain ⟨k, hk, hs⟩ := (h4 o p hg hp).1 ho
  have hlt : k < seen.length := (List.getElem?_eq_some_iff.1 hs).1
  refine ⟨k, fun j => if j = k then some o else t j, ?_, hs, ?_, by simp, ?_⟩
  · unfold putOp
    rw [hp]
    simp only
    rw [if_neg (by rw [hk]; omega), hk]
    rfl
  · intro j q hq
    by_cases c : j = k
    · subst c
      have hq : (if j = j then some o else t j) = some q := hq
      rw [if_pos rfl] at hq
      rw [hs, hq]
    · have hq : (if j = k then some o else t j) = some q := hq
      rw [if_neg c] at hq
      exact ht j q hq
  · intro j q hq
    by_cases c : j = k
    · subst c
      show (if j = j then some o else t j) = some q
      rw [if_pos rfl, ← hs, ht j q hq]
    · simpa only [if_neg c] using hq

/-- All operators of a list have been written. -/
def Written (t : GTab) (seen os : List GOp) : Prop :=
  ∀ o ∈ os, ∃ k : ℕ, seen[k]? = some o ∧ t k = some o

theorem oneBodyLoop_ok {Ns : ℕ} {st : (ℤ × ℤ → ℤ) × ℕ} {seen : List GOp} (h : Numbered Ns st seen) :
    ∀ (rows : List (List ℤ)) (t : GTab), (∀ x ∈ rows, gop1 x ∈ seen) → Filled seen t →
    ∃ t', oneBodyLoop Ns st.2 st.1 rows t = .ok t' ∧ Filled seen t' ∧
      Written t' seen (rows.map gop1) ∧ ∀ j q, t j = some q → t' j = some q := by
  intro rows
  induction rows with
  | nil => intro t _ ht; exact ⟨t, rfl, ht, by simp [Written], fun _ _ h => h⟩
  | cons x rows ih =>
    intro t hs ht
    obtain ⟨k, t1, e, hk, hf, hw, hm⟩ := putOp_ok h (hs x (by simp)) ht
    obtain ⟨t', e', hf', hw', hm'⟩ := ih t1 (fun y hy => hs y (by simp [hy])) hf
    have hg := h.2.2.1 _ (hs x (by simp))
    refine ⟨t', ?_, hf', ?_, fun j q hq => hm' j q (hm j q hq)⟩
    · rw [oneBodyLoop, e]
      simp only
      rw [if_neg (by rw [not_not, checkPairSite_iff]; exact ⟨hg.1, hg.2.2.1⟩)]
      exact e'
    · intro o ho
      rcases List.mem_cons.1 ho with rfl | ho
      · exact ⟨k, hk, hm' _ _ hw⟩
      · exact hw' o ho

theorem twoBodyExLoop_ok {Ns : ℕ} {st : (ℤ × ℤ → ℤ) × ℕ} {seen : List GOp} (h : Numbered Ns st seen) :
    ∀ (rows : List (List ℤ)) (idx : ℕ) (N2 : ℤ) (t : GTab) (c : ℕ → Option (ℤ × ℤ)),
    (∀ x ∈ rows, gop1 x ∈ seen ∧ gop2 x ∈ seen) → Filled seen t → (idx : ℤ) + rows.length = N2 →
    ∃ t' c', twoBodyExLoop Ns st.2 N2 st.1 rows idx t c = .ok (t', c') ∧ Filled seen t' ∧
      Written t' seen (rows.flatMap fun x => [gop1 x, gop2 x]) ∧
      (∀ j q, t j = some q → t' j = some q) ∧ (∀ r < idx, c' r = c r) ∧
      (∀ r, idx + rows.length ≤ r → c' r = c r) ∧
      ∀ r x, rows[r]? = some x → ∃ k1 k2 : ℕ, c' (idx + r) = some ((k1 : ℤ), (k2 : ℤ)) ∧
        seen[k1]? = some (gop1 x) ∧ seen[k2]? = some (gop2 x) := by
  intro rows
  induction rows with
  | nil =>
    intro idx N2 t c _ ht hl
    refine ⟨t, c, ?_, ht, by simp [Written], fun _ _ h => h, fun _ _ => rfl, fun _ _ => rfl, by simp⟩
    rw [twoBodyExLoop, if_neg (by simpa using hl)]
  | cons x rows ih =>
    intro idx N2 t c hs ht hl
    obtain ⟨s1, s2⟩ := hs x (by simp)
    obtain ⟨k1, t1, e1, hk1, hf1, hw1, hm1⟩ := putOp_ok h s1 ht
    obtain ⟨k2, t2, e2, hk2, hf2, hw2, hm2⟩ := putOp_ok h s2 hf1
    have hg1 := h.2.2.1 _ s1
    have hg2 := h.2.2.1 _ s2
    obtain ⟨t', c', e', hf', hw', hm', hc1, hc2, hc3⟩ := ih (idx + 1) N2 t2
      (fun k => if k = idx then some ((k1 : ℤ), (k2 : ℤ)) else c k)
      (fun y hy => hs y (by simp [hy])) hf2 (by simp only [List.length_cons] at hl; push_cast at hl ⊢; omega)
    refine ⟨t', c', ?_, hf', ?_, fun j q hq => hm' j q (hm2 j q (hm1 j q hq)), ?_, ?_, ?_⟩
    · rw [twoBodyExLoop, e1]
      simp only
      rw [if_neg (by simp only [List.length_cons] at hl; push_cast at hl; omega), e2]
      simp only
      rw [if_neg (by
        rw [not_not, checkQuadSite_iff]
        exact ⟨⟨hg1.1, hg1.2.2.1⟩, hg2.2.2.1, hg2.1⟩)]
      exact e'
    · intro o ho
      rw [List.flatMap_cons] at ho
      rcases List.mem_append.1 ho with ho | ho
      · rcases List.mem_cons.1 ho with rfl | ho
        · exact ⟨k1, hk1, hm' _ _ (hm2 _ _ hw1)⟩
        · rw [List.mem_singleton.1 ho]
          exact ⟨k2, hk2, hm' _ _ hw2⟩
      · exact hw' o ho
    · intro r hr
      rw [hc1 r (by omega), if_neg (by omega)]
    · intro r hr
      rw [List.length_cons] at hr
      rw [hc2 r (by omega), if_neg (by omega)]
    · intro r y hy
      cases r with
      | zero =>
        have : x = y := by simpa using hy
        subst this
        exact ⟨k1, k2, by rw [Nat.add_zero, hc1 idx (by omega), if_pos rfl], hk1, hk2⟩
      | succ r =>
        obtain ⟨a, b, u, v⟩ := hc3 r y (by simpa using hy)
        refine ⟨a, b, ?_, v⟩
        rw [← u]
        congr 1
        omega

theorem sscanRows_full {n : ℕ} : ∀ ls x, x.length = n → (∀ l ∈ ls, Full n 0 l) →
    sscanRows n ls x = ls.map fun l => l.ints.take n
  | [], _, _, _ => rfl
  | l :: ls, x, hx, h => by
    have hl := h l (by simp)
    have e1 : scanI n x l = l.ints.take n := by
      unfold scanI
      rw [List.drop_eq_nil_of_le (by rw [hx]; exact hl.1), List.append_nil]
    rw [sscanRows, e1, List.map_cons]
    congr 1
    refine sscanRows_full ls _ ?_ (fun l hl => h l (by simp [hl]))
    rw [List.length_take]; have := hl.1; omega

end MVMC
