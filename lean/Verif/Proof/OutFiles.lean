import Verif.Spec.OutFiles
import Mathlib.Data.Nat.Digits.Lemmas
import Mathlib.Data.List.Basic

/-! # Execution of file operations, names of files -/
namespace MVMC
open Spec

/-! ## Names -/

theorem digit_char {d : Nat} (h : d < 10) : (Nat.digitChar d).toNat = 48 + d := by
  interval_cases d <;> rfl

/-- digits back to a number -/
def decVal (l : List Char) : Nat := Nat.ofDigits 10 (l.map (fun c => c.toNat - 48)).reverse

theorem decVal_pad (w n : Nat) : decVal (zeroPad w (decDigits n)) = n := by
  unfold decVal zeroPad decDigits
  rw [List.map_append, List.reverse_append, List.map_reverse, List.reverse_reverse, List.map_map]
  have h : (Nat.digits 10 n).map ((fun c => c.toNat - 48) ∘ Nat.digitChar) = Nat.digits 10 n := by
    conv_rhs => rw [← List.map_id (Nat.digits 10 n)]
    refine List.map_congr_left fun d hd => ?_
    have := digit_char (Nat.digits_lt_base (by norm_num : 1 < 10) hd)
    simp only [Function.comp_apply, this, id]
    omega
  rw [h, Nat.ofDigits_append, Nat.ofDigits_digits, List.map_replicate, List.reverse_replicate]
  have : ∀ k, Nat.ofDigits 10 (List.replicate k ('0'.toNat - 48)) = 0 := by
    intro k
    induction k with
    | zero => rfl
    | succ k ih => rw [List.replicate_succ, Nat.ofDigits_cons, ih]; rfl
  rw [this]
  simp

theorem pad_digit {w n : Nat} {c : Char} (h : c ∈ zeroPad w (decDigits n)) : 48 ≤ c.toNat ∧ c.toNat < 58 := by
  unfold zeroPad decDigits at h
  rcases List.mem_append.mp h with h | h
  · rw [List.eq_of_mem_replicate h]; decide
  · obtain ⟨d, hd, rfl⟩ := List.mem_map.mp (List.mem_reverse.mp h)
    have := Nat.digits_lt_base (by norm_num : 1 < 10) hd
    rw [digit_char this]
    omega

theorem pad_ne_nil {w n : Nat} (hw : 0 < w) : zeroPad w (decDigits n) ≠ [] := by
  intro h
  unfold zeroPad at h
  obtain ⟨h1, h2⟩ := List.append_eq_nil_iff.mp h
  rw [h2] at h1
  have := congrArg List.length h1
  simp at this
  omega

theorem fmt03_inj {i j : Int} (h : fmt03 i = fmt03 j) : i = j := by
  unfold fmt03 at h
  have key : ∀ w n, ∀ l : List Char, zeroPad w (decDigits n) ≠ '-' :: l := by
    intro w n l q
    have := pad_digit (w := w) (n := n) (c := '-') (by rw [q]; simp)
    exact absurd this (by decide)
  split_ifs at h with a b b
  · have h := congrArg decVal (List.cons_injective h)
    rw [decVal_pad, decVal_pad] at h
    omega
  · exact absurd h.symm (key _ _ _)
  · exact absurd h (key _ _ _)
  · have h := congrArg decVal h
    rw [decVal_pad, decVal_pad] at h
    omega

theorem fmt03_char {i : Int} {c : Char} (h : c ∈ fmt03 i) : c ≠ '_' ∧ c ≠ 'S' ∧ c ≠ 'C' := by
  have key : ∀ w n, c ∈ zeroPad w (decDigits n) → c ≠ '_' ∧ c ≠ 'S' ∧ c ≠ 'C' := by
    intro w n q
    have := pad_digit q
    refine ⟨?_, ?_, ?_⟩ <;> rintro rfl <;> revert this <;> decide
  unfold fmt03 at h
  split_ifs at h
  · rcases List.mem_cons.mp h with rfl | h
    · decide
    · exact key _ _ h
  · exact key _ _ h

theorem fmt03_ne_nil (i : Int) : fmt03 i ≠ [] := by
  unfold fmt03
  split_ifs
  · simp
  · exact pad_ne_nil (by norm_num)

theorem fmt03_len {i : Int} (h : -99 ≤ i ∧ i ≤ 999) : (fmt03 i).length = 3 := by
  have key : ∀ w n, n < 10 ^ w → (zeroPad w (decDigits n)).length = w := by
    intro w n q
    unfold zeroPad decDigits
    rw [List.length_append, List.length_replicate, List.length_reverse, List.length_map]
    have := (Nat.digits_length_le_iff (b := 10) (k := w) (by norm_num) n).mpr q
    omega
  unfold fmt03
  split_ifs
  · rw [List.length_cons, key 2 _ (by omega)]
  · exact key 3 _ (by omega)

/-- a text is split at its last underscore in one way only -/
theorem split_last {u v a b : List Char} (ha : '_' ∉ a) (hb : '_' ∉ b) (h : u ++ '_' :: a = v ++ '_' :: b) : u = v ∧ a = b := by
  rcases List.append_eq_append_iff.mp h with ⟨w, h1, h2⟩ | ⟨w, h1, h2⟩
  · cases w with
    | nil => simp at h1 h2; exact ⟨h1.symm, h2⟩
    | cons c w => exfalso; apply ha; rw [List.cons_append, List.cons.injEq] at h2; rw [h2.2]; simp
  · cases w with
    | nil => simp at h1 h2; exact ⟨h1, h2.symm⟩
    | cons c w => exfalso; apply hb; rw [List.cons_append, List.cons.injEq] at h2; rw [h2.2]; simp

/-- a tag ends with an underscore -/
def TagEnd (t : String) : Prop := ∃ u, t.toList = u ++ ['_']

theorem name_split {t : String} {u : List Char} (e : t.toList = u ++ ['_']) (q : OutPar) (i : Int) : q.name t i = (q.head ++ u) ++ '_' :: (fmt03 i ++ ".dat".toList) := by
  unfold OutPar.name
  rw [e]
  simp

theorem tail_no (i : Int) : '_' ∉ fmt03 i ++ ".dat".toList := by
  intro h
  rcases List.mem_append.mp h with h | h
  · exact (fmt03_char h).1 rfl
  · revert h; decide

theorem name_inj (q : OutPar) {t t' : String} (ht : TagEnd t) (ht' : TagEnd t') {i j : Int} (h : q.name t i = q.name t' j) : t = t' ∧ i = j := by
  obtain ⟨u, hu⟩ := ht
  obtain ⟨v, hv⟩ := ht'
  rw [name_split hu, name_split hv] at h
  obtain ⟨h1, h2⟩ := split_last (tail_no i) (tail_no j) h
  have h1 := List.append_cancel_left h1
  have h2 := List.append_cancel_right h2
  refine ⟨String.toList_inj.mp (by rw [hu, hv, h1]), fmt03_inj h2⟩

theorem plain_ne (q : OutPar) {t : String} (ht : TagEnd t) {i : Int} {p : String} {c : Char} {r : List Char} (hp : p.toList = '_' :: c :: r) (hr : '_' ∉ c :: r)
    (hc : c = 'S' ∨ c = 'C') : q.name t i ≠ q.plainName p := by
  obtain ⟨u, hu⟩ := ht
  intro h
  rw [name_split hu] at h
  unfold OutPar.plainName at h
  rw [hp, List.cons_append] at h
  have hn : '_' ∉ (c :: r) ++ ".dat".toList := by
    intro w
    rcases List.mem_append.mp w with w | w
    · exact hr w
    · revert w; decide
  obtain ⟨-, h2⟩ := split_last (tail_no i) hn h
  cases hf : fmt03 i with
  | nil => exact fmt03_ne_nil i hf
  | cons d l =>
    rw [hf, List.cons_append, List.cons_append, List.cons.injEq] at h2
    have := fmt03_char (i := i) (c := d) (by rw [hf]; simp)
    rw [h2.1] at this
    rcases hc with e | e
    · exact this.2.1 e
    · exact this.2.2 e

/-! ## Execution -/

theorem exec_append (can : List Char → Bool) (a b : List FileOp) (s : FileSys) : execOps can (a ++ b) s = (execOps can a s).bind (execOps can b) := by
  induction a generalizing s with
  | nil => rfl
  | cons o a ih =>
    simp only [List.cons_append, execOps]
    cases execOp can s o with
    | none => rfl
    | some s => exact ih s

/-- a write or a flush of an open handle -/
def StaticOp (hd : OutH → Option (List Char)) : FileOp → Prop
  | .write h _ => (hd h).isSome
  | .flush h => (hd h).isSome
  | _ => False

/-- the records written to a handle -/
def recsH (h : OutH) (ops : List FileOp) : List OutRec := ops.filterMap fun | .write k x => if k = h then some x else none | _ => none

/-- the records written to a file -/
def recsOf (hd : OutH → Option (List Char)) (nm : List Char) (ops : List FileOp) : List OutRec :=
  ops.filterMap fun | .write k x => if hd k = some nm then some x else none | _ => none

theorem exec_static (can : List Char → Bool) (ops : List FileOp) (s : FileSys) (h : ∀ o ∈ ops, StaticOp s.hd o) :
    execOps can ops s = some { s with files := fun nm => (s.files nm).map (· ++ recsOf s.hd nm ops) } := by
  induction ops generalizing s with
  | nil =>
    simp only [execOps, recsOf, List.filterMap_nil, List.append_nil]
    have : (fun nm => Option.map (fun x => x) (s.files nm)) = s.files := by funext nm; simp
    rw [this]
  | cons o ops ih =>
    have ho := h o (by simp)
    have hr := fun o ho => h o (List.mem_cons_of_mem _ ho)
    cases o with
    | write k x =>
      simp only [StaticOp] at ho
      obtain ⟨nm, hn⟩ := Option.isSome_iff_exists.mp ho
      simp only [execOps, execOp, hn]
      rw [ih { s with files := Function.update s.files nm ((s.files nm).map (· ++ [x])) } hr]
      congr
      funext n
      by_cases e : n = nm
      · subst e
        simp [recsOf, hn, Function.comp_def]
      · have : ¬ nm = n := fun w => e w.symm
        simp [recsOf, hn, Function.update_of_ne e, this]
    | flush k =>
      simp only [StaticOp] at ho
      simp only [execOps, execOp, ho, if_true]
      rw [ih _ hr]
      rfl
    | «open» _ _ => exact ho.elim
    | close _ => exact ho.elim
    | ub => exact ho.elim

/-- open a file and print some records -/
def openOps (l : List (OutH × List Char × List OutRec)) : List FileOp := l.flatMap fun e => .open e.1 e.2.1 :: e.2.2.map (.write e.1)

theorem mem_allH (h : OutH) : h ∈ allH := by cases h <;> decide

theorem exec_open (can : List Char → Bool) (l : List (OutH × List Char × List OutRec)) (s : FileSys) (hh : (l.map (·.1)).Nodup) (hn : (l.map (·.2.1)).Nodup)
    (hc : ∀ e ∈ l, s.hd e.1 = none) (hf : ∀ e ∈ l, ∀ h, s.hd h ≠ some e.2.1) (hl : ∀ e ∈ l, e.2.1.length < fileNameMax) (hcan : ∀ e ∈ l, can e.2.1 = true) :
    ∃ s', execOps can (openOps l) s = some s' ∧ s'.leak = s.leak ∧ s'.clash = s.clash ∧ (∀ e ∈ l, s'.hd e.1 = some e.2.1 ∧ s'.files e.2.1 = some e.2.2) ∧
      (∀ h, h ∉ l.map (·.1) → s'.hd h = s.hd h) ∧ ∀ nm, nm ∉ l.map (·.2.1) → s'.files nm = s.files nm := by
  induction l generalizing s with
  | nil => exact ⟨s, rfl, rfl, rfl, by simp, by simp, by simp⟩
  | cons e l ih =>
    obtain ⟨h, nm, rs⟩ := e
    have e1 := hc _ (List.mem_cons_self ..)
    have e2 := hf _ (List.mem_cons_self ..)
    have e3 := hl _ (List.mem_cons_self ..)
    have e4 := hcan _ (List.mem_cons_self ..)
    simp only at e1 e2 e3 e4
    rw [List.map_cons, List.nodup_cons] at hh hn
    simp only at hh hn
    have hcl : (s.clash || allH.any (fun k => k ≠ h && s.hd k == some nm)) = s.clash := by
      rw [Bool.or_eq_left_iff_imp]
      intro q
      obtain ⟨k, _, hk⟩ := List.any_eq_true.mp q
      simp only [Bool.and_eq_true, beq_iff_eq] at hk
      exact absurd hk.2 (e2 k)
    have hlk : (s.leak || (s.hd h).isSome) = s.leak := by rw [e1]; simp
    have step : execOps can (.open h nm :: rs.map (.write h)) s =
        some { s with hd := Function.update s.hd h (some nm), files := Function.update s.files nm (some rs) } := by
      simp only [execOps, execOp, if_neg (show ¬ nm.length ≥ fileNameMax by omega), e4, if_true, hcl, hlk]
      rw [exec_static]
      · congr
        funext n
        by_cases q : n = nm
        · subst q
          simp [recsOf, List.filterMap_map]
        · have : ¬ nm = n := fun w => q w.symm
          simp [recsOf, Function.update_of_ne q, List.filterMap_map, this]
      · intro o ho
        obtain ⟨x, _, rfl⟩ := List.mem_map.mp ho
        simp [StaticOp]
    obtain ⟨s', h1, h2, h3, h4, h5, h6⟩ := ih { s with hd := Function.update s.hd h (some nm), files := Function.update s.files nm (some rs) } hh.2 hn.2
      (fun e he => by
        have : e.1 ≠ h := fun w => hh.1 (w ▸ List.mem_map_of_mem he)
        simp only [Function.update_of_ne this]
        exact hc e (List.mem_cons_of_mem _ he))
      (fun e he k => by
        have : e.2.1 ≠ nm := fun w => hn.1 (w ▸ List.mem_map_of_mem (f := fun e : OutH × List Char × List OutRec => e.2.1) he)
        by_cases w : k = h
        · subst w
          simp only [Function.update_self, ne_eq, Option.some.injEq]
          exact fun w => this w.symm
        · simp only [Function.update_of_ne w]
          exact hf e (List.mem_cons_of_mem _ he) k)
      (fun e he => hl e (List.mem_cons_of_mem _ he)) (fun e he => hcan e (List.mem_cons_of_mem _ he))
    refine ⟨s', ?_, h2, h3, ?_, ?_, ?_⟩
    · show execOps can ((.open h nm :: rs.map (.write h)) ++ openOps l) s = _
      rw [exec_append, step]
      exact h1
    · intro e he
      rcases List.mem_cons.mp he with rfl | he
      · refine ⟨?_, ?_⟩
        · rw [h5 _ hh.1]; simp
        · rw [h6 _ hn.1]; simp
      · exact h4 e he
    · intro k hk
      rw [List.map_cons, List.mem_cons, not_or] at hk
      rw [h5 k hk.2]
      simp only [Function.update_of_ne hk.1]
    · intro n hn'
      rw [List.map_cons, List.mem_cons, not_or] at hn'
      rw [h6 n hn'.2]
      simp only [Function.update_of_ne hn'.1]

theorem exec_close (can : List Char → Bool) (l : List OutH) (s : FileSys) (hn : l.Nodup) (ho : ∀ h ∈ l, (s.hd h).isSome) :
    execOps can (l.map .close) s = some { s with hd := fun h => if h ∈ l then none else s.hd h } := by
  induction l generalizing s with
  | nil => simp [execOps]
  | cons h l ih =>
    rw [List.nodup_cons] at hn
    simp only [List.map_cons, execOps, execOp, ho h (List.mem_cons_self ..), if_true]
    rw [ih _ hn.2]
    · congr
      funext k
      by_cases e : k = h
      · subst e; simp
      · simp [e]
    · intro k hk
      have : k ≠ h := fun e => hn.1 (e ▸ hk)
      simp only [Function.update_of_ne this]
      exact ho k (List.mem_cons_of_mem _ hk)

/-- handles with different names: the records of a file are those of its handle -/
theorem recsOf_eq {hd : OutH → Option (List Char)} {h : OutH} {nm : List Char} (e : hd h = some nm) (hi : ∀ k, hd k = some nm → k = h) (ops : List FileOp) :
    recsOf hd nm ops = recsH h ops := by
  unfold recsOf recsH
  refine List.filterMap_congr fun o _ => ?_
  cases o with
  | write k x =>
    by_cases q : k = h
    · subst q; simp [e]
    · have : ¬ hd k = some nm := fun w => q (hi k w)
      simp [q, this]
  | _ => rfl

theorem recsOf_none {hd : OutH → Option (List Char)} {nm : List Char} (hi : ∀ k, hd k ≠ some nm) (ops : List FileOp) : recsOf hd nm ops = [] := by
  unfold recsOf
  refine List.filterMap_eq_nil_iff.mpr fun o _ => ?_
  cases o with
  | write k x => simp [hi k]
  | _ => rfl

theorem recsH_append (h : OutH) (a b : List FileOp) : recsH h (a ++ b) = recsH h a ++ recsH h b := List.filterMap_append ..

theorem recsH_lines (h k : OutH) (n : Nat) (x : Nat → OutRec) : recsH h (writeLines k n x) = if k = h then linesOf n x else [] := by
  unfold writeLines
  rw [recsH_append]
  by_cases e : k = h
  · subst e
    simp [recsH, linesOf, List.filterMap_map]
  · simp [recsH, e, List.filterMap_map]

end MVMC
