import Verif.Spec.CmdLine
import Verif.Proof.MultiDef
import Mathlib.Tactic.IntervalCases
import Mathlib.Data.Nat.Digits.Lemmas

/-! # Proofs for C80 -/
namespace MVMC
open Spec

/-! ## Options -/

theorem kind_plain (c : Char) : optKind optString c = .plain ↔ PlainOpt c := by
  simp only [optString, optKind, PlainOpt]
  split_ifs <;> simp_all <;> grind

theorem kind_arg (c : Char) : optKind optString c = .withArg ↔ ArgOpt c := by
  simp only [optString, optKind, ArgOpt]
  split_ifs <;> simp_all <;> grind

theorem cluster_append {fs : List Char} (h : ∀ c ∈ fs, PlainOpt c) (t : List Char) :
    optCluster optString (fs ++ t) = (fs.map .flag ++ (optCluster optString t).1, (optCluster optString t).2) := by
  induction fs with
  | nil => rfl
  | cons c fs ih =>
    have hk := (kind_plain c).mpr (h c List.mem_cons_self)
    rw [List.cons_append, optCluster, hk, ih (fun c hc => h c (List.mem_cons_of_mem _ hc))]
    rfl

theorem cluster_inv (l : List Char) (h : ∀ e ∈ (optCluster optString l).1, e ≠ .bad) :
    ((∀ c ∈ l, PlainOpt c) ∧ optCluster optString l = (l.map .flag, none)) ∨
    (∃ fs c a, l = fs ++ c :: a ∧ (∀ c ∈ fs, PlainOpt c) ∧ ArgOpt c ∧ a ≠ [] ∧ optCluster optString l = (fs.map .flag ++ [.arg c a], none)) ∨
    ∃ fs c, l = fs ++ [c] ∧ (∀ c ∈ fs, PlainOpt c) ∧ ArgOpt c ∧ optCluster optString l = (fs.map .flag, some c) := by
  induction l with
  | nil => exact Or.inl ⟨by simp, rfl⟩
  | cons c cs ih =>
    cases hk : optKind optString c with
    | unknown =>
      rw [optCluster, hk] at h
      exact absurd rfl (h .bad List.mem_cons_self)
    | withArg =>
      have hc := (kind_arg c).mp hk
      by_cases e : cs = []
      · subst e
        refine Or.inr (Or.inr ⟨[], c, rfl, by simp, hc, ?_⟩)
        rw [optCluster, hk]; rfl
      · refine Or.inr (Or.inl ⟨[], c, cs, rfl, by simp, hc, e, ?_⟩)
        rw [optCluster, hk]
        simp [e]
    | plain =>
      have hc := (kind_plain c).mp hk
      have h' : ∀ e ∈ (optCluster optString cs).1, e ≠ .bad := by
        rw [optCluster, hk] at h
        exact fun e he => h e (List.mem_cons_of_mem _ he)
      have hs : ∀ {fs : List Char}, (∀ c ∈ fs, PlainOpt c) → ∀ x ∈ c :: fs, PlainOpt x := by
        intro fs hf x hx
        rcases List.mem_cons.mp hx with rfl | hx
        exacts [hc, hf x hx]
      rcases ih h' with ⟨h1, h2⟩ | ⟨fs, d, a, h1, h2, h3, h4, h5⟩ | ⟨fs, d, h1, h2, h3, h5⟩
      · refine Or.inl ⟨hs h1, ?_⟩
        rw [optCluster, hk, h2]; rfl
      · refine Or.inr (Or.inl ⟨c :: fs, d, a, by rw [h1]; rfl, hs h2, h3, h4, ?_⟩)
        rw [optCluster, hk, h5]; rfl
      · refine Or.inr (Or.inr ⟨c :: fs, d, by rw [h1]; rfl, hs h2, h3, ?_⟩)
        rw [optCluster, hk, h5]; rfl

theorem plain_ne_dash {c : Char} (h : PlainOpt c) : c ≠ '-' := by
  rintro rfl
  unfold PlainOpt at h
  revert h; decide

theorem arg_ne_dash {c : Char} (h : ArgOpt c) : c ≠ '-' := by
  rintro rfl
  unfold ArgOpt at h
  revert h; decide

theorem getopt_word (pre : List Char) (ws : List (List Char)) (h0 : pre ≠ []) (hd : pre ≠ ['-']) :
    getoptAll optString none (('-' :: pre) :: ws) =
      ((optCluster optString pre).1 ++ (getoptAll optString (optCluster optString pre).2 ws).1, (getoptAll optString (optCluster optString pre).2 ws).2) := by
  cases pre with
  | nil => exact absurd rfl h0
  | cons c cs =>
    rw [getoptAll, if_neg (by intro e; injection e with _ e; exact hd e)]

theorem getopt_item (i : Item) (hi : i.ok) (ws : List (List Char)) :
    getoptAll optString none (i.words ++ ws) = (i.options ++ (getoptAll optString none ws).1, i.operands ++ (getoptAll optString none ws).2) := by
  cases i with
  | flags fs =>
    obtain ⟨h0, h1⟩ := hi
    have hc := cluster_append h1 []
    rw [List.append_nil] at hc
    have hd : fs ≠ ['-'] := by rintro rfl; exact plain_ne_dash (h1 '-' (by simp)) rfl
    simp only [Item.words, Item.options, Item.operands, List.cons_append, List.nil_append]
    rw [getopt_word fs ws h0 hd, hc]
    simp only [optCluster, List.append_nil]
  | attached fs c a =>
    obtain ⟨h1, h2, h3⟩ := hi
    have hc := cluster_append h1 (c :: a)
    have hd : fs ++ c :: a ≠ ['-'] := by
      intro e
      cases fs with
      | nil => simp only [List.nil_append, List.cons.injEq] at e; exact h3 e.2
      | cons x fs => simp only [List.cons_append, List.cons.injEq] at e; exact plain_ne_dash (h1 x List.mem_cons_self) e.1
    have hk : optCluster optString (c :: a) = ([.arg c a], none) := by
      rw [optCluster, (kind_arg c).mpr h2]; simp [h3]
    simp only [Item.words, Item.options, Item.operands, List.cons_append, List.nil_append]
    rw [getopt_word _ ws (by simp) hd, hc, hk]
  | separate fs c a =>
    obtain ⟨h1, h2⟩ := hi
    have hc := cluster_append h1 [c]
    have hd : fs ++ [c] ≠ ['-'] := by
      intro e
      cases fs with
      | nil => simp only [List.nil_append, List.cons.injEq] at e; exact arg_ne_dash h2 e.1
      | cons x fs => simp only [List.cons_append, List.cons.injEq] at e; exact plain_ne_dash (h1 x List.mem_cons_self) e.1
    have hk : optCluster optString [c] = ([], some c) := by
      rw [optCluster, (kind_arg c).mpr h2]; simp
    simp only [Item.words, Item.options, Item.operands, List.cons_append, List.nil_append]
    rw [getopt_word _ _ (by simp) hd, hc, hk]
    simp [getoptAll]
  | operand w =>
    simp only [Item.words, Item.options, Item.operands, List.cons_append, List.nil_append]
    have hne : w ≠ ['-', '-'] := by
      rintro rfl
      rcases hi with h | h
      · exact absurd h (by decide)
      · simp at h
    have hx : ∀ c cs, w = '-' :: c :: cs → False := by
      rintro c cs rfl
      rcases hi with h | h
      · exact absurd h (by simp)
      · simp at h
    rw [getoptAll]
    · rw [if_neg hne]
    · exact hx

theorem getopt_of_asks {words : List (List Char)} {opts : List OptEv} {ops : List (List Char)} (h : Asks words opts ops) :
    getoptAll optString none words = (opts, ops) := by
  obtain ⟨items, rest, h1, rfl, rfl, rfl⟩ := h
  induction items with
  | nil =>
    cases rest with
    | none => rfl
    | some ws => simp [tailWords, getoptAll]
  | cons i items ih =>
    simp only [List.flatMap_cons, List.append_assoc]
    rw [getopt_item i (h1 i List.mem_cons_self), ih (fun j hj => h1 j (List.mem_cons_of_mem _ hj))]

/-- every option of a well-written line is known -/
def KnownOpt (e : OptEv) : Prop := (∃ c, PlainOpt c ∧ e = .flag c) ∨ ∃ c a, ArgOpt c ∧ e = .arg c a

theorem asks_known {words : List (List Char)} {opts : List OptEv} {ops : List (List Char)} (h : Asks words opts ops) : ∀ e ∈ opts, KnownOpt e := by
  obtain ⟨items, rest, h1, rfl, rfl, rfl⟩ := h
  intro e he
  obtain ⟨i, hi, he⟩ := List.mem_flatMap.mp he
  have hok := h1 i hi
  cases i with
  | flags fs =>
    obtain ⟨c, hc, rfl⟩ := List.mem_map.mp he
    exact Or.inl ⟨c, hok.2 c hc, rfl⟩
  | attached fs c a =>
    rcases List.mem_append.mp he with he | he
    · obtain ⟨c, hc, rfl⟩ := List.mem_map.mp he
      exact Or.inl ⟨c, hok.1 c hc, rfl⟩
    · rw [List.mem_singleton.mp he]; exact Or.inr ⟨c, a, hok.2.1, rfl⟩
  | separate fs c a =>
    rcases List.mem_append.mp he with he | he
    · obtain ⟨c, hc, rfl⟩ := List.mem_map.mp he
      exact Or.inl ⟨c, hok.1 c hc, rfl⟩
    · rw [List.mem_singleton.mp he]; exact Or.inr ⟨c, a, hok.2, rfl⟩
  | operand w => exact absurd he List.not_mem_nil

theorem known_ne_bad {e : OptEv} (h : KnownOpt e) : e ≠ .bad := by
  rcases h with ⟨c, _, rfl⟩ | ⟨c, a, _, rfl⟩ <;> simp

theorem asks_cons {i : Item} (hi : i.ok) {words : List (List Char)} {opts : List OptEv} {ops : List (List Char)} (h : Asks words opts ops) :
    Asks (i.words ++ words) (i.options ++ opts) (i.operands ++ ops) := by
  obtain ⟨items, rest, h1, rfl, rfl, rfl⟩ := h
  refine ⟨i :: items, rest, ?_, by simp, by simp, by simp⟩
  intro j hj
  rcases List.mem_cons.mp hj with rfl | hj
  exacts [hi, h1 j hj]

theorem asks_of_getopt : ∀ (n : Nat) (words : List (List Char)), words.length ≤ n → (∀ e ∈ (getoptAll optString none words).1, e ≠ .bad) →
    Asks words (getoptAll optString none words).1 (getoptAll optString none words).2 := by
  intro n
  induction n with
  | zero =>
    intro words hn _
    have : words = [] := List.length_eq_zero_iff.mp (by omega)
    subst this
    exact ⟨[], none, by simp, rfl, rfl, rfl⟩
  | succ n ih =>
    intro words hn hb
    cases words with
    | nil => exact ⟨[], none, by simp, rfl, rfl, rfl⟩
    | cons w ws =>
      have hn' : ws.length ≤ n := by simpa using hn
      by_cases hd : w = ['-', '-']
      · subst hd
        refine ⟨[], some ws, by simp, rfl, ?_, ?_⟩ <;> simp [getoptAll]
      by_cases hw : w = ['-'] ∨ w.head? ≠ some '-'
      · have e := getopt_item (.operand w) hw ws
        simp only [Item.words, List.cons_append, List.nil_append] at e
        rw [e] at hb ⊢
        exact asks_cons (i := .operand w) hw (ih ws hn' (fun x hx => hb x (by simpa [Item.options] using hx)))
      · rw [not_or, not_not] at hw
        obtain ⟨c, pre, rfl⟩ : ∃ c pre, w = '-' :: c :: pre := by
          cases w with
          | nil => simp at hw
          | cons x w =>
            have : x = '-' := by simpa using hw.2
            subst this
            cases w with
            | nil => exact absurd rfl hw.1
            | cons c pre => exact ⟨c, pre, rfl⟩
        have hp : c :: pre ≠ ['-'] := fun e => hd (by rw [e])
        rw [getopt_word (c :: pre) ws (by simp) hp] at hb ⊢
        rcases cluster_inv (c :: pre) (fun e he => hb e (List.mem_append_left _ he)) with ⟨h1, h2⟩ | ⟨fs, d, a, h1, h2, h3, h4, h5⟩ | ⟨fs, d, h1, h2, h3, h5⟩
        · rw [h2] at hb ⊢
          exact asks_cons (i := .flags (c :: pre)) ⟨by simp, h1⟩ (ih ws hn' (fun x hx => hb x (List.mem_append_right _ hx)))
        · rw [h5] at hb ⊢
          rw [h1]
          exact asks_cons (i := .attached fs d a) ⟨h2, h3, h4⟩ (ih ws hn' (fun x hx => hb x (List.mem_append_right _ hx)))
        · rw [h5] at hb ⊢
          rw [h1]
          cases ws with
          | nil =>
            exact absurd rfl (hb .bad (by simp [getoptAll]))
          | cons a ws =>
            have := asks_cons (i := .separate fs d a) ⟨h2, h3⟩ (ih ws (by simp at hn'; omega) (fun x hx => hb x (by simp [getoptAll, hx])))
            simpa [Item.words, Item.options, Item.operands, getoptAll] using this

/-! ## Numbers -/

theorem cDigit_iff (c : Char) : cDigit c = true ↔ ∃ d < 10, c = Char.ofNat ('0'.toNat + d) := by
  have h0 : '0'.toNat = 48 := rfl
  rw [h0]
  constructor
  · intro h
    simp only [cDigit, Bool.and_eq_true, decide_eq_true_eq] at h
    refine ⟨c.toNat - 48, by omega, ?_⟩
    rw [show 48 + (c.toNat - 48) = c.toNat by omega, Char.ofNat_toNat]
  · rintro ⟨d, hd, rfl⟩
    interval_cases d <;> decide

theorem digit_toNat {d : Nat} (h : d < 10) : (Char.ofNat ('0'.toNat + d)).toNat - 48 = d := by
  interval_cases d <;> decide

theorem cSpace_iff (c : Char) : cSpace c = true ↔ Blank c := by
  have key : ∀ n, c.toNat = n → c = Char.ofNat n := fun n h => by rw [← h, Char.ofNat_toNat]
  unfold Blank
  constructor
  · intro h
    simp only [cSpace, Bool.or_eq_true, Bool.and_eq_true, decide_eq_true_eq] at h
    have hn : c.toNat = 32 ∨ c.toNat = 9 ∨ c.toNat = 10 ∨ c.toNat = 11 ∨ c.toNat = 12 ∨ c.toNat = 13 := by omega
    rcases hn with h | h | h | h | h | h
    · exact Or.inl (key _ h)
    · exact Or.inr (Or.inl (key _ h))
    · exact Or.inr (Or.inr (Or.inl (key _ h)))
    · exact Or.inr (Or.inr (Or.inr (Or.inl (key _ h))))
    · exact Or.inr (Or.inr (Or.inr (Or.inr (Or.inl (key _ h)))))
    · exact Or.inr (Or.inr (Or.inr (Or.inr (Or.inr (key _ h)))))
  · rintro (rfl | rfl | rfl | rfl | rfl | rfl) <;> decide

theorem cDigits_eq (ds : List Nat) (h : ∀ d ∈ ds, d < 10) : cDigits (ds.map fun d => Char.ofNat ('0'.toNat + d)) = Nat.ofDigits 10 ds.reverse := by
  unfold cDigits
  rw [List.foldl_map]
  have key : ∀ (ds : List Nat) (a : Nat), (∀ d ∈ ds, d < 10) →
      ds.foldl (fun a d => 10 * a + ((Char.ofNat ('0'.toNat + d)).toNat - 48)) a = a * 10 ^ ds.length + Nat.ofDigits 10 ds.reverse := by
    intro ds
    induction ds with
    | nil => intro a _; simp
    | cons d ds ih =>
      intro a h
      rw [List.foldl_cons, ih _ (fun x hx => h x (List.mem_cons_of_mem _ hx)), digit_toNat (h d List.mem_cons_self), List.reverse_cons, Nat.ofDigits_append,
        Nat.ofDigits_singleton, List.length_reverse, List.length_cons]
      ring
  rw [key ds 0 h]
  simp

theorem dropWhile_append {p : Char → Bool} {l r : List Char} (hl : ∀ c ∈ l, p c = true) (hr : ∀ c, r.head? = some c → p c = false) : (l ++ r).dropWhile p = r := by
  induction l with
  | nil =>
    cases r with
    | nil => rfl
    | cons c r => rw [List.nil_append, List.dropWhile_cons_of_neg]; simp [hr c rfl]
  | cons c l ih =>
    rw [List.cons_append, List.dropWhile_cons_of_pos (hl c List.mem_cons_self)]
    exact ih (fun x hx => hl x (List.mem_cons_of_mem _ hx))

theorem takeWhile_append {p : Char → Bool} {l r : List Char} (hl : ∀ c ∈ l, p c = true) (hr : ∀ c, r.head? = some c → p c = false) : (l ++ r).takeWhile p = l := by
  induction l with
  | nil =>
    cases r with
    | nil => rfl
    | cons c r => rw [List.nil_append, List.takeWhile_cons_of_neg]; simp [hr c rfl]
  | cons c l ih =>
    rw [List.cons_append, List.takeWhile_cons_of_pos (hl c List.mem_cons_self), ih (fun x hx => hl x (List.mem_cons_of_mem _ hx))]

theorem takeWhile_all {p : Char → Bool} (l : List Char) : ∀ c ∈ l.takeWhile p, p c = true := by
  intro c hc
  induction l with
  | nil => simp at hc
  | cons x l ih =>
    by_cases h : p x = true
    · rw [List.takeWhile_cons_of_pos h] at hc
      rcases List.mem_cons.mp hc with rfl | hc
      exacts [h, ih hc]
    · rw [List.takeWhile_cons_of_neg h] at hc; simp at hc

theorem dropWhile_head {p : Char → Bool} (l : List Char) : ∀ c, (l.dropWhile p).head? = some c → p c = false := by
  intro c hc
  induction l with
  | nil => simp at hc
  | cons x l ih =>
    by_cases h : p x = true
    · rw [List.dropWhile_cons_of_pos h] at hc; exact ih hc
    · rw [List.dropWhile_cons_of_neg h] at hc
      have : x = c := by simpa using hc
      rw [← this]; simpa using h

theorem digits_of {l : List Char} (h : ∀ c ∈ l, cDigit c = true) : ∃ ds : List Nat, (∀ d ∈ ds, d < 10) ∧ l = ds.map fun d => Char.ofNat ('0'.toNat + d) := by
  induction l with
  | nil => exact ⟨[], by simp, rfl⟩
  | cons c l ih =>
    obtain ⟨ds, h1, h2⟩ := ih (fun x hx => h x (List.mem_cons_of_mem _ hx))
    obtain ⟨d, hd, e⟩ := (cDigit_iff c).mp (h c List.mem_cons_self)
    refine ⟨d :: ds, ?_, by rw [e, h2]; rfl⟩
    intro x hx
    rcases List.mem_cons.mp hx with rfl | hx
    exacts [hd, h1 x hx]

theorem cSign_cases (l : List Char) : (∃ u, l = '-' :: u ∧ cSign l = (true, u)) ∨ (∃ u, l = '+' :: u ∧ cSign l = (false, u)) ∨ cSign l = (false, l) := by
  unfold cSign
  split
  · exact Or.inl ⟨_, rfl, rfl⟩
  · exact Or.inr (Or.inl ⟨_, rfl, rfl⟩)
  · exact Or.inr (Or.inr rfl)

theorem cSign_other {c : Char} {l : List Char} (h1 : c ≠ '-') (h2 : c ≠ '+') : cSign (c :: l) = (false, c :: l) := by
  unfold cSign
  split
  · rename_i u e; injection e with e _; exact absurd e h1
  · rename_i u e; injection e with e _; exact absurd e h2
  · rfl

/-- what `strtol` returns for a text that begins with a number -/
theorem strtol_begins {s rest : List Char} {v : Int} (h : BeginsWith s v rest) :
    strtol10 s = (if v > longMax then ⟨longMax, rest.length, true⟩ else if v < -longMax - 1 then ⟨-longMax - 1, rest.length, true⟩ else ⟨v, rest.length, false⟩) ∧
      rest.length < s.length := by
  obtain ⟨bl, sg, ds, h1, h2, h3, h4, rfl, h5, rfl⟩ := h
  set D := ds.map fun d => Char.ofNat ('0'.toNat + d) with hD
  have hDne : D ≠ [] := by simpa [hD] using h3
  have hDd : ∀ c ∈ D, cDigit c = true := by
    intro c hc
    obtain ⟨d, hd, rfl⟩ := List.mem_map.mp hc
    exact (cDigit_iff _).mpr ⟨d, h4 d hd, rfl⟩
  have hr : ∀ c, rest.head? = some c → cDigit c = false := by
    intro c hc
    by_contra hx
    obtain ⟨d, hd, e⟩ := (cDigit_iff c).mp (by simpa using hx)
    exact h5 c hc d hd e
  have hDhead : ∃ c, (D ++ rest).head? = some c ∧ cDigit c = true := by
    cases hd : D with
    | nil => exact absurd hd hDne
    | cons c D' => exact ⟨c, rfl, hDd c (by rw [hd]; exact List.mem_cons_self)⟩
  obtain ⟨c0, hc0, hc0d⟩ := hDhead
  have hnsp : cSpace c0 = false := by
    obtain ⟨d, hd, e⟩ := (cDigit_iff c0).mp hc0d
    rw [e]
    interval_cases d <;> decide
  have hns : ∀ c, (sg ++ (D ++ rest)).head? = some c → cSpace c = false := by
    intro c hc
    rcases h2 with rfl | rfl | rfl
    · rw [List.nil_append, hc0] at hc
      injection hc with hc; rw [← hc]; exact hnsp
    · have : '+' = c := by simpa using hc
      rw [← this]; decide
    · have : '-' = c := by simpa using hc
      rw [← this]; decide
  have hdrop : (bl ++ sg ++ D ++ rest).dropWhile cSpace = sg ++ (D ++ rest) := by
    rw [List.append_assoc, List.append_assoc]
    exact dropWhile_append (fun c hc => (cSpace_iff c).mpr (h1 c hc)) hns
  have hsg : cSign (sg ++ (D ++ rest)) = (decide (sg = ['-']), D ++ rest) := by
    rcases h2 with rfl | rfl | rfl
    · have hcd : ∀ x, cDigit x = false → c0 ≠ x := by rintro x hx rfl; rw [hc0d] at hx; exact absurd hx (by simp)
      cases hd : D ++ rest with
      | nil => rw [hd] at hc0; simp at hc0
      | cons c l =>
        rw [hd] at hc0
        have : c = c0 := by simpa using hc0
        rw [List.nil_append, cSign_other (by rw [this]; exact hcd _ (by decide)) (by rw [this]; exact hcd _ (by decide))]
        simp
    · simp [cSign]
    · simp [cSign]
  have htake : (D ++ rest).takeWhile cDigit = D := takeWhile_append hDd hr
  have hdw : (D ++ rest).dropWhile cDigit = rest := dropWhile_append hDd hr
  have hval : cDigits D = Nat.ofDigits 10 ds.reverse := cDigits_eq ds h4
  have hv : (if decide (sg = ['-']) = true then -((cDigits D : Nat) : Int) else ((cDigits D : Nat) : Int)) =
      (if sg = ['-'] then -1 else 1) * ((Nat.ofDigits 10 ds.reverse : Nat) : Int) := by
    rw [hval]
    by_cases e : sg = ['-'] <;> simp [e]
  constructor
  · unfold strtol10
    simp only [hdrop, hsg, htake, hdw]
    rw [if_neg hDne, hv]
    push_cast
    rfl
  · have : 0 < D.length := List.length_pos_iff.mpr hDne
    simp only [List.length_append]
    omega

theorem strtol_none {s : List Char} (h : ∀ v rest, ¬ BeginsWith s v rest) : strtol10 s = ⟨0, s.length, false⟩ := by
  unfold strtol10
  simp only []
  by_cases hds : (cSign (s.dropWhile cSpace)).2.takeWhile cDigit = []
  · rw [if_pos hds]
  · exfalso
    set t := s.dropWhile cSpace with ht
    set u := cSign t with hu
    obtain ⟨ds, h1, h2⟩ := digits_of (takeWhile_all (p := cDigit) u.2)
    have hs : s = s.takeWhile cSpace ++ t := (List.takeWhile_append_dropWhile).symm
    have hu2 : u.2 = u.2.takeWhile cDigit ++ u.2.dropWhile cDigit := (List.takeWhile_append_dropWhile).symm
    have hsg : ∃ sg, (sg = [] ∨ sg = ['+'] ∨ sg = ['-']) ∧ t = sg ++ u.2 := by
      rcases cSign_cases t with ⟨w, e1, e2⟩ | ⟨w, e1, e2⟩ | e2
      · refine ⟨['-'], by simp, ?_⟩
        rw [hu, e2, e1]; rfl
      · refine ⟨['+'], by simp, ?_⟩
        rw [hu, e2, e1]; rfl
      · refine ⟨[], by simp, ?_⟩
        rw [hu, e2]; rfl
    obtain ⟨sg, q1, q2⟩ := hsg
    refine h _ (u.2.dropWhile cDigit) ⟨s.takeWhile cSpace, sg, ds, fun c hc => (cSpace_iff c).mp (takeWhile_all _ c hc), q1, ?_, h1, ?_, ?_, rfl⟩
    · rintro rfl; exact hds (by rw [h2]; rfl)
    · rw [← h2, List.append_assoc, List.append_assoc, ← hu2, ← q2, ← hs]
    · intro c hc d hd e
      have := dropWhile_head u.2 c hc
      rw [(cDigit_iff c).mpr ⟨d, hd, e⟩] at this
      exact absurd this (by simp)

theorem longMax_val : longMax = 9223372036854775807 := by decide

theorem cIntMax_val : cIntMax = 2147483647 := by decide

theorem strtol_fits {s rest : List Char} {v : Int} (h : BeginsWith s v rest) (hv : FitsInt v) : strtol10 s = ⟨v, rest.length, false⟩ := by
  have hL := longMax_val
  unfold FitsInt at hv
  rw [(strtol_begins h).1, if_neg (by omega), if_neg (by omega)]

theorem numArg_some {s : List Char} {v : Int} (h : NumOK s v) : numArg s = some v := by
  obtain ⟨⟨rest, hb⟩, hf⟩ := h
  have e := strtol_fits hb hf
  have hl := (strtol_begins hb).2
  have hI := cIntMax_val
  unfold FitsInt at hf
  unfold numArg
  simp only [e]
  rw [if_neg (by simp), if_neg (by omega), if_neg (by omega)]

theorem numArg_none_of_big {s rest : List Char} {v : Int} (h : BeginsWith s v rest) (hv : ¬ FitsInt v) : numArg s = none := by
  have hL := longMax_val
  have hI := cIntMax_val
  unfold FitsInt at hv
  have e := (strtol_begins h).1
  have hl := (strtol_begins h).2
  unfold numArg
  by_cases h1 : v > longMax
  · rw [if_pos h1] at e
    simp [e]
  · rw [if_neg h1] at e
    by_cases h2 : v < -longMax - 1
    · rw [if_pos h2] at e
      simp [e]
    · rw [if_neg h2] at e
      simp only [e]
      rw [if_neg (by simp), if_neg (by omega), if_pos (by omega)]

theorem numArg_iff (s : List Char) (v : Int) : numArg s = some v ↔ NumOK s v := by
  refine ⟨fun h => ?_, numArg_some⟩
  by_cases hx : ∃ w rest, BeginsWith s w rest
  · obtain ⟨w, rest, hb⟩ := hx
    by_cases hf : FitsInt w
    · have := numArg_some ⟨⟨rest, hb⟩, hf⟩
      rw [h] at this
      rw [Option.some.inj this]
      exact ⟨⟨rest, hb⟩, hf⟩
    · rw [numArg_none_of_big hb hf] at h
      exact absurd h (by simp)
  · have hn : ∀ v rest, ¬ BeginsWith s v rest := fun v rest hb => hx ⟨v, rest, hb⟩
    unfold numArg at h
    simp [strtol_none hn] at h

theorem numOK_unique {a : List Char} {v w : Int} (h : NumOK a v) (h' : NumOK a w) : v = w := by
  have h1 := (numArg_iff a v).mpr h
  have h2 := (numArg_iff a w).mpr h'
  rw [h1] at h2
  exact Option.some.inj h2

/-! ## The loop -/

theorem cmdLoop_append (v : CmdVars) (l r : List OptEv) : cmdLoop v (l ++ r) = (match cmdLoop v l with
    | .inr x => .inr x
    | .inl v' => cmdLoop v' r) := by
  induction l generalizing v with
  | nil => rfl
  | cons e l ih =>
    rw [List.cons_append, cmdLoop, cmdLoop]
    cases cmdStep v e with
    | inr x => rfl
    | inl v' => exact ih v'

theorem numArg_none (a : List Char) : numArg a = none ↔ ∀ v, ¬ NumOK a v := by
  constructor
  · intro h v hv
    rw [(numArg_iff a v).mpr hv] at h
    exact absurd h (by simp)
  · intro h
    cases e : numArg a with
    | none => rfl
    | some v => exact absurd ((numArg_iff a v).mp e) (h v)

/-- an option that ends the program does so -/
theorem step_ends (v : CmdVars) {e : OptEv} {x : Int} (h : Ends e x) : cmdStep v e = .inr x := by
  cases h with
  | help => rfl
  | version => rfl
  | number hc hn =>
    rename_i c a
    rcases hc with rfl | rfl
    · simp [cmdStep, (numArg_none _).mpr hn]
    · simp [cmdStep, (numArg_none _).mpr hn]
  | flush hn hv =>
    simp [cmdStep, (numArg_iff _ _).mpr hn, hv]

/-- the settings agree with the options so far -/
structure SetBy (es : List OptEv) (v : CmdVars) : Prop where
  bin : v.flagBinary = if .flag 'b' ∈ es then 1 else 0
  opt : v.flagOptTrans = if .flag 'o' ∈ es then 1 else 0
  std : v.flagStandard = if .flag 's' ∈ es then 1 else 0
  flush : LastFlush es v.nFlush
  mode : (v.flagMultiDef = 0 ∧ LastMode es none) ∨ (v.flagMultiDef = 1 ∧ LastMode es (some v.nMultiDef))

theorem flush_keep {es : List OptEv} {f : Int} {e : OptEv} (h : LastFlush es f) (he : ∀ a, e ≠ .arg 'F' a) : LastFlush (es ++ [e]) f := by
  cases h with
  | none h =>
    refine .none ?_
    intro x hx
    rcases List.mem_append.mp hx with hx | hx
    · exact h x hx
    · rw [List.mem_singleton.mp hx]; exact he
  | @last l r a n hn h =>
    rw [List.append_assoc, List.cons_append]
    refine .last hn ?_
    intro x hx
    rcases List.mem_append.mp hx with hx | hx
    · exact h x hx
    · rw [List.mem_singleton.mp hx]; exact he

theorem mode_keep {es : List OptEv} {m : Option Int} {e : OptEv} (h : LastMode es m) (he : e ≠ .flag 'e' ∧ e ≠ .flag 's' ∧ ∀ a, e ≠ .arg 'm' a) :
    LastMode (es ++ [e]) m := by
  have key : ∀ r : List OptEv, (∀ e ∈ r, e ≠ .flag 'e' ∧ e ≠ .flag 's' ∧ ∀ a, e ≠ .arg 'm' a) →
      ∀ x ∈ r ++ [e], x ≠ .flag 'e' ∧ x ≠ .flag 's' ∧ ∀ a, x ≠ .arg 'm' a := by
    intro r hr x hx
    rcases List.mem_append.mp hx with hx | hx
    · exact hr x hx
    · rw [List.mem_singleton.mp hx]; exact he
  cases h with
  | none h => exact .none (key _ h)
  | single h1 h2 => rw [List.append_assoc, List.cons_append]; exact .single h1 (key _ h2)
  | multi h1 h2 => rw [List.append_assoc, List.cons_append]; exact .multi h1 (key _ h2)

theorem mem_keep {es : List OptEv} {e x : OptEv} (h : x ≠ e) : (if e ∈ es ++ [x] then (1 : Int) else 0) = if e ∈ es then 1 else 0 := by
  simp [h.symm]

theorem mem_new {es : List OptEv} {e : OptEv} : (if e ∈ es ++ [e] then (1 : Int) else 0) = 1 := by simp

theorem setBy_nil : SetBy [] {} := ⟨by simp, by simp, by simp, .none (by simp), Or.inl ⟨rfl, .none (by simp)⟩⟩

theorem setBy_keep {es : List OptEv} {v w : CmdVars} {e : OptEv} (h : SetBy es v) (he : e ≠ .flag 'e' ∧ e ≠ .flag 's' ∧ ∀ a, e ≠ .arg 'm' a)
    (h1 : w.flagMultiDef = v.flagMultiDef) (h2 : w.nMultiDef = v.nMultiDef) :
    (w.flagMultiDef = 0 ∧ LastMode (es ++ [e]) none) ∨ (w.flagMultiDef = 1 ∧ LastMode (es ++ [e]) (some w.nMultiDef)) := by
  rw [h1, h2]
  rcases h.mode with ⟨a, b⟩ | ⟨a, b⟩
  · exact Or.inl ⟨a, mode_keep b he⟩
  · exact Or.inr ⟨a, mode_keep b he⟩

theorem step_flag {v : CmdVars} {c : Char} (h : PlainOpt c) {es : List OptEv} (hv : SetBy es v) (hn : ∀ x, ¬ Ends (.flag c) x) :
    ∃ w, cmdStep v (.flag c) = .inl w ∧ SetBy (es ++ [.flag c]) w := by
  rcases h with rfl | rfl | rfl | rfl | rfl | rfl
  · refine ⟨{ v with flagBinary := 1 }, rfl, mem_new.symm, ?_, ?_, flush_keep hv.flush (by simp), setBy_keep hv (by simp) rfl rfl⟩
    · rw [mem_keep (by simp)]; exact hv.opt
    · rw [mem_keep (by simp)]; exact hv.std
  · exact absurd Ends.help (hn 0)
  · refine ⟨{ v with flagOptTrans := 1 }, rfl, ?_, mem_new.symm, ?_, flush_keep hv.flush (by simp), setBy_keep hv (by simp) rfl rfl⟩
    · rw [mem_keep (by simp)]; exact hv.bin
    · rw [mem_keep (by simp)]; exact hv.std
  · refine ⟨{ v with flagMultiDef := 0 }, rfl, ?_, ?_, ?_, flush_keep hv.flush (by simp), Or.inl ⟨rfl, .single (Or.inl rfl) (by simp)⟩⟩
    · rw [mem_keep (by simp)]; exact hv.bin
    · rw [mem_keep (by simp)]; exact hv.opt
    · rw [mem_keep (by simp)]; exact hv.std
  · refine ⟨{ v with flagMultiDef := 0, flagStandard := 1 }, rfl, ?_, ?_, mem_new.symm, flush_keep hv.flush (by simp), Or.inl ⟨rfl, .single (Or.inr rfl) (by simp)⟩⟩
    · rw [mem_keep (by simp)]; exact hv.bin
    · rw [mem_keep (by simp)]; exact hv.opt
  · exact absurd Ends.version (hn 0)

theorem step_arg {v : CmdVars} {c : Char} {a : List Char} (h : ArgOpt c) {es : List OptEv} (hv : SetBy es v) (hn : ∀ x, ¬ Ends (.arg c a) x) :
    ∃ w, cmdStep v (.arg c a) = .inl w ∧ SetBy (es ++ [.arg c a]) w := by
  have hnum : ∃ n, NumOK a n := by
    by_contra hx
    exact hn 1 (.number h (fun v hv => hx ⟨v, hv⟩))
  obtain ⟨n, hok⟩ := hnum
  have e := (numArg_iff a n).mpr hok
  have h3 : (∀ {p : CmdVars}, p.flagBinary = v.flagBinary → p.flagBinary = if .flag 'b' ∈ es ++ [.arg c a] then 1 else 0) := by
    intro p hp; rw [mem_keep (by simp), hp]; exact hv.bin
  have h4 : (∀ {p : CmdVars}, p.flagOptTrans = v.flagOptTrans → p.flagOptTrans = if .flag 'o' ∈ es ++ [.arg c a] then 1 else 0) := by
    intro p hp; rw [mem_keep (by simp), hp]; exact hv.opt
  have h5 : (∀ {p : CmdVars}, p.flagStandard = v.flagStandard → p.flagStandard = if .flag 's' ∈ es ++ [.arg c a] then 1 else 0) := by
    intro p hp; rw [mem_keep (by simp), hp]; exact hv.std
  rcases h with rfl | rfl
  · refine ⟨{ v with flagMultiDef := 1, nMultiDef := n }, by simp [cmdStep, e], h3 rfl, h4 rfl, h5 rfl, flush_keep hv.flush (by simp), Or.inr ⟨rfl, .multi hok (by simp)⟩⟩
  · have hpos : ¬ n < 1 := fun hlt => hn 1 (.flush hok hlt)
    refine ⟨{ v with nFlush := n }, by simp [cmdStep, e, hpos], h3 rfl, h4 rfl, h5 rfl, .last hok (by simp), setBy_keep hv (by simp) rfl rfl⟩

theorem loop_setBy {es : List OptEv} (hk : ∀ e ∈ es, KnownOpt e) (hn : ∀ e ∈ es, ∀ x, ¬ Ends e x) : ∃ v, cmdLoop {} es = .inl v ∧ SetBy es v := by
  induction es using List.reverseRecOn with
  | nil => exact ⟨{}, rfl, setBy_nil⟩
  | append_singleton es e ih =>
    obtain ⟨v, h1, h2⟩ := ih (fun x hx => hk x (List.mem_append_left _ hx)) (fun x hx => hn x (List.mem_append_left _ hx))
    have he := hk e (by simp)
    have hne := hn e (by simp)
    have : ∃ w, cmdStep v e = .inl w ∧ SetBy (es ++ [e]) w := by
      rcases he with ⟨c, hc, rfl⟩ | ⟨c, a, hc, rfl⟩
      exacts [step_flag hc h2 hne, step_arg hc h2 hne]
    obtain ⟨w, h3, h4⟩ := this
    refine ⟨w, ?_, h4⟩
    rw [cmdLoop_append, h1]
    simp only [cmdLoop, h3]

theorem loop_ends {l r : List OptEv} {e : OptEv} {x : Int} (hk : ∀ e ∈ l, KnownOpt e) (hn : ∀ e ∈ l, ∀ x, ¬ Ends e x) (he : Ends e x) :
    cmdLoop {} (l ++ e :: r) = .inr x := by
  obtain ⟨v, h1, _⟩ := loop_setBy hk hn
  rw [cmdLoop_append, h1]
  simp only [cmdLoop, step_ends v he]

theorem loop_bad (v : CmdVars) {es : List OptEv} (h : .bad ∈ es) : ∃ x, cmdLoop v es = .inr x := by
  induction es generalizing v with
  | nil => simp at h
  | cons e es ih =>
    rw [cmdLoop]
    cases hs : cmdStep v e with
    | inr x => exact ⟨x, rfl⟩
    | inl v' =>
      rcases List.mem_cons.mp h with rfl | h
      · simp [cmdStep] at hs
      · exact ih v' h

/-! ## The list of directories -/

theorem readDirs_iff (n : Nat) (f : Option (List (List Char))) (l : List (List Char)) :
    readDirs n f = .dirs l ↔ ∃ ws, f = some ws ∧ n ≤ ws.length ∧ l = ws.take n ∧ ∀ w ∈ ws.take n, w.length < 256 := by
  cases f with
  | none => simp [readDirs]
  | some ws =>
    simp only [Option.some.injEq, exists_eq_left']
    induction n generalizing ws l with
    | zero => simp [readDirs, eq_comm]
    | succ n ih =>
      cases ws with
      | nil => simp [readDirs]
      | cons w ws =>
        simp only [readDirs]
        by_cases hw : w.length + 1 > cmdBuf
        · rw [if_pos hw]
          simp only [cmdBuf] at hw
          simp
          omega
        · rw [if_neg hw]
          simp only [cmdBuf, not_lt] at hw
          have hw' : w.length < 256 := by omega
          have : (∀ x ∈ (w :: ws).take (n + 1), x.length < 256) ↔ ∀ x ∈ ws.take n, x.length < 256 := by simp [hw']
          rw [this]
          have ih' := fun l => ih l ws
          cases hr : readDirs n (some ws) with
          | abort =>
            rw [hr] at ih'
            simp only [reduceCtorEq, false_iff, not_and] at ih' ⊢
            intro h1 _ h3
            exact ih' (ws.take n) (by simpa using h1) rfl h3
          | overflow =>
            rw [hr] at ih'
            simp only [reduceCtorEq, false_iff, not_and] at ih' ⊢
            intro h1 _ h3
            exact ih' (ws.take n) (by simpa using h1) rfl h3
          | dirs l' =>
            have h' := (ih' l').mp hr
            simp only [DirOut.dirs.injEq, List.length_cons, List.take_succ_cons]
            constructor
            · rintro rfl; exact ⟨by omega, by rw [h'.2.1], h'.2.2⟩
            · rintro ⟨_, h2, _⟩; rw [h2, h'.2.1]

theorem group_congr {size n r r' : Nat} (hn : 0 < n) (hs : n ≤ size) : multiDefGroup size r' n = multiDefGroup size r n ↔ groupNat size n r' = groupNat size n r := by
  rw [multiDefGroup_eq size n r hn hs, multiDefGroup_eq size n r' hn hs]
  constructor
  · intro h; injection h with h; exact_mod_cast h
  · intro h; rw [h]

theorem childRank_zero {size n r : Nat} (hn : 0 < n) (hs : n ≤ size) : childRank size n r = 0 ↔ r = groupStart size n (groupNat size n r) := by
  have hg := (groupNat_iff size n r _ hn hs).mp rfl
  unfold childRank
  rw [List.length_eq_zero_iff, List.filter_eq_nil_iff]
  simp only [List.mem_range, decide_eq_true_eq, group_congr hn hs]
  constructor
  · intro h
    by_contra hne
    refine h (groupStart size n (groupNat size n r)) (by omega) ?_
    exact (groupNat_iff size n _ _ hn hs).mpr ⟨le_refl _, by omega⟩
  · intro h a ha e
    have := ((groupNat_iff size n a _ hn hs).mp e).1
    omega

theorem groupStart_lt {size n : Nat} (hn : 0 < n) (hs : n ≤ size) {g h : Nat} (hgh : g < h) : groupStart size n g < groupStart size n h := by
  have hd : 0 < size / n := Nat.div_pos hs hn
  refine lt_of_lt_of_le (?_ : _ < groupStart size n (g + 1)) (groupStart_mono size n hgh)
  rw [groupStart_step]; omega

/-- the number of leaders below the first process of group `g` -/
theorem leaders_below {size n : Nat} (hn : 0 < n) (hs : n ≤ size) (g : Nat) :
    ((List.range (groupStart size n g)).filter fun r => childRank size n r = 0).length = g := by
  have hmem : ∀ r, childRank size n r = 0 ↔ ∃ h, r = groupStart size n h := by
    intro r
    rw [childRank_zero hn hs]
    constructor
    · intro e; exact ⟨_, e⟩
    · rintro ⟨h, rfl⟩
      rw [(groupNat_iff size n (groupStart size n h) h hn hs).mpr ⟨le_refl _, groupStart_lt hn hs (Nat.lt_succ_self h)⟩]
  have hinj : Function.Injective (groupStart size n) := by
    intro a b e
    rcases lt_trichotomy a b with h | h | h
    · have := groupStart_lt hn hs h; omega
    · exact h
    · have := groupStart_lt hn hs h; omega
  have hset : ((List.range (groupStart size n g)).filter fun r => childRank size n r = 0).toFinset = (Finset.range g).image (groupStart size n) := by
    ext r
    simp only [List.mem_toFinset, List.mem_filter, List.mem_range, decide_eq_true_eq, hmem, Finset.mem_image, Finset.mem_range]
    constructor
    · rintro ⟨h1, h, rfl⟩
      refine ⟨h, ?_, rfl⟩
      by_contra hx
      have := groupStart_mono size n (not_lt.mp hx)
      omega
    · rintro ⟨h, h1, rfl⟩
      exact ⟨groupStart_lt hn hs h1, h, rfl⟩
  rw [← List.toFinset_card_of_nodup ((List.nodup_range).filter _), hset, Finset.card_image_of_injective _ hinj, Finset.card_range]

end MVMC
