import Verif.Proof.CmdLine

/-! # C80: the command line of `vmc.out` selects the run it describes -/
namespace MVMC
open Spec

/-- **C80, syntax.** The words that `getopt` splits without complaint are exactly the well-written lines, and it finds the options and operands written there, in order. -/
theorem C80_syntax (words : List (List Char)) (opts : List OptEv) (ops : List (List Char)) :
    (getoptAll optString none words = (opts, ops) ∧ ∀ e ∈ opts, e ≠ .bad) ↔ Asks words opts ops := by
  constructor
  · rintro ⟨h1, h2⟩
    have := asks_of_getopt words.length words (le_refl _) (by rw [h1]; exact h2)
    rwa [h1] at this
  · intro h
    exact ⟨getopt_of_asks h, fun e he => known_ne_bad (asks_known h e he)⟩

/-- `-bom3 -F 10 list name` (also with the operands between the options) -/
example : Asks [['-', 'b', 'o', 'm', '3'], ['l'], ['-', 'F', '1', '0'], ['n']] [.flag 'b', .flag 'o', .arg 'm' ['3'], .arg 'F' ['1', '0']] [['l'], ['n']] :=
  (C80_syntax _ _ _).mp ⟨by decide, by decide⟩

/-- an unknown option, a missing argument and words after `--` -/
example : (getoptAll optString none [['-', 'x']]).1 = [.bad] ∧ (getoptAll optString none [['-', 'b', 'm']]).1 = [.flag 'b', .bad] ∧
    getoptAll optString none [['-', '-'], ['-', 'b']] = ([], [['-', 'b']]) := by decide

/-- **C80, numbers.** The argument of `-m` or `-F` is accepted with the value `v` exactly if it begins with a decimal number (after blanks and a sign) of value `v` that an
`int` can hold. -/
theorem C80_number (s : List Char) (v : Int) : numArg s = some v ↔ NumOK s v := numArg_iff s v

example : numArg ['-', '1', '2'] = some (-12) ∧ numArg ['2', '1', '4', '7', '4', '8', '3', '6', '4', '8'] = none ∧ numArg ['x'] = none ∧ numArg [] = none := by decide

/-- **C80, badly written lines.** They never lead to a run. -/
theorem C80_malformed (words : List (List Char)) (h : ∀ opts ops, ¬ Asks words opts ops) : ∃ x, cmdLine words = .exit x := by
  have hb : .bad ∈ (getoptAll optString none words).1 := by
    by_contra hx
    exact h _ _ ((C80_syntax words _ _).mp ⟨rfl, fun e he e' => hx (e' ▸ he)⟩)
  obtain ⟨x, hx⟩ := loop_bad {} hb
  exact ⟨x, by unfold cmdLine; simp only [hx]⟩

/-- **C80, exits.** The first option that ends the program decides its status: 0 for `-h` and `-v`, 1 for a number that is not acceptable. -/
theorem C80_exit (words : List (List Char)) (l r : List OptEv) (e : OptEv) (ops : List (List Char)) (x : Int) (h : Asks words (l ++ e :: r) ops)
    (hn : ∀ e ∈ l, ∀ y, ¬ Ends e y) (he : Ends e x) : cmdLine words = .exit x := by
  have hk := asks_known h
  unfold cmdLine
  simp only [getopt_of_asks h, loop_ends (fun e he => hk e (List.mem_append_left _ he)) hn he]

example : cmdLine [['-', 'b', 'h'], ['-', 'F', '0']] = .exit 0 ∧ cmdLine [['-', 'F', '0'], ['-', 'h']] = .exit 1 := by decide

/-- what a run started by a well-written line without ending options looks like: its settings, the list of directories, the name list and the parameter file -/
def RunsWith (opts : List OptEv) (mode : Option Int) (v : CmdVars) : Prop :=
  v.flagBinary = (if .flag 'b' ∈ opts then 1 else 0) ∧ v.flagOptTrans = (if .flag 'o' ∈ opts then 1 else 0) ∧
    v.flagStandard = (if .flag 's' ∈ opts then 1 else 0) ∧ LastFlush opts v.nFlush ∧
    (∀ n, mode = some n → v.flagMultiDef = 1 ∧ v.nMultiDef = n) ∧ (mode = none → v.flagMultiDef = 0)

theorem append_eq_split {α : Type} {p : α → Prop} {l r l' r' : List α} {a b : α} (ha : p a) (hb : p b) (hr : ∀ x ∈ r, ¬ p x) (hr' : ∀ x ∈ r', ¬ p x)
    (h : l ++ a :: r = l' ++ b :: r') : a = b := by
  rcases List.append_eq_append_iff.mp h with ⟨k, h1, h2⟩ | ⟨k, h1, h2⟩
  · cases k with
    | nil => simp only [List.nil_append, List.cons.injEq] at h2; exact h2.1
    | cons x k =>
      simp only [List.cons_append, List.cons.injEq] at h2
      exact absurd hb (hr b (by rw [h2.2]; simp))
  · cases k with
    | nil => simp only [List.nil_append, List.cons.injEq] at h2; exact h2.1.symm
    | cons x k =>
      simp only [List.cons_append, List.cons.injEq] at h2
      exact absurd ha (hr' a (by rw [h2.2]; simp))

/-- the mode of a line is unique -/
theorem lastMode_unique {es : List OptEv} {m m' : Option Int} (h : LastMode es m) (h' : LastMode es m') : m = m' := by
  let p : OptEv → Prop := fun e => e = .flag 'e' ∨ e = .flag 's' ∨ ∃ a, e = .arg 'm' a
  have hp : ∀ r : List OptEv, (∀ e ∈ r, e ≠ .flag 'e' ∧ e ≠ .flag 's' ∧ ∀ a, e ≠ .arg 'm' a) → ∀ x ∈ r, ¬ p x := by
    rintro r hr x hx (e | e | ⟨a, e⟩)
    exacts [(hr x hx).1 e, (hr x hx).2.1 e, (hr x hx).2.2 a e]
  generalize hes : es = es' at h'
  cases h with
  | none h =>
    cases h' with
    | none _ => rfl
    | single _ _ => rfl
    | @multi l r a n h1 h2 => exact absurd rfl ((h (.arg 'm' a) (by rw [hes]; simp)).2.2 a)
  | @single l r e h1 h2 =>
    cases h' with
    | none _ => rfl
    | single _ _ => rfl
    | @multi l' r' a n h3 h4 =>
      have := append_eq_split (p := p) (a := e) (b := .arg 'm' a) (by rcases h1 with h1 | h1 <;> simp [p, h1]) (by simp [p]) (hp r h2) (hp r' h4) hes
      rcases h1 with h1 | h1 <;> rw [h1] at this <;> exact absurd this (by simp)
  | @multi l r a n h1 h2 =>
    cases h' with
    | none h => exact absurd rfl ((h (.arg 'm' a) (by rw [← hes]; simp)).2.2 a)
    | @single l' r' e h3 h4 =>
      have := append_eq_split (p := p) (a := .arg 'm' a) (b := e) (by simp [p]) (by rcases h3 with h3 | h3 <;> simp [p, h3]) (hp r h2) (hp r' h4) hes
      rcases h3 with h3 | h3 <;> rw [h3] at this <;> exact absurd this (by simp)
    | @multi l' r' a' n' h3 h4 =>
      have := append_eq_split (p := p) (a := .arg 'm' a) (b := .arg 'm' a') (by simp [p]) (by simp [p]) (hp r h2) (hp r' h4) hes
      injection this with _ this
      subst this
      rw [numOK_unique h1 h3]

/-- **C80, settings and files** (for lines without an ending option). Too few operands: the status is 1. Otherwise the run has the settings the options ask for and reads the
files of the operands, unless a name has 256 characters or more: then the copy runs beyond its buffer. Missing from the full statement: such long names; a complaint about what is
left over behind a number or behind the file names; and an order of `-m` and `-s` that does not matter (see the violations below). -/
theorem C80_settings_partial (words : List (List Char)) (opts : List OptEv) (ops : List (List Char)) (mode : Option Int) (h : Asks words opts ops)
    (hn : ∀ e ∈ opts, ∀ x, ¬ Ends e x) (hm : LastMode opts mode) :
    match mode, ops with
    | none, [] => cmdLine words = .exit 1
    | none, [a] => if a.length < 256 then ∃ v, RunsWith opts mode v ∧ cmdLine words = .run v none a none else cmdLine words = .overflow
    | none, a :: b :: _ => if a.length < 256 ∧ b.length < 256 then ∃ v, RunsWith opts mode v ∧ cmdLine words = .run v none a (some b) else cmdLine words = .overflow
    | some _, [] => cmdLine words = .exit 1
    | some _, [_] => cmdLine words = .exit 1
    | some _, [d, a] => if a.length < 256 then ∃ v, RunsWith opts mode v ∧ cmdLine words = .run v (some d) a none else cmdLine words = .overflow
    | some _, d :: a :: b :: _ =>
      if a.length < 256 ∧ b.length < 256 then ∃ v, RunsWith opts mode v ∧ cmdLine words = .run v (some d) a (some b) else cmdLine words = .overflow := by
  obtain ⟨v, h1, h2⟩ := loop_setBy (asks_known h) hn
  have hrun : RunsWith opts mode v := by
    refine ⟨h2.bin, h2.opt, h2.std, h2.flush, ?_, ?_⟩
    · rintro n rfl
      rcases h2.mode with ⟨_, b⟩ | ⟨a, b⟩
      · exact absurd (lastMode_unique hm b) (by simp)
      · exact ⟨a, (Option.some.inj (lastMode_unique hm b)).symm⟩
    · rintro rfl
      rcases h2.mode with ⟨a, _⟩ | ⟨_, b⟩
      · exact a
      · exact absurd (lastMode_unique hm b) (by simp)
  have e : cmdLine words = (if (v.flagMultiDef = 0 ∧ ops.length < 1) ∨ (v.flagMultiDef = 1 ∧ ops.length < 2) then .exit 1
      else if v.flagMultiDef = 0 then copyNames v none (ops.getD 0 []) ops[1]?
      else copyNames v ops[0]? (ops.getD 1 []) ops[2]?) := by
    unfold cmdLine
    simp only [getopt_of_asks h, h1]
  have fit : ∀ a : List Char, a.length < 256 → ¬ a.length + 1 > cmdBuf := by intro a ha; simp only [cmdBuf]; omega
  have nofit : ∀ a : List Char, ¬ a.length < 256 → a.length + 1 > cmdBuf := by intro a ha; simp only [cmdBuf]; omega
  have c1 : ∀ d a, (if a.length < 256 then ∃ v', RunsWith opts mode v' ∧ copyNames v d a none = .run v' d a none else copyNames v d a none = .overflow) := by
    intro d a
    by_cases ha : a.length < 256
    · rw [if_pos ha]; exact ⟨v, hrun, by unfold copyNames; rw [if_neg (fit a ha)]⟩
    · rw [if_neg ha]; unfold copyNames; rw [if_pos (nofit a ha)]
  have c2 : ∀ d a b, (if a.length < 256 ∧ b.length < 256 then ∃ v', RunsWith opts mode v' ∧ copyNames v d a (some b) = .run v' d a (some b)
      else copyNames v d a (some b) = .overflow) := by
    intro d a b
    by_cases ha : a.length < 256
    · by_cases hb : b.length < 256
      · rw [if_pos ⟨ha, hb⟩]; exact ⟨v, hrun, by unfold copyNames; rw [if_neg (fit a ha)]; simp only [if_neg (fit b hb)]⟩
      · rw [if_neg (fun hx => hb hx.2)]; unfold copyNames; rw [if_neg (fit a ha)]; simp only [if_pos (nofit b hb)]
    · rw [if_neg (fun hx => ha hx.1)]; unfold copyNames; rw [if_pos (nofit a ha)]
  rw [e]
  cases mode with
  | none =>
    have hf := hrun.2.2.2.2.2 rfl
    match ops with
    | [] => simp [hf]
    | [a] => simpa [hf] using c1 none a
    | a :: b :: _ => simpa [hf] using c2 none a b
  | some n =>
    have hf := (hrun.2.2.2.2.1 n rfl).1
    match ops with
    | [] => simp [hf]
    | [_] => simp [hf]
    | [d, a] => simpa [hf] using c1 (some d) a
    | d :: a :: b :: _ => simpa [hf] using c2 (some d) a b

/-- three definitions, both flags, a flush interval, a parameter file -/
example : cmdLine [['-', 'b', 'o'], ['-', 'm', '3'], ['-', 'F', '7'], ['d'], ['n'], ['p']] =
    .run { flagBinary := 1, flagOptTrans := 1, nFlush := 7, flagMultiDef := 1, nMultiDef := 3 } (some ['d']) ['n'] (some ['p']) := by decide

/-- the mode of every line is defined, if its numbers are acceptable -/
theorem C80_mode_exists (words : List (List Char)) (opts : List OptEv) (ops : List (List Char)) (h : Asks words opts ops) (hn : ∀ e ∈ opts, ∀ x, ¬ Ends e x) :
    ∃! mode, LastMode opts mode := by
  obtain ⟨v, _, h2⟩ := loop_setBy (asks_known h) hn
  rcases h2.mode with ⟨_, b⟩ | ⟨_, b⟩
  · exact ⟨_, b, fun m hm => lastMode_unique hm b⟩
  · exact ⟨_, b, fun m hm => lastMode_unique hm b⟩

/-- **C80, list of directories.** It is read exactly if the file has at least `n` words and each of the first `n` has at most 255 characters; they are the directories. -/
theorem C80_dirlist (n : Nat) (f : Option (List (List Char))) (l : List (List Char)) :
    readDirs n f = .dirs l ↔ ∃ ws, f = some ws ∧ n ≤ ws.length ∧ l = ws.take n ∧ ∀ w ∈ ws.take n, w.length < 256 := readDirs_iff n f l

example : readDirs 2 (some [['a'], ['b'], ['c']]) = .dirs [['a'], ['b']] ∧ readDirs 2 (some [['a']]) = .abort := by decide

/-- **C80, directories.** For `1 ≤ n ≤ size` the first process of group `g` works in directory `g` of the list, and every other process stays where it was started. -/
theorem C80_dirs (size n : Nat) (hn : 0 < n) (hs : n ≤ size) (dirs : List (List Char)) (r g : Nat) (hg : multiDefGroup size r n = .group g) :
    ((∀ r' < r, multiDefGroup size r' n ≠ .group g) → workDir size n dirs r = dirs[g]?) ∧
      ((∃ r' < r, multiDefGroup size r' n = .group g) → workDir size n dirs r = none) := by
  have hg' : groupNat size n r = g := by
    rw [multiDefGroup_eq size n r hn hs] at hg
    injection hg with hg; exact_mod_cast hg
  have hz : childRank size n r = 0 ↔ ∀ r' < r, multiDefGroup size r' n ≠ .group g := by
    unfold childRank
    rw [List.length_eq_zero_iff, List.filter_eq_nil_iff]
    simp [hg]
  constructor
  · intro h
    have h0 := hz.mpr h
    have hr := (childRank_zero hn hs).mp h0
    rw [hg'] at hr
    unfold workDir
    rw [if_pos h0]
    unfold leaderRank
    rw [hr, leaders_below hn hs g]
  · rintro ⟨r', h1, h2⟩
    unfold workDir
    rw [if_neg (fun h0 => hz.mp h0 r' h1 h2)]

/-- five processes, two definitions -/
example : (List.range 5).map (workDir 5 2 [['a'], ['b']]) = [some ['a'], none, none, some ['b'], none] := by decide

/-! ## Violations -/

/-- what follows a number is ignored: `-m 2x` is `-m 2`, and so is `-m 2.9` -/
theorem C80_trailing_violated : cmdLine [['-', 'm', '2', 'x'], ['d'], ['n']] = cmdLine [['-', 'm', '2'], ['d'], ['n']] ∧
    cmdLine [['-', 'm', '2', '.', '9'], ['d'], ['n']] = cmdLine [['-', 'm', '2'], ['d'], ['n']] := by decide

/-- the order of `-m` and `-s` matters: `-m 2 -s d n` takes `d` for the input file and `n` for the parameter file, `-s -m 2 d n` takes `d` for the list of directories -/
theorem C80_order_violated :
    cmdLine [['-', 'm', '2'], ['-', 's'], ['d'], ['n']] = .run { flagMultiDef := 0, nMultiDef := 2, flagStandard := 1 } none ['d'] (some ['n']) ∧
    cmdLine [['-', 's'], ['-', 'm', '2'], ['d'], ['n']] = .run { flagMultiDef := 1, nMultiDef := 2, flagStandard := 1 } (some ['d']) ['n'] none := by decide

/-- operands after the last file are ignored -/
theorem C80_extra_violated : cmdLine [['n'], ['p'], ['q'], ['r']] = cmdLine [['n'], ['p']] := by decide

/-- a number of definitions below 1 is accepted; with 0 the division of the processes into groups divides by zero (C03) -/
theorem C80_range_violated : cmdLine [['-', 'm', '0'], ['d'], ['n']] = .run { flagMultiDef := 1, nMultiDef := 0 } (some ['d']) ['n'] none ∧
    (∀ size r : Nat, multiDefGroup size r 0 = .divByZero) ∧
    cmdLine [['-', 'm', '-', '1'], ['d'], ['n']] = .run { flagMultiDef := 1, nMultiDef := -1 } (some ['d']) ['n'] none := by
  refine ⟨by decide, ?_, by decide⟩
  intro size r
  unfold multiDefGroup; simp

/-- a name of 256 characters or more is copied beyond the end of its buffer -/
theorem C80_long_violated (w : List Char) (hw : w.head? ≠ some '-') (hl : 256 ≤ w.length) : cmdLine [w] = .overflow := by
  have h : Asks [w] [] [w] := ⟨[.operand w], none, by intro i hi; rw [List.mem_singleton.mp hi]; exact Or.inr hw, rfl, rfl, rfl⟩
  have key := C80_settings_partial _ _ _ none h (by simp) (.none (by simp))
  simp only [if_neg (show ¬ w.length < 256 by omega)] at key
  exact key

example : ∃ w : List Char, w.head? ≠ some '-' ∧ w.length = 256 :=
  ⟨'a' :: List.replicate 255 'a', by rw [List.head?_cons]; decide, by rw [List.length_cons, List.length_replicate]⟩

/-- a directory of 256 characters runs over the next entry of the list -/
theorem C80_longdir_violated : readDirs 1 (some [List.replicate 256 'a']) = .overflow := by
  unfold readDirs
  rw [if_pos (by rw [List.length_replicate]; decide)]

end MVMC
