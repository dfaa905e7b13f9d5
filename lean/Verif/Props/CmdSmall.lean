import Verif.Model.CmdSmall

/-!
# C80 for the two small programs
-/

namespace MVMC

/-- C80: the Hartree-Fock program works on the file `f` exactly if the command line is `f` or `f` with one more word; every other command line ends it with code 1. -/
theorem C80_uhf (words : List (List Char)) :
    (∀ f, uhfCmd words = .file f ↔ words = [f] ∨ ∃ p, words = [f, p]) ∧
    (∀ c, uhfCmd words = .exit c ↔ c = 1 ∧ (words = [] ∨ 2 < words.length)) := by
  rcases words with _ | ⟨a, _ | ⟨b, _ | ⟨c, l⟩⟩⟩
  · simp [uhfCmd, eq_comm (a := (1 : Int))]
  · simp [uhfCmd]
  · simp [uhfCmd]
  · simp [uhfCmd, eq_comm (a := (1 : Int))]

/-- C80 is violated: the parameter file announced in the usage message of the Hartree-Fock program has no effect. -/
theorem C80_uhfpara_violated (f p : List Char) : uhfCmd [f, p] = uhfCmd [f] := by simp [uhfCmd]

/-- C80: `vmcdry.out` works on its first argument unless this is `-v`, and without arguments it ends with code 1. -/
theorem C80_dry (words : List (List Char)) :
    (∀ f, dryCmd words = .file f ↔ f ≠ ['-', 'v'] ∧ words.head? = some f) ∧
    (∀ c, dryCmd words = .exit c ↔ (c = 1 ∧ words = []) ∨ (c = 0 ∧ words.head? = some ['-', 'v'])) := by
  cases words with
  | nil => simp [dryCmd, eq_comm (a := (1 : Int))]
  | cons a l =>
    by_cases h : a = ['-', 'v']
    · subst h
      refine ⟨fun f => ?_, fun c => ?_⟩
      · simp only [dryCmd, List.headD_cons, if_true, List.head?_cons, Option.some.injEq]
        constructor
        · intro e; simp at e
        · rintro ⟨h1, h2⟩; exact absurd h2.symm h1
      · simp [dryCmd, eq_comm (a := (0 : Int))]
    · refine ⟨fun f => ?_, fun c => ?_⟩
      · simp only [dryCmd, List.headD_cons, h, if_false, List.head?_cons, Option.some.injEq]
        constructor
        · intro e
          have e : a = f := by simpa using e
          exact ⟨fun hf => h (e.trans hf), e⟩
        · rintro ⟨_, rfl⟩; simp
      · simp [dryCmd, h]

/-- C80 is violated: further arguments of `vmcdry.out` are ignored. -/
theorem C80_dryextra_violated (f : List Char) (l : List (List Char)) : dryCmd (f :: l) = dryCmd [f] := by simp [dryCmd]

example : uhfCmd [['n']] = .file ['n'] ∧ uhfCmd [['a'], ['b'], ['c']] = .exit 1 ∧ dryCmd [['-', 'v']] = .exit 0 := by decide

end MVMC
