import Verif.Proof.MAllPar
import Mathlib.Data.Rat.Defs
import Mathlib.Algebra.Field.Rat

/-! # C88: the parallel loop over the projections -/
namespace MVMC

variable {K : Type} [Field K]

/-- C88: for any number of threads, any distribution of the projections and any order of the events, the value 0 is returned exactly when the loop of one thread
succeeds, and then `PfM` and `InvM` are those of the loop of one thread; any other value is the one returned for a projection that fails. -/
theorem C88_parallel (p : PfPar) (lib : SkLib K) (hl : LibLocal lib) (slt : ℕ → K) (qpStart : ℕ) (rs : ℕ → ℕ) (code : ℕ → ℤ) (hcode : ∀ q, code q ≠ 0)
    (junk : ℕ → PfState K → PfState K) (st : PfState K) (n : ℕ) (evs : List MAllEv) (hrun : MAllRun n evs) :
    ((mAllPar p lib slt qpStart rs code junk st evs).info = 0 ↔ ∃ st', calculateMAll p lib slt qpStart (qpStart + n) rs st = some st') ∧
    ((mAllPar p lib slt qpStart rs code junk st evs).info = 0 →
      calculateMAll p lib slt qpStart (qpStart + n) rs st = some (mAllPar p lib slt qpStart rs code junk st evs).st) ∧
    ((mAllPar p lib slt qpStart rs code junk st evs).info ≠ 0 →
      ∃ q < n, calculateMAllChild p lib slt qpStart q rs st = none ∧ (mAllPar p lib slt qpStart rs code junk st evs).info = code q) := by
  obtain ⟨ha, -, hc⟩ := mAll_inv p lib slt qpStart rs code junk hl hcode st hrun evs [] (List.append_nil _).symm
  obtain ⟨s1, s2⟩ := mAll_seq p lib slt qpStart rs hl st n
  have hmem : ∀ q, MAllEv.run q ∈ evs ↔ q < n := by
    intro q
    constructor
    · exact fun h => hrun.idx _ h
    · intro h
      obtain ⟨pre, suf, e⟩ := List.append_of_mem (hrun.all q h)
      rw [e]
      exact List.mem_append_left _ (hrun.run_post pre suf q e)
  have key : (mAllPar p lib slt qpStart rs code junk st evs).info = 0 → calculateMAll p lib slt qpStart (qpStart + n) rs st = some (mAllPar p lib slt qpStart rs code junk st evs).st := by
    intro h0
    obtain ⟨-, -, c3, c4⟩ := hc h0
    rw [s1 (fun q hq => c3 q (hrun.all q hq)), c4 (fun q hq => c3 q (hrun.all q ((hmem q).1 hq)))]
    exact congrArg some (mem_congr p lib slt qpStart rs _ _ hmem st)
  refine ⟨⟨fun h0 => ⟨_, key h0⟩, fun ⟨st', h⟩ => ?_⟩, key, fun h0 => ?_⟩
  · rcases ha with h0 | ⟨q, hq, hr, -⟩
    · exact h0
    · rw [s2 ⟨q, hq, hr⟩] at h
      cases h
  · rcases ha with h1 | ⟨q, hq, hr, e⟩
    · exact absurd h1 h0
    · exact ⟨q, hq, (child_none p lib slt qpStart rs hl q st).2 hr, e⟩

/-- C88: with private pointers every thread works in its own scratch memory, whatever the order of the events. -/
theorem C88_private (es : List WkEv) (h : ∀ pre suf th, es = pre ++ .use th :: suf → WkEv.get th ∈ pre) : ∀ u ∈ wkPrivate es (fun _ => none), u.2 = some u.1 :=
  wkPrivate_own es _ fun pre suf th e => Or.inl (h pre suf th e)

/-- C88 is violated by `CalculateMAll_fsz`: its pointer `myRWork` is shared, and the first thread gets the memory of the second one. (The child does not use it.) -/
theorem C88_shared_violated : wkShared [.get 0, .get 1, .use 0, .use 1] none = [(0, some 1), (1, some 1)] ∧
    wkPrivate [.get 0, .get 1, .use 0, .use 1] (fun _ => none) = [(0, some 0), (1, some 1)] := by decide

/-! Two projections on two threads: both check `info` before the first fails. -/

/-- a library for the example: the Pfaffian is the first entry of the second column -/
def exLib : SkLib ℚ := fun n b => if n = 2 then (if b 2 = 0 then none else some (b 2, fun k => if k < 4 then - b k / (b 2 * b 2) else 0)) else none

theorem exLib_local : LibLocal exLib := by
  intro n a b h
  unfold exLib
  by_cases hn : n = 2
  · subst hn
    rw [if_pos rfl, if_pos rfl, h 2 (by omega)]
    by_cases h0 : b 2 = 0
    · rw [if_pos h0, if_pos h0]
    · rw [if_neg h0, if_neg h0]
      simp only [Option.some.injEq, Prod.mk.injEq, true_and]
      funext k
      by_cases hk : k < 4
      · rw [if_pos hk, if_pos hk, h k (by omega)]
      · rw [if_neg hk, if_neg hk]
  · rw [if_neg hn, if_neg hn]

example : (mAllPar ⟨1, 1⟩ exLib (fun k => if k = 5 then 3 else if k = 6 then -3 else 0) 0 id (fun q => q + 1) (fun _ st => st) ⟨fun _ => 7, fun _ => 0⟩
    [.check 1, .check 0, .run 0, .post 0, .run 1, .post 1]).info = 1 := by decide +kernel

example : let S := mAllPar ⟨1, 1⟩ exLib (fun k => if k = 1 ∨ k = 5 then 3 else if k = 2 ∨ k = 6 then -3 else 0) 0 id (fun q => q + 1) (fun _ st => st) ⟨fun _ => 7, fun _ => 0⟩ [.check 1, .check 0, .run 1, .post 1, .run 0, .post 0]
    S.info = 0 ∧ S.st.pfM 0 = 3 ∧ S.st.pfM 1 = 3 ∧ S.st.pfM 2 = 7 := by decide +kernel

/-- these orders of events are among those of the theorem -/
example : MAllRun 2 [.check 1, .check 0, .run 0, .post 0, .run 1, .post 1] where
  nodup := by decide
  idx := by decide
  all q hq := by
    rcases (by omega : q = 0 ∨ q = 1) with rfl | rfl <;> decide
  check_run pre suf q e := by
    rcases pre with _ | ⟨a, _ | ⟨b, _ | ⟨c, _ | ⟨d, _ | ⟨f, _ | ⟨g, pre⟩⟩⟩⟩⟩⟩ <;> simp_all <;> grind
  run_post pre suf q e := by
    rcases pre with _ | ⟨a, _ | ⟨b, _ | ⟨c, _ | ⟨d, _ | ⟨f, _ | ⟨g, pre⟩⟩⟩⟩⟩⟩ <;> simp_all <;> grind

end MVMC
