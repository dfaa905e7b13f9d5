import Verif.Model.CommLife
import Mathlib.Logic.Function.Basic

/-!
# Communicators: a state of live handles over the events
-/

namespace MVMC

/-- A call on a state of live handles; creating a live handle or using or freeing a dead one has no result. -/
def commStep (s : CommH → Bool) : CommEv → Option (CommH → Bool)
  | .mk h => if s h then none else some (Function.update s h true)
  | .use h => if s h then some s else none
  | .rel h => if s h then some (Function.update s h false) else none

/-- The calls of a list. -/
def commRun : (CommH → Bool) → List CommEv → Option (CommH → Bool)
  | s, [] => some s
  | s, e :: es => (commStep s e).bind fun t => commRun t es

theorem commRun_append (s : CommH → Bool) (a b : List CommEv) :
    commRun s (a ++ b) = (commRun s a).bind fun t => commRun t b := by
  induction a generalizing s with
  | nil => rfl
  | cons e a ih =>
    simp only [List.cons_append, commRun]
    cases commStep s e with
    | none => rfl
    | some t => simpa using ih t

theorem commRun_append_some {s t u : CommH → Bool} {a b : List CommEv} (ha : commRun s a = some t)
    (hb : commRun t b = some u) : commRun s (a ++ b) = some u := by
  rw [commRun_append, ha]; exact hb

theorem commRun_count {s t : CommH → Bool} {a : List CommEv} (e : commRun s a = some t) (h : CommH) :
    a.count (.mk h) + (s h).toNat = a.count (.rel h) + (t h).toNat := by
  induction a generalizing s with
  | nil => cases e; simp
  | cons c a ih =>
    simp only [commRun] at e
    cases hc : commStep s c with
    | none => rw [hc] at e; cases e
    | some v =>
      rw [hc] at e
      have := ih e
      cases c with
      | mk k =>
        simp only [commStep] at hc
        split at hc
        · cases hc
        · rename_i hk
          cases hc
          by_cases hh : h = k
          · subst hh
            simp at this hk ⊢
            simp [hk]; omega
          · simp [Function.update_of_ne hh] at this
            have h' : ¬ k = h := fun x => hh x.symm
            simp [h']; omega
      | use k =>
        simp only [commStep] at hc
        split at hc
        · cases hc
          simp; omega
        · cases hc
      | rel k =>
        simp only [commStep] at hc
        split at hc
        · rename_i hk
          cases hc
          by_cases hh : h = k
          · subst hh
            simp at this hk ⊢
            simp [hk]; omega
          · simp [Function.update_of_ne hh] at this
            have h' : ¬ k = h := fun x => hh x.symm
            simp [h']; omega
        · cases hc

theorem commRun_prefix {s t : CommH → Bool} {a p : List CommEv} (e : commRun s a = some t) (hp : p <+: a) :
    ∃ u, commRun s p = some u := by
  obtain ⟨q, rfl⟩ := hp
  rw [commRun_append] at e
  cases h : commRun s p with
  | none => rw [h] at e; cases e
  | some u => exact ⟨u, rfl⟩

theorem commRun_use {s t : CommH → Bool} {p : List CommEv} {h : CommH}
    (e : commRun s (p ++ [.use h]) = some t) : ∃ u, commRun s p = some u ∧ u h = true := by
  rw [commRun_append] at e
  cases hp : commRun s p with
  | none => rw [hp] at e; cases e
  | some u =>
    rw [hp] at e
    refine ⟨u, rfl, ?_⟩
    simp only [Option.bind_some, commRun, commStep] at e
    by_contra hu
    simp [hu] at e

/-- Live handles between two steps; `g` tells whether a grid was left. -/
def commBase (g : Bool) : CommH → Bool
  | .comm0 | .comm1 | .comm2 => true
  | .child | .col => false
  | .grid => g

/-- No handle at the start of the program. -/
def commNone : CommH → Bool := fun _ => false

theorem commRun_start (multi first : Bool) : commRun commNone (startEvs multi first) = some (commBase false) := by
  cases multi <;> cases first <;>
  · simp [startEvs, multiDefEvs, commRun, commStep, commNone, Function.update]
    funext h; cases h <;> simp [commBase, commNone]

theorem commRun_step (cg col0 : Bool) (pd : ℤ) :
    commRun (commBase false) (optStepEvs cg col0 pd) = some (commBase (!cg && decide (pd ≠ 0))) := by
  by_cases hp : pd = 0 <;> cases cg <;> cases col0 <;>
  · simp [optStepEvs, pdposvEvs, commRun, commStep, commBase, Function.update, hp]
    try (funext h; cases h <;> simp [commBase])

theorem commRun_paraOpt (cg col0 : Bool) (steps : List (ℤ × ℤ)) (hs : ∀ x ∈ steps, x.1 ≠ 0 → x.2 ≠ 0) :
    ∃ g, commRun (commBase false) (paraOptEvs cg col0 steps) = some (commBase g) ∧
      ((cg = true ∨ ∀ x ∈ steps, x.1 = 0) → g = false) := by
  induction steps with
  | nil => exact ⟨false, rfl, fun _ => rfl⟩
  | cons x rest ih =>
    obtain ⟨pd, info⟩ := x
    obtain ⟨g, hg, hz⟩ := ih fun y hy => hs y (List.mem_cons_of_mem _ hy)
    have h1 := commRun_step cg col0 pd
    by_cases hi : info = 0
    · have hpd : pd = 0 := by
        by_contra hne
        exact hs (pd, info) List.mem_cons_self hne hi
      refine ⟨g, ?_, ?_⟩
      · simp only [paraOptEvs, hi, ne_eq, not_true_eq_false, if_false]
        refine commRun_append_some h1 ?_
        simp [hpd, commRun, commStep, commBase]
        exact hg
      · rintro (h | h)
        · exact hz (.inl h)
        · exact hz (.inr fun y hy => h y (List.mem_cons_of_mem _ hy))
    · refine ⟨!cg && decide (pd ≠ 0), ?_, ?_⟩
      · simp only [paraOptEvs, hi, ne_eq, not_false_eq_true, if_true, List.append_nil]
        exact h1
      · rintro (h | h)
        · simp [h]
        · simp [show pd = 0 from h (pd, info) List.mem_cons_self]

theorem commRun_physCal (n : ℕ) : commRun (commBase false) (physCalEvs n) = some (commBase false) := by
  induction n with
  | zero => rfl
  | succ n ih => simp [physCalEvs, commRun, commStep, commBase]; exact ih

theorem commRun_main (multi first cg col0 : Bool) (opt : List (ℤ × ℤ) ⊕ ℕ)
    (hs : ∀ steps, opt = .inl steps → ∀ x ∈ steps, x.1 ≠ 0 → x.2 ≠ 0) :
    ∃ g, commRun commNone (mainEvs multi first cg col0 opt) = some (commBase g) ∧
      ((cg = true ∨ ∀ steps, opt = .inl steps → ∀ x ∈ steps, x.1 = 0) → g = false) := by
  cases opt with
  | inl steps =>
    obtain ⟨g, hg, hz⟩ := commRun_paraOpt cg col0 steps (hs steps rfl)
    exact ⟨g, commRun_append_some (commRun_start multi first) hg, fun h => hz (h.imp id fun k => k steps rfl)⟩
  | inr n => exact ⟨false, commRun_append_some (commRun_start multi first) (commRun_physCal n), fun _ => rfl⟩

end MVMC
