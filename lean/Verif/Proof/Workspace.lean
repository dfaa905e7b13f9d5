import Verif.Model.Workspace

namespace MVMC
open Spec

/-- invariant linking the state to the history -/
structure WSInv (s : WS) (past : List Event) : Prop where
  num : s.num = reserved past
  cur : s.cur = heldTotal past
  bound : s.cur ≤ s.num
  inside : ∀ b ∈ held past, b.1 = s.base ∧ b.2.1 + b.2.2 ≤ s.cur
  apart : (held past).Pairwise Apart

theorem wsinv_init : WSInv WS.init [] := by
  constructor <;> simp [WS.init, reserved, heldTotal, held]

theorem disciplined_suffix (s : WS) (past : List Event) (ops : List WSOp)
    (h : Disciplined (WS.trace s past ops).2) : Disciplined past := by
  induction ops generalizing s past with
  | nil => exact h
  | cons op ops ih =>
    cases op with
    | request n => exact (ih _ _ h).1
    | get n => exact (ih _ _ h).1
    | release => exact (ih s.release (.giveBack :: past) h : Disciplined (.giveBack :: past))

theorem wsinv_trace (s : WS) (past : List Event) (ops : List WSOp) (hi : WSInv s past)
    (h : Disciplined (WS.trace s past ops).2) :
    WSInv (WS.trace s past ops).1 (WS.trace s past ops).2 := by
  induction ops generalizing s past with
  | nil => exact hi
  | cons op ops ih =>
    cases op with
    | request n =>
      refine ih _ _ ?_ h
      have hd := (disciplined_suffix (s.request n) (.reserve n :: past) ops h).2
      unfold WS.request
      split
      · rename_i hn
        have hh : held past = [] := by
          rcases hd with hd | hd
          · have := hi.num; omega
          · exact hd
        constructor
        · simp only [reserved]; have := hi.num; omega
        · simp [heldTotal, held, hh]
        · simp
        · simp [held, hh]
        · simp [held, hh]
      · rename_i hn
        constructor
        · simp only [reserved]; have := hi.num; omega
        · have := hi.cur; simpa [heldTotal, held] using this
        · exact hi.bound
        · simpa [held] using hi.inside
        · simpa [held] using hi.apart
    | get n =>
      refine ih _ _ ?_ h
      have hd := (disciplined_suffix (s.get n).1
        (.take n (s.get n).2.base (s.get n).2.off :: past) ops h).2
      have hc := hi.cur
      constructor
      · simpa [WS.get, reserved] using hi.num
      · simp only [WS.get, heldTotal, held, List.map_cons, List.sum_cons]
        rw [hc]; unfold heldTotal; omega
      · simp only [WS.get]; have := hi.num; omega
      · intro b hb
        simp only [held, WS.get, List.mem_cons] at hb ⊢
        rcases hb with rfl | hb
        · simp
        · have := hi.inside b hb
          exact ⟨this.1, by omega⟩
      · simp only [held, List.pairwise_cons]
        refine ⟨fun b hb => ?_, hi.apart⟩
        have := (hi.inside b hb).2
        exact Or.inr (Or.inr (by simpa [WS.get] using this))
    | release =>
      refine ih _ _ ?_ h
      constructor
      · simpa [WS.release, reserved] using hi.num
      · simp [WS.release, heldTotal, held]
      · simp [WS.release]
      · simp [held]
      · simp [held]

end MVMC
