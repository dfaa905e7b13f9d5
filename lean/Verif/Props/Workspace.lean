import Verif.Proof.Workspace

/-! # C05: scratch-buffer allocator -/
namespace MVMC
open Spec

/-- C05: after every disciplined history of request/get/release calls from program start, the blocks
currently held are pairwise disjoint, all lie in the live memory object (none was freed by a later
request) and inside its capacity. -/
theorem C05_blocks_disjoint_in_bounds (ops : List WSOp)
    (h : Disciplined (WS.trace WS.init [] ops).2) :
    let r := WS.trace WS.init [] ops
    (held r.2).Pairwise Apart ∧
    ∀ b ∈ held r.2, b.1 = r.1.base ∧ b.2.1 + b.2.2 ≤ r.1.num := by
  have hi := wsinv_trace _ _ ops wsinv_init h
  exact ⟨hi.apart, fun b hb => ⟨(hi.inside b hb).1, Nat.le_trans (hi.inside b hb).2 hi.bound⟩⟩

/-- C05, the pattern used in the code: (nothing held) reserve `N`, take `ns` with total at most
`N`, give back. Every history of such rounds is disciplined. -/
theorem C05_rounds_disciplined (rounds : List (Nat × List Nat))
    (h : ∀ r ∈ rounds, r.2.sum ≤ r.1) :
    Disciplined (WS.trace WS.init []
      (rounds.flatMap (fun r => .request r.1 :: r.2.map .get ++ [.release]))).2 := by
  have gets : ∀ (ns : List Nat) (s : WS) (past : List Event) (rest : List WSOp),
      Disciplined past → heldTotal past + ns.sum ≤ reserved past →
      ∃ s' past', WS.trace s past (ns.map .get ++ rest) = WS.trace s' past' rest ∧ Disciplined past' := by
    intro ns
    induction ns with
    | nil => intro s past rest hd _; exact ⟨s, past, rfl, hd⟩
    | cons n ns ih =>
      intro s past rest hd ht
      simp only [List.sum_cons] at ht
      obtain ⟨s', p', e, hd'⟩ := ih (s.get n).1 (.take n (s.get n).2.base (s.get n).2.off :: past) rest
        ⟨hd, by omega⟩ (by simp only [heldTotal, held, List.map_cons, List.sum_cons, reserved]
                           unfold heldTotal at ht; omega)
      exact ⟨s', p', by simpa [WS.trace] using e, hd'⟩
  suffices H : ∀ (rs : List (Nat × List Nat)) (s : WS) (past : List Event),
      (∀ r ∈ rs, r.2.sum ≤ r.1) → Disciplined past → held past = [] →
      Disciplined (WS.trace s past
        (rs.flatMap (fun r => .request r.1 :: r.2.map .get ++ [.release]))).2 from
    H rounds _ _ h trivial rfl
  intro rs
  induction rs with
  | nil => intro s past _ hd _; exact hd
  | cons r rs ih =>
    intro s past hr hd hh
    rw [List.flatMap_cons]
    obtain ⟨s', p', e, hd'⟩ := gets r.2 (s.request r.1) (.reserve r.1 :: past)
      ([WSOp.release] ++ rs.flatMap (fun r => .request r.1 :: r.2.map .get ++ [.release]))
      ⟨hd, Or.inr hh⟩ (by
        simp only [heldTotal, held, hh, reserved, List.map_nil, List.sum_nil]
        have := hr r (by simp); omega)
    change Disciplined (WS.trace (s.request r.1) (.reserve r.1 :: past)
      ((r.2.map .get ++ [.release]) ++ _)).2
    rw [List.append_assoc, e]
    exact ih _ _ (fun x hx => hr x (by simp [hx])) hd' rfl

/-- C05: a request that is no larger than the buffer moves nothing and loses nothing. -/
theorem C05_small_request_is_noop (s : WS) (n : Nat) (h : n ≤ s.num) : s.request n = s := by
  unfold WS.request; rw [if_neg (by omega)]

/-- The discipline is needed: a growing request while a block is held frees the block. -/
theorem C05_growing_request_dangles :
    let r := WS.trace WS.init [] [.request 2, .get 2, .request 4]
    held r.2 = [(1, 0, 2)] ∧ r.1.base = 2 := by decide

/-- The discipline is needed: taking more than was reserved runs out of bounds unnoticed. -/
theorem C05_overdraft_out_of_bounds :
    let r := WS.trace WS.init [] [.request 2, .get 1, .get 2]
    held r.2 = [(1, 1, 2), (1, 0, 1)] ∧ r.1.num = 2 := by decide

-- concrete disciplined history: two rounds, the second larger
example : Disciplined (WS.trace WS.init [] [.request 5, .get 2, .get 3, .release,
    .request 7, .get 7]).2 ∧
    held (WS.trace WS.init [] [.request 5, .get 2, .get 3]).2 = [(1,2,3),(1,0,2)] := by
  simp [WS.trace, WS.init, WS.request, WS.get, WS.release, Disciplined, held, heldTotal, reserved]

end MVMC
