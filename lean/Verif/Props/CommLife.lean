import Verif.Proof.CommLife

/-!
# C92: communicators and process grids

`p.count (.mk h)` is the number of times the handle `h` was created in a piece `p` of the run, `p.count (.rel h)` the number of times it was freed.
-/

namespace MVMC

/-- C92: at every moment of the run, whatever the number of steps, every handle is alive at most once; it is freed only if it was created before, and used only
while it is alive. `hs`: a failure of PDPOSV reaches the status that `StochasticOpt` broadcasts (its status is the same on all processes). Missing: runs
where processes disagree on the status. -/
theorem C92_life_partial (multi first cg col0 : Bool) (opt : List (ℤ × ℤ) ⊕ ℕ)
    (hs : ∀ steps, opt = .inl steps → ∀ x ∈ steps, x.1 ≠ 0 → x.2 ≠ 0) (p : List CommEv) (h : CommH) :
    (p <+: mainEvs multi first cg col0 opt → p.count (.rel h) ≤ p.count (.mk h) ∧ p.count (.mk h) ≤ p.count (.rel h) + 1) ∧
    (p ++ [.use h] <+: mainEvs multi first cg col0 opt → p.count (.mk h) = p.count (.rel h) + 1) := by
  obtain ⟨g, hg, -⟩ := commRun_main multi first cg col0 opt hs
  constructor
  · intro hp
    obtain ⟨u, hu⟩ := commRun_prefix hg hp
    have := commRun_count hu h
    simp only [commNone, Bool.toNat_false, Nat.add_zero] at this
    have hb := Bool.toNat_le (u h)
    omega
  · intro hp
    obtain ⟨t, ht⟩ := commRun_prefix hg hp
    obtain ⟨u, hu, hh⟩ := commRun_use ht
    have := commRun_count hu h
    simpa [commNone, hh] using this

/-- C92: at the end of a run in which PDPOSV did not fail, the communicators and grids of the solver and of the MultiDef mode are freed as often as they were created: nothing
accumulates over the steps. Missing: the communicators of `main` (`C92_comms_violated`) and a failure of PDPOSV (`C92_grid_violated`). -/
theorem C92_end_partial (multi first cg col0 : Bool) (opt : List (ℤ × ℤ) ⊕ ℕ)
    (hz : ∀ steps, opt = .inl steps → ∀ x ∈ steps, x.1 = 0) (h : CommH) (hh : h = .child ∨ h = .col ∨ h = .grid) :
    (mainEvs multi first cg col0 opt).count (.mk h) = (mainEvs multi first cg col0 opt).count (.rel h) := by
  obtain ⟨g, hg, hf⟩ := commRun_main multi first cg col0 opt fun s e x hx k => absurd (hz s e x hx) k
  have hg0 := hf (.inr hz)
  have := commRun_count hg h
  rcases hh with rfl | rfl | rfl <;> simpa [commNone, commBase, hg0] using this

/-- C92: the solver of `n` successful steps creates `n` grids and `n` communicators, so the freeing matters. -/
theorem C92_created (col0 : Bool) (n : ℕ) :
    (mainEvs false false false col0 (.inl (List.replicate n (0, 0)))).count (.mk .grid) = n ∧
    (mainEvs false false false col0 (.inl (List.replicate n (0, 0)))).count (.mk .col) = n := by
  have key : ∀ n, (paraOptEvs false col0 (List.replicate n (0, 0))).count (.mk .grid) = n ∧
      (paraOptEvs false col0 (List.replicate n (0, 0))).count (.mk .col) = n := by
    intro n
    induction n with
    | zero => exact ⟨rfl, rfl⟩
    | succ n ih =>
      cases col0 <;>
        simp [List.replicate_succ, paraOptEvs, optStepEvs, pdposvEvs, ih]
  have := key n
  simp [mainEvs, startEvs, this]

/-- C92 is violated: no run frees the communicators of `main`. -/
theorem C92_comms_violated (multi first cg col0 : Bool) (opt : List (ℤ × ℤ) ⊕ ℕ)
    (hs : ∀ steps, opt = .inl steps → ∀ x ∈ steps, x.1 ≠ 0 → x.2 ≠ 0) (h : CommH) (hh : h = .comm0 ∨ h = .comm1 ∨ h = .comm2) :
    (mainEvs multi first cg col0 opt).count (.mk h) = (mainEvs multi first cg col0 opt).count (.rel h) + 1 := by
  obtain ⟨g, hg, -⟩ := commRun_main multi first cg col0 opt hs
  have := commRun_count hg h
  rcases hh with rfl | rfl | rfl <;> simpa [commNone, commBase] using this

/-- C92 is violated: a failure of PDPOSV leaves its process grid, here in the second step. -/
theorem C92_grid_violated :
    (mainEvs false false false true (.inl [(0, 0), (3, 3)])).count (.mk .grid) =
      (mainEvs false false false true (.inl [(0, 0), (3, 3)])).count (.rel .grid) + 1 := by
  decide

/-- One step of an optimisation on a process of the first column, original mode. -/
example : mainEvs false false false true (.inl [(0, 0)]) =
    [.mk .comm0, .use .comm0, .mk .comm1, .mk .comm2, .use .comm1, .use .comm0, .use .comm2, .use .comm0, .mk .grid, .use .grid,
     .use .comm0, .mk .col, .use .col, .rel .col, .rel .grid, .use .comm0, .use .comm0] := by decide

end MVMC
