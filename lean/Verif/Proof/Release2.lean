import Verif.Proof.Release

/-! # All calls of a process for one block (C85) -/
namespace MVMC
open Spec

@[simp] theorem blkRun_uses (b : MemBlk) (n k : ℕ) : ptrRun (List.replicate n (.use b)) (.live, k) = some (.live, k) := by
  induction n with
  | zero => rfl
  | succ n ih => rw [List.replicate_succ, ptrRun, ptrStep]; exact ih

theorem opsOn_loop_uses (b : MemBlk) (f : ℕ → List MemOp) (hf : ∀ j, opsOn b (f j) = [.use b]) (n : ℕ) : opsOn b ((List.range n).flatMap f) = List.replicate n (.use b) := by
  induction n with
  | zero => rfl
  | succ n ih =>
    rw [List.range_succ, List.flatMap_append, opsOn_append, ih, List.replicate_succ', List.flatMap_singleton, hf]

@[simp] theorem opsOn_mallocTab_var (v t : MemVar) (n : ℕ) : opsOn (.var v) (mallocTab t n) = if t = v then .malloc (.var v) :: List.replicate n (.use (.var v)) else [] := by
  rw [mallocTab, ← List.singleton_append, opsOn_append]
  by_cases h : t = v
  · subst h
    rw [if_pos rfl, opsOn_loop_uses _ _ fun j => by simp [opsOn, MemOp.blk]]
    simp [opsOn, MemOp.blk]
  · rw [if_neg h, opsOn_loop_none _ _ fun j => by simp [opsOn, MemOp.blk, h]]
    simp [opsOn, MemOp.blk, h]

@[simp] theorem opsOn_mallocTab_row (v t : MemVar) (i n : ℕ) : opsOn (.row v i) (mallocTab t n) = if t = v ∧ i < n then [.malloc (.row v i)] else [] := by
  rw [mallocTab, ← List.singleton_append, opsOn_append]
  have e : opsOn (.row v i) [.malloc (.var t)] = [] := by simp [opsOn, MemOp.blk]
  rw [e, List.nil_append]
  by_cases h : t = v
  · subst h
    rw [opsOn_loop_row _ _ _ fun j hj => by simp [opsOn, MemOp.blk, hj]]
    simp [opsOn, MemOp.blk]
  · rw [if_neg (fun q => h q.1), opsOn_loop_none _ _ fun j => by simp [opsOn, MemOp.blk, h]]

@[simp] theorem opsOn_freeTab_var (v t : MemVar) (n : ℕ) : opsOn (.var v) (freeTab t n) = if t = v then List.replicate n (.use (.var v)) ++ [.free (.var v)] else [] := by
  rw [freeTab, opsOn_append]
  by_cases h : t = v
  · subst h
    rw [if_pos rfl, opsOn_loop_uses _ _ fun j => by simp [opsOn, MemOp.blk]]
    simp [opsOn, MemOp.blk]
  · rw [if_neg h, opsOn_loop_none _ _ fun j => by simp [opsOn, MemOp.blk, h]]
    simp [opsOn, MemOp.blk, h]

@[simp] theorem opsOn_freeTab_row (v t : MemVar) (i n : ℕ) : opsOn (.row v i) (freeTab t n) = if t = v ∧ i < n then [.free (.row v i)] else [] := by
  rw [freeTab, opsOn_append]
  have e : opsOn (.row v i) [.free (.var t)] = [] := by simp [opsOn, MemOp.blk]
  rw [e, List.append_nil]
  by_cases h : t = v
  · subst h
    rw [opsOn_loop_row _ _ _ fun j hj => by simp [opsOn, MemOp.blk, hj]]
    simp [opsOn, MemOp.blk]
  · rw [if_neg (fun q => h q.1), opsOn_loop_none _ _ fun j => by simp [opsOn, MemOp.blk, h]]

/-- the first loop of `FreeWorkSpaceAll` -/
theorem opsOn_thrFree_var (v : MemVar) (n : ℕ) :
    opsOn (.var v) ((List.range n).flatMap fun i => [.use (.var .wsTInt), .free (.row .wsTInt i), .use (.var .wsTDouble), .free (.row .wsTDouble i)]) =
      if v = .wsTInt ∨ v = .wsTDouble then List.replicate n (.use (.var v)) else [] := by
  by_cases h1 : v = .wsTInt
  · subst h1
    rw [if_pos (Or.inl rfl), opsOn_loop_uses _ _ fun j => by simp [opsOn, MemOp.blk]]
  by_cases h2 : v = .wsTDouble
  · subst h2
    rw [if_pos (Or.inr rfl), opsOn_loop_uses _ _ fun j => by simp [opsOn, MemOp.blk]]
  · rw [if_neg (by tauto), opsOn_loop_none _ _ fun j => by simp [opsOn, MemOp.blk, Ne.symm h1, Ne.symm h2]]

theorem opsOn_thrFree_row (v : MemVar) (i n : ℕ) :
    opsOn (.row v i) ((List.range n).flatMap fun i => [.use (.var .wsTInt), .free (.row .wsTInt i), .use (.var .wsTDouble), .free (.row .wsTDouble i)]) =
      if (v = .wsTInt ∨ v = .wsTDouble) ∧ i < n then [.free (.row v i)] else [] := by
  by_cases h1 : v = .wsTInt
  · subst h1
    rw [opsOn_loop_row _ _ _ fun j hj => by simp [opsOn, MemOp.blk, hj]]
    simp [opsOn, MemOp.blk]
  by_cases h2 : v = .wsTDouble
  · subst h2
    rw [opsOn_loop_row _ _ _ fun j hj => by simp [opsOn, MemOp.blk, hj]]
    simp [opsOn, MemOp.blk]
  · rw [if_neg (by tauto), opsOn_loop_none _ _ fun j => by simp [opsOn, MemOp.blk, Ne.symm h1, Ne.symm h2]]

/-! ## Work space -/

theorem ws_var_none (P : MemPar) (reqs : List (WsKind × ℤ)) (num : WsKind → ℤ) (v : MemVar)
    (h : v ≠ .wsInt ∧ v ≠ .wsDouble ∧ v ≠ .wsComplex ∧ v ≠ .wsTInt ∧ v ≠ .wsTDouble ∧ v ≠ .wsTComplex) : opsOn (.var v) (wsOps P reqs num) = [] := by
  obtain ⟨h1, h2, h3, h4, h5, h6⟩ := h
  refine wsOps_none P _ (fun k => ?_) reqs num
  cases k <;> simp only [wsGrow]
  · simp [opsOn, MemOp.blk, Ne.symm h1]
  · simp [opsOn, MemOp.blk, Ne.symm h2]
  · simp [opsOn, MemOp.blk, Ne.symm h3]
  · exact opsOn_loop_none _ _ (fun j => by simp [opsOn, MemOp.blk, Ne.symm h4]) _
  · exact opsOn_loop_none _ _ (fun j => by simp [opsOn, MemOp.blk, Ne.symm h5]) _
  · exact opsOn_loop_none _ _ (fun j => by simp [opsOn, MemOp.blk, Ne.symm h6]) _

theorem ws_row_none (P : MemPar) (reqs : List (WsKind × ℤ)) (num : WsKind → ℤ) (v : MemVar) (i : ℕ)
    (h : v ≠ .wsTInt ∧ v ≠ .wsTDouble ∧ v ≠ .wsTComplex ∨ P.NThread ≤ i) : opsOn (.row v i) (wsOps P reqs num) = [] := by
  refine wsOps_none P _ (fun k => ?_) reqs num
  rcases h with ⟨h4, h5, h6⟩ | h
  · cases k <;> simp only [wsGrow]
    · simp [opsOn, MemOp.blk]
    · simp [opsOn, MemOp.blk]
    · simp [opsOn, MemOp.blk]
    · exact opsOn_loop_none _ _ (fun j => by simp [opsOn, MemOp.blk, Ne.symm h4]) _
    · exact opsOn_loop_none _ _ (fun j => by simp [opsOn, MemOp.blk, Ne.symm h5]) _
    · exact opsOn_loop_none _ _ (fun j => by simp [opsOn, MemOp.blk, Ne.symm h6]) _
  · cases k <;> simp only [wsGrow]
    · simp [opsOn, MemOp.blk]
    · simp [opsOn, MemOp.blk]
    · simp [opsOn, MemOp.blk]
    all_goals
      rw [opsOn_loop_row _ _ _ fun j hj => by simp [opsOn, MemOp.blk, hj], if_neg (by omega)]

theorem ws_table (P : MemPar) (reqs : List (WsKind × ℤ)) (num : WsKind → ℤ) (v : MemVar) (x : ℕ) (h : v = .wsTInt ∨ v = .wsTDouble ∨ v = .wsTComplex) :
    ptrRun (opsOn (.var v) (wsOps P reqs num)) (.live, x) = some (.live, x) := by
  refine wsOps_live P _ x (fun k => ?_) reqs num
  rcases h with rfl | rfl | rfl <;> cases k <;> simp only [wsGrow]
  all_goals first
    | (simp [opsOn, MemOp.blk, ptrRun]; done)
    | (exact blkRun_loop_live _ _ _ (fun j => by simp [opsOn, MemOp.blk, ptrRun, ptrStep]) _)

theorem ws_int (P : MemPar) (reqs : List (WsKind × ℤ)) : ptrRun (opsOn (.var .wsInt) (wsOps P reqs fun _ => 0)) (.null, 0) = some (if Asked .int reqs then .live else .null, 0) := by
  refine wsOps_grow P _ .int (fun k hk => ?_) (by simp [wsGrow, opsOn, MemOp.blk, ptrRun, ptrStep]) (by simp [wsGrow, opsOn, MemOp.blk, ptrRun, ptrStep]) reqs
  cases k <;> simp only [wsGrow] <;> first
    | contradiction
    | (simp [opsOn, MemOp.blk]; done)
    | exact opsOn_loop_none _ _ (fun j => by simp [opsOn, MemOp.blk]) _

theorem ws_double (P : MemPar) (reqs : List (WsKind × ℤ)) : ptrRun (opsOn (.var .wsDouble) (wsOps P reqs fun _ => 0)) (.null, 0) = some (if Asked .double reqs then .live else .null, 0) := by
  refine wsOps_grow P _ .double (fun k hk => ?_) (by simp [wsGrow, opsOn, MemOp.blk, ptrRun, ptrStep]) (by simp [wsGrow, opsOn, MemOp.blk, ptrRun, ptrStep]) reqs
  cases k <;> simp only [wsGrow] <;> first
    | contradiction
    | (simp [opsOn, MemOp.blk]; done)
    | exact opsOn_loop_none _ _ (fun j => by simp [opsOn, MemOp.blk]) _

theorem ws_complex (P : MemPar) (reqs : List (WsKind × ℤ)) : ptrRun (opsOn (.var .wsComplex) (wsOps P reqs fun _ => 0)) (.null, 0) = some (if Asked .complex reqs then .live else .null, 0) := by
  refine wsOps_grow P _ .complex (fun k hk => ?_) (by simp [wsGrow, opsOn, MemOp.blk, ptrRun, ptrStep]) (by simp [wsGrow, opsOn, MemOp.blk, ptrRun, ptrStep]) reqs
  cases k <;> simp only [wsGrow] <;> first
    | contradiction
    | (simp [opsOn, MemOp.blk]; done)
    | exact opsOn_loop_none _ _ (fun j => by simp [opsOn, MemOp.blk]) _

theorem ws_row (P : MemPar) (reqs : List (WsKind × ℤ)) (v : MemVar) (kd : WsKind) (h : (v, kd) = (.wsTInt, .tInt) ∨ (v, kd) = (.wsTDouble, .tDouble) ∨ (v, kd) = (.wsTComplex, .tComplex))
    (i : ℕ) (hi : i < P.NThread) : ptrRun (opsOn (.row v i) (wsOps P reqs fun _ => 0)) (.null, 0) = some (if Asked kd reqs then .live else .null, 0) := by
  rcases h with e | e | e <;> cases e
  all_goals
    refine wsOps_grow P _ _ (fun k hk => ?_) ?_ ?_ reqs
    · cases k <;> simp only [wsGrow] <;> first
        | contradiction
        | (simp [opsOn, MemOp.blk]; done)
        | exact opsOn_loop_none _ _ (fun j => by simp [opsOn, MemOp.blk]) _
    · simp only [wsGrow]
      rw [opsOn_loop_row _ _ _ fun j hj => by simp [opsOn, MemOp.blk, hj], if_pos hi]
      simp [opsOn, MemOp.blk, ptrRun, ptrStep]
    · simp only [wsGrow]
      rw [opsOn_loop_row _ _ _ fun j hj => by simp [opsOn, MemOp.blk, hj], if_pos hi]
      simp [opsOn, MemOp.blk, ptrRun, ptrStep]

end MVMC
