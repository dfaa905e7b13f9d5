import Verif.Spec.Release
import Mathlib.Tactic.SplitIfs

/-! # Calls for one block (C85) -/
namespace MVMC
open Spec

/-- the calls for a block -/
def opsOn (b : MemBlk) (l : List MemOp) : List MemOp := l.filter fun o => o.blk = b

/-- calls for one block -/
def ptrRun : List MemOp → PtrSt × ℕ → Option (PtrSt × ℕ)
  | [], x => some x
  | o :: os, x => (ptrStep o x).bind (ptrRun os)

theorem ptrRun_append (l l' : List MemOp) (x : PtrSt × ℕ) : ptrRun (l ++ l') x = (ptrRun l x).bind (ptrRun l') := by
  induction l generalizing x with
  | nil => rfl
  | cons o l ih =>
    simp only [List.cons_append, ptrRun]
    cases ptrStep o x with
    | none => rfl
    | some y => exact ih y

@[simp] theorem opsOn_append (b : MemBlk) (l l' : List MemOp) : opsOn b (l ++ l') = opsOn b l ++ opsOn b l' := List.filter_append ..

@[simp] theorem opsOn_nil (b : MemBlk) : opsOn b [] = [] := rfl

/-- the calls run without error if those for each block do -/
theorem memRun_of_blk : ∀ (l : List MemOp) (s : MemBlk → PtrSt × ℕ), (∀ b, ∃ x, ptrRun (opsOn b l) (s b) = some x) →
    ∃ s', memRun l s = some s' ∧ ∀ b, ptrRun (opsOn b l) (s b) = some (s' b)
  | [], s, _ => ⟨s, rfl, fun _ => rfl⟩
  | o :: os, s, h => by
    obtain ⟨x, hx⟩ := h o.blk
    have ho : opsOn o.blk (o :: os) = o :: opsOn o.blk os := by simp [opsOn]
    rw [ho, ptrRun] at hx
    cases e : ptrStep o (s o.blk) with
    | none => rw [e] at hx; exact absurd hx (by simp)
    | some y =>
      rw [e] at hx
      have hne : ∀ b, b ≠ o.blk → opsOn b (o :: os) = opsOn b os := fun b hb => by simp [opsOn, Ne.symm hb]
      obtain ⟨s', h1, h2⟩ := memRun_of_blk os (Function.update s o.blk y) fun b => by
        by_cases hb : b = o.blk
        · subst hb
          rw [Function.update_self]
          exact ⟨x, hx⟩
        · rw [Function.update_of_ne hb]
          have := h b
          rwa [hne b hb] at this
      refine ⟨s', ?_, fun b => ?_⟩
      · rw [memRun, e]
        exact h1
      · have := h2 b
        by_cases hb : b = o.blk
        · subst hb
          rw [Function.update_self] at this
          rw [ho, ptrRun, e]
          exact this
        · rw [Function.update_of_ne hb] at this
          rw [hne b hb]
          exact this

/-! ## Calls for a variable -/

@[simp] theorem opsOn_mallocs_nil (b : MemBlk) : opsOn b (mallocs []) = [] := rfl

@[simp] theorem opsOn_mallocs_cons (v w : MemVar) (l : List MemVar) : opsOn (.var v) (mallocs (w :: l)) = if w = v then .malloc (.var v) :: opsOn (.var v) (mallocs l) else opsOn (.var v) (mallocs l) := by
  by_cases h : w = v <;> simp [opsOn, mallocs, MemOp.blk, h]

@[simp] theorem opsOn_mallocs_row (v : MemVar) (i : ℕ) (l : List MemVar) : opsOn (.row v i) (mallocs l) = [] := by
  simp [opsOn, mallocs, MemOp.blk]

@[simp] theorem opsOn_frees_nil (b : MemBlk) : opsOn b (frees []) = [] := rfl

@[simp] theorem opsOn_frees_cons (v w : MemVar) (l : List MemVar) : opsOn (.var v) (frees (w :: l)) = if w = v then .free (.var v) :: opsOn (.var v) (frees l) else opsOn (.var v) (frees l) := by
  by_cases h : w = v <;> simp [opsOn, frees, MemOp.blk, h]

@[simp] theorem opsOn_frees_row (v : MemVar) (i : ℕ) (l : List MemVar) : opsOn (.row v i) (frees l) = [] := by
  simp [opsOn, frees, MemOp.blk]

/-- a loop whose pass `j` is about the table and about entry `j` -/
theorem opsOn_loop_row (v : MemVar) (i : ℕ) (f : ℕ → List MemOp) (hf : ∀ j ≠ i, opsOn (.row v i) (f j) = []) : ∀ n,
    opsOn (.row v i) ((List.range n).flatMap f) = if i < n then opsOn (.row v i) (f i) else []
  | 0 => rfl
  | n + 1 => by
    rw [List.range_succ, List.flatMap_append, opsOn_append, opsOn_loop_row v i f hf n]
    by_cases h : i = n
    · subst h; simp
    · have e : opsOn (.row v i) ([n].flatMap f) = [] := by simpa using hf n (Ne.symm h)
      rw [e, List.append_nil]
      by_cases h' : i < n
      · rw [if_pos h', if_pos (by omega)]
      · rw [if_neg h', if_neg (by omega)]

theorem opsOn_loop_none (b : MemBlk) (f : ℕ → List MemOp) (hf : ∀ j, opsOn b (f j) = []) (n : ℕ) : opsOn b ((List.range n).flatMap f) = [] := by
  induction n with
  | zero => rfl
  | succ n ih => rw [List.range_succ, List.flatMap_append, opsOn_append, ih]; simpa using hf n

/-- passes that only use the table -/
theorem blkRun_loop_live (b : MemBlk) (f : ℕ → List MemOp) (k : ℕ) (hf : ∀ j, ptrRun (opsOn b (f j)) (.live, k) = some (.live, k)) (n : ℕ) :
    ptrRun (opsOn b ((List.range n).flatMap f)) (.live, k) = some (.live, k) := by
  induction n with
  | zero => rfl
  | succ n ih =>
    rw [List.range_succ, List.flatMap_append, opsOn_append, ptrRun_append, ih]
    simpa using hf n

/-! ## Requests for work space -/

/-- a block that the requests do not touch -/
theorem wsOps_none (P : MemPar) (b : MemBlk) (h : ∀ k, opsOn b (wsGrow P k) = []) : ∀ (rs : List (WsKind × ℤ)) (num : WsKind → ℤ), opsOn b (wsOps P rs num) = []
  | [], _ => rfl
  | (k, n) :: rs, num => by
    rw [wsOps]
    split_ifs
    · rw [opsOn_append, h, wsOps_none P b h rs]; rfl
    · exact wsOps_none P b h rs num

/-- a block that the requests only use -/
theorem wsOps_live (P : MemPar) (b : MemBlk) (x : ℕ) (h : ∀ k, ptrRun (opsOn b (wsGrow P k)) (.live, x) = some (.live, x)) : ∀ (rs : List (WsKind × ℤ)) (num : WsKind → ℤ),
    ptrRun (opsOn b (wsOps P rs num)) (.live, x) = some (.live, x)
  | [], _ => rfl
  | (k, n) :: rs, num => by
    rw [wsOps]
    split_ifs
    · rw [opsOn_append, ptrRun_append, h]; exact wsOps_live P b x h rs _
    · exact wsOps_live P b x h rs num

/-- a work space: there is one at the end if one was asked for -/
theorem wsOps_grow (P : MemPar) (b : MemBlk) (kd : WsKind) (h0 : ∀ k ≠ kd, opsOn b (wsGrow P k) = [])
    (h1 : ptrRun (opsOn b (wsGrow P kd)) (.null, 0) = some (.live, 0)) (h2 : ptrRun (opsOn b (wsGrow P kd)) (.live, 0) = some (.live, 0)) (rs : List (WsKind × ℤ)) :
    ptrRun (opsOn b (wsOps P rs fun _ => 0)) (.null, 0) = some (if Asked kd rs then .live else .null, 0) := by
  have live : ∀ (rs : List (WsKind × ℤ)) (num : WsKind → ℤ), ptrRun (opsOn b (wsOps P rs num)) (.live, 0) = some (.live, 0) :=
    wsOps_live P b 0 fun k => by
      by_cases hk : k = kd
      · subst hk; exact h2
      · rw [h0 k hk]; rfl
  have key : ∀ (rs : List (WsKind × ℤ)) (num : WsKind → ℤ), num kd = 0 → ptrRun (opsOn b (wsOps P rs num)) (.null, 0) = some (if Asked kd rs then .live else .null, 0) := by
    intro rs
    induction rs with
    | nil => intro num _; simp [wsOps, ptrRun, Asked]
    | cons r rs ih =>
      obtain ⟨k, n⟩ := r
      intro num hn
      rw [wsOps]
      by_cases hk : k = kd
      · subst hk
        by_cases hg : n > num k
        · rw [if_pos hg, opsOn_append, ptrRun_append, h1]
          have : Asked k ((k, n) :: rs) := ⟨(k, n), by simp, rfl, by rw [hn] at hg; exact hg⟩
          rw [if_pos this]
          exact live rs _
        · rw [if_neg hg, ih num hn]
          have : Asked k ((k, n) :: rs) ↔ Asked k rs := by
            rw [hn] at hg
            simp only [Asked, List.exists_mem_cons_iff]
            exact ⟨fun h => h.resolve_left fun h' => hg h'.2, Or.inr⟩
          simp only [this]
      · have : Asked kd ((k, n) :: rs) ↔ Asked kd rs := by
          simp only [Asked, List.exists_mem_cons_iff]
          exact ⟨fun h => h.resolve_left fun h' => hk h'.1, Or.inr⟩
        simp only [this]
        split_ifs with hg
        all_goals first
          | (rw [opsOn_append, h0 k hk, List.nil_append, ih _ (by rw [Function.update_of_ne (Ne.symm hk)]; exact hn)]; simp_all)
          | (rw [ih num hn]; simp_all)
  exact key rs _ rfl

end MVMC
