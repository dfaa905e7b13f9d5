import Verif.Proof.Release2
import Mathlib.Tactic.Tauto

/-! # What a process holds at the end, block by block (C85) -/
namespace MVMC
open Spec

set_option linter.unusedSimpArgs false

theorem ite_opsOn (b : MemBlk) (c : Prop) [Decidable c] (l l' : List MemOp) : opsOn b (if c then l else l') = if c then opsOn b l else opsOn b l' := by
  split_ifs <;> rfl

/-- blocks of variables -/
theorem held_var (P : MemPar) (reqs : List (WsKind × ℤ)) (hw : P.world = 0 → P.rank = 0) (v : MemVar) :
    ∃ x, ptrRun (opsOn (.var v) (memProg P reqs)) (.null, 0) = some x ∧ heldBy x = memHeld P reqs (.var v) := by
  have wi := ws_int P reqs
  have wd := ws_double P reqs
  have wc := ws_complex P reqs
  cases v
  case wsInt =>
    simp only [memProg, memRead, memSetDef, memSet, memBF, memFree, memFreeDef, opsOn_append, ite_opsOn, opsOn_thrFree_var, opsOn_mallocs_cons, opsOn_mallocs_nil, opsOn_frees_cons,
      opsOn_frees_nil, opsOn_mallocTab_var, opsOn_freeTab_var, opsOn_nil, reduceCtorEq, if_false, if_true, ite_self, List.append_nil, List.nil_append, false_or, or_false, or_self,
      ptrRun_append, wi]
    split_ifs <;> simp [ptrRun, ptrStep, heldBy, memHeld]
  case wsDouble =>
    simp only [memProg, memRead, memSetDef, memSet, memBF, memFree, memFreeDef, opsOn_append, ite_opsOn, opsOn_thrFree_var, opsOn_mallocs_cons, opsOn_mallocs_nil, opsOn_frees_cons,
      opsOn_frees_nil, opsOn_mallocTab_var, opsOn_freeTab_var, opsOn_nil, reduceCtorEq, if_false, if_true, ite_self, List.append_nil, List.nil_append, false_or, or_false, or_self,
      ptrRun_append, wd]
    split_ifs <;> simp [ptrRun, ptrStep, heldBy, memHeld]
  case wsComplex =>
    simp only [memProg, memRead, memSetDef, memSet, memBF, memFree, memFreeDef, opsOn_append, ite_opsOn, opsOn_thrFree_var, opsOn_mallocs_cons, opsOn_mallocs_nil, opsOn_frees_cons,
      opsOn_frees_nil, opsOn_mallocTab_var, opsOn_freeTab_var, opsOn_nil, reduceCtorEq, if_false, if_true, ite_self, List.append_nil, List.nil_append, false_or, or_false, or_self,
      ptrRun_append, wc]
    split_ifs <;> simp_all [ptrRun, ptrStep, heldBy, memHeld]
  case wsTInt | wsTDouble | wsTComplex =>
    simp only [memProg, memRead, memSetDef, memSet, memBF, memFree, memFreeDef, opsOn_append, ite_opsOn, opsOn_thrFree_var, opsOn_mallocs_cons, opsOn_mallocs_nil, opsOn_frees_cons,
      opsOn_frees_nil, opsOn_mallocTab_var, opsOn_freeTab_var, opsOn_nil, reduceCtorEq, if_false, if_true, ite_self, List.append_nil, List.nil_append, false_or, or_false, or_self,
      ptrRun_append, ptrRun, ptrStep, Option.bind_some, ws_table, blkRun_uses, true_or, or_true]
    simp [heldBy, memHeld]
  all_goals
    rw [memProg, opsOn_append, opsOn_append, opsOn_append, ws_var_none P reqs _ _ (by simp), List.append_nil]
    simp only [memRead, memSetDef, memSet, memBF, memFree, memFreeDef, opsOn_append, ite_opsOn, opsOn_thrFree_var, opsOn_mallocs_cons, opsOn_mallocs_nil, opsOn_frees_cons,
      opsOn_frees_nil, opsOn_mallocTab_var, opsOn_freeTab_var, opsOn_nil, reduceCtorEq, if_false, if_true, ite_self, List.append_nil, List.nil_append, false_or, or_false, or_self]
    simp only [memHeld, LineTableKept]
    clear wi wd wc
    first
      | exact ⟨_, rfl, rfl⟩
      | (split_ifs <;> first | exact ⟨_, rfl, rfl⟩ | (exfalso; tauto) | simp_all [ptrRun, ptrStep, heldBy, ptrRun_append])

/-- entries of tables -/
theorem held_row (P : MemPar) (reqs : List (WsKind × ℤ)) (hw : P.world = 0 → P.rank = 0) (v : MemVar) (i : ℕ) :
    ∃ x, ptrRun (opsOn (.row v i) (memProg P reqs)) (.null, 0) = some x ∧ heldBy x = memHeld P reqs (.row v i) := by
  cases v
  case wsTInt | wsTDouble | wsTComplex =>
    by_cases hi : i < P.NThread
    · have w1 := ws_row P reqs .wsTInt .tInt (Or.inl rfl) i hi
      have w2 := ws_row P reqs .wsTDouble .tDouble (Or.inr (Or.inl rfl)) i hi
      have w3 := ws_row P reqs .wsTComplex .tComplex (Or.inr (Or.inr rfl)) i hi
      simp only [memProg, memRead, memSetDef, memSet, memBF, memFree, memFreeDef, opsOn_append, ite_opsOn, opsOn_thrFree_row, opsOn_mallocs_row, opsOn_frees_row,
        opsOn_mallocTab_row, opsOn_freeTab_row, opsOn_nil, reduceCtorEq, if_false, if_true, ite_self, List.append_nil, List.nil_append, false_or, or_false, or_self, false_and, true_and,
        ptrRun_append, w1, w2, w3, hi, true_or, or_true, memHeld, ptrRun, Option.bind_some]
      split_ifs <;> simp [ptrRun, ptrStep, heldBy]
    · rw [memProg, opsOn_append, opsOn_append, opsOn_append, ws_row_none P reqs _ _ i (Or.inr (by omega)), List.append_nil]
      simp only [memProg, memRead, memSetDef, memSet, memBF, memFree, memFreeDef, opsOn_append, ite_opsOn, opsOn_thrFree_row, opsOn_mallocs_row, opsOn_frees_row,
        opsOn_mallocTab_row, opsOn_freeTab_row, opsOn_nil, reduceCtorEq, if_false, if_true, ite_self, List.append_nil, List.nil_append, false_or, or_false, or_self, false_and, true_and,
        hi, and_false, memHeld]
      exact ⟨_, rfl, rfl⟩
  all_goals
    rw [memProg, opsOn_append, opsOn_append, opsOn_append, ws_row_none P reqs _ _ i (Or.inl (by simp)), List.append_nil]
    simp only [memRead, memSetDef, memSet, memBF, memFree, memFreeDef, opsOn_append, ite_opsOn, opsOn_thrFree_row, opsOn_mallocs_row, opsOn_frees_row,
      opsOn_mallocTab_row, opsOn_freeTab_row, opsOn_nil, reduceCtorEq, if_false, if_true, ite_self, List.append_nil, List.nil_append, false_or, or_false, or_self, false_and, true_and]
    simp only [memHeld, LineTableKept]
    first
      | exact ⟨_, rfl, rfl⟩
      | (split_ifs <;> first | exact ⟨_, rfl, rfl⟩ | (exfalso; tauto) | simp_all [ptrRun, ptrStep, heldBy, ptrRun_append])

end MVMC
