import Verif.Proof.OutFiles
import Mathlib.Tactic.SplitIfs

/-! # The output files of a run (C78) -/
namespace MVMC
open Spec

/-- different handles have different files -/
def HdInj (hd : OutH → Option (List Char)) : Prop := ∀ h k nm, hd h = some nm → hd k = some nm → h = k

/-- a write or a flush of one of the given handles -/
def OpOn (P : OutH → Prop) : FileOp → Prop
  | .write h _ => P h
  | .flush h => P h
  | _ => False

/-- open some files, write, close them -/
theorem exec_session (can : List Char → Bool) (E : List (OutH × List Char × List OutRec)) (ops : List FileOp) (s : FileSys) (hinj : HdInj s.hd)
    (hh : (E.map (·.1)).Nodup) (hn : (E.map (·.2.1)).Nodup) (hc : ∀ e ∈ E, s.hd e.1 = none) (hf : ∀ e ∈ E, ∀ h, s.hd h ≠ some e.2.1)
    (hl : ∀ e ∈ E, e.2.1.length < fileNameMax) (hcan : ∀ e ∈ E, can e.2.1 = true) (ho : ∀ o ∈ ops, OpOn (fun h => h ∈ E.map (·.1) ∨ (s.hd h).isSome) o) :
    ∃ s', execOps can (openOps E ++ (ops ++ (E.map (·.1)).map .close)) s = some s' ∧ s'.leak = s.leak ∧ s'.clash = s.clash ∧ s'.hd = s.hd ∧
      (∀ e ∈ E, s'.files e.2.1 = some (e.2.2 ++ recsH e.1 ops)) ∧ (∀ k nm, s.hd k = some nm → s'.files nm = (s.files nm).map (· ++ recsH k ops)) ∧
      ∀ nm, nm ∉ E.map (·.2.1) → (∀ k, s.hd k ≠ some nm) → s'.files nm = s.files nm := by
  obtain ⟨t, h1, h2, h3, h4, h5, h6⟩ := exec_open can E s hh hn hc hf hl hcan
  have hE : ∀ h, h ∈ E.map (·.1) → ∃ e ∈ E, e.1 = h ∧ t.hd h = some e.2.1 := by
    intro h q
    obtain ⟨e, he, rfl⟩ := List.mem_map.mp q
    exact ⟨e, he, rfl, (h4 e he).1⟩
  have honly : ∀ e ∈ E, ∀ k, t.hd k = some e.2.1 → k = e.1 := by
    intro e he k hk
    by_cases q : k ∈ E.map (·.1)
    · obtain ⟨d, hd, hd1, hd2⟩ := hE k q
      rw [hk, Option.some.injEq] at hd2
      have : e = d := List.inj_on_of_nodup_map hn he hd hd2
      rw [this, hd1]
    · rw [h5 k q] at hk
      exact absurd hk (hf e he k)
  have hold : ∀ k nm, s.hd k = some nm → t.hd k = some nm ∧ nm ∉ E.map (·.2.1) ∧ ∀ j, t.hd j = some nm → j = k := by
    intro k nm hk
    have q : k ∉ E.map (·.1) := by
      intro q
      obtain ⟨e, he, rfl⟩ := List.mem_map.mp q
      rw [hc e he] at hk
      exact absurd hk (by simp)
    have q2 : nm ∉ E.map (·.2.1) := by
      intro q2
      obtain ⟨e, he, rfl⟩ := List.mem_map.mp q2
      exact hf e he k hk
    refine ⟨by rw [h5 k q, hk], q2, fun j hj => ?_⟩
    by_cases w : j ∈ E.map (·.1)
    · obtain ⟨d, hd, hd1, hd2⟩ := hE j w
      rw [hj, Option.some.injEq] at hd2
      exact absurd (List.mem_map.mpr ⟨d, hd, hd2.symm⟩) q2
    · rw [h5 j w] at hj
      exact hinj j k nm hj hk
  have hst : ∀ o ∈ ops, StaticOp t.hd o := by
    have key : ∀ h, (h ∈ E.map (·.1) ∨ (s.hd h).isSome) → (t.hd h).isSome := by
      rintro h (q | q)
      · obtain ⟨e, _, _, w⟩ := hE h q
        rw [w]; rfl
      · obtain ⟨nm, w⟩ := Option.isSome_iff_exists.mp q
        rw [(hold h nm w).1]; rfl
    intro o hoo
    have := ho o hoo
    cases o with
    | write h x => exact key h this
    | flush h => exact key h this
    | «open» _ _ => exact this.elim
    | close _ => exact this.elim
    | ub => exact this.elim
  rw [exec_append, h1, Option.bind_some, exec_append, exec_static can ops t hst, Option.bind_some, exec_close _ _ _ hh]
  · refine ⟨_, rfl, h2, h3, ?_, ?_, ?_, ?_⟩
    · funext h
      show (if h ∈ E.map (·.1) then none else t.hd h) = s.hd h
      split_ifs with q
      · obtain ⟨e, he, rfl⟩ := List.mem_map.mp q
        exact (hc e he).symm
      · exact h5 h q
    · intro e he
      show (t.files e.2.1).map _ = _
      rw [(h4 e he).2, recsOf_eq (h4 e he).1 (honly e he)]
      rfl
    · intro k nm hk
      obtain ⟨a, b, c⟩ := hold k nm hk
      show (t.files nm).map _ = _
      rw [recsOf_eq a c, h6 nm b]
    · intro nm hnm hno
      show (t.files nm).map _ = _
      rw [recsOf_none, h6 nm hnm]
      · simp
      · intro k hk
        by_cases q : k ∈ E.map (·.1)
        · obtain ⟨d, hd, hd1, hd2⟩ := hE k q
          rw [hk, Option.some.injEq] at hd2
          exact hnm (List.mem_map.mpr ⟨d, hd, hd2.symm⟩)
        · rw [h5 k q] at hk
          exact hno k hk
  · intro h q
    obtain ⟨e, _, _, w⟩ := hE h q
    show (t.hd h).isSome
    rw [w]; rfl

/-! ## Calculation of physical quantities -/

/-- the files opened for sample `i` -/
def sampleE (q : OutPar) (i : Nat) : List (OutH × List Char × List OutRec) :=
  (sampleTags q).map fun e => (e.1, q.name e.2 (i + q.idxStart), if e.1 = .var ∧ q.binary then [.binHead q.nPara 1] else [])

theorem init_sample (q : OutPar) (i : Nat) : initFilePhysCal q i 0 = openOps (sampleE q i) := by
  unfold initFilePhysCal sampleE sampleTags openOps
  rcases q.lanczos with _ | _ | n <;> cases q.binary <;> cases q.debug <;> by_cases h1 : 0 < q.nCis <;> by_cases h2 : 0 < q.nCkt <;> by_cases h3 : 0 < q.nDC <;>
    simp [h1, h2, h3]

theorem close_sample (q : OutPar) : closeFilePhysCal q 0 = ((sampleTags q).map (·.1)).map .close := by
  unfold closeFilePhysCal sampleTags
  rcases q.lanczos with _ | _ | n <;> cases q.binary <;> cases q.debug <;> by_cases h1 : 0 < q.nCis <;> by_cases h2 : 0 < q.nCkt <;> by_cases h3 : 0 < q.nDC <;>
    simp [h1, h2, h3]

theorem tags_nodup (q : OutPar) : ((sampleTags q).map (·.1)).Nodup ∧ ((sampleTags q).map (·.2)).Nodup := by
  unfold sampleTags
  rcases q.lanczos with _ | _ | n <;> cases q.binary <;> cases q.debug <;> by_cases h1 : 0 < q.nCis <;> by_cases h2 : 0 < q.nCkt <;> by_cases h3 : 0 < q.nDC <;>
    simp [h1, h2, h3]

/-- all tags -/
def allTags : List String := ["_out_", "_varbin_", "_var_", "_cisajs_", "_cisajscktaltex_", "_cisajscktalt_", "_ls_out_", "_ls_qqqq_", "_ls_qcisajsq_",
  "_ls_qcisajscktaltq_", "_ls_cisajs_", "_ls_cisajscktaltex_", "_ls_cisajscktalt_"]

theorem tags_all (q : OutPar) : ∀ e ∈ sampleTags q, e.2 ∈ allTags ∧ e.1 ≠ .time ∧ e.1 ≠ .timer := by
  unfold sampleTags
  rcases q.lanczos with _ | _ | n <;> cases q.binary <;> cases q.debug <;> by_cases h1 : 0 < q.nCis <;> by_cases h2 : 0 < q.nCkt <;> by_cases h3 : 0 < q.nDC <;>
    simp [h1, h2, h3, allTags]

theorem tags_end : ∀ t ∈ allTags, TagEnd t ∧ t.toList.length ≤ 20 ∧ t ≠ "_time_" := by
  intro t ht
  simp only [allTags, List.mem_cons, List.not_mem_nil, or_false] at ht
  rcases ht with rfl | rfl | rfl | rfl | rfl | rfl | rfl | rfl | rfl | rfl | rfl | rfl | rfl
  · exact ⟨⟨"_out".toList, by decide⟩, by decide, by decide⟩
  · exact ⟨⟨"_varbin".toList, by decide⟩, by decide, by decide⟩
  · exact ⟨⟨"_var".toList, by decide⟩, by decide, by decide⟩
  · exact ⟨⟨"_cisajs".toList, by decide⟩, by decide, by decide⟩
  · exact ⟨⟨"_cisajscktaltex".toList, by decide⟩, by decide, by decide⟩
  · exact ⟨⟨"_cisajscktalt".toList, by decide⟩, by decide, by decide⟩
  · exact ⟨⟨"_ls_out".toList, by decide⟩, by decide, by decide⟩
  · exact ⟨⟨"_ls_qqqq".toList, by decide⟩, by decide, by decide⟩
  · exact ⟨⟨"_ls_qcisajsq".toList, by decide⟩, by decide, by decide⟩
  · exact ⟨⟨"_ls_qcisajscktaltq".toList, by decide⟩, by decide, by decide⟩
  · exact ⟨⟨"_ls_cisajs".toList, by decide⟩, by decide, by decide⟩
  · exact ⟨⟨"_ls_cisajscktaltex".toList, by decide⟩, by decide, by decide⟩
  · exact ⟨⟨"_ls_cisajscktalt".toList, by decide⟩, by decide, by decide⟩

theorem time_end : TagEnd "_time_" := ⟨"_time".toList, by decide⟩

theorem name_len (q : OutPar) (t : String) (i : Int) : (q.name t i).length = q.head.length + t.toList.length + (fmt03 i).length + 4 := by
  unfold OutPar.name
  simp only [List.length_append]
  have : ".dat".toList.length = 4 := by decide
  omega

/-- the operations of `writeLines` -/
theorem lines_on {P : OutH → Prop} {h : OutH} {n : Nat} {x : Nat → OutRec} (hP : P h) : ∀ o ∈ writeLines h n x, OpOn P o := by
  intro o ho
  unfold writeLines at ho
  rcases List.mem_append.mp ho with ho | ho
  · obtain ⟨i, _, rfl⟩ := List.mem_map.mp ho
    exact hP
  · rw [List.mem_singleton.mp ho]
    exact hP

theorem on_append {P : OutH → Prop} {a b : List FileOp} (ha : ∀ o ∈ a, OpOn P o) (hb : ∀ o ∈ b, OpOn P o) : ∀ o ∈ a ++ b, OpOn P o :=
  fun o ho => (List.mem_append.mp ho).elim (ha o) (hb o)

theorem on_nil {P : OutH → Prop} : ∀ o ∈ ([] : List FileOp), OpOn P o := by simp

/-- `outputData` in mode 1 writes to the files of the sample -/
theorem data_on (q : OutPar) (hm : q.calMode = 1) (i : Nat) (ok : Bool) : ∀ o ∈ outputDataOps q i ok, OpOn (fun h => h ∈ (sampleTags q).map (·.1)) o := by
  have m : ∀ h t, (h, t) ∈ sampleTags q → h ∈ (sampleTags q).map (·.1) := fun h t w => List.mem_map.mpr ⟨_, w, rfl⟩
  have m1 : OutH.out ∈ (sampleTags q).map (·.1) := m .out "_out_" (by simp [sampleTags])
  have m2 : OutH.var ∈ (sampleTags q).map (·.1) := m .var (if q.binary then "_varbin_" else "_var_") (by simp [sampleTags])
  unfold outputDataOps
  rw [if_pos hm]
  refine on_append (on_append (by simpa [OpOn] using m1) ?_) (on_append (on_append (on_append ?_ ?_) ?_) ?_)
  · split_ifs <;> simpa [OpOn] using m2
  · split_ifs with w
    · exact lines_on (m .cis "_cisajs_" (by simp [sampleTags, w]))
    · exact on_nil
  · split_ifs with w
    · exact lines_on (m .ckt "_cisajscktaltex_" (by simp [sampleTags, w]))
    · exact on_nil
  · split_ifs with w
    · exact lines_on (m .cktDC "_cisajscktalt_" (by simp [sampleTags, w]))
    · exact on_nil
  · split_ifs with w
    · unfold physCalLanczosOut
      split_ifs with w2 w3 w4
      · exact on_nil
      · refine on_append (on_append ?_ (lines_on (m .lsQQQQ "_ls_qqqq_" (by simp [sampleTags, w])))) (on_append (on_append (on_append (on_append
          (lines_on (m .lsQCis "_ls_qcisajsq_" (by simp [sampleTags, w3, w4]))) (lines_on (m .lsCis "_ls_cisajs_" (by simp [sampleTags, w3]))))
          (lines_on (m .lsQCkt "_ls_qcisajscktaltq_" (by simp [sampleTags, w3, w4])))) (lines_on (m .lsCktDC "_ls_cisajscktalt_" (by simp [sampleTags, w3]))))
          (lines_on (m .lsCkt "_ls_cisajscktaltex_" (by simp [sampleTags, w3]))))
        have := m .ls "_ls_out_" (by simp [sampleTags, w])
        simpa [OpOn] using this
      · refine on_append (on_append ?_ (lines_on (m .lsQQQQ "_ls_qqqq_" (by simp [sampleTags, w])))) (on_append (on_append (on_append (on_append
          on_nil (lines_on (m .lsCis "_ls_cisajs_" (by simp [sampleTags, w3]))))
          on_nil) (lines_on (m .lsCktDC "_ls_cisajscktalt_" (by simp [sampleTags, w3]))))
          (lines_on (m .lsCkt "_ls_cisajscktaltex_" (by simp [sampleTags, w3]))))
        have := m .ls "_ls_out_" (by simp [sampleTags, w])
        simpa [OpOn] using this
      · refine on_append (on_append ?_ (lines_on (m .lsQQQQ "_ls_qqqq_" (by simp [sampleTags, w])))) on_nil
        have := m .ls "_ls_out_" (by simp [sampleTags, w])
        simpa [OpOn] using this
    · exact on_nil

/-- what `outputData` writes to a file of the sample -/
theorem data_recs (q : OutPar) (hm : q.calMode = 1) (i : Nat) (ok : Bool) : ∀ e ∈ sampleTags q,
    (if e.1 = .var ∧ q.binary then [OutRec.binHead q.nPara 1] else []) ++ recsH e.1 (outputDataOps q i ok) = sampleFile q i (q.real || ok) e.1 := by
  have p2 : q.nLSHam * q.nLSHam = q.nLSHam ^ 2 := by ring
  have p4 : q.nLSHam ^ 2 * q.nLSHam * q.nLSHam = q.nLSHam ^ 4 := by ring
  have w : ∀ (h k : OutH) (x : OutRec), recsH h [.write k x] = if k = h then [x] else [] := by
    intro h k x
    by_cases e : k = h <;> simp [recsH, e]
  have w3 : ∀ (h k : OutH) (x y z : OutRec), recsH h [.write k x, .write k y, .write k z] = if k = h then [x, y, z] else [] := by
    intro h k x y z
    by_cases e : k = h <;> simp [recsH, e]
  have w0 : ∀ h, recsH h [] = [] := fun _ => rfl
  have hi : ∀ (c : Prop) [Decidable c] (h : OutH) (a b : List FileOp), recsH h (if c then a else b) = if c then recsH h a else recsH h b := by
    intro c _ h a b
    split_ifs <;> rfl
  intro e he
  have he : (e.1 = .out ∨ e.1 = .var) ∨ (0 < q.nCis ∧ e.1 = .cis) ∨ (0 < q.nCkt ∧ e.1 = .ckt) ∨ (0 < q.nDC ∧ e.1 = .cktDC) ∨
      (0 < q.lanczos ∧ (e.1 = .ls ∨ e.1 = .lsQQQQ)) ∨ (1 < q.lanczos ∧ q.debug = true ∧ (e.1 = .lsQCis ∨ e.1 = .lsQCkt)) ∨
      (1 < q.lanczos ∧ (e.1 = .lsCis ∨ e.1 = .lsCkt ∨ e.1 = .lsCktDC)) := by
    obtain ⟨h, t⟩ := e
    simp only [sampleTags, List.mem_append, List.mem_ite_nil_right, List.mem_cons, List.not_mem_nil, or_false, Prod.mk.injEq] at he
    simp only
    tauto
  generalize e.1 = h at he
  unfold outputDataOps physCalLanczosOut
  rw [if_pos hm]
  simp only [recsH_append, hi, w, w3, w0, recsH_lines, p2, p4]
  rcases he with (rfl | rfl) | ⟨h1, rfl⟩ | ⟨h1, rfl⟩ | ⟨h1, rfl⟩ | ⟨h1, rfl | rfl⟩ | ⟨h1, h2, rfl | rfl⟩ | ⟨h1, rfl | rfl | rfl⟩
  · simp [sampleFile]
  · cases hb : q.binary <;> simp [sampleFile, hb]
  · simp [sampleFile, h1]
  · simp [sampleFile, h1]
  · simp [sampleFile, h1]
  · cases q.real <;> cases ok <;> simp [sampleFile, h1]
  · cases q.real <;> cases ok <;> simp [sampleFile, h1]
  · cases q.real <;> cases ok <;> simp [sampleFile, h1, h2, (show 0 < q.lanczos by omega)]
  · cases q.real <;> cases ok <;> simp [sampleFile, h1, h2, (show 0 < q.lanczos by omega)]
  · cases q.real <;> cases ok <;> simp [sampleFile, h1, (show 0 < q.lanczos by omega)]
  · cases q.real <;> cases ok <;> simp [sampleFile, h1, (show 0 < q.lanczos by omega)]
  · cases q.real <;> cases ok <;> simp [sampleFile, h1, (show 0 < q.lanczos by omega)]

/-- the file of `FileTime` -/
def timeName (q : OutPar) : List Char := q.name "_time_" q.idxStart

/-- only `FileTime` is open -/
def onlyTime (q : OutPar) (h : OutH) : Option (List Char) := if h = .time then some (timeName q) else none

theorem onlyTime_some {q : OutPar} {h : OutH} {nm : List Char} (e : onlyTime q h = some nm) : h = .time ∧ nm = timeName q := by
  unfold onlyTime at e
  split_ifs at e with w
  rw [Option.some.injEq] at e
  exact ⟨w, e.symm⟩

theorem onlyTime_inj (q : OutPar) : HdInj (onlyTime q) := fun _ _ _ e1 e2 => by rw [(onlyTime_some e1).1, (onlyTime_some e2).1]

/-- The names of the files fit into their buffers: the longest tag has 20 characters. -/
def NamesFit (q : OutPar) (n : Nat) : Prop := ∀ i ≤ n, q.head.length + 24 + (fmt03 (i + q.idxStart)).length < fileNameMax

/-- C78: prefixes up to 228 characters and indices between -99 and 999 fit. -/
theorem C78_fit (q : OutPar) (n : Nat) (h : q.head.length ≤ 228) (h1 : -99 ≤ q.idxStart) (h2 : n + q.idxStart ≤ 999) : NamesFit q n := by
  intro i hi
  rw [fmt03_len ⟨by omega, by omega⟩]
  unfold fileNameMax
  omega

theorem flush_on (q : OutPar) (hf : 0 < q.flushInt) (step : Nat) (P : OutH → Prop) (hP : P .time) (h0 : q.calMode = 0 → P .srInfo ∧ P .out ∧ P .var) :
    ∀ o ∈ flushFile q step 0, OpOn P o := by
  unfold flushFile
  rw [if_neg (by simp), if_neg (by omega)]
  split_ifs with a b
  · obtain ⟨p1, p2, p3⟩ := h0 b
    simp [OpOn, hP, p1, p2, p3]
  · simp [OpOn, hP]
  · simp

theorem recsH_flush (q : OutPar) (hf : 0 < q.flushInt) (step : Nat) (h : OutH) : recsH h (flushFile q step 0) = [] := by
  unfold flushFile
  rw [if_neg (by simp), if_neg (by omega)]
  split_ifs <;> simp [recsH]

/-- one sample -/
theorem exec_sample (can : List Char → Bool) (q : OutPar) (hm : q.calMode = 1) (hf : 0 < q.flushInt) (eneOk : Nat → Bool) (n i : Nat) (hi : i ≤ n) (hfit : NamesFit q n)
    (hcan : ∀ e ∈ sampleTags q, can (q.name e.2 (i + q.idxStart)) = true) (s : FileSys) (hs : s.hd = onlyTime q) :
    ∃ s', execOps can (physCalSample q eneOk 0 i) s = some s' ∧ s'.leak = s.leak ∧ s'.clash = s.clash ∧ s'.hd = onlyTime q ∧
      (∀ e ∈ sampleTags q, s'.files (q.name e.2 (i + q.idxStart)) = some (sampleFile q i (q.real || eneOk i) e.1)) ∧
      s'.files (timeName q) = (s.files (timeName q)).map (· ++ [.time i]) ∧
      ∀ nm, nm ≠ timeName q → (∀ e ∈ sampleTags q, nm ≠ q.name e.2 (i + q.idxStart)) → s'.files nm = s.files nm := by
  have hst : ∀ o ∈ outputTime i ++ flushFile q 0 0, OpOn (fun h => h = .time) o :=
    on_append (by simp [outputTime, OpOn]) (flush_on q hf 0 _ rfl (fun w => by omega))
  have hst' : ∀ o ∈ outputTime i ++ flushFile q 0 0, StaticOp s.hd o := by
    intro o ho
    have := hst o ho
    have ht : (s.hd .time).isSome := by rw [hs]; rfl
    cases o with
    | write h x => have e : h = .time := this; subst e; exact ht
    | flush h => have e : h = .time := this; subst e; exact ht
    | «open» _ _ => exact this.elim
    | close _ => exact this.elim
    | ub => exact this.elim
  have hne : ∀ e ∈ sampleTags q, q.name e.2 (i + q.idxStart) ≠ timeName q := by
    intro e he w
    have t := tags_end _ (tags_all q e he).1
    exact t.2.2 (name_inj q t.1 time_end w).1
  have hnm : ((sampleE q i).map (·.2.1)).Nodup := by
    unfold sampleE
    rw [List.map_map]
    refine List.Nodup.map_on ?_ (List.Nodup.of_map _ (tags_nodup q).2)
    intro a ha b hb w
    have w : q.name a.2 (i + q.idxStart) = q.name b.2 (i + q.idxStart) := w
    have := (name_inj q (tags_end _ (tags_all q a ha).1).1 (tags_end _ (tags_all q b hb).1).1 w).1
    exact List.inj_on_of_nodup_map (tags_nodup q).2 ha hb this
  have hh1 : (sampleE q i).map (·.1) = (sampleTags q).map (·.1) := by unfold sampleE; rw [List.map_map]; rfl
  have hE : ∀ e ∈ sampleE q i, ∃ d ∈ sampleTags q, e = (d.1, q.name d.2 (i + q.idxStart), if d.1 = .var ∧ q.binary then [.binHead q.nPara 1] else []) := by
    intro e he
    obtain ⟨d, hd, rfl⟩ := List.mem_map.mp he
    exact ⟨d, hd, rfl⟩
  obtain ⟨s', h1, h2, h3, h4, h5, h6, h7⟩ := exec_session can (sampleE q i) (outputDataOps q i (eneOk i))
    { s with files := fun nm => (s.files nm).map (· ++ recsOf s.hd nm (outputTime i ++ flushFile q 0 0)) } (by rw [hs]; exact onlyTime_inj q)
    (by rw [hh1]; exact (tags_nodup q).1) hnm
    (by
      intro e he
      obtain ⟨d, hd, rfl⟩ := hE e he
      show s.hd d.1 = none
      rw [hs]
      unfold onlyTime
      rw [if_neg (tags_all q d hd).2.1])
    (by
      intro e he h w
      obtain ⟨d, hd, rfl⟩ := hE e he
      have w : s.hd h = some (q.name d.2 (i + q.idxStart)) := w
      rw [hs] at w
      exact hne d hd (onlyTime_some w).2)
    (by
      intro e he
      obtain ⟨d, hd, rfl⟩ := hE e he
      show (q.name d.2 (i + q.idxStart)).length < fileNameMax
      rw [name_len]
      have a := hfit i hi
      have b := (tags_end _ (tags_all q d hd).1).2.1
      omega)
    (by
      intro e he
      obtain ⟨d, hd, rfl⟩ := hE e he
      exact hcan d hd)
    (by
      intro o ho
      have := data_on q hm i (eneOk i) o ho
      cases o with
      | write h x => exact Or.inl (by rw [hh1]; exact this)
      | flush h => exact Or.inl (by rw [hh1]; exact this)
      | «open» _ _ => exact this.elim
      | close _ => exact this.elim
      | ub => exact this.elim)
  have hprog : physCalSample q eneOk 0 i = (outputTime i ++ flushFile q 0 0) ++ (openOps (sampleE q i) ++ (outputDataOps q i (eneOk i) ++ ((sampleE q i).map (·.1)).map .close)) := by
    unfold physCalSample
    rw [init_sample, close_sample, hh1]
    simp
  refine ⟨s', ?_, h2, h3, h4.trans hs, ?_, ?_, ?_⟩
  · rw [hprog, exec_append, exec_static can _ s hst', Option.bind_some]
    exact h1
  · intro e he
    have := h5 (e.1, q.name e.2 (i + q.idxStart), if e.1 = .var ∧ q.binary then [.binHead q.nPara 1] else []) (List.mem_map.mpr ⟨e, he, rfl⟩)
    rw [this]
    exact congrArg some (data_recs q hm i (eneOk i) e he)
  · rw [h6 .time (timeName q) (by show s.hd .time = _; rw [hs]; rfl)]
    have r1 : recsH .time (outputDataOps q i (eneOk i)) = [] := by
      refine List.filterMap_eq_nil_iff.mpr fun o ho => ?_
      have := data_on q hm i (eneOk i) o ho
      cases o with
      | write h x =>
        have : h ∈ (sampleTags q).map (·.1) := this
        obtain ⟨d, hd, rfl⟩ := List.mem_map.mp this
        simp [(tags_all q d hd).2.1]
      | flush _ => rfl
      | «open» _ _ => rfl
      | close _ => rfl
      | ub => rfl
    have r2 : recsOf s.hd (timeName q) (outputTime i ++ flushFile q 0 0) = [.time i] := by
      rw [recsOf_eq (h := .time) (by rw [hs]; rfl) (fun k hk => by rw [hs] at hk; exact (onlyTime_some hk).1), recsH_append, recsH_flush q hf]
      rfl
    simp [r1, r2, Function.comp_def]
  · intro nm hn1 hn2
    rw [h7 nm]
    · show (s.files nm).map _ = _
      rw [recsOf_none]
      · simp
      · intro k hk
        rw [hs] at hk
        exact hn1 (onlyTime_some hk).2
    · intro w
      obtain ⟨e, he, rfl⟩ := List.mem_map.mp w
      obtain ⟨d, hd, rfl⟩ := hE e he
      exact hn2 d hd rfl
    · intro k hk
      have hk : s.hd k = some nm := hk
      rw [hs] at hk
      exact hn1 (onlyTime_some hk).2

/-- the samples `0, …, m-1` -/
theorem exec_samples (can : List Char → Bool) (q : OutPar) (hm : q.calMode = 1) (hf : 0 < q.flushInt) (eneOk : Nat → Bool) (n : Nat) (hfit : NamesFit q n)
    (hcan : ∀ i ≤ n, ∀ e ∈ sampleTags q, can (q.name e.2 (i + q.idxStart)) = true) (s : FileSys) (hs : s.hd = onlyTime q) (m : Nat) (hmn : m ≤ n) :
    ∃ s', execOps can ((List.range m).flatMap (physCalSample q eneOk 0)) s = some s' ∧ s'.leak = s.leak ∧ s'.clash = s.clash ∧ s'.hd = onlyTime q ∧
      (∀ i < m, ∀ e ∈ sampleTags q, s'.files (q.name e.2 (i + q.idxStart)) = some (sampleFile q i (q.real || eneOk i) e.1)) ∧
      s'.files (timeName q) = (s.files (timeName q)).map (· ++ (List.range m).map .time) ∧
      ∀ nm, nm ≠ timeName q → (∀ i < m, ∀ e ∈ sampleTags q, nm ≠ q.name e.2 (i + q.idxStart)) → s'.files nm = s.files nm := by
  induction m with
  | zero => exact ⟨s, rfl, rfl, rfl, hs, by simp, by simp, fun _ _ _ => rfl⟩
  | succ m ih =>
    obtain ⟨t, t1, t2, t3, t4, t5, t6, t7⟩ := ih (by omega)
    obtain ⟨s', h1, h2, h3, h4, h5, h6, h7⟩ := exec_sample can q hm hf eneOk n m (by omega) hfit (hcan m (by omega)) t t4
    refine ⟨s', ?_, h2.trans t2, h3.trans t3, h4, ?_, ?_, ?_⟩
    · rw [List.range_succ, List.flatMap_append, exec_append, t1, Option.bind_some]
      simpa using h1
    · intro i hi e he
      rcases Nat.lt_succ_iff_lt_or_eq.mp hi with hi | rfl
      · rw [h7, t5 i hi e he]
        · intro w
          have t := tags_end _ (tags_all q e he).1
          exact t.2.2 (name_inj q t.1 time_end w).1
        · intro d hd w
          have := (name_inj q (tags_end _ (tags_all q e he).1).1 (tags_end _ (tags_all q d hd).1).1 w).2
          omega
      · exact h5 e he
    · rw [h6, t6, List.range_succ]
      simp [Function.comp_def]
    · intro nm hn1 hn2
      rw [h7 nm hn1 (fun e he => hn2 m (by omega) e he), t7 nm hn1 (fun i hi => hn2 i (by omega))]

/-- the file with the timings -/
def timerName (q : OutPar) : List Char := q.plainName "_CalcTimer"

theorem timer_ne (q : OutPar) {t : String} (ht : TagEnd t) (i : Int) : q.name t i ≠ timerName q :=
  plain_ne q ht (c := 'C') (r := "alcTimer".toList) (by decide) (by decide) (Or.inr rfl)

/-- `OutputTimerParaOpt`, `OutputTimerPhysCal` -/
theorem exec_timer (can : List Char → Bool) (q : OutPar) (hl : q.head.length + 14 < fileNameMax) (hcan : can (timerName q) = true) (s : FileSys) (hinj : HdInj s.hd)
    (hc : s.hd .timer = none) (hf : ∀ h, s.hd h ≠ some (timerName q)) :
    ∃ s', execOps can (outputTimer q) s = some s' ∧ s'.leak = s.leak ∧ s'.clash = s.clash ∧ s'.hd = s.hd ∧ s'.files (timerName q) = some [.timers] ∧
      ∀ nm, nm ≠ timerName q → s'.files nm = s.files nm := by
  obtain ⟨s', h1, h2, h3, h4, h5, h6, h7⟩ := exec_session can [(.timer, timerName q, [.timers])] [] s hinj (by simp) (by simp) (by simpa using hc) (by simpa using hf)
    (by
      simp only [List.mem_singleton, forall_eq]
      unfold timerName OutPar.plainName
      simp only [List.length_append]
      have a : "_CalcTimer".toList.length = 10 := by decide
      have b : ".dat".toList.length = 4 := by decide
      omega) (by simpa using hcan) (by simp)
  refine ⟨s', h1, h2, h3, h4, by simpa [recsH] using h5, ?_⟩
  intro nm hn
  by_cases w : ∃ k, s.hd k = some nm
  · obtain ⟨k, hk⟩ := w
    rw [h6 k nm hk]
    simp [recsH]
  · exact h7 nm (by simpa using hn) (fun k hk => w ⟨k, hk⟩)

/-- C78: a calculation of physical quantities writes, for each of its samples, the files of `sampleTags` with the contents of `sampleFile`, one line per
sample to the file of times and the file with the timings, and no other file; no handle is used unless it is open, and all files are closed at the end. -/
theorem C78_physcal_partial (can : List Char → Bool) (q : OutPar) (hm : q.calMode = 1) (hf : 0 < q.flushInt) (srOk eneOk : Nat → Bool) (hfit : NamesFit q q.nSmp)
    (hcan : ∀ nm, can nm = true) (files : List Char → Option (List OutRec)) :
    ∃ s, execOps can (mainOps q srOk eneOk 0) (startFiles files) = some s ∧ AllClosed s ∧
      (∀ i < q.nSmp, ∀ e ∈ sampleTags q, s.files (q.name e.2 (i + q.idxStart)) = some (sampleFile q i (q.real || eneOk i) e.1)) ∧
      s.files (timeName q) = some ((List.range (q.nSmp + 1)).map .time) ∧ s.files (timerName q) = some [.timers] ∧
      ∀ nm, nm ≠ timeName q → nm ≠ timerName q → (∀ i < q.nSmp, ∀ e ∈ sampleTags q, nm ≠ q.name e.2 (i + q.idxStart)) → s.files nm = files nm := by
  have hfit0 : q.head.length + 24 + (fmt03 q.idxStart).length < fileNameMax := by have := hfit 0 (by omega); simpa using this
  have hlen : ("_time_".toList).length = 6 := by decide
  obtain ⟨s1, a1, a2, a3, a4, a5, a6⟩ := exec_open can [(.time, timeName q, [])] (startFiles files) (by simp) (by simp) (by simp [startFiles]) (by simp [startFiles])
    (by simp only [List.mem_singleton, forall_eq]; unfold timeName; rw [name_len]; omega) (by simp [hcan])
  have hd1 : s1.hd = onlyTime q := by
    funext h
    unfold onlyTime
    split_ifs with w
    · subst w; exact (a4 _ (List.mem_singleton.mpr rfl)).1
    · rw [a5 h (by simpa using w)]; rfl
  obtain ⟨s2, b1, b2, b3, b4, b5, b6, b7⟩ := exec_samples can q hm hf eneOk q.nSmp hfit (fun _ _ _ _ => hcan _) s1 hd1 q.nSmp le_rfl
  have hst : ∀ o ∈ outputTime q.nSmp, StaticOp s2.hd o := by
    intro o ho
    rw [List.mem_singleton.mp ho]
    show (s2.hd .time).isSome
    rw [b4]; rfl
  have c1 := exec_static can (outputTime q.nSmp) s2 hst
  obtain ⟨s4, d1, d2, d3, d4, d5, d6⟩ := exec_timer can q (by omega) (hcan _) { s2 with files := fun nm => (s2.files nm).map (· ++ recsOf s2.hd nm (outputTime q.nSmp)) }
    (by show HdInj s2.hd; rw [b4]; exact onlyTime_inj q) (by show s2.hd _ = none; rw [b4]; rfl)
    (fun h w => by
      have w : s2.hd h = some (timerName q) := w
      rw [b4] at w
      exact timer_ne q time_end _ (onlyTime_some w).2.symm)
  have e1 := exec_close can [.time] s4 (by simp) (by
    intro h hh
    rw [List.mem_singleton.mp hh, d4]
    show (s2.hd .time).isSome
    rw [b4]; rfl)
  have hprog : mainOps q srOk eneOk 0 = openOps [(.time, timeName q, [])] ++ ((List.range q.nSmp).flatMap (physCalSample q eneOk 0) ++ (outputTime q.nSmp ++
      (outputTimer q ++ [OutH.time].map .close))) := by
    unfold mainOps initFile vmcPhysCalOps closeFile openOps
    simp [hm, timeName]
  have rec1 : recsOf s2.hd (timeName q) (outputTime q.nSmp) = [.time q.nSmp] := by
    rw [recsOf_eq (h := .time) (by rw [b4]; rfl) (fun k hk => by rw [b4] at hk; exact (onlyTime_some hk).1)]
    rfl
  have rec2 : ∀ nm, nm ≠ timeName q → recsOf s2.hd nm (outputTime q.nSmp) = [] := by
    intro nm hn
    refine recsOf_none (fun k hk => ?_) _
    rw [b4] at hk
    exact hn (onlyTime_some hk).2
  refine ⟨{ s4 with hd := fun h => if h ∈ [OutH.time] then none else s4.hd h }, ?_, ⟨?_, ?_, ?_⟩, ?_, ?_, ?_, ?_⟩
  · rw [hprog, exec_append, a1, Option.bind_some, exec_append, b1, Option.bind_some, exec_append, c1, Option.bind_some, exec_append, d1, Option.bind_some, e1]
  · intro h
    show (if h ∈ [OutH.time] then none else s4.hd h) = none
    split_ifs with w
    · rfl
    · rw [d4]
      show s2.hd h = none
      rw [b4]
      unfold onlyTime
      rw [if_neg (by simpa using w)]
  · show s4.leak = false
    rw [d2]; exact b2.trans a2
  · show s4.clash = false
    rw [d3]; exact b3.trans a3
  · intro i hi e he
    have t := tags_end _ (tags_all q e he).1
    show s4.files _ = _
    rw [d6 _ (timer_ne q t.1 _)]
    show (s2.files _).map _ = _
    rw [rec2 _ (fun w => t.2.2 (name_inj q t.1 time_end w).1), b5 i hi e he]
    simp
  · show s4.files _ = _
    rw [d6 (timeName q) (timer_ne q time_end _)]
    show (s2.files _).map _ = _
    rw [rec1, b6, (a4 _ (List.mem_singleton.mpr rfl)).2, List.range_succ]
    simp
  · exact d5
  · intro nm h1 h2 h3
    show s4.files _ = _
    rw [d6 nm h2]
    show (s2.files nm).map _ = _
    rw [rec2 nm h1, b7 nm h1 h3, a6 nm (by simpa using h1)]
    simp [startFiles]

/-! ## Optimisation -/

/-- the steps done, as a list -/
def doneList (srOk : Nat → Bool) : Nat → Nat → List Nat
  | 0, _ => []
  | left + 1, step => step :: if srOk step then doneList srOk left (step + 1) else []

theorem doneList_eq (srOk : Nat → Bool) (n step : Nat) : doneList srOk n step = List.range' step (min n (((List.range' step n).takeWhile srOk).length + 1)) := by
  induction n generalizing step with
  | zero => simp [doneList]
  | succ n ih =>
    rw [doneList, List.range'_succ, List.takeWhile_cons]
    by_cases e : srOk step = true
    · rw [if_pos e, if_pos e, ih (step + 1), List.length_cons, Nat.add_min_add_right, List.range'_succ]
    · rw [if_neg e, if_neg e]
      simp

theorem doneList_zero (srOk : Nat → Bool) (n : Nat) : doneList srOk n 0 = List.range (stepsDone srOk n) := by
  rw [doneList_eq, stepsDone, List.range_eq_range', List.range_eq_range']

theorem paraOpt_ok (q : OutPar) (srOk : Nat → Bool) (n step : Nat) : (paraOptSteps q srOk 0 n step).2 = (List.range' step n).all srOk := by
  induction n generalizing step with
  | zero => rfl
  | succ n ih =>
    rw [paraOptSteps, List.range'_succ, List.all_cons]
    by_cases e : srOk step = true
    · rw [if_neg (by simp [e]), ih, e]; simp
    · rw [if_pos (by simpa using e)]
      simp [e]

/-- the handles that are open during an optimisation -/
def optHandles (h : OutH) : Prop := h = .time ∨ h = .srInfo ∨ h = .out ∨ h = .var

theorem data_opt (q : OutPar) (hm : q.calMode = 0) (step : Nat) (ok : Bool) :
    outputDataOps q step ok = [.write .out (.out step), .write .var (if q.binary then .bin step else .var step)] := by
  have h : ¬ q.calMode = 1 := by omega
  unfold outputDataOps
  cases q.binary <;> simp [h]

theorem paraOpt_on (q : OutPar) (hm : q.calMode = 0) (hf : 0 < q.flushInt) (srOk : Nat → Bool) (n step : Nat) : ∀ o ∈ (paraOptSteps q srOk 0 n step).1, OpOn optHandles o := by
  induction n generalizing step with
  | zero => exact on_nil
  | succ n ih =>
    have h1 : ∀ o ∈ outputTime step ++ outputDataOps q step true ++ [.write .srInfo (.sr step)], OpOn optHandles o := by
      rw [data_opt q hm]
      simp [outputTime, OpOn, optHandles]
    rw [paraOptSteps]
    simp only [if_true]
    split_ifs
    · exact h1
    · exact on_append (on_append h1 (flush_on q hf step _ (Or.inl rfl) (fun _ => ⟨by simp [optHandles], by simp [optHandles], by simp [optHandles]⟩))) (ih (step + 1))

theorem paraOpt_recs (q : OutPar) (hm : q.calMode = 0) (hf : 0 < q.flushInt) (srOk : Nat → Bool) (n step : Nat) :
    recsH .time (paraOptSteps q srOk 0 n step).1 = (doneList srOk n step).map .time ∧ recsH .srInfo (paraOptSteps q srOk 0 n step).1 = (doneList srOk n step).map .sr ∧
    recsH .out (paraOptSteps q srOk 0 n step).1 = (doneList srOk n step).map .out ∧
    recsH .var (paraOptSteps q srOk 0 n step).1 = (doneList srOk n step).map (if q.binary then .bin else .var) := by
  induction n generalizing step with
  | zero => exact ⟨rfl, rfl, rfl, rfl⟩
  | succ n ih =>
    obtain ⟨i1, i2, i3, i4⟩ := ih (step + 1)
    rw [paraOptSteps, doneList, data_opt q hm]
    simp only [if_true]
    by_cases e : srOk step = true
    · rw [if_neg (by simp [e])]
      simp only [recsH_append, recsH_flush q hf, i1, i2, i3, i4, e, if_true]
      cases q.binary <;> simp [recsH, outputTime]
    · rw [if_pos (by simpa using e)]
      simp only [recsH_append, e]
      cases q.binary <;> simp [recsH, outputTime]

/-- the files of an optimisation -/
def srName (q : OutPar) : List Char := q.plainName "_SRinfo"
def optVarTag (q : OutPar) : String := if q.binary then "_varbin_" else "_var_"
def optE (q : OutPar) : List (OutH × List Char × List OutRec) :=
  [(.time, timeName q, []), (.srInfo, srName q, [.srHead q.eigen]), (.out, q.name "_out_" q.idxStart, []),
    (.var, q.name (optVarTag q) q.idxStart, if q.binary then [.binHead q.nPara q.nStep] else [])]

theorem sr_ne (q : OutPar) {t : String} (ht : TagEnd t) (i : Int) : q.name t i ≠ srName q :=
  plain_ne q ht (c := 'S') (r := "Rinfo".toList) (by decide) (by decide) (Or.inl rfl)

theorem optVar_tag (q : OutPar) : optVarTag q ∈ allTags ∧ optVarTag q ≠ "_out_" := by
  unfold optVarTag
  cases q.binary <;> exact ⟨by decide, by decide⟩

theorem optE_nodup (q : OutPar) : ((optE q).map (·.2.1)).Nodup := by
  have tv := tags_end _ (optVar_tag q).1
  have to' := tags_end "_out_" (by decide)
  have n1 : timeName q ≠ srName q := sr_ne q time_end _
  have n2 : timeName q ≠ q.name "_out_" q.idxStart := fun w => to'.2.2 (name_inj q time_end to'.1 w).1.symm
  have n3 : timeName q ≠ q.name (optVarTag q) q.idxStart := fun w => tv.2.2 (name_inj q time_end tv.1 w).1.symm
  have n4 : srName q ≠ q.name "_out_" q.idxStart := fun w => sr_ne q to'.1 _ w.symm
  have n5 : srName q ≠ q.name (optVarTag q) q.idxStart := fun w => sr_ne q tv.1 _ w.symm
  have n6 : q.name "_out_" q.idxStart ≠ q.name (optVarTag q) q.idxStart := fun w => (optVar_tag q).2 (name_inj q to'.1 tv.1 w).1.symm
  simp [optE, n1, n2, n3, n4, n5, n6]

theorem timer_sr (q : OutPar) : timerName q ≠ srName q := by
  intro w
  unfold timerName srName OutPar.plainName at w
  exact absurd (List.append_cancel_left w) (by decide)

/-- C78: an optimisation writes one line per step done (up to and including a step whose optimisation fails) to `zvo_out`, `zvo_var` and `zvo_SRinfo`, after
the headers of the latter two, and one more line to the file of times unless a step failed; no other file is touched; no handle is used unless it is open,
and all files are closed at the end. -/
theorem C78_paraopt_partial (can : List Char → Bool) (q : OutPar) (hm : q.calMode = 0) (hf : 0 < q.flushInt) (srOk eneOk : Nat → Bool) (hfit : NamesFit q 0)
    (hcan : ∀ nm, can nm = true) (files : List Char → Option (List OutRec)) :
    ∃ s, execOps can (mainOps q srOk eneOk 0) (startFiles files) = some s ∧ AllClosed s ∧
      s.files (q.name "_out_" q.idxStart) = some ((List.range (stepsDone srOk q.nStep)).map .out) ∧
      s.files (q.name (if q.binary then "_varbin_" else "_var_") q.idxStart) =
        some (if q.binary then .binHead q.nPara q.nStep :: (List.range (stepsDone srOk q.nStep)).map .bin else (List.range (stepsDone srOk q.nStep)).map .var) ∧
      s.files (srName q) = some (.srHead q.eigen :: (List.range (stepsDone srOk q.nStep)).map .sr) ∧
      s.files (timeName q) = some ((List.range (stepsDone srOk q.nStep)).map .time ++ if (∀ i < q.nStep, srOk i = true) then [.time q.nStep] else []) ∧
      s.files (timerName q) = some [.timers] ∧
      ∀ nm, nm ∉ [q.name "_out_" q.idxStart, q.name (if q.binary then "_varbin_" else "_var_") q.idxStart, srName q, timeName q, timerName q] → s.files nm = files nm := by
  have hfit0 : q.head.length + 24 + (fmt03 q.idxStart).length < fileNameMax := by have := hfit 0 (by omega); simpa using this
  have hlen : ("_time_".toList).length = 6 := by decide
  have hlen2 : ("_SRinfo".toList).length = 7 := by decide
  have hlen3 : (".dat".toList).length = 4 := by decide
  have hlen4 : ("_out_".toList).length = 5 := by decide
  have tv := tags_end _ (optVar_tag q).1
  have to' := tags_end "_out_" (by decide)
  have hnd := optE_nodup q
  obtain ⟨s1, a1, a2, a3, a4, a5, a6⟩ := exec_open can (optE q) (startFiles files) (by simp [optE]) hnd (by simp [startFiles]) (by simp [startFiles])
    (by
      simp only [optE, List.mem_cons, List.not_mem_nil, or_false, forall_eq_or_imp, forall_eq]
      refine ⟨?_, ?_, ?_, ?_⟩
      · unfold timeName; rw [name_len]; omega
      · unfold srName OutPar.plainName; simp only [List.length_append]; omega
      · rw [name_len]; omega
      · rw [name_len]; have := tv.2.1; omega) (by simp [hcan])
  have o1 := (a4 (.time, timeName q, []) (by simp [optE]))
  have o2 := (a4 (.srInfo, srName q, [.srHead q.eigen]) (by simp [optE]))
  have o3 := (a4 (.out, q.name "_out_" q.idxStart, []) (by simp [optE]))
  have o4 := (a4 (.var, q.name (optVarTag q) q.idxStart, if q.binary then [.binHead q.nPara q.nStep] else []) (by simp [optE]))
  simp only at o1 o2 o3 o4
  have hel : ∀ h, ¬ optHandles h → s1.hd h = none := by
    intro h w
    rw [a5 h]
    · rfl
    · simpa [optE, optHandles] using w
  have hinj : HdInj s1.hd := by
    have key : ∀ h nm, s1.hd h = some nm → (h, nm) ∈ (optE q).map (fun e => (e.1, e.2.1)) := by
      intro h nm w
      by_cases c : optHandles h
      · rcases c with rfl | rfl | rfl | rfl
        · rw [o1.1, Option.some.injEq] at w; subst w; simp [optE]
        · rw [o2.1, Option.some.injEq] at w; subst w; simp [optE]
        · rw [o3.1, Option.some.injEq] at w; subst w; simp [optE]
        · rw [o4.1, Option.some.injEq] at w; subst w; simp [optE]
      · rw [hel h c] at w; exact absurd w (by simp)
    intro h k nm w1 w2
    obtain ⟨e, he, e1⟩ := List.mem_map.mp (key h nm w1)
    obtain ⟨d, hd, d1⟩ := List.mem_map.mp (key k nm w2)
    rw [Prod.mk.injEq] at e1 d1
    have : e = d := List.inj_on_of_nodup_map hnd he hd (e1.2.trans d1.2.symm)
    rw [← e1.1, ← d1.1, this]
  have hop : ∀ h, optHandles h → (s1.hd h).isSome := by
    rintro h (rfl | rfl | rfl | rfl)
    · rw [o1.1]; rfl
    · rw [o2.1]; rfl
    · rw [o3.1]; rfl
    · rw [o4.1]; rfl
  -- the steps
  set ops := vmcParaOptOps q srOk 0 with hops
  have hon : ∀ o ∈ ops, OpOn optHandles o := by
    rw [hops]
    unfold vmcParaOptOps
    refine on_append (paraOpt_on q hm hf srOk _ _) ?_
    split_ifs
    · simp [outputTime, OpOn, optHandles]
    · exact on_nil
  have hst : ∀ o ∈ ops, StaticOp s1.hd o := by
    intro o ho
    have := hon o ho
    cases o with
    | write h x => exact hop h this
    | flush h => exact hop h this
    | «open» _ _ => exact this.elim
    | close _ => exact this.elim
    | ub => exact this.elim
  have c1 := exec_static can ops s1 hst
  have hrec : ∀ h nm, s1.hd h = some nm → recsOf s1.hd nm ops = recsH h ops := fun h nm w => recsOf_eq w (fun k hk => hinj k h nm hk w) ops
  obtain ⟨p1, p2, p3, p4⟩ := paraOpt_recs q hm hf srOk q.nStep 0
  rw [doneList_zero] at p1 p2 p3 p4
  have hall : ((paraOptSteps q srOk 0 q.nStep 0).2 = true ∧ (0 : Nat) = 0) ↔ ∀ i < q.nStep, srOk i = true := by
    rw [paraOpt_ok, ← List.range_eq_range', List.all_eq_true]
    simp
  have hadd : ∀ h, recsH h ops = recsH h (paraOptSteps q srOk 0 q.nStep 0).1 ++ if (h = .time ∧ ∀ i < q.nStep, srOk i = true) then [.time q.nStep] else [] := by
    intro h
    rw [hops]
    unfold vmcParaOptOps
    rw [recsH_append]
    congr 1
    by_cases w : ∀ i < q.nStep, srOk i = true
    · rw [if_pos (hall.mpr w)]
      by_cases w2 : h = .time
      · subst w2
        rw [if_pos ⟨rfl, w⟩]
        rfl
      · rw [if_neg (fun e => w2 e.1)]
        have w2 : ¬ OutH.time = h := fun e => w2 e.symm
        simp [recsH, outputTime, w2]
    · rw [if_neg (fun e => w (hall.mp e)), if_neg (fun e => w e.2)]
      rfl
  -- the timings
  have hnt : ∀ h, s1.hd h ≠ some (timerName q) := by
    intro h w
    by_cases c : optHandles h
    · rcases c with rfl | rfl | rfl | rfl
      · rw [o1.1, Option.some.injEq] at w; exact timer_ne q time_end _ w
      · rw [o2.1, Option.some.injEq] at w; exact timer_sr q w.symm
      · rw [o3.1, Option.some.injEq] at w; exact timer_ne q to'.1 _ w
      · rw [o4.1, Option.some.injEq] at w; exact timer_ne q tv.1 _ w
    · rw [hel h c] at w; exact absurd w (by simp)
  obtain ⟨s4, d1, d2, d3, d4, d5, d6⟩ := exec_timer can q (by omega) (hcan _) { s1 with files := fun nm => (s1.files nm).map (· ++ recsOf s1.hd nm ops) } hinj
    (hel .timer (by simp [optHandles])) hnt
  have e1 := exec_close can [.time, .srInfo, .out, .var] s4 (by simp) (by
    intro h hh
    rw [d4]
    refine hop h ?_
    simpa [optHandles] using hh)
  have hprog : mainOps q srOk eneOk 0 = openOps (optE q) ++ (ops ++ (outputTimer q ++ [OutH.time, .srInfo, .out, .var].map .close)) := by
    rw [hops]
    unfold mainOps initFile closeFile openOps optE optVarTag timeName srName
    cases q.binary <;> simp [hm]
  have hfile : ∀ h nm rs, s1.hd h = some nm → s1.files nm = some rs → s4.files nm = some (rs ++ recsH h ops) := by
    intro h nm rs w1 w2
    rw [d6 nm (fun e => hnt h (by rw [w1, e]))]
    show (s1.files nm).map _ = _
    rw [hrec h nm w1, w2]
    rfl
  refine ⟨{ s4 with hd := fun h => if h ∈ [OutH.time, .srInfo, .out, .var] then none else s4.hd h }, ?_, ⟨?_, ?_, ?_⟩, ?_, ?_, ?_, ?_, ?_, ?_⟩
  · rw [hprog, exec_append, a1, Option.bind_some, exec_append, c1, Option.bind_some, exec_append, d1, Option.bind_some, e1]
  · intro h
    show (if h ∈ [OutH.time, .srInfo, .out, .var] then none else s4.hd h) = none
    split_ifs with w
    · rfl
    · rw [d4]
      exact hel h (by simpa [optHandles] using w)
  · show s4.leak = false
    rw [d2]; exact a2
  · show s4.clash = false
    rw [d3]; exact a3
  · show s4.files _ = _
    rw [hfile .out _ _ o3.1 o3.2, hadd, p3]
    simp
  · show s4.files (q.name (optVarTag q) q.idxStart) = _
    rw [hfile .var _ _ o4.1 o4.2, hadd, p4]
    cases q.binary <;> simp
  · show s4.files _ = _
    rw [hfile .srInfo _ _ o2.1 o2.2, hadd, p2]
    simp
  · show s4.files _ = _
    rw [hfile .time _ _ o1.1 o1.2, hadd, p1]
    simp
  · exact d5
  · intro nm hn
    simp only [List.mem_cons, List.not_mem_nil, or_false, not_or] at hn
    obtain ⟨q1, q2, q3, q4, q5⟩ := hn
    have q2 : nm ≠ q.name (optVarTag q) q.idxStart := q2
    show s4.files nm = _
    rw [d6 nm q5]
    show (s1.files nm).map _ = _
    rw [recsOf_none, a6 nm (by simp [optE, q1, q2, q3, q4])]
    · simp [startFiles]
    · intro k hk
      by_cases c : optHandles k
      · rcases c with rfl | rfl | rfl | rfl
        · rw [o1.1, Option.some.injEq] at hk; exact q4 hk.symm
        · rw [o2.1, Option.some.injEq] at hk; exact q3 hk.symm
        · rw [o3.1, Option.some.injEq] at hk; exact q1 hk.symm
        · rw [o4.1, Option.some.injEq] at hk; exact q2 hk.symm
      · rw [hel k c] at hk; exact absurd hk (by simp)

/-! ## Other processes, other modes, missing directories, long names -/

/-- C78: the other processes write nothing. -/
theorem C78_rank (q : OutPar) (srOk eneOk : Nat → Bool) (rank : Nat) (hr : rank ≠ 0) : mainOps q srOk eneOk rank = [] := by
  have hp : ∀ n step, (paraOptSteps q srOk rank n step).1 = [] := by
    intro n
    induction n with
    | zero => intro _; rfl
    | succ n ih =>
      intro step
      rw [paraOptSteps]
      simp only [hr, flushFile, ih, if_false]
      split_ifs <;> simp
  unfold mainOps vmcParaOptOps vmcPhysCalOps
  simp [hr, hp, physCalSample, flushFile, initFilePhysCal, closeFilePhysCal]

/-- C78: in other modes the file of times is created and closed. -/
theorem C78_other_partial (can : List Char → Bool) (q : OutPar) (hm : q.calMode ≠ 0 ∧ q.calMode ≠ 1) (srOk eneOk : Nat → Bool) (hfit : NamesFit q 0)
    (hcan : ∀ nm, can nm = true) (files : List Char → Option (List OutRec)) :
    ∃ s, execOps can (mainOps q srOk eneOk 0) (startFiles files) = some s ∧ AllClosed s ∧ s.files (timeName q) = some [] ∧
      ∀ nm, nm ≠ timeName q → s.files nm = files nm := by
  have hfit0 : q.head.length + 24 + (fmt03 q.idxStart).length < fileNameMax := by have := hfit 0 (by omega); simpa using this
  have hlen : ("_time_".toList).length = 6 := by decide
  obtain ⟨s1, a1, a2, a3, a4, a5, a6⟩ := exec_open can [(.time, timeName q, [])] (startFiles files) (by simp) (by simp) (by simp [startFiles])
    (by simp [startFiles]) (by
      intro e he
      rw [List.mem_singleton.mp he]
      show (timeName q).length < _
      unfold timeName; rw [name_len]; omega) (by simp [hcan])
  have o1 := (a4 _ (List.mem_singleton.mpr rfl))
  simp only at o1
  have e1 := exec_close can [.time] s1 (by simp) (by simp [o1.1])
  have hprog : mainOps q srOk eneOk 0 = openOps [(.time, timeName q, [])] ++ [OutH.time].map .close := by
    unfold mainOps initFile closeFile openOps timeName
    simp [hm.1, hm.2]
  refine ⟨{ s1 with hd := fun h => if h ∈ [OutH.time] then none else s1.hd h }, by rw [hprog, exec_append, a1, Option.bind_some, e1], ⟨?_, a2, a3⟩, o1.2, fun nm hn => a6 nm (by simpa using hn)⟩
  intro h
  show (if h ∈ [OutH.time] then none else s1.hd h) = none
  split_ifs with w
  · rfl
  · rw [a5 h (by simpa using w)]; rfl

/-- C78: violated when a file cannot be opened: the result of `fopen` is not looked at and the first line is printed to a null pointer. -/
theorem C78_fopen_violated (q : OutPar) (hm : q.calMode = 1) (srOk eneOk : Nat → Bool) (can : List Char → Bool) (hc : can (timeName q) = false)
    (files : List Char → Option (List OutRec)) : execOps can (mainOps q srOk eneOk 0) (startFiles files) = none := by
  have : ∃ r, mainOps q srOk eneOk 0 = .open .time (timeName q) :: .write .time (.time 0) :: r := by
    unfold mainOps initFile vmcPhysCalOps
    cases hn : q.nSmp with
    | zero => exact ⟨_, by simp [hm, timeName, outputTime]; rfl⟩
    | succ n => exact ⟨_, by simp [hm, timeName, List.range_succ_eq_map, physCalSample, outputTime]; rfl⟩
  obtain ⟨r, hr⟩ := this
  rw [hr]
  simp only [execOps, execOp]
  by_cases w : (timeName q).length ≥ fileNameMax
  · rw [if_pos w]
  · rw [if_neg w, hc]
    simp

/-- C78: violated for long prefixes: line 6 of `modpara.def` with a prefix of 240 characters fits into the buffer of `fgets` and is accepted, but the name of
the first file does not fit into its buffer. -/
theorem C78_long_head_violated : ∃ h : List Char, ("CDataFileHead ".toList ++ h ++ ['\n']).length < fileNameMax ∧ ∃ hd, readDataFileHead h = some hd ∧
    ∀ (q : OutPar), q.head = hd → ∀ srOk eneOk can files, execOps can (mainOps q srOk eneOk 0) (startFiles files) = none := by
  have l1 : ("CDataFileHead ".toList).length = 14 := by decide
  have l2 : ("output/".toList).length = 7 := by decide
  refine ⟨List.replicate 240 'a', ?_, "output/".toList ++ List.replicate 240 'a', ?_, fun q hq srOk eneOk can files => ?_⟩
  · simp only [List.length_append, List.length_replicate, l1, fileNameMax]
    decide
  · unfold readDataFileHead
    rw [if_neg (by rw [l2, List.length_replicate, fileNameMax]; decide)]
  have : ∃ r, mainOps q srOk eneOk 0 = .open .time (timeName q) :: r := by
    unfold mainOps initFile
    exact ⟨_, by simp [timeName]; rfl⟩
  obtain ⟨r, hr⟩ := this
  rw [hr]
  simp only [execOps, execOp]
  rw [if_pos]
  have h1 := name_len q "_time_" q.idxStart
  have h2 : q.head.length = 247 := by rw [hq, List.length_append, List.length_replicate, l2]
  have h3 : ("_time_".toList).length = 6 := by decide
  unfold timeName fileNameMax
  omega

/-- C78: violated by the exit status: an optimisation that stops in its first step, without writing the optimised parameters, ends with status 0. -/
theorem C78_exit_violated : ∃ (info : Nat → Int) (n : Nat), vmcParaOptRet info n 0 ≠ 0 ∧ stepsDone (fun i => info i = 0) n < n ∧ mainInfo (vmcParaOptRet info n 0) 0 0 = 0 :=
  ⟨fun _ => 1, 2, by decide, by decide, by decide⟩

/-! ## Examples -/

/-- two samples, one-body functions, Lanczos step with Green functions -/
def exOut : OutPar := ⟨"output/zvo".toList, 1, 1, false, false, 3, 10, 2, 1, 2, 0, 0, 2, 2, false, false⟩

example : sampleTags exOut = [(.out, "_out_"), (.var, "_var_"), (.cis, "_cisajs_"), (.ls, "_ls_out_"), (.lsQQQQ, "_ls_qqqq_"), (.lsCis, "_ls_cisajs_"),
    (.lsCkt, "_ls_cisajscktaltex_"), (.lsCktDC, "_ls_cisajscktalt_")] := by decide

example : exOut.name "_cisajs_" (0 + exOut.idxStart) = "output/zvo_cisajs_001.dat".toList ∧ fmt03 1000 = "1000".toList ∧ fmt03 (-7) = "-07".toList := by decide

example : ∃ s, execOps (fun _ => true) (mainOps exOut (fun _ => true) (fun _ => true) 0) (startFiles fun _ => none) = some s ∧
    s.files (exOut.name "_cisajs_" 1) = some [.cis 0 0, .cis 0 1, .newline] ∧ s.files (exOut.name "_cisajs_" 2) = some [.cis 1 0, .cis 1 1, .newline] := by
  obtain ⟨s, h1, -, h2, -⟩ := C78_physcal_partial (fun _ => true) exOut rfl (by decide) (fun _ => true) (fun _ => true) (C78_fit _ _ (by decide) (by decide) (by decide))
    (fun _ => rfl) (fun _ => none)
  exact ⟨s, h1, h2 0 (by decide) (.cis, "_cisajs_") (by decide), h2 1 (by decide) (.cis, "_cisajs_") (by decide)⟩

/-- an optimisation that fails in step 2 of 10 -/
example : ∃ s, execOps (fun _ => true) (mainOps { exOut with calMode := 0 } (fun i => i ≠ 2) (fun _ => true) 0) (startFiles fun _ => none) = some s ∧
    s.files (exOut.name "_out_" 1) = some [.out 0, .out 1, .out 2] ∧ s.files (timeName exOut) = some [.time 0, .time 1, .time 2] := by
  obtain ⟨s, h1, -, h2, -, -, h5, -⟩ := C78_paraopt_partial (fun _ => true) { exOut with calMode := 0 } rfl (by decide) (fun i => i ≠ 2) (fun _ => true)
    (C78_fit _ _ (by decide) (by decide) (by decide)) (fun _ => rfl) (fun _ => none)
  refine ⟨s, h1, h2, ?_⟩
  rw [if_neg (fun w => absurd (w 2 (by decide)) (by decide))] at h5
  exact h5

end MVMC
