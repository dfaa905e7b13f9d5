import Verif.Model.MpiRun
import Verif.Proof.Ranks

/-! Executions of the whole program: independence of the schedule, phases. -/
namespace MVMC

section
variable {K α β γ : Type}

theorem WProg.bind_assoc (x : WProg K α) (f : α → WProg K β) (g : β → WProg K γ) :
    (x.bind f).bind g = x.bind (fun a => (f a).bind g) := by
  induction x with
  | ret a => rfl
  | stuck => rfl
  | abort => rfl
  | coll c o x k ih => simp only [WProg.bind]; congr 1; funext v; exact ih v

theorem waits_coll {c : Comm} {o : CollOp} {p : WProg K α} (h : p.waits c o) : ∃ x k, p = .coll c o x k := by
  cases p with
  | ret a => exact h.elim
  | stuck => exact h.elim
  | abort => exact h.elim
  | coll c' o' x k => obtain ⟨rfl, rfl⟩ := h; exact ⟨x, k, rfl⟩

theorem waits_unique {c c' : Comm} {o o' : CollOp} {p : WProg K α} (h : p.waits c o) (h' : p.waits c' o') : c = c' ∧ o = o' := by
  obtain ⟨x, k, rfl⟩ := waits_coll h
  exact ⟨h'.1, h'.2⟩

variable [AddCommMonoid K] {N s : Nat}

omit [AddCommMonoid K] in
/-- two operations that can take place are the same one or concern different processes -/
theorem enabled_disjoint {ps : Fin N → WProg K α} {c c' g g' o o'} (h : Enabled s c g o ps) (h' : Enabled s c' g' o' ps) :
    (c = c' ∧ g = g' ∧ o = o') ∨ ∀ r : Fin N, colour s c r = g → colour s c' r ≠ g' := by
  by_cases hd : ∀ r : Fin N, colour s c r = g → colour s c' r ≠ g'
  · exact .inr hd
  · push Not at hd
    obtain ⟨r, hr, hr'⟩ := hd
    obtain ⟨rfl, rfl⟩ := waits_unique (h.2 r hr) (h'.2 r hr')
    exact .inl ⟨rfl, hr.symm.trans hr', rfl⟩

theorem contributions_fire {ps : Fin N → WProg K α} {c c' g g' o}
    (hd : ∀ r : Fin N, colour s c r = g → colour s c' r ≠ g') :
    contributions s c' g' (fire s c g o ps) = contributions s c' g' ps := by
  funext r
  unfold contributions
  split
  · next h =>
    unfold fire
    rw [if_neg (fun e => hd r e h)]
  · rfl

theorem enabled_fire {ps : Fin N → WProg K α} {c c' g g' o o'} (h' : Enabled s c' g' o' ps)
    (hd : ∀ r : Fin N, colour s c r = g → colour s c' r ≠ g') : Enabled s c' g' o' (fire s c g o ps) := by
  refine ⟨h'.1, fun r hr => ?_⟩
  unfold fire
  rw [if_neg (fun e => hd r e hr)]
  exact h'.2 r hr

theorem fire_comm {ps : Fin N → WProg K α} {c c' g g' o o'}
    (hd : ∀ r : Fin N, colour s c r = g → colour s c' r ≠ g') :
    fire s c' g' o' (fire s c g o ps) = fire s c g o (fire s c' g' o' ps) := by
  have hd' : ∀ r : Fin N, colour s c' r = g' → colour s c r ≠ g := fun r h e => hd r e h
  funext r
  have e1 : fire s c' g' o' (fire s c g o ps) r = if colour s c' r = g' then
      (fire s c g o ps r).resume (collect0 o' (contributions s c' g' (fire s c g o ps))) else fire s c g o ps r := rfl
  have e2 : fire s c g o (fire s c' g' o' ps) r = if colour s c r = g then
      (fire s c' g' o' ps r).resume (collect0 o (contributions s c g (fire s c' g' o' ps))) else fire s c' g' o' ps r := rfl
  rw [e1, e2, contributions_fire hd, contributions_fire hd']
  unfold fire
  by_cases h : colour s c r = g
  · rw [if_neg (hd r h), if_pos h, if_pos h, if_neg (hd r h)]
  · by_cases h' : colour s c' r = g'
    · rw [if_pos h', if_neg h, if_neg h, if_pos h']
    · rw [if_neg h', if_neg h, if_neg h, if_neg h']

theorem step_diamond {ps qs us : Fin N → WProg K α} (h : WStep s ps qs) (h' : WStep s ps us) :
    qs = us ∨ ∃ vs, WStep s qs vs ∧ WStep s us vs := by
  obtain ⟨c, g, o, he, rfl⟩ := h
  obtain ⟨c', g', o', he', rfl⟩ := h'
  rcases enabled_disjoint he he' with ⟨rfl, rfl, rfl⟩ | hd
  · exact .inl rfl
  · have hd' : ∀ r : Fin N, colour s c' r = g' → colour s c r ≠ g := fun r h e => hd r e h
    exact .inr ⟨_, ⟨c', g', o', enabled_fire he' hd, rfl⟩, ⟨c, g, o, enabled_fire he hd', fire_comm hd⟩⟩

/-- a step and a run from the same state can be completed -/
theorem run_strip : ∀ {n : Nat} {ps qs us : Fin N → WProg K α}, WRun s n ps qs → WStep s ps us →
    (∃ k, n = k + 1 ∧ WRun s k us qs) ∨ ∃ vs, WStep s qs vs ∧ WRun s n us vs
  | 0, _, _, _, .nil _, hu => .inr ⟨_, hu, .nil _⟩
  | n + 1, ps, qs, us, .cons h1 h2, hu => by
    rcases step_diamond h1 hu with rfl | ⟨vs, hv, hv'⟩
    · exact .inl ⟨n, rfl, h2⟩
    · rcases run_strip h2 hv with ⟨k, rfl, hk⟩ | ⟨ws, hw, hk⟩
      · exact .inl ⟨k + 1, rfl, .cons hv' hk⟩
      · exact .inr ⟨ws, hw, .cons hv' hk⟩

/-- If one execution ends in a state without continuation, every execution can be continued to that state, and needs the same number of steps. -/
theorem run_final {T : Fin N → WProg K α} (hT : ∀ us, ¬ WStep s T us) :
    ∀ {n m : Nat} {ps qs : Fin N → WProg K α}, WRun s n ps T → WRun s m ps qs → ∃ k, n = m + k ∧ WRun s k qs T
  | n, 0, _, _, h, .nil _ => ⟨n, (Nat.zero_add n).symm, h⟩
  | n, m + 1, ps, qs, h, .cons h1 h2 => by
    rcases run_strip h h1 with ⟨k, rfl, hk⟩ | ⟨vs, hv, _⟩
    · obtain ⟨j, rfl, hj⟩ := run_final hT hk h2
      exact ⟨j, by omega, hj⟩
    · exact (hT vs hv).elim

/-- from a common start, a final state is reached from every state -/
theorem run_join {ps T X : Fin N → WProg K α} (hT : ∀ us, ¬ WStep s T us) {n m : Nat} (h : WRun s n ps T) (h' : WRun s m ps X) :
    ∃ k, WRun s k X T := by
  obtain ⟨k, _, hk⟩ := run_final hT h h'
  exact ⟨k, hk⟩

theorem WRun.trans {qs us : Fin N → WProg K α} : ∀ {n m : Nat} {ps : Fin N → WProg K α}, WRun s n ps qs → WRun s m qs us → WRun s (n + m) ps us
  | 0, m, _, .nil _, h => by rw [Nat.zero_add]; exact h
  | n + 1, m, _, .cons h1 h2, h => by
    rw [show n + 1 + m = (n + m) + 1 by omega]
    exact .cons h1 (WRun.trans h2 h)

/-- a process that has stopped stays stopped -/
def Stopped (p : WProg K α) : Prop := p = .stuck ∨ p = .abort

omit [AddCommMonoid K] in
theorem Stopped.bind {p : WProg K α} (h : Stopped p) (f : α → WProg K β) : Stopped (p.bind f) := by
  rcases h with rfl | rfl
  · exact .inl rfl
  · exact .inr rfl

theorem stopped_step {ps qs : Fin N → WProg K α} {r : Fin N} (h : WStep s ps qs) (hr : Stopped (ps r)) : Stopped (qs r) := by
  obtain ⟨c, g, o, he, rfl⟩ := h
  unfold fire
  split
  · next hg =>
    obtain ⟨x, k, e⟩ := waits_coll (he.2 r hg)
    rw [e] at hr
    rcases hr with hr | hr <;> cases hr
  · exact hr

theorem stopped_run {r : Fin N} : ∀ {n : Nat} {ps qs : Fin N → WProg K α}, WRun s n ps qs → Stopped (ps r) → Stopped (qs r)
  | 0, _, _, .nil _, h => h
  | _ + 1, _, _, .cons h1 h2, h => stopped_run h2 (stopped_step h1 h)

/-- some number of steps -/
def Reach (s : Nat) (ps qs : Fin N → WProg K α) : Prop := ∃ n, WRun s n ps qs

theorem Reach.refl (ps : Fin N → WProg K α) : Reach s ps ps := ⟨0, .nil _⟩

theorem Reach.trans {ps qs us : Fin N → WProg K α} (h : Reach s ps qs) (h' : Reach s qs us) : Reach s ps us := by
  obtain ⟨n, h⟩ := h
  obtain ⟨m, h'⟩ := h'
  exact ⟨n + m, WRun.trans h h'⟩

theorem Reach.step {ps qs : Fin N → WProg K α} (h : WStep s ps qs) : Reach s ps qs := ⟨1, .cons h (.nil _)⟩

/-! ### one collective operation on all communicators of one kind -/

/-- the communicators with colour below `j` have done the operation -/
def collMid (s : Nat) (c : Comm) (o : CollOp) (x : Fin N → MVal K) (k : Fin N → MVal K → WProg K α) (j : Nat) : Fin N → WProg K α :=
  fun r => if colour s c r < j then k r (collect0 o (fun i : Fin N => if colour s c i = colour s c r then some (x i) else none))
    else .coll c o (x r) (k r)

theorem collMid_lt (c : Comm) (o : CollOp) (x : Fin N → MVal K) (k : Fin N → MVal K → WProg K α) (j : Nat) {r : Fin N}
    (h : colour s c r < j) : collMid s c o x k j r =
      k r (collect0 o (fun i : Fin N => if colour s c i = colour s c r then some (x i) else none)) := if_pos h

theorem collMid_ge (c : Comm) (o : CollOp) (x : Fin N → MVal K) (k : Fin N → MVal K → WProg K α) (j : Nat) {r : Fin N}
    (h : ¬ colour s c r < j) : collMid s c o x k j r = .coll c o (x r) (k r) := if_neg h

/-- all processes are in the same operation of their communicators of kind `c`; each communicator does it -/
theorem reach_coll (c : Comm) (o : CollOp) (x : Fin N → MVal K) (k : Fin N → MVal K → WProg K α) :
    Reach s (fun r => .coll c o (x r) (k r))
      (fun r => k r (collect0 o (fun i : Fin N => if colour s c i = colour s c r then some (x i) else none))) := by
  have hb : ∃ B, ∀ r : Fin N, colour s c r < B := by
    refine ⟨(Finset.univ.sup fun r : Fin N => colour s c r) + 1, fun r => ?_⟩
    exact Nat.lt_succ_of_le (Finset.le_sup (f := fun r : Fin N => colour s c r) (Finset.mem_univ r))
  obtain ⟨B, hB⟩ := hb
  have key : ∀ j, Reach s (fun r => (.coll c o (x r) (k r) : WProg K α)) (collMid s c o x k j) := by
    intro j
    induction j with
    | zero =>
      have : collMid s c o x k 0 = fun r => (.coll c o (x r) (k r) : WProg K α) := by
        funext r; exact if_neg (Nat.not_lt_zero _)
      rw [this]; exact Reach.refl _
    | succ j ih =>
      refine ih.trans ?_
      by_cases he : ∃ r : Fin N, colour s c r = j
      · refine Reach.step ⟨c, j, o, ⟨he, fun r hr => ?_⟩, ?_⟩
        · rw [collMid_ge _ _ _ _ _ (by omega)]; exact ⟨rfl, rfl⟩
        · have hc : contributions s c j (collMid s c o x k j) = fun i : Fin N => if colour s c i = j then some (x i) else none := by
            funext i
            unfold contributions
            by_cases hi : colour s c i = j
            · rw [if_pos hi, if_pos hi, collMid_ge _ _ _ _ _ (by omega)]; rfl
            · rw [if_neg hi, if_neg hi]
          funext r
          unfold fire
          rw [hc]
          by_cases hr : colour s c r = j
          · rw [if_pos hr, collMid_lt _ _ _ _ (j + 1) (by omega), collMid_ge _ _ _ _ j (by omega), hr]; rfl
          · rw [if_neg hr]
            by_cases h : colour s c r < j
            · rw [collMid_lt _ _ _ _ _ (by omega), collMid_lt _ _ _ _ _ h]
            · rw [collMid_ge _ _ _ _ _ (by omega), collMid_ge _ _ _ _ _ (by omega)]
      · push Not at he
        have : collMid s c o x k (j + 1) = collMid s c o x k j := by
          funext r
          by_cases h : colour s c r < j
          · rw [collMid_lt _ _ _ _ _ (by omega), collMid_lt _ _ _ _ _ h]
          · have := he r
            rw [collMid_ge _ _ _ _ _ (by omega), collMid_ge _ _ _ _ _ (by omega)]
        rw [this]; exact Reach.refl _
  have := key B
  have e : collMid s c o x k B = fun r => k r (collect0 o (fun i : Fin N => if colour s c i = colour s c r then some (x i) else none)) := by
    funext r; exact collMid_lt _ _ _ _ _ (hB r)
  rwa [e] at this

/-! ### a routine that uses one communicator only -/

omit [AddCommMonoid K] in
theorem collect_eq_some {m : Nat} {f : Fin m → Option β} {xs : Fin m → β} (h : collect f = some xs) (i : Fin m) : f i = some (xs i) := by
  unfold collect at h
  split at h
  · cases h; exact (Option.some_get _).symm
  · cases h

omit [AddCommMonoid K] in
theorem asRet_some {p : Prog K α} {a : α} (h : p.asRet = some a) : p = .ret a := by cases p <;> cases h; rfl
omit [AddCommMonoid K] in
theorem asSum_some {p : Prog K α} {a : K × (K → Prog K α)} (h : p.asSum = some a) : p = .allSum a.1 a.2 := by cases p <;> cases h; rfl
omit [AddCommMonoid K] in
theorem asMax_some {p : Prog K α} {a : Int × (Int → Prog K α)} (h : p.asMax = some a) : p = .allMax a.1 a.2 := by cases p <;> cases h; rfl
omit [AddCommMonoid K] in
theorem isStuck_eq {p : Prog K α} (h : p.isStuck = true) : p = .stuck := by cases p <;> first | rfl | cases h
omit [AddCommMonoid K] in
theorem isAbort_eq {p : Prog K α} (h : p.isAbort = true) : p = .abort := by cases p <;> first | rfl | cases h

theorem foldl_max_le (b : Int) : ∀ (l : List Int) (a : Int), l.foldl max a ≤ b ↔ a ≤ b ∧ ∀ x ∈ l, x ≤ b
  | [], a => by simp
  | x :: l, a => by
    rw [List.foldl_cons, foldl_max_le b l]
    simp only [List.mem_cons, forall_eq_or_imp, max_le_iff, and_assoc]

theorem maxList_le {l : List Int} (hl : l ≠ []) (b : Int) : maxList l ≤ b ↔ ∀ x ∈ l, x ≤ b := by
  unfold maxList
  rw [foldl_max_le]
  cases l with
  | nil => exact (hl rfl).elim
  | cons x l => simp

omit [AddCommMonoid K] in
/-- the values contributed by a group -/
theorem group_contributions {c : Comm} {g m : Nat} {e : Fin (m + 1) → Fin N}
    (hr : ∀ r : Fin N, colour s c r = g ↔ ∃ i, e i = r) {ps : Fin N → WProg K β} {v : Fin (m + 1) → MVal K}
    (hv : ∀ i, (ps (e i)).value = some (v i)) :
    (∀ i, contributions s c g ps (e i) = some (v i)) ∧ ∀ r, (∀ i, e i ≠ r) → contributions s c g ps r = none := by
  refine ⟨fun i => ?_, fun r h => ?_⟩
  · unfold contributions; rw [if_pos ((hr _).mpr ⟨i, rfl⟩), hv]
  · unfold contributions; rw [if_neg (fun h' => ?_)]
    obtain ⟨i, hi⟩ := (hr r).mp h'
    exact h i hi

theorem colour_sum {m : Nat} {e : Fin (m + 1) → Fin N} (he : Function.Injective e) {f : Fin N → Option (MVal K)} {x : Fin (m + 1) → K}
    (h1 : ∀ i, f (e i) = some (.num (x i))) (h2 : ∀ r, (∀ i, e i ≠ r) → f r = none) :
    (collect0 .sumNum f).toNum = ∑ i, x i := by
  symm
  apply Fintype.sum_of_injective e he
  · intro r h
    rw [h2 r (fun i hi => h ⟨i, hi⟩)]; rfl
  · intro i; rw [h1]; rfl

omit [AddCommMonoid K] in
theorem group_max [AddCommMonoid K] {m : Nat} {e : Fin (m + 1) → Fin N} {f : Fin N → Option (MVal K)} {x : Fin (m + 1) → Int}
    (h1 : ∀ i, f (e i) = some (.int (x i))) (h2 : ∀ r, (∀ i, e i ≠ r) → f r = none) :
    (collect0 .maxInt f).toInt = maxOf x := by
  have hmem : ∀ y, y ∈ (valueList f).map MVal.toInt ↔ ∃ i, x i = y := by
    intro y
    unfold valueList
    simp only [List.mem_map, List.mem_filterMap, List.mem_finRange, true_and]
    constructor
    · rintro ⟨v, ⟨r, hr⟩, rfl⟩
      by_cases h : ∃ i, e i = r
      · obtain ⟨i, rfl⟩ := h
        rw [h1] at hr; cases hr; exact ⟨i, rfl⟩
      · push Not at h
        rw [h2 r h] at hr; cases hr
    · rintro ⟨i, rfl⟩
      exact ⟨_, ⟨e i, h1 i⟩, rfl⟩
  have hne : (valueList f).map MVal.toInt ≠ [] := List.ne_nil_of_mem ((hmem _).mpr ⟨0, rfl⟩)
  show maxList _ = _
  apply eq_of_forall_ge_iff
  intro b
  rw [maxList_le hne]
  unfold maxOf
  rw [Finset.fold_max_le]
  constructor
  · intro h
    exact ⟨h _ ((hmem _).mpr ⟨0, rfl⟩), fun i _ => h _ ((hmem _).mpr ⟨i.succ, rfl⟩)⟩
  · rintro ⟨h0, hs⟩ y hy
    obtain ⟨i, rfl⟩ := (hmem y).mp hy
    rcases Fin.eq_zero_or_eq_succ i with rfl | ⟨j, rfl⟩
    · exact h0
    · exact hs j (Finset.mem_univ _)

/-- one operation of a group -/
theorem group_step {c : Comm} {g m : Nat} {e : Fin (m + 1) → Fin N}
    (hr : ∀ r : Fin N, colour s c r = g ↔ ∃ i, e i = r) {ps : Fin N → WProg K β} {o : CollOp} {v : Fin (m + 1) → MVal K}
    {k : Fin (m + 1) → MVal K → WProg K β} (h : ∀ i, ps (e i) = .coll c o (v i) (k i)) :
    ∃ qs, Reach s ps qs ∧ (∀ i, qs (e i) = k i (collect0 o (contributions s c g ps))) ∧ ∀ r : Fin N, colour s c r ≠ g → qs r = ps r := by
  refine ⟨fire s c g o ps, Reach.step ⟨c, g, o, ⟨⟨e 0, (hr _).mpr ⟨0, rfl⟩⟩, fun r hg => ?_⟩, rfl⟩, fun i => ?_, fun r hg => ?_⟩
  · obtain ⟨i, rfl⟩ := (hr r).mp hg
    rw [h]; exact ⟨rfl, rfl⟩
  · unfold fire
    rw [if_pos ((hr _).mpr ⟨i, rfl⟩), h]; rfl
  · unfold fire
    rw [if_neg hg]

/-- The group executes its routine while the other processes do nothing. -/
theorem reach_group {c : Comm} {g m : Nat} {e : Fin (m + 1) → Fin N} (he : Function.Injective e)
    (hr : ∀ r : Fin N, colour s c r = g ↔ ∃ i, e i = r) (B : Fin (m + 1) → α → WProg K β) (A0 : Prog K α) :
    ∀ (As : Fin m → Prog K α) (ps : Fin N → WProg K β), ps (e 0) = (WProg.lift c A0).bind (B 0) →
    (∀ i : Fin m, ps (e i.succ) = (WProg.lift c (As i)).bind (B i.succ)) →
    (∀ as, joint A0 As = .done as → ∃ qs, Reach s ps qs ∧ (∀ i, qs (e i) = B i (as i)) ∧ ∀ r : Fin N, colour s c r ≠ g → qs r = ps r) ∧
    ((joint A0 As = .stuck ∨ joint A0 As = .abort) → ∃ qs, Reach s ps qs ∧ Stopped (qs (e 0))) := by
  induction A0 with
  | ret a =>
    intro As ps h0 hs
    unfold joint
    cases hc : collect fun i => (As i).asRet with
    | none => exact ⟨fun as h => (by cases h), fun h => (by rcases h with h | h <;> cases h)⟩
    | some xs =>
      refine ⟨fun as h => ?_, fun h => (by rcases h with h | h <;> cases h)⟩
      cases h
      refine ⟨ps, Reach.refl _, fun i => ?_, fun _ _ => rfl⟩
      rcases Fin.eq_zero_or_eq_succ i with rfl | ⟨j, rfl⟩
      · rw [h0, Fin.cons_zero]; rfl
      · rw [hs, asRet_some (collect_eq_some hc j), Fin.cons_succ]; rfl
  | stuck =>
    intro As ps h0 hs
    refine ⟨fun as h => ?_, fun _ => ⟨ps, Reach.refl _, .inl (by rw [h0]; rfl)⟩⟩
    unfold joint at h
    split at h <;> cases h
  | abort =>
    intro As ps h0 hs
    refine ⟨fun as h => ?_, fun _ => ⟨ps, Reach.refl _, .inr (by rw [h0]; rfl)⟩⟩
    unfold joint at h
    split at h <;> cases h
  | allSum x k ih =>
    intro As ps h0 hs
    unfold joint
    cases hc : collect fun i => (As i).asSum with
    | none => exact ⟨fun as h => (by cases h), fun h => (by rcases h with h | h <;> cases h)⟩
    | some xs =>
      have hA : ∀ i, As i = .allSum (xs i).1 (xs i).2 := fun i => asSum_some (collect_eq_some hc i)
      have hk : ∀ i, ps (e i) = .coll c .sumNum (.num ((Fin.cons x (fun i => (xs i).1) : Fin (m + 1) → K) i))
          (fun v => (WProg.lift c ((Fin.cons k (fun i => (xs i).2) : Fin (m + 1) → K → Prog K α) i v.toNum)).bind (B i)) := by
        intro i
        rcases Fin.eq_zero_or_eq_succ i with rfl | ⟨j, rfl⟩
        · rw [h0]; rfl
        · rw [hs, hA]; rfl
      obtain ⟨qs, hq, hqe, hqo⟩ := group_step hr hk
      have hg := group_contributions hr (ps := ps) (v := fun i => .num ((Fin.cons x (fun i => (xs i).1) : Fin (m + 1) → K) i))
        (fun i => by rw [hk]; rfl)
      have hsum := colour_sum he hg.1 hg.2
      rw [Fin.sum_univ_succ] at hsum
      simp only [Fin.cons_zero, Fin.cons_succ] at hsum
      rw [hsum] at hqe
      obtain ⟨i1, i2⟩ := ih (x + ∑ i, (xs i).1) (fun i => (xs i).2 (x + ∑ i, (xs i).1)) qs (hqe 0) (fun i => hqe i.succ)
      refine ⟨fun as h => ?_, fun h => ?_⟩
      · obtain ⟨us, hu, hue, huo⟩ := i1 as h
        exact ⟨us, hq.trans hu, hue, fun r hr' => (huo r hr').trans (hqo r hr')⟩
      · obtain ⟨us, hu, hue⟩ := i2 h
        exact ⟨us, hq.trans hu, hue⟩
  | allMax x k ih =>
    intro As ps h0 hs
    unfold joint
    cases hc : collect fun i => (As i).asMax with
    | none => exact ⟨fun as h => (by cases h), fun h => (by rcases h with h | h <;> cases h)⟩
    | some xs =>
      have hA : ∀ i, As i = .allMax (xs i).1 (xs i).2 := fun i => asMax_some (collect_eq_some hc i)
      have hk : ∀ i, ps (e i) = .coll c .maxInt (.int ((Fin.cons x (fun i => (xs i).1) : Fin (m + 1) → Int) i))
          (fun v => (WProg.lift c ((Fin.cons k (fun i => (xs i).2) : Fin (m + 1) → Int → Prog K α) i v.toInt)).bind (B i)) := by
        intro i
        rcases Fin.eq_zero_or_eq_succ i with rfl | ⟨j, rfl⟩
        · rw [h0]; rfl
        · rw [hs, hA]; rfl
      obtain ⟨qs, hq, hqe, hqo⟩ := group_step hr hk
      have hg := group_contributions hr (ps := ps) (v := fun i => .int ((Fin.cons x (fun i => (xs i).1) : Fin (m + 1) → Int) i))
        (fun i => by rw [hk]; rfl)
      have hsum := group_max hg.1 hg.2
      unfold maxOf at hsum
      simp only [Fin.cons_zero, Fin.cons_succ] at hsum
      rw [hsum] at hqe
      obtain ⟨i1, i2⟩ := ih (Finset.univ.fold max x fun i => (xs i).1) (fun i => (xs i).2 (Finset.univ.fold max x fun i => (xs i).1))
        qs (hqe 0) (fun i => hqe i.succ)
      refine ⟨fun as h => ?_, fun h => ?_⟩
      · obtain ⟨us, hu, hue, huo⟩ := i1 as h
        exact ⟨us, hq.trans hu, hue, fun r hr' => (huo r hr').trans (hqo r hr')⟩
      · obtain ⟨us, hu, hue⟩ := i2 h
        exact ⟨us, hq.trans hu, hue⟩

/-- Every group executes its routine; the processes continue with their results, or one of them has stopped. -/
theorem reach_groups (c : Comm) {m : Nat → Nat} (e : (g : Nat) → Fin (m g + 1) → Fin N)
    (he : ∀ r : Fin N, Function.Injective (e (colour s c r)) ∧ ∀ r' : Fin N, colour s c r' = colour s c r ↔ ∃ i, e (colour s c r) i = r')
    (A : Fin N → Prog K α) (hA : ∀ r : Fin N, runRanks (fun i => A (e (colour s c r) i)) ≠ .mismatch) (B : Fin N → α → WProg K β) :
    (∃ X, Reach s (fun r => (WProg.lift c (A r)).bind (B r)) X ∧ ∃ r, Stopped (X r)) ∨
    ∃ as : Fin N → α, (∀ r : Fin N, runRanks (fun i => A (e (colour s c r) i)) = .done (fun i => as (e (colour s c r) i))) ∧
      Reach s (fun r => (WProg.lift c (A r)).bind (B r)) (fun r => B r (as r)) := by
  by_cases hst : ∃ r : Fin N, runRanks (fun i => A (e (colour s c r) i)) = .stuck ∨ runRanks (fun i => A (e (colour s c r) i)) = .abort
  · obtain ⟨r, hr⟩ := hst
    obtain ⟨qs, h1, h2⟩ := (reach_group (he r).1 (he r).2 (fun i => B (e (colour s c r) i)) (A (e (colour s c r) 0))
      (fun i => A (e (colour s c r) i.succ)) (fun r => (WProg.lift c (A r)).bind (B r)) rfl (fun _ => rfl)).2 hr
    exact .inl ⟨qs, h1, _, h2⟩
  · push Not at hst
    refine .inr ?_
    have hdone : ∀ r : Fin N, ∃ as, runRanks (fun i => A (e (colour s c r) i)) = .done as := by
      intro r
      cases h : runRanks (fun i => A (e (colour s c r) i)) with
      | done as => exact ⟨as, rfl⟩
      | stuck => exact ((hst r).1 h).elim
      | abort => exact ((hst r).2 h).elim
      | mismatch => exact (hA r h).elim
    obtain ⟨Bd, hB⟩ : ∃ Bd, ∀ r : Fin N, colour s c r < Bd :=
      ⟨(Finset.univ.sup fun r : Fin N => colour s c r) + 1, fun r =>
        Nat.lt_succ_of_le (Finset.le_sup (f := fun r : Fin N => colour s c r) (Finset.mem_univ r))⟩
    have key : ∀ j, ∃ as : Fin N → α,
        (∀ r : Fin N, colour s c r < j → runRanks (fun i => A (e (colour s c r) i)) = .done (fun i => as (e (colour s c r) i))) ∧
        Reach s (fun r => (WProg.lift c (A r)).bind (B r))
          (fun r => if colour s c r < j then B r (as r) else (WProg.lift c (A r)).bind (B r)) := by
      intro j
      induction j with
      | zero =>
        by_cases hN : Nonempty (Fin N)
        · obtain ⟨r0⟩ := hN
          obtain ⟨as, _⟩ := hdone r0
          exact ⟨fun _ => as 0, fun r h => (Nat.not_lt_zero _ h).elim, Reach.refl _⟩
        · exact ⟨fun r => (hN ⟨r⟩).elim, fun r => (hN ⟨r⟩).elim, Reach.refl _⟩
      | succ j ih =>
        obtain ⟨as, h1, h2⟩ := ih
        by_cases hj : ∃ r : Fin N, colour s c r = j
        · obtain ⟨r, hr⟩ := hj
          obtain ⟨bs, hbs⟩ := hdone r
          obtain ⟨hinj, hran⟩ := he r
          obtain ⟨qs, q1, q2, q3⟩ := (reach_group hinj hran (fun i => B (e (colour s c r) i)) (A (e (colour s c r) 0))
            (fun i => A (e (colour s c r) i.succ))
            (fun r => if colour s c r < j then B r (as r) else (WProg.lift c (A r)).bind (B r))
            (if_neg (by rw [(hran _).mpr ⟨0, rfl⟩]; omega)) (fun i => if_neg (by rw [(hran _).mpr ⟨i.succ, rfl⟩]; omega))).1 bs hbs
          classical
          refine ⟨fun t => if h : ∃ i, e (colour s c r) i = t then bs h.choose else as t, fun t ht => ?_, ?_⟩
          · by_cases htj : colour s c t < j
            · rw [h1 t htj]
              congr 1
              funext i
              have hi := ((he t).2 (e (colour s c t) i)).mpr ⟨i, rfl⟩
              have hno : ¬ ∃ i', e (colour s c r) i' = e (colour s c t) i := fun h => by have := (hran _).mpr h; omega
              dsimp only
              rw [dif_neg hno]
            · have hte : colour s c t = colour s c r := by omega
              rw [hte, hbs]
              congr 1
              funext i
              have hex : ∃ i', e (colour s c r) i' = e (colour s c r) i := ⟨i, rfl⟩
              dsimp only
              rw [dif_pos hex, hinj hex.choose_spec]
          · refine h2.trans ?_
            convert q1 using 1
            funext t
            dsimp only
            by_cases htj : colour s c t = colour s c r
            · obtain ⟨i, hi⟩ := (hran t).mp htj
              subst hi
              have hex : ∃ i', e (colour s c r) i' = e (colour s c r) i := ⟨i, rfl⟩
              rw [if_pos (by omega), q2, dif_pos hex, hinj hex.choose_spec]
            · rw [q3 t htj, dif_neg (fun h => htj ((hran _).mpr h))]
              by_cases h : colour s c t < j
              · rw [if_pos (by omega), if_pos h]
              · rw [if_neg (by omega), if_neg h]
        · push Not at hj
          refine ⟨as, fun r h => h1 r (by have := hj r; omega), ?_⟩
          refine h2.trans ?_
          have : (fun r : Fin N => if colour s c r < j + 1 then B r (as r) else (WProg.lift c (A r)).bind (B r)) =
              fun r : Fin N => if colour s c r < j then B r (as r) else (WProg.lift c (A r)).bind (B r) := by
            funext r
            have := hj r
            by_cases h : colour s c r < j
            · rw [if_pos h, if_pos (by omega)]
            · rw [if_neg h, if_neg (by omega)]
          rw [this]
          exact Reach.refl _
    obtain ⟨as, h1, h2⟩ := key Bd
    refine ⟨as, fun r => h1 r (hB r), ?_⟩
    have : (fun r : Fin N => if colour s c r < Bd then B r (as r) else (WProg.lift c (A r)).bind (B r)) = fun r => B r (as r) := by
      funext r; exact if_pos (hB r)
    rwa [this] at h2

/-! ### composing phases -/

/-- executed by all processes, the programs deliver results with property `Q`, unless a process stops -/
def Gets (s : Nat) (ps : Fin N → WProg K α) (Q : (Fin N → α) → Prop) : Prop :=
  ∀ (β : Type) (B : Fin N → α → WProg K β),
    (∃ X, Reach s (fun r => (ps r).bind (B r)) X ∧ ∃ r, Stopped (X r)) ∨
    ∃ as, Q as ∧ Reach s (fun r => (ps r).bind (B r)) (fun r => B r (as r))

theorem Gets.ret (as : Fin N → α) {Q : (Fin N → α) → Prop} (h : Q as) : Gets s (fun r => (.ret (as r) : WProg K α)) Q :=
  fun _ _ => .inr ⟨as, h, Reach.refl _⟩

theorem Gets.stuck (r : Fin N) {ps : Fin N → WProg K α} (h : Stopped (ps r)) {Q : (Fin N → α) → Prop} : Gets s ps Q :=
  fun _ B => .inl ⟨_, Reach.refl _, r, h.bind (B r)⟩

theorem Gets.bind {ps : Fin N → WProg K α} {Q : (Fin N → α) → Prop} (h : Gets s ps Q) {f : Fin N → α → WProg K β}
    {R : (Fin N → β) → Prop} (hf : ∀ as, Q as → Gets s (fun r => f r (as r)) R) : Gets s (fun r => (ps r).bind (f r)) R := by
  intro γ B
  simp only [WProg.bind_assoc]
  rcases h γ (fun r a => (f r a).bind (B r)) with h | ⟨as, ha, h⟩
  · exact .inl h
  · rcases hf as ha γ B with ⟨X, h1, h2⟩ | ⟨bs, hb, h1⟩
    · exact .inl ⟨X, h.trans h1, h2⟩
    · exact .inr ⟨bs, hb, h.trans h1⟩

theorem Gets.coll (c : Comm) (o : CollOp) (x : Fin N → MVal K) (k : Fin N → MVal K → WProg K α) {Q : (Fin N → α) → Prop}
    (h : Gets s (fun r => k r (collect0 o (fun i : Fin N => if colour s c i = colour s c r then some (x i) else none))) Q) :
    Gets s (fun r => .coll c o (x r) (k r)) Q := by
  intro β B
  have h1 := reach_coll (s := s) c o x (fun r v => (k r v).bind (B r))
  rcases h β B with ⟨X, h2, h3⟩ | ⟨as, ha, h2⟩
  · exact .inl ⟨X, h1.trans h2, h3⟩
  · exact .inr ⟨as, ha, h1.trans h2⟩

theorem Gets.lift (c : Comm) {m : Nat → Nat} (e : (g : Nat) → Fin (m g + 1) → Fin N)
    (he : ∀ r : Fin N, Function.Injective (e (colour s c r)) ∧ ∀ r' : Fin N, colour s c r' = colour s c r ↔ ∃ i, e (colour s c r) i = r')
    (A : Fin N → Prog K α) (hA : ∀ r : Fin N, runRanks (fun i => A (e (colour s c r) i)) ≠ .mismatch) {Q : (Fin N → α) → Prop}
    (hQ : ∀ as : Fin N → α, (∀ r : Fin N, runRanks (fun i => A (e (colour s c r) i)) = .done (fun i => as (e (colour s c r) i))) → Q as) :
    Gets s (fun r => WProg.lift c (A r)) Q := by
  intro β B
  rcases reach_groups c e he A hA B with h | ⟨as, h1, h2⟩
  · exact .inl h
  · exact .inr ⟨as, hQ as h1, h2⟩

theorem Gets.mono {ps : Fin N → WProg K α} {Q R : (Fin N → α) → Prop} (h : Gets s ps Q) (hQ : ∀ as, Q as → R as) : Gets s ps R := by
  intro β B
  rcases h β B with h | ⟨as, ha, h⟩
  · exact .inl h
  · exact .inr ⟨as, hQ as ha, h⟩

omit [AddCommMonoid K] in
theorem WProg.bind_ret (x : WProg K α) : x.bind .ret = x := by
  induction x with
  | ret a => rfl
  | stuck => rfl
  | abort => rfl
  | coll c o x k ih => simp only [WProg.bind]; congr 1; funext v; exact ih v

theorem ret_final (as : Fin N → α) (us : Fin N → WProg K α) : ¬ WStep s (fun r => (.ret (as r) : WProg K α)) us := by
  rintro ⟨c, g, o, ⟨⟨r, hr⟩, h⟩, _⟩
  exact h r hr

/-- every execution that cannot be continued is one in which all processes have finished with `Q`, or in which one has stopped -/
theorem Gets.final {ps : Fin N → WProg K α} {Q : (Fin N → α) → Prop} (h : Gets s ps Q) {T : Fin N → WProg K α} (hr : Reach s ps T)
    (hT : ∀ us, ¬ WStep s T us) : (∃ r, Stopped (T r)) ∨ ∃ as, Q as ∧ T = fun r => .ret (as r) := by
  obtain ⟨n, hr⟩ := hr
  have h := h α (fun _ => .ret)
  simp only [WProg.bind_ret] at h
  rcases h with ⟨X, ⟨m, hX⟩, r, hs⟩ | ⟨as, ha, m, h⟩
  · obtain ⟨k, hk⟩ := run_join hT hr hX
    exact .inl ⟨r, stopped_run hk hs⟩
  · obtain ⟨k, hk⟩ := run_join hT hr h
    refine .inr ⟨as, ha, ?_⟩
    cases hk with
    | nil => rfl
    | cons h1 _ => exact (ret_final _ _ h1).elim

end
end MVMC
