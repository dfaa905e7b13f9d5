import Verif.Proof.MpiRun

/-! The phases of the optimisation and of the measurement, executed by all processes. -/
namespace MVMC

section
variable {δ ρ π K : Type} [Field K] {n s : Nat}

/-- the number of the last process in group `g` -/
def grpLast (n s g : Nat) : Nat := min s (n + 1 - g * s) - 1

/-- the processes of group `g` -/
def grpRank (n s g : Nat) (i : Fin (grpLast n s g + 1)) : Fin (n + 1) := Fin.ofNat (n + 1) (g * s + i)

theorem grp_facts (hs : 0 < s) (r : Fin (n + 1)) :
    grpLast n s (r / s) + 1 = size1 (n + 1) s r ∧ ∀ i : Fin (grpLast n s (r / s) + 1),
      (grpRank n s (r / s) i : Nat) = r / s * s + i ∧ (i : Nat) < s ∧ r / s * s + i < n + 1 := by
  have h1 : r / s * s ≤ r := Nat.div_mul_le_self _ _
  have h2 := r.isLt
  have hm : grpLast n s (r / s) + 1 = size1 (n + 1) s r := by
    unfold grpLast size1
    have : 0 < min s (n + 1 - r / s * s) := lt_min hs (by omega)
    omega
  refine ⟨hm, fun i => ?_⟩
  have hi := lt_of_lt_of_eq i.isLt hm
  unfold size1 at hi
  have h3 : (i : Nat) < s := lt_of_lt_of_le hi (min_le_left _ _)
  have h4 : (i : Nat) < n + 1 - r / s * s := lt_of_lt_of_le hi (min_le_right _ _)
  refine ⟨?_, h3, by omega⟩
  unfold grpRank
  rw [Fin.val_ofNat]
  exact Nat.mod_eq_of_lt (by omega)

theorem grp_ok (hs : 0 < s) (r : Fin (n + 1)) :
    Function.Injective (grpRank n s (colour s .c1 r)) ∧
    ∀ r' : Fin (n + 1), colour s .c1 r' = colour s .c1 r ↔ ∃ i, grpRank n s (colour s .c1 r) i = r' := by
  obtain ⟨hm, hf⟩ := grp_facts (n := n) hs r
  refine ⟨fun i j h => ?_, fun r' => ⟨fun h => ?_, ?_⟩⟩
  · have := congrArg Fin.val h
    have h1 := (hf i).1
    have h2 := (hf j).1
    apply Fin.ext
    change (grpRank n s (r / s) i : Nat) = grpRank n s (r / s) j at this
    omega
  · change r'.val / s = r / s at h
    have h1 : r'.val / s * s + r'.val % s = r'.val := Nat.div_add_mod' _ _
    have h2 := Nat.mod_lt r'.val hs
    have h3 := r'.isLt
    rw [h] at h1
    have hlt : r'.val % s < grpLast n s (r / s) + 1 := by
      rw [hm]
      unfold size1
      exact lt_min h2 (by omega)
    refine ⟨⟨r'.val % s, hlt⟩, Fin.ext ?_⟩
    exact ((hf ⟨r'.val % s, hlt⟩).1).trans h1
  · rintro ⟨i, rfl⟩
    obtain ⟨h1, h2, _⟩ := hf i
    change (grpRank n s (r / s) i : Nat) / s = r / s
    rw [h1, Nat.mul_comm, Nat.mul_add_div hs, Nat.div_eq_of_lt h2, Nat.add_zero]

/-- what the processes have in common between the phases -/
structure Synced (s : Nat) (ms : Fin (n + 1) → Proc δ ρ K) : Prop where
  para : ∀ r r', (ms r).para = (ms r').para
  store : ∀ r r', (ms r).store = (ms r').store
  grp : ∀ r r' : Fin (n + 1), r.val / s = r'.val / s → (ms r).burn = (ms r').burn ∧ (ms r).rng = (ms r').rng ∧
    ((ms r).burn = true → (ms r).bc = (ms r').bc ∧ (ms r).bcnt = (ms r').bcnt)

/-- `xs` are the results of the sampling on the chains -/
def ChainsDone (O : WholeOps δ ρ π K) (s : Nat) (ms : Fin (n + 1) → Proc δ ρ K)
    (xs : Fin (n + 1) → SState (RB δ ρ K) × List (Nat × SState (RB δ ρ K)) × List Nat) : Prop :=
  ∀ r : Fin (n + 1), runRanks (fun i => sampleR (grpLast n s (r / s) + 1)
    (O.L (grpRank n s (r / s) i) (ms r).para) (O.S (ms r).para) O.p (ms r).burn O.warmUp O.nSample O.interval (ms r).bc (ms r).bcnt
    (ms (grpRank n s (r / s) i)).loc (ms r).rng) = .done fun i => xs (grpRank n s (r / s) i)

/-- the processes of one chain have the same results, apart from the Pfaffian arrays -/
theorem ChainsDone.same {O : WholeOps δ ρ π K} (hs : 0 < s) {ms : Fin (n + 1) → Proc δ ρ K} {xs} (h : ChainsDone O s ms xs) {r r' : Fin (n + 1)}
    (hr : r.val / s = r'.val / s) :
    (xs r).1.c = (xs r').1.c ∧ (xs r).1.b.cnt = (xs r').1.b.cnt ∧ (xs r).2.2 = (xs r').2.2 ∧ (xs r).1.hopTry = (xs r').1.hopTry ∧
    (xs r).1.hopAcc = (xs r').1.hopAcc ∧ (xs r).1.exTry = (xs r').1.exTry ∧ (xs r).1.exAcc = (xs r').1.exAcc := by
  have hr' := h r
  rw [run_sample (fun i => O.L (grpRank n s (r / s) i) (ms r).para) _ _ _ _ _ _ _ _
      (fun i => (ms (grpRank n s (r / s) i)).loc)] at hr'
  split at hr'
  · cases hr'
  · cases hr'
  · next x _ =>
    have hx : ∀ i, _ = xs (grpRank n s (r / s) i) := fun i => congrFun (JOut.done.inj hr') i
    obtain ⟨i, hi⟩ := ((grp_ok (n := n) hs r).2 r).mp rfl
    obtain ⟨j, hj⟩ := ((grp_ok (n := n) hs r).2 r').mp hr.symm
    have h1 := hx i
    have h2 := hx j
    change grpRank n s (r / s) i = r at hi
    change grpRank n s (r / s) j = r' at hj
    rw [hi] at h1
    rw [hj] at h2
    rw [← h1, ← h2]
    exact ⟨rfl, rfl, rfl, rfl, rfl, rfl, rfl⟩

theorem gets_sample (O : WholeOps δ ρ π K) (hs : 0 < s) {ms : Fin (n + 1) → Proc δ ρ K} (h : Synced s ms) :
    Gets s (fun r : Fin (n + 1) => samplePhase O (n + 1) s r (ms r))
      (fun ms' => ∃ xs, ChainsDone O s ms xs ∧ ∀ r, ms' r = afterSample O r (ms r) (xs r)) := by
  have key : ∀ r : Fin (n + 1), runRanks (fun i => sampleR (size1 (n + 1) s (grpRank n s (colour s .c1 r) i))
      (O.L (grpRank n s (colour s .c1 r) i) (ms (grpRank n s (colour s .c1 r) i)).para) (O.S (ms (grpRank n s (colour s .c1 r) i)).para) O.p
      (ms (grpRank n s (colour s .c1 r) i)).burn O.warmUp O.nSample O.interval (ms (grpRank n s (colour s .c1 r) i)).bc
      (ms (grpRank n s (colour s .c1 r) i)).bcnt (ms (grpRank n s (colour s .c1 r) i)).loc (ms (grpRank n s (colour s .c1 r) i)).rng) =
      runRanks (fun i : Fin (grpLast n s (colour s .c1 r) + 1) => sampleR (grpLast n s (colour s .c1 r) + 1)
        (O.L (grpRank n s (colour s .c1 r) i) (ms r).para) (O.S (ms r).para) O.p
        (ms r).burn O.warmUp O.nSample O.interval (ms r).bc (ms r).bcnt (ms (grpRank n s (colour s .c1 r) i)).loc (ms r).rng) := by
    intro r
    congr 1
    funext i
    have hc := ((grp_ok (n := n) hs r).2 (grpRank n s (colour s .c1 r) i)).mpr ⟨i, rfl⟩
    obtain ⟨e1, e4, e2⟩ := h.grp _ r hc
    have hz : size1 (n + 1) s (grpRank n s (colour s .c1 r) i) = grpLast n s (colour s .c1 r) + 1 := by
      have h1 := (grp_facts (n := n) hs r).1
      change (grpRank n s (colour s .c1 r) i).val / s = r.val / s at hc
      unfold size1 at h1 ⊢
      rw [hc]
      exact h1.symm
    rw [h.para _ r, e1, e4, hz]
    cases hb : (ms r).burn with
    | true =>
      obtain ⟨e2, e3⟩ := e2 (e1.trans hb)
      rw [e2, e3]
    | false => rfl
  unfold samplePhase
  refine Gets.bind (Gets.lift .c1 (grpRank n s) (grp_ok hs) _ (fun r => ?_) (Q := ChainsDone O s ms) (fun as has r => ?_))
    fun as has => Gets.ret _ ⟨as, has, fun _ => rfl⟩
  · rw [key r, run_sample (fun i => O.L (grpRank n s (colour s .c1 r) i) (ms r).para) _ _ _ _ _ _ _ _
      (fun i => (ms (grpRank n s (colour s .c1 r) i)).loc)]
    split <;> (intro hh; cases hh)
  · exact (key r).symm.trans (has r)

/-! ### the other phases -/

theorem gets_allSumV (len : Nat) (x : Fin (n + 1) → Nat → K) :
    Gets s (fun r : Fin (n + 1) => allSumV (n + 1) len (x r)) (fun as => ∀ r i, as r i = ∑ r', x r' i) := by
  unfold allSumV
  by_cases hn : n + 1 > 1
  · simp only [if_pos hn]
    refine Gets.coll .c0 (.sumVec len) (fun r => .vec (x r)) _ (Gets.ret _ fun r i => ?_)
    simp only [colour, if_true, collect0, MVal.toVec]
    rfl
  · simp only [if_neg hn]
    have : n = 0 := by omega
    subst this
    refine Gets.ret _ fun r i => ?_
    rw [Fin.sum_univ_one, Fin.fin_one_eq_zero r]

omit [Field K] in
theorem valueList_zero (f : Fin (n + 1) → MVal K) (d : MVal K) : (valueList (fun r => some (f r))).headD d = f 0 := by
  unfold valueList
  rw [List.finRange_succ]
  rfl

theorem gets_bcastV (len : Nat) (x : Fin (n + 1) → Nat → K) :
    Gets s (fun r : Fin (n + 1) => bcastV len (x r)) (fun as => ∀ r, as r = x 0) := by
  unfold bcastV
  refine Gets.coll .c0 (.bcastVec len) (fun r => .vec (x r)) _ (Gets.ret _ fun r => ?_)
  simp only [colour, if_true, collect0]
  rw [valueList_zero]
  rfl

theorem gets_sync (O : WholeOps δ ρ π K) {ms : Fin (n + 1) → Proc δ ρ K} :
    Gets s (fun r : Fin (n + 1) => syncPhase O (n + 1) (ms r)) (fun ms' => ∀ r, ms' r = { ms r with para := O.gauge (ms 0).para }) := by
  unfold syncPhase
  refine Gets.bind (Q := fun as => ∀ r, as r = (ms 0).para) ?_ (fun as has => Gets.ret _ fun r => by rw [has])
  by_cases hn : n + 1 > 1
  · simp only [if_pos hn]
    exact gets_bcastV O.nPara (fun r => (ms r).para)
  · simp only [if_neg hn]
    have : n = 0 := by omega
    subst this
    exact Gets.ret _ fun r => by rw [Fin.fin_one_eq_zero r]

theorem gets_counter (O : WholeOps δ ρ π K) {ms : Fin (n + 1) → Proc δ ρ K} :
    Gets s (fun r : Fin (n + 1) => counterPhase O s r (ms r)) (fun ms' => ∀ r : Fin (n + 1), ms' r = { ms r with cnt :=
      if r.val < s then (fun i => ∑ r', if r'.val % s = r.val % s then (ms r').cnt i else 0) else (ms r).cnt }) := by
  unfold counterPhase
  refine Gets.coll .c2 (.sumCnt O.nCnt) (fun r => .cnt (ms r).cnt) _ (Gets.ret _ fun r => ?_)
  have e : (collect0 (.sumCnt O.nCnt) (fun i : Fin (n + 1) => if colour s .c2 i = colour s .c2 r then some (MVal.cnt (ms i).cnt) else none)
      : MVal K).toCnt = fun i => ∑ r', if r'.val % s = r.val % s then (ms r').cnt i else 0 := by
    funext i
    refine Finset.sum_congr rfl fun r' _ => ?_
    dsimp only
    by_cases h' : colour s .c2 r' = colour s .c2 r
    · have h'' : r'.val % s = r.val % s := h'
      rw [if_pos h', if_pos h'']; rfl
    · have h'' : ¬ r'.val % s = r.val % s := h'
      rw [if_neg h', if_neg h'']; rfl
  rw [e]
  by_cases h : r.val < s
  · simp only [if_pos h]
  · simp only [if_neg h]

/-- the optimisation step delivers the status `(f ms).1` everywhere and, if it is zero, the parameters `(f ms).2` on process 0 -/
def SrFun (s : Nat) (n : Nat) (sr : Nat → Proc δ ρ K → WProg K (Int × Proc δ ρ K))
    (f : (Fin (n + 1) → Proc δ ρ K) → Int × (Nat → K)) : Prop :=
  ∀ ms : Fin (n + 1) → Proc δ ρ K, (∀ r r', (ms r).para = (ms r').para ∧ (ms r).we = (ms r').we ∧ (ms r).sr = (ms r').sr) →
    Gets s (fun r : Fin (n + 1) => sr r (ms r)) (fun ys => ∀ r : Fin (n + 1),
      ys r = ((f ms).1, if (f ms).1 = 0 ∧ r.val = 0 then { ms r with para := (f ms).2 } else ms r))

theorem gets_bcastInt (x : Fin (n + 1) → Int) (f : Fin (n + 1) → Int → α) {Q : (Fin (n + 1) → α) → Prop} (h : Q (fun r => f r (x 0))) :
    Gets s (fun r : Fin (n + 1) => (.coll .c0 .bcastInt (.int (x r)) fun v => .ret (f r v.toInt) : WProg K α)) Q := by
  refine Gets.coll .c0 .bcastInt (fun r => .int (x r)) _ (Gets.ret _ ?_)
  simp only [colour, if_true, collect0]
  rw [valueList_zero]
  exact h

/-- the status and the parameters of `StochasticOpt` -/
def srFun (O : WholeOps δ ρ π K) (ms : Fin (n + 1) → Proc δ ρ K) : Int × (Nat → K) :=
  (if O.bad (ms 0).sr (O.solve 0 (ms 0).sr).2 = true then 1 else (O.solve 0 (ms 0).sr).1,
    O.upd (ms 0).sr (O.solve 0 (ms 0).sr).2 (ms 0).para)

theorem srPhase_good (O : WholeOps δ ρ π K) : SrFun s n (srPhase O) (srFun O) := by
  intro ms _
  unfold srPhase
  refine gets_bcastInt (K := K) (fun r : Fin (n + 1) => if r.val = 0 ∧ O.bad (ms r).sr (O.solve r (ms r).sr).2 = true then 1 else (O.solve r (ms r).sr).1)
    (fun r v => (v, if v = 0 ∧ r.val = 0 then { ms r with para := O.upd (ms r).sr (O.solve r (ms r).sr).2 (ms r).para } else ms r)) ?_
  intro r
  have e : (if (0 : Fin (n + 1)).val = 0 ∧ O.bad (ms 0).sr (O.solve (0 : Fin (n + 1)) (ms 0).sr).2 = true then 1 else
      (O.solve (0 : Fin (n + 1)) (ms 0).sr).1) = (srFun O ms).1 := by
    simp only [Fin.val_zero, true_and]; rfl
  dsimp only
  rw [e]
  congr 1
  by_cases hr : r.val = 0
  · have : r = 0 := Fin.ext hr
    subst this
    rfl
  · simp only [hr, and_false, if_false]

/-- the counters after `ReduceCounter` -/
def cntRef (s : Nat) (c : Fin (n + 1) → Nat → Int) (r : Fin (n + 1)) : Nat → Int :=
  if r.val < s then (fun i => ∑ r', if r'.val % s = r.val % s then c r' i else 0) else c r

/-- the memory before the optimisation step: sampling with the results `xs`, averages, counters, output -/
def avgRef (O : WholeOps δ ρ π K) (s : Nat) (ms : Fin (n + 1) → Proc δ ρ K)
    (xs : Fin (n + 1) → SState (RB δ ρ K) × List (Nat × SState (RB δ ρ K)) × List Nat) (r : Fin (n + 1)) : Proc δ ρ K :=
  let a := fun r : Fin (n + 1) => afterSample O r (ms r) (xs r)
  let we := O.normWe fun i => ∑ r, (a r).we i
  let sr := O.normSr (fun i => ∑ r, (a r).we i) fun i => ∑ r, (a r).sr i
  let cnt := cntRef s (fun r => (a r).cnt) r
  { a r with we := we, sr := sr, cnt := cnt, out := if r.val = 0 then (we, (ms r).para, cnt) :: (ms r).out else (ms r).out }

/-- status and memory after one pass of `VMCParaOpt`, computed without processes -/
def optRef (O : WholeOps δ ρ π K) (f : (Fin (n + 1) → Proc δ ρ K) → Int × (Nat → K)) (s step : Nat) (ms : Fin (n + 1) → Proc δ ρ K)
    (xs : Fin (n + 1) → SState (RB δ ρ K) × List (Nat × SState (RB δ ρ K)) × List Nat) (r : Fin (n + 1)) : Int × Proc δ ρ K :=
  let b := avgRef O s ms xs
  let y := f b
  (y.1, if y.1 = 0 then { b r with
    para := O.gauge y.2, store := if step + O.keep ≥ O.steps then (step + O.keep - O.steps, (b r).we, O.gauge y.2) :: (ms r).store else (ms r).store }
    else b r)

theorem gets_optStep (O : WholeOps δ ρ π K) {sr : Nat → Proc δ ρ K → WProg K (Int × Proc δ ρ K)}
    {f : (Fin (n + 1) → Proc δ ρ K) → Int × (Nat → K)} (hsr : SrFun s n sr f) (hs : 0 < s)
    (step : Nat) {ms : Fin (n + 1) → Proc δ ρ K} (h : Synced s ms) :
    Gets s (fun r : Fin (n + 1) => optStep O sr (n + 1) s r step (ms r))
      (fun ys => ∃ xs, ChainsDone O s ms xs ∧ ∀ r, ys r = optRef O f s step ms xs r) := by
  unfold optStep
  refine Gets.bind (gets_sample O hs h) fun m1 ⟨xs, hxs, h1⟩ => ?_
  have e1 : m1 = fun r : Fin (n + 1) => afterSample O r (ms r) (xs r) := funext h1
  subst e1
  refine Gets.bind (gets_allSumV 5 fun r => (afterSample O r (ms r) (xs r)).we) fun we hwe => ?_
  have e2 : we = fun _ i => ∑ r : Fin (n + 1), (afterSample O r (ms r) (xs r)).we i := funext fun r => funext (hwe r)
  subst e2
  refine Gets.bind (gets_allSumV O.nSr fun r => (afterSample O r (ms r) (xs r)).sr) fun sr' hsr' => ?_
  have e3 : sr' = fun _ i => ∑ r : Fin (n + 1), (afterSample O r (ms r) (xs r)).sr i := funext fun r => funext (hsr' r)
  subst e3
  refine Gets.bind (gets_counter O (ms := fun r : Fin (n + 1) => { afterSample O r (ms r) (xs r) with
    we := O.normWe fun i => ∑ r : Fin (n + 1), (afterSample O r (ms r) (xs r)).we i
    sr := O.normSr (fun i => ∑ r : Fin (n + 1), (afterSample O r (ms r) (xs r)).we i) fun i => ∑ r : Fin (n + 1), (afterSample O r (ms r) (xs r)).sr i }))
    fun m2 h2 => ?_
  have e4 : (fun r : Fin (n + 1) => if r.val = 0 then { m2 r with out := ((m2 r).we, (m2 r).para, (m2 r).cnt) :: (m2 r).out } else m2 r) =
      avgRef O s ms xs := by
    funext r
    rw [h2 r]
    unfold avgRef
    by_cases hr : r.val = 0
    · simp only [if_pos hr]; rfl
    · simp only [if_neg hr]; rfl
  have e5 : ∀ r : Fin (n + 1), sr r (if r.val = 0 then { m2 r with out := ((m2 r).we, (m2 r).para, (m2 r).cnt) :: (m2 r).out } else m2 r) =
      sr r (avgRef O s ms xs r) := fun r => by rw [← e4]
  simp only [e5]
  refine Gets.bind (hsr (avgRef O s ms xs) fun r r' => ⟨h.para r r', rfl, rfl⟩) fun ys hys => ?_
  have e6 : ys = _ := funext hys
  subst e6
  dsimp only
  by_cases hv : (f (avgRef O s ms xs)).1 = 0
  · simp only [hv, true_and]
    refine Gets.bind (gets_sync O (ms := fun r : Fin (n + 1) => if r.val = 0 then { avgRef O s ms xs r with para := (f (avgRef O s ms xs)).2 }
      else avgRef O s ms xs r)) fun m3 h3 => Gets.ret _ ⟨xs, hxs, fun r => ?_⟩
    dsimp only
    rw [h3 r]
    unfold optRef
    simp only [hv, if_true]
    congr 1
    have e0 : (if (0 : Fin (n + 1)).val = 0 then { avgRef O s ms xs 0 with para := (f (avgRef O s ms xs)).2 } else avgRef O s ms xs 0).para =
        (f (avgRef O s ms xs)).2 := by rw [if_pos (Fin.val_zero _)]
    rw [e0]
    by_cases hr : r.val = 0
    · simp only [if_pos hr]
      by_cases hk : step + O.keep ≥ O.steps
      · simp only [if_pos hk]; rfl
      · simp only [if_neg hk]; rfl
    · simp only [if_neg hr]
      by_cases hk : step + O.keep ≥ O.steps
      · simp only [if_pos hk]; rfl
      · simp only [if_neg hk]; rfl
  · simp only [if_pos hv]
    refine Gets.ret _ ⟨xs, hxs, fun r => ?_⟩
    unfold optRef
    simp only [hv, false_and, if_false]

/-- the processes at the end of an optimisation step -/
def OptAgree (s : Nat) (ys : Fin (n + 1) → Int × Proc δ ρ K) : Prop :=
  (∀ r r', (ys r).1 = (ys r').1 ∧ (ys r).2.we = (ys r').2.we ∧ (ys r).2.sr = (ys r').2.sr ∧ (ys r).2.store = (ys r').2.store) ∧
  (∀ r r' : Fin (n + 1), r.val / s = r'.val / s → (ys r).2.burn = (ys r').2.burn ∧ (ys r).2.rng = (ys r').2.rng ∧
    ((ys r).2.burn = true → (ys r).2.bc = (ys r').2.bc ∧ (ys r).2.bcnt = (ys r').2.bcnt)) ∧
  (∀ r r', (ys r).2.para = (ys r').2.para)

theorem optRef_agree (O : WholeOps δ ρ π K) (f : (Fin (n + 1) → Proc δ ρ K) → Int × (Nat → K)) (hs : 0 < s) (step : Nat)
    {ms : Fin (n + 1) → Proc δ ρ K} (h : Synced s ms) {xs} (hx : ChainsDone O s ms xs) : OptAgree s (optRef O f s step ms xs) := by
  unfold optRef
  by_cases hv : (f (avgRef O s ms xs)).1 = 0
  · simp only [hv, if_true]
    refine ⟨fun r r' => ⟨rfl, rfl, rfl, ?_⟩, fun r r' hr => ?_, fun r r' => rfl⟩
    · dsimp only
      rw [h.store r r']
      rfl
    · obtain ⟨h1, h2, h3, _⟩ := hx.same hs hr
      exact ⟨rfl, h3, fun _ => ⟨h1, h2⟩⟩
  · simp only [hv, if_false]
    refine ⟨fun r r' => ⟨rfl, rfl, rfl, h.store r r'⟩, fun r r' hr => ?_, fun r r' => h.para r r'⟩
    obtain ⟨h1, h2, h3, _⟩ := hx.same hs hr
    exact ⟨rfl, h3, fun _ => ⟨h1, h2⟩⟩

omit [Field K] in
theorem OptAgree.synced {ys : Fin (n + 1) → Int × Proc δ ρ K} (h : OptAgree s ys) : Synced s (fun r => (ys r).2) :=
  ⟨h.2.2, fun r r' => (h.1 r r').2.2.2, h.2.1⟩

theorem gets_optLoop (O : WholeOps δ ρ π K) {sr : Nat → Proc δ ρ K → WProg K (Int × Proc δ ρ K)}
    {f : (Fin (n + 1) → Proc δ ρ K) → Int × (Nat → K)} (hsr : SrFun s n sr f) (hs : 0 < s) :
    ∀ (left step : Nat) {ms : Fin (n + 1) → Proc δ ρ K}, Synced s ms → (∀ r r', (ms r).we = (ms r').we ∧ (ms r).sr = (ms r').sr) →
      Gets s (fun r : Fin (n + 1) => optLoop O sr (n + 1) s r left step (ms r)) (OptAgree s)
  | 0, _, ms, h, hw => Gets.ret (fun r => ((0 : Int), ms r)) ⟨fun r r' => ⟨rfl, (hw r r').1, (hw r r').2, h.store r r'⟩, h.grp, h.para⟩
  | left + 1, step, ms, h, hw => by
    unfold optLoop
    refine Gets.bind (gets_optStep O hsr hs step h) fun ys ⟨xs, hx, hys⟩ => ?_
    have e : ys = optRef O f s step ms xs := funext hys
    subst e
    have hys := optRef_agree O f hs step h hx
    by_cases hv : (optRef O f s step ms xs 0).1 = 0
    · have hne : ∀ r, ¬ (optRef O f s step ms xs r).1 ≠ 0 := fun r => by rw [(hys.1 r 0).1]; exact not_not.mpr hv
      simp only [if_neg (hne _)]
      exact gets_optLoop O hsr hs left (step + 1) hys.synced (fun r r' => ⟨(hys.1 r r').2.1, (hys.1 r r').2.2.1⟩)
    · have hne : ∀ r, (optRef O f s step ms xs r).1 ≠ 0 := fun r => by rw [(hys.1 r 0).1]; exact hv
      simp only [if_pos (hne _)]
      exact Gets.ret _ hys

theorem gets_startUp (O : WholeOps δ ρ π K) (c0 : Fin (n + 1) → EleCfg) (d0 : Fin (n + 1) → δ) (l0 : Fin (n + 1) → ρ) :
    Gets s (fun r : Fin (n + 1) => startUp O (n + 1) s r (c0 r) (d0 r) (l0 r))
      (fun ms => Synced s ms ∧ ∀ r r', (ms r).we = (ms r').we ∧ (ms r).sr = (ms r').sr) := by
  by_cases hst : ∃ r : Fin (n + 1), O.initPara (O.seed (r.val / s)) = none
  · obtain ⟨r, hr⟩ := hst
    exact Gets.stuck r (.inl (by unfold startUp; rw [hr]))
  · push Not at hst
    have hq : ∀ r : Fin (n + 1), ∃ q, O.initPara (O.seed (r.val / s)) = some q := fun r => Option.ne_none_iff_exists'.mp (hst r)
    choose q hq using hq
    have e : (fun r : Fin (n + 1) => startUp O (n + 1) s r (c0 r) (d0 r) (l0 r)) = fun r : Fin (n + 1) =>
        syncPhase O (n + 1) ⟨if r.val = 0 then O.readFiles (q r).1 else (q r).1, false, c0 r, d0 r, l0 r, (q r).2, fun _ => 0, fun _ => 0,
          fun _ => 0, [], []⟩ := by
      funext r
      unfold startUp
      rw [hq r]
    rw [e]
    refine (gets_sync O).mono fun ms h => ⟨⟨fun r r' => by rw [h r, h r'], fun r r' => by rw [h r, h r'], fun r r' hr => ?_⟩,
      fun r r' => by rw [h r, h r']; exact ⟨rfl, rfl⟩⟩
    rw [h r, h r']
    have : q r = q r' := by
      have := hq r
      rw [hr, hq r'] at this
      exact (Option.some.inj this).symm
    exact ⟨rfl, by rw [this], fun h => (by cases h)⟩

theorem gets_mainOpt (O : WholeOps δ ρ π K) {sr : Nat → Proc δ ρ K → WProg K (Int × Proc δ ρ K)}
    {f : (Fin (n + 1) → Proc δ ρ K) → Int × (Nat → K)} (hsr : SrFun s n sr f) (hs : 0 < s)
    (c0 : Fin (n + 1) → EleCfg) (d0 : Fin (n + 1) → δ) (l0 : Fin (n + 1) → ρ) :
    Gets s (fun r : Fin (n + 1) => mainOpt O sr (n + 1) s r (c0 r) (d0 r) (l0 r)) (OptAgree s) := by
  unfold mainOpt
  exact Gets.bind (gets_startUp O c0 d0 l0) fun ms h => gets_optLoop O hsr hs O.steps 0 h.1 h.2

end
end MVMC
