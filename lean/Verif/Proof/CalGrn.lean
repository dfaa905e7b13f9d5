import Verif.Proof.CalHam

/-! # Accumulation of the measured Green functions -/
namespace MVMC
open MVMC.Spec Finset

theorem setC_self (a : Nat → ℂ) (i : Nat) (v : ℂ) : setC a i v i = v := by simp [setC]
theorem setC_ne {a : Nat → ℂ} {i k : Nat} {v : ℂ} (h : k ≠ i) : setC a i v k = a k := by simp [setC, h]

/-- a work-sharing loop in which iteration `i` updates cell `i` only -/
theorem ompFor_cell {σ : Type} (W : (Nat → ℂ) → σ) {s : Nat → Nat} {τ n : Nat} {body : σ → Nat → σ} {u : Nat → ℂ → ℂ}
    (h : ∀ i < n, ∀ f, body (W f) i = W (setC f i (u i (f i)))) (f : Nat → ℂ) :
    ompFor s τ n body (W f) = W (fun k => if k < n ∧ s k = τ then u k (f k) else f k) := by
  unfold ompFor
  induction n with
  | zero => simp
  | succ n ih =>
    rw [List.range_succ, List.foldl_append, ih (fun i hi => h i (by omega))]
    simp only [List.foldl_cons, List.foldl_nil]
    by_cases q : s n = τ
    · rw [if_pos q, h n (by omega)]
      congr 1
      funext k
      by_cases e : k = n
      · subst e; rw [setC_self, if_neg (by omega), if_pos ⟨by omega, q⟩]
      · rw [setC_ne e]
        by_cases r : k < n ∧ s k = τ
        · rw [if_pos r, if_pos ⟨by omega, r.2⟩]
        · rw [if_neg r, if_neg (by intro z; exact r ⟨by omega, z.2⟩)]
    · rw [if_neg q]
      congr 1
      funext k
      by_cases r : k < n ∧ s k = τ
      · rw [if_pos r, if_pos ⟨by omega, r.2⟩]
      · rw [if_neg r, if_neg]
        rintro ⟨z1, z2⟩
        rcases Nat.lt_succ_iff_lt_or_eq.mp z1 with z | z
        · exact r ⟨z, z2⟩
        · subst z; exact q z2

/-- all threads in turn: each cell is updated once -/
theorem threads_cell {s : Nat → Nat} {n : Nat} {u : Nat → ℂ → ℂ} : ∀ (order : List Nat) (_ : order.Nodup) (f : Nat → ℂ),
    order.foldl (fun f τ => fun k => if k < n ∧ s k = τ then u k (f k) else f k) f
      = fun k => if k < n ∧ s k ∈ order then u k (f k) else f k := by
  intro order
  induction order with
  | nil => intro _ f; simp
  | cons τ l ih =>
    intro hn f
    rw [List.foldl_cons, ih (List.nodup_cons.mp hn).2]
    funext k
    have hτ := (List.nodup_cons.mp hn).1
    by_cases q : k < n
    · by_cases e : s k = τ
      · have : s k ∉ l := by rw [e]; exact hτ
        simp [q, e, hτ]
      · by_cases m : s k ∈ l <;> simp [q, e, m]
    · simp [q]

theorem threads_all {s : Nat → Nat} {n T : Nat} (hs : ∀ i < n, s i < T) {order : List Nat} (ho : order.Perm (List.range T)) {k : Nat}
    (hk : k < n) : k < n ∧ s k ∈ order := ⟨hk, ho.mem_iff.mpr (List.mem_range.mpr (hs k hk))⟩

section
variable {g : GrnEnv} (hg : GrnOK g) (hr : g.flagRBM = true → GrnRBM g) {c : EleCfg} {ip : ℂ} {projCnt : Arr} {rbmCnt : Nat → ℂ}
  (h : Sampled g c ip projCnt rbmCnt) {T : GrnTab} (hT : GrnIdx g.p.Nsite T) (hz : GrnSz T)
include hg hr h hT hz

theorem grnThread_val (sched : Nat → Nat → Nat) (junk : Nat → EleCfg) (a : GrnAcc) (τ : Nat) :
    grnThread g T sched junk ip projCnt rbmCnt c a τ = { a with
      loc1 := fun k => if k < T.n1 ∧ sched 0 k = τ then matrixElement (psi g) (grnOp1 g.p.Nsite T k) (szList g c) else a.loc1 k
      locDC := fun k => if k < T.nDC ∧ sched 1 k = τ then matrixElement (psi g) (grnOpDC g.p.Nsite T k) (szList g c) else a.locDC k } := by
  obtain ⟨hm, hl⟩ := sampled_priv hg hr h (junk τ)
  unfold grnThread
  simp only []
  have e1 : ompFor (sched 0) τ T.n1 (fun st i =>
      let x := greenFunc1 g (T.t1 i 0) (T.t1 i 2) (T.t1 i 3) ip projCnt rbmCnt st.2
      (({ st.1 with loc1 := setC st.1.loc1 i x.1 } : GrnAcc), x.2)) (a, privS g c (junk τ)) = _ :=
    ompFor_cell (W := fun f => (({ a with loc1 := f } : GrnAcc), privS g c (junk τ)))
    (u := fun i _ => matrixElement (psi g) (grnOp1 g.p.Nsite T i) (szList g c)) ?_ a.loc1
  have e2 : ∀ A : GrnAcc, ompFor (sched 1) τ T.nDC (fun st i =>
      let x := greenFunc2 g (T.tDC i 0) (T.tDC i 2) (T.tDC i 4) (T.tDC i 6) (T.tDC i 1) (T.tDC i 5) ip projCnt rbmCnt st.2
      (({ st.1 with locDC := setC st.1.locDC i x.1 } : GrnAcc), x.2)) (A, privS g c (junk τ)) = _ := fun A =>
    ompFor_cell (W := fun f => (({ A with locDC := f } : GrnAcc), privS g c (junk τ)))
    (u := fun i _ => matrixElement (psi g) (grnOpDC g.p.Nsite T i) (szList g c)) ?_ A.locDC
  · rw [e1, e2]
  · intro i hi f
    obtain ⟨⟨h1, h2, h3, h4⟩, s1, s2, s3, s4⟩ := hT.two i hi
    obtain ⟨e1, e2⟩ := hz.two i hi
    simp only []
    rw [greenFunc2_val hg hr hm s1 s3 h1 h2 h3 h4, hl]
    unfold grnOpDC
    rw [← e1, ← e2]
  · intro i hi f
    obtain ⟨h1, s1, h2, s2⟩ := hT.one i hi
    simp only []
    rw [greenFunc1_val hg hr hm s2 h1 h2, hl]
    unfold grnOp1
    rw [hz.one i hi]

end

theorem accThread_val (T : GrnTab) (sched : Nat → Nat → Nat) (w : ℝ) (a : GrnAcc) (τ : Nat) :
    accThread T sched w a τ = { a with
      phys1 := fun k => if k < T.n1 ∧ sched 2 k = τ then a.phys1 k + w * a.loc1 k else a.phys1 k
      physDC := fun k => if k < T.nDC ∧ sched 3 k = τ then a.physDC k + w * a.locDC k else a.physDC k
      phys2 := fun k => if k < T.n2 ∧ sched 4 k = τ then
        a.phys2 k + w * a.loc1 (T.t2 k 0) * (starRingEnd ℂ) (a.loc1 (T.t2 k 1)) else a.phys2 k } := by
  unfold accThread
  simp only []
  have e1 := ompFor_cell (W := fun f => ({ a with phys1 := f } : GrnAcc)) (s := sched 2) (τ := τ) (n := T.n1)
    (body := fun a i => { a with phys1 := setC a.phys1 i (a.phys1 i + w * a.loc1 i) })
    (u := fun i x => x + w * a.loc1 i) (fun i _ f => rfl) a.phys1
  rw [e1]
  have e2 : ∀ A : GrnAcc, ompFor (sched 3) τ T.nDC
      (fun a i => ({ a with physDC := setC a.physDC i (a.physDC i + w * a.locDC i) } : GrnAcc)) A
      = { A with physDC := fun k => if k < T.nDC ∧ sched 3 k = τ then A.physDC k + w * A.locDC k else A.physDC k } :=
    fun A => ompFor_cell (W := fun f => ({ A with physDC := f } : GrnAcc)) (s := sched 3) (τ := τ) (n := T.nDC)
    (body := fun a i => { a with physDC := setC a.physDC i (a.physDC i + w * a.locDC i) })
    (u := fun i x => x + w * A.locDC i) (fun i _ f => rfl) A.physDC
  rw [e2]
  have e3 : ∀ A : GrnAcc, ompFor (sched 4) τ T.n2 (fun a i =>
        ({ a with phys2 := setC a.phys2 i (a.phys2 i + w * a.loc1 (T.t2 i 0) * (starRingEnd ℂ) (a.loc1 (T.t2 i 1))) } : GrnAcc)) A
      = { A with phys2 := fun k => if k < T.n2 ∧ sched 4 k = τ then
            A.phys2 k + w * A.loc1 (T.t2 k 0) * (starRingEnd ℂ) (A.loc1 (T.t2 k 1)) else A.phys2 k } :=
      fun A => ompFor_cell (W := fun f => ({ A with phys2 := f } : GrnAcc)) (s := sched 4) (τ := τ) (n := T.n2)
    (body := fun a i => { a with phys2 := setC a.phys2 i (a.phys2 i + w * a.loc1 (T.t2 i 0) * (starRingEnd ℂ) (a.loc1 (T.t2 i 1))) })
    (u := fun i x => x + w * A.loc1 (T.t2 i 0) * (starRingEnd ℂ) (A.loc1 (T.t2 i 1))) (fun i _ f => rfl) A.phys2
  rw [e3]

theorem acc_threads (T : GrnTab) (sched : Nat → Nat → Nat) (w : ℝ) : ∀ (order : List Nat) (_ : order.Nodup) (a : GrnAcc),
    order.foldl (accThread T sched w) a = { a with
      phys1 := fun k => if k < T.n1 ∧ sched 2 k ∈ order then a.phys1 k + w * a.loc1 k else a.phys1 k
      physDC := fun k => if k < T.nDC ∧ sched 3 k ∈ order then a.physDC k + w * a.locDC k else a.physDC k
      phys2 := fun k => if k < T.n2 ∧ sched 4 k ∈ order then
        a.phys2 k + w * a.loc1 (T.t2 k 0) * (starRingEnd ℂ) (a.loc1 (T.t2 k 1)) else a.phys2 k } := by
  intro order hn a
  have key : order.foldl (accThread T sched w) a = { a with
      phys1 := order.foldl (fun f τ => fun k => if k < T.n1 ∧ sched 2 k = τ then f k + w * a.loc1 k else f k) a.phys1
      physDC := order.foldl (fun f τ => fun k => if k < T.nDC ∧ sched 3 k = τ then f k + w * a.locDC k else f k) a.physDC
      phys2 := order.foldl (fun f τ => fun k => if k < T.n2 ∧ sched 4 k = τ then
        f k + w * a.loc1 (T.t2 k 0) * (starRingEnd ℂ) (a.loc1 (T.t2 k 1)) else f k) a.phys2 } := by
    clear hn
    induction order generalizing a with
    | nil => rfl
    | cons τ l ih => rw [List.foldl_cons, ih, accThread_val]; rfl
  rw [key]
  rw [threads_cell (u := fun k x => x + w * a.loc1 k) order hn, threads_cell (u := fun k x => x + w * a.locDC k) order hn,
    threads_cell (u := fun k x => x + w * a.loc1 (T.t2 k 0) * (starRingEnd ℂ) (a.loc1 (T.t2 k 1))) order hn]

theorem loc_threads {g : GrnEnv} (hg : GrnOK g) (hr : g.flagRBM = true → GrnRBM g) {c : EleCfg} {ip : ℂ} {projCnt : Arr}
    {rbmCnt : Nat → ℂ} (h : Sampled g c ip projCnt rbmCnt) {T : GrnTab} (hT : GrnIdx g.p.Nsite T) (hz : GrnSz T)
    (sched : Nat → Nat → Nat) (junk : Nat → EleCfg) : ∀ (order : List Nat) (_ : order.Nodup) (a : GrnAcc),
    order.foldl (grnThread g T sched junk ip projCnt rbmCnt c) a = { a with
      loc1 := fun k => if k < T.n1 ∧ sched 0 k ∈ order then matrixElement (psi g) (grnOp1 g.p.Nsite T k) (szList g c) else a.loc1 k
      locDC := fun k => if k < T.nDC ∧ sched 1 k ∈ order then
        matrixElement (psi g) (grnOpDC g.p.Nsite T k) (szList g c) else a.locDC k } := by
  intro order hn a
  have key : order.foldl (grnThread g T sched junk ip projCnt rbmCnt c) a = { a with
      loc1 := order.foldl (fun f τ => fun k => if k < T.n1 ∧ sched 0 k = τ then
        matrixElement (psi g) (grnOp1 g.p.Nsite T k) (szList g c) else f k) a.loc1
      locDC := order.foldl (fun f τ => fun k => if k < T.nDC ∧ sched 1 k = τ then
        matrixElement (psi g) (grnOpDC g.p.Nsite T k) (szList g c) else f k) a.locDC } := by
    clear hn
    induction order generalizing a with
    | nil => rfl
    | cons τ l ih => rw [List.foldl_cons, ih, grnThread_val hg hr h hT hz]; rfl
  rw [key]
  rw [threads_cell (u := fun k _ => matrixElement (psi g) (grnOp1 g.p.Nsite T k) (szList g c)) order hn,
    threads_cell (u := fun k _ => matrixElement (psi g) (grnOpDC g.p.Nsite T k) (szList g c)) order hn]

theorem calculateGreenFunc_val {g : GrnEnv} (hg : GrnOK g) (hr : g.flagRBM = true → GrnRBM g) {c : EleCfg} {ip : ℂ} {projCnt : Arr}
    {rbmCnt : Nat → ℂ} (h : Sampled g c ip projCnt rbmCnt) {T : GrnTab} (hT : GrnIdx g.p.Nsite T) (hz : GrnSz T) {nT : Nat}
    {sched : Nat → Nat → Nat} (hs : GrnSched T nT sched) {order order' : List Nat} (ho : order.Perm (List.range nT))
    (ho' : order'.Perm (List.range nT)) (junk : Nat → EleCfg) (w : ℝ) (a : GrnAcc) :
    Measured g.p.Nsite T (psi g) (szList g c) w a (calculateGreenFunc g T sched order order' junk w ip projCnt rbmCnt c a) := by
  obtain ⟨s0, s1, s2, s3, s4⟩ := hs
  have hn : order.Nodup := ho.nodup_iff.mpr List.nodup_range
  have hn' : order'.Nodup := ho'.nodup_iff.mpr List.nodup_range
  unfold calculateGreenFunc
  rw [loc_threads hg hr h hT hz sched junk order hn, acc_threads T sched w order' hn']
  refine ⟨fun i hi => ?_, fun i hi => ?_, fun i hi => ?_⟩ <;> simp only []
  · rw [if_pos (threads_all s2 ho' hi), if_pos (threads_all s0 ho hi)]
  · rw [if_pos (threads_all s3 ho' hi), if_pos (threads_all s1 ho hi)]
  · obtain ⟨p1, p2⟩ := hT.prod i hi
    rw [if_pos (threads_all s4 ho' hi), if_pos (threads_all s0 ho p1), if_pos (threads_all s0 ho p2)]

/-! ### general-Sz mode: executions in which every fetch is directly followed by its evaluation -/

theorem accF_threads (T : GrnTab) (sched : Nat → Nat → Nat) (w : ℝ) : ∀ (order : List Nat) (_ : order.Nodup) (a : GrnAcc),
    order.foldl (accThreadF T sched w) a = { a with
      phys1 := fun k => if k < T.n1 ∧ sched 2 k ∈ order then a.phys1 k + w * a.loc1 k else a.phys1 k
      phys2 := fun k => if k < T.n2 ∧ sched 4 k ∈ order then
        a.phys2 k + w * a.loc1 (T.t2 k 0) * (starRingEnd ℂ) (a.loc1 (T.t2 k 1)) else a.phys2 k } := by
  intro order hn a
  have one : ∀ (a : GrnAcc) (τ : Nat), accThreadF T sched w a τ = { a with
      phys1 := fun k => if k < T.n1 ∧ sched 2 k = τ then a.phys1 k + w * a.loc1 k else a.phys1 k
      phys2 := fun k => if k < T.n2 ∧ sched 4 k = τ then
        a.phys2 k + w * a.loc1 (T.t2 k 0) * (starRingEnd ℂ) (a.loc1 (T.t2 k 1)) else a.phys2 k } := by
    intro a τ
    unfold accThreadF
    simp only []
    have e1 := ompFor_cell (W := fun f => ({ a with phys1 := f } : GrnAcc)) (s := sched 2) (τ := τ) (n := T.n1)
      (body := fun a i => { a with phys1 := setC a.phys1 i (a.phys1 i + w * a.loc1 i) })
      (u := fun i x => x + w * a.loc1 i) (fun i _ f => rfl) a.phys1
    rw [e1]
    have e3 : ∀ A : GrnAcc, ompFor (sched 4) τ T.n2 (fun a i =>
        ({ a with phys2 := setC a.phys2 i (a.phys2 i + w * a.loc1 (T.t2 i 0) * (starRingEnd ℂ) (a.loc1 (T.t2 i 1))) } : GrnAcc)) A
      = { A with phys2 := fun k => if k < T.n2 ∧ sched 4 k = τ then
            A.phys2 k + w * A.loc1 (T.t2 k 0) * (starRingEnd ℂ) (A.loc1 (T.t2 k 1)) else A.phys2 k } :=
      fun A => ompFor_cell (W := fun f => ({ A with phys2 := f } : GrnAcc)) (s := sched 4) (τ := τ) (n := T.n2)
      (body := fun a i => { a with phys2 := setC a.phys2 i (a.phys2 i + w * a.loc1 (T.t2 i 0) * (starRingEnd ℂ) (a.loc1 (T.t2 i 1))) })
      (u := fun i x => x + w * A.loc1 (T.t2 i 0) * (starRingEnd ℂ) (A.loc1 (T.t2 i 1))) (fun i _ f => rfl) A.phys2
    rw [e3]
  have key : order.foldl (accThreadF T sched w) a = { a with
      phys1 := order.foldl (fun f τ => fun k => if k < T.n1 ∧ sched 2 k = τ then f k + w * a.loc1 k else f k) a.phys1
      phys2 := order.foldl (fun f τ => fun k => if k < T.n2 ∧ sched 4 k = τ then
        f k + w * a.loc1 (T.t2 k 0) * (starRingEnd ℂ) (a.loc1 (T.t2 k 1)) else f k) a.phys2 } := by
    clear hn
    induction order generalizing a with
    | nil => rfl
    | cons τ l ih => rw [List.foldl_cons, ih, one]; rfl
  rw [key]
  rw [threads_cell (u := fun k x => x + w * a.loc1 k) order hn,
    threads_cell (u := fun k x => x + w * a.loc1 (T.t2 k 0) * (starRingEnd ℂ) (a.loc1 (T.t2 k 1))) order hn]

section
variable {g : GrnEnv} (hg : GrnOK g) {c : FCfg} {ip : ℂ} {projCnt : Arr} (h : SampledF g c ip projCnt) {T : GrnTab}
  (hT : GrnIdx g.p.Nsite T) (w : ℝ)
include hg h hT

theorem stepF_one (junk : Nat → FCfg) {st : GrnFState} (hst : st.my = fun τ => privF g c (junk τ)) {i : Nat} (hi : i < T.n1) (τ : Nat) :
    [GrnEv.fetch1 τ i, .eval1 τ i].foldl (grnStepF g T w ip projCnt) st =
      { st with t := T.t1 i 3, acc := { st.acc with
          loc1 := setC st.acc.loc1 i (matrixElement (psi g) (grnOp1 g.p.Nsite T i) (fszList g c)) } } := by
  obtain ⟨hm, hl⟩ := sampledF_priv hg h (junk τ)
  obtain ⟨h1, s1, h2, s2⟩ := hT.one i hi
  have hmy : (fun k => if k = τ then privF g c (junk τ) else st.my k) = st.my := by
    funext k
    by_cases e : k = τ
    · rw [if_pos e, e, hst]
    · rw [if_neg e]
  simp only [List.foldl_cons, List.foldl_nil, grnStepF]
  have hmt : st.my τ = privF g c (junk τ) := by rw [hst]
  rw [hmt]
  by_cases q : T.t1 i 1 = T.t1 i 3
  · simp only [if_pos q]
    rw [greenFunc1F_val hg hm s1 h1 h2, hl]
    simp only [hmy]
    unfold grnOp1
    rw [← q]
  · simp only [if_neg q]
    rw [greenFunc1F2_val hg hm s1 s2 h1 h2 (fun e => q ((flat_inj s1 s2 h1 h2).mp e).2), hl]
    simp only [hmy]
    rfl

theorem stepF_two (junk : Nat → FCfg) {st : GrnFState} (hst : st.my = fun τ => privF g c (junk τ)) {i : Nat} (hi : i < T.nDC) (τ : Nat) :
    [GrnEv.fetch2 τ i, .eval2 τ i].foldl (grnStepF g T w ip projCnt) st =
      { st with u := T.tDC i 5, v := T.tDC i 7, acc := { st.acc with
          physDC := setC st.acc.physDC i (st.acc.physDC i + w * matrixElement (psi g) (grnOpDC g.p.Nsite T i) (fszList g c)) } } := by
  obtain ⟨hm, hl⟩ := sampledF_priv hg h (junk τ)
  obtain ⟨⟨h1, h2, h3, h4⟩, s1, s2, s3, s4⟩ := hT.two i hi
  have hmy : (fun k => if k = τ then privF g c (junk τ) else st.my k) = st.my := by
    funext k
    by_cases e : k = τ
    · rw [if_pos e, e, hst]
    · rw [if_neg e]
  simp only [List.foldl_cons, List.foldl_nil, grnStepF]
  have hmt : st.my τ = privF g c (junk τ) := by rw [hst]
  rw [hmt]
  by_cases q : T.tDC i 1 = T.tDC i 3 ∧ T.tDC i 5 = T.tDC i 7
  · simp only [if_pos q]
    rw [greenFunc2F_val hg hm s1 s3 h1 h2 h3 h4, hl]
    simp only [hmy]
    unfold grnOpDC
    rw [← q.1, ← q.2]
  · simp only [if_neg q]
    rw [greenFunc2F2_val hg hm s1 s2 s3 s4 h1 h2 h3 h4, hl]
    simp only [hmy]
    rfl

theorem runF_one (junk : Nat → FCfg) : ∀ (its : List (Nat × Nat)) (_ : ∀ x ∈ its, x.2 < T.n1) {st : GrnFState}
    (_ : st.my = fun τ => privF g c (junk τ)),
    ∃ t', (its.flatMap (fun x => [GrnEv.fetch1 x.1 x.2, .eval1 x.1 x.2])).foldl (grnStepF g T w ip projCnt) st =
      { st with t := t', acc := { st.acc with
          loc1 := fun k => if k ∈ its.map (·.2) then
            matrixElement (psi g) (grnOp1 g.p.Nsite T k) (fszList g c) else st.acc.loc1 k } } := by
  intro its
  induction its with
  | nil => intro _ st _; exact ⟨st.t, by simp⟩
  | cons x l ih =>
    intro hx st hst
    rw [List.flatMap_cons, List.foldl_append, stepF_one hg h hT w junk hst (hx x List.mem_cons_self)]
    obtain ⟨t', e⟩ := ih (fun y hy => hx y (List.mem_cons_of_mem _ hy)) (st := { st with t := T.t1 x.2 3, acc := { st.acc with
          loc1 := setC st.acc.loc1 x.2 (matrixElement (psi g) (grnOp1 g.p.Nsite T x.2) (fszList g c)) } }) hst
    refine ⟨t', ?_⟩
    rw [e]
    simp only []
    congr 2
    funext k
    by_cases q : k ∈ l.map (·.2)
    · rw [if_pos q, if_pos (by rw [List.map_cons]; exact List.mem_cons_of_mem _ q)]
    · rw [if_neg q]
      by_cases e : k = x.2
      · rw [if_pos (by rw [List.map_cons, e]; exact List.mem_cons_self), e, setC_self]
      · rw [if_neg (by rw [List.map_cons, List.mem_cons]; rintro (z | z); exact e z; exact q z), setC_ne e]

theorem runF_two (junk : Nat → FCfg) : ∀ (its : List (Nat × Nat)) (_ : ∀ x ∈ its, x.2 < T.nDC) (_ : (its.map (·.2)).Nodup) {st : GrnFState}
    (_ : st.my = fun τ => privF g c (junk τ)),
    ∃ u' v', (its.flatMap (fun x => [GrnEv.fetch2 x.1 x.2, .eval2 x.1 x.2])).foldl (grnStepF g T w ip projCnt) st =
      { st with u := u', v := v', acc := { st.acc with
          physDC := fun k => if k ∈ its.map (·.2) then
            st.acc.physDC k + w * matrixElement (psi g) (grnOpDC g.p.Nsite T k) (fszList g c) else st.acc.physDC k } } := by
  intro its
  induction its with
  | nil => intro _ _ st _; exact ⟨st.u, st.v, by simp⟩
  | cons x l ih =>
    intro hx hn st hst
    rw [List.map_cons, List.nodup_cons] at hn
    rw [List.flatMap_cons, List.foldl_append, stepF_two hg h hT w junk hst (hx x List.mem_cons_self)]
    obtain ⟨u', v', e⟩ := ih (fun y hy => hx y (List.mem_cons_of_mem _ hy)) hn.2 (st := { st with
      u := T.tDC x.2 5, v := T.tDC x.2 7, acc := { st.acc with physDC := setC st.acc.physDC x.2 (st.acc.physDC x.2 +
        w * matrixElement (psi g) (grnOpDC g.p.Nsite T x.2) (fszList g c)) } }) hst
    refine ⟨u', v', ?_⟩
    rw [e]
    simp only []
    congr 2
    funext k
    by_cases q : k ∈ l.map (·.2)
    · have hk : k ≠ x.2 := by rintro rfl; exact hn.1 q
      rw [if_pos q, if_pos (by rw [List.map_cons]; exact List.mem_cons_of_mem _ q), setC_ne hk]
    · rw [if_neg q]
      by_cases e : k = x.2
      · rw [if_pos (by rw [List.map_cons, e]; exact List.mem_cons_self), e, setC_self]
      · rw [if_neg (by rw [List.map_cons, List.mem_cons]; rintro (z | z); exact e z; exact q z), setC_ne e]

theorem calculateGreenFuncF_val {nT : Nat} {sched : Nat → Nat → Nat} (hs : GrnSched T nT sched) {order' : List Nat}
    (ho' : order'.Perm (List.range nT)) {its its' : List (Nat × Nat)} (hi : (its.map (·.2)).Perm (List.range T.n1))
    (hi' : (its'.map (·.2)).Perm (List.range T.nDC)) (junk : Nat → FCfg) (t₀ u₀ v₀ : Nat) (a : GrnAcc) :
    Measured g.p.Nsite T (psi g) (fszList g c) w a (calculateGreenFuncF g T sched
      (its.flatMap (fun x => [GrnEv.fetch1 x.1 x.2, .eval1 x.1 x.2]) ++ its'.flatMap (fun x => [GrnEv.fetch2 x.1 x.2, .eval2 x.1 x.2]))
      order' junk t₀ u₀ v₀ w ip projCnt c a) := by
  obtain ⟨s0, s1, s2, s3, s4⟩ := hs
  have hn' : order'.Nodup := ho'.nodup_iff.mpr List.nodup_range
  have r1 : ∀ x ∈ its, x.2 < T.n1 := fun x hx => List.mem_range.mp (hi.mem_iff.mp (List.mem_map_of_mem hx))
  have r2 : ∀ x ∈ its', x.2 < T.nDC := fun x hx => List.mem_range.mp (hi'.mem_iff.mp (List.mem_map_of_mem hx))
  unfold calculateGreenFuncF
  rw [List.foldl_append]
  obtain ⟨t', e1⟩ := runF_one hg h hT w junk its r1 (st := ⟨t₀, u₀, v₀, fun τ => privF g c (junk τ), a⟩) rfl
  rw [e1]
  simp only []
  obtain ⟨u', v', e2⟩ := runF_two hg h hT w junk its' r2 (hi'.nodup_iff.mpr List.nodup_range)
    (st := ⟨t', u₀, v₀, fun τ => privF g c (junk τ), { a with
          loc1 := fun k => if k ∈ its.map (·.2) then
            matrixElement (psi g) (grnOp1 g.p.Nsite T k) (fszList g c) else a.loc1 k }⟩) rfl
  rw [e2, accF_threads T sched w order' hn']
  have m1 : ∀ k, k < T.n1 → k ∈ its.map (·.2) := fun k hk => hi.mem_iff.mpr (List.mem_range.mpr hk)
  refine ⟨fun i hi => ?_, fun i hi => ?_, fun i hi => ?_⟩ <;> simp only []
  · rw [if_pos (threads_all s2 ho' hi), if_pos (m1 i hi)]
  · rw [if_pos (hi'.mem_iff.mpr (List.mem_range.mpr hi))]
  · obtain ⟨p1, p2⟩ := hT.prod i hi
    rw [if_pos (threads_all s4 ho' hi), if_pos (m1 _ p1), if_pos (m1 _ p2)]

end

end MVMC
