import Verif.Spec.Hamiltonian
import Verif.Proof.LocGrnFsz

/-! # The local energy equals the matrix element of the Hamiltonian, for every division into threads -/
namespace MVMC
open MVMC.Spec Finset

/-! ### loops -/

theorem ompFor_acc {σ : Type} (E : ℂ → σ) {s : Nat → Nat} {τ n : Nat} {body : σ → Nat → σ} {v : Nat → ℂ}
    (h : ∀ i < n, ∀ e, body (E e) i = E (e + v i)) (e : ℂ) :
    ompFor s τ n body (E e) = E (e + ∑ i ∈ range n, if s i = τ then v i else 0) := by
  unfold ompFor
  induction n with
  | zero => simp
  | succ n ih =>
    rw [List.range_succ, List.foldl_append, ih (fun i hi => h i (by omega))]
    simp only [List.foldl_cons, List.foldl_nil, sum_range_succ]
    by_cases q : s n = τ
    · rw [if_pos q, h n (by omega), if_pos q, add_assoc]
    · rw [if_neg q, if_neg q, add_zero]

theorem foldl_add_sum (f : Nat → ℂ) : ∀ (l : List Nat) (e : ℂ), l.foldl (fun e τ => e + f τ) e = e + (l.map f).sum := by
  intro l
  induction l with
  | nil => intro e; simp
  | cons a l ih => intro e; rw [List.foldl_cons, ih]; simp [add_assoc]

theorem reduce_sum {order : List Nat} {T : Nat} (ho : order.Perm (List.range T)) (f : Nat → ℂ) :
    order.foldl (fun e τ => e + f τ) 0 = ∑ τ ∈ range T, f τ := by
  rw [foldl_add_sum, zero_add, (ho.map f).sum_eq]
  rfl

theorem thread_sum {T n : Nat} {s : Nat → Nat} (hs : ∀ i < n, s i < T) (v : Nat → ℂ) :
    ∑ τ ∈ range T, ∑ i ∈ range n, (if s i = τ then v i else 0) = ∑ i ∈ range n, v i := by
  rw [sum_comm]
  refine sum_congr rfl (fun i hi => ?_)
  rw [sum_ite_eq, if_pos (mem_range.mpr (hs i (mem_range.mp hi)))]

theorem privCopy_at (n : Nat) (src junk : Arr) {i : Nat} (hi : i < n) : privCopy n src junk i = src i := by
  unfold privCopy
  induction n with
  | zero => omega
  | succ n ih =>
    rw [List.range_succ, List.foldl_append]
    simp only [List.foldl_cons, List.foldl_nil]
    by_cases q : i = n
    · subst q; exact set_self _ _ _
    · rw [set_ne q]; exact ih (by omega)

/-! ### private copies carry the same sample -/

theorem occSz_congr {ne N : Nat} {a b : Arr} (h : ∀ i < 2 * ne, a i = b i) : ∀ i, i < 2 * ne → occSz ne N a i = occSz ne N b i := by
  intro i hi; unfold occSz; rw [h i hi]

theorem occF_congr {n N : Nat} {a b s s' : Arr} (h : ∀ i < n, a i = b i) (h' : ∀ i < n, s i = s' i) :
    ∀ i, i < n → occF N a s i = occF N b s' i := by
  intro i hi; unfold occF; rw [h i hi, h' i hi]

theorem occList_congr {n : Nat} {a b : Nat → Nat} (h : ∀ i, i < n → a i = b i) : occList n a = occList n b := by
  unfold occList
  exact List.map_congr_left (fun i hi => h i (List.mem_range.mp hi))

theorem amplitude_congr {n m : Nat} {slt w : Nat → ℂ} {qs nq : Nat} {rs rs' : Nat → Nat} (h : ∀ i, i < n → rs i = rs' i) :
    amplitude n m slt w qs nq rs = amplitude n m slt w qs nq rs' := by
  unfold amplitude
  refine sum_congr rfl (fun q _ => ?_)
  rw [pfOf_congr h (fun _ _ _ _ => rfl)]

section sz
variable {g : GrnEnv} {c : EleCfg} {ip : ℂ} {projCnt : Arr} {rbmCnt : Nat → ℂ}

theorem sampled_priv (hg : GrnOK g) (hr : g.flagRBM = true → GrnRBM g) (h : Sampled g c ip projCnt rbmCnt) (junk : EleCfg) :
    Sampled g (privS g c junk) ip projCnt rbmCnt ∧ szList g (privS g c junk) = szList g c := by
  have hi : ∀ i < 2 * g.p.Ne, c.idx i = (privS g c junk).idx i := fun i hi => (privCopy_at _ _ _ hi).symm
  have hn : ∀ i < 2 * g.p.Nsite, c.num i = (privS g c junk).num i := fun i hi => (privCopy_at _ _ _ hi).symm
  have ho := occSz_congr (N := g.p.Nsite) hi
  have hb : Bin2 (2 * g.p.Nsite) c.num := (placed_sz (show Cons g.sp c from h.cons)).bin
  refine ⟨⟨⟨?_, ?_⟩, pfOK_congr ho h.pf, ?_, h.hne, ?_, ?_⟩, (occList_congr ho).symm⟩
  · intro s hs m hm
    obtain ⟨r, h1, h2, h3⟩ := h.cons.electron s hs m hm
    exact ⟨r, h1, by rw [← hi _ (orb_lt hs hm)]; exact h2, h3⟩
  · intro s hs r hr'
    rcases h.cons.site s hs r hr' with ⟨h1, h2⟩ | ⟨m, h1, h2, h3, h4⟩
    · exact Or.inl ⟨h1, by rw [← hn _ (orb_lt hs hr')]; exact h2⟩
    · exact Or.inr ⟨m, h1, h2, by rw [← hi _ (orb_lt hs h1)]; exact h3, by rw [← hn _ (orb_lt hs hr')]; exact h4⟩
  · rw [h.hip]; exact amplitude_congr ho
  · intro k hk
    rw [h.proj k hk]
    exact makeProj_congr hg.tab (by rw [hg.hq]; exact hb) (by rw [hg.hq]; exact hn) k
  · intro hf k hk
    rw [h.rbm hf k hk]
    exact makeRBM_congr (by rw [(hr hf).hN]; exact hn) k

end sz

section fsz
variable {g : GrnEnv} {c : FCfg} {ip : ℂ} {projCnt : Arr}

theorem sampledF_priv (hg : GrnOK g) (h : SampledF g c ip projCnt) (junk : FCfg) :
    SampledF g (privF g c junk) ip projCnt ∧ fszList g (privF g c junk) = fszList g c := by
  have hi : ∀ i < 2 * g.p.Ne, c.idx i = (privF g c junk).idx i := fun i hi => (privCopy_at _ _ _ hi).symm
  have hs : ∀ i < 2 * g.p.Ne, c.spn i = (privF g c junk).spn i := fun i hi => (privCopy_at _ _ _ hi).symm
  have hn : ∀ i < 2 * g.p.Nsite, c.num i = (privF g c junk).num i := fun i hi => (privCopy_at _ _ _ hi).symm
  have ho := occF_congr (N := g.p.Nsite) hi hs
  have hb : Bin2 (2 * g.p.Nsite) c.num := (placed_fsz (show ConsF g.fp c from h.cons)).bin
  refine ⟨⟨⟨?_, ?_⟩, pfOK_congr ho h.pf, ?_, h.hne, ?_, h.noRBM⟩, (occList_congr ho).symm⟩
  · intro m hm
    obtain ⟨s, h1, r, h2, h3, h4, h5⟩ := h.cons.electron m hm
    exact ⟨s, h1, r, h2, by rw [← hi _ hm]; exact h3, by rw [← hs _ hm]; exact h4, h5⟩
  · intro s hs' r hr'
    rcases h.cons.site s hs' r hr' with ⟨h1, h2⟩ | ⟨m, h1, h2, h3, h4, h5⟩
    · exact Or.inl ⟨h1, by rw [← hn _ (orb_lt hs' hr')]; exact h2⟩
    · exact Or.inr ⟨m, h1, h2, by rw [← hi _ h1]; exact h3, by rw [← hs _ h1]; exact h4, by rw [← hn _ (orb_lt hs' hr')]; exact h5⟩
  · rw [h.hip]; exact amplitude_congr ho
  · intro k hk
    rw [h.proj k hk]
    exact makeProj_congr hg.tab (by rw [hg.hq]; exact hb) (by rw [hg.hq]; exact hn) k

end fsz

/-! ### the specification side -/

theorem energyOf_append (Ψ : List Nat → ℂ) (A B : List (ℂ × List Op)) (x : List Nat) :
    energyOf Ψ (A ++ B) x = energyOf Ψ A x + energyOf Ψ B x := by
  unfold energyOf; rw [List.map_append, List.sum_append]

theorem energyOf_flatMap (Ψ : List Nat → ℂ) (n : Nat) (f : Nat → List (ℂ × List Op)) (x : List Nat) :
    energyOf Ψ ((List.range n).flatMap f) x = ∑ i ∈ range n, energyOf Ψ (f i) x := by
  induction n with
  | zero => simp [energyOf]
  | succ n ih =>
    rw [List.range_succ, List.flatMap_append, energyOf_append, ih, sum_range_succ]
    simp

theorem num_num {g : GrnEnv} (hg : GrnOK g) {n : Nat} {rs : Nat → Nat} {num : Arr} (h : Placed n (2 * g.p.Nsite) rs num)
    (hne : psi g (occList n rs) ≠ 0) {x y : Nat} (hx : x < 2 * g.p.Nsite) (hy : y < 2 * g.p.Nsite) :
    matrixElement (psi g) (numOp x ++ numOp y) (occList n rs) = (num x : ℂ) * (num y : ℂ) := by
  show matrixElement (psi g) [.cr x, .an x, .cr y, .an y] _ = _
  rw [matrixElement_two, ov2_KK (psi_anti hg) hx hy h.nodup h.range, ov1_same (psi_anti hg) hx h.nodup h.range]
  rw [num_two h hx, num_two h hy]
  by_cases a : x ∈ occList n rs <;> by_cases b : y ∈ occList n rs <;> simp [a, b, hne]

/-- the number-operator loops -/
theorem diagLoops_val {g : GrnEnv} (hg : GrnOK g) {n : Nat} {rs : Nat → Nat} {num : Arr} (h : Placed n (2 * g.p.Nsite) rs num)
    (hne : psi g (occList n rs) ≠ 0) {H : HamPar} (hH : HamIdx g.p.Nsite H) (sched : Nat → Nat → Nat) (τ : Nat) (e : ℂ) :
    diagLoops g.p.Nsite H sched τ num e = e
      + (∑ i ∈ range H.nCI, if sched 0 i = τ then energyOf (psi g) (termCoulombIntra g.p.Nsite (H.pCI i) (H.ci i)) (occList n rs) else 0)
      + (∑ i ∈ range H.nCO, if sched 1 i = τ then
          energyOf (psi g) (termCoulombInter g.p.Nsite (H.pCO i) (H.co i 0) (H.co i 1)) (occList n rs) else 0)
      + (∑ i ∈ range H.nHU, if sched 2 i = τ then
          energyOf (psi g) (termHund g.p.Nsite (H.pHU i) (H.hu i 0) (H.hu i 1)) (occList n rs) else 0) := by
  have lo : ∀ {r}, r < g.p.Nsite → r < 2 * g.p.Nsite := fun h => by omega
  have hi : ∀ {r}, r < g.p.Nsite → r + g.p.Nsite < 2 * g.p.Nsite := fun h => by omega
  unfold diagLoops
  simp only []
  rw [ompFor_acc (s := sched 0) (n := H.nCI) (E := fun e => e)
      (v := fun i => energyOf (psi g) (termCoulombIntra g.p.Nsite (H.pCI i) (H.ci i)) (occList n rs)),
    ompFor_acc (s := sched 1) (n := H.nCO) (E := fun e => e)
      (v := fun i => energyOf (psi g) (termCoulombInter g.p.Nsite (H.pCO i) (H.co i 0) (H.co i 1)) (occList n rs)),
    ompFor_acc (s := sched 2) (n := H.nHU) (E := fun e => e)
      (v := fun i => energyOf (psi g) (termHund g.p.Nsite (H.pHU i) (H.hu i 0) (H.hu i 1)) (occList n rs))]
  · intro i hi' e
    obtain ⟨h1, h2⟩ := hH.hu i hi'
    simp only [energyOf, termHund, List.map_cons, List.map_nil, List.sum_cons, List.sum_nil]
    rw [num_num hg h hne (lo h1) (lo h2), num_num hg h hne (hi h1) (hi h2)]
    push_cast; ring
  · intro i hi' e
    obtain ⟨h1, h2⟩ := hH.co i hi'
    simp only [energyOf, termCoulombInter, List.map_cons, List.map_nil, List.sum_cons, List.sum_nil]
    rw [num_num hg h hne (lo h1) (lo h2), num_num hg h hne (lo h1) (hi h2), num_num hg h hne (hi h1) (lo h2),
      num_num hg h hne (hi h1) (hi h2)]
    push_cast; ring
  · intro i hi' e
    have h1 := hH.ci i hi'
    simp only [energyOf, termCoulombIntra, List.map_cons, List.map_nil, List.sum_cons, List.sum_nil]
    rw [num_num hg h hne (lo h1) (hi h1)]
    push_cast; ring

theorem energyOf_one (Ψ : List Nat → ℂ) (a : ℂ) (ops : List Op) (x : List Nat) :
    energyOf Ψ [(a, ops)] x = a * matrixElement Ψ ops x := by
  simp [energyOf]

theorem sched_total {H : HamPar} {T : Nat} {sched : Nat → Nat → Nat} (hs : SchedOK H T sched) (N : Nat) (Ψ : List Nat → ℂ) (x : List Nat)
    {order : List Nat} (ho : order.Perm (List.range T)) {f : Nat → ℂ}
    (hf : ∀ τ, f τ = 0
      + (∑ i ∈ range H.nCI, if sched 0 i = τ then energyOf Ψ (termCoulombIntra N (H.pCI i) (H.ci i)) x else 0)
      + (∑ i ∈ range H.nCO, if sched 1 i = τ then energyOf Ψ (termCoulombInter N (H.pCO i) (H.co i 0) (H.co i 1)) x else 0)
      + (∑ i ∈ range H.nHU, if sched 2 i = τ then energyOf Ψ (termHund N (H.pHU i) (H.hu i 0) (H.hu i 1)) x else 0)
      + (∑ i ∈ range H.nTR, if sched 3 i = τ then
          energyOf Ψ (termTransfer N (H.pTR i) (H.tr i 0) (H.tr i 1) (H.tr i 2) (H.tr i 3)) x else 0)
      + (∑ i ∈ range H.nPH, if sched 4 i = τ then energyOf Ψ (termPairHop N (H.pPH i) (H.ph i 0) (H.ph i 1)) x else 0)
      + (∑ i ∈ range H.nEX, if sched 5 i = τ then energyOf Ψ (termExchange N (H.pEX i) (H.ex i 0) (H.ex i 1)) x else 0)
      + (∑ i ∈ range H.nIA, if sched 6 i = τ then energyOf Ψ (termInterAll N (H.pIA i) (H.ia i 0) (H.ia i 1) (H.ia i 2) (H.ia i 3)
          (H.ia i 4) (H.ia i 5) (H.ia i 6) (H.ia i 7)) x else 0)) :
    order.foldl (fun e τ => e + f τ) 0 = energyOf Ψ (hamTerms N H) x := by
  obtain ⟨h0, h1, h2, h3, h4, h5, h6⟩ := hs
  rw [reduce_sum ho, sum_congr rfl (fun τ _ => hf τ)]
  simp only [sum_add_distrib]
  rw [thread_sum h0, thread_sum h1, thread_sum h2, thread_sum h3, thread_sum h4, thread_sum h5, thread_sum h6]
  unfold hamTerms
  simp only [energyOf_append, energyOf_flatMap, sum_const_zero, zero_add]

/-! ### the two modes -/

theorem hamThread_val {g : GrnEnv} (hg : GrnOK g) (hr : g.flagRBM = true → GrnRBM g) {c : EleCfg} {ip : ℂ} {projCnt : Arr}
    {rbmCnt : Nat → ℂ} (h : Sampled g c ip projCnt rbmCnt) {H : HamPar} (hH : HamIdx g.p.Nsite H) (hsz : HamSzConserving H)
    (sched : Nat → Nat → Nat) (τ : Nat) (junk : EleCfg) :
    hamThread g H sched τ junk ip projCnt rbmCnt c = 0
      + (∑ i ∈ range H.nCI, if sched 0 i = τ then energyOf (psi g) (termCoulombIntra g.p.Nsite (H.pCI i) (H.ci i)) (szList g c) else 0)
      + (∑ i ∈ range H.nCO, if sched 1 i = τ then
          energyOf (psi g) (termCoulombInter g.p.Nsite (H.pCO i) (H.co i 0) (H.co i 1)) (szList g c) else 0)
      + (∑ i ∈ range H.nHU, if sched 2 i = τ then
          energyOf (psi g) (termHund g.p.Nsite (H.pHU i) (H.hu i 0) (H.hu i 1)) (szList g c) else 0)
      + (∑ i ∈ range H.nTR, if sched 3 i = τ then
          energyOf (psi g) (termTransfer g.p.Nsite (H.pTR i) (H.tr i 0) (H.tr i 1) (H.tr i 2) (H.tr i 3)) (szList g c) else 0)
      + (∑ i ∈ range H.nPH, if sched 4 i = τ then
          energyOf (psi g) (termPairHop g.p.Nsite (H.pPH i) (H.ph i 0) (H.ph i 1)) (szList g c) else 0)
      + (∑ i ∈ range H.nEX, if sched 5 i = τ then
          energyOf (psi g) (termExchange g.p.Nsite (H.pEX i) (H.ex i 0) (H.ex i 1)) (szList g c) else 0)
      + (∑ i ∈ range H.nIA, if sched 6 i = τ then energyOf (psi g) (termInterAll g.p.Nsite (H.pIA i) (H.ia i 0) (H.ia i 1) (H.ia i 2)
          (H.ia i 3) (H.ia i 4) (H.ia i 5) (H.ia i 6) (H.ia i 7)) (szList g c) else 0) := by
  obtain ⟨hm, hl⟩ := sampled_priv hg hr h junk
  have pl := placed_sz (show Cons g.sp c from h.cons)
  have hd := diagLoops_val hg pl (h.list_ne hg hr) hH sched τ 0
  unfold hamThread
  simp only []
  rw [hd]
  rw [ompFor_acc (E := fun e => (e, privS g c junk)) (n := H.nTR)
      (v := fun i => energyOf (psi g) (termTransfer g.p.Nsite (H.pTR i) (H.tr i 0) (H.tr i 1) (H.tr i 2) (H.tr i 3)) (szList g c)),
    ompFor_acc (E := fun e => (e, privS g c junk)) (n := H.nPH)
      (v := fun i => energyOf (psi g) (termPairHop g.p.Nsite (H.pPH i) (H.ph i 0) (H.ph i 1)) (szList g c)),
    ompFor_acc (E := fun e => (e, privS g c junk)) (n := H.nEX)
      (v := fun i => energyOf (psi g) (termExchange g.p.Nsite (H.pEX i) (H.ex i 0) (H.ex i 1)) (szList g c)),
    ompFor_acc (E := fun e => (e, privS g c junk)) (n := H.nIA)
      (v := fun i => energyOf (psi g) (termInterAll g.p.Nsite (H.pIA i) (H.ia i 0) (H.ia i 1) (H.ia i 2)
          (H.ia i 3) (H.ia i 4) (H.ia i 5) (H.ia i 6) (H.ia i 7)) (szList g c))]
  · rfl
  · intro i hi e
    obtain ⟨⟨h1, h2, h3, h4⟩, s1, s2, s3, s4⟩ := hH.ia i hi
    obtain ⟨e1, e2⟩ := hsz.ia i hi
    simp only []
    rw [greenFunc2_val hg hr hm s2 s4 h1 h2 h3 h4, hl]
    unfold termInterAll
    rw [energyOf_one, e1, e2]
  · intro i hi e
    obtain ⟨h1, h2⟩ := hH.ex i hi
    simp only []
    rw [greenFunc2_val hg hr hm (by decide) (by decide) h1 h2 h2 h1]
    simp only []
    rw [greenFunc2_val hg hr hm (by decide) (by decide) h1 h2 h2 h1, hl]
    simp only [termExchange, energyOf, List.map_cons, List.map_nil, List.sum_cons, List.sum_nil, zero_mul, one_mul, add_zero, mul_add]
  · intro i hi e
    obtain ⟨h1, h2⟩ := hH.ph i hi
    simp only []
    rw [greenFunc2_val hg hr hm (by decide) (by decide) h1 h2 h1 h2, hl]
    simp only [termPairHop, energyOf_one, zero_mul, one_mul, add_zero]
  · intro i hi e
    obtain ⟨h1, s1, h2, s2⟩ := hH.tr i hi
    simp only []
    rw [greenFunc1_val hg hr hm s2 h1 h2, hl]
    unfold termTransfer
    rw [energyOf_one, hsz.tr i hi, neg_mul, sub_eq_add_neg]

theorem calculateHamiltonian_val {g : GrnEnv} (hg : GrnOK g) (hr : g.flagRBM = true → GrnRBM g) {c : EleCfg} {ip : ℂ} {projCnt : Arr}
    {rbmCnt : Nat → ℂ} (h : Sampled g c ip projCnt rbmCnt) {H : HamPar} (hH : HamIdx g.p.Nsite H) (hsz : HamSzConserving H)
    {sched : Nat → Nat → Nat} {T : Nat} (hs : SchedOK H T sched) {order : List Nat} (ho : order.Perm (List.range T))
    (junk : Nat → EleCfg) :
    calculateHamiltonian g H sched order junk ip projCnt rbmCnt c = energyOf (psi g) (hamTerms g.p.Nsite H) (szList g c) :=
  sched_total hs _ _ _ ho (fun τ => hamThread_val hg hr h hH hsz sched τ (junk τ))

theorem hamThreadF_val {g : GrnEnv} (hg : GrnOK g) {c : FCfg} {ip : ℂ} {projCnt : Arr}
    (h : SampledF g c ip projCnt) {H : HamPar} (hH : HamIdx g.p.Nsite H)
    (sched : Nat → Nat → Nat) (τ : Nat) (junk : FCfg) :
    hamThreadF g H sched τ junk ip projCnt c = 0
      + (∑ i ∈ range H.nCI, if sched 0 i = τ then energyOf (psi g) (termCoulombIntra g.p.Nsite (H.pCI i) (H.ci i)) (fszList g c) else 0)
      + (∑ i ∈ range H.nCO, if sched 1 i = τ then
          energyOf (psi g) (termCoulombInter g.p.Nsite (H.pCO i) (H.co i 0) (H.co i 1)) (fszList g c) else 0)
      + (∑ i ∈ range H.nHU, if sched 2 i = τ then
          energyOf (psi g) (termHund g.p.Nsite (H.pHU i) (H.hu i 0) (H.hu i 1)) (fszList g c) else 0)
      + (∑ i ∈ range H.nTR, if sched 3 i = τ then
          energyOf (psi g) (termTransfer g.p.Nsite (H.pTR i) (H.tr i 0) (H.tr i 1) (H.tr i 2) (H.tr i 3)) (fszList g c) else 0)
      + (∑ i ∈ range H.nPH, if sched 4 i = τ then
          energyOf (psi g) (termPairHop g.p.Nsite (H.pPH i) (H.ph i 0) (H.ph i 1)) (fszList g c) else 0)
      + (∑ i ∈ range H.nEX, if sched 5 i = τ then
          energyOf (psi g) (termExchange g.p.Nsite (H.pEX i) (H.ex i 0) (H.ex i 1)) (fszList g c) else 0)
      + (∑ i ∈ range H.nIA, if sched 6 i = τ then energyOf (psi g) (termInterAll g.p.Nsite (H.pIA i) (H.ia i 0) (H.ia i 1) (H.ia i 2)
          (H.ia i 3) (H.ia i 4) (H.ia i 5) (H.ia i 6) (H.ia i 7)) (fszList g c) else 0) := by
  obtain ⟨hm, hl⟩ := sampledF_priv hg h junk
  have pl := placed_fsz (show ConsF g.fp c from h.cons)
  have hd := diagLoops_val hg pl (h.list_ne hg) hH sched τ 0
  unfold hamThreadF
  simp only []
  rw [hd]
  rw [ompFor_acc (E := fun e => (e, privF g c junk)) (n := H.nTR)
      (v := fun i => energyOf (psi g) (termTransfer g.p.Nsite (H.pTR i) (H.tr i 0) (H.tr i 1) (H.tr i 2) (H.tr i 3)) (fszList g c)),
    ompFor_acc (E := fun e => (e, privF g c junk)) (n := H.nPH)
      (v := fun i => energyOf (psi g) (termPairHop g.p.Nsite (H.pPH i) (H.ph i 0) (H.ph i 1)) (fszList g c)),
    ompFor_acc (E := fun e => (e, privF g c junk)) (n := H.nEX)
      (v := fun i => energyOf (psi g) (termExchange g.p.Nsite (H.pEX i) (H.ex i 0) (H.ex i 1)) (fszList g c)),
    ompFor_acc (E := fun e => (e, privF g c junk)) (n := H.nIA)
      (v := fun i => energyOf (psi g) (termInterAll g.p.Nsite (H.pIA i) (H.ia i 0) (H.ia i 1) (H.ia i 2)
          (H.ia i 3) (H.ia i 4) (H.ia i 5) (H.ia i 6) (H.ia i 7)) (fszList g c))]
  · rfl
  · intro i hi e
    obtain ⟨⟨h1, h2, h3, h4⟩, s1, s2, s3, s4⟩ := hH.ia i hi
    simp only []
    unfold termInterAll
    rw [energyOf_one]
    by_cases q : H.ia i 1 = H.ia i 3 ∧ H.ia i 5 = H.ia i 7
    · rw [if_pos q, greenFunc2F_val hg hm s1 s3 h1 h2 h3 h4, hl, ← q.1, ← q.2]
    · rw [if_neg q, greenFunc2F2_val hg hm s1 s2 s3 s4 h1 h2 h3 h4, hl]
  · intro i hi e
    obtain ⟨h1, h2⟩ := hH.ex i hi
    simp only []
    rw [greenFunc2F_val hg hm (by decide) (by decide) h1 h2 h2 h1]
    simp only []
    rw [greenFunc2F_val hg hm (by decide) (by decide) h1 h2 h2 h1, hl]
    simp only [termExchange, energyOf, List.map_cons, List.map_nil, List.sum_cons, List.sum_nil, zero_mul, one_mul, add_zero, mul_add]
  · intro i hi e
    obtain ⟨h1, h2⟩ := hH.ph i hi
    simp only []
    rw [greenFunc2F_val hg hm (by decide) (by decide) h1 h2 h1 h2, hl]
    simp only [termPairHop, energyOf_one, zero_mul, one_mul, add_zero]
  · intro i hi e
    obtain ⟨h1, s1, h2, s2⟩ := hH.tr i hi
    simp only []
    unfold termTransfer
    rw [energyOf_one, neg_mul, ← sub_eq_add_neg]
    by_cases q : H.tr i 1 = H.tr i 3
    · rw [if_pos q, greenFunc1F_val hg hm s1 h1 h2, hl, ← q]
    · rw [if_neg q, greenFunc1F2_val hg hm s1 s2 h1 h2 (fun e => q ((flat_inj s1 s2 h1 h2).mp e).2), hl]

theorem calculateHamiltonianF_val {g : GrnEnv} (hg : GrnOK g) {c : FCfg} {ip : ℂ} {projCnt : Arr}
    (h : SampledF g c ip projCnt) {H : HamPar} (hH : HamIdx g.p.Nsite H)
    {sched : Nat → Nat → Nat} {T : Nat} (hs : SchedOK H T sched) {order : List Nat} (ho : order.Perm (List.range T))
    (junk : Nat → FCfg) :
    calculateHamiltonianF g H sched order junk ip projCnt c = energyOf (psi g) (hamTerms g.p.Nsite H) (fszList g c) :=
  sched_total hs _ _ _ ho (fun τ => hamThreadF_val hg h hH sched τ (junk τ))

theorem calculateHamiltonian0_val {g : GrnEnv} (hg : GrnOK g) {n : Nat} {rs : Nat → Nat} {num : Arr}
    (h : Placed n (2 * g.p.Nsite) rs num) (hne : psi g (occList n rs) ≠ 0) {H : HamPar} (hH : HamIdx g.p.Nsite H)
    {sched : Nat → Nat → Nat} {T : Nat} (hs : SchedOK H T sched) {order : List Nat} (ho : order.Perm (List.range T)) :
    calculateHamiltonian0 g.p.Nsite H sched order num = energyOf (psi g) (hamDiag g.p.Nsite H) (occList n rs) := by
  unfold calculateHamiltonian0
  rw [reduce_sum ho, sum_congr rfl (fun τ _ => diagLoops_val hg h hne hH sched τ 0)]
  simp only [sum_add_distrib]
  rw [thread_sum hs.1, thread_sum hs.2.1, thread_sum hs.2.2.1]
  unfold hamDiag
  simp only [energyOf_append, energyOf_flatMap, sum_const_zero, zero_add]

end MVMC
