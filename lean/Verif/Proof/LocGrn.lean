import Verif.Proof.LocGrnBase

/-! Values of `GreenFunc1` and `GreenFunc2`. -/
namespace MVMC
open MVMC.Spec Finset

theorem projSpec_ne (q : ProjPar) (Proj : Nat → ℂ) (num : Arr) : (projSpec q Proj num : ℂ) ≠ 0 := by
  unfold projSpec
  rw [Complex.ofReal_ne_zero]
  exact Real.exp_ne_zero _

theorem rbmSpec_ne {g : GrnEnv} (R : GrnRBM g) {num : Arr} (hb : Bin2 (2 * g.p.Nsite) num) : rbmSpec g.rbm num ≠ 0 := by
  rw [← rbmSpec_eq R.tab]
  unfold rbmValue
  apply mul_ne_zero (Complex.exp_ne_zero _)
  rw [prod_ne_zero_iff]
  intro h hh
  exact R.cosh num hb h (mem_range.mp hh)

theorem corrSpec_ne {g : GrnEnv} (hr : g.flagRBM = true → GrnRBM g) {num : Arr} (hb : Bin2 (2 * g.p.Nsite) num) :
    corrSpec g num ≠ 0 := by
  unfold corrSpec
  apply mul_ne_zero (projSpec_ne _ _ _)
  cases hf : g.flagRBM with
  | false => simp
  | true => simpa using rbmSpec_ne (hr hf) hb

/-- counters and inner product belong to the placement `rs` with occupations `num` -/
structure Carried (g : GrnEnv) (n : Nat) (rs : Nat → Nat) (num : Arr) (ip : ℂ) (projCnt : Arr) (rbmCnt : Nat → ℂ) : Prop where
  pl : Placed n (2 * g.p.Nsite) rs num
  hip : ip = amplitude n (2 * g.p.Nsite) g.slt g.w 0 g.nQP rs
  hne : ip ≠ 0
  proj : ∀ k < g.q.NProj, projCnt k = makeProjCnt g.q num k
  rbm : g.flagRBM = true → ∀ k < g.rbm.nPhys + g.rbm.nNeuron, rbmCnt k = makeRBMCnt g.rbm num k

section
variable {g : GrnEnv} (hg : GrnOK g) (hr : g.flagRBM = true → GrnRBM g) {n : Nat} {rs : Nat → Nat} {num : Arr} {ip : ℂ}
  {projCnt : Arr} {rbmCnt : Nat → ℂ}
include hg hr

theorem Carried.psi_ne (h : Carried g n rs num ip projCnt rbmCnt) : psi g (occList n rs) ≠ 0 := by
  rw [psi_placed hg hr h.pl, ← h.hip]
  exact mul_ne_zero (corrSpec_ne hr h.pl.bin) h.hne

/-- the product of the three ratios is the ratio of the wave functions -/
theorem Carried.ratio (h : Carried g n rs num ip projCnt rbmCnt) {rs' : Nat → Nat} {num' projNew : Arr} {rbmNew : Nat → ℂ}
    (hp : Placed n (2 * g.p.Nsite) rs' num') (hc : ∀ k < g.q.NProj, projNew k = makeProjCnt g.q num' k)
    (hb : g.flagRBM = true → ∀ k < g.rbm.nPhys + g.rbm.nNeuron, rbmNew k = makeRBMCnt g.rbm num' k) :
    ((if g.flagRBM then projRatioC g projNew projCnt * rbmRatioOne g rbmNew rbmCnt else projRatioC g projNew projCnt)
      * amplitude n (2 * g.p.Nsite) g.slt g.w 0 g.nQP rs') / ip = psi g (occList n rs') / psi g (occList n rs) := by
  have h0 := h.psi_ne hg hr
  rw [psi_placed hg hr h.pl] at h0 ⊢
  rw [psi_placed hg hr hp, ← h.hip]
  rw [← h.hip] at h0
  have hn := h.hne
  rw [projRatio_spec hg h.pl.bin hp.bin hc h.proj]
  have e1 := projSpec_ne g.q g.Proj num
  unfold corrSpec
  cases hf : g.flagRBM with
  | false =>
    simp only [if_false, Bool.false_eq_true, mul_one]
    field_simp
  | true =>
    simp only [if_true]
    rw [rbmRatio_spec (hr hf) h.pl.bin hp.bin (hb hf) (h.rbm hf)]
    have e2 := rbmSpec_ne (hr hf) h.pl.bin
    field_simp

end

/-! ### Sz-conserving mode -/

/-- sizes for the sampler lemmas -/
abbrev GrnEnv.sp (g : GrnEnv) : SamplerPar := ⟨g.p.Ne, g.p.Nsite, fun _ => 0, 0⟩

theorem placed_sz {g : GrnEnv} {c : EleCfg} (hc : Cons g.sp c) :
    Placed (2 * g.p.Ne) (2 * g.p.Nsite) (occSz g.p.Ne g.p.Nsite c.idx) c.num := by
  have el : ∀ i < 2 * g.p.Ne, ∃ s < 2, ∃ m < g.p.Ne, i = m + s * g.p.Ne := by
    intro i hi
    by_cases h : i < g.p.Ne
    · exact ⟨0, by omega, i, h, by omega⟩
    · exact ⟨1, by omega, i - g.p.Ne, by omega, by omega⟩
  have val : ∀ s < 2, ∀ m < g.p.Ne, ∃ r < g.p.Nsite, occSz g.p.Ne g.p.Nsite c.idx (m + s * g.p.Ne) = r + s * g.p.Nsite ∧
      c.cfg (r + s * g.p.Nsite) = m := by
    intro s hs m hm
    obtain ⟨r, hr, h1, h2⟩ := hc.electron s hs m hm
    refine ⟨r, hr, ?_, h2⟩
    rw [occ_msa (p := g.p) hm hs]
    have h1 : c.idx (m + s * g.p.Ne) = r := h1
    rw [h1]; rfl
  refine ⟨?_, ?_, ?_⟩
  · intro i hi j hj e
    obtain ⟨s, hs, m, hm, rfl⟩ := el i hi
    obtain ⟨t, ht, k, hk, rfl⟩ := el j hj
    obtain ⟨a, ha, e1, c1⟩ := val s hs m hm
    obtain ⟨b, hb, e2, c2⟩ := val t ht k hk
    rw [e1, e2, flat_inj hs ht ha hb] at e
    obtain ⟨rfl, rfl⟩ := e
    rw [c1] at c2
    have : m = k := by omega
    rw [this]
  · intro i hi
    obtain ⟨s, hs, m, hm, rfl⟩ := el i hi
    obtain ⟨a, ha, e1, _⟩ := val s hs m hm
    rw [e1]
    have : s = 0 ∨ s = 1 := by omega
    rcases this with rfl | rfl <;> omega
  · intro x hx
    obtain ⟨s, hs, r, hr, rfl⟩ : ∃ s < 2, ∃ r < g.p.Nsite, x = r + s * g.p.Nsite := by
      by_cases h : x < g.p.Nsite
      · exact ⟨0, by omega, x, h, by omega⟩
      · exact ⟨1, by omega, x - g.p.Nsite, by omega, by omega⟩
    rcases hc.site s hs r hr with ⟨h1, h2⟩ | ⟨m, hm, h1, h2, h3⟩
    · right
      refine ⟨h2, ?_⟩
      intro i hi e
      obtain ⟨t, ht, k, hk, rfl⟩ := el i hi
      obtain ⟨b, hb, e2, c2⟩ := val t ht k hk
      rw [e2, flat_inj ht hs hb hr] at e
      obtain ⟨rfl, rfl⟩ := e
      have h1 : c.cfg (b + t * g.p.Nsite) = -1 := h1
      omega
    · left
      refine ⟨h3, m + s * g.p.Ne, by rcases (show s = 0 ∨ s = 1 by omega) with rfl | rfl <;> (have : m < g.p.Ne := hm) <;> omega, ?_⟩
      have hm : m < g.p.Ne := hm
      rw [occ_msa (p := g.p) hm hs]
      have h2 : c.idx (m + s * g.p.Ne) = r := h2
      rw [h2]; rfl

/-- the electron that sits at an occupied orbital -/
theorem cons_at {p : SamplerPar} {c : EleCfg} (hc : Cons p c) {s r : Nat} (hs : s < 2) (hr : r < p.Nsite)
    (h : c.num (r + s * p.Nsite) ≠ 0) : (c.cfg (r + s * p.Nsite)).toNat < p.Ne ∧
      c.idx ((c.cfg (r + s * p.Nsite)).toNat + s * p.Ne) = r := by
  rcases hc.site s hs r hr with ⟨_, h2⟩ | ⟨m, hm, h1, h2, _⟩
  · exact absurd h2 h
  · rw [h1]
    exact ⟨hm, h2⟩

theorem cons_free {p : SamplerPar} {c : EleCfg} (hc : Cons p c) {s r : Nat} (hs : s < 2) (hr : r < p.Nsite)
    (h : c.num (r + s * p.Nsite) ≠ 1) : c.cfg (r + s * p.Nsite) = -1 := by
  rcases hc.site s hs r hr with ⟨h1, _⟩ | ⟨m, hm, h1, h2, h3⟩
  · exact h1
  · exact absurd h3 h

section
variable {g : GrnEnv} (hg : GrnOK g) (hr : g.flagRBM = true → GrnRBM g) {c : EleCfg} {ip : ℂ} {projCnt : Arr} {rbmCnt : Nat → ℂ}
  (h : Sampled g c ip projCnt rbmCnt)
include hg hr h

omit hg hr in
theorem Sampled.carried : Carried g (2 * g.p.Ne) (occSz g.p.Ne g.p.Nsite c.idx) c.num ip projCnt rbmCnt :=
  ⟨placed_sz h.cons, h.hip, h.hne, h.proj, h.rbm⟩

end

/-- a list position that changes by one hop -/
theorem szList_update {g : GrnEnv} {c : EleCfg} (hc : Cons g.sp c) {k : Hop} (ok : HopOK g.sp c k) :
    szList g (updateEleConfig g.sp k c) = repl (k.ri + k.s * g.p.Nsite) (k.rj + k.s * g.p.Nsite) (szList g c) := by
  have hm : k.mi < g.p.Ne := ok.mi
  have e1 : occSz g.p.Ne g.p.Nsite c.idx (k.mi + k.s * g.p.Ne) = k.ri + k.s * g.p.Nsite := by
    rw [occ_msa (p := g.p) hm ok.s]
    have := ok.at'
    have : c.idx (k.mi + k.s * g.p.Ne) = k.ri := this
    rw [this]; rfl
  have e2 : occSz g.p.Ne g.p.Nsite (updateEleConfig g.sp k c).idx (k.mi + k.s * g.p.Ne) = k.rj + k.s * g.p.Nsite := by
    rw [occ_msa (p := g.p) hm ok.s]
    show ((c.idx.set (k.mi + k.s * g.p.Ne) k.rj) (k.mi + k.s * g.p.Ne)).toNat + _ = _
    rw [set_self]; rfl
  have := (placed_sz hc).move (rs' := occSz g.p.Ne g.p.Nsite (updateEleConfig g.sp k c).idx) (m := k.mi + k.s * g.p.Ne)
    (msa_lt (p := g.p) hm ok.s) (by
      intro i _ hne
      unfold occSz
      show (if i < g.p.Ne then ((c.idx.set (k.mi + k.s * g.p.Ne) k.rj) i).toNat
        else ((c.idx.set (k.mi + k.s * g.p.Ne) k.rj) i).toNat + g.p.Nsite) = _
      rw [set_ne hne])
  unfold szList
  rw [this, e1, e2]

theorem matrixElement_one (Ψ : List Nat → ℂ) (I J : Nat) (l : List Nat) :
    matrixElement Ψ [.cr I, .an J] l = (starRingEnd ℂ) (ov1 Ψ I J l / Ψ l) := rfl

theorem matrixElement_two (Ψ : List Nat → ℂ) (I J K L : Nat) (l : List Nat) :
    matrixElement Ψ [.cr I, .an J, .cr K, .an L] l = (starRingEnd ℂ) (ov2 Ψ I J K L l / Ψ l) := rfl

theorem orb_lt {N s r : Nat} (hs : s < 2) (hr : r < N) : r + s * N < 2 * N := by
  rcases (show s = 0 ∨ s = 1 by omega) with rfl | rfl <;> omega

theorem num_two {N n : Nat} {rs : Nat → Nat} {num : Arr} (h : Placed n N rs num) {x : Nat} (hx : x < N) :
    num x = if x ∈ occList n rs then 1 else 0 := by
  rcases h.bin x hx with e | e
  · rw [e, if_neg]; rw [h.mem hx]; omega
  · rw [e, if_pos]; rw [h.mem hx]; exact e

theorem notin_of {N n : Nat} {rs : Nat → Nat} {num : Arr} (h : Placed n N rs num) {x : Nat} (hx : x < N) :
    x ∉ occList n rs ↔ num x = 0 := by
  rw [h.mem hx]
  rcases h.bin x hx with e | e <;> rw [e] <;> simp

/-- counters after one hop -/
theorem rbm_hop {g : GrnEnv} (R : GrnRBM g) {c : EleCfg} (hq : g.q.Nsite = g.p.Nsite) {k : Hop} (hc : Cons g.sp c)
    (ok : HopOK g.sp c k) {old : Nat → ℂ}
    (h : ∀ i < g.rbm.nPhys + g.rbm.nNeuron, old i = makeRBMCnt g.rbm c.num i) :
    ∀ i < g.rbm.nPhys + g.rbm.nNeuron,
      updateRBMCnt g.rbm k.ri k.rj k.s old i = makeRBMCnt g.rbm (updateEleConfig g.sp k c).num i := by
  intro i hi
  have hm := numHop_occ (hop_numHop (q := g.q) hq hc ok)
  rw [hq, ← R.hN] at hm
  rw [updateRBMCnt_eq, updateRBMCntFsz_congr _ _ _ _ _ _ _ i (h i hi), updateRBMCntFsz_ok hm (Or.inl (hopOK_ne hc ok))]

theorem proj_hop {g : GrnEnv} (hg : GrnOK g) {c : EleCfg} {k : Hop} (hc : Cons g.sp c)
    (ok : HopOK g.sp c k) {old : Arr} (h : ∀ i < g.q.NProj, old i = makeProjCnt g.q c.num i) :
    ∀ i < g.q.NProj, updateProjCnt g.q k.ri k.rj old (updateEleConfig g.sp k c).num i
      = makeProjCnt g.q (updateEleConfig g.sp k c).num i :=
  fun i hi => update_core hg.tab (hop_numHop (q := g.q) hg.hq hc ok) (hopOK_ne hc ok) old h i hi

theorem amp_one {g : GrnEnv} (hg : GrnOK g) {c : EleCfg} {k : Hop} (hc : Cons g.sp c) (ok : HopOK g.sp c k)
    (hpf : PfOK (2 * g.p.Ne) (2 * g.p.Nsite) g.slt 0 g.nQP (occSz g.p.Ne g.p.Nsite c.idx) g.st.pfM g.st.invM) :
    calculateIPLocal g.w (calculateNewPfM g.p g.slt k.mi k.s (updateEleConfig g.sp k c).idx 0 g.st) 0 g.nQP
      = amplitude (2 * g.p.Ne) (2 * g.p.Nsite) g.slt g.w 0 g.nQP (occSz g.p.Ne g.p.Nsite (updateEleConfig g.sp k c).idx) := by
  have := calculateIPLocal_eq (n := 2 * g.p.Ne) (nsite2 := 2 * g.p.Nsite) (slt := g.slt) (w := g.w) (qpStart := 0)
    (qpEnd := g.nQP) (rs := occSz g.p.Ne g.p.Nsite (updateEleConfig g.sp k c).idx)
    (pfM := calculateNewPfM g.p g.slt k.mi k.s (updateEleConfig g.sp k c).idx 0 g.st) (by
      intro q hq
      exact newPfM_ok (p := g.p) (nq := g.nQP) (idx := c.idx) ok.mi ok.s (hg.skew (q + 0) (by omega)) (onSites_of_cons hc)
        (onSites_of_cons (update_cons hc ok)) (fun i _ hne => set_ne hne) (by omega) hpf)
  simpa using this

theorem two_hop_ok {g : GrnEnv} {c : EleCfg} (hc : Cons g.sp c) {k k2 : Hop} (ok : HopOK g.sp c k) (ok2 : HopOK g.sp c k2)
    (h1 : ¬ (k.ri = k2.ri ∧ k.s = k2.s)) (h2 : ¬ (k.rj = k2.rj ∧ k.s = k2.s)) :
    HopOK g.sp (updateEleConfig g.sp k c) k2 := by
  refine ⟨ok2.s, ok2.mi, ok2.ri, ok2.rj, ?_, ?_⟩
  · have hne : k2.mi + k2.s * g.p.Ne ≠ k.mi + k.s * g.p.Ne := by
      intro e
      have a := ok2.at'
      have b := ok.at'
      have a : c.idx (k2.mi + k2.s * g.p.Ne) = k2.ri := a
      have b : c.idx (k.mi + k.s * g.p.Ne) = k.ri := b
      have := (flat_inj ok2.s ok.s ok2.mi ok.mi).mp e
      rw [e, b] at a
      exact h1 ⟨by omega, this.2.symm⟩
    show (c.idx.set (k.mi + k.s * g.p.Ne) k.rj) (k2.mi + k2.s * g.p.Ne) = k2.ri
    rw [set_ne hne]
    exact ok2.at'
  · have hne : k2.rj + k2.s * g.p.Nsite ≠ k.rj + k.s * g.p.Nsite := by
      intro e
      have := (flat_inj ok2.s ok.s ok2.rj ok.rj).mp e
      exact h2 ⟨this.1.symm, this.2.symm⟩
    show ((c.cfg.set (k.ri + k.s * g.p.Nsite) (-1)).set (k.rj + k.s * g.p.Nsite) k.mi) (k2.rj + k2.s * g.p.Nsite) = -1
    rw [set_ne hne]
    by_cases e : k2.rj + k2.s * g.p.Nsite = k.ri + k.s * g.p.Nsite
    · rw [e, set_self]
    · rw [set_ne e]
      exact ok2.free

theorem amp_two {g : GrnEnv} (hg : GrnOK g) {c : EleCfg} {k k2 : Hop} (hc : Cons g.sp c) (ok : HopOK g.sp c k)
    (ok2 : HopOK g.sp (updateEleConfig g.sp k c) k2)
    (hpf : PfOK (2 * g.p.Ne) (2 * g.p.Nsite) g.slt 0 g.nQP (occSz g.p.Ne g.p.Nsite c.idx) g.st.pfM g.st.invM) :
    calculateIPLocal g.w (calculateNewPfMTwo g.p g.slt k.mi k.s k2.mi k2.s
        (updateEleConfig g.sp k2 (updateEleConfig g.sp k c)).idx 0 g.st) 0 g.nQP
      = amplitude (2 * g.p.Ne) (2 * g.p.Nsite) g.slt g.w 0 g.nQP
        (occSz g.p.Ne g.p.Nsite (updateEleConfig g.sp k2 (updateEleConfig g.sp k c)).idx) := by
  have := calculateIPLocal_eq (n := 2 * g.p.Ne) (nsite2 := 2 * g.p.Nsite) (slt := g.slt) (w := g.w) (qpStart := 0)
    (qpEnd := g.nQP) (rs := occSz g.p.Ne g.p.Nsite (updateEleConfig g.sp k2 (updateEleConfig g.sp k c)).idx)
    (pfM := calculateNewPfMTwo g.p g.slt k.mi k.s k2.mi k2.s (updateEleConfig g.sp k2 (updateEleConfig g.sp k c)).idx 0 g.st) (by
      intro q hq
      exact newPfMTwo_ok (p := g.p) (nq := g.nQP) (idx := c.idx) ok.mi ok.s ok2.mi ok2.s (hg.skew (q + 0) (by omega))
        (onSites_of_cons hc) (onSites_of_cons (update_cons (update_cons hc ok) ok2))
        (fun i _ hne hne2 => (set_ne hne2).trans (set_ne hne)) (by omega) hpf)
  simpa using this

section
variable {g : GrnEnv} (hg : GrnOK g) (hr : g.flagRBM = true → GrnRBM g) {c : EleCfg} {ip : ℂ} {projCnt : Arr} {rbmCnt : Nat → ℂ}
  (h : Sampled g c ip projCnt rbmCnt)
include hg hr h

theorem Sampled.list_ne : psi g (szList g c) ≠ 0 := h.carried.psi_ne hg hr

theorem greenFunc1_val {ri rj s : Nat} (hs : s < 2) (hi : ri < g.p.Nsite) (hj : rj < g.p.Nsite) :
    greenFunc1 g ri rj s ip projCnt rbmCnt c
      = (matrixElement (psi g) [.cr (ri + s * g.p.Nsite), .an (rj + s * g.p.Nsite)] (szList g c), c) := by
  have hc : Cons g.sp c := h.cons
  have pl := placed_sz hc
  have hI := orb_lt hs hi
  have hJ := orb_lt hs hj
  have nz := h.list_ne hg hr
  have nd : (szList g c).Nodup := pl.nodup
  have rg : ∀ z ∈ szList g c, z < 2 * g.p.Nsite := pl.range
  have mI : ri + s * g.p.Nsite ∈ szList g c ↔ _ := pl.mem hI
  have mJ : rj + s * g.p.Nsite ∈ szList g c ↔ _ := pl.mem hJ
  rw [matrixElement_one]
  unfold greenFunc1
  simp only []
  by_cases e : ri = rj
  · subst e
    rw [if_pos rfl, ov1_same (psi_anti hg) hI nd rg]
    rcases pl.bin _ hI with e | e
    · rw [if_neg (by rw [mI]; omega), e]; simp
    · rw [if_pos (mI.mpr e), e, div_self nz]; simp
  · rw [if_neg e, ov1_hop (psi_anti hg) hI nd rg (by omega)]
    by_cases hz : c.num (ri + s * g.p.Nsite) = 1 ∨ c.num (rj + s * g.p.Nsite) = 0
    · rw [if_pos hz, if_neg]
      · simp
      · rw [mI, mJ]; omega
    · have hz := not_or.mp hz
      have hmem : rj + s * g.p.Nsite ∈ szList g c ∧ ri + s * g.p.Nsite ∉ szList g c := by
        rw [mI, mJ]
        have := pl.bin _ hJ
        omega
      rw [if_neg (not_or.mpr hz), if_pos hmem]
      obtain ⟨hm, hat⟩ := cons_at hc hs hj hz.2
      have hfree := cons_free hc hs hi hz.1
      have ok : HopOK g.sp c ⟨(c.cfg (rj + s * g.p.Nsite)).toNat, rj, ri, s⟩ := ⟨hs, hm, hj, hi, hat, hfree⟩
      have hu := szList_update hc ok
      have key := h.carried.ratio hg hr (placed_sz (update_cons hc ok)) (proj_hop hg hc ok h.proj)
        (fun hf => rbm_hop (hr hf) hg.hq hc ok (h.rbm hf))
      rw [← amp_one hg hc ok h.pf] at key
      simp only [] at hu
      apply Prod.ext
      · simp only []
        rw [← hu]
        exact congrArg _ key
      · have := revert_update hc ok
        exact congrArg₂ (fun a b => (⟨a, c.cfg, b⟩ : EleCfg)) (congrArg EleCfg.idx this) (congrArg EleCfg.num this)

omit hr in
/-- the two hops of `greenFunc2Hop` and what they give -/
theorem greenFunc2Hop_val {ri rj rk rl s t : Nat} (hr : g.flagRBM = true → GrnRBM g) (hs : s < 2) (ht : t < 2)
    (hi : ri < g.p.Nsite) (hj : rj < g.p.Nsite)
    (hk : rk < g.p.Nsite) (hl : rl < g.p.Nsite)
    (hIJ : ri + s * g.p.Nsite ≠ rj + s * g.p.Nsite) (hIK : ri + s * g.p.Nsite ≠ rk + t * g.p.Nsite)
    (hIL : ri + s * g.p.Nsite ≠ rl + t * g.p.Nsite) (hJK : rj + s * g.p.Nsite ≠ rk + t * g.p.Nsite)
    (hJL : rj + s * g.p.Nsite ≠ rl + t * g.p.Nsite) (hKL : rk + t * g.p.Nsite ≠ rl + t * g.p.Nsite) :
    greenFunc2Hop g ri rj rk rl s t ip projCnt rbmCnt c
      = (matrixElement (psi g) [.cr (ri + s * g.p.Nsite), .an (rj + s * g.p.Nsite), .cr (rk + t * g.p.Nsite),
          .an (rl + t * g.p.Nsite)] (szList g c), c) := by
  have hc : Cons g.sp c := h.cons
  have pl := placed_sz hc
  have hI := orb_lt hs hi
  have hJ := orb_lt hs hj
  have hK := orb_lt ht hk
  have hL := orb_lt ht hl
  have nd : (szList g c).Nodup := pl.nodup
  have rg : ∀ z ∈ szList g c, z < 2 * g.p.Nsite := pl.range
  have mI : ri + s * g.p.Nsite ∈ szList g c ↔ _ := pl.mem hI
  have mJ : rj + s * g.p.Nsite ∈ szList g c ↔ _ := pl.mem hJ
  have mK : rk + t * g.p.Nsite ∈ szList g c ↔ _ := pl.mem hK
  have mL : rl + t * g.p.Nsite ∈ szList g c ↔ _ := pl.mem hL
  rw [matrixElement_two, ov2_distinct (psi_anti hg) hI hK nd rg hIJ hIK hIL hJK hJL hKL]
  unfold greenFunc2Hop
  simp only []
  by_cases hz : c.num (ri + s * g.p.Nsite) = 1 ∨ c.num (rj + s * g.p.Nsite) = 0 ∨ c.num (rk + t * g.p.Nsite) = 1 ∨
      c.num (rl + t * g.p.Nsite) = 0
  · rw [if_pos hz, if_neg]
    · simp
    · rw [mI, mJ, mK, mL]; omega
  · rw [if_neg hz]
    simp only [not_or] at hz
    obtain ⟨z1, z2, z3, z4⟩ := hz
    have hmem : ri + s * g.p.Nsite ∉ szList g c ∧ rj + s * g.p.Nsite ∈ szList g c ∧ rk + t * g.p.Nsite ∉ szList g c ∧
        rl + t * g.p.Nsite ∈ szList g c := by
      rw [mI, mJ, mK, mL]
      have := pl.bin _ hJ
      have := pl.bin _ hL
      omega
    rw [if_pos hmem]
    obtain ⟨hm, hat⟩ := cons_at hc hs hj z2
    obtain ⟨hm2, hat2⟩ := cons_at hc ht hl z4
    have ok : HopOK g.sp c ⟨(c.cfg (rl + t * g.p.Nsite)).toNat, rl, rk, t⟩ := ⟨ht, hm2, hl, hk, hat2, cons_free hc ht hk z3⟩
    have ok2' : HopOK g.sp c ⟨(c.cfg (rj + s * g.p.Nsite)).toNat, rj, ri, s⟩ := ⟨hs, hm, hj, hi, hat, cons_free hc hs hi z1⟩
    have ok2 := two_hop_ok hc ok ok2' (by rintro ⟨rfl, rfl⟩; exact hJL rfl) (by rintro ⟨rfl, rfl⟩; exact hIK rfl)
    have hc2 := update_cons hc ok
    have hu := szList_update hc ok
    have hu2 := szList_update hc2 ok2
    have key := h.carried.ratio hg hr (placed_sz (update_cons hc2 ok2)) (proj_hop hg hc2 ok2 (proj_hop hg hc ok h.proj))
      (fun hf => rbm_hop (hr hf) hg.hq hc2 ok2 (rbm_hop (hr hf) hg.hq hc ok (h.rbm hf)))
    rw [← amp_two hg hc ok ok2 h.pf] at key
    apply Prod.ext
    · simp only [] at hu hu2 ⊢
      rw [← hu, ← hu2]
      exact congrArg (starRingEnd ℂ) key
    · have hne : (c.cfg (rl + t * g.p.Nsite)).toNat + t * g.p.Ne ≠ (c.cfg (rj + s * g.p.Nsite)).toNat + s * g.p.Ne := by
        intro e
        have q := (flat_inj ht hs hm2 hm).mp e
        have a : c.idx ((c.cfg (rl + t * g.p.Nsite)).toNat + t * g.p.Ne) = rl := hat2
        have b : c.idx ((c.cfg (rj + s * g.p.Nsite)).toNat + s * g.p.Ne) = rj := hat
        rw [e, b] at a
        have : rj = rl := by omega
        exact hJL (by rw [this, q.2])
      have n1 : c.num (ri + s * g.p.Nsite) = 0 := by have := pl.bin _ hI; omega
      have n2 : c.num (rj + s * g.p.Nsite) = 1 := by have := pl.bin _ hJ; omega
      have n3 : c.num (rk + t * g.p.Nsite) = 0 := by have := pl.bin _ hK; omega
      have n4 : c.num (rl + t * g.p.Nsite) = 1 := by have := pl.bin _ hL; omega
      have i1 : ∀ x, ((((c.idx.set ((c.cfg (rl + t * g.p.Nsite)).toNat + t * g.p.Ne) rk).set
          ((c.cfg (rj + s * g.p.Nsite)).toNat + s * g.p.Ne) ri).set
          ((c.cfg (rl + t * g.p.Nsite)).toNat + t * g.p.Ne) rl).set
          ((c.cfg (rj + s * g.p.Nsite)).toNat + s * g.p.Ne) rj) x = c.idx x := by
        intro x
        have a : c.idx ((c.cfg (rl + t * g.p.Nsite)).toNat + t * g.p.Ne) = rl := hat2
        have b : c.idx ((c.cfg (rj + s * g.p.Nsite)).toNat + s * g.p.Ne) = rj := hat
        by_cases e : x = (c.cfg (rj + s * g.p.Nsite)).toNat + s * g.p.Ne
        · rw [e, set_self, b]
        · rw [set_ne e]
          by_cases e' : x = (c.cfg (rl + t * g.p.Nsite)).toNat + t * g.p.Ne
          · rw [e', set_self, a]
          · rw [set_ne e', set_ne e, set_ne e']
      have i2 : ∀ x, ((((((((c.num.set (rl + t * g.p.Nsite) 0).set (rk + t * g.p.Nsite) 1).set (rj + s * g.p.Nsite) 0).set
          (ri + s * g.p.Nsite) 1).set (rl + t * g.p.Nsite) 1).set (rk + t * g.p.Nsite) 0).set (rj + s * g.p.Nsite) 1).set
          (ri + s * g.p.Nsite) 0) x = c.num x := by
        intro x
        by_cases e1 : x = ri + s * g.p.Nsite
        · rw [e1, set_self, n1]
        rw [set_ne e1]
        by_cases e2 : x = rj + s * g.p.Nsite
        · rw [e2, set_self, n2]
        rw [set_ne e2]
        by_cases e3 : x = rk + t * g.p.Nsite
        · rw [e3, set_self, n3]
        rw [set_ne e3]
        by_cases e4 : x = rl + t * g.p.Nsite
        · rw [e4, set_self, n4]
        rw [set_ne e4, set_ne e1, set_ne e2, set_ne e3, set_ne e4]
      exact congrArg₂ (fun a b => (⟨a, c.cfg, b⟩ : EleCfg)) (funext i1) (funext i2)

theorem greenFunc2_val {ri rj rk rl s t : Nat} (hs : s < 2) (ht : t < 2) (hi : ri < g.p.Nsite) (hj : rj < g.p.Nsite)
    (hk : rk < g.p.Nsite) (hl : rl < g.p.Nsite) :
    greenFunc2 g ri rj rk rl s t ip projCnt rbmCnt c
      = (matrixElement (psi g) [.cr (ri + s * g.p.Nsite), .an (rj + s * g.p.Nsite), .cr (rk + t * g.p.Nsite),
          .an (rl + t * g.p.Nsite)] (szList g c), c) := by
  have hc : Cons g.sp c := h.cons
  have pl := placed_sz hc
  have hI := orb_lt hs hi
  have hJ := orb_lt hs hj
  have hK := orb_lt ht hk
  have hL := orb_lt ht hl
  have nd : (szList g c).Nodup := pl.nodup
  have rg : ∀ z ∈ szList g c, z < 2 * g.p.Nsite := pl.range
  have mm : ∀ {x}, x < 2 * g.p.Nsite → (x ∈ szList g c ↔ c.num x = 1) := fun hx => pl.mem hx
  have nz := h.list_ne hg hr
  have hF := psi_anti hg
  have z0 : (0 : ℂ) = (starRingEnd ℂ) (0 / psi g (szList g c)) := by simp
  unfold greenFunc2
  simp only []
  by_cases est : s = t
  · subst est
    rw [if_pos rfl]
    by_cases ekl : rk = rl
    · subst ekl
      rw [if_pos rfl, matrixElement_two, ov2_KK hF hI hK nd rg, greenFunc1_val hg hr h hs hi hj, matrixElement_one]
      rcases pl.bin _ hK with e | e
      · rw [if_pos e, if_neg (by rw [mm hK]; omega), ← z0]
      · rw [if_neg (by omega), if_pos ((mm hK).mpr e)]
    rw [if_neg ekl]
    have KL : rk + s * g.p.Nsite ≠ rl + s * g.p.Nsite := by omega
    by_cases ejl : rj = rl
    · subst ejl
      rw [if_pos rfl, matrixElement_two, ov2_JL hF hI hK nd rg KL, ← z0]
    rw [if_neg ejl]
    have JL : rj + s * g.p.Nsite ≠ rl + s * g.p.Nsite := by omega
    by_cases eil : ri = rl
    · subst eil
      rw [if_pos rfl]
      by_cases ejk : rj = rk
      · subst ejk
        rw [if_pos rfl, matrixElement_two, ov2_IL_JK hF hK hL nd rg KL]
        rcases pl.bin _ hL with e | e
        · rw [if_pos e, if_neg (by rw [mm hL]; omega), ← z0]
        · rw [if_neg (by omega)]
          rcases pl.bin _ hJ with e' | e'
          · rw [if_pos ⟨(mm hL).mpr e, by rw [mm hJ]; omega⟩, div_self nz, e']; simp
          · rw [if_neg (by rw [mm hJ]; tauto), ← z0, e']; simp
      · have JK : rj + s * g.p.Nsite ≠ rk + s * g.p.Nsite := by omega
        rw [if_neg ejk, matrixElement_two, ov2_IL hF hK hL nd rg KL JL JK, greenFunc1_val hg hr h hs hk hj, matrixElement_one]
        rcases pl.bin _ hL with e | e
        · rw [if_pos e, if_neg (by rw [mm hL]; omega), ← z0]
        · rw [if_neg (by omega), if_pos ((mm hL).mpr e)]
          simp [neg_div]
    rw [if_neg eil]
    have IL : ri + s * g.p.Nsite ≠ rl + s * g.p.Nsite := by omega
    by_cases ejk : rj = rk
    · subst ejk
      rw [if_pos rfl, matrixElement_two, ov2_JK hF hI hK nd rg KL IL, greenFunc1_val hg hr h hs hi hl, matrixElement_one,
        if_neg eil]
      rcases pl.bin _ hJ with e | e
      · rw [if_neg (by omega), if_neg (by rw [mm hJ]; omega)]
      · rw [if_pos e, if_pos ((mm hJ).mpr e), ← z0]
    rw [if_neg ejk]
    have JK : rj + s * g.p.Nsite ≠ rk + s * g.p.Nsite := by omega
    by_cases eik : ri = rk
    · subst eik
      rw [if_pos rfl, matrixElement_two, ov2_IK hF hI nd rg (fun e => JK e.symm), ← z0]
    rw [if_neg eik]
    have IK : ri + s * g.p.Nsite ≠ rk + s * g.p.Nsite := by omega
    by_cases eij : ri = rj
    · subst eij
      rw [if_pos rfl, matrixElement_two, ov2_IJ hF hI hK nd rg IK IL, greenFunc1_val hg hr h hs hk hl, matrixElement_one]
      rcases pl.bin _ hI with e | e
      · rw [if_pos e, if_neg (by rw [mm hI]; omega), ← z0]
      · rw [if_neg (by omega), if_pos ((mm hI).mpr e)]
    rw [if_neg eij]
    exact greenFunc2Hop_val hg h hr hs hs hi hj hk hl (by omega) IK IL JK JL KL
  · rw [if_neg est]
    have off : ∀ {a b : Nat}, a < g.p.Nsite → b < g.p.Nsite → a + s * g.p.Nsite ≠ b + t * g.p.Nsite := by
      intro a b ha hb e
      exact est ((flat_inj hs ht ha hb).mp e).2
    by_cases ekl : rk = rl
    · subst ekl
      rw [if_pos rfl, matrixElement_two, ov2_KK hF hI hK nd rg, greenFunc1_val hg hr h hs hi hj, matrixElement_one]
      rcases pl.bin _ hK with e | e
      · rw [if_pos e, if_neg (by rw [mm hK]; omega), ← z0]
      · rw [if_neg (by omega), if_pos ((mm hK).mpr e)]
        by_cases eij : ri = rj
        · subst eij
          rw [if_pos rfl, ov1_same hF hI nd rg]
          rcases pl.bin _ hI with e' | e'
          · rw [if_neg (by rw [mm hI]; omega), e', ← z0]; simp
          · rw [if_pos ((mm hI).mpr e'), div_self nz, e']; simp
        · rw [if_neg eij]
    rw [if_neg ekl]
    by_cases eij : ri = rj
    · subst eij
      rw [if_pos rfl, matrixElement_two, ov2_IJ hF hI hK nd rg (off hi hk) (off hi hl), greenFunc1_val hg hr h ht hk hl,
        matrixElement_one]
      rcases pl.bin _ hI with e | e
      · rw [if_pos e, if_neg (by rw [mm hI]; omega), ← z0]
      · rw [if_neg (by omega), if_pos ((mm hI).mpr e)]
    rw [if_neg eij]
    exact greenFunc2Hop_val hg h hr hs ht hi hj hk hl (by omega) (off hi hk) (off hi hl) (off hj hk) (off hj hl) (by omega)

end

end MVMC
