import Verif.Proof.LocGrn

/-! Values of the general-Sz Green functions. -/
namespace MVMC
open MVMC.Spec Finset

abbrev GrnEnv.fp (g : GrnEnv) : FPar := ⟨g.p.Ne, g.p.Nsite, fun _ => 0, 0, 0⟩

theorem occF_val {N : Nat} {idx spn : Arr} {m r s : Nat} (hs : s < 2) (h1 : idx m = ((r : Nat) : Int)) (h2 : spn m = ((s : Nat) : Int)) :
    occF N idx spn m = r + s * N := by
  unfold occF
  rw [h1, h2]
  rcases (show s = 0 ∨ s = 1 by omega) with rfl | rfl <;> simp

theorem placed_fsz {g : GrnEnv} {c : FCfg} (hc : ConsF g.fp c) :
    Placed (2 * g.p.Ne) (2 * g.p.Nsite) (occF g.p.Nsite c.idx c.spn) c.num := by
  have val : ∀ m < 2 * g.p.Ne, ∃ r < g.p.Nsite, ∃ s < 2, occF g.p.Nsite c.idx c.spn m = r + s * g.p.Nsite ∧
      c.cfg (r + s * g.p.Nsite) = m := by
    intro m hm
    obtain ⟨r, hr, s, hs, h1, h2, h3⟩ := hc.electron m hm
    exact ⟨r, hr, s, hs, occF_val hs h1 h2, h3⟩
  refine ⟨?_, ?_, ?_⟩
  · intro i hi j hj e
    obtain ⟨a, ha, s, hs, e1, c1⟩ := val i hi
    obtain ⟨b, hb, t, ht, e2, c2⟩ := val j hj
    rw [e1, e2, flat_inj hs ht ha hb] at e
    obtain ⟨rfl, rfl⟩ := e
    omega
  · intro i hi
    obtain ⟨a, ha, s, hs, e1, _⟩ := val i hi
    rw [e1]
    exact orb_lt hs ha
  · intro x hx
    obtain ⟨s, hs, r, hr, rfl⟩ : ∃ s < 2, ∃ r < g.p.Nsite, x = r + s * g.p.Nsite := by
      by_cases h : x < g.p.Nsite
      · exact ⟨0, by omega, x, h, by omega⟩
      · exact ⟨1, by omega, x - g.p.Nsite, by omega, by omega⟩
    rcases hc.site s hs r hr with ⟨h1, h2⟩ | ⟨m, hm, h1, h2, h3, h4⟩
    · right
      refine ⟨h2, ?_⟩
      intro i hi e
      obtain ⟨b, hb, t, ht, e2, c2⟩ := val i hi
      rw [e2, flat_inj ht hs hb hr] at e
      obtain ⟨rfl, rfl⟩ := e
      have h1 : c.cfg (b + t * g.p.Nsite) = -1 := h1
      omega
    · left
      exact ⟨h4, m, hm, occF_val hs h2 h3⟩

theorem consF_at {p : FPar} {c : FCfg} (hc : ConsF p c) {s r : Nat} (hs : s < 2) (hr : r < p.Nsite)
    (h : c.num (r + s * p.Nsite) ≠ 0) : (c.cfg (r + s * p.Nsite)).toNat < p.Nsize ∧
      c.idx (c.cfg (r + s * p.Nsite)).toNat = r ∧ c.spn (c.cfg (r + s * p.Nsite)).toNat = s := by
  rcases hc.site s hs r hr with ⟨_, h2⟩ | ⟨m, hm, h1, h2, h3, _⟩
  · exact absurd h2 h
  · rw [h1]
    exact ⟨hm, h2, h3⟩

theorem consF_free {p : FPar} {c : FCfg} (hc : ConsF p c) {s r : Nat} (hs : s < 2) (hr : r < p.Nsite)
    (h : c.num (r + s * p.Nsite) ≠ 1) : c.cfg (r + s * p.Nsite) = -1 := by
  rcases hc.site s hs r hr with ⟨h1, _⟩ | ⟨m, hm, h1, h2, h3, h4⟩
  · exact h1
  · exact absurd h4 h

theorem fszList_update {g : GrnEnv} {c : FCfg} (hc : ConsF g.fp c) {k : FMove} (ok : MoveOK g.fp c k) :
    fszList g (updateEleConfigF g.fp k c) = repl (k.ri + k.s * g.p.Nsite) (k.rj + k.t * g.p.Nsite) (fszList g c) := by
  have e1 : occF g.p.Nsite c.idx c.spn k.mi = k.ri + k.s * g.p.Nsite := occF_val ok.s ok.at' ok.sp
  have e2 : occF g.p.Nsite (updateEleConfigF g.fp k c).idx (updateEleConfigF g.fp k c).spn k.mi = k.rj + k.t * g.p.Nsite :=
    occF_val ok.t (set_self _ _ _) (set_self _ _ _)
  have := (placed_fsz hc).move (rs' := occF g.p.Nsite (updateEleConfigF g.fp k c).idx (updateEleConfigF g.fp k c).spn)
    (m := k.mi) ok.mi (by
      intro i _ hne
      show occF g.p.Nsite (c.idx.set k.mi k.rj) (c.spn.set k.mi k.t) i = _
      unfold occF
      rw [set_ne hne, set_ne hne])
  unfold fszList
  rw [this, e1, e2]

theorem proj_move {g : GrnEnv} (hg : GrnOK g) {c : FCfg} {k : FMove} (hc : ConsF g.fp c)
    (ok : MoveOK g.fp c k) {old : Arr} (h : ∀ i < g.q.NProj, old i = makeProjCnt g.q c.num i) :
    ∀ i < g.q.NProj, updateProjCntFsz g.q k.ri k.rj old (updateEleConfigF g.fp k c).num i
      = makeProjCnt g.q (updateEleConfigF g.fp k c).num i :=
  fun i hi => move_counts hg.tab (move_numHop (q := g.q) hg.hq hc ok) old h i hi

theorem proj_move' {g : GrnEnv} (hg : GrnOK g) {c : FCfg} {k : FMove} (hc : ConsF g.fp c)
    (ok : MoveOK g.fp c k) (hne : k.ri ≠ k.rj) {old : Arr} (h : ∀ i < g.q.NProj, old i = makeProjCnt g.q c.num i) :
    ∀ i < g.q.NProj, updateProjCnt g.q k.ri k.rj old (updateEleConfigF g.fp k c).num i
      = makeProjCnt g.q (updateEleConfigF g.fp k c).num i :=
  fun i hi => update_core hg.tab (move_numHop (q := g.q) hg.hq hc ok) hne old h i hi

theorem ampF_one {g : GrnEnv} (hg : GrnOK g) {c : FCfg} {k : FMove} (hc : ConsF g.fp c) (ok : MoveOK g.fp c k)
    (hpf : PfOK (2 * g.p.Ne) (2 * g.p.Nsite) g.slt 0 g.nQP (occF g.p.Nsite c.idx c.spn) g.st.pfM g.st.invM) :
    calculateIPLocal g.w (calculateNewPfMFsz g.p g.slt k.mi k.t (updateEleConfigF g.fp k c).idx
        (updateEleConfigF g.fp k c).spn 0 g.st) 0 g.nQP
      = amplitude (2 * g.p.Ne) (2 * g.p.Nsite) g.slt g.w 0 g.nQP
        (occF g.p.Nsite (updateEleConfigF g.fp k c).idx (updateEleConfigF g.fp k c).spn) := by
  have := calculateIPLocal_eq (n := 2 * g.p.Ne) (nsite2 := 2 * g.p.Nsite) (slt := g.slt) (w := g.w) (qpStart := 0)
    (qpEnd := g.nQP) (rs := occF g.p.Nsite (updateEleConfigF g.fp k c).idx (updateEleConfigF g.fp k c).spn)
    (pfM := calculateNewPfMFsz g.p g.slt k.mi k.t (updateEleConfigF g.fp k c).idx (updateEleConfigF g.fp k c).spn 0 g.st) (by
      intro q hq
      exact newPfMFsz_ok (p := g.p) (nq := g.nQP) (idx := c.idx) (spn := c.spn) ok.mi (hg.skew (q + 0) (by omega))
        (onSites_of_consF hc) (onSites_of_consF (updateF_cons hc ok)) (spins_of_consF (updateF_cons hc ok)) (set_self _ _ _)
        (fun i _ hne => ⟨set_ne hne, set_ne hne⟩) (by omega) hpf)
  simpa using this

theorem two_move_ok {g : GrnEnv} {c : FCfg} (hc : ConsF g.fp c) {k k2 : FMove} (ok : MoveOK g.fp c k) (ok2 : MoveOK g.fp c k2)
    (h1 : ¬ (k.ri = k2.ri ∧ k.s = k2.s)) (h2 : ¬ (k.rj = k2.rj ∧ k.t = k2.t)) :
    MoveOK g.fp (updateEleConfigF g.fp k c) k2 ∧ k2.mi ≠ k.mi := by
  have hne : k2.mi ≠ k.mi := by
    intro e
    have a := ok2.at'
    have b := ok.at'
    have a' := ok2.sp
    have b' := ok.sp
    rw [e] at a a'
    exact h1 ⟨by omega, by omega⟩
  refine ⟨⟨ok2.s, ok2.t, ok2.mi, ok2.ri, ok2.rj, (set_ne hne).trans ok2.at', (set_ne hne).trans ok2.sp, ?_⟩, hne⟩
  have hne : k2.rj + k2.t * g.p.Nsite ≠ k.rj + k.t * g.p.Nsite := by
    intro e
    have := (flat_inj ok2.t ok.t ok2.rj ok.rj).mp e
    exact h2 ⟨this.1.symm, this.2.symm⟩
  show ((c.cfg.set (k.ri + k.s * g.p.Nsite) (-1)).set (k.rj + k.t * g.p.Nsite) k.mi) (k2.rj + k2.t * g.p.Nsite) = -1
  rw [set_ne hne]
  by_cases e : k2.rj + k2.t * g.p.Nsite = k.ri + k.s * g.p.Nsite
  · rw [e, set_self]
  · rw [set_ne e]
    exact ok2.free

theorem ampF_two {g : GrnEnv} (hg : GrnOK g) {c : FCfg} {k k2 : FMove} (hc : ConsF g.fp c) (ok : MoveOK g.fp c k)
    (ok2 : MoveOK g.fp (updateEleConfigF g.fp k c) k2) (hne : k2.mi ≠ k.mi)
    (hpf : PfOK (2 * g.p.Ne) (2 * g.p.Nsite) g.slt 0 g.nQP (occF g.p.Nsite c.idx c.spn) g.st.pfM g.st.invM) :
    calculateIPLocal g.w (calculateNewPfMTwoFsz g.p g.slt k.mi k.t k2.mi k2.t
        (updateEleConfigF g.fp k2 (updateEleConfigF g.fp k c)).idx (updateEleConfigF g.fp k2 (updateEleConfigF g.fp k c)).spn
        0 g.st) 0 g.nQP
      = amplitude (2 * g.p.Ne) (2 * g.p.Nsite) g.slt g.w 0 g.nQP
        (occF g.p.Nsite (updateEleConfigF g.fp k2 (updateEleConfigF g.fp k c)).idx
          (updateEleConfigF g.fp k2 (updateEleConfigF g.fp k c)).spn) := by
  have := calculateIPLocal_eq (n := 2 * g.p.Ne) (nsite2 := 2 * g.p.Nsite) (slt := g.slt) (w := g.w) (qpStart := 0)
    (qpEnd := g.nQP) (rs := occF g.p.Nsite (updateEleConfigF g.fp k2 (updateEleConfigF g.fp k c)).idx
      (updateEleConfigF g.fp k2 (updateEleConfigF g.fp k c)).spn)
    (pfM := calculateNewPfMTwoFsz g.p g.slt k.mi k.t k2.mi k2.t (updateEleConfigF g.fp k2 (updateEleConfigF g.fp k c)).idx
      (updateEleConfigF g.fp k2 (updateEleConfigF g.fp k c)).spn 0 g.st) (by
      intro q hq
      have hc2 := updateF_cons (updateF_cons hc ok) ok2
      exact newPfMTwoFsz_ok (p := g.p) (nq := g.nQP) (idx := c.idx) (spn := c.spn) ok.mi ok2.mi (hg.skew (q + 0) (by omega))
        (onSites_of_consF hc) (onSites_of_consF hc2) (spins_of_consF hc2) ok.t ok2.t
        ((set_ne (Ne.symm hne)).trans (set_self _ _ _)) (set_self _ _ _)
        (fun i _ hne hne2 => ⟨(set_ne hne2).trans (set_ne hne), (set_ne hne2).trans (set_ne hne)⟩) (by omega) hpf)
  simpa using this

/-- overwriting one entry and restoring it -/
theorem set_back {a : Arr} {x : Nat} {v w : Int} (h : a x = w) : (a.set x v).set x w = a := by
  funext y
  by_cases e : y = x
  · rw [e, set_self, h]
  · rw [set_ne e, set_ne e]

/-- two entries, restored in the same order -/
theorem set_back2 {a : Arr} {x y : Nat} {v w v' w' : Int} (hne : x ≠ y) (hx : a x = v') (hy : a y = w') :
    (((a.set x v).set y w).set x v').set y w' = a := by
  funext z
  by_cases e : z = y
  · rw [e, set_self, hy]
  rw [set_ne e]
  by_cases e' : z = x
  · rw [e', set_self, hx]
  rw [set_ne e', set_ne e, set_ne e']

theorem set_back4 {a : Arr} {x y z u : Nat} {p q r s p' q' r' s' : Int} (hx : a x = p') (hy : a y = q') (hz : a z = r') (hu : a u = s') :
    (((((((a.set x p).set y q).set z r).set u s).set x p').set y q').set z r').set u s' = a := by
  funext w
  by_cases e1 : w = u
  · rw [e1, set_self, hu]
  rw [set_ne e1]
  by_cases e2 : w = z
  · rw [e2, set_self, hz]
  rw [set_ne e2]
  by_cases e3 : w = y
  · rw [e3, set_self, hy]
  rw [set_ne e3]
  by_cases e4 : w = x
  · rw [e4, set_self, hx]
  rw [set_ne e4, set_ne e1, set_ne e2, set_ne e3, set_ne e4]

section
variable {g : GrnEnv} (hg : GrnOK g) {c : FCfg} {ip : ℂ} {projCnt : Arr} (h : SampledF g c ip projCnt)
include h

theorem SampledF.carried : Carried g (2 * g.p.Ne) (occF g.p.Nsite c.idx c.spn) c.num ip projCnt (fun _ => 0) :=
  ⟨placed_fsz h.cons, h.hip, h.hne, h.proj, by rw [h.noRBM]; intro e; exact absurd e (by decide)⟩

theorem SampledF.no : g.flagRBM = true → GrnRBM g := by rw [h.noRBM]; intro e; exact absurd e (by decide)

include hg

theorem SampledF.list_ne : psi g (fszList g c) ≠ 0 := h.carried.psi_ne hg h.no

theorem SampledF.ratio {rs' : Nat → Nat} {num' projNew : Arr}
    (hp : Placed (2 * g.p.Ne) (2 * g.p.Nsite) rs' num') (hc : ∀ k < g.q.NProj, projNew k = makeProjCnt g.q num' k) :
    (projRatioC g projNew projCnt * amplitude (2 * g.p.Ne) (2 * g.p.Nsite) g.slt g.w 0 g.nQP rs') / ip
      = psi g (occList (2 * g.p.Ne) rs') / psi g (fszList g c) := by
  have := h.carried.ratio hg h.no hp hc (rbmNew := fun _ => 0) (by rw [h.noRBM]; intro e; exact absurd e (by decide))
  rw [h.noRBM] at this
  exact this

theorem greenFunc1F2_val {ri rj s t : Nat} (hs : s < 2) (ht : t < 2) (hi : ri < g.p.Nsite) (hj : rj < g.p.Nsite)
    (hIJ : ri + s * g.p.Nsite ≠ rj + t * g.p.Nsite) :
    greenFunc1F2 g ri rj s t ip projCnt c
      = (matrixElement (psi g) [.cr (ri + s * g.p.Nsite), .an (rj + t * g.p.Nsite)] (fszList g c), c) := by
  have hc : ConsF g.fp c := h.cons
  have pl := placed_fsz hc
  have hI := orb_lt hs hi
  have hJ := orb_lt ht hj
  have nd : (fszList g c).Nodup := pl.nodup
  have rg : ∀ z ∈ fszList g c, z < 2 * g.p.Nsite := pl.range
  have mI : ri + s * g.p.Nsite ∈ fszList g c ↔ _ := pl.mem hI
  have mJ : rj + t * g.p.Nsite ∈ fszList g c ↔ _ := pl.mem hJ
  rw [matrixElement_one]
  unfold greenFunc1F2
  simp only []
  rw [ov1_hop (psi_anti hg) hI nd rg hIJ]
  by_cases hz : c.num (ri + s * g.p.Nsite) = 1 ∨ c.num (rj + t * g.p.Nsite) = 0
  · rw [if_pos hz, if_neg]
    · simp
    · rw [mI, mJ]; omega
  · have hz := not_or.mp hz
    have hmem : rj + t * g.p.Nsite ∈ fszList g c ∧ ri + s * g.p.Nsite ∉ fszList g c := by
      rw [mI, mJ]
      have := pl.bin _ hJ
      omega
    rw [if_neg (not_or.mpr hz), if_pos hmem]
    obtain ⟨hm, hat, hsp⟩ := consF_at hc ht hj hz.2
    have ok : MoveOK g.fp c ⟨(c.cfg (rj + t * g.p.Nsite)).toNat, rj, ri, t, s⟩ :=
      ⟨ht, hs, hm, hj, hi, hat, hsp, consF_free hc hs hi hz.1⟩
    have hu := fszList_update hc ok
    have key := h.ratio hg (placed_fsz (updateF_cons hc ok)) (proj_move hg hc ok h.proj)
    rw [← ampF_one hg hc ok h.pf] at key
    simp only [] at hu
    apply Prod.ext
    · simp only []
      rw [← hu]
      exact congrArg _ key
    · have n1 : c.num (ri + s * g.p.Nsite) = 0 := by have := pl.bin _ hI; omega
      have n2 : c.num (rj + t * g.p.Nsite) = 1 := by have := pl.bin _ hJ; omega
      have a := set_back (v := (ri : Int)) hat
      have b := set_back (v := (s : Int)) hsp
      have d := set_back2 (v := 0) (w := 1) (Ne.symm hIJ) n2 n1
      simp only []
      cases c
      exact FCfg.mk.injEq .. |>.mpr ⟨a, b, rfl, d⟩

theorem greenFunc1F_val {ri rj s : Nat} (hs : s < 2) (hi : ri < g.p.Nsite) (hj : rj < g.p.Nsite) :
    greenFunc1F g ri rj s ip projCnt c
      = (matrixElement (psi g) [.cr (ri + s * g.p.Nsite), .an (rj + s * g.p.Nsite)] (fszList g c), c) := by
  have hc : ConsF g.fp c := h.cons
  have pl := placed_fsz hc
  have hI := orb_lt hs hi
  have hJ := orb_lt hs hj
  have nd : (fszList g c).Nodup := pl.nodup
  have rg : ∀ z ∈ fszList g c, z < 2 * g.p.Nsite := pl.range
  have mI : ri + s * g.p.Nsite ∈ fszList g c ↔ _ := pl.mem hI
  have mJ : rj + s * g.p.Nsite ∈ fszList g c ↔ _ := pl.mem hJ
  have nz := h.list_ne hg
  rw [matrixElement_one]
  unfold greenFunc1F
  simp only []
  by_cases e : ri = rj
  · subst e
    rw [if_pos rfl, ov1_same (psi_anti hg) hI nd rg]
    rcases pl.bin _ hI with e | e
    · rw [if_neg (by rw [mI]; omega), e]; simp
    · rw [if_pos (mI.mpr e), e, div_self nz]; simp
  rw [if_neg e, ov1_hop (psi_anti hg) hI nd rg (by omega)]
  by_cases hz : c.num (ri + s * g.p.Nsite) = 1 ∨ c.num (rj + s * g.p.Nsite) = 0
  · rw [if_pos hz, if_neg]
    · simp
    · rw [mI, mJ]; omega
  · have hz := not_or.mp hz
    have hmem : rj + s * g.p.Nsite ∈ fszList g c ∧ ri + s * g.p.Nsite ∉ fszList g c := by
      rw [mI, mJ]
      have := pl.bin _ hJ
      omega
    rw [if_neg (not_or.mpr hz), if_pos hmem]
    obtain ⟨hm, hat, hsp⟩ := consF_at hc hs hj hz.2
    have ok : MoveOK g.fp c ⟨(c.cfg (rj + s * g.p.Nsite)).toNat, rj, ri, s, s⟩ :=
      ⟨hs, hs, hm, hj, hi, hat, hsp, consF_free hc hs hi hz.1⟩
    have hu := fszList_update hc ok
    have key := h.ratio hg (placed_fsz (updateF_cons hc ok)) (proj_move' hg hc ok (Ne.symm e) h.proj)
    rw [← ampF_one hg hc ok h.pf] at key
    simp only [] at hu
    apply Prod.ext
    · simp only []
      rw [← hu]
      exact congrArg _ key
    · have n1 : c.num (ri + s * g.p.Nsite) = 0 := by have := pl.bin _ hI; omega
      have n2 : c.num (rj + s * g.p.Nsite) = 1 := by have := pl.bin _ hJ; omega
      have a := set_back (v := (ri : Int)) hat
      have b := set_back (v := (s : Int)) hsp
      have d := set_back2 (v := 0) (w := 1) (show rj + s * g.p.Nsite ≠ ri + s * g.p.Nsite by omega) n2 n1
      simp only []
      cases c
      exact FCfg.mk.injEq .. |>.mpr ⟨a, b, rfl, d⟩

/-- the two moves of the last branch -/
theorem twoMoves_val {ri rj rk rl s t u v : Nat} (hs : s < 2) (ht : t < 2) (hu : u < 2) (hv : v < 2)
    (hi : ri < g.p.Nsite) (hj : rj < g.p.Nsite) (hk : rk < g.p.Nsite) (hl : rl < g.p.Nsite)
    (hIJ : ri + s * g.p.Nsite ≠ rj + t * g.p.Nsite) (hIK : ri + s * g.p.Nsite ≠ rk + u * g.p.Nsite)
    (hIL : ri + s * g.p.Nsite ≠ rl + v * g.p.Nsite) (hJK : rj + t * g.p.Nsite ≠ rk + u * g.p.Nsite)
    (hJL : rj + t * g.p.Nsite ≠ rl + v * g.p.Nsite) (hKL : rk + u * g.p.Nsite ≠ rl + v * g.p.Nsite)
    {P Q : (Arr → Arr → Arr)}
    (hP : ∀ {d : FCfg} {o : Arr}, ConsF g.fp d → MoveOK g.fp d ⟨(c.cfg (rl + v * g.p.Nsite)).toNat, rl, rk, v, u⟩ →
      (∀ i < g.q.NProj, o i = makeProjCnt g.q d.num i) → ∀ i < g.q.NProj,
      P o (updateEleConfigF g.fp ⟨(c.cfg (rl + v * g.p.Nsite)).toNat, rl, rk, v, u⟩ d).num i
        = makeProjCnt g.q (updateEleConfigF g.fp ⟨(c.cfg (rl + v * g.p.Nsite)).toNat, rl, rk, v, u⟩ d).num i)
    (hQ : ∀ {d : FCfg} {o : Arr}, ConsF g.fp d → MoveOK g.fp d ⟨(c.cfg (rj + t * g.p.Nsite)).toNat, rj, ri, t, s⟩ →
      (∀ i < g.q.NProj, o i = makeProjCnt g.q d.num i) → ∀ i < g.q.NProj,
      Q o (updateEleConfigF g.fp ⟨(c.cfg (rj + t * g.p.Nsite)).toNat, rj, ri, t, s⟩ d).num i
        = makeProjCnt g.q (updateEleConfigF g.fp ⟨(c.cfg (rj + t * g.p.Nsite)).toNat, rj, ri, t, s⟩ d).num i) :
    (if c.num (ri + s * g.p.Nsite) = 1 ∨ c.num (rj + t * g.p.Nsite) = 0 ∨ c.num (rk + u * g.p.Nsite) = 1 ∨
        c.num (rl + v * g.p.Nsite) = 0 then ((0 : ℂ), c)
      else
        let mj := (c.cfg (rj + t * g.p.Nsite)).toNat
        let ml := (c.cfg (rl + v * g.p.Nsite)).toNat
        let idx := c.idx.set ml rk
        let spn := c.spn.set ml u
        let num := (c.num.set (rl + v * g.p.Nsite) 0).set (rk + u * g.p.Nsite) 1
        let projNew := P projCnt num
        let idx := idx.set mj ri
        let spn := spn.set mj s
        let num := (num.set (rj + t * g.p.Nsite) 0).set (ri + s * g.p.Nsite) 1
        let projNew := Q projNew num
        let z := projRatioC g projNew projCnt
        let z := z * calculateIPLocal g.w (calculateNewPfMTwoFsz g.p g.slt ml u mj s idx spn 0 g.st) 0 g.nQP
        ((starRingEnd ℂ) (z / ip),
          { c with
            idx := (idx.set ml rl).set mj rj
            spn := (spn.set ml v).set mj t
            num := (((num.set (rl + v * g.p.Nsite) 1).set (rk + u * g.p.Nsite) 0).set (rj + t * g.p.Nsite) 1).set
              (ri + s * g.p.Nsite) 0 }))
      = (matrixElement (psi g) [.cr (ri + s * g.p.Nsite), .an (rj + t * g.p.Nsite), .cr (rk + u * g.p.Nsite),
          .an (rl + v * g.p.Nsite)] (fszList g c), c) := by
  have hc : ConsF g.fp c := h.cons
  have pl := placed_fsz hc
  have hI := orb_lt hs hi
  have hJ := orb_lt ht hj
  have hK := orb_lt hu hk
  have hL := orb_lt hv hl
  have nd : (fszList g c).Nodup := pl.nodup
  have rg : ∀ z ∈ fszList g c, z < 2 * g.p.Nsite := pl.range
  have mI : ri + s * g.p.Nsite ∈ fszList g c ↔ _ := pl.mem hI
  have mJ : rj + t * g.p.Nsite ∈ fszList g c ↔ _ := pl.mem hJ
  have mK : rk + u * g.p.Nsite ∈ fszList g c ↔ _ := pl.mem hK
  have mL : rl + v * g.p.Nsite ∈ fszList g c ↔ _ := pl.mem hL
  rw [matrixElement_two, ov2_distinct (psi_anti hg) hI hK nd rg hIJ hIK hIL hJK hJL hKL]
  by_cases hz : c.num (ri + s * g.p.Nsite) = 1 ∨ c.num (rj + t * g.p.Nsite) = 0 ∨ c.num (rk + u * g.p.Nsite) = 1 ∨
      c.num (rl + v * g.p.Nsite) = 0
  · rw [if_pos hz, if_neg]
    · simp
    · rw [mI, mJ, mK, mL]; omega
  · rw [if_neg hz]
    simp only [not_or] at hz
    obtain ⟨z1, z2, z3, z4⟩ := hz
    have hmem : ri + s * g.p.Nsite ∉ fszList g c ∧ rj + t * g.p.Nsite ∈ fszList g c ∧ rk + u * g.p.Nsite ∉ fszList g c ∧
        rl + v * g.p.Nsite ∈ fszList g c := by
      rw [mI, mJ, mK, mL]
      have := pl.bin _ hJ
      have := pl.bin _ hL
      omega
    rw [if_pos hmem]
    obtain ⟨hm, hat, hsp⟩ := consF_at hc ht hj z2
    obtain ⟨hm2, hat2, hsp2⟩ := consF_at hc hv hl z4
    have ok : MoveOK g.fp c ⟨(c.cfg (rl + v * g.p.Nsite)).toNat, rl, rk, v, u⟩ :=
      ⟨hv, hu, hm2, hl, hk, hat2, hsp2, consF_free hc hu hk z3⟩
    have ok2' : MoveOK g.fp c ⟨(c.cfg (rj + t * g.p.Nsite)).toNat, rj, ri, t, s⟩ :=
      ⟨ht, hs, hm, hj, hi, hat, hsp, consF_free hc hs hi z1⟩
    obtain ⟨ok2, hne⟩ := two_move_ok hc ok ok2' (by rintro ⟨rfl, rfl⟩; exact hJL rfl) (by rintro ⟨rfl, rfl⟩; exact hIK rfl)
    have hc2 := updateF_cons hc ok
    have hu := fszList_update hc ok
    have hu2 := fszList_update hc2 ok2
    have key := h.ratio hg (placed_fsz (updateF_cons hc2 ok2)) (hQ hc2 ok2 (hP hc ok h.proj))
    rw [← ampF_two hg hc ok ok2 hne h.pf] at key
    apply Prod.ext
    · simp only [] at hu hu2 ⊢
      rw [← hu, ← hu2]
      exact congrArg (starRingEnd ℂ) key
    · have n1 : c.num (ri + s * g.p.Nsite) = 0 := by have := pl.bin _ hI; omega
      have n2 : c.num (rj + t * g.p.Nsite) = 1 := by have := pl.bin _ hJ; omega
      have n3 : c.num (rk + u * g.p.Nsite) = 0 := by have := pl.bin _ hK; omega
      have n4 : c.num (rl + v * g.p.Nsite) = 1 := by have := pl.bin _ hL; omega
      have a := set_back2 (v := (rk : Int)) (w := (ri : Int)) (Ne.symm hne) hat2 hat
      have b := set_back2 (v := (u : Int)) (w := (s : Int)) (Ne.symm hne) hsp2 hsp
      have d := set_back4 (p := 0) (q := 1) (r := 0) (s := 1) n4 n3 n2 n1
      simp only []
      cases c
      exact FCfg.mk.injEq .. |>.mpr ⟨a, b, rfl, d⟩

theorem greenFunc2FHop_val {ri rj rk rl s t : Nat} (hs : s < 2) (ht : t < 2)
    (hi : ri < g.p.Nsite) (hj : rj < g.p.Nsite) (hk : rk < g.p.Nsite) (hl : rl < g.p.Nsite)
    (hij : ri ≠ rj) (hIK : ri + s * g.p.Nsite ≠ rk + t * g.p.Nsite)
    (hIL : ri + s * g.p.Nsite ≠ rl + t * g.p.Nsite) (hJK : rj + s * g.p.Nsite ≠ rk + t * g.p.Nsite)
    (hJL : rj + s * g.p.Nsite ≠ rl + t * g.p.Nsite) (hkl : rk ≠ rl) :
    greenFunc2FHop g ri rj rk rl s t ip projCnt c
      = (matrixElement (psi g) [.cr (ri + s * g.p.Nsite), .an (rj + s * g.p.Nsite), .cr (rk + t * g.p.Nsite),
          .an (rl + t * g.p.Nsite)] (fszList g c), c) :=
  twoMoves_val hg h hs hs ht ht hi hj hk hl (by omega) hIK hIL hJK hJL (by omega)
    (P := updateProjCnt g.q rl rk) (Q := updateProjCnt g.q rj ri)
    (fun hd ok ho => proj_move' hg hd ok (Ne.symm hkl) ho) (fun hd ok ho => proj_move' hg hd ok (Ne.symm hij) ho)

theorem greenFunc2F2Hop_val {ri rj rk rl s t u v : Nat} (hs : s < 2) (ht : t < 2) (hu : u < 2) (hv : v < 2)
    (hi : ri < g.p.Nsite) (hj : rj < g.p.Nsite) (hk : rk < g.p.Nsite) (hl : rl < g.p.Nsite)
    (hIJ : ri + s * g.p.Nsite ≠ rj + t * g.p.Nsite) (hIK : ri + s * g.p.Nsite ≠ rk + u * g.p.Nsite)
    (hIL : ri + s * g.p.Nsite ≠ rl + v * g.p.Nsite) (hJK : rj + t * g.p.Nsite ≠ rk + u * g.p.Nsite)
    (hJL : rj + t * g.p.Nsite ≠ rl + v * g.p.Nsite) (hKL : rk + u * g.p.Nsite ≠ rl + v * g.p.Nsite) :
    greenFunc2F2Hop g ri rj rk rl s t u v ip projCnt c
      = (matrixElement (psi g) [.cr (ri + s * g.p.Nsite), .an (rj + t * g.p.Nsite), .cr (rk + u * g.p.Nsite),
          .an (rl + v * g.p.Nsite)] (fszList g c), c) :=
  twoMoves_val hg h hs ht hu hv hi hj hk hl hIJ hIK hIL hJK hJL hKL
    (P := updateProjCntFsz g.q rl rk) (Q := updateProjCntFsz g.q rj ri)
    (fun hd ok ho => proj_move hg hd ok ho) (fun hd ok ho => proj_move hg hd ok ho)

theorem greenFunc2F_val {ri rj rk rl s t : Nat} (hs : s < 2) (ht : t < 2) (hi : ri < g.p.Nsite) (hj : rj < g.p.Nsite)
    (hk : rk < g.p.Nsite) (hl : rl < g.p.Nsite) :
    greenFunc2F g ri rj rk rl s t ip projCnt c
      = (matrixElement (psi g) [.cr (ri + s * g.p.Nsite), .an (rj + s * g.p.Nsite), .cr (rk + t * g.p.Nsite),
          .an (rl + t * g.p.Nsite)] (fszList g c), c) := by
  have hc : ConsF g.fp c := h.cons
  have pl := placed_fsz hc
  have hI := orb_lt hs hi
  have hJ := orb_lt hs hj
  have hK := orb_lt ht hk
  have hL := orb_lt ht hl
  have nd : (fszList g c).Nodup := pl.nodup
  have rg : ∀ z ∈ fszList g c, z < 2 * g.p.Nsite := pl.range
  have mm : ∀ {x}, x < 2 * g.p.Nsite → (x ∈ fszList g c ↔ c.num x = 1) := fun hx => pl.mem hx
  have nz := h.list_ne hg
  have hF := psi_anti hg
  have z0 : (0 : ℂ) = (starRingEnd ℂ) (0 / psi g (fszList g c)) := by simp
  unfold greenFunc2F
  simp only []
  by_cases est : s = t
  · subst est
    rw [if_pos rfl]
    by_cases ekl : rk = rl
    · subst ekl
      rw [if_pos rfl, matrixElement_two, ov2_KK hF hI hK nd rg, greenFunc1F_val hg h hs hi hj, matrixElement_one]
      rcases pl.bin _ hK with e | e
      · rw [if_pos e, if_neg (by rw [mm hK]; omega), ← z0]
      · rw [if_neg (by omega), if_pos ((mm hK).mpr e)]
    rw [if_neg ekl]
    have KL : rk + s * g.p.Nsite ≠ rl + s * g.p.Nsite := by omega
    by_cases ejl : rj = rl
    · subst ejl
      rw [if_pos rfl, matrixElement_two, ov2_JL hF hI hK nd rg KL, ← z0]
    rw [if_neg ejl]
    have JL : rj + s * g.p.Nsite ≠ rl + s * g.p.Nsite := by omega
    by_cases eil : ri = rl
    · subst eil
      rw [if_pos rfl]
      by_cases ejk : rj = rk
      · subst ejk
        rw [if_pos rfl, matrixElement_two, ov2_IL_JK hF hK hL nd rg KL]
        rcases pl.bin _ hL with e | e
        · rw [if_pos e, if_neg (by rw [mm hL]; omega), ← z0]
        · rw [if_neg (by omega)]
          rcases pl.bin _ hJ with e' | e'
          · rw [if_pos ⟨(mm hL).mpr e, by rw [mm hJ]; omega⟩, div_self nz, e']; simp
          · rw [if_neg (by rw [mm hJ]; tauto), ← z0, e']; simp
      · have JK : rj + s * g.p.Nsite ≠ rk + s * g.p.Nsite := by omega
        rw [if_neg ejk, matrixElement_two, ov2_IL hF hK hL nd rg KL JL JK, greenFunc1F_val hg h hs hk hj, matrixElement_one]
        rcases pl.bin _ hL with e | e
        · rw [if_pos e, if_neg (by rw [mm hL]; omega), ← z0]
        · rw [if_neg (by omega), if_pos ((mm hL).mpr e)]
          simp [neg_div]
    rw [if_neg eil]
    have IL : ri + s * g.p.Nsite ≠ rl + s * g.p.Nsite := by omega
    by_cases ejk : rj = rk
    · subst ejk
      rw [if_pos rfl, matrixElement_two, ov2_JK hF hI hK nd rg KL IL, greenFunc1F_val hg h hs hi hl, matrixElement_one,
        if_neg eil]
      rcases pl.bin _ hJ with e | e
      · rw [if_neg (by omega), if_neg (by rw [mm hJ]; omega)]
      · rw [if_pos e, if_pos ((mm hJ).mpr e), ← z0]
    rw [if_neg ejk]
    have JK : rj + s * g.p.Nsite ≠ rk + s * g.p.Nsite := by omega
    by_cases eik : ri = rk
    · subst eik
      rw [if_pos rfl, matrixElement_two, ov2_IK hF hI nd rg (fun e => JK e.symm), ← z0]
    rw [if_neg eik]
    have IK : ri + s * g.p.Nsite ≠ rk + s * g.p.Nsite := by omega
    by_cases eij : ri = rj
    · subst eij
      rw [if_pos rfl, matrixElement_two, ov2_IJ hF hI hK nd rg IK IL, greenFunc1F_val hg h hs hk hl, matrixElement_one]
      rcases pl.bin _ hI with e | e
      · rw [if_pos e, if_neg (by rw [mm hI]; omega), ← z0]
      · rw [if_neg (by omega), if_pos ((mm hI).mpr e)]
    rw [if_neg eij]
    exact greenFunc2FHop_val hg h hs hs hi hj hk hl eij IK IL JK JL ekl
  · rw [if_neg est]
    have off : ∀ {a b : Nat}, a < g.p.Nsite → b < g.p.Nsite → a + s * g.p.Nsite ≠ b + t * g.p.Nsite := by
      intro a b ha hb e
      exact est ((flat_inj hs ht ha hb).mp e).2
    by_cases ekl : rk = rl
    · subst ekl
      rw [if_pos rfl, matrixElement_two, ov2_KK hF hI hK nd rg, greenFunc1F_val hg h hs hi hj, matrixElement_one]
      rcases pl.bin _ hK with e | e
      · rw [if_pos e, if_neg (by rw [mm hK]; omega), ← z0]
      · rw [if_neg (by omega), if_pos ((mm hK).mpr e)]
        by_cases eij : ri = rj
        · subst eij
          rw [if_pos rfl, ov1_same hF hI nd rg]
          rcases pl.bin _ hI with e' | e'
          · rw [if_neg (by rw [mm hI]; omega), e', ← z0]; simp
          · rw [if_pos ((mm hI).mpr e'), div_self nz, e']; simp
        · rw [if_neg eij]
    rw [if_neg ekl]
    by_cases eij : ri = rj
    · subst eij
      rw [if_pos rfl, matrixElement_two, ov2_IJ hF hI hK nd rg (off hi hk) (off hi hl), greenFunc1F_val hg h ht hk hl,
        matrixElement_one]
      rcases pl.bin _ hI with e | e
      · rw [if_pos e, if_neg (by rw [mm hI]; omega), ← z0]
      · rw [if_neg (by omega), if_pos ((mm hI).mpr e)]
    rw [if_neg eij]
    exact greenFunc2FHop_val hg h hs ht hi hj hk hl eij (off hi hk) (off hi hl) (off hj hk) (off hj hl) ekl

theorem greenFunc2F2_val {ri rj rk rl s t u v : Nat} (hs : s < 2) (ht : t < 2) (hu : u < 2) (hv : v < 2)
    (hi : ri < g.p.Nsite) (hj : rj < g.p.Nsite) (hk : rk < g.p.Nsite) (hl : rl < g.p.Nsite) :
    greenFunc2F2 g ri rj rk rl s t u v ip projCnt c
      = (matrixElement (psi g) [.cr (ri + s * g.p.Nsite), .an (rj + t * g.p.Nsite), .cr (rk + u * g.p.Nsite),
          .an (rl + v * g.p.Nsite)] (fszList g c), c) := by
  have hc : ConsF g.fp c := h.cons
  have pl := placed_fsz hc
  have hI := orb_lt hs hi
  have hJ := orb_lt ht hj
  have hK := orb_lt hu hk
  have hL := orb_lt hv hl
  have nd : (fszList g c).Nodup := pl.nodup
  have rg : ∀ z ∈ fszList g c, z < 2 * g.p.Nsite := pl.range
  have mm : ∀ {x}, x < 2 * g.p.Nsite → (x ∈ fszList g c ↔ c.num x = 1) := fun hx => pl.mem hx
  have nz := h.list_ne hg
  have hF := psi_anti hg
  have z0 : (0 : ℂ) = (starRingEnd ℂ) (0 / psi g (fszList g c)) := by simp
  have g1 : ∀ {a b x y : Nat}, x < 2 → y < 2 → a < g.p.Nsite → b < g.p.Nsite → a + x * g.p.Nsite ≠ b + y * g.p.Nsite →
      greenFunc1F2 g a b x y ip projCnt c
        = ((starRingEnd ℂ) (ov1 (psi g) (a + x * g.p.Nsite) (b + y * g.p.Nsite) (fszList g c) / psi g (fszList g c)), c) :=
    fun hx hy ha hb hne => greenFunc1F2_val hg h hx hy ha hb hne
  unfold greenFunc2F2
  simp only []
  by_cases eIJ : ri + s * g.p.Nsite = rj + t * g.p.Nsite
  · rw [if_pos eIJ]
    by_cases eJK : rj + t * g.p.Nsite = rk + u * g.p.Nsite
    · rw [if_pos eJK]
      by_cases eKL : rk + u * g.p.Nsite = rl + v * g.p.Nsite
      · rw [if_pos eKL, matrixElement_two, ← eIJ, ← eKL, ← eJK, ← eIJ, ov2_KK hF hI hI nd rg, ov1_same hF hI nd rg]
        rcases pl.bin _ hI with e | e
        · rw [if_neg (by rw [mm hI]; omega), ← z0, e]; simp
        · rw [if_pos ((mm hI).mpr e), if_pos ((mm hI).mpr e), div_self nz, e]; simp
      · rw [if_neg eKL, g1 hu hv hk hl eKL, matrixElement_two, ← eIJ, eIJ.trans eJK,
          ov2_JK hF hK hK nd rg eKL eKL]
        rcases pl.bin _ hK with e | e
        · rw [if_neg (by omega), if_neg (by rw [mm hK]; omega)]
        · rw [if_pos e, if_pos ((mm hK).mpr e), ← z0]
    · rw [if_neg eJK]
      by_cases eJL : rj + t * g.p.Nsite = rl + v * g.p.Nsite
      · rw [if_pos eJL, matrixElement_two, ← eJL, ov2_JL hF hI hK nd rg (Ne.symm eJK), ← z0]
      rw [if_neg eJL]
      by_cases eKL : rk + u * g.p.Nsite = rl + v * g.p.Nsite
      · rw [if_pos eKL, matrixElement_two, ← eKL, ← eIJ, ov2_KK hF hI hK nd rg, ov1_same hF hI nd rg]
        rcases pl.bin _ hK with e | e
        · rw [if_neg (by rw [mm hK]; omega), ← z0, e]; simp
        · rw [if_pos ((mm hK).mpr e), e]
          rcases pl.bin _ hI with e' | e'
          · rw [if_neg (by rw [mm hI]; omega), ← z0, e']; simp
          · rw [if_pos ((mm hI).mpr e'), div_self nz, e']; simp
      · rw [if_neg eKL, g1 hu hv hk hl eKL, matrixElement_two, ← eIJ,
          ov2_IJ hF hI hK nd rg (by rw [eIJ]; exact eJK) (by rw [eIJ]; exact eJL)]
        rcases pl.bin _ hI with e | e
        · rw [if_pos e, if_neg (by rw [mm hI]; omega), ← z0]
        · rw [if_neg (by omega), if_pos ((mm hI).mpr e)]
  rw [if_neg eIJ]
  by_cases eIK : ri + s * g.p.Nsite = rk + u * g.p.Nsite
  · rw [if_pos eIK, matrixElement_two, ← eIK, ov2_IK hF hI nd rg eIJ, ← z0]
  rw [if_neg eIK]
  by_cases eIL : ri + s * g.p.Nsite = rl + v * g.p.Nsite
  · rw [if_pos eIL]
    by_cases eJK : rj + t * g.p.Nsite = rk + u * g.p.Nsite
    · rw [if_pos eJK, matrixElement_two, ← eIL, ← eJK, ov2_IL_JK hF hJ hI nd rg (Ne.symm eIJ)]
      rcases pl.bin _ hI with e | e
      · rw [if_neg (by rw [mm hI]; omega), ← z0, e]; simp
      · rcases pl.bin _ hJ with e' | e'
        · rw [if_pos ⟨(mm hI).mpr e, by rw [mm hJ]; omega⟩, div_self nz, e, e']; simp
        · rw [if_neg (by rw [mm hJ]; tauto), ← z0, e']; simp
    · rw [if_neg eJK, g1 hu ht hk hj (Ne.symm eJK), matrixElement_two, ← eIL,
        ov2_IL hF hK hI nd rg (Ne.symm eIK) (Ne.symm eIJ) eJK]
      rcases pl.bin _ hI with e | e
      · rw [if_pos e, if_neg (by rw [mm hI]; omega), ← z0]
      · rw [if_neg (by omega), if_pos ((mm hI).mpr e)]
        simp [neg_div]
  rw [if_neg eIL]
  by_cases eJK : rj + t * g.p.Nsite = rk + u * g.p.Nsite
  · rw [if_pos eJK]
    by_cases eKL : rk + u * g.p.Nsite = rl + v * g.p.Nsite
    · rw [if_pos eKL, g1 hs ht hi hj eIJ, matrixElement_two, ← eKL, ov2_KK hF hI hK nd rg, eJK]
      rcases pl.bin _ hK with e | e
      · rw [if_pos e, if_neg (by rw [mm hK]; omega), ← z0]
      · rw [if_neg (by omega), if_pos ((mm hK).mpr e)]
    · rw [if_neg eKL, g1 hs hv hi hl eIL, matrixElement_two, eJK, ov2_JK hF hI hK nd rg eKL eIL]
      rcases pl.bin _ hK with e | e
      · rw [if_neg (by omega), if_neg (by rw [mm hK]; omega)]
      · rw [if_pos e, if_pos ((mm hK).mpr e), ← z0]
  rw [if_neg eJK]
  by_cases eJL : rj + t * g.p.Nsite = rl + v * g.p.Nsite
  · rw [if_pos eJL, matrixElement_two, ← eJL, ov2_JL hF hI hK nd rg (Ne.symm eJK), ← z0]
  rw [if_neg eJL]
  by_cases eKL : rk + u * g.p.Nsite = rl + v * g.p.Nsite
  · rw [if_pos eKL, g1 hs ht hi hj eIJ, matrixElement_two, ← eKL, ov2_KK hF hI hK nd rg]
    rcases pl.bin _ hK with e | e
    · rw [if_pos e, if_neg (by rw [mm hK]; omega), ← z0]
    · rw [if_neg (by omega), if_pos ((mm hK).mpr e)]
  rw [if_neg eKL]
  exact greenFunc2F2Hop_val hg h hs ht hu hv hi hj hk hl eIJ eIK eIL eJK eJL eKL

end

end MVMC
