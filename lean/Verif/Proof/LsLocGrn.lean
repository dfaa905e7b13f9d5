import Verif.Proof.LsDual

/-! # The second-order local quantities are matrix elements of products with the Hamiltonian -/
namespace MVMC
open MVMC.Spec Finset

/-! ### copies of `InvM`, `PfM` -/

theorem copyArr_at {K : Type} (n : Nat) (src dst : Nat → K) {i : Nat} (hi : i < n) : copyArr n src dst i = src i := by
  unfold copyArr
  induction n with
  | zero => omega
  | succ n ih =>
    rw [List.range_succ, List.foldl_append]
    simp only [List.foldl_cons, List.foldl_nil]
    by_cases q : i = n
    · subst q; simp [setAt]
    · unfold setAt at ih ⊢; rw [if_neg q]; exact ih (by omega)

theorem sameState_copy (g : GrnEnv) (x y : PfState ℂ) : SameState g g.st (copyMAll g.p g.nQP (copyMAll g.p g.nQP g.st x) y) := by
  refine ⟨fun i hi => ?_, fun q hq => ?_⟩
  · exact (copyArr_at _ _ _ hi).trans (copyArr_at _ _ _ hi)
  · exact (copyArr_at _ _ _ hq).trans (copyArr_at _ _ _ hq)

theorem SameState.refl (g : GrnEnv) (st : PfState ℂ) : SameState g st st := ⟨fun _ _ => rfl, fun _ _ => rfl⟩

theorem SameState.trans {g : GrnEnv} {a b d : PfState ℂ} (h : SameState g a b) (h' : SameState g b d) : SameState g a d :=
  ⟨fun i hi => (h'.1 i hi).trans (h.1 i hi), fun q hq => (h'.2 q hq).trans (h.2 q hq)⟩

theorem cell_lt {n nq q i j : Nat} (hq : q < nq) (hi : i < n) (hj : j < n) : q * n * n + i * n + j < nq * n * n := by
  have h1 : i * n + j < n * n := by
    have : (i + 1) * n ≤ n * n := Nat.mul_le_mul_right n hi
    rw [Nat.add_mul, Nat.one_mul] at this
    omega
  have h2 : (q + 1) * (n * n) ≤ nq * (n * n) := Nat.mul_le_mul_right _ hq
  rw [Nat.add_mul, Nat.one_mul] at h2
  rw [Nat.mul_assoc, Nat.mul_assoc nq]
  omega

theorem pfOK_same {n m nq : Nat} {slt : Nat → ℂ} {rs : Nat → Nat} {pfM invM pfM' invM' : Nat → ℂ}
    (h : PfOK n m slt 0 nq rs pfM invM) (h1 : ∀ i < nq * n * n, invM' i = invM i) (h2 : ∀ q < nq, pfM' q = pfM q) :
    PfOK n m slt 0 nq rs pfM' invM' := by
  intro q hq
  refine ⟨by rw [h2 q hq]; exact (h q hq).1, fun i hi j hj => ?_⟩
  rw [← (h q hq).2 i hi j hj]
  refine sum_congr rfl (fun k hk => ?_)
  unfold entry
  rw [h1 _ (cell_lt hq hi (mem_range.mp hk))]

theorem grnOK_st {g : GrnEnv} (hg : GrnOK g) (st : PfState ℂ) : GrnOK { g with st := st } := ⟨hg.hq, hg.tab, hg.skew⟩

theorem grnRBM_st {g : GrnEnv} (hr : g.flagRBM = true → GrnRBM g) (st : PfState ℂ) :
    ({ g with st := st } : GrnEnv).flagRBM = true → GrnRBM { g with st := st } :=
  fun hf => ⟨(hr hf).hN, (hr hf).tab, (hr hf).blk, (hr hf).cosh⟩

theorem sampled_st {g : GrnEnv} {c : EleCfg} {ip : ℂ} {projCnt : Arr} {rbmCnt : Nat → ℂ} (h : Sampled g c ip projCnt rbmCnt)
    {st : PfState ℂ} (hs : SameState g g.st st) : Sampled { g with st := st } c ip projCnt rbmCnt :=
  ⟨h.cons, pfOK_same h.pf hs.1 hs.2, h.hip, h.hne, h.proj, h.rbm⟩

theorem set_swap {a : Arr} {i j : Nat} {v w : Int} (h : i ≠ j) : (a.set i v).set j w = (a.set j w).set i v := by
  funext x
  unfold Arr.set
  by_cases e : x = i
  · subst e; simp [h]
  · simp [e]

theorem spin_pair {N s r r' : Nat} (hs : s < 2) (h : r < N) (h' : r' < N) :
    r + s * N < 2 * N ∧ r' + s * N < 2 * N ∧ (r + s * N) / N = (r' + s * N) / N := by
  refine ⟨orb_lt hs h, orb_lt hs h', ?_⟩
  rw [Nat.add_mul_div_right _ _ (by omega), Nat.add_mul_div_right _ _ (by omega), Nat.div_eq_of_lt h, Nat.div_eq_of_lt h']

theorem spin_pair0 {N r r' : Nat} (h : r < N) (h' : r' < N) : r < 2 * N ∧ r' < 2 * N ∧ r / N = r' / N := by
  have := spin_pair (s := 0) (by omega) h h'
  simpa using this

theorem spin_pair1 {N r r' : Nat} (h : r < N) (h' : r' < N) : r + N < 2 * N ∧ r' + N < 2 * N ∧ (r + N) / N = (r' + N) / N := by
  have := spin_pair (s := 1) (by omega) h h'
  simpa using this

theorem prs_lst : ∀ (rsi rsj : List Nat), rsi.length = rsj.length → prs (lst rsi) (lst rsj) 0 rsi.length = rsi.zip rsj := by
  intro a b hab
  apply List.ext_getElem
  · simp [prs, hab]
  · intro k h1 h2
    have hk : k < a.length := by simpa [prs] using h1
    simp [prs, lst, List.getElem_zip, hk, hab ▸ hk]

section
variable {g : GrnEnv} (hg : GrnOK g) (hr : g.flagRBM = true → GrnRBM g) {c : EleCfg} {ip : ℂ} {projCnt : Arr} {rbmCnt : Nat → ℂ}
  (h : Sampled g c ip projCnt rbmCnt)
include hg hr h

/-- one accumulated call of `GreenFuncN` -/
theorem accN_val {pfa : Nat → (Nat → ℂ) → ℂ} (hpfa : PfaOK pfa) {rsi rsj : List Nat} (hl : rsi.length = rsj.length) (h0 : 0 < rsi.length)
    (hp : ∀ q ∈ rsi.zip rsj, q.1 < 2 * g.p.Nsite ∧ q.2 < 2 * g.p.Nsite ∧ q.1 / g.p.Nsite = q.2 / g.p.Nsite) (a e : ℂ) :
    accN g (lsChildReal pfa g) ip projCnt rbmCnt rsi rsj a (e, c)
      = some (e + a * matrixElement (psi g) (pairOps (rsi.zip rsj)) (szList g c), c) := by
  have key := greenFuncN_val hg hr h hpfa rsi.length (lst rsi) (lst rsj) h0 (by
    intro k hk
    have hk' : k < (rsi.zip rsj).length := by simp [← hl, hk]
    have := hp ((rsi.zip rsj)[k]) (List.getElem_mem hk')
    simpa [List.getElem_zip, lst, hk, hl ▸ hk] using this)
  rw [prs_lst _ _ hl] at key
  unfold accN
  have e' : greenFuncN g (lsChildReal pfa g) ip projCnt rbmCnt c rsi.length (lst rsi) (lst rsj) = _ := key
  simp only [e']

variable {H : HamPar} (hH : HamIdx g.p.Nsite H) (hsz : HamSzConserving H)
include hH hsz

/-- `GreenFuncN` serves the two-body lines after one hop -/
def ChildOK (g : GrnEnv) (H : HamPar) (child : Nat → (Nat → Nat) → Arr → Nat → Option ℂ) : Prop :=
  OneBody H ∨ ∃ pfa, PfaOK pfa ∧ child = lsChildReal pfa g

theorem hcaThread_val {child : Nat → (Nat → Nat) → Arr → Nat → Option ℂ} (hch : ChildOK g H child) {ri rj s : Nat} (hs : s < 2)
    (hi : ri < g.p.Nsite) (hj : rj < g.p.Nsite) (sched : Nat → Nat → Nat) (τ : Nat) (junk : EleCfg) :
    hcaThread g child H sched τ junk ri rj s ip projCnt rbmCnt c = some (0
      + (∑ i ∈ range H.nTR, if sched 3 i = τ then
          energyOf (psi g) (hamTimes (termTransfer g.p.Nsite (H.pTR i) (H.tr i 0) (H.tr i 1) (H.tr i 2) (H.tr i 3))
            [.cr (ri + s * g.p.Nsite), .an (rj + s * g.p.Nsite)]) (szList g c) else 0)
      + (∑ i ∈ range H.nPH, if sched 4 i = τ then energyOf (psi g) (hamTimes (termPairHop g.p.Nsite (H.pPH i) (H.ph i 0) (H.ph i 1))
            [.cr (ri + s * g.p.Nsite), .an (rj + s * g.p.Nsite)]) (szList g c) else 0)
      + (∑ i ∈ range H.nEX, if sched 5 i = τ then energyOf (psi g) (hamTimes (termExchange g.p.Nsite (H.pEX i) (H.ex i 0) (H.ex i 1))
            [.cr (ri + s * g.p.Nsite), .an (rj + s * g.p.Nsite)]) (szList g c) else 0)
      + (∑ i ∈ range H.nIA, if sched 6 i = τ then energyOf (psi g) (hamTimes (termInterAll g.p.Nsite (H.pIA i) (H.ia i 0) (H.ia i 1)
          (H.ia i 2) (H.ia i 3) (H.ia i 4) (H.ia i 5) (H.ia i 6) (H.ia i 7))
            [.cr (ri + s * g.p.Nsite), .an (rj + s * g.p.Nsite)]) (szList g c) else 0)) := by
  obtain ⟨hm, hl⟩ := sampled_priv hg hr h junk
  have sp := spin_pair hs hi hj
  unfold hcaThread
  simp only []
  rw [← hl]
  generalize privS g c junk = my at hm
  rw [ompForO_acc (s := sched 3) (n := H.nTR) (v := fun i =>
    energyOf (psi g) (hamTimes (termTransfer g.p.Nsite (H.pTR i) (H.tr i 0) (H.tr i 1) (H.tr i 2) (H.tr i 3))
            [.cr (ri + s * g.p.Nsite), .an (rj + s * g.p.Nsite)]) (szList g my))
    (by
      intro i hi' e
      obtain ⟨h1, s1, h2, s2⟩ := hH.tr i hi'
      simp only []
      rw [greenFunc2_val hg hr hm s2 hs h1 h2 hi hj]
      unfold termTransfer hamTimes
      rw [hsz.tr i hi']
      simp only [List.map_cons, List.map_nil, energyOf_one]
      congr 2
      simp only [List.cons_append, List.nil_append]
      ring)]
  rw [Option.bind_some]
  rw [ompForO_acc (s := sched 4) (n := H.nPH) (v := fun i =>
    energyOf (psi g) (hamTimes (termPairHop g.p.Nsite (H.pPH i) (H.ph i 0) (H.ph i 1))
            [.cr (ri + s * g.p.Nsite), .an (rj + s * g.p.Nsite)]) (szList g my))
    (by
      intro i hi' e
      rcases hch with hch | ⟨pfa, hpfa, rfl⟩
      · rw [hch.1] at hi'; omega
      obtain ⟨h1, h2⟩ := hH.ph i hi'
      rw [accN_val hg hr hm hpfa (by rfl) (by simp) (by simp [spin_pair0 h1 h2, spin_pair1 h1 h2, sp])]
      unfold termPairHop hamTimes
      simp only [List.map_cons, List.map_nil, energyOf_one]
      rfl)]
  rw [Option.bind_some]
  rw [ompForO_acc (s := sched 5) (n := H.nEX) (v := fun i =>
    energyOf (psi g) (hamTimes (termExchange g.p.Nsite (H.pEX i) (H.ex i 0) (H.ex i 1))
            [.cr (ri + s * g.p.Nsite), .an (rj + s * g.p.Nsite)]) (szList g my))
    (by
      intro i hi' e
      rcases hch with hch | ⟨pfa, hpfa, rfl⟩
      · rw [hch.2.1] at hi'; omega
      obtain ⟨h1, h2⟩ := hH.ex i hi'
      rw [accN_val hg hr hm hpfa (by rfl) (by simp) (by simp [spin_pair0 h1 h2, spin_pair1 h2 h1, sp]), Option.bind_some,
        accN_val hg hr hm hpfa (by rfl) (by simp) (by simp [spin_pair1 h1 h2, spin_pair0 h2 h1, sp])]
      unfold termExchange hamTimes energyOf
      simp only [List.map_cons, List.map_nil, List.sum_cons, List.sum_nil, add_zero, ← add_assoc]
      rfl)]
  rw [Option.bind_some]
  rw [ompForO_acc (s := sched 6) (n := H.nIA) (v := fun i =>
    energyOf (psi g) (hamTimes (termInterAll g.p.Nsite (H.pIA i) (H.ia i 0) (H.ia i 1)
          (H.ia i 2) (H.ia i 3) (H.ia i 4) (H.ia i 5) (H.ia i 6) (H.ia i 7))
            [.cr (ri + s * g.p.Nsite), .an (rj + s * g.p.Nsite)]) (szList g my))
    (by
      intro i hi' e
      rcases hch with hch | ⟨pfa, hpfa, rfl⟩
      · rw [hch.2.2] at hi'; omega
      obtain ⟨⟨h1, h2, h3, h4⟩, s1, s2, s3, s4⟩ := hH.ia i hi'
      obtain ⟨q1, q2⟩ := hsz.ia i hi'
      rw [accN_val hg hr hm hpfa (by rfl) (by simp) (by simp [spin_pair s2 h1 h2, spin_pair s4 h3 h4, sp])]
      unfold termInterAll hamTimes
      rw [q1, q2]
      simp only [List.map_cons, List.map_nil, energyOf_one]
      rfl)]
  rfl


theorem hcacaThread_val {pfa : Nat → (Nat → ℂ) → ℂ} (hpfa : PfaOK pfa) {ri rj rk rl si sk : Nat} (hs : si < 2) (ht : sk < 2)
    (hi : ri < g.p.Nsite) (hj : rj < g.p.Nsite) (hk : rk < g.p.Nsite) (hl : rl < g.p.Nsite) (sched : Nat → Nat → Nat) (τ : Nat)
    (junk : EleCfg) :
    hcacaThread g (lsChildReal pfa g) H sched τ junk ri rj rk rl si sk ip projCnt rbmCnt c = some (0
      + (∑ i ∈ range H.nTR, if sched 3 i = τ then
          energyOf (psi g) (hamTimes (termTransfer g.p.Nsite (H.pTR i) (H.tr i 0) (H.tr i 1) (H.tr i 2) (H.tr i 3))
            [.cr (ri + si * g.p.Nsite), .an (rj + si * g.p.Nsite), .cr (rk + sk * g.p.Nsite), .an (rl + sk * g.p.Nsite)]) (szList g c) else 0)
      + (∑ i ∈ range H.nPH, if sched 4 i = τ then energyOf (psi g) (hamTimes (termPairHop g.p.Nsite (H.pPH i) (H.ph i 0) (H.ph i 1))
            [.cr (ri + si * g.p.Nsite), .an (rj + si * g.p.Nsite), .cr (rk + sk * g.p.Nsite), .an (rl + sk * g.p.Nsite)]) (szList g c) else 0)
      + (∑ i ∈ range H.nEX, if sched 5 i = τ then energyOf (psi g) (hamTimes (termExchange g.p.Nsite (H.pEX i) (H.ex i 0) (H.ex i 1))
            [.cr (ri + si * g.p.Nsite), .an (rj + si * g.p.Nsite), .cr (rk + sk * g.p.Nsite), .an (rl + sk * g.p.Nsite)]) (szList g c) else 0)
      + (∑ i ∈ range H.nIA, if sched 6 i = τ then energyOf (psi g) (hamTimes (termInterAll g.p.Nsite (H.pIA i) (H.ia i 0) (H.ia i 1)
          (H.ia i 2) (H.ia i 3) (H.ia i 4) (H.ia i 5) (H.ia i 6) (H.ia i 7))
            [.cr (ri + si * g.p.Nsite), .an (rj + si * g.p.Nsite), .cr (rk + sk * g.p.Nsite), .an (rl + sk * g.p.Nsite)]) (szList g c) else 0)) := by
  obtain ⟨hm, hl'⟩ := sampled_priv hg hr h junk
  have sp := spin_pair hs hi hj
  have sp2 := spin_pair ht hk hl
  unfold hcacaThread
  simp only []
  rw [← hl']
  generalize privS g c junk = my at hm
  rw [ompForO_acc (s := sched 3) (n := H.nTR) (v := fun i =>
    energyOf (psi g) (hamTimes (termTransfer g.p.Nsite (H.pTR i) (H.tr i 0) (H.tr i 1) (H.tr i 2) (H.tr i 3))
            [.cr (ri + si * g.p.Nsite), .an (rj + si * g.p.Nsite), .cr (rk + sk * g.p.Nsite), .an (rl + sk * g.p.Nsite)]) (szList g my))
    (by
      intro i hi' e
      obtain ⟨h1, s1, h2, s2⟩ := hH.tr i hi'
      rw [hsz.tr i hi', accN_val hg hr hm hpfa (by rfl) (by simp) (by simp [spin_pair s2 h1 h2, sp, sp2])]
      unfold termTransfer hamTimes
      simp only [List.map_cons, List.map_nil, energyOf_one]
      rfl)]
  rw [Option.bind_some]
  rw [ompForO_acc (s := sched 4) (n := H.nPH) (v := fun i =>
    energyOf (psi g) (hamTimes (termPairHop g.p.Nsite (H.pPH i) (H.ph i 0) (H.ph i 1))
            [.cr (ri + si * g.p.Nsite), .an (rj + si * g.p.Nsite), .cr (rk + sk * g.p.Nsite), .an (rl + sk * g.p.Nsite)]) (szList g my))
    (by
      intro i hi' e
      obtain ⟨h1, h2⟩ := hH.ph i hi'
      rw [accN_val hg hr hm hpfa (by rfl) (by simp) (by simp [spin_pair0 h1 h2, spin_pair1 h1 h2, sp, sp2])]
      unfold termPairHop hamTimes
      simp only [List.map_cons, List.map_nil, energyOf_one]
      rfl)]
  rw [Option.bind_some]
  rw [ompForO_acc (s := sched 5) (n := H.nEX) (v := fun i =>
    energyOf (psi g) (hamTimes (termExchange g.p.Nsite (H.pEX i) (H.ex i 0) (H.ex i 1))
            [.cr (ri + si * g.p.Nsite), .an (rj + si * g.p.Nsite), .cr (rk + sk * g.p.Nsite), .an (rl + sk * g.p.Nsite)]) (szList g my))
    (by
      intro i hi' e
      obtain ⟨h1, h2⟩ := hH.ex i hi'
      rw [accN_val hg hr hm hpfa (by rfl) (by simp) (by simp [spin_pair0 h1 h2, spin_pair1 h2 h1, sp, sp2]), Option.bind_some,
        accN_val hg hr hm hpfa (by rfl) (by simp) (by simp [spin_pair1 h1 h2, spin_pair0 h2 h1, sp, sp2])]
      unfold termExchange hamTimes energyOf
      simp only [List.map_cons, List.map_nil, List.sum_cons, List.sum_nil, add_zero, ← add_assoc]
      rfl)]
  rw [Option.bind_some]
  rw [ompForO_acc (s := sched 6) (n := H.nIA) (v := fun i =>
    energyOf (psi g) (hamTimes (termInterAll g.p.Nsite (H.pIA i) (H.ia i 0) (H.ia i 1)
          (H.ia i 2) (H.ia i 3) (H.ia i 4) (H.ia i 5) (H.ia i 6) (H.ia i 7))
            [.cr (ri + si * g.p.Nsite), .an (rj + si * g.p.Nsite), .cr (rk + sk * g.p.Nsite), .an (rl + sk * g.p.Nsite)]) (szList g my))
    (by
      intro i hi' e
      obtain ⟨⟨h1, h2, h3, h4⟩, s1, s2, s3, s4⟩ := hH.ia i hi'
      obtain ⟨q1, q2⟩ := hsz.ia i hi'
      rw [accN_val hg hr hm hpfa (by rfl) (by simp) (by simp [spin_pair s2 h1 h2, spin_pair s4 h3 h4, sp, sp2])]
      unfold termInterAll hamTimes
      rw [q1, q2]
      simp only [List.map_cons, List.map_nil, energyOf_one]
      rfl)]
  rfl

end

/-! ### one hop -/

theorem thr_ne {x : ℂ} (t : ‖x‖ > 1 / 10 ^ 12) : x ≠ 0 := by
  intro e
  rw [e, norm_zero] at t
  have h : (0 : ℝ) < 1 / 10 ^ 12 := by positivity
  linarith

theorem hop_finish (Ψ : List Nat → ℂ) (A : List (ℂ × List Op)) {x y : List Nat} (hy : Ψ y ≠ 0) :
    energyOf Ψ A y * (starRingEnd ℂ) (Ψ y / Ψ x) = (starRingEnd ℂ) (hamDual Ψ A y / Ψ x) := by
  rw [energy_zero, ← map_mul]
  congr 1
  field_simp

theorem psi_ne_of_amp {g : GrnEnv} (hg : GrnOK g) (hr : g.flagRBM = true → GrnRBM g) {c : EleCfg} (hc : Cons g.sp c)
    (ha : amplitude (2 * g.p.Ne) (2 * g.p.Nsite) g.slt g.w 0 g.nQP (occSz g.p.Ne g.p.Nsite c.idx) ≠ 0) : psi g (szList g c) ≠ 0 := by
  have := psi_placed hg hr (placed_sz hc)
  unfold szList
  rw [this]
  exact mul_ne_zero (corrSpec_ne hr (placed_sz hc).bin) ha

/-- number operators after a hop -/
theorem diag_finish {g : GrnEnv} (hg : GrnOK g) {c : EleCfg} (hc : Cons g.sp c) {H : HamPar} (hH : HamIdx g.p.Nsite H) {r : OmpRun}
    {T : Nat} (hs : OmpOK H T r) (x : List Nat) :
    (starRingEnd ℂ) (psi g (szList g c) / psi g x) * calculateHamiltonian0 g.p.Nsite H r.sched r.order c.num
      = (starRingEnd ℂ) (hamDual (psi g) (hamDiag g.p.Nsite H) (szList g c) / psi g x) := by
  have pl := placed_sz hc
  by_cases h0 : psi g (szList g c) = 0
  · have := hamDual_diag_zero (psi_anti hg) hH (l := szList g c) pl.nodup pl.range h0
    rw [this, h0]; simp
  · rw [calculateHamiltonian0_val hg pl h0 hH hs.1 hs.2, mul_comm]
    exact hop_finish _ _ h0

/-- the sample after one hop -/
theorem sampled_hop {g : GrnEnv} (hg : GrnOK g) (hr : g.flagRBM = true → GrnRBM g) (hz : NoZero g) {c : EleCfg} {ip : ℂ} {projCnt : Arr}
    {rbmCnt : Nat → ℂ} (h : Sampled g c ip projCnt rbmCnt) {k : Hop} (ok : HopOK g.sp c k)
    (ha : amplitude (2 * g.p.Ne) (2 * g.p.Nsite) g.slt g.w 0 g.nQP (occSz g.p.Ne g.p.Nsite (updateEleConfig g.sp k c).idx) ≠ 0) :
    Sampled { g with st := updateMAll g.p g.slt k.mi k.s (updateEleConfig g.sp k c).idx 0 g.nQP g.st } (updateEleConfig g.sp k c)
      (calculateIPLocal g.w (updateMAll g.p g.slt k.mi k.s (updateEleConfig g.sp k c).idx 0 g.nQP g.st).pfM 0 g.nQP)
      (updateProjCnt g.q k.ri k.rj projCnt (updateEleConfig g.sp k c).num) (updateRBMCnt g.rbm k.ri k.rj k.s rbmCnt) ∧
    ∀ q < g.nQP, calculateNewPfM g.p g.slt k.mi k.s (updateEleConfig g.sp k c).idx 0 g.st q ≠ 0 := by
  have hc : Cons g.sp c := h.cons
  have hc' := update_cons hc ok
  have pl := placed_sz hc'
  have nz := hz _ pl.inj pl.lt ha
  have pf := updateMAll_ok (p := g.p) (slt := g.slt) (qpStart := 0) (qpEnd := g.nQP) (st := g.st) (idx := c.idx) ok.mi ok.s
    (fun q hq => hg.skew (q + 0) (by omega)) (onSites_of_cons hc) (onSites_of_cons hc') (fun i _ hne => set_ne hne) h.pf
    (fun q hq => nz q (by omega))
  have hip := calculateIPLocal_eq (n := 2 * g.p.Ne) (nsite2 := 2 * g.p.Nsite) (slt := g.slt) (w := g.w) (qpStart := 0)
    (qpEnd := g.nQP) (fun q hq => (pf q hq).1)
  refine ⟨⟨hc', pf, hip, ?_, proj_hop hg hc ok h.proj, fun hf => rbm_hop (hr hf) hg.hq hc ok (h.rbm hf)⟩, fun q hq => ?_⟩
  · rw [hip]; exact ha
  · have := newPfM_ok (p := g.p) (slt := g.slt) (q := q) (qpStart := 0) (nq := g.nQP) (st := g.st) (idx := c.idx) ok.mi ok.s
      (hg.skew (q + 0) (by omega)) (onSites_of_cons hc) (onSites_of_cons hc') (fun i _ hne => set_ne hne) hq h.pf
    rw [this]
    exact nz q hq

/-- the sample after two hops -/
theorem sampled_two {g : GrnEnv} (hg : GrnOK g) (hr : g.flagRBM = false) (hz : NoZero g) {c : EleCfg} {ip : ℂ} {projCnt : Arr}
    {rbmCnt : Nat → ℂ} (h : Sampled g c ip projCnt rbmCnt) {k k2 : Hop} (ok : HopOK g.sp c k)
    (ok2 : HopOK g.sp (updateEleConfig g.sp k c) k2) (hab : k.mi + k.s * g.p.Ne ≠ k2.mi + k2.s * g.p.Ne) (raOld : Nat) (rbm : Nat → ℂ)
    (ha : amplitude (2 * g.p.Ne) (2 * g.p.Nsite) g.slt g.w 0 g.nQP
      (occSz g.p.Ne g.p.Nsite (updateEleConfig g.sp k2 (updateEleConfig g.sp k c)).idx) ≠ 0) :
    Sampled { g with st := (updateMAllTwo g.p g.slt k.mi k.s k2.mi k2.s raOld
        (updateEleConfig g.sp k2 (updateEleConfig g.sp k c)).idx 0 g.nQP g.st) } (updateEleConfig g.sp k2 (updateEleConfig g.sp k c))
      (calculateIPLocal g.w (updateMAllTwo g.p g.slt k.mi k.s k2.mi k2.s raOld
        (updateEleConfig g.sp k2 (updateEleConfig g.sp k c)).idx 0 g.nQP g.st).pfM 0 g.nQP)
      (updateProjCnt g.q k2.ri k2.rj (updateProjCnt g.q k.ri k.rj projCnt (updateEleConfig g.sp k c).num)
        (updateEleConfig g.sp k2 (updateEleConfig g.sp k c)).num) rbm ∧
    ∀ q < g.nQP, calculateNewPfMTwo g.p g.slt k.mi k.s k2.mi k2.s (updateEleConfig g.sp k2 (updateEleConfig g.sp k c)).idx 0 g.st q ≠ 0 := by
  have hc : Cons g.sp c := h.cons
  have hc1 := update_cons hc ok
  have hc' := update_cons hc1 ok2
  have pl := placed_sz hc'
  have nz := hz _ pl.inj pl.lt ha
  have pf := updateMAllTwo_ok (p := g.p) (slt := g.slt) (qpStart := 0) (qpEnd := g.nQP) (st := g.st) (raOld := raOld) (idx := c.idx)
    ok.mi ok.s ok2.mi ok2.s hab
    (fun q hq => hg.skew (q + 0) (by omega)) (onSites_of_cons hc) (onSites_of_cons hc')
    (fun i _ hne hne2 => (set_ne hne2).trans (set_ne hne)) h.pf (fun q hq => nz q (by omega))
  have hip := calculateIPLocal_eq (n := 2 * g.p.Ne) (nsite2 := 2 * g.p.Nsite) (slt := g.slt) (w := g.w) (qpStart := 0)
    (qpEnd := g.nQP) (fun q hq => (pf q hq).1)
  refine ⟨⟨hc', pf, hip, ?_, proj_hop hg hc1 ok2 (proj_hop hg hc ok h.proj), ?_⟩, fun q hq => ?_⟩
  · rw [hip]; exact ha
  · intro hf
    rw [show ({ g with st := _ } : GrnEnv).flagRBM = g.flagRBM from rfl, hr] at hf
    cases hf
  · have := newPfMTwo_ok (p := g.p) (slt := g.slt) (q := q) (qpStart := 0) (nq := g.nQP) (st := g.st) (idx := c.idx) ok.mi ok.s
      ok2.mi ok2.s (hg.skew (q + 0) (by omega)) (onSites_of_cons hc) (onSites_of_cons hc')
      (fun i _ hne hne2 => (set_ne hne2).trans (set_ne hne)) hq h.pf
    rw [this]
    exact nz q hq

section
variable {g : GrnEnv} (hg : GrnOK g) (hr : g.flagRBM = true → GrnRBM g) {c : EleCfg} {ip : ℂ} {projCnt : Arr} {rbmCnt : Nat → ℂ}
  (h : Sampled g c ip projCnt rbmCnt) {H : HamPar} (hH : HamIdx g.p.Nsite H) (hsz : HamSzConserving H) {T : Nat} {run : LsRun}
  (hrun : LsOK H T run)
include hg hr h hH hsz hrun

theorem hca1_val (hz : NoZero g) {ri rj s : Nat} (ok : HopOK g.sp c ⟨(c.cfg (rj + s * g.p.Nsite)).toNat, rj, ri, s⟩)
    (ha : amplitude (2 * g.p.Ne) (2 * g.p.Nsite) g.slt g.w 0 g.nQP (occSz g.p.Ne g.p.Nsite
      (updateEleConfig g.sp ⟨(c.cfg (rj + s * g.p.Nsite)).toNat, rj, ri, s⟩ c).idx) ≠ 0) :
    ∃ st', calHCA1 g H run ri rj s ip projCnt rbmCnt c
      = some ((starRingEnd ℂ) (hamDual (psi g) (hamTerms g.p.Nsite H)
          (repl (rj + s * g.p.Nsite) (ri + s * g.p.Nsite) (szList g c)) / psi g (szList g c)), c, st') ∧ SameState g g.st st' := by
  have hc : Cons g.sp c := h.cons
  have hc' := update_cons hc ok
  obtain ⟨hS, hne⟩ := sampled_hop hg hr hz h ok ha
  have hE := calculateHamiltonian_val (grnOK_st hg _) (grnRBM_st hr _) hS hH hsz hrun.1.1 hrun.1.2 run.ham.junk
  have key := h.carried.ratio hg hr (placed_sz hc') (proj_hop hg hc ok h.proj) (fun hf => rbm_hop (hr hf) hg.hq hc ok (h.rbm hf))
  have hip := hS.hip
  rw [← show _ = amplitude (2 * g.p.Ne) (2 * g.p.Nsite) g.slt g.w 0 g.nQP _ from hip] at key
  have hu := szList_update hc ok
  have hn := psi_ne_of_amp hg hr hc' ha
  refine ⟨_, ?_, sameState_copy g run.old (updateMAll g.p g.slt (c.cfg (rj + s * g.p.Nsite)).toNat s
    (updateEleConfig g.sp ⟨(c.cfg (rj + s * g.p.Nsite)).toNat, rj, ri, s⟩ c).idx 0 g.nQP g.st)⟩
  unfold calHCA1
  simp only []
  rw [if_neg (by rintro ⟨q, hq, e⟩; exact hne q hq e)]
  congr 1
  refine Prod.ext ?_ (Prod.ext ?_ rfl)
  · have e2 : (starRingEnd ℂ) _ = (starRingEnd ℂ) _ := congrArg (starRingEnd ℂ) key
    refine (congrArg₂ (· * ·) hE e2).trans ?_
    refine (hop_finish (psi g) (hamTerms g.p.Nsite H) hn).trans ?_
    rw [hu]; rfl
  · exact revert_update hc ok

theorem hca2_val {child : Nat → (Nat → Nat) → Arr → Nat → Option ℂ} (hch : ChildOK g H child) {ri rj s : Nat} (hs : s < 2)
    (hi : ri < g.p.Nsite) (hj : rj < g.p.Nsite)
    (hne : ri ≠ rj) (hmem : rj + s * g.p.Nsite ∈ szList g c ∧ ri + s * g.p.Nsite ∉ szList g c)
    (ok : HopOK g.sp c ⟨(c.cfg (rj + s * g.p.Nsite)).toNat, rj, ri, s⟩) :
    calHCA2 g child H run ri rj s ip projCnt rbmCnt c
      = some (energyOf (psi g) (hamTimes (hamTerms g.p.Nsite H) [.cr (ri + s * g.p.Nsite), .an (rj + s * g.p.Nsite)]) (szList g c), c,
          g.st) := by
  have hc : Cons g.sp c := h.cons
  have hc' := update_cons hc ok
  have pl := placed_sz hc
  have hu := szList_update hc ok
  have hI := orb_lt hs hi
  have hIJ : ri + s * g.p.Nsite ≠ rj + s * g.p.Nsite := by omega
  have hrev := congrArg EleCfg.num (revert_update hc ok)
  have e1 : (c.num.set (ri + s * g.p.Nsite) 1).set (rj + s * g.p.Nsite) 0
      = (updateEleConfig g.sp ⟨(c.cfg (rj + s * g.p.Nsite)).toNat, rj, ri, s⟩ c).num := set_swap hIJ
  have nd : (szList g c).Nodup := pl.nodup
  have rg : ∀ z ∈ szList g c, z < 2 * g.p.Nsite := pl.range
  unfold calHCA2
  simp only []
  rw [greenFunc1_val hg hr h hs hi hj]
  simp only []
  rw [e1]
  have e2 : ((updateEleConfig g.sp ⟨(c.cfg (rj + s * g.p.Nsite)).toNat, rj, ri, s⟩ c).num.set (ri + s * g.p.Nsite) 0).set
      (rj + s * g.p.Nsite) 1 = c.num := (set_swap hIJ).trans hrev
  rw [e2]
  have e3 : ({ c with num := c.num } : EleCfg) = c := rfl
  rw [e3, off_total hrun.2.2.1 g.p.Nsite (psi g) (szList g c) _ hrun.2.2.2
    (fun τ => hcaThread_val hg hr h hH hsz hch hs hi hj run.reg.sched τ (run.reg.junk τ))]
  simp only []
  rw [hamTerms_split, hamTimes_append, energyOf_append]
  congr 2
  congr 1
  rw [matrixElement_one, ov1_hop (psi_anti hg) hI nd rg hIJ, if_pos hmem, energy_times,
    show overlap (hamDual (psi g) (hamDiag g.p.Nsite H)) (actAll [.cr (ri + s * g.p.Nsite), .an (rj + s * g.p.Nsite)]
      (some (1, szList g c))) = ov1 (hamDual (psi g) (hamDiag g.p.Nsite H)) (ri + s * g.p.Nsite) (rj + s * g.p.Nsite) (szList g c) from rfl,
    ov1_hop (anti_hamDual (psi_anti hg) (fun t ht => crLt_hamTerms hH t (by
      rw [hamTerms_split]; exact List.mem_append_left _ ht))) hI nd rg hIJ, if_pos hmem, ← hu]
  exact diag_finish hg hc' hH hrun.2.1 (szList g c)

theorem hca_val (hz : NoZero g) {child : Nat → (Nat → Nat) → Arr → Nat → Option ℂ} (hch : ChildOK g H child) {ri rj s : Nat} (hs : s < 2)
    (hi : ri < g.p.Nsite) (hj : rj < g.p.Nsite) {h1 : ℂ} (hh : h1 = energyOf (psi g) (hamTerms g.p.Nsite H) (szList g c)) :
    ∃ st', calHCA g child H run ri rj s h1 ip projCnt rbmCnt c
      = some (energyOf (psi g) (hamTimes (hamTerms g.p.Nsite H) [.cr (ri + s * g.p.Nsite), .an (rj + s * g.p.Nsite)]) (szList g c), c,
          st') ∧ SameState g g.st st' := by
  have hc : Cons g.sp c := h.cons
  have pl := placed_sz hc
  have hI := orb_lt hs hi
  have hJ := orb_lt hs hj
  have nd : (szList g c).Nodup := pl.nodup
  have rg : ∀ z ∈ szList g c, z < 2 * g.p.Nsite := pl.range
  have mI : ri + s * g.p.Nsite ∈ szList g c ↔ _ := pl.mem hI
  have mJ : rj + s * g.p.Nsite ∈ szList g c ↔ _ := pl.mem hJ
  have hG := anti_hamDual (psi_anti hg) (crLt_hamTerms hH)
  have tgt : energyOf (psi g) (hamTimes (hamTerms g.p.Nsite H) [.cr (ri + s * g.p.Nsite), .an (rj + s * g.p.Nsite)]) (szList g c)
      = (starRingEnd ℂ) (ov1 (hamDual (psi g) (hamTerms g.p.Nsite H)) (ri + s * g.p.Nsite) (rj + s * g.p.Nsite) (szList g c)
        / psi g (szList g c)) := energy_times _ _ _ _
  unfold calHCA
  simp only []
  by_cases e : ri + s * g.p.Nsite = rj + s * g.p.Nsite
  · rw [if_pos e]
    rw [tgt, ← e, ov1_same hG hI nd rg]
    rcases pl.bin _ hI with q | q
    · rw [if_neg (by omega), if_neg (by rw [mI]; omega)]
      exact ⟨g.st, by simp, SameState.refl _ _⟩
    · rw [if_pos q, if_pos (mI.mpr q), hh, energy_zero]
      exact ⟨g.st, rfl, SameState.refl _ _⟩
  rw [if_neg e]
  by_cases z1 : c.num (rj + s * g.p.Nsite) = 0
  · rw [if_pos z1, tgt, ov1_hop hG hI nd rg e, if_neg (by rw [mJ]; omega)]
    exact ⟨g.st, by simp, SameState.refl _ _⟩
  rw [if_neg z1]
  by_cases z2 : c.num (ri + s * g.p.Nsite) = 1
  · rw [if_pos z2, tgt, ov1_hop hG hI nd rg e, if_neg (by rw [mI]; tauto)]
    exact ⟨g.st, by simp, SameState.refl _ _⟩
  rw [if_neg z2]
  have hmem : rj + s * g.p.Nsite ∈ szList g c ∧ ri + s * g.p.Nsite ∉ szList g c := by
    rw [mI, mJ]
    have := pl.bin _ hJ
    omega
  obtain ⟨hm, hat⟩ := cons_at hc hs hj z1
  have ok : HopOK g.sp c ⟨(c.cfg (rj + s * g.p.Nsite)).toNat, rj, ri, s⟩ := ⟨hs, hm, hj, hi, hat, cons_free hc hs hi z2⟩
  have hcheck : checkGF1 g ri rj s ip c = (amplitude (2 * g.p.Ne) (2 * g.p.Nsite) g.slt g.w 0 g.nQP (occSz g.p.Ne g.p.Nsite
      (updateEleConfig g.sp ⟨(c.cfg (rj + s * g.p.Nsite)).toNat, rj, ri, s⟩ c).idx) / ip, c) := by
    unfold checkGF1
    refine Prod.ext ?_ ?_
    · simp only []
      rw [← amp_one hg hc ok h.pf]; rfl
    · have := revert_update hc ok
      exact congrArg₂ (fun a b => (⟨a, c.cfg, b⟩ : EleCfg)) (congrArg EleCfg.idx this) (congrArg EleCfg.num this)
  rw [hcheck]
  by_cases t : ‖amplitude (2 * g.p.Ne) (2 * g.p.Nsite) g.slt g.w 0 g.nQP (occSz g.p.Ne g.p.Nsite
      (updateEleConfig g.sp ⟨(c.cfg (rj + s * g.p.Nsite)).toNat, rj, ri, s⟩ c).idx) / ip‖ > 1 / 10 ^ 12
  · rw [if_pos t]
    have ha : amplitude (2 * g.p.Ne) (2 * g.p.Nsite) g.slt g.w 0 g.nQP (occSz g.p.Ne g.p.Nsite
      (updateEleConfig g.sp ⟨(c.cfg (rj + s * g.p.Nsite)).toNat, rj, ri, s⟩ c).idx) ≠ 0 := by
      intro q
      exact thr_ne t (by rw [q, zero_div])
    obtain ⟨st', e1, e2⟩ := hca1_val hg hr h hH hsz hrun hz ok ha
    refine ⟨st', ?_, e2⟩
    rw [e1, tgt, ov1_hop hG hI nd rg e, if_pos hmem]
  · rw [if_neg t]
    exact ⟨g.st, hca2_val hg hr h hH hsz hrun hch hs hi hj (fun q => e (by rw [q])) hmem ok, SameState.refl _ _⟩

end

/-! ### two hops -/

/-- four different orbitals, the second and the fourth occupied, the others empty -/
structure TwoHop (g : GrnEnv) (c : EleCfg) (ri rj rk rl si sk : Nat) : Prop where
  hs : si < 2
  ht : sk < 2
  hi : ri < g.p.Nsite
  hj : rj < g.p.Nsite
  hk : rk < g.p.Nsite
  hl : rl < g.p.Nsite
  IJ : ri + si * g.p.Nsite ≠ rj + si * g.p.Nsite
  IK : ri + si * g.p.Nsite ≠ rk + sk * g.p.Nsite
  IL : ri + si * g.p.Nsite ≠ rl + sk * g.p.Nsite
  JK : rj + si * g.p.Nsite ≠ rk + sk * g.p.Nsite
  JL : rj + si * g.p.Nsite ≠ rl + sk * g.p.Nsite
  KL : rk + sk * g.p.Nsite ≠ rl + sk * g.p.Nsite
  nI : c.num (ri + si * g.p.Nsite) = 0
  nJ : c.num (rj + si * g.p.Nsite) = 1
  nK : c.num (rk + sk * g.p.Nsite) = 0
  nL : c.num (rl + sk * g.p.Nsite) = 1

section
variable {g : GrnEnv} {c : EleCfg} (hc : Cons g.sp c) {ri rj rk rl si sk : Nat} (w : TwoHop g c ri rj rk rl si sk)
include hc w

theorem TwoHop.ok : HopOK g.sp c ⟨(c.cfg (rl + sk * g.p.Nsite)).toNat, rl, rk, sk⟩ := by
  obtain ⟨hm2, hat2⟩ := cons_at hc w.ht w.hl (show c.num (rl + sk * g.sp.Nsite) ≠ 0 by have : c.num (rl + sk * g.sp.Nsite) = 1 := w.nL; omega)
  exact ⟨w.ht, hm2, w.hl, w.hk, hat2, cons_free hc w.ht w.hk (show c.num (rk + sk * g.sp.Nsite) ≠ 1 by
    have : c.num (rk + sk * g.sp.Nsite) = 0 := w.nK; omega)⟩

theorem TwoHop.ok2' : HopOK g.sp c ⟨(c.cfg (rj + si * g.p.Nsite)).toNat, rj, ri, si⟩ := by
  obtain ⟨hm2, hat2⟩ := cons_at hc w.hs w.hj (show c.num (rj + si * g.sp.Nsite) ≠ 0 by have : c.num (rj + si * g.sp.Nsite) = 1 := w.nJ; omega)
  exact ⟨w.hs, hm2, w.hj, w.hi, hat2, cons_free hc w.hs w.hi (show c.num (ri + si * g.sp.Nsite) ≠ 1 by
    have : c.num (ri + si * g.sp.Nsite) = 0 := w.nI; omega)⟩

theorem TwoHop.ok2 : HopOK g.sp (updateEleConfig g.sp ⟨(c.cfg (rl + sk * g.p.Nsite)).toNat, rl, rk, sk⟩ c) ⟨(c.cfg (rj + si * g.p.Nsite)).toNat, rj, ri, si⟩ := by
  have JL := w.JL
  have IK := w.IK
  exact two_hop_ok hc (w.ok hc) (w.ok2' hc) (by rintro ⟨rfl, rfl⟩; exact JL rfl) (by rintro ⟨rfl, rfl⟩; exact IK rfl)

theorem TwoHop.ms : (c.cfg (rl + sk * g.p.Nsite)).toNat + sk * g.p.Ne ≠ (c.cfg (rj + si * g.p.Nsite)).toNat + si * g.p.Ne := by
  intro e
  have hat2 := (w.ok hc).at'
  have hat := (w.ok2' hc).at'
  have q := (flat_inj w.ht w.hs (w.ok hc).mi (w.ok2' hc).mi).mp e
  have a : c.idx ((c.cfg (rl + sk * g.p.Nsite)).toNat + sk * g.p.Ne) = rl := hat2
  have b : c.idx ((c.cfg (rj + si * g.p.Nsite)).toNat + si * g.p.Ne) = rj := hat
  rw [e, b] at a
  have : rj = rl := by omega
  exact w.JL (by rw [this, q.2])

theorem TwoHop.list : szList g (updateEleConfig g.sp ⟨(c.cfg (rj + si * g.p.Nsite)).toNat, rj, ri, si⟩ (updateEleConfig g.sp ⟨(c.cfg (rl + sk * g.p.Nsite)).toNat, rl, rk, sk⟩ c))
    = repl (rj + si * g.p.Nsite) (ri + si * g.p.Nsite) (repl (rl + sk * g.p.Nsite) (rk + sk * g.p.Nsite) (szList g c)) := by
  rw [szList_update (update_cons hc (w.ok hc)) (w.ok2 hc), szList_update hc (w.ok hc)]

theorem TwoHop.cfg1 : (updateEleConfig g.sp ⟨(c.cfg (rl + sk * g.p.Nsite)).toNat, rl, rk, sk⟩ c).cfg (rj + si * g.p.Nsite) = c.cfg (rj + si * g.p.Nsite) := by
  show ((c.cfg.set (rl + sk * g.p.Nsite) (-1)).set (rk + sk * g.p.Nsite) _) (rj + si * g.p.Nsite) = _
  rw [set_ne w.JK, set_ne w.JL]

theorem TwoHop.numSet : (((c.num.set (ri + si * g.p.Nsite) 1).set (rj + si * g.p.Nsite) 0).set (rk + sk * g.p.Nsite) 1).set
    (rl + sk * g.p.Nsite) 0 = (updateEleConfig g.sp ⟨(c.cfg (rj + si * g.p.Nsite)).toNat, rj, ri, si⟩ (updateEleConfig g.sp ⟨(c.cfg (rl + sk * g.p.Nsite)).toNat, rl, rk, sk⟩ c)).num := by
  obtain ⟨_, _, _, _, _, _, IJ, IK, IL, JK, JL, KL, _⟩ := w
  show _ = (((c.num.set (rl + sk * g.p.Nsite) 0).set (rk + sk * g.p.Nsite) 1).set (rj + si * g.p.Nsite) 0).set (ri + si * g.p.Nsite) 1
  generalize ri + si * g.p.Nsite = I at *
  generalize rj + si * g.p.Nsite = J at *
  generalize rk + sk * g.p.Nsite = K at *
  generalize rl + sk * g.p.Nsite = L at *
  funext x
  unfold Arr.set
  by_cases e1 : x = I
  · simp [e1, IJ, IK, IL]
  by_cases e2 : x = J
  · simp [e2, JK, JL, Ne.symm IJ]
  by_cases e3 : x = K
  · simp [e3, KL, Ne.symm IK, Ne.symm JK]
  by_cases e4 : x = L
  · simp [e4, Ne.symm IL, Ne.symm JL, Ne.symm KL]
  simp [e1, e2, e3, e4]

omit hc in
theorem TwoHop.numBack (a : Arr) (ha : ∀ x, x ≠ ri + si * g.p.Nsite → x ≠ rj + si * g.p.Nsite → x ≠ rk + sk * g.p.Nsite →
    x ≠ rl + sk * g.p.Nsite → a x = c.num x) :
    (((a.set (ri + si * g.p.Nsite) 0).set (rj + si * g.p.Nsite) 1).set (rk + sk * g.p.Nsite) 0).set (rl + sk * g.p.Nsite) 1 = c.num := by
  obtain ⟨_, _, _, _, _, _, IJ, IK, IL, JK, JL, KL, n1, n2, n3, n4⟩ := w
  funext x
  by_cases e4 : x = rl + sk * g.p.Nsite
  · rw [e4, set_self, n4]
  rw [set_ne e4]
  by_cases e3 : x = rk + sk * g.p.Nsite
  · rw [e3, set_self, n3]
  rw [set_ne e3]
  by_cases e2 : x = rj + si * g.p.Nsite
  · rw [e2, set_self, n2]
  rw [set_ne e2]
  by_cases e1 : x = ri + si * g.p.Nsite
  · rw [e1, set_self, n1]
  rw [set_ne e1]
  exact ha x e1 e2 e3 e4

end

section
variable {g : GrnEnv} (hg : GrnOK g) (hr : g.flagRBM = false) {c : EleCfg} {ip : ℂ} {projCnt : Arr} {rbmCnt : Nat → ℂ}
  (h : Sampled g c ip projCnt rbmCnt) {ri rj rk rl si sk : Nat} (w : TwoHop g c ri rj rk rl si sk)
include hg hr h w

omit hr in
theorem checkGF2_val : checkGF2 g ri rj rk rl si sk ip c = (amplitude (2 * g.p.Ne) (2 * g.p.Nsite) g.slt g.w 0 g.nQP
    (occSz g.p.Ne g.p.Nsite (updateEleConfig g.sp ⟨(c.cfg (rj + si * g.p.Nsite)).toNat, rj, ri, si⟩ (updateEleConfig g.sp ⟨(c.cfg (rl + sk * g.p.Nsite)).toNat, rl, rk, sk⟩ c)).idx) / ip, c) := by
  have hc : Cons g.sp c := h.cons
  unfold checkGF2
  refine Prod.ext ?_ ?_
  · simp only []
    rw [← amp_two hg hc (w.ok hc) (w.ok2 hc) h.pf]; rfl
  · have a : c.idx ((c.cfg (rl + sk * g.p.Nsite)).toNat + sk * g.p.Ne) = rl := (w.ok hc).at'
    have b : c.idx ((c.cfg (rj + si * g.p.Nsite)).toNat + si * g.p.Ne) = rj := (w.ok2' hc).at'
    have i1 : ∀ x, ((((c.idx.set ((c.cfg (rl + sk * g.p.Nsite)).toNat + sk * g.p.Ne) rk).set
        ((c.cfg (rj + si * g.p.Nsite)).toNat + si * g.p.Ne) ri).set
        ((c.cfg (rl + sk * g.p.Nsite)).toNat + sk * g.p.Ne) rl).set
        ((c.cfg (rj + si * g.p.Nsite)).toNat + si * g.p.Ne) rj) x = c.idx x := by
      intro x
      by_cases e : x = (c.cfg (rj + si * g.p.Nsite)).toNat + si * g.p.Ne
      · rw [e, set_self, b]
      · rw [set_ne e]
        by_cases e' : x = (c.cfg (rl + sk * g.p.Nsite)).toNat + sk * g.p.Ne
        · rw [e', set_self, a]
        · rw [set_ne e', set_ne e, set_ne e']
    have i2 : ∀ x, ((((((((c.num.set (rl + sk * g.p.Nsite) 0).set (rk + sk * g.p.Nsite) 1).set (rj + si * g.p.Nsite) 0).set
        (ri + si * g.p.Nsite) 1).set (rl + sk * g.p.Nsite) 1).set (rk + sk * g.p.Nsite) 0).set (rj + si * g.p.Nsite) 1).set
        (ri + si * g.p.Nsite) 0) x = c.num x := by
      intro x
      by_cases e1 : x = ri + si * g.p.Nsite
      · rw [e1, set_self, w.nI]
      rw [set_ne e1]
      by_cases e2 : x = rj + si * g.p.Nsite
      · rw [e2, set_self, w.nJ]
      rw [set_ne e2]
      by_cases e3 : x = rk + sk * g.p.Nsite
      · rw [e3, set_self, w.nK]
      rw [set_ne e3]
      by_cases e4 : x = rl + sk * g.p.Nsite
      · rw [e4, set_self, w.nL]
      rw [set_ne e4, set_ne e1, set_ne e2, set_ne e3, set_ne e4]
    exact congrArg₂ (fun a b => (⟨a, c.cfg, b⟩ : EleCfg)) (funext i1) (funext i2)

variable {H : HamPar} (hH : HamIdx g.p.Nsite H) (hsz : HamSzConserving H) {T : Nat} {run : LsRun} (hrun : LsOK H T run)
include hH hsz hrun

/-- `calHCACA1` in terms of the hops; `mj` is the electron of the second hop -/
noncomputable def hcaca1Body (g : GrnEnv) (H : HamPar) (run : LsRun) (ri rj rk rl si sk : Nat) (ip : ℂ) (projCnt : Arr)
    (rbmCnt : Nat → ℂ) (c : EleCfg) (mj : Nat) : Option (ℂ × EleCfg × PfState ℂ) :=
  if ∃ q < g.nQP, calculateNewPfMTwo g.p g.slt (c.cfg (rl + sk * g.p.Nsite)).toNat sk mj si
      (updateEleConfig g.sp ⟨mj, rj, ri, si⟩ (updateEleConfig g.sp ⟨(c.cfg (rl + sk * g.p.Nsite)).toNat, rl, rk, sk⟩ c)).idx 0 g.st q = 0 then none
  else
    some (calculateHamiltonian { g with st := (updateMAllTwo g.p g.slt (c.cfg (rl + sk * g.p.Nsite)).toNat sk mj si rl
          (updateEleConfig g.sp ⟨mj, rj, ri, si⟩ (updateEleConfig g.sp ⟨(c.cfg (rl + sk * g.p.Nsite)).toNat, rl, rk, sk⟩ c)).idx 0 g.nQP g.st) } H
          run.ham.sched run.ham.order run.ham.junk
          (calculateIPLocal g.w (updateMAllTwo g.p g.slt (c.cfg (rl + sk * g.p.Nsite)).toNat sk mj si rl
            (updateEleConfig g.sp ⟨mj, rj, ri, si⟩ (updateEleConfig g.sp ⟨(c.cfg (rl + sk * g.p.Nsite)).toNat, rl, rk, sk⟩ c)).idx 0 g.nQP g.st).pfM 0 g.nQP)
          (updateProjCnt g.q rj ri (updateProjCnt g.q rl rk projCnt (updateEleConfig g.sp ⟨(c.cfg (rl + sk * g.p.Nsite)).toNat, rl, rk, sk⟩ c).num)
            (updateEleConfig g.sp ⟨mj, rj, ri, si⟩ (updateEleConfig g.sp ⟨(c.cfg (rl + sk * g.p.Nsite)).toNat, rl, rk, sk⟩ c)).num) rbmCnt
          (updateEleConfig g.sp ⟨mj, rj, ri, si⟩ (updateEleConfig g.sp ⟨(c.cfg (rl + sk * g.p.Nsite)).toNat, rl, rk, sk⟩ c))
        * (starRingEnd ℂ) ((if g.flagRBM then
            projRatioC g (updateProjCnt g.q rj ri (updateProjCnt g.q rl rk projCnt (updateEleConfig g.sp ⟨(c.cfg (rl + sk * g.p.Nsite)).toNat, rl, rk, sk⟩ c).num)
              (updateEleConfig g.sp ⟨mj, rj, ri, si⟩ (updateEleConfig g.sp ⟨(c.cfg (rl + sk * g.p.Nsite)).toNat, rl, rk, sk⟩ c)).num) projCnt
              * rbmRatioOne g (updateRBMCnt g.rbm rj ri si (updateRBMCnt g.rbm rl rk sk rbmCnt)) rbmCnt
            else projRatioC g (updateProjCnt g.q rj ri (updateProjCnt g.q rl rk projCnt (updateEleConfig g.sp ⟨(c.cfg (rl + sk * g.p.Nsite)).toNat, rl, rk, sk⟩ c).num)
              (updateEleConfig g.sp ⟨mj, rj, ri, si⟩ (updateEleConfig g.sp ⟨(c.cfg (rl + sk * g.p.Nsite)).toNat, rl, rk, sk⟩ c)).num) projCnt)
          * calculateIPLocal g.w (updateMAllTwo g.p g.slt (c.cfg (rl + sk * g.p.Nsite)).toNat sk mj si rl
            (updateEleConfig g.sp ⟨mj, rj, ri, si⟩ (updateEleConfig g.sp ⟨(c.cfg (rl + sk * g.p.Nsite)).toNat, rl, rk, sk⟩ c)).idx 0 g.nQP g.st).pfM 0 g.nQP / ip),
      revertEleConfig g.sp ⟨(c.cfg (rl + sk * g.p.Nsite)).toNat, rl, rk, sk⟩ (revertEleConfig g.sp ⟨mj, rj, ri, si⟩
        (updateEleConfig g.sp ⟨mj, rj, ri, si⟩ (updateEleConfig g.sp ⟨(c.cfg (rl + sk * g.p.Nsite)).toNat, rl, rk, sk⟩ c))),
      copyMAll g.p g.nQP (copyMAll g.p g.nQP g.st run.old) (updateMAllTwo g.p g.slt (c.cfg (rl + sk * g.p.Nsite)).toNat sk mj si rl
            (updateEleConfig g.sp ⟨mj, rj, ri, si⟩ (updateEleConfig g.sp ⟨(c.cfg (rl + sk * g.p.Nsite)).toNat, rl, rk, sk⟩ c)).idx 0 g.nQP g.st))

omit hg hr h w hH hsz hrun in
theorem calHCACA1_body : calHCACA1 g H run ri rj rk rl si sk ip projCnt rbmCnt c
    = hcaca1Body g H run ri rj rk rl si sk ip projCnt rbmCnt c ((updateEleConfig g.sp ⟨(c.cfg (rl + sk * g.p.Nsite)).toNat, rl, rk, sk⟩ c).cfg (rj + si * g.p.Nsite)).toNat := rfl

theorem hcaca1_val (hz : NoZero g)
    (ha : amplitude (2 * g.p.Ne) (2 * g.p.Nsite) g.slt g.w 0 g.nQP (occSz g.p.Ne g.p.Nsite (updateEleConfig g.sp ⟨(c.cfg (rj + si * g.p.Nsite)).toNat, rj, ri, si⟩ (updateEleConfig g.sp ⟨(c.cfg (rl + sk * g.p.Nsite)).toNat, rl, rk, sk⟩ c)).idx) ≠ 0) :
    ∃ st', calHCACA1 g H run ri rj rk rl si sk ip projCnt rbmCnt c
      = some ((starRingEnd ℂ) (hamDual (psi g) (hamTerms g.p.Nsite H)
          (repl (rj + si * g.p.Nsite) (ri + si * g.p.Nsite) (repl (rl + sk * g.p.Nsite) (rk + sk * g.p.Nsite) (szList g c)))
            / psi g (szList g c)), c, st') ∧ SameState g g.st st' := by
  have hr' : g.flagRBM = true → GrnRBM g := fun hf => by rw [hr] at hf; cases hf
  have hc : Cons g.sp c := h.cons
  have ok := w.ok hc
  have ok2 := w.ok2 hc
  have hc1 := update_cons hc ok
  have hc' := update_cons hc1 ok2
  obtain ⟨hS, hne⟩ := sampled_two hg hr hz h ok ok2 (w.ms hc) rl rbmCnt ha
  have hE := calculateHamiltonian_val (grnOK_st hg _) (grnRBM_st hr' _) hS hH hsz hrun.1.1 hrun.1.2 run.ham.junk
  have key := h.carried.ratio hg hr' (placed_sz hc') (proj_hop hg hc1 ok2 (proj_hop hg hc ok h.proj))
    (rbmNew := rbmCnt) (fun hf => by rw [hr] at hf; cases hf)
  have hip := hS.hip
  rw [← show _ = amplitude (2 * g.p.Ne) (2 * g.p.Nsite) g.slt g.w 0 g.nQP _ from hip] at key
  have hn := psi_ne_of_amp hg hr' hc' ha
  refine ⟨_, ?_, sameState_copy g run.old (updateMAllTwo g.p g.slt (c.cfg (rl + sk * g.p.Nsite)).toNat sk
    (c.cfg (rj + si * g.p.Nsite)).toNat si rl (updateEleConfig g.sp ⟨(c.cfg (rj + si * g.p.Nsite)).toNat, rj, ri, si⟩ (updateEleConfig g.sp ⟨(c.cfg (rl + sk * g.p.Nsite)).toNat, rl, rk, sk⟩ c)).idx 0 g.nQP g.st)⟩
  rw [calHCACA1_body, w.cfg1 hc]
  unfold hcaca1Body
  rw [if_neg (by rintro ⟨q, hq, e⟩; exact hne q hq e), hE]
  have e2 : (if g.flagRBM = true then projRatioC g (updateProjCnt g.q rj ri (updateProjCnt g.q rl rk projCnt
        (updateEleConfig g.sp ⟨(c.cfg (rl + sk * g.p.Nsite)).toNat, rl, rk, sk⟩ c).num) (updateEleConfig g.sp ⟨(c.cfg (rj + si * g.p.Nsite)).toNat, rj, ri, si⟩ (updateEleConfig g.sp ⟨(c.cfg (rl + sk * g.p.Nsite)).toNat, rl, rk, sk⟩ c)).num) projCnt
      * rbmRatioOne g (updateRBMCnt g.rbm rj ri si (updateRBMCnt g.rbm rl rk sk rbmCnt)) rbmCnt
      else projRatioC g (updateProjCnt g.q rj ri (updateProjCnt g.q rl rk projCnt (updateEleConfig g.sp ⟨(c.cfg (rl + sk * g.p.Nsite)).toNat, rl, rk, sk⟩ c).num) (updateEleConfig g.sp ⟨(c.cfg (rj + si * g.p.Nsite)).toNat, rj, ri, si⟩ (updateEleConfig g.sp ⟨(c.cfg (rl + sk * g.p.Nsite)).toNat, rl, rk, sk⟩ c)).num) projCnt)
      = (if g.flagRBM = true then projRatioC g (updateProjCnt g.q rj ri (updateProjCnt g.q rl rk projCnt
        (updateEleConfig g.sp ⟨(c.cfg (rl + sk * g.p.Nsite)).toNat, rl, rk, sk⟩ c).num) (updateEleConfig g.sp ⟨(c.cfg (rj + si * g.p.Nsite)).toNat, rj, ri, si⟩ (updateEleConfig g.sp ⟨(c.cfg (rl + sk * g.p.Nsite)).toNat, rl, rk, sk⟩ c)).num) projCnt * rbmRatioOne g rbmCnt rbmCnt
      else projRatioC g (updateProjCnt g.q rj ri (updateProjCnt g.q rl rk projCnt (updateEleConfig g.sp ⟨(c.cfg (rl + sk * g.p.Nsite)).toNat, rl, rk, sk⟩ c).num) (updateEleConfig g.sp ⟨(c.cfg (rj + si * g.p.Nsite)).toNat, rj, ri, si⟩ (updateEleConfig g.sp ⟨(c.cfg (rl + sk * g.p.Nsite)).toNat, rl, rk, sk⟩ c)).num) projCnt) := by
    rw [hr]; rfl
  rw [e2, key, revert_update hc1 ok2, revert_update hc ok]
  congr 2
  refine (hop_finish (psi g) (hamTerms g.p.Nsite H) hn).trans ?_
  rw [w.list hc]; rfl

theorem hcaca2_val {pfa : Nat → (Nat → ℂ) → ℂ} (hpfa : PfaOK pfa) :
    calHCACA2 g (lsChildReal pfa g) H run ri rj rk rl si sk ip projCnt rbmCnt c
      = some (energyOf (psi g) (hamTimes (hamTerms g.p.Nsite H) [.cr (ri + si * g.p.Nsite), .an (rj + si * g.p.Nsite), .cr (rk + sk * g.p.Nsite), .an (rl + sk * g.p.Nsite)]) (szList g c), c, g.st) := by
  have hr' : g.flagRBM = true → GrnRBM g := fun hf => by rw [hr] at hf; cases hf
  have hc : Cons g.sp c := h.cons
  have hc' := update_cons (update_cons hc (w.ok hc)) (w.ok2 hc)
  have pl := placed_sz hc
  have hI := orb_lt w.hs w.hi
  have hJ := orb_lt w.hs w.hj
  have hK := orb_lt w.ht w.hk
  have hL := orb_lt w.ht w.hl
  have nd : (szList g c).Nodup := pl.nodup
  have rg : ∀ z ∈ szList g c, z < 2 * g.p.Nsite := pl.range
  have mm : ∀ {x}, x < 2 * g.p.Nsite → (x ∈ szList g c ↔ c.num x = 1) := fun hx => pl.mem hx
  have hmem : ri + si * g.p.Nsite ∉ szList g c ∧ rj + si * g.p.Nsite ∈ szList g c ∧ rk + sk * g.p.Nsite ∉ szList g c ∧
        rl + sk * g.p.Nsite ∈ szList g c := by
    rw [mm hI, mm hJ, mm hK, mm hL, w.nI, w.nJ, w.nK, w.nL]; simp
  unfold calHCACA2
  simp only []
  rw [hr, if_neg (by simp), greenFunc2_val hg hr' h w.hs w.ht w.hi w.hj w.hk w.hl]
  simp only []
  rw [w.numSet hc, w.numBack (updateEleConfig g.sp ⟨(c.cfg (rj + si * g.p.Nsite)).toNat, rj, ri, si⟩ (updateEleConfig g.sp ⟨(c.cfg (rl + sk * g.p.Nsite)).toNat, rl, rk, sk⟩ c)).num (fun x e1 e2 e3 e4 => (set_ne e1).trans ((set_ne e2).trans ((set_ne e3).trans (set_ne e4))))]
  have e3 : ({ c with num := c.num } : EleCfg) = c := rfl
  rw [e3, off_total hrun.2.2.1 g.p.Nsite (psi g) (szList g c) _ hrun.2.2.2
    (fun τ => hcacaThread_val hg hr' h hH hsz hpfa w.hs w.ht w.hi w.hj w.hk w.hl run.reg.sched τ (run.reg.junk τ))]
  simp only []
  rw [hamTerms_split, hamTimes_append, energyOf_append]
  congr 2
  congr 1
  rw [matrixElement_two, ov2_distinct (psi_anti hg) hI hK nd rg w.IJ w.IK w.IL w.JK w.JL w.KL, if_pos hmem, energy_times,
    show overlap (hamDual (psi g) (hamDiag g.p.Nsite H)) (actAll [.cr (ri + si * g.p.Nsite), .an (rj + si * g.p.Nsite), .cr (rk + sk * g.p.Nsite), .an (rl + sk * g.p.Nsite)]
      (some (1, szList g c))) = ov2 (hamDual (psi g) (hamDiag g.p.Nsite H)) (ri + si * g.p.Nsite) (rj + si * g.p.Nsite)
        (rk + sk * g.p.Nsite) (rl + sk * g.p.Nsite) (szList g c) from rfl,
    ov2_distinct (anti_hamDual (psi_anti hg) (fun t ht => crLt_hamTerms hH t (by
      rw [hamTerms_split]; exact List.mem_append_left _ ht))) hI hK nd rg w.IJ w.IK w.IL w.JK w.JL w.KL, if_pos hmem, ← w.list hc]
  exact diag_finish hg hc' hH hrun.2.1 (szList g c)

end

section
variable {g : GrnEnv} (hg : GrnOK g) (hr : g.flagRBM = false) {c : EleCfg} {ip : ℂ} {projCnt : Arr} {rbmCnt : Nat → ℂ}
  (h : Sampled g c ip projCnt rbmCnt)
  {H : HamPar} (hH : HamIdx g.p.Nsite H) (hsz : HamSzConserving H) {T : Nat} {run : LsRun} (hrun : LsOK H T run)
include hg hr h hH hsz hrun

theorem hcaca_val (hz : NoZero g) {pfa : Nat → (Nat → ℂ) → ℂ} (hpfa : PfaOK pfa) {ri rj rk rl si sk : Nat} (hs : si < 2) (ht : sk < 2)
    (hi : ri < g.p.Nsite) (hj : rj < g.p.Nsite) (hk : rk < g.p.Nsite) (hl : rl < g.p.Nsite)
    {h1 : ℂ} (hh : h1 = energyOf (psi g) (hamTerms g.p.Nsite H) (szList g c)) :
    ∃ st', calHCACA g (lsChildReal pfa g) H run ri rj rk rl si sk h1 ip projCnt rbmCnt c
      = some (energyOf (psi g) (hamTimes (hamTerms g.p.Nsite H) [.cr (ri + si * g.p.Nsite), .an (rj + si * g.p.Nsite), .cr (rk + sk * g.p.Nsite), .an (rl + sk * g.p.Nsite)]) (szList g c), c, st') ∧ SameState g g.st st' := by
  have hr' : g.flagRBM = true → GrnRBM g := fun hf => by rw [hr] at hf; cases hf
  have hc : Cons g.sp c := h.cons
  have pl := placed_sz hc
  have hI := orb_lt hs hi
  have hJ := orb_lt hs hj
  have hK := orb_lt ht hk
  have hL := orb_lt ht hl
  have nd : (szList g c).Nodup := pl.nodup
  have rg : ∀ z ∈ szList g c, z < 2 * g.p.Nsite := pl.range
  have mm : ∀ {x}, x < 2 * g.p.Nsite → (x ∈ szList g c ↔ c.num x = 1) := fun hx => pl.mem hx
  have hG := anti_hamDual (psi_anti hg) (crLt_hamTerms hH)
  have one : ∀ {a b u : Nat}, u < 2 → a < g.p.Nsite → b < g.p.Nsite →
      ∃ st', calHCA g (lsChildReal pfa g) H run a b u h1 ip projCnt rbmCnt c
        = some ((starRingEnd ℂ) (ov1 (hamDual (psi g) (hamTerms g.p.Nsite H)) (a + u * g.p.Nsite) (b + u * g.p.Nsite) (szList g c)
        / psi g (szList g c)), c, st') ∧ SameState g g.st st' := by
    intro a b u hu ha hb
    obtain ⟨st', e1, e2⟩ := hca_val hg hr' h hH hsz hrun hz (Or.inr ⟨pfa, hpfa, rfl⟩) hu ha hb hh
    refine ⟨st', ?_, e2⟩
    rw [e1, energy_times]; rfl
  have z0 : (0 : ℂ) = (starRingEnd ℂ) (0 / psi g (szList g c)) := by simp
  have tgt : energyOf (psi g) (hamTimes (hamTerms g.p.Nsite H) [.cr (ri + si * g.p.Nsite), .an (rj + si * g.p.Nsite), .cr (rk + sk * g.p.Nsite), .an (rl + sk * g.p.Nsite)]) (szList g c)
      = (starRingEnd ℂ) (ov2 (hamDual (psi g) (hamTerms g.p.Nsite H)) (ri + si * g.p.Nsite) (rj + si * g.p.Nsite)
          (rk + sk * g.p.Nsite) (rl + sk * g.p.Nsite) (szList g c) / psi g (szList g c)) := energy_times _ _ _ _
  have zero : ov2 (hamDual (psi g) (hamTerms g.p.Nsite H)) (ri + si * g.p.Nsite) (rj + si * g.p.Nsite)
          (rk + sk * g.p.Nsite) (rl + sk * g.p.Nsite) (szList g c) = 0 →
      ∃ st', some ((0 : ℂ), c, g.st) = some ((starRingEnd ℂ) (ov2 (hamDual (psi g) (hamTerms g.p.Nsite H)) (ri + si * g.p.Nsite)
        (rj + si * g.p.Nsite) (rk + sk * g.p.Nsite) (rl + sk * g.p.Nsite) (szList g c) / psi g (szList g c)), c, st')
        ∧ SameState g g.st st' := fun e => ⟨g.st, by rw [e, ← z0], SameState.refl _ _⟩
  rw [tgt]
  unfold calHCACA
  simp only []
  by_cases KL : rk + sk * g.p.Nsite = rl + sk * g.p.Nsite
  · rw [if_pos KL]
    have e : rk = rl := by omega
    subst e
    rcases pl.bin _ hK with q | q
    · rw [if_neg (by omega)]
      exact zero (by rw [ov2_KK hG hI hK nd rg, if_neg (by rw [mm hK]; omega)])
    · rw [if_pos q, ov2_KK hG hI hK nd rg, if_pos ((mm hK).mpr q)]
      exact one hs hi hj
  rw [if_neg KL]
  by_cases JK : rj + si * g.p.Nsite = rk + sk * g.p.Nsite
  · rw [if_pos JK]
    obtain ⟨e1, e2⟩ := (flat_inj hs ht hj hk).mp JK
    subst e1 e2
    have key : ov2 (hamDual (psi g) (hamTerms g.p.Nsite H)) (ri + si * g.p.Nsite) (rj + si * g.p.Nsite)
          (rj + si * g.p.Nsite) (rl + si * g.p.Nsite) (szList g c) = if rj + si * g.p.Nsite ∈ szList g c then 0
          else ov1 (hamDual (psi g) (hamTerms g.p.Nsite H)) (ri + si * g.p.Nsite) (rl + si * g.p.Nsite) (szList g c) := by
      by_cases IL : ri + si * g.p.Nsite = rl + si * g.p.Nsite
      · rw [IL, ov2_IL_JK hG hK hL nd rg KL, ov1_same hG hL nd rg]
        by_cases a : rj + si * g.p.Nsite ∈ szList g c <;> simp [a]
      · exact ov2_JK hG hI hK nd rg KL IL
    rcases pl.bin _ hJ with q | q
    · rw [if_neg (by omega), key, if_neg (by rw [mm hJ]; omega)]
      exact one hs hi hl
    · rw [if_pos q]
      exact zero (by rw [key, if_pos ((mm hJ).mpr q)])
  rw [if_neg JK]
  by_cases JL : rj + si * g.p.Nsite = rl + sk * g.p.Nsite
  · rw [if_pos JL]
    exact zero (by rw [JL, ov2_JL hG hI hK nd rg KL])
  rw [if_neg JL]
  by_cases IJ : ri + si * g.p.Nsite = rj + si * g.p.Nsite
  · rw [if_pos IJ]
    have key : ov2 (hamDual (psi g) (hamTerms g.p.Nsite H)) (ri + si * g.p.Nsite) (rj + si * g.p.Nsite)
          (rk + sk * g.p.Nsite) (rl + sk * g.p.Nsite) (szList g c)
        = if ri + si * g.p.Nsite ∈ szList g c then ov1 (hamDual (psi g) (hamTerms g.p.Nsite H)) (rk + sk * g.p.Nsite)
          (rl + sk * g.p.Nsite) (szList g c) else 0 := by
      rw [← IJ]; exact ov2_IJ hG hI hK nd rg (by rw [IJ]; exact JK) (by rw [IJ]; exact JL)
    rcases pl.bin _ hI with q | q
    · rw [if_neg (by omega)]
      exact zero (by rw [key, if_neg (by rw [mm hI]; omega)])
    · rw [if_pos q, key, if_pos ((mm hI).mpr q)]
      exact one ht hk hl
  rw [if_neg IJ]
  by_cases IK : ri + si * g.p.Nsite = rk + sk * g.p.Nsite
  · rw [if_pos IK]
    exact zero (by rw [IK, ov2_IK hG hK nd rg (fun e => JK e.symm)])
  rw [if_neg IK]
  by_cases IL : ri + si * g.p.Nsite = rl + sk * g.p.Nsite
  · rw [if_pos IL]
    obtain ⟨e1, e2⟩ := (flat_inj hs ht hi hl).mp IL
    subst e1 e2
    have key := ov2_IL hG hK hL nd rg KL JL JK
    rcases pl.bin _ hI with q | q
    · rw [if_neg (by omega)]
      exact zero (by rw [key, if_neg (by rw [mm hI]; omega)])
    · rw [if_pos q, key, if_pos ((mm hI).mpr q)]
      obtain ⟨st', e1, e2⟩ := one ht hk hj
      refine ⟨st', ?_, e2⟩
      rw [e1, Option.map_some, neg_div, map_neg]
  rw [if_neg IL]
  have dis := ov2_distinct hG hI hK nd rg IJ IK IL JK JL KL
  have bI := pl.bin _ hI
  have bJ := pl.bin _ hJ
  have bK := pl.bin _ hK
  have bL := pl.bin _ hL
  by_cases z4 : c.num (rl + sk * g.p.Nsite) = 0
  · rw [if_pos z4]
    exact zero (by rw [dis, if_neg (by rw [mm hL]; omega)])
  rw [if_neg z4]
  by_cases z3 : c.num (rk + sk * g.p.Nsite) = 1
  · rw [if_pos z3]
    exact zero (by rw [dis, if_neg (fun q => q.2.2.1 ((mm hK).mpr z3))])
  rw [if_neg z3]
  by_cases z2 : c.num (rj + si * g.p.Nsite) = 0
  · rw [if_pos z2]
    exact zero (by rw [dis, if_neg (by rw [mm hJ]; omega)])
  rw [if_neg z2]
  by_cases z1 : c.num (ri + si * g.p.Nsite) = 1
  · rw [if_pos z1]
    exact zero (by rw [dis, if_neg (fun q => q.1 ((mm hI).mpr z1))])
  rw [if_neg z1]
  have w : TwoHop g c ri rj rk rl si sk := ⟨hs, ht, hi, hj, hk, hl, IJ, IK, IL, JK, JL, KL, by omega, by omega, by omega, by omega⟩
  rw [checkGF2_val hg h w]
  by_cases t : ‖amplitude (2 * g.p.Ne) (2 * g.p.Nsite) g.slt g.w 0 g.nQP (occSz g.p.Ne g.p.Nsite (updateEleConfig g.sp ⟨(c.cfg (rj + si * g.p.Nsite)).toNat, rj, ri, si⟩ (updateEleConfig g.sp ⟨(c.cfg (rl + sk * g.p.Nsite)).toNat, rl, rk, sk⟩ c)).idx) / ip‖ > 1 / 10 ^ 12
  · rw [if_pos t]
    have ha : amplitude (2 * g.p.Ne) (2 * g.p.Nsite) g.slt g.w 0 g.nQP (occSz g.p.Ne g.p.Nsite (updateEleConfig g.sp ⟨(c.cfg (rj + si * g.p.Nsite)).toNat, rj, ri, si⟩ (updateEleConfig g.sp ⟨(c.cfg (rl + sk * g.p.Nsite)).toNat, rl, rk, sk⟩ c)).idx) ≠ 0 := by
      intro q
      exact thr_ne t (by rw [q, zero_div])
    obtain ⟨st', e1, e2⟩ := hcaca1_val hg hr h w hH hsz hrun hz ha
    refine ⟨st', ?_, e2⟩
    rw [e1, dis, if_pos (by rw [mm hI, mm hJ, mm hK, mm hL]; omega)]
  · rw [if_neg t]
    refine ⟨g.st, ?_, SameState.refl _ _⟩
    rw [← tgt]
    exact hcaca2_val hg hr h w hH hsz hrun hpfa

end

/-! ### the loops -/

theorem lsLoop_val {g : GrnEnv} {c : EleCfg} {n : Nat} {body : LsAcc → Nat → Option LsAcc} {v : Nat → ℂ}
    (hb : ∀ i < n, ∀ e st, SameState g g.st st → ∃ st', body (e, c, st) i = some (e + v i, c, st') ∧ SameState g g.st st') (e : ℂ)
    {st : PfState ℂ} (hs : SameState g g.st st) :
    ∃ st', lsLoop n body (e, c, st) = some (e + ∑ i ∈ range n, v i, c, st') ∧ SameState g g.st st' := by
  unfold lsLoop
  induction n with
  | zero => exact ⟨st, by simp, hs⟩
  | succ n ih =>
    obtain ⟨st1, e1, h1⟩ := ih (fun i hi => hb i (by omega))
    obtain ⟨st2, e2, h2⟩ := hb n (by omega) (e + ∑ i ∈ range n, v i) st1 h1
    refine ⟨st2, ?_, h2⟩
    rw [List.range_succ, List.foldl_append, e1]
    simp only [List.foldl_cons, List.foldl_nil, Option.bind_some, sum_range_succ]
    rw [e2, add_assoc]

section
variable {g : GrnEnv} (hg : GrnOK g) (hr : g.flagRBM = true → GrnRBM g) {c : EleCfg} {ip : ℂ} {projCnt : Arr} {rbmCnt : Nat → ℂ}
  (h : Sampled g c ip projCnt rbmCnt)
  {H : HamPar} (hH : HamIdx g.p.Nsite H) (hsz : HamSzConserving H) {T : Nat} {runs : Nat → Nat → LsRun} (hrun : ∀ a i, LsOK H T (runs a i))
  (hz : NoZero g) {h1 : ℂ} (hh : h1 = energyOf (psi g) (hamTerms g.p.Nsite H) (szList g c))
include hg hr h hH hsz

omit hg hr h hH hsz in
theorem LsChildOK.at {child : LsChild} (hch : LsChildOK g H child) (st : PfState ℂ) :
    ChildOK { g with st := st } H (child { g with st := st }) := by
  rcases hch with h | ⟨_, pfa, h1, h2⟩
  · exact Or.inl h
  · exact Or.inr ⟨pfa, h1, by rw [h2]⟩

include hrun hz hh

theorem calculateHK_val {child : LsChild} (hch : LsChildOK g H child) {st : PfState ℂ} (hst : SameState g g.st st) :
    ∃ st', calculateHK g child H runs h1 ip projCnt rbmCnt c st = some (0 + ∑ i ∈ range H.nTR,
      (termTransfer g.p.Nsite (H.pTR i) (H.tr i 0) (H.tr i 1) (H.tr i 2) (H.tr i 3) |>.map
        (fun b => b.1 * energyOf (psi g) (hamTimes (hamTerms g.p.Nsite H) b.2) (szList g c))).sum, c, st') ∧ SameState g g.st st' := by
  unfold calculateHK
  refine lsLoop_val ?_ 0 hst
  intro i hi e st hs
  obtain ⟨a1, s1, a2, s2⟩ := hH.tr i hi
  obtain ⟨st', e1, e2⟩ := hca_val (grnOK_st hg st) (grnRBM_st hr st) (sampled_st h hs) hH hsz (hrun 0 i) hz (hch.at st) s2 a1 a2 hh
  refine ⟨st', ?_, hs.trans e2⟩
  simp only []
  rw [e1]
  unfold termTransfer
  rw [hsz.tr i hi]
  simp only [Option.map_some, List.map_cons, List.map_nil, List.sum_cons, List.sum_nil, add_zero]
  congr 2
  rw [neg_mul, ← sub_eq_add_neg]
  rfl

theorem calculateHW_val {child : LsChild} (hch : LsChildOK g H child) {st : PfState ℂ} (hst : SameState g g.st st) :
    ∃ st', calculateHW g child H runs h1 ip projCnt rbmCnt c st = some (0
      + (∑ i ∈ range H.nPH, ((termPairHop g.p.Nsite (H.pPH i) (H.ph i 0) (H.ph i 1)).map
        (fun b => b.1 * energyOf (psi g) (hamTimes (hamTerms g.p.Nsite H) b.2) (szList g c))).sum)
      + (∑ i ∈ range H.nEX, ((termExchange g.p.Nsite (H.pEX i) (H.ex i 0) (H.ex i 1)).map
        (fun b => b.1 * energyOf (psi g) (hamTimes (hamTerms g.p.Nsite H) b.2) (szList g c))).sum)
      + (∑ i ∈ range H.nIA, ((termInterAll g.p.Nsite (H.pIA i) (H.ia i 0) (H.ia i 1) (H.ia i 2) (H.ia i 3) (H.ia i 4) (H.ia i 5)
          (H.ia i 6) (H.ia i 7)).map
        (fun b => b.1 * energyOf (psi g) (hamTimes (hamTerms g.p.Nsite H) b.2) (szList g c))).sum), c, st') ∧ SameState g g.st st' := by
  unfold calculateHW
  simp only []
  rcases hch with hob | ⟨hf, pfa, hpfa, rfl⟩
  · rw [hob.1, hob.2.1, hob.2.2]
    exact ⟨st, by simp [lsLoop], hst⟩
  obtain ⟨st1, q1, s1⟩ := lsLoop_val (g := g) (c := c) (n := H.nPH) (body := fun a i =>
      (calHCACA { g with st := a.2.2 } (lsChildReal pfa { g with st := a.2.2 }) H (runs 1 i) (H.ph i 0) (H.ph i 1) (H.ph i 0) (H.ph i 1)
        0 1 h1 ip projCnt rbmCnt a.2.1).map (fun x => (a.1 + H.pPH i * x.1, x.2)))
    (v := fun i => ((termPairHop g.p.Nsite (H.pPH i) (H.ph i 0) (H.ph i 1)).map
        (fun b => b.1 * energyOf (psi g) (hamTimes (hamTerms g.p.Nsite H) b.2) (szList g c))).sum) (by
      intro i hi e st hs
      obtain ⟨a1, a2⟩ := hH.ph i hi
      obtain ⟨st', e1, e2⟩ := hcaca_val (grnOK_st hg st) hf (sampled_st h hs) hH hsz (hrun 1 i) hz hpfa (show 0 < 2 by decide)
        (show 1 < 2 by decide) a1 a2 a1 a2 hh
      refine ⟨st', ?_, hs.trans e2⟩
      simp only []
      rw [e1]
      unfold termPairHop
      simp only [Option.map_some, List.map_cons, List.map_nil, List.sum_cons, List.sum_nil, add_zero, Nat.zero_mul, Nat.add_zero,
        Nat.one_mul]
      rfl) 0 hst
  obtain ⟨st2, q2, s2⟩ := lsLoop_val (g := g) (c := c) (n := H.nEX) (body := fun a i =>
      (calHCACA { g with st := a.2.2 } (lsChildReal pfa { g with st := a.2.2 }) H (runs 2 i) (H.ex i 0) (H.ex i 1) (H.ex i 1) (H.ex i 0)
        0 1 h1 ip projCnt rbmCnt a.2.1).bind (fun x =>
      (calHCACA { g with st := x.2.2 } (lsChildReal pfa { g with st := x.2.2 }) H (runs 3 i) (H.ex i 0) (H.ex i 1) (H.ex i 1) (H.ex i 0)
        1 0 h1 ip projCnt rbmCnt x.2.1).map (fun y => (a.1 + H.pEX i * (x.1 + y.1), y.2))))
    (v := fun i => ((termExchange g.p.Nsite (H.pEX i) (H.ex i 0) (H.ex i 1)).map
        (fun b => b.1 * energyOf (psi g) (hamTimes (hamTerms g.p.Nsite H) b.2) (szList g c))).sum) (by
      intro i hi e st hs
      obtain ⟨a1, a2⟩ := hH.ex i hi
      obtain ⟨st', e1, e2⟩ := hcaca_val (grnOK_st hg st) hf (sampled_st h hs) hH hsz (hrun 2 i) hz hpfa (show 0 < 2 by decide)
        (show 1 < 2 by decide) a1 a2 a2 a1 hh
      have hs' := hs.trans e2
      obtain ⟨st'', e3, e4⟩ := hcaca_val (grnOK_st hg st') hf (sampled_st h hs') hH hsz (hrun 3 i) hz hpfa (show 1 < 2 by decide)
        (show 0 < 2 by decide) a1 a2 a2 a1 hh
      refine ⟨st'', ?_, hs'.trans e4⟩
      simp only []
      rw [e1, Option.bind_some]
      simp only []
      rw [e3]
      unfold termExchange
      simp only [Option.map_some, List.map_cons, List.map_nil, List.sum_cons, List.sum_nil, add_zero, Nat.zero_mul, Nat.add_zero,
        Nat.one_mul, mul_add]
      rfl) (0 + ∑ i ∈ range H.nPH, ((termPairHop g.p.Nsite (H.pPH i) (H.ph i 0) (H.ph i 1)).map
        (fun b => b.1 * energyOf (psi g) (hamTimes (hamTerms g.p.Nsite H) b.2) (szList g c))).sum) s1
  obtain ⟨st3, q3, s3⟩ := lsLoop_val (g := g) (c := c) (n := H.nIA) (body := fun a i =>
      (calHCACA { g with st := a.2.2 } (lsChildReal pfa { g with st := a.2.2 }) H (runs 4 i) (H.ia i 0) (H.ia i 2) (H.ia i 4) (H.ia i 6)
        (H.ia i 3) (H.ia i 7) h1 ip projCnt rbmCnt a.2.1).map (fun x => (a.1 + H.pIA i * x.1, x.2)))
    (v := fun i => ((termInterAll g.p.Nsite (H.pIA i) (H.ia i 0) (H.ia i 1) (H.ia i 2) (H.ia i 3) (H.ia i 4) (H.ia i 5)
          (H.ia i 6) (H.ia i 7)).map
        (fun b => b.1 * energyOf (psi g) (hamTimes (hamTerms g.p.Nsite H) b.2) (szList g c))).sum) (by
      intro i hi e st hs
      obtain ⟨⟨a1, a2, a3, a4⟩, b1, b2, b3, b4⟩ := hH.ia i hi
      obtain ⟨z1, z2⟩ := hsz.ia i hi
      obtain ⟨st', e1, e2⟩ := hcaca_val (grnOK_st hg st) hf (sampled_st h hs) hH hsz (hrun 4 i) hz hpfa b2 b4 a1 a2 a3 a4 hh
      refine ⟨st', ?_, hs.trans e2⟩
      simp only []
      rw [e1]
      unfold termInterAll
      rw [z1, z2]
      simp only [Option.map_some, List.map_cons, List.map_nil, List.sum_cons, List.sum_nil, add_zero]
      rfl) ((0 + ∑ i ∈ range H.nPH, ((termPairHop g.p.Nsite (H.pPH i) (H.ph i 0) (H.ph i 1)).map
        (fun b => b.1 * energyOf (psi g) (hamTimes (hamTerms g.p.Nsite H) b.2) (szList g c))).sum)
        + ∑ i ∈ range H.nEX, ((termExchange g.p.Nsite (H.pEX i) (H.ex i 0) (H.ex i 1)).map
        (fun b => b.1 * energyOf (psi g) (hamTimes (hamTerms g.p.Nsite H) b.2) (szList g c))).sum) s2
  refine ⟨st3, ?_, s3⟩
  rw [q1, Option.bind_some, q2, Option.bind_some, q3]

end

/-- products of number operators factor out -/
theorem diag_factor {g : GrnEnv} (hg : GrnOK g) {n : Nat} {rs : Nat → Nat} {num : Arr} (hp : Placed n (2 * g.p.Nsite) rs num)
    (hne : psi g (occList n rs) ≠ 0) {H : HamPar} (hH : HamIdx g.p.Nsite H) (A : List (ℂ × List Op)) (hA : ∀ t ∈ A, CrLt (2 * g.p.Nsite) t.2) :
    ∀ b ∈ hamDiag g.p.Nsite H, energyOf (psi g) (hamTimes A b.2) (occList n rs)
      = energyOf (psi g) A (occList n rs) * matrixElement (psi g) b.2 (occList n rs) := by
  have lo : ∀ {r}, r < g.p.Nsite → r < 2 * g.p.Nsite := fun h => by omega
  have hi : ∀ {r}, r < g.p.Nsite → r + g.p.Nsite < 2 * g.p.Nsite := fun h => by omega
  have hG := anti_hamDual (psi_anti hg) hA
  have nn : ∀ {x y}, x < 2 * g.p.Nsite → y < 2 * g.p.Nsite → energyOf (psi g) (hamTimes A (numOp x ++ numOp y)) (occList n rs)
      = energyOf (psi g) A (occList n rs) * matrixElement (psi g) (numOp x ++ numOp y) (occList n rs) := by
    intro x y hx hy
    rw [num_num hg hp hne hx hy, energy_times, energy_zero,
      show overlap (hamDual (psi g) A) (actAll (numOp x ++ numOp y) (some (1, occList n rs)))
        = ov2 (hamDual (psi g) A) x x y y (occList n rs) from rfl,
      ov2_KK hG hx hy hp.nodup hp.range, ov1_same hG hx hp.nodup hp.range, num_two hp hx, num_two hp hy]
    by_cases a : x ∈ occList n rs <;> by_cases b : y ∈ occList n rs <;> simp [a, b]
  intro t ht
  unfold hamDiag at ht
  simp only [List.mem_append, List.mem_flatMap, List.mem_range] at ht
  rcases ht with (⟨i, hi', ht⟩ | ⟨i, hi', ht⟩) | ⟨i, hi', ht⟩
  · have h1 := hH.ci i hi'
    simp only [termCoulombIntra, List.mem_singleton] at ht
    subst ht
    exact nn (lo h1) (hi h1)
  · obtain ⟨h1, h2⟩ := hH.co i hi'
    simp only [termCoulombInter, List.mem_cons, List.not_mem_nil, or_false] at ht
    rcases ht with rfl | rfl | rfl | rfl
    · exact nn (lo h1) (lo h2)
    · exact nn (lo h1) (hi h2)
    · exact nn (hi h1) (lo h2)
    · exact nn (hi h1) (hi h2)
  · obtain ⟨h1, h2⟩ := hH.hu i hi'
    simp only [termHund, List.mem_cons, List.not_mem_nil, or_false] at ht
    rcases ht with rfl | rfl
    · exact nn (lo h1) (lo h2)
    · exact nn (hi h1) (hi h2)

theorem sum_flatMap_range (n : Nat) (f : Nat → List (ℂ × List Op)) (F : ℂ × List Op → ℂ) :
    (((List.range n).flatMap f).map F).sum = ∑ i ∈ range n, ((f i).map F).sum := by
  induction n with
  | zero => simp
  | succ n ih =>
    rw [List.range_succ, List.flatMap_append, List.map_append, List.sum_append, ih, sum_range_succ]
    simp

theorem lsLocalQ_val {g : GrnEnv} (hg : GrnOK g) (hr : g.flagRBM = true → GrnRBM g) {c : EleCfg} {ip : ℂ} {projCnt : Arr}
    {rbmCnt : Nat → ℂ} (h : Sampled g c ip projCnt rbmCnt)
    {H : HamPar} (hH : HamIdx g.p.Nsite H) (hsz : HamSzConserving H) {T : Nat} {runs : Nat → Nat → LsRun}
    (hrun : ∀ a i, LsOK H T (runs a i)) {run0 : OmpRun} (hrun0 : OmpOK H T run0)
    (hz : NoZero g) {h1 : ℂ} (hh : h1 = energyOf (psi g) (hamTerms g.p.Nsite H) (szList g c)) {child : LsChild}
    (hch : LsChildOK g H child) (LSLQ : Nat → ℂ) :
    ∃ st', lsLocalQ g child H run0 runs h1 ip projCnt rbmCnt c LSLQ
      = some (setAt (setAt (setAt (setAt LSLQ 0 1) 1 h1) 2 h1) 3
          (energyOf (psi g) (hamProd (hamTerms g.p.Nsite H) (hamTerms g.p.Nsite H)) (szList g c)), c, st') ∧ SameState g g.st st' := by
  have pl := placed_sz (show Cons g.sp c from h.cons)
  have nz := h.list_ne hg hr
  obtain ⟨st1, q1, s1⟩ := calculateHK_val hg hr h hH hsz hrun hz hh hch (SameState.refl g g.st)
  obtain ⟨st2, q2, s2⟩ := calculateHW_val hg hr h hH hsz hrun hz hh hch s1
  refine ⟨st2, ?_, s2⟩
  unfold lsLocalQ
  simp only []
  rw [q1, Option.bind_some]
  simp only []
  rw [q2, Option.map_some]
  simp only []
  congr 3
  rw [calculateHamiltonian0_val hg pl nz hH hrun0.1 hrun0.2, energy_prod]
  rw [hamTerms_split g.p.Nsite H]
  rw [List.map_append, List.sum_append]
  have hd : ((hamDiag g.p.Nsite H).map (fun b => b.1 * energyOf (psi g) (hamTimes (hamDiag g.p.Nsite H ++ hamOff g.p.Nsite H) b.2)
      (szList g c))).sum = h1 * energyOf (psi g) (hamDiag g.p.Nsite H) (occList (2 * g.p.Ne) (occSz g.p.Ne g.p.Nsite c.idx)) := by
    rw [hh, ← hamTerms_split]
    unfold energyOf
    rw [← List.sum_map_mul_left]
    congr 1
    apply List.map_congr_left
    intro b hb
    have := diag_factor hg pl nz hH (hamTerms g.p.Nsite H) (crLt_hamTerms hH) b hb
    unfold energyOf at this
    unfold szList
    rw [this]; ring
  rw [hd]
  unfold hamOff
  simp only [List.map_append, List.sum_append, sum_flatMap_range]
  ring

/-- the array of `LSLocalCisAjs` -/
theorem lsLocalCisAjs_val {g : GrnEnv} (hg : GrnOK g) (hr : g.flagRBM = true → GrnRBM g) {c : EleCfg} {ip : ℂ} {projCnt : Arr}
    {rbmCnt : Nat → ℂ} (h : Sampled g c ip projCnt rbmCnt)
    {H : HamPar} (hH : HamIdx g.p.Nsite H) (hsz : HamSzConserving H) {T : Nat} {runs : Nat → LsRun}
    (hrun : ∀ i, LsOK H T (runs i))
    (hz : NoZero g) {h1 : ℂ} (hh : h1 = energyOf (psi g) (hamTerms g.p.Nsite H) (szList g c)) {child : LsChild}
    (hch : LsChildOK g H child) {n1 : Nat} {t1 : Nat → Nat → Nat} (ht : ∀ i < n1, t1 i 0 < g.p.Nsite ∧ t1 i 2 < g.p.Nsite ∧ t1 i 3 < 2)
    (loc arr : Nat → ℂ) :
    ∃ out st', lsLocalCisAjs g child H runs n1 t1 loc h1 ip projCnt rbmCnt c arr = some (out, c, st') ∧ SameState g g.st st' ∧
      (∀ i < n1, out i = loc i ∧ out (i + n1) = energyOf (psi g) (hamTimes (hamTerms g.p.Nsite H)
        [.cr (t1 i 0 + t1 i 3 * g.p.Nsite), .an (t1 i 2 + t1 i 3 * g.p.Nsite)]) (szList g c)) ∧
      ∀ i, 2 * n1 ≤ i → out i = arr i := by
  have key : ∀ n, n ≤ n1 → ∃ out st', (List.range n).foldl (fun o i => o.bind (fun (a : (Nat → ℂ) × EleCfg × PfState ℂ) =>
    let g' := { g with st := a.2.2 }
    (calHCA g' (child g') H (runs i) (t1 i 0) (t1 i 2) (t1 i 3) h1 ip projCnt rbmCnt a.2.1).map (fun x =>
      (setAt a.1 (i + n1) x.1, x.2)))) (some (copyArr n1 loc arr, c, g.st)) = some (out, c, st') ∧ SameState g g.st st' ∧
      (∀ i < n1, out i = loc i) ∧ (∀ i < n, out (i + n1) = energyOf (psi g) (hamTimes (hamTerms g.p.Nsite H)
        [.cr (t1 i 0 + t1 i 3 * g.p.Nsite), .an (t1 i 2 + t1 i 3 * g.p.Nsite)]) (szList g c)) ∧
      ∀ i, n1 + n ≤ i → out i = arr i := by
    intro n
    induction n with
    | zero =>
      intro _
      refine ⟨copyArr n1 loc arr, g.st, rfl, SameState.refl _ _, fun i hi => copyArr_at _ _ _ hi, fun i hi => absurd hi (Nat.not_lt_zero i),
        fun i hi => ?_⟩
      unfold copyArr
      have : ∀ m, m ≤ i → (List.range m).foldl (fun a i => setAt a i (loc i)) arr i = arr i := by
        intro m
        induction m with
        | zero => intro _; rfl
        | succ m ih =>
          intro hm
          rw [List.range_succ, List.foldl_append]
          simp only [List.foldl_cons, List.foldl_nil]
          rw [setAt_ne (by omega)]
          exact ih (by omega)
      exact this n1 (by omega)
    | succ n ih =>
      intro hn
      obtain ⟨out, st, e1, s1, o1, o2, o3⟩ := ih (by omega)
      obtain ⟨a1, a2, a3⟩ := ht n (by omega)
      obtain ⟨st', e2, s2⟩ := hca_val (grnOK_st hg st) (grnRBM_st hr st) (sampled_st h s1) hH hsz (hrun n) hz (hch.at st) a3 a1 a2 hh
      refine ⟨setAt out (n + n1) (energyOf (psi g) (hamTimes (hamTerms g.p.Nsite H)
        [.cr (t1 n 0 + t1 n 3 * g.p.Nsite), .an (t1 n 2 + t1 n 3 * g.p.Nsite)]) (szList g c)), st', ?_, s1.trans s2, ?_, ?_, ?_⟩
      · rw [List.range_succ, List.foldl_append, e1]
        simp only [List.foldl_cons, List.foldl_nil, Option.bind_some]
        rw [e2]
        rfl
      · intro i hi
        rw [setAt_ne (by omega)]; exact o1 i hi
      · intro i hi
        by_cases q : i = n
        · subst q; simp [setAt]
        · rw [setAt_ne (by omega)]; exact o2 i (by omega)
      · intro i hi
        rw [setAt_ne (by omega)]; exact o3 i (by omega)
  obtain ⟨out, st', e1, s1, o1, o2, o3⟩ := key n1 (Nat.le_refl _)
  exact ⟨out, st', e1, s1, fun i hi => ⟨o1 i hi, o2 i hi⟩, fun i hi => o3 i (by omega)⟩

end MVMC
