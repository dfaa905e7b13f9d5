import Verif.Proof.ProjectionSampler

/-! # C12, C13, C15: correlation counters and correlation ratio -/
namespace MVMC
open Spec

/-! ## C12: what `MakeProjCnt` computes

`TabOK q` says that the index tables point into their own blocks and the neighbour tables name existing sites;
`Bin q num` says that occupations are 0 or 1. -/

/-- C12: the Gutzwiller counters hold the number of doubly occupied sites of each class. -/
theorem C12_make_gutzwiller (q : ProjPar) (ht : TabOK q) (num : Arr) (hb : Bin q num) (g : Nat) (hg : g < q.NG) :
    makeProjCnt q num g = gutzCount q.Nsite q.gIdx (nUp num) (nDn q num) g := make_gutz ht hb hg

/-- C12: the Jastrow counters hold `Σ_{i<j in class} (n_i-1)(n_j-1)`. -/
theorem C12_make_jastrow (q : ProjPar) (ht : TabOK q) (num : Arr) (hb : Bin q num) (v : Nat) (hv : v < q.NJ) :
    makeProjCnt q num (q.NG + v) = jastCount q.Nsite q.jIdx (nUp num) (nDn q num) v := make_jast ht hb hv

/-- C12: the 2-site doublon-holon counters. -/
theorem C12_make_dh2 (q : ProjPar) (ht : TabOK q) (num : Arr) (hb : Bin q num) (xn m : Nat) (d : Bool)
    (hx : xn < q.N2) (hm : m < 3) :
    makeProjCnt q num (q.NG + q.NJ + (xn + ((if d then 1 else 0) + 2 * m) * q.N2)) =
      dhCount q.Nsite (fun r => [q.dh2 xn (2 * r), q.dh2 xn (2 * r + 1)]) (nUp num) (nDn q num) d m :=
  make_dh2 ht hb d hx hm

/-- C12: the 4-site doublon-holon counters. -/
theorem C12_make_dh4 (q : ProjPar) (ht : TabOK q) (num : Arr) (hb : Bin q num) (xn m : Nat) (d : Bool)
    (hx : xn < q.N4) (hm : m < 5) :
    makeProjCnt q num (q.NG + q.NJ + 6 * q.N2 + (xn + ((if d then 1 else 0) + 2 * m) * q.N4)) =
      dhCount q.Nsite (fun r => [q.dh4 xn (4 * r), q.dh4 xn (4 * r + 1), q.dh4 xn (4 * r + 2), q.dh4 xn (4 * r + 3)])
        (nUp num) (nDn q num) d m :=
  make_dh4 ht hb d hx hm

/-- C12: nothing is written outside the `NProj` counters. -/
theorem C12_writes_in_bounds (q : ProjPar) (ht : TabOK q) (num : Arr) (hb : Bin q num) (k : Nat)
    (hk : q.NProj ≤ k) : makeProjCnt q num k = 0 := by
  have : q.NG + q.NJ + 6 * q.N2 ≤ k := by unfold ProjPar.NProj at hk; omega
  rw [makeProjCnt_apply, gC_out ht num (by omega), jC_out ht num (by omega), d2C_out ht hb (by omega),
    d4C_out ht hb (by omega)]
  rfl

/-- C12: two different iterations of the parallel loops over `xn` never touch the same counter (so the
OpenMP loops have no data race and equal the serial fold of the model). -/
theorem C12_parallel_iterations_disjoint (q : ProjPar) (ht : TabOK q) (num : Arr) (hb : Bin q num)
    (xn yn r r' k : Nat) (hx : xn < q.N2) (hy : yn < q.N2) (hr : r < q.Nsite) (hr' : r' < q.Nsite)
    (h1 : dh2Site q num xn r (fun _ => 0) k ≠ 0) (h2 : dh2Site q num yn r' (fun _ => 0) k ≠ 0) : xn = yn := by
  have key : ∀ x r, x < q.N2 → r < q.Nsite → dh2Site q num x r (fun _ => 0) k ≠ 0 →
      ∃ c, k = q.NG + q.NJ + x + c * q.N2 := by
    intro x r hx hr h
    rw [dh2Site_eq ht hb hx hr] at h
    split at h
    · split at h
      · exact ⟨_, ‹_›⟩
      · exact absurd rfl h
    · split at h
      · split at h
        · exact ⟨_, ‹_›⟩
        · exact absurd rfl h
      · exact absurd rfl h
  obtain ⟨c, e⟩ := key xn r hx hr h1
  obtain ⟨d, e'⟩ := key yn r' hy hr' h2
  exact (block_inj hx hy (show xn + c * q.N2 = yn + d * q.N2 by omega)).1

/-- C12: same for the 4-site loop. -/
theorem C12_parallel_iterations_disjoint4 (q : ProjPar) (ht : TabOK q) (num : Arr) (hb : Bin q num)
    (xn yn r r' k : Nat) (hx : xn < q.N4) (hy : yn < q.N4) (hr : r < q.Nsite) (hr' : r' < q.Nsite)
    (h1 : dh4Site q num xn r (fun _ => 0) k ≠ 0) (h2 : dh4Site q num yn r' (fun _ => 0) k ≠ 0) : xn = yn := by
  have key : ∀ x r, x < q.N4 → r < q.Nsite → dh4Site q num x r (fun _ => 0) k ≠ 0 →
      ∃ c, k = q.NG + q.NJ + 6 * q.N2 + x + c * q.N4 := by
    intro x r hx hr h
    rw [dh4Site_eq ht hb hx hr] at h
    split at h
    · split at h
      · exact ⟨_, ‹_›⟩
      · exact absurd rfl h
    · split at h
      · split at h
        · exact ⟨_, ‹_›⟩
        · exact absurd rfl h
      · exact absurd rfl h
  obtain ⟨c, e⟩ := key xn r hx hr h1
  obtain ⟨d, e'⟩ := key yn r' hy hr' h2
  exact (block_inj hx hy (show xn + c * q.N4 = yn + d * q.N4 by omega)).1

/-! ## C12: the incremental update -/

/-- C12: `UpdateProjCnt` applied to the counters of a configuration gives the counters of the
configuration after the hop, for all NProj counters. -/
theorem C12_update_equals_recount (q : ProjPar) (ht : TabOK q) (ri rj s : Nat) (num num' old : Arr)
    (h : NumHop q ri rj s s num num') (hold : ∀ k < q.NProj, old k = makeProjCnt q num k)
    (k : Nat) (hk : k < q.NProj) : updateProjCnt q ri rj old num' k = makeProjCnt q num' k := by
  refine update_core ht h ?_ old hold k hk
  rintro rfl
  have a := h.was; have b := h.free
  omega

/-- C12: in every state of the Sz-conserving sampler (accepted, rejected, refreshed; hop or exchange)
the carried counters equal a recount from scratch; likewise in every stored sample. -/
theorem C12_sampler_counters {β γ : Type} (k : Hooks β γ) (p : SamplerPar) (q : ProjPar)
    (hN : q.Nsite = p.Nsite) (ht : TabOK q) (pc : β → Arr) (pn : γ → Arr) (hk : CountsProj q k pc pn)
    (hNe : 0 < p.Ne) (hNs : 0 < p.Nsite) (burn : Bool) (warmUp nSample interval : Nat) (c : EleCfg) (b : β)
    (r r' : List Nat) (st' : SState β) (saved : List (Nat × SState β))
    (hc : Consistent p.Ne p.Nsite c.idx c.cfg c.num) (hl : LocalSingle p.Nsite p.locSpn c.num)
    (h0 : ∀ i < q.NProj, pc b i = makeProjCnt q c.num i)
    (e : vmcMakeSample k p burn warmUp nSample interval c b r = some (st', saved, r')) :
    (∀ x ∈ saved, ∀ i < q.NProj, pc x.2.b i = makeProjCnt q x.2.c.num i) ∧
    (∀ i < q.NProj, pc st'.b i = makeProjCnt q st'.c.num i) := by
  have hi : SInv p (fun c b => CntOK q pc c.num b) (⟨c, b, 0, 0, 0, 0, 0⟩ : SState β) :=
    ⟨hc, hl, h0, Nat.zero_le _, Nat.le_refl _, Nat.le_refl _⟩
  have := outerLoop_inv (counts_qok hN ht hk) hNe hNs _ _ _ _ _ hi (by simp) e
  exact ⟨fun x hx => (this.2 x hx).q, this.1.q⟩

/-! ## C13 -/

/-- C13: `UpdateProjCnt_fsz` for any single-electron move, including a spin flip on one site. -/
theorem C13_update_equals_recount (q : ProjPar) (ht : TabOK q) (ri rj s t : Nat) (num num' old : Arr)
    (h : NumHop q ri rj s t num num') (hold : ∀ k < q.NProj, old k = makeProjCnt q num k)
    (k : Nat) (hk : k < q.NProj) : updateProjCntFsz q ri rj old num' k = makeProjCnt q num' k :=
  move_counts ht h old hold k hk

/-- C13: in every state and stored sample of the general-Sz sampler the carried counters equal a
recount. -/
theorem C13_sampler_counters {β γ : Type} (k : FHooks β γ) (p : FPar) (q : ProjPar)
    (hN : q.Nsite = p.Nsite) (ht : TabOK q) (pc : β → Arr) (pn : γ → Arr) (hk : CountsProjF q k pc pn)
    (hNe : 0 < p.Ne) (hNs : 0 < p.Nsite) (hlb : ∀ r < p.Nsite, p.locSpn r = 0 ∨ p.locSpn r = 1)
    (burn : Bool) (warmUp nSample interval : Nat) (c : FCfg) (b : β)
    (r r' : List Nat) (st' : FState β) (saved : List (Nat × FState β))
    (hc : ConsistentF (2 * p.Ne) p.Nsite c.idx c.spn c.cfg c.num)
    (hl : LocalSingle p.Nsite p.locSpn c.num)
    (h0 : ∀ i < q.NProj, pc b i = makeProjCnt q c.num i)
    (e : vmcMakeSampleF k p burn warmUp nSample interval c b r = some (st', saved, r')) :
    (∀ x ∈ saved, ∀ i < q.NProj, pc x.2.b i = makeProjCnt q x.2.c.num i) ∧
    (∀ i < q.NProj, pc st'.b i = makeProjCnt q st'.c.num i) := by
  have hi : FInv p (fun c b => CntOK q pc c.num b) (magnetisation p.Nsite c.num)
      (⟨c, b, 0, fun _ => 0⟩ : FState β) :=
    ⟨hc, hl, h0, Nat.zero_le _, fun _ _ => rfl, Nat.le_refl _, Nat.le_refl _, Nat.le_refl _⟩
  have := outerLoopF_inv (counts_fqok hN ht hk) hNe hNs hlb _ _ _ _ _ hi (by simp) e
  exact ⟨fun x hx => (this.2 x hx).q, this.1.q⟩

/-! ## C15 -/

/-- C15: `LogProjVal` of the counters of `num` is the exponent of the correlation factor. -/
theorem C15_log_value (q : ProjPar) (ht : TabOK q) (num : Arr) (hb : Bin q num) (Proj : Nat → ℂ) :
    logProjVal q.NProj Proj (makeProjCnt q num) =
      logCorr q.Nsite q.NG q.NJ q.N2 q.N4 q.gIdx q.jIdx
        (fun t r => [q.dh2 t (2 * r), q.dh2 t (2 * r + 1)])
        (fun t r => [q.dh4 t (4 * r), q.dh4 t (4 * r + 1), q.dh4 t (4 * r + 2), q.dh4 t (4 * r + 3)])
        (fun i => (Proj i).re) (fun i => (Proj (q.NG + i)).re)
        (fun t d m => (Proj (q.NG + q.NJ + (t + (d + 2 * m) * q.N2))).re)
        (fun t d m => (Proj (q.NG + q.NJ + 6 * q.N2 + (t + (d + 2 * m) * q.N4))).re)
        (nUp num) (nDn q num) :=
  logProjVal_spec ht hb Proj

/-- C15: `ProjRatio(new,old)` is the quotient of the correlation factors, for all parameters and counters. -/
theorem C15_ratio (n : Nat) (Proj : Nat → ℂ) (new old : Arr) :
    projRatio n Proj new old = Real.exp (logProjVal n Proj new) / Real.exp (logProjVal n Proj old) := by
  have : projRatio n Proj new old = Real.exp (logProjRatio n Proj new old) := rfl
  rw [this, logProjRatio_eq, Real.exp_sub]

/-- C15: `LogProjRatio` is the difference of the exponents, and ratios compose along a path of
configurations (so a sequence of accepted updates accumulates no discrepancy). -/
theorem C15_log_ratio (n : Nat) (Proj : Nat → ℂ) (a b c : Arr) :
    logProjRatio n Proj a b = logProjVal n Proj a - logProjVal n Proj b ∧
    logProjRatio n Proj c a = logProjRatio n Proj c b + logProjRatio n Proj b a ∧
    projRatio n Proj a b * projRatio n Proj b a = 1 := by
  refine ⟨logProjRatio_eq _ _ _ _, ?_, ?_⟩
  · rw [logProjRatio_eq, logProjRatio_eq, logProjRatio_eq]; ring
  · have e1 : projRatio n Proj a b = Real.exp (logProjRatio n Proj a b) := rfl
    have e2 : projRatio n Proj b a = Real.exp (logProjRatio n Proj b a) := rfl
    rw [e1, e2, ← Real.exp_add, logProjRatio_eq, logProjRatio_eq]
    simp

/-- C15: the factor computed after an update equals the ratio of the factors of the two configurations,
i.e. the ratio used in the Metropolis test and in the Green functions is the true one. -/
theorem C15_ratio_after_update (q : ProjPar) (ht : TabOK q) (ri rj s t : Nat) (num num' : Arr)
    (h : NumHop q ri rj s t num num') (Proj : Nat → ℂ) :
    projRatio q.NProj Proj (updateProjCntFsz q ri rj (makeProjCnt q num) num') (makeProjCnt q num) =
      Real.exp (logProjVal q.NProj Proj (makeProjCnt q num')) /
      Real.exp (logProjVal q.NProj Proj (makeProjCnt q num)) := by
  rw [C15_ratio]
  congr 2
  unfold logProjVal
  rw [foldl_sum_real, foldl_sum_real]
  apply Finset.sum_congr rfl
  intro i hi
  rw [move_counts ht h _ (fun _ _ => rfl) i (Finset.mem_range.mp hi)]

/-! ## Examples: three sites, one Gutzwiller class, distance classes, a ring as neighbour table -/

def demoProj : ProjPar where
  Nsite := 3
  NG := 1
  NJ := 2
  N2 := 1
  N4 := 1
  gIdx := fun _ => 0
  jIdx := fun a b => if a + b = 2 then 0 else 1
  dh2 := fun _ k => [1, 2, 2, 0, 0, 1].getD k 0
  dh4 := fun _ k => (k + 1) % 3

/-- a doublon at 0, a holon at 1, one up electron at 2 -/
def demoNum : Arr := fun k => [1, 0, 1, 1, 0, 0].getD k 0
/-- the up electron of site 0 hopped to site 1 -/
def demoNum' : Arr := fun k => [0, 1, 1, 1, 0, 0].getD k 0

example : TabOK demoProj := by
  constructor <;> decide

example : NumHop demoProj 0 1 0 0 demoNum demoNum' := by
  refine ⟨by decide, by decide, by decide, by decide, by decide, by decide, by decide, ?_⟩
  unfold Bin; decide

example : (List.range demoProj.NProj).map (makeProjCnt demoProj demoNum) =
    [1, 0, -1, 0, 0, 1, 1, 0, 0, 0, 0, 1, 0, 0, 1, 0, 0, 0, 0] := by decide
example : (List.range demoProj.NProj).map (updateProjCnt demoProj 0 1 (makeProjCnt demoProj demoNum) demoNum') =
    (List.range demoProj.NProj).map (makeProjCnt demoProj demoNum') := by decide
example : makeProjCnt demoProj demoNum 0 ≠ makeProjCnt demoProj demoNum' 0 := by decide

/-- hooks that carry exactly the counters, as the code does, and accept even draws -/
def cntHooks (q : ProjPar) : Hooks Arr Arr where
  propHop := fun c' h b => updateProjCnt q h.ri h.rj b c'.num
  propExch := fun c1 c2 h h2 b => updateProjCnt q h2.ri h2.rj (updateProjCnt q h.ri h.rj b c1.num) c2.num
  accept := fun _ _ u => u % 2 == 0
  commitHop := fun _ _ b g i => if i < q.NProj then g i else b i
  commitExch := fun _ _ _ b g i => if i < q.NProj then g i else b i
  refresh := fun _ b => b

example (q : ProjPar) : CountsProj q (cntHooks q) (fun b => b) (fun g => g) :=
  ⟨fun _ _ _ => rfl, fun _ _ _ _ _ => rfl, fun _ _ _ _ _ => rfl, fun _ _ _ _ _ _ => rfl, fun _ _ => rfl⟩

/-- one up electron at 0, one down electron at 2 -/
def projDemoCfg : EleCfg where
  idx := fun k => if k = 0 then 0 else 2
  cfg := fun k => if k = 0 then 0 else if k = 5 then 0 else -1
  num := fun k => if k = 0 then 1 else if k = 5 then 1 else 0

-- one accepted hop (up electron to site 1), then one accepted exchange; counters follow
example : ((innerLoop (cntHooks demoProj) ⟨1, 3, fun _ => 0, 1⟩ 2
    ⟨projDemoCfg, makeProjCnt demoProj projDemoCfg.num, 0, 0, 0, 0, 0⟩
    [4000000000, 0, 0, 1, 0,  0, 0, 0, 0, 0]).map
      (fun x => ((List.range 6).map x.1.c.num,
        (List.range demoProj.NProj).map x.1.b == (List.range demoProj.NProj).map (makeProjCnt demoProj x.1.c.num)))) =
    some ([0,0,1, 0,1,0], true) := by decide

end MVMC
