import Verif.Proof.MainCal
import Verif.Props.CalHam
import Verif.Props.Sampler
import Verif.Props.SamplerFsz
import Verif.Props.SplitLoop
import Verif.Props.PfUpdate

/-!
# C57: from the Monte-Carlo chain to the reported averages

The chain with all its data, the store, the loop over the stored samples on every process, the reduction over all processes.
-/
namespace MVMC
open Spec Finset

/-- `saved` is what one call of `VMCMakeSample` stores: it starts from a consistent configuration `c` with exact correlation counters on
which `CalculateMAll_fcmp` succeeds and the inner product does not vanish. -/
def StoredRun (g : GrnEnv) (lib : SkLib ℂ) (locSpn : Nat → Int) (exPath : Int) (burn : Bool) (warmUp nSample interval : Nat)
    (saved : List (Nat × SState SzMem)) : Prop :=
  ∃ (c : EleCfg) (pc : Arr) (rc : Nat → ℂ) (st0 : PfState ℂ) (b : SzMem) (nT : Nat) (rj : (Nat → ℂ) → (Nat → ℂ) → ℂ)
    (mF : EleCfg → SzMem → PfState ℂ × ℂ) (r r' : List Nat) (st' : SState SzMem),
    Consistent g.p.Ne g.p.Nsite c.idx c.cfg c.num ∧ LocalSingle g.p.Nsite locSpn c.num ∧
    (∀ i < g.q.NProj, pc i = makeProjCnt g.q c.num i) ∧ szStart g lib c pc rc st0 = some b ∧ b.ip ≠ 0 ∧
    vmcMakeSample (szHooks g lib nT rj mF) (g.szPar locSpn exPath) burn warmUp nSample interval c b r = some (st', saved, r')

/-- The same for `VMCMakeSample_fsz`. -/
def StoredRunF (g : GrnEnv) (lib : SkLib ℂ) (p : FPar) (burn : Bool) (warmUp nSample interval : Nat)
    (saved : List (Nat × FState SzMem)) : Prop :=
  ∃ (c : FCfg) (pc : Arr) (rc : Nat → ℂ) (st0 : PfState ℂ) (b : SzMem) (mF : FCfg → SzMem → PfState ℂ × ℂ) (r r' : List Nat) (st' : FState SzMem),
    ConsistentF (2 * g.p.Ne) g.p.Nsite c.idx c.spn c.cfg c.num ∧ LocalSingle g.p.Nsite p.locSpn c.num ∧
    (∀ i < g.q.NProj, pc i = makeProjCnt g.q c.num i) ∧ fszStart g lib c pc rc st0 = some b ∧ b.ip ≠ 0 ∧
    vmcMakeSampleF (fszHooks g lib mF) p burn warmUp nSample interval c b r = some (st', saved, r')

/-- mean of `F` over all stored samples of all `G` chains -/
noncomputable def meanOf {β : Type} (G n : Nat) (saved : Nat → List (Nat × β)) (F : β → ℂ) : ℂ :=
  (∑ γ ∈ range G, ((saved γ).map (fun x => F x.2)).sum) / ((G : ℂ) * n)

/-- C57: with a single projection (`NQPFull = 1`) no projected component can vanish on its own. -/
theorem C57_noZero_one (g : GrnEnv) (h : g.nQP = 1) : NoZero g := by
  intro rs _ _ hne q hq e
  have : q = 0 := by omega
  subst this
  apply hne
  unfold amplitude
  rw [h, sum_range_one, Nat.zero_add, e, mul_zero]

section sz
variable (g : GrnEnv) (hg : GrnOK g) (hr : g.flagRBM = true → GrnRBM g) (hz : NoZero g) (lib : SkLib ℂ) (hlib : LibOK lib) (htot : LibTotal lib)
  (hNe : 0 < g.p.Ne) (hNs : 0 < g.p.Nsite)
include hg hr hz hlib htot hNe hNs

/-- C57: every configuration that a call of `VMCMakeSample` stores has a non-vanishing trial amplitude, is consistent, and comes with the
exact correlation counters and hidden-unit inputs of that configuration. -/
theorem C57_stored (locSpn : Nat → Int) (exPath : Int) (burn : Bool) (warmUp nSample interval : Nat)
    (saved : List (Nat × SState SzMem)) (h : StoredRun g lib locSpn exPath burn warmUp nSample interval saved) :
    (saved.map Prod.fst).reverse = List.range nSample ∧
    ∀ x ∈ saved, Kept g x.2.c x.2.b.projCnt x.2.b.rbmCnt ∧ psi g (szList g x.2.c) ≠ 0 ∧ LocalSingle g.p.Nsite locSpn x.2.c.num := by
  obtain ⟨c, pc, rc, st0, b, nT, rj, mF, r, r', st', hc, hl, hp, hs, hne, e⟩ := h
  refine ⟨C18_slots_written_once_in_order _ _ _ _ _ _ _ _ _ _ _ _ e, ?_⟩
  have hi : SInv (g.szPar locSpn exPath) (SzCarry g) (⟨c, b, 0, 0, 0, 0, 0⟩ : SState SzMem) :=
    ⟨hc, hl, carry_of_start hg hlib hc hp hs hne, Nat.zero_le _, Nat.le_refl _, Nat.le_refl _⟩
  have := outerLoop_inv (szCarry_qok hg hlib htot hz hr nT rj mF locSpn exPath) hNe hNs _ _ _ _ _ hi (by simp) e
  intro x hx
  have hk := kept_of_carry (this.2 x hx).cons (this.2 x hx).q
  refine ⟨hk, ?_, (this.2 x hx).loc⟩
  obtain ⟨st, ip, hS⟩ := hk
  exact Sampled.list_ne (g := { g with st := st }) ⟨hg.hq, hg.tab, hg.skew⟩ (fun q => ⟨(hr q).hN, (hr q).tab, (hr q).blk, (hr q).cosh⟩) hS

section energy
variable (H : HamPar) (hH : HamIdx g.p.Nsite H) (hsz : HamSzConserving H) (T : GrnTab) (hT : GrnIdx g.p.Nsite T) (hTs : GrnSz T)
  (locSpn : Nat → Int) (exPath : Int) (mode warmUp nSample interval np S : Nat) (burn : Nat → Bool)
  (hn : 0 < nSample) (hnp : 0 < np) (hS : 0 < S) (saved : Nat → List (Nat × SState SzMem))
  (hrun : ∀ γ < groupCount np S, StoredRun g lib locSpn exPath (burn γ) warmUp nSample interval (saved γ))
  (S0 : Nat → EleStore) (o : Nat → Nat → MainOr EleCfg) (ho : ∀ k s, MainOrOK H T (o k s)) (a : Nat → PhysAcc)
include hH hsz hT hTs hn hnp hS hrun ho

/-- a quantity that every counted sample increases by `F` of its configuration is the sum over all chains after the reduction -/
theorem C57_sum (π : PhysAcc → ℂ) (F : List Nat → ℂ) (hclear : ∀ st l d, π (PhysAcc.clear st l d) = 0)
    (hstep : ∀ k (St : EleStore) a s, Counted g H (szList g (loadCfg g St s)) a (mainStep g H T lib mode St (o k) a s) →
      (mode = 1 → Measured g.p.Nsite T (psi g) (szList g (loadCfg g St s)) 1 a.grn (mainStep g H T lib mode St (o k) a s).grn) →
      π (mainStep g H T lib mode St (o k) a s) = π a + F (szList g (loadCfg g St s))) :
    sumLoop np (fun k => π (vmcMainCal g H T lib mode nSample (k % S) (groupSize np S (k / S)) (storeRun g (saved (k / S)) (S0 k)) (o k) (a k)))
      = ∑ γ ∈ range (groupCount np S), ((saved γ).map (fun x => F (szList g x.2.c))).sum := by
  have hstored := fun γ hγ => C57_stored g hg hr hz lib hlib htot hNe hNs locSpn exPath (burn γ) warmUp nSample interval (saved γ) (hrun γ hγ)
  -- the configuration in slot `s` of group `γ`
  have hslot : ∀ γ < groupCount np S, ∃ f : Nat → ℂ, ∀ x ∈ saved γ, f x.1 = F (szList g x.2.c) := by
    intro γ hγ
    have hnd := (nodup_saved (hstored γ hγ).1).1
    refine ⟨fun s => F (szList g (loadCfg g (storeRun g (saved γ) (S0 0)) s)), fun x hx => ?_⟩
    have hl := load_run g (saved γ) hnd (S0 0) hx
    simp only
    rw [(kept_congr hg hr hl.1 hl.2.1 hl.2.2.1 hl.2.2.2.1 hl.2.2.2.2 ((hstored γ hγ).2 x hx).1).2]
  choose! f hf using hslot
  rw [sumLoop_eq]
  have hone : ∀ k ∈ range np, π (vmcMainCal g H T lib mode nSample (k % S) (groupSize np S (k / S)) (storeRun g (saved (k / S)) (S0 k)) (o k) (a k))
      = ownShare (f (k / S)) (splitLoop nSample (k % S) (groupSize np S (k / S))) := by
    intro k hk
    obtain ⟨hγ, hrk⟩ := group_lt hS (mem_range.mp hk)
    obtain ⟨h1, h2⟩ := hstored _ hγ
    obtain ⟨hnd, _, hall⟩ := nodup_saved h1
    unfold vmcMainCal ownShare
    simp only
    rw [foldl_proj π _ (f (k / S)), hclear]
    intro s hs acc
    obtain ⟨x, hx, rfl⟩ := hall s (mem_split hrk hs)
    have hl := load_run g (saved (k / S)) hnd (S0 k) hx
    obtain ⟨hk1, hk2⟩ := kept_congr hg hr hl.1 hl.2.1 hl.2.2.1 hl.2.2.2.1 hl.2.2.2.2 (h2 x hx).1
    have hm := mainStep_kept hg hr hlib htot hH hsz hT hTs mode (a := acc) (ho k x.1) hk1
    rw [hstep k _ acc x.1 hm.1 hm.2, hk2, hf _ hγ x hx]
  rw [sum_congr rfl hone, sum_groups np S hS (fun γ r => ownShare (f γ) (splitLoop nSample r (groupSize np S γ)))]
  refine sum_congr rfl (fun γ hγ => ?_)
  have hγ := mem_range.mp hγ
  have hred := C02_reduce_eq_serial (f γ) nSample (groupSize np S γ) (groupSize_pos hS hγ)
  unfold reduceShares at hred
  rw [foldl_add_eq_sum (fun r => ownShare (f γ) (splitLoop nSample r (groupSize np S γ))), zero_add] at hred
  have e : ∑ r ∈ range (groupSize np S γ), ownShare (f γ) (splitLoop nSample r (groupSize np S γ))
      = ((List.range (groupSize np S γ)).map (fun r => ownShare (f γ) (splitLoop nSample r (groupSize np S γ)))).sum := rfl
  rw [e, hred]
  exact sum_saved (hstored γ hγ).1 (f γ) (fun st => F (szList g st.c)) (hf γ hγ)

/-- C57: after `WeightAverageWE`, on any number `np` of processes divided into groups of `NSplitSize = S`, `Wc` is the number of stored samples
of all groups, `Etot` is the mean over all of them of the local energy `⟨ψ|H|x⟩/⟨ψ|x⟩`, and `Etot2` the mean of its squared modulus. -/
theorem C57_energy :
    let avg := weightAverageWE np (fun k =>
      vmcMainCal g H T lib mode nSample (k % S) (groupSize np S (k / S)) (storeRun g (saved (k / S)) (S0 k)) (o k) (a k))
    avg.wc = (groupCount np S : ℂ) * nSample ∧
    avg.etot = meanOf (groupCount np S) nSample saved (fun st => energyOf (psi g) (hamTerms g.p.Nsite H) (szList g st.c)) ∧
    avg.etot2 = meanOf (groupCount np S) nSample saved (fun st =>
      ((‖energyOf (psi g) (hamTerms g.p.Nsite H) (szList g st.c)‖ ^ 2 : ℝ) : ℂ)) := by
  have key := C57_sum g hg hr hz lib hlib htot hNe hNs H hH hsz T hT hTs locSpn exPath mode warmUp nSample interval np S burn hn hnp hS saved hrun
    S0 o ho a
  have hw := key PhysAcc.wc (fun _ => 1) (fun _ _ _ => rfl) (fun k St a s h _ => h.wc)
  have he := key PhysAcc.etot (fun x => energyOf (psi g) (hamTerms g.p.Nsite H) x) (fun _ _ _ => rfl) (fun k St a s h _ => h.etot)
  have he2 := key PhysAcc.etot2 (fun x => ((‖energyOf (psi g) (hamTerms g.p.Nsite H) x‖ ^ 2 : ℝ) : ℂ)) (fun _ _ _ => rfl) (fun k St a s h _ => by
    rw [h.etot2, mul_comm ((starRingEnd ℂ) _), Complex.mul_conj, Complex.normSq_eq_norm_sq])
  have hcount : ∑ γ ∈ range (groupCount np S), ((saved γ).map (fun _ => (1 : ℂ))).sum = (groupCount np S : ℂ) * nSample := by
    rw [sum_congr rfl (fun γ hγ => ?_), sum_const, card_range, nsmul_eq_mul]
    have h1 := (C57_stored g hg hr hz lib hlib htot hNe hNs locSpn exPath (burn γ) warmUp nSample interval (saved γ) (hrun γ (mem_range.mp hγ))).1
    have h2 := (nodup_saved h1).2.1
    rw [List.map_const', List.sum_replicate, h2, nsmul_eq_mul, mul_one]
  rw [hcount] at hw
  refine ⟨hw, ?_, ?_⟩
  · simp only [weightAverageWE, meanOf]
    rw [hw, he, mul_one_div]
  · simp only [weightAverageWE, meanOf]
    rw [hw, he2, mul_one_div]

/-- C57: after `WeightAverageGreenFunc` (`NVMCCalMode = 1`) rank 0 holds, for every requested Green function, the mean over all stored samples of
all groups of `⟨ψ|O|x⟩/⟨ψ|x⟩`; for `CisAjsCktAlt` the mean of the product of the two one-body values. -/
theorem C57_green (hm : mode = 1) :
    let acc := fun k =>
      vmcMainCal g H T lib mode nSample (k % S) (groupSize np S (k / S)) (storeRun g (saved (k / S)) (S0 k)) (o k) (a k)
    let wc := (weightAverageWE np acc).wc
    (∀ i < T.n1, weightAverageGreen np wc (fun k => (acc k).grn.phys1) i =
      meanOf (groupCount np S) nSample saved (fun st => matrixElement (psi g) (grnOp1 g.p.Nsite T i) (szList g st.c))) ∧
    (∀ i < T.nDC, weightAverageGreen np wc (fun k => (acc k).grn.physDC) i =
      meanOf (groupCount np S) nSample saved (fun st => matrixElement (psi g) (grnOpDC g.p.Nsite T i) (szList g st.c))) ∧
    (∀ i < T.n2, weightAverageGreen np wc (fun k => (acc k).grn.phys2) i =
      meanOf (groupCount np S) nSample saved (fun st => matrixElement (psi g) (grnOp1 g.p.Nsite T (T.t2 i 0)) (szList g st.c) *
        (starRingEnd ℂ) (matrixElement (psi g) (grnOp1 g.p.Nsite T (T.t2 i 1)) (szList g st.c)))) := by
  have key := C57_sum g hg hr hz lib hlib htot hNe hNs H hH hsz T hT hTs locSpn exPath mode warmUp nSample interval np S burn hn hnp hS saved hrun
    S0 o ho a
  have hw := (C57_energy g hg hr hz lib hlib htot hNe hNs H hH hsz T hT hTs locSpn exPath mode warmUp nSample interval np S burn hn hnp hS saved hrun
    S0 o ho a).1
  intro acc wc
  have hw : wc = (groupCount np S : ℂ) * nSample := hw
  refine ⟨fun i hi => ?_, fun i hi => ?_, fun i hi => ?_⟩
  · have h := key (fun a => a.grn.phys1 i) (fun x => matrixElement (psi g) (grnOp1 g.p.Nsite T i) x) (fun _ _ _ => rfl)
      (fun k St a s _ h => by have := (h hm).one i hi; rw [this, Complex.ofReal_one, one_mul])
    unfold weightAverageGreen meanOf
    rw [hw, ← h, mul_one_div]
  · have h := key (fun a => a.grn.physDC i) (fun x => matrixElement (psi g) (grnOpDC g.p.Nsite T i) x) (fun _ _ _ => rfl)
      (fun k St a s _ h => by have := (h hm).two i hi; rw [this, Complex.ofReal_one, one_mul])
    unfold weightAverageGreen meanOf
    rw [hw, ← h, mul_one_div]
  · have h := key (fun a => a.grn.phys2 i) (fun x => matrixElement (psi g) (grnOp1 g.p.Nsite T (T.t2 i 0)) x *
        (starRingEnd ℂ) (matrixElement (psi g) (grnOp1 g.p.Nsite T (T.t2 i 1)) x)) (fun _ _ _ => rfl)
      (fun k St a s _ h => by have := (h hm).prod i hi; rw [this, Complex.ofReal_one, one_mul])
    unfold weightAverageGreen meanOf
    rw [hw, ← h, mul_one_div]

end energy

end sz

section fsz
variable (g : GrnEnv) (hg : GrnOK g) (hf : g.flagRBM = false) (hz : NoZero g) (lib : SkLib ℂ) (hlib : LibOK lib) (htot : LibTotal lib)
  (hNe : 0 < g.p.Ne) (hNs : 0 < g.p.Nsite) (p : FPar) (hp : p.pf = g.p) (hlb : ∀ r < p.Nsite, p.locSpn r = 0 ∨ p.locSpn r = 1)
include hg hf hz hlib htot hNe hNs hp hlb

/-- C57: the same for `VMCMakeSample_fsz`. -/
theorem C57_stored_fsz (burn : Bool) (warmUp nSample interval : Nat) (saved : List (Nat × FState SzMem))
    (h : StoredRunF g lib p burn warmUp nSample interval saved) :
    (saved.map Prod.fst).reverse = List.range nSample ∧
    ∀ x ∈ saved, KeptF g x.2.c x.2.b.projCnt ∧ psi g (fszList g x.2.c) ≠ 0 ∧ LocalSingle g.p.Nsite p.locSpn x.2.c.num := by
  have e1 : p.Ne = g.p.Ne := congrArg PfPar.Ne hp
  have e2 : p.Nsite = g.p.Nsite := congrArg PfPar.Nsite hp
  obtain ⟨c, pc, rc, st0, b, mF, r, r', st', hc, hl, hpc, hs, hne, e⟩ := h
  refine ⟨C18_slots_written_once_in_order_fsz _ _ _ _ _ _ _ _ _ _ _ _ e, ?_⟩
  have hc' : ConsF p c := by show ConsistentF (2 * p.Ne) p.Nsite _ _ _ _; rw [e1, e2]; exact hc
  have hi : FInv p (FszCarry g) (magnetisation p.Nsite c.num) (⟨c, b, 0, fun _ => 0⟩ : FState SzMem) :=
    ⟨hc', by rw [e2]; exact hl, carry_of_startF hg hlib hc hpc hs hne, Nat.zero_le _, fun _ _ => rfl, Nat.le_refl _, Nat.le_refl _, Nat.le_refl _⟩
  have := outerLoopF_inv (fszCarry_qok hg hlib htot hz mF p hp) (by rw [e1]; exact hNe) (by rw [e2]; exact hNs) hlb _ _ _ _ _ hi (by simp) e
  intro x hx
  have hcx : ConsistentF (2 * g.p.Ne) g.p.Nsite x.2.c.idx x.2.c.spn x.2.c.cfg x.2.c.num := by
    have : ConsistentF (2 * p.Ne) p.Nsite x.2.c.idx x.2.c.spn x.2.c.cfg x.2.c.num := (this.2 x hx).cons
    rw [e1, e2] at this; exact this
  have hk := keptF_of_carry hf hcx (this.2 x hx).q
  refine ⟨hk, ?_, by rw [← e2]; exact (this.2 x hx).loc⟩
  obtain ⟨st, ip, hS⟩ := hk
  exact SampledF.list_ne (g := { g with st := st }) ⟨hg.hq, hg.tab, hg.skew⟩ hS

section energy
variable (H : HamPar) (hH : HamIdx g.p.Nsite H) (T : GrnTab) (warmUp nSample interval np S : Nat) (burn : Nat → Bool)
  (hn : 0 < nSample) (hnp : 0 < np) (hS : 0 < S) (saved : Nat → List (Nat × FState SzMem))
  (hrun : ∀ γ < groupCount np S, StoredRunF g lib p (burn γ) warmUp nSample interval (saved γ))
  (S0 : Nat → EleStore) (o : Nat → Nat → MainOr FCfg) (ho : ∀ k s, MainOrOK H T (o k s)) (a : Nat → PhysAcc)
include hH hn hnp hS hrun ho

theorem C57_sum_fsz (π : PhysAcc → ℂ) (F : FCfg → ℂ) (hclear : ∀ st l d, π (PhysAcc.clear st l d) = 0)
    (hF : ∀ c c' : FCfg, fszList g c = fszList g c' → (∀ i < 2 * g.p.Nsite, c.num i = c'.num i) → F c = F c')
    (hstep : ∀ k (St : EleStore) a s, Counted g H (fszList g (loadCfgF g St s)) a (mainStepF g H lib St (o k) a s) ∧
      (mainStepF g H lib St (o k) a s).sz = a.sz + calculateSzF g.p.Nsite (loadCfgF g St s).num ∧
      (mainStepF g H lib St (o k) a s).sz2 = a.sz2 +
        (calculateSzF g.p.Nsite (loadCfgF g St s).num : ℂ) * calculateSzF g.p.Nsite (loadCfgF g St s).num →
      π (mainStepF g H lib St (o k) a s) = π a + F (loadCfgF g St s)) :
    sumLoop np (fun k => π (vmcMainCalF g H lib nSample (k % S) (groupSize np S (k / S)) (storeRunF g (saved (k / S)) (S0 k)) (o k) (a k)))
      = ∑ γ ∈ range (groupCount np S), ((saved γ).map (fun x => F x.2.c)).sum := by
  have hstored := fun γ hγ => C57_stored_fsz g hg hf hz lib hlib htot hNe hNs p hp hlb (burn γ) warmUp nSample interval (saved γ) (hrun γ hγ)
  have hslot : ∀ γ < groupCount np S, ∃ f : Nat → ℂ, ∀ x ∈ saved γ, f x.1 = F x.2.c := by
    intro γ hγ
    have hnd := (nodup_saved (hstored γ hγ).1).1
    refine ⟨fun s => F (loadCfgF g (storeRunF g (saved γ) (S0 0)) s), fun x hx => ?_⟩
    have hl := load_runF g (saved γ) hnd (S0 0) hx
    exact hF _ _ (keptF_congr hg hl.1 hl.2.1 hl.2.2.1 hl.2.2.2.1 hl.2.2.2.2 ((hstored γ hγ).2 x hx).1).2 hl.2.2.2.1
  choose! f hff using hslot
  rw [sumLoop_eq]
  have hone : ∀ k ∈ range np, π (vmcMainCalF g H lib nSample (k % S) (groupSize np S (k / S)) (storeRunF g (saved (k / S)) (S0 k)) (o k) (a k))
      = ownShare (f (k / S)) (splitLoop nSample (k % S) (groupSize np S (k / S))) := by
    intro k hk
    obtain ⟨hγ, hrk⟩ := group_lt hS (mem_range.mp hk)
    obtain ⟨h1, h2⟩ := hstored _ hγ
    obtain ⟨hnd, _, hall⟩ := nodup_saved h1
    unfold vmcMainCalF ownShare
    simp only
    rw [foldl_proj π _ (f (k / S)), hclear]
    intro s hs acc
    obtain ⟨x, hx, rfl⟩ := hall s (mem_split hrk hs)
    have hl := load_runF g (saved (k / S)) hnd (S0 k) hx
    obtain ⟨hk1, hk2⟩ := keptF_congr hg hl.1 hl.2.1 hl.2.2.1 hl.2.2.2.1 hl.2.2.2.2 (h2 x hx).1
    obtain ⟨nT, _, o1, o2, _⟩ := ho k x.1
    have hm := mainStepF_kept hg hlib htot hH (a := acc) (s := x.1) o1 o2 hk1
    rw [hstep k _ acc x.1 hm, hF _ _ hk2 hl.2.2.2.1, hff _ hγ x hx]
  rw [sum_congr rfl hone, sum_groups np S hS (fun γ r => ownShare (f γ) (splitLoop nSample r (groupSize np S γ)))]
  refine sum_congr rfl (fun γ hγ => ?_)
  have hγ := mem_range.mp hγ
  have hred := C02_reduce_eq_serial (f γ) nSample (groupSize np S γ) (groupSize_pos hS hγ)
  unfold reduceShares at hred
  rw [foldl_add_eq_sum (fun r => ownShare (f γ) (splitLoop nSample r (groupSize np S γ))), zero_add] at hred
  have e : ∑ r ∈ range (groupSize np S γ), ownShare (f γ) (splitLoop nSample r (groupSize np S γ))
      = ((List.range (groupSize np S γ)).map (fun r => ownShare (f γ) (splitLoop nSample r (groupSize np S γ)))).sum := rfl
  rw [e, hred]
  exact sum_saved (hstored γ hγ).1 (f γ) (fun st => F st.c) (hff γ hγ)

/-- C57 in general-Sz mode: additionally `Sztot` is the mean of the magnetisation `N↑-N↓` and `Sztot2` that of its square. -/
theorem C57_energy_fsz :
    let avg := weightAverageWE np (fun k =>
      vmcMainCalF g H lib nSample (k % S) (groupSize np S (k / S)) (storeRunF g (saved (k / S)) (S0 k)) (o k) (a k))
    avg.wc = (groupCount np S : ℂ) * nSample ∧
    avg.etot = meanOf (groupCount np S) nSample saved (fun st => energyOf (psi g) (hamTerms g.p.Nsite H) (fszList g st.c)) ∧
    avg.etot2 = meanOf (groupCount np S) nSample saved (fun st =>
      ((‖energyOf (psi g) (hamTerms g.p.Nsite H) (fszList g st.c)‖ ^ 2 : ℝ) : ℂ)) ∧
    avg.sz = meanOf (groupCount np S) nSample saved (fun st => ((magnetisation g.p.Nsite st.c.num : Int) : ℂ)) ∧
    avg.sz2 = meanOf (groupCount np S) nSample saved (fun st => ((magnetisation g.p.Nsite st.c.num : Int) : ℂ) ^ 2) := by
  have key := C57_sum_fsz g hg hf hz lib hlib htot hNe hNs p hp hlb H hH T warmUp nSample interval np S burn hn hnp hS saved hrun S0 o ho a
  have hmag : ∀ c c' : FCfg, (∀ i < 2 * g.p.Nsite, c.num i = c'.num i) →
      ((magnetisation g.p.Nsite c.num : Int) : ℂ) = ((magnetisation g.p.Nsite c'.num : Int) : ℂ) := by
    intro c c' h
    have : ((magnetisation g.p.Nsite c.num : Int) : ℝ) = ((magnetisation g.p.Nsite c'.num : Int) : ℝ) := by
      rw [← C27_sz, ← C27_sz, calculateSzF_congr h]
    have := Int.cast_injective (α := ℝ) this
    rw [this]
  have hcast : ∀ num, ((calculateSzF g.p.Nsite num : ℝ) : ℂ) = ((magnetisation g.p.Nsite num : Int) : ℂ) := by
    intro num; rw [C27_sz]; norm_cast
  have hw := key PhysAcc.wc (fun _ => 1) (fun _ _ _ => rfl) (fun _ _ _ _ => rfl) (fun k St a s h => h.1.wc)
  have he := key PhysAcc.etot (fun c => energyOf (psi g) (hamTerms g.p.Nsite H) (fszList g c)) (fun _ _ _ => rfl)
    (fun _ _ h _ => by rw [h]) (fun k St a s h => h.1.etot)
  have he2 := key PhysAcc.etot2 (fun c => ((‖energyOf (psi g) (hamTerms g.p.Nsite H) (fszList g c)‖ ^ 2 : ℝ) : ℂ)) (fun _ _ _ => rfl)
    (fun _ _ h _ => by rw [h]) (fun k St a s h => by
      rw [h.1.etot2, mul_comm ((starRingEnd ℂ) _), Complex.mul_conj, Complex.normSq_eq_norm_sq])
  have hs1 := key PhysAcc.sz (fun c => ((magnetisation g.p.Nsite c.num : Int) : ℂ)) (fun _ _ _ => rfl)
    (fun c c' _ h => hmag c c' h) (fun k St a s h => by rw [h.2.1, hcast])
  have hs2 := key PhysAcc.sz2 (fun c => ((magnetisation g.p.Nsite c.num : Int) : ℂ) ^ 2) (fun _ _ _ => rfl)
    (fun c c' _ h => by rw [hmag c c' h]) (fun k St a s h => by rw [h.2.2, hcast, sq])
  have hcount : ∑ γ ∈ range (groupCount np S), ((saved γ).map (fun _ => (1 : ℂ))).sum = (groupCount np S : ℂ) * nSample := by
    rw [sum_congr rfl (fun γ hγ => ?_), sum_const, card_range, nsmul_eq_mul]
    have h1 := (C57_stored_fsz g hg hf hz lib hlib htot hNe hNs p hp hlb (burn γ) warmUp nSample interval (saved γ) (hrun γ (mem_range.mp hγ))).1
    have h2 := (nodup_saved h1).2.1
    rw [List.map_const', List.sum_replicate, h2, nsmul_eq_mul, mul_one]
  rw [hcount] at hw
  refine ⟨hw, ?_, ?_, ?_, ?_⟩ <;> simp only [weightAverageWE, meanOf] <;> rw [hw]
  · rw [he, mul_one_div]
  · rw [he2, mul_one_div]
  · rw [hs1, mul_one_div]
  · rw [hs2, mul_one_div]

end energy

end fsz

/-! ### a start on a zero of the trial state -/

/-- C57, finding: if the inner product of the start configuration vanishes (the code tries a second random configuration and then goes on
without checking), every proposal is rejected and every stored sample is the start configuration, for every sequence of random numbers. -/
theorem C57_stuck (g : GrnEnv) (lib : SkLib ℂ) (hNe : 0 < g.p.Ne) (hNs : 0 < g.p.Nsite) (nT : Nat) (rj : (Nat → ℂ) → (Nat → ℂ) → ℂ)
    (mF : EleCfg → SzMem → PfState ℂ × ℂ) (locSpn : Nat → Int) (exPath : Int) (burn : Bool) (warmUp nSample interval : Nat) (c : EleCfg)
    (b : SzMem) (r r' : List Nat) (st' : SState SzMem) (saved : List (Nat × SState SzMem))
    (hc : Consistent g.p.Ne g.p.Nsite c.idx c.cfg c.num) (h0 : b.ip = 0)
    (e : vmcMakeSample (szHooks g lib nT rj mF) (g.szPar locSpn exPath) burn warmUp nSample interval c b r = some (st', saved, r')) :
    st'.c = c ∧ ∀ x ∈ saved, x.2.c = c := by
  have h := C18_slot_times _ _ _ _ _ _ _ _ _ _ _ _ e
  have h00 : ChainStuck g c (⟨c, b, 0, 0, 0, 0, 0⟩ : SState SzMem) := ⟨rfl, h0, rfl⟩
  refine ⟨(innerLoop_stuck hNe hNs hc _ h00 h.2).1, fun x hx => ?_⟩
  obtain ⟨r1, h1⟩ := h.1 x hx
  exact (innerLoop_stuck hNe hNs hc _ h00 h1).1

/-! ### a concrete run -/

/-- the start succeeds on a usable configuration -/
theorem start_of_kept {g : GrnEnv} (hg : GrnOK g) {lib : SkLib ℂ} (hlib : LibOK lib) (htot : LibTotal lib) {c : EleCfg} {pc : Arr} {rc : Nat → ℂ}
    (h : Kept g c pc rc) (st0 : PfState ℂ) : ∃ b, szStart g lib c pc rc st0 = some b ∧ b.ip ≠ 0 := by
  obtain ⟨st1, ip, h⟩ := h
  have hcs : Cons g.sp c := h.cons
  have hrs : ∀ i, i < g.p.Nsize → rsSz g.p c.idx i < g.p.Nsite2 := by
    intro i hi
    rw [rsSz_occ _ hi]
    exact occ_lt (onSites_of_cons hcs) hi
  have hrs' : ∀ i, i < 2 * g.p.Ne → rsSz g.p c.idx i = occSz g.p.Ne g.p.Nsite c.idx i := fun i hi => rsSz_occ (p := g.p) _ hi
  have hsk : ∀ q, q < g.nQP - 0 → SlaterSkew g.p.Nsite2 g.slt (q + 0) := fun q hq => hg.skew q (by omega)
  obtain ⟨st, hst⟩ := calculateMAll_total (p := g.p) htot st0 hsk hrs (fun q => entry g.p.Nsize st1.invM q)
    (fun q hqq => isInv_congr (fun i hi => (hrs' i hi).symm) (fun _ _ _ _ => rfl) (fun _ _ _ _ => rfl) (h.pf q (by omega)).2)
  have hok := pfOK_congr hrs' (calculateMAll_ok (p := g.p) hlib hsk hrs hst)
  unfold szStart
  rw [hst]
  refine ⟨_, rfl, ?_⟩
  show calculateIPLocal g.w st.pfM 0 g.nQP ≠ 0
  have : calculateIPLocal g.w st.pfM 0 g.nQP = ip := by
    rw [h.hip]
    exact calculateIPLocal_eq (fun q hqq => (hok q hqq).1)
  rw [this]
  exact h.hne

/-- Two samples of the two-site example: 32 draws of 0 propose occupied targets until the candidate is given up. -/
theorem exChain (lib : SkLib ℂ) (hlib : LibOK lib) (htot : LibTotal lib) : ∃ saved, StoredRun exEnv lib (fun _ => 0) 0 false 0 2 1 saved ∧
    saved.map (fun x => (x.1, szList exEnv x.2.c)) = [(1, [0, 3]), (0, [0, 3])] := by
  obtain ⟨b, hb, hne⟩ := start_of_kept exEnv_ok hlib htot ⟨_, _, exSampled⟩ ⟨fun _ => 0, fun _ => 0⟩
  refine ⟨_, ⟨exCfg, fun _ => 0, fun _ => 0, _, b, 1, fun _ _ => 0, fun _ b => (b.ps, b.ip), List.replicate 32 0, [], ⟨exCfg, b, 0, 4, 0, 0, 0⟩,
    exSampled.cons, ?_, fun i hi => absurd hi (Nat.not_lt_zero i), hb, hne, rfl⟩, ?_⟩
  · intro r hr h; simp at h
  · rfl

/-- Three processes in groups of two (so one group is smaller), two samples per group: `Wc = 4` and the reported energy is the local energy
`5 + 3i` of the example configuration, whatever the workspaces contained. -/
example (lib : SkLib ℂ) (hlib : LibOK lib) (htot : LibTotal lib) (S0 : Nat → EleStore) (j : Nat → EleCfg) (a : Nat → PhysAcc) :
    ∃ saved : Nat → List (Nat × SState SzMem), (∀ γ, StoredRun exEnv lib (fun _ => 0) 0 false 0 2 1 (saved γ)) ∧
    let avg := weightAverageWE 3 (fun k => vmcMainCal exEnv exHam ⟨0, fun _ _ => 0, 0, fun _ _ => 0, 0, fun _ _ => 0⟩ lib 0 2 (k % 2)
      (groupSize 3 2 (k / 2)) (storeRun exEnv (saved (k / 2)) (S0 k))
      (fun _ => ⟨fun _ i => i % 2, [1, 0], j, fun _ _ => 0, [0], [0], j, ⟨fun _ => 0, fun _ => 0⟩, none, id⟩) (a k))
    avg.wc = 4 ∧ avg.etot = 5 + 3 * Complex.I := by
  obtain ⟨saved, hrun, hl⟩ := exChain lib hlib htot
  refine ⟨fun _ => saved, fun _ => hrun, ?_⟩
  have m : ∀ i, i % 2 < 2 := fun i => Nat.mod_lt _ (by decide)
  have hE : energyOf (psi exEnv) (hamTerms exEnv.p.Nsite exHam) [0, 3] = 5 + 3 * Complex.I := by
    have c : corrSpec exEnv = fun _ => 1 := by
      funext num
      simp [corrSpec, projSpec, exEnv, logCorr]
    have e2 : (starRingEnd ℂ) 2 = 2 := Complex.conj_ofReal 2
    have e6 : (starRingEnd ℂ) 6 = 6 := Complex.conj_ofReal 6
    simp only [energyOf, hamTerms, exHam, List.range_succ, List.range_zero, List.flatMap_cons, List.flatMap_nil,
      List.nil_append, List.append_nil, termCoulombIntra, termCoulombInter, termTransfer, numOp, matrixElement, psi, c, List.cons_append]
    simp [actAll, Op.act, exEnv, overlap, pf, pfN, altSum, entry, waveFunction, e2, e6]
    ring
  have h := C57_energy exEnv exEnv_ok (fun h => absurd h (by decide)) (C57_noZero_one _ rfl) lib hlib htot (by decide) (by decide) exHam
    ⟨fun i hi => hi, fun i hi => ⟨show 0 < 2 by decide, show 1 < 2 by decide⟩, fun i hi => absurd hi (Nat.not_lt_zero i),
      fun i hi => ⟨show 1 < 2 by decide, show 0 < 2 by decide, show 0 < 2 by decide, show 0 < 2 by decide⟩,
      fun i hi => absurd hi (Nat.not_lt_zero i), fun i hi => absurd hi (Nat.not_lt_zero i), fun i hi => absurd hi (Nat.not_lt_zero i)⟩
    ⟨fun i hi => rfl, fun i hi => absurd hi (Nat.not_lt_zero i)⟩
    ⟨0, fun _ _ => 0, 0, fun _ _ => 0, 0, fun _ _ => 0⟩
    ⟨fun i hi => absurd hi (Nat.not_lt_zero i), fun i hi => absurd hi (Nat.not_lt_zero i), fun i hi => absurd hi (Nat.not_lt_zero i)⟩
    ⟨fun i hi => absurd hi (Nat.not_lt_zero i), fun i hi => absurd hi (Nat.not_lt_zero i)⟩
    (fun _ => 0) 0 0 0 2 1 3 2 (fun _ => false) (by decide) (by decide) (by decide) (fun _ => saved) (fun _ _ => hrun) S0
    (fun _ _ => ⟨fun _ i => i % 2, [1, 0], j, fun _ _ => 0, [0], [0], j, ⟨fun _ => 0, fun _ => 0⟩, none, id⟩)
    (fun _ _ => ⟨2, 1, ⟨fun i _ => m i, fun i _ => m i, fun i _ => m i, fun i _ => m i, fun i _ => m i, fun i _ => m i, fun i _ => m i⟩,
      show [1, 0].Perm (List.range 2) by decide,
      ⟨fun _ _ => Nat.one_pos, fun _ _ => Nat.one_pos, fun _ _ => Nat.one_pos, fun _ _ => Nat.one_pos, fun _ _ => Nat.one_pos⟩,
      show [0].Perm (List.range 1) by decide, show [0].Perm (List.range 1) by decide⟩) a
  refine ⟨h.1.trans ?_, h.2.1.trans ?_⟩
  · rw [show groupCount 3 2 = 2 from rfl]; norm_num
  · have hsum : (saved.map (fun x => energyOf (psi exEnv) (hamTerms exEnv.p.Nsite exHam) (szList exEnv x.2.c))).sum
        = 2 * (5 + 3 * Complex.I) := by
      have : saved.map (fun x => energyOf (psi exEnv) (hamTerms exEnv.p.Nsite exHam) (szList exEnv x.2.c))
          = (saved.map (fun x => (x.1, szList exEnv x.2.c))).map (fun y => energyOf (psi exEnv) (hamTerms exEnv.p.Nsite exHam) y.2) := by
        rw [List.map_map]; rfl
      rw [this, hl]
      simp only [List.map_cons, List.map_nil, List.sum_cons, List.sum_nil, hE]
      ring
    unfold meanOf
    rw [show groupCount 3 2 = 2 from rfl]
    simp only [hsum, sum_const, card_range, nsmul_eq_mul]
    push_cast
    ring

end MVMC
