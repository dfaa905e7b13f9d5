import Verif.Model.MainCalF
import Verif.Props.GreenMean

/-! # Green functions of a general-Sz run (C57, C73) -/
namespace MVMC
open MVMC.Spec Finset

/-- No thread stores the shared loop variables between another thread's fetch and evaluation; every iteration is executed once. -/
def NoRace (T : GrnTab) (e : GrnOrF) : Prop :=
  ∃ its its' : List (Nat × Nat), (its.map (·.2)).Perm (List.range T.n1) ∧ (its'.map (·.2)).Perm (List.range T.nDC) ∧
    e.evs = its.flatMap (fun x => [GrnEv.fetch1 x.1 x.2, .eval1 x.1 x.2]) ++ its'.flatMap (fun x => [GrnEv.fetch2 x.1 x.2, .eval2 x.1 x.2])

/-- one thread -/
theorem noRace_one (T : GrnTab) (t u v : Nat) : NoRace T ⟨grnProgram T (fun _ _ => 0) 0, t, u, v⟩ := by
  refine ⟨(List.range T.n1).map (fun i => (0, i)), (List.range T.nDC).map (fun i => (0, i)), by simp [Function.comp_def], by simp [Function.comp_def], ?_⟩
  simp [grnProgram, List.flatMap_map]

-- two threads, one line each, in either order; not the execution of the race
example : NoRace raceTab ⟨[.fetch1 1 1, .eval1 1 1, .fetch1 0 0, .eval1 0 0], 0, 0, 0⟩ :=
  ⟨[(1, 1), (0, 0)], [], by decide, by decide, rfl⟩

theorem mainStepGF_kept {g : GrnEnv} (hg : GrnOK g) {lib : SkLib ℂ} (hlib : LibOK lib) (htot : LibTotal lib)
    {H : HamPar} (hH : HamIdx g.p.Nsite H) {T : GrnTab} (hT : GrnIdx g.p.Nsite T)
    {S : EleStore} {o : Nat → MainOr FCfg} {e : Nat → GrnOrF} {a : PhysAcc} {s : Nat} (ho : MainOrOK H T (o s)) (he : NoRace T (e s))
    (hk : KeptF g (loadCfgF g S s) (loadProj g S s)) :
    Counted g H (fszList g (loadCfgF g S s)) a (mainStepGF g H T lib S o e a s) ∧
    Measured g.p.Nsite T (psi g) (fszList g (loadCfgF g S s)) 1 a.grn (mainStepGF g H T lib S o e a s).grn := by
  obtain ⟨nT, nT', o1, o2, o3, o4, o5⟩ := ho
  have hc := (mainStepF_kept hg hlib htot hH (a := a) o1 o2 hk).1
  obtain ⟨its, its', i1, i2, i3⟩ := he
  obtain ⟨st0, ip0, h⟩ := hk
  have hcs : ConsF g.fp (loadCfgF g S s) := h.cons
  have hrs : ∀ i, i < g.p.Nsize → rsFsz g.p (loadCfgF g S s).idx (loadCfgF g S s).spn i < g.p.Nsite2 := by
    intro i hi
    rw [rsFsz_occ (p := g.p) (spins_of_consF hcs) hi]
    exact occF_lt (onSites_of_consF hcs) hi
  have hrs' : ∀ i, i < 2 * g.p.Ne → rsFsz g.p (loadCfgF g S s).idx (loadCfgF g S s).spn i
      = occF g.p.Nsite (loadCfgF g S s).idx (loadCfgF g S s).spn i :=
    fun i hi => rsFsz_occ (p := g.p) (spins_of_consF hcs) hi
  have hsk : ∀ q, q < g.nQP - 0 → SlaterSkew g.p.Nsite2 g.slt (q + 0) := fun q hq => hg.skew q (by omega)
  obtain ⟨st, hst⟩ := calculateMAll_total (p := g.p) htot a.st hsk hrs (fun q => entry g.p.Nsize st0.invM q)
    (fun q hqq => isInv_congr (fun i hi => (hrs' i hi).symm) (fun _ _ _ _ => rfl) (fun _ _ _ _ => rfl) (h.pf q (by omega)).2)
  have hok := pfOK_congr hrs' (calculateMAll_ok (p := g.p) hlib hsk hrs hst)
  have hip : calculateIPLocal g.w st.pfM 0 g.nQP = ip0 := by
    rw [h.hip]
    exact calculateIPLocal_eq (fun q hqq => (hok q hqq).1)
  have hS : SampledF { g with st := st } (loadCfgF g S s) ip0 (loadProj g S s) :=
    ⟨h.cons, hok, h.hip, h.hne, h.proj, h.noRBM⟩
  have hg' : GrnOK { g with st := st } := ⟨hg.hq, hg.tab, hg.skew⟩
  have hG := calculateGreenFuncF_val hg' hS hT 1 o3 o5 i1 i2 (o s).gJunk (e s).t₀ (e s).u₀ (e s).v₀ a.grn
  have hgrn : (mainStepF g H lib S o a s).grn = a.grn := by
    unfold mainStepF
    simp only [hst, hip, if_neg h.hne, addE]
  unfold mainStepGF
  simp only [hst, hip, if_neg h.hne, hgrn, i3]
  exact ⟨⟨hc.wc, hc.etot, hc.etot2⟩, hG⟩

section fsz
variable (g : GrnEnv) (hg : GrnOK g) (hf : g.flagRBM = false) (hz : NoZero g) (lib : SkLib ℂ) (hlib : LibOK lib) (htot : LibTotal lib)
  (hNe : 0 < g.p.Ne) (hNs : 0 < g.p.Nsite) (p : FPar) (hp : p.pf = g.p) (hlb : ∀ r < p.Nsite, p.locSpn r = 0 ∨ p.locSpn r = 1)
  (H : HamPar) (hH : HamIdx g.p.Nsite H) (T : GrnTab) (hT : GrnIdx g.p.Nsite T) (warmUp nSample interval np S : Nat) (burn : Nat → Bool)
  (hS : 0 < S) (saved : Nat → List (Nat × FState SzMem))
  (hrun : ∀ γ < groupCount np S, StoredRunF g lib p (burn γ) warmUp nSample interval (saved γ))
  (S0 : Nat → EleStore) (o : Nat → Nat → MainOr FCfg) (ho : ∀ k s, MainOrOK H T (o k s)) (e : Nat → Nat → GrnOrF) (he : ∀ k s, NoRace T (e k s))
  (a : Nat → PhysAcc)
include hg hf hz hlib htot hNe hNs hp hlb hH hT hS hrun ho he

theorem green_sum_fsz (π : PhysAcc → ℂ) (F : List Nat → ℂ) (hclear : ∀ st l d, π (PhysAcc.clear st l d) = 0)
    (hstep : ∀ k (St : EleStore) a s, Counted g H (fszList g (loadCfgF g St s)) a (mainStepGF g H T lib St (o k) (e k) a s) →
      Measured g.p.Nsite T (psi g) (fszList g (loadCfgF g St s)) 1 a.grn (mainStepGF g H T lib St (o k) (e k) a s).grn →
      π (mainStepGF g H T lib St (o k) (e k) a s) = π a + F (fszList g (loadCfgF g St s))) :
    sumLoop np (fun k => π (vmcMainCalGF g H T lib nSample (k % S) (groupSize np S (k / S)) (storeRunF g (saved (k / S)) (S0 k)) (o k) (e k) (a k)))
      = ∑ γ ∈ range (groupCount np S), ((saved γ).map (fun x => F (fszList g x.2.c))).sum := by
  have hstored := fun γ hγ => C57_stored_fsz g hg hf hz lib hlib htot hNe hNs p hp hlb (burn γ) warmUp nSample interval (saved γ) (hrun γ hγ)
  have hslot : ∀ γ < groupCount np S, ∃ f : Nat → ℂ, ∀ x ∈ saved γ, f x.1 = F (fszList g x.2.c) := by
    intro γ hγ
    have hnd := (nodup_saved (hstored γ hγ).1).1
    refine ⟨fun s => F (fszList g (loadCfgF g (storeRunF g (saved γ) (S0 0)) s)), fun x hx => ?_⟩
    have hl := load_runF g (saved γ) hnd (S0 0) hx
    exact congrArg F (keptF_congr hg hl.1 hl.2.1 hl.2.2.1 hl.2.2.2.1 hl.2.2.2.2 ((hstored γ hγ).2 x hx).1).2
  choose! f hff using hslot
  rw [sumLoop_eq]
  have hone : ∀ k ∈ range np, π (vmcMainCalGF g H T lib nSample (k % S) (groupSize np S (k / S)) (storeRunF g (saved (k / S)) (S0 k)) (o k) (e k) (a k))
      = ownShare (f (k / S)) (splitLoop nSample (k % S) (groupSize np S (k / S))) := by
    intro k hk
    obtain ⟨hγ, hrk⟩ := group_lt hS (mem_range.mp hk)
    obtain ⟨h1, h2⟩ := hstored _ hγ
    obtain ⟨hnd, _, hall⟩ := nodup_saved h1
    unfold vmcMainCalGF ownShare
    simp only
    rw [foldl_proj π _ (f (k / S)), hclear]
    intro s hs acc
    obtain ⟨x, hx, rfl⟩ := hall s (mem_split hrk hs)
    have hl := load_runF g (saved (k / S)) hnd (S0 k) hx
    obtain ⟨hk1, hk2⟩ := keptF_congr hg hl.1 hl.2.1 hl.2.2.1 hl.2.2.2.1 hl.2.2.2.2 (h2 x hx).1
    have hm := mainStepGF_kept hg hlib htot hH hT (a := acc) (s := x.1) (ho k x.1) (he k x.1) hk1
    rw [hstep k _ acc x.1 hm.1 hm.2, hk2, hff _ hγ x hx]
  rw [sum_congr rfl hone, sum_groups np S hS (fun γ r => ownShare (f γ) (splitLoop nSample r (groupSize np S γ)))]
  refine sum_congr rfl (fun γ hγ => ?_)
  have hγ := mem_range.mp hγ
  have hred := C02_reduce_eq_serial (f γ) nSample (groupSize np S γ) (groupSize_pos hS hγ)
  unfold reduceShares at hred
  rw [foldl_add_eq_sum (fun r => ownShare (f γ) (splitLoop nSample r (groupSize np S γ))), zero_add] at hred
  have e : ∑ r ∈ range (groupSize np S γ), ownShare (f γ) (splitLoop nSample r (groupSize np S γ))
      = ((List.range (groupSize np S γ)).map (fun r => ownShare (f γ) (splitLoop nSample r (groupSize np S γ)))).sum := rfl
  rw [e, hred]
  exact sum_saved (hstored γ hγ).1 (f γ) (fun st => F (fszList g st.c)) (hff γ hγ)

/-- C57 in general-Sz mode: the Green functions on rank 0 after `WeightAverageGreenFunc` are the means over all stored samples, for executions in which
no thread overwrites the shared loop variables of another. Missing: the other executions (`C49_fsz_race_witness`). -/
theorem C57_green_fsz_partial :
    let acc := fun k =>
      vmcMainCalGF g H T lib nSample (k % S) (groupSize np S (k / S)) (storeRunF g (saved (k / S)) (S0 k)) (o k) (e k) (a k)
    let wc := (weightAverageWE np acc).wc
    (∀ i < T.n1, weightAverageGreen np wc (fun k => (acc k).grn.phys1) i =
      meanOf (groupCount np S) nSample saved (fun st => matrixElement (psi g) (grnOp1 g.p.Nsite T i) (fszList g st.c))) ∧
    (∀ i < T.nDC, weightAverageGreen np wc (fun k => (acc k).grn.physDC) i =
      meanOf (groupCount np S) nSample saved (fun st => matrixElement (psi g) (grnOpDC g.p.Nsite T i) (fszList g st.c))) ∧
    (∀ i < T.n2, weightAverageGreen np wc (fun k => (acc k).grn.phys2) i =
      meanOf (groupCount np S) nSample saved (fun st => matrixElement (psi g) (grnOp1 g.p.Nsite T (T.t2 i 0)) (fszList g st.c) *
        (starRingEnd ℂ) (matrixElement (psi g) (grnOp1 g.p.Nsite T (T.t2 i 1)) (fszList g st.c)))) := by
  have key := green_sum_fsz g hg hf hz lib hlib htot hNe hNs p hp hlb H hH T hT warmUp nSample interval np S burn hS saved hrun S0 o ho e he a
  have hw := key PhysAcc.wc (fun _ => 1) (fun _ _ _ => rfl) (fun k St a s h _ => h.wc)
  have hcount : ∑ γ ∈ range (groupCount np S), ((saved γ).map (fun _ => (1 : ℂ))).sum = (groupCount np S : ℂ) * nSample := by
    rw [sum_congr rfl (fun γ hγ => ?_), sum_const, card_range, nsmul_eq_mul]
    have h1 := (C57_stored_fsz g hg hf hz lib hlib htot hNe hNs p hp hlb (burn γ) warmUp nSample interval (saved γ) (hrun γ (mem_range.mp hγ))).1
    have h2 := (nodup_saved h1).2.1
    rw [List.map_const', List.sum_replicate, h2, nsmul_eq_mul, mul_one]
  rw [hcount] at hw
  intro acc wc
  have hw : wc = (groupCount np S : ℂ) * nSample := hw
  refine ⟨fun i hi => ?_, fun i hi => ?_, fun i hi => ?_⟩
  · have h := key (fun a => a.grn.phys1 i) (fun x => matrixElement (psi g) (grnOp1 g.p.Nsite T i) x) (fun _ _ _ => rfl)
      (fun k St a s _ h => by have := h.one i hi; rw [this, Complex.ofReal_one, one_mul])
    unfold weightAverageGreen meanOf
    rw [hw, ← h, mul_one_div]
  · have h := key (fun a => a.grn.physDC i) (fun x => matrixElement (psi g) (grnOpDC g.p.Nsite T i) x) (fun _ _ _ => rfl)
      (fun k St a s _ h => by have := h.two i hi; rw [this, Complex.ofReal_one, one_mul])
    unfold weightAverageGreen meanOf
    rw [hw, ← h, mul_one_div]
  · have h := key (fun a => a.grn.phys2 i) (fun x => matrixElement (psi g) (grnOp1 g.p.Nsite T (T.t2 i 0)) x *
        (starRingEnd ℂ) (matrixElement (psi g) (grnOp1 g.p.Nsite T (T.t2 i 1)) x)) (fun _ _ _ => rfl)
      (fun k St a s _ h => by have := h.prod i hi; rw [this, Complex.ofReal_one, one_mul])
    unfold weightAverageGreen meanOf
    rw [hw, ← h, mul_one_div]

/-- C73, general Sz, for the same executions: every line that rank 0 writes holds the mean of the local value of the operators that its own indices name. -/
theorem C73_written_fsz_partial :
    let acc := fun k =>
      vmcMainCalGF g H T lib nSample (k % S) (groupSize np S (k / S)) (storeRunF g (saved (k / S)) (S0 k)) (o k) (e k) (a k)
    let wc := (weightAverageWE np acc).wc
    let f1 := outCisAjs T (weightAverageGreen np wc fun k => (acc k).grn.phys1)
    let f2 := outCisAjsCktAltDC T (weightAverageGreen np wc fun k => (acc k).grn.physDC)
    let f3 := outCisAjsCktAlt T (weightAverageGreen np wc fun k => (acc k).grn.phys2)
    f1.length = T.n1 ∧ f2.length = T.nDC ∧
    (∀ x ∈ f1 ++ f2, lineValue x =
      meanOf (groupCount np S) nSample saved (fun st => matrixElement (psi g) (labelOps g.p.Nsite x.1) (fszList g st.c))) ∧
    f3.length = 2 * T.n2 ∧
    ∀ i < T.n2, ∃ z : ℂ, f3[2 * i]? = some z.re ∧ f3[2 * i + 1]? = some z.im ∧
      z = meanOf (groupCount np S) nSample saved (fun st => matrixElement (psi g) (grnOp1 g.p.Nsite T (T.t2 i 0)) (fszList g st.c) *
        (starRingEnd ℂ) (matrixElement (psi g) (grnOp1 g.p.Nsite T (T.t2 i 1)) (fszList g st.c))) := by
  intro acc wc f1 f2 f3
  have key := C57_green_fsz_partial g hg hf hz lib hlib htot hNe hNs p hp hlb H hH T hT warmUp nSample interval np S burn hS saved hrun S0 o ho e he a
  have e1 : f1 = (List.range T.n1).map fun i => ([T.t1 i 0, T.t1 i 1, T.t1 i 2, T.t1 i 3], (weightAverageGreen np wc (fun k => (acc k).grn.phys1) i).re,
      (weightAverageGreen np wc (fun k => (acc k).grn.phys1) i).im) := outCisAjs_eq _ _
  have e2 : f2 = (List.range T.nDC).map fun i => ([T.tDC i 0, T.tDC i 1, T.tDC i 2, T.tDC i 3, T.tDC i 4, T.tDC i 5, T.tDC i 6, T.tDC i 7],
      (weightAverageGreen np wc (fun k => (acc k).grn.physDC) i).re, (weightAverageGreen np wc (fun k => (acc k).grn.physDC) i).im) :=
    outCisAjsCktAltDC_eq _ _
  have e3 := outCisAjsCktAlt_eq T (weightAverageGreen np wc fun k => (acc k).grn.phys2)
  have p3 := pairs_get T.n2 (fun i => (weightAverageGreen np wc (fun k => (acc k).grn.phys2) i).re)
    (fun i => (weightAverageGreen np wc (fun k => (acc k).grn.phys2) i).im)
  rw [← e3] at p3
  refine ⟨by rw [e1]; simp, by rw [e2]; simp, fun x hx => ?_, p3.1, fun i hi => ⟨_, (p3.2 i hi).1, (p3.2 i hi).2, key.2.2 i hi⟩⟩
  rcases List.mem_append.mp hx with hx | hx
  · rw [e1] at hx
    obtain ⟨i, hi, rfl⟩ := List.mem_map.mp hx
    exact key.1 i (List.mem_range.mp hi)
  · rw [e2] at hx
    obtain ⟨i, hi, rfl⟩ := List.mem_map.mp hx
    exact key.2.1 i (List.mem_range.mp hi)

end fsz
end MVMC
