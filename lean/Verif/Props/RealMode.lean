import Verif.Proof.RealMode
import Verif.Props.MainCal

/-!
# C58: the real mode

With `AllComplexFlag == 0` the program runs other functions (`*_real.c`). They sample and measure the trial state built from the real parts of the
orbitals and of the projection weights without the Boltzmann machine, and report the real part of the local energy. If orbitals,
weights, transfer and InterAll parameters are real this is C57 for the given trial state and Hamiltonian; the flags that decide
about the real mode do not guarantee that.
-/
namespace MVMC
open Spec Finset

/-- The trial state of the real mode: real part of the pair matrices, real part of the projection weights, no Boltzmann machine. -/
noncomputable def GrnEnv.realTrial (g : GrnEnv) : GrnEnv := g.toC ⟨fun _ => 0, fun _ => 0⟩

/-- `saved` is what one call of `VMCMakeSample_real` stores (cf. `StoredRun`). -/
def StoredRunR (g : GrnEnv) (lib : SkLib ℝ) (locSpn : Nat → Int) (exPath : Int) (burn : Bool) (warmUp nSample interval : Nat)
    (saved : List (Nat × SState RMem)) : Prop :=
  ∃ (c : EleCfg) (pc : Arr) (st0 : PfState ℝ) (b : RMem) (mF : EleCfg → RMem → PfState ℝ × ℝ) (r r' : List Nat) (st' : SState RMem),
    Consistent g.p.Ne g.p.Nsite c.idx c.cfg c.num ∧ LocalSingle g.p.Nsite locSpn c.num ∧
    (∀ i < g.q.NProj, pc i = makeProjCnt g.q c.num i) ∧ szStartR (g.real st0) lib c pc st0 = some b ∧ b.ip ≠ 0 ∧
    vmcMakeSample (szHooksR (g.real st0) lib mF) (g.szPar locSpn exPath) burn warmUp nSample interval c b r = some (st', saved, r')

/-- The same for `VMCMakeSample_fsz_real`. -/
def StoredRunFR (g : GrnEnv) (lib : SkLib ℝ) (p : FPar) (burn : Bool) (warmUp nSample interval : Nat)
    (saved : List (Nat × FState RMem)) : Prop :=
  ∃ (c : FCfg) (pc : Arr) (st0 : PfState ℝ) (b : RMem) (mF : FCfg → RMem → PfState ℝ × ℝ) (r r' : List Nat) (st' : FState RMem),
    ConsistentF (2 * g.p.Ne) g.p.Nsite c.idx c.spn c.cfg c.num ∧ LocalSingle g.p.Nsite p.locSpn c.num ∧
    (∀ i < g.q.NProj, pc i = makeProjCnt g.q c.num i) ∧ fszStartR (g.real st0) lib c pc st0 = some b ∧ b.ip ≠ 0 ∧
    vmcMakeSampleF (fszHooksR (g.real st0) lib mF) p burn warmUp nSample interval c b r = some (st', saved, r')

theorem storedRun_toC {g : GrnEnv} {lib : SkLib ℝ} {locSpn : Nat → Int} {exPath : Int} {burn : Bool} {warmUp nSample interval : Nat}
    {saved : List (Nat × SState RMem)} (h : StoredRunR g lib locSpn exPath burn warmUp nSample interval saved) (rc : Nat → ℂ) :
    StoredRun g.realTrial (liftLib lib) locSpn exPath burn warmUp nSample interval (saved.map (fun x => (x.1, x.2.map (RMem.toC rc)))) := by
  obtain ⟨c, pc, st0, b, mF, r, r', st', hc, hl, hp, hs, hne, e⟩ := h
  refine ⟨c, pc, rc, st0.cast, b.toC rc, 1, fun _ _ => 0, fun c b => ((mF c b.toR).1.cast, ((mF c b.toR).2 : ℂ)), r, r', st'.map (RMem.toC rc), hc, hl, hp, ?_, ?_, ?_⟩
  · have := szStart_toC g st0 lib rc c pc st0
    rw [hs] at this
    exact this
  · exact fun h => hne (Complex.ofReal_eq_zero.mp h)
  · have := vmcMakeSample_map (szHooks_map g st0 lib rc 1 (fun _ _ => 0) mF) (g.szPar locSpn exPath) burn warmUp nSample interval c b r
    rw [e] at this
    exact this

theorem storedRunF_toC {g : GrnEnv} {lib : SkLib ℝ} {p : FPar} {burn : Bool} {warmUp nSample interval : Nat}
    {saved : List (Nat × FState RMem)} (h : StoredRunFR g lib p burn warmUp nSample interval saved) (rc : Nat → ℂ) :
    StoredRunF g.realTrial (liftLib lib) p burn warmUp nSample interval (saved.map (fun x => (x.1, x.2.map (RMem.toC rc)))) := by
  obtain ⟨c, pc, st0, b, mF, r, r', st', hc, hl, hp, hs, hne, e⟩ := h
  refine ⟨c, pc, rc, st0.cast, b.toC rc, fun c b => ((mF c b.toR).1.cast, ((mF c b.toR).2 : ℂ)), r, r', st'.map (RMem.toC rc), hc, hl, hp, ?_, ?_, ?_⟩
  · have := fszStart_toC g st0 lib rc c pc st0
    rw [hs] at this
    exact this
  · exact fun h => hne (Complex.ofReal_eq_zero.mp h)
  · have := vmcMakeSampleF_map (fszHooks_map g st0 lib rc mF) p burn warmUp nSample interval c b r
    rw [e] at this
    exact this

/-! ### the real part of the local energy -/

theorem hamTerms_realPart (N : Nat) (H : HamPar) : hamTerms N H.realPart = (hamTerms N H).map (fun t => ((t.1.re : ℂ), t.2)) := by
  unfold hamTerms
  simp only [List.map_append, List.map_flatMap]
  simp [HamPar.realPart, termCoulombIntra, termCoulombInter, termHund, termTransfer, termPairHop, termExchange, termInterAll]

theorem matrixElement_real {Ψ : List Nat → ℂ} (h : ∀ l, (Ψ l).im = 0) (ops : List Op) (x : List Nat) : (matrixElement Ψ ops x).im = 0 := by
  have e : ∀ l, Ψ l = ((Ψ l).re : ℂ) := fun l => Complex.ext (by simp) (by simp [h l])
  unfold matrixElement
  cases actAll ops (some (1, x)) with
  | none => simp [overlap]
  | some k =>
    simp only [overlap]
    rw [e k.2, e x, ← Complex.ofReal_intCast, ← Complex.ofReal_mul, ← Complex.ofReal_div, Complex.conj_ofReal, Complex.ofReal_im]

theorem energyOf_realPart {Ψ : List Nat → ℂ} (h : ∀ l, (Ψ l).im = 0) (N : Nat) (H : HamPar) (x : List Nat) :
    energyOf Ψ (hamTerms N H.realPart) x = ((energyOf Ψ (hamTerms N H) x).re : ℂ) := by
  rw [hamTerms_realPart]
  unfold energyOf
  induction hamTerms N H with
  | nil => simp
  | cons t l ih =>
    simp only [List.map_cons, List.sum_cons, Complex.add_re, Complex.ofReal_add]
    rw [ih, Complex.mul_re, matrixElement_real h, mul_zero, sub_zero, Complex.ofReal_mul]
    congr 2
    exact Complex.ext (by simp) (by simp [matrixElement_real h])

/-- C58: on a sample of the real trial state, `CalculateHamiltonian_real` returns the real part of the local energy, for every schedule, order of
the reduction and content of the workspaces. -/
theorem C58_local_energy (g : GrnEnv) (hg : GrnOK g) (st : PfState ℝ) (c : EleCfg) (ip : ℝ) (projCnt : Arr) (rbmCnt : Nat → ℂ)
    (h : Sampled (g.toC st) c (ip : ℂ) projCnt rbmCnt) (H : HamPar) (hH : HamIdx g.p.Nsite H) (hsz : HamSzConserving H) (T : Nat)
    (sched : Nat → Nat → Nat) (hs : SchedOK H T sched) (order : List Nat) (ho : order.Perm (List.range T)) (junk : Nat → EleCfg) :
    calculateHamiltonianR (g.real st) H sched order junk ip projCnt c = (energyOf (psi g.realTrial) (hamTerms g.p.Nsite H) (szList g c)).re := by
  have e := calculateHamiltonian_toC g st H sched order junk ip projCnt rbmCnt c
  rw [C27_local_energy (g.toC st) (grnOK_toC hg st) (fun h => by cases h) c ip projCnt rbmCnt h H.realPart
    ⟨hH.ci, hH.co, hH.hu, hH.tr, hH.ph, hH.ex, hH.ia⟩ ⟨hsz.tr, hsz.ia⟩ T sched hs order ho junk] at e
  exact Complex.ofReal_injective (e.trans (energyOf_realPart (psi_toC_real g st) g.p.Nsite H (szList g c)))

/-- C58: the same for `CalculateHamiltonian_fsz_real`. -/
theorem C58_local_energy_fsz (g : GrnEnv) (hg : GrnOK g) (st : PfState ℝ) (c : FCfg) (ip : ℝ) (projCnt : Arr)
    (h : SampledF (g.toC st) c (ip : ℂ) projCnt) (H : HamPar) (hH : HamIdx g.p.Nsite H) (T : Nat)
    (sched : Nat → Nat → Nat) (hs : SchedOK H T sched) (order : List Nat) (ho : order.Perm (List.range T)) (junk : Nat → FCfg) :
    calculateHamiltonianFR (g.real st) H sched order junk ip projCnt c = (energyOf (psi g.realTrial) (hamTerms g.p.Nsite H) (fszList g c)).re := by
  have e := calculateHamiltonianF_toC g st H sched order junk ip projCnt c
  rw [C27_local_energy_fsz (g.toC st) (grnOK_toC hg st) c ip projCnt h H.realPart
    ⟨hH.ci, hH.co, hH.hu, hH.tr, hH.ph, hH.ex, hH.ia⟩ T sched hs order ho junk] at e
  exact Complex.ofReal_injective (e.trans (energyOf_realPart (psi_toC_real g st) g.p.Nsite H (fszList g c)))

/-- C58: for real orbitals and weights and no Boltzmann machine the trial state of the real mode is the given one. -/
theorem C58_realTrial (g : GrnEnv) (h : RealWave g) : psi g.realTrial = psi g := by
  unfold GrnEnv.realTrial
  rw [h.toC_eq]
  rfl

/-- real transfer and InterAll parameters -/
structure RealHam (H : HamPar) : Prop where
  tr : ∀ i, (H.pTR i).im = 0
  ia : ∀ i, (H.pIA i).im = 0

/-- C58: for real data the local energy is real. -/
theorem C58_energy_real (g : GrnEnv) (hw : RealWave g) (H : HamPar) (hr : RealHam H) (N : Nat) (x : List Nat) :
    (energyOf (psi g) (hamTerms N H) x).im = 0 := by
  have e : H.realPart = H := by
    unfold HamPar.realPart
    congr 1
    · exact (re_cast hr.tr).symm
    · exact (re_cast hr.ia).symm
  have h := energyOf_realPart (Ψ := psi g) (by rw [← C58_realTrial g hw]; exact psi_toC_real g _) N H x
  rw [e] at h
  rw [h, Complex.ofReal_im]

theorem meanOf_map {β β' : Type} (G n : Nat) (saved : Nat → List (Nat × β)) (f : β → β') (F : β' → ℂ) :
    meanOf G n (fun γ => (saved γ).map (fun x => (x.1, f x.2))) F = meanOf G n saved (fun b => F (f b)) := by
  unfold meanOf
  congr 1
  refine sum_congr rfl (fun γ _ => ?_)
  rw [List.map_map]
  rfl

section sz
variable (g : GrnEnv) (hg : GrnOK g) (hz : NoZero g.realTrial) (lib : SkLib ℝ) (hlib : LibOK lib) (htot : LibTotal lib)
  (hNe : 0 < g.p.Ne) (hNs : 0 < g.p.Nsite)
include hg hz hlib htot hNe hNs

/-- C58: every configuration that `VMCMakeSample_real` stores is consistent, has exact correlation counters and a non-vanishing amplitude
in the real trial state. -/
theorem C58_stored (locSpn : Nat → Int) (exPath : Int) (burn : Bool) (warmUp nSample interval : Nat)
    (saved : List (Nat × SState RMem)) (h : StoredRunR g lib locSpn exPath burn warmUp nSample interval saved) :
    (saved.map Prod.fst).reverse = List.range nSample ∧
    ∀ x ∈ saved, Consistent g.p.Ne g.p.Nsite x.2.c.idx x.2.c.cfg x.2.c.num ∧ (∀ i < g.q.NProj, x.2.b.projCnt i = makeProjCnt g.q x.2.c.num i) ∧
      psi g.realTrial (szList g x.2.c) ≠ 0 ∧ LocalSingle g.p.Nsite locSpn x.2.c.num := by
  obtain ⟨h1, h2⟩ := C57_stored g.realTrial (grnOK_toC hg _) (fun h => by cases h) hz (liftLib lib) (liftLib_ok hlib) (liftLib_total htot) hNe hNs
    locSpn exPath burn warmUp nSample interval _ (storedRun_toC h (fun _ => 0))
  rw [List.map_map] at h1
  refine ⟨h1, fun x hx => ?_⟩
  obtain ⟨⟨st, ip, hk⟩, hp, hl⟩ := h2 _ (List.mem_map_of_mem hx)
  exact ⟨hk.cons, hk.proj, hp, hl⟩

section energy
variable (H : HamPar) (hH : HamIdx g.p.Nsite H) (hsz : HamSzConserving H) (T : GrnTab) (hT : GrnIdx g.p.Nsite T) (hTs : GrnSz T)
  (locSpn : Nat → Int) (exPath : Int) (mode warmUp nSample interval np S : Nat) (hw : mode = 1 → RealWave g) (burn : Nat → Bool)
  (hn : 0 < nSample) (hnp : 0 < np) (hS : 0 < S) (saved : Nat → List (Nat × SState RMem))
  (hrun : ∀ γ < groupCount np S, StoredRunR g lib locSpn exPath (burn γ) warmUp nSample interval (saved γ))
  (S0 : Nat → EleStore) (o : Nat → Nat → MainOrR EleCfg) (ho : ∀ k s, MainOrOK H T (o k s).toC) (a : Nat → PhysAccR)
include hH hsz hT hTs hn hnp hS hrun ho

include hw in
/-- C58: after `WeightAverageWE` in real mode `Wc` is the number of stored samples, `Etot` the mean over all of them of the real part
of the local energy in the real trial state and `Etot2` the mean of the square of that real part. -/
theorem C58_energy :
    let avg := weightAverageWE np (fun k => (vmcMainCalR g H T lib mode nSample (k % S) (groupSize np S (k / S))
      (storeRunR (g.real (a k).stR) (saved (k / S)) (S0 k)) (o k) (a k)).a)
    avg.wc = (groupCount np S : ℂ) * nSample ∧
    avg.etot = meanOf (groupCount np S) nSample saved (fun st =>
      (((energyOf (psi g.realTrial) (hamTerms g.p.Nsite H) (szList g st.c)).re : ℝ) : ℂ)) ∧
    avg.etot2 = meanOf (groupCount np S) nSample saved (fun st =>
      (((energyOf (psi g.realTrial) (hamTerms g.p.Nsite H) (szList g st.c)).re ^ 2 : ℝ) : ℂ)) := by
  have h := C57_energy g.realTrial (grnOK_toC hg _) (fun h => by cases h) hz (liftLib lib) (liftLib_ok hlib) (liftLib_total htot) hNe hNs
    H.realPart ⟨hH.ci, hH.co, hH.hu, hH.tr, hH.ph, hH.ex, hH.ia⟩ ⟨hsz.tr, hsz.ia⟩ T hT hTs locSpn exPath mode warmUp nSample interval np S burn
    hn hnp hS _ (fun γ hγ => storedRun_toC (hrun γ hγ) (fun _ => 0)) S0 (fun k s => (o k s).toC) (fun k s => by
      obtain ⟨nT, nT', h1, h2, h3⟩ := ho k s
      exact ⟨nT, nT', h1, h2, h3⟩) (fun k => (a k).toC)
  have e : ∀ k, vmcMainCal g.realTrial H.realPart T (liftLib lib) mode nSample (k % S) (groupSize np S (k / S))
      (storeRun g.realTrial ((saved (k / S)).map (fun x => (x.1, x.2.map (RMem.toC (fun _ => 0))))) (S0 k)) (fun s => (o k s).toC) (a k).toC =
      (vmcMainCalR g H T lib mode nSample (k % S) (groupSize np S (k / S)) (storeRunR (g.real (a k).stR) (saved (k / S)) (S0 k)) (o k) (a k)).toC := by
    intro k
    have e1 : storeRun g.realTrial ((saved (k / S)).map (fun x => (x.1, x.2.map (RMem.toC (fun _ => 0))))) (S0 k) =
        storeRunR (g.real (a k).stR) (saved (k / S)) (S0 k) := storeRun_toC g _ (fun _ => 0) (saved (k / S)) (S0 k)
    rw [e1]
    exact vmcMainCal_toC g _ H T lib mode hw _ nSample _ _ (o k) (a k)
  simp only [e] at h
  obtain ⟨h1, h2, h3⟩ := h
  have hR := fun x => energyOf_realPart (psi_toC_real g ⟨fun _ => 0, fun _ => 0⟩) g.p.Nsite H x
  refine ⟨h1, h2.trans ?_, h3.trans ?_⟩
  · rw [meanOf_map]
    exact congrArg _ (funext fun st => hR _)
  · rw [meanOf_map]
    refine congrArg _ (funext fun st => ?_)
    have := hR (szList g st.c)
    show ((‖energyOf (psi (g.toC _)) (hamTerms g.p.Nsite H.realPart) (szList g st.c)‖ ^ 2 : ℝ) : ℂ) = _
    rw [this, Complex.norm_real, Real.norm_eq_abs, sq_abs]
    rfl

/-- C58: for real orbitals, weights and Hamiltonian parameters and without a Boltzmann machine, the real mode reports what C57 says of the
complex mode. -/
theorem C58_energy_exact_partial (hr : RealWave g) (hH' : RealHam H) :
    let avg := weightAverageWE np (fun k => (vmcMainCalR g H T lib mode nSample (k % S) (groupSize np S (k / S))
      (storeRunR (g.real (a k).stR) (saved (k / S)) (S0 k)) (o k) (a k)).a)
    avg.wc = (groupCount np S : ℂ) * nSample ∧
    avg.etot = meanOf (groupCount np S) nSample saved (fun st => energyOf (psi g) (hamTerms g.p.Nsite H) (szList g st.c)) ∧
    avg.etot2 = meanOf (groupCount np S) nSample saved (fun st =>
      ((‖energyOf (psi g) (hamTerms g.p.Nsite H) (szList g st.c)‖ ^ 2 : ℝ) : ℂ)) := by
  have h := C58_energy g hg hz lib hlib htot hNe hNs H hH hsz T hT hTs locSpn exPath mode warmUp nSample interval np S (fun _ => hr) burn hn hnp hS
    saved hrun S0 o ho a
  rw [C58_realTrial g hr] at h
  have e : ∀ x, energyOf (psi g) (hamTerms g.p.Nsite H) x = (((energyOf (psi g) (hamTerms g.p.Nsite H) x).re : ℝ) : ℂ) := fun x =>
    Complex.ext (by simp) (by simp [C58_energy_real g hr H hH'])
  refine ⟨h.1, h.2.1.trans ?_, h.2.2.trans ?_⟩
  · exact congrArg _ (funext fun st => (e _).symm)
  · refine congrArg _ (funext fun st => ?_)
    conv_rhs => rw [e]
    rw [Complex.norm_real, Real.norm_eq_abs, sq_abs]

/-- C58: measured Green functions (`NVMCCalMode = 1`) in real mode for real orbitals and weights. -/
theorem C58_green (hm : mode = 1) (hr : RealWave g) :
    let acc := fun k => (vmcMainCalR g H T lib mode nSample (k % S) (groupSize np S (k / S))
      (storeRunR (g.real (a k).stR) (saved (k / S)) (S0 k)) (o k) (a k)).a
    let wc := (weightAverageWE np acc).wc
    (∀ i < T.n1, weightAverageGreen np wc (fun k => (acc k).grn.phys1) i =
      meanOf (groupCount np S) nSample saved (fun st => matrixElement (psi g) (grnOp1 g.p.Nsite T i) (szList g st.c))) ∧
    (∀ i < T.nDC, weightAverageGreen np wc (fun k => (acc k).grn.physDC) i =
      meanOf (groupCount np S) nSample saved (fun st => matrixElement (psi g) (grnOpDC g.p.Nsite T i) (szList g st.c))) ∧
    (∀ i < T.n2, weightAverageGreen np wc (fun k => (acc k).grn.phys2) i =
      meanOf (groupCount np S) nSample saved (fun st => matrixElement (psi g) (grnOp1 g.p.Nsite T (T.t2 i 0)) (szList g st.c) *
        (starRingEnd ℂ) (matrixElement (psi g) (grnOp1 g.p.Nsite T (T.t2 i 1)) (szList g st.c)))) := by
  have h := C57_green g.realTrial (grnOK_toC hg _) (fun h => by cases h) hz (liftLib lib) (liftLib_ok hlib) (liftLib_total htot) hNe hNs
    H.realPart ⟨hH.ci, hH.co, hH.hu, hH.tr, hH.ph, hH.ex, hH.ia⟩ ⟨hsz.tr, hsz.ia⟩ T hT hTs locSpn exPath mode warmUp nSample interval np S burn
    hn hnp hS _ (fun γ hγ => storedRun_toC (hrun γ hγ) (fun _ => 0)) S0 (fun k s => (o k s).toC) (fun k s => by
      obtain ⟨nT, nT', h1, h2, h3⟩ := ho k s
      exact ⟨nT, nT', h1, h2, h3⟩) (fun k => (a k).toC) hm
  have e : ∀ k, vmcMainCal g.realTrial H.realPart T (liftLib lib) mode nSample (k % S) (groupSize np S (k / S))
      (storeRun g.realTrial ((saved (k / S)).map (fun x => (x.1, x.2.map (RMem.toC (fun _ => 0))))) (S0 k)) (fun s => (o k s).toC) (a k).toC =
      (vmcMainCalR g H T lib mode nSample (k % S) (groupSize np S (k / S)) (storeRunR (g.real (a k).stR) (saved (k / S)) (S0 k)) (o k) (a k)).toC := by
    intro k
    have e1 : storeRun g.realTrial ((saved (k / S)).map (fun x => (x.1, x.2.map (RMem.toC (fun _ => 0))))) (S0 k) =
        storeRunR (g.real (a k).stR) (saved (k / S)) (S0 k) := storeRun_toC g _ (fun _ => 0) (saved (k / S)) (S0 k)
    rw [e1]
    exact vmcMainCal_toC g _ H T lib mode (fun _ => hr) _ nSample _ _ (o k) (a k)
  simp only [e, meanOf_map, C58_realTrial g hr] at h
  exact h

end energy

end sz

section fsz
variable (g : GrnEnv) (hg : GrnOK g) (hz : NoZero g.realTrial) (lib : SkLib ℝ) (hlib : LibOK lib) (htot : LibTotal lib)
  (hNe : 0 < g.p.Ne) (hNs : 0 < g.p.Nsite) (p : FPar) (hp : p.pf = g.p) (hlb : ∀ r < p.Nsite, p.locSpn r = 0 ∨ p.locSpn r = 1)
include hg hz hlib htot hNe hNs hp hlb

/-- C58: the same as `C58_stored` for `VMCMakeSample_fsz_real`. -/
theorem C58_stored_fsz (burn : Bool) (warmUp nSample interval : Nat)
    (saved : List (Nat × FState RMem)) (h : StoredRunFR g lib p burn warmUp nSample interval saved) :
    (saved.map Prod.fst).reverse = List.range nSample ∧
    ∀ x ∈ saved, ConsistentF (2 * g.p.Ne) g.p.Nsite x.2.c.idx x.2.c.spn x.2.c.cfg x.2.c.num ∧
      (∀ i < g.q.NProj, x.2.b.projCnt i = makeProjCnt g.q x.2.c.num i) ∧
      psi g.realTrial (fszList g x.2.c) ≠ 0 ∧ LocalSingle g.p.Nsite p.locSpn x.2.c.num := by
  obtain ⟨h1, h2⟩ := C57_stored_fsz g.realTrial (grnOK_toC hg _) rfl hz (liftLib lib) (liftLib_ok hlib) (liftLib_total htot) hNe hNs p hp hlb
    burn warmUp nSample interval _ (storedRunF_toC h (fun _ => 0))
  rw [List.map_map] at h1
  refine ⟨h1, fun x hx => ?_⟩
  obtain ⟨⟨st, ip, hk⟩, hp, hl⟩ := h2 _ (List.mem_map_of_mem hx)
  exact ⟨hk.cons, hk.proj, hp, hl⟩

/-- C58: averages of the general-Sz mode with `AllComplexFlag == 0`. -/
theorem C58_energy_fsz (H : HamPar) (hH : HamIdx g.p.Nsite H) (T : GrnTab) (warmUp nSample interval np S : Nat) (burn : Nat → Bool)
    (hn : 0 < nSample) (hnp : 0 < np) (hS : 0 < S) (saved : Nat → List (Nat × FState RMem))
    (hrun : ∀ γ < groupCount np S, StoredRunFR g lib p (burn γ) warmUp nSample interval (saved γ))
    (S0 : Nat → EleStore) (o : Nat → Nat → MainOrR FCfg) (ho : ∀ k s, MainOrOK H T (o k s).toC) (a : Nat → PhysAccR) :
    let avg := weightAverageWE np (fun k => (vmcMainCalFR g H lib nSample (k % S) (groupSize np S (k / S))
      (storeRunFR (g.real (a k).stR) (saved (k / S)) (S0 k)) (o k) (a k)).a)
    avg.wc = (groupCount np S : ℂ) * nSample ∧
    avg.etot = meanOf (groupCount np S) nSample saved (fun st =>
      (((energyOf (psi g.realTrial) (hamTerms g.p.Nsite H) (fszList g st.c)).re : ℝ) : ℂ)) ∧
    avg.etot2 = meanOf (groupCount np S) nSample saved (fun st =>
      (((energyOf (psi g.realTrial) (hamTerms g.p.Nsite H) (fszList g st.c)).re ^ 2 : ℝ) : ℂ)) ∧
    avg.sz = meanOf (groupCount np S) nSample saved (fun st => ((magnetisation g.p.Nsite st.c.num : Int) : ℂ)) ∧
    avg.sz2 = meanOf (groupCount np S) nSample saved (fun st => ((magnetisation g.p.Nsite st.c.num : Int) : ℂ) ^ 2) := by
  have h := C57_energy_fsz g.realTrial (grnOK_toC hg _) rfl hz (liftLib lib) (liftLib_ok hlib) (liftLib_total htot) hNe hNs p hp hlb
    H.realPart ⟨hH.ci, hH.co, hH.hu, hH.tr, hH.ph, hH.ex, hH.ia⟩ T warmUp nSample interval np S burn
    hn hnp hS _ (fun γ hγ => storedRunF_toC (hrun γ hγ) (fun _ => 0)) S0 (fun k s => (o k s).toC) (fun k s => by
      obtain ⟨nT, nT', h1, h2, h3⟩ := ho k s
      exact ⟨nT, nT', h1, h2, h3⟩) (fun k => (a k).toC)
  have e : ∀ k, vmcMainCalF g.realTrial H.realPart (liftLib lib) nSample (k % S) (groupSize np S (k / S))
      (storeRunF g.realTrial ((saved (k / S)).map (fun x => (x.1, x.2.map (RMem.toC (fun _ => 0))))) (S0 k)) (fun s => (o k s).toC) (a k).toC =
      (vmcMainCalFR g H lib nSample (k % S) (groupSize np S (k / S)) (storeRunFR (g.real (a k).stR) (saved (k / S)) (S0 k)) (o k) (a k)).toC := by
    intro k
    have e1 : storeRunF g.realTrial ((saved (k / S)).map (fun x => (x.1, x.2.map (RMem.toC (fun _ => 0))))) (S0 k) =
        storeRunFR (g.real (a k).stR) (saved (k / S)) (S0 k) := storeRunF_toC g _ (fun _ => 0) (saved (k / S)) (S0 k)
    rw [e1]
    exact vmcMainCalF_toC g _ H lib _ nSample _ _ (o k) (a k)
  simp only [e] at h
  obtain ⟨h1, h2, h3, h4, h5⟩ := h
  have hR := fun x => energyOf_realPart (psi_toC_real g ⟨fun _ => 0, fun _ => 0⟩) g.p.Nsite H x
  refine ⟨h1, h2.trans ?_, h3.trans ?_, h4.trans ?_, h5.trans ?_⟩
  · rw [meanOf_map]
    exact congrArg _ (funext fun st => hR _)
  · rw [meanOf_map]
    refine congrArg _ (funext fun st => ?_)
    have := hR (fszList g st.c)
    show ((‖energyOf (psi (g.toC _)) (hamTerms g.p.Nsite H.realPart) (fszList g st.c)‖ ^ 2 : ℝ) : ℂ) = _
    rw [this, Complex.norm_real, Real.norm_eq_abs, sq_abs]
    rfl
  · rw [meanOf_map]; rfl
  · rw [meanOf_map]; rfl

end fsz

/-! ### what the flags do not exclude -/

/-- two sites, one electron per spin, `F(0↑,1↓) = 2`, `F(1↑,1↓) = 6`, one projection of weight `w` -/
noncomputable def exReal (w : ℂ) : GrnEnv :=
  { exEnv with
    slt := fun k => if k = 3 then 2 else if k = 12 then -2 else if k = 7 then 6 else if k = 13 then -6 else 0
    w := fun _ => w }

/-- the hopping amplitude of `exHam` replaced by `t` -/
noncomputable def exHamT (t : ℂ) : HamPar := { exHam with pTR := fun _ => t }

/-- Pfaffian and inverse of the example configuration -/
noncomputable def exStR : PfState ℝ := ⟨fun _ => 2, fun k => if k = 1 then -(1 / 2) else if k = 2 then 1 / 2 else 0⟩

theorem exReal_ok (w : ℂ) : GrnOK (exReal w) where
  hq := rfl
  tab := exEnv_ok.tab
  skew k hk := by
    have hk : k < 1 := hk
    have : k = 0 := by omega
    subst this
    refine ⟨fun i j hi hj => ?_, fun i hi => ?_⟩
    · have hi : i < 4 := hi
      have hj : j < 4 := hj
      have h1 : i = 0 ∨ i = 1 ∨ i = 2 ∨ i = 3 := by omega
      have h2 : j = 0 ∨ j = 1 ∨ j = 2 ∨ j = 3 := by omega
      rcases h1 with rfl | rfl | rfl | rfl <;> rcases h2 with rfl | rfl | rfl | rfl <;> simp [entry, exReal, exEnv]
    · have hi : i < 4 := hi
      have h1 : i = 0 ∨ i = 1 ∨ i = 2 ∨ i = 3 := by omega
      rcases h1 with rfl | rfl | rfl | rfl <;> simp [entry, exReal, exEnv]

theorem exReal_wave (w : ℂ) (hw : w.im = 0) : RealWave (exReal w) where
  slt i := by
    simp only [exReal]
    split_ifs <;> simp
  w _ := hw
  rbm := rfl

theorem exSampledR (w : ℂ) (hw : w.re = 1) : Sampled ((exReal w).toC exStR) exCfg ((2 : ℝ) : ℂ) (fun _ => 0) (fun _ => 0) where
  cons := exSampled.cons
  pf := by
    intro q hq
    have hq : q < 1 := hq
    have : q = 0 := by omega
    subst this
    refine ⟨?_, ?_⟩
    · simp [pfOf, pf, pfN, altSum, exReal, GrnEnv.toC, exStR, PfState.cast, exEnv, exCfg, occSz, entry, List.range_succ]
    · intro i hi j hj
      have hi : i < 2 := hi
      have hj : j < 2 := hj
      rcases (show i = 0 ∨ i = 1 by omega) with rfl | rfl <;> rcases (show j = 0 ∨ j = 1 by omega) with rfl | rfl <;>
        simp [exReal, GrnEnv.toC, exStR, PfState.cast, exEnv, exCfg, occSz, entry, Finset.sum_range_succ]
  hip := by simp [amplitude, pfOf, pf, pfN, altSum, exReal, GrnEnv.toC, exEnv, exCfg, occSz, entry, List.range_succ, hw]
  hne := by simp
  proj := exSampled.proj
  rbm h := by cases h

theorem exHamT_idx (t : ℂ) : HamIdx 2 (exHamT t) :=
  ⟨fun i hi => hi, fun i hi => ⟨show 0 < 2 by decide, show 1 < 2 by decide⟩, fun i hi => absurd hi (Nat.not_lt_zero i),
      fun i hi => ⟨show 1 < 2 by decide, show 0 < 2 by decide, show 0 < 2 by decide, show 0 < 2 by decide⟩,
      fun i hi => absurd hi (Nat.not_lt_zero i), fun i hi => absurd hi (Nat.not_lt_zero i), fun i hi => absurd hi (Nat.not_lt_zero i)⟩

theorem exReal_energy (w t : ℂ) (hw : w ≠ 0) : energyOf (psi (exReal w)) (hamTerms 2 (exHamT t)) [0, 3] = 5 - 3 * t := by
  have c : corrSpec (exReal w) = fun _ => 1 := by
    funext num
    simp [corrSpec, projSpec, exReal, exEnv, logCorr]
  have e2 : (starRingEnd ℂ) 2 = 2 := Complex.conj_ofReal 2
  have e6 : (starRingEnd ℂ) 6 = 6 := Complex.conj_ofReal 6
  have hw' : (starRingEnd ℂ) w ≠ 0 := by simpa using hw
  simp only [energyOf, hamTerms, exHamT, exHam, List.range_succ, List.range_zero, List.flatMap_cons, List.flatMap_nil,
    List.nil_append, List.append_nil, termCoulombIntra, termCoulombInter, termTransfer, numOp, matrixElement, psi, c, List.cons_append]
  simp [actAll, Op.act, exReal, exEnv, overlap, pf, pfN, altSum, entry, waveFunction, e2, e6]
  field_simp
  ring

/-- C58, finding: a complex hopping amplitude does not switch to the complex mode (`allComplexFlag` does not look at the transfer file). With a
real trial state the program then accumulates the real part of the local energy: for hopping amplitude `2i` the local energy is `5-6i`,
`CalculateHamiltonian_real` returns `5`, and the squared modulus that enters `Etot2` is 25 instead of 61. -/
theorem C58_complex_hopping_violated (junk : Nat → EleCfg) :
    allComplexFlag 0 0 0 0 0 = 0 ∧ RealWave (exReal 1) ∧
    calculateHamiltonianR ((exReal 1).real exStR) (exHamT (2 * Complex.I)) (fun _ _ => 0) [0] junk 2 (fun _ => 0) exCfg = 5 ∧
    energyOf (psi (exReal 1)) (hamTerms 2 (exHamT (2 * Complex.I))) (szList (exReal 1) exCfg) = 5 - 6 * Complex.I ∧
    Complex.normSq (energyOf (psi (exReal 1)) (hamTerms 2 (exHamT (2 * Complex.I))) (szList (exReal 1) exCfg)) = 61 := by
  have hl : szList (exReal 1) exCfg = [0, 3] := by decide
  have e : energyOf (psi (exReal 1)) (hamTerms 2 (exHamT (2 * Complex.I))) [0, 3] = 5 - 6 * Complex.I := by
    rw [exReal_energy 1 _ one_ne_zero]; ring
  refine ⟨rfl, exReal_wave 1 rfl, ?_, by rw [hl, e], ?_⟩
  · rw [C58_local_energy (exReal 1) (exReal_ok 1) exStR exCfg 2 _ _ (exSampledR 1 rfl) _ (exHamT_idx _)
      ⟨fun i hi => rfl, fun i hi => absurd hi (Nat.not_lt_zero i)⟩ 1 _
      ⟨fun _ _ => Nat.one_pos, fun _ _ => Nat.one_pos, fun _ _ => Nat.one_pos, fun _ _ => Nat.one_pos, fun _ _ => Nat.one_pos, fun _ _ => Nat.one_pos,
        fun _ _ => Nat.one_pos⟩ [0] (by decide), C58_realTrial _ (exReal_wave 1 rfl), hl]
    rw [show (exReal 1).p.Nsite = 2 from rfl, e]
    simp
  · rw [hl, e]
    simp [Complex.normSq_apply]
    norm_num

/-- C58, finding: complex projection weights do not switch to the complex mode. For one projection of weight `1+i` the real mode samples with the
inner product `2` of the real part of the weight, and the measured one-body function of `NVMCCalMode==1`, which divides the complex
sum by that number, is `3-3i`; the value in the given trial state is `3`. -/
theorem C58_complex_weights_violated :
    allComplexFlag 0 0 0 0 0 = 0 ∧ calculateIPR ((exReal (1 + Complex.I)).real exStR) exStR.pfM = 2 ∧
    (greenFunc1 { exReal (1 + Complex.I) with st := exStR.cast } 1 0 0 ((2 : ℝ) : ℂ) (fun _ => 0) (fun _ => 0) exCfg).1 = 3 - 3 * Complex.I ∧
    matrixElement (psi (exReal (1 + Complex.I))) [.cr 1, .an 0] (szList (exReal (1 + Complex.I)) exCfg) = 3 := by
  have hl : szList (exReal (1 + Complex.I)) exCfg = [0, 3] := by decide
  have h1 : (1 + Complex.I) ≠ 0 := by
    intro h; have := congrArg Complex.re h; simp at this
  refine ⟨rfl, ?_, ?_, ?_⟩
  · simp [calculateIPR, sumLoop, GrnEnv.real, exReal, exEnv, exStR]
  · have e2 : (starRingEnd ℂ) 2 = 2 := Complex.conj_ofReal 2
    have e6 : (starRingEnd ℂ) 6 = 6 := Complex.conj_ofReal 6
    simp [greenFunc1, exReal, exEnv, exCfg, calculateIPLocal, sumLoop, calculateNewPfM, invAt, sltAt, PfPar.Nsize, PfPar.Nsite2, exStR, PfState.cast,
      projRatioC, projRatio, List.range_succ, List.range'_succ, Arr.set, e2, e6]
    ring
  · rw [hl]
    have c : corrSpec (exReal (1 + Complex.I)) = fun _ => 1 := by
      funext num
      simp [corrSpec, projSpec, exReal, exEnv, logCorr]
    simp only [matrixElement, psi, c]
    have h2 : (1 - Complex.I) ≠ 0 := by
      intro h; have := congrArg Complex.re h; simp at this
    have e2 : (starRingEnd ℂ) 2 = 2 := Complex.conj_ofReal 2
    have e6 : (starRingEnd ℂ) 6 = 6 := Complex.conj_ofReal 6
    simp [actAll, Op.act, exReal, exEnv, overlap, pf, pfN, altSum, entry, waveFunction, e2, e6]
    rw [← sub_eq_add_neg, mul_div_mul_left _ _ h2]
    norm_num

/-- `exReal 1` with a Boltzmann machine that has visible biases only: `l` for the orbital `0↑`, zero for the others -/
noncomputable def exBM (l : ℝ) : GrnEnv :=
  { exReal 1 with
    flagRBM := true
    rbm := { exEnv.rbm with nGP := 2, gP := fun r => if r = 0 then 0 else 1, par := fun k => if k = 0 then (l : ℂ) else 0 } }

/-- C58, finding: a Boltzmann machine does not switch to the complex mode either (only its own parameters' flags are set), and none of the real functions evaluates it:
sampler and local energy are those of the trial state without it. The local energy of the given trial state is `5 - 3 exp(-2l)`, the
program's is `2` for every bias `l`. -/
theorem C58_rbm_violated (l : ℝ) (hl : l ≠ 0) (junk : Nat → EleCfg) :
    psi (exBM l).realTrial = psi (exReal 1) ∧
    calculateHamiltonianR ((exBM l).real exStR) (exHamT 1) (fun _ _ => 0) [0] junk 2 (fun _ => 0) exCfg = 2 ∧
    energyOf (psi (exBM l)) (hamTerms 2 (exHamT 1)) (szList (exBM l) exCfg) ≠ 2 := by
  have h1 : psi (exBM l).realTrial = psi (exReal 1) := by
    rw [← C58_realTrial (exReal 1) (exReal_wave 1 rfl)]
    rfl
  have hx' : szList (exReal 1) exCfg = [0, 3] := by decide
  have hx : szList (exBM l) exCfg = [0, 3] := hx'
  refine ⟨h1, ?_, ?_⟩
  · show calculateHamiltonianR ((exReal 1).real exStR) (exHamT 1) (fun _ _ => 0) [0] junk 2 (fun _ => 0) exCfg = 2
    rw [C58_local_energy (exReal 1) (exReal_ok 1) exStR exCfg 2 _ _ (exSampledR 1 rfl) _ (exHamT_idx _)
      ⟨fun i hi => rfl, fun i hi => absurd hi (Nat.not_lt_zero i)⟩ 1 _
      ⟨fun _ _ => Nat.one_pos, fun _ _ => Nat.one_pos, fun _ _ => Nat.one_pos, fun _ _ => Nat.one_pos, fun _ _ => Nat.one_pos, fun _ _ => Nat.one_pos,
        fun _ _ => Nat.one_pos⟩ [0] (by decide), C58_realTrial _ (exReal_wave 1 rfl), hx']
    rw [show (exReal 1).p.Nsite = 2 from rfl, exReal_energy 1 _ one_ne_zero]
    norm_num
  · have c : corrSpec (exBM l) = fun num => ((Real.exp (l * (2 * num 0 - 1)) : ℝ) : ℂ) := by
      funext num
      simp [corrSpec, projSpec, exBM, exReal, exEnv, logCorr, rbmSpec, rbmFactor, classSum, orbitalVar, Finset.sum_range_succ]
    have e2 : (starRingEnd ℂ) 2 = 2 := Complex.conj_ofReal 2
    have e6 : (starRingEnd ℂ) 6 = 6 := Complex.conj_ofReal 6
    rw [hx]
    have e : energyOf (psi (exBM l)) (hamTerms 2 (exHamT 1)) [0, 3] = ((5 - 3 * (Real.exp (-l) / Real.exp l) : ℝ) : ℂ) := by
      simp only [energyOf, hamTerms, exHamT, exHam, List.range_succ, List.range_zero, List.flatMap_cons, List.flatMap_nil,
        List.nil_append, List.append_nil, termCoulombIntra, termCoulombInter, termTransfer, numOp, matrixElement, psi, c, List.cons_append]
      simp [actAll, Op.act, exBM, exReal, exEnv, overlap, pf, pfN, altSum, entry, waveFunction, e2, e6]
      have o1 : occupation [0, 3] 0 = 1 := by decide
      have o2 : occupation [1, 3] 0 = 0 := by decide
      rw [o1, o2, ← Complex.exp_conj, ← Complex.exp_conj]
      simp only [map_mul, map_sub, map_neg, map_one, map_zero, Complex.conj_ofReal, e2, Int.cast_one, Int.cast_zero, mul_one, mul_zero, zero_sub]
      rw [show (2 : ℂ) - 1 = 1 by norm_num, mul_one, mul_neg, mul_one]
      have := Complex.exp_ne_zero (l : ℂ)
      field_simp
      ring
    rw [e]
    intro h
    have h : 5 - 3 * (Real.exp (-l) / Real.exp l) = 2 := by exact_mod_cast h
    rw [← Real.exp_sub] at h
    have : Real.exp (-l - l) = 1 := by linarith
    rw [Real.exp_eq_one_iff] at this
    exact hl (by linarith)

/-- Two samples of the two-site example in real mode (cf. `exChain`). -/
theorem exChainR (lib : SkLib ℝ) (hlib : LibOK lib) (htot : LibTotal lib) :
    ∃ saved, StoredRunR (exReal 1) lib (fun _ => 0) 0 false 0 2 1 saved ∧
      saved.map (fun x => (x.1, szList (exReal 1) x.2.c)) = [(1, [0, 3]), (0, [0, 3])] := by
  have hs : Sampled ((exReal 1).toC exStR) exCfg ((2 : ℝ) : ℂ) (fun _ => 0) (fun _ => 0) := exSampledR 1 rfl
  obtain ⟨b, hb, hne⟩ := start_of_kept (g := (exReal 1).toC exStR) (grnOK_toC (exReal_ok 1) exStR) (liftLib_ok hlib) (liftLib_total htot)
    ⟨_, _, hs⟩ exStR.cast
  have e := szStart_toC (exReal 1) exStR lib (fun _ => 0) exCfg (fun _ => 0) exStR
  rw [hb] at e
  obtain ⟨b', hb', rfl⟩ : ∃ b', szStartR ((exReal 1).real exStR) lib exCfg (fun _ => 0) exStR = some b' ∧ RMem.toC (fun _ => 0) b' = b := by
    cases h : szStartR ((exReal 1).real exStR) lib exCfg (fun _ => 0) exStR with
    | none => rw [h] at e; cases e
    | some b' => rw [h] at e; exact ⟨b', rfl, (Option.some.inj e).symm⟩
  refine ⟨_, ⟨exCfg, fun _ => 0, exStR, b', fun _ b => (b.ps, b.ip), List.replicate 32 0, [], ⟨exCfg, b', 0, 4, 0, 0, 0⟩,
    hs.cons, ?_, fun i hi => absurd hi (Nat.not_lt_zero i), hb', ?_, rfl⟩, ?_⟩
  · intro r hr h; simp at h
  · intro h; exact hne (by simp [RMem.toC, h])
  · rfl

/-- Three processes in groups of two, two samples per group, hopping amplitude `2i`: the reported energy is 5 and the reported mean square 25. -/
example (lib : SkLib ℝ) (hlib : LibOK lib) (htot : LibTotal lib) (S0 : Nat → EleStore) (j : Nat → EleCfg) (a : Nat → PhysAccR) :
    ∃ saved : Nat → List (Nat × SState RMem), (∀ γ, StoredRunR (exReal 1) lib (fun _ => 0) 0 false 0 2 1 (saved γ)) ∧
    let avg := weightAverageWE 3 (fun k => (vmcMainCalR (exReal 1) (exHamT (2 * Complex.I)) ⟨0, fun _ _ => 0, 0, fun _ _ => 0, 0, fun _ _ => 0⟩
      lib 0 2 (k % 2) (groupSize 3 2 (k / 2)) (storeRunR ((exReal 1).real (a k).stR) (saved (k / 2)) (S0 k))
      (fun _ => ⟨fun _ i => i % 2, [1, 0], j, fun _ _ => 0, [0], [0], j, ⟨fun _ => 0, fun _ => 0⟩, none, id⟩) (a k)).a)
    avg.wc = 4 ∧ avg.etot = 5 ∧ avg.etot2 = 25 := by
  obtain ⟨saved, hrun, hl⟩ := exChainR lib hlib htot
  refine ⟨fun _ => saved, fun _ => hrun, ?_⟩
  have m : ∀ i, i % 2 < 2 := fun i => Nat.mod_lt _ (by decide)
  have hE : (energyOf (psi (exReal 1)) (hamTerms (exReal 1).p.Nsite (exHamT (2 * Complex.I))) [0, 3]).re = 5 := by
    rw [show (exReal 1).p.Nsite = 2 from rfl, exReal_energy 1 _ one_ne_zero]
    simp
  have h := C58_energy (exReal 1) (exReal_ok 1) (C57_noZero_one _ rfl) lib hlib htot (by decide) (by decide) (exHamT (2 * Complex.I))
    (exHamT_idx _) ⟨fun i hi => rfl, fun i hi => absurd hi (Nat.not_lt_zero i)⟩
    ⟨0, fun _ _ => 0, 0, fun _ _ => 0, 0, fun _ _ => 0⟩
    ⟨fun i hi => absurd hi (Nat.not_lt_zero i), fun i hi => absurd hi (Nat.not_lt_zero i), fun i hi => absurd hi (Nat.not_lt_zero i)⟩
    ⟨fun i hi => absurd hi (Nat.not_lt_zero i), fun i hi => absurd hi (Nat.not_lt_zero i)⟩
    (fun _ => 0) 0 0 0 2 1 3 2 (fun h => absurd h (by decide)) (fun _ => false) (by decide) (by decide) (by decide) (fun _ => saved) (fun _ _ => hrun) S0
    (fun _ _ => ⟨fun _ i => i % 2, [1, 0], j, fun _ _ => 0, [0], [0], j, ⟨fun _ => 0, fun _ => 0⟩, none, id⟩)
    (fun _ _ => ⟨2, 1, ⟨fun i _ => m i, fun i _ => m i, fun i _ => m i, fun i _ => m i, fun i _ => m i, fun i _ => m i, fun i _ => m i⟩,
      show [1, 0].Perm (List.range 2) by decide,
      ⟨fun _ _ => Nat.one_pos, fun _ _ => Nat.one_pos, fun _ _ => Nat.one_pos, fun _ _ => Nat.one_pos, fun _ _ => Nat.one_pos⟩,
      show [0].Perm (List.range 1) by decide, show [0].Perm (List.range 1) by decide⟩) a
  rw [C58_realTrial _ (exReal_wave 1 rfl)] at h
  have hsum : ∀ F : List Nat → ℂ, (saved.map (fun x => F (szList (exReal 1) x.2.c))).sum = 2 * F [0, 3] := by
    intro F
    have : saved.map (fun x => F (szList (exReal 1) x.2.c)) = (saved.map (fun x => (x.1, szList (exReal 1) x.2.c))).map (fun y => F y.2) := by
      rw [List.map_map]; rfl
    rw [this, hl]
    simp only [List.map_cons, List.map_nil, List.sum_cons, List.sum_nil]
    ring
  refine ⟨h.1.trans ?_, h.2.1.trans ?_, h.2.2.trans ?_⟩
  · rw [show groupCount 3 2 = 2 from rfl]; norm_num
  · unfold meanOf
    rw [show groupCount 3 2 = 2 from rfl]
    simp only [hsum (fun l => (((energyOf (psi (exReal 1)) (hamTerms (exReal 1).p.Nsite (exHamT (2 * Complex.I))) l).re : ℝ) : ℂ)), hE,
      sum_const, card_range, nsmul_eq_mul]
    push_cast
    norm_num
  · unfold meanOf
    rw [show groupCount 3 2 = 2 from rfl]
    simp only [hsum (fun l => (((energyOf (psi (exReal 1)) (hamTerms (exReal 1).p.Nsite (exHamT (2 * Complex.I))) l).re ^ 2 : ℝ) : ℂ)), hE,
      sum_const, card_range, nsmul_eq_mul]
    push_cast
    norm_num

end MVMC
