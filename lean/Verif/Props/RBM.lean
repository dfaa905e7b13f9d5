import Verif.Proof.RBMRatio

/-! # C14, C45: Boltzmann-machine factor -/
namespace MVMC
open Spec

variable {K : Type} [Field K]

/-! ## C14: what `MakeRBMCnt` computes -/

/-- C14: the visible sums: charge per class, spin per class, spin orbitals per class. -/
theorem C14_visible (p : RBMPar K) (ht : RBMTab p) (num : Arr) :
    (∀ c < p.nCP, makeRBMCnt p num c = classSum p.Nsite p.cP (chargeVar p.Nsite num) c) ∧
    (∀ c < p.nSP, makeRBMCnt p num (p.nCP + c) = classSum p.Nsite p.sP (spinVar p.Nsite num) c) ∧
    (∀ c < p.nGP, makeRBMCnt p num (p.nCP + p.nSP + c) = classSum (2 * p.Nsite) p.gP (orbitalVar num) c) :=
  ⟨fun _ h => make_charge num h, fun _ h => make_spin ht num h, fun _ h => make_orbital ht num h⟩

/-- C14: the inputs of the hidden units coupled to charges, to spins and to spin orbitals; the remaining units
(keyword `Nneuron`) have input zero and nothing is written beyond. -/
theorem C14_hidden (p : RBMPar K) (ht : RBMTab p) (num : Arr) :
    (∀ h < p.hC, makeRBMCnt p num (p.nPhys + h) = hiddenInput (if p.nCH > 0 then p.hidden (p.cH h) else 0) p.Nsite
      (fun r => if p.nCX > 0 then p.physHidden (p.cX r h) else 0) (chargeVar p.Nsite num)) ∧
    (∀ h < p.hS, makeRBMCnt p num (p.nPhys + p.hC + h) =
      hiddenInput (if p.nSH > 0 then p.hidden (p.sH h + p.nCH) else 0) p.Nsite
      (fun r => if p.nSX > 0 then p.physHidden (p.sX r h + p.nCX) else 0) (spinVar p.Nsite num)) ∧
    (∀ h < p.hG, makeRBMCnt p num (p.nPhys + p.hC + p.hS + h) =
      hiddenInput (if p.nGH > 0 then p.hidden (p.gH h + (p.nCH + p.nSH)) else 0) (2 * p.Nsite)
      (fun r => if p.nGX > 0 then p.physHidden (p.gX r h + (p.nCX + p.nSX)) else 0) (orbitalVar num)) ∧
    (∀ k, p.nPhys + p.hC + p.hS + p.hG ≤ k → makeRBMCnt p num k = 0) :=
  ⟨fun _ h => make_hidC ht num h, fun _ h => make_hidS ht num h, fun _ h => make_hidG ht num h,
    fun _ h => make_out ht num h⟩

/-! ## C14: the incremental update -/

/-- C14: `UpdateRBMCnt` after a hop between two different sites gives what `MakeRBMCnt` computes for the new
occupation, for every index table. -/
theorem C14_update (p : RBMPar K) (ri rj s : Nat) (num num' : Arr) (h : OccMove p.Nsite ri rj s s num num') :
    updateRBMCnt p ri rj s (makeRBMCnt p num) = makeRBMCnt p num' := by
  rw [updateRBMCnt_eq]
  exact updateRBMCntFsz_ok h (Or.inr (Or.inl rfl))

/-- C14: `UpdateRBMCnt_fsz` for a move that may change site and spin, provided it is not a spin flip on one site in the
presence of a general physical layer (see `C14_flip_witness`). -/
theorem C14_update_fsz_partial (p : RBMPar K) (ri rj s t : Nat) (num num' : Arr) (h : OccMove p.Nsite ri rj s t num num')
    (hg : ri ≠ rj ∨ s = t ∨ p.nGP = 0) :
    updateRBMCntFsz p ri rj s t (makeRBMCnt p num) = makeRBMCnt p num' := updateRBMCntFsz_ok h hg

/-- C14: in every state and stored sample of the Sz-conserving sampler the carried inputs equal a
recomputation. -/
theorem C14_sampler {β γ : Type} (k : Hooks β γ) (p : SamplerPar) (q : RBMPar K)
    (hN : q.Nsite = p.Nsite) (rc : β → Nat → K) (rn : γ → Nat → K) (hk : CountsRBM q k rc rn)
    (hNe : 0 < p.Ne) (hNs : 0 < p.Nsite) (burn : Bool) (warmUp nSample interval : Nat) (c : EleCfg) (b : β)
    (r r' : List Nat) (st' : SState β) (saved : List (Nat × SState β))
    (hc : Consistent p.Ne p.Nsite c.idx c.cfg c.num) (hl : LocalSingle p.Nsite p.locSpn c.num)
    (h0 : ∀ i < q.nPhys + q.nNeuron, rc b i = makeRBMCnt q c.num i)
    (e : vmcMakeSample k p burn warmUp nSample interval c b r = some (st', saved, r')) :
    (∀ x ∈ saved, ∀ i < q.nPhys + q.nNeuron, rc x.2.b i = makeRBMCnt q x.2.c.num i) ∧
    (∀ i < q.nPhys + q.nNeuron, rc st'.b i = makeRBMCnt q st'.c.num i) := by
  have hi : SInv p (fun c b => ∀ i < q.nPhys + q.nNeuron, rc b i = makeRBMCnt q c.num i) (⟨c, b, 0, 0, 0, 0, 0⟩ : SState β) :=
    ⟨hc, hl, h0, Nat.zero_le _, Nat.le_refl _, Nat.le_refl _⟩
  have := outerLoop_inv (rbm_qok hN hk) hNe hNs _ _ _ _ _ hi (by simp) e
  exact ⟨fun x hx => (this.2 x hx).q, this.1.q⟩

/-- two sites, one class or unit of every kind -/
def demoRBM : RBMPar ℚ where
  Nsite := 2
  nCP := 1
  nSP := 2
  nGP := 4
  nCH := 1
  nSH := 1
  nGH := 1
  nCX := 2
  nSX := 2
  nGX := 4
  hC := 1
  hS := 1
  hG := 2
  extra := 1
  cP := fun _ => 0
  sP := fun r => r
  gP := fun r => r
  cH := fun _ => 0
  sH := fun _ => 0
  gH := fun _ => 0
  cX := fun r _ => r
  sX := fun r _ => r
  gX := fun r h => (r + h) % 4
  par := fun i => (i : ℚ) + 1

/-- up electron at 0, down electron at 1 -/
def demoRNum : Arr := fun k => [1, 0, 0, 1].getD k 0
/-- the up electron moved to site 1 -/
def demoRNum' : Arr := fun k => [0, 1, 0, 1].getD k 0
/-- the up electron of site 0 became a down electron -/
def demoRFlip : Arr := fun k => [0, 0, 1, 1].getD k 0

example : RBMTab demoRBM := by constructor <;> decide
example : OccMove demoRBM.Nsite 0 1 0 0 demoRNum demoRNum' := by constructor <;> decide
example : OccMove demoRBM.Nsite 0 0 0 1 demoRNum demoRFlip := by constructor <;> decide
example : (List.range 12).map (makeRBMCnt demoRBM demoRNum) = [0, 1, -1, 1, -1, -1, 1, 8, 8, 10, 6, 0] := by
  decide +kernel
example : (List.range 12).map (updateRBMCnt demoRBM 0 1 0 (makeRBMCnt demoRBM demoRNum)) =
    (List.range 12).map (makeRBMCnt demoRBM demoRNum') := by decide +kernel
example : makeRBMCnt demoRBM demoRNum 7 ≠ makeRBMCnt demoRBM demoRNum' 7 := by decide +kernel

/-- C14 fails for `UpdateRBMCnt_fsz` in the code as it is: a spin flip on one site leaves the general physical layer
(`/repo/src/mVMC/rbm.c:491-523`) at its old value. No caller in the repository uses the function. -/
theorem C14_flip_witness :
    updateRBMCntFsz demoRBM 0 0 0 1 (makeRBMCnt demoRBM demoRNum) 3 ≠ makeRBMCnt demoRBM demoRFlip 3 := by
  decide +kernel

/-- hooks that carry exactly the inputs -/
def rbmHooks (q : RBMPar K) : Hooks (Nat → K) (Nat → K) where
  propHop := fun _ h b => updateRBMCnt q h.ri h.rj h.s b
  propExch := fun _ _ h h2 b => updateRBMCnt q h2.ri h2.rj h2.s (updateRBMCnt q h.ri h.rj h.s b)
  accept := fun _ _ u => u % 2 == 0
  commitHop := fun _ _ b g i => if i < q.nPhys + q.nNeuron then g i else b i
  commitExch := fun _ _ _ b g i => if i < q.nPhys + q.nNeuron then g i else b i
  refresh := fun _ b => b

example (q : RBMPar K) : CountsRBM q (rbmHooks q) (fun b => b) (fun g => g) :=
  ⟨fun _ _ _ => rfl, fun _ _ _ _ _ => rfl, fun _ _ _ _ _ => rfl, fun _ _ _ _ _ _ => rfl, fun _ _ => rfl⟩

/-! ## C45 -/

/-- C45: `exp(LogRBMRatio)` is the visible factor times the product over all hidden units of `cosh(new)/cosh(old)`, for every
block size and every number of threads for which the call is defined. -/
theorem C45_log_ratio_partial (p : RBMPar ℂ) (B T : Nat) (new old : Nat → ℂ) (hB : 0 < B) (hT : 0 < T) (z : ℂ)
    (hn : ∀ h < p.nNeuron, Complex.cosh (new (h + p.nPhys)) ≠ 0)
    (ho : ∀ h < p.nNeuron, Complex.cosh (old (h + p.nPhys)) ≠ 0)
    (e : logRBMRatio p B T new old = some z) :
    Complex.exp z = rbmValue p.nPhys p.nNeuron p.par new (fun h => new (h + p.nPhys)) /
      rbmValue p.nPhys p.nNeuron p.par old (fun h => old (h + p.nPhys)) := by
  rw [logRBMRatio_exp hB hT hn ho e]
  exact rbmValue_div p.nPhys p.nNeuron p.par old new (fun h => old (h + p.nPhys)) (fun h => new (h + p.nPhys))

/-- C45: `RBMRatio` is the same quotient, and equals the quotient of `WeightRBM`. -/
theorem C45_ratio_partial (p : RBMPar ℂ) (B T : Nat) (new old : Nat → ℂ) (hB : 0 < B) (hT : 0 < T) (x : ℂ)
    (hn : ∀ h < p.nNeuron, Complex.cosh (new (h + p.nPhys)) ≠ 0)
    (ho : ∀ h < p.nNeuron, Complex.cosh (old (h + p.nPhys)) ≠ 0)
    (e : rbmRatio p B T new old = some x) :
    x = rbmValue p.nPhys p.nNeuron p.par new (fun h => new (h + p.nPhys)) /
      rbmValue p.nPhys p.nNeuron p.par old (fun h => old (h + p.nPhys)) ∧
    x = weightRBM p new / weightRBM p old := by
  unfold rbmRatio at e
  rw [Option.map_eq_some_iff] at e
  obtain ⟨z, hz, rfl⟩ := e
  have := C45_log_ratio_partial p B T new old hB hT z hn ho hz
  refine ⟨this, ?_⟩
  rw [weightRBM_eq hn, weightRBM_eq ho]
  exact this

/-- C45: a single thread (in particular every call from inside the parallel loops over Hamiltonian terms, where nested
parallelism is off) is always defined. -/
theorem C45_single_thread (p : RBMPar ℂ) (B : Nat) (new old : Nat → ℂ) : ∃ x, rbmRatio p B 1 new old = some x := by
  obtain ⟨z, hz⟩ := logRBMRatio_some_of_one p B new old
  exact ⟨Complex.exp z, by unfold rbmRatio; rw [hz]; rfl⟩

/-- C45 fails for the code as it is with more than one thread: with 17 hidden units in a block and two threads the first
gets 9 and the second 8 iterations, so the two take different branches at `if((icnt%8)==0)` and meet different worksharing
loops; OpenMP leaves this undefined. -/
theorem C45_threads_witness (p : RBMPar ℂ) (new old : Nat → ℂ) (h : p.nNeuron = 17) :
    logRBMRatio p 200 2 new old = none := by
  unfold logRBMRatio
  simp only [h]
  have : rbmUniform 17 2 = false := by decide
  simp [rbmBlock, this]

example : (ompChunk 17 2 0, ompChunk 17 2 1) = ((0, 9), (9, 8)) := by decide
example : rbmUniform 48 2 = true := by decide
example : rbmUniform 10 4 = true := by decide

-- one hidden unit: the ratio of the two cosh
example (a b : ℂ) (p : RBMPar ℂ) (hp : p.nPhys = 0) (hN : p.nNeuron = 1) (ha : Complex.cosh a ≠ 0) (hb : Complex.cosh b ≠ 0) :
    rbmRatio p 8 1 (fun _ => a) (fun _ => b) = some (Complex.cosh a / Complex.cosh b) := by
  obtain ⟨x, hx⟩ := C45_single_thread p 8 (fun _ => a) (fun _ => b)
  have := (C45_ratio_partial p 8 1 (fun _ => a) (fun _ => b) (by omega) (by omega) x (fun _ _ => ha) (fun _ _ => hb) hx).1
  rw [hx, this, hp, hN]
  simp [rbmValue]

end MVMC
