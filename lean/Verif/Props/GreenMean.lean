import Verif.Props.Variational
import Verif.Props.GreenIdx
import Verif.Spec.GreenMean
import Verif.Model.GreenOut

/-! # The measured Green functions are expectation values (C73) -/
namespace MVMC
open MVMC.Spec Matrix Finset

/-! ## Any sector -/

section sector
variable {M : Nat} (Ψ : List Nat → ℂ) (hΨ : Anti M Ψ) (P : Conf M → Prop) [DecidablePred P]

theorem energyOf_single (ops : List Op) (l : List Nat) : energyOf Ψ [(1, ops)] l = matrixElement Ψ ops l := by simp [energyOf]

theorem hamMat_single (M : Nat) (ops : List Op) : hamMat M [(1, ops)] = prodMat M ops := by simp [hamMat]

include hΨ in
theorem psiMean_op (ops : List Op) (ho : ∀ o ∈ ops, o.spinOrb < M) (hP : ClosedOn P (prodMat M ops)) :
    psiMean Ψ P (matrixElement Ψ ops) = Spec.expect (stateOn M P Ψ) (prodMat M ops) := by
  have h := psiMean_energy Ψ hΨ [(1, ops)] (by simpa using ho) P (by rw [hamMat_single]; exact hP)
  rw [hamMat_single] at h
  rw [← h]
  congr 1
  funext l
  rw [energyOf_single]

include hΨ in
theorem matrixElement_sector (ops : List Op) (ho : ∀ o ∈ ops, o.spinOrb < M) (hP : ClosedOn P (prodMat M ops)) (S : Conf M) (hS : P S) :
    matrixElement Ψ ops (S.1.sort (· ≤ ·)) = localValue (stateOn M P Ψ) (prodMat M ops) S := by
  have h' : P (confOf (S.1.sort (· ≤ ·)) (sort_lt S)) := by rw [confOf_sort]; exact hS
  have h := energyOf_sector Ψ hΨ [(1, ops)] (by simpa using ho) P (by rw [hamMat_single]; exact hP) _ (Finset.sort_nodup _ _) (sort_lt S) h'
  rw [energyOf_single, hamMat_single, confOf_sort] at h
  exact h

omit [DecidablePred P] in
/-- `Σ_x |ψ|² A_loc B_loc*` is `⟨ψ|A B†|ψ⟩` without the configurations on which `ψ` vanishes -/
theorem sum_local_two {ι : Type} [Fintype ι] [DecidableEq ι] (ψ : ι → ℂ) (A B : Matrix ι ι ℂ) :
    ∑ x, (Complex.normSq (ψ x) : ℂ) * (localValue ψ A x * (starRingEnd ℂ) (localValue ψ B x)) =
      ev ψ (A * Bᴴ) - ∑ x ∈ univ.filter (fun x => ψ x = 0), (starRingEnd ℂ) ((Aᴴ *ᵥ ψ) x) * (Bᴴ *ᵥ ψ) x := by
  have hc : ∀ (C : Matrix ι ι ℂ) x, ∑ y, (starRingEnd ℂ) (ψ y) * C y x = (starRingEnd ℂ) ((Cᴴ *ᵥ ψ) x) := by
    intro C x
    unfold mulVec dotProduct
    rw [map_sum]
    refine Finset.sum_congr rfl fun y _ => ?_
    show _ = (starRingEnd ℂ) (star (C y x) * ψ y)
    rw [map_mul, mul_comm]
    congr 1
    exact (Complex.conj_conj _).symm
  have e : ∀ x, (Complex.normSq (ψ x) : ℂ) * (localValue ψ A x * (starRingEnd ℂ) (localValue ψ B x)) =
      if ψ x = 0 then 0 else (starRingEnd ℂ) ((Aᴴ *ᵥ ψ) x) * (Bᴴ *ᵥ ψ) x := by
    intro x
    unfold localValue
    rw [hc, hc]
    by_cases h : ψ x = 0
    · simp [h]
    · have h2 : (starRingEnd ℂ) (ψ x) ≠ 0 := by simpa using h
      rw [if_neg h, map_div₀, Complex.conj_conj, Complex.conj_conj, ← Complex.mul_conj]
      field_simp
  have t : ev ψ (A * Bᴴ) = ∑ x, (starRingEnd ℂ) ((Aᴴ *ᵥ ψ) x) * (Bᴴ *ᵥ ψ) x := by
    unfold ev
    rw [← mulVec_mulVec, dotProduct_mulVec]
    unfold dotProduct
    refine Finset.sum_congr rfl fun x _ => ?_
    congr 1
    rw [← hc]
    rfl
  rw [t, Finset.sum_congr rfl (fun x _ => e x), Finset.sum_filter, ← Finset.sum_sub_distrib]
  refine Finset.sum_congr rfl fun x _ => ?_
  split <;> simp

include hΨ in
theorem psiMean_prod (a b : List Op) (ha : ∀ o ∈ a, o.spinOrb < M) (hb : ∀ o ∈ b, o.spinOrb < M) (hA : ClosedOn P (prodMat M a))
    (hB : ClosedOn P (prodMat M b)) :
    psiMean Ψ P (fun l => matrixElement Ψ a l * (starRingEnd ℂ) (matrixElement Ψ b l)) =
      Spec.expect (stateOn M P Ψ) (prodMat M (a ++ b.reverse.map Op.adj)) -
        (∑ x ∈ univ.filter (fun x => stateOn M P Ψ x = 0),
          (starRingEnd ℂ) (((prodMat M a)ᴴ *ᵥ stateOn M P Ψ) x) * ((prodMat M b)ᴴ *ᵥ stateOn M P Ψ) x) / norm2 (stateOn M P Ψ) := by
  unfold psiMean Spec.expect
  rw [norm2_stateOn, prodMat_append, ← prodMat_adj, ← sub_div, ← sum_local_two, Finset.sum_filter]
  congr 1
  refine Finset.sum_congr rfl fun S _ => ?_
  by_cases h : P S
  · rw [if_pos h]
    simp only [matrixElement_sector Ψ hΨ P a ha hA S h, matrixElement_sector Ψ hΨ P b hb hB S h]
    simp [stateOn, h]
  · rw [if_neg h]; simp [stateOn, h]

/-- a product of operators without charge does not change the numbers of electrons -/
theorem prodMat_closed {M : Nat} (ops : List Op) (ho : ∀ o ∈ ops, o.spinOrb < M) (Q : Conf M → Prop)
    (h : ∀ S T : Conf M, Q S → (∀ p : Nat → Bool, (ops.map (chargeOf p)).sum = 0 →
      (T.1.filter (fun x => p x = true)).card = (S.1.filter (fun x => p x = true)).card) → Q T) : ClosedOn Q (prodMat M ops) := by
  intro S T hS hT
  by_contra hne
  exact hT (h S T hS fun p hc => prodMat_cnt ops ho p hc S T hne)

end sector

/-! ## The measured operators -/

theorem charge_pair (p : Nat → Bool) (x y : Nat) (h : p x = p y) : ([Op.cr x, Op.an y].map (chargeOf p)).sum = 0 := by
  simp only [List.map_cons, List.map_nil, List.sum_cons, List.sum_nil, chargeOf, h]
  split <;> simp

theorem low_orb {N i s : Nat} (h : i < N) (hs : s < 2) : decide (i + s * N < N) = decide (s = 0) := by
  have : s = 0 ∨ s = 1 := by omega
  rcases this with rfl | rfl
  · simpa using h
  · simp

theorem up_orb {N i s : Nat} (h : i < N) (hs : s < 2) : decide (N ≤ i + s * N) = decide (s = 1) := by
  have : s = 0 ∨ s = 1 := by omega
  rcases this with rfl | rfl
  · simpa using h
  · simp

theorem site_orb {N i s r : Nat} (h : i < N) (hr : r < N) (hs : s < 2) : decide (i + s * N = r ∨ i + s * N = r + N) = decide (i = r) := by
  have : s = 0 ∨ s = 1 := by omega
  rcases this with rfl | rfl
  · simp; omega
  · simp; omega

section closed
variable (g : GrnEnv) (T : GrnTab) (hT : GrnIdx g.p.Nsite T) (locSpn : Nat → Int) (hl : GrnLocal g.p.Nsite locSpn T)

include hT in
theorem op1_orb {i : Nat} (hi : i < T.n1) : ∀ o ∈ grnOp1 g.p.Nsite T i, o.spinOrb < 2 * g.p.Nsite := by
  have h := hT.one i hi
  intro o ho
  simp only [grnOp1, List.mem_cons, List.not_mem_nil, or_false] at ho
  rcases ho with rfl | rfl
  · exact orb_bound h.1 h.2.1
  · exact orb_bound h.2.2.1 h.2.2.2

include hT in
theorem opDC_orb {i : Nat} (hi : i < T.nDC) : ∀ o ∈ grnOpDC g.p.Nsite T i, o.spinOrb < 2 * g.p.Nsite := by
  have h := hT.two i hi
  intro o ho
  simp only [grnOpDC, List.mem_cons, List.not_mem_nil, or_false] at ho
  rcases ho with rfl | rfl | rfl | rfl
  · exact orb_bound h.1.1 h.2.1
  · exact orb_bound h.1.2.1 h.2.2.1
  · exact orb_bound h.1.2.2.1 h.2.2.2.1
  · exact orb_bound h.1.2.2.2 h.2.2.2.2

include hT hl in
theorem local_op1 {i : Nat} (hi : i < T.n1) (r : Nat) (hr : r < g.p.Nsite) (h1 : locSpn r = 1) :
    ((grnOp1 g.p.Nsite T i).map (chargeOf fun x => decide (x = r ∨ x = r + g.p.Nsite))).sum = 0 := by
  have h := hT.one i hi
  refine charge_pair _ _ _ ?_
  simp only [site_orb h.1 hr h.2.1, site_orb h.2.2.1 hr h.2.2.2, hl.one r hr h1 i hi]

include hT hl in
theorem local_opDC {i : Nat} (hi : i < T.nDC) (r : Nat) (hr : r < g.p.Nsite) (h1 : locSpn r = 1) :
    ((grnOpDC g.p.Nsite T i).map (chargeOf fun x => decide (x = r ∨ x = r + g.p.Nsite))).sum = 0 := by
  have h := hT.two i hi
  have z := hl.two r hr h1 i hi
  simp only [grnOpDC, List.map_cons, List.map_nil, List.sum_cons, List.sum_nil, chargeOf, site_orb h.1.1 hr h.2.1, site_orb h.1.2.1 hr h.2.2.1,
    site_orb h.1.2.2.1 hr h.2.2.2.1, site_orb h.1.2.2.2 hr h.2.2.2.2, decide_eq_true_eq]
  by_cases c1 : T.tDC i 0 = r <;> by_cases c2 : T.tDC i 2 = r <;> by_cases c3 : T.tDC i 4 = r <;> by_cases c4 : T.tDC i 6 = r <;>
    simp [c1, c2, c3, c4] at z ⊢

include hT hl in
theorem closed_op1_sz (hs : GrnSz T) {i : Nat} (hi : i < T.n1) : ClosedOn (szSector g locSpn) (prodMat (2 * g.p.Nsite) (grnOp1 g.p.Nsite T i)) := by
  refine prodMat_closed _ (op1_orb g T hT hi) _ (fun S U hS h => ?_)
  have q := hT.one i hi
  refine ⟨⟨?_, ?_⟩, fun r hr h1 => ?_⟩
  · have := h (fun x => decide (x < g.p.Nsite)) (charge_pair _ _ _ (by simp only [low_orb q.1 q.2.1, low_orb q.2.2.1 q.2.2.2]; rw [hs.one i hi]))
    simp only [decide_eq_true_eq] at this
    exact this.trans hS.1.1
  · have := h (fun x => decide (g.p.Nsite ≤ x)) (charge_pair _ _ _ (by simp only [up_orb q.1 q.2.1, up_orb q.2.2.1 q.2.2.2]; rw [hs.one i hi]))
    simp only [decide_eq_true_eq] at this
    exact this.trans hS.1.2
  · have := h _ (local_op1 g T hT locSpn hl hi r hr h1)
    simp only [decide_eq_true_eq] at this
    exact this.trans (hS.2 r hr h1)

include hT hl in
theorem closed_opDC_sz (hs : GrnSz T) {i : Nat} (hi : i < T.nDC) : ClosedOn (szSector g locSpn) (prodMat (2 * g.p.Nsite) (grnOpDC g.p.Nsite T i)) := by
  refine prodMat_closed _ (opDC_orb g T hT hi) _ (fun S U hS h => ?_)
  have q := hT.two i hi
  have z := hs.two i hi
  refine ⟨⟨?_, ?_⟩, fun r hr h1 => ?_⟩
  · have := h (fun x => decide (x < g.p.Nsite)) (by
      simp only [grnOpDC, List.map_cons, List.map_nil, List.sum_cons, List.sum_nil, chargeOf, low_orb q.1.1 q.2.1, low_orb q.1.2.1 q.2.2.1,
        low_orb q.1.2.2.1 q.2.2.2.1, low_orb q.1.2.2.2 q.2.2.2.2, decide_eq_true_eq]
      rw [z.1, z.2]
      split <;> split <;> simp)
    simp only [decide_eq_true_eq] at this
    exact this.trans hS.1.1
  · have := h (fun x => decide (g.p.Nsite ≤ x)) (by
      simp only [grnOpDC, List.map_cons, List.map_nil, List.sum_cons, List.sum_nil, chargeOf, up_orb q.1.1 q.2.1, up_orb q.1.2.1 q.2.2.1,
        up_orb q.1.2.2.1 q.2.2.2.1, up_orb q.1.2.2.2 q.2.2.2.2, decide_eq_true_eq]
      rw [z.1, z.2]
      split <;> split <;> simp)
    simp only [decide_eq_true_eq] at this
    exact this.trans hS.1.2
  · have := h _ (local_opDC g T hT locSpn hl hi r hr h1)
    simp only [decide_eq_true_eq] at this
    exact this.trans (hS.2 r hr h1)

include hT hl in
theorem closed_op1_fsz {i : Nat} (hi : i < T.n1) : ClosedOn (fszSector g locSpn) (prodMat (2 * g.p.Nsite) (grnOp1 g.p.Nsite T i)) := by
  refine prodMat_closed _ (op1_orb g T hT hi) _ (fun S U hS h => ⟨?_, fun r hr h1 => ?_⟩)
  · have := h (fun _ => true) (charge_pair _ _ _ rfl)
    simp only [filter_true] at this
    exact this.trans hS.1
  · have := h _ (local_op1 g T hT locSpn hl hi r hr h1)
    simp only [decide_eq_true_eq] at this
    exact this.trans (hS.2 r hr h1)

include hT hl in
theorem closed_opDC_fsz {i : Nat} (hi : i < T.nDC) : ClosedOn (fszSector g locSpn) (prodMat (2 * g.p.Nsite) (grnOpDC g.p.Nsite T i)) := by
  refine prodMat_closed _ (opDC_orb g T hT hi) _ (fun S U hS h => ⟨?_, fun r hr h1 => ?_⟩)
  · have := h (fun _ => true) (by simp [grnOpDC, chargeOf])
    simp only [filter_true] at this
    exact this.trans hS.1
  · have := h _ (local_opDC g T hT locSpn hl hi r hr h1)
    simp only [decide_eq_true_eq] at this
    exact this.trans (hS.2 r hr h1)

end closed

section green
variable (g : GrnEnv) (hg : GrnOK g) (T : GrnTab) (hT : GrnIdx g.p.Nsite T) (locSpn : Nat → Int) (hl : GrnLocal g.p.Nsite locSpn T)
include hg hT hl

/-- C73, fixed Sz: averaged over the configurations of the sampler with the weight `|ψ|²`, the local values whose mean `PhysCisAjs` and
`PhysCisAjsCktAltDC` hold (C57) are the expectation values of the operators in the state that the sampler samples, zeros of `ψ` included. -/
theorem C73_green (hs : GrnSz T) :
    (∀ i < T.n1, psiMean (psi g) (szSector g locSpn) (matrixElement (psi g) (grnOp1 g.p.Nsite T i)) =
      Spec.expect (trialSz g locSpn) (prodMat (2 * g.p.Nsite) (grnOp1 g.p.Nsite T i))) ∧
    ∀ i < T.nDC, psiMean (psi g) (szSector g locSpn) (matrixElement (psi g) (grnOpDC g.p.Nsite T i)) =
      Spec.expect (trialSz g locSpn) (prodMat (2 * g.p.Nsite) (grnOpDC g.p.Nsite T i)) :=
  ⟨fun _ hi => psiMean_op _ (psi_anti hg) _ _ (op1_orb g T hT hi) (closed_op1_sz g T hT locSpn hl hs hi),
    fun _ hi => psiMean_op _ (psi_anti hg) _ _ (opDC_orb g T hT hi) (closed_opDC_sz g T hT locSpn hl hs hi)⟩

/-- C73, general Sz; spin-flipping operators included. -/
theorem C73_green_fsz :
    (∀ i < T.n1, psiMean (psi g) (fszSector g locSpn) (matrixElement (psi g) (grnOp1 g.p.Nsite T i)) =
      Spec.expect (trialFsz g locSpn) (prodMat (2 * g.p.Nsite) (grnOp1 g.p.Nsite T i))) ∧
    ∀ i < T.nDC, psiMean (psi g) (fszSector g locSpn) (matrixElement (psi g) (grnOpDC g.p.Nsite T i)) =
      Spec.expect (trialFsz g locSpn) (prodMat (2 * g.p.Nsite) (grnOpDC g.p.Nsite T i)) :=
  ⟨fun _ hi => psiMean_op _ (psi_anti hg) _ _ (op1_orb g T hT hi) (closed_op1_fsz g T hT locSpn hl hi),
    fun _ hi => psiMean_op _ (psi_anti hg) _ _ (opDC_orb g T hT hi) (closed_opDC_fsz g T hT locSpn hl hi)⟩

/-- C73: the average of the products of one-body values, `PhysCisAjsCktAlt`, is the expectation value of `A B†`, where `A` and `B` are the operators
of the two entries, if the trial state has no zero among the configurations. In general the zeros are missing from the intermediate states. -/
theorem C73_pair (hs : GrnSz T) (i : Nat) (hi : i < T.n2) :
    psiMean (psi g) (szSector g locSpn) (fun l => matrixElement (psi g) (grnOp1 g.p.Nsite T (T.t2 i 0)) l *
        (starRingEnd ℂ) (matrixElement (psi g) (grnOp1 g.p.Nsite T (T.t2 i 1)) l)) =
      Spec.expect (trialSz g locSpn) (prodMat (2 * g.p.Nsite) (grnOpPair g.p.Nsite T i)) -
        (∑ x ∈ univ.filter (fun x => trialSz g locSpn x = 0),
          (starRingEnd ℂ) (((prodMat (2 * g.p.Nsite) (grnOp1 g.p.Nsite T (T.t2 i 0)))ᴴ *ᵥ trialSz g locSpn) x) *
            ((prodMat (2 * g.p.Nsite) (grnOp1 g.p.Nsite T (T.t2 i 1)))ᴴ *ᵥ trialSz g locSpn) x) / norm2 (trialSz g locSpn) :=
  psiMean_prod _ (psi_anti hg) _ _ _ (op1_orb g T hT (hT.prod i hi).1) (op1_orb g T hT (hT.prod i hi).2)
    (closed_op1_sz g T hT locSpn hl hs (hT.prod i hi).1) (closed_op1_sz g T hT locSpn hl hs (hT.prod i hi).2)

/-- C73, general Sz: the same for the products of one-body values. -/
theorem C73_pair_fsz (i : Nat) (hi : i < T.n2) :
    psiMean (psi g) (fszSector g locSpn) (fun l => matrixElement (psi g) (grnOp1 g.p.Nsite T (T.t2 i 0)) l *
        (starRingEnd ℂ) (matrixElement (psi g) (grnOp1 g.p.Nsite T (T.t2 i 1)) l)) =
      Spec.expect (trialFsz g locSpn) (prodMat (2 * g.p.Nsite) (grnOpPair g.p.Nsite T i)) -
        (∑ x ∈ univ.filter (fun x => trialFsz g locSpn x = 0),
          (starRingEnd ℂ) (((prodMat (2 * g.p.Nsite) (grnOp1 g.p.Nsite T (T.t2 i 0)))ᴴ *ᵥ trialFsz g locSpn) x) *
            ((prodMat (2 * g.p.Nsite) (grnOp1 g.p.Nsite T (T.t2 i 1)))ᴴ *ᵥ trialFsz g locSpn) x) / norm2 (trialFsz g locSpn) :=
  psiMean_prod _ (psi_anti hg) _ _ _ (op1_orb g T hT (hT.prod i hi).1) (op1_orb g T hT (hT.prod i hi).2)
    (closed_op1_fsz g T hT locSpn hl (hT.prod i hi).1) (closed_op1_fsz g T hT locSpn hl (hT.prod i hi).2)

/-- C73: without zeros the average of the products is the expectation value of `A B†`. -/
theorem C73_pair_partial (hs : GrnSz T) (hn : ∀ S : Conf (2 * g.p.Nsite), szSector g locSpn S → psi g (S.1.sort (· ≤ ·)) ≠ 0) (i : Nat) (hi : i < T.n2) :
    psiMean (psi g) (szSector g locSpn) (fun l => matrixElement (psi g) (grnOp1 g.p.Nsite T (T.t2 i 0)) l *
        (starRingEnd ℂ) (matrixElement (psi g) (grnOp1 g.p.Nsite T (T.t2 i 1)) l)) =
      Spec.expect (trialSz g locSpn) (prodMat (2 * g.p.Nsite) (grnOpPair g.p.Nsite T i)) := by
  rw [C73_pair g hg T hT locSpn hl hs i hi, Finset.sum_eq_zero, zero_div, sub_zero]
  intro x hx
  have hx : trialSz g locSpn x = 0 := (mem_filter.mp hx).2
  have hP : ¬ szSector g locSpn x := fun h => hn x h (by simpa [trialSz, stateOn, h] using hx)
  have z : ((prodMat (2 * g.p.Nsite) (grnOp1 g.p.Nsite T (T.t2 i 1)))ᴴ *ᵥ trialSz g locSpn) x = 0 := by
    have hcl := closed_op1_sz g T hT locSpn hl hs (hT.prod i hi).2
    show ∑ y, (prodMat (2 * g.p.Nsite) (grnOp1 g.p.Nsite T (T.t2 i 1)))ᴴ x y * trialSz g locSpn y = 0
    refine Finset.sum_eq_zero fun y _ => ?_
    by_cases hy : szSector g locSpn y
    · have : (prodMat (2 * g.p.Nsite) (grnOp1 g.p.Nsite T (T.t2 i 1))) y x = 0 := by
        have q := hT.one _ (hT.prod i hi).2
        by_contra hne
        refine hP ?_
        have cnt := fun (p : Nat → Bool) hc => (prodMat_cnt _ (op1_orb g T hT (hT.prod i hi).2) p hc x y hne).symm
        refine ⟨⟨?_, ?_⟩, fun r hr h1 => ?_⟩
        · have := cnt (fun x => decide (x < g.p.Nsite)) (charge_pair _ _ _ (by
            simp only [low_orb q.1 q.2.1, low_orb q.2.2.1 q.2.2.2]; rw [hs.one _ (hT.prod i hi).2]))
          simp only [decide_eq_true_eq] at this
          exact this.trans hy.1.1
        · have := cnt (fun x => decide (g.p.Nsite ≤ x)) (charge_pair _ _ _ (by
            simp only [up_orb q.1 q.2.1, up_orb q.2.2.1 q.2.2.2]; rw [hs.one _ (hT.prod i hi).2]))
          simp only [decide_eq_true_eq] at this
          exact this.trans hy.1.2
        · have := cnt _ (local_op1 g T hT locSpn hl (hT.prod i hi).2 r hr h1)
          simp only [decide_eq_true_eq] at this
          exact this.trans (hy.2 r hr h1)
      simp [conjTranspose_apply, this]
    · simp [trialSz, stateOn, hy]
  rw [z, mul_zero]

end green

/-! ## The lines of the files -/

theorem inLat_nat {n : Nat} {z : ℤ} (h : InLat n z) : z.toNat < n := by unfold InLat at h; omega

/-- the operator `c†_{x0,x1} c_{x2,x3}` that four integers of a line ask for -/
def askedOp (N : Nat) (l : DLine) (k : Nat) : List Op :=
  [.cr ((l.ints.getD k 0).toNat + (l.ints.getD (k + 1) 0).toNat * N), .an ((l.ints.getD (k + 2) 0).toNat + (l.ints.getD (k + 3) 0).toNat * N)]

/-- C73: with complete lines the products that row `r` of the tables stands for are the two operators of line `r` of the two-body file, and every
one-body operator that is asked for is in the table. -/
theorem C73_lines (N : Nat) (Lanczos : ℤ) (l1 l2 : List DLine) (f1 : ∀ l ∈ l1, Full 4 0 l) (f2 : ∀ l ∈ l2, Full 8 0 l) (hne : l2 ≠ [])
    (g1 : ∀ l ∈ l1, GoodOp N (lineOp l 0)) (g2 : ∀ l ∈ l2, GoodOp N (lineOp l 0) ∧ GoodOp N (lineOp l 4)) (tDC : Nat → Nat → Nat) :
    ∃ (n : ℕ) (t : GTab) (c : ℕ → Option (ℤ × ℤ)), greenTables N Lanczos l1.length l2.length l1 l2 = .ok (n, t, c) ∧
      GrnIdx N (tabOf n l2.length t c 0 tDC) ∧
      (∀ l ∈ l1, ∃ i < n, grnOp1 N (tabOf n l2.length t c 0 tDC) i = askedOp N l 0) ∧
      ∀ r l, l2[r]? = some l → grnOpPair N (tabOf n l2.length t c 0 tDC) r = askedOp N l 0 ++ askedOp N l 4 := by
  obtain ⟨n, t, c, e, h1, h0, h2, h3, _⟩ := C40_tables_partial N Lanczos l1 l2 f1 f2 hne g1 g2
  have hgood : ∀ o ∈ neededOps l1 l2, GoodOp N o := by
    intro o ho
    rcases List.mem_append.mp ho with ho | ho
    · obtain ⟨l, hl, rfl⟩ := List.mem_map.mp ho
      exact g1 l hl
    · obtain ⟨l, hl, ho⟩ := List.mem_flatMap.mp ho
      simp only [List.mem_cons, List.not_mem_nil, or_false] at ho
      rcases ho with rfl | rfl
      · exact (g2 l hl).1
      · exact good_adj (g2 l hl).2
  have hlt : ∀ k o, t k = some o → k < n := by
    intro k o hk
    by_contra q
    rw [h0 k (by omega)] at hk
    simp at hk
  refine ⟨n, t, c, e, ⟨?_, fun i hi => absurd hi (Nat.not_lt_zero i), ?_⟩, ?_, ?_⟩
  · intro i hi
    obtain ⟨o, ho, hto⟩ := h1 i hi
    have q := hgood o ho
    simp only [tabOf, hto, Option.getD_some]
    exact ⟨inLat_nat q.1, inLat_nat q.2.1, inLat_nat q.2.2.1, inLat_nat q.2.2.2⟩
  · intro i hi
    have hi : i < l2.length := hi
    obtain ⟨k1, k2, hc, a, b⟩ := h3 i l2[i] (List.getElem?_eq_getElem hi)
    simp only [tabOf, hc, Option.getD_some]
    exact ⟨hlt _ _ a, hlt _ _ b⟩
  · intro l hl
    obtain ⟨k, hk, _⟩ := h2 (lineOp l 0) (List.mem_append_left _ (List.mem_map.mpr ⟨l, hl, rfl⟩))
    refine ⟨k, hlt _ _ hk, ?_⟩
    simp [grnOp1, tabOf, hk, askedOp, lineOp]
  · intro r l hr
    obtain ⟨k1, k2, hc, a, b⟩ := h3 r l hr
    simp [grnOpPair, grnOp1, tabOf, hc, a, b, askedOp, lineOp, gAdj, Op.adj]

/-- the sum of the first of the two complex numbers that a line of a Green function file holds -/
noncomputable def lineValue (x : List Nat × ℝ × ℝ) : ℂ := ⟨x.2.1, x.2.2⟩

/-- the operators that the indices of a written line stand for -/
def labelOps (N : Nat) : List Nat → List Op
  | i :: s :: j :: t :: l => .cr (i + s * N) :: .an (j + t * N) :: labelOps N l
  | _ => []

theorem outCisAjs_eq (T : GrnTab) (phys : Nat → ℂ) : outCisAjs T phys =
    (List.range T.n1).map fun i => ([T.t1 i 0, T.t1 i 1, T.t1 i 2, T.t1 i 3], (phys i).re, (phys i).im) := by
  unfold outCisAjs
  split
  · rfl
  · rw [show T.n1 = 0 by omega]; rfl

theorem outCisAjsCktAltDC_eq (T : GrnTab) (phys : Nat → ℂ) : outCisAjsCktAltDC T phys = (List.range T.nDC).map fun i =>
    ([T.tDC i 0, T.tDC i 1, T.tDC i 2, T.tDC i 3, T.tDC i 4, T.tDC i 5, T.tDC i 6, T.tDC i 7], (phys i).re, (phys i).im) := by
  unfold outCisAjsCktAltDC
  split
  · rfl
  · rw [show T.nDC = 0 by omega]; rfl

/-- the numbers of one long line, two for each function -/
theorem pairs_get (n : Nat) (a b : Nat → ℝ) : ((List.range n).flatMap fun i => [a i, b i]).length = 2 * n ∧
    ∀ i < n, ((List.range n).flatMap fun i => [a i, b i])[2 * i]? = some (a i) ∧
      ((List.range n).flatMap fun i => [a i, b i])[2 * i + 1]? = some (b i) := by
  induction n with
  | zero => exact ⟨rfl, fun i hi => absurd hi (by omega)⟩
  | succ n ih =>
    obtain ⟨hl, hv⟩ := ih
    rw [List.range_succ, List.flatMap_append]
    refine ⟨by rw [List.length_append, hl]; simp; omega, fun i hi => ?_⟩
    by_cases c : i < n
    · rw [List.getElem?_append_left (by omega), List.getElem?_append_left (by omega)]
      exact hv i c
    · have : i = n := by omega
      subst this
      rw [List.getElem?_append_right (by omega), List.getElem?_append_right (by omega), hl, show 2 * i - 2 * i = 0 by omega,
        show 2 * i + 1 - 2 * i = 1 by omega]
      exact ⟨rfl, rfl⟩

theorem outCisAjsCktAlt_eq (T : GrnTab) (phys : Nat → ℂ) : outCisAjsCktAlt T phys =
    (List.range T.n2).flatMap fun i => [(phys i).re, (phys i).im] := by
  unfold outCisAjsCktAlt
  split
  · rfl
  · rw [show T.n2 = 0 by omega]; rfl

section written
variable (g : GrnEnv) (hg : GrnOK g) (hr : g.flagRBM = true → GrnRBM g) (hz : NoZero g) (lib : SkLib ℂ) (hlib : LibOK lib) (htot : LibTotal lib)
  (hNe : 0 < g.p.Ne) (hNs : 0 < g.p.Nsite)
  (H : HamPar) (hH : HamIdx g.p.Nsite H) (hsz : HamSzConserving H) (T : GrnTab) (hT : GrnIdx g.p.Nsite T) (hTs : GrnSz T)
  (locSpn : Nat → Int) (exPath : Int) (warmUp nSample interval np S : Nat) (burn : Nat → Bool)
  (hn : 0 < nSample) (hnp : 0 < np) (hS : 0 < S) (saved : Nat → List (Nat × SState SzMem))
  (hrun : ∀ γ < groupCount np S, StoredRun g lib locSpn exPath (burn γ) warmUp nSample interval (saved γ))
  (S0 : Nat → EleStore) (o : Nat → Nat → MainOr EleCfg) (ho : ∀ k s, MainOrOK H T (o k s)) (a : Nat → PhysAcc)
include hg hr hz hlib htot hNe hNs hH hsz hT hTs hn hnp hS hrun ho

/-- C73: every line that rank 0 writes to `zvo_cisajs` and `zvo_cisajscktalt` holds the mean, over all stored samples of all groups, of the local value
of the operators that the indices of this same line name; there is one line for each measured function. The line of `zvo_cisajscktaltex`, which has no
indices, holds real and imaginary part of the mean of the product of the two local values that the table of pairs names, in the order of the table. -/
theorem C73_written :
    let acc := fun k =>
      vmcMainCal g H T lib 1 nSample (k % S) (groupSize np S (k / S)) (storeRun g (saved (k / S)) (S0 k)) (o k) (a k)
    let wc := (weightAverageWE np acc).wc
    let f1 := outCisAjs T (weightAverageGreen np wc fun k => (acc k).grn.phys1)
    let f2 := outCisAjsCktAltDC T (weightAverageGreen np wc fun k => (acc k).grn.physDC)
    let f3 := outCisAjsCktAlt T (weightAverageGreen np wc fun k => (acc k).grn.phys2)
    f1.length = T.n1 ∧ f2.length = T.nDC ∧
    (∀ x ∈ f1 ++ f2, lineValue x =
      meanOf (groupCount np S) nSample saved (fun st => matrixElement (psi g) (labelOps g.p.Nsite x.1) (szList g st.c))) ∧
    f3.length = 2 * T.n2 ∧
    ∀ i < T.n2, ∃ z : ℂ, f3[2 * i]? = some z.re ∧ f3[2 * i + 1]? = some z.im ∧
      z = meanOf (groupCount np S) nSample saved (fun st => matrixElement (psi g) (grnOp1 g.p.Nsite T (T.t2 i 0)) (szList g st.c) *
        (starRingEnd ℂ) (matrixElement (psi g) (grnOp1 g.p.Nsite T (T.t2 i 1)) (szList g st.c))) := by
  intro acc wc f1 f2 f3
  have key := C57_green g hg hr hz lib hlib htot hNe hNs H hH hsz T hT hTs locSpn exPath 1 warmUp nSample interval np S burn hn hnp hS saved hrun
    S0 o ho a rfl
  have e1 : f1 = (List.range T.n1).map fun i => ([T.t1 i 0, T.t1 i 1, T.t1 i 2, T.t1 i 3], (weightAverageGreen np wc (fun k => (acc k).grn.phys1) i).re,
      (weightAverageGreen np wc (fun k => (acc k).grn.phys1) i).im) := outCisAjs_eq _ _
  have e2 : f2 = (List.range T.nDC).map fun i => ([T.tDC i 0, T.tDC i 1, T.tDC i 2, T.tDC i 3, T.tDC i 4, T.tDC i 5, T.tDC i 6, T.tDC i 7],
      (weightAverageGreen np wc (fun k => (acc k).grn.physDC) i).re, (weightAverageGreen np wc (fun k => (acc k).grn.physDC) i).im) := outCisAjsCktAltDC_eq _ _
  have e3 := outCisAjsCktAlt_eq T (weightAverageGreen np wc fun k => (acc k).grn.phys2)
  have p3 := pairs_get T.n2 (fun i => (weightAverageGreen np wc (fun k => (acc k).grn.phys2) i).re)
    (fun i => (weightAverageGreen np wc (fun k => (acc k).grn.phys2) i).im)
  rw [← e3] at p3
  refine ⟨by rw [e1]; simp, by rw [e2]; simp, fun x hx => ?_, p3.1, fun i hi => ⟨_, (p3.2 i hi).1, (p3.2 i hi).2, key.2.2 i hi⟩⟩
  rcases List.mem_append.mp hx with hx | hx
  · rw [e1] at hx
    obtain ⟨i, hi, rfl⟩ := List.mem_map.mp hx
    exact key.1 i (List.mem_range.mp hi)
  · rw [e2] at hx
    obtain ⟨i, hi, rfl⟩ := List.mem_map.mp hx
    exact key.2.1 i (List.mem_range.mp hi)

end written

/-! ## Where the claim fails -/

theorem sum_confs (Q : Finset Nat → Prop) [DecidablePred Q] (L : List (List Nat)) (hL : (L.map List.toFinset).Nodup) (hn : ∀ l ∈ L, l.Nodup)
    (hs : ∀ l ∈ L, l.insertionSort (· ≤ ·) = l) (M : Nat) (hQ : (range M).powerset.filter Q = (L.map List.toFinset).toFinset) (f : List Nat → ℂ) :
    ∑ S ∈ univ.filter (fun S : Conf M => Q S.1), f (S.1.sort (· ≤ ·)) = (L.map f).sum := by
  rw [Finset.sum_filter, Finset.sum_coe_sort (range M).powerset (fun S => if Q S then f (S.sort (· ≤ ·)) else 0), ← Finset.sum_filter, hQ,
    List.sum_toFinset _ hL, List.map_map]
  congr 1
  refine List.map_congr_left fun l hl => ?_
  show f (l.toFinset.sort (· ≤ ·)) = f l
  rw [sort_toFinset_eq (hn l hl), hs l hl]

/-- one electron of either spin on two sites -/
theorem sum_two_sites (g : GrnEnv) (hp : g.p = ⟨1, 2⟩) (f : List Nat → ℂ) :
    ∑ S ∈ univ.filter (szSector g fun _ => 0), f (S.1.sort (· ≤ ·)) = f [0, 2] + f [0, 3] + f [1, 2] + f [1, 3] := by
  obtain ⟨p, q, Proj, fl, rbm, B, slt, w, nQP, st⟩ := g
  subst hp
  have h := sum_confs (fun S => (S.filter (· < 2)).card = 1 ∧ (S.filter (2 ≤ ·)).card = 1) [[0, 2], [0, 3], [1, 2], [1, 3]] (by decide) (by decide)
    (by decide) 4 (by decide) f
  rw [show ([[0, 2], [0, 3], [1, 2], [1, 3]].map f).sum = f [0, 2] + f [0, 3] + f [1, 2] + f [1, 3] by simp [add_assoc]] at h
  rw [← h]
  refine Finset.sum_congr (Finset.filter_congr fun S _ => ?_) fun _ _ => rfl
  show (fixedSz 1 2 S ∧ localOne 2 (fun _ => 0) S) ↔ _
  exact ⟨fun h => h.1, fun h => ⟨h, fun r _ q => absurd q (by simp)⟩⟩

/-- one electron of either spin, site 1 a local spin -/
theorem sum_two_sites_local (g : GrnEnv) (hp : g.p = ⟨1, 2⟩) (f : List Nat → ℂ) :
    ∑ S ∈ univ.filter (szSector g fun r => if r = 1 then 1 else 0), f (S.1.sort (· ≤ ·)) = f [0, 3] + f [1, 2] := by
  obtain ⟨p, q, Proj, fl, rbm, B, slt, w, nQP, st⟩ := g
  subst hp
  have h := sum_confs (fun S => ((S.filter (· < 2)).card = 1 ∧ (S.filter (2 ≤ ·)).card = 1) ∧ (S.filter (fun x => x = 1 ∨ x = 3)).card = 1)
    [[0, 3], [1, 2]] (by decide) (by decide) (by decide) 4 (by decide) f
  rw [show ([[0, 3], [1, 2]].map f).sum = f [0, 3] + f [1, 2] by simp] at h
  rw [← h]
  refine Finset.sum_congr (Finset.filter_congr fun S _ => ?_) fun _ _ => rfl
  show (fixedSz 1 2 S ∧ localOne 2 (fun r => if r = 1 then 1 else 0) S) ↔ _
  refine ⟨fun h => ⟨h.1, h.2 1 (by decide) (by simp)⟩, fun h => ⟨h.1, fun r hr q => ?_⟩⟩
  have : r = 1 := by by_contra c; simp [c] at q
  subst this
  exact h.2

/-- pair state `|↑↓,0⟩ + |0,↑↓⟩` on two sites -/
noncomputable def nodeEnv : GrnEnv := { exEnv with
  slt := fun k => if k = 2 ∨ k = 7 then 1 else if k = 8 ∨ k = 13 then -1 else 0 }

theorem nodeEnv_ok : GrnOK nodeEnv where
  hq := rfl
  tab := exEnv_ok.tab
  skew := by
    intro k hk
    have hk : k < 1 := hk
    have : k = 0 := by omega
    subst this
    refine ⟨?_, ?_⟩
    · intro x y hx hy
      have hx : x < 4 := hx
      have hy : y < 4 := hy
      interval_cases x <;> interval_cases y <;> simp [nodeEnv, exEnv, entry]
    · intro x hx
      have hx : x < 4 := hx
      interval_cases x <;> simp [nodeEnv, exEnv, entry]

/-- `c†₀↑c₁↑`, its product with its adjoint through the table of pairs, and the same product as a direct two-body function -/
def nodeTab : GrnTab := ⟨1, fun _ k => if k = 2 then 1 else 0, 1, fun _ k => if k = 2 ∨ k = 4 then 1 else 0, 1, fun _ _ => 0⟩

theorem nodeTab_ok : GrnIdx 2 nodeTab ∧ GrnSz nodeTab :=
  ⟨⟨by simp [nodeTab], by simp [nodeTab], by simp [nodeTab]⟩, ⟨by simp [nodeTab], by simp [nodeTab]⟩⟩

theorem node_corr : corrSpec nodeEnv = fun _ => 1 := by
  funext num
  simp [corrSpec, projSpec, nodeEnv, exEnv, logCorr]

/-- C73: a trial state with zeros. `c†₀↑c₁↑c†₁↑c₀↑` has the expectation value 1/2, which the direct two-body function has as its mean, but the product of
one-body values that the program uses for the two-body functions of the other kind is zero on every configuration. -/
theorem C73_node_violated : GrnOK nodeEnv ∧ GrnIdx nodeEnv.p.Nsite nodeTab ∧ GrnSz nodeTab ∧
    psiMean (psi nodeEnv) (szSector nodeEnv fun _ => 0) (fun l => matrixElement (psi nodeEnv) (grnOp1 nodeEnv.p.Nsite nodeTab (nodeTab.t2 0 0)) l *
        (starRingEnd ℂ) (matrixElement (psi nodeEnv) (grnOp1 nodeEnv.p.Nsite nodeTab (nodeTab.t2 0 1)) l)) = 0 ∧
    psiMean (psi nodeEnv) (szSector nodeEnv fun _ => 0) (matrixElement (psi nodeEnv) (grnOpDC nodeEnv.p.Nsite nodeTab 0)) = 1 / 2 ∧
    Spec.expect (trialSz nodeEnv fun _ => 0) (prodMat (2 * nodeEnv.p.Nsite) (grnOpPair nodeEnv.p.Nsite nodeTab 0)) = 1 / 2 := by
  have hdc : psiMean (psi nodeEnv) (szSector nodeEnv fun _ => 0) (matrixElement (psi nodeEnv) (grnOpDC nodeEnv.p.Nsite nodeTab 0)) = 1 / 2 := by
    unfold psiMean
    rw [sum_two_sites nodeEnv rfl fun l => (Complex.normSq (psi nodeEnv l) : ℂ) * matrixElement (psi nodeEnv) (grnOpDC nodeEnv.p.Nsite nodeTab 0) l,
      Complex.ofReal_sum, sum_two_sites nodeEnv rfl fun l => (Complex.normSq (psi nodeEnv l) : ℂ)]
    simp only [grnOpDC, nodeTab, matrixElement, psi, node_corr]
    simp [actAll, Op.act, nodeEnv, exEnv, overlap, pf, pfN, altSum, entry, waveFunction]
    norm_num
  refine ⟨nodeEnv_ok, nodeTab_ok.1, nodeTab_ok.2, ?_, hdc, ?_⟩
  · unfold psiMean
    rw [sum_two_sites nodeEnv rfl fun l => (Complex.normSq (psi nodeEnv l) : ℂ) * (matrixElement (psi nodeEnv) (grnOp1 nodeEnv.p.Nsite nodeTab (nodeTab.t2 0 0)) l *
        (starRingEnd ℂ) (matrixElement (psi nodeEnv) (grnOp1 nodeEnv.p.Nsite nodeTab (nodeTab.t2 0 1)) l)),
      Complex.ofReal_sum, sum_two_sites nodeEnv rfl fun l => (Complex.normSq (psi nodeEnv l) : ℂ)]
    simp only [grnOp1, nodeTab, matrixElement, psi, node_corr]
    simp [actAll, Op.act, nodeEnv, exEnv, overlap, pf, pfN, altSum, entry, waveFunction]
  · rw [← hdc, (C73_green nodeEnv nodeEnv_ok nodeTab nodeTab_ok.1 (fun _ => 0) ⟨by simp, by simp⟩ nodeTab_ok.2).2 0 (by decide)]
    rfl

theorem dim_corr : corrSpec dimEnv = fun _ => 1 := by
  funext num
  simp [corrSpec, projSpec, dimEnv, exEnv, logCorr]

/-- C73: the reader accepts operators that move an electron to or from a local-spin site. With a local spin on site 1 and a trial function that is 1 on all
configurations, the mean of `c†₀↑c₁↑` is 1/2, although its expectation value in the state on the configurations with one electron on that site is 0. -/
theorem C73_local_violated : GrnOK dimEnv ∧ GrnIdx dimEnv.p.Nsite nodeTab ∧ GrnSz nodeTab ∧
    psiMean (psi dimEnv) (szSector dimEnv fun r => if r = 1 then 1 else 0) (matrixElement (psi dimEnv) (grnOp1 dimEnv.p.Nsite nodeTab 0)) = 1 / 2 ∧
    Spec.expect (trialSz dimEnv fun r => if r = 1 then 1 else 0) (prodMat (2 * dimEnv.p.Nsite) (grnOp1 dimEnv.p.Nsite nodeTab 0)) = 0 := by
  refine ⟨dimEnv_ok, nodeTab_ok.1, nodeTab_ok.2, ?_, ?_⟩
  · unfold psiMean
    rw [sum_two_sites_local dimEnv rfl fun l => (Complex.normSq (psi dimEnv l) : ℂ) * matrixElement (psi dimEnv) (grnOp1 dimEnv.p.Nsite nodeTab 0) l,
      Complex.ofReal_sum, sum_two_sites_local dimEnv rfl fun l => (Complex.normSq (psi dimEnv l) : ℂ)]
    simp only [grnOp1, nodeTab, matrixElement, psi, dim_corr]
    simp [actAll, Op.act, dimEnv, exEnv, overlap, pf, pfN, altSum, entry, waveFunction]
    norm_num
  · unfold Spec.expect ev
    rw [show star (trialSz dimEnv fun r => if r = 1 then 1 else 0) ⬝ᵥ
      (prodMat (2 * dimEnv.p.Nsite) (grnOp1 dimEnv.p.Nsite nodeTab 0) *ᵥ trialSz dimEnv fun r => if r = 1 then 1 else 0) = 0 from ?_, zero_div]
    refine Finset.sum_eq_zero fun x _ => mul_eq_zero.mpr ?_
    by_cases hx : szSector dimEnv (fun r => if r = 1 then 1 else 0) x
    · right
      show ∑ y, prodMat 4 [.cr 0, .an 1] x y * trialSz dimEnv (fun r => if r = 1 then 1 else 0) y = 0
      refine Finset.sum_eq_zero fun y _ => mul_eq_zero.mpr ?_
      by_cases hy : szSector dimEnv (fun r => if r = 1 then 1 else 0) y
      · left
        have hc : ∀ S : Conf 4, szSector dimEnv (fun r => if r = 1 then 1 else 0) S → S.1 = {0, 3} ∨ S.1 = {1, 2} := by
          intro S hS
          have a : ∀ S : Conf 4, fixedSz 1 2 S → (S.1.filter (fun x => x = 1 ∨ x = 3)).card = 1 → S.1 = {0, 3} ∨ S.1 = {1, 2} := by decide
          exact a S hS.1 (hS.2 1 (by decide) (by simp))
        have col := prodMat_col (M := 4) [.cr 0, .an 1] (by decide) (y.1.sort (· ≤ ·)) (Finset.sort_nodup _ _) (sort_lt y) x
        rw [confOf_sort] at col
        refine col.trans ?_
        have so : ∀ l : List Nat, l.Nodup → l.insertionSort (· ≤ ·) = l → y.1 = l.toFinset → y.1.sort (· ≤ ·) = l := by
          intro l h1 h2 h3
          rw [h3, sort_toFinset_eq h1, h2]
        rcases hc y hy with h | h
        · rw [so [0, 3] (by decide) (by decide) (by rw [h]; decide)]
          simp only [actAll, vecOf]
          exact mul_zero _
        · rw [so [1, 2] (by decide) (by decide) (by rw [h]; decide)]
          have : x.1 ≠ {0, 2} := by rcases hc x hx with e | e <;> rw [e] <;> decide
          simp [actAll, Op.act, vecOf, this]
      · right; simp [trialSz, stateOn, hy]
    · left; simp [trialSz, stateOn, hx]

/-! ## Examples -/

-- a trial state without zeros: the product of the one-body values is the expectation value of the product of the operators
example : psiMean (psi dimEnv) (szSector dimEnv fun _ => 0) (fun l => matrixElement (psi dimEnv) (grnOp1 2 nodeTab 0) l *
      (starRingEnd ℂ) (matrixElement (psi dimEnv) (grnOp1 2 nodeTab 0) l)) =
    Spec.expect (trialSz dimEnv fun _ => 0) (prodMat 4 [.cr 0, .an 1, .cr 1, .an 0]) := by
  refine C73_pair_partial dimEnv dimEnv_ok nodeTab nodeTab_ok.1 (fun _ => 0) ⟨by simp, by simp⟩ nodeTab_ok.2 (fun S hS => ?_) 0 (by decide)
  have so : ∀ l : List Nat, l.Nodup → l.insertionSort (· ≤ ·) = l → S.1 = l.toFinset → S.1.sort (· ≤ ·) = l := by
    intro l h1 h2 h3
    rw [h3, sort_toFinset_eq h1, h2]
  rcases dim_confs S hS.1 with h | h | h | h
  · rw [so [0, 2] (by decide) (by decide) (by rw [h]; decide)]; exact (dim_energy 0 0 (by decide) (by decide)).1
  · rw [so [0, 3] (by decide) (by decide) (by rw [h]; decide)]; exact (dim_energy 0 1 (by decide) (by decide)).1
  · rw [so [1, 2] (by decide) (by decide) (by rw [h]; decide)]; exact (dim_energy 1 0 (by decide) (by decide)).1
  · rw [so [1, 3] (by decide) (by decide) (by rw [h]; decide)]; exact (dim_energy 1 1 (by decide) (by decide)).1

-- the value is 1/2, not 0
example : psiMean (psi dimEnv) (szSector dimEnv fun _ => 0) (matrixElement (psi dimEnv) (grnOp1 2 nodeTab 0)) = 1 / 2 := by
  unfold psiMean
  rw [sum_two_sites dimEnv rfl fun l => (Complex.normSq (psi dimEnv l) : ℂ) * matrixElement (psi dimEnv) (grnOp1 2 nodeTab 0) l,
    Complex.ofReal_sum, sum_two_sites dimEnv rfl fun l => (Complex.normSq (psi dimEnv l) : ℂ)]
  simp only [grnOp1, nodeTab, matrixElement, psi, dim_corr]
  simp [actAll, Op.act, dimEnv, exEnv, overlap, pf, pfN, altSum, entry, waveFunction]
  norm_num

-- a two-body line `0 0 1 0 1 0 0 0`: the two operators as written
example : askedOp 2 ⟨[0, 0, 1, 0, 1, 0, 0, 0], []⟩ 0 ++ askedOp 2 ⟨[0, 0, 1, 0, 1, 0, 0, 0], []⟩ 4 = [.cr 0, .an 1, .cr 1, .an 0] := by decide

example : labelOps 2 [0, 0, 1, 1, 1, 1, 0, 0] = [.cr 0, .an 3, .cr 3, .an 0] := by decide

-- lines that are written
example : outCisAjs nodeTab (fun _ => ⟨1 / 2, 3⟩) = [([0, 0, 1, 0], 1 / 2, 3)] ∧
    outCisAjsCktAltDC nodeTab (fun _ => ⟨1, 2⟩) = [([0, 0, 1, 0, 1, 0, 0, 0], 1, 2)] := by
  simp [outCisAjs, outCisAjsCktAltDC, nodeTab]

end MVMC
