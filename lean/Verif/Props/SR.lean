import Verif.Proof.SRGrad
import Mathlib.Tactic.NormNum

/-! # Properties of stochastic reconfiguration (C30–C34, C36, C47, C51, C52)

`wavg L f` (`Verif.Proof.SRMat`) is the weighted mean of `f` over the samples `L`; `allKept` lists the samples of all processes that
are not skipped; `mulV` is the matrix-vector product. -/
namespace MVMC
open Finset

/-! ### C30 -/

/-- component `pi` is selected: its flag is 1 and its overlap diagonal is not below the cut `cut` -/
def Selected (flag : Nat → Int) (sd : Nat → ℝ) (cut : ℝ) (pi : Nat) : Prop := flag pi = 1 ∧ cut ≤ sd pi

open Classical in
/-- number of selected components before `pi`: the place of `pi` in the linear system -/
noncomputable def rankOf (flag : Nat → Int) (sd : Nat → ℝ) (cut : ℝ) (pi : Nat) : Nat := ((List.range pi).filter (Selected flag sd cut ·)).length

open Classical in
theorem smatToPara_selected (m : Nat) (flag : Nat → Int) (sd : Nat → ℝ) (redCut : ℝ) :
    smatToPara m flag sd redCut = (List.range m).filter (Selected flag sd (sDiagMax m sd * redCut) ·) := by
  rw [smatToPara_eq]
  refine List.filter_congr (fun x _ => ?_)
  unfold Selected
  simp only [not_lt]
  congr 1

/-- C30: `sDiagMax` is the largest diagonal element. -/
theorem C30_max (m : Nat) (sd : Nat → ℝ) (hm : 0 < m) : (∀ pi, pi < m → sd pi ≤ sDiagMax m sd) ∧ ∃ pi, pi < m ∧ sDiagMax m sd = sd pi :=
  sDiagMax_max m sd hm

/-- C30: the list of optimised components has the selected components, in increasing order, each once. -/
theorem C30_selection (m : Nat) (flag : Nat → Int) (sd : Nat → ℝ) (redCut : ℝ) :
    (∀ pi, pi ∈ smatToPara m flag sd redCut ↔ pi < m ∧ Selected flag sd (sDiagMax m sd * redCut) pi) ∧
    (smatToPara m flag sd redCut).Pairwise (· < ·) := by
  classical
  rw [smatToPara_selected]
  refine ⟨fun pi => by simp, List.Pairwise.filter _ List.pairwise_lt_range⟩

open Classical in
/-- C30: after an optimisation step with solution `r`, the real (imaginary) part of parameter `k` has moved by the component of `r` that
belongs to it if component `2k` (`2k+1`) is selected, and has not moved otherwise. -/
theorem C30_update (m : Nat) (flag : Nat → Int) (sd : Nat → ℝ) (redCut : ℝ) (r : Nat → ℝ) (para : Nat → ℂ) (k : Nat) :
    updatePara true (smatToPara m flag sd redCut) r para k =
      para k + (if 2 * k < m ∧ Selected flag sd (sDiagMax m sd * redCut) (2 * k) then (r (rankOf flag sd (sDiagMax m sd * redCut) (2 * k)) : ℂ) else 0)
        + (if 2 * k + 1 < m ∧ Selected flag sd (sDiagMax m sd * redCut) (2 * k + 1)
            then (r (rankOf flag sd (sDiagMax m sd * redCut) (2 * k + 1)) : ℂ) * Complex.I else 0) := by
  have h := updateAdds_val (fun pi => decide (Selected flag sd (sDiagMax m sd * redCut) pi)) m r para k
  rw [smatToPara_selected]
  unfold updatePara rankOf
  rw [if_pos rfl, h]
  simp only [decide_eq_true_eq]

/-- C30: a frozen parameter keeps its value. -/
theorem C30_frozen (ok : Bool) (m : Nat) (flag : Nat → Int) (sd : Nat → ℝ) (redCut : ℝ) (r : Nat → ℝ) (para : Nat → ℂ) (k : Nat)
    (h0 : flag (2 * k) ≠ 1 ∨ sd (2 * k) < sDiagMax m sd * redCut) (h1 : flag (2 * k + 1) ≠ 1 ∨ sd (2 * k + 1) < sDiagMax m sd * redCut) :
    updatePara ok (smatToPara m flag sd redCut) r para k = para k := by
  classical
  cases ok with
  | false => rfl
  | true =>
    rw [C30_update, if_neg, if_neg, add_zero, add_zero]
    · rintro ⟨_, h, h'⟩
      rcases h1 with q | q
      · exact q h
      · exact absurd h' (not_le.mpr q)
    · rintro ⟨_, h, h'⟩
      rcases h0 with q | q
      · exact q h
      · exact absurd h' (not_le.mpr q)

/-- C30: nothing moves if the solver failed or its result is not finite. -/
theorem C30_failed (idx : List Nat) (r : Nat → ℝ) (para : Nat → ℂ) : updatePara false idx r para = para := rfl

open Classical in
/-- C30: the parallel update of the real CG version is right for every interleaving of the threads. -/
theorem C30_cg_real_partial (m : Nat) (flag : Nat → Int) (sd : Nat → ℝ) (redCut : ℝ) (r : Nat → ℝ) (para tmp : Nat → ℂ) (evs : List UpdEv)
    (hr : UpdRun (smatToPara m flag sd redCut).length evs) (k : Nat) :
    updatePar (paraAddReal r (smatToPara m flag sd redCut)) evs tmp para k =
      para k + (if k < m ∧ Selected flag sd (sDiagMax m sd * redCut) k then (r (rankOf flag sd (sDiagMax m sd * redCut) k) : ℂ) else 0) := by
  have hsum := sum_selected (fun pi => decide (Selected flag sd (sDiagMax m sd * redCut) pi)) (fun pi si => if pi = k then (r si : ℂ) else 0) m
  rw [← smatToPara_selected] at hsum
  have hlt : ∀ a, a < (smatToPara m flag sd redCut).length → ∃ h, (smatToPara m flag sd redCut).getD a 0 = (smatToPara m flag sd redCut)[a]'h :=
    fun a ha => ⟨ha, by rw [List.getD_eq_getElem?_getD, List.getElem?_eq_getElem ha]; rfl⟩
  have hinj : ∀ a b, a < (smatToPara m flag sd redCut).length → b < (smatToPara m flag sd redCut).length →
      (paraAddReal r (smatToPara m flag sd redCut) a).1 = (paraAddReal r (smatToPara m flag sd redCut) b).1 → a = b := by
    intro a b ha hb h
    obtain ⟨_, ea⟩ := hlt a ha
    obtain ⟨_, eb⟩ := hlt b hb
    have h : (smatToPara m flag sd redCut).getD a 0 = (smatToPara m flag sd redCut).getD b 0 := h
    rw [ea, eb] at h
    have nd : (smatToPara m flag sd redCut).Nodup := ((C30_selection m flag sd redCut).2).imp (fun h => Nat.ne_of_lt h)
    exact (List.Nodup.getElem_inj_iff nd).mp h
  have hR : (∑ pi ∈ range m, if (decide (Selected flag sd (sDiagMax m sd * redCut) pi)) = true then
      (if pi = k then (r ((List.range pi).filter (fun pi => decide (Selected flag sd (sDiagMax m sd * redCut) pi))).length : ℂ) else 0) else 0) =
      (if k < m ∧ Selected flag sd (sDiagMax m sd * redCut) k then (r (rankOf flag sd (sDiagMax m sd * redCut) k) : ℂ) else 0) := by
    have : ∀ pi ∈ range m, (if (decide (Selected flag sd (sDiagMax m sd * redCut) pi)) = true then
      (if pi = k then (r ((List.range pi).filter (fun pi => decide (Selected flag sd (sDiagMax m sd * redCut) pi))).length : ℂ) else 0) else 0) =
      if pi = k then (if Selected flag sd (sDiagMax m sd * redCut) k then (r (rankOf flag sd (sDiagMax m sd * redCut) k) : ℂ) else 0) else 0 := by
      intro pi _
      by_cases h : pi = k
      · subst h
        simp [rankOf]
      · simp [h]
    rw [sum_congr rfl this, sum_ite_eq']
    simp only [mem_range]
    by_cases h : k < m <;> simp [h]
  rw [← hR, ← hsum]
  by_cases hk : ∃ a, a < (smatToPara m flag sd redCut).length ∧ (smatToPara m flag sd redCut).getD a 0 = k
  · obtain ⟨a, ha, rfl⟩ := hk
    have h1 := updatePar_safe _ _ hinj evs hr tmp para ha
    have h2 : (paraAddReal r (smatToPara m flag sd redCut) a).1 = (smatToPara m flag sd redCut).getD a 0 := rfl
    rw [h2] at h1
    rw [h1]
    congr 1
    rw [sum_map_range_list, sum_eq_single a]
    · rw [if_pos rfl]; rfl
    · intro b hb hne
      rw [if_neg]
      intro q
      exact hne (hinj b a (mem_range.mp hb) ha q)
    · intro h; exact absurd (mem_range.mpr ha) h
  · unfold updatePar
    rw [updatePar_untouched _ (smatToPara m flag sd redCut).length (fun a ha q => hk ⟨a, ha, q⟩) evs hr.1]
    rw [sum_map_range_list, sum_eq_zero, add_zero]
    intro b hb
    rw [if_neg]
    exact fun q => hk ⟨b, mem_range.mp hb, q⟩

/-- C30: the parallel update of the complex CG version can lose a component. Real and imaginary part of one parameter are updated by
different iterations; if both read before either writes, one increment is lost. (`stcopt.c:176` has the pragma commented out.) -/
theorem C30_cg_race_witness : UpdRun 2 [.load 0, .load 1, .store 0, .store 1] ∧
    ∀ (r : Nat → ℝ) (tmp para : Nat → ℂ), r 0 ≠ 0 →
      updatePar (paraAdd r [0, 1]) [.load 0, .load 1, .store 0, .store 1] tmp para 0 ≠ updatePara true [0, 1] r para 0 := by
  refine ⟨⟨by decide, ?_⟩, ?_⟩
  · intro si h
    rcases (show si = 0 ∨ si = 1 by omega) with rfl | rfl <;> decide
  · intro r tmp para hr h
    simp [updatePar, updEv, paraAdd, updatePara, runAdds, addAt, List.range_succ] at h
    exact hr h

/-! ### C31 -/

/-- C31: the matrix of the optimisation step is the covariance of the derivatives (`Im ⟨O_i⟩ Im ⟨O_j⟩` is not subtracted), for any
samples, division over processes and skipped samples. -/
theorem C31_covariance (np n : Nat) (smp : Nat → Nat → Option Samp) (lo hi : Nat → Nat) (st : Nat → Nat → ℂ) (idx : Nat → Nat) {si sj : Nat}
    (hi' : idx si + 2 < n) (hj : idx sj + 2 < n) :
    smat0 n (avgOO np (fun p => mainCal false false n (smp p) (lo p) (hi p) (st p))) idx si sj =
      wavg (allKept np smp lo hi) (fun x => (star (x.O (idx si + 2)) * x.O (idx sj + 2)).re)
      - wavg (allKept np smp lo hi) (fun x => (x.O (idx si + 2)).re) * wavg (allKept np smp lo hi) (fun x => (x.O (idx sj + 2)).re) := by
  rw [smat0_avg n _ _ (fun i j hi hj => avgOO_direct hi hj) idx hi' hj]
  congr 2
  funext x
  simp [Complex.mul_re]

/-- C31: it is symmetric. -/
theorem C31_symmetric (np n : Nat) (smp : Nat → Nat → Option Samp) (lo hi : Nat → Nat) (st : Nat → Nat → ℂ) (staDel : ℝ) (idx : Nat → Nat)
    {si sj : Nat} (hi' : idx si + 2 < n) (hj : idx sj + 2 < n) :
    smat n (avgOO np (fun p => mainCal false false n (smp p) (lo p) (hi p) (st p))) staDel idx si sj =
    smat n (avgOO np (fun p => mainCal false false n (smp p) (lo p) (hi p) (st p))) staDel idx sj si := by
  have e : smat0 n (avgOO np (fun p => mainCal false false n (smp p) (lo p) (hi p) (st p))) idx si sj =
      smat0 n (avgOO np (fun p => mainCal false false n (smp p) (lo p) (hi p) (st p))) idx sj si := by
    rw [smat0_avg n _ _ (fun i j hi hj => avgOO_direct hi hj) idx hi' hj, smat0_avg n _ _ (fun i j hi hj => avgOO_direct hi hj) idx hj hi', mul_comm (wavg _ _)]
    congr 2
    funext x
    ring
  unfold smat
  by_cases h : si = sj
  · subst h; rfl
  · rw [if_neg h, if_neg (fun q => h q.symm), e]

/-- C31: it is positive semi-definite. -/
theorem C31_psd (np n m : Nat) (smp : Nat → Nat → Option Samp) (lo hi : Nat → Nat) (st : Nat → Nat → ℂ)
    (hw : ∀ x ∈ allKept np smp lo hi, 0 < x.w) (hne : allKept np smp lo hi ≠ []) (idx : Nat → Nat) (hidx : ∀ s, s < m → idx s + 2 < n) (c : Nat → ℝ) :
    0 ≤ ∑ i ∈ range m, ∑ j ∈ range m, c i * smat0 n (avgOO np (fun p => mainCal false false n (smp p) (lo p) (hi p) (st p))) idx i j * c j := by
  have hW : ((allKept np smp lo hi).map (·.w)).sum ≠ 0 := by
    have : 0 < ((allKept np smp lo hi).map (·.w)).sum := by
      refine List.sum_pos _ ?_ (by simpa using hne)
      intro y hy
      obtain ⟨x, hx, rfl⟩ := List.mem_map.mp hy
      exact hw x hx
    exact ne_of_gt this
  exact smat0_psd n m _ (fun x hx => le_of_lt (hw x hx)) hW _ (fun i j hi hj => avgOO_direct hi hj) idx hidx c

/-- C31: on the selected parameters the modified matrix is positive definite, provided that the largest diagonal element, the cut and
the diagonal modification are positive. -/
theorem C31_positive_definite_partial (np m : Nat) (smp : Nat → Nat → Option Samp) (lo hi : Nat → Nat) (st : Nat → Nat → ℂ)
    (hw : ∀ x ∈ allKept np smp lo hi, 0 < x.w) (hne : allKept np smp lo hi ≠ []) (flag : Nat → Int) (redCut staDel : ℝ)
    (hmax : 0 < sDiagMax m (sDiag (m + 2) (avgOO np (fun p => mainCal false false (m + 2) (smp p) (lo p) (hi p) (st p)))))
    (hcut : 0 < redCut) (hdel : 0 < staDel) (c : Nat → ℝ)
    (hc : ∃ i, i < (smatToPara m flag (sDiag (m + 2) (avgOO np (fun p => mainCal false false (m + 2) (smp p) (lo p) (hi p) (st p)))) redCut).length ∧ c i ≠ 0) :
    let OO := avgOO np (fun p => mainCal false false (m + 2) (smp p) (lo p) (hi p) (st p))
    let l := smatToPara m flag (sDiag (m + 2) OO) redCut
    0 < ∑ i ∈ range l.length, ∑ j ∈ range l.length, c i * smat (m + 2) OO staDel (l.getD · 0) i j * c j := by
  intro OO l
  have hsel : ∀ s, s < l.length → l.getD s 0 < m ∧ 0 < smat0 (m + 2) OO (l.getD · 0) s s := by
    intro s hs
    have hmem : l.getD s 0 ∈ l := by
      rw [List.getD_eq_getElem?_getD, List.getElem?_eq_getElem hs]
      exact List.getElem_mem hs
    obtain ⟨h1, h2⟩ := ((C30_selection m flag _ redCut).1 _).mp hmem
    exact ⟨h1, lt_of_lt_of_le (mul_pos hmax hcut) h2.2⟩
  have h0 := C31_psd np (m + 2) l.length smp lo hi st hw hne (l.getD · 0) (fun s hs => by have := (hsel s hs).1; omega) c
  rw [smat_quad]
  have h1 : 0 < ∑ i ∈ range l.length, smat0 (m + 2) OO (l.getD · 0) i i * (c i * c i) := by
    obtain ⟨i, hi, hci⟩ := hc
    refine sum_pos' (fun j hj => mul_nonneg (le_of_lt (hsel j (mem_range.mp hj)).2) (mul_self_nonneg _)) ⟨i, mem_range.mpr hi, ?_⟩
    exact mul_pos (hsel i hi).2 (mul_self_pos.mpr hci)
  have h2 := mul_pos hdel h1
  exact add_pos_of_nonneg_of_pos h0 h2

/-- one sample whose derivatives are `O` -/
def oneSample (O : Nat → ℂ) : Nat → Nat → Option Samp := fun _ _ => some ⟨1, 0, O⟩

theorem sDiag_oneSample (O : Nat → ℂ) (hO : ∀ k, (O k).im = 0) {pi : Nat} (h : pi < 2) :
    sDiag 4 (avgOO 1 (fun p => mainCal false false 4 (oneSample O p) 0 1 (fun _ => 0))) pi = 0 := by
  have := smat0_avg 4 _ _ (fun i j hi hj => avgOO_direct (np := 1) (smp := oneSample O) (lo := fun _ => 0) (hi := fun _ => 1) (st := fun _ _ => 0) hi hj)
    id (si := pi) (sj := pi) (show pi + 2 < 4 by omega) (show pi + 2 < 4 by omega)
  refine Eq.trans (show _ = smat0 4 _ id pi pi from rfl) (this.trans ?_)
  simp [wavg, allKept, kept, oneSample, hO]

/-- C31: the condition on the largest diagonal element is needed. If all samples have the same real derivatives every diagonal element
vanishes, the cut selects all parameters, and the matrix handed to the solver is zero: `DPOSV` fails or the CG solver divides by zero. -/
theorem C31_degenerate_violated (O : Nat → ℂ) (hO : ∀ k, (O k).im = 0) (redCut staDel : ℝ) :
    let OO := avgOO 1 (fun p => mainCal false false 4 (oneSample O p) 0 1 (fun _ => 0))
    smatToPara 2 (fun _ => 1) (sDiag 4 OO) redCut = [0, 1] ∧ smat 4 OO staDel ([0, 1].getD · 0) 0 0 = 0 := by
  intro OO
  have hd : ∀ pi, pi < 2 → sDiag 4 OO pi = 0 := fun pi h => sDiag_oneSample O hO h
  have hm : sDiagMax 2 (sDiag 4 OO) = 0 := by
    obtain ⟨pi, h, e⟩ := (C30_max 2 (sDiag 4 OO) (by decide)).2
    rw [e, hd pi h]
  refine ⟨?_, ?_⟩
  · rw [smatToPara_eq, hm, zero_mul]
    simp [List.range_succ, hd 0 (by decide), hd 1 (by decide)]
  · have : smat0 4 OO ([0, 1].getD · 0) 0 0 = sDiag 4 OO 0 := rfl
    unfold smat
    rw [if_pos rfl, this, hd 0 (by decide), zero_mul]

/-- two samples with derivatives `1` and `-1` of the single parameter -/
noncomputable def twoSamples : Nat → Nat → Option Samp := fun _ s => some ⟨1, 0, fun k => if k = 0 then 1 else if k = 2 then (if s = 0 then 1 else -1) else 0⟩

/-- C31, example: variance 1; only the real component of the parameter is selected. -/
example : let OO := avgOO 1 (fun p => mainCal false false 4 (twoSamples p) 0 2 (fun _ => 0))
    sDiag 4 OO 0 = 1 ∧ sDiag 4 OO 1 = 0 ∧ smatToPara 2 (fun _ => 1) (sDiag 4 OO) (1 / 2) = [0] := by
  intro OO
  have h0 : sDiag 4 OO 0 = 1 := by
    refine Eq.trans (show _ = smat0 4 OO id 0 0 from rfl) ((smat0_avg 4 _ _ (fun i j hi hj => avgOO_direct (np := 1) (smp := twoSamples)
      (lo := fun _ => 0) (hi := fun _ => 2) (st := fun _ _ => 0) hi hj) id (si := 0) (sj := 0) (by decide) (by decide)).trans ?_)
    have hf : List.filterMap (twoSamples 0) [0, 1] = [⟨1, 0, fun k => if k = 0 then 1 else if k = 2 then 1 else 0⟩, ⟨1, 0, fun k => if k = 0 then 1 else if k = 2 then -1 else 0⟩] := rfl
    norm_num [wavg, allKept, kept, hf, List.range']
  have h1 : sDiag 4 OO 1 = 0 := by
    refine Eq.trans (show _ = smat0 4 OO id 1 1 from rfl) ((smat0_avg 4 _ _ (fun i j hi hj => avgOO_direct (np := 1) (smp := twoSamples)
      (lo := fun _ => 0) (hi := fun _ => 2) (st := fun _ _ => 0) hi hj) id (si := 1) (sj := 1) (by decide) (by decide)).trans ?_)
    have hf : List.filterMap (twoSamples 0) [0, 1] = [⟨1, 0, fun k => if k = 0 then 1 else if k = 2 then 1 else 0⟩, ⟨1, 0, fun k => if k = 0 then 1 else if k = 2 then -1 else 0⟩] := rfl
    norm_num [wavg, allKept, kept, hf, List.range']
  have hm : sDiagMax 2 (sDiag 4 OO) = 1 := by norm_num [sDiagMax, List.range_succ, h0, h1]
  refine ⟨h0, h1, ?_⟩
  rw [smatToPara_eq, hm]
  norm_num [List.range_succ, h0, h1]

/-! ### C32 -/

/-- C32: whenever the solver returns, its residual is the right-hand side minus the matrix times the solution, and `delta` is its square.
(`maxIter` is arbitrary, so this holds after every pass.) -/
theorem C32_residual (n : Nat) (A : Nat → Nat → ℝ) (S : (Nat → ℝ) → Nat → ℝ) (hS : ∀ x i, i < n → S x i = ∑ j ∈ range n, A i j * x j)
    (g : Nat → ℝ) (maxIter : Nat) (tol : ℝ) (c : CGSt) (k : Nat) (h : cgMain n S g maxIter tol = some (c, k)) :
    (∀ i, i < n → c.r i = g i - ∑ j ∈ range n, A i j * c.x j) ∧ c.delta = ∑ i ∈ range n, c.r i * c.r i := by
  have := (cgLoop_res (A := A) hS _ _ _ (show ResOK n A g ⟨fun _ => 0, g, g, xdot n g g⟩ from ⟨fun i _ => by simp [mulV], rfl⟩) c k h).1
  refine ⟨this.1, this.2.trans (xdot_eq _ _ _)⟩

/-- C32: for a symmetric positive definite matrix and a positive tolerance the solver never divides by zero, stops after at most `n`
passes with a residual below the tolerance, and if it takes all `n` passes its solution is exact. -/
theorem C32_solves (n : Nat) (A : Nat → Nat → ℝ) (S : (Nat → ℝ) → Nat → ℝ) (hS : ∀ x i, i < n → S x i = ∑ j ∈ range n, A i j * x j)
    (hA : ∀ i j, i < n → j < n → A i j = A j i)
    (hP : ∀ v : Nat → ℝ, (∃ i, i < n ∧ v i ≠ 0) → 0 < ∑ i ∈ range n, ∑ j ∈ range n, v i * A i j * v j)
    (g : Nat → ℝ) (maxIter : Nat) (hmax : maxIter = 0 ∨ n ≤ maxIter) (tol : ℝ) (ht : 0 < tol) (hn : 0 < n) :
    ∃ c k, cgMain n S g maxIter tol = some (c, k) ∧ k ≤ n ∧
      ∑ i ∈ range n, (g i - ∑ j ∈ range n, A i j * c.x j) ^ 2 < (tol * n) ^ 2 ∧ (k = n → ∀ i, i < n → ∑ j ∈ range n, A i j * c.x j = g i) := by
  have hthr : 0 < tol * tol * (n : ℝ) * n := by
    have : (0 : ℝ) < n := by exact_mod_cast hn
    positivity
  have hP' : ∀ v : Nat → ℝ, (∃ i, i < n ∧ v i ≠ 0) → 0 < xdot n v (mulV n A v) := by
    intro v hv
    have := hP v hv
    rw [xdot_eq]
    unfold mulV
    simp only [mul_sum]
    refine lt_of_lt_of_eq this (sum_congr rfl (fun i _ => sum_congr rfl (fun j _ => by ring)))
  have h0 : Hist n A 0 (fun _ => g) (fun _ => g) :=
    ⟨fun i j h h' => by omega, fun i j h h' => by omega, fun i j h h' => by omega, fun _ _ => rfl, fun i h => by omega, fun _ _ => rfl,
      fun j h => by omega, fun j h => by omega⟩
  obtain ⟨c, k, h1, h2, h3, h4, R, D, hh, hr⟩ := cgLoop_spd (A := A) hS hA hP' hthr (if maxIter > 0 then maxIter else n) 0
    ⟨fun _ => 0, g, g, xdot n g g⟩ _ _ (show ResOK n A g ⟨fun _ => 0, g, g, xdot n g g⟩ from ⟨fun i _ => by simp [mulV], rfl⟩) h0 rfl rfl (by split_ifs <;> omega)
  refine ⟨c, k, h1, by omega, ?_, ?_⟩
  · rw [h4.2, xdot_eq] at h3
    refine lt_of_eq_of_lt (sum_congr rfl (fun i hi => ?_)) (lt_of_lt_of_eq h3 (by ring))
    have := h4.1 i (mem_range.mp hi)
    unfold mulV at this
    rw [← this, sq]
  · intro hk i hi
    have hz := xdot_self_zero (hh.done (le_of_eq hk.symm)) i hi
    rw [← hr, h4.1 i hi] at hz
    unfold mulV at hz
    linarith

/-- C32: with a zero tolerance the solver divides zero by zero as soon as it has converged; here it has the solution from the start. -/
theorem C32_zero_tolerance_violated (n : Nat) (S : (Nat → ℝ) → Nat → ℝ) (hn : 0 < n) : cgMain n S (fun _ => 0) 0 0 = none := by
  have hx : xdot n (fun _ => (0 : ℝ)) (fun _ => 0) = 0 := by rw [xdot_eq]; simp
  unfold cgMain
  obtain ⟨m, rfl⟩ : ∃ m, n = m + 1 := ⟨n - 1, by omega⟩
  rw [hx]
  simp [cgLoop, cgStep]

/-- C32, example: one unknown, `2 x = 6`, is solved in one pass. -/
example : ∃ c, cgMain 1 (fun x i => 2 * x i) (fun _ => 6) 0 (1 / 10) = some (c, 1) ∧ c.x 0 = 3 := by
  have e : ∀ p q : Nat → ℝ, xdot 1 p q = p 0 * q 0 := fun p q => by rw [xdot_eq]; simp
  refine ⟨⟨fun _ => 3, fun _ => 0, fun _ => 0, 0⟩, ?_, rfl⟩
  simp only [cgMain, e]
  norm_num [cgLoop, cgStep, e]

/-! ### C33 -/

/-- C33: applying the overlap operator through the stored samples is multiplying with the matrix that direct accumulation makes, if every
process takes all its samples (`0 … nS-1`, weight 1) and skips none. Missing: processes that share the samples of one Markov chain, and
skipped samples; there the claim is false (`C33_stale_violated`). -/
theorem C33_same_partial (np nS n nSmat : Nat) (smp : Nat → Nat → Option Samp) (y : Nat → Nat → Samp) (st st' : Nat → Nat → ℂ)
    (hy : ∀ p, p < np → ∀ s, s < nS → smp p s = some (y p s)) (hw : ∀ p, p < np → ∀ s, s < nS → (y p s).w = 1)
    (idx : Nat → Nat) (hidx : ∀ s, s < nSmat → idx s + 2 < n) (staDel : ℝ) (x : Nat → ℝ) (si : Nat) (hsi : si < nSmat) :
    let acc := fun p => mainCal true true n (smp p) 0 nS (st p)
    let O := fun si => (avgOO np acc (idx si + 2)).re
    operateByS nSmat np nS (fun p => stcOs n (acc p).store idx) (totalW np acc) staDel O
      (fun si => (avgOO np acc (n + (idx si + 2))).re - O si * O si) x si =
    ∑ sj ∈ range nSmat, smat n (avgOO np (fun p => mainCal false false n (smp p) 0 nS (st' p))) staDel idx si sj * x sj := by
  intro acc O
  exact operateByS_eq hy hw nSmat idx hidx staDel st' x hsi

/-- C33: with a skipped sample the operator uses whatever the store holds. Two samples, the second skipped; the skipped row holds `v`.
The matrix of the direct accumulation has the entry 0 (one sample, no variance). -/
theorem C33_stale_violated (v : ℂ) :
    let smp : Nat → Nat → Option Samp := fun _ s => if s = 0 then some ⟨1, 0, fun k => if k = 0 then 1 else 0⟩ else none
    let acc := fun p => mainCal true true 4 (smp p) 0 2 (fun k => if k = 2 + 1 * 4 then v else 0)
    (operateByS 1 1 2 (fun p => stcOs 4 (acc p).store id) (totalW 1 acc) 0 (fun si => (avgOO 1 acc (si + 2)).re)
      (fun si => (avgOO 1 acc (4 + (si + 2))).re - (avgOO 1 acc (si + 2)).re * (avgOO 1 acc (si + 2)).re) (fun _ => 1) 0 =
        Complex.normSq v - v.re * v.re) ∧
    smat 4 (avgOO 1 (fun p => mainCal false false 4 (smp p) 0 2 (fun _ => 0))) 0 id 0 0 = 0 := by
  intro smp acc
  have r0 : (acc 0).store (2 + 0 * 4) = 0 := by
    rw [store_row 4 true (smp 0) 0 2 _ (Nat.zero_le 0) (by decide) (show smp 0 0 = some ⟨1, 0, fun k => if k = 0 then 1 else 0⟩ from rfl) (by decide)]
    simp
  have r1 : (acc 0).store (2 + 1 * 4) = v := by
    rw [store_stale 4 true (smp 0) 0 2 _ (.inr (.inr rfl)) (by decide)]
    simp
  have hOO : ∀ k, (acc 0).OO k = ooStore true 4 2 (acc 0).store
        ((List.range' 0 2).foldl (sampleStep true 4 (smp 0)) (Acc.clear (fun k => if k = 2 + 1 * 4 then v else 0))).OO k := fun _ => rfl
  have hW : totalW 1 acc = 1 := by
    unfold totalW
    rw [sumLoop_eq, sum_range_one, store_W]
    simp [kept, smp, List.range']
  have hO : avgOO 1 acc 2 = v := by
    unfold avgOO
    rw [hW, sumLoop_eq, sum_range_one, hOO, (cgStore_val 4 2 _ _ (show 2 < 4 by decide)).1, sum_range_succ, sum_range_one, r0, r1]
    simp
  refine ⟨?_, ?_⟩
  · unfold operateByS
    simp only []
    rw [hW, xdot_eq]
    simp only [sumLoop_eq, sum_range_succ, stcOs, id]
    rw [show (0 * 4 + 0 + 2) = 2 + 0 * 4 from rfl, show (1 * 4 + 0 + 2) = 2 + 1 * 4 from rfl, show (0 + 2) = 2 from rfl, r0, r1, hO, Complex.normSq_apply]
    simp
  · have := smat0_avg 4 _ _ (fun i j hi hj => avgOO_direct (np := 1) (smp := smp) (lo := fun _ => 0) (hi := fun _ => 2) (st := fun _ _ => 0) hi hj)
      id (si := 0) (sj := 0) (by decide) (by decide)
    unfold smat
    rw [if_pos rfl, this]
    simp [wavg, allKept, kept, smp, List.range']

/-! ### C34 -/

/-- C34: storing the samples and multiplying once gives the matrix, the energy row and the weight of the direct accumulation, for a process
that has all samples from number 0 on and skips none. Missing: processes that start at another sample, and skipped samples; there the
claim is false (`C34_split_violated`, `C34_discard_violated`). -/
theorem C34_same_partial (n m : Nat) (smp : Nat → Option Samp) (y : Nat → Samp) (hy : ∀ s, s < m → smp s = some (y s))
    (hw : ∀ s, s < m → 0 ≤ (y s).w) (h0 : ∀ s, s < m → (y s).O 0 = 1) (h1 : ∀ s, s < m → (y s).O 1 = 0) (st st' : Nat → ℂ) :
    (∀ i j, i < n → j < n → (mainCal true false n smp 0 m st).OO (i * n + j) = (mainCal false false n smp 0 m st').OO (i * n + j)) ∧
    (∀ j, j < n → (mainCal true false n smp 0 m st).HO j = (mainCal false false n smp 0 m st').HO j) ∧
    (mainCal true false n smp 0 m st).W = (mainCal false false n smp 0 m st').W := by
  refine ⟨fun i j hi hj => ?_, fun j hj => ?_, ?_⟩
  · rw [store_OO n smp m st y hy hw hi hj, direct_OO n false smp 0 m st' hi hj, Nat.sub_zero, kept_all hy, List.map_map, sum_map_range_list]
    refine sum_congr rfl (fun s hs => ?_)
    have hs := mem_range.mp hs
    show _ = ooTerm (y s) i j
    unfold ooTerm
    split_ifs with a b
    · subst a; rw [h0 s hs]; simp
    · subst b; rw [h1 s hs]; simp
    · rfl
  · rw [store_HO n false smp 0 m st hj, direct_HO n false smp 0 m st' hj]
    congr 2
    funext x
    ring
  · rw [store_W, direct_W]

/-- C34: in CG mode the stored samples give the mean row and the diagonal of the same matrix. -/
theorem C34_cg_partial (n m : Nat) (smp : Nat → Option Samp) (y : Nat → Samp) (hy : ∀ s, s < m → smp s = some (y s))
    (hw : ∀ s, s < m → (y s).w = 1) (st st' : Nat → ℂ) (i : Nat) (hi : i < n) :
    (mainCal true true n smp 0 m st).OO i = (mainCal false false n smp 0 m st').OO (0 * n + i) ∧
    (2 ≤ i → (mainCal true true n smp 0 m st).OO (n + i) = (mainCal false false n smp 0 m st').OO (i * n + i)) := by
  obtain ⟨h1, h2⟩ := cg_OO n smp m st y hy hw hi
  refine ⟨?_, fun hi2 => ?_⟩
  · rw [h1, direct_OO n false smp 0 m st' (by omega) hi, Nat.sub_zero, kept_all hy, List.map_map, sum_map_range_list]
    refine sum_congr rfl (fun s hs => ?_)
    show _ = ooTerm (y s) 0 i
    rw [ooTerm, if_pos rfl, hw s (mem_range.mp hs)]
    simp
  · rw [h2, direct_OO n false smp 0 m st' hi hi, Nat.sub_zero, kept_all hy, List.map_map, sum_map_range_list]
    refine sum_congr rfl (fun s hs => ?_)
    show _ = ooTerm (y s) i i
    rw [ooTerm, if_neg (by omega), if_neg (by omega), hw s (mem_range.mp hs), Complex.normSq_eq_conj_mul_self]
    show _ = _ * (starRingEnd ℂ) _
    push_cast
    ring

/-- C34: a process whose samples start at number 1 multiplies the rows `0 …` of the store, not its own. -/
theorem C34_split_violated (y : Samp) (st : Nat → ℂ) :
    (mainCal true false 4 (fun _ => some y) 1 2 st).OO (0 * 4 + 0) = st 0 * star (st 0) ∧
    (mainCal false false 4 (fun _ => some y) 1 2 st).OO (0 * 4 + 0) = (y.w : ℂ) * y.O 0 := by
  refine ⟨?_, ?_⟩
  · have : (mainCal true false 4 (fun _ => some y) 1 2 st).OO (0 * 4 + 0) = ooStore false 4 1 (mainCal true false 4 (fun _ => some y) 1 2 st).store
        ((List.range' 1 1).foldl (sampleStep true 4 (fun _ => some y)) (Acc.clear st)).OO (0 * 4 + 0) := rfl
    rw [this, gemm_val 4 1 _ _ (by decide) (by decide), sum_range_one, store_stale 4 false _ 1 2 st (.inl (by decide)) (by decide)]
  · rw [direct_OO 4 false _ 1 2 st (by decide) (by decide)]
    simp [kept, ooTerm]

/-- C34: a skipped sample contributes the old contents of its row. -/
theorem C34_discard_violated (st : Nat → ℂ) :
    (mainCal true false 4 (fun _ => none) 0 1 st).OO (0 * 4 + 0) = st 0 * star (st 0) ∧
    (mainCal false false 4 (fun _ => none) 0 1 st).OO (0 * 4 + 0) = 0 := by
  refine ⟨?_, ?_⟩
  · have : (mainCal true false 4 (fun _ => none) 0 1 st).OO (0 * 4 + 0) = ooStore false 4 1 (mainCal true false 4 (fun _ => none) 0 1 st).store
        ((List.range' 0 1).foldl (sampleStep true 4 (fun _ => none)) (Acc.clear st)).OO (0 * 4 + 0) := rfl
    rw [this, gemm_val 4 1 _ _ (by decide) (by decide), sum_range_one, store_stale 4 false _ 0 1 st (.inr (.inr rfl)) (by decide)]
  · rw [direct_OO 4 false _ 0 1 st (by decide) (by decide)]
    simp [kept]

/-- C32, C33: the CG solver on the implicit operator of the samples (no skipped sample, one chain per process): it stops within as many
passes as there are selected parameters, with a solution of the explicit system up to the tolerance. -/
theorem C32_overlap_partial (np nS m : Nat) (smp : Nat → Nat → Option Samp) (y : Nat → Nat → Samp) (st : Nat → Nat → ℂ) (hnp : 0 < np) (hnS : 0 < nS)
    (hy : ∀ p, p < np → ∀ s, s < nS → smp p s = some (y p s)) (hw : ∀ p, p < np → ∀ s, s < nS → (y p s).w = 1)
    (flag : Nat → Int) (redCut staDel tol : ℝ) (hcut : 0 < redCut) (hdel : 0 < staDel) (ht : 0 < tol) (g : Nat → ℝ)
    (hmax : 0 < sDiagMax m (sDiag (m + 2) (avgOO np (fun p => mainCal false false (m + 2) (smp p) 0 nS (st p))))) :
    let OO := avgOO np (fun p => mainCal false false (m + 2) (smp p) 0 nS (st p))
    let l := smatToPara m flag (sDiag (m + 2) OO) redCut
    let acc := fun p => mainCal true true (m + 2) (smp p) 0 nS (st p)
    let O := fun si => (avgOO np acc (l.getD si 0 + 2)).re
    0 < l.length →
    ∃ c k, cgMain l.length (operateByS l.length np nS (fun p => stcOs (m + 2) (acc p).store (l.getD · 0)) (totalW np acc) staDel O
        (fun si => (avgOO np acc (m + 2 + (l.getD si 0 + 2))).re - O si * O si)) g 0 tol = some (c, k) ∧ k ≤ l.length ∧
      ∑ i ∈ range l.length, (g i - ∑ j ∈ range l.length, smat (m + 2) OO staDel (l.getD · 0) i j * c.x j) ^ 2 < (tol * l.length) ^ 2 ∧
      (k = l.length → ∀ i, i < l.length → ∑ j ∈ range l.length, smat (m + 2) OO staDel (l.getD · 0) i j * c.x j = g i) := by
  intro OO l acc O hl
  have hlm : ∀ s, s < l.length → l.getD s 0 + 2 < m + 2 := by
    intro s hs
    have hmem : l.getD s 0 ∈ l := by
      rw [List.getD_eq_getElem?_getD, List.getElem?_eq_getElem hs]
      exact List.getElem_mem hs
    have := (((C30_selection m flag _ redCut).1 _).mp hmem).1
    omega
  have hkept : ∀ x ∈ allKept np smp (fun _ => 0) (fun _ => nS), 0 < x.w := by
    intro x hx
    unfold allKept at hx
    obtain ⟨p, hp, hx⟩ := List.mem_flatMap.mp hx
    have hp := List.mem_range.mp hp
    rw [Nat.sub_zero, kept_all (hy p hp)] at hx
    obtain ⟨s, hs, rfl⟩ := List.mem_map.mp hx
    rw [hw p hp s (List.mem_range.mp hs)]
    exact one_pos
  have hne : allKept np smp (fun _ => 0) (fun _ => nS) ≠ [] := by
    intro h
    have : y 0 0 ∈ allKept np smp (fun _ => 0) (fun _ => nS) := by
      unfold allKept
      refine List.mem_flatMap.mpr ⟨0, List.mem_range.mpr hnp, ?_⟩
      rw [Nat.sub_zero, kept_all (hy 0 hnp)]
      exact List.mem_map.mpr ⟨0, List.mem_range.mpr hnS, rfl⟩
    rw [h] at this
    exact absurd this List.not_mem_nil
  refine C32_solves l.length (smat (m + 2) OO staDel (l.getD · 0)) _ ?_ ?_ ?_ g 0 (.inl rfl) tol ht hl
  · intro x i hi
    exact C33_same_partial np nS (m + 2) l.length smp y st st hy hw (l.getD · 0) hlm staDel x i hi
  · intro i j hi hj
    exact C31_symmetric np (m + 2) smp (fun _ => 0) (fun _ => nS) st staDel (l.getD · 0) (hlm i hi) (hlm j hj)
  · intro v hv
    exact C31_positive_definite_partial np m smp (fun _ => 0) (fun _ => nS) st hkept hne flag redCut staDel hmax hcut hdel v hv

/-! ### C36 -/

/-- C36: every index of the vector belongs to exactly one process row and one local index there. -/
theorem C36_owner_unique (n mb nprow si : Nat) (hmb : 0 < mb) (hnp : 0 < nprow) (hsi : si < n) :
    ∃! q : Nat × Nat, q.1 < nprow ∧ q.2 < numroc n mb q.1 nprow ∧ globalIdx mb nprow q.1 q.2 = si := by
  refine ⟨(si / mb % nprow, si / mb / nprow * mb + si % mb), ?_, ?_⟩
  · have hp : si / mb % nprow < nprow := Nat.mod_lt _ hnp
    have hg : globalIdx mb nprow (si / mb % nprow) (si / mb / nprow * mb + si % mb) = si := (globalIdx_inv hmb hp).mpr ⟨rfl, rfl⟩
    exact ⟨hp, by rw [numroc_iff hmb hp]; rw [hg]; exact hsi, hg⟩
  · rintro ⟨p, ir⟩ ⟨hp, _, hg⟩
    obtain ⟨h1, h2⟩ := (globalIdx_inv hmb hp).mp hg
    exact Prod.ext h1 h2

/-- C36: local entries have a place in the vector. -/
theorem C36_in_range (n mb nprow p ir : Nat) (hmb : 0 < mb) (hp : p < nprow) (h : ir < numroc n mb p nprow) : globalIdx mb nprow p ir < n :=
  (numroc_iff hmb hp).mp h

/-- C36: gathering the local parts of a distributed vector gives the vector. -/
theorem C36_gather (n mb nprow : Nat) (hmb : 0 < mb) (hnp : 0 < nprow) (x : Nat → ℝ) (g : Nat → Nat → ℝ)
    (hg : ∀ p ir, p < nprow → ir < numroc n mb p nprow → g p ir = x (globalIdx mb nprow p ir)) (si : Nat) (hsi : si < n) :
    gatherAll n mb nprow g si = x si := by
  unfold gatherAll
  have hp : si / mb % nprow < nprow := Nat.mod_lt _ hnp
  have hgi : globalIdx mb nprow (si / mb % nprow) (si / mb / nprow * mb + si % mb) = si := (globalIdx_inv hmb hp).mpr ⟨rfl, rfl⟩
  rw [sumLoop_eq, sum_eq_single (si / mb % nprow)]
  · rw [gatherLocal_val hmb hp _ hsi, if_pos rfl, hg _ _ hp (by rw [numroc_iff hmb hp, hgi]; exact hsi), hgi]
  · intro p hp' hne
    rw [gatherLocal_val hmb (mem_range.mp hp') _ hsi, if_neg (fun q => hne q.symm)]
  · intro h; exact absurd (mem_range.mpr hp) h

/-- C36: the distributed matrix has the entries of the full one. -/
theorem C36_matrix (n m : Nat) (OO : Nat → ℂ) (staDel : ℝ) (idx : Nat → Nat) (hinj : ∀ a b, a < m → b < m → idx a = idx b → a = b)
    (mb nb nprow npcol myprow mypcol ir ic : Nat) (hmb : 0 < mb) (hnb : 0 < nb) (hp : myprow < nprow) (hq : mypcol < npcol)
    (hr : ir < numroc m mb myprow nprow) (hc : ic < numroc m nb mypcol npcol) :
    pSmat n OO staDel idx mb nb nprow npcol myprow mypcol ir ic =
      smat n OO staDel idx (globalIdx mb nprow myprow ir) (globalIdx nb npcol mypcol ic) := by
  have h1 := (numroc_iff hmb hp).mp hr
  have h2 := (numroc_iff hnb hq).mp hc
  unfold pSmat smat smat0
  simp only []
  by_cases h : globalIdx mb nprow myprow ir = globalIdx nb npcol mypcol ic
  · rw [h]
    simp
  · rw [if_neg h, if_neg (fun q => h (hinj _ _ h1 h2 q))]

/-- C36, example: ten entries in blocks of two on three process rows. -/
example : (List.range 3).map (fun p => (List.range (numroc 10 2 p 3)).map (globalIdx 2 3 p)) = [[0, 1, 6, 7], [2, 3, 8, 9], [4, 5]] := by decide

/-! ### C47 -/

/-- C47: the claim is false for `StochasticOptDiag` with any number of parameters and any flags: it writes `smatToParaIdx[2*NPara-1]`, but
the array has `NPara` elements. (No caller at this commit: the call in `vmcmain.c:490` is commented out.) -/
theorem C47_violated (nPara : Nat) (flag : Nat → Int) (h : 1 ≤ nPara) : ∃ k ∈ diagWrites nPara flag, nPara ≤ k := by
  refine ⟨2 * nPara - 1, ?_, by omega⟩
  unfold diagWrites
  simp only []
  have hle : ((List.range (2 * nPara)).filter fun pi => flag pi = 1).length ≤ 2 * nPara := by
    refine (List.length_filter_le _ _).trans (by rw [List.length_range])
  rw [List.mem_append, List.mem_range, List.mem_range'_1]
  omega

/-- C47: all that can be said is that the writes stay below `2*NPara`, the size the array should have. -/
theorem C47_bound_partial (nPara : Nat) (flag : Nat → Int) : ∀ k ∈ diagWrites nPara flag, k < 2 * nPara := by
  intro k hk
  unfold diagWrites at hk
  simp only [] at hk
  have hle : ((List.range (2 * nPara)).filter fun pi => flag pi = 1).length ≤ 2 * nPara := by
    refine (List.length_filter_le _ _).trans (by rw [List.length_range])
  rw [List.mem_append, List.mem_range, List.mem_range'_1] at hk
  omega

/-! ### C51 -/

/-- C51: the right-hand side of the optimisation step is `-dt` times the derivative of the energy `⟨ψ|H|ψ⟩/⟨ψ|ψ⟩` with respect to its
parameter component. `ψ t x` is the amplitude of configuration `x` when the component is changed by `t`; the processes together have every
configuration once, weighted with `|ψ|²` (the exact distribution; Monte Carlo only estimates it); `e` is the local energy
`⟨ψ|H|x⟩/⟨ψ|x⟩` of C27. -/
theorem C51_gradient (N : Nat) (H : Nat → Nat → ℂ) (hH : ∀ x x', x < N → x' < N → star (H x' x) = H x x') (ψ : ℝ → Nat → ℂ)
    (hn : 0 < normSqOf N (ψ 0)) (np n : Nat) (smp : Nat → Nat → Option Samp) (lo hi : Nat → Nat) (st : Nat → Nat → ℂ) (y : Nat → Samp)
    (hperm : (allKept np smp lo hi).Perm ((List.range N).map y)) (hw : ∀ x, x < N → (y x).w = Complex.normSq (ψ 0 x))
    (he : ∀ x, x < N → (y x).e * star (ψ 0 x) = ∑ x' ∈ range N, star (ψ 0 x') * H x' x) (h0 : ∀ x, x < N → (y x).O 0 = 1)
    (idx : Nat → Nat) (si : Nat) (hsi : idx si + 2 < n)
    (hψ : ∀ x, x < N → HasDerivAt (fun t => ψ t x) ((y x).O (idx si + 2) * ψ 0 x) 0) (dt : ℝ) :
    ∃ D, HasDerivAt (fun t => energyRQ N H (ψ t)) D 0 ∧
      gvec (avgOO np (fun p => mainCal false false n (smp p) (lo p) (hi p) (st p)))
        (avgHO np (fun p => mainCal false false n (smp p) (lo p) (hi p) (st p))) dt idx si = -dt * D := by
  refine ⟨_, energyRQ_deriv (e := fun x => (y x).e) hψ hH he (ne_of_gt hn), ?_⟩
  have hs : ∀ {M : Type} [AddCommMonoid M] (f : Samp → M), ((allKept np smp lo hi).map f).sum = ∑ x ∈ range N, f (y x) := by
    intro M _ f
    rw [(hperm.map f).sum_eq, List.map_map, sum_map_range_list]
    rfl
  have hW : ((allKept np smp lo hi).map (·.w)).sum = normSqOf N (ψ 0) := by
    rw [hs]
    exact sum_congr rfl (fun x hx => hw x (mem_range.mp hx))
  have e0 : idx si + 2 = 0 * n + (idx si + 2) := by omega
  unfold gvec
  rw [avgHO_direct hsi, avgHO_direct (by omega : 0 < n)]
  rw [show avgOO np (fun p => mainCal false false n (smp p) (lo p) (hi p) (st p)) (idx si + 2) =
    avgOO np (fun p => mainCal false false n (smp p) (lo p) (hi p) (st p)) (0 * n + (idx si + 2)) by rw [← e0], avgOO_direct (by omega) hsi,
    hW, re_mul_inv, re_mul_inv, re_mul_inv, hs, hs, hs, Complex.re_sum, Complex.re_sum, Complex.re_sum]
  have r1 : ∀ x ∈ range N, ((y x).e * (((y x).w : ℂ) * (y x).O (idx si + 2))).re = ((y x).e * ((Complex.normSq (ψ 0 x) : ℂ) * (y x).O (idx si + 2))).re :=
    fun x hx => by rw [hw x (mem_range.mp hx)]
  have r2 : ∀ x ∈ range N, ((y x).e * (((y x).w : ℂ) * (y x).O 0)).re = ((y x).e * (Complex.normSq (ψ 0 x) : ℂ)).re :=
    fun x hx => by rw [hw x (mem_range.mp hx), h0 x (mem_range.mp hx), mul_one]
  have r3 : ∀ x ∈ range N, (ooTerm (y x) 0 (idx si + 2)).re = Complex.normSq (ψ 0 x) * ((y x).O (idx si + 2)).re := by
    intro x hx
    rw [ooTerm, if_pos rfl, hw x (mem_range.mp hx), Complex.re_ofReal_mul]
  rw [sum_congr rfl r1, sum_congr rfl r2, sum_congr rfl r3]
  ring

/-- `H = diag(0, 1)`, `ψ_t = (1, 1+t)`: local energies 0 and 1, derivatives 0 and 1 -/
noncomputable def gradSamples : Nat → Nat → Option Samp := fun _ s =>
  some ⟨1, if s = 0 then 0 else 1, fun k => if k = 0 then 1 else if k = 2 then (if s = 0 then 0 else 1) else 0⟩

/-- C51, example: `E(t) = (1+t)²/(1+(1+t)²)` has slope 1/2 at 0. -/
example (dt : ℝ) : gvec (avgOO 1 (fun p => mainCal false false 4 (gradSamples p) 0 2 (fun _ => 0)))
    (avgHO 1 (fun p => mainCal false false 4 (gradSamples p) 0 2 (fun _ => 0))) dt id 0 = -dt * (1 / 2) := by
  have hf : List.filterMap (gradSamples 0) [0, 1] = [⟨1, 0, fun k => if k = 0 then 1 else if k = 2 then 0 else 0⟩,
    ⟨1, 1, fun k => if k = 0 then 1 else if k = 2 then 1 else 0⟩] := rfl
  have hk : allKept 1 gradSamples (fun _ => 0) (fun _ => 2) = List.filterMap (gradSamples 0) [0, 1] := by simp [allKept, kept, List.range']
  have h2 := avgHO_direct (np := 1) (smp := gradSamples) (lo := fun _ => 0) (hi := fun _ => 2) (st := fun _ _ => 0) (show 2 < 4 by decide)
  have h0 := avgHO_direct (np := 1) (smp := gradSamples) (lo := fun _ => 0) (hi := fun _ => 2) (st := fun _ _ => 0) (show 0 < 4 by decide)
  have h3 := avgOO_direct (np := 1) (smp := gradSamples) (lo := fun _ => 0) (hi := fun _ => 2) (st := fun _ _ => 0) (show 0 < 4 by decide) (show 2 < 4 by decide)
  rw [hk, hf] at h2 h0 h3
  unfold gvec
  rw [show id 0 + 2 = 2 from rfl, h2, h0, show (2 : Nat) = 0 * 4 + 2 from rfl, h3]
  norm_num [ooTerm]
  ring

/-! ### C52 -/

/-- C52: if the derivatives are real, the expanded real matrix has, on the components that can vary, the entries of the complex one. -/
theorem C52_real_matrix (np m : Nat) (smp : Nat → Nat → Option Samp) (lo hi : Nat → Nat) (st : Nat → Nat → ℂ)
    (hre : ∀ x ∈ allKept np smp lo hi, x.O 0 = 1 ∧ ∀ k, k < m → (x.O (2 * k)).im = 0) {i j : Nat} (hi' : i < m) (hj : j < m) :
    let W := totalW np (fun p => mainCal false false (2 * m) (smp p) (lo p) (hi p) (st p))
    expandReal m (avgR np W (fun p => mainCalR m (kept (smp p) (List.range' (lo p) (hi p - lo p))))) (2 * i * (2 * m) + 2 * j) =
      avgOO np (fun p => mainCal false false (2 * m) (smp p) (lo p) (hi p) (st p)) (2 * i * (2 * m) + 2 * j) := by
  intro W
  rw [expandReal_at m _ (by omega), if_pos ⟨by omega, by omega⟩, avgOO_direct (by omega) (by omega), show 2 * j / 2 = j by omega, show 2 * i / 2 = i by omega]
  unfold avgR
  rw [sumLoop_eq, show W = ((allKept np smp lo hi).map (·.w)).sum from totalW_direct, Complex.ofReal_mul]
  congr 1
  rw [sum_congr rfl (fun p _ => mainCalR_OO (kept (smp p) (List.range' (lo p) (hi p - lo p))) hj hi'), sum_allKept, ]
  have : ∀ L : List Samp, (∀ x ∈ L, x.O 0 = 1 ∧ ∀ k, k < m → (x.O (2 * k)).im = 0) →
      (((L.map fun x => x.w * (x.O (2 * j)).re * (x.O (2 * i)).re).sum : ℝ) : ℂ) = (L.map fun x => ooTerm x (2 * i) (2 * j)).sum := by
    intro L
    induction L with
    | nil => simp
    | cons a L ih =>
      intro h
      rw [List.map_cons, List.sum_cons, List.map_cons, List.sum_cons, Complex.ofReal_add, ih (fun x hx => h x (List.mem_cons_of_mem _ hx))]
      congr 1
      obtain ⟨h0, hk⟩ := h a List.mem_cons_self
      have ei : ((a.O (2 * i)).re : ℂ) = a.O (2 * i) := Complex.ext (by simp) (by simp [hk i hi'])
      have ej : ((a.O (2 * j)).re : ℂ) = a.O (2 * j) := Complex.ext (by simp) (by simp [hk j hj])
      unfold ooTerm
      split_ifs with q q'
      · rw [q, h0]
        push_cast
        rw [ej]
        simp
      · omega
      · have hc : star (a.O (2 * i)) = a.O (2 * i) := Complex.conj_eq_iff_im.mpr (hk i hi')
        push_cast
        rw [hc, ei, ej]
  exact this _ hre

/-- C52: the expanded energy row has the real parts of the complex one. -/
theorem C52_real_force (np m : Nat) (smp : Nat → Nat → Option Samp) (lo hi : Nat → Nat) (st : Nat → Nat → ℂ)
    (hre : ∀ x ∈ allKept np smp lo hi, ∀ k, k < m → (x.O (2 * k)).im = 0) {j : Nat} (hj : j < m) :
    let W := totalW np (fun p => mainCal false false (2 * m) (smp p) (lo p) (hi p) (st p))
    (expandReal m (avgR np W (fun p => mainCalR m (kept (smp p) (List.range' (lo p) (hi p - lo p))))) (2 * m * (2 * m) + 2 * j)).re =
      (avgHO np (fun p => mainCal false false (2 * m) (smp p) (lo p) (hi p) (st p)) (2 * j)).re := by
  intro W
  rw [expandReal_at m _ (by omega), if_pos ⟨by omega, by omega⟩, avgHO_direct (by omega), show 2 * j / 2 = j by omega, show 2 * m / 2 = m by omega,
    re_mul_inv, Nat.add_comm j, Complex.ofReal_re]
  unfold avgR
  rw [sumLoop_eq, show W = ((allKept np smp lo hi).map (·.w)).sum from totalW_direct, mul_one_div]
  congr 1
  rw [sum_congr rfl (fun p _ => mainCalR_HO (kept (smp p) (List.range' (lo p) (hi p - lo p))) hj), sum_allKept, re_sum]
  congr 1
  refine List.map_congr_left (fun x hx => ?_)
  have := hre x hx j hj
  simp [Complex.mul_re, this]
  ring

/-- C52: imaginary components have no overlap in real mode, so they are frozen unless the cut vanishes. -/
theorem C52_imaginary_frozen (m : Nat) (A : Nat → ℝ) (flag : Nat → Int) (redCut : ℝ) (k : Nat) (hk : k + 1 < m)
    (hpos : 0 < sDiagMax (2 * m - 2) (sDiag (2 * m) (expandReal m A)) * redCut) :
    sDiag (2 * m) (expandReal m A) (2 * k + 1) = 0 ∧ 2 * k + 1 ∉ smatToPara (2 * m - 2) flag (sDiag (2 * m) (expandReal m A)) redCut := by
  have h0 : sDiag (2 * m) (expandReal m A) (2 * k + 1) = 0 := by
    unfold sDiag
    have e : 2 * k + 1 + 2 = 0 * (2 * m) + (2 * k + 1 + 2) := by omega
    rw [expandReal_at m A (by omega), if_neg (by omega)]
    rw [e, expandReal_at m A (by omega), if_neg (by omega)]
    simp
  refine ⟨h0, fun h => ?_⟩
  have := (((C30_selection _ flag _ redCut).1 _).mp h).2.2
  rw [h0] at this
  linarith

end MVMC
