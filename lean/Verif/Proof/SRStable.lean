import Verif.Props.SRDescent
import Mathlib.Topology.Instances.Matrix
import Mathlib.LinearAlgebra.Matrix.ToLinearEquiv
import Mathlib.Topology.Algebra.Field
import Mathlib.Topology.Algebra.Order.LiminfLimsup
import Mathlib.Analysis.SpecificLimits.Basic

/-! # The parameters after a step depend continuously on the averages -/
namespace MVMC
open Finset Filter Topology

theorem sDiagMax_tendsto {L : Filter ι} {sd : ι → Nat → ℝ} {sd0 : Nat → ℝ} (m : Nat) (hm : 0 < m) (h : ∀ pi < m, Tendsto (fun k => sd k pi) L (𝓝 (sd0 pi))) :
    Tendsto (fun k => sDiagMax m (sd k)) L (𝓝 (sDiagMax m sd0)) := by
  have e : ∀ x y : ℝ, (if x > y then x else y) = max y x := by
    intro x y
    split
    · rw [max_eq_right (by linarith)]
    · rw [max_eq_left (by linarith)]
  have key : ∀ (l : List Nat) (hl : ∀ x ∈ l, x < m) (a : ι → ℝ) (a0 : ℝ), Tendsto a L (𝓝 a0) →
      Tendsto (fun k => l.foldl (fun mx pi => if sd k pi > mx then sd k pi else mx) (a k)) L
        (𝓝 (l.foldl (fun mx pi => if sd0 pi > mx then sd0 pi else mx) a0)) := by
    intro l
    induction l with
    | nil => intro _ a a0 ha; exact ha
    | cons x l ih =>
      intro hl a a0 ha
      simp only [List.foldl_cons]
      refine ih (fun y hy => hl y (List.mem_cons_of_mem _ hy)) (fun k => if sd k x > a k then sd k x else a k) _ ?_
      simp only [e]
      exact ha.max (h x (hl x List.mem_cons_self))
  exact key _ (fun x hx => List.mem_range.mp hx) _ _ (h 0 hm)

/-- equal selections for close averages -/
theorem select_eventually {L : Filter ι} {sd : ι → Nat → ℝ} {sd0 : Nat → ℝ} (m : Nat) (flag : Nat → Int) (redCut : ℝ)
    (h : ∀ pi < m, Tendsto (fun k => sd k pi) L (𝓝 (sd0 pi))) (hgap : ∀ pi < m, flag pi = 1 → sd0 pi ≠ sDiagMax m sd0 * redCut) :
    ∀ᶠ k in L, smatToPara m flag (sd k) redCut = smatToPara m flag sd0 redCut := by
  rcases Nat.eq_zero_or_pos m with rfl | hm
  · exact Eventually.of_forall fun k => rfl
  have ht : Tendsto (fun k => sDiagMax m (sd k) * redCut) L (𝓝 (sDiagMax m sd0 * redCut)) := (sDiagMax_tendsto m hm h).mul_const _
  have h1 : ∀ pi ∈ range m, ∀ᶠ k in L, flag pi = 1 → (sd k pi < sDiagMax m (sd k) * redCut ↔ sd0 pi < sDiagMax m sd0 * redCut) := by
    intro pi hpi
    have hpi := mem_range.mp hpi
    by_cases hf : flag pi = 1
    · rcases lt_or_gt_of_ne (hgap pi hpi hf) with q | q
      · filter_upwards [(h pi hpi).eventually_lt ht q] with k hk _
        exact ⟨fun _ => q, fun _ => hk⟩
      · filter_upwards [ht.eventually_lt (h pi hpi) q] with k hk _
        exact ⟨fun w => absurd w (not_lt.mpr hk.le), fun w => absurd w (not_lt.mpr q.le)⟩
    · exact Eventually.of_forall fun k w => absurd w hf
  filter_upwards [(eventually_all_finset (range m)).mpr h1] with k hk
  rw [smatToPara_eq, smatToPara_eq]
  refine List.filter_congr (fun pi hpi => ?_)
  have hpi := List.mem_range.mp hpi
  by_cases hf : flag pi = 1
  · simp only [hf, true_and, (hk pi (mem_range.mpr hpi) hf)]
  · simp [hf]

/-- the averages that enter a step -/
def CloseAvg (m : Nat) (ε : ℝ) (OO HO OO' HO' : Nat → ℂ) : Prop :=
  (∀ i < m + 2, ∀ j < m + 2, ‖OO' (i * (m + 2) + j) - OO (i * (m + 2) + j)‖ < ε) ∧ ∀ j < m + 2, ‖HO' j - HO j‖ < ε

/-- a solution of a regular system by determinants -/
theorem solve_adj {n : Nat} {S : Nat → Nat → ℝ} {g r : Nat → ℝ} (h : Solves n S g r) :
    ∀ i : Fin n, (Matrix.of fun a b : Fin n => S a b).det * r i = ((Matrix.of fun a b : Fin n => S a b).adjugate.mulVec fun a => g a) i := by
  intro i
  have e : (Matrix.of fun a b : Fin n => S a b).mulVec (fun a => r a) = fun a : Fin n => g a := by
    funext a
    rw [← h a a.2, Matrix.mulVec, dotProduct, Finset.sum_range]
    rfl
  rw [← e, Matrix.mulVec_mulVec, Matrix.adjugate_mul, Matrix.smul_mulVec, Matrix.one_mulVec]
  rfl

/-- a regular system has a solution -/
theorem solves_of_det {n : Nat} {S : Nat → Nat → ℝ} (h : (Matrix.of fun a b : Fin n => S a b).det ≠ 0) (g : Nat → ℝ) : ∃ r, Solves n S g r := by
  let A := Matrix.of fun a b : Fin n => S a b
  let v : Fin n → ℝ := A⁻¹.mulVec fun a => g a
  have hv : A.mulVec v = fun a : Fin n => g a := by
    rw [Matrix.mulVec_mulVec, Matrix.mul_nonsing_inv _ (Ne.isUnit h), Matrix.one_mulVec]
  refine ⟨fun k => if h : k < n then v ⟨k, h⟩ else 0, fun a ha => ?_⟩
  have h2 := congrFun hv ⟨a, ha⟩
  simp only [Matrix.mulVec, dotProduct] at h2
  rw [Finset.sum_range, ← h2]
  exact sum_congr rfl (fun j _ => by simp [A])

theorem updatePara_tendsto {L : Filter ι} {r : ι → Nat → ℝ} {r0 : Nat → ℝ} (l : List Nat) (h : ∀ i < l.length, Tendsto (fun k => r k i) L (𝓝 (r0 i)))
    (para : Nat → ℂ) : Tendsto (fun k => updatePara true l (r k) para) L (𝓝 (updatePara true l r0 para)) := by
  rw [tendsto_pi_nhds]
  intro x
  have e : ∀ r : Nat → ℝ, updatePara true l r para x = para x + ∑ si ∈ range l.length, if (paraAdd r l si).1 = x then (paraAdd r l si).2 else 0 := by
    intro r
    unfold updatePara
    rw [if_pos rfl, runAdds_eq, List.map_map, sum_map_range_list]
    rfl
  simp only [e]
  refine tendsto_const_nhds.add (tendsto_finsetSum _ fun si hsi => ?_)
  have hc := (Complex.continuous_ofReal.tendsto _).comp (h si (mem_range.mp hsi))
  unfold paraAdd
  simp only
  by_cases hp : l.getD si 0 % 2 = 0
  · simp only [if_pos hp]
    by_cases hx : l.getD si 0 / 2 = x
    · simp only [if_pos hx]; exact hc
    · simp only [if_neg hx]; exact tendsto_const_nhds
  · simp only [if_neg hp]
    by_cases hx : (l.getD si 0 - 1) / 2 = x
    · simp only [if_pos hx]; exact hc.mul_const _
    · simp only [if_neg hx]; exact tendsto_const_nhds

/-- Averages close enough to `OO`, `HO` select the same components and give parameters with an energy below `E0`, if `OO`, `HO` do. -/
theorem step_stable {OO HO : Nat → ℂ} {m : Nat} {flag : Nat → Int} {redCut staDel dt : ℝ} {para : Nat → ℂ} {E : (Nat → ℂ) → ℝ} {E0 : ℝ} {r0 : Nat → ℝ}
    (l : List Nat) (hl : smatToPara m flag (sDiag (m + 2) OO) redCut = l)
    (hgap : ∀ pi < m, flag pi = 1 → sDiag (m + 2) OO pi ≠ sDiagMax m (sDiag (m + 2) OO) * redCut)
    (hreg : ∀ c, Solves l.length (smat (m + 2) OO staDel (l.getD · 0)) (fun _ => 0) c → ∀ i < l.length, c i = 0)
    (hr : Solves l.length (smat (m + 2) OO staDel (l.getD · 0)) (gvec OO HO dt (l.getD · 0)) r0)
    (hE : E (updatePara true l r0 para) < E0) (hc : ContinuousAt E (updatePara true l r0 para)) :
    ∃ ε, 0 < ε ∧ ∀ OO' HO', CloseAvg m ε OO HO OO' HO' → smatToPara m flag (sDiag (m + 2) OO') redCut = l ∧
      (∃ r, Solves l.length (smat (m + 2) OO' staDel (l.getD · 0)) (gvec OO' HO' dt (l.getD · 0)) r) ∧
      ∀ r, Solves l.length (smat (m + 2) OO' staDel (l.getD · 0)) (gvec OO' HO' dt (l.getD · 0)) r → E (updatePara true l r para) < E0 := by
  classical
  by_contra hcon
  push Not at hcon
  have hk : ∀ k : Nat, ∃ OO' HO', CloseAvg m (1 / ((k : ℝ) + 1)) OO HO OO' HO' ∧ (smatToPara m flag (sDiag (m + 2) OO') redCut = l →
      (∃ r, Solves l.length (smat (m + 2) OO' staDel (l.getD · 0)) (gvec OO' HO' dt (l.getD · 0)) r) →
      ∃ r, Solves l.length (smat (m + 2) OO' staDel (l.getD · 0)) (gvec OO' HO' dt (l.getD · 0)) r ∧ E0 ≤ E (updatePara true l r para)) :=
    fun k => hcon _ (by positivity)
  choose OO' HO' hcl hbad using hk
  have hlim : ∀ (u : Nat → ℂ) (z : ℂ), (∀ k, ‖u k - z‖ < 1 / ((k : ℝ) + 1)) → Tendsto u atTop (𝓝 z) := by
    intro u z h
    rw [tendsto_iff_norm_sub_tendsto_zero]
    exact squeeze_zero (fun k => norm_nonneg _) (fun k => (h k).le) tendsto_one_div_add_atTop_nhds_zero_nat
  have hOO : ∀ i < m + 2, ∀ j < m + 2, Tendsto (fun k => (OO' k (i * (m + 2) + j)).re) atTop (𝓝 (OO (i * (m + 2) + j)).re) := fun i hi j hj =>
    (Complex.continuous_re.tendsto _).comp (hlim _ _ fun k => (hcl k).1 i hi j hj)
  have hO1 : ∀ j < m + 2, Tendsto (fun k => (OO' k j).re) atTop (𝓝 (OO j).re) := fun j hj => by
    have := hOO 0 (by omega) j hj
    simpa using this
  have hHO : ∀ j < m + 2, Tendsto (fun k => (HO' k j).re) atTop (𝓝 (HO j).re) := fun j hj =>
    (Complex.continuous_re.tendsto _).comp (hlim _ _ fun k => (hcl k).2 j hj)
  have hsel := select_eventually (L := atTop) (sd := fun k => sDiag (m + 2) (OO' k)) m flag redCut
    (fun pi hpi => by unfold sDiag; exact (hOO _ (by omega) _ (by omega)).sub ((hO1 _ (by omega)).mul (hO1 _ (by omega)))) hgap
  rw [hl] at hsel
  have hlm : ∀ i : Nat, i < l.length → l.getD i 0 < m := by
    intro i hi
    rw [← hl] at hi ⊢
    exact sel_lt m flag redCut _ i hi
  let r : Nat → Nat → ℝ := fun k => if h : smatToPara m flag (sDiag (m + 2) (OO' k)) redCut = l ∧
      ∃ r, Solves l.length (smat (m + 2) (OO' k) staDel (l.getD · 0)) (gvec (OO' k) (HO' k) dt (l.getD · 0)) r then Classical.choose (hbad k h.1 h.2) else r0
  have hrs : ∀ k, (smatToPara m flag (sDiag (m + 2) (OO' k)) redCut = l ∧
      ∃ r, Solves l.length (smat (m + 2) (OO' k) staDel (l.getD · 0)) (gvec (OO' k) (HO' k) dt (l.getD · 0)) r) →
      Solves l.length (smat (m + 2) (OO' k) staDel (l.getD · 0)) (gvec (OO' k) (HO' k) dt (l.getD · 0)) (r k) ∧ E0 ≤ E (updatePara true l (r k) para) := by
    intro k h
    have : r k = Classical.choose (hbad k h.1 h.2) := dif_pos h
    rw [this]
    exact Classical.choose_spec (hbad k h.1 h.2)
  -- matrices
  let A : (Nat → ℂ) → Matrix (Fin l.length) (Fin l.length) ℝ := fun X => Matrix.of fun a b => smat (m + 2) X staDel (l.getD · 0) a b
  have hA : Tendsto (fun k => A (OO' k)) atTop (𝓝 (A OO)) := by
    refine tendsto_pi_nhds.mpr fun a => tendsto_pi_nhds.mpr fun b => ?_
    have ha : l.getD a 0 + 2 < m + 2 := by have := hlm a a.2; omega
    have hb : l.getD b 0 + 2 < m + 2 := by have := hlm b b.2; omega
    have h0 : Tendsto (fun k => smat0 (m + 2) (OO' k) (l.getD · 0) a b) atTop (𝓝 (smat0 (m + 2) OO (l.getD · 0) a b)) := by
      unfold smat0
      exact (hOO _ ha _ hb).sub ((hO1 _ ha).mul (hO1 _ hb))
    simp only [A, Matrix.of_apply, smat]
    split
    · exact h0.mul_const _
    · exact h0
  have hg : Tendsto (fun k => fun a : Fin l.length => gvec (OO' k) (HO' k) dt (l.getD · 0) a) atTop (𝓝 fun a : Fin l.length => gvec OO HO dt (l.getD · 0) a) := by
    refine tendsto_pi_nhds.mpr fun a => ?_
    have ha : l.getD a 0 + 2 < m + 2 := by have := hlm a a.2; omega
    unfold gvec
    exact ((hHO _ ha).sub ((hHO 0 (by omega)).mul (hO1 _ ha))).const_mul _
  have hdet : (A OO).det ≠ 0 := by
    intro q
    obtain ⟨v, hv, hz⟩ := Matrix.exists_mulVec_eq_zero_iff.mpr q
    refine hv (funext fun i => ?_)
    have := hreg (fun k => if h : k < l.length then v ⟨k, h⟩ else 0) (fun a ha => by
      have h2 := congrFun hz ⟨a, ha⟩
      simp only [Matrix.mulVec, dotProduct, Pi.zero_apply] at h2
      rw [Finset.sum_range, ← h2]
      exact sum_congr rfl (fun j _ => by simp [A])) i i.2
    simpa using this
  have hdt : Tendsto (fun k => (A (OO' k)).det) atTop (𝓝 (A OO).det) := (Continuous.matrix_det continuous_id).tendsto _ |>.comp hA
  have hsol : ∀ᶠ k in atTop, smatToPara m flag (sDiag (m + 2) (OO' k)) redCut = l ∧
      ∃ r, Solves l.length (smat (m + 2) (OO' k) staDel (l.getD · 0)) (gvec (OO' k) (HO' k) dt (l.getD · 0)) r := by
    filter_upwards [hsel, hdt.eventually_ne hdet] with k h1 h2
    exact ⟨h1, solves_of_det h2 _⟩
  have hadj : Tendsto (fun k => (A (OO' k)).adjugate) atTop (𝓝 (A OO).adjugate) := (Continuous.matrix_adjugate continuous_id).tendsto _ |>.comp hA
  have hmul : ∀ i, Tendsto (fun k => ((A (OO' k)).adjugate.mulVec fun a => gvec (OO' k) (HO' k) dt (l.getD · 0) a) i) atTop
      (𝓝 (((A OO).adjugate.mulVec fun a => gvec OO HO dt (l.getD · 0) a) i)) := by
    intro i
    simp only [Matrix.mulVec, dotProduct]
    exact tendsto_finsetSum _ fun j _ => ((tendsto_pi_nhds.mp (tendsto_pi_nhds.mp hadj i)) j).mul (tendsto_pi_nhds.mp hg j)
  have hrt : ∀ i < l.length, Tendsto (fun k => r k i) atTop (𝓝 (r0 i)) := by
    intro i hi
    have e0 : r0 i = ((A OO).adjugate.mulVec fun a => gvec OO HO dt (l.getD · 0) a) ⟨i, hi⟩ / (A OO).det := by
      rw [eq_div_iff hdet, ← solve_adj hr ⟨i, hi⟩, mul_comm]
    rw [e0]
    refine ((hmul ⟨i, hi⟩).div hdt hdet).congr' ?_
    filter_upwards [hsol, hdt.eventually_ne hdet] with k hk hd
    rw [Pi.div_apply, div_eq_iff hd, ← solve_adj (hrs k hk).1 ⟨i, hi⟩, mul_comm]
  have hfin := (hc.tendsto.comp (updatePara_tendsto l hrt para)).eventually_lt_const hE
  obtain ⟨k, h1, h2⟩ := (hfin.and hsol).exists
  exact absurd h1 (not_lt.mpr (hrs k h2).2)

end MVMC
