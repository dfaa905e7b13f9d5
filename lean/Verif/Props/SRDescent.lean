import Verif.Props.SR
import Mathlib.Analysis.Calculus.Deriv.Slope
import Mathlib.LinearAlgebra.FiniteDimensional.Lemmas

/-! # A stochastic-reconfiguration step lowers the energy (C70) -/
namespace MVMC
open Finset

/-- component `pi` of a change `v` of the parameters: the real part of parameter `pi/2` for even `pi`, its imaginary part for odd `pi` -/
def compOf (v : Nat → ℂ) (pi : Nat) : ℝ := if pi % 2 = 0 then (v (pi / 2)).re else (v (pi / 2)).im

/-- `O x (pi+2)` is the logarithmic derivative of the amplitude of `x` with respect to component `pi`: along every line through `para` the
amplitude changes by the sum over the components -/
def LogDerivs (N m : Nat) (Ψ : (Nat → ℂ) → Nat → ℂ) (para : Nat → ℂ) (O : Nat → Nat → ℂ) : Prop :=
  ∀ x, x < N → ∀ v : Nat → ℂ, HasDerivAt (fun t : ℝ => Ψ (fun k => para k + t * v k) x) ((∑ pi ∈ range m, (compOf v pi : ℂ) * O x (pi + 2)) * Ψ para x) 0

/-- `r` solves the linear system of the step -/
def Solves (n : Nat) (S : Nat → Nat → ℝ) (g r : Nat → ℝ) : Prop := ∀ i, i < n → ∑ j ∈ range n, S i j * r j = g i

/-- the samples are the exact distribution: every configuration once, weight `|ψ|²`, local energy of C27, derivative 1 of the norm -/
structure ExactSamples (N : Nat) (H : Nat → Nat → ℂ) (ψ : Nat → ℂ) (np : Nat) (smp : Nat → Nat → Option Samp) (lo hi : Nat → Nat) (y : Nat → Samp) : Prop where
  perm : (allKept np smp lo hi).Perm ((List.range N).map y)
  w : ∀ x, x < N → (y x).w = Complex.normSq (ψ x)
  e : ∀ x, x < N → (y x).e * star (ψ x) = ∑ x' ∈ range N, star (ψ x') * H x' x
  one : ∀ x, x < N → (y x).O 0 = 1

theorem updatePara_comp (l : List Nat) (r : Nat → ℝ) (para : Nat → ℂ) (pi : Nat) :
    compOf (fun k => updatePara true l r para k - para k) pi = ∑ si ∈ range l.length, if l.getD si 0 = pi then r si else 0 := by
  have e : ∀ k, updatePara true l r para k - para k = ∑ si ∈ range l.length, if (paraAdd r l si).1 = k then (paraAdd r l si).2 else 0 := by
    intro k
    unfold updatePara
    rw [if_pos rfl, runAdds_eq, List.map_map, add_sub_cancel_left, sum_map_range_list]
    rfl
  unfold compOf
  simp only [e]
  split
  · rename_i h
    rw [Complex.re_sum]
    refine sum_congr rfl (fun si _ => ?_)
    unfold paraAdd
    simp only []
    by_cases h1 : l.getD si 0 % 2 = 0
    · rw [if_pos h1]
      by_cases h2 : l.getD si 0 = pi
      · rw [if_pos h2, if_pos (by simp only []; omega), Complex.ofReal_re]
      · rw [if_neg h2, if_neg (by simp only []; omega), Complex.zero_re]
    · rw [if_neg h1, if_neg (show ¬ l.getD si 0 = pi by intro q; omega)]
      split
      · simp
      · rfl
  · rename_i h
    rw [Complex.im_sum]
    refine sum_congr rfl (fun si _ => ?_)
    unfold paraAdd
    simp only []
    by_cases h1 : l.getD si 0 % 2 = 0
    · rw [if_pos h1, if_neg (show ¬ l.getD si 0 = pi by intro q; omega)]
      split
      · simp
      · rfl
    · rw [if_neg h1]
      by_cases h2 : l.getD si 0 = pi
      · rw [if_pos h2, if_pos (by simp only []; omega)]
        simp
      · rw [if_neg h2, if_neg (by simp only []; omega), Complex.zero_im]

theorem updatePara_smul (l : List Nat) (r r' : Nat → ℝ) (c : ℝ) (h : ∀ i, i < l.length → r' i = c * r i) (para : Nat → ℂ) (k : Nat) :
    updatePara true l r' para k = para k + c * (updatePara true l r para k - para k) := by
  unfold updatePara
  rw [if_pos rfl, if_pos rfl, runAdds_eq, runAdds_eq, List.map_map, List.map_map, add_sub_cancel_left, sum_map_range_list, sum_map_range_list, mul_sum]
  congr 1
  refine sum_congr rfl (fun si hsi => ?_)
  have e : paraAdd r' l si = ((paraAdd r l si).1, c * (paraAdd r l si).2) := by
    unfold paraAdd
    rw [h si (mem_range.mp hsi)]
    simp only []
    split <;> simp [mul_assoc]
  simp only [Function.comp, e]
  split
  · rfl
  · rw [mul_zero]

section
variable (N : Nat) (H : Nat → Nat → ℂ) (Ψ : (Nat → ℂ) → Nat → ℂ) (para : Nat → ℂ) (np m : Nat) (smp : Nat → Nat → Option Samp)
  (lo hi : Nat → Nat) (st : Nat → Nat → ℂ) (y : Nat → Samp) (flag : Nat → Int) (redCut staDel : ℝ)

/-- the derivative of the energy along the change of the parameters is minus the force times the change -/
theorem descent_deriv (hH : ∀ x x', x < N → x' < N → star (H x' x) = H x x') (hn : 0 < normSqOf N (Ψ para))
    (ex : ExactSamples N H (Ψ para) np smp lo hi y) (hΨ : LogDerivs N m Ψ para (fun x => (y x).O)) (l : List Nat)
    (hl : ∀ si, si < l.length → l.getD si 0 < m) (r : Nat → ℝ) (dt : ℝ) :
    ∃ D, HasDerivAt (fun t : ℝ => energyRQ N H (Ψ fun k => para k + t * (updatePara true l r para k - para k))) D 0 ∧
      -dt * D = ∑ i ∈ range l.length, r i * gvec (avgOO np (fun p => mainCal false false (m + 2) (smp p) (lo p) (hi p) (st p)))
        (avgHO np (fun p => mainCal false false (m + 2) (smp p) (lo p) (hi p) (st p))) dt (l.getD · 0) i := by
  have h00 : (fun k => para k + ((0 : ℝ) : ℂ) * (updatePara true l r para k - para k)) = para := by funext k; simp
  have hd := energyRQ_deriv (N := N) (H := H) (ψ := fun t : ℝ => Ψ fun k => para k + t * (updatePara true l r para k - para k))
    (O := fun x => ∑ si ∈ range l.length, (r si : ℂ) * (y x).O (l.getD si 0 + 2)) (e := fun x => (y x).e) ?_ hH (by simp only [h00]; exact ex.e)
    (by simp only [h00]; exact ne_of_gt hn)
  swap
  · intro x hx
    have := hΨ x hx (fun k => updatePara true l r para k - para k)
    simp only [h00]
    refine this.congr_deriv ?_
    congr 1
    have e1 : ∀ pi ∈ range m, ((compOf (fun k => updatePara true l r para k - para k) pi : ℝ) : ℂ) * (y x).O (pi + 2) =
        ∑ si ∈ range l.length, if l.getD si 0 = pi then (r si : ℂ) * (y x).O (l.getD si 0 + 2) else 0 := by
      intro pi _
      rw [updatePara_comp, Complex.ofReal_sum, sum_mul]
      refine sum_congr rfl (fun si _ => ?_)
      split
      · rename_i q; rw [q]
      · simp
    rw [sum_congr rfl e1, sum_comm]
    refine sum_congr rfl (fun si hsi => ?_)
    rw [sum_ite_eq, if_pos (mem_range.mpr (hl si (mem_range.mp hsi)))]
  simp only [h00] at hd
  refine ⟨_, hd, ?_⟩
  have hs : ∀ {M : Type} [AddCommMonoid M] (f : Samp → M), ((allKept np smp lo hi).map f).sum = ∑ x ∈ range N, f (y x) := by
    intro M _ f
    rw [(ex.perm.map f).sum_eq, List.map_map, sum_map_range_list]
    rfl
  have hW : ((allKept np smp lo hi).map (·.w)).sum = normSqOf N (Ψ para) := by
    rw [hs]
    exact sum_congr rfl (fun x hx => ex.w x (mem_range.mp hx))
  have hg : ∀ i ∈ range l.length, r i * gvec (avgOO np (fun p => mainCal false false (m + 2) (smp p) (lo p) (hi p) (st p)))
        (avgHO np (fun p => mainCal false false (m + 2) (smp p) (lo p) (hi p) (st p))) dt (l.getD · 0) i =
      -dt * 2 * ((∑ x ∈ range N, r i * ((y x).e * ((Complex.normSq (Ψ para x) : ℂ) * (y x).O (l.getD i 0 + 2))).re) / normSqOf N (Ψ para) -
        (∑ x ∈ range N, ((y x).e * (Complex.normSq (Ψ para x) : ℂ)).re) / normSqOf N (Ψ para) *
          ((∑ x ∈ range N, r i * (Complex.normSq (Ψ para x) * ((y x).O (l.getD i 0 + 2)).re)) / normSqOf N (Ψ para))) := by
    intro i hi'
    have hsi : l.getD i 0 + 2 < m + 2 := by have := hl i (mem_range.mp hi'); omega
    have e0 : l.getD i 0 + 2 = 0 * (m + 2) + (l.getD i 0 + 2) := by omega
    unfold gvec
    rw [avgHO_direct hsi, avgHO_direct (by omega : 0 < m + 2)]
    rw [show avgOO np (fun p => mainCal false false (m + 2) (smp p) (lo p) (hi p) (st p)) (l.getD i 0 + 2) =
      avgOO np (fun p => mainCal false false (m + 2) (smp p) (lo p) (hi p) (st p)) (0 * (m + 2) + (l.getD i 0 + 2)) by rw [← e0], avgOO_direct (by omega) hsi,
      hW, re_mul_inv, re_mul_inv, re_mul_inv, hs, hs, hs, Complex.re_sum, Complex.re_sum, Complex.re_sum]
    have r1 : ∀ x ∈ range N, ((y x).e * (((y x).w : ℂ) * (y x).O (l.getD i 0 + 2))).re = ((y x).e * ((Complex.normSq (Ψ para x) : ℂ) * (y x).O (l.getD i 0 + 2))).re :=
      fun x hx => by rw [ex.w x (mem_range.mp hx)]
    have r2 : ∀ x ∈ range N, ((y x).e * (((y x).w : ℂ) * (y x).O 0)).re = ((y x).e * (Complex.normSq (Ψ para x) : ℂ)).re :=
      fun x hx => by rw [ex.w x (mem_range.mp hx), ex.one x (mem_range.mp hx), mul_one]
    have r3 : ∀ x ∈ range N, (ooTerm (y x) 0 (l.getD i 0 + 2)).re = Complex.normSq (Ψ para x) * ((y x).O (l.getD i 0 + 2)).re := by
      intro x hx
      rw [ooTerm, if_pos rfl, ex.w x (mem_range.mp hx), Complex.re_ofReal_mul]
    rw [sum_congr rfl r1, sum_congr rfl r2, sum_congr rfl r3, ← mul_sum, ← mul_sum]
    ring
  rw [sum_congr rfl hg, ← mul_sum, sum_sub_distrib, ← sum_div, ← mul_sum, ← sum_div, sum_comm, sum_comm (s := range l.length)]
  have t1 : ∀ x ∈ range N, ((y x).e * ((Complex.normSq (Ψ para x) : ℂ) * ∑ si ∈ range l.length, (r si : ℂ) * (y x).O (l.getD si 0 + 2))).re =
      ∑ i ∈ range l.length, r i * ((y x).e * ((Complex.normSq (Ψ para x) : ℂ) * (y x).O (l.getD i 0 + 2))).re := by
    intro x _
    rw [mul_sum, mul_sum, Complex.re_sum]
    refine sum_congr rfl (fun i _ => ?_)
    rw [← Complex.re_ofReal_mul]
    congr 1
    ring
  have t2 : ∀ x ∈ range N, Complex.normSq (Ψ para x) * (∑ si ∈ range l.length, (r si : ℂ) * (y x).O (l.getD si 0 + 2)).re =
      ∑ i ∈ range l.length, r i * (Complex.normSq (Ψ para x) * ((y x).O (l.getD i 0 + 2)).re) := by
    intro x _
    rw [Complex.re_sum, mul_sum]
    refine sum_congr rfl (fun i _ => ?_)
    rw [Complex.re_ofReal_mul]
    ring
  rw [sum_congr rfl t1, sum_congr rfl t2]
  ring

/-- positive definiteness on the selected components (C31), for the exact samples -/
theorem descent_pd (hpos : ∀ x, x < N → Ψ para x ≠ 0) (hN : 0 < N) (ex : ExactSamples N H (Ψ para) np smp lo hi y)
    (hmax : 0 < sDiagMax m (sDiag (m + 2) (avgOO np (fun p => mainCal false false (m + 2) (smp p) (lo p) (hi p) (st p)))))
    (hcut : 0 < redCut) (hdel : 0 < staDel) (c : Nat → ℝ) :
    let OO := avgOO np (fun p => mainCal false false (m + 2) (smp p) (lo p) (hi p) (st p))
    let l := smatToPara m flag (sDiag (m + 2) OO) redCut
    (∃ i, i < l.length ∧ c i ≠ 0) → 0 < ∑ i ∈ range l.length, ∑ j ∈ range l.length, c i * smat (m + 2) OO staDel (l.getD · 0) i j * c j := by
  intro OO l hc
  refine C31_positive_definite_partial np m smp lo hi st ?_ ?_ flag redCut staDel hmax hcut hdel c hc
  · intro z hz
    obtain ⟨x, hx, rfl⟩ := List.mem_map.mp (ex.perm.mem_iff.mp hz)
    rw [ex.w x (List.mem_range.mp hx)]
    exact Complex.normSq_pos.mpr (hpos x (List.mem_range.mp hx))
  · intro h
    have := ex.perm.length_eq
    rw [h, List.length_map, List.length_range] at this
    simp at this
    omega

theorem sel_lt (sd : Nat → ℝ) (si : Nat) (h : si < (smatToPara m flag sd redCut).length) : (smatToPara m flag sd redCut).getD si 0 < m := by
  have hmem : (smatToPara m flag sd redCut).getD si 0 ∈ smatToPara m flag sd redCut := by
    rw [List.getD_eq_getElem?_getD, List.getElem?_eq_getElem h]
    exact List.getElem_mem h
  exact (((C30_selection m flag _ redCut).1 _).mp hmem).1

/-- C70: the direction of the step is a direction of descent. If the solver returns the exact solution of its linear system, then along the
straight line from the old to the new parameters the energy starts with a slope `D ≤ 0`, and `D = 0` only if the force on every selected
component vanishes. -/
theorem C70_descent (hH : ∀ x x', x < N → x' < N → star (H x' x) = H x x') (hN : 0 < N) (hpos : ∀ x, x < N → Ψ para x ≠ 0)
    (ex : ExactSamples N H (Ψ para) np smp lo hi y) (hΨ : LogDerivs N m Ψ para (fun x => (y x).O))
    (hmax : 0 < sDiagMax m (sDiag (m + 2) (avgOO np (fun p => mainCal false false (m + 2) (smp p) (lo p) (hi p) (st p)))))
    (hcut : 0 < redCut) (hdel : 0 < staDel) (dt : ℝ) (hdt : 0 < dt) (r : Nat → ℝ) :
    let OO := avgOO np (fun p => mainCal false false (m + 2) (smp p) (lo p) (hi p) (st p))
    let HO := avgHO np (fun p => mainCal false false (m + 2) (smp p) (lo p) (hi p) (st p))
    let l := smatToPara m flag (sDiag (m + 2) OO) redCut
    Solves l.length (smat (m + 2) OO staDel (l.getD · 0)) (gvec OO HO dt (l.getD · 0)) r →
    ∃ D, HasDerivAt (fun t : ℝ => energyRQ N H (Ψ fun k => para k + t * (updatePara true l r para k - para k))) D 0 ∧ D ≤ 0 ∧
      (D = 0 ↔ ∀ i, i < l.length → gvec OO HO dt (l.getD · 0) i = 0) := by
  intro OO HO l hr
  have hn : 0 < normSqOf N (Ψ para) :=
    sum_pos' (fun x _ => Complex.normSq_nonneg _) ⟨0, mem_range.mpr hN, Complex.normSq_pos.mpr (hpos 0 hN)⟩
  obtain ⟨D, hD, hf⟩ := descent_deriv N H Ψ para np m smp lo hi st y hH hn ex hΨ l (fun si h => sel_lt m flag redCut _ si h) r dt
  have hq : -dt * D = ∑ i ∈ range l.length, ∑ j ∈ range l.length, r i * smat (m + 2) OO staDel (l.getD · 0) i j * r j := by
    rw [hf]
    refine sum_congr rfl (fun i hi' => ?_)
    rw [← hr i (mem_range.mp hi'), mul_sum]
    exact sum_congr rfl (fun j _ => by ring)
  by_cases hz : ∃ i, i < l.length ∧ r i ≠ 0
  · have hp := descent_pd N H Ψ para np m smp lo hi st y flag redCut staDel hpos hN ex hmax hcut hdel r hz
    have hneg : D < 0 := by
      by_contra hge
      have : 0 ≤ dt * D := mul_nonneg hdt.le (not_lt.mp hge)
      have h2 : 0 < -dt * D := by rw [hq]; exact hp
      linarith
    refine ⟨D, hD, hneg.le, fun h => absurd h hneg.ne, fun hg => ?_⟩
    have : -dt * D = 0 := by
      rw [hf]
      exact sum_eq_zero (fun i hi' => by rw [hg i (mem_range.mp hi'), mul_zero])
    have h3 := mul_pos_of_neg_of_neg (neg_lt_zero.mpr hdt) hneg
    linarith
  · push Not at hz
    have hD0 : D = 0 := by
      have : -dt * D = 0 := by
        rw [hf]
        exact sum_eq_zero (fun i hi' => by rw [hz i (mem_range.mp hi'), zero_mul])
      rcases mul_eq_zero.mp this with h | h
      · linarith
      · exact h
    refine ⟨D, hD, hD0.le, fun _ i hi' => ?_, fun _ => hD0⟩
    rw [← hr i hi']
    exact sum_eq_zero (fun j hj => by rw [hz j (mem_range.mp hj), mul_zero])

/-- C70: the linear system has exactly one solution. -/
theorem C70_solvable (hN : 0 < N) (hpos : ∀ x, x < N → Ψ para x ≠ 0) (ex : ExactSamples N H (Ψ para) np smp lo hi y)
    (hmax : 0 < sDiagMax m (sDiag (m + 2) (avgOO np (fun p => mainCal false false (m + 2) (smp p) (lo p) (hi p) (st p)))))
    (hcut : 0 < redCut) (hdel : 0 < staDel) (g : Nat → ℝ) :
    let OO := avgOO np (fun p => mainCal false false (m + 2) (smp p) (lo p) (hi p) (st p))
    let l := smatToPara m flag (sDiag (m + 2) OO) redCut
    (∃ r, Solves l.length (smat (m + 2) OO staDel (l.getD · 0)) g r) ∧
    ∀ r r', Solves l.length (smat (m + 2) OO staDel (l.getD · 0)) g r → Solves l.length (smat (m + 2) OO staDel (l.getD · 0)) g r' →
      ∀ i, i < l.length → r i = r' i := by
  intro OO l
  have key : ∀ c : Nat → ℝ, Solves l.length (smat (m + 2) OO staDel (l.getD · 0)) (fun _ => 0) c → ∀ i, i < l.length → c i = 0 := by
    intro c hc i hi'
    by_contra hne
    have hp := descent_pd N H Ψ para np m smp lo hi st y flag redCut staDel hpos hN ex hmax hcut hdel c ⟨i, hi', hne⟩
    refine absurd hp (not_lt.mpr (le_of_eq ?_))
    refine sum_eq_zero (fun a ha => ?_)
    have := hc a (mem_range.mp ha)
    calc _ = c a * ∑ j ∈ range l.length, smat (m + 2) OO staDel (l.getD · 0) a j * c j := by
          rw [mul_sum]; exact sum_congr rfl (fun j _ => by ring)
      _ = 0 := by rw [this, mul_zero]
  refine ⟨?_, fun r r' h h' i hi' => ?_⟩
  · let A : Matrix (Fin l.length) (Fin l.length) ℝ := fun i j => smat (m + 2) OO staDel (l.getD · 0) i j
    have hinj : Function.Injective A.mulVecLin := by
      rw [← LinearMap.ker_eq_bot, LinearMap.ker_eq_bot']
      intro v hv
      funext i
      have := key (fun k => if h : k < l.length then v ⟨k, h⟩ else 0) ?_ i i.2
      · simpa using this
      · intro a ha
        have h2 := congrFun hv ⟨a, ha⟩
        simp only [Matrix.mulVecLin_apply, Matrix.mulVec, dotProduct, Pi.zero_apply] at h2
        rw [Finset.sum_range, ← h2]
        refine sum_congr rfl (fun j _ => ?_)
        simp [A]
    obtain ⟨v, hv⟩ := (LinearMap.injective_iff_surjective.mp hinj) (fun i => g i)
    refine ⟨fun k => if h : k < l.length then v ⟨k, h⟩ else 0, fun a ha => ?_⟩
    have h2 := congrFun hv ⟨a, ha⟩
    simp only [Matrix.mulVecLin_apply, Matrix.mulVec, dotProduct] at h2
    rw [Finset.sum_range, ← h2]
    refine sum_congr rfl (fun j _ => ?_)
    simp [A]
  · have := key (fun k => r k - r' k) (fun a ha => by
      simp only [mul_sub, sum_sub_distrib]
      rw [h a ha, h' a ha, sub_self]) i hi'
    linarith

/-- C70: for every small enough step width the energy of the new parameters is lower than that of the old ones, unless the force on every
selected component vanishes. -/
theorem C70_energy_decreases (hH : ∀ x x', x < N → x' < N → star (H x' x) = H x x') (hN : 0 < N) (hpos : ∀ x, x < N → Ψ para x ≠ 0)
    (ex : ExactSamples N H (Ψ para) np smp lo hi y) (hΨ : LogDerivs N m Ψ para (fun x => (y x).O))
    (hmax : 0 < sDiagMax m (sDiag (m + 2) (avgOO np (fun p => mainCal false false (m + 2) (smp p) (lo p) (hi p) (st p)))))
    (hcut : 0 < redCut) (hdel : 0 < staDel) :
    let OO := avgOO np (fun p => mainCal false false (m + 2) (smp p) (lo p) (hi p) (st p))
    let HO := avgHO np (fun p => mainCal false false (m + 2) (smp p) (lo p) (hi p) (st p))
    let l := smatToPara m flag (sDiag (m + 2) OO) redCut
    (∃ i, i < l.length ∧ gvec OO HO 1 (l.getD · 0) i ≠ 0) →
    ∃ δ, 0 < δ ∧ ∀ dt, 0 < dt → dt < δ → ∀ r, Solves l.length (smat (m + 2) OO staDel (l.getD · 0)) (gvec OO HO dt (l.getD · 0)) r →
      energyRQ N H (Ψ (updatePara true l r para)) < energyRQ N H (Ψ para) := by
  intro OO HO l hne
  obtain ⟨⟨r1, h1⟩, _⟩ := C70_solvable N H Ψ para np m smp lo hi st y flag redCut staDel hN hpos ex hmax hcut hdel (gvec OO HO 1 (l.getD · 0))
  obtain ⟨D, hD, hle, hiff⟩ := C70_descent N H Ψ para np m smp lo hi st y flag redCut staDel hH hN hpos ex hΨ hmax hcut hdel 1 one_pos r1 h1
  have hneg : D < 0 := by
    refine lt_of_le_of_ne hle (fun h => ?_)
    obtain ⟨i, hi', hg⟩ := hne
    exact hg (hiff.mp h i hi')
  have hev := (hasDerivAt_iff_tendsto_slope.mp hD).eventually (gt_mem_nhds hneg)
  obtain ⟨δ, hδ, hball⟩ := Metric.mem_nhdsWithin_iff.mp hev
  refine ⟨δ, hδ, fun dt h0 hlt r hr => ?_⟩
  have hs : slope (fun t : ℝ => energyRQ N H (Ψ fun k => para k + t * (updatePara true l r1 para k - para k))) 0 dt < 0 :=
    hball ⟨by rw [Metric.mem_ball, Real.dist_eq, sub_zero, abs_of_pos h0]; exact hlt, by simpa using h0.ne'⟩
  have hru : ∀ i, i < l.length → r i = dt * r1 i := by
    refine (C70_solvable N H Ψ para np m smp lo hi st y flag redCut staDel hN hpos ex hmax hcut hdel (gvec OO HO dt (l.getD · 0))).2 r (fun i => dt * r1 i) hr ?_
    intro i hi'
    have e : gvec OO HO dt (l.getD · 0) i = dt * gvec OO HO 1 (l.getD · 0) i := by unfold gvec; ring
    rw [e, ← h1 i hi', mul_sum]
    exact sum_congr rfl (fun j _ => by ring)
  have hp : updatePara true l r para = fun k => para k + dt * (updatePara true l r1 para k - para k) :=
    funext (fun k => updatePara_smul l r1 r dt hru para k)
  rw [slope_def_field, sub_zero] at hs
  have h00 : (fun k => para k + ((0 : ℝ) : ℂ) * (updatePara true l r1 para k - para k)) = para := by funext k; simp
  simp only [h00] at hs
  rw [hp]
  have := (div_neg_iff.mp hs).resolve_left (fun h => by linarith [h.2])
  linarith [this.1]
end

/-- the state `(1, Re p₀)`: one real variational parameter -/
noncomputable def exPsi (para : Nat → ℂ) (x : Nat) : ℂ := if x = 0 then 1 else ((para 0).re : ℂ)

/-- `H = diag(0, 1)` -/
def exDiagH (x x' : Nat) : ℂ := if x = x' ∧ x = 1 then 1 else 0

theorem exPsi_log (s : Nat → Samp) (h0 : ∀ k, (s 0).O (k + 2) = 0) (h1 : ∀ k, (s 1).O (k + 2) = if k = 0 then 1 else 0) :
    LogDerivs 2 2 exPsi (fun _ => 1) (fun x => (s x).O) := by
  intro x hx v
  rcases (show x = 0 ∨ x = 1 by omega) with rfl | rfl
  · simp only [h0, mul_zero, sum_const_zero, zero_mul]
    exact hasDerivAt_const _ _
  · have e : (fun t : ℝ => exPsi (fun k => 1 + t * v k) 1) = fun t : ℝ => ((1 + t * (v 0).re : ℝ) : ℂ) := by
      funext t
      simp [exPsi]
    rw [e]
    have hd : HasDerivAt (fun t : ℝ => 1 + t * (v 0).re) (v 0).re 0 := by
      simpa using ((hasDerivAt_id (0 : ℝ)).mul_const (v 0).re).const_add 1
    refine (hd.ofReal_comp).congr_deriv ?_
    simp [h1, compOf, exPsi]

/-- C70, example: two configurations with energies 0 and 1 and amplitudes `(1, p)` at `p = 1`: one step lowers the energy
`p²/(1+p²)`. -/
example : ∃ δ, 0 < δ ∧ ∀ dt, 0 < dt → dt < δ → ∀ r : Nat → ℝ, 1 / 4 * (1 + 1 / 50) * r 0 = -dt * (1 / 2) →
    energyRQ 2 exDiagH (exPsi (updatePara true [0] r (fun _ => 1))) < energyRQ 2 exDiagH (exPsi (fun _ => 1)) := by
  have hf : List.filterMap (gradSamples 0) [0, 1] = [⟨1, 0, fun k => if k = 0 then 1 else if k = 2 then 0 else 0⟩,
    ⟨1, 1, fun k => if k = 0 then 1 else if k = 2 then 1 else 0⟩] := rfl
  have hk : allKept 1 gradSamples (fun _ => 0) (fun _ => 2) = List.filterMap (gradSamples 0) [0, 1] := by simp [allKept, kept, List.range']
  have hoo : ∀ i j, i < 4 → j < 4 → _ := fun i j (hi : i < 4) (hj : j < 4) =>
    avgOO_direct (np := 1) (smp := gradSamples) (lo := fun _ => 0) (hi := fun _ => 2) (st := fun _ _ => 0) hi hj
  simp only [hk, hf] at hoo
  have hho : ∀ j, j < 4 → _ := fun j (hj : j < 4) =>
    avgHO_direct (np := 1) (smp := gradSamples) (lo := fun _ => 0) (hi := fun _ => 2) (st := fun _ _ => 0) hj
  simp only [hk, hf] at hho
  set OO := avgOO 1 (fun p => mainCal false false 4 (gradSamples p) 0 2 (fun _ => 0)) with hOO
  set HO := avgHO 1 (fun p => mainCal false false 4 (gradSamples p) 0 2 (fun _ => 0)) with hHO
  have o2 : OO 2 = 1 / 2 := by have := hoo 0 2 (by decide) (by decide); norm_num [ooTerm] at this; rw [this]
  have o3 : OO 3 = 0 := by have := hoo 0 3 (by decide) (by decide); norm_num [ooTerm] at this; rw [this]
  have o22 : OO 10 = 1 / 2 := by have := hoo 2 2 (by decide) (by decide); norm_num [ooTerm] at this; rw [this]
  have o33 : OO 15 = 0 := by have := hoo 3 3 (by decide) (by decide); norm_num [ooTerm] at this; rw [this]
  have q2 : HO 2 = 1 / 2 := by have := hho 2 (by decide); norm_num at this; rw [this]
  have q0 : HO 0 = 1 / 2 := by have := hho 0 (by decide); norm_num at this; rw [this]
  have d0 : sDiag 4 OO 0 = 1 / 4 := by unfold sDiag; norm_num [o2, o22]
  have d1 : sDiag 4 OO 1 = 0 := by unfold sDiag; norm_num [o3, o33]
  have hm : sDiagMax 2 (sDiag 4 OO) = 1 / 4 := by
    unfold sDiagMax
    simp [List.range_succ, d0, d1]
  have hl : smatToPara 2 (fun _ => 1) (sDiag 4 OO) (1 / 10) = [0] := by
    rw [smatToPara_eq, hm]
    rw [show List.range 2 = [0, 1] from rfl, List.filter_cons, List.filter_cons, List.filter_nil, d0, d1]
    norm_num
  have main := C70_energy_decreases 2 exDiagH exPsi (fun _ => 1) 1 2 gradSamples (fun _ => 0) (fun _ => 2) (fun _ _ => 0)
    (fun x => ⟨1, if x = 0 then 0 else 1, fun k => if k = 0 then 1 else if k = 2 then (if x = 0 then 0 else 1) else 0⟩) (fun _ => 1) (1 / 10) (1 / 50)
    (by
      intro x x' hx hx'
      rcases (show x = 0 ∨ x = 1 by omega) with rfl | rfl <;> rcases (show x' = 0 ∨ x' = 1 by omega) with rfl | rfl <;> simp [exDiagH])
    (by decide) (by intro x hx; unfold exPsi; split <;> simp)
    ⟨by rw [hk]; exact List.Perm.refl _, by
      intro x hx; rcases (show x = 0 ∨ x = 1 by omega) with rfl | rfl <;> simp [exPsi], by
      intro x hx; rcases (show x = 0 ∨ x = 1 by omega) with rfl | rfl <;> rw [sum_range_succ, sum_range_one] <;> simp [exPsi, exDiagH], by
      intro x hx; simp⟩
    (exPsi_log _ (by intro k; simp) (by intro k; simp))
    (by rw [← hOO, hm]; norm_num) (by norm_num) (by norm_num)
  simp only [← hOO, ← hHO, hl] at main
  have g0 : ∀ dt, gvec OO HO dt (([0] : List Nat).getD · 0) 0 = -dt * (1 / 2) := by
    intro dt
    unfold gvec
    norm_num [q2, q0, o2]
    ring
  obtain ⟨δ, hδ, h⟩ := main ⟨0, by decide, by rw [g0]; norm_num⟩
  refine ⟨δ, hδ, fun dt a b r hr => h dt a b r ?_⟩
  intro i hi
  obtain rfl : i = 0 := by simpa using hi
  rw [g0, ← hr]
  have s0 : smat 4 OO (1 / 50) (([0] : List Nat).getD · 0) 0 0 = 1 / 4 * (1 + 1 / 50) := by
    unfold smat smat0
    norm_num [o2, o22]
  simp
  rw [show smat 4 OO 50⁻¹ (fun x => ([0] : List Nat)[x]?.getD 0) 0 0 = smat 4 OO (1 / 50) (([0] : List Nat).getD · 0) 0 0 by
    norm_num [List.getD_eq_getElem?_getD], s0]
  norm_num

end MVMC
