import Mathlib.Analysis.SpecialFunctions.Trigonometric.DerivHyp
import Verif.Proof.SlaterDiff
import Verif.Proof.LocGrnBase

/-! Derivative of the Boltzmann-machine factor. -/
namespace MVMC
open MVMC.Spec Finset

theorem runStores_append {β : Type} (l l' : List (Nat × β)) (a : Nat → β) : runStores (l ++ l') a = runStores l' (runStores l a) := by
  unfold runStores; rw [List.foldl_append]

theorem pairStores {β : Type} (f g : Nat → β) (a : Nat → β) (n k : Nat) :
    runStores ((List.range n).flatMap fun i => [(2 * i, f i), (2 * i + 1, g i)]) a k
      = if k < 2 * n then (if k % 2 = 0 then f (k / 2) else g (k / 2)) else a k := by
  induction n with
  | zero => simp [runStores]
  | succ n ih =>
    rw [List.range_succ, List.flatMap_append, runStores_append]
    simp only [List.flatMap_cons, List.flatMap_nil, List.append_nil, runStores, List.foldl_cons, List.foldl_nil, storeAt]
    unfold runStores at ih
    rw [ih]
    by_cases h1 : k = 2 * n + 1
    · subst h1
      rw [if_pos rfl, if_pos (by omega), if_neg (by omega), show (2 * n + 1) / 2 = n by omega]
    · rw [if_neg h1]
      by_cases h0 : k = 2 * n
      · subst h0
        rw [if_pos rfl, if_pos (by omega), if_pos (by omega), show 2 * n / 2 = n by omega]
      · rw [if_neg h0]
        by_cases h : k < 2 * n
        · rw [if_pos h, if_pos (show k < 2 * (n + 1) by omega)]
        · rw [if_neg h, if_neg (show ¬ k < 2 * (n + 1) by omega)]

theorem zeroStores {β : Type} (v : β) (a : Nat → β) (n k : Nat) :
    runStores ((List.range n).map fun i => (i, v)) a k = if k < n then v else a k := by
  induction n with
  | zero => simp [runStores]
  | succ n ih =>
    rw [List.range_succ, List.map_append, runStores_append]
    simp only [List.map_cons, List.map_nil, runStores, List.foldl_cons, List.foldl_nil, storeAt]
    unfold runStores at ih
    rw [ih]
    by_cases h : k = n
    · subst h
      rw [if_pos rfl, if_pos (by omega)]
    · rw [if_neg h]
      by_cases h : k < n
      · rw [if_pos h, if_pos (by omega)]
      · rw [if_neg h, if_neg (by omega)]

/-- what one group of hidden units adds -/
theorem rbmAdds_even (nh nr oB oX : Nat) (H : Nat → Nat) (X : Nat → Nat → Nat) (th : Nat → ℂ) (xi : Nat → Int) (a : Nat → ℂ) (j : Nat) :
    runAdds (rbmDiffAdds nh nr (2 * oB) (2 * oX) H X th xi) a (2 * j)
      = a (2 * j) + ∑ h ∈ range nh, th h * ((if oB + H h = j then 1 else 0) + ∑ r ∈ range nr, (if oX + X r h = j then 1 else 0) * (xi r : ℂ)) := by
  rw [runAdds_eq]
  unfold rbmDiffAdds
  rw [sum_flatMap]
  congr 1
  refine sum_congr rfl (fun h _ => ?_)
  rw [List.map_append, List.sum_append, sum_flatMap, mul_add, mul_sum]
  congr 1
  · simp only [List.map_cons, List.map_nil, List.sum_cons, List.sum_nil, add_zero]
    rw [if_neg (show ¬ 2 * H h + 2 * oB + 1 = 2 * j by omega), add_zero]
    by_cases e : oB + H h = j
    · rw [if_pos e, if_pos (by omega), mul_one]
    · rw [if_neg e, if_neg (by omega), mul_zero]
  · refine sum_congr rfl (fun r _ => ?_)
    simp only [List.map_cons, List.map_nil, List.sum_cons, List.sum_nil, add_zero]
    rw [if_neg (show ¬ 2 * X r h + 2 * oX + 1 = 2 * j by omega), add_zero]
    by_cases e : oX + X r h = j
    · rw [if_pos e, if_pos (by omega)]; ring
    · rw [if_neg e, if_neg (by omega)]; ring

theorem rbmAdds_odd (nh nr oB oX : Nat) (H : Nat → Nat) (X : Nat → Nat → Nat) (th : Nat → ℂ) (xi : Nat → Int) (a : Nat → ℂ) (j : Nat) :
    runAdds (rbmDiffAdds nh nr (2 * oB) (2 * oX) H X th xi) a (2 * j + 1)
      = a (2 * j + 1) + Complex.I * ∑ h ∈ range nh, th h * ((if oB + H h = j then 1 else 0) + ∑ r ∈ range nr, (if oX + X r h = j then 1 else 0) * (xi r : ℂ)) := by
  rw [runAdds_eq]
  unfold rbmDiffAdds
  rw [sum_flatMap, mul_sum]
  congr 1
  refine sum_congr rfl (fun h _ => ?_)
  rw [List.map_append, List.sum_append, sum_flatMap, mul_add, mul_add, mul_sum, mul_sum]
  congr 1
  · simp only [List.map_cons, List.map_nil, List.sum_cons, List.sum_nil, add_zero]
    rw [if_neg (show ¬ 2 * H h + 2 * oB = 2 * j + 1 by omega), zero_add]
    by_cases e : oB + H h = j
    · rw [if_pos e, if_pos (by omega), mul_one]
    · rw [if_neg e, if_neg (by omega), mul_zero, mul_zero]
  · refine sum_congr rfl (fun r _ => ?_)
    simp only [List.map_cons, List.map_nil, List.sum_cons, List.sum_nil, add_zero]
    rw [if_neg (show ¬ 2 * X r h + 2 * oX = 2 * j + 1 by omega), zero_add]
    by_cases e : oX + X r h = j
    · rw [if_pos e, if_pos (by omega)]; ring
    · rw [if_neg e, if_neg (by omega)]; ring

/-- the three groups -/
noncomputable def rbmGroups (p : RBMPar ℂ) (cnt : Nat → ℂ) (num : Arr) (j : Nat) : ℂ :=
  (∑ h ∈ range p.hC, Complex.tanh (cnt (h + p.nPhys)) * ((if p.nPhys + p.cH h = j then 1 else 0)
      + ∑ r ∈ range p.Nsite, (if p.nPhys + p.nHid + p.cX r h = j then 1 else 0) * ((num r + num (r + p.Nsite) - 1 : Int) : ℂ)))
  + (∑ h ∈ range p.hS, Complex.tanh (cnt (h + p.nPhys + p.hC)) * ((if p.nPhys + p.nCH + p.sH h = j then 1 else 0)
      + ∑ r ∈ range p.Nsite, (if p.nPhys + p.nHid + p.nCX + p.sX r h = j then 1 else 0) * ((num r - num (r + p.Nsite) : Int) : ℂ)))
  + (∑ h ∈ range p.hG, Complex.tanh (cnt (h + p.nPhys + p.hC + p.hS)) * ((if p.nPhys + p.nCH + p.nSH + p.gH h = j then 1 else 0)
      + ∑ r ∈ range (2 * p.Nsite), (if p.nPhys + p.nHid + p.nCX + p.nSX + p.gX r h = j then 1 else 0) * ((2 * num r - 1 : Int) : ℂ)))

theorem rbmDiff_even {p : RBMPar ℂ} {cnt : Nat → ℂ} {num : Arr} {out : Nat → ℂ} {j : Nat} (hj : j < p.nRBM) :
    rbmDiff p cnt num out (2 * j) = (if j < p.nPhys then cnt j else 0) + rbmGroups p cnt num j := by
  unfold rbmDiff
  simp only [← Nat.mul_add]
  rw [rbmAdds_even, rbmAdds_even, rbmAdds_even, pairStores, zeroStores, if_pos (by omega : 2 * j < 2 * p.nRBM)]
  unfold rbmGroups
  rw [if_pos (by omega : 2 * j % 2 = 0), show 2 * j / 2 = j by omega]
  by_cases h : j < p.nPhys
  · rw [if_pos h, if_pos (by omega)]; ring
  · rw [if_neg h, if_neg (by omega)]; ring

theorem rbmDiff_odd {p : RBMPar ℂ} {cnt : Nat → ℂ} {num : Arr} {out : Nat → ℂ} {j : Nat} (hj : j < p.nRBM) :
    rbmDiff p cnt num out (2 * j + 1) = Complex.I * rbmDiff p cnt num out (2 * j) := by
  rw [rbmDiff_even hj]
  unfold rbmDiff
  simp only [← Nat.mul_add]
  rw [rbmAdds_odd, rbmAdds_odd, rbmAdds_odd, pairStores, zeroStores, if_pos (by omega : 2 * j + 1 < 2 * p.nRBM)]
  unfold rbmGroups
  rw [if_neg (by omega : ¬ (2 * j + 1) % 2 = 0), show (2 * j + 1) / 2 = j by omega]
  by_cases h : j < p.nPhys
  · rw [if_pos h, if_pos (by omega)]; ring
  · rw [if_neg h, if_neg (by omega)]; ring

/-! ### the derivative -/

/-- parameter `j` replaced -/
def RBMPar.setPar {K : Type} (p : RBMPar K) (f : Nat → K) : RBMPar K := { p with par := f }

/-- indicator of parameter `j` -/
def unitPar (j : Nat) : Nat → ℂ := fun i => if i = j then 1 else 0

theorem update_unit (f : Nat → ℂ) (j : Nat) (z : ℂ) (i : Nat) : Function.update f j z i = f i + (z - f j) * unitPar j i := by
  unfold unitPar
  by_cases h : i = j
  · subst h; simp
  · simp [h]

theorem cnt_affine (p : RBMPar ℂ) (num : Arr) (j : Nat) (z : ℂ) (k : Nat) :
    makeRBMCnt (p.setPar (Function.update p.par j z)) num k
      = makeRBMCnt p num k + (z - p.par j) * (rbmHidSum (p.setPar (unitPar j)) k + rbmCoupSum (p.setPar (unitPar j)) num k) := by
  rw [makeRBMCnt_apply, makeRBMCnt_apply]
  have a : rbmPhysSum (p.setPar (Function.update p.par j z)) num k = rbmPhysSum p num k := rfl
  have tri : ∀ (c : Prop) [Decidable c] (x y w d : ℂ), x = y + d * w → (if c then x else 0) = (if c then y else 0) + d * (if c then w else 0) := by
    intro c _ x y w d h
    split_ifs
    · exact h
    · ring
  have b : rbmHidSum (p.setPar (Function.update p.par j z)) k = rbmHidSum p k + (z - p.par j) * rbmHidSum (p.setPar (unitPar j)) k := by
    unfold rbmHidSum
    have t1 := tri (p.nCH > 0) _ _ _ (z - p.par j) (show ∑ h ∈ range p.hC, eqI k (h + p.nPhys) * Function.update p.par j z (p.nPhys + p.cH h)
      = ∑ h ∈ range p.hC, eqI k (h + p.nPhys) * p.par (p.nPhys + p.cH h) + (z - p.par j) * ∑ h ∈ range p.hC, eqI k (h + p.nPhys) * unitPar j (p.nPhys + p.cH h) by
        rw [mul_sum, ← sum_add_distrib]
        exact sum_congr rfl (fun h _ => by rw [update_unit]; ring))
    have t2 := tri (p.nSH > 0) _ _ _ (z - p.par j) (show ∑ h ∈ range p.hS, eqI k (h + p.nPhys + p.hC) * Function.update p.par j z (p.nPhys + (p.sH h + p.nCH))
      = ∑ h ∈ range p.hS, eqI k (h + p.nPhys + p.hC) * p.par (p.nPhys + (p.sH h + p.nCH)) + (z - p.par j) * ∑ h ∈ range p.hS, eqI k (h + p.nPhys + p.hC) * unitPar j (p.nPhys + (p.sH h + p.nCH)) by
        rw [mul_sum, ← sum_add_distrib]
        exact sum_congr rfl (fun h _ => by rw [update_unit]; ring))
    have t3 := tri (p.nGH > 0) _ _ _ (z - p.par j) (show ∑ h ∈ range p.hG, eqI k (h + (p.nPhys + p.hC + p.hS)) * Function.update p.par j z (p.nPhys + (p.gH h + (p.nCH + p.nSH)))
      = ∑ h ∈ range p.hG, eqI k (h + (p.nPhys + p.hC + p.hS)) * p.par (p.nPhys + (p.gH h + (p.nCH + p.nSH))) + (z - p.par j) * ∑ h ∈ range p.hG, eqI k (h + (p.nPhys + p.hC + p.hS)) * unitPar j (p.nPhys + (p.gH h + (p.nCH + p.nSH))) by
        rw [mul_sum, ← sum_add_distrib]
        exact sum_congr rfl (fun h _ => by rw [update_unit]; ring))
    refine (congrArg₂ (· + ·) (congrArg₂ (· + ·) t1 t2) t3).trans ?_
    show _ + _ + _ = _ + _ + _ + _ * (_ + _ + _)
    unfold RBMPar.hidden RBMPar.nPhys RBMPar.setPar
    ring
  have c : rbmCoupSum (p.setPar (Function.update p.par j z)) num k = rbmCoupSum p num k + (z - p.par j) * rbmCoupSum (p.setPar (unitPar j)) num k := by
    unfold rbmCoupSum
    have lin : ∀ (nh nr : Nat) (E : Nat → ℂ) (ix : Nat → Nat → Nat) (x : Nat → ℂ),
        ∑ h ∈ range nh, E h * ∑ r ∈ range nr, Function.update p.par j z (ix r h) * x r
        = ∑ h ∈ range nh, E h * ∑ r ∈ range nr, p.par (ix r h) * x r
          + (z - p.par j) * ∑ h ∈ range nh, E h * ∑ r ∈ range nr, unitPar j (ix r h) * x r := by
      intro nh nr E ix x
      rw [mul_sum, ← sum_add_distrib]
      refine sum_congr rfl (fun h _ => ?_)
      rw [mul_left_comm, ← mul_add]
      congr 1
      rw [mul_sum, ← sum_add_distrib]
      exact sum_congr rfl (fun r _ => by rw [update_unit]; ring)
    have t1 := tri (p.nCX > 0) _ _ _ (z - p.par j) (lin p.hC p.Nsite (fun h => eqI k (h + p.nPhys)) (fun r h => p.nPhys + p.nHid + p.cX r h) (visC p.Nsite num))
    have t2 := tri (p.nSX > 0) _ _ _ (z - p.par j) (lin p.hS p.Nsite (fun h => eqI k (h + p.nPhys + p.hC)) (fun r h => p.nPhys + p.nHid + (p.sX r h + p.nCX)) (visS p.Nsite num))
    have t3 := tri (p.nGX > 0) _ _ _ (z - p.par j) (lin p.hG (2 * p.Nsite) (fun h => eqI k (h + (p.nPhys + p.hC + p.hS))) (fun r h => p.nPhys + p.nHid + (p.gX r h + (p.nCX + p.nSX))) (visG num))
    refine (congrArg₂ (· + ·) (congrArg₂ (· + ·) t1 t2) t3).trans ?_
    show _ + _ + _ = _ + _ + _ + _ * (_ + _ + _)
    unfold RBMPar.physHidden RBMPar.nPhys RBMPar.nHid RBMPar.setPar
    ring
  rw [a, b, c]
  ring

theorem cnt_deriv (p : RBMPar ℂ) (num : Arr) (j k : Nat) :
    HasDerivAt (fun z => makeRBMCnt (p.setPar (Function.update p.par j z)) num k)
      (rbmHidSum (p.setPar (unitPar j)) k + rbmCoupSum (p.setPar (unitPar j)) num k) (p.par j) := by
  have e : (fun z => makeRBMCnt (p.setPar (Function.update p.par j z)) num k)
      = fun z => makeRBMCnt p num k + (z - p.par j) * (rbmHidSum (p.setPar (unitPar j)) k + rbmCoupSum (p.setPar (unitPar j)) num k) := by
    funext z; exact cnt_affine p num j z k
  rw [e]
  have := (((hasDerivAt_id (p.par j)).sub_const (p.par j)).mul_const
    (rbmHidSum (p.setPar (unitPar j)) k + rbmCoupSum (p.setPar (unitPar j)) num k)).const_add (makeRBMCnt p num k)
  simpa using this

theorem prod_cosh_deriv (n : Nat) (θ : Nat → ℂ → ℂ) (θ' : Nat → ℂ) (z : ℂ) (h : ∀ k < n, HasDerivAt (θ k) (θ' k) z)
    (hc : ∀ k < n, Complex.cosh (θ k z) ≠ 0) :
    HasDerivAt (fun t => ∏ k ∈ range n, Complex.cosh (θ k t))
      ((∑ k ∈ range n, Complex.tanh (θ k z) * θ' k) * ∏ k ∈ range n, Complex.cosh (θ k z)) z := by
  induction n with
  | zero => simpa using hasDerivAt_const z (1 : ℂ)
  | succ n ih =>
    simp only [prod_range_succ, sum_range_succ]
    have d := (ih (fun k hk => h k (by omega)) (fun k hk => hc k (by omega))).mul ((h n (by omega)).ccosh)
    refine d.congr_deriv ?_
    have := hc n (by omega)
    rw [Complex.tanh_eq_sinh_div_cosh]
    field_simp

/-- **the derivative of the Boltzmann-machine factor** -/
theorem rbmSpec_deriv {p : RBMPar ℂ} (ht : RBMTab p) (num : Arr)
    (hc : ∀ h < p.nNeuron, Complex.cosh (makeRBMCnt p num (h + p.nPhys)) ≠ 0) (j : Nat) :
    HasDerivAt (fun z => rbmSpec (p.setPar (Function.update p.par j z)) num)
      (((if j < p.nPhys then makeRBMCnt p num j else 0)
        + ∑ h ∈ range p.nNeuron, Complex.tanh (makeRBMCnt p num (h + p.nPhys)) * makeRBMCnt (p.setPar (unitPar j)) num (h + p.nPhys)) * rbmSpec p num)
      (p.par j) := by
  have ht' : ∀ f, RBMTab (p.setPar f) := fun f => ⟨ht.cP, ht.sP, ht.gP⟩
  have e : (fun z => rbmSpec (p.setPar (Function.update p.par j z)) num)
      = fun z => Complex.exp (∑ i ∈ range p.nPhys, Function.update p.par j z i * makeRBMCnt p num i)
        * ∏ h ∈ range p.nNeuron, Complex.cosh (makeRBMCnt (p.setPar (Function.update p.par j z)) num (h + p.nPhys)) := by
    funext z
    rw [← rbmSpec_eq (ht' _)]
    unfold rbmValue
    congr 2
    refine sum_congr rfl (fun i hi => ?_)
    show _ * makeRBMCnt (p.setPar (Function.update p.par j z)) num i = _
    rw [cnt_affine, rbmHidSum_phys _ (show i < (p.setPar (unitPar j)).nPhys from mem_range.mp hi),
      rbmCoupSum_phys _ num (show i < (p.setPar (unitPar j)).nPhys from mem_range.mp hi)]
    show Function.update p.par j z i * _ = _
    ring
  have e0 : (p.setPar (Function.update p.par j (p.par j))) = p := by
    rw [Function.update_eq_self]; rfl
  have hE : HasDerivAt (fun z => ∑ i ∈ range p.nPhys, Function.update p.par j z i * makeRBMCnt p num i)
      (if j < p.nPhys then makeRBMCnt p num j else 0) (p.par j) := by
    have := HasDerivAt.fun_sum (u := range p.nPhys) (fun i _ => update_deriv p.par j i (makeRBMCnt p num i) (p.par j))
    refine this.congr_deriv ?_
    rw [sum_ite_eq' (range p.nPhys) j (fun i => makeRBMCnt p num i)]
    simp
  have hP := prod_cosh_deriv p.nNeuron (fun h z => makeRBMCnt (p.setPar (Function.update p.par j z)) num (h + p.nPhys))
    _ (p.par j) (fun h _ => cnt_deriv p num j (h + p.nPhys)) (fun h hh => by rw [e0]; exact hc h hh)
  have hp0 : ∀ h, rbmHidSum (p.setPar (unitPar j)) (h + p.nPhys) + rbmCoupSum (p.setPar (unitPar j)) num (h + p.nPhys)
      = makeRBMCnt (p.setPar (unitPar j)) num (h + p.nPhys) := by
    intro h
    rw [makeRBMCnt_apply, physSum_hid (ht' _) num (show (p.setPar (unitPar j)).nPhys ≤ h + p.nPhys from Nat.le_add_left _ _)]
    ring
  rw [e]
  refine (hE.cexp.mul hP).congr_deriv ?_
  rw [← rbmSpec_eq ht]
  unfold rbmValue
  simp only [e0, hp0]
  simp only [Function.update_eq_self]
  ring

/-- the couplings of a present group are present -/
structure RBMFull (p : RBMPar ℂ) : Prop where
  c : 0 < p.hC → 0 < p.nCH ∧ 0 < p.nCX
  s : 0 < p.hS → 0 < p.nSH ∧ 0 < p.nSX
  g : 0 < p.hG → 0 < p.nGH ∧ 0 < p.nGX

theorem groups_eq {p : RBMPar ℂ} (ht : RBMTab p) (hf : RBMFull p) (cnt : Nat → ℂ) (num : Arr) (j : Nat) :
    ∑ h ∈ range p.nNeuron, Complex.tanh (cnt (h + p.nPhys)) * makeRBMCnt (p.setPar (unitPar j)) num (h + p.nPhys)
      = rbmGroups p cnt num j := by
  have ht' : RBMTab (p.setPar (unitPar j)) := ⟨ht.cP, ht.sP, ht.gP⟩
  have e : p.nNeuron = p.hC + p.hS + p.hG + p.extra := by unfold RBMPar.nNeuron; omega
  rw [e, sum_range_add, sum_range_add, sum_range_add]
  have h4 : ∑ x ∈ range p.extra, Complex.tanh (cnt (p.hC + p.hS + p.hG + x + p.nPhys)) *
      makeRBMCnt (p.setPar (unitPar j)) num (p.hC + p.hS + p.hG + x + p.nPhys) = 0 := by
    apply sum_eq_zero
    intro x _
    rw [make_out ht' num (show p.nPhys + p.hC + p.hS + p.hG ≤ p.hC + p.hS + p.hG + x + p.nPhys by omega), mul_zero]
  rw [h4, add_zero]
  unfold rbmGroups
  congr 1
  · congr 1
    · refine sum_congr rfl (fun h hh => ?_)
      have hh := mem_range.mp hh
      have m := make_hidC ht' num (show h < (p.setPar (unitPar j)).hC from hh)
      rw [show h + p.nPhys = (p.setPar (unitPar j)).nPhys + h from Nat.add_comm _ _, m]
      unfold hiddenInput
      rw [if_pos (show (p.setPar (unitPar j)).nCH > 0 from (hf.c (by omega)).1)]
      congr 2
      refine sum_congr rfl (fun r _ => ?_)
      beta_reduce
      rw [if_pos (show (p.setPar (unitPar j)).nCX > 0 from (hf.c (by omega)).2), ← visC_eq]
      rfl
    · refine sum_congr rfl (fun h hh => ?_)
      have hh := mem_range.mp hh
      have m := make_hidS ht' num (show h < (p.setPar (unitPar j)).hS from hh)
      rw [show p.hC + h + p.nPhys = (p.setPar (unitPar j)).nPhys + (p.setPar (unitPar j)).hC + h by
        show p.hC + h + p.nPhys = p.nPhys + p.hC + h; omega, m,
        show h + p.nPhys + p.hC = (p.setPar (unitPar j)).nPhys + (p.setPar (unitPar j)).hC + h by
        show h + p.nPhys + p.hC = p.nPhys + p.hC + h; omega]
      unfold hiddenInput
      rw [if_pos (show (p.setPar (unitPar j)).nSH > 0 from (hf.s (by omega)).1)]
      congr 2
      · show unitPar j (p.nPhys + (p.sH h + p.nCH)) = _
        unfold unitPar
        rw [show p.nPhys + (p.sH h + p.nCH) = p.nPhys + p.nCH + p.sH h by omega]
      · refine sum_congr rfl (fun r _ => ?_)
        beta_reduce
        rw [if_pos (show (p.setPar (unitPar j)).nSX > 0 from (hf.s (by omega)).2), ← visS_eq]
        show unitPar j (p.nPhys + p.nHid + (p.sX r h + p.nCX)) * _ = _
        unfold unitPar
        rw [show p.nPhys + p.nHid + (p.sX r h + p.nCX) = p.nPhys + p.nHid + p.nCX + p.sX r h by omega]
        rfl
  · refine sum_congr rfl (fun h hh => ?_)
    have hh := mem_range.mp hh
    have m := make_hidG ht' num (show h < (p.setPar (unitPar j)).hG from hh)
    rw [show p.hC + p.hS + h + p.nPhys = (p.setPar (unitPar j)).nPhys + (p.setPar (unitPar j)).hC + (p.setPar (unitPar j)).hS + h by
      show p.hC + p.hS + h + p.nPhys = p.nPhys + p.hC + p.hS + h; omega, m,
      show h + p.nPhys + p.hC + p.hS = (p.setPar (unitPar j)).nPhys + (p.setPar (unitPar j)).hC + (p.setPar (unitPar j)).hS + h by
      show h + p.nPhys + p.hC + p.hS = p.nPhys + p.hC + p.hS + h; omega]
    unfold hiddenInput
    rw [if_pos (show (p.setPar (unitPar j)).nGH > 0 from (hf.g (by omega)).1)]
    congr 2
    · show unitPar j (p.nPhys + (p.gH h + (p.nCH + p.nSH))) = _
      unfold unitPar
      rw [show p.nPhys + (p.gH h + (p.nCH + p.nSH)) = p.nPhys + p.nCH + p.nSH + p.gH h by omega]
    · refine sum_congr rfl (fun r _ => ?_)
      beta_reduce
      rw [if_pos (show (p.setPar (unitPar j)).nGX > 0 from (hf.g (by omega)).2), ← visG_eq]
      show unitPar j (p.nPhys + p.nHid + (p.gX r h + (p.nCX + p.nSX))) * _ = _
      unfold unitPar
      rw [show p.nPhys + p.nHid + (p.gX r h + (p.nCX + p.nSX)) = p.nPhys + p.nHid + p.nCX + p.nSX + p.gX r h by omega]
      rfl

/-- parameter numbers in the tables are in range -/
structure RBMIdx (p : RBMPar ℂ) : Prop where
  cH : ∀ h < p.hC, p.cH h < p.nCH
  sH : ∀ h < p.hS, p.sH h < p.nSH
  gH : ∀ h < p.hG, p.gH h < p.nGH
  cX : ∀ h < p.hC, ∀ r < p.Nsite, p.cX r h < p.nCX
  sX : ∀ h < p.hS, ∀ r < p.Nsite, p.sX r h < p.nSX
  gX : ∀ h < p.hG, ∀ r < 2 * p.Nsite, p.gX r h < p.nGX

theorem groups_out {p : RBMPar ℂ} (hx : RBMIdx p) (cnt : Nat → ℂ) (num : Arr) {j : Nat} (hj : p.nRBM ≤ j) : rbmGroups p cnt num j = 0 := by
  have hj : p.nHid + p.nPhys + (p.nCX + p.nSX + p.nGX) ≤ j := hj
  have hh : p.nHid = p.nCH + p.nSH + p.nGH := rfl
  unfold rbmGroups
  have z : ∀ (nh nr : Nat) (t : Nat → ℂ) (B : Nat → Nat) (X : Nat → Nat → Nat) (x : Nat → ℂ), (∀ h < nh, B h ≠ j) → (∀ h < nh, ∀ r < nr, X r h ≠ j) →
      ∑ h ∈ range nh, t h * ((if B h = j then 1 else 0) + ∑ r ∈ range nr, (if X r h = j then 1 else 0) * x r) = 0 := by
    intro nh nr t B X x h1 h2
    refine sum_eq_zero (fun h hh => ?_)
    rw [if_neg (h1 h (mem_range.mp hh)), sum_eq_zero (fun r hr => by rw [if_neg (h2 h (mem_range.mp hh) r (mem_range.mp hr)), zero_mul])]
    ring
  rw [z, z, z]
  · ring
  · intro h h1; have := hx.gH h h1; omega
  · intro h h1 r h2; have := hx.gX h h1 r h2; omega
  · intro h h1; have := hx.sH h h1; omega
  · intro h h1 r h2; have := hx.sX h h1 r h2; omega
  · intro h h1; have := hx.cH h h1; omega
  · intro h h1 r h2; have := hx.cX h h1 r h2; omega

end MVMC
