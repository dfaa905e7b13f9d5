import Verif.Proof.GaussTwo
import Mathlib.Analysis.SpecialFunctions.Trigonometric.Bounds

/-!
# C62: the spin projection

`InitQPWeight` tabulates a Gauss–Legendre rule in the angle `β` and weights it with `½ sin β P_S(cos β)`. The Pfaffian state summed with
these weights tends to an eigenstate of the total spin with eigenvalue `S(S+1)` as the number of points grows.
-/
namespace MVMC
open MVMC.Spec Finset Polynomial

/-- The state the program is meant to represent: charge factors times the sum over translations of the pair states projected to spin `S`. -/
noncomputable def projectedState (G : ParGlob) (Para paraQP : Nat → ℂ) (S : Nat) (l : List Nat) : ℂ :=
  corrSpec (G.env Para) (occupation l) * ∑ o ∈ range G.Q.nOpt, ∑ m ∈ range G.Q.nMP,
    (if G.flagOpt then Para (G.oOpt + o) else 1) * paraQP m *
      spinProjected G.Q.Nsite S (translated (fun k => Para (G.oSlater + k)) G.Q.orbIdx G.Q.orbSgn (G.Q.tr o m) (G.Q.sg o m)) l

/-- C62: `LegendrePoly` is the Legendre polynomial (and 1 for a negative index). -/
theorem C62_legendre (x : ℝ) (n : Nat) : legendrePoly x n = (legP n).eval x := legendrePoly_eq x n

theorem C62_legendre_neg (x : ℝ) {n : ℤ} (hn : n ≤ 0) : legendrePoly x n = 1 := if_pos hn

example : legendrePoly 3 2 = 13 := by
  norm_num [legendrePoly, show Int.toNat 2 - 1 = 1 from rfl, List.range']

/-- C62: a run of `GaussLeg` with tolerance 0 that returns distinct nodes is exact for all polynomials of degree below `2n`. -/
theorem C62_gauss_exact {x1 x2 : ℝ} (hx : x1 < x2) {fuel n : Nat} {x w : Nat → ℝ} {b : (Nat → ℝ) × (Nat → ℝ)}
    (h : gaussLeg x1 x2 0 fuel n x w = some b) (hs : ∀ i < n, ∀ j < n, i ≠ j → b.1 i ≠ b.1 j) {p : ℝ[X]}
    (hp : p.natDegree < 2 * n) : IntegratesExactly x1 x2 n b.1 b.2 (fun t => p.eval t) := gaussLeg_exact hx h hs hp

/-- C62: for a continuous integrand the result of `GaussLeg` is as close to the integral as one likes, for every large enough number of points
and every small enough tolerance. -/
theorem C62_gauss_limit {x1 x2 : ℝ} (hx : x1 < x2) {f : ℝ → ℝ} (hf : Continuous f) {δ : ℝ} (hδ : 0 < δ) :
    ∃ n0, ∀ n ≥ n0, ∃ ε0 > 0, ∀ eps ≤ ε0, ∀ fuel x w b, gaussLeg x1 x2 eps fuel n x w = some b → Separated x1 x2 eps n b.1 →
      |∑ i ∈ range n, b.2 i * f (b.1 i) - ∫ t in x1..x2, f t| < δ := gaussLeg_limit hx hf hδ

/-- C62: the projected pair state is an eigenstate of the total spin. -/
theorem C62_eigen (N S : Nat) (f : Nat → Nat → ℂ) {l : List Nat} (hl : IsConfig N l) (hz : SzZero N l) :
    applyAdj (spinSq N) (spinProjected N S f) l = S * (S + 1) * spinProjected N S f l := spinProjected_eigen f S hl hz

/-- C62: so is the whole trial state with its charge factors and translations. -/
theorem C62_trial_eigen (G : ParGlob) (Para paraQP : Nat → ℂ) (S : Nat) (hq : G.q.Nsite = G.Q.Nsite) (ht : TabOK G.q)
    (hr : RbmCharge G.Q.Nsite G.flagRBM G.rbm) {l : List Nat} (hl : IsConfig G.Q.Nsite l) (hz : SzZero G.Q.Nsite l) :
    applyAdj (spinSq G.Q.Nsite) (projectedState G Para paraQP S) l = S * (S + 1) * projectedState G Para paraQP S l := by
  have e : projectedState G Para paraQP S = fun l => corrSpec (G.env Para) (occupation l) * ∫ β in (0 : ℝ)..Real.pi, quadTerm G Para paraQP S β l := by
    funext l; rw [quadTerm_integral]; rfl
  rw [e, apply_charge (corrSpec_charge (G.env Para) hq ht hr) _ hl, apply_integral (fun m => quadTerm_cont G Para paraQP S m),
    quadTerm_eigen G Para paraQP S hl hz]
  ring

/-- C62: with enough quadrature points and a small enough tolerance, the amplitude computed with the tables of `InitQPWeight` is as close
as one likes to the projected state, and `S²` acts on it as multiplication with `S(S+1)` up to as small an error as one likes. -/
theorem C62_limit (G : ParGlob) (Para paraQP : Nat → ℂ) (S : Nat) (hN : G.p.Nsite = G.Q.Nsite) (hq : G.q.Nsite = G.Q.Nsite)
    (hm : 0 < G.Q.nMP) (hO : G.flagOpt = false → G.Q.nOpt = 1) (ht : TabOK G.q) (hr : RbmCharge G.Q.Nsite G.flagRBM G.rbm) {l : List Nat}
    (hl : IsConfig G.Q.Nsite l) (hz : SzZero G.Q.Nsite l) {δ : ℝ} (hδ : 0 < δ) :
    ∃ n0, ∀ n ≥ n0, ∃ ε0 > 0, ∀ eps ≤ ε0, ∀ fuel x w q b, initSpin eps fuel n S x w = some q →
      gaussLeg 0 Real.pi eps fuel n x w = some b → Separated 0 Real.pi eps n b.1 →
      ‖psi ((G.withSpin n q paraQP).env Para) l - projectedState G Para paraQP S l‖ < δ ∧
      ‖applyAdj (spinSq G.Q.Nsite) (psi ((G.withSpin n q paraQP).env Para)) l -
        S * (S + 1) * psi ((G.withSpin n q paraQP).env Para) l‖ < δ := by
  set C := corrSpec (G.env Para) (occupation l) with hC
  set δ' := δ / (‖C‖ + 1) with hδ'
  have hC1 : 0 < ‖C‖ + 1 := by positivity
  have hδ0 : 0 < δ' := div_pos hδ hC1
  have hlt : ∀ z : ℂ, ‖z‖ < δ' → ‖C * z‖ < δ := by
    intro z hz
    rw [norm_mul]
    have h1 : ‖z‖ * (‖C‖ + 1) < δ := (lt_div_iff₀ hC1).mp hz
    nlinarith [norm_nonneg z, norm_nonneg C]
  have hc2 : Continuous fun β => applyAdj (spinSq G.Q.Nsite) (quadTerm G Para paraQP S β) l - S * (S + 1) * quadTerm G Para paraQP S β l :=
    (quadTerm_spin_cont G Para paraQP S l).sub (continuous_const.mul (quadTerm_cont G Para paraQP S l))
  have hc1 : Continuous fun β => (S * (S + 1) : ℂ) * quadTerm G Para paraQP S β l := continuous_const.mul (quadTerm_cont G Para paraQP S l)
  have hi2 : ∫ β in (0 : ℝ)..Real.pi, (applyAdj (spinSq G.Q.Nsite) (quadTerm G Para paraQP S β) l - S * (S + 1) * quadTerm G Para paraQP S β l) = 0 := by
    rw [intervalIntegral.integral_sub ((quadTerm_spin_cont G Para paraQP S l).intervalIntegrable _ _)
      (hc1.intervalIntegrable _ _), quadTerm_eigen G Para paraQP S hl hz,
      intervalIntegral.integral_const_mul, sub_self]
  obtain ⟨n1, h1⟩ := gaussLeg_limit_complex Real.pi_pos (quadTerm_cont G Para paraQP S l) hδ0
  obtain ⟨n2, h2⟩ := gaussLeg_limit_complex Real.pi_pos hc2 hδ0
  refine ⟨max 2 (max n1 n2), fun n hn => ?_⟩
  obtain ⟨e1, he1, g1⟩ := h1 n (le_trans (le_trans (le_max_left _ _) (le_max_right _ _)) hn)
  obtain ⟨e2, he2, g2⟩ := h2 n (le_trans (le_trans (le_max_right _ _) (le_max_right _ _)) hn)
  refine ⟨min e1 e2, lt_min he1 he2, fun eps heps fuel x w q b hin hb hs => ?_⟩
  have k1 := g1 eps (heps.trans (min_le_left _ _)) fuel x w b hb hs
  have k2 := g2 eps (heps.trans (min_le_right _ _)) fuel x w b hb hs
  obtain ⟨b', hb', -, hpsi⟩ := psi_quad G Para paraQP hN hm hO (lt_of_lt_of_le (by norm_num) (le_trans (le_max_left _ _) hn)) hin
  obtain rfl : b = b' := Option.some.inj (hb.symm.trans hb')
  rw [hi2, sub_zero] at k2
  constructor
  · have e : projectedState G Para paraQP S l = C * ∫ β in (0 : ℝ)..Real.pi, quadTerm G Para paraQP S β l := by rw [quadTerm_integral]; rfl
    rw [hpsi l hl, e, ← mul_sub]
    exact hlt _ k1
  · have e : applyAdj (spinSq G.Q.Nsite) (psi ((G.withSpin n q paraQP).env Para)) l =
        C * ∑ i ∈ range n, (b.2 i : ℂ) * applyAdj (spinSq G.Q.Nsite) (quadTerm G Para paraQP S (b.1 i)) l := by
      rw [apply_congr (spinSq_cr G.Q.Nsite) hpsi hl,
        apply_charge (corrSpec_charge (G.env Para) hq ht hr) (fun m => ∑ i ∈ range n, (b.2 i : ℂ) * quadTerm G Para paraQP S (b.1 i) m) hl,
        apply_sum]
    rw [e, hpsi l hl]
    have e2 : C * ∑ i ∈ range n, (b.2 i : ℂ) * applyAdj (spinSq G.Q.Nsite) (quadTerm G Para paraQP S (b.1 i)) l -
        S * (S + 1) * (C * ∑ i ∈ range n, (b.2 i : ℂ) * quadTerm G Para paraQP S (b.1 i) l) =
        C * ∑ i ∈ range n, (b.2 i : ℂ) * (applyAdj (spinSq G.Q.Nsite) (quadTerm G Para paraQP S (b.1 i)) l -
          S * (S + 1) * quadTerm G Para paraQP S (b.1 i) l) := by
      simp only [mul_sub, Finset.sum_sub_distrib, Finset.mul_sum]
      congr 1
      exact Finset.sum_congr rfl fun i _ => by ring
    rw [e2]
    exact hlt _ k2

/-- C62: with one point nothing is projected: the amplitude is that of the unrotated pair states. -/
theorem C62_one_point (G : ParGlob) (Para paraQP : Nat → ℂ) (hN : G.p.Nsite = G.Q.Nsite)
    (hm : 0 < G.Q.nMP) (hO : G.flagOpt = false → G.Q.nOpt = 1) {eps : ℝ} {fuel : Nat} {S : ℤ} {x w : Nat → ℝ} {l : List Nat}
    (hl : IsConfig G.Q.Nsite l) : ∃ q, initSpin eps fuel 1 S x w = some q ∧ psi ((G.withSpin 1 q paraQP).env Para) l =
      corrSpec (G.env Para) (occupation l) * ∑ o ∈ range G.Q.nOpt, ∑ m ∈ range G.Q.nMP, (if G.flagOpt then Para (G.oOpt + o) else 1) * paraQP m *
        rotatedState G.Q.Nsite (translated (fun k => Para (G.oSlater + k)) G.Q.orbIdx G.Q.orbSgn (G.Q.tr o m) (G.Q.sg o m)) 0 l := by
  refine ⟨_, if_pos rfl, ?_⟩
  rw [psi_tables G Para paraQP hN hm hO (by norm_num) _ (fun i => by norm_num) (fun i => by norm_num) (fun i => by norm_num) hl]
  congr 1
  rw [Finset.sum_range_one]
  simp only [Complex.ofReal_one, one_mul]
  refine Finset.sum_congr rfl fun o _ => Finset.sum_congr rfl fun m _ => ?_
  unfold rotatedState transCoef transPair
  rw [zero_div, Real.cos_zero, Real.sin_zero, Complex.ofReal_one]

/-! ### what a finite number of points does -/

/-- the two-point rule of the projection to spin 2 has positive weights -/
theorem two_weight {eps : ℝ} {fuel : Nat} {x w : Nat → ℝ} {q : SpinQuad} (h : initSpin eps fuel 2 2 x w = some q) : 0 < q.w 0 ∧ 0 < q.w 1 := by
  unfold initSpin at h
  rw [if_neg (by norm_num)] at h
  rcases hb : gaussLeg 0 Real.pi eps fuel 2 x w with _ | b
  · rw [hb] at h; cases h
  · rw [hb] at h
    have hq := (Option.some.inj h).symm
    obtain ⟨z, v, z0, z1, z2, v0, b0, b1, w0, w1⟩ := gaussLeg_two hb
    have hp := Real.pi_pos
    set t := Real.pi / 2 * z with ht
    have t0 : 0 < t := by positivity
    have t1 : t < Real.pi / 2 := by rw [ht]; nlinarith
    have hs : z < Real.sin t := by
      have := Real.mul_lt_sin t0 t1
      rwa [ht, ← mul_assoc, div_mul_div_cancel₀ (by positivity), div_self (by norm_num), one_mul] at this
    have hc : 0 < Real.cos t := Real.cos_pos_of_mem_Ioo ⟨by linarith, t1⟩
    have hP : ∀ y : ℝ, legendrePoly y 2 = (3 * y ^ 2 - 1) / 2 := by
      intro y
      norm_num [legendrePoly, show Int.toNat 2 - 1 = 1 from rfl, List.range']
      ring
    have e0 : b.1 0 = Real.pi / 2 - t := by rw [b0, ht]; ring
    have e1 : b.1 1 = Real.pi / 2 + t := by rw [b1, ht]; ring
    have hW : 0 < 2 * (0.5 * (Real.pi - 0)) / v := by
      rw [sub_zero]; positivity
    have hL : 0 < (3 * Real.sin t ^ 2 - 1) / 2 := by nlinarith
    constructor
    · have : q.w 0 = 0.5 * Real.sin (b.1 0) * b.2 0 * legendrePoly (Real.cos (b.1 0)) 2 := by rw [hq]
      rw [this, w0, e0, Real.sin_pi_div_two_sub, Real.cos_pi_div_two_sub, hP]
      positivity
    · have : q.w 1 = 0.5 * Real.sin (b.1 1) * b.2 1 * legendrePoly (Real.cos (b.1 1)) 2 := by rw [hq]
      rw [this, w1, e1, add_comm, Real.sin_add_pi_div_two, Real.cos_add_pi_div_two, hP, neg_sq]
      positivity

/-- C62 is a statement about the limit only: the rule is in `β`, not in `cos β`, so no finite number of points projects exactly. With two
points and `NSPStot = 2` every run leaves a nonzero amplitude on a configuration with one doubly occupied site, on which `S²` gives 0. -/
theorem C62_two_points_inexact {eps : ℝ} {fuel : Nat} {x w : Nat → ℝ} {q : SpinQuad} (h : initSpin eps fuel 2 2 x w = some q) :
    psi ((exG.withSpin 2 q (fun _ => 1)).env exPara) [0, 2] ≠ 0 ∧
    applyAdj (spinSq 2) (psi ((exG.withSpin 2 q (fun _ => 1)).env exPara)) [0, 2] = 0 := by
  have hc : IsConfig 2 [0, 2] := ⟨by decide, by decide⟩
  have hq : (∀ i, q.cs i = q.co i * q.si i) ∧ (∀ i, q.cc i = q.co i * q.co i) ∧ (∀ i, q.ss i = q.si i * q.si i) ∧
      ∀ i, q.co i * q.co i + q.si i * q.si i = 1 := by
    unfold initSpin at h
    rw [if_neg (by norm_num)] at h
    rcases hb : gaussLeg 0 Real.pi eps fuel 2 x w with _ | b
    · rw [hb] at h; cases h
    · rw [hb] at h
      have hq := (Option.some.inj h).symm
      rw [hq]
      refine ⟨fun i => rfl, fun i => rfl, fun i => rfl, fun i => ?_⟩
      have := Real.cos_sq_add_sin_sq (0.5 * b.1 i)
      simp only [← sq]
      exact this
  have hpsi : ∀ l, IsConfig 2 l → psi ((exG.withSpin 2 q (fun _ => 1)).env exPara) l = corrSpec (exG.env exPara) (occupation l) *
      ∑ i ∈ range 2, (q.w i : ℂ) * pf (antisym (rotatedPair 2 (q.co i : ℂ) (q.si i : ℂ) (transPair exG exPara 0 0))) l := by
    intro l hl
    rw [psi_tables exG exPara (fun _ => 1) rfl (by decide) (fun _ => rfl) (by norm_num) q hq.1 hq.2.1 hq.2.2.1 hl]
    congr 1
    refine Finset.sum_congr rfl fun i _ => ?_
    rw [show exG.Q.nOpt = 1 from rfl, show exG.Q.nMP = 1 from rfl, Finset.sum_range_one, Finset.sum_range_one]
    rw [show transCoef exG exPara (fun _ => 1) 0 0 = 1 by simp [transCoef, exG], one_mul]
    rfl
  have hch : ChargeOnly 2 (corrSpec (exG.env exPara)) := corrSpec_charge (exG.env exPara) rfl exG_ok.tab (fun h => absurd h (by decide))
  constructor
  · rw [hpsi _ hc]
    refine mul_ne_zero ?_ ?_
    · unfold corrSpec
      refine mul_ne_zero (Complex.ofReal_ne_zero.mpr (Real.exp_pos _).ne') ?_
      rw [if_neg (show ¬ (exG.env exPara).flagRBM = true by decide)]
      exact one_ne_zero
    · have e : ∀ i, pf (antisym (rotatedPair 2 (q.co i : ℂ) (q.si i : ℂ) (transPair exG exPara 0 0))) [0, 2] = 2 := by
        intro i
        rw [show ([0, 2] : List Nat) = [0, 0 + 2] from rfl, pf_double (by norm_num)]
        have := congrArg (fun r : ℝ => (r : ℂ)) (hq.2.2.2 i)
        push_cast at this
        rw [this]
        simp [transPair, translated, exG, exQ, QPPar.tr, QPPar.sg, ParGlob.oSlater, ParGlob.nR, ProjPar.NProj, exPara]
      simp only [e]
      rw [Finset.sum_range_succ, Finset.sum_range_one]
      obtain ⟨p0, p1⟩ := two_weight h
      have : (q.w 0 : ℂ) * 2 + (q.w 1 : ℂ) * 2 = ((2 * (q.w 0 + q.w 1) : ℝ) : ℂ) := by push_cast; ring
      rw [this]
      exact Complex.ofReal_ne_zero.mpr (by positivity)
  · rw [apply_congr (spinSq_cr 2) hpsi hc, apply_charge hch (fun l => ∑ i ∈ range 2, (q.w i : ℂ) *
      pf (antisym (rotatedPair 2 (q.co i : ℂ) (q.si i : ℂ) (transPair exG exPara 0 0))) l) hc, apply_sum]
    rw [Finset.sum_eq_zero, mul_zero]
    intro i _
    rw [show ([0, 2] : List Nat) = [0, 0 + 2] from rfl, spinSq_double (by norm_num) (skew_altL (antisym_skew _) _), mul_zero]

/-- such runs exist for every tolerance, and their nodes are separated if it is at most 1/10 -/
theorem C62_two_points_run {eps : ℝ} (he : 0 < eps) (x w : Nat → ℝ) : ∃ fuel b q, gaussLeg 0 Real.pi eps fuel 2 x w = some b ∧
    initSpin eps fuel 2 2 x w = some q ∧ (eps ≤ 1 / 10 → Separated 0 Real.pi eps 2 b.1) := by
  obtain ⟨fuel, b, hb⟩ := gaussLeg_two_exists (x1 := 0) (x2 := Real.pi) he x w
  refine ⟨fuel, b, _, hb, by unfold initSpin; rw [if_neg (by norm_num), hb]; rfl, fun hs => ?_⟩
  obtain ⟨z, v, z0, z1, z2, v0, b0, b1, w0, w1⟩ := gaussLeg_two hb
  have hp := Real.pi_pos
  have hd : (Real.pi - 0) * ((2 : ℕ) + 1) * eps < Real.pi * z := by push_cast; nlinarith
  have e : b.1 1 - b.1 0 = Real.pi * z := by rw [b0, b1]; ring
  have hpos : 0 < Real.pi * z := by positivity
  intro i hi j hj hij
  have : (i = 0 ∧ j = 1) ∨ (i = 1 ∧ j = 0) := by omega
  rcases this with ⟨rfl, rfl⟩ | ⟨rfl, rfl⟩
  · rw [abs_sub_comm, e, abs_of_pos hpos]; exact hd
  · rw [e, abs_of_pos hpos]; exact hd

/-- one point with tolerance 0: the mid-point rule -/
example : ∃ b, gaussLeg 0 Real.pi 0 1 1 (fun _ => 0) (fun _ => 0) = some b ∧ b.1 0 = Real.pi / 2 ∧ b.2 0 = Real.pi := by
  have hs : glStart 1 0 = 0 := by
    unfold glStart
    rw [← Real.cos_pi_div_two]; congr 1; push_cast; ring
  have hpoly : glPoly 1 0 = (0, 1) := by simp [glPoly, List.range']
  have hpp : glPp 1 0 = 1 := by simp [glPp, hpoly]
  have hn : glNewton 0 1 1 (glStart 1 0) = some (0, 0) := by
    rw [hs]; simp [glNewton, hpp, hpoly]
  have hg : gaussLeg 0 Real.pi 0 1 1 (fun _ => 0) (fun _ => 0) =
      some (storeAt (storeAt (fun _ => 0) (0, 0.5 * (Real.pi + 0) - 0.5 * (Real.pi - 0) * 0)) (0, 0.5 * (Real.pi + 0) + 0.5 * (Real.pi - 0) * 0),
        storeAt (storeAt (fun _ => 0) (0, 2 * (0.5 * (Real.pi - 0)) / ((1 - 0 * 0) * 1 * 1))) (0, 2 * (0.5 * (Real.pi - 0)) / ((1 - 0 * 0) * 1 * 1))) := by
    unfold gaussLeg
    simp only [show List.range ((1 + 1) / 2) = [0] from rfl, List.foldl, glBody, Option.bind_some, hn, hpp]
    rw [if_neg (by norm_num)]
    rfl
  refine ⟨_, hg, ?_, ?_⟩
  · simp [storeAt]; ring
  · simp [storeAt]; ring

end MVMC
