import Verif.Proof.Parameter
import Verif.Proof.SrOptO

namespace MVMC
open Spec

/-- number of particles from the occupations of a list -/
theorem occ_total {N : Nat} {l : List Nat} (hn : l.Nodup) (hl : ∀ x ∈ l, x < 2 * N) :
    ∑ r ∈ Finset.range N, (occupation l r + occupation l (r + N) - 1) = (l.length : Int) - N := by
  have h1 : ∑ x ∈ Finset.range (2 * N), occupation l x = (l.length : Int) := by
    unfold occupation
    rw [← Finset.sum_filter, Finset.sum_const, nsmul_eq_mul, mul_one]
    congr 1
    rw [← List.toFinset_card_of_nodup hn]
    congr 1
    ext x
    simp only [Finset.mem_filter, Finset.mem_range, List.mem_toFinset]
    exact ⟨fun h => h.2, fun h => ⟨hl x h, h⟩⟩
  rw [two_mul, Finset.sum_range_add] at h1
  rw [Finset.sum_sub_distrib, Finset.sum_add_distrib]
  simp only [Finset.sum_const, Finset.card_range, nsmul_eq_mul, mul_one]
  rw [← h1]
  congr 2
  exact Finset.sum_congr rfl fun r _ => by rw [add_comm]

theorem occ_bin (l : List Nat) (N : Nat) : Bin01 N (occupation l) (fun r => occupation l (r + N)) := by
  intro r _
  unfold occupation
  constructor
  · by_cases h : r ∈ l <;> simp [h]
  · by_cases h : r + N ∈ l <;> simp [h]

/-- the correlation factor after the shifts -/
theorem projSpec_sync {q : ProjPar} (ht : TabOK q) (o : Nat → Int) (P : Nat → ℂ) :
    ∃ κ : Int → ℝ, (∀ c, 0 < κ c) ∧ ∀ num : Arr, Bin q num →
      projSpec q (syncProj q (setFlagShift q o) P) num = κ (∑ r ∈ Finset.range q.Nsite, (num r + num (r + q.Nsite) - 1)) * projSpec q P num := by
  obtain ⟨f, hf⟩ : ∃ f, setFlagShift q o = f := ⟨_, rfl⟩
  have hF := setFlagShift_val q o
  rw [hf] at hF ⊢
  have V := syncProj_val q f P (fun h => ⟨(hF.1.mp h).1, (hF.1.mp h).2.1⟩)
  refine ⟨fun c => Real.exp ((c : ℝ) * ((∑ t ∈ Finset.range q.N2, syS2 q f P t 0) + ∑ t ∈ Finset.range q.N4, syS4 q f P t 0)
        - syσ q f P * (((c : ℝ) ^ 2 + (c : ℝ)) / 2)), fun c => Real.exp_pos _, fun num hb => ?_⟩
  unfold projSpec
  rw [← Real.exp_add]
  congr 1
  refine Eq.trans ?_ (add_comm _ _)
  by_cases hG : q.NG = 0
  · -- nothing is shifted
    have e1 : f.gj = false := by
      rw [← Bool.not_eq_true]; exact fun h => (hF.1.mp h).1 hG
    have e2 : f.dh2 = false := by
      rw [← Bool.not_eq_true]; exact fun h => (hF.2.1.mp h).1 hG
    have e4 : f.dh4 = false := by
      rw [← Bool.not_eq_true]; exact fun h => (hF.2.2.mp h).1 hG
    have z2 : ∀ t d, syS2 q f P t d = 0 := fun t d => by unfold syS2; rw [e2]; rfl
    have z4 : ∀ t d, syS4 q f P t d = 0 := fun t d => by unfold syS4; rw [e4]; rfl
    have zσ : syσ q f P = 0 := by unfold syσ; rw [e1]; rfl
    have : syncProj q f P = P := by
      unfold syncProj
      rw [e1, e2, e4, hG]
      rfl
    rw [this, zσ]
    simp only [z2, z4, Finset.sum_const_zero]
    ring
  have hσ : syσ q f P = 0 ∨ ∀ a < q.Nsite, ∀ b < q.Nsite, a ≠ b → q.jIdx a b < q.NJ := by
    cases h : f.gj
    · left; unfold syσ; rw [h]; rfl
    · right; exact ht.j (Nat.pos_of_ne_zero (hF.1.mp h).2.1)
  have L := logCorr_shift (N := q.Nsite) (NG := q.NG) (NJ := q.NJ) (N2 := q.N2) (N4 := q.N4) (gIdx := q.gIdx) (jIdx := q.jIdx)
    (nb2 := fun t r => [q.dh2 t (2 * r), q.dh2 t (2 * r + 1)])
    (nb4 := fun t r => [q.dh4 t (4 * r), q.dh4 t (4 * r + 1), q.dh4 t (4 * r + 2), q.dh4 t (4 * r + 3)])
    (ht.g (Nat.pos_of_ne_zero hG)) (syσ q f P) hσ (fun t r => by simp) (fun t r => by simp)
    (fun i => (P i).re) (fun i => (P (q.NG + i)).re)
    (fun t d m => (P (q.NG + q.NJ + (t + (d + 2 * m) * q.N2))).re)
    (fun t d m => (P (q.NG + q.NJ + 6 * q.N2 + (t + (d + 2 * m) * q.N4))).re)
    (syS2 q f P) (syS4 q f P) (n0 := num) (n1 := fun r => num (r + q.Nsite)) hb
  rw [← L]
  unfold logCorr
  congr 1
  congr 1
  congr 1
  · refine Finset.sum_congr rfl fun i hi => ?_
    beta_reduce
    rw [V.1 i (Finset.mem_range.mp hi)]
    simp only [Complex.sub_re, Complex.add_re, Complex.ofReal_re]
    rfl
  · refine Finset.sum_congr rfl fun i hi => ?_
    beta_reduce
    rw [V.2.1 i (Finset.mem_range.mp hi)]
    simp only [Complex.sub_re, Complex.ofReal_re]
  · refine Finset.sum_congr rfl fun m hm => Finset.sum_congr rfl fun d hd => Finset.sum_congr rfl fun t ht => ?_
    beta_reduce
    rw [V.2.2.1 t (Finset.mem_range.mp ht) d (Finset.mem_range.mp hd) m (Finset.mem_range.mp hm)]
    simp only [Complex.sub_re, Complex.ofReal_re]
  · refine Finset.sum_congr rfl fun m hm => Finset.sum_congr rfl fun d hd => Finset.sum_congr rfl fun t ht => ?_
    beta_reduce
    rw [V.2.2.2.1 t (Finset.mem_range.mp ht) d (Finset.mem_range.mp hd) m (Finset.mem_range.mp hm)]
    simp only [Complex.sub_re, Complex.ofReal_re]

theorem rbmSpec_congr {p : RBMPar ℂ} (hi : RBMIdx p) {f : Nat → ℂ} (h : ∀ i < p.nRBM, p.par i = f i) (num : Arr) :
    rbmSpec p num = rbmSpec { p with par := f } num := by
  have hR : p.nRBM = p.nCH + p.nSH + p.nGH + (p.nCP + p.nSP + p.nGP) + (p.nCX + p.nSX + p.nGX) := rfl
  unfold rbmSpec rbmFactor
  simp only [RBMPar.hidden, RBMPar.physHidden, RBMPar.nPhys, RBMPar.nHid]
  congr 1
  · congr 1
    congr 1
    · congr 1
      · refine Finset.sum_congr rfl fun c hc => ?_
        have := Finset.mem_range.mp hc
        rw [h _ (by omega)]
      · refine Finset.sum_congr rfl fun c hc => ?_
        have := Finset.mem_range.mp hc
        rw [h _ (by omega)]
    · refine Finset.sum_congr rfl fun c hc => ?_
      have := Finset.mem_range.mp hc
      rw [h _ (by omega)]
  · congr 1
    · congr 1
      · refine Finset.prod_congr rfl fun u hu => ?_
        have hu := Finset.mem_range.mp hu
        unfold hiddenInput
        have h1 := hi.cH u hu
        rw [h _ (by omega)]
        congr 2
        refine Finset.sum_congr rfl fun r hr => ?_
        have h2 := hi.cX u hu r (Finset.mem_range.mp hr)
        beta_reduce
        rw [h _ (by omega)]
      · refine Finset.prod_congr rfl fun u hu => ?_
        have hu := Finset.mem_range.mp hu
        unfold hiddenInput
        have h1 := hi.sH u hu
        rw [h _ (by omega)]
        congr 2
        refine Finset.sum_congr rfl fun r hr => ?_
        have h2 := hi.sX u hu r (Finset.mem_range.mp hr)
        beta_reduce
        rw [h _ (by omega)]
    · refine Finset.prod_congr rfl fun u hu => ?_
      have hu := Finset.mem_range.mp hu
      unfold hiddenInput
      have h1 := hi.gH u hu
      rw [h _ (by omega)]
      congr 2
      refine Finset.sum_congr rfl fun r hr => ?_
      have h2 := hi.gX u hu r (Finset.mem_range.mp hr)
      beta_reduce
      rw [h _ (by omega)]

/-- the result of the whole routine, block by block -/
theorem syncModified_val {G : ParGlob} {f : ShiftFlags} (hj : f.gj = true → G.q.NG ≠ 0 ∧ G.q.NJ ≠ 0) {Para Para' : Nat → ℂ}
    (h : syncModified G f Para = some Para') :
    (∀ k < G.q.NProj, Para' k = syncProj G.q f Para k) ∧
    (∀ i < G.nR, Para' (G.q.NProj + i) = Para (G.q.NProj + i)) ∧
    (∀ i < G.Q.nSlater, Para' (G.oSlater + i) =
      Para (G.oSlater + i) * ((4 / maxAbs (fun i => Para (G.oSlater + i)) G.Q.nSlater : ℝ) : ℂ)) ∧
    maxAbs (fun i => Para (G.oSlater + i)) G.Q.nSlater ≠ 0 ∧
    (G.flagOpt = true → maxAbs (fun i => Para (G.oOpt + i)) G.Q.nOpt ≠ 0 ∧ ∀ i < G.Q.nOpt, Para' (G.oOpt + i) =
      Para (G.oOpt + i) * ((1 / maxAbs (fun i => Para (G.oOpt + i)) G.Q.nOpt : ℝ) : ℂ)) ∧
    (G.flagOpt = false → ∀ i, Para' (G.oOpt + i) = Para (G.oOpt + i)) := by
  have V := (syncProj_val G.q f Para hj).2.2.2.2
  have oS : G.oSlater = G.q.NProj + G.nR := rfl
  have oO : G.oOpt = G.oSlater + G.Q.nSlater := rfl
  have hS : (fun i => syncProj G.q f Para (G.oSlater + i)) = fun i => Para (G.oSlater + i) := by
    funext i; exact V _ (by omega)
  unfold syncModified at h
  simp only [hS] at h
  obtain ⟨x, hx⟩ : ∃ x, maxAbs (fun i => Para (G.oSlater + i)) G.Q.nSlater = x := ⟨_, rfl⟩
  rw [hx] at h ⊢
  by_cases hx0 : x = 0
  · rw [if_pos hx0] at h; cases h
  rw [if_neg hx0] at h
  obtain ⟨P1, hP1⟩ : ∃ p, atOffset G.oSlater (fun S => scaleAll (4 / x) S G.Q.nSlater) (syncProj G.q f Para) = p := ⟨_, rfl⟩
  rw [hP1] at h
  have p1 : ∀ k < G.oSlater, P1 k = syncProj G.q f Para k := fun k hk => by rw [← hP1]; exact atOffset_lt _ _ hk
  have p2 : ∀ i, P1 (G.oSlater + i) = if i < G.Q.nSlater then Para (G.oSlater + i) * ((4 / x : ℝ) : ℂ) else Para (G.oSlater + i) := by
    intro i
    rw [← hP1, atOffset_ge, scaleAll_val, congrFun hS i]
  have p3 : (fun i => P1 (G.oOpt + i)) = fun i => Para (G.oOpt + i) := by
    funext i
    rw [oO, Nat.add_assoc, p2, if_neg (by omega)]
  cases hO : G.flagOpt
  · rw [hO] at h
    simp only [Bool.false_eq_true, if_false, Option.some.injEq] at h
    subst h
    refine ⟨fun k hk => p1 k (by omega), fun i hi => ?_, fun i hi => ?_, hx0, fun h => (by cases h), fun _ i => congrFun p3 i⟩
    · rw [p1 _ (by omega), V _ (by omega)]
    · rw [p2, if_pos hi]
  · rw [hO] at h
    simp only [if_true, p3] at h
    obtain ⟨y, hy⟩ : ∃ y, maxAbs (fun i => Para (G.oOpt + i)) G.Q.nOpt = y := ⟨_, rfl⟩
    rw [hy] at h ⊢
    by_cases hy0 : y = 0
    · rw [if_pos hy0] at h; cases h
    rw [if_neg hy0, Option.some.injEq] at h
    have q1 : ∀ k < G.oOpt, Para' k = P1 k := fun k hk => by rw [← h]; exact atOffset_lt _ _ hk
    refine ⟨fun k hk => ?_, fun i hi => ?_, fun i hi => ?_, hx0, fun _ => ⟨hy0, fun i hi => ?_⟩, fun h => by cases h⟩
    · rw [q1 k (by omega), p1 k (by omega)]
    · rw [q1 _ (by omega), p1 _ (by omega), V _ (by omega)]
    · rw [q1 _ (by omega), p2, if_pos hi]
    · rw [← h, atOffset_ge, scaleAll_val, if_pos hi, congrFun p3 i]

/-- scaling all pair parameters scales the Pfaffians -/
theorem pf_scaled {A B : Nat → Nat → ℂ} {r : ℂ} {N : Nat} (h : ∀ x < N, ∀ y < N, B x y = r * A x y) {l : List Nat} (hl : ∀ x ∈ l, x < N) :
    pf B l = r ^ (l.length / 2) * pf A l := by
  rw [← pf_smul r A l.length l le_rfl]
  exact pf_congr fun x hx y hy => h x (hl x hx) y (hl y hy)

theorem psi_sync {G : ParGlob} (hG : ParOK G) (o : Nat → Int) {Para Para' slt slt' : Nat → ℂ} {r : ℝ}
    (hs : syncModified G (setFlagShift G.q o) Para = some Para') (hr : 0 < r)
    (hA : ∀ q < G.Q.nFull, ∀ x < 2 * G.p.Nsite, ∀ y < 2 * G.p.Nsite,
      entry (2 * G.p.Nsite) slt' q x y = (r : ℂ) * entry (2 * G.p.Nsite) slt q x y) :
    ∃ κ : Nat → ℝ, (∀ n, 0 < κ n) ∧ ∀ l : List Nat, l.Nodup → (∀ x ∈ l, x < 2 * G.p.Nsite) →
      psi (G.envWith Para' slt') l = (κ l.length : ℂ) * psi (G.envWith Para slt) l := by
  have hF := setFlagShift_val G.q o
  have V := syncModified_val (fun h => ⟨(hF.1.mp h).1, (hF.1.mp h).2.1⟩) hs
  obtain ⟨κ, hκ, hproj⟩ := projSpec_sync hG.tab o Para
  -- the weights
  obtain ⟨ρ, hρ, hw⟩ : ∃ ρ : ℝ, 0 < ρ ∧ ∀ q < G.Q.nFull, (G.envWith Para' slt').w q = (ρ : ℂ) * (G.envWith Para slt).w q := by
    cases hO : G.flagOpt
    · refine ⟨1, one_pos, fun q _ => ?_⟩
      change qpFullWeight G.Q G.flagOpt _ _ _ q = _ * qpFullWeight G.Q G.flagOpt _ _ _ q
      rw [hO]
      unfold qpFullWeight
      simp
    · obtain ⟨hy, hv⟩ := V.2.2.2.2.1 hO
      refine ⟨1 / maxAbs (fun i => Para (G.oOpt + i)) G.Q.nOpt, ?_, fun q hq => ?_⟩
      · obtain ⟨i, _, e⟩ := (maxAbs_spec (fun i => Para (G.oOpt + i)) G.Q.nOpt).2
        rw [e] at hy ⊢
        have := norm_nonneg (Para (G.oOpt + i))
        exact one_div_pos.mpr (lt_of_le_of_ne this (Ne.symm hy))
      · change qpFullWeight G.Q G.flagOpt _ _ _ q = _ * qpFullWeight G.Q G.flagOpt _ _ _ q
        rw [hO]
        have hF0 : 0 < G.Q.nFix := by
          by_contra h0
          have : G.Q.nFix = 0 := by omega
          unfold QPPar.nFull at hq
          rw [this, Nat.zero_mul] at hq
          omega
        have hi : q / G.Q.nFix < G.Q.nOpt := Nat.div_lt_of_lt_mul hq
        have hj := Nat.mod_lt q hF0
        have e : q = q / G.Q.nFix * G.Q.nFix + q % G.Q.nFix := by
          rw [Nat.mul_comm]; exact (Nat.div_add_mod q G.Q.nFix).symm
        rw [e, qpFull_opt hi hj, qpFull_opt hi hj, hv _ hi]
        ring
  refine ⟨fun n => κ ((n : Int) - G.p.Nsite) * (ρ * r ^ (n / 2)), fun n => mul_pos (hκ _) (mul_pos hρ (pow_pos hr _)), fun l hn hl => ?_⟩
  have hC : corrSpec (G.envWith Para' slt') (occupation l) = (κ ((l.length : Int) - G.p.Nsite) : ℂ) * corrSpec (G.envWith Para slt) (occupation l) := by
    have hp1 : projSpec G.q Para' (occupation l) = projSpec G.q (syncProj G.q (setFlagShift G.q o) Para) (occupation l) := by
      unfold projSpec logCorr
      have hNP : G.q.NProj = G.q.NG + G.q.NJ + 6 * G.q.N2 + 10 * G.q.N4 := rfl
      congr 1
      congr 1
      congr 1
      congr 1
      · refine Finset.sum_congr rfl fun i hi => ?_
        have := Finset.mem_range.mp hi
        beta_reduce
        rw [V.1 i (by omega)]
      · refine Finset.sum_congr rfl fun i hi => ?_
        have := Finset.mem_range.mp hi
        beta_reduce
        rw [V.1 _ (by omega)]
      · refine Finset.sum_congr rfl fun m hm => Finset.sum_congr rfl fun d hd => Finset.sum_congr rfl fun t ht => ?_
        obtain ⟨e1, e2⟩ := dh_index (m := m) (Finset.mem_range.mp ht) (Finset.mem_range.mp hd) (G.q.NG + G.q.NJ)
        have hm := Finset.mem_range.mp hm
        have : m * (2 * G.q.N2) ≤ 2 * (2 * G.q.N2) := Nat.mul_le_mul_right _ (by omega)
        beta_reduce
        rw [V.1 _ (by omega)]
      · refine Finset.sum_congr rfl fun m hm => Finset.sum_congr rfl fun d hd => Finset.sum_congr rfl fun t ht => ?_
        obtain ⟨e1, e2⟩ := dh_index (m := m) (Finset.mem_range.mp ht) (Finset.mem_range.mp hd) (G.q.NG + G.q.NJ + 6 * G.q.N2)
        have hm := Finset.mem_range.mp hm
        have : m * (2 * G.q.N4) ≤ 4 * (2 * G.q.N4) := Nat.mul_le_mul_right _ (by omega)
        beta_reduce
        rw [V.1 _ (by omega)]
    have hp2 := hproj (occupation l) (by
      have := occ_bin l G.q.Nsite
      exact this)
    rw [hG.hq, occ_total hn hl] at hp2
    change ((projSpec G.q Para' (occupation l) : ℝ) : ℂ) * (if G.flagRBM then rbmSpec { G.rbm with par := fun i => Para' (G.q.NProj + i) } (occupation l) else 1)
      = _ * (((projSpec G.q Para (occupation l) : ℝ) : ℂ) * (if G.flagRBM then rbmSpec { G.rbm with par := fun i => Para (G.q.NProj + i) } (occupation l) else 1))
    rw [hp1, hp2]
    have hR : (if G.flagRBM then rbmSpec { G.rbm with par := fun i => Para' (G.q.NProj + i) } (occupation l) else 1)
        = (if G.flagRBM then rbmSpec { G.rbm with par := fun i => Para (G.q.NProj + i) } (occupation l) else 1) := by
      cases hb : G.flagRBM
      · rfl
      · simp only [if_true]
        have hi := hG.rIdx hb
        have hi' : RBMIdx ({ G.rbm with par := fun i => Para' (G.q.NProj + i) } : RBMPar ℂ) := ⟨hi.cH, hi.sH, hi.gH, hi.cX, hi.sX, hi.gX⟩
        have := rbmSpec_congr hi' (f := fun i => Para (G.q.NProj + i)) (fun i hlt => V.2.1 i (by
          unfold ParGlob.nR
          rw [hb]
          exact hlt)) (occupation l)
        exact this
    rw [hR]
    push_cast
    ring
  unfold psi waveFunction
  rw [hC]
  have hsum : ∑ q ∈ Finset.range (G.envWith Para' slt').nQP, (G.envWith Para' slt').w q * pf (entry (2 * (G.envWith Para' slt').p.Nsite) (G.envWith Para' slt').slt q) l
      = ((ρ * r ^ (l.length / 2) : ℝ) : ℂ) * ∑ q ∈ Finset.range (G.envWith Para slt).nQP,
        (G.envWith Para slt).w q * pf (entry (2 * (G.envWith Para slt).p.Nsite) (G.envWith Para slt).slt q) l := by
    rw [Finset.mul_sum]
    refine Finset.sum_congr rfl fun q hq => ?_
    have hq : q < G.Q.nFull := Finset.mem_range.mp hq
    rw [hw q hq]
    have : pf (entry (2 * (G.envWith Para' slt').p.Nsite) (G.envWith Para' slt').slt q) l =
        (r : ℂ) ^ (l.length / 2) * pf (entry (2 * (G.envWith Para slt).p.Nsite) (G.envWith Para slt).slt q) l :=
      pf_scaled (N := 2 * G.p.Nsite) (fun x hx y hy => hA q hq x hx y hy) hl
    rw [this]
    push_cast
    ring
  rw [hsum]
  push_cast
  ring

end MVMC
