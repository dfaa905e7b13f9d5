import Verif.Proof.ParameterPsi

/-!
# Gauge fixing of the parameters (C16, C17)
-/
namespace MVMC
open Spec

/-- C16: the shifts with the flags of `SetFlagShift` multiply the correlation factor by a positive number that depends on the
electron number only (`Σ_r (n_r - 1)` = electrons minus sites). -/
theorem C16_correlation {q : ProjPar} (ht : TabOK q) (optFlag : Nat → Int) (P : Nat → ℂ) :
    ∃ κ : Int → ℝ, (∀ c, 0 < κ c) ∧ ∀ num : Arr, Bin q num →
      projSpec q (syncProj q (setFlagShift q optFlag) P) num =
        κ (∑ r ∈ Finset.range q.Nsite, (num r + num (r + q.Nsite) - 1)) * projSpec q P num :=
  projSpec_sync ht optFlag P

/-- C16: amplitude ratios at equal electron number are unchanged. -/
theorem C16_ratio {q : ProjPar} (ht : TabOK q) (optFlag : Nat → Int) (P : Nat → ℂ) (num num' : Arr) (hb : Bin q num) (hb' : Bin q num')
    (he : ∑ r ∈ Finset.range q.Nsite, (num r + num (r + q.Nsite)) = ∑ r ∈ Finset.range q.Nsite, (num' r + num' (r + q.Nsite))) :
    projSpec q (syncProj q (setFlagShift q optFlag) P) num' / projSpec q (syncProj q (setFlagShift q optFlag) P) num =
      projSpec q P num' / projSpec q P num := by
  obtain ⟨κ, hκ, h⟩ := C16_correlation ht optFlag P
  have e : ∑ r ∈ Finset.range q.Nsite, (num' r + num' (r + q.Nsite) - 1) = ∑ r ∈ Finset.range q.Nsite, (num r + num (r + q.Nsite) - 1) := by
    rw [Finset.sum_sub_distrib, Finset.sum_sub_distrib, he]
  rw [h num hb, h num' hb', e, mul_div_mul_left _ _ (hκ _).ne']

/-- C16: the gauge is fixed: with the flags on, the real parts of every doublon-holon group and of the Gutzwiller-Jastrow block
add up to zero. -/
theorem C16_normalised (q : ProjPar) (optFlag : Nat → Int) (P : Nat → ℂ) :
    ((setFlagShift q optFlag).dh2 = true → ∀ t < q.N2, ∀ d < 2, ∑ m ∈ Finset.range 3,
      (syncProj q (setFlagShift q optFlag) P (q.NG + q.NJ + (t + (d + 2 * m) * q.N2))).re = 0) ∧
    ((setFlagShift q optFlag).dh4 = true → ∀ t < q.N4, ∀ d < 2, ∑ m ∈ Finset.range 5,
      (syncProj q (setFlagShift q optFlag) P (q.NG + q.NJ + 6 * q.N2 + (t + (d + 2 * m) * q.N4))).re = 0) ∧
    ((setFlagShift q optFlag).gj = true → ∑ i ∈ Finset.range (q.NG + q.NJ), (syncProj q (setFlagShift q optFlag) P i).re = 0) := by
  have hF := setFlagShift_val q optFlag
  have V := syncProj_val q (setFlagShift q optFlag) P (fun h => ⟨(hF.1.mp h).1, (hF.1.mp h).2.1⟩)
  refine ⟨fun hf t ht d hd => ?_, fun hf t ht d hd => ?_, fun hf => ?_⟩
  · rw [Finset.sum_congr rfl fun m hm => by rw [V.2.2.1 t ht d hd m (Finset.mem_range.mp hm)]]
    simp only [Complex.sub_re, Complex.ofReal_re, syS2, hf, if_true, mean3, Finset.sum_range_succ, Finset.sum_range_zero]
    rw [show q.NG + q.NJ + (t + d * q.N2) = q.NG + q.NJ + (t + (d + 2 * 0) * q.N2) by ring,
      show q.NG + q.NJ + (t + (d + 2 * 0) * q.N2) + 2 * q.N2 = q.NG + q.NJ + (t + (d + 2 * 1) * q.N2) by ring,
      show q.NG + q.NJ + (t + (d + 2 * 0) * q.N2) + 4 * q.N2 = q.NG + q.NJ + (t + (d + 2 * 2) * q.N2) by ring]
    ring
  · rw [Finset.sum_congr rfl fun m hm => by rw [V.2.2.2.1 t ht d hd m (Finset.mem_range.mp hm)]]
    simp only [Complex.sub_re, Complex.ofReal_re, syS4, hf, if_true, mean5, Finset.sum_range_succ, Finset.sum_range_zero]
    generalize q.NG + q.NJ + 6 * q.N2 = o
    rw [show o + (t + d * q.N4) = o + (t + (d + 2 * 0) * q.N4) by ring,
      show o + (t + (d + 2 * 0) * q.N4) + 2 * q.N4 = o + (t + (d + 2 * 1) * q.N4) by ring,
      show o + (t + (d + 2 * 0) * q.N4) + 4 * q.N4 = o + (t + (d + 2 * 2) * q.N4) by ring,
      show o + (t + (d + 2 * 0) * q.N4) + 6 * q.N4 = o + (t + (d + 2 * 3) * q.N4) by ring,
      show o + (t + (d + 2 * 0) * q.N4) + 8 * q.N4 = o + (t + (d + 2 * 4) * q.N4) by ring]
    ring
  · have e : ∀ i ∈ Finset.range (q.NG + q.NJ), (syncProj q (setFlagShift q optFlag) P i).re =
        ((fun k => if k < q.NG then P k + (syG q (setFlagShift q optFlag) P : ℂ) else P k) i).re - syσ q (setFlagShift q optFlag) P := by
      intro i hi
      have hi := Finset.mem_range.mp hi
      by_cases h : i < q.NG
      · rw [V.1 i h]; simp [h]
      · obtain ⟨k, rfl⟩ : ∃ k, i = q.NG + k := ⟨i - q.NG, by omega⟩
        rw [V.2.1 k (by omega)]; simp
    rw [Finset.sum_congr rfl e, Finset.sum_sub_distrib]
    unfold syσ
    rw [hf]
    simp only [if_true, meanGJ, Finset.sum_const, Finset.card_range, nsmul_eq_mul]
    have hn : ((q.NG + q.NJ : Nat) : ℝ) ≠ 0 := by
      have := (hF.1.mp hf).1
      exact Nat.cast_ne_zero.mpr (by omega)
    rw [mul_div_cancel₀ _ hn, sub_self]

/-- C16: a parameter group that contains a frozen parameter is not shifted, and if a Gutzwiller parameter is frozen (or there is
none) nothing is. -/
theorem C16_frozen (q : ProjPar) (optFlag : Nat → Int) (P : Nat → ℂ) :
    (((∃ i < q.NG, optFlag (2 * i) ≠ 1) ∨ q.NG = 0) → syncProj q (setFlagShift q optFlag) P = P) ∧
    ((∃ i < q.NJ, optFlag (2 * (q.NG + i)) ≠ 1) → ∀ k < q.NJ, syncProj q (setFlagShift q optFlag) P (q.NG + k) = P (q.NG + k)) ∧
    ((∃ i < 6 * q.N2, optFlag (2 * (q.NG + q.NJ + i)) ≠ 1) → ∀ t < q.N2, ∀ d < 2, ∀ m < 3,
      syncProj q (setFlagShift q optFlag) P (q.NG + q.NJ + (t + (d + 2 * m) * q.N2)) = P (q.NG + q.NJ + (t + (d + 2 * m) * q.N2))) ∧
    ((∃ i < 10 * q.N4, optFlag (2 * (q.NG + q.NJ + 6 * q.N2 + i)) ≠ 1) → ∀ t < q.N4, ∀ d < 2, ∀ m < 5,
      syncProj q (setFlagShift q optFlag) P (q.NG + q.NJ + 6 * q.N2 + (t + (d + 2 * m) * q.N4)) =
        P (q.NG + q.NJ + 6 * q.N2 + (t + (d + 2 * m) * q.N4))) := by
  have hF := setFlagShift_val q optFlag
  have V := syncProj_val q (setFlagShift q optFlag) P (fun h => ⟨(hF.1.mp h).1, (hF.1.mp h).2.1⟩)
  have off : ∀ {b : Bool}, (b = true → False) → b = false := fun {b} h => by cases b; rfl; exact (h rfl).elim
  refine ⟨fun h => ?_, fun ⟨i, hi, h⟩ k hk => ?_, fun ⟨i, hi, h⟩ t ht d hd m hm => ?_, fun ⟨i, hi, h⟩ t ht d hd m hm => ?_⟩
  · have c : ¬ (q.NG ≠ 0 ∧ ∀ i < q.NG, optFlag (2 * i) = 1) := by
      rintro ⟨h1, h2⟩
      rcases h with ⟨i, hi, h⟩ | h
      · exact h (h2 i hi)
      · exact h1 h
    have e1 := off (fun x => c ⟨(hF.1.mp x).1, (hF.1.mp x).2.2.1⟩)
    have e2 := off (fun x => c ⟨(hF.2.1.mp x).1, (hF.2.1.mp x).2.2.1⟩)
    have e4 := off (fun x => c ⟨(hF.2.2.mp x).1, (hF.2.2.mp x).2.2.1⟩)
    funext k
    unfold syncProj
    rw [e1, e2, e4]
    simp only [Bool.false_eq_true, if_false, add_zero, Complex.ofReal_zero]
    rw [foldSet_val (fun z => z)]
    simp
  · have e := off (fun x => h ((hF.1.mp x).2.2.2 i hi))
    rw [V.2.1 k hk]
    unfold syσ
    rw [e]; simp
  · have e := off (fun x => h ((hF.2.1.mp x).2.2.2 i hi))
    rw [V.2.2.1 t ht d hd m hm]
    unfold syS2
    rw [e]; simp
  · have e := off (fun x => h ((hF.2.2.mp x).2.2.2 i hi))
    rw [V.2.2.2.1 t ht d hd m hm]
    unfold syS4
    rw [e]; simp

/-- C17: whenever the routine completes, all pair orbitals were multiplied by one positive factor, the largest modulus is 4, and
the Boltzmann-machine block is untouched. -/
theorem C17_rescaled {G : ParGlob} (hn : 0 < G.Q.nSlater) (optFlag : Nat → Int) {Para Para' : Nat → ℂ}
    (hs : syncModified G (setFlagShift G.q optFlag) Para = some Para') :
    (∃ r : ℝ, 0 < r ∧ ∀ i < G.Q.nSlater, Para' (G.oSlater + i) = Para (G.oSlater + i) * (r : ℂ)) ∧
    (∀ i < G.Q.nSlater, ‖Para' (G.oSlater + i)‖ ≤ 4) ∧ (∃ i < G.Q.nSlater, ‖Para' (G.oSlater + i)‖ = 4) ∧
    (∀ i < G.nR, Para' (G.q.NProj + i) = Para (G.q.NProj + i)) := by
  have hF := setFlagShift_val G.q optFlag
  have V := syncModified_val (fun h => ⟨(hF.1.mp h).1, (hF.1.mp h).2.1⟩) hs
  obtain ⟨hle, i0, hi0, e0⟩ := maxAbs_spec (fun i => Para (G.oSlater + i)) G.Q.nSlater
  have hi0 : i0 < G.Q.nSlater := by omega
  obtain ⟨x, hx⟩ : ∃ x, maxAbs (fun i => Para (G.oSlater + i)) G.Q.nSlater = x := ⟨_, rfl⟩
  rw [hx] at V hle e0
  have hpos : 0 < x := lt_of_le_of_ne (by rw [e0]; exact norm_nonneg _) (Ne.symm V.2.2.2.1)
  have hr : 0 < 4 / x := by positivity
  have hnorm : ∀ i < G.Q.nSlater, ‖Para' (G.oSlater + i)‖ = ‖Para (G.oSlater + i)‖ * (4 / x) := by
    intro i hi
    rw [V.2.2.1 i hi, norm_mul, Complex.norm_real, Real.norm_of_nonneg hr.le]
  refine ⟨⟨4 / x, hr, V.2.2.1⟩, fun i hi => ?_, ⟨i0, hi0, ?_⟩, V.2.1⟩
  · rw [hnorm i hi]
    calc ‖Para (G.oSlater + i)‖ * (4 / x) ≤ x * (4 / x) := mul_le_mul_of_nonneg_right (hle i hi) hr.le
      _ = 4 := by field_simp
  · rw [hnorm i0 hi0]
    have : ‖Para (G.oSlater + i0)‖ = x := e0.symm
    rw [this]; field_simp

/-- C17: the optional-translation weights are multiplied by one positive factor and their largest modulus is 1. -/
theorem C17_weights {G : ParGlob} (hf : G.flagOpt = true) (hn : 0 < G.Q.nOpt) (optFlag : Nat → Int) {Para Para' : Nat → ℂ}
    (hs : syncModified G (setFlagShift G.q optFlag) Para = some Para') :
    (∃ r : ℝ, 0 < r ∧ ∀ i < G.Q.nOpt, Para' (G.oOpt + i) = Para (G.oOpt + i) * (r : ℂ)) ∧
    (∀ i < G.Q.nOpt, ‖Para' (G.oOpt + i)‖ ≤ 1) ∧ (∃ i < G.Q.nOpt, ‖Para' (G.oOpt + i)‖ = 1) := by
  have hF := setFlagShift_val G.q optFlag
  obtain ⟨hx0, V⟩ := (syncModified_val (fun h => ⟨(hF.1.mp h).1, (hF.1.mp h).2.1⟩) hs).2.2.2.2.1 hf
  obtain ⟨hle, i0, hi0, e0⟩ := maxAbs_spec (fun i => Para (G.oOpt + i)) G.Q.nOpt
  have hi0 : i0 < G.Q.nOpt := by omega
  obtain ⟨x, hx⟩ : ∃ x, maxAbs (fun i => Para (G.oOpt + i)) G.Q.nOpt = x := ⟨_, rfl⟩
  rw [hx] at V hle e0 hx0
  have hpos : 0 < x := lt_of_le_of_ne (by rw [e0]; exact norm_nonneg _) (Ne.symm hx0)
  have hr : 0 < 1 / x := by positivity
  have hnorm : ∀ i < G.Q.nOpt, ‖Para' (G.oOpt + i)‖ = ‖Para (G.oOpt + i)‖ * (1 / x) := by
    intro i hi
    rw [V i hi, norm_mul, Complex.norm_real, Real.norm_of_nonneg hr.le]
  refine ⟨⟨1 / x, hr, V⟩, fun i hi => ?_, ⟨i0, hi0, ?_⟩⟩
  · rw [hnorm i hi]
    calc ‖Para (G.oOpt + i)‖ * (1 / x) ≤ x * (1 / x) := mul_le_mul_of_nonneg_right (hle i hi) hr.le
      _ = 1 := by field_simp
  · rw [hnorm i0 hi0]
    have : ‖Para (G.oOpt + i0)‖ = x := e0.symm
    rw [this]; field_simp

/-- C16/C17: the whole routine multiplies the trial wave function by a positive factor that depends on the electron number only. -/
theorem C17_trial_state {G : ParGlob} (hG : ParOK G) (hOrb : OrbOK G.Q G.Q.Nsite) (optFlag : Nat → Int) {Para Para' : Nat → ℂ}
    (hs : syncModified G (setFlagShift G.q optFlag) Para = some Para') :
    ∃ κ : Nat → ℝ, (∀ n, 0 < κ n) ∧ ∀ l : List Nat, l.Nodup → (∀ x ∈ l, x < 2 * G.p.Nsite) →
      psi (G.env Para') l = (κ l.length : ℂ) * psi (G.env Para) l := by
  by_cases hn : 0 < G.Q.nSlater
  · obtain ⟨⟨r, hr, hv⟩, _⟩ := C17_rescaled hn optFlag hs
    refine psi_sync hG optFlag hs hr fun q hq x hx y hy => ?_
    rw [← hG.hQ] at hx hy ⊢
    unfold updateSlaterElm
    rw [slater_entry _ _ _ _ _ (List.Perm.refl _) _ hq hx hy, slater_entry _ _ _ _ _ (List.Perm.refl _) _ hq hx hy]
    unfold antisym
    rw [pairP_congr hOrb hG.tr (S' := fun k => Para (G.oSlater + k) * (r : ℂ)) hv q x y hx,
      pairP_congr hOrb hG.tr (S' := fun k => Para (G.oSlater + k) * (r : ℂ)) hv q y x hy]
    unfold pairP translated
    ring
  · exact absurd (hOrb 0 (by have := hG.hN; have := hG.hQ; omega) 0 (by have := hG.hN; have := hG.hQ; omega)) (by omega)

/-- C16/C17: the same in general-Sz mode. -/
theorem C17_trial_state_fsz {G : ParGlob} (hG : ParOK G) (hOrb : OrbOK G.Q (2 * G.Q.Nsite)) (optFlag : Nat → Int) {Para Para' : Nat → ℂ}
    (hs : syncModified G (setFlagShift G.q optFlag) Para = some Para') :
    ∃ κ : Nat → ℝ, (∀ n, 0 < κ n) ∧ ∀ l : List Nat, l.Nodup → (∀ x ∈ l, x < 2 * G.p.Nsite) →
      psi (G.envF Para') l = (κ l.length : ℂ) * psi (G.envF Para) l := by
  by_cases hn : 0 < G.Q.nSlater
  · obtain ⟨⟨r, hr, hv⟩, _⟩ := C17_rescaled hn optFlag hs
    refine psi_sync hG optFlag hs hr fun q hq x hx y hy => ?_
    rw [← hG.hQ] at hx hy ⊢
    unfold updateSlaterElmF
    rw [slaterF_entry _ _ (List.Perm.refl _) _ hq hx hy, slaterF_entry _ _ (List.Perm.refl _) _ hq hx hy]
    unfold antisym
    rw [pairF_congr hOrb hG.tr (S' := fun k => Para (G.oSlater + k) * (r : ℂ)) hv q x y hx hy,
      pairF_congr hOrb hG.tr (S' := fun k => Para (G.oSlater + k) * (r : ℂ)) hv q y x hy hx]
    unfold pairF
    ring
  · exact absurd (hOrb 0 (by have := hG.hN; have := hG.hQ; omega) 0 (by have := hG.hN; have := hG.hQ; omega)) (by omega)

/-- particle-number conserving operator products keep lists admissible -/
theorem actAll_good {M : Nat} : ∀ (ops : List Op), (∀ x, Op.cr x ∈ ops → x < M) → ∀ {l : List Nat}, l.Nodup → (∀ x ∈ l, x < M) →
    ∀ {σ : Int} {l' : List Nat}, actAll ops (some (1, l)) = some (σ, l') →
      l'.Nodup ∧ (∀ x ∈ l', x < M) ∧
      l'.length + (ops.countP fun o => match o with | .an _ => true | .cr _ => false) =
        l.length + (ops.countP fun o => match o with | .an _ => false | .cr _ => true)
  | [], _, l, hn, hl, σ, l', h => by
    simp only [actAll, List.foldr_nil, Option.some.injEq, Prod.mk.injEq] at h
    obtain ⟨_, rfl⟩ := h
    exact ⟨hn, hl, by simp⟩
  | o :: ops, hb, l, hn, hl, σ, l', h => by
    have h' : o.act (actAll ops (some (1, l))) = some (σ, l') := h
    cases hk : actAll ops (some (1, l)) with
    | none => rw [hk] at h'; cases o <;> cases h'
    | some p =>
      obtain ⟨τ, m⟩ := p
      rw [hk] at h'
      obtain ⟨n1, n2, n3⟩ := actAll_good ops (fun x hx => hb x (List.mem_cons_of_mem _ hx)) hn hl hk
      cases o with
      | an x =>
        unfold Op.act at h'
        by_cases hx : x ∈ m
        · simp only [hx, if_true, Option.some.injEq, Prod.mk.injEq] at h'
          obtain ⟨_, rfl⟩ := h'
          refine ⟨n1.erase x, fun y hy => n2 y (List.mem_of_mem_erase hy), ?_⟩
          rw [List.length_erase_of_mem hx, List.countP_cons, List.countP_cons]
          have := List.length_pos_of_mem hx
          simp only [if_true, Bool.false_eq_true, if_false]
          omega
        · simp [hx] at h'
      | cr x =>
        unfold Op.act at h'
        by_cases hx : x ∈ m
        · simp [hx] at h'
        · simp only [hx, if_false, Option.some.injEq, Prod.mk.injEq] at h'
          obtain ⟨_, rfl⟩ := h'
          refine ⟨List.nodup_cons.mpr ⟨hx, n1⟩, fun y hy => ?_, ?_⟩
          · rcases List.mem_cons.mp hy with rfl | hy
            · exact hb y List.mem_cons_self
            · exact n2 y hy
          · rw [List.length_cons, List.countP_cons, List.countP_cons]
            simp only [if_true, Bool.false_eq_true, if_false]
            omega

/-- C16/C17: hence every local Green function and local energy term of a particle-number conserving operator is unchanged. -/
theorem C17_observables {G : ParGlob} (hG : ParOK G) (hOrb : OrbOK G.Q G.Q.Nsite) (optFlag : Nat → Int) {Para Para' : Nat → ℂ}
    (hs : syncModified G (setFlagShift G.q optFlag) Para = some Para') (ops : List Op) (hb : ∀ x, Op.cr x ∈ ops → x < 2 * G.p.Nsite)
    (hc : (ops.countP fun o => match o with | .an _ => true | .cr _ => false) = ops.countP fun o => match o with | .an _ => false | .cr _ => true)
    (l : List Nat) (hn : l.Nodup) (hl : ∀ x ∈ l, x < 2 * G.p.Nsite) :
    matrixElement (psi (G.env Para')) ops l = matrixElement (psi (G.env Para)) ops l := by
  obtain ⟨κ, hκ, h⟩ := C17_trial_state hG hOrb optFlag hs
  unfold matrixElement
  congr 1
  rw [h l hn hl]
  have hκ' : (κ l.length : ℂ) ≠ 0 := Complex.ofReal_ne_zero.mpr (hκ _).ne'
  cases hk : actAll ops (some (1, l)) with
  | none => simp [overlap]
  | some p =>
    obtain ⟨σ, l'⟩ := p
    obtain ⟨n1, n2, n3⟩ := actAll_good ops hb hn hl hk
    have e : l'.length = l.length := by omega
    simp only [overlap]
    rw [h l' n1 n2, e]
    rw [mul_left_comm, mul_div_mul_left _ _ hκ']

/-- C17: the routine completes iff some pair orbital (and, if used, some translation weight) is non-zero. -/
theorem C17_completes (G : ParGlob) (hn : 0 < G.Q.nSlater) (ho : 0 < G.Q.nOpt) (optFlag : Nat → Int) (Para : Nat → ℂ) :
    (syncModified G (setFlagShift G.q optFlag) Para).isSome = true ↔
      (∃ i < G.Q.nSlater, Para (G.oSlater + i) ≠ 0) ∧ (G.flagOpt = true → ∃ i < G.Q.nOpt, Para (G.oOpt + i) ≠ 0) := by
  have hF := setFlagShift_val G.q optFlag
  have hj : (setFlagShift G.q optFlag).gj = true → G.q.NG ≠ 0 ∧ G.q.NJ ≠ 0 := fun h => ⟨(hF.1.mp h).1, (hF.1.mp h).2.1⟩
  have key : ∀ (S : Nat → ℂ) (n : Nat), 0 < n → (maxAbs S n = 0 ↔ ∀ i < n, S i = 0) := by
    intro S n hn
    obtain ⟨hle, i0, hi0, e0⟩ := maxAbs_spec S n
    constructor
    · intro h i hi
      have := hle i hi
      rw [h] at this
      exact norm_le_zero_iff.mp this
    · intro h
      rw [e0, h i0 (by omega), norm_zero]
  have V := (syncProj_val G.q (setFlagShift G.q optFlag) Para hj).2.2.2.2
  have oS : G.oSlater = G.q.NProj + G.nR := rfl
  have oO : G.oOpt = G.oSlater + G.Q.nSlater := rfl
  have hS : (fun i => syncProj G.q (setFlagShift G.q optFlag) Para (G.oSlater + i)) = fun i => Para (G.oSlater + i) := by
    funext i; exact V _ (by omega)
  have hO : ∀ r : ℝ, (fun i => atOffset G.oSlater (fun S => scaleAll r S G.Q.nSlater) (syncProj G.q (setFlagShift G.q optFlag) Para) (G.oOpt + i)) =
      fun i => Para (G.oOpt + i) := by
    intro r
    funext i
    rw [oO, Nat.add_assoc, atOffset_ge, scaleAll_val, if_neg (by omega)]
    exact V _ (by omega)
  unfold syncModified
  simp only [hS, hO]
  by_cases h1 : maxAbs (fun i => Para (G.oSlater + i)) G.Q.nSlater = 0
  · rw [if_pos h1]
    simp only [Option.isSome_none, Bool.false_eq_true, false_iff]
    rintro ⟨⟨i, hi, h⟩, _⟩
    exact h ((key _ _ hn).mp h1 i hi)
  · rw [if_neg h1]
    have h1' : ∃ i < G.Q.nSlater, Para (G.oSlater + i) ≠ 0 := by
      by_contra hc
      push Not at hc
      exact h1 ((key _ _ hn).mpr hc)
    cases hf : G.flagOpt
    · simp [h1']
    · simp only [if_true]
      by_cases h2 : maxAbs (fun i => Para (G.oOpt + i)) G.Q.nOpt = 0
      · rw [if_pos h2]
        simp only [Option.isSome_none, Bool.false_eq_true, false_iff]
        rintro ⟨_, h⟩
        obtain ⟨i, hi, h⟩ := h trivial
        exact h ((key _ _ ho).mp h2 i hi)
      · rw [if_neg h2]
        simp only [Option.isSome_some, true_iff]
        refine ⟨h1', fun _ => ?_⟩
        by_contra hc
        push Not at hc
        exact h2 ((key _ _ ho).mpr hc)

/-! Examples. -/

/-- two sites, one Gutzwiller, one Jastrow class, one 2-site doublon-holon type with the other site as both neighbours -/
def exSync : ProjPar where
  Nsite := 2
  NG := 1
  NJ := 1
  N2 := 1
  N4 := 0
  gIdx := fun _ => 0
  jIdx := fun _ _ => 0
  dh2 := fun _ k => if k < 2 then 1 else 0
  dh4 := fun _ _ => 0

-- all flags on
example : setFlagShift exSync (fun _ => 1) = ⟨true, true, false⟩ := by rfl
-- frozen Jastrow
example : setFlagShift exSync (fun i => if i = 2 then 0 else 1) = ⟨false, true, false⟩ := by rfl
-- frozen Gutzwiller
example : setFlagShift exSync (fun i => if i = 0 then 0 else 1) = ⟨false, false, false⟩ := by rfl

/-- parameters 5 (Gutzwiller), 2 (Jastrow), then holon and doublon factors (1,4), (2,5), (6,0) -/
def exP : Nat → ℂ := fun k => match k with | 0 => 5 | 1 => 2 | 2 => 1 | 3 => 4 | 4 => 2 | 5 => 5 | 6 => 6 | _ => 0

-- the holon group (1,2,6) has mean 3, the doublon group (4,5,0) mean 3; Gutzwiller gets +6, then the mean of (11, 2) is removed
example : mean3 exSync exP 0 = 3 ∧ mean3 exSync exP 1 = 3 := by
  constructor <;> simp [mean3, exSync, exP] <;> norm_num
example : syncProj exSync ⟨false, true, false⟩ exP 0 = 11 ∧ syncProj exSync ⟨false, true, false⟩ exP 2 = -2 := by
  have V := syncProj_val exSync ⟨false, true, false⟩ exP (fun h => by cases h)
  have h3 : mean3 exSync exP 0 = 3 ∧ mean3 exSync exP 1 = 3 := by
    constructor <;> simp [mean3, exSync, exP] <;> norm_num
  constructor
  · rw [V.1 0 (by decide)]
    simp [syG, syσ, syS2, syS4, Finset.sum_range_succ, h3.1, h3.2, show exSync.N2 = 1 from rfl, show exSync.N4 = 0 from rfl, exP]
    norm_num
  · have := V.2.2.1 0 (by decide) 0 (by decide) 0 (by decide)
    rw [show exSync.NG + exSync.NJ + (0 + (0 + 2 * 0) * exSync.N2) = 2 from rfl] at this
    rw [this]
    simp [syS2, h3.1, show exSync.N2 = 1 from rfl, exP]
    norm_num

/-- C16 is not vacuous: shifting only the Jastrow parameter changes a ratio (the doublon-holon pair against two singly occupied
sites), so the compensating Gutzwiller shift is needed. -/
example (v s : ℝ) (hs : s ≠ 0) :
    logCorr 2 1 1 0 0 (fun _ => 0) (fun _ _ => 0) (fun _ _ => []) (fun _ _ => []) (fun _ => 0) (fun _ => v - s) (fun _ _ _ => 0) (fun _ _ _ => 0)
        (fun r => if r = 0 then 1 else 0) (fun r => if r = 0 then 1 else 0)
      - logCorr 2 1 1 0 0 (fun _ => 0) (fun _ _ => 0) (fun _ _ => []) (fun _ _ => []) (fun _ => 0) (fun _ => v - s) (fun _ _ _ => 0) (fun _ _ _ => 0)
        (fun r => if r = 0 then 1 else 0) (fun r => if r = 0 then 0 else 1)
    ≠ logCorr 2 1 1 0 0 (fun _ => 0) (fun _ _ => 0) (fun _ _ => []) (fun _ _ => []) (fun _ => 0) (fun _ => v) (fun _ _ _ => 0) (fun _ _ _ => 0)
        (fun r => if r = 0 then 1 else 0) (fun r => if r = 0 then 1 else 0)
      - logCorr 2 1 1 0 0 (fun _ => 0) (fun _ _ => 0) (fun _ _ => []) (fun _ _ => []) (fun _ => 0) (fun _ => v) (fun _ _ _ => 0) (fun _ _ _ => 0)
        (fun r => if r = 0 then 1 else 0) (fun r => if r = 0 then 0 else 1) := by
  simp [logCorr, jastCount, Finset.sum_range_succ]
  exact hs

-- rescaling (3+4i, 1, 0): largest modulus 5, factor 4/5
example : maxAbs (fun i => match i with | 0 => (1 : ℂ) | 1 => 3 + 4 * Complex.I | _ => 0) 3 = 5 := by
  have e : ‖(3 : ℂ) + 4 * Complex.I‖ = 5 := by
    rw [show (3 : ℂ) + 4 * Complex.I = ((3 : ℝ) : ℂ) + ((4 : ℝ) : ℂ) * Complex.I by push_cast; ring, Complex.norm_add_mul_I]
    rw [show (3 : ℝ) ^ 2 + 4 ^ 2 = 5 ^ 2 by norm_num]
    exact Real.sqrt_sq (by norm_num)
  simp only [maxAbs, List.range', List.foldl, Nat.reduceSub, Nat.reduceAdd]
  rw [e]
  norm_num

/-- C17: all pair orbitals zero: the routine divides by zero (the code has no check), so "largest modulus 4 afterwards" fails. -/
theorem C17_zero_violated (G : ParGlob) (hn : 0 < G.Q.nSlater) (ho : 0 < G.Q.nOpt) (optFlag : Nat → Int) :
    syncModified G (setFlagShift G.q optFlag) (fun _ => 0) = none := by
  rw [← Option.not_isSome_iff_eq_none, C17_completes G hn ho optFlag]
  rintro ⟨⟨i, _, h⟩, _⟩
  exact h rfl

end MVMC
