import Verif.Proof.SrOptO

/-! The vector of logarithmic derivatives: the main statements. -/
namespace MVMC
open MVMC.Spec Finset

theorem logDeriv_zero_add {F : ℂ → ℂ} {z u a b : ℂ} (h : LogDeriv F z u a) (e : b = a) : LogDeriv F z u b := by rw [e]; exact h

section sz
variable {G : ParGlob} (hG : ParOK G) (hOrb : OrbOK G.Q G.Q.Nsite) {Para : Nat → ℂ} {c : EleCfg} {ip : ℂ} {projCnt : Arr} {rbmCnt : Nat → ℂ}
  (hs : Sampled (G.env Para) c ip projCnt rbmCnt)
include hG hs

omit hG in
theorem env_sp_cons : Cons (G.env Para).sp c := hs.cons

omit hG in
/-- the amplitude does not depend on earlier parameters -/
theorem amp_early {J : Nat} (hJ : J < G.oSlater) (u : ℂ) :
    LogDeriv (fun z => amplitude (2 * G.p.Ne) (2 * G.p.Nsite) (updateSlaterElm G.Q G.cs G.cc G.ss (fun k => Function.update Para J z (G.oSlater + k)) G.slt0)
      (qpFullWeight G.Q G.flagOpt (fun i => Function.update Para J z (G.oOpt + i)) G.fix G.w0) 0 G.Q.nFull (occSz G.p.Ne G.p.Nsite c.idx)) (Para J) u 0 := by
  refine logDeriv_const (fun x => ?_) u
  have h2 : J < G.oOpt := by unfold ParGlob.oOpt; omega
  simp only [update_other Para G.oSlater J _ hJ, update_other Para G.oOpt J _ h2]

include hOrb in
theorem amp_slater {k : Nat} (hk : k < G.Q.nSlater) {tevs : List (Nat × (Nat × Int))}
    (ht : tevs.Perm ((List.range (G.Q.nMP * G.Q.nOpt)).flatMap (tableStores G.Q (2 * G.p.Ne) c.idx))) (t0 : Nat → Nat × Int) {evs : List (Nat × ℂ)}
    (hp : evs.Perm ((List.range G.Q.nFull).flatMap (diffAdds G.Q G.p.Ne G.cs G.cc G.ss G.st.pfM G.st.invM (runStores tevs t0)))) (u : ℂ) (o : Nat → ℂ) :
    LogDeriv (fun z => amplitude (2 * G.p.Ne) (2 * G.p.Nsite) (updateSlaterElm G.Q G.cs G.cc G.ss (fun i => Function.update Para (G.oSlater + k) z (G.oSlater + i)) G.slt0)
      (qpFullWeight G.Q G.flagOpt (fun i => Function.update Para (G.oSlater + k) z (G.oOpt + i)) G.fix G.w0) 0 G.Q.nFull (occSz G.p.Ne G.p.Nsite c.idx))
      (Para (G.oSlater + k)) u (u * diffStore G.Q (G.env Para).w (runAdds evs (fun _ => 0)) ip o (2 * k)) := by
  have h2 : G.oSlater + k < G.oOpt := by unfold ParGlob.oOpt; omega
  simp only [update_shift Para G.oSlater k, update_other Para G.oOpt (G.oSlater + k) _ h2]
  have pf : PfOK (2 * G.p.Ne) (2 * G.p.Nsite) (updateSlaterElm G.Q G.cs G.cc G.ss (fun i => Para (G.oSlater + i)) G.slt0) 0 G.Q.nFull
    (occSz G.p.Ne G.p.Nsite c.idx) G.st.pfM G.st.invM := hs.pf
  have hip : ip = amplitude (2 * G.p.Ne) (2 * G.p.Nsite) (updateSlaterElm G.Q G.cs G.cc G.ss (fun i => Para (G.oSlater + i)) G.slt0)
    (qpFullWeight G.Q G.flagOpt (fun i => Para (G.oOpt + i)) G.fix G.w0) 0 G.Q.nFull (occSz G.p.Ne G.p.Nsite c.idx) := hs.hip
  have on : OnSites (2 * G.p.Ne) G.p.Nsite c.idx := cons_onsites hs.cons
  rw [← hG.hQ] at pf hip on ⊢
  refine logDeriv_of_holo ?_ u
  have d := slaterDiff_deriv (S := fun i => Para (G.oSlater + i)) (cs := G.cs) (cc := G.cc) (ss := G.ss) (pfM := G.st.pfM) (invM := G.st.invM)
    (w := (G.env Para).w) hOrb hG.tr on hk
    (slt := fun z => updateSlaterElm G.Q G.cs G.cc G.ss (Function.update (fun i => Para (G.oSlater + i)) k z) G.slt0)
    (fun z => ⟨_, G.slt0, List.Perm.refl _, rfl⟩) (by rw [Function.update_eq_self]; exact pf) ht t0 hp hs.hne o
  refine d.congr_deriv ?_
  congr 1
  beta_reduce
  rw [Function.update_eq_self k (fun i => Para (G.oSlater + i))]
  exact hip

omit hG in
/-- the amplitude as a function of a weight of the optional translations -/
theorem amp_optT (hf : G.flagOpt = true) {i : Nat} (hi : i < G.Q.nOpt) (u : ℂ) (o : Nat → ℂ) (slt : ℂ → Nat → ℂ) (hslt : ∀ z, slt z = (G.env Para).slt) :
    LogDeriv (fun z => amplitude (2 * G.p.Ne) (2 * G.p.Nsite) (slt z)
      (qpFullWeight G.Q G.flagOpt (fun i' => Function.update Para (G.oOpt + i) z (G.oOpt + i')) G.fix G.w0) 0 G.Q.nFull (occSz G.p.Ne G.p.Nsite c.idx))
      (Para (G.oOpt + i)) u (u * optTransDiff G.Q G.fix G.st.pfM ip o i) := by
  simp only [update_shift Para G.oOpt i, hf, hslt]
  refine logDeriv_of_holo ?_ u
  have d := amp_opt_deriv (optT := fun i => Para (G.oOpt + i)) (fix := G.fix) (old := G.w0) hi hs.pf
  refine d.congr_deriv ?_
  have hip : ip = amplitude (2 * G.p.Ne) (2 * G.p.Nsite) (G.env Para).slt
    (qpFullWeight G.Q G.flagOpt (fun i => Para (G.oOpt + i)) G.fix G.w0) 0 G.Q.nFull (occSz G.p.Ne G.p.Nsite c.idx) := hs.hip
  rw [hf] at hip
  beta_reduce
  rw [Function.update_eq_self i (fun i => Para (G.oOpt + i)), ← hip]
  unfold optTransDiff
  rw [if_pos hi, sumLoop_eq, div_mul_cancel₀ _ hs.hne]
  rfl

/-- `SROptO` holds the logarithmic derivatives -/
theorem srOptO_main (hOrb : OrbOK G.Q G.Q.Nsite)
    (hc : G.flagRBM = true → ∀ h < G.rbm.nNeuron, Complex.cosh (makeRBMCnt (G.rbmOf Para) c.num (h + G.rbm.nPhys)) ≠ 0)
    {tevs : List (Nat × (Nat × Int))}
    (ht : tevs.Perm ((List.range (G.Q.nMP * G.Q.nOpt)).flatMap (tableStores G.Q (2 * G.p.Ne) c.idx))) (t0 : Nat → Nat × Int) {evs : List (Nat × ℂ)}
    (hp : evs.Perm ((List.range G.Q.nFull).flatMap (diffAdds G.Q G.p.Ne G.cs G.cc G.ss G.st.pfM G.st.invM (runStores tevs t0)))) (out : Nat → ℂ)
    {J : Nat} (hJ : J < G.oOpt) :
    LogDeriv (fun z => psi (G.env (Function.update Para J z)) (szList (G.env Para) c)) (Para J) 1
      (srOptO G Para (runAdds evs (fun _ => 0)) ip projCnt rbmCnt c.num out (2 * (J + 1))) ∧
    LogDeriv (fun z => psi (G.env (Function.update Para J z)) (szList (G.env Para) c)) (Para J) Complex.I
      (srOptO G Para (runAdds evs (fun _ => 0)) ip projCnt rbmCnt c.num out (2 * (J + 1) + 1)) := by
  have hpl : Placed (2 * G.p.Ne) (2 * G.p.Nsite) (occSz G.p.Ne G.p.Nsite c.idx) c.num := placed_sz (env_sp_cons hs)
  have main : ∀ u a, LogDeriv (fun z => amplitude (2 * G.p.Ne) (2 * G.p.Nsite) (updateSlaterElm G.Q G.cs G.cc G.ss (fun k => Function.update Para J z (G.oSlater + k)) G.slt0)
      (qpFullWeight G.Q G.flagOpt (fun i => Function.update Para J z (G.oOpt + i)) G.fix G.w0) 0 G.Q.nFull (occSz G.p.Ne G.p.Nsite c.idx)) (Para J) u a →
      LogDeriv (fun z => psi (G.env (Function.update Para J z)) (szList (G.env Para) c)) (Para J) u (corrLog G Para c.num J u + a) := by
    intro u a h
    exact psi_logDeriv hG Para J u (fun z => updateSlaterElm G.Q G.cs G.cc G.ss (fun k => Function.update Para J z (G.oSlater + k)) G.slt0) hpl hc h
  by_cases h1 : J < G.q.NProj
  · have hJs : J < G.oSlater := by unfold ParGlob.oSlater; omega
    have e : ∀ u, corrLog G Para c.num J u = (u.re : ℂ) * ((projCnt J : Int) : ℂ) := by
      intro u
      unfold corrLog
      rw [if_pos h1, if_neg (by omega : ¬ G.q.NProj ≤ J), ite_self, add_zero, hs.proj J h1]
      rfl
    refine ⟨logDeriv_zero_add (main 1 0 (amp_early hs hJs 1)) ?_, logDeriv_zero_add (main Complex.I 0 (amp_early hs hJs _)) ?_⟩
    · rw [srOptO_lo _ _ _ _ _ _ _ (by omega), srOptOProj_val, if_pos (by omega), if_pos (by omega), if_neg (by omega), e,
        show 2 * (J + 1) / 2 - 1 = J by omega]
      simp
    · rw [srOptO_lo _ _ _ _ _ _ _ (by omega), srOptOProj_val, if_pos (by omega), if_neg (by omega), e]
      simp
  · by_cases h2 : J < G.oSlater
    · have hf : G.flagRBM = true := by
        by_contra hf
        unfold ParGlob.oSlater ParGlob.nR at h2
        rw [if_neg hf] at h2
        omega
      have hj : J - G.q.NProj < (G.rbmOf Para).nRBM := by
        unfold ParGlob.oSlater ParGlob.nR at h2
        rw [if_pos hf] at h2
        show J - G.q.NProj < G.rbm.nRBM
        omega
      have hj' : J - G.q.NProj < G.rbm.nRBM := hj
      have e : ∀ u, corrLog G Para c.num J u = u * rbmLog (G.rbmOf Para) c.num (J - G.q.NProj) := by
        intro u
        unfold corrLog
        rw [if_neg h1, if_pos hf, if_pos (by omega), zero_add]
      have er : ∀ o, rbmDiff (G.rbmOf Para) rbmCnt c.num o (2 * (J - G.q.NProj)) = rbmLog (G.rbmOf Para) c.num (J - G.q.NProj) := by
        intro o
        have hr : ∀ k < G.rbm.nPhys + G.rbm.nNeuron, rbmCnt k = makeRBMCnt (G.rbmOf Para) c.num k := hs.rbm hf
        rw [rbmDiff_even hj]
        unfold rbmLog
        congr 1
        · split_ifs with h
          · exact hr _ (Nat.lt_of_lt_of_le h (Nat.le_add_right _ _))
          · rfl
        · have hn : G.rbm.nNeuron = G.rbm.extra + (G.rbm.hC + G.rbm.hS + G.rbm.hG) := rfl
          unfold rbmGroups
          congr 1
          · congr 1
            · refine sum_congr rfl (fun h hh => ?_)
              have hh : h < G.rbm.hC := mem_range.mp hh
              rw [hr (h + (G.rbmOf Para).nPhys) (by show h + G.rbm.nPhys < _; omega)]
            · refine sum_congr rfl (fun h hh => ?_)
              have hh : h < G.rbm.hS := mem_range.mp hh
              rw [hr (h + (G.rbmOf Para).nPhys + (G.rbmOf Para).hC) (by show h + G.rbm.nPhys + G.rbm.hC < _; omega)]
          · refine sum_congr rfl (fun h hh => ?_)
            have hh : h < G.rbm.hG := mem_range.mp hh
            rw [hr (h + (G.rbmOf Para).nPhys + (G.rbmOf Para).hC + (G.rbmOf Para).hS) (by show h + G.rbm.nPhys + G.rbm.hC + G.rbm.hS < _; omega)]
      refine ⟨logDeriv_zero_add (main 1 0 (amp_early hs h2 1)) ?_, logDeriv_zero_add (main Complex.I 0 (amp_early hs h2 _)) ?_⟩
      · obtain ⟨o, ho⟩ := srOptO_rbm (G := G) Para (runAdds evs (fun _ => 0)) ip projCnt rbmCnt c.num out hf (show 2 * (J - G.q.NProj) < 2 * G.rbm.nRBM by omega)
        rw [show 2 * (J + 1) = 2 * G.q.NProj + 2 + 2 * (J - G.q.NProj) by omega, ho, er, e]
        ring
      · obtain ⟨o, ho⟩ := srOptO_rbm (G := G) Para (runAdds evs (fun _ => 0)) ip projCnt rbmCnt c.num out hf (show 2 * (J - G.q.NProj) + 1 < 2 * G.rbm.nRBM by omega)
        rw [show 2 * (J + 1) + 1 = 2 * G.q.NProj + 2 + (2 * (J - G.q.NProj) + 1) by omega, ho, rbmDiff_odd hj, er, e]
        ring
    · obtain ⟨k, rfl⟩ : ∃ k, J = G.oSlater + k := ⟨J - G.oSlater, by omega⟩
      have hk : k < G.Q.nSlater := by unfold ParGlob.oOpt at hJ; omega
      have e : ∀ u, corrLog G Para c.num (G.oSlater + k) u = 0 := by
        intro u
        unfold corrLog
        rw [if_neg h1, zero_add]
        split_ifs with hf h3
        · rw [rbmLog_out, mul_zero]
          · exact ⟨(hG.rIdx hf).cH, (hG.rIdx hf).sH, (hG.rIdx hf).gH, (hG.rIdx hf).cX, (hG.rIdx hf).sX, (hG.rIdx hf).gX⟩
          · show G.rbm.nRBM ≤ _
            unfold ParGlob.oSlater ParGlob.nR
            rw [if_pos hf]
            omega
        · rfl
        · rfl
      obtain ⟨o, ho⟩ := srOptO_slater hG Para (runAdds evs (fun _ => 0)) ip projCnt rbmCnt c.num out (show 2 * k < 2 * G.Q.nSlater by omega)
      obtain ⟨o', ho'⟩ := srOptO_slater hG Para (runAdds evs (fun _ => 0)) ip projCnt rbmCnt c.num out (show 2 * k + 1 < 2 * G.Q.nSlater by omega)
      refine ⟨logDeriv_zero_add (main 1 _ (amp_slater hG hOrb hs hk ht t0 hp 1 o)) ?_,
        logDeriv_zero_add (main Complex.I _ (amp_slater hG hOrb hs hk ht t0 hp Complex.I o')) ?_⟩
      · rw [show 2 * (G.oSlater + k + 1) = 2 * G.oSlater + 2 + 2 * k by omega, ho, e]
        ring
      · rw [show 2 * (G.oSlater + k + 1) + 1 = 2 * G.oSlater + 2 + (2 * k + 1) by omega, ho', diffStore_odd hk, e]
        ring

/-- the value reported for a weight of the optional translations, at the place where the code stores it -/
theorem srOptO_optT (hOrb : OrbOK G.Q G.Q.Nsite)
    (hc : G.flagRBM = true → ∀ h < G.rbm.nNeuron, Complex.cosh (makeRBMCnt (G.rbmOf Para) c.num (h + G.rbm.nPhys)) ≠ 0)
    (buf out : Nat → ℂ) (hf : G.flagOpt = true) {i : Nat} (hi : i < G.Q.nOpt) :
    LogDeriv (fun z => psi (G.env (Function.update Para (G.oOpt + i) z)) (szList (G.env Para) c)) (Para (G.oOpt + i)) 1
      (srOptO G Para buf ip projCnt rbmCnt c.num out (2 * G.oOpt + 2 + i)) := by
  have hpl : Placed (2 * G.p.Ne) (2 * G.p.Nsite) (occSz G.p.Ne G.p.Nsite c.idx) c.num := placed_sz (env_sp_cons hs)
  obtain ⟨o, ho⟩ := srOptO_opt Para buf ip projCnt rbmCnt c.num out hf i
  have hA := amp_optT hs hf hi 1 o (fun _ => (G.env Para).slt) (fun _ => rfl)
  have ent : ∀ z, ∀ q, q < G.Q.nFull → ∀ x y, x < 2 * G.p.Nsite → y < 2 * G.p.Nsite →
      entry (2 * G.p.Nsite) (updateSlaterElm G.Q G.cs G.cc G.ss (fun k => Function.update Para (G.oOpt + i) z (G.oSlater + k)) G.slt0) q x y
        = entry (2 * G.p.Nsite) (G.env Para).slt q x y := by
    intro z q hq x y hx hy
    have hw : (G.env Para).slt = updateSlaterElm G.Q G.cs G.cc G.ss (fun k => Para (G.oSlater + k)) G.slt0 := rfl
    rw [hw]
    rw [← hG.hQ] at hx hy ⊢
    unfold updateSlaterElm
    rw [slater_entry G.Q G.cs G.cc G.ss _ (List.Perm.refl _) G.slt0 hq hx hy, slater_entry G.Q G.cs G.cc G.ss _ (List.Perm.refl _) G.slt0 hq hx hy]
    have agree : ∀ k, k < G.Q.nSlater → (fun k => Function.update Para (G.oOpt + i) z (G.oSlater + k)) k = (fun k => Para (G.oSlater + k)) k := by
      intro k hk
      beta_reduce
      rw [Function.update_of_ne]
      unfold ParGlob.oOpt
      omega
    unfold antisym
    rw [pairP_congr hOrb hG.tr agree q x y hx, pairP_congr hOrb hG.tr agree q y x hy]
  have hA' : LogDeriv (fun z => amplitude (2 * G.p.Ne) (2 * G.p.Nsite) (updateSlaterElm G.Q G.cs G.cc G.ss (fun k => Function.update Para (G.oOpt + i) z (G.oSlater + k)) G.slt0)
      (qpFullWeight G.Q G.flagOpt (fun i' => Function.update Para (G.oOpt + i) z (G.oOpt + i')) G.fix G.w0) 0 G.Q.nFull (occSz G.p.Ne G.p.Nsite c.idx))
      (Para (G.oOpt + i)) 1 (1 * optTransDiff G.Q G.fix G.st.pfM ip o i) := by
    refine logDeriv_congr hA (fun z => ?_) rfl
    unfold amplitude
    refine sum_congr rfl (fun q hq => ?_)
    congr 1
    refine pf_congr (fun x hx y hy => ?_)
    obtain ⟨a, ha, rfl⟩ := List.mem_map.mp hx
    obtain ⟨b, hb, rfl⟩ := List.mem_map.mp hy
    have ha := List.mem_range.mp ha
    have hb := List.mem_range.mp hb
    exact ent z q (mem_range.mp hq) _ _ (hpl.lt a ha) (hpl.lt b hb)
  have := psi_logDeriv hG Para (G.oOpt + i) 1
    (fun z => updateSlaterElm G.Q G.cs G.cc G.ss (fun k => Function.update Para (G.oOpt + i) z (G.oSlater + k)) G.slt0) hpl hc hA'
  refine logDeriv_zero_add this ?_
  have e : corrLog G Para c.num (G.oOpt + i) 1 = 0 := by
    unfold corrLog
    rw [if_neg (by unfold ParGlob.oOpt ParGlob.oSlater; omega), zero_add]
    split_ifs with hf h3
    · rw [rbmLog_out, mul_zero]
      · exact ⟨(hG.rIdx hf).cH, (hG.rIdx hf).sH, (hG.rIdx hf).gH, (hG.rIdx hf).cX, (hG.rIdx hf).sX, (hG.rIdx hf).gX⟩
      · show G.rbm.nRBM ≤ _
        unfold ParGlob.oOpt ParGlob.oSlater ParGlob.nR
        rw [if_pos hf]
        omega
    · rfl
    · rfl
  rw [ho, e]
  ring

end sz

section fsz
variable {G : ParGlob} (hG : ParOK G) {Para : Nat → ℂ} {c : FCfg} {ip : ℂ} {projCnt : Arr} (hs : SampledF (G.envF Para) c ip projCnt)
include hG hs

/-- `SROptO` holds the logarithmic derivatives (general-Sz mode) -/
theorem srOptOF_main (hOrb : OrbOK G.Q (2 * G.Q.Nsite)) {tevs : List (Nat × (Nat × Int))}
    (ht : tevs.Perm ((List.range (G.Q.nMP * G.Q.nOpt)).flatMap (tableStoresF G.Q (2 * G.p.Ne) c.idx c.spn))) (t0 : Nat → Nat × Int) {evs : List (Nat × ℂ)}
    (hp : evs.Perm ((List.range G.Q.nFull).flatMap (diffAddsF G.Q (2 * G.p.Ne) G.st.pfM G.st.invM (runStores tevs t0)))) (out : Nat → ℂ)
    {J : Nat} (hJ : J < G.oOpt) :
    LogDeriv (fun z => psi (G.envF (Function.update Para J z)) (fszList (G.envF Para) c)) (Para J) 1
      (srOptOF G Para (runAdds evs (fun _ => 0)) ip projCnt out (2 * (J + 1))) ∧
    LogDeriv (fun z => psi (G.envF (Function.update Para J z)) (fszList (G.envF Para) c)) (Para J) Complex.I
      (srOptOF G Para (runAdds evs (fun _ => 0)) ip projCnt out (2 * (J + 1) + 1)) := by
  have hfR : G.flagRBM = false := hs.noRBM
  have hO : G.oSlater = G.q.NProj := by unfold ParGlob.oSlater ParGlob.nR; rw [hfR]; simp
  have hpl : Placed (2 * G.p.Ne) (2 * G.p.Nsite) (occF G.p.Nsite c.idx c.spn) c.num := placed_fsz (g := G.envF Para) hs.cons
  have main : ∀ u a, LogDeriv (fun z => amplitude (2 * G.p.Ne) (2 * G.p.Nsite) (updateSlaterElmF G.Q (fun k => Function.update Para J z (G.oSlater + k)) G.slt0)
      (qpFullWeight G.Q G.flagOpt (fun i => Function.update Para J z (G.oOpt + i)) G.fix G.w0) 0 G.Q.nFull (occF G.p.Nsite c.idx c.spn)) (Para J) u a →
      LogDeriv (fun z => psi (G.envF (Function.update Para J z)) (fszList (G.envF Para) c)) (Para J) u (corrLog G Para c.num J u + a) := by
    intro u a h
    exact psi_logDeriv hG Para J u (fun z => updateSlaterElmF G.Q (fun k => Function.update Para J z (G.oSlater + k)) G.slt0) hpl
      (fun h => absurd h (by rw [hfR]; decide)) h
  have hOpt : 2 * G.oOpt + 2 = 2 * G.q.NProj + 2 * G.Q.nSlater + 2 := by unfold ParGlob.oOpt; rw [hO]; omega
  have l3 : ∀ (a : Nat → ℂ) k, k < 2 * G.oOpt + 2 → atOffset (2 * G.q.NProj + 2 * G.Q.nSlater + 2) (optTransDiff G.Q G.fix G.st.pfM ip) a k = a k :=
    fun a k hk => atOffset_lt _ a (by omega)
  by_cases h1 : J < G.q.NProj
  · have e : ∀ u, corrLog G Para c.num J u = (u.re : ℂ) * ((projCnt J : Int) : ℂ) := by
      intro u
      unfold corrLog
      rw [if_pos h1, if_neg (by omega : ¬ G.q.NProj ≤ J), ite_self, add_zero, hs.proj J h1]
      rfl
    have hA : ∀ u, LogDeriv (fun z => amplitude (2 * G.p.Ne) (2 * G.p.Nsite) (updateSlaterElmF G.Q (fun k => Function.update Para J z (G.oSlater + k)) G.slt0)
      (qpFullWeight G.Q G.flagOpt (fun i => Function.update Para J z (G.oOpt + i)) G.fix G.w0) 0 G.Q.nFull (occF G.p.Nsite c.idx c.spn)) (Para J) u 0 := by
      intro u
      refine logDeriv_const (fun x => ?_) u
      simp only [update_other Para G.oSlater J _ (by omega), update_other Para G.oOpt J _ hJ]
    have lo : ∀ k, k < 2 * G.q.NProj + 2 → srOptOF G Para (runAdds evs (fun _ => 0)) ip projCnt out k = srOptOProj G.q projCnt out k := by
      intro k hk
      have l1 : ∀ a : Nat → ℂ, atOffset (2 * G.q.NProj + 2) (diffStore G.Q (G.envF Para).w (runAdds evs (fun _ => 0)) ip) a k = a k :=
        fun a => atOffset_lt _ a hk
      unfold srOptOF
      split_ifs
      · rw [l3 _ _ (by omega), l1]
      · rw [l1]
    refine ⟨logDeriv_zero_add (main 1 0 (hA 1)) ?_, logDeriv_zero_add (main Complex.I 0 (hA _)) ?_⟩
    · rw [lo _ (by omega), srOptOProj_val, if_pos (by omega), if_pos (by omega), if_neg (by omega), e, show 2 * (J + 1) / 2 - 1 = J by omega]
      simp
    · rw [lo _ (by omega), srOptOProj_val, if_pos (by omega), if_neg (by omega), e]
      simp
  · obtain ⟨k, rfl⟩ : ∃ k, J = G.oSlater + k := ⟨J - G.oSlater, by omega⟩
    have hk : k < G.Q.nSlater := by unfold ParGlob.oOpt at hJ; omega
    have e : ∀ u, corrLog G Para c.num (G.oSlater + k) u = 0 := by
      intro u
      unfold corrLog
      rw [if_neg h1, hfR]
      simp
    have hi : ∀ i, i < 2 * G.Q.nSlater → ∃ o, srOptOF G Para (runAdds evs (fun _ => 0)) ip projCnt out (2 * G.q.NProj + 2 + i)
        = diffStore G.Q (G.envF Para).w (runAdds evs (fun _ => 0)) ip o i := by
      intro i hi
      unfold srOptOF
      split_ifs
      · rw [l3 _ _ (by omega), atOffset_ge]; exact ⟨_, rfl⟩
      · rw [atOffset_ge]; exact ⟨_, rfl⟩
    have hA : ∀ u o, LogDeriv (fun z => amplitude (2 * G.p.Ne) (2 * G.p.Nsite) (updateSlaterElmF G.Q (fun i => Function.update Para (G.oSlater + k) z (G.oSlater + i)) G.slt0)
      (qpFullWeight G.Q G.flagOpt (fun i => Function.update Para (G.oSlater + k) z (G.oOpt + i)) G.fix G.w0) 0 G.Q.nFull (occF G.p.Nsite c.idx c.spn))
      (Para (G.oSlater + k)) u (u * diffStore G.Q (G.envF Para).w (runAdds evs (fun _ => 0)) ip o (2 * k)) := by
      intro u o
      simp only [update_shift Para G.oSlater k, update_other Para G.oOpt (G.oSlater + k) _ hJ]
      have pf : PfOK (2 * G.p.Ne) (2 * G.p.Nsite) (updateSlaterElmF G.Q (fun i => Para (G.oSlater + i)) G.slt0) 0 G.Q.nFull
        (occF G.p.Nsite c.idx c.spn) G.st.pfM G.st.invM := hs.pf
      have hip : ip = amplitude (2 * G.p.Ne) (2 * G.p.Nsite) (updateSlaterElmF G.Q (fun i => Para (G.oSlater + i)) G.slt0)
        (qpFullWeight G.Q G.flagOpt (fun i => Para (G.oOpt + i)) G.fix G.w0) 0 G.Q.nFull (occF G.p.Nsite c.idx c.spn) := hs.hip
      have on : OnSites (2 * G.p.Ne) G.p.Nsite c.idx := (consF_onsites hs.cons).1
      rw [← hG.hQ] at pf hip on ⊢
      refine logDeriv_of_holo ?_ u
      have d := slaterDiffF_deriv (S := fun i => Para (G.oSlater + i)) (pfM := G.st.pfM) (invM := G.st.invM)
        (w := (G.envF Para).w) hOrb hG.tr on (consF_onsites hs.cons).2 hk
        (slt := fun z => updateSlaterElmF G.Q (Function.update (fun i => Para (G.oSlater + i)) k z) G.slt0)
        (fun z => ⟨_, G.slt0, List.Perm.refl _, rfl⟩) (by rw [Function.update_eq_self]; exact pf) ht t0 hp hs.hne o
      refine d.congr_deriv ?_
      congr 1
      beta_reduce
      rw [Function.update_eq_self k (fun i => Para (G.oSlater + i))]
      exact hip
    obtain ⟨o, ho⟩ := hi (2 * k) (by omega)
    obtain ⟨o', ho'⟩ := hi (2 * k + 1) (by omega)
    refine ⟨logDeriv_zero_add (main 1 _ (hA 1 o)) ?_, logDeriv_zero_add (main Complex.I _ (hA Complex.I o')) ?_⟩
    · rw [show 2 * (G.oSlater + k + 1) = 2 * G.q.NProj + 2 + 2 * k by omega, ho, e]
      ring
    · rw [show 2 * (G.oSlater + k + 1) + 1 = 2 * G.q.NProj + 2 + (2 * k + 1) by omega, ho', diffStore_odd hk, e]
      ring

end fsz

end MVMC
