import Verif.Proof.ParLine
import Verif.Proof.SRStep

/-! # The general-Sz wave function of the code as a family for C76 -/
namespace MVMC
open MVMC.Spec Finset

/-- the amplitudes of the trial state as functions of the correlation and pair parameters -/
noncomputable def famOfF (G : ParGlob) (para q : Nat → ℂ) (l : List Nat) : ℂ := psi (G.envF (parOf G.oOpt para q)) l

/-- logarithmic derivatives: entry `2(J+1)` with respect to the real part of parameter `J`, entry `2(J+1)+1` to the imaginary part -/
noncomputable def logDF (G : ParGlob) (para : Nat → ℂ) (l : List Nat) (k : Nat) : ℂ :=
  if k = 0 then 1 else if k = 1 then 0 else
    deriv (fun t : ℝ => psi (G.envF (Function.update para (k / 2 - 1) (para (k / 2 - 1) + t * if k % 2 = 0 then 1 else Complex.I))) l) 0 / psi (G.envF para) l

theorem fam_diffF (G : ParGlob) (para : Nat → ℂ) (l : List Nat) : Differentiable ℝ fun q : Fin G.oOpt → ℂ => psi (G.envF (parExt para q)) l :=
  psiF_diff (fun k => parExt_diff para k) G l

theorem fam_contF (G : ParGlob) (para : Nat → ℂ) (l : List Nat) : Continuous fun q => famOfF G para q l := by
  have h := (fam_diffF G para l).continuous
  have hr : Continuous fun q : Nat → ℂ => fun k : Fin G.oOpt => q k := by fun_prop
  have := h.comp hr
  refine this.congr fun q => ?_
  simp only [Function.comp, famOfF]
  rw [parExt_restrict]

theorem logD_hasDerivF (G : ParGlob) (para : Nat → ℂ) {l : List Nat} (h0 : psi (G.envF para) l ≠ 0) {J : Nat} (hJ : J < G.oOpt) :
    HasDerivAt (fun t : ℝ => psi (G.envF (Function.update para J (para J + t * 1))) l) (logDF G para l (2 * (J + 1)) * psi (G.envF para) l) 0 ∧
    HasDerivAt (fun t : ℝ => psi (G.envF (Function.update para J (para J + t * Complex.I))) l) (logDF G para l (2 * (J + 1) + 1) * psi (G.envF para) l) 0 := by
  have hd : ∀ u : ℂ, DifferentiableAt ℝ (fun t : ℝ => psi (G.envF (Function.update para J (para J + t * u))) l) 0 := by
    intro u
    refine (psiF_diff (p := fun t : ℝ => Function.update para J (para J + t * u)) (fun k => ?_) G l).differentiableAt
    by_cases h : k = J
    · subst h
      simp only [Function.update_self]
      exact ((Complex.ofRealCLM.differentiable).mul_const u).const_add _
    · simp only [Function.update_of_ne h]
      exact differentiable_const _
  have e1 : 2 * (J + 1) / 2 - 1 = J := by omega
  have e2 : (2 * (J + 1) + 1) / 2 - 1 = J := by omega
  refine ⟨(hd 1).hasDerivAt.congr_deriv ?_, (hd Complex.I).hasDerivAt.congr_deriv ?_⟩
  · unfold logDF
    rw [if_neg (by omega), if_neg (by omega), e1, if_pos (by omega), div_mul_cancel₀ _ h0]
  · unfold logDF
    rw [if_neg (by omega), if_neg (by omega), e2, if_neg (by omega), div_mul_cancel₀ _ h0]

theorem fam_derivF (G : ParGlob) (para : Nat → ℂ) {l : List Nat} (h0 : psi (G.envF para) l ≠ 0) (v : Nat → ℂ) :
    HasDerivAt (fun t : ℝ => famOfF G para (fun k => para k + t * v k) l)
      ((∑ pi ∈ range (2 * G.oOpt), (compOf v pi : ℂ) * logDF G para l (pi + 2)) * psi (G.envF para) l) 0 := by
  have h := line_deriv (F := fun q : Fin G.oOpt → ℂ => psi (G.envF (parExt para q)) l) (q := fun k => para k) (fam_diffF G para l).differentiableAt
    (a := fun j => logDF G para l (2 * (j + 1)) * psi (G.envF para) l) (b := fun j => logDF G para l (2 * (j + 1) + 1) * psi (G.envF para) l)
    (fun j => by simp only [parExt_update]; exact (logD_hasDerivF G para h0 j.2).1)
    (fun j => by simp only [parExt_update]; exact (logD_hasDerivF G para h0 j.2).2) (fun k => v k)
  have e : (fun t : ℝ => famOfF G para (fun k => para k + t * v k) l) = fun t : ℝ => psi (G.envF (parExt para fun k : Fin G.oOpt => para k + t * v k)) l := by
    funext t
    unfold famOfF
    rw [← parExt_restrict]
  rw [e]
  refine h.congr_deriv ?_
  rw [sum_pairs, sum_mul, ← Fin.sum_univ_eq_sum_range (fun j => ((compOf v (2 * j) : ℂ) * logDF G para l (2 * j + 2) + (compOf v (2 * j + 1) : ℂ) * logDF G para l (2 * j + 1 + 2)) * psi (G.envF para) l)]
  refine sum_congr rfl fun j _ => ?_
  have c1 : compOf v (2 * j) = (v j).re := by unfold compOf; rw [if_pos (by omega), show 2 * (j : Nat) / 2 = j by omega]
  have c2 : compOf v (2 * j + 1) = (v j).im := by unfold compOf; rw [if_neg (by omega), show (2 * (j : Nat) + 1) / 2 = j by omega]
  rw [c1, c2, show 2 * ((j : Nat) + 1) + 1 = 2 * j + 1 + 2 by omega, show 2 * ((j : Nat) + 1) = 2 * j + 2 by omega]
  ring

/-! ## The code computes these derivatives -/

theorem env_okF {G : ParGlob} (hG : ParOK G) (para : Nat → ℂ) : GrnOK (G.envF para) where
  hq := hG.hq
  tab := hG.tab
  skew := fun k hk => by
    have := C28_skew_fsz G.Q (fun k => para (G.oSlater + k)) _ (List.Perm.refl _) G.slt0 k hk
    rw [hG.hQ] at this
    exact this

/-- the derivatives do not depend on the order of the electrons -/
theorem logD_orderF {G : ParGlob} (hG : ParOK G) (para : Nat → ℂ) {l : List Nat} (hn : l.Nodup) (hM : ∀ z ∈ l, z < 2 * G.p.Nsite) :
    logDF G para l = logDF G para ((confOf l hM).1.sort (· ≤ ·)) := by
  have key : ∀ q, psi (G.envF q) l = (-1) ^ inversions l * psi (G.envF q) ((confOf l hM).1.sort (· ≤ ·)) := by
    intro q
    have := anti_conf (psi_anti (env_okF hG q)) hn hM
    rw [this]
    simp only [stateOn, if_true]
    rfl
  funext k
  unfold logDF
  simp only [key]
  split_ifs
  all_goals first | rfl | skip
  all_goals
    rw [deriv_const_mul_field, mul_div_mul_left _ _ (by simp)]

theorem srOptOF_lo (G : ParGlob) (para buf : Nat → ℂ) (ip : ℂ) (projCnt : Arr) (out : Nat → ℂ) {k : Nat} (hk : k < 2 * G.q.NProj + 2) :
    srOptOF G para buf ip projCnt out k = srOptOProj G.q projCnt out k := by
  unfold srOptOF
  by_cases hO : G.flagOpt = true
  · rw [if_pos hO, atOffset_lt _ _ (by omega), atOffset_lt _ _ (by omega)]
  · rw [if_neg hO, atOffset_lt _ _ (by omega)]

theorem srOptOF_const (G : ParGlob) (para buf : Nat → ℂ) (ip : ℂ) (projCnt : Arr) (out : Nat → ℂ) :
    srOptOF G para buf ip projCnt out 0 = 1 ∧ srOptOF G para buf ip projCnt out 1 = 0 := by
  refine ⟨?_, ?_⟩
  · rw [srOptOF_lo _ _ _ _ _ _ (by omega), srOptOProj_val, if_pos (by omega)]; rfl
  · rw [srOptOF_lo _ _ _ _ _ _ (by omega), srOptOProj_val, if_pos (by omega)]; rfl

/-- what the code stores is the derivative -/
theorem logD_codeF {G : ParGlob} (hG : ParOK G) (hOrb : OrbOK G.Q (2 * G.Q.Nsite)) (para : Nat → ℂ) (c : FCfg) (ip : ℂ) (projCnt : Arr)
    (hs : SampledF (G.envF para) c ip projCnt) (h0 : psi (G.envF para) (fszList (G.envF para) c) ≠ 0) (tevs : List (Nat × (Nat × Int)))
    (ht : tevs.Perm ((List.range (G.Q.nMP * G.Q.nOpt)).flatMap (tableStoresF G.Q (2 * G.p.Ne) c.idx c.spn))) (t0 : Nat → Nat × Int) (evs : List (Nat × ℂ))
    (hp : evs.Perm ((List.range G.Q.nFull).flatMap (diffAddsF G.Q (2 * G.p.Ne) G.st.pfM G.st.invM (runStores tevs t0)))) (out : Nat → ℂ)
    {k : Nat} (hk : k < 2 * G.oOpt + 2) :
    srOptOF G para (runAdds evs (fun _ => 0)) ip projCnt out k = logDF G para (fszList (G.envF para) c) k := by
  by_cases hk0 : k = 0
  · subst hk0
    rw [(srOptOF_const G para _ ip projCnt out).1]; simp [logDF]
  by_cases hk1 : k = 1
  · subst hk1
    rw [(srOptOF_const G para _ ip projCnt out).2]; simp [logDF]
  have hJ : k / 2 - 1 < G.oOpt := by omega
  have h1 := C29_logderiv_fsz G hG hOrb para c ip projCnt hs tevs ht t0 evs hp out (k / 2 - 1) hJ
  have h2 := logD_hasDerivF G para h0 hJ
  unfold LogDeriv at h1
  simp only [Function.update_eq_self] at h1
  rcases Nat.mod_two_eq_zero_or_one k with hm | hm
  · have e : 2 * (k / 2 - 1 + 1) = k := by omega
    rw [e] at h1 h2
    exact mul_right_cancel₀ h0 (h1.1.unique h2.1)
  · have e : 2 * (k / 2 - 1 + 1) + 1 = k := by omega
    rw [e] at h1 h2
    exact mul_right_cancel₀ h0 (h1.2.unique h2.2)

/-- the family of C76 -/
theorem fam_stepF {G : ParGlob} (hG : ParOK G) (para : Nat → ℂ) (ls : Nat → Int) (ex tz : Int) (P : Conf (2 * (G.envF para).p.Nsite) → Prop)
    (hz : ∀ S : Conf (2 * (G.envF para).p.Nsite), P S → psi (G.envF para) (S.1.sort (· ≤ ·)) ≠ 0) :
    StepFamilyP (G.envF para) P (fun c : CfgStateF ((G.envF para).fszPar ls ex tz) => fszList (G.envF para) c.1) obsOfF (famOfF G para) para (2 * G.oOpt) (logDF G para) where
  here := fun S _ => by unfold famOfF; rw [parOf_self]
  cont := fun S _ => fam_contF G para _
  deriv := fun S hS v => fam_derivF G para (hz S hS) v
  one := fun S _ => by simp [logDF]
  order := fun c => logD_orderF hG para (placed_fsz (g := G.envF para) (c := c.1) c.2.1).nodup (placed_fsz (g := G.envF para) (c := c.1) c.2.1).range

end MVMC
