import Verif.Proof.ParDiff
import Verif.Props.SRConverge
import Verif.Props.Slater
import Mathlib.Analysis.Calculus.Deriv.Prod

/-! # The wave function of the code as a family for C76 -/
namespace MVMC
open MVMC.Spec Finset

/-! ## The derivative along a line is the sum over the components -/

theorem line_deriv {n : Nat} {F : (Fin n → ℂ) → ℂ} {q : Fin n → ℂ} (hF : DifferentiableAt ℝ F q) {a b : Fin n → ℂ}
    (ha : ∀ j, HasDerivAt (fun t : ℝ => F (Function.update q j (q j + t * 1))) (a j) 0)
    (hb : ∀ j, HasDerivAt (fun t : ℝ => F (Function.update q j (q j + t * Complex.I))) (b j) 0) (v : Fin n → ℂ) :
    HasDerivAt (fun t : ℝ => F (fun k => q k + t * v k)) (∑ j, (((v j).re : ℂ) * a j + ((v j).im : ℂ) * b j)) 0 := by
  have hL := hF.hasFDerivAt
  set L := fderiv ℝ F q
  have line : ∀ u : Fin n → ℂ, HasDerivAt (fun t : ℝ => F (fun k => q k + t * u k)) (L u) 0 := by
    intro u
    have hl : HasDerivAt (fun t : ℝ => fun k => q k + (t : ℂ) * u k) u 0 := by
      rw [hasDerivAt_pi]
      intro k
      have := ((Complex.ofRealCLM.hasDerivAt (x := (0 : ℝ))).mul_const (u k)).const_add (q k)
      simpa using this
    have h0 : (fun k => q k + ((0 : ℝ) : ℂ) * u k) = q := by funext k; simp
    exact HasFDerivAt.comp_hasDerivAt (x := (0 : ℝ)) (l := F) (l' := L) (f := fun t : ℝ => fun k => q k + (t : ℂ) * u k) (by rw [h0]; exact hL) hl
  have hupd : ∀ j (z : ℂ) (t : ℝ), Function.update q j (q j + t * z) = fun k => q k + (t : ℂ) * (Pi.single j z : Fin n → ℂ) k := by
    intro j z t
    funext k
    by_cases h : k = j
    · subst h; simp
    · simp [h]
  have hA : ∀ j, L (Pi.single j 1) = a j := fun j => by
    have := ha j
    simp only [hupd] at this
    exact (line _).unique this
  have hB : ∀ j, L (Pi.single j Complex.I) = b j := fun j => by
    have := hb j
    simp only [hupd] at this
    exact (line _).unique this
  have hv : v = ∑ j, ((v j).re • (Pi.single j 1 : Fin n → ℂ) + (v j).im • (Pi.single j Complex.I : Fin n → ℂ)) := by
    funext k
    rw [Finset.sum_apply, Finset.sum_eq_single k]
    · simp [Complex.re_add_im]
    · intro j _ h
      simp [Ne.symm h]
    · simp
  have hLv : L v = ∑ j, (((v j).re : ℂ) * a j + ((v j).im : ℂ) * b j) := by
    conv_lhs => rw [hv]
    rw [map_sum]
    refine sum_congr rfl fun j _ => ?_
    rw [map_add, map_smul, map_smul, hA, hB, Complex.real_smul, Complex.real_smul]
  rw [← hLv]
  exact line v

/-! ## The family -/

/-- the first `n` parameters from `q`, the others unchanged -/
def parOf (n : Nat) (para q : Nat → ℂ) (k : Nat) : ℂ := if k < n then q k else para k

/-- the amplitudes of the trial state as functions of the correlation and pair parameters -/
noncomputable def famOf (G : ParGlob) (para q : Nat → ℂ) (l : List Nat) : ℂ := psi (G.env (parOf G.oOpt para q)) l

/-- logarithmic derivatives: entry `2(J+1)` with respect to the real part of parameter `J`, entry `2(J+1)+1` to the imaginary part -/
noncomputable def logD (G : ParGlob) (para : Nat → ℂ) (l : List Nat) (k : Nat) : ℂ :=
  if k = 0 then 1 else if k = 1 then 0 else
    deriv (fun t : ℝ => psi (G.env (Function.update para (k / 2 - 1) (para (k / 2 - 1) + t * if k % 2 = 0 then 1 else Complex.I))) l) 0 / psi (G.env para) l

theorem parOf_self (n : Nat) (para : Nat → ℂ) : parOf n para para = para := by
  funext k; simp [parOf]

/-- finitely many coordinates -/
def parExt {n : Nat} (para : Nat → ℂ) (q : Fin n → ℂ) (k : Nat) : ℂ := if h : k < n then q ⟨k, h⟩ else para k

theorem parExt_restrict (n : Nat) (para q : Nat → ℂ) : parExt para (fun k : Fin n => q k) = parOf n para q := by
  funext k
  unfold parExt parOf
  by_cases h : k < n <;> simp [h]

theorem parExt_diff {n : Nat} (para : Nat → ℂ) (k : Nat) : Differentiable ℝ fun q : Fin n → ℂ => parExt para q k := by
  unfold parExt
  by_cases h : k < n
  · simp only [h, dite_true]
    fun_prop
  · simp [h]

theorem fam_diff (G : ParGlob) (para : Nat → ℂ) (l : List Nat) : Differentiable ℝ fun q : Fin G.oOpt → ℂ => psi (G.env (parExt para q)) l :=
  psi_diff (fun k => parExt_diff para k) G l

theorem fam_cont (G : ParGlob) (para : Nat → ℂ) (l : List Nat) : Continuous fun q => famOf G para q l := by
  have h := (fam_diff G para l).continuous
  have hr : Continuous fun q : Nat → ℂ => fun k : Fin G.oOpt => q k := by fun_prop
  have := h.comp hr
  refine this.congr fun q => ?_
  simp only [Function.comp, famOf]
  rw [parExt_restrict]

theorem parExt_update {n : Nat} (para : Nat → ℂ) (j : Fin n) (z : ℂ) :
    parExt para (Function.update (fun k : Fin n => para k) j z) = Function.update para j z := by
  funext k
  unfold parExt
  by_cases h : k < n
  · simp only [h, dite_true]
    by_cases e : k = j
    · subst e; simp
    · rw [Function.update_of_ne e, Function.update_of_ne (fun h' => e (by rw [← h']))]
  · have e : k ≠ j := fun h' => h (by rw [h']; exact j.2)
    simp only [h, dite_false]
    rw [Function.update_of_ne e]

theorem logD_hasDeriv (G : ParGlob) (para : Nat → ℂ) {l : List Nat} (h0 : psi (G.env para) l ≠ 0) {J : Nat} (hJ : J < G.oOpt) :
    HasDerivAt (fun t : ℝ => psi (G.env (Function.update para J (para J + t * 1))) l) (logD G para l (2 * (J + 1)) * psi (G.env para) l) 0 ∧
    HasDerivAt (fun t : ℝ => psi (G.env (Function.update para J (para J + t * Complex.I))) l) (logD G para l (2 * (J + 1) + 1) * psi (G.env para) l) 0 := by
  have hd : ∀ u : ℂ, DifferentiableAt ℝ (fun t : ℝ => psi (G.env (Function.update para J (para J + t * u))) l) 0 := by
    intro u
    refine (psi_diff (p := fun t : ℝ => Function.update para J (para J + t * u)) (fun k => ?_) G l).differentiableAt
    by_cases h : k = J
    · subst h
      simp only [Function.update_self]
      exact ((Complex.ofRealCLM.differentiable).mul_const u).const_add _
    · simp only [Function.update_of_ne h]
      exact differentiable_const _
  have e1 : 2 * (J + 1) / 2 - 1 = J := by omega
  have e2 : (2 * (J + 1) + 1) / 2 - 1 = J := by omega
  refine ⟨(hd 1).hasDerivAt.congr_deriv ?_, (hd Complex.I).hasDerivAt.congr_deriv ?_⟩
  · unfold logD
    rw [if_neg (by omega), if_neg (by omega), e1, if_pos (by omega), div_mul_cancel₀ _ h0]
  · unfold logD
    rw [if_neg (by omega), if_neg (by omega), e2, if_neg (by omega), div_mul_cancel₀ _ h0]

theorem sum_pairs (n : Nat) (f : Nat → ℂ) : ∑ pi ∈ range (2 * n), f pi = ∑ j ∈ range n, (f (2 * j) + f (2 * j + 1)) := by
  induction n with
  | zero => simp
  | succ n ih => rw [show 2 * (n + 1) = 2 * n + 1 + 1 by omega, sum_range_succ, sum_range_succ, ih, sum_range_succ, add_assoc]

theorem fam_deriv (G : ParGlob) (para : Nat → ℂ) {l : List Nat} (h0 : psi (G.env para) l ≠ 0) (v : Nat → ℂ) :
    HasDerivAt (fun t : ℝ => famOf G para (fun k => para k + t * v k) l)
      ((∑ pi ∈ range (2 * G.oOpt), (compOf v pi : ℂ) * logD G para l (pi + 2)) * psi (G.env para) l) 0 := by
  have h := line_deriv (F := fun q : Fin G.oOpt → ℂ => psi (G.env (parExt para q)) l) (q := fun k => para k) (fam_diff G para l).differentiableAt
    (a := fun j => logD G para l (2 * (j + 1)) * psi (G.env para) l) (b := fun j => logD G para l (2 * (j + 1) + 1) * psi (G.env para) l)
    (fun j => by simp only [parExt_update]; exact (logD_hasDeriv G para h0 j.2).1)
    (fun j => by simp only [parExt_update]; exact (logD_hasDeriv G para h0 j.2).2) (fun k => v k)
  have e : (fun t : ℝ => famOf G para (fun k => para k + t * v k) l) = fun t : ℝ => psi (G.env (parExt para fun k : Fin G.oOpt => para k + t * v k)) l := by
    funext t
    unfold famOf
    rw [← parExt_restrict]
  rw [e]
  refine h.congr_deriv ?_
  rw [sum_pairs, sum_mul, ← Fin.sum_univ_eq_sum_range (fun j => ((compOf v (2 * j) : ℂ) * logD G para l (2 * j + 2) + (compOf v (2 * j + 1) : ℂ) * logD G para l (2 * j + 1 + 2)) * psi (G.env para) l)]
  refine sum_congr rfl fun j _ => ?_
  have c1 : compOf v (2 * j) = (v j).re := by unfold compOf; rw [if_pos (by omega), show 2 * (j : Nat) / 2 = j by omega]
  have c2 : compOf v (2 * j + 1) = (v j).im := by unfold compOf; rw [if_neg (by omega), show (2 * (j : Nat) + 1) / 2 = j by omega]
  rw [c1, c2, show 2 * ((j : Nat) + 1) + 1 = 2 * j + 1 + 2 by omega, show 2 * ((j : Nat) + 1) = 2 * j + 2 by omega]
  ring

/-! ## The code computes these derivatives -/

theorem env_ok {G : ParGlob} (hG : ParOK G) (para : Nat → ℂ) : GrnOK (G.env para) where
  hq := hG.hq
  tab := hG.tab
  skew := fun k hk => by
    have := C28_skew G.Q G.cs G.cc G.ss (fun k => para (G.oSlater + k)) _ (List.Perm.refl _) G.slt0 k hk
    rw [hG.hQ] at this
    exact this

/-- the derivatives do not depend on the order of the electrons -/
theorem logD_order {G : ParGlob} (hG : ParOK G) (para : Nat → ℂ) {l : List Nat} (hn : l.Nodup) (hM : ∀ z ∈ l, z < 2 * G.p.Nsite) :
    logD G para l = logD G para ((confOf l hM).1.sort (· ≤ ·)) := by
  have key : ∀ q, psi (G.env q) l = (-1) ^ inversions l * psi (G.env q) ((confOf l hM).1.sort (· ≤ ·)) := by
    intro q
    have := anti_conf (psi_anti (env_ok hG q)) hn hM
    rw [this]
    simp only [stateOn, if_true]
    rfl
  funext k
  unfold logD
  simp only [key]
  split_ifs
  all_goals first | rfl | skip
  all_goals
    rw [deriv_const_mul_field, mul_div_mul_left _ _ (by simp)]

/-- what the code stores is the derivative -/
theorem logD_code {G : ParGlob} (hG : ParOK G) (hOrb : OrbOK G.Q G.Q.Nsite) (para : Nat → ℂ) (c : EleCfg) (ip : ℂ) (projCnt : Arr)
    (rbmCnt : Nat → ℂ) (hs : Sampled (G.env para) c ip projCnt rbmCnt) (h0 : psi (G.env para) (szList (G.env para) c) ≠ 0)
    (hc : G.flagRBM = true → ∀ h < G.rbm.nNeuron, Complex.cosh (makeRBMCnt (G.rbmOf para) c.num (h + G.rbm.nPhys)) ≠ 0)
    (tevs : List (Nat × (Nat × Int)))
    (ht : tevs.Perm ((List.range (G.Q.nMP * G.Q.nOpt)).flatMap (tableStores G.Q (2 * G.p.Ne) c.idx))) (t0 : Nat → Nat × Int) (evs : List (Nat × ℂ))
    (hp : evs.Perm ((List.range G.Q.nFull).flatMap (diffAdds G.Q G.p.Ne G.cs G.cc G.ss G.st.pfM G.st.invM (runStores tevs t0)))) (out : Nat → ℂ)
    {k : Nat} (hk : k < 2 * G.oOpt + 2) :
    srOptO G para (runAdds evs (fun _ => 0)) ip projCnt rbmCnt c.num out k = logD G para (szList (G.env para) c) k := by
  by_cases hk0 : k = 0
  · subst hk0
    rw [(C29_constant G para _ ip projCnt rbmCnt c.num out).1]; simp [logD]
  by_cases hk1 : k = 1
  · subst hk1
    rw [(C29_constant G para _ ip projCnt rbmCnt c.num out).2]; simp [logD]
  have hJ : k / 2 - 1 < G.oOpt := by omega
  have h1 := C29_logderiv G hG hOrb para c ip projCnt rbmCnt hs hc tevs ht t0 evs hp out (k / 2 - 1) hJ
  have h2 := logD_hasDeriv G para h0 hJ
  unfold LogDeriv at h1
  simp only [Function.update_eq_self] at h1
  rcases Nat.mod_two_eq_zero_or_one k with hm | hm
  · have e : 2 * (k / 2 - 1 + 1) = k := by omega
    rw [e] at h1 h2
    exact mul_right_cancel₀ h0 (h1.1.unique h2.1)
  · have e : 2 * (k / 2 - 1 + 1) + 1 = k := by omega
    rw [e] at h1 h2
    exact mul_right_cancel₀ h0 (h1.2.unique h2.2)

/-- the family of C76 -/
theorem fam_step {G : ParGlob} (hG : ParOK G) (para : Nat → ℂ) (ls : Nat → Int) (ex : Int)
    (hz : ∀ S : Conf (2 * (G.env para).p.Nsite), szSector (G.env para) ls S → psi (G.env para) (S.1.sort (· ≤ ·)) ≠ 0) :
    StepFamily (G.env para) ls ex (famOf G para) para (2 * G.oOpt) (logD G para) where
  here := fun S _ => by unfold famOf; rw [parOf_self]
  cont := fun S _ => fam_cont G para _
  deriv := fun S hS v => fam_deriv G para (hz S hS) v
  one := fun S _ => by simp [logD]
  order := fun c _ => logD_order hG para (placed_sz (g := G.env para) (c := c.1) c.2).nodup (placed_sz (g := G.env para) (c := c.1) c.2).range

end MVMC
