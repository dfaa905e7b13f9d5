import Verif.Proof.RBMDiff
import Verif.Proof.LocGrn
import Verif.Proof.LocGrnFsz

/-! The vector of logarithmic derivatives. -/
namespace MVMC
open MVMC.Spec Finset

/-! ### logarithmic derivatives -/

theorem logDeriv_of_holo {F : ℂ → ℂ} {z o : ℂ} (h : HasDerivAt F (o * F z) z) (u : ℂ) : LogDeriv F z u (u * o) := by
  unfold LogDeriv
  have line : HasDerivAt (fun t : ℝ => z + (t : ℂ) * u) u 0 := by
    have := ((Complex.ofRealCLM.hasDerivAt (x := (0 : ℝ))).mul_const u).const_add z
    simpa using this
  have h' : HasDerivAt F (o * F z) (z + ((0 : ℝ) : ℂ) * u) := by simpa using h
  refine (h'.comp (0 : ℝ) line).congr_deriv ?_
  ring

theorem logDeriv_mul {F H : ℂ → ℂ} {z u a b : ℂ} (hF : LogDeriv F z u a) (hH : LogDeriv H z u b) :
    LogDeriv (fun z => F z * H z) z u (a + b) := by
  unfold LogDeriv at *
  refine (HasDerivAt.mul hF hH).congr_deriv ?_
  simp only [Complex.ofReal_zero, zero_mul, add_zero]
  ring

theorem logDeriv_const {F : ℂ → ℂ} {z : ℂ} (h : ∀ x, F x = F z) (u : ℂ) : LogDeriv F z u 0 := by
  unfold LogDeriv
  have : (fun t : ℝ => F (z + t * u)) = fun _ => F z := by funext t; exact h _
  rw [this]
  simpa using hasDerivAt_const (0 : ℝ) (F z)

theorem logDeriv_congr {F H : ℂ → ℂ} {z u a b : ℂ} (h : LogDeriv F z u a) (e : ∀ x, H x = F x) (hab : b = a) : LogDeriv H z u b := by
  have : H = F := funext e
  rw [this, hab]; exact h

/-! ### the correlation factor -/

theorem projSpec_sum {q : ProjPar} (ht : TabOK q) {num : Arr} (hb : Bin q num) (Proj : Nat → ℂ) :
    projSpec q Proj num = Real.exp (∑ i ∈ range q.NProj, (Proj i).re * ((makeProjCnt q num i : Int) : ℝ)) := by
  rw [projSpec_eq ht hb]
  unfold logProjVal
  rw [foldl_sum_real]

theorem proj_logDeriv {q : ProjPar} (ht : TabOK q) {num : Arr} (hb : Bin q num) (Para : Nat → ℂ) (J : Nat) (u : ℂ) :
    LogDeriv (fun z => ((projSpec q (Function.update Para J z) num : ℝ) : ℂ)) (Para J) u
      (if J < q.NProj then (u.re : ℂ) * ((makeProjCnt q num J : Int) : ℂ) else 0) := by
  by_cases hJ : J < q.NProj
  · rw [if_pos hJ]
    have hd : HasDerivAt (fun t : ℝ => ∑ i ∈ range q.NProj, (Function.update Para J (Para J + t * u) i).re * ((makeProjCnt q num i : Int) : ℝ))
        (u.re * ((makeProjCnt q num J : Int) : ℝ)) 0 := by
      have each : ∀ i ∈ range q.NProj, HasDerivAt (fun t : ℝ => (Function.update Para J (Para J + t * u) i).re * ((makeProjCnt q num i : Int) : ℝ))
          (if i = J then u.re * ((makeProjCnt q num i : Int) : ℝ) else 0) 0 := by
        intro i _
        by_cases h : i = J
        · subst h
          simp only [Function.update_self, if_true, Complex.add_re, Complex.re_ofReal_mul]
          have := (((hasDerivAt_id (0 : ℝ)).mul_const u.re).const_add (Para i).re).mul_const ((makeProjCnt q num i : Int) : ℝ)
          simpa using this
        · simp only [Function.update_of_ne h, if_neg h]
          exact hasDerivAt_const _ _
      refine (HasDerivAt.fun_sum each).congr_deriv ?_
      rw [sum_ite_eq', if_pos (mem_range.mpr hJ)]
    unfold LogDeriv
    have := hd.exp.ofReal_comp
    have e : (fun t : ℝ => ((projSpec q (Function.update Para J (Para J + t * u)) num : ℝ) : ℂ))
        = fun t : ℝ => ((Real.exp (∑ i ∈ range q.NProj, (Function.update Para J (Para J + t * u) i).re * ((makeProjCnt q num i : Int) : ℝ)) : ℝ) : ℂ) := by
      funext t
      rw [projSpec_sum ht hb]
    rw [e]
    refine this.congr_deriv ?_
    simp only [Complex.ofReal_zero, zero_mul, add_zero]
    rw [projSpec_sum ht hb]
    push_cast
    ring
  · rw [if_neg hJ]
    refine logDeriv_const (fun x => ?_) u
    beta_reduce
    rw [projSpec_sum ht hb, projSpec_sum ht hb]
    congr 2
    refine sum_congr rfl (fun i hi => ?_)
    have : i ≠ J := by have := mem_range.mp hi; omega
    rw [Function.update_of_ne this, Function.update_of_ne this]

/-! ### the Boltzmann machine -/

/-- what `RBMDiff` reports for parameter `j`, and zero for other numbers -/
noncomputable def rbmLog (p : RBMPar ℂ) (num : Arr) (j : Nat) : ℂ :=
  (if j < p.nPhys then makeRBMCnt p num j else 0) + rbmGroups p (makeRBMCnt p num) num j

theorem rbmLog_out {p : RBMPar ℂ} (hx : RBMIdx p) (num : Arr) {j : Nat} (hj : p.nRBM ≤ j) : rbmLog p num j = 0 := by
  unfold rbmLog
  rw [groups_out hx _ _ hj, if_neg, add_zero]
  have : p.nHid + p.nPhys + (p.nCX + p.nSX + p.nGX) ≤ j := hj
  omega

theorem rbm_logDeriv {p : RBMPar ℂ} (ht : RBMTab p) (hf : RBMFull p) (num : Arr) (Para : Nat → ℂ) (off : Nat)
    (hpar : p.par = fun i => Para (off + i))
    (hc : ∀ h < p.nNeuron, Complex.cosh (makeRBMCnt p num (h + p.nPhys)) ≠ 0) (J : Nat) (u : ℂ) :
    LogDeriv (fun z => rbmSpec (p.setPar (fun i => Function.update Para J z (off + i))) num) (Para J) u
      (if off ≤ J then u * rbmLog p num (J - off) else 0) := by
  by_cases hJ : off ≤ J
  · rw [if_pos hJ]
    have e : ∀ z, p.setPar (fun i => Function.update Para J z (off + i)) = p.setPar (Function.update p.par (J - off) z) := by
      intro z
      congr 1
      funext i
      by_cases h : i = J - off
      · subst h
        rw [show off + (J - off) = J by omega]
        simp
      · rw [Function.update_of_ne h, Function.update_of_ne (by omega), hpar]
    have d := rbmSpec_deriv ht num hc (J - off)
    rw [groups_eq ht hf] at d
    have hz : p.par (J - off) = Para J := by
      rw [hpar]
      beta_reduce
      rw [show off + (J - off) = J by omega]
    rw [hz] at d
    have h0 : p.setPar (Function.update p.par (J - off) (Para J)) = p := by
      rw [← hz, Function.update_eq_self]; rfl
    have d' : HasDerivAt (fun z => rbmSpec (p.setPar (Function.update p.par (J - off) z)) num)
      (rbmLog p num (J - off) * rbmSpec (p.setPar (Function.update p.par (J - off) (Para J))) num) (Para J) := by
      rw [h0]; exact d
    exact logDeriv_congr (logDeriv_of_holo d' u) (fun z => by rw [e z]) rfl
  · rw [if_neg hJ]
    refine logDeriv_const (fun x => ?_) u
    have : ∀ z, (fun i => Function.update Para J z (off + i)) = fun i => Para (off + i) := by
      intro z
      funext i
      rw [Function.update_of_ne (by omega)]
    simp only [this]

/-! ### the whole state -/

/-- requirements on the data -/
structure ParOK (G : ParGlob) : Prop where
  hN : 0 < G.p.Nsite
  hq : G.q.Nsite = G.p.Nsite
  hQ : G.Q.Nsite = G.p.Nsite
  tab : TabOK G.q
  tr : TransOK G.Q
  opt : G.flagOpt = false → G.Q.nOpt = 1
  noRBM : G.flagRBM = false → G.rbm.nRBM = 0
  rN : G.flagRBM = true → G.rbm.Nsite = G.p.Nsite
  rTab : G.flagRBM = true → RBMTab G.rbm
  rIdx : G.flagRBM = true → RBMIdx G.rbm

theorem RBMIdx.full {p : RBMPar ℂ} (h : RBMIdx p) (hN : 0 < p.Nsite) : RBMFull p where
  c := fun h0 => ⟨Nat.lt_of_le_of_lt (Nat.zero_le _) (h.cH 0 h0), Nat.lt_of_le_of_lt (Nat.zero_le _) (h.cX 0 h0 0 hN)⟩
  s := fun h0 => ⟨Nat.lt_of_le_of_lt (Nat.zero_le _) (h.sH 0 h0), Nat.lt_of_le_of_lt (Nat.zero_le _) (h.sX 0 h0 0 hN)⟩
  g := fun h0 => ⟨Nat.lt_of_le_of_lt (Nat.zero_le _) (h.gH 0 h0), Nat.lt_of_le_of_lt (Nat.zero_le _) (h.gX 0 h0 0 (by omega))⟩

/-- with the current parameters -/
def ParGlob.rbmOf (G : ParGlob) (Para : Nat → ℂ) : RBMPar ℂ := { G.rbm with par := fun i => Para (G.q.NProj + i) }

/-- logarithmic derivative of the occupation-only factors -/
noncomputable def corrLog (G : ParGlob) (Para : Nat → ℂ) (num : Arr) (J : Nat) (u : ℂ) : ℂ :=
  (if J < G.q.NProj then (u.re : ℂ) * ((makeProjCnt G.q num J : Int) : ℂ) else 0)
  + if G.flagRBM then (if G.q.NProj ≤ J then u * rbmLog (G.rbmOf Para) num (J - G.q.NProj) else 0) else 0

theorem psi_logDeriv {G : ParGlob} (hG : ParOK G) (Para : Nat → ℂ) (J : Nat) (u : ℂ) (slt : ℂ → Nat → ℂ) {n : Nat} {rs : Nat → Nat} {num : Arr}
    (hpl : Placed n (2 * G.p.Nsite) rs num)
    (hc : G.flagRBM = true → ∀ h < G.rbm.nNeuron, Complex.cosh (makeRBMCnt (G.rbmOf Para) num (h + G.rbm.nPhys)) ≠ 0) {a : ℂ}
    (hA : LogDeriv (fun z => amplitude n (2 * G.p.Nsite) (slt z) (qpFullWeight G.Q G.flagOpt (fun i => Function.update Para J z (G.oOpt + i)) G.fix G.w0)
      0 G.Q.nFull rs) (Para J) u a) :
    LogDeriv (fun z => psi (G.envWith (Function.update Para J z) (slt z)) (occList n rs)) (Para J) u (corrLog G Para num J u + a) := by
  have hb : Bin2 (2 * G.q.Nsite) (occupation (occList n rs)) := by
    intro x hx
    rw [hG.hq] at hx
    rw [hpl.occupation hx]
    exact hpl.bin x hx
  have hcP : makeProjCnt G.q (occupation (occList n rs)) = makeProjCnt G.q num :=
    funext (makeProj_congr hG.tab hb (fun x hx => hpl.occupation (by rw [← hG.hq]; exact hx)))
  have hP := proj_logDeriv hG.tab (bin_of_bin2 hb) Para J u
  rw [hcP] at hP
  have hR : LogDeriv (fun z => if G.flagRBM then rbmSpec ((G.rbmOf Para).setPar (fun i => Function.update Para J z (G.q.NProj + i))) (occupation (occList n rs)) else 1)
      (Para J) u (if G.flagRBM then (if G.q.NProj ≤ J then u * rbmLog (G.rbmOf Para) num (J - G.q.NProj) else 0) else 0) := by
    cases hf : G.flagRBM with
    | false => exact logDeriv_const (fun _ => rfl) u
    | true =>
      simp only [if_true]
      have hcR : ∀ k, makeRBMCnt (G.rbmOf Para) (occupation (occList n rs)) k = makeRBMCnt (G.rbmOf Para) num k :=
        makeRBM_congr (fun x hx => hpl.occupation (by rw [← hG.rN hf]; exact hx))
      have rT : RBMTab (G.rbmOf Para) := ⟨(hG.rTab hf).cP, (hG.rTab hf).sP, (hG.rTab hf).gP⟩
      have rI : RBMIdx (G.rbmOf Para) := ⟨(hG.rIdx hf).cH, (hG.rIdx hf).sH, (hG.rIdx hf).gH, (hG.rIdx hf).cX, (hG.rIdx hf).sX, (hG.rIdx hf).gX⟩
      have rN : (G.rbmOf Para).Nsite = G.p.Nsite := hG.rN hf
      have d := rbm_logDeriv rT (rI.full (by rw [rN]; exact hG.hN)) (occupation (occList n rs)) Para G.q.NProj rfl
        (fun h hh => by rw [hcR]; exact hc hf h hh) J u
      refine logDeriv_congr d (fun _ => rfl) ?_
      split_ifs
      · congr 1
        have hnum : ∀ x, x < 2 * (G.rbmOf Para).Nsite → occupation (occList n rs) x = num x := fun x hx => hpl.occupation (by rw [← rN]; exact hx)
        unfold rbmLog rbmGroups
        rw [funext hcR]
        congr 1
        congr 1
        · congr 1
          · refine sum_congr rfl (fun h _ => ?_)
            congr 2
            exact sum_congr rfl (fun r hr => by
              have := mem_range.mp hr
              rw [hnum r (by omega), hnum (r + (G.rbmOf Para).Nsite) (by omega)])
          · refine sum_congr rfl (fun h _ => ?_)
            congr 2
            exact sum_congr rfl (fun r hr => by
              have := mem_range.mp hr
              rw [hnum r (by omega), hnum (r + (G.rbmOf Para).Nsite) (by omega)])
        · refine sum_congr rfl (fun h _ => ?_)
          congr 2
          exact sum_congr rfl (fun r hr => by
            have := mem_range.mp hr
            rw [hnum r (by omega)])
      · rfl
  exact logDeriv_congr (logDeriv_mul (logDeriv_mul hP hR) hA) (fun z => rfl) rfl

/-! ### the vector -/

theorem atOffset_ge {β : Type} (off : Nat) (f : (Nat → β) → Nat → β) (a : Nat → β) (k : Nat) :
    atOffset off f a (off + k) = f (fun j => a (off + j)) k := by
  unfold atOffset
  rw [if_neg (by omega), show off + k - off = k by omega]

theorem atOffset_lt {β : Type} {off : Nat} (f : (Nat → β) → Nat → β) (a : Nat → β) {k : Nat} (h : k < off) : atOffset off f a k = a k := by
  unfold atOffset; rw [if_pos h]

theorem srOptOProj_val (q : ProjPar) (projCnt : Arr) (out : Nat → ℂ) (k : Nat) :
    srOptOProj q projCnt out k = if k < 2 * (q.NProj + 1) then (if k % 2 = 0 then (if k = 0 then 1 else ((projCnt (k / 2 - 1) : Int) : ℂ)) else 0) else out k := by
  have h := pairStores (fun i => if i = 0 then (1 : ℂ) else ((projCnt (i - 1) : Int) : ℂ)) (fun _ => 0) out (q.NProj + 1) k
  have e : (List.range (q.NProj + 1)).flatMap (fun i => [(2 * i, if i = 0 then (1 : ℂ) else ((projCnt (i - 1) : Int) : ℂ)), (2 * i + 1, 0)])
      = [(0, 1), (1, 0)] ++ (List.range q.NProj).flatMap fun i => [((i + 1) * 2, ((projCnt i : Int) : ℂ)), ((i + 1) * 2 + 1, 0)] := by
    rw [List.range_succ_eq_map, List.flatMap_cons, List.flatMap_map]
    congr 1
    refine List.flatMap_congr (fun i _ => ?_)
    simp only [Nat.succ_eq_add_one]
    rw [if_neg (by omega), Nat.mul_comm 2 (i + 1), show i + 1 - 1 = i by omega]
  unfold srOptOProj
  rw [← e, h]
  by_cases h0 : k = 0
  · subst h0; simp
  · by_cases h1 : k < 2 * (q.NProj + 1)
    · rw [if_pos h1, if_pos h1]
      by_cases h2 : k % 2 = 0
      · rw [if_pos h2, if_pos h2, if_neg h0, if_neg (by omega)]
      · rw [if_neg h2, if_neg h2]
    · rw [if_neg h1, if_neg h1]

section sz
variable {G : ParGlob} (hG : ParOK G) (Para : Nat → ℂ) (buf : Nat → ℂ) (ip : ℂ) (projCnt : Arr) (rbmCnt : Nat → ℂ) (num : Arr) (out : Nat → ℂ)

/-- constant and correlation entries -/
theorem srOptO_lo {k : Nat} (hk : k < 2 * G.q.NProj + 2) : srOptO G Para buf ip projCnt rbmCnt num out k = srOptOProj G.q projCnt out k := by
  unfold srOptO
  have l1 : ∀ a : Nat → ℂ, atOffset (2 * G.q.NProj + 2 * G.rbm.nRBM + 2) (diffStore G.Q (G.env Para).w buf ip) a k = a k :=
    fun a => atOffset_lt _ a (by omega)
  have l2 : ∀ a : Nat → ℂ, atOffset (2 * G.q.NProj + 2) (rbmDiff (G.env Para).rbm rbmCnt num) a k = a k := fun a => atOffset_lt _ a (by omega)
  have l3 : ∀ a : Nat → ℂ, atOffset (2 * G.q.NProj + 2 * G.nR + 2 * G.Q.nSlater + 2) (optTransDiff G.Q G.fix G.st.pfM ip) a k = a k :=
    fun a => atOffset_lt _ a (by omega)
  split_ifs <;> simp only [l1, l2, l3]

theorem srOptO_rbm (hf : G.flagRBM = true) {k : Nat} (hk : k < 2 * G.rbm.nRBM) :
    ∃ o, srOptO G Para buf ip projCnt rbmCnt num out (2 * G.q.NProj + 2 + k) = rbmDiff (G.rbmOf Para) rbmCnt num o k := by
  have hR : G.nR = G.rbm.nRBM := by unfold ParGlob.nR; rw [if_pos hf]
  unfold srOptO
  simp only [hf, if_true]
  have l1 : ∀ a : Nat → ℂ, atOffset (2 * G.q.NProj + 2 * G.rbm.nRBM + 2) (diffStore G.Q (G.env Para).w buf ip) a (2 * G.q.NProj + 2 + k)
      = a (2 * G.q.NProj + 2 + k) := fun a => atOffset_lt _ a (by omega)
  have l3 : ∀ a : Nat → ℂ, atOffset (2 * G.q.NProj + 2 * G.nR + 2 * G.Q.nSlater + 2) (optTransDiff G.Q G.fix G.st.pfM ip) a (2 * G.q.NProj + 2 + k)
      = a (2 * G.q.NProj + 2 + k) := fun a => atOffset_lt _ a (by omega)
  split_ifs
  · rw [l3, l1, atOffset_ge]; exact ⟨_, rfl⟩
  · rw [l1, atOffset_ge]; exact ⟨_, rfl⟩

include hG in
theorem nR_eq : G.nR = G.rbm.nRBM := by
  unfold ParGlob.nR
  cases hf : G.flagRBM with
  | true => simp
  | false => simp [hG.noRBM hf]

include hG in
theorem srOptO_slater {k : Nat} (hk : k < 2 * G.Q.nSlater) :
    ∃ o, srOptO G Para buf ip projCnt rbmCnt num out (2 * G.oSlater + 2 + k) = diffStore G.Q (G.env Para).w buf ip o k := by
  have e : 2 * G.oSlater + 2 = 2 * G.q.NProj + 2 * G.rbm.nRBM + 2 := by unfold ParGlob.oSlater; rw [nR_eq hG]; omega
  unfold srOptO
  have l3 : ∀ a : Nat → ℂ, atOffset (2 * G.q.NProj + 2 * G.nR + 2 * G.Q.nSlater + 2) (optTransDiff G.Q G.fix G.st.pfM ip) a (2 * G.oSlater + 2 + k)
      = a (2 * G.oSlater + 2 + k) := fun a => atOffset_lt _ a (by unfold ParGlob.oSlater; omega)
  split_ifs
  · rw [l3, e, atOffset_ge]; exact ⟨_, rfl⟩
  · rw [l3, e, atOffset_ge]; exact ⟨_, rfl⟩
  · rw [e, atOffset_ge]; exact ⟨_, rfl⟩
  · rw [e, atOffset_ge]; exact ⟨_, rfl⟩

theorem srOptO_opt (hf : G.flagOpt = true) (k : Nat) :
    ∃ o, srOptO G Para buf ip projCnt rbmCnt num out (2 * G.oOpt + 2 + k) = optTransDiff G.Q G.fix G.st.pfM ip o k := by
  have e : 2 * G.oOpt + 2 = 2 * G.q.NProj + 2 * G.nR + 2 * G.Q.nSlater + 2 := by unfold ParGlob.oOpt ParGlob.oSlater; omega
  unfold srOptO
  simp only [hf, if_true]
  rw [e, atOffset_ge]
  exact ⟨_, rfl⟩

end sz

/-! ### the amplitude -/

theorem update_shift (Para : Nat → ℂ) (off k : Nat) (z : ℂ) :
    (fun i => Function.update Para (off + k) z (off + i)) = Function.update (fun i => Para (off + i)) k z := by
  funext i
  by_cases h : i = k
  · subst h; simp
  · rw [Function.update_of_ne h, Function.update_of_ne (by omega)]

theorem update_other (Para : Nat → ℂ) (off J : Nat) (z : ℂ) (h : J < off) : (fun i => Function.update Para J z (off + i)) = fun i => Para (off + i) := by
  funext i
  rw [Function.update_of_ne (by omega)]

theorem cons_onsites {ne N : Nat} {c : EleCfg} (h : Consistent ne N c.idx c.cfg c.num) : OnSites (2 * ne) N c.idx := by
  intro i hi
  by_cases h1 : i < ne
  · obtain ⟨r, hr, e, _⟩ := h.1 0 (by omega) i h1
    rw [Nat.zero_mul, Nat.add_zero] at e
    omega
  · obtain ⟨r, hr, e, _⟩ := h.1 1 (by omega) (i - ne) (by omega)
    rw [show i - ne + 1 * ne = i by omega] at e
    omega

theorem consF_onsites {n N : Nat} {c : FCfg} (h : ConsistentF n N c.idx c.spn c.cfg c.num) : OnSites n N c.idx ∧ Spins n c.spn := by
  constructor
  · intro i hi
    obtain ⟨r, h1, s, h2, h3, h4, h5⟩ := h.1 i hi
    omega
  · intro i hi
    obtain ⟨r, h1, s, h2, h3, h4, h5⟩ := h.1 i hi
    rcases (show s = 0 ∨ s = 1 by omega) with rfl | rfl
    · left; rw [h4]; rfl
    · right; rw [h4]; rfl

/-- entries of the pair matrix depend only on the parameters in the tables -/
theorem pairP_congr {Q : QPPar} (hOrb : OrbOK Q Q.Nsite) (hTr : TransOK Q) {cs cc ss S S' : Nat → ℂ} (h : ∀ k, k < Q.nSlater → S k = S' k)
    (q x y : Nat) (hx : x < 2 * Q.Nsite) : pairP Q cs cc ss S q x y = pairP Q cs cc ss S' q x y := by
  have hN : 0 < Q.Nsite := by omega
  unfold pairP translated
  rw [h _ (hOrb _ (hTr _ _ _ (Nat.mod_lt _ hN)) _ (hTr _ _ _ (Nat.mod_lt _ hN)))]

theorem pairF_congr {Q : QPPar} (hOrb : OrbOK Q (2 * Q.Nsite)) (hTr : TransOK Q) {S S' : Nat → ℂ} (h : ∀ k, k < Q.nSlater → S k = S' k)
    (q x y : Nat) (hx : x < 2 * Q.Nsite) (hy : y < 2 * Q.Nsite) : pairF Q S q x y = pairF Q S' q x y := by
  have hN : 0 < Q.Nsite := by omega
  have r : ∀ o m z, z < 2 * Q.Nsite → Q.tr o m (z % Q.Nsite) + z / Q.Nsite * Q.Nsite < 2 * Q.Nsite := by
    intro o m z hz
    have h1 := hTr o m (z % Q.Nsite) (Nat.mod_lt _ hN)
    have h2 : z / Q.Nsite ≤ 1 := by
      have : z / Q.Nsite < 2 := Nat.div_lt_of_lt_mul (by omega)
      omega
    have h3 := Nat.mul_le_mul_right Q.Nsite h2
    omega
  unfold pairF
  rw [h _ (hOrb _ (r _ _ x hx) _ (r _ _ y hy))]

/-- the weights -/
theorem qpFull_opt {Q : QPPar} {optT fix old : Nat → ℂ} {i j : Nat} (hi : i < Q.nOpt) (hj : j < Q.nFix) :
    qpFullWeight Q true optT fix old (i * Q.nFix + j) = optT i * fix j := by
  unfold qpFullWeight
  simp only [if_true]
  refine runStores_mem _ old ?_ (i * Q.nFix + j, optT i * fix j) ?_
  · intro e he e' he' h
    simp only [List.mem_flatMap, List.mem_map, List.mem_range] at he he'
    obtain ⟨a, _, b, hb, rfl⟩ := he
    obtain ⟨c, _, d, hd, rfl⟩ := he'
    obtain ⟨rfl, rfl⟩ := flat2_inj hb hd h
    rfl
  · simp only [List.mem_flatMap, List.mem_map, List.mem_range]
    exact ⟨i, hi, j, hj, rfl⟩

theorem qpFull_fix {Q : QPPar} {optT fix old : Nat → ℂ} {j : Nat} (hj : j < Q.nFix) : qpFullWeight Q false optT fix old j = fix j := by
  unfold qpFullWeight
  simp only [Bool.false_eq_true, if_false]
  refine runStores_mem _ old ?_ (j, fix j) ?_
  · intro e he e' he' h
    simp only [List.mem_map, List.mem_range] at he he'
    obtain ⟨b, hb, rfl⟩ := he
    obtain ⟨d, hd, rfl⟩ := he'
    have h : b = d := h
    subst h; rfl
  · simp only [List.mem_map, List.mem_range]
    exact ⟨j, hj, rfl⟩

theorem sum_blockC (f : Nat → ℂ) (c N : Nat) : ∑ k ∈ range (c * N), f k = ∑ d ∈ range c, ∑ x ∈ range N, f (d * N + x) := by
  induction c with
  | zero => simp
  | succ c ih => rw [Nat.add_mul, Nat.one_mul, sum_range_add, ih, sum_range_succ]

/-- the amplitude is linear in the weights of the optional translations -/
theorem amp_opt_deriv {Q : QPPar} {n N2 : Nat} {slt optT fix old : Nat → ℂ} {rs : Nat → Nat} {pfM invM : Nat → ℂ} {i : Nat} (hi : i < Q.nOpt)
    (hpf : PfOK n N2 slt 0 Q.nFull rs pfM invM) :
    HasDerivAt (fun z => amplitude n N2 slt (qpFullWeight Q true (Function.update optT i z) fix old) 0 Q.nFull rs)
      (∑ j ∈ range Q.nFix, fix j * pfM (i * Q.nFix + j)) (optT i) := by
  have e : (fun z => amplitude n N2 slt (qpFullWeight Q true (Function.update optT i z) fix old) 0 Q.nFull rs)
      = fun z => ∑ o ∈ range Q.nOpt, ∑ j ∈ range Q.nFix, Function.update optT i z o * (fix j * pfM (o * Q.nFix + j)) := by
    funext z
    unfold amplitude
    have := sum_blockC (fun q => qpFullWeight Q true (Function.update optT i z) fix old q * pfM q) Q.nOpt Q.nFix
    rw [show Q.nFull = Q.nOpt * Q.nFix from Nat.mul_comm _ _]
    refine Eq.trans (sum_congr rfl (fun q hq => ?_)) (this.trans ?_)
    · have hq := mem_range.mp hq
      rw [(hpf q (by rw [show Q.nFull = Q.nOpt * Q.nFix from Nat.mul_comm _ _]; exact hq)).1]
      simp
    · refine sum_congr rfl (fun o ho => sum_congr rfl (fun j hj => ?_))
      rw [qpFull_opt (mem_range.mp ho) (mem_range.mp hj)]
      ring
  rw [e]
  have d := HasDerivAt.fun_sum (u := range Q.nOpt) (fun o _ => HasDerivAt.fun_sum (u := range Q.nFix)
    (fun j _ => update_deriv optT i o (fix j * pfM (o * Q.nFix + j)) (optT i)))
  refine d.congr_deriv ?_
  have : ∀ o ∈ range Q.nOpt, ∑ j ∈ range Q.nFix, (if o = i then fix j * pfM (o * Q.nFix + j) else 0)
      = if o = i then ∑ j ∈ range Q.nFix, fix j * pfM (i * Q.nFix + j) else 0 := by
    intro o _
    by_cases h : o = i
    · subst h; simp
    · simp [h]
  rw [sum_congr rfl this, sum_ite_eq', if_pos (mem_range.mpr hi)]

end MVMC
