import Verif.Proof.SpinCharge
import Verif.Proof.Gauss3
import Verif.Props.Slater

/-! The wave function of the program is a quadrature of the spin projection. -/
namespace MVMC
open MVMC.Spec Finset

/-- the coefficient of a pair of translations -/
noncomputable def transCoef (G : ParGlob) (Para paraQP : Nat → ℂ) (o m : Nat) : ℂ :=
  (if G.flagOpt then Para (G.oOpt + o) else 1) * paraQP m

/-- the pair function of a pair of translations -/
noncomputable def transPair (G : ParGlob) (Para : Nat → ℂ) (o m : Nat) : Nat → Nat → ℂ :=
  translated (fun k => Para (G.oSlater + k)) G.Q.orbIdx G.Q.orbSgn (G.Q.tr o m) (G.Q.sg o m)

/-- the integrand -/
noncomputable def quadTerm (G : ParGlob) (Para paraQP : Nat → ℂ) (S : Nat) (β : ℝ) (l : List Nat) : ℂ :=
  ∑ o ∈ range G.Q.nOpt, ∑ m ∈ range G.Q.nMP, transCoef G Para paraQP o m * ((spinW S β : ℂ) * pf (rotC G.Q.Nsite (transPair G Para o m) β) l)

theorem sum_triples (Q : QPPar) (hs : 0 < Q.nSP) (hm : 0 < Q.nMP) (g : Nat → Nat → Nat → ℂ) :
    ∑ q ∈ range Q.nFull, g (Q.spidx q) (Q.mpidx q) (Q.optidx q) = ∑ i ∈ range Q.nSP, ∑ o ∈ range Q.nOpt, ∑ m ∈ range Q.nMP, g i m o := by
  have h : ∀ i, ∑ o ∈ range Q.nOpt, ∑ m ∈ range Q.nMP, g i m o = ∑ t ∈ range Q.nOpt ×ˢ range Q.nMP, g i t.2 t.1 := fun i =>
    (Finset.sum_product _ _ (fun t : Nat × Nat => g i t.2 t.1)).symm
  simp only [h]
  rw [← Finset.sum_product (range Q.nSP) (range Q.nOpt ×ˢ range Q.nMP) (fun t : Nat × Nat × Nat => g t.1 t.2.2 t.2.1)]
  obtain ⟨h1, h2⟩ := C46_triples Q hs hm
  refine Finset.sum_nbij' (fun q => (Q.spidx q, Q.optidx q, Q.mpidx q)) (fun t => t.1 + t.2.2 * Q.nSP + t.2.1 * Q.nFix) ?_ ?_ ?_ ?_ ?_
  · intro q hq
    obtain ⟨a, b, c, _⟩ := h1 q (mem_range.mp hq)
    simp only [mem_product, mem_range]; exact ⟨a, c, b⟩
  · intro t ht
    simp only [mem_product, mem_range] at ht
    exact mem_range.mpr (h2 _ ht.1 _ ht.2.2 _ ht.2.1).1
  · intro q hq; exact (h1 q (mem_range.mp hq)).2.2.2.symm
  · intro t ht
    simp only [mem_product, mem_range] at ht
    obtain ⟨_, b, c, d⟩ := h2 _ ht.1 _ ht.2.2 _ ht.2.1
    rw [b, c, d]
  · intro q _; rfl

section code
variable (G : ParGlob) (Para paraQP : Nat → ℂ) (hN : G.p.Nsite = G.Q.Nsite) (hm : 0 < G.Q.nMP) (hO : G.flagOpt = false → G.Q.nOpt = 1)
include hN hm hO

/-- the amplitude in terms of the tables of `InitQPWeight` -/
theorem psi_tables {n : Nat} (hn : 0 < n) (q : SpinQuad) (h1 : ∀ i, q.cs i = q.co i * q.si i) (h2 : ∀ i, q.cc i = q.co i * q.co i)
    (h3 : ∀ i, q.ss i = q.si i * q.si i) {l : List Nat} (hl : IsConfig G.Q.Nsite l) :
    psi ((G.withSpin n q paraQP).env Para) l = corrSpec (G.env Para) (occupation l) *
      ∑ i ∈ range n, (q.w i : ℂ) * ∑ o ∈ range G.Q.nOpt, ∑ m ∈ range G.Q.nMP, transCoef G Para paraQP o m *
        pf (antisym (rotatedPair G.Q.Nsite (q.co i : ℂ) (q.si i : ℂ) (transPair G Para o m))) l := by
  set Q' : QPPar := { G.Q with nSP := n } with hQ'
  have e1 : psi ((G.withSpin n q paraQP).env Para) l = corrSpec (G.env Para) (occupation l) *
      ∑ k ∈ range Q'.nFull, qpFullWeight Q' G.flagOpt (fun i => Para (G.oOpt + i)) (qpFixWeight Q' (fun i => (q.w i : ℂ)) paraQP G.fix) G.w0 k *
        pf (entry (2 * G.p.Nsite) (updateSlaterElm Q' (fun i => (q.cs i : ℂ)) (fun i => (q.cc i : ℂ)) (fun i => (q.ss i : ℂ))
          (fun k => Para (G.oSlater + k)) G.slt0) k) l := rfl
  have c1 : (fun i => (q.cs i : ℂ)) = fun i => (q.co i : ℂ) * (q.si i : ℂ) := funext fun i => by rw [h1]; push_cast; rfl
  have c2 : (fun i => (q.cc i : ℂ)) = fun i => (q.co i : ℂ) * (q.co i : ℂ) := funext fun i => by rw [h2]; push_cast; rfl
  have c3 : (fun i => (q.ss i : ℂ)) = fun i => (q.si i : ℂ) * (q.si i : ℂ) := funext fun i => by rw [h3]; push_cast; rfl
  rw [e1, c1, c2, c3, hN]
  congr 1
  have key : ∀ k ∈ range Q'.nFull, qpFullWeight Q' G.flagOpt (fun i => Para (G.oOpt + i)) (qpFixWeight Q' (fun i => (q.w i : ℂ)) paraQP G.fix) G.w0 k *
        pf (entry (2 * G.Q.Nsite) (updateSlaterElm Q' (fun i => (q.co i : ℂ) * (q.si i : ℂ)) (fun i => (q.co i : ℂ) * (q.co i : ℂ))
          (fun i => (q.si i : ℂ) * (q.si i : ℂ)) (fun k => Para (G.oSlater + k)) G.slt0) k) l =
      (fun i m o => (q.w i : ℂ) * (transCoef G Para paraQP o m *
        pf (antisym (rotatedPair G.Q.Nsite (q.co i : ℂ) (q.si i : ℂ) (transPair G Para o m))) l)) (Q'.spidx k) (Q'.mpidx k) (Q'.optidx k) := by
    intro k hk
    have hk := mem_range.mp hk
    rw [C46_weight Q' hn hm G.flagOpt hO _ _ _ _ _ k hk]
    refine (congrArg _ (pf_congr (fun x hx y hy => C28_rotated_pair Q' (fun i => (q.co i : ℂ)) (fun i => (q.si i : ℂ)) (fun k => Para (G.oSlater + k)) _
      (List.Perm.refl _) G.slt0 k x y hk (hl.2 x hx) (hl.2 y hy)))).trans ?_
    show _ = (q.w _ : ℂ) * (transCoef G Para paraQP _ _ * _)
    unfold transCoef transPair
    show _ * (_ * _) * pf (antisym (rotatedPair G.Q.Nsite _ _ (translated _ G.Q.orbIdx G.Q.orbSgn (G.Q.tr _ _) (G.Q.sg _ _)))) l = _
    ring
  rw [Finset.sum_congr rfl key, sum_triples Q' hn hm (fun i m o => (q.w i : ℂ) * (transCoef G Para paraQP o m *
        pf (antisym (rotatedPair G.Q.Nsite (q.co i : ℂ) (q.si i : ℂ) (transPair G Para o m))) l))]
  refine Finset.sum_congr rfl fun i _ => ?_
  rw [Finset.mul_sum]
  exact Finset.sum_congr rfl fun o _ => by rw [Finset.mul_sum]

/-- with more than one point the amplitude is the Gauss–Legendre sum of the projection integrand -/
theorem psi_quad {n : Nat} (hn : 1 < n) {eps : ℝ} {fuel : Nat} {S : Nat} {x w : Nat → ℝ} {q : SpinQuad}
    (hq : initSpin eps fuel n S x w = some q) : ∃ b, gaussLeg 0 Real.pi eps fuel n x w = some b ∧
      (∀ i, q.co i = Real.cos (b.1 i / 2)) ∧ ∀ l, IsConfig G.Q.Nsite l →
      psi ((G.withSpin n q paraQP).env Para) l = corrSpec (G.env Para) (occupation l) *
        ∑ i ∈ range n, (b.2 i : ℂ) * quadTerm G Para paraQP S (b.1 i) l := by
  unfold initSpin at hq
  rw [if_neg (by omega)] at hq
  rcases hb : gaussLeg 0 Real.pi eps fuel n x w with _ | b
  · rw [hb] at hq; cases hq
  · rw [hb] at hq
    have hq := (Option.some.inj hq).symm
    refine ⟨b, rfl, fun i => by rw [hq]; show Real.cos (0.5 * b.1 i) = _; congr 1; ring, fun l hl => ?_⟩
    rw [psi_tables G Para paraQP hN hm hO (by omega) q (by rw [hq]; intro i; rfl) (by rw [hq]; intro i; rfl) (by rw [hq]; intro i; rfl) hl]
    congr 1
    refine Finset.sum_congr rfl fun i _ => ?_
    have ew : (q.w i : ℂ) = (b.2 i : ℂ) * (spinW S (b.1 i) : ℂ) := by
      rw [← Complex.ofReal_mul, hq]
      congr 1
      show 0.5 * Real.sin (b.1 i) * b.2 i * legendrePoly (Real.cos (b.1 i)) S = _
      rw [legendrePoly_eq]; unfold spinW; ring
    rw [ew, mul_assoc]
    congr 1
    unfold quadTerm
    rw [Finset.mul_sum]
    refine Finset.sum_congr rfl fun o _ => ?_
    rw [Finset.mul_sum]
    refine Finset.sum_congr rfl fun m _ => ?_
    rw [← rotC_real]
    unfold rotatedState
    have e1 : q.co i = Real.cos (b.1 i / 2) := by rw [hq]; show Real.cos (0.5 * b.1 i) = _; congr 1; ring
    have e2 : q.si i = Real.sin (b.1 i / 2) := by rw [hq]; show Real.sin (0.5 * b.1 i) = _; congr 1; ring
    rw [e1, e2]
    ring

end code

theorem spinSq_cr (N : Nat) : ∀ t ∈ spinSq N, CrLt (2 * N) t.2 := by
  have hlo : ∀ t ∈ spinLower N, CrLt (2 * N) t.2 := by
    intro t ht
    obtain ⟨i, hi, rfl⟩ := List.mem_map.mp ht
    have hi := List.mem_range.mp hi
    intro I hI
    simp only [List.mem_cons, List.not_mem_nil, or_false, Op.cr.injEq, reduceCtorEq] at hI
    omega
  have hp : ∀ A B : List (ℂ × List Op), (∀ t ∈ A, CrLt (2 * N) t.2) → (∀ t ∈ B, CrLt (2 * N) t.2) → ∀ t ∈ hamProd A B, CrLt (2 * N) t.2 := by
    intro A B hA hB t ht
    unfold hamProd at ht
    obtain ⟨a, ha, ht⟩ := List.mem_flatMap.mp ht
    obtain ⟨b, hb, rfl⟩ := List.mem_map.mp ht
    intro I hI
    rcases List.mem_append.mp hI with h | h
    exacts [hA a ha I h, hB b hb I h]
  intro t ht
  unfold spinSq at ht
  rcases List.mem_append.mp ht with ht | ht
  · rcases List.mem_append.mp ht with ht | ht
    · exact hp _ _ hlo (raise_cr N) t ht
    · exact hp _ _ (z_cr N) (z_cr N) t ht
  · exact z_cr N t ht

/-! ### linearity -/

theorem apply_sum {ι : Type} (s : Finset ι) (c : ι → ℂ) (F : ι → List Nat → ℂ) (A : List (ℂ × List Op)) (l : List Nat) :
    applyAdj A (fun m => ∑ i ∈ s, c i * F i m) l = ∑ i ∈ s, c i * applyAdj A (F i) l := by
  unfold applyAdj
  induction A with
  | nil => simp
  | cons t A ih =>
    simp only [List.map_cons, List.sum_cons]
    rw [ih]
    simp only [mul_add, Finset.sum_add_distrib]
    congr 1
    rcases actAll t.2 (some (1, l)) with _ | ⟨σ, m⟩
    · simp [overlap]
    · simp only [overlap, Finset.mul_sum]
      exact Finset.sum_congr rfl fun i _ => by ring

theorem quadTerm_cont (G : ParGlob) (Para paraQP : Nat → ℂ) (S : Nat) (l : List Nat) : Continuous fun β => quadTerm G Para paraQP S β l := by
  unfold quadTerm
  refine continuous_finsetSum _ fun o _ => continuous_finsetSum _ fun m _ => continuous_const.mul ?_
  exact (Complex.continuous_ofReal.comp (spinW_cont S)).mul (rot_cont _ _ l)

/-- the exact projection of the whole state -/
theorem quadTerm_integral (G : ParGlob) (Para paraQP : Nat → ℂ) (S : Nat) (l : List Nat) :
    ∫ β in (0 : ℝ)..Real.pi, quadTerm G Para paraQP S β l = ∑ o ∈ range G.Q.nOpt, ∑ m ∈ range G.Q.nMP,
      transCoef G Para paraQP o m * spinProjected G.Q.Nsite S (transPair G Para o m) l := by
  have hc : ∀ o m, Continuous fun β : ℝ => transCoef G Para paraQP o m * ((spinW S β : ℂ) * pf (rotC G.Q.Nsite (transPair G Para o m) β) l) :=
    fun o m => continuous_const.mul ((Complex.continuous_ofReal.comp (spinW_cont S)).mul (rot_cont _ _ l))
  unfold quadTerm
  rw [intervalIntegral.integral_finsetSum fun o _ => (continuous_finsetSum _ fun m _ => hc o m).intervalIntegrable _ _]
  refine Finset.sum_congr rfl fun o _ => ?_
  rw [intervalIntegral.integral_finsetSum fun m _ => (hc o m).intervalIntegrable _ _]
  refine Finset.sum_congr rfl fun m _ => ?_
  rw [intervalIntegral.integral_const_mul]
  congr 1
  unfold spinProjected
  congr 1; funext β
  rw [rotC_real]; rfl

theorem quadTerm_spin_cont (G : ParGlob) (Para paraQP : Nat → ℂ) (S : Nat) (l : List Nat) :
    Continuous fun β => applyAdj (spinSq G.Q.Nsite) (quadTerm G Para paraQP S β) l :=
  apply_cont (fun m => quadTerm_cont G Para paraQP S m) _ l

theorem quadTerm_eigen (G : ParGlob) (Para paraQP : Nat → ℂ) (S : Nat) {l : List Nat} (hl : IsConfig G.Q.Nsite l) (hz : SzZero G.Q.Nsite l) :
    ∫ β in (0 : ℝ)..Real.pi, applyAdj (spinSq G.Q.Nsite) (quadTerm G Para paraQP S β) l =
      S * (S + 1) * ∫ β in (0 : ℝ)..Real.pi, quadTerm G Para paraQP S β l := by
  rw [← apply_integral (fun m => quadTerm_cont G Para paraQP S m), quadTerm_integral]
  have e : (fun m => ∫ β in (0 : ℝ)..Real.pi, quadTerm G Para paraQP S β m) = fun l => ∑ t ∈ range G.Q.nOpt ×ˢ range G.Q.nMP,
      transCoef G Para paraQP t.1 t.2 * spinProjected G.Q.Nsite S (transPair G Para t.1 t.2) l := by
    funext m; rw [quadTerm_integral, Finset.sum_product]
  rw [e, apply_sum, ← Finset.sum_product (range G.Q.nOpt) (range G.Q.nMP) (fun t : Nat × Nat => transCoef G Para paraQP t.1 t.2 *
    spinProjected G.Q.Nsite S (transPair G Para t.1 t.2) l), Finset.mul_sum]
  refine Finset.sum_congr rfl fun t _ => ?_
  rw [spinProjected_eigen _ S hl hz]
  ring

end MVMC
