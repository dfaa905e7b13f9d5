import Verif.Proof.RBM

/-! The blocked, threaded evaluation of the ratio. -/
namespace MVMC
open Spec Finset

theorem cosh_rbmFold (x : ℂ) : Complex.cosh (rbmFold x) = Complex.cosh x := by
  unfold rbmFold; split
  · exact Complex.cosh_neg x
  · rfl

theorem cosh_exp (x : ℂ) : Complex.cosh x = Complex.exp x * (1 + Complex.exp (-2 * x)) / 2 := by
  have : Complex.exp x * Complex.exp (-2 * x) = Complex.exp (-x) := by rw [← Complex.exp_add]; congr 1; ring
  rw [Complex.cosh, mul_add, mul_one, this]

theorem rbm_factor (a b : ℂ) :
    Complex.exp (rbmFold a - rbmFold b) * rbmTmp a b = Complex.cosh a / Complex.cosh b := by
  rw [← cosh_rbmFold a, ← cosh_rbmFold b, cosh_exp, cosh_exp, Complex.exp_sub]
  unfold rbmTmp
  rw [div_div_div_cancel_right₀ (by norm_num : (2 : ℂ) ≠ 0), mul_div_mul_comm]

theorem rbmTmp_ne {a b : ℂ} (ha : Complex.cosh a ≠ 0) (hb : Complex.cosh b ≠ 0) : rbmTmp a b ≠ 0 := by
  intro h
  have := rbm_factor a b
  rw [h, mul_zero] at this
  exact div_ne_zero ha hb this.symm

theorem foldl_prod (n : Nat) (f : Nat → ℂ) : (List.range n).foldl (fun zz k => zz * f k) 1 = ∏ k ∈ range n, f k := by
  induction n with
  | zero => simp
  | succ n ih => rw [List.range_succ, List.foldl_append, List.foldl_cons, List.foldl_nil, ih, prod_range_succ]

theorem prod_by_8 (m : Nat) (z : Nat → ℂ) :
    ∏ k ∈ range m, (z (8 * k) * z (8 * k + 1) * z (8 * k + 2) * z (8 * k + 3) *
        z (8 * k + 4) * z (8 * k + 5) * z (8 * k + 6) * z (8 * k + 7)) = ∏ k ∈ range (8 * m), z k := by
  induction m with
  | zero => simp
  | succ m ih =>
    rw [prod_range_succ, ih, show 8 * (m + 1) = 8 * m + 1 + 1 + 1 + 1 + 1 + 1 + 1 + 1 by ring]
    simp only [prod_range_succ]
    ring

theorem ompChunk_next (n T t : Nat) : (ompChunk n T (t + 1)).1 = (ompChunk n T t).1 + (ompChunk n T t).2 := by
  unfold ompChunk
  simp only
  rw [Nat.add_mul, Nat.one_mul]
  split <;> omega

theorem ompChunk_end (n T : Nat) (hT : 0 < T) : (ompChunk n T T).1 = n := by
  unfold ompChunk
  simp only
  have := Nat.mod_lt n hT
  have e := Nat.div_add_mod n T
  rw [Nat.min_eq_right (by omega)]
  omega

theorem chunk_prod (n T : Nat) (hT : 0 < T) (f : Nat → ℂ) :
    ∏ t ∈ range T, ∏ k ∈ range (ompChunk n T t).2, f ((ompChunk n T t).1 + k) = ∏ k ∈ range n, f k := by
  have : ∀ m, ∏ t ∈ range m, ∏ k ∈ range (ompChunk n T t).2, f ((ompChunk n T t).1 + k)
      = ∏ k ∈ range (ompChunk n T m).1, f k := by
    intro m
    induction m with
    | zero => simp [ompChunk]
    | succ m ih => rw [prod_range_succ, ih, ompChunk_next, prod_range_add]
  rw [this, ompChunk_end n T hT]

theorem chunk_sum (n T : Nat) (hT : 0 < T) (f : Nat → ℂ) :
    ∑ t ∈ range T, ∑ k ∈ range (ompChunk n T t).2, f ((ompChunk n T t).1 + k) = ∑ k ∈ range n, f k := by
  have : ∀ m, ∑ t ∈ range m, ∑ k ∈ range (ompChunk n T t).2, f ((ompChunk n T t).1 + k)
      = ∑ k ∈ range (ompChunk n T m).1, f k := by
    intro m
    induction m with
    | zero => simp [ompChunk]
    | succ m ih => rw [sum_range_succ, ih, ompChunk_next, sum_range_add]
  rw [this, ompChunk_end n T hT]

/-- if every thread's share is a multiple of 8, the second loop gives each thread exactly its own groups of 8 -/
theorem chunk8 {n T : Nat} (hT : 0 < T) (h : ∀ t < T, (ompChunk n T t).2 % 8 = 0) {t : Nat} (_ht : t < T) :
    8 * (ompChunk ((n + 7) / 8) T t).2 = (ompChunk n T t).2 := by
  have h0 := h 0 hT
  have hl := h (T - 1) (by omega)
  unfold ompChunk at h0 hl ⊢
  simp only at h0 hl ⊢
  have hr := Nat.mod_lt n hT
  have e := Nat.div_add_mod n T
  have r0 : n % T = 0 := by
    by_contra hne
    rw [if_pos (by omega)] at h0
    rw [if_neg (by omega)] at hl
    omega
  rw [r0] at h0 e ⊢
  simp only [Nat.not_lt_zero, if_false, Nat.add_zero] at h0 e ⊢
  obtain ⟨m, hm⟩ : ∃ m, n / T = 8 * m := ⟨n / T / 8, by omega⟩
  have hn : n = T * (8 * m) := by rw [← hm]; omega
  have h8 : (n + 7) / 8 = T * m := by
    have : n = 8 * (T * m) := by rw [hn]; ring
    omega
  rw [h8, Nat.mul_mod_right, if_neg (by omega), Nat.mul_div_cancel_left _ hT, hm, Nat.add_zero]

theorem rbmThreadProd_eq {n T : Nat} (hT : 0 < T) (h : rbmUniform n T = true) {t : Nat} (ht : t < T) (z : Nat → ℂ) :
    rbmThreadProd n T t z = ∏ k ∈ range (ompChunk n T t).2, z k := by
  unfold rbmThreadProd
  simp only
  unfold rbmUniform at h
  simp only [Bool.or_eq_true, List.all_eq_true, List.mem_range, decide_eq_true_eq, Bool.not_eq_true',
    decide_eq_false_iff_not] at h
  split
  · rename_i hc
    have all : ∀ t < T, (ompChunk n T t).2 % 8 = 0 := by
      rcases h with h | h
      · exact h
      · exact absurd hc (h t ht)
    rw [foldl_prod, prod_by_8, chunk8 hT all ht]
  · rw [foldl_prod]

/-- a block contributes the product of the quotients of its hidden units -/
theorem rbmBlock_exp {p : RBMPar ℂ} {T hist hiend : Nat} {new old : Nat → ℂ} (hT : 0 < T) {d : ℂ}
    (hn : ∀ h < hiend - hist, Complex.cosh (new (hist + h + p.nPhys)) ≠ 0)
    (ho : ∀ h < hiend - hist, Complex.cosh (old (hist + h + p.nPhys)) ≠ 0)
    (e : rbmBlock p T hist hiend new old = some d) :
    Complex.exp d = ∏ h ∈ range (hiend - hist),
      Complex.cosh (new (hist + h + p.nPhys)) / Complex.cosh (old (hist + h + p.nPhys)) := by
  unfold rbmBlock at e
  simp only at e
  split at e
  · rename_i hu
    injection e with e
    rw [← e, Complex.exp_add]
    have hz : ((List.range T).map (fun t => rbmThreadProd (hiend - hist) T t (fun k =>
          rbmTmp (new (hist + (ompChunk (hiend - hist) T t).1 + k + p.nPhys))
            (old (hist + (ompChunk (hiend - hist) T t).1 + k + p.nPhys))))).foldl (· * ·) 1
        = ∏ k ∈ range (hiend - hist), rbmTmp (new (hist + k + p.nPhys)) (old (hist + k + p.nPhys)) := by
      rw [List.foldl_map, foldl_prod, ← chunk_prod (hiend - hist) T hT]
      apply prod_congr rfl
      intro t ht
      rw [rbmThreadProd_eq hT hu (mem_range.mp ht)]
      simp only [Nat.add_assoc]
    have hs : ((List.range T).map (fun t => (List.range (ompChunk (hiend - hist) T t).2).foldl (fun z k =>
          z + (rbmFold (new (hist + (ompChunk (hiend - hist) T t).1 + k + p.nPhys))
            - rbmFold (old (hist + (ompChunk (hiend - hist) T t).1 + k + p.nPhys)))) 0)).sum
        = ∑ k ∈ range (hiend - hist), (rbmFold (new (hist + k + p.nPhys)) - rbmFold (old (hist + k + p.nPhys))) := by
      rw [list_sum_rangeK, ← chunk_sum (hiend - hist) T hT]
      apply sum_congr rfl
      intro t _
      have := sumLoop_eq (ompChunk (hiend - hist) T t).2 (fun k =>
          rbmFold (new (hist + (ompChunk (hiend - hist) T t).1 + k + p.nPhys))
            - rbmFold (old (hist + (ompChunk (hiend - hist) T t).1 + k + p.nPhys)))
      unfold sumLoop at this
      rw [this]
      simp only [Nat.add_assoc]
    rw [hz, hs, Complex.exp_log, Complex.exp_sum, ← prod_mul_distrib]
    · exact prod_congr rfl (fun k _ => rbm_factor _ _)
    · rw [prod_ne_zero_iff]
      intro k hk
      exact rbmTmp_ne (hn k (mem_range.mp hk)) (ho k (mem_range.mp hk))
  · exact absurd e (by simp)

theorem prod_split (f : Nat → ℂ) (a b : Nat) (h : a ≤ b) :
    ∏ k ∈ range b, f k = (∏ k ∈ range a, f k) * ∏ k ∈ range (b - a), f (a + k) := by
  conv_lhs => rw [show b = a + (b - a) by omega, prod_range_add]

/-- the whole ratio, whatever the block size and the number of threads -/
theorem logRBMRatio_exp {p : RBMPar ℂ} {B T : Nat} {new old : Nat → ℂ} (hB : 0 < B) (hT : 0 < T) {z : ℂ}
    (hn : ∀ h < p.nNeuron, Complex.cosh (new (h + p.nPhys)) ≠ 0)
    (ho : ∀ h < p.nNeuron, Complex.cosh (old (h + p.nPhys)) ≠ 0)
    (e : logRBMRatio p B T new old = some z) :
    Complex.exp z = Complex.exp (∑ i ∈ range p.nPhys, p.par i * (new i - old i)) *
      ∏ h ∈ range p.nNeuron, Complex.cosh (new (h + p.nPhys)) / Complex.cosh (old (h + p.nPhys)) := by
  unfold logRBMRatio at e
  simp only at e
  have hz0 := sumLoop_eq p.nPhys (fun i => p.par i * (new i - old i))
  unfold sumLoop at hz0
  rw [hz0] at e
  have key : ∀ m z, (List.range m).foldl (fun o iblk =>
      match o with
      | none => none
      | some z =>
        match rbmBlock p T (iblk * B) (if iblk * B + B > p.nNeuron then p.nNeuron else iblk * B + B) new old with
        | none => none
        | some d => some (z + d)) (some (∑ i ∈ range p.nPhys, p.par i * (new i - old i))) = some z →
      (m - 1) * B ≤ p.nNeuron →
      Complex.exp z = Complex.exp (∑ i ∈ range p.nPhys, p.par i * (new i - old i)) *
        ∏ h ∈ range (min (m * B) p.nNeuron),
          Complex.cosh (new (h + p.nPhys)) / Complex.cosh (old (h + p.nPhys)) := by
    intro m
    induction m with
    | zero =>
      intro z e _
      simp only [List.range_zero, List.foldl_nil, Option.some.injEq] at e
      rw [← e]; simp
    | succ m ih =>
      intro z e hm
      rw [List.range_succ, List.foldl_append, List.foldl_cons, List.foldl_nil] at e
      simp only [Nat.add_sub_cancel] at hm
      split at e
      · exact absurd e (by simp)
      · rename_i z1 hz1
        split at e
        · exact absurd e (by simp)
        · rename_i d hd
          injection e with e
          have h1 := ih z1 hz1 (le_trans (Nat.mul_le_mul_right _ (by omega)) hm)
          have hend : (if m * B + B > p.nNeuron then p.nNeuron else m * B + B) = min ((m + 1) * B) p.nNeuron := by
            rw [Nat.add_mul, Nat.one_mul]
            split <;> omega
          rw [hend] at hd
          have hle : m * B ≤ min ((m + 1) * B) p.nNeuron := by
            rw [Nat.add_mul, Nat.one_mul]; omega
          have h2 := rbmBlock_exp hT (fun h hh => hn _ (by omega)) (fun h hh => ho _ (by omega)) hd
          rw [← e, Complex.exp_add, h1, h2, Nat.min_eq_left hm, mul_assoc]
          congr 1
          rw [prod_split _ _ _ hle]
  have hlast : ((p.nNeuron - 1) / B + 1 - 1) * B ≤ p.nNeuron := by
    rw [Nat.add_sub_cancel]
    exact le_trans (Nat.div_mul_le_self _ _) (by omega)
  have := key _ z e hlast
  rw [this]
  congr 3
  have hd := Nat.div_add_mod (p.nNeuron - 1) B
  have hm := Nat.mod_lt (p.nNeuron - 1) hB
  rw [Nat.add_mul, Nat.one_mul, Nat.mul_comm]
  rw [Nat.min_eq_right]
  omega

theorem weightRBM_eq {p : RBMPar ℂ} {cnt : Nat → ℂ} (h : ∀ h < p.nNeuron, Complex.cosh (cnt (h + p.nPhys)) ≠ 0) :
    weightRBM p cnt = rbmValue p.nPhys p.nNeuron p.par cnt (fun h => cnt (h + p.nPhys)) := by
  unfold weightRBM logWeightRBM rbmValue
  have e1 := sumLoop_eq p.nPhys (fun i => p.par i * cnt i)
  unfold sumLoop at e1
  rw [e1]
  have : ∀ m ≤ p.nNeuron, Complex.exp ((List.range m).foldl
      (fun z hi => z + Complex.log (Complex.cosh (cnt (hi + p.nPhys)))) (∑ i ∈ range p.nPhys, p.par i * cnt i)) =
      Complex.exp (∑ i ∈ range p.nPhys, p.par i * cnt i) * ∏ h ∈ range m, Complex.cosh (cnt (h + p.nPhys)) := by
    intro m hm
    induction m with
    | zero => simp
    | succ m ih =>
      rw [List.range_succ, List.foldl_append, List.foldl_cons, List.foldl_nil, Complex.exp_add, ih (by omega),
        Complex.exp_log (h m (by omega)), prod_range_succ, mul_assoc]
  exact this _ (Nat.le_refl _)

theorem rbmValue_div (nV nH : Nat) (a v v' θ θ' : Nat → ℂ) :
    Complex.exp (∑ i ∈ range nV, a i * (v' i - v i)) * ∏ h ∈ range nH, Complex.cosh (θ' h) / Complex.cosh (θ h) =
      rbmValue nV nH a v' θ' / rbmValue nV nH a v θ := by
  unfold rbmValue
  rw [mul_div_mul_comm, ← prod_div_distrib, ← Complex.exp_sub, ← sum_sub_distrib]
  congr 2
  exact sum_congr rfl (fun i _ => by ring)

theorem logRBMRatio_some_of_one (p : RBMPar ℂ) (B : Nat) (new old : Nat → ℂ) :
    ∃ z, logRBMRatio p B 1 new old = some z := by
  have hb : ∀ hist hiend, ∃ d, rbmBlock p 1 hist hiend new old = some d := by
    intro hist hiend
    unfold rbmBlock
    have : rbmUniform (hiend - hist) 1 = true := by
      unfold rbmUniform
      by_cases c : (ompChunk (hiend - hist) 1 0).2 % 8 = 0 <;> simp [c]
    simp only [this, if_true]
    exact ⟨_, rfl⟩
  unfold logRBMRatio
  simp only
  generalize (p.nNeuron - 1) / B + 1 = m
  induction m with
  | zero => exact ⟨_, rfl⟩
  | succ m ih =>
    obtain ⟨z, hz⟩ := ih
    rw [List.range_succ, List.foldl_append, List.foldl_cons, List.foldl_nil, hz]
    obtain ⟨d, hd⟩ := hb (m * B) (if m * B + B > p.nNeuron then p.nNeuron else m * B + B)
    simp only [hd]
    exact ⟨_, rfl⟩

end MVMC
