import Verif.Spec.Metropolis
import Mathlib.Data.Set.Function
import Mathlib.Tactic.Ring

/-! # Facts about Metropolis chains driven by streams -/
namespace MVMC
open Spec
open scoped ENNReal
open Finset

/-- no element continues another one -/
def PrefixFree (S : Set (List Nat)) : Prop := ∀ r s, r ∈ S → r ++ s ∈ S → s = []

/-- Kraft's inequality for finite prefix-free sets of streams -/
theorem kraft_finset (B : Nat) (hB : 0 < B) : ∀ (n : Nat) (F : Finset (List Nat)), (∀ r ∈ F, r.length ≤ n) → (∀ r ∈ F, ∀ u ∈ r, u < B) →
    PrefixFree {r | r ∈ F} → ∑ r ∈ F, streamProb B r ≤ 1 := by
  have nilcase : ∀ F : Finset (List Nat), PrefixFree {r | r ∈ F} → [] ∈ F → ∑ r ∈ F, streamProb B r ≤ 1 := by
    intro F hp h0
    have : F = {[]} := by
      ext r
      rw [Finset.mem_singleton]
      constructor
      · exact fun hr => hp [] r h0 (by simpa using hr)
      · rintro rfl; exact h0
    rw [this, sum_singleton]
    simp [streamProb]
  have hB0 : (B : ℝ≥0∞) ≠ 0 := by exact_mod_cast hB.ne'
  intro n
  induction n with
  | zero =>
    intro F hl _ hp
    by_cases h0 : [] ∈ F
    · exact nilcase F hp h0
    · have : F = ∅ := by
        rw [Finset.eq_empty_iff_forall_notMem]
        intro r hr
        have := hl r hr
        have e : r = [] := List.length_eq_zero_iff.mp (by omega)
        exact h0 (e ▸ hr)
      rw [this, sum_empty]
      exact zero_le_one
  | succ n ih =>
    intro F hl hb hp
    by_cases h0 : [] ∈ F
    · exact nilcase F hp h0
    · have hne : ∀ r ∈ F, ∃ u s, r = u :: s := by
        intro r hr
        cases r with
        | nil => exact absurd hr h0
        | cons u s => exact ⟨u, s, rfl⟩
      have hmap : ∀ r ∈ F, r.headD 0 ∈ range B := by
        intro r hr
        obtain ⟨u, s, rfl⟩ := hne r hr
        exact mem_range.mpr (hb _ hr u (by simp))
      rw [← sum_fiberwise_of_maps_to hmap]
      have hu : ∀ u ∈ range B, ∑ r ∈ F.filter (fun r => r.headD 0 = u), streamProb B r ≤ (B : ℝ≥0∞)⁻¹ := by
        intro u _
        have himg : ∀ r ∈ F.filter (fun r => r.headD 0 = u), streamProb B r = (B : ℝ≥0∞)⁻¹ * streamProb B r.tail := by
          intro r hr
          obtain ⟨v, s, rfl⟩ := hne r (mem_filter.mp hr).1
          simp [streamProb, pow_succ, mul_comm]
        have hinj : Set.InjOn List.tail (F.filter (fun r => r.headD 0 = u) : Set (List Nat)) := by
          intro r hr r' hr' e
          simp only [coe_filter, Set.mem_ofPred_eq] at hr hr'
          obtain ⟨v, s, rfl⟩ := hne r hr.1
          obtain ⟨v', s', rfl⟩ := hne r' hr'.1
          have h1 := hr.2
          have h2 := hr'.2
          simp at h1 h2 e
          rw [h1, h2, e]
        rw [sum_congr rfl himg, ← mul_sum, ← sum_image (g := List.tail) (f := streamProb B) hinj]
        refine (mul_le_mul' le_rfl (ih _ ?_ ?_ ?_)).trans (by rw [mul_one])
        · intro s hs
          obtain ⟨r, hr, rfl⟩ := mem_image.mp hs
          have := hl r (mem_filter.mp hr).1
          rw [List.length_tail]
          omega
        · intro s hs v hv
          obtain ⟨r, hr, rfl⟩ := mem_image.mp hs
          exact hb r (mem_filter.mp hr).1 v (List.mem_of_mem_tail hv)
        · intro r s hr hrs
          obtain ⟨a, ha, ea⟩ := mem_image.mp hr
          obtain ⟨b, hb', eb⟩ := mem_image.mp hrs
          obtain ⟨v, a', rfl⟩ := hne a (mem_filter.mp ha).1
          obtain ⟨v', b', rfl⟩ := hne b (mem_filter.mp hb').1
          have h1 := (mem_filter.mp ha).2
          have h2 := (mem_filter.mp hb').2
          simp at h1 h2 ea eb
          refine hp (v :: a') s (mem_filter.mp ha).1 ?_
          show v :: a' ++ s ∈ F
          rw [List.cons_append, ea, h1, ← h2, ← eb]
          exact (mem_filter.mp hb').1
      refine (sum_le_sum hu).trans ?_
      rw [sum_const, card_range, nsmul_eq_mul, ENNReal.mul_inv_cancel hB0 (ENNReal.natCast_ne_top B)]

/-- Kraft's inequality -/
theorem kraft (B : Nat) (hB : 0 < B) (S : Set (List Nat)) (hb : ∀ r ∈ S, ∀ u ∈ r, u < B) (hp : PrefixFree S) : propProb B S ≤ 1 := by
  classical
  unfold propProb
  rw [ENNReal.tsum_eq_iSup_sum]
  refine iSup_le (fun F => ?_)
  have e : ∑ r ∈ F, streamProb B r.1 = ∑ r ∈ F.map (Function.Embedding.subtype _), streamProb B r := by
    rw [sum_map]
    rfl
  rw [e]
  have hmem : ∀ r ∈ F.map (Function.Embedding.subtype _), r ∈ S := by
    intro r hr
    obtain ⟨x, _, rfl⟩ := Finset.mem_map.mp hr
    exact x.2
  refine kraft_finset B hB ((F.map (Function.Embedding.subtype _)).sup List.length) _ (fun r hr => Finset.le_sup (f := List.length) hr)
    (fun r hr => hb r (hmem r hr)) (fun r s hr hrs => hp r s (hmem r hr) (hmem _ hrs))

section
variable {X : Type} {B : Nat} {M : X → X → Set (List Nat)} {W : X → ℝ≥0∞}

theorem propProb_bij {S S' : Set (List Nat)} {f : List Nat → List Nat} (hb : Set.BijOn f S S') (hl : ∀ r ∈ S, (f r).length = r.length) :
    propProb B S = propProb B S' := by
  unfold propProb
  rw [← (hb.equiv f).tsum_eq]
  refine tsum_congr (fun r => ?_)
  unfold streamProb
  congr 1
  exact (hl r.1 r.2).symm

theorem min_balance {a b : ℝ≥0∞} (ha' : a ≠ ⊤) (hb' : b ≠ ⊤) : a * min 1 (b / a) = b * min 1 (a / b) := by
  by_cases ha : a = 0
  · simp [ha]
  by_cases hb : b = 0
  · simp [hb]
  have h1 : a * (b / a) = b := ENNReal.mul_div_cancel ha ha'
  have h2 : b * (a / b) = a := ENNReal.mul_div_cancel hb hb'
  rcases le_total a b with h | h
  · have q1 : 1 ≤ b / a := by rw [ENNReal.le_div_iff_mul_le (Or.inl ha) (Or.inl ha'), one_mul]; exact h
    have q2 : a / b ≤ 1 := ENNReal.div_le_of_le_mul (by rw [one_mul]; exact h)
    rw [min_eq_left q1, min_eq_right q2, h2, mul_one]
  · have q1 : 1 ≤ a / b := by rw [ENNReal.le_div_iff_mul_le (Or.inl hb) (Or.inl hb'), one_mul]; exact h
    have q2 : b / a ≤ 1 := ENNReal.div_le_of_le_mul (by rw [one_mul]; exact h)
    rw [min_eq_left q1, min_eq_right q2, h1, mul_one]

/-- detailed balance, from a length-preserving bijection of the streams -/
theorem move_balance (hW : ∀ c, W c ≠ ⊤) {c c' : X} {f : List Nat → List Nat} (hb : Set.BijOn f (M c c') (M c' c))
    (hl : ∀ r ∈ M c c', (f r).length = r.length) : W c * moveProb B M W c c' = W c' * moveProb B M W c' c := by
  unfold moveProb
  rw [propProb_bij hb hl]
  have := min_balance (hW c) (hW c')
  calc _ = propProb B (M c' c) * (W c * min 1 (W c' / W c)) := by ring
    _ = propProb B (M c' c) * (W c' * min 1 (W c / W c')) := by rw [this]
    _ = _ := by ring

/-- the moves from one state are not more probable than their proposals -/
theorem leave_le_prop (c : X) (hdet : ∀ c' c'' r, c' ≠ c → c'' ≠ c → r ∈ M c c' → r ∈ M c c'' → c' = c'') :
    leaveProb B M W c ≤ propProb B {r | ∃ c', c' ≠ c ∧ r ∈ M c c'} := by
  classical
  unfold leaveProb
  have h1 : ∀ c'' : X, (@ite _ (c'' = c) (Classical.propDecidable _) 0 (moveProb B M W c c'')) ≤ ∑' r : {r // c'' ≠ c ∧ r ∈ M c c''}, streamProb B r.1 := by
    intro c''
    split
    · exact zero_le
    · rename_i h
      refine (mul_le_mul' le_rfl (min_le_left _ _)).trans ?_
      rw [mul_one]
      unfold propProb
      let g : M c c'' ≃ {r // c'' ≠ c ∧ r ∈ M c c''} := ⟨fun r => ⟨r.1, h, r.2⟩, fun r => ⟨r.1, r.2.2⟩, fun _ => rfl, fun _ => rfl⟩
      rw [← g.tsum_eq]
      exact le_of_eq rfl
  refine (ENNReal.tsum_le_tsum h1).trans ?_
  rw [← ENNReal.tsum_sigma (fun (a : X) (r : {r // a ≠ c ∧ r ∈ M c a}) => streamProb B r.1)]
  unfold propProb
  let g : (Σ c'' : X, {r // c'' ≠ c ∧ r ∈ M c c''}) → {r | ∃ c', c' ≠ c ∧ r ∈ M c c'} := fun z => ⟨z.2.1, z.1, z.2.2.1, z.2.2.2⟩
  have hinj : Function.Injective g := by
    rintro ⟨a, r, ha, hr⟩ ⟨b, s, hb', hs⟩ e
    have e' : r = s := congrArg Subtype.val e
    subst e'
    obtain rfl := hdet a b r ha hb' hr hs
    rfl
  exact ENNReal.tsum_comp_le_tsum_of_injective hinj (fun r => streamProb B r.1)

/-- the moves from one state have total probability at most one -/
theorem move_le_one (hB : 0 < B) (c : X) (hb : ∀ c', c' ≠ c → ∀ r ∈ M c c', ∀ u ∈ r, u < B)
    (hdet : ∀ c' c'' r, c' ≠ c → c'' ≠ c → r ∈ M c c' → r ∈ M c c'' → c' = c'') (hp : PrefixFree {r | ∃ c', c' ≠ c ∧ r ∈ M c c'}) :
    leaveProb B M W c ≤ 1 :=
  (leave_le_prop c hdet).trans (kraft B hB {r | ∃ c', c' ≠ c ∧ r ∈ M c c'} (fun r ⟨c', h, hr⟩ => hb c' h r hr) hp)

/-- a chain with detailed balance and proper moves leaves the weights unchanged -/
theorem metro_stationary (hbal : ∀ c c', c ≠ c' → W c * moveProb B M W c c' = W c' * moveProb B M W c' c)
    (hle : ∀ c, leaveProb B M W c ≤ 1) :
    pushStep (metroKernel B M W) W = W := by
  classical
  funext c'
  unfold pushStep
  rw [ENNReal.tsum_eq_add_tsum_ite c']
  have e : ∀ c : X, (if c = c' then 0 else W c * metroKernel B M W c c') = W c' * (if c = c' then 0 else moveProb B M W c' c) := by
    intro c
    by_cases h : c = c'
    · rw [if_pos h, if_pos h, mul_zero]
    · rw [if_neg h, if_neg h]
      unfold metroKernel
      rw [if_neg h, hbal c c' h]
  rw [tsum_congr e, ENNReal.tsum_mul_left]
  unfold metroKernel
  rw [if_pos rfl, ← mul_add]
  have e2 : (∑' i : X, if i = c' then 0 else moveProb B M W c' i) = leaveProb B M W c' := rfl
  rw [e2, tsub_add_cancel_of_le (hle c'), mul_one]

/-- every row of the kernel sums to one -/
theorem metro_total (hle : ∀ c, leaveProb B M W c ≤ 1) (c : X) :
    ∑' c', metroKernel B M W c c' = 1 := by
  classical
  rw [ENNReal.tsum_eq_add_tsum_ite c]
  have e : ∀ c' : X, (if c' = c then 0 else metroKernel B M W c c') = if c' = c then 0 else moveProb B M W c c' := by
    intro c'
    by_cases h : c' = c
    · rw [if_pos h, if_pos h]
    · rw [if_neg h, if_neg h]
      unfold metroKernel
      rw [if_neg (fun q => h q.symm)]
  rw [tsum_congr e]
  unfold metroKernel
  rw [if_pos rfl]
  exact tsub_add_cancel_of_le (hle c)
end
end MVMC
