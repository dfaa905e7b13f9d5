import Verif.Proof.PfBlock1

/-! The invariant of the block update and the central matrix. -/
namespace MVMC
open Spec

variable {K : Type} [Field K]

/-- The queue describes the step from the base configuration `t.cfg` to the configuration `c`. -/
structure TdiCore (p : BlkPar K) (t : Tdi K) (c : Nat → Nat) : Prop where
  cfgLt : ∀ i, i < p.n → t.cfg i < p.nsite
  cfgInj : ∀ i, i < p.n → ∀ j, j < p.n → t.cfg i = t.cfg j → i = j
  pfa : t.pfa = pfOf (orbAt p.X) p.n t.cfg
  inv : IsInv (orbAt p.X) p.n t.cfg (upSkew t.M)
  km : t.k ≤ p.mmax
  frLt : ∀ l, l < t.k → t.frm l < p.n
  frInj : ∀ l, l < t.k → ∀ o, o < t.k → t.frm l = t.frm o → l = o
  dstLt : ∀ l, l < t.k → t.dst l < p.nsite
  cur : ∀ l, l < t.k → c (t.frm l) = t.dst l
  base : ∀ i, i < p.n → (∀ l, l < t.k → t.frm l ≠ i) → c i = t.cfg i
  hU : ∀ l, l < t.k → ∀ i, i < p.n → i ≠ t.frm l → t.U i l = orbAt p.X (c i) (c (t.frm l)) - orbAt p.X (t.cfg i) (t.cfg (t.frm l))
  nqk : t.nq ≤ t.k
  hQ : ∀ l, l < t.nq → ∀ i, i < p.n → t.Q i l = ∑ j ∈ Finset.range p.n, upSkew t.M i j * t.U j l
  hP : ∀ l, l < t.k → ∀ i, i < p.n → t.Q i (p.mmax + l) = upSkew t.M i (t.frm l)
  hW : ∀ o, o < t.k → ∀ l, l < o → t.W l o = - (orbAt p.X (c (t.frm l)) (c (t.frm o)) - orbAt p.X (t.cfg (t.frm l)) (t.cfg (t.frm o)))
  hUMV : ∀ l, l < t.k → ∀ o, o < t.k → t.UMV l o = ∑ i ∈ Finset.range p.n, t.U i l * upSkew t.M i (t.frm o)
  hVMV : ∀ o, o < t.k → ∀ l, l < o → t.VMV l o = upSkew t.M (t.frm l) (t.frm o)

/-- `[U V]` -/
def bMat (t : Tdi K) (i a : Nat) : K := if a < t.k then t.U i a else if i = t.frm (a - t.k) then 1 else 0

/-- `W` -/
def wMat (p : BlkPar K) (t : Tdi K) (c : Nat → Nat) (l o : Nat) : K :=
  - (orbAt p.X (c (t.frm l)) (c (t.frm o)) - orbAt p.X (t.cfg (t.frm l)) (t.cfg (t.frm o)))

theorem wMat_skew (p : BlkPar K) (t : Tdi K) (c : Nat → Nat) : Skew (wMat p t c) where
  neg x y := by
    unfold wMat
    rw [(orbAt_skew p.X).neg (c (t.frm x)), (orbAt_skew p.X).neg (t.cfg (t.frm x))]; ring
  diag x := by
    unfold wMat
    rw [(orbAt_skew p.X).diag, (orbAt_skew p.X).diag]; ring

/-- the central matrix -/
def sMat (p : BlkPar K) (t : Tdi K) (c : Nat → Nat) (a b : Nat) : K :=
  hopC t.k (wMat p t c) a b + ∑ j ∈ Finset.range p.n, (∑ i ∈ Finset.range p.n, bMat t i a * upSkew t.M i j) * bMat t j b

theorem sum_hop (n : Nat) (f : Nat → K) (x : Nat) (hx : x < n) : ∑ i ∈ Finset.range n, f i * (if i = x then 1 else 0) = f x := by
  simp [hx]

theorem sum_hop' (n : Nat) (f : Nat → K) (x : Nat) (hx : x < n) : ∑ i ∈ Finset.range n, (if i = x then 1 else 0) * f i = f x := by
  simp [hx]

/-- **Low-rank form of the new matrix.** -/
theorem newMat_eq {p : BlkPar K} {t : Tdi K} {c : Nat → Nat} (h : TdiCore p t c) {i j : Nat} (hi : i < p.n) (hj : j < p.n) :
    orbAt p.X (c i) (c j) = orbAt p.X (t.cfg i) (t.cfg j) +
      ∑ b ∈ Finset.range (2 * t.k), (∑ a ∈ Finset.range (2 * t.k), bMat t i a * hopD t.k (wMat p t c) a b) * bMat t j b := by
  have hs := orbAt_skew p.X
  have e0 : ∑ b ∈ Finset.range (2 * t.k), (∑ a ∈ Finset.range (2 * t.k), bMat t i a * hopD t.k (wMat p t c) a b) * bMat t j b =
      ∑ o ∈ Finset.range t.k, (- (if i = t.frm o then 1 else 0) * t.U j o) +
      ∑ o ∈ Finset.range t.k, (t.U i o + ∑ l ∈ Finset.range t.k, (if i = t.frm l then 1 else 0) * wMat p t c l o) * (if j = t.frm o then 1 else 0) := by
    rw [sum_two]
    congr 1
    · refine Finset.sum_congr rfl (fun o ho => ?_)
      have ho := Finset.mem_range.mp ho
      have eb : bMat t j o = t.U j o := if_pos ho
      rw [eb]
      congr 1
      rw [sum_two, Finset.sum_eq_zero, zero_add]
      · rw [Finset.sum_eq_single o]
        · unfold bMat hopD
          have hn : ¬ t.k + o < t.k := by omega
          simp only [hn, ho, if_true, if_false, Nat.add_sub_cancel_left]; ring
        · intro a _ hao
          unfold hopD
          rw [if_neg (by omega), if_pos ho, if_neg (by omega), mul_zero]
        · intro h'; exact absurd (Finset.mem_range.mpr ho) h'
      · intro a ha
        have ha := Finset.mem_range.mp ha
        unfold hopD
        rw [if_pos ha, if_pos ho, mul_zero]
    · refine Finset.sum_congr rfl (fun o ho => ?_)
      have ho := Finset.mem_range.mp ho
      have eb : bMat t j (t.k + o) = if j = t.frm o then 1 else 0 := by
        unfold bMat; rw [if_neg (by omega), Nat.add_sub_cancel_left]
      rw [eb]
      congr 1
      rw [sum_two]
      congr 1
      · rw [Finset.sum_eq_single o]
        · unfold bMat hopD
          rw [if_pos ho, if_pos ho, if_neg (by omega), if_pos rfl, mul_one]
        · intro a ha hao
          have ha := Finset.mem_range.mp ha
          unfold hopD
          rw [if_pos ha, if_neg (by omega), if_neg (by omega), mul_zero]
        · intro h'; exact absurd (Finset.mem_range.mpr ho) h'
      · refine Finset.sum_congr rfl (fun l hl => ?_)
        unfold bMat hopD
        have hn : ¬ t.k + o < t.k := by omega
        have hn' : ¬ t.k + l < t.k := by omega
        simp only [hn, hn', if_false, Nat.add_sub_cancel_left]
  rw [e0]
  have cas : ∀ i, (∃ l, l < t.k ∧ t.frm l = i) ∨ (∀ l, l < t.k → t.frm l ≠ i) := by
    intro i
    by_cases h' : ∃ l, l < t.k ∧ t.frm l = i
    · exact Or.inl h'
    · exact Or.inr (fun l hl e => h' ⟨l, hl, e⟩)
  have z1 : ∀ i, (∀ l, l < t.k → t.frm l ≠ i) → ∀ f : Nat → K, ∑ o ∈ Finset.range t.k, (- (if i = t.frm o then 1 else 0) * f o) = 0 := by
    intro i h1 f
    refine Finset.sum_eq_zero (fun o ho => ?_)
    rw [if_neg (fun e => h1 o (Finset.mem_range.mp ho) e.symm)]; ring
  have z2 : ∀ i, (∀ l, l < t.k → t.frm l ≠ i) → ∀ f : Nat → K, ∑ o ∈ Finset.range t.k, (f o * (if i = t.frm o then 1 else 0)) = 0 := by
    intro i h1 f
    refine Finset.sum_eq_zero (fun o ho => ?_)
    rw [if_neg (fun e => h1 o (Finset.mem_range.mp ho) e.symm)]; ring
  have s1 : ∀ l, l < t.k → ∀ f : Nat → K, ∑ o ∈ Finset.range t.k, (- (if t.frm l = t.frm o then 1 else 0) * f o) = - f l := by
    intro l hl f
    rw [Finset.sum_eq_single l]
    · rw [if_pos rfl]; ring
    · intro o ho hol
      rw [if_neg (fun e => hol (h.frInj l hl o (Finset.mem_range.mp ho) e).symm)]; ring
    · intro h'; exact absurd (Finset.mem_range.mpr hl) h'
  have s2 : ∀ l, l < t.k → ∀ f : Nat → K, ∑ o ∈ Finset.range t.k, (f o * (if t.frm l = t.frm o then 1 else 0)) = f l := by
    intro l hl f
    rw [Finset.sum_eq_single l]
    · rw [if_pos rfl]; ring
    · intro o ho hol
      rw [if_neg (fun e => hol (h.frInj l hl o (Finset.mem_range.mp ho) e).symm)]; ring
    · intro h'; exact absurd (Finset.mem_range.mpr hl) h'
  have s3 : ∀ l, l < t.k → ∀ f : Nat → K, ∑ o ∈ Finset.range t.k, ((if t.frm l = t.frm o then 1 else 0) * f o) = f l := by
    intro l hl f
    rw [← s2 l hl f]
    exact Finset.sum_congr rfl (fun o _ => mul_comm _ _)
  have z3 : ∀ i, (∀ l, l < t.k → t.frm l ≠ i) → ∀ f : Nat → K, ∑ o ∈ Finset.range t.k, ((if i = t.frm o then 1 else 0) * f o) = 0 := by
    intro i h1 f
    refine Eq.trans ?_ (z2 i h1 f)
    exact Finset.sum_congr rfl (fun o _ => mul_comm _ _)
  rcases cas i with ⟨l, hl, rfl⟩ | h1 <;> rcases cas j with ⟨o, ho, rfl⟩ | h2
  · rw [s1 l hl, s2 o ho, s3 l hl]
    by_cases e : l = o
    · subst e
      rw [hs.diag, hs.diag, (wMat_skew p t c).diag]; ring
    · have ne1 : t.frm l ≠ t.frm o := fun e' => e (h.frInj l hl o ho e')
      rw [h.hU o ho _ hi ne1, h.hU l hl _ hj (Ne.symm ne1)]
      unfold wMat
      rw [hs.neg (c (t.frm o)) (c (t.frm l)), hs.neg (t.cfg (t.frm o)) (t.cfg (t.frm l))]; ring
  · rw [s1 l hl, z2 j h2, h.hU l hl j hj (fun e => h2 l hl e.symm)]
    rw [hs.neg (c j), hs.neg (t.cfg j)]; ring
  · rw [z1 i h1, s2 o ho, z3 i h1, h.hU o ho i hi (fun e => h1 o ho e.symm)]; ring
  · rw [z1 i h1, z2 j h2, h.base i hi h1, h.base j hj h2]; ring

/-- **Pfaffian of the new configuration.** -/
theorem core_pf {p : BlkPar K} {t : Tdi K} {c : Nat → Nat} (h : TdiCore p t c) :
    pfOf (orbAt p.X) p.n c = hopSign t.k * pfOf (sMat p t c) (2 * t.k) id * t.pfa := by
  have hs := orbAt_skew p.X
  have hA : Skew (fun i j => orbAt p.X (t.cfg i) (t.cfg j)) := ⟨fun i j => hs.neg _ _, fun i => hs.diag _⟩
  have L := pf_lowrank (B := bMat t) hA (hopC_skew t.k (wMat_skew p t c)) (m := 2 * t.k) (by omega) (n := p.n) (N := upSkew t.M)
    (fun i hi j hj => h.inv i hi j hj) (hopD_inv t.k (wMat p t c))
  rw [pfOf_hopC t.k (wMat_skew p t c)] at L
  have e1 : pfOf (orbAt p.X) p.n c = pfOf (fun i j => orbAt p.X (t.cfg i) (t.cfg j) + ∑ b ∈ Finset.range (2 * t.k),
      (∑ a ∈ Finset.range (2 * t.k), bMat t i a * hopD t.k (wMat p t c) a b) * bMat t j b) p.n id := by
    unfold pfOf
    rw [pf_map c _ _ _ (Nat.le_refl _), List.map_id]
    exact pf_congr (fun i hi j hj => newMat_eq h (List.mem_range.mp hi) (List.mem_range.mp hj))
  have e2 : pfOf (fun i j => orbAt p.X (t.cfg i) (t.cfg j)) p.n id = t.pfa := by
    rw [h.pfa]
    unfold pfOf
    rw [pf_map t.cfg _ _ _ (Nat.le_refl _), List.map_id]
  rw [← e1, e2] at L
  have e3 : pfOf (fun a b => hopC t.k (wMat p t c) a b + ∑ j ∈ Finset.range p.n, (∑ i ∈ Finset.range p.n, bMat t i a * upSkew t.M i j) * bMat t j b)
      (2 * t.k) id = pfOf (sMat p t c) (2 * t.k) id := rfl
  rw [e3] at L
  have e4 : (hopSign t.k : K) * hopSign t.k = 1 := by
    unfold hopSign
    rw [← pow_add, ← two_mul, pow_mul]; simp
  unfold hopSign at e4 ⊢
  linear_combination (-1 : K) ^ (t.k * (t.k + 1) / 2) * L - pfOf (orbAt p.X) p.n c * e4

/-- **Inverse for the new configuration.** -/
theorem core_inv {p : BlkPar K} {t : Tdi K} {c : Nat → Nat} (h : TdiCore p t c) {S' : Nat → Nat → K} (hS : IsInv (sMat p t c) (2 * t.k) id S') :
    IsInv (orbAt p.X) p.n c (fun i j => upSkew t.M i j + ∑ b ∈ Finset.range (2 * t.k), (∑ a ∈ Finset.range (2 * t.k),
      (∑ k ∈ Finset.range p.n, upSkew t.M i k * bMat t k a) * S' a b) * (∑ k ∈ Finset.range p.n, upSkew t.M j k * bMat t k b)) := by
  have hs := orbAt_skew p.X
  have hA : Skew (fun i j => orbAt p.X (t.cfg i) (t.cfg j)) := ⟨fun i j => hs.neg _ _, fun i => hs.diag _⟩
  have L := inv_lowrank (B := bMat t) hA (m := 2 * t.k) (n := p.n) (N := upSkew t.M)
    (fun i hi j hj => h.inv i hi j hj) (hopD_inv t.k (wMat p t c)) hS
  intro i hi j hj
  rw [← L i hi j hj]
  refine Finset.sum_congr rfl (fun k hk => ?_)
  rw [newMat_eq h (Finset.mem_range.mp hk) hj]
  rfl

theorem sMat_skew (p : BlkPar K) (t : Tdi K) (c : Nat → Nat) : Skew (sMat p t c) where
  neg a b := by
    unfold sMat
    rw [(hopC_skew t.k (wMat_skew p t c)).neg a b, neg_add]
    congr 1
    simp only [Finset.sum_mul]
    rw [Finset.sum_comm, ← Finset.sum_neg_distrib]
    refine Finset.sum_congr rfl (fun i _ => ?_)
    rw [← Finset.sum_neg_distrib]
    refine Finset.sum_congr rfl (fun j _ => ?_)
    rw [(upSkew_skew t.M).neg i j]; ring
  diag a := by
    unfold sMat
    rw [(hopC_skew t.k (wMat_skew p t c)).diag, zero_add]
    have := quad_zero p.n (upSkew t.M) (fun i _ j _ => (upSkew_skew t.M).neg i j) (fun i _ => (upSkew_skew t.M).diag i) (fun i => bMat t i a)
    rw [← this]
    simp only [Finset.sum_mul, Finset.mul_sum]
    rw [Finset.sum_comm]
    exact Finset.sum_congr rfl (fun i _ => Finset.sum_congr rfl (fun j _ => by ring))

/-- the entries of the central matrix -/
theorem sMat_uu {p : BlkPar K} {t : Tdi K} {c : Nat → Nat} {l o : Nat} (hl : l < t.k) (ho : o < t.k) :
    sMat p t c l o = wMat p t c l o + ∑ j ∈ Finset.range p.n, (∑ i ∈ Finset.range p.n, t.U i l * upSkew t.M i j) * t.U j o := by
  unfold sMat hopC bMat
  simp only [hl, ho, if_true]

theorem sMat_uv {p : BlkPar K} {t : Tdi K} {c : Nat → Nat} (h : TdiCore p t c) {l o : Nat} (hl : l < t.k) (ho : o < t.k) :
    sMat p t c l (t.k + o) = (if o = l then -1 else 0) + t.UMV l o := by
  unfold sMat hopC bMat
  have h1 : ¬ t.k + o < t.k := by omega
  simp only [hl, h1, if_true, if_false, Nat.add_sub_cancel_left]
  rw [h.hUMV l hl o ho, sum_hop p.n (fun j => ∑ i ∈ Finset.range p.n, t.U i l * upSkew t.M i j) _ (h.frLt o ho)]
  congr 1
  by_cases e : o = l
  · rw [if_pos (by omega), if_pos e]
  · rw [if_neg (by omega), if_neg e]

theorem sMat_vv {p : BlkPar K} {t : Tdi K} {c : Nat → Nat} (h : TdiCore p t c) {l o : Nat} (hl : l < t.k) (ho : o < t.k) :
    sMat p t c (t.k + l) (t.k + o) = upSkew t.M (t.frm l) (t.frm o) := by
  unfold sMat hopC bMat
  have h1 : ¬ t.k + o < t.k := by omega
  have h2 : ¬ t.k + l < t.k := by omega
  simp only [h1, h2, if_false, Nat.add_sub_cancel_left, zero_add]
  rw [sum_hop p.n (fun j => ∑ i ∈ Finset.range p.n, (if i = t.frm l then 1 else 0) * upSkew t.M i j) _ (h.frLt o ho),
    sum_hop' p.n (fun i => upSkew t.M i (t.frm o)) _ (h.frLt l hl)]

/-- The assembled array is the central matrix, provided that the first `k-1` columns of `Q` are there. -/
theorem assemble_eq {p : BlkPar K} {t : Tdi K} {c : Nat → Nat} (h : TdiCore p t c) (hq : t.k ≤ t.nq + 1) {a b : Nat} (ha : a < 2 * t.k) (hb : b < 2 * t.k) :
    upSkew (assemble (requireUMU p t)).Cp a b = sMat p t c a b := by
  have main : ∀ a b, a < b → b < 2 * t.k → (assemble (requireUMU p t)).Cp a b = sMat p t c a b := by
    intro a b hab hb
    unfold assemble requireUMU
    simp only
    by_cases h1 : b < t.k
    · rw [if_pos h1, if_pos hab, if_pos ⟨hab, h1⟩, sMat_uu (by omega) h1, h.hW b h1 a hab]
      congr 1
      unfold dotN
      rw [← Finset.sum_neg_distrib]
      refine Finset.sum_congr rfl (fun j hj => ?_)
      beta_reduce
      have ha1 : a < t.nq := by have := h.nqk; omega
      rw [h.hQ a ha1 j (Finset.mem_range.mp hj), Finset.mul_sum, Finset.sum_mul, ← Finset.sum_neg_distrib]
      refine Finset.sum_congr rfl (fun i _ => ?_)
      rw [(upSkew_skew t.M).neg j i]; ring
    · obtain ⟨o, rfl⟩ : ∃ o, b = t.k + o := ⟨b - t.k, by omega⟩
      rw [if_neg h1, if_pos hb]
      by_cases h2 : a < t.k
      · rw [if_pos h2, sMat_uv h h2 (by omega), Nat.add_sub_cancel_left]
        by_cases e : o = a
        · rw [if_pos (by omega), if_pos e]; ring
        · rw [if_neg (by omega), if_neg e]; ring
      · obtain ⟨l, rfl⟩ : ∃ l, a = t.k + l := ⟨a - t.k, by omega⟩
        rw [if_neg h2, if_pos hab, sMat_vv h (by omega) (by omega), Nat.add_sub_cancel_left, Nat.add_sub_cancel_left]
        exact h.hVMV o (by omega) l (by omega)
  unfold upSkew
  rcases Nat.lt_trichotomy a b with e | e | e
  · rw [if_pos e, main a b e hb]
  · subst e; rw [if_neg (by omega), if_neg (by omega), (sMat_skew p t c).diag]
  · rw [if_neg (by omega), if_pos e, main b a e ha, ← (sMat_skew p t c).neg]

end MVMC
