import Verif.Proof.PfLowRank
import Verif.Proof.PfaffianDet
import Verif.Spec.PfBlock
import Mathlib.LinearAlgebra.Matrix.ToLinearEquiv

/-! Elementary facts about the pieces of the block update. -/
namespace MVMC
open Spec

variable {K : Type} [Field K]

theorem upSkew_skew (A : Nat → Nat → K) : Skew (upSkew A) where
  neg x y := by
    unfold upSkew
    rcases Nat.lt_trichotomy x y with h | h | h
    · rw [if_pos h, if_neg (by omega), if_pos h, neg_neg]
    · subst h; simp
    · rw [if_neg (by omega), if_pos h, if_pos h]
  diag x := by simp [upSkew]

theorem orbAt_skew (X : Nat → Nat → K) : Skew (orbAt X) where
  neg x y := by
    unfold orbAt
    rcases Nat.lt_trichotomy x y with h | h | h
    · rw [if_neg (by omega), if_pos h, if_neg (by omega), if_neg (by omega), neg_neg]
    · subst h; simp
    · rw [if_neg (by omega), if_neg (by omega), if_neg (by omega), if_pos h]
  diag x := by simp [orbAt]

theorem orbAt_eq {n : Nat} {X : Nat → Nat → K} (h : SkewMat n X) {i j : Nat} (hi : i < n) (hj : j < n) : orbAt X i j = X i j := by
  unfold orbAt
  rcases Nat.lt_trichotomy i j with e | e | e
  · rw [if_neg (by omega), if_pos e]
  · subst e; rw [if_pos rfl, h.2 i hi]
  · rw [if_neg (by omega), if_neg (by omega), h.1 i j hi hj]

theorem skmv_eq (n : Nat) (A : Nat → Nat → K) (x : Nat → K) (i : Nat) :
    skmv n A x i = ∑ j ∈ Finset.range n, upSkew A i j * x j := by
  unfold skmv upSkew
  rw [← Finset.sum_sub_distrib]
  refine Finset.sum_congr rfl (fun j _ => ?_)
  rcases Nat.lt_trichotomy i j with e | e | e
  · rw [if_pos (by omega), if_neg (by omega), if_pos e, sub_zero]
  · subst e; simp
  · rw [if_neg (by omega), if_pos (by omega), if_neg (by omega), if_pos e]; ring

theorem skslc_eq (A : Nat → Nat → K) (i j : Nat) : skslc A i j = upSkew A j i := by
  unfold skslc upSkew
  rcases Nat.lt_trichotomy i j with e | e | e
  · rw [if_neg (by omega), if_neg (by omega), if_neg (by omega), if_pos e]
  · subst e; simp
  · rw [if_neg (by omega), if_pos e, if_pos e]

/-- `config_to_site` inverts the configuration. -/
theorem siteCfg_iff {n : Nat} {cfg : Nat → Nat} (hinj : ∀ i, i < n → ∀ j, j < n → cfg i = cfg j → i = j) (x i : Nat) :
    siteCfg n cfg x = some i ↔ i < n ∧ cfg i = x := by
  unfold siteCfg
  have : ∀ m, m ≤ n → ∀ x i, (List.range m).foldl (fun (s : Nat → Option Nat) i x => if x = cfg i then some i else s x) (fun _ => none) x = some i ↔
      i < m ∧ cfg i = x := by
    intro m
    induction m with
    | zero => intro _ x i; simp
    | succ m ih =>
      intro hm x i
      rw [List.range_succ, List.foldl_append]
      simp only [List.foldl_cons, List.foldl_nil]
      by_cases e : x = cfg m
      · rw [if_pos e]
        constructor
        · intro h; cases h; exact ⟨by omega, e.symm⟩
        · rintro ⟨h1, h2⟩
          rw [hinj i (by omega) m (by omega) (h2.trans e)]
      · rw [if_neg e, ih (by omega)]
        constructor
        · rintro ⟨h1, h2⟩; exact ⟨by omega, h2⟩
        · rintro ⟨h1, h2⟩
          refine ⟨?_, h2⟩
          rcases Nat.lt_succ_iff_lt_or_eq.mp h1 with h | h
          · exact h
          · subst h; exact absurd h2.symm e
  exact this n (Nat.le_refl _) x i

/-- The new column of `U`. -/
theorem pushColU_eq {p : BlkPar K} {t : Tdi K} (hinj : ∀ i, i < p.n → ∀ j, j < p.n → t.cfg i = t.cfg j → i = j)
    (hlt : ∀ i, i < p.n → t.cfg i < p.nsite) (osi osj : Nat) :
    pushColU p t osi osj = fun i b => if b = t.k ∧ i < p.n then p.X (t.cfg i) osi - p.X (t.cfg i) osj else t.U i b := by
  unfold pushColU
  have : ∀ m, (List.range m).foldl (fun U i => match siteCfg p.n t.cfg i with
      | some m => set2 U m t.k (p.X i osi - p.X i osj)
      | none => U) t.U =
      fun i b => if b = t.k ∧ i < p.n ∧ t.cfg i < m then p.X (t.cfg i) osi - p.X (t.cfg i) osj else t.U i b := by
    intro m
    induction m with
    | zero => funext i b; simp
    | succ m ih =>
      rw [List.range_succ, List.foldl_append, ih]
      simp only [List.foldl_cons, List.foldl_nil]
      cases hs : siteCfg p.n t.cfg m with
      | none =>
        funext i b
        simp only
        have : ∀ i, i < p.n → t.cfg i ≠ m := fun i hi e => by
          rw [(siteCfg_iff hinj m i).mpr ⟨hi, e⟩] at hs; cases hs
        by_cases h : b = t.k ∧ i < p.n ∧ t.cfg i < m
        · rw [if_pos h, if_pos ⟨h.1, h.2.1, by omega⟩]
        · rw [if_neg h, if_neg]
          rintro ⟨h1, h2, h3⟩
          exact h ⟨h1, h2, by have := this i h2; omega⟩
      | some r =>
        obtain ⟨hr, er⟩ := (siteCfg_iff hinj m r).mp hs
        funext i b
        simp only [set2]
        by_cases h : i = r ∧ b = t.k
        · rw [if_pos h, if_pos ⟨h.2, by omega, by rw [h.1, er]; omega⟩, h.1, er]
        · rw [if_neg h]
          by_cases h' : b = t.k ∧ i < p.n ∧ t.cfg i < m
          · rw [if_pos h', if_pos ⟨h'.1, h'.2.1, by omega⟩]
          · rw [if_neg h', if_neg]
            rintro ⟨h1, h2, h3⟩
            have : i ≠ r := fun e => h ⟨e, h1⟩
            refine h' ⟨h1, h2, ?_⟩
            rcases Nat.lt_succ_iff_lt_or_eq.mp h3 with h4 | h4
            · exact h4
            · exact absurd (hinj i h2 r hr (h4.trans er.symm)) this
  refine (this p.nsite).trans ?_
  funext i b
  by_cases h : b = t.k ∧ i < p.n
  · rw [if_pos h, if_pos ⟨h.1, h.2, hlt i h.2⟩]
  · rw [if_neg h, if_neg (fun h' => h ⟨h'.1, h'.2.1⟩)]

/-- `require_Q`: the columns below `kcal` are there, the others are untouched. -/
theorem requireQ_eq (p : BlkPar K) (all : Bool) (t : Tdi K) :
    requireQ p all t = { t with
      nq := max t.nq (if all then t.k else t.k - 1)
      Q := fun i b => if t.nq ≤ b ∧ b < (if all then t.k else t.k - 1) ∧ i < p.n then
        ∑ j ∈ Finset.range p.n, upSkew t.M i j * t.U j b else t.Q i b } := by
  unfold requireQ
  simp only
  generalize (if all = true then t.k else t.k - 1) = kc
  by_cases h : t.nq ≥ kc
  · rw [if_pos h]
    have e1 : max t.nq kc = t.nq := by omega
    have e2 : (fun i b => if t.nq ≤ b ∧ b < kc ∧ i < p.n then ∑ j ∈ Finset.range p.n, upSkew t.M i j * t.U j b else t.Q i b) = t.Q := by
      funext i b
      rw [if_neg (by omega)]
    rw [e1, e2]
  · rw [if_neg h]
    have : ∀ m, (List.range' t.nq m).foldl
        (fun t c => { t with Q := setCol p.n t.Q c (skmv p.n t.M (fun i => t.U i c)), nq := c + 1 }) t =
        { t with nq := t.nq + m, Q := fun i b => if t.nq ≤ b ∧ b < t.nq + m ∧ i < p.n then
          ∑ j ∈ Finset.range p.n, upSkew t.M i j * t.U j b else t.Q i b } := by
      intro m
      induction m with
      | zero =>
        simp only [List.range'_zero, List.foldl_nil, Nat.add_zero]
        have e2 : (fun i b => if t.nq ≤ b ∧ b < t.nq ∧ i < p.n then ∑ j ∈ Finset.range p.n, upSkew t.M i j * t.U j b else t.Q i b) = t.Q := by
          funext i b
          rw [if_neg (by omega)]
        rw [e2]
      | succ m ih =>
        rw [List.range'_1_concat, List.foldl_append, ih]
        simp only [List.foldl_cons, List.foldl_nil]
        have e2 : setCol p.n (fun i b => if t.nq ≤ b ∧ b < t.nq + m ∧ i < p.n then ∑ j ∈ Finset.range p.n, upSkew t.M i j * t.U j b else t.Q i b)
            (t.nq + m) (skmv p.n t.M (fun i => t.U i (t.nq + m))) =
            (fun i b => if t.nq ≤ b ∧ b < t.nq + (m + 1) ∧ i < p.n then ∑ j ∈ Finset.range p.n, upSkew t.M i j * t.U j b else t.Q i b) := by
          funext i b
          unfold setCol
          rw [skmv_eq]
          beta_reduce
          by_cases h1 : b = t.nq + m
          · subst h1
            by_cases h2 : i < p.n
            · rw [if_pos ⟨rfl, h2⟩, if_pos (by omega)]
            · rw [if_neg (by omega), if_neg (by omega), if_neg (by omega)]
          · rw [if_neg (by omega)]
            by_cases h2 : t.nq ≤ b ∧ b < t.nq + m ∧ i < p.n
            · rw [if_pos h2, if_pos (by omega)]
            · rw [if_neg h2, if_neg (by omega)]
        rw [e2]
        congr 1
    rw [this, show t.nq + (kc - t.nq) = max t.nq kc by omega]
    congr 1
    funext i b
    by_cases h2 : t.nq ≤ b ∧ b < kc ∧ i < p.n
    · rw [if_pos h2, if_pos (by omega)]
    · rw [if_neg h2, if_neg (by omega)]

/-- A skew matrix with non-vanishing Pfaffian is regular. -/
theorem exists_inv_of_pf_ne {A : Nat → Nat → K} (hA : Skew A) {n : Nat} (rs : Nat → Nat) (h : pfOf A n rs ≠ 0) : ∃ N, IsInv A n rs N := by
  classical
  let Am : Matrix (Fin n) (Fin n) K := fun i j => A (rs i) (rs j)
  have hd : Am.det ≠ 0 := by
    intro h0
    obtain ⟨v, hv, hv2⟩ := Matrix.exists_vecMul_eq_zero_iff.mpr h0
    obtain ⟨r, hr⟩ : ∃ r, v r ≠ 0 := Function.ne_iff.mp hv
    have hsk : Skew (fun i j : Fin n => A (rs i) (rs j)) := ⟨fun i j => hA.neg _ _, fun i => hA.diag _⟩
    set B := (1 : Matrix (Fin n) (Fin n) K).updateRow r v with hB
    have hc := pf_conj hsk B
    have hdet : B.det = v r := by
      have e : v = ∑ k, v k • (1 : Matrix (Fin n) (Fin n) K) k := by
        funext j
        rw [Finset.sum_apply]
        simp [Matrix.one_apply]
      have := Matrix.det_updateRow_sum (1 : Matrix (Fin n) (Fin n) K) r v
      rw [← e] at this
      rw [hB, this]; simp
    have hz : pf (fun i j => ∑ k : Fin n, ∑ l : Fin n, B i k * A (rs k) (rs l) * B j l) (List.finRange n) = 0 := by
      obtain ⟨q, s, hqs, _, _⟩ := finRange_split r
      have hs : Skew (fun i j => ∑ k : Fin n, ∑ l : Fin n, B i k * A (rs k) (rs l) * B j l) :=
        ⟨fun i j => (formOf_skew hsk).neg (B i) (B j), fun i => (formOf_skew hsk).diag (B i)⟩
      rw [hqs, pf_front hs, pf_cons, altSum_zero_left, mul_zero]
      intro y _
      rw [Finset.sum_comm]
      refine Finset.sum_eq_zero (fun l _ => ?_)
      rw [← Finset.sum_mul]
      have := congrFun hv2 l
      rw [Matrix.vecMul, dotProduct] at this
      have e : ∑ k : Fin n, B r k * A (rs k) (rs l) = 0 := by
        rw [hB, Matrix.updateRow_self]; exact this
      rw [e, zero_mul]
    rw [hz, hdet] at hc
    have : pf (fun i j : Fin n => A (rs i) (rs j)) (List.finRange n) = pfOf A n rs := by
      rw [pf_finRange (fun i j => A (rs i) (rs j))]
      unfold pfOf
      rw [pf_map rs A _ _ (Nat.le_refl _), List.map_id]
    rw [this] at hc
    rcases mul_eq_zero.mp hc.symm with h' | h'
    · exact hr h'
    · exact h h'
  have : Am⁻¹ * Am = 1 := Matrix.nonsing_inv_mul _ (isUnit_iff_ne_zero.mpr hd)
  refine ⟨fun i j => if h : i < n ∧ j < n then Am⁻¹ ⟨i, h.1⟩ ⟨j, h.2⟩ else 0, fun i hi j hj => ?_⟩
  have e := congrFun (congrFun this ⟨i, hi⟩) ⟨j, hj⟩
  rw [Matrix.mul_apply, Matrix.one_apply] at e
  rw [Finset.sum_range]
  simp only [Fin.mk.injEq] at e
  rw [← e]
  refine Finset.sum_congr rfl (fun k _ => ?_)
  beta_reduce
  rw [dif_pos ⟨hi, k.2⟩]

end MVMC
