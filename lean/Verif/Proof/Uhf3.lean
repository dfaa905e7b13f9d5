import Verif.Proof.Uhf2

/-! How the mean-field matrix depends on the density matrix, and the bound on the reported energy. -/
namespace MVMC
open MVMC.Spec

/-! ### distance of matrices -/

/-- `Σ_ij |A_ij - B_ij|` -/
noncomputable def l1 (M : Nat) (A B : Mat2) : ℝ := ∑ i ∈ Finset.range M, ∑ j ∈ Finset.range M, ‖A i j - B i j‖

theorem l1_nonneg (M : Nat) (A B : Mat2) : 0 ≤ l1 M A B := Finset.sum_nonneg fun _ _ => Finset.sum_nonneg fun _ _ => norm_nonneg _

theorem l1_add2 {M : Nat} (h h' : Mat2) (i j : Nat) (v v' : ℂ) {ε B : ℝ} (hv : ‖v - v'‖ ≤ ε) (hb : l1 M h h' ≤ B) :
    l1 M (addAt2 h i j v) (addAt2 h' i j v') ≤ B + ε := by
  have hε : 0 ≤ ε := le_trans (norm_nonneg _) hv
  refine le_trans ?_ (add_le_add_left hb ε)
  unfold l1 addAt2
  have e : ∀ a b, ‖(if a = i ∧ b = j then h a b + v else h a b) - (if a = i ∧ b = j then h' a b + v' else h' a b)‖ ≤
      ‖h a b - h' a b‖ + if a = i then (if b = j then ε else 0) else 0 := by
    intro a b
    by_cases ha : a = i
    · by_cases hb : b = j
      · rw [if_pos ⟨ha, hb⟩, if_pos ⟨ha, hb⟩, if_pos ha, if_pos hb]
        have : h a b + v - (h' a b + v') = (h a b - h' a b) + (v - v') := by ring
        rw [this]
        exact le_trans (norm_add_le _ _) (by linarith)
      · rw [if_neg (fun h => hb h.2), if_neg (fun h => hb h.2), if_pos ha, if_neg hb, add_zero]
    · rw [if_neg (fun h => ha h.1), if_neg (fun h => ha h.1), if_neg ha, add_zero]
  refine le_trans (Finset.sum_le_sum fun a _ => Finset.sum_le_sum fun b _ => e a b) ?_
  simp only [Finset.sum_add_distrib]
  refine add_le_add_right ?_ _
  have s1 : ∀ a ∈ Finset.range M, (∑ b ∈ Finset.range M, if a = i then (if b = j then ε else 0) else 0) ≤ if a = i then ε else 0 := by
    intro a _
    by_cases ha : a = i
    · simp only [if_pos ha, Finset.sum_ite_eq']; split_ifs <;> linarith
    · simp [ha]
  refine le_trans (Finset.sum_le_sum s1) ?_
  rw [Finset.sum_ite_eq']; split_ifs <;> linarith

theorem l1_fold {M n : Nat} (step step' : Mat2 → Nat → Mat2) (f : Nat → ℝ)
    (hs : ∀ h h' B, ∀ i < n, l1 M h h' ≤ B → l1 M (step h i) (step' h' i) ≤ B + f i) (h h' : Mat2) {B : ℝ} (hb : l1 M h h' ≤ B) :
    l1 M ((List.range n).foldl step h) ((List.range n).foldl step' h') ≤ B + ∑ i ∈ Finset.range n, f i := by
  induction n with
  | zero => simpa using hb
  | succ n ih =>
    rw [List.range_succ, List.foldl_append, List.foldl_append, List.foldl_cons, List.foldl_nil, List.foldl_cons, List.foldl_nil,
      Finset.sum_range_succ, ← add_assoc]
    exact hs _ _ _ n (by omega) (ih (fun h h' B i hi => hs h h' B i (by omega)))

theorem weight_append (S T : List (ℂ × List Op)) : twoBodyWeight (S ++ T) = twoBodyWeight S + twoBodyWeight T := by
  unfold twoBodyWeight; rw [List.map_append, List.sum_append]

theorem weight_flat (n : Nat) (g : Nat → List (ℂ × List Op)) :
    twoBodyWeight ((List.range n).flatMap g) = ∑ i ∈ Finset.range n, twoBodyWeight (g i) := by
  induction n with
  | zero => simp [twoBodyWeight]
  | succ n ih => rw [List.range_succ, List.flatMap_append, weight_append, ih, Finset.sum_range_succ]; simp

section
variable {N : Nat} {H : HamPar} {G G' : Mat2} {δ : ℝ} (hi : HamIdx N H)
  (hδ : ∀ i < 2 * N, ∀ j < 2 * N, ‖G i j - G' i j‖ ≤ δ)

theorem diff_le (c : ℂ) {x y : ℂ} (h : ‖x - y‖ ≤ δ) : ‖c * x - c * y‖ ≤ ‖c‖ * δ := by
  rw [← mul_sub, norm_mul]; exact mul_le_mul_of_nonneg_left h (norm_nonneg _)

theorem diff_le_re (c : ℂ) {x y z w : ℂ} (h : ‖x - y‖ ≤ δ) (h' : ‖z - w‖ ≤ δ) : ‖c * ((x + z).re : ℝ) - c * ((y + w).re : ℝ)‖ ≤ 2 * ‖c‖ * δ := by
  rw [← mul_sub, norm_mul, ← Complex.ofReal_sub, ← Complex.sub_re, Complex.norm_real, Real.norm_eq_abs]
  have : |(x + z - (y + w)).re| ≤ δ + δ := by
    refine le_trans (Complex.abs_re_le_norm _) ?_
    have e : x + z - (y + w) = (x - y) + (z - w) := by ring
    rw [e]
    exact le_trans (norm_add_le _ _) (add_le_add h h')
  nlinarith [norm_nonneg c]

include hi hδ

theorem l1_intra (h h' : Mat2) (B : ℝ) (i : Nat) (hn : i < H.nCI) (hb : l1 (2 * N) h h' ≤ B) :
    l1 (2 * N) (mkIntra N H true G h i) (mkIntra N H true G' h' i) ≤ B + 4 * δ * twoBodyWeight (termCoulombIntra N (H.pCI i) (H.ci i)) := by
  have a := hi.ci i hn
  have h1 : H.ci i < 2 * N := by omega
  have h2 : H.ci i + N < 2 * N := by omega
  unfold mkIntra
  simp only [if_true, zero_mul, one_mul, add_zero, neg_mul]
  have k : ‖-(H.pCI i : ℂ)‖ = ‖(H.pCI i : ℂ)‖ := norm_neg _
  have w : twoBodyWeight (termCoulombIntra N (H.pCI i) (H.ci i)) = ‖(H.pCI i : ℂ)‖ := by simp [twoBodyWeight, termCoulombIntra, numOp]
  have := l1_add2 _ _ (H.ci i + N) (H.ci i) _ _ (diff_le (-(H.pCI i : ℂ)) (hδ _ h1 _ h2))
    (l1_add2 _ _ (H.ci i) (H.ci i + N) _ _ (diff_le (-(H.pCI i : ℂ)) (hδ _ h2 _ h1))
    (l1_add2 _ _ (H.ci i + N) (H.ci i + N) _ _ (diff_le (H.pCI i : ℂ) (hδ _ h1 _ h1))
    (l1_add2 _ _ (H.ci i) (H.ci i) _ _ (diff_le (H.pCI i : ℂ) (hδ _ h2 _ h2)) hb)))
  simp only [neg_mul] at this
  refine le_trans this (le_of_eq ?_)
  rw [k, w]; ring

theorem l1_inter (h h' : Mat2) (B : ℝ) (i : Nat) (hn : i < H.nCO) (hb : l1 (2 * N) h h' ≤ B) :
    l1 (2 * N) (mkInter N H true G h i) (mkInter N H true G' h' i) ≤
      B + 4 * δ * twoBodyWeight (termCoulombInter N (H.pCO i) (H.co i 0) (H.co i 1)) := by
  obtain ⟨a, b⟩ := hi.co i hn
  have h1 : H.co i 0 < 2 * N := by omega
  have h2 : H.co i 0 + N < 2 * N := by omega
  have h3 : H.co i 1 < 2 * N := by omega
  have h4 : H.co i 1 + N < 2 * N := by omega
  unfold mkInter
  simp only [if_true, zero_mul, one_mul, add_zero]
  have k : ‖-(H.pCO i : ℂ)‖ = ‖(H.pCO i : ℂ)‖ := norm_neg _
  have w : twoBodyWeight (termCoulombInter N (H.pCO i) (H.co i 0) (H.co i 1)) = 4 * ‖(H.pCO i : ℂ)‖ := by
    simp only [twoBodyWeight, termCoulombInter, numOp, List.cons_append, List.nil_append, List.map_cons, List.map_nil, List.sum_cons,
      List.sum_nil, List.length_cons, List.length_nil]
    norm_num; ring
  refine le_trans (l1_add2 _ _ _ _ _ _ (diff_le _ (hδ _ h3 _ h2)) (l1_add2 _ _ _ _ _ _ (diff_le _ (hδ _ h2 _ h3))
    (l1_add2 _ _ _ _ _ _ (diff_le _ (hδ _ h1 _ h4)) (l1_add2 _ _ _ _ _ _ (diff_le _ (hδ _ h4 _ h1))
    (l1_add2 _ _ _ _ _ _ (diff_le _ (hδ _ h2 _ h4)) (l1_add2 _ _ _ _ _ _ (diff_le _ (hδ _ h4 _ h2))
    (l1_add2 _ _ _ _ _ _ (diff_le _ (hδ _ h1 _ h3)) (l1_add2 _ _ _ _ _ _ (diff_le _ (hδ _ h3 _ h1))
    (l1_add2 _ _ _ _ _ _ (diff_le_re _ (hδ _ h1 _ h1) (hδ _ h2 _ h2)) (l1_add2 _ _ _ _ _ _ (diff_le_re _ (hδ _ h1 _ h1) (hδ _ h2 _ h2))
    (l1_add2 _ _ _ _ _ _ (diff_le_re _ (hδ _ h3 _ h3) (hδ _ h4 _ h4)) (l1_add2 _ _ _ _ _ _ (diff_le_re _ (hδ _ h3 _ h3) (hδ _ h4 _ h4))
      hb)))))))))))) (le_of_eq ?_)
  rw [k, w]; ring

theorem l1_hund (h h' : Mat2) (B : ℝ) (i : Nat) (hn : i < H.nHU) (hb : l1 (2 * N) h h' ≤ B) :
    l1 (2 * N) (mkHund N H true G h i) (mkHund N H true G' h' i) ≤
      B + 4 * δ * twoBodyWeight (termHund N (H.pHU i) (H.hu i 0) (H.hu i 1)) := by
  obtain ⟨a, b⟩ := hi.hu i hn
  have h1 : H.hu i 0 < 2 * N := by omega
  have h2 : H.hu i 0 + N < 2 * N := by omega
  have h3 : H.hu i 1 < 2 * N := by omega
  have h4 : H.hu i 1 + N < 2 * N := by omega
  unfold mkHund
  simp only [if_true, zero_mul, one_mul, add_zero]
  have k : ‖-(H.pHU i : ℂ)‖ = ‖(H.pHU i : ℂ)‖ := norm_neg _
  have k' : ‖-(-(H.pHU i : ℂ))‖ = ‖(H.pHU i : ℂ)‖ := by rw [neg_neg]
  have w : twoBodyWeight (termHund N (H.pHU i) (H.hu i 0) (H.hu i 1)) = 2 * ‖(H.pHU i : ℂ)‖ := by
    simp only [twoBodyWeight, termHund, numOp, List.cons_append, List.nil_append, List.map_cons, List.map_nil, List.sum_cons,
      List.sum_nil, List.length_cons, List.length_nil]
    norm_num; ring
  refine le_trans (l1_add2 _ _ _ _ _ _ (diff_le _ (hδ _ h2 _ h4)) (l1_add2 _ _ _ _ _ _ (diff_le _ (hδ _ h4 _ h2))
    (l1_add2 _ _ _ _ _ _ (diff_le _ (hδ _ h1 _ h3)) (l1_add2 _ _ _ _ _ _ (diff_le _ (hδ _ h3 _ h1))
    (l1_add2 _ _ _ _ _ _ (diff_le _ (hδ _ h2 _ h2)) (l1_add2 _ _ _ _ _ _ (diff_le _ (hδ _ h1 _ h1))
    (l1_add2 _ _ _ _ _ _ (diff_le _ (hδ _ h4 _ h4)) (l1_add2 _ _ _ _ _ _ (diff_le _ (hδ _ h3 _ h3))
      hb)))))))) (le_of_eq ?_)
  rw [k', k, w]; ring

theorem l1_exchange (h h' : Mat2) (B : ℝ) (i : Nat) (hn : i < H.nEX) (hb : l1 (2 * N) h h' ≤ B) :
    l1 (2 * N) (mkExchange N H G h i) (mkExchange N H G' h' i) ≤
      B + 4 * δ * twoBodyWeight (termExchange N (H.pEX i) (H.ex i 0) (H.ex i 1)) := by
  obtain ⟨a, b⟩ := hi.ex i hn
  have h1 : H.ex i 0 < 2 * N := by omega
  have h2 : H.ex i 0 + N < 2 * N := by omega
  have h3 : H.ex i 1 < 2 * N := by omega
  have h4 : H.ex i 1 + N < 2 * N := by omega
  unfold mkExchange
  simp only [zero_mul, one_mul, add_zero]
  have k : ‖-(H.pEX i : ℂ)‖ = ‖(H.pEX i : ℂ)‖ := norm_neg _
  have w : twoBodyWeight (termExchange N (H.pEX i) (H.ex i 0) (H.ex i 1)) = 2 * ‖(H.pEX i : ℂ)‖ := by
    simp only [twoBodyWeight, termExchange, List.map_cons, List.map_nil, List.sum_cons,
      List.sum_nil, List.length_cons, List.length_nil]
    norm_num; ring
  refine le_trans (l1_add2 _ _ _ _ _ _ (diff_le _ (hδ _ h1 _ h2)) (l1_add2 _ _ _ _ _ _ (diff_le _ (hδ _ h3 _ h4))
    (l1_add2 _ _ _ _ _ _ (diff_le _ (hδ _ h2 _ h1)) (l1_add2 _ _ _ _ _ _ (diff_le _ (hδ _ h4 _ h3))
    (l1_add2 _ _ _ _ _ _ (diff_le _ (hδ _ h2 _ h4)) (l1_add2 _ _ _ _ _ _ (diff_le _ (hδ _ h3 _ h1))
    (l1_add2 _ _ _ _ _ _ (diff_le _ (hδ _ h1 _ h3)) (l1_add2 _ _ _ _ _ _ (diff_le _ (hδ _ h4 _ h2))
      hb)))))))) (le_of_eq ?_)
  rw [k, w]; ring

theorem l1_pairHop (h h' : Mat2) (B : ℝ) (i : Nat) (hn : i < H.nPH) (hb : l1 (2 * N) h h' ≤ B) :
    l1 (2 * N) (mkPairHop N H G h i) (mkPairHop N H G' h' i) ≤
      B + 4 * δ * twoBodyWeight (termPairHop N (H.pPH i) (H.ph i 0) (H.ph i 1)) := by
  obtain ⟨a, b⟩ := hi.ph i hn
  have h1 : H.ph i 0 < 2 * N := by omega
  have h2 : H.ph i 0 + N < 2 * N := by omega
  have h3 : H.ph i 1 < 2 * N := by omega
  have h4 : H.ph i 1 + N < 2 * N := by omega
  unfold mkPairHop
  simp only [zero_mul, one_mul, add_zero]
  have k : ‖-(H.pPH i : ℂ)‖ = ‖(H.pPH i : ℂ)‖ := norm_neg _
  have w : twoBodyWeight (termPairHop N (H.pPH i) (H.ph i 0) (H.ph i 1)) = ‖(H.pPH i : ℂ)‖ := by
    simp only [twoBodyWeight, termPairHop, List.map_cons, List.map_nil, List.sum_cons,
      List.sum_nil, List.length_cons, List.length_nil]
    norm_num
  refine le_trans (l1_add2 _ _ _ _ _ _ (diff_le _ (hδ _ h1 _ h4)) (l1_add2 _ _ _ _ _ _ (diff_le _ (hδ _ h2 _ h3))
    (l1_add2 _ _ _ _ _ _ (diff_le _ (hδ _ h1 _ h3)) (l1_add2 _ _ _ _ _ _ (diff_le _ (hδ _ h2 _ h4))
      hb)))) (le_of_eq ?_)
  rw [k, w]; ring

theorem l1_interAll (hδ0 : 0 ≤ δ) (h h' : Mat2) (B : ℝ) (i : Nat) (hn : i < H.nIA) (hb : l1 (2 * N) h h' ≤ B) :
    l1 (2 * N) (mkInterAll N H G h i) (mkInterAll N H G' h' i) ≤
      B + 4 * δ * twoBodyWeight (termInterAll N (H.pIA i) (H.ia i 0) (H.ia i 1) (H.ia i 2) (H.ia i 3) (H.ia i 4) (H.ia i 5) (H.ia i 6)
        (H.ia i 7)) := by
  obtain ⟨⟨a, b, c, d⟩, a', b', c', d'⟩ := hi.ia i hn
  have h1 : H.ia i 0 + H.ia i 1 * N < 2 * N := by nlinarith
  have h2 : H.ia i 2 + H.ia i 3 * N < 2 * N := by nlinarith
  have h3 : H.ia i 4 + H.ia i 5 * N < 2 * N := by nlinarith
  have h4 : H.ia i 6 + H.ia i 7 * N < 2 * N := by nlinarith
  have w : twoBodyWeight (termInterAll N (H.pIA i) (H.ia i 0) (H.ia i 1) (H.ia i 2) (H.ia i 3) (H.ia i 4) (H.ia i 5) (H.ia i 6)
        (H.ia i 7)) = ‖H.pIA i‖ := by
    simp only [twoBodyWeight, termInterAll, List.map_cons, List.map_nil, List.sum_cons,
      List.sum_nil, List.length_cons, List.length_nil]
    norm_num
  rw [w]
  unfold mkInterAll
  simp only
  generalize H.ia i 0 + H.ia i 1 * N = s1 at *
  generalize H.ia i 2 + H.ia i 3 * N = s2 at *
  generalize H.ia i 4 + H.ia i 5 * N = s3 at *
  generalize H.ia i 6 + H.ia i 7 * N = s4 at *
  have k : ‖-(H.pIA i)‖ = ‖H.pIA i‖ := norm_neg _
  have z : ‖H.pIA i - H.pIA i‖ ≤ 0 := by simp
  have main := l1_add2 _ _ s3 s2 _ _ (diff_le (-(H.pIA i)) (hδ _ h1 _ h4)) (l1_add2 _ _ s1 s4 _ _ (diff_le (-(H.pIA i)) (hδ _ h3 _ h2))
    (l1_add2 _ _ s3 s4 _ _ (diff_le (H.pIA i) (hδ _ h1 _ h2)) (l1_add2 _ _ s1 s2 _ _ (diff_le (H.pIA i) (hδ _ h3 _ h4)) hb)))
  by_cases hc : s1 = s2 ∧ s3 = s4 ∧ s1 = s3
  · rw [if_pos hc, if_pos hc]
    refine le_trans (l1_add2 _ _ _ _ _ _ z hb) ?_
    have : 0 ≤ δ * ‖H.pIA i‖ := mul_nonneg hδ0 (norm_nonneg _)
    linarith
  · rw [if_neg hc, if_neg hc]
    by_cases h23 : s2 = s3
    · rw [if_pos h23, if_pos h23]
      refine le_trans (l1_add2 _ _ _ _ _ _ z main) (le_of_eq ?_)
      rw [k]; ring
    · rw [if_neg h23, if_neg h23]
      refine le_trans main (le_of_eq ?_)
      rw [k]; ring

theorem l1_makeham (hδ0 : 0 ≤ δ) : l1 (2 * N) (makeham N H true G) (makeham N H true G') ≤ 4 * δ * twoBodyWeight (hamTerms N H) := by
  have z : l1 (2 * N) (fun _ _ => 0) (fun _ _ => 0) ≤ 0 := by simp [l1]
  have t := l1_fold (n := H.nTR) (mkTransfer N H) (mkTransfer N H) (fun _ => 0)
    (fun h h' B i _ hb => by unfold mkTransfer; exact l1_add2 _ _ _ _ _ _ (by simp) hb) _ _ z
  have f := l1_fold (n := H.nIA) (mkInterAll N H G) (mkInterAll N H G') _ (fun h h' B i hn hb => l1_interAll hi hδ hδ0 h h' B i hn hb) _ _
    (l1_fold (n := H.nPH) (mkPairHop N H G) (mkPairHop N H G') _ (fun h h' B i hn hb => l1_pairHop hi hδ h h' B i hn hb) _ _
    (l1_fold (n := H.nEX) (mkExchange N H G) (mkExchange N H G') _ (fun h h' B i hn hb => l1_exchange hi hδ h h' B i hn hb) _ _
    (l1_fold (n := H.nHU) (mkHund N H true G) (mkHund N H true G') _ (fun h h' B i hn hb => l1_hund hi hδ h h' B i hn hb) _ _
    (l1_fold (n := H.nCO) (mkInter N H true G) (mkInter N H true G') _ (fun h h' B i hn hb => l1_inter hi hδ h h' B i hn hb) _ _
    (l1_fold (n := H.nCI) (mkIntra N H true G) (mkIntra N H true G') _ (fun h h' B i hn hb => l1_intra hi hδ h h' B i hn hb) _ _ t)))))
  unfold makeham hamTerms
  simp only [if_true]
  refine le_trans f (le_of_eq ?_)
  simp only [weight_append, weight_flat, ← Finset.mul_sum, Finset.sum_const_zero]
  have : ∑ i ∈ Finset.range H.nTR, twoBodyWeight (termTransfer N (H.pTR i) (H.tr i 0) (H.tr i 1) (H.tr i 2) (H.tr i 3)) = 0 := by
    apply Finset.sum_eq_zero; intro i _; simp [twoBodyWeight, termTransfer]
  rw [this]; ring

end

/-! ### entries of a projector -/

theorem ortho_complete {M : Nat} {φ : Mat2} (h : Orthonormal M M φ) {i : Nat} (hi : i < M) :
    ∑ k ∈ Finset.range M, Complex.normSq (φ k i) = 1 := by
  let V : Matrix (Fin M) (Fin M) ℂ := Matrix.of fun k l => φ k l
  have h1 : V.map (starRingEnd ℂ) * V.transpose = 1 := by
    ext a b
    rw [Matrix.mul_apply, Matrix.one_apply]
    have := h a a.2 b b.2
    rw [Finset.sum_range] at this
    simp only [Fin.ext_iff]
    exact this
  have h2 := mul_eq_one_comm.mp h1
  have h3 := congrFun (congrFun h2 ⟨i, hi⟩) ⟨i, hi⟩
  rw [Matrix.mul_apply, Matrix.one_apply, if_pos rfl] at h3
  have h4 := congrArg Complex.re h3
  rw [Complex.re_sum] at h4
  rw [Finset.sum_range]
  simp only [Complex.one_re] at h4
  rw [← h4]
  refine Finset.sum_congr rfl fun k _ => ?_
  show _ = (φ k i * (starRingEnd ℂ) (φ k i)).re
  rw [Complex.mul_conj, Complex.ofReal_re]

theorem rho_le_one {M n : Nat} {φ : Mat2} (h : Orthonormal M M φ) (hn : n ≤ M) {i j : Nat} (hi : i < M) (hj : j < M) : ‖rho n φ i j‖ ≤ 1 := by
  have part : ∀ i < M, ∑ k ∈ Finset.range n, Complex.normSq (φ k i) ≤ 1 := by
    intro i hi
    rw [← ortho_complete h hi]
    exact Finset.sum_le_sum_of_subset_of_nonneg (Finset.range_mono hn) (fun _ _ _ => Complex.normSq_nonneg _)
  rw [rho_range]
  refine le_trans (norm_sum_le _ _) ?_
  have e : ∀ k ∈ Finset.range n, ‖(starRingEnd ℂ) (φ k i) * φ k j‖ ≤ (Complex.normSq (φ k i) + Complex.normSq (φ k j)) / 2 := by
    intro k _
    rw [norm_mul, RCLike.norm_conj, Complex.normSq_eq_norm_sq, Complex.normSq_eq_norm_sq]
    nlinarith [sq_nonneg (‖φ k i‖ - ‖φ k j‖)]
  refine le_trans (Finset.sum_le_sum e) ?_
  rw [← Finset.sum_div, Finset.sum_add_distrib]
  linarith [part i hi, part j hj]

/-! ### bound on the energy -/

theorem l1_hermU {M : Nat} {A B : Mat2} (hB : HermOn M B) : l1 M (hermU A) B ≤ 2 * l1 M A B := by
  have e : ∀ i ∈ Finset.range M, ∀ j ∈ Finset.range M, ‖hermU A i j - B i j‖ ≤ ‖A i j - B i j‖ + ‖A j i - B j i‖ := by
    intro i hi j hj
    have hi := Finset.mem_range.mp hi
    have hj := Finset.mem_range.mp hj
    unfold hermU
    split_ifs with h1 h2
    · linarith [norm_nonneg (A j i - B j i)]
    · subst h2
      have : ((A i i).re : ℂ) - B i i = (((A i i - B i i).re : ℝ) : ℂ) := by
        apply Complex.ext
        · simp
        · simp [realDiag_of_herm hB i hi]
      rw [this, Complex.norm_real, Real.norm_eq_abs]
      linarith [Complex.abs_re_le_norm (A i i - B i i), norm_nonneg (A i i - B i i)]
    · rw [hB i hi j hj, ← map_sub, RCLike.norm_conj]
      linarith [norm_nonneg (A i j - (starRingEnd ℂ) (B j i))]
  unfold l1
  refine le_trans (Finset.sum_le_sum fun i hi => Finset.sum_le_sum fun j hj => e i hi j hj) (le_of_eq ?_)
  simp only [Finset.sum_add_distrib]
  rw [Finset.sum_comm (f := fun i j => ‖A j i - B j i‖)]
  ring

theorem pairing_sub_le {M : Nat} {A B D : Mat2} (hD : ∀ i < M, ∀ j < M, ‖D i j‖ ≤ 1) : ‖pairing M A D - pairing M B D‖ ≤ l1 M A B := by
  unfold pairing l1
  rw [← Finset.sum_sub_distrib]
  refine le_trans (norm_sum_le _ _) (Finset.sum_le_sum fun i hi => ?_)
  rw [← Finset.sum_sub_distrib]
  refine le_trans (norm_sum_le _ _) (Finset.sum_le_sum fun j hj => ?_)
  rw [← sub_mul, norm_mul]
  exact mul_le_of_le_one_right (norm_nonneg _) (hD i (Finset.mem_range.mp hi) j (Finset.mem_range.mp hj))

theorem fold2_sum (n : Nat) (f : Nat → Nat → ℝ) : (List.range n).foldl (fun s i => (List.range n).foldl (fun s j => s + f i j) s) 0 =
    ∑ i ∈ Finset.range n, ∑ j ∈ Finset.range n, f i j := by
  have inner : ∀ m s i, (List.range m).foldl (fun s j => s + f i j) s = s + ∑ j ∈ Finset.range m, f i j := by
    intro m s i
    exact real_fold (fun s j => s + f i j) (f i) (fun _ _ _ => rfl) s
  rw [real_fold (n := n) (fun s i => (List.range n).foldl (fun s j => s + f i j) s) (fun i => ∑ j ∈ Finset.range n, f i j)
    (fun s i _ => inner n s i) 0, zero_add]

theorem rest_entry {N : Nat} (hN : 0 < N) (G G' : Mat2) {i j : Nat} (hi : i < 2 * N) (hj : j < 2 * N) :
    ‖G i j - G' i j‖ ≤ 2 * N * N * uhfRest N G G' := by
  unfold uhfRest
  rw [fold2_sum]
  have hN' : (0 : ℝ) < N := by exact_mod_cast hN
  have c : 2 * (N : ℝ) * N * (Real.sqrt (∑ i ∈ Finset.range (2 * N), ∑ j ∈ Finset.range (2 * N),
      Real.sqrt (Complex.normSq (G i j - G' i j)) * Real.sqrt (Complex.normSq (G i j - G' i j))) / (2 * N * N)) =
      Real.sqrt (∑ i ∈ Finset.range (2 * N), ∑ j ∈ Finset.range (2 * N),
      Real.sqrt (Complex.normSq (G i j - G' i j)) * Real.sqrt (Complex.normSq (G i j - G' i j))) := by
    field_simp
  rw [c]
  apply Real.le_sqrt_of_sq_le
  have nn : ∀ i j, 0 ≤ Real.sqrt (Complex.normSq (G i j - G' i j)) * Real.sqrt (Complex.normSq (G i j - G' i j)) :=
    fun i j => mul_self_nonneg _
  have e : ‖G i j - G' i j‖ ^ 2 = Real.sqrt (Complex.normSq (G i j - G' i j)) * Real.sqrt (Complex.normSq (G i j - G' i j)) := by
    rw [Real.mul_self_sqrt (Complex.normSq_nonneg _), Complex.normSq_eq_norm_sq]
  rw [e]
  refine le_trans (Finset.single_le_sum (f := fun j => Real.sqrt (Complex.normSq (G i j - G' i j)) * Real.sqrt (Complex.normSq (G i j - G' i j)))
    (fun j _ => nn i j) (Finset.mem_range.mpr hj)) ?_
  exact Finset.single_le_sum (f := fun i => ∑ j ∈ Finset.range (2 * N),
    Real.sqrt (Complex.normSq (G i j - G' i j)) * Real.sqrt (Complex.normSq (G i j - G' i j)))
    (fun i _ => Finset.sum_nonneg fun j _ => nn i j) (Finset.mem_range.mpr hi)

end MVMC
