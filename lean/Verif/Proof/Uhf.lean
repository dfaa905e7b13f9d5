import Verif.Model.Uhf
import Verif.Spec.MeanField
import Verif.Proof.Wick
import Verif.Proof.PfUpdate

/-! The mean-field matrix and energy of the Hartree–Fock program as sums over the lines of the definition files. -/
namespace MVMC
open MVMC.Spec

/-! ### pairing -/

theorem pairing_add2 {M : Nat} (h D : Mat2) {i j : Nat} (hi : i < M) (hj : j < M) (v : ℂ) :
    pairing M (addAt2 h i j v) D = pairing M h D + v * D i j := by
  unfold pairing addAt2
  have e : ∀ a ∈ Finset.range M, (∑ b ∈ Finset.range M, (if a = i ∧ b = j then h a b + v else h a b) * D a b) =
      (∑ b ∈ Finset.range M, h a b * D a b) + if a = i then v * D i j else 0 := by
    intro a _
    by_cases ha : a = i
    · subst ha
      rw [if_pos rfl]
      have : ∀ b ∈ Finset.range M, (if a = a ∧ b = j then h a b + v else h a b) * D a b =
          h a b * D a b + if b = j then v * D a j else 0 := by
        intro b _
        by_cases hb : b = j
        · subst hb; simp; ring
        · simp [hb]
      rw [Finset.sum_congr rfl this, Finset.sum_add_distrib, Finset.sum_ite_eq' , if_pos (Finset.mem_range.mpr hj)]
    · simp [ha]
  rw [Finset.sum_congr rfl e, Finset.sum_add_distrib, Finset.sum_ite_eq', if_pos (Finset.mem_range.mpr hi)]

theorem pairing_fold {M n : Nat} (step : Mat2 → Nat → Mat2) (D : Mat2) (f : Nat → ℂ)
    (hs : ∀ h, ∀ i < n, pairing M (step h i) D = pairing M h D + f i) (h : Mat2) :
    pairing M ((List.range n).foldl step h) D = pairing M h D + ∑ i ∈ Finset.range n, f i := by
  induction n with
  | zero => simp
  | succ n ih =>
    rw [List.range_succ, List.foldl_append, List.foldl_cons, List.foldl_nil, hs _ n (by omega), ih (fun h i hi => hs h i (by omega)),
      Finset.sum_range_succ]
    ring

theorem real_fold {n : Nat} (step : ℝ → Nat → ℝ) (f : Nat → ℝ) (hs : ∀ E, ∀ i < n, step E i = E + f i) (E : ℝ) :
    (List.range n).foldl step E = E + ∑ i ∈ Finset.range n, f i := by
  induction n with
  | zero => simp
  | succ n ih =>
    rw [List.range_succ, List.foldl_append, List.foldl_cons, List.foldl_nil, hs _ n (by omega), ih (fun h i hi => hs h i (by omega)),
      Finset.sum_range_succ]
    ring

/-! ### Wick values of a sum -/

/-- linear part of `wickValue` at `G` in the direction `D` -/
noncomputable def wickLin (G D : Mat2) : List Op → ℂ
  | [.cr I, .an J] => D I J
  | [.cr I, .an J, .cr K, .an L] => G I J * D K L + D I J * G K L + D I L * ((if J = K then 1 else 0) - G K J) - G I L * D K J
  | _ => 0

/-- quadratic part -/
noncomputable def wickQuad (D : Mat2) : List Op → ℂ
  | [.cr I, .an J, .cr K, .an L] => D I J * D K L - D I L * D K J
  | _ => 0

theorem wick_expand (G D : Mat2) (t : ℂ) (ops : List Op) :
    wickValue (fun i j => G i j + t * D i j) ops = wickValue G ops + t * wickLin G D ops + t ^ 2 * wickQuad D ops := by
  unfold wickValue wickLin wickQuad
  split
  · simp
  · simp only []; ring
  · simp

theorem wick_lin_self (G : Mat2) (ops : List Op) : wickLin G G ops - wickQuad G ops = wickValue G ops := by
  match ops with
  | [.cr I, .an J] => simp [wickValue, wickLin, wickQuad]
  | [.cr I, .an J, .cr K, .an L] => simp only [wickValue, wickLin, wickQuad]; ring
  | [] | [_] | [.an _, _] | [.cr _, .cr _] | [_, _, _] | .an _ :: _ :: _ :: _ :: _ | .cr _ :: .cr _ :: _ :: _ :: _ 
  | .cr _ :: .an _ :: .an _ :: _ :: _ | .cr _ :: .an _ :: .cr _ :: .cr _ :: _ | _ :: _ :: _ :: _ :: _ :: _ => simp [wickValue, wickLin, wickQuad]

/-- sum of a quantity over the lines -/
noncomputable def lineSum (f : List Op → ℂ) (T : List (ℂ × List Op)) : ℂ := (T.map (fun t => t.1 * f t.2)).sum

theorem lineSum_append (f : List Op → ℂ) (S T : List (ℂ × List Op)) : lineSum f (S ++ T) = lineSum f S + lineSum f T := by
  unfold lineSum; rw [List.map_append, List.sum_append]

theorem lineSum_flat (f : List Op → ℂ) (n : Nat) (g : Nat → List (ℂ × List Op)) :
    lineSum f ((List.range n).flatMap g) = ∑ i ∈ Finset.range n, lineSum f (g i) := by
  induction n with
  | zero => simp [lineSum]
  | succ n ih => rw [List.range_succ, List.flatMap_append, lineSum_append, ih, Finset.sum_range_succ]; simp

theorem lineSum_combine (f g h k : List Op → ℂ) (a b : ℂ) (e : ∀ ops, f ops = g ops + a * h ops + b * k ops) (T : List (ℂ × List Op)) :
    lineSum f T = lineSum g T + a * lineSum h T + b * lineSum k T := by
  induction T with
  | nil => simp [lineSum]
  | cons t T ih =>
    unfold lineSum at ih ⊢
    simp only [List.map_cons, List.sum_cons]
    rw [ih, e]; ring

/-! ### `makeham` line by line -/

section
variable {N : Nat} {H : HamPar} (hi : HamIdx N H) (hd : HamDistinct H) {G : Mat2} (D : Mat2)
include hi

theorem pair_transfer (h : Mat2) {i : Nat} (h' : i < H.nTR) : pairing (2 * N) (mkTransfer N H h i) D = pairing (2 * N) h D +
    lineSum (wickLin G D) (termTransfer N (H.pTR i) (H.tr i 0) (H.tr i 1) (H.tr i 2) (H.tr i 3)) := by
  obtain ⟨a, b, c, d⟩ := hi.tr i h'
  unfold mkTransfer
  have h1 : H.tr i 0 + H.tr i 1 * N < 2 * N := by nlinarith
  have h2 : H.tr i 2 + H.tr i 3 * N < 2 * N := by nlinarith
  rw [pairing_add2 _ _ h1 h2]
  simp [lineSum, termTransfer, wickLin]

theorem pair_intra (h : Mat2) {i : Nat} (h' : i < H.nCI) : pairing (2 * N) (mkIntra N H true G h i) D = pairing (2 * N) h D +
    lineSum (wickLin G D) (termCoulombIntra N (H.pCI i) (H.ci i)) := by
  have a := hi.ci i h'
  unfold mkIntra
  have h1 : H.ci i < 2 * N := by omega
  have h2 : H.ci i + N < 2 * N := by omega
  have hne : ¬ (H.ci i = H.ci i + N) := by omega
  simp only [if_true, zero_mul, one_mul, add_zero]
  rw [pairing_add2 _ _ h2 h1, pairing_add2 _ _ h1 h2, pairing_add2 _ _ h2 h2, pairing_add2 _ _ h1 h1]
  simp only [lineSum, termCoulombIntra, numOp, List.cons_append, List.nil_append, List.map_cons, List.map_nil, List.sum_cons, List.sum_nil,
    wickLin, if_neg hne]
  ring

include hd in
theorem pair_inter (hG : RealDiag (2 * N) G) (h : Mat2) {i : Nat} (h' : i < H.nCO) :
    pairing (2 * N) (mkInter N H true G h i) D = pairing (2 * N) h D +
    lineSum (wickLin G D) (termCoulombInter N (H.pCO i) (H.co i 0) (H.co i 1)) := by
  obtain ⟨a, b⟩ := hi.co i h'
  have hne := hd.co i h'
  unfold mkInter
  have h1 : H.co i 0 < 2 * N := by omega
  have h2 : H.co i 0 + N < 2 * N := by omega
  have h3 : H.co i 1 < 2 * N := by omega
  have h4 : H.co i 1 + N < 2 * N := by omega
  have n1 : ¬ (H.co i 0 + N = H.co i 1) := by omega
  have n2 : ¬ (H.co i 0 = H.co i 1 + N) := by omega
  have n3 : ¬ (H.co i 0 + N = H.co i 1 + N) := by omega
  have re : ∀ x y, x < 2 * N → y < 2 * N → (((G x x + G y y).re : ℝ) : ℂ) = G x x + G y y := by
    intro x y hx hy
    apply Complex.ext
    · simp
    · simp [hG x hx, hG y hy]
  simp only [if_true, zero_mul, one_mul, add_zero]
  rw [re _ _ h1 h2, re _ _ h3 h4]
  rw [pairing_add2 _ _ h2 h3, pairing_add2 _ _ h3 h2, pairing_add2 _ _ h4 h1, pairing_add2 _ _ h1 h4,
    pairing_add2 _ _ h4 h2, pairing_add2 _ _ h2 h4, pairing_add2 _ _ h3 h1, pairing_add2 _ _ h1 h3,
    pairing_add2 _ _ h4 h4, pairing_add2 _ _ h3 h3, pairing_add2 _ _ h2 h2, pairing_add2 _ _ h1 h1]
  simp only [lineSum, termCoulombInter, numOp, List.cons_append, List.nil_append, List.map_cons, List.map_nil, List.sum_cons, List.sum_nil,
    wickLin, if_neg hne, if_neg n1, if_neg n2, if_neg n3]
  ring

include hd in
theorem pair_hund (h : Mat2) {i : Nat} (h' : i < H.nHU) :
    pairing (2 * N) (mkHund N H true G h i) D = pairing (2 * N) h D +
    lineSum (wickLin G D) (termHund N (H.pHU i) (H.hu i 0) (H.hu i 1)) := by
  obtain ⟨a, b⟩ := hi.hu i h'
  have hne := hd.hu i h'
  unfold mkHund
  have h1 : H.hu i 0 < 2 * N := by omega
  have h2 : H.hu i 0 + N < 2 * N := by omega
  have h3 : H.hu i 1 < 2 * N := by omega
  have h4 : H.hu i 1 + N < 2 * N := by omega
  have n3 : ¬ (H.hu i 0 + N = H.hu i 1 + N) := by omega
  simp only [if_true, zero_mul, one_mul, add_zero]
  rw [pairing_add2 _ _ h4 h2, pairing_add2 _ _ h2 h4, pairing_add2 _ _ h3 h1, pairing_add2 _ _ h1 h3,
    pairing_add2 _ _ h4 h4, pairing_add2 _ _ h3 h3, pairing_add2 _ _ h2 h2, pairing_add2 _ _ h1 h1]
  simp only [lineSum, termHund, numOp, List.cons_append, List.nil_append, List.map_cons, List.map_nil, List.sum_cons, List.sum_nil,
    wickLin, if_neg hne, if_neg n3]
  ring

theorem pair_exchange (h : Mat2) {i : Nat} (h' : i < H.nEX) :
    pairing (2 * N) (mkExchange N H G h i) D = pairing (2 * N) h D +
    lineSum (wickLin G D) (termExchange N (H.pEX i) (H.ex i 0) (H.ex i 1)) := by
  obtain ⟨a, b⟩ := hi.ex i h'
  unfold mkExchange
  have h1 : H.ex i 0 < 2 * N := by omega
  have h2 : H.ex i 0 + N < 2 * N := by omega
  have h3 : H.ex i 1 < 2 * N := by omega
  have h4 : H.ex i 1 + N < 2 * N := by omega
  have n1 : ¬ (H.ex i 1 = H.ex i 1 + N) := by omega
  have n2 : ¬ (H.ex i 1 + N = H.ex i 1) := by omega
  simp only [zero_mul, one_mul, add_zero]
  rw [pairing_add2 _ _ h4 h3, pairing_add2 _ _ h2 h1, pairing_add2 _ _ h3 h4, pairing_add2 _ _ h1 h2,
    pairing_add2 _ _ h3 h1, pairing_add2 _ _ h2 h4, pairing_add2 _ _ h4 h2, pairing_add2 _ _ h1 h3]
  simp only [lineSum, termExchange, List.map_cons, List.map_nil, List.sum_cons, List.sum_nil,
    wickLin, if_neg n1, if_neg n2]
  ring

theorem pair_pairHop (h : Mat2) {i : Nat} (h' : i < H.nPH) :
    pairing (2 * N) (mkPairHop N H G h i) D = pairing (2 * N) h D +
    lineSum (wickLin G D) (termPairHop N (H.pPH i) (H.ph i 0) (H.ph i 1)) := by
  obtain ⟨a, b⟩ := hi.ph i h'
  unfold mkPairHop
  have h1 : H.ph i 0 < 2 * N := by omega
  have h2 : H.ph i 0 + N < 2 * N := by omega
  have h3 : H.ph i 1 < 2 * N := by omega
  have h4 : H.ph i 1 + N < 2 * N := by omega
  have n1 : ¬ (H.ph i 1 = H.ph i 0 + N) := by omega
  simp only [zero_mul, one_mul, add_zero]
  rw [pairing_add2 _ _ h2 h3, pairing_add2 _ _ h1 h4, pairing_add2 _ _ h2 h4, pairing_add2 _ _ h1 h3]
  simp only [lineSum, termPairHop, List.map_cons, List.map_nil, List.sum_cons, List.sum_nil,
    wickLin, if_neg n1]
  ring

theorem pair_interAll (h : Mat2) {i : Nat} (h' : i < H.nIA) :
    pairing (2 * N) (mkInterAll N H G h i) D = pairing (2 * N) h D +
    lineSum (wickLin G D) (termInterAll N (H.pIA i) (H.ia i 0) (H.ia i 1) (H.ia i 2) (H.ia i 3) (H.ia i 4) (H.ia i 5) (H.ia i 6) (H.ia i 7)) := by
  obtain ⟨⟨a, b, c, d⟩, a', b', c', d'⟩ := hi.ia i h'
  unfold mkInterAll
  have h1 : H.ia i 0 + H.ia i 1 * N < 2 * N := by nlinarith
  have h2 : H.ia i 2 + H.ia i 3 * N < 2 * N := by nlinarith
  have h3 : H.ia i 4 + H.ia i 5 * N < 2 * N := by nlinarith
  have h4 : H.ia i 6 + H.ia i 7 * N < 2 * N := by nlinarith
  simp only [lineSum, termInterAll, List.map_cons, List.map_nil, List.sum_cons, List.sum_nil, wickLin]
  generalize H.ia i 0 + H.ia i 1 * N = s1 at *
  generalize H.ia i 2 + H.ia i 3 * N = s2 at *
  generalize H.ia i 4 + H.ia i 5 * N = s3 at *
  generalize H.ia i 6 + H.ia i 7 * N = s4 at *
  by_cases hc : s1 = s2 ∧ s3 = s4 ∧ s1 = s3
  · rw [if_pos hc]
    obtain ⟨rfl, rfl, rfl⟩ := hc
    rw [pairing_add2 _ _ h1 h1, if_pos rfl]; ring
  · rw [if_neg hc]
    by_cases h23 : s2 = s3
    · rw [if_pos h23, if_pos h23, pairing_add2 _ _ h1 h4, pairing_add2 _ _ h3 h2, pairing_add2 _ _ h1 h4, pairing_add2 _ _ h3 h4,
        pairing_add2 _ _ h1 h2]
      ring
    · rw [if_neg h23, if_neg h23, pairing_add2 _ _ h3 h2, pairing_add2 _ _ h1 h4, pairing_add2 _ _ h3 h4, pairing_add2 _ _ h1 h2]
      ring

include hd in
/-- the matrix of `makeham` as a linear form -/
theorem pair_makeham (hG : RealDiag (2 * N) G) :
    pairing (2 * N) (makeham N H true G) D = lineSum (wickLin G D) (hamTerms N H) := by
  unfold makeham hamTerms
  simp only [if_true]
  rw [pairing_fold (n := H.nIA) (mkInterAll N H G) _ _ (fun h i h' => pair_interAll hi (G := G) D h h'), pairing_fold (n := H.nPH) (mkPairHop N H G) _ _ (fun h i h' => pair_pairHop hi (G := G) D h h'),
    pairing_fold (n := H.nEX) (mkExchange N H G) _ _ (fun h i h' => pair_exchange hi (G := G) D h h'), pairing_fold (n := H.nHU) (mkHund N H true G) _ _ (fun h i h' => pair_hund hi hd (G := G) D h h'),
    pairing_fold (n := H.nCO) (mkInter N H true G) _ _ (fun h i h' => pair_inter hi hd D hG h h'), pairing_fold (n := H.nCI) (mkIntra N H true G) _ _ (fun h i h' => pair_intra hi (G := G) D h h'),
    pairing_fold (n := H.nTR) (mkTransfer N H) _ _ (fun h i h' => pair_transfer hi (G := G) D h h')]
  simp only [lineSum_append, lineSum_flat]
  have : pairing (2 * N) (fun _ _ => 0) D = 0 := by unfold pairing; simp
  rw [this]; ring

end

/-! ### `cal_energy` line by line -/

theorem accRe_eq (E : ℝ) (z : ℂ) : accRe E z = E + z.re := by unfold accRe; simp

section
variable {N : Nat} {H : HamPar} {G : Mat2}

theorem en_intra (E : ℝ) (i : Nat) : enIntra N H true G E i = E + (-(lineSum (wickQuad G) (termCoulombIntra N (H.pCI i) (H.ci i)))).re := by
  unfold enIntra
  simp only [if_true, accRe_eq, zero_mul, one_mul, add_zero, lineSum, termCoulombIntra, numOp, List.cons_append, List.nil_append, List.map_cons,
    List.map_nil, List.sum_cons, List.sum_nil, wickQuad]
  rw [add_assoc, ← Complex.add_re]
  congr 2; ring

theorem en_inter (hi : HamIdx N H) (hG : RealDiag (2 * N) G) (E : ℝ) {i : Nat} (h' : i < H.nCO) :
    enInter N H true G E i = E + (-(lineSum (wickQuad G) (termCoulombInter N (H.pCO i) (H.co i 0) (H.co i 1)))).re := by
  obtain ⟨a, b⟩ := hi.co i h'
  have h1 : H.co i 0 < 2 * N := by omega
  have h2 : H.co i 0 + N < 2 * N := by omega
  have h3 : H.co i 1 < 2 * N := by omega
  have h4 : H.co i 1 + N < 2 * N := by omega
  have re : ∀ x y, x < 2 * N → y < 2 * N → (((G x x + G y y).re : ℝ) : ℂ) = G x x + G y y := by
    intro x y hx hy
    apply Complex.ext
    · simp
    · simp [hG x hx, hG y hy]
  unfold enInter
  simp only [if_true, accRe_eq, zero_mul, one_mul, add_zero, lineSum, termCoulombInter, numOp, List.cons_append, List.nil_append, List.map_cons,
    List.map_nil, List.sum_cons, List.sum_nil, wickQuad]
  have e : -1 * H.pCO i * (G (H.co i 0) (H.co i 0) + G (H.co i 0 + N) (H.co i 0 + N)).re *
      (G (H.co i 1) (H.co i 1) + G (H.co i 1 + N) (H.co i 1 + N)).re =
      (-(H.pCO i : ℂ) * (G (H.co i 0) (H.co i 0) + G (H.co i 0 + N) (H.co i 0 + N)) *
        (G (H.co i 1) (H.co i 1) + G (H.co i 1 + N) (H.co i 1 + N))).re := by
    have hA := re _ _ h1 h2
    have hB := re _ _ h3 h4
    generalize G (H.co i 0) (H.co i 0) + G (H.co i 0 + N) (H.co i 0 + N) = A at hA ⊢
    generalize G (H.co i 1) (H.co i 1) + G (H.co i 1 + N) (H.co i 1 + N) = B at hB ⊢
    conv_rhs => rw [← hA, ← hB]
    rw [← Complex.ofReal_neg, ← Complex.ofReal_mul, ← Complex.ofReal_mul, Complex.ofReal_re]
    ring
  rw [e]
  simp only [add_assoc, ← Complex.add_re]
  congr 2; ring

theorem en_hund (E : ℝ) (i : Nat) : enHund N H true G E i = E + (-(lineSum (wickQuad G) (termHund N (H.pHU i) (H.hu i 0) (H.hu i 1)))).re := by
  unfold enHund
  simp only [if_true, accRe_eq, zero_mul, one_mul, add_zero, lineSum, termHund, numOp, List.cons_append, List.nil_append, List.map_cons,
    List.map_nil, List.sum_cons, List.sum_nil, wickQuad]
  simp only [add_assoc, ← Complex.add_re]
  congr 2; ring

theorem en_exchange (E : ℝ) (i : Nat) :
    enExchange N H G E i = E + (-(lineSum (wickQuad G) (termExchange N (H.pEX i) (H.ex i 0) (H.ex i 1)))).re := by
  unfold enExchange
  simp only [accRe_eq, zero_mul, one_mul, add_zero, lineSum, termExchange, List.map_cons,
    List.map_nil, List.sum_cons, List.sum_nil, wickQuad]
  simp only [add_assoc, ← Complex.add_re]
  congr 2; ring

theorem en_pairHop (E : ℝ) (i : Nat) :
    enPairHop N H G E i = E + (-(lineSum (wickQuad G) (termPairHop N (H.pPH i) (H.ph i 0) (H.ph i 1)))).re := by
  unfold enPairHop
  simp only [accRe_eq, zero_mul, one_mul, add_zero, lineSum, termPairHop, List.map_cons,
    List.map_nil, List.sum_cons, List.sum_nil, wickQuad]
  simp only [add_assoc, ← Complex.add_re]
  congr 2; ring

theorem en_interAll (E : ℝ) (i : Nat) :
    enInterAll N H G E i = E + (-(lineSum (wickQuad G) (termInterAll N (H.pIA i) (H.ia i 0) (H.ia i 1) (H.ia i 2) (H.ia i 3) (H.ia i 4)
      (H.ia i 5) (H.ia i 6) (H.ia i 7)))).re := by
  unfold enInterAll
  simp only [accRe_eq, lineSum, termInterAll, List.map_cons, List.map_nil, List.sum_cons, List.sum_nil, wickQuad]
  simp only [add_assoc, ← Complex.add_re]
  congr 2; ring

theorem calEnergy_eq (hi : HamIdx N H) (hG : RealDiag (2 * N) G) (nsize : Nat) (jPH jIA : ℝ) (eig : Nat → ℝ) :
    calEnergy N nsize H true jPH jIA eig G = (∑ k ∈ Finset.range nsize, eig k) - (lineSum (wickQuad G) (hamTerms N H)).re := by
  unfold calEnergy hamTerms
  simp only [if_true]
  rw [real_fold (n := H.nCI) (enIntra N H true G) _ (fun E i _ => en_intra E i), real_fold (n := H.nCO) (enInter N H true G) _ (fun E i h' => en_inter hi hG E h'), real_fold (n := H.nHU) (enHund N H true G) _ (fun E i _ => en_hund E i),
    real_fold (n := H.nEX) (enExchange N H G) _ (fun E i _ => en_exchange E i), real_fold (n := H.nPH) (enPairHop N H G) _ (fun E i _ => en_pairHop E i), real_fold (n := H.nIA) (enInterAll N H G) _ (fun E i _ => en_interAll E i),
    sumLoop_eq]
  simp only [lineSum_append, lineSum_flat, Complex.add_re, Complex.neg_re, Complex.re_sum, Finset.sum_neg_distrib]
  have : ∑ i ∈ Finset.range H.nTR, (lineSum (wickQuad G) (termTransfer N (H.pTR i) (H.tr i 0) (H.tr i 1) (H.tr i 2) (H.tr i 3))).re = 0 := by
    apply Finset.sum_eq_zero; intro i _; simp [lineSum, termTransfer, wickQuad]
  rw [this]; ring

end
end MVMC
