import Verif.Proof.JordanWigner
import Verif.Proof.Variational

/-! # The matrix of the Hamiltonian: adjoint and conserved quantities -/
namespace MVMC
open MVMC.Spec Matrix Finset

/-! ## Conserved counts -/

/-- change of the number of electrons in the orbitals `p` -/
def chargeOf (p : Nat → Bool) : Op → Int
  | .cr x => if p x then 1 else 0
  | .an x => if p x then -1 else 0

def cntOf (p : Nat → Bool) (l : List Nat) : Int := (l.filter p).length

theorem cntOf_erase (p : Nat → Bool) (l : List Nat) (x : Nat) (h : x ∈ l) : cntOf p (l.erase x) = cntOf p l - if p x then 1 else 0 := by
  have := (List.perm_cons_erase h).filter p |>.length_eq
  unfold cntOf
  rw [this, List.filter_cons]
  split <;> simp

theorem cnt_actAll (p : Nat → Bool) (ops : List Op) {σ τ : Int} {l m : List Nat} (h : actAll ops (some (σ, l)) = some (τ, m)) :
    cntOf p m = cntOf p l + (ops.map (chargeOf p)).sum := by
  induction ops generalizing τ m with
  | nil => simp only [actAll, List.foldr_nil, Option.some.injEq, Prod.mk.injEq] at h; rw [← h.2]; simp
  | cons o ops ih =>
    have e : actAll (o :: ops) (some (σ, l)) = o.act (actAll ops (some (σ, l))) := rfl
    rw [e] at h
    match hk : actAll ops (some (σ, l)) with
    | none => rw [hk] at h; cases o <;> exact absurd h (by simp [Op.act])
    | some (a, b) =>
      rw [hk] at h
      have hb := ih hk
      rw [List.map_cons, List.sum_cons]
      cases o with
      | an x =>
        simp only [Op.act] at h
        split at h
        · rename_i hx
          simp only [Option.some.injEq, Prod.mk.injEq] at h
          rw [← h.2, cntOf_erase p b x hx, hb]
          simp only [chargeOf]
          split <;> omega
        · exact absurd h (by simp)
      | cr x =>
        simp only [Op.act] at h
        split at h
        · exact absurd h (by simp)
        · simp only [Option.some.injEq, Prod.mk.injEq] at h
          rw [← h.2]
          unfold cntOf at hb ⊢
          rw [List.filter_cons]
          simp only [chargeOf]
          split
          · rw [List.length_cons]; push_cast; omega
          · omega

theorem cnt_card {l : List Nat} (hn : l.Nodup) (p : Nat → Bool) : (((l.toFinset.filter (fun x => p x = true)).card : Nat) : Int) = cntOf p l := by
  unfold cntOf
  rw [← List.toFinset_card_of_nodup (hn.filter _)]
  congr 2
  ext z
  simp

/-- a product of operators keeps the number of electrons in `p` if its charge vanishes -/
theorem prodMat_cnt {M : Nat} (ops : List Op) (ho : ∀ o ∈ ops, o.spinOrb < M) (p : Nat → Bool) (hc : (ops.map (chargeOf p)).sum = 0) (S T : Conf M)
    (h : prodMat M ops T S ≠ 0) : (T.1.filter (fun x => p x = true)).card = (S.1.filter (fun x => p x = true)).card := by
  have hS := confOf_sort S
  have hc2 := prodMat_col ops ho (S.1.sort (· ≤ ·)) (Finset.sort_nodup _ _) (sort_lt S) T
  rw [hS] at hc2
  rw [hc2] at h
  match hk : actAll ops (some (1, S.1.sort (· ≤ ·))) with
  | none => rw [hk] at h; exact absurd (by simp [vecOf]) h
  | some (τ, m) =>
    rw [hk] at h
    have hT : T.1 = m.toFinset := by
      by_contra q
      apply h
      simp [vecOf, q]
    have h1 := cnt_actAll p ops hk
    rw [hc, add_zero] at h1
    have h2 := cnt_card (actAll_ok ops ho (Finset.sort_nodup _ _) (sort_lt S) hk).1 p
    have h3 := cnt_card (Finset.sort_nodup S.1 (· ≤ ·)) p
    rw [Finset.sort_toFinset] at h3
    rw [hT]
    omega

theorem hamMat_zero {M : Nat} (H : List (ℂ × List Op)) (S T : Conf M) (h : ∀ t ∈ H, prodMat M t.2 T S = 0) : hamMat M H T S = 0 := by
  induction H with
  | nil => simp [hamMat]
  | cons t H ih =>
    have e : hamMat M (t :: H) = t.1 • prodMat M t.2 + hamMat M H := by simp [hamMat]
    rw [e, Matrix.add_apply, Matrix.smul_apply, h t (by simp), ih (fun t ht => h t (by simp [ht])), smul_zero, add_zero]

/-- a list of lines of charge zero keeps the number of electrons in `p` -/
theorem hamMat_cnt {M : Nat} (H : List (ℂ × List Op)) (ho : ∀ t ∈ H, ∀ o ∈ t.2, o.spinOrb < M) (p : Nat → Bool)
    (hc : ∀ t ∈ H, (t.2.map (chargeOf p)).sum = 0) (S T : Conf M)
    (hne : (T.1.filter (fun x => p x = true)).card ≠ (S.1.filter (fun x => p x = true)).card) : hamMat M H T S = 0 := by
  refine hamMat_zero H S T (fun t ht => ?_)
  by_contra h
  exact hne (prodMat_cnt t.2 (ho t ht) p (hc t ht) S T h)

/-- cases of a line of the Hamiltonian -/
theorem hamTerms_cases {N : Nat} {H : HamPar} {Q : ℂ × List Op → Prop}
    (ci : ∀ i < H.nCI, ∀ t ∈ termCoulombIntra N (H.pCI i) (H.ci i), Q t)
    (co : ∀ i < H.nCO, ∀ t ∈ termCoulombInter N (H.pCO i) (H.co i 0) (H.co i 1), Q t)
    (hu : ∀ i < H.nHU, ∀ t ∈ termHund N (H.pHU i) (H.hu i 0) (H.hu i 1), Q t)
    (tr : ∀ i < H.nTR, ∀ t ∈ termTransfer N (H.pTR i) (H.tr i 0) (H.tr i 1) (H.tr i 2) (H.tr i 3), Q t)
    (ph : ∀ i < H.nPH, ∀ t ∈ termPairHop N (H.pPH i) (H.ph i 0) (H.ph i 1), Q t)
    (ex : ∀ i < H.nEX, ∀ t ∈ termExchange N (H.pEX i) (H.ex i 0) (H.ex i 1), Q t)
    (ia : ∀ i < H.nIA, ∀ t ∈ termInterAll N (H.pIA i) (H.ia i 0) (H.ia i 1) (H.ia i 2) (H.ia i 3) (H.ia i 4) (H.ia i 5) (H.ia i 6) (H.ia i 7), Q t) :
    ∀ t ∈ hamTerms N H, Q t := by
  intro t ht
  unfold hamTerms at ht
  simp only [List.mem_append, List.mem_flatMap, List.mem_range] at ht
  rcases ht with (((((⟨i, hi, h⟩ | ⟨i, hi, h⟩) | ⟨i, hi, h⟩) | ⟨i, hi, h⟩) | ⟨i, hi, h⟩) | ⟨i, hi, h⟩) | ⟨i, hi, h⟩
  · exact ci i hi t h
  · exact co i hi t h
  · exact hu i hi t h
  · exact tr i hi t h
  · exact ph i hi t h
  · exact ex i hi t h
  · exact ia i hi t h

theorem orb_bound {N i s : Nat} (h : i < N) (hs : s < 2) : i + s * N < 2 * N := by
  have : s = 0 ∨ s = 1 := by omega
  rcases this with rfl | rfl <;> omega

theorem hamTerms_orb {N : Nat} {H : HamPar} (hH : HamIdx N H) : ∀ t ∈ hamTerms N H, ∀ o ∈ t.2, o.spinOrb < 2 * N := by
  refine hamTerms_cases ?_ ?_ ?_ ?_ ?_ ?_ ?_
  · intro i hi t ht
    have := hH.ci i hi
    simp only [termCoulombIntra, List.mem_singleton] at ht
    subst ht
    simp [numOp, Op.spinOrb]; omega
  · intro i hi t ht
    have := hH.co i hi
    simp only [termCoulombInter, List.mem_cons, List.not_mem_nil, or_false] at ht
    rcases ht with rfl | rfl | rfl | rfl <;> simp [numOp, Op.spinOrb] <;> omega
  · intro i hi t ht
    have := hH.hu i hi
    simp only [termHund, List.mem_cons, List.not_mem_nil, or_false] at ht
    rcases ht with rfl | rfl <;> simp [numOp, Op.spinOrb] <;> omega
  · intro i hi t ht
    have := hH.tr i hi
    simp only [termTransfer, List.mem_singleton] at ht
    subst ht
    simp only [List.mem_cons, List.not_mem_nil, or_false, forall_eq_or_imp, forall_eq, Op.spinOrb]
    exact ⟨orb_bound this.1 this.2.1, orb_bound this.2.2.1 this.2.2.2⟩
  · intro i hi t ht
    have := hH.ph i hi
    simp only [termPairHop, List.mem_singleton] at ht
    subst ht
    simp [Op.spinOrb]; omega
  · intro i hi t ht
    have := hH.ex i hi
    simp only [termExchange, List.mem_cons, List.not_mem_nil, or_false] at ht
    rcases ht with rfl | rfl <;> simp [Op.spinOrb] <;> omega
  · intro i hi t ht
    obtain ⟨⟨a, b, c, d⟩, e, f, g, h⟩ := hH.ia i hi
    simp only [termInterAll, List.mem_singleton] at ht
    subst ht
    simp only [List.mem_cons, List.not_mem_nil, or_false, forall_eq_or_imp, forall_eq, Op.spinOrb]
    exact ⟨orb_bound a e, orb_bound b f, orb_bound c g, orb_bound d h⟩

/-- a sum of pairs `c†c` has charge zero if the orbitals are paired within `p` -/
theorem hamTerms_charge {N : Nat} {H : HamPar} (p : Nat → Bool)
    (tr : ∀ i < H.nTR, p (H.tr i 0 + H.tr i 1 * N) = p (H.tr i 2 + H.tr i 3 * N))
    (ph : ∀ i < H.nPH, p (H.ph i 0) = p (H.ph i 1) ∧ p (H.ph i 0 + N) = p (H.ph i 1 + N))
    (ex : ∀ i < H.nEX, (p (H.ex i 0) = p (H.ex i 1) ∧ p (H.ex i 0 + N) = p (H.ex i 1 + N)) ∨
      (p (H.ex i 0) = p (H.ex i 0 + N) ∧ p (H.ex i 1) = p (H.ex i 1 + N)))
    (ia : ∀ i < H.nIA, (chargeOf p (.cr (H.ia i 0 + H.ia i 1 * N)) + chargeOf p (.an (H.ia i 2 + H.ia i 3 * N)) +
      chargeOf p (.cr (H.ia i 4 + H.ia i 5 * N)) + chargeOf p (.an (H.ia i 6 + H.ia i 7 * N))) = 0) :
    ∀ t ∈ hamTerms N H, (t.2.map (chargeOf p)).sum = 0 := by
  have num : ∀ x, chargeOf p (.cr x) + chargeOf p (.an x) = 0 := by
    intro x; simp only [chargeOf]; split <;> rfl
  have pr : ∀ x y, p x = p y → chargeOf p (.cr x) + chargeOf p (.an y) = 0 := by
    intro x y h; simp only [chargeOf, h]; split <;> rfl
  refine hamTerms_cases ?_ ?_ ?_ ?_ ?_ ?_ ?_
  · intro i hi t ht
    simp only [termCoulombIntra, List.mem_singleton] at ht
    subst ht
    simp only [numOp, List.cons_append, List.nil_append, List.map_cons, List.map_nil, List.sum_cons, List.sum_nil, add_zero]
    have := num (H.ci i); have := num (H.ci i + N); omega
  · intro i hi t ht
    have h1 := num (H.co i 0); have h2 := num (H.co i 0 + N); have h3 := num (H.co i 1); have h4 := num (H.co i 1 + N)
    simp only [termCoulombInter, List.mem_cons, List.not_mem_nil, or_false] at ht
    rcases ht with rfl | rfl | rfl | rfl <;>
      simp only [numOp, List.cons_append, List.nil_append, List.map_cons, List.map_nil, List.sum_cons, List.sum_nil, add_zero] <;> omega
  · intro i hi t ht
    have h1 := num (H.hu i 0); have h2 := num (H.hu i 0 + N); have h3 := num (H.hu i 1); have h4 := num (H.hu i 1 + N)
    simp only [termHund, List.mem_cons, List.not_mem_nil, or_false] at ht
    rcases ht with rfl | rfl <;>
      simp only [numOp, List.cons_append, List.nil_append, List.map_cons, List.map_nil, List.sum_cons, List.sum_nil, add_zero] <;> omega
  · intro i hi t ht
    have := pr _ _ (tr i hi)
    simp only [termTransfer, List.mem_singleton] at ht
    subst ht
    simp only [List.map_cons, List.map_nil, List.sum_cons, List.sum_nil, add_zero]
    exact this
  · intro i hi t ht
    have h1 := pr _ _ (ph i hi).1; have h2 := pr _ _ (ph i hi).2
    simp only [termPairHop, List.mem_singleton] at ht
    subst ht
    simp only [List.map_cons, List.map_nil, List.sum_cons, List.sum_nil, add_zero]
    omega
  · intro i hi t ht
    have key : chargeOf p (.cr (H.ex i 0)) + chargeOf p (.an (H.ex i 1)) + chargeOf p (.cr (H.ex i 1 + N)) + chargeOf p (.an (H.ex i 0 + N)) = 0 := by
      rcases ex i hi with h | h
      · have h1 := pr _ _ h.1; have h2 := pr _ _ h.2.symm; omega
      · have h1 := pr _ _ h.1; have h2 := pr _ _ h.2.symm; omega
    have key2 : chargeOf p (.cr (H.ex i 0 + N)) + chargeOf p (.an (H.ex i 1 + N)) + chargeOf p (.cr (H.ex i 1)) + chargeOf p (.an (H.ex i 0)) = 0 := by
      rcases ex i hi with h | h
      · have h1 := pr _ _ h.1.symm; have h2 := pr _ _ h.2; omega
      · have h1 := pr _ _ h.1.symm; have h2 := pr _ _ h.2; omega
    simp only [termExchange, List.mem_cons, List.not_mem_nil, or_false] at ht
    rcases ht with rfl | rfl <;> simp only [List.map_cons, List.map_nil, List.sum_cons, List.sum_nil, add_zero] <;> omega
  · intro i hi t ht
    have := ia i hi
    simp only [termInterAll, List.mem_singleton] at ht
    subst ht
    simp only [List.map_cons, List.map_nil, List.sum_cons, List.sum_nil, add_zero]
    omega

/-! ## Sectors -/

/-- a Hamiltonian that conserves Sz keeps the number of up electrons -/
theorem ham_ups {N : Nat} {H : HamPar} (hH : HamIdx N H) (hsz : HamSzConserving H) :
    ∀ t ∈ hamTerms N H, (t.2.map (chargeOf (fun x => decide (x < N)))).sum = 0 := by
  have lowp : ∀ {i s : Nat}, i < N → s < 2 → decide (i + s * N < N) = decide (s = 0) := by
    intro i s h hs
    have : s = 0 ∨ s = 1 := by omega
    rcases this with rfl | rfl
    · simp [h]
    · simp
  refine hamTerms_charge _ ?_ ?_ ?_ ?_
  · intro i hi
    have h := hH.tr i hi
    simp only [lowp h.1 h.2.1, lowp h.2.2.1 h.2.2.2]
    rw [hsz.tr i hi]
  · intro i hi
    have h := hH.ph i hi
    simp [h.1, h.2]
  · intro i hi
    have h := hH.ex i hi
    exact Or.inl (by simp [h.1, h.2])
  · intro i hi
    have h := hH.ia i hi
    have z := hsz.ia i hi
    simp only [chargeOf, lowp h.1.1 h.2.1, lowp h.1.2.1 h.2.2.1, lowp h.1.2.2.1 h.2.2.2.1, lowp h.1.2.2.2 h.2.2.2.2]
    rw [z.1, z.2]
    split <;> split <;> omega

theorem closed_fixedSz {N : Nat} {H : HamPar} (hH : HamIdx N H) (hsz : HamSzConserving H) (Ne : Nat) :
    ClosedOn (fixedSz Ne N) (hamMat (2 * N) (hamTerms N H)) := by
  intro S T hS hT
  have ups := ham_ups hH hsz
  have dns : ∀ t ∈ hamTerms N H, (t.2.map (chargeOf (fun x => decide (N ≤ x)))).sum = 0 := by
    have lowq : ∀ {i s : Nat}, i < N → s < 2 → decide (N ≤ i + s * N) = decide (s = 1) := by
      intro i s h hs
      have : s = 0 ∨ s = 1 := by omega
      rcases this with rfl | rfl
      · simp [h]
      · simp
    refine hamTerms_charge _ ?_ ?_ ?_ ?_
    · intro i hi
      have h := hH.tr i hi
      simp only [lowq h.1 h.2.1, lowq h.2.2.1 h.2.2.2]
      rw [hsz.tr i hi]
    · intro i hi
      have h := hH.ph i hi
      simp; omega
    · intro i hi
      have h := hH.ex i hi
      exact Or.inl (by simp; omega)
    · intro i hi
      have h := hH.ia i hi
      have z := hsz.ia i hi
      simp only [chargeOf, lowq h.1.1 h.2.1, lowq h.1.2.1 h.2.2.1, lowq h.1.2.2.1 h.2.2.2.1, lowq h.1.2.2.2 h.2.2.2.2]
      rw [z.1, z.2]
      split <;> split <;> omega
  by_contra hne
  have a : (T.1.filter (· < N)).card = (S.1.filter (· < N)).card := by
    by_contra q
    exact hne (hamMat_cnt _ (hamTerms_orb hH) _ ups S T (by simpa using q))
  have b : (T.1.filter (N ≤ ·)).card = (S.1.filter (N ≤ ·)).card := by
    by_contra q
    exact hne (hamMat_cnt _ (hamTerms_orb hH) _ dns S T (by simpa using q))
  exact hT ⟨a.trans hS.1, b.trans hS.2⟩

theorem closed_fixedN {N : Nat} {H : HamPar} (hH : HamIdx N H) (n : Nat) : ClosedOn (fixedN n) (hamMat (2 * N) (hamTerms N H)) := by
  intro S T hS hT
  by_contra hne
  have a : T.1.card = S.1.card := by
    by_contra q
    refine hne (hamMat_cnt _ (hamTerms_orb hH) (fun _ => true) (hamTerms_charge _ (by simp) (by simp) (by simp) (by simp [chargeOf])) S T (by simpa using q))
  exact hT (a.trans hS)

theorem closed_local {N : Nat} {H : HamPar} (hH : HamIdx N H) {locSpn : Nat → Int} (hl : HamLocal N locSpn H) :
    ClosedOn (localOne N locSpn) (hamMat (2 * N) (hamTerms N H)) := by
  intro S T hS hT
  by_contra hne
  apply hT
  intro r hr h1
  rw [← hS r hr h1]
  by_contra q
  have site : ∀ {i s : Nat}, i < N → s < 2 → decide (i + s * N = r ∨ i + s * N = r + N) = decide (i = r) := by
    intro i s h hs
    have : s = 0 ∨ s = 1 := by omega
    rcases this with rfl | rfl
    · simp; omega
    · simp; omega
  have site0 : ∀ {i : Nat}, i < N → decide (i = r ∨ i = r + N) = decide (i = r) := by
    intro i h; simp; omega
  have site1 : ∀ {i : Nat}, i < N → decide (i + N = r ∨ i + N = r + N) = decide (i = r) := by
    intro i h; simp; omega
  refine hne (hamMat_cnt _ (hamTerms_orb hH) (fun x => decide (x = r ∨ x = r + N)) (hamTerms_charge _ ?_ ?_ ?_ ?_) S T (by simpa using q))
  · intro i hi
    have h := hH.tr i hi
    simp only [site h.1 h.2.1, site h.2.2.1 h.2.2.2, hl.tr r hr h1 i hi]
  · intro i hi
    have h := hH.ph i hi
    simp only [site0 h.1, site0 h.2, site1 h.1, site1 h.2]
    simp only [hl.ph r hr h1 i hi, and_self]
  · intro i hi
    have h := hH.ex i hi
    refine Or.inr ?_
    simp only [site0 h.1, site0 h.2, site1 h.1, site1 h.2, and_self]
  · intro i hi
    have h := hH.ia i hi
    have z := hl.ia r hr h1 i hi
    simp only [chargeOf, site h.1.1 h.2.1, site h.1.2.1 h.2.2.1, site h.1.2.2.1 h.2.2.2.1, site h.1.2.2.2 h.2.2.2.2, decide_eq_true_eq]
    by_cases c1 : H.ia i 0 = r <;> by_cases c2 : H.ia i 2 = r <;> by_cases c3 : H.ia i 4 = r <;> by_cases c4 : H.ia i 6 = r <;>
      simp [c1, c2, c3, c4] at z ⊢

theorem closed_and {M : Nat} {P Q : Conf M → Prop} {A : Matrix (Conf M) (Conf M) ℂ} (hP : ClosedOn P A) (hQ : ClosedOn Q A) :
    ClosedOn (fun S => P S ∧ Q S) A := by
  intro S T hS hT
  by_cases h : P T
  · exact hQ S T hS.2 (fun q => hT ⟨h, q⟩)
  · exact hP S T hS.1 h

/-! ## Adjoint -/

theorem hamMat_append (M : Nat) (a b : List (ℂ × List Op)) : hamMat M (a ++ b) = hamMat M a + hamMat M b := by
  simp [hamMat]

theorem hamMat_flatMap (M n : Nat) (f : Nat → List (ℂ × List Op)) : hamMat M ((List.range n).flatMap f) = ∑ i ∈ range n, hamMat M (f i) := by
  induction n with
  | zero => simp [hamMat]
  | succ n ih =>
    rw [List.range_succ, List.flatMap_append, hamMat_append, ih, sum_range_succ]
    congr 1
    simp

theorem herm_flatMap {M n : Nat} {f : Nat → List (ℂ × List Op)} (σ : Nat → Nat)
    (h : ∀ i < n, σ i < n ∧ σ (σ i) = i ∧ (hamMat M (f i))ᴴ = hamMat M (f (σ i))) : (hamMat M ((List.range n).flatMap f))ᴴ = hamMat M ((List.range n).flatMap f) := by
  rw [hamMat_flatMap, conjTranspose_sum]
  refine Finset.sum_nbij' σ σ (fun i hi => mem_range.mpr (h i (mem_range.mp hi)).1) (fun i hi => mem_range.mpr (h i (mem_range.mp hi)).1)
    (fun i hi => (h i (mem_range.mp hi)).2.1) (fun i hi => (h i (mem_range.mp hi)).2.1) (fun i hi => (h i (mem_range.mp hi)).2.2)

theorem numOp_comm {M : Nat} {x y : Nat} (hx : x < M) (hy : y < M) : (prodMat M (numOp x ++ numOp y))ᴴ = prodMat M (numOp x ++ numOp y) := by
  rw [prodMat_adj]
  by_cases h : x = y
  · subst h; rfl
  · exact pair_comm (.cr y) (.an y) (.cr x) (.an x) hy hy hx hx (Ne.symm h) (Ne.symm h) (Ne.symm h) (Ne.symm h)

theorem hamMat_one (M : Nat) (c : ℂ) (ops : List Op) : hamMat M [(c, ops)] = c • prodMat M ops := by simp [hamMat]

theorem herm_self {M : Nat} {l : List (ℂ × List Op)} (h : ∀ t ∈ l, star t.1 = t.1 ∧ (prodMat M t.2)ᴴ = prodMat M t.2) : (hamMat M l)ᴴ = hamMat M l := by
  induction l with
  | nil => simp [hamMat]
  | cons t l ih =>
    have e : hamMat M (t :: l) = t.1 • prodMat M t.2 + hamMat M l := by simp [hamMat]
    rw [e, conjTranspose_add, conjTranspose_smul, ih (fun t ht => h t (by simp [ht])), (h t (by simp)).1, (h t (by simp)).2]

/-- a Hamiltonian that contains the adjoint of every line is a Hermitian matrix -/
theorem hamMat_hermitian {N : Nat} {H : HamPar} (hH : HamIdx N H) (hh : HamHermitian H) : (hamMat (2 * N) (hamTerms N H)).IsHermitian := by
  unfold Matrix.IsHermitian hamTerms
  simp only [hamMat_append, conjTranspose_add]
  have real : ∀ r : ℝ, star ((r : ℝ) : ℂ) = r := fun r => Complex.conj_ofReal r
  refine congrArg₂ (· + ·) (congrArg₂ (· + ·) (congrArg₂ (· + ·) (congrArg₂ (· + ·) (congrArg₂ (· + ·) (congrArg₂ (· + ·) ?_ ?_) ?_) ?_) ?_) ?_) ?_
  · refine herm_flatMap id (fun i hi => ⟨hi, rfl, herm_self ?_⟩)
    have := hH.ci i hi
    intro t ht
    simp only [termCoulombIntra, List.mem_singleton] at ht
    subst ht
    exact ⟨real _, numOp_comm (by omega) (by omega)⟩
  · refine herm_flatMap id (fun i hi => ⟨hi, rfl, herm_self ?_⟩)
    have := hH.co i hi
    intro t ht
    simp only [termCoulombInter, List.mem_cons, List.not_mem_nil, or_false] at ht
    rcases ht with rfl | rfl | rfl | rfl <;> exact ⟨real _, numOp_comm (by omega) (by omega)⟩
  · refine herm_flatMap id (fun i hi => ⟨hi, rfl, herm_self ?_⟩)
    have := hH.hu i hi
    intro t ht
    simp only [termHund, List.mem_cons, List.not_mem_nil, or_false] at ht
    rcases ht with rfl | rfl <;> exact ⟨by rw [star_neg, real], numOp_comm (by omega) (by omega)⟩
  · obtain ⟨σ, hσ⟩ := hh.tr
    refine herm_flatMap σ (fun i hi => ?_)
    obtain ⟨h1, h2, h3, h4, h5, h6, h7⟩ := hσ i hi
    refine ⟨h1, h2, ?_⟩
    simp only [termTransfer, hamMat_one]
    rw [conjTranspose_smul, prodMat_adj, h3, h4, h5, h6, h7, star_neg]
    rfl
  · obtain ⟨σ, hσ⟩ := hh.ph
    refine herm_flatMap σ (fun i hi => ?_)
    obtain ⟨h1, h2, h3, h4, h5⟩ := hσ i hi
    have hb := hH.ph i hi
    refine ⟨h1, h2, ?_⟩
    simp only [termPairHop, hamMat_one]
    rw [conjTranspose_smul, prodMat_adj, h3, h4, h5, real]
    congr 1
    exact pair_comm (.cr (H.ph i 1 + N)) (.an (H.ph i 0 + N)) (.cr (H.ph i 1)) (.an (H.ph i 0)) (by simp only [Op.spinOrb]; omega)
      (by simp only [Op.spinOrb]; omega) (by simp only [Op.spinOrb]; omega) (by simp only [Op.spinOrb]; omega) (by simp only [Op.spinOrb]; omega)
      (by simp only [Op.spinOrb]; omega) (by simp only [Op.spinOrb]; omega) (by simp only [Op.spinOrb]; omega)
  · refine herm_flatMap id (fun i hi => ⟨hi, rfl, ?_⟩)
    simp only [termExchange, id]
    have e : ∀ a b : List Op, hamMat (2 * N) [((H.pEX i : ℂ), a), ((H.pEX i : ℂ), b)] = (H.pEX i : ℂ) • prodMat (2 * N) a + (H.pEX i : ℂ) • prodMat (2 * N) b := by
      intro a b; simp [hamMat]
    rw [e, conjTranspose_add, conjTranspose_smul, conjTranspose_smul, prodMat_adj, prodMat_adj, real, add_comm]
    rfl
  · obtain ⟨σ, hσ⟩ := hh.ia
    refine herm_flatMap σ (fun i hi => ?_)
    obtain ⟨h1, h2, h3, h4⟩ := hσ i hi
    obtain ⟨⟨a, b, c, d⟩, e, f, g, h⟩ := hH.ia i hi
    refine ⟨h1, h2, ?_⟩
    simp only [termInterAll, hamMat_one]
    rw [conjTranspose_smul, prodMat_adj, h3]
    rcases h4 with h4 | ⟨h4, h5⟩
    · obtain ⟨q0, q1, q2, q3, q4, q5, q6, q7⟩ := h4
      rw [q0, q1, q2, q3, q4, q5, q6, q7]
      rfl
    · obtain ⟨q0, q1, q2, q3, q4, q5, q6, q7⟩ := h4
      rw [q0, q1, q2, q3, q4, q5, q6, q7]
      have orbne : ∀ {i j s t : Nat}, i < N → j < N → s < 2 → t < 2 → ¬ (i = j ∧ s = t) → i + s * N ≠ j + t * N := by
        intro i j s t hi hj hs ht hne q
        have : s = 0 ∨ s = 1 := by omega
        have : t = 0 ∨ t = 1 := by omega
        apply hne
        rcases ‹s = 0 ∨ s = 1› with rfl | rfl <;> rcases ‹t = 0 ∨ t = 1› with rfl | rfl <;> omega
      congr 1
      exact pair_comm (.cr (H.ia i 6 + H.ia i 7 * N)) (.an (H.ia i 4 + H.ia i 5 * N)) (.cr (H.ia i 2 + H.ia i 3 * N)) (.an (H.ia i 0 + H.ia i 1 * N))
        (orb_bound d h) (orb_bound c g) (orb_bound b f) (orb_bound a e)
        (Ne.symm (orbne b d f h (h5 2 6 (Or.inr rfl) (Or.inr rfl)))) (Ne.symm (orbne a d e h (h5 0 6 (Or.inl rfl) (Or.inr rfl))))
        (Ne.symm (orbne b c f g (h5 2 4 (Or.inr rfl) (Or.inl rfl)))) (Ne.symm (orbne a c e g (h5 0 4 (Or.inl rfl) (Or.inl rfl))))

end MVMC
