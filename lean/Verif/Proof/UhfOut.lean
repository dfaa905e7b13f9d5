import Verif.Proof.LtlInv2
import Verif.Proof.PfaffianDet
import Verif.Proof.Parameter
import Verif.Proof.Wick
import Verif.Proof.Uhf2
import Verif.Spec.UhfOrbital
import Verif.Model.UhfOut

/-! Pair functions of Slater determinants. -/
namespace MVMC
open MVMC.Spec Finset

/-! ### the Pfaffian of a paired set of orbitals -/

/-- the pair function of the orbitals `0,1`, `2,3`, … -/
noncomputable def pairForm (Ne : Nat) (φ : Nat → Nat → ℂ) (x y : Nat) : ℂ :=
  ∑ m ∈ range Ne, (φ (2 * m) x * φ (2 * m + 1) y - φ (2 * m + 1) x * φ (2 * m) y)

/-- entries of the symplectic unit -/
def sympA (k : Nat) : ℂ := if k % 2 = 0 then 1 else 0

theorem symp_pf (Ne : Nat) : pfOf (factT sympA 0) (2 * Ne) id = 1 := by
  unfold pfOf
  rw [List.map_id, List.range_eq_range', pf_tri]
  apply Finset.prod_eq_one
  intro k _
  unfold sympA
  rw [if_pos (by omega)]

theorem symp_skew (i j : Nat) : factT sympA 0 i j = - factT sympA 0 j i := by
  unfold factT
  by_cases h : j = i + 1
  · rw [if_pos h, if_neg (show ¬ i = j + 1 by omega), if_pos h]; simp
  · rw [if_neg h]
    by_cases h' : i = j + 1
    · rw [if_pos h', if_pos h']
    · rw [if_neg h', if_neg h', if_neg h]; simp

theorem symp_diag (i : Nat) : factT sympA 0 i i = 0 := by
  unfold factT
  rw [if_neg (by omega), if_neg (by omega)]

theorem symp_sum (Ne : Nat) (b c : Nat → ℂ) :
    ∑ k ∈ range (2 * Ne), ∑ l ∈ range (2 * Ne), b k * factT sympA 0 k l * c l =
      ∑ m ∈ range Ne, (b (2 * m) * c (2 * m + 1) - b (2 * m + 1) * c (2 * m)) := by
  have row : ∀ k < 2 * Ne, ∑ l ∈ range (2 * Ne), b k * factT sympA 0 k l * c l =
      if k % 2 = 0 then b k * c (k + 1) else - (b k * c (k - 1)) := by
    intro k hk
    by_cases h : k % 2 = 0
    · rw [if_pos h, Finset.sum_eq_single (k + 1)]
      · unfold factT; rw [if_pos rfl]; unfold sympA; rw [if_pos (by omega)]; ring
      · intro l _ hl
        unfold factT
        rw [if_neg hl]
        by_cases h' : k = l + 1
        · rw [if_pos h']; unfold sympA; rw [if_neg (by omega)]; ring
        · rw [if_neg h']; ring
      · intro h'; exact absurd (Finset.mem_range.mpr (by omega)) h'
    · rw [if_neg h, Finset.sum_eq_single (k - 1)]
      · unfold factT; rw [if_neg (by omega), if_pos (by omega)]; unfold sympA; rw [if_pos (by omega)]; ring
      · intro l _ hl
        unfold factT
        by_cases h' : l = k + 1
        · rw [if_pos h']; unfold sympA; rw [if_neg (by omega)]; ring
        · rw [if_neg h', if_neg (by omega)]; ring
      · intro h'; exact absurd (Finset.mem_range.mpr (by omega)) h'
  rw [Finset.sum_congr rfl fun k hk => row k (Finset.mem_range.mp hk)]
  clear row
  induction Ne with
  | zero => simp
  | succ m ih =>
    rw [show 2 * (m + 1) = 2 * m + 1 + 1 by ring, Finset.sum_range_succ, Finset.sum_range_succ, ih, Finset.sum_range_succ _ m]
    rw [if_pos (by omega), if_neg (by omega), show 2 * m + 1 - 1 = 2 * m by omega]
    ring

theorem pairForm_slater (Ne : Nat) (φ : Nat → Nat → ℂ) {x : List Nat} (hx : x.length = 2 * Ne) :
    pf (pairForm Ne φ) x = slater (2 * Ne) φ x := by
  have e : x = (List.range (2 * Ne)).map (fun i => x.getD i 0) := by
    apply List.ext_getElem
    · simp [hx]
    · intro i h1 h2
      simp [List.getD_eq_getElem?_getD, h1]
  have h1 : pf (pairForm Ne φ) x = pfOf (pairForm Ne φ) (2 * Ne) (fun i => x.getD i 0) := by
    conv_lhs => rw [e]
    rfl
  rw [h1, pfOf_id]
  have h2 : (fun i j => pairForm Ne φ (x.getD i 0) (x.getD j 0)) =
      fun i j => ∑ k ∈ range (2 * Ne), ∑ l ∈ range (2 * Ne), φ k (x.getD i 0) * factT sympA 0 k l * φ l (x.getD j 0) := by
    funext i j
    rw [symp_sum Ne (fun k => φ k (x.getD i 0)) (fun l => φ l (x.getD j 0))]
    rfl
  rw [h2, pfOf_conj (fun i j _ _ => symp_skew i j) (fun i _ => symp_diag i) (fun i k => φ k (x.getD i 0)), symp_pf, mul_one]
  unfold slater
  rw [if_pos hx, ← Matrix.det_transpose]
  rfl

/-! ### scaling a state -/

/-- kets with `n` particles in `M` orbitals -/
def KetOK (M n : Nat) (k : Ket) : Prop := ∀ σ l, k = some (σ, l) → l.length = n ∧ ∀ x ∈ l, x < M

theorem ketOK_pair {M n I J : Nat} (hI : I < M) {k : Ket} (hk : KetOK M n k) : KetOK M n (Op.act (.cr I) (Op.act (.an J) k)) := by
  intro σ l h
  rcases k with _ | ⟨σ', l'⟩
  · simp [Op.act] at h
  · obtain ⟨h1, h2⟩ := hk σ' l' rfl
    simp only [Op.act] at h
    by_cases hJ : J ∈ l'
    · rw [if_pos hJ] at h
      dsimp only at h
      by_cases hI' : I ∈ l'.erase J
      · rw [if_pos hI'] at h; cases h
      · rw [if_neg hI'] at h
        simp only [Option.some.injEq, Prod.mk.injEq] at h
        obtain ⟨rfl, rfl⟩ := h
        refine ⟨?_, ?_⟩
        · rw [List.length_cons, List.length_erase_of_mem hJ, h1]
          have : 0 < l'.length := List.length_pos_of_mem hJ
          omega
        · intro x hx
          rcases List.mem_cons.mp hx with rfl | hx
          · exact hI
          · exact h2 x (List.mem_of_mem_erase hx)
    · rw [if_neg hJ] at h
      simp at h

section
variable {M n : Nat} {Ψ Ψ' : List Nat → ℂ} {c : ℂ} (hc : c ≠ 0)
  (hΨ : ∀ l : List Nat, l.length = n → (∀ x ∈ l, x < M) → Ψ' l = c * Ψ l)
include hc hΨ

theorem overlap_scale {k : Ket} (hk : KetOK M n k) : overlap Ψ' k = c * overlap Ψ k := by
  rcases k with _ | ⟨σ, l⟩
  · simp [overlap]
  · obtain ⟨h1, h2⟩ := hk σ l rfl
    simp only [overlap]
    rw [hΨ l h1 h2]; ring

theorem matrixElement_scale {ops : List Op} {x : List Nat} (hx : x.length = n) (hx' : ∀ y ∈ x, y < M)
    (hk : KetOK M n (actAll ops (some (1, x)))) : matrixElement Ψ' ops x = matrixElement Ψ ops x := by
  unfold matrixElement
  rw [overlap_scale hc hΨ hk, hΨ x hx hx', mul_div_mul_left _ _ hc]

theorem average_scale {ops : List Op} (hk : ∀ x : List Nat, x.length = n → (∀ y ∈ x, y < M) → KetOK M n (actAll ops (some (1, x)))) :
    average M n Ψ' (matrixElement Ψ' ops) = average M n Ψ (matrixElement Ψ ops) := by
  unfold average
  have hl : ∀ f : Fin n → Fin M, (List.ofFn fun i => (f i : Nat)).length = n ∧ ∀ y ∈ (List.ofFn fun i => (f i : Nat)), y < M := by
    intro f
    refine ⟨List.length_ofFn, ?_⟩
    intro y hy
    obtain ⟨i, rfl⟩ := (List.mem_ofFn' _ _).mp hy
    exact (f i).2
  have e1 : ∀ f : Fin n → Fin M, Complex.normSq (Ψ' (List.ofFn fun i => (f i : Nat))) =
      Complex.normSq c * Complex.normSq (Ψ (List.ofFn fun i => (f i : Nat))) := by
    intro f
    rw [hΨ _ (hl f).1 (hl f).2, Complex.normSq_mul]
  have e2 : ∀ f : Fin n → Fin M, matrixElement Ψ' ops (List.ofFn fun i => (f i : Nat)) = matrixElement Ψ ops (List.ofFn fun i => (f i : Nat)) :=
    fun f => matrixElement_scale hc hΨ (hl f).1 (hl f).2 (hk _ (hl f).1 (hl f).2)
  simp only [e1, e2]
  rw [← Finset.mul_sum]
  have hn : ((Complex.normSq c : ℝ) : ℂ) ≠ 0 := by
    rw [Ne, Complex.ofReal_eq_zero, Complex.normSq_eq_zero]; exact hc
  have e3 : ∀ f : Fin n → Fin M, ∀ z : ℂ, ((Complex.normSq c * Complex.normSq (Ψ (List.ofFn fun i => (f i : Nat))) : ℝ) : ℂ) * z =
      (Complex.normSq c : ℂ) * ((Complex.normSq (Ψ (List.ofFn fun i => (f i : Nat))) : ℂ) * z) := by
    intro f z; rw [Complex.ofReal_mul]; ring
  simp only [e3]
  rw [← Finset.mul_sum, Complex.ofReal_mul, mul_div_mul_left _ _ hn]

theorem expect_scale {N : Nat} {H : HamPar} (hM : M = 2 * N) (hi : HamIdx N H) :
    expectOf M n Ψ' (hamTerms N H) = expectOf M n Ψ (hamTerms N H) := by
  subst hM
  unfold expectOf
  congr 1
  apply List.map_congr_left
  have base : ∀ x : List Nat, x.length = n → (∀ y ∈ x, y < 2 * N) → KetOK (2 * N) n (some (1, x)) := by
    intro x h1 h2 σ l h
    simp only [Option.some.injEq, Prod.mk.injEq] at h
    obtain ⟨rfl, rfl⟩ := h
    exact ⟨h1, h2⟩
  have one : ∀ I J, I < 2 * N → average (2 * N) n Ψ' (matrixElement Ψ' [.cr I, .an J]) = average (2 * N) n Ψ (matrixElement Ψ [.cr I, .an J]) :=
    fun I J hI => average_scale hc hΨ (fun x h1 h2 => ketOK_pair hI (base x h1 h2))
  have two : ∀ I J K L, I < 2 * N → K < 2 * N → average (2 * N) n Ψ' (matrixElement Ψ' [.cr I, .an J, .cr K, .an L]) =
      average (2 * N) n Ψ (matrixElement Ψ [.cr I, .an J, .cr K, .an L]) :=
    fun I J K L hI hK => average_scale hc hΨ (fun x h1 h2 => ketOK_pair hI (ketOK_pair hK (base x h1 h2)))
  intro t ht
  congr 1
  unfold hamTerms at ht
  simp only [List.mem_append, List.mem_flatMap, List.mem_range] at ht
  rcases ht with (((((ht | ht) | ht) | ht) | ht) | ht) | ht
  · obtain ⟨i, h, ht⟩ := ht
    have a := hi.ci i h
    simp only [termCoulombIntra, numOp, List.cons_append, List.nil_append, List.mem_singleton] at ht
    subst ht
    exact two _ _ _ _ (by omega) (by omega)
  · obtain ⟨i, h, ht⟩ := ht
    obtain ⟨a, b⟩ := hi.co i h
    simp only [termCoulombInter, numOp, List.cons_append, List.nil_append, List.mem_cons, List.not_mem_nil, or_false] at ht
    rcases ht with rfl | rfl | rfl | rfl <;> exact two _ _ _ _ (by omega) (by omega)
  · obtain ⟨i, h, ht⟩ := ht
    obtain ⟨a, b⟩ := hi.hu i h
    simp only [termHund, numOp, List.cons_append, List.nil_append, List.mem_cons, List.not_mem_nil, or_false] at ht
    rcases ht with rfl | rfl <;> exact two _ _ _ _ (by omega) (by omega)
  · obtain ⟨i, h, ht⟩ := ht
    obtain ⟨a, b, c, d⟩ := hi.tr i h
    simp only [termTransfer, List.mem_singleton] at ht
    subst ht
    exact one _ _ (by nlinarith)
  · obtain ⟨i, h, ht⟩ := ht
    obtain ⟨a, b⟩ := hi.ph i h
    simp only [termPairHop, List.mem_singleton] at ht
    subst ht
    exact two _ _ _ _ (by omega) (by omega)
  · obtain ⟨i, h, ht⟩ := ht
    obtain ⟨a, b⟩ := hi.ex i h
    simp only [termExchange, List.mem_cons, List.not_mem_nil, or_false] at ht
    rcases ht with rfl | rfl <;> exact two _ _ _ _ (by omega) (by omega)
  · obtain ⟨i, h, ht⟩ := ht
    obtain ⟨⟨a, b, c, d⟩, a', b', c', d'⟩ := hi.ia i h
    simp only [termInterAll, List.mem_singleton] at ht
    subst ht
    exact two _ _ _ _ (by nlinarith) (by nlinarith)

end

end MVMC
