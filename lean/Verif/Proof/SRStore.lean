import Verif.Proof.SRUpd
import Verif.Proof.SRCG

/-! # Stored samples: accumulated matrices and the implicit overlap operator -/
namespace MVMC
open Finset

theorem store_W (n : Nat) (cg : Bool) (smp : Nat → Option Samp) (lo hi : Nat) (st : Nat → ℂ) :
    (mainCal true cg n smp lo hi st).W = ((kept smp (List.range' lo (hi - lo))).map (·.w)).sum := by
  unfold mainCal
  simp only [if_true]
  rw [(store_fold n smp _ _).1]
  simp [Acc.clear]

theorem store_HO (n : Nat) (cg : Bool) (smp : Nat → Option Samp) (lo hi : Nat) (st : Nat → ℂ) {j : Nat} (hj : j < n) :
    (mainCal true cg n smp lo hi st).HO j = ((kept smp (List.range' lo (hi - lo))).map (fun x => (x.w : ℂ) * x.e * x.O j)).sum := by
  unfold mainCal
  simp only [if_true]
  rw [(store_fold n smp _ _).2.2.1 j hj]
  simp [Acc.clear]

/-- the matrix made from the store is the sample sum of the products -/
theorem store_OO (n : Nat) (smp : Nat → Option Samp) (m : Nat) (st : Nat → ℂ) (y : Nat → Samp) (hy : ∀ s, s < m → smp s = some (y s))
    (hw : ∀ s, s < m → 0 ≤ (y s).w) {i j : Nat} (hi : i < n) (hj : j < n) :
    (mainCal true false n smp 0 m st).OO (i * n + j) = ∑ s ∈ range m, ((y s).w : ℂ) * (y s).O j * star ((y s).O i) := by
  have : (mainCal true false n smp 0 m st).OO (i * n + j) =
      ooStore false n (m - 0) (mainCal true false n smp 0 m st).store
        ((List.range' 0 (m - 0)).foldl (sampleStep true n smp) (Acc.clear st)).OO (i * n + j) := rfl
  rw [this, gemm_val n _ _ _ hj hi, Nat.sub_zero]
  refine sum_congr rfl (fun s hs => ?_)
  have hs := mem_range.mp hs
  rw [store_row n false smp 0 m st (Nat.zero_le s) hs (hy s hs) hj, store_row n false smp 0 m st (Nat.zero_le s) hs (hy s hs) hi, star_mul']
  have : ((Real.sqrt (y s).w : ℂ)) * star ((Real.sqrt (y s).w : ℂ)) = ((y s).w : ℂ) := by
    show _ * (starRingEnd ℂ) _ = _
    rw [Complex.conj_ofReal, ← Complex.ofReal_mul, Real.mul_self_sqrt (hw s hs)]
  rw [← this]
  ring

theorem sum_map_range_list {M : Type} [AddCommMonoid M] (m : Nat) (f : Nat → M) : ((List.range m).map f).sum = ∑ s ∈ range m, f s := by
  induction m with
  | zero => simp
  | succ m ih => rw [List.range_succ, List.map_append, List.sum_append, ih, sum_range_succ]; simp

/-- the CG accumulators -/
theorem cg_OO (n : Nat) (smp : Nat → Option Samp) (m : Nat) (st : Nat → ℂ) (y : Nat → Samp) (hy : ∀ s, s < m → smp s = some (y s))
    (hw : ∀ s, s < m → (y s).w = 1) {i : Nat} (hi : i < n) :
    (mainCal true true n smp 0 m st).OO i = ∑ s ∈ range m, (y s).O i ∧
    (mainCal true true n smp 0 m st).OO (n + i) = ∑ s ∈ range m, ((Complex.normSq ((y s).O i) : ℝ) : ℂ) := by
  have h : ∀ k, (mainCal true true n smp 0 m st).OO k = ooStore true n (m - 0) (mainCal true true n smp 0 m st).store
        ((List.range' 0 (m - 0)).foldl (sampleStep true n smp) (Acc.clear st)).OO k := fun _ => rfl
  have hr : ∀ s, s < m → (mainCal true true n smp 0 m st).store (i + s * n) = (y s).O i := by
    intro s hs
    rw [store_row n true smp 0 m st (Nat.zero_le s) hs (hy s hs) hi, hw s hs]
    simp
  obtain ⟨h1, h2⟩ := cgStore_val n (m - 0) (mainCal true true n smp 0 m st).store
    ((List.range' 0 (m - 0)).foldl (sampleStep true n smp) (Acc.clear st)).OO hi
  rw [h, h, h1, h2, Nat.sub_zero]
  exact ⟨sum_congr rfl (fun s hs => hr s (mem_range.mp hs)), sum_congr rfl (fun s hs => by rw [hr s (mem_range.mp hs)])⟩

section
variable {np nS n : Nat} {smp : Nat → Nat → Option Samp} {y : Nat → Nat → Samp} {st : Nat → Nat → ℂ}

theorem allKept_all (hy : ∀ p, p < np → ∀ s, s < nS → smp p s = some (y p s)) {M : Type} [Field M] (f : Samp → M) :
    ((allKept np smp (fun _ => 0) (fun _ => nS)).map f).sum = ∑ p ∈ range np, ∑ s ∈ range nS, f (y p s) := by
  rw [← sum_allKept]
  refine sum_congr rfl (fun p hp => ?_)
  rw [Nat.sub_zero, kept_all (hy p (mem_range.mp hp)), List.map_map, sum_map_range_list]
  rfl

theorem wavg_all (hy : ∀ p, p < np → ∀ s, s < nS → smp p s = some (y p s)) (hw : ∀ p, p < np → ∀ s, s < nS → (y p s).w = 1) (f : Samp → ℝ) :
    wavg (allKept np smp (fun _ => 0) (fun _ => nS)) f = (∑ p ∈ range np, ∑ s ∈ range nS, f (y p s)) / ((np * nS : ℕ) : ℝ) := by
  unfold wavg
  rw [allKept_all hy, allKept_all hy]
  congr 1
  · exact sum_congr rfl (fun p hp => sum_congr rfl (fun s hs => by rw [hw p (mem_range.mp hp) s (mem_range.mp hs), one_mul]))
  · rw [sum_congr rfl (fun p hp => sum_congr rfl (fun s hs => hw p (mem_range.mp hp) s (mem_range.mp hs)))]
    simp

theorem totalW_cg (hy : ∀ p, p < np → ∀ s, s < nS → smp p s = some (y p s)) (hw : ∀ p, p < np → ∀ s, s < nS → (y p s).w = 1) :
    totalW np (fun p => mainCal true true n (smp p) 0 nS (st p)) = ((np * nS : ℕ) : ℝ) := by
  unfold totalW
  rw [sumLoop_eq]
  have : ∀ p ∈ range np, (mainCal true true n (smp p) 0 nS (st p)).W = (nS : ℝ) := by
    intro p hp
    rw [store_W, Nat.sub_zero, kept_all (hy p (mem_range.mp hp)), List.map_map, sum_map_range_list]
    have e : ∀ s ∈ range nS, ((fun x : Samp => x.w) ∘ y p) s = 1 := fun s hs => hw p (mem_range.mp hp) s (mem_range.mp hs)
    rw [sum_congr rfl e]
    simp
  rw [sum_congr rfl this]
  simp

theorem re_mul_inv (z : ℂ) (W : ℝ) : (z * ((1 / W : ℝ) : ℂ)).re = z.re / W := by
  rw [Complex.re_mul_ofReal]
  ring

theorem avg_cg (hy : ∀ p, p < np → ∀ s, s < nS → smp p s = some (y p s)) (hw : ∀ p, p < np → ∀ s, s < nS → (y p s).w = 1) {i : Nat} (hi : i < n) :
    (avgOO np (fun p => mainCal true true n (smp p) 0 nS (st p)) i).re = wavg (allKept np smp (fun _ => 0) (fun _ => nS)) (fun x => (x.O i).re) ∧
    (avgOO np (fun p => mainCal true true n (smp p) 0 nS (st p)) (n + i)).re =
      wavg (allKept np smp (fun _ => 0) (fun _ => nS)) (fun x => (x.O i).re * (x.O i).re + (x.O i).im * (x.O i).im) := by
  unfold avgOO
  rw [totalW_cg hy hw, wavg_all hy hw, wavg_all hy hw, re_mul_inv, re_mul_inv, sumLoop_eq, sumLoop_eq, Complex.re_sum, Complex.re_sum]
  refine ⟨?_, ?_⟩
  · congr 1
    refine sum_congr rfl (fun p hp => ?_)
    have hp := mem_range.mp hp
    rw [(cg_OO n (smp p) nS (st p) (y p) (hy p hp) (hw p hp) hi).1, Complex.re_sum]
  · congr 1
    refine sum_congr rfl (fun p hp => ?_)
    have hp := mem_range.mp hp
    rw [(cg_OO n (smp p) nS (st p) (y p) (hy p hp) (hw p hp) hi).2, Complex.re_sum]
    exact sum_congr rfl (fun s _ => by rw [Complex.ofReal_re, Complex.normSq_apply])

/-- The implicit operator is the explicit matrix. -/
theorem operateByS_eq (hy : ∀ p, p < np → ∀ s, s < nS → smp p s = some (y p s)) (hw : ∀ p, p < np → ∀ s, s < nS → (y p s).w = 1)
    (nSmat : Nat) (idx : Nat → Nat) (hidx : ∀ s, s < nSmat → idx s + 2 < n) (staDel : ℝ) (st' : Nat → Nat → ℂ) (x : Nat → ℝ) {si : Nat} (hsi : si < nSmat) :
    operateByS nSmat np nS (fun p => stcOs n (mainCal true true n (smp p) 0 nS (st p)).store idx)
      (totalW np (fun p => mainCal true true n (smp p) 0 nS (st p))) staDel
      (fun si => (avgOO np (fun p => mainCal true true n (smp p) 0 nS (st p)) (idx si + 2)).re)
      (fun si => (avgOO np (fun p => mainCal true true n (smp p) 0 nS (st p)) (n + (idx si + 2))).re -
        (avgOO np (fun p => mainCal true true n (smp p) 0 nS (st p)) (idx si + 2)).re * (avgOO np (fun p => mainCal true true n (smp p) 0 nS (st p)) (idx si + 2)).re) x si =
    mulV nSmat (smat n (avgOO np (fun p => mainCal false false n (smp p) 0 nS (st' p))) staDel idx) x si := by
  have hOO : ∀ i j, i < n → j < n → avgOO np (fun p => mainCal false false n (smp p) 0 nS (st' p)) (i * n + j) =
      ((allKept np smp (fun _ => 0) (fun _ => nS)).map (fun x => ooTerm x i j)).sum *
        ((1 / ((allKept np smp (fun _ => 0) (fun _ => nS)).map (·.w)).sum : ℝ) : ℂ) :=
    fun i j hi hj => avgOO_direct (lo := fun _ => 0) (hi := fun _ => nS) hi hj
  have hs0 : ∀ a b, a < nSmat → b < nSmat → smat0 n (avgOO np (fun p => mainCal false false n (smp p) 0 nS (st' p))) idx a b = _ :=
    fun a b ha hb => smat0_avg n _ _ hOO idx (hidx a ha) (hidx b hb)
  have hO : ∀ a, a < nSmat → (avgOO np (fun p => mainCal true true n (smp p) 0 nS (st p)) (idx a + 2)).re =
      wavg (allKept np smp (fun _ => 0) (fun _ => nS)) (fun x => (x.O (idx a + 2)).re) := fun a ha => (avg_cg hy hw (hidx a ha)).1
  have hD : ∀ a, a < nSmat → (avgOO np (fun p => mainCal true true n (smp p) 0 nS (st p)) (n + (idx a + 2))).re = _ := fun a ha => (avg_cg hy hw (hidx a ha)).2
  have hsto : ∀ p, p < np → ∀ a, a < nSmat → ∀ s, s < nS → stcOs n (mainCal true true n (smp p) 0 nS (st p)).store idx a s =
      (((y p s).O (idx a + 2)).re, ((y p s).O (idx a + 2)).im) := by
    intro p hp a ha s hs
    unfold stcOs
    rw [show s * n + idx a + 2 = (idx a + 2) + s * n by ring, store_row n true (smp p) 0 nS (st p) (Nat.zero_le s) hs (hy p hp s hs) (hidx a ha),
      hw p hp s hs]
    simp
  unfold operateByS
  simp only []
  rw [totalW_cg hy hw]
  -- the averaged product
  have hz : (1 / ((np * nS : ℕ) : ℝ)) * (sumLoop np fun p => (sumLoop nS fun s => (stcOs n (mainCal true true n (smp p) 0 nS (st p)).store idx si s).1 *
        sumLoop nSmat fun sj => x sj * (stcOs n (mainCal true true n (smp p) 0 nS (st p)).store idx sj s).1) +
      sumLoop nS fun s => (stcOs n (mainCal true true n (smp p) 0 nS (st p)).store idx si s).2 *
        sumLoop nSmat fun sj => x sj * (stcOs n (mainCal true true n (smp p) 0 nS (st p)).store idx sj s).2) =
      ∑ sj ∈ range nSmat, x sj * wavg (allKept np smp (fun _ => 0) (fun _ => nS))
        (fun x => (x.O (idx si + 2)).re * (x.O (idx sj + 2)).re + (x.O (idx si + 2)).im * (x.O (idx sj + 2)).im) := by
    rw [sum_congr rfl (fun sj _ => (wavg_mul _ (x sj) _).symm), ← wavg_sum, wavg_all hy hw, one_div_mul_eq_div, sumLoop_eq]
    congr 1
    refine sum_congr rfl (fun p hp => ?_)
    have hp := mem_range.mp hp
    rw [sumLoop_eq, sumLoop_eq, ← sum_add_distrib]
    refine sum_congr rfl (fun s hs => ?_)
    have hs := mem_range.mp hs
    rw [sumLoop_eq, sumLoop_eq, mul_sum, mul_sum, ← sum_add_distrib]
    refine sum_congr rfl (fun sj hj => ?_)
    rw [hsto p hp si hsi s hs, hsto p hp sj (mem_range.mp hj) s hs]
    ring
  rw [hz, xdot_eq]
  unfold mulV
  have hm : ∀ sj ∈ range nSmat, smat n (avgOO np (fun p => mainCal false false n (smp p) 0 nS (st' p))) staDel idx si sj * x sj =
      smat0 n (avgOO np (fun p => mainCal false false n (smp p) 0 nS (st' p))) idx si sj * x sj +
        (if si = sj then smat0 n (avgOO np (fun p => mainCal false false n (smp p) 0 nS (st' p))) idx si si * staDel * x si else 0) := by
    intro sj _
    unfold smat
    split_ifs with h
    · subst h; ring
    · ring
  rw [sum_congr rfl hm, sum_add_distrib, sum_ite_eq, if_pos (mem_range.mpr hsi), hs0 si si hsi hsi, hD si hsi, hO si hsi]
  congr 1
  rw [sum_mul, ← sum_sub_distrib]
  refine sum_congr rfl (fun sj hj => ?_)
  rw [hs0 si sj hsi (mem_range.mp hj), hO sj (mem_range.mp hj)]
  ring

end

end MVMC
