import Verif.Model.SR
import Verif.Proof.SlaterDiff

/-! # Accumulated sums of the stochastic reconfiguration -/
namespace MVMC
open Finset

theorem range'_flatMap {β : Type} (s m : Nat) (st : Nat → List β) :
    (List.range' s m).flatMap st = (List.range m).flatMap (fun i => st (s + i)) := by
  rw [List.range'_eq_map_range, List.flatMap_map]

theorem flat2_iff {n a b c d : Nat} (hb : b < n) (hd : d < n) : (a * n + b = c * n + d) ↔ (a = c ∧ b = d) :=
  ⟨flat2_inj hb hd, fun h => by rw [h.1, h.2]⟩

/-- the contribution of a sample to row `i`, column `j` -/
noncomputable def ooTerm (x : Samp) (i j : Nat) : ℂ :=
  if i = 0 then (x.w : ℂ) * x.O j else if i = 1 then 0 else (x.w : ℂ) * x.O j * star (x.O i)

theorem ooAdds_val {n : Nat} (x : Samp) (a : Nat → ℂ) {i j : Nat} (hi : i < n) (hj : j < n) :
    runAdds (ooAdds n x) a (i * n + j) = a (i * n + j) + ooTerm x i j := by
  rw [runAdds_eq]
  congr 1
  unfold ooAdds
  rw [List.map_append, List.sum_append, range'_flatMap, sum_flatMap, sum_flatMap]
  have h1 : ∑ q ∈ range n, (List.map (fun e : ℕ × ℂ => if e.1 = i * n + j then e.2 else 0) [(0 * n + q, (x.w : ℂ) * x.O q), (1 * n + q, 0)]).sum
      = if i = 0 then (x.w : ℂ) * x.O j else 0 := by
    have : ∀ q ∈ range n, (List.map (fun e : ℕ × ℂ => if e.1 = i * n + j then e.2 else 0) [(0 * n + q, (x.w : ℂ) * x.O q), (1 * n + q, 0)]).sum
        = if q = j then (if i = 0 then (x.w : ℂ) * x.O j else 0) else 0 := by
      intro q hq
      simp only [List.map_cons, List.map_nil, List.sum_cons, List.sum_nil, add_zero, ite_self, flat2_iff (mem_range.mp hq) hj]
      by_cases h : q = j
      · subst h; simp [eq_comm]
      · simp [h]
    rw [sum_congr rfl this, sum_ite_eq', if_pos (mem_range.mpr hj)]
  have h2 : ∀ q ∈ range (n - 2), (List.map (fun e : ℕ × ℂ => if e.1 = i * n + j then e.2 else 0)
      ((List.range n).map fun j => ((2 + q) * n + j, (x.w : ℂ) * x.O j * star (x.O (2 + q))))).sum
      = if q = i - 2 then (if 2 ≤ i then (x.w : ℂ) * x.O j * star (x.O i) else 0) else 0 := by
    intro q hq
    rw [List.map_map]
    have : ((fun e : ℕ × ℂ => if e.1 = i * n + j then e.2 else 0) ∘ fun j => ((2 + q) * n + j, (x.w : ℂ) * x.O j * star (x.O (2 + q))))
        = fun j' => if (2 + q) * n + j' = i * n + j then (x.w : ℂ) * x.O j' * star (x.O (2 + q)) else 0 := rfl
    rw [this, sum_map_range]
    have : ∀ j' ∈ range n, (if (2 + q) * n + j' = i * n + j then (x.w : ℂ) * x.O j' * star (x.O (2 + q)) else 0)
        = if j' = j then (if 2 + q = i then (x.w : ℂ) * x.O j * star (x.O i) else 0) else 0 := by
      intro j' hj'
      simp only [flat2_iff (mem_range.mp hj') hj]
      by_cases e1 : j' = j
      · by_cases e2 : 2 + q = i
        · rw [if_pos ⟨e2, e1⟩, if_pos e1, if_pos e2, e1, e2]
        · rw [if_neg (fun h => e2 h.1), if_pos e1, if_neg e2]
      · rw [if_neg (fun h => e1 h.2), if_neg e1]
    rw [sum_congr rfl this, sum_ite_eq', if_pos (mem_range.mpr hj)]
    by_cases e : 2 + q = i
    · rw [if_pos e, if_pos (by omega), if_pos (by omega)]
    · by_cases e2 : q = i - 2
      · rw [if_neg e, if_pos e2, if_neg (by omega)]
      · rw [if_neg e, if_neg e2]
  rw [h1, sum_congr rfl h2, sum_ite_eq']
  unfold ooTerm
  by_cases e0 : i = 0
  · subst e0
    have : ¬ 2 ≤ 0 := by omega
    simp [this]
  · by_cases e1 : i = 1
    · subst e1
      have : ¬ 2 ≤ 1 := by omega
      simp [this]
    · rw [if_neg e0, if_neg e0, if_neg e1, if_pos (mem_range.mpr (by omega)), if_pos (by omega), zero_add]

theorem rangeAdds_val {n : Nat} (f : Nat → ℂ) (a : Nat → ℂ) {j : Nat} (hj : j < n) :
    runAdds ((List.range n).map fun i => (i, f i)) a j = a j + f j := by
  rw [runAdds_eq, List.map_map, show ((fun e : ℕ × ℂ => if e.1 = j then e.2 else 0) ∘ fun i => (i, f i)) = fun i => if i = j then f i else 0 from rfl,
    sum_map_range, sum_ite_eq', if_pos (mem_range.mpr hj)]

/-- the samples that are not skipped -/
def kept (smp : Nat → Option Samp) (l : List Nat) : List Samp := l.filterMap smp

theorem direct_fold (n : Nat) (smp : Nat → Option Samp) : ∀ (l : List Nat) (a : Acc),
    (l.foldl (sampleStep false n smp) a).W = a.W + ((kept smp l).map (·.w)).sum ∧
    (∀ i, i < n → ∀ j, j < n → (l.foldl (sampleStep false n smp) a).OO (i * n + j) = a.OO (i * n + j) + ((kept smp l).map (fun x => ooTerm x i j)).sum) ∧
    (∀ j, j < n → (l.foldl (sampleStep false n smp) a).HO j = a.HO j + ((kept smp l).map (fun x => x.e * ((x.w : ℂ) * x.O j))).sum)
  | [], a => by simp [kept]
  | s :: l, a => by
    obtain ⟨h1, h2, h3⟩ := direct_fold n smp l (sampleStep false n smp a s)
    rw [List.foldl_cons]
    cases h : smp s with
    | none =>
      have e : sampleStep false n smp a s = a := by unfold sampleStep; rw [h]
      have k : kept smp (s :: l) = kept smp l := by unfold kept; rw [List.filterMap_cons_none h]
      rw [e] at h1 h2 h3
      rw [e, k]
      exact ⟨h1, h2, h3⟩
    | some x =>
      have e : sampleStep false n smp a s = ⟨a.W + x.w, runAdds (ooAdds n x) a.OO, runAdds (hoAdds n x) a.HO, a.store⟩ := by
        unfold sampleStep; rw [h]; rfl
      have k : kept smp (s :: l) = x :: kept smp l := by unfold kept; rw [List.filterMap_cons_some h]
      rw [e] at h1 h2 h3
      rw [e, k]
      refine ⟨?_, ?_, ?_⟩
      · rw [h1, List.map_cons, List.sum_cons, add_assoc]
      · intro i hi j hj
        rw [h2 i hi j hj, List.map_cons, List.sum_cons]
        show runAdds (ooAdds n x) a.OO (i * n + j) + _ = _
        rw [ooAdds_val x _ hi hj, add_assoc]
      · intro j hj
        rw [h3 j hj, List.map_cons, List.sum_cons]
        show runAdds ((List.range n).map fun j => (j, x.e * ((x.w : ℂ) * x.O j))) a.HO j + _ = _
        rw [rangeAdds_val _ _ hj, add_assoc]

theorem direct_OO (n : Nat) (cg : Bool) (smp : Nat → Option Samp) (lo hi : Nat) (st : Nat → ℂ) {i j : Nat} (hi' : i < n) (hj : j < n) :
    (mainCal false cg n smp lo hi st).OO (i * n + j) = ((kept smp (List.range' lo (hi - lo))).map (fun x => ooTerm x i j)).sum := by
  unfold mainCal
  simp only [Bool.false_eq_true, if_false]
  rw [(direct_fold n smp _ _).2.1 i hi' j hj]
  simp [Acc.clear]

theorem direct_HO (n : Nat) (cg : Bool) (smp : Nat → Option Samp) (lo hi : Nat) (st : Nat → ℂ) {j : Nat} (hj : j < n) :
    (mainCal false cg n smp lo hi st).HO j = ((kept smp (List.range' lo (hi - lo))).map (fun x => x.e * ((x.w : ℂ) * x.O j))).sum := by
  unfold mainCal
  simp only [Bool.false_eq_true, if_false]
  rw [(direct_fold n smp _ _).2.2 j hj]
  simp [Acc.clear]

theorem direct_W (n : Nat) (cg : Bool) (smp : Nat → Option Samp) (lo hi : Nat) (st : Nat → ℂ) :
    (mainCal false cg n smp lo hi st).W = ((kept smp (List.range' lo (hi - lo))).map (·.w)).sum := by
  unfold mainCal
  simp only [Bool.false_eq_true, if_false]
  rw [(direct_fold n smp _ _).1]
  simp [Acc.clear]

/-! ### stored samples -/

theorem store_fold (n : Nat) (smp : Nat → Option Samp) : ∀ (l : List Nat) (a : Acc),
    (l.foldl (sampleStep true n smp) a).W = a.W + ((kept smp l).map (·.w)).sum ∧
    (l.foldl (sampleStep true n smp) a).OO = a.OO ∧
    (∀ j, j < n → (l.foldl (sampleStep true n smp) a).HO j = a.HO j + ((kept smp l).map (fun x => (x.w : ℂ) * x.e * x.O j)).sum) ∧
    (∀ s x, s ∉ l ∨ smp s = none → x < n → (l.foldl (sampleStep true n smp) a).store (x + s * n) = a.store (x + s * n)) ∧
    (∀ s x y, s ∈ l → smp s = some y → x < n → (l.foldl (sampleStep true n smp) a).store (x + s * n) = (Real.sqrt y.w : ℂ) * y.O x)
  | [], a => by simp [kept]
  | s :: l, a => by
    obtain ⟨h1, h2, h3, h4, h5⟩ := store_fold n smp l (sampleStep true n smp a s)
    rw [List.foldl_cons]
    cases h : smp s with
    | none =>
      have e : sampleStep true n smp a s = a := by unfold sampleStep; rw [h]
      have k : kept smp (s :: l) = kept smp l := by unfold kept; rw [List.filterMap_cons_none h]
      rw [e] at h1 h2 h3 h4 h5
      rw [e, k]
      refine ⟨h1, h2, h3, ?_, ?_⟩
      · intro t x ht hx
        refine h4 t x ?_ hx
        rcases ht with ht | ht
        · exact .inl (fun q => ht (List.mem_cons_of_mem _ q))
        · exact .inr ht
      · intro t x y ht hy hx
        rcases List.mem_cons.mp ht with rfl | ht
        · rw [h] at hy; exact absurd hy (by simp)
        · exact h5 t x y ht hy hx
    | some x =>
      have e : sampleStep true n smp a s = ⟨a.W + x.w, a.OO, runAdds ((List.range n).map fun i => (i, (x.w : ℂ) * x.e * x.O i)) a.HO,
          runStores ((List.range n).map fun i => (i + s * n, (Real.sqrt x.w : ℂ) * x.O i)) a.store⟩ := by
        unfold sampleStep; rw [h]; rfl
      have k : kept smp (s :: l) = x :: kept smp l := by unfold kept; rw [List.filterMap_cons_some h]
      have old : ∀ t y, t ≠ s → y < n → (sampleStep true n smp a s).store (y + t * n) = a.store (y + t * n) := by
        intro t y ht hy
        rw [e]
        refine runStores_notin _ _ _ ?_
        intro ev hev hk
        obtain ⟨i, hi, rfl⟩ := List.mem_map.mp hev
        have hi := List.mem_range.mp hi
        have hk : i + s * n = y + t * n := hk
        rw [Nat.add_comm i, Nat.add_comm y] at hk
        exact ht (flat2_inj hi hy hk).1.symm
      have new : ∀ y, y < n → (sampleStep true n smp a s).store (y + s * n) = (Real.sqrt x.w : ℂ) * x.O y := by
        intro y hy
        rw [e]
        refine runStores_mem _ _ ?_ (y + s * n, (Real.sqrt x.w : ℂ) * x.O y) (List.mem_map.mpr ⟨y, List.mem_range.mpr hy, rfl⟩)
        intro ev hev ev' hev' hk
        obtain ⟨i, hi, rfl⟩ := List.mem_map.mp hev
        obtain ⟨i', hi', rfl⟩ := List.mem_map.mp hev'
        have hk : i + s * n = i' + s * n := hk
        have : i = i' := by omega
        rw [this]
      refine ⟨?_, ?_, ?_, ?_, ?_⟩
      · rw [h1, k, List.map_cons, List.sum_cons, e, add_assoc]
      · rw [h2, e]
      · intro j hj
        rw [h3 j hj, k, List.map_cons, List.sum_cons, e]
        show runAdds ((List.range n).map fun i => (i, (x.w : ℂ) * x.e * x.O i)) a.HO j + _ = _
        rw [rangeAdds_val _ _ hj, add_assoc]
      · intro t y ht hy
        have hts : t ≠ s := by
          rintro rfl
          rcases ht with ht | ht
          · exact ht (by simp)
          · rw [h] at ht; exact absurd ht (by simp)
        rw [h4 t y ?_ hy, old t y hts hy]
        rcases ht with ht | ht
        · exact .inl (fun q => ht (List.mem_cons_of_mem _ q))
        · exact .inr ht
      · intro t y z ht hz hy
        by_cases htl : t ∈ l
        · exact h5 t y z htl hz hy
        · rcases List.mem_cons.mp ht with rfl | ht
          · rw [h4 t y (.inl htl) hy, new y hy]
            rw [h] at hz
            rw [Option.some.inj hz]
          · exact absurd ht htl

/-- the stored rows after the sample loop -/
theorem store_row (n : Nat) (cg : Bool) (smp : Nat → Option Samp) (lo hi : Nat) (st : Nat → ℂ) {s x : Nat} {y : Samp} (hs : lo ≤ s) (hs' : s < hi)
    (hy : smp s = some y) (hx : x < n) : (mainCal true cg n smp lo hi st).store (x + s * n) = (Real.sqrt y.w : ℂ) * y.O x := by
  unfold mainCal
  simp only [if_true]
  exact (store_fold n smp _ _).2.2.2.2 s x y (by rw [List.mem_range'_1]; omega) hy hx

/-- rows of skipped or foreign samples keep their old contents -/
theorem store_stale (n : Nat) (cg : Bool) (smp : Nat → Option Samp) (lo hi : Nat) (st : Nat → ℂ) {s x : Nat} (hs : s < lo ∨ hi ≤ s ∨ smp s = none)
    (hx : x < n) : (mainCal true cg n smp lo hi st).store (x + s * n) = st (x + s * n) := by
  unfold mainCal
  simp only [if_true]
  rw [(store_fold n smp _ _).2.2.2.1 s x ?_ hx]
  · rfl
  · rcases hs with h | h | h
    · exact .inl (by rw [List.mem_range'_1]; omega)
    · exact .inl (by rw [List.mem_range'_1]; omega)
    · exact .inr h

/-- the matrix product over the stored rows -/
theorem gemm_val (n size : Nat) (store OO : Nat → ℂ) {i j : Nat} (hi : i < n) (hj : j < n) :
    ooStore false n size store OO (j * n + i) = ∑ s ∈ range size, store (i + s * n) * star (store (j + s * n)) := by
  unfold ooStore
  simp only [Bool.false_eq_true, if_false]
  rw [Nat.add_comm, ← sumLoop_eq]
  refine runStores_mem _ _ ?_ (i + j * n, sumLoop size fun s => store (i + s * n) * star (store (j + s * n))) ?_
  · intro e he e' he' h
    simp only [List.mem_flatMap, List.mem_map, List.mem_range] at he he'
    obtain ⟨a, ha, b, hb, rfl⟩ := he
    obtain ⟨c, hc, d, hd, rfl⟩ := he'
    have h : b + a * n = d + c * n := h
    rw [Nat.add_comm b, Nat.add_comm d] at h
    obtain ⟨rfl, rfl⟩ := flat2_inj hb hd h
    rfl
  · simp only [List.mem_flatMap, List.mem_map, List.mem_range]
    exact ⟨j, hj, i, hi, rfl⟩

/-- the sums for the conjugate-gradient solver -/
theorem cgStore_val (n size : Nat) (store OO : Nat → ℂ) {i : Nat} (hi : i < n) :
    ooStore true n size store OO i = ∑ s ∈ range size, store (i + s * n) ∧
    ooStore true n size store OO (n + i) = ∑ s ∈ range size, ((Complex.normSq (store (i + s * n)) : ℝ) : ℂ) := by
  unfold ooStore
  simp only [if_true]
  have z : ∀ e, e < 2 * n → runStores ((List.range n).flatMap fun i => [(i, (0 : ℂ)), (i + n, 0)]) OO e = 0 := by
    intro e he
    refine runStores_mem _ _ ?_ (e, 0) ?_
    · intro a ha b hb _
      simp only [List.mem_flatMap, List.mem_range, List.mem_cons, List.not_mem_nil, or_false] at ha hb
      obtain ⟨_, _, ha⟩ := ha
      obtain ⟨_, _, hb⟩ := hb
      rcases ha with rfl | rfl <;> rcases hb with rfl | rfl <;> rfl
    · simp only [List.mem_flatMap, List.mem_range, List.mem_cons, List.not_mem_nil, or_false]
      by_cases h : e < n
      · exact ⟨e, h, .inl rfl⟩
      · exact ⟨e - n, by omega, .inr (by rw [Nat.sub_add_cancel (by omega)])⟩
  constructor
  · rw [runAdds_eq, z i (by omega), zero_add, sum_flatMap]
    refine sum_congr rfl (fun s _ => ?_)
    rw [sum_flatMap]
    have : ∀ a ∈ range n, (List.map (fun e : ℕ × ℂ => if e.1 = i then e.2 else 0) [(a, store (a + s * n)),
        (a + n, (((store (a + s * n)).re * (store (a + s * n)).re + (store (a + s * n)).im * (store (a + s * n)).im : ℝ) : ℂ))]).sum
        = if a = i then store (i + s * n) else 0 := by
      intro a _
      have h : a + n ≠ i := by omega
      simp only [List.map_cons, List.map_nil, List.sum_cons, List.sum_nil, add_zero, if_neg h]
      by_cases e : a = i
      · rw [if_pos e, if_pos e, e]
      · rw [if_neg e, if_neg e]
    rw [sum_congr rfl this, sum_ite_eq', if_pos (mem_range.mpr hi)]
  · rw [runAdds_eq, z (n + i) (by omega), zero_add, sum_flatMap]
    refine sum_congr rfl (fun s _ => ?_)
    rw [sum_flatMap]
    have : ∀ a ∈ range n, (List.map (fun e : ℕ × ℂ => if e.1 = n + i then e.2 else 0) [(a, store (a + s * n)),
        (a + n, (((store (a + s * n)).re * (store (a + s * n)).re + (store (a + s * n)).im * (store (a + s * n)).im : ℝ) : ℂ))]).sum
        = if a = i then ((Complex.normSq (store (i + s * n)) : ℝ) : ℂ) else 0 := by
      intro a ha
      have h : a ≠ n + i := by have := mem_range.mp ha; omega
      simp only [List.map_cons, List.map_nil, List.sum_cons, List.sum_nil, add_zero, if_neg h, zero_add]
      by_cases e : a = i
      · rw [if_pos (by omega), if_pos e, e]; rfl
      · rw [if_neg (by omega), if_neg e]
    rw [sum_congr rfl this, sum_ite_eq', if_pos (mem_range.mpr hi)]

/-- a run without skipped samples -/
theorem kept_all {smp : Nat → Option Samp} {y : Nat → Samp} {m : Nat} (h : ∀ s, s < m → smp s = some (y s)) :
    kept smp (List.range' 0 m) = (List.range m).map y := by
  unfold kept
  rw [← List.range_eq_range', List.filterMap_congr (g := fun s => some (y s)) (fun s hs => h s (List.mem_range.mp hs))]
  exact congrFun (List.filterMap_eq_map (f := y)) _

end MVMC
