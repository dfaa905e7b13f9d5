import Verif.Model.LtlInv
import Verif.Spec.Factor
import Verif.Proof.PfaffianDet
import Mathlib.Tactic.LinearCombination

/-! Lemmas for C59. -/
namespace MVMC
open Spec
variable {K : Type} [Field K]

/-! ### loops that write -/

theorem writeLoop {ι : Type} (pos : ι → Nat) (val : (Nat → K) → ι → K) (a0 : Nat → K) :
    ∀ L : List ι, (∀ x ∈ L, ∀ y ∈ L, pos x = pos y → val a0 x = val a0 y) →
    (∀ a : Nat → K, (∀ k, (∀ x ∈ L, k ≠ pos x) → a k = a0 k) → ∀ x ∈ L, val a x = val a0 x) →
    (∀ x ∈ L, L.foldl (fun a x => setAt a (pos x) (val a x)) a0 (pos x) = val a0 x) ∧
    ∀ k, (∀ x ∈ L, k ≠ pos x) → L.foldl (fun a x => setAt a (pos x) (val a x)) a0 k = a0 k := by
  intro L hinj hval
  -- induction on prefixes
  have H : ∀ P : List ι, P ⊆ L →
      (∀ x ∈ P, P.foldl (fun a x => setAt a (pos x) (val a x)) a0 (pos x) = val a0 x) ∧
      ∀ k, (∀ x ∈ P, k ≠ pos x) → P.foldl (fun a x => setAt a (pos x) (val a x)) a0 k = a0 k := by
    intro P
    induction P using List.reverseRecOn with
    | nil => intro _; exact ⟨fun x hx => by simp at hx, fun k _ => rfl⟩
    | append_singleton P y ih =>
      intro hP
      have hPL : P ⊆ L := fun x hx => hP (by simp [hx])
      have hy : y ∈ L := hP (by simp)
      obtain ⟨h1, h2⟩ := ih hPL
      rw [List.foldl_append]
      simp only [List.foldl_cons, List.foldl_nil]
      set a := P.foldl (fun a x => setAt a (pos x) (val a x)) a0 with ha
      have hv : val a y = val a0 y := hval a (fun k hk => h2 k (fun x hx => hk x (hPL hx))) y hy
      refine ⟨?_, ?_⟩
      · intro x hx
        unfold setAt
        by_cases e : pos x = pos y
        · rw [if_pos e, hv]
          exact (hinj x (hP hx) y hy e).symm
        · rw [if_neg e]
          rcases List.mem_append.mp hx with h | h
          · exact h1 x h
          · exact absurd (by rw [List.mem_singleton.mp h]) e
      · intro k hk
        unfold setAt
        rw [if_neg (hk y (by simp))]
        exact h2 k (fun x hx => hk x (by simp [hx]))
  exact H L (fun x hx => hx)

theorem cm_inj {ld i j i' j' : Nat} (hi : i < ld) (hi' : i' < ld) (h : i + j * ld = i' + j' * ld) : i = i' ∧ j = j' := by
  have := rowcol_inj hi hi' (show j * ld + i = j' * ld + i' by omega)
  exact ⟨this.2, this.1⟩

/-- a loop over one row whose values do not depend on that row -/
theorem cmRowLoop {ld n r : Nat} (hr : r < ld) (g : (Nat → K) → Nat → K) (C : Nat → K)
    (hg : ∀ C' : Nat → K, (∀ i, i < ld → i ≠ r → ∀ j, cmAt C' ld i j = cmAt C ld i j) → ∀ j, j < n → g C' j = g C j) {i j : Nat} (hi : i < ld) :
    cmAt ((List.range n).foldl (fun C j => cmSet C ld r j (g C j)) C) ld i j = if i = r ∧ j < n then g C j else cmAt C ld i j := by
  have h := writeLoop (fun j => r + j * ld) g C (List.range n) (fun x _ y _ e => by rw [(cm_inj hr hr e).2]) (by
    intro a ha x hx
    exact hg a (fun i hi hir j => ha _ (fun x _ e => hir (cm_inj hi hr e).1)) x (List.mem_range.mp hx))
  by_cases c : i = r ∧ j < n
  · rw [if_pos c, c.1]
    exact h.1 j (List.mem_range.mpr c.2)
  · rw [if_neg c]
    exact h.2 _ (fun x hx e => c ⟨(cm_inj hi hr e).1, (cm_inj hi hr e).2 ▸ List.mem_range.mp hx⟩)

/-! ### the tridiagonal solve -/

section solve
variable {h ldB ldC : Nat} {vT B : Nat → K}

/-- equation of row `2k` -/
def evenEq (vT B : Nat → K) (ldB : Nat) (C : Nat → K) (ldC k j : Nat) : Prop :=
  (if k = 0 then 0 else vT (2 * k - 1) * cmAt C ldC (2 * k - 1) j) - vT (2 * k) * cmAt C ldC (2 * k + 1) j = cmAt B ldB (2 * k) j

/-- equation of row `2k+1` -/
def oddEq (h : Nat) (vT B : Nat → K) (ldB : Nat) (C : Nat → K) (ldC k j : Nat) : Prop :=
  vT (2 * k) * cmAt C ldC (2 * k) j - (if k + 1 = h then 0 else vT (2 * k + 1) * cmAt C ldC (2 * k + 2) j) = cmAt B ldB (2 * k + 1) j

theorem sktdsmx_ok (hh : 0 < h) (hld : 2 * h ≤ ldC) (hv : ∀ k, k < h → vT (2 * k) ≠ 0) (C : Nat → K) :
    ∀ k, k < h → ∀ j, j < 2 * h → evenEq vT B ldB (sktdsmx (2 * h) vT B ldB C ldC) ldC k j ∧
      oddEq h vT B ldB (sktdsmx (2 * h) vT B ldB C ldC) ldC k j := by
  obtain ⟨F2, hF2⟩ : ∃ F : (Nat → K) → Nat → (Nat → K), ∀ C k, F C k = (List.range (2 * h)).foldl (fun C j =>
      cmSet C ldC (2 * k + 2 + 1) j ((cmAt B ldB (2 * k + 2) j - cmAt C ldC (2 * k + 2 - 1) j * vT (2 * k + 2 - 1)) / - vT (2 * k + 2))) C :=
    ⟨_, fun _ _ => rfl⟩
  obtain ⟨F4, hF4⟩ : ∃ F : (Nat → K) → Nat → (Nat → K), ∀ C k, F C k = (List.range (2 * h)).foldl (fun C j =>
      cmSet C ldC (2 * h - 3 - 2 * k - 1) j ((cmAt B ldB (2 * h - 3 - 2 * k) j + cmAt C ldC (2 * h - 3 - 2 * k + 1) j * vT (2 * h - 3 - 2 * k))
        / vT (2 * h - 3 - 2 * k - 1))) C :=
    ⟨_, fun _ _ => rfl⟩
  have eq : sktdsmx (2 * h) vT B ldB C ldC = (List.range ((2 * h - 1) / 2)).foldl F4 ((List.range (2 * h)).foldl (fun C j =>
      cmSet C ldC (2 * h - 2) j (cmAt B ldB (2 * h - 1) j / vT (2 * h - 2))) ((List.range ((2 * h - 1) / 2)).foldl F2
      ((List.range (2 * h)).foldl (fun C j => cmSet C ldC 1 j (cmAt B ldB 0 j / - vT 0)) C))) := by
    rw [show F2 = _ from funext fun C => funext fun k => hF2 C k, show F4 = _ from funext fun C => funext fun k => hF4 C k]
    rfl
  rw [eq]
  clear eq
  -- first row
  generalize e1 : (List.range (2 * h)).foldl (fun C j => cmSet C ldC 1 j (cmAt B ldB 0 j / - vT 0)) C = C1
  have H1 : ∀ j, j < 2 * h → evenEq vT B ldB C1 ldC 0 j := by
    intro j hj
    have := cmRowLoop (ld := ldC) (n := 2 * h) (r := 1) (by omega) (fun _ j => cmAt B ldB 0 j / - vT 0) C (fun _ _ _ _ => rfl) (i := 1) (j := j) (by omega)
    rw [e1, if_pos ⟨rfl, hj⟩] at this
    unfold evenEq
    rw [if_pos rfl, this]
    have := hv 0 hh
    field_simp
    ring
  clear e1
  -- odd rows
  have H2 : ∀ m, m ≤ (2 * h - 1) / 2 → ∀ k, k ≤ m → ∀ j, j < 2 * h → evenEq vT B ldB ((List.range m).foldl F2 C1) ldC k j := by
    intro m
    induction m with
    | zero => intro _ k hk j hj; obtain rfl : k = 0 := by omega
              exact H1 j hj
    | succ m ih =>
      intro hm k hk j hj
      rw [List.range_succ, List.foldl_append]
      simp only [List.foldl_cons, List.foldl_nil]
      have ih := ih (by omega)
      generalize (List.range m).foldl F2 C1 = D at ih ⊢
      rw [hF2]
      have hrow := fun i (hi : i < ldC) => cmRowLoop (ld := ldC) (n := 2 * h) (r := 2 * m + 2 + 1) (by omega)
        (fun C j => (cmAt B ldB (2 * m + 2) j - cmAt C ldC (2 * m + 2 - 1) j * vT (2 * m + 2 - 1)) / - vT (2 * m + 2)) D (by
          intro C' hC j _
          rw [hC _ (by omega) (by omega)]) (i := i) (j := j) hi
      by_cases c : k = m + 1
      · subst c
        unfold evenEq
        rw [if_neg (by omega), hrow _ (by omega), hrow _ (by omega), if_neg (by omega), if_pos ⟨by omega, hj⟩]
        have h1 := hv (m + 1) (by omega)
        rw [show 2 * (m + 1) = 2 * m + 2 by ring] at h1 ⊢
        field_simp
        ring
      · have := ih k (by omega) j hj
        unfold evenEq at this ⊢
        rw [hrow (2 * k + 1) (by omega), if_neg (show ¬ (2 * k + 1 = 2 * m + 2 + 1 ∧ j < 2 * h) by omega)]
        by_cases ck : k = 0
        · rw [if_pos ck] at this ⊢; exact this
        · rw [if_neg ck] at this ⊢
          rw [hrow _ (by omega), if_neg (by omega)]
          exact this
  have H2 := H2 _ (Nat.le_refl _)
  generalize (List.range ((2 * h - 1) / 2)).foldl F2 C1 = C2 at H2 ⊢
  -- last even row
  generalize e3 : (List.range (2 * h)).foldl (fun C j => cmSet C ldC (2 * h - 2) j (cmAt B ldB (2 * h - 1) j / vT (2 * h - 2))) C2 = C3
  have hrow := fun i j (hi : i < ldC) => cmRowLoop (ld := ldC) (n := 2 * h) (r := 2 * h - 2) (by omega)
    (fun _ j => cmAt B ldB (2 * h - 1) j / vT (2 * h - 2)) C2 (fun _ _ _ _ => rfl) (i := i) (j := j) hi
  rw [e3] at hrow
  have HE3 : ∀ k, k < h → ∀ j, cmAt C3 ldC (2 * k + 1) j = cmAt C2 ldC (2 * k + 1) j := by
    intro k hk j
    rw [hrow _ _ (by omega), if_neg (by omega)]
  have HO3 : ∀ j, j < 2 * h → oddEq h vT B ldB C3 ldC (h - 1) j := by
    intro j hj
    unfold oddEq
    rw [if_pos (by omega), hrow _ _ (by omega), if_pos ⟨by omega, hj⟩]
    have h1 := hv (h - 1) (by omega)
    rw [show 2 * (h - 1) = 2 * h - 2 by omega, show 2 * h - 2 + 1 = 2 * h - 1 by omega] at *
    field_simp
    ring
  clear e3 hrow
  have H4 : ∀ m, m ≤ (2 * h - 1) / 2 →
      (∀ k, k < h → ∀ j, cmAt ((List.range m).foldl F4 C3) ldC (2 * k + 1) j
          = cmAt C2 ldC (2 * k + 1) j) ∧
      ∀ k, k < h → h ≤ k + 1 + m → ∀ j, j < 2 * h → oddEq h vT B ldB ((List.range m).foldl F4 C3) ldC k j := by
    intro m
    induction m with
    | zero =>
      intro _
      refine ⟨HE3, fun k hk hkm j hj => ?_⟩
      obtain rfl : k = h - 1 := by omega
      exact HO3 j hj
    | succ m ih =>
      intro hm
      rw [List.range_succ, List.foldl_append]
      simp only [List.foldl_cons, List.foldl_nil]
      obtain ⟨ih1, ih2⟩ := ih (by omega)
      generalize (List.range m).foldl F4 C3 = D at ih1 ih2 ⊢
      rw [hF4]
      have hrow := fun i j (hi : i < ldC) => cmRowLoop (ld := ldC) (n := 2 * h) (r := 2 * h - 3 - 2 * m - 1) (by omega)
        (fun C j => (cmAt B ldB (2 * h - 3 - 2 * m) j + cmAt C ldC (2 * h - 3 - 2 * m + 1) j * vT (2 * h - 3 - 2 * m)) / vT (2 * h - 3 - 2 * m - 1)) D (by
          intro C' hC j _
          rw [hC _ (by omega) (by omega)]) (i := i) (j := j) hi
      refine ⟨fun k hk j => ?_, fun k hk hkm j hj => ?_⟩
      · rw [hrow _ _ (by omega), if_neg (by omega)]
        exact ih1 k hk j
      · by_cases c : k = h - 2 - m
        · unfold oddEq
          rw [if_neg (by omega), hrow _ _ (by omega), hrow _ _ (by omega), if_pos ⟨by omega, hj⟩, if_neg (by omega)]
          have h1 := hv k hk
          rw [show 2 * h - 3 - 2 * m = 2 * k + 1 by omega, show 2 * k + 1 - 1 = 2 * k by omega, show 2 * k + 1 + 1 = 2 * k + 2 by omega]
          field_simp
          ring
        · have := ih2 k hk (by omega) j hj
          unfold oddEq at this ⊢
          rw [hrow _ _ (by omega), if_neg (by omega)]
          by_cases ck : k + 1 = h
          · rw [if_pos ck] at this ⊢
            exact this
          · rw [if_neg ck] at this ⊢
            rw [hrow _ _ (by omega), if_neg (by omega)]
            exact this
  obtain ⟨h4, h5⟩ := H4 _ (Nat.le_refl _)
  generalize (List.range ((2 * h - 1) / 2)).foldl F4 C3 = C4 at h4 h5 ⊢
  intro k hk j hj
  refine ⟨?_, h5 k hk (by omega) j hj⟩
  have := H2 k (by omega) j hj
  unfold evenEq at this ⊢
  rw [h4 k hk]
  by_cases c : k = 0
  · rw [if_pos c] at this ⊢; exact this
  · rw [if_neg c] at this ⊢
    rw [show 2 * k - 1 = 2 * (k - 1) + 1 by omega] at this ⊢
    rw [h4 (k - 1) (by omega)]
    exact this

end solve

/-! ### matrices -/

theorem factT_sum (a : Nat → K) (ld n i : Nat) (hi : i < n) (c : Nat → K) :
    ∑ k ∈ Finset.range n, factT a ld i k * c k =
      (if i + 1 < n then a (i + (i + 1) * ld) * c (i + 1) else 0) - (if i = 0 then 0 else a (i - 1 + i * ld) * c (i - 1)) := by
  have e : ∀ k ∈ Finset.range n, factT a ld i k * c k =
      (if k = i + 1 then a (i + (i + 1) * ld) * c (i + 1) else 0) + (if k = i - 1 then (if i = 0 then 0 else - (a (i - 1 + i * ld) * c (i - 1))) else 0) := by
    intro k _
    unfold factT
    by_cases h1 : k = i + 1
    · subst h1
      rw [if_pos rfl, if_pos rfl, if_neg (by omega), add_zero]
    · rw [if_neg h1, if_neg h1]
      by_cases h2 : i = k + 1
      · subst h2
        rw [if_pos rfl, if_pos (by omega), if_neg (by omega), show k + 1 - 1 = k by omega]
        ring
      · rw [if_neg h2]
        by_cases h3 : k = i - 1
        · rw [if_pos h3, if_pos (by omega)]; ring
        · rw [if_neg h3]; ring
  rw [Finset.sum_congr rfl e, Finset.sum_add_distrib, Finset.sum_ite_eq', Finset.sum_ite_eq', sub_eq_add_neg]
  congr 1
  · simp only [Finset.mem_range]
  · rw [if_pos (Finset.mem_range.mpr (by omega))]
    split_ifs <;> simp

/-- the substitution solves `T C = B` -/
theorem sktdsmx_solves {h ldA ldB ldC : Nat} {vT B a : Nat → K} (hh : 0 < h) (hld : 2 * h ≤ ldC)
    (ha : ∀ k, 2 * k + 1 < 2 * h → a (2 * k + (2 * k + 1) * ldA) ≠ 0) (hv : ∀ i, i + 1 < 2 * h → vT i = - a (i + (i + 1) * ldA)) (C : Nat → K)
    {i j : Nat} (hi : i < 2 * h) (hj : j < 2 * h) :
    ∑ k ∈ Finset.range (2 * h), factT a ldA i k * cmAt (sktdsmx (2 * h) vT B ldB C ldC) ldC k j = cmAt B ldB i j := by
  have hok := sktdsmx_ok (vT := vT) (B := B) (ldB := ldB) hh hld (fun k hk => by
    rw [hv _ (by omega)]; exact neg_ne_zero.mpr (ha k (by omega))) C
  rw [factT_sum _ _ _ _ hi]
  rcases Nat.even_or_odd' i with ⟨k, rfl | rfl⟩
  · obtain ⟨h1, -⟩ := hok k (by omega) j hj
    unfold evenEq at h1
    rw [← h1, if_pos (by omega), hv (2 * k) (by omega)]
    by_cases c : k = 0
    · rw [if_pos c, if_pos (by omega : 2 * k = 0)]; ring
    · rw [if_neg c, if_neg (by omega), hv (2 * k - 1) (by omega), show 2 * k - 1 + 1 = 2 * k by omega]
      ring
  · obtain ⟨-, h1⟩ := hok k (by omega) j hj
    unfold oddEq at h1
    rw [← h1, if_neg (by omega : ¬ 2 * k + 1 = 0), show 2 * k + 1 - 1 = 2 * k by omega, hv (2 * k) (by omega)]
    by_cases c : k + 1 = h
    · rw [if_pos c, if_neg (by omega)]; ring
    · rw [if_neg c, if_pos (by omega), hv (2 * k + 1) (by omega), show 2 * k + 1 + 1 = 2 * k + 2 by omega]; ring

theorem setEye_at {n ld : Nat} (hld : n ≤ ld) (M : Nat → K) {i j : Nat} (hi : i < n) (hj : j < n) :
    cmAt (setEye n M ld) ld i j = if i = j then 1 else 0 := by
  unfold setEye
  have e := writeLoop (fun x : Nat × Nat => x.1 + x.2 * ld) (fun _ x => if x.1 = x.2 then (1 : K) else 0) M
    ((List.range n).flatMap (fun j => (List.range n).map (fun i => (i, j)))) (by
      intro x hx y hy e
      simp only [List.mem_flatMap, List.mem_map, List.mem_range] at hx hy
      obtain ⟨j1, h1, i1, h2, rfl⟩ := hx
      obtain ⟨j2, h3, i2, h4, rfl⟩ := hy
      obtain ⟨rfl, rfl⟩ := cm_inj (by omega) (by omega) e
      rfl) (fun _ _ _ _ => rfl)
  have e1 := e.1 (i, j) (by simp only [List.mem_flatMap, List.mem_map, List.mem_range]; exact ⟨j, hj, i, hi, rfl⟩)
  rw [List.foldl_flatMap] at e1
  simp only [List.foldl_map] at e1
  exact e1

theorem lacpyU_at {m n ldS ldD : Nat} (hld : n ≤ ldD) (src : Nat → K) (offS : Nat) (dst : Nat → K) (off : Nat) (x : Nat) :
    (∀ i j, i ≤ j → i < m → j < n → lacpyU m n src offS ldS dst off ldD (off + (i + j * ldD)) = src (offS + (i + j * ldS))) ∧
    ((∀ i j, i ≤ j → i < m → j < n → x ≠ off + (i + j * ldD)) → lacpyU m n src offS ldS dst off ldD x = dst x) := by
  unfold lacpyU
  have e := writeLoop (fun x : Nat × Nat => off + (x.1 + x.2 * ldD)) (fun _ x => src (offS + (x.1 + x.2 * ldS))) dst
    ((List.range n).flatMap (fun j => (List.range (min (j + 1) m)).map (fun i => (i, j)))) (by
      intro x hx y hy e
      simp only [List.mem_flatMap, List.mem_map, List.mem_range] at hx hy
      obtain ⟨j1, h1, i1, h2, rfl⟩ := hx
      obtain ⟨j2, h3, i2, h4, rfl⟩ := hy
      obtain ⟨rfl, rfl⟩ := cm_inj (ld := ldD) (by omega) (by omega) (Nat.add_left_cancel e)
      rfl) (fun _ _ _ _ => rfl)
  rw [List.foldl_flatMap] at e
  simp only [List.foldl_map] at e
  refine ⟨fun i j hij hi hj => ?_, fun hx => ?_⟩
  · exact e.1 (i, j) (by simp only [List.mem_flatMap, List.mem_map, List.mem_range]; exact ⟨j, hj, i, by omega, rfl⟩)
  · refine e.2 x ?_
    intro y hy
    simp only [List.mem_flatMap, List.mem_map, List.mem_range] at hy
    obtain ⟨j, hj, i, hi, rfl⟩ := hy
    exact hx i j (by omega) (by omega) hj

/-- the array after `trtri` -/
def afterTri (trtri : Nat → Nat → (Nat → K) → (Nat → K)) (n ldA : Nat) (A : Nat → K) : Nat → K :=
  fun k => if k < ldA then A k else trtri (n - 1) ldA (fun k => A (ldA + k)) (k - ldA)

/-- the array `M` -/
def mOf (trtri : Nat → Nat → (Nat → K) → (Nat → K)) (n : Nat) (A : Nat → K) (ldA : Nat) (M : Nat → K) (ldM : Nat) : Nat → K :=
  lacpyU (n - 2) (n - 2) (afterTri trtri n ldA A) (2 * ldA) ldA (setEye n M ldM) ldM ldM

theorem mOf_at (trtri : Nat → Nat → (Nat → K) → (Nat → K)) {n ldA ldM : Nat} (hM : n ≤ ldM) (A M : Nat → K) {i j : Nat} (hi : i < n) (hj : j < n) :
    cmAt (mOf trtri n A ldA M ldM) ldM i j = factU n (afterTri trtri n ldA A) ldA i j := by
  have h := lacpyU_at (m := n - 2) (n := n - 2) (ldS := ldA) (ldD := ldM) (by omega) (afterTri trtri n ldA A) (2 * ldA) (setEye n M ldM) ldM (i + j * ldM)
  unfold factU
  by_cases c : i < j ∧ j + 1 < n
  · rw [if_neg (by omega), if_pos c]
    have := h.1 i (j - 1) (by omega) (by omega) (by omega)
    rw [show ldM + (i + (j - 1) * ldM) = i + j * ldM by
      obtain ⟨j', rfl⟩ : ∃ j', j = j' + 1 := ⟨j - 1, by omega⟩
      simp only [Nat.add_sub_cancel]; ring] at this
    unfold cmAt
    refine this.trans (congrArg _ ?_)
    obtain ⟨j', rfl⟩ : ∃ j', j = j' + 1 := ⟨j - 1, by omega⟩
    simp only [Nat.add_sub_cancel]; ring
  · rw [if_neg c]
    have e : cmAt (mOf trtri n A ldA M ldM) ldM i j = cmAt (setEye n M ldM) ldM i j := by
      refine h.2 ?_
      intro i' j' h1 h2 h3 e
      obtain ⟨rfl, rfl⟩ := cm_inj (ld := ldM) (i := i) (j := j) (i' := i') (j' := j' + 1) (by omega) (by omega) (by rw [e]; ring)
      exact c ⟨by omega, by omega⟩
    rw [e, setEye_at hM M hi hj]

theorem afterTri_super {trtri : Nat → Nat → (Nat → K) → (Nat → K)} (ht : TrtriOK trtri) {n ldA : Nat} (hld : n ≤ ldA) (A : Nat → K) {i : Nat}
    (hi : i + 1 < n) : afterTri trtri n ldA A (i + (i + 1) * ldA) = A (i + (i + 1) * ldA) := by
  unfold afterTri
  have e : i + (i + 1) * ldA = ldA + (i + i * ldA) := by ring
  rw [if_neg (by omega), e, Nat.add_sub_cancel_left, (ht (n - 1) ldA _ (by omega)).2]
  intro i' j' h1 h2 e
  have := cm_inj (ld := ldA) (by omega) (by omega) e
  omega

/-- the inverse of `U` -/
theorem factU_inv {trtri : Nat → Nat → (Nat → K) → (Nat → K)} (ht : TrtriOK trtri) {n ldA : Nat} (hld : n ≤ ldA) (A : Nat → K) {i j : Nat}
    (hi : i < n) (hj : j < n) :
    ∑ k ∈ Finset.range n, factU n A ldA i k * factU n (afterTri trtri n ldA A) ldA k j = if i = j then 1 else 0 := by
  obtain ⟨m, rfl⟩ : ∃ m, n = m + 1 := ⟨n - 1, by omega⟩
  have h := (ht m ldA (fun k => A (ldA + k)) (by omega)).1
  have u1 : ∀ i k, i < m → k < m → factU (m + 1) A ldA i k = unitU (fun k => A (ldA + k)) ldA i k := by
    intro i k hi hk
    unfold factU unitU
    by_cases c : i = k
    · rw [if_pos c, if_pos c]
    · rw [if_neg c, if_neg c]
      by_cases c2 : i < k
      · rw [if_pos ⟨c2, by omega⟩, if_pos c2]
        refine congrArg A ?_; ring
      · rw [if_neg (by omega), if_neg c2]
  have u2 : ∀ i k, i < m → k < m → factU (m + 1) (afterTri trtri (m + 1) ldA A) ldA i k = unitU (trtri m ldA (fun k => A (ldA + k))) ldA i k := by
    intro i k hi hk
    unfold factU unitU
    by_cases c : i = k
    · rw [if_pos c, if_pos c]
    · rw [if_neg c, if_neg c]
      by_cases c2 : i < k
      · rw [if_pos ⟨c2, by omega⟩, if_pos c2]
        unfold afterTri
        have e : i + (k + 1) * ldA = ldA + (i + k * ldA) := by ring
        rw [if_neg (by omega), e, Nat.add_sub_cancel_left]
        rfl
      · rw [if_neg (by omega), if_neg c2]
  have l : ∀ (a : Nat → K) k, k < m → factU (m + 1) a ldA k m = 0 := by
    intro a k hk
    unfold factU
    rw [if_neg (by omega), if_neg (by omega)]
  have l' : ∀ (a : Nat → K) k, k < m → factU (m + 1) a ldA m k = 0 := by
    intro a k hk
    unfold factU
    rw [if_neg (by omega), if_neg (by omega)]
  have l0 : ∀ (a : Nat → K), factU (m + 1) a ldA m m = 1 := by
    intro a
    unfold factU
    rw [if_pos rfl]
  rw [Finset.sum_range_succ]
  rcases Nat.lt_succ_iff_lt_or_eq.mp hi with hi' | rfl
  · rcases Nat.lt_succ_iff_lt_or_eq.mp hj with hj' | rfl
    · rw [l A i hi', zero_mul, add_zero, ← h i j hi' hj']
      refine Finset.sum_congr rfl (fun k hk => ?_)
      rw [u1 i k hi' (Finset.mem_range.mp hk), u2 k j (Finset.mem_range.mp hk) hj']
    · rw [l A i hi', zero_mul, add_zero, if_neg (by omega)]
      exact Finset.sum_eq_zero (fun k hk => by rw [l _ k (Finset.mem_range.mp hk), mul_zero])
  · rcases Nat.lt_succ_iff_lt_or_eq.mp hj with hj' | rfl
    · rw [l' _ j hj', mul_zero, add_zero, if_neg (by omega)]
      exact Finset.sum_eq_zero (fun k hk => by rw [l' _ k (Finset.mem_range.mp hk), zero_mul])
    · rw [l0, l0, one_mul, if_pos rfl]
      rw [Finset.sum_eq_zero (fun k hk => by rw [l' _ k (Finset.mem_range.mp hk), zero_mul]), zero_add]

/-! ### products -/

theorem trmm_at {m n ldA ldB j0 : Nat} (hm : m ≤ ldB) (A B : Nat → K) {i j : Nat} (hi : i < ldB) :
    cmAt (trmmLUTU m n A ldA B (j0 * ldB) ldB) ldB i j = if j0 ≤ j ∧ j < j0 + n ∧ i < m then
      cmAt B ldB i j + ∑ k ∈ Finset.range i, cmAt A ldA k i * cmAt B ldB k j else cmAt B ldB i j := by
  unfold cmAt trmmLUTU
  by_cases c : j0 ≤ j
  · obtain ⟨d, rfl⟩ : ∃ d, j = j0 + d := ⟨j - j0, by omega⟩
    have e : i + (j0 + d) * ldB - j0 * ldB = i + d * ldB := by
      rw [Nat.add_mul]; omega
    have e1 : (i + d * ldB) % ldB = i := by rw [Nat.add_mul_mod_self_right, Nat.mod_eq_of_lt hi]
    have e2 : (i + d * ldB) / ldB = d := by
      rw [Nat.add_mul_div_right _ _ (by omega), Nat.div_eq_of_lt hi, zero_add]
    rw [e, e1, e2]
    have hle : j0 * ldB ≤ i + (j0 + d) * ldB := by rw [Nat.add_mul]; omega
    by_cases c2 : i < m ∧ d < n
    · rw [if_pos ⟨hle, c2⟩, if_pos ⟨by omega, by omega, c2.1⟩, sumLoop_eq]
      congr 1
      refine Finset.sum_congr rfl (fun k _ => ?_)
      congr 2
      ring
    · rw [if_neg (fun h => c2 h.2), if_neg (fun h => c2 ⟨h.2.2, by omega⟩)]
  · have hlt : i + j * ldB < j0 * ldB := by
      have : (j + 1) * ldB ≤ j0 * ldB := Nat.mul_le_mul_right _ (by omega)
      rw [Nat.add_mul] at this
      omega
    rw [if_neg (by omega), if_neg (by omega)]

/-- panels -/
theorem trmmt_at {np n ldA ldB : Nat} (hnp : 0 < np) (hld : n ≤ ldB) (A B : Nat → K) {i j : Nat} (hij : i ≤ j) (hj : j < n) :
    cmAt (trmmtU np n A ldA B ldB) ldB i j = cmAt B ldB i j + ∑ k ∈ Finset.range i, cmAt A ldA k i * cmAt B ldB k j := by
  unfold trmmtU
  have H : ∀ m, m ≤ (n + np - 1) / np → ∀ j, j < n →
      (m * np ≤ j → ∀ i, i < ldB → cmAt ((List.range m).foldl (fun B k =>
        let j := k * np
        let nloc := min np (n - j)
        trmmLUTU (j + nloc) nloc A ldA B (j * ldB) ldB) B) ldB i j = cmAt B ldB i j) ∧
      (j < m * np → ∀ i, i ≤ j → cmAt ((List.range m).foldl (fun B k =>
        let j := k * np
        let nloc := min np (n - j)
        trmmLUTU (j + nloc) nloc A ldA B (j * ldB) ldB) B) ldB i j = cmAt B ldB i j + ∑ k ∈ Finset.range i, cmAt A ldA k i * cmAt B ldB k j) := by
    intro m
    induction m with
    | zero => intro _ j _; exact ⟨fun _ _ _ => rfl, fun h => by omega⟩
    | succ m ih =>
      intro hm j hj
      obtain ⟨ih1, ih2⟩ := ih (by omega) j hj
      rw [List.range_succ, List.foldl_append]
      simp only [List.foldl_cons, List.foldl_nil]
      generalize (List.range m).foldl _ B = D at ih1 ih2 ⊢
      have hmn : m * np < n := by
        have : (m + 1) * np ≤ (n + np - 1) / np * np := Nat.mul_le_mul_right _ hm
        have h2 := Nat.div_mul_le_self (n + np - 1) np
        rw [Nat.add_mul] at this
        omega
      rw [Nat.add_mul, one_mul]
      refine ⟨fun h i hi => ?_, fun h i hi => ?_⟩
      · rw [trmm_at (by omega) _ _ hi, if_neg (by omega)]
        exact ih1 (by omega) i hi
      · rw [trmm_at (by omega) _ _ (by omega)]
        by_cases c : m * np ≤ j
        · rw [if_pos (by omega), ih1 c i (by omega)]
          congr 1
          refine Finset.sum_congr rfl (fun k hk => ?_)
          rw [ih1 c k (by have := Finset.mem_range.mp hk; omega)]
        · rw [if_neg (by omega)]
          exact ih2 (by omega) i hi
  refine (H _ (Nat.le_refl _) j hj).2 ?_ i hij
  have := Nat.div_add_mod (n + np - 1) np
  have h2 := Nat.mod_lt (n + np - 1) hnp
  rw [Nat.mul_comm] at this
  omega

end MVMC
