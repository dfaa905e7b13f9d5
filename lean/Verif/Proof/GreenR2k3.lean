import Verif.Proof.GreenR2k2
import Mathlib.Analysis.Real.Sqrt

/-! # Proofs about the Fourier tool: the lattice, the k-points and the transformation -/
namespace MVMC
open Spec

theorem r2kSites_spec : ∀ (vs irv1 : List R2V) (rindx : List ℕ), irv1.Nodup →
    ∃ ext new, r2kSites vs irv1 rindx = (irv1 ++ ext, rindx ++ new) ∧ (irv1 ++ ext).Nodup ∧
      List.Forall₂ (fun v m => (irv1 ++ ext)[m]? = some v) vs new ∧ ∀ v ∈ ext, v ∈ vs
  | [], irv1, rindx, h => ⟨[], [], by simp [r2kSites], by simpa using h, List.Forall₂.nil, by simp⟩
  | v :: vs, irv1, rindx, h => by
    by_cases hv : v ∈ irv1
    · obtain ⟨ext, new, e, hn, hf, hm⟩ := r2kSites_spec vs irv1 (rindx ++ [irv1.idxOf v]) h
      refine ⟨ext, irv1.idxOf v :: new, ?_, hn, List.Forall₂.cons ?_ hf, fun x hx => List.mem_cons_of_mem _ (hm x hx)⟩
      · rw [r2kSites, if_pos hv, e]; simp
      · rw [List.getElem?_append_left (List.idxOf_lt_length_iff.mpr hv), List.getElem?_eq_getElem (List.idxOf_lt_length_iff.mpr hv), List.getElem_idxOf]
    · obtain ⟨ext, new, e, hn, hf, hm⟩ := r2kSites_spec vs (irv1 ++ [v]) (rindx ++ [irv1.length]) (by
        rw [List.nodup_append]
        refine ⟨h, by simp, ?_⟩
        intro x hx y hy
        rw [List.mem_singleton] at hy
        subst hy
        rintro rfl
        exact hv hx)
      refine ⟨v :: ext, irv1.length :: new, ?_, by simpa using hn, List.Forall₂.cons ?_ (by simpa using hf), ?_⟩
      · rw [r2kSites, if_neg hv, e]; simp
      · simp
      · intro x hx
        rcases List.mem_cons.mp hx with rfl | hx
        · exact List.mem_cons_self
        · exact List.mem_cons_of_mem _ (hm x hx)

/-- lengths of the list are equal or clearly different -/
def R2kSep (len : R2V → ℝ) (L : List R2V) : Prop := ∀ s ∈ L, ∀ t ∈ L, len s = len t ∨ 1 / 10 ^ 6 < |len s - len t|

theorem r2kFold_spec (len : R2V → ℝ) (l0 : ℝ) (L : List R2V) (hne : L ≠ []) (hl : ∀ s ∈ L, len s < l0 - 1 / 10 ^ 6) (hs : R2kSep len L) :
    (∃ s ∈ L, len s = (L.foldl (r2kImgStep len) (l0, [])).1) ∧ (∀ s ∈ L, (L.foldl (r2kImgStep len) (l0, [])).1 ≤ len s) ∧
      (L.foldl (r2kImgStep len) (l0, [])).2 = L.filter (fun s => decide (len s = (L.foldl (r2kImgStep len) (l0, [])).1)) := by
  have he : (0 : ℝ) < 1 / 10 ^ 6 := by norm_num
  induction L using List.reverseRecOn with
  | nil => exact absurd rfl hne
  | append_singleton P s ih =>
    have hsm : s ∈ P ++ [s] := by simp
    by_cases hP : P = []
    · subst hP
      have h1 := hl s hsm
      have e : r2kImgStep len (l0, []) s = (len s, [s]) := by rw [r2kImgStep, if_pos h1]
      rw [List.nil_append, List.foldl_cons, List.foldl_nil, e]
      simp
    · obtain ⟨⟨p, hp, hpe⟩, hmin, hfil⟩ := ih hP (fun t ht => hl t (by simp [ht])) (fun t ht u hu => hs t (by simp [ht]) u (by simp [hu]))
      rw [List.foldl_concat]
      generalize List.foldl (r2kImgStep len) (l0, []) P = st at hpe hmin hfil ⊢
      have sep := hs s hsm p (by simp [hp])
      rw [hpe] at sep
      unfold r2kImgStep
      by_cases c1 : len s < st.1 - 1 / 10 ^ 6
      · rw [if_pos c1]
        refine ⟨⟨s, hsm, rfl⟩, ?_, ?_⟩
        · intro t ht
          rcases List.mem_append.mp ht with ht | ht
          · have := hmin t ht
            change len s ≤ len t
            linarith
          · rw [List.mem_singleton] at ht
            subst ht
            exact le_refl _
        · rw [List.filter_append]
          have e1 : P.filter (fun t => decide (len t = len s)) = [] := by
            rw [List.filter_eq_nil_iff]
            intro t ht
            have := hmin t ht
            rw [decide_eq_true_eq]
            intro hh
            linarith
          change [s] = P.filter (fun t => decide (len t = len s)) ++ [s].filter (fun t => decide (len t = len s))
          rw [e1]
          simp
      · rw [if_neg c1]
        by_cases c2 : |len s - st.1| < 1 / 10 ^ 6
        · rw [if_pos c2]
          have e : len s = st.1 := by
            rcases sep with h | h
            · exact h
            · exact absurd c2 (not_lt.mpr h.le)
          refine ⟨⟨s, hsm, e⟩, ?_, ?_⟩
          · intro t ht
            rcases List.mem_append.mp ht with ht | ht
            · exact hmin t ht
            · rw [List.mem_singleton] at ht
              subst ht
              exact e.ge
          · rw [List.filter_append]
            change st.2 ++ [s] = P.filter (fun t => decide (len t = st.1)) ++ [s].filter (fun t => decide (len t = st.1))
            rw [← hfil]
            simp [e]
        · rw [if_neg c2]
          have e : st.1 < len s := by
            rcases sep with h | h
            · rw [h, sub_self, abs_zero] at c2
              exact absurd he c2
            · rcases lt_abs.mp h with h | h <;> linarith
          refine ⟨⟨p, by simp [hp], hpe⟩, ?_, ?_⟩
          · intro t ht
            rcases List.mem_append.mp ht with ht | ht
            · exact hmin t ht
            · rw [List.mem_singleton] at ht
              subst ht
              exact e.le
          · rw [List.filter_append, ← hfil]
            simp [e.ne']

theorem r2k_sqrt_sep {a b : ℕ} (ha : a ≤ 10 ^ 8) (hab : a < b) : 1 / 10 ^ 6 < Real.sqrt b - Real.sqrt a := by
  by_contra hc
  have h1 : Real.sqrt b ≤ Real.sqrt a + 1 / 10 ^ 6 := by linarith
  have h2 : Real.sqrt a ≤ 10 ^ 4 := by
    rw [Real.sqrt_le_left (by norm_num)]
    have : (a : ℝ) ≤ ((10 ^ 8 : ℕ) : ℝ) := by exact_mod_cast ha
    norm_num at this ⊢
    exact this
  have h3 : (b : ℝ) = Real.sqrt b ^ 2 := (Real.sq_sqrt (Nat.cast_nonneg b)).symm
  have h4 : (a : ℝ) = Real.sqrt a ^ 2 := (Real.sq_sqrt (Nat.cast_nonneg a)).symm
  have h5 : (a : ℝ) + 1 ≤ b := by exact_mod_cast hab
  have h6 : 0 ≤ Real.sqrt (b : ℝ) := Real.sqrt_nonneg _
  have h7 : 0 ≤ Real.sqrt (a : ℝ) := Real.sqrt_nonneg _
  have h8 : Real.sqrt b ^ 2 ≤ (Real.sqrt a + 1 / 10 ^ 6) ^ 2 := pow_le_pow_left₀ h6 h1 2
  nlinarith

/-- the squared length in a cubic lattice -/
def r2kSq (v : R2V) : ℕ := (v.1 ^ 2 + v.2.1 ^ 2 + v.2.2 ^ 2).toNat

/-- the cubic lattice -/
def r2kCubic : Fin 3 → Fin 3 → ℝ := fun i j => if i = j then 1 else 0

theorem r2kLen_cubic (v : R2V) : r2kLen r2kCubic v = Real.sqrt (r2kSq v) := by
  have h : (0 : ℤ) ≤ v.1 ^ 2 + v.2.1 ^ 2 + v.2.2 ^ 2 := by positivity
  have e : ((r2kSq v : ℕ) : ℝ) = ((v.1 ^ 2 + v.2.1 ^ 2 + v.2.2 ^ 2 : ℤ) : ℝ) := by
    have : ((r2kSq v : ℕ) : ℤ) = v.1 ^ 2 + v.2.1 ^ 2 + v.2.2 ^ 2 := Int.toNat_of_nonneg h
    rw [← this]
    simp
  rw [r2kLen, e, Fin.sum_univ_three]
  simp [r2kCubic]

/-- the images in a cubic lattice, from integers only -/
theorem r2kImages_cubic (box : R2V × R2V × R2V) (v : R2V) (m : ℕ) (h1 : ∀ s ∈ r2kShifts, r2kSq (r2kMove box v s) ≤ 10 ^ 8) (h2 : ∀ s ∈ r2kShifts, m ≤ r2kSq (r2kMove box v s))
    (h3 : ∃ s ∈ r2kShifts, r2kSq (r2kMove box v s) = m) :
    (r2kImages r2kCubic box v).2 = r2kShifts.filter (fun s => decide (r2kSq (r2kMove box v s) = m)) := by
  have inj : ∀ a b : ℕ, Real.sqrt (a : ℝ) = Real.sqrt b → a = b := by
    intro a b h
    have := (Real.sqrt_inj (Nat.cast_nonneg a) (Nat.cast_nonneg b)).mp h
    exact_mod_cast this
  have spec := r2kFold_spec (fun s => r2kLen r2kCubic (r2kMove box v s)) (10 ^ 10) r2kShifts (by decide) (by
      intro s hs
      rw [r2kLen_cubic]
      have : Real.sqrt (r2kSq (r2kMove box v s)) ≤ 10 ^ 4 := by
        rw [Real.sqrt_le_left (by norm_num)]
        have : ((r2kSq (r2kMove box v s) : ℕ) : ℝ) ≤ ((10 ^ 8 : ℕ) : ℝ) := by exact_mod_cast h1 s hs
        norm_num at this ⊢
        exact this
      refine lt_of_le_of_lt this ?_
      norm_num) (by
      intro s hs t ht
      change r2kLen _ _ = r2kLen _ _ ∨ _ < |r2kLen _ _ - r2kLen _ _|
      rw [r2kLen_cubic, r2kLen_cubic]
      rcases lt_trichotomy (r2kSq (r2kMove box v s)) (r2kSq (r2kMove box v t)) with h | h | h
      · right
        rw [abs_sub_comm]
        exact lt_of_lt_of_le (r2k_sqrt_sep (h1 s hs) h) (le_abs_self _)
      · left; rw [h]
      · right
        exact lt_of_lt_of_le (r2k_sqrt_sep (h1 t ht) h) (le_abs_self _))
  obtain ⟨⟨s, hs, e⟩, hmin, hfil⟩ := spec
  obtain ⟨t, ht, et⟩ := h3
  have em : (List.foldl (r2kImgStep fun s => r2kLen r2kCubic (r2kMove box v s)) (10 ^ 10, []) r2kShifts).1 = Real.sqrt m := by
    apply le_antisymm
    · have := hmin t ht
      rw [r2kLen_cubic, et] at this
      exact this
    · rw [← e, r2kLen_cubic]
      exact Real.sqrt_le_sqrt (by exact_mod_cast h2 s hs)
  rw [r2kImages, hfil, em]
  congr 1
  funext q
  rw [r2kLen_cubic]
  exact decide_eq_decide.mpr ⟨fun h => inj _ _ h, fun h => by rw [h]⟩

theorem r2kFmat_eq (box : R2V × R2V × R2V) (phase0 : ℝ × ℝ × ℝ) (v : R2V) (imgs : List R2V) (k : ℝ × ℝ × ℝ) (hne : imgs ≠ [])
    (h1 : ∃ m : ℤ, 2 * Real.pi * r2kDot k box.1 = phase0.1 + 2 * Real.pi * m) (h2 : ∃ m : ℤ, 2 * Real.pi * r2kDot k box.2.1 = phase0.2.1 + 2 * Real.pi * m)
    (h3 : ∃ m : ℤ, 2 * Real.pi * r2kDot k box.2.2 = phase0.2.2 + 2 * Real.pi * m) : r2kFmat box phase0 v imgs k = planeWave k v := by
  obtain ⟨m1, h1⟩ := h1
  obtain ⟨m2, h2⟩ := h2
  obtain ⟨m3, h3⟩ := h3
  have key : ∀ s : R2V, (⟨Real.cos (- (2 * Real.pi) * r2kDot k (r2kMove box v s) + r2kDot phase0 s), Real.sin (- (2 * Real.pi) * r2kDot k (r2kMove box v s) + r2kDot phase0 s)⟩ : ℂ) =
      planeWave k v := by
    intro s
    have e : - (2 * Real.pi) * r2kDot k (r2kMove box v s) + r2kDot phase0 s = -(2 * Real.pi * r2kDot k v) - ((s.1 * m1 + s.2.1 * m2 + s.2.2 * m3 : ℤ) : ℝ) * (2 * Real.pi) := by
      have e1 : r2kDot k (r2kMove box v s) = r2kDot k v + s.1 * r2kDot k box.1 + s.2.1 * r2kDot k box.2.1 + s.2.2 * r2kDot k box.2.2 := by
        simp only [r2kDot, r2kMove, Prod.fst_add, Prod.snd_add, Prod.smul_fst, Prod.smul_snd, smul_eq_mul, Int.cast_add, Int.cast_mul]
        ring
      rw [e1]
      have e2 : r2kDot phase0 s = phase0.1 * s.1 + phase0.2.1 * s.2.1 + phase0.2.2 * s.2.2 := rfl
      rw [e2]
      push_cast
      linear_combination (-(s.1 : ℝ)) * h1 - (s.2.1 : ℝ) * h2 - (s.2.2 : ℝ) * h3
    rw [e, Real.cos_sub_int_mul_two_pi, Real.sin_sub_int_mul_two_pi, planeWave, ← Complex.ofReal_neg]
    apply Complex.ext
    · rw [Complex.exp_ofReal_mul_I_re]; rfl
    · rw [Complex.exp_ofReal_mul_I_im]; rfl
  rw [r2kFmat]
  have e : (imgs.map fun s =>
      let theta := - (2 * Real.pi) * r2kDot k (r2kMove box v s) + r2kDot phase0 s
      (⟨Real.cos theta, Real.sin theta⟩ : ℂ)) = List.replicate imgs.length (planeWave k v) := by
    rw [List.eq_replicate_iff]
    refine ⟨List.length_map _, ?_⟩
    intro z hz
    obtain ⟨s, _, rfl⟩ := List.mem_map.mp hz
    exact key s
  rw [e, List.sum_replicate, nsmul_eq_mul, mul_comm, mul_div_assoc, div_self, mul_one]
  simpa using hne

theorem r2k_flatMap_length {α : Type} (f : ℕ → List α) (c : ℕ) : ∀ n, (∀ i < n, (f i).length = c) → ((List.range n).flatMap f).length = n * c
  | 0, _ => by simp
  | n + 1, h => by
    rw [List.range_succ, List.flatMap_append, List.length_append, r2k_flatMap_length f c n (fun i hi => h i (by omega)), Nat.succ_mul]
    simp [h n (by omega)]

theorem r2k_flatMap_get {α : Type} (f : ℕ → List α) (c : ℕ) : ∀ n, (∀ i < n, (f i).length = c) → ∀ i < n, ∀ j < c, ((List.range n).flatMap f)[i * c + j]? = (f i)[j]?
  | 0, _, i, hi, _, _ => by omega
  | n + 1, h, i, hi, j, hj => by
    have hl := r2k_flatMap_length f c n (fun i hi => h i (by omega))
    rw [List.range_succ, List.flatMap_append]
    by_cases hin : i < n
    · have : i * c + j < n * c := by
        have := Nat.mul_le_mul_right c (show i + 1 ≤ n by omega)
        rw [Nat.succ_mul] at this
        omega
      rw [List.getElem?_append_left (by omega), r2k_flatMap_get f c n (fun i hi => h i (by omega)) i hin j hj]
    · obtain rfl : i = n := by omega
      rw [List.getElem?_append_right (by omega), hl, Nat.add_sub_cancel_left]
      simp

theorem r2k_sum_re (l : List ℂ) : l.sum.re = (l.map Complex.re).sum := by
  induction l with
  | nil => simp
  | cons a l ih => simp [ih]

theorem r2k_sum_im (l : List ℂ) : l.sum.im = (l.map Complex.im).sum := by
  induction l with
  | nil => simp
  | cons a l ih => simp [ih]

end MVMC
