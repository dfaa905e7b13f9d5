import Verif.Spec.Ergodic
import Mathlib.LinearAlgebra.Dimension.Finrank
import Mathlib.LinearAlgebra.FiniteDimensional.Basic
import Mathlib.LinearAlgebra.FiniteDimensional.Lemmas
import Mathlib.LinearAlgebra.Matrix.ToLin
import Mathlib.Data.Complex.BigOperators
import Mathlib.Analysis.Complex.Basic
import Mathlib.Tactic.Linarith
import Mathlib.Tactic.FieldSimp
import Mathlib.Tactic.Positivity
import Mathlib.Tactic.Ring

/-! # Averages over a run of a finite reversible chain -/
namespace MVMC
open Spec Finset
open scoped ENNReal

/-! ## Matrices -/

section mat
variable {ι : Type} [Fintype ι] [DecidableEq ι] {k : Matrix ι ι ℝ}

omit [DecidableEq ι] in
theorem variance_one (k1 : ∀ x, ∑ y, k x y = 1) (h : ι → ℝ) (x : ι) (b : ℝ) :
    ∑ y, k x y * (b + h y) ^ 2 = (b + (k.mulVec h) x) ^ 2 + ∑ y, k x y * (h y - (k.mulVec h) x) ^ 2 := by
  set t := (k.mulVec h) x with ht
  have h1 : ∑ y, k x y * h y = t := rfl
  have e : ∀ y, k x y * (b + h y) ^ 2 = k x y * (h y - t) ^ 2 + (2 * (b + t)) * (k x y * h y) + (b ^ 2 - t ^ 2) * k x y := by intro y; ring
  rw [sum_congr rfl (fun y _ => e y), sum_add_distrib, sum_add_distrib, ← mul_sum, ← mul_sum, h1, k1]
  ring

omit [DecidableEq ι] in
theorem weighted_gap (k1 : ∀ x, ∑ y, k x y = 1) {w : ι → ℝ} (hw : ∀ y, ∑ x, w x * k x y = w y) (h : ι → ℝ) :
    ∑ x, w x * h x ^ 2 = ∑ x, w x * (k.mulVec h) x ^ 2 + ∑ x, w x * ∑ y, k x y * (h y - (k.mulVec h) x) ^ 2 := by
  rw [← sum_add_distrib]
  have e : ∀ x, w x * (k.mulVec h) x ^ 2 + w x * ∑ y, k x y * (h y - (k.mulVec h) x) ^ 2 = ∑ y, w x * k x y * h y ^ 2 := by
    intro x
    have := variance_one k1 h x 0
    simp only [zero_add] at this
    rw [← mul_add, ← this, mul_sum]
    refine sum_congr rfl fun y _ => by ring
  rw [sum_congr rfl (fun x _ => e x), sum_comm]
  refine sum_congr rfl fun y _ => ?_
  rw [← sum_mul, hw]

theorem harmonic_const (k0 : ∀ x y, 0 ≤ k x y) (k1 : ∀ x, ∑ y, k x y = 1) {w : ι → ℝ} (w0 : ∀ x, 0 < w x)
    (hrev : ∀ x y, w x * k x y = w y * k y x) (hcon : ∀ x y, Relation.ReflTransGen (fun a b => 0 < k a b) x y) (hold : ∃ x, 0 < k x x)
    (m : Nat) (hm : 0 < m) {h : ι → ℝ} (hh : (k ^ m).mulVec h = h) (x y : ι) : h x = h y := by
  have hw : ∀ y, ∑ x, w x * k x y = w y := by
    intro y
    rw [sum_congr rfl (fun x _ => hrev x y), ← mul_sum, k1, mul_one]
  let S : (ι → ℝ) → ℝ := fun v => ∑ x, w x * v x ^ 2
  have hS : ∀ v, S (k.mulVec v) ≤ S v := by
    intro v
    have := weighted_gap k1 hw v
    have q : 0 ≤ ∑ x, w x * ∑ y, k x y * (v y - (k.mulVec v) x) ^ 2 :=
      sum_nonneg fun x _ => mul_nonneg (w0 x).le (sum_nonneg fun y _ => mul_nonneg (k0 x y) (sq_nonneg _))
    show ∑ x, w x * (k.mulVec v) x ^ 2 ≤ ∑ x, w x * v x ^ 2
    linarith
  have hpow : ∀ j v, S ((k ^ j).mulVec v) ≤ S v := by
    intro j
    induction j with
    | zero => intro v; rw [pow_zero, Matrix.one_mulVec]
    | succ j ih =>
      intro v
      rw [pow_succ, ← Matrix.mulVec_mulVec]
      exact (ih _).trans (hS v)
  have hle : S h ≤ S (k.mulVec h) := by
    obtain ⟨j, rfl⟩ := Nat.exists_eq_succ_of_ne_zero hm.ne'
    conv_lhs => rw [← hh, Nat.succ_eq_add_one, pow_succ, ← Matrix.mulVec_mulVec]
    exact hpow j _
  have hgap : ∑ x, w x * ∑ y, k x y * (h y - (k.mulVec h) x) ^ 2 = 0 := by
    have := weighted_gap k1 hw h
    have q : 0 ≤ ∑ x, w x * ∑ y, k x y * (h y - (k.mulVec h) x) ^ 2 :=
      sum_nonneg fun x _ => mul_nonneg (w0 x).le (sum_nonneg fun y _ => mul_nonneg (k0 x y) (sq_nonneg _))
    have : S h = S (k.mulVec h) + ∑ x, w x * ∑ y, k x y * (h y - (k.mulVec h) x) ^ 2 := this
    linarith
  have hnb : ∀ a b, 0 < k a b → h b = (k.mulVec h) a := by
    intro a b hab
    have h1 := (sum_eq_zero_iff_of_nonneg (fun x _ => mul_nonneg (w0 x).le (sum_nonneg fun y _ => mul_nonneg (k0 x y) (sq_nonneg _)))).mp hgap a (mem_univ _)
    have h2 := (mul_eq_zero.mp h1).resolve_left (w0 a).ne'
    have h3 := (sum_eq_zero_iff_of_nonneg (fun y _ => mul_nonneg (k0 a y) (sq_nonneg _))).mp h2 b (mem_univ _)
    have h4 := (mul_eq_zero.mp h3).resolve_left hab.ne'
    have := pow_eq_zero_iff (two_ne_zero) |>.mp h4
    linarith
  have hsym : ∀ a b, 0 < k a b → 0 < k b a := by
    intro a b hab
    have := hrev a b
    have q : 0 < w b * k b a := this ▸ mul_pos (w0 a) hab
    exact (pos_iff_pos_of_mul_pos q).mp (w0 b)
  obtain ⟨z, hz⟩ := hold
  have key : ∀ x, h x = h z ∧ (k.mulVec h) x = h z := by
    intro x
    induction hcon z x with
    | refl => exact ⟨rfl, (hnb z z hz).symm⟩
    | tail _ hab ih => exact ⟨(hnb _ _ hab).trans ih.2, (hnb _ _ (hsym _ _ hab)).symm.trans ih.1⟩
  rw [(key x).1, (key y).1]

/-- Poisson's equation -/
theorem poisson {P : Matrix ι ι ℝ} {w : ι → ℝ} (w0 : ∀ x, 0 < w x) (hw : ∀ y, ∑ x, w x * P x y = w y)
    (hconst : ∀ h : ι → ℝ, P.mulVec h = h → ∀ x y, h x = h y) (f : ι → ℝ) (hf : ∑ x, w x * f x = 0) : ∃ g : ι → ℝ, ∀ x, f x = g x - (P.mulVec g) x := by
  by_cases hne : Nonempty ι
  swap
  · exact ⟨0, fun x => absurd ⟨x⟩ hne⟩
  obtain ⟨z⟩ := hne
  let L : (ι → ℝ) →ₗ[ℝ] (ι → ℝ) := LinearMap.id - Matrix.toLin' P
  let φ : (ι → ℝ) →ₗ[ℝ] ℝ := ∑ x, w x • LinearMap.proj x
  have hL : ∀ v, L v = fun x => v x - (P.mulVec v) x := by intro v; funext x; simp [L]
  have hφ : ∀ v, φ v = ∑ x, w x * v x := by intro v; simp [φ]
  have hle : LinearMap.range L ≤ LinearMap.ker φ := by
    rintro _ ⟨v, rfl⟩
    rw [LinearMap.mem_ker, hφ, hL]
    have : ∑ x, w x * (P.mulVec v) x = ∑ y, w y * v y := by
      have e : ∀ x, w x * (P.mulVec v) x = ∑ y, w x * P x y * v y := by
        intro x; unfold Matrix.mulVec dotProduct; rw [mul_sum]; exact sum_congr rfl fun y _ => by ring
      rw [sum_congr rfl (fun x _ => e x), sum_comm]
      exact sum_congr rfl fun y _ => by rw [← sum_mul, hw]
    simp only [mul_sub, sum_sub_distrib, this, sub_self]
  have hker : Module.finrank ℝ (LinearMap.ker L) ≤ 1 := by
    have : LinearMap.ker L ≤ Submodule.span ℝ {(fun _ => 1 : ι → ℝ)} := by
      intro v hv
      rw [LinearMap.mem_ker, hL] at hv
      have hv' : P.mulVec v = v := by
        funext x
        have := congrFun hv x
        simp only [Pi.zero_apply] at this
        linarith
      rw [Submodule.mem_span_singleton]
      refine ⟨v z, ?_⟩
      funext x
      simp [hconst v hv' z x]
    refine (Submodule.finrank_mono this).trans ?_
    rw [finrank_span_singleton (fun h => one_ne_zero (congrFun h z))]
  have hsurj : Module.finrank ℝ (LinearMap.range φ) = 1 := by
    have : LinearMap.range φ = ⊤ := by
      rw [LinearMap.range_eq_top]
      intro t
      refine ⟨Pi.single z (t / w z), ?_⟩
      rw [hφ, sum_eq_single z]
      · rw [Pi.single_eq_same]; field_simp [(w0 z).ne']
      · intro x _ hx; rw [Pi.single_eq_of_ne hx, mul_zero]
      · intro hx; exact absurd (mem_univ z) hx
    rw [this, finrank_top, Module.finrank_self]
  have e1 := LinearMap.finrank_range_add_finrank_ker L
  have e2 := LinearMap.finrank_range_add_finrank_ker φ
  have heq : LinearMap.range L = LinearMap.ker φ := by
    refine Submodule.eq_of_le_of_finrank_le hle ?_
    omega
  have : f ∈ LinearMap.range L := by rw [heq, LinearMap.mem_ker, hφ]; exact hf
  obtain ⟨g, hg⟩ := this
  refine ⟨g, fun x => ?_⟩
  rw [← hg, hL]
end mat

/-! ## Chains on a finite closed set -/

/-- sum of `f` over all states but the last, and `g` at the last -/
def lastSum {X : Type} (f g : X → ℝ) : List X → ℝ
  | [] => 0
  | [x] => g x
  | x :: y :: l => f x + lastSum f g (y :: l)

theorem pathMean_congr {X : Type} {P : X → X → ℝ≥0∞} {n : Nat} {c : X} {F G : List X → ℝ≥0∞} (h : ∀ l, F (c :: l) = G (c :: l)) :
    pathMean P n c F = pathMean P n c G := by
  cases n with
  | zero => exact h []
  | succ n =>
    unfold pathMean
    exact tsum_congr fun y => by rw [show (fun l => F (c :: l)) = fun l => G (c :: l) from funext h]

theorem pathMean_mono {X : Type} {P : X → X → ℝ≥0∞} {n : Nat} {c : X} {F G : List X → ℝ≥0∞} (h : ∀ l, l ≠ [] → F l ≤ G l) :
    pathMean P n c F ≤ pathMean P n c G := by
  induction n generalizing c F G with
  | zero => exact h _ (by simp)
  | succ n ih =>
    unfold pathMean
    exact ENNReal.tsum_le_tsum fun y => mul_le_mul' le_rfl (ih fun l _ => h _ (by simp))

theorem pathMean_add {X : Type} {P : X → X → ℝ≥0∞} {n : Nat} {c : X} (F G : List X → ℝ≥0∞) :
    pathMean P n c (fun l => F l + G l) = pathMean P n c F + pathMean P n c G := by
  induction n generalizing c F G with
  | zero => rfl
  | succ n ih =>
    unfold pathMean
    rw [← ENNReal.tsum_add]
    exact tsum_congr fun y => by rw [ih, mul_add]

theorem pathMean_mul {X : Type} {P : X → X → ℝ≥0∞} {n : Nat} {c : X} (a : ℝ≥0∞) (F : List X → ℝ≥0∞) :
    pathMean P n c (fun l => a * F l) = a * pathMean P n c F := by
  induction n generalizing c F with
  | zero => rfl
  | succ n ih =>
    unfold pathMean
    rw [← ENNReal.tsum_mul_left]
    exact tsum_congr fun y => by rw [ih]; ring

/-- only the length of the list of visited states is known beforehand -/
theorem pathMean_length {X : Type} {P : X → X → ℝ≥0∞} {n : Nat} {c : X} (F : Nat → List X → ℝ≥0∞) :
    pathMean P n c (fun l => F l.length l) = pathMean P n c (fun l => F (n + 1) l) := by
  induction n generalizing c F with
  | zero => rfl
  | succ n ih =>
    unfold pathMean
    refine tsum_congr fun y => ?_
    have := ih (c := y) (fun q l => F (q + 1) (c :: l))
    simp only [List.length_cons]
    rw [this]

section chain
variable {X : Type} {P : X → X → ℝ≥0∞} {Y : Finset X}

/-- the states of `Y` only lead to `Y`, with total probability one -/
structure Closed (P : X → X → ℝ≥0∞) (Y : Finset X) : Prop where
  stay : ∀ c ∈ Y, ∀ y, P c y ≠ 0 → y ∈ Y
  total : ∀ c ∈ Y, ∑ y ∈ Y, P c y = 1

theorem Closed.tsum (hP : Closed P Y) {c : X} (hc : c ∈ Y) (F : X → ℝ≥0∞) : ∑' y, P c y * F y = ∑ y ∈ Y, P c y * F y := by
  refine tsum_eq_sum fun y hy => ?_
  have : P c y = 0 := by
    by_contra h
    exact hy (hP.stay c hc y h)
  rw [this, zero_mul]

theorem Closed.ne_top (hP : Closed P Y) {c y : X} (hc : c ∈ Y) (hy : y ∈ Y) : P c y ≠ ⊤ := by
  have h := hP.total c hc
  intro h'
  have := single_le_sum (f := fun y => P c y) (fun _ _ => zero_le) hy
  rw [h, h'] at this
  simp at this

/-- the martingale bound -/
theorem martingale_bound (hP : Closed P Y) (f g : X → ℝ) (B : ℝ) (hB : 0 ≤ B)
    (hg : ∀ c ∈ Y, ∀ b : ℝ, ∑ y ∈ Y, (P c y).toReal * (b + f c + g y) ^ 2 ≤ (b + g c) ^ 2 + B) (n : Nat) :
    ∀ c ∈ Y, ∀ a : ℝ, pathMean P n c (fun l => ENNReal.ofReal ((a + lastSum f g l) ^ 2)) ≤ ENNReal.ofReal ((a + g c) ^ 2 + n * B) := by
  induction n with
  | zero =>
    intro c _ a
    show ENNReal.ofReal ((a + g c) ^ 2) ≤ _
    exact ENNReal.ofReal_le_ofReal (by simp)
  | succ n ih =>
    intro c hc a
    unfold pathMean
    rw [hP.tsum hc]
    have h1 : ∀ y ∈ Y, P c y * pathMean P n y (fun l => ENNReal.ofReal ((a + lastSum f g (c :: l)) ^ 2)) ≤
        ENNReal.ofReal ((P c y).toReal * ((a + f c + g y) ^ 2 + n * B)) := by
      intro y hy
      have e : pathMean P n y (fun l => ENNReal.ofReal ((a + lastSum f g (c :: l)) ^ 2)) =
          pathMean P n y (fun l => ENNReal.ofReal ((a + f c + lastSum f g l) ^ 2)) := by
        refine pathMean_congr fun l => ?_
        show ENNReal.ofReal ((a + (f c + lastSum f g (y :: l))) ^ 2) = _
        rw [add_assoc]
      rw [e, ENNReal.ofReal_mul ENNReal.toReal_nonneg, ENNReal.ofReal_toReal (hP.ne_top hc hy)]
      exact mul_le_mul' le_rfl (ih y hy (a + f c))
    refine (sum_le_sum h1).trans ?_
    rw [← ENNReal.ofReal_sum_of_nonneg (fun y _ => mul_nonneg ENNReal.toReal_nonneg (by positivity))]
    refine ENNReal.ofReal_le_ofReal ?_
    have e2 : ∑ y ∈ Y, (P c y).toReal * ((a + f c + g y) ^ 2 + n * B) = ∑ y ∈ Y, (P c y).toReal * (a + f c + g y) ^ 2 + n * B := by
      simp only [mul_add, sum_add_distrib]
      rw [← sum_mul, ← ENNReal.toReal_sum (fun y hy => hP.ne_top hc hy), hP.total c hc]
      simp
    rw [e2]
    have := hg c hc a
    push_cast
    linarith

theorem pathMean_on (hP : Closed P Y) {n : Nat} {F G : List X → ℝ≥0∞} (h : ∀ l, (∀ x ∈ l, x ∈ Y) → F l = G l) {c : X} (hc : c ∈ Y) :
    pathMean P n c F = pathMean P n c G := by
  induction n generalizing c F G with
  | zero => exact h _ (by simpa using hc)
  | succ n ih =>
    unfold pathMean
    rw [hP.tsum hc, hP.tsum hc]
    refine sum_congr rfl fun y hy => ?_
    rw [ih (fun l hl => h (c :: l) (by simpa using ⟨hc, hl⟩)) hy]

theorem pathMean_const (hP : Closed P Y) {n : Nat} (a : ℝ≥0∞) {c : X} (hc : c ∈ Y) : pathMean P n c (fun _ => a) = a := by
  induction n generalizing c with
  | zero => rfl
  | succ n ih =>
    unfold pathMean
    rw [hP.tsum hc, sum_congr rfl (fun y hy => by rw [ih hy]), ← sum_mul, hP.total c hc, one_mul]

theorem lastSum_sum (f g : X → ℝ) : ∀ l : List X, l ≠ [] → ∃ x ∈ l, (l.map f).sum = lastSum f g l + (f x - g x)
  | [], h => absurd rfl h
  | [x], _ => ⟨x, by simp, by simp [lastSum]⟩
  | x :: y :: l, _ => by
    obtain ⟨z, hz, e⟩ := lastSum_sum f g (y :: l) (by simp)
    refine ⟨z, List.mem_cons_of_mem _ hz, ?_⟩
    rw [List.map_cons, List.sum_cons, e, lastSum]
    ring

section powers
variable {K : X → X → ℝ≥0∞} (hK : Closed K Y)

/-- the transition probabilities as a matrix -/
noncomputable def realMat (K : X → X → ℝ≥0∞) (Y : Finset X) : Matrix Y Y ℝ := fun x y => (K x.1 y.1).toReal

include hK
open Classical in
theorem stepsProb_pow (m : Nat) : ∀ x y : Y, stepsProb K m x.1 y.1 = ENNReal.ofReal ((realMat K Y ^ m) x y) ∧ 0 ≤ (realMat K Y ^ m) x y := by
  induction m with
  | zero =>
    intro x y
    rw [pow_zero, stepsProb, Matrix.one_apply]
    by_cases h : x = y
    · simp [h]
    · have : x.1 ≠ y.1 := fun q => h (Subtype.ext q)
      simp [h, this]
  | succ m ih =>
    intro x y
    have hn : 0 ≤ (realMat K Y ^ (m + 1)) x y := by
      rw [pow_succ', Matrix.mul_apply]
      exact sum_nonneg fun z _ => mul_nonneg ENNReal.toReal_nonneg (ih z y).2
    refine ⟨?_, hn⟩
    have hz : ∀ z ∈ (univ : Finset Y), 0 ≤ realMat K Y x z * (realMat K Y ^ m) z y := fun z _ => mul_nonneg ENNReal.toReal_nonneg (ih z y).2
    rw [stepsProb, hK.tsum x.2, pow_succ', Matrix.mul_apply, ENNReal.ofReal_sum_of_nonneg hz, ← Finset.sum_coe_sort]
    refine sum_congr rfl fun z _ => ?_
    rw [(ih z y).1, ENNReal.ofReal_mul (show 0 ≤ realMat K Y x z from ENNReal.toReal_nonneg)]
    congr 1
    exact (ENNReal.ofReal_toReal (hK.ne_top x.2 z.2)).symm

theorem stepsProb_closed (m : Nat) : Closed (stepsProb K m) Y := by
  classical
  induction m with
  | zero =>
    constructor
    · intro c hc y h
      unfold stepsProb at h
      by_cases q : c = y
      · exact q ▸ hc
      · simp [q] at h
    · intro c hc
      unfold stepsProb
      rw [sum_ite_eq]
      simp [hc]
  | succ m ih =>
    constructor
    · intro c hc y h
      rw [stepsProb, hK.tsum hc] at h
      obtain ⟨z, hz, h'⟩ := exists_ne_zero_of_sum_ne_zero h
      exact ih.stay z hz y (right_ne_zero_of_mul h')
    · intro c hc
      have : ∀ y ∈ Y, stepsProb K (m + 1) c y = ∑ z ∈ Y, K c z * stepsProb K m z y := fun y _ => by rw [stepsProb, hK.tsum hc]
      rw [sum_congr rfl this, sum_comm]
      have e : ∀ z ∈ Y, ∑ y ∈ Y, K c z * stepsProb K m z y = K c z := fun z hz => by rw [← mul_sum, ih.total z hz, mul_one]
      rw [sum_congr rfl e, hK.total c hc]

omit hK in
open Classical in
theorem realMat_pow_stat {w : Y → ℝ} (hw : ∀ y, ∑ x, w x * realMat K Y x y = w y) (m : Nat) (y : Y) : ∑ x, w x * (realMat K Y ^ m) x y = w y := by
  induction m generalizing y with
  | zero => simp [Matrix.one_apply]
  | succ m ih =>
    have e : ∀ x, w x * (realMat K Y ^ (m + 1)) x y = ∑ z, w x * (realMat K Y ^ m) x z * realMat K Y z y := by
      intro x
      rw [pow_succ, Matrix.mul_apply, mul_sum]
      exact sum_congr rfl fun z _ => by ring
    rw [sum_congr rfl (fun x _ => e x), sum_comm]
    rw [sum_congr rfl (fun z _ => by rw [← sum_mul, ih z]), hw]

theorem canReach_rel {c c' : X} (hc : c ∈ Y) (h : CanReach K c c') :
    ∃ h' : c' ∈ Y, Relation.ReflTransGen (fun a b : Y => 0 < realMat K Y a b) ⟨c, hc⟩ ⟨c', h'⟩ := by
  induction h with
  | refl => exact ⟨hc, .refl⟩
  | @step a b _ hab ih =>
    obtain ⟨ha, hr⟩ := ih
    have hb := hK.stay a ha b hab
    exact ⟨hb, hr.tail (ENNReal.toReal_pos hab (hK.ne_top ha hb))⟩
end powers

/-- a reversible chain that connects a finite closed set and can stay somewhere -/
structure Ergodic (K : X → X → ℝ≥0∞) (W : X → ℝ≥0∞) (Y : Finset X) : Prop where
  closed : Closed K Y
  pos : ∀ c ∈ Y, W c ≠ 0
  fin : ∀ c ∈ Y, W c ≠ ⊤
  balance : ∀ c ∈ Y, ∀ c' ∈ Y, W c * K c c' = W c' * K c' c
  connected : ∀ c ∈ Y, ∀ c' ∈ Y, CanReach K c c'
  hold : ∃ c ∈ Y, K c c ≠ 0

/-- average over `Y` with the weight `W` -/
noncomputable def weightMean (W : X → ℝ≥0∞) (Y : Finset X) (f : X → ℂ) : ℂ :=
  (∑ c ∈ Y, ((W c).toReal : ℂ) * f c) / ((∑ c ∈ Y, (W c).toReal : ℝ) : ℂ)

/-- bound for a real observable whose weighted sum vanishes -/
theorem real_bound {K : X → X → ℝ≥0∞} {W : X → ℝ≥0∞} (h : Ergodic K W Y) (m : Nat) (hm : 0 < m) (f : X → ℝ) (hf : ∑ c ∈ Y, (W c).toReal * f c = 0) :
    ∃ C : ℝ, 0 ≤ C ∧ ∀ n, ∀ c ∈ Y, pathMean (stepsProb K m) n c (fun l => ENNReal.ofReal ((l.map f).sum ^ 2)) ≤ ENNReal.ofReal (C * (n + 1)) := by
  classical
  have hK := h.closed
  let k := realMat K Y
  let w : Y → ℝ := fun x => (W x.1).toReal
  have k0 : ∀ x y, 0 ≤ k x y := fun _ _ => ENNReal.toReal_nonneg
  have k1 : ∀ x, ∑ y, k x y = 1 := by
    intro x
    show ∑ y : Y, (K x.1 y.1).toReal = 1
    rw [← ENNReal.toReal_sum (fun y _ => hK.ne_top x.2 y.2), Finset.sum_coe_sort Y (fun y => K x.1 y), hK.total x.1 x.2, ENNReal.toReal_one]
  have w0 : ∀ x, 0 < w x := fun x => ENNReal.toReal_pos (h.pos _ x.2) (h.fin _ x.2)
  have hrev : ∀ x y, w x * k x y = w y * k y x := by
    intro x y
    show (W x.1).toReal * (K x.1 y.1).toReal = (W y.1).toReal * (K y.1 x.1).toReal
    rw [← ENNReal.toReal_mul, ← ENNReal.toReal_mul, h.balance x.1 x.2 y.1 y.2]
  have hw : ∀ y, ∑ x, w x * k x y = w y := by
    intro y
    rw [sum_congr rfl (fun x _ => hrev x y), ← mul_sum, k1, mul_one]
  have hcon : ∀ x y : Y, Relation.ReflTransGen (fun a b => 0 < k a b) x y := by
    intro x y
    obtain ⟨_, hr⟩ := canReach_rel hK x.2 (h.connected x.1 x.2 y.1 y.2)
    exact hr
  have hold : ∃ x, 0 < k x x := by
    obtain ⟨c, hc, hcc⟩ := h.hold
    exact ⟨⟨c, hc⟩, ENNReal.toReal_pos hcc (hK.ne_top hc hc)⟩
  have hconst : ∀ v : Y → ℝ, (k ^ m).mulVec v = v → ∀ x y, v x = v y := fun v hv => harmonic_const k0 k1 w0 hrev hcon hold m hm hv
  have hf' : ∑ x, w x * f x.1 = 0 := by rw [← hf, ← Finset.sum_coe_sort Y]
  obtain ⟨g, hg⟩ := poisson w0 (realMat_pow_stat hw m) hconst (fun x => f x.1) hf'
  have hPc := stepsProb_closed hK m
  have hPr : ∀ x y : Y, (stepsProb K m x.1 y.1).toReal = (k ^ m) x y := fun x y => by
    rw [(stepsProb_pow hK m x y).1, ENNReal.toReal_ofReal (stepsProb_pow hK m x y).2]
  have hP1 : ∀ x, ∑ y, (k ^ m) x y = 1 := by
    intro x
    rw [← sum_congr rfl (fun y _ => hPr x y), ← ENNReal.toReal_sum (fun y _ => hPc.ne_top x.2 y.2), Finset.sum_coe_sort Y (fun y => stepsProb K m x.1 y),
      hPc.total x.1 x.2, ENNReal.toReal_one]
  let g' : X → ℝ := fun x => if hx : x ∈ Y then g ⟨x, hx⟩ else 0
  have hg' : ∀ x : Y, g' x.1 = g x := fun x => by simp [g']
  let B : ℝ := ∑ x : Y, ∑ y : Y, (k ^ m) x y * (g y - ((k ^ m).mulVec g) x) ^ 2
  have hBx : ∀ x : Y, 0 ≤ ∑ y : Y, (k ^ m) x y * (g y - ((k ^ m).mulVec g) x) ^ 2 :=
    fun x => sum_nonneg fun y _ => mul_nonneg (stepsProb_pow hK m x y).2 (sq_nonneg _)
  have hB : 0 ≤ B := sum_nonneg fun x _ => hBx x
  have hstep : ∀ c ∈ Y, ∀ b : ℝ, ∑ y ∈ Y, (stepsProb K m c y).toReal * (b + f c + g' y) ^ 2 ≤ (b + g' c) ^ 2 + B := by
    intro c hc b
    rw [← Finset.sum_coe_sort Y]
    have e : ∀ y : Y, (stepsProb K m c y.1).toReal * (b + f c + g' y.1) ^ 2 = (k ^ m) ⟨c, hc⟩ y * (b + f c + g y) ^ 2 := by
      intro y; rw [hg' y, ← hPr ⟨c, hc⟩ y]
    rw [sum_congr rfl (fun y _ => e y), variance_one hP1 g ⟨c, hc⟩ (b + f c)]
    have q := hg ⟨c, hc⟩
    have q2 := hg' ⟨c, hc⟩
    have q3 : b + f c + ((k ^ m).mulVec g) ⟨c, hc⟩ = b + g' c := by rw [q2]; simp only at q; linarith
    rw [q3]
    have := single_le_sum (f := fun x : Y => ∑ y : Y, (k ^ m) x y * (g y - ((k ^ m).mulVec g) x) ^ 2) (fun x _ => hBx x) (mem_univ (⟨c, hc⟩ : Y))
    have hh : (∑ y : Y, (k ^ m) ⟨c, hc⟩ y * (g y - ((k ^ m).mulVec g) ⟨c, hc⟩) ^ 2) ≤ B := this
    linarith
  let D : ℝ := ∑ x ∈ Y, (f x - g' x) ^ 2
  have hD : 0 ≤ D := sum_nonneg fun x _ => sq_nonneg _
  let G : ℝ := ∑ x ∈ Y, g' x ^ 2
  have hG : 0 ≤ G := sum_nonneg fun x _ => sq_nonneg _
  refine ⟨2 * G + 2 * B + 2 * D, by linarith, fun n c hc => ?_⟩
  have hmb := martingale_bound hPc f g' B hB hstep n c hc 0
  simp only [zero_add] at hmb
  have e1 : pathMean (stepsProb K m) n c (fun l => ENNReal.ofReal ((l.map f).sum ^ 2)) =
      pathMean (stepsProb K m) n c (fun l => if ∀ x ∈ l, x ∈ Y then ENNReal.ofReal ((l.map f).sum ^ 2) else 0) :=
    pathMean_on hPc (fun l hl => by rw [if_pos hl]) hc
  rw [e1]
  have h2 : ∀ l : List X, l ≠ [] → (if ∀ x ∈ l, x ∈ Y then ENNReal.ofReal ((l.map f).sum ^ 2) else 0) ≤
      ENNReal.ofReal 2 * ENNReal.ofReal (lastSum f g' l ^ 2) + ENNReal.ofReal (2 * D) := by
    intro l hl
    split
    · rename_i hY
      obtain ⟨x, hx, e⟩ := lastSum_sum f g' l hl
      have hd : (f x - g' x) ^ 2 ≤ D := single_le_sum (f := fun x => (f x - g' x) ^ 2) (fun x _ => sq_nonneg _) (hY x hx)
      rw [e, ← ENNReal.ofReal_mul (by norm_num), ← ENNReal.ofReal_add (by positivity) (by positivity)]
      refine ENNReal.ofReal_le_ofReal ?_
      have := sq_nonneg (lastSum f g' l - (f x - g' x))
      linarith [this, hd, show (lastSum f g' l + (f x - g' x)) ^ 2 + (lastSum f g' l - (f x - g' x)) ^ 2 = 2 * lastSum f g' l ^ 2 + 2 * (f x - g' x) ^ 2 by ring]
    · exact zero_le
  refine (pathMean_mono h2).trans ?_
  rw [pathMean_add, pathMean_mul, pathMean_const hPc _ hc]
  refine (add_le_add (mul_le_mul' le_rfl hmb) le_rfl).trans ?_
  rw [← ENNReal.ofReal_mul (by norm_num), ← ENNReal.ofReal_add (by positivity) (by positivity)]
  refine ENNReal.ofReal_le_ofReal ?_
  have hgc : g' c ^ 2 ≤ G := single_le_sum (f := fun x => g' x ^ 2) (fun x _ => sq_nonneg _) hc
  have n0 : (0 : ℝ) ≤ n := Nat.cast_nonneg n
  have a1 := mul_nonneg n0 hG
  have a2 := mul_nonneg n0 hD
  have : (2 * G + 2 * B + 2 * D) * ((n : ℝ) + 1) = 2 * (n * G) + 2 * (n * B) + 2 * (n * D) + 2 * G + 2 * B + 2 * D := by ring
  rw [this]
  linarith

/-- the average over `n+1` samples differs from the weighted mean by an amount whose mean square is at most `C/(n+1)` -/
theorem mean_square_bound {K : X → X → ℝ≥0∞} {W : X → ℝ≥0∞} (h : Ergodic K W Y) (m : Nat) (hm : 0 < m) (f : X → ℂ) :
    ∃ C : ℝ, ∀ c0 ∈ Y, ∀ w n, meanSqErr K c0 w m n f (weightMean W Y f) ≤ ENNReal.ofReal (C / (n + 1)) := by
  classical
  set μ := weightMean W Y f with hμ
  have hsum : ∑ c ∈ Y, ((W c).toReal : ℂ) * (f c - μ) = 0 := by
    by_cases hY : Y = ∅
    · simp [hY]
    obtain ⟨z, hz⟩ := Finset.nonempty_iff_ne_empty.mpr hY
    have hp : 0 < ∑ c ∈ Y, (W c).toReal := sum_pos (fun c hc => ENNReal.toReal_pos (h.pos c hc) (h.fin c hc)) ⟨z, hz⟩
    have hne : ((∑ c ∈ Y, (W c).toReal : ℝ) : ℂ) ≠ 0 := by exact_mod_cast hp.ne'
    simp only [mul_sub, sum_sub_distrib, ← sum_mul]
    rw [hμ]
    unfold weightMean
    rw [← Complex.ofReal_sum, mul_div_cancel₀ _ hne, sub_self]
  have hre : ∑ c ∈ Y, (W c).toReal * (f c - μ).re = 0 := by
    have := congrArg Complex.re hsum
    simpa [Complex.re_sum] using this
  have him : ∑ c ∈ Y, (W c).toReal * (f c - μ).im = 0 := by
    have := congrArg Complex.im hsum
    simpa [Complex.im_sum] using this
  obtain ⟨C1, p1, h1⟩ := real_bound h m hm (fun c => (f c - μ).re) hre
  obtain ⟨C2, p2, h2⟩ := real_bound h m hm (fun c => (f c - μ).im) him
  refine ⟨C1 + C2, fun c0 hc0 w n => ?_⟩
  have hw := stepsProb_closed h.closed w
  have key : ∀ c ∈ Y, pathMean (stepsProb K m) n c (fun l => ENNReal.ofReal (‖sampleMean f l - μ‖ ^ 2)) ≤ ENNReal.ofReal ((C1 + C2) / (n + 1)) := by
    intro c hc
    have n1 : (0 : ℝ) < (n : ℝ) + 1 := by positivity
    have e : pathMean (stepsProb K m) n c (fun l => ENNReal.ofReal (‖sampleMean f l - μ‖ ^ 2)) =
        pathMean (stepsProb K m) n c (fun l => ENNReal.ofReal (1 / (n + 1) ^ 2) *
          (ENNReal.ofReal ((l.map (fun c => (f c - μ).re)).sum ^ 2) + ENNReal.ofReal ((l.map (fun c => (f c - μ).im)).sum ^ 2))) := by
      have q := pathMean_length (P := stepsProb K m) (n := n) (c := c) (fun N l => if l.length = N then ENNReal.ofReal (‖sampleMean f l - μ‖ ^ 2) else 0)
      have q2 := pathMean_length (P := stepsProb K m) (n := n) (c := c) (fun N l => if l.length = N then ENNReal.ofReal (1 / (n + 1) ^ 2) *
          (ENNReal.ofReal ((l.map (fun c => (f c - μ).re)).sum ^ 2) + ENNReal.ofReal ((l.map (fun c => (f c - μ).im)).sum ^ 2)) else 0)
      simp only [if_true] at q q2
      rw [q, q2]
      congr 1
      funext l
      split
      · rename_i hl
        rw [← ENNReal.ofReal_add (sq_nonneg _) (sq_nonneg _), ← ENNReal.ofReal_mul (by positivity)]
        congr 1
        have hlc : (l.length : ℂ) ≠ 0 := by rw [hl]; exact_mod_cast Nat.succ_ne_zero n
        have hs : sampleMean f l - μ = (l.map (fun c => f c - μ)).sum / l.length := by
          unfold sampleMean
          have : (l.map (fun c => f c - μ)).sum = (l.map f).sum - l.length * μ := by
            clear hlc hl
            induction l with
            | nil => simp
            | cons a l ih => simp only [List.map_cons, List.sum_cons, ih, List.length_cons, Nat.cast_add, Nat.cast_one]; ring
          rw [this, sub_div, mul_div_cancel_left₀ _ hlc]
        have hrs : ((l.map (fun c => f c - μ)).sum).re = (l.map (fun c => (f c - μ).re)).sum := by
          clear hlc hl hs
          induction l with
          | nil => simp
          | cons a l ih => simp only [List.map_cons, List.sum_cons, Complex.add_re, ih]
        have his : ((l.map (fun c => f c - μ)).sum).im = (l.map (fun c => (f c - μ).im)).sum := by
          clear hlc hl hs hrs
          induction l with
          | nil => simp
          | cons a l ih => simp only [List.map_cons, List.sum_cons, Complex.add_im, ih]
        rw [hs, norm_div, div_pow, Complex.norm_natCast, hl, ← Complex.normSq_eq_norm_sq, Complex.normSq_apply, hrs, his]
        push_cast
        field_simp
      · rfl
    rw [e, pathMean_mul, pathMean_add]
    refine (mul_le_mul' le_rfl (add_le_add (h1 n c hc) (h2 n c hc))).trans ?_
    rw [← ENNReal.ofReal_add (by positivity) (by positivity), ← ENNReal.ofReal_mul (by positivity)]
    refine ENNReal.ofReal_le_ofReal (le_of_eq ?_)
    field_simp
  unfold meanSqErr
  rw [hw.tsum hc0]
  refine (sum_le_sum fun c hc => mul_le_mul' le_rfl (key c hc)).trans ?_
  rw [← sum_mul, hw.total c0 hc0, one_mul]
end chain
end MVMC
