import Mathlib.Analysis.Calculus.Deriv.Add
import Mathlib.Analysis.Calculus.Deriv.Mul
import Verif.Proof.PfUpdateTwo

/-! Derivative of the Pfaffian. -/
namespace MVMC
open MVMC.Spec

section alg
variable {α R : Type} [CommRing R]

/-- directional derivative of the Pfaffian, by the product rule on the expansion -/
def dpfN (A B : α → α → R) : Nat → List α → R
  | _, [] => 0
  | 0, _ :: _ => 0
  | n + 1, x :: l => altSum (B x) (pfN A n) l + altSum (A x) (dpfN A B n) l

theorem dpfN_sum {ι : Type} (s : Finset ι) (w : ι → R) (A : α → α → R) (B : ι → α → α → R) : ∀ (n : Nat) (l : List α),
    dpfN A (fun x y => ∑ k ∈ s, w k * B k x y) n l = ∑ k ∈ s, w k * dpfN A (B k) n l
  | 0, [] => by simp [dpfN]
  | _ + 1, [] => by simp [dpfN]
  | 0, _ :: _ => by simp [dpfN]
  | n + 1, x :: l => by
    have e : ∀ m, dpfN A (fun x y => ∑ k ∈ s, w k * B k x y) n m = ∑ k ∈ s, w k * dpfN A (B k) n m := dpfN_sum s w A B n
    show altSum (fun y => ∑ k ∈ s, w k * B k x y) (pfN A n) l + altSum (A x) (dpfN A (fun x y => ∑ k ∈ s, w k * B k x y) n) l = _
    rw [altSum_sum_left, show dpfN A (fun x y => ∑ k ∈ s, w k * B k x y) n = fun m => ∑ k ∈ s, w k * dpfN A (B k) n m from
      funext e, altSum_sum, ← Finset.sum_add_distrib]
    apply Finset.sum_congr rfl
    intro k _
    show _ = w k * (altSum (B k x) (pfN A n) l + altSum (A x) (dpfN A (B k) n) l)
    ring

end alg

section deriv
variable {α K : Type} [NontriviallyNormedField K]

theorem altSum_deriv {c : K → α → K} {c' : α → K} {z : K} : ∀ (l : List α) {F : K → List α → K} {F' : List α → K},
    (∀ y ∈ l, HasDerivAt (fun t => c t y) (c' y) z) → (∀ m : List α, (∀ y ∈ m, y ∈ l) → HasDerivAt (fun t => F t m) (F' m) z) →
    HasDerivAt (fun t => altSum (c t) (F t) l) (altSum c' (F z) l + altSum (c z) F' l) z
  | [], _, _, _, _ => by
    simp only [altSum, add_zero]
    exact hasDerivAt_const z 0
  | y :: l, F, F', hc, hF => by
    have ih := altSum_deriv l (F := fun t m => F t (y :: m)) (F' := fun m => F' (y :: m)) (fun x hx => hc x (by simp [hx]))
      (fun m hm => hF (y :: m) (by
        intro x hx
        rcases List.mem_cons.mp hx with rfl | h
        · simp
        · simp [hm x h]))
    have h1 := ((hc y (by simp)).mul (hF l (fun x hx => by simp [hx]))).sub ih
    have e : (fun t => altSum (c t) (F t) (y :: l)) = fun t => c t y * F t l - altSum (c t) (fun m => F t (y :: m)) l := by
      funext t; rw [altSum_cons']
    rw [e, altSum_cons', altSum_cons']
    refine h1.congr_deriv ?_
    ring

theorem pfN_deriv {A : K → α → α → K} {B : α → α → K} {z : K} : ∀ (n : Nat) (l : List α),
    (∀ x ∈ l, ∀ y ∈ l, HasDerivAt (fun t => A t x y) (B x y) z) →
    HasDerivAt (fun t => pfN (A t) n l) (dpfN (A z) B n l) z
  | 0, [], _ => hasDerivAt_const z 1
  | _ + 1, [], _ => hasDerivAt_const z 1
  | 0, _ :: _, _ => hasDerivAt_const z 0
  | n + 1, x :: l, h => by
    refine altSum_deriv (c := fun t => A t x) (F := fun t => pfN (A t) n) l (fun y hy => h x (by simp) y (by simp [hy])) ?_
    intro m hm
    exact pfN_deriv n m (fun a ha b hb => h a (by simp [hm a ha]) b (by simp [hm b hb]))

end deriv

section main
variable {K : Type} [NontriviallyNormedField K]

theorem pfOf_index (A : Nat → Nat → K) (n : Nat) (rs : Nat → Nat) : pfOf A n rs = pfOf (fun i j => A (rs i) (rs j)) n id := by
  unfold pfOf
  rw [pf_map rs A _ _ (Nat.le_refl _), List.map_id]

/-- rows and columns `a` of `B` -/
def rowPart (a : Nat) (B : Nat → Nat → K) (i j : Nat) : K := (if i = a then B i j else 0) + (if j = a then B i j else 0)

theorem rowPart_sum {n : Nat} (B : Nat → Nat → K) {i j : Nat} (hi : i < n) (hj : j < n) :
    ∑ a ∈ Finset.range n, rowPart a B i j = 2 * B i j := by
  unfold rowPart
  rw [Finset.sum_add_distrib, Finset.sum_ite_eq, Finset.sum_ite_eq, if_pos (Finset.mem_range.mpr hi), if_pos (Finset.mem_range.mpr hj)]
  ring

/-- derivative along one row -/
theorem dpf_row {n : Nat} {A B N : Nat → Nat → K} (hA : ∀ i j, i < n → j < n → A i j = - A j i) (hA0 : ∀ i, i < n → A i i = 0)
    (hB : ∀ i j, i < n → j < n → B i j = - B j i) (hB0 : ∀ i, i < n → B i i = 0) (hN : IsInv A n id N) {a : Nat} (ha : a < n) :
    dpfN A (rowPart a B) n (List.range n) = (- ∑ j ∈ Finset.range n, N a j * B a j) * pfOf A n id := by
  -- label `n` stands for the changed row
  set M : K → Nat → Nat → K := fun t x y =>
    if x < n then (if y < n then A x y else if y = n then - (A a x + t * B a x) else 0)
    else if x = n then (if y < n then A a y + t * B a y else 0) else 0 with hM
  have hsk : ∀ t, Skew (M t) := by
    intro t
    constructor
    · intro x y
      simp only [hM]
      by_cases h1 : x < n <;> by_cases h2 : y < n
      · simp [h1, h2, hA x y h1 h2]
      · by_cases h3 : y = n
        · simp [h1, h2, h3]
        · simp [h1, h2, h3]
      · by_cases h3 : x = n
        · simp [h1, h2, h3]
        · simp [h1, h2, h3]
      · simp [h1, h2]
    · intro x
      simp only [hM]
      by_cases h1 : x < n
      · simp [h1, hA0 x h1]
      · simp [h1]
  have hinv : ∀ t, IsInv (M t) n id N := by
    intro t i hi j hj
    rw [← hN i hi j hj]
    apply Finset.sum_congr rfl
    intro k hk
    have hk := Finset.mem_range.mp hk
    simp [hM, hk, hj]
  have h0 : ∀ t, pfOf (M t) n id = pfOf A n id := by
    intro t
    refine pfOf_congr (fun _ _ => rfl) ?_
    intro i hi j hj
    simp [hM, hi, hj]
  have h1 : ∀ t, pfOf (fun i j => A i j + t * rowPart a B i j) n id
      = (- ∑ j ∈ Finset.range n, N a j * (A a j + t * B a j)) * pfOf A n id := by
    intro t
    rw [← h0 t, ← pfOf_update (hsk t) (hinv t) ha n (fun j => A a j + t * B a j) (by
      intro i hi _
      simp [hM, hi]), pfOf_index (M t)]
    refine pfOf_congr (fun _ _ => rfl) ?_
    intro i hi j hj
    show A i j + t * rowPart a B i j = M t (Function.update id a n i) (Function.update id a n j)
    unfold rowPart
    by_cases e1 : i = a <;> by_cases e2 : j = a
    · subst e1; subst e2
      simp [hM, hA0 j hj, hB0 j hj]
    · subst e1
      simp [hM, e2, hj]
    · subst e2
      simp [hM, e1, hi]
      rw [hA i j hi hj, hB i j hi hj]
      ring
    · simp [hM, e1, e2, hi, hj]
  have d1 := pfN_deriv (K := K) (A := fun t i j => A i j + t * rowPart a B i j) (B := rowPart a B) (z := 0) n (List.range n) (by
    intro x _ y _
    have := ((hasDerivAt_id (0 : K)).mul_const (rowPart a B x y)).const_add (A x y)
    refine this.congr_deriv ?_
    ring)
  have d2 : HasDerivAt (fun t => (- ∑ j ∈ Finset.range n, N a j * (A a j + t * B a j)) * pfOf A n id)
      ((- ∑ j ∈ Finset.range n, N a j * B a j) * pfOf A n id) 0 := by
    have e : (fun t => (- ∑ j ∈ Finset.range n, N a j * (A a j + t * B a j)) * pfOf A n id)
        = fun t => (- ∑ j ∈ Finset.range n, N a j * A a j) * pfOf A n id + t * ((- ∑ j ∈ Finset.range n, N a j * B a j) * pfOf A n id) := by
      funext t
      have : ∑ j ∈ Finset.range n, N a j * (A a j + t * B a j)
          = ∑ j ∈ Finset.range n, N a j * A a j + t * ∑ j ∈ Finset.range n, N a j * B a j := by
        rw [Finset.mul_sum, ← Finset.sum_add_distrib]
        apply Finset.sum_congr rfl
        intro j _; ring
      rw [this]; ring
    rw [e]
    refine (((hasDerivAt_id (0 : K)).mul_const _).const_add _).congr_deriv ?_
    ring
  have e1 : (fun t : K => pfN (fun i j => A i j + t * rowPart a B i j) n (List.range n))
      = fun t => (- ∑ j ∈ Finset.range n, N a j * (A a j + t * B a j)) * pfOf A n id := by
    funext t
    rw [← h1 t]
    unfold pfOf pf
    rw [List.map_id, List.length_range]
  rw [e1] at d1
  have := d1.unique d2
  have e2 : (fun i j => A i j + 0 * rowPart a B i j) = A := by funext i j; ring
  rw [e2] at this
  exact this

/-- **derivative of a Pfaffian**: if the matrix is `P_t - P_tᵀ`, the derivative is `-Σ N_ij P'_ij · Pf` with `N` the inverse -/
theorem pfOf_deriv [CharZero K] {n : Nat} {rs : Nat → Nat} {A : K → Nat → Nat → K} {B N : Nat → Nat → K} {z : K}
    (hAd : ∀ i, i < n → ∀ j, j < n → HasDerivAt (fun t => A t (rs i) (rs j)) (B i j - B j i) z)
    (hA : ∀ i j, i < n → j < n → A z (rs i) (rs j) = - A z (rs j) (rs i)) (hA0 : ∀ i, i < n → A z (rs i) (rs i) = 0)
    (hN : IsInv (A z) n rs N) (hNs : ∀ i, i < n → ∀ j, j < n → N i j = - N j i) :
    HasDerivAt (fun t => pfOf (A t) n rs) ((- ∑ i ∈ Finset.range n, ∑ j ∈ Finset.range n, N i j * B i j) * pfOf (A z) n rs) z := by
  have d := pfN_deriv (K := K) (A := fun t i j => A t (rs i) (rs j)) (B := fun i j => B i j - B j i) (z := z) n (List.range n)
    (fun x hx y hy => hAd x (List.mem_range.mp hx) y (List.mem_range.mp hy))
  have e : (fun t => pfOf (A t) n rs) = fun t => pfN (fun i j => A t (rs i) (rs j)) n (List.range n) := by
    funext t
    rw [pfOf_index]
    unfold pfOf pf
    rw [List.map_id, List.length_range]
  rw [e]
  refine d.congr_deriv ?_
  set A0 : Nat → Nat → K := fun i j => A z (rs i) (rs j) with hA0d
  set S : Nat → Nat → K := fun i j => B i j - B j i with hS
  -- split into rows
  have split : dpfN A0 S n (List.range n) = ∑ a ∈ Finset.range n, (1 / 2) * dpfN A0 (rowPart a S) n (List.range n) := by
    rw [← dpfN_sum]
    have two : (2 : K) ≠ 0 := two_ne_zero
    -- the two directions agree on the list
    have u1 := pfN_deriv (K := K) (A := fun t i j => A0 i j + t * S i j) (B := S) (z := 0) n (List.range n) (by
      intro x _ y _
      refine (((hasDerivAt_id (0 : K)).mul_const _).const_add _).congr_deriv ?_
      ring)
    have u2 := pfN_deriv (K := K) (A := fun t i j => A0 i j + t * S i j) (B := fun i j => ∑ k ∈ Finset.range n, 1 / 2 * rowPart k S i j)
      (z := 0) n (List.range n) (by
      intro x hx y hy
      refine (((hasDerivAt_id (0 : K)).mul_const _).const_add _).congr_deriv ?_
      beta_reduce
      rw [← Finset.mul_sum, rowPart_sum S (List.mem_range.mp hx) (List.mem_range.mp hy)]
      field_simp)
    have e2 : (fun i j => A0 i j + 0 * S i j) = A0 := by funext i j; ring
    rw [e2] at u1 u2
    exact u1.unique u2
  rw [split]
  have hSs : ∀ i j, i < n → j < n → S i j = - S j i := by intro i j _ _; simp only [hS]; ring
  have hS0 : ∀ i, i < n → S i i = 0 := by intro i _; simp only [hS]; ring
  have hN' : IsInv A0 n id N := fun i hi j hj => hN i hi j hj
  rw [Finset.sum_congr rfl (fun a ha => by rw [dpf_row hA hA0 hSs hS0 hN' (Finset.mem_range.mp ha)])]
  rw [pfOf_index (A z) n rs]
  rw [← Finset.mul_sum, ← Finset.sum_mul, ← mul_assoc]
  congr 1
  rw [Finset.sum_neg_distrib]
  have e3 : ∑ a ∈ Finset.range n, ∑ j ∈ Finset.range n, N a j * S a j = 2 * ∑ i ∈ Finset.range n, ∑ j ∈ Finset.range n, N i j * B i j := by
    have : ∑ a ∈ Finset.range n, ∑ j ∈ Finset.range n, N a j * S a j
        = ∑ a ∈ Finset.range n, ∑ j ∈ Finset.range n, N a j * B a j - ∑ a ∈ Finset.range n, ∑ j ∈ Finset.range n, N a j * B j a := by
      rw [← Finset.sum_sub_distrib]
      apply Finset.sum_congr rfl
      intro a _
      rw [← Finset.sum_sub_distrib]
      apply Finset.sum_congr rfl
      intro j _
      simp only [hS]; ring
    rw [this]
    have sw : ∑ a ∈ Finset.range n, ∑ j ∈ Finset.range n, N a j * B j a = - ∑ i ∈ Finset.range n, ∑ j ∈ Finset.range n, N i j * B i j := by
      rw [Finset.sum_comm, ← Finset.sum_neg_distrib]
      apply Finset.sum_congr rfl
      intro a ha
      rw [← Finset.sum_neg_distrib]
      apply Finset.sum_congr rfl
      intro j hj
      rw [hNs j (Finset.mem_range.mp hj) a (Finset.mem_range.mp ha)]; ring
    rw [sw]; ring
  rw [e3]
  have two : (2 : K) ≠ 0 := two_ne_zero
  field_simp

end main

end MVMC
