import Verif.Proof.LtlInv2
import Mathlib.Tactic.IntervalCases
import Mathlib.Tactic.NormNum

/-!
# C59 Pfaffian and inverse from the factorisation

`utu2pfa` and `utu2inv` (`/repo/src/ltl2inv`) turn the output of `ZSKTRF`/`DSKTRF` into the Pfaffian and the inverse. The contracts of the two LAPACK style
routines are in `Spec/Factor.lean`.
-/
namespace MVMC
open Spec
variable {K : Type} [Field K]

/-- C59: for every skew matrix of even size, every factorisation that meets the contract, every answer of `ilaenv` (panel width) and every content of the work
arrays, the returned number is the Pfaffian and the returned array is the inverse. -/
theorem C59_pfaffian_inverse (sktrf : Nat → (Nat → K) → Option ((Nat → K) × (Nat → Int))) (trtri : Nat → Nat → (Nat → K) → (Nat → K))
    (hs : SktrfOK sktrf) (ht : TrtriOK trtri) (npanel : Int) (vT0 M0 : Nat → K) (n : Nat) (hn : n % 2 = 0) (b : Nat → K)
    (hsk : ∀ i j, i < n → j < n → b (i + n * j) = - b (j + n * i)) (h0 : ∀ i, i < n → b (i + n * i) = 0)
    (A : Nat → K) (piv : Nat → Int) (hf : sktrf n b = some (A, piv)) :
    utu2pfa n A n piv = pfOf (fun i j => b (i + n * j)) n id ∧
    ∀ i, i < n → ∀ j, j < n → ∑ k ∈ Finset.range n, utu2inv trtri npanel n A n piv vT0 M0 n (i + n * k) * b (k + n * j) = if i = j then 1 else 0 := by
  refine skLibOf_ok hs ht (fun _ => npanel) vT0 M0 n b _ _ ?_ hsk h0
  unfold skLibOf
  rw [if_neg (by omega), hf]

/-- C59: with the two routines in place of the library assumed elsewhere, the contract of that library holds. -/
theorem C59_lib (sktrf : Nat → (Nat → K) → Option ((Nat → K) × (Nat → Int))) (trtri : Nat → Nat → (Nat → K) → (Nat → K))
    (hs : SktrfOK sktrf) (ht : TrtriOK trtri) (npanel : Nat → Int) (vT0 M0 : Nat → K) : LibOK (skLibOf sktrf trtri npanel vT0 M0) :=
  skLibOf_ok hs ht npanel vT0 M0

/-- C59: if the factorisation succeeds for regular matrices of even size, so does the library for all regular skew matrices (there are none of odd size). -/
theorem C59_total [CharZero K] (sktrf : Nat → (Nat → K) → Option ((Nat → K) × (Nat → Int))) (trtri : Nat → Nat → (Nat → K) → (Nat → K))
    (hs : SktrfTotal sktrf) (npanel : Nat → Int) (vT0 M0 : Nat → K) : LibTotal (skLibOf sktrf trtri npanel vT0 M0) :=
  skLibOf_total hs trtri npanel vT0 M0

/-- The skew matrix of two dimers: `b(0,1) = b(2,3) = 1`. It is regular. -/
def dimerMat (x : Nat) : K := if x = 0 + 4 * 1 ∨ x = 2 + 4 * 3 then 1 else if x = 1 + 4 * 0 ∨ x = 3 + 4 * 2 then -1 else 0

theorem dimerMat_neg (i j : Nat) (hi : i < 4) (hj : j < 4) : (dimerMat (i + 4 * j) : K) = - dimerMat (j + 4 * i) := by
  interval_cases i <;> interval_cases j <;> simp [dimerMat]

theorem dimerMat_diag (i : Nat) (hi : i < 4) : (dimerMat (i + 4 * i) : K) = 0 := by
  interval_cases i <;> simp [dimerMat]

theorem dimerMat_inv (i : Nat) (hi : i < 4) (j : Nat) (hj : j < 4) :
    ∑ k ∈ Finset.range 4, - dimerMat (i + 4 * k) * (dimerMat (k + 4 * j) : K) = if i = j then 1 else 0 := by
  interval_cases i <;> interval_cases j <;> simp [dimerMat, Finset.sum_range_succ]

/-- every column of the dimer matrix has one entry that does not vanish -/
theorem dimerMat_one {i j j' : Nat} (hi : i < 4) (hj : j < 4) (hj' : j' < 4) (h : (dimerMat (i + 4 * j) : K) ≠ 0) (h' : (dimerMat (i + 4 * j') : K) ≠ 0) : j = j' := by
  interval_cases i <;> interval_cases j <;> interval_cases j' <;> simp [dimerMat] at h h' ⊢

/-- C59: every factorisation of the dimer matrix has `T(1,2) = 0`. -/
theorem C59_dimer_entry (A : Nat → K) (p : Nat → Nat) (hp : ∀ t, t < 4 → p t < 4) (h23 : A (2 + 3 * 4) ≠ 0)
    (hb : ∀ i j, i < 4 → j < 4 → dimerMat (i + 4 * j) = ∑ k ∈ Finset.range 4, ∑ l ∈ Finset.range 4,
      factU 4 A 4 (pivPerm 4 p i) k * factT A 4 k l * factU 4 A 4 (pivPerm 4 p j) l) : A (1 + 2 * 4) = 0 := by
  have ex : ∀ y, y < 4 → ∃ i, i < 4 ∧ pivPerm 4 p i = y := by
    intro y hy
    obtain ⟨x, hx⟩ := (pivEquiv (fun t : Fin 4 => (⟨p t, hp t t.2⟩ : Fin 4))).surjective ⟨y, hy⟩
    refine ⟨x, x.2, ?_⟩
    rw [← pivEquiv_val (fun t : Fin 4 => ⟨p t, hp t t.2⟩) p (fun _ => rfl) x, hx]
  obtain ⟨i1, h1, e1⟩ := ex 1 (by omega)
  obtain ⟨i2, h2, e2⟩ := ex 2 (by omega)
  obtain ⟨i3, h3, e3⟩ := ex 3 (by omega)
  have b23 := hb i2 i3 h2 h3
  have b13 := hb i1 i3 h1 h3
  have b21 := hb i2 i1 h2 h1
  rw [e2, e3] at b23
  rw [e1, e3] at b13
  rw [e2, e1] at b21
  simp [Finset.sum_range_succ, factU, factT] at b23 b13 b21
  have n23 : (dimerMat (i2 + 4 * i3) : K) ≠ 0 := by rw [b23]; exact h23
  have z21 : (dimerMat (i2 + 4 * i1) : K) = 0 := by
    by_contra hne
    have := dimerMat_one h2 h3 h1 n23 hne
    rw [this, e1] at e3
    omega
  rw [z21] at b21
  exact neg_eq_zero.mp b21.symm

/-- C59: the documentation of `ZSKTRF`/`DSKTRF` (mode `N`) says that `INFO > 0` reports a vanishing off-diagonal entry of `T`. A routine that does so for every
entry fails for the regular dimer matrix, so it is not total; the library built on it rejects a configuration whose wave function does not vanish. -/
theorem C59_dimer_rejected (sktrf : Nat → (Nat → K) → Option ((Nat → K) × (Nat → Int))) (hs : SktrfOK sktrf)
    (hinfo : ∀ n b A piv, sktrf n b = some (A, piv) → ∀ i, i + 1 < n → A (i + (i + 1) * n) ≠ 0) :
    sktrf 4 dimerMat = none ∧ ¬ SktrfTotal sktrf ∧
    ∀ (trtri : Nat → Nat → (Nat → K) → (Nat → K)) (npanel : Nat → Int) (vT0 M0 : Nat → K), ¬ LibTotal (skLibOf sktrf trtri npanel vT0 M0) := by
  have hnone : sktrf 4 dimerMat = none := by
    cases hr : sktrf 4 dimerMat with
    | none => rfl
    | some r =>
      obtain ⟨A, piv⟩ := r
      obtain ⟨hp, hA, hb⟩ := hs 4 dimerMat A piv (by omega) dimerMat_neg dimerMat_diag hr
      exact absurd (C59_dimer_entry A (fun t => (piv t - 1).toNat) (fun t ht => by have := hp t ht; omega) (hA 1 (by omega)) hb)
        (hinfo _ _ _ _ hr 1 (by omega))
  refine ⟨hnone, fun h => ?_, fun trtri npanel vT0 M0 h => ?_⟩
  · obtain ⟨r, hr⟩ := h 4 dimerMat (fun x => - dimerMat x) (by omega) dimerMat_neg dimerMat_diag dimerMat_inv
    rw [hnone] at hr
    exact absurd hr (by simp)
  · obtain ⟨r, hr⟩ := h 4 dimerMat (fun x => - dimerMat x) dimerMat_neg dimerMat_diag dimerMat_inv
    unfold skLibOf at hr
    rw [if_neg (by omega), hnone] at hr
    exact absurd hr (by simp)

/-! ### example -/

/-- factors of a 4 × 4 matrix: `T(0,1) = 2`, `T(1,2) = 5`, `T(2,3) = 3`, `U(0,1) = 7`, `U(0,2) = 1`, `U(1,2) = -1` -/
def exFac (x : Nat) : ℚ := if x = 4 then 2 else if x = 8 then 7 else if x = 9 then 5 else if x = 12 then 1 else if x = 13 then -1 else if x = 14 then 3 else 0

/-- exchanges `1 ↔ 0`, `2 ↔ 0`, `3 ↔ 2` -/
def exPiv (t : Nat) : Int := if t = 3 then 3 else 1

/-- the matrix -/
def exSkew (x : Nat) : ℚ :=
  if x = 1 then 35 else if x = 4 then -35 else if x = 2 then -3 else if x = 8 then 3 else if x = 3 then 5 else if x = 12 then -5 else
  if x = 6 then -3 else if x = 9 then 3 else if x = 7 then 38 else if x = 13 then -38 else if x = 11 then -3 else if x = 14 then 3 else 0

open Classical in
/-- a factorisation routine that knows this matrix -/
noncomputable def exTrf (n : Nat) (b : Nat → ℚ) : Option ((Nat → ℚ) × (Nat → Int)) :=
  if n = 4 ∧ ∀ x, x < 16 → b x = exSkew x then some (exFac, exPiv) else none

theorem exFac_prod : ∀ i, i < 4 → ∀ j, j < 4 → exSkew (i + 4 * j) = ∑ k ∈ Finset.range 4, ∑ l ∈ Finset.range 4,
    factU 4 exFac 4 (pivPerm 4 (fun t => (exPiv t - 1).toNat) i) k * factT exFac 4 k l * factU 4 exFac 4 (pivPerm 4 (fun t => (exPiv t - 1).toNat) j) l := by
  decide +kernel

theorem exTrf_ok : SktrfOK exTrf := by
  intro n b A piv _ _ _ hr
  unfold exTrf at hr
  split_ifs at hr with c
  obtain ⟨rfl, hb⟩ := c
  simp only [Option.some.injEq, Prod.mk.injEq] at hr
  obtain ⟨rfl, rfl⟩ := hr
  refine ⟨fun i hi => ?_, fun k hk => ?_, fun i j hi hj => ?_⟩
  · interval_cases i <;> simp [exPiv]
  · obtain rfl | rfl : k = 0 ∨ k = 1 := by omega
    · norm_num [exFac]
    · norm_num [exFac]
  · rw [hb _ (by omega)]
    exact exFac_prod i hi j hj

theorem exTrf_some : exTrf 4 exSkew = some (exFac, exPiv) := by
  unfold exTrf
  rw [if_pos ⟨rfl, fun _ _ => rfl⟩]

theorem exSkew_neg (i j : Nat) (hi : i < 4) (hj : j < 4) : exSkew (i + 4 * j) = - exSkew (j + 4 * i) := by
  interval_cases i <;> interval_cases j <;> norm_num [exSkew]

theorem exSkew_diag (i : Nat) (hi : i < 4) : exSkew (i + 4 * i) = 0 := by
  interval_cases i <;> norm_num [exSkew]

/-- the Pfaffian `-6` and the inverse, with panels of two columns -/
example (vT0 M0 : Nat → ℚ) : pfOf (fun i j => exSkew (i + 4 * j)) 4 id = -6 ∧
    ∀ i, i < 4 → ∀ j, j < 4 → ∑ k ∈ Finset.range 4, utu2inv trtriEx 2 4 exFac 4 exPiv vT0 M0 4 (i + 4 * k) * exSkew (k + 4 * j) = if i = j then 1 else 0 := by
  have h := C59_pfaffian_inverse exTrf trtriEx exTrf_ok trtriEx_ok 2 vT0 M0 4 rfl exSkew exSkew_neg exSkew_diag exFac exPiv exTrf_some
  refine ⟨?_, h.2⟩
  rw [← h.1]
  norm_num [utu2pfa, exFac, exPiv, cmAt, List.range_succ]

end MVMC
