import Verif.Model.Memory
import Mathlib.Tactic.Ring
import Mathlib.Tactic.Linarith
import Mathlib.Data.List.Nodup

/-!
# Tables placed one behind the other
-/

namespace MVMC

theorem carveRows_end : ∀ (n : ℕ) (w p : ℤ), (carveRows n w p).2 = p + n * w
  | 0, w, p => by simp [carveRows]
  | n + 1, w, p => by
    rw [carveRows]
    show (carveRows n w (p + w)).2 = _
    rw [carveRows_end n w (p + w)]
    push_cast
    ring

theorem carveRows_get : ∀ (n : ℕ) (w p : ℤ) (i : ℕ), i < n →
    (carveRows n w p).1[i]? = some (p + i * w)
  | 0, _, _, _, h => absurd h (by omega)
  | n + 1, w, p, 0, _ => by simp [carveRows]
  | n + 1, w, p, i + 1, h => by
    rw [carveRows]
    show (carveRows n w (p + w)).1[i]? = _
    rw [carveRows_get n w (p + w) i (by omega)]
    push_cast
    congr 1
    ring

theorem carveAll_end {α : Type} : ∀ (L : List (α × ℤ × ℤ)) (p : ℤ),
    (∀ e ∈ L, 0 ≤ e.2.1) → (carveAll L p).2 = p + (L.map fun e => e.2.1 * e.2.2).sum
  | [], p, _ => by simp [carveAll]
  | (t, r, w) :: L, p, h => by
    have h0 : 0 ≤ r := h (t, r, w) (by simp)
    rw [carveAll]
    show (carveAll L (carveRows r.toNat w p).2).2 = _
    rw [carveAll_end L _ fun e he => h e (by simp [he]), carveRows_end, List.map_cons, List.sum_cons,
      Int.toNat_of_nonneg h0]
    ring

/-- The row pointer of a table. -/
def rowOf {α : Type} [BEq α] (R : List (α × List ℤ)) (t : α) (i : ℕ) : Option ℤ :=
  (R.lookup t).bind fun r => r[i]?

/-- Every element of every table has an address between the start and the end, and no
address is used twice. -/
theorem carveAll_cells {α : Type} [DecidableEq α] : ∀ (L : List (α × ℤ × ℤ)) (p : ℤ),
    (L.map Prod.fst).Nodup → (∀ e ∈ L, 0 ≤ e.2.1 ∧ 0 ≤ e.2.2) →
    p ≤ (carveAll L p).2 ∧
    (∀ t r w, (t, r, w) ∈ L → ∀ i j : ℕ, (i : ℤ) < r → (j : ℤ) < w →
      ∃ q, rowOf (carveAll L p).1 t i = some q ∧ p ≤ q + j ∧ q + j < (carveAll L p).2) ∧
    (∀ t r w, (t, r, w) ∈ L → ∀ i j : ℕ, (i : ℤ) < r → (j : ℤ) < w →
      ∀ t' r' w', (t', r', w') ∈ L → ∀ i' j' : ℕ, (i' : ℤ) < r' → (j' : ℤ) < w' →
      ∀ q q', rowOf (carveAll L p).1 t i = some q → rowOf (carveAll L p).1 t' i' = some q' →
      q + j = q' + j' → t = t' ∧ i = i' ∧ j = j')
  | [], p, _, _ => ⟨le_rfl, by simp, by simp⟩
  | (t0, r0, w0) :: L, p, hn, h => by
    obtain ⟨h0, h0'⟩ : 0 ≤ r0 ∧ 0 ≤ w0 := h (t0, r0, w0) (by simp)
    rw [List.map_cons, List.nodup_cons] at hn
    obtain ⟨I1, I2, I3⟩ := carveAll_cells L (carveRows r0.toNat w0 p).2 hn.2
      fun e he => h e (by simp [he])
    have hend : (carveRows r0.toNat w0 p).2 = p + r0 * w0 := by
      rw [carveRows_end, Int.toNat_of_nonneg h0]
    have hprod : 0 ≤ r0 * w0 := mul_nonneg h0 h0'
    have eL : (carveAll ((t0, r0, w0) :: L) p).1 =
        (t0, (carveRows r0.toNat w0 p).1) :: (carveAll L (carveRows r0.toNat w0 p).2).1 := rfl
    have e2 : (carveAll ((t0, r0, w0) :: L) p).2 = (carveAll L (carveRows r0.toNat w0 p).2).2 := rfl
    rw [eL, e2]
    -- rows of the first table
    have head : ∀ i : ℕ, (i : ℤ) < r0 →
        rowOf ((t0, (carveRows r0.toNat w0 p).1) :: (carveAll L (carveRows r0.toNat w0 p).2).1) t0 i =
          some (p + i * w0) := by
      intro i hi
      unfold rowOf
      rw [List.lookup_cons_self]
      exact carveRows_get _ _ _ _ (by omega)
    have tail : ∀ t i, t ≠ t0 →
        rowOf ((t0, (carveRows r0.toNat w0 p).1) :: (carveAll L (carveRows r0.toNat w0 p).2).1) t i =
          rowOf (carveAll L (carveRows r0.toNat w0 p).2).1 t i := by
      intro t i ht
      unfold rowOf
      rw [List.lookup_cons, show (t == t0) = false from beq_false_of_ne ht]
    have hbound : ∀ i j : ℕ, (i : ℤ) < r0 → (j : ℤ) < w0 → (i : ℤ) * w0 + j < r0 * w0 := by
      intro i j hi hj
      have : ((i : ℤ) + 1) * w0 ≤ r0 * w0 := mul_le_mul_of_nonneg_right (by omega) h0'
      linarith
    have hne : ∀ t r w, (t, r, w) ∈ L → t ≠ t0 := by
      rintro t r w ht rfl
      exact hn.1 (List.mem_map.2 ⟨_, ht, rfl⟩)
    refine ⟨by linarith, ?_, ?_⟩
    · intro t r w ht i j hi hj
      rcases List.mem_cons.1 ht with e | ht
      · cases e
        refine ⟨p + i * w0, head i hi, ?_, ?_⟩
        · have : (0 : ℤ) ≤ i * w0 := mul_nonneg (by omega) h0'
          omega
        · have := hbound i j hi hj
          linarith
      · obtain ⟨q, a, b, c⟩ := I2 t r w ht i j hi hj
        exact ⟨q, by rw [tail t i (hne t r w ht)]; exact a, by linarith, c⟩
    · have first : ∀ i j : ℕ, (i : ℤ) < r0 → (j : ℤ) < w0 → p + i * w0 + j < (carveRows r0.toNat w0 p).2 := by
        intro i j hi hj
        have := hbound i j hi hj
        rw [hend]; linarith
      intro t r w ht i j hi hj t' r' w' ht' i' j' hi' hj' q q' hq hq' heq
      rcases List.mem_cons.1 ht with e | ht
      · cases e
        rw [head i hi] at hq
        cases hq
        rcases List.mem_cons.1 ht' with e | ht'
        · cases e
          rw [head i' hi'] at hq'
          cases hq'
          have h1 : (i : ℤ) = i' := by
            rcases lt_trichotomy (i : ℤ) i' with c | c | c
            · have : ((i : ℤ) + 1) * w0 ≤ i' * w0 := mul_le_mul_of_nonneg_right (by omega) h0'
              linarith
            · exact c
            · have : ((i' : ℤ) + 1) * w0 ≤ i * w0 := mul_le_mul_of_nonneg_right (by omega) h0'
              linarith
          rw [h1] at heq
          exact ⟨rfl, by omega, by omega⟩
        · obtain ⟨q2, a, b, _⟩ := I2 t' r' w' ht' i' j' hi' hj'
          rw [tail t' i' (hne t' r' w' ht'), a] at hq'
          cases hq'
          have := first i j hi hj
          omega
      · rcases List.mem_cons.1 ht' with e | ht'
        · cases e
          rw [head i' hi'] at hq'
          cases hq'
          obtain ⟨q2, a, b, _⟩ := I2 t r w ht i j hi hj
          rw [tail t i (hne t r w ht), a] at hq
          cases hq
          have := first i' j' hi' hj'
          omega
        · rw [tail t i (hne t r w ht)] at hq
          rw [tail t' i' (hne t' r' w' ht')] at hq'
          exact I3 t r w ht i j hi hj t' r' w' ht' i' j' hi' hj' q q' hq hq' heq

end MVMC
