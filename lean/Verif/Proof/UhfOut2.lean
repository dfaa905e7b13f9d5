import Verif.Proof.UhfOut
import Verif.Props.Slater

/-! Averages over classes of pairs, and the matrices the variational program builds from them. -/
namespace MVMC
open MVMC.Spec Finset

/-! ### averages -/

/-- the index of a pair lies inside the arrays, or the pair is skipped -/
def IdxOK (nIdx : Nat) (T : OrbT) (p : Nat × Nat) : Prop := T.idx p.1 p.2 = -1 ∨ (0 ≤ T.idx p.1 p.2 ∧ T.idx p.1 p.2 < nIdx)

theorem collect_none (nIdx : Nat) (T : OrbT) (evs : List (Nat × Nat × ℂ)) : evs.foldl (orbAdd nIdx T) none = none := by
  induction evs with
  | nil => rfl
  | cons e l ih => rw [List.foldl_cons]; exact ih

theorem collect_run (nIdx : Nat) (T : OrbT) (F : Mat2) : ∀ (L : List (Nat × Nat)) (acc : OrbAcc), (∀ p ∈ L, IdxOK nIdx T p) →
    ∃ acc', (L.map fun p => (p.1, p.2, F p.1 p.2)).foldl (orbAdd nIdx T) (some acc) = some acc' ∧ ∀ k : Nat,
      acc'.par k = acc.par k + ((L.filter fun p => T.idx p.1 p.2 = k).map fun p => F p.1 p.2 * (T.sgn p.1 p.2 : ℂ)).sum ∧
      acc'.cnt k = acc.cnt k + (L.filter fun p => T.idx p.1 p.2 = k).length := by
  intro L
  induction L with
  | nil => intro acc _; exact ⟨acc, rfl, fun k => by simp⟩
  | cons p L ih =>
    intro acc h
    have hp := h p (by simp)
    have hL : ∀ q ∈ L, IdxOK nIdx T q := fun q hq => h q (by simp [hq])
    rw [List.map_cons, List.foldl_cons]
    rcases hp with hp | ⟨hp, hp'⟩
    · have e : orbAdd nIdx T (some acc) (p.1, p.2, F p.1 p.2) = some acc := by
        simp only [orbAdd, Option.bind_some, hp, if_true]
      rw [e]
      obtain ⟨acc', h1, h2⟩ := ih acc hL
      refine ⟨acc', h1, fun k => ?_⟩
      rw [List.filter_cons_of_neg (by simp only [decide_eq_true_eq]; omega)]
      exact h2 k
    · have e : orbAdd nIdx T (some acc) (p.1, p.2, F p.1 p.2) =
          some ⟨fun k => if k = (T.idx p.1 p.2).toNat then acc.par k + F p.1 p.2 * (T.sgn p.1 p.2 : ℂ) else acc.par k,
            fun k => if k = (T.idx p.1 p.2).toNat then acc.cnt k + 1 else acc.cnt k⟩ := by
        simp only [orbAdd, Option.bind_some]
        rw [if_neg (by omega), if_pos ⟨hp, hp'⟩]
      rw [e]
      obtain ⟨acc', h1, h2⟩ := ih _ hL
      refine ⟨acc', h1, fun k => ?_⟩
      obtain ⟨a, b⟩ := h2 k
      dsimp only at a b
      by_cases hk : T.idx p.1 p.2 = (k : ℤ)
      · rw [List.filter_cons_of_pos (by simpa using hk), List.map_cons, List.sum_cons, List.length_cons, a, b,
          if_pos (by omega), if_pos (by omega)]
        exact ⟨by ring, by omega⟩
      · rw [List.filter_cons_of_neg (by simpa using hk), a, b, if_neg (by omega), if_neg (by omega)]
        exact ⟨rfl, rfl⟩

theorem collect_bad (nIdx : Nat) (T : OrbT) (F : Mat2) : ∀ (L : List (Nat × Nat)) (acc : OrbAcc), (∃ p ∈ L, ¬ IdxOK nIdx T p) →
    (L.map fun p => (p.1, p.2, F p.1 p.2)).foldl (orbAdd nIdx T) (some acc) = none := by
  intro L
  induction L with
  | nil => intro acc ⟨p, hp, _⟩; cases hp
  | cons p L ih =>
    intro acc ⟨q, hq, hb⟩
    rw [List.map_cons, List.foldl_cons]
    by_cases hp : IdxOK nIdx T p
    · have hq' : q ∈ L := by
        rcases List.mem_cons.mp hq with rfl | h
        · exact absurd hp hb
        · exact h
      rcases hr : orbAdd nIdx T (some acc) (p.1, p.2, F p.1 p.2) with _ | acc'
      · exact collect_none nIdx T _
      · exact ih acc' ⟨q, hq', hb⟩
    · have e : orbAdd nIdx T (some acc) (p.1, p.2, F p.1 p.2) = none := by
        simp only [orbAdd, Option.bind_some]
        rw [if_neg (fun h => hp (Or.inl h)), if_neg (fun h => hp (Or.inr h))]
      rw [e, collect_none]

/-- all pairs visited once -/
structure Visits (L : List (Nat × Nat)) (S : Finset (Nat × Nat)) : Prop where
  nodup : L.Nodup
  mem : ∀ p, p ∈ L ↔ p ∈ S

theorem collect_mean {nIdx : Nat} {T : OrbT} {F : Mat2} {L : List (Nat × Nat)} {S : Finset (Nat × Nat)} (hv : Visits L S)
    (h : ∀ p ∈ S, IdxOK nIdx T p) : ∃ acc, orbCollect nIdx T (L.map fun p => (p.1, p.2, F p.1 p.2)) = some acc ∧
      ∀ (u : Nat → ℝ) (δ : ℝ) (k : Nat), orbFinish acc u δ k =
        if (pairClass T S k).card = 0 then none else some (classMean T S F k + (u k : ℂ) * δ) := by
  obtain ⟨acc, h1, h2⟩ := collect_run nIdx T F L ⟨fun _ => 0, fun _ => 0⟩ (fun p hp => h p ((hv.mem p).mp hp))
  refine ⟨acc, h1, fun u δ k => ?_⟩
  obtain ⟨a, b⟩ := h2 k
  have e : (L.filter fun p => decide (T.idx p.1 p.2 = k)).toFinset = pairClass T S k := by
    ext p
    simp only [List.mem_toFinset, List.mem_filter, pairClass, Finset.mem_filter, hv.mem, decide_eq_true_eq]
  have nd : (L.filter fun p => decide (T.idx p.1 p.2 = k)).Nodup := hv.nodup.filter _
  have ec : acc.cnt k = (pairClass T S k).card := by rw [b, zero_add, ← e, List.toFinset_card_of_nodup nd]
  have ep : acc.par k = ∑ p ∈ pairClass T S k, F p.1 p.2 * (T.sgn p.1 p.2 : ℂ) := by
    rw [a, zero_add, ← e, List.sum_toFinset _ nd]
  unfold orbFinish classMean
  rw [ec, ep]

theorem nodup_flat {α β : Type} {l : List α} {f : α → List β} (h1 : l.Nodup) (h2 : ∀ a ∈ l, (f a).Nodup)
    (h3 : ∀ a ∈ l, ∀ b ∈ l, ∀ x, x ∈ f a → x ∈ f b → a = b) : (l.flatMap f).Nodup := by
  rw [List.nodup_flatMap]
  refine ⟨h2, ?_⟩
  refine List.Pairwise.imp_of_mem ?_ h1
  intro a b ha hb hab x hx hx'
  exact hab (h3 a ha b hb x hx hx')

theorem visits_ap (N : Nat) : Visits ((List.range N).flatMap fun i => (List.range N).map fun j => (i + 0 * N, j + 1 * N)) (apSet N) where
  nodup := by
    refine nodup_flat List.nodup_range (fun i _ => List.Nodup.map (fun a b h => by simpa using h) List.nodup_range) ?_
    intro a _ b _ x hx hx'
    simp only [List.mem_map, Prod.ext_iff] at hx hx'
    obtain ⟨_, _, h, _⟩ := hx
    obtain ⟨_, _, h', _⟩ := hx'
    omega
  mem p := by
    simp only [List.mem_flatMap, List.mem_map, List.mem_range, apSet, Finset.mem_product, Finset.mem_range, Finset.mem_Ico, Prod.ext_iff]
    constructor
    · rintro ⟨i, hi, j, hj, h1, h2⟩; omega
    · rintro ⟨h1, h2, h3⟩; exact ⟨p.1, h1, p.2 - N, by omega, by omega, by omega⟩

theorem visits_par (N : Nat) : Visits ((List.range N).flatMap fun i => (List.range' (i + 1) (N - (i + 1))).flatMap fun j =>
    [(i + 0 * N, j + 0 * N), (i + 1 * N, j + 1 * N)]) (parSet N) where
  nodup := by
    refine nodup_flat List.nodup_range (fun i hi => nodup_flat List.nodup_range' (fun j hj => ?_) ?_) ?_
    · rw [List.mem_range] at hi
      have : N ≠ 0 := by omega
      simp [this]
    · intro a ha b hb x hx hx'
      rw [List.mem_range'_1] at ha hb
      rw [List.mem_range] at hi
      simp only [List.mem_cons, List.not_mem_nil, or_false, Prod.ext_iff] at hx hx'
      omega
    · intro a ha b hb x hx hx'
      rw [List.mem_range] at ha hb
      simp only [List.mem_flatMap, List.mem_range'_1, List.mem_cons, List.not_mem_nil, or_false, Prod.ext_iff] at hx hx'
      obtain ⟨j, _, hx⟩ := hx
      obtain ⟨j', _, hx'⟩ := hx'
      omega
  mem p := by
    simp only [List.mem_flatMap, List.mem_range, List.mem_range'_1, List.mem_cons, List.not_mem_nil, or_false, Prod.ext_iff, parSet,
      Finset.mem_filter, Finset.mem_product, Finset.mem_range]
    constructor
    · rintro ⟨i, hi, j, hj, h | h⟩ <;> omega
    · rintro ⟨⟨h1, h2⟩, h3, h4⟩
      by_cases h : p.2 < N
      · exact ⟨p.1, by omega, p.2, by omega, Or.inl (by omega)⟩
      · exact ⟨p.1 - N, by omega, p.2 - N, by omega, Or.inr (by omega)⟩

theorem visits_all (N : Nat) : Visits ((List.range 2).flatMap fun s => (List.range 2).flatMap fun t => (List.range N).flatMap fun i =>
    (List.range N).map fun j => (i + s * N, j + t * N)) (allSet N) where
  nodup := by
    refine nodup_flat List.nodup_range (fun s hs => nodup_flat List.nodup_range (fun t ht => nodup_flat List.nodup_range
      (fun i hi => List.Nodup.map (fun a b h => by simpa using h) List.nodup_range) ?_) ?_) ?_
    · intro a _ b _ x hx hx'
      simp only [List.mem_map, Prod.ext_iff] at hx hx'
      obtain ⟨_, _, h, _⟩ := hx
      obtain ⟨_, _, h', _⟩ := hx'
      omega
    · intro a ha b hb x hx hx'
      simp only [List.mem_flatMap, List.mem_map, List.mem_range, Prod.ext_iff] at ha hb hx hx'
      obtain ⟨i, hi, j, hj, _, h⟩ := hx
      obtain ⟨i', hi', j', hj', _, h'⟩ := hx'
      have e1 : a = 0 ∨ a = 1 := by omega
      have e2 : b = 0 ∨ b = 1 := by omega
      rcases e1 with rfl | rfl <;> rcases e2 with rfl | rfl <;> omega
    · intro a ha b hb x hx hx'
      simp only [List.mem_flatMap, List.mem_map, List.mem_range, Prod.ext_iff] at ha hb hx hx'
      obtain ⟨_, _, i, hi, j, hj, h, _⟩ := hx
      obtain ⟨_, _, i', hi', j', hj', h', _⟩ := hx'
      have e1 : a = 0 ∨ a = 1 := by omega
      have e2 : b = 0 ∨ b = 1 := by omega
      rcases e1 with rfl | rfl <;> rcases e2 with rfl | rfl <;> omega
  mem p := by
    simp only [List.mem_flatMap, List.mem_map, List.mem_range, allSet, Finset.mem_product, Finset.mem_range, Prod.ext_iff]
    constructor
    · rintro ⟨s, hs, t, ht, i, hi, j, hj, h1, h2⟩
      have e1 : s = 0 ∨ s = 1 := by omega
      have e2 : t = 0 ∨ t = 1 := by omega
      rcases e1 with rfl | rfl <;> rcases e2 with rfl | rfl <;> omega
    · rintro ⟨h1, h2⟩
      have split : ∀ q < 2 * N, ∃ s < 2, ∃ i < N, i + s * N = q := by
        intro q hq
        by_cases h : q < N
        · exact ⟨0, by omega, q, h, by omega⟩
        · exact ⟨1, by omega, q - N, by omega, by omega⟩
      obtain ⟨s, hs, i, hi, e1⟩ := split _ h1
      obtain ⟨t, ht, j, hj, e2⟩ := split _ h2
      exact ⟨s, hs, t, ht, i, hi, j, hj, e1, e2⟩

theorem apPairs2_map (N : Nat) (F : Mat2) : apPairs2 N F = ((List.range N).flatMap fun i => (List.range N).map fun j =>
    (i + 0 * N, j + 1 * N)).map fun p => (p.1, p.2, (fun a b => F a (b - N)) p.1 p.2) := by
  unfold apPairs2
  simp [List.map_flatMap, Function.comp_def]

theorem apPairs_map (N : Nat) (F : Mat2) : apPairs N F = ((List.range N).flatMap fun i => (List.range N).map fun j =>
    (i + 0 * N, j + 1 * N)).map fun p => (p.1, p.2, F p.1 p.2) := by
  unfold apPairs
  simp [List.map_flatMap, Function.comp_def]

theorem parPairs_map (N : Nat) (F : Mat2) : parPairs N F = ((List.range N).flatMap fun i => (List.range' (i + 1) (N - (i + 1))).flatMap fun j =>
    [(i + 0 * N, j + 0 * N), (i + 1 * N, j + 1 * N)]).map fun p => (p.1, p.2, F p.1 p.2) := by
  unfold parPairs
  simp [List.map_flatMap]

theorem genPairs_map (N : Nat) (F : Mat2) : genPairs N F = ((List.range 2).flatMap fun s => (List.range 2).flatMap fun t => (List.range N).flatMap fun i =>
    (List.range N).map fun j => (i + s * N, j + t * N)).map fun p => (p.1, p.2, F p.1 p.2) := by
  unfold genPairs
  simp only [List.map_flatMap, List.map_map, Function.comp_def]

/-- the entries moved to the front -/
theorem shift_down (a n : Nat) (par : Nat → Option ℂ) (k : Nat) :
    ((List.range' a n).foldl (fun par i => storeAt par (i - a, par i)) par) k = if k < n then par (a + k) else par k := by
  induction n generalizing k with
  | zero => simp
  | succ n ih =>
    have st : ∀ (g : Nat → Option ℂ) (i : Nat) (v : Option ℂ), storeAt g (i, v) k = if k = i then v else g k := fun _ _ _ => rfl
    rw [List.range'_1_concat, List.foldl_append, List.foldl_cons, List.foldl_nil, st, show a + n - a = n by omega]
    by_cases h : k = n
    · subst h
      rw [if_pos rfl, if_pos (by omega), ih]
      by_cases h : a + k < k
      · omega
      · rw [if_neg h]
    · rw [if_neg h, ih]
      by_cases h' : k < n
      · rw [if_pos h', if_pos (by omega)]
      · rw [if_neg h', if_neg (by omega)]

theorem mean_respects {T : OrbT} {S : Finset (Nat × Nat)} {F : Mat2} (hr : Respects T S F) {p : Nat × Nat} (hp : p ∈ S) {k : Nat}
    (hk : T.idx p.1 p.2 = k) (hs : T.sgn p.1 p.2 = 1 ∨ T.sgn p.1 p.2 = -1) :
    (pairClass T S k).card ≠ 0 ∧ classMean T S F k * (T.sgn p.1 p.2 : ℂ) = F p.1 p.2 := by
  have hm : p ∈ pairClass T S k := by simp only [pairClass, Finset.mem_filter]; exact ⟨hp, hk⟩
  have hc : (pairClass T S k).card ≠ 0 := Finset.card_ne_zero_of_mem hm
  refine ⟨hc, ?_⟩
  have e : classMean T S F k = F p.1 p.2 * (T.sgn p.1 p.2 : ℂ) := by
    unfold classMean
    rw [Finset.sum_congr rfl (g := fun _ => F p.1 p.2 * (T.sgn p.1 p.2 : ℂ)), Finset.sum_const, nsmul_eq_mul]
    · rw [mul_div_assoc, mul_comm, div_mul_cancel₀]
      exact_mod_cast hc
    · intro q hq
      simp only [pairClass, Finset.mem_filter] at hq
      exact hr q hq.1 p hp (hq.2.trans hk.symm)
  rw [e]
  rcases hs with h | h <;> rw [h] <;> push_cast <;> ring

/-! ### the matrices of the variational program -/

theorem unproj_full {Q : QPPar} (hQ : Unprojected Q) : Q.nFull = 1 := by
  unfold QPPar.nFull QPPar.nFix; rw [hQ.sp, hQ.mp, hQ.op]

theorem unproj_idx {Q : QPPar} (_hQ : Unprojected Q) : Q.optidx 0 = 0 ∧ Q.mpidx 0 = 0 ∧ Q.spidx 0 = 0 := by
  unfold QPPar.optidx QPPar.mpidx QPPar.spidx; simp

theorem unproj_entry {Q : QPPar} (hQ : Unprojected Q) (S old : Nat → ℂ) {x y : Nat} (hx : x < 2 * Q.Nsite) (hy : y < 2 * Q.Nsite) :
    entry (2 * Q.Nsite) (updateSlaterElm Q (fun _ => 0) (fun _ => 1) (fun _ => 0) S old) 0 x y =
      antisym (rotatedPair Q.Nsite 1 0 (fun i j => S (Q.orbIdx i j) * (Q.orbSgn i j : ℂ))) x y := by
  have h := C28_rotated_pair (K := ℂ) Q (fun _ => 1) (fun _ => 0) S
    ((List.range Q.nFull).flatMap (slaterStores Q (fun _ => 1 * 0) (fun _ => 1 * 1) (fun _ => 0 * 0) S)) (List.Perm.refl _) old 0 x y
    (by rw [unproj_full hQ]; omega) hx hy
  obtain ⟨h1, h2, h3⟩ := unproj_idx hQ
  simp only [mul_zero, mul_one, h1, h2] at h
  unfold updateSlaterElm
  rw [h]
  have hN : 0 < Q.Nsite := by omega
  have t : ∀ a b, translated S Q.orbIdx Q.orbSgn (Q.tr 0 0) (Q.sg 0 0) (a % Q.Nsite) (b % Q.Nsite) =
      S (Q.orbIdx (a % Q.Nsite) (b % Q.Nsite)) * (Q.orbSgn (a % Q.Nsite) (b % Q.Nsite) : ℂ) := by
    intro a b
    unfold translated
    rw [hQ.id _ (Nat.mod_lt _ hN), hQ.id _ (Nat.mod_lt _ hN), hQ.sg _ (Nat.mod_lt _ hN), hQ.sg _ (Nat.mod_lt _ hN)]
    push_cast; ring
  unfold antisym rotatedPair
  rw [t, t]

theorem unproj_entryF {Q : QPPar} (hQ : Unprojected Q) (S old : Nat → ℂ) {x y : Nat} (hx : x < 2 * Q.Nsite) (hy : y < 2 * Q.Nsite) :
    entry (2 * Q.Nsite) (updateSlaterElmF Q S old) 0 x y = antisym (fun i j => S (Q.orbIdx i j) * (Q.orbSgn i j : ℂ)) x y := by
  unfold updateSlaterElmF
  rw [slaterF_entry Q S (List.Perm.refl _) old (by rw [unproj_full hQ]; omega) hx hy]
  obtain ⟨h1, h2, h3⟩ := unproj_idx hQ
  have hN : 0 < Q.Nsite := by omega
  have m : ∀ a, a % Q.Nsite + a / Q.Nsite * Q.Nsite = a := fun a => by rw [mul_comm]; exact Nat.mod_add_div a _
  have t : ∀ a b, pairF Q S 0 a b = S (Q.orbIdx a b) * (Q.orbSgn a b : ℂ) := by
    intro a b
    unfold pairF
    rw [h1, h2, hQ.id _ (Nat.mod_lt _ hN), hQ.id _ (Nat.mod_lt _ hN), hQ.sg _ (Nat.mod_lt _ hN), hQ.sg _ (Nat.mod_lt _ hN), m, m]
    push_cast; ring
  unfold antisym
  rw [t, t]

/-- up and down pairs -/
theorem rot_pairForm (N Ne : Nat) (U D : Nat → Nat → ℂ) {x y : Nat} (hx : x < 2 * N) (hy : y < 2 * N) :
    antisym (rotatedPair N 1 0 (fun i j => ∑ m ∈ range Ne, U m i * D m j)) x y = pairForm Ne (spinOrbitals N U D) x y := by
  have ev : ∀ m z, spinOrbitals N U D (2 * m) z = if z < N then U m z else 0 := by
    intro m z; unfold spinOrbitals; rw [if_pos (by omega), show 2 * m / 2 = m by omega]
  have od : ∀ m z, spinOrbitals N U D (2 * m + 1) z = if z < N then 0 else D m (z - N) := by
    intro m z; unfold spinOrbitals; rw [if_neg (by omega), show (2 * m + 1) / 2 = m by omega]
  unfold pairForm antisym rotatedPair rotUp rotDn
  simp only [ev, od]
  have up : ∀ z, z < N → z % N = z ∧ z / N = 0 := fun z h => ⟨Nat.mod_eq_of_lt h, Nat.div_eq_of_lt h⟩
  have dn : ∀ z, z < 2 * N → ¬ z < N → z % N = z - N ∧ z / N = 1 := by
    intro z h1 h2
    obtain ⟨w, rfl⟩ : ∃ w, z = w + N := ⟨z - N, by omega⟩
    refine ⟨?_, ?_⟩
    · rw [Nat.add_mod_right, Nat.mod_eq_of_lt (by omega)]; omega
    · rw [Nat.add_div_right _ (by omega), Nat.div_eq_of_lt (by omega)]
  by_cases h1 : x < N <;> by_cases h2 : y < N
  · simp [up x h1, up y h2, h1, h2]
  · simp [up x h1, dn y hy h2, h1, h2]
  · simp [dn x hx h1, up y h2, h1, h2]
    apply Finset.sum_congr rfl; intro m _; ring
  · simp [dn x hx h1, dn y hy h2, h1, h2]

end MVMC
