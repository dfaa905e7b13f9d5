import Verif.Spec.PairMatrix
import Verif.Model.Slater
import Verif.Proof.PfUpdate

/-! Stores, the pair matrix, projection indices. -/
namespace MVMC
open MVMC.Spec

theorem runStores_notin {β : Type} : ∀ (evs : List (Nat × β)) (a : Nat → β) (k : Nat), (∀ e ∈ evs, e.1 ≠ k) → runStores evs a k = a k
  | [], _, _, _ => rfl
  | e :: evs, a, k, h => by
    show runStores evs (storeAt a e) k = a k
    rw [runStores_notin evs _ k (fun x hx => h x (by simp [hx]))]
    unfold storeAt
    rw [if_neg (fun q => h e (by simp) q.symm)]

/-- if all stores to one address carry the same value, the order does not matter -/
theorem runStores_mem {β : Type} : ∀ (evs : List (Nat × β)) (a : Nat → β), (∀ e ∈ evs, ∀ e' ∈ evs, e.1 = e'.1 → e.2 = e'.2) →
    ∀ e ∈ evs, runStores evs a e.1 = e.2
  | [], _, _, e, he => absurd he (by simp)
  | e0 :: evs, a, h, e, he => by
    show runStores evs (storeAt a e0) e.1 = e.2
    by_cases q : ∃ x ∈ evs, x.1 = e.1
    · obtain ⟨x, hx, hx1⟩ := q
      rw [← hx1, runStores_mem evs _ (fun u hu v hv => h u (by simp [hu]) v (by simp [hv])) x hx]
      exact h x (by simp [hx]) e he hx1
    · rw [runStores_notin evs _ _ (fun x hx hx1 => q ⟨x, hx, hx1⟩)]
      have : e = e0 := by
        rcases List.mem_cons.mp he with h' | h'
        · exact h'
        · exact absurd ⟨e, h', rfl⟩ q
      subst this
      unfold storeAt
      rw [if_pos rfl]

theorem flat2_inj {n a b c d : Nat} (hb : b < n) (hd : d < n) (h : a * n + b = c * n + d) : a = c ∧ b = d := by
  have hn : 0 < n := by omega
  have h1 : (n * a + b) / n = (n * c + d) / n := by rw [Nat.mul_comm n a, Nat.mul_comm n c, h]
  have h2 : (n * a + b) % n = (n * c + d) % n := by rw [Nat.mul_comm n a, Nat.mul_comm n c, h]
  rw [Nat.mul_add_div hn, Nat.mul_add_div hn, Nat.div_eq_of_lt hb, Nat.div_eq_of_lt hd] at h1
  rw [Nat.mul_add_mod, Nat.mul_add_mod, Nat.mod_eq_of_lt hb, Nat.mod_eq_of_lt hd] at h2
  omega

theorem flat3_inj {n q x y q' x' y' : Nat} (hx : x < n) (hy : y < n) (hx' : x' < n) (hy' : y' < n)
    (h : q * n * n + x * n + y = q' * n * n + x' * n + y') : q = q' ∧ x = x' ∧ y = y' := by
  have e : (q * n + x) * n + y = (q' * n + x') * n + y' := by rw [Nat.add_mul, Nat.add_mul]; exact h
  obtain ⟨h1, h2⟩ := flat2_inj hy hy' e
  obtain ⟨h3, h4⟩ := flat2_inj hx hx' h1
  exact ⟨h3, h4, h2⟩

/-- stores of the form `(q*n*n + x*n + y, V q x y)` fill the blocks -/
theorem runStores_block {β : Type} {n nq : Nat} {V : Nat → Nat → Nat → β} {evs : List (Nat × β)}
    (hall : ∀ e ∈ evs, ∃ q x y, q < nq ∧ x < n ∧ y < n ∧ e = (q * n * n + x * n + y, V q x y))
    (hex : ∀ q x y, q < nq → x < n → y < n → (q * n * n + x * n + y, V q x y) ∈ evs) (a : Nat → β) {q x y : Nat} (hq : q < nq)
    (hx : x < n) (hy : y < n) : runStores evs a (q * n * n + x * n + y) = V q x y := by
  refine runStores_mem evs a ?_ _ (hex q x y hq hx hy)
  intro e he e' he' h
  obtain ⟨q1, x1, y1, _, a1, a2, rfl⟩ := hall e he
  obtain ⟨q2, x2, y2, _, b1, b2, rfl⟩ := hall e' he'
  obtain ⟨rfl, rfl, rfl⟩ := flat3_inj a1 a2 b1 b2 h
  rfl

section
variable {K : Type} [Field K]

/-- spin part of the pair coefficient in terms of the tables of the code -/
def spinCoef (cs cc ss : K) (σ τ : Nat) : K :=
  if σ = 0 then (if τ = 0 then -cs else cc) else (if τ = 0 then -ss else cs)

theorem spinCoef_rot (c s : K) (σ τ : Nat) : spinCoef (c * s) (c * c) (s * s) σ τ = rotUp c s σ * rotDn c s τ := by
  unfold spinCoef rotUp rotDn
  split_ifs <;> ring

/-- the pair coefficient of projection `q` -/
def pairP (Q : QPPar) (cs cc ss : Nat → K) (S : Nat → K) (q x y : Nat) : K :=
  translated S Q.orbIdx Q.orbSgn (Q.tr (Q.optidx q) (Q.mpidx q)) (Q.sg (Q.optidx q) (Q.mpidx q)) (x % Q.Nsite) (y % Q.Nsite)
    * spinCoef (cs (Q.spidx q)) (cc (Q.spidx q)) (ss (Q.spidx q)) (x / Q.Nsite) (y / Q.Nsite)

/-- the pair coefficient of projection `q` in general-Sz mode -/
def pairF (Q : QPPar) (S : Nat → K) (q x y : Nat) : K :=
  S (Q.orbIdx (Q.tr (Q.optidx q) (Q.mpidx q) (x % Q.Nsite) + x / Q.Nsite * Q.Nsite)
      (Q.tr (Q.optidx q) (Q.mpidx q) (y % Q.Nsite) + y / Q.Nsite * Q.Nsite))
    * ((Q.orbSgn (Q.tr (Q.optidx q) (Q.mpidx q) (x % Q.Nsite) + x / Q.Nsite * Q.Nsite)
        (Q.tr (Q.optidx q) (Q.mpidx q) (y % Q.Nsite) + y / Q.Nsite * Q.Nsite)
      * Q.sg (Q.optidx q) (Q.mpidx q) (x % Q.Nsite) * Q.sg (Q.optidx q) (Q.mpidx q) (y % Q.Nsite) : Int) : K)

theorem site_up {N r : Nat} (h : r < N) : r % N = r ∧ r / N = 0 := ⟨Nat.mod_eq_of_lt h, Nat.div_eq_of_lt h⟩

theorem site_dn {N r : Nat} (h : r < N) : (r + N) % N = r ∧ (r + N) / N = 1 := by
  have hN : 0 < N := by omega
  exact ⟨by rw [Nat.add_mod_right, Nat.mod_eq_of_lt h], by rw [Nat.add_div_right _ hN, Nat.div_eq_of_lt h]⟩

theorem orb_split {N x : Nat} (h : x < 2 * N) : (x < N) ∨ (∃ r, r < N ∧ x = r + N) := by
  by_cases q : x < N
  · exact Or.inl q
  · exact Or.inr ⟨x - N, by omega, by omega⟩

theorem slaterStores_all (Q : QPPar) (cs cc ss S : Nat → K) (q : Nat) : ∀ e ∈ slaterStores Q cs cc ss S q, ∃ x y, x < 2 * Q.Nsite ∧
    y < 2 * Q.Nsite ∧ e = (q * (2 * Q.Nsite) * (2 * Q.Nsite) + x * (2 * Q.Nsite) + y, antisym (pairP Q cs cc ss S q) x y) := by
  intro e he
  unfold slaterStores at he
  simp only [List.mem_flatMap, List.mem_range] at he
  obtain ⟨ri, hi, rj, hj, he⟩ := he
  have u1 := site_up hi
  have u2 := site_up hj
  have d1 := site_dn hi
  have d2 := site_dn hj
  simp only [List.mem_cons, List.not_mem_nil, or_false] at he
  rcases he with rfl | rfl | rfl | rfl
  · refine ⟨ri, rj, by omega, by omega, Prod.ext rfl ?_⟩
    simp only [antisym, pairP, translated, u1, u2, spinCoef, if_true]
    push_cast
    ring
  · refine ⟨ri, rj + Q.Nsite, by omega, by omega, Prod.ext rfl ?_⟩
    simp only [antisym, pairP, translated, u1, d2, spinCoef, if_true, one_ne_zero, if_false]
    push_cast
    ring
  · refine ⟨ri + Q.Nsite, rj, by omega, by omega, Prod.ext rfl ?_⟩
    simp only [antisym, pairP, translated, d1, u2, spinCoef, if_true, one_ne_zero, if_false]
    push_cast
    ring
  · refine ⟨ri + Q.Nsite, rj + Q.Nsite, by omega, by omega, Prod.ext rfl ?_⟩
    simp only [antisym, pairP, translated, d1, d2, spinCoef, one_ne_zero, if_false]
    push_cast
    ring

theorem slaterStoresF_all (Q : QPPar) (S : Nat → K) (q : Nat) : ∀ e ∈ slaterStoresF Q S q, ∃ x y, x < 2 * Q.Nsite ∧
    y < 2 * Q.Nsite ∧ e = (q * (2 * Q.Nsite) * (2 * Q.Nsite) + x * (2 * Q.Nsite) + y, antisym (pairF Q S q) x y) := by
  intro e he
  unfold slaterStoresF at he
  simp only [List.mem_flatMap, List.mem_range] at he
  obtain ⟨ri, hi, rj, hj, he⟩ := he
  have u1 := site_up hi
  have u2 := site_up hj
  have d1 := site_dn hi
  have d2 := site_dn hj
  simp only [List.mem_cons, List.not_mem_nil, or_false] at he
  rcases he with rfl | rfl | rfl | rfl
  · refine ⟨ri, rj, by omega, by omega, Prod.ext rfl ?_⟩
    simp only [antisym, pairF, u1, u2, Nat.zero_mul, Nat.add_zero]
    push_cast
    ring
  · refine ⟨ri, rj + Q.Nsite, by omega, by omega, Prod.ext rfl ?_⟩
    simp only [antisym, pairF, u1, d2, Nat.zero_mul, Nat.add_zero, Nat.one_mul]
    push_cast
    ring
  · refine ⟨ri + Q.Nsite, rj, by omega, by omega, Prod.ext rfl ?_⟩
    simp only [antisym, pairF, d1, u2, Nat.zero_mul, Nat.add_zero, Nat.one_mul]
    push_cast
    ring
  · refine ⟨ri + Q.Nsite, rj + Q.Nsite, by omega, by omega, Prod.ext rfl ?_⟩
    simp only [antisym, pairF, d1, d2, Nat.one_mul]
    push_cast
    ring

omit [Field K] in
/-- every entry is stored: the four addresses cover the block -/
theorem stores_cover {N : Nat} {L : List (Nat × K)} {b : Nat} {V : Nat → Nat → K}
    (hall : ∀ e ∈ L, ∃ x y, x < 2 * N ∧ y < 2 * N ∧ e = (b + x * (2 * N) + y, V x y))
    (haddr : ∀ x y, x < 2 * N → y < 2 * N → ∃ e ∈ L, e.1 = b + x * (2 * N) + y) {x y : Nat} (hx : x < 2 * N) (hy : y < 2 * N) :
    (b + x * (2 * N) + y, V x y) ∈ L := by
  obtain ⟨e, he, h⟩ := haddr x y hx hy
  obtain ⟨x', y', h1, h2, rfl⟩ := hall e he
  have : x' * (2 * N) + y' = x * (2 * N) + y := by
    have h : b + x' * (2 * N) + y' = b + x * (2 * N) + y := h
    omega
  obtain ⟨rfl, rfl⟩ := flat2_inj h2 hy this
  exact he

theorem slaterStores_addr (Q : QPPar) (cs cc ss S : Nat → K) (q : Nat) {x y : Nat} (hx : x < 2 * Q.Nsite) (hy : y < 2 * Q.Nsite) :
    ∃ e ∈ slaterStores Q cs cc ss S q, e.1 = q * (2 * Q.Nsite) * (2 * Q.Nsite) + x * (2 * Q.Nsite) + y := by
  unfold slaterStores
  simp only [List.mem_flatMap, List.mem_range]
  rcases orb_split hx with h1 | ⟨r1, h1, rfl⟩ <;> rcases orb_split hy with h2 | ⟨r2, h2, rfl⟩
  · exact ⟨_, ⟨x, h1, y, h2, List.mem_cons_self⟩, rfl⟩
  · exact ⟨_, ⟨x, h1, r2, h2, List.mem_cons_of_mem _ List.mem_cons_self⟩, rfl⟩
  · exact ⟨_, ⟨r1, h1, y, h2, List.mem_cons_of_mem _ (List.mem_cons_of_mem _ List.mem_cons_self)⟩, rfl⟩
  · exact ⟨_, ⟨r1, h1, r2, h2, List.mem_cons_of_mem _ (List.mem_cons_of_mem _ (List.mem_cons_of_mem _ List.mem_cons_self))⟩, rfl⟩

theorem slaterStoresF_addr (Q : QPPar) (S : Nat → K) (q : Nat) {x y : Nat} (hx : x < 2 * Q.Nsite) (hy : y < 2 * Q.Nsite) :
    ∃ e ∈ slaterStoresF Q S q, e.1 = q * (2 * Q.Nsite) * (2 * Q.Nsite) + x * (2 * Q.Nsite) + y := by
  unfold slaterStoresF
  simp only [List.mem_flatMap, List.mem_range]
  rcases orb_split hx with h1 | ⟨r1, h1, rfl⟩ <;> rcases orb_split hy with h2 | ⟨r2, h2, rfl⟩
  · exact ⟨_, ⟨x, h1, y, h2, List.mem_cons_self⟩, rfl⟩
  · exact ⟨_, ⟨x, h1, r2, h2, List.mem_cons_of_mem _ List.mem_cons_self⟩, rfl⟩
  · exact ⟨_, ⟨r1, h1, y, h2, List.mem_cons_of_mem _ (List.mem_cons_of_mem _ List.mem_cons_self)⟩, rfl⟩
  · exact ⟨_, ⟨r1, h1, r2, h2, List.mem_cons_of_mem _ (List.mem_cons_of_mem _ (List.mem_cons_of_mem _ List.mem_cons_self))⟩, rfl⟩

omit [Field K] in
theorem blocks_val {n nq : Nat} {V : Nat → Nat → Nat → K} {st : Nat → List (Nat × K)}
    (hall : ∀ q, ∀ e ∈ st q, ∃ x y, x < n ∧ y < n ∧ e = (q * n * n + x * n + y, V q x y))
    (hex : ∀ q x y, x < n → y < n → (q * n * n + x * n + y, V q x y) ∈ st q) {evs : List (Nat × K)}
    (hp : evs.Perm ((List.range nq).flatMap st)) (a : Nat → K) {q x y : Nat} (hq : q < nq) (hx : x < n) (hy : y < n) :
    entry n (runStores evs a) q x y = V q x y := by
  unfold entry
  refine runStores_block (nq := nq) (V := V) ?_ ?_ a hq hx hy
  · intro e he
    obtain ⟨k, hk, hk'⟩ := List.mem_flatMap.mp (hp.subset he)
    obtain ⟨x, y, h1, h2, h3⟩ := hall k e hk'
    exact ⟨k, x, y, List.mem_range.mp hk, h1, h2, h3⟩
  · intro k x y hk hx hy
    exact hp.symm.subset (List.mem_flatMap.mpr ⟨k, List.mem_range.mpr hk, hex k x y hx hy⟩)

/-- the computed pair matrix, for any order of the stores -/
theorem slater_entry (Q : QPPar) (cs cc ss S : Nat → K) {evs : List (Nat × K)}
    (hp : evs.Perm ((List.range Q.nFull).flatMap (slaterStores Q cs cc ss S))) (a : Nat → K) {q x y : Nat} (hq : q < Q.nFull)
    (hx : x < 2 * Q.Nsite) (hy : y < 2 * Q.Nsite) :
    entry (2 * Q.Nsite) (runStores evs a) q x y = antisym (pairP Q cs cc ss S q) x y :=
  blocks_val (V := fun q => antisym (pairP Q cs cc ss S q)) (fun q => slaterStores_all Q cs cc ss S q)
    (fun q _ _ hx hy => stores_cover (slaterStores_all Q cs cc ss S q) (fun _ _ h1 h2 => slaterStores_addr Q cs cc ss S q h1 h2) hx hy)
    hp a hq hx hy

theorem slaterF_entry (Q : QPPar) (S : Nat → K) {evs : List (Nat × K)}
    (hp : evs.Perm ((List.range Q.nFull).flatMap (slaterStoresF Q S))) (a : Nat → K) {q x y : Nat} (hq : q < Q.nFull)
    (hx : x < 2 * Q.Nsite) (hy : y < 2 * Q.Nsite) :
    entry (2 * Q.Nsite) (runStores evs a) q x y = antisym (pairF Q S q) x y :=
  blocks_val (V := fun q => antisym (pairF Q S q)) (fun q => slaterStoresF_all Q S q)
    (fun q _ _ hx hy => stores_cover (slaterStoresF_all Q S q) (fun _ _ h1 h2 => slaterStoresF_addr Q S q h1 h2) hx hy)
    hp a hq hx hy

end

end MVMC
