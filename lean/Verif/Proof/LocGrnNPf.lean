import Verif.Spec.GreenN
import Verif.Proof.PfaffianSchur
import Verif.Proof.PfSampler
import Verif.Model.LocGrnN

/-! The Pfaffian of `n` moved electrons as computed by `calculateNewPfMN`. -/
namespace MVMC
open MVMC.Spec

section scale
variable {α R : Type} [CommRing R]

theorem altSum_scale (d f : α → R) : ∀ (l : List α) (G : List α → R),
    altSum (fun y => d y * f y) (fun m => (m.map d).prod * G m) l = (l.map d).prod * altSum f G l
  | [], G => by simp [altSum]
  | y :: l, G => by
    rw [altSum_cons', altSum_cons']
    have : (fun m => ((y :: m).map d).prod * G (y :: m)) = fun m => d y * ((m.map d).prod * G (y :: m)) := by
      funext m; rw [List.map_cons, List.prod_cons]; ring
    rw [this, altSum_smul, altSum_scale d f l (fun m => G (y :: m)), List.map_cons, List.prod_cons]
    ring

/-- scaling of rows and columns -/
theorem pf_scale (c : R) (d : α → R) (A : α → α → R) : ∀ (n : Nat) (l : List α), l.length ≤ n →
    pf (fun x y => c * d x * d y * A x y) l = c ^ (l.length / 2) * (l.map d).prod * pf A l
  | _, [], _ => by simp [pf_nil]
  | n + 1, [x], _ => by simp [pf_cons, altSum]
  | n + 1, x :: y :: l, h => by
    simp only [List.length_cons] at h
    rw [pf_cons, pf_cons]
    have e1 : altSum (fun z => c * d x * d z * A x z) (pf fun x y => c * d x * d y * A x y) (y :: l)
        = altSum (fun z => d z * (c * d x * A x z)) (fun m => (m.map d).prod * (c ^ (l.length / 2) * pf A m)) (y :: l) := by
      rw [show (fun z => c * d x * d z * A x z) = fun z => d z * (c * d x * A x z) by funext z; ring]
      apply altSum_congr
      intro m hm
      simp only [List.length_cons] at hm
      rw [pf_scale c d A n m (by omega), show m.length = l.length by omega]
      ring
    rw [e1, altSum_scale, altSum_smul_left, altSum_smul]
    simp only [List.length_cons, List.map_cons, List.prod_cons]
    rw [show (l.length + 1 + 1) / 2 = l.length / 2 + 1 by omega, pow_succ]
    ring

end scale

variable {K : Type} [Field K]

theorem neg_one_pow_parity (m : Nat) : (if m % 2 = 0 then (1 : K) else -1) = (-1) ^ m := by
  rcases Nat.even_or_odd m with h | h
  · rw [if_pos (Nat.even_iff.mp h), h.neg_one_pow]
  · rw [if_neg (by rw [Nat.odd_iff.mp h]; decide), h.neg_one_pow]

/-- `n` rows, kernel antisymmetric on the valid indices only -/
theorem pfOf_changeN {n M : Nat} {A : Nat → Nat → K} (hsk : SkewOn (· < M) A) {rs rs' : Nat → Nat} (hrs : ∀ i, i < n → rs i < M)
    (hrs' : ∀ i, i < n → rs' i < M) {N : Nat → Nat → K} (hN : IsInv A n rs N)
    {t : Nat} {m : Nat → Nat} (hm : ∀ k, k < t → m k < n) (hinj : ∀ k, k < t → ∀ l, l < t → m k = m l → k = l)
    (hs : ∀ i, i < n → (∀ k, k < t → m k ≠ i) → rs' i = rs i) (Q : Nat → Nat → K)
    (h11 : ∀ k, k < t → ∀ l, l < t → Q k l = A (rs' (m k)) (rs' (m l)) +
      ∑ i ∈ Finset.range n, (∑ j ∈ Finset.range n, N i j * A (rs' (m l)) (rs' j)) * A (rs' (m k)) (rs' i))
    (h12 : ∀ k, k < t → ∀ l, l < t → Q k (t + l) = ∑ i ∈ Finset.range n, A (rs' (m k)) (rs' i) * N i (m l))
    (h21 : ∀ k, k < t → ∀ l, l < t → Q (t + k) l = - Q l (t + k))
    (h22 : ∀ k, k < t → ∀ l, l < t → Q (t + k) (t + l) = N (m k) (m l)) :
    pfOf A n rs' = (-1) ^ (t * (t - 1) / 2) * pfOf Q (2 * t) id * pfOf A n rs := by
  rw [← lift_pf hrs, ← lift_pf hrs']
  have c : ∀ k, k < t → ∀ j, j < n → cut (· < M) A (rs' (m k)) (rs' j) = A (rs' (m k)) (rs' j) :=
    fun k hk j hj => cut_eq (S := (· < M)) (hrs' _ (hm k hk)) (hrs' j hj)
  refine pfOf_updateN hsk.cut (lift_inv hsk hrs hN) hm hinj hs Q ?_ ?_ h21 h22
  · intro k hk l hl
    rw [h11 k hk l hl, c k hk (m l) (hm l hl)]
    congr 1
    refine Finset.sum_congr rfl (fun i hi => ?_)
    rw [c k hk i (Finset.mem_range.mp hi)]
    congr 1
    exact Finset.sum_congr rfl (fun j hj => by rw [c l hl j (Finset.mem_range.mp hj)])
  · intro k hk l hl
    rw [h12 k hk l hl]
    exact Finset.sum_congr rfl (fun i hi => by rw [c k hk i (Finset.mem_range.mp hi)])

theorem rsOf_occ {p : PfPar} (idx : Arr) {i : Nat} (hi : i < 2 * p.Ne) : rsOf p idx i = occSz p.Ne p.Nsite idx i := by
  unfold rsOf occSz
  by_cases h : i < p.Ne
  · rw [if_pos h, Nat.div_eq_of_lt h]; simp
  · rw [if_neg h]
    have : i / p.Ne = 1 := by
      apply Nat.div_eq_of_lt_le <;> omega
    rw [this]; simp

/-- **the `2n × 2n` Pfaffian formula of `locgrn_real.c` is exact for every `n`** -/
theorem calculateNewPfMN_ok {p : PfPar} {pfa : Nat → (Nat → K) → K} (hpfa : PfaOK pfa) {slt : Nat → K} {st : PfState K}
    {nq q n : Nat} {idx idx' : Arr} {ms : Nat → Nat} (hsk : SlaterSkew p.Nsite2 slt q) (hi : OnSites p.Nsize p.Nsite idx)
    (hi' : OnSites p.Nsize p.Nsite idx') (hm : ∀ k, k < n → ms k < p.Nsize)
    (hinj : ∀ k, k < n → ∀ l, l < n → ms k = ms l → k = l)
    (hsame : ∀ i, i < p.Nsize → (∀ k, k < n → ms k ≠ i) → idx' i = idx i) (hq : q < nq)
    (hok : PfOK p.Nsize p.Nsite2 slt 0 nq (occSz p.Ne p.Nsite idx) st.pfM st.invM) :
    calculateNewPfMN p pfa slt n ms idx' st q = pfOf (entry p.Nsite2 slt q) p.Nsize (occSz p.Ne p.Nsite idx') := by
  set A := entry p.Nsite2 slt q with hA
  set N := entry p.Nsize st.invM q with hNd
  set rs' := occSz p.Ne p.Nsite idx' with hrs'
  have hsA : SkewOn (· < p.Nsite2) A := slaterSkew_on hsk
  obtain ⟨hpf, hinv⟩ := hok q hq
  rw [Nat.add_zero] at hpf hinv
  have lt1 : ∀ i, i < p.Nsize → occSz p.Ne p.Nsite idx i < p.Nsite2 := fun i h => occ_lt hi h
  have lt2 : ∀ i, i < p.Nsize → rs' i < p.Nsite2 := fun i h => occ_lt hi' h
  have Nsk : ∀ i, i < p.Nsize → ∀ j, j < p.Nsize → N i j = - N j i := inv_skew_on hsA lt1 hinv
  have Ndg : ∀ i, i < p.Nsize → N i i = 0 := isInv_diag hsA.cut (lift_inv hsA lt1 hinv)
  -- the kernel with the conventions of `pfOf_updateN`
  set X : Nat → Nat → K := fun k l => A (rs' (ms k)) (rs' (ms l)) + ∑ i ∈ Finset.range p.Nsize,
    (∑ j ∈ Finset.range p.Nsize, N i j * A (rs' (ms l)) (rs' j)) * A (rs' (ms k)) (rs' i) with hX
  set Y : Nat → Nat → K := fun k l => ∑ i ∈ Finset.range p.Nsize, A (rs' (ms k)) (rs' i) * N i (ms l) with hY
  set Q : Nat → Nat → K := fun a b => if a < n then (if b < n then X a b else Y a (b - n))
    else (if b < n then - Y b (a - n) else N (ms (a - n)) (ms (b - n))) with hQ
  have main := pfOf_changeN hsA lt1 lt2 hinv hm hinj (fun i h h' => by rw [hrs']; unfold occSz; rw [hsame i h h']) Q
    (fun k hk l hl => by rw [hQ]; simp only [if_pos hk, if_pos hl]; rfl)
    (fun k hk l hl => by
      rw [hQ]
      simp only [if_pos hk]
      rw [if_neg (by omega), Nat.add_sub_cancel_left])
    (fun k hk l hl => by
      rw [hQ]
      simp only [if_pos hl]
      rw [if_neg (by omega), if_neg (by omega), Nat.add_sub_cancel_left])
    (fun k hk l hl => by
      rw [hQ]
      simp only
      rw [if_neg (by omega), if_neg (by omega), Nat.add_sub_cancel_left, Nat.add_sub_cancel_left])
  -- `X` is antisymmetric
  have Xsk : ∀ k, k < n → ∀ l, l < n → X k l = - X l k := by
    intro k hk l hl
    rw [hX]
    simp only
    rw [hsA.neg _ _ (lt2 _ (hm k hk)) (lt2 _ (hm l hl)), neg_add]
    congr 1
    simp only [Finset.sum_mul]
    rw [Finset.sum_comm, ← Finset.sum_neg_distrib]
    refine Finset.sum_congr rfl (fun i hi => ?_)
    rw [← Finset.sum_neg_distrib]
    refine Finset.sum_congr rfl (fun j hj => ?_)
    rw [Nsk j (Finset.mem_range.mp hj) i (Finset.mem_range.mp hi)]
    ring
  have Xdg : ∀ k, k < n → X k k = 0 := by
    intro k hk
    rw [hX]
    simp only
    rw [hsA.diag _ (lt2 _ (hm k hk)), zero_add]
    have := quad_zero p.Nsize N Nsk Ndg (fun i => A (rs' (ms k)) (rs' i))
    rw [← this]
    exact Finset.sum_congr rfl (fun i _ => by ring)
  -- the stored upper triangle
  have up : ∀ a b, a < 2 * n → b < 2 * n → a < b → newPfMNUpper p slt n ms idx' st q a b =
      (if a < n then (1 : K) else -1) * (if b < n then (1 : K) else -1) * Q a b := by
    intro a b ha hb hab
    have sl : ∀ i j, i < p.Nsize → j < p.Nsize → sltAt p slt q (rsOf p idx' i) (rsOf p idx' j) = A (rs' i) (rs' j) := by
      intro i j h h'
      rw [rsOf_occ idx' h, rsOf_occ idx' h']; rfl
    unfold newPfMNUpper
    simp only
    rw [hQ]
    simp only
    by_cases h1 : a < n <;> by_cases h2 : b < n
    · simp only [if_pos h1, if_pos h2, one_mul]
      rw [hX]
      simp only
      rw [sumLoop_eq, sl _ _ (hm a h1) (hm b h2), add_comm]
      congr 1
      refine Finset.sum_congr rfl (fun i hi => ?_)
      have hi := Finset.mem_range.mp hi
      rw [sl _ _ (hm a h1) hi, sumLoop_eq]
      congr 1
      refine Finset.sum_congr rfl (fun j hj => ?_)
      rw [sl _ _ (hm b h2) (Finset.mem_range.mp hj)]; rfl
    · simp only [if_pos h1, if_neg h2, one_mul]
      rw [hY]
      simp only
      rw [sumLoop_eq, Finset.mul_sum]
      refine Finset.sum_congr rfl (fun i hi => ?_)
      have hi := Finset.mem_range.mp hi
      rw [sl _ _ (hm a h1) hi, Nsk i hi _ (hm (b - n) (by omega))]
      show A (rs' (ms a)) (rs' i) * N (ms (b - n)) i = _
      ring
    · omega
    · simp only [if_neg h1, if_neg h2]
      show N (ms (a - n)) (ms (b - n)) = _
      ring
  have Qsk : ∀ a b, a < 2 * n → b < 2 * n → Q a b = - Q b a := by
    intro a b ha hb
    rw [hQ]
    simp only
    by_cases h1 : a < n <;> by_cases h2 : b < n
    · simp only [if_pos h1, if_pos h2]; exact Xsk a h1 b h2
    · simp only [if_pos h1, if_neg h2, neg_neg]
    · simp only [if_neg h1, if_pos h2]
    · simp only [if_neg h1, if_neg h2]; exact Nsk _ (hm _ (by omega)) _ (hm _ (by omega))
  have Qdg : ∀ a, a < 2 * n → Q a a = 0 := by
    intro a ha
    rw [hQ]
    simp only
    by_cases h1 : a < n
    · simp only [if_pos h1]; exact Xdg a h1
    · simp only [if_neg h1]; exact Ndg _ (hm _ (by omega))
  have mat : ∀ a b, a < 2 * n → b < 2 * n → newPfMNMat p slt n ms idx' st q a b =
      (if a < n then (1 : K) else -1) * (if b < n then (1 : K) else -1) * Q a b := by
    intro a b ha hb
    unfold newPfMNMat
    by_cases h1 : b < a
    · rw [if_pos h1, up b a hb ha h1, Qsk a b ha hb]; ring
    rw [if_neg h1]
    by_cases h2 : a = b
    · rw [if_pos h2, h2, Qdg b hb, mul_zero]
    · rw [if_neg h2, up a b ha hb (by omega)]
  -- the array that the library sees
  set b : Nat → K := fun a => newPfMNMat p slt n ms idx' st q (a / (2 * n)) (a % (2 * n)) with hb
  have bval : ∀ i j, i < 2 * n → j < 2 * n → b (i + 2 * n * j) =
      (if j < n then (1 : K) else -1) * (if i < n then (1 : K) else -1) * Q j i := by
    intro i j hi hj
    rw [hb]
    simp only
    have e1 : (i + 2 * n * j) / (2 * n) = j := by
      rw [Nat.add_mul_div_left _ _ (by omega), Nat.div_eq_of_lt hi, Nat.zero_add]
    have e2 : (i + 2 * n * j) % (2 * n) = i := by
      rw [Nat.add_mul_mod_self_left, Nat.mod_eq_of_lt hi]
    rw [e1, e2, mat j i hj hi]
  have pfv : pfa (2 * n) b = pfOf Q (2 * n) id := by
    rw [hpfa (2 * n) b (fun i j hi hj => by rw [bval i j hi hj, bval j i hj hi, Qsk j i hj hi]; ring)
      (fun i hi => by rw [bval i i hi hi, Qdg i hi, mul_zero])]
    have e1 : pfOf (fun i j => b (i + 2 * n * j)) (2 * n) id
        = pfOf (fun i j => (-1) * (if i < n then (1 : K) else -1) * (if j < n then (1 : K) else -1) * Q i j) (2 * n) id := by
      refine pfOf_congr (fun _ _ => rfl) (fun i hi j hj => ?_)
      simp only [id]
      rw [bval i j hi hj, Qsk j i hj hi]; ring
    rw [e1]
    unfold pfOf
    rw [pf_scale (-1) (fun i => if i < n then (1 : K) else -1) Q _ _ (Nat.le_refl _)]
    rw [List.length_map, List.length_range, List.map_map, Nat.mul_div_cancel_left n (by norm_num : 0 < 2)]
    have e2 : ((List.range (2 * n)).map ((fun i => if i < n then (1 : K) else -1) ∘ id)).prod = (-1) ^ n := by
      rw [two_mul, List.range_add, List.map_append, List.prod_append, List.map_map]
      rw [List.map_congr_left (g := fun _ => (1 : K)) (fun i hi => by
        simp only [Function.comp, id]; rw [if_pos (List.mem_range.mp hi)])]
      rw [List.map_congr_left (l := List.range n) (f := ((fun i => if i < n then (1 : K) else -1) ∘ id) ∘ fun x => n + x)
        (g := fun _ => (-1 : K)) (fun i hi => by simp only [Function.comp, id]; rw [if_neg (by omega)])]
      simp
    rw [e2, ← mul_pow]
    simp
  unfold calculateNewPfMN
  simp only
  rw [neg_one_pow_parity, main, ← hpf]
  congr 2

end MVMC
