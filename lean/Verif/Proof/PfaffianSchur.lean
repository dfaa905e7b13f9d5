import Verif.Proof.PfUpdateTwo

/-! Pfaffian of an enlarged or partly replaced list in terms of a small Pfaffian. -/
namespace MVMC
open Spec

variable {α R : Type} [CommRing R]

theorem altSum_zero_left {c : α → R} : ∀ {F : List α → R} {l : List α}, (∀ x ∈ l, c x = 0) → altSum c F l = 0
  | _, [], _ => rfl
  | F, y :: l, h => by
    rw [altSum_cons', h y (by simp), altSum_zero_left (F := fun m => F (y :: m)) (fun x hx => h x (by simp [hx]))]
    ring

/-- partners outside a prefix do not contribute -/
theorem altSum_prefix {c : α → R} {z : List α} (hz : ∀ x ∈ z, c x = 0) : ∀ (w : List α) (F : List α → R),
    altSum c F (w ++ z) = altSum c (fun m => F (m ++ z)) w
  | [], F => by rw [List.nil_append, altSum_zero_left hz]; rfl
  | y :: w, F => by
    rw [List.cons_append, altSum_cons', altSum_cons', altSum_prefix hz w (fun m => F (y :: m))]
    rfl

/-- only one partner contributes -/
theorem altSum_single {c : α → R} {x : α} {s : List α} (hs : ∀ y ∈ s, c y = 0) : ∀ (p : List α) (F : List α → R),
    (∀ y ∈ p, c y = 0) → altSum c F (p ++ x :: s) = (-1) ^ p.length * (c x * F (p ++ s))
  | [], F, _ => by rw [List.nil_append, altSum_cons', altSum_zero_left hs]; simp
  | y :: p, F, hp => by
    rw [List.cons_append, altSum_cons', hp y (by simp),
      altSum_single hs p (fun m => F (y :: m)) (fun z hz => hp z (by simp [hz]))]
    simp only [List.length_cons, List.cons_append, pow_succ]
    ring

/-- **Schur complement**: `Pf(w ++ z) = Pf_K(w) · Pf(z)` with `K = A - A_{·z} A_zz⁻¹ A_{z·}`. -/
theorem pf_schur {A : α → α → R} (hA : Skew A) {n : Nat} {rs : Nat → α} {N : Nat → Nat → R} (hN : IsInv A n rs N) :
    ∀ (k : Nat) (w : List α), w.length ≤ k → pf A (w ++ (List.range n).map rs) =
      pf (fun a b => A a b - ∑ j ∈ Finset.range n, (∑ i ∈ Finset.range n, A a (rs i) * N i j) * A (rs j) b) w * pfOf A n rs
  | _, [], _ => by rw [List.nil_append, pf_nil, one_mul]; rfl
  | k + 1, a :: w, hk => by
    simp only [List.length_cons] at hk
    rw [List.cons_append, pf_cons, pf_cons]
    set K : α → α → R := fun a b => A a b - ∑ j ∈ Finset.range n, (∑ i ∈ Finset.range n, A a (rs i) * N i j) * A (rs j) b
      with hK
    set z := (List.range n).map rs with hz
    have e1 : altSum (A a) (pf A) (w ++ z) = altSum (K a) (pf A) (w ++ z) := by
      have e2 : A a = fun y => K a y + ∑ j ∈ Finset.range n, (∑ i ∈ Finset.range n, A a (rs i) * N i j) * A (rs j) y := by
        funext y; rw [hK]; ring
      conv_lhs => rw [e2]
      rw [altSum_add_left, altSum_sum_left]
      rw [Finset.sum_eq_zero, add_zero]
      intro j hj
      rw [← pf_cons]
      have : rs j ∈ z := List.mem_map.mpr ⟨j, List.mem_range.mpr (Finset.mem_range.mp hj), rfl⟩
      rw [pf_eq_zero_of_not_nodup hA, mul_zero]
      rw [List.nodup_cons]
      exact fun h => h.1 (List.mem_append_right _ this)
    have e3 : ∀ x ∈ z, K a x = 0 := by
      intro x hx
      obtain ⟨j, hj, rfl⟩ := List.mem_map.mp hx
      have hj := List.mem_range.mp hj
      rw [hK]
      simp only [Finset.sum_mul]
      rw [Finset.sum_comm]
      have : ∀ i ∈ Finset.range n, ∑ k ∈ Finset.range n, A a (rs i) * N i k * A (rs k) (rs j) =
          A a (rs i) * if i = j then 1 else 0 := by
        intro i hi
        rw [← hN i (Finset.mem_range.mp hi) j hj, Finset.mul_sum]
        exact Finset.sum_congr rfl (fun _ _ => by ring)
      rw [Finset.sum_congr rfl this]
      simp [hj]
    rw [e1, altSum_prefix e3]
    rw [altSum_congr (G := fun m => pfOf A n rs * pf K m)]
    · rw [altSum_smul]; ring
    · intro m hm
      rw [pf_schur hA hN k m (by omega)]
      ring

/-- A symbol `d` that pairs only with `x` moves its left neighbour onto the place of `x`. -/
theorem pf_pick {B : α → α → R} (hB : Skew B) {d x r : α} {W p s : List α} (hx : B d x = 1) (hr : B d r = 0)
    (hW : ∀ y ∈ W, B d y = 0) (hp : ∀ y ∈ p, B d y = 0) (hs : ∀ y ∈ s, B d y = 0) :
    pf B (W ++ r :: d :: (p ++ x :: s)) = pf B (W ++ (p ++ r :: s)) := by
  have e1 : W ++ r :: d :: (p ++ x :: s) = (W ++ [r]) ++ d :: (p ++ x :: s) := by simp
  rw [e1, pf_front hB, pf_cons]
  have e2 : W ++ [r] ++ (p ++ x :: s) = (W ++ r :: p) ++ x :: s := by simp
  rw [e2, altSum_single hs _ _ (by
    intro y hy
    simp only [List.mem_append, List.mem_cons] at hy
    rcases hy with h | rfl | h
    · exact hW y h
    · exact hr
    · exact hp y h), hx]
  have e3 := pf_move hB p W r s
  rw [← List.append_assoc W p, e3]
  simp only [List.length_append, List.length_cons, List.length_nil]
  have e4 : ((-1 : R) ^ (W.length + (0 + 1))) * ((-1) ^ (W.length + (p.length + 1))) = (-1) ^ p.length := by
    rw [← pow_add]
    have : W.length + (0 + 1) + (W.length + (p.length + 1)) = 2 * (W.length + 1) + p.length := by ring
    rw [this, pow_add, pow_mul]; simp
  rw [one_mul, ← mul_assoc, e4]

/-- `t` such symbols -/
theorem pf_replace {B : α → α → R} (hB : Skew B) {n : Nat} {ρ d : Nat → α} {m : Nat → Nat} : ∀ (t : Nat) (z z' : Nat → α),
    (∀ k, k < t → m k < n) → (∀ k, k < t → ∀ l, l < t → m k = m l → k = l) →
    (∀ k, k < t → B (d k) (z (m k)) = 1) → (∀ k, k < t → ∀ i, i < n → i ≠ m k → B (d k) (z i) = 0) →
    (∀ k, k < t → ∀ l, l < t → B (d k) (ρ l) = 0) → (∀ k, k < t → ∀ l, l < t → B (d k) (d l) = 0) →
    (∀ k, k < t → z' (m k) = ρ k) → (∀ i, i < n → (∀ k, k < t → m k ≠ i) → z' i = z i) →
    pf B ((List.range t).map ρ ++ ((List.range t).map d ++ (List.range n).map z)) =
      (-1) ^ (t * (t - 1) / 2) * pf B ((List.range n).map z') := by
  intro t
  induction t with
  | zero =>
    intro z z' _ _ _ _ _ _ _ h
    have : (List.range n).map z' = (List.range n).map z :=
      List.map_congr_left (fun i hi => h i (List.mem_range.mp hi) (fun k hk => absurd hk (Nat.not_lt_zero k)))
    simp [this]
  | succ t ih =>
    intro z z' hm hinj h1 h0 hρ hd hz' hz''
    obtain ⟨p, s, hps⟩ := List.append_of_mem (List.mem_range.mpr (hm t (by omega)))
    have hnd : (p ++ m t :: s).Nodup := hps ▸ List.nodup_range
    have hlt : ∀ i ∈ p ++ m t :: s, i < n := fun i hi => List.mem_range.mp (hps ▸ hi)
    have hnp : m t ∉ p := fun h => by
      rw [List.nodup_append] at hnd; exact hnd.2.2 _ h _ (by simp) rfl
    have hns : m t ∉ s := fun h => by
      rw [List.nodup_append, List.nodup_cons] at hnd; exact hnd.2.1.1 h
    set z1 : Nat → α := fun i => if i = m t then ρ t else z i with hz1
    have ep : p.map z1 = p.map z :=
      List.map_congr_left (fun i hi => by rw [hz1]; exact if_neg (by rintro rfl; exact hnp hi))
    have es : s.map z1 = s.map z :=
      List.map_congr_left (fun i hi => by rw [hz1]; exact if_neg (by rintro rfl; exact hns hi))
    have ez1 : (List.range n).map z1 = p.map z ++ ρ t :: s.map z := by
      rw [hps, List.map_append, List.map_cons, ep, es, hz1]; simp
    have key : pf B ((List.range (t + 1)).map ρ ++ ((List.range (t + 1)).map d ++ (List.range n).map z)) =
        (-1) ^ t * pf B ((List.range t).map ρ ++ ((List.range t).map d ++ (List.range n).map z1)) := by
      rw [ez1, hps, List.map_append, List.map_cons, List.range_succ, List.map_append, List.map_append]
      simp only [List.map_cons, List.map_nil]
      have e1 : List.map ρ (List.range t) ++ [ρ t] ++ (List.map d (List.range t) ++ [d t] ++ (List.map z p ++ z (m t) :: List.map z s))
          = List.map ρ (List.range t) ++ ρ t :: List.map d (List.range t) ++ (d t :: (List.map z p ++ z (m t) :: List.map z s)) := by
        simp
      rw [e1]
      have e2 := pf_move hB (List.map d (List.range t)) (List.map ρ (List.range t)) (ρ t)
        (d t :: (List.map z p ++ z (m t) :: List.map z s))
      have e3 : pf B (List.map ρ (List.range t) ++ ρ t :: List.map d (List.range t) ++
          d t :: (List.map z p ++ z (m t) :: List.map z s)) = (-1) ^ t *
          pf B (List.map ρ (List.range t) ++ List.map d (List.range t) ++ ρ t :: d t :: (List.map z p ++ z (m t) :: List.map z s)) := by
        rw [e2, ← mul_assoc, ← pow_add]
        have : (-1 : R) ^ (t + (List.map d (List.range t)).length) = 1 := by
          simp only [List.length_map, List.length_range]
          rw [← two_mul, pow_mul]; simp
        rw [this, one_mul]
      rw [e3, pf_pick hB (h1 t (by omega)) (hρ t (by omega) t (by omega)), List.append_assoc]
      · intro y hy
        simp only [List.mem_append, List.mem_map, List.mem_range] at hy
        rcases hy with ⟨k, hk, rfl⟩ | ⟨k, hk, rfl⟩
        · exact hρ t (by omega) k (by omega)
        · exact hd t (by omega) k (by omega)
      · intro y hy
        obtain ⟨i, hi, rfl⟩ := List.mem_map.mp hy
        exact h0 t (by omega) i (hlt i (by simp [hi])) (by rintro rfl; exact hnp hi)
      · intro y hy
        obtain ⟨i, hi, rfl⟩ := List.mem_map.mp hy
        exact h0 t (by omega) i (hlt i (by simp [hi])) (by rintro rfl; exact hns hi)
    have hne : ∀ k, k < t → m k ≠ m t := fun k hk e => by
      have := hinj k (by omega) t (by omega) e
      omega
    rw [key, ih z1 z' (fun k hk => hm k (by omega)) (fun k hk l hl => hinj k (by omega) l (by omega))
      (fun k hk => by rw [hz1]; simp only [if_neg (hne k hk)]; exact h1 k (by omega))
      (fun k hk i hi hik => by
        rw [hz1]
        by_cases e : i = m t
        · simp only [if_pos e]; exact hρ k (by omega) t (by omega)
        · simp only [if_neg e]; exact h0 k (by omega) i hi hik)
      (fun k hk l hl => hρ k (by omega) l (by omega)) (fun k hk l hl => hd k (by omega) l (by omega))
      (fun k hk => hz' k (by omega))
      (fun i hi h => by
        rw [hz1]
        by_cases e : i = m t
        · simp only [if_pos e]; rw [e]; exact hz' t (by omega)
        · simp only [if_neg e]
          refine hz'' i hi (fun k hk => ?_)
          rcases Nat.lt_succ_iff_lt_or_eq.mp hk with h' | rfl
          · exact h k h'
          · exact fun h' => e h'.symm), ← mul_assoc, ← pow_add]
    congr 2
    have : (t + 1) * (t + 1 - 1) = t * (t - 1) + t * 2 := by
      cases t with
      | zero => rfl
      | succ u => simp only [Nat.add_sub_cancel]; ring
    rw [this, Nat.add_mul_div_right _ _ (by norm_num : 0 < 2)]
    omega

/-- symbols of the enlarged matrix: electrons, new orbitals, removed electrons -/
inductive Sym where
  | x (i : Nat)
  | new (k : Nat)
  | del (k : Nat)

/-- the enlarged matrix -/
def symKernel (A : α → α → R) (rs : Nat → α) (r : Nat → α) (m : Nat → Nat) (v : Nat → Nat → R) : Sym → Sym → R
  | .x i, .x j => A (rs i) (rs j)
  | .x i, .new k => - v k i
  | .x i, .del k => - if i = m k then 1 else 0
  | .new k, .x i => v k i
  | .new k, .new l => A (r k) (r l)
  | .new _, .del _ => 0
  | .del k, .x i => if i = m k then 1 else 0
  | .del _, .new _ => 0
  | .del _, .del _ => 0

theorem symKernel_skew {A : α → α → R} (hA : Skew A) (rs : Nat → α) (r : Nat → α) (m : Nat → Nat) (v : Nat → Nat → R) :
    Skew (symKernel A rs r m v) where
  neg := by
    rintro (i | k | k) (j | l | l) <;> simp only [symKernel, neg_neg, neg_zero]
    · exact hA.neg _ _
    · exact hA.neg _ _
  diag := by rintro (i | k | k) <;> simp [symKernel, hA.diag]

variable {K : Type} [Field K]

/-- **n moved electrons**: electrons `m 0 … m (t-1)` go to the orbitals `rs' (m k)`; `v k i` is the matrix element of the
new orbital `k` with electron `i` in the new configuration. -/
theorem pfOf_updateN {A : α → α → K} (hA : Skew A) {n : Nat} {rs rs' : Nat → α} {N : Nat → Nat → K} (hN : IsInv A n rs N)
    {t : Nat} {m : Nat → Nat} (hm : ∀ k, k < t → m k < n) (hinj : ∀ k, k < t → ∀ l, l < t → m k = m l → k = l)
    (hs : ∀ i, i < n → (∀ k, k < t → m k ≠ i) → rs' i = rs i) (Q : Nat → Nat → K)
    (h11 : ∀ k, k < t → ∀ l, l < t → Q k l = A (rs' (m k)) (rs' (m l)) +
      ∑ i ∈ Finset.range n, (∑ j ∈ Finset.range n, N i j * A (rs' (m l)) (rs' j)) * A (rs' (m k)) (rs' i))
    (h12 : ∀ k, k < t → ∀ l, l < t → Q k (t + l) = ∑ i ∈ Finset.range n, A (rs' (m k)) (rs' i) * N i (m l))
    (h21 : ∀ k, k < t → ∀ l, l < t → Q (t + k) l = - Q l (t + k))
    (h22 : ∀ k, k < t → ∀ l, l < t → Q (t + k) (t + l) = N (m k) (m l)) :
    pfOf A n rs' = (-1) ^ (t * (t - 1) / 2) * pfOf Q (2 * t) id * pfOf A n rs := by
  set v : Nat → Nat → K := fun k i => A (rs' (m k)) (rs' i) with hv
  set B := symKernel A rs (fun k => rs' (m k)) m v with hB
  have hBs : Skew B := symKernel_skew hA _ _ _ _
  have hNB : IsInv B n Sym.x N := by
    intro i hi j hj
    exact hN i hi j hj
  classical
  set z' : Nat → Sym := fun i => if h : ∃ k, k < t ∧ m k = i then .new (Nat.find h) else .x i with hz'
  have hz1 : ∀ k, k < t → z' (m k) = .new k := by
    intro k hk
    have h : ∃ l, l < t ∧ m l = m k := ⟨k, hk, rfl⟩
    rw [hz']
    simp only [dif_pos h]
    have := Nat.find_spec h
    rw [hinj _ this.1 k hk this.2]
  have hz2 : ∀ i, (∀ k, k < t → m k ≠ i) → z' i = .x i := by
    intro i hi
    rw [hz']
    simp only
    rw [dif_neg (by rintro ⟨k, hk, e⟩; exact hi k hk e)]
  have R1 := pf_replace hBs (n := n) (ρ := Sym.new) (d := Sym.del) (m := m) t Sym.x z' hm hinj
    (fun k _ => by simp [hB, symKernel]) (fun k _ i _ h => by simp [hB, symKernel, h])
    (fun k _ l _ => by simp [hB, symKernel]) (fun k _ l _ => by simp [hB, symKernel]) hz1 (fun i _ h => hz2 i h)
  have R2 := pf_schur hBs hNB _ ((List.range t).map Sym.new ++ (List.range t).map Sym.del) (Nat.le_refl _)
  have E1 : pf B ((List.range n).map z') = pfOf A n rs' := by
    unfold pfOf
    rw [pf_map z' B _ _ (Nat.le_refl _), pf_map rs' A _ _ (Nat.le_refl _)]
    apply pf_congr
    have cas : ∀ i, (∃ k, k < t ∧ m k = i) ∨ (∀ k, k < t → m k ≠ i) := by
      intro i
      by_cases h : ∃ k, k < t ∧ m k = i
      · exact Or.inl h
      · exact Or.inr (fun k hk e => h ⟨k, hk, e⟩)
    intro i hi j hj
    have hi := List.mem_range.mp hi
    have hj := List.mem_range.mp hj
    rcases cas i with ⟨k, hk, rfl⟩ | h1 <;> rcases cas j with ⟨l, hl, rfl⟩ | h2
    · rw [hz1 k hk, hz1 l hl]; rfl
    · rw [hz1 k hk, hz2 j h2]; rfl
    · rw [hz1 l hl, hz2 i h1]
      show - A (rs' (m l)) (rs' i) = _
      rw [← hA.neg]
    · rw [hz2 i h1, hz2 j h2, hs i hi h1, hs j hj h2]; rfl
  have E2 : pfOf B n Sym.x = pfOf A n rs := by
    unfold pfOf
    rw [pf_map Sym.x B _ _ (Nat.le_refl _), pf_map rs A _ _ (Nat.le_refl _)]
    rfl
  have E3 : pf (fun a b => B a b - ∑ j ∈ Finset.range n, (∑ i ∈ Finset.range n, B a (.x i) * N i j) * B (.x j) b)
      ((List.range t).map Sym.new ++ (List.range t).map Sym.del) = pfOf Q (2 * t) id := by
    have e : (List.range t).map Sym.new ++ (List.range t).map Sym.del =
        (List.range (2 * t)).map (fun a => if a < t then Sym.new a else Sym.del (a - t)) := by
      rw [two_mul, List.range_add, List.map_append, List.map_map]
      congr 1
      · exact List.map_congr_left (fun i hi => by rw [if_pos (List.mem_range.mp hi)])
      · refine List.map_congr_left (fun i hi => ?_)
        simp only [Function.comp]
        rw [if_neg (by omega)]; congr 1; omega
    unfold pfOf
    rw [e, pf_map _ _ _ _ (Nat.le_refl _), pf_map id Q _ _ (Nat.le_refl _)]
    apply pf_congr
    intro a ha b hb
    have ha := List.mem_range.mp ha
    have hb := List.mem_range.mp hb
    simp only [id]
    have d1 : ∀ l, (m l < n) → ∀ f : Nat → K, ∑ j ∈ Finset.range n, f j * (-if j = m l then 1 else 0) = - f (m l) := by
      intro l hl f
      simp [hl]
    have d2 : ∀ k, (m k < n) → ∀ f : Nat → K, ∑ i ∈ Finset.range n, (if i = m k then 1 else 0) * f i = f (m k) := by
      intro l hl f
      simp [hl]
    by_cases h1 : a < t <;> by_cases h2 : b < t
    · rw [if_pos h1, if_pos h2, h11 a h1 b h2]
      show A _ _ - ∑ j ∈ Finset.range n, (∑ i ∈ Finset.range n, v a i * N i j) * (- v b j) = _
      rw [sub_eq_add_neg, ← Finset.sum_neg_distrib]
      congr 1
      simp only [Finset.sum_mul]
      rw [Finset.sum_congr rfl (fun j _ => by rw [← Finset.sum_neg_distrib])]
      rw [Finset.sum_comm]
      refine Finset.sum_congr rfl (fun i _ => Finset.sum_congr rfl (fun j _ => ?_))
      rw [hv]; ring
    · obtain ⟨l, rfl⟩ : ∃ l, b = t + l := ⟨b - t, by omega⟩
      have hl : l < t := by omega
      rw [if_pos h1, if_neg h2, h12 a h1 l hl, Nat.add_sub_cancel_left]
      show 0 - ∑ j ∈ Finset.range n, (∑ i ∈ Finset.range n, v a i * N i j) * (- if j = m l then 1 else 0) = _
      rw [d1 l (hm l hl)]; ring
    · obtain ⟨k, rfl⟩ : ∃ k, a = t + k := ⟨a - t, by omega⟩
      have hk : k < t := by omega
      rw [if_neg h1, if_pos h2, h21 k hk b h2, h12 b h2 k hk, Nat.add_sub_cancel_left]
      show 0 - ∑ j ∈ Finset.range n, (∑ i ∈ Finset.range n, (if i = m k then 1 else 0) * N i j) * (- v b j) = _
      rw [Finset.sum_congr rfl (fun j _ => by rw [d2 k (hm k hk)]), zero_sub, ← Finset.sum_neg_distrib, ← Finset.sum_neg_distrib]
      refine Finset.sum_congr rfl (fun j hj => ?_)
      have := isInv_skew hA hN (m k) (hm k hk) j (Finset.mem_range.mp hj)
      rw [hv]
      simp only
      rw [this]; ring
    · obtain ⟨k, rfl⟩ : ∃ k, a = t + k := ⟨a - t, by omega⟩
      obtain ⟨l, rfl⟩ : ∃ l, b = t + l := ⟨b - t, by omega⟩
      have hk : k < t := by omega
      have hl : l < t := by omega
      rw [if_neg h1, if_neg h2, h22 k hk l hl, Nat.add_sub_cancel_left, Nat.add_sub_cancel_left]
      show 0 - ∑ j ∈ Finset.range n, (∑ i ∈ Finset.range n, (if i = m k then 1 else 0) * N i j) * (- if j = m l then 1 else 0) = _
      rw [d1 l (hm l hl), d2 k (hm k hk)]; ring
  rw [E1, ← List.append_assoc, R2, E2, E3] at R1
  have sg : ((-1 : K) ^ (t * (t - 1) / 2)) * ((-1) ^ (t * (t - 1) / 2)) = 1 := by
    rw [← mul_pow]; simp
  calc pfOf A n rs' = ((-1 : K) ^ (t * (t - 1) / 2)) * (((-1) ^ (t * (t - 1) / 2)) * pfOf A n rs') := by
        rw [← mul_assoc, sg, one_mul]
    _ = _ := by rw [← R1]; ring

end MVMC
