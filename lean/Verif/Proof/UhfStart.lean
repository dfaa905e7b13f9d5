import Verif.Model.UhfStart
import Verif.Spec.UhfRead
import Verif.Spec.UhfStart
import Verif.Proof.Uhf4
import Verif.Props.Uhf

/-! # The start of the Hartree–Fock iteration -/
namespace MVMC
open Spec

theorem initInner (a : ℕ) (v : ℕ → ℂ) (n : ℕ) : ∀ s : Mat2 × ℕ,
    (List.range n).foldl (fun s j => (setAt2 s.1 a j (v s.2), s.2 + 1)) s =
      (fun i j => if i = a ∧ j < n then v (s.2 + j) else s.1 i j, s.2 + n) := by
  induction n with
  | zero => intro s; simp
  | succ n ih =>
    intro s
    rw [List.range_succ, List.foldl_append, ih]
    simp only [List.foldl_cons, List.foldl_nil, Prod.mk.injEq]
    refine ⟨?_, by omega⟩
    funext i j
    simp only [setAt2]
    by_cases h1 : i = a
    · by_cases h2 : j = n
      · subst h2; simp [h1]
      · by_cases h3 : j < n
        · simp [h1, h2, h3, Nat.lt_succ_of_lt h3]
        · simp [h1, h2, h3, show ¬ j < n + 1 by omega]
    · simp [h1]

theorem initOuter (v : ℕ → ℂ) (m n : ℕ) : ∀ s : Mat2 × ℕ,
    (List.range n).foldl (fun s i => (List.range m).foldl (fun s j => (setAt2 s.1 i j (v s.2), s.2 + 1)) s) s =
      (fun i j => if i < n ∧ j < m then v (s.2 + m * i + j) else s.1 i j, s.2 + m * n) := by
  induction n with
  | zero => intro s; simp
  | succ n ih =>
    intro s
    rw [List.range_succ, List.foldl_append, ih]
    simp only [List.foldl_cons, List.foldl_nil, initInner, Prod.mk.injEq]
    refine ⟨?_, by ring⟩
    funext i j
    by_cases h1 : i = n
    · subst h1
      by_cases h2 : j < m <;> simp [h2]
    · by_cases h3 : i < n
      · simp [h1, h3, Nat.lt_succ_of_lt h3]
      · simp [h1, h3, show ¬ i < n + 1 by omega]

theorem uhfInitRandom_eq (N : ℕ) (d : ℕ → ℕ) :
    uhfInitRandom N d (fun _ _ => 0, 0) = (fun i j => if i < 2 * N ∧ j < 2 * N then ((0.01 * ((d (2 * N * i + j) : ℝ) / 2 ^ 32 - 0.5) : ℝ) : ℂ) else 0,
      (2 * N) ^ 2) := by
  unfold uhfInitRandom
  rw [initOuter (fun k => ((0.01 * ((d k : ℝ) / 2 ^ 32 - 0.5) : ℝ) : ℂ)) (2 * N) (2 * N)]
  simp [sq]

theorem uhfInitLines_spec (N : ℕ) (rs : List URow) : ∀ G : Mat2, (∀ r ∈ rs, ∃ i j v, i < 2 * N ∧ j < 2 * N ∧ UInitRow N r i j v) →
    ∃ G', uhfInitLines N rs G = .ok G' ∧
      (∀ i j, (∀ r ∈ rs, ∀ v, ¬ UInitRow N r i j v) → G' i j = G i j) ∧
      (∀ pre r post i j v, rs = pre ++ r :: post → UInitRow N r i j v → (∀ r' ∈ post, ∀ v', ¬ UInitRow N r' i j v') → G' i j = v) := by
  induction rs with
  | nil => intro G _; exact ⟨G, rfl, fun _ _ _ => rfl, by simp⟩
  | cons r rs ih =>
    intro G h
    obtain ⟨i0, j0, v0, hi, hj, s0, p0, s1, p1, re, im, rfl, e1, e2, e3⟩ := h r (by simp)
    rw [uhfInitLines]
    have hk : (i0 : ℤ) * (2 * N) + j0 = ((i0 * (2 * N) + j0 : ℕ) : ℤ) := by push_cast; ring
    have hlt : i0 * (2 * N) + j0 < 2 * N * (2 * N) := by nlinarith
    have hlt' : ((i0 * (2 * N) + j0 : ℕ) : ℤ) < 2 * N * (2 * N) := by exact_mod_cast hlt
    rw [e1, e2, hk, if_neg (by omega)]
    have q1 : (i0 * (2 * N) + j0) / (2 * N) = i0 := by
      rw [Nat.add_comm, Nat.add_mul_div_right _ _ (by omega), Nat.div_eq_of_lt hj, Nat.zero_add]
    have q2 : (i0 * (2 * N) + j0) % (2 * N) = j0 := by
      rw [Nat.add_comm, Nat.add_mul_mod_self_right, Nat.mod_eq_of_lt hj]
    rw [Int.toNat_natCast, q1, q2, ← e3]
    obtain ⟨G', g1, g2, g3⟩ := ih (setAt2 G i0 j0 v0) (fun x hx => h x (by simp [hx]))
    have huniq : ∀ i j v, UInitRow N ⟨[s0, p0, s1, p1], some re, some im⟩ i j v → i = i0 ∧ j = j0 ∧ v = v0 := by
      rintro i j v ⟨a, b, c, d, x, y, e, f1, f2, f3⟩
      simp only [URow.mk.injEq, List.cons.injEq, Option.some.injEq, and_true] at e
      obtain ⟨⟨rfl, rfl, rfl, rfl⟩, rfl, rfl⟩ := e
      exact ⟨by omega, by omega, by rw [f3, e3]⟩
    refine ⟨G', g1, fun i j hn => ?_, ?_⟩
    · rw [g2 i j (fun x hx => hn x (by simp [hx]))]
      unfold setAt2
      rw [if_neg]
      rintro ⟨rfl, rfl⟩
      exact hn _ (by simp) v0 ⟨s0, p0, s1, p1, re, im, rfl, e1, e2, e3⟩
    · intro pre q post i j v hpre hq hpost
      cases pre with
      | nil =>
        simp only [List.nil_append, List.cons.injEq] at hpre
        obtain ⟨rfl, rfl⟩ := hpre
        obtain ⟨rfl, rfl, rfl⟩ := huniq i j v hq
        rw [g2 _ _ hpost]
        simp [setAt2]
      | cons p pre =>
        simp only [List.cons_append, List.cons.injEq] at hpre
        exact g3 pre q post i j v hpre.2 hq hpost

/-- if all rows of an entry give the same value, the entry has it -/
theorem uhfInitLines_val (N : ℕ) (rs : List URow) {G G' : Mat2} (h : ∀ r ∈ rs, ∃ i j v, i < 2 * N ∧ j < 2 * N ∧ UInitRow N r i j v)
    (hG : uhfInitLines N rs G = .ok G') {i j : ℕ} {v : ℂ} (h1 : ∃ r ∈ rs, UInitRow N r i j v) (h2 : ∀ r ∈ rs, ∀ w, UInitRow N r i j w → w = v) : G' i j = v := by
  classical
  obtain ⟨G'', g1, g2, g3⟩ := uhfInitLines_spec N rs G h
  rw [g1] at hG
  cases hG
  have key : ∀ l : List URow, (∃ r ∈ l, UInitRow N r i j v) → (∀ r ∈ l, ∀ w, UInitRow N r i j w → w = v) →
      ∃ pre r post, l = pre ++ r :: post ∧ UInitRow N r i j v ∧ ∀ r' ∈ post, ∀ v', ¬ UInitRow N r' i j v' := by
    intro l
    induction l with
    | nil => rintro ⟨r, hr, _⟩; simp at hr
    | cons x l ih =>
      intro a1 a2
      by_cases c : ∃ r ∈ l, UInitRow N r i j v
      · obtain ⟨pre, r, post, e, b1, b2⟩ := ih c (fun r hr => a2 r (by simp [hr]))
        exact ⟨x :: pre, r, post, by rw [e]; rfl, b1, b2⟩
      · obtain ⟨r, hr, hv⟩ := a1
        rcases List.mem_cons.1 hr with rfl | hr
        · refine ⟨[], r, l, rfl, hv, fun r' hr' v' hv' => c ⟨r', hr', ?_⟩⟩
          rw [← a2 r' (by simp [hr']) v' hv']
          exact hv'
        · exact absurd ⟨r, hr, hv⟩ c
  obtain ⟨pre, r, post, e, b1, b2⟩ := key rs h1 h2
  exact g3 pre r post i j v e b1 b2

/-- where complete rows write -/
theorem uhfInitLines_ub (N : ℕ) (rs : List URow) : ∀ G : Mat2, (∀ r ∈ rs, ∃ s0 p0 s1 p1 re im, r = ⟨[s0, p0, s1, p1], some re, some im⟩) →
    (uhfInitLines N rs G = .ub ↔ ∃ s0 p0 s1 p1 re im, (⟨[s0, p0, s1, p1], some re, some im⟩ : URow) ∈ rs ∧
      (s0 + p0 * N < 0 ∨ s0 + p0 * N ≥ 2 * N ∨ (s0 + p0 * N) * (2 * N) + (s1 + p1 * N) < 0 ∨ (s0 + p0 * N) * (2 * N) + (s1 + p1 * N) ≥ 2 * N * (2 * N))) := by
  induction rs with
  | nil => intro G _; simp [uhfInitLines]
  | cons r rs ih =>
    intro G h
    obtain ⟨s0, p0, s1, p1, re, im, rfl⟩ := h r (by simp)
    rw [uhfInitLines]
    split_ifs with c
    · simp only [true_iff]
      exact ⟨s0, p0, s1, p1, re, im, by simp, c⟩
    · rw [ih _ (fun x hx => h x (by simp [hx]))]
      constructor
      · rintro ⟨a, b, e, f, x, y, hm, hc⟩
        exact ⟨a, b, e, f, x, y, by simp [hm], hc⟩
      · rintro ⟨a, b, e, f, x, y, hm, hc⟩
        rcases List.mem_cons.1 hm with hm | hm
        · simp only [URow.mk.injEq, List.cons.injEq, Option.some.injEq, and_true] at hm
          obtain ⟨⟨rfl, rfl, rfl, rfl⟩, rfl, rfl⟩ := hm
          exact absurd hc c
        · exact ⟨a, b, e, f, x, y, hm, hc⟩

/-- a good row names an entry of the matrix -/
theorem uInitGood_row {N : ℕ} {r : URow} (h : UInitGood N r) : ∃ i j v, i < 2 * N ∧ j < 2 * N ∧ UInitRow N r i j v := by
  obtain ⟨s0, p0, s1, p1, re, im, h1, h2, h3, h4, rfl⟩ := h
  have a : s0 + p0 * N < 2 * N := by nlinarith
  have b : s1 + p1 * N < 2 * N := by nlinarith
  exact ⟨s0 + p0 * N, s1 + p1 * N, _, a, b, s0, p0, s1, p1, re, im, rfl, by push_cast; ring, by push_cast; ring, rfl⟩

theorem mem_cisajs (N : ℕ) (G : Mat2) (l : List ℕ × ℂ) :
    l ∈ uhfCisajs N G ↔ ∃ s1 p1 s2 p2, s1 < N ∧ p1 < 2 ∧ s2 < N ∧ p2 < 2 ∧ l = ([s1, p1, s2, p2], G (s1 + N * p1) (s2 + N * p2)) := by
  simp only [uhfCisajs, List.mem_flatMap, List.mem_range, List.mem_singleton]
  constructor
  · rintro ⟨a, ha, b, hb, c, hc, d, hd, e⟩
    exact ⟨a, b, c, d, ha, hb, hc, hd, e⟩
  · rintro ⟨a, b, c, d, ha, hb, hc, hd, e⟩
    exact ⟨a, ha, b, hb, c, hc, d, hd, e⟩

theorem cisajs_length (N : ℕ) (G : Mat2) : (uhfCisajs N G).length = (2 * N) ^ 2 := by
  simp [uhfCisajs, List.length_flatMap]
  ring

/-- a list of lists is free of repetitions when a key tells which of them an entry comes from -/
theorem nodup_flatMap_key {A B : Type*} (l : List A) (f : A → List B) (key : B → A) (hl : l.Nodup) (h1 : ∀ x ∈ l, (f x).Nodup)
    (h2 : ∀ x ∈ l, ∀ y ∈ f x, key y = x) : (l.flatMap f).Nodup := by
  rw [List.nodup_flatMap]
  refine ⟨h1, List.Pairwise.imp_of_mem ?_ hl⟩
  intro a b ha hb hab y hy hy'
  exact hab ((h2 a ha y hy).symm.trans (h2 b hb y hy'))

theorem cisajs_nodup (N : ℕ) (G : Mat2) : ((uhfCisajs N G).map Prod.fst).Nodup := by
  have e : (uhfCisajs N G).map Prod.fst = (List.range N).flatMap fun s1 => (List.range 2).flatMap fun p1 => (List.range N).flatMap fun s2 =>
      (List.range 2).flatMap fun p2 => [[s1, p1, s2, p2]] := by
    simp only [uhfCisajs, List.map_flatMap, List.map_cons, List.map_nil]
  rw [e]
  refine nodup_flatMap_key _ _ (fun l => l.getD 0 0) List.nodup_range (fun a _ => ?_) ?_
  · refine nodup_flatMap_key _ _ (fun l => l.getD 1 0) List.nodup_range (fun b _ => ?_) ?_
    · refine nodup_flatMap_key _ _ (fun l => l.getD 2 0) List.nodup_range (fun c _ => ?_) ?_
      · refine nodup_flatMap_key _ _ (fun l => l.getD 3 0) List.nodup_range (fun d _ => by simp) ?_
        intro x _ y hy
        simp only [List.mem_singleton] at hy
        subst hy; rfl
      · intro x _ y hy
        simp only [List.mem_flatMap, List.mem_singleton] at hy
        obtain ⟨_, _, rfl⟩ := hy; rfl
    · intro x _ y hy
      simp only [List.mem_flatMap, List.mem_singleton] at hy
      obtain ⟨_, _, _, _, rfl⟩ := hy; rfl
  · intro x _ y hy
    simp only [List.mem_flatMap, List.mem_singleton] at hy
    obtain ⟨_, _, _, _, _, _, rfl⟩ := hy; rfl

end MVMC
