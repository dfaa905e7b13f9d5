import Verif.Proof.UhfStart
import Verif.Props.UhfRead

/-!
# C82: the start of the Hartree–Fock iteration and its file of Green functions
-/
namespace MVMC
open Spec

/-- C82: without file `Initial` all `(2N)²` Green functions are set, each from its own random number; they are real and lie in `[-0.005, 0.005)`. -/
theorem C82_random (N : ℕ) (rows : List URow) (d : ℕ → ℕ) (hd : ∀ k, d k < 2 ^ 32) :
    ∃ G, uhfInitial N 0 rows d = .ok (G, (2 * N) ^ 2) ∧
      (∀ i < 2 * N, ∀ j < 2 * N, G i j = ((((d (2 * N * i + j) : ℝ) / 2 ^ 32 - 1 / 2) / 100 : ℝ) : ℂ) ∧ (G i j).im = 0 ∧
        -(1 / 200) ≤ (G i j).re ∧ (G i j).re < 1 / 200) ∧
      (∀ i < 2 * N, ∀ j < 2 * N, ∀ i' < 2 * N, ∀ j' < 2 * N, 2 * N * i + j = 2 * N * i' + j' → i = i' ∧ j = j') := by
  have e : uhfInitial N 0 rows d = .ok (uhfInitRandom N d (fun _ _ => 0, 0)) := by
    simp [uhfInitial, uhfInitLines]
  rw [e, uhfInitRandom_eq]
  refine ⟨_, rfl, fun i hi j hj => ?_, ?_⟩
  · rw [if_pos ⟨hi, hj⟩]
    have h1 : (0.01 * ((d (2 * N * i + j) : ℝ) / 2 ^ 32 - 0.5) : ℝ) = ((d (2 * N * i + j) : ℝ) / 2 ^ 32 - 1 / 2) / 100 := by norm_num; ring
    rw [h1]
    have h2 : (d (2 * N * i + j) : ℝ) < 2 ^ 32 := by exact_mod_cast hd _
    have h3 : (0 : ℝ) ≤ (d (2 * N * i + j) : ℝ) / 2 ^ 32 := by positivity
    have h4 : (d (2 * N * i + j) : ℝ) / 2 ^ 32 < 1 := by rw [div_lt_one (by positivity)]; exact h2
    refine ⟨rfl, Complex.ofReal_im _, ?_, ?_⟩
    · rw [Complex.ofReal_re]; linarith
    · rw [Complex.ofReal_re]; linarith
  · intro i _ j hj i' _ j' hj' h
    have m := congrArg (· % (2 * N)) h
    simp only [Nat.mul_add_mod, Nat.mod_eq_of_lt hj, Nat.mod_eq_of_lt hj'] at m
    subst m
    have := Nat.eq_of_mul_eq_mul_left (by omega) (Nat.add_right_cancel h)
    exact ⟨this, rfl⟩

/-- C82: with a file `Initial` of existing sites and spins no random number is used; each Green function has the value of the last row that names it, and is zero if none does. -/
theorem C82_given (N : ℕ) (rows : List URow) (d : ℕ → ℕ) (h0 : rows ≠ []) (h : ∀ r ∈ rows, UInitGood N r) :
    ∃ G, uhfInitial N rows.length rows d = .ok (G, 0) ∧
      (∀ i j, (∀ r ∈ rows, ∀ v, ¬ UInitRow N r i j v) → G i j = 0) ∧
      (∀ pre r post i j v, rows = pre ++ r :: post → UInitRow N r i j v → (∀ r' ∈ post, ∀ v', ¬ UInitRow N r' i j v') → G i j = v) := by
  obtain ⟨G, g1, g2, g3⟩ := uhfInitLines_spec N rows (fun _ _ => 0) (fun r hr => uInitGood_row (h r hr))
  refine ⟨G, ?_, g2, g3⟩
  have hl : ((rows.length : ℕ) : ℤ) ≠ 0 := by
    have := List.length_pos_of_ne_nil h0
    omega
  simp only [uhfInitial, if_neg hl, Int.toNat_natCast, List.take_length, g1]

example : ∃ G, uhfInitial 2 2 [⟨[0, 0, 1, 1], some 1, some 0⟩, ⟨[0, 0, 1, 1], some 2, some 3⟩] (fun _ => 0) = .ok (G, 0) ∧ G 0 3 = ⟨2, 3⟩ ∧ G 3 0 = 0 := by
  refine ⟨_, by simp [uhfInitial, uhfInitLines]; rfl, ?_, ?_⟩ <;> simp [setAt2]

/-- C82: for complete rows the behaviour is undefined iff a row writes outside the matrix, taken as one array; nothing else is checked. -/
theorem C82_given_undefined (N : ℕ) (rows : List URow) (d : ℕ → ℕ) (h0 : rows ≠ [])
    (h : ∀ r ∈ rows, ∃ s0 p0 s1 p1 re im, r = ⟨[s0, p0, s1, p1], some re, some im⟩) :
    uhfInitial N rows.length rows d = .ub ↔ ∃ s0 p0 s1 p1 re im, (⟨[s0, p0, s1, p1], some re, some im⟩ : URow) ∈ rows ∧
      (s0 + p0 * N < 0 ∨ s0 + p0 * N ≥ 2 * N ∨ (s0 + p0 * N) * (2 * N) + (s1 + p1 * N) < 0 ∨ (s0 + p0 * N) * (2 * N) + (s1 + p1 * N) ≥ 2 * N * (2 * N)) := by
  have hl : ((rows.length : ℕ) : ℤ) ≠ 0 := by
    have := List.length_pos_of_ne_nil h0
    omega
  rw [← uhfInitLines_ub N rows (fun _ _ => 0) h]
  simp only [uhfInitial, if_neg hl, Int.toNat_natCast, List.take_length]
  have : uhfInitLines N rows (fun _ _ => 0) = .ub ∨ ∃ G, uhfInitLines N rows (fun _ _ => 0) = .ok G := by
    generalize (fun _ _ => 0 : Mat2) = G
    clear h0 hl
    induction rows generalizing G with
    | nil => exact Or.inr ⟨G, rfl⟩
    | cons r rs ih =>
      obtain ⟨s0, p0, s1, p1, re, im, rfl⟩ := h r (by simp)
      rw [uhfInitLines]
      split_ifs
      · exact Or.inl rfl
      · exact ih (fun x hx => h x (by simp [hx])) _
  rcases this with e | ⟨G, e⟩ <;> simp [e]

/-- C82 is violated by the code for a site that does not exist: site `N` with spin 0 is taken as site 0 with spin 1. -/
theorem C82_site_violated (N : ℕ) (hN : 0 < N) (re im : ℚ) (d : ℕ → ℕ) :
    ∃ G, uhfInitial N 1 [⟨[N, 0, 0, 0], some re, some im⟩] d = .ok (G, 0) ∧ uhfInitial N 1 [⟨[0, 1, 0, 0], some re, some im⟩] d = .ok (G, 0) := by
  have key : ∀ s0 p0 : ℤ, s0 + p0 * N = N → uhfInitial N 1 [⟨[s0, p0, 0, 0], some re, some im⟩] d = .ok (setAt2 (fun _ _ => 0) N 0 ⟨(re : ℝ), (im : ℝ)⟩, 0) := by
    intro s0 p0 h
    have hk : (N : ℤ) * (2 * N) + (0 + 0 * N) = ((N * (2 * N) : ℕ) : ℤ) := by push_cast; ring
    have hlt : ((N * (2 * N) : ℕ) : ℤ) < 2 * N * (2 * N) := by
      have : N * (2 * N) < 2 * N * (2 * N) := by nlinarith
      exact_mod_cast this
    have hl : uhfInitLines N [⟨[s0, p0, 0, 0], some re, some im⟩] (fun _ _ => 0) = .ok (setAt2 (fun _ _ => 0) N 0 ⟨(re : ℝ), (im : ℝ)⟩) := by
      rw [uhfInitLines, h, hk, if_neg (by omega), Int.toNat_natCast, Nat.mul_div_cancel _ (by omega), Nat.mul_mod_left, uhfInitLines]
    simp only [uhfInitial, if_neg (show (1 : ℤ) ≠ 0 by decide), Int.toNat_one, List.take_succ_cons, List.take_zero, hl]
  exact ⟨_, key N 0 (by ring), key 0 1 (by ring)⟩

/-- C82 is violated by the code for a second spin that does not exist: the value is stored in the next row. -/
theorem C82_spin_violated (re im : ℚ) (d : ℕ → ℕ) :
    ∃ G, uhfInitial 1 1 [⟨[0, 0, 0, 2], some re, some im⟩] d = .ok (G, 0) ∧ G 1 0 = ⟨(re : ℝ), (im : ℝ)⟩ ∧ G 0 0 = 0 := by
  refine ⟨_, by simp [uhfInitial, uhfInitLines]; rfl, ?_, ?_⟩ <;> simp [setAt2]

/-- C82: the file of Green functions has one line for each pair of spin orbitals, with the Green function of this pair. -/
theorem C82_output (N : ℕ) (G : Mat2) :
    (uhfCisajs N G).length = (2 * N) ^ 2 ∧ ((uhfCisajs N G).map Prod.fst).Nodup ∧
    (∀ l, l ∈ uhfCisajs N G ↔ ∃ s1 p1 s2 p2, s1 < N ∧ p1 < 2 ∧ s2 < N ∧ p2 < 2 ∧ l = ([s1, p1, s2, p2], G (s1 + p1 * N) (s2 + p2 * N))) := by
  refine ⟨cisajs_length N G, cisajs_nodup N G, fun l => ?_⟩
  rw [mem_cisajs]
  simp only [Nat.mul_comm N]

example : uhfCisajs 1 (fun i j => i + 2 * j) = [([0, 0, 0, 0], 0), ([0, 0, 0, 1], 2), ([0, 1, 0, 0], 1), ([0, 1, 0, 1], 3)] := by
  simp [uhfCisajs, List.range_succ]
  norm_num

/-- C82: if the file of Green functions, behind a head with its number of lines, is given as file `Initial`, the iteration starts with the Green functions printed. -/
theorem C82_restart (N : ℕ) (hN : 0 < N) (G : Mat2) (pr : ℝ → ℚ) (δ : ℝ) (hpr : ∀ x, |(pr x : ℝ) - x| ≤ δ) (z : USizes)
    (files : UKW → Option (Option (List DLine))) (loc : List DLine) (hr : UhfRegular z files loc)
    (hf : files .initial = some (some ((uhfCisajs N G).map (cisajsLine pr)))) (hc : z.buf.cnt .initial = ((2 * N) ^ 2 : ℕ)) (t : UTabs) (ht : uhfIdxPara N z files = .ok t)
    (d : ℕ → ℕ) :
    ∃ G', uhfInitial N (z.buf.cnt .initial) (t.rows .initial) d = .ok (G', 0) ∧
      ∀ i < 2 * N, ∀ j < 2 * N, G' i j = ⟨(pr (G i j).re : ℝ), (pr (G i j).im : ℝ)⟩ ∧ ‖G' i j - G i j‖ ≤ 2 * δ := by
  set ls := (uhfCisajs N G).map (cisajsLine pr) with hls
  have hlen : ls.length = (2 * N) ^ 2 := by rw [hls, List.length_map, cisajs_length]
  have hpos : 0 < (2 * N) ^ 2 := by positivity
  have hu : UhfUsed z files .initial ls := ⟨by simp, hf, by rw [hc]; exact_mod_cast hpos⟩
  have hmem : ∀ l ∈ ls, ∃ s1 p1 s2 p2, s1 < N ∧ p1 < 2 ∧ s2 < N ∧ p2 < 2 ∧ l = cisajsLine pr ([s1, p1, s2, p2], G (s1 + N * p1) (s2 + N * p2)) := by
    intro l hl
    obtain ⟨x, hx, rfl⟩ := List.mem_map.1 hl
    obtain ⟨s1, p1, s2, p2, a, b, c, e, rfl⟩ := (mem_cisajs N G x).1 hx
    exact ⟨s1, p1, s2, p2, a, b, c, e, rfl⟩
  have hcomp : ∀ l ∈ ls, UhfComplete .initial l := by
    intro l hl
    obtain ⟨s1, p1, s2, p2, _, _, _, _, rfl⟩ := hmem l hl
    simp [UhfComplete, uhfCols, cisajsLine]
  have hrows := ((C81_second_pass_partial N z files loc hr).2.2.2 t ht).1 .initial ls hu hcomp
  have htab : uhfTable .initial ls = ls.map (uhfRowOf .initial 4) := rfl
  rw [htab, List.length_map, hlen, hc, Int.toNat_natCast, Nat.sub_self, List.replicate_zero, List.append_nil] at hrows
  have hrow : ∀ r ∈ t.rows .initial, ∃ s1 p1 s2 p2 : ℕ, s1 < N ∧ p1 < 2 ∧ s2 < N ∧ p2 < 2 ∧
      r = ⟨[(s1 : ℤ), (p1 : ℤ), (s2 : ℤ), (p2 : ℤ)], some (pr (G (s1 + N * p1) (s2 + N * p2)).re), some (pr (G (s1 + N * p1) (s2 + N * p2)).im)⟩ := by
    intro r hr'
    rw [hrows] at hr'
    obtain ⟨l, hl, rfl⟩ := List.mem_map.1 hr'
    obtain ⟨s1, p1, s2, p2, a, b, c, e, rfl⟩ := hmem l hl
    exact ⟨s1, p1, s2, p2, a, b, c, e, rfl⟩
  have hgood : ∀ r ∈ t.rows .initial, UInitGood N r := by
    intro r hr'
    obtain ⟨s1, p1, s2, p2, a, b, c, e, rfl⟩ := hrow r hr'
    exact ⟨s1, p1, s2, p2, _, _, a, b, c, e, rfl⟩
  have hlen2 : (t.rows .initial).length = (2 * N) ^ 2 := by rw [hrows, List.length_map, hlen]
  have hne : t.rows .initial ≠ [] := by
    intro c
    rw [c] at hlen2
    simp at hlen2
    omega
  obtain ⟨G', g1, _, _⟩ := C82_given N (t.rows .initial) d hne hgood
  rw [hlen2, ← hc] at g1
  refine ⟨G', g1, fun i hi j hj => ?_⟩
  have hval : G' i j = ⟨(pr (G i j).re : ℝ), (pr (G i j).im : ℝ)⟩ := by
    have hlines : uhfInitLines N (t.rows .initial) (fun _ _ => 0) = .ok G' := by
      obtain ⟨G'', k1, _⟩ := uhfInitLines_spec N (t.rows .initial) (fun _ _ => 0) (fun r hr => uInitGood_row (hgood r hr))
      have hz : ((2 * N) ^ 2 : ℕ) ≠ (0 : ℤ) := by exact_mod_cast hpos.ne'
      simp only [uhfInitial, hc, if_neg hz, Int.toNat_natCast] at g1
      rw [← hlen2, List.take_length, k1] at g1
      simp only [RdOut.ok.injEq, Prod.mk.injEq, and_true] at g1
      rw [k1, g1]
    refine uhfInitLines_val N _ (fun r hr => uInitGood_row (hgood r hr)) hlines ?_ ?_
    · have hd1 := Nat.div_add_mod i N
      have hd2 := Nat.div_add_mod j N
      have b1 : i / N < 2 := Nat.div_lt_of_lt_mul (by omega)
      have b2 : j / N < 2 := Nat.div_lt_of_lt_mul (by omega)
      refine ⟨uhfRowOf .initial 4 (cisajsLine pr ([i % N, i / N, j % N, j / N], G (i % N + N * (i / N)) (j % N + N * (j / N)))), ?_, ?_⟩
      · rw [hrows]
        refine List.mem_map_of_mem (List.mem_map_of_mem ((mem_cisajs N G _).2 ⟨_, _, _, _, Nat.mod_lt _ hN, b1, Nat.mod_lt _ hN, b2, rfl⟩))
      · have e1 : i % N + N * (i / N) = i := by omega
        have e2 : j % N + N * (j / N) = j := by omega
        rw [e1, e2]
        refine ⟨(i % N : ℕ), (i / N : ℕ), (j % N : ℕ), (j / N : ℕ), _, _, rfl, ?_, ?_, rfl⟩
        · rw [mul_comm]; exact_mod_cast e1
        · rw [mul_comm]; exact_mod_cast e2
    · intro r hr' w hw
      obtain ⟨s1, p1, s2, p2, _, _, _, _, rfl⟩ := hrow r hr'
      obtain ⟨a, b, c, e, x, y, h1, h2, h3, h4⟩ := hw
      simp only [URow.mk.injEq, List.cons.injEq, Option.some.injEq, and_true] at h1
      obtain ⟨⟨rfl, rfl, rfl, rfl⟩, rfl, rfl⟩ := h1
      have e1 : s1 + N * p1 = i := by rw [mul_comm]; exact_mod_cast h2
      have e2 : s2 + N * p2 = j := by rw [mul_comm]; exact_mod_cast h3
      rw [h4, e1, e2]
  refine ⟨hval, ?_⟩
  rw [hval]
  refine (Complex.norm_le_abs_re_add_abs_im _).trans ?_
  have := hpr (G i j).re
  have := hpr (G i j).im
  simp only [Complex.sub_re, Complex.sub_im]
  linarith

/-- the files of an example with the file `Initial` -/
def uhfRestartEx (ls : List DLine) (k : UKW) : Option (Option (List DLine)) :=
  if k = .locSpin then some (some [⟨[0, 0], []⟩]) else if k = .initial then some (some ls) else none

example (G : Mat2) (pr : ℝ → ℚ) : ∃ (z : USizes) (loc : List DLine) (t : UTabs),
    UhfRegular z (uhfRestartEx ((uhfCisajs 1 G).map (cisajsLine pr))) loc ∧ z.buf.cnt .initial = ((2 * 1) ^ 2 : ℕ) ∧
    uhfIdxPara 1 z (uhfRestartEx ((uhfCisajs 1 G).map (cisajsLine pr))) = .ok t := by
  refine ⟨⟨{ cnt := fun k => if k = .initial then 4 else 0 }, false, 1, 2⟩, [⟨[0, 0], []⟩], _, ⟨?_, rfl, by simp, ?_, ⟨rfl, rfl, rfl, rfl⟩, ?_, ⟨0, rfl⟩⟩, rfl, rfl⟩
  · intro k; cases k <;> simp [uhfRestartEx]
  · intro ls h; simp [uhfRestartEx] at h
  · intro k; cases k <;> simp

/-- C82: the accuracy asked for is `10^-eps_int`. -/
theorem C82_eps (k : ℕ) : uhfEps k = (1 / 10) ^ k := by
  unfold uhfEps
  rw [Int.toNat_natCast]
  induction k with
  | zero => simp
  | succ k ih => rw [List.range_succ, List.foldl_append, ih]; simp only [List.foldl_cons, List.foldl_nil]; rw [pow_succ]; norm_num

/-- C82: the random start is Hermitian iff the random numbers happen to be symmetric. -/
theorem C82_hermitian (N : ℕ) (rows : List URow) (d : ℕ → ℕ) (G : Mat2) (n : ℕ) (h : uhfInitial N 0 rows d = .ok (G, n)) :
    HermOn (2 * N) G ↔ ∀ i < 2 * N, ∀ j < 2 * N, d (2 * N * i + j) = d (2 * N * j + i) := by
  have e : uhfInitial N 0 rows d = .ok (uhfInitRandom N d (fun _ _ => 0, 0)) := by
    simp [uhfInitial, uhfInitLines]
  rw [e, uhfInitRandom_eq] at h
  simp only [RdOut.ok.injEq, Prod.mk.injEq] at h
  obtain ⟨rfl, _⟩ := h
  have key : ∀ i < 2 * N, ∀ j < 2 * N, (((0.01 * ((d (2 * N * i + j) : ℝ) / 2 ^ 32 - 0.5) : ℝ) : ℂ) = (starRingEnd ℂ) ((0.01 * ((d (2 * N * j + i) : ℝ) / 2 ^ 32 - 0.5) : ℝ) : ℂ) ↔
      d (2 * N * i + j) = d (2 * N * j + i)) := by
    intro i _ j _
    rw [Complex.conj_ofReal, Complex.ofReal_inj]
    constructor
    · intro h
      norm_num at h
      exact h
    · intro h; rw [h]
  unfold HermOn
  refine forall₂_congr fun i hi => forall₂_congr fun j hj => ?_
  dsimp only
  rw [if_pos ⟨hi, hj⟩, if_pos ⟨hj, hi⟩]
  exact key i hi j hj

/-- C82 is violated by the code for the random start: with two different numbers it is no density matrix. -/
theorem C82_hermitian_violated : ∃ d : ℕ → ℕ, (∀ k, d k < 2 ^ 32) ∧ ∃ G n, uhfInitial 1 0 [] d = .ok (G, n) ∧ ¬ HermOn 2 G := by
  refine ⟨fun k => k % 2 ^ 32, fun k => Nat.mod_lt _ (by norm_num), ?_⟩
  obtain ⟨G, g, _⟩ := C82_random 1 [] (fun k => k % 2 ^ 32) (fun k => Nat.mod_lt _ (by norm_num))
  refine ⟨G, _, g, fun h => ?_⟩
  have := (C82_hermitian 1 [] _ G _ g).1 h 0 (by norm_num) 1 (by norm_num)
  norm_num at this

section
variable {zheev : Nat → (Nat → ℂ) → (Nat → ℝ) × (Nat → ℂ)} {N nsize : Nat} {H : HamPar} {jPH jIA mix : ℝ}

/-- C82: the part of the start that is not Hermitian is multiplied by `1 - mix` in every iteration; from a random start it is at most `0.01·|1 - mix|^k` after `k` iterations. -/
theorem C82_decay (hz : ∀ a, ZheevOK zheev (2 * N) a) (s0 : UhfSt) (k i j : ℕ) :
    let s := (uhfStep zheev N nsize H true jPH jIA mix)^[k] s0
    (s.G i j - (starRingEnd ℂ) (s.G j i) = (1 - mix) ^ k * (s0.G i j - (starRingEnd ℂ) (s0.G j i))) ∧
    (∀ rows d n, (∀ m, d m < 2 ^ 32) → uhfInitial N 0 rows d = .ok (s0.G, n) → i < 2 * N → j < 2 * N →
      ‖s.G i j - (starRingEnd ℂ) (s.G j i)‖ ≤ |1 - mix| ^ k * (1 / 100)) := by
  intro s
  have h1 : s.G i j - (starRingEnd ℂ) (s.G j i) = (1 - mix) ^ k * (s0.G i j - (starRingEnd ℂ) (s0.G j i)) := by
    show ((uhfStep zheev N nsize H true jPH jIA mix)^[k] s0).G i j - (starRingEnd ℂ) (((uhfStep zheev N nsize H true jPH jIA mix)^[k] s0).G j i) = _
    clear s
    induction k with
    | zero => simp
    | succ k ih =>
      rw [Function.iterate_succ_apply']
      have := C60_mixing (nsize := nsize) (jPH := jPH) (jIA := jIA) (mix := mix) (s := (uhfStep zheev N nsize H true jPH jIA mix)^[k] s0) (hz (zheevArg N (makeham N H true _))) i j
      dsimp only at this
      rw [this, ih]
      ring
  refine ⟨h1, fun rows d n hd hr hi hj => ?_⟩
  obtain ⟨G, g1, g2, _⟩ := C82_random N rows d hd
  rw [hr] at g1
  simp only [RdOut.ok.injEq, Prod.mk.injEq] at g1
  obtain ⟨rfl, _⟩ := g1
  rw [h1, norm_mul, norm_pow]
  have e : ‖(1 - (mix : ℂ))‖ = |1 - mix| := by
    rw [← Complex.ofReal_one, ← Complex.ofReal_sub, Complex.norm_real, Real.norm_eq_abs]
  rw [e]
  refine mul_le_mul_of_nonneg_left ?_ (by positivity)
  obtain ⟨_, a2, a3, a4⟩ := g2 i hi j hj
  obtain ⟨_, b2, b3, b4⟩ := g2 j hj i hi
  refine (Complex.norm_le_abs_re_add_abs_im _).trans ?_
  simp only [Complex.sub_re, Complex.sub_im, Complex.conj_re, Complex.conj_im, a2, b2, neg_zero, sub_zero, abs_zero, add_zero]
  rw [abs_le]
  constructor <;> linarith

/-- C82: the Green functions in the file, which are those after the mixing, differ from those of the determinant found in the same iteration by at most `2N²·|1 - mix|` times the
residue; after convergence by at most `2N²·|1 - mix|·eps`. -/
theorem C82_printed (hz : ∀ a, ZheevOK zheev (2 * N) a) (hN : 0 < N) (s : UhfSt) :
    let s' := uhfStep zheev N nsize H true jPH jIA mix s
    (∀ i < 2 * N, ∀ j < 2 * N, ‖s'.G i j - density nsize s'.L i j‖ ≤ |1 - mix| * (2 * N * N * s'.rest)) ∧
    (∀ eps k s0 s', uhfLoop zheev N nsize H true jPH jIA mix eps k s0 = (s', true) → Orthonormal (2 * N) (2 * N) s'.L ∧
      ∀ i < 2 * N, ∀ j < 2 * N, ‖s'.G i j - density nsize s'.L i j‖ ≤ |1 - mix| * (2 * N * N * eps)) := by
  have key : ∀ s : UhfSt, ∀ i < 2 * N, ∀ j < 2 * N, ‖(uhfStep zheev N nsize H true jPH jIA mix s).G i j - density nsize (uhfStep zheev N nsize H true jPH jIA mix s).L i j‖ ≤
      |1 - mix| * (2 * N * N * (uhfStep zheev N nsize H true jPH jIA mix s).rest) := by
    intro s i hi j hj
    obtain ⟨_, _, _, _, _, f6, f7⟩ := step_facts (zheev := zheev) (nsize := nsize) (H := H) (jPH := jPH) (jIA := jIA) (mix := mix) (s := s) (hz _)
    have e : density nsize (uhfStep zheev N nsize H true jPH jIA mix s).L = rho nsize (uhfStep zheev N nsize H true jPH jIA mix s).L := by
      funext a b; rw [rho_range]; rfl
    rw [e, f6, f7]
    have : uhfMix mix s.G (rho nsize (uhfStep zheev N nsize H true jPH jIA mix s).L) i j - rho nsize (uhfStep zheev N nsize H true jPH jIA mix s).L i j =
        ((1 - mix : ℝ) : ℂ) * (s.G i j - rho nsize (uhfStep zheev N nsize H true jPH jIA mix s).L i j) := by
      unfold uhfMix; push_cast; ring
    rw [this, norm_mul, Complex.norm_real, Real.norm_eq_abs]
    exact mul_le_mul_of_nonneg_left (rest_entry hN _ _ hi hj) (abs_nonneg _)
  refine ⟨key s, fun eps k s0 s' hl => ?_⟩
  obtain ⟨s1, e1, hlt⟩ := loop_last k s0 s' hl
  obtain ⟨f1, _⟩ := step_facts (zheev := zheev) (nsize := nsize) (H := H) (jPH := jPH) (jIA := jIA) (mix := mix) (s := s1) (hz _)
  refine ⟨by rw [e1]; exact f1, fun i hi j hj => ?_⟩
  have := key s1 i hi j hj
  rw [← e1] at this
  exact this.trans (mul_le_mul_of_nonneg_left (mul_le_mul_of_nonneg_left hlt.le (by positivity)) (abs_nonneg _))

/-- C82: the file of eigenvalues lists all `2N` of them in ascending order, numbered from 1. -/
theorem C82_eigenvalues (hz : ∀ a, ZheevOK zheev (2 * N) a) (s : UhfSt) :
    let s' := uhfStep zheev N nsize H true jPH jIA mix s
    (uhfEigenLines N s'.eig).length = 2 * N ∧ (uhfEigenLines N s'.eig).map Prod.fst = (List.range (2 * N)).map (· + 1) ∧
    ((uhfEigenLines N s'.eig).map Prod.snd).Pairwise (· ≤ ·) := by
  intro s'
  obtain ⟨_, _, f3, _⟩ := step_facts (zheev := zheev) (nsize := nsize) (H := H) (jPH := jPH) (jIA := jIA) (mix := mix) (s := s) (hz _)
  refine ⟨by simp [uhfEigenLines], by simp [uhfEigenLines, Function.comp_def], ?_⟩
  have mono : ∀ b < 2 * N, ∀ a ≤ b, s'.eig a ≤ s'.eig b := by
    intro b
    induction b with
    | zero => intro _ a ha; rw [Nat.le_zero.1 ha]
    | succ b ih =>
      intro hb a ha
      rcases Nat.lt_or_ge a (b + 1) with c | c
      · exact (ih (by omega) a (by omega)).trans (f3 b hb)
      · rw [le_antisymm ha c]
  simp only [uhfEigenLines, List.map_map, Function.comp_def, List.pairwise_map]
  exact (List.pairwise_lt_range (n := 2 * N)).imp_of_mem fun {a b} _ hb hab => mono b (List.mem_range.1 hb) a hab.le

/-- C82: the number of electrons in the file approaches `Nsize` by the factor `1 - mix` in every iteration, while the program prints `Nsize` from the first. -/
theorem C82_trace (hz : ∀ a, ZheevOK zheev (2 * N) a) (hn : nsize ≤ 2 * N) (s0 : UhfSt) (k : ℕ) :
    ∑ i ∈ Finset.range (2 * N), ((uhfStep zheev N nsize H true jPH jIA mix)^[k] s0).G i i - nsize =
      (1 - mix) ^ k * (∑ i ∈ Finset.range (2 * N), s0.G i i - nsize) := by
  induction k with
  | zero => simp
  | succ k ih =>
    rw [Function.iterate_succ_apply']
    set s := (uhfStep zheev N nsize H true jPH jIA mix)^[k] s0
    obtain ⟨f1, _, _, _, _, _, f7⟩ := step_facts (zheev := zheev) (nsize := nsize) (H := H) (jPH := jPH) (jIA := jIA) (mix := mix) (s := s) (hz _)
    rw [f7]
    simp only [uhfMix]
    rw [Finset.sum_add_distrib, ← Finset.sum_mul, ← Finset.mul_sum, rho_trace (ortho_mono f1 hn), pow_succ]
    linear_combination (1 - (mix : ℂ)) * ih

end

end MVMC
