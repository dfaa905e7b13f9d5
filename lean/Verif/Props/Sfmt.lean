import Verif.Proof.SfmtSeq

/-!
# C77: the random numbers

Specification in `Spec/Sfmt.lean`. `genRandAll` and `genRandAllSse` are the two builds of the generator, `genList all n` are the numbers
returned by `n` calls of `gen_rand32`.
-/
namespace MVMC
open Spec

/-- the two builds -/
def IsBuild (all : SMem → Option SMem) : Prop := all = genRandAll ∨ all = genRandAllSse

theorem IsBuild.good {all : SMem → Option SMem} (h : IsBuild all) : GoodAll all := by
  rcases h with rfl | rfl
  · intro w hw B m hm; exact gen_all hw hm
  · intro w hw B m hm; exact sse_all hw hm

/-- the sequence of a seed -/
theorem seed_seq (m : SMem) (seed : BitVec 32) : ∃ s w, initGenRand m seed = some s ∧ SfmtRec w ∧ StartsFrom seed w ∧ AtDraw w 0 s := by
  obtain ⟨s, e, h1, h2, h3, h4, h5⟩ := sfmt_init_ok m seed
  have hl : ∀ j, j < 156 → sfmtSeq (fun j => (s.mem j).bits) j = (s.mem j).bits := fun j hj => seq_lt _ hj
  refine ⟨s, sfmtSeq fun j => (s.mem j).bits, e, seq_rec _, ⟨?_, ?_, ?_⟩, h1, by omega, 0, ?_, by omega⟩
  · intro k hk hk'
    rw [hl _ (by omega), lane_bits _ _ (Nat.mod_lt _ (by omega))]
    exact h3 k hk hk'
  · rw [hl _ (by omega), lane_bits _ _ (by omega)]; exact h4
  · rw [hl _ (by omega)]; exact h5
  · intro j hj; rw [Nat.mul_zero, Nat.zero_add, hl j hj]

/-- For every seed, every previous content of the array and both builds, the calls of `gen_rand32` after `init_gen_rand` succeed and return
the words of the one sequence that obeys the recursion of SFMT-19937 and starts from the seed. -/
theorem C77_sequence (seed : BitVec 32) : ∃ w, SfmtRec w ∧ StartsFrom seed w ∧ (∀ w', SfmtRec w' → StartsFrom seed w' → w' = w) ∧
    ∀ all, IsBuild all → ∀ (m : SMem) (n : ℕ), (initGenRand m seed).bind (genList all n) = some ((List.range n).map (drawAt w)) := by
  obtain ⟨s, w, _, hw, hst, _⟩ := seed_seq (fun _ => ⟨0, 0, 0, 0⟩) seed
  refine ⟨w, hw, hst, fun w' hw' hst' => starts_unique hw' hw hst' hst, ?_⟩
  intro all ha m n
  obtain ⟨s', w', e', hw', hst', hd'⟩ := seed_seq m seed
  obtain rfl := starts_unique hw' hw hst' hst
  rw [e', Option.bind_some, draw_list ha.good hw' n hd']
  simp

/-- The builds with and without SSE2 return the same numbers. -/
theorem C77_builds (seed : BitVec 32) (m m' : SMem) (n : ℕ) : ((initGenRand m seed).bind (genList genRandAll n)).isSome ∧
    (initGenRand m seed).bind (genList genRandAll n) = (initGenRand m' seed).bind (genList genRandAllSse n) := by
  obtain ⟨w, _, _, _, h⟩ := C77_sequence seed
  rw [h _ (Or.inl rfl), h _ (Or.inr rfl)]
  exact ⟨rfl, rfl⟩

/-- Different seeds: the two sequences of numbers differ within every 624 numbers that start at the same multiple of four. -/
theorem C77_seeds {seed seed' : BitVec 32} (hs : seed ≠ seed') {all all' : SMem → Option SMem} (ha : IsBuild all) (ha' : IsBuild all')
    (m m' : SMem) {k : ℕ} (hk : k % 4 = 0) {l l' : List (BitVec 32)} (h : (initGenRand m seed).bind (genList all (k + 624)) = some l)
    (h' : (initGenRand m' seed').bind (genList all' (k + 624)) = some l') : l.drop k ≠ l'.drop k := by
  obtain ⟨w, hw, hst, _, e⟩ := C77_sequence seed
  obtain ⟨w', hw', hst', _, e'⟩ := C77_sequence seed'
  rw [e _ ha] at h
  rw [e' _ ha'] at h'
  rw [← Option.some.inj h, ← Option.some.inj h']
  intro hd
  have hww : w = w' := by
    refine draws_eq hw hw' hk fun j hj => ?_
    have := congrArg (fun l => l[j]?) hd
    simp only [List.getElem?_drop, List.getElem?_map] at this
    rw [List.getElem?_range (by omega)] at this
    exact Option.some.inj this
  subst hww
  exact hs (starts_seed hst hst')

/-- The chains of different process groups use different numbers: with the seeds `RndSeed+group1` of `main` two groups never draw the same
624 numbers at the same position. -/
theorem C77_groups {rndSeed : Int} {g g' : ℕ} (hg : g ≠ g') {all all' : SMem → Option SMem} (ha : IsBuild all) (ha' : IsBuild all')
    (m m' : SMem) {k : ℕ} (hk : k % 4 = 0) {l l' : List (BitVec 32)} (h : groupDraws all m rndSeed g (k + 624) = some l)
    (h' : groupDraws all' m' rndSeed g' (k + 624) = some l') : l.drop k ≠ l'.drop k := by
  unfold groupDraws at h h'
  split_ifs at h h' with c c'
  refine C77_seeds ?_ ha ha' m m' hk h h'
  intro hs
  have e1 := congrArg BitVec.toInt hs
  rw [BitVec.toInt_ofInt, BitVec.toInt_ofInt, Int.bmod_eq_of_le (by omega) (by omega), Int.bmod_eq_of_le (by omega) (by omega)] at e1
  omega

/-- the generator of a group starts unless the sum `RndSeed+group1` overflows -/
theorem C77_groups_run {rndSeed : Int} {g : ℕ} (h : -(2 ^ 31) ≤ rndSeed + (g : Int)) (h' : rndSeed + (g : Int) < 2 ^ 31)
    {all : SMem → Option SMem} (ha : IsBuild all) (m : SMem) (n : ℕ) :
    ∃ l, groupDraws all m rndSeed g n = some l ∧ l.length = n := by
  obtain ⟨w, _, _, _, e⟩ := C77_sequence (BitVec.ofInt 32 (rndSeed + (g : Int)))
  refine ⟨(List.range n).map (drawAt w), ?_, ?_⟩
  · rw [groupDraws, if_pos ⟨h, h'⟩]; exact e all ha m n
  · simp

/-- the generator after `init_gen_rand`, with an arbitrary content of the array -/
def stateOf (st : Fin 156 → BitVec 128) : SfmtState := ⟨fun j => W128.ofBits (extSt st j), 624, true⟩

theorem stateOf_draw (st : Fin 156 → BitVec 128) : AtDraw (seqFrom st) 0 (stateOf st) := by
  refine ⟨rfl, le_refl _, 0, ?_, rfl⟩
  intro j hj
  show (W128.ofBits (extSt st j)).bits = _
  rw [bits_ofBits, Nat.mul_zero, Nat.zero_add, seqFrom, seq_lt _ hj]

/-- Among all contents of the array, equally many lead to each list of up to 624 numbers, also for numbers drawn later. -/
theorem C77_uniform {all : SMem → Option SMem} (ha : IsBuild all) (k : ℕ) (ds : List (BitVec 32)) (h : k % 4 + ds.length ≤ 624) :
    Nat.card {st : Fin 156 → BitVec 128 // (genList all (k + ds.length) (stateOf st)).map (List.drop k) = some ds} =
      2 ^ (32 * (624 - ds.length)) := by
  rw [← count_draws h fun i => ds[i]]
  refine Nat.card_congr (Equiv.subtypeEquivRight fun st => ?_)
  rw [draw_list ha.good (seqFrom_rec st) _ (stateOf_draw st)]
  simp only [Option.map_some, Option.some.injEq, Nat.zero_add]
  constructor
  · intro e i
    have := congrArg (fun l => l[i.1]?) e
    simp only [List.getElem?_drop, List.getElem?_map] at this
    rw [List.getElem?_range (by omega), List.getElem?_eq_getElem i.2] at this
    exact Option.some.inj this
  · intro e
    apply List.ext_getElem
    · simp
    · intro i h1 h2
      have := e ⟨i, h2⟩
      simpa using this

/-- The array never becomes zero, whatever the seed. -/
theorem C77_nonzero {seed : BitVec 32} {w : ℕ → BitVec 128} (hw : SfmtRec w) (hs : StartsFrom seed w) (n : ℕ) : ∃ j, j < 156 ∧ w (n + j) ≠ 0 := by
  by_contra hc
  have : w = fun _ => 0#128 := window_eq hw zero_rec (n := n) fun j hj => by
    by_contra h; exact hc ⟨j, hj, h⟩
  have hcert := hs.cert
  rw [this] at hcert
  exact not_cert_zero hcert

/-- The numbers repeat from the start on (no transient), so every number of the sequence occurs again. -/
theorem C77_periodic {w : ℕ → BitVec 128} (hw : SfmtRec w) : ∃ p, 0 < p ∧ ∀ k, drawAt w (k + 4 * p) = drawAt w k := by
  obtain ⟨p, hp, h⟩ := seq_periodic hw
  refine ⟨p, hp, fun k => ?_⟩
  unfold drawAt
  rw [show (k + 4 * p) % 4 = k % 4 by omega, show 156 + (k + 4 * p) / 4 = 156 + k / 4 + p by omega, h]

/-! ## Example: the published test numbers -/

/-- seeding in natural numbers -/
def seedNat : ℕ → ℕ → ℕ → ℕ
  | 0, _, x => x
  | n + 1, k, x => seedNat n (k + 1) ((1812433253 * (x ^^^ (x >>> 30)) + k) % 4294967296)

theorem seedNat_eq (s : BitVec 32) (n : ℕ) : ∀ a, (seedWord s (a + n)).toNat = seedNat n (a + 1) (seedWord s a).toNat := by
  induction n with
  | zero => intro a; rfl
  | succ n ih =>
    intro a
    rw [show a + (n + 1) = a + 1 + n by omega, ih (a + 1), seedNat, seedWord]
    congr 1
    simp [BitVec.toNat_add, BitVec.toNat_mul]

theorem seed_val {n v : ℕ} (h : seedNat n 1 1234 = v) : seedWord 1234#32 n = BitVec.ofNat 32 v := by
  apply BitVec.eq_of_toNat_eq
  have := seedNat_eq 1234#32 n 0
  rw [Nat.zero_add] at this
  rw [BitVec.toNat_ofNat, ← h, ← Nat.mod_eq_of_lt (BitVec.isLt (seedWord 1234#32 n)), this]
  rfl

/-- The first number after `init_gen_rand(1234)` is 3440181298, as in the table distributed with SFMT. -/
theorem C77_example (m : SMem) : (initGenRand m 1234#32).bind (genList genRandAll 1) = some [3440181298#32] := by
  obtain ⟨w, hw, hs, _, e⟩ := C77_sequence 1234#32
  rw [e _ (Or.inl rfl)]
  have h1 : lane (w 0) 1 = 3159640283#32 := (hs.words 1 (by omega) (by omega)).trans (seed_val (by decide +kernel))
  have h2 : lane (w 0) 2 = 4062961311#32 := (hs.words 2 (by omega) (by omega)).trans (seed_val (by decide +kernel))
  have h3 : lane (w 0) 3 = 3954462607#32 := (hs.words 3 (by omega) (by omega)).trans (seed_val (by decide +kernel))
  have h488 : lane (w 122) 0 = 61024153#32 := (hs.words 488 (by omega) (by omega)).trans (seed_val (by decide +kernel))
  have h616 : lane (w 154) 0 = 363037976#32 := (hs.words 616 (by omega) (by omega)).trans (seed_val (by decide +kernel))
  have h617 : lane (w 154) 1 = 3479526625#32 := (hs.words 617 (by omega) (by omega)).trans (seed_val (by decide +kernel))
  have h618 : lane (w 154) 2 = 4091582868#32 := (hs.words 618 (by omega) (by omega)).trans (seed_val (by decide +kernel))
  have h619 : lane (w 154) 3 = 1357867518#32 := (hs.words 619 (by omega) (by omega)).trans (seed_val (by decide +kernel))
  have h620 : lane (w 155) 0 = 2284276487#32 := (hs.words 620 (by omega) (by omega)).trans (seed_val (by decide +kernel))
  have h0 : lane (w 0) 0 = 1235#32 := by
    have hf := hs.first
    have hc := hs.cert
    rw [← bits_ofBits (w 0)] at hc hf ⊢
    simp only [lane_bits0] at hf ⊢
    exact first_unique (y := ⟨1235#32, 3159640283#32, 4062961311#32, 3954462607#32⟩) hf h3 hc (by rw [cert_bits]; decide)
  have hd : drawAt w 0 = 3440181298#32 := by
    have hr : drawAt w 0 = lane (w (0 + 156)) 0 := rfl
    rw [hr, hw 0, ← bits_ofBits (w 0), ← bits_ofBits (w (0 + 122)), ← bits_ofBits (w (0 + 154)), ← bits_ofBits (w (0 + 155)), ← bits_rec,
      lane_bits0]
    have e0 : W128.ofBits (w 0) = ⟨lane (w 0) 0, lane (w 0) 1, lane (w 0) 2, lane (w 0) 3⟩ := rfl
    have e154 : W128.ofBits (w (0 + 154)) = ⟨lane (w 154) 0, lane (w 154) 1, lane (w 154) 2, lane (w 154) 3⟩ := rfl
    have e122 : (W128.ofBits (w (0 + 122))).u0 = lane (w 122) 0 := rfl
    have e155 : (W128.ofBits (w (0 + 155))).u0 = lane (w 155) 0 := rfl
    simp only [doRecursion, e122, e155, e0, e154, h0, h1, h2, h3, h488, h616, h617, h618, h619, h620]
    decide
  simp [hd]

end MVMC
