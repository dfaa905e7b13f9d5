import Verif.Model.Sfmt
import Verif.Spec.Sfmt
import Mathlib.Tactic.IntervalCases

namespace MVMC
open Spec

theorem cat_bit (a b c d : BitVec 32) (i : ℕ) :
    (a ++ (b ++ (c ++ d : BitVec 64) : BitVec 96) : BitVec 128).getLsbD i =
      if i < 32 then d.getLsbD i else if i < 64 then c.getLsbD (i - 32) else if i < 96 then b.getLsbD (i - 64) else a.getLsbD (i - 96) := by
  have h := @BitVec.getLsbD_append 32 96 i a (b ++ (c ++ d : BitVec 64) : BitVec 96)
  have h1 := @BitVec.getLsbD_append 32 64 i b (c ++ d : BitVec 64)
  have h2 := @BitVec.getLsbD_append 32 32 i c d
  refine h.trans ?_
  erw [h1, h2]
  by_cases h32 : i < 32
  · simp [h32, show i < 96 by omega, show i < 64 by omega]
  · by_cases h64 : i < 64
    · simp [h32, show i < 96 by omega, h64]
    · by_cases h96 : i < 96
      · simp [h32, h96, h64]
      · simp [h32, h96, h64]

theorem bits_bit (x : W128) (i : ℕ) :
    x.bits.getLsbD i = if i < 32 then x.u0.getLsbD i else if i < 64 then x.u1.getLsbD (i - 32) else if i < 96 then x.u2.getLsbD (i - 64)
      else x.u3.getLsbD (i - 96) := cat_bit _ _ _ _ _

theorem lanes_bit (f : BitVec 32 → BitVec 32) (x : BitVec 128) (i : ℕ) :
    (onLanes f x).getLsbD i = if i < 32 then (f (lane x 0)).getLsbD i else if i < 64 then (f (lane x 1)).getLsbD (i - 32)
      else if i < 96 then (f (lane x 2)).getLsbD (i - 64) else (f (lane x 3)).getLsbD (i - 96) := cat_bit _ _ _ _ _

theorem lane_bits0 (x : W128) : lane x.bits 0 = x.u0 := by
  apply BitVec.eq_of_getLsbD_eq; intro i hi
  simp [lane, bits_bit, hi]
theorem lane_bits1 (x : W128) : lane x.bits 1 = x.u1 := by
  apply BitVec.eq_of_getLsbD_eq; intro i hi
  simp [lane, bits_bit, hi, show 32 + i < 64 by omega]
theorem lane_bits2 (x : W128) : lane x.bits 2 = x.u2 := by
  apply BitVec.eq_of_getLsbD_eq; intro i hi
  simp [lane, bits_bit, hi, show 64 + i < 96 by omega, show ¬ 64 + i < 64 by omega, show ¬ 64 + i < 32 by omega]
theorem lane_bits3 (x : W128) : lane x.bits 3 = x.u3 := by
  apply BitVec.eq_of_getLsbD_eq; intro i hi
  simp [lane, bits_bit, hi, show ¬ 96 + i < 64 by omega, show ¬ 96 + i < 32 by omega]

theorem lane_bits (x : W128) (k : ℕ) (hk : k < 4) : lane x.bits k = x.get k := by
  interval_cases k <;> simp [W128.get, lane_bits0, lane_bits1, lane_bits2, lane_bits3]

theorem bits_inj {x y : W128} (h : x.bits = y.bits) : x = y := by
  have h0 := lane_bits0 x; have h1 := lane_bits1 x; have h2 := lane_bits2 x; have h3 := lane_bits3 x
  rw [h, lane_bits0] at h0; rw [h, lane_bits1] at h1; rw [h, lane_bits2] at h2; rw [h, lane_bits3] at h3
  cases x; cases y; simp_all

theorem bits_ofBits (x : BitVec 128) : (W128.ofBits x).bits = x := by
  apply BitVec.eq_of_getLsbD_eq; intro i hi
  simp only [W128.ofBits, bits_bit, BitVec.getLsbD_extractLsb']
  split_ifs with h1 h2 h3
  · simp [h1]
  · rw [show 32 + (i - 32) = i by omega]; simp; omega
  · rw [show 64 + (i - 64) = i by omega]; simp; omega
  · rw [show 96 + (i - 96) = i by omega]; simp; omega

theorem bits_lshift (x : W128) : (lshift128 x 1).bits = x.bits <<< 8 := by
  apply BitVec.eq_of_getLsbD_eq; intro i hi
  simp only [lshift128, bits_bit, BitVec.getLsbD_shiftLeft, BitVec.getLsbD_setWidth, BitVec.getLsbD_ushiftRight, BitVec.getLsbD_or]
  interval_cases i <;> simp

theorem bits_rshift (x : W128) : (rshift128 x 1).bits = x.bits >>> 8 := by
  apply BitVec.eq_of_getLsbD_eq; intro i hi
  simp only [rshift128, bits_bit, BitVec.getLsbD_shiftLeft, BitVec.getLsbD_setWidth, BitVec.getLsbD_ushiftRight, BitVec.getLsbD_or]
  interval_cases i <;> simp
theorem bits_xor (x y : W128) : (mmXor x y).bits = x.bits ^^^ y.bits := by
  apply BitVec.eq_of_getLsbD_eq; intro i hi
  simp only [mmXor, bits_bit, BitVec.getLsbD_xor]
  split_ifs <;> rfl

theorem bits_and (x y : W128) : (mmAnd x y).bits = x.bits &&& y.bits := by
  apply BitVec.eq_of_getLsbD_eq; intro i hi
  simp only [mmAnd, bits_bit, BitVec.getLsbD_and]
  split_ifs <;> rfl

theorem bits_srli32 (x : W128) (n : ℕ) : (mmSrli32 x n).bits = onLanes (· >>> n) x.bits := by
  apply BitVec.eq_of_getLsbD_eq; intro i hi
  simp only [mmSrli32, bits_bit, lanes_bit, lane_bits0, lane_bits1, lane_bits2, lane_bits3]

theorem bits_slli32 (x : W128) (n : ℕ) : (mmSlli32 x n).bits = onLanes (· <<< n) x.bits := by
  apply BitVec.eq_of_getLsbD_eq; intro i hi
  simp only [mmSlli32, bits_bit, lanes_bit, lane_bits0, lane_bits1, lane_bits2, lane_bits3]

theorem bits_mask : mmMask.bits = 0xbffffff6bffaffffddfecb7fdfffffef#128 := by decide

theorem rec_xor (a b c d : W128) : doRecursion a b c d =
    mmXor (mmXor (mmXor (mmXor a (lshift128 a 1)) (mmAnd (mmSrli32 b 11) mmMask)) (rshift128 c 1)) (mmSlli32 d 18) := rfl

theorem bits_rec (a b c d : W128) : (doRecursion a b c d).bits = sfmtG a.bits b.bits c.bits d.bits := by
  rw [rec_xor, bits_xor, bits_xor, bits_xor, bits_xor, bits_and, bits_lshift, bits_rshift, bits_srli32, bits_slli32, bits_mask]
  rfl

theorem bits_mm (a b c d : W128) : (mmRecursion a b c d mmMask).bits = sfmtG a.bits b.bits c.bits d.bits := by
  simp only [mmRecursion, bits_xor, bits_and, bits_srli32, bits_slli32, bits_mask, mmSrli, mmSlli, bits_ofBits, sfmtG]
  generalize onLanes _ b.bits &&& _ = y
  generalize onLanes _ d.bits = v
  generalize c.bits >>> (1 * 8) = z
  generalize a.bits <<< (1 * 8) = x
  ac_rfl

/-- the recursion determines its first argument -/
theorem shift_inj {a a' : BitVec 128} (h : a ^^^ (a <<< 8) = a' ^^^ (a' <<< 8)) : a = a' := by
  have key : ∀ n, ∀ i, i < n → a.getLsbD i = a'.getLsbD i := by
    intro n
    induction n with
    | zero => intro i hi; omega
    | succ n ih =>
      intro i hi
      have hb := congrArg (fun x => x.getLsbD i) h
      simp only [BitVec.getLsbD_xor, BitVec.getLsbD_shiftLeft] at hb
      by_cases h8 : i < 8
      · simpa [h8] using hb
      · rw [ih (i - 8) (by omega)] at hb
        exact Bool.xor_left_inj.1 hb
  exact BitVec.eq_of_getLsbD_eq fun i hi => key (i + 1) i (by omega)

theorem sfmtG_inj {a a' b c d : BitVec 128} (h : sfmtG a b c d = sfmtG a' b c d) : a = a' := by
  apply shift_inj
  simp only [sfmtG] at h
  generalize onLanes _ b &&& _ = y at h
  generalize onLanes _ d = v at h
  generalize c >>> 8 = z at h
  have h1 := congrArg (· ^^^ v) h
  simp only [BitVec.xor_assoc, BitVec.xor_self, BitVec.xor_zero] at h1
  have h2 := congrArg (· ^^^ z) h1
  have h3 := congrArg (· ^^^ y) h2
  simpa [BitVec.xor_assoc] using h3

/-! ## The blocks of `gen_rand_all` -/

theorem rd_some {m : SMem} {i : ℕ} (h : i < sfmtN) : m.rd i = some (m i) := by simp [SMem.rd, h]

theorem wr_some {m : SMem} {i : ℕ} (v : W128) (h : i < sfmtN) : m.wr i v = some (Function.update m i v) := by simp [SMem.wr, h]

/-- a loop keeps an invariant of the counter -/
theorem fold_inv {S : Type} (f : S → ℕ → Option S) (Inv : ℕ → S → Prop) (b : ℕ)
    (hf : ∀ i s, i < b → Inv i s → ∃ s', f s i = some s' ∧ Inv (i + 1) s') :
    ∀ (n a : ℕ) (s : S), a + n ≤ b → Inv a s → ∃ s', (List.range' a n).foldlM f s = some s' ∧ Inv (a + n) s' := by
  intro n
  induction n with
  | zero => intro a s _ h; exact ⟨s, by simp, by simpa using h⟩
  | succ n ih =>
    intro a s hb h
    obtain ⟨s1, h1, h2⟩ := hf a s (by omega) h
    obtain ⟨s2, h3, h4⟩ := ih (a + 1) s1 (by omega) h2
    refine ⟨s2, ?_, by rw [show a + (n + 1) = a + 1 + n by omega]; exact h4⟩
    rw [List.range'_succ, List.foldlM_cons, h1]
    exact h3

/-- the array holds the elements from number `B` on; the first `i` are already replaced by the elements of the next block -/
def HoldsTo (w : ℕ → BitVec 128) (B i : ℕ) (m : SMem) : Prop :=
  ∀ j, j < 156 → (m j).bits = if j < i then w (B + 156 + j) else w (B + j)

theorem HoldsTo.step {w : ℕ → BitVec 128} {B i : ℕ} {m : SMem} (h : HoldsTo w B i m) (hi : i < 156) {v : W128}
    (hv : v.bits = w (B + 156 + i)) : HoldsTo w B (i + 1) (Function.update m i v) := by
  intro j hj
  by_cases e : j = i
  · subst e; simp [hv]
  · rw [Function.update_of_ne e, h j hj]
    by_cases hlt : j < i
    · rw [if_pos hlt, if_pos (by omega)]
    · rw [if_neg hlt, if_neg (by omega)]

/-- loop invariant of the version without SIMD -/
def GenInv (w : ℕ → BitVec 128) (B i : ℕ) (s : GenLoop) : Prop :=
  HoldsTo w B i s.mem ∧ s.r1 = (if i = 0 then 154 else if i = 1 then 155 else i - 2) ∧ s.r2 = (if i = 0 then 155 else i - 1)

theorem gen_pass {w : ℕ → BitVec 128} (hw : SfmtRec w) {B i j : ℕ} {s : GenLoop} (hi : i < 156) (h : GenInv w B i s)
    (hj : j = (if i < 34 then i + 122 else i - 34)) : ∃ s', genPass i j s = some s' ∧ GenInv w B (i + 1) s' := by
  obtain ⟨hm, h1, h2⟩ := h
  have hN : sfmtN = 156 := rfl
  have hj' : j < 156 := by rw [hj]; split_ifs <;> omega
  have hr1 : s.r1 < 156 := by rw [h1]; split_ifs <;> omega
  have hr2 : s.r2 < 156 := by rw [h2]; split_ifs <;> omega
  have ea : (s.mem i).bits = w (B + i) := by rw [hm i hi, if_neg (by omega)]
  have eb : (s.mem j).bits = w (B + i + 122) := by
    rw [hm j hj']
    by_cases c : i < 34
    · rw [if_pos c] at hj; rw [if_neg (by omega)]; congr 1; omega
    · rw [if_neg c] at hj; rw [if_pos (by omega)]; congr 1; omega
  have ec : (s.mem s.r1).bits = w (B + i + 154) := by
    rw [hm _ hr1]
    by_cases c0 : i = 0
    · rw [if_pos c0] at h1; rw [if_neg (by omega)]; congr 1; omega
    · by_cases c1 : i = 1
      · rw [if_neg c0, if_pos c1] at h1; rw [if_neg (by omega)]; congr 1; omega
      · rw [if_neg c0, if_neg c1] at h1; rw [if_pos (by omega)]; congr 1; omega
  have ed : (s.mem s.r2).bits = w (B + i + 155) := by
    rw [hm _ hr2]
    by_cases c0 : i = 0
    · rw [if_pos c0] at h2; rw [if_neg (by omega)]; congr 1; omega
    · rw [if_neg c0] at h2; rw [if_pos (by omega)]; congr 1; omega
  refine ⟨⟨Function.update s.mem i (doRecursion (s.mem i) (s.mem j) (s.mem s.r1) (s.mem s.r2)), s.r2, i⟩, ?_, ?_, ?_, ?_⟩
  · simp [genPass, rd_some (m := s.mem) (i := i) (by omega), rd_some (m := s.mem) (i := j) (by omega),
      rd_some (m := s.mem) (i := s.r1) (by omega), rd_some (m := s.mem) (i := s.r2) (by omega), wr_some, hN, hi]
  · refine hm.step hi ?_
    rw [bits_rec, ea, eb, ec, ed, show B + 156 + i = B + i + 156 by omega, hw]
  · simp only
    rw [h2]
    by_cases c0 : i = 0
    · subst c0; rfl
    · rw [if_neg c0, if_neg (by omega), if_neg (by omega)]; omega
  · simp

theorem gen_all {w : ℕ → BitVec 128} (hw : SfmtRec w) {B : ℕ} {m : SMem} (h : ∀ j, j < 156 → (m j).bits = w (B + j)) :
    ∃ m', genRandAll m = some m' ∧ ∀ j, j < 156 → (m' j).bits = w (B + 156 + j) := by
  have h0 : GenInv w B 0 ⟨m, 154, 155⟩ := ⟨fun j hj => by simpa using h j hj, rfl, rfl⟩
  obtain ⟨s1, e1, i1⟩ := fold_inv (fun (s : GenLoop) i => genPass i (i + sfmtPos) s) (GenInv w B) 34
    (fun i s hi hs => gen_pass hw (by omega) hs (by rw [if_pos hi]; rfl)) 34 0 _ (by omega) h0
  have h1 : ∃ s', (List.range' 34 122).foldlM (fun (s : GenLoop) i => genPass i (i + sfmtPos - sfmtN) s) s1 = some s' ∧ GenInv w B 156 s' := by
    have := fold_inv (fun (s : GenLoop) i => genPass i (i + sfmtPos - sfmtN) s) (fun i s => 34 ≤ i ∧ GenInv w B i s) 156
      (fun i s hi hs => by
        obtain ⟨s', e, q⟩ := gen_pass (j := i + sfmtPos - sfmtN) hw hi hs.2
          (by rw [if_neg (by omega)]; show i + 122 - 156 = _; omega)
        exact ⟨s', e, by omega, q⟩) 122 34 s1 (by omega) ⟨le_refl _, i1⟩
    obtain ⟨s', e, _, q⟩ := this
    exact ⟨s', e, q⟩
  obtain ⟨s2, e2, i2⟩ := h1
  refine ⟨s2.mem, ?_, fun j hj => by rw [i2.1 j hj, if_pos hj]⟩
  show (do
    let s ← (List.range' 0 34).foldlM (fun s i => genPass i (i + sfmtPos) s) (⟨m, 154, 155⟩ : GenLoop)
    let s ← (List.range' 34 122).foldlM (fun s i => genPass i (i + sfmtPos - sfmtN) s) s
    some s.mem) = _
  rw [e1]
  show (do
    let s ← (List.range' 34 122).foldlM (fun s i => genPass i (i + sfmtPos - sfmtN) s) s1
    some s.mem) = _
  rw [e2]; rfl

/-- loop invariant of the SSE2 version -/
def SseInv (w : ℕ → BitVec 128) (B i : ℕ) (s : GenLoopSse) : Prop :=
  HoldsTo w B i s.mem ∧ s.r1.bits = w (B + i + 154) ∧ s.r2.bits = w (B + i + 155)

theorem sse_pass {w : ℕ → BitVec 128} (hw : SfmtRec w) {B i j : ℕ} {s : GenLoopSse} (hi : i < 156) (h : SseInv w B i s)
    (hj : j = (if i < 34 then i + 122 else i - 34)) : ∃ s', genPassSse i j s = some s' ∧ SseInv w B (i + 1) s' := by
  obtain ⟨hm, h1, h2⟩ := h
  have hN : sfmtN = 156 := rfl
  have hj' : j < 156 := by rw [hj]; split_ifs <;> omega
  have ea : (s.mem i).bits = w (B + i) := by rw [hm i hi, if_neg (by omega)]
  have eb : (s.mem j).bits = w (B + i + 122) := by
    rw [hm j hj']
    by_cases c : i < 34
    · rw [if_pos c] at hj; rw [if_neg (by omega)]; congr 1; omega
    · rw [if_neg c] at hj; rw [if_pos (by omega)]; congr 1; omega
  have er : (mmRecursion (s.mem i) (s.mem j) s.r1 s.r2 mmMask).bits = w (B + 156 + i) := by
    rw [bits_mm, ea, eb, h1, h2, show B + 156 + i = B + i + 156 by omega, hw]
  refine ⟨⟨Function.update s.mem i (mmRecursion (s.mem i) (s.mem j) s.r1 s.r2 mmMask), s.r2,
    mmRecursion (s.mem i) (s.mem j) s.r1 s.r2 mmMask⟩, ?_, hm.step hi er, ?_, ?_⟩
  · simp [genPassSse, rd_some (m := s.mem) (i := i) (by omega), rd_some (m := s.mem) (i := j) (by omega), wr_some, hN, hi]
  · rw [show B + (i + 1) + 154 = B + i + 155 by omega]; exact h2
  · rw [show B + (i + 1) + 155 = B + 156 + i by omega]; exact er

theorem sse_all {w : ℕ → BitVec 128} (hw : SfmtRec w) {B : ℕ} {m : SMem} (h : ∀ j, j < 156 → (m j).bits = w (B + j)) :
    ∃ m', genRandAllSse m = some m' ∧ ∀ j, j < 156 → (m' j).bits = w (B + 156 + j) := by
  have h0 : SseInv w B 0 ⟨m, m 154, m 155⟩ := ⟨fun j hj => by simpa using h j hj, h 154 (by omega), h 155 (by omega)⟩
  obtain ⟨s1, e1, i1⟩ := fold_inv (fun (s : GenLoopSse) i => genPassSse i (i + sfmtPos) s) (SseInv w B) 34
    (fun i s hi hs => sse_pass hw (by omega) hs (by rw [if_pos hi]; rfl)) 34 0 _ (by omega) h0
  have h1 : ∃ s', (List.range' 34 122).foldlM (fun (s : GenLoopSse) i => genPassSse i (i + sfmtPos - sfmtN) s) s1 = some s' ∧
      SseInv w B 156 s' := by
    have := fold_inv (fun (s : GenLoopSse) i => genPassSse i (i + sfmtPos - sfmtN) s) (fun i s => 34 ≤ i ∧ SseInv w B i s) 156
      (fun i s hi hs => by
        obtain ⟨s', e, q⟩ := sse_pass (j := i + sfmtPos - sfmtN) hw hi hs.2
          (by rw [if_neg (by omega)]; show i + 122 - 156 = _; omega)
        exact ⟨s', e, by omega, q⟩) 122 34 s1 (by omega) ⟨le_refl _, i1⟩
    obtain ⟨s', e, _, q⟩ := this
    exact ⟨s', e, q⟩
  obtain ⟨s2, e2, i2⟩ := h1
  refine ⟨s2.mem, ?_, fun j hj => by rw [i2.1 j hj, if_pos hj]⟩
  have e1' : (List.range' 0 (sfmtN - sfmtPos)).foldlM (fun s i => genPassSse i (i + sfmtPos) s) (⟨m, m (sfmtN - 2), m (sfmtN - 1)⟩ : GenLoopSse) =
      some s1 := e1
  have e2' : (List.range' (sfmtN - sfmtPos) sfmtPos).foldlM (fun s i => genPassSse i (i + sfmtPos - sfmtN) s) s1 = some s2 := e2
  rw [genRandAllSse, rd_some (by decide), rd_some (by decide)]
  simp only [Option.bind_eq_bind, Option.bind_some, e1', e2']

/-! ## The calls of `gen_rand32` -/

/-- a version of `gen_rand_all` that computes the next block -/
def GoodAll (all : SMem → Option SMem) : Prop :=
  ∀ (w : ℕ → BitVec 128), SfmtRec w → ∀ (B : ℕ) (m : SMem), (∀ j, j < 156 → (m j).bits = w (B + j)) →
    ∃ m', all m = some m' ∧ ∀ j, j < 156 → (m' j).bits = w (B + 156 + j)

/-- the state of the generator before draw number `k` -/
def AtDraw (w : ℕ → BitVec 128) (k : ℕ) (s : SfmtState) : Prop :=
  s.init = true ∧ s.idx ≤ 624 ∧ ∃ B, (∀ j, j < 156 → (s.mem j).bits = w (156 * B + j)) ∧ k + 624 = 624 * B + s.idx

theorem draw_one {all : SMem → Option SMem} (ha : GoodAll all) {w : ℕ → BitVec 128} (hw : SfmtRec w) {k : ℕ} {s : SfmtState}
    (h : AtDraw w k s) : ∃ s', genRand32 all s = some (drawAt w k, s') ∧ AtDraw w (k + 1) s' := by
  obtain ⟨hi, hx, B, hm, hk⟩ := h
  have hN : sfmtN32 = 624 := rfl
  have hN' : sfmtN = 156 := rfl
  by_cases c : s.idx ≥ 624
  · obtain ⟨m', e, hm'⟩ := ha w hw (156 * B) s.mem hm
    have hr : m'.rd32 0 = some (drawAt w k) := by
      have hb := hm' 0 (by omega)
      have : k = 624 * B := by omega
      rw [SMem.rd32, rd_some (by rw [hN']; omega)]
      simp only [drawAt, Option.bind_eq_bind, Option.bind_some]
      rw [show k % 4 = 0 by omega, show 156 + k / 4 = 156 * B + 156 + 0 by omega, ← hb]
      exact congrArg some (lane_bits0 _).symm
    refine ⟨⟨m', 1, true⟩, ?_, rfl, by show 1 ≤ 624; omega, B + 1, ?_, ?_⟩
    · rw [genRand32, if_pos hi, if_pos (by rw [hN]; exact c), e]
      simp only [Option.bind_eq_bind, Option.bind_some, hr, hi]
    · intro j hj
      rw [show 156 * (B + 1) + j = 156 * B + 156 + j by omega]
      exact hm' j hj
    · show k + 1 + 624 = 624 * (B + 1) + 1; omega
  · have hr : s.mem.rd32 s.idx = some (drawAt w k) := by
      have hb := hm (s.idx / 4) (by omega)
      rw [SMem.rd32, rd_some (by rw [hN']; omega)]
      simp only [drawAt, Option.bind_eq_bind, Option.bind_some]
      rw [show k % 4 = s.idx % 4 by omega, show 156 + k / 4 = 156 * B + s.idx / 4 by omega, ← hb]
      exact congrArg some (lane_bits _ _ (Nat.mod_lt _ (by omega))).symm
    refine ⟨{ s with idx := s.idx + 1 }, ?_, hi, by show s.idx + 1 ≤ 624; omega, B, hm, ?_⟩
    · rw [genRand32, if_pos hi, if_neg (by rw [hN]; exact c)]
      simp only [Option.bind_eq_bind, Option.bind_some, hr]
    · show k + 1 + 624 = 624 * B + (s.idx + 1); omega

theorem draw_list {all : SMem → Option SMem} (ha : GoodAll all) {w : ℕ → BitVec 128} (hw : SfmtRec w) (n : ℕ) :
    ∀ {k : ℕ} {s : SfmtState}, AtDraw w k s → genList all n s = some ((List.range n).map fun j => drawAt w (k + j)) := by
  induction n with
  | zero => intro k s _; rfl
  | succ n ih =>
    intro k s h
    obtain ⟨s', e, h'⟩ := draw_one ha hw h
    rw [genList, e]
    simp only [Option.bind_eq_bind, Option.bind_some, ih h']
    rw [List.range_succ_eq_map]
    simp only [List.map_cons, List.map_map, Nat.add_zero]
    congr 2
    apply List.map_congr_left
    intro j _
    show _ = drawAt w (k + (j + 1))
    rw [show k + (j + 1) = k + 1 + j by omega]

end MVMC
