import Verif.Proof.SfmtSeed
import Mathlib.Data.Fintype.BigOperators
import Mathlib.Data.Fintype.EquivFin
import Mathlib.Data.Fintype.Pi
import Mathlib.Data.Fintype.Pigeonhole
import Mathlib.SetTheory.Cardinal.Finite
import Mathlib.Algebra.Order.BigOperators.Group.Finset
import Mathlib.Tactic.IntervalCases

namespace MVMC
open Spec

/-! ## Sequences of the recursion -/

/-- the sequence with given first elements -/
def sfmtSeq (st : ℕ → BitVec 128) (n : ℕ) : BitVec 128 :=
  if _h : n < 156 then st n
  else sfmtG (sfmtSeq st (n - 156)) (sfmtSeq st (n - 34)) (sfmtSeq st (n - 2)) (sfmtSeq st (n - 1))
termination_by n

theorem seq_lt (st : ℕ → BitVec 128) {n : ℕ} (h : n < 156) : sfmtSeq st n = st n := by
  rw [sfmtSeq, dif_pos h]

theorem seq_rec (st : ℕ → BitVec 128) : SfmtRec (sfmtSeq st) := by
  intro i
  rw [sfmtSeq, dif_neg (by omega), show i + 156 - 156 = i by omega, show i + 156 - 34 = i + 122 by omega,
    show i + 156 - 2 = i + 154 by omega, show i + 156 - 1 = i + 155 by omega]

theorem agree_forward {w w' : ℕ → BitVec 128} (hw : SfmtRec w) (hw' : SfmtRec w') {n : ℕ} (h : ∀ j, j < 156 → w (n + j) = w' (n + j)) :
    ∀ j, w (n + j) = w' (n + j) := by
  intro j
  induction j using Nat.strong_induction_on with
  | _ j ih =>
    by_cases c : j < 156
    · exact h j c
    · obtain ⟨i, rfl⟩ : ∃ i, j = i + 156 := ⟨j - 156, by omega⟩
      rw [← Nat.add_assoc, hw, hw', ih i (by omega), Nat.add_assoc, ih (i + 122) (by omega), Nat.add_assoc, ih (i + 154) (by omega),
        Nat.add_assoc, ih (i + 155) (by omega)]

theorem agree_back {w w' : ℕ → BitVec 128} (hw : SfmtRec w) (hw' : SfmtRec w') (n : ℕ) (h : ∀ j, w (n + j) = w' (n + j)) :
    ∀ j, w j = w' j := by
  induction n with
  | zero => simpa using h
  | succ n ih =>
    apply ih
    intro j
    cases j with
    | succ j => rw [show n + (j + 1) = n + 1 + j by omega]; exact h j
    | zero =>
      have e1 := hw n
      have e2 := hw' n
      rw [show n + 156 = n + 1 + 155 by omega, h, show n + 122 = n + 1 + 121 by omega, h, show n + 154 = n + 1 + 153 by omega, h,
        show n + 155 = n + 1 + 154 by omega, h] at e1
      rw [show n + 156 = n + 1 + 155 by omega, show n + 122 = n + 1 + 121 by omega, show n + 154 = n + 1 + 153 by omega,
        show n + 155 = n + 1 + 154 by omega] at e2
      rw [e2] at e1
      exact (sfmtG_inj e1).symm

/-- 156 consecutive elements determine the whole sequence -/
theorem window_eq {w w' : ℕ → BitVec 128} (hw : SfmtRec w) (hw' : SfmtRec w') {n : ℕ} (h : ∀ j, j < 156 → w (n + j) = w' (n + j)) : w = w' :=
  funext (agree_back hw hw' n (agree_forward hw hw' h))

theorem lane_ext {x y : BitVec 128} (h : ∀ k, k < 4 → lane x k = lane y k) : x = y := by
  rw [← bits_ofBits x, ← bits_ofBits y]
  congr 1
  show W128.mk (lane x 0) (lane x 1) (lane x 2) (lane x 3) = W128.mk (lane y 0) (lane y 1) (lane y 2) (lane y 3)
  rw [h 0 (by omega), h 1 (by omega), h 2 (by omega), h 3 (by omega)]

theorem draws_window {w w' : ℕ → BitVec 128} {k : ℕ} (hk : k % 4 = 0) (h : ∀ j, j < 624 → drawAt w (k + j) = drawAt w' (k + j)) :
    ∀ j, j < 156 → w (156 + k / 4 + j) = w' (156 + k / 4 + j) := by
  intro j hj
  apply lane_ext
  intro l hl
  have := h (4 * j + l) (by omega)
  unfold drawAt at this
  rw [show (k + (4 * j + l)) % 4 = l by omega, show 156 + (k + (4 * j + l)) / 4 = 156 + k / 4 + j by omega] at this
  exact this

/-- equal draws at 624 consecutive positions: equal sequences -/
theorem draws_eq {w w' : ℕ → BitVec 128} (hw : SfmtRec w) (hw' : SfmtRec w') {k : ℕ} (hk : k % 4 = 0)
    (h : ∀ j, j < 624 → drawAt w (k + j) = drawAt w' (k + j)) : w = w' :=
  window_eq hw hw' (draws_window hk h)

theorem zero_rec : SfmtRec (fun _ => 0#128) := by
  intro i
  show 0#128 = sfmtG 0 0 0 0
  decide

theorem not_cert_zero : ¬ Certified 0#128 := by
  rw [show (0#128) = (⟨0#32, 0#32, 0#32, 0#32⟩ : W128).bits by decide, cert_bits]
  decide

/-! ## Seeds -/

theorem mult_inj {x y : BitVec 32} (h : 1812433253#32 * x = 1812433253#32 * y) : x = y := by
  have e : 2520285293#32 * 1812433253#32 = 1#32 := by decide
  have := congrArg (2520285293#32 * ·) h
  simpa only [← BitVec.mul_assoc, e, BitVec.one_mul] using this

theorem fold_inj {x y : BitVec 32} (h : x ^^^ (x >>> 30) = y ^^^ (y >>> 30)) : x = y := by
  have key : ∀ z : BitVec 32, (z ^^^ (z >>> 30)) ^^^ ((z ^^^ (z >>> 30)) >>> 30) = z := by
    intro z
    apply BitVec.eq_of_getLsbD_eq; intro i hi
    simp only [BitVec.getLsbD_xor, BitVec.getLsbD_ushiftRight]
    rw [BitVec.getLsbD_of_ge z (30 + (30 + i)) (by omega)]
    cases z.getLsbD i <;> cases z.getLsbD (30 + i) <;> rfl
  rw [← key x, ← key y, h]

theorem seedWord_inj {s s' : BitVec 32} (h : seedWord s 1 = seedWord s' 1) : s = s' := by
  apply fold_inj
  apply mult_inj
  simp only [seedWord] at h
  exact (BitVec.add_left_inj _).1 h

theorem starts_seed {s s' : BitVec 32} {w : ℕ → BitVec 128} (h : StartsFrom s w) (h' : StartsFrom s' w) : s = s' := by
  apply seedWord_inj
  rw [← h.words 1 (by omega) (by omega), ← h'.words 1 (by omega) (by omega)]

theorem first_unique {x y : W128} (h0 : x.u0 >>> 1 = y.u0 >>> 1) (h3 : x.u3 = y.u3) (hx : Certified x.bits) (hy : Certified y.bits) :
    x.u0 = y.u0 := by
  rw [cert_bits] at hx hy
  rw [h3] at hx
  have hp : par (x.u0 &&& 1#32) = par (y.u0 &&& 1#32) := by
    revert hx hy
    cases par (x.u0 &&& 1#32) <;> cases par (y.u0 &&& 1#32) <;> cases par (y.u3 &&& 0x13c9e684#32) <;> simp
  have hb : ∀ z : BitVec 32, par (z &&& 1#32) = z.getLsbD 0 := by
    intro z
    simp [par, xorTo]
  apply BitVec.eq_of_getLsbD_eq; intro i hi
  by_cases c : i = 0
  · subst c; rw [← hb, ← hb, hp]
  · have := congrArg (fun v => v.getLsbD (i - 1)) h0
    simp only [BitVec.getLsbD_ushiftRight] at this
    rwa [show 1 + (i - 1) = i by omega] at this

theorem starts_unique {s : BitVec 32} {w w' : ℕ → BitVec 128} (hw : SfmtRec w) (hw' : SfmtRec w') (h : StartsFrom s w) (h' : StartsFrom s w') :
    w = w' := by
  have hl : ∀ k, 1 ≤ k → k < 624 → lane (w (k / 4)) (k % 4) = lane (w' (k / 4)) (k % 4) := fun k h1 h2 => by
    rw [h.words k h1 h2, h'.words k h1 h2]
  apply window_eq hw hw' (n := 0)
  intro j hj
  rw [Nat.zero_add]
  apply lane_ext
  intro l hl'
  by_cases c : j = 0 ∧ l = 0
  · obtain ⟨rfl, rfl⟩ := c
    have h0 := h.first.trans h'.first.symm
    have h3 := hl 3 (by omega) (by omega)
    have hc := h.cert
    have hc' := h'.cert
    rw [← bits_ofBits (w 0)] at hc h0 ⊢
    rw [← bits_ofBits (w' 0)] at hc' h0 ⊢
    simp only [lane_bits0] at h0 ⊢
    exact first_unique h0 h3 hc hc'
  · have := hl (4 * j + l) (by omega) (by omega)
    rwa [show (4 * j + l) / 4 = j by omega, show (4 * j + l) % 4 = l by omega] at this

/-! ## All states -/

instance finiteBitVec (n : ℕ) : Finite (BitVec n) := Finite.of_injective BitVec.toFin fun _ _ h => BitVec.eq_of_toFin_eq h

theorem card_bitVec (n : ℕ) : Nat.card (BitVec n) = 2 ^ n := by
  rw [← Nat.card_fin (2 ^ n)]
  exact Nat.card_congr ⟨BitVec.toFin, BitVec.ofFin, fun _ => rfl, fun _ => rfl⟩

/-- the elements of a state as the beginning of a sequence -/
def extSt (st : Fin 156 → BitVec 128) (n : ℕ) : BitVec 128 := if h : n < 156 then st ⟨n, h⟩ else 0

/-- the sequence started in a state -/
def seqFrom (st : Fin 156 → BitVec 128) : ℕ → BitVec 128 := sfmtSeq (extSt st)

theorem seqFrom_rec (st) : SfmtRec (seqFrom st) := seq_rec _

theorem seqFrom_lt (st : Fin 156 → BitVec 128) (j : Fin 156) : seqFrom st j = st j := by
  rw [seqFrom, seq_lt _ j.2, extSt, dif_pos j.2]

/-- every state is reached, after any number of elements, from exactly one state -/
theorem window_bij (n : ℕ) : Function.Bijective (fun (st : Fin 156 → BitVec 128) (j : Fin 156) => seqFrom st (n + j)) := by
  rw [← Finite.injective_iff_bijective]
  intro st st' h
  have := window_eq (seqFrom_rec st) (seqFrom_rec st') (n := n) fun j hj => congrFun h ⟨j, hj⟩
  funext j
  rw [← seqFrom_lt st, ← seqFrom_lt st', this]

/-- the same for 624 numbers drawn one after the other -/
theorem draws_bij {k : ℕ} (hk : k % 4 = 0) :
    Function.Bijective (fun (st : Fin 156 → BitVec 128) (j : Fin 624) => drawAt (seqFrom st) (k + j)) := by
  have hinj : Function.Injective (fun (st : Fin 156 → BitVec 128) (j : Fin 624) => drawAt (seqFrom st) (k + j)) := by
    intro st st' h
    have := draws_eq (seqFrom_rec st) (seqFrom_rec st') hk fun j hj => congrFun h ⟨j, hj⟩
    funext j
    rw [← seqFrom_lt st, ← seqFrom_lt st', this]
  refine (Nat.bijective_iff_injective_and_card _).2 ⟨hinj, ?_⟩
  rw [Nat.card_fun, Nat.card_fun, card_bitVec, card_bitVec, Nat.card_fin, Nat.card_fin, ← pow_mul, ← pow_mul]

/-- functions with given values on `m` positions from `r` on -/
theorem count_fixed {N r m : ℕ} (h : r + m ≤ N) (l : Fin m → BitVec 32) :
    Nat.card {f : Fin N → BitVec 32 // ∀ i : Fin m, f ⟨r + i, by omega⟩ = l i} = 2 ^ (32 * (N - m)) := by
  classical
  have : Fintype (BitVec 32) := Fintype.ofFinite _
  have hc : Fintype.card (BitVec 32) = 2 ^ 32 := by rw [← Nat.card_eq_fintype_card, card_bitVec]
  let S : Fin N → Finset (BitVec 32) := fun p => if hp : r ≤ p.1 ∧ p.1 < r + m then {l ⟨p.1 - r, by omega⟩} else Finset.univ
  have he : Nat.card {f : Fin N → BitVec 32 // ∀ i : Fin m, f ⟨r + i, by omega⟩ = l i} = (Fintype.piFinset S).card := by
    rw [Nat.card_eq_fintype_card, Fintype.card_subtype]
    congr 1
    ext f
    simp only [Finset.mem_filter, Finset.mem_univ, true_and, Fintype.mem_piFinset]
    constructor
    · intro hf p
      simp only [S]
      split_ifs with hp
      · rw [Finset.mem_singleton, ← hf ⟨p.1 - r, by omega⟩]
        congr 1; apply Fin.ext; show p.1 = r + (p.1 - r); omega
      · exact Finset.mem_univ _
    · intro hf i
      have := hf ⟨r + i, by omega⟩
      simp only [S] at this
      rw [dif_pos ⟨by omega, by omega⟩, Finset.mem_singleton] at this
      rw [this]; congr 1; apply Fin.ext; show r + i.1 - r = i.1; omega
  rw [he, Fintype.card_piFinset]
  have hp : ∀ p : Fin N, (S p).card = if r ≤ p.1 ∧ p.1 < r + m then 1 else 2 ^ 32 := by
    intro p
    simp only [S]
    split_ifs with hp
    · exact Finset.card_singleton _
    · rw [Finset.card_univ, hc]
  rw [Finset.prod_congr rfl fun p _ => hp p, Finset.prod_ite, Finset.prod_const_one, one_mul, Finset.prod_const, pow_mul]
  congr 1
  have h2 : (Finset.univ.filter fun p : Fin N => r ≤ p.1 ∧ p.1 < r + m).card = m := by
    have : (Finset.univ.filter fun p : Fin N => r ≤ p.1 ∧ p.1 < r + m) =
        Finset.univ.map ⟨fun i : Fin m => (⟨r + i.1, by omega⟩ : Fin N), fun i j hij => by
          have := congrArg Fin.val hij; apply Fin.ext; simp only at this; omega⟩ := by
      ext p
      simp only [Finset.mem_filter, Finset.mem_univ, true_and, Finset.mem_map]
      constructor
      · intro hp'
        exact ⟨⟨p.1 - r, by omega⟩, by apply Fin.ext; show r + (p.1 - r) = p.1; omega⟩
      · rintro ⟨i, rfl⟩
        show r ≤ r + i.1 ∧ r + i.1 < r + m
        exact ⟨by omega, by omega⟩
    rw [this, Finset.card_map, Finset.card_univ, Fintype.card_fin]
  have h3 := Finset.card_filter_add_card_filter_not (s := (Finset.univ : Finset (Fin N))) (fun p => r ≤ p.1 ∧ p.1 < r + m)
  rw [h2, Finset.card_univ, Fintype.card_fin] at h3
  omega

/-- of all states, equally many give each list of numbers -/
theorem count_draws {k m : ℕ} (h : k % 4 + m ≤ 624) (l : Fin m → BitVec 32) :
    Nat.card {st : Fin 156 → BitVec 128 // ∀ i : Fin m, drawAt (seqFrom st) (k + i) = l i} = 2 ^ (32 * (624 - m)) := by
  rw [← count_fixed h l]
  have hb := draws_bij (k := k - k % 4) (by omega)
  refine Nat.card_congr ((Equiv.ofBijective _ hb).subtypeEquiv fun st => ?_)
  refine forall_congr' fun i => ?_
  show _ ↔ drawAt (seqFrom st) (k - k % 4 + (k % 4 + i.1)) = l i
  rw [show k - k % 4 + (k % 4 + i.1) = k + i.1 by omega]

/-- every sequence returns to its start -/
theorem seq_periodic {w : ℕ → BitVec 128} (hw : SfmtRec w) : ∃ p, 0 < p ∧ ∀ n, w (n + p) = w n := by
  obtain ⟨a, b, hab, e⟩ := Finite.exists_ne_map_eq_of_infinite (fun (n : ℕ) (j : Fin 156) => w (n + j))
  have key : ∀ a b : ℕ, a < b → (∀ j : Fin 156, w (a + j) = w (b + j)) → ∃ p, 0 < p ∧ ∀ n, w (n + p) = w n := by
    intro a b hab e
    refine ⟨b - a, by omega, ?_⟩
    have hs : SfmtRec (fun n => w (n + (b - a))) := by
      intro i
      have := hw (i + (b - a))
      simp only
      rw [show i + 156 + (b - a) = i + (b - a) + 156 by omega, this, show i + 122 + (b - a) = i + (b - a) + 122 by omega,
        show i + 154 + (b - a) = i + (b - a) + 154 by omega, show i + 155 + (b - a) = i + (b - a) + 155 by omega]
    have := window_eq hs hw (n := a) fun j hj => by
      have := e ⟨j, hj⟩
      simp only at this ⊢
      rw [this, show a + j + (b - a) = b + j by omega]
    exact fun n => congrFun this n
  rcases Nat.lt_or_gt_of_ne hab with h | h
  · exact key a b h fun j => congrFun e j
  · exact key b a h fun j => (congrFun e j).symm

end MVMC
