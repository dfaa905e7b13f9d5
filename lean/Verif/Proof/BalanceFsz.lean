import Verif.Proof.Balance
import Verif.Proof.SamplerFsz

/-!
# Reversing a proposed move in the general-Sz sampler: helper lemmas
-/
namespace MVMC
open Spec

/-! ### exchanging two (site, spin) slots in a pair of draws -/

/-- exchange the slots `A` and `B` -/
def swapSlot (A B x : Nat × Nat) : Nat × Nat := if x = A then B else if x = B then A else x

/-- the draw with the other spin -/
def flipCoin (v : Nat) : Nat := if v < 2147483648 then v + 2147483648 else v - 2147483648

/-- a draw with spin `t` -/
def setCoin (v t : Nat) : Nat := if coin v = t then v else flipCoin v

/-- draws for the exchanged slot -/
def swapPair (N : Nat) (A B : Nat × Nat) (u v : Nat) : Nat × Nat :=
  (u / N * N + (swapSlot A B (u % N, coin v)).1, setCoin v (swapSlot A B (u % N, coin v)).2)

theorem swapSlot_swap (A B x : Nat × Nat) : swapSlot A B (swapSlot A B x) = x := by
  unfold swapSlot
  by_cases h1 : x = A
  · subst h1; simp only [if_true]
    by_cases h2 : B = x
    · rw [if_pos h2, h2]
    · rw [if_neg h2]
  · rw [if_neg h1]
    by_cases h2 : x = B
    · subst h2; simp
    · rw [if_neg h2, if_neg h1, if_neg h2]

theorem swapSlot_comm (A B x : Nat × Nat) : swapSlot A B x = swapSlot B A x := by
  unfold swapSlot
  by_cases h1 : x = A
  · by_cases h2 : x = B
    · rw [if_pos h1, if_pos h2, ← h1, ← h2]
    · rw [if_pos h1, if_neg h2, if_pos h1]
  · by_cases h2 : x = B
    · rw [if_neg h1, if_pos h2, if_pos h2]
    · rw [if_neg h1, if_neg h2, if_neg h2, if_neg h1]

theorem swapPair_comm (N : Nat) (A B : Nat × Nat) : swapPair N A B = swapPair N B A := by
  funext u v; unfold swapPair; rw [swapSlot_comm]

/-- a slot of the lattice -/
def SlotLt (N : Nat) (A : Nat × Nat) : Prop := A.1 < N ∧ A.2 < 2

theorem swapSlot_lt {N : Nat} {A B x : Nat × Nat} (hA : SlotLt N A) (hB : SlotLt N B) (hx : SlotLt N x) :
    SlotLt N (swapSlot A B x) := by
  unfold swapSlot; split
  · exact hB
  · split
    · exact hA
    · exact hx

theorem setCoin_coin {v t : Nat} (hv : v < 4294967296) (ht : t < 2) : coin (setCoin v t) = t := by
  unfold setCoin
  by_cases h : coin v = t
  · rw [if_pos h, h]
  · rw [if_neg h]
    unfold flipCoin
    unfold coin at h ⊢
    split_ifs at h ⊢ <;> omega

theorem setCoin_lt {v : Nat} (t : Nat) (hv : v < 4294967296) : setCoin v t < 4294967296 := by
  unfold setCoin flipCoin; split_ifs <;> omega

theorem setCoin_back {v t : Nat} (hv : v < 4294967296) (ht : t < 2) : setCoin (setCoin v t) (coin v) = v := by
  unfold setCoin
  by_cases h : coin v = t
  · rw [if_pos h, if_pos rfl]
  · rw [if_neg h]
    have hc := coin_lt v
    have : coin (flipCoin v) ≠ coin v := by
      unfold flipCoin coin; split_ifs <;> omega
    rw [if_neg this]
    unfold flipCoin; split_ifs <;> omega

section
variable {N : Nat} {A B : Nat × Nat} (hA : SlotLt N A) (hB : SlotLt N B)
include hA hB

theorem slot_of_draw (u v : Nat) : SlotLt N (u % N, coin v) :=
  ⟨Nat.mod_lt _ (by have := hA.1; omega), coin_lt v⟩

theorem swapPair_slot (u : Nat) {v : Nat} (hv : v < 4294967296) :
    ((swapPair N A B u v).1 % N, coin (swapPair N A B u v).2) = swapSlot A B (u % N, coin v) := by
  have h := swapSlot_lt hA hB (slot_of_draw hA hB u v)
  unfold swapPair
  simp only
  rw [Nat.add_comm, Nat.add_mul_mod_self_right, Nat.mod_eq_of_lt h.1, setCoin_coin hv h.2]

theorem swapPair_div (u v : Nat) : (swapPair N A B u v).1 / N = u / N := by
  have h := swapSlot_lt hA hB (slot_of_draw hA hB u v)
  unfold swapPair
  simp only
  rw [Nat.add_comm, Nat.add_mul_div_right _ _ (by have := h.1; omega), Nat.div_eq_of_lt h.1, Nat.zero_add]

theorem swapPair_swap (u : Nat) {v : Nat} (hv : v < 4294967296) :
    swapPair N A B (swapPair N A B u v).1 (swapPair N A B u v).2 = (u, v) := by
  have h := swapSlot_lt hA hB (slot_of_draw hA hB u v)
  have hs := swapPair_slot hA hB u hv
  have e : swapPair N A B (swapPair N A B u v).1 (swapPair N A B u v).2 =
      (u / N * N + u % N, setCoin (swapPair N A B u v).2 (coin v)) := by
    have hd := swapPair_div hA hB u v
    generalize swapPair N A B u v = q at hs hd
    unfold swapPair
    rw [hs, swapSlot_swap, hd]
  rw [e, Nat.mul_comm, Nat.div_add_mod]
  show (u, setCoin (setCoin v _) (coin v)) = _
  rw [setCoin_back hv h.2]

theorem swapPair_lt {T u : Nat} (v : Nat) (hT : N ∣ T) (hu : u < T) : (swapPair N A B u v).1 < T := by
  obtain ⟨q, rfl⟩ := hT
  have h1 : (swapPair N A B u v).1 / N < q := by
    rw [swapPair_div hA hB]
    exact Nat.div_lt_of_lt_mul hu
  have h2 := Nat.lt_mul_of_div_lt h1 (show 0 < N by have := hA.1; omega)
  rw [Nat.mul_comm]
  exact h2

end

/-- apply `f` to consecutive pairs -/
def mapPairs (f : Nat → Nat → Nat × Nat) : List Nat → List Nat
  | u :: v :: r => (f u v).1 :: (f u v).2 :: mapPairs f r
  | r => r

/-- the first draw of each consecutive pair is below `T` -/
def FairPairs (T : Nat) : List Nat → Prop
  | u :: _ :: r => u < T ∧ FairPairs T r
  | _ => True

theorem mapPairs_length (f : Nat → Nat → Nat × Nat) (r : List Nat) : (mapPairs f r).length = r.length := by
  fun_induction mapPairs f r with
  | case1 u v r ih => simp [ih]
  | case2 => rfl

theorem mapPairs_swap {N : Nat} {A B : Nat × Nat} (hA : SlotLt N A) (hB : SlotLt N B) (r : List Nat)
    (hr : ∀ u ∈ r, u < 4294967296) : mapPairs (swapPair N A B) (mapPairs (swapPair N A B) r) = r := by
  fun_induction mapPairs (swapPair N A B) r with
  | case1 u v r ih =>
    have hv := hr v (by simp)
    rw [mapPairs, swapPair_swap hA hB u hv, ih (fun x hx => hr x (by simp [hx]))]
  | case2 r h => rw [mapPairs]; exact h

theorem mapPairs_lt {N T : Nat} {A B : Nat × Nat} (hA : SlotLt N A) (hB : SlotLt N B) (hT : N ∣ T)
    (r : List Nat) (hr : ∀ u ∈ r, u < 4294967296) (hT' : T ≤ 4294967296) (hf : FairPairs T r) :
    (∀ u ∈ mapPairs (swapPair N A B) r, u < 4294967296) ∧ FairPairs T (mapPairs (swapPair N A B) r) := by
  fun_induction mapPairs (swapPair N A B) r with
  | case1 u v r ih =>
    have hf' : u < T ∧ FairPairs T r := hf
    have ih' := ih (fun x hx => hr x (by simp [hx])) hf'.2
    have hu := swapPair_lt hA hB v hT hf'.1
    refine ⟨?_, hu, ih'.2⟩
    intro x hx
    simp only [List.mem_cons] at hx
    rcases hx with rfl | rfl | hx
    · omega
    · exact setCoin_lt _ (hr v (by simp))
    · exact ih'.1 x hx
  | case2 r h => exact ⟨hr, hf⟩

/-! ### the first loop -/

theorem pickItinerantF_split {p : FPar} {c : FCfg} (r : List Nat) {x : Nat × Nat × Nat}
    {r1 : List Nat} (h : pickItinerantF p c r = some (x, r1)) :
    ∃ pre, r = pre ++ r1 ∧ ∀ tl, pickItinerantF p c (pre ++ tl) = some (x, tl) := by
  fun_induction pickItinerantF p c r with
  | case1 u r mi' ri' hl ih =>
    obtain ⟨pre, e, hp⟩ := ih h
    refine ⟨u :: pre, by rw [e]; rfl, fun tl => ?_⟩
    rw [List.cons_append, pickItinerantF]
    rw [if_pos hl]
    exact hp tl
  | case2 u r mi' s' ri' hl =>
    simp only [Option.some.injEq, Prod.mk.injEq] at h
    obtain ⟨rfl, rfl⟩ := h
    refine ⟨[u], rfl, fun tl => ?_⟩
    show pickItinerantF p c (u :: tl) = _
    rw [pickItinerantF, if_neg hl]
  | case3 => simp at h

theorem nsize_pos {p : FPar} (hNe : 0 < p.Ne) : 0 < p.Nsize := by unfold FPar.Nsize; omega

theorem pickItinerantF_congr {p : FPar} {c c' : FCfg} (hNe : 0 < p.Ne)
    (hl : ∀ m < p.Nsize, (p.locSpn (c.idx m).toNat = 1 ↔ p.locSpn (c'.idx m).toNat = 1))
    (r : List Nat) {mi ri s : Nat} {r1 : List Nat}
    (h : pickItinerantF p c r = some ((mi, ri, s), r1)) :
    pickItinerantF p c' r = some ((mi, (c'.idx mi).toNat, (c'.spn mi).toNat), r1) := by
  have hN := nsize_pos hNe
  fun_induction pickItinerantF p c r with
  | case1 u r mi' ri' h1 ih =>
    rw [pickItinerantF, if_pos ((hl _ (Nat.mod_lt u hN)).mp h1)]
    exact ih h
  | case2 u r mi' s' ri' h1 =>
    simp only [Option.some.injEq, Prod.mk.injEq] at h
    obtain ⟨⟨rfl, rfl, rfl⟩, rfl⟩ := h
    rw [pickItinerantF, if_neg (fun x => h1 ((hl _ (Nat.mod_lt u hN)).mpr x))]
  | case3 => simp at h

/-! ### the second loops -/

/-- slot `x` cannot be the target of a hop -/
def Blocked (p : FPar) (c : FCfg) (x : Nat × Nat) : Prop :=
  c.cfg (x.1 + x.2 * p.Nsite) ≠ -1 ∨ p.locSpn x.1 = 1

theorem pickTargetF_swap {p : FPar} {c c' : FCfg} {A B : Nat × Nat} (hA : SlotLt p.Nsite A)
    (hB : SlotLt p.Nsite B)
    (hl : ∀ x, SlotLt p.Nsite x → (Blocked p c x ↔ Blocked p c' (swapSlot A B x)))
    (icnt : Nat) (r : List Nat) (hr : ∀ u ∈ r, u < 4294967296) {y t : Nat} {fl : Bool} {r1 : List Nat}
    (h : pickTargetF p c icnt r = some ((y, t, fl), r1)) :
    pickTargetF p c' icnt (mapPairs (swapPair p.Nsite A B) r) =
      some (((swapSlot A B (y, t)).1, (swapSlot A B (y, t)).2, fl), mapPairs (swapPair p.Nsite A B) r1) := by
  fun_induction pickTargetF p c icnt r with
  | case1 icnt u v r rj' t' h1 =>
    simp only [Option.some.injEq, Prod.mk.injEq] at h
    obtain ⟨⟨rfl, rfl, rfl⟩, rfl⟩ := h
    have hs := swapPair_slot hA hB u (hr v (by simp))
    rw [mapPairs, pickTargetF, if_pos h1, ← hs]
  | case2 icnt u v r rj' t' h1 h2 ih =>
    have hs := swapPair_slot hA hB u (hr v (by simp))
    have hb : Blocked p c' (swapSlot A B (rj', t')) := (hl _ (slot_of_draw hA hB u v)).mp h2
    rw [← hs] at hb
    have hb' : c'.cfg ((swapPair p.Nsite A B u v).1 % p.Nsite + coin (swapPair p.Nsite A B u v).2 * p.Nsite) ≠ -1 ∨
        p.locSpn ((swapPair p.Nsite A B u v).1 % p.Nsite) = 1 := hb
    rw [mapPairs, pickTargetF, if_neg h1, if_pos hb']
    exact ih (fun x hx => hr x (by simp [hx])) h
  | case3 icnt u v r rj' t' h1 h2 =>
    simp only [Option.some.injEq, Prod.mk.injEq] at h
    obtain ⟨⟨rfl, rfl, rfl⟩, rfl⟩ := h
    have hs := swapPair_slot hA hB u (hr v (by simp))
    have hb : ¬ Blocked p c' (swapSlot A B (rj', t')) :=
      fun x => h2 ((hl _ (slot_of_draw hA hB u v)).mpr x)
    rw [← hs] at hb
    have hb' : ¬ (c'.cfg ((swapPair p.Nsite A B u v).1 % p.Nsite + coin (swapPair p.Nsite A B u v).2 * p.Nsite) ≠ -1 ∨
        p.locSpn ((swapPair p.Nsite A B u v).1 % p.Nsite) = 1) := hb
    rw [mapPairs, pickTargetF, if_neg h1, if_neg hb', ← hs]
  | case4 => simp at h

theorem pickTargetC_swap {p : FPar} {c c' : FCfg} {s a b : Nat} (ha : a < p.Nsite) (hb : b < p.Nsite)
    (hl : ∀ x < p.Nsite, (Blocked p c (x, s) ↔ Blocked p c' (swapNat a b x, s)))
    (icnt : Nat) (r : List Nat) {y : Nat} {fl : Bool} {r1 : List Nat}
    (h : pickTargetC p c s icnt r = some ((y, fl), r1)) :
    pickTargetC p c' s icnt (r.map (swapRes p.Nsite a b)) =
      some ((swapNat a b y, fl), r1.map (swapRes p.Nsite a b)) := by
  have hN : 0 < p.Nsite := by omega
  fun_induction pickTargetC p c s icnt r with
  | case1 icnt u r rj' h1 =>
    simp only [Option.some.injEq, Prod.mk.injEq] at h
    obtain ⟨⟨rfl, rfl⟩, rfl⟩ := h
    rw [List.map_cons, pickTargetC, if_pos h1, swapRes_mod ha hb]
  | case2 icnt u r rj' h1 h2 ih =>
    have hb' : c'.cfg (swapNat a b (u % p.Nsite) + s * p.Nsite) ≠ -1 ∨
        p.locSpn (swapNat a b (u % p.Nsite)) = 1 := (hl _ (Nat.mod_lt _ hN)).mp h2
    rw [List.map_cons, pickTargetC, if_neg h1, swapRes_mod ha hb, if_pos hb']
    exact ih h
  | case3 icnt u r rj' h1 h2 =>
    simp only [Option.some.injEq, Prod.mk.injEq] at h
    obtain ⟨⟨rfl, rfl⟩, rfl⟩ := h
    have hb' : ¬ (c'.cfg (swapNat a b (u % p.Nsite) + s * p.Nsite) ≠ -1 ∨
        p.locSpn (swapNat a b (u % p.Nsite)) = 1) := fun x => h2 ((hl _ (Nat.mod_lt _ hN)).mpr x)
    rw [List.map_cons, pickTargetC, if_neg h1, swapRes_mod ha hb, if_neg hb']
  | case4 => simp at h

/-! ### the reversed move -/

/-- the same electron back -/
def FMove.rev (h : FMove) : FMove := ⟨h.mi, h.rj, h.ri, h.t, h.s⟩

theorem slot_ne {p : FPar} {c : FCfg} (hc : ConsF p c) {h : FMove} (ok : MoveOK p c h) :
    h.ri + h.s * p.Nsite ≠ h.rj + h.t * p.Nsite := by
  rw [Ne, flat_inj ok.s ok.t ok.ri ok.rj]
  exact fun e => moveOK_ne hc ok ⟨e.1.symm, e.2.symm⟩

theorem moveOK_rev {p : FPar} {c : FCfg} (hc : ConsF p c) {h : FMove} (ok : MoveOK p c h) :
    MoveOK p (updateEleConfigF p h c) h.rev := by
  have hne := slot_ne hc ok
  refine ⟨ok.t, ok.s, ok.mi, ok.rj, ok.ri, ?_, ?_, ?_⟩
  · simp [updateEleConfigF, Arr.set, FMove.rev]
  · simp [updateEleConfigF, Arr.set, FMove.rev]
  · simp only [updateEleConfigF, Arr.set, FMove.rev]
    rw [if_neg hne, if_true]

theorem updateF_rev {p : FPar} {c : FCfg} (hc : ConsF p c) {h : FMove} (ok : MoveOK p c h) :
    updateEleConfigF p h.rev (updateEleConfigF p h c) = c := by
  have hne := slot_ne hc ok
  refine Eq.trans ?_ (revertF_update hc ok)
  simp only [revertEleConfigF, updateEleConfigF, FMove.rev, FCfg.mk.injEq, true_and]
  constructor <;> funext k <;> simp only [Arr.set]
  all_goals
    by_cases e1 : k = h.ri + h.s * p.Nsite
    · rw [if_pos e1, if_neg (by omega), if_pos e1]
    · rw [if_neg e1]
      by_cases e2 : k = h.rj + h.t * p.Nsite
      · rw [if_pos e2, if_pos e2]
      · simp only [e1, e2, if_false]

theorem idx_localF {p : FPar} {c : FCfg} {h : FMove} (ok : MoveOK p c h) (hi : Itin p h) :
    ∀ m < p.Nsize, (p.locSpn (c.idx m).toNat = 1 ↔
      p.locSpn ((updateEleConfigF p h c).idx m).toNat = 1) := by
  intro m hm
  simp only [updateEleConfigF, Arr.set]
  by_cases e : m = h.mi
  · rw [if_pos e, e, ok.at', Int.toNat_natCast, Int.toNat_natCast]
    exact ⟨fun x => absurd x hi.1, fun x => absurd x hi.2⟩
  · rw [if_neg e]

theorem cfg_swapF {p : FPar} {c : FCfg} (hc : ConsF p c) {h : FMove} (ok : MoveOK p c h) (hi : Itin p h) :
    ∀ x, SlotLt p.Nsite x →
      (Blocked p c x ↔ Blocked p (updateEleConfigF p h c) (swapSlot (h.ri, h.s) (h.rj, h.t) x)) := by
  rintro ⟨x, σ⟩ ⟨hx, hσ⟩
  simp only at hx hσ
  have hne := slot_ne hc ok
  have hb := (consF_back hc ok.mi ok.at' ok.sp).2.2.1
  have hf := ok.free
  unfold swapSlot Blocked
  by_cases e1 : (x, σ) = (h.ri, h.s)
  · rw [if_pos e1]
    obtain ⟨rfl, rfl⟩ := Prod.mk.inj e1
    have : (updateEleConfigF p h c).cfg (h.rj + h.t * p.Nsite) = h.mi := by
      simp [updateEleConfigF, Arr.set]
    simp only
    rw [this, hb]
    constructor <;> intro _ <;> left <;> omega
  · rw [if_neg e1]
    by_cases e2 : (x, σ) = (h.rj, h.t)
    · rw [if_pos e2]
      obtain ⟨rfl, rfl⟩ := Prod.mk.inj e2
      have : (updateEleConfigF p h c).cfg (h.ri + h.s * p.Nsite) = -1 := by
        simp only [updateEleConfigF, Arr.set]
        rw [if_neg hne, if_true]
      simp only
      rw [this, hf]
      simp [hi.1, hi.2]
    · rw [if_neg e2]
      have : (updateEleConfigF p h c).cfg (x + σ * p.Nsite) = c.cfg (x + σ * p.Nsite) := by
        simp only [updateEleConfigF, Arr.set, flat_inj hσ ok.t hx ok.rj, flat_inj hσ ok.s hx ok.ri]
        rw [if_neg (fun e => e2 (Prod.ext e.1 e.2)), if_neg (fun e => e1 (Prod.ext e.1 e.2))]
      simp only
      rw [this]

theorem hoppingF_reverse {p : FPar} {c : FCfg} (hc : ConsF p c) (hNe : 0 < p.Ne) (hNs : 0 < p.Nsite)
    {r : List Nat} (hr : ∀ u ∈ r, u < 4294967296) {h : FMove} {rest : List Nat}
    (e : makeCandidateHoppingF p c r = some ((h, false), rest)) :
    ∃ pre r1, r = pre ++ r1 ∧ (∀ tl, ∃ x, pickItinerantF p c (pre ++ tl) = some (x, tl)) ∧
      (∀ tl, ∃ x, pickItinerantF p (updateEleConfigF p h c) (pre ++ tl) = some (x, tl)) ∧
      makeCandidateHoppingF p (updateEleConfigF p h c)
          (pre ++ mapPairs (swapPair p.Nsite (h.ri, h.s) (h.rj, h.t)) r1) =
        some ((h.rev, false), mapPairs (swapPair p.Nsite (h.ri, h.s) (h.rj, h.t)) rest) := by
  obtain ⟨ok, hi⟩ := hoppingF_ok hc hNe hNs r e
  unfold makeCandidateHoppingF at e
  split at e
  · simp at e
  · rename_i mi ri s r1 e1
    split at e
    · simp at e
    · rename_i rj t flag r2 e2
      simp only [Option.some.injEq, Prod.mk.injEq] at e
      obtain ⟨⟨rfl, rfl⟩, rfl⟩ := e
      obtain ⟨pre, he, hp⟩ := pickItinerantF_split r e1
      have hp' : ∀ tl, pickItinerantF p (updateEleConfigF p ⟨mi, ri, rj, s, t⟩ c) (pre ++ tl) =
          some ((mi, rj, t), tl) := by
        intro tl
        rw [pickItinerantF_congr hNe (idx_localF ok hi) _ (hp tl)]
        simp [updateEleConfigF, Arr.set]
      refine ⟨pre, r1, he, fun tl => ⟨_, hp tl⟩, fun tl => ⟨_, hp' tl⟩, ?_⟩
      have ht := pickTargetF_swap (A := (ri, s)) (B := (rj, t)) (c' := updateEleConfigF p ⟨mi, ri, rj, s, t⟩ c) ⟨ok.ri, ok.s⟩
        ⟨ok.rj, ok.t⟩ (cfg_swapF hc ok hi) 0 r1
        (fun u hu => hr u (by rw [he]; exact List.mem_append.mpr (Or.inr hu))) e2
      have hsw : swapSlot (ri, s) (rj, t) (rj, t) = (ri, s) := by
        rw [swapSlot_comm]; unfold swapSlot; rw [if_pos rfl]
      rw [hsw] at ht
      unfold makeCandidateHoppingF
      rw [hp' _]
      simp only
      rw [ht]
      rfl

theorem hoppingC_reverse {p : FPar} {c : FCfg} (hc : ConsF p c) (hNe : 0 < p.Ne) (hNs : 0 < p.Nsite)
    {r : List Nat} {h : FMove} {rest : List Nat}
    (e : makeCandidateHoppingC p c r = some ((h, false), rest)) :
    ∃ pre r1, r = pre ++ r1 ∧ (∀ tl, ∃ x, pickItinerantF p c (pre ++ tl) = some (x, tl)) ∧
      (∀ tl, ∃ x, pickItinerantF p (updateEleConfigF p h c) (pre ++ tl) = some (x, tl)) ∧
      makeCandidateHoppingC p (updateEleConfigF p h c) (pre ++ r1.map (swapRes p.Nsite h.ri h.rj)) =
        some ((h.rev, false), rest.map (swapRes p.Nsite h.ri h.rj)) := by
  obtain ⟨ok, hi, _⟩ := hoppingC_ok hc hNe hNs r e
  unfold makeCandidateHoppingC at e
  split at e
  · simp at e
  · rename_i mi ri s r1 e1
    split at e
    · simp at e
    · rename_i rj flag r2 e2
      simp only [Option.some.injEq, Prod.mk.injEq] at e
      obtain ⟨⟨rfl, rfl⟩, rfl⟩ := e
      obtain ⟨pre, he, hp⟩ := pickItinerantF_split r e1
      have hp' : ∀ tl, pickItinerantF p (updateEleConfigF p ⟨mi, ri, rj, s, s⟩ c) (pre ++ tl) =
          some ((mi, rj, s), tl) := by
        intro tl
        rw [pickItinerantF_congr hNe (idx_localF ok hi) _ (hp tl)]
        simp [updateEleConfigF, Arr.set]
      refine ⟨pre, r1, he, fun tl => ⟨_, hp tl⟩, fun tl => ⟨_, hp' tl⟩, ?_⟩
      have hs2 : s < 2 := ok.s
      have hl : ∀ x < p.Nsite, (Blocked p c (x, s) ↔
          Blocked p (updateEleConfigF p ⟨mi, ri, rj, s, s⟩ c) (swapNat ri rj x, s)) := by
        intro x hx
        have := cfg_swapF hc ok hi (x, s) ⟨hx, hs2⟩
        have es : swapSlot (ri, s) (rj, s) (x, s) = (swapNat ri rj x, s) := by
          unfold swapSlot swapNat
          simp only [Prod.mk.injEq, and_true]
          split_ifs <;> rfl
        rw [← es]
        exact this
      have ht := pickTargetC_swap (c' := updateEleConfigF p ⟨mi, ri, rj, s, s⟩ c) ok.ri ok.rj hl 0 r1 e2
      unfold makeCandidateHoppingC
      rw [hp' _]
      simp only
      simp only at ht
      rw [ht]
      have hsw : swapNat ri rj rj = ri := by
        unfold swapNat; split_ifs <;> omega
      rw [hsw]
      rfl

/-! ### spin flips -/

theorem conductionFlip_congr {p : FPar} {c c' : FCfg} (hNe : 0 < p.Ne)
    (hidx : ∀ m < p.Nsize, c'.idx m = c.idx m)
    (hl : ∀ m < p.Nsize, (c.cfg ((c.idx m).toNat + (1 - (c.spn m).toNat) * p.Nsite) = -1 ↔
      c'.cfg ((c'.idx m).toNat + (1 - (c'.spn m).toNat) * p.Nsite) = -1))
    (icnt : Nat) (r : List Nat) {h : FMove} {r1 : List Nat}
    (e : conductionFlip p c icnt r = some ((h, false), r1)) :
    conductionFlip p c' icnt r =
      some ((⟨h.mi, h.ri, h.ri, (c'.spn h.mi).toNat, 1 - (c'.spn h.mi).toNat⟩, false), r1) := by
  have hN := nsize_pos hNe
  fun_induction conductionFlip p c icnt r with
  | case1 => simp at e
  | case2 icnt u r mi s ri h1 h2 ih =>
    have hm := Nat.mod_lt u hN
    rw [conductionFlip, if_neg h1, if_pos]
    · exact ih e
    · rw [hidx _ hm]
      rcases h2 with h2 | h2
      · exact Or.inl h2
      · right
        intro x
        rw [← hidx _ hm] at x
        exact h2 ((hl _ hm).mpr x)
  | case3 icnt u r mi s ri h1 h2 =>
    have hm := Nat.mod_lt u hN
    simp only [Option.some.injEq, Prod.mk.injEq] at e
    obtain ⟨⟨rfl, _⟩, rfl⟩ := e
    rw [not_or, not_not] at h2
    rw [conductionFlip, if_neg h1, if_neg]
    · simp only [hidx _ hm]; rfl
    · rintro (x | x)
      · rw [hidx _ hm] at x; exact h2.1 x
      · exact x ((hl _ hm).mp h2.2)
  | case4 => simp at e

theorem localSpinFlip_congr {p : FPar} {c c' : FCfg} (hNe : 0 < p.Ne)
    (hidx : ∀ m < p.Nsize, c'.idx m = c.idx m) (r : List Nat) {h : FMove} {r1 : List Nat}
    (e : localSpinFlip p c r = some (h, r1)) :
    localSpinFlip p c' r =
      some (⟨h.mi, h.ri, h.ri, (c'.spn h.mi).toNat, 1 - (c'.spn h.mi).toNat⟩, r1) := by
  have hN := nsize_pos hNe
  fun_induction localSpinFlip p c r with
  | case1 u r mi ri h1 ih =>
    have hm := Nat.mod_lt u hN
    rw [localSpinFlip, if_pos]
    · exact ih e
    · rw [hidx _ hm]; exact h1
  | case2 u r mi s ri h1 =>
    have hm := Nat.mod_lt u hN
    simp only [Option.some.injEq, Prod.mk.injEq] at e
    obtain ⟨rfl, rfl⟩ := e
    rw [localSpinFlip, if_neg]
    · simp only [hidx _ hm]; rfl
    · rw [hidx _ hm]; exact h1
  | case3 => simp at e

theorem flip_idx {p : FPar} {c : FCfg} {h : FMove} (ok : MoveOK p c h) (hrr : h.ri = h.rj) :
    ∀ m < p.Nsize, (updateEleConfigF p h c).idx m = c.idx m := by
  intro m _
  simp only [updateEleConfigF, Arr.set]
  by_cases e : m = h.mi
  · rw [if_pos e, e, ok.at', hrr]
  · rw [if_neg e]

theorem flip_single {p : FPar} {c : FCfg} (hc : ConsF p c) {h : FMove} (ok : MoveOK p c h)
    (hrr : h.ri = h.rj) (hst : h.t = 1 - h.s) :
    ∀ m < p.Nsize, (c.cfg ((c.idx m).toNat + (1 - (c.spn m).toNat) * p.Nsite) = -1 ↔
      (updateEleConfigF p h c).cfg (((updateEleConfigF p h c).idx m).toNat +
        (1 - ((updateEleConfigF p h c).spn m).toNat) * p.Nsite) = -1) := by
  intro m hm
  have hs := ok.s
  have hne := slot_ne hc ok
  have hf := ok.free
  rw [flip_idx ok hrr m hm]
  by_cases e : m = h.mi
  · subst e
    have e1 : (updateEleConfigF p h c).spn h.mi = h.t := by simp [updateEleConfigF, Arr.set]
    rw [e1, ok.at', ok.sp, Int.toNat_natCast, Int.toNat_natCast, Int.toNat_natCast, ← hst, hrr, hf,
      show 1 - h.t = h.s by omega, ← hrr]
    simp only [updateEleConfigF, Arr.set]
    rw [if_neg hne, if_true]
    simp
  · obtain ⟨q, hq, σ, hσ, h1, h2, h3⟩ := hc.electron m hm
    have e1 : (updateEleConfigF p h c).spn m = c.spn m := by
      simp only [updateEleConfigF, Arr.set]; rw [if_neg e]
    have hb := (consF_back hc ok.mi ok.at' ok.sp).2.2.1
    rw [e1, h1, h2, Int.toNat_natCast, Int.toNat_natCast]
    have e2 : (updateEleConfigF p h c).cfg (q + (1 - σ) * p.Nsite) = c.cfg (q + (1 - σ) * p.Nsite) := by
      simp only [updateEleConfigF, Arr.set, flat_inj (show 1 - σ < 2 by omega) ok.t hq ok.rj,
        flat_inj (show 1 - σ < 2 by omega) hs hq ok.ri]
      rw [if_neg, if_neg]
      · rintro ⟨rfl, e3⟩
        have : σ = h.t := by omega
        rw [this, hrr, hf] at h3
        omega
      · rintro ⟨rfl, e3⟩
        have : σ = h.s := by omega
        rw [this, ← hrr, hb] at h3
        omega
    rw [e2]

/-! ### exchange -/

theorem pickSingleAnyF_congr {p : FPar} {c c' : FCfg} (hNe : 0 < p.Ne)
    (hl : ∀ m < p.Nsize, (c.cfg ((c.idx m).toNat + (1 - (c.spn m).toNat) * p.Nsite) = -1 ↔
      c'.cfg ((c'.idx m).toNat + (1 - (c'.spn m).toNat) * p.Nsite) = -1)) (r : List Nat) {mi ri s : Nat}
    {r1 : List Nat} (h : pickSingleAnyF p c r = some ((mi, ri, s), r1)) :
    pickSingleAnyF p c' r = some ((mi, (c'.idx mi).toNat, (c'.spn mi).toNat), r1) := by
  have hN := nsize_pos hNe
  fun_induction pickSingleAnyF p c r with
  | case1 u r mi' s' ri' h1 ih =>
    rw [pickSingleAnyF, if_pos (fun x => h1 ((hl _ (Nat.mod_lt u hN)).mpr x))]
    exact ih h
  | case2 u r mi' s' ri' h1 =>
    simp only [Option.some.injEq, Prod.mk.injEq] at h
    obtain ⟨⟨rfl, rfl, rfl⟩, rfl⟩ := h
    rw [pickSingleAnyF, if_neg (fun x => h1 (fun y => x ((hl _ (Nat.mod_lt u hN)).mp y)))]
  | case3 => simp at h

theorem pickSingleSpinF_congr {p : FPar} {c c' : FCfg} (hNe : 0 < p.Ne) {t : Nat}
    (hl : ∀ m < p.Nsize, ((c.cfg ((c.idx m).toNat + (1 - t) * p.Nsite) ≠ -1 ∨ c.spn m ≠ t) ↔
      (c'.cfg ((c'.idx m).toNat + (1 - t) * p.Nsite) ≠ -1 ∨ c'.spn m ≠ t))) (r : List Nat) {mj rj : Nat}
    {r1 : List Nat} (h : pickSingleSpinF p c t r = some ((mj, rj), r1)) :
    pickSingleSpinF p c' t r = some ((mj, (c'.idx mj).toNat), r1) := by
  have hN := nsize_pos hNe
  fun_induction pickSingleSpinF p c t r with
  | case1 u r mi' ri' h1 ih =>
    rw [pickSingleSpinF, if_pos ((hl _ (Nat.mod_lt u hN)).mp h1)]
    exact ih h
  | case2 u r mi' ri' h1 =>
    simp only [Option.some.injEq, Prod.mk.injEq] at h
    obtain ⟨⟨rfl, rfl⟩, rfl⟩ := h
    rw [pickSingleSpinF, if_neg (fun x => h1 ((hl _ (Nat.mod_lt u hN)).mpr x))]
  | case3 => simp at h

/-- tables after an exchange -/
def exchCfgF (p : FPar) (c : FCfg) (h : FMove) : FCfg :=
  updateEleConfigF p (partnerMove p c h) (updateEleConfigF p h c)

/-- what `exchangeF_ok` provides -/
structure ExchOKF (p : FPar) (c : FCfg) (h : FMove) : Prop where
  ok : MoveOK p c h
  ok2 : MoveOK p (updateEleConfigF p h c) (partnerMove p c h)
  st : h.s = h.t
  idj : c.idx (partnerMove p c h).mi = h.rj
  spj : c.spn (partnerMove p c h).mi = ((1 - h.s : Nat) : Int)
  mj : (partnerMove p c h).mi < p.Nsize
  emp : c.cfg (h.ri + (1 - h.s) * p.Nsite) = -1
  ne : h.ri ≠ h.rj

theorem exchOKF_of {p : FPar} {c : FCfg} (hc : ConsF p c) (hNe : 0 < p.Ne)
    {r : List Nat} {h : FMove} {r' : List Nat}
    (e : makeCandidateExchangeF p c r = some (some h, r')) : ExchOKF p c h := by
  obtain ⟨a, b, c, d, f, g, i, j⟩ := exchangeF_ok hc hNe r e
  exact ⟨a, b, c, d, f, g, i, j⟩

theorem exchF_mi_ne {p : FPar} {c : FCfg} {h : FMove} (x : ExchOKF p c h) : (partnerMove p c h).mi ≠ h.mi := by
  intro e
  have h1 := x.spj
  rw [e, x.ok.sp] at h1
  have := x.ok.s
  omega

theorem exchF_idx {p : FPar} {c : FCfg} {h : FMove} (m : Nat) :
    (exchCfgF p c h).idx m = if m = (partnerMove p c h).mi then (h.ri : Int)
      else if m = h.mi then (h.rj : Int) else c.idx m := rfl

theorem exchF_spn {p : FPar} {c : FCfg} {h : FMove} (x : ExchOKF p c h) (m : Nat) :
    (exchCfgF p c h).spn m = c.spn m := by
  have hst := x.st
  show (if m = (partnerMove p c h).mi then ((1 - h.s : Nat) : Int) else if m = h.mi then (h.t : Int) else c.spn m) = _
  by_cases e : m = (partnerMove p c h).mi
  · rw [if_pos e, e, x.spj]
  · rw [if_neg e]
    by_cases e2 : m = h.mi
    · rw [if_pos e2, e2, x.ok.sp, hst]
    · rw [if_neg e2]

theorem exchF_cfg {p : FPar} {c : FCfg} {h : FMove} (x : ExchOKF p c h)
    {s y : Nat} (hs : s < 2) (hy : y < p.Nsite) :
    (exchCfgF p c h).cfg (y + s * p.Nsite) =
      if y = h.ri ∧ s = 1 - h.s then ((partnerMove p c h).mi : Int)
      else if y = h.rj ∧ s = 1 - h.s then -1
      else if y = h.rj ∧ s = h.s then (h.mi : Int)
      else if y = h.ri ∧ s = h.s then -1
      else c.cfg (y + s * p.Nsite) := by
  have ok := x.ok
  have := ok.s
  have e1 : (partnerMove p c h).s = 1 - h.s := rfl
  have e2 : (partnerMove p c h).t = 1 - h.s := rfl
  have e3 : (partnerMove p c h).rj = h.ri := rfl
  have e4 : (partnerMove p c h).ri = h.rj := rfl
  have e5 := x.st
  simp only [exchCfgF, updateEleConfigF, Arr.set, e1, e2, e3, e4, ← e5,
    flat_inj hs (show 1 - h.s < 2 by omega) hy ok.ri, flat_inj hs (show 1 - h.s < 2 by omega) hy ok.rj,
    flat_inj hs ok.s hy ok.ri, flat_inj hs ok.s hy ok.rj]

theorem exchF_single {p : FPar} {c : FCfg} (hc : ConsF p c) {h : FMove} (x : ExchOKF p c h) :
    ∀ m < p.Nsize, (c.cfg ((c.idx m).toNat + (1 - (c.spn m).toNat) * p.Nsite) = -1 ↔
      (exchCfgF p c h).cfg (((exchCfgF p c h).idx m).toNat +
        (1 - ((exchCfgF p c h).spn m).toNat) * p.Nsite) = -1) := by
  intro m hm
  have hs' := x.ok.s
  have hne := x.ne
  have hst := x.st
  rw [exchF_spn x, exchF_idx]
  by_cases e1 : m = (partnerMove p c h).mi
  · rw [if_pos e1, e1, x.idj, x.spj, Int.toNat_natCast, Int.toNat_natCast, Int.toNat_natCast,
      show 1 - (1 - h.s) = h.s by omega, exchF_cfg x hs' x.ok.ri]
    have := x.ok.free
    rw [← hst] at this
    rw [this, if_neg (by omega), if_neg (by omega), if_neg (by omega), if_pos ⟨rfl, rfl⟩]
  · rw [if_neg e1]
    by_cases e2 : m = h.mi
    · rw [if_pos e2, e2, x.ok.at', x.ok.sp, Int.toNat_natCast, Int.toNat_natCast, Int.toNat_natCast, x.emp,
        exchF_cfg x (by omega) x.ok.rj, if_neg (by omega), if_pos ⟨rfl, rfl⟩]
    · rw [if_neg e2]
      obtain ⟨q, hq, s, hs, h1, h2, h3⟩ := hc.electron m hm
      rw [h1, h2, Int.toNat_natCast, Int.toNat_natCast, exchF_cfg x (by omega) hq]
      have hbi := (consF_back hc x.ok.mi x.ok.at' x.ok.sp).2.2.1
      have hbj := (consF_back hc x.mj x.idj x.spj).2.2.1
      have hfr := x.ok.free
      rw [← hst] at hfr
      have hem := x.emp
      have n1 : ¬ (q = h.ri ∧ 1 - s = 1 - h.s) := by
        rintro ⟨rfl, e⟩
        have : s = h.s := by omega
        subst this
        rw [h3] at hbi
        exact e2 (by omega)
      have n2 : ¬ (q = h.rj ∧ 1 - s = 1 - h.s) := by
        rintro ⟨rfl, e⟩
        have : s = h.s := by omega
        subst this
        omega
      have n3 : ¬ (q = h.rj ∧ 1 - s = h.s) := by
        rintro ⟨rfl, e⟩
        have : s = 1 - h.s := by omega
        subst this
        rw [h3] at hbj
        exact e1 (by omega)
      have n4 : ¬ (q = h.ri ∧ 1 - s = h.s) := by
        rintro ⟨rfl, e⟩
        have : s = 1 - h.s := by omega
        subst this
        omega
      rw [if_neg n1, if_neg n2, if_neg n3, if_neg n4]

theorem updateF_comm {p : FPar} {c : FCfg} {h g : FMove}
    (d1 : h.mi ≠ g.mi)
    (d2 : h.ri + h.s * p.Nsite ≠ g.ri + g.s * p.Nsite) (d3 : h.ri + h.s * p.Nsite ≠ g.rj + g.t * p.Nsite)
    (d4 : h.rj + h.t * p.Nsite ≠ g.ri + g.s * p.Nsite) (d5 : h.rj + h.t * p.Nsite ≠ g.rj + g.t * p.Nsite) :
    updateEleConfigF p h (updateEleConfigF p g c) = updateEleConfigF p g (updateEleConfigF p h c) := by
  simp only [updateEleConfigF, FCfg.mk.injEq]
  refine ⟨?_, ?_, ?_, ?_⟩ <;> funext k <;> simp only [Arr.set]
  · by_cases e : k = h.mi
    · rw [if_pos e, if_neg (by omega), if_pos e]
    · rw [if_neg e, if_neg e]
  · by_cases e : k = h.mi
    · rw [if_pos e, if_neg (by omega), if_pos e]
    · rw [if_neg e, if_neg e]
  all_goals
    by_cases e1 : k = h.rj + h.t * p.Nsite
    · rw [if_pos e1, if_neg (by omega), if_neg (by omega), if_pos e1]
    · by_cases e2 : k = h.ri + h.s * p.Nsite
      · rw [if_neg e1, if_pos e2, if_neg (by omega), if_neg (by omega), if_neg e1, if_pos e2]
      · rw [if_neg e1, if_neg e2, if_neg e1, if_neg e2]

theorem partnerF_rev {p : FPar} {c : FCfg} {h : FMove} (x : ExchOKF p c h) :
    partnerMove p (exchCfgF p c h) h.rev = (partnerMove p c h).rev := by
  have hs := x.ok.s
  have hst := x.st
  have : (exchCfgF p c h).cfg (h.ri + (1 - h.s) * p.Nsite) = ((partnerMove p c h).mi : Int) := by
    rw [exchF_cfg x (by omega) x.ok.ri, if_pos ⟨rfl, rfl⟩]
  show FMove.mk ((exchCfgF p c h).cfg (h.ri + (1 - h.t) * p.Nsite)).toNat h.ri h.rj (1 - h.t) (1 - h.t) = _
  rw [← hst, this, Int.toNat_natCast]
  rfl

theorem exchF_rev {p : FPar} {c : FCfg} (hc : ConsF p c) {h : FMove} (x : ExchOKF p c h) :
    exchCfgF p (exchCfgF p c h) h.rev = c := by
  have hs := x.ok.s
  have hst := x.st
  have ok := x.ok
  have ok2 : MoveOK p c (partnerMove p c h) :=
    ⟨by simp only [partnerMove]; omega, by simp only [partnerMove]; omega, x.mj, ok.rj, ok.ri, x.idj, x.spj, x.emp⟩
  show updateEleConfigF p (partnerMove p (exchCfgF p c h) h.rev) (updateEleConfigF p h.rev
    (updateEleConfigF p (partnerMove p c h) (updateEleConfigF p h c))) = c
  rw [partnerF_rev x]
  have e := updateF_comm (p := p) (c := updateEleConfigF p h c) (h := h.rev) (g := partnerMove p c h) ?_ ?_ ?_ ?_ ?_
  · rw [e, updateF_rev hc ok, updateF_rev hc ok2]
  · exact fun e => exchF_mi_ne x e.symm
  · show h.rj + h.t * p.Nsite ≠ h.rj + (1 - h.s) * p.Nsite
    rw [Ne, flat_inj ok.t (by omega) ok.rj ok.rj]; omega
  · show h.rj + h.t * p.Nsite ≠ h.ri + (1 - h.s) * p.Nsite
    rw [Ne, flat_inj ok.t (by omega) ok.rj ok.ri]; omega
  · show h.ri + h.s * p.Nsite ≠ h.rj + (1 - h.s) * p.Nsite
    rw [Ne, flat_inj hs (by omega) ok.ri ok.rj]; omega
  · show h.ri + h.s * p.Nsite ≠ h.ri + (1 - h.s) * p.Nsite
    rw [Ne, flat_inj hs (by omega) ok.ri ok.ri]; omega

theorem exchF_cons {p : FPar} {c : FCfg} (hc : ConsF p c) {h : FMove} (x : ExchOKF p c h) :
    ConsF p (exchCfgF p c h) := updateF_cons (updateF_cons hc x.ok) x.ok2

end MVMC
