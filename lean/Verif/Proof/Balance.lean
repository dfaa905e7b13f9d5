import Mathlib.Data.Set.Card
import Mathlib.Data.Set.Function
import Verif.Proof.Sampler

/-!
# Reversing a proposed move: helper lemmas
-/
namespace MVMC
open Spec

/-! ### exchanging two residues -/

/-- exchange the residues `a` and `b` modulo `N`, keep the quotient -/
def swapRes (N a b u : Nat) : Nat :=
  u / N * N + (if u % N = a then b else if u % N = b then a else u % N)

/-- exchange `a` and `b` -/
def swapNat (a b x : Nat) : Nat := if x = a then b else if x = b then a else x

theorem swapRes_eq (N a b u : Nat) : swapRes N a b u = u / N * N + swapNat a b (u % N) := rfl

theorem swapNat_lt {N a b x : Nat} (ha : a < N) (hb : b < N) (hx : x < N) : swapNat a b x < N := by
  unfold swapNat; split
  · exact hb
  · split
    · exact ha
    · exact hx

theorem swapNat_swap (a b x : Nat) : swapNat a b (swapNat a b x) = x := by
  unfold swapNat; split_ifs <;> omega

theorem swapNat_comm (a b x : Nat) : swapNat a b x = swapNat b a x := by
  unfold swapNat; split_ifs <;> omega

theorem swapRes_comm (N a b : Nat) : swapRes N a b = swapRes N b a := by
  funext u; rw [swapRes_eq, swapRes_eq, swapNat_comm]

theorem swapRes_mod {N a b : Nat} (ha : a < N) (hb : b < N) (u : Nat) :
    swapRes N a b u % N = swapNat a b (u % N) := by
  rw [swapRes_eq, Nat.add_comm, Nat.add_mul_mod_self_right]
  exact Nat.mod_eq_of_lt (swapNat_lt ha hb (Nat.mod_lt _ (by omega)))

theorem swapRes_div {N a b : Nat} (ha : a < N) (hb : b < N) (u : Nat) :
    swapRes N a b u / N = u / N := by
  rw [swapRes_eq, Nat.add_comm, Nat.add_mul_div_right _ _ (by omega),
    Nat.div_eq_of_lt (swapNat_lt ha hb (Nat.mod_lt _ (by omega))), Nat.zero_add]

theorem swapRes_swap {N a b : Nat} (ha : a < N) (hb : b < N) (u : Nat) :
    swapRes N a b (swapRes N a b u) = u := by
  rw [swapRes_eq N a b (swapRes N a b u), swapRes_div ha hb, swapRes_mod ha hb, swapNat_swap,
    Nat.mul_comm]
  exact Nat.div_add_mod u N

theorem swapRes_lt {N a b T u : Nat} (ha : a < N) (hb : b < N) (hT : N ∣ T) (hu : u < T) :
    swapRes N a b u < T := by
  obtain ⟨q, rfl⟩ := hT
  have h1 : swapRes N a b u / N < q := by
    rw [swapRes_div ha hb]
    exact Nat.div_lt_of_lt_mul hu
  have h2 := Nat.lt_mul_of_div_lt h1 (show 0 < N by omega)
  rw [Nat.mul_comm]
  exact h2

/-! ### the first loop leaves a definite tail -/

theorem pickItinerant_split {p : SamplerPar} {c : EleCfg} (r : List Nat) {x : Nat × Nat × Nat}
    {r1 : List Nat} (h : pickItinerant p c r = some (x, r1)) :
    ∃ pre, r = pre ++ r1 ∧ ∀ tl, pickItinerant p c (pre ++ tl) = some (x, tl) := by
  fun_induction pickItinerant p c r with
  | case1 u v r mi' s' ri' hl ih =>
    obtain ⟨pre, e, hp⟩ := ih h
    refine ⟨u :: v :: pre, by rw [e]; rfl, fun tl => ?_⟩
    rw [List.cons_append, List.cons_append, pickItinerant]
    rw [if_pos hl]
    exact hp tl
  | case2 u v r mi' s' ri' hl =>
    simp only [Option.some.injEq, Prod.mk.injEq] at h
    obtain ⟨rfl, rfl⟩ := h
    refine ⟨[u, v], rfl, fun tl => ?_⟩
    show pickItinerant p c (u :: v :: tl) = _
    rw [pickItinerant, if_neg hl]
  | case3 => simp at h

/-- the first loop sees only which electrons sit on local-spin sites -/
theorem pickItinerant_congr {p : SamplerPar} {c c' : EleCfg} (hNe : 0 < p.Ne)
    (hl : ∀ s < 2, ∀ m < p.Ne, (p.locSpn (c.idx (m + s * p.Ne)).toNat = 1 ↔
      p.locSpn (c'.idx (m + s * p.Ne)).toNat = 1)) (r : List Nat) {mi ri s : Nat} {r1 : List Nat}
    (h : pickItinerant p c r = some ((mi, ri, s), r1)) :
    pickItinerant p c' r = some ((mi, (c'.idx (mi + s * p.Ne)).toNat, s), r1) := by
  fun_induction pickItinerant p c r with
  | case1 u v r mi' s' ri' h1 ih =>
    rw [pickItinerant, if_pos ((hl _ (coin_lt v) _ (Nat.mod_lt u hNe)).mp h1)]
    exact ih h
  | case2 u v r mi' s' ri' h1 =>
    simp only [Option.some.injEq, Prod.mk.injEq] at h
    obtain ⟨⟨rfl, rfl, rfl⟩, rfl⟩ := h
    rw [pickItinerant, if_neg (fun x => h1 ((hl _ (coin_lt v) _ (Nat.mod_lt u hNe)).mpr x))]
  | case3 => simp at h

/-- the second loop under exchange of two sites -/
theorem pickTarget_swap {p : SamplerPar} {c c' : EleCfg} {s a b : Nat} (ha : a < p.Nsite) (hb : b < p.Nsite)
    (hl : ∀ x < p.Nsite, ((c.cfg (x + s * p.Nsite) ≠ -1 ∨ p.locSpn x = 1) ↔
      (c'.cfg (swapNat a b x + s * p.Nsite) ≠ -1 ∨ p.locSpn (swapNat a b x) = 1)))
    (icnt : Nat) (r : List Nat) {y : Nat} {fl : Bool} {r1 : List Nat}
    (h : pickTarget p c s icnt r = some ((y, fl), r1)) :
    pickTarget p c' s icnt (r.map (swapRes p.Nsite a b)) =
      some ((swapNat a b y, fl), r1.map (swapRes p.Nsite a b)) := by
  have hN : 0 < p.Nsite := by omega
  fun_induction pickTarget p c s icnt r with
  | case1 => simp at h
  | case2 icnt u r rj' h1 =>
    simp only [Option.some.injEq, Prod.mk.injEq] at h
    obtain ⟨⟨rfl, rfl⟩, rfl⟩ := h
    rw [List.map_cons, pickTarget, if_pos h1, swapRes_mod ha hb]
  | case3 icnt u r rj' h1 h2 ih =>
    rw [List.map_cons, pickTarget, if_neg h1, swapRes_mod ha hb,
      if_pos ((hl _ (Nat.mod_lt _ hN)).mp h2)]
    exact ih h
  | case4 icnt u r rj' h1 h2 =>
    simp only [Option.some.injEq, Prod.mk.injEq] at h
    obtain ⟨⟨rfl, rfl⟩, rfl⟩ := h
    rw [List.map_cons, pickTarget, if_neg h1, swapRes_mod ha hb,
      if_neg (fun x => h2 ((hl _ (Nat.mod_lt _ hN)).mpr x))]

/-! ### the reversed hop -/

/-- the same electron back -/
def Hop.rev (h : Hop) : Hop := ⟨h.mi, h.rj, h.ri, h.s⟩

theorem rev_rev (h : Hop) : h.rev.rev = h := rfl

theorem hopOK_rev {p : SamplerPar} {c : EleCfg} (hc : Cons p c) {h : Hop} (ok : HopOK p c h) :
    HopOK p (updateEleConfig p h c) h.rev := by
  have hne := hopOK_ne hc ok
  refine ⟨ok.s, ok.mi, ok.rj, ok.ri, ?_, ?_⟩
  · simp [updateEleConfig, Arr.set, Hop.rev]
  · simp only [updateEleConfig, Arr.set, Hop.rev]
    rw [if_neg (by omega), if_true]

theorem update_rev {p : SamplerPar} {c : EleCfg} (hc : Cons p c) {h : Hop} (ok : HopOK p c h) :
    updateEleConfig p h.rev (updateEleConfig p h c) = c := by
  have hne := hopOK_ne hc ok
  refine Eq.trans ?_ (revert_update hc ok)
  simp only [revertEleConfig, updateEleConfig, Hop.rev, EleCfg.mk.injEq, true_and]
  constructor <;> funext k <;> simp only [Arr.set]
  · by_cases e1 : k = h.ri + h.s * p.Nsite
    · rw [if_pos e1, if_neg (by omega), if_pos e1]
    · rw [if_neg e1]
      by_cases e2 : k = h.rj + h.s * p.Nsite
      · rw [if_pos e2, if_pos e2]
      · simp only [e1, e2, if_false]
  · by_cases e1 : k = h.ri + h.s * p.Nsite
    · rw [if_pos e1, if_neg (by omega), if_pos e1]
    · rw [if_neg e1]
      by_cases e2 : k = h.rj + h.s * p.Nsite
      · rw [if_pos e2, if_pos e2]
      · simp only [e1, e2, if_false]

theorem idx_local {p : SamplerPar} {c : EleCfg} {h : Hop} (ok : HopOK p c h)
    (h1 : p.locSpn h.ri ≠ 1) (h2 : p.locSpn h.rj ≠ 1) : ∀ s < 2, ∀ m < p.Ne,
    (p.locSpn (c.idx (m + s * p.Ne)).toNat = 1 ↔
      p.locSpn ((updateEleConfig p h c).idx (m + s * p.Ne)).toNat = 1) := by
  intro s hs m hm
  simp only [updateEleConfig, Arr.set]
  by_cases e : m + s * p.Ne = h.mi + h.s * p.Ne
  · rw [if_pos e, e, ok.at', Int.toNat_natCast, Int.toNat_natCast]
    exact ⟨fun x => absurd x h1, fun x => absurd x h2⟩
  · rw [if_neg e]

theorem cfg_swap {p : SamplerPar} {c : EleCfg} (hc : Cons p c) {h : Hop} (ok : HopOK p c h)
    (h1 : p.locSpn h.ri ≠ 1) (h2 : p.locSpn h.rj ≠ 1) : ∀ x < p.Nsite,
    ((c.cfg (x + h.s * p.Nsite) ≠ -1 ∨ p.locSpn x = 1) ↔
      ((updateEleConfig p h c).cfg (swapNat h.ri h.rj x + h.s * p.Nsite) ≠ -1 ∨
        p.locSpn (swapNat h.ri h.rj x) = 1)) := by
  intro x hx
  have hne := hopOK_ne hc ok
  have hb := (cons_back hc ok.s ok.mi ok.at').2.1
  have hf := ok.free
  unfold swapNat
  by_cases e1 : x = h.ri
  · subst e1
    rw [if_pos rfl]
    have : (updateEleConfig p h c).cfg (h.rj + h.s * p.Nsite) = h.mi := by
      simp [updateEleConfig, Arr.set]
    rw [this, hb]
    constructor <;> intro _ <;> left <;> omega
  · by_cases e2 : x = h.rj
    · subst e2
      rw [if_neg e1, if_pos rfl]
      have : (updateEleConfig p h c).cfg (h.ri + h.s * p.Nsite) = -1 := by
        simp only [updateEleConfig, Arr.set]
        rw [if_neg (by omega), if_true]
      rw [this, hf]
      simp [h1, h2]
    · rw [if_neg e1, if_neg e2]
      have : (updateEleConfig p h c).cfg (x + h.s * p.Nsite) = c.cfg (x + h.s * p.Nsite) := by
        simp only [updateEleConfig, Arr.set]
        rw [if_neg (by omega), if_neg (by omega)]
      rw [this]

/-- the reverse of a proposal, draw by draw -/
theorem hopping_reverse {p : SamplerPar} {c : EleCfg} (hc : Cons p c) (hNe : 0 < p.Ne) (hNs : 0 < p.Nsite)
    {r : List Nat} {h : Hop} {rest : List Nat}
    (e : makeCandidateHopping p c r = some ((h, false), rest)) :
    ∃ pre r1, r = pre ++ r1 ∧ (∀ tl, ∃ x, pickItinerant p c (pre ++ tl) = some (x, tl)) ∧
      (∀ tl, ∃ x, pickItinerant p (updateEleConfig p h c) (pre ++ tl) = some (x, tl)) ∧
      makeCandidateHopping p (updateEleConfig p h c) (pre ++ r1.map (swapRes p.Nsite h.ri h.rj)) =
        some ((h.rev, false), rest.map (swapRes p.Nsite h.ri h.rj)) := by
  obtain ⟨ok, hl1, hl2⟩ := hopping_ok hc hNe hNs r e
  unfold makeCandidateHopping at e
  split at e
  · simp at e
  · rename_i mi ri s r1 e1
    split at e
    · simp at e
    · rename_i rj flag r2 e2
      simp only [Option.some.injEq, Prod.mk.injEq] at e
      obtain ⟨⟨rfl, rfl⟩, rfl⟩ := e
      obtain ⟨pre, he, hp⟩ := pickItinerant_split r e1
      have hp' : ∀ tl, pickItinerant p (updateEleConfig p ⟨mi, ri, rj, s⟩ c) (pre ++ tl) =
          some ((mi, rj, s), tl) := by
        intro tl
        rw [pickItinerant_congr hNe (idx_local ok hl1 hl2) _ (hp tl)]
        simp [updateEleConfig, Arr.set]
      refine ⟨pre, r1, he, fun tl => ⟨_, hp tl⟩, fun tl => ⟨_, hp' tl⟩, ?_⟩
      have ht := pickTarget_swap (c' := updateEleConfig p ⟨mi, ri, rj, s⟩ c) ok.ri ok.rj
        (cfg_swap hc ok hl1 hl2) 0 r1 e2
      unfold makeCandidateHopping
      rw [hp' _]
      simp only
      simp only at ht
      rw [ht]
      have hsw : swapNat ri rj rj = ri := by
        unfold swapNat; split_ifs <;> omega
      rw [hsw]
      rfl

/-! ### relabelling whole streams -/

/-- keep the draws of the first loop, exchange the sites `a` and `b` in the rest -/
def relabel (p : SamplerPar) (c : EleCfg) (a b : Nat) (r : List Nat) : List Nat :=
  match pickItinerant p c r with
  | none => r
  | some (_, r1) => r.take (r.length - r1.length) ++ r1.map (swapRes p.Nsite a b)

theorem relabel_eq {p : SamplerPar} {c : EleCfg} {a b : Nat} {pre r1 : List Nat} {x : Nat × Nat × Nat}
    (h : pickItinerant p c (pre ++ r1) = some (x, r1)) :
    relabel p c a b (pre ++ r1) = pre ++ r1.map (swapRes p.Nsite a b) := by
  unfold relabel
  rw [h]
  simp

theorem relabel_length (p : SamplerPar) (c : EleCfg) (a b : Nat) (r : List Nat) :
    (relabel p c a b r).length = r.length := by
  unfold relabel
  cases h : pickItinerant p c r with
  | none => rfl
  | some y =>
    obtain ⟨x, r1⟩ := y
    obtain ⟨pre, e, _⟩ := pickItinerant_split r h
    subst e
    simp

/-! ### exchange -/

theorem pickSingleAny_congr {p : SamplerPar} {c c' : EleCfg} (hNe : 0 < p.Ne)
    (hl : ∀ s < 2, ∀ m < p.Ne, (c.cfg ((c.idx (m + s * p.Ne)).toNat + (1 - s) * p.Nsite) = -1 ↔
      c'.cfg ((c'.idx (m + s * p.Ne)).toNat + (1 - s) * p.Nsite) = -1)) (r : List Nat) {mi ri s : Nat}
    {r1 : List Nat} (h : pickSingleAny p c r = some ((mi, ri, s), r1)) :
    pickSingleAny p c' r = some ((mi, (c'.idx (mi + s * p.Ne)).toNat, s), r1) := by
  fun_induction pickSingleAny p c r with
  | case1 u v r mi' s' ri' h1 ih =>
    rw [pickSingleAny, if_pos (fun x => h1 ((hl _ (coin_lt v) _ (Nat.mod_lt u hNe)).mpr x))]
    exact ih h
  | case2 u v r mi' s' ri' h1 =>
    simp only [Option.some.injEq, Prod.mk.injEq] at h
    obtain ⟨⟨rfl, rfl, rfl⟩, rfl⟩ := h
    rw [pickSingleAny, if_neg (fun x => h1 (fun y => x ((hl _ (coin_lt v) _ (Nat.mod_lt u hNe)).mp y)))]
  | case3 => simp at h

theorem pickSingleSpin_congr {p : SamplerPar} {c c' : EleCfg} (hNe : 0 < p.Ne) {t : Nat}
    (hl : ∀ m < p.Ne, (c.cfg ((c.idx (m + t * p.Ne)).toNat + (1 - t) * p.Nsite) = -1 ↔
      c'.cfg ((c'.idx (m + t * p.Ne)).toNat + (1 - t) * p.Nsite) = -1)) (r : List Nat) {mj rj : Nat}
    {r1 : List Nat} (h : pickSingleSpin p c t r = some ((mj, rj), r1)) :
    pickSingleSpin p c' t r = some ((mj, (c'.idx (mj + t * p.Ne)).toNat), r1) := by
  fun_induction pickSingleSpin p c t r with
  | case1 u r mi' ri' h1 ih =>
    rw [pickSingleSpin, if_pos (fun x => h1 ((hl _ (Nat.mod_lt u hNe)).mpr x))]
    exact ih h
  | case2 u r mi' ri' h1 =>
    simp only [Option.some.injEq, Prod.mk.injEq] at h
    obtain ⟨⟨rfl, rfl⟩, rfl⟩ := h
    rw [pickSingleSpin, if_neg (fun x => h1 (fun y => x ((hl _ (Nat.mod_lt u hNe)).mp y)))]
  | case3 => simp at h

/-- tables after an exchange of the opposite spins of two singly occupied sites -/
def exchCfg (p : SamplerPar) (c : EleCfg) (h : Hop) : EleCfg :=
  updateEleConfig p (partnerHop p c h) (updateEleConfig p h c)

theorem exch_idx {p : SamplerPar} {c : EleCfg} {h : Hop} (ok : HopOK p c h)
    (hm2 : (partnerHop p c h).mi < p.Ne) {s m : Nat} (hs : s < 2) (hm : m < p.Ne) :
    (exchCfg p c h).idx (m + s * p.Ne) =
      if m = (partnerHop p c h).mi ∧ s = 1 - h.s then (h.ri : Int)
      else if m = h.mi ∧ s = h.s then (h.rj : Int) else c.idx (m + s * p.Ne) := by
  have := ok.s
  have hs2 : (partnerHop p c h).s = 1 - h.s := rfl
  have hr2 : (partnerHop p c h).rj = h.ri := rfl
  simp only [exchCfg, updateEleConfig, Arr.set, hs2, hr2, flat_inj hs (show 1 - h.s < 2 by omega) hm hm2,
    flat_inj hs ok.s hm ok.mi]

theorem exch_cfg {p : SamplerPar} {c : EleCfg} {h : Hop} (ok : HopOK p c h)
    {s x : Nat} (hs : s < 2) (hx : x < p.Nsite) :
    (exchCfg p c h).cfg (x + s * p.Nsite) =
      if x = h.ri ∧ s = 1 - h.s then ((partnerHop p c h).mi : Int)
      else if x = h.rj ∧ s = 1 - h.s then -1
      else if x = h.rj ∧ s = h.s then (h.mi : Int)
      else if x = h.ri ∧ s = h.s then -1
      else c.cfg (x + s * p.Nsite) := by
  have := ok.s
  have hs2 : (partnerHop p c h).s = 1 - h.s := rfl
  have hr2 : (partnerHop p c h).rj = h.ri := rfl
  have hr3 : (partnerHop p c h).ri = h.rj := rfl
  simp only [exchCfg, updateEleConfig, Arr.set, hs2, hr2, hr3,
    flat_inj hs (show 1 - h.s < 2 by omega) hx ok.ri, flat_inj hs (show 1 - h.s < 2 by omega) hx ok.rj,
    flat_inj hs ok.s hx ok.ri, flat_inj hs ok.s hx ok.rj]

/-- an exchange keeps every electron on a singly or on a doubly occupied site -/
theorem exch_single {p : SamplerPar} {c : EleCfg} (hc : Cons p c) {h : Hop} (ok : HopOK p c h)
    (hidj : c.idx ((partnerHop p c h).mi + (1 - h.s) * p.Ne) = h.rj)
    (hm2 : (partnerHop p c h).mi < p.Ne) (hemp : c.cfg (h.ri + (1 - h.s) * p.Nsite) = -1) :
    ∀ s < 2, ∀ m < p.Ne, (c.cfg ((c.idx (m + s * p.Ne)).toNat + (1 - s) * p.Nsite) = -1 ↔
      (exchCfg p c h).cfg (((exchCfg p c h).idx (m + s * p.Ne)).toNat + (1 - s) * p.Nsite) = -1) := by
  intro s hs m hm
  have hs' := ok.s
  have hne := hopOK_ne hc ok
  rw [exch_idx ok hm2 hs hm]
  by_cases e1 : m = (partnerHop p c h).mi ∧ s = 1 - h.s
  · rw [if_pos e1, e1.1, e1.2, hidj, Int.toNat_natCast, Int.toNat_natCast,
      show 1 - (1 - h.s) = h.s by omega, ok.free, exch_cfg ok hs' ok.ri]
    rw [if_neg (by omega), if_neg (by omega), if_neg (by omega), if_pos ⟨rfl, rfl⟩]
  · rw [if_neg e1]
    by_cases e2 : m = h.mi ∧ s = h.s
    · rw [if_pos e2, e2.1, e2.2, ok.at', Int.toNat_natCast, Int.toNat_natCast, hemp,
        exch_cfg ok (by omega) ok.rj, if_neg (by omega), if_pos ⟨rfl, rfl⟩]
    · rw [if_neg e2]
      obtain ⟨q, hq, h1, h2⟩ := hc.electron s hs m hm
      rw [h1, Int.toNat_natCast, exch_cfg ok (by omega) hq]
      have hbi := (cons_back hc ok.s ok.mi ok.at').2.1
      have hbj := (cons_back hc (show 1 - h.s < 2 by omega) hm2 hidj).2.1
      have n1 : ¬ (q = h.ri ∧ 1 - s = 1 - h.s) := by
        rintro ⟨rfl, e⟩
        have : s = h.s := by omega
        subst this
        rw [h2] at hbi
        exact e2 ⟨by omega, rfl⟩
      have n2 : ¬ (q = h.rj ∧ 1 - s = 1 - h.s) := by
        rintro ⟨rfl, e⟩
        have : s = h.s := by omega
        subst this
        have := ok.free
        omega
      have n3 : ¬ (q = h.rj ∧ 1 - s = h.s) := by
        rintro ⟨rfl, e⟩
        have : s = 1 - h.s := by omega
        subst this
        rw [h2] at hbj
        exact e1 ⟨by omega, rfl⟩
      have n4 : ¬ (q = h.ri ∧ 1 - s = h.s) := by
        rintro ⟨rfl, e⟩
        have : s = 1 - h.s := by omega
        subst this
        omega
      rw [if_neg n1, if_neg n2, if_neg n3, if_neg n4]

theorem hasSingle_exch {p : SamplerPar} {c : EleCfg} (hc : Cons p c) {h : Hop} (ok : HopOK p c h) :
    hasSingle p (exchCfg p c h) = true := by
  have hne := hopOK_ne hc ok
  have hs := ok.s
  have a := exch_num (h2 := partnerHop p c h) ok rfl rfl rfl hne h.ri 0 ok.ri (by omega)
  have b := exch_num (h2 := partnerHop p c h) ok rfl rfl rfl hne h.ri 1 ok.ri (by omega)
  simp only [Nat.zero_mul, Nat.add_zero, Nat.one_mul, if_true] at a b
  unfold hasSingle
  rw [List.any_eq_true]
  refine ⟨h.ri, List.mem_range.mpr ok.ri, ?_⟩
  rw [decide_eq_true_iff]
  show (exchCfg p c h).num h.ri + (exchCfg p c h).num (h.ri + p.Nsite) = 1
  unfold exchCfg
  rw [a, b]
  rcases (show h.s = 0 ∨ h.s = 1 by omega) with q | q <;> simp [q]

/-- the same stream proposes the reverse exchange -/
theorem exchange_reverse {p : SamplerPar} {c : EleCfg} (hc : Cons p c) (hNe : 0 < p.Ne)
    {r : List Nat} {h : Hop} {rest : List Nat}
    (e : makeCandidateExchange p c r = some (some h, rest)) :
    makeCandidateExchange p (exchCfg p c h) r = some (some h.rev, rest) := by
  obtain ⟨ok, ok2, _, _, _, hidj, hm2, hemp⟩ := exchange_ok hc hNe r e
  have hsg := exch_single hc ok hidj hm2 hemp
  have hh := hasSingle_exch hc ok
  have hs := ok.s
  unfold makeCandidateExchange at e
  split at e
  · split at e
    · simp at e
    · rename_i mi ri s r1 e1
      split at e
      · simp at e
      · rename_i mj rj r2 e2
        simp only [Option.some.injEq, Prod.mk.injEq] at e
        obtain ⟨rfl, rfl⟩ := e
        have hj := pickSingleSpin_ok hc hNe (t := 1 - s) (by omega) r1 e2
        have hmj : (partnerHop p c ⟨mi, ri, rj, s⟩).mi = mj := by
          have := (cons_back hc (show 1 - s < 2 by omega) hj.1 hj.2.2.1).2.1
          simp only [partnerHop, this, Int.toNat_natCast]
        unfold makeCandidateExchange
        rw [if_pos hh, pickSingleAny_congr hNe hsg r e1]
        simp only
        rw [pickSingleSpin_congr hNe (hsg (1 - s) (by omega)) r1 e2]
        simp only [Hop.rev]
        simp only at hs
        rw [exch_idx ok hm2 hs ok.mi, exch_idx ok hm2 (by omega) hj.1]
        simp only [hmj, true_and]
        rw [if_neg (by omega), if_true, if_true]
        simp
  · simp at e

/-- hops that touch different table entries commute -/
theorem update_comm {p : SamplerPar} {c : EleCfg} {h g : Hop}
    (d1 : h.mi + h.s * p.Ne ≠ g.mi + g.s * p.Ne)
    (d2 : h.ri + h.s * p.Nsite ≠ g.ri + g.s * p.Nsite) (d3 : h.ri + h.s * p.Nsite ≠ g.rj + g.s * p.Nsite)
    (d4 : h.rj + h.s * p.Nsite ≠ g.ri + g.s * p.Nsite) (d5 : h.rj + h.s * p.Nsite ≠ g.rj + g.s * p.Nsite) :
    updateEleConfig p h (updateEleConfig p g c) = updateEleConfig p g (updateEleConfig p h c) := by
  simp only [updateEleConfig, EleCfg.mk.injEq]
  refine ⟨?_, ?_, ?_⟩ <;> funext k <;> simp only [Arr.set]
  · by_cases e : k = h.mi + h.s * p.Ne
    · rw [if_pos e, if_neg (by omega), if_pos e]
    · rw [if_neg e, if_neg e]
  all_goals
    by_cases e1 : k = h.rj + h.s * p.Nsite
    · rw [if_pos e1, if_neg (by omega), if_neg (by omega), if_pos e1]
    · by_cases e2 : k = h.ri + h.s * p.Nsite
      · rw [if_neg e1, if_pos e2, if_neg (by omega), if_neg (by omega), if_neg e1, if_pos e2]
      · rw [if_neg e1, if_neg e2, if_neg e1, if_neg e2]

theorem partner_rev {p : SamplerPar} {c : EleCfg} {h : Hop} (ok : HopOK p c h) :
    partnerHop p (exchCfg p c h) h.rev = (partnerHop p c h).rev := by
  have hs := ok.s
  have : (exchCfg p c h).cfg (h.ri + (1 - h.s) * p.Nsite) = ((partnerHop p c h).mi : Int) := by
    rw [exch_cfg ok (by omega) ok.ri, if_pos ⟨rfl, rfl⟩]
  show Hop.mk ((exchCfg p c h).cfg (h.ri + (1 - h.s) * p.Nsite)).toNat h.ri h.rj (1 - h.s) = _
  rw [this, Int.toNat_natCast]
  rfl

/-- exchanging back restores the tables -/
theorem exch_rev {p : SamplerPar} {c : EleCfg} (hc : Cons p c) {h : Hop} (ok : HopOK p c h)
    (hidj : c.idx ((partnerHop p c h).mi + (1 - h.s) * p.Ne) = h.rj)
    (hm2 : (partnerHop p c h).mi < p.Ne) (hemp : c.cfg (h.ri + (1 - h.s) * p.Nsite) = -1) :
    exchCfg p (exchCfg p c h) h.rev = c := by
  have hs := ok.s
  have ok2 : HopOK p c (partnerHop p c h) := ⟨by simp only [partnerHop]; omega, hm2, ok.rj, ok.ri, hidj, hemp⟩
  show updateEleConfig p (partnerHop p (exchCfg p c h) h.rev) (updateEleConfig p h.rev
    (updateEleConfig p (partnerHop p c h) (updateEleConfig p h c))) = c
  rw [partner_rev ok]
  have e := update_comm (p := p) (c := updateEleConfig p h c) (h := h.rev) (g := partnerHop p c h) ?_ ?_ ?_ ?_ ?_
  · rw [e, update_rev hc ok, update_rev hc ok2]
  · show h.mi + h.s * p.Ne ≠ (partnerHop p c h).mi + (1 - h.s) * p.Ne
    rw [Ne, flat_inj hs (by omega) ok.mi hm2]; omega
  · show h.rj + h.s * p.Nsite ≠ h.rj + (1 - h.s) * p.Nsite
    rw [Ne, flat_inj hs (by omega) ok.rj ok.rj]; omega
  · show h.rj + h.s * p.Nsite ≠ h.ri + (1 - h.s) * p.Nsite
    rw [Ne, flat_inj hs (by omega) ok.rj ok.ri]; omega
  · show h.ri + h.s * p.Nsite ≠ h.rj + (1 - h.s) * p.Nsite
    rw [Ne, flat_inj hs (by omega) ok.ri ok.rj]; omega
  · show h.ri + h.s * p.Nsite ≠ h.ri + (1 - h.s) * p.Nsite
    rw [Ne, flat_inj hs (by omega) ok.ri ok.ri]; omega

theorem exch_cons {p : SamplerPar} {c : EleCfg} (hc : Cons p c) {h : Hop} (ok : HopOK p c h)
    (ok2 : HopOK p (updateEleConfig p h c) (partnerHop p c h)) : Cons p (exchCfg p c h) :=
  update_cons (update_cons hc ok) ok2

end MVMC
