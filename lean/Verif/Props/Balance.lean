import Mathlib.Data.Nat.Count
import Mathlib.Data.Int.CardIntervalMod
import Mathlib.Data.Set.Card
import Mathlib.Data.Real.Basic
import Mathlib.Analysis.SpecialFunctions.Complex.Log
import Mathlib.Algebra.Order.Floor.Semiring
import Mathlib.Tactic.FieldSimp
import Verif.Proof.Balance

/-!
# C19: proposals are reversible with equal probability

A "stream" is the finite list of 32-bit draws that a step consumes; all streams of the same length have
the same probability. `HopStreams p T c h` is the set of streams that make
`makeCandidate_hopping` propose the hop `h` from the tables `c` and that draw target sites below `T` only.
For `T = 2^32` this is no restriction; if `Nsite` does not divide `2^32`, the theorems use a multiple
`T` of `Nsite` (the largest one leaves out fewer than `Nsite` of the `2^32` values of each such draw).
-/
namespace MVMC
open Spec

/-- all values of a 32-bit draw -/
def drawBound : Nat := 4294967296

/-- streams that propose hop `h` in tables `c`, target sites drawn below `T` -/
def HopStreams (p : SamplerPar) (T : Nat) (c : EleCfg) (h : Hop) : Set (List Nat) :=
  {r | (∀ u ∈ r, u < drawBound) ∧ makeCandidateHopping p c r = some ((h, false), []) ∧
    ∀ x r1, pickItinerant p c r = some (x, r1) → ∀ u ∈ r1, u < T}

/-- streams that propose the exchange starting with hop `h` -/
def ExchStreams (p : SamplerPar) (c : EleCfg) (h : Hop) : Set (List Nat) :=
  {r | (∀ u ∈ r, u < drawBound) ∧ makeCandidateExchange p c r = some (some h, [])}

theorem relabel_maps {p : SamplerPar} {T : Nat} (hNe : 0 < p.Ne) (hNs : 0 < p.Nsite) (hT : p.Nsite ∣ T)
    (hTb : T ≤ drawBound) {c : EleCfg} (hc : Cons p c) {h : Hop} {r : List Nat} (hr : r ∈ HopStreams p T c h) :
    relabel p c h.ri h.rj r ∈ HopStreams p T (updateEleConfig p h c) h.rev ∧
      relabel p (updateEleConfig p h c) h.rev.ri h.rev.rj (relabel p c h.ri h.rj r) = r := by
  obtain ⟨hb, he, ht⟩ := hr
  obtain ⟨ok, _, _⟩ := hopping_ok hc hNe hNs r he
  obtain ⟨pre, r1, rfl, hp, hp', hrev⟩ := hopping_reverse hc hNe hNs he
  obtain ⟨x, hx⟩ := hp r1
  obtain ⟨x', hx'⟩ := hp' (r1.map (swapRes p.Nsite h.ri h.rj))
  have hlt := ht _ _ hx
  have hmap : ∀ u ∈ r1.map (swapRes p.Nsite h.ri h.rj), u < T := by
    intro u hu
    obtain ⟨v, hv, rfl⟩ := List.mem_map.mp hu
    exact swapRes_lt ok.ri ok.rj hT (hlt v hv)
  rw [relabel_eq hx]
  refine ⟨⟨?_, hrev, ?_⟩, ?_⟩
  · intro u hu
    rcases List.mem_append.mp hu with hu | hu
    · exact hb u (List.mem_append.mpr (Or.inl hu))
    · exact lt_of_lt_of_le (hmap u hu) hTb
  · intro y r2 hy
    rw [hx'] at hy
    simp only [Option.some.injEq, Prod.mk.injEq] at hy
    rw [← hy.2]
    exact hmap
  · rw [relabel_eq hx']
    congr 1
    show (r1.map (swapRes p.Nsite h.ri h.rj)).map (swapRes p.Nsite h.rj h.ri) = r1
    rw [List.map_map, swapRes_comm p.Nsite h.rj h.ri]
    conv_rhs => rw [← List.map_id r1]
    apply List.map_congr_left
    intro u _
    exact swapRes_swap ok.ri ok.rj u

/-- C19: relabelling the drawn sites is a bijection from the streams that propose a hop to the
streams of the same length that propose the reverse hop from the new configuration.
Partial: target draws are restricted to a multiple `T` of the number of sites; see
`C19_power_of_two` and `C19_bias_violated`. -/
theorem C19_hop_partial (p : SamplerPar) (T : Nat) (hNe : 0 < p.Ne) (hNs : 0 < p.Nsite) (hT : p.Nsite ∣ T)
    (hTb : T ≤ drawBound) (c : EleCfg) (hc : Consistent p.Ne p.Nsite c.idx c.cfg c.num) (h : Hop)
    (hex : (HopStreams p T c h).Nonempty) :
    let c' := updateEleConfig p h c
    updateEleConfig p h.rev c' = c ∧
    Set.BijOn (relabel p c h.ri h.rj) (HopStreams p T c h) (HopStreams p T c' h.rev) ∧
    ∀ r, (relabel p c h.ri h.rj r).length = r.length := by
  obtain ⟨r0, hr0⟩ := hex
  obtain ⟨ok, _, _⟩ := hopping_ok hc hNe hNs r0 hr0.2.1
  have hc' := update_cons hc ok
  have hu := update_rev hc ok
  refine ⟨hu, ?_, relabel_length p c h.ri h.rj⟩
  have m1 := fun r (hr : r ∈ HopStreams p T c h) => relabel_maps hNe hNs hT hTb hc hr
  have m2 := fun r (hr : r ∈ HopStreams p T (updateEleConfig p h c) h.rev) =>
    relabel_maps hNe hNs hT hTb hc' hr
  rw [hu] at m2
  refine Set.InvOn.bijOn (f' := relabel p (updateEleConfig p h c) h.rev.ri h.rev.rj) ⟨?_, ?_⟩ ?_ ?_
  · exact fun r hr => (m1 r hr).2
  · exact fun r hr => (m2 r hr).2
  · exact fun r hr => (m1 r hr).1
  · exact fun r hr => (m2 r hr).1

/-- number of streams of length `n` in `S` -/
noncomputable def streamCount (S : Set (List Nat)) (n : Nat) : Nat := {r | r ∈ S ∧ r.length = n}.ncard

theorem streamCount_bij {S S' : Set (List Nat)} {f : List Nat → List Nat} (hb : Set.BijOn f S S')
    (hl : ∀ r, (f r).length = r.length) (n : Nat) : streamCount S n = streamCount S' n := by
  have hb' : Set.BijOn f {r | r ∈ S ∧ r.length = n} {r | r ∈ S' ∧ r.length = n} := by
    refine ⟨?_, ?_, ?_⟩
    · intro r hr
      exact ⟨hb.mapsTo hr.1, by rw [hl]; exact hr.2⟩
    · intro r hr r' hr' e
      exact hb.injOn hr.1 hr'.1 e
    · intro r hr
      obtain ⟨q, hq, e⟩ := hb.surjOn hr.1
      exact ⟨q, ⟨hq, by rw [← hl q, e]; exact hr.2⟩, e⟩
  unfold streamCount
  rw [← hb'.image_eq]
  exact (Set.ncard_image_of_injOn hb'.injOn).symm

/-- C19: forward and reverse hop are proposed by equally many streams of every length. -/
theorem C19_hop_count_partial (p : SamplerPar) (T : Nat) (hNe : 0 < p.Ne) (hNs : 0 < p.Nsite)
    (hT : p.Nsite ∣ T) (hTb : T ≤ drawBound) (c : EleCfg)
    (hc : Consistent p.Ne p.Nsite c.idx c.cfg c.num) (h : Hop) (hex : (HopStreams p T c h).Nonempty) (n : Nat) :
    streamCount (HopStreams p T c h) n = streamCount (HopStreams p T (updateEleConfig p h c) h.rev) n :=
  let k := C19_hop_partial p T hNe hNs hT hTb c hc h hex
  streamCount_bij k.2.1 k.2.2 n

/-- C19: on a lattice whose number of sites divides `2^32` nothing has to be left out: over *all*
streams, both hops are equally likely. -/
theorem C19_power_of_two (p : SamplerPar) (hNe : 0 < p.Ne) (hNs : 0 < p.Nsite) (hd : p.Nsite ∣ drawBound)
    (c : EleCfg) (hc : Consistent p.Ne p.Nsite c.idx c.cfg c.num) (h : Hop) (n : Nat)
    (hex : ∃ r, (∀ u ∈ r, u < drawBound) ∧ makeCandidateHopping p c r = some ((h, false), [])) :
    {r | ((∀ u ∈ r, u < drawBound) ∧ makeCandidateHopping p c r = some ((h, false), [])) ∧
        r.length = n}.ncard =
    {r | ((∀ u ∈ r, u < drawBound) ∧
        makeCandidateHopping p (updateEleConfig p h c) r = some ((h.rev, false), [])) ∧ r.length = n}.ncard := by
  have key : ∀ c h, HopStreams p drawBound c h =
      {r | (∀ u ∈ r, u < drawBound) ∧ makeCandidateHopping p c r = some ((h, false), [])} := by
    intro c h
    ext r
    constructor
    · exact fun hr => ⟨hr.1, hr.2.1⟩
    · intro hr
      refine ⟨hr.1, hr.2, fun x r1 hx u hu => hr.1 u ?_⟩
      obtain ⟨pre, e, _⟩ := pickItinerant_split r hx
      rw [e]
      exact List.mem_append.mpr (Or.inr hu)
  have k := C19_hop_count_partial p drawBound hNe hNs hd le_rfl c hc h (by rw [key]; exact hex) n
  unfold streamCount at k
  rw [key, key] at k
  exact k

/-- C19: the streams that propose an exchange are exactly the streams that propose the
reverse exchange from the new configuration. -/
theorem C19_exchange (p : SamplerPar) (hNe : 0 < p.Ne) (c : EleCfg)
    (hc : Consistent p.Ne p.Nsite c.idx c.cfg c.num) (h : Hop) (hex : (ExchStreams p c h).Nonempty) :
    let c1 := updateEleConfig p h c
    let c' := updateEleConfig p (partnerHop p c h) c1
    let c2 := updateEleConfig p h.rev c'
    updateEleConfig p (partnerHop p c' h.rev) c2 = c ∧ ExchStreams p c h = ExchStreams p c' h.rev := by
  obtain ⟨r0, hr0⟩ := hex
  obtain ⟨ok, ok2, _, _, _, hidj, hm2, hemp⟩ := exchange_ok hc hNe r0 hr0.2
  have hback := exch_rev hc ok hidj hm2 hemp
  have hc' := exch_cons hc ok ok2
  refine ⟨hback, ?_⟩
  ext r
  constructor
  · exact fun hr => ⟨hr.1, exchange_reverse hc hNe hr.2⟩
  · intro hr
    have := exchange_reverse hc' hNe hr.2
    change makeCandidateExchange p (exchCfg p (exchCfg p c h) h.rev) r = _ at this
    rw [hback] at this
    exact ⟨hr.1, this⟩

/-- C19: a sampler step that proposes a hop ends in the new configuration if it is accepted and in
the old one otherwise. -/
theorem C19_hop_step {β γ : Type} (k : Hooks β γ) (p : SamplerPar) (hNe : 0 < p.Ne) (hNs : 0 < p.Nsite)
    (st : SState β) (hc : Consistent p.Ne p.Nsite st.c.idx st.c.cfg st.c.num) (r r1 : List Nat) (h : Hop) (u : Nat)
    (ht : getUpdateType p.exPath false 0 r = some (.hopping, r1))
    (hp : makeCandidateHopping p st.c r1 = some ((h, false), [u])) :
    ∃ st', innerStep k p st r = some (st', []) ∧
      st'.c = if k.accept st.b (k.propHop (updateEleConfig p h st.c) h st.b) u
        then updateEleConfig p h st.c else st.c := by
  obtain ⟨ok, _, _⟩ := hopping_ok hc hNe hNs r1 hp
  have mr : ∀ s : SState β, (maybeRefresh k p s).c = s.c := by
    intro s; unfold maybeRefresh; split <;> rfl
  unfold innerStep
  rw [ht]
  simp only [hp]
  by_cases ha : k.accept st.b (k.propHop (updateEleConfig p h st.c) h st.b) u = true
  · rw [if_pos ha, if_pos ha]
    exact ⟨_, rfl, by rw [mr]⟩
  · rw [if_neg ha, if_neg ha]
    exact ⟨_, rfl, by rw [mr]; exact revert_update hc ok⟩

/-- C19: the same for an exchange. -/
theorem C19_exchange_step {β γ : Type} (k : Hooks β γ) (p : SamplerPar) (hNe : 0 < p.Ne)
    (st : SState β) (hc : Consistent p.Ne p.Nsite st.c.idx st.c.cfg st.c.num) (r r1 : List Nat) (h : Hop) (u : Nat)
    (ht : getUpdateType p.exPath false 0 r = some (.exchange, r1))
    (hp : makeCandidateExchange p st.c r1 = some (some h, [u])) :
    let c1 := updateEleConfig p h st.c
    let c' := updateEleConfig p (partnerHop p st.c h) c1
    ∃ st', innerStep k p st r = some (st', []) ∧
      st'.c = if k.accept st.b (k.propExch c1 c' h (partnerHop p st.c h) st.b) u then c' else st.c := by
  obtain ⟨ok, ok2, _⟩ := exchange_ok hc hNe r1 hp
  have mr : ∀ s : SState β, (maybeRefresh k p s).c = s.c := by
    intro s; unfold maybeRefresh; split <;> rfl
  intro c1 c'
  unfold innerStep
  rw [ht]
  simp only [hp]
  by_cases ha : k.accept st.b (k.propExch c1 c' h (partnerHop p st.c h) st.b) u = true
  · rw [if_pos ha, if_pos ha]
    exact ⟨_, rfl, by rw [mr]⟩
  · rw [if_neg ha, if_neg ha]
    refine ⟨_, rfl, ?_⟩
    rw [mr]
    show revertEleConfig p h (revertEleConfig p (partnerHop p st.c h) c') = st.c
    rw [revert_update (update_cons hc ok) ok2, revert_update hc ok]

/-! ### the accept rule -/

/-- `w > genrand_real2()` (`/repo/src/mVMC/vmcmake.c:197,281`, `genrand_real2 = u/2^32`,
`/repo/src/sfmt/SFMT.h:100-110`) -/
def Accepted (w : ℝ) (u : Nat) : Prop := (u : ℝ) / 4294967296 < w

/-- accepted draws among the `2^32` -/
noncomputable def acceptCount (w : ℝ) : Nat := {u : Nat | u < drawBound ∧ Accepted w u}.ncard

/-- C19: the accepted draws are the first `min(2^32, ⌈w·2^32⌉)`. -/
theorem C19_accept (w : ℝ) : acceptCount w = min drawBound ⌈w * 4294967296⌉₊ := by
  have : {u : Nat | u < drawBound ∧ Accepted w u} =
      ((Finset.range (min drawBound ⌈w * 4294967296⌉₊) : Finset Nat) : Set Nat) := by
    ext u
    simp only [Set.mem_setOf_eq, Finset.coe_range, Set.mem_Iio, lt_min_iff, Nat.lt_ceil]
    unfold Accepted
    rw [div_lt_iff₀ (by norm_num)]
  unfold acceptCount
  rw [this, Set.ncard_coe_finset, Finset.card_range]

/-- hence the acceptance probability is `min(1,w)` up to less than `2^-32` -/
theorem C19_accept_close (w : ℝ) (hw : 0 ≤ w) :
    min 1 w ≤ (acceptCount w : ℝ) / 4294967296 ∧ (acceptCount w : ℝ) / 4294967296 < min 1 w + 1 / 4294967296 := by
  rw [C19_accept]
  have h1 : (0 : ℝ) < 4294967296 := by norm_num
  have hcast : ((min drawBound ⌈w * 4294967296⌉₊ : Nat) : ℝ) = min 4294967296 (⌈w * 4294967296⌉₊ : ℝ) := by
    rw [Nat.cast_min]; unfold drawBound; norm_num
  rw [hcast]
  have hl := Nat.le_ceil (w * 4294967296)
  have hr := Nat.ceil_lt_add_one (show 0 ≤ w * 4294967296 by positivity)
  constructor
  · rw [le_div_iff₀ h1]
    refine le_min ?_ ?_
    · have := min_le_left 1 w; nlinarith
    · have := min_le_right 1 w; nlinarith
  · rw [div_lt_iff₀ h1]
    rcases le_total 1 w with hw1 | hw1
    · rw [min_eq_left hw1]
      refine lt_of_le_of_lt (min_le_left _ _) ?_
      norm_num
    · rw [min_eq_right hw1]
      refine lt_of_le_of_lt (min_le_right _ _) ?_
      linarith

/-- C19: the number the sampler compares with the draw, `exp(2·Re(x + log ip' − log ip))`
(`/repo/src/mVMC/vmcmake.c:194,278`), is the squared ratio of the amplitudes `exp(P)·ip`, where `x` is the change
of the log of the projection factor. -/
theorem C19_weight (P P' ip ip' : ℂ) (h : ip ≠ 0) (h' : ip' ≠ 0) :
    Real.exp (2 * ((P' - P) + (Complex.log ip' - Complex.log ip)).re) =
      ‖Complex.exp P' * ip'‖ ^ 2 / ‖Complex.exp P * ip‖ ^ 2 := by
  have e : ((P' - P) + (Complex.log ip' - Complex.log ip)).re =
      (P'.re - P.re) + (Real.log ‖ip'‖ - Real.log ‖ip‖) := by
    simp only [Complex.add_re, Complex.sub_re, Complex.log_re]
  have p1 : 0 < ‖ip‖ := norm_pos_iff.mpr h
  have p2 : 0 < ‖ip'‖ := norm_pos_iff.mpr h'
  rw [e, two_mul, Real.exp_add, Real.exp_add, Real.exp_sub, Real.exp_sub, Real.exp_log p1, Real.exp_log p2,
    norm_mul, norm_mul, Complex.norm_exp, Complex.norm_exp]
  have e1 := Real.exp_pos P.re
  field_simp

/-- C19, detailed balance: for positive weights, weight times number of proposing streams times
Metropolis acceptance is the same in both directions. Partial as `C19_hop_partial`. -/
theorem C19_balance_partial (p : SamplerPar) (T : Nat) (hNe : 0 < p.Ne) (hNs : 0 < p.Nsite)
    (hT : p.Nsite ∣ T) (hTb : T ≤ drawBound) (c : EleCfg)
    (hc : Consistent p.Ne p.Nsite c.idx c.cfg c.num) (h : Hop) (hex : (HopStreams p T c h).Nonempty) (n : Nat)
    (W : EleCfg → ℝ) (hW : ∀ x, 0 < W x) :
    let c' := updateEleConfig p h c
    W c * streamCount (HopStreams p T c h) n * min 1 (W c' / W c) =
      W c' * streamCount (HopStreams p T c' h.rev) n * min 1 (W c / W c') := by
  intro c'
  rw [C19_hop_count_partial p T hNe hNs hT hTb c hc h hex n]
  have h1 := hW c
  have h2 := hW c'
  have key : W c * min 1 (W c' / W c) = W c' * min 1 (W c / W c') := by
    rw [mul_min_of_nonneg _ _ h1.le, mul_min_of_nonneg _ _ h2.le, mul_one, mul_one,
      mul_div_cancel₀ _ h1.ne', mul_div_cancel₀ _ h2.ne', min_comm]
  calc _ = streamCount (HopStreams p T c' h.rev) n * (W c * min 1 (W c' / W c)) := by ring
    _ = _ := by rw [key]; ring

/-- C19, detailed balance for exchanges: no restriction on the draws. -/
theorem C19_balance_exchange (p : SamplerPar) (hNe : 0 < p.Ne) (c : EleCfg)
    (hc : Consistent p.Ne p.Nsite c.idx c.cfg c.num) (h : Hop) (hex : (ExchStreams p c h).Nonempty) (n : Nat)
    (W : EleCfg → ℝ) (hW : ∀ x, 0 < W x) :
    let c' := updateEleConfig p (partnerHop p c h) (updateEleConfig p h c)
    W c * streamCount (ExchStreams p c h) n * min 1 (W c' / W c) =
      W c' * streamCount (ExchStreams p c' h.rev) n * min 1 (W c / W c') := by
  intro c'
  have e : ExchStreams p c h = ExchStreams p c' h.rev := (C19_exchange p hNe c hc h hex).2
  rw [← e]
  have h1 := hW c
  have h2 := hW c'
  have key : W c * min 1 (W c' / W c) = W c' * min 1 (W c / W c') := by
    rw [mul_min_of_nonneg _ _ h1.le, mul_min_of_nonneg _ _ h2.le, mul_one, mul_one,
      mul_div_cancel₀ _ h1.ne', mul_div_cancel₀ _ h2.ne', min_comm]
  calc _ = streamCount (ExchStreams p c h) n * (W c * min 1 (W c' / W c)) := by ring
    _ = _ := by rw [key]; ring

/-! ### examples and the modulo bias -/

/-- one electron per spin on three sites, both on site 0 -/
def balPar : SamplerPar where
  Ne := 1
  Nsite := 3
  locSpn := fun _ => 0
  exPath := 0

def balCfg : EleCfg where
  idx := fun k => if k < 2 then 0 else 7
  cfg := fun k => if k = 0 ∨ k = 3 then 0 else -1
  num := fun k => if k = 0 ∨ k = 3 then 1 else 0

def balHop : Hop := ⟨0, 0, 1, 0⟩

theorem balCfg_cons : Consistent balPar.Ne balPar.Nsite balCfg.idx balCfg.cfg balCfg.num := by
  constructor
  · intro s hs mi hm
    refine ⟨0, by decide, ?_⟩
    have hm' : mi = 0 := by have : mi < 1 := hm; omega
    subst hm'
    rcases (show s = 0 ∨ s = 1 by omega) with rfl | rfl <;> decide
  · intro s hs r hr
    have hr' : r < 3 := hr
    rcases (show s = 0 ∨ s = 1 by omega) with rfl | rfl <;>
      rcases (show r = 0 ∨ r = 1 ∨ r = 2 by omega) with rfl | rfl | rfl <;> decide

/-- the theorem applies: `[5,7,0,1]` (target 0 occupied, then target 1) proposes the hop `0 → 1` and the
relabelled stream `[5,7,1,0]` proposes the way back -/
example : [5, 7, 0, 1] ∈ HopStreams balPar 4294967295 balCfg balHop ∧
    relabel balPar balCfg 0 1 [5, 7, 0, 1] = [5, 7, 1, 0] ∧
    makeCandidateHopping balPar (updateEleConfig balPar balHop balCfg) [5, 7, 1, 0] =
      some ((balHop.rev, false), []) := by
  refine ⟨⟨?_, by decide, ?_⟩, by decide, by decide⟩
  · decide
  · intro x r1 hx
    rw [show pickItinerant balPar balCfg [5, 7, 0, 1] = some ((0, 0, 0), [0, 1]) by decide] at hx
    simp only [Option.some.injEq, Prod.mk.injEq] at hx
    rw [← hx.2]
    decide

example : 3 ∣ 4294967295 ∧ 4294967295 ≤ drawBound := by decide

/-- `w % 3` over the `2^32` draws -/
def resDraws (a : Nat) : Finset Nat := (Finset.range drawBound).filter (fun w => w ≡ a [MOD 3])

theorem resDraws_card (a : Nat) : (resDraws a).card = drawBound / 3 + if a % 3 < drawBound % 3 then 1 else 0 := by
  rw [← Nat.count_modEq_card _ (by decide : 0 < 3), Nat.count_eq_card_filter_range, resDraws]

set_option linter.constructorNameAsVariable false in
/-- streams of length 3 of the example, from either configuration -/
theorem bal_streams (c : EleCfg) (a b : Nat) (ha : a < 3) (hb : b < 3) (hidx : c.idx 0 = a)
    (hcfg : ∀ x < 3, c.cfg x = -1 ↔ x ≠ a) (hab : b ≠ a) :
    {r | r ∈ HopStreams balPar drawBound c ⟨0, a, b, 0⟩ ∧ r.length = 3} =
      (fun q : Nat × Nat × Nat => [q.1, q.2.1, q.2.2]) ''
        ((Finset.range drawBound ×ˢ Finset.range 2147483648 ×ˢ resDraws b : Finset (Nat × Nat × Nat)) :
          Set (Nat × Nat × Nat)) := by
  have run : ∀ u v w, makeCandidateHopping balPar c [u, v, w] = some ((⟨0, a, b, 0⟩, false), []) ↔
      v < 2147483648 ∧ w % 3 = b := by
    intro u v w
    unfold makeCandidateHopping
    rw [pickItinerant]
    rw [if_neg (show ¬ balPar.locSpn _ = 1 by simp [balPar])]
    simp only
    rw [pickTarget, if_neg (by omega)]
    have e0 : u % balPar.Ne = 0 := by show u % 1 = 0; omega
    have e3 : balPar.Nsite = 3 := rfl
    have hw : w % 3 < 3 := Nat.mod_lt _ (by omega)
    simp only [e0, e3, Nat.zero_add]
    by_cases hv : v < 2147483648
    · have hcv : coin v = 0 := by unfold coin; rw [if_pos hv]
      simp only [hcv, Nat.zero_mul, Nat.add_zero, hidx, Int.toNat_natCast, hv, true_and]
      by_cases hwa : w % 3 = a
      · rw [if_pos (Or.inl (fun x => (hcfg _ hw).mp x hwa))]
        simp only [pickTarget]
        constructor
        · intro x; exact absurd x (by simp)
        · omega
      · rw [if_neg]
        · simp
        · rintro (x | x)
          · exact x ((hcfg _ hw).mpr hwa)
          · simp [balPar] at x
    · have hcv : coin v = 1 := by unfold coin; rw [if_neg hv]
      simp only [hcv, hv, false_and, iff_false]
      split
      · simp
      · rename_i y hy
        intro hh
        simp only [Option.some.injEq, Prod.mk.injEq, Hop.mk.injEq] at hh
        omega
  ext r
  constructor
  · rintro ⟨⟨hr, he, _⟩, hl⟩
    match r, hl with
    | [u, v, w], _ =>
      have := (run u v w).mp he
      refine ⟨(u, v, w), ?_, rfl⟩
      have hu := hr u (by simp)
      have hw := hr w (by simp)
      simp only [Finset.coe_product, Set.mem_prod, Finset.mem_coe, Finset.mem_range, resDraws,
        Finset.mem_filter]
      exact ⟨hu, this.1, hw, by rw [Nat.ModEq, this.2, Nat.mod_eq_of_lt hb]⟩
  · rintro ⟨⟨u, v, w⟩, hq, rfl⟩
    simp only [Finset.coe_product, Set.mem_prod, Finset.mem_coe, Finset.mem_range, resDraws,
        Finset.mem_filter] at hq
    obtain ⟨hu, hv, hw, hm⟩ := hq
    have hm' : w % 3 = b := by rw [Nat.ModEq, Nat.mod_eq_of_lt hb] at hm; exact hm
    have hall : ∀ x ∈ [u, v, w], x < drawBound := by
      intro x hx
      simp only [List.mem_cons, List.not_mem_nil, or_false] at hx
      rcases hx with rfl | rfl | rfl
      · exact hu
      · unfold drawBound; omega
      · exact hw
    refine ⟨⟨hall, (run u v w).mpr ⟨hv, hm'⟩, ?_⟩, rfl⟩
    intro x r1 hx y hy
    obtain ⟨pre, e, _⟩ := pickItinerant_split _ hx
    have e' : [u, v, w] = pre ++ r1 := e
    exact hall y (by rw [e']; exact List.mem_append.mpr (Or.inr hy))

theorem bal_count (c : EleCfg) (a b : Nat) (ha : a < 3) (hb : b < 3) (hidx : c.idx 0 = a)
    (hcfg : ∀ x < 3, c.cfg x = -1 ↔ x ≠ a) (hab : b ≠ a) :
    streamCount (HopStreams balPar drawBound c ⟨0, a, b, 0⟩) 3 =
      drawBound * (2147483648 * (drawBound / 3 + if b % 3 < drawBound % 3 then 1 else 0)) := by
  unfold streamCount
  rw [bal_streams c a b ha hb hidx hcfg hab, Set.ncard_image_of_injective, Set.ncard_coe_finset,
    Finset.card_product, Finset.card_product, Finset.card_range, Finset.card_range, resDraws_card]
  rintro ⟨u, v, w⟩ ⟨u', v', w'⟩ h
  simpa using h

/-- C19 does not hold for the full generator: on three sites, `gen_rand32()%Nsite` hits site 0 once
more often than site 1, so the hop `0 → 1` is proposed by fewer streams (of length 3) than the way back. -/
theorem C19_bias_violated :
    streamCount (HopStreams balPar drawBound balCfg balHop) 3 + drawBound * 2147483648 =
      streamCount (HopStreams balPar drawBound (updateEleConfig balPar balHop balCfg) balHop.rev) 3 := by
  rw [show balHop = ⟨0, 0, 1, 0⟩ from rfl, bal_count balCfg 0 1 (by omega) (by omega) rfl (by decide) (by omega)]
  show _ = streamCount (HopStreams balPar drawBound (updateEleConfig balPar balHop balCfg) ⟨0, 1, 0, 0⟩) 3
  rw [bal_count (updateEleConfig balPar balHop balCfg) 1 0 (by omega) (by omega) (by decide) (by decide) (by omega)]
  decide

end MVMC
