import Verif.Props.Balance
import Verif.Proof.BalanceFsz
import Verif.Proof.SamplerFszInit

/-!
# C19 for the general-Sz sampler

Same as `Props/Balance.lean` for the five kinds of proposals of `vmcmake_fsz.c`: hop with free spin, hop with kept
spin, spin flip of an itinerant electron, spin flip of a local spin, exchange. The two flips and the
exchange are reversed by the *same* stream; in the hops the drawn target is relabelled.
-/
namespace MVMC
open Spec

/-- streams that propose `h` with free target spin; target sites drawn below `T` -/
def HopStreamsF (p : FPar) (T : Nat) (c : FCfg) (h : FMove) : Set (List Nat) :=
  {r | (∀ u ∈ r, u < drawBound) ∧ makeCandidateHoppingF p c r = some ((h, false), []) ∧
    ∀ x r1, pickItinerantF p c r = some (x, r1) → FairPairs T r1}

/-- streams that propose `h` with kept spin -/
def HopStreamsC (p : FPar) (T : Nat) (c : FCfg) (h : FMove) : Set (List Nat) :=
  {r | (∀ u ∈ r, u < drawBound) ∧ makeCandidateHoppingC p c r = some ((h, false), []) ∧
    ∀ x r1, pickItinerantF p c r = some (x, r1) → ∀ u ∈ r1, u < T}

/-- keep the draws of the first loop, relabel the rest -/
def relabelF (p : FPar) (c : FCfg) (g : List Nat → List Nat) (r : List Nat) : List Nat :=
  match pickItinerantF p c r with
  | none => r
  | some (_, r1) => r.take (r.length - r1.length) ++ g r1

theorem relabelF_eq {p : FPar} {c : FCfg} {g : List Nat → List Nat} {pre r1 : List Nat} {x : Nat × Nat × Nat}
    (h : pickItinerantF p c (pre ++ r1) = some (x, r1)) :
    relabelF p c g (pre ++ r1) = pre ++ g r1 := by
  unfold relabelF
  rw [h]
  simp

theorem relabelF_length {p : FPar} {c : FCfg} {g : List Nat → List Nat} (hg : ∀ l, (g l).length = l.length)
    (r : List Nat) : (relabelF p c g r).length = r.length := by
  unfold relabelF
  cases h : pickItinerantF p c r with
  | none => rfl
  | some y =>
    obtain ⟨x, r1⟩ := y
    obtain ⟨pre, e, _⟩ := pickItinerantF_split r h
    subst e
    simp [hg]

/-- relabelling of target draws: sites and spins -/
def slotMap (p : FPar) (h : FMove) : List Nat → List Nat :=
  mapPairs (swapPair p.Nsite (h.ri, h.s) (h.rj, h.t))

/-- relabelling of target draws: sites only -/
def siteMap (p : FPar) (h : FMove) : List Nat → List Nat := List.map (swapRes p.Nsite h.ri h.rj)

theorem relabelF_maps {p : FPar} {T : Nat} (hNe : 0 < p.Ne) (hNs : 0 < p.Nsite) (hT : p.Nsite ∣ T)
    (hTb : T ≤ drawBound) {c : FCfg} (hc : ConsF p c) {h : FMove} {r : List Nat} (hr : r ∈ HopStreamsF p T c h) :
    relabelF p c (slotMap p h) r ∈ HopStreamsF p T (updateEleConfigF p h c) h.rev ∧
      relabelF p (updateEleConfigF p h c) (slotMap p h.rev) (relabelF p c (slotMap p h) r) = r := by
  obtain ⟨hb, he, ht⟩ := hr
  obtain ⟨ok, _⟩ := hoppingF_ok hc hNe hNs r he
  obtain ⟨pre, r1, rfl, hp, hp', hrev⟩ := hoppingF_reverse hc hNe hNs hb he
  have hA : SlotLt p.Nsite (h.ri, h.s) := ⟨ok.ri, ok.s⟩
  have hB : SlotLt p.Nsite (h.rj, h.t) := ⟨ok.rj, ok.t⟩
  obtain ⟨x, hx⟩ := hp r1
  obtain ⟨x', hx'⟩ := hp' (slotMap p h r1)
  have hb1 : ∀ u ∈ r1, u < 4294967296 := fun u hu => hb u (List.mem_append.mpr (Or.inr hu))
  have hmap := mapPairs_lt hA hB hT r1 hb1 hTb (ht _ _ hx)
  rw [relabelF_eq hx]
  refine ⟨⟨?_, hrev, ?_⟩, ?_⟩
  · intro u hu
    rcases List.mem_append.mp hu with hu | hu
    · exact hb u (List.mem_append.mpr (Or.inl hu))
    · exact hmap.1 u hu
  · intro y r2 hy
    rw [hx'] at hy
    simp only [Option.some.injEq, Prod.mk.injEq] at hy
    rw [← hy.2]
    exact hmap.2
  · rw [relabelF_eq hx']
    congr 1
    show mapPairs (swapPair p.Nsite (h.rj, h.t) (h.ri, h.s)) (mapPairs (swapPair p.Nsite (h.ri, h.s) (h.rj, h.t)) r1) = r1
    rw [swapPair_comm p.Nsite (h.rj, h.t)]
    exact mapPairs_swap hA hB r1 hb1

theorem relabelC_maps {p : FPar} {T : Nat} (hNe : 0 < p.Ne) (hNs : 0 < p.Nsite) (hT : p.Nsite ∣ T)
    (hTb : T ≤ drawBound) {c : FCfg} (hc : ConsF p c) {h : FMove} {r : List Nat} (hr : r ∈ HopStreamsC p T c h) :
    relabelF p c (siteMap p h) r ∈ HopStreamsC p T (updateEleConfigF p h c) h.rev ∧
      relabelF p (updateEleConfigF p h c) (siteMap p h.rev) (relabelF p c (siteMap p h) r) = r := by
  obtain ⟨hb, he, ht⟩ := hr
  obtain ⟨ok, _, _⟩ := hoppingC_ok hc hNe hNs r he
  obtain ⟨pre, r1, rfl, hp, hp', hrev⟩ := hoppingC_reverse hc hNe hNs he
  obtain ⟨x, hx⟩ := hp r1
  obtain ⟨x', hx'⟩ := hp' (siteMap p h r1)
  have hlt := ht _ _ hx
  have hmap : ∀ u ∈ siteMap p h r1, u < T := by
    intro u hu
    obtain ⟨v, hv, rfl⟩ := List.mem_map.mp hu
    exact swapRes_lt ok.ri ok.rj hT (hlt v hv)
  rw [relabelF_eq hx]
  refine ⟨⟨?_, hrev, ?_⟩, ?_⟩
  · intro u hu
    rcases List.mem_append.mp hu with hu | hu
    · exact hb u (List.mem_append.mpr (Or.inl hu))
    · exact lt_of_lt_of_le (hmap u hu) hTb
  · intro y r2 hy
    rw [hx'] at hy
    simp only [Option.some.injEq, Prod.mk.injEq] at hy
    rw [← hy.2]
    exact hmap
  · rw [relabelF_eq hx']
    congr 1
    show (r1.map (swapRes p.Nsite h.ri h.rj)).map (swapRes p.Nsite h.rj h.ri) = r1
    rw [List.map_map, swapRes_comm p.Nsite h.rj h.ri]
    conv_rhs => rw [← List.map_id r1]
    apply List.map_congr_left
    intro u _
    exact swapRes_swap ok.ri ok.rj u

/-- C19, hop with free target spin (`2Sz = -1`): bijection between the streams that propose the move and
the streams of the same length that propose the way back. Partial as `C19_hop_partial`. -/
theorem C19_hop_fsz_partial (p : FPar) (T : Nat) (hNe : 0 < p.Ne) (hNs : 0 < p.Nsite) (hT : p.Nsite ∣ T)
    (hTb : T ≤ drawBound) (c : FCfg) (hc : ConsistentF (2 * p.Ne) p.Nsite c.idx c.spn c.cfg c.num) (h : FMove)
    (hex : (HopStreamsF p T c h).Nonempty) :
    let c' := updateEleConfigF p h c
    updateEleConfigF p h.rev c' = c ∧
    Set.BijOn (relabelF p c (slotMap p h)) (HopStreamsF p T c h) (HopStreamsF p T c' h.rev) ∧
    (∀ r, (relabelF p c (slotMap p h) r).length = r.length) ∧
    ∀ n, streamCount (HopStreamsF p T c h) n = streamCount (HopStreamsF p T c' h.rev) n := by
  obtain ⟨r0, hr0⟩ := hex
  obtain ⟨ok, _⟩ := hoppingF_ok hc hNe hNs r0 hr0.2.1
  have hc' := updateF_cons hc ok
  have hu := updateF_rev hc ok
  have m1 := fun r (hr : r ∈ HopStreamsF p T c h) => relabelF_maps hNe hNs hT hTb hc hr
  have m2 := fun r (hr : r ∈ HopStreamsF p T (updateEleConfigF p h c) h.rev) =>
    relabelF_maps hNe hNs hT hTb hc' hr
  rw [hu] at m2
  have hl := relabelF_length (p := p) (c := c) (g := slotMap p h) (fun l => mapPairs_length _ l)
  have hb : Set.BijOn (relabelF p c (slotMap p h)) (HopStreamsF p T c h)
      (HopStreamsF p T (updateEleConfigF p h c) h.rev) := by
    refine Set.InvOn.bijOn (f' := relabelF p (updateEleConfigF p h c) (slotMap p h.rev)) ⟨?_, ?_⟩ ?_ ?_
    · exact fun r hr => (m1 r hr).2
    · exact fun r hr => (m2 r hr).2
    · exact fun r hr => (m1 r hr).1
    · exact fun r hr => (m2 r hr).1
  exact ⟨hu, hb, hl, streamCount_bij hb hl⟩

/-- C19, hop with kept spin (fixed `2Sz`). Partial as `C19_hop_partial`. -/
theorem C19_hop_csz_partial (p : FPar) (T : Nat) (hNe : 0 < p.Ne) (hNs : 0 < p.Nsite) (hT : p.Nsite ∣ T)
    (hTb : T ≤ drawBound) (c : FCfg) (hc : ConsistentF (2 * p.Ne) p.Nsite c.idx c.spn c.cfg c.num) (h : FMove)
    (hex : (HopStreamsC p T c h).Nonempty) :
    let c' := updateEleConfigF p h c
    updateEleConfigF p h.rev c' = c ∧
    Set.BijOn (relabelF p c (siteMap p h)) (HopStreamsC p T c h) (HopStreamsC p T c' h.rev) ∧
    (∀ r, (relabelF p c (siteMap p h) r).length = r.length) ∧
    ∀ n, streamCount (HopStreamsC p T c h) n = streamCount (HopStreamsC p T c' h.rev) n := by
  obtain ⟨r0, hr0⟩ := hex
  obtain ⟨ok, _, _⟩ := hoppingC_ok hc hNe hNs r0 hr0.2.1
  have hc' := updateF_cons hc ok
  have hu := updateF_rev hc ok
  have m1 := fun r (hr : r ∈ HopStreamsC p T c h) => relabelC_maps hNe hNs hT hTb hc hr
  have m2 := fun r (hr : r ∈ HopStreamsC p T (updateEleConfigF p h c) h.rev) =>
    relabelC_maps hNe hNs hT hTb hc' hr
  rw [hu] at m2
  have hl := relabelF_length (p := p) (c := c) (g := siteMap p h) (fun l => List.length_map _)
  have hb : Set.BijOn (relabelF p c (siteMap p h)) (HopStreamsC p T c h)
      (HopStreamsC p T (updateEleConfigF p h c) h.rev) := by
    refine Set.InvOn.bijOn (f' := relabelF p (updateEleConfigF p h c) (siteMap p h.rev)) ⟨?_, ?_⟩ ?_ ?_
    · exact fun r hr => (m1 r hr).2
    · exact fun r hr => (m2 r hr).2
    · exact fun r hr => (m1 r hr).1
    · exact fun r hr => (m2 r hr).1
  exact ⟨hu, hb, hl, streamCount_bij hb hl⟩

theorem conductionFlip_reverse {p : FPar} {c : FCfg} (hc : ConsF p c) (hNe : 0 < p.Ne)
    {r : List Nat} {h : FMove} {r1 : List Nat} (e : conductionFlip p c 0 r = some ((h, false), r1)) :
    MoveOK p c h ∧ conductionFlip p (updateEleConfigF p h c) 0 r = some ((h.rev, false), r1) := by
  obtain ⟨ok, _, hrr⟩ := conductionFlip_ok hc hNe 0 r e
  have hst : h.t = 1 - h.s := by
    revert e
    generalize (0 : Nat) = icnt
    intro e
    fun_induction conductionFlip p c icnt r with
    | case1 => simp at e
    | case2 icnt u r mi s ri h1 h2 ih => exact ih e
    | case3 icnt u r mi s ri h1 h2 =>
      simp only [Option.some.injEq, Prod.mk.injEq] at e
      obtain ⟨⟨rfl, _⟩, _⟩ := e
      rfl
    | case4 => simp at e
  have k := conductionFlip_congr hNe (flip_idx ok hrr) (flip_single hc ok hrr hst) 0 r e
  refine ⟨ok, ?_⟩
  rw [k]
  have hsp : ((updateEleConfigF p h c).spn h.mi).toNat = h.t := by simp [updateEleConfigF, Arr.set]
  have hs := ok.s
  rw [hsp]
  unfold FMove.rev
  rw [← hrr, hst, show 1 - (1 - h.s) = h.s by omega]

/-- C19, spin flip of an itinerant electron: exactly the same streams propose the move and the way back. -/
theorem C19_conductionFlip (p : FPar) (hNe : 0 < p.Ne) (c : FCfg)
    (hc : ConsistentF (2 * p.Ne) p.Nsite c.idx c.spn c.cfg c.num) (h : FMove)
    (hex : ∃ r, conductionFlip p c 0 r = some ((h, false), [])) :
    let c' := updateEleConfigF p h c
    updateEleConfigF p h.rev c' = c ∧
    ∀ r, conductionFlip p c 0 r = some ((h, false), []) ↔ conductionFlip p c' 0 r = some ((h.rev, false), []) := by
  obtain ⟨r0, hr0⟩ := hex
  obtain ⟨ok, _⟩ := conductionFlip_reverse hc hNe hr0
  have hu := updateF_rev hc ok
  refine ⟨hu, fun r => ⟨fun hr => (conductionFlip_reverse hc hNe hr).2, fun hr => ?_⟩⟩
  have := (conductionFlip_reverse (updateF_cons hc ok) hNe hr).2
  rw [hu] at this
  exact this

theorem localSpinFlip_reverse {p : FPar} {c : FCfg} (hc : ConsF p c) (hNe : 0 < p.Ne) (hb : LocBin p)
    (hl : LocalSingle p.Nsite p.locSpn c.num) {r : List Nat} {h : FMove} {r1 : List Nat}
    (e : localSpinFlip p c r = some (h, r1)) :
    MoveOK p c h ∧ h.ri = h.rj ∧ h.t = 1 - h.s ∧ localSpinFlip p (updateEleConfigF p h c) r = some (h.rev, r1) := by
  obtain ⟨ok, hrr, hst, _⟩ := localFlip_ok hc hNe hb hl r e
  refine ⟨ok, hrr, hst, ?_⟩
  rw [localSpinFlip_congr hNe (flip_idx ok hrr) r e]
  have hsp : ((updateEleConfigF p h c).spn h.mi).toNat = h.t := by simp [updateEleConfigF, Arr.set]
  have hs := ok.s
  rw [hsp]
  unfold FMove.rev
  rw [← hrr, hst, show 1 - (1 - h.s) = h.s by omega]

/-- a flip on a singly occupied site keeps all sites' occupation sums -/
theorem flip_local {p : FPar} {c : FCfg} (hc : ConsF p c) {h : FMove} (ok : MoveOK p c h)
    (hrr : h.ri = h.rj) (hst : h.t = 1 - h.s) (hl : LocalSingle p.Nsite p.locSpn c.num) :
    LocalSingle p.Nsite p.locSpn (updateEleConfigF p h c).num := by
  intro q hq hloc
  have hs := ok.s
  have h0 := hl q hq hloc
  have a0 : ∀ σ < 2, (updateEleConfigF p h c).num (q + σ * p.Nsite) =
      if q = h.rj ∧ σ = h.t then 1 else if q = h.ri ∧ σ = h.s then 0 else c.num (q + σ * p.Nsite) := by
    intro σ hσ
    simp only [updateEleConfigF, Arr.set, flat_inj hσ ok.t hq ok.rj, flat_inj hσ ok.s hq ok.ri]
  have b0 := a0 0 (by omega)
  have b1 := a0 1 (by omega)
  simp only [Nat.zero_mul, Nat.add_zero, Nat.one_mul] at b0 b1
  rw [b0, b1]
  by_cases e : q = h.ri
  · have e' : q = h.rj := by omega
    rcases (show h.s = 0 ∨ h.s = 1 by omega) with x | x
    · rw [if_neg (by omega), if_pos ⟨e, x.symm⟩, if_pos ⟨e', by omega⟩]; rfl
    · rw [if_pos ⟨e', by omega⟩, if_neg (by omega), if_pos ⟨e, x.symm⟩]; rfl
  · have e' : q ≠ h.rj := by omega
    rw [if_neg (by omega), if_neg (by omega), if_neg (by omega), if_neg (by omega)]
    exact h0

/-- C19, flip of a local spin: exactly the same streams propose the move and the way back. -/
theorem C19_localSpinFlip (p : FPar) (hNe : 0 < p.Ne) (hb : ∀ r < p.Nsite, p.locSpn r = 0 ∨ p.locSpn r = 1)
    (c : FCfg) (hc : ConsistentF (2 * p.Ne) p.Nsite c.idx c.spn c.cfg c.num)
    (hl : LocalSingle p.Nsite p.locSpn c.num) (h : FMove) (hex : ∃ r, localSpinFlip p c r = some (h, [])) :
    let c' := updateEleConfigF p h c
    updateEleConfigF p h.rev c' = c ∧
    ∀ r, localSpinFlip p c r = some (h, []) ↔ localSpinFlip p c' r = some (h.rev, []) := by
  obtain ⟨r0, hr0⟩ := hex
  obtain ⟨ok, hrr, hst, _⟩ := localSpinFlip_reverse hc hNe hb hl hr0
  have hu := updateF_rev hc ok
  refine ⟨hu, fun r => ⟨fun hr => (localSpinFlip_reverse hc hNe hb hl hr).2.2.2, fun hr => ?_⟩⟩
  have := (localSpinFlip_reverse (updateF_cons hc ok) hNe hb (flip_local hc ok hrr hst hl) hr).2.2.2
  rw [hu] at this
  exact this

theorem scanPair_exch {p : FPar} {c : FCfg} (hc : ConsF p c) {h : FMove} (x : ExchOKF p c h) :
    scanPair p (exchCfgF p c h) (List.range p.Nsite) 0 0 = true := by
  have hc' := exchF_cons hc x
  have hs := x.ok.s
  have hne := x.ne
  have hst := x.st
  rw [scanPair_iff hc' (List.range p.Nsite) (fun r hr => List.mem_range.mp hr) 0 0
    (by omega) (by omega) (fun _ => rfl)]
  have occ : ∀ σ < 2, ∀ q < p.Nsite, (exchCfgF p c h).cfg (q + σ * p.Nsite) ≠ -1 →
      (exchCfgF p c h).num (q + σ * p.Nsite) = 1 := by
    intro σ hσ q hq hn
    rcases hc'.site σ hσ q hq with y | ⟨m, _, y⟩
    · exact absurd y.1 hn
    · exact y.2.2.2
  have fre := fun σ (hσ : σ < 2) q (hq : q < p.Nsite) => consF_num_free hc' (s := σ) (ri := q) hσ hq
  have g1 : (exchCfgF p c h).num (h.ri + (1 - h.s) * p.Nsite) = 1 := by
    refine occ _ (by omega) _ x.ok.ri ?_
    rw [exchF_cfg x (by omega) x.ok.ri, if_pos ⟨rfl, rfl⟩]; omega
  have g2 : (exchCfgF p c h).num (h.ri + h.s * p.Nsite) = 0 := by
    refine fre _ hs _ x.ok.ri ?_
    rw [exchF_cfg x hs x.ok.ri, if_neg (by omega), if_neg (by omega), if_neg (by omega), if_pos ⟨rfl, rfl⟩]
  have g3 : (exchCfgF p c h).num (h.rj + h.s * p.Nsite) = 1 := by
    refine occ _ hs _ x.ok.rj ?_
    rw [exchF_cfg x hs x.ok.rj, if_neg (by omega), if_neg (by omega), if_pos ⟨rfl, rfl⟩]; omega
  have g4 : (exchCfgF p c h).num (h.rj + (1 - h.s) * p.Nsite) = 0 := by
    refine fre _ (by omega) _ x.ok.rj ?_
    rw [exchF_cfg x (by omega) x.ok.rj, if_neg (by omega), if_pos ⟨rfl, rfl⟩]
  have r1 := List.mem_range.mpr x.ok.ri
  have r2 := List.mem_range.mpr x.ok.rj
  rcases (show h.s = 0 ∨ h.s = 1 by omega) with q | q
  · rw [q] at g1 g2 g3 g4
    simp only [Nat.zero_mul, Nat.add_zero, Nat.sub_zero, Nat.one_mul] at g1 g2 g3 g4
    exact ⟨Or.inl ⟨_, r2, g3, g4⟩, Or.inl ⟨_, r1, g2, g1⟩⟩
  · rw [q] at g1 g2 g3 g4
    simp only [Nat.zero_mul, Nat.add_zero, Nat.sub_self, Nat.one_mul] at g1 g2 g3 g4
    exact ⟨Or.inl ⟨_, r1, g1, g2⟩, Or.inl ⟨_, r2, g4, g3⟩⟩

theorem exchangeF_reverse {p : FPar} {c : FCfg} (hc : ConsF p c) (hNe : 0 < p.Ne)
    {r : List Nat} {h : FMove} {rest : List Nat}
    (e : makeCandidateExchangeF p c r = some (some h, rest)) :
    makeCandidateExchangeF p (exchCfgF p c h) r = some (some h.rev, rest) := by
  have x := exchOKF_of hc hNe e
  have hsg := exchF_single hc x
  have hh := scanPair_exch hc x
  have hs := x.ok.s
  have hmine := exchF_mi_ne x
  unfold makeCandidateExchangeF at e
  split at e
  · split at e
    · simp at e
    · rename_i mi ri s r1 e1
      split at e
      · simp at e
      · rename_i mj rj r2 e2
        simp only [Option.some.injEq, Prod.mk.injEq] at e
        obtain ⟨rfl, rfl⟩ := e
        have hj := pickSingleSpinF_ok hc hNe (t := 1 - s) r1 e2
        have hmj : (partnerMove p c ⟨mi, ri, rj, s, s⟩).mi = mj := by
          have := (consF_back hc hj.1 hj.2.2.1 hj.2.2.2.1).2.2.1
          simp only [partnerMove, this, Int.toNat_natCast]
        have hspn : ((exchCfgF p c ⟨mi, ri, rj, s, s⟩).spn mi).toNat = s := by
          rw [exchF_spn x]
          have := x.ok.sp
          simp only at this
          rw [this, Int.toNat_natCast]
        have hl2 : ∀ m < p.Nsize, ((c.cfg ((c.idx m).toNat + (1 - (1 - s)) * p.Nsite) ≠ -1 ∨ c.spn m ≠ ((1 - s : Nat) : Int)) ↔
            ((exchCfgF p c ⟨mi, ri, rj, s, s⟩).cfg (((exchCfgF p c ⟨mi, ri, rj, s, s⟩).idx m).toNat + (1 - (1 - s)) * p.Nsite) ≠ -1 ∨
              (exchCfgF p c ⟨mi, ri, rj, s, s⟩).spn m ≠ ((1 - s : Nat) : Int))) := by
          intro m hm
          have h1 := hsg m hm
          rw [exchF_spn x] at h1 ⊢
          by_cases hsp : c.spn m = ((1 - s : Nat) : Int)
          · rw [hsp, Int.toNat_natCast] at h1
            rw [hsp]
            simp only [ne_eq, not_true_eq_false, or_false]
            rw [h1]
          · exact ⟨fun _ => Or.inr hsp, fun _ => Or.inr hsp⟩
        unfold makeCandidateExchangeF
        rw [if_pos hh, pickSingleAnyF_congr hNe hsg r e1]
        simp only [hspn]
        rw [pickSingleSpinF_congr hNe hl2 r1 e2]
        simp only [FMove.rev, exchF_idx, hmj, if_true]
        rw [hmj] at hmine
        rw [if_neg (fun e => hmine e.symm)]
        simp
  · simp at e

/-- C19, exchange: exactly the same streams propose the move and the way back. -/
theorem C19_exchange_fsz (p : FPar) (hNe : 0 < p.Ne) (c : FCfg)
    (hc : ConsistentF (2 * p.Ne) p.Nsite c.idx c.spn c.cfg c.num) (h : FMove)
    (hex : ∃ r, makeCandidateExchangeF p c r = some (some h, [])) :
    let c' := updateEleConfigF p (partnerMove p c h) (updateEleConfigF p h c)
    updateEleConfigF p (partnerMove p c' h.rev) (updateEleConfigF p h.rev c') = c ∧
    ∀ r, makeCandidateExchangeF p c r = some (some h, []) ↔
      makeCandidateExchangeF p c' r = some (some h.rev, []) := by
  obtain ⟨r0, hr0⟩ := hex
  have x := exchOKF_of hc hNe hr0
  have hback := exchF_rev hc x
  have hc' := exchF_cons hc x
  refine ⟨hback, fun r => ⟨fun hr => exchangeF_reverse hc hNe hr, fun hr => ?_⟩⟩
  have := exchangeF_reverse hc' hNe hr
  rw [hback] at this
  exact this

/-- C19: after a proposal that is not rejected, the Metropolis part ends in the new configuration if
the draw is accepted and in the old one otherwise. -/
theorem C19_step_fsz {β γ : Type} (k : FHooks β γ) (p : FPar) (st : FState β)
    (hc : ConsistentF (2 * p.Ne) p.Nsite st.c.idx st.c.spn st.c.cfg st.c.num) (h : FMove) (acc : Nat) (u : Nat)
    (rest : List Nat) (hNe : 0 < p.Ne) (hNs : 0 < p.Nsite)
    (hp : (∃ r fh, hopCandidateF p st.c r = some ((fh, h, false), u :: rest)) ∨
      ((∀ r < p.Nsite, p.locSpn r = 0 ∨ p.locSpn r = 1) ∧ LocalSingle p.Nsite p.locSpn st.c.num ∧
        ∃ r, localSpinFlip p st.c r = some (h, u :: rest))) :
    ∃ st', tryMoveF k p st h acc (u :: rest) = some (st', rest) ∧
      st'.c = if k.accept st.b (k.propMove (updateEleConfigF p h st.c) h st.b) u
        then updateEleConfigF p h st.c else st.c := by
  have ok : MoveOK p st.c h := by
    rcases hp with ⟨r, fh, e⟩ | ⟨hb, hl, r, e⟩
    · exact (hopCandidateF_ok hc hNe hNs r e).1
    · exact (localFlip_ok hc hNe hb hl r e).1
  have mr : ∀ s : FState β, (maybeRefreshF k p s).c = s.c := by
    intro s; unfold maybeRefreshF; split <;> rfl
  unfold tryMoveF
  simp only
  by_cases ha : k.accept st.b (k.propMove (updateEleConfigF p h st.c) h st.b) u = true
  · rw [if_pos ha, if_pos ha]
    exact ⟨_, rfl, by rw [mr]⟩
  · rw [if_neg ha, if_neg ha]
    exact ⟨_, rfl, by rw [mr]; exact revertF_update hc ok⟩

/-! ### examples -/

/-- two electrons (up on site 0, down on site 1) on four sites -/
def balParF : FPar where
  Ne := 1
  Nsite := 4
  locSpn := fun _ => 0
  exPath := 1
  twoSz := -1

def balCfgF : FCfg where
  idx := fun m => if m = 0 then 0 else 1
  spn := fun m => if m = 0 then 0 else 1
  cfg := fun k => if k = 0 then 0 else if k = 5 then 1 else -1
  num := fun k => if k = 0 ∨ k = 5 then 1 else 0

/-- electron 0 to site 2 with the other spin, after the occupied target `(1,1)` was drawn -/
example : makeCandidateHoppingF balParF balCfgF [6, 5, 2147483650, 2, 2147483649] =
    some ((⟨0, 0, 2, 0, 1⟩, false), []) ∧
  relabelF balParF balCfgF (slotMap balParF ⟨0, 0, 2, 0, 1⟩) [6, 5, 2147483650, 2, 2147483649] =
    [6, 5, 2147483650, 0, 1] ∧
  makeCandidateHoppingF balParF (updateEleConfigF balParF ⟨0, 0, 2, 0, 1⟩ balCfgF) [6, 5, 2147483650, 0, 1] =
    some ((⟨0, 2, 0, 1, 0⟩, false), []) := by decide

/-- `4 ∣ 2^32`: nothing is left out on this lattice -/
example : balParF.Nsite ∣ drawBound := by decide

/-- an exchange and its reverse from the same stream -/
example : makeCandidateExchangeF balParF balCfgF [4, 2, 3] = some (some ⟨0, 0, 1, 0, 0⟩, []) ∧
  makeCandidateExchangeF balParF
    (updateEleConfigF balParF (partnerMove balParF balCfgF ⟨0, 0, 1, 0, 0⟩)
      (updateEleConfigF balParF ⟨0, 0, 1, 0, 0⟩ balCfgF)) [4, 2, 3] = some (some ⟨0, 1, 0, 0, 0⟩, []) := by
  decide

end MVMC
