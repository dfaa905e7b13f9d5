import Verif.Proof.Chain
import Verif.Props.StationaryFsz

/-! # Which configurations the moves of the general-Sz sampler connect (2Sz free) -/
namespace MVMC
open Spec Finset

/-- paths with flips of local spins -/
def FlipPathF (p : FPar) : Prop := (p.exPath = 2 ∧ p.twoSz = -1) ∨ p.exPath = 3
def HopPathF (p : FPar) : Prop := p.exPath = 0 ∨ p.exPath = 1 ∨ p.exPath = 3
def ExchPathF (p : FPar) : Prop := p.exPath = 1 ∨ p.exPath = 2 ∨ p.exPath = 3

/-- the moves of the sampler -/
inductive MvF (p : FPar) (c : FCfg) : FCfg → Prop
  | hop (hp : HopPathF p) (h : FMove) (ok : MoveOK p c h) (hi : Itin p h) (hz : p.twoSz ≠ -1 → h.s = h.t) : MvF p c (updateEleConfigF p h c)
  | flip (hp : FlipPathF p) (h : FMove) (ok : MoveOK p c h) (hr : h.ri = h.rj) (ht : h.t = 1 - h.s) (hl : p.locSpn h.ri = 1) :
      MvF p c (updateEleConfigF p h c)
  | exch (hp : ExchPathF p) (h : FMove) (x : ExchOKF p c h) : MvF p c (exchCfgF p c h)

theorem MvF.cons {p : FPar} {c c' : FCfg} (hc : ConsF p c) (h : MvF p c c') : ConsF p c' := by
  cases h with
  | hop _ h ok _ _ => exact updateF_cons hc ok
  | flip _ h ok _ _ _ => exact updateF_cons hc ok
  | exch _ h x => exact exchF_cons hc x

theorem MvF.local' {p : FPar} {c c' : FCfg} (h : MvF p c c') (hl : LocalSingle p.Nsite p.locSpn c.num) : LocalSingle p.Nsite p.locSpn c'.num := by
  cases h with
  | hop _ h ok hi _ => exact updF_local ok hi hl
  | flip _ h ok a b _ => exact flipF_local ok a b hl
  | exch _ h x => exact exchF_local x.ok x.ok2 x.st x.ne hl

/-- valid tables -/
structure ValidF (p : FPar) (c : FCfg) : Prop where
  cons : ConsF p c
  loc : LocalSingle p.Nsite p.locSpn c.num

theorem ValidF.mv {p : FPar} {c c' : FCfg} (h : ValidF p c) (m : MvF p c c') : ValidF p c' := ⟨m.cons h.cons, m.local' h.loc⟩

/-! ## Moves and streams -/

theorem updateTypeF_hop {path tz : Int} {r r1 : List Nat} (h : getUpdateType path true tz r = some (.hopping, r1)) : path = 0 ∨ path = 1 ∨ path = 3 := by
  by_contra hn
  push Not at hn
  obtain ⟨h0, h1, h3⟩ := hn
  unfold getUpdateType at h
  rw [if_neg h0, if_neg h1] at h
  by_cases h2 : path = 2
  · rw [if_pos h2, if_neg (by simp)] at h
    by_cases hz : tz = -1
    · rw [if_pos hz] at h
      cases r with
      | nil => simp at h
      | cons u r => simp only [Option.some.injEq, Prod.mk.injEq] at h; split at h <;> simp at h
    · rw [if_neg hz] at h; simp at h
  · rw [if_neg h2, if_neg h3] at h; simp at h

theorem updateTypeF_exch {path tz : Int} {r r1 : List Nat} (h : getUpdateType path true tz r = some (.exchange, r1)) : path = 1 ∨ path = 2 ∨ path = 3 := by
  by_contra hn
  push Not at hn
  obtain ⟨h1, h2, h3⟩ := hn
  unfold getUpdateType at h
  by_cases h0 : path = 0
  · rw [if_pos h0] at h; simp at h
  · rw [if_neg h0, if_neg h1, if_neg h2, if_neg h3] at h; simp at h

theorem updateTypeF_flip {path tz : Int} {r r1 : List Nat} (h : getUpdateType path true tz r = some (.localSpinFlip, r1)) : (path = 2 ∧ tz = -1) ∨ path = 3 := by
  by_contra hn
  push Not at hn
  obtain ⟨h2, h3⟩ := hn
  unfold getUpdateType at h
  by_cases h0 : path = 0
  · rw [if_pos h0] at h; simp at h
  rw [if_neg h0] at h
  by_cases h1 : path = 1
  · rw [if_pos h1] at h
    cases r with
    | nil => simp at h
    | cons u r => simp only [Option.some.injEq, Prod.mk.injEq] at h; split at h <;> simp at h
  rw [if_neg h1] at h
  by_cases h2' : path = 2
  · rw [if_pos h2', if_neg (by simp), if_neg (h2 h2')] at h; simp at h
  · rw [if_neg h2', if_neg h3] at h; simp at h

/-- every proposal is a move -/
theorem mvF_of_stream {p : FPar} (hNe : 0 < p.Ne) (hNs : 0 < p.Nsite) (hlb : LocBin p) {c c' : FCfg} (hv : ValidF p c) (hne : c' ≠ c) {r : List Nat}
    (hr : r ∈ MoveStreamsF p c c') : MvF p c c' := by
  obtain ⟨_, st', h, hc'⟩ := hr
  have hc := hv.cons
  cases streamMoveF_of hne h hc' with
  | hopF pre u r1 hh e ht hz hu hm hcc =>
    obtain ⟨ok, hi⟩ := hoppingF_ok hc hNe hNs _ (hm [])
    rw [hcc]
    exact .hop (updateTypeF_hop (ht [])) hh ok hi (fun q => absurd hz q)
  | cond pre u r1 hh e ht hz hu hm hcc =>
    obtain ⟨ok, h1, _⟩ := conductionFlip_ok hc hNe _ _ (hm [])
    rw [hcc]
    exact .hop (updateTypeF_hop (ht [])) hh ok h1 (fun q => absurd hz q)
  | hopC pre r1 hh e ht hz hm hcc =>
    obtain ⟨ok, hi, hst⟩ := hoppingC_ok hc hNe hNs _ (hm [])
    rw [hcc]
    exact .hop (updateTypeF_hop (ht [])) hh ok hi (fun _ => hst)
  | loc pre r1 hh e ht hm hcc =>
    obtain ⟨ok, h1, h2, h3⟩ := localFlip_ok hc hNe hlb hv.loc _ (hm [])
    rw [hcc]
    exact .flip (updateTypeF_flip (ht [])) hh ok h1 h2 h3
  | exch pre r1 hh e ht hm hcc =>
    rw [hcc]
    exact .exch (updateTypeF_exch (ht [])) hh (exchOKF_of hc hNe (hm []))

theorem hopPathF_pre {p : FPar} (h : HopPathF p) :
    ∃ pre : List Nat, (∀ u ∈ pre, u < drawBound) ∧ ∀ tl, getUpdateType p.exPath true p.twoSz (pre ++ tl) = some (.hopping, tl) := by
  rcases h with h | h | h
  · exact ⟨[], by simp, fun tl => by simp [getUpdateType, h]⟩
  · exact ⟨[2147483648], by simp [drawBound], fun tl => by simp [getUpdateType, h, coin]⟩
  · exact ⟨[0], by simp [drawBound], fun tl => by simp [getUpdateType, h, coin]⟩

theorem exchPathF_pre {p : FPar} (h : ExchPathF p) :
    ∃ pre : List Nat, (∀ u ∈ pre, u < drawBound) ∧ ∀ tl, getUpdateType p.exPath true p.twoSz (pre ++ tl) = some (.exchange, tl) := by
  rcases h with h | h | h
  · exact ⟨[0], by simp [drawBound], fun tl => by simp [getUpdateType, h, coin]⟩
  · by_cases hz : p.twoSz = -1
    · exact ⟨[0], by simp [drawBound], fun tl => by simp [getUpdateType, h, coin, hz]⟩
    · exact ⟨[], by simp, fun tl => by simp [getUpdateType, h, hz]⟩
  · exact ⟨[2147483648, 0], by simp [drawBound], fun tl => by simp [getUpdateType, h, coin]⟩

theorem flipPathF_pre {p : FPar} (h : FlipPathF p) :
    ∃ pre : List Nat, (∀ u ∈ pre, u < drawBound) ∧ ∀ tl, getUpdateType p.exPath true p.twoSz (pre ++ tl) = some (.localSpinFlip, tl) := by
  rcases h with ⟨h, hz⟩ | h
  · exact ⟨[2147483648], by simp [drawBound], fun tl => by simp [getUpdateType, h, coin, hz]⟩
  · exact ⟨[2147483648, 2147483648], by simp [drawBound], fun tl => by simp [getUpdateType, h, coin]⟩

/-- a scan that finds no pair has seen one kind of singly occupied sites only -/
theorem scan_false {p : FPar} {c : FCfg} (l : List Nat) : ∀ (a b : Int), (a = 1 ∨ a = -1) → scanPair p c l a b = false →
    ∀ r ∈ l, c.num r + c.num (r + p.Nsite) = 1 → (c.num r = 0 ∨ c.num r = 1) → 2 * c.num r - 1 = a := by
  induction l with
  | nil => intro a b _ _ r hr; simp at hr
  | cons x l ih =>
    intro a b ha h r hr h1 h01
    rw [scanPair] at h
    have a0 : a ≠ 0 := by omega
    by_cases hx : c.num x + c.num (x + p.Nsite) = 1
    · rw [if_pos hx] at h
      simp only [a0, if_false] at h
      by_cases q : a * (2 * c.num x - 1) < 0
      · rw [if_pos q] at h; simp at h
      · rw [if_neg q] at h
        rcases List.mem_cons.mp hr with rfl | hr
        · rcases ha with rfl | rfl <;> rcases h01 with w | w <;> rw [w] at q ⊢ <;> omega
        · exact ih a _ ha h r hr h1 h01
    · rw [if_neg hx] at h
      rcases List.mem_cons.mp hr with rfl | hr
      · exact absurd h1 hx
      · exact ih a b ha h r hr h1 h01

theorem scan_pair {p : FPar} {c : FCfg} (l : List Nat) (hb : ∀ r ∈ l, c.num r = 0 ∨ c.num r = 1) (h : scanPair p c l 0 0 = false) :
    ∀ r ∈ l, ∀ r' ∈ l, c.num r + c.num (r + p.Nsite) = 1 → c.num r' + c.num (r' + p.Nsite) = 1 → c.num r = c.num r' := by
  induction l with
  | nil => intro r hr; simp at hr
  | cons x l ih =>
    intro r hr r' hr' h1 h1'
    rw [scanPair] at h
    by_cases hx : c.num x + c.num (x + p.Nsite) = 1
    · rw [if_pos hx] at h
      simp only [if_true, Int.mul_zero] at h
      rw [if_neg (by omega)] at h
      have hxb := hb x (by simp)
      have ha : 2 * c.num x - 1 = 1 ∨ 2 * c.num x - 1 = -1 := by omega
      have key := scan_false l _ _ ha h
      have e : ∀ q ∈ x :: l, c.num q + c.num (q + p.Nsite) = 1 → c.num q = c.num x := by
        intro q hq hq1
        rcases List.mem_cons.mp hq with rfl | hq'
        · rfl
        · have := key q hq' hq1 (hb q hq)
          omega
      rw [e r hr h1, e r' hr' h1']
    · rw [if_neg hx] at h
      have g : ∀ q ∈ x :: l, c.num q + c.num (q + p.Nsite) = 1 → q ∈ l := by
        intro q hq hq1
        rcases List.mem_cons.mp hq with rfl | hq
        · exact absurd hq1 hx
        · exact hq
      exact ih (fun q hq => hb q (by simp [hq])) h r (g r hr h1) r' (g r' hr' h1') h1 h1'

theorem numBin {p : FPar} {c : FCfg} (hc : ConsF p c) {s r : Nat} (hs : s < 2) (hr : r < p.Nsite) : c.num (r + s * p.Nsite) = 0 ∨ c.num (r + s * p.Nsite) = 1 := by
  rcases hc.site s hs r hr with q | ⟨_, _, _, _, _, q⟩
  · exact Or.inl q.2
  · exact Or.inr q

theorem scan_of_exch {p : FPar} {c : FCfg} (hc : ConsF p c) {h : FMove} (x : ExchOKF p c h) : scanPair p c (List.range p.Nsite) 0 0 = true := by
  by_contra hn
  rw [Bool.not_eq_true] at hn
  have ok := x.ok
  have hs := ok.s
  have a1 := (consF_back hc ok.mi ok.at' ok.sp).2.2.2
  have a2 := (consF_back hc x.mj x.idj x.spj).2.2.2
  have a3 := consF_num_free hc (show 1 - h.s < 2 by omega) ok.ri x.emp
  have a4 : c.num (h.rj + h.s * p.Nsite) = 0 := consF_num_free hc hs ok.rj (by have := ok.free; rw [← x.st] at this; exact this)
  have key := scan_pair (List.range p.Nsite) (fun r hr => by have := numBin hc (show 0 < 2 by omega) (List.mem_range.mp hr); simpa using this) hn
    h.ri (List.mem_range.mpr ok.ri) h.rj (List.mem_range.mpr ok.rj)
  rcases (show h.s = 0 ∨ h.s = 1 by omega) with q | q <;> rw [q] at a1 a2 a3 a4 <;>
    simp only [Nat.zero_mul, Nat.add_zero, Nat.one_mul, Nat.sub_zero, Nat.sub_self] at a1 a2 a3 a4 <;>
    exact absurd (key (by omega) (by omega)) (by omega)

theorem nsize_le {p : FPar} {c : FCfg} (hc : ConsF p c) : p.Nsize ≤ 2 * p.Nsite := by
  have : (Finset.range p.Nsize).card ≤ (Finset.range (2 * p.Nsite)).card := by
    refine Finset.card_le_card_of_injOn (fun m => (c.idx m).toNat + (c.spn m).toNat * p.Nsite) ?_ ?_
    · intro m hm
      obtain ⟨r, hr, s, hs, h1, h2, _⟩ := hc.electron m (by simpa using hm)
      simp only [h1, h2, Int.toNat_natCast, coe_range, Set.mem_Iio]
      exact flat_lt hs hr
    · intro m hm m' hm' e
      obtain ⟨r, hr, s, hs, h1, h2, h3⟩ := hc.electron m (by simpa using hm)
      obtain ⟨r', hr', s', hs', h1', h2', h3'⟩ := hc.electron m' (by simpa using hm')
      simp only [h1, h2, h1', h2', Int.toNat_natCast] at e
      rw [flat_inj hs hs' hr hr'] at e
      obtain ⟨rfl, rfl⟩ := e
      omega
  simpa using this

/-- every move is proposed by some stream -/
theorem stream_of_mvF {p : FPar} (hNe : 0 < p.Ne) (hNs : 0 < p.Nsite) (hlb : LocBin p) {T : Nat} (hT : p.Nsite ≤ T) (hTb : T ≤ drawBound)
    (hb2 : 2 * p.Nsite ≤ drawBound) {c c' : FCfg} (hv : ValidF p c) (h : MvF p c c') : ∃ r, r ∈ MoveStreamsBelowF p T c c' := by
  have hc := hv.cons
  have hle := nsize_le hc
  have noHop : ∀ {pre r1 : List Nat} {u : UpdateType}, u ≠ .hopping → (∀ tl, getUpdateType p.exPath true p.twoSz (pre ++ tl) = some (u, tl)) →
      TargetsBelow p T c (pre ++ r1) := by
    intro pre r1 u hu ht r2 hq
    rw [ht] at hq
    simp only [Option.some.injEq, Prod.mk.injEq] at hq
    exact absurd hq.1 hu
  cases h with
  | hop hp h ok hi hz =>
    obtain ⟨pre, hb, ht⟩ := hopPathF_pre hp
    have hs := ok.s
    have hmi := ok.mi
    have hrj := ok.rj
    have hpick : ∀ tl, pickItinerantF p c (h.mi :: tl) = some ((h.mi, h.ri, h.s), tl) := by
      intro tl
      rw [pickItinerantF]
      simp only [Nat.mod_eq_of_lt ok.mi, ok.at', ok.sp, Int.toNat_natCast]
      rw [if_neg hi.1]
    by_cases hz1 : p.twoSz = -1
    · have hm : ∀ tl, makeCandidateHoppingF p c ([h.mi, h.rj, spinDraw h.t] ++ tl) = some ((h, false), tl) := by
        intro tl
        unfold makeCandidateHoppingF
        rw [show [h.mi, h.rj, spinDraw h.t] ++ tl = h.mi :: (h.rj :: spinDraw h.t :: tl) from rfl, hpick]
        simp only
        rw [pickTargetF]
        rw [if_neg (by omega)]
        simp only [Nat.mod_eq_of_lt ok.rj, coin_spinDraw ok.t]
        rw [if_neg (by rintro (q | q); exact q ok.free; exact hi.2 q)]
      refine ⟨pre ++ 0 :: [h.mi, h.rj, spinDraw h.t], moveStreamsF_of hc hlb hv.loc hNe hNs ?_ (.hopF pre 0 _ h rfl ht hz1 (by decide) hm rfl), ?_⟩
      · intro u hu
        rcases List.mem_append.mp hu with hu | hu
        · exact hb u hu
        · simp only [List.mem_cons, List.not_mem_nil, or_false] at hu
          rcases hu with rfl | rfl | rfl | rfl
          · exact drawBound_pos
          · omega
          · omega
          · exact spinDraw_lt _
      · intro r1 hq
        rw [ht] at hq
        simp only [Option.some.injEq, Prod.mk.injEq, true_and] at hq
        subst hq
        refine ⟨fun _ u r2 e _ x r3 hx => ?_, fun q => absurd hz1 q⟩
        simp only [List.cons.injEq] at e
        rw [← e.2, hpick] at hx
        simp only [Option.some.injEq, Prod.mk.injEq] at hx
        rw [← hx.2]
        exact ⟨by omega, trivial⟩
    · have hst := hz hz1
      have hm : ∀ tl, makeCandidateHoppingC p c ([h.mi, h.rj] ++ tl) = some ((h, false), tl) := by
        intro tl
        unfold makeCandidateHoppingC
        rw [show [h.mi, h.rj] ++ tl = h.mi :: (h.rj :: tl) from rfl, hpick]
        simp only
        rw [pickTargetC]
        rw [if_neg (by omega)]
        simp only [Nat.mod_eq_of_lt ok.rj]
        rw [if_neg (by rintro (q | q); exact q (by rw [hst]; exact ok.free); exact hi.2 q)]
        simp only [Option.some.injEq, Prod.mk.injEq, and_true]
        rw [show (⟨h.mi, h.ri, h.rj, h.s, h.s⟩ : FMove) = ⟨h.mi, h.ri, h.rj, h.s, h.t⟩ by rw [← hst]]
      refine ⟨pre ++ [h.mi, h.rj], moveStreamsF_of hc hlb hv.loc hNe hNs ?_ (.hopC pre _ h rfl ht hz1 hm rfl), ?_⟩
      · intro u hu
        rcases List.mem_append.mp hu with hu | hu
        · exact hb u hu
        · simp only [List.mem_cons, List.not_mem_nil, or_false] at hu
          omega
      · intro r1 hq
        rw [ht] at hq
        simp only [Option.some.injEq, Prod.mk.injEq, true_and] at hq
        subst hq
        refine ⟨fun q => absurd q hz1, fun _ x r3 hx => ?_⟩
        rw [hpick] at hx
        simp only [Option.some.injEq, Prod.mk.injEq] at hx
        rw [← hx.2]
        intro u hu
        simp only [List.mem_cons, List.not_mem_nil, or_false] at hu
        omega
  | flip hp h ok hr ht' hl =>
    obtain ⟨pre, hb, ht⟩ := flipPathF_pre hp
    have hmi := ok.mi
    have hm : ∀ tl, localSpinFlip p c ([h.mi] ++ tl) = some (h, tl) := by
      intro tl
      rw [show [h.mi] ++ tl = h.mi :: tl from rfl, localSpinFlip]
      simp only [Nat.mod_eq_of_lt ok.mi, ok.at', ok.sp, Int.toNat_natCast]
      rw [if_neg (by rw [hl]; decide)]
      simp only [Option.some.injEq, Prod.mk.injEq, and_true]
      rw [show (⟨h.mi, h.ri, h.ri, h.s, 1 - h.s⟩ : FMove) = ⟨h.mi, h.ri, h.rj, h.s, h.t⟩ by rw [← hr, ← ht']]
    refine ⟨pre ++ [h.mi], moveStreamsF_of hc hlb hv.loc hNe hNs ?_ (.loc pre _ h rfl ht hm rfl), noHop (by simp) ht⟩
    intro u hu
    rcases List.mem_append.mp hu with hu | hu
    · exact hb u hu
    · rw [List.mem_singleton.mp hu]; omega
  | exch hp h x =>
    obtain ⟨pre, hb, ht⟩ := exchPathF_pre hp
    have ok := x.ok
    have hs := ok.s
    have hmi := ok.mi
    have hmj := x.mj
    have hm : ∀ tl, makeCandidateExchangeF p c ([h.mi, (partnerMove p c h).mi] ++ tl) = some (some h, tl) := by
      intro tl
      unfold makeCandidateExchangeF
      rw [if_pos (scan_of_exch hc x)]
      have e1 : pickSingleAnyF p c ([h.mi, (partnerMove p c h).mi] ++ tl) = some ((h.mi, h.ri, h.s), (partnerMove p c h).mi :: tl) := by
        show pickSingleAnyF p c (h.mi :: ((partnerMove p c h).mi :: tl)) = _
        rw [pickSingleAnyF]
        simp only [Nat.mod_eq_of_lt ok.mi, ok.at', ok.sp, Int.toNat_natCast]
        rw [if_neg (by rw [x.emp]; simp)]
      have e2 : pickSingleSpinF p c (1 - h.s) ((partnerMove p c h).mi :: tl) = some (((partnerMove p c h).mi, h.rj), tl) := by
        rw [pickSingleSpinF]
        simp only [Nat.mod_eq_of_lt x.mj, x.idj, Int.toNat_natCast]
        have := ok.free
        rw [← x.st] at this
        rw [show 1 - (1 - h.s) = h.s by omega, if_neg (by rw [this, x.spj]; simp)]
      rw [e1]
      simp only [e2, Option.some.injEq, Prod.mk.injEq, and_true]
      rw [show (⟨h.mi, h.ri, h.rj, h.s, h.s⟩ : FMove) = ⟨h.mi, h.ri, h.rj, h.s, h.t⟩ by rw [← x.st]]
    refine ⟨pre ++ [h.mi, (partnerMove p c h).mi], moveStreamsF_of hc hlb hv.loc hNe hNs ?_ (.exch pre _ h rfl ht hm rfl), noHop (by simp) ht⟩
    intro u hu
    rcases List.mem_append.mp hu with hu | hu
    · exact hb u hu
    · simp only [List.mem_cons, List.not_mem_nil, or_false] at hu
      omega

/-! ## Occupied orbitals -/

/-- orbitals `site + spin * Nsite` with an electron -/
def OccF (p : FPar) (c : FCfg) : Finset Nat := (range (2 * p.Nsite)).filter (fun x => c.num x = 1)

/-- orbitals on local-spin sites -/
def LocOrb (p : FPar) : Finset Nat := (range (2 * p.Nsite)).filter (fun x => p.locSpn (x % p.Nsite) = 1)

theorem mem_OccF {p : FPar} {c : FCfg} {x : Nat} : x ∈ OccF p c ↔ x < 2 * p.Nsite ∧ c.num x = 1 := by simp [OccF]

theorem mem_LocOrb {p : FPar} {s r : Nat} (hs : s < 2) (hr : r < p.Nsite) : r + s * p.Nsite ∈ LocOrb p ↔ p.locSpn r = 1 := by
  rw [LocOrb, mem_filter, mem_range, Nat.add_mul_mod_self_right, Nat.mod_eq_of_lt hr]
  exact ⟨fun h => h.2, fun h => ⟨flat_lt hs hr, h⟩⟩

/-- the move of the electron in orbital `(ri,s)` to `(rj,t)` -/
def siteMove (p : FPar) (c : FCfg) (ri rj s t : Nat) : FMove := ⟨(c.cfg (ri + s * p.Nsite)).toNat, ri, rj, s, t⟩

section occ
variable {p : FPar} {c : FCfg} (hc : ConsF p c)
include hc

theorem occF_electron {s r : Nat} (hs : s < 2) (hr : r < p.Nsite) (h : r + s * p.Nsite ∈ OccF p c) :
    ∃ m < p.Nsize, c.cfg (r + s * p.Nsite) = m ∧ c.idx m = r ∧ c.spn m = s := by
  have hn := (mem_OccF.mp h).2
  rcases hc.site s hs r hr with q | ⟨m, hm, q1, q2, q3, _⟩
  · omega
  · exact ⟨m, hm, q1, q2, q3⟩

theorem freeF_iff {s r : Nat} (hs : s < 2) (hr : r < p.Nsite) : c.cfg (r + s * p.Nsite) = -1 ↔ r + s * p.Nsite ∉ OccF p c := by
  constructor
  · intro h q
    obtain ⟨m, _, e, _⟩ := occF_electron hc hs hr q
    omega
  · intro h
    rcases hc.site s hs r hr with q | ⟨m, hm, _, _, _, q⟩
    · exact q.1
    · exact absurd (mem_OccF.mpr ⟨flat_lt hs hr, q⟩) h

theorem OccF_card : (OccF p c).card = p.Nsize := by
  rw [← card_range p.Nsize]
  symm
  refine card_nbij (fun m => (c.idx m).toNat + (c.spn m).toNat * p.Nsite) ?_ ?_ ?_
  · intro m hm
    obtain ⟨r, hr, s, hs, h1, h2, h3⟩ := hc.electron m (by simpa using hm)
    simp only [h1, h2, Int.toNat_natCast]
    exact mem_OccF.mpr ⟨flat_lt hs hr, (consF_back hc (by simpa using hm) h1 h2).2.2.2⟩
  · intro m hm m' hm' e
    obtain ⟨r, hr, s, hs, h1, h2, h3⟩ := hc.electron m (by simpa using hm)
    obtain ⟨r', hr', s', hs', h1', h2', h3'⟩ := hc.electron m' (by simpa using hm')
    simp only [h1, h2, h1', h2', Int.toNat_natCast] at e
    rw [flat_inj hs hs' hr hr'] at e
    obtain ⟨rfl, rfl⟩ := e
    omega
  · intro x hx
    obtain ⟨s, hs, r, hr, rfl⟩ := flat_split (mem_OccF.mp hx).1
    obtain ⟨m, hm, _, e1, e2⟩ := occF_electron hc hs hr hx
    exact ⟨m, by simpa using hm, by simp only [e1, e2, Int.toNat_natCast]⟩

theorem siteMove_ok {s t x y : Nat} (hs : s < 2) (ht : t < 2) (hx : x < p.Nsite) (hy : y < p.Nsite) (h1 : x + s * p.Nsite ∈ OccF p c)
    (h2 : y + t * p.Nsite ∉ OccF p c) : MoveOK p c (siteMove p c x y s t) := by
  obtain ⟨m, hm, e, e1, e2⟩ := occF_electron hc hs hx h1
  refine ⟨hs, ht, ?_, hx, hy, ?_, ?_, (freeF_iff hc ht hy).mpr h2⟩
  · simp only [siteMove, e, Int.toNat_natCast]; exact hm
  · simp only [siteMove, e, Int.toNat_natCast]; exact e1
  · simp only [siteMove, e, Int.toNat_natCast]; exact e2

theorem move_is_site {h : FMove} (ok : MoveOK p c h) : h = siteMove p c h.ri h.rj h.s h.t := by
  have := (consF_back hc ok.mi ok.at' ok.sp).2.2.1
  unfold siteMove
  rw [this, Int.toNat_natCast]

theorem moveOK_occ {h : FMove} (ok : MoveOK p c h) : h.ri + h.s * p.Nsite ∈ OccF p c ∧ h.rj + h.t * p.Nsite ∉ OccF p c :=
  ⟨mem_OccF.mpr ⟨flat_lt ok.s ok.ri, (consF_back hc ok.mi ok.at' ok.sp).2.2.2⟩, (freeF_iff hc ok.t ok.rj).mp ok.free⟩

theorem siteExch_ok {s x y : Nat} (hs : s < 2) (hx : x < p.Nsite) (hy : y < p.Nsite) (h1 : x + s * p.Nsite ∈ OccF p c)
    (h2 : x + (1 - s) * p.Nsite ∉ OccF p c) (h3 : y + (1 - s) * p.Nsite ∈ OccF p c) (h4 : y + s * p.Nsite ∉ OccF p c) :
    ExchOKF p c (siteMove p c x y s s) := by
  have ht : 1 - s < 2 := by omega
  obtain ⟨m, hm, e, e1, e2⟩ := occF_electron hc ht hy h3
  obtain ⟨m', hm', e', e1', e2'⟩ := occF_electron hc hs hx h1
  have ok := siteMove_ok hc hs hs hx hy h1 h4
  have hne : x ≠ y := by rintro rfl; exact h4 h1
  have hmm : m ≠ m' := by rintro rfl; omega
  have hp : (partnerMove p c (siteMove p c x y s s)).mi = m := by simp only [siteMove, partnerMove, e, Int.toNat_natCast]
  have hp' : (siteMove p c x y s s).mi = m' := by simp only [siteMove, e', Int.toNat_natCast]
  have em : c.cfg (x + (1 - s) * p.Nsite) = -1 := (freeF_iff hc ht hx).mpr h2
  refine ⟨ok, ?_, rfl, by rw [hp]; exact e1, by rw [hp]; exact e2, by rw [hp]; exact hm, em, hne⟩
  refine ⟨ht, ht, by rw [hp]; exact hm, hy, hx, ?_, ?_, ?_⟩
  · rw [hp]
    simp only [updateEleConfigF, Arr.set, hp']
    rw [if_neg hmm]; exact e1
  · rw [hp]
    simp only [updateEleConfigF, Arr.set, hp']
    rw [if_neg hmm]; exact e2
  · simp only [updateEleConfigF, Arr.set]
    show (if x + (1 - s) * p.Nsite = y + s * p.Nsite then _ else if x + (1 - s) * p.Nsite = x + s * p.Nsite then _ else c.cfg (x + (1 - s) * p.Nsite)) = -1
    rw [if_neg (by rw [flat_inj ht hs hx hy]; omega), if_neg (by rw [flat_inj ht hs hx hx]; omega)]
    exact em

omit hc in
theorem occF_update {h : FMove} (ok : MoveOK p c h) :
    OccF p (updateEleConfigF p h c) = insert (h.rj + h.t * p.Nsite) ((OccF p c).erase (h.ri + h.s * p.Nsite)) := by
  ext x
  have hj := flat_lt ok.t ok.rj
  rw [mem_OccF, mem_insert, mem_erase, mem_OccF]
  simp only [updateEleConfigF, Arr.set]
  by_cases a : x = h.rj + h.t * p.Nsite
  · rw [if_pos a]
    exact ⟨fun _ => Or.inl a, fun _ => ⟨by omega, rfl⟩⟩
  · rw [if_neg a]
    by_cases b : x = h.ri + h.s * p.Nsite
    · rw [if_pos b]
      constructor
      · intro q; omega
      · rintro (q | q)
        · exact absurd q a
        · exact absurd b q.1
    · rw [if_neg b]
      constructor
      · intro q; exact Or.inr ⟨b, q⟩
      · rintro (q | q)
        · exact absurd q a
        · exact q.2

omit hc in
theorem occF_exch {h : FMove} (x : ExchOKF p c h) : OccF p (exchCfgF p c h) =
    insert (h.ri + (1 - h.s) * p.Nsite) ((insert (h.rj + h.s * p.Nsite) ((OccF p c).erase (h.ri + h.s * p.Nsite))).erase (h.rj + (1 - h.s) * p.Nsite)) := by
  unfold exchCfgF
  rw [occF_update x.ok2, occF_update x.ok, ← x.st]
  rfl

end occ

/-- one hop in terms of occupied orbitals -/
theorem step_hopF {p : FPar} {c : FCfg} (hc : ConsF p c) (hp : HopPathF p) (hz : p.twoSz = -1) {x y : Nat} (hx : x ∈ OccF p c) (hy : y < 2 * p.Nsite)
    (hyn : y ∉ OccF p c) (lx : x ∉ LocOrb p) (ly : y ∉ LocOrb p) : ∃ c', MvF p c c' ∧ OccF p c' = insert y ((OccF p c).erase x) := by
  obtain ⟨s, hs, r, hr, rfl⟩ := flat_split (mem_OccF.mp hx).1
  obtain ⟨t, ht, r', hr', rfl⟩ := flat_split hy
  rw [mem_LocOrb hs hr] at lx
  rw [mem_LocOrb ht hr'] at ly
  have ok := siteMove_ok hc hs ht hr hr' hx hyn
  exact ⟨_, .hop hp _ ok ⟨lx, ly⟩ (fun q => absurd hz q), occF_update ok⟩

/-- one flip of a local spin -/
theorem step_flipF {p : FPar} {c : FCfg} (hc : ConsF p c) (hp : FlipPathF p) {s r : Nat} (hs : s < 2) (hr : r < p.Nsite) (hl : p.locSpn r = 1)
    (h1 : r + s * p.Nsite ∈ OccF p c) (h2 : r + (1 - s) * p.Nsite ∉ OccF p c) :
    ∃ c', MvF p c c' ∧ OccF p c' = insert (r + (1 - s) * p.Nsite) ((OccF p c).erase (r + s * p.Nsite)) := by
  have ok := siteMove_ok hc hs (show 1 - s < 2 by omega) hr hr h1 h2
  exact ⟨_, .flip hp _ ok rfl rfl hl, occF_update ok⟩

/-- one exchange -/
theorem step_exchF {p : FPar} {c : FCfg} (hc : ConsF p c) (hp : ExchPathF p) {s x y : Nat} (hs : s < 2) (hx : x < p.Nsite) (hy : y < p.Nsite)
    (h1 : x + s * p.Nsite ∈ OccF p c) (h2 : x + (1 - s) * p.Nsite ∉ OccF p c) (h3 : y + (1 - s) * p.Nsite ∈ OccF p c) (h4 : y + s * p.Nsite ∉ OccF p c) :
    ∃ c', MvF p c c' ∧ OccF p c' = insert (x + (1 - s) * p.Nsite) ((insert (y + s * p.Nsite) ((OccF p c).erase (x + s * p.Nsite))).erase (y + (1 - s) * p.Nsite)) := by
  have ok := siteExch_ok hc hs hx hy h1 h2 h3 h4
  exact ⟨_, .exch hp _ ok, occF_exch ok⟩

/-! ## Reachability -/

/-- a set of occupied orbitals with the right number, one electron on every local-spin site -/
structure TargetF (p : FPar) (A : Finset Nat) : Prop where
  sub : ∀ x ∈ A, x < 2 * p.Nsite
  card : A.card = p.Nsize
  loc : ∀ s < 2, ∀ r < p.Nsite, p.locSpn r = 1 → (r + s * p.Nsite ∈ A ↔ r + (1 - s) * p.Nsite ∉ A)

theorem ValidF.target {p : FPar} {c : FCfg} (h : ValidF p c) : TargetF p (OccF p c) := by
  refine ⟨fun x hx => (mem_OccF.mp hx).1, OccF_card h.cons, fun s hs r hr hl => ?_⟩
  have h1 := h.loc r hr hl
  have a := numBin h.cons (show 0 < 2 by omega) hr
  have b := numBin h.cons (show 1 < 2 by omega) hr
  have q0 := flat_lt (show 0 < 2 by omega) hr
  have q1 := flat_lt (show 1 < 2 by omega) hr
  rcases (show s = 0 ∨ s = 1 by omega) with rfl | rfl <;> rw [mem_OccF, mem_OccF] <;>
    simp only [Nat.zero_mul, Nat.one_mul, Nat.add_zero, Nat.sub_zero, Nat.sub_self] at a b q0 q1 ⊢ <;> omega

/-- hops bring the itinerant electrons to any arrangement -/
theorem fix_itin {p : FPar} (hp : HopPathF p) (hz : p.twoSz = -1) {A : Finset Nat} (hA : TargetF p A) (n : Nat) :
    ∀ c, ValidF p c → (∀ x ∈ LocOrb p, (x ∈ OccF p c ↔ x ∈ A)) → (OccF p c \ A).card = n →
      ∃ c', Relation.ReflTransGen (MvF p) c c' ∧ ValidF p c' ∧ OccF p c' = A := by
  induction n with
  | zero =>
    intro c hv _ h0
    refine ⟨c, .refl, hv, ?_⟩
    rw [card_eq_zero, sdiff_eq_empty_iff_subset] at h0
    exact Finset.eq_of_subset_of_card_le h0 (by rw [hA.card, OccF_card hv.cons])
  | succ n ih =>
    intro c hv hloc hn
    obtain ⟨x, hx⟩ := card_pos.mp (show 0 < (OccF p c \ A).card by omega)
    obtain ⟨hx1, hx2⟩ := mem_sdiff.mp hx
    obtain ⟨y, hy1, hy2⟩ := exists_diff (by rw [hA.card, OccF_card hv.cons]) hx1 hx2
    have lx : x ∉ LocOrb p := fun q => hx2 ((hloc x q).mp hx1)
    have ly : y ∉ LocOrb p := fun q => hy2 ((hloc y q).mpr hy1)
    obtain ⟨c1, m1, e1⟩ := step_hopF hv.cons hp hz hx1 (hA.sub y hy1) hy2 lx ly
    have g1 : ∀ r ∈ LocOrb p, (r ∈ OccF p c1 ↔ r ∈ A) := by
      intro r hr
      rw [e1, mem_insert, mem_erase, ← hloc r hr]
      have a : r ≠ y := by rintro rfl; exact ly hr
      have b : r ≠ x := by rintro rfl; exact lx hr
      tauto
    have g2 : (OccF p c1 \ A).card = n := by
      have : OccF p c1 \ A = (OccF p c \ A).erase x := by
        rw [e1]
        ext r
        simp only [mem_sdiff, mem_insert, mem_erase]
        constructor
        · rintro ⟨rfl | ⟨q1, q2⟩, q3⟩
          · exact absurd hy1 q3
          · exact ⟨q1, q2, q3⟩
        · rintro ⟨q1, q2, q3⟩
          exact ⟨Or.inr ⟨q1, q2⟩, q3⟩
      rw [this, card_erase_of_mem hx, hn]
      omega
    obtain ⟨c', r', v', f1⟩ := ih c1 (hv.mv m1) g1 g2
    exact ⟨c', .head m1 r', v', f1⟩

/-- local-spin sites whose spin is not the one of the target -/
def locDiffF (p : FPar) (c : FCfg) (A : Finset Nat) : Finset Nat := (LocOrb p ∩ OccF p c) \ A

/-- a wrong local spin -/
theorem locDiffF_spec {p : FPar} {c : FCfg} {A : Finset Nat} (hv : ValidF p c) (hA : TargetF p A) {x : Nat} (hx : x ∈ locDiffF p c A) :
    ∃ s < 2, ∃ r < p.Nsite, x = r + s * p.Nsite ∧ p.locSpn r = 1 ∧ r + s * p.Nsite ∈ OccF p c ∧ r + (1 - s) * p.Nsite ∉ OccF p c ∧
      r + s * p.Nsite ∉ A ∧ r + (1 - s) * p.Nsite ∈ A := by
  obtain ⟨h1, h2⟩ := mem_sdiff.mp hx
  obtain ⟨h3, h4⟩ := mem_inter.mp h1
  obtain ⟨s, hs, r, hr, rfl⟩ := flat_split (mem_OccF.mp h4).1
  have hl := (mem_LocOrb hs hr).mp h3
  refine ⟨s, hs, r, hr, rfl, hl, h4, (hv.target.loc s hs r hr hl).mp h4, h2, ?_⟩
  by_contra q
  exact h2 ((hA.loc s hs r hr hl).mpr q)

/-- no wrong local spin -/
theorem locDiffF_empty {p : FPar} {c : FCfg} {A : Finset Nat} (hv : ValidF p c) (hA : TargetF p A) (h : locDiffF p c A = ∅) :
    ∀ x ∈ LocOrb p, (x ∈ OccF p c ↔ x ∈ A) := by
  intro x hx
  have key : ∀ y ∈ LocOrb p, y ∈ OccF p c → y ∈ A := by
    intro y hy hy'
    by_contra q
    have : y ∈ locDiffF p c A := mem_sdiff.mpr ⟨mem_inter.mpr ⟨hy, hy'⟩, q⟩
    rw [h] at this
    simp at this
  refine ⟨key x hx, fun q => ?_⟩
  obtain ⟨s, hs, r, hr, rfl⟩ := flat_split (mem_range.mp (mem_filter.mp hx).1)
  have hl := (mem_LocOrb hs hr).mp hx
  by_contra w
  have h2 : r + (1 - s) * p.Nsite ∈ OccF p c := by
    by_contra e
    exact w ((hv.target.loc s hs r hr hl).mpr e)
  exact (hA.loc s hs r hr hl).mp q (key _ ((mem_LocOrb (by omega) hr).mpr hl) h2)

/-- the number of wrong local spins after one of them has been turned -/
theorem locDiffF_lt {p : FPar} {c c' : FCfg} {A : Finset Nat} {s r : Nat} (hs : s < 2) (hr : r < p.Nsite) (hl : p.locSpn r = 1)
    (h1 : r + s * p.Nsite ∈ OccF p c) (h3 : r + s * p.Nsite ∉ A) (h4 : r + (1 - s) * p.Nsite ∈ A)
    (h' : ∀ x ∈ LocOrb p, x ≠ r + (1 - s) * p.Nsite → x ∈ OccF p c' → x ∈ OccF p c ∧ x ≠ r + s * p.Nsite) : (locDiffF p c' A).card < (locDiffF p c A).card := by
  refine card_lt_card ((ssubset_iff_of_subset ?_).mpr ⟨r + s * p.Nsite, mem_sdiff.mpr ⟨mem_inter.mpr ⟨(mem_LocOrb hs hr).mpr hl, h1⟩, h3⟩, ?_⟩)
  · intro x hx
    obtain ⟨a, b⟩ := mem_sdiff.mp hx
    obtain ⟨a1, a2⟩ := mem_inter.mp a
    have hne : x ≠ r + (1 - s) * p.Nsite := by rintro rfl; exact b h4
    exact mem_sdiff.mpr ⟨mem_inter.mpr ⟨a1, (h' x a1 hne a2).1⟩, b⟩
  · intro q
    obtain ⟨a, b⟩ := mem_sdiff.mp q
    obtain ⟨a1, a2⟩ := mem_inter.mp a
    have hne : r + s * p.Nsite ≠ r + (1 - s) * p.Nsite := by rw [Ne, flat_inj hs (by omega) hr hr]; omega
    exact (h' _ a1 hne a2).2 rfl

/-- flips bring the local spins to the target -/
theorem fix_flips {p : FPar} (hp : FlipPathF p) {A : Finset Nat} (hA : TargetF p A) (n : Nat) :
    ∀ c, ValidF p c → (locDiffF p c A).card ≤ n → ∃ c', Relation.ReflTransGen (MvF p) c c' ∧ ValidF p c' ∧ locDiffF p c' A = ∅ := by
  induction n with
  | zero => exact fun c hv h => ⟨c, .refl, hv, card_eq_zero.mp (by omega)⟩
  | succ n ih =>
    intro c hv hn
    by_cases h0 : locDiffF p c A = ∅
    · exact ⟨c, .refl, hv, h0⟩
    obtain ⟨l, hl⟩ := Finset.nonempty_iff_ne_empty.mpr h0
    obtain ⟨s, hs, r, hr, rfl, hloc, h1, h2, h3, h4⟩ := locDiffF_spec hv hA hl
    obtain ⟨c1, m1, e1⟩ := step_flipF hv.cons hp hs hr hloc h1 h2
    have hlt := locDiffF_lt (c' := c1) hs hr hloc h1 h3 h4 (by
      intro x _ hne hx
      rw [e1, mem_insert, mem_erase] at hx
      rcases hx with hx | hx
      · exact absurd hx hne
      · exact ⟨hx.2, hx.1⟩)
    obtain ⟨c', r', v', f⟩ := ih c1 (hv.mv m1) (by omega)
    exact ⟨c', .head m1 r', v', f⟩

/-- an arrangement of the itinerant electrons with a single electron of spin `s` on some itinerant site -/
theorem exists_single {p : FPar} {A : Finset Nat} (hA : TargetF p A) (h1 : (A \ LocOrb p).Nonempty) (h2 : (range (2 * p.Nsite) \ (A ∪ LocOrb p)).Nonempty)
    {s : Nat} (hs : s < 2) : ∃ B, TargetF p B ∧ (∀ x ∈ LocOrb p, (x ∈ B ↔ x ∈ A)) ∧
      ∃ r < p.Nsite, p.locSpn r ≠ 1 ∧ r + s * p.Nsite ∈ B ∧ r + (1 - s) * p.Nsite ∉ B := by
  obtain ⟨x, hx⟩ := h1
  obtain ⟨hxA, hxl⟩ := mem_sdiff.mp hx
  obtain ⟨t, ht, r, hr, rfl⟩ := flat_split (hA.sub x hxA)
  rw [mem_LocOrb ht hr] at hxl
  set I := range (2 * p.Nsite) \ LocOrb p with hI
  have memI : ∀ u < 2, r + u * p.Nsite ∈ I := fun u hu => mem_sdiff.mpr ⟨mem_range.mpr (flat_lt hu hr), fun q => hxl ((mem_LocOrb hu hr).mp q)⟩
  have hAI : A \ LocOrb p ⊆ I := fun y hy => mem_sdiff.mpr ⟨mem_range.mpr (hA.sub y (mem_sdiff.mp hy).1), (mem_sdiff.mp hy).2⟩
  have hlt : (A \ LocOrb p).card < I.card := by
    refine card_lt_card ((ssubset_iff_of_subset hAI).mpr ?_)
    obtain ⟨y, hy⟩ := h2
    obtain ⟨a, b⟩ := mem_sdiff.mp hy
    rw [mem_union, not_or] at b
    exact ⟨y, mem_sdiff.mpr ⟨a, b.2⟩, fun q => b.1 (mem_sdiff.mp q).1⟩
  have hpos : 0 < (A \ LocOrb p).card := card_pos.mpr ⟨_, hx⟩
  have hs' : 1 - s < 2 := by omega
  have hne : r + (1 - s) * p.Nsite ≠ r + s * p.Nsite := by rw [Ne, flat_inj hs' hs hr hr]; omega
  have hJ : (A \ LocOrb p).card - 1 ≤ ((I.erase (r + s * p.Nsite)).erase (r + (1 - s) * p.Nsite)).card := by
    rw [card_erase_of_mem (mem_erase.mpr ⟨hne, memI _ hs'⟩), card_erase_of_mem (memI _ hs)]
    omega
  obtain ⟨J, hJs, hJc⟩ := Finset.exists_subset_card_eq hJ
  have hJ1 : ∀ y ∈ J, y ≠ r + (1 - s) * p.Nsite ∧ y ≠ r + s * p.Nsite ∧ y ∈ I := by
    intro y hy
    have := hJs hy
    rw [mem_erase, mem_erase] at this
    exact this
  have hloc : ∀ y ∈ LocOrb p, (y ∈ (A ∩ LocOrb p) ∪ insert (r + s * p.Nsite) J ↔ y ∈ A) := by
    intro y hy
    rw [mem_union, mem_inter, mem_insert]
    constructor
    · rintro (q | rfl | q)
      · exact q.1
      · exact absurd hy (mem_sdiff.mp (memI _ hs)).2
      · exact absurd hy (mem_sdiff.mp (hJ1 y q).2.2).2
    · intro q; exact Or.inl ⟨q, hy⟩
  refine ⟨(A ∩ LocOrb p) ∪ insert (r + s * p.Nsite) J, ⟨?_, ?_, ?_⟩, hloc, r, hr, hxl, ?_, ?_⟩
  · intro y hy
    rw [mem_union, mem_inter, mem_insert] at hy
    rcases hy with q | rfl | q
    · exact hA.sub y q.1
    · exact flat_lt hs hr
    · exact mem_range.mp (mem_sdiff.mp (hJ1 y q).2.2).1
  · rw [card_union_of_disjoint, card_insert_of_notMem, hJc]
    · have := card_inter_add_card_sdiff A (LocOrb p)
      have := hA.card
      omega
    · exact fun q => (hJ1 _ q).2.1 rfl
    · rw [disjoint_left]
      intro y hy q
      have hyl := (mem_inter.mp hy).2
      rcases mem_insert.mp q with rfl | q
      · exact (mem_sdiff.mp (memI _ hs)).2 hyl
      · exact (mem_sdiff.mp (hJ1 y q).2.2).2 hyl
  · intro u hu q hq hl
    rw [hloc _ ((mem_LocOrb hu hq).mpr hl), hloc _ ((mem_LocOrb (by omega) hq).mpr hl)]
    exact hA.loc u hu q hq hl
  · exact mem_union_right _ (mem_insert_self _ _)
  · rw [mem_union, mem_insert, not_or, not_or]
    exact ⟨fun q => hxl ((mem_LocOrb hs' hr).mp (mem_inter.mp q).2), hne, fun q => (hJ1 _ q).1 rfl⟩

/-- exchanges with itinerant electrons bring the local spins to the target -/
theorem fix_exch {p : FPar} (hp : ExchPathF p) (hh : HopPathF p) (hz : p.twoSz = -1)
    (hroom : ∀ A, TargetF p A → (A \ LocOrb p).Nonempty ∧ (range (2 * p.Nsite) \ (A ∪ LocOrb p)).Nonempty) {A : Finset Nat} (hA : TargetF p A) (n : Nat) :
    ∀ c, ValidF p c → (locDiffF p c A).card ≤ n → ∃ c', Relation.ReflTransGen (MvF p) c c' ∧ ValidF p c' ∧ locDiffF p c' A = ∅ := by
  induction n with
  | zero => exact fun c hv h => ⟨c, .refl, hv, card_eq_zero.mp (by omega)⟩
  | succ n ih =>
    intro c hv hn
    by_cases h0 : locDiffF p c A = ∅
    · exact ⟨c, .refl, hv, h0⟩
    obtain ⟨l, hl⟩ := Finset.nonempty_iff_ne_empty.mpr h0
    obtain ⟨s, hs, r, hr, rfl, hloc, h1, h2, h3, h4⟩ := locDiffF_spec hv hA hl
    have hs' : 1 - s < 2 := by omega
    obtain ⟨B, hB, hBl, r', hr', lr', b1, b2⟩ := exists_single hv.target (hroom _ hv.target).1 (hroom _ hv.target).2 hs'
    rw [show 1 - (1 - s) = s by omega] at b2
    obtain ⟨c1, m1, v1, e1⟩ := fix_itin hh hz hB _ c hv (fun x hx => (hBl x hx).symm) rfl
    have k1 : r + s * p.Nsite ∈ OccF p c1 := by rw [e1, hBl _ ((mem_LocOrb hs hr).mpr hloc)]; exact h1
    have k2 : r + (1 - s) * p.Nsite ∉ OccF p c1 := by rw [e1, hBl _ ((mem_LocOrb hs' hr).mpr hloc)]; exact h2
    obtain ⟨c2, m2, e2⟩ := step_exchF v1.cons hp hs hr hr' k1 k2 (by rw [e1]; exact b1) (by rw [e1]; exact b2)
    have hlt := locDiffF_lt (c := c) (c' := c2) hs hr hloc h1 h3 h4 (by
      intro x hx hne q
      rw [e2, mem_insert, mem_erase, mem_insert, mem_erase, e1] at q
      rcases q with q | ⟨q1, q | q⟩
      · exact absurd q hne
      · rw [q, mem_LocOrb hs hr'] at hx
        exact absurd hx lr'
      · exact ⟨(hBl x hx).mp q.2, q.1⟩)
    obtain ⟨c', r', v', f⟩ := ih c2 (v1.mv m2) (by omega)
    exact ⟨c', (m1.tail m2).trans r', v', f⟩

/-! ## Numbers of orbitals -/

/-- The number of local-spin sites. -/
def locCountF (p : FPar) : Nat := ((range p.Nsite).filter (fun r => p.locSpn r = 1)).card

/-- one electron per local-spin site -/
theorem card_loc {p : FPar} {A : Finset Nat} (h : ∀ s < 2, ∀ r < p.Nsite, p.locSpn r = 1 → (r + s * p.Nsite ∈ A ↔ r + (1 - s) * p.Nsite ∉ A)) :
    (LocOrb p ∩ A).card = locCountF p := by
  unfold locCountF
  refine card_nbij (fun x => x % p.Nsite) ?_ ?_ ?_
  · intro x hx
    obtain ⟨h1, h2⟩ := mem_inter.mp hx
    obtain ⟨a, b⟩ := mem_filter.mp h1
    have hN : 0 < p.Nsite := by have := mem_range.mp a; omega
    exact mem_filter.mpr ⟨mem_range.mpr (Nat.mod_lt _ hN), b⟩
  · intro x hx y hy e
    obtain ⟨h1, h2⟩ := mem_inter.mp hx
    obtain ⟨h1', h2'⟩ := mem_inter.mp hy
    obtain ⟨s, hs, r, hr, rfl⟩ := flat_split (mem_range.mp (mem_filter.mp h1).1)
    obtain ⟨s', hs', r', hr', rfl⟩ := flat_split (mem_range.mp (mem_filter.mp h1').1)
    simp only [Nat.add_mul_mod_self_right, Nat.mod_eq_of_lt hr, Nat.mod_eq_of_lt hr'] at e
    subst e
    by_cases q : s = s'
    · rw [q]
    · have q' : s' = 1 - s := by omega
      rw [q'] at h2'
      exact absurd h2' ((h s hs r hr ((mem_LocOrb hs hr).mp h1)).mp h2)
  · intro r hr
    obtain ⟨a, b⟩ := mem_filter.mp (show r ∈ (range p.Nsite).filter (fun r => p.locSpn r = 1) from hr)
    have hr := mem_range.mp a
    by_cases q : r + 0 * p.Nsite ∈ A
    · exact ⟨r + 0 * p.Nsite, mem_inter.mpr ⟨(mem_LocOrb (by omega) hr).mpr b, q⟩, by simp [Nat.mod_eq_of_lt hr]⟩
    · have : r + 1 * p.Nsite ∈ A := by
        by_contra w
        exact q ((h 0 (by omega) r hr b).mpr w)
      exact ⟨r + 1 * p.Nsite, mem_inter.mpr ⟨(mem_LocOrb (by omega) hr).mpr b, this⟩, by simp [Nat.mod_eq_of_lt hr]⟩

/-- the free orbitals of the local-spin sites are as many -/
theorem card_locOrb {p : FPar} {A : Finset Nat} (hA : TargetF p A) : (LocOrb p).card = 2 * locCountF p := by
  have h1 := card_loc hA.loc
  have h2 := card_loc (p := p) (A := range (2 * p.Nsite) \ A) (by
    intro s hs r hr hl
    have := hA.loc s hs r hr hl
    rw [mem_sdiff, mem_sdiff, mem_range, mem_range]
    have a := flat_lt hs hr
    have b := flat_lt (show 1 - s < 2 by omega) hr
    tauto)
  have h3 : LocOrb p ∩ (range (2 * p.Nsite) \ A) = LocOrb p \ A := by
    ext x
    simp only [mem_inter, mem_sdiff, mem_range]
    constructor
    · rintro ⟨a, _, c⟩; exact ⟨a, c⟩
    · rintro ⟨a, c⟩; exact ⟨a, mem_range.mp (mem_filter.mp a).1, c⟩
  rw [h3] at h2
  have := card_inter_add_card_sdiff (LocOrb p) A
  omega

/-- The choice of updates suits a system without conservation of Sz. -/
def PathOKF (p : FPar) : Prop :=
  (p.exPath = 0 ∧ locCountF p = 0) ∨ (p.exPath = 1 ∧ (locCountF p = 0 ∨ (locCountF p < 2 * p.Ne ∧ 2 * p.Ne + locCountF p < 2 * p.Nsite))) ∨
  (p.exPath = 3 ∧ 0 < locCountF p ∧ locCountF p < 2 * p.Ne) ∨ (p.exPath = 2 ∧ locCountF p = 2 * p.Ne)

theorem no_loc {p : FPar} (h : locCountF p = 0) : LocOrb p = ∅ := by
  rw [Finset.eq_empty_iff_forall_notMem]
  intro x hx
  obtain ⟨a, b⟩ := mem_filter.mp hx
  obtain ⟨s, hs, r, hr, rfl⟩ := flat_split (mem_range.mp a)
  unfold locCountF at h
  rw [Finset.card_eq_zero, Finset.eq_empty_iff_forall_notMem] at h
  exact h r (mem_filter.mpr ⟨mem_range.mpr hr, (mem_LocOrb hs hr).mp hx⟩)

theorem some_itinF {p : FPar} (h : locCountF p < 2 * p.Ne) {A : Finset Nat} (hA : TargetF p A) : (A \ LocOrb p).Nonempty := by
  rw [← card_pos]
  have h1 := card_loc hA.loc
  rw [inter_comm] at h1
  have := card_inter_add_card_sdiff A (LocOrb p)
  have h2 := hA.card
  unfold FPar.Nsize at h2
  omega

theorem some_roomF {p : FPar} (h : 2 * p.Ne + locCountF p < 2 * p.Nsite) {A : Finset Nat} (hA : TargetF p A) :
    (range (2 * p.Nsite) \ (A ∪ LocOrb p)).Nonempty := by
  rw [← card_pos]
  have h1 := card_loc hA.loc
  rw [inter_comm] at h1
  have h2 := hA.card
  unfold FPar.Nsize at h2
  have h3 := card_locOrb hA
  have h4 := card_union_add_card_inter A (LocOrb p)
  have h5 := le_card_sdiff (A ∪ LocOrb p) (range (2 * p.Nsite))
  rw [card_range] at h5
  omega

theorem all_locF {p : FPar} (h : locCountF p = 2 * p.Ne) {A : Finset Nat} (hA : TargetF p A) : A ⊆ LocOrb p := by
  have h1 := card_loc hA.loc
  rw [inter_comm] at h1
  have h2 := hA.card
  unfold FPar.Nsize at h2
  have : A ∩ LocOrb p = A := Finset.eq_of_subset_of_card_le inter_subset_left (by omega)
  rw [← this]
  exact inter_subset_right

/-- the moves connect every configuration with every other one -/
theorem reach_targetF {p : FPar} (hp : PathOKF p) (hz : p.twoSz = -1) {A : Finset Nat} (hA : TargetF p A) {c : FCfg} (hv : ValidF p c) :
    ∃ c', Relation.ReflTransGen (MvF p) c c' ∧ ValidF p c' ∧ OccF p c' = A := by
  have noloc : locCountF p = 0 → HopPathF p → ∃ c', Relation.ReflTransGen (MvF p) c c' ∧ ValidF p c' ∧ OccF p c' = A := by
    intro h hh
    exact fix_itin hh hz hA _ c hv (by rw [no_loc h]; simp) rfl
  have fin : HopPathF p → (∃ c', Relation.ReflTransGen (MvF p) c c' ∧ ValidF p c' ∧ locDiffF p c' A = ∅) →
      ∃ c', Relation.ReflTransGen (MvF p) c c' ∧ ValidF p c' ∧ OccF p c' = A := by
    rintro hh ⟨c1, r1, v1, e1⟩
    obtain ⟨c2, r2, v2, e2⟩ := fix_itin hh hz hA _ c1 v1 (locDiffF_empty v1 hA e1) rfl
    exact ⟨c2, r1.trans r2, v2, e2⟩
  rcases hp with ⟨h, h0⟩ | ⟨h, h0 | ⟨h1, h2⟩⟩ | ⟨h, h1, h2⟩ | ⟨h, h1⟩
  · exact noloc h0 (Or.inl h)
  · exact noloc h0 (Or.inr (Or.inl h))
  · exact fin (Or.inr (Or.inl h)) (fix_exch (Or.inl h) (Or.inr (Or.inl h)) hz (fun A hA => ⟨some_itinF h1 hA, some_roomF h2 hA⟩) hA _ c hv le_rfl)
  · exact fin (Or.inr (Or.inr h)) (fix_flips (Or.inr h) hA _ c hv le_rfl)
  · obtain ⟨c1, r1, v1, e1⟩ := fix_flips (Or.inl ⟨h, hz⟩) hA _ c hv le_rfl
    refine ⟨c1, r1, v1, ?_⟩
    have := locDiffF_empty v1 hA e1
    ext x
    exact ⟨fun q => (this x (all_locF h1 v1.target q)).mp q, fun q => (this x (all_locF h1 hA q)).mpr q⟩

end MVMC
