import Verif.Props.Stationary
import Mathlib.Logic.Relation
import Mathlib.Data.Finset.Card

/-! # Which configurations the sampler's moves connect (fixed Sz) -/
namespace MVMC
open Spec Finset

/-- the hop of the electron of spin `s` on site `ri` to site `rj` -/
def siteHop (p : SamplerPar) (c : EleCfg) (ri rj s : Nat) : Hop := ⟨(c.cfg (ri + s * p.Nsite)).toNat, ri, rj, s⟩

/-- paths with hops, paths with exchanges -/
def HopPath (p : SamplerPar) : Prop := p.exPath = 0 ∨ p.exPath = 1 ∨ p.exPath = 3
def ExchPath (p : SamplerPar) : Prop := p.exPath = 1 ∨ p.exPath = 2 ∨ p.exPath = 3

/-- the conditions of an exchange of the spins of two singly occupied sites -/
structure ExchOK (p : SamplerPar) (c : EleCfg) (h : Hop) : Prop where
  ok : HopOK p c h
  idj : c.idx ((partnerHop p c h).mi + (1 - h.s) * p.Ne) = h.rj
  mj : (partnerHop p c h).mi < p.Ne
  emp : c.cfg (h.ri + (1 - h.s) * p.Nsite) = -1

/-- the moves of the sampler -/
inductive Mv (p : SamplerPar) (c : EleCfg) : EleCfg → Prop
  | hop (hp : HopPath p) (h : Hop) (ok : HopOK p c h) (h1 : p.locSpn h.ri ≠ 1) (h2 : p.locSpn h.rj ≠ 1) : Mv p c (updateEleConfig p h c)
  | exch (hp : ExchPath p) (h : Hop) (ok : ExchOK p c h) : Mv p c (exchCfg p c h)

theorem ExchOK.ok2 {p : SamplerPar} {c : EleCfg} {h : Hop} (x : ExchOK p c h) : HopOK p (updateEleConfig p h c) (partnerHop p c h) := by
  have hs := x.ok.s
  refine ⟨by simp only [partnerHop]; omega, x.mj, x.ok.rj, x.ok.ri, ?_, ?_⟩
  · simp only [updateEleConfig, Arr.set]
    rw [if_neg (by show _ + (1 - h.s) * p.Ne ≠ _; rw [Ne, flat_inj (by omega) hs x.mj x.ok.mi]; omega)]
    exact x.idj
  · simp only [updateEleConfig, Arr.set]
    show (if h.ri + (1 - h.s) * p.Nsite = _ then _ else if h.ri + (1 - h.s) * p.Nsite = _ then _ else c.cfg (h.ri + (1 - h.s) * p.Nsite)) = -1
    rw [if_neg (by rw [flat_inj (by omega) hs x.ok.ri x.ok.rj]; omega), if_neg (by rw [flat_inj (by omega) hs x.ok.ri x.ok.ri]; omega)]
    exact x.emp

theorem Mv.cons {p : SamplerPar} {c c' : EleCfg} (hc : Cons p c) (h : Mv p c c') : Cons p c' := by
  cases h with
  | hop _ h ok _ _ => exact update_cons hc ok
  | exch _ h ok => exact exch_cons hc ok.ok ok.ok2

theorem Mv.local' {p : SamplerPar} {c c' : EleCfg} (hc : Cons p c) (h : Mv p c c') (hl : LocalSingle p.Nsite p.locSpn c.num) :
    LocalSingle p.Nsite p.locSpn c'.num := by
  cases h with
  | hop _ h ok h1 h2 => exact hop_local ok h1 h2 hl
  | exch _ h ok => exact exch_local ok.ok rfl rfl rfl (hopOK_ne hc ok.ok) hl

/-! ## Moves and streams -/

theorem updateType_hop {path : Int} {r r1 : List Nat} (h : getUpdateType path false 0 r = some (.hopping, r1)) : path = 0 ∨ path = 1 ∨ path = 3 := by
  by_contra hn
  push Not at hn
  obtain ⟨h0, h1, h3⟩ := hn
  unfold getUpdateType at h
  rw [if_neg h0, if_neg h1] at h
  by_cases h2 : path = 2
  · rw [if_pos h2] at h; simp at h
  · rw [if_neg h2, if_neg h3] at h; simp at h

theorem updateType_exch {path : Int} {r r1 : List Nat} (h : getUpdateType path false 0 r = some (.exchange, r1)) : path = 1 ∨ path = 2 ∨ path = 3 := by
  by_contra hn
  push Not at hn
  obtain ⟨h1, h2, h3⟩ := hn
  unfold getUpdateType at h
  by_cases h0 : path = 0
  · rw [if_pos h0] at h; simp at h
  · rw [if_neg h0, if_neg h1, if_neg h2, if_neg h3] at h; simp at h

/-- every proposal is a move -/
theorem mv_of_stream {p : SamplerPar} (hNe : 0 < p.Ne) (hNs : 0 < p.Nsite) {c c' : EleCfg} (hc : Cons p c) (hne : c' ≠ c) {r : List Nat}
    (hr : r ∈ MoveStreams p c c') : Mv p c c' := by
  obtain ⟨_, st', h, hc'⟩ := hr
  cases streamMove_of hne h hc' with
  | hop pre r1 hh e ht hm hcc =>
    obtain ⟨ok, h1, h2⟩ := hopping_ok hc hNe hNs _ (hm [])
    rw [hcc]
    exact .hop (updateType_hop (ht [])) hh ok h1 h2
  | exch pre r1 hh e ht hm hcc =>
    obtain ⟨ok, _, _, _, _, hidj, hm2, hemp⟩ := exchange_ok hc hNe _ (hm [])
    rw [hcc]
    exact .exch (updateType_exch (ht [])) hh ⟨ok, hidj, hm2, hemp⟩

/-- the draw that gives spin `s` -/
def spinDraw (s : Nat) : Nat := if s = 0 then 0 else 2147483648

theorem coin_spinDraw {s : Nat} (hs : s < 2) : coin (spinDraw s) = s := by
  unfold coin spinDraw
  rcases (show s = 0 ∨ s = 1 by omega) with rfl | rfl <;> decide

theorem spinDraw_lt (s : Nat) : spinDraw s < drawBound := by
  unfold spinDraw drawBound; split <;> omega

theorem hopPath_pre {p : SamplerPar} (h : HopPath p) :
    ∃ pre : List Nat, (∀ u ∈ pre, u < drawBound) ∧ ∀ tl, getUpdateType p.exPath false 0 (pre ++ tl) = some (.hopping, tl) := by
  rcases h with h | h | h
  · exact ⟨[], by simp, fun tl => by simp [getUpdateType, h]⟩
  · exact ⟨[2147483648], by simp [drawBound], fun tl => by simp [getUpdateType, h, coin]⟩
  · exact ⟨[0], by simp [drawBound], fun tl => by simp [getUpdateType, h, coin]⟩

theorem exchPath_pre {p : SamplerPar} (h : ExchPath p) :
    ∃ pre : List Nat, (∀ u ∈ pre, u < drawBound) ∧ ∀ tl, getUpdateType p.exPath false 0 (pre ++ tl) = some (.exchange, tl) := by
  rcases h with h | h | h
  · exact ⟨[0], by simp [drawBound], fun tl => by simp [getUpdateType, h, coin]⟩
  · exact ⟨[], by simp, fun tl => by simp [getUpdateType, h]⟩
  · exact ⟨[2147483648, 0], by simp [drawBound], fun tl => by simp [getUpdateType, h, coin]⟩

theorem ne_le {p : SamplerPar} {c : EleCfg} (hc : Cons p c) : p.Ne ≤ p.Nsite := by
  have : (Finset.range p.Ne).card ≤ (Finset.range p.Nsite).card := by
    refine Finset.card_le_card_of_injOn (fun m => (c.idx (m + 0 * p.Ne)).toNat) ?_ ?_
    · intro m hm
      obtain ⟨r, hr, h1, _⟩ := hc.electron 0 (by omega) m (by simpa using hm)
      simp only [h1]
      simpa using hr
    · intro m hm m' hm' e
      obtain ⟨r, hr, h1, h2⟩ := hc.electron 0 (by omega) m (by simpa using hm)
      obtain ⟨r', hr', h1', h2'⟩ := hc.electron 0 (by omega) m' (by simpa using hm')
      simp only [h1, h1', Int.toNat_natCast] at e
      subst e
      omega
  simpa using this

/-- every move is proposed by some stream -/
theorem stream_of_mv {p : SamplerPar} (hNe : 0 < p.Ne) (hNs : 0 < p.Nsite) {T : Nat} (hT : p.Nsite ≤ T) (hTb : T ≤ drawBound) {c c' : EleCfg} (hc : Cons p c)
    (h : Mv p c c') : ∃ r, r ∈ MoveStreamsBelow p T c c' := by
  have hle := ne_le hc
  cases h with
  | hop hp h ok h1 h2 =>
    obtain ⟨pre, hb, ht⟩ := hopPath_pre hp
    have hs := ok.s
    have hpick : ∀ tl, pickItinerant p c (h.mi :: spinDraw h.s :: tl) = some ((h.mi, h.ri, h.s), tl) := by
      intro tl
      rw [pickItinerant]
      simp only [Nat.mod_eq_of_lt ok.mi, coin_spinDraw hs, ok.at', Int.toNat_natCast]
      rw [if_neg h1]
    have hm : ∀ tl, makeCandidateHopping p c ([h.mi, spinDraw h.s, h.rj] ++ tl) = some ((h, false), tl) := by
      intro tl
      unfold makeCandidateHopping
      rw [show [h.mi, spinDraw h.s, h.rj] ++ tl = h.mi :: spinDraw h.s :: (h.rj :: tl) from rfl, hpick]
      simp only
      rw [pickTarget]
      rw [if_neg (by omega)]
      simp only [Nat.mod_eq_of_lt ok.rj]
      rw [if_neg (by rintro (q | q); exact q ok.free; exact h2 q)]
    refine ⟨pre ++ [h.mi, spinDraw h.s, h.rj], moveStreams_of hc hNe hNs ?_ (.hop pre _ h rfl ht hm rfl), ?_⟩
    · intro u hu
      rcases List.mem_append.mp hu with hu | hu
      · exact hb u hu
      · have := ok.mi
        have := ok.rj
        simp only [List.mem_cons, List.not_mem_nil, or_false] at hu
        rcases hu with rfl | rfl | rfl
        · omega
        · exact spinDraw_lt _
        · omega
    · intro r1 x r2 hq hx
      rw [ht] at hq
      simp only [Option.some.injEq, Prod.mk.injEq, true_and] at hq
      subst hq
      rw [hpick] at hx
      simp only [Option.some.injEq, Prod.mk.injEq] at hx
      rw [← hx.2]
      intro u hu
      have := ok.rj
      simp only [List.mem_cons, List.not_mem_nil, or_false] at hu
      omega
  | exch hp h x =>
    obtain ⟨pre, hb, ht⟩ := exchPath_pre hp
    have ok := x.ok
    have hs := ok.s
    have hbk := cons_back hc ok.s ok.mi ok.at'
    have hsing : hasSingle p c = true := by
      unfold hasSingle
      rw [List.any_eq_true]
      refine ⟨h.ri, List.mem_range.mpr ok.ri, ?_⟩
      rw [decide_eq_true_eq]
      have h0 : c.num (h.ri + (1 - h.s) * p.Nsite) = 0 := by
        rcases hc.site (1 - h.s) (by omega) h.ri ok.ri with q | ⟨m, _, q, _⟩
        · exact q.2
        · have := x.emp; omega
      have h1 := hbk.2.2
      rcases (show h.s = 0 ∨ h.s = 1 by omega) with q | q
      · rw [q] at h0 h1
        simp only [Nat.zero_mul, Nat.add_zero, Nat.sub_zero, Nat.one_mul] at h0 h1
        rw [h0, h1]; rfl
      · rw [q] at h0 h1
        simp only [Nat.sub_self, Nat.zero_mul, Nat.add_zero, Nat.one_mul] at h0 h1
        rw [h0, h1]; rfl
    have hm : ∀ tl, makeCandidateExchange p c ([h.mi, spinDraw h.s, (partnerHop p c h).mi] ++ tl) = some (some h, tl) := by
      intro tl
      unfold makeCandidateExchange
      rw [if_pos hsing]
      have e1 : pickSingleAny p c ([h.mi, spinDraw h.s, (partnerHop p c h).mi] ++ tl) = some ((h.mi, h.ri, h.s), (partnerHop p c h).mi :: tl) := by
        show pickSingleAny p c (h.mi :: spinDraw h.s :: ((partnerHop p c h).mi :: tl)) = _
        rw [pickSingleAny]
        simp only [Nat.mod_eq_of_lt ok.mi, coin_spinDraw hs, ok.at', Int.toNat_natCast]
        rw [if_neg (by rw [x.emp]; simp)]
      have e2 : pickSingleSpin p c (1 - h.s) ((partnerHop p c h).mi :: tl) = some (((partnerHop p c h).mi, h.rj), tl) := by
        rw [pickSingleSpin]
        simp only [Nat.mod_eq_of_lt x.mj, x.idj, Int.toNat_natCast]
        rw [show 1 - (1 - h.s) = h.s by omega, if_neg (by rw [ok.free]; simp)]
      rw [e1]
      simp only [e2]
    refine ⟨pre ++ [h.mi, spinDraw h.s, (partnerHop p c h).mi], moveStreams_of hc hNe hNs ?_ (.exch pre _ h rfl ht hm rfl), ?_⟩
    · intro u hu
      rcases List.mem_append.mp hu with hu | hu
      · exact hb u hu
      · have := ok.mi
        have := x.mj
        simp only [List.mem_cons, List.not_mem_nil, or_false] at hu
        rcases hu with rfl | rfl | rfl
        · omega
        · exact spinDraw_lt _
        · omega
    · intro r1 y r2 hq
      rw [ht] at hq
      simp at hq

/-! ## Occupied sites -/

/-- sites with an electron of spin `s` -/
def Occ (p : SamplerPar) (c : EleCfg) (s : Nat) : Finset Nat := (range p.Nsite).filter (fun r => c.num (r + s * p.Nsite) = 1)

theorem mem_Occ {p : SamplerPar} {c : EleCfg} {s r : Nat} : r ∈ Occ p c s ↔ r < p.Nsite ∧ c.num (r + s * p.Nsite) = 1 := by simp [Occ]

section occ
variable {p : SamplerPar} {c : EleCfg} (hc : Cons p c)
include hc

theorem occ_electron {s r : Nat} (hs : s < 2) (h : r ∈ Occ p c s) : ∃ m < p.Ne, c.cfg (r + s * p.Nsite) = m ∧ c.idx (m + s * p.Ne) = r := by
  obtain ⟨hr, hn⟩ := mem_Occ.mp h
  rcases hc.site s hs r hr with q | ⟨m, hm, q1, q2, _⟩
  · omega
  · exact ⟨m, hm, q1, q2⟩

theorem occ_free {s r : Nat} (hs : s < 2) (hr : r < p.Nsite) (h : r ∉ Occ p c s) : c.cfg (r + s * p.Nsite) = -1 := by
  rcases hc.site s hs r hr with q | ⟨m, hm, _, _, q3⟩
  · exact q.1
  · exact absurd (mem_Occ.mpr ⟨hr, q3⟩) h

theorem free_iff {s r : Nat} (hs : s < 2) (hr : r < p.Nsite) : c.cfg (r + s * p.Nsite) = -1 ↔ r ∉ Occ p c s := by
  refine ⟨fun h q => ?_, occ_free hc hs hr⟩
  obtain ⟨m, _, e, _⟩ := occ_electron hc hs q
  omega

theorem Occ_card {s : Nat} (hs : s < 2) : (Occ p c s).card = p.Ne := by
  rw [← card_range p.Ne]
  refine card_nbij' (fun r => (c.cfg (r + s * p.Nsite)).toNat) (fun m => (c.idx (m + s * p.Ne)).toNat) ?_ ?_ ?_ ?_
  · intro r hr
    obtain ⟨m, hm, e, _⟩ := occ_electron hc hs hr
    simp only [e, Int.toNat_natCast]
    simpa using hm
  · intro m hm
    obtain ⟨r, hr, e, _⟩ := hc.electron s hs m (by simpa using hm)
    simp only [e, Int.toNat_natCast]
    exact mem_Occ.mpr ⟨hr, (cons_back hc hs (by simpa using hm) e).2.2⟩
  · intro r hr
    obtain ⟨m, hm, e, e'⟩ := occ_electron hc hs hr
    simp only [e, e', Int.toNat_natCast]
  · intro m hm
    obtain ⟨r, hr, e, e'⟩ := hc.electron s hs m (by simpa using hm)
    simp only [e, e', Int.toNat_natCast]

theorem occ_siteHop {s x y : Nat} (hs : s < 2) (hx : x ∈ Occ p c s) (hy : y < p.Nsite) (hyn : y ∉ Occ p c s) : HopOK p c (siteHop p c x y s) := by
  obtain ⟨m, hm, e, e'⟩ := occ_electron hc hs hx
  refine ⟨hs, ?_, (mem_Occ.mp hx).1, hy, ?_, occ_free hc hs hy hyn⟩
  · simp only [siteHop, e, Int.toNat_natCast]; exact hm
  · simp only [siteHop, e, Int.toNat_natCast]; exact e'

theorem hop_is_site {h : Hop} (ok : HopOK p c h) : h = siteHop p c h.ri h.rj h.s := by
  have := (cons_back hc ok.s ok.mi ok.at').2.1
  unfold siteHop
  rw [this, Int.toNat_natCast]

theorem occ_siteExch {s x y : Nat} (hs : s < 2) (hx : x ∈ Occ p c s) (hx' : x ∉ Occ p c (1 - s)) (hy : y ∈ Occ p c (1 - s)) (hy' : y ∉ Occ p c s) :
    ExchOK p c (siteHop p c x y s) := by
  obtain ⟨m, hm, e, e'⟩ := occ_electron hc (show 1 - s < 2 by omega) hy
  refine ⟨occ_siteHop hc hs hx (mem_Occ.mp hy).1 hy', ?_, ?_, occ_free hc (by omega) (mem_Occ.mp hx).1 hx'⟩
  · simp only [siteHop, partnerHop, e, Int.toNat_natCast]; exact e'
  · simp only [siteHop, partnerHop, e, Int.toNat_natCast]; exact hm

omit hc in
theorem occ_update {h : Hop} (ok : HopOK p c h) (t : Nat) (ht : t < 2) :
    Occ p (updateEleConfig p h c) t = if t = h.s then insert h.rj ((Occ p c t).erase h.ri) else Occ p c t := by
  ext r
  by_cases hr : r < p.Nsite
  · have e : (updateEleConfig p h c).num (r + t * p.Nsite) = if r = h.rj ∧ t = h.s then 1 else if r = h.ri ∧ t = h.s then 0 else c.num (r + t * p.Nsite) := by
      simp only [updateEleConfig, Arr.set, flat_inj ht ok.s hr ok.rj, flat_inj ht ok.s hr ok.ri]
    rw [mem_Occ, e]
    by_cases q : t = h.s
    · rw [if_pos q, mem_insert, mem_erase, mem_Occ]
      by_cases a : r = h.rj
      · simp [a, q, ok.rj]
      · by_cases b : r = h.ri
        · simp [b, q]; omega
        · simp [a, b]
    · rw [if_neg q, mem_Occ]
      simp [q]
  · have h1 : r ∉ Occ p (updateEleConfig p h c) t := fun q => hr (mem_Occ.mp q).1
    have h2 : r ∉ Occ p c t := fun q => hr (mem_Occ.mp q).1
    have h3 : r ≠ h.rj := by rintro rfl; exact hr ok.rj
    split <;> simp [h1, h2, h3]

omit hc in
theorem occ_exch {h : Hop} (x : ExchOK p c h) : Occ p (exchCfg p c h) h.s = insert h.rj ((Occ p c h.s).erase h.ri) ∧
    Occ p (exchCfg p c h) (1 - h.s) = insert h.ri ((Occ p c (1 - h.s)).erase h.rj) := by
  have hs := x.ok.s
  have hp2 : (partnerHop p c h).s = 1 - h.s := rfl
  constructor
  · unfold exchCfg
    rw [occ_update x.ok2 _ hs, if_neg (by rw [hp2]; omega), occ_update x.ok _ hs, if_pos rfl]
  · unfold exchCfg
    rw [occ_update x.ok2 _ (by omega), if_pos hp2.symm, occ_update x.ok _ (by omega), if_neg (by omega)]
    rfl
end occ

/-- one hop in terms of occupied sites -/
theorem step_hop {p : SamplerPar} {c : EleCfg} (hc : Cons p c) (hp : HopPath p) {s x y : Nat} (hs : s < 2) (hx : x ∈ Occ p c s) (hy : y < p.Nsite)
    (hyn : y ∉ Occ p c s) (lx : p.locSpn x ≠ 1) (ly : p.locSpn y ≠ 1) :
    ∃ c', Mv p c c' ∧ Occ p c' s = insert y ((Occ p c s).erase x) ∧ Occ p c' (1 - s) = Occ p c (1 - s) := by
  have ok := occ_siteHop hc hs hx hy hyn
  refine ⟨_, .hop hp _ ok lx ly, ?_, ?_⟩
  · rw [occ_update ok s hs]; exact if_pos rfl
  · rw [occ_update ok _ (by omega)]; exact if_neg (by show ¬ 1 - s = s; omega)

/-- one exchange in terms of occupied sites -/
theorem step_exch {p : SamplerPar} {c : EleCfg} (hc : Cons p c) (hp : ExchPath p) {s x y : Nat} (hs : s < 2) (hx : x ∈ Occ p c s) (hx' : x ∉ Occ p c (1 - s))
    (hy : y ∈ Occ p c (1 - s)) (hy' : y ∉ Occ p c s) :
    ∃ c', Mv p c c' ∧ Occ p c' s = insert y ((Occ p c s).erase x) ∧ Occ p c' (1 - s) = insert x ((Occ p c (1 - s)).erase y) := by
  have ok := occ_siteExch hc hs hx hx' hy hy'
  exact ⟨_, .exch hp _ ok, (occ_exch ok).1, (occ_exch ok).2⟩

/-! ## Reachability -/

/-- a set of occupied sites of either spin with the right numbers, one electron on every local-spin site -/
structure Target (p : SamplerPar) (A : Nat → Finset Nat) : Prop where
  sub : ∀ s < 2, ∀ r ∈ A s, r < p.Nsite
  card : ∀ s < 2, (A s).card = p.Ne
  loc : ∀ r < p.Nsite, p.locSpn r = 1 → (r ∈ A 0 ↔ r ∉ A 1)

theorem Target.loc' {p : SamplerPar} {A : Nat → Finset Nat} (h : Target p A) {s r : Nat} (hs : s < 2) (hr : r < p.Nsite) (hl : p.locSpn r = 1) :
    r ∈ A s ↔ r ∉ A (1 - s) := by
  have := h.loc r hr hl
  rcases (show s = 0 ∨ s = 1 by omega) with rfl | rfl
  · exact this
  · show r ∈ A 1 ↔ r ∉ A 0
    tauto

/-- valid tables -/
structure Valid (p : SamplerPar) (c : EleCfg) : Prop where
  cons : Cons p c
  loc : LocalSingle p.Nsite p.locSpn c.num

theorem Valid.mv {p : SamplerPar} {c c' : EleCfg} (h : Valid p c) (m : Mv p c c') : Valid p c' := ⟨m.cons h.cons, m.local' h.cons h.loc⟩

theorem Valid.target {p : SamplerPar} {c : EleCfg} (h : Valid p c) : Target p (Occ p c) := by
  refine ⟨fun s _ r hr => (mem_Occ.mp hr).1, fun s hs => Occ_card h.cons hs, fun r hr hl => ?_⟩
  have := h.loc r hr hl
  rcases h.cons.site 0 (by omega) r hr with a | ⟨m, _, _, _, a⟩ <;> rcases h.cons.site 1 (by omega) r hr with b | ⟨m', _, _, _, b⟩ <;>
    simp only [Nat.zero_mul, Nat.one_mul, Nat.add_zero] at a b <;> simp [mem_Occ, hr] <;> omega

theorem exists_diff {A B : Finset Nat} (h : A.card = B.card) {x : Nat} (hx : x ∈ A) (hx' : x ∉ B) : ∃ y ∈ B, y ∉ A := by
  by_contra hn
  push Not at hn
  have hsub : B ⊆ A := hn
  have := Finset.eq_of_subset_of_card_le hsub (le_of_eq h)
  exact hx' (this ▸ hx)

/-- hops bring one spin to its target -/
theorem fix_spin {p : SamplerPar} (hp : HopPath p) {A : Nat → Finset Nat} (hA : Target p A) (s : Nat) (hs : s < 2) (n : Nat) :
    ∀ c, Valid p c → (∀ r < p.Nsite, p.locSpn r = 1 → (r ∈ Occ p c s ↔ r ∈ A s)) → (Occ p c s \ A s).card = n →
      ∃ c', Relation.ReflTransGen (Mv p) c c' ∧ Valid p c' ∧ Occ p c' s = A s ∧ Occ p c' (1 - s) = Occ p c (1 - s) := by
  induction n with
  | zero =>
    intro c hv _ h0
    refine ⟨c, .refl, hv, ?_, rfl⟩
    rw [card_eq_zero, sdiff_eq_empty_iff_subset] at h0
    exact Finset.eq_of_subset_of_card_le h0 (by rw [hA.card s hs, Occ_card hv.cons hs])
  | succ n ih =>
    intro c hv hloc hn
    obtain ⟨x, hx⟩ := card_pos.mp (show 0 < (Occ p c s \ A s).card by omega)
    obtain ⟨hx1, hx2⟩ := mem_sdiff.mp hx
    obtain ⟨y, hy1, hy2⟩ := exists_diff (by rw [hA.card s hs, Occ_card hv.cons hs]) hx1 hx2
    have xr := (mem_Occ.mp hx1).1
    have yr := hA.sub s hs y hy1
    have lx : p.locSpn x ≠ 1 := fun q => hx2 ((hloc x xr q).mp hx1)
    have ly : p.locSpn y ≠ 1 := fun q => hy2 ((hloc y yr q).mpr hy1)
    obtain ⟨c1, m1, e1, e2⟩ := step_hop hv.cons hp hs hx1 yr hy2 lx ly
    have g1 : ∀ r < p.Nsite, p.locSpn r = 1 → (r ∈ Occ p c1 s ↔ r ∈ A s) := by
      intro r hr hl
      rw [e1, mem_insert, mem_erase, ← hloc r hr hl]
      have a : r ≠ y := by rintro rfl; exact ly hl
      have b : r ≠ x := by rintro rfl; exact lx hl
      tauto
    have g2 : (Occ p c1 s \ A s).card = n := by
      have : Occ p c1 s \ A s = (Occ p c s \ A s).erase x := by
        rw [e1]
        ext r
        simp only [mem_sdiff, mem_insert, mem_erase]
        constructor
        · rintro ⟨rfl | ⟨q1, q2⟩, q3⟩
          · exact absurd hy1 q3
          · exact ⟨q1, q2, q3⟩
        · rintro ⟨q1, q2, q3⟩
          exact ⟨Or.inr ⟨q1, q2⟩, q3⟩
      rw [this, card_erase_of_mem hx, hn]
      omega
    obtain ⟨c', r', v', f1, f2⟩ := ih c1 (hv.mv m1) g1 g2
    exact ⟨c', .head m1 r', v', f1, by rw [f2, e2]⟩

/-- local-spin sites whose spin is not the one of the target -/
def locDiff (p : SamplerPar) (c : EleCfg) (A : Nat → Finset Nat) : Finset Nat :=
  (range p.Nsite).filter (fun r => p.locSpn r = 1 ∧ ¬ (r ∈ Occ p c 0 ↔ r ∈ A 0))

theorem mem_locDiff {p : SamplerPar} {c : EleCfg} {A : Nat → Finset Nat} (hv : Valid p c) (hA : Target p A) {s : Nat} (hs : s < 2) {r : Nat} :
    r ∈ locDiff p c A ↔ r < p.Nsite ∧ p.locSpn r = 1 ∧ ¬ (r ∈ Occ p c s ↔ r ∈ A s) := by
  rw [locDiff, mem_filter, mem_range]
  rcases (show s = 0 ∨ s = 1 by omega) with rfl | rfl
  · rfl
  · constructor
    · rintro ⟨h1, h2, h3⟩
      have a := hA.loc r h1 h2
      have b := hv.target.loc r h1 h2
      exact ⟨h1, h2, by tauto⟩
    · rintro ⟨h1, h2, h3⟩
      have a := hA.loc r h1 h2
      have b := hv.target.loc r h1 h2
      exact ⟨h1, h2, by tauto⟩

/-- the moves needed for the local spins: exchanges, and hops unless all electrons are local spins -/
theorem fix_local {p : SamplerPar} (hp : ExchPath p) (hh : HopPath p ∨ ∀ c, Valid p c → ∀ s < 2, ∀ r ∈ Occ p c s, p.locSpn r = 1) {A : Nat → Finset Nat}
    (hA : Target p A) (n : Nat) :
    ∀ c, Valid p c → (locDiff p c A).card ≤ n → ∃ c', Relation.ReflTransGen (Mv p) c c' ∧ Valid p c' ∧ locDiff p c' A = ∅ := by
  induction n with
  | zero => exact fun c hv h => ⟨c, .refl, hv, card_eq_zero.mp (by omega)⟩
  | succ n ih =>
    intro c hv hn
    by_cases h0 : locDiff p c A = ∅
    · exact ⟨c, .refl, hv, h0⟩
    obtain ⟨l, hl⟩ := Finset.nonempty_iff_ne_empty.mpr h0
    have hl' := (mem_locDiff hv hA (show 0 < 2 by omega)).mp hl
    have hlr := hl'.1
    have hloc := hl'.2.1
    -- the spin on `l`
    obtain ⟨s, hs, ls, lA⟩ : ∃ s < 2, l ∈ Occ p c s ∧ l ∉ A s := by
      by_cases q : l ∈ Occ p c 0
      · exact ⟨0, by omega, q, by tauto⟩
      · have a := hA.loc l hlr hloc
        have b := hv.target.loc l hlr hloc
        exact ⟨1, by omega, by tauto, by tauto⟩
    have lt : l ∉ Occ p c (1 - s) := (hv.target.loc' hs hlr hloc).mp ls
    have lAt : l ∈ A (1 - s) := by
      by_contra q
      exact lA ((hA.loc' hs hlr hloc).mpr q)
    have ht : 1 - s < 2 := by omega
    obtain ⟨y, hy1, hy2⟩ := exists_diff (by rw [hA.card s hs, Occ_card hv.cons hs]) ls lA
    obtain ⟨x, hx1, hx2⟩ := exists_diff (by rw [hA.card _ ht, Occ_card hv.cons ht]) lAt lt
    have xr := (mem_Occ.mp hx1).1
    have yr := hA.sub s hs y hy1
    -- an exchange of `l` with a site `z` where nothing is lost
    have finish : ∀ c1, Valid p c1 → Relation.ReflTransGen (Mv p) c c1 → (∀ r < p.Nsite, p.locSpn r = 1 → (r ∈ Occ p c1 s ↔ r ∈ Occ p c s)) →
        ∀ z, z ∈ Occ p c1 (1 - s) → z ∉ Occ p c1 s → (p.locSpn z = 1 → z ∈ A s) →
        ∃ c', Relation.ReflTransGen (Mv p) c c' ∧ Valid p c' ∧ locDiff p c' A = ∅ := by
      intro c1 v1 r1 same z hz1 hz2 hzA
      have ls1 : l ∈ Occ p c1 s := (same l hlr hloc).mpr ls
      have lt1 : l ∉ Occ p c1 (1 - s) := (v1.target.loc' hs hlr hloc).mp ls1
      obtain ⟨c2, m2, e1, e2⟩ := step_exch v1.cons hp hs ls1 lt1 hz1 hz2
      have v2 := v1.mv m2
      have hlt : (locDiff p c2 A).card < (locDiff p c A).card := by
        refine card_lt_card ?_
        refine (ssubset_iff_of_subset ?_).mpr ⟨l, hl, ?_⟩
        · intro r hr
          obtain ⟨a1, a2, a3⟩ := (mem_locDiff v2 hA hs).mp hr
          refine (mem_locDiff hv hA hs).mpr ⟨a1, a2, ?_⟩
          rw [e1, mem_insert, mem_erase, same r a1 a2] at a3
          by_cases q : r = z
          · subst q
            exact (a3 ⟨fun _ => hzA a2, fun _ => Or.inl rfl⟩).elim
          · by_cases q2 : r = l
            · rw [q2]; exact fun i => lA (i.mp ls)
            · simpa [q, q2] using a3
        · intro q
          obtain ⟨_, _, a3⟩ := (mem_locDiff v2 hA hs).mp q
          rw [e1, mem_insert, mem_erase] at a3
          have : l ≠ z := by rintro rfl; exact hz2 ls1
          exact a3 ⟨fun w => w.elim (fun w => absurd w this) (fun w => absurd rfl w.1), fun w => absurd w lA⟩
      obtain ⟨c', r', v', f⟩ := ih c2 v2 (by omega)
      exact ⟨c', (r1.tail m2).trans r', v', f⟩
    by_cases hxs : x ∈ Occ p c s
    · have lx : p.locSpn x ≠ 1 := fun q => (hv.target.loc' hs xr q).mp hxs hx1
      rcases hh with hh | hh
      swap
      · exact absurd (hh c hv s hs x hxs) lx
      by_cases ly : p.locSpn y = 1
      · refine finish c hv .refl (fun _ _ _ => Iff.rfl) y ?_ hy2 (fun _ => hy1)
        by_contra q
        exact hy2 ((hv.target.loc' hs yr ly).mpr q)
      · obtain ⟨c1, m1, e1, e2⟩ := step_hop hv.cons hh hs hxs yr hy2 lx ly
        refine finish c1 (hv.mv m1) (.single m1) ?_ x (by rw [e2]; exact hx1) ?_ (fun q => absurd q lx)
        · intro r hr hrl
          rw [e1, mem_insert, mem_erase]
          have a : r ≠ y := by rintro rfl; exact ly hrl
          have b : r ≠ x := by rintro rfl; exact lx hrl
          simp [a, b]
        · rw [e1, mem_insert, mem_erase]
          have : x ≠ y := by rintro rfl; exact hy2 hxs
          simp [this]
    · refine finish c hv .refl (fun _ _ _ => Iff.rfl) x hx1 hxs (fun q => ?_)
      by_contra w
      exact hx2 ((hA.loc' ht xr q).mpr (by rw [show 1 - (1 - s) = s by omega]; exact w))

/-- The number of local-spin sites. -/
def locCount (p : SamplerPar) : Nat := ((range p.Nsite).filter (fun r => p.locSpn r = 1)).card

/-- The choice of updates suits the system: hops and exchanges with fewer local spins than electrons, or hops only without local spins, or exchanges
only with as many local spins as electrons. -/
def PathOK (p : SamplerPar) : Prop :=
  ((p.exPath = 1 ∨ p.exPath = 3) ∧ locCount p < 2 * p.Ne) ∨ (p.exPath = 0 ∧ ∀ r < p.Nsite, p.locSpn r ≠ 1) ∨ (p.exPath = 2 ∧ locCount p = 2 * p.Ne)

/-- with fewer local spins than electrons some electron is itinerant -/
theorem some_itinerant {p : SamplerPar} (hcard : locCount p < 2 * p.Ne) {A : Nat → Finset Nat} (hA : Target p A) :
    ∃ s < 2, ∃ r ∈ A s, p.locSpn r ≠ 1 := by
  by_contra hn
  push Not at hn
  have hd : Disjoint (A 0) (A 1) := by
    rw [disjoint_left]
    intro r h0 h1
    exact (hA.loc r (hA.sub 0 (by omega) r h0) (hn 0 (by omega) r h0)).mp h0 h1
  have hsub : A 0 ∪ A 1 ⊆ (range p.Nsite).filter (fun r => p.locSpn r = 1) := by
    intro r hr
    rcases mem_union.mp hr with h | h
    · exact mem_filter.mpr ⟨mem_range.mpr (hA.sub 0 (by omega) r h), hn 0 (by omega) r h⟩
    · exact mem_filter.mpr ⟨mem_range.mpr (hA.sub 1 (by omega) r h), hn 1 (by omega) r h⟩
  have h1 := card_le_card hsub
  rw [card_union_of_disjoint hd, hA.card 0 (by omega), hA.card 1 (by omega)] at h1
  unfold locCount at hcard
  omega

/-- with as many local spins as electrons every electron is a local spin -/
theorem all_local {p : SamplerPar} (hcard : locCount p = 2 * p.Ne) {A : Nat → Finset Nat} (hA : Target p A) :
    ∀ s < 2, ∀ r ∈ A s, p.locSpn r = 1 := by
  unfold locCount at hcard
  set L := (range p.Nsite).filter (fun r => p.locSpn r = 1) with hL
  have hsub : L ⊆ (A 0 ∩ L) ∪ (A 1 ∩ L) := by
    intro r hr
    obtain ⟨h1, h2⟩ := mem_filter.mp hr
    have := hA.loc r (mem_range.mp h1) h2
    by_cases q : r ∈ A 0
    · exact mem_union_left _ (mem_inter.mpr ⟨q, hr⟩)
    · exact mem_union_right _ (mem_inter.mpr ⟨by tauto, hr⟩)
  have h1 := (card_le_card hsub).trans (card_union_le _ _)
  have a0 := card_le_card (inter_subset_left : A 0 ∩ L ⊆ A 0)
  have a1 := card_le_card (inter_subset_left : A 1 ∩ L ⊆ A 1)
  have c0 := hA.card 0 (by omega)
  have c1 := hA.card 1 (by omega)
  have e0 : A 0 ∩ L = A 0 := Finset.eq_of_subset_of_card_le inter_subset_left (by omega)
  have e1 : A 1 ∩ L = A 1 := Finset.eq_of_subset_of_card_le inter_subset_left (by omega)
  intro s hs r hr
  have : r ∈ L := by
    rcases (show s = 0 ∨ s = 1 by omega) with rfl | rfl
    · rw [← e0] at hr; exact (mem_inter.mp hr).2
    · rw [← e1] at hr; exact (mem_inter.mp hr).2
  exact (mem_filter.mp this).2

/-- the moves connect every configuration with every other one -/
theorem reach_target {p : SamplerPar} (hp : PathOK p) {A : Nat → Finset Nat} (hA : Target p A) {c : EleCfg} (hv : Valid p c) :
    ∃ c', Relation.ReflTransGen (Mv p) c c' ∧ Valid p c' ∧ Occ p c' 0 = A 0 ∧ Occ p c' 1 = A 1 := by
  -- local spins first
  obtain ⟨c1, r1, v1, e1⟩ : ∃ c', Relation.ReflTransGen (Mv p) c c' ∧ Valid p c' ∧ locDiff p c' A = ∅ := by
    rcases hp with ⟨h | h, _⟩ | ⟨h, h'⟩ | ⟨h, h'⟩
    · exact fix_local (Or.inl h) (Or.inl (Or.inr (Or.inl h))) hA _ c hv le_rfl
    · exact fix_local (Or.inr (Or.inr h)) (Or.inl (Or.inr (Or.inr h))) hA _ c hv le_rfl
    · refine ⟨c, .refl, hv, ?_⟩
      rw [Finset.eq_empty_iff_forall_notMem]
      intro r hr
      obtain ⟨a, b, _⟩ := (mem_locDiff hv hA (show 0 < 2 by omega)).mp hr
      exact h' r a b
    · exact fix_local (Or.inr (Or.inl h)) (Or.inr (fun c hc s hs r hr => all_local h' hc.target s hs r hr)) hA _ c hv le_rfl
  have agree : ∀ s < 2, ∀ r < p.Nsite, p.locSpn r = 1 → (r ∈ Occ p c1 s ↔ r ∈ A s) := by
    intro s hs r hr hl
    by_contra q
    have : r ∈ locDiff p c1 A := (mem_locDiff v1 hA hs).mpr ⟨hr, hl, q⟩
    rw [e1] at this
    simp at this
  by_cases hh : HopPath p
  · obtain ⟨c2, r2, v2, f1, f2⟩ := fix_spin hh hA 0 (by omega) _ c1 v1 (agree 0 (by omega)) rfl
    obtain ⟨c3, r3, v3, g1, g2⟩ := fix_spin hh hA 1 (by omega) _ c2 v2 (by
      intro r hr hl
      have : Occ p c2 1 = Occ p c1 1 := f2
      rw [this]
      exact agree 1 (by omega) r hr hl) rfl
    exact ⟨c3, (r1.trans r2).trans r3, v3, by have : Occ p c3 0 = Occ p c2 0 := g2; rw [this, f1], g1⟩
  · refine ⟨c1, r1, v1, ?_, ?_⟩
    all_goals
      have h2 : p.exPath = 2 ∧ locCount p = 2 * p.Ne := by
        rcases hp with ⟨h | h, _⟩ | h | h
        · exact absurd (Or.inr (Or.inl h)) hh
        · exact absurd (Or.inr (Or.inr h)) hh
        · exact absurd (Or.inl h.1) hh
        · exact h
      ext r
      constructor
      · intro hr
        exact (agree _ (by omega) r (mem_Occ.mp hr).1 (all_local h2.2 v1.target _ (by omega) r hr)).mp hr
      · intro hr
        exact (agree _ (by omega) r (hA.sub _ (by omega) r hr) (all_local h2.2 hA _ (by omega) r hr)).mpr hr

end MVMC
