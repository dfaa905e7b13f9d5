import Verif.Model.SamplerFsz
import Verif.Spec.ConfigFsz
import Verif.Proof.SamplerCount

namespace MVMC
open Spec

abbrev ConsF (p : FPar) (c : FCfg) : Prop := ConsistentF p.Nsize p.Nsite c.idx c.spn c.cfg c.num

/-- a move that the tables support -/
structure MoveOK (p : FPar) (c : FCfg) (h : FMove) : Prop where
  s : h.s < 2
  t : h.t < 2
  mi : h.mi < p.Nsize
  ri : h.ri < p.Nsite
  rj : h.rj < p.Nsite
  at' : c.idx h.mi = h.ri
  sp : c.spn h.mi = h.s
  free : c.cfg (h.rj + h.t * p.Nsite) = -1

theorem consF_back {p : FPar} {c : FCfg} (hc : ConsF p c) {s mi ri : Nat}
    (hm : mi < p.Nsize) (h : c.idx mi = ri) (hsp : c.spn mi = s) :
    ri < p.Nsite ∧ s < 2 ∧ c.cfg (ri + s * p.Nsite) = mi ∧ c.num (ri + s * p.Nsite) = 1 := by
  obtain ⟨r, hr, s', hs', h1, h2, h3⟩ := hc.electron mi hm
  have e : r = ri := by omega
  have e' : s' = s := by omega
  subst e; subst e'
  refine ⟨hr, hs', h3, ?_⟩
  rcases hc.site s' hs' r hr with h3 | ⟨m, _, h3⟩
  · omega
  · exact h3.2.2.2

theorem moveOK_ne {p : FPar} {c : FCfg} (hc : ConsF p c) {h : FMove} (ok : MoveOK p c h) :
    ¬ (h.rj = h.ri ∧ h.t = h.s) := by
  rintro ⟨e1, e2⟩
  have h1 := (consF_back hc ok.mi ok.at' ok.sp).2.2.1
  have h2 := ok.free
  rw [e1, e2] at h2
  omega

theorem updateF_cons {p : FPar} {c : FCfg} (hc : ConsF p c) {h : FMove} (ok : MoveOK p c h) :
    ConsF p (updateEleConfigF p h c) := by
  have hne := moveOK_ne hc ok
  have hb := consF_back hc ok.mi ok.at' ok.sp
  have h2 : ¬ (h.ri = h.rj ∧ h.s = h.t) := fun e => hne ⟨e.1.symm, e.2.symm⟩
  constructor
  · intro m hm
    by_cases em : m = h.mi
    · subst em
      refine ⟨h.rj, ok.rj, h.t, ok.t, ?_, ?_, ?_⟩ <;> simp [updateEleConfigF, Arr.set]
    · obtain ⟨r, hr, s, hs, a1, a2, a3⟩ := hc.electron m hm
      refine ⟨r, hr, s, hs, ?_, ?_, ?_⟩
      · simp only [updateEleConfigF, Arr.set]; rw [if_neg em]; exact a1
      · simp only [updateEleConfigF, Arr.set]; rw [if_neg em]; exact a2
      · simp only [updateEleConfigF, Arr.set, flat_inj hs ok.t hr ok.rj, flat_inj hs ok.s hr ok.ri]
        rw [if_neg, if_neg]
        · exact a3
        · rintro ⟨rfl, rfl⟩; have := hb.2.2.1; omega
        · rintro ⟨rfl, rfl⟩; have := ok.free; omega
  · intro s hs r hr
    simp only [updateEleConfigF, Arr.set, flat_inj hs ok.t hr ok.rj, flat_inj hs ok.s hr ok.ri]
    by_cases e1 : r = h.rj ∧ s = h.t
    · right
      refine ⟨h.mi, ok.mi, ?_, ?_, ?_, ?_⟩ <;> simp [e1]
    · by_cases e2 : r = h.ri ∧ s = h.s
      · left; rw [if_neg e1, if_pos e2, if_neg e1, if_pos e2]; exact ⟨rfl, rfl⟩
      · rw [if_neg e1, if_neg e2, if_neg e1, if_neg e2]
        rcases hc.site s hs r hr with x | ⟨m, hm, b1, b2, b3, b4⟩
        · left; exact x
        · right
          have : m ≠ h.mi := by
            rintro rfl
            have := ok.at'; have := ok.sp
            exact e2 ⟨by omega, by omega⟩
          exact ⟨m, hm, b1, by rw [if_neg this]; exact b2, by rw [if_neg this]; exact b3, b4⟩

theorem consF_num_free {p : FPar} {c : FCfg} (hc : ConsF p c) {s ri : Nat} (hs : s < 2)
    (hr : ri < p.Nsite) (h : c.cfg (ri + s * p.Nsite) = -1) : c.num (ri + s * p.Nsite) = 0 := by
  rcases hc.site s hs ri hr with h3 | ⟨m, hm, h3⟩
  · exact h3.2
  · omega

theorem revertF_update {p : FPar} {c : FCfg} (hc : ConsF p c) {h : FMove} (ok : MoveOK p c h) :
    revertEleConfigF p h (updateEleConfigF p h c) = c := by
  have hb := consF_back hc ok.mi ok.at' ok.sp
  have hn := consF_num_free hc ok.t ok.rj ok.free
  cases c with
  | mk idx spn cfg num =>
  simp only [revertEleConfigF, updateEleConfigF, FCfg.mk.injEq]
  have ha := ok.at'
  have hsp := ok.sp
  have hf := ok.free
  simp only at hb hn ha hf hsp
  refine ⟨?_, ?_, ?_, ?_⟩ <;> funext k <;> simp only [Arr.set]
  · by_cases e : k = h.mi
    · rw [if_pos e, e, ha]
    · rw [if_neg e, if_neg e]
  · by_cases e : k = h.mi
    · rw [if_pos e, e, hsp]
    · rw [if_neg e, if_neg e]
  · by_cases e : k = h.rj + h.t * p.Nsite
    · rw [if_pos e, e, hf]
    · by_cases e2 : k = h.ri + h.s * p.Nsite
      · rw [if_neg e, if_pos e2, e2, hb.2.2.1]
      · rw [if_neg e, if_neg e2, if_neg e, if_neg e2]
  · by_cases e : k = h.rj + h.t * p.Nsite
    · rw [if_pos e, e, hn]
    · by_cases e2 : k = h.ri + h.s * p.Nsite
      · rw [if_neg e, if_pos e2, e2, hb.2.2.2]
      · rw [if_neg e, if_neg e2, if_neg e, if_neg e2]

/-! ### candidates -/

theorem drawF {p : FPar} {c : FCfg} (hc : ConsF p c) (hNe : 0 < p.Ne) (u : Nat) :
    u % p.Nsize < p.Nsize ∧ (c.spn (u % p.Nsize)).toNat < 2 ∧ (c.idx (u % p.Nsize)).toNat < p.Nsite ∧
    c.idx (u % p.Nsize) = ((c.idx (u % p.Nsize)).toNat : Int) ∧
    c.spn (u % p.Nsize) = ((c.spn (u % p.Nsize)).toNat : Int) := by
  have hm : u % p.Nsize < p.Nsize := Nat.mod_lt _ (by unfold FPar.Nsize; omega)
  obtain ⟨r, hr, s, hs, h1, h2, _⟩ := hc.electron _ hm
  rw [h1, h2]; simp [hm, hr, hs]

theorem pickItinerantF_ok {p : FPar} {c : FCfg} (hc : ConsF p c) (hNe : 0 < p.Ne)
    (r : List Nat) {mi ri s : Nat} {r' : List Nat} (h : pickItinerantF p c r = some ((mi, ri, s), r')) :
    s < 2 ∧ mi < p.Nsize ∧ ri < p.Nsite ∧ c.idx mi = ri ∧ c.spn mi = s ∧ p.locSpn ri ≠ 1 := by
  fun_induction pickItinerantF p c r with
  | case1 u r mi' ri' hl ih => exact ih h
  | case2 u r mi' s' ri' hl =>
    simp only [Option.some.injEq, Prod.mk.injEq] at h
    obtain ⟨⟨rfl, rfl, rfl⟩, _⟩ := h
    have d := drawF hc hNe u
    exact ⟨d.2.1, d.1, d.2.2.1, d.2.2.2.1, d.2.2.2.2, hl⟩
  | case3 => simp at h

theorem pickTargetF_ok {p : FPar} {c : FCfg} (hNs : 0 < p.Nsite) (icnt : Nat)
    (r : List Nat) {rj t : Nat} {r' : List Nat} (h : pickTargetF p c icnt r = some ((rj, t, false), r')) :
    rj < p.Nsite ∧ t < 2 ∧ c.cfg (rj + t * p.Nsite) = -1 ∧ p.locSpn rj ≠ 1 := by
  fun_induction pickTargetF p c icnt r with
  | case1 => simp at h
  | case2 icnt u v r rj' t' h1 h2 ih => exact ih h
  | case3 icnt u v r rj' t' h1 h2 =>
    simp only [Option.some.injEq, Prod.mk.injEq] at h
    obtain ⟨⟨rfl, rfl, _⟩, _⟩ := h
    rw [not_or, not_not] at h2
    exact ⟨Nat.mod_lt _ hNs, coin_lt v, h2⟩
  | case4 => simp at h

theorem pickTargetC_ok {p : FPar} {c : FCfg} (hNs : 0 < p.Nsite) (t icnt : Nat)
    (r : List Nat) {rj : Nat} {r' : List Nat} (h : pickTargetC p c t icnt r = some ((rj, false), r')) :
    rj < p.Nsite ∧ c.cfg (rj + t * p.Nsite) = -1 ∧ p.locSpn rj ≠ 1 := by
  fun_induction pickTargetC p c t icnt r with
  | case1 => simp at h
  | case2 icnt u r rj' h1 h2 ih => exact ih h
  | case3 icnt u r rj' h1 h2 =>
    simp only [Option.some.injEq, Prod.mk.injEq] at h
    obtain ⟨⟨rfl, _⟩, _⟩ := h
    rw [not_or, not_not] at h2
    exact ⟨Nat.mod_lt _ hNs, h2⟩
  | case4 => simp at h

/-- both ends of the move avoid local-spin sites -/
def Itin (p : FPar) (h : FMove) : Prop := p.locSpn h.ri ≠ 1 ∧ p.locSpn h.rj ≠ 1

theorem hoppingF_ok {p : FPar} {c : FCfg} (hc : ConsF p c) (hNe : 0 < p.Ne) (hNs : 0 < p.Nsite)
    (r : List Nat) {h : FMove} {r' : List Nat}
    (e : makeCandidateHoppingF p c r = some ((h, false), r')) : MoveOK p c h ∧ Itin p h := by
  unfold makeCandidateHoppingF at e
  split at e
  · simp at e
  · rename_i mi ri s r1 e1
    split at e
    · simp at e
    · rename_i rj t flag r2 e2
      simp only [Option.some.injEq, Prod.mk.injEq] at e
      obtain ⟨⟨rfl, rfl⟩, _⟩ := e
      have h1 := pickItinerantF_ok hc hNe r e1
      have h2 := pickTargetF_ok hNs 0 r1 e2
      exact ⟨⟨h1.1, h2.2.1, h1.2.1, h1.2.2.1, h2.1, h1.2.2.2.1, h1.2.2.2.2.1, h2.2.2.1⟩,
        h1.2.2.2.2.2, h2.2.2.2⟩

theorem hoppingC_ok {p : FPar} {c : FCfg} (hc : ConsF p c) (hNe : 0 < p.Ne) (hNs : 0 < p.Nsite)
    (r : List Nat) {h : FMove} {r' : List Nat}
    (e : makeCandidateHoppingC p c r = some ((h, false), r')) : MoveOK p c h ∧ Itin p h ∧ h.s = h.t := by
  unfold makeCandidateHoppingC at e
  split at e
  · simp at e
  · rename_i mi ri s r1 e1
    split at e
    · simp at e
    · rename_i rj flag r2 e2
      simp only [Option.some.injEq, Prod.mk.injEq] at e
      obtain ⟨⟨rfl, rfl⟩, _⟩ := e
      have h1 := pickItinerantF_ok hc hNe r e1
      have h2 := pickTargetC_ok hNs s 0 r1 e2
      exact ⟨⟨h1.1, h1.1, h1.2.1, h1.2.2.1, h2.1, h1.2.2.2.1, h1.2.2.2.2.1, h2.2.1⟩,
        ⟨h1.2.2.2.2.2, h2.2.2⟩, rfl⟩

theorem conductionFlip_ok {p : FPar} {c : FCfg} (hc : ConsF p c) (hNe : 0 < p.Ne) (icnt : Nat)
    (r : List Nat) {h : FMove} {r' : List Nat}
    (e : conductionFlip p c icnt r = some ((h, false), r')) : MoveOK p c h ∧ Itin p h ∧ h.ri = h.rj := by
  fun_induction conductionFlip p c icnt r with
  | case1 => simp at e
  | case2 icnt u r mi s ri h1 h2 ih => exact ih e
  | case3 icnt u r mi s ri h1 h2 =>
    simp only [Option.some.injEq, Prod.mk.injEq] at e
    obtain ⟨⟨rfl, _⟩, _⟩ := e
    rw [not_or, not_not] at h2
    have d := drawF hc hNe u
    exact ⟨⟨d.2.1, by simp only; omega, d.1, d.2.2.1, d.2.2.1, d.2.2.2.1, d.2.2.2.2, h2.2⟩,
      ⟨h2.1, h2.1⟩, rfl⟩
  | case4 => simp at e

theorem hopCandidateF_ok {p : FPar} {c : FCfg} (hc : ConsF p c) (hNe : 0 < p.Ne) (hNs : 0 < p.Nsite)
    (r : List Nat) {fh : Bool} {h : FMove} {r' : List Nat}
    (e : hopCandidateF p c r = some ((fh, h, false), r')) :
    MoveOK p c h ∧ Itin p h ∧ (p.twoSz ≠ -1 → h.s = h.t) := by
  unfold hopCandidateF at e
  split at e
  · rename_i hz
    split at e
    · simp at e
    · split at e
      · split at e
        · simp at e
        · rename_i h' fl r1 e1
          simp only [Option.some.injEq, Prod.mk.injEq] at e
          obtain ⟨⟨_, rfl, rfl⟩, _⟩ := e
          have := hoppingF_ok hc hNe hNs _ e1
          exact ⟨this.1, this.2, fun h => absurd hz h⟩
      · split at e
        · simp at e
        · rename_i h' fl r1 e1
          simp only [Option.some.injEq, Prod.mk.injEq] at e
          obtain ⟨⟨_, rfl, rfl⟩, _⟩ := e
          have := conductionFlip_ok hc hNe 0 _ e1
          exact ⟨this.1, this.2.1, fun h => absurd hz h⟩
  · split at e
    · simp at e
    · rename_i h' fl r1 e1
      simp only [Option.some.injEq, Prod.mk.injEq] at e
      obtain ⟨⟨_, rfl, rfl⟩, _⟩ := e
      have := hoppingC_ok hc hNe hNs _ e1
      exact ⟨this.1, this.2.1, fun _ => this.2.2⟩

/-- the values of `LocSpn` that the sampler is written for -/
def LocBin (p : FPar) : Prop := ∀ r < p.Nsite, p.locSpn r = 0 ∨ p.locSpn r = 1

theorem localFlip_ok {p : FPar} {c : FCfg} (hc : ConsF p c) (hNe : 0 < p.Ne) (hb : LocBin p)
    (hl : LocalSingle p.Nsite p.locSpn c.num) (r : List Nat) {h : FMove} {r' : List Nat}
    (e : localSpinFlip p c r = some (h, r')) :
    MoveOK p c h ∧ h.ri = h.rj ∧ h.t = 1 - h.s ∧ p.locSpn h.ri = 1 := by
  fun_induction localSpinFlip p c r with
  | case1 u r mi ri h1 ih => exact ih e
  | case2 u r mi s ri h1 =>
    simp only [Option.some.injEq, Prod.mk.injEq] at e
    obtain ⟨rfl, _⟩ := e
    have d := drawF hc hNe u
    have hloc : p.locSpn ri = 1 := (hb ri d.2.2.1).resolve_left h1
    have hs2 : s < 2 := d.2.1
    have hbk := consF_back hc d.1 d.2.2.2.1 d.2.2.2.2
    have hbn : c.num (ri + s * p.Nsite) = 1 := hbk.2.2.2
    have hone := hl ri d.2.2.1 hloc
    have hfree : c.cfg (ri + (1 - s) * p.Nsite) = -1 := by
      rcases hc.site (1 - s) (by omega) ri d.2.2.1 with x | ⟨m, _, _, _, _, x⟩
      · exact x.1
      · exfalso
        rcases (show s = 0 ∨ s = 1 by omega) with q | q
        · rw [q] at hbn x; simp only [Nat.zero_mul, Nat.add_zero, Nat.sub_zero, Nat.one_mul] at hbn x; omega
        · rw [q] at hbn x; simp only [Nat.zero_mul, Nat.add_zero, Nat.sub_self, Nat.one_mul] at hbn x; omega
    exact ⟨⟨hs2, by simp only; omega, d.1, d.2.2.1, d.2.2.1, d.2.2.2.1, d.2.2.2.2, hfree⟩, rfl, rfl, hloc⟩
  | case3 => simp at e

theorem pickSingleAnyF_ok {p : FPar} {c : FCfg} (hc : ConsF p c) (hNe : 0 < p.Ne)
    (r : List Nat) {mi ri s : Nat} {r' : List Nat} (h : pickSingleAnyF p c r = some ((mi, ri, s), r')) :
    s < 2 ∧ mi < p.Nsize ∧ ri < p.Nsite ∧ c.idx mi = ri ∧ c.spn mi = s ∧
      c.cfg (ri + (1 - s) * p.Nsite) = -1 := by
  fun_induction pickSingleAnyF p c r with
  | case1 u r mi' s' ri' hl ih => exact ih h
  | case2 u r mi' s' ri' hl =>
    simp only [Option.some.injEq, Prod.mk.injEq] at h
    obtain ⟨⟨rfl, rfl, rfl⟩, _⟩ := h
    have d := drawF hc hNe u
    exact ⟨d.2.1, d.1, d.2.2.1, d.2.2.2.1, d.2.2.2.2, by simpa using hl⟩
  | case3 => simp at h

theorem pickSingleSpinF_ok {p : FPar} {c : FCfg} (hc : ConsF p c) (hNe : 0 < p.Ne) {t : Nat}
    (r : List Nat) {mj rj : Nat} {r' : List Nat}
    (h : pickSingleSpinF p c t r = some ((mj, rj), r')) :
    mj < p.Nsize ∧ rj < p.Nsite ∧ c.idx mj = rj ∧ c.spn mj = t ∧
      c.cfg (rj + (1 - t) * p.Nsite) = -1 := by
  fun_induction pickSingleSpinF p c t r with
  | case1 u r mi' ri' hl ih => exact ih h
  | case2 u r mi' ri' hl =>
    simp only [Option.some.injEq, Prod.mk.injEq] at h
    obtain ⟨⟨rfl, rfl⟩, _⟩ := h
    rw [not_or, not_not, not_not] at hl
    have d := drawF hc hNe u
    exact ⟨d.1, d.2.2.1, d.2.2.2.1, hl.2, hl.1⟩
  | case3 => simp at h

theorem exchangeF_ok {p : FPar} {c : FCfg} (hc : ConsF p c) (hNe : 0 < p.Ne)
    (r : List Nat) {h : FMove} {r' : List Nat}
    (e : makeCandidateExchangeF p c r = some (some h, r')) :
    MoveOK p c h ∧ MoveOK p (updateEleConfigF p h c) (partnerMove p c h) ∧ h.s = h.t ∧
      c.idx (partnerMove p c h).mi = h.rj ∧ c.spn (partnerMove p c h).mi = ((1 - h.s : Nat) : Int) ∧
      (partnerMove p c h).mi < p.Nsize ∧ c.cfg (h.ri + (1 - h.s) * p.Nsite) = -1 ∧ h.ri ≠ h.rj := by
  unfold makeCandidateExchangeF at e
  split at e
  · split at e
    · simp at e
    · rename_i mi ri s r1 e1
      split at e
      · simp at e
      · rename_i mj rj r2 e2
        simp only [Option.some.injEq, Prod.mk.injEq] at e
        obtain ⟨rfl, _⟩ := e
        obtain ⟨hs, hm, hr, hidx, hsp, hemp⟩ := pickSingleAnyF_ok hc hNe r e1
        obtain ⟨hmj, hrj, hidj, hspj, hempj⟩ := pickSingleSpinF_ok hc hNe (t := 1 - s) r1 e2
        rw [show 1 - (1 - s) = s by omega] at hempj
        have ok : MoveOK p c ⟨mi, ri, rj, s, s⟩ := ⟨hs, hs, hm, hr, hrj, hidx, hsp, hempj⟩
        have hbj := consF_back hc hmj hidj hspj
        have hbi := consF_back hc hm hidx hsp
        have hne : ri ≠ rj := fun e => moveOK_ne hc ok ⟨e.symm, rfl⟩
        have hmne : mj ≠ mi := by rintro rfl; omega
        have hmj' : (c.cfg (rj + (1 - s) * p.Nsite)).toNat = mj := by rw [hbj.2.2.1]; simp
        refine ⟨ok, ?_, rfl, ?_, ?_, ?_, hemp, hne⟩
        · refine ⟨by simp only [partnerMove]; omega, by simp only [partnerMove]; omega, ?_, hrj, hr, ?_, ?_, ?_⟩
          · simp only [partnerMove, hmj']; exact hmj
          · simp only [partnerMove, hmj', updateEleConfigF, Arr.set]
            rw [if_neg hmne]; exact hidj
          · simp only [partnerMove, hmj', updateEleConfigF, Arr.set]
            rw [if_neg hmne]; exact hspj
          · simp only [partnerMove, updateEleConfigF, Arr.set]
            rw [if_neg (by rw [flat_inj (by omega) hs hr hrj]; omega),
              if_neg (by rw [flat_inj (by omega) hs hr hr]; omega)]
            exact hemp
        · simp only [partnerMove, hmj']; exact hidj
        · simp only [partnerMove, hmj']; exact hspj
        · simp only [partnerMove, hmj']; exact hmj
  · simp at e

/-! ### occupation after a move -/

theorem updF_num {p : FPar} {c : FCfg} {h : FMove} (ok : MoveOK p c h) {r t : Nat} (hr : r < p.Nsite)
    (ht : t < 2) : (updateEleConfigF p h c).num (r + t * p.Nsite) =
      if r = h.rj ∧ t = h.t then 1 else if r = h.ri ∧ t = h.s then 0 else c.num (r + t * p.Nsite) := by
  simp only [updateEleConfigF, Arr.set, flat_inj ht ok.t hr ok.rj, flat_inj ht ok.s hr ok.ri]

theorem updF_spinCount {p : FPar} {c : FCfg} (hc : ConsF p c) {h : FMove} (ok : MoveOK p c h) {t : Nat}
    (ht : t < 2) : spinCount p.Nsite (updateEleConfigF p h c).num t =
      spinCount p.Nsite c.num t + (if t = h.t then 1 else 0) - (if t = h.s then 1 else 0) := by
  have hb := consF_back hc ok.mi ok.at' ok.sp
  have hn := consF_num_free hc ok.t ok.rj ok.free
  have hne := moveOK_ne hc ok
  unfold spinCount
  rw [list_sum_range, list_sum_range]
  have : ∀ r ∈ Finset.range p.Nsite, (updateEleConfigF p h c).num (r + t * p.Nsite) =
      c.num (r + t * p.Nsite) + (if r = h.rj then (if t = h.t then 1 else 0) else 0)
        - (if r = h.ri then (if t = h.s then 1 else 0) else 0) := by
    intro r hr
    rw [updF_num ok (Finset.mem_range.mp hr) ht]
    by_cases a : r = h.rj <;> by_cases b : t = h.t <;> by_cases d : r = h.ri <;> by_cases e : t = h.s
    all_goals simp only [a, b, d, e, true_and, and_true, false_and, and_false, if_true, if_false]
    all_goals first
      | omega
      | (subst d; subst e; simp_all)
  rw [Finset.sum_congr rfl this, Finset.sum_sub_distrib, Finset.sum_add_distrib, Finset.sum_ite_eq',
    Finset.sum_ite_eq', if_pos (Finset.mem_range.mpr ok.rj), if_pos (Finset.mem_range.mpr ok.ri)]

theorem updF_local {p : FPar} {c : FCfg} {h : FMove} (ok : MoveOK p c h) (hi : Itin p h)
    (hl : LocalSingle p.Nsite p.locSpn c.num) :
    LocalSingle p.Nsite p.locSpn (updateEleConfigF p h c).num := by
  intro r hr hloc
  have a := updF_num ok hr (show 0 < 2 by omega)
  have b := updF_num ok hr (show 1 < 2 by omega)
  simp only [Nat.zero_mul, Nat.add_zero, Nat.one_mul] at a b
  have hri : r ≠ h.ri := by rintro rfl; exact hi.1 hloc
  have hrj : r ≠ h.rj := by rintro rfl; exact hi.2 hloc
  rw [a, b]
  simp only [hri, hrj, false_and, if_false]
  exact hl r hr hloc

theorem flipF_local {p : FPar} {c : FCfg} {h : FMove} (ok : MoveOK p c h) (e1 : h.ri = h.rj)
    (e2 : h.t = 1 - h.s) (hl : LocalSingle p.Nsite p.locSpn c.num) :
    LocalSingle p.Nsite p.locSpn (updateEleConfigF p h c).num := by
  intro r hr hloc
  have a := updF_num ok hr (show 0 < 2 by omega)
  have b := updF_num ok hr (show 1 < 2 by omega)
  simp only [Nat.zero_mul, Nat.add_zero, Nat.one_mul] at a b
  have := hl r hr hloc
  rw [a, b]
  have hs := ok.s
  by_cases x : r = h.ri
  · rcases (show h.s = 0 ∨ h.s = 1 by omega) with q | q <;> simp [x, ← e1, e2, q]
  · simp [x, ← e1]; exact this

theorem exchF_num {p : FPar} {c : FCfg} {h : FMove} (ok : MoveOK p c h)
    (ok2 : MoveOK p (updateEleConfigF p h c) (partnerMove p c h)) (hst : h.s = h.t) (hne : h.ri ≠ h.rj)
    {r t : Nat} (hr : r < p.Nsite) (ht : t < 2) :
    (updateEleConfigF p (partnerMove p c h) (updateEleConfigF p h c)).num (r + t * p.Nsite) =
      if r = h.ri then (if t = h.s then 0 else 1)
      else if r = h.rj then (if t = h.s then 1 else 0)
      else c.num (r + t * p.Nsite) := by
  have hs := ok.s
  rw [updF_num ok2 hr ht, updF_num ok hr ht]
  simp only [partnerMove, ← hst]
  by_cases a : r = h.ri
  · have b : r ≠ h.rj := by omega
    by_cases d : t = h.s
    · simp only [a, hne, d, if_true, if_false, true_and, false_and]
      rw [if_neg (by omega)]
    · have : t = 1 - h.s := by omega
      simp [a, this]; omega
  · by_cases b : r = h.rj
    · by_cases d : t = h.s
      · simp only [b, d, if_true, if_false, true_and, false_and, Ne.symm hne]
        rw [if_neg (by omega)]
      · have : t = 1 - h.s := by omega
        have hx : ¬ (1 - h.s = h.s) := by omega
        simp [b, Ne.symm hne, this, hx]
    · simp [a, b]

theorem exchF_local {p : FPar} {c : FCfg} {h : FMove} (ok : MoveOK p c h)
    (ok2 : MoveOK p (updateEleConfigF p h c) (partnerMove p c h)) (hst : h.s = h.t) (hne : h.ri ≠ h.rj)
    (hl : LocalSingle p.Nsite p.locSpn c.num) :
    LocalSingle p.Nsite p.locSpn
      (updateEleConfigF p (partnerMove p c h) (updateEleConfigF p h c)).num := by
  intro r hr hloc
  have a := exchF_num ok ok2 hst hne hr (show 0 < 2 by omega)
  have b := exchF_num ok ok2 hst hne hr (show 1 < 2 by omega)
  simp only [Nat.zero_mul, Nat.add_zero, Nat.one_mul] at a b
  rw [a, b]
  have hs := ok.s
  have := hl r hr hloc
  by_cases x : r = h.ri
  · simp only [x, if_true]
    rcases (show h.s = 0 ∨ h.s = 1 by omega) with q | q <;> simp [q]
  · by_cases y : r = h.rj
    · simp only [y, if_true, Ne.symm hne, if_false]
      rcases (show h.s = 0 ∨ h.s = 1 by omega) with q | q <;> simp [q]
    · simp only [x, y, if_false]; exact this

/-! ### one step, any payload -/

/-- what a payload invariant `Q` has to satisfy -/
structure FQOK {β γ : Type} (k : FHooks β γ) (p : FPar) (Q : FCfg → β → Prop) : Prop where
  move : ∀ c h b u, ConsF p c → MoveOK p c h → Q c b →
    k.accept b (k.propMove (updateEleConfigF p h c) h b) u = true →
    Q (updateEleConfigF p h c)
      (k.commitMove (updateEleConfigF p h c) h b (k.propMove (updateEleConfigF p h c) h b))
  exch : ∀ c h h2 b u, ConsF p c → MoveOK p c h → MoveOK p (updateEleConfigF p h c) h2 →
    h.s = h.t → h.ri ≠ h.rj → h2.ri = h.rj → h2.rj = h.ri → h2.s = 1 - h.s → h2.t = 1 - h.s →
    Q c b →
    k.accept b (k.propExch (updateEleConfigF p h c) (updateEleConfigF p h2 (updateEleConfigF p h c)) h h2 b) u = true →
    Q (updateEleConfigF p h2 (updateEleConfigF p h c))
      (k.commitExch (updateEleConfigF p h2 (updateEleConfigF p h c)) h h2 b
        (k.propExch (updateEleConfigF p h c) (updateEleConfigF p h2 (updateEleConfigF p h c)) h h2 b))
  refresh : ∀ c b, ConsF p c → Q c b → Q c (k.refresh c b)

/-- the sampler invariant; `M` is the magnetisation at the start -/
structure FInv {β : Type} (p : FPar) (Q : FCfg → β → Prop) (M : Int) (st : FState β) : Prop where
  cons : ConsF p st.c
  loc : LocalSingle p.Nsite p.locSpn st.c.num
  q : Q st.c st.b
  na : st.nAccept ≤ p.Nsite
  mag : p.twoSz ≠ -1 → p.exPath ≠ 3 → magnetisation p.Nsite st.c.num = M
  c1 : st.cnt 1 ≤ st.cnt 0
  c3 : st.cnt 3 ≤ st.cnt 2
  c5 : st.cnt 5 ≤ st.cnt 4

theorem maybeRefreshF_inv {β γ : Type} {k : FHooks β γ} {p : FPar} {Q : FCfg → β → Prop} {M : Int}
    (hQ : FQOK k p Q) {st : FState β} (h1 : ConsF p st.c) (h2 : LocalSingle p.Nsite p.locSpn st.c.num)
    (h3 : Q st.c st.b) (hm : p.twoSz ≠ -1 → p.exPath ≠ 3 → magnetisation p.Nsite st.c.num = M)
    (h4 : st.cnt 1 ≤ st.cnt 0) (h5 : st.cnt 3 ≤ st.cnt 2) (h6 : st.cnt 5 ≤ st.cnt 4) :
    FInv p Q M (maybeRefreshF k p st) := by
  unfold maybeRefreshF
  split
  · exact ⟨h1, h2, hQ.refresh _ _ h1 h3, Nat.zero_le _, hm, h4, h5, h6⟩
  · exact ⟨h1, h2, h3, by omega, hm, h4, h5, h6⟩

theorem getUpdateType_flip {path : Int} {twoSz : Int} {r r' : List Nat}
    (h : getUpdateType path true twoSz r = some (.localSpinFlip, r')) : twoSz = -1 ∨ path = 3 := by
  unfold getUpdateType at h
  split at h
  · simp at h
  · split at h
    · split at h
      · simp at h
      · simp only [Option.some.injEq, Prod.mk.injEq] at h
        obtain ⟨h, _⟩ := h; split at h <;> simp at h
    · split at h
      · split at h
        · simp at h
        · split at h
          · rename_i hz; exact Or.inl hz
          · simp at h
      · split at h
        · rename_i hp; exact Or.inr hp
        · simp at h

theorem tryMoveF_inv {β γ : Type} {k : FHooks β γ} {p : FPar} {Q : FCfg → β → Prop} {M : Int}
    (hQ : FQOK k p Q) {st st' : FState β} {r r' : List Nat} {h : FMove} {acc : Nat}
    (h1 : ConsF p st.c) (h2 : LocalSingle p.Nsite p.locSpn st.c.num)
    (h3 : Q st.c st.b) (hm : p.twoSz ≠ -1 → p.exPath ≠ 3 → magnetisation p.Nsite st.c.num = M)
    (hacc : (acc = 1 ∧ st.cnt 1 < st.cnt 0 ∧ st.cnt 5 ≤ st.cnt 4) ∨
      (acc = 5 ∧ st.cnt 5 < st.cnt 4 ∧ st.cnt 1 ≤ st.cnt 0))
    (hc3 : st.cnt 3 ≤ st.cnt 2)
    (ok : MoveOK p st.c h)
    (hl : LocalSingle p.Nsite p.locSpn (updateEleConfigF p h st.c).num)
    (hst : p.twoSz ≠ -1 → p.exPath ≠ 3 → h.s = h.t)
    (e : tryMoveF k p st h acc r = some (st', r')) : FInv p Q M st' := by
  unfold tryMoveF at e
  simp only at e
  split at e
  · simp at e
  · split at e
    · rename_i hac
      simp only [Option.some.injEq, Prod.mk.injEq] at e
      obtain ⟨rfl, _⟩ := e
      apply maybeRefreshF_inv hQ
      · exact updateF_cons h1 ok
      · exact hl
      · exact hQ.move _ _ _ _ h1 ok h3 hac
      · intro a b
        rw [← hm a b]
        simp only [magnetisation]
        rw [updF_spinCount h1 ok (by omega), updF_spinCount h1 ok (by omega), hst a b]
        omega
      · rcases hacc with ⟨rfl, _⟩ | ⟨rfl, _⟩ <;> simp [bump] <;> omega
      · rcases hacc with ⟨rfl, _⟩ | ⟨rfl, _⟩ <;> simp [bump] <;> omega
      · rcases hacc with ⟨rfl, _⟩ | ⟨rfl, _⟩ <;> simp [bump] <;> omega
    · simp only [Option.some.injEq, Prod.mk.injEq] at e
      obtain ⟨rfl, _⟩ := e
      rw [revertF_update h1 ok]
      exact maybeRefreshF_inv hQ h1 h2 h3 hm (by simp only; omega) hc3 (by simp only; omega)

theorem innerStepF_inv {β γ : Type} {k : FHooks β γ} {p : FPar} {Q : FCfg → β → Prop} {M : Int}
    (hQ : FQOK k p Q) (hNe : 0 < p.Ne) (hNs : 0 < p.Nsite) (hb : LocBin p) {st st' : FState β}
    {r r' : List Nat} (hi : FInv p Q M st) (e : innerStepF k p st r = some (st', r')) :
    FInv p Q M st' := by
  have hc1 := hi.c1
  have hc3 := hi.c3
  have hc5 := hi.c5
  unfold innerStepF at e
  split at e
  · simp at e
  · -- hopping
    split at e
    · simp at e
    · rename_i fh h fl r1 ec
      simp only at e
      split at e
      · simp only [Option.some.injEq, Prod.mk.injEq] at e
        obtain ⟨rfl, _⟩ := e
        refine ⟨hi.cons, hi.loc, hi.q, hi.na, hi.mag, ?_, ?_, ?_⟩ <;> cases fh <;> simp [bump] <;> omega
      · rename_i hfl
        have hfl' : fl = false := by simpa using hfl
        subst hfl'
        obtain ⟨ok, hit, hst⟩ := hopCandidateF_ok hi.cons hNe hNs _ ec
        refine tryMoveF_inv (st := { st with cnt := bump st.cnt (if fh then 0 else 4) }) hQ hi.cons hi.loc
          hi.q hi.mag ?_ ?_ ok (updF_local ok hit hi.loc) (fun a _ => hst a) e
        · cases fh
          · right; simp [bump]; omega
          · left; simp [bump]; omega
        · cases fh <;> simp [bump] <;> omega
  · -- exchange
    simp only at e
    split at e
    · simp at e
    · simp only [Option.some.injEq, Prod.mk.injEq] at e
      obtain ⟨rfl, _⟩ := e
      refine ⟨hi.cons, hi.loc, hi.q, hi.na, hi.mag, ?_, ?_, ?_⟩ <;> simp [bump] <;> omega
    · rename_i h r1 ec
      have ⟨ok, ok2, hst, q1, q2, q3, q4, hne⟩ := exchangeF_ok hi.cons hNe _ ec
      split at e
      · simp at e
      · split at e
        · rename_i hacc
          simp only [Option.some.injEq, Prod.mk.injEq] at e
          obtain ⟨rfl, _⟩ := e
          apply maybeRefreshF_inv hQ
          · exact updateF_cons (updateF_cons hi.cons ok) ok2
          · exact exchF_local ok ok2 hst hne hi.loc
          · exact hQ.exch _ _ _ _ _ hi.cons ok ok2 hst hne rfl rfl rfl rfl hi.q hacc
          · intro a b
            rw [← hi.mag a b]
            simp only [magnetisation]
            have hc1 := updateF_cons hi.cons ok
            rw [updF_spinCount hc1 ok2 (by omega), updF_spinCount hc1 ok2 (by omega),
              updF_spinCount hi.cons ok (by omega), updF_spinCount hi.cons ok (by omega), hst]
            simp only [partnerMove]
            omega
          · simp [bump]; omega
          · simp [bump]; omega
          · simp [bump]; omega
        · simp only [Option.some.injEq, Prod.mk.injEq] at e
          obtain ⟨rfl, _⟩ := e
          rw [revertF_update (updateF_cons hi.cons ok) ok2, revertF_update hi.cons ok]
          refine maybeRefreshF_inv hQ hi.cons hi.loc hi.q hi.mag ?_ ?_ ?_ <;> simp [bump] <;> omega
  · -- local spin flip
    rename_i r1 et
    have hty := getUpdateType_flip et
    simp only at e
    split at e
    · simp at e
    · rename_i h r2 ec
      obtain ⟨ok, e1, e2, _⟩ := localFlip_ok hi.cons hNe hb hi.loc _ ec
      refine tryMoveF_inv (st := { st with cnt := bump st.cnt 4 }) hQ hi.cons hi.loc hi.q hi.mag ?_ ?_ ok
        (flipF_local ok e1 e2 hi.loc) ?_ e
      · right; simp [bump]; omega
      · simp [bump]; omega
      · intro a b; rcases hty with x | x
        · exact absurd x a
        · exact absurd x b
  · simp only [Option.some.injEq, Prod.mk.injEq] at e
    obtain ⟨rfl, _⟩ := e
    exact maybeRefreshF_inv hQ hi.cons hi.loc hi.q hi.mag hc1 hc3 hc5

theorem innerLoopF_inv {β γ : Type} {k : FHooks β γ} {p : FPar} {Q : FCfg → β → Prop} {M : Int}
    (hQ : FQOK k p Q) (hNe : 0 < p.Ne) (hNs : 0 < p.Nsite) (hb : LocBin p) (n : Nat) {st st' : FState β}
    {r r' : List Nat} (hi : FInv p Q M st) (e : innerLoopF k p n st r = some (st', r')) :
    FInv p Q M st' := by
  induction n generalizing st r with
  | zero => simp only [innerLoopF, Option.some.injEq, Prod.mk.injEq] at e; rw [← e.1]; exact hi
  | succ n ih =>
    unfold innerLoopF at e
    split at e
    · simp at e
    · rename_i st1 r1 e1
      exact ih (innerStepF_inv hQ hNe hNs hb hi e1) e

theorem outerLoopF_inv {β γ : Type} {k : FHooks β γ} {p : FPar} {Q : FCfg → β → Prop} {M : Int}
    (hQ : FQOK k p Q) (hNe : 0 < p.Ne) (hNs : 0 < p.Nsite) (hb : LocBin p)
    (nIn nOut nSample left outStep : Nat)
    {st st' : FState β} {saved saved' : List (Nat × FState β)} {r r' : List Nat} (hi : FInv p Q M st)
    (hs : ∀ x ∈ saved, FInv p Q M x.2)
    (e : outerLoopF k p nIn nOut nSample left outStep st saved r = some (st', saved', r')) :
    FInv p Q M st' ∧ (∀ x ∈ saved', FInv p Q M x.2) := by
  induction left generalizing st saved r outStep with
  | zero =>
    simp only [outerLoopF, Option.some.injEq, Prod.mk.injEq] at e
    obtain ⟨rfl, rfl, _⟩ := e; exact ⟨hi, hs⟩
  | succ n ih =>
    unfold outerLoopF at e
    split at e
    · simp at e
    · rename_i st1 r1 e1
      have hi1 := innerLoopF_inv hQ hNe hNs hb _ hi e1
      refine ih _ hi1 ?_ e
      intro x hx
      split at hx
      · rcases List.mem_cons.mp hx with rfl | hx
        · exact hi1
        · exact hs x hx
      · exact hs x hx

theorem outerLoopF_slots {β γ : Type} (k : FHooks β γ) (p : FPar) (nIn nOut nSample left : Nat)
    {st st' : FState β} {saved saved' : List (Nat × FState β)} {r r' : List Nat}
    (hle : nSample ≤ nOut) (hl : left ≤ nOut)
    (hsv : saved.map Prod.fst = (List.range ((nOut - left) - (nOut - nSample))).reverse)
    (e : outerLoopF k p nIn nOut nSample left (nOut - left) st saved r = some (st', saved', r')) :
    saved'.map Prod.fst = (List.range nSample).reverse := by
  induction left generalizing st saved r with
  | zero =>
    simp only [outerLoopF, Option.some.injEq, Prod.mk.injEq] at e
    obtain ⟨_, rfl, _⟩ := e
    rw [hsv]; congr 2; omega
  | succ n ih =>
    unfold outerLoopF at e
    split at e
    · simp at e
    · rename_i st1 r1 e1
      rw [show nOut - (n+1) + 1 = nOut - n by omega] at e
      refine ih (by omega) ?_ e
      split
      · rw [List.map_cons, hsv]
        have : nOut - n - (nOut - nSample) = (nOut - (n+1) - (nOut - nSample)) + 1 := by omega
        rw [this, List.range_succ, List.reverse_append]
        rfl
      · rw [hsv]; congr 2; omega

end MVMC
