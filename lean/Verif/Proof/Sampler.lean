import Mathlib.Tactic.Linarith
import Mathlib.Algebra.BigOperators.Group.Finset.Basic
import Mathlib.Data.Fintype.Card
import Verif.Model.Sampler
import Verif.Spec.Config

namespace MVMC
open Spec

theorem flat_inj {N s s' m m' : Nat} (hs : s < 2) (hs' : s' < 2) (hm : m < N) (hm' : m' < N) :
    m + s * N = m' + s' * N ↔ m = m' ∧ s = s' := by
  have h1 : s = 0 ∨ s = 1 := by omega
  have h2 : s' = 0 ∨ s' = 1 := by omega
  rcases h1 with rfl | rfl <;> rcases h2 with rfl | rfl <;> omega

theorem coin_lt (u : Nat) : coin u < 2 := by unfold coin; split <;> omega

/-- `Consistent` for the bundled tables -/
abbrev Cons (p : SamplerPar) (c : EleCfg) : Prop := Consistent p.Ne p.Nsite c.idx c.cfg c.num

/-- a hop that the tables support -/
structure HopOK (p : SamplerPar) (c : EleCfg) (h : Hop) : Prop where
  s : h.s < 2
  mi : h.mi < p.Ne
  ri : h.ri < p.Nsite
  rj : h.rj < p.Nsite
  at' : c.idx (h.mi + h.s * p.Ne) = h.ri
  free : c.cfg (h.rj + h.s * p.Nsite) = -1

theorem cons_back {p : SamplerPar} {c : EleCfg} (hc : Cons p c) {s mi ri : Nat} (hs : s < 2)
    (hm : mi < p.Ne) (h : c.idx (mi + s * p.Ne) = ri) :
    ri < p.Nsite ∧ c.cfg (ri + s * p.Nsite) = mi ∧ c.num (ri + s * p.Nsite) = 1 := by
  obtain ⟨r, hr, h1, h2⟩ := hc.electron s hs mi hm
  have e : r = ri := by omega
  subst e
  refine ⟨hr, h2, ?_⟩
  rcases hc.site s hs r hr with h3 | ⟨m, _, h3⟩
  · omega
  · exact h3.2.2

theorem hopOK_ne {p : SamplerPar} {c : EleCfg} (hc : Cons p c) {h : Hop} (ok : HopOK p c h) :
    h.ri ≠ h.rj := by
  intro e
  have h1 := (cons_back hc ok.s ok.mi ok.at').2.1
  have h2 := ok.free
  rw [e] at h1
  omega

theorem update_cons {p : SamplerPar} {c : EleCfg} (hc : Cons p c) {h : Hop} (ok : HopOK p c h) :
    Cons p (updateEleConfig p h c) := by
  have hne := hopOK_ne hc ok
  have hb := cons_back hc ok.s ok.mi ok.at'
  constructor
  · intro s hs mi hm
    by_cases e : s = h.s
    · subst e
      by_cases em : mi = h.mi
      · subst em
        refine ⟨h.rj, ok.rj, ?_, ?_⟩ <;> simp [updateEleConfig, Arr.set]
      · obtain ⟨r, hr, h1, h2⟩ := hc.electron h.s hs mi hm
        have hrj : r ≠ h.rj := by
          rintro rfl; have := ok.free; omega
        have hri : r ≠ h.ri := by
          rintro rfl; have := hb.2.1; omega
        refine ⟨r, hr, ?_, ?_⟩
        · simp only [updateEleConfig, Arr.set]
          rw [if_neg (by omega)]; exact h1
        · simp only [updateEleConfig, Arr.set]
          rw [if_neg (by omega), if_neg (by omega)]; exact h2
    · obtain ⟨r, hr, h1, h2⟩ := hc.electron s hs mi hm
      refine ⟨r, hr, ?_, ?_⟩
      · simp only [updateEleConfig, Arr.set]
        rw [if_neg (by rw [flat_inj hs ok.s hm ok.mi]; exact fun h => e h.2)]; exact h1
      · simp only [updateEleConfig, Arr.set]
        rw [if_neg (by rw [flat_inj hs ok.s hr ok.rj]; exact fun h => e h.2),
          if_neg (by rw [flat_inj hs ok.s hr ok.ri]; exact fun h => e h.2)]
        exact h2
  · intro s hs r hr
    by_cases e : s = h.s
    · subst e
      by_cases e1 : r = h.rj
      · subst e1
        right
        refine ⟨h.mi, ok.mi, ?_, ?_, ?_⟩ <;> simp [updateEleConfig, Arr.set]
      · by_cases e2 : r = h.ri
        · subst e2
          left
          simp only [updateEleConfig, Arr.set]
          simp [hne]
        · simp only [updateEleConfig, Arr.set]
          rw [if_neg (by omega), if_neg (by omega), if_neg (by omega), if_neg (by omega)]
          rcases hc.site h.s hs r hr with h3 | ⟨m, hm, h3⟩
          · left; exact h3
          · right
            refine ⟨m, hm, h3.1, ?_, h3.2.2⟩
            have : m ≠ h.mi := by
              rintro rfl
              have := ok.at'; omega
            rw [if_neg (by omega)]; exact h3.2.1
    · simp only [updateEleConfig, Arr.set]
      rw [if_neg (by rw [flat_inj hs ok.s hr ok.rj]; exact fun h => e h.2),
          if_neg (by rw [flat_inj hs ok.s hr ok.ri]; exact fun h => e h.2),
          if_neg (by rw [flat_inj hs ok.s hr ok.rj]; exact fun h => e h.2),
          if_neg (by rw [flat_inj hs ok.s hr ok.ri]; exact fun h => e h.2)]
      rcases hc.site s hs r hr with h3 | ⟨m, hm, h3⟩
      · left; exact h3
      · right
        refine ⟨m, hm, h3.1, ?_, h3.2.2⟩
        rw [if_neg (by rw [flat_inj hs ok.s hm ok.mi]; exact fun h => e h.2)]; exact h3.2.1

theorem revert_update {p : SamplerPar} {c : EleCfg} (hc : Cons p c) {h : Hop} (ok : HopOK p c h) :
    revertEleConfig p h (updateEleConfig p h c) = c := by
  have hne := hopOK_ne hc ok
  have hb := cons_back hc ok.s ok.mi ok.at'
  have hn : c.num (h.rj + h.s * p.Nsite) = 0 := by
    rcases hc.site h.s ok.s h.rj ok.rj with h3 | ⟨m, hm, h3⟩
    · exact h3.2
    · have := ok.free; omega
  cases c with
  | mk idx cfg num =>
  simp only [revertEleConfig, updateEleConfig, EleCfg.mk.injEq]
  simp only at hb hn
  have ha := ok.at'
  have hf := ok.free
  simp only at ha hf
  refine ⟨?_, ?_, ?_⟩ <;> funext k <;> simp only [Arr.set]
  · by_cases e : k = h.mi + h.s * p.Ne
    · rw [if_pos e, e, ha]
    · rw [if_neg e, if_neg e]
  · by_cases e : k = h.rj + h.s * p.Nsite
    · rw [if_pos e, e, hf]
    · by_cases e2 : k = h.ri + h.s * p.Nsite
      · rw [if_neg e, if_pos e2, e2, hb.2.1]
      · rw [if_neg e, if_neg e2, if_neg e, if_neg e2]
  · by_cases e : k = h.rj + h.s * p.Nsite
    · rw [if_pos e, e, hn]
    · by_cases e2 : k = h.ri + h.s * p.Nsite
      · rw [if_neg e, if_pos e2, e2, hb.2.2]
      · rw [if_neg e, if_neg e2, if_neg e, if_neg e2]

/-! ### candidates -/

theorem pickItinerant_ok {p : SamplerPar} {c : EleCfg} (hc : Cons p c) (hNe : 0 < p.Ne)
    (r : List Nat) {mi ri s : Nat} {r' : List Nat} (h : pickItinerant p c r = some ((mi, ri, s), r')) :
    s < 2 ∧ mi < p.Ne ∧ ri < p.Nsite ∧ c.idx (mi + s * p.Ne) = ri ∧ p.locSpn ri ≠ 1 := by
  fun_induction pickItinerant p c r with
  | case1 u v r mi' s' ri' hl ih => exact ih h
  | case2 u v r mi' s' ri' hl =>
    simp only [Option.some.injEq, Prod.mk.injEq] at h
    obtain ⟨⟨rfl, rfl, rfl⟩, _⟩ := h
    have hm : mi' < p.Ne := Nat.mod_lt _ hNe
    obtain ⟨q, hq, h1, _⟩ := hc.electron s' (coin_lt v) mi' hm
    have e : ri' = q := by simp only [ri', h1, Int.toNat_natCast]
    exact ⟨coin_lt v, hm, by omega, by rw [h1, e], hl⟩
  | case3 => simp at h

theorem pickTarget_ok {p : SamplerPar} {c : EleCfg} (hNs : 0 < p.Nsite) (s icnt : Nat)
    (r : List Nat) {rj : Nat} {r' : List Nat} (h : pickTarget p c s icnt r = some ((rj, false), r')) :
    rj < p.Nsite ∧ c.cfg (rj + s * p.Nsite) = -1 ∧ p.locSpn rj ≠ 1 := by
  fun_induction pickTarget p c s icnt r with
  | case1 => simp at h
  | case2 => simp at h
  | case3 icnt u r rj' h1 h2 ih => exact ih h
  | case4 icnt u r rj' h1 h2 =>
    simp only [Option.some.injEq, Prod.mk.injEq] at h
    obtain ⟨⟨rfl, _⟩, _⟩ := h
    rw [not_or, not_not] at h2
    exact ⟨Nat.mod_lt _ hNs, h2⟩

theorem hopping_ok {p : SamplerPar} {c : EleCfg} (hc : Cons p c) (hNe : 0 < p.Ne) (hNs : 0 < p.Nsite)
    (r : List Nat) {h : Hop} {r' : List Nat}
    (e : makeCandidateHopping p c r = some ((h, false), r')) :
    HopOK p c h ∧ p.locSpn h.ri ≠ 1 ∧ p.locSpn h.rj ≠ 1 := by
  unfold makeCandidateHopping at e
  split at e
  · simp at e
  · rename_i mi ri s r1 e1
    split at e
    · simp at e
    · rename_i rj flag r2 e2
      simp only [Option.some.injEq, Prod.mk.injEq] at e
      obtain ⟨⟨rfl, rfl⟩, _⟩ := e
      have h1 := pickItinerant_ok hc hNe r e1
      have h2 := pickTarget_ok hNs s 0 r1 e2
      exact ⟨⟨h1.1, h1.2.1, h1.2.2.1, h2.1, h1.2.2.2.1, h2.2.1⟩, h1.2.2.2.2, h2.2.2⟩

theorem pickSingleAny_ok {p : SamplerPar} {c : EleCfg} (hc : Cons p c) (hNe : 0 < p.Ne)
    (r : List Nat) {mi ri s : Nat} {r' : List Nat} (h : pickSingleAny p c r = some ((mi, ri, s), r')) :
    s < 2 ∧ mi < p.Ne ∧ ri < p.Nsite ∧ c.idx (mi + s * p.Ne) = ri ∧
      c.cfg (ri + (1 - s) * p.Nsite) = -1 := by
  fun_induction pickSingleAny p c r with
  | case1 u v r mi' s' ri' hl ih => exact ih h
  | case2 u v r mi' s' ri' hl =>
    simp only [Option.some.injEq, Prod.mk.injEq] at h
    obtain ⟨⟨rfl, rfl, rfl⟩, _⟩ := h
    have hm : mi' < p.Ne := Nat.mod_lt _ hNe
    obtain ⟨q, hq, h1, _⟩ := hc.electron s' (coin_lt v) mi' hm
    have e : ri' = q := by simp only [ri', h1, Int.toNat_natCast]
    exact ⟨coin_lt v, hm, by omega, by rw [h1, e], by simpa using hl⟩
  | case3 => simp at h

theorem pickSingleSpin_ok {p : SamplerPar} {c : EleCfg} (hc : Cons p c) (hNe : 0 < p.Ne) {t : Nat}
    (ht : t < 2) (r : List Nat) {mj rj : Nat} {r' : List Nat}
    (h : pickSingleSpin p c t r = some ((mj, rj), r')) :
    mj < p.Ne ∧ rj < p.Nsite ∧ c.idx (mj + t * p.Ne) = rj ∧
      c.cfg (rj + (1 - t) * p.Nsite) = -1 := by
  fun_induction pickSingleSpin p c t r with
  | case1 u r mi' ri' hl ih => exact ih h
  | case2 u r mi' ri' hl =>
    simp only [Option.some.injEq, Prod.mk.injEq] at h
    obtain ⟨⟨rfl, rfl⟩, _⟩ := h
    have hm : mi' < p.Ne := Nat.mod_lt _ hNe
    obtain ⟨q, hq, h1, _⟩ := hc.electron t ht mi' hm
    have e : ri' = q := by simp only [ri', h1, Int.toNat_natCast]
    exact ⟨hm, by omega, by rw [h1, e], by simpa using hl⟩
  | case3 => simp at h

theorem exchange_ok {p : SamplerPar} {c : EleCfg} (hc : Cons p c) (hNe : 0 < p.Ne)
    (r : List Nat) {h : Hop} {r' : List Nat}
    (e : makeCandidateExchange p c r = some (some h, r')) :
    HopOK p c h ∧ HopOK p (updateEleConfig p h c) (partnerHop p c h) ∧
      (partnerHop p c h).ri = h.rj ∧ (partnerHop p c h).rj = h.ri ∧ (partnerHop p c h).s = 1 - h.s ∧
      c.idx ((partnerHop p c h).mi + (1 - h.s) * p.Ne) = h.rj ∧ (partnerHop p c h).mi < p.Ne ∧
      c.cfg (h.ri + (1 - h.s) * p.Nsite) = -1 := by
  unfold makeCandidateExchange at e
  split at e
  · split at e
    · simp at e
    · rename_i mi ri s r1 e1
      split at e
      · simp at e
      · rename_i mj rj r2 e2
        simp only [Option.some.injEq, Prod.mk.injEq] at e
        obtain ⟨rfl, _⟩ := e
        have h1 := pickSingleAny_ok hc hNe r e1
        obtain ⟨hs, hm, hr, hidx, hemp⟩ := h1
        have h2 := pickSingleSpin_ok hc hNe (t := 1 - s) (by omega) r1 e2
        obtain ⟨hmj, hrj, hidj, hempj⟩ := h2
        rw [show 1 - (1 - s) = s by omega] at hempj
        have ok : HopOK p c ⟨mi, ri, rj, s⟩ := ⟨hs, hm, hr, hrj, hidx, hempj⟩
        have hbj := cons_back hc (by omega : 1 - s < 2) hmj hidj
        have hne : ri ≠ rj := hopOK_ne hc ok
        have hmj' : (c.cfg (rj + (1 - s) * p.Nsite)).toNat = mj := by rw [hbj.2.1]; simp
        refine ⟨ok, ?_, rfl, rfl, rfl, ?_, ?_, hemp⟩
        · refine ⟨by simp only [partnerHop]; omega, ?_, hrj, hr, ?_, ?_⟩
          · simp only [partnerHop, hmj']; exact hmj
          · simp only [partnerHop, hmj', updateEleConfig, Arr.set]
            rw [if_neg (by rw [flat_inj (by omega) hs hmj hm]; omega)]
            exact hidj
          · simp only [partnerHop, updateEleConfig, Arr.set]
            rw [if_neg (by rw [flat_inj (by omega) hs hr hrj]; omega),
              if_neg (by rw [flat_inj (by omega) hs hr hr]; omega)]
            exact hemp
        · simp only [partnerHop, hmj']; exact hidj
        · simp only [partnerHop, hmj']; exact hmj
  · simp at e

/-! ### local spins -/

theorem hop_local {p : SamplerPar} {c : EleCfg} {h : Hop} (ok : HopOK p c h)
    (h1 : p.locSpn h.ri ≠ 1) (h2 : p.locSpn h.rj ≠ 1) (hl : LocalSingle p.Nsite p.locSpn c.num) :
    LocalSingle p.Nsite p.locSpn (updateEleConfig p h c).num := by
  intro r hr hloc
  have hri : r ≠ h.ri := by rintro rfl; exact h1 hloc
  have hrj : r ≠ h.rj := by rintro rfl; exact h2 hloc
  have e0 : ∀ q, q < p.Nsite → r ≠ q → r ≠ q + h.s * p.Nsite := by
    intro q hq hne
    have := flat_inj (N := p.Nsite) (s := 0) (s' := h.s) (m := r) (m' := q) (by omega) ok.s hr hq
    simp only [Nat.zero_mul, Nat.add_zero] at this
    rw [Ne, this]; exact fun h => hne h.1
  have e1 : ∀ q, q < p.Nsite → r ≠ q → r + p.Nsite ≠ q + h.s * p.Nsite := by
    intro q hq hne
    have := flat_inj (N := p.Nsite) (s := 1) (s' := h.s) (m := r) (m' := q) (by omega) ok.s hr hq
    simp only [Nat.one_mul] at this
    rw [Ne, this]; exact fun h => hne h.1
  simp only [updateEleConfig, Arr.set]
  rw [if_neg (e0 _ ok.rj hrj), if_neg (e0 _ ok.ri hri), if_neg (e1 _ ok.rj hrj), if_neg (e1 _ ok.ri hri)]
  exact hl r hr hloc

/-- the occupation table after an exchange -/
theorem exch_num {p : SamplerPar} {c : EleCfg} {h h2 : Hop} (ok : HopOK p c h)
    (e1 : h2.ri = h.rj) (e2 : h2.rj = h.ri) (e3 : h2.s = 1 - h.s) (hne : h.ri ≠ h.rj)
    (r t : Nat) (hr : r < p.Nsite) (ht : t < 2) :
    (updateEleConfig p h2 (updateEleConfig p h c)).num (r + t * p.Nsite) =
      if r = h.ri then (if t = h.s then 0 else 1)
      else if r = h.rj then (if t = h.s then 1 else 0)
      else c.num (r + t * p.Nsite) := by
  have hs := ok.s
  simp only [updateEleConfig, Arr.set, e1, e2, e3]
  simp only [flat_inj ht (show 1 - h.s < 2 by omega) hr ok.ri, flat_inj ht (show 1 - h.s < 2 by omega) hr ok.rj,
    flat_inj ht hs hr ok.ri, flat_inj ht hs hr ok.rj]
  by_cases a : r = h.ri
  · have b : r ≠ h.rj := by omega
    by_cases d : t = h.s
    · simp only [a, hne, d, if_true, if_false, true_and, false_and]
      rw [if_neg (by omega)]
    · have : t = 1 - h.s := by omega
      have hx : ¬ (1 - h.s = h.s) := by omega
      simp [a, this, hx]
  · by_cases b : r = h.rj
    · by_cases d : t = h.s
      · have : ¬ (t = 1 - h.s) := by omega
        simp only [b, d, if_true, if_false, true_and, false_and, Ne.symm hne]
        rw [if_neg (by omega)]
      · have : t = 1 - h.s := by omega
        have hx : ¬ (1 - h.s = h.s) := by omega
        simp [b, Ne.symm hne, this, hx]
    · simp [a, b]

theorem exch_local {p : SamplerPar} {c : EleCfg} {h h2 : Hop} (ok : HopOK p c h)
    (e1 : h2.ri = h.rj) (e2 : h2.rj = h.ri) (e3 : h2.s = 1 - h.s) (hne : h.ri ≠ h.rj)
    (hl : LocalSingle p.Nsite p.locSpn c.num) :
    LocalSingle p.Nsite p.locSpn (updateEleConfig p h2 (updateEleConfig p h c)).num := by
  intro r hr hloc
  have a := exch_num ok e1 e2 e3 hne r 0 hr (by omega)
  have b := exch_num ok e1 e2 e3 hne r 1 hr (by omega)
  simp only [Nat.zero_mul, Nat.add_zero, Nat.one_mul] at a b
  rw [a, b]
  have hs := ok.s
  have := hl r hr hloc
  by_cases x : r = h.ri
  · simp only [x, if_true]
    rcases (show h.s = 0 ∨ h.s = 1 by omega) with q | q <;> simp [q]
  · by_cases y : r = h.rj
    · simp only [y, if_true, Ne.symm hne, if_false]
      rcases (show h.s = 0 ∨ h.s = 1 by omega) with q | q <;> simp [q]
    · simp only [x, y, if_false]; exact this

/-! ### one step, any payload -/

/-- what a payload invariant `Q` has to satisfy -/
structure QOK {β γ : Type} (k : Hooks β γ) (p : SamplerPar) (Q : EleCfg → β → Prop) : Prop where
  hop : ∀ c h b u, Cons p c → HopOK p c h → Q c b →
    k.accept b (k.propHop (updateEleConfig p h c) h b) u = true →
    Q (updateEleConfig p h c)
      (k.commitHop (updateEleConfig p h c) h b (k.propHop (updateEleConfig p h c) h b))
  exch : ∀ c h h2 b u, Cons p c → HopOK p c h → HopOK p (updateEleConfig p h c) h2 →
    h2.ri = h.rj → h2.rj = h.ri → h2.s = 1 - h.s → Q c b →
    k.accept b (k.propExch (updateEleConfig p h c) (updateEleConfig p h2 (updateEleConfig p h c)) h h2 b) u = true →
    Q (updateEleConfig p h2 (updateEleConfig p h c))
      (k.commitExch (updateEleConfig p h2 (updateEleConfig p h c)) h h2 b
        (k.propExch (updateEleConfig p h c) (updateEleConfig p h2 (updateEleConfig p h c)) h h2 b))
  refresh : ∀ c b, Cons p c → Q c b → Q c (k.refresh c b)

/-- the sampler invariant -/
structure SInv {β : Type} (p : SamplerPar) (Q : EleCfg → β → Prop) (st : SState β) : Prop where
  cons : Cons p st.c
  loc : LocalSingle p.Nsite p.locSpn st.c.num
  q : Q st.c st.b
  na : st.nAccept ≤ p.Nsite
  cHop : st.hopAcc ≤ st.hopTry
  cEx : st.exAcc ≤ st.exTry

theorem maybeRefresh_inv {β γ : Type} {k : Hooks β γ} {p : SamplerPar} {Q : EleCfg → β → Prop}
    (hQ : QOK k p Q) {st : SState β} (h1 : Cons p st.c) (h2 : LocalSingle p.Nsite p.locSpn st.c.num)
    (h3 : Q st.c st.b) (h4 : st.hopAcc ≤ st.hopTry) (h5 : st.exAcc ≤ st.exTry) :
    SInv p Q (maybeRefresh k p st) := by
  unfold maybeRefresh
  split
  · exact ⟨h1, h2, hQ.refresh _ _ h1 h3, Nat.zero_le _, h4, h5⟩
  · exact ⟨h1, h2, h3, by omega, h4, h5⟩

theorem innerStep_inv {β γ : Type} {k : Hooks β γ} {p : SamplerPar} {Q : EleCfg → β → Prop}
    (hQ : QOK k p Q) (hNe : 0 < p.Ne) (hNs : 0 < p.Nsite) {st st' : SState β} {r r' : List Nat}
    (hi : SInv p Q st) (e : innerStep k p st r = some (st', r')) : SInv p Q st' := by
  unfold innerStep at e
  split at e
  · simp at e
  · -- hopping
    simp only at e
    split at e
    · simp at e
    · simp only [Option.some.injEq, Prod.mk.injEq] at e
      obtain ⟨rfl, _⟩ := e
      exact ⟨hi.cons, hi.loc, hi.q, hi.na, Nat.le_succ_of_le hi.cHop, hi.cEx⟩
    · rename_i h r1 ec
      have ⟨ok, l1, l2⟩ := hopping_ok hi.cons hNe hNs _ ec
      split at e
      · simp at e
      · split at e
        · rename_i hacc
          simp only [Option.some.injEq, Prod.mk.injEq] at e
          obtain ⟨rfl, _⟩ := e
          apply maybeRefresh_inv hQ
          · exact update_cons hi.cons ok
          · exact hop_local ok l1 l2 hi.loc
          · exact hQ.hop _ _ _ _ hi.cons ok hi.q hacc
          · exact Nat.succ_le_succ hi.cHop
          · exact hi.cEx
        · simp only [Option.some.injEq, Prod.mk.injEq] at e
          obtain ⟨rfl, _⟩ := e
          rw [revert_update hi.cons ok]
          exact maybeRefresh_inv hQ hi.cons hi.loc hi.q (Nat.le_succ_of_le hi.cHop) hi.cEx
  · -- exchange
    simp only at e
    split at e
    · simp at e
    · simp only [Option.some.injEq, Prod.mk.injEq] at e
      obtain ⟨rfl, _⟩ := e
      exact ⟨hi.cons, hi.loc, hi.q, hi.na, hi.cHop, Nat.le_succ_of_le hi.cEx⟩
    · rename_i h r1 ec
      have ⟨ok, ok2, q1, q2, q3, _⟩ := exchange_ok hi.cons hNe _ ec
      split at e
      · simp at e
      · split at e
        · rename_i hacc
          simp only [Option.some.injEq, Prod.mk.injEq] at e
          obtain ⟨rfl, _⟩ := e
          apply maybeRefresh_inv hQ
          · exact update_cons (update_cons hi.cons ok) ok2
          · exact exch_local ok q1 q2 q3 (hopOK_ne hi.cons ok) hi.loc
          · exact hQ.exch _ _ _ _ _ hi.cons ok ok2 q1 q2 q3 hi.q hacc
          · exact hi.cHop
          · exact Nat.succ_le_succ hi.cEx
        · simp only [Option.some.injEq, Prod.mk.injEq] at e
          obtain ⟨rfl, _⟩ := e
          rw [revert_update (update_cons hi.cons ok) ok2, revert_update hi.cons ok]
          exact maybeRefresh_inv hQ hi.cons hi.loc hi.q hi.cHop (Nat.le_succ_of_le hi.cEx)
  · simp only [Option.some.injEq, Prod.mk.injEq] at e
    obtain ⟨rfl, _⟩ := e
    exact maybeRefresh_inv hQ hi.cons hi.loc hi.q hi.cHop hi.cEx

theorem innerLoop_inv {β γ : Type} {k : Hooks β γ} {p : SamplerPar} {Q : EleCfg → β → Prop}
    (hQ : QOK k p Q) (hNe : 0 < p.Ne) (hNs : 0 < p.Nsite) (n : Nat) {st st' : SState β}
    {r r' : List Nat} (hi : SInv p Q st) (e : innerLoop k p n st r = some (st', r')) : SInv p Q st' := by
  induction n generalizing st r with
  | zero => simp only [innerLoop, Option.some.injEq, Prod.mk.injEq] at e; rw [← e.1]; exact hi
  | succ n ih =>
    unfold innerLoop at e
    split at e
    · simp at e
    · rename_i st1 r1 e1
      exact ih (innerStep_inv hQ hNe hNs hi e1) e

/-- the slots written by `outerLoop` -/
theorem outerLoop_inv {β γ : Type} {k : Hooks β γ} {p : SamplerPar} {Q : EleCfg → β → Prop}
    (hQ : QOK k p Q) (hNe : 0 < p.Ne) (hNs : 0 < p.Nsite) (nIn nOut nSample left outStep : Nat)
    {st st' : SState β} {saved saved' : List (Nat × SState β)} {r r' : List Nat} (hi : SInv p Q st)
    (hs : ∀ x ∈ saved, SInv p Q x.2)
    (e : outerLoop k p nIn nOut nSample left outStep st saved r = some (st', saved', r')) :
    SInv p Q st' ∧ (∀ x ∈ saved', SInv p Q x.2) := by
  induction left generalizing st saved r outStep with
  | zero =>
    simp only [outerLoop, Option.some.injEq, Prod.mk.injEq] at e
    obtain ⟨rfl, rfl, _⟩ := e; exact ⟨hi, hs⟩
  | succ n ih =>
    unfold outerLoop at e
    split at e
    · simp at e
    · rename_i st1 r1 e1
      have hi1 := innerLoop_inv hQ hNe hNs _ hi e1
      refine ih _ hi1 ?_ e
      intro x hx
      split at hx
      · rcases List.mem_cons.mp hx with rfl | hx
        · exact hi1
        · exact hs x hx
      · exact hs x hx

theorem outerLoop_slots {β γ : Type} (k : Hooks β γ) (p : SamplerPar) (nIn nOut nSample left : Nat)
    {st st' : SState β} {saved saved' : List (Nat × SState β)} {r r' : List Nat}
    (hle : nSample ≤ nOut) (hl : left ≤ nOut)
    (hsv : saved.map Prod.fst = (List.range ((nOut - left) - (nOut - nSample))).reverse)
    (e : outerLoop k p nIn nOut nSample left (nOut - left) st saved r = some (st', saved', r')) :
    saved'.map Prod.fst = (List.range nSample).reverse := by
  induction left generalizing st saved r with
  | zero =>
    simp only [outerLoop, Option.some.injEq, Prod.mk.injEq] at e
    obtain ⟨_, rfl, _⟩ := e
    rw [hsv]; congr 2; omega
  | succ n ih =>
    unfold outerLoop at e
    split at e
    · simp at e
    · rename_i st1 r1 e1
      rw [show nOut - (n+1) + 1 = nOut - n by omega] at e
      refine ih (by omega) ?_ e
      split
      · rw [List.map_cons, hsv]
        have : nOut - n - (nOut - nSample) = (nOut - (n+1) - (nOut - nSample)) + 1 := by omega
        rw [this, List.range_succ, List.reverse_append]
        rfl
      · rw [hsv]; congr 2; omega

end MVMC
