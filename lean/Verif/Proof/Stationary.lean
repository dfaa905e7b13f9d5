import Verif.Props.Balance

/-! # Streams of a whole sampler step (fixed Sz) -/
namespace MVMC
open Spec

/-- hooks that accept every proposal -/
def acceptEvery : Hooks Unit Unit where
  propHop := fun _ _ _ => ()
  propExch := fun _ _ _ _ _ => ()
  accept := fun _ _ _ => true
  commitHop := fun _ _ _ _ => ()
  commitExch := fun _ _ _ _ _ => ()
  refresh := fun _ _ => ()

/-- the state of the sampler at the tables `c` -/
def startAt (c : EleCfg) : SState Unit := ⟨c, (), 0, 0, 0, 0, 0⟩

theorem pickTarget_split {p : SamplerPar} {c : EleCfg} {s : Nat} (icnt : Nat) (r : List Nat) {x : Nat × Bool} {r1 : List Nat}
    (h : pickTarget p c s icnt r = some (x, r1)) : ∃ pre, r = pre ++ r1 ∧ ∀ tl, pickTarget p c s icnt (pre ++ tl) = some (x, tl) := by
  induction r generalizing icnt with
  | nil => simp [pickTarget] at h
  | cons u r ih =>
    rw [pickTarget] at h
    by_cases h1 : icnt > p.Nsite * p.Nsite
    · rw [if_pos h1] at h
      simp only [Option.some.injEq, Prod.mk.injEq] at h
      obtain ⟨rfl, rfl⟩ := h
      exact ⟨[u], rfl, fun tl => by rw [List.singleton_append, pickTarget, if_pos h1]⟩
    · rw [if_neg h1] at h
      by_cases h2 : c.cfg (u % p.Nsite + s * p.Nsite) ≠ -1 ∨ p.locSpn (u % p.Nsite) = 1
      · rw [if_pos h2] at h
        obtain ⟨pre, e, hp⟩ := ih _ h
        exact ⟨u :: pre, by rw [e]; rfl, fun tl => by rw [List.cons_append, pickTarget, if_neg h1, if_pos h2]; exact hp tl⟩
      · rw [if_neg h2] at h
        simp only [Option.some.injEq, Prod.mk.injEq] at h
        obtain ⟨rfl, rfl⟩ := h
        exact ⟨[u], rfl, fun tl => by rw [List.singleton_append, pickTarget, if_neg h1, if_neg h2]⟩

theorem hopping_split {p : SamplerPar} {c : EleCfg} (r : List Nat) {x : Hop × Bool} {r1 : List Nat}
    (h : makeCandidateHopping p c r = some (x, r1)) : ∃ pre, r = pre ++ r1 ∧ ∀ tl, makeCandidateHopping p c (pre ++ tl) = some (x, tl) := by
  unfold makeCandidateHopping at h
  split at h
  · simp at h
  · rename_i mi ri s r2 e1
    split at h
    · simp at h
    · rename_i rj flag r3 e2
      simp only [Option.some.injEq, Prod.mk.injEq] at h
      obtain ⟨rfl, rfl⟩ := h
      obtain ⟨pre1, rfl, hp1⟩ := pickItinerant_split r e1
      obtain ⟨pre2, rfl, hp2⟩ := pickTarget_split 0 r2 e2
      refine ⟨pre1 ++ pre2, by rw [List.append_assoc], fun tl => ?_⟩
      unfold makeCandidateHopping
      rw [List.append_assoc, hp1 (pre2 ++ tl)]
      simp only [hp2 tl]

theorem pickSingleAny_split {p : SamplerPar} {c : EleCfg} (r : List Nat) {x : Nat × Nat × Nat} {r1 : List Nat}
    (h : pickSingleAny p c r = some (x, r1)) : ∃ pre, r = pre ++ r1 ∧ ∀ tl, pickSingleAny p c (pre ++ tl) = some (x, tl) := by
  fun_induction pickSingleAny p c r with
  | case1 u v r mi' s' ri' hl ih =>
    obtain ⟨pre, e, hp⟩ := ih h
    refine ⟨u :: v :: pre, by rw [e]; rfl, fun tl => ?_⟩
    rw [List.cons_append, List.cons_append, pickSingleAny]
    exact (if_pos hl).trans (hp tl)
  | case2 u v r mi' s' ri' hl =>
    simp only [Option.some.injEq, Prod.mk.injEq] at h
    obtain ⟨rfl, rfl⟩ := h
    refine ⟨[u, v], rfl, fun tl => ?_⟩
    rw [List.cons_append, List.cons_append, pickSingleAny]
    exact if_neg hl
  | case3 => simp at h

theorem pickSingleSpin_split {p : SamplerPar} {c : EleCfg} {t : Nat} (r : List Nat) {x : Nat × Nat} {r1 : List Nat}
    (h : pickSingleSpin p c t r = some (x, r1)) : ∃ pre, r = pre ++ r1 ∧ ∀ tl, pickSingleSpin p c t (pre ++ tl) = some (x, tl) := by
  fun_induction pickSingleSpin p c t r with
  | case1 u r mi' ri' hl ih =>
    obtain ⟨pre, e, hp⟩ := ih h
    refine ⟨u :: pre, by rw [e]; rfl, fun tl => ?_⟩
    rw [List.cons_append, pickSingleSpin]
    exact (if_pos hl).trans (hp tl)
  | case2 u r mi' ri' hl =>
    simp only [Option.some.injEq, Prod.mk.injEq] at h
    obtain ⟨rfl, rfl⟩ := h
    refine ⟨[u], rfl, fun tl => ?_⟩
    rw [List.cons_append, pickSingleSpin]
    exact if_neg hl
  | case3 => simp at h

theorem exchange_split {p : SamplerPar} {c : EleCfg} (r : List Nat) {x : Option Hop} {r1 : List Nat}
    (h : makeCandidateExchange p c r = some (x, r1)) : ∃ pre, r = pre ++ r1 ∧ ∀ tl, makeCandidateExchange p c (pre ++ tl) = some (x, tl) := by
  unfold makeCandidateExchange at h
  by_cases hs : hasSingle p c = true
  · rw [if_pos hs] at h
    split at h
    · simp at h
    · rename_i mi ri s r2 e1
      split at h
      · simp at h
      · rename_i mj rj r3 e2
        simp only [Option.some.injEq, Prod.mk.injEq] at h
        obtain ⟨rfl, rfl⟩ := h
        obtain ⟨pre1, rfl, hp1⟩ := pickSingleAny_split r e1
        obtain ⟨pre2, rfl, hp2⟩ := pickSingleSpin_split r2 e2
        refine ⟨pre1 ++ pre2, by rw [List.append_assoc], fun tl => ?_⟩
        unfold makeCandidateExchange
        rw [if_pos hs, List.append_assoc, hp1 (pre2 ++ tl)]
        simp only [hp2 tl]
  · rw [if_neg hs] at h
    simp only [Option.some.injEq, Prod.mk.injEq] at h
    obtain ⟨rfl, rfl⟩ := h
    refine ⟨[], rfl, fun tl => ?_⟩
    unfold makeCandidateExchange
    rw [if_neg hs]
    rfl

theorem updateType_split (path : Int) (g : Bool) (z : Int) (r : List Nat) {t : UpdateType} {r1 : List Nat}
    (h : getUpdateType path g z r = some (t, r1)) : ∃ pre, r = pre ++ r1 ∧ ∀ tl, getUpdateType path g z (pre ++ tl) = some (t, tl) := by
  by_cases h0 : path = 0
  · simp only [getUpdateType, if_pos h0, Option.some.injEq, Prod.mk.injEq] at h
    obtain ⟨rfl, rfl⟩ := h
    exact ⟨[], rfl, fun tl => by simp [getUpdateType, h0]⟩
  by_cases h1 : path = 1
  · subst h1
    cases r with
    | nil => simp [getUpdateType] at h
    | cons u r =>
      simp [getUpdateType] at h
      obtain ⟨rfl, rfl⟩ := h
      exact ⟨[u], rfl, fun tl => by simp [getUpdateType]⟩
  by_cases h2 : path = 2
  · subst h2
    by_cases hg : g = false
    · simp [getUpdateType, hg] at h
      obtain ⟨rfl, rfl⟩ := h
      exact ⟨[], rfl, fun tl => by simp [getUpdateType, hg]⟩
    · by_cases hz : z = -1
      · cases r with
        | nil => simp [getUpdateType, hg, hz] at h
        | cons u r =>
          simp [getUpdateType, hg, hz] at h
          obtain ⟨rfl, rfl⟩ := h
          exact ⟨[u], rfl, fun tl => by simp [getUpdateType, hg, hz]⟩
      · simp [getUpdateType, hg, hz] at h
        obtain ⟨rfl, rfl⟩ := h
        exact ⟨[], rfl, fun tl => by simp [getUpdateType, hg, hz]⟩
  by_cases h3 : path = 3
  · subst h3
    cases r with
    | nil => simp [getUpdateType] at h
    | cons u r =>
      by_cases hu : coin u = 0
      · simp [getUpdateType, hu] at h
        obtain ⟨rfl, rfl⟩ := h
        exact ⟨[u], rfl, fun tl => by simp [getUpdateType, hu]⟩
      · cases r with
        | nil => simp [getUpdateType, hu] at h
        | cons v r =>
          simp [getUpdateType, hu] at h
          obtain ⟨rfl, rfl⟩ := h
          exact ⟨[u, v], rfl, fun tl => by simp [getUpdateType, hu]⟩
  · simp [getUpdateType, h0, h1, h2, h3] at h
    obtain ⟨rfl, rfl⟩ := h
    exact ⟨[], rfl, fun tl => by simp [getUpdateType, h0, h1, h2, h3]⟩

/-- what a stream does -/
inductive StreamMove (p : SamplerPar) (c c' : EleCfg) (r : List Nat) : Prop
  | hop (pre r1 : List Nat) (h : Hop) (e : r = pre ++ r1) (ht : ∀ tl, getUpdateType p.exPath false 0 (pre ++ tl) = some (.hopping, tl))
      (hm : ∀ tl, makeCandidateHopping p c (r1 ++ tl) = some ((h, false), tl)) (hc' : c' = updateEleConfig p h c)
  | exch (pre r1 : List Nat) (h : Hop) (e : r = pre ++ r1) (ht : ∀ tl, getUpdateType p.exPath false 0 (pre ++ tl) = some (.exchange, tl))
      (hm : ∀ tl, makeCandidateExchange p c (r1 ++ tl) = some (some h, tl)) (hc' : c' = exchCfg p c h)

theorem mr_c {β γ : Type} (k : Hooks β γ) (p : SamplerPar) (s : SState β) : (maybeRefresh k p s).c = s.c := by
  unfold maybeRefresh; split <;> rfl

/-- one step: the candidate `n` satisfies whatever holds of the candidates of a hop and of an exchange -/
theorem streamMove_stepP {β γ : Type} (k : Hooks β γ) {p : SamplerPar} {c c' : EleCfg} (hc : Cons p c) (hNe : 0 < p.Ne) (hNs : 0 < p.Nsite)
    {r : List Nat} (h : StreamMove p c c' r) (st : SState β) (hst : st.c = c) (u : Nat) (tl : List Nat) {P : γ → Prop}
    (hop : ∀ h, HopOK p c h → c' = updateEleConfig p h c → P (k.propHop (updateEleConfig p h c) h st.b))
    (exch : ∀ h, HopOK p c h → HopOK p (updateEleConfig p h c) (partnerHop p c h) → c' = exchCfg p c h →
      P (k.propExch (updateEleConfig p h c) (exchCfg p c h) h (partnerHop p c h) st.b)) :
    ∃ (st' : SState β) (g : γ), P g ∧ innerStep k p st (r ++ u :: tl) = some (st', tl) ∧ st'.c = if k.accept st.b g u then c' else c := by
  subst hst
  cases h with
  | hop pre r1 h e ht hm hc' =>
    subst e hc'
    obtain ⟨ok, _, _⟩ := hopping_ok hc hNe hNs _ (hm [])
    unfold innerStep
    rw [List.append_assoc, ht]
    simp only [hm]
    by_cases ha : k.accept st.b (k.propHop (updateEleConfig p h st.c) h st.b) u = true
    · rw [if_pos ha]
      exact ⟨_, _, hop h ok rfl, rfl, by rw [mr_c, if_pos ha]⟩
    · rw [if_neg ha]
      exact ⟨_, _, hop h ok rfl, rfl, by rw [mr_c, if_neg ha]; exact revert_update hc ok⟩
  | exch pre r1 h e ht hm hc' =>
    subst e hc'
    obtain ⟨ok, ok2, _⟩ := exchange_ok hc hNe _ (hm [])
    unfold innerStep
    rw [List.append_assoc, ht]
    simp only [hm]
    by_cases ha : k.accept st.b (k.propExch (updateEleConfig p h st.c) (exchCfg p st.c h) h (partnerHop p st.c h) st.b) u = true
    · refine ⟨_, k.propExch (updateEleConfig p h st.c) (exchCfg p st.c h) h (partnerHop p st.c h) st.b, exch h ok ok2 rfl, if_pos ha, ?_⟩
      rw [mr_c, if_pos ha]
      rfl
    · refine ⟨_, k.propExch (updateEleConfig p h st.c) (exchCfg p st.c h) h (partnerHop p st.c h) st.b, exch h ok ok2 rfl, if_neg ha, ?_⟩
      rw [mr_c, if_neg ha]
      show revertEleConfig p h (revertEleConfig p (partnerHop p st.c h) (updateEleConfig p (partnerHop p st.c h) (updateEleConfig p h st.c))) = st.c
      rw [revert_update (update_cons hc ok) ok2, revert_update hc ok]

theorem streamMove_step {β γ : Type} (k : Hooks β γ) {p : SamplerPar} {c c' : EleCfg} (hc : Cons p c) (hNe : 0 < p.Ne) (hNs : 0 < p.Nsite)
    {r : List Nat} (h : StreamMove p c c' r) (st : SState β) (hst : st.c = c) (u : Nat) (tl : List Nat) :
    ∃ (st' : SState β) (g : γ), innerStep k p st (r ++ u :: tl) = some (st', tl) ∧ st'.c = if k.accept st.b g u then c' else c := by
  obtain ⟨st', g, _, h1⟩ := streamMove_stepP k hc hNe hNs h st hst u tl (P := fun _ => True) (fun _ _ _ => trivial) (fun _ _ _ _ => trivial)
  exact ⟨st', g, h1⟩

theorem append_right_cancel' {a b : List Nat} {u : Nat} (h : a ++ [u] = b ++ [u]) : a = b := List.append_cancel_right h

theorem streamMove_of {p : SamplerPar} {c c' : EleCfg} {r : List Nat} {st' : SState Unit} (hne : c' ≠ c)
    (h : innerStep acceptEvery p (startAt c) (r ++ [0]) = some (st', [])) (hc' : st'.c = c') : StreamMove p c c' r := by
  unfold innerStep at h
  cases ht : getUpdateType p.exPath false 0 (r ++ [0]) with
  | none => rw [ht] at h; simp at h
  | some y =>
    obtain ⟨t, r0⟩ := y
    rw [ht] at h
    obtain ⟨pre, e, hp⟩ := updateType_split _ _ _ _ ht
    cases t with
    | hopping =>
      simp only [startAt] at h
      cases hm : makeCandidateHopping p c r0 with
      | none => rw [hm] at h; simp at h
      | some z =>
        obtain ⟨⟨hh, fl⟩, r2⟩ := z
        rw [hm] at h
        cases fl with
        | true =>
          simp only [Option.some.injEq, Prod.mk.injEq] at h
          exact absurd (by rw [← hc', ← h.1]) hne
        | false =>
          obtain ⟨pre2, e2, hp2⟩ := hopping_split r0 hm
          cases r2 with
          | nil => simp at h
          | cons u r3 =>
            simp only [acceptEvery, if_true, Option.some.injEq, Prod.mk.injEq] at h
            obtain ⟨hs, rfl⟩ := h
            subst e2
            rw [← List.append_assoc] at e
            have e3 := List.append_inj' e rfl
            refine .hop pre pre2 hh e3.1 hp hp2 ?_
            rw [← hc', ← hs, mr_c]
    | exchange =>
      simp only [startAt] at h
      cases hm : makeCandidateExchange p c r0 with
      | none => rw [hm] at h; simp at h
      | some z =>
        obtain ⟨oh, r2⟩ := z
        rw [hm] at h
        cases oh with
        | none =>
          simp only [Option.some.injEq, Prod.mk.injEq] at h
          exact absurd (by rw [← hc', ← h.1]) hne
        | some hh =>
          obtain ⟨pre2, e2, hp2⟩ := exchange_split r0 hm
          cases r2 with
          | nil => simp at h
          | cons u r3 =>
            simp only [acceptEvery, if_true, Option.some.injEq, Prod.mk.injEq] at h
            obtain ⟨hs, rfl⟩ := h
            subst e2
            rw [← List.append_assoc] at e
            have e3 := List.append_inj' e rfl
            refine .exch pre pre2 hh e3.1 hp hp2 ?_
            rw [← hc', ← hs, mr_c]
            rfl
    | localSpinFlip =>
      simp only [Option.some.injEq, Prod.mk.injEq] at h
      exact absurd (by rw [← hc', ← h.1, mr_c]; rfl) hne
    | none =>
      simp only [Option.some.injEq, Prod.mk.injEq] at h
      exact absurd (by rw [← hc', ← h.1, mr_c]; rfl) hne

end MVMC
