import Verif.Proof.Stationary
import Verif.Props.BalanceFsz

/-! # Streams of a whole sampler step (general Sz) -/
namespace MVMC
open Spec

/-- hooks that accept every proposal -/
def acceptEveryF : FHooks Unit Unit where
  propMove := fun _ _ _ => ()
  propExch := fun _ _ _ _ _ => ()
  accept := fun _ _ _ => true
  commitMove := fun _ _ _ _ => ()
  commitExch := fun _ _ _ _ _ => ()
  refresh := fun _ _ => ()

/-- the state of the sampler at the tables `c` -/
def startAtF (c : FCfg) : FState Unit := ⟨c, (), 0, fun _ => 0⟩

theorem pickTargetF_split {p : FPar} {c : FCfg} (icnt : Nat) (r : List Nat) {x : Nat × Nat × Bool} {r1 : List Nat}
    (h : pickTargetF p c icnt r = some (x, r1)) : ∃ pre, r = pre ++ r1 ∧ ∀ tl, pickTargetF p c icnt (pre ++ tl) = some (x, tl) := by
  fun_induction pickTargetF p c icnt r with
  | case1 icnt u v r rj t h1 =>
    simp only [Option.some.injEq, Prod.mk.injEq] at h
    obtain ⟨rfl, rfl⟩ := h
    refine ⟨[u, v], rfl, fun tl => ?_⟩
    rw [List.cons_append, List.cons_append, pickTargetF]
    exact if_pos h1
  | case2 icnt u v r rj t h1 h2 ih =>
    obtain ⟨pre, e, hp⟩ := ih h
    refine ⟨u :: v :: pre, by rw [e]; rfl, fun tl => ?_⟩
    rw [List.cons_append, List.cons_append, pickTargetF]
    exact (if_neg h1).trans ((if_pos h2).trans (hp tl))
  | case3 icnt u v r rj t h1 h2 =>
    simp only [Option.some.injEq, Prod.mk.injEq] at h
    obtain ⟨rfl, rfl⟩ := h
    refine ⟨[u, v], rfl, fun tl => ?_⟩
    rw [List.cons_append, List.cons_append, pickTargetF]
    exact (if_neg h1).trans (if_neg h2)
  | case4 => simp at h

theorem pickTargetC_split {p : FPar} {c : FCfg} {t : Nat} (icnt : Nat) (r : List Nat) {x : Nat × Bool} {r1 : List Nat}
    (h : pickTargetC p c t icnt r = some (x, r1)) : ∃ pre, r = pre ++ r1 ∧ ∀ tl, pickTargetC p c t icnt (pre ++ tl) = some (x, tl) := by
  fun_induction pickTargetC p c t icnt r with
  | case1 icnt u r rj h1 =>
    simp only [Option.some.injEq, Prod.mk.injEq] at h
    obtain ⟨rfl, rfl⟩ := h
    refine ⟨[u], rfl, fun tl => ?_⟩
    rw [List.cons_append, pickTargetC]
    exact if_pos h1
  | case2 icnt u r rj h1 h2 ih =>
    obtain ⟨pre, e, hp⟩ := ih h
    refine ⟨u :: pre, by rw [e]; rfl, fun tl => ?_⟩
    rw [List.cons_append, pickTargetC]
    exact (if_neg h1).trans ((if_pos h2).trans (hp tl))
  | case3 icnt u r rj h1 h2 =>
    simp only [Option.some.injEq, Prod.mk.injEq] at h
    obtain ⟨rfl, rfl⟩ := h
    refine ⟨[u], rfl, fun tl => ?_⟩
    rw [List.cons_append, pickTargetC]
    exact (if_neg h1).trans (if_neg h2)
  | case4 => simp at h

theorem hoppingF_split {p : FPar} {c : FCfg} (r : List Nat) {x : FMove × Bool} {r1 : List Nat}
    (h : makeCandidateHoppingF p c r = some (x, r1)) : ∃ pre, r = pre ++ r1 ∧ ∀ tl, makeCandidateHoppingF p c (pre ++ tl) = some (x, tl) := by
  unfold makeCandidateHoppingF at h
  split at h
  · simp at h
  · rename_i mi ri s r2 e1
    split at h
    · simp at h
    · rename_i rj t flag r3 e2
      simp only [Option.some.injEq, Prod.mk.injEq] at h
      obtain ⟨rfl, rfl⟩ := h
      obtain ⟨pre1, rfl, hp1⟩ := pickItinerantF_split r e1
      obtain ⟨pre2, rfl, hp2⟩ := pickTargetF_split 0 r2 e2
      refine ⟨pre1 ++ pre2, by rw [List.append_assoc], fun tl => ?_⟩
      unfold makeCandidateHoppingF
      rw [List.append_assoc, hp1 (pre2 ++ tl)]
      simp only [hp2 tl]

theorem hoppingC_split {p : FPar} {c : FCfg} (r : List Nat) {x : FMove × Bool} {r1 : List Nat}
    (h : makeCandidateHoppingC p c r = some (x, r1)) : ∃ pre, r = pre ++ r1 ∧ ∀ tl, makeCandidateHoppingC p c (pre ++ tl) = some (x, tl) := by
  unfold makeCandidateHoppingC at h
  split at h
  · simp at h
  · rename_i mi ri s r2 e1
    split at h
    · simp at h
    · rename_i rj flag r3 e2
      simp only [Option.some.injEq, Prod.mk.injEq] at h
      obtain ⟨rfl, rfl⟩ := h
      obtain ⟨pre1, rfl, hp1⟩ := pickItinerantF_split r e1
      obtain ⟨pre2, rfl, hp2⟩ := pickTargetC_split 0 r2 e2
      refine ⟨pre1 ++ pre2, by rw [List.append_assoc], fun tl => ?_⟩
      unfold makeCandidateHoppingC
      rw [List.append_assoc, hp1 (pre2 ++ tl)]
      simp only [hp2 tl]

theorem conductionFlip_split {p : FPar} {c : FCfg} (icnt : Nat) (r : List Nat) {x : FMove × Bool} {r1 : List Nat}
    (h : conductionFlip p c icnt r = some (x, r1)) : ∃ pre, r = pre ++ r1 ∧ ∀ tl, conductionFlip p c icnt (pre ++ tl) = some (x, tl) := by
  fun_induction conductionFlip p c icnt r with
  | case1 icnt u r mi s ri h1 =>
    simp only [Option.some.injEq, Prod.mk.injEq] at h
    obtain ⟨rfl, rfl⟩ := h
    refine ⟨[u], rfl, fun tl => ?_⟩
    rw [List.cons_append, conductionFlip]
    exact if_pos h1
  | case2 icnt u r mi s ri h1 h2 ih =>
    obtain ⟨pre, e, hp⟩ := ih h
    refine ⟨u :: pre, by rw [e]; rfl, fun tl => ?_⟩
    rw [List.cons_append, conductionFlip]
    exact (if_neg h1).trans ((if_pos h2).trans (hp tl))
  | case3 icnt u r mi s ri h1 h2 =>
    simp only [Option.some.injEq, Prod.mk.injEq] at h
    obtain ⟨rfl, rfl⟩ := h
    refine ⟨[u], rfl, fun tl => ?_⟩
    rw [List.cons_append, conductionFlip]
    exact (if_neg h1).trans (if_neg h2)
  | case4 => simp at h

theorem localSpinFlip_split {p : FPar} {c : FCfg} (r : List Nat) {x : FMove} {r1 : List Nat}
    (h : localSpinFlip p c r = some (x, r1)) : ∃ pre, r = pre ++ r1 ∧ ∀ tl, localSpinFlip p c (pre ++ tl) = some (x, tl) := by
  fun_induction localSpinFlip p c r with
  | case1 u r mi ri h1 ih =>
    obtain ⟨pre, e, hp⟩ := ih h
    refine ⟨u :: pre, by rw [e]; rfl, fun tl => ?_⟩
    rw [List.cons_append, localSpinFlip]
    exact (if_pos h1).trans (hp tl)
  | case2 u r mi s ri h1 =>
    simp only [Option.some.injEq, Prod.mk.injEq] at h
    obtain ⟨rfl, rfl⟩ := h
    refine ⟨[u], rfl, fun tl => ?_⟩
    rw [List.cons_append, localSpinFlip]
    exact if_neg h1
  | case3 => simp at h

theorem pickSingleAnyF_split {p : FPar} {c : FCfg} (r : List Nat) {x : Nat × Nat × Nat} {r1 : List Nat}
    (h : pickSingleAnyF p c r = some (x, r1)) : ∃ pre, r = pre ++ r1 ∧ ∀ tl, pickSingleAnyF p c (pre ++ tl) = some (x, tl) := by
  fun_induction pickSingleAnyF p c r with
  | case1 u r mi s ri hl ih =>
    obtain ⟨pre, e, hp⟩ := ih h
    refine ⟨u :: pre, by rw [e]; rfl, fun tl => ?_⟩
    rw [List.cons_append, pickSingleAnyF]
    exact (if_pos hl).trans (hp tl)
  | case2 u r mi s ri hl =>
    simp only [Option.some.injEq, Prod.mk.injEq] at h
    obtain ⟨rfl, rfl⟩ := h
    refine ⟨[u], rfl, fun tl => ?_⟩
    rw [List.cons_append, pickSingleAnyF]
    exact if_neg hl
  | case3 => simp at h

theorem pickSingleSpinF_split {p : FPar} {c : FCfg} {t : Nat} (r : List Nat) {x : Nat × Nat} {r1 : List Nat}
    (h : pickSingleSpinF p c t r = some (x, r1)) : ∃ pre, r = pre ++ r1 ∧ ∀ tl, pickSingleSpinF p c t (pre ++ tl) = some (x, tl) := by
  fun_induction pickSingleSpinF p c t r with
  | case1 u r mi ri hl ih =>
    obtain ⟨pre, e, hp⟩ := ih h
    refine ⟨u :: pre, by rw [e]; rfl, fun tl => ?_⟩
    rw [List.cons_append, pickSingleSpinF]
    exact (if_pos hl).trans (hp tl)
  | case2 u r mi ri hl =>
    simp only [Option.some.injEq, Prod.mk.injEq] at h
    obtain ⟨rfl, rfl⟩ := h
    refine ⟨[u], rfl, fun tl => ?_⟩
    rw [List.cons_append, pickSingleSpinF]
    exact if_neg hl
  | case3 => simp at h

theorem exchangeF_split {p : FPar} {c : FCfg} (r : List Nat) {x : Option FMove} {r1 : List Nat}
    (h : makeCandidateExchangeF p c r = some (x, r1)) : ∃ pre, r = pre ++ r1 ∧ ∀ tl, makeCandidateExchangeF p c (pre ++ tl) = some (x, tl) := by
  unfold makeCandidateExchangeF at h
  by_cases hs : scanPair p c (List.range p.Nsite) 0 0 = true
  · rw [if_pos hs] at h
    split at h
    · simp at h
    · rename_i mi ri s r2 e1
      split at h
      · simp at h
      · rename_i mj rj r3 e2
        simp only [Option.some.injEq, Prod.mk.injEq] at h
        obtain ⟨rfl, rfl⟩ := h
        obtain ⟨pre1, rfl, hp1⟩ := pickSingleAnyF_split r e1
        obtain ⟨pre2, rfl, hp2⟩ := pickSingleSpinF_split r2 e2
        refine ⟨pre1 ++ pre2, by rw [List.append_assoc], fun tl => ?_⟩
        unfold makeCandidateExchangeF
        rw [if_pos hs, List.append_assoc, hp1 (pre2 ++ tl)]
        simp only [hp2 tl]
  · rw [if_neg hs] at h
    simp only [Option.some.injEq, Prod.mk.injEq] at h
    obtain ⟨rfl, rfl⟩ := h
    refine ⟨[], rfl, fun tl => ?_⟩
    unfold makeCandidateExchangeF
    rw [if_neg hs]
    rfl

/-- what a stream does -/
inductive StreamMoveF (p : FPar) (c c' : FCfg) (r : List Nat) : Prop
  | hopF (pre : List Nat) (u : Nat) (r1 : List Nat) (h : FMove) (e : r = pre ++ u :: r1)
      (ht : ∀ tl, getUpdateType p.exPath true p.twoSz (pre ++ tl) = some (.hopping, tl)) (hz : p.twoSz = -1) (hu : coin u = 0)
      (hm : ∀ tl, makeCandidateHoppingF p c (r1 ++ tl) = some ((h, false), tl)) (hc' : c' = updateEleConfigF p h c)
  | cond (pre : List Nat) (u : Nat) (r1 : List Nat) (h : FMove) (e : r = pre ++ u :: r1)
      (ht : ∀ tl, getUpdateType p.exPath true p.twoSz (pre ++ tl) = some (.hopping, tl)) (hz : p.twoSz = -1) (hu : ¬ coin u = 0)
      (hm : ∀ tl, conductionFlip p c 0 (r1 ++ tl) = some ((h, false), tl)) (hc' : c' = updateEleConfigF p h c)
  | hopC (pre r1 : List Nat) (h : FMove) (e : r = pre ++ r1)
      (ht : ∀ tl, getUpdateType p.exPath true p.twoSz (pre ++ tl) = some (.hopping, tl)) (hz : ¬ p.twoSz = -1)
      (hm : ∀ tl, makeCandidateHoppingC p c (r1 ++ tl) = some ((h, false), tl)) (hc' : c' = updateEleConfigF p h c)
  | loc (pre r1 : List Nat) (h : FMove) (e : r = pre ++ r1)
      (ht : ∀ tl, getUpdateType p.exPath true p.twoSz (pre ++ tl) = some (.localSpinFlip, tl))
      (hm : ∀ tl, localSpinFlip p c (r1 ++ tl) = some (h, tl)) (hc' : c' = updateEleConfigF p h c)
  | exch (pre r1 : List Nat) (h : FMove) (e : r = pre ++ r1)
      (ht : ∀ tl, getUpdateType p.exPath true p.twoSz (pre ++ tl) = some (.exchange, tl))
      (hm : ∀ tl, makeCandidateExchangeF p c (r1 ++ tl) = some (some h, tl)) (hc' : c' = exchCfgF p c h)

theorem mrF_c {β γ : Type} (k : FHooks β γ) (p : FPar) (s : FState β) : (maybeRefreshF k p s).c = s.c := by
  unfold maybeRefreshF; split <;> rfl

theorem tryMoveF_step {β γ : Type} (k : FHooks β γ) {p : FPar} (st : FState β) (hc : ConsF p st.c) {h : FMove} (ok : MoveOK p st.c h)
    (acc u : Nat) (tl : List Nat) :
    ∃ st', tryMoveF k p st h acc (u :: tl) = some (st', tl) ∧
      st'.c = if k.accept st.b (k.propMove (updateEleConfigF p h st.c) h st.b) u then updateEleConfigF p h st.c else st.c := by
  unfold tryMoveF
  simp only
  by_cases ha : k.accept st.b (k.propMove (updateEleConfigF p h st.c) h st.b) u = true
  · rw [if_pos ha, if_pos ha]
    exact ⟨_, rfl, by rw [mrF_c]⟩
  · rw [if_neg ha, if_neg ha]
    exact ⟨_, rfl, by rw [mrF_c]; exact revertF_update hc ok⟩

/-- one step: the candidate satisfies whatever holds of the candidates of a move and of an exchange -/
theorem streamMoveF_stepP {β γ : Type} (k : FHooks β γ) {p : FPar} {c c' : FCfg} (hc : ConsF p c) (hb : LocBin p)
    (hl : LocalSingle p.Nsite p.locSpn c.num) (hNe : 0 < p.Ne) (hNs : 0 < p.Nsite)
    {r : List Nat} (h : StreamMoveF p c c' r) (st : FState β) (hst : st.c = c) (u : Nat) (tl : List Nat) {P : γ → Prop}
    (move : ∀ h, MoveOK p c h → c' = updateEleConfigF p h c → P (k.propMove (updateEleConfigF p h c) h st.b))
    (exch : ∀ h, ExchOKF p c h → c' = exchCfgF p c h →
      P (k.propExch (updateEleConfigF p h c) (exchCfgF p c h) h (partnerMove p c h) st.b)) :
    ∃ (st' : FState β) (g : γ), P g ∧ innerStepF k p st (r ++ u :: tl) = some (st', tl) ∧ st'.c = if k.accept st.b g u then c' else c := by
  subst hst
  cases h with
  | hopF pre v r1 h e ht hz hu hm hc' =>
    subst e hc'
    obtain ⟨ok, _⟩ := hoppingF_ok hc hNe hNs _ (hm [])
    obtain ⟨st', h1, h2⟩ := tryMoveF_step k { st with cnt := bump st.cnt 0 } hc ok 1 u tl
    refine ⟨st', _, move h ok rfl, ?_, h2⟩
    unfold innerStepF
    rw [List.append_assoc, ht]
    simp only [hopCandidateF, if_pos hz, List.cons_append, if_pos hu, hm]
    exact h1
  | cond pre v r1 h e ht hz hu hm hc' =>
    subst e hc'
    obtain ⟨ok, _⟩ := conductionFlip_ok hc hNe 0 _ (hm [])
    obtain ⟨st', h1, h2⟩ := tryMoveF_step k { st with cnt := bump st.cnt 4 } hc ok 5 u tl
    refine ⟨st', _, move h ok rfl, ?_, h2⟩
    unfold innerStepF
    rw [List.append_assoc, ht]
    simp only [hopCandidateF, if_pos hz, List.cons_append, if_neg hu, hm]
    exact h1
  | hopC pre r1 h e ht hz hm hc' =>
    subst e hc'
    obtain ⟨ok, _⟩ := hoppingC_ok hc hNe hNs _ (hm [])
    obtain ⟨st', h1, h2⟩ := tryMoveF_step k { st with cnt := bump st.cnt 0 } hc ok 1 u tl
    refine ⟨st', _, move h ok rfl, ?_, h2⟩
    unfold innerStepF
    rw [List.append_assoc, ht]
    simp only [hopCandidateF, if_neg hz, hm]
    exact h1
  | loc pre r1 h e ht hm hc' =>
    subst e hc'
    obtain ⟨ok, _⟩ := localFlip_ok hc hNe hb hl _ (hm [])
    obtain ⟨st', h1, h2⟩ := tryMoveF_step k { st with cnt := bump st.cnt 4 } hc ok 5 u tl
    refine ⟨st', _, move h ok rfl, ?_, h2⟩
    unfold innerStepF
    rw [List.append_assoc, ht]
    simp only [hm]
    exact h1
  | exch pre r1 h e ht hm hc' =>
    subst e hc'
    have x := exchOKF_of hc hNe (hm [])
    unfold innerStepF
    rw [List.append_assoc, ht]
    simp only [hm]
    by_cases ha : k.accept st.b (k.propExch (updateEleConfigF p h st.c) (exchCfgF p st.c h) h (partnerMove p st.c h) st.b) u = true
    · refine ⟨_, k.propExch (updateEleConfigF p h st.c) (exchCfgF p st.c h) h (partnerMove p st.c h) st.b, exch h x rfl, if_pos ha, ?_⟩
      rw [mrF_c, if_pos ha]
      rfl
    · refine ⟨_, k.propExch (updateEleConfigF p h st.c) (exchCfgF p st.c h) h (partnerMove p st.c h) st.b, exch h x rfl, if_neg ha, ?_⟩
      rw [mrF_c, if_neg ha]
      show revertEleConfigF p h (revertEleConfigF p (partnerMove p st.c h) (updateEleConfigF p (partnerMove p st.c h) (updateEleConfigF p h st.c))) = st.c
      rw [revertF_update (updateF_cons hc x.ok) x.ok2, revertF_update hc x.ok]

theorem streamMoveF_step {β γ : Type} (k : FHooks β γ) {p : FPar} {c c' : FCfg} (hc : ConsF p c) (hb : LocBin p)
    (hl : LocalSingle p.Nsite p.locSpn c.num) (hNe : 0 < p.Ne) (hNs : 0 < p.Nsite)
    {r : List Nat} (h : StreamMoveF p c c' r) (st : FState β) (hst : st.c = c) (u : Nat) (tl : List Nat) :
    ∃ (st' : FState β) (g : γ), innerStepF k p st (r ++ u :: tl) = some (st', tl) ∧ st'.c = if k.accept st.b g u then c' else c := by
  obtain ⟨st', g, _, h1⟩ := streamMoveF_stepP k hc hb hl hNe hNs h st hst u tl (P := fun _ => True) (fun _ _ _ => trivial) (fun _ _ _ => trivial)
  exact ⟨st', g, h1⟩

theorem tryAll {p : FPar} {st st' : FState Unit} {h : FMove} {acc : Nat} {r : List Nat} (e : tryMoveF acceptEveryF p st h acc r = some (st', [])) :
    ∃ u, r = [u] ∧ st'.c = updateEleConfigF p h st.c := by
  unfold tryMoveF at e
  cases r with
  | nil => simp at e
  | cons u r =>
    simp only [acceptEveryF, if_true, Option.some.injEq, Prod.mk.injEq] at e
    obtain ⟨hs, rfl⟩ := e
    exact ⟨u, rfl, by rw [← hs, mrF_c]⟩

theorem streamMoveF_of {p : FPar} {c c' : FCfg} {r : List Nat} {st' : FState Unit} (hne : c' ≠ c)
    (h : innerStepF acceptEveryF p (startAtF c) (r ++ [0]) = some (st', [])) (hc' : st'.c = c') : StreamMoveF p c c' r := by
  unfold innerStepF at h
  cases ht : getUpdateType p.exPath true p.twoSz (r ++ [0]) with
  | none => rw [ht] at h; simp at h
  | some y =>
    obtain ⟨t, r0⟩ := y
    rw [ht] at h
    obtain ⟨pre, e, hp⟩ := updateType_split _ _ _ _ ht
    cases t with
    | hopping =>
      simp only [startAtF, hopCandidateF] at h
      by_cases hz : p.twoSz = -1
      · simp only [if_pos hz] at h
        cases r0 with
        | nil => simp at h
        | cons u r0 =>
          by_cases hu : coin u = 0
          · simp only [if_pos hu] at h
            cases hm : makeCandidateHoppingF p c r0 with
            | none => rw [hm] at h; simp at h
            | some z =>
              obtain ⟨⟨hh, fl⟩, r2⟩ := z
              rw [hm] at h
              cases fl with
              | true =>
                simp only [if_true, Option.some.injEq, Prod.mk.injEq] at h
                exact absurd (by rw [← hc', ← h.1]) hne
              | false =>
                obtain ⟨pre2, e2, hp2⟩ := hoppingF_split r0 hm
                obtain ⟨v, rfl, hs⟩ := tryAll h
                subst e2
                rw [← List.cons_append, ← List.append_assoc] at e
                have e3 := List.append_inj' e rfl
                exact .hopF pre u pre2 hh e3.1 hp hz hu hp2 (by rw [← hc', hs])
          · simp only [if_neg hu] at h
            cases hm : conductionFlip p c 0 r0 with
            | none => rw [hm] at h; simp at h
            | some z =>
              obtain ⟨⟨hh, fl⟩, r2⟩ := z
              rw [hm] at h
              cases fl with
              | true =>
                simp only [if_true, Option.some.injEq, Prod.mk.injEq] at h
                exact absurd (by rw [← hc', ← h.1]) hne
              | false =>
                obtain ⟨pre2, e2, hp2⟩ := conductionFlip_split 0 r0 hm
                obtain ⟨v, rfl, hs⟩ := tryAll h
                subst e2
                rw [← List.cons_append, ← List.append_assoc] at e
                have e3 := List.append_inj' e rfl
                exact .cond pre u pre2 hh e3.1 hp hz hu hp2 (by rw [← hc', hs])
      · simp only [if_neg hz] at h
        cases hm : makeCandidateHoppingC p c r0 with
        | none => rw [hm] at h; simp at h
        | some z =>
          obtain ⟨⟨hh, fl⟩, r2⟩ := z
          rw [hm] at h
          cases fl with
          | true =>
            simp only [if_true, Option.some.injEq, Prod.mk.injEq] at h
            exact absurd (by rw [← hc', ← h.1]) hne
          | false =>
            obtain ⟨pre2, e2, hp2⟩ := hoppingC_split r0 hm
            obtain ⟨v, rfl, hs⟩ := tryAll h
            subst e2
            rw [← List.append_assoc] at e
            have e3 := List.append_inj' e rfl
            exact .hopC pre pre2 hh e3.1 hp hz hp2 (by rw [← hc', hs])
    | exchange =>
      simp only [startAtF] at h
      cases hm : makeCandidateExchangeF p c r0 with
      | none => rw [hm] at h; simp at h
      | some z =>
        obtain ⟨oh, r2⟩ := z
        rw [hm] at h
        cases oh with
        | none =>
          simp only [Option.some.injEq, Prod.mk.injEq] at h
          exact absurd (by rw [← hc', ← h.1]) hne
        | some hh =>
          obtain ⟨pre2, e2, hp2⟩ := exchangeF_split r0 hm
          cases r2 with
          | nil => simp at h
          | cons u r3 =>
            simp only [acceptEveryF, if_true, Option.some.injEq, Prod.mk.injEq] at h
            obtain ⟨hs, rfl⟩ := h
            subst e2
            rw [← List.append_assoc] at e
            have e3 := List.append_inj' e rfl
            refine .exch pre pre2 hh e3.1 hp hp2 ?_
            rw [← hc', ← hs, mrF_c]
            rfl
    | localSpinFlip =>
      simp only [startAtF] at h
      cases hm : localSpinFlip p c r0 with
      | none => rw [hm] at h; simp at h
      | some z =>
        obtain ⟨hh, r2⟩ := z
        rw [hm] at h
        obtain ⟨pre2, e2, hp2⟩ := localSpinFlip_split r0 hm
        obtain ⟨v, rfl, hs⟩ := tryAll h
        subst e2
        rw [← List.append_assoc] at e
        have e3 := List.append_inj' e rfl
        exact .loc pre pre2 hh e3.1 hp hp2 (by rw [← hc', hs])
    | none =>
      simp only [Option.some.injEq, Prod.mk.injEq] at h
      exact absurd (by rw [← hc', ← h.1, mrF_c]; rfl) hne

end MVMC
