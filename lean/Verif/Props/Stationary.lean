import Verif.Proof.Stationary
import Verif.Proof.Metropolis
import Mathlib.Tactic.IntervalCases

/-!
# C71: a sampler step leaves the distribution `|Ψ|²` unchanged (fixed Sz)

A state is a set of consistent tables. `MoveStreams p c c'` is the set of streams of 32-bit draws by which one iteration of the inner loop of
`VMCMakeSample` proposes to go from `c` to `c'`: choice of the update, choice of the electrons and sites with all repetitions, up to but
without the draw that decides on acceptance. `metroKernel` (`Verif.Spec.Metropolis`) gives each such stream the probability `2^(-32·length)`,
accepts with probability `min(1, W c'/W c)` and stays otherwise.
-/
namespace MVMC
open Spec
open scoped ENNReal

/-- consistent tables -/
abbrev CfgState (p : SamplerPar) : Type := {c : EleCfg // Consistent p.Ne p.Nsite c.idx c.cfg c.num}

/-- streams by which a step at `c` proposes `c'`: with one more draw and acceptance of everything, the step ends at `c'` -/
def MoveStreams (p : SamplerPar) (c c' : EleCfg) : Set (List Nat) :=
  {r | (∀ u ∈ r, u < drawBound) ∧ ∃ st', innerStep acceptEvery p (startAt c) (r ++ [0]) = some (st', []) ∧ st'.c = c'}

/-- … and all target sites of a hop are drawn below `T` -/
def MoveStreamsBelow (p : SamplerPar) (T : Nat) (c c' : EleCfg) : Set (List Nat) :=
  {r | r ∈ MoveStreams p c c' ∧
    ∀ r1 x r2, getUpdateType p.exPath false 0 r = some (.hopping, r1) → pickItinerant p c r1 = some (x, r2) → ∀ u ∈ r2, u < T}

/-- C71: what such a stream does in the sampler, whatever it computes for the Pfaffians and correlation factors: the next draw `u` decides
between `c'` and `c`, and nothing else is consumed. -/
theorem C71_step {β γ : Type} (k : Hooks β γ) (p : SamplerPar) (hNe : 0 < p.Ne) (hNs : 0 < p.Nsite) (c : CfgState p) (c' : EleCfg) (hne : c' ≠ c.1)
    (r : List Nat) (hr : r ∈ MoveStreams p c.1 c') (st : SState β) (hst : st.c = c.1) (u : Nat) (tl : List Nat) :
    ∃ (st' : SState β) (g : γ), innerStep k p st (r ++ u :: tl) = some (st', tl) ∧ st'.c = if k.accept st.b g u then c' else c.1 := by
  obtain ⟨_, st', h, hc'⟩ := hr
  exact streamMove_step k c.2 hNe hNs (streamMove_of hne h hc') st hst u tl

/-- the stream of the reverse move -/
def revStream (p : SamplerPar) (c : EleCfg) (r : List Nat) : List Nat :=
  match getUpdateType p.exPath false 0 r with
  | some (.hopping, r1) =>
    match makeCandidateHopping p c r1 with
    | some ((h, _), _) => r.take (r.length - r1.length) ++ relabel p c h.ri h.rj r1
    | none => r
  | _ => r

theorem moveStreams_of {p : SamplerPar} {c c' : EleCfg} (hc : Cons p c) (hNe : 0 < p.Ne) (hNs : 0 < p.Nsite) {r : List Nat}
    (hb : ∀ u ∈ r, u < drawBound) (h : StreamMove p c c' r) : r ∈ MoveStreams p c c' := by
  obtain ⟨st', _, h1, h2⟩ := streamMove_step acceptEvery hc hNe hNs h (startAt c) rfl 0 []
  exact ⟨hb, st', h1, by rw [h2]; rfl⟩

theorem revStream_maps {p : SamplerPar} {T : Nat} (hNe : 0 < p.Ne) (hNs : 0 < p.Nsite) (hT : p.Nsite ∣ T) (hTb : T ≤ drawBound)
    {c c' : EleCfg} (hc : Cons p c) (hne : c' ≠ c) {r : List Nat} (hr : r ∈ MoveStreamsBelow p T c c') :
    revStream p c r ∈ MoveStreamsBelow p T c' c ∧ revStream p c' (revStream p c r) = r ∧ (revStream p c r).length = r.length := by
  obtain ⟨⟨hb, st', h, hc'⟩, hT'⟩ := hr
  cases streamMove_of hne h hc' with
  | hop pre r1 hh e ht hm hcc =>
    subst e hcc
    have hm0 : makeCandidateHopping p c r1 = some ((hh, false), []) := by simpa using hm []
    obtain ⟨ok, _, _⟩ := hopping_ok hc hNe hNs _ hm0
    have hmem : r1 ∈ HopStreams p T c hh :=
      ⟨fun u hu => hb u (List.mem_append.mpr (Or.inr hu)), hm0, fun x r2 hx => hT' r1 x r2 (ht r1) hx⟩
    obtain ⟨h1, h2⟩ := relabel_maps hNe hNs hT hTb hc hmem
    have e1 : revStream p c (pre ++ r1) = pre ++ relabel p c hh.ri hh.rj r1 := by
      unfold revStream
      rw [ht r1]
      simp only [hm0]
      simp
    have e2 : revStream p (updateEleConfig p hh c) (pre ++ relabel p c hh.ri hh.rj r1) = pre ++ r1 := by
      unfold revStream
      rw [ht]
      simp only [h1.2.1, h2]
      simp
    have hup := update_rev hc ok
    refine ⟨?_, by rw [e1, e2], by rw [e1, List.length_append, relabel_length, List.length_append]⟩
    rw [e1]
    refine ⟨moveStreams_of (update_cons hc ok) hNe hNs ?_ (.hop pre _ hh.rev rfl ht ?_ hup.symm), ?_⟩
    · intro u hu
      rcases List.mem_append.mp hu with hu | hu
      · exact hb u (List.mem_append.mpr (Or.inl hu))
      · exact h1.1 u hu
    · obtain ⟨pre2, e3, hp2⟩ := hopping_split _ h1.2.1
      rw [List.append_nil] at e3
      rw [e3]
      exact hp2
    · intro r1' x r2 hq hx
      rw [ht] at hq
      simp only [Option.some.injEq, Prod.mk.injEq, true_and] at hq
      subst hq
      exact h1.2.2 x r2 hx
  | exch pre r1 hh e ht hm hcc =>
    subst e hcc
    have hm0 : makeCandidateExchange p c r1 = some (some hh, []) := by simpa using hm []
    obtain ⟨ok, ok2, _, _, _, hidj, hm2, hemp⟩ := exchange_ok hc hNe _ hm0
    have hback := exch_rev hc ok hidj hm2 hemp
    have hc2 := exch_cons hc ok ok2
    have e1 : ∀ c2, revStream p c2 (pre ++ r1) = pre ++ r1 := by
      intro c2
      unfold revStream
      rw [ht r1]
    refine ⟨?_, by rw [e1, e1], by rw [e1]⟩
    rw [e1]
    refine ⟨moveStreams_of hc2 hNe hNs hb (.exch pre r1 hh.rev rfl ht (fun tl => exchange_reverse hc hNe (hm tl)) hback.symm), ?_⟩
    intro r1' x r2 hq
    rw [ht] at hq
    simp at hq

theorem moveStreams_det {p : SamplerPar} {c c' c'' : EleCfg} {r : List Nat} (h1 : r ∈ MoveStreams p c c') (h2 : r ∈ MoveStreams p c c'') : c' = c'' := by
  obtain ⟨_, s, a, b⟩ := h1
  obtain ⟨_, s', a', b'⟩ := h2
  rw [a] at a'
  simp only [Option.some.injEq, Prod.mk.injEq, and_true] at a'
  rw [← b, ← b', a']

theorem moveStreams_prefix {p : SamplerPar} (hNe : 0 < p.Ne) (hNs : 0 < p.Nsite) (c : CfgState p) :
    PrefixFree {r | ∃ c' : CfgState p, c' ≠ c ∧ r ∈ MoveStreams p c.1 c'.1} := by
  rintro r s ⟨c', hne, hr⟩ ⟨c'', _, hrs⟩
  cases s with
  | nil => rfl
  | cons u s =>
    obtain ⟨_, st', h, hc'⟩ := hr
    have hm := streamMove_of (fun q => hne (Subtype.ext q)) h hc'
    obtain ⟨_, _, h1, _⟩ := streamMove_step acceptEvery c.2 hNe hNs hm (startAt c.1) rfl u (s ++ [0])
    obtain ⟨_, st2, h2, _⟩ := hrs
    rw [List.append_assoc] at h2
    rw [show (u :: s) ++ [0] = u :: (s ++ [0]) from rfl, h1] at h2
    simp at h2

theorem drawBound_pos : 0 < drawBound := by unfold drawBound; omega

theorem moves_le_one {p : SamplerPar} (hNe : 0 < p.Ne) (hNs : 0 < p.Nsite) (M : CfgState p → CfgState p → Set (List Nat))
    (hM : ∀ c c', M c c' ⊆ MoveStreams p c.1 c'.1) (W : CfgState p → ℝ≥0∞) (c : CfgState p) :
    leaveProb drawBound M W c ≤ 1 :=
  move_le_one drawBound_pos c (fun c' _ r hr => (hM c c' hr).1) (fun c' c'' r _ _ h1 h2 => Subtype.ext (moveStreams_det (hM _ _ h1) (hM _ _ h2)))
    (fun r s h1 h2 => moveStreams_prefix hNe hNs c r s (by obtain ⟨c', a, b⟩ := h1; exact ⟨c', a, hM _ _ b⟩) (by obtain ⟨c', a, b⟩ := h2; exact ⟨c', a, hM _ _ b⟩))

/-- C71: detailed balance between any two different states, over all ways to propose the move. Partial: target sites drawn below a multiple `T`
of the number of sites (`C19_bias_violated`); a step with a larger draw is counted as no move. -/
theorem C71_balance_partial (p : SamplerPar) (T : Nat) (hNe : 0 < p.Ne) (hNs : 0 < p.Nsite) (hT : p.Nsite ∣ T) (hTb : T ≤ drawBound)
    (W : CfgState p → ℝ≥0∞) (hW : ∀ c, W c ≠ ⊤) (c c' : CfgState p) (hne : c ≠ c') :
    W c * moveProb drawBound (fun a b => MoveStreamsBelow p T a.1 b.1) W c c' =
      W c' * moveProb drawBound (fun a b => MoveStreamsBelow p T a.1 b.1) W c' c := by
  have h1 := fun r (hr : r ∈ MoveStreamsBelow p T c.1 c'.1) => revStream_maps hNe hNs hT hTb c.2 (fun q => hne (Subtype.ext q.symm)) hr
  have h2 := fun r (hr : r ∈ MoveStreamsBelow p T c'.1 c.1) => revStream_maps hNe hNs hT hTb c'.2 (fun q => hne (Subtype.ext q)) hr
  have hbij : Set.BijOn (revStream p c.1) (MoveStreamsBelow p T c.1 c'.1) (MoveStreamsBelow p T c'.1 c.1) :=
    Set.InvOn.bijOn (f' := revStream p c'.1) ⟨fun r hr => (h1 r hr).2.1, fun r hr => (h2 r hr).2.1⟩ (fun r hr => (h1 r hr).1) (fun r hr => (h2 r hr).1)
  generalize drawBound = B
  exact move_balance (X := CfgState p) (B := B) (M := fun a b => MoveStreamsBelow p T a.1 b.1) (W := W) hW hbij (fun r hr => (h1 r hr).2.2)

/-- C71: the weights are a stationary distribution. Partial as `C71_balance_partial`. -/
theorem C71_stationary_partial (p : SamplerPar) (T : Nat) (hNe : 0 < p.Ne) (hNs : 0 < p.Nsite) (hT : p.Nsite ∣ T) (hTb : T ≤ drawBound)
    (W : CfgState p → ℝ≥0∞) (hW : ∀ c, W c ≠ ⊤) :
    pushStep (metroKernel drawBound (fun a b : CfgState p => MoveStreamsBelow p T a.1 b.1) W) W = W :=
  metro_stationary (C71_balance_partial p T hNe hNs hT hTb W hW) (moves_le_one hNe hNs _ (fun _ _ _ h => h.1) W)

theorem moveStreams_all (p : SamplerPar) (c c' : EleCfg) : MoveStreamsBelow p drawBound c c' = MoveStreams p c c' := by
  ext r
  refine ⟨fun h => h.1, fun h => ⟨h, ?_⟩⟩
  intro r1 x r2 ht hx u hu
  obtain ⟨pre, e, _⟩ := updateType_split _ _ _ _ ht
  obtain ⟨pre2, e2, _⟩ := pickItinerant_split r1 hx
  refine h.1 u ?_
  rw [e, e2]
  simp [hu]

/-- C71: if the number of sites divides `2^32`, one step of the sampler leaves the weights unchanged. -/
theorem C71_stationary (p : SamplerPar) (hNe : 0 < p.Ne) (hNs : 0 < p.Nsite) (hd : p.Nsite ∣ drawBound)
    (W : CfgState p → ℝ≥0∞) (hW : ∀ c, W c ≠ ⊤) :
    pushStep (metroKernel drawBound (fun a b : CfgState p => MoveStreams p a.1 b.1) W) W = W := by
  have := C71_stationary_partial p drawBound hNe hNs hd le_rfl W hW
  rwa [show (fun a b : CfgState p => MoveStreamsBelow p drawBound a.1 b.1) = fun a b => MoveStreams p a.1 b.1 from
    funext fun a => funext fun b => moveStreams_all p a.1 b.1] at this

/-- C71: … and so does any number of steps. -/
theorem C71_steps (p : SamplerPar) (hNe : 0 < p.Ne) (hNs : 0 < p.Nsite) (hd : p.Nsite ∣ drawBound)
    (W : CfgState p → ℝ≥0∞) (hW : ∀ c, W c ≠ ⊤) (n : Nat) :
    (pushStep (metroKernel drawBound (fun a b : CfgState p => MoveStreams p a.1 b.1) W))^[n] W = W := by
  induction n with
  | zero => rfl
  | succ n ih => rw [Function.iterate_succ_apply, C71_stationary p hNe hNs hd W hW, ih]

/-- C71: the transition probabilities from a state add up to one. -/
theorem C71_total (p : SamplerPar) (hNe : 0 < p.Ne) (hNs : 0 < p.Nsite) (W : CfgState p → ℝ≥0∞) (c : CfgState p) :
    ∑' c', metroKernel drawBound (fun a b : CfgState p => MoveStreams p a.1 b.1) W c c' = 1 :=
  metro_total (moves_le_one hNe hNs _ (fun _ _ _ h => h) W) c

/-! ### example: one electron of each spin on two sites, both on site 0 -/

def statPar : SamplerPar := ⟨1, 2, fun _ => 0, 1⟩

def statCfg : CfgState statPar := ⟨⟨fun _ => 0, fun k => if k = 0 ∨ k = 2 then 0 else -1, fun k => if k = 0 ∨ k = 2 then 1 else 0⟩, by
  constructor
  · intro s hs mi hm
    refine ⟨0, by decide, ?_⟩
    have : mi = 0 := by simp only [statPar] at hm; omega
    subst this
    interval_cases s <;> simp [statPar]
  · intro s hs ri hr
    simp only [statPar] at hr
    interval_cases s <;> interval_cases ri <;> simp [statPar]⟩

/-- the up electron has moved to site 1 -/
def statCfg' : CfgState statPar := ⟨updateEleConfig statPar ⟨0, 0, 1, 0⟩ statCfg.1, by
  constructor
  · intro s hs mi hm
    have : mi = 0 := by simp only [statPar] at hm; omega
    subst this
    interval_cases s
    · exact ⟨1, by decide, by decide, by decide⟩
    · exact ⟨0, by decide, by decide, by decide⟩
  · intro s hs ri hr
    simp only [statPar] at hr
    interval_cases s <;> interval_cases ri
    · exact Or.inl ⟨by decide, by decide⟩
    · exact Or.inr ⟨0, by decide, by decide, by decide, by decide⟩
    · exact Or.inr ⟨0, by decide, by decide, by decide, by decide⟩
    · exact Or.inl ⟨by decide, by decide⟩⟩

/-- the first draw `2^31` chooses a hop, then the electron, its spin, an occupied target and target 1 -/
theorem stat_stream : [2147483648, 0, 0, 0, 1] ∈ MoveStreams statPar statCfg.1 statCfg'.1 := by
  refine ⟨by decide, _, rfl, rfl⟩

/-- the theorem is not about a chain that never moves -/
example : (2 : Nat) ∣ drawBound ∧ statCfg ≠ statCfg' ∧
    0 < metroKernel drawBound (fun a b : CfgState statPar => MoveStreams statPar a.1 b.1) (fun _ => 1) statCfg statCfg' := by
  have hne : statCfg ≠ statCfg' := by
    intro h
    have : statCfg.1.num 0 = statCfg'.1.num 0 := by rw [h]
    revert this
    decide
  refine ⟨by decide, hne, ?_⟩
  unfold metroKernel
  rw [if_neg hne]
  unfold moveProb
  simp only [ENNReal.div_self one_ne_zero ENNReal.one_ne_top, min_self, mul_one]
  refine lt_of_lt_of_le ?_ (ENNReal.le_tsum ⟨_, stat_stream⟩)
  unfold streamProb
  exact ENNReal.pow_pos (ENNReal.inv_pos.mpr (ENNReal.natCast_ne_top _)) _

end MVMC
