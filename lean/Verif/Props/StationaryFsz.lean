import Verif.Proof.StationaryFsz
import Verif.Props.StationaryPsi

/-!
# C71 for the general-Sz sampler

As `Props/Stationary.lean` and `Props/StationaryPsi.lean` for `VMCMakeSample_fsz`: hops with free or kept spin, flips of itinerant and of
local spins, exchanges.
-/
namespace MVMC
open Spec
open scoped ENNReal

/-- consistent tables with singly occupied local-spin sites -/
abbrev CfgStateF (p : FPar) : Type :=
  {c : FCfg // ConsistentF (2 * p.Ne) p.Nsite c.idx c.spn c.cfg c.num ∧ LocalSingle p.Nsite p.locSpn c.num}

/-- streams by which a step at `c` proposes `c'`: with one more draw and acceptance of everything, the step ends at `c'` -/
def MoveStreamsF (p : FPar) (c c' : FCfg) : Set (List Nat) :=
  {r | (∀ u ∈ r, u < drawBound) ∧ ∃ st', innerStepF acceptEveryF p (startAtF c) (r ++ [0]) = some (st', []) ∧ st'.c = c'}

/-- the target sites of a hop are drawn below `T` -/
def TargetsBelow (p : FPar) (T : Nat) (c : FCfg) (r : List Nat) : Prop :=
  ∀ r1, getUpdateType p.exPath true p.twoSz r = some (.hopping, r1) →
    (p.twoSz = -1 → ∀ u r2, r1 = u :: r2 → coin u = 0 → ∀ x r3, pickItinerantF p c r2 = some (x, r3) → FairPairs T r3) ∧
    (p.twoSz ≠ -1 → ∀ x r3, pickItinerantF p c r1 = some (x, r3) → ∀ u ∈ r3, u < T)

def MoveStreamsBelowF (p : FPar) (T : Nat) (c c' : FCfg) : Set (List Nat) := {r | r ∈ MoveStreamsF p c c' ∧ TargetsBelow p T c r}

/-- the stream of the reverse move -/
def revStreamF (p : FPar) (c : FCfg) (r : List Nat) : List Nat :=
  match getUpdateType p.exPath true p.twoSz r with
  | some (.hopping, r1) =>
    if p.twoSz = -1 then
      match r1 with
      | u :: r2 =>
        if coin u = 0 then
          match makeCandidateHoppingF p c r2 with
          | some ((h, _), _) => r.take (r.length - r2.length) ++ relabelF p c (slotMap p h) r2
          | none => r
        else r
      | [] => r
    else
      match makeCandidateHoppingC p c r1 with
      | some ((h, _), _) => r.take (r.length - r1.length) ++ relabelF p c (siteMap p h) r1
      | none => r
  | _ => r

theorem moveStreamsF_of {p : FPar} {c c' : FCfg} (hc : ConsF p c) (hb : LocBin p) (hl : LocalSingle p.Nsite p.locSpn c.num) (hNe : 0 < p.Ne)
    (hNs : 0 < p.Nsite) {r : List Nat} (hr : ∀ u ∈ r, u < drawBound) (h : StreamMoveF p c c' r) : r ∈ MoveStreamsF p c c' := by
  obtain ⟨st', _, h1, h2⟩ := streamMoveF_step acceptEveryF hc hb hl hNe hNs h (startAtF c) rfl 0 []
  exact ⟨hr, st', h1, by rw [h2]; rfl⟩

theorem revStreamF_maps {p : FPar} {T : Nat} (hNe : 0 < p.Ne) (hNs : 0 < p.Nsite) (hlb : LocBin p) (hT : p.Nsite ∣ T) (hTb : T ≤ drawBound)
    {c c' : FCfg} (hc : ConsF p c) (hl : LocalSingle p.Nsite p.locSpn c.num) (hl' : LocalSingle p.Nsite p.locSpn c'.num) (hne : c' ≠ c)
    {r : List Nat} (hr : r ∈ MoveStreamsBelowF p T c c') :
    revStreamF p c r ∈ MoveStreamsBelowF p T c' c ∧ revStreamF p c' (revStreamF p c r) = r ∧ (revStreamF p c r).length = r.length := by
  obtain ⟨⟨hb, st', h, hc'⟩, hT'⟩ := hr
  cases streamMoveF_of hne h hc' with
  | hopF pre u r1 hh e ht hz hu hm hcc =>
    subst e hcc
    have hm0 : makeCandidateHoppingF p c r1 = some ((hh, false), []) := by simpa using hm []
    obtain ⟨ok, _⟩ := hoppingF_ok hc hNe hNs _ hm0
    have hmem : r1 ∈ HopStreamsF p T c hh :=
      ⟨fun v hv => hb v (by simp [hv]), hm0, fun x r3 hx => (hT' (u :: r1) (ht _)).1 hz u r1 rfl hu x r3 hx⟩
    obtain ⟨h1, h2⟩ := relabelF_maps hNe hNs hT hTb hc hmem
    have e1 : revStreamF p c (pre ++ u :: r1) = pre ++ u :: relabelF p c (slotMap p hh) r1 := by
      unfold revStreamF
      rw [ht]
      simp only [if_pos hz, if_pos hu, hm0]
      rw [show (pre ++ u :: r1).length - r1.length = (pre ++ [u]).length by simp; omega,
        show pre ++ u :: r1 = (pre ++ [u]) ++ r1 by simp, List.take_left']
      · simp
      · rfl
    have e2 : revStreamF p (updateEleConfigF p hh c) (pre ++ u :: relabelF p c (slotMap p hh) r1) = pre ++ u :: r1 := by
      unfold revStreamF
      rw [ht]
      simp only [if_pos hz, if_pos hu, h1.2.1, h2]
      rw [show (pre ++ u :: relabelF p c (slotMap p hh) r1).length - (relabelF p c (slotMap p hh) r1).length = (pre ++ [u]).length by simp; omega,
        show pre ++ u :: relabelF p c (slotMap p hh) r1 = (pre ++ [u]) ++ relabelF p c (slotMap p hh) r1 by simp, List.take_left']
      · simp
      · rfl
    have hup := updateF_rev hc ok
    have hlen := relabelF_length (p := p) (c := c) (g := slotMap p hh) (fun l => mapPairs_length _ l) r1
    refine ⟨?_, by rw [e1, e2], by rw [e1]; simp [hlen]⟩
    rw [e1]
    refine ⟨moveStreamsF_of (updateF_cons hc ok) hlb hl' hNe hNs ?_ (.hopF pre u _ hh.rev rfl ht hz hu ?_ hup.symm), ?_⟩
    · intro v hv
      rcases List.mem_append.mp hv with hv | hv
      · exact hb v (by simp [hv])
      · rcases List.mem_cons.mp hv with rfl | hv
        · exact hb v (by simp)
        · exact h1.1 v hv
    · obtain ⟨pre2, e3, hp2⟩ := hoppingF_split _ h1.2.1
      rw [List.append_nil] at e3
      rw [e3]
      exact hp2
    · intro r1' hq
      rw [ht] at hq
      simp only [Option.some.injEq, Prod.mk.injEq, true_and] at hq
      subst hq
      refine ⟨fun _ v r2 ev _ x r3 hx => ?_, fun hz' => absurd hz hz'⟩
      simp only [List.cons.injEq] at ev
      rw [← ev.2] at hx
      exact h1.2.2 x r3 hx
  | cond pre u r1 hh e ht hz hu hm hcc =>
    subst e hcc
    have hm0 : conductionFlip p c 0 r1 = some ((hh, false), []) := by simpa using hm []
    obtain ⟨ok, _⟩ := conductionFlip_reverse hc hNe hm0
    have hup := updateF_rev hc ok
    have e1 : ∀ c2, revStreamF p c2 (pre ++ u :: r1) = pre ++ u :: r1 := by
      intro c2
      unfold revStreamF
      rw [ht]
      simp only [if_pos hz, if_neg hu]
    refine ⟨?_, by rw [e1, e1], by rw [e1]⟩
    rw [e1]
    refine ⟨moveStreamsF_of (updateF_cons hc ok) hlb hl' hNe hNs hb
      (.cond pre u r1 hh.rev rfl ht hz hu (fun tl => (conductionFlip_reverse hc hNe (hm tl)).2) hup.symm), ?_⟩
    intro r1' hq
    rw [ht] at hq
    simp only [Option.some.injEq, Prod.mk.injEq, true_and] at hq
    subst hq
    refine ⟨fun _ v r2 ev hv => ?_, fun hz' => absurd hz hz'⟩
    simp only [List.cons.injEq] at ev
    rw [← ev.1] at hv
    exact absurd hv hu
  | hopC pre r1 hh e ht hz hm hcc =>
    subst e hcc
    have hm0 : makeCandidateHoppingC p c r1 = some ((hh, false), []) := by simpa using hm []
    obtain ⟨ok, _⟩ := hoppingC_ok hc hNe hNs _ hm0
    have hmem : r1 ∈ HopStreamsC p T c hh :=
      ⟨fun v hv => hb v (by simp [hv]), hm0, fun x r3 hx => (hT' r1 (ht _)).2 hz x r3 hx⟩
    obtain ⟨h1, h2⟩ := relabelC_maps hNe hNs hT hTb hc hmem
    have e1 : revStreamF p c (pre ++ r1) = pre ++ relabelF p c (siteMap p hh) r1 := by
      unfold revStreamF
      rw [ht]
      simp only [if_neg hz, hm0]
      simp
    have e2 : revStreamF p (updateEleConfigF p hh c) (pre ++ relabelF p c (siteMap p hh) r1) = pre ++ r1 := by
      unfold revStreamF
      rw [ht]
      simp only [if_neg hz, h1.2.1, h2]
      simp
    have hup := updateF_rev hc ok
    have hlen := relabelF_length (p := p) (c := c) (g := siteMap p hh) (fun l => List.length_map _) r1
    refine ⟨?_, by rw [e1, e2], by rw [e1]; simp [hlen]⟩
    rw [e1]
    refine ⟨moveStreamsF_of (updateF_cons hc ok) hlb hl' hNe hNs ?_ (.hopC pre _ hh.rev rfl ht hz ?_ hup.symm), ?_⟩
    · intro v hv
      rcases List.mem_append.mp hv with hv | hv
      · exact hb v (by simp [hv])
      · exact h1.1 v hv
    · obtain ⟨pre2, e3, hp2⟩ := hoppingC_split _ h1.2.1
      rw [List.append_nil] at e3
      rw [e3]
      exact hp2
    · intro r1' hq
      rw [ht] at hq
      simp only [Option.some.injEq, Prod.mk.injEq, true_and] at hq
      subst hq
      exact ⟨fun hz' => absurd hz' hz, fun _ x r3 hx => h1.2.2 x r3 hx⟩
  | loc pre r1 hh e ht hm hcc =>
    subst e hcc
    have hm0 : localSpinFlip p c r1 = some (hh, []) := by simpa using hm []
    obtain ⟨ok, _⟩ := localSpinFlip_reverse hc hNe hlb hl hm0
    have hup := updateF_rev hc ok
    have e1 : ∀ c2, revStreamF p c2 (pre ++ r1) = pre ++ r1 := by
      intro c2
      unfold revStreamF
      rw [ht]
    refine ⟨?_, by rw [e1, e1], by rw [e1]⟩
    rw [e1]
    refine ⟨moveStreamsF_of (updateF_cons hc ok) hlb hl' hNe hNs hb
      (.loc pre r1 hh.rev rfl ht (fun tl => (localSpinFlip_reverse hc hNe hlb hl (hm tl)).2.2.2) hup.symm), ?_⟩
    intro r1' hq
    rw [ht] at hq
    simp at hq
  | exch pre r1 hh e ht hm hcc =>
    subst e hcc
    have hm0 : makeCandidateExchangeF p c r1 = some (some hh, []) := by simpa using hm []
    have x := exchOKF_of hc hNe hm0
    have hback := exchF_rev hc x
    have e1 : ∀ c2, revStreamF p c2 (pre ++ r1) = pre ++ r1 := by
      intro c2
      unfold revStreamF
      rw [ht]
    refine ⟨?_, by rw [e1, e1], by rw [e1]⟩
    rw [e1]
    refine ⟨moveStreamsF_of (exchF_cons hc x) hlb hl' hNe hNs hb
      (.exch pre r1 hh.rev rfl ht (fun tl => exchangeF_reverse hc hNe (hm tl)) hback.symm), ?_⟩
    intro r1' hq
    rw [ht] at hq
    simp at hq

theorem moveStreamsF_det {p : FPar} {c c' c'' : FCfg} {r : List Nat} (h1 : r ∈ MoveStreamsF p c c') (h2 : r ∈ MoveStreamsF p c c'') : c' = c'' := by
  obtain ⟨_, s, a, b⟩ := h1
  obtain ⟨_, s', a', b'⟩ := h2
  rw [a] at a'
  simp only [Option.some.injEq, Prod.mk.injEq, and_true] at a'
  rw [← b, ← b', a']

theorem moveStreamsF_prefix {p : FPar} (hNe : 0 < p.Ne) (hNs : 0 < p.Nsite) (hlb : LocBin p) (c : CfgStateF p) :
    PrefixFree {r | ∃ c' : CfgStateF p, c' ≠ c ∧ r ∈ MoveStreamsF p c.1 c'.1} := by
  rintro r s ⟨c', hne, hr⟩ ⟨c'', _, hrs⟩
  cases s with
  | nil => rfl
  | cons u s =>
    obtain ⟨_, st', h, hc'⟩ := hr
    have hm := streamMoveF_of (fun q => hne (Subtype.ext q)) h hc'
    obtain ⟨_, _, h1, _⟩ := streamMoveF_step acceptEveryF c.2.1 hlb c.2.2 hNe hNs hm (startAtF c.1) rfl u (s ++ [0])
    obtain ⟨_, st2, h2, _⟩ := hrs
    rw [List.append_assoc] at h2
    rw [show (u :: s) ++ [0] = u :: (s ++ [0]) from rfl, h1] at h2
    simp at h2

theorem movesF_le_one {p : FPar} (hNe : 0 < p.Ne) (hNs : 0 < p.Nsite) (hlb : LocBin p) (M : CfgStateF p → CfgStateF p → Set (List Nat))
    (hM : ∀ c c', M c c' ⊆ MoveStreamsF p c.1 c'.1) (W : CfgStateF p → ℝ≥0∞) (c : CfgStateF p) :
    leaveProb drawBound M W c ≤ 1 :=
  move_le_one drawBound_pos c (fun c' _ r hr => (hM c c' hr).1) (fun c' c'' r _ _ h1 h2 => Subtype.ext (moveStreamsF_det (hM _ _ h1) (hM _ _ h2)))
    (fun r s h1 h2 => moveStreamsF_prefix hNe hNs hlb c r s (by obtain ⟨c', a, b⟩ := h1; exact ⟨c', a, hM _ _ b⟩) (by obtain ⟨c', a, b⟩ := h2; exact ⟨c', a, hM _ _ b⟩))

/-- C71, general Sz: detailed balance between any two different states, over all ways to propose the move. Partial as `C71_balance_partial`. -/
theorem C71_balance_fsz_partial (p : FPar) (T : Nat) (hNe : 0 < p.Ne) (hNs : 0 < p.Nsite) (hlb : ∀ r < p.Nsite, p.locSpn r = 0 ∨ p.locSpn r = 1)
    (hT : p.Nsite ∣ T) (hTb : T ≤ drawBound) (W : CfgStateF p → ℝ≥0∞) (hW : ∀ c, W c ≠ ⊤) (c c' : CfgStateF p) (hne : c ≠ c') :
    W c * moveProb drawBound (fun a b => MoveStreamsBelowF p T a.1 b.1) W c c' =
      W c' * moveProb drawBound (fun a b => MoveStreamsBelowF p T a.1 b.1) W c' c := by
  have h1 := fun r (hr : r ∈ MoveStreamsBelowF p T c.1 c'.1) =>
    revStreamF_maps hNe hNs hlb hT hTb c.2.1 c.2.2 c'.2.2 (fun q => hne (Subtype.ext q.symm)) hr
  have h2 := fun r (hr : r ∈ MoveStreamsBelowF p T c'.1 c.1) =>
    revStreamF_maps hNe hNs hlb hT hTb c'.2.1 c'.2.2 c.2.2 (fun q => hne (Subtype.ext q)) hr
  have hbij : Set.BijOn (revStreamF p c.1) (MoveStreamsBelowF p T c.1 c'.1) (MoveStreamsBelowF p T c'.1 c.1) :=
    Set.InvOn.bijOn (f' := revStreamF p c'.1) ⟨fun r hr => (h1 r hr).2.1, fun r hr => (h2 r hr).2.1⟩ (fun r hr => (h1 r hr).1) (fun r hr => (h2 r hr).1)
  generalize drawBound = B
  exact move_balance (X := CfgStateF p) (B := B) (M := fun a b => MoveStreamsBelowF p T a.1 b.1) (W := W) hW hbij (fun r hr => (h1 r hr).2.2)

/-- C71, general Sz: the weights are a stationary distribution. Partial as `C71_balance_partial`. -/
theorem C71_stationary_fsz_partial (p : FPar) (T : Nat) (hNe : 0 < p.Ne) (hNs : 0 < p.Nsite) (hlb : ∀ r < p.Nsite, p.locSpn r = 0 ∨ p.locSpn r = 1)
    (hT : p.Nsite ∣ T) (hTb : T ≤ drawBound) (W : CfgStateF p → ℝ≥0∞) (hW : ∀ c, W c ≠ ⊤) :
    pushStep (metroKernel drawBound (fun a b : CfgStateF p => MoveStreamsBelowF p T a.1 b.1) W) W = W :=
  metro_stationary (C71_balance_fsz_partial p T hNe hNs hlb hT hTb W hW) (movesF_le_one hNe hNs hlb _ (fun _ _ _ h => h.1) W)

theorem fairPairs_of (T : Nat) (r : List Nat) (h : ∀ u ∈ r, u < T) : FairPairs T r := by
  fun_induction FairPairs T r with
  | case1 u v r ih => exact ⟨h u (by simp), ih (fun x hx => h x (by simp [hx]))⟩
  | case2 => trivial

theorem moveStreamsF_all (p : FPar) (c c' : FCfg) : MoveStreamsBelowF p drawBound c c' = MoveStreamsF p c c' := by
  ext r
  refine ⟨fun h => h.1, fun h => ⟨h, ?_⟩⟩
  intro r1 ht
  obtain ⟨pre, e, _⟩ := updateType_split _ _ _ _ ht
  refine ⟨?_, ?_⟩
  · intro _ u r2 e2 _ x r3 hx
    obtain ⟨pre2, e3, _⟩ := pickItinerantF_split r2 hx
    refine fairPairs_of _ _ (fun v hv => h.1 v ?_)
    rw [e, e2, e3]
    simp [hv]
  · intro _ x r3 hx v hv
    obtain ⟨pre2, e3, _⟩ := pickItinerantF_split r1 hx
    refine h.1 v ?_
    rw [e, e3]
    simp [hv]

/-- C71, general Sz: if the number of sites divides `2^32`, any number of steps leaves the weights unchanged. -/
theorem C71_steps_fsz (p : FPar) (hNe : 0 < p.Ne) (hNs : 0 < p.Nsite) (hlb : ∀ r < p.Nsite, p.locSpn r = 0 ∨ p.locSpn r = 1)
    (hd : p.Nsite ∣ drawBound) (W : CfgStateF p → ℝ≥0∞) (hW : ∀ c, W c ≠ ⊤) (n : Nat) :
    (pushStep (metroKernel drawBound (fun a b : CfgStateF p => MoveStreamsF p a.1 b.1) W))^[n] W = W := by
  have h1 := C71_stationary_fsz_partial p drawBound hNe hNs hlb hd le_rfl W hW
  rw [show (fun a b : CfgStateF p => MoveStreamsBelowF p drawBound a.1 b.1) = fun a b => MoveStreamsF p a.1 b.1 from
    funext fun a => funext fun b => moveStreamsF_all p a.1 b.1] at h1
  induction n with
  | zero => rfl
  | succ n ih => rw [Function.iterate_succ_apply, h1, ih]

/-- C71, general Sz: the transition probabilities from a state add up to one. -/
theorem C71_total_fsz (p : FPar) (hNe : 0 < p.Ne) (hNs : 0 < p.Nsite) (hlb : ∀ r < p.Nsite, p.locSpn r = 0 ∨ p.locSpn r = 1)
    (W : CfgStateF p → ℝ≥0∞) (c : CfgStateF p) :
    ∑' c', metroKernel drawBound (fun a b : CfgStateF p => MoveStreamsF p a.1 b.1) W c c' = 1 :=
  metro_total (movesF_le_one hNe hNs hlb _ (fun _ _ _ h => h) W) c

/-! ### the weight `|Ψ|²` -/

/-- the sampler parameters that belong to the data `g` -/
abbrev GrnEnv.fszPar (g : GrnEnv) (ls : Nat → Int) (ex tz : Int) : FPar := ⟨g.p.Ne, g.p.Nsite, ls, ex, tz⟩

structure NewOKF (g : GrnEnv) (c' : FCfg) (n : SzNew) : Prop where
  ip : n.ip = amplitude (2 * g.p.Ne) (2 * g.p.Nsite) g.slt g.w 0 g.nQP (occF g.p.Nsite c'.idx c'.spn)
  proj : ∀ k < g.q.NProj, n.projCnt k = makeProjCnt g.q c'.num k

section
variable {g : GrnEnv} (hg : GrnOK g) (lib : SkLib ℂ) (mF : FCfg → SzMem → PfState ℂ × ℂ) (ls : Nat → Int) (ex tz : Int)
include hg

theorem newOKF_move {c : FCfg} {h : FMove} {b : SzMem} (hc : ConsF (g.fszPar ls ex tz) c) (ok : MoveOK (g.fszPar ls ex tz) c h) (hq : FszCarry g c b) :
    NewOKF g (updateEleConfigF (g.fszPar ls ex tz) h c)
      ((fszHooks g lib mF).propMove (updateEleConfigF (g.fszPar ls ex tz) h c) h b) := by
  have hc' := updateF_cons hc ok
  have hN : g.q.Nsite = (g.fszPar ls ex tz).Nsite := hg.hq
  refine ⟨?_, ?_⟩
  · refine calculateIPLocal_eq (fun q hqq => ?_)
    exact newPfMFsz_ok (p := g.p) (idx := c.idx) (spn := c.spn) ok.mi (by have := hg.skew q (by omega); rw [Nat.add_zero]; exact this)
      (onSites_of_consF hc) (onSites_of_consF hc') (spins_of_consF hc') (set_self _ _ _)
      (fun i _ hne => ⟨set_ne hne, set_ne hne⟩) hqq hq.1.1.1
  · intro i hi
    show (if h.s = h.t then updateProjCnt g.q h.ri h.rj b.projCnt _ else updateProjCntFsz g.q h.ri h.rj b.projCnt _) i = _
    rw [updateFsz_eq, ite_self, ← updateFsz_eq]
    exact move_counts hg.tab (move_numHop hN hc ok) _ hq.2 i hi

theorem newOKF_exch {c : FCfg} {h : FMove} {b : SzMem} (hc : ConsF (g.fszPar ls ex tz) c) (x : ExchOKF (g.fszPar ls ex tz) c h) (hq : FszCarry g c b) :
    NewOKF g (exchCfgF (g.fszPar ls ex tz) c h)
      ((fszHooks g lib mF).propExch (updateEleConfigF (g.fszPar ls ex tz) h c) (exchCfgF (g.fszPar ls ex tz) c h) h
        (partnerMove (g.fszPar ls ex tz) c h) b) := by
  have ok := x.ok
  have ok2 := x.ok2
  have hc1 := updateF_cons hc ok
  have hc2 := updateF_cons hc1 ok2
  have hN : g.q.Nsite = (g.fszPar ls ex tz).Nsite := hg.hq
  have hmm := exchF_mi_ne x
  refine ⟨?_, ?_⟩
  · refine calculateIPLocal_eq (fun q hqq => ?_)
    refine newPfMTwoFsz_ok (p := g.p) (idx := c.idx) (spn := c.spn) ok.mi ok2.mi (by have := hg.skew q (by omega); rw [Nat.add_zero]; exact this)
      (onSites_of_consF hc) (onSites_of_consF hc2) (spins_of_consF hc2) ok.s ok2.s ?_ ?_ ?_ hqq hq.1.1.1
    · show (c.spn.set _ _).set _ _ h.mi = _
      rw [set_ne hmm.symm, set_self, x.st]
    · show (c.spn.set _ _).set _ _ (partnerMove _ c h).mi = _
      rw [set_self]
      rfl
    · intro i _ n1 n2
      constructor
      · show (c.idx.set _ _).set _ _ i = _
        rw [set_ne n2, set_ne n1]
      · show (c.spn.set _ _).set _ _ i = _
        rw [set_ne n2, set_ne n1]
  · intro i hi
    show updateProjCnt g.q _ _ (updateProjCnt g.q _ _ _ _) _ i = _
    rw [← updateFsz_eq, ← updateFsz_eq]
    refine move_counts hg.tab (move_numHop hN hc1 ok2) _ ?_ i hi
    intro j hj
    exact move_counts hg.tab (move_numHop hN hc ok) _ hq.2 j hj

theorem acceptF_iff (hf : g.flagRBM = false) {c c' : FCfg} {b : SzMem} {n : SzNew} (hc : ConsF (g.fszPar ls ex tz) c)
    (hc' : ConsF (g.fszPar ls ex tz) c') (hq : FszCarry g c b) (hn : NewOKF g c' n) (u : Nat) :
    (fszHooks g lib mF).accept b n u = true ↔ Accepted (‖psi g (fszList g c')‖ ^ 2 / ‖psi g (fszList g c)‖ ^ 2) u := by
  have hr : g.flagRBM = true → GrnRBM g := fun h => by rw [hf] at h; simp at h
  have hpl := placed_fsz (g := g) (c := c) hc
  have hpl' := placed_fsz (g := g) (c := c') hc'
  have hps : psi g (fszList g c) = corrSpec g c.num * b.ip := by
    rw [show fszList g c = occList _ _ from rfl, psi_placed hg hr hpl, hq.1.1.2]; rfl
  have hps' : psi g (fszList g c') = corrSpec g c'.num * n.ip := by
    rw [show fszList g c' = occList _ _ from rfl, psi_placed hg hr hpl', hn.ip]
  rw [hps, hps']
  refine metropolis_iff ?_ hq.1.2 u
  have hproj : (Real.exp (logProjRatio g.q.NProj g.Proj n.projCnt b.projCnt) : ℂ) = (projSpec g.q g.Proj c'.num : ℂ) / (projSpec g.q g.Proj c.num : ℂ) :=
    projRatio_spec hg hpl.bin hpl'.bin hn.proj hq.2
  have hproj' : Real.exp (logProjRatio g.q.NProj g.Proj n.projCnt b.projCnt) = projSpec g.q g.Proj c'.num / projSpec g.q g.Proj c.num := by
    exact_mod_cast hproj
  rw [hproj']
  unfold corrSpec
  simp only [hf, norm_mul, Complex.norm_real, Real.norm_eq_abs]
  rw [abs_of_pos (show 0 < projSpec g.q g.Proj c'.num from Real.exp_pos _), abs_of_pos (show 0 < projSpec g.q g.Proj c.num from Real.exp_pos _)]
  simp

end

/-- C71, general Sz, without Boltzmann machine: the draw after the proposal moves to `c'` exactly if `u/2^32 < |Ψ(c')|²/|Ψ(c)|²`; the chain's
quantities stay exact. -/
theorem C71_accept_fsz (g : GrnEnv) (hg : GrnOK g) (hf : g.flagRBM = false) (hz : NoZero g) (lib : SkLib ℂ) (hlib : LibOK lib) (htot : LibTotal lib)
    (mF : FCfg → SzMem → PfState ℂ × ℂ) (ls : Nat → Int) (ex tz : Int) (hNe : 0 < g.p.Ne) (hNs : 0 < g.p.Nsite)
    (hlb : ∀ r < g.p.Nsite, ls r = 0 ∨ ls r = 1) (M : Int)
    (st : FState SzMem) (hi : FInv (g.fszPar ls ex tz) (FszCarry g) M st) (c' : CfgStateF (g.fszPar ls ex tz)) (hne : c'.1 ≠ st.c)
    (r : List Nat) (hs : r ∈ MoveStreamsF (g.fszPar ls ex tz) st.c c'.1) (u : Nat) (tl : List Nat) :
    ∃ st', innerStepF (fszHooks g lib mF) (g.fszPar ls ex tz) st (r ++ u :: tl) = some (st', tl) ∧ FInv (g.fszPar ls ex tz) (FszCarry g) M st' ∧
      (Accepted (‖psi g (fszList g c'.1)‖ ^ 2 / ‖psi g (fszList g st.c)‖ ^ 2) u → st'.c = c'.1) ∧
      (¬ Accepted (‖psi g (fszList g c'.1)‖ ^ 2 / ‖psi g (fszList g st.c)‖ ^ 2) u → st'.c = st.c) := by
  obtain ⟨_, st0, h0, h1⟩ := hs
  obtain ⟨st', n, hn, e, ec⟩ := streamMoveF_stepP (fszHooks g lib mF) hi.cons hlb hi.loc hNe hNs (streamMoveF_of hne h0 h1) st rfl u tl
    (P := NewOKF g c'.1)
    (fun h ok e => by rw [e]; exact newOKF_move hg lib mF ls ex tz hi.cons ok hi.q)
    (fun h x e => by rw [e]; exact newOKF_exch hg lib mF ls ex tz hi.cons x hi.q)
  have hacc := acceptF_iff hg lib mF ls ex tz hf hi.cons c'.2.1 hi.q hn u
  refine ⟨st', e, innerStepF_inv (fszCarry_qok hg hlib htot hz mF (g.fszPar ls ex tz) rfl) hNe hNs hlb hi e, ?_, ?_⟩
  · intro ha; rw [ec, if_pos (hacc.mpr ha)]
  · intro ha; rw [ec, if_neg (fun q => ha (hacc.mp q))]

/-- C71, general Sz: `|Ψ|²` is invariant under any number of steps. -/
theorem C71_psi_fsz (g : GrnEnv) (ls : Nat → Int) (ex tz : Int) (hNe : 0 < g.p.Ne) (hNs : 0 < g.p.Nsite)
    (hlb : ∀ r < g.p.Nsite, ls r = 0 ∨ ls r = 1) (hd : g.p.Nsite ∣ drawBound) (n : Nat) :
    (pushStep (metroKernel drawBound (fun a b : CfgStateF (g.fszPar ls ex tz) => MoveStreamsF (g.fszPar ls ex tz) a.1 b.1)
      (fun c => ENNReal.ofReal (‖psi g (fszList g c.1)‖ ^ 2))))^[n]
      (fun c => ENNReal.ofReal (‖psi g (fszList g c.1)‖ ^ 2)) = fun c => ENNReal.ofReal (‖psi g (fszList g c.1)‖ ^ 2) :=
  C71_steps_fsz (g.fszPar ls ex tz) hNe hNs hlb hd _ (fun _ => ENNReal.ofReal_ne_top) n

/-- the streams of a hop with spin flip (first draw: hopping, second: free spin) in the example of C19 -/
example : [2147483648, 0, 6, 5, 2147483650, 2, 2147483649] ∈
    MoveStreamsF balParF balCfgF (updateEleConfigF balParF ⟨0, 0, 2, 0, 1⟩ balCfgF) :=
  ⟨by decide, _, rfl, rfl⟩

end MVMC
