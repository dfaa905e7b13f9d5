import Verif.Proof.ReachF

/-! # The general-Sz sampler's chain on the configurations it can reach -/
namespace MVMC
open Spec Finset
open scoped ENNReal

/-- transition probabilities of one step of the general-Sz sampler (`T`: bound of the draws of target sites) -/
noncomputable def chainKF (p : FPar) (T : Nat) (W : CfgStateF p → ℝ≥0∞) : CfgStateF p → CfgStateF p → ℝ≥0∞ :=
  metroKernel drawBound (fun a b : CfgStateF p => MoveStreamsBelowF p T a.1 b.1) W

theorem validF (p : FPar) (c : CfgStateF p) : ValidF p c.1 := ⟨c.2.1, c.2.2⟩

section chain
variable {p : FPar} {T : Nat} {W : CfgStateF p → ℝ≥0∞} (hNe : 0 < p.Ne) (hNs : 0 < p.Nsite) (hlb : LocBin p)

include hNe hNs hlb in
theorem chainF_leave_le (c : CfgStateF p) : leaveProb drawBound (fun a b : CfgStateF p => MoveStreamsBelowF p T a.1 b.1) W c ≤ 1 :=
  movesF_le_one hNe hNs hlb _ (fun _ _ _ h => h.1) W c

include hNe hNs hlb in
theorem chainF_mv {c c' : CfgStateF p} (hW : W c ≠ ⊤) (hne : c' ≠ c) (h : CanStep (chainKF p T W) c c') : MvF p c.1 c'.1 ∧ W c' ≠ 0 := by
  unfold CanStep chainKF metroKernel at h
  rw [if_neg (fun q => hne q.symm), moveProb_ne drawBound_pos hW] at h
  obtain ⟨⟨r, hr⟩, h2⟩ := h
  exact ⟨mvF_of_stream hNe hNs hlb (validF p c) (fun q => hne (Subtype.ext q)) hr.1, h2⟩

include hNe hNs hlb in
theorem chainF_step {c c' : CfgStateF p} (hW : W c ≠ ⊤) (hT : p.Nsite ≤ T) (hTb : T ≤ drawBound) (hb2 : 2 * p.Nsite ≤ drawBound) (hne : c' ≠ c)
    (h : MvF p c.1 c'.1) (h2 : W c' ≠ 0) : CanStep (chainKF p T W) c c' := by
  unfold CanStep chainKF metroKernel
  rw [if_neg (fun q => hne q.symm), moveProb_ne drawBound_pos hW]
  obtain ⟨r, hr⟩ := stream_of_mvF hNe hNs hlb hT hTb hb2 (validF p c) h
  exact ⟨⟨r, hr⟩, h2⟩

/-! ## Steps that stay -/

/-- A hop whose target is drawn occupied until the code gives up. -/
theorem reject_hopF {s x : Nat} {c : FCfg} (hc : ConsF p c) (hp : HopPathF p) (hz : p.twoSz = -1) (hs : s < 2) (hx : x < p.Nsite)
    (ho : x + s * p.Nsite ∈ OccF p c) (lx : p.locSpn x ≠ 1) (hb : 2 * p.Nsite ≤ drawBound) :
    ∃ r : List Nat, (∀ u ∈ r, u < drawBound) ∧ ∀ tl, ∃ st', innerStepF acceptEveryF p (startAtF c) (r ++ tl) = some (st', tl) ∧ st'.c = c := by
  obtain ⟨pre, hb1, ht⟩ := hopPathF_pre hp
  obtain ⟨m, hm, e, e1, e2⟩ := occF_electron hc hs hx ho
  have hle := nsize_le hc
  have pt : ∀ n icnt tl, icnt + n = p.Nsite * p.Nsite + 1 →
      pickTargetF p c icnt ((List.replicate (n + 1) [x, spinDraw s]).flatten ++ tl) = some ((x, s, true), tl) := by
    intro n
    induction n with
    | zero =>
      intro icnt tl h
      show pickTargetF p c icnt (x :: spinDraw s :: tl) = _
      rw [pickTargetF]
      rw [if_pos (by omega)]
      simp [Nat.mod_eq_of_lt hx, coin_spinDraw hs]
    | succ n ih =>
      intro icnt tl h
      rw [List.replicate_succ, List.flatten_cons, List.append_assoc]
      show pickTargetF p c icnt (x :: spinDraw s :: ((List.replicate (n + 1) [x, spinDraw s]).flatten ++ tl)) = _
      rw [pickTargetF]
      simp only [Nat.mod_eq_of_lt hx, coin_spinDraw hs]
      rw [if_neg (by omega), if_pos (Or.inl (by rw [e]; omega))]
      exact ih _ _ (by omega)
  refine ⟨pre ++ (0 :: m :: (List.replicate (p.Nsite * p.Nsite + 2) [x, spinDraw s]).flatten), ?_, ?_⟩
  · intro u hu
    rcases List.mem_append.mp hu with hu | hu
    · exact hb1 u hu
    · rcases List.mem_cons.mp hu with rfl | hu
      · exact drawBound_pos
      rcases List.mem_cons.mp hu with rfl | hu
      · omega
      obtain ⟨l, hl, hul⟩ := List.mem_flatten.mp hu
      rw [(List.mem_replicate.mp hl).2] at hul
      simp only [List.mem_cons, List.not_mem_nil, or_false] at hul
      rcases hul with rfl | rfl
      · omega
      · exact spinDraw_lt _
  · intro tl
    have hcand : makeCandidateHoppingF p c (m :: ((List.replicate (p.Nsite * p.Nsite + 2) [x, spinDraw s]).flatten ++ tl)) = some ((⟨m, x, x, s, s⟩, true), tl) := by
      unfold makeCandidateHoppingF
      rw [pickItinerantF]
      simp only [Nat.mod_eq_of_lt hm, e1, e2, Int.toNat_natCast]
      rw [if_neg lx]
      simp only
      rw [pt (p.Nsite * p.Nsite + 1) 0 tl (by omega)]
    have hop : hopCandidateF p c (0 :: m :: ((List.replicate (p.Nsite * p.Nsite + 2) [x, spinDraw s]).flatten ++ tl)) = some ((true, ⟨m, x, x, s, s⟩, true), tl) := by
      unfold hopCandidateF
      rw [if_pos hz]
      simp only
      rw [if_pos (by decide), hcand]
    refine ⟨{ startAtF c with cnt := bump (startAtF c).cnt 0 }, ?_, rfl⟩
    unfold innerStepF
    rw [List.append_assoc, ht]
    simp only
    rw [show (startAtF c).c = c from rfl, List.cons_append, List.cons_append, hop]
    rfl

/-- An exchange when no two singly occupied sites have opposite spins. -/
theorem reject_exchF {c : FCfg} (hp : ExchPathF p) (hs : scanPair p c (List.range p.Nsite) 0 0 = false) :
    ∃ r : List Nat, (∀ u ∈ r, u < drawBound) ∧ ∀ tl, ∃ st', innerStepF acceptEveryF p (startAtF c) (r ++ tl) = some (st', tl) ∧ st'.c = c := by
  obtain ⟨pre, hb1, ht⟩ := exchPathF_pre hp
  refine ⟨pre, hb1, fun tl => ⟨{ startAtF c with cnt := bump (startAtF c).cnt 2 }, ?_, rfl⟩⟩
  unfold innerStepF
  rw [ht]
  simp only
  have : makeCandidateExchangeF p (startAtF c).c tl = some (none, tl) := by
    unfold makeCandidateExchangeF
    rw [show (startAtF c).c = c from rfl, if_neg (by rw [hs]; simp)]
  rw [this]

include hNe hNs hlb in
/-- a stream that proposes nothing lets the chain stay -/
theorem chainF_hold {c : CfgStateF p} {r : List Nat} (hr : ∀ u ∈ r, u < drawBound)
    (hstep : ∀ tl, ∃ st', innerStepF acceptEveryF p (startAtF c.1) (r ++ tl) = some (st', tl) ∧ st'.c = c.1) : chainKF p T W c c ≠ 0 := by
  have key : ∀ r' s, (∃ c' : CfgStateF p, c' ≠ c ∧ r' ∈ MoveStreamsBelowF p T c.1 c'.1) → r' ++ s ≠ r ∧ r ++ s ≠ r' := by
    rintro r' s ⟨c', hne, hr'⟩
    obtain ⟨_, st', h, hc'⟩ := hr'.1
    have hne' : c'.1 ≠ c.1 := fun q => hne (Subtype.ext q)
    have hm := streamMoveF_of hne' h hc'
    constructor
    · rintro rfl
      cases s with
      | nil =>
        rw [List.append_nil] at hstep
        obtain ⟨st1, h1, e1⟩ := hstep [0]
        rw [h] at h1
        simp at h1
      | cons u s =>
        obtain ⟨st1, h1, e1⟩ := hstep []
        obtain ⟨st2, g, h2, e2⟩ := streamMoveF_step acceptEveryF c.2.1 hlb c.2.2 hNe hNs hm (startAtF c.1) rfl u s
        rw [List.append_nil, h2] at h1
        simp only [Option.some.injEq, Prod.mk.injEq] at h1
        rw [← h1.1, e2] at e1
        exact hne' (by simpa [acceptEveryF] using e1)
    · rintro rfl
      obtain ⟨st1, h1, e1⟩ := hstep (s ++ [0])
      rw [← List.append_assoc, h] at h1
      simp at h1
  have hn : r ∉ {r | ∃ c' : CfgStateF p, c' ≠ c ∧ r ∈ MoveStreamsBelowF p T c.1 c'.1} := fun q => (key r [] q).1 (List.append_nil r)
  have hlt : leaveProb drawBound (fun a b : CfgStateF p => MoveStreamsBelowF p T a.1 b.1) W c < 1 := by
    refine leave_lt_one drawBound_pos c (fun c' _ r hr => hr.1.1) (fun c' c'' r _ _ h1 h2 => Subtype.ext (moveStreamsF_det h1.1 h2.1)) r hr hn ?_
    rintro a b (ha | ha) (hab | hab)
    · obtain ⟨c', x1, x2⟩ := ha
      obtain ⟨c'', y1, y2⟩ := hab
      exact moveStreamsF_prefix hNe hNs hlb c a b ⟨c', x1, x2.1⟩ ⟨c'', y1, y2.1⟩
    · exact absurd (Set.mem_singleton_iff.mp hab) (key a b ha).1
    · rw [Set.mem_singleton_iff] at ha
      subst ha
      exact absurd rfl (key _ b hab).2
    · rw [Set.mem_singleton_iff] at ha hab
      subst ha
      exact List.append_right_eq_self.mp hab
  unfold chainKF metroKernel
  rw [if_pos rfl]
  exact (tsub_pos_of_lt hlt).ne'

/-! ## The class of a state is finite -/

/-- the tables agree outside the index range -/
structure FrameF (p : FPar) (c c' : FCfg) : Prop where
  idx : ∀ i, p.Nsize ≤ i → c'.idx i = c.idx i
  spn : ∀ i, p.Nsize ≤ i → c'.spn i = c.spn i
  cfg : ∀ i, 2 * p.Nsite ≤ i → c'.cfg i = c.cfg i
  num : ∀ i, 2 * p.Nsite ≤ i → c'.num i = c.num i

theorem frameF_update {c : FCfg} {h : FMove} (ok : MoveOK p c h) : FrameF p c (updateEleConfigF p h c) := by
  have a := ok.mi
  have b := flat_lt ok.s ok.ri
  have d := flat_lt ok.t ok.rj
  refine ⟨fun i hi => ?_, fun i hi => ?_, fun i hi => ?_, fun i hi => ?_⟩ <;> simp only [updateEleConfigF, Arr.set]
  · rw [if_neg (by omega)]
  · rw [if_neg (by omega)]
  · rw [if_neg (by omega), if_neg (by omega)]
  · rw [if_neg (by omega), if_neg (by omega)]

theorem FrameF.trans {a b c : FCfg} (h : FrameF p a b) (h' : FrameF p b c) : FrameF p a c :=
  ⟨fun i hi => (h'.idx i hi).trans (h.idx i hi), fun i hi => (h'.spn i hi).trans (h.spn i hi), fun i hi => (h'.cfg i hi).trans (h.cfg i hi),
    fun i hi => (h'.num i hi).trans (h.num i hi)⟩

theorem FrameF.rfl' (c : FCfg) : FrameF p c c := ⟨fun _ _ => rfl, fun _ _ => rfl, fun _ _ => rfl, fun _ _ => rfl⟩

theorem MvF.frame {c c' : FCfg} (h : MvF p c c') : FrameF p c c' := by
  cases h with
  | hop _ h ok _ _ => exact frameF_update ok
  | flip _ h ok _ _ _ => exact frameF_update ok
  | exch _ h ok => exact (frameF_update ok.ok).trans (frameF_update ok.ok2)

theorem cfgF_of_idx {c a b : FCfg} (ha : ConsF p a) (hb : ConsF p b) (fa : FrameF p c a) (fb : FrameF p c b)
    (h : ∀ i < p.Nsize, a.idx i = b.idx i) (h' : ∀ i < p.Nsize, a.spn i = b.spn i) : a = b := by
  have hs : ∀ i, 2 * p.Nsite ≤ i ∨ ∃ s < 2, ∃ r < p.Nsite, i = r + s * p.Nsite := fun i => by
    by_cases q : 2 * p.Nsite ≤ i
    · exact Or.inl q
    · exact Or.inr (flat_split (by omega))
  have key : ∀ s < 2, ∀ r < p.Nsite, a.cfg (r + s * p.Nsite) = b.cfg (r + s * p.Nsite) ∧ a.num (r + s * p.Nsite) = b.num (r + s * p.Nsite) := by
    intro s hs' r hr
    rcases ha.site s hs' r hr with q | ⟨m, hm, q1, q2, q2', q3⟩
    · rcases hb.site s hs' r hr with w | ⟨m', hm', w1, w2, w2', w3⟩
      · exact ⟨q.1.trans w.1.symm, q.2.trans w.2.symm⟩
      · rw [← h _ hm'] at w2
        rw [← h' _ hm'] at w2'
        have := (consF_back ha hm' w2 w2').2.2.1
        omega
    · rw [h _ hm] at q2
      rw [h' _ hm] at q2'
      have := consF_back hb hm q2 q2'
      exact ⟨q1.trans this.2.2.1.symm, q3.trans this.2.2.2.symm⟩
  obtain ⟨ai, asp, ac, an⟩ := a
  obtain ⟨bi, bsp, bc, bn⟩ := b
  simp only [FCfg.mk.injEq]
  refine ⟨funext fun i => ?_, funext fun i => ?_, funext fun i => ?_, funext fun i => ?_⟩
  · by_cases q : i < p.Nsize
    · exact h i q
    · exact (fa.idx i (by omega)).trans (fb.idx i (by omega)).symm
  · by_cases q : i < p.Nsize
    · exact h' i q
    · exact (fa.spn i (by omega)).trans (fb.spn i (by omega)).symm
  · rcases hs i with q | ⟨s, hs', r, hr, rfl⟩
    · exact (fa.cfg i q).trans (fb.cfg i q).symm
    · exact (key s hs' r hr).1
  · rcases hs i with q | ⟨s, hs', r, hr, rfl⟩
    · exact (fa.num i q).trans (fb.num i q).symm
    · exact (key s hs' r hr).2

theorem frameF_finite (c0 : CfgStateF p) : {c : CfgStateF p | FrameF p c0.1 c.1}.Finite := by
  have hr : ∀ (c : CfgStateF p) (i : Fin p.Nsize), ((c.1.idx i).toNat < p.Nsite ∧ ((c.1.idx i).toNat : Int) = c.1.idx i) ∧
      (c.1.spn i).toNat < 2 ∧ ((c.1.spn i).toNat : Int) = c.1.spn i := by
    intro c i
    obtain ⟨r, hr, s, hs, h1, h2, _⟩ := c.2.1.electron i i.2
    rw [h1, h2]
    exact ⟨⟨by simpa using hr, by simp⟩, by simpa using hs, by simp⟩
  refine Set.Finite.of_injOn (f := fun c : CfgStateF p => fun i : Fin p.Nsize =>
      ((⟨(c.1.idx i).toNat, (hr c i).1.1⟩ : Fin p.Nsite), (⟨(c.1.spn i).toNat, (hr c i).2.1⟩ : Fin 2)))
    (t := Set.univ) (fun _ _ => Set.mem_univ _) ?_ Set.finite_univ
  intro a ha b hb e
  refine Subtype.ext (cfgF_of_idx a.2.1 b.2.1 ha hb (fun i hi => ?_) (fun i hi => ?_))
  · have := congrArg (fun q => q.1.val) (congrFun e ⟨i, hi⟩)
    simp only at this
    rw [← (hr a ⟨i, hi⟩).1.2, ← (hr b ⟨i, hi⟩).1.2, this]
  · have := congrArg (fun q => q.2.val) (congrFun e ⟨i, hi⟩)
    simp only at this
    rw [← (hr a ⟨i, hi⟩).2.2, ← (hr b ⟨i, hi⟩).2.2, this]

include hNe hNs hlb in
theorem reachF_frame (hW : ∀ c, W c ≠ ⊤) {c0 c : CfgStateF p} (h : CanReach (chainKF p T W) c0 c) : FrameF p c0.1 c.1 := by
  induction h with
  | refl => exact FrameF.rfl' _
  | @step a b _ hs ih =>
    by_cases e : b = a
    · rw [e]; exact ih
    · exact ih.trans (chainF_mv hNe hNs hlb (hW a) e hs).1.frame

include hNe hNs hlb in
theorem reachF_pos (hW : ∀ c, W c ≠ ⊤) {c0 c : CfgStateF p} (h0 : W c0 ≠ 0) (h : CanReach (chainKF p T W) c0 c) : W c ≠ 0 := by
  induction h with
  | refl => exact h0
  | @step a b _ hs ih =>
    by_cases e : b = a
    · rw [e]; exact ih
    · exact (chainF_mv hNe hNs hlb (hW a) e hs).2

include hNe hNs hlb in
theorem chainF_balance (hW : ∀ c, W c ≠ ⊤) (hT : p.Nsite ∣ T) (hTb : T ≤ drawBound) (c c' : CfgStateF p) :
    W c * chainKF p T W c c' = W c' * chainKF p T W c' c := by
  by_cases e : c = c'
  · rw [e]
  · unfold chainKF metroKernel
    rw [if_neg e, if_neg (fun q => e q.symm)]
    exact C71_balance_fsz_partial p T hNe hNs hlb hT hTb W hW c c' e

include hNe hNs hlb in
theorem reachF_symm (hW : ∀ c, W c ≠ ⊤) (hT : p.Nsite ∣ T) (hTb : T ≤ drawBound) {c0 c : CfgStateF p} (h0 : W c0 ≠ 0)
    (h : CanReach (chainKF p T W) c0 c) : CanReach (chainKF p T W) c c0 := by
  induction h with
  | refl => exact .refl
  | @step a b ha hs ih =>
    refine CanReach.trans' (CanReach.step .refl ?_) ih
    have hb := chainF_balance (W := W) hNe hNs hlb hW hT hTb a b
    intro q
    rw [q, mul_zero] at hb
    exact (mul_ne_zero (reachF_pos hNe hNs hlb hW h0 ha) hs) hb

include hNe hNs hlb in
/-- the states a run can visit form an ergodic chain as soon as one of them can be kept for a step -/
theorem chainF_ergodic (hW : ∀ c, W c ≠ ⊤) (hT : p.Nsite ∣ T) (hTb : T ≤ drawBound) (c0 : CfgStateF p) (h0 : W c0 ≠ 0)
    (hold : ∃ c, CanReach (chainKF p T W) c0 c ∧ chainKF p T W c c ≠ 0) :
    ∃ Y : Finset (CfgStateF p), (∀ c, c ∈ Y ↔ CanReach (chainKF p T W) c0 c) ∧ Ergodic (chainKF p T W) W Y := by
  have hfin : {c : CfgStateF p | CanReach (chainKF p T W) c0 c}.Finite := (frameF_finite c0).subset (fun c hc => reachF_frame hNe hNs hlb hW hc)
  have hmem : ∀ c, c ∈ hfin.toFinset ↔ CanReach (chainKF p T W) c0 c := fun c => by simp
  refine ⟨hfin.toFinset, hmem, ⟨⟨?_, ?_⟩, ?_, fun c _ => hW c, fun c _ c' _ => chainF_balance hNe hNs hlb hW hT hTb c c', ?_, ?_⟩⟩
  · intro c hc y hy
    rw [hmem] at hc ⊢
    exact hc.step hy
  · intro c hc
    have := metro_total (B := drawBound) (M := fun a b : CfgStateF p => MoveStreamsBelowF p T a.1 b.1) (W := W) (chainF_leave_le hNe hNs hlb) c
    rw [tsum_eq_sum (s := hfin.toFinset)] at this
    · exact this
    · intro y hy
      by_contra q
      rw [hmem] at hc hy
      exact hy (hc.step q)
  · exact fun c hc => reachF_pos hNe hNs hlb hW h0 ((hmem c).mp hc)
  · intro c hc c' hc'
    exact CanReach.trans' (reachF_symm hNe hNs hlb hW hT hTb h0 ((hmem c).mp hc)) ((hmem c').mp hc')
  · obtain ⟨c, h1, h2⟩ := hold
    exact ⟨c, (hmem c).mpr h1, h2⟩

end chain

/-- a move can be copied to all tables with the same occupied orbitals, without collisions -/
theorem MvF.copy {p : FPar} {c c' : FCfg} (hc : ConsF p c) (h : MvF p c c') :
    ∃ φ ψ : FCfg → FCfg, ∀ d, ConsF p d → OccF p d = OccF p c → MvF p d (φ d) ∧ OccF p (φ d) = OccF p c' ∧ ψ (φ d) = d := by
  have upd : ∀ {h : FMove}, MoveOK p c h → ∀ d, ConsF p d → OccF p d = OccF p c → MoveOK p d (siteMove p d h.ri h.rj h.s h.t) ∧
      OccF p (updateEleConfigF p (siteMove p d h.ri h.rj h.s h.t) d) = OccF p (updateEleConfigF p h c) ∧
      updateEleConfigF p (siteMove p (updateEleConfigF p (siteMove p d h.ri h.rj h.s h.t) d) h.rj h.ri h.t h.s)
        (updateEleConfigF p (siteMove p d h.ri h.rj h.s h.t) d) = d := by
    intro h ok d hd ho
    have q := moveOK_occ hc ok
    have ok' : MoveOK p d (siteMove p d h.ri h.rj h.s h.t) := siteMove_ok hd ok.s ok.t ok.ri ok.rj (by rw [ho]; exact q.1) (by rw [ho]; exact q.2)
    refine ⟨ok', ?_, ?_⟩
    · rw [occF_update ok', occF_update ok, ho]; rfl
    · have e := move_is_site (updateF_cons hd ok') (moveOK_rev hd ok')
      have := updateF_rev hd ok'
      rw [e] at this
      exact this
  cases h with
  | hop hp h ok hi hz =>
    refine ⟨fun d => updateEleConfigF p (siteMove p d h.ri h.rj h.s h.t) d, fun d => updateEleConfigF p (siteMove p d h.rj h.ri h.t h.s) d, fun d hd ho => ?_⟩
    obtain ⟨ok', a, b⟩ := upd ok d hd ho
    exact ⟨.hop hp _ ok' hi hz, a, b⟩
  | flip hp h ok hr ht hl =>
    refine ⟨fun d => updateEleConfigF p (siteMove p d h.ri h.rj h.s h.t) d, fun d => updateEleConfigF p (siteMove p d h.rj h.ri h.t h.s) d, fun d hd ho => ?_⟩
    obtain ⟨ok', a, b⟩ := upd ok d hd ho
    exact ⟨.flip hp _ ok' hr ht hl, a, b⟩
  | exch hp h x =>
    refine ⟨fun d => exchCfgF p d (siteMove p d h.ri h.rj h.s h.s), fun d => exchCfgF p d (siteMove p d h.rj h.ri h.s h.s), fun d hd ho => ?_⟩
    have hs := x.ok.s
    have q := moveOK_occ hc x.ok
    rw [← x.st] at q
    have q2 : h.ri + (1 - h.s) * p.Nsite ∉ OccF p c := (freeF_iff hc (by omega) x.ok.ri).mp x.emp
    have q3 : h.rj + (1 - h.s) * p.Nsite ∈ OccF p c :=
      mem_OccF.mpr ⟨flat_lt (by omega) x.ok.rj, (consF_back hc x.mj x.idj x.spj).2.2.2⟩
    have ok' : ExchOKF p d (siteMove p d h.ri h.rj h.s h.s) := by
      refine siteExch_ok hd hs x.ok.ri x.ok.rj ?_ ?_ ?_ ?_
      · rw [ho]; exact q.1
      · rw [ho]; exact q2
      · rw [ho]; exact q3
      · rw [ho]; exact q.2
    refine ⟨.exch hp _ ok', ?_, ?_⟩
    · rw [occF_exch ok', occF_exch x, ho]; rfl
    · have hrev := exchF_rev hd ok'
      have hne := x.ne
      have e : (siteMove p d h.ri h.rj h.s h.s).rev = siteMove p (exchCfgF p d (siteMove p d h.ri h.rj h.s h.s)) h.rj h.ri h.s h.s := by
        have : (exchCfgF p d (siteMove p d h.ri h.rj h.s h.s)).cfg (h.rj + h.s * p.Nsite) = ((siteMove p d h.ri h.rj h.s h.s).mi : Int) := by
          rw [exchF_cfg ok' hs x.ok.rj]
          rw [if_neg (by show ¬ (h.rj = h.ri ∧ _); omega), if_neg (by show ¬ (h.rj = h.rj ∧ h.s = 1 - h.s); omega), if_pos ⟨rfl, rfl⟩]
        unfold siteMove at this ⊢
        unfold FMove.rev
        rw [this, Int.toNat_natCast]
      rw [e] at hrev
      exact hrev

end MVMC
