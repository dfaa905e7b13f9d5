import Verif.Proof.Ergodic
import Verif.Proof.Reach
import Mathlib.Data.List.OfFn

/-! # The sampler's chain on the configurations it can reach -/
namespace MVMC
open Spec Finset
open scoped ENNReal

/-! ## Abstract Metropolis chains -/

section abstract
variable {X : Type} {B : Nat} {M : X → X → Set (List Nat)} {W : X → ℝ≥0∞}

theorem streamProb_ne (r : List Nat) (_hB : 0 < B) : streamProb B r ≠ 0 := by
  unfold streamProb
  refine pow_ne_zero _ (ENNReal.inv_ne_zero.mpr (ENNReal.natCast_ne_top B))

theorem propProb_ne (hB : 0 < B) (S : Set (List Nat)) : propProb B S ≠ 0 ↔ S.Nonempty := by
  unfold propProb
  rw [Ne, ENNReal.tsum_eq_zero, not_forall]
  constructor
  · rintro ⟨r, _⟩; exact ⟨r.1, r.2⟩
  · rintro ⟨r, hr⟩; exact ⟨⟨r, hr⟩, streamProb_ne r hB⟩

theorem moveProb_ne (hB : 0 < B) {c c' : X} (hW : W c ≠ ⊤) : moveProb B M W c c' ≠ 0 ↔ (M c c').Nonempty ∧ W c' ≠ 0 := by
  unfold moveProb
  rw [mul_ne_zero_iff, propProb_ne hB]
  refine and_congr_right fun _ => ?_
  constructor
  · intro h q
    rw [q, ENNReal.zero_div] at h
    simp at h
  · intro h q
    rcases min_choice 1 (W c' / W c) with e | e <;> rw [e] at q
    · exact one_ne_zero q
    · rw [ENNReal.div_eq_zero_iff] at q
      exact q.elim h hW

theorem propProb_insert (S : Set (List Nat)) (r : List Nat) (hr : r ∉ S) : propProb B (S ∪ {r}) = propProb B S + streamProb B r := by
  unfold propProb
  rw [Summable.tsum_union_disjoint (f := streamProb B) (Set.disjoint_singleton_right.mpr hr) ENNReal.summable ENNReal.summable]
  congr 1
  exact tsum_singleton r (streamProb B)

/-- a stream that proposes nothing leaves a chance to stay -/
theorem leave_lt_one (hB : 0 < B) (c : X) (hb : ∀ c', c' ≠ c → ∀ r ∈ M c c', ∀ u ∈ r, u < B)
    (hdet : ∀ c' c'' r, c' ≠ c → c'' ≠ c → r ∈ M c c' → r ∈ M c c'' → c' = c'') (r : List Nat) (hr : ∀ u ∈ r, u < B)
    (hn : r ∉ {r | ∃ c', c' ≠ c ∧ r ∈ M c c'}) (hp : PrefixFree ({r | ∃ c', c' ≠ c ∧ r ∈ M c c'} ∪ {r})) : leaveProb B M W c < 1 := by
  have h1 := leave_le_prop (W := W) (B := B) c hdet
  have h2 := kraft B hB _ (by
    rintro s (⟨c', a, b⟩ | h)
    · exact hb c' a s b
    · rw [Set.mem_singleton_iff.mp h]; exact hr) hp
  rw [propProb_insert _ _ hn] at h2
  refine lt_of_le_of_lt h1 ?_
  refine lt_of_lt_of_le (ENNReal.lt_add_right ?_ (streamProb_ne r hB)) h2
  exact ne_top_of_le_ne_top ENNReal.one_ne_top (le_trans le_self_add h2)

/-- a move to a smaller weight leaves a chance to stay -/
theorem leave_lt_of_weight (hB : 0 < B) {c c' : X} (hle : leaveProb B M (fun _ => 1) c ≤ 1) (hne : c' ≠ c) (hM : (M c c').Nonempty)
    (hW : W c' < W c) : leaveProb B M W c < 1 := by
  classical
  have htop : propProb B (M c c') ≠ ⊤ := by
    refine ne_top_of_le_ne_top ENNReal.one_ne_top (le_trans ?_ hle)
    unfold leaveProb
    refine le_trans ?_ (ENNReal.le_tsum c')
    rw [if_neg hne]
    unfold moveProb
    rw [ENNReal.div_self one_ne_zero ENNReal.one_ne_top, min_self, mul_one]
  refine lt_of_lt_of_le ?_ hle
  unfold leaveProb at hle ⊢
  have hterm : ∀ a, moveProb B M W c a ≤ moveProb B M (fun _ => 1) c a := by
    intro a
    unfold moveProb
    rw [ENNReal.div_self one_ne_zero ENNReal.one_ne_top, min_self]
    exact mul_le_mul' le_rfl (min_le_left _ _)
  refine ENNReal.tsum_lt_tsum (i := c') ?_ ?_ ?_
  · refine ne_top_of_le_ne_top ENNReal.one_ne_top (le_trans (ENNReal.tsum_le_tsum fun a => ?_) hle)
    by_cases h : a = c
    · simp [h]
    · rw [if_neg h, if_neg h]; exact hterm a
  · intro a
    by_cases h : a = c
    · simp [h]
    · simp only [if_neg h]; exact hterm a
  · rw [if_neg hne, if_neg hne]
    unfold moveProb
    rw [ENNReal.div_self one_ne_zero ENNReal.one_ne_top, min_self]
    refine ENNReal.mul_lt_mul_right ((propProb_ne hB _).mpr hM) htop ?_
    have : W c' / W c < 1 := ENNReal.div_lt_of_lt_mul (by rwa [one_mul])
    exact lt_of_le_of_lt (min_le_right _ _) this

end abstract

/-- Chebyshev -/
theorem err_prob_bound {X : Type} {K : X → X → ℝ≥0∞} {c0 : X} {w m n : Nat} {f : X → ℂ} {μ : ℂ} {ε C : ℝ} (hε : 0 < ε)
    (h : meanSqErr K c0 w m n f μ ≤ ENNReal.ofReal (C / (n + 1))) : errProb K c0 w m n f μ ε ≤ ENNReal.ofReal (C / ε ^ 2 / (n + 1)) := by
  have key : errProb K c0 w m n f μ ε ≤ ENNReal.ofReal (1 / ε ^ 2) * meanSqErr K c0 w m n f μ := by
    unfold errProb meanSqErr
    rw [← ENNReal.tsum_mul_left]
    refine ENNReal.tsum_le_tsum fun c => ?_
    rw [mul_left_comm]
    refine mul_le_mul' le_rfl ?_
    rw [← pathMean_mul]
    refine pathMean_mono fun l _ => ?_
    split
    · rename_i hq
      rw [← ENNReal.ofReal_mul (by positivity), ← ENNReal.ofReal_one]
      refine ENNReal.ofReal_le_ofReal ?_
      rw [one_div, inv_mul_eq_div, le_div_iff₀ (by positivity), one_mul]
      exact pow_le_pow_left₀ hε.le hq 2
    · exact zero_le
  refine key.trans ((mul_le_mul' le_rfl h).trans (le_of_eq ?_))
  rw [← ENNReal.ofReal_mul (by positivity)]
  congr 1
  field_simp

/-- a chain that is always found at `c0` when it is sampled -/
theorem frozen_err {X : Type} {K : X → X → ℝ≥0∞} {c0 : X} {w m : Nat} (hw : ∀ y, y ≠ c0 → stepsProb K w c0 y = 0) (hw1 : stepsProb K w c0 c0 = 1)
    (hm : ∀ y, y ≠ c0 → stepsProb K m c0 y = 0) (hm1 : stepsProb K m c0 c0 = 1) (n : Nat) (f : X → ℂ) (μ : ℂ) :
    meanSqErr K c0 w m n f μ = ENNReal.ofReal (‖f c0 - μ‖ ^ 2) := by
  have hp : ∀ n (F : List X → ℝ≥0∞), pathMean (stepsProb K m) n c0 F = F (List.replicate (n + 1) c0) := by
    intro n
    induction n with
    | zero => intro F; rfl
    | succ n ih =>
      intro F
      show ∑' y, stepsProb K m c0 y * pathMean (stepsProb K m) n y (fun l => F (c0 :: l)) = _
      rw [tsum_eq_single c0 (fun y hy => by rw [hm y hy, zero_mul]), hm1, one_mul, ih]
      rfl
  unfold meanSqErr
  rw [tsum_eq_single c0 (fun y hy => by rw [hw y hy, zero_mul]), hw1, one_mul, hp]
  congr 3
  unfold sampleMean
  rw [List.map_replicate, List.sum_replicate, List.length_replicate, nsmul_eq_mul, mul_div_assoc, mul_div_cancel₀]
  exact_mod_cast Nat.succ_ne_zero n

/-- a chain that moves along an orbit with certainty -/
theorem steps_orbit {X : Type} {K : X → X → ℝ≥0∞} {a : Nat → X} (h1 : ∀ i, K (a i) (a (i + 1)) = 1) (h0 : ∀ i y, y ≠ a (i + 1) → K (a i) y = 0) (n : Nat) :
    ∀ i, stepsProb K n (a i) (a (i + n)) = 1 ∧ ∀ y, y ≠ a (i + n) → stepsProb K n (a i) y = 0 := by
  induction n with
  | zero =>
    intro i
    exact ⟨by simp [stepsProb], fun y hy => by simp only [stepsProb]; rw [if_neg (fun q => hy q.symm)]⟩
  | succ n ih =>
    intro i
    have e : ∀ y, stepsProb K (n + 1) (a i) y = stepsProb K n (a (i + 1)) y := by
      intro y
      show ∑' z, K (a i) z * stepsProb K n z y = _
      rw [tsum_eq_single (a (i + 1)) (fun z hz => by rw [h0 i z hz, zero_mul]), h1, one_mul]
    have := ih (i + 1)
    rw [show i + 1 + n = i + (n + 1) by omega] at this
    exact ⟨(e _).trans this.1, fun y hy => (e y).trans (this.2 y hy)⟩

/-- a certain transition excludes all others -/
theorem certain {X : Type} {K : X → X → ℝ≥0∞} {a b : X} (ht : ∑' y, K a y = 1) (h : 1 ≤ K a b) : K a b = 1 ∧ ∀ y, y ≠ b → K a y = 0 := by
  classical
  have hle : K a b ≤ 1 := ht ▸ ENNReal.le_tsum b
  have h1 : K a b = 1 := le_antisymm hle h
  refine ⟨h1, fun y hy => ?_⟩
  rw [ENNReal.tsum_eq_add_tsum_ite b, h1] at ht
  have h2 : (∑' z, if z = b then 0 else K a z) = 0 := by
    by_contra q
    exact (ENNReal.lt_add_right ENNReal.one_ne_top q).ne' ht
  have := ENNReal.tsum_eq_zero.mp h2 y
  rwa [if_neg hy] at this

/-- all streams of one length together are certain -/
theorem propProb_all {B : Nat} (hB : 0 < B) (n : Nat) : propProb B {r | r.length = n ∧ ∀ u ∈ r, u < B} = 1 := by
  have e : ∀ r : {r : List Nat | r.length = n ∧ ∀ u ∈ r, u < B}, streamProb B r.1 = ((B : ℝ≥0∞)⁻¹) ^ n := fun r => by
    unfold streamProb
    rw [r.2.1]
  let f : (Fin n → Fin B) ≃ {r : List Nat | r.length = n ∧ ∀ u ∈ r, u < B} :=
    { toFun := fun v => ⟨List.ofFn (fun i => (v i).1), by simp, by
        intro u hu
        obtain ⟨i, rfl⟩ := (List.mem_ofFn' _ _).mp hu
        exact (v i).2⟩
      invFun := fun r i => ⟨r.1[i.1]'(by rw [r.2.1]; exact i.2), r.2.2 _ (List.getElem_mem _)⟩
      left_inv := fun v => by funext i; simp
      right_inv := fun r => by
        refine Subtype.ext (List.ext_getElem (by simp [r.2.1]) ?_)
        intro i h1 h2
        simp }
  unfold propProb
  rw [tsum_congr e, ← f.tsum_eq, tsum_fintype, Finset.sum_const, Finset.card_univ, Fintype.card_fun, Fintype.card_fin, Fintype.card_fin, nsmul_eq_mul]
  push_cast
  rw [← mul_pow, ENNReal.mul_inv_cancel (by exact_mod_cast hB.ne') (ENNReal.natCast_ne_top B), one_pow]

theorem propProb_mono {B : Nat} {S S' : Set (List Nat)} (h : S ⊆ S') : propProb B S ≤ propProb B S' :=
  ENNReal.tsum_mono_subtype (streamProb B) h

/-! ## The chain of the sampler -/

/-- transition probabilities of one step of the sampler (`T`: bound of the draws of target sites) -/
noncomputable def chainK (p : SamplerPar) (T : Nat) (W : CfgState p → ℝ≥0∞) : CfgState p → CfgState p → ℝ≥0∞ :=
  metroKernel drawBound (fun a b : CfgState p => MoveStreamsBelow p T a.1 b.1) W

section chain
variable {p : SamplerPar} {T : Nat} {W : CfgState p → ℝ≥0∞} (hNe : 0 < p.Ne) (hNs : 0 < p.Nsite)

include hNe hNs in
theorem chain_leave_le (c : CfgState p) : leaveProb drawBound (fun a b : CfgState p => MoveStreamsBelow p T a.1 b.1) W c ≤ 1 :=
  moves_le_one hNe hNs _ (fun _ _ _ h => h.1) W c

include hNe hNs in
theorem chain_mv {c c' : CfgState p} (hW : W c ≠ ⊤) (hne : c' ≠ c) (h : CanStep (chainK p T W) c c') : Mv p c.1 c'.1 ∧ W c' ≠ 0 := by
  unfold CanStep chainK metroKernel at h
  rw [if_neg (fun q => hne q.symm), moveProb_ne drawBound_pos hW] at h
  obtain ⟨⟨r, hr⟩, h2⟩ := h
  exact ⟨mv_of_stream hNe hNs c.2 (fun q => hne (Subtype.ext q)) hr.1, h2⟩

include hNe hNs in
theorem chain_step {c c' : CfgState p} (hW : W c ≠ ⊤) (hT : p.Nsite ≤ T) (hTb : T ≤ drawBound) (hne : c' ≠ c) (h : Mv p c.1 c'.1) (h2 : W c' ≠ 0) :
    CanStep (chainK p T W) c c' := by
  unfold CanStep chainK metroKernel
  rw [if_neg (fun q => hne q.symm), moveProb_ne drawBound_pos hW]
  obtain ⟨r, hr⟩ := stream_of_mv hNe hNs hT hTb c.2 h
  exact ⟨⟨r, hr⟩, h2⟩

/-- A hop whose target is drawn occupied until the code gives up. -/
theorem reject_stream {s x : Nat} {c : EleCfg} (hc : Cons p c) (hp : HopPath p) (hs : s < 2) (hx : x ∈ Occ p c s) (lx : p.locSpn x ≠ 1)
    (hb : p.Nsite ≤ drawBound) :
    ∃ r : List Nat, (∀ u ∈ r, u < drawBound) ∧ ∀ tl, ∃ st', innerStep acceptEvery p (startAt c) (r ++ tl) = some (st', tl) ∧ st'.c = c := by
  obtain ⟨pre, hb1, ht⟩ := hopPath_pre hp
  obtain ⟨m, hm, e1, e2⟩ := occ_electron hc hs hx
  have hle := ne_le hc
  have hxr := (mem_Occ.mp hx).1
  have pt : ∀ n icnt tl, icnt + n = p.Nsite * p.Nsite + 1 → pickTarget p c s icnt (List.replicate (n + 1) x ++ tl) = some ((x, true), tl) := by
    intro n
    induction n with
    | zero =>
      intro icnt tl h
      rw [List.replicate_succ, List.cons_append, pickTarget]
      rw [if_pos (by omega)]
      simp [Nat.mod_eq_of_lt hxr]
    | succ n ih =>
      intro icnt tl h
      rw [List.replicate_succ, List.cons_append, pickTarget]
      simp only [Nat.mod_eq_of_lt hxr]
      rw [if_neg (by omega), if_pos (Or.inl (by rw [e1]; omega))]
      exact ih _ _ (by omega)
  refine ⟨pre ++ (m :: spinDraw s :: List.replicate (p.Nsite * p.Nsite + 2) x), ?_, ?_⟩
  · intro u hu
    rcases List.mem_append.mp hu with hu | hu
    · exact hb1 u hu
    · simp only [List.mem_cons, List.mem_replicate] at hu
      rcases hu with rfl | rfl | ⟨_, rfl⟩
      · omega
      · exact spinDraw_lt _
      · omega
  · intro tl
    have hcand : makeCandidateHopping p c (m :: spinDraw s :: (List.replicate (p.Nsite * p.Nsite + 2) x ++ tl)) = some ((⟨m, x, x, s⟩, true), tl) := by
      unfold makeCandidateHopping
      rw [pickItinerant]
      simp only [Nat.mod_eq_of_lt hm, coin_spinDraw hs, e2, Int.toNat_natCast]
      rw [if_neg lx]
      simp only
      rw [pt (p.Nsite * p.Nsite + 1) 0 tl (by omega)]
    refine ⟨{ startAt c with hopTry := (startAt c).hopTry + 1 }, ?_, rfl⟩
    unfold innerStep
    rw [List.append_assoc, ht]
    show (match makeCandidateHopping p c (m :: spinDraw s :: (List.replicate (p.Nsite * p.Nsite + 2) x ++ tl)) with
      | none => none
      | some ((_, true), r) => some ({ startAt c with hopTry := (startAt c).hopTry + 1 }, r)
      | some ((h, false), r) => _) = _
    rw [hcand]

include hNe hNs in
/-- with hops a step can stay -/
theorem chain_hold_hop {c : CfgState p} (hp : HopPath p) (hb : p.Nsite ≤ drawBound) {s x : Nat} (hs : s < 2) (hx : x ∈ Occ p c.1 s)
    (lx : p.locSpn x ≠ 1) : chainK p T W c c ≠ 0 := by
  obtain ⟨r, hr, hstep⟩ := reject_stream c.2 hp hs hx lx hb
  have key : ∀ r' s, (∃ c' : CfgState p, c' ≠ c ∧ r' ∈ MoveStreamsBelow p T c.1 c'.1) → r' ++ s ≠ r ∧ r ++ s ≠ r' := by
    rintro r' s ⟨c', hne, hr'⟩
    obtain ⟨_, st', h, hc'⟩ := hr'.1
    have hne' : c'.1 ≠ c.1 := fun q => hne (Subtype.ext q)
    have hm := streamMove_of hne' h hc'
    constructor
    · rintro rfl
      cases s with
      | nil =>
        rw [List.append_nil] at hstep
        obtain ⟨st1, h1, e1⟩ := hstep [0]
        rw [h] at h1
        simp at h1
      | cons u s =>
        obtain ⟨st1, h1, e1⟩ := hstep []
        obtain ⟨st2, g, h2, e2⟩ := streamMove_step acceptEvery c.2 hNe hNs hm (startAt c.1) rfl u s
        rw [List.append_nil, h2] at h1
        simp only [Option.some.injEq, Prod.mk.injEq] at h1
        rw [← h1.1, e2] at e1
        exact hne' (by simpa [acceptEvery] using e1)
    · rintro rfl
      obtain ⟨st1, h1, e1⟩ := hstep (s ++ [0])
      rw [← List.append_assoc, h] at h1
      simp at h1
  have hn : r ∉ {r | ∃ c' : CfgState p, c' ≠ c ∧ r ∈ MoveStreamsBelow p T c.1 c'.1} := fun q => (key r [] q).1 (List.append_nil r)
  have hlt : leaveProb drawBound (fun a b : CfgState p => MoveStreamsBelow p T a.1 b.1) W c < 1 := by
    refine leave_lt_one drawBound_pos c (fun c' _ r hr => hr.1.1) (fun c' c'' r _ _ h1 h2 => Subtype.ext (moveStreams_det h1.1 h2.1)) r hr hn ?_
    rintro a b (ha | ha) (hab | hab)
    · obtain ⟨c', x1, x2⟩ := ha
      obtain ⟨c'', y1, y2⟩ := hab
      exact moveStreams_prefix hNe hNs c a b ⟨c', x1, x2.1⟩ ⟨c'', y1, y2.1⟩
    · exact absurd (Set.mem_singleton_iff.mp hab) (key a b ha).1
    · rw [Set.mem_singleton_iff] at ha
      subst ha
      exact absurd rfl (key _ b hab).2
    · rw [Set.mem_singleton_iff] at ha hab
      subst ha
      exact List.append_right_eq_self.mp hab
  unfold chainK metroKernel
  rw [if_pos rfl]
  exact (tsub_pos_of_lt hlt).ne'

/-! ## The class of a state is finite -/

/-- the tables agree outside the index range -/
structure Frame (p : SamplerPar) (c c' : EleCfg) : Prop where
  idx : ∀ i, 2 * p.Ne ≤ i → c'.idx i = c.idx i
  cfg : ∀ i, 2 * p.Nsite ≤ i → c'.cfg i = c.cfg i
  num : ∀ i, 2 * p.Nsite ≤ i → c'.num i = c.num i

theorem flat_lt {s m n : Nat} (hs : s < 2) (hm : m < n) : m + s * n < 2 * n := by
  rcases (show s = 0 ∨ s = 1 by omega) with rfl | rfl <;> omega

theorem frame_update {c : EleCfg} {h : Hop} (ok : HopOK p c h) : Frame p c (updateEleConfig p h c) := by
  have a := flat_lt ok.s ok.mi
  have b := flat_lt ok.s ok.ri
  have d := flat_lt ok.s ok.rj
  refine ⟨fun i hi => ?_, fun i hi => ?_, fun i hi => ?_⟩ <;> simp only [updateEleConfig, Arr.set]
  · rw [if_neg (by omega)]
  · rw [if_neg (by omega), if_neg (by omega)]
  · rw [if_neg (by omega), if_neg (by omega)]

theorem Frame.trans {a b c : EleCfg} (h : Frame p a b) (h' : Frame p b c) : Frame p a c :=
  ⟨fun i hi => (h'.idx i hi).trans (h.idx i hi), fun i hi => (h'.cfg i hi).trans (h.cfg i hi), fun i hi => (h'.num i hi).trans (h.num i hi)⟩

theorem Frame.rfl' (c : EleCfg) : Frame p c c := ⟨fun _ _ => rfl, fun _ _ => rfl, fun _ _ => rfl⟩

theorem Mv.frame {c c' : EleCfg} (h : Mv p c c') : Frame p c c' := by
  cases h with
  | hop _ h ok _ _ => exact frame_update ok
  | exch _ h ok => exact (frame_update ok.ok).trans (frame_update ok.ok2)

theorem flat_split {n i : Nat} (hi : i < 2 * n) : ∃ s < 2, ∃ m < n, i = m + s * n := by
  by_cases h : i < n
  · exact ⟨0, by omega, i, h, by omega⟩
  · exact ⟨1, by omega, i - n, by omega, by omega⟩

theorem cfg_of_idx {c a b : EleCfg} (ha : Cons p a) (hb : Cons p b) (fa : Frame p c a) (fb : Frame p c b)
    (h : ∀ i < 2 * p.Ne, a.idx i = b.idx i) : a = b := by
  have hs : ∀ i, 2 * p.Nsite ≤ i ∨ ∃ s < 2, ∃ r < p.Nsite, i = r + s * p.Nsite := fun i => by
    by_cases q : 2 * p.Nsite ≤ i
    · exact Or.inl q
    · exact Or.inr (flat_split (by omega))
  have key : ∀ s < 2, ∀ r < p.Nsite, a.cfg (r + s * p.Nsite) = b.cfg (r + s * p.Nsite) ∧ a.num (r + s * p.Nsite) = b.num (r + s * p.Nsite) := by
    intro s hs' r hr
    rcases ha.site s hs' r hr with q | ⟨m, hm, q1, q2, q3⟩
    · rcases hb.site s hs' r hr with w | ⟨m', hm', w1, w2, w3⟩
      · exact ⟨q.1.trans w.1.symm, q.2.trans w.2.symm⟩
      · rw [← h _ (flat_lt hs' hm')] at w2
        have := (cons_back ha hs' hm' w2).2.1
        omega
    · rw [h _ (flat_lt hs' hm)] at q2
      have := cons_back hb hs' hm q2
      exact ⟨q1.trans this.2.1.symm, q3.trans this.2.2.symm⟩
  obtain ⟨ai, ac, an⟩ := a
  obtain ⟨bi, bc, bn⟩ := b
  simp only [EleCfg.mk.injEq]
  refine ⟨funext fun i => ?_, funext fun i => ?_, funext fun i => ?_⟩
  · by_cases q : i < 2 * p.Ne
    · exact h i q
    · exact (fa.idx i (by omega)).trans (fb.idx i (by omega)).symm
  · rcases hs i with q | ⟨s, hs', r, hr, rfl⟩
    · exact (fa.cfg i q).trans (fb.cfg i q).symm
    · exact (key s hs' r hr).1
  · rcases hs i with q | ⟨s, hs', r, hr, rfl⟩
    · exact (fa.num i q).trans (fb.num i q).symm
    · exact (key s hs' r hr).2

theorem frame_finite (c0 : CfgState p) : {c : CfgState p | Frame p c0.1 c.1}.Finite := by
  have hr : ∀ (c : CfgState p) (i : Fin (2 * p.Ne)), (c.1.idx i).toNat < p.Nsite ∧ ((c.1.idx i).toNat : Int) = c.1.idx i := by
    intro c i
    obtain ⟨s, hs, m, hm, e⟩ := flat_split i.2
    obtain ⟨r, hr, h1, _⟩ := c.2.electron s hs m hm
    rw [e, h1]
    exact ⟨by simpa using hr, by simp⟩
  refine Set.Finite.of_injOn (f := fun c : CfgState p => fun i : Fin (2 * p.Ne) => (⟨(c.1.idx i).toNat, (hr c i).1⟩ : Fin p.Nsite))
    (t := Set.univ) (fun _ _ => Set.mem_univ _) ?_ Set.finite_univ
  intro a ha b hb e
  refine Subtype.ext (cfg_of_idx a.2 b.2 ha hb fun i hi => ?_)
  have := congrArg Fin.val (congrFun e ⟨i, hi⟩)
  simp only at this
  rw [← (hr a ⟨i, hi⟩).2, ← (hr b ⟨i, hi⟩).2, this]

include hNe hNs in
theorem reach_frame (hW : ∀ c, W c ≠ ⊤) {c0 c : CfgState p} (h : CanReach (chainK p T W) c0 c) : Frame p c0.1 c.1 := by
  induction h with
  | refl => exact Frame.rfl' _
  | @step a b _ hs ih =>
    by_cases e : b = a
    · rw [e]; exact ih
    · exact ih.trans (chain_mv hNe hNs (hW a) e hs).1.frame

include hNe hNs in
theorem reach_pos (hW : ∀ c, W c ≠ ⊤) {c0 c : CfgState p} (h0 : W c0 ≠ 0) (h : CanReach (chainK p T W) c0 c) : W c ≠ 0 := by
  induction h with
  | refl => exact h0
  | @step a b _ hs ih =>
    by_cases e : b = a
    · rw [e]; exact ih
    · exact (chain_mv hNe hNs (hW a) e hs).2

include hNe hNs in
theorem reach_valid (hW : ∀ c, W c ≠ ⊤) {c0 c : CfgState p} (h0 : LocalSingle p.Nsite p.locSpn c0.1.num) (h : CanReach (chainK p T W) c0 c) :
    Valid p c.1 := by
  induction h with
  | refl => exact ⟨c0.2, h0⟩
  | @step a b _ hs ih =>
    by_cases e : b = a
    · rw [e]; exact ih
    · exact ih.mv (chain_mv hNe hNs (hW a) e hs).1

/-- one-way: a path of moves through states of nonzero weight -/
theorem CanReach.trans' {X : Type} {K : X → X → ℝ≥0∞} {a b c : X} (h : CanReach K a b) (h' : CanReach K b c) : CanReach K a c := by
  induction h' with
  | refl => exact h
  | step _ hs ih => exact ih.step hs

include hNe hNs in
theorem chain_balance (hW : ∀ c, W c ≠ ⊤) (hT : p.Nsite ∣ T) (hTb : T ≤ drawBound) (c c' : CfgState p) :
    W c * chainK p T W c c' = W c' * chainK p T W c' c := by
  by_cases e : c = c'
  · rw [e]
  · unfold chainK metroKernel
    rw [if_neg e, if_neg (fun q => e q.symm)]
    exact C71_balance_partial p T hNe hNs hT hTb W hW c c' e

include hNe hNs in
theorem reach_symm (hW : ∀ c, W c ≠ ⊤) (hT : p.Nsite ∣ T) (hTb : T ≤ drawBound) {c0 c : CfgState p} (h0 : W c0 ≠ 0)
    (h : CanReach (chainK p T W) c0 c) : CanReach (chainK p T W) c c0 := by
  induction h with
  | refl => exact .refl
  | @step a b ha hs ih =>
    refine CanReach.trans' (CanReach.step .refl ?_) ih
    have hb := chain_balance (W := W) hNe hNs hW hT hTb a b
    intro q
    rw [q, mul_zero] at hb
    exact (mul_ne_zero (reach_pos hNe hNs hW h0 ha) hs) hb

include hNe hNs in
/-- the states a run can visit form an ergodic chain as soon as one of them can be kept for a step -/
theorem chain_ergodic (hW : ∀ c, W c ≠ ⊤) (hT : p.Nsite ∣ T) (hTb : T ≤ drawBound) (c0 : CfgState p) (h0 : W c0 ≠ 0)
    (hold : ∃ c, CanReach (chainK p T W) c0 c ∧ chainK p T W c c ≠ 0) :
    ∃ Y : Finset (CfgState p), (∀ c, c ∈ Y ↔ CanReach (chainK p T W) c0 c) ∧ Ergodic (chainK p T W) W Y := by
  have hfin : {c : CfgState p | CanReach (chainK p T W) c0 c}.Finite := (frame_finite c0).subset (fun c hc => reach_frame hNe hNs hW hc)
  have hmem : ∀ c, c ∈ hfin.toFinset ↔ CanReach (chainK p T W) c0 c := fun c => by simp
  refine ⟨hfin.toFinset, hmem, ⟨⟨?_, ?_⟩, ?_, fun c _ => hW c, fun c _ c' _ => chain_balance hNe hNs hW hT hTb c c', ?_, ?_⟩⟩
  · intro c hc y hy
    rw [hmem] at hc ⊢
    exact hc.step hy
  · intro c hc
    have := metro_total (B := drawBound) (M := fun a b : CfgState p => MoveStreamsBelow p T a.1 b.1) (W := W) (chain_leave_le hNe hNs) c
    rw [tsum_eq_sum (s := hfin.toFinset)] at this
    · exact this
    · intro y hy
      by_contra q
      rw [hmem] at hc hy
      exact hy (hc.step q)
  · exact fun c hc => reach_pos hNe hNs hW h0 ((hmem c).mp hc)
  · intro c hc c' hc'
    exact CanReach.trans' (reach_symm hNe hNs hW hT hTb h0 ((hmem c).mp hc)) ((hmem c').mp hc')
  · obtain ⟨c, h1, h2⟩ := hold
    exact ⟨c, (hmem c).mpr h1, h2⟩

include hNe hNs in
/-- two different weights among the states that a run can visit leave a chance to stay -/
theorem chain_hold_weight (hW : ∀ c, W c ≠ ⊤) (hT : p.Nsite ∣ T) (hTb : T ≤ drawBound) {c0 c : CfgState p} (h0 : W c0 ≠ 0)
    (h : CanReach (chainK p T W) c0 c) (hne : W c ≠ W c0) : ∃ c, CanReach (chainK p T W) c0 c ∧ chainK p T W c c ≠ 0 := by
  by_contra hn
  push Not at hn
  apply hne
  have step : ∀ a b, CanReach (chainK p T W) c0 a → CanStep (chainK p T W) a b → W a ≤ W b := by
    intro a b ha hs
    by_cases e : b = a
    · rw [e]
    · by_contra hlt
      rw [not_le] at hlt
      unfold CanStep at hs
      have hs' := hs
      unfold chainK metroKernel at hs'
      rw [if_neg (fun q => e q.symm), moveProb_ne drawBound_pos (hW a)] at hs'
      have := leave_lt_of_weight (W := W) drawBound_pos (chain_leave_le (T := T) hNe hNs a) e hs'.1 hlt
      have h1 := hn a ha
      unfold chainK metroKernel at h1
      rw [if_pos rfl] at h1
      exact (tsub_pos_of_lt this).ne' h1
  induction h with
  | refl => rfl
  | @step a b ha hs ih =>
    have ea : W a = W c0 := by by_contra q; exact q (ih q)
    rw [← ea]
    refine le_antisymm ?_ (step a b ha hs)
    refine step b a (ha.step hs) ?_
    have hb := chain_balance (W := W) hNe hNs hW hT hTb a b
    intro q
    rw [q, mul_zero] at hb
    exact (mul_ne_zero (reach_pos hNe hNs hW h0 ha) hs) hb

end chain

/-! ## Counting tables per set of occupied orbitals -/

section fiber
variable {X Ω : Type} [DecidableEq Ω] {Y : Finset X} {o : X → Ω} {R : X → X → Prop}

/-- moves that depend on the observation only: as many states for every observation -/
theorem fiber_card (hR : ∀ c ∈ Y, ∀ c', R c c' → ∃ φ ψ : X → X, ∀ d ∈ Y, o d = o c → φ d ∈ Y ∧ o (φ d) = o c' ∧ ψ (φ d) = d)
    (hmem : ∀ c ∈ Y, ∀ c', R c c' → c' ∈ Y) {c c' : X} (hc : c ∈ Y) (h : Relation.ReflTransGen R c c') :
    c' ∈ Y ∧ (Y.filter (fun d => o d = o c)).card ≤ (Y.filter (fun d => o d = o c')).card := by
  induction h with
  | refl => exact ⟨hc, le_rfl⟩
  | @tail a b _ hab ih =>
    refine ⟨hmem a ih.1 b hab, ih.2.trans ?_⟩
    obtain ⟨φ, ψ, hφ⟩ := hR a ih.1 b hab
    refine card_le_card_of_injOn φ ?_ ?_
    · intro d hd
      obtain ⟨h1, h2⟩ := mem_filter.mp hd
      obtain ⟨q1, q2, _⟩ := hφ d h1 h2
      exact mem_filter.mpr ⟨q1, q2⟩
    · intro d hd e he heq
      obtain ⟨h1, h2⟩ := mem_filter.mp hd
      obtain ⟨h1', h2'⟩ := mem_filter.mp he
      rw [← (hφ d h1 h2).2.2, ← (hφ e h1' h2').2.2, heq]

/-- the weighted mean of an observable is its weighted mean over the observations -/
theorem weightMean_fiber {W : X → ℝ≥0∞} {w : Ω → ℝ} (hw : ∀ c ∈ Y, (W c).toReal = w (o c)) {N : Nat} (hN : N ≠ 0)
    (hcard : ∀ c ∈ Y, (Y.filter (fun d => o d = o c)).card = N) (Φ : Ω → ℂ) :
    weightMean W Y (fun c => Φ (o c)) = (∑ ω ∈ Y.image o, (w ω : ℂ) * Φ ω) / ((∑ ω ∈ Y.image o, w ω : ℝ) : ℂ) := by
  have e : ∀ F : Ω → ℂ, ∑ c ∈ Y, F (o c) = N * ∑ ω ∈ Y.image o, F ω := by
    intro F
    rw [← Finset.sum_fiberwise_of_maps_to (fun c hc => Finset.mem_image_of_mem o hc), Finset.mul_sum]
    refine Finset.sum_congr rfl fun ω hω => ?_
    obtain ⟨c, hc, rfl⟩ := Finset.mem_image.mp hω
    rw [Finset.sum_congr rfl (g := fun _ => F (o c)) (fun d hd => by rw [(mem_filter.mp hd).2]), sum_const, hcard c hc, nsmul_eq_mul]
  unfold weightMean
  rw [Finset.sum_congr rfl (g := fun c => ((w (o c) : ℝ) : ℂ) * Φ (o c)) (fun c hc => by rw [hw c hc]), e (fun ω => (w ω : ℂ) * Φ ω)]
  have e2 : ((∑ c ∈ Y, (W c).toReal : ℝ) : ℂ) = N * ((∑ ω ∈ Y.image o, w ω : ℝ) : ℂ) := by
    push_cast
    rw [← e (fun ω => ((w ω : ℝ) : ℂ))]
    exact Finset.sum_congr rfl (fun c hc => by rw [hw c hc])
  rw [e2, mul_div_mul_left]
  exact_mod_cast hN

end fiber

/-- a move can be copied to all tables with the same occupied sites, without collisions -/
theorem Mv.copy {p : SamplerPar} {c c' : EleCfg} (hc : Cons p c) (h : Mv p c c') :
    ∃ φ ψ : EleCfg → EleCfg, ∀ d, Cons p d → (∀ s < 2, Occ p d s = Occ p c s) → Mv p d (φ d) ∧ (∀ s < 2, Occ p (φ d) s = Occ p c' s) ∧ ψ (φ d) = d := by
  have occ_of : ∀ {h : Hop}, HopOK p c h → h.ri ∈ Occ p c h.s ∧ h.rj ∉ Occ p c h.s := fun {h} ok =>
    ⟨mem_Occ.mpr ⟨ok.ri, (cons_back hc ok.s ok.mi ok.at').2.2⟩, (free_iff hc ok.s ok.rj).mp ok.free⟩
  cases h with
  | hop hp h ok h1 h2 =>
    refine ⟨fun d => updateEleConfig p (siteHop p d h.ri h.rj h.s) d, fun d => updateEleConfig p (siteHop p d h.rj h.ri h.s) d, fun d hd ho => ?_⟩
    have q := occ_of ok
    have ok' : HopOK p d (siteHop p d h.ri h.rj h.s) := occ_siteHop hd ok.s (by rw [ho _ ok.s]; exact q.1) ok.rj (by rw [ho _ ok.s]; exact q.2)
    refine ⟨.hop hp _ ok' h1 h2, fun s hs => ?_, ?_⟩
    · rw [occ_update ok' s hs, occ_update ok s hs, ho s hs]; rfl
    · have e := hop_is_site (update_cons hd ok') (hopOK_rev hd ok')
      have := update_rev hd ok'
      rw [e] at this
      exact this
  | exch hp h x =>
    refine ⟨fun d => exchCfg p d (siteHop p d h.ri h.rj h.s), fun d => exchCfg p d (siteHop p d h.rj h.ri h.s), fun d hd ho => ?_⟩
    have hs := x.ok.s
    have q := occ_of x.ok
    have q2 : h.ri ∉ Occ p c (1 - h.s) := (free_iff hc (by omega) x.ok.ri).mp x.emp
    have q3 : h.rj ∈ Occ p c (1 - h.s) := mem_Occ.mpr ⟨x.ok.rj, (cons_back hc (by omega) x.mj x.idj).2.2⟩
    have ok' : ExchOK p d (siteHop p d h.ri h.rj h.s) := by
      refine occ_siteExch hd hs ?_ ?_ ?_ ?_
      · rw [ho _ hs]; exact q.1
      · rw [ho _ (by omega)]; exact q2
      · rw [ho _ (by omega)]; exact q3
      · rw [ho _ hs]; exact q.2
    have o1 := occ_exch ok'
    have o2 := occ_exch x
    refine ⟨.exch hp _ ok', fun s hs' => ?_, ?_⟩
    · by_cases e : s = h.s
      · rw [e]
        refine (o1.1).trans (Eq.trans ?_ o2.1.symm)
        show insert h.rj ((Occ p d h.s).erase h.ri) = _
        rw [ho _ hs]
      · have e : s = 1 - h.s := by omega
        rw [e]
        refine (o1.2).trans (Eq.trans ?_ o2.2.symm)
        show insert h.ri ((Occ p d (1 - h.s)).erase h.rj) = _
        rw [ho _ (by omega)]
    · have hrev := exch_rev hd ok'.ok ok'.idj ok'.mj ok'.emp
      have e : (siteHop p d h.ri h.rj h.s).rev = siteHop p (exchCfg p d (siteHop p d h.ri h.rj h.s)) h.rj h.ri h.s := by
        have : (exchCfg p d (siteHop p d h.ri h.rj h.s)).cfg (h.rj + h.s * p.Nsite) = ((siteHop p d h.ri h.rj h.s).mi : Int) := by
          rw [exch_cfg ok'.ok hs x.ok.rj]
          have a := hopOK_ne hc x.ok
          rw [if_neg (by show ¬ (h.rj = h.ri ∧ _); omega), if_neg (by show ¬ (h.rj = h.rj ∧ h.s = 1 - h.s); omega), if_pos ⟨rfl, rfl⟩]
        unfold siteHop at this ⊢
        unfold Hop.rev
        rw [this, Int.toNat_natCast]
      rw [e] at hrev
      exact hrev

end MVMC
