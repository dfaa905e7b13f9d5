import Verif.Proof.ChainF
import Verif.Props.Ergodic

/-! # The averages of a run of the general-Sz sampler converge (C75), 2Sz free -/
namespace MVMC
open Spec Finset
open scoped ENNReal

section obs
variable {g : GrnEnv} {ls : Nat → Int} {ex : Int}

/-- the weight `|Ψ|²` of a configuration -/
noncomputable def psiWeightF (g : GrnEnv) (ls : Nat → Int) (ex tz : Int) (c : CfgStateF (g.fszPar ls ex tz)) : ℝ≥0∞ := ENNReal.ofReal (‖psi g (fszList g c.1)‖ ^ 2)

/-- the set of occupied orbitals of a configuration -/
noncomputable def obsOfF {tz : Int} (c : CfgStateF (g.fszPar ls ex tz)) : Conf (2 * g.p.Nsite) := confOf (fszList g c.1) (placed_fsz (g := g) (c := c.1) c.2.1).range

variable {tz : Int}

theorem obsOfF_val (c : CfgStateF (g.fszPar ls ex tz)) : (obsOfF c).1 = OccF (g.fszPar ls ex tz) c.1 := by
  have pl := placed_fsz (g := g) (c := c.1) c.2.1
  ext x
  have h1 : x ∈ (obsOfF c).1 ↔ ∃ i < 2 * g.p.Ne, occF g.p.Nsite c.1.idx c.1.spn i = x := by
    unfold obsOfF confOf fszList occList
    simp
  rw [h1, mem_OccF]
  constructor
  · rintro ⟨i, hi, e⟩
    have hx := pl.range x (by unfold occList; exact List.mem_map.mpr ⟨i, List.mem_range.mpr hi, e⟩)
    rcases pl.occ x hx with q | q
    · exact ⟨hx, q.1⟩
    · exact absurd e (q.2 i hi)
  · rintro ⟨hx, q⟩
    rcases pl.occ x hx with w | w
    · exact w.2
    · exfalso
      have : c.1.num x = 1 := q
      omega

theorem obsOfF_eq (c d : CfgStateF (g.fszPar ls ex tz)) : obsOfF c = obsOfF d ↔ OccF (g.fszPar ls ex tz) c.1 = OccF (g.fszPar ls ex tz) d.1 := by
  rw [Subtype.ext_iff, obsOfF_val, obsOfF_val]

theorem targetF_of {S : Conf (2 * g.p.Nsite)} (h : fszSector g ls S) : TargetF (g.fszPar ls ex tz) S.1 := by
  obtain ⟨h0, hl⟩ := h
  refine ⟨fun x hx => mem_range.mp (mem_powerset.mp S.2 hx), h0, fun s hs r hr hq => ?_⟩
  have hc := hl r hr hq
  have hr : r < g.p.Nsite := hr
  have key : r ∈ S.1 ↔ r + g.p.Nsite ∉ S.1 := by
    constructor
    · intro a b
      have : ({r, r + g.p.Nsite} : Finset Nat) ⊆ S.1.filter (fun x => x = r ∨ x = r + g.p.Nsite) := by
        intro x hx
        rcases mem_insert.mp hx with rfl | hx
        · exact mem_filter.mpr ⟨a, Or.inl rfl⟩
        · rw [mem_singleton.mp hx]; exact mem_filter.mpr ⟨b, Or.inr rfl⟩
      have := card_le_card this
      rw [card_pair (by omega), hc] at this
      omega
    · intro b
      by_contra a
      rw [Finset.card_eq_zero.mpr] at hc
      · omega
      · rw [Finset.eq_empty_iff_forall_notMem]
        intro x hx
        obtain ⟨q1, q2 | q2⟩ := mem_filter.mp hx
        · exact a (q2 ▸ q1)
        · exact b (q2 ▸ q1)
  rcases (show s = 0 ∨ s = 1 by omega) with rfl | rfl <;> simp only [Nat.zero_mul, Nat.add_zero, Nat.one_mul, Nat.sub_zero, Nat.sub_self]
  · exact key
  · exact ⟨fun a b => key.mp b a, fun a => by by_contra b; exact a (key.mpr b)⟩

/-- the weight depends on the occupied orbitals only -/
theorem weightF_obs (hg : GrnOK g) (c : CfgStateF (g.fszPar ls ex tz)) :
    psiWeightF g ls ex tz c = ENNReal.ofReal (Complex.normSq (psi g ((obsOfF c).1.sort (· ≤ ·)))) := by
  have pl := placed_fsz (g := g) (c := c.1) c.2.1
  have ha := anti_conf (psi_anti hg) (show (fszList g c.1).Nodup from pl.nodup) pl.range
  unfold psiWeightF
  rw [ha, norm_mul, norm_pow, norm_neg, norm_one, one_pow, one_mul, Complex.normSq_eq_norm_sq]
  simp [stateOn, obsOfF]

end obs

section card
variable (g : GrnEnv) (hg : GrnOK g) (ls : Nat → Int) (ex tz : Int) (hNe : 0 < g.p.Ne) (hNs : 0 < g.p.Nsite) (hlb : ∀ r < g.p.Nsite, ls r = 0 ∨ ls r = 1)
  (T : Nat) (hT : g.p.Nsite ∣ T) (hT0 : 0 < T) (hTb : T ≤ drawBound) (hb2 : 2 * g.p.Nsite ≤ drawBound)
  (c0 : CfgStateF (g.fszPar ls ex tz))
include hg hNe hNs hlb hT hT0 hTb hb2

/-- all sets of occupied orbitals have the same number of numberings of the electrons in the class of a starting configuration -/
theorem classF_card {Y : Finset (CfgStateF (g.fszPar ls ex tz))} (hY : ∀ c, c ∈ Y ↔ CanReach (chainKF (g.fszPar ls ex tz) T (psiWeightF g ls ex tz)) c0 c)
    (herg : Ergodic (chainKF (g.fszPar ls ex tz) T (psiWeightF g ls ex tz)) (psiWeightF g ls ex tz) Y) :
    ∀ c ∈ Y, ∀ c' ∈ Y, (Y.filter (fun d => obsOfF d = obsOfF c)).card ≤ (Y.filter (fun d => obsOfF d = obsOfF c')).card := by
  have hNe' : 0 < (g.fszPar ls ex tz).Ne := hNe
  have hNs' : 0 < (g.fszPar ls ex tz).Nsite := hNs
  have hlb' : LocBin (g.fszPar ls ex tz) := hlb
  have hT' : (g.fszPar ls ex tz).Nsite ∣ T := hT
  have hTN : (g.fszPar ls ex tz).Nsite ≤ T := Nat.le_of_dvd hT0 hT
  have hW : ∀ c, psiWeightF g ls ex tz c ≠ ⊤ := fun c => ENNReal.ofReal_ne_top
  intro c hc c' hc'
  refine (fiber_card (R := CanStep (chainKF (g.fszPar ls ex tz) T (psiWeightF g ls ex tz))) ?_ (fun a ha b hb => (hY b).mpr (((hY a).mp ha).step hb)) hc ?_).2
  · intro a ha b hb
    by_cases e : b = a
    · exact ⟨id, id, fun d hd ho => ⟨hd, by rw [e]; exact ho, rfl⟩⟩
    · classical
      obtain ⟨φ, ψ, hφ⟩ := (chainF_mv hNe' hNs' hlb' (hW a) e hb).1.copy a.2.1
      refine ⟨fun d => if h : ConsistentF (2 * g.p.Ne) g.p.Nsite (φ d.1).idx (φ d.1).spn (φ d.1).cfg (φ d.1).num ∧ LocalSingle g.p.Nsite ls (φ d.1).num then ⟨φ d.1, h⟩ else d,
        fun d => if h : ConsistentF (2 * g.p.Ne) g.p.Nsite (ψ d.1).idx (ψ d.1).spn (ψ d.1).cfg (ψ d.1).num ∧ LocalSingle g.p.Nsite ls (ψ d.1).num then ⟨ψ d.1, h⟩ else d,
        fun d hd ho => ?_⟩
      obtain ⟨q1, q2, q3⟩ := hφ d.1 d.2.1 ((obsOfF_eq d a).mp ho)
      have hv := (validF _ d).mv q1
      have hcons : ConsistentF (2 * g.p.Ne) g.p.Nsite (φ d.1).idx (φ d.1).spn (φ d.1).cfg (φ d.1).num ∧ LocalSingle g.p.Nsite ls (φ d.1).num := ⟨hv.cons, hv.loc⟩
      have hob : obsOfF (⟨φ d.1, hcons⟩ : CfgStateF (g.fszPar ls ex tz)) = obsOfF b := (obsOfF_eq _ b).mpr q2
      simp only [dif_pos hcons]
      refine ⟨(hY _).mpr ?_, hob, ?_⟩
      · by_cases e' : (⟨φ d.1, hcons⟩ : CfgStateF (g.fszPar ls ex tz)) = d
        · rw [e']; exact (hY d).mp hd
        · refine ((hY d).mp hd).step (chainF_step hNe' hNs' hlb' (hW d) hTN hTb hb2 e' q1 ?_)
          rw [weightF_obs hg, hob, ← weightF_obs hg]
          exact (chainF_mv hNe' hNs' hlb' (hW a) e hb).2
      · have : ConsistentF (2 * g.p.Ne) g.p.Nsite (ψ (φ d.1)).idx (ψ (φ d.1)).spn (ψ (φ d.1)).cfg (ψ (φ d.1)).num ∧ LocalSingle g.p.Nsite ls (ψ (φ d.1)).num := by
          rw [q3]; exact d.2
        rw [dif_pos this]
        exact Subtype.ext q3
  · have := herg.connected c hc c' hc'
    induction this with
    | refl => exact .refl
    | @step a b hca hab ih =>
      have ha : a ∈ Y := (hY a).mpr (CanReach.trans' ((hY c).mp hc) hca)
      exact (ih ha).tail hab

end card

/-! ## The chain visits every configuration of the sector -/

section visit
variable (g : GrnEnv) (hg : GrnOK g) (ls : Nat → Int) (ex : Int) (hNe : 0 < g.p.Ne) (hNs : 0 < g.p.Nsite) (hlb : ∀ r < g.p.Nsite, ls r = 0 ∨ ls r = 1)
  (hz : ∀ S : Conf (2 * g.p.Nsite), fszSector g ls S → psi g (S.1.sort (· ≤ ·)) ≠ 0)
  (T : Nat) (hT : g.p.Nsite ∣ T) (hT0 : 0 < T) (hTb : T ≤ drawBound) (hb2 : 2 * g.p.Nsite ≤ drawBound)
  (c0 : CfgStateF (g.fszPar ls ex (-1)))
include hg hNe hNs hlb hz hT hT0 hTb hb2

omit hT hT0 hTb hb2 hNe hNs hlb in
theorem weightF_pos (c : CfgStateF (g.fszPar ls ex (-1))) : psiWeightF g ls ex (-1) c ≠ 0 := by
  rw [weightF_obs hg]
  have := hz (obsOfF c) (fszSector_of c.2.1 c.2.2)
  rw [Ne, ENNReal.ofReal_eq_zero, not_le]
  exact Complex.normSq_pos.mpr this

theorem reach_of_mvF {c : FCfg} (h : Relation.ReflTransGen (MvF (g.fszPar ls ex (-1))) c0.1 c) :
    ∃ hc, CanReach (chainKF (g.fszPar ls ex (-1)) T (psiWeightF g ls ex (-1))) c0 ⟨c, hc⟩ := by
  induction h with
  | refl => exact ⟨c0.2, .refl⟩
  | @tail a b _ hab ih =>
    obtain ⟨ha, hr⟩ := ih
    have hvb := ValidF.mv (⟨ha.1, ha.2⟩ : ValidF (g.fszPar ls ex (-1)) a) hab
    refine ⟨⟨hvb.cons, hvb.loc⟩, ?_⟩
    by_cases e : (⟨b, ⟨hvb.cons, hvb.loc⟩⟩ : CfgStateF (g.fszPar ls ex (-1))) = ⟨a, ha⟩
    · rw [e]; exact hr
    · refine hr.step (chainF_step (p := g.fszPar ls ex (-1)) hNe hNs hlb ENNReal.ofReal_ne_top (Nat.le_of_dvd hT0 hT) hTb hb2 e hab ?_)
      exact weightF_pos g hg ls ex hz _

/-- C75, general Sz: from any starting configuration the sampler can reach every configuration of its sector, of any total spin. -/
theorem C75_reach_fsz (hp : PathOKF (g.fszPar ls ex (-1))) (S : Conf (2 * g.p.Nsite)) (hS : fszSector g ls S) :
    ∃ c, CanReach (chainKF (g.fszPar ls ex (-1)) T (psiWeightF g ls ex (-1))) c0 c ∧ obsOfF c = S := by
  obtain ⟨c', hr, hv, e⟩ := reach_targetF hp rfl (targetF_of hS) (validF _ c0)
  obtain ⟨hc, h1⟩ := reach_of_mvF g hg ls ex hNe hNs hlb hz T hT hT0 hTb hb2 c0 hr
  exact ⟨⟨c', hc⟩, h1, Subtype.ext (by rw [obsOfF_val]; exact e)⟩

theorem classF_hold (hp : PathOKF (g.fszPar ls ex (-1))) :
    ∃ c, CanReach (chainKF (g.fszPar ls ex (-1)) T (psiWeightF g ls ex (-1))) c0 c ∧ chainKF (g.fszPar ls ex (-1)) T (psiWeightF g ls ex (-1)) c c ≠ 0 := by
  have hNe' : 0 < (g.fszPar ls ex (-1)).Ne := hNe
  have hNs' : 0 < (g.fszPar ls ex (-1)).Nsite := hNs
  have hlb' : LocBin (g.fszPar ls ex (-1)) := hlb
  have hop : HopPathF (g.fszPar ls ex (-1)) → locCountF (g.fszPar ls ex (-1)) < 2 * g.p.Ne →
      ∃ c, CanReach (chainKF (g.fszPar ls ex (-1)) T (psiWeightF g ls ex (-1))) c0 c ∧ chainKF (g.fszPar ls ex (-1)) T (psiWeightF g ls ex (-1)) c c ≠ 0 := by
    intro hh hcnt
    obtain ⟨x, hx⟩ := some_itinF hcnt (validF _ c0).target
    obtain ⟨ho, hl⟩ := mem_sdiff.mp hx
    obtain ⟨s, hs, r, hr, rfl⟩ := flat_split (mem_OccF.mp ho).1
    rw [mem_LocOrb hs hr] at hl
    obtain ⟨st, h1, h2⟩ := reject_hopF c0.2.1 hh rfl hs hr ho hl hb2
    exact ⟨c0, .refl, chainF_hold hNe' hNs' hlb' h1 h2⟩
  rcases hp with ⟨h, h0⟩ | ⟨h, h0 | ⟨h1, _⟩⟩ | ⟨h, _, h1⟩ | ⟨h, h1⟩
  · exact hop (Or.inl h) (by omega)
  · exact hop (Or.inr (Or.inl h)) (by omega)
  · exact hop (Or.inr (Or.inl h)) h1
  · exact hop (Or.inr (Or.inr h)) h1
  · -- all local spins up
    have hlr : ∀ r < g.p.Nsite, ∀ s < 2, (r + s * g.p.Nsite ∈ (range g.p.Nsite).filter (fun r => ls r = 1) ↔ s = 0 ∧ ls r = 1) := by
      intro r hr s hs
      rcases (show s = 0 ∨ s = 1 by omega) with rfl | rfl
      · simp [hr]
      · simp
    have hA : TargetF (g.fszPar ls ex (-1)) ((range g.p.Nsite).filter (fun r => ls r = 1)) := by
      refine ⟨fun x hx => ?_, ?_, ?_⟩
      · have := mem_range.mp (mem_filter.mp hx).1
        show x < 2 * g.p.Nsite
        omega
      · exact h1
      · intro s hs r hr hl
        have hl : ls r = 1 := hl
        rw [hlr r hr s hs, hlr r hr (1 - s) (by omega)]
        omega
    obtain ⟨c', hr, hv, e⟩ := reach_targetF (Or.inr (Or.inr (Or.inr ⟨h, h1⟩))) rfl hA (validF _ c0)
    obtain ⟨hc, h2⟩ := reach_of_mvF g hg ls ex hNe hNs hlb hz T hT hT0 hTb hb2 c0 hr
    have hscan : scanPair (g.fszPar ls ex (-1)) c' (List.range (g.fszPar ls ex (-1)).Nsite) 0 0 = false := by
      have down : ∀ r < g.p.Nsite, c'.num (r + g.p.Nsite) = 0 := by
        intro r hr
        have a := numBin hv.cons (show 1 < 2 by omega) hr
        have b : r + 1 * g.p.Nsite ∉ OccF (g.fszPar ls ex (-1)) c' := by rw [e, hlr r hr 1 (by omega)]; omega
        rw [mem_OccF, not_and] at b
        have b := b (flat_lt (by omega) hr)
        simp only [Nat.one_mul] at a b
        rcases a with a | a
        · exact a
        · exact absurd a b
      have up : ∀ l : List Nat, (∀ r ∈ l, r < g.p.Nsite) → ∀ b : Int, 0 ≤ b → scanPair (g.fszPar ls ex (-1)) c' l 1 b = false := by
        intro l
        induction l with
        | nil => intro _ _ _; rfl
        | cons x l ih =>
          intro hl b hb
          rw [scanPair]
          by_cases q : c'.num x + c'.num (x + (g.fszPar ls ex (-1)).Nsite) = 1
          · have d : c'.num (x + (g.fszPar ls ex (-1)).Nsite) = 0 := down x (hl x (by simp))
            have q1 : c'.num x = 1 := by omega
            rw [if_pos q]
            simp only [one_ne_zero, if_false, q1]
            rw [if_neg (by omega)]
            exact ih (fun r hr => hl r (by simp [hr])) _ (by omega)
          · rw [if_neg q]
            exact ih (fun r hr => hl r (by simp [hr])) b hb
      have start : ∀ l : List Nat, (∀ r ∈ l, r < g.p.Nsite) → scanPair (g.fszPar ls ex (-1)) c' l 0 0 = false := by
        intro l
        induction l with
        | nil => intro _; rfl
        | cons x l ih =>
          intro hl
          rw [scanPair]
          by_cases q : c'.num x + c'.num (x + (g.fszPar ls ex (-1)).Nsite) = 1
          · have d : c'.num (x + (g.fszPar ls ex (-1)).Nsite) = 0 := down x (hl x (by simp))
            have q1 : c'.num x = 1 := by omega
            rw [if_pos q]
            simp only [if_true, q1]
            rw [if_neg (by omega)]
            exact up l (fun r hr => hl r (by simp [hr])) 0 (by omega)
          · rw [if_neg q]
            exact ih (fun r hr => hl r (by simp [hr]))
      exact start _ (fun r hr => List.mem_range.mp hr)
    obtain ⟨st, h3, h4⟩ := reject_exchF (p := g.fszPar ls ex (-1)) (Or.inr (Or.inl h)) hscan
    exact ⟨⟨c', hc⟩, h2, chainF_hold hNe' hNs' hlb' h3 h4⟩

/-- the class of the starting configuration with its weights -/
theorem classF_ergodic (hp : PathOKF (g.fszPar ls ex (-1))) :
    ∃ Y : Finset (CfgStateF (g.fszPar ls ex (-1))), c0 ∈ Y ∧ Ergodic (chainKF (g.fszPar ls ex (-1)) T (psiWeightF g ls ex (-1))) (psiWeightF g ls ex (-1)) Y ∧
      ∀ Φ : Conf (2 * g.p.Nsite) → ℂ, weightMean (psiWeightF g ls ex (-1)) Y (fun c => Φ (obsOfF c)) =
        (∑ S ∈ univ.filter (fszSector g ls), (Complex.normSq (psi g (S.1.sort (· ≤ ·))) : ℂ) * Φ S) /
          ((∑ S ∈ univ.filter (fszSector g ls), Complex.normSq (psi g (S.1.sort (· ≤ ·))) : ℝ) : ℂ) := by
  have hNe' : 0 < (g.fszPar ls ex (-1)).Ne := hNe
  have hNs' : 0 < (g.fszPar ls ex (-1)).Nsite := hNs
  have hT' : (g.fszPar ls ex (-1)).Nsite ∣ T := hT
  have hW : ∀ c, psiWeightF g ls ex (-1) c ≠ ⊤ := fun c => ENNReal.ofReal_ne_top
  obtain ⟨Y, hY, herg⟩ := chainF_ergodic hNe' hNs' hlb hW hT' hTb c0 (weightF_pos g hg ls ex hz c0) (classF_hold g hg ls ex hNe hNs hlb hz T hT hT0 hTb hb2 c0 hp)
  have h0Y : c0 ∈ Y := (hY c0).mpr .refl
  have hcard := classF_card g hg ls ex (-1) hNe hNs hlb T hT hT0 hTb hb2 c0 hY herg
  refine ⟨Y, h0Y, herg, fun Φ => ?_⟩
  have himg : Y.image obsOfF = univ.filter (fszSector g ls) := by
    ext S
    rw [mem_image, mem_filter]
    constructor
    · rintro ⟨c, hc, rfl⟩
      exact ⟨mem_univ _, fszSector_of c.2.1 c.2.2⟩
    · rintro ⟨_, hS⟩
      obtain ⟨c, hc, e⟩ := C75_reach_fsz g hg ls ex hNe hNs hlb hz T hT hT0 hTb hb2 c0 hp S hS
      exact ⟨c, (hY c).mpr hc, e⟩
  rw [← himg]
  have w1 : ∀ c ∈ Y, (psiWeightF g ls ex (-1) c).toReal = (fun S : Conf (2 * g.p.Nsite) => Complex.normSq (psi g (S.1.sort (· ≤ ·)))) (obsOfF c) := by
    intro c _
    rw [weightF_obs hg, ENNReal.toReal_ofReal (Complex.normSq_nonneg _)]
  have hm : c0 ∈ Y.filter (fun d => obsOfF d = obsOfF c0) := mem_filter.mpr ⟨h0Y, rfl⟩
  have w2 : (Y.filter (fun d => obsOfF d = obsOfF c0)).card ≠ 0 := (card_pos.mpr ⟨c0, hm⟩).ne'
  have w3 : ∀ c ∈ Y, (Y.filter (fun d => obsOfF d = obsOfF c)).card = (Y.filter (fun d => obsOfF d = obsOfF c0)).card :=
    fun c hc => le_antisymm (hcard c hc c0 h0Y) (hcard c0 h0Y c hc)
  exact weightMean_fiber (o := obsOfF) (w := fun S : Conf (2 * g.p.Nsite) => Complex.normSq (psi g (S.1.sort (· ≤ ·)))) w1 w2 w3 Φ

/-- C75, general Sz: the mean square error of the average of an observable over `n+1` samples is at most `C/(n+1)`, as `C75_converge_partial`. Partial:
target sites drawn below a multiple `T` of the number of sites. -/
theorem C75_converge_fsz_partial (hp : PathOKF (g.fszPar ls ex (-1))) (m : Nat) (hm : 0 < m) (G : List Nat → ℂ)
    (hG : ∀ c : CfgStateF (g.fszPar ls ex (-1)), G (fszList g c.1) = G ((obsOfF c).1.sort (· ≤ ·))) :
    ∃ C : ℝ, ∀ w n, meanSqErr (chainKF (g.fszPar ls ex (-1)) T (psiWeightF g ls ex (-1))) c0 w m n (fun c => G (fszList g c.1)) (psiMean (psi g) (fszSector g ls) G) ≤
      ENNReal.ofReal (C / (n + 1)) := by
  obtain ⟨Y, h0, herg, hmean⟩ := classF_ergodic g hg ls ex hNe hNs hlb hz T hT hT0 hTb hb2 c0 hp
  obtain ⟨C, hC⟩ := mean_square_bound herg m hm (fun c => G (fszList g c.1))
  have e : weightMean (psiWeightF g ls ex (-1)) Y (fun c => G (fszList g c.1)) = psiMean (psi g) (fszSector g ls) G := by
    refine Eq.trans ?_ (hmean (fun S => G (S.1.sort (· ≤ ·))))
    unfold weightMean
    congr 1
    exact Finset.sum_congr rfl fun c _ => congrArg (((psiWeightF g ls ex (-1) c).toReal : ℂ) * ·) (hG c)
  rw [e] at hC
  exact ⟨C, hC c0 h0⟩

end visit

/-! ## Local values of operators -/

theorem localF_obs {g : GrnEnv} (hg : GrnOK g) {ls : Nat → Int} {ex tz : Int} (H : List (ℂ × List Op)) (ho : ∀ t ∈ H, ∀ o ∈ t.2, o.spinOrb < 2 * g.p.Nsite)
    (c : CfgStateF (g.fszPar ls ex tz)) : energyOf (psi g) H (fszList g c.1) = energyOf (psi g) H ((obsOfF c).1.sort (· ≤ ·)) := by
  have pl := placed_fsz (g := g) (c := c.1) c.2.1
  rw [energyOf_eq (psi_anti hg) H ho _ (show (fszList g c.1).Nodup from pl.nodup) pl.range,
    energyOf_eq (psi_anti hg) H ho _ (Finset.sort_nodup _ _) (sort_lt (obsOfF c)), confOf_sort]
  rfl

theorem localF_obs_one {g : GrnEnv} (hg : GrnOK g) {ls : Nat → Int} {ex tz : Int} (ops : List Op) (ho : ∀ o ∈ ops, o.spinOrb < 2 * g.p.Nsite)
    (c : CfgStateF (g.fszPar ls ex tz)) : matrixElement (psi g) ops (fszList g c.1) = matrixElement (psi g) ops ((obsOfF c).1.sort (· ≤ ·)) := by
  have := localF_obs hg [(1, ops)] (by simpa using ho) c
  simpa [energyOf] using this

/-- transition probabilities of one step of the general-Sz sampler with the weight `|Ψ|²` -/
noncomputable def samplerKF (g : GrnEnv) (ls : Nat → Int) (ex tz : Int) : CfgStateF (g.fszPar ls ex tz) → CfgStateF (g.fszPar ls ex tz) → ℝ≥0∞ :=
  metroKernel drawBound (fun a b : CfgStateF (g.fszPar ls ex tz) => MoveStreamsF (g.fszPar ls ex tz) a.1 b.1) (psiWeightF g ls ex tz)

theorem samplerKF_eq (g : GrnEnv) (ls : Nat → Int) (ex tz : Int) : chainKF (g.fszPar ls ex tz) drawBound (psiWeightF g ls ex tz) = samplerKF g ls ex tz := by
  unfold chainKF samplerKF
  congr 1
  funext a b
  exact moveStreamsF_all _ _ _

section converge
variable (g : GrnEnv) (hg : GrnOK g) (ls : Nat → Int) (ex : Int) (hNe : 0 < g.p.Ne) (hNs : 0 < g.p.Nsite) (hlb : ∀ r < g.p.Nsite, ls r = 0 ∨ ls r = 1)
  (hd : g.p.Nsite ∣ drawBound) (hb2 : 2 * g.p.Nsite ≤ drawBound)
  (hz : ∀ S : Conf (2 * g.p.Nsite), fszSector g ls S → psi g (S.1.sort (· ≤ ·)) ≠ 0) (hp : PathOKF (g.fszPar ls ex (-1)))
  (c0 : CfgStateF (g.fszPar ls ex (-1))) (m : Nat) (hm : 0 < m)
include hg hNe hNs hlb hd hb2 hz hp hm

/-- C75, general Sz: the same when the number of sites divides `2^32`. -/
theorem C75_converge_fsz (G : List Nat → ℂ) (hG : ∀ c : CfgStateF (g.fszPar ls ex (-1)), G (fszList g c.1) = G ((obsOfF c).1.sort (· ≤ ·))) :
    ∃ C : ℝ, ∀ w n, meanSqErr (samplerKF g ls ex (-1)) c0 w m n (fun c => G (fszList g c.1)) (psiMean (psi g) (fszSector g ls) G) ≤ ENNReal.ofReal (C / (n + 1)) := by
  rw [← samplerKF_eq]
  exact C75_converge_fsz_partial g hg ls ex hNe hNs hlb hz drawBound hd drawBound_pos le_rfl hb2 c0 hp m hm G hG

/-- C75, general Sz: the average of the local energies converges to `⟨ψ|H|ψ⟩/⟨ψ|ψ⟩`, in mean square and in probability. -/
theorem C75_energy_fsz (H : HamPar) (hH : HamIdx g.p.Nsite H) (hloc : HamLocal g.p.Nsite ls H) :
    ∃ C : ℝ, ∀ w n, meanSqErr (samplerKF g ls ex (-1)) c0 w m n (fun c => energyOf (psi g) (hamTerms g.p.Nsite H) (fszList g c.1))
        (Spec.expect (trialFsz g ls) (hamOf g H)) ≤ ENNReal.ofReal (C / (n + 1)) ∧
      ∀ ε : ℝ, 0 < ε → errProb (samplerKF g ls ex (-1)) c0 w m n (fun c => energyOf (psi g) (hamTerms g.p.Nsite H) (fszList g c.1))
        (Spec.expect (trialFsz g ls) (hamOf g H)) ε ≤ ENNReal.ofReal (C / ε ^ 2 / (n + 1)) := by
  obtain ⟨C, hC⟩ := C75_converge_fsz g hg ls ex hNe hNs hlb hd hb2 hz hp c0 m hm (energyOf (psi g) (hamTerms g.p.Nsite H))
    (fun c => localF_obs hg _ (hamTerms_orb hH) c)
  rw [C72_mean_fsz g hg H hH ls hloc] at hC
  exact ⟨C, fun w n => ⟨hC w n, fun ε hε => err_prob_bound hε (hC w n)⟩⟩

/-- C75, general Sz: the averages of the local values of `c†c` and of `c†c c†c` converge to the expectation values, spin-flipping operators included. -/
theorem C75_green_fsz (T : GrnTab) (hT : GrnIdx g.p.Nsite T) (hTl : GrnLocal g.p.Nsite ls T) :
    (∀ i < T.n1, ∃ C : ℝ, ∀ w n, meanSqErr (samplerKF g ls ex (-1)) c0 w m n (fun c => matrixElement (psi g) (grnOp1 g.p.Nsite T i) (fszList g c.1))
      (Spec.expect (trialFsz g ls) (prodMat (2 * g.p.Nsite) (grnOp1 g.p.Nsite T i))) ≤ ENNReal.ofReal (C / (n + 1))) ∧
    ∀ i < T.nDC, ∃ C : ℝ, ∀ w n, meanSqErr (samplerKF g ls ex (-1)) c0 w m n (fun c => matrixElement (psi g) (grnOpDC g.p.Nsite T i) (fszList g c.1))
      (Spec.expect (trialFsz g ls) (prodMat (2 * g.p.Nsite) (grnOpDC g.p.Nsite T i))) ≤ ENNReal.ofReal (C / (n + 1)) := by
  have h73 := C73_green_fsz g hg T hT ls hTl
  refine ⟨fun i hi => ?_, fun i hi => ?_⟩
  · rw [← h73.1 i hi]
    exact C75_converge_fsz g hg ls ex hNe hNs hlb hd hb2 hz hp c0 m hm _ (fun c => localF_obs_one hg _ (op1_orb g T hT hi) c)
  · rw [← h73.2 i hi]
    exact C75_converge_fsz g hg ls ex hNe hNs hlb hd hb2 hz hp c0 m hm _ (fun c => localF_obs_one hg _ (opDC_orb g T hT hi) c)

end converge

/-! ## Which choices of `NExUpdatePath` suit the system -/

/-- C75, general Sz: the choices that pass the reader suit the system, except updates 1 without an empty itinerant orbital, 2 with itinerant electrons
and 3 without local spins. -/
theorem C75_path_fsz (p : FPar) (h : locSpnCheck (locCountF p) p.Ne p.exPath = true)
    (hp : p.exPath = 0 ∨ (p.exPath = 1 ∧ 2 * p.Ne + locCountF p < 2 * p.Nsite) ∨ (p.exPath = 3 ∧ 0 < locCountF p) ∨ (p.exPath = 2 ∧ locCountF p = 2 * p.Ne)) :
    PathOKF p := by
  unfold locSpnCheck at h
  by_cases h0 : (locCountF p : Int) > 0
  · rw [if_pos h0] at h
    by_cases h1 : (locCountF p : Int) = 2 * p.Ne ∧ p.exPath ≠ 2
    · rw [if_pos h1] at h; simp at h
    rw [if_neg h1] at h
    by_cases h2 : p.exPath = 0
    · rw [if_pos h2] at h; simp at h
    rw [if_neg h2] at h
    by_cases h3 : (locCountF p : Int) > 2 * p.Ne
    · rw [if_pos h3] at h; simp at h
    rcases hp with hp | ⟨hp, hr⟩ | ⟨hp, hr⟩ | ⟨hp, hr⟩
    · exact absurd hp h2
    · exact Or.inr (Or.inl ⟨hp, Or.inr ⟨by omega, hr⟩⟩)
    · exact Or.inr (Or.inr (Or.inl ⟨hp, hr, by omega⟩))
    · exact Or.inr (Or.inr (Or.inr ⟨hp, hr⟩))
  · have hz : locCountF p = 0 := by omega
    rcases hp with hp | ⟨hp, _⟩ | ⟨hp, hr⟩ | ⟨hp, hr⟩
    · exact Or.inl ⟨hp, hz⟩
    · exact Or.inr (Or.inl ⟨hp, Or.inl hz⟩)
    · omega
    · exact Or.inr (Or.inr (Or.inr ⟨hp, hr⟩))

/-- number of up electrons -/
def upCount (p : FPar) (c : FCfg) : Nat := ((OccF p c).filter (· < p.Nsite)).card

/-- C75: with updates 1, 2Sz free and no empty itinerant orbital the number of up electrons never changes. -/
theorem C75_full_band {p : FPar} {T : Nat} {W : CfgStateF p → ℝ≥0∞} (hNe : 0 < p.Ne) (hNs : 0 < p.Nsite) (hlb : LocBin p) (hW : ∀ c, W c ≠ ⊤)
    (hp : p.exPath = 1) (hfull : 2 * p.Ne + locCountF p = 2 * p.Nsite) {c0 c : CfgStateF p} (h : CanReach (chainKF p T W) c0 c) :
    upCount p c.1 = upCount p c0.1 := by
  induction h with
  | refl => rfl
  | @step a b _ hs ih =>
    by_cases e : b = a
    · rw [e]; exact ih
    · rw [← ih]
      have hm := (chainF_mv hNe hNs hlb (hW a) e hs).1
      have hv := validF p a
      obtain ⟨bv, bp⟩ := b
      simp only at hm ⊢
      cases hm with
      | hop _ h ok hi _ =>
        exfalso
        have hA := hv.target
        have h1 := card_loc hA.loc
        rw [inter_comm] at h1
        have h2 := hA.card
        unfold FPar.Nsize at h2
        have h3 := card_locOrb hA
        have h4 := card_union_add_card_inter (OccF p a.1) (LocOrb p)
        have hU : OccF p a.1 ∪ LocOrb p = range (2 * p.Nsite) := by
          refine Finset.eq_of_subset_of_card_le ?_ (by rw [card_range]; omega)
          intro x hx
          rcases mem_union.mp hx with hx | hx
          · exact mem_range.mpr (mem_OccF.mp hx).1
          · exact (mem_filter.mp hx).1
        have hmem : h.rj + h.t * p.Nsite ∈ OccF p a.1 ∪ LocOrb p := by rw [hU]; exact mem_range.mpr (flat_lt ok.t ok.rj)
        rcases mem_union.mp hmem with q | q
        · exact (moveOK_occ hv.cons ok).2 q
        · exact hi.2 ((mem_LocOrb ok.t ok.rj).mp q)
      | flip hq _ _ _ _ _ => rcases hq with q | q <;> omega
      | exch _ h x =>
        have hs2 := x.ok.s
        have o := moveOK_occ hv.cons x.ok
        rw [← x.st] at o
        have q2 : h.ri + (1 - h.s) * p.Nsite ∉ OccF p a.1 := (freeF_iff hv.cons (by omega) x.ok.ri).mp x.emp
        have q3 : h.rj + (1 - h.s) * p.Nsite ∈ OccF p a.1 :=
          mem_OccF.mpr ⟨flat_lt (by omega) x.ok.rj, (consF_back hv.cons x.mj x.idj x.spj).2.2.2⟩
        unfold upCount
        rw [occF_exch x]
        have hri := x.ok.ri
        have hrj := x.ok.rj
        have hne := x.ne
        rcases (show h.s = 0 ∨ h.s = 1 by omega) with q | q <;> rw [q] at o q2 q3 ⊢ <;>
          simp only [Nat.zero_mul, Nat.add_zero, Nat.one_mul, Nat.sub_zero, Nat.sub_self] at o q2 q3 ⊢
        · have : ((insert (h.ri + p.Nsite) ((insert h.rj ((OccF p a.1).erase h.ri)).erase (h.rj + p.Nsite))).filter (· < p.Nsite)) =
              insert h.rj (((OccF p a.1).filter (· < p.Nsite)).erase h.ri) := by
            ext y
            simp only [mem_filter, mem_insert, mem_erase]
            constructor
            · rintro ⟨w1 | ⟨w1, w2 | w2⟩, w3⟩
              · omega
              · exact Or.inl w2
              · exact Or.inr ⟨w2.1, w2.2, w3⟩
            · rintro (w | ⟨w1, w2, w3⟩)
              · exact ⟨Or.inr ⟨by omega, Or.inl w⟩, by omega⟩
              · exact ⟨Or.inr ⟨by omega, Or.inr ⟨w1, w2⟩⟩, w3⟩
          rw [this, card_insert_of_notMem (by simp only [mem_erase, mem_filter]; tauto), card_erase_of_mem (mem_filter.mpr ⟨o.1, hri⟩)]
          have : 0 < ((OccF p a.1).filter (· < p.Nsite)).card := card_pos.mpr ⟨_, mem_filter.mpr ⟨o.1, hri⟩⟩
          omega
        · have : ((insert h.ri ((insert (h.rj + p.Nsite) ((OccF p a.1).erase (h.ri + p.Nsite))).erase h.rj)).filter (· < p.Nsite)) =
              insert h.ri (((OccF p a.1).filter (· < p.Nsite)).erase h.rj) := by
            ext y
            simp only [mem_filter, mem_insert, mem_erase]
            constructor
            · rintro ⟨w1 | ⟨w1, w2 | w2⟩, w3⟩
              · exact Or.inl w1
              · omega
              · exact Or.inr ⟨w1, w2.2, w3⟩
            · rintro (w | ⟨w1, w2, w3⟩)
              · exact ⟨Or.inl w, by omega⟩
              · exact ⟨Or.inr ⟨w1, Or.inr ⟨by omega, w2⟩⟩, w3⟩
          rw [this, card_insert_of_notMem (by simp only [mem_erase, mem_filter]; tauto), card_erase_of_mem (mem_filter.mpr ⟨q3, hrj⟩)]
          have : 0 < ((OccF p a.1).filter (· < p.Nsite)).card := card_pos.mpr ⟨_, mem_filter.mpr ⟨q3, hrj⟩⟩
          omega

/-- two local spins and a filled itinerant site; updates 1, 2Sz free -/
def fullPar : FPar := ⟨2, 3, fun r => if r < 2 then 1 else 0, 1, -1⟩

/-- spin up on site 0, spin down on site 1, two electrons on site 2 -/
def fullTab : FCfg :=
  ⟨fun k => if k = 0 then 0 else if k = 1 then 1 else 2, fun k => if k = 1 ∨ k = 3 then 1 else 0,
    fun k => if k = 0 then 0 else if k = 4 then 1 else if k = 2 then 2 else if k = 5 then 3 else -1,
    fun k => if k = 0 ∨ k = 4 ∨ k = 2 ∨ k = 5 then 1 else 0⟩

theorem fullTab_ok : ConsistentF (2 * fullPar.Ne) fullPar.Nsite fullTab.idx fullTab.spn fullTab.cfg fullTab.num ∧
    LocalSingle fullPar.Nsite fullPar.locSpn fullTab.num := by
  refine ⟨⟨?_, ?_⟩, ?_⟩
  · intro m hm
    have hm : m < 4 := hm
    interval_cases m
    · exact ⟨0, by decide, 0, by decide, rfl, rfl, rfl⟩
    · exact ⟨1, by decide, 1, by decide, rfl, rfl, rfl⟩
    · exact ⟨2, by decide, 0, by decide, rfl, rfl, rfl⟩
    · exact ⟨2, by decide, 1, by decide, rfl, rfl, rfl⟩
  · intro s hs r hr
    have hr : r < 3 := hr
    interval_cases s <;> interval_cases r
    · exact Or.inr ⟨0, by decide, rfl, rfl, rfl, rfl⟩
    · exact Or.inl ⟨rfl, rfl⟩
    · exact Or.inr ⟨2, by decide, rfl, rfl, rfl, rfl⟩
    · exact Or.inl ⟨rfl, rfl⟩
    · exact Or.inr ⟨1, by decide, rfl, rfl, rfl, rfl⟩
    · exact Or.inr ⟨3, by decide, rfl, rfl, rfl, rfl⟩
  · intro r hr h1
    have hr : r < 3 := hr
    interval_cases r
    · rfl
    · rfl
    · exact absurd h1 (by decide)

/-- C75: violated for updates 1, 2Sz free, two local spins and a filled itinerant site, which the reader accepts: the local spins are never parallel,
whatever the weight of such a configuration. -/
theorem C75_full_band_violated : locSpnCheck 2 2 1 = true ∧ TargetF fullPar {0, 1, 2, 5} ∧
    ∀ (T : Nat) (W : CfgStateF fullPar → ℝ≥0∞), (∀ c, W c ≠ ⊤) → ∀ c, CanReach (chainKF fullPar T W) ⟨fullTab, fullTab_ok⟩ c → OccF fullPar c.1 ≠ {0, 1, 2, 5} := by
  refine ⟨by decide, ⟨by decide, by decide, by decide⟩, fun T W hW c hc e => ?_⟩
  have h := C75_full_band (p := fullPar) (by decide) (by decide) (by intro r hr; have hr : r < 3 := hr; interval_cases r <;> decide) hW rfl (by decide) hc
  have h1 : upCount fullPar c.1 = 3 := by
    unfold upCount
    rw [e]
    decide
  have h2 : upCount fullPar fullTab = 2 := by decide
  rw [h1] at h
  have h : 3 = upCount fullPar fullTab := h
  omega

/-! ## Two electrons on two sites, any spins -/

/-- the same amplitude for all pairs of orbitals -/
noncomputable def pairEnv : GrnEnv := { exEnv with slt := fun k => if k / 4 < k % 4 then 1 else if k % 4 < k / 4 then -1 else 0 }

theorem pairEnv_ok : GrnOK pairEnv where
  hq := rfl
  tab := exEnv_ok.tab
  skew := by
    intro k hk
    have hk : k < 1 := hk
    have : k = 0 := by omega
    subst this
    refine ⟨?_, ?_⟩
    · intro x y hx hy
      have hx : x < 4 := hx
      have hy : y < 4 := hy
      interval_cases x <;> interval_cases y <;> simp [pairEnv, exEnv, entry]
    · intro x hx
      have hx : x < 4 := hx
      interval_cases x <;> simp [pairEnv, exEnv, entry]

def pairLists : List (List Nat) := [[0, 1], [0, 2], [0, 3], [1, 2], [1, 3], [2, 3]]

theorem pair_psi : ∀ l ∈ pairLists, psi pairEnv l = psi pairEnv [0, 1] ∧ psi pairEnv l ≠ 0 := by
  have c : corrSpec pairEnv = fun _ => 1 := by
    funext num
    simp [corrSpec, projSpec, pairEnv, exEnv, logCorr]
  intro l hl
  simp only [pairLists, List.mem_cons, List.not_mem_nil, or_false] at hl
  rcases hl with rfl | rfl | rfl | rfl | rfl | rfl <;> constructor <;>
    simp only [psi, c] <;> simp [pairEnv, exEnv, pf, pfN, altSum, entry, waveFunction]

def pairConfs : List (Conf (2 * pairEnv.p.Nsite)) :=
  ([confOf [0, 1] (by decide), confOf [0, 2] (by decide), confOf [0, 3] (by decide), confOf [1, 2] (by decide), confOf [1, 3] (by decide),
    confOf [2, 3] (by decide)] : List (Conf 4))

theorem pairConfs_nodup : pairConfs.Nodup := by
  unfold pairConfs
  exact of_decide_eq_true (p := List.Nodup (α := Conf 4) _) rfl

theorem pair_sector : univ.filter (fszSector pairEnv (fun _ => 0)) = pairConfs.toFinset := by
  have : ∀ S : Conf 4, (fixedN (M := 4) 2 S ∧ localOne 2 (fun _ => 0) S) ↔
    S ∈ ([confOf [0, 1] (by decide), confOf [0, 2] (by decide), confOf [0, 3] (by decide), confOf [1, 2] (by decide), confOf [1, 3] (by decide),
      confOf [2, 3] (by decide)] : List (Conf 4)).toFinset := by decide
  ext S
  rw [mem_filter]
  exact ⟨fun h => (this S).mp h.2, fun h => ⟨mem_univ _, (this S).mpr h⟩⟩

theorem pair_sorts4 (S : Conf 4) (h : S ∈ ([confOf [0, 1] (by decide), confOf [0, 2] (by decide), confOf [0, 3] (by decide), confOf [1, 2] (by decide),
    confOf [1, 3] (by decide), confOf [2, 3] (by decide)] : List (Conf 4))) : S.1.sort (· ≤ ·) ∈ pairLists := by
  simp only [List.mem_cons, List.not_mem_nil, or_false] at h
  rcases h with rfl | rfl | rfl | rfl | rfl | rfl
  · rw [sort_conf [0, 1] (by decide) (by decide) (by decide)]; decide
  · rw [sort_conf [0, 2] (by decide) (by decide) (by decide)]; decide
  · rw [sort_conf [0, 3] (by decide) (by decide) (by decide)]; decide
  · rw [sort_conf [1, 2] (by decide) (by decide) (by decide)]; decide
  · rw [sort_conf [1, 3] (by decide) (by decide) (by decide)]; decide
  · rw [sort_conf [2, 3] (by decide) (by decide) (by decide)]; decide

theorem pair_sorts {S : Conf (2 * pairEnv.p.Nsite)} (h : fszSector pairEnv (fun _ => 0) S) : S.1.sort (· ≤ ·) ∈ pairLists := by
  have hS : S ∈ pairConfs.toFinset := by rw [← pair_sector]; exact mem_filter.mpr ⟨mem_univ _, h⟩
  exact pair_sorts4 S (List.mem_toFinset.mp hS)

/-- both electrons with spin up -/
noncomputable def bothUp (l : List Nat) : ℂ := if 0 ∈ l ∧ 1 ∈ l then 1 else 0

theorem pair_up : psiMean (psi pairEnv) (fszSector pairEnv (fun _ => 0)) bothUp = 1 / 6 := by
  have hw : ∀ S ∈ univ.filter (fszSector pairEnv (fun _ => 0)), Complex.normSq (psi pairEnv (S.1.sort (· ≤ ·))) = Complex.normSq (psi pairEnv [0, 1]) := by
    intro S hS
    rw [(pair_psi _ (pair_sorts (mem_filter.mp hS).2)).1]
  unfold psiMean
  rw [Finset.sum_congr rfl (fun S hS => by rw [hw S hS]), Finset.sum_congr rfl hw, ← Finset.mul_sum, Finset.sum_const, pair_sector,
    List.sum_toFinset _ pairConfs_nodup, List.toFinset_card_of_nodup pairConfs_nodup, nsmul_eq_mul]
  have h0 : ((Complex.normSq (psi pairEnv [0, 1]) : ℝ) : ℂ) ≠ 0 := by
    have := (pair_psi [0, 1] (by decide)).2
    exact_mod_cast (Complex.normSq_pos.mpr this).ne'
  push_cast
  rw [mul_comm (pairConfs.length : ℂ), mul_div_mul_left _ _ h0]
  show ((([confOf [0, 1] (by decide), confOf [0, 2] (by decide), confOf [0, 3] (by decide), confOf [1, 2] (by decide), confOf [1, 3] (by decide),
    confOf [2, 3] (by decide)] : List (Conf 4)).map (fun S => bothUp (S.1.sort (· ≤ ·)))).sum / ((6 : Nat) : ℂ)) = _
  simp only [List.map_cons, List.map_nil]
  rw [sort_conf [0, 1] (by decide) (by decide) (by decide), sort_conf [0, 2] (by decide) (by decide) (by decide),
    sort_conf [0, 3] (by decide) (by decide) (by decide), sort_conf [1, 2] (by decide) (by decide) (by decide),
    sort_conf [1, 3] (by decide) (by decide) (by decide), sort_conf [2, 3] (by decide) (by decide) (by decide)]
  simp [bothUp]

/-- an up electron on site 0 and a down electron on site 1 -/
def pairTab : FCfg :=
  ⟨fun k => if k = 0 then 0 else 1, fun k => if k = 0 then 0 else 1, fun k => if k = 0 then 0 else if k = 3 then 1 else -1,
    fun k => if k = 0 ∨ k = 3 then 1 else 0⟩

theorem pairTab_ok : ConsistentF 2 2 pairTab.idx pairTab.spn pairTab.cfg pairTab.num ∧ LocalSingle 2 (fun _ => 0) pairTab.num := by
  refine ⟨⟨?_, ?_⟩, fun r _ h => absurd h (by simp)⟩
  · intro m hm
    interval_cases m
    · exact ⟨0, by decide, 0, by decide, rfl, rfl, rfl⟩
    · exact ⟨1, by decide, 1, by decide, rfl, rfl, rfl⟩
  · intro s hs r hr
    interval_cases s <;> interval_cases r
    · exact Or.inr ⟨0, by decide, rfl, rfl, rfl, rfl⟩
    · exact Or.inl ⟨rfl, rfl⟩
    · exact Or.inl ⟨rfl, rfl⟩
    · exact Or.inr ⟨1, by decide, rfl, rfl, rfl, rfl⟩

/-- hops only, 2Sz free: from electrons with opposite spins the measured probability of two up electrons converges to 1/6 -/
example (m : Nat) (hm : 0 < m) : ∃ C : ℝ, ∀ w n, meanSqErr (samplerKF pairEnv (fun _ => 0) 0 (-1)) ⟨pairTab, pairTab_ok⟩ w m n
    (fun c => bothUp (fszList pairEnv c.1)) (1 / 6) ≤ ENNReal.ofReal (C / (n + 1)) := by
  rw [← pair_up]
  refine C75_converge_fsz pairEnv pairEnv_ok _ 0 (by decide) (by decide) (fun r _ => Or.inl rfl) (by decide) (by decide)
    (fun S hS => (pair_psi _ (pair_sorts hS)).2) (Or.inl ⟨rfl, by decide⟩) _ m hm bothUp (fun c => ?_)
  unfold bothUp
  simp [obsOfF, confOf]

end MVMC
