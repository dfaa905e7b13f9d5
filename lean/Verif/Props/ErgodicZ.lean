import Verif.Proof.ReachZ
import Verif.Props.ErgodicF

/-! # The averages of a run of the general-Sz sampler converge (C75), 2Sz fixed -/
namespace MVMC
open Spec Finset
open scoped ENNReal

/-- the configurations of the general-Sz mode with given `N↑ - N↓` -/
def magSector (g : GrnEnv) (ls : Nat → Int) (M : Int) (S : Conf (2 * g.p.Nsite)) : Prop :=
  fszSector g ls S ∧ ((S.1.filter (· < g.p.Nsite)).card : Int) - (S.1.filter (g.p.Nsite ≤ ·)).card = M

instance (g : GrnEnv) (ls : Nat → Int) (M : Int) : DecidablePred (magSector g ls M) := fun _ => inferInstanceAs (Decidable (_ ∧ _))

/-- the trial state on the configurations of given `N↑ - N↓` -/
noncomputable abbrev trialMag (g : GrnEnv) (ls : Nat → Int) (M : Int) : Conf (2 * g.p.Nsite) → ℂ := stateOn (2 * g.p.Nsite) (magSector g ls M) (psi g)

theorem card_ups (N : Nat) (A : Finset Nat) : (A.filter (· < N)).card = (spinSites N A 0).card := by
  congr 1
  ext r
  simp [spinSites, and_comm]

theorem card_dns {N : Nat} {A : Finset Nat} (h : ∀ x ∈ A, x < 2 * N) : (A.filter (N ≤ ·)).card = (spinSites N A 1).card := by
  have : A.filter (N ≤ ·) = (spinSites N A 1).image (· + N) := by
    ext x
    simp only [mem_filter, mem_image, mem_spinSites, Nat.one_mul]
    constructor
    · rintro ⟨h1, h2⟩
      have := h x h1
      exact ⟨x - N, ⟨by omega, by rwa [Nat.sub_add_cancel h2]⟩, by omega⟩
    · rintro ⟨r, ⟨_, h2⟩, rfl⟩
      exact ⟨h2, by omega⟩
  rw [this, card_image_of_injective _ (fun a b e => by simpa using e)]

theorem spinCount_card {p : FPar} {c : FCfg} (hc : ConsF p c) {s : Nat} (hs : s < 2) : spinCount p.Nsite c.num s = ((OccS p c s).card : Int) := by
  have : ∀ n ≤ p.Nsite, ((List.range n).map (fun r => c.num (r + s * p.Nsite))).sum = (((range n).filter (fun r => r + s * p.Nsite ∈ OccF p c)).card : Int) := by
    intro n
    induction n with
    | zero => intro _; simp
    | succ n ih =>
      intro hn
      rw [List.range_succ, List.map_append, List.sum_append, ih (by omega), Finset.range_add_one, filter_insert]
      have hb := numBin hc hs (show n < p.Nsite by omega)
      have hm : n + s * p.Nsite ∈ OccF p c ↔ c.num (n + s * p.Nsite) = 1 := by
        rw [mem_OccF]
        exact ⟨fun h => h.2, fun h => ⟨flat_lt hs (by omega), h⟩⟩
      by_cases q : n + s * p.Nsite ∈ OccF p c
      · rw [if_pos q, card_insert_of_notMem (by simp), List.map_singleton, List.sum_singleton, hm.mp q]
        push_cast; rfl
      · rw [if_neg q, List.map_singleton, List.sum_singleton]
        rcases hb with hb | hb
        · rw [hb, add_zero]
        · exact absurd (hm.mpr hb) q
  exact this p.Nsite le_rfl

section obs
variable {g : GrnEnv} {ls : Nat → Int} {ex tz : Int}

theorem magSector_obs (c : CfgStateF (g.fszPar ls ex tz)) {M : Int} : magSector g ls M (obsOfF c) ↔ magnetisation g.p.Nsite c.1.num = M := by
  have hA : ∀ x ∈ (obsOfF c).1, x < 2 * g.p.Nsite := fun x hx => mem_range.mp (mem_powerset.mp (obsOfF c).2 hx)
  have h0 := spinCount_card (p := g.fszPar ls ex tz) c.2.1 (show 0 < 2 by omega)
  have h1 := spinCount_card (p := g.fszPar ls ex tz) c.2.1 (show 1 < 2 by omega)
  have h0 : spinCount g.p.Nsite c.1.num 0 = ((OccS (g.fszPar ls ex tz) c.1 0).card : Int) := h0
  have h1 : spinCount g.p.Nsite c.1.num 1 = ((OccS (g.fszPar ls ex tz) c.1 1).card : Int) := h1
  unfold magSector magnetisation
  rw [card_ups, card_dns hA, obsOfF_val, h0, h1]
  exact ⟨fun h => h.2, fun h => ⟨fszSector_of c.2.1 c.2.2, h⟩⟩

/-- the numbers of electrons of both spins from the total and `N↑ - N↓` -/
theorem mag_cards {S : Conf (2 * g.p.Nsite)} {M : Int} (hS : magSector g ls M S) {c : CfgStateF (g.fszPar ls ex tz)}
    (hm : magnetisation g.p.Nsite c.1.num = M) : ∀ s < 2, (spinSites g.p.Nsite S.1 s).card = (OccS (g.fszPar ls ex tz) c.1 s).card := by
  have hc := (magSector_obs c).mpr hm
  have tot : ∀ {S : Conf (2 * g.p.Nsite)}, magSector g ls M S →
      (spinSites g.p.Nsite S.1 0).card + (spinSites g.p.Nsite S.1 1).card = 2 * g.p.Ne ∧
      ((spinSites g.p.Nsite S.1 0).card : Int) - (spinSites g.p.Nsite S.1 1).card = M := by
    intro S hS
    have hA : ∀ x ∈ S.1, x < 2 * g.p.Nsite := fun x hx => mem_range.mp (mem_powerset.mp S.2 hx)
    have h1 : S.1.card = 2 * g.p.Ne := hS.1.1
    have h2 := hS.2
    have h3 := Finset.card_filter_add_card_filter_not (s := S.1) (fun x => x < g.p.Nsite)
    simp only [not_lt] at h3
    rw [card_ups, card_dns hA] at h2 h3
    exact ⟨by omega, h2⟩
  have a := tot hS
  have b := tot hc
  rw [obsOfF_val] at b
  have b : (OccS (g.fszPar ls ex tz) c.1 0).card + (OccS (g.fszPar ls ex tz) c.1 1).card = 2 * g.p.Ne ∧
    ((OccS (g.fszPar ls ex tz) c.1 0).card : Int) - (OccS (g.fszPar ls ex tz) c.1 1).card = M := b
  intro s hs
  rcases (show s = 0 ∨ s = 1 by omega) with rfl | rfl <;> omega

end obs

section visit
variable (g : GrnEnv) (hg : GrnOK g) (ls : Nat → Int) (ex tz M : Int) (hNe : 0 < g.p.Ne) (hNs : 0 < g.p.Nsite) (hlb : ∀ r < g.p.Nsite, ls r = 0 ∨ ls r = 1)
  (htz : tz ≠ -1) (hp : PathOKZ (g.fszPar ls ex tz))
  (hz : ∀ S : Conf (2 * g.p.Nsite), magSector g ls M S → psi g (S.1.sort (· ≤ ·)) ≠ 0)
  (T : Nat) (hT : g.p.Nsite ∣ T) (hT0 : 0 < T) (hTb : T ≤ drawBound) (hb2 : 2 * g.p.Nsite ≤ drawBound)
  (c0 : CfgStateF (g.fszPar ls ex tz)) (hm0 : magnetisation g.p.Nsite c0.1.num = M)
include hg hNe hNs hlb htz hp hz hT hT0 hTb hb2 hm0

omit hT hT0 hTb hb2 hNe hNs hlb htz hp hm0 in
theorem weightZ_pos (c : CfgStateF (g.fszPar ls ex tz)) (hm : magnetisation g.p.Nsite c.1.num = M) : psiWeightF g ls ex tz c ≠ 0 := by
  rw [weightF_obs hg]
  have := hz (obsOfF c) ((magSector_obs c).mpr hm)
  rw [Ne, ENNReal.ofReal_eq_zero, not_le]
  exact Complex.normSq_pos.mpr this

omit hg hz hT hT0 hTb hb2 hp in
theorem reachZ_mag (hx3 : ex ≠ 3) {c : CfgStateF (g.fszPar ls ex tz)} (h : CanReach (chainKF (g.fszPar ls ex tz) T (psiWeightF g ls ex tz)) c0 c) :
    magnetisation g.p.Nsite c.1.num = M := by
  have hW : ∀ c, psiWeightF g ls ex tz c ≠ ⊤ := fun c => ENNReal.ofReal_ne_top
  rw [← hm0]
  have key : ∀ s < 2, spinCount g.p.Nsite c.1.num s = spinCount g.p.Nsite c0.1.num s := by
    intro s hs
    have h1 := spinCount_card (p := g.fszPar ls ex tz) c.2.1 hs
    have h2 := spinCount_card (p := g.fszPar ls ex tz) c0.2.1 hs
    have h3 := reachZ_card (p := g.fszPar ls ex tz) hNe hNs hlb htz hx3 hW h hs
    rw [h3] at h1
    exact h1.trans h2.symm
  unfold magnetisation
  rw [key 0 (by omega), key 1 (by omega)]

theorem reach_of_mvZ {c : FCfg} (h : Relation.ReflTransGen (MvF (g.fszPar ls ex tz)) c0.1 c) :
    ∃ hc, CanReach (chainKF (g.fszPar ls ex tz) T (psiWeightF g ls ex tz)) c0 ⟨c, hc⟩ := by
  have hx3 : ex ≠ 3 := hp.ne3
  induction h with
  | refl => exact ⟨c0.2, .refl⟩
  | @tail a b _ hab ih =>
    obtain ⟨ha, hr⟩ := ih
    have hvb := ValidF.mv (⟨ha.1, ha.2⟩ : ValidF (g.fszPar ls ex tz) a) hab
    refine ⟨⟨hvb.cons, hvb.loc⟩, ?_⟩
    by_cases e : (⟨b, ⟨hvb.cons, hvb.loc⟩⟩ : CfgStateF (g.fszPar ls ex tz)) = ⟨a, ha⟩
    · rw [e]; exact hr
    · have hma := reachZ_mag g ls ex tz M hNe hNs hlb htz T c0 hm0 hx3 hr
      have hmb : magnetisation g.p.Nsite b.num = M := by
        have key : ∀ s < 2, spinCount g.p.Nsite b.num s = spinCount g.p.Nsite a.num s := by
          intro s hs
          have h1 := spinCount_card (p := g.fszPar ls ex tz) hvb.cons hs
          have h2 := spinCount_card (p := g.fszPar ls ex tz) ha.1 hs
          rw [hab.card_spin ha.1 htz hx3 hs] at h1
          exact h1.trans h2.symm
        rw [← hma]
        unfold magnetisation
        rw [key 0 (by omega), key 1 (by omega)]
      refine hr.step (chainF_step (p := g.fszPar ls ex tz) hNe hNs hlb ENNReal.ofReal_ne_top (Nat.le_of_dvd hT0 hT) hTb hb2 e hab ?_)
      exact weightZ_pos g hg ls ex tz M hz _ hmb

/-- C75, general Sz with 2Sz fixed: from any starting configuration the sampler can reach every configuration with the same `N↑ - N↓`. -/
theorem C75_reach_csz (S : Conf (2 * g.p.Nsite)) (hS : magSector g ls M S) :
    ∃ c, CanReach (chainKF (g.fszPar ls ex tz) T (psiWeightF g ls ex tz)) c0 c ∧ obsOfF c = S := by
  obtain ⟨c', hr, hv, e⟩ := reach_targetZ hp htz (targetF_of hS.1) (validF _ c0) (mag_cards hS hm0)
  obtain ⟨hc, h1⟩ := reach_of_mvZ g hg ls ex tz M hNe hNs hlb htz hp hz T hT hT0 hTb hb2 c0 hm0 hr
  exact ⟨⟨c', hc⟩, h1, Subtype.ext (by rw [obsOfF_val]; exact e)⟩

theorem classZ_hold
    (hconst : ex = 2 → ∃ S S' : Conf (2 * g.p.Nsite), magSector g ls M S ∧ magSector g ls M S' ∧ ‖psi g (S.1.sort (· ≤ ·))‖ ≠ ‖psi g (S'.1.sort (· ≤ ·))‖) :
    ∃ c, CanReach (chainKF (g.fszPar ls ex tz) T (psiWeightF g ls ex tz)) c0 c ∧ chainKF (g.fszPar ls ex tz) T (psiWeightF g ls ex tz) c c ≠ 0 := by
  have hNe' : 0 < (g.fszPar ls ex tz).Ne := hNe
  have hNs' : 0 < (g.fszPar ls ex tz).Nsite := hNs
  have hlb' : LocBin (g.fszPar ls ex tz) := hlb
  have hT' : (g.fszPar ls ex tz).Nsite ∣ T := hT
  have hW : ∀ c, psiWeightF g ls ex tz c ≠ ⊤ := fun c => ENNReal.ofReal_ne_top
  have hop : HopPathF (g.fszPar ls ex tz) → locCountF (g.fszPar ls ex tz) < 2 * g.p.Ne →
      ∃ c, CanReach (chainKF (g.fszPar ls ex tz) T (psiWeightF g ls ex tz)) c0 c ∧ chainKF (g.fszPar ls ex tz) T (psiWeightF g ls ex tz) c c ≠ 0 := by
    intro hh hcnt
    obtain ⟨x, hx⟩ := some_itinF hcnt (validF _ c0).target
    obtain ⟨ho, hl⟩ := mem_sdiff.mp hx
    obtain ⟨s, hs, r, hr, rfl⟩ := flat_split (mem_OccF.mp ho).1
    rw [mem_LocOrb hs hr] at hl
    obtain ⟨st, h1, h2⟩ := reject_hopZ c0.2.1 hh htz hs hr ho hl hb2
    exact ⟨c0, .refl, chainF_hold hNe' hNs' hlb' h1 h2⟩
  rcases id hp with ⟨h, h0⟩ | ⟨h, h0⟩ | ⟨h, _⟩
  · exact hop (Or.inr (Or.inl h)) h0
  · exact hop (Or.inl h) (by omega)
  · obtain ⟨S, S', hS, hS', hne⟩ := hconst h
    have h0 := weightZ_pos g hg ls ex tz M hz c0 hm0
    obtain ⟨c, hc, ec⟩ := C75_reach_csz g hg ls ex tz M hNe hNs hlb htz hp hz T hT hT0 hTb hb2 c0 hm0 S hS
    obtain ⟨c', hc', ec'⟩ := C75_reach_csz g hg ls ex tz M hNe hNs hlb htz hp hz T hT hT0 hTb hb2 c0 hm0 S' hS'
    have : psiWeightF g ls ex tz c ≠ psiWeightF g ls ex tz c' := by
      rw [weightF_obs hg, weightF_obs hg, ec, ec', Complex.normSq_eq_norm_sq, Complex.normSq_eq_norm_sq]
      intro q
      rw [ENNReal.ofReal_eq_ofReal_iff (by positivity) (by positivity)] at q
      exact hne ((sq_eq_sq₀ (norm_nonneg _) (norm_nonneg _)).mp q)
    by_cases q : psiWeightF g ls ex tz c = psiWeightF g ls ex tz c0
    · exact chainF_hold_weight hNe' hNs' hlb' hW hT' hTb h0 hc' (fun w => this (q.trans w.symm))
    · exact chainF_hold_weight hNe' hNs' hlb' hW hT' hTb h0 hc q

/-- the class of the starting configuration with its weights -/
theorem classZ_ergodic
    (hconst : ex = 2 → ∃ S S' : Conf (2 * g.p.Nsite), magSector g ls M S ∧ magSector g ls M S' ∧ ‖psi g (S.1.sort (· ≤ ·))‖ ≠ ‖psi g (S'.1.sort (· ≤ ·))‖) :
    ∃ Y : Finset (CfgStateF (g.fszPar ls ex tz)), c0 ∈ Y ∧ Ergodic (chainKF (g.fszPar ls ex tz) T (psiWeightF g ls ex tz)) (psiWeightF g ls ex tz) Y ∧
      ∀ Φ : Conf (2 * g.p.Nsite) → ℂ, weightMean (psiWeightF g ls ex tz) Y (fun c => Φ (obsOfF c)) =
        (∑ S ∈ univ.filter (magSector g ls M), (Complex.normSq (psi g (S.1.sort (· ≤ ·))) : ℂ) * Φ S) /
          ((∑ S ∈ univ.filter (magSector g ls M), Complex.normSq (psi g (S.1.sort (· ≤ ·))) : ℝ) : ℂ) := by
  have hNe' : 0 < (g.fszPar ls ex tz).Ne := hNe
  have hNs' : 0 < (g.fszPar ls ex tz).Nsite := hNs
  have hT' : (g.fszPar ls ex tz).Nsite ∣ T := hT
  have hW : ∀ c, psiWeightF g ls ex tz c ≠ ⊤ := fun c => ENNReal.ofReal_ne_top
  obtain ⟨Y, hY, herg⟩ := chainF_ergodic hNe' hNs' hlb hW hT' hTb c0 (weightZ_pos g hg ls ex tz M hz c0 hm0)
    (classZ_hold g hg ls ex tz M hNe hNs hlb htz hp hz T hT hT0 hTb hb2 c0 hm0 hconst)
  have h0Y : c0 ∈ Y := (hY c0).mpr .refl
  have hcard := classF_card g hg ls ex tz hNe hNs hlb T hT hT0 hTb hb2 c0 hY herg
  refine ⟨Y, h0Y, herg, fun Φ => ?_⟩
  have himg : Y.image obsOfF = univ.filter (magSector g ls M) := by
    ext S
    rw [mem_image, mem_filter]
    constructor
    · rintro ⟨c, hc, rfl⟩
      exact ⟨mem_univ _, (magSector_obs c).mpr (reachZ_mag g ls ex tz M hNe hNs hlb htz T c0 hm0 hp.ne3 ((hY c).mp hc))⟩
    · rintro ⟨_, hS⟩
      obtain ⟨c, hc, e⟩ := C75_reach_csz g hg ls ex tz M hNe hNs hlb htz hp hz T hT hT0 hTb hb2 c0 hm0 S hS
      exact ⟨c, (hY c).mpr hc, e⟩
  rw [← himg]
  have w1 : ∀ c ∈ Y, (psiWeightF g ls ex tz c).toReal = (fun S : Conf (2 * g.p.Nsite) => Complex.normSq (psi g (S.1.sort (· ≤ ·)))) (obsOfF c) := by
    intro c _
    rw [weightF_obs hg, ENNReal.toReal_ofReal (Complex.normSq_nonneg _)]
  have hm : c0 ∈ Y.filter (fun d => obsOfF d = obsOfF c0) := mem_filter.mpr ⟨h0Y, rfl⟩
  have w2 : (Y.filter (fun d => obsOfF d = obsOfF c0)).card ≠ 0 := (card_pos.mpr ⟨c0, hm⟩).ne'
  have w3 : ∀ c ∈ Y, (Y.filter (fun d => obsOfF d = obsOfF c)).card = (Y.filter (fun d => obsOfF d = obsOfF c0)).card :=
    fun c hc => le_antisymm (hcard c hc c0 h0Y) (hcard c0 h0Y c hc)
  exact weightMean_fiber (o := obsOfF) (w := fun S : Conf (2 * g.p.Nsite) => Complex.normSq (psi g (S.1.sort (· ≤ ·)))) w1 w2 w3 Φ

/-- C75, general Sz with 2Sz fixed: the mean square error of the average of an observable over `n+1` samples is at most `C/(n+1)`, as
`C75_converge_partial`. Partial: target sites drawn below a multiple `T` of the number of sites. -/
theorem C75_converge_csz_partial
    (hconst : ex = 2 → ∃ S S' : Conf (2 * g.p.Nsite), magSector g ls M S ∧ magSector g ls M S' ∧ ‖psi g (S.1.sort (· ≤ ·))‖ ≠ ‖psi g (S'.1.sort (· ≤ ·))‖)
    (m : Nat) (hm : 0 < m) (G : List Nat → ℂ) (hG : ∀ c : CfgStateF (g.fszPar ls ex tz), G (fszList g c.1) = G ((obsOfF c).1.sort (· ≤ ·))) :
    ∃ C : ℝ, ∀ w n, meanSqErr (chainKF (g.fszPar ls ex tz) T (psiWeightF g ls ex tz)) c0 w m n (fun c => G (fszList g c.1)) (psiMean (psi g) (magSector g ls M) G) ≤
      ENNReal.ofReal (C / (n + 1)) := by
  obtain ⟨Y, h0, herg, hmean⟩ := classZ_ergodic g hg ls ex tz M hNe hNs hlb htz hp hz T hT hT0 hTb hb2 c0 hm0 hconst
  obtain ⟨C, hC⟩ := mean_square_bound herg m hm (fun c => G (fszList g c.1))
  have e : weightMean (psiWeightF g ls ex tz) Y (fun c => G (fszList g c.1)) = psiMean (psi g) (magSector g ls M) G := by
    refine Eq.trans ?_ (hmean (fun S => G (S.1.sort (· ≤ ·))))
    unfold weightMean
    congr 1
    exact Finset.sum_congr rfl fun c _ => congrArg (((psiWeightF g ls ex tz c).toReal : ℂ) * ·) (hG c)
  rw [e] at hC
  exact ⟨C, hC c0 h0⟩

end visit

/-! ## The Hamiltonian and the operators keep `N↑ - N↓` -/

section closed
variable (g : GrnEnv) (ls : Nat → Int) (M : Int)

theorem closed_mag {H : HamPar} (hH : HamIdx g.p.Nsite H) (hsz : HamSzConserving H) (hloc : HamLocal g.p.Nsite ls H) :
    ClosedOn (magSector g ls M) (hamOf g H) := by
  intro S U hS hU
  by_contra hne
  have hf : fszSector g ls U := by
    by_contra q
    exact hne (closed_fsz g H hH ls hloc S U hS.1 q)
  have cnt : ∀ T : Conf (2 * g.p.Nsite), fszSector g ls T → (T.1.filter (· < g.p.Nsite)).card + (T.1.filter (g.p.Nsite ≤ ·)).card = 2 * g.p.Ne := by
    intro T hT
    have h3 := Finset.card_filter_add_card_filter_not (s := T.1) (fun x => x < g.p.Nsite)
    simp only [not_lt] at h3
    exact h3.trans hT.1
  have a : (U.1.filter (· < g.p.Nsite)).card = (S.1.filter (· < g.p.Nsite)).card := by
    by_contra q
    exact hne (hamMat_cnt _ (hamTerms_orb hH) _ (ham_ups hH hsz) S U (by simpa using q))
  have h1 := cnt S hS.1
  have h2 := cnt U hf
  exact hU ⟨hf, by have := hS.2; omega⟩

variable (T : GrnTab) (hT : GrnIdx g.p.Nsite T) (hl : GrnLocal g.p.Nsite ls T) (hs : GrnSz T)
include hT hl hs

theorem closed_op1_mag {i : Nat} (hi : i < T.n1) : ClosedOn (magSector g ls M) (prodMat (2 * g.p.Nsite) (grnOp1 g.p.Nsite T i)) := by
  refine prodMat_closed _ (op1_orb g T hT hi) _ (fun S U hS h => ?_)
  have q := hT.one i hi
  refine ⟨⟨?_, fun r hr h1 => ?_⟩, ?_⟩
  · have := h (fun _ => true) (charge_pair _ _ _ rfl)
    simp only [filter_true] at this
    exact this.trans hS.1.1
  · have := h _ (local_op1 g T hT ls hl hi r hr h1)
    simp only [decide_eq_true_eq] at this
    exact this.trans (hS.1.2 r hr h1)
  · have h1 := h (fun x => decide (x < g.p.Nsite)) (charge_pair _ _ _ (by simp only [low_orb q.1 q.2.1, low_orb q.2.2.1 q.2.2.2]; rw [hs.one i hi]))
    have h2 := h (fun x => decide (g.p.Nsite ≤ x)) (charge_pair _ _ _ (by simp only [up_orb q.1 q.2.1, up_orb q.2.2.1 q.2.2.2]; rw [hs.one i hi]))
    simp only [decide_eq_true_eq] at h1 h2
    rw [h1, h2]
    exact hS.2

theorem closed_opDC_mag {i : Nat} (hi : i < T.nDC) : ClosedOn (magSector g ls M) (prodMat (2 * g.p.Nsite) (grnOpDC g.p.Nsite T i)) := by
  refine prodMat_closed _ (opDC_orb g T hT hi) _ (fun S U hS h => ?_)
  have q := hT.two i hi
  have z := hs.two i hi
  refine ⟨⟨?_, fun r hr h1 => ?_⟩, ?_⟩
  · have := h (fun _ => true) (by simp [grnOpDC, chargeOf])
    simp only [filter_true] at this
    exact this.trans hS.1.1
  · have := h _ (local_opDC g T hT ls hl hi r hr h1)
    simp only [decide_eq_true_eq] at this
    exact this.trans (hS.1.2 r hr h1)
  · have h1 := h (fun x => decide (x < g.p.Nsite)) (by
      simp only [grnOpDC, List.map_cons, List.map_nil, List.sum_cons, List.sum_nil, chargeOf, low_orb q.1.1 q.2.1, low_orb q.1.2.1 q.2.2.1,
        low_orb q.1.2.2.1 q.2.2.2.1, low_orb q.1.2.2.2 q.2.2.2.2, decide_eq_true_eq]
      rw [z.1, z.2]
      split <;> split <;> simp)
    have h2 := h (fun x => decide (g.p.Nsite ≤ x)) (by
      simp only [grnOpDC, List.map_cons, List.map_nil, List.sum_cons, List.sum_nil, chargeOf, up_orb q.1.1 q.2.1, up_orb q.1.2.1 q.2.2.1,
        up_orb q.1.2.2.1 q.2.2.2.1, up_orb q.1.2.2.2 q.2.2.2.2, decide_eq_true_eq]
      rw [z.1, z.2]
      split <;> split <;> simp)
    simp only [decide_eq_true_eq] at h1 h2
    rw [h1, h2]
    exact hS.2

end closed

section converge
variable (g : GrnEnv) (hg : GrnOK g) (ls : Nat → Int) (ex tz M : Int) (hNe : 0 < g.p.Ne) (hNs : 0 < g.p.Nsite) (hlb : ∀ r < g.p.Nsite, ls r = 0 ∨ ls r = 1)
  (htz : tz ≠ -1) (hd : g.p.Nsite ∣ drawBound) (hb2 : 2 * g.p.Nsite ≤ drawBound)
  (hz : ∀ S : Conf (2 * g.p.Nsite), magSector g ls M S → psi g (S.1.sort (· ≤ ·)) ≠ 0) (hp : PathOKZ (g.fszPar ls ex tz))
  (hconst : ex = 2 → ∃ S S' : Conf (2 * g.p.Nsite), magSector g ls M S ∧ magSector g ls M S' ∧ ‖psi g (S.1.sort (· ≤ ·))‖ ≠ ‖psi g (S'.1.sort (· ≤ ·))‖)
  (c0 : CfgStateF (g.fszPar ls ex tz)) (hm0 : magnetisation g.p.Nsite c0.1.num = M) (m : Nat) (hm : 0 < m)
include hg hNe hNs hlb htz hd hb2 hz hp hconst hm0 hm

/-- C75, general Sz with 2Sz fixed: the same when the number of sites divides `2^32`. -/
theorem C75_converge_csz (G : List Nat → ℂ) (hG : ∀ c : CfgStateF (g.fszPar ls ex tz), G (fszList g c.1) = G ((obsOfF c).1.sort (· ≤ ·))) :
    ∃ C : ℝ, ∀ w n, meanSqErr (samplerKF g ls ex tz) c0 w m n (fun c => G (fszList g c.1)) (psiMean (psi g) (magSector g ls M) G) ≤ ENNReal.ofReal (C / (n + 1)) := by
  rw [← samplerKF_eq]
  exact C75_converge_csz_partial g hg ls ex tz M hNe hNs hlb htz hp hz drawBound hd drawBound_pos le_rfl hb2 c0 hm0 hconst m hm G hG

/-- C75, general Sz with 2Sz fixed: the average of the local energies converges to `⟨ψ|H|ψ⟩/⟨ψ|ψ⟩` of the trial state with the `N↑ - N↓` of the start. -/
theorem C75_energy_csz (H : HamPar) (hH : HamIdx g.p.Nsite H) (hsz : HamSzConserving H) (hloc : HamLocal g.p.Nsite ls H) :
    ∃ C : ℝ, ∀ w n, meanSqErr (samplerKF g ls ex tz) c0 w m n (fun c => energyOf (psi g) (hamTerms g.p.Nsite H) (fszList g c.1))
        (Spec.expect (trialMag g ls M) (hamOf g H)) ≤ ENNReal.ofReal (C / (n + 1)) ∧
      ∀ ε : ℝ, 0 < ε → errProb (samplerKF g ls ex tz) c0 w m n (fun c => energyOf (psi g) (hamTerms g.p.Nsite H) (fszList g c.1))
        (Spec.expect (trialMag g ls M) (hamOf g H)) ε ≤ ENNReal.ofReal (C / ε ^ 2 / (n + 1)) := by
  obtain ⟨C, hC⟩ := C75_converge_csz g hg ls ex tz M hNe hNs hlb htz hd hb2 hz hp hconst c0 hm0 m hm (energyOf (psi g) (hamTerms g.p.Nsite H))
    (fun c => localF_obs hg _ (hamTerms_orb hH) c)
  rw [psiMean_energy (psi g) (psi_anti hg) _ (hamTerms_orb hH) _ (closed_mag g ls M hH hsz hloc)] at hC
  exact ⟨C, fun w n => ⟨hC w n, fun ε hε => err_prob_bound hε (hC w n)⟩⟩

/-- C75, general Sz with 2Sz fixed: the same for the local values of `c†c` and of `c†c c†c`. -/
theorem C75_green_csz (T : GrnTab) (hT : GrnIdx g.p.Nsite T) (hTs : GrnSz T) (hTl : GrnLocal g.p.Nsite ls T) :
    (∀ i < T.n1, ∃ C : ℝ, ∀ w n, meanSqErr (samplerKF g ls ex tz) c0 w m n (fun c => matrixElement (psi g) (grnOp1 g.p.Nsite T i) (fszList g c.1))
      (Spec.expect (trialMag g ls M) (prodMat (2 * g.p.Nsite) (grnOp1 g.p.Nsite T i))) ≤ ENNReal.ofReal (C / (n + 1))) ∧
    ∀ i < T.nDC, ∃ C : ℝ, ∀ w n, meanSqErr (samplerKF g ls ex tz) c0 w m n (fun c => matrixElement (psi g) (grnOpDC g.p.Nsite T i) (fszList g c.1))
      (Spec.expect (trialMag g ls M) (prodMat (2 * g.p.Nsite) (grnOpDC g.p.Nsite T i))) ≤ ENNReal.ofReal (C / (n + 1)) := by
  refine ⟨fun i hi => ?_, fun i hi => ?_⟩
  · rw [← psiMean_op _ (psi_anti hg) _ _ (op1_orb g T hT hi) (closed_op1_mag g ls M T hT hTl hTs hi)]
    exact C75_converge_csz g hg ls ex tz M hNe hNs hlb htz hd hb2 hz hp hconst c0 hm0 m hm _ (fun c => localF_obs_one hg _ (op1_orb g T hT hi) c)
  · rw [← psiMean_op _ (psi_anti hg) _ _ (opDC_orb g T hT hi) (closed_opDC_mag g ls M T hT hTl hTs hi)]
    exact C75_converge_csz g hg ls ex tz M hNe hNs hlb htz hd hb2 hz hp hconst c0 hm0 m hm _ (fun c => localF_obs_one hg _ (opDC_orb g T hT hi) c)

end converge

/-- C75: the initial placement starts the run in the sector of the requested 2Sz. -/
theorem C75_start_csz (g : GrnEnv) (ls : Nat → Int) (ex tz : Int) (bad : FCfg → Bool) (hNe : 0 < g.p.Ne) (hNs : 0 < g.p.Nsite) (htz : tz ≠ -1)
    (hsz : -(2 * g.p.Ne : Int) ≤ tz ∧ tz ≤ 2 * g.p.Ne) (heven : tz % 2 = 0) (c : FCfg) (r r' : List Nat)
    (e : makeInitialSampleF (g.fszPar ls ex tz) bad 100 r = some (.ok c r')) :
    ∃ hc, magSector g ls tz (obsOfF (⟨c, hc⟩ : CfgStateF (g.fszPar ls ex tz))) := by
  obtain ⟨h1, h2, h3, _⟩ := C10_initial_configuration_valid_fsz (g.fszPar ls ex tz) bad hNe hNs c r r' hsz (Or.inr heven) e
  refine ⟨⟨h1, h2⟩, (magSector_obs _).mpr ?_⟩
  have h3 : magnetisation g.p.Nsite c.num = if tz = -1 then 0 else tz := h3
  rw [if_neg htz] at h3
  exact h3

/-- C75, general Sz with 2Sz fixed: the choices that pass the reader suit the system, except update 2 with itinerant electrons and update 3. -/
theorem C75_path_csz (p : FPar) (h : locSpnCheck (locCountF p) p.Ne p.exPath = true)
    (hp : p.exPath = 0 ∨ (p.exPath = 1 ∧ 0 < p.Ne) ∨ (p.exPath = 2 ∧ locCountF p = 2 * p.Ne)) : PathOKZ p := by
  unfold locSpnCheck at h
  by_cases h0 : (locCountF p : Int) > 0
  · rw [if_pos h0] at h
    by_cases h1 : (locCountF p : Int) = 2 * p.Ne ∧ p.exPath ≠ 2
    · rw [if_pos h1] at h; simp at h
    rw [if_neg h1] at h
    by_cases h2 : p.exPath = 0
    · rw [if_pos h2] at h; simp at h
    rw [if_neg h2] at h
    by_cases h3 : (locCountF p : Int) > 2 * p.Ne
    · rw [if_pos h3] at h; simp at h
    rcases hp with hp | ⟨hp, _⟩ | ⟨hp, hr⟩
    · exact absurd hp h2
    · exact Or.inl ⟨hp, by omega⟩
    · exact Or.inr (Or.inr ⟨hp, hr⟩)
  · have hz : locCountF p = 0 := by omega
    rcases hp with hp | ⟨hp, h1⟩ | ⟨hp, hr⟩
    · exact Or.inr (Or.inl ⟨hp, hz⟩)
    · exact Or.inl ⟨hp, by omega⟩
    · exact Or.inr (Or.inr ⟨hp, hr⟩)

/-! ## Two electrons on two sites with opposite spins -/

theorem pair_mag : univ.filter (magSector pairEnv (fun _ => 0) 0) =
    ([confOf [0, 2] (by decide), confOf [0, 3] (by decide), confOf [1, 2] (by decide), confOf [1, 3] (by decide)] : List (Conf 4)).toFinset := by
  have : ∀ S : Conf 4, ((fixedN (M := 4) 2 S ∧ localOne 2 (fun _ => 0) S) ∧ ((S.1.filter (· < 2)).card : Int) - (S.1.filter (2 ≤ ·)).card = 0) ↔
    S ∈ ([confOf [0, 2] (by decide), confOf [0, 3] (by decide), confOf [1, 2] (by decide), confOf [1, 3] (by decide)] : List (Conf 4)).toFinset := by decide
  ext S
  rw [mem_filter]
  exact ⟨fun h => (this S).mp h.2, fun h => ⟨mem_univ _, (this S).mpr h⟩⟩

/-- the electrons on the same site -/
noncomputable def sameSite (l : List Nat) : ℂ := if (0 ∈ l ∧ 2 ∈ l) ∨ (1 ∈ l ∧ 3 ∈ l) then 1 else 0

theorem pair_same : psiMean (psi pairEnv) (magSector pairEnv (fun _ => 0) 0) sameSite = 1 / 2 := by
  have hw : ∀ S ∈ univ.filter (magSector pairEnv (fun _ => 0) 0), Complex.normSq (psi pairEnv (S.1.sort (· ≤ ·))) = Complex.normSq (psi pairEnv [0, 1]) := by
    intro S hS
    rw [(pair_psi _ (pair_sorts (mem_filter.mp hS).2.1)).1]
  have nd : ([confOf [0, 2] (by decide), confOf [0, 3] (by decide), confOf [1, 2] (by decide), confOf [1, 3] (by decide)] : List (Conf 4)).Nodup :=
    of_decide_eq_true (p := List.Nodup (α := Conf 4) _) rfl
  unfold psiMean
  rw [Finset.sum_congr rfl (fun S hS => by rw [hw S hS]), Finset.sum_congr rfl hw, ← Finset.mul_sum, Finset.sum_const, pair_mag]
  have h0 : ((Complex.normSq (psi pairEnv [0, 1]) : ℝ) : ℂ) ≠ 0 := by
    have := (pair_psi [0, 1] (by decide)).2
    exact_mod_cast (Complex.normSq_pos.mpr this).ne'
  have e1 := List.sum_toFinset (fun S : Conf 4 => sameSite (S.1.sort (· ≤ ·))) nd
  have e2 := List.toFinset_card_of_nodup nd
  have e1 : ∑ S ∈ ([confOf [0, 2] (by decide), confOf [0, 3] (by decide), confOf [1, 2] (by decide), confOf [1, 3] (by decide)] : List (Conf 4)).toFinset,
      sameSite (S.1.sort (· ≤ ·)) = 2 := by
    rw [e1]
    simp only [List.map_cons, List.map_nil]
    rw [sort_conf [0, 2] (by decide) (by decide) (by decide), sort_conf [0, 3] (by decide) (by decide) (by decide),
      sort_conf [1, 2] (by decide) (by decide) (by decide), sort_conf [1, 3] (by decide) (by decide) (by decide)]
    simp [sameSite]
    norm_num
  erw [e1, e2]
  rw [nsmul_eq_mul]
  push_cast
  rw [mul_comm ((List.length _ : Nat) : ℂ), mul_div_mul_left _ _ h0]
  norm_num

/-- hops only, 2Sz = 0: the measured probability of a doubly occupied site converges to 1/2 -/
example (m : Nat) (hm : 0 < m) : ∃ C : ℝ, ∀ w n, meanSqErr (samplerKF pairEnv (fun _ => 0) 0 0) ⟨pairTab, pairTab_ok⟩ w m n
    (fun c => sameSite (fszList pairEnv c.1)) (1 / 2) ≤ ENNReal.ofReal (C / (n + 1)) := by
  rw [← pair_same]
  refine C75_converge_csz pairEnv pairEnv_ok _ 0 0 0 (by decide) (by decide) (fun r _ => Or.inl rfl) (by decide) (by decide) (by decide)
    (fun S hS => (pair_psi _ (pair_sorts hS.1)).2) (Or.inr (Or.inl ⟨rfl, by decide⟩)) (fun h => absurd h (by decide)) _ (by decide) m hm sameSite (fun c => ?_)
  unfold sameSite
  simp [obsOfF, confOf]

end MVMC
