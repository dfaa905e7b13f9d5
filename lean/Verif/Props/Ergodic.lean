import Verif.Proof.Chain
import Verif.Props.StationaryPsi
import Verif.Props.GreenMean
import Verif.Model.PathCheck

/-! # The averages of a run converge to the expectation values of the trial state (C75) -/
namespace MVMC
open Spec Finset
open scoped ENNReal

section obs
variable {g : GrnEnv} {ls : Nat → Int} {ex : Int}

/-- the set of occupied orbitals of a configuration -/
noncomputable def obsOf (c : CfgState (g.szPar ls ex)) : Conf (2 * g.p.Nsite) := confOf (szList g c.1) (placed_sz (g := g) (c := c.1) c.2).range

theorem mem_obsOf (c : CfgState (g.szPar ls ex)) {s r : Nat} (hs : s < 2) (hr : r < g.p.Nsite) :
    r + s * g.p.Nsite ∈ (obsOf c).1 ↔ r ∈ Occ (g.szPar ls ex) c.1 s := by
  have pl := placed_sz (g := g) (c := c.1) c.2
  have h1 : r + s * g.p.Nsite ∈ (obsOf c).1 ↔ ∃ i < 2 * g.p.Ne, occSz g.p.Ne g.p.Nsite c.1.idx i = r + s * g.p.Nsite := by
    unfold obsOf confOf szList occList
    simp
  rw [h1, mem_Occ]
  have h2 := pl.occ _ (flat_lt hs hr)
  constructor
  · rintro ⟨i, hi, e⟩
    rcases h2 with q | q
    · exact ⟨hr, q.1⟩
    · exact absurd e (q.2 i hi)
  · rintro ⟨_, q⟩
    rcases h2 with w | w
    · exact w.2
    · exfalso
      have : c.1.num (r + s * g.p.Nsite) = 1 := q
      omega

theorem obsOf_eq (c d : CfgState (g.szPar ls ex)) : obsOf c = obsOf d ↔ ∀ s < 2, Occ (g.szPar ls ex) c.1 s = Occ (g.szPar ls ex) d.1 s := by
  constructor
  · intro h s hs
    ext r
    by_cases hr : r < g.p.Nsite
    · rw [← mem_obsOf c hs hr, ← mem_obsOf d hs hr, h]
    · exact ⟨fun q => absurd (mem_Occ.mp q).1 hr, fun q => absurd (mem_Occ.mp q).1 hr⟩
  · intro h
    refine Subtype.ext (Finset.ext fun x => ?_)
    by_cases hx : x < 2 * g.p.Nsite
    · obtain ⟨s, hs, r, hr, rfl⟩ := flat_split hx
      rw [mem_obsOf c hs hr, mem_obsOf d hs hr, h s hs]
    · exact ⟨fun q => absurd (mem_range.mp (mem_powerset.mp (obsOf c).2 q)) hx, fun q => absurd (mem_range.mp (mem_powerset.mp (obsOf d).2 q)) hx⟩

/-- the sites of a set of orbitals -/
def sitesOf (N : Nat) (S : Conf (2 * N)) (s : Nat) : Finset Nat := (range N).filter (fun r => r + s * N ∈ S.1)

theorem target_of {S : Conf (2 * g.p.Nsite)} (h : szSector g ls S) : Target (g.szPar ls ex) (sitesOf g.p.Nsite S) := by
  obtain ⟨⟨h0, h1⟩, hl⟩ := h
  have hS : ∀ x ∈ S.1, x < 2 * g.p.Nsite := fun x hx => mem_range.mp (mem_powerset.mp S.2 hx)
  refine ⟨fun s _ r hr => mem_range.mp (mem_filter.mp hr).1, ?_, ?_⟩
  · intro s hs
    show (sitesOf g.p.Nsite S s).card = g.p.Ne
    rcases (show s = 0 ∨ s = 1 by omega) with rfl | rfl
    · rw [← h0]
      congr 1
      ext r
      simp only [sitesOf, mem_filter, mem_range, Nat.zero_mul, Nat.add_zero]
      exact and_comm
    · rw [← h1]
      refine card_nbij' (fun r => r + g.p.Nsite) (fun x => x - g.p.Nsite) ?_ ?_ ?_ ?_
      · intro r hr
        simp only [sitesOf, coe_filter, mem_range, Nat.one_mul, Set.mem_ofPred_eq] at hr ⊢
        exact ⟨hr.2, by omega⟩
      · intro x hx
        simp only [sitesOf, coe_filter, mem_range, Nat.one_mul, Set.mem_ofPred_eq] at hx ⊢
        have := hS x hx.1
        exact ⟨by omega, by rw [Nat.sub_add_cancel hx.2]; exact hx.1⟩
      · intro r _; simp
      · intro x hx
        simp only [coe_filter, Set.mem_ofPred_eq] at hx
        simp only
        omega
  · intro r hr hq
    have hc := hl r hr hq
    have hr : r < g.p.Nsite := hr
    simp only [sitesOf, mem_filter, mem_range, Nat.zero_mul, Nat.add_zero, Nat.one_mul, hr, true_and]
    constructor
    · intro a b
      have : ({r, r + g.p.Nsite} : Finset Nat) ⊆ S.1.filter (fun x => x = r ∨ x = r + g.p.Nsite) := by
        intro x hx
        rcases mem_insert.mp hx with rfl | hx
        · exact mem_filter.mpr ⟨a, Or.inl rfl⟩
        · rw [mem_singleton.mp hx]; exact mem_filter.mpr ⟨b, Or.inr rfl⟩
      have := card_le_card this
      rw [card_pair (by omega), hc] at this
      omega
    · intro b
      by_contra a
      rw [Finset.card_eq_zero.mpr] at hc
      · omega
      · rw [Finset.eq_empty_iff_forall_notMem]
        intro x hx
        obtain ⟨q1, q2 | q2⟩ := mem_filter.mp hx
        · exact a (q2 ▸ q1)
        · exact b (q2 ▸ q1)

theorem obsOf_of_sites (c : CfgState (g.szPar ls ex)) (S : Conf (2 * g.p.Nsite)) (h : ∀ s < 2, Occ (g.szPar ls ex) c.1 s = sitesOf g.p.Nsite S s) :
    obsOf c = S := by
  refine Subtype.ext (Finset.ext fun x => ?_)
  by_cases hx : x < 2 * g.p.Nsite
  · obtain ⟨s, hs, r, hr, rfl⟩ := flat_split hx
    rw [mem_obsOf c hs hr, h s hs, sitesOf, mem_filter, mem_range]
    exact ⟨fun q => q.2, fun q => ⟨hr, q⟩⟩
  · exact ⟨fun q => absurd (mem_range.mp (mem_powerset.mp (obsOf c).2 q)) hx, fun q => absurd (mem_range.mp (mem_powerset.mp S.2 q)) hx⟩

/-- the weight depends on the occupied orbitals only -/
theorem weight_obs (hg : GrnOK g) (c : CfgState (g.szPar ls ex)) :
    psiWeight g ls ex c = ENNReal.ofReal (Complex.normSq (psi g ((obsOf c).1.sort (· ≤ ·)))) := by
  have pl := placed_sz (g := g) (c := c.1) c.2
  have ha := anti_conf (psi_anti hg) (show (szList g c.1).Nodup from pl.nodup) pl.range
  unfold psiWeight
  rw [ha, norm_mul, norm_pow, norm_neg, norm_one, one_pow, one_mul, Complex.normSq_eq_norm_sq]
  simp [stateOn, obsOf]

end obs

/-! ## The chain visits every configuration of the sector -/

section visit
variable (g : GrnEnv) (hg : GrnOK g) (ls : Nat → Int) (ex : Int) (hNe : 0 < g.p.Ne) (hNs : 0 < g.p.Nsite)
  (hz : ∀ S : Conf (2 * g.p.Nsite), szSector g ls S → psi g (S.1.sort (· ≤ ·)) ≠ 0)
  (T : Nat) (hT : g.p.Nsite ∣ T) (hT0 : 0 < T) (hTb : T ≤ drawBound)
  (c0 : CfgState (g.szPar ls ex)) (hl : LocalSingle g.p.Nsite ls c0.1.num)
include hg hNe hNs hz hT hT0 hTb hl

omit hT hT0 hTb hl hNe hNs in
theorem weight_pos {c : CfgState (g.szPar ls ex)} (hv : Valid (g.szPar ls ex) c.1) : psiWeight g ls ex c ≠ 0 := by
  rw [weight_obs hg]
  have := hz (obsOf c) (szSector_of c.2 hv.loc)
  rw [Ne, ENNReal.ofReal_eq_zero, not_le]
  exact Complex.normSq_pos.mpr this

theorem reach_of_mv {c : EleCfg} (h : Relation.ReflTransGen (Mv (g.szPar ls ex)) c0.1 c) :
    ∃ hc, CanReach (chainK (g.szPar ls ex) T (psiWeight g ls ex)) c0 ⟨c, hc⟩ ∧ Valid (g.szPar ls ex) c := by
  induction h with
  | refl => exact ⟨c0.2, .refl, ⟨c0.2, hl⟩⟩
  | @tail a b _ hab ih =>
    obtain ⟨ha, hr, hv⟩ := ih
    have hvb := hv.mv hab
    refine ⟨hvb.cons, ?_, hvb⟩
    by_cases e : (⟨b, hvb.cons⟩ : CfgState (g.szPar ls ex)) = ⟨a, ha⟩
    · rw [e]; exact hr
    · refine hr.step (chain_step (p := g.szPar ls ex) hNe hNs ENNReal.ofReal_ne_top (Nat.le_of_dvd hT0 hT) hTb e hab ?_)
      exact weight_pos g hg ls ex hz hvb

/-- C75: from any starting configuration the sampler can reach every configuration of its sector. -/
theorem C75_reach (hp : PathOK (g.szPar ls ex)) (S : Conf (2 * g.p.Nsite)) (hS : szSector g ls S) :
    ∃ c, CanReach (chainK (g.szPar ls ex) T (psiWeight g ls ex)) c0 c ∧ obsOf c = S := by
  obtain ⟨c', hr, hv, e0, e1⟩ := reach_target hp (target_of (ex := ex) hS) (⟨c0.2, hl⟩ : Valid (g.szPar ls ex) c0.1)
  obtain ⟨hc, h1, _⟩ := reach_of_mv g hg ls ex hNe hNs hz T hT hT0 hTb c0 hl hr
  refine ⟨⟨c', hc⟩, h1, obsOf_of_sites _ S fun s hs => ?_⟩
  rcases (show s = 0 ∨ s = 1 by omega) with rfl | rfl
  · exact e0
  · exact e1

theorem class_hold (hp : PathOK (g.szPar ls ex))
    (hconst : ex = 2 → ∃ S S' : Conf (2 * g.p.Nsite), szSector g ls S ∧ szSector g ls S' ∧ ‖psi g (S.1.sort (· ≤ ·))‖ ≠ ‖psi g (S'.1.sort (· ≤ ·))‖) :
    ∃ c, CanReach (chainK (g.szPar ls ex) T (psiWeight g ls ex)) c0 c ∧ chainK (g.szPar ls ex) T (psiWeight g ls ex) c c ≠ 0 := by
  have hNe' : 0 < (g.szPar ls ex).Ne := hNe
  have hNs' : 0 < (g.szPar ls ex).Nsite := hNs
  have hT' : (g.szPar ls ex).Nsite ∣ T := hT
  have hTN : (g.szPar ls ex).Nsite ≤ T := Nat.le_of_dvd hT0 hT
  have hW : ∀ c, psiWeight g ls ex c ≠ ⊤ := fun c => ENNReal.ofReal_ne_top
  have h0 : psiWeight g ls ex c0 ≠ 0 := weight_pos g hg ls ex hz ⟨c0.2, hl⟩
  rcases hp with ⟨h | h, hcnt⟩ | ⟨h, hnl⟩ | ⟨h, hcnt⟩
  · obtain ⟨s, hs, x, hx, lx⟩ := some_itinerant hcnt (Valid.target (⟨c0.2, hl⟩ : Valid (g.szPar ls ex) c0.1))
    exact ⟨c0, .refl, chain_hold_hop hNe' hNs' (Or.inr (Or.inl h)) (hTN.trans hTb) hs hx lx⟩
  · obtain ⟨s, hs, x, hx, lx⟩ := some_itinerant hcnt (Valid.target (⟨c0.2, hl⟩ : Valid (g.szPar ls ex) c0.1))
    exact ⟨c0, .refl, chain_hold_hop hNe' hNs' (Or.inr (Or.inr h)) (hTN.trans hTb) hs hx lx⟩
  · have hcard := Occ_card c0.2 (show 0 < 2 by omega)
    obtain ⟨x, hx⟩ := card_pos.mp (show 0 < (Occ (g.szPar ls ex) c0.1 0).card by rw [hcard]; exact hNe)
    exact ⟨c0, .refl, chain_hold_hop hNe' hNs' (Or.inl h) (hTN.trans hTb) (by omega) hx (hnl x (mem_Occ.mp hx).1)⟩
  · obtain ⟨S, S', hS, hS', hne⟩ := hconst h
    obtain ⟨c, hc, ec⟩ := C75_reach g hg ls ex hNe hNs hz T hT hT0 hTb c0 hl (Or.inr (Or.inr ⟨h, hcnt⟩)) S hS
    obtain ⟨c', hc', ec'⟩ := C75_reach g hg ls ex hNe hNs hz T hT hT0 hTb c0 hl (Or.inr (Or.inr ⟨h, hcnt⟩)) S' hS'
    have : psiWeight g ls ex c ≠ psiWeight g ls ex c' := by
      rw [weight_obs hg, weight_obs hg, ec, ec', Complex.normSq_eq_norm_sq, Complex.normSq_eq_norm_sq]
      intro q
      rw [ENNReal.ofReal_eq_ofReal_iff (by positivity) (by positivity)] at q
      exact hne ((sq_eq_sq₀ (norm_nonneg _) (norm_nonneg _)).mp q)
    by_cases q : psiWeight g ls ex c = psiWeight g ls ex c0
    · exact chain_hold_weight hNe' hNs' hW hT' hTb h0 hc' (fun w => this (q.trans w.symm))
    · exact chain_hold_weight hNe' hNs' hW hT' hTb h0 hc q

omit hz hl in
theorem class_card {Y : Finset (CfgState (g.szPar ls ex))} (hY : ∀ c, c ∈ Y ↔ CanReach (chainK (g.szPar ls ex) T (psiWeight g ls ex)) c0 c)
    (herg : Ergodic (chainK (g.szPar ls ex) T (psiWeight g ls ex)) (psiWeight g ls ex) Y) :
    ∀ c ∈ Y, ∀ c' ∈ Y, (Y.filter (fun d => obsOf d = obsOf c)).card ≤ (Y.filter (fun d => obsOf d = obsOf c')).card := by
  have hNe' : 0 < (g.szPar ls ex).Ne := hNe
  have hNs' : 0 < (g.szPar ls ex).Nsite := hNs
  have hT' : (g.szPar ls ex).Nsite ∣ T := hT
  have hTN : (g.szPar ls ex).Nsite ≤ T := Nat.le_of_dvd hT0 hT
  have hW : ∀ c, psiWeight g ls ex c ≠ ⊤ := fun c => ENNReal.ofReal_ne_top
  intro c hc c' hc'
  refine (fiber_card (R := CanStep (chainK (g.szPar ls ex) T (psiWeight g ls ex))) ?_ (fun a ha b hb => (hY b).mpr (((hY a).mp ha).step hb)) hc ?_).2
  · intro a ha b hb
    by_cases e : b = a
    · exact ⟨id, id, fun d hd ho => ⟨hd, by rw [e]; exact ho, rfl⟩⟩
    · classical
      obtain ⟨φ, ψ, hφ⟩ := (chain_mv hNe' hNs' (hW a) e hb).1.copy a.2
      refine ⟨fun d => if h : Cons (g.szPar ls ex) (φ d.1) then ⟨φ d.1, h⟩ else d, fun d => if h : Cons (g.szPar ls ex) (ψ d.1) then ⟨ψ d.1, h⟩ else d, fun d hd ho => ?_⟩
      obtain ⟨q1, q2, q3⟩ := hφ d.1 d.2 ((obsOf_eq d a).mp ho)
      have hcons : Cons (g.szPar ls ex) (φ d.1) := q1.cons d.2
      have hob : obsOf (⟨φ d.1, hcons⟩ : CfgState (g.szPar ls ex)) = obsOf b := (obsOf_eq _ b).mpr q2
      simp only [dif_pos hcons]
      refine ⟨(hY _).mpr ?_, hob, ?_⟩
      · by_cases e' : (⟨φ d.1, hcons⟩ : CfgState (g.szPar ls ex)) = d
        · rw [e']; exact (hY d).mp hd
        · refine ((hY d).mp hd).step (chain_step hNe' hNs' (hW d) hTN hTb e' q1 ?_)
          rw [weight_obs hg, hob, ← weight_obs hg]
          exact (chain_mv hNe' hNs' (hW a) e hb).2
      · have : Cons (g.szPar ls ex) (ψ (φ d.1)) := by rw [q3]; exact d.2
        rw [dif_pos this]
        exact Subtype.ext q3
  · have := herg.connected c hc c' hc'
    induction this with
    | refl => exact .refl
    | @step a b hca hab ih =>
      have ha : a ∈ Y := (hY a).mpr (CanReach.trans' ((hY c).mp hc) hca)
      exact (ih ha).tail hab

/-- the class of the starting configuration with its weights -/
theorem class_ergodic (hp : PathOK (g.szPar ls ex))
    (hconst : ex = 2 → ∃ S S' : Conf (2 * g.p.Nsite), szSector g ls S ∧ szSector g ls S' ∧ ‖psi g (S.1.sort (· ≤ ·))‖ ≠ ‖psi g (S'.1.sort (· ≤ ·))‖) :
    ∃ Y : Finset (CfgState (g.szPar ls ex)), c0 ∈ Y ∧ (∀ c ∈ Y, Valid (g.szPar ls ex) c.1) ∧ Ergodic (chainK (g.szPar ls ex) T (psiWeight g ls ex)) (psiWeight g ls ex) Y ∧
      ∀ Φ : Conf (2 * g.p.Nsite) → ℂ, weightMean (psiWeight g ls ex) Y (fun c => Φ (obsOf c)) =
        (∑ S ∈ univ.filter (szSector g ls), (Complex.normSq (psi g (S.1.sort (· ≤ ·))) : ℂ) * Φ S) /
          ((∑ S ∈ univ.filter (szSector g ls), Complex.normSq (psi g (S.1.sort (· ≤ ·))) : ℝ) : ℂ) := by
  have hNe' : 0 < (g.szPar ls ex).Ne := hNe
  have hNs' : 0 < (g.szPar ls ex).Nsite := hNs
  have hT' : (g.szPar ls ex).Nsite ∣ T := hT
  have hTN : (g.szPar ls ex).Nsite ≤ T := Nat.le_of_dvd hT0 hT
  have hW : ∀ c, psiWeight g ls ex c ≠ ⊤ := fun c => ENNReal.ofReal_ne_top
  have h0 : psiWeight g ls ex c0 ≠ 0 := weight_pos g hg ls ex hz ⟨c0.2, hl⟩
  obtain ⟨Y, hY, herg⟩ := chain_ergodic hNe' hNs' hW hT' hTb c0 h0 (class_hold g hg ls ex hNe hNs hz T hT hT0 hTb c0 hl hp hconst)
  have h0Y : c0 ∈ Y := (hY c0).mpr .refl
  have hvalid : ∀ c ∈ Y, Valid (g.szPar ls ex) c.1 := fun c hc => reach_valid hNe' hNs' hW hl ((hY c).mp hc)
  have hcard := class_card g hg ls ex hNe hNs T hT hT0 hTb c0 hY herg
  refine ⟨Y, h0Y, hvalid, herg, fun Φ => ?_⟩
  have himg : Y.image obsOf = univ.filter (szSector g ls) := by
    ext S
    rw [mem_image, mem_filter]
    constructor
    · rintro ⟨c, hc, rfl⟩
      exact ⟨mem_univ _, szSector_of c.2 (hvalid c hc).loc⟩
    · rintro ⟨_, hS⟩
      obtain ⟨c, hc, e⟩ := C75_reach g hg ls ex hNe hNs hz T hT hT0 hTb c0 hl hp S hS
      exact ⟨c, (hY c).mpr hc, e⟩
  rw [← himg]
  have w1 : ∀ c ∈ Y, (psiWeight g ls ex c).toReal = (fun S : Conf (2 * g.p.Nsite) => Complex.normSq (psi g (S.1.sort (· ≤ ·)))) (obsOf c) := by
    intro c _
    rw [weight_obs hg, ENNReal.toReal_ofReal (Complex.normSq_nonneg _)]
  have hm : c0 ∈ Y.filter (fun d => obsOf d = obsOf c0) := mem_filter.mpr ⟨h0Y, rfl⟩
  have w2 : (Y.filter (fun d => obsOf d = obsOf c0)).card ≠ 0 := (card_pos.mpr ⟨c0, hm⟩).ne'
  have w3 : ∀ c ∈ Y, (Y.filter (fun d => obsOf d = obsOf c)).card = (Y.filter (fun d => obsOf d = obsOf c0)).card :=
    fun c hc => le_antisymm (hcard c hc c0 h0Y) (hcard c0 h0Y c hc)
  exact weightMean_fiber (o := obsOf) (w := fun S : Conf (2 * g.p.Nsite) => Complex.normSq (psi g (S.1.sort (· ≤ ·)))) w1 w2 w3 Φ

/-- C75: the mean square error of the average of an observable over `n+1` samples is at most `C/(n+1)`, for any number `w` of warm-up steps and any
number `m` of steps between samples. Partial: target sites drawn below a multiple `T` of the number of sites (`C19_bias_violated`). -/
theorem C75_converge_partial (hp : PathOK (g.szPar ls ex))
    (hconst : ex = 2 → ∃ S S' : Conf (2 * g.p.Nsite), szSector g ls S ∧ szSector g ls S' ∧ ‖psi g (S.1.sort (· ≤ ·))‖ ≠ ‖psi g (S'.1.sort (· ≤ ·))‖)
    (m : Nat) (hm : 0 < m) (G : List Nat → ℂ)
    (hG : ∀ c : CfgState (g.szPar ls ex), LocalSingle g.p.Nsite ls c.1.num → G (szList g c.1) = G ((obsOf c).1.sort (· ≤ ·))) :
    ∃ C : ℝ, ∀ w n, meanSqErr (chainK (g.szPar ls ex) T (psiWeight g ls ex)) c0 w m n (fun c => G (szList g c.1)) (psiMean (psi g) (szSector g ls) G) ≤
      ENNReal.ofReal (C / (n + 1)) := by
  obtain ⟨Y, h0, hv, herg, hmean⟩ := class_ergodic g hg ls ex hNe hNs hz T hT hT0 hTb c0 hl hp hconst
  obtain ⟨C, hC⟩ := mean_square_bound herg m hm (fun c => G (szList g c.1))
  have e : weightMean (psiWeight g ls ex) Y (fun c => G (szList g c.1)) = psiMean (psi g) (szSector g ls) G := by
    refine Eq.trans ?_ (hmean (fun S => G (S.1.sort (· ≤ ·))))
    unfold weightMean
    congr 1
    exact Finset.sum_congr rfl fun c hc => congrArg (((psiWeight g ls ex c).toReal : ℂ) * ·) (hG c (hv c hc).loc)
  rw [e] at hC
  exact ⟨C, hC c0 h0⟩

end visit

/-! ## Local values of operators -/

theorem local_obs {g : GrnEnv} (hg : GrnOK g) {ls : Nat → Int} {ex : Int} (H : List (ℂ × List Op)) (ho : ∀ t ∈ H, ∀ o ∈ t.2, o.spinOrb < 2 * g.p.Nsite)
    (c : CfgState (g.szPar ls ex)) : energyOf (psi g) H (szList g c.1) = energyOf (psi g) H ((obsOf c).1.sort (· ≤ ·)) := by
  have pl := placed_sz (g := g) (c := c.1) c.2
  rw [energyOf_eq (psi_anti hg) H ho _ (show (szList g c.1).Nodup from pl.nodup) pl.range,
    energyOf_eq (psi_anti hg) H ho _ (Finset.sort_nodup _ _) (sort_lt (obsOf c)), confOf_sort]
  rfl

theorem local_obs_one {g : GrnEnv} (hg : GrnOK g) {ls : Nat → Int} {ex : Int} (ops : List Op) (ho : ∀ o ∈ ops, o.spinOrb < 2 * g.p.Nsite)
    (c : CfgState (g.szPar ls ex)) : matrixElement (psi g) ops (szList g c.1) = matrixElement (psi g) ops ((obsOf c).1.sort (· ≤ ·)) := by
  have := local_obs hg [(1, ops)] (by simpa using ho) c
  simpa [energyOf] using this

/-- transition probabilities of one step of the sampler with the weight `|Ψ|²` -/
noncomputable def samplerK (g : GrnEnv) (ls : Nat → Int) (ex : Int) : CfgState (g.szPar ls ex) → CfgState (g.szPar ls ex) → ℝ≥0∞ :=
  metroKernel drawBound (fun a b : CfgState (g.szPar ls ex) => MoveStreams (g.szPar ls ex) a.1 b.1) (psiWeight g ls ex)

theorem samplerK_eq (g : GrnEnv) (ls : Nat → Int) (ex : Int) : chainK (g.szPar ls ex) drawBound (psiWeight g ls ex) = samplerK g ls ex := by
  unfold chainK samplerK
  congr 1
  funext a b
  exact moveStreams_all _ _ _

section converge
variable (g : GrnEnv) (hg : GrnOK g) (ls : Nat → Int) (ex : Int) (hNe : 0 < g.p.Ne) (hNs : 0 < g.p.Nsite) (hd : g.p.Nsite ∣ drawBound)
  (hz : ∀ S : Conf (2 * g.p.Nsite), szSector g ls S → psi g (S.1.sort (· ≤ ·)) ≠ 0) (hp : PathOK (g.szPar ls ex))
  (hconst : ex = 2 → ∃ S S' : Conf (2 * g.p.Nsite), szSector g ls S ∧ szSector g ls S' ∧ ‖psi g (S.1.sort (· ≤ ·))‖ ≠ ‖psi g (S'.1.sort (· ≤ ·))‖)
  (c0 : CfgState (g.szPar ls ex)) (hl : LocalSingle g.p.Nsite ls c0.1.num) (m : Nat) (hm : 0 < m)
include hg hNe hNs hd hz hp hconst hl hm

/-- C75: the same when the number of sites divides `2^32`. -/
theorem C75_converge (G : List Nat → ℂ)
    (hG : ∀ c : CfgState (g.szPar ls ex), LocalSingle g.p.Nsite ls c.1.num → G (szList g c.1) = G ((obsOf c).1.sort (· ≤ ·))) :
    ∃ C : ℝ, ∀ w n, meanSqErr (samplerK g ls ex) c0 w m n (fun c => G (szList g c.1)) (psiMean (psi g) (szSector g ls) G) ≤ ENNReal.ofReal (C / (n + 1)) := by
  rw [← samplerK_eq]
  exact C75_converge_partial g hg ls ex hNe hNs hz drawBound hd drawBound_pos le_rfl c0 hl hp hconst m hm G hG

/-- C75: the average of the local energies converges to `⟨ψ|H|ψ⟩/⟨ψ|ψ⟩`, in mean square and in probability, with `1/(number of samples)`. -/
theorem C75_energy (H : HamPar) (hH : HamIdx g.p.Nsite H) (hsz : HamSzConserving H) (hloc : HamLocal g.p.Nsite ls H) :
    ∃ C : ℝ, ∀ w n, meanSqErr (samplerK g ls ex) c0 w m n (fun c => energyOf (psi g) (hamTerms g.p.Nsite H) (szList g c.1))
        (Spec.expect (trialSz g ls) (hamOf g H)) ≤ ENNReal.ofReal (C / (n + 1)) ∧
      ∀ ε : ℝ, 0 < ε → errProb (samplerK g ls ex) c0 w m n (fun c => energyOf (psi g) (hamTerms g.p.Nsite H) (szList g c.1))
        (Spec.expect (trialSz g ls) (hamOf g H)) ε ≤ ENNReal.ofReal (C / ε ^ 2 / (n + 1)) := by
  obtain ⟨C, hC⟩ := C75_converge g hg ls ex hNe hNs hd hz hp hconst c0 hl m hm (energyOf (psi g) (hamTerms g.p.Nsite H))
    (fun c _ => local_obs hg _ (hamTerms_orb hH) c)
  rw [C72_mean g hg H hH hsz ls hloc] at hC
  exact ⟨C, fun w n => ⟨hC w n, fun ε hε => err_prob_bound hε (hC w n)⟩⟩

/-- C75: the averages of the local values of `c†c` and of `c†c c†c` converge to the expectation values. -/
theorem C75_green (T : GrnTab) (hT : GrnIdx g.p.Nsite T) (hTl : GrnLocal g.p.Nsite ls T) (hs : GrnSz T) :
    (∀ i < T.n1, ∃ C : ℝ, ∀ w n, meanSqErr (samplerK g ls ex) c0 w m n (fun c => matrixElement (psi g) (grnOp1 g.p.Nsite T i) (szList g c.1))
      (Spec.expect (trialSz g ls) (prodMat (2 * g.p.Nsite) (grnOp1 g.p.Nsite T i))) ≤ ENNReal.ofReal (C / (n + 1))) ∧
    ∀ i < T.nDC, ∃ C : ℝ, ∀ w n, meanSqErr (samplerK g ls ex) c0 w m n (fun c => matrixElement (psi g) (grnOpDC g.p.Nsite T i) (szList g c.1))
      (Spec.expect (trialSz g ls) (prodMat (2 * g.p.Nsite) (grnOpDC g.p.Nsite T i))) ≤ ENNReal.ofReal (C / (n + 1)) := by
  have h73 := C73_green g hg T hT ls hTl hs
  refine ⟨fun i hi => ?_, fun i hi => ?_⟩
  · rw [← h73.1 i hi]
    exact C75_converge g hg ls ex hNe hNs hd hz hp hconst c0 hl m hm _ (fun c _ => local_obs_one hg _ (op1_orb g T hT hi) c)
  · rw [← h73.2 i hi]
    exact C75_converge g hg ls ex hNe hNs hd hz hp hconst c0 hl m hm _ (fun c _ => local_obs_one hg _ (opDC_orb g T hT hi) c)

end converge

/-! ## Which choices of `NExUpdatePath` the reader lets through -/

/-- C75: every choice with hops that passes the reader suits the system. -/
theorem C75_path (p : SamplerPar) (hNe : 0 < p.Ne) (h : locSpnCheck (locCount p) p.Ne p.exPath = true) (hp : p.exPath = 0 ∨ p.exPath = 1 ∨ p.exPath = 3) :
    PathOK p := by
  unfold locSpnCheck at h
  by_cases h0 : (locCount p : Int) > 0
  · rw [if_pos h0] at h
    by_cases h1 : (locCount p : Int) = 2 * p.Ne ∧ p.exPath ≠ 2
    · rw [if_pos h1] at h; simp at h
    rw [if_neg h1] at h
    by_cases h2 : p.exPath = 0
    · rw [if_pos h2] at h; simp at h
    rw [if_neg h2] at h
    by_cases h3 : (locCount p : Int) > 2 * p.Ne
    · rw [if_pos h3] at h; simp at h
    exact Or.inl ⟨by omega, by omega⟩
  · have hz : locCount p = 0 := by omega
    rcases hp with hp | hp | hp
    · refine Or.inr (Or.inl ⟨hp, fun r hr hl => ?_⟩)
      unfold locCount at hz
      rw [Finset.card_eq_zero, Finset.eq_empty_iff_forall_notMem] at hz
      exact hz r (mem_filter.mpr ⟨mem_range.mpr hr, hl⟩)
    · exact Or.inl ⟨Or.inl hp, by omega⟩
    · exact Or.inl ⟨Or.inr hp, by omega⟩

/-- C75: with exchanges only, the number of electrons on every site never changes. -/
theorem C75_exchange_only {p : SamplerPar} {T : Nat} {W : CfgState p → ℝ≥0∞} (hNe : 0 < p.Ne) (hNs : 0 < p.Nsite) (hW : ∀ c, W c ≠ ⊤) (hp : p.exPath = 2)
    {c0 c : CfgState p} (h : CanReach (chainK p T W) c0 c) : ∀ r < p.Nsite, c.1.num r + c.1.num (r + p.Nsite) = c0.1.num r + c0.1.num (r + p.Nsite) := by
  induction h with
  | refl => exact fun _ _ => rfl
  | @step a b _ hs ih =>
    intro r hr
    by_cases e : b = a
    · rw [e]; exact ih r hr
    · rw [← ih r hr]
      have hm := (chain_mv hNe hNs (hW a) e hs).1
      obtain ⟨bv, bp⟩ := b
      simp only at hm ⊢
      cases hm with
      | hop hh _ _ _ _ => rcases hh with q | q | q <;> omega
      | exch _ h x =>
        have hne := hopOK_ne a.2 x.ok
        have hs := x.ok.s
        have n0 := exch_num (h2 := partnerHop p a.1 h) x.ok rfl rfl rfl hne r 0 hr (by omega)
        have n1 := exch_num (h2 := partnerHop p a.1 h) x.ok rfl rfl rfl hne r 1 hr (by omega)
        have a1 := (cons_back a.2 x.ok.s x.ok.mi x.ok.at').2.2
        have a2 := (cons_back a.2 (show 1 - h.s < 2 by omega) x.mj x.idj).2.2
        have a3 : a.1.num (h.ri + (1 - h.s) * p.Nsite) = 0 := by
          rcases a.2.site (1 - h.s) (by omega) h.ri x.ok.ri with q | ⟨m', _, q, _⟩
          · exact q.2
          · have := x.emp; omega
        have a4 : a.1.num (h.rj + h.s * p.Nsite) = 0 := by
          rcases a.2.site h.s hs h.rj x.ok.rj with q | ⟨m', _, q, _⟩
          · exact q.2
          · have := x.ok.free; omega
        simp only [Nat.zero_mul, Nat.add_zero, Nat.one_mul] at n0 n1
        show (exchCfg p a.1 h).num r + (exchCfg p a.1 h).num (r + p.Nsite) = _
        unfold exchCfg
        rw [n0, n1]
        rcases (show h.s = 0 ∨ h.s = 1 by omega) with q | q <;> rw [q] at a1 a2 a3 a4 ⊢ <;>
          simp only [Nat.zero_mul, Nat.add_zero, Nat.one_mul, Nat.sub_zero, Nat.sub_self] at a1 a2 a3 a4 <;>
          by_cases e1 : r = h.ri <;> by_cases e2 : r = h.rj <;> simp [e1, e2] <;> omega

/-! ## Two sites, one electron of either spin -/

/-- up electron on site `i`, down electron on site `j` -/
def dimTab (i j : Nat) : EleCfg :=
  ⟨fun k => if k = 0 then i else if k = 1 then j else 0, fun k => if k = i ∨ k = 2 + j then 0 else -1, fun k => if k = i ∨ k = 2 + j then 1 else 0⟩

theorem dimTab_cons (i j : Nat) (hi : i < 2) (hj : j < 2) : Consistent 1 2 (dimTab i j).idx (dimTab i j).cfg (dimTab i j).num := by
  constructor
  · intro s hs mi hm
    have : mi = 0 := by omega
    subst this
    rcases (show s = 0 ∨ s = 1 by omega) with rfl | rfl
    · exact ⟨i, hi, by simp [dimTab], by simp [dimTab]⟩
    · exact ⟨j, hj, by simp [dimTab], by simp [dimTab]; omega⟩
  · intro s hs ri hr
    rcases (show s = 0 ∨ s = 1 by omega) with rfl | rfl
    · by_cases h : ri = i
      · exact Or.inr ⟨0, by omega, by simp [dimTab, h], by simp [dimTab, h], by simp [dimTab, h]⟩
      · exact Or.inl ⟨by simp [dimTab]; omega, by simp [dimTab]; omega⟩
    · by_cases h : ri = j
      · exact Or.inr ⟨0, by omega, by simp [dimTab, h]; omega, by simp [dimTab, h], by simp [dimTab, h]; omega⟩
      · exact Or.inl ⟨by simp [dimTab]; omega, by simp [dimTab]; omega⟩

def dimState (ls : Nat → Int) (ex : Int) (i j : Nat) (hi : i < 2) (hj : j < 2) : CfgState (dimEnv.szPar ls ex) := ⟨dimTab i j, dimTab_cons i j hi hj⟩

theorem dim_szList (i j : Nat) : szList dimEnv (dimTab i j) = [i, j + 2] := by
  have : (2 * dimEnv.p.Ne) = 2 := rfl
  unfold szList occList
  rw [this]
  show [occSz 1 2 (dimTab i j).idx 0, occSz 1 2 (dimTab i j).idx 1] = _
  simp [occSz, dimTab]

theorem dim_psi (i j : Nat) (hi : i < 2) (hj : j < 2) : psi dimEnv [i, j + 2] = psi dimEnv [0, 2] := by
  have c : corrSpec dimEnv = fun _ => 1 := by
    funext num
    simp [corrSpec, projSpec, dimEnv, exEnv, logCorr]
  interval_cases i <;> interval_cases j <;> simp only [psi, c] <;> simp [dimEnv, exEnv, pf, pfN, altSum, entry, waveFunction]

theorem dim_sorts {S : Conf 4} (h : fixedSz 1 2 S) : ∃ i < 2, ∃ j < 2, S.1.sort (· ≤ ·) = [i, j + 2] := by
  have so : ∀ l : List Nat, l.Nodup → l.insertionSort (· ≤ ·) = l → S.1 = l.toFinset → S.1.sort (· ≤ ·) = l := by
    intro l hn hs e
    rw [e, sort_toFinset_eq hn]
    exact hs
  rcases dim_confs S h with e | e | e | e
  · exact ⟨0, by omega, 0, by omega, so [0, 2] (by decide) (by decide) (by rw [e]; decide)⟩
  · exact ⟨0, by omega, 1, by omega, so [0, 3] (by decide) (by decide) (by rw [e]; decide)⟩
  · exact ⟨1, by omega, 0, by omega, so [1, 2] (by decide) (by decide) (by rw [e]; decide)⟩
  · exact ⟨1, by omega, 1, by omega, so [1, 3] (by decide) (by decide) (by rw [e]; decide)⟩

theorem dim_nz (ls : Nat → Int) : ∀ S : Conf (2 * dimEnv.p.Nsite), szSector dimEnv ls S → psi dimEnv (S.1.sort (· ≤ ·)) ≠ 0 := by
  intro S hS
  obtain ⟨i, hi, j, hj, e⟩ := dim_sorts hS.1
  rw [e]
  exact (dim_energy i j hi hj).1

/-- double occupancy of site 0 -/
noncomputable def dblOcc (l : List Nat) : ℂ := if 0 ∈ l ∧ 2 ∈ l then 1 else 0

/-- up electron on site 0 -/
noncomputable def upOcc (l : List Nat) : ℂ := if 0 ∈ l then 1 else 0

theorem dim_mem {ls : Nat → Int} {ex : Int} (c : CfgState (dimEnv.szPar ls ex)) (x : Nat) : x ∈ szList dimEnv c.1 ↔ x ∈ (obsOf c).1.sort (· ≤ ·) := by
  simp [obsOf, confOf]

theorem dim_mean (ls : Nat → Int) (l : List (Conf (2 * dimEnv.p.Nsite))) (hn : l.Nodup) (hl : univ.filter (szSector dimEnv ls) = l.toFinset) (G : List Nat → ℂ) :
    psiMean (psi dimEnv) (szSector dimEnv ls) G = (l.map (fun S => G (S.1.sort (· ≤ ·)))).sum / l.length := by
  have hw : ∀ S ∈ univ.filter (szSector dimEnv ls), Complex.normSq (psi dimEnv (S.1.sort (· ≤ ·))) = Complex.normSq (psi dimEnv [0, 2]) := by
    intro S hS
    obtain ⟨i, hi, j, hj, e⟩ := dim_sorts (mem_filter.mp hS).2.1
    rw [e, dim_psi i j hi hj]
  unfold psiMean
  rw [Finset.sum_congr rfl (fun S hS => by rw [hw S hS]), Finset.sum_congr rfl hw, ← Finset.mul_sum, Finset.sum_const, hl, List.sum_toFinset _ hn,
    List.toFinset_card_of_nodup hn, nsmul_eq_mul]
  have h0 : ((Complex.normSq (psi dimEnv [0, 2]) : ℝ) : ℂ) ≠ 0 := by
    have := (dim_energy 0 0 (by omega) (by omega)).1
    exact_mod_cast (Complex.normSq_pos.mpr this).ne'
  push_cast
  rw [mul_comm (l.length : ℂ), mul_div_mul_left _ _ h0]

theorem sort_conf (l : List Nat) (hM : ∀ z ∈ l, z < 4) (hn : l.Nodup) (hs : l.insertionSort (· ≤ ·) = l) : (confOf (M := 4) l hM).1.sort (· ≤ ·) = l :=
  (sort_toFinset_eq hn).trans hs

def dimConfs0 : List (Conf (2 * dimEnv.p.Nsite)) :=
  ([confOf [0, 2] (by decide), confOf [0, 3] (by decide), confOf [1, 2] (by decide), confOf [1, 3] (by decide)] : List (Conf 4))

theorem dimConfs0_nodup : dimConfs0.Nodup := by
  unfold dimConfs0
  exact of_decide_eq_true (p := List.Nodup (α := Conf 4) _) rfl

theorem dim_sector0 : univ.filter (szSector dimEnv (fun _ => 0)) =
    dimConfs0.toFinset := by
  have : ∀ S : Conf 4, (fixedSz 1 2 S ∧ localOne 2 (fun _ => 0) S) ↔
    S ∈ ([confOf [0, 2] (by decide), confOf [0, 3] (by decide), confOf [1, 2] (by decide), confOf [1, 3] (by decide)] : List (Conf 4)).toFinset := by decide
  ext S
  rw [mem_filter]
  exact ⟨fun h => (this S).mp h.2, fun h => ⟨mem_univ _, (this S).mpr h⟩⟩

def dimConfs1 : List (Conf (2 * dimEnv.p.Nsite)) :=
  ([confOf [0, 3] (by decide), confOf [1, 2] (by decide)] : List (Conf 4))

theorem dimConfs1_nodup : dimConfs1.Nodup := by
  unfold dimConfs1
  exact of_decide_eq_true (p := List.Nodup (α := Conf 4) _) rfl

theorem dim_sector1 : univ.filter (szSector dimEnv (fun _ => 1)) = dimConfs1.toFinset := by
  have : ∀ S : Conf 4, (fixedSz 1 2 S ∧ localOne 2 (fun _ => 1) S) ↔
    S ∈ ([confOf [0, 3] (by decide), confOf [1, 2] (by decide)] : List (Conf 4)).toFinset := by decide
  ext S
  rw [mem_filter]
  exact ⟨fun h => (this S).mp h.2, fun h => ⟨mem_univ _, (this S).mpr h⟩⟩

theorem dim_dbl : psiMean (psi dimEnv) (szSector dimEnv (fun _ => 0)) dblOcc = 1 / 4 := by
  rw [dim_mean _ _ dimConfs0_nodup dim_sector0]
  show ((([confOf [0, 2] (by decide), confOf [0, 3] (by decide), confOf [1, 2] (by decide), confOf [1, 3] (by decide)] : List (Conf 4)).map
    (fun S => dblOcc (S.1.sort (· ≤ ·)))).sum / ((4 : Nat) : ℂ)) = _
  simp only [List.map_cons, List.map_nil]
  rw [sort_conf [0, 2] (by decide) (by decide) (by decide), sort_conf [0, 3] (by decide) (by decide) (by decide),
    sort_conf [1, 2] (by decide) (by decide) (by decide), sort_conf [1, 3] (by decide) (by decide) (by decide)]
  simp [dblOcc]

theorem dim_up : psiMean (psi dimEnv) (szSector dimEnv (fun _ => 1)) upOcc = 1 / 2 := by
  rw [dim_mean _ _ dimConfs1_nodup dim_sector1]
  show ((([confOf [0, 3] (by decide), confOf [1, 2] (by decide)] : List (Conf 4)).map (fun S => upOcc (S.1.sort (· ≤ ·)))).sum / ((2 : Nat) : ℂ)) = _
  simp only [List.map_cons, List.map_nil]
  rw [sort_conf [0, 3] (by decide) (by decide) (by decide), sort_conf [1, 2] (by decide) (by decide) (by decide)]
  simp [upOcc]

/-- hops and exchanges: the measured double occupancy converges to 1/4 from any configuration -/
example (i j : Nat) (hi : i < 2) (hj : j < 2) (m : Nat) (hm : 0 < m) :
    ∃ C : ℝ, ∀ w n, meanSqErr (samplerK dimEnv (fun _ => 0) 1) (dimState _ _ i j hi hj) w m n (fun c => dblOcc (szList dimEnv c.1)) (1 / 4) ≤
      ENNReal.ofReal (C / (n + 1)) := by
  rw [← dim_dbl]
  refine C75_converge dimEnv dimEnv_ok _ 1 (by decide) (by decide) (by decide) (dim_nz _) (Or.inl ⟨Or.inl rfl, by decide⟩) (fun h => absurd h (by decide)) _
    (fun r hr h => absurd h (by decide)) m hm dblOcc (fun c _ => ?_)
  unfold dblOcc
  simp only [dim_mem c]

/-- C75: violated for `NExUpdatePath = 2` with itinerant electrons, which the reader accepts: a configuration with both electrons on one site is never
left, and the measured double occupancy is 1 instead of 1/4 for any number of steps and samples. -/
theorem C75_exchange_violated : locSpnCheck 0 1 2 = true ∧ ∀ w m n, meanSqErr (samplerK dimEnv (fun _ => 0) 2) (dimState _ _ 0 0 (by omega) (by omega)) w m n
    (fun c => dblOcc (szList dimEnv c.1)) (psiMean (psi dimEnv) (szSector dimEnv (fun _ => 0)) dblOcc) = ENNReal.ofReal (9 / 16) := by
  refine ⟨by decide, fun w m n => ?_⟩
  have hNe : 0 < (dimEnv.szPar (fun _ => 0) 2).Ne := by decide
  have hNs : 0 < (dimEnv.szPar (fun _ => 0) 2).Nsite := by decide
  set c0 : CfgState (dimEnv.szPar (fun _ => 0) 2) := dimState (fun _ => 0) 2 0 0 (by omega) (by omega) with hc0
  have hstay : ∀ y, y ≠ c0 → samplerK dimEnv (fun _ => 0) 2 c0 y = 0 := by
    intro y hy
    by_contra q
    rw [← samplerK_eq] at q
    have hm := (chain_mv hNe hNs (fun e => absurd e ENNReal.ofReal_ne_top) hy q).1
    generalize y.1 = z at hm
    cases hm with
    | hop hp _ _ _ _ => rcases hp with e | e | e <;> exact absurd e (by decide)
    | exch _ h x =>
      have h1 := x.ok.at'
      have h2 := x.emp
      have h3 : h.ri = 0 := by
        have : (dimTab 0 0).idx (h.mi + h.s * 1) = (h.ri : Int) := h1
        simp [dimTab] at this
        omega
      have h2 : (dimTab 0 0).cfg (h.ri + (1 - h.s) * 2) = -1 := h2
      rw [h3] at h2
      rcases (show h.s = 0 ∨ h.s = 1 by have := x.ok.s; omega) with e | e <;> rw [e] at h2 <;> simp [dimTab] at h2
  have htot : ∑' y, samplerK dimEnv (fun _ => 0) 2 c0 y = 1 := metro_total (fun c => moves_le_one hNe hNs _ (fun _ _ _ h => h) _ c) c0
  have h1 : samplerK dimEnv (fun _ => 0) 2 c0 c0 = 1 := by
    rw [tsum_eq_single c0 hstay] at htot
    exact htot
  have so := fun k => steps_orbit (K := samplerK dimEnv (fun _ => 0) 2) (a := fun _ => c0) (fun _ => h1) (fun _ => hstay) k 0
  rw [frozen_err (so w).2 (so w).1 (so m).2 (so m).1, dim_dbl]
  have : dblOcc (szList dimEnv c0.1) = 1 := by
    show dblOcc (szList dimEnv (dimTab 0 0)) = 1
    rw [dim_szList]
    simp [dblOcc]
  simp only [this]
  congr 1
  rw [show (1 : ℂ) - 1 / 4 = ((3 / 4 : ℝ) : ℂ) by push_cast; norm_num, Complex.norm_real, Real.norm_eq_abs, abs_of_pos (by norm_num)]
  norm_num

/-- the exchange of the two local spins that starts with spin `s` -/
def dimHop (i s : Nat) : Hop := if s = 0 then ⟨0, i, 1 - i, 0⟩ else ⟨0, 1 - i, i, 1⟩

theorem dim_swap (i : Nat) (hi : i < 2) (s : Nat) (hs : s < 2) :
    exchCfg (dimEnv.szPar (fun _ => 1) 2) (dimTab i (1 - i)) (dimHop i s) = dimTab (1 - i) i := by
  have hN : (dimEnv.szPar (fun _ => 1) 2).Nsite = 2 := rfl
  have hE : (dimEnv.szPar (fun _ => 1) 2).Ne = 1 := rfl
  unfold exchCfg partnerHop updateEleConfig dimHop
  rw [hN, hE]
  interval_cases i <;> interval_cases s <;> simp only [dimTab, EleCfg.mk.injEq] <;>
    refine ⟨funext fun k => ?_, funext fun k => ?_, funext fun k => ?_⟩ <;>
    (by_cases k0 : k = 0 <;> by_cases k1 : k = 1 <;> by_cases k2 : k = 2 <;> by_cases k3 : k = 3 <;> simp_all [Arr.set])

theorem dim_cand (i : Nat) (hi : i < 2) (u v x : Nat) (tl : List Nat) :
    makeCandidateExchange (dimEnv.szPar (fun _ => 1) 2) (dimTab i (1 - i)) (u :: v :: x :: tl) = some (some (dimHop i (coin v)), tl) := by
  have hN : (dimEnv.szPar (fun _ => 1) 2).Nsite = 2 := rfl
  have hE : (dimEnv.szPar (fun _ => 1) 2).Ne = 1 := rfl
  have hv : coin v < 2 := by unfold coin; split <;> omega
  unfold makeCandidateExchange hasSingle pickSingleAny pickSingleSpin
  simp only [hN, hE, Nat.mod_one]
  generalize coin v = s at hv
  interval_cases i <;> interval_cases s <;> simp [dimTab, dimHop, List.range_succ]

/-- C75: violated for two local spins and a constant `|Ψ|²`, although the choice of updates suits the system: every step exchanges the spins, a sample
is taken after an even number of steps (`NVMCInterval·Nsite`), and the measured `n_{0↑}` is 1 instead of 1/2. -/
theorem C75_period_violated : locSpnCheck 2 1 2 = true ∧ PathOK (dimEnv.szPar (fun _ => 1) 2) ∧ ∀ w m n,
    meanSqErr (samplerK dimEnv (fun _ => 1) 2) (dimState _ _ 0 1 (by omega) (by omega)) (w * 2) (m * 2) n
      (fun c => upOcc (szList dimEnv c.1)) (psiMean (psi dimEnv) (szSector dimEnv (fun _ => 1)) upOcc) = ENNReal.ofReal (1 / 4) := by
  refine ⟨by decide, Or.inr (Or.inr ⟨rfl, by decide⟩), fun w m n => ?_⟩
  have hNe : 0 < (dimEnv.szPar (fun _ => 1) 2).Ne := by decide
  have hNs : 0 < (dimEnv.szPar (fun _ => 1) 2).Nsite := by decide
  let a : Nat → CfgState (dimEnv.szPar (fun _ => 1) 2) := fun i => dimState (fun _ => 1) 2 (i % 2) (1 - i % 2) (by omega) (by omega)
  have hstep : ∀ i, 1 ≤ samplerK dimEnv (fun _ => 1) 2 (a i) (a (i + 1)) := by
    intro i
    have e1 : (i + 1) % 2 = 1 - i % 2 := by omega
    have e2 : 1 - (i + 1) % 2 = i % 2 := by omega
    have hval : (a (i + 1)).1 = dimTab (1 - i % 2) (i % 2) := by
      show dimTab ((i + 1) % 2) (1 - (i + 1) % 2) = _
      rw [e1, show 1 - (1 - i % 2) = i % 2 by omega]
    have hne : a i ≠ a (i + 1) := by
      intro q
      have := congrArg (fun c => c.1.idx 0) q
      simp only [hval] at this
      have h1 : (a i).1.idx 0 = ((i % 2 : Nat) : Int) := by show (dimTab (i % 2) (1 - i % 2)).idx 0 = _; simp [dimTab]
      rw [h1] at this
      simp [dimTab] at this
      omega
    unfold samplerK metroKernel
    rw [if_neg hne]
    unfold moveProb
    have hw : psiWeight dimEnv (fun _ => 1) 2 (a (i + 1)) / psiWeight dimEnv (fun _ => 1) 2 (a i) = 1 := by
      unfold psiWeight
      rw [hval]
      show ENNReal.ofReal (‖psi dimEnv (szList dimEnv (dimTab _ _))‖ ^ 2) / ENNReal.ofReal (‖psi dimEnv (szList dimEnv (dimTab (i % 2) (1 - i % 2)))‖ ^ 2) = 1
      rw [dim_szList, dim_szList, dim_psi _ _ (by omega) (by omega), dim_psi (i % 2) _ (by omega) (by omega)]
      refine ENNReal.div_self ?_ ENNReal.ofReal_ne_top
      rw [Ne, ENNReal.ofReal_eq_zero, not_le]
      exact pow_pos (norm_pos_iff.mpr (dim_energy 0 0 (by omega) (by omega)).1) 2
    rw [hw, min_self, mul_one, ← propProb_all drawBound_pos 3]
    refine propProb_mono ?_
    rintro r ⟨hr, hb⟩
    match r, hr with
    | [u, v, x], _ =>
      have hs2 : coin v < 2 := by unfold coin; split <;> omega
      refine moveStreams_of (a i).2 hNe hNs hb (.exch [] [u, v, x] (dimHop (i % 2) (coin v)) rfl (fun tl => rfl) (fun tl => dim_cand (i % 2) (by omega) u v x tl) ?_)
      rw [hval]
      exact (dim_swap (i % 2) (by omega) _ hs2).symm
  have htot : ∀ i, ∑' y, samplerK dimEnv (fun _ => 1) 2 (a i) y = 1 := fun i => metro_total (fun c => moves_le_one hNe hNs _ (fun _ _ _ h => h) _ c) (a i)
  have so := fun k => steps_orbit (K := samplerK dimEnv (fun _ => 1) 2) (a := a) (fun i => (certain (htot i) (hstep i)).1)
    (fun i => (certain (htot i) (hstep i)).2) k 0
  have ha : ∀ k, a (0 + k * 2) = a 0 := by
    intro k
    have : (0 + k * 2) % 2 = 0 := by omega
    exact Subtype.ext (show dimTab ((0 + k * 2) % 2) (1 - (0 + k * 2) % 2) = dimTab (0 % 2) (1 - 0 % 2) by rw [this])
  have so2 := fun k => so (k * 2)
  simp only [ha] at so2
  show meanSqErr (samplerK dimEnv (fun _ => 1) 2) (a 0) (w * 2) (m * 2) n _ _ = _
  rw [frozen_err (so2 w).2 (so2 w).1 (so2 m).2 (so2 m).1, dim_up]
  have : upOcc (szList dimEnv (a 0).1) = 1 := by
    show upOcc (szList dimEnv (dimTab 0 1)) = 1
    rw [dim_szList]
    simp [upOcc]
  simp only [this]
  congr 1
  rw [show (1 : ℂ) - 1 / 2 = ((1 / 2 : ℝ) : ℂ) by push_cast; norm_num, Complex.norm_real, Real.norm_eq_abs, abs_of_pos (by norm_num)]
  norm_num

end MVMC
