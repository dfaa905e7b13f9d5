import Verif.Spec.TrialState
import Verif.Proof.Fock
import Verif.Proof.ProjectionSampler
import Verif.Proof.PfSampler
import Verif.Props.RBM
import Verif.Props.Projection

/-! Wave function of a configuration, and ratios between two configurations. -/
namespace MVMC
open MVMC.Spec Finset

theorem rbmSpec_eq {p : RBMPar ℂ} (ht : RBMTab p) (num : Arr) :
    rbmValue p.nPhys p.nNeuron p.par (makeRBMCnt p num) (fun h => makeRBMCnt p num (h + p.nPhys)) = rbmSpec p num := by
  unfold rbmValue rbmSpec rbmFactor
  congr 1
  · congr 1
    unfold RBMPar.nPhys
    rw [sum_range_add, sum_range_add]
    congr 1
    · congr 1
      · exact sum_congr rfl (fun c hc => by rw [make_charge num (mem_range.mp hc)])
      · exact sum_congr rfl (fun c hc => by rw [make_spin ht num (mem_range.mp hc)])
    · exact sum_congr rfl (fun c hc => by rw [make_orbital ht num (mem_range.mp hc)])
  · have e : p.nNeuron = p.hC + p.hS + p.hG + p.extra := by unfold RBMPar.nNeuron; omega
    rw [e, prod_range_add, prod_range_add, prod_range_add]
    have h4 : ∏ x ∈ range p.extra, Complex.cosh (makeRBMCnt p num (p.hC + p.hS + p.hG + x + p.nPhys)) = 1 := by
      apply prod_eq_one
      intro x _
      rw [make_out ht num (by omega), Complex.cosh_zero]
    rw [h4, mul_one]
    congr 1
    · congr 1
      · exact prod_congr rfl (fun h hh => by simp only []; rw [Nat.add_comm h, make_hidC ht num (mem_range.mp hh)])
      · exact prod_congr rfl (fun h hh => by
          simp only []
          rw [show p.hC + h + p.nPhys = p.nPhys + p.hC + h by omega, make_hidS ht num (mem_range.mp hh)])
    · exact prod_congr rfl (fun h hh => by
        simp only []
        rw [show p.hC + p.hS + h + p.nPhys = p.nPhys + p.hC + p.hS + h by omega, make_hidG ht num (mem_range.mp hh)])

theorem projSpec_eq {q : ProjPar} (ht : TabOK q) {num : Arr} (hb : Bin q num) (Proj : Nat → ℂ) :
    projSpec q Proj num = Real.exp (logProjVal q.NProj Proj (makeProjCnt q num)) := by
  unfold projSpec
  rw [C15_log_value q ht num hb Proj]
  rfl

/-- 0/1 occupations -/
def Bin2 (M : Nat) (num : Arr) : Prop := ∀ x < M, num x = 0 ∨ num x = 1

theorem bin_of_bin2 {q : ProjPar} {num : Arr} (h : Bin2 (2 * q.Nsite) num) : Bin q num :=
  fun r hr => ⟨h r (by omega), h (r + q.Nsite) (by omega)⟩

theorem visC_congr {N : Nat} {num num' : Arr} (h : ∀ x < 2 * N, num x = num' x) : ∀ r < N, (visC N num r : ℂ) = visC N num' r := by
  intro r hr; unfold visC; rw [h r (by omega), h (r + N) (by omega)]
theorem visS_congr {N : Nat} {num num' : Arr} (h : ∀ x < 2 * N, num x = num' x) : ∀ r < N, (visS N num r : ℂ) = visS N num' r := by
  intro r hr; unfold visS; rw [h r (by omega), h (r + N) (by omega)]
theorem visG_congr {N : Nat} {num num' : Arr} (h : ∀ x < 2 * N, num x = num' x) : ∀ r < 2 * N, (visG num r : ℂ) = visG num' r := by
  intro r hr; unfold visG; rw [h r hr]

theorem makeRBM_congr {p : RBMPar ℂ} {num num' : Arr} (h : ∀ x < 2 * p.Nsite, num x = num' x) (k : Nat) :
    makeRBMCnt p num k = makeRBMCnt p num' k := by
  have c := visC_congr h; have s := visS_congr h; have g := visG_congr h
  rw [makeRBMCnt_apply, makeRBMCnt_apply]
  unfold rbmPhysSum rbmCoupSum
  have key : ∀ (n : Nat) (f f' : Nat → ℂ) (W : Nat → ℂ), (∀ r < n, f r = f' r) →
      ∑ r ∈ range n, W r * f r = ∑ r ∈ range n, W r * f' r := by
    intro n f f' W hf
    exact sum_congr rfl (fun r hr => by rw [hf r (mem_range.mp hr)])
  simp only [key _ _ _ _ c, key _ _ _ _ s, key _ _ _ _ g]

theorem makeProj_congr {q : ProjPar} (ht : TabOK q) {num num' : Arr} (hb : Bin2 (2 * q.Nsite) num)
    (h : ∀ x < 2 * q.Nsite, num x = num' x) (k : Nat) : makeProjCnt q num k = makeProjCnt q num' k := by
  have hb' : Bin2 (2 * q.Nsite) num' := fun x hx => by rw [← h x hx]; exact hb x hx
  refine makeProjCnt_congr ht (bin_of_bin2 hb) (bin_of_bin2 hb') ?_ ?_ k
  · intro r hr
    unfold isDoublon nUp nDn
    beta_reduce
    rw [h r (by omega), h (r + q.Nsite) (by omega)]
  · intro r hr
    unfold isHolon nUp nDn
    beta_reduce
    rw [h r (by omega), h (r + q.Nsite) (by omega)]

theorem corrSpec_congr {g : GrnEnv} (hg : GrnOK g) (hr : g.flagRBM = true → GrnRBM g) {num num' : Arr}
    (hb : Bin2 (2 * g.p.Nsite) num) (h : ∀ x < 2 * g.p.Nsite, num x = num' x) : corrSpec g num = corrSpec g num' := by
  have hb' : Bin2 (2 * g.p.Nsite) num' := fun x hx => by rw [← h x hx]; exact hb x hx
  rw [← hg.hq] at h hb hb'
  have e1 : projSpec g.q g.Proj num = projSpec g.q g.Proj num' := by
    rw [projSpec_eq hg.tab (bin_of_bin2 hb), projSpec_eq hg.tab (bin_of_bin2 hb')]
    congr 2
    funext k
    exact makeProj_congr hg.tab hb h k
  unfold corrSpec
  rw [e1]
  cases hf : g.flagRBM with
  | false => simp
  | true =>
    have R := hr hf
    have hN : g.q.Nsite = g.rbm.Nsite := by rw [hg.hq, R.hN]
    rw [hN] at h
    simp only [if_true]
    rw [← rbmSpec_eq R.tab, ← rbmSpec_eq R.tab]
    have : makeRBMCnt g.rbm num = makeRBMCnt g.rbm num' := funext (makeRBM_congr h)
    rw [this]

/-- ratio of the occupation-only factors from the counters -/
theorem projRatio_spec {g : GrnEnv} (hg : GrnOK g) {num num' new old : Arr} (hb : Bin2 (2 * g.p.Nsite) num)
    (hb' : Bin2 (2 * g.p.Nsite) num') (hn : ∀ k < g.q.NProj, new k = makeProjCnt g.q num' k)
    (ho : ∀ k < g.q.NProj, old k = makeProjCnt g.q num k) :
    projRatioC g new old = (projSpec g.q g.Proj num' : ℂ) / (projSpec g.q g.Proj num : ℂ) := by
  have c1 : ∀ {a b : Arr}, (∀ k < g.q.NProj, a k = b k) → logProjVal g.q.NProj g.Proj a = logProjVal g.q.NProj g.Proj b := by
    intro a b h
    unfold logProjVal
    rw [foldl_sum_real, foldl_sum_real]
    exact sum_congr rfl (fun i hi => by rw [h i (mem_range.mp hi)])
  rw [← hg.hq] at hb hb'
  unfold projRatioC
  rw [C15_ratio, c1 hn, c1 ho, projSpec_eq hg.tab (bin_of_bin2 hb), projSpec_eq hg.tab (bin_of_bin2 hb')]
  push_cast
  rfl

theorem rbmRatio_spec {g : GrnEnv} (R : GrnRBM g) {num num' : Arr} {new old : Nat → ℂ} (hb : Bin2 (2 * g.p.Nsite) num)
    (hb' : Bin2 (2 * g.p.Nsite) num') (hn : ∀ k < g.rbm.nPhys + g.rbm.nNeuron, new k = makeRBMCnt g.rbm num' k)
    (ho : ∀ k < g.rbm.nPhys + g.rbm.nNeuron, old k = makeRBMCnt g.rbm num k) :
    rbmRatioOne g new old = rbmSpec g.rbm num' / rbmSpec g.rbm num := by
  have c1 : ∀ {a b : Nat → ℂ}, (∀ k < g.rbm.nPhys + g.rbm.nNeuron, a k = b k) →
      rbmValue g.rbm.nPhys g.rbm.nNeuron g.rbm.par a (fun h => a (h + g.rbm.nPhys)) =
      rbmValue g.rbm.nPhys g.rbm.nNeuron g.rbm.par b (fun h => b (h + g.rbm.nPhys)) := by
    intro a b h
    unfold rbmValue
    congr 1
    · congr 1
      exact sum_congr rfl (fun i hi => by rw [h i (by have := mem_range.mp hi; omega)])
    · exact prod_congr rfl (fun i hi => by simp only []; rw [h (i + g.rbm.nPhys) (by have := mem_range.mp hi; omega)])
  obtain ⟨x, hx⟩ := C45_single_thread g.rbm g.B new old
  unfold rbmRatioOne
  rw [hx, Option.getD_some, (C45_ratio_partial g.rbm g.B 1 new old R.blk (by omega) x ?_ ?_ hx).1, c1 hn, c1 ho, rbmSpec_eq R.tab,
    rbmSpec_eq R.tab]
  · intro h hh
    rw [hn _ (by omega)]
    exact R.cosh num' hb' h hh
  · intro h hh
    rw [ho _ (by omega)]
    exact R.cosh num hb h hh

/-- `rs` places the `n` electrons on distinct orbitals below `M`, and `num` are the occupations -/
structure Placed (n M : Nat) (rs : Nat → Nat) (num : Arr) : Prop where
  inj : ∀ i < n, ∀ j < n, rs i = rs j → i = j
  lt : ∀ i < n, rs i < M
  occ : ∀ x < M, (num x = 1 ∧ ∃ i < n, rs i = x) ∨ (num x = 0 ∧ ∀ i < n, rs i ≠ x)

section placed
variable {n M : Nat} {rs : Nat → Nat} {num : Arr} (h : Placed n M rs num)
include h

theorem Placed.nodup : (occList n rs).Nodup := by
  unfold occList
  rw [List.nodup_map_iff_inj_on List.nodup_range]
  intro x hx y hy e
  exact h.inj x (List.mem_range.mp hx) y (List.mem_range.mp hy) e

theorem Placed.range : ∀ z ∈ occList n rs, z < M := by
  intro z hz
  unfold occList at hz
  rw [List.mem_map] at hz
  obtain ⟨i, hi, rfl⟩ := hz
  exact h.lt i (List.mem_range.mp hi)

theorem Placed.mem {x : Nat} (hx : x < M) : x ∈ occList n rs ↔ num x = 1 := by
  unfold occList
  rw [List.mem_map]
  rcases h.occ x hx with ⟨h1, i, hi, e⟩ | ⟨h1, h2⟩
  · exact ⟨fun _ => h1, fun _ => ⟨i, List.mem_range.mpr hi, e⟩⟩
  · constructor
    · rintro ⟨i, hi, e⟩
      exact absurd e (h2 i (List.mem_range.mp hi))
    · intro h3; omega

theorem Placed.bin : Bin2 M num := by
  intro x hx
  rcases h.occ x hx with ⟨h1, _⟩ | ⟨h1, _⟩
  · exact Or.inr h1
  · exact Or.inl h1

theorem Placed.occupation {x : Nat} (hx : x < M) : occupation (occList n rs) x = num x := by
  unfold Spec.occupation
  rcases h.bin x hx with e | e
  · rw [if_neg (by rw [h.mem hx]; omega), e]
  · rw [if_pos ((h.mem hx).mpr e), e]

/-- moving one electron renames its orbital -/
theorem Placed.move {rs' : Nat → Nat} {m : Nat} (hm : m < n) (hs : ∀ i < n, i ≠ m → rs' i = rs i) :
    occList n rs' = repl (rs m) (rs' m) (occList n rs) := by
  unfold occList repl
  rw [List.map_map]
  apply List.map_congr_left
  intro i hi
  have hi := List.mem_range.mp hi
  simp only [Function.comp]
  by_cases e : i = m
  · rw [e, if_pos rfl]
  · rw [if_neg (fun q => e (h.inj i hi m hm q)), hs i hi e]

end placed

theorem psi_placed {g : GrnEnv} (hg : GrnOK g) (hr : g.flagRBM = true → GrnRBM g) {n : Nat} {rs : Nat → Nat} {num : Arr}
    (h : Placed n (2 * g.p.Nsite) rs num) :
    psi g (occList n rs) = corrSpec g num * amplitude n (2 * g.p.Nsite) g.slt g.w 0 g.nQP rs := by
  unfold psi waveFunction
  congr 1
  exact (corrSpec_congr hg hr h.bin (fun x hx => (h.occupation hx).symm)).symm

theorem psi_anti {g : GrnEnv} (hg : GrnOK g) : Anti (2 * g.p.Nsite) (psi g) := by
  intro p x y s hn hr
  unfold psi waveFunction
  have e : occupation (p ++ x :: y :: s) = occupation (p ++ y :: x :: s) := by
    funext z
    unfold occupation
    have : z ∈ p ++ x :: y :: s ↔ z ∈ p ++ y :: x :: s := by simp only [List.mem_append, List.mem_cons]; tauto
    simp only [this]
  rw [e, ← mul_neg, ← sum_neg_distrib]
  congr 1
  apply sum_congr rfl
  intro k hk
  rw [← mul_neg]
  congr 1
  have sk := (slaterSkew_on (hg.skew k (mem_range.mp hk))).cut
  have c : ∀ l : List Nat, (∀ z ∈ l, z < 2 * g.p.Nsite) → pf (entry (2 * g.p.Nsite) g.slt k) l =
      pf (cut (· < 2 * g.p.Nsite) (entry (2 * g.p.Nsite) g.slt k)) l := by
    intro l hl
    exact pf_congr (fun a ha b hb => (cut_eq (S := (· < 2 * g.p.Nsite)) (hl a ha) (hl b hb)).symm)
  rw [c _ hr, c _ ?_]
  · exact pf_swap sk p x y s
  · intro z hz
    apply hr z
    simp only [List.mem_append, List.mem_cons] at hz ⊢
    tauto

end MVMC
