import Verif.Proof.HamMat
import Verif.Props.MainCal
import Mathlib.Tactic.IntervalCases

/-! # The reported energy is a variational energy (C72) -/
namespace MVMC
open MVMC.Spec Matrix Finset

/-! ## Any sector -/

section sector
variable {M : Nat} (Ψ : List Nat → ℂ) (hΨ : Anti M Ψ) (H : List (ℂ × List Op)) (ho : ∀ t ∈ H, ∀ o ∈ t.2, o.spinOrb < M)
  (P : Conf M → Prop) [DecidablePred P] (hP : ClosedOn P (hamMat M H))

/-- average of `f` over the configurations of a sector with weight `|Ψ|²` -/
noncomputable def psiMean (P : Conf M → Prop) [DecidablePred P] (f : List Nat → ℂ) : ℂ :=
  (∑ S ∈ univ.filter P, (Complex.normSq (Ψ (S.1.sort (· ≤ ·))) : ℂ) * f (S.1.sort (· ≤ ·))) /
    ((∑ S ∈ univ.filter P, Complex.normSq (Ψ (S.1.sort (· ≤ ·))) : ℝ) : ℂ)

omit [DecidablePred P] in
theorem norm2_stateOn [DecidablePred P] : ∑ S ∈ univ.filter P, Complex.normSq (Ψ (S.1.sort (· ≤ ·))) = norm2 (stateOn M P Ψ) := by
  unfold norm2 stateOn
  rw [Finset.sum_filter]
  refine Finset.sum_congr rfl fun S _ => ?_
  by_cases h : P S <;> simp [h]

include hΨ ho hP in
/-- the local energy on an ordered list is that of the Hamiltonian matrix -/
theorem energyOf_sector (l : List Nat) (hn : l.Nodup) (hM : ∀ z ∈ l, z < M) (hl : P (confOf l hM)) :
    energyOf Ψ H l = localValue (stateOn M P Ψ) (hamMat M H) (confOf l hM) := by
  rw [energyOf_eq hΨ H ho l hn hM, localValue_sector Ψ P _ hP _ hl]

include hΨ ho hP in
theorem psiMean_energy : psiMean Ψ P (energyOf Ψ H) = Spec.expect (stateOn M P Ψ) (hamMat M H) := by
  unfold psiMean Spec.expect
  rw [norm2_stateOn, ← sum_local_one, Finset.sum_filter]
  congr 1
  refine Finset.sum_congr rfl fun S _ => ?_
  by_cases h : P S
  · have h' : P (confOf (S.1.sort (· ≤ ·)) (sort_lt S)) := by rw [confOf_sort]; exact h
    rw [if_pos h, energyOf_sector Ψ hΨ H ho P hP _ (Finset.sort_nodup _ _) (sort_lt S) h', confOf_sort]
    simp [stateOn, h]
  · rw [if_neg h]; simp [stateOn, h]

/-- `|Ψ|²|e|²` summed is the norm of `H ψ` if `Ψ` has no zero in the sector, and not larger otherwise -/
theorem sum_abs_local {ι : Type} [Fintype ι] [DecidableEq ι] (ψ : ι → ℂ) (A : Matrix ι ι ℂ) (hA : A.IsHermitian) :
    (∑ x, Complex.normSq (ψ x) * Complex.normSq (localValue ψ A x) ≤ norm2 (A *ᵥ ψ)) ∧
    ((∀ x, ψ x = 0 → (A *ᵥ ψ) x = 0) → ∑ x, Complex.normSq (ψ x) * Complex.normSq (localValue ψ A x) = norm2 (A *ᵥ ψ)) := by
  have hb : ∀ x, Complex.normSq (∑ y, (starRingEnd ℂ) (ψ y) * A y x) = Complex.normSq ((A *ᵥ ψ) x) := by
    intro x
    rw [← Complex.normSq_conj, map_sum]
    congr 1
    unfold mulVec dotProduct
    refine Finset.sum_congr rfl fun y _ => ?_
    have e : (starRingEnd ℂ) (A y x) = A x y := by
      have := congrFun (congrFun hA.eq x) y
      rw [conjTranspose_apply] at this
      exact this
    rw [map_mul, Complex.conj_conj, e, mul_comm]
  have e : ∀ x, Complex.normSq (ψ x) * Complex.normSq (localValue ψ A x) = if ψ x = 0 then 0 else Complex.normSq ((A *ᵥ ψ) x) := by
    intro x
    by_cases h : ψ x = 0
    · simp [h]
    · rw [if_neg h]
      unfold localValue
      rw [map_div₀, hb x, Complex.normSq_conj]
      have : Complex.normSq (ψ x) ≠ 0 := by simpa using h
      field_simp
  unfold norm2
  constructor
  · refine Finset.sum_le_sum fun x _ => ?_
    rw [e]
    split
    · exact Complex.normSq_nonneg _
    · exact le_refl _
  · intro hz
    refine Finset.sum_congr rfl fun x _ => ?_
    rw [e]
    split
    · rename_i h; rw [hz x h]; simp
    · rfl

include hΨ ho hP in
theorem psiMean_abs :
    psiMean Ψ P (fun l => ((‖energyOf Ψ H l‖ ^ 2 : ℝ) : ℂ)) =
      ((∑ x, Complex.normSq (stateOn M P Ψ x) * Complex.normSq (localValue (stateOn M P Ψ) (hamMat M H) x)) / norm2 (stateOn M P Ψ) : ℝ) ∧
    ∀ x, ¬ P x → (hamMat M H *ᵥ stateOn M P Ψ) x = 0 := by
  constructor
  · unfold psiMean
    rw [norm2_stateOn, Finset.sum_filter]
    push_cast
    congr 1
    refine Finset.sum_congr rfl fun S _ => ?_
    by_cases h : P S
    · have h' : P (confOf (S.1.sort (· ≤ ·)) (sort_lt S)) := by rw [confOf_sort]; exact h
      rw [if_pos h, energyOf_sector Ψ hΨ H ho P hP _ (Finset.sort_nodup _ _) (sort_lt S) h', confOf_sort]
      simp [stateOn, h, Complex.normSq_eq_norm_sq]
    · rw [if_neg h]; simp [stateOn, h]
  · intro x hx
    unfold mulVec dotProduct
    refine Finset.sum_eq_zero fun y _ => ?_
    by_cases h : P y
    · show hamMat M H x y * stateOn M P Ψ y = 0
      rw [hP y x h hx, zero_mul]
    · simp [stateOn, h]

include hΨ ho hP in
/-- constant local energy on a sector without zeros of `Ψ`: an eigenstate -/
theorem eigen_of_const (hH : (hamMat M H).IsHermitian) (E : ℝ) (hE : ∀ S, P S → Ψ (S.1.sort (· ≤ ·)) ≠ 0 ∧ energyOf Ψ H (S.1.sort (· ≤ ·)) = E) :
    hamMat M H *ᵥ stateOn M P Ψ = (E : ℂ) • stateOn M P Ψ := by
  funext S
  by_cases h : P S
  · have h' : P (confOf (S.1.sort (· ≤ ·)) (sort_lt S)) := by rw [confOf_sort]; exact h
    obtain ⟨h1, h2⟩ := hE S h
    rw [energyOf_sector Ψ hΨ H ho P hP _ (Finset.sort_nodup _ _) (sort_lt S) h', confOf_sort] at h2
    have hne : (starRingEnd ℂ) (stateOn M P Ψ S) ≠ 0 := by simpa [stateOn, h] using h1
    unfold localValue at h2
    rw [div_eq_iff hne] at h2
    have := congrArg (starRingEnd ℂ) h2
    rw [map_sum, map_mul, Complex.conj_ofReal, Complex.conj_conj] at this
    rw [Pi.smul_apply, smul_eq_mul, ← this]
    unfold mulVec dotProduct
    refine Finset.sum_congr rfl fun y _ => ?_
    have e : (starRingEnd ℂ) (hamMat M H y S) = hamMat M H S y := by
      have := congrFun (congrFun hH.eq S) y
      rw [conjTranspose_apply] at this
      exact this
    rw [map_mul, Complex.conj_conj, e, mul_comm]
  · rw [(psiMean_abs Ψ hΨ H ho P hP).2 S h]
    simp [stateOn, h]

end sector

/-! ## Fixed Sz -/

/-- the configurations that the sampler of the fixed-Sz mode can store: `Ne` electrons of either spin, one on every local-spin site -/
def szSector (g : GrnEnv) (locSpn : Nat → Int) (S : Conf (2 * g.p.Nsite)) : Prop := fixedSz g.p.Ne g.p.Nsite S ∧ localOne g.p.Nsite locSpn S

instance (g : GrnEnv) (locSpn : Nat → Int) : DecidablePred (szSector g locSpn) := fun _ => inferInstanceAs (Decidable (_ ∧ _))

/-- the configurations of the general-Sz mode: `2 Ne` electrons, one on every local-spin site -/
def fszSector (g : GrnEnv) (locSpn : Nat → Int) (S : Conf (2 * g.p.Nsite)) : Prop := fixedN (2 * g.p.Ne) S ∧ localOne g.p.Nsite locSpn S

instance (g : GrnEnv) (locSpn : Nat → Int) : DecidablePred (fszSector g locSpn) := fun _ => inferInstanceAs (Decidable (_ ∧ _))

theorem localOne_of {n N : Nat} {rs : Nat → Nat} {num : Arr} (pl : Placed n (2 * N) rs num) {locSpn : Nat → Int} (hl : LocalSingle N locSpn num) :
    localOne N locSpn (confOf (occList n rs) pl.range) := by
  intro r hr h1
  have hs := hl r hr h1
  have m1 := pl.mem (x := r) (by omega)
  have m2 := pl.mem (x := r + N) (by omega)
  have b1 := pl.occ r (by omega)
  have b2 := pl.occ (r + N) (by omega)
  have e1 : r ∈ occList n rs ↔ r + N ∉ occList n rs := by
    rw [m1, m2]
    rcases b1 with ⟨q, _⟩ | ⟨q, _⟩ <;> rcases b2 with ⟨q', _⟩ | ⟨q', _⟩ <;> rw [q, q'] at hs ⊢ <;> omega
  have hset : (confOf (occList n rs) pl.range).1.filter (fun x => x = r ∨ x = r + N) = {if r ∈ occList n rs then r else r + N} := by
    ext z
    simp only [confOf, mem_filter, List.mem_toFinset, mem_singleton]
    by_cases q : r ∈ occList n rs
    · rw [if_pos q]
      constructor
      · rintro ⟨h, rfl | rfl⟩
        · rfl
        · exact absurd h (e1.mp q)
      · rintro rfl; exact ⟨q, Or.inl rfl⟩
    · rw [if_neg q]
      have q' : r + N ∈ occList n rs := by by_contra w; exact q (e1.mpr w)
      constructor
      · rintro ⟨h, rfl | rfl⟩
        · exact absurd h q
        · rfl
      · rintro rfl; exact ⟨q', Or.inr rfl⟩
  rw [hset, card_singleton]

theorem card_filter_occ {n N : Nat} {rs : Nat → Nat} {num : Arr} (pl : Placed n (2 * N) rs num) (p : Nat → Prop) [DecidablePred p] :
    ((confOf (occList n rs) pl.range).1.filter p).card = ((List.range n).filter (fun i => p (rs i))).length := by
  have e : (confOf (occList n rs) pl.range).1.filter p = ((occList n rs).filter p).toFinset := by
    ext z; simp [confOf]
  rw [e, List.toFinset_card_of_nodup (pl.nodup.filter _)]
  unfold occList
  rw [List.filter_map, List.length_map]
  rfl

theorem filter_range_lt (a b : Nat) (h : a ≤ b) : ((List.range b).filter (fun i => decide (i < a))).length = a := by
  obtain ⟨c, rfl⟩ := Nat.exists_eq_add_of_le h
  induction c with
  | zero =>
    rw [Nat.add_zero, List.filter_eq_self.mpr (by intro x hx; simpa using List.mem_range.mp hx), List.length_range]
  | succ c ih =>
    rw [← Nat.add_assoc, List.range_succ, List.filter_append, List.length_append, ih (Nat.le_add_right a c)]
    simp

theorem filter_range_ge (a : Nat) : ((List.range (2 * a)).filter (fun i => decide (a ≤ i))).length = a := by
  have h := List.length_eq_length_filter_add (l := List.range (2 * a)) (fun i => decide (i < a))
  rw [filter_range_lt a (2 * a) (by omega), List.length_range] at h
  have : (List.range (2 * a)).filter (fun i => !decide (i < a)) = (List.range (2 * a)).filter (fun i => decide (a ≤ i)) := by
    refine List.filter_congr fun i _ => ?_
    by_cases q : i < a
    · simp [q]
    · simp [q]; omega
  rw [this] at h
  omega

/-- a consistent configuration lies in the sector -/
theorem szSector_of {g : GrnEnv} {c : EleCfg} (hc : Consistent g.p.Ne g.p.Nsite c.idx c.cfg c.num) {locSpn : Nat → Int}
    (hl : LocalSingle g.p.Nsite locSpn c.num) : szSector g locSpn (confOf (szList g c) (placed_sz (g := g) (c := c) hc).range) := by
  have pl := placed_sz (g := g) (c := c) hc
  have os := onSites_of_cons (show Cons g.sp c from hc)
  refine ⟨⟨?_, ?_⟩, localOne_of pl hl⟩
  · have := card_filter_occ pl (fun x => x < g.p.Nsite)
    refine this.trans (Eq.trans (congrArg List.length ?_) (filter_range_lt g.p.Ne (2 * g.p.Ne) (by omega)))
    refine List.filter_congr fun i hi => ?_
    have := os i (List.mem_range.mp hi)
    have h1 : 0 ≤ c.idx i ∧ c.idx i < ((g.p.Nsite : Nat) : Int) := this
    refine decide_eq_decide.mpr ?_
    unfold occSz
    split <;> omega
  · have := card_filter_occ pl (fun x => g.p.Nsite ≤ x)
    refine this.trans (Eq.trans (congrArg List.length ?_) (filter_range_ge g.p.Ne))
    refine List.filter_congr fun i hi => ?_
    have := os i (List.mem_range.mp hi)
    have h1 : 0 ≤ c.idx i ∧ c.idx i < ((g.p.Nsite : Nat) : Int) := this
    refine decide_eq_decide.mpr ?_
    unfold occSz
    split <;> omega

theorem fszSector_of {g : GrnEnv} {c : FCfg} (hc : ConsistentF (2 * g.p.Ne) g.p.Nsite c.idx c.spn c.cfg c.num) {locSpn : Nat → Int}
    (hl : LocalSingle g.p.Nsite locSpn c.num) : fszSector g locSpn (confOf (fszList g c) (placed_fsz (g := g) (c := c) hc).range) := by
  have pl := placed_fsz (g := g) (c := c) hc
  refine ⟨?_, localOne_of pl hl⟩
  show (confOf (fszList g c) pl.range).1.card = _
  have : (confOf (fszList g c) pl.range).1 = (fszList g c).toFinset := rfl
  rw [this, List.toFinset_card_of_nodup (show (fszList g c).Nodup from pl.nodup)]
  simp [fszList, occList]

section sz
variable (g : GrnEnv) (hg : GrnOK g) (H : HamPar) (hH : HamIdx g.p.Nsite H) (hsz : HamSzConserving H) (locSpn : Nat → Int)
  (hloc : HamLocal g.p.Nsite locSpn H)

/-- the matrix of the Hamiltonian of the definition files -/
noncomputable abbrev hamOf (g : GrnEnv) (H : HamPar) : Matrix (Conf (2 * g.p.Nsite)) (Conf (2 * g.p.Nsite)) ℂ :=
  hamMat (2 * g.p.Nsite) (hamTerms g.p.Nsite H)

/-- the trial state as a vector over the configurations of the fixed-Sz mode -/
noncomputable abbrev trialSz (g : GrnEnv) (locSpn : Nat → Int) : Conf (2 * g.p.Nsite) → ℂ := stateOn (2 * g.p.Nsite) (szSector g locSpn) (psi g)

/-- the trial state as a vector over the configurations of the general-Sz mode -/
noncomputable abbrev trialFsz (g : GrnEnv) (locSpn : Nat → Int) : Conf (2 * g.p.Nsite) → ℂ := stateOn (2 * g.p.Nsite) (fszSector g locSpn) (psi g)

include hH hsz hloc in
theorem closed_sz : ClosedOn (szSector g locSpn) (hamOf g H) := closed_and (closed_fixedSz hH hsz _) (closed_local hH hloc)

include hH hloc in
theorem closed_fsz : ClosedOn (fszSector g locSpn) (hamOf g H) := closed_and (closed_fixedN hH _) (closed_local hH hloc)

include hg hH hsz hloc

/-- C72: the local energy of a consistent configuration, whatever the order of its electrons, is the local value `(H†ψ)*(x)/ψ*(x)` of the
Jordan–Wigner matrix of the Hamiltonian at the set of occupied orbitals. -/
theorem C72_local (c : EleCfg) (hc : Consistent g.p.Ne g.p.Nsite c.idx c.cfg c.num) (hl : LocalSingle g.p.Nsite locSpn c.num) :
    energyOf (psi g) (hamTerms g.p.Nsite H) (szList g c) =
      localValue (trialSz g locSpn) (hamOf g H) (confOf (szList g c) (placed_sz (g := g) (c := c) hc).range) :=
  energyOf_sector (psi g) (psi_anti hg) _ (hamTerms_orb hH) _ (closed_sz g H hH hsz locSpn hloc) _ (placed_sz (g := g) (c := c) hc).nodup _
    (szSector_of hc hl)

/-- C72: the average of the local energy over all configurations of the sampler with the weight `|ψ|²` of C71 is `⟨ψ|H|ψ⟩/⟨ψ|ψ⟩`. -/
theorem C72_mean : psiMean (psi g) (szSector g locSpn) (energyOf (psi g) (hamTerms g.p.Nsite H)) = Spec.expect (trialSz g locSpn) (hamOf g H) :=
  psiMean_energy (psi g) (psi_anti hg) _ (hamTerms_orb hH) _ (closed_sz g H hH hsz locSpn hloc)

variable (hh : HamHermitian H) (hne : trialSz g locSpn ≠ 0)
include hh hne

/-- C72: for a Hamiltonian that contains the adjoint of every line this average is real and not below an eigenvalue of the Hamiltonian whose
eigenvector has the particle numbers (and local spins) of the sampler: it is an upper bound of the ground-state energy. -/
theorem C72_variational : ∃ E : ℝ, psiMean (psi g) (szSector g locSpn) (energyOf (psi g) (hamTerms g.p.Nsite H)) = E ∧
    ∃ (lam : ℝ) (v : Conf (2 * g.p.Nsite) → ℂ), v ≠ 0 ∧ (∀ x, ¬ szSector g locSpn x → v x = 0) ∧ hamOf g H *ᵥ v = (lam : ℂ) • v ∧ lam ≤ E := by
  have hherm := hamMat_hermitian hH hh
  refine ⟨energyOfState (trialSz g locSpn) (hamOf g H), ?_, ?_⟩
  · rw [C72_mean g hg H hH hsz locSpn hloc, energyOfState_eq _ hherm]
  · exact exists_eigen_le_sector _ hherm _ (closed_sz g H hH hsz locSpn hloc) _ hne (fun x hx => by simp [stateOn, hx])

/-- C72: the exact average of `|E_loc|²` never exceeds `⟨ψ|H²|ψ⟩/⟨ψ|ψ⟩`, and equals it if the trial state has no zero among the configurations:
then `Etot2 - Etot²` is the variance of the energy. -/
theorem C72_variance : ∃ V : ℝ, psiMean (psi g) (szSector g locSpn) (fun l => ((‖energyOf (psi g) (hamTerms g.p.Nsite H) l‖ ^ 2 : ℝ) : ℂ)) = V ∧
    V ≤ energyOfState (trialSz g locSpn) (hamOf g H * hamOf g H) ∧
    ((∀ x, szSector g locSpn x → trialSz g locSpn x ≠ 0) → V = energyOfState (trialSz g locSpn) (hamOf g H * hamOf g H)) := by
  have hherm : (hamOf g H).IsHermitian := hamMat_hermitian hH hh
  obtain ⟨h1, h2⟩ := psiMean_abs (psi g) (psi_anti hg) _ (hamTerms_orb hH) _ (closed_sz g H hH hsz locSpn hloc)
  have e : energyOfState (trialSz g locSpn) (hamOf g H * hamOf g H) = norm2 (hamOf g H *ᵥ trialSz g locSpn) / norm2 (trialSz g locSpn) := by
    have q := ev_mulVec (trialSz g locSpn) (hamOf g H) 1
    rw [ev_one, Matrix.mul_one, hherm.eq] at q
    unfold energyOfState Spec.expect
    rw [← q, ← Complex.ofReal_div, Complex.ofReal_re]
  obtain ⟨h3, h4⟩ := sum_abs_local (trialSz g locSpn) (hamOf g H) hherm
  refine ⟨_, h1, ?_, fun hz => ?_⟩
  · rw [e]
    exact div_le_div_of_nonneg_right h3 (le_of_lt (norm2_pos_of hne))
  · rw [e, ← h4]
    intro x hx
    by_cases hp : szSector g locSpn x
    · exact absurd hx (hz x hp)
    · exact h2 x hp

end sz

section fsz
variable (g : GrnEnv) (hg : GrnOK g) (H : HamPar) (hH : HamIdx g.p.Nsite H) (locSpn : Nat → Int) (hloc : HamLocal g.p.Nsite locSpn H)
include hg hH hloc

/-- C72: general-Sz mode. -/
theorem C72_local_fsz (c : FCfg) (hc : ConsistentF (2 * g.p.Ne) g.p.Nsite c.idx c.spn c.cfg c.num) (hl : LocalSingle g.p.Nsite locSpn c.num) :
    energyOf (psi g) (hamTerms g.p.Nsite H) (fszList g c) =
      localValue (trialFsz g locSpn) (hamOf g H) (confOf (fszList g c) (placed_fsz (g := g) (c := c) hc).range) :=
  energyOf_sector (psi g) (psi_anti hg) _ (hamTerms_orb hH) _ (closed_fsz g H hH locSpn hloc) _ (placed_fsz (g := g) (c := c) hc).nodup _
    (fszSector_of hc hl)

theorem C72_mean_fsz : psiMean (psi g) (fszSector g locSpn) (energyOf (psi g) (hamTerms g.p.Nsite H)) = Spec.expect (trialFsz g locSpn) (hamOf g H) :=
  psiMean_energy (psi g) (psi_anti hg) _ (hamTerms_orb hH) _ (closed_fsz g H hH locSpn hloc)

theorem C72_variational_fsz (hh : HamHermitian H) (hne : trialFsz g locSpn ≠ 0) :
    ∃ E : ℝ, psiMean (psi g) (fszSector g locSpn) (energyOf (psi g) (hamTerms g.p.Nsite H)) = E ∧
    ∃ (lam : ℝ) (v : Conf (2 * g.p.Nsite) → ℂ), v ≠ 0 ∧ (∀ x, ¬ fszSector g locSpn x → v x = 0) ∧ hamOf g H *ᵥ v = (lam : ℂ) • v ∧ lam ≤ E := by
  have hherm := hamMat_hermitian hH hh
  refine ⟨energyOfState (trialFsz g locSpn) (hamOf g H), ?_, ?_⟩
  · rw [C72_mean_fsz g hg H hH locSpn hloc, energyOfState_eq _ hherm]
  · exact exists_eigen_le_sector _ hherm _ (closed_fsz g H hH locSpn hloc) _ hne (fun x hx => by simp [stateOn, hx])

theorem C72_variance_fsz (hh : HamHermitian H) (hne : trialFsz g locSpn ≠ 0) : ∃ V : ℝ, psiMean (psi g) (fszSector g locSpn) (fun l => ((‖energyOf (psi g) (hamTerms g.p.Nsite H) l‖ ^ 2 : ℝ) : ℂ)) = V ∧
    V ≤ energyOfState (trialFsz g locSpn) (hamOf g H * hamOf g H) ∧
    ((∀ x, fszSector g locSpn x → trialFsz g locSpn x ≠ 0) → V = energyOfState (trialFsz g locSpn) (hamOf g H * hamOf g H)) := by
  have hherm : (hamOf g H).IsHermitian := hamMat_hermitian hH hh
  obtain ⟨h1, h2⟩ := psiMean_abs (psi g) (psi_anti hg) _ (hamTerms_orb hH) _ (closed_fsz g H hH locSpn hloc)
  have e : energyOfState (trialFsz g locSpn) (hamOf g H * hamOf g H) = norm2 (hamOf g H *ᵥ trialFsz g locSpn) / norm2 (trialFsz g locSpn) := by
    have q := ev_mulVec (trialFsz g locSpn) (hamOf g H) 1
    rw [ev_one, Matrix.mul_one, hherm.eq] at q
    unfold energyOfState Spec.expect
    rw [← q, ← Complex.ofReal_div, Complex.ofReal_re]
  obtain ⟨h3, h4⟩ := sum_abs_local (trialFsz g locSpn) (hamOf g H) hherm
  refine ⟨_, h1, ?_, fun hz => ?_⟩
  · rw [e]
    exact div_le_div_of_nonneg_right h3 (le_of_lt (norm2_pos_of hne))
  · rw [e, ← h4]
    intro x hx
    by_cases hp : fszSector g locSpn x
    · exact absurd hx (hz x hp)
    · exact h2 x hp

end fsz

/-! ## Eigenstates: the reported energy is exact for any samples -/

theorem meanOf_const {β : Type} {G n : Nat} {saved : Nat → List (Nat × β)} {F : β → ℂ} {z : ℂ} (hG : 0 < G) (hn : 0 < n)
    (hl : ∀ γ < G, (saved γ).length = n) (h : ∀ γ < G, ∀ x ∈ saved γ, F x.2 = z) : meanOf G n saved F = z := by
  unfold meanOf
  have e : ∀ γ ∈ range G, ((saved γ).map (fun x => F x.2)).sum = (n : ℂ) * z := by
    intro γ hγ
    have : (saved γ).map (fun x => F x.2) = (saved γ).map (fun _ => z) := List.map_congr_left (fun x hx => h γ (mem_range.mp hγ) x hx)
    rw [this, List.map_const', List.sum_replicate, hl γ (mem_range.mp hγ), nsmul_eq_mul]
  rw [sum_congr rfl e, sum_const, card_range, nsmul_eq_mul]
  have h1 : (G : ℂ) ≠ 0 := by exact_mod_cast (Nat.pos_iff_ne_zero.mp hG)
  have h2 : (n : ℂ) ≠ 0 := by exact_mod_cast (Nat.pos_iff_ne_zero.mp hn)
  field_simp

theorem groupCount_pos {np S : Nat} (hnp : 0 < np) (hS : 0 < S) : 0 < groupCount np S :=
  Nat.lt_of_le_of_lt (Nat.zero_le _) (group_lt hS hnp).1

section run
variable (g : GrnEnv) (hg : GrnOK g) (hr : g.flagRBM = true → GrnRBM g) (hz : NoZero g) (lib : SkLib ℂ) (hlib : LibOK lib) (htot : LibTotal lib)
  (hNe : 0 < g.p.Ne) (hNs : 0 < g.p.Nsite)
  (H : HamPar) (hH : HamIdx g.p.Nsite H) (hsz : HamSzConserving H) (T : GrnTab) (hT : GrnIdx g.p.Nsite T) (hTs : GrnSz T)
  (locSpn : Nat → Int) (hloc : HamLocal g.p.Nsite locSpn H) (hh : HamHermitian H)
  (exPath : Int) (mode warmUp nSample interval np S : Nat) (burn : Nat → Bool)
  (hn : 0 < nSample) (hnp : 0 < np) (hS : 0 < S) (saved : Nat → List (Nat × SState SzMem))
  (hrun : ∀ γ < groupCount np S, StoredRun g lib locSpn exPath (burn γ) warmUp nSample interval (saved γ))
  (S0 : Nat → EleStore) (o : Nat → Nat → MainOr EleCfg) (ho : ∀ k s, MainOrOK H T (o k s)) (a : Nat → PhysAcc)
include hg hr hz hlib htot hNe hNs hH hsz hT hTs hloc hh hn hnp hS hrun ho

/-- C72: if the trial state is an eigenstate of the Hamiltonian with eigenvalue `E`, one call of the sampler and of the measurement reports exactly
`Etot = E` and `Etot2 = E²` (variance zero), for every sequence of random numbers, number of samples, processes and threads. -/
theorem C72_eigenstate (E : ℝ) (hE : hamOf g H *ᵥ trialSz g locSpn = (E : ℂ) • trialSz g locSpn) :
    let avg := weightAverageWE np (fun k =>
      vmcMainCal g H T lib mode nSample (k % S) (groupSize np S (k / S)) (storeRun g (saved (k / S)) (S0 k)) (o k) (a k))
    avg.etot = E ∧ avg.etot2 = E ^ 2 := by
  have h57 := C57_energy g hg hr hz lib hlib htot hNe hNs H hH hsz T hT hTs locSpn exPath mode warmUp nSample interval np S burn hn hnp hS saved hrun
    S0 o ho a
  have hstored := fun γ hγ => C57_stored g hg hr hz lib hlib htot hNe hNs locSpn exPath (burn γ) warmUp nSample interval (saved γ) (hrun γ hγ)
  have hval : ∀ γ < groupCount np S, ∀ x ∈ saved γ, energyOf (psi g) (hamTerms g.p.Nsite H) (szList g x.2.c) = E := by
    intro γ hγ x hx
    obtain ⟨⟨st, ip, hk⟩, hne, hl⟩ := (hstored γ hγ).2 x hx
    have hc : Consistent g.p.Ne g.p.Nsite x.2.c.idx x.2.c.cfg x.2.c.num := hk.cons
    have pl := placed_sz (g := g) (c := x.2.c) hc
    rw [C72_local g hg H hH hsz locSpn hloc x.2.c hc hl]
    refine localValue_eigen _ _ (hamMat_hermitian hH hh) E hE _ ?_
    have ha := anti_conf (psi_anti hg) (show (szList g x.2.c).Nodup from pl.nodup) pl.range
    have hP := szSector_of hc hl
    intro h0
    apply hne
    rw [ha]
    simp only [stateOn, hP, if_true] at h0 ⊢
    rw [h0, mul_zero]
  have hlen : ∀ γ < groupCount np S, (saved γ).length = nSample := fun γ hγ => (nodup_saved (hstored γ hγ).1).2.1
  refine ⟨h57.2.1.trans (meanOf_const (groupCount_pos hnp hS) hn hlen hval), h57.2.2.trans (meanOf_const (groupCount_pos hnp hS) hn hlen ?_)⟩
  intro γ hγ x hx
  simp only [hval γ hγ x hx]
  rw [Complex.norm_real, Real.norm_eq_abs, sq_abs]
  push_cast
  rfl

end run

section runF
variable (g : GrnEnv) (hg : GrnOK g) (hf : g.flagRBM = false) (hz : NoZero g) (lib : SkLib ℂ) (hlib : LibOK lib) (htot : LibTotal lib)
  (hNe : 0 < g.p.Ne) (hNs : 0 < g.p.Nsite) (p : FPar) (hp : p.pf = g.p) (hlb : ∀ r < p.Nsite, p.locSpn r = 0 ∨ p.locSpn r = 1)
  (H : HamPar) (hH : HamIdx g.p.Nsite H) (T : GrnTab) (hloc : HamLocal g.p.Nsite p.locSpn H) (hh : HamHermitian H)
  (warmUp nSample interval np S : Nat) (burn : Nat → Bool)
  (hn : 0 < nSample) (hnp : 0 < np) (hS : 0 < S) (saved : Nat → List (Nat × FState SzMem))
  (hrun : ∀ γ < groupCount np S, StoredRunF g lib p (burn γ) warmUp nSample interval (saved γ))
  (S0 : Nat → EleStore) (o : Nat → Nat → MainOr FCfg) (ho : ∀ k s, MainOrOK H T (o k s)) (a : Nat → PhysAcc)
include hg hf hz hlib htot hNe hNs hp hlb hH hloc hh hn hnp hS hrun ho

/-- C72, general-Sz mode: if the trial state is an eigenstate of the Hamiltonian with eigenvalue `E`, one call of the sampler and of the measurement reports exactly
`Etot = E` and `Etot2 = E²` (variance zero), for every sequence of random numbers, number of samples, processes and threads. -/
theorem C72_eigenstate_fsz (E : ℝ) (hE : hamOf g H *ᵥ trialFsz g p.locSpn = (E : ℂ) • trialFsz g p.locSpn) :
    let avg := weightAverageWE np (fun k =>
      vmcMainCalF g H lib nSample (k % S) (groupSize np S (k / S)) (storeRunF g (saved (k / S)) (S0 k)) (o k) (a k))
    avg.etot = E ∧ avg.etot2 = E ^ 2 := by
  have h57 := C57_energy_fsz g hg hf hz lib hlib htot hNe hNs p hp hlb H hH T warmUp nSample interval np S burn hn hnp hS saved hrun
    S0 o ho a
  have hstored := fun γ hγ => C57_stored_fsz g hg hf hz lib hlib htot hNe hNs p hp hlb (burn γ) warmUp nSample interval (saved γ) (hrun γ hγ)
  have hval : ∀ γ < groupCount np S, ∀ x ∈ saved γ, energyOf (psi g) (hamTerms g.p.Nsite H) (fszList g x.2.c) = E := by
    intro γ hγ x hx
    obtain ⟨⟨st, ip, hk⟩, hne, hl⟩ := (hstored γ hγ).2 x hx
    have hc : ConsistentF (2 * g.p.Ne) g.p.Nsite x.2.c.idx x.2.c.spn x.2.c.cfg x.2.c.num := hk.cons
    have pl := placed_fsz (g := g) (c := x.2.c) hc
    rw [C72_local_fsz g hg H hH p.locSpn hloc x.2.c hc hl]
    refine localValue_eigen _ _ (hamMat_hermitian hH hh) E hE _ ?_
    have ha := anti_conf (psi_anti hg) (show (fszList g x.2.c).Nodup from pl.nodup) pl.range
    have hP := fszSector_of hc hl
    intro h0
    apply hne
    rw [ha]
    simp only [stateOn, hP, if_true] at h0 ⊢
    rw [h0, mul_zero]
  have hlen : ∀ γ < groupCount np S, (saved γ).length = nSample := fun γ hγ => (nodup_saved (hstored γ hγ).1).2.1
  refine ⟨h57.2.1.trans (meanOf_const (groupCount_pos hnp hS) hn hlen hval), h57.2.2.1.trans (meanOf_const (groupCount_pos hnp hS) hn hlen ?_)⟩
  intro γ hγ x hx
  simp only [hval γ hγ x hx]
  rw [Complex.norm_real, Real.norm_eq_abs, sq_abs]
  push_cast
  rfl

end runF

/-! ## A concrete eigenstate: two sites, one electron of either spin, no interaction -/

/-- pair wave function 1 on every pair of an up and a down orbital -/
noncomputable def dimEnv : GrnEnv := { exEnv with
  slt := fun k => if k = 2 ∨ k = 3 ∨ k = 6 ∨ k = 7 then 1 else if k = 8 ∨ k = 9 ∨ k = 12 ∨ k = 13 then -1 else 0
  st := ⟨fun _ => 1, fun k => if k = 1 then -1 else if k = 2 then 1 else 0⟩ }

theorem dimEnv_ok : GrnOK dimEnv where
  hq := rfl
  tab := exEnv_ok.tab
  skew := by
    intro k hk
    have hk : k < 1 := hk
    have : k = 0 := by omega
    subst this
    refine ⟨?_, ?_⟩
    · intro x y hx hy
      have hx : x < 4 := hx
      have hy : y < 4 := hy
      interval_cases x <;> interval_cases y <;> simp [dimEnv, exEnv, entry]
    · intro x hx
      have hx : x < 4 := hx
      interval_cases x <;> simp [dimEnv, exEnv, entry]

/-- hopping with amplitude 1 of both spins in both directions -/
noncomputable def dimHam : HamPar := { exHam with
  nCI := 0, nCO := 0, nTR := 4, pTR := fun _ => 1
  tr := fun i k => if k = 1 ∨ k = 3 then i / 2 else if k = 0 then i % 2 else (i + 1) % 2 }

theorem dimHam_idx : HamIdx 2 dimHam where
  ci := fun i hi => absurd hi (Nat.not_lt_zero i)
  co := fun i hi => absurd hi (Nat.not_lt_zero i)
  hu := fun i hi => absurd hi (Nat.not_lt_zero i)
  tr := by intro i hi; have hi : i < 4 := hi; simp [dimHam]; omega
  ph := fun i hi => absurd hi (Nat.not_lt_zero i)
  ex := fun i hi => absurd hi (Nat.not_lt_zero i)
  ia := fun i hi => absurd hi (Nat.not_lt_zero i)

theorem dimHam_sz : HamSzConserving dimHam := ⟨fun i hi => by simp [dimHam], fun i hi => absurd hi (Nat.not_lt_zero i)⟩

theorem dimHam_herm : HamHermitian dimHam where
  tr := ⟨fun i => if i % 2 = 0 then i + 1 else i - 1, by
    intro i hi
    have hi : i < 4 := hi
    interval_cases i <;> simp [dimHam]⟩
  ph := ⟨id, fun i hi => absurd hi (Nat.not_lt_zero i)⟩
  ia := ⟨id, fun i hi => absurd hi (Nat.not_lt_zero i)⟩

theorem dimHam_local : HamLocal 2 (fun _ => 0) dimHam := ⟨by simp, by simp, by simp⟩

theorem dim_confs : ∀ S : Conf 4, fixedSz 1 2 S → S.1 = {0, 2} ∨ S.1 = {0, 3} ∨ S.1 = {1, 2} ∨ S.1 = {1, 3} := by decide

theorem dim_energy (i j : Nat) (hi : i < 2) (hj : j < 2) : psi dimEnv [i, j + 2] ≠ 0 ∧ energyOf (psi dimEnv) (hamTerms 2 dimHam) [i, j + 2] = (-2 : ℝ) := by
  have c : corrSpec dimEnv = fun _ => 1 := by
    funext num
    simp [corrSpec, projSpec, dimEnv, exEnv, logCorr]
  interval_cases i <;> interval_cases j <;> constructor <;>
    simp only [energyOf, hamTerms, dimHam, exHam, List.range_succ, List.range_zero, List.flatMap_cons, List.flatMap_nil,
      List.nil_append, List.append_nil, termTransfer, matrixElement, psi, c, List.cons_append] <;>
    simp [actAll, Op.act, dimEnv, exEnv, overlap, pf, pfN, altSum, entry, waveFunction] <;> norm_num

/-- it is an eigenstate with eigenvalue `-2` -/
theorem dim_eigen : hamOf dimEnv dimHam *ᵥ trialSz dimEnv (fun _ => 0) = ((-2 : ℝ) : ℂ) • trialSz dimEnv (fun _ => 0) := by
  refine eigen_of_const (psi dimEnv) (psi_anti dimEnv_ok) _ (hamTerms_orb dimHam_idx) _ (closed_sz dimEnv dimHam dimHam_idx dimHam_sz _ dimHam_local)
    (hamMat_hermitian dimHam_idx dimHam_herm) (-2) (fun S hS => ?_)
  have so : ∀ l : List Nat, l.Nodup → l.insertionSort (· ≤ ·) = l → S.1 = l.toFinset → S.1.sort (· ≤ ·) = l := by
    intro l h1 h2 h3
    rw [h3, sort_toFinset_eq h1, h2]
  rcases dim_confs S hS.1 with h | h | h | h
  · rw [so [0, 2] (by decide) (by decide) (by rw [h]; decide)]; exact dim_energy 0 0 (by decide) (by decide)
  · rw [so [0, 3] (by decide) (by decide) (by rw [h]; decide)]; exact dim_energy 0 1 (by decide) (by decide)
  · rw [so [1, 2] (by decide) (by decide) (by rw [h]; decide)]; exact dim_energy 1 0 (by decide) (by decide)
  · rw [so [1, 3] (by decide) (by decide) (by rw [h]; decide)]; exact dim_energy 1 1 (by decide) (by decide)

theorem dim_ne : trialSz dimEnv (fun _ => 0) ≠ 0 := by
  intro h
  have hM : ∀ z ∈ [0, 2], z < 2 * dimEnv.p.Nsite := by decide
  have h0 := congrFun h (confOf [0, 2] hM)
  have hs : szSector dimEnv (fun _ => 0) (confOf [0, 2] hM) := ⟨⟨rfl, rfl⟩, fun r hr q => absurd q (by simp)⟩
  have e : (confOf (M := 2 * dimEnv.p.Nsite) [0, 2] hM).1.sort (· ≤ ·) = [0, 2] := (sort_toFinset_eq (l := [0, 2]) (by decide)).trans (by decide)
  simp only [trialSz, stateOn, hs, if_true, e] at h0
  exact (dim_energy 0 0 (by decide) (by decide)).1 h0

/-- the example is in the scope of the variational theorem -/
example : ∃ E : ℝ, psiMean (psi dimEnv) (szSector dimEnv fun _ => 0) (energyOf (psi dimEnv) (hamTerms dimEnv.p.Nsite dimHam)) = E ∧
    ∃ (lam : ℝ) (v : Conf (2 * dimEnv.p.Nsite) → ℂ), v ≠ 0 ∧ (∀ x, ¬ szSector dimEnv (fun _ => 0) x → v x = 0) ∧
      hamOf dimEnv dimHam *ᵥ v = (lam : ℂ) • v ∧ lam ≤ E :=
  C72_variational dimEnv dimEnv_ok dimHam dimHam_idx dimHam_sz _ dimHam_local dimHam_herm dim_ne

theorem dimSampled : Sampled dimEnv exCfg 1 (fun _ => 0) (fun _ => 0) where
  cons := exSampled.cons
  pf := by
    intro k hk
    have hk : k < 1 := hk
    have : k = 0 := by omega
    subst this
    refine ⟨?_, ?_⟩
    · simp [pfOf, pf, pfN, altSum, dimEnv, exEnv, exCfg, occSz, entry, List.range_succ]
    · intro i hi j hj
      have hi : i < 2 := hi
      have hj : j < 2 := hj
      interval_cases i <;> interval_cases j <;> simp [dimEnv, exEnv, exCfg, occSz, entry, Finset.sum_range_succ]
  hip := by simp [amplitude, pfOf, pf, pfN, altSum, dimEnv, exEnv, exCfg, occSz, entry, List.range_succ]
  hne := by norm_num
  proj := fun k hk => absurd hk (Nat.not_lt_zero k)
  rbm := fun h => absurd h (by decide)

theorem dimChain (lib : SkLib ℂ) (hlib : LibOK lib) (htot : LibTotal lib) : ∃ saved, StoredRun dimEnv lib (fun _ => 0) 0 false 0 2 1 saved := by
  obtain ⟨b, hb, hne⟩ := start_of_kept dimEnv_ok hlib htot ⟨_, _, dimSampled⟩ ⟨fun _ => 0, fun _ => 0⟩
  refine ⟨_, ⟨exCfg, fun _ => 0, fun _ => 0, _, b, 1, fun _ _ => 0, fun _ b => (b.ps, b.ip), List.replicate 32 0, [], ⟨exCfg, b, 0, 4, 0, 0, 0⟩,
    dimSampled.cons, ?_, fun i hi => absurd hi (Nat.not_lt_zero i), hb, hne, rfl⟩⟩
  intro r hr h; simp at h

/-- there are runs of the example on three processes in groups of two, and each reports the energy `-2` with `Etot2 = 4` -/
example (lib : SkLib ℂ) (hlib : LibOK lib) (htot : LibTotal lib) (S0 : Nat → EleStore) (j : Nat → EleCfg) (a : Nat → PhysAcc) :
    (∃ saved : Nat → List (Nat × SState SzMem), ∀ γ, StoredRun dimEnv lib (fun _ => 0) 0 false 0 2 1 (saved γ)) ∧
    ∀ saved : Nat → List (Nat × SState SzMem), (∀ γ, StoredRun dimEnv lib (fun _ => 0) 0 false 0 2 1 (saved γ)) →
    let avg := weightAverageWE 3 (fun k => vmcMainCal dimEnv dimHam ⟨0, fun _ _ => 0, 0, fun _ _ => 0, 0, fun _ _ => 0⟩ lib 0 2 (k % 2)
      (groupSize 3 2 (k / 2)) (storeRun dimEnv (saved (k / 2)) (S0 k))
      (fun _ => ⟨fun _ i => i % 2, [1, 0], j, fun _ _ => 0, [0], [0], j, ⟨fun _ => 0, fun _ => 0⟩, none, id⟩) (a k))
    avg.etot = -2 ∧ avg.etot2 = 4 := by
  constructor
  · obtain ⟨saved, h⟩ := dimChain lib hlib htot
    exact ⟨fun _ => saved, fun _ => h⟩
  intro saved hrun
  have m : ∀ i, i % 2 < 2 := fun i => Nat.mod_lt _ (by decide)
  have h := C72_eigenstate dimEnv dimEnv_ok (fun h => absurd h (by decide)) (C57_noZero_one _ rfl) lib hlib htot (by decide) (by decide) dimHam
    dimHam_idx dimHam_sz ⟨0, fun _ _ => 0, 0, fun _ _ => 0, 0, fun _ _ => 0⟩
    ⟨fun i hi => absurd hi (Nat.not_lt_zero i), fun i hi => absurd hi (Nat.not_lt_zero i), fun i hi => absurd hi (Nat.not_lt_zero i)⟩
    ⟨fun i hi => absurd hi (Nat.not_lt_zero i), fun i hi => absurd hi (Nat.not_lt_zero i)⟩
    (fun _ => 0) dimHam_local dimHam_herm 0 0 0 2 1 3 2 (fun _ => false) (by decide) (by decide) (by decide) saved (fun γ _ => hrun γ) S0
    (fun _ _ => ⟨fun _ i => i % 2, [1, 0], j, fun _ _ => 0, [0], [0], j, ⟨fun _ => 0, fun _ => 0⟩, none, id⟩)
    (fun _ _ => ⟨2, 1, ⟨fun i _ => m i, fun i _ => m i, fun i _ => m i, fun i _ => m i, fun i _ => m i, fun i _ => m i, fun i _ => m i⟩,
      show [1, 0].Perm (List.range 2) by decide,
      ⟨fun _ _ => Nat.one_pos, fun _ _ => Nat.one_pos, fun _ _ => Nat.one_pos, fun _ _ => Nat.one_pos, fun _ _ => Nat.one_pos⟩,
      show [0].Perm (List.range 1) by decide, show [0].Perm (List.range 1) by decide⟩) a (-2) dim_eigen
  refine ⟨h.1.trans (by push_cast; rfl), h.2.trans (by push_cast; norm_num)⟩

end MVMC
