import Verif.Proof.CalGrn
import Verif.Props.LocGrn

/-! # C27 and C49: local energy and measured Green functions -/
namespace MVMC
open Spec Finset

/-- C27: `CalculateHamiltonian` returns `<ψ|H|x>/<ψ|x>` for the Hamiltonian of the definition files — whatever the number of
threads, the division of the loops among them, the order of the reduction and the old content of the private tables. -/
theorem C27_local_energy (g : GrnEnv) (hg : GrnOK g) (hr : g.flagRBM = true → GrnRBM g) (c : EleCfg) (ip : ℂ) (projCnt : Arr)
    (rbmCnt : Nat → ℂ) (h : Sampled g c ip projCnt rbmCnt) (H : HamPar) (hH : HamIdx g.p.Nsite H) (hsz : HamSzConserving H)
    (T : Nat) (sched : Nat → Nat → Nat) (hs : SchedOK H T sched) (order : List Nat) (ho : order.Perm (List.range T))
    (junk : Nat → EleCfg) :
    calculateHamiltonian g H sched order junk ip projCnt rbmCnt c = energyOf (psi g) (hamTerms g.p.Nsite H) (szList g c) :=
  calculateHamiltonian_val hg hr h hH hsz hs ho junk

/-- C27: the division into threads does not change the result. -/
theorem C27_thread_independent (g : GrnEnv) (hg : GrnOK g) (hr : g.flagRBM = true → GrnRBM g) (c : EleCfg) (ip : ℂ) (projCnt : Arr)
    (rbmCnt : Nat → ℂ) (h : Sampled g c ip projCnt rbmCnt) (H : HamPar) (hH : HamIdx g.p.Nsite H) (hsz : HamSzConserving H)
    (T T' : Nat) (sched sched' : Nat → Nat → Nat) (hs : SchedOK H T sched) (hs' : SchedOK H T' sched') (order order' : List Nat)
    (ho : order.Perm (List.range T)) (ho' : order'.Perm (List.range T')) (junk junk' : Nat → EleCfg) :
    calculateHamiltonian g H sched order junk ip projCnt rbmCnt c = calculateHamiltonian g H sched' order' junk' ip projCnt rbmCnt c := by
  rw [calculateHamiltonian_val hg hr h hH hsz hs ho, calculateHamiltonian_val hg hr h hH hsz hs' ho']

/-- C27, general-Sz mode: spin-flip transfers and arbitrary four-spin interactions included. -/
theorem C27_local_energy_fsz (g : GrnEnv) (hg : GrnOK g) (c : FCfg) (ip : ℂ) (projCnt : Arr) (h : SampledF g c ip projCnt)
    (H : HamPar) (hH : HamIdx g.p.Nsite H) (T : Nat) (sched : Nat → Nat → Nat) (hs : SchedOK H T sched) (order : List Nat)
    (ho : order.Perm (List.range T)) (junk : Nat → FCfg) :
    calculateHamiltonianF g H sched order junk ip projCnt c = energyOf (psi g) (hamTerms g.p.Nsite H) (fszList g c) :=
  calculateHamiltonianF_val hg h hH hs ho junk

/-- C27: `CalculateHamiltonian0` is the contribution of the number-operator terms. -/
theorem C27_diagonal (g : GrnEnv) (hg : GrnOK g) (hr : g.flagRBM = true → GrnRBM g) (c : EleCfg) (ip : ℂ) (projCnt : Arr)
    (rbmCnt : Nat → ℂ) (h : Sampled g c ip projCnt rbmCnt) (H : HamPar) (hH : HamIdx g.p.Nsite H)
    (T : Nat) (sched : Nat → Nat → Nat) (hs : SchedOK H T sched) (order : List Nat) (ho : order.Perm (List.range T)) :
    calculateHamiltonian0 g.p.Nsite H sched order c.num = energyOf (psi g) (hamDiag g.p.Nsite H) (szList g c) :=
  calculateHamiltonian0_val hg (placed_sz (show Cons g.sp c from h.cons)) (h.list_ne hg hr) hH hs ho

/-- C27: in the Sz-conserving mode the first spin column of a transfer is never read: a spin-flip transfer is silently taken as
spin conserving (no reader rejects it), so the hypothesis `HamSzConserving` cannot be dropped. -/
theorem C27_transfer_spin_ignored (g : GrnEnv) (H : HamPar) (s' : Nat) (sched : Nat → Nat → Nat) (order : List Nat)
    (junk : Nat → EleCfg) (ip : ℂ) (projCnt : Arr) (rbmCnt : Nat → ℂ) (c : EleCfg) :
    calculateHamiltonian g { H with tr := fun i k => if k = 1 then s' else H.tr i k } sched order junk ip projCnt rbmCnt c
      = calculateHamiltonian g H sched order junk ip projCnt rbmCnt c := rfl

/-- C27: `CalculateDoubleOccupation` counts the doubly occupied sites, for every division into threads. -/
theorem C27_double_occupation (N : Nat) (num : Arr) (hb : ∀ x < 2 * N, num x = 0 ∨ num x = 1) (T : Nat) (sched : Nat → Nat)
    (hs : ∀ i < N, sched i < T) (order : List Nat) (ho : order.Perm (List.range T)) :
    calculateDoubleOccupation N sched order num = (((range N).filter (fun r => num r = 1 ∧ num (r + N) = 1)).card : ℝ) := by
  have key : ((calculateDoubleOccupation N sched order num : ℝ) : ℂ)
      = ∑ r ∈ range N, (((num r * num (r + N) : Int) : ℝ) : ℂ) := by
    have e : ∀ τ, ((ompFor sched τ N (fun e ri => e + ((num ri * num (ri + N) : Int) : ℝ)) 0 : ℝ) : ℂ)
        = ∑ i ∈ range N, if sched i = τ then (((num i * num (i + N) : Int) : ℝ) : ℂ) else 0 := by
      intro τ
      have q : ∀ n (z : ℝ), ((ompFor sched τ n (fun e ri => e + ((num ri * num (ri + N) : Int) : ℝ)) z : ℝ) : ℂ)
          = ompFor sched τ n (fun e ri => e + (((num ri * num (ri + N) : Int) : ℝ) : ℂ)) z := by
        intro n
        unfold ompFor
        induction n with
        | zero => intro z; rfl
        | succ n ih =>
          intro z
          rw [List.range_succ, List.foldl_append, List.foldl_append]
          simp only [List.foldl_cons, List.foldl_nil]
          by_cases r : sched n = τ
          · rw [if_pos r, if_pos r, Complex.ofReal_add, ih]
          · rw [if_neg r, if_neg r, ih]
      rw [q]
      have := ompFor_acc (E := fun e : ℂ => e) (s := sched) (τ := τ) (n := N)
        (body := fun e ri => e + (((num ri * num (ri + N) : Int) : ℝ) : ℂ)) (v := fun i => (((num i * num (i + N) : Int) : ℝ) : ℂ))
        (fun i _ e => rfl) ((0 : ℝ) : ℂ)
      rw [this]; simp
    have f : ∀ (l : List Nat) (z : ℝ), ((l.foldl (fun e τ => e + ompFor sched τ N
        (fun e ri => e + ((num ri * num (ri + N) : Int) : ℝ)) 0) z : ℝ) : ℂ)
        = l.foldl (fun e τ => e + ∑ i ∈ range N, if sched i = τ then (((num i * num (i + N) : Int) : ℝ) : ℂ) else 0) (z : ℂ) := by
      intro l
      induction l with
      | nil => intro z; rfl
      | cons a l ih => intro z; rw [List.foldl_cons, List.foldl_cons, ih, Complex.ofReal_add, e]
    unfold calculateDoubleOccupation
    rw [f]
    show order.foldl _ ((0 : ℝ) : ℂ) = _
    rw [Complex.ofReal_zero, reduce_sum ho, thread_sum hs]
  have : (calculateDoubleOccupation N sched order num : ℝ) = ∑ r ∈ range N, ((num r * num (r + N) : Int) : ℝ) := by
    have := key
    rw [← Complex.ofReal_sum] at this
    exact Complex.ofReal_injective this
  rw [this, Finset.card_filter, Nat.cast_sum]
  refine sum_congr rfl (fun r hr => ?_)
  have hr := mem_range.mp hr
  rcases hb r (by omega) with a | a <;> rcases hb (r + N) (by omega) with b | b <;> simp [a, b]

/-- C27: `CalculateSz_fsz` is the magnetisation of the occupation table. -/
theorem C27_sz (N : Nat) (num : Arr) : calculateSzF N num = ((magnetisation N num : Int) : ℝ) := by
  unfold calculateSzF magnetisation spinCount
  induction N with
  | zero => simp
  | succ n ih =>
    have gen : ∀ (m k : Nat), (List.range m).foldl (fun z ri => z + ((num ri - num (ri + k) : Int) : ℝ)) 0
        = ((((List.range m).map (fun ri => num (ri + 0 * k))).sum - ((List.range m).map (fun ri => num (ri + 1 * k))).sum : Int) : ℝ) := by
      intro m k
      induction m with
      | zero => simp
      | succ m ih =>
        rw [List.range_succ, List.foldl_append, ih]
        simp only [List.foldl_cons, List.foldl_nil, List.map_append, List.map_cons, List.map_nil, List.sum_append, List.sum_cons,
          List.sum_nil]
        push_cast
        ring_nf
    exact gen _ _

/-! ## measured Green functions -/

/-- C49: `CalculateGreenFunc` adds `w·<c†c>`, `w·<c†cc†c>` and the products of one-body functions to the measured arrays, for
every division into threads and every order in which they run. -/
theorem C49_measured (g : GrnEnv) (hg : GrnOK g) (hr : g.flagRBM = true → GrnRBM g) (c : EleCfg) (ip : ℂ) (projCnt : Arr)
    (rbmCnt : Nat → ℂ) (h : Sampled g c ip projCnt rbmCnt) (T : GrnTab) (hT : GrnIdx g.p.Nsite T) (hz : GrnSz T) (nT : Nat)
    (sched : Nat → Nat → Nat) (hs : GrnSched T nT sched) (order order' : List Nat) (ho : order.Perm (List.range nT))
    (ho' : order'.Perm (List.range nT)) (junk : Nat → EleCfg) (w : ℝ) (a : GrnAcc) :
    Measured g.p.Nsite T (psi g) (szList g c) w a (calculateGreenFunc g T sched order order' junk w ip projCnt rbmCnt c a) :=
  calculateGreenFunc_val hg hr h hT hz hs ho ho' junk w a

/-- C49, general-Sz mode, for executions in which no thread stores the shared loop variables between another thread's fetch and
evaluation (in particular for one thread). Missing: all other executions, which can give wrong values, see
`C49_fsz_race_witness`. -/
theorem C49_measured_fsz_partial (g : GrnEnv) (hg : GrnOK g) (c : FCfg) (ip : ℂ) (projCnt : Arr) (h : SampledF g c ip projCnt)
    (T : GrnTab) (hT : GrnIdx g.p.Nsite T) (nT : Nat) (sched : Nat → Nat → Nat) (hs : GrnSched T nT sched) (order' : List Nat)
    (ho' : order'.Perm (List.range nT)) (its its' : List (Nat × Nat)) (hi : (its.map (·.2)).Perm (List.range T.n1))
    (hi' : (its'.map (·.2)).Perm (List.range T.nDC)) (junk : Nat → FCfg) (t₀ u₀ v₀ : Nat) (w : ℝ) (a : GrnAcc) :
    Measured g.p.Nsite T (psi g) (fszList g c) w a (calculateGreenFuncF g T sched
      (its.flatMap (fun x => [GrnEv.fetch1 x.1 x.2, .eval1 x.1 x.2]) ++ its'.flatMap (fun x => [GrnEv.fetch2 x.1 x.2, .eval2 x.1 x.2]))
      order' junk t₀ u₀ v₀ w ip projCnt c a) :=
  calculateGreenFuncF_val hg h hT w hs ho' hi hi' junk t₀ u₀ v₀ a

/-- C49: one thread executes exactly such a run. -/
theorem C49_one_thread_run (T : GrnTab) : GrnRun T (fun _ _ => 0) 1
    (((List.range T.n1).map (fun i => (0, i))).flatMap (fun x => [GrnEv.fetch1 x.1 x.2, .eval1 x.1 x.2]) ++
      ((List.range T.nDC).map (fun i => (0, i))).flatMap (fun x => [GrnEv.fetch2 x.1 x.2, .eval2 x.1 x.2])) := by
  have hmem : ∀ e ∈ (((List.range T.n1).map (fun i => (0, i))).flatMap (fun x => [GrnEv.fetch1 x.1 x.2, .eval1 x.1 x.2]) ++
      ((List.range T.nDC).map (fun i => (0, i))).flatMap (fun x => [GrnEv.fetch2 x.1 x.2, .eval2 x.1 x.2])), e.thread = 0 := by
    intro e he
    simp only [List.mem_append, List.mem_flatMap, List.mem_map, List.mem_range] at he
    rcases he with ⟨x, ⟨i, _, rfl⟩, hx⟩ | ⟨x, ⟨i, _, rfl⟩, hx⟩ <;> simp at hx <;> rcases hx with rfl | rfl <;> rfl
  refine ⟨fun e he => by rw [hmem e he]; decide, fun τ hτ => ?_⟩
  have : τ = 0 := by omega
  subst this
  rw [List.filter_eq_self.mpr (fun e he => by simp [hmem e he])]
  unfold grnProgram
  rw [List.filter_eq_self.mpr (fun _ _ => by simp), List.filter_eq_self.mpr (fun _ _ => by simp)]
  simp only [List.flatMap_map]

/-- two one-body lines: `c†_{0↑}c_{0↑}` and `c†_{0↑}c_{1↓}` -/
def raceTab : GrnTab where
  n1 := 2
  t1 := fun i k => if i = 0 then 0 else if k = 2 ∨ k = 3 then 1 else 0
  nDC := 0
  tDC := fun _ _ => 0
  n2 := 0
  t2 := fun _ _ => 0

/-- C49: with two threads `CalculateGreenFunc_fsz` can report a wrong value: the variable `t` of the first loop is shared, so
thread 1 may overwrite it between thread 0's fetch and use. Holds for every sample with an up electron on site 0. -/
theorem C49_fsz_race_witness (g : GrnEnv) (hg : GrnOK g) (hN : 2 ≤ g.p.Nsite) (c : FCfg) (ip : ℂ) (projCnt : Arr)
    (h : SampledF g c ip projCnt) (h0 : c.num 0 = 1) (junk : Nat → FCfg) (t₀ u₀ v₀ : Nat) (w : ℝ) (hw : w ≠ 0) (a : GrnAcc) :
    GrnIdx g.p.Nsite raceTab ∧ GrnSched raceTab 2 (fun _ i => i % 2) ∧
    GrnRun raceTab (fun _ i => i % 2) 2 [.fetch1 0 0, .fetch1 1 1, .eval1 0 0, .eval1 1 1] ∧
    ¬ Measured g.p.Nsite raceTab (psi g) (fszList g c) w a (calculateGreenFuncF g raceTab (fun _ i => i % 2)
      [.fetch1 0 0, .fetch1 1 1, .eval1 0 0, .eval1 1 1] [0, 1] junk t₀ u₀ v₀ w ip projCnt c a) := by
  refine ⟨⟨?_, fun i hi => absurd hi (Nat.not_lt_zero i), fun i hi => absurd hi (Nat.not_lt_zero i)⟩,
    ⟨fun i _ => Nat.mod_lt _ (by decide), fun i _ => Nat.mod_lt _ (by decide), fun i _ => Nat.mod_lt _ (by decide),
      fun i _ => Nat.mod_lt _ (by decide), fun i _ => Nat.mod_lt _ (by decide)⟩, ⟨by decide, ?_⟩, ?_⟩
  · intro i hi
    have hi : i < 2 := hi
    rcases (show i = 0 ∨ i = 1 by omega) with rfl | rfl <;> simp [raceTab] <;> omega
  · intro τ hτ
    rcases (show τ = 0 ∨ τ = 1 by omega) with rfl | rfl <;> decide
  · intro hm
    have h1 := hm.one 0 (by decide)
    have pl : Placed (2 * g.p.Ne) (2 * g.p.Nsite) (occF g.p.Nsite c.idx c.spn) c.num := placed_fsz (show ConsF g.fp c from h.cons)
    have nd : (fszList g c).Nodup := pl.nodup
    have rg : ∀ z ∈ fszList g c, z < 2 * g.p.Nsite := pl.range
    have hx : (0 : Nat) < 2 * g.p.Nsite := by omega
    have mem : 0 ∈ fszList g c := (pl.mem hx).mpr h0
    have hv : matrixElement (psi g) (grnOp1 g.p.Nsite raceTab 0) (fszList g c) = 1 := by
      have e : grnOp1 g.p.Nsite raceTab 0 = [.cr 0, .an 0] := by simp [grnOp1, raceTab]
      rw [e, matrixElement_one, ov1_same (psi_anti hg) hx nd rg, if_pos mem]
      have : psi g (fszList g c) ≠ 0 := h.list_ne hg
      simp [this]
    rw [hv] at h1
    have hmy : (privF g c (junk 0)).num 0 = 1 := by
      show privCopy _ _ _ 0 = 1
      rw [privCopy_at _ _ _ hx, h0]
    have hev : (greenFunc1F2 g 0 0 0 1 ip projCnt (privF g c (junk 0))).1 = 0 := by
      unfold greenFunc1F2
      simp only [Nat.zero_mul, Nat.add_zero]
      rw [if_pos (Or.inl hmy)]
    unfold calculateGreenFuncF at h1
    rw [accF_threads raceTab _ w [0, 1] (by decide)] at h1
    simp only [] at h1
    rw [if_pos ⟨by decide, by decide⟩] at h1
    have hl : (List.foldl (grnStepF g raceTab w ip projCnt) ⟨t₀, u₀, v₀, fun τ => privF g c (junk τ), a⟩
        [GrnEv.fetch1 0 0, .fetch1 1 1, .eval1 0 0, .eval1 1 1]).acc.loc1 0 = 0 := by
      simp [List.foldl, grnStepF, raceTab, setC, hev]
    have hp : (List.foldl (grnStepF g raceTab w ip projCnt) ⟨t₀, u₀, v₀, fun τ => privF g c (junk τ), a⟩
        [GrnEv.fetch1 0 0, .fetch1 1 1, .eval1 0 0, .eval1 1 1]).acc.phys1 0 = a.phys1 0 := by
      simp [List.foldl, grnStepF]
    rw [hl, hp] at h1
    have : (w : ℂ) = 0 := by linear_combination -h1
    exact hw (by exact_mod_cast this)

/-! ## a concrete case -/

/-- `V = 5` between the sites, `U = 7`, a transfer of amplitude 1 of the up electron from site 0 to site 1 -/
noncomputable def exHam : HamPar where
  nCI := 2
  ci := fun i => i
  pCI := fun _ => 7
  nCO := 1
  co := fun _ k => k
  pCO := fun _ => 5
  nHU := 0
  hu := fun _ _ => 0
  pHU := fun _ => 0
  nTR := 1
  tr := fun _ k => if k = 0 then 1 else 0
  pTR := fun _ => 1
  nPH := 0
  ph := fun _ _ => 0
  pPH := fun _ => 0
  nEX := 0
  ex := fun _ _ => 0
  pEX := fun _ => 0
  nIA := 0
  ia := fun _ _ => 0
  pIA := fun _ => 0

/-- two threads, reduction in the order 1, 0: the local energy of the example is `5 + 3i` -/
example (junk : Nat → EleCfg) :
    calculateHamiltonian exEnv exHam (fun _ i => i % 2) [1, 0] junk 2 (fun _ => 0) (fun _ => 0) exCfg = 5 + 3 * Complex.I := by
  have m : ∀ i, i % 2 < 2 := fun i => Nat.mod_lt _ (by decide)
  rw [C27_local_energy exEnv exEnv_ok (fun h => absurd h (by decide)) exCfg 2 _ _ exSampled exHam ⟨?_, ?_, ?_, ?_, ?_, ?_, ?_⟩ ⟨?_, ?_⟩ 2
    (fun _ i => i % 2) ⟨fun i _ => m i, fun i _ => m i, fun i _ => m i, fun i _ => m i, fun i _ => m i, fun i _ => m i, fun i _ => m i⟩
    [1, 0] (by decide)]
  · have hl : szList exEnv exCfg = [0, 3] := by decide
    have c : corrSpec exEnv = fun _ => 1 := by
      funext num
      simp [corrSpec, projSpec, exEnv, logCorr]
    have e2 : (starRingEnd ℂ) 2 = 2 := Complex.conj_ofReal 2
    have e6 : (starRingEnd ℂ) 6 = 6 := Complex.conj_ofReal 6
    rw [hl]
    simp only [energyOf, hamTerms, exHam, List.range_succ, List.range_zero, List.flatMap_cons, List.flatMap_nil,
      List.nil_append, List.append_nil, termCoulombIntra, termCoulombInter, termTransfer, numOp, matrixElement, psi, c, List.cons_append]
    simp [actAll, Op.act, exEnv, overlap, pf, pfN, altSum, entry, waveFunction, e2, e6]
    ring
  · intro i hi; exact hi
  · intro i hi; exact ⟨show 0 < 2 by decide, show 1 < 2 by decide⟩
  · intro i hi; exact absurd hi (Nat.not_lt_zero i)
  · intro i hi; exact ⟨show 1 < 2 by decide, show 0 < 2 by decide, show 0 < 2 by decide, show 0 < 2 by decide⟩
  · intro i hi; exact absurd hi (Nat.not_lt_zero i)
  · intro i hi; exact absurd hi (Nat.not_lt_zero i)
  · intro i hi; exact absurd hi (Nat.not_lt_zero i)
  · intro i hi; rfl
  · intro i hi; exact absurd hi (Nat.not_lt_zero i)

/-- the same sample in general-Sz form -/
def exFCfg : FCfg where
  idx := fun k => if k = 0 then 0 else 1
  spn := fun k => if k = 0 then 0 else 1
  cfg := fun k => if k = 0 then 0 else if k = 3 then 1 else -1
  num := fun k => if k = 0 then 1 else if k = 3 then 1 else 0

theorem exSampledF : SampledF exEnv exFCfg 2 (fun _ => 0) where
  cons := by
    constructor
    · intro m hm
      have hm : m < 2 := hm
      rcases (show m = 0 ∨ m = 1 by omega) with rfl | rfl
      · exact ⟨0, by decide, 0, by decide, by simp [exFCfg], by simp [exFCfg], by simp [exFCfg]⟩
      · exact ⟨1, by decide, 1, by decide, by simp [exFCfg], by simp [exFCfg], by simp [exFCfg, exEnv]⟩
    · intro s hs r hr
      have hr : r < 2 := hr
      rcases (show s = 0 ∨ s = 1 by omega) with rfl | rfl <;> rcases (show r = 0 ∨ r = 1 by omega) with rfl | rfl <;>
        simp [exFCfg, exEnv]
      exact ⟨1, by decide, by decide, by decide⟩
  pf := by
    intro k hk
    have hk : k < 1 := hk
    have : k = 0 := by omega
    subst this
    refine ⟨?_, ?_⟩
    · simp [pfOf, pf, pfN, altSum, exEnv, exFCfg, occF, entry, List.range_succ]
    · intro i hi j hj
      have hi : i < 2 := hi
      have hj : j < 2 := hj
      rcases (show i = 0 ∨ i = 1 by omega) with rfl | rfl <;> rcases (show j = 0 ∨ j = 1 by omega) with rfl | rfl <;>
        simp [exEnv, exFCfg, occF, entry, Finset.sum_range_succ]
  hip := by simp [amplitude, pfOf, pf, pfN, altSum, exEnv, exFCfg, occF, entry, List.range_succ]
  hne := by norm_num
  proj := fun k hk => absurd hk (Nat.not_lt_zero k)
  noRBM := rfl

/-- the race on a concrete sample -/
example (junk : Nat → FCfg) (a : GrnAcc) :
    ¬ Measured 2 raceTab (psi exEnv) (fszList exEnv exFCfg) 1 a (calculateGreenFuncF exEnv raceTab (fun _ i => i % 2)
      [.fetch1 0 0, .fetch1 1 1, .eval1 0 0, .eval1 1 1] [0, 1] junk 0 0 0 1 2 (fun _ => 0) exFCfg a) :=
  (C49_fsz_race_witness exEnv exEnv_ok (by decide) exFCfg 2 _ exSampledF rfl junk 0 0 0 1 one_ne_zero a).2.2.2

end MVMC
