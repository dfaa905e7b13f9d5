import Verif.Proof.RanksChain
import Verif.Props.PfUpdate

/-!
# C66: the processes that share one Markov chain

`VMCMakeSample` is executed by all processes of the communicator `comm1`. Each of them has the Pfaffians of its share of the projections
only, draws its own random numbers and decides about acceptance by itself; they communicate by `MPI_Allreduce` of the inner product and of the status
of the start configuration. `runRanks` is the joint execution: it ends in `mismatch` when the processes do not all call the same
collective operation (in reality: a deadlock or a wrong message).
-/
namespace MVMC
open Spec

section any
variable {δ ρ π K : Type} [Field K] {n : Nat} (L : Fin (n + 1) → LocalOps ρ π K) (S : ShOps δ K) (p : SamplerPar)

/-- C66: whatever the processes compute locally, with equal random numbers and equal start data they never wait for different operations,
and they end with the same electron configuration, counts, inner product, samples and remaining random numbers. -/
theorem C66_lockstep (burn : Bool) (warmUp nSample interval : Nat) (bc : EleCfg) (bcnt : δ) (loc : Fin (n + 1) → ρ) (r : List Nat) :
    runRanks (fun i => sampleR (n + 1) (L i) S p burn warmUp nSample interval bc bcnt (loc i) r) ≠ .mismatch ∧
    ∀ as, runRanks (fun i => sampleR (n + 1) (L i) S p burn warmUp nSample interval bc bcnt (loc i) r) = .done as →
      ∀ i j, sharedOut (as i) = sharedOut (as j) := by
  rw [run_sample]
  cases sampleG L S p burn warmUp nSample interval bc bcnt loc r with
  | stuck => exact ⟨fun h => (by cases h), fun as h => (by cases h)⟩
  | abort => exact ⟨fun h => (by cases h), fun as h => (by cases h)⟩
  | ok x =>
    refine ⟨fun h => (by cases h), fun as h i j => ?_⟩
    cases h
    simp only [sharedOut, List.map_map]
    rfl

omit [Field K] in
theorem makeInitG_cons (hNe : 0 < p.Ne) (hNs : 0 < p.Nsite) : ∀ (left : Nat) (loc : Fin (n + 1) → ρ) (r : List Nat) {x},
    makeInitG L p left loc r = .ok x → Cons p x.1 ∧ LocalSingle p.Nsite p.locSpn x.1.num
  | 0, loc, r, x, h => by
    unfold makeInitG at h
    cases e : initialPass p r with
    | none => rw [e] at h; cases h
    | some y => rw [e] at h; cases h
  | left + 1, loc, r, x, h => by
    unfold makeInitG at h
    cases e : initialPass p r with
    | none => rw [e] at h; cases h
    | some y =>
      rw [e] at h
      dsimp only at h
      split at h
      · exact makeInitG_cons hNe hNs left _ _ h
      · cases h
        exact initialPass_ok hNe hNs e

theorem Res.bind_ok {α β : Type} {a : Res α} {f : α → Res β} {y : β} (h : a.bind f = .ok y) : ∃ x, a = .ok x ∧ f x = .ok y := by
  cases a with
  | ok x => exact ⟨x, rfl, h⟩
  | stuck => cases h
  | abort => cases h

theorem startG_cons (hNe : 0 < p.Ne) (hNs : 0 < p.Nsite) (burn : Bool) (bc : EleCfg) (bcnt : δ) (loc : Fin (n + 1) → ρ) (r : List Nat)
    (hb : burn = true → Cons p bc ∧ LocalSingle p.Nsite p.locSpn bc.num) {x} (h : startG L S p burn bc bcnt loc r = .ok x) :
    Cons p x.1.1 ∧ LocalSingle p.Nsite p.locSpn x.1.1.num := by
  unfold startG at h
  obtain ⟨y, h1, h2⟩ := Res.bind_ok h
  have hy : Cons p y.1 ∧ LocalSingle p.Nsite p.locSpn y.1.num := by
    cases burn with
    | true => cases h1; exact hb rfl
    | false =>
      obtain ⟨z, h3, h4⟩ := Res.bind_ok h1
      cases h4
      exact makeInitG_cons L p hNe hNs _ _ _ h3
  split at h2
  · cases h2; exact hy
  · obtain ⟨z, h3, h4⟩ := Res.bind_ok h2
    cases h4
    exact makeInitG_cons L p hNe hNs _ _ _ h3

/-- C66: every process stores, at the same indices, consistent configurations in which every local spin is singly occupied. -/
theorem C66_valid (hNe : 0 < p.Ne) (hNs : 0 < p.Nsite) (burn : Bool) (warmUp nSample interval : Nat) (bc : EleCfg) (bcnt : δ)
    (loc : Fin (n + 1) → ρ) (r : List Nat)
    (hb : burn = true → Consistent p.Ne p.Nsite bc.idx bc.cfg bc.num ∧ LocalSingle p.Nsite p.locSpn bc.num)
    (as : Fin (n + 1) → SState (RB δ ρ K) × List (Nat × SState (RB δ ρ K)) × List Nat)
    (h : runRanks (fun i => sampleR (n + 1) (L i) S p burn warmUp nSample interval bc bcnt (loc i) r) = .done as) (i : Fin (n + 1)) :
    (∀ x ∈ (as i).2.1, Consistent p.Ne p.Nsite x.2.c.idx x.2.c.cfg x.2.c.num ∧ LocalSingle p.Nsite p.locSpn x.2.c.num) ∧
    Consistent p.Ne p.Nsite (as i).1.c.idx (as i).1.c.cfg (as i).1.c.num ∧ LocalSingle p.Nsite p.locSpn (as i).1.c.num := by
  rw [run_sample] at h
  cases e : sampleG L S p burn warmUp nSample interval bc bcnt loc r with
  | stuck => rw [e] at h; cases h
  | abort => rw [e] at h; cases h
  | ok x =>
    rw [e] at h
    cases h
    unfold sampleG at e
    obtain ⟨y, h1, h2⟩ := Res.bind_ok e
    have ⟨hc, hl⟩ := startG_cons L S p hNe hNs burn bc bcnt loc r hb h1
    have hQ : QOK (groupHooks L S) p (fun _ _ => True) :=
      ⟨fun _ _ _ _ _ _ _ _ => trivial, fun _ _ _ _ _ _ _ _ _ _ _ _ _ => trivial, fun _ _ _ _ => trivial⟩
    cases ev : vmcMakeSample (groupHooks L S) p y.2.1 warmUp nSample interval y.1.1 y.1.2 y.2.2 with
    | none => rw [ev] at h2; cases h2
    | some z =>
      rw [ev] at h2
      cases h2
      have := outerLoop_inv hQ hNe hNs _ _ _ _ _ (st := ⟨y.1.1, y.1.2, 0, 0, 0, 0, 0⟩)
        ⟨hc, hl, trivial, Nat.zero_le _, Nat.le_refl _, Nat.le_refl _⟩ (by simp) ev
      refine ⟨fun a ha => ?_, this.1.cons, this.1.loc⟩
      obtain ⟨a', ha', rfl⟩ := List.mem_map.mp ha
      exact ⟨(this.2 a' ha').cons, (this.2 a' ha').loc⟩

end any

section exact
variable {δ K : Type} [Field K] {nqp : Nat} (p : SamplerPar) (lib : SkLib K) (slt w : Nat → K) (S : ShOps δ K)
  (hlib : LibOK lib) (htot : LibTotal lib) (hsk : ∀ q, q < nqp → SlaterSkew (2 * p.Nsite) slt q)
  (hnz : ∀ c d d' x u, Consistent p.Ne p.Nsite c.idx c.cfg c.num → S.accept d d' (fullAmp p slt w nqp c) x u = true →
    ∀ q, q < nqp → pfOf (entry (2 * p.Nsite) slt q) (2 * p.Ne) (occSz p.Ne p.Nsite c.idx) ≠ 0)
  (hNe : 0 < p.Ne) (hNs : 0 < p.Nsite) (burn : Bool) (warmUp nSample interval : Nat) (bc : EleCfg) (bcnt : δ) (r : List Nat)
  (hb : burn = true → Consistent p.Ne p.Nsite bc.idx bc.cfg bc.num ∧ LocalSingle p.Nsite p.locSpn bc.num ∧
    ∀ q, q < nqp → RegularAt p slt bc q)
include hlib htot hsk hnz hNe hNs hb

/-- C66: with the projections divided by `SplitLoop`, every process of the group runs the chain of the exact amplitudes over all projections.
`hnz`: a move is only accepted when the new Pfaffian of every projection is non-zero; `hb`: a burn sample is a consistent configuration with
invertible matrices. -/
theorem C66_same_chain_partial (n : Nat) (junk : Fin (n + 1) → EleCfg → PfState K → PfState K) (loc : Fin (n + 1) → PfState K) :
    mapRanks sharedOut (runRanks (fun i => sampleR (n + 1) (pfLocal p lib slt w (junk i) (splitLoop nqp i (n + 1))) S p burn warmUp nSample
      interval bc bcnt (loc i) r)) = everyRank (n + 1) (exactSample p slt w nqp S burn warmUp nSample interval bc bcnt r) :=
  sample_exact p lib slt w junk S hlib htot hsk hnz hNe hNs burn warmUp nSample interval bc bcnt loc r hb

/-- C66: the samples do not depend on the number of processes of the group. -/
theorem C66_process_count_partial (n m : Nat) (junk : Fin (n + 1) → EleCfg → PfState K → PfState K) (loc : Fin (n + 1) → PfState K)
    (junk' : Fin (m + 1) → EleCfg → PfState K → PfState K) (loc' : Fin (m + 1) → PfState K)
    (as : Fin (n + 1) → SState (RB δ (PfState K) K) × List (Nat × SState (RB δ (PfState K) K)) × List Nat)
    (h : runRanks (fun i => sampleR (n + 1) (pfLocal p lib slt w (junk i) (splitLoop nqp i (n + 1))) S p burn warmUp nSample
      interval bc bcnt (loc i) r) = .done as) :
    ∃ as', runRanks (fun i => sampleR (m + 1) (pfLocal p lib slt w (junk' i) (splitLoop nqp i (m + 1))) S p burn warmUp nSample
      interval bc bcnt (loc' i) r) = .done as' ∧ ∀ i j, sharedOut (as' j) = sharedOut (as i) := by
  have h1 := C66_same_chain_partial p lib slt w S hlib htot hsk hnz hNe hNs burn warmUp nSample interval bc bcnt r hb n junk loc
  have h2 := C66_same_chain_partial p lib slt w S hlib htot hsk hnz hNe hNs burn warmUp nSample interval bc bcnt r hb m junk' loc'
  rw [h] at h1
  cases e : exactSample p slt w nqp S burn warmUp nSample interval bc bcnt r with
  | stuck => rw [e] at h1; cases h1
  | abort => rw [e] at h1; cases h1
  | ok z =>
    rw [e] at h1 h2
    cases e2 : runRanks (fun i => sampleR (m + 1) (pfLocal p lib slt w (junk' i) (splitLoop nqp i (m + 1))) S p burn warmUp nSample
        interval bc bcnt (loc' i) r) with
    | stuck => rw [e2] at h2; cases h2
    | abort => rw [e2] at h2; cases h2
    | mismatch => rw [e2] at h2; cases h2
    | done as' =>
      rw [e2] at h2
      refine ⟨as', rfl, fun i j => ?_⟩
      simp only [mapRanks, everyRank, JOut.done.injEq] at h1 h2
      rw [congrFun h1 i, congrFun h2 j]

/-- C66: at the end and in every stored sample, every process holds exact Pfaffians and inverses of its share and the exact amplitude. -/
theorem C66_amplitude_partial (n : Nat) (junk : Fin (n + 1) → EleCfg → PfState K → PfState K) (loc : Fin (n + 1) → PfState K)
    (as : Fin (n + 1) → SState (RB δ (PfState K) K) × List (Nat × SState (RB δ (PfState K) K)) × List Nat)
    (h : runRanks (fun i => sampleR (n + 1) (pfLocal p lib slt w (junk i) (splitLoop nqp i (n + 1))) S p burn warmUp nSample
      interval bc bcnt (loc i) r) = .done as) (i : Fin (n + 1)) :
    let ok := fun st : SState (RB δ (PfState K) K) =>
      PfOK (2 * p.Ne) (2 * p.Nsite) slt (splitLoop nqp i (n + 1)).1 ((splitLoop nqp i (n + 1)).2 - (splitLoop nqp i (n + 1)).1)
        (occSz p.Ne p.Nsite st.c.idx) st.b.loc.pfM st.b.loc.invM ∧ st.b.ip = fullAmp p slt w nqp st.c
    ok (as i).1 ∧ ∀ x ∈ (as i).2.1, ok x.2 := by
  have h := (run_sample (ranksOps p lib slt w junk nqp) S p burn warmUp nSample interval bc bcnt loc r).symm.trans h
  cases e : sampleG (ranksOps p lib slt w junk nqp) S p burn warmUp nSample interval bc bcnt loc r with
  | stuck => rw [e] at h; cases h
  | abort => rw [e] at h; cases h
  | ok x =>
    rw [e] at h
    cases h
    unfold sampleG at e
    obtain ⟨y, h1, h2⟩ := Res.bind_ok e
    have hs := start_exact p lib slt w junk S hlib htot hsk hNe hNs burn bc bcnt loc r hb
    rw [h1] at hs
    obtain ⟨_, hc, hl, hq⟩ := hs
    cases ev : vmcMakeSample (groupHooks (ranksOps p lib slt w junk nqp) S) p y.2.1 warmUp nSample interval y.1.1 y.1.2 y.2.2 with
    | none => rw [ev] at h2; cases h2
    | some z =>
      rw [ev] at h2
      cases h2
      have := outerLoop_inv (ranks_qok p lib slt w junk S hlib htot hsk hnz) hNe hNs _ _ _ _ _ (st := ⟨y.1.1, y.1.2, 0, 0, 0, 0, 0⟩)
        ⟨hc, hl, hq, Nat.zero_le _, Nat.le_refl _, Nat.le_refl _⟩ (by simp) ev
      refine ⟨⟨this.1.q.1 i, this.1.q.2⟩, fun a ha => ?_⟩
      obtain ⟨a', ha', rfl⟩ := List.mem_map.mp ha
      exact ⟨(this.2 a' ha').q.1 i, (this.2 a' ha').q.2⟩

end exact

/-! ### the build with delayed updates -/

/-- C66 (violated in builds with `PFAFFIAN_BLOCKED`, cf. C63): with two processes and two projections every process uses the Pfaffian
of projection 0 also for projection 1, so that the group works with `w₀Pf₀+w₁Pf₀` instead of `w₀Pf₀+w₁Pf₁`. The run shown starts from a burn sample
and makes no step. -/
theorem C66_block_violation {δ K : Type} [Field K] (pf : Nat → EleCfg → K) (w : Nat → K) (S : ShOps δ K) (hS : ∀ x, S.finite x = true)
    (p : SamplerPar) (warmUp nSample : Nat) (bc : EleCfg) (bcnt : δ) (loc : Fin 2 → EleCfg) (r : List Nat) (hw : w 1 ≠ 0) (hp : pf 0 bc ≠ pf 1 bc) :
    ∃ as, runRanks (fun i : Fin 2 => sampleR 2 (blockLocal pf w (splitLoop 2 i 2)) S p true warmUp nSample 0 bc bcnt (loc i) r) = .done as ∧
      ∀ i, (as i).1.c = bc ∧ (as i).1.b.ip = w 0 * pf 0 bc + w 1 * pf 0 bc ∧ (as i).1.b.ip ≠ w 0 * pf 0 bc + w 1 * pf 1 bc := by
  have hout : ∀ (left out : Nat) (st : SState (RB δ (Fin 2 → EleCfg) K)) sv, ∃ sv',
      outerLoop (groupHooks (fun i : Fin 2 => blockLocal pf w (splitLoop 2 i 2)) S) p 0 (nSample + 1) nSample left out st sv r = some (st, sv', r) := by
    intro left
    induction left with
    | zero => exact fun _ st sv => ⟨sv, rfl⟩
    | succ left ih => exact fun out st sv => ih (out + 1) st _
  have hsum : ∑ i : Fin 2, (blockLocal pf w (splitLoop 2 i 2)).ipCur ((blockLocal pf w (splitLoop 2 i 2)).mAll bc (loc i)).1 =
      w 0 * pf 0 bc + w 1 * pf 0 bc := by
    rw [Fin.sum_univ_two]
    simp only [blockLocal]
    unfold calculateIPLocal
    rw [sumLoop_eq, sumLoop_eq]
    have e0 : splitLoop 2 (0 : Fin 2) 2 = (0, 1) := by decide
    have e1 : splitLoop 2 (1 : Fin 2) 2 = (1, 2) := by decide
    rw [e0, e1]
    simp
  have h := run_sample (n := 1) (fun i : Fin 2 => blockLocal pf w (splitLoop 2 i 2)) S p true warmUp nSample 0 bc bcnt loc r
  unfold sampleG startG at h
  simp only [Bool.true_eq_false, if_false, Res.bind, hS, if_true] at h
  unfold vmcMakeSample at h
  rw [Nat.zero_mul] at h
  obtain ⟨sv', hsv⟩ := hout (nOutStep true warmUp nSample) 0 ⟨bc, ⟨S.reCnt bc bcnt,
    fun i => ((blockLocal pf w (splitLoop 2 i 2)).mAll bc (loc i)).1,
    ∑ i : Fin 2, (blockLocal pf w (splitLoop 2 i 2)).ipCur ((blockLocal pf w (splitLoop 2 i 2)).mAll bc (loc i)).1⟩, 0, 0, 0, 0, 0⟩ []
  have hn : nOutStep true warmUp nSample = nSample + 1 := rfl
  rw [hn] at h hsv
  rw [hsv] at h
  refine ⟨_, h, fun i => ⟨rfl, hsum, fun hx => ?_⟩⟩
  have hx : _ = w 0 * pf 0 bc + w 1 * pf 1 bc := hx
  have := hsum.symm.trans hx
  exact hp (mul_left_cancel₀ hw (add_left_cancel this))

/-! ### examples -/

/-- two sites, one electron per spin, pair functions `1+i+2j` and `3+j` for projections 0 and 1 -/
def ranksSlt : Nat → ℚ := fun k =>
  let q := k / 16
  let x := k % 16 / 4
  let y := k % 4
  if x < 2 ∧ 2 ≤ y then (if q = 0 then 1 + x + 2 * ((y - 2 : Nat) : ℚ) else 3 + ((y - 2 : Nat) : ℚ))
  else if y < 2 ∧ 2 ≤ x then - (if q = 0 then 1 + y + 2 * ((x - 2 : Nat) : ℚ) else 3 + ((x - 2 : Nat) : ℚ))
  else 0

def ranksPar : SamplerPar := ⟨1, 2, fun _ => 0, 0⟩

/-- the weights of the two projections -/
def ranksW : Nat → ℚ := fun q => if q = 0 then 1 else 2

/-- no counts; a move is accepted when `|new/old|² > u/10` -/
def ranksS : ShOps Unit ℚ where
  mkCnt _ := ()
  reCnt _ _ := ()
  updCnt _ _ _ := ()
  finite _ := true
  accept _ _ new old u := decide (old * old * u < 10 * (new * new))

/-- up electron on site 0, down electron on site 1 -/
def ranksCfg : EleCfg := ⟨fun k => if k = 1 then 1 else 0, fun k => if k = 0 ∨ k = 3 then 0 else -1, fun k => if k = 0 ∨ k = 3 then 1 else 0⟩

/-- random numbers of all processes -/
def ranksR : List Nat := [0, 0, 1, 3, 0, 4294967295, 0, 4, 0, 4294967295, 1, 1, 0, 0, 0, 20, 0, 0, 0, 2, 0, 4294967295, 0, 40,
  0, 4294967295, 0, 3, 0, 0, 1, 2, 0, 4294967295, 1, 1, 0, 4294967295, 0, 5, 0, 0, 0, 1, 0, 4294967295, 0, 1, 77]

/-- what to show of a result: positions of the two electrons, amplitude, tried and accepted hops; stored samples; unused random numbers -/
def ranksShow (x : SState (Unit × ℚ) × List (Nat × SState (Unit × ℚ)) × List Nat) :
    List (List ℚ) :=
  [[((x.1.c.idx 0 : Int) : ℚ), x.1.c.idx 1, x.1.b.2, x.1.hopTry, x.1.hopAcc]] ++
    x.2.1.map (fun y => [(y.1 : ℚ), y.2.c.idx 0, y.2.c.idx 1, y.2.b.2]) ++ [x.2.2.map Nat.cast]

theorem ranks_skew : ∀ q, q < 2 → SlaterSkew (2 * ranksPar.Nsite) ranksSlt q := by
  have h : ∀ q, q < 2 → (∀ x, x < 4 → ∀ y, y < 4 → entry 4 ranksSlt q x y = - entry 4 ranksSlt q y x) ∧ ∀ x, x < 4 → entry 4 ranksSlt q x x = 0 := by
    decide +kernel
  exact fun q hq => ⟨fun x y hx hy => (h q hq).1 x hx y hy, (h q hq).2⟩

theorem ranks_nz (c : EleCfg) (hc : Consistent ranksPar.Ne ranksPar.Nsite c.idx c.cfg c.num) :
    ∀ q, q < 2 → pfOf (entry (2 * ranksPar.Nsite) ranksSlt q) (2 * ranksPar.Ne) (occSz ranksPar.Ne ranksPar.Nsite c.idx) ≠ 0 := by
  obtain ⟨a, ha, h0, _⟩ := hc.electron 0 (by decide) 0 (by decide)
  obtain ⟨b, hb, h1, _⟩ := hc.electron 1 (by decide) 0 (by decide)
  have h0 : c.idx 0 = a := h0
  have h1 : c.idx 1 = b := h1
  have h : ∀ a, a < 2 → ∀ b, b < 2 → ∀ q, q < 2 → pfOf (entry 4 ranksSlt q) 2 (fun i => if i = 0 then a else b + 2) ≠ 0 := by decide +kernel
  intro q hq
  have e : pfOf (entry 4 ranksSlt q) 2 (occSz 1 2 c.idx) = pfOf (entry 4 ranksSlt q) 2 (fun i => if i = 0 then a else b + 2) := by
    unfold pfOf
    congr 1
    simp [occSz, h0, h1, List.range_succ]
  show pfOf (entry 4 ranksSlt q) 2 (occSz 1 2 c.idx) ≠ 0
  rw [e]
  exact h a ha b hb q hq

theorem ranks_burn : Consistent ranksPar.Ne ranksPar.Nsite ranksCfg.idx ranksCfg.cfg ranksCfg.num ∧
    LocalSingle ranksPar.Nsite ranksPar.locSpn ranksCfg.num ∧ ∀ q, q < 2 → RegularAt ranksPar ranksSlt ranksCfg q := by
  refine ⟨⟨?_, ?_⟩, ?_, ?_⟩
  · decide +kernel
  · decide +kernel
  · unfold LocalSingle; decide +kernel
  · intro q hq
    refine ⟨fun i k => if i = 0 ∧ k = 1 then -(1 / (if q = 0 then 3 else 4)) else if i = 1 ∧ k = 0 then 1 / (if q = 0 then 3 else 4) else 0, ?_⟩
    unfold IsInv
    have : q = 0 ∨ q = 1 := by omega
    rcases this with rfl | rfl <;> decide +kernel

/-- Two processes, one projection each: nine of twelve hops are accepted; both end with the electrons on site 0 and amplitude 7 and store
the same two samples. -/
example (lib : SkLib ℚ) (hlib : LibOK lib) (htot : LibTotal lib) (junk : Fin 2 → EleCfg → PfState ℚ → PfState ℚ) (loc : Fin 2 → PfState ℚ) :
    mapRanks (fun x => ranksShow (sharedOut x)) (runRanks (fun i => sampleR 2 (pfLocal ranksPar lib ranksSlt ranksW (junk i) (splitLoop 2 i 2))
      ranksS ranksPar true 0 2 2 ranksCfg () (loc i) ranksR)) =
    .done (fun _ => [[0, 0, 7, 12, 9], [1, 0, 0, 7], [0, 1, 0, 8], [77]]) := by
  have h := C66_same_chain_partial ranksPar lib ranksSlt ranksW ranksS hlib htot ranks_skew (fun c _ _ _ _ hc _ => ranks_nz c hc) (by decide) (by decide)
    true 0 2 2 ranksCfg () ranksR (fun _ => ranks_burn) 1 junk loc
  have hx : (match exactSample ranksPar ranksSlt ranksW 2 ranksS true 0 2 2 ranksCfg () ranksR with
      | .ok x => some (ranksShow x)
      | _ => none) = some [[0, 0, 7, 12, 9], [1, 0, 0, 7], [0, 1, 0, 8], [77]] := by
    decide +kernel
  cases e : exactSample ranksPar ranksSlt ranksW 2 ranksS true 0 2 2 ranksCfg () ranksR with
  | stuck => rw [e] at hx; cases hx
  | abort => rw [e] at hx; cases hx
  | ok x =>
    rw [e] at hx h
    have hx : ranksShow x = _ := Option.some.inj hx
    cases e2 : runRanks (fun i => sampleR 2 (pfLocal ranksPar lib ranksSlt ranksW (junk i) (splitLoop 2 i 2))
        ranksS ranksPar true 0 2 2 ranksCfg () (loc i) ranksR) with
    | stuck => rw [e2] at h; cases h
    | abort => rw [e2] at h; cases h
    | mismatch => rw [e2] at h; cases h
    | done as =>
      rw [e2] at h
      simp only [mapRanks, everyRank, JOut.done.injEq] at h ⊢
      exact funext fun i => (congrArg ranksShow (congrFun h i)).trans hx

end MVMC
