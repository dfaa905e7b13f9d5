import Verif.Proof.LocGrnN
import Verif.Props.LocGrn

/-! # C48: n-body Green function -/
namespace MVMC
open Spec

theorem pairString_eq (i j : Nat → Nat) (n : Nat) : pairString i j n = pairOps (prs i j 0 n) := by
  unfold pairString pairOps prs
  rw [List.range_eq_range', List.flatMap_map]

/-- C48: for every `n ≥ 1` and every string of spin-conserving pairs (whatever coincidences there are), the routine with the Pfaffian
call of `locgrn_real.c` returns `<ψ|c†_{i0} c_{j0} … c†_{i(n-1)} c_{j(n-1)}|x>/<ψ|x>` and restores the electron tables. -/
theorem C48_greenN (g : GrnEnv) (hg : GrnOK g) (hr : g.flagRBM = true → GrnRBM g) (c : EleCfg) (ip : ℂ) (projCnt : Arr)
    (rbmCnt : Nat → ℂ) (h : Sampled g c ip projCnt rbmCnt) (pfa : Nat → (Nat → ℂ) → ℂ) (hpfa : PfaOK pfa) (n : Nat) (hn : 0 < n)
    (rsi rsj : Nat → Nat) (hok : SpinPairs g.p.Nsite rsi rsj n) :
    greenFuncNReal g pfa ip projCnt rbmCnt c n rsi rsj
      = some (matrixElement (psi g) (pairString rsi rsj n) (szList g c), c) := by
  rw [pairString_eq]
  exact greenFuncN_val hg hr h hpfa n rsi rsj hn hok

/-- C48: the `2n × 2n` Pfaffian with its sign times the old Pfaffian is the Pfaffian after moving any `n` different electrons, over any
field, for any old and new positions. -/
theorem C48_kernel {K : Type} [Field K] (p : PfPar) (pfa : Nat → (Nat → K) → K) (hpfa : PfaOK pfa) (slt : Nat → K) (st : PfState K)
    (nq q n : Nat) (idx idx' : Arr) (ms : Nat → Nat) (hsk : SlaterSkew p.Nsite2 slt q) (hi : OnSites p.Nsize p.Nsite idx)
    (hi' : OnSites p.Nsize p.Nsite idx') (hm : ∀ k, k < n → ms k < p.Nsize)
    (hinj : ∀ k, k < n → ∀ l, l < n → ms k = ms l → k = l)
    (hsame : ∀ i, i < p.Nsize → (∀ k, k < n → ms k ≠ i) → idx' i = idx i) (hq : q < nq)
    (hok : PfOK p.Nsize p.Nsite2 slt 0 nq (occSz p.Ne p.Nsite idx) st.pfM st.invM) :
    calculateNewPfMN p pfa slt n ms idx' st q = pfOf (entry p.Nsite2 slt q) p.Nsize (occSz p.Ne p.Nsite idx') :=
  calculateNewPfMN_ok hpfa hsk hi hi' hm hinj hsame hq hok

/-- C48: a pair that changes the spin gives 0 and the tables are untouched (the wave function has fixed numbers of up and down electrons,
but a string whose spin changes cancel would have a non-zero value: callers must not use it). -/
theorem C48_mixed_spin_zero (g : GrnEnv) (child : Nat → (Nat → Nat) → Arr → Nat → Option ℂ) (c : EleCfg) (ip : ℂ) (projCnt : Arr)
    (rbmCnt : Nat → ℂ) (rsi rsj : Nat → Nat) : ∀ n, (∃ k, k < n ∧ rsi k / g.p.Nsite ≠ rsj k / g.p.Nsite) →
    greenFuncN g child ip projCnt rbmCnt c n rsi rsj = some (0, c)
  | 0, ⟨k, hk, _⟩ => absurd hk (Nat.not_lt_zero k)
  | 1, ⟨k, hk, h⟩ => by
    have : k = 0 := by omega
    subst this
    unfold greenFuncN
    exact if_pos h
  | 2, ⟨k, hk, h⟩ => by
    unfold greenFuncN
    refine if_pos ?_
    rcases (show k = 0 ∨ k = 1 by omega) with rfl | rfl
    · exact Or.inl h
    · exact Or.inr h
  | n + 3, ⟨k, hk, h⟩ => by
    unfold greenFuncN
    refine if_pos (List.any_eq_true.mpr ⟨k, List.mem_range.mpr hk, ?_⟩)
    simpa using h

/-- if the version with undefined Pfaffian has a value, then no Pfaffian was needed -/
theorem greenFuncN_defined {g : GrnEnv} (hq : 0 < g.nQP) {child : Nat → (Nat → Nat) → Arr → Nat → Option ℂ} {c : EleCfg} {ip : ℂ}
    {projCnt : Arr} {rbmCnt : Nat → ℂ} : ∀ (n : Nat) (rsi rsj : Nat → Nat) (r : ℂ × EleCfg),
    greenFuncNComplex g ip projCnt rbmCnt c n rsi rsj = some r → greenFuncN g child ip projCnt rbmCnt c n rsi rsj = some r
  | 0, _, _, _, h => by
    unfold greenFuncNComplex greenFuncN at h
    unfold greenFuncN
    exact h
  | 1, _, _, _, h => by
    unfold greenFuncNComplex greenFuncN at h
    unfold greenFuncN
    exact h
  | 2, _, _, _, h => by
    unfold greenFuncNComplex greenFuncN at h
    unfold greenFuncN
    exact h
  | n + 3, rsi, rsj, r, h => by
    unfold greenFuncNComplex greenFuncN at h
    unfold greenFuncN
    simp only [] at h ⊢
    split_ifs at h ⊢ with h0
    · exact h
    · cases hs : scanRed (n + 3) rsi rsj c.num (n + 3) with
      | zero => rw [hs] at h; exact h
      | recur neg rsi' rsj' =>
        rw [hs] at h
        simp only [] at h ⊢
        cases hv : greenFuncN g (calculateNewPfMNComplex (K := ℂ)) ip projCnt rbmCnt c (n + 2) rsi' rsj' with
        | none => rw [hv] at h; exact absurd h (by simp)
        | some v =>
          rw [hv] at h
          rw [greenFuncN_defined hq (n + 2) rsi' rsj' v hv]
          exact h
      | hop =>
        rw [hs] at h
        unfold greenFuncNHop at h
        simp only [] at h
        rw [if_neg (by
          intro hall
          have := List.all_eq_true.mp hall 0 (List.mem_range.mpr hq)
          simp [calculateNewPfMNComplex] at this)] at h
        exact absurd h (by simp)

/-- C48 (complex routine): whenever the complex `GreenFuncN` stays defined, i.e. whenever the string reduces to at most two pairs, its
result is exact. Missing: the cases where three or more hops remain, see `C48_complex_undefined`. -/
theorem C48_complex_partial (g : GrnEnv) (hg : GrnOK g) (hr : g.flagRBM = true → GrnRBM g) (c : EleCfg) (ip : ℂ) (projCnt : Arr)
    (rbmCnt : Nat → ℂ) (h : Sampled g c ip projCnt rbmCnt) (n : Nat) (hn : 0 < n) (rsi rsj : Nat → Nat)
    (hok : SpinPairs g.p.Nsite rsi rsj n) (r : ℂ × EleCfg) (hdef : greenFuncNComplex g ip projCnt rbmCnt c n rsi rsj = some r) :
    r = (matrixElement (psi g) (pairString rsi rsj n) (szList g c), c) := by
  have hq : 0 < g.nQP := by
    rcases Nat.eq_zero_or_pos g.nQP with e | e
    · exfalso
      have h1 := h.hip
      rw [e] at h1
      exact h.hne (h1.trans (by simp [amplitude]))
    · exact e
  have := C48_greenN g hg hr c ip projCnt rbmCnt h (fun n b => pfOf (fun i j => b (i + n * j)) n id) (fun _ _ _ _ => rfl) n hn rsi rsj hok
  unfold greenFuncNReal at this
  rw [greenFuncN_defined hq n rsi rsj r hdef] at this
  exact Option.some.inj this

/-- C48: three hops to empty orbitals make the unchanged complex routine undefined (`calculateNewPfMN_child` passes the uninitialised
`lda`). Here: up electrons on sites 0 and 1 to 2 and 3, down electron from 0 to 2, on 4 sites. -/
theorem C48_complex_undefined (g : GrnEnv) (hN : g.p.Nsite = 4) (hq : 0 < g.nQP) (ip : ℂ) (projCnt : Arr) (rbmCnt : Nat → ℂ) (c : EleCfg)
    (hc : c.num = fun x => if x = 0 ∨ x = 1 ∨ x = 4 ∨ x = 5 then 1 else 0) :
    greenFuncNComplex g ip projCnt rbmCnt c 3 (fun k => if k = 0 then 2 else if k = 1 then 3 else 6)
      (fun k => if k = 0 then 0 else if k = 1 then 1 else 4) = none := by
  unfold greenFuncNComplex greenFuncN
  simp only [hN, hc]
  rw [if_neg (by decide)]
  rw [show scanRed (0 + 3) (fun k => if k = 0 then 2 else if k = 1 then 3 else 6)
      (fun k => if k = 0 then 0 else if k = 1 then 1 else 4)
      (fun x => if x = 0 ∨ x = 1 ∨ x = 4 ∨ x = 5 then 1 else 0) (0 + 3) = .hop by rfl]
  simp only []
  unfold greenFuncNHop
  simp only []
  rw [if_neg]
  intro hall
  have := List.all_eq_true.mp hall 0 (List.mem_range.mpr hq)
  simp [calculateNewPfMNComplex] at this

/-- the assumption on the library routine can be met -/
example : PfaOK (K := ℂ) (fun n b => pfOf (fun i j => b (i + n * j)) n id) := fun _ _ _ _ => rfl

/-- three pairs on the state of `exSampled`: `c†_{1↑}c_{0↑} n_{1↓} n_{0↑}` has the value of the single hop -/
example : greenFuncNReal exEnv (fun n b => pfOf (fun i j => b (i + n * j)) n id) 2 (fun _ => 0) (fun _ => 0) exCfg 3
    (fun k => if k = 0 then 1 else if k = 1 then 3 else 0) (fun k => if k = 0 then 0 else if k = 1 then 3 else 0)
      = some (-(3 * Complex.I), exCfg) := by
  rw [C48_greenN exEnv exEnv_ok (fun h => absurd h (by decide)) exCfg 2 _ _ exSampled _ (fun _ _ _ _ => rfl) 3 (by decide) _ _ (by
    intro k hk
    rcases (show k = 0 ∨ k = 1 ∨ k = 2 by omega) with rfl | rfl | rfl <;> decide)]
  have hl : szList exEnv exCfg = [0, 3] := by decide
  have c : corrSpec exEnv = fun _ => 1 := by
    funext num
    simp [corrSpec, projSpec, exEnv, logCorr]
  rw [hl]
  congr 2
  simp only [matrixElement, psi, c]
  simp [pairString, List.range_succ, actAll, Op.act, exEnv, overlap, pf, pfN, altSum, entry, waveFunction]
  have e : (starRingEnd ℂ) 2 = 2 := Complex.conj_ofReal 2
  have e' : (starRingEnd ℂ) 6 = 6 := Complex.conj_ofReal 6
  rw [e, e']
  ring

end MVMC
