import Mathlib.Data.Rat.Defs
import Mathlib.Tactic.NormNum
import Mathlib.Tactic.IntervalCases
import Verif.Proof.PfSampler
import Verif.Proof.SamplerFszInit

/-! # C20–C23: Pfaffian amplitudes, one- and two-electron updates -/
namespace MVMC
open Spec

/-! ## C20 -/

/-- C20: exchanging any two entries of the electron list flips the sign of the Pfaffian. -/
theorem C20_exchange {α R : Type} [CommRing R] (A : α → α → R) (h1 : ∀ x y, A x y = - A y x) (h2 : ∀ x, A x x = 0)
    (p q s : List α) (x y : α) : pf A (p ++ x :: q ++ y :: s) = - pf A (p ++ y :: q ++ x :: s) :=
  pf_exchange ⟨h1, h2⟩ p q x y s

/-- C20: two electrons in the same spin orbital give zero. -/
theorem C20_pauli {α R : Type} [CommRing R] (A : α → α → R) (h1 : ∀ x y, A x y = - A y x) (h2 : ∀ x, A x x = 0)
    (l : List α) (h : ¬ l.Nodup) : pf A l = 0 :=
  pf_eq_zero_of_not_nodup ⟨h1, h2⟩ h

theorem range_two {n a b : Nat} (hab : a < b) (hb : b < n) :
    ∃ p q s : List Nat, List.range n = p ++ a :: q ++ b :: s ∧ a ∉ p ∧ a ∉ q ∧ a ∉ s ∧ b ∉ p ∧ b ∉ q ∧ b ∉ s := by
  refine ⟨List.range a, List.range' (a + 1) (b - a - 1), List.range' (b + 1) (n - b - 1), ?_, ?_⟩
  · rw [List.range_eq_range', List.range_eq_range']
    have e1 : List.range' 0 a ++ a :: List.range' (a + 1) (b - a - 1) = List.range' 0 b := by
      have h2 : List.range' a (1 + (b - a - 1)) = a :: List.range' (a + 1) (b - a - 1) := by
        rw [Nat.add_comm, List.range'_succ]
      rw [← h2]
      have := List.range'_append (s := 0) (m := a) (n := 1 + (b - a - 1)) (step := 1)
      rw [Nat.zero_add, Nat.one_mul] at this
      rw [this]; congr 1; omega
    have e2 : List.range' 0 b ++ b :: List.range' (b + 1) (n - b - 1) = List.range' 0 n := by
      have h2 : List.range' b (1 + (n - b - 1)) = b :: List.range' (b + 1) (n - b - 1) := by
        rw [Nat.add_comm, List.range'_succ]
      rw [← h2]
      have := List.range'_append (s := 0) (m := b) (n := 1 + (n - b - 1)) (step := 1)
      rw [Nat.zero_add, Nat.one_mul] at this
      rw [this]; congr 1; omega
    rw [e1, e2]
  · simp only [List.mem_range, List.mem_range'_1]
    omega

/-- C20: the amplitude of the occupied block: exchanging the places of two electrons `a`, `b` flips its sign. -/
theorem C20_electron_exchange {R : Type} [CommRing R] (nsite2 n : Nat) (slt : Nat → R) (q : Nat) (hsk : SlaterSkew nsite2 slt q)
    (rs rs' : Nat → Nat) (hrs : ∀ i, i < n → rs i < nsite2) (a b : Nat) (hab : a < b) (hb : b < n)
    (h1 : rs' a = rs b) (h2 : rs' b = rs a) (h3 : ∀ i, i < n → i ≠ a → i ≠ b → rs' i = rs i) :
    pfOf (entry nsite2 slt q) n rs' = - pfOf (entry nsite2 slt q) n rs := by
  have hcut : Skew (cut (· < nsite2) (entry nsite2 slt q)) := SkewOn.cut ⟨hsk.1, hsk.2⟩
  have hrs' : ∀ i, i < n → rs' i < nsite2 := by
    intro i hi
    by_cases e : i = a
    · rw [e, h1]; exact hrs _ hb
    · by_cases e' : i = b
      · rw [e', h2]; exact hrs _ (by omega)
      · rw [h3 i hi e e']; exact hrs _ hi
  have c1 : ∀ r : Nat → Nat, (∀ i, i < n → r i < nsite2) →
      pfOf (entry nsite2 slt q) n r = pfOf (cut (· < nsite2) (entry nsite2 slt q)) n r := by
    intro r hr
    exact pfOf_congr (fun _ _ => rfl) (fun i hi j hj => (cut_eq (S := (· < nsite2)) (hr i hi) (hr j hj)).symm)
  rw [c1 rs hrs, c1 rs' hrs']
  obtain ⟨p, u, s, e, f1, f2, f3, f4, f5, f6⟩ := range_two hab hb
  have hm : ∀ l : List Nat, (∀ i ∈ l, i ∈ List.range n) → a ∉ l → b ∉ l → l.map rs' = l.map rs := by
    intro l hl ha hb'
    apply List.map_congr_left
    intro i hi
    exact h3 i (List.mem_range.mp (hl i hi)) (fun h => ha (h ▸ hi)) (fun h => hb' (h ▸ hi))
  unfold pfOf
  have mp := hm p (by intro i hi; rw [e]; simp [hi]) f1 f4
  have mu := hm u (by intro i hi; rw [e]; simp [hi]) f2 f5
  have ms := hm s (by intro i hi; rw [e]; simp [hi]) f3 f6
  rw [e]
  simp only [List.map_append, List.map_cons]
  rw [mp, mu, ms, h1, h2]
  exact pf_exchange hcut _ _ _ _ _

/-- C20: no amplitude when two electrons sit in the same spin orbital. -/
theorem C20_electron_pauli {R : Type} [CommRing R] (nsite2 n : Nat) (slt : Nat → R) (q : Nat) (hsk : SlaterSkew nsite2 slt q)
    (rs : Nat → Nat) (hrs : ∀ i, i < n → rs i < nsite2) (a b : Nat) (hab : a < b) (hb : b < n) (h : rs a = rs b) :
    pfOf (entry nsite2 slt q) n rs = 0 := by
  have hcut : Skew (cut (· < nsite2) (entry nsite2 slt q)) := SkewOn.cut ⟨hsk.1, hsk.2⟩
  rw [pfOf_congr (B := cut (· < nsite2) (entry nsite2 slt q)) (fun _ _ => rfl)
    (fun i hi j hj => (cut_eq (S := (· < nsite2)) (hrs i hi) (hrs j hj)).symm)]
  obtain ⟨p, u, s, e, _⟩ := range_two hab hb
  unfold pfOf
  rw [e]
  simp only [List.map_append, List.map_cons]
  rw [h]
  exact pf_dup hcut _ _ _ _

/-! ## C21 -/

variable {K : Type} [Field K]

/-- C21: `CalculateNewPfM`, `CalculateNewPfM2` (and the `_real` versions, `K = ℝ`): when `PfM`/`InvM` belong to the
electron positions `idx`, the value computed after moving electron `(ma,s)` to any site is the Pfaffian of the new
occupied block. -/
theorem C21_new_pfaffian (p : PfPar) (slt : Nat → K) (ma s : Nat) (idx idx' : Arr) (qpStart nq q : Nat) (st : PfState K)
    (hma : ma < p.Ne) (hs : s < 2) (hq : q < nq) (hsk : SlaterSkew (2 * p.Nsite) slt (q + qpStart))
    (hi : OnSites (2 * p.Ne) p.Nsite idx) (hi' : OnSites (2 * p.Ne) p.Nsite idx')
    (hsame : ∀ i, i < 2 * p.Ne → i ≠ ma + s * p.Ne → idx' i = idx i)
    (hok : PfOK (2 * p.Ne) (2 * p.Nsite) slt qpStart nq (occSz p.Ne p.Nsite idx) st.pfM st.invM) :
    calculateNewPfM p slt ma s idx' qpStart st q
      = pfOf (entry (2 * p.Nsite) slt (q + qpStart)) (2 * p.Ne) (occSz p.Ne p.Nsite idx') :=
  newPfM_ok hma hs hsk hi hi' hsame hq hok

/-- C21: `CalculateNewPfM_fsz`, `CalculateNewPfM2_fsz`: the electron may change site and spin. -/
theorem C21_new_pfaffian_fsz (p : PfPar) (slt : Nat → K) (ma t : Nat) (idx spn idx' spn' : Arr) (qpStart nq q : Nat)
    (st : PfState K) (hma : ma < 2 * p.Ne) (hq : q < nq) (hsk : SlaterSkew (2 * p.Nsite) slt (q + qpStart))
    (hi : OnSites (2 * p.Ne) p.Nsite idx) (hi' : OnSites (2 * p.Ne) p.Nsite idx')
    (hsp' : Spins (2 * p.Ne) spn') (ht : spn' ma = ((t : Nat) : Int))
    (hsame : ∀ i, i < 2 * p.Ne → i ≠ ma → idx' i = idx i ∧ spn' i = spn i)
    (hok : PfOK (2 * p.Ne) (2 * p.Nsite) slt qpStart nq (occF p.Nsite idx spn) st.pfM st.invM) :
    calculateNewPfMFsz p slt ma t idx' spn' qpStart st q
      = pfOf (entry (2 * p.Nsite) slt (q + qpStart)) (2 * p.Ne) (occF p.Nsite idx' spn') :=
  newPfMFsz_ok hma hsk hi hi' hsp' ht hsame hq hok

/-! ## C22 -/

/-- C22: `CalculateMAll_*` (from scratch): whenever the factorisation library (contract `LibOK`) succeeds on every
projection, all Pfaffians and inverses are right. -/
theorem C22_from_scratch (p : PfPar) (lib : SkLib K) (hlib : LibOK lib) (slt : Nat → K) (qpStart qpEnd : Nat)
    (idx : Arr) (st st' : PfState K) (hsk : ∀ q, q < qpEnd - qpStart → SlaterSkew (2 * p.Nsite) slt (q + qpStart))
    (hi : OnSites (2 * p.Ne) p.Nsite idx) (h : calculateMAll p lib slt qpStart qpEnd (rsSz p idx) st = some st') :
    PfOK (2 * p.Ne) (2 * p.Nsite) slt qpStart (qpEnd - qpStart) (occSz p.Ne p.Nsite idx) st'.pfM st'.invM := by
  refine pfOK_congr (fun i hi => rsSz_occ (p := p) idx hi) (calculateMAll_ok hlib hsk ?_ h)
  intro i hi'
  rw [rsSz_occ idx hi']
  exact occ_lt hi hi'

/-- C22: `CalculateMAll_fsz`. -/
theorem C22_from_scratch_fsz (p : PfPar) (lib : SkLib K) (hlib : LibOK lib) (slt : Nat → K) (qpStart qpEnd : Nat)
    (idx spn : Arr) (st st' : PfState K) (hsk : ∀ q, q < qpEnd - qpStart → SlaterSkew (2 * p.Nsite) slt (q + qpStart))
    (hi : OnSites (2 * p.Ne) p.Nsite idx) (hsp : Spins (2 * p.Ne) spn)
    (h : calculateMAll p lib slt qpStart qpEnd (rsFsz p idx spn) st = some st') :
    PfOK (2 * p.Ne) (2 * p.Nsite) slt qpStart (qpEnd - qpStart) (occF p.Nsite idx spn) st'.pfM st'.invM := by
  refine pfOK_congr (fun i hi => rsFsz_occ (p := p) hsp hi) (calculateMAll_ok hlib hsk ?_ h)
  intro i hi'
  rw [rsFsz_occ (p := p) hsp hi']
  exact occF_lt hi hi'

/-- C22: `UpdateMAll`: exact new Pfaffians and exact new inverses for every projection. -/
theorem C22_update (p : PfPar) (slt : Nat → K) (ma s : Nat) (idx idx' : Arr) (qpStart qpEnd : Nat) (st : PfState K)
    (hma : ma < p.Ne) (hs : s < 2)
    (hsk : ∀ q, q < qpEnd - qpStart → SlaterSkew (2 * p.Nsite) slt (q + qpStart))
    (hi : OnSites (2 * p.Ne) p.Nsite idx) (hi' : OnSites (2 * p.Ne) p.Nsite idx')
    (hsame : ∀ i, i < 2 * p.Ne → i ≠ ma + s * p.Ne → idx' i = idx i)
    (hok : PfOK (2 * p.Ne) (2 * p.Nsite) slt qpStart (qpEnd - qpStart) (occSz p.Ne p.Nsite idx) st.pfM st.invM)
    (h0 : ∀ q, q < qpEnd - qpStart →
      pfOf (entry (2 * p.Nsite) slt (q + qpStart)) (2 * p.Ne) (occSz p.Ne p.Nsite idx') ≠ 0) :
    let st' := updateMAll p slt ma s idx' qpStart qpEnd st
    PfOK (2 * p.Ne) (2 * p.Nsite) slt qpStart (qpEnd - qpStart) (occSz p.Ne p.Nsite idx') st'.pfM st'.invM :=
  updateMAll_ok hma hs hsk hi hi' hsame hok h0

/-- C22: `UpdateMAll_fsz`. -/
theorem C22_update_fsz (p : PfPar) (slt : Nat → K) (ma t : Nat) (idx spn idx' spn' : Arr) (qpStart qpEnd : Nat) (st : PfState K)
    (hma : ma < 2 * p.Ne) (hsk : ∀ q, q < qpEnd - qpStart → SlaterSkew (2 * p.Nsite) slt (q + qpStart))
    (hi : OnSites (2 * p.Ne) p.Nsite idx) (hi' : OnSites (2 * p.Ne) p.Nsite idx')
    (hsp' : Spins (2 * p.Ne) spn') (ht2 : t < 2) (ht : spn' ma = ((t : Nat) : Int))
    (hsame : ∀ i, i < 2 * p.Ne → i ≠ ma → idx' i = idx i ∧ spn' i = spn i)
    (hok : PfOK (2 * p.Ne) (2 * p.Nsite) slt qpStart (qpEnd - qpStart) (occF p.Nsite idx spn) st.pfM st.invM)
    (h0 : ∀ q, q < qpEnd - qpStart →
      pfOf (entry (2 * p.Nsite) slt (q + qpStart)) (2 * p.Ne) (occF p.Nsite idx' spn') ≠ 0) :
    let st' := updateMAllFsz p slt ma t idx' spn' qpStart qpEnd st
    PfOK (2 * p.Ne) (2 * p.Nsite) slt qpStart (qpEnd - qpStart) (occF p.Nsite idx' spn') st'.pfM st'.invM :=
  updateMAllFsz_ok hma hsk hi hi' hsp' ht2 ht hsame hok h0

/-- C22: an exact inverse of an occupied block is antisymmetric (so `InvM` always is). -/
theorem C22_inverse_antisymmetric (n nsite2 : Nat) (slt : Nat → K) (qpStart nq : Nat) (rs : Nat → Nat) (pfM invM : Nat → K)
    (q : Nat) (hq : q < nq) (hsk : SlaterSkew nsite2 slt (q + qpStart)) (hrs : ∀ i, i < n → rs i < nsite2)
    (hok : PfOK n nsite2 slt qpStart nq rs pfM invM) (i j : Nat) (hi : i < n) (hj : j < n) :
    entry n invM q i j = - entry n invM q j i :=
  inv_skew_on (slaterSkew_on hsk) hrs (hok q hq).2 i hi j hj

/-- C22: in every state and in every stored sample of the Sz-conserving sampler, after any number of accepted and
rejected hops and exchanges and refreshes, `PfM` and `InvM` are exact for the current electron positions and the stored
inner product is `Σ_q w_q Pf_q`. `hnz`: a move is only accepted when its new Pfaffian is non-zero for every projection. -/
theorem C22_sampler {β γ : Type} (k : Hooks β γ) (p : SamplerPar) (lib : SkLib K) (hlib : LibOK lib) (htot : LibTotal lib)
    (slt w : Nat → K) (qpStart qpEnd : Nat) (ps : β → PfState K) (ip : β → K) (pn : γ → Nat → K) (ipn : γ → K)
    (hk : CarriesPf p lib slt w qpStart qpEnd k ps ip pn ipn)
    (hsk : ∀ q, q < qpEnd - qpStart → SlaterSkew (2 * p.Nsite) slt (q + qpStart))
    (hnz : ∀ b g u, k.accept b g u = true → ∀ q, q < qpEnd - qpStart → pn g q ≠ 0)
    (hNe : 0 < p.Ne) (hNs : 0 < p.Nsite) (burn : Bool) (warmUp nSample interval : Nat) (c : EleCfg) (b : β)
    (r r' : List Nat) (st' : SState β) (saved : List (Nat × SState β))
    (hc : Consistent p.Ne p.Nsite c.idx c.cfg c.num) (hl : LocalSingle p.Nsite p.locSpn c.num)
    (h0 : PfOK (2 * p.Ne) (2 * p.Nsite) slt qpStart (qpEnd - qpStart) (occSz p.Ne p.Nsite c.idx) (ps b).pfM (ps b).invM)
    (hip : ip b = amplitude (2 * p.Ne) (2 * p.Nsite) slt w qpStart (qpEnd - qpStart) (occSz p.Ne p.Nsite c.idx))
    (e : vmcMakeSample k p burn warmUp nSample interval c b r = some (st', saved, r')) :
    (∀ x ∈ saved,
      PfOK (2 * p.Ne) (2 * p.Nsite) slt qpStart (qpEnd - qpStart) (occSz p.Ne p.Nsite x.2.c.idx) (ps x.2.b).pfM (ps x.2.b).invM ∧
      ip x.2.b = amplitude (2 * p.Ne) (2 * p.Nsite) slt w qpStart (qpEnd - qpStart) (occSz p.Ne p.Nsite x.2.c.idx)) ∧
    PfOK (2 * p.Ne) (2 * p.Nsite) slt qpStart (qpEnd - qpStart) (occSz p.Ne p.Nsite st'.c.idx) (ps st'.b).pfM (ps st'.b).invM ∧
      ip st'.b = amplitude (2 * p.Ne) (2 * p.Nsite) slt w qpStart (qpEnd - qpStart) (occSz p.Ne p.Nsite st'.c.idx) := by
  have hi : SInv p (fun c b => PfCarried (2 * p.Ne) (2 * p.Nsite) slt w qpStart (qpEnd - qpStart) (occSz p.Ne p.Nsite c.idx)
      (ps b) (ip b)) (⟨c, b, 0, 0, 0, 0, 0⟩ : SState β) :=
    ⟨hc, hl, ⟨h0, hip⟩, Nat.zero_le _, Nat.le_refl _, Nat.le_refl _⟩
  have := outerLoop_inv (carries_qok hlib htot hk hsk hnz) hNe hNs _ _ _ _ _ hi (by simp) e
  exact ⟨fun x hx => (this.2 x hx).q, this.1.q⟩

/-- C22: the same for the general-Sz sampler. -/
theorem C22_sampler_fsz {β γ : Type} (k : FHooks β γ) (p : FPar) (lib : SkLib K) (hlib : LibOK lib) (htot : LibTotal lib)
    (slt w : Nat → K) (qpStart qpEnd : Nat) (ps : β → PfState K) (ip : β → K) (pn : γ → Nat → K) (ipn : γ → K)
    (hk : CarriesPfF p lib slt w qpStart qpEnd k ps ip pn ipn)
    (hsk : ∀ q, q < qpEnd - qpStart → SlaterSkew (2 * p.Nsite) slt (q + qpStart))
    (hnz : ∀ b g u, k.accept b g u = true → ∀ q, q < qpEnd - qpStart → pn g q ≠ 0)
    (hNe : 0 < p.Ne) (hNs : 0 < p.Nsite) (hlb : ∀ r < p.Nsite, p.locSpn r = 0 ∨ p.locSpn r = 1)
    (burn : Bool) (warmUp nSample interval : Nat) (c : FCfg) (b : β)
    (r r' : List Nat) (st' : FState β) (saved : List (Nat × FState β))
    (hc : ConsistentF (2 * p.Ne) p.Nsite c.idx c.spn c.cfg c.num) (hl : LocalSingle p.Nsite p.locSpn c.num)
    (h0 : PfOK (2 * p.Ne) (2 * p.Nsite) slt qpStart (qpEnd - qpStart) (occF p.Nsite c.idx c.spn) (ps b).pfM (ps b).invM)
    (hip : ip b = amplitude (2 * p.Ne) (2 * p.Nsite) slt w qpStart (qpEnd - qpStart) (occF p.Nsite c.idx c.spn))
    (e : vmcMakeSampleF k p burn warmUp nSample interval c b r = some (st', saved, r')) :
    (∀ x ∈ saved,
      PfOK (2 * p.Ne) (2 * p.Nsite) slt qpStart (qpEnd - qpStart) (occF p.Nsite x.2.c.idx x.2.c.spn) (ps x.2.b).pfM (ps x.2.b).invM ∧
      ip x.2.b = amplitude (2 * p.Ne) (2 * p.Nsite) slt w qpStart (qpEnd - qpStart) (occF p.Nsite x.2.c.idx x.2.c.spn)) ∧
    PfOK (2 * p.Ne) (2 * p.Nsite) slt qpStart (qpEnd - qpStart) (occF p.Nsite st'.c.idx st'.c.spn) (ps st'.b).pfM (ps st'.b).invM ∧
      ip st'.b = amplitude (2 * p.Ne) (2 * p.Nsite) slt w qpStart (qpEnd - qpStart) (occF p.Nsite st'.c.idx st'.c.spn) := by
  have hi : FInv p (fun c b => PfCarried (2 * p.Ne) (2 * p.Nsite) slt w qpStart (qpEnd - qpStart) (occF p.Nsite c.idx c.spn)
      (ps b) (ip b)) (magnetisation p.Nsite c.num) (⟨c, b, 0, fun _ => 0⟩ : FState β) :=
    ⟨hc, hl, ⟨h0, hip⟩, Nat.zero_le _, fun _ _ => rfl, Nat.le_refl _, Nat.le_refl _, Nat.le_refl _⟩
  have := outerLoopF_inv (carries_fqok hlib htot hk hsk hnz) hNe hNs hlb _ _ _ _ _ hi (by simp) e
  exact ⟨fun x hx => (this.2 x hx).q, this.1.q⟩

/-! ## C23 -/

/-- C23: `CalculateNewPfMTwo_fcmp`, `CalculateNewPfMTwo2_fcmp`, including the branch in which both numbers name the
same electron. -/
theorem C23_new_pfaffian_two (p : PfPar) (slt : Nat → K) (ma s mb t : Nat) (idx idx' : Arr) (qpStart nq q : Nat) (st : PfState K)
    (hma : ma < p.Ne) (hs : s < 2) (hmb : mb < p.Ne) (ht : t < 2) (hq : q < nq)
    (hsk : SlaterSkew (2 * p.Nsite) slt (q + qpStart))
    (hi : OnSites (2 * p.Ne) p.Nsite idx) (hi' : OnSites (2 * p.Ne) p.Nsite idx')
    (hsame : ∀ i, i < 2 * p.Ne → i ≠ ma + s * p.Ne → i ≠ mb + t * p.Ne → idx' i = idx i)
    (hok : PfOK (2 * p.Ne) (2 * p.Nsite) slt qpStart nq (occSz p.Ne p.Nsite idx) st.pfM st.invM) :
    calculateNewPfMTwo p slt ma s mb t idx' qpStart st q
      = pfOf (entry (2 * p.Nsite) slt (q + qpStart)) (2 * p.Ne) (occSz p.Ne p.Nsite idx') :=
  newPfMTwo_ok hma hs hmb ht hsk hi hi' hsame hq hok

/-- C23: `CalculateNewPfMTwo_fsz`, `CalculateNewPfMTwo2_fsz`. -/
theorem C23_new_pfaffian_two_fsz (p : PfPar) (slt : Nat → K) (ma s mb t : Nat) (idx spn idx' spn' : Arr) (qpStart nq q : Nat)
    (st : PfState K) (hma : ma < 2 * p.Ne) (hmb : mb < 2 * p.Ne) (hq : q < nq)
    (hsk : SlaterSkew (2 * p.Nsite) slt (q + qpStart))
    (hi : OnSites (2 * p.Ne) p.Nsite idx) (hi' : OnSites (2 * p.Ne) p.Nsite idx') (hsp' : Spins (2 * p.Ne) spn')
    (hs2 : s < 2) (ht2 : t < 2) (hs : spn' ma = ((s : Nat) : Int)) (ht : spn' mb = ((t : Nat) : Int))
    (hsame : ∀ i, i < 2 * p.Ne → i ≠ ma → i ≠ mb → idx' i = idx i ∧ spn' i = spn i)
    (hok : PfOK (2 * p.Ne) (2 * p.Nsite) slt qpStart nq (occF p.Nsite idx spn) st.pfM st.invM) :
    calculateNewPfMTwoFsz p slt ma s mb t idx' spn' qpStart st q
      = pfOf (entry (2 * p.Nsite) slt (q + qpStart)) (2 * p.Ne) (occF p.Nsite idx' spn') :=
  newPfMTwoFsz_ok hma hmb hsk hi hi' hsp' hs2 ht2 hs ht hsame hq hok

/-- C23: `UpdateMAllTwo_fcmp`; `raOld` is arbitrary: the entry of the old matrix that the code looks up with the
wrong row (`raOld+t*Nsite`) has no influence on the result. -/
theorem C23_update_two (p : PfPar) (slt : Nat → K) (ma s mb t raOld : Nat) (idx idx' : Arr) (qpStart qpEnd : Nat) (st : PfState K)
    (hma : ma < p.Ne) (hs : s < 2) (hmb : mb < p.Ne) (ht : t < 2) (hab : ma + s * p.Ne ≠ mb + t * p.Ne)
    (hsk : ∀ q, q < qpEnd - qpStart → SlaterSkew (2 * p.Nsite) slt (q + qpStart))
    (hi : OnSites (2 * p.Ne) p.Nsite idx) (hi' : OnSites (2 * p.Ne) p.Nsite idx')
    (hsame : ∀ i, i < 2 * p.Ne → i ≠ ma + s * p.Ne → i ≠ mb + t * p.Ne → idx' i = idx i)
    (hok : PfOK (2 * p.Ne) (2 * p.Nsite) slt qpStart (qpEnd - qpStart) (occSz p.Ne p.Nsite idx) st.pfM st.invM)
    (h0 : ∀ q, q < qpEnd - qpStart →
      pfOf (entry (2 * p.Nsite) slt (q + qpStart)) (2 * p.Ne) (occSz p.Ne p.Nsite idx') ≠ 0) :
    let st' := updateMAllTwo p slt ma s mb t raOld idx' qpStart qpEnd st
    PfOK (2 * p.Ne) (2 * p.Nsite) slt qpStart (qpEnd - qpStart) (occSz p.Ne p.Nsite idx') st'.pfM st'.invM :=
  updateMAllTwo_ok hma hs hmb ht hab hsk hi hi' hsame hok h0

/-- C23: `UpdateMAllTwo_fsz`. -/
theorem C23_update_two_fsz (p : PfPar) (slt : Nat → K) (ma s mb t raOld : Nat) (idx spn idx' spn' : Arr) (qpStart qpEnd : Nat)
    (st : PfState K) (hma : ma < 2 * p.Ne) (hmb : mb < 2 * p.Ne) (hab : ma ≠ mb)
    (hsk : ∀ q, q < qpEnd - qpStart → SlaterSkew (2 * p.Nsite) slt (q + qpStart))
    (hi : OnSites (2 * p.Ne) p.Nsite idx) (hi' : OnSites (2 * p.Ne) p.Nsite idx') (hsp' : Spins (2 * p.Ne) spn')
    (hs2 : s < 2) (ht2 : t < 2) (hs : spn' ma = ((s : Nat) : Int)) (ht : spn' mb = ((t : Nat) : Int))
    (hsame : ∀ i, i < 2 * p.Ne → i ≠ ma → i ≠ mb → idx' i = idx i ∧ spn' i = spn i)
    (hok : PfOK (2 * p.Ne) (2 * p.Nsite) slt qpStart (qpEnd - qpStart) (occF p.Nsite idx spn) st.pfM st.invM)
    (h0 : ∀ q, q < qpEnd - qpStart →
      pfOf (entry (2 * p.Nsite) slt (q + qpStart)) (2 * p.Ne) (occF p.Nsite idx' spn') ≠ 0) :
    let st' := updateMAllTwoFsz p slt ma s mb t raOld idx' spn' qpStart qpEnd st
    PfOK (2 * p.Ne) (2 * p.Nsite) slt qpStart (qpEnd - qpStart) (occF p.Nsite idx' spn') st'.pfM st'.invM :=
  updateMAllTwoFsz_ok hma hmb hab hsk hi hi' hsp' hs2 ht2 hs ht hsame hok h0

/-! ## The hypothesis `hnz` is not redundant -/

/-- two projections on two sites; in the first one the pair function vanishes on (site 1 up, site 0 down) -/
def zeroSlt : Nat → ℚ := fun k =>
  [0,0,1,0, 0,0,0,0, -1,0,0,0, 0,0,0,0,   0,0,1,0, 0,0,1,0, -1,-1,0,0, 0,0,0,0].getD k 0

/-- C22: with more than one projection a move can have a non-zero amplitude although one projection's new Pfaffian is
zero; the Metropolis test looks at the weighted sum only, so it can be accepted; then that projection has no inverse,
whatever `UpdateMAll` writes (the code divides by zero), and the arrays are wrong from then on. -/
theorem C22_zero_projection_witness :
    amplitude 2 4 zeroSlt (fun _ => 1) 0 2 (occSz 1 2 (fun k => if k = 0 then 1 else 0)) ≠ 0 ∧
    (∃ pfM invM, PfOK 2 4 zeroSlt 0 2 (occSz 1 2 (fun _ => 0)) pfM invM) ∧
    ∀ pfM invM, ¬ PfOK 2 4 zeroSlt 0 2 (occSz 1 2 (fun k => if k = 0 then 1 else 0)) pfM invM := by
  refine ⟨?_, ⟨fun _ => 1, fun k => [0,-1,1,0,0,-1,1,0].getD k 0, ?_⟩, ?_⟩
  · simp [amplitude, Finset.sum_range_succ, pfOf, pf, pfN, altSum, entry, zeroSlt, occSz, List.range_succ]
  · intro q hq
    refine ⟨?_, ?_⟩
    · interval_cases q <;> simp [pfOf, pf, pfN, altSum, entry, zeroSlt, occSz, List.range_succ]
    · intro i hi j hj
      interval_cases q <;> interval_cases i <;> interval_cases j <;>
        simp [Finset.sum_range_succ, entry, zeroSlt, occSz]
  · intro pfM invM h
    have := (h 0 (by omega)).2 0 (by omega) 0 (by omega)
    simp [Finset.sum_range_succ, entry, zeroSlt, occSz] at this

/-! ## Examples: two up and two down electrons on three sites -/

/-- `F(x,y) = (y-x)^3`-like antisymmetric pair function on 6 spin orbitals, one projection -/
def exSlt : Nat → ℚ := fun k => ((((k % 6 : Nat) : ℚ) - ((k / 6 : Nat) : ℚ)) ^ 3)

example : SlaterSkew 6 exSlt 0 := by
  constructor
  · intro x y hx hy
    unfold entry exSlt
    rw [show (0 * 6 * 6 + x * 6 + y) % 6 = y by omega, show (0 * 6 * 6 + x * 6 + y) / 6 = x by omega,
      show (0 * 6 * 6 + y * 6 + x) % 6 = x by omega, show (0 * 6 * 6 + y * 6 + x) / 6 = y by omega]
    ring
  · intro x hx
    unfold entry exSlt
    rw [show (0 * 6 * 6 + x * 6 + x) % 6 = x by omega, show (0 * 6 * 6 + x * 6 + x) / 6 = x by omega]
    ring

/-- up electrons on 0,1; down on 0,2 -/
def exIdx : Arr := fun k => [0, 1, 0, 2].getD k 0
/-- the first up electron moved to site 2 -/
def exIdx1 : Arr := fun k => [2, 1, 0, 2].getD k 0
/-- and the second down electron moved to site 1 -/
def exIdx2 : Arr := fun k => [2, 1, 0, 1].getD k 0

-- occupied spin orbitals 0,1,3,5; Pf = A01 A35 - A03 A15 + A05 A13
example : pfOf (entry 6 exSlt 0) 4 (occSz 2 3 exIdx) = -720 := by decide +kernel
example : pfOf (entry 6 exSlt 0) 4 (occSz 2 3 exIdx1) = 144 := by decide +kernel

/-- the exact state for `exIdx` -/
def exSt : PfState ℚ where
  pfM := fun _ => -720
  invM := fun k => [0, -8/(-720), 64/(-720), -8/(-720), 8/(-720), 0, -125/(-720), 27/(-720),
    -64/(-720), 125/(-720), 0, -1/(-720), 8/(-720), -27/(-720), 1/(-720), 0].getD k 0

theorem exSt_ok : PfOK 4 6 exSlt 0 1 (occSz 2 3 exIdx) exSt.pfM exSt.invM := by
  intro q hq
  have : q = 0 := by omega
  subst this
  constructor
  · decide +kernel
  · unfold IsInv; decide +kernel

-- the update really produces the values for the moved electrons, inverse included
example : calculateNewPfM ⟨2, 3⟩ exSlt 0 0 exIdx1 0 exSt 0 = 144 := by decide +kernel
example : (updateMAll ⟨2, 3⟩ exSlt 0 0 exIdx1 0 1 exSt).pfM 0 = 144 ∧
    (updateMAll ⟨2, 3⟩ exSlt 0 0 exIdx1 0 1 exSt).invM 1 = -1/18 := by decide +kernel
example : calculateNewPfMTwo ⟨2, 3⟩ exSlt 0 0 1 1 exIdx2 0 exSt 0 =
    pfOf (entry 6 exSlt 0) 4 (occSz 2 3 exIdx2) ∧ pfOf (entry 6 exSlt 0) 4 (occSz 2 3 exIdx2) ≠ 0 := by decide +kernel

/-- the contract assumed of the factorisation library can be met -/
theorem lib_exists : ∃ lib : SkLib K, LibOK lib ∧ LibTotal lib := by
  classical
  let good (n : Nat) (b inv : Nat → K) : Prop := ∀ i, i < n → ∀ j, j < n →
    ∑ k ∈ Finset.range n, inv (i + n * k) * b (k + n * j) = if i = j then 1 else 0
  refine ⟨fun n b => if h : ∃ inv, good n b inv then some (pfOf (fun i j => b (i + n * j)) n id, h.choose) else none, ?_, ?_⟩
  · intro n b pfaff inv h _ _
    simp only at h
    split at h
    · rename_i hx
      simp only [Option.some.injEq, Prod.mk.injEq] at h
      obtain ⟨rfl, rfl⟩ := h
      exact ⟨rfl, hx.choose_spec⟩
    · simp at h
  · intro n b inv _ _ h
    have hx : ∃ inv, good n b inv := ⟨inv, h⟩
    simp only [hx, dif_pos]
    exact ⟨_, rfl⟩

/-- hooks that carry exactly the Pfaffian quantities; accepts iff the new inner product is non-zero -/
noncomputable def pfHooks (p : SamplerPar) (lib : SkLib K) (slt w : Nat → K) (qs qe : Nat) :
    Hooks (PfState K × K) ((Nat → K) × K) where
  propHop := fun c' h b =>
    let f := calculateNewPfM p.pf slt h.mi h.s c'.idx qs b.1
    (f, calculateIPLocal w f qs qe)
  propExch := fun _ c2 h h2 b =>
    let f := calculateNewPfMTwo p.pf slt h.mi h.s h2.mi h2.s c2.idx qs b.1
    (f, calculateIPLocal w f qs qe)
  accept := fun _ g _ => by
    classical
    exact decide (g.2 ≠ 0 ∧ ∀ q, q < qe - qs → g.1 q ≠ 0)
  commitHop := fun c' h b g => (updateMAll p.pf slt h.mi h.s c'.idx qs qe b.1, g.2)
  commitExch := fun c' h h2 b g => (updateMAllTwo p.pf slt h.mi h.s h2.mi h2.s h.ri c'.idx qs qe b.1, g.2)
  refresh := fun c b =>
    match calculateMAll p.pf lib slt qs qe (rsSz p.pf c.idx) b.1 with
    | none => b
    | some st => (st, calculateIPLocal w st.pfM qs qe)

example (p : SamplerPar) (lib : SkLib K) (slt w : Nat → K) (qs qe : Nat) :
    CarriesPf p lib slt w qs qe (pfHooks p lib slt w qs qe) Prod.fst Prod.snd Prod.fst Prod.snd := by
  refine ⟨fun _ _ _ _ _ => rfl, fun _ _ _ => rfl, fun _ _ _ _ _ _ _ => rfl, fun _ _ _ _ _ => rfl, fun _ _ _ _ => rfl,
    fun _ _ _ _ => rfl, fun _ _ _ _ _ => rfl, fun _ _ _ _ _ => rfl, ?_⟩
  intro c b st' h
  simp only [pfHooks, h, and_self]

example (p : SamplerPar) (lib : SkLib K) (slt w : Nat → K) (qs qe : Nat) (b : PfState K × K) (g : (Nat → K) × K) (u : Nat)
    (h : (pfHooks p lib slt w qs qe).accept b g u = true) : ∀ q, q < qe - qs → g.1 q ≠ 0 := by
  simp only [pfHooks, decide_eq_true_eq] at h
  exact h.2

end MVMC
