import Verif.Proof.SamplerFszInit

/-! # C08 and the general-Sz halves of C07, C09, C10, C11, C18 -/
namespace MVMC
open Spec

theorem fqok_trivial {β γ : Type} (k : FHooks β γ) (p : FPar) : FQOK k p (fun _ _ => True) :=
  ⟨fun _ _ _ _ _ _ _ _ => trivial, fun _ _ _ _ _ _ _ _ _ _ _ _ _ _ _ _ => trivial,
    fun _ _ _ _ => trivial⟩

/-! ## C08, C07 -/

/-- C08/C07: for every random stream and whatever the weights and accept decisions, all four tables
stay mutually consistent, the number of electrons stays `2*Ne`, and local-spin sites stay singly occupied.
`hb` says that `LocSpn[]` contains only 0 and 1 (not checked by the input reader). -/
theorem C08_every_configuration_consistent {β γ : Type} (k : FHooks β γ) (p : FPar)
    (hNe : 0 < p.Ne) (hNs : 0 < p.Nsite) (hb : ∀ r < p.Nsite, p.locSpn r = 0 ∨ p.locSpn r = 1)
    (n : Nat) (c : FCfg) (b : β) (st' : FState β) (r r' : List Nat)
    (hc : ConsistentF (2 * p.Ne) p.Nsite c.idx c.spn c.cfg c.num)
    (hl : LocalSingle p.Nsite p.locSpn c.num)
    (e : innerLoopF k p n ⟨c, b, 0, fun _ => 0⟩ r = some (st', r')) :
    ConsistentF (2 * p.Ne) p.Nsite st'.c.idx st'.c.spn st'.c.cfg st'.c.num ∧
    LocalSingle p.Nsite p.locSpn st'.c.num ∧
    spinCount p.Nsite st'.c.num 0 + spinCount p.Nsite st'.c.num 1 = 2 * p.Ne := by
  have hi : FInv p (fun _ _ => True) (magnetisation p.Nsite c.num) (⟨c, b, 0, fun _ => 0⟩ : FState β) :=
    ⟨hc, hl, trivial, Nat.zero_le _, fun _ _ => rfl, Nat.le_refl _, Nat.le_refl _, Nat.le_refl _⟩
  have := innerLoopF_inv (fqok_trivial k p) hNe hNs hb n hi e
  refine ⟨this.cons, this.loc, ?_⟩
  have := spinCountF_total this.cons
  simp only [FPar.Nsize] at this
  push_cast at this
  exact this

/-- C08, restricted to `NExUpdatePath ≠ 3`: with a fixed 2Sz the magnetisation of every
visited configuration equals the initial one. What is missing: path 3, see
`C08_path3_changes_magnetisation`. -/
theorem C08_magnetisation_conserved_partial {β γ : Type} (k : FHooks β γ) (p : FPar)
    (hNe : 0 < p.Ne) (hNs : 0 < p.Nsite) (hb : ∀ r < p.Nsite, p.locSpn r = 0 ∨ p.locSpn r = 1)
    (hsz : p.twoSz ≠ -1) (hpath : p.exPath ≠ 3)
    (n : Nat) (c : FCfg) (b : β) (st' : FState β) (r r' : List Nat)
    (hc : ConsistentF (2 * p.Ne) p.Nsite c.idx c.spn c.cfg c.num)
    (hl : LocalSingle p.Nsite p.locSpn c.num)
    (e : innerLoopF k p n ⟨c, b, 0, fun _ => 0⟩ r = some (st', r')) :
    magnetisation p.Nsite st'.c.num = magnetisation p.Nsite c.num := by
  have hi : FInv p (fun _ _ => True) (magnetisation p.Nsite c.num) (⟨c, b, 0, fun _ => 0⟩ : FState β) :=
    ⟨hc, hl, trivial, Nat.zero_le _, fun _ _ => rfl, Nat.le_refl _, Nat.le_refl _, Nat.le_refl _⟩
  exact (innerLoopF_inv (fqok_trivial k p) hNe hNs hb n hi e).mag hsz hpath

/-- C08 for a whole sampling call: all stored samples are consistent, respect the local spins, and
the acceptance counters never exceed the attempts. -/
theorem C08_stored_samples_consistent {β γ : Type} (k : FHooks β γ) (p : FPar)
    (hNe : 0 < p.Ne) (hNs : 0 < p.Nsite) (hb : ∀ r < p.Nsite, p.locSpn r = 0 ∨ p.locSpn r = 1)
    (burn : Bool) (warmUp nSample interval : Nat) (c : FCfg) (b : β)
    (r r' : List Nat) (st' : FState β) (saved : List (Nat × FState β))
    (hc : ConsistentF (2 * p.Ne) p.Nsite c.idx c.spn c.cfg c.num)
    (hl : LocalSingle p.Nsite p.locSpn c.num)
    (e : vmcMakeSampleF k p burn warmUp nSample interval c b r = some (st', saved, r')) :
    (∀ x ∈ saved, ConsistentF (2 * p.Ne) p.Nsite x.2.c.idx x.2.c.spn x.2.c.cfg x.2.c.num ∧
      LocalSingle p.Nsite p.locSpn x.2.c.num) ∧
    ConsistentF (2 * p.Ne) p.Nsite st'.c.idx st'.c.spn st'.c.cfg st'.c.num ∧
    LocalSingle p.Nsite p.locSpn st'.c.num ∧
    st'.cnt 1 ≤ st'.cnt 0 ∧ st'.cnt 3 ≤ st'.cnt 2 ∧ st'.cnt 5 ≤ st'.cnt 4 := by
  have hi : FInv p (fun _ _ => True) (magnetisation p.Nsite c.num) (⟨c, b, 0, fun _ => 0⟩ : FState β) :=
    ⟨hc, hl, trivial, Nat.zero_le _, fun _ _ => rfl, Nat.le_refl _, Nat.le_refl _, Nat.le_refl _⟩
  have := outerLoopF_inv (fqok_trivial k p) hNe hNs hb _ _ _ _ _ hi (by simp) e
  exact ⟨fun x hx => ⟨(this.2 x hx).cons, (this.2 x hx).loc⟩, this.1.cons, this.1.loc, this.1.c1,
    this.1.c3, this.1.c5⟩

/-- C18 in the general-Sz sampler. -/
theorem C18_slots_written_once_in_order_fsz {β γ : Type} (k : FHooks β γ) (p : FPar) (burn : Bool)
    (warmUp nSample interval : Nat) (c : FCfg) (b : β) (r r' : List Nat) (st' : FState β)
    (saved : List (Nat × FState β))
    (e : vmcMakeSampleF k p burn warmUp nSample interval c b r = some (st', saved, r')) :
    (saved.map Prod.fst).reverse = List.range nSample := by
  have hle : nSample ≤ nOutStep burn warmUp nSample := by unfold nOutStep; split <;> omega
  have e' := e
  unfold vmcMakeSampleF at e'
  have := outerLoopF_slots k p (interval * p.Nsite) (nOutStep burn warmUp nSample) nSample
    (nOutStep burn warmUp nSample) (saved := []) hle (Nat.le_refl _) (by simp) (by simpa using e')
  rw [this, List.reverse_reverse]

/-- In a consistent configuration no two electrons share site and spin. -/
theorem C08_no_double_occupancy (Nsize Nsite : Nat) (idx spn cfg num : Nat → Int)
    (hc : ConsistentF Nsize Nsite idx spn cfg num) (a b : Nat) (ha : a < Nsize) (hb : b < Nsize)
    (h1 : idx a = idx b) (h2 : spn a = spn b) : a = b := by
  obtain ⟨ra, _, sa, _, x1, x2, x3⟩ := hc.electron a ha
  obtain ⟨rb, _, sb, _, y1, y2, y3⟩ := hc.electron b hb
  have e1 : ra = rb := by omega
  have e2 : sa = sb := by omega
  subst e1; subst e2; omega

/-! ### the path-3 defect -/

/-- Two sites, site 0 a local spin, one up and one down electron, `NExUpdatePath=3` and fixed 2Sz=0.
All checks of `readdef.c:596-635` accept this. -/
def path3Par : FPar := ⟨1, 2, fun r => if r = 0 then 1 else 0, 3, 0⟩

/-- electron 0 (up) on site 0, electron 1 (down) on site 1 -/
def path3Cfg : FCfg where
  idx := fun k => if k = 0 then 0 else 1
  spn := fun k => if k = 0 then 0 else 1
  cfg := fun k => if k = 0 then 0 else if k = 3 then 1 else -1
  num := fun k => if k = 0 then 1 else if k = 3 then 1 else 0

def acceptAll : FHooks Unit Unit := ⟨fun _ _ _ => (), fun _ _ _ _ _ => (), fun _ _ _ => true,
  fun _ _ _ _ => (), fun _ _ _ _ _ => (), fun _ b => b⟩

example : ConsistentF 2 2 path3Cfg.idx path3Cfg.spn path3Cfg.cfg path3Cfg.num := by
  constructor <;> decide

/-- Finding: `getUpdateType` does not look at `TwoSz` for path 3, so a local spin flip happens although
2Sz = 0 was requested; the magnetisation jumps from 0 to -2. -/
theorem C08_path3_changes_magnetisation :
    path3Par.twoSz ≠ -1 ∧ magnetisation 2 path3Cfg.num = 0 ∧
    (innerLoopF acceptAll path3Par 1 ⟨path3Cfg, (), 0, fun _ => 0⟩
      [4000000000, 4000000000, 0, 0]).map (fun x => magnetisation 2 x.1.c.num) = some (-2) := by
  decide

/-! ### unchecked `LocSpn` values -/

/-- One site marked with the value 2 in locspn.def, doubly occupied, Sz not fixed. -/
def locTwoPar : FPar := ⟨1, 1, fun _ => 2, 2, -1⟩

def locTwoCfg : FCfg where
  idx := fun _ => 0
  spn := fun k => if k = 0 then 0 else 1
  cfg := fun k => if k = 0 then 0 else 1
  num := fun _ => 1

example : ConsistentF 2 1 locTwoCfg.idx locTwoCfg.spn locTwoCfg.cfg locTwoCfg.num := by
  constructor <;> decide

/-- Finding: the samplers test `LocSpn==1` in some places and `LocSpn==0` in others, and the reader
accepts any value. With the value 2 a spin flip is done on a doubly occupied site, which makes
one electron vanish from the occupation table and leaves two electrons in the same orbital. -/
theorem C08_locspn_other_value_breaks_tables :
    (innerLoopF acceptAll locTwoPar 1 ⟨locTwoCfg, (), 0, fun _ => 0⟩ [4000000000, 0, 0]).map
      (fun x => (spinCount 1 x.1.c.num 0 + spinCount 1 x.1.c.num 1,
        x.1.c.idx 0, x.1.c.spn 0, x.1.c.idx 1, x.1.c.spn 1)) = some (1, 0, 1, 0, 1) := by
  decide

/-! ## C09 -/

/-- C09: every single-electron proposal (hop, spin-changing hop, conduction-electron flip) that is rejected
is undone completely. -/
theorem C09_rejected_move_restores_fsz (p : FPar) (c : FCfg) (hNe : 0 < p.Ne) (hNs : 0 < p.Nsite)
    (hc : ConsistentF (2 * p.Ne) p.Nsite c.idx c.spn c.cfg c.num) (r r' : List Nat) (fh : Bool) (h : FMove)
    (e : hopCandidateF p c r = some ((fh, h, false), r')) :
    revertEleConfigF p h (updateEleConfigF p h c) = c :=
  revertF_update hc (hopCandidateF_ok hc hNe hNs r e).1

theorem C09_rejected_spinflip_restores_fsz (p : FPar) (c : FCfg) (hNe : 0 < p.Ne)
    (hb : ∀ r < p.Nsite, p.locSpn r = 0 ∨ p.locSpn r = 1)
    (hc : ConsistentF (2 * p.Ne) p.Nsite c.idx c.spn c.cfg c.num)
    (hl : LocalSingle p.Nsite p.locSpn c.num) (r r' : List Nat) (h : FMove)
    (e : localSpinFlip p c r = some (h, r')) :
    revertEleConfigF p h (updateEleConfigF p h c) = c :=
  revertF_update hc (localFlip_ok hc hNe hb hl r e).1

theorem C09_rejected_exchange_restores_fsz (p : FPar) (c : FCfg) (hNe : 0 < p.Ne)
    (hc : ConsistentF (2 * p.Ne) p.Nsite c.idx c.spn c.cfg c.num) (r r' : List Nat) (h : FMove)
    (e : makeCandidateExchangeF p c r = some (some h, r')) :
    revertEleConfigF p h (revertEleConfigF p (partnerMove p c h)
      (updateEleConfigF p (partnerMove p c h) (updateEleConfigF p h c))) = c := by
  obtain ⟨ok, ok2, _⟩ := exchangeF_ok hc hNe r e
  rw [revertF_update (updateF_cons hc ok) ok2, revertF_update hc ok]

/-! ## C10 -/

/-- C10: whenever the general-Sz initial placement returns, tables are consistent, local-spin sites hold one
electron, and the magnetisation is the requested 2Sz (0 when 2Sz is free). `hsz` says the request is
possible at all; `heven` is the input check at `readdef.c:604`. -/
theorem C10_initial_configuration_valid_fsz (p : FPar) (bad : FCfg → Bool) (hNe : 0 < p.Ne)
    (hNs : 0 < p.Nsite) (c : FCfg) (r r' : List Nat)
    (hsz : -(2 * p.Ne : Int) ≤ p.twoSz ∧ p.twoSz ≤ 2 * p.Ne)
    (heven : p.twoSz = -1 ∨ p.twoSz % 2 = 0)
    (e : makeInitialSampleF p bad 100 r = some (.ok c r')) :
    ConsistentF (2 * p.Ne) p.Nsite c.idx c.spn c.cfg c.num ∧ LocalSingle p.Nsite p.locSpn c.num ∧
    magnetisation p.Nsite c.num = (if p.twoSz = -1 then 0 else p.twoSz) ∧ bad c = false := by
  obtain ⟨h1, h2, h3, h4⟩ := makeInitialSampleF_ok bad hNe hNs 100 e
  refine ⟨h1, h2, ?_, h4⟩
  have htmp : -(p.Ne : Int) ≤ tmpTwoSz p.twoSz ∧ tmpTwoSz p.twoSz ≤ p.Ne ∧
      2 * tmpTwoSz p.twoSz = (if p.twoSz = -1 then 0 else p.twoSz) := by
    unfold tmpTwoSz
    split
    · omega
    · rename_i hz
      have hev : p.twoSz % 2 = 0 := heven.resolve_left hz
      obtain ⟨q, hq⟩ := Int.dvd_of_emod_eq_zero hev
      rw [hq, Int.mul_tdiv_cancel_left q (by omega)]
      omega
  have hup := initSpn_up htmp.1 htmp.2.1
  have s0 := spinCountF_eq h1 (s := 0) (by omega)
  rw [h3, hup] at s0
  have tot := spinCountF_total h1
  simp only [FPar.Nsize] at tot
  push_cast at tot
  unfold magnetisation
  omega

/-- An initial configuration with 2Sz = 2: three sites, one of them a local spin, two electrons. -/
example : (initialPassF ⟨1, 3, fun r => if r = 1 then 1 else 0, 1, 2⟩ [0, 1, 2]).map
    (fun x => ((List.range 6).map x.1.num, magnetisation 3 x.1.num, x.2)) = some ([0,1,1,0,0,0], 2, []) := by
  decide

/-! ## C11 -/

/-- C11: the exchange of the general-Sz sampler is rejected iff there is no pair of singly occupied
sites of opposite spin. -/
theorem C11_reject_iff_no_pair_fsz (p : FPar) (c : FCfg)
    (hc : ConsistentF (2 * p.Ne) p.Nsite c.idx c.spn c.cfg c.num) (r : List Nat) :
    makeCandidateExchangeF p c r = some (none, r) ↔
    ¬ ∃ ri rj, ri < p.Nsite ∧ rj < p.Nsite ∧ c.num ri = 1 ∧ c.num (ri + p.Nsite) = 0 ∧
        c.num rj = 0 ∧ c.num (rj + p.Nsite) = 1 := by
  have key := scanPair_iff (p := p) hc (List.range p.Nsite) (fun r hr => List.mem_range.mp hr) 0 0
    (by omega) (by omega) (fun _ => rfl)
  have key2 : scanPair p c (List.range p.Nsite) 0 0 = true ↔
      ∃ ri rj, ri < p.Nsite ∧ rj < p.Nsite ∧ c.num ri = 1 ∧ c.num (ri + p.Nsite) = 0 ∧
        c.num rj = 0 ∧ c.num (rj + p.Nsite) = 1 := by
    rw [key]
    simp only [List.mem_range]
    constructor
    · rintro ⟨h1, h2⟩
      obtain ⟨ri, a1, a2, a3⟩ := h1.resolve_right (by omega)
      obtain ⟨rj, b1, b2, b3⟩ := h2.resolve_right (by omega)
      exact ⟨ri, rj, a1, b1, a2, a3, b2, b3⟩
    · rintro ⟨ri, rj, a1, b1, a2, a3, b2, b3⟩
      exact ⟨Or.inl ⟨ri, a1, a2, a3⟩, Or.inl ⟨rj, b1, b2, b3⟩⟩
  rw [← key2]
  unfold makeCandidateExchangeF
  constructor
  · intro h hs
    rw [if_pos hs] at h
    split at h
    · simp at h
    · split at h
      · simp at h
      · simp at h
  · intro h
    rw [if_neg h]

/-- C11: if a pair exists, two draws make the search return at once. -/
theorem C11_search_can_always_finish_fsz (p : FPar) (c : FCfg)
    (hc : ConsistentF (2 * p.Ne) p.Nsite c.idx c.spn c.cfg c.num)
    (h : ∃ ri rj, ri < p.Nsite ∧ rj < p.Nsite ∧ c.num ri = 1 ∧ c.num (ri + p.Nsite) = 0 ∧
        c.num rj = 0 ∧ c.num (rj + p.Nsite) = 1) :
    ∃ u w, u < 2 * p.Ne ∧ w < 2 * p.Ne ∧ ∃ m, ∀ rest,
      makeCandidateExchangeF p c (u :: w :: rest) = some (some m, rest) := by
  have hno := (not_congr (C11_reject_iff_no_pair_fsz p c hc [])).mpr (not_not.mpr h)
  have hscan : scanPair p c (List.range p.Nsite) 0 0 = true := by
    by_contra hs
    apply hno
    unfold makeCandidateExchangeF
    rw [if_neg hs]
  obtain ⟨ri, rj, hr, hrj, a0, a1, b0, b1⟩ := h
  have n1 := numF_eq (p := p) hc (s := 1) (by omega) hr
  have m0 := numF_eq (p := p) hc (s := 0) (by omega) hrj
  simp only [Nat.zero_mul, Nat.add_zero, Nat.one_mul] at n1 m0
  have x1 : c.cfg (ri + p.Nsite) = -1 := by
    by_contra q; rw [if_pos q] at n1; omega
  have y0 : c.cfg rj = -1 := by
    by_contra q; rw [if_pos q] at m0; omega
  have hA := hc.site 0 (by omega) ri hr
  have hB := hc.site 1 (by omega) rj hrj
  simp only [Nat.zero_mul, Nat.add_zero, Nat.one_mul] at hA hB
  rcases hA with q | ⟨mi, hm, _, i1, i2, _⟩
  · omega
  rcases hB with q | ⟨mj, hmj, _, j1, j2, _⟩
  · omega
  refine ⟨mi, mj, hm, hmj, ⟨mi, ri, rj, 0, 0⟩, fun rest => ?_⟩
  unfold makeCandidateExchangeF
  rw [if_pos hscan]
  have e1 : pickSingleAnyF p c (mi :: mj :: rest) = some ((mi, ri, 0), mj :: rest) := by
    unfold pickSingleAnyF
    simp only [FPar.Nsize, Nat.mod_eq_of_lt hm, i1, i2, Int.toNat_natCast]
    rw [if_neg (by simpa using x1)]
  rw [e1]
  simp only
  have e2 : pickSingleSpinF p c (1 - 0) (mj :: rest) = some ((mj, rj), rest) := by
    unfold pickSingleSpinF
    simp only [FPar.Nsize, Nat.mod_eq_of_lt hmj, j1, j2, Int.toNat_natCast]
    rw [if_neg (by simpa using y0)]
  rw [e2]

/-- Finding (liveness): with `NExUpdatePath` 2 or 3 and 2Sz free, a system without local spins makes
the local-spin-flip search run forever: no stream ever ends it. -/
theorem C11_localspin_flip_hangs_without_local_spins (p : FPar) (c : FCfg) (hNe : 0 < p.Ne)
    (hc : ConsistentF (2 * p.Ne) p.Nsite c.idx c.spn c.cfg c.num)
    (h0 : ∀ r < p.Nsite, p.locSpn r = 0) (r : List Nat) : localSpinFlip p c r = none := by
  induction r with
  | nil => rfl
  | cons u r ih =>
    unfold localSpinFlip
    simp only
    rw [if_pos (h0 _ (drawF hc hNe u).2.2.1)]; exact ih

/-- …while with at least one local spin one draw ends it. -/
theorem C11_localspin_flip_can_finish (p : FPar) (c : FCfg)
    (hc : ConsistentF (2 * p.Ne) p.Nsite c.idx c.spn c.cfg c.num)
    (hl : LocalSingle p.Nsite p.locSpn c.num) (q : Nat) (hq : q < p.Nsite) (h1 : p.locSpn q = 1) :
    ∃ u < 2 * p.Ne, ∃ m, ∀ rest, localSpinFlip p c (u :: rest) = some (m, rest) := by
  have hone := hl q hq h1
  have hA := hc.site 0 (by omega) q hq
  have hB := hc.site 1 (by omega) q hq
  simp only [Nat.zero_mul, Nat.add_zero, Nat.one_mul] at hA hB
  have : ∃ m, m < 2 * p.Ne ∧ c.idx m = (q : Int) := by
    rcases hA with x | ⟨m, hm, _, i, _⟩
    · rcases hB with y | ⟨m, hm, _, i, _⟩
      · omega
      · exact ⟨m, hm, i⟩
    · exact ⟨m, hm, i⟩
  obtain ⟨m, hm, hi⟩ := this
  refine ⟨m, hm, ⟨m, q, q, (c.spn m).toNat, 1 - (c.spn m).toNat⟩, fun rest => ?_⟩
  unfold localSpinFlip
  simp only [FPar.Nsize, Nat.mod_eq_of_lt hm, hi, Int.toNat_natCast]
  rw [if_neg (by rw [h1]; omega)]

end MVMC
