import Verif.Proof.SamplerCount

/-! # C06, C07, C09, C10, C11, C18: the Sz-conserving sampler -/
namespace MVMC
open Spec

/-! ## C06, C07 -/

/-- C06/C07: whatever the random stream, the weights, the auxiliary quantities and the accept
decisions, every configuration reached from a consistent one is consistent, and local-spin sites stay
singly occupied. (`innerLoop … n` is the state after `n` Monte-Carlo steps.) -/
theorem C06_every_configuration_consistent {β γ : Type} (k : Hooks β γ) (p : SamplerPar)
    (hNe : 0 < p.Ne) (hNs : 0 < p.Nsite) (n : Nat) (st st' : SState β) (r r' : List Nat)
    (hc : Consistent p.Ne p.Nsite st.c.idx st.c.cfg st.c.num)
    (hl : LocalSingle p.Nsite p.locSpn st.c.num)
    (h0 : st.nAccept = 0 ∧ st.hopAcc = 0 ∧ st.exAcc = 0)
    (e : innerLoop k p n st r = some (st', r')) :
    Consistent p.Ne p.Nsite st'.c.idx st'.c.cfg st'.c.num ∧
    LocalSingle p.Nsite p.locSpn st'.c.num := by
  have hQ : QOK k p (fun _ _ => True) :=
    ⟨fun _ _ _ _ _ _ _ _ => trivial, fun _ _ _ _ _ _ _ _ _ _ _ _ _ => trivial, fun _ _ _ _ => trivial⟩
  have hi : SInv p (fun _ _ => True) st := ⟨hc, hl, trivial, by omega, by omega, by omega⟩
  have := innerLoop_inv hQ hNe hNs n hi e
  exact ⟨this.cons, this.loc⟩

/-- C06: in a consistent configuration two electrons of equal spin never share a site. -/
theorem C06_no_double_occupancy (Ne Nsite : Nat) (idx cfg num : Nat → Int)
    (hc : Consistent Ne Nsite idx cfg num) (s : Nat) (hs : s < 2) (a b : Nat) (ha : a < Ne) (hb : b < Ne)
    (h : idx (a + s * Ne) = idx (b + s * Ne)) : a = b := by
  obtain ⟨ra, _, h1, h2⟩ := hc.electron s hs a ha
  obtain ⟨rb, _, h3, h4⟩ := hc.electron s hs b hb
  have : ra = rb := by omega
  subst this; omega

/-- C06: the occupation table counts exactly `Ne` electrons of each spin. -/
theorem C06_electron_numbers (Ne Nsite : Nat) (idx cfg num : Nat → Int)
    (hc : Consistent Ne Nsite idx cfg num) :
    spinCount Nsite num 0 = Ne ∧ spinCount Nsite num 1 = Ne :=
  ⟨spinCount_eq (p := ⟨Ne, Nsite, fun _ => 0, 0⟩) (c := ⟨idx, cfg, num⟩) hc (by omega),
   spinCount_eq (p := ⟨Ne, Nsite, fun _ => 0, 0⟩) (c := ⟨idx, cfg, num⟩) hc (by omega)⟩

/-- C06: every proposal indexes the tables inside their allocation (`2*Ne` and `2*Nsite` entries). -/
theorem C06_hop_in_bounds (p : SamplerPar) (c : EleCfg) (hNe : 0 < p.Ne) (hNs : 0 < p.Nsite)
    (hc : Consistent p.Ne p.Nsite c.idx c.cfg c.num) (r r' : List Nat) (h : Hop)
    (e : makeCandidateHopping p c r = some ((h, false), r')) :
    h.mi + h.s * p.Ne < 2 * p.Ne ∧ h.ri + h.s * p.Nsite < 2 * p.Nsite ∧
    h.rj + h.s * p.Nsite < 2 * p.Nsite ∧ c.idx (h.mi + h.s * p.Ne) = h.ri ∧
    c.num (h.ri + h.s * p.Nsite) = 1 ∧ c.num (h.rj + h.s * p.Nsite) = 0 ∧ h.ri ≠ h.rj := by
  have ⟨ok, _, _⟩ := hopping_ok hc hNe hNs r e
  have hs := ok.s
  have hn : c.num (h.rj + h.s * p.Nsite) = 0 := by
    rw [num_eq hc ok.s ok.rj, if_neg (by simp [ok.free])]
  have h1 := ok.mi; have h2 := ok.ri; have h3 := ok.rj
  refine ⟨?_, ?_, ?_, ok.at', (cons_back hc ok.s ok.mi ok.at').2.2, hn, hopOK_ne hc ok⟩ <;>
    rcases (show h.s = 0 ∨ h.s = 1 by omega) with q | q <;> rw [q] <;> omega

/-- C06: what an accepted hop or exchange does to the occupation: exactly the moved electrons change. -/
theorem C06_exchange_effect (p : SamplerPar) (c : EleCfg) (hNe : 0 < p.Ne)
    (hc : Consistent p.Ne p.Nsite c.idx c.cfg c.num) (r r' : List Nat) (h : Hop)
    (e : makeCandidateExchange p c r = some (some h, r')) (x t : Nat) (hx : x < p.Nsite) (ht : t < 2) :
    (updateEleConfig p (partnerHop p c h) (updateEleConfig p h c)).num (x + t * p.Nsite) =
      if x = h.ri then c.num (h.rj + t * p.Nsite)
      else if x = h.rj then c.num (h.ri + t * p.Nsite)
      else c.num (x + t * p.Nsite) := by
  obtain ⟨ok, ok2, q1, q2, q3, q4, q5, q6⟩ := exchange_ok hc hNe r e
  rw [exch_num ok q1 q2 q3 (hopOK_ne hc ok) x t hx ht]
  have hs := ok.s
  have b1 := (cons_back hc ok.s ok.mi ok.at').2.2
  have b2 := (cons_back hc (by omega : 1 - h.s < 2) q5 q4).2.2
  have b3 : c.num (h.rj + h.s * p.Nsite) = 0 := by
    rw [num_eq hc ok.s ok.rj, if_neg (by simp [ok.free])]
  have b4 : c.num (h.ri + (1 - h.s) * p.Nsite) = 0 := by
    rw [num_eq hc (by omega) ok.ri, if_neg (by simp [q6])]
  by_cases d : t = h.s
  · subst d
    rw [b1, b3]; simp
  · have : t = 1 - h.s := by omega
    subst this
    rw [b2, b4]; simp [d]

/-- Acceptance counters never exceed the number of attempts, in every run. -/
theorem C06_counters {β γ : Type} (k : Hooks β γ) (p : SamplerPar)
    (hNe : 0 < p.Ne) (hNs : 0 < p.Nsite) (burn : Bool) (warmUp nSample interval : Nat) (c : EleCfg) (b : β)
    (r r' : List Nat) (st' : SState β) (saved : List (Nat × SState β))
    (hc : Consistent p.Ne p.Nsite c.idx c.cfg c.num) (hl : LocalSingle p.Nsite p.locSpn c.num)
    (e : vmcMakeSample k p burn warmUp nSample interval c b r = some (st', saved, r')) :
    st'.hopAcc ≤ st'.hopTry ∧ st'.exAcc ≤ st'.exTry := by
  have hQ : QOK k p (fun _ _ => True) :=
    ⟨fun _ _ _ _ _ _ _ _ => trivial, fun _ _ _ _ _ _ _ _ _ _ _ _ _ => trivial, fun _ _ _ _ => trivial⟩
  have hi : SInv p (fun _ _ => True) (⟨c, b, 0, 0, 0, 0, 0⟩ : SState β) :=
    ⟨hc, hl, trivial, Nat.zero_le _, Nat.le_refl _, Nat.le_refl _⟩
  have := (outerLoop_inv hQ hNe hNs _ _ _ _ _ hi (by simp) e).1
  exact ⟨this.cHop, this.cEx⟩

/-- C06/C07 for a whole sampling call: every stored sample and the configuration kept for the next
call are consistent and respect the local spins. -/
theorem C06_stored_samples_consistent {β γ : Type} (k : Hooks β γ) (p : SamplerPar)
    (hNe : 0 < p.Ne) (hNs : 0 < p.Nsite) (burn : Bool) (warmUp nSample interval : Nat) (c : EleCfg) (b : β)
    (r r' : List Nat) (st' : SState β) (saved : List (Nat × SState β))
    (hc : Consistent p.Ne p.Nsite c.idx c.cfg c.num) (hl : LocalSingle p.Nsite p.locSpn c.num)
    (e : vmcMakeSample k p burn warmUp nSample interval c b r = some (st', saved, r')) :
    (∀ x ∈ saved, Consistent p.Ne p.Nsite x.2.c.idx x.2.c.cfg x.2.c.num ∧
      LocalSingle p.Nsite p.locSpn x.2.c.num) ∧
    Consistent p.Ne p.Nsite st'.c.idx st'.c.cfg st'.c.num ∧ LocalSingle p.Nsite p.locSpn st'.c.num := by
  have hQ : QOK k p (fun _ _ => True) :=
    ⟨fun _ _ _ _ _ _ _ _ => trivial, fun _ _ _ _ _ _ _ _ _ _ _ _ _ => trivial, fun _ _ _ _ => trivial⟩
  have hi : SInv p (fun _ _ => True) (⟨c, b, 0, 0, 0, 0, 0⟩ : SState β) :=
    ⟨hc, hl, trivial, Nat.zero_le _, Nat.le_refl _, Nat.le_refl _⟩
  have := outerLoop_inv hQ hNe hNs _ _ _ _ _ hi (by simp) e
  exact ⟨fun x hx => ⟨(this.2 x hx).cons, (this.2 x hx).loc⟩, this.1.cons, this.1.loc⟩

/-! ## C09 -/

/-- C09: a hop proposed by the sampler and then rejected restores all three tables. -/
theorem C09_rejected_hop_restores (p : SamplerPar) (c : EleCfg) (hNe : 0 < p.Ne) (hNs : 0 < p.Nsite)
    (hc : Consistent p.Ne p.Nsite c.idx c.cfg c.num) (r r' : List Nat) (h : Hop)
    (e : makeCandidateHopping p c r = some ((h, false), r')) :
    revertEleConfig p h (updateEleConfig p h c) = c :=
  revert_update hc (hopping_ok hc hNe hNs r e).1

/-- C09: an exchange proposed by the sampler and then rejected restores all three tables. -/
theorem C09_rejected_exchange_restores (p : SamplerPar) (c : EleCfg) (hNe : 0 < p.Ne)
    (hc : Consistent p.Ne p.Nsite c.idx c.cfg c.num) (r r' : List Nat) (h : Hop)
    (e : makeCandidateExchange p c r = some (some h, r')) :
    revertEleConfig p h (revertEleConfig p (partnerHop p c h)
      (updateEleConfig p (partnerHop p c h) (updateEleConfig p h c))) = c := by
  obtain ⟨ok, ok2, _⟩ := exchange_ok hc hNe r e
  rw [revert_update (update_cons hc ok) ok2, revert_update hc ok]

/-! ## C10 -/

/-- C10: whenever initial placement returns, for every random stream and every sequence of failed
inversions, the tables are consistent and each local-spin site holds exactly one electron. -/
theorem C10_initial_configuration_valid (p : SamplerPar) (bad : EleCfg → Bool) (hNe : 0 < p.Ne)
    (hNs : 0 < p.Nsite) (c : EleCfg) (r r' : List Nat)
    (e : makeInitialSample p bad 100 r = some (.ok c r')) :
    Consistent p.Ne p.Nsite c.idx c.cfg c.num ∧ LocalSingle p.Nsite p.locSpn c.num ∧
    spinCount p.Nsite c.num 0 = p.Ne ∧ spinCount p.Nsite c.num 1 = p.Ne ∧ bad c = false := by
  obtain ⟨h1, h2, h3⟩ := makeInitialSample_ok bad hNe hNs 100 e
  exact ⟨h1, h2, spinCount_eq h1 (by omega), spinCount_eq h1 (by omega), h3⟩

theorem pickFreeSite_stuck (p : SamplerPar) (c : EleCfg) (si : Nat)
    (h : ∀ ri < p.Nsite, c.cfg (ri + si * p.Nsite) ≠ -1 ∨ p.locSpn ri = 1) (hNs : 0 < p.Nsite)
    (r : List Nat) : pickFreeSite p c si r = none := by
  induction r with
  | nil => rfl
  | cons u r ih =>
    unfold pickFreeSite
    simp only
    rw [if_pos (h _ (Nat.mod_lt _ hNs))]; exact ih

/-- Two local-spin sites (0, 1), two conduction sites (2, 3), three electrons of each spin. -/
def kondoPar : SamplerPar := ⟨3, 4, fun r => if r < 2 then 1 else 0, 1⟩

/-- Finding (liveness): the initial placement can enter an endless loop although valid
configurations exist. If both local spins are drawn "up", three down electrons compete for two
conduction sites, and no continuation of the random stream leaves the loop. -/
theorem C10_initial_placement_can_hang (rest : List Nat) :
    initialPass kondoPar ([0,0, 1,0, 2, 2,3] ++ rest) = none := by
  have hstuck : ∀ r, pickFreeSite kondoPar
      (place kondoPar (place kondoPar (place kondoPar (place kondoPar (place kondoPar
        ⟨fun _ => -1, fun _ => -1, fun _ => 0⟩ 0 0 0) 1 0 1) 2 0 2) 2 1 0) 3 1 1) 1 r = none := by
    refine pickFreeSite_stuck _ _ _ ?_ (by decide)
    decide
  unfold initialPass
  have e1 : placeLocal kondoPar (List.range kondoPar.Nsite) ⟨fun _ => -1, fun _ => -1, fun _ => 0⟩
      ([0,0, 1,0, 2, 2,3] ++ rest) =
      some (place kondoPar (place kondoPar ⟨fun _ => -1, fun _ => -1, fun _ => 0⟩ 0 0 0) 1 0 1,
        [2,2,3] ++ rest) := by rfl
  rw [e1]
  simp only
  have e2 : placeItinerant kondoPar
      ((List.range kondoPar.Ne).map (fun mi => (0, mi)) ++ (List.range kondoPar.Ne).map (fun mi => (1, mi)))
      (place kondoPar (place kondoPar ⟨fun _ => -1, fun _ => -1, fun _ => 0⟩ 0 0 0) 1 0 1)
      ([2,2,3] ++ rest) =
      match pickFreeSite kondoPar
        (place kondoPar (place kondoPar (place kondoPar (place kondoPar (place kondoPar
          ⟨fun _ => -1, fun _ => -1, fun _ => 0⟩ 0 0 0) 1 0 1) 2 0 2) 2 1 0) 3 1 1) 1 rest with
      | none => none
      | some (ri, r) => placeItinerant kondoPar []
        (place kondoPar (place kondoPar (place kondoPar (place kondoPar (place kondoPar
          (place kondoPar ⟨fun _ => -1, fun _ => -1, fun _ => 0⟩ 0 0 0) 1 0 1) 2 0 2) 2 1 0) 3 1 1) ri 1 2) r := by
    rfl
  rw [e2, hstuck rest]

/-- …while for another stream the same input yields a configuration. -/
theorem C10_initial_placement_can_succeed :
    ∃ c, initialPass kondoPar [0,0, 0,2147483648, 2, 3, 2, 3] = some (c, []) ∧
      (List.range 8).map c.num = [1,0,1,1, 0,1,1,1] := by
  refine ⟨_, rfl, ?_⟩
  decide

/-! ## C11 -/

/-- C11: the exchange step reports "no candidate" iff there is no pair of singly occupied sites of
opposite spin. -/
theorem C11_reject_iff_no_pair (p : SamplerPar) (c : EleCfg)
    (hc : Consistent p.Ne p.Nsite c.idx c.cfg c.num) (r : List Nat) :
    makeCandidateExchange p c r = some (none, r) ↔
    ¬ ∃ ri rj, ri < p.Nsite ∧ rj < p.Nsite ∧ c.num ri = 1 ∧ c.num (ri + p.Nsite) = 0 ∧
        c.num rj = 0 ∧ c.num (rj + p.Nsite) = 1 := by
  have key : hasSingle p c = true ↔ ∃ ri rj, ri < p.Nsite ∧ rj < p.Nsite ∧ c.num ri = 1 ∧
      c.num (ri + p.Nsite) = 0 ∧ c.num rj = 0 ∧ c.num (rj + p.Nsite) = 1 := by
    have n0 : ∀ ri, ri < p.Nsite → (c.num ri = if c.cfg ri ≠ -1 then 1 else 0) := by
      intro ri hr; simpa using num_eq hc (s := 0) (by omega) hr
    have n1 : ∀ ri, ri < p.Nsite → (c.num (ri + p.Nsite) = if c.cfg (ri + p.Nsite) ≠ -1 then 1 else 0) := by
      intro ri hr; simpa using num_eq hc (s := 1) (by omega) hr
    rw [hasSingle_iff hc]
    constructor
    · rintro ⟨ri, hr, s, hs, h1, h2⟩
      obtain ⟨rj, hrj, h3, h4⟩ := single_both hc hs hr h1 h2
      rcases (show s = 0 ∨ s = 1 by omega) with rfl | rfl
      · simp only [Nat.zero_mul, Nat.add_zero, Nat.sub_zero, Nat.one_mul] at h1 h2 h3 h4
        refine ⟨ri, rj, hr, hrj, ?_, ?_, ?_, ?_⟩
        · rw [n0 ri hr, if_pos h1]
        · rw [n1 ri hr, if_neg (by simp [h2])]
        · rw [n0 rj hrj, if_neg (by simp [h4])]
        · rw [n1 rj hrj, if_pos h3]
      · simp only [Nat.zero_mul, Nat.add_zero, Nat.sub_self, Nat.one_mul] at h1 h2 h3 h4
        refine ⟨rj, ri, hrj, hr, ?_, ?_, ?_, ?_⟩
        · rw [n0 rj hrj, if_pos h3]
        · rw [n1 rj hrj, if_neg (by simp [h4])]
        · rw [n0 ri hr, if_neg (by simp [h2])]
        · rw [n1 ri hr, if_pos h1]
    · rintro ⟨ri, rj, hr, hrj, h1, h2, _, _⟩
      refine ⟨ri, hr, 0, by omega, ?_, ?_⟩
      · intro h
        simp only [Nat.zero_mul, Nat.add_zero] at h
        rw [n0 ri hr, if_neg (by simp [h])] at h1; omega
      · by_contra h
        simp only [Nat.sub_zero, Nat.one_mul] at h
        rw [n1 ri hr, if_pos h] at h2; omega
  rw [← key]
  unfold makeCandidateExchange
  constructor
  · intro h hs
    rw [if_pos hs] at h
    split at h
    · simp at h
    · split at h
      · simp at h
      · simp at h
  · intro h
    rw [if_neg h]

/-- C11: if the step is not rejected, three draws exist (each below the number of electrons or
the coin threshold) that make it return at once, whatever follows in the stream; since the loops
keep no memory of failed draws, no reachable point of the search is a dead end. -/
theorem C11_search_can_always_finish (p : SamplerPar) (c : EleCfg)
    (hc : Consistent p.Ne p.Nsite c.idx c.cfg c.num) (hs : hasSingle p c = true) :
    ∃ u v w, u < p.Ne ∧ v ≤ 2147483648 ∧ w < p.Ne ∧ ∃ h, ∀ rest,
      makeCandidateExchange p c (u :: v :: w :: rest) = some (some h, rest) := by
  obtain ⟨ri, hr, s, hs2, h1, h2⟩ := (hasSingle_iff hc).mp hs
  obtain ⟨rj, hrj, h3, h4⟩ := single_both hc hs2 hr h1 h2
  rcases hc.site s hs2 ri hr with x | ⟨mi, hm, a1, a2, _⟩
  · exact absurd x.1 h1
  rcases hc.site (1 - s) (by omega) rj hrj with x | ⟨mj, hmj, b1, b2, _⟩
  · exact absurd x.1 h3
  refine ⟨mi, if s = 0 then 0 else 2147483648, mj, hm, by split <;> omega, hmj, ⟨mi, ri, rj, s⟩, ?_⟩
  intro rest
  have hcoin : coin (if s = 0 then 0 else 2147483648) = s := by
    rcases (show s = 0 ∨ s = 1 by omega) with rfl | rfl <;> rfl
  unfold makeCandidateExchange
  rw [if_pos hs]
  have e1 : pickSingleAny p c (mi :: (if s = 0 then 0 else 2147483648) :: mj :: rest)
      = some ((mi, ri, s), mj :: rest) := by
    unfold pickSingleAny
    simp only [hcoin, Nat.mod_eq_of_lt hm, a2, Int.toNat_natCast]
    rw [if_neg (by simp [h2])]
  rw [e1]
  simp only
  have e2 : pickSingleSpin p c (1 - s) (mj :: rest) = some ((mj, rj), rest) := by
    unfold pickSingleSpin
    simp only [Nat.mod_eq_of_lt hmj, b2, Int.toNat_natCast]
    rw [if_neg (by rw [show 1 - (1 - s) = s by omega]; simp [h4])]
  rw [e2]

/-- The hop search always ends after at most `Nsite²+2` target draws once an itinerant electron was
drawn: the target loop cannot run forever. -/
theorem C11_target_loop_bounded (p : SamplerPar) (c : EleCfg) (s : Nat) (r : List Nat)
    (h : p.Nsite * p.Nsite + 2 ≤ r.length) : (pickTarget p c s 0 r).isSome := by
  suffices H : ∀ (r : List Nat) (icnt : Nat), r ≠ [] → p.Nsite * p.Nsite + 2 ≤ icnt + r.length →
      (pickTarget p c s icnt r).isSome from
    H r 0 (by rintro rfl; simp at h) (by omega)
  intro r
  induction r with
  | nil => intro _ h; exact absurd rfl h
  | cons u r ih =>
    intro icnt _ hl
    simp only [List.length_cons] at hl
    unfold pickTarget
    simp only
    split
    · rfl
    · split
      · refine ih _ ?_ (by omega)
        rintro rfl
        simp only [List.length_nil] at hl
        omega
      · rfl

/-- The first loop of the hop search has an acceptable draw in every reachable configuration
whenever there are fewer local spins than electrons (which the input check
`readdef.c:623` enforces for every update path that hops). -/
theorem C11_hop_search_can_finish (p : SamplerPar) (c : EleCfg)
    (hc : Consistent p.Ne p.Nsite c.idx c.cfg c.num) (hl : LocalSingle p.Nsite p.locSpn c.num)
    (h : ((Finset.range p.Nsite).filter (fun r => p.locSpn r = 1)).card < 2 * p.Ne) :
    ∃ u v, u < p.Ne ∧ v ≤ 2147483648 ∧ ∃ x, ∀ rest,
      pickItinerant p c (u :: v :: rest) = some (x, rest) := by
  have hex : ∃ s < 2, ∃ ri < p.Nsite, p.locSpn ri ≠ 1 ∧ c.cfg (ri + s * p.Nsite) ≠ -1 := by
    by_contra hno
    have hz : ∀ ri < p.Nsite, p.locSpn ri ≠ 1 → c.num ri = 0 ∧ c.num (ri + p.Nsite) = 0 := by
      intro ri hr hnl
      have a0 := num_eq hc (s := 0) (by omega) hr
      have a1 := num_eq hc (s := 1) (by omega) hr
      rw [if_neg (fun hh => hno ⟨0, by omega, ri, hr, hnl, hh⟩)] at a0
      rw [if_neg (fun hh => hno ⟨1, by omega, ri, hr, hnl, hh⟩)] at a1
      simp only [Nat.zero_mul, Nat.add_zero, Nat.one_mul] at a0 a1
      exact ⟨a0, a1⟩
    have s0 := spinCount_eq hc (s := 0) (by omega)
    have s1 := spinCount_eq hc (s := 1) (by omega)
    unfold spinCount at s0 s1
    rw [list_sum_range] at s0 s1
    simp only [Nat.zero_mul, Nat.add_zero, Nat.one_mul] at s0 s1
    have : ∑ r ∈ Finset.range p.Nsite, (c.num r + c.num (r + p.Nsite)) =
        (((Finset.range p.Nsite).filter (fun r => p.locSpn r = 1)).card : Int) := by
      rw [Finset.card_filter]
      push_cast
      apply Finset.sum_congr rfl
      intro r hr
      have hr := Finset.mem_range.mp hr
      by_cases q : p.locSpn r = 1
      · rw [if_pos q]; exact hl r hr q
      · rw [if_neg q, (hz r hr q).1, (hz r hr q).2]; rfl
    rw [Finset.sum_add_distrib, s0, s1] at this
    omega
  obtain ⟨s, hs, ri, hr, h2, h3⟩ := hex
  rcases hc.site s hs ri hr with x | ⟨mi, hm, _, h1, _⟩
  · exact absurd x.1 h3
  refine ⟨mi, if s = 0 then 0 else 2147483648, hm, by split <;> omega, (mi, ri, s), ?_⟩
  intro rest
  have hcoin : coin (if s = 0 then 0 else 2147483648) = s := by
    rcases (show s = 0 ∨ s = 1 by omega) with rfl | rfl <;> rfl
  unfold pickItinerant
  simp only [hcoin, Nat.mod_eq_of_lt hm, h1, Int.toNat_natCast]
  rw [if_neg h2]

/-! ## C18 -/

/-- C18: one sampling call writes the slots `0,1,…,NVMCSample-1`, each exactly once and in order. -/
theorem C18_slots_written_once_in_order {β γ : Type} (k : Hooks β γ) (p : SamplerPar) (burn : Bool)
    (warmUp nSample interval : Nat) (c : EleCfg) (b : β) (r r' : List Nat) (st' : SState β)
    (saved : List (Nat × SState β))
    (e : vmcMakeSample k p burn warmUp nSample interval c b r = some (st', saved, r')) :
    (saved.map Prod.fst).reverse = List.range nSample := by
  have hle : nSample ≤ nOutStep burn warmUp nSample := by unfold nOutStep; split <;> omega
  have e' := e
  unfold vmcMakeSample at e'
  have := outerLoop_slots k p (interval * p.Nsite) (nOutStep burn warmUp nSample) nSample
    (nOutStep burn warmUp nSample) (saved := []) hle (Nat.le_refl _) (by simp) (by simpa using e')
  rw [this, List.reverse_reverse]

/-- C18: slot `j` holds the state after exactly `(W + j + 1)·NVMCInterval·Nsite` Monte-Carlo steps,
where `W` is the warm-up count on a first call and 1 on later calls; the state kept for the next call is
the one after the last step. -/
theorem C18_slot_times {β γ : Type} (k : Hooks β γ) (p : SamplerPar) (burn : Bool)
    (warmUp nSample interval : Nat) (c : EleCfg) (b : β) (r r' : List Nat) (st' : SState β)
    (saved : List (Nat × SState β))
    (e : vmcMakeSample k p burn warmUp nSample interval c b r = some (st', saved, r')) :
    let W := if burn then 1 else warmUp
    let start : SState β := ⟨c, b, 0, 0, 0, 0, 0⟩
    (∀ x ∈ saved, ∃ r1,
      innerLoop k p ((W + x.1 + 1) * (interval * p.Nsite)) start r = some (x.2, r1)) ∧
    innerLoop k p ((W + nSample) * (interval * p.Nsite)) start r = some (st', r') := by
  have hW : nOutStep burn warmUp nSample - nSample = if burn then 1 else warmUp := by
    unfold nOutStep; cases burn <;> simp
  have hN : nOutStep burn warmUp nSample = (if burn then 1 else warmUp) + nSample := by
    unfold nOutStep; cases burn <;> simp [Nat.add_comm]
  have := outerLoop_states k p (interval * p.Nsite) (nOutStep burn warmUp nSample) nSample
    (nOutStep burn warmUp nSample) 0 (st0 := ⟨c, b, 0, 0, 0, 0, 0⟩) (saved := []) (r0 := r)
    (by simp [innerLoop]) (by simp) e
  rw [hW, Nat.zero_add, hN] at this
  exact this

/-! ## concrete case -/

/-- Three sites, one electron of each spin: up on 0, down on 2. -/
def demoCfg : EleCfg where
  idx := fun k => if k = 0 then 0 else 2
  cfg := fun k => if k = 0 then 0 else if k = 5 then 0 else -1
  num := fun k => if k = 0 then 1 else if k = 5 then 1 else 0

def demoPar : SamplerPar := ⟨1, 3, fun _ => 0, 1⟩

def demoHooks : Hooks Unit Unit := ⟨fun _ _ _ => (), fun _ _ _ _ _ => (), fun _ _ u => u % 2 == 0,
  fun _ _ _ _ => (), fun _ _ _ _ _ => (), fun _ b => b⟩

example : Consistent demoPar.Ne demoPar.Nsite demoCfg.idx demoCfg.cfg demoCfg.num := by
  constructor <;> decide

example : LocalSingle demoPar.Nsite demoPar.locSpn demoCfg.num := by
  unfold LocalSingle; decide

-- one accepted hop (up electron to site 1), then one accepted exchange
example : ((innerLoop demoHooks demoPar 2 ⟨demoCfg, (), 0, 0, 0, 0, 0⟩
    [4000000000, 0, 0, 1, 0,  0, 0, 0, 0, 0]).map
      (fun x => ((List.range 6).map x.1.c.num, x.1.hopAcc, x.1.exAcc, x.2))) =
    some ([0,0,1, 0,1,0], 1, 1, []) := by decide

end MVMC
