import Verif.Proof.ChainF

/-! # Which configurations the moves of the general-Sz sampler connect when 2Sz is fixed -/
namespace MVMC
open Spec Finset
open scoped ENNReal

/-- the sites of the occupied orbitals of one spin -/
def spinSites (N : Nat) (A : Finset Nat) (s : Nat) : Finset Nat := (range N).filter (fun r => r + s * N ∈ A)

theorem mem_spinSites {N : Nat} {A : Finset Nat} {s r : Nat} : r ∈ spinSites N A s ↔ r < N ∧ r + s * N ∈ A := by simp [spinSites]

/-- one electron moves within its spin -/
theorem spin_move {N : Nat} {A : Finset Nat} {s u x y : Nat} (hs : s < 2) (hu : u < 2) (hx : x < N) (hy : y < N) :
    spinSites N (insert (y + s * N) (A.erase (x + s * N))) u = if u = s then insert y ((spinSites N A u).erase x) else spinSites N A u := by
  ext r
  by_cases hr : r < N
  · rw [mem_spinSites, mem_insert, mem_erase, Ne, flat_inj hu hs hr hy, flat_inj hu hs hr hx]
    split_ifs with e
    · rw [mem_insert, mem_erase, mem_spinSites]
      simp [e, hr]
    · rw [mem_spinSites]
      simp [e]
  · split_ifs with e
    · rw [mem_insert, mem_erase, mem_spinSites, mem_spinSites]
      have : r ≠ y := by rintro rfl; exact hr hy
      simp [hr, this]
    · simp [mem_spinSites, hr]

theorem card_move {B : Finset Nat} {x y : Nat} (hx : x ∈ B) (hy : y ∉ B) : (insert y (B.erase x)).card = B.card := by
  rw [card_insert_of_notMem (fun q => hy (mem_erase.mp q).2), card_erase_of_mem hx]
  have := card_pos.mpr ⟨x, hx⟩
  omega

/-- the sites with an electron of spin `s` -/
def OccS (p : FPar) (c : FCfg) (s : Nat) : Finset Nat := spinSites p.Nsite (OccF p c) s

theorem mem_OccS {p : FPar} {c : FCfg} {s r : Nat} : r ∈ OccS p c s ↔ r < p.Nsite ∧ r + s * p.Nsite ∈ OccF p c := mem_spinSites

theorem exch_sites {N : Nat} {A : Finset Nat} {s x y : Nat} (hs : s < 2) (hx : x < N) (hy : y < N) :
    spinSites N (insert (x + (1 - s) * N) ((insert (y + s * N) (A.erase (x + s * N))).erase (y + (1 - s) * N))) s = insert y ((spinSites N A s).erase x) ∧
    spinSites N (insert (x + (1 - s) * N) ((insert (y + s * N) (A.erase (x + s * N))).erase (y + (1 - s) * N))) (1 - s) =
      insert x ((spinSites N A (1 - s)).erase y) := by
  have ht : 1 - s < 2 := by omega
  rw [spin_move ht hs hy hx, spin_move ht ht hy hx, if_neg (by omega), if_pos rfl, spin_move hs hs hx hy, spin_move hs ht hx hy, if_pos rfl, if_neg (by omega)]
  exact ⟨rfl, rfl⟩

/-- one hop that keeps the spin -/
theorem stepZ_hop {p : FPar} {c : FCfg} (hc : ConsF p c) (hp : HopPathF p) {s x y : Nat} (hs : s < 2) (hx : x ∈ OccS p c s) (hy : y < p.Nsite)
    (hyn : y ∉ OccS p c s) (lx : p.locSpn x ≠ 1) (ly : p.locSpn y ≠ 1) :
    ∃ c', MvF p c c' ∧ OccS p c' s = insert y ((OccS p c s).erase x) ∧ OccS p c' (1 - s) = OccS p c (1 - s) := by
  obtain ⟨hxr, hxo⟩ := mem_OccS.mp hx
  have hyo : y + s * p.Nsite ∉ OccF p c := fun q => hyn (mem_OccS.mpr ⟨hy, q⟩)
  have ok := siteMove_ok hc hs hs hxr hy hxo hyo
  refine ⟨_, .hop hp _ ok ⟨lx, ly⟩ (fun _ => rfl), ?_, ?_⟩ <;> unfold OccS <;> rw [occF_update ok]
  · exact (spin_move hs hs hxr hy).trans (if_pos rfl)
  · exact (spin_move hs (by omega) hxr hy).trans (if_neg (by omega))

/-- one exchange -/
theorem stepZ_exch {p : FPar} {c : FCfg} (hc : ConsF p c) (hp : ExchPathF p) {s x y : Nat} (hs : s < 2) (hx : x ∈ OccS p c s) (hx' : x ∉ OccS p c (1 - s))
    (hy : y ∈ OccS p c (1 - s)) (hy' : y ∉ OccS p c s) :
    ∃ c', MvF p c c' ∧ OccS p c' s = insert y ((OccS p c s).erase x) ∧ OccS p c' (1 - s) = insert x ((OccS p c (1 - s)).erase y) := by
  obtain ⟨hxr, hxo⟩ := mem_OccS.mp hx
  obtain ⟨hyr, hyo⟩ := mem_OccS.mp hy
  obtain ⟨c', m, e⟩ := step_exchF hc hp hs hxr hyr hxo (fun q => hx' (mem_OccS.mpr ⟨hxr, q⟩)) hyo (fun q => hy' (mem_OccS.mpr ⟨hyr, q⟩))
  refine ⟨c', m, ?_, ?_⟩ <;> unfold OccS <;> rw [e]
  · exact (exch_sites hs hxr hyr).1
  · exact (exch_sites hs hxr hyr).2

/-- sets of sites for both spins with given numbers, one electron on every local-spin site -/
structure TgtZ (p : FPar) (n0 : Nat → Nat) (A : Nat → Finset Nat) : Prop where
  sub : ∀ s < 2, ∀ r ∈ A s, r < p.Nsite
  card : ∀ s < 2, (A s).card = n0 s
  loc : ∀ r < p.Nsite, p.locSpn r = 1 → (r ∈ A 0 ↔ r ∉ A 1)

theorem TgtZ.loc' {p : FPar} {n0 : Nat → Nat} {A : Nat → Finset Nat} (h : TgtZ p n0 A) {s r : Nat} (hs : s < 2) (hr : r < p.Nsite) (hl : p.locSpn r = 1) :
    r ∈ A s ↔ r ∉ A (1 - s) := by
  have := h.loc r hr hl
  rcases (show s = 0 ∨ s = 1 by omega) with rfl | rfl
  · exact this
  · simp only [Nat.sub_self]; tauto

/-- valid tables with given numbers of electrons of both spins -/
structure ValidZ (p : FPar) (n0 : Nat → Nat) (c : FCfg) : Prop where
  val : ValidF p c
  card : ∀ s < 2, (OccS p c s).card = n0 s

theorem ValidZ.target {p : FPar} {n0 : Nat → Nat} {c : FCfg} (h : ValidZ p n0 c) : TgtZ p n0 (OccS p c) := by
  refine ⟨fun s _ r hr => (mem_OccS.mp hr).1, h.card, fun r hr hl => ?_⟩
  have := h.val.target.loc 0 (by omega) r hr hl
  rw [mem_OccS, mem_OccS]
  simp only [hr, true_and]
  exact this

/-- without flips of local spins the moves keep the numbers of electrons of both spins -/
theorem MvF.card_spin {p : FPar} {c c' : FCfg} (hc : ConsF p c) (hz : p.twoSz ≠ -1) (hx3 : p.exPath ≠ 3) (h : MvF p c c') {s : Nat} (hs : s < 2) :
    (OccS p c' s).card = (OccS p c s).card := by
  cases h with
  | hop _ h ok _ hst =>
    have e := hst hz
    have q := moveOK_occ hc ok
    unfold OccS
    rw [occF_update ok, ← e]
    rw [spin_move ok.s hs ok.ri ok.rj]
    split_ifs with w
    · subst w
      exact card_move (mem_spinSites.mpr ⟨ok.ri, q.1⟩) (fun w => q.2 (by rw [← e]; exact (mem_spinSites.mp w).2))
    · rfl
  | flip hp h ok _ _ _ => rcases hp with ⟨_, w⟩ | w <;> contradiction
  | exch _ h x =>
    have hs' := x.ok.s
    have q := moveOK_occ hc x.ok
    rw [← x.st] at q
    have q2 : h.ri + (1 - h.s) * p.Nsite ∉ OccF p c := (freeF_iff hc (by omega) x.ok.ri).mp x.emp
    have q3 : h.rj + (1 - h.s) * p.Nsite ∈ OccF p c := mem_OccF.mpr ⟨flat_lt (by omega) x.ok.rj, (consF_back hc x.mj x.idj x.spj).2.2.2⟩
    have e := exch_sites (A := OccF p c) hs' x.ok.ri x.ok.rj
    unfold OccS
    rw [occF_exch x]
    rcases (show s = h.s ∨ s = 1 - h.s by omega) with w | w <;> subst w
    · rw [e.1]
      exact card_move (mem_spinSites.mpr ⟨x.ok.ri, q.1⟩) (fun w => q.2 (mem_spinSites.mp w).2)
    · rw [e.2]
      exact card_move (mem_spinSites.mpr ⟨x.ok.rj, q3⟩) (fun w => q2 (mem_spinSites.mp w).2)

theorem ValidZ.mv {p : FPar} {n0 : Nat → Nat} {c c' : FCfg} (h : ValidZ p n0 c) (hz : p.twoSz ≠ -1) (hx3 : p.exPath ≠ 3) (m : MvF p c c') : ValidZ p n0 c' :=
  ⟨h.val.mv m, fun s hs => (m.card_spin h.val.cons hz hx3 hs).trans (h.card s hs)⟩

/-- hops bring one spin to its target -/
theorem fix_spinZ {p : FPar} {n0 : Nat → Nat} (hz : p.twoSz ≠ -1) (hx3 : p.exPath ≠ 3) (hp : HopPathF p) {A : Nat → Finset Nat} (hA : TgtZ p n0 A) (s : Nat) (hs : s < 2) (n : Nat) :
    ∀ c, ValidZ p n0 c → (∀ r < p.Nsite, p.locSpn r = 1 → (r ∈ OccS p c s ↔ r ∈ A s)) → (OccS p c s \ A s).card = n →
      ∃ c', Relation.ReflTransGen (MvF p) c c' ∧ ValidZ p n0 c' ∧ OccS p c' s = A s ∧ OccS p c' (1 - s) = OccS p c (1 - s) := by
  induction n with
  | zero =>
    intro c hv _ h0
    refine ⟨c, .refl, hv, ?_, rfl⟩
    rw [card_eq_zero, sdiff_eq_empty_iff_subset] at h0
    exact Finset.eq_of_subset_of_card_le h0 (by rw [hA.card s hs, hv.card s hs])
  | succ n ih =>
    intro c hv hloc hn
    obtain ⟨x, hx⟩ := card_pos.mp (show 0 < (OccS p c s \ A s).card by omega)
    obtain ⟨hx1, hx2⟩ := mem_sdiff.mp hx
    obtain ⟨y, hy1, hy2⟩ := exists_diff (by rw [hA.card s hs, hv.card s hs]) hx1 hx2
    have xr := (mem_OccS.mp hx1).1
    have yr := hA.sub s hs y hy1
    have lx : p.locSpn x ≠ 1 := fun q => hx2 ((hloc x xr q).mp hx1)
    have ly : p.locSpn y ≠ 1 := fun q => hy2 ((hloc y yr q).mpr hy1)
    obtain ⟨c1, m1, e1, e2⟩ := stepZ_hop hv.val.cons hp hs hx1 yr hy2 lx ly
    have g1 : ∀ r < p.Nsite, p.locSpn r = 1 → (r ∈ OccS p c1 s ↔ r ∈ A s) := by
      intro r hr hl
      rw [e1, mem_insert, mem_erase, ← hloc r hr hl]
      have a : r ≠ y := by rintro rfl; exact ly hl
      have b : r ≠ x := by rintro rfl; exact lx hl
      tauto
    have g2 : (OccS p c1 s \ A s).card = n := by
      have : OccS p c1 s \ A s = (OccS p c s \ A s).erase x := by
        rw [e1]
        ext r
        simp only [mem_sdiff, mem_insert, mem_erase]
        constructor
        · rintro ⟨rfl | ⟨q1, q2⟩, q3⟩
          · exact absurd hy1 q3
          · exact ⟨q1, q2, q3⟩
        · rintro ⟨q1, q2, q3⟩
          exact ⟨Or.inr ⟨q1, q2⟩, q3⟩
      rw [this, card_erase_of_mem hx, hn]
      omega
    obtain ⟨c', r', v', f1, f2⟩ := ih c1 (hv.mv hz hx3 m1) g1 g2
    exact ⟨c', .head m1 r', v', f1, by rw [f2, e2]⟩

/-- local-spin sites whose spin is not the one of the target -/
def locDiffZ (p : FPar) (c : FCfg) (A : Nat → Finset Nat) : Finset Nat :=
  (range p.Nsite).filter (fun r => p.locSpn r = 1 ∧ ¬ (r ∈ OccS p c 0 ↔ r ∈ A 0))

theorem mem_locDiffZ {p : FPar} {n0 : Nat → Nat} {c : FCfg} {A : Nat → Finset Nat} (hv : ValidZ p n0 c) (hA : TgtZ p n0 A) {s : Nat} (hs : s < 2) {r : Nat} :
    r ∈ locDiffZ p c A ↔ r < p.Nsite ∧ p.locSpn r = 1 ∧ ¬ (r ∈ OccS p c s ↔ r ∈ A s) := by
  rw [locDiffZ, mem_filter, mem_range]
  rcases (show s = 0 ∨ s = 1 by omega) with rfl | rfl
  · rfl
  · constructor
    · rintro ⟨h1, h2, h3⟩
      have a := hA.loc r h1 h2
      have b := hv.target.loc r h1 h2
      exact ⟨h1, h2, by tauto⟩
    · rintro ⟨h1, h2, h3⟩
      have a := hA.loc r h1 h2
      have b := hv.target.loc r h1 h2
      exact ⟨h1, h2, by tauto⟩

/-- the moves needed for the local spins: exchanges, and hops unless all electrons are local spins -/
theorem fix_localZ {p : FPar} {n0 : Nat → Nat} (hz : p.twoSz ≠ -1) (hx3 : p.exPath ≠ 3) (hp : ExchPathF p) (hh : HopPathF p ∨ ∀ c, ValidZ p n0 c → ∀ s < 2, ∀ r ∈ OccS p c s, p.locSpn r = 1) {A : Nat → Finset Nat}
    (hA : TgtZ p n0 A) (n : Nat) :
    ∀ c, ValidZ p n0 c → (locDiffZ p c A).card ≤ n → ∃ c', Relation.ReflTransGen (MvF p) c c' ∧ ValidZ p n0 c' ∧ locDiffZ p c' A = ∅ := by
  induction n with
  | zero => exact fun c hv h => ⟨c, .refl, hv, card_eq_zero.mp (by omega)⟩
  | succ n ih =>
    intro c hv hn
    by_cases h0 : locDiffZ p c A = ∅
    · exact ⟨c, .refl, hv, h0⟩
    obtain ⟨l, hl⟩ := Finset.nonempty_iff_ne_empty.mpr h0
    have hl' := (mem_locDiffZ hv hA (show 0 < 2 by omega)).mp hl
    have hlr := hl'.1
    have hloc := hl'.2.1
    -- the spin on `l`
    obtain ⟨s, hs, ls, lA⟩ : ∃ s < 2, l ∈ OccS p c s ∧ l ∉ A s := by
      by_cases q : l ∈ OccS p c 0
      · exact ⟨0, by omega, q, by tauto⟩
      · have a := hA.loc l hlr hloc
        have b := hv.target.loc l hlr hloc
        exact ⟨1, by omega, by tauto, by tauto⟩
    have lt : l ∉ OccS p c (1 - s) := (hv.target.loc' hs hlr hloc).mp ls
    have lAt : l ∈ A (1 - s) := by
      by_contra q
      exact lA ((hA.loc' hs hlr hloc).mpr q)
    have ht : 1 - s < 2 := by omega
    obtain ⟨y, hy1, hy2⟩ := exists_diff (by rw [hA.card s hs, hv.card s hs]) ls lA
    obtain ⟨x, hx1, hx2⟩ := exists_diff (by rw [hA.card _ ht, hv.card _ ht]) lAt lt
    have xr := (mem_OccS.mp hx1).1
    have yr := hA.sub s hs y hy1
    -- an exchange of `l` with a site `z` where nothing is lost
    have finish : ∀ c1, ValidZ p n0 c1 → Relation.ReflTransGen (MvF p) c c1 → (∀ r < p.Nsite, p.locSpn r = 1 → (r ∈ OccS p c1 s ↔ r ∈ OccS p c s)) →
        ∀ z, z ∈ OccS p c1 (1 - s) → z ∉ OccS p c1 s → (p.locSpn z = 1 → z ∈ A s) →
        ∃ c', Relation.ReflTransGen (MvF p) c c' ∧ ValidZ p n0 c' ∧ locDiffZ p c' A = ∅ := by
      intro c1 v1 r1 same z hz1 hz2 hzA
      have ls1 : l ∈ OccS p c1 s := (same l hlr hloc).mpr ls
      have lt1 : l ∉ OccS p c1 (1 - s) := (v1.target.loc' hs hlr hloc).mp ls1
      obtain ⟨c2, m2, e1, e2⟩ := stepZ_exch v1.val.cons hp hs ls1 lt1 hz1 hz2
      have v2 := v1.mv hz hx3 m2
      have hlt : (locDiffZ p c2 A).card < (locDiffZ p c A).card := by
        refine card_lt_card ?_
        refine (ssubset_iff_of_subset ?_).mpr ⟨l, hl, ?_⟩
        · intro r hr
          obtain ⟨a1, a2, a3⟩ := (mem_locDiffZ v2 hA hs).mp hr
          refine (mem_locDiffZ hv hA hs).mpr ⟨a1, a2, ?_⟩
          rw [e1, mem_insert, mem_erase, same r a1 a2] at a3
          by_cases q : r = z
          · subst q
            exact (a3 ⟨fun _ => hzA a2, fun _ => Or.inl rfl⟩).elim
          · by_cases q2 : r = l
            · rw [q2]; exact fun i => lA (i.mp ls)
            · simpa [q, q2] using a3
        · intro q
          obtain ⟨_, _, a3⟩ := (mem_locDiffZ v2 hA hs).mp q
          rw [e1, mem_insert, mem_erase] at a3
          have : l ≠ z := by rintro rfl; exact hz2 ls1
          exact a3 ⟨fun w => w.elim (fun w => absurd w this) (fun w => absurd rfl w.1), fun w => absurd w lA⟩
      obtain ⟨c', r', v', f⟩ := ih c2 v2 (by omega)
      exact ⟨c', (r1.tail m2).trans r', v', f⟩
    by_cases hxs : x ∈ OccS p c s
    · have lx : p.locSpn x ≠ 1 := fun q => (hv.target.loc' hs xr q).mp hxs hx1
      rcases hh with hh | hh
      swap
      · exact absurd (hh c hv s hs x hxs) lx
      by_cases ly : p.locSpn y = 1
      · refine finish c hv .refl (fun _ _ _ => Iff.rfl) y ?_ hy2 (fun _ => hy1)
        by_contra q
        exact hy2 ((hv.target.loc' hs yr ly).mpr q)
      · obtain ⟨c1, m1, e1, e2⟩ := stepZ_hop hv.val.cons hh hs hxs yr hy2 lx ly
        refine finish c1 (hv.mv hz hx3 m1) (.single m1) ?_ x (by rw [e2]; exact hx1) ?_ (fun q => absurd q lx)
        · intro r hr hrl
          rw [e1, mem_insert, mem_erase]
          have a : r ≠ y := by rintro rfl; exact ly hrl
          have b : r ≠ x := by rintro rfl; exact lx hrl
          simp [a, b]
        · rw [e1, mem_insert, mem_erase]
          have : x ≠ y := by rintro rfl; exact hy2 hxs
          simp [this]
    · refine finish c hv .refl (fun _ _ _ => Iff.rfl) x hx1 hxs (fun q => ?_)
      by_contra w
      exact hx2 ((hA.loc' ht xr q).mpr (by rw [show 1 - (1 - s) = s by omega]; exact w))

/-- The choice of updates suits the system: hops and exchanges with fewer local spins than electrons, or hops only without local spins, or exchanges
only with as many local spins as electrons. Update 3 flips local spins and changes 2Sz. -/
def PathOKZ (p : FPar) : Prop :=
  (p.exPath = 1 ∧ locCountF p < 2 * p.Ne) ∨ (p.exPath = 0 ∧ locCountF p = 0) ∨ (p.exPath = 2 ∧ locCountF p = 2 * p.Ne)

theorem PathOKZ.ne3 {p : FPar} (h : PathOKZ p) : p.exPath ≠ 3 := by
  rcases h with h | h | h <;> rw [h.1] <;> decide

theorem no_locF {p : FPar} (h : locCountF p = 0) : ∀ r < p.Nsite, p.locSpn r ≠ 1 := by
  intro r hr hl
  unfold locCountF at h
  rw [Finset.card_eq_zero, Finset.eq_empty_iff_forall_notMem] at h
  exact h r (mem_filter.mpr ⟨mem_range.mpr hr, hl⟩)

/-- the moves connect every configuration with every other one of the same 2Sz -/
theorem reach_targetZ {p : FPar} (hp : PathOKZ p) (hz : p.twoSz ≠ -1) {A : Finset Nat} (hA : TargetF p A) {c : FCfg} (hv : ValidF p c)
    (hn : ∀ s < 2, (spinSites p.Nsite A s).card = (OccS p c s).card) :
    ∃ c', Relation.ReflTransGen (MvF p) c c' ∧ ValidF p c' ∧ OccF p c' = A := by
  have hx3 := hp.ne3
  set n0 : Nat → Nat := fun s => (OccS p c s).card with hn0
  have vz : ValidZ p n0 c := ⟨hv, fun _ _ => rfl⟩
  have tz : TgtZ p n0 (spinSites p.Nsite A) := by
    refine ⟨fun s _ r hr => (mem_spinSites.mp hr).1, hn, fun r hr hl => ?_⟩
    have := hA.loc 0 (by omega) r hr hl
    rw [mem_spinSites, mem_spinSites]
    simp only [hr, true_and]
    exact this
  have same : ∀ c', (∀ s < 2, OccS p c' s = spinSites p.Nsite A s) → OccF p c' = A := by
    intro c' h
    ext x
    constructor
    · intro q
      obtain ⟨s, hs, r, hr, rfl⟩ := flat_split (mem_OccF.mp q).1
      have : r ∈ OccS p c' s := mem_OccS.mpr ⟨hr, q⟩
      rw [h s hs] at this
      exact (mem_spinSites.mp this).2
    · intro q
      obtain ⟨s, hs, r, hr, rfl⟩ := flat_split (hA.sub x q)
      have : r ∈ spinSites p.Nsite A s := mem_spinSites.mpr ⟨hr, q⟩
      rw [← h s hs] at this
      exact (mem_OccS.mp this).2
  have loc : ∀ {B : Finset Nat}, TargetF p B → locCountF p = 2 * p.Ne → ∀ s < 2, ∀ r ∈ spinSites p.Nsite B s, p.locSpn r = 1 := by
    intro B hB h s hs r hr
    obtain ⟨h1, h2⟩ := mem_spinSites.mp hr
    exact (mem_LocOrb hs h1).mp (all_locF h hB h2)
  obtain ⟨c1, r1, v1, e1⟩ : ∃ c', Relation.ReflTransGen (MvF p) c c' ∧ ValidZ p n0 c' ∧ locDiffZ p c' (spinSites p.Nsite A) = ∅ := by
    rcases hp with ⟨h, _⟩ | ⟨h, h'⟩ | ⟨h, h'⟩
    · exact fix_localZ hz hx3 (Or.inl h) (Or.inl (Or.inr (Or.inl h))) tz _ c vz le_rfl
    · refine ⟨c, .refl, vz, ?_⟩
      rw [Finset.eq_empty_iff_forall_notMem]
      intro r hr
      obtain ⟨a, b, _⟩ := (mem_locDiffZ vz tz (show 0 < 2 by omega)).mp hr
      exact no_locF h' r a b
    · exact fix_localZ hz hx3 (Or.inr (Or.inl h)) (Or.inr (fun c hc s hs r hr => loc hc.val.target h' s hs r hr)) tz _ c vz le_rfl
  have agree : ∀ s < 2, ∀ r < p.Nsite, p.locSpn r = 1 → (r ∈ OccS p c1 s ↔ r ∈ spinSites p.Nsite A s) := by
    intro s hs r hr hl
    by_contra q
    have : r ∈ locDiffZ p c1 (spinSites p.Nsite A) := (mem_locDiffZ v1 tz hs).mpr ⟨hr, hl, q⟩
    rw [e1] at this
    simp at this
  by_cases hh : HopPathF p
  · obtain ⟨c2, r2, v2, f1, f2⟩ := fix_spinZ hz hx3 hh tz 0 (by omega) _ c1 v1 (agree 0 (by omega)) rfl
    obtain ⟨c3, r3, v3, g1, g2⟩ := fix_spinZ hz hx3 hh tz 1 (by omega) _ c2 v2 (by
      intro r hr hl
      have : OccS p c2 1 = OccS p c1 1 := f2
      rw [this]
      exact agree 1 (by omega) r hr hl) rfl
    refine ⟨c3, (r1.trans r2).trans r3, v3.val, same c3 fun s hs => ?_⟩
    rcases (show s = 0 ∨ s = 1 by omega) with rfl | rfl
    · have : OccS p c3 0 = OccS p c2 0 := g2
      rw [this, f1]
    · exact g1
  · have h2 : locCountF p = 2 * p.Ne := by
      rcases hp with h | h | h
      · exact absurd (Or.inr (Or.inl h.1)) hh
      · exact absurd (Or.inl h.1) hh
      · exact h.2
    refine ⟨c1, r1, v1.val, same c1 fun s hs => ?_⟩
    ext r
    constructor
    · intro hr
      exact (agree s hs r (mem_OccS.mp hr).1 (loc v1.val.target h2 s hs r hr)).mp hr
    · intro hr
      exact (agree s hs r (mem_spinSites.mp hr).1 (loc hA h2 s hs r hr)).mpr hr

/-! ## Steps that stay -/

section chain
variable {p : FPar} {T : Nat} {W : CfgStateF p → ℝ≥0∞} (hNe : 0 < p.Ne) (hNs : 0 < p.Nsite) (hlb : LocBin p)

/-- A hop that keeps the spin and whose target is drawn occupied until the code gives up. -/
theorem reject_hopZ {s x : Nat} {c : FCfg} (hc : ConsF p c) (hp : HopPathF p) (hz : p.twoSz ≠ -1) (hs : s < 2) (hx : x < p.Nsite)
    (ho : x + s * p.Nsite ∈ OccF p c) (lx : p.locSpn x ≠ 1) (hb : 2 * p.Nsite ≤ drawBound) :
    ∃ r : List Nat, (∀ u ∈ r, u < drawBound) ∧ ∀ tl, ∃ st', innerStepF acceptEveryF p (startAtF c) (r ++ tl) = some (st', tl) ∧ st'.c = c := by
  obtain ⟨pre, hb1, ht⟩ := hopPathF_pre hp
  obtain ⟨m, hm, e, e1, e2⟩ := occF_electron hc hs hx ho
  have hle := nsize_le hc
  have pt : ∀ n icnt tl, icnt + n = p.Nsite * p.Nsite + 1 → pickTargetC p c s icnt (List.replicate (n + 1) x ++ tl) = some ((x, true), tl) := by
    intro n
    induction n with
    | zero =>
      intro icnt tl h
      show pickTargetC p c s icnt (x :: tl) = _
      rw [pickTargetC]
      rw [if_pos (by omega)]
      simp [Nat.mod_eq_of_lt hx]
    | succ n ih =>
      intro icnt tl h
      rw [List.replicate_succ, List.cons_append, pickTargetC]
      simp only [Nat.mod_eq_of_lt hx]
      rw [if_neg (by omega), if_pos (Or.inl (by rw [e]; omega))]
      exact ih _ _ (by omega)
  refine ⟨pre ++ (m :: List.replicate (p.Nsite * p.Nsite + 2) x), ?_, ?_⟩
  · intro u hu
    rcases List.mem_append.mp hu with hu | hu
    · exact hb1 u hu
    · rcases List.mem_cons.mp hu with rfl | hu
      · omega
      · rw [(List.mem_replicate.mp hu).2]; omega
  · intro tl
    have hop : hopCandidateF p c (m :: (List.replicate (p.Nsite * p.Nsite + 2) x ++ tl)) = some ((true, ⟨m, x, x, s, s⟩, true), tl) := by
      unfold hopCandidateF makeCandidateHoppingC
      rw [if_neg hz, pickItinerantF]
      simp only [Nat.mod_eq_of_lt hm, e1, e2, Int.toNat_natCast]
      rw [if_neg lx]
      simp only
      rw [pt (p.Nsite * p.Nsite + 1) 0 tl (by omega)]
    refine ⟨{ startAtF c with cnt := bump (startAtF c).cnt 0 }, ?_, rfl⟩
    unfold innerStepF
    rw [List.append_assoc, ht]
    simp only
    rw [show (startAtF c).c = c from rfl, List.cons_append, hop]
    rfl

include hNe hNs hlb in
/-- two different weights among the states that a run can visit leave a chance to stay -/
theorem chainF_hold_weight (hW : ∀ c, W c ≠ ⊤) (hT : p.Nsite ∣ T) (hTb : T ≤ drawBound) {c0 c : CfgStateF p} (h0 : W c0 ≠ 0)
    (h : CanReach (chainKF p T W) c0 c) (hne : W c ≠ W c0) : ∃ c, CanReach (chainKF p T W) c0 c ∧ chainKF p T W c c ≠ 0 := by
  by_contra hn
  push Not at hn
  apply hne
  have step : ∀ a b, CanReach (chainKF p T W) c0 a → CanStep (chainKF p T W) a b → W a ≤ W b := by
    intro a b ha hs
    by_cases e : b = a
    · rw [e]
    · by_contra hlt
      rw [not_le] at hlt
      unfold CanStep at hs
      have hs' := hs
      unfold chainKF metroKernel at hs'
      rw [if_neg (fun q => e q.symm), moveProb_ne drawBound_pos (hW a)] at hs'
      have := leave_lt_of_weight (W := W) drawBound_pos (chainF_leave_le (T := T) hNe hNs hlb a) e hs'.1 hlt
      have h1 := hn a ha
      unfold chainKF metroKernel at h1
      rw [if_pos rfl] at h1
      exact (tsub_pos_of_lt this).ne' h1
  induction h with
  | refl => rfl
  | @step a b ha hs ih =>
    have ea : W a = W c0 := by by_contra q; exact q (ih q)
    rw [← ea]
    refine le_antisymm ?_ (step a b ha hs)
    refine step b a (ha.step hs) ?_
    have hb := chainF_balance (W := W) hNe hNs hlb hW hT hTb a b
    intro q
    rw [q, mul_zero] at hb
    exact (mul_ne_zero (reachF_pos hNe hNs hlb hW h0 ha) hs) hb

include hNe hNs hlb in
/-- the numbers of electrons of both spins never change -/
theorem reachZ_card (hz : p.twoSz ≠ -1) (hx3 : p.exPath ≠ 3) (hW : ∀ c, W c ≠ ⊤) {c0 c : CfgStateF p} (h : CanReach (chainKF p T W) c0 c) {s : Nat}
    (hs : s < 2) : (OccS p c.1 s).card = (OccS p c0.1 s).card := by
  induction h with
  | refl => rfl
  | @step a b _ hab ih =>
    by_cases e : b = a
    · rw [e]; exact ih
    · rw [(chainF_mv hNe hNs hlb (hW a) e hab).1.card_spin a.2.1 hz hx3 hs, ih]

end chain

end MVMC
