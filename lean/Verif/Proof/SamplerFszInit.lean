import Verif.Proof.SamplerFsz

namespace MVMC
open Spec

/-! ### initial placement -/

/-- partial consistency during placement; the spin table is fixed -/
structure FPInv (p : FPar) (c : FCfg) : Prop where
  sp : ∀ mi < p.Nsize, ∃ s < 2, c.spn mi = ((s : Nat) : Int)
  el : ∀ mi < p.Nsize, c.idx mi = -1 ∨ ∃ ri < p.Nsite,
    c.idx mi = ((ri : Nat) : Int) ∧ c.cfg (ri + (c.spn mi).toNat * p.Nsite) = ((mi : Nat) : Int)
  st : ∀ s < 2, ∀ ri < p.Nsite, c.cfg (ri + s * p.Nsite) = -1 ∨ ∃ mi < p.Nsize,
    c.cfg (ri + s * p.Nsite) = ((mi : Nat) : Int) ∧ c.idx mi = ((ri : Nat) : Int) ∧
      c.spn mi = ((s : Nat) : Int)

theorem FPInv.lt {p : FPar} {c : FCfg} (h : FPInv p c) {mi : Nat} (hm : mi < p.Nsize) :
    (c.spn mi).toNat < 2 ∧ c.spn mi = (((c.spn mi).toNat : Nat) : Int) := by
  obtain ⟨s, hs, e⟩ := h.sp mi hm
  rw [e]; simp [hs]

theorem placeF_pinv {p : FPar} {c : FCfg} (h : FPInv p c) {ri mi : Nat}
    (hr : ri < p.Nsite) (hm : mi < p.Nsize) (h1 : c.idx mi = -1)
    (h2 : c.cfg (ri + (c.spn mi).toNat * p.Nsite) = -1) : FPInv p (placeF p c ri mi) := by
  have hsi := h.lt hm
  constructor
  · exact h.sp
  · intro m hm'
    have hs' := h.lt hm'
    simp only [placeF, Arr.set]
    by_cases e : m = mi
    · right; refine ⟨ri, hr, ?_, ?_⟩
      · rw [if_pos e]
      · rw [if_pos (by rw [e]), e]
    · rw [if_neg e]
      rcases h.el m hm' with h3 | ⟨r, hr', h3, h4⟩
      · left; exact h3
      · right
        refine ⟨r, hr', h3, ?_⟩
        rw [if_neg ?_]; exact h4
        rw [flat_inj hs'.1 hsi.1 hr' hr]
        rintro ⟨rfl, q⟩
        rw [q] at h4
        omega
  · intro s hs' r hr'
    simp only [placeF, Arr.set, flat_inj hs' hsi.1 hr' hr]
    by_cases e : r = ri ∧ s = (c.spn mi).toNat
    · right; refine ⟨mi, hm, ?_, ?_, ?_⟩
      · rw [if_pos e]
      · rw [if_pos rfl, e.1]
      · rw [hsi.2, ← e.2]
    · rw [if_neg e]
      rcases h.st s hs' r hr' with h3 | ⟨m, hm', h3, h4, h5⟩
      · left; exact h3
      · right
        have : m ≠ mi := by rintro rfl; omega
        exact ⟨m, hm', h3, by rw [if_neg this]; exact h4, h5⟩

theorem pickFreeElectronF_ok {p : FPar} {c : FCfg} (hNe : 0 < p.Ne) (r : List Nat)
    {mi : Nat} {r' : List Nat} (h : pickFreeElectronF p c r = some (mi, r')) :
    mi < p.Nsize ∧ c.idx mi = -1 := by
  fun_induction pickFreeElectronF p c r with
  | case1 u r mi' hl ih => exact ih h
  | case2 u r mi' hl =>
    simp only [Option.some.injEq, Prod.mk.injEq] at h
    obtain ⟨rfl, _⟩ := h
    exact ⟨Nat.mod_lt _ (by unfold FPar.Nsize; omega), by simpa using hl⟩
  | case3 => simp at h

theorem pickFreeSiteF_ok {p : FPar} {c : FCfg} (hNs : 0 < p.Nsite) (si : Nat) (r : List Nat)
    {ri : Nat} {r' : List Nat} (h : pickFreeSiteF p c si r = some (ri, r')) :
    ri < p.Nsite ∧ c.cfg (ri + si * p.Nsite) = -1 ∧ p.locSpn ri ≠ 1 := by
  fun_induction pickFreeSiteF p c si r with
  | case1 u r ri' hl ih => exact ih h
  | case2 u r ri' hl =>
    simp only [Option.some.injEq, Prod.mk.injEq] at h
    obtain ⟨rfl, _⟩ := h
    rw [not_or, not_not] at hl
    exact ⟨Nat.mod_lt _ hNs, hl⟩
  | case3 => simp at h

/-- exactly one electron on site `ri` -/
def OneOnF (p : FPar) (c : FCfg) (ri : Nat) : Prop :=
  (c.cfg ri = -1 ∧ c.cfg (ri + p.Nsite) ≠ -1) ∨ (c.cfg ri ≠ -1 ∧ c.cfg (ri + p.Nsite) = -1)

theorem placeF_cfg_other {p : FPar} {c : FCfg} {ri mi : Nat} (hsi : (c.spn mi).toNat < 2)
    (hr : ri < p.Nsite) {r s : Nat} (hs' : s < 2) (hr' : r < p.Nsite) (hne : r ≠ ri) :
    (placeF p c ri mi).cfg (r + s * p.Nsite) = c.cfg (r + s * p.Nsite) := by
  simp only [placeF, Arr.set, flat_inj hs' hsi hr' hr]
  rw [if_neg (fun h => hne h.1)]

theorem oneOnF_congr {p : FPar} {c c' : FCfg} {r : Nat}
    (h : ∀ s, s < 2 → c'.cfg (r + s * p.Nsite) = c.cfg (r + s * p.Nsite)) (ho : OneOnF p c r) :
    OneOnF p c' r := by
  have h0 := h 0 (by omega)
  have h1 := h 1 (by omega)
  simp only [Nat.zero_mul, Nat.add_zero, Nat.one_mul] at h0 h1
  unfold OneOnF at *
  rw [h0, h1]; exact ho

theorem placeLocalF_ok {p : FPar} (hNe : 0 < p.Ne) (todo : List Nat) (hnd : todo.Nodup)
    (hin : ∀ r ∈ todo, r < p.Nsite) {c c' : FCfg} {rs rs' : List Nat} (hp : FPInv p c)
    (htodo : ∀ r ∈ todo, ∀ s < 2, c.cfg (r + s * p.Nsite) = -1)
    (hdone : ∀ r < p.Nsite, r ∉ todo → p.locSpn r = 1 → OneOnF p c r)
    (e : placeLocalF p todo c rs = some (c', rs')) :
    FPInv p c' ∧ (∀ r < p.Nsite, p.locSpn r = 1 → OneOnF p c' r) ∧ c'.spn = c.spn := by
  induction todo generalizing c rs with
  | nil =>
    simp only [placeLocalF, Option.some.injEq, Prod.mk.injEq] at e
    obtain ⟨rfl, _⟩ := e
    exact ⟨hp, fun r hr hl => hdone r hr (by simp) hl, rfl⟩
  | cons ri todo ih =>
    rw [List.nodup_cons] at hnd
    have hri := hin ri (by simp)
    unfold placeLocalF at e
    split at e
    · rename_i hl
      split at e
      · simp at e
      · rename_i mi r1 e1
        have ⟨hm, hfree⟩ := pickFreeElectronF_ok hNe _ e1
        have hs := (hp.lt hm).1
        have := ih hnd.2 (fun r hr => hin r (by simp [hr])) (c := placeF p c ri mi) ?_ ?_ ?_ e
        · exact this
        · exact placeF_pinv hp hri hm hfree (htodo ri (by simp) _ hs)
        · intro r hr s hs'
          rw [placeF_cfg_other hs hri hs' (hin r (by simp [hr])) (by rintro rfl; exact hnd.1 hr)]
          exact htodo r (by simp [hr]) s hs'
        · intro r hr hnt hloc
          by_cases er : r = ri
          · subst er
            have h0 := htodo r (by simp) 0 (by omega)
            have h1 := htodo r (by simp) 1 (by omega)
            simp only [Nat.zero_mul, Nat.add_zero, Nat.one_mul] at h0 h1
            unfold OneOnF
            simp only [placeF, Arr.set]
            rcases (show (c.spn mi).toNat = 0 ∨ (c.spn mi).toNat = 1 by omega) with q | q
            · right
              simp only [q, Nat.zero_mul, Nat.add_zero, if_true]
              rw [if_neg (by omega)]
              exact ⟨by omega, h1⟩
            · left
              simp only [q, Nat.one_mul, if_true]
              rw [if_neg (by omega)]
              exact ⟨h0, by omega⟩
          · exact oneOnF_congr (fun s hs' => placeF_cfg_other hs hri hs' hr er)
              (hdone r hr (by simp [er, hnt]) hloc)
    · rename_i hl
      refine ih hnd.2 (fun r hr => hin r (by simp [hr])) hp (fun r hr => htodo r (by simp [hr])) ?_ e
      intro r hr hnt hloc
      by_cases er : r = ri
      · subst er; exact absurd hloc hl
      · exact hdone r hr (by simp [er, hnt]) hloc

theorem placeItinerantF_ok {p : FPar} (hNs : 0 < p.Nsite) (todo : List Nat)
    (hin : ∀ x ∈ todo, x < p.Nsize) {c c' : FCfg} {rs rs' : List Nat} (hp : FPInv p c)
    (hloc : ∀ r < p.Nsite, p.locSpn r = 1 → OneOnF p c r)
    (hdone : ∀ m < p.Nsize, m ∉ todo → c.idx m ≠ -1)
    (e : placeItinerantF p todo c rs = some (c', rs')) :
    FPInv p c' ∧ (∀ r < p.Nsite, p.locSpn r = 1 → OneOnF p c' r) ∧
      (∀ m < p.Nsize, c'.idx m ≠ -1) ∧ c'.spn = c.spn := by
  induction todo generalizing c rs with
  | nil =>
    simp only [placeItinerantF, Option.some.injEq, Prod.mk.injEq] at e
    obtain ⟨rfl, _⟩ := e
    exact ⟨hp, hloc, fun m hm => hdone m hm (by simp), rfl⟩
  | cons mi todo ih =>
    have hm := hin mi (by simp)
    have hs := (hp.lt hm).1
    unfold placeItinerantF at e
    split at e
    · rename_i hfree
      split at e
      · simp at e
      · rename_i ri r1 e1
        have ⟨hr, hcf, hl⟩ := pickFreeSiteF_ok hNs _ _ e1
        have := ih (fun x hx => hin x (by simp [hx])) (c := placeF p c ri mi) ?_ ?_ ?_ e
        · exact this
        · exact placeF_pinv hp hr hm hfree hcf
        · intro r hr' hl'
          have hne : r ≠ ri := by rintro rfl; exact hl hl'
          exact oneOnF_congr (fun s hs' => placeF_cfg_other hs hr hs' hr' hne) (hloc r hr' hl')
        · intro m hm' hnt
          simp only [placeF, Arr.set]
          split
          · omega
          · rename_i hne
            exact hdone m hm' (by simp [hne, hnt])
    · rename_i hnf
      refine ih (fun x hx => hin x (by simp [hx])) hp hloc ?_ e
      intro m hm' hnt
      by_cases hx : m = mi
      · subst hx; exact hnf
      · exact hdone m hm' (by simp [hx, hnt])

theorem initialPassF_ok {p : FPar} (hNe : 0 < p.Ne) (hNs : 0 < p.Nsite) {c : FCfg}
    {rs rs' : List Nat} (e : initialPassF p rs = some (c, rs')) :
    ConsF p c ∧ LocalSingle p.Nsite p.locSpn c.num ∧ c.spn = initSpn p := by
  unfold initialPassF at e
  split at e
  · simp at e
  · rename_i c1 r1 e1
    have ⟨hp1, hl1, hs1⟩ := placeLocalF_ok hNe (List.range p.Nsite) List.nodup_range
      (fun r hr => List.mem_range.mp hr)
      ⟨fun mi _ => by
          simp only [initSpn]; split
          · exact ⟨0, by omega, rfl⟩
          · exact ⟨1, by omega, rfl⟩,
        fun _ _ => Or.inl rfl, fun _ _ _ _ => Or.inl rfl⟩ (fun _ _ _ _ => rfl)
      (fun r hr hnt => absurd (List.mem_range.mpr hr) hnt) e1
    split at e
    · simp at e
    · rename_i c2 r2 e2
      have ⟨hp2, hl2, hall, hs2⟩ := placeItinerantF_ok hNs _ (fun x hx => List.mem_range.mp hx) hp1 hl1
        (fun m hm hnt => absurd (List.mem_range.mpr hm) hnt) e2
      simp only [Option.some.injEq, Prod.mk.injEq] at e
      obtain ⟨rfl, _⟩ := e
      refine ⟨⟨?_, ?_⟩, ?_, by simp only [hs2, hs1]⟩
      · intro m hm
        rcases hp2.el m hm with h | ⟨r, hr, h1, h2⟩
        · exact absurd h (hall m hm)
        · exact ⟨r, hr, _, (hp2.lt hm).1, h1, (hp2.lt hm).2, h2⟩
      · intro s hs r hr
        rcases hp2.st s hs r hr with h | ⟨m, hm, h1, h2, h3⟩
        · left; refine ⟨h, ?_⟩; simp only [h]; rfl
        · right; refine ⟨m, hm, h1, h2, h3, ?_⟩
          simp only [h1]; rw [if_neg (by omega)]
      · intro r hr hloc
        have h0 := hp2.st 0 (by omega) r hr
        have h1 := hp2.st 1 (by omega) r hr
        simp only [Nat.zero_mul, Nat.add_zero, Nat.one_mul] at h0 h1
        rcases hl2 r hr hloc with ⟨a, b⟩ | ⟨a, b⟩
        · rcases h1 with h1 | ⟨m, _, h1, _⟩
          · exact absurd h1 b
          · simp only [a, h1]
            rw [if_neg (show ¬ ((m:Int) < 0) by omega)]; rfl
        · rcases h0 with h0 | ⟨m, _, h0, _⟩
          · exact absurd h0 a
          · simp only [h0, b]
            rw [if_neg (show ¬ ((m:Int) < 0) by omega)]; rfl

theorem makeInitialSampleF_ok {p : FPar} (bad : FCfg → Bool) (hNe : 0 < p.Ne) (hNs : 0 < p.Nsite)
    {c : FCfg} {rs rs' : List Nat} (n : Nat) (e : makeInitialSampleF p bad n rs = some (.ok c rs')) :
    ConsF p c ∧ LocalSingle p.Nsite p.locSpn c.num ∧ c.spn = initSpn p ∧ bad c = false := by
  induction n generalizing rs with
  | zero =>
    unfold makeInitialSampleF at e
    split at e <;> simp at e
  | succ n ih =>
    unfold makeInitialSampleF at e
    split at e
    · simp at e
    · rename_i c1 r1 e1
      split at e
      · exact ih e
      · rename_i hb
        simp only [Option.some.injEq, FInitOutcome.ok.injEq] at e
        obtain ⟨rfl, _⟩ := e
        have := initialPassF_ok hNe hNs e1
        exact ⟨this.1, this.2.1, this.2.2, by simpa using hb⟩

/-! ### counting -/

theorem numF_eq {p : FPar} {c : FCfg} (hc : ConsF p c) {s ri : Nat} (hs : s < 2)
    (hr : ri < p.Nsite) :
    c.num (ri + s * p.Nsite) = if c.cfg (ri + s * p.Nsite) ≠ -1 then 1 else 0 := by
  rcases hc.site s hs ri hr with h | ⟨mi, hm, h1, h2, h3, h4⟩
  · rw [if_neg (by simp [h.1])]; exact h.2
  · rw [if_pos (by rw [h1]; omega)]; exact h4

/-- occupation counts the electrons whose spin entry is `s` -/
theorem spinCountF_eq {p : FPar} {c : FCfg} (hc : ConsF p c) {s : Nat} (hs : s < 2) :
    spinCount p.Nsite c.num s =
      (((Finset.range p.Nsize).filter (fun mi => c.spn mi = ((s : Nat) : Int))).card : Int) := by
  unfold spinCount
  rw [list_sum_range]
  have h1 : ((Finset.range p.Nsize).filter (fun mi => c.spn mi = ((s : Nat) : Int))).card =
      ((Finset.range p.Nsite).filter (fun ri => c.cfg (ri + s * p.Nsite) ≠ -1)).card := by
    refine Finset.card_bij (fun mi _ => (c.idx mi).toNat) ?_ ?_ ?_
    · intro mi hm
      simp only [Finset.mem_filter, Finset.mem_range] at hm ⊢
      obtain ⟨ri, hr, s', hs', a1, a2, a3⟩ := hc.electron mi hm.1
      have : s' = s := by have := hm.2; omega
      subst this
      rw [a1]; simp only [Int.toNat_natCast]
      exact ⟨hr, by rw [a3]; omega⟩
    · intro a ha b hb hab
      simp only [Finset.mem_filter, Finset.mem_range] at ha hb
      obtain ⟨ra, _, sa, _, a1, a2, a3⟩ := hc.electron a ha.1
      obtain ⟨rb, _, sb, _, b1, b2, b3⟩ := hc.electron b hb.1
      have q1 : sa = s := by have := ha.2; omega
      have q2 : sb = s := by have := hb.2; omega
      simp only [a1, b1, Int.toNat_natCast] at hab
      subst q1; subst q2; subst hab; omega
    · intro ri hri
      simp only [Finset.mem_filter, Finset.mem_range] at hri
      rcases hc.site s hs ri hri.1 with h | ⟨mi, hm, h1, h2, h3, _⟩
      · exact absurd h.1 hri.2
      · exact ⟨mi, by simp only [Finset.mem_filter, Finset.mem_range]; exact ⟨hm, h3⟩, by simp [h2]⟩
  rw [h1, Finset.card_filter]
  push_cast
  apply Finset.sum_congr rfl
  intro ri hri
  rw [numF_eq hc hs (Finset.mem_range.mp hri)]

theorem spinCountF_total {p : FPar} {c : FCfg} (hc : ConsF p c) :
    spinCount p.Nsite c.num 0 + spinCount p.Nsite c.num 1 = p.Nsize := by
  rw [spinCountF_eq hc (by omega), spinCountF_eq hc (by omega)]
  have : (Finset.range p.Nsize).filter (fun mi => c.spn mi = ((1 : Nat) : Int)) =
      (Finset.range p.Nsize).filter (fun mi => ¬ c.spn mi = ((0 : Nat) : Int)) := by
    apply Finset.filter_congr
    intro mi hm
    obtain ⟨ri, hr, s', hs', a1, a2, a3⟩ := hc.electron mi (Finset.mem_range.mp hm)
    rw [a2]; omega
  rw [this]
  have := Finset.card_filter_add_card_filter_not (s := Finset.range p.Nsize)
    (fun mi => c.spn mi = ((0 : Nat) : Int))
  rw [Finset.card_range] at this
  omega

theorem initSpn_up {p : FPar} (h1 : -(p.Ne : Int) ≤ tmpTwoSz p.twoSz) (h2 : tmpTwoSz p.twoSz ≤ p.Ne) :
    (((Finset.range p.Nsize).filter (fun mi => initSpn p mi = ((0 : Nat) : Int))).card : Int) =
      p.Ne + tmpTwoSz p.twoSz := by
  have : (Finset.range p.Nsize).filter (fun mi => initSpn p mi = ((0 : Nat) : Int)) =
      Finset.range ((p.Ne : Int) + tmpTwoSz p.twoSz).toNat := by
    ext m
    rw [Finset.mem_filter, Finset.mem_range, Finset.mem_range, initSpn, FPar.Nsize]
    split
    · simp; omega
    · simp; omega
  rw [this, Finset.card_range]; omega

/-! ### the pair scan of the exchange -/

theorem scanPair_iff {p : FPar} {c : FCfg} (hc : ConsF p c) (todo : List Nat)
    (hin : ∀ r ∈ todo, r < p.Nsite) (spn0 spn1 : Int)
    (h0 : spn0 = 0 ∨ spn0 = 1 ∨ spn0 = -1) (h1 : spn0 * spn1 ≥ 0) (h2 : spn0 = 0 → spn1 = 0) :
    scanPair p c todo spn0 spn1 = true ↔
      ((∃ r ∈ todo, c.num r = 1 ∧ c.num (r + p.Nsite) = 0) ∨ spn0 = 1) ∧
      ((∃ r ∈ todo, c.num r = 0 ∧ c.num (r + p.Nsite) = 1) ∨ spn0 = -1) := by
  induction todo generalizing spn0 spn1 with
  | nil =>
    simp only [scanPair, List.not_mem_nil, false_and, exists_false, false_or]
    constructor
    · intro h; simp at h
    · intro h; omega
  | cons ri todo ih =>
    have hr := hin ri (by simp)
    have n0 := numF_eq hc (s := 0) (by omega) hr
    have n1 := numF_eq hc (s := 1) (by omega) hr
    simp only [Nat.zero_mul, Nat.add_zero, Nat.one_mul] at n0 n1
    have hv0 : c.num ri = 0 ∨ c.num ri = 1 := by rw [n0]; split <;> simp
    have hv1 : c.num (ri + p.Nsite) = 0 ∨ c.num (ri + p.Nsite) = 1 := by rw [n1]; split <;> simp
    have hin' : ∀ r ∈ todo, r < p.Nsite := fun r hr => hin r (by simp [hr])
    unfold scanPair
    simp only [List.mem_cons, exists_eq_or_imp]
    rcases hv0 with a | a <;> rcases hv1 with b | b
    · rw [if_neg (by omega), ih hin' spn0 spn1 h0 h1 h2]
      simp [a, b]
    · rw [if_pos (by omega)]
      rcases h0 with q | q | q
      · subst q
        have q2 := h2 rfl
        subst q2
        rw [if_pos rfl, if_pos rfl, a, if_neg (by omega)]
        rw [ih hin' _ _ (by omega) (by omega) (by omega)]
        simp [b]
      · subst q
        simp only [show ¬ ((1:Int) = 0) by omega, show ¬ ((-1:Int) = 0) by omega, if_false, a]
        rw [if_pos (by omega)]
        simp [b]
      · subst q
        simp only [show ¬ ((1:Int) = 0) by omega, show ¬ ((-1:Int) = 0) by omega, if_false, a]
        rw [if_neg (by omega)]
        rw [ih hin' _ _ (by omega) (by omega) (by omega)]
        simp [b]
    · rw [if_pos (by omega)]
      rcases h0 with q | q | q
      · subst q
        have q2 := h2 rfl
        subst q2
        rw [if_pos rfl, if_pos rfl, a, if_neg (by omega)]
        rw [ih hin' _ _ (by omega) (by omega) (by omega)]
        simp [b]
      · subst q
        simp only [show ¬ ((1:Int) = 0) by omega, show ¬ ((-1:Int) = 0) by omega, if_false, a]
        rw [if_neg (by omega)]
        rw [ih hin' _ _ (by omega) (by omega) (by omega)]
        simp [b]
      · subst q
        simp only [show ¬ ((1:Int) = 0) by omega, show ¬ ((-1:Int) = 0) by omega, if_false, a]
        rw [if_pos (by omega)]
        simp [b]
    · rw [if_neg (by omega), ih hin' spn0 spn1 h0 h1 h2]
      simp [a, b]

end MVMC
