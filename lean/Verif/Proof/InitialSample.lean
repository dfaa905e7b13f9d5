import Verif.Proof.Sampler

namespace MVMC
open Spec

/-- partial consistency during placement -/
structure PInv (p : SamplerPar) (c : EleCfg) : Prop where
  el : ∀ s < 2, ∀ mi < p.Ne, c.idx (mi + s * p.Ne) = -1 ∨ ∃ ri < p.Nsite,
    c.idx (mi + s * p.Ne) = (ri : Int) ∧ c.cfg (ri + s * p.Nsite) = (mi : Int)
  st : ∀ s < 2, ∀ ri < p.Nsite, c.cfg (ri + s * p.Nsite) = -1 ∨ ∃ mi < p.Ne,
    c.cfg (ri + s * p.Nsite) = (mi : Int) ∧ c.idx (mi + s * p.Ne) = (ri : Int)

def place (p : SamplerPar) (c : EleCfg) (ri si mi : Nat) : EleCfg :=
  { c with cfg := c.cfg.set (ri + si * p.Nsite) mi, idx := c.idx.set (mi + si * p.Ne) ri }

theorem place_pinv {p : SamplerPar} {c : EleCfg} (h : PInv p c) {ri si mi : Nat} (hs : si < 2)
    (hr : ri < p.Nsite) (hm : mi < p.Ne) (h1 : c.idx (mi + si * p.Ne) = -1)
    (h2 : c.cfg (ri + si * p.Nsite) = -1) : PInv p (place p c ri si mi) := by
  constructor
  · intro s hs' m hm'
    simp only [place, Arr.set, flat_inj hs' hs hm' hm]
    by_cases e : m = mi ∧ s = si
    · right; refine ⟨ri, hr, ?_, ?_⟩
      · rw [if_pos e]
      · rw [if_pos (by rw [e.2]), e.1]
    · rw [if_neg e]
      rcases h.el s hs' m hm' with h3 | ⟨r, hr', h3, h4⟩
      · left; exact h3
      · right
        refine ⟨r, hr', h3, ?_⟩
        rw [if_neg ?_]; exact h4
        rw [flat_inj hs' hs hr' hr]
        rintro ⟨rfl, rfl⟩
        omega
  · intro s hs' r hr'
    simp only [place, Arr.set, flat_inj hs' hs hr' hr]
    by_cases e : r = ri ∧ s = si
    · right; refine ⟨mi, hm, ?_, ?_⟩
      · rw [if_pos e]
      · rw [if_pos (by rw [e.2]), e.1]
    · rw [if_neg e]
      rcases h.st s hs' r hr' with h3 | ⟨m, hm', h3, h4⟩
      · left; exact h3
      · right
        refine ⟨m, hm', h3, ?_⟩
        rw [if_neg ?_]; exact h4
        rw [flat_inj hs' hs hm' hm]
        rintro ⟨rfl, rfl⟩
        omega

theorem pickFreeElectron_ok {p : SamplerPar} {c : EleCfg} (hNe : 0 < p.Ne) (r : List Nat)
    {mi si : Nat} {r' : List Nat} (h : pickFreeElectron p c r = some ((mi, si), r')) :
    mi < p.Ne ∧ si < 2 ∧ c.idx (mi + si * p.Ne) = -1 := by
  fun_induction pickFreeElectron p c r with
  | case1 u v r mi' s' hl ih => exact ih h
  | case2 u v r mi' s' hl =>
    simp only [Option.some.injEq, Prod.mk.injEq] at h
    obtain ⟨⟨rfl, rfl⟩, _⟩ := h
    exact ⟨Nat.mod_lt _ hNe, coin_lt v, by simpa using hl⟩
  | case3 => simp at h

theorem pickFreeSite_ok {p : SamplerPar} {c : EleCfg} (hNs : 0 < p.Nsite) (si : Nat) (r : List Nat)
    {ri : Nat} {r' : List Nat} (h : pickFreeSite p c si r = some (ri, r')) :
    ri < p.Nsite ∧ c.cfg (ri + si * p.Nsite) = -1 ∧ p.locSpn ri ≠ 1 := by
  fun_induction pickFreeSite p c si r with
  | case1 u r ri' hl ih => exact ih h
  | case2 u r ri' hl =>
    simp only [Option.some.injEq, Prod.mk.injEq] at h
    obtain ⟨rfl, _⟩ := h
    rw [not_or, not_not] at hl
    exact ⟨Nat.mod_lt _ hNs, hl⟩
  | case3 => simp at h

/-- exactly one electron on site `ri` -/
def OneOn (p : SamplerPar) (c : EleCfg) (ri : Nat) : Prop :=
  (c.cfg ri = -1 ∧ c.cfg (ri + p.Nsite) ≠ -1) ∨ (c.cfg ri ≠ -1 ∧ c.cfg (ri + p.Nsite) = -1)

theorem place_cfg_other {p : SamplerPar} {c : EleCfg} {ri si mi : Nat} (hs : si < 2) (hr : ri < p.Nsite)
    {r s : Nat} (hs' : s < 2) (hr' : r < p.Nsite) (hne : r ≠ ri) :
    (place p c ri si mi).cfg (r + s * p.Nsite) = c.cfg (r + s * p.Nsite) := by
  simp only [place, Arr.set, flat_inj hs' hs hr' hr]
  rw [if_neg (fun h => hne h.1)]

theorem oneOn_congr {p : SamplerPar} {c c' : EleCfg} {r : Nat}
    (h : ∀ s, s < 2 → c'.cfg (r + s * p.Nsite) = c.cfg (r + s * p.Nsite)) (ho : OneOn p c r) :
    OneOn p c' r := by
  have h0 := h 0 (by omega)
  have h1 := h 1 (by omega)
  simp only [Nat.zero_mul, Nat.add_zero, Nat.one_mul] at h0 h1
  unfold OneOn at *
  rw [h0, h1]; exact ho

theorem placeLocal_ok {p : SamplerPar} (hNe : 0 < p.Ne) (todo : List Nat) (hnd : todo.Nodup)
    (hin : ∀ r ∈ todo, r < p.Nsite) {c c' : EleCfg} {rs rs' : List Nat} (hp : PInv p c)
    (htodo : ∀ r ∈ todo, ∀ s < 2, c.cfg (r + s * p.Nsite) = -1)
    (hdone : ∀ r < p.Nsite, r ∉ todo → p.locSpn r = 1 → OneOn p c r)
    (e : placeLocal p todo c rs = some (c', rs')) :
    PInv p c' ∧ ∀ r < p.Nsite, p.locSpn r = 1 → OneOn p c' r := by
  induction todo generalizing c rs with
  | nil =>
    simp only [placeLocal, Option.some.injEq, Prod.mk.injEq] at e
    obtain ⟨rfl, _⟩ := e
    exact ⟨hp, fun r hr hl => hdone r hr (by simp) hl⟩
  | cons ri todo ih =>
    rw [List.nodup_cons] at hnd
    have hri := hin ri (by simp)
    unfold placeLocal at e
    split at e
    · rename_i hl
      split at e
      · simp at e
      · rename_i mi si r1 e1
        have ⟨hm, hs, hfree⟩ := pickFreeElectron_ok hNe _ e1
        change placeLocal p todo (place p c ri si mi) r1 = _ at e
        refine ih hnd.2 (fun r hr => hin r (by simp [hr])) ?_ ?_ ?_ e
        · exact place_pinv hp hs hri hm hfree (htodo ri (by simp) si hs)
        · intro r hr s hs'
          rw [place_cfg_other hs hri hs' (hin r (by simp [hr])) (by rintro rfl; exact hnd.1 hr)]
          exact htodo r (by simp [hr]) s hs'
        · intro r hr hnt hloc
          by_cases er : r = ri
          · subst er
            have h0 := htodo r (by simp) 0 (by omega)
            have h1 := htodo r (by simp) 1 (by omega)
            simp only [Nat.zero_mul, Nat.add_zero, Nat.one_mul] at h0 h1
            unfold OneOn
            simp only [place, Arr.set]
            rcases (show si = 0 ∨ si = 1 by omega) with rfl | rfl
            · right
              simp only [Nat.zero_mul, Nat.add_zero, if_true]
              rw [if_neg (by omega)]
              exact ⟨by omega, h1⟩
            · left
              simp only [Nat.one_mul, if_true]
              rw [if_neg (by omega)]
              exact ⟨h0, by omega⟩
          · exact oneOn_congr (fun s hs' => place_cfg_other hs hri hs' hr er)
              (hdone r hr (by simp [er, hnt]) hloc)
    · rename_i hl
      refine ih hnd.2 (fun r hr => hin r (by simp [hr])) hp (fun r hr => htodo r (by simp [hr])) ?_ e
      intro r hr hnt hloc
      by_cases er : r = ri
      · subst er; exact absurd hloc hl
      · exact hdone r hr (by simp [er, hnt]) hloc

theorem placeItinerant_ok {p : SamplerPar} (hNs : 0 < p.Nsite) (todo : List (Nat × Nat))
    (hin : ∀ x ∈ todo, x.1 < 2 ∧ x.2 < p.Ne) {c c' : EleCfg} {rs rs' : List Nat} (hp : PInv p c)
    (hloc : ∀ r < p.Nsite, p.locSpn r = 1 → OneOn p c r)
    (hdone : ∀ s < 2, ∀ m < p.Ne, (s, m) ∉ todo → c.idx (m + s * p.Ne) ≠ -1)
    (e : placeItinerant p todo c rs = some (c', rs')) :
    PInv p c' ∧ (∀ r < p.Nsite, p.locSpn r = 1 → OneOn p c' r) ∧
      ∀ s < 2, ∀ m < p.Ne, c'.idx (m + s * p.Ne) ≠ -1 := by
  induction todo generalizing c rs with
  | nil =>
    simp only [placeItinerant, Option.some.injEq, Prod.mk.injEq] at e
    obtain ⟨rfl, _⟩ := e
    exact ⟨hp, hloc, fun s hs m hm => hdone s hs m hm (by simp)⟩
  | cons x todo ih =>
    obtain ⟨si, mi⟩ := x
    have ⟨hs, hm⟩ := hin (si, mi) (by simp)
    simp only at hs hm
    unfold placeItinerant at e
    split at e
    · rename_i hfree
      split at e
      · simp at e
      · rename_i ri r1 e1
        have ⟨hr, hcf, hl⟩ := pickFreeSite_ok hNs si _ e1
        change placeItinerant p todo (place p c ri si mi) r1 = _ at e
        refine ih (fun x hx => hin x (by simp [hx])) ?_ ?_ ?_ e
        · exact place_pinv hp hs hr hm hfree hcf
        · intro r hr' hl'
          have hne : r ≠ ri := by rintro rfl; exact hl hl'
          exact oneOn_congr (fun s hs' => place_cfg_other hs hr hs' hr' hne) (hloc r hr' hl')
        · intro s hs' m hm' hnt
          simp only [place, Arr.set, flat_inj hs' hs hm' hm]
          split
          · omega
          · rename_i hne
            refine hdone s hs' m hm' ?_
            rw [List.mem_cons, not_or]
            refine ⟨?_, hnt⟩
            intro h; injection h with h1 h2; exact hne ⟨h2, h1⟩
    · rename_i hnf
      refine ih (fun x hx => hin x (by simp [hx])) hp hloc ?_ e
      intro s hs' m hm' hnt
      by_cases hx : (s, m) = (si, mi)
      · injection hx with h1 h2; subst h1; subst h2; exact hnf
      · exact hdone s hs' m hm' (by rw [List.mem_cons, not_or]; exact ⟨hx, hnt⟩)

theorem initialPass_ok {p : SamplerPar} (hNe : 0 < p.Ne) (hNs : 0 < p.Nsite) {c : EleCfg}
    {rs rs' : List Nat} (e : initialPass p rs = some (c, rs')) :
    Cons p c ∧ LocalSingle p.Nsite p.locSpn c.num := by
  unfold initialPass at e
  split at e
  · simp at e
  · rename_i c1 r1 e1
    have ⟨hp1, hl1⟩ := placeLocal_ok hNe (List.range p.Nsite) List.nodup_range
      (fun r hr => List.mem_range.mp hr)
      ⟨fun _ _ _ _ => Or.inl rfl, fun _ _ _ _ => Or.inl rfl⟩ (fun _ _ _ _ => rfl)
      (fun r hr hnt => absurd (List.mem_range.mpr hr) hnt) e1
    split at e
    · simp at e
    · rename_i c2 r2 e2
      have ⟨hp2, hl2, hall⟩ := placeItinerant_ok hNs _ (by
        intro x hx
        rw [List.mem_append, List.mem_map, List.mem_map] at hx
        rcases hx with ⟨m, hm, rfl⟩ | ⟨m, hm, rfl⟩
        · exact ⟨by simp, List.mem_range.mp hm⟩
        · exact ⟨by simp, List.mem_range.mp hm⟩) hp1 hl1 (by
        intro s hs m hm hnt
        exfalso; apply hnt
        rw [List.mem_append, List.mem_map, List.mem_map]
        rcases (show s = 0 ∨ s = 1 by omega) with rfl | rfl
        · left; exact ⟨m, List.mem_range.mpr hm, rfl⟩
        · right; exact ⟨m, List.mem_range.mpr hm, rfl⟩) e2
      simp only [Option.some.injEq, Prod.mk.injEq] at e
      obtain ⟨rfl, _⟩ := e
      refine ⟨⟨?_, ?_⟩, ?_⟩
      · intro s hs m hm
        rcases hp2.el s hs m hm with h | h
        · exact absurd h (hall s hs m hm)
        · exact h
      · intro s hs r hr
        rcases hp2.st s hs r hr with h | ⟨m, hm, h1, h2⟩
        · left; refine ⟨h, ?_⟩; simp only [h]; rfl
        · right; refine ⟨m, hm, h1, h2, ?_⟩
          simp only [h1]; rw [if_neg (by omega)]
      · intro r hr hloc
        have h0 := hp2.st 0 (by omega) r hr
        have h1 := hp2.st 1 (by omega) r hr
        simp only [Nat.zero_mul, Nat.add_zero, Nat.one_mul] at h0 h1
        rcases hl2 r hr hloc with ⟨a, b⟩ | ⟨a, b⟩
        · rcases h1 with h1 | ⟨m, _, h1, _⟩
          · exact absurd h1 b
          · simp only [a, h1]
            rw [if_neg (show ¬ ((m:Int) < 0) by omega)]; rfl
        · rcases h0 with h0 | ⟨m, _, h0, _⟩
          · exact absurd h0 a
          · simp only [h0, b]
            rw [if_neg (show ¬ ((m:Int) < 0) by omega)]; rfl

theorem makeInitialSample_ok {p : SamplerPar} (bad : EleCfg → Bool) (hNe : 0 < p.Ne) (hNs : 0 < p.Nsite)
    {c : EleCfg} {rs rs' : List Nat} (n : Nat) (e : makeInitialSample p bad n rs = some (.ok c rs')) :
    Cons p c ∧ LocalSingle p.Nsite p.locSpn c.num ∧ bad c = false := by
  induction n generalizing rs with
  | zero =>
    unfold makeInitialSample at e
    split at e <;> simp at e
  | succ n ih =>
    unfold makeInitialSample at e
    split at e
    · simp at e
    · rename_i c1 r1 e1
      split at e
      · exact ih e
      · rename_i hb
        simp only [Option.some.injEq, InitOutcome.ok.injEq] at e
        obtain ⟨rfl, _⟩ := e
        have := initialPass_ok hNe hNs e1
        exact ⟨this.1, this.2, by simpa using hb⟩

end MVMC
