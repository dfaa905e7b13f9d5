import Mathlib.Algebra.BigOperators.Field
import Verif.Model.RBM
import Verif.Spec.RBM
import Verif.Proof.ProjectionSampler
import Verif.Proof.PfSampler

/-! Hidden-unit inputs under a hop, and the blocked ratio. -/
namespace MVMC
open Spec Finset

variable {K : Type} [Field K]

/-- indicator -/
def eqI (k i : Nat) : K := if k = i then 1 else 0

theorem addAt_eqI (a : Nat → K) (i k : Nat) (v : K) : addAt a i v k = a k + eqI k i * v := by
  unfold addAt eqI; split <;> simp

theorem foldl_addAt_eqI (n : Nat) (pos : Nat → Nat) (val : Nat → K) (a : Nat → K) (k : Nat) :
    (List.range n).foldl (fun a r => addAt a (pos r) (val r)) a k = a k + ∑ r ∈ range n, eqI k (pos r) * val r := by
  rw [foldl_addAt]
  congr 1
  apply sum_congr rfl
  intro r _
  unfold eqI; split <;> simp

/-- charge of a site -/
def visC (N : Nat) (num : Arr) (r : Nat) : K := ((num r + num (r + N) - 1 : Int) : K)
/-- spin of a site -/
def visS (N : Nat) (num : Arr) (r : Nat) : K := ((num r - num (r + N) : Int) : K)
/-- occupation of a spin orbital -/
def visG (num : Arr) (r : Nat) : K := ((2 * num r - 1 : Int) : K)

def rbmPhysSum (p : RBMPar K) (num : Arr) (k : Nat) : K :=
  (if p.nCP > 0 then ∑ r ∈ range p.Nsite, eqI k (p.cP r) * visC p.Nsite num r else 0)
  + (if p.nSP > 0 then ∑ r ∈ range p.Nsite, eqI k (p.sP r + p.nCP) * visS p.Nsite num r else 0)
  + (if p.nGP > 0 then ∑ r ∈ range (2 * p.Nsite), eqI k (p.gP r + (p.nCP + p.nSP)) * visG num r else 0)

def rbmHidSum (p : RBMPar K) (k : Nat) : K :=
  (if p.nCH > 0 then ∑ h ∈ range p.hC, eqI k (h + p.nPhys) * p.hidden (p.cH h) else 0)
  + (if p.nSH > 0 then ∑ h ∈ range p.hS, eqI k (h + p.nPhys + p.hC) * p.hidden (p.sH h + p.nCH) else 0)
  + (if p.nGH > 0 then ∑ h ∈ range p.hG, eqI k (h + (p.nPhys + p.hC + p.hS)) * p.hidden (p.gH h + (p.nCH + p.nSH)) else 0)

def rbmCoupSum (p : RBMPar K) (num : Arr) (k : Nat) : K :=
  (if p.nCX > 0 then ∑ h ∈ range p.hC, eqI k (h + p.nPhys) *
    ∑ r ∈ range p.Nsite, p.physHidden (p.cX r h) * visC p.Nsite num r else 0)
  + (if p.nSX > 0 then ∑ h ∈ range p.hS, eqI k (h + p.nPhys + p.hC) *
    ∑ r ∈ range p.Nsite, p.physHidden (p.sX r h + p.nCX) * visS p.Nsite num r else 0)
  + (if p.nGX > 0 then ∑ h ∈ range p.hG, eqI k (h + (p.nPhys + p.hC + p.hS)) *
    ∑ r ∈ range (2 * p.Nsite), p.physHidden (p.gX r h + (p.nCX + p.nSX)) * visG num r else 0)

omit [Field K] in
theorem ite_app (c : Prop) [Decidable c] (f g : Nat → K) (k : Nat) : (if c then f else g) k = if c then f k else g k := by
  split <;> rfl

theorem ite_add (c : Prop) [Decidable c] (x y : K) : (if c then x + y else x) = x + if c then y else 0 := by
  split <;> simp

theorem makeRBMCnt_apply (p : RBMPar K) (num : Arr) (k : Nat) :
    makeRBMCnt p num k = rbmPhysSum p num k + rbmHidSum p k + rbmCoupSum p num k := by
  unfold makeRBMCnt makeRBMCoup makeRBMHid makeRBMPhys
  simp only [ite_app, foldl_addAt_eqI, ite_add, sumLoop_eq]
  unfold rbmPhysSum rbmHidSum rbmCoupSum visC visS visG
  ring

theorem addHidden_apply (n : Nat) (pos : Nat → Nat) (val : Nat → K) (a : Nat → K) (k : Nat) :
    addHidden n pos val a k = a k + ∑ h ∈ range n, eqI k (pos h) * val h := foldl_addAt_eqI n pos val a k

/-- a weighted sum over visible variables when two of them change -/
theorem vis_shift (n : Nat) (G x x' : Nat → K) (i j : Nat) (e e' : K) (hi : i < n) (hj : j < n)
    (h : ∀ r < n, x' r = x r + (if r = j then e else 0) - (if r = i then e' else 0)) :
    ∑ r ∈ range n, G r * x' r = ∑ r ∈ range n, G r * x r + e * G j - e' * G i := by
  have : ∑ r ∈ range n, G r * x' r = ∑ r ∈ range n, (G r * x r + (if r = j then G r * e else 0)
      - (if r = i then G r * e' else 0)) := by
    apply sum_congr rfl
    intro r hr
    rw [h r (mem_range.mp hr), mul_sub, mul_add]
    congr 1
    · congr 1; split <;> simp
    · split <;> simp
  rw [this, sum_sub_distrib, sum_add_distrib, sum_ite_eq', sum_ite_eq', if_pos (mem_range.mpr hj),
    if_pos (mem_range.mpr hi), mul_comm e, mul_comm e']

/-- occupation difference of one move -/
structure OccMove (N ri rj s t : Nat) (num num' : Arr) : Prop where
  hs : s < 2
  ht : t < 2
  hri : ri < N
  hrj : rj < N
  upd : ∀ x < 2 * N, num' x = num x + (if x = rj + t * N then 1 else 0) - (if x = ri + s * N then 1 else 0)

theorem slot_lt {N r s : Nat} (hr : r < N) (hs : s < 2) : r + s * N < 2 * N := by
  have : s * N ≤ 1 * N := Nat.mul_le_mul_right _ (by omega)
  omega

theorem slot_cases {N r j t : Nat} (hr : r < N) (hj : j < N) (ht : t < 2) :
    ((r = j + t * N) ↔ (r = j ∧ t = 0)) ∧ ((r + N = j + t * N) ↔ (r = j ∧ t = 1)) := by
  rcases (by omega : t = 0 ∨ t = 1) with rfl | rfl <;> simp <;> omega

theorem OccMove.visC {N ri rj s t : Nat} {num num' : Arr} (h : OccMove N ri rj s t num num') :
    ∀ r < N, (visC N num' r : K) = visC N num r + (if r = rj then 1 else 0) - (if r = ri then 1 else 0) := by
  intro r hr
  have a := h.upd r (by omega)
  have b := h.upd (r + N) (by omega)
  obtain ⟨c1, c2⟩ := slot_cases hr h.hrj h.ht
  obtain ⟨d1, d2⟩ := slot_cases hr h.hri h.hs
  simp only [c1, d1] at a
  simp only [c2, d2] at b
  have hs := h.hs
  have ht := h.ht
  unfold MVMC.visC
  rw [a, b]
  rcases (by omega : s = 0 ∨ s = 1) with e | e <;> rcases (by omega : t = 0 ∨ t = 1) with e' | e' <;> subst e <;> subst e' <;>
    simp only [zero_ne_one, one_ne_zero, and_true, and_false, if_false] <;>
    split_ifs <;> push_cast <;> ring

theorem OccMove.visS {N ri rj s t : Nat} {num num' : Arr} (h : OccMove N ri rj s t num num') :
    ∀ r < N, (visS N num' r : K) = visS N num r + (if r = rj then 1 - 2 * (t : K) else 0)
      - (if r = ri then 1 - 2 * (s : K) else 0) := by
  intro r hr
  have a := h.upd r (by omega)
  have b := h.upd (r + N) (by omega)
  obtain ⟨c1, c2⟩ := slot_cases hr h.hrj h.ht
  obtain ⟨d1, d2⟩ := slot_cases hr h.hri h.hs
  simp only [c1, d1] at a
  simp only [c2, d2] at b
  have hs := h.hs
  have ht := h.ht
  unfold MVMC.visS
  rw [a, b]
  rcases (by omega : s = 0 ∨ s = 1) with e | e <;> rcases (by omega : t = 0 ∨ t = 1) with e' | e' <;> subst e <;> subst e' <;>
    simp only [zero_ne_one, one_ne_zero, and_true, and_false, if_false] <;>
    split_ifs <;> push_cast <;> ring

theorem OccMove.visG {N ri rj s t : Nat} {num num' : Arr} (h : OccMove N ri rj s t num num') :
    ∀ r < 2 * N, (visG num' r : K) = visG num r + (if r = rj + t * N then 2 else 0) - (if r = ri + s * N then 2 else 0) := by
  intro r hr
  have a := h.upd r hr
  unfold MVMC.visG
  rw [a]
  split_ifs <;> push_cast <;> ring

theorem sum_hidden_shift (n : Nat) (E A B C : Nat → K) :
    ∑ h ∈ range n, E h * (A h + B h - C h) = ∑ h ∈ range n, E h * A h + ∑ h ∈ range n, E h * B h + ∑ h ∈ range n, E h * -C h := by
  rw [← sum_add_distrib, ← sum_add_distrib]
  exact sum_congr rfl (fun h _ => by ring)

theorem ite_add2 (c : Prop) [Decidable c] (x y z : K) :
    (if c then x + y + z else x) = x + (if c then y else 0) + (if c then z else 0) := by
  split <;> simp

/-- indicator of a switch -/
def onI (c : Prop) [Decidable c] : K := if c then 1 else 0

theorem ite_onI (c : Prop) [Decidable c] (x : K) : (if c then x else 0) = onI c * x := by
  unfold onI; split <;> simp

/-- the general move except for the missing general-layer update on one site -/
theorem updateRBMCntFsz_ok {p : RBMPar K} {ri rj s t : Nat} {num num' : Arr} (h : OccMove p.Nsite ri rj s t num num')
    (hg : ri ≠ rj ∨ s = t ∨ p.nGP = 0) :
    updateRBMCntFsz p ri rj s t (makeRBMCnt p num) = makeRBMCnt p num' := by
  funext k
  have lc := vis_shift p.Nsite (fun r => (eqI k (p.cP r) : K)) _ _ ri rj _ _ h.hri h.hrj h.visC
  have ls := vis_shift p.Nsite (fun r => (eqI k (p.sP r + p.nCP) : K)) _ _ ri rj _ _ h.hri h.hrj h.visS
  have lg := vis_shift (2 * p.Nsite) (fun r => (eqI k (p.gP r + (p.nCP + p.nSP)) : K)) _ _ _ _ _ _ (slot_lt h.hri h.hs)
    (slot_lt h.hrj h.ht) h.visG
  have xc := fun hh => vis_shift p.Nsite (fun r => p.physHidden (p.cX r hh)) _ _ ri rj _ _ h.hri h.hrj h.visC
  have xs := fun hh => vis_shift p.Nsite (fun r => p.physHidden (p.sX r hh + p.nCX)) _ _ ri rj _ _ h.hri h.hrj h.visS
  have xg := fun hh => vis_shift (2 * p.Nsite) (fun r => p.physHidden (p.gX r hh + (p.nCX + p.nSX))) _ _ _ _ _ _
    (slot_lt h.hri h.hs) (slot_lt h.hrj h.ht) h.visG
  rw [makeRBMCnt_apply p num']
  unfold rbmPhysSum rbmCoupSum
  simp only [xc, xs, xg, sum_hidden_shift, lc, ls, lg, one_mul]
  by_cases e : ri = rj
  · subst e
    by_cases e' : s = t
    · subst e'
      unfold updateRBMCntFsz
      simp only [if_true]
      rw [makeRBMCnt_apply]
      unfold rbmPhysSum rbmCoupSum
      simp
    · have gp : p.nGP = 0 := by rcases hg with g | g | g
                                · exact absurd rfl g
                                · exact absurd g e'
                                · exact g
      unfold updateRBMCntFsz
      simp only [if_true, if_neg e', ite_app, addAt_eqI, addHidden_apply, makeRBMCnt_apply, ite_add2]
      unfold rbmPhysSum rbmCoupSum
      have z : (onI (0 < p.nGP) : K) = 0 := by unfold onI; rw [if_neg (by omega)]
      simp only [gt_iff_lt, ite_onI, z, Nat.add_assoc, mul_neg, sum_neg_distrib]
      ring
  · unfold updateRBMCntFsz
    simp only [if_neg e, ite_app, addAt_eqI, addHidden_apply, makeRBMCnt_apply, ite_add2]
    unfold rbmPhysSum rbmCoupSum
    simp only [gt_iff_lt, ite_onI, Nat.add_assoc, mul_neg, sum_neg_distrib]
    ring

theorem updateRBMCnt_eq (p : RBMPar K) (ri rj s : Nat) (old : Nat → K) :
    updateRBMCnt p ri rj s old = updateRBMCntFsz p ri rj s s old := by
  unfold updateRBMCnt updateRBMCntFsz
  by_cases e : ri = rj <;> simp [e]

/-- the updates read and write only through additions: cells that agree stay equal -/
theorem updateRBMCntFsz_congr (p : RBMPar K) (ri rj s t : Nat) (a b : Nat → K) (k : Nat) (h : a k = b k) :
    updateRBMCntFsz p ri rj s t a k = updateRBMCntFsz p ri rj s t b k := by
  unfold updateRBMCntFsz
  by_cases e : ri = rj <;> by_cases e' : s = t <;>
    simp only [e, e', if_true, if_false, ite_app, addAt_eqI, addHidden_apply, h]

theorem numHop_occ {q : ProjPar} {ri rj s t : Nat} {num num' : Arr} (h : NumHop q ri rj s t num num') :
    OccMove q.Nsite ri rj s t num num' where
  hs := h.hs
  ht := h.ht
  hri := h.hri
  hrj := h.hrj
  upd := by
    intro x hx
    have hN : 0 < q.Nsite := by have := h.hri; omega
    obtain ⟨r, u, hr, hu, rfl⟩ : ∃ r u, r < q.Nsite ∧ u < 2 ∧ x = r + u * q.Nsite := by
      refine ⟨x % q.Nsite, x / q.Nsite, Nat.mod_lt _ hN, ?_, ?_⟩
      · rw [Nat.div_lt_iff_lt_mul hN]; omega
      · have := Nat.mod_add_div x q.Nsite
        rw [Nat.mul_comm] at this
        omega
    have e1 : (r + u * q.Nsite = rj + t * q.Nsite) ↔ (r = rj ∧ u = t) :=
      ⟨fun e => block_inj hr h.hrj e, fun ⟨a, b⟩ => by rw [a, b]⟩
    have e2 : (r + u * q.Nsite = ri + s * q.Nsite) ↔ (r = ri ∧ u = s) :=
      ⟨fun e => block_inj hr h.hri e, fun ⟨a, b⟩ => by rw [a, b]⟩
    rw [h.upd r hr u hu]
    simp only [e1, e2]
    have w := h.was
    have f := h.free
    by_cases c1 : r = rj ∧ u = t
    · have c2 : ¬(r = ri ∧ u = s) := by
        rintro ⟨a, b⟩
        rw [← a, ← b] at w
        rw [← c1.1, ← c1.2] at f
        omega
      rw [if_pos c1, if_pos c1, if_neg c2, c1.1, c1.2, f]
      simp
    · by_cases c2 : r = ri ∧ u = s
      · rw [if_neg c1, if_pos c2, if_neg c1, if_pos c2, c2.1, c2.2, w]; simp
      · rw [if_neg c1, if_neg c2, if_neg c1, if_neg c2]; simp

/-! ### what the counters are -/

/-- the index tables point into their own blocks -/
structure RBMTab (p : RBMPar K) : Prop where
  cP : 0 < p.nCP → ∀ r < p.Nsite, p.cP r < p.nCP
  sP : 0 < p.nSP → ∀ r < p.Nsite, p.sP r < p.nSP
  gP : 0 < p.nGP → ∀ r < 2 * p.Nsite, p.gP r < p.nGP

theorem sum_eqI_none (n : Nat) (pos : Nat → Nat) (v : Nat → K) (k : Nat) (h : ∀ r < n, k ≠ pos r) :
    ∑ r ∈ range n, eqI k (pos r) * v r = 0 := by
  apply sum_eq_zero
  intro r hr
  unfold eqI
  rw [if_neg (h r (mem_range.mp hr)), zero_mul]

theorem sum_eqI_one (n : Nat) (pos : Nat → Nat) (v : Nat → K) (k i : Nat) (hi : i < n) (hk : k = pos i)
    (h : ∀ r < n, k = pos r → r = i) : ∑ r ∈ range n, eqI k (pos r) * v r = v i := by
  rw [sum_eq_single i]
  · unfold eqI; rw [if_pos hk, one_mul]
  · intro r hr ne
    unfold eqI
    rw [if_neg (fun e => ne (h r (mem_range.mp hr) e)), zero_mul]
  · intro hn; exact absurd (mem_range.mpr hi) hn

theorem visC_eq (N : Nat) (num : Arr) (r : Nat) : (visC N num r : K) = chargeVar N num r := by
  unfold visC chargeVar; push_cast; ring
theorem visS_eq (N : Nat) (num : Arr) (r : Nat) : (visS N num r : K) = spinVar N num r := by
  unfold visS spinVar; push_cast; ring
theorem visG_eq (num : Arr) (r : Nat) : (visG num r : K) = orbitalVar num r := by
  unfold visG orbitalVar; push_cast; ring

theorem classSum_eqI (n : Nat) (cls : Nat → Nat) (x : Nat → K) (k off c : Nat) (hk : k = off + c) :
    ∑ r ∈ range n, eqI k (cls r + off) * x r = classSum n cls x c := by
  unfold classSum eqI
  apply sum_congr rfl
  intro r _
  by_cases e : cls r = c
  · rw [if_pos (by omega), if_pos e, one_mul]
  · rw [if_neg (by omega), if_neg e, zero_mul]

theorem rbmHidSum_phys (p : RBMPar K) {k : Nat} (hk : k < p.nPhys) : rbmHidSum p k = 0 := by
  unfold rbmHidSum
  rw [sum_eqI_none, sum_eqI_none, sum_eqI_none]
  · simp
  all_goals intro r _; omega

theorem rbmCoupSum_phys (p : RBMPar K) (num : Arr) {k : Nat} (hk : k < p.nPhys) : rbmCoupSum p num k = 0 := by
  unfold rbmCoupSum
  rw [sum_eqI_none, sum_eqI_none, sum_eqI_none]
  · simp
  all_goals intro r _; omega

theorem physSum_hid {p : RBMPar K} (ht : RBMTab p) (num : Arr) {k : Nat} (hk : p.nPhys ≤ k) : rbmPhysSum p num k = 0 := by
  unfold rbmPhysSum
  have hn : p.nPhys = p.nCP + p.nSP + p.nGP := rfl
  have a : (if p.nCP > 0 then ∑ r ∈ range p.Nsite, (eqI k (p.cP r) : K) * visC p.Nsite num r else 0) = 0 := by
    split
    · apply sum_eqI_none
      intro r hr
      have := ht.cP (by assumption) r hr
      omega
    · rfl
  have b : (if p.nSP > 0 then ∑ r ∈ range p.Nsite, (eqI k (p.sP r + p.nCP) : K) * visS p.Nsite num r else 0) = 0 := by
    split
    · apply sum_eqI_none
      intro r hr
      have := ht.sP (by assumption) r hr
      omega
    · rfl
  have c : (if p.nGP > 0 then ∑ r ∈ range (2 * p.Nsite), (eqI k (p.gP r + (p.nCP + p.nSP)) : K) * visG num r else 0) = 0 := by
    split
    · apply sum_eqI_none
      intro r hr
      have := ht.gP (by assumption) r hr
      omega
    · rfl
  rw [a, b, c]; simp

theorem make_charge {p : RBMPar K} (num : Arr) {c : Nat} (hc : c < p.nCP) :
    makeRBMCnt p num c = classSum p.Nsite p.cP (chargeVar p.Nsite num) c := by
  have hn : p.nPhys = p.nCP + p.nSP + p.nGP := rfl
  rw [makeRBMCnt_apply, rbmHidSum_phys p (by omega), rbmCoupSum_phys p num (by omega)]
  unfold rbmPhysSum
  rw [if_pos (by omega), sum_eqI_none p.Nsite (fun r => p.sP r + p.nCP) _ _ (by intro r _; omega),
    sum_eqI_none (2 * p.Nsite) (fun r => p.gP r + (p.nCP + p.nSP)) _ _ (by intro r _; omega)]
  have := classSum_eqI p.Nsite p.cP (visC p.Nsite num : Nat → K) c 0 c (by omega)
  simp only [Nat.add_zero] at this
  rw [this, funext (visC_eq p.Nsite num)]
  simp

theorem make_spin {p : RBMPar K} (ht : RBMTab p) (num : Arr) {c : Nat} (hc : c < p.nSP) :
    makeRBMCnt p num (p.nCP + c) = classSum p.Nsite p.sP (spinVar p.Nsite num) c := by
  have hn : p.nPhys = p.nCP + p.nSP + p.nGP := rfl
  rw [makeRBMCnt_apply, rbmHidSum_phys p (by omega), rbmCoupSum_phys p num (by omega)]
  unfold rbmPhysSum
  have a : (if p.nCP > 0 then ∑ r ∈ range p.Nsite, (eqI (p.nCP + c) (p.cP r) : K) * visC p.Nsite num r else 0) = 0 := by
    split
    · apply sum_eqI_none
      intro r hr
      have := ht.cP (by assumption) r hr
      omega
    · rfl
  rw [a, if_pos (show p.nSP > 0 by omega),
    sum_eqI_none (2 * p.Nsite) (fun r => p.gP r + (p.nCP + p.nSP)) _ _ (by intro r _; omega),
    classSum_eqI p.Nsite p.sP (visS p.Nsite num : Nat → K) _ p.nCP c rfl, funext (visS_eq p.Nsite num)]
  simp

theorem make_orbital {p : RBMPar K} (ht : RBMTab p) (num : Arr) {c : Nat} (hc : c < p.nGP) :
    makeRBMCnt p num (p.nCP + p.nSP + c) = classSum (2 * p.Nsite) p.gP (orbitalVar num) c := by
  have hn : p.nPhys = p.nCP + p.nSP + p.nGP := rfl
  rw [makeRBMCnt_apply, rbmHidSum_phys p (by omega), rbmCoupSum_phys p num (by omega)]
  unfold rbmPhysSum
  have a : (if p.nCP > 0 then ∑ r ∈ range p.Nsite, (eqI (p.nCP + p.nSP + c) (p.cP r) : K) * visC p.Nsite num r else 0) = 0 := by
    split
    · apply sum_eqI_none
      intro r hr
      have := ht.cP (by assumption) r hr
      omega
    · rfl
  have b : (if p.nSP > 0 then ∑ r ∈ range p.Nsite, (eqI (p.nCP + p.nSP + c) (p.sP r + p.nCP) : K) * visS p.Nsite num r else 0) = 0 := by
    split
    · apply sum_eqI_none
      intro r hr
      have := ht.sP (by assumption) r hr
      omega
    · rfl
  rw [a, b, if_pos (show p.nGP > 0 by omega),
    classSum_eqI (2 * p.Nsite) p.gP (visG num : Nat → K) _ (p.nCP + p.nSP) c rfl, funext (visG_eq num)]
  simp

theorem ite_mul_sum (c : Prop) [Decidable c] (n : Nat) (W x : Nat → K) :
    (if c then ∑ r ∈ range n, W r * x r else 0) = ∑ r ∈ range n, (if c then W r else 0) * x r := by
  split <;> simp

theorem make_hidC {p : RBMPar K} (ht : RBMTab p) (num : Arr) {h : Nat} (hh : h < p.hC) :
    makeRBMCnt p num (p.nPhys + h) = hiddenInput (if p.nCH > 0 then p.hidden (p.cH h) else 0) p.Nsite
      (fun r => if p.nCX > 0 then p.physHidden (p.cX r h) else 0) (chargeVar p.Nsite num) := by
  rw [makeRBMCnt_apply, physSum_hid ht num (by omega)]
  unfold rbmHidSum rbmCoupSum hiddenInput
  rw [sum_eqI_one p.hC (fun h => h + p.nPhys) _ _ h hh (by omega) (by intro r _ e; omega),
    sum_eqI_none p.hS (fun h => h + p.nPhys + p.hC) _ _ (by intro r _; omega),
    sum_eqI_none p.hG (fun h => h + (p.nPhys + p.hC + p.hS)) _ _ (by intro r _; omega),
    sum_eqI_one p.hC (fun h => h + p.nPhys) _ _ h hh (by omega) (by intro r _ e; omega),
    sum_eqI_none p.hS (fun h => h + p.nPhys + p.hC) _ _ (by intro r _; omega),
    sum_eqI_none p.hG (fun h => h + (p.nPhys + p.hC + p.hS)) _ _ (by intro r _; omega), ite_mul_sum,
    funext (visC_eq p.Nsite num)]
  simp

theorem make_hidS {p : RBMPar K} (ht : RBMTab p) (num : Arr) {h : Nat} (hh : h < p.hS) :
    makeRBMCnt p num (p.nPhys + p.hC + h) = hiddenInput (if p.nSH > 0 then p.hidden (p.sH h + p.nCH) else 0) p.Nsite
      (fun r => if p.nSX > 0 then p.physHidden (p.sX r h + p.nCX) else 0) (spinVar p.Nsite num) := by
  rw [makeRBMCnt_apply, physSum_hid ht num (by omega)]
  unfold rbmHidSum rbmCoupSum hiddenInput
  rw [sum_eqI_none p.hC (fun h => h + p.nPhys) _ _ (by intro r _; omega),
    sum_eqI_one p.hS (fun h => h + p.nPhys + p.hC) _ _ h hh (by omega) (by intro r _ e; omega),
    sum_eqI_none p.hG (fun h => h + (p.nPhys + p.hC + p.hS)) _ _ (by intro r _; omega),
    sum_eqI_none p.hC (fun h => h + p.nPhys) _ _ (by intro r _; omega),
    sum_eqI_one p.hS (fun h => h + p.nPhys + p.hC) _ _ h hh (by omega) (by intro r _ e; omega),
    sum_eqI_none p.hG (fun h => h + (p.nPhys + p.hC + p.hS)) _ _ (by intro r _; omega), ite_mul_sum,
    funext (visS_eq p.Nsite num)]
  simp

theorem make_hidG {p : RBMPar K} (ht : RBMTab p) (num : Arr) {h : Nat} (hh : h < p.hG) :
    makeRBMCnt p num (p.nPhys + p.hC + p.hS + h) =
      hiddenInput (if p.nGH > 0 then p.hidden (p.gH h + (p.nCH + p.nSH)) else 0) (2 * p.Nsite)
      (fun r => if p.nGX > 0 then p.physHidden (p.gX r h + (p.nCX + p.nSX)) else 0) (orbitalVar num) := by
  rw [makeRBMCnt_apply, physSum_hid ht num (by omega)]
  unfold rbmHidSum rbmCoupSum hiddenInput
  rw [sum_eqI_none p.hC (fun h => h + p.nPhys) _ _ (by intro r _; omega),
    sum_eqI_none p.hS (fun h => h + p.nPhys + p.hC) _ _ (by intro r _; omega),
    sum_eqI_one p.hG (fun h => h + (p.nPhys + p.hC + p.hS)) _ _ h hh (by omega) (by intro r _ e; omega),
    sum_eqI_none p.hC (fun h => h + p.nPhys) _ _ (by intro r _; omega),
    sum_eqI_none p.hS (fun h => h + p.nPhys + p.hC) _ _ (by intro r _; omega),
    sum_eqI_one p.hG (fun h => h + (p.nPhys + p.hC + p.hS)) _ _ h hh (by omega) (by intro r _ e; omega),
    ite_mul_sum, funext (visG_eq num)]
  simp

/-- nothing is written beyond the coupled hidden units -/
theorem make_out {p : RBMPar K} (ht : RBMTab p) (num : Arr) {k : Nat} (hk : p.nPhys + p.hC + p.hS + p.hG ≤ k) :
    makeRBMCnt p num k = 0 := by
  rw [makeRBMCnt_apply, physSum_hid ht num (by omega)]
  unfold rbmHidSum rbmCoupSum
  rw [sum_eqI_none p.hC (fun h => h + p.nPhys) _ _ (by intro r _; omega),
    sum_eqI_none p.hS (fun h => h + p.nPhys + p.hC) _ _ (by intro r _; omega),
    sum_eqI_none p.hG (fun h => h + (p.nPhys + p.hC + p.hS)) _ _ (by intro r _; omega),
    sum_eqI_none p.hC (fun h => h + p.nPhys) _ _ (by intro r _; omega),
    sum_eqI_none p.hS (fun h => h + p.nPhys + p.hC) _ _ (by intro r _; omega),
    sum_eqI_none p.hG (fun h => h + (p.nPhys + p.hC + p.hS)) _ _ (by intro r _; omega)]
  simp

theorem rbm_qok {β γ : Type} {p : SamplerPar} {q : RBMPar K} (hN : q.Nsite = p.Nsite)
    {k : Hooks β γ} {rc : β → Nat → K} {rn : γ → Nat → K} (hk : CountsRBM q k rc rn) :
    QOK k p (fun c b => ∀ i < q.nPhys + q.nNeuron, rc b i = makeRBMCnt q c.num i) := by
  have move : ∀ c h, Cons p c → HopOK p c h →
      updateRBMCnt q h.ri h.rj h.s (makeRBMCnt q c.num) = makeRBMCnt q (updateEleConfig p h c).num := by
    intro c h hc ok
    rw [updateRBMCnt_eq]
    refine updateRBMCntFsz_ok ?_ (Or.inl (hopOK_ne hc ok))
    have := numHop_occ (hop_numHop (q := ⟨p.Nsite, 0, 0, 0, 0, fun _ => 0, fun _ _ => 0, fun _ _ => 0, fun _ _ => 0⟩) rfl hc ok)
    rw [hN]
    exact this
  refine ⟨?_, ?_, ?_⟩
  · intro c h b u hc ok hq _ i hi
    rw [hk.commitHop, if_pos hi, hk.hop, ← move c h hc ok, updateRBMCnt_eq, updateRBMCnt_eq]
    exact updateRBMCntFsz_congr _ _ _ _ _ _ _ _ (hq i hi)
  · intro c h h2 b u hc ok ok2 _ _ _ hq _ i hi
    rw [hk.commitExch, if_pos hi, hk.exch, ← move _ h2 (update_cons hc ok) ok2, ← move c h hc ok,
      updateRBMCnt_eq, updateRBMCnt_eq, updateRBMCnt_eq, updateRBMCnt_eq]
    exact updateRBMCntFsz_congr _ _ _ _ _ _ _ _ (updateRBMCntFsz_congr _ _ _ _ _ _ _ _ (hq i hi))
  · intro c b _ hq i hi
    rw [hk.refresh]; exact hq i hi

end MVMC
