import Mathlib.Algebra.BigOperators.Group.Finset.Piecewise
import Mathlib.Algebra.BigOperators.Ring.Finset
import Mathlib.Tactic.Ring
import Mathlib.Tactic.IntervalCases
import Verif.Model.Projection
import Verif.Spec.Correlation
import Verif.Proof.SamplerCount

namespace MVMC
open Spec Finset

theorem Arr.add_apply (a : Arr) (i : Nat) (v : Int) (k : Nat) :
    a.add i v k = a k + if k = i then v else 0 := by
  unfold Arr.add; split <;> simp

/-- a loop whose body adds `w x k` to entry `k` -/
theorem foldl_adds {ι : Type} (l : List ι) (step : Arr → ι → Arr) (w : ι → Nat → Int)
    (h : ∀ a x k, step a x k = a k + w x k) (a : Arr) (k : Nat) :
    l.foldl step a k = a k + (l.map (fun x => w x k)).sum := by
  induction l generalizing a with
  | nil => simp
  | cons x l ih => rw [List.foldl_cons, ih, h, List.map_cons, List.sum_cons]; ring

theorem foldl_adds_range (n : Nat) (step : Arr → Nat → Arr) (w : Nat → Nat → Int)
    (h : ∀ a x k, step a x k = a k + w x k) (a : Arr) (k : Nat) :
    (List.range n).foldl step a k = a k + ∑ x ∈ range n, w x k := by
  rw [foldl_adds _ step w h, list_sum_range]

theorem sum_filter_list (n i : Nat) (f : Nat → Int) :
    (((List.range n).filter (fun j => i + 1 ≤ j)).map f).sum =
      ∑ j ∈ range n, if i < j then f j else 0 := by
  rw [← list_sum_range]
  induction (List.range n) with
  | nil => simp
  | cons x l ih =>
    rw [List.filter_cons]
    by_cases h : i < x
    · simp only [h, Nat.succ_le_of_lt h, decide_true, if_true, List.map_cons, List.sum_cons, ih]
    · have : ¬ (i + 1 ≤ x) := by omega
      simp only [h, this, decide_false, if_false, List.map_cons, List.sum_cons]
      simpa using ih

/-! ### contributions of each block -/

/-- total occupation of a site -/
def occT (p : ProjPar) (num : Arr) (r : Nat) : Int := nUp num r + nDn p num r

def gC (p : ProjPar) (num : Arr) (k : Nat) : Int :=
  if p.NG > 0 then ∑ r ∈ range p.Nsite, if k = p.gIdx r then nUp num r * nDn p num r else 0 else 0

def jC (p : ProjPar) (num : Arr) (k : Nat) : Int :=
  if p.NJ > 0 then ∑ i ∈ range p.Nsite, ∑ j ∈ range p.Nsite,
    if i < j then (if k = p.NG + p.jIdx i j then (occT p num i - 1) * (occT p num j - 1) else 0) else 0
  else 0

def d2C (p : ProjPar) (num : Arr) (k : Nat) : Int :=
  ∑ xn ∈ range p.N2, ∑ r ∈ range p.Nsite, dh2Site p num xn r (fun _ => 0) k

def d4C (p : ProjPar) (num : Arr) (k : Nat) : Int :=
  ∑ xn ∈ range p.N4, ∑ r ∈ range p.Nsite, dh4Site p num xn r (fun _ => 0) k

theorem makeGutz_apply (p : ProjPar) (num a : Arr) (k : Nat) :
    makeGutz p num a k = a k + gC p num k := by
  unfold makeGutz gC
  split
  · rw [foldl_adds_range _ _ (fun r k => if k = p.gIdx r then nUp num r * nDn p num r else 0)]
    intro a x k; exact Arr.add_apply _ _ _ _
  · simp

theorem makeJast_apply (p : ProjPar) (num a : Arr) (k : Nat) :
    makeJast p num a k = a k + jC p num k := by
  unfold makeJast jC
  split
  · rw [foldl_adds_range _ _ (fun i k => ∑ j ∈ range p.Nsite,
      if i < j then (if k = p.NG + p.jIdx i j then (occT p num i - 1) * (occT p num j - 1) else 0) else 0)]
    intro a i k
    simp only
    split
    · rename_i h0
      have : occT p num i - 1 = 0 := by unfold occT; omega
      simp [this]
    · rw [foldl_adds _ _ (fun j k => if k = p.NG + p.jIdx i j then
          (nUp num i + nDn p num i - 1) * (nUp num j + nDn p num j - 1) else 0)
          (fun a x k => Arr.add_apply _ _ _ _), sum_filter_list]
      rfl
  · simp

theorem dh2Site_apply (p : ProjPar) (num : Arr) (xn r : Nat) (a : Arr) (k : Nat) :
    dh2Site p num xn r a k = a k + dh2Site p num xn r (fun _ => 0) k := by
  unfold dh2Site
  simp only
  split
  · simp
  · rw [Arr.add_apply, Arr.add_apply]; ring

theorem dh4Site_apply (p : ProjPar) (num : Arr) (xn r : Nat) (a : Arr) (k : Nat) :
    dh4Site p num xn r a k = a k + dh4Site p num xn r (fun _ => 0) k := by
  unfold dh4Site
  simp only
  split
  · simp
  · rw [Arr.add_apply, Arr.add_apply]; ring

theorem makeDH2_apply (p : ProjPar) (num a : Arr) (k : Nat) :
    makeDH2 p num a k = a k + d2C p num k := by
  unfold makeDH2 d2C
  rw [foldl_adds_range _ _ (fun xn k => ∑ r ∈ range p.Nsite, dh2Site p num xn r (fun _ => 0) k)]
  intro a xn k
  exact foldl_adds_range _ _ (fun r k => dh2Site p num xn r (fun _ => 0) k)
    (fun a r k => dh2Site_apply p num xn r a k) a k

theorem makeDH4_apply (p : ProjPar) (num a : Arr) (k : Nat) :
    makeDH4 p num a k = a k + d4C p num k := by
  unfold makeDH4 d4C
  rw [foldl_adds_range _ _ (fun xn k => ∑ r ∈ range p.Nsite, dh4Site p num xn r (fun _ => 0) k)]
  intro a xn k
  exact foldl_adds_range _ _ (fun r k => dh4Site p num xn r (fun _ => 0) k)
    (fun a r k => dh4Site_apply p num xn r a k) a k

theorem makeProjCnt_apply (p : ProjPar) (num : Arr) (k : Nat) :
    makeProjCnt p num k = gC p num k + jC p num k + d2C p num k + d4C p num k := by
  unfold makeProjCnt
  rw [makeDH4_apply, makeDH2_apply, makeJast_apply, makeGutz_apply]; ring

/-- the index tables point into their own blocks -/
structure TabOK (p : ProjPar) : Prop where
  g : 0 < p.NG → ∀ r < p.Nsite, p.gIdx r < p.NG
  j : 0 < p.NJ → ∀ a < p.Nsite, ∀ b < p.Nsite, a ≠ b → p.jIdx a b < p.NJ
  d2 : ∀ xn < p.N2, ∀ q < 2 * p.Nsite, p.dh2 xn q < p.Nsite
  d4 : ∀ xn < p.N4, ∀ q < 4 * p.Nsite, p.dh4 xn q < p.Nsite

/-- occupations are 0 or 1 -/
def Bin (p : ProjPar) (num : Arr) : Prop :=
  ∀ r < p.Nsite, (nUp num r = 0 ∨ nUp num r = 1) ∧ (nDn p num r = 0 ∨ nDn p num r = 1)

theorem gC_out {p : ProjPar} (ht : TabOK p) (num : Arr) {k : Nat} (hk : p.NG ≤ k) : gC p num k = 0 := by
  unfold gC
  split
  · rename_i h
    apply Finset.sum_eq_zero
    intro r hr
    have := ht.g h r (Finset.mem_range.mp hr)
    rw [if_neg (by omega)]
  · rfl

theorem jC_out {p : ProjPar} (ht : TabOK p) (num : Arr) {k : Nat} (hk : k < p.NG ∨ p.NG + p.NJ ≤ k) :
    jC p num k = 0 := by
  unfold jC
  split
  · rename_i h
    apply Finset.sum_eq_zero
    intro i hi
    apply Finset.sum_eq_zero
    intro j hj
    split
    · have := ht.j h i (Finset.mem_range.mp hi) j (Finset.mem_range.mp hj) (by omega)
      rw [if_neg (by omega)]
    · rfl
  · rfl

/-- 1 for a doublon, else 0 -/
def dblI (p : ProjPar) (num : Arr) (r : Nat) : Nat := if isDoublon (nUp num) (nDn p num) r then 1 else 0
/-- 1 for a holon, else 0 -/
def holI (p : ProjPar) (num : Arr) (r : Nat) : Nat := if isHolon (nUp num) (nDn p num) r then 1 else 0

theorem dbl_eq {p : ProjPar} {num : Arr} (hb : Bin p num) {r : Nat} (hr : r < p.Nsite) :
    nUp num r * nDn p num r = (dblI p num r : Int) := by
  rcases hb r hr with ⟨a | a, b | b⟩ <;> simp [dblI, isDoublon, a, b]

theorem hol_eq {p : ProjPar} {num : Arr} (hb : Bin p num) {r : Nat} (hr : r < p.Nsite) :
    (1 - nUp num r) * (1 - nDn p num r) = (holI p num r : Int) := by
  rcases hb r hr with ⟨a | a, b | b⟩ <;> simp [holI, isHolon, a, b]

theorem dblI_le (p : ProjPar) (num : Arr) (r : Nat) : dblI p num r ≤ 1 := by
  unfold dblI; split <;> omega
theorem holI_le (p : ProjPar) (num : Arr) (r : Nat) : holI p num r ≤ 1 := by
  unfold holI; split <;> omega

/-- what one site contributes to the 2-site block -/
theorem dh2Site_eq {p : ProjPar} (ht : TabOK p) {num : Arr} (hb : Bin p num) {xn r : Nat}
    (hx : xn < p.N2) (hr : r < p.Nsite) (k : Nat) :
    dh2Site p num xn r (fun _ => 0) k =
      if isHolon (nUp num) (nDn p num) r then
        (if k = p.NG + p.NJ + xn + (2 * (dblI p num (p.dh2 xn (2 * r)) + dblI p num (p.dh2 xn (2 * r + 1)))) * p.N2
          then 1 else 0)
      else if isDoublon (nUp num) (nDn p num) r then
        (if k = p.NG + p.NJ + xn + (1 + 2 * (holI p num (p.dh2 xn (2 * r)) + holI p num (p.dh2 xn (2 * r + 1)))) * p.N2
          then 1 else 0)
      else 0 := by
  have e0 := ht.d2 xn hx (2 * r) (by omega)
  have e1 := ht.d2 xn hx (2 * r + 1) (by omega)
  unfold dh2Site
  simp only
  rw [dbl_eq hb e0, dbl_eq hb e1, hol_eq hb e0, hol_eq hb e1]
  generalize dblI p num (p.dh2 xn (2 * r)) = A
  generalize dblI p num (p.dh2 xn (2 * r + 1)) = B
  generalize holI p num (p.dh2 xn (2 * r)) = C
  generalize holI p num (p.dh2 xn (2 * r + 1)) = D
  have hcast : ∀ (c m : Nat), ((((c : Int)) + 2 * ((m : Nat) : Int)) * (p.N2 : Int)).toNat = (c + 2 * m) * p.N2 := by
    intro c m
    have : (((c : Int)) + 2 * ((m : Nat) : Int)) * (p.N2 : Int) = (((c + 2 * m) * p.N2 : Nat) : Int) := by
      push_cast; ring
    rw [this, Int.toNat_natCast]
  rcases hb r hr with ⟨a | a, b | b⟩
  · have := hcast 0 (A + B)
    push_cast at this
    rw [zero_add] at this
    simp [Arr.add_apply, isHolon, a, b, this]
  · simp [isHolon, isDoublon, a, b]
  · simp [isHolon, isDoublon, a, b]
  · have := hcast 1 (C + D)
    push_cast at this
    simp [Arr.add_apply, isHolon, isDoublon, a, b, this]

theorem dh4Site_eq {p : ProjPar} (ht : TabOK p) {num : Arr} (hb : Bin p num) {xn r : Nat}
    (hx : xn < p.N4) (hr : r < p.Nsite) (k : Nat) :
    dh4Site p num xn r (fun _ => 0) k =
      if isHolon (nUp num) (nDn p num) r then
        (if k = p.NG + p.NJ + 6 * p.N2 + xn + (2 * (dblI p num (p.dh4 xn (4 * r)) + dblI p num (p.dh4 xn (4 * r + 1))
            + dblI p num (p.dh4 xn (4 * r + 2)) + dblI p num (p.dh4 xn (4 * r + 3)))) * p.N4
          then 1 else 0)
      else if isDoublon (nUp num) (nDn p num) r then
        (if k = p.NG + p.NJ + 6 * p.N2 + xn + (1 + 2 * (holI p num (p.dh4 xn (4 * r)) + holI p num (p.dh4 xn (4 * r + 1))
            + holI p num (p.dh4 xn (4 * r + 2)) + holI p num (p.dh4 xn (4 * r + 3)))) * p.N4
          then 1 else 0)
      else 0 := by
  have e0 := ht.d4 xn hx (4 * r) (by omega)
  have e1 := ht.d4 xn hx (4 * r + 1) (by omega)
  have e2 := ht.d4 xn hx (4 * r + 2) (by omega)
  have e3 := ht.d4 xn hx (4 * r + 3) (by omega)
  unfold dh4Site
  simp only
  rw [dbl_eq hb e0, dbl_eq hb e1, hol_eq hb e0, hol_eq hb e1, dbl_eq hb e2, dbl_eq hb e3, hol_eq hb e2, hol_eq hb e3]
  generalize dblI p num (p.dh4 xn (4 * r)) = A
  generalize dblI p num (p.dh4 xn (4 * r + 1)) = B
  generalize dblI p num (p.dh4 xn (4 * r + 2)) = A'
  generalize dblI p num (p.dh4 xn (4 * r + 3)) = B'
  generalize holI p num (p.dh4 xn (4 * r)) = C
  generalize holI p num (p.dh4 xn (4 * r + 1)) = D
  generalize holI p num (p.dh4 xn (4 * r + 2)) = C'
  generalize holI p num (p.dh4 xn (4 * r + 3)) = D'
  have hcast : ∀ (c m : Nat), ((((c : Int)) + 2 * ((m : Nat) : Int)) * (p.N4 : Int)).toNat = (c + 2 * m) * p.N4 := by
    intro c m
    have : (((c : Int)) + 2 * ((m : Nat) : Int)) * (p.N4 : Int) = (((c + 2 * m) * p.N4 : Nat) : Int) := by
      push_cast; ring
    rw [this, Int.toNat_natCast]
  rcases hb r hr with ⟨a | a, b | b⟩
  · have := hcast 0 (A + B + A' + B')
    push_cast at this
    rw [zero_add] at this
    simp [Arr.add_apply, isHolon, a, b, this]
  · simp [isHolon, isDoublon, a, b]
  · simp [isHolon, isDoublon, a, b]
  · have := hcast 1 (C + D + C' + D')
    push_cast at this
    simp [Arr.add_apply, isHolon, isDoublon, a, b, this]

/-- decoding `base + xn + c*N` -/
theorem block_inj {N xn yn c d : Nat} (hx : xn < N) (hy : yn < N) (h : xn + c * N = yn + d * N) :
    xn = yn ∧ c = d := by
  have h1 : (xn + c * N) % N = xn := by rw [Nat.add_mul_mod_self_right, Nat.mod_eq_of_lt hx]
  have h2 : (yn + d * N) % N = yn := by rw [Nat.add_mul_mod_self_right, Nat.mod_eq_of_lt hy]
  have e : xn = yn := by rw [← h1, ← h2, h]
  subst e
  refine ⟨rfl, ?_⟩
  have : c * N = d * N := by omega
  exact Nat.eq_of_mul_eq_mul_right (by omega) this

theorem block_lt {N xn c m : Nat} (hx : xn < N) (hc : c < m) : xn + c * N < m * N := by
  have : (c + 1) * N ≤ m * N := Nat.mul_le_mul_right _ hc
  rw [Nat.add_mul] at this; omega

theorem d2C_out {p : ProjPar} (ht : TabOK p) {num : Arr} (hb : Bin p num) {k : Nat}
    (hk : k < p.NG + p.NJ ∨ p.NG + p.NJ + 6 * p.N2 ≤ k) : d2C p num k = 0 := by
  unfold d2C
  apply Finset.sum_eq_zero
  intro xn hxn
  apply Finset.sum_eq_zero
  intro r hr
  have hx := Finset.mem_range.mp hxn
  have hr := Finset.mem_range.mp hr
  have a0 := dblI_le p num (p.dh2 xn (2 * r))
  have a1 := dblI_le p num (p.dh2 xn (2 * r + 1))
  have b0 := holI_le p num (p.dh2 xn (2 * r))
  have b1 := holI_le p num (p.dh2 xn (2 * r + 1))
  rw [dh2Site_eq ht hb hx hr]
  have l1 := block_lt (m := 6) hx
    (show (2 * (dblI p num (p.dh2 xn (2 * r)) + dblI p num (p.dh2 xn (2 * r + 1)))) < 6 by omega)
  have l2 := block_lt (m := 6) hx
    (show (1 + 2 * (holI p num (p.dh2 xn (2 * r)) + holI p num (p.dh2 xn (2 * r + 1)))) < 6 by omega)
  split
  · rw [if_neg (by omega)]
  · split
    · rw [if_neg (by omega)]
    · rfl

theorem d4C_out {p : ProjPar} (ht : TabOK p) {num : Arr} (hb : Bin p num) {k : Nat}
    (hk : k < p.NG + p.NJ + 6 * p.N2 ∨ p.NProj ≤ k) : d4C p num k = 0 := by
  unfold ProjPar.NProj at hk
  unfold d4C
  apply Finset.sum_eq_zero
  intro xn hxn
  apply Finset.sum_eq_zero
  intro r hr
  have hx := Finset.mem_range.mp hxn
  have hr := Finset.mem_range.mp hr
  have a0 := dblI_le p num (p.dh4 xn (4 * r))
  have a1 := dblI_le p num (p.dh4 xn (4 * r + 1))
  have a2 := dblI_le p num (p.dh4 xn (4 * r + 2))
  have a3 := dblI_le p num (p.dh4 xn (4 * r + 3))
  have b0 := holI_le p num (p.dh4 xn (4 * r))
  have b1 := holI_le p num (p.dh4 xn (4 * r + 1))
  have b2 := holI_le p num (p.dh4 xn (4 * r + 2))
  have b3 := holI_le p num (p.dh4 xn (4 * r + 3))
  rw [dh4Site_eq ht hb hx hr]
  have l1 := block_lt (m := 10) hx
    (show (2 * (dblI p num (p.dh4 xn (4 * r)) + dblI p num (p.dh4 xn (4 * r + 1))
            + dblI p num (p.dh4 xn (4 * r + 2)) + dblI p num (p.dh4 xn (4 * r + 3)))) < 10 by omega)
  have l2 := block_lt (m := 10) hx
    (show (1 + 2 * (holI p num (p.dh4 xn (4 * r)) + holI p num (p.dh4 xn (4 * r + 1))
            + holI p num (p.dh4 xn (4 * r + 2)) + holI p num (p.dh4 xn (4 * r + 3)))) < 10 by omega)
  split
  · rw [if_neg (by omega)]
  · split
    · rw [if_neg (by omega)]
    · rfl

/-! ### the update -/

/-- `num'` is `num` after one electron went from `(ri,s)` to `(rj,t)` (both spins below 2) -/
structure NumHop (p : ProjPar) (ri rj s t : Nat) (num num' : Arr) : Prop where
  hs : s < 2
  ht : t < 2
  hri : ri < p.Nsite
  hrj : rj < p.Nsite
  was : num (ri + s * p.Nsite) = 1
  free : num (rj + t * p.Nsite) = 0
  upd : ∀ r < p.Nsite, ∀ u < 2, num' (r + u * p.Nsite) =
    if r = rj ∧ u = t then 1 else if r = ri ∧ u = s then 0 else num (r + u * p.Nsite)
  bin : Bin p num

theorem NumHop.far {p : ProjPar} {ri rj s t : Nat} {num num' : Arr} (h : NumHop p ri rj s t num num')
    {r : Nat} (hr : r < p.Nsite) (h1 : r ≠ ri) (h2 : r ≠ rj) :
    nUp num' r = nUp num r ∧ nDn p num' r = nDn p num r := by
  have a := h.upd r hr 0 (by omega)
  have b := h.upd r hr 1 (by omega)
  simp only [h1, h2, false_and, if_false, Nat.zero_mul, Nat.add_zero, Nat.one_mul] at a b
  exact ⟨a, b⟩

/-- the source site, when the target is another site -/
theorem NumHop.src {p : ProjPar} {ri rj s t : Nat} {num num' : Arr} (h : NumHop p ri rj s t num num')
    (hne : ri ≠ rj) :
    nUp num ri * nDn p num ri = nUp num' ri + nDn p num' ri ∧
    occT p num ri = occT p num' ri + 1 ∧ nUp num' ri * nDn p num' ri = 0 := by
  have a := h.upd ri h.hri 0 (by omega)
  have b := h.upd ri h.hri 1 (by omega)
  have hs := h.hs
  have hw := h.was
  have hbin := h.bin ri h.hri
  unfold nUp nDn at hbin
  unfold occT nUp nDn
  simp only [hne, false_and, if_false, true_and, Nat.zero_mul, Nat.add_zero, Nat.one_mul] at a b
  rcases (show s = 0 ∨ s = 1 by omega) with q | q
  · subst q
    simp only [Nat.zero_mul, Nat.add_zero] at hw
    rw [a, b, hw]; simp; omega
  · subst q
    simp only [Nat.one_mul] at hw
    rw [a, b, hw]; simp

theorem NumHop.dst {p : ProjPar} {ri rj s t : Nat} {num num' : Arr} (h : NumHop p ri rj s t num num')
    (hne : ri ≠ rj) :
    nUp num rj * nDn p num rj = 0 ∧ occT p num rj = occT p num' rj - 1 := by
  have a := h.upd rj h.hrj 0 (by omega)
  have b := h.upd rj h.hrj 1 (by omega)
  have ht := h.ht
  have hw := h.free
  unfold occT nUp nDn
  simp only [Ne.symm hne, false_and, if_false, true_and, Nat.zero_mul, Nat.add_zero, Nat.one_mul] at a b
  rcases (show t = 0 ∨ t = 1 by omega) with q | q
  · subst q
    simp only [Nat.zero_mul, Nat.add_zero] at hw
    rw [a, b, hw]; simp
  · subst q
    simp only [Nat.one_mul] at hw
    rw [a, b, hw]; simp

theorem NumHop.bin' {p : ProjPar} {ri rj s t : Nat} {num num' : Arr} (h : NumHop p ri rj s t num num') :
    Bin p num' := by
  intro r hr
  have a := h.upd r hr 0 (by omega)
  have b := h.upd r hr 1 (by omega)
  have hb := h.bin r hr
  unfold nUp nDn at *
  simp only [Nat.zero_mul, Nat.add_zero, Nat.one_mul] at a b
  rw [a, b]
  constructor
  · split
    · omega
    · split
      · omega
      · exact hb.1
  · split
    · omega
    · split
      · omega
      · exact hb.2

/-- difference of a sum that changes at two places only -/
theorem sum_two_places (n : Nat) (f g : Nat → Int) {a b : Nat} (ha : a < n) (hb : b < n) (hne : a ≠ b)
    (h : ∀ r < n, r ≠ a → r ≠ b → f r = g r) :
    ∑ r ∈ range n, f r = ∑ r ∈ range n, g r + (f a - g a) + (f b - g b) := by
  have : ∀ r ∈ range n, f r = g r + (if r = a then f a - g a else 0) + (if r = b then f b - g b else 0) := by
    intro r hr
    by_cases e1 : r = a
    · subst e1; simp [hne]
    · by_cases e2 : r = b
      · subst e2; simp [e1]
      · simp [e1, e2]; exact h r (Finset.mem_range.mp hr) e1 e2
  rw [Finset.sum_congr rfl this, Finset.sum_add_distrib, Finset.sum_add_distrib, Finset.sum_ite_eq',
    Finset.sum_ite_eq', if_pos (Finset.mem_range.mpr ha), if_pos (Finset.mem_range.mpr hb)]

theorem gC_update {p : ProjPar} {ri rj s t : Nat} {num num' : Arr} (h : NumHop p ri rj s t num num')
    (hne : ri ≠ rj) (old : Arr) (k : Nat) :
    updGutz p ri rj num' old k = old k + (gC p num' k - gC p num k) := by
  unfold updGutz gC
  split
  · rw [Arr.add_apply, Arr.add_apply]
    rw [sum_two_places p.Nsite (fun r => if k = p.gIdx r then nUp num' r * nDn p num' r else 0)
      (fun r => if k = p.gIdx r then nUp num r * nDn p num r else 0) h.hri h.hrj hne]
    · obtain ⟨a1, a2, a3⟩ := h.src hne
      obtain ⟨b1, b2⟩ := h.dst hne
      rw [a1, a3, b1]
      split <;> split <;> ring
    · intro r hr h1 h2
      rw [(h.far hr h1 h2).1, (h.far hr h1 h2).2]
  · simp

/-- the pair sum of the Jastrow block changes only on pairs that meet `{a,b}` -/
theorem pair_sum_diff (n : Nat) (f : Nat → Nat → Int) (hf : ∀ i j, f i j = f j i) {a b : Nat} (ha : a < n)
    (hb : b < n) (hne : a ≠ b)
    (hz : ∀ i < n, ∀ j < n, i ≠ a → i ≠ b → j ≠ a → j ≠ b → f i j = 0) :
    ∑ i ∈ range n, ∑ j ∈ range n, (if i < j then f i j else 0) =
      f a b + ∑ k ∈ range n, (if k = b then 0 else if k = a then 0 else f a k)
        + ∑ k ∈ range n, (if k = a then 0 else if k = b then 0 else f b k) := by
  have two : 2 * (∑ i ∈ range n, ∑ j ∈ range n, (if i < j then f i j else 0)) =
      ∑ i ∈ range n, ∑ j ∈ range n, (if i ≠ j then f i j else 0) := by
    have sw : ∑ i ∈ range n, ∑ j ∈ range n, (if i < j then f i j else 0) =
        ∑ i ∈ range n, ∑ j ∈ range n, (if j < i then f i j else 0) := by
      rw [Finset.sum_comm]
      apply Finset.sum_congr rfl; intro i _
      apply Finset.sum_congr rfl; intro j _
      rw [hf]
    rw [two_mul]
    nth_rewrite 2 [sw]
    rw [← Finset.sum_add_distrib]
    apply Finset.sum_congr rfl; intro i _
    rw [← Finset.sum_add_distrib]
    apply Finset.sum_congr rfl; intro j _
    rcases Nat.lt_trichotomy i j with h | h | h
    · rw [if_pos h, if_neg (by omega), if_pos (by omega)]; ring
    · rw [if_neg (by omega), if_neg (by omega), if_neg (by omega)]; ring
    · rw [if_neg (by omega), if_pos h, if_pos (by omega)]; ring
  -- row sums
  have row : ∀ i ∈ range n, ∑ j ∈ range n, (if i ≠ j then f i j else 0) =
      (if i = b then 0 else if i = a then 0 else f a i) + (if i = a then 0 else if i = b then 0 else f b i)
      + (if i = a then f a b + ∑ k ∈ range n, (if k = b then 0 else if k = a then 0 else f a k) else 0)
      + (if i = b then f a b + ∑ k ∈ range n, (if k = a then 0 else if k = b then 0 else f b k) else 0) := by
    intro i hi
    have hi := Finset.mem_range.mp hi
    by_cases e1 : i = a
    · subst e1
      simp only [hne, if_true, if_false]
      rw [Finset.sum_congr rfl (g := fun j => (if j = b then f i b else 0) +
        (if j = b then 0 else if j = i then 0 else f i j))]
      · rw [Finset.sum_add_distrib, Finset.sum_ite_eq', if_pos (Finset.mem_range.mpr hb)]; ring
      · intro j _
        by_cases q : j = b
        · subst q; simp [hne]
        · by_cases q2 : j = i
          · subst q2; simp [q]
          · simp [q, q2, Ne.symm q2]
    · by_cases e2 : i = b
      · subst e2
        simp only [e1, if_true, if_false]
        rw [Finset.sum_congr rfl (g := fun j => (if j = a then f a i else 0) +
          (if j = a then 0 else if j = i then 0 else f i j))]
        · rw [Finset.sum_add_distrib, Finset.sum_ite_eq', if_pos (Finset.mem_range.mpr ha)]; ring
        · intro j _
          by_cases q : j = a
          · subst q; simp [e1]; exact hf _ _
          · by_cases q2 : j = i
            · subst q2; simp [q]
            · simp [q, q2, Ne.symm q2]
      · simp only [e1, e2, if_false]
        rw [Finset.sum_congr rfl (g := fun j => (if j = a then f a i else 0) + (if j = b then f b i else 0))]
        · rw [Finset.sum_add_distrib, Finset.sum_ite_eq', Finset.sum_ite_eq',
            if_pos (Finset.mem_range.mpr ha), if_pos (Finset.mem_range.mpr hb)]; ring
        · intro j hj
          have hj := Finset.mem_range.mp hj
          by_cases q : j = a
          · subst q; simp [e1, hne]; exact hf _ _
          · by_cases q2 : j = b
            · subst q2; simp [q, e2]; exact hf _ _
            · simp only [q, q2, if_false]
              rw [hz i hi j hj e1 e2 q q2]; simp
  rw [Finset.sum_congr rfl row, Finset.sum_add_distrib, Finset.sum_add_distrib, Finset.sum_add_distrib,
    Finset.sum_ite_eq', Finset.sum_ite_eq', if_pos (Finset.mem_range.mpr ha),
    if_pos (Finset.mem_range.mpr hb)] at two
  linarith

theorem jC_update {p : ProjPar} {ri rj s t : Nat} {num num' : Arr} (h : NumHop p ri rj s t num num')
    (hne : ri ≠ rj) (old : Arr) (k : Nat) :
    updJast p ri rj num' old k = old k + (jC p num' k - jC p num k) := by
  unfold updJast jC
  split
  · simp only
    rw [foldl_adds_range _ _ (fun rk k => if rk = ri then 0 else if rk = rj then 0 else
      if k = p.NG + jSel p rj rk then nUp num' rk + nDn p num' rk - 1 else 0)]
    rw [foldl_adds_range _ _ (fun rk k => if rk = rj then 0 else if rk = ri then 0 else
      if k = p.NG + jSel p ri rk then -(nUp num' rk + nDn p num' rk - 1) else 0)]
    · rw [Arr.add_apply]
      obtain ⟨_, a2, _⟩ := h.src hne
      obtain ⟨_, b2⟩ := h.dst hne
      have key := pair_sum_diff p.Nsite (fun i j => if k = p.NG + jSel p i j then
          (occT p num' i - 1) * (occT p num' j - 1) - (occT p num i - 1) * (occT p num j - 1) else 0)
        (by
          intro i j
          have : jSel p i j = jSel p j i ∨ i = j := by
            unfold jSel
            rcases Nat.lt_trichotomy i j with q | q | q
            · left; rw [if_pos q, if_neg (by omega)]
            · right; exact q
            · left; rw [if_neg (by omega), if_pos q]
          rcases this with q | q
          · rw [q]; split
            · ring
            · rfl
          · rw [q])
        h.hri h.hrj hne
        (by
          intro i hi j hj i1 i2 j1 j2
          unfold occT
          rw [(h.far hi i1 i2).1, (h.far hi i1 i2).2, (h.far hj j1 j2).1, (h.far hj j1 j2).2]
          simp)
      have conv : ∀ (x : Arr), ∑ i ∈ range p.Nsite, ∑ j ∈ range p.Nsite,
          (if i < j then (if k = p.NG + p.jIdx i j then (occT p x i - 1) * (occT p x j - 1) else 0) else 0) =
          ∑ i ∈ range p.Nsite, ∑ j ∈ range p.Nsite,
          (if i < j then (if k = p.NG + jSel p i j then (occT p x i - 1) * (occT p x j - 1) else 0) else 0) := by
        intro x
        apply Finset.sum_congr rfl; intro i _
        apply Finset.sum_congr rfl; intro j _
        split
        · rename_i q; unfold jSel; rw [if_pos q]
        · rfl
      rw [conv num', conv num, ← Finset.sum_sub_distrib]
      have : ∀ i ∈ range p.Nsite,
          ((∑ j ∈ range p.Nsite, if i < j then
            (if k = p.NG + jSel p i j then (occT p num' i - 1) * (occT p num' j - 1) else 0) else 0) -
          ∑ j ∈ range p.Nsite, if i < j then
            (if k = p.NG + jSel p i j then (occT p num i - 1) * (occT p num j - 1) else 0) else 0) =
          ∑ j ∈ range p.Nsite, if i < j then (if k = p.NG + jSel p i j then
          (occT p num' i - 1) * (occT p num' j - 1) - (occT p num i - 1) * (occT p num j - 1) else 0) else 0 := by
        intro i _
        rw [← Finset.sum_sub_distrib]
        apply Finset.sum_congr rfl; intro j _
        split
        · split
          · rfl
          · ring
        · ring
      rw [Finset.sum_congr rfl this, key]
      have s1 : ∀ r ∈ range p.Nsite, (if r = rj then 0 else if r = ri then 0 else
          if k = p.NG + jSel p ri r then
            (occT p num' ri - 1) * (occT p num' r - 1) - (occT p num ri - 1) * (occT p num r - 1) else 0) =
          (if r = rj then 0 else if r = ri then 0 else
          if k = p.NG + jSel p ri r then -(nUp num' r + nDn p num' r - 1) else 0) := by
        intro r hr
        split
        · rfl
        · split
          · rfl
          · rename_i q1 q2
            split
            · have hf := h.far (Finset.mem_range.mp hr) q2 q1
              have : occT p num r = occT p num' r := by unfold occT; rw [hf.1, hf.2]
              rw [this, a2]; unfold occT; ring
            · rfl
      have s2 : ∀ r ∈ range p.Nsite, (if r = ri then 0 else if r = rj then 0 else
          if k = p.NG + jSel p rj r then
            (occT p num' rj - 1) * (occT p num' r - 1) - (occT p num rj - 1) * (occT p num r - 1) else 0) =
          (if r = ri then 0 else if r = rj then 0 else
          if k = p.NG + jSel p rj r then (nUp num' r + nDn p num' r - 1) else 0) := by
        intro r hr
        split
        · rfl
        · split
          · rfl
          · rename_i q1 q2
            split
            · have hf := h.far (Finset.mem_range.mp hr) q1 q2
              have : occT p num r = occT p num' r := by unfold occT; rw [hf.1, hf.2]
              rw [this, b2]; unfold occT; ring
            · rfl
      rw [Finset.sum_congr rfl s1, Finset.sum_congr rfl s2, a2, b2]
      unfold occT
      split <;> ring
    · intro a x q
      split
      · simp
      · split
        · simp
        · rw [Arr.add_apply]; rfl
    · intro a x q
      split
      · simp
      · split
        · simp
        · rw [Arr.add_apply]; rfl
  · simp

/-- The heart of C12/C13: updating the counters of `num` gives the counters of `num'`. -/
theorem update_core {p : ProjPar} (ht : TabOK p) {ri rj s t : Nat} {num num' : Arr}
    (h : NumHop p ri rj s t num num') (hne : ri ≠ rj) (old : Arr)
    (hold : ∀ k < p.NProj, old k = makeProjCnt p num k) (k : Nat) (hk : k < p.NProj) :
    updateProjCnt p ri rj old num' k = makeProjCnt p num' k := by
  have hb := h.bin
  have hb' := h.bin'
  unfold updateProjCnt
  rw [if_neg hne, makeProjCnt_apply]
  split
  · rename_i h0
    rw [jC_update h hne, gC_update h hne, hold k hk, makeProjCnt_apply]
    have : d2C p num k = 0 ∧ d2C p num' k = 0 ∧ d4C p num k = 0 ∧ d4C p num' k = 0 := by
      unfold d2C d4C; rw [h0.1, h0.2]; simp
    obtain ⟨q1, q2, q3, q4⟩ := this
    rw [q1, q2, q3, q4]; ring
  · rw [makeDH4_apply, makeDH2_apply]
    unfold clearDH
    split
    · rename_i hreg
      rw [gC_out ht num' (by omega), jC_out ht num' (by omega)]; ring
    · rename_i hreg
      have hlt : k < p.NG + p.NJ := by omega
      rw [jC_update h hne, gC_update h hne, hold k hk, makeProjCnt_apply]
      rw [d2C_out ht hb (by omega), d2C_out ht hb' (by omega), d4C_out ht hb (by omega),
        d4C_out ht hb' (by omega)]
      ring

/-! ### a spin flip on a site changes no counter -/

/-- `MakeProjCnt` depends on the occupations only through doublons, holons and totals -/
theorem makeProjCnt_congr {p : ProjPar} (ht : TabOK p) {num num' : Arr} (hb : Bin p num) (hb' : Bin p num')
    (hd : ∀ r < p.Nsite, isDoublon (nUp num) (nDn p num) r ↔ isDoublon (nUp num') (nDn p num') r)
    (hh : ∀ r < p.Nsite, isHolon (nUp num) (nDn p num) r ↔ isHolon (nUp num') (nDn p num') r) (k : Nat) :
    makeProjCnt p num k = makeProjCnt p num' k := by
  have hdI : ∀ r < p.Nsite, dblI p num r = dblI p num' r := by
    intro r hr; unfold dblI
    by_cases q : isDoublon (nUp num) (nDn p num) r
    · rw [if_pos q, if_pos ((hd r hr).mp q)]
    · rw [if_neg q, if_neg (fun x => q ((hd r hr).mpr x))]
  have hhI : ∀ r < p.Nsite, holI p num r = holI p num' r := by
    intro r hr; unfold holI
    by_cases q : isHolon (nUp num) (nDn p num) r
    · rw [if_pos q, if_pos ((hh r hr).mp q)]
    · rw [if_neg q, if_neg (fun x => q ((hh r hr).mpr x))]
  have hocc : ∀ r < p.Nsite, occT p num r = occT p num' r := by
    intro r hr
    have e1 := hdI r hr
    have e2 := hhI r hr
    have a1 := dbl_eq hb hr; have a2 := dbl_eq hb' hr
    have b1 := hol_eq hb hr; have b2 := hol_eq hb' hr
    unfold occT
    have x1 : nUp num r + nDn p num r = 1 + (dblI p num r : Int) - (holI p num r : Int) := by
      rw [← a1, ← b1]; ring
    have x2 : nUp num' r + nDn p num' r = 1 + (dblI p num' r : Int) - (holI p num' r : Int) := by
      rw [← a2, ← b2]; ring
    rw [x1, x2, e1, e2]
  rw [makeProjCnt_apply, makeProjCnt_apply]
  have g : gC p num k = gC p num' k := by
    unfold gC
    split
    · apply Finset.sum_congr rfl; intro r hr
      have hr := Finset.mem_range.mp hr
      rw [dbl_eq hb hr, dbl_eq hb' hr, hdI r hr]
    · rfl
  have j : jC p num k = jC p num' k := by
    unfold jC
    split
    · apply Finset.sum_congr rfl; intro a ha
      apply Finset.sum_congr rfl; intro b hbb
      rw [hocc a (Finset.mem_range.mp ha), hocc b (Finset.mem_range.mp hbb)]
    · rfl
  have d2 : d2C p num k = d2C p num' k := by
    unfold d2C
    apply Finset.sum_congr rfl; intro xn hx
    apply Finset.sum_congr rfl; intro r hr
    have hx := Finset.mem_range.mp hx
    have hr := Finset.mem_range.mp hr
    rw [dh2Site_eq ht hb hx hr, dh2Site_eq ht hb' hx hr]
    rw [hdI _ (ht.d2 xn hx (2 * r) (by omega)), hdI _ (ht.d2 xn hx (2 * r + 1) (by omega)),
      hhI _ (ht.d2 xn hx (2 * r) (by omega)), hhI _ (ht.d2 xn hx (2 * r + 1) (by omega))]
    simp only [hd r hr, hh r hr]
  have d4 : d4C p num k = d4C p num' k := by
    unfold d4C
    apply Finset.sum_congr rfl; intro xn hx
    apply Finset.sum_congr rfl; intro r hr
    have hx := Finset.mem_range.mp hx
    have hr := Finset.mem_range.mp hr
    rw [dh4Site_eq ht hb hx hr, dh4Site_eq ht hb' hx hr]
    rw [hdI _ (ht.d4 xn hx (4 * r) (by omega)), hdI _ (ht.d4 xn hx (4 * r + 1) (by omega)),
      hhI _ (ht.d4 xn hx (4 * r) (by omega)), hhI _ (ht.d4 xn hx (4 * r + 1) (by omega)),
      hdI _ (ht.d4 xn hx (4 * r + 2) (by omega)), hdI _ (ht.d4 xn hx (4 * r + 3) (by omega)),
      hhI _ (ht.d4 xn hx (4 * r + 2) (by omega)), hhI _ (ht.d4 xn hx (4 * r + 3) (by omega))]
    simp only [hd r hr, hh r hr]
  rw [g, j, d2, d4]

theorem flip_same {p : ProjPar} (ht : TabOK p) {r s t : Nat} {num num' : Arr}
    (h : NumHop p r r s t num num') (k : Nat) : makeProjCnt p num k = makeProjCnt p num' k := by
  have hs := h.hs; have htt := h.ht
  refine makeProjCnt_congr ht h.bin h.bin' ?_ ?_ k
  all_goals
    intro q hq
    by_cases e : q = r
    · subst e
      have a := h.upd q hq 0 (by omega)
      have b := h.upd q hq 1 (by omega)
      have w := h.was; have f := h.free
      simp only [isDoublon, isHolon, nUp, nDn]
      simp only [true_and, Nat.zero_mul, Nat.add_zero, Nat.one_mul] at a b
      have hst : s ≠ t := by rintro rfl; omega
      rcases (show (s = 0 ∧ t = 1) ∨ (s = 1 ∧ t = 0) by omega) with ⟨rfl, rfl⟩ | ⟨rfl, rfl⟩
      · simp only [Nat.zero_mul, Nat.add_zero, Nat.one_mul] at w f
        rw [a, b, w, f]; simp
      · simp only [Nat.zero_mul, Nat.add_zero, Nat.one_mul] at w f
        rw [a, b, w, f]; simp
    · have := h.far hq e e
      simp only [isDoublon, isHolon, this.1, this.2]

end MVMC
