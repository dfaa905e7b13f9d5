import Mathlib.Algebra.Order.BigOperators.Group.Finset
import Mathlib.Algebra.BigOperators.Ring.Finset
import Verif.Proof.InitialSample

namespace MVMC
open Spec

theorem list_sum_range {α : Type} [AddCommMonoid α] (n : Nat) (f : Nat → α) :
    ((List.range n).map f).sum = ∑ i ∈ Finset.range n, f i := by
  induction n with
  | zero => simp
  | succ n ih => rw [List.range_succ, Finset.sum_range_succ, ← ih]; simp

/-- the occupied sites of spin `s` -/
def occ (p : SamplerPar) (c : EleCfg) (s : Nat) : Finset Nat :=
  (Finset.range p.Nsite).filter (fun ri => c.cfg (ri + s * p.Nsite) ≠ -1)

theorem occ_card {p : SamplerPar} {c : EleCfg} (hc : Cons p c) {s : Nat} (hs : s < 2) :
    (occ p c s).card = p.Ne := by
  rw [← Finset.card_range p.Ne]
  symm
  refine Finset.card_bij (fun mi _ => (c.idx (mi + s * p.Ne)).toNat) ?_ ?_ ?_
  · intro mi hm
    rw [Finset.mem_range] at hm
    obtain ⟨ri, hr, h1, h2⟩ := hc.electron s hs mi hm
    simp only [occ, Finset.mem_filter, Finset.mem_range, h1, Int.toNat_natCast]
    exact ⟨hr, by rw [h2]; omega⟩
  · intro a ha b hb hab
    rw [Finset.mem_range] at ha hb
    obtain ⟨ra, _, h1, h2⟩ := hc.electron s hs a ha
    obtain ⟨rb, _, h3, h4⟩ := hc.electron s hs b hb
    simp only [h1, h3, Int.toNat_natCast] at hab
    subst hab; omega
  · intro ri hri
    simp only [occ, Finset.mem_filter, Finset.mem_range] at hri
    rcases hc.site s hs ri hri.1 with h | ⟨mi, hm, h1, h2, _⟩
    · exact absurd h.1 hri.2
    · exact ⟨mi, Finset.mem_range.mpr hm, by simp [h2]⟩

theorem num_eq {p : SamplerPar} {c : EleCfg} (hc : Cons p c) {s ri : Nat} (hs : s < 2)
    (hr : ri < p.Nsite) :
    c.num (ri + s * p.Nsite) = if c.cfg (ri + s * p.Nsite) ≠ -1 then 1 else 0 := by
  rcases hc.site s hs ri hr with h | ⟨mi, hm, h1, h2, h3⟩
  · rw [if_neg (by simp [h.1])]; exact h.2
  · rw [if_pos (by rw [h1]; omega)]; exact h3

theorem spinCount_eq {p : SamplerPar} {c : EleCfg} (hc : Cons p c) {s : Nat} (hs : s < 2) :
    spinCount p.Nsite c.num s = p.Ne := by
  unfold spinCount
  rw [list_sum_range, ← occ_card hc hs, occ, Finset.card_filter]
  push_cast
  apply Finset.sum_congr rfl
  intro ri hri
  rw [num_eq hc hs (Finset.mem_range.mp hri)]

/-- a singly occupied site exists iff there are singly occupied sites of both spins -/
theorem single_both {p : SamplerPar} {c : EleCfg} (hc : Cons p c) {s : Nat} (hs : s < 2)
    {ri : Nat} (hr : ri < p.Nsite) (h1 : c.cfg (ri + s * p.Nsite) ≠ -1)
    (h2 : c.cfg (ri + (1 - s) * p.Nsite) = -1) :
    ∃ rj < p.Nsite, c.cfg (rj + (1 - s) * p.Nsite) ≠ -1 ∧ c.cfg (rj + s * p.Nsite) = -1 := by
  by_contra hno
  have hsub : occ p c (1 - s) ⊆ occ p c s := by
    intro rj hj
    simp only [occ, Finset.mem_filter, Finset.mem_range] at hj ⊢
    refine ⟨hj.1, fun h => hno ⟨rj, hj.1, hj.2, h⟩⟩
  have hin : ri ∈ occ p c s := by
    simp only [occ, Finset.mem_filter, Finset.mem_range]; exact ⟨hr, h1⟩
  have hnin : ri ∉ occ p c (1 - s) := by
    simp only [occ, Finset.mem_filter, Finset.mem_range, not_and, not_not]; exact fun _ => h2
  have hlt := Finset.card_lt_card (Finset.ssubset_iff_subset_ne.mpr
    ⟨hsub, fun e => hnin (e ▸ hin)⟩)
  rw [occ_card hc hs, occ_card hc (show 1 - s < 2 by omega)] at hlt
  omega

theorem hasSingle_iff {p : SamplerPar} {c : EleCfg} (hc : Cons p c) :
    hasSingle p c = true ↔ ∃ ri < p.Nsite, ∃ s < 2,
      c.cfg (ri + s * p.Nsite) ≠ -1 ∧ c.cfg (ri + (1 - s) * p.Nsite) = -1 := by
  unfold hasSingle
  rw [List.any_eq_true]
  constructor
  · rintro ⟨ri, hri, h⟩
    have hr := List.mem_range.mp hri
    have e0 := num_eq hc (s := 0) (by omega) hr
    have e1 := num_eq hc (s := 1) (by omega) hr
    simp only [Nat.zero_mul, Nat.add_zero, Nat.one_mul] at e0 e1
    simp only [decide_eq_true_eq, e0, e1] at h
    by_cases h0 : c.cfg ri = -1
    · by_cases h1 : c.cfg (ri + p.Nsite) = -1
      · simp [h0, h1] at h
      · exact ⟨ri, hr, 1, by omega, by simpa using h1, by simpa using h0⟩
    · by_cases h1 : c.cfg (ri + p.Nsite) = -1
      · exact ⟨ri, hr, 0, by omega, by simpa using h0, by simpa using h1⟩
      · simp [h0, h1] at h
  · rintro ⟨ri, hr, s, hs, h1, h2⟩
    refine ⟨ri, List.mem_range.mpr hr, ?_⟩
    have e0 := num_eq hc (s := 0) (by omega) hr
    have e1 := num_eq hc (s := 1) (by omega) hr
    simp only [Nat.zero_mul, Nat.add_zero, Nat.one_mul] at e0 e1
    simp only [decide_eq_true_eq, e0, e1]
    rcases (show s = 0 ∨ s = 1 by omega) with rfl | rfl
    · simp only [Nat.zero_mul, Nat.add_zero, Nat.sub_zero, Nat.one_mul] at h1 h2
      simp [h1, h2]
    · simp only [Nat.one_mul, Nat.sub_self, Nat.zero_mul, Nat.add_zero] at h1 h2
      simp [h1, h2]

theorem innerLoop_add {β γ : Type} (k : Hooks β γ) (p : SamplerPar) (m n : Nat) (st : SState β)
    (r : List Nat) : innerLoop k p (m + n) st r =
      match innerLoop k p m st r with
      | none => none
      | some (st, r) => innerLoop k p n st r := by
  induction m generalizing st r with
  | zero => simp [innerLoop]
  | succ m ih =>
    rw [Nat.add_right_comm]
    simp only [innerLoop]
    split
    · rfl
    · exact ih _ _

theorem outerLoop_states {β γ : Type} (k : Hooks β γ) (p : SamplerPar) (nIn nOut nSample left o : Nat)
    {st0 st st' : SState β} {saved saved' : List (Nat × SState β)} {r0 r r' : List Nat}
    (h0 : innerLoop k p (o * nIn) st0 r0 = some (st, r))
    (hsv : ∀ x ∈ saved, ∃ r1, innerLoop k p ((nOut - nSample + x.1 + 1) * nIn) st0 r0 = some (x.2, r1))
    (e : outerLoop k p nIn nOut nSample left o st saved r = some (st', saved', r')) :
    (∀ x ∈ saved', ∃ r1, innerLoop k p ((nOut - nSample + x.1 + 1) * nIn) st0 r0 = some (x.2, r1)) ∧
      innerLoop k p ((o + left) * nIn) st0 r0 = some (st', r') := by
  induction left generalizing o st saved r with
  | zero =>
    simp only [outerLoop, Option.some.injEq, Prod.mk.injEq] at e
    obtain ⟨rfl, rfl, rfl⟩ := e
    exact ⟨hsv, h0⟩
  | succ n ih =>
    unfold outerLoop at e
    split at e
    · simp at e
    · rename_i st1 r1 e1
      have h1 : innerLoop k p ((o + 1) * nIn) st0 r0 = some (st1, r1) := by
        rw [Nat.add_mul, Nat.one_mul, innerLoop_add, h0]; exact e1
      have := ih (o + 1) h1 ?_ e
      · rw [show o + 1 + n = o + (n + 1) by omega] at this; exact this
      · intro x hx
        split at hx
        · rename_i hge
          rcases List.mem_cons.mp hx with rfl | hx
          · refine ⟨r1, ?_⟩
            simp only
            rw [show nOut - nSample + (o - (nOut - nSample)) + 1 = o + 1 by omega]
            exact h1
          · exact hsv x hx
        · exact hsv x hx

end MVMC
