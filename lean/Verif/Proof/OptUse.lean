import Verif.Model.OptUse
import Verif.Props.ReadFlags
import Verif.Props.SR
import Mathlib.Order.Interval.Finset.Nat

/-!
# Proof: the flags of the files fill the array
-/

namespace MVMC

/-- Intervals without common elements that together are as long as `[0, N)` and lie inside it cover it. -/
theorem ivl_cover (N : ℕ) (L : List (ℕ × ℕ)) (hp : L.Pairwise fun a b => a.1 + a.2 ≤ b.1 ∨ b.1 + b.2 ≤ a.1)
    (hN : ∀ a ∈ L, a.1 + a.2 ≤ N) (hs : (L.map Prod.snd).sum = N) (k : ℕ) (hk : k < N) :
    ∃ a ∈ L, a.1 ≤ k ∧ k < a.1 + a.2 := by
  have key : ∀ L : List (ℕ × ℕ), (L.Pairwise fun a b => a.1 + a.2 ≤ b.1 ∨ b.1 + b.2 ≤ a.1) →
      ∃ U : Finset ℕ, U.card = (L.map Prod.snd).sum ∧ ∀ j, j ∈ U ↔ ∃ a ∈ L, a.1 ≤ j ∧ j < a.1 + a.2 := by
    intro L
    induction L with
    | nil => exact fun _ => ⟨∅, by simp⟩
    | cons a L ih =>
      intro h
      obtain ⟨U, hc, hU⟩ := ih h.of_cons
      refine ⟨Finset.Ico a.1 (a.1 + a.2) ∪ U, ?_, ?_⟩
      · rw [Finset.card_union_of_disjoint, Nat.card_Ico, hc, List.map_cons, List.sum_cons]
        · omega
        · rw [Finset.disjoint_left]
          intro j hj hj'
          obtain ⟨b, hb, h1, h2⟩ := (hU j).1 hj'
          have := List.rel_of_pairwise_cons h hb
          rw [Finset.mem_Ico] at hj
          omega
      · intro j
        rw [Finset.mem_union, Finset.mem_Ico, hU]
        simp
  obtain ⟨U, hc, hU⟩ := key L hp
  have sub : U ⊆ Finset.range N := by
    intro j hj
    obtain ⟨a, ha, _, h2⟩ := (hU j).1 hj
    have := hN a ha
    exact Finset.mem_range.2 (by omega)
  have e := Finset.eq_of_subset_of_card_le sub (by rw [Finset.card_range, hc, hs])
  exact (hU k).1 (e ▸ Finset.mem_range.2 hk)

/-- Accepted files have a flag for every parameter. -/
theorem files_cover (S : IOSizes) (fs : List (InKW × ℤ × List (ℤ × ℤ))) (H : FlagFiles S fs) (hc : flagCount S fs = S.nPara)
    (k : ℕ) (hk : k < S.nPara) : ∃ f ∈ fs, optOffset S f.1 ≤ k ∧ k < optOffset S f.1 + inLen S f.1 := by
  have := ivl_cover S.nPara (fs.map fun f => (optOffset S f.1, inLen S f.1)) ?_ ?_ ?_ k hk
  · obtain ⟨a, ha, h⟩ := this
    obtain ⟨f, hf, rfl⟩ := List.mem_map.1 ha
    exact ⟨f, hf, h⟩
  · rw [List.pairwise_map]
    have hn : fs.Pairwise fun f g => flagSlot f.1 ≠ flagSlot g.1 := List.pairwise_map.1 H.once
    refine hn.imp_of_mem ?_
    intro f g hf hg hne
    exact groups_apart S H.rbm f.1 g.1 (H.opt f hf) (H.opt g hg) hne (fun e => H.orbs f hf e g hg) (fun e => H.orbs g hg e f hf)
  · intro a ha
    obtain ⟨f, hf, rfl⟩ := List.mem_map.1 ha
    exact (group_end S H.rbm f.1 (H.opt f hf)).1
  · rw [List.map_map]
    exact hc

/-- The flag of a real part, or of a part of a complex group, does not depend on what the memory contained. -/
theorem foldFlags_mem_eq (S : IOSizes) (fs : List (InKW × ℤ × List (ℤ × ℤ))) (H : FlagFiles S fs) (hc : flagCount S fs = S.nPara)
    (o1 o2 : Tab) (k : ℕ) (hk : k < 2 * S.nPara) (h : k % 2 = 0 ∨ ∀ f ∈ fs, f.1 ≠ .orbP → f.2.1 > 0) :
    fs.foldl (fun o f => fileFlags S f.1 f.2.1 (f.2.2.map Prod.snd) o) o1 k =
      fs.foldl (fun o f => fileFlags S f.1 f.2.1 (f.2.2.map Prod.snd) o) o2 k := by
  obtain ⟨f, hf, h1, h2⟩ := files_cover S fs H hc (k / 2) (by omega)
  rw [foldFlags_mem S k fs o1 H f hf h1 h2, foldFlags_mem S k fs o2 H f hf h1 h2]
  have hl := H.len f hf
  have hi := inLen_opt S f.1
  unfold fileFlags
  split_ifs with hp
  · rw [if_pos hp] at hi
    unfold parFlags
    have : (k / 2 - optOffset S f.1) / 2 < f.2.2.length := by omega
    rw [if_pos h1, if_pos h1, List.getElem?_map, List.getElem?_eq_getElem this]
    rfl
  · rw [if_neg hp] at hi
    unfold withFlags
    have hcond : k % 2 = 0 ∨ f.2.1 > 0 := h.imp id (fun g => g f hf hp)
    have : k / 2 - optOffset S f.1 < f.2.2.length := by omega
    rw [if_pos h1, if_pos h1, List.getElem?_map, List.getElem?_eq_getElem this]
    simp only [Option.map_some, if_pos hcond]

/-- The list of components depends on the flags of the components that pass the cut only. -/
theorem smatToPara_congr (m : ℕ) (f1 f2 : ℕ → ℤ) (sd : ℕ → ℝ) (redCut : ℝ)
    (h : ∀ pi < m, sDiagMax m sd * redCut ≤ sd pi → f1 pi = f2 pi) : smatToPara m f1 sd redCut = smatToPara m f2 sd redCut := by
  classical
  rw [smatToPara_selected, smatToPara_selected]
  refine List.filter_congr (fun x hx => ?_)
  rw [decide_eq_decide]
  unfold Selected
  constructor
  · exact fun ⟨a, b⟩ => ⟨h x (List.mem_range.1 hx) b ▸ a, b⟩
  · exact fun ⟨a, b⟩ => ⟨h x (List.mem_range.1 hx) b ▸ a, b⟩

/-- In real mode the overlap diagonal of imaginary parts is zero. -/
theorem sDiag_expandReal_odd (n : ℕ) (OOr : ℕ → ℝ) (pi : ℕ) (h : pi < 2 * n) (ho : pi % 2 = 1) :
    sDiag (2 * (n + 1)) (expandReal (n + 1) OOr) pi = 0 := by
  have e1 : ((pi + 2) * (2 * (n + 1)) + (pi + 2)) % (2 * (n + 1)) = pi + 2 := by
    rw [Nat.mul_add_mod', Nat.mod_eq_of_lt (by omega)]
  have e2 : (pi + 2) % (2 * (n + 1)) = pi + 2 := Nat.mod_eq_of_lt (by omega)
  have z1 : expandReal (n + 1) OOr ((pi + 2) * (2 * (n + 1)) + (pi + 2)) = 0 := by
    unfold expandReal
    dsimp only
    rw [e1, if_neg (by omega)]
  have z2 : expandReal (n + 1) OOr (pi + 2) = 0 := by
    unfold expandReal
    dsimp only
    rw [e2, if_neg (by omega)]
  unfold sDiag
  rw [z1, z2]
  simp

end MVMC
