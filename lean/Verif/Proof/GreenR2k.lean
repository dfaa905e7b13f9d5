import Verif.Model.GreenR2k
import Verif.Spec.GreenR2k
import Verif.Proof.JordanWigner

/-! # Proofs about the Fourier tool: the tables and the operators -/
namespace MVMC
open Spec Matrix

theorem r2kLines_spec (step : R2kIdx → ℕ → List ℕ → R2kIdx) (P : List ℕ → Prop) (ir k o1 o2 : ℕ)
    (h1 : ∀ T n l, P l → step T n l ir k o1 o2 = n) (h2 : ∀ T n l, ¬ P l → step T n l ir k o1 o2 = T ir k o1 o2) :
    ∀ (ls : List (List ℕ)) (n : ℕ) (T : R2kIdx),
      (r2kLines step ls n T ir k o1 o2 = T ir k o1 o2 ∧ ∀ l ∈ ls, ¬ P l) ∨
      ∃ m, r2kLines step ls n T ir k o1 o2 = n + m ∧ (∃ l, ls[m]? = some l ∧ P l) ∧ ∀ m' l, m < m' → ls[m']? = some l → ¬ P l
  | [], n, T => Or.inl ⟨rfl, by simp⟩
  | l :: ls, n, T => by
    rcases r2kLines_spec step P ir k o1 o2 h1 h2 ls (n + 1) (step T n l) with ⟨h, hn⟩ | ⟨m, hm, hl, hlast⟩
    · by_cases hp : P l
      · refine Or.inr ⟨0, ?_, ⟨l, rfl, hp⟩, ?_⟩
        · rw [r2kLines, h, h1 _ _ _ hp]; rfl
        · intro m' l' hm' hl'
          obtain ⟨q, rfl⟩ : ∃ q, m' = q + 1 := ⟨m' - 1, by omega⟩
          rw [List.getElem?_cons_succ] at hl'
          exact hn l' (List.mem_of_getElem? hl')
      · refine Or.inl ⟨?_, ?_⟩
        · rw [r2kLines, h, h2 _ _ _ hp]
        · intro l' hl'
          rcases List.mem_cons.mp hl' with rfl | hl'
          · exact hp
          · exact hn l' hl'
    · refine Or.inr ⟨m + 1, ?_, ?_, ?_⟩
      · rw [r2kLines, hm]; omega
      · rw [List.getElem?_cons_succ]; exact hl
      · intro m' l' hm' hl'
        obtain ⟨q, rfl⟩ : ∃ q, m' = q + 1 := ⟨m' - 1, by omega⟩
        rw [List.getElem?_cons_succ] at hl'
        exact hlast q l' (by omega) hl'

theorem r2kLines_keep (step : R2kIdx → ℕ → List ℕ → R2kIdx) (ir k o1 o2 : ℕ) (h : ∀ T n l, step T n l ir k o1 o2 = T ir k o1 o2) :
    ∀ (ls : List (List ℕ)) (n : ℕ) (T : R2kIdx), r2kLines step ls n T ir k o1 o2 = T ir k o1 o2
  | [], _, _ => rfl
  | l :: ls, n, T => by rw [r2kLines, r2kLines_keep step ir k o1 o2 h ls, h]

theorem r2kPut_ne (T : R2kIdx) (G : R2kGeo) (k a b n ir k' o1 o2 : ℕ) (h : k' ≠ k) : T.put G k a b n ir k' o1 o2 = T ir k' o1 o2 := by
  rw [R2kIdx.put, if_neg (fun hh => h hh.2.1)]

theorem r2kPut_eq (T : R2kIdx) (G : R2kGeo) (k a b n ir o1 o2 : ℕ) :
    T.put G k a b n ir k o1 o2 = if ir = G.rindx b ∧ o1 = G.orb a ∧ o2 = G.orb b then n else T ir k o1 o2 := by
  rw [R2kIdx.put]
  by_cases h : ir = G.rindx b ∧ o1 = G.orb a ∧ o2 = G.orb b
  · rw [if_pos h, if_pos ⟨h.1, rfl, h.2⟩]
  · rw [if_neg h, if_neg (fun hh => h ⟨hh.1, hh.2.2⟩)]

/-- a line of the wanted form with the right indices -/
def r2kFits (G : R2kGeo) (mvmc : Bool) (ir k o1 o2 : ℕ) (l : List ℕ) : Prop :=
  ∃ a b, l = r2kWanted mvmc a b k ∧ G.zero (G.rindx a) = true ∧ ir = G.rindx b ∧ o1 = G.orb a ∧ o2 = G.orb b

theorem r2kOne_keep (G : R2kGeo) (T : R2kIdx) (n : ℕ) (l : List ℕ) (ir k o1 o2 : ℕ) (h1 : k ≠ 1) (h2 : k ≠ 2) : r2kOne G T n l ir k o1 o2 = T ir k o1 o2 := by
  unfold r2kOne
  split
  · split_ifs <;> first | rfl | exact r2kPut_ne _ _ _ _ _ _ _ _ _ _ h1 | exact r2kPut_ne _ _ _ _ _ _ _ _ _ _ h2
  · rfl

theorem r2kTwo_keep (G : R2kGeo) (mvmc : Bool) (T : R2kIdx) (n : ℕ) (l : List ℕ) (ir k o1 o2 : ℕ) (h : k < 3 ∨ 8 < k) : r2kTwo G mvmc T n l ir k o1 o2 = T ir k o1 o2 := by
  have p : ∀ (T : R2kIdx) (q a b : ℕ), 3 ≤ q → q ≤ 8 → T.put G q a b n ir k o1 o2 = T ir k o1 o2 := fun T q a b _ _ => r2kPut_ne _ _ _ _ _ _ _ _ _ _ (by omega)
  have eA : ∀ T i1 s2 s4 i5 s6 s8, r2kTwoA G mvmc T n i1 s2 s4 i5 s6 s8 ir k o1 o2 = T ir k o1 o2 := by
    intro T i1 s2 s4 i5 s6 s8
    unfold r2kTwoA
    split_ifs <;> first | rfl | exact p _ _ _ _ (by decide) (by decide)
  have eB : ∀ T i1 s2 s4 i5 s6 s8, r2kTwoB G T n i1 s2 s4 i5 s6 s8 ir k o1 o2 = T ir k o1 o2 := by
    intro T i1 s2 s4 i5 s6 s8
    unfold r2kTwoB
    split_ifs <;> first | rfl | exact p _ _ _ _ (by decide) (by decide)
  unfold r2kTwo
  split
  · dsimp only
    split_ifs <;> simp only [eA, eB]
  · rfl

theorem r2kOne_cell (G : R2kGeo) (mvmc : Bool) (T : R2kIdx) (n : ℕ) (l : List ℕ) (ir k o1 o2 : ℕ) (hk : k = 1 ∨ k = 2) :
    (r2kFits G mvmc ir k o1 o2 l → r2kOne G T n l ir k o1 o2 = n) ∧ (¬ r2kFits G mvmc ir k o1 o2 l → r2kOne G T n l ir k o1 o2 = T ir k o1 o2) := by
  constructor
  · rintro ⟨a, b, rfl, hz, rfl, rfl, rfl⟩
    rcases hk with rfl | rfl <;> simp [r2kWanted, r2kOne, hz, r2kPut_eq]
  · intro h
    unfold r2kOne
    split
    · rename_i i s j t
      split_ifs with h0 h1 h2
      · rfl
      · rcases hk with rfl | rfl
        · rw [r2kPut_eq, if_neg]
          rintro ⟨e1, e2, e3⟩
          exact h ⟨i, j, by rw [h1.1, h1.2]; rfl, by simpa using h0, e1, e2, e3⟩
        · exact r2kPut_ne _ _ _ _ _ _ _ _ _ _ (by decide)
      · rcases hk with rfl | rfl
        · exact r2kPut_ne _ _ _ _ _ _ _ _ _ _ (by decide)
        · rw [r2kPut_eq, if_neg]
          rintro ⟨e1, e2, e3⟩
          exact h ⟨i, j, by rw [h2.1, h2.2]; rfl, by simpa using h0, e1, e2, e3⟩
      · rfl
    · rfl

theorem r2kTwo_cell (G : R2kGeo) (mvmc : Bool) (T : R2kIdx) (n : ℕ) (l : List ℕ) (ir k o1 o2 : ℕ) (hk : 3 ≤ k ∧ k ≤ 8) :
    (r2kFits G mvmc ir k o1 o2 l → r2kTwo G mvmc T n l ir k o1 o2 = n) ∧ (¬ r2kFits G mvmc ir k o1 o2 l → r2kTwo G mvmc T n l ir k o1 o2 = T ir k o1 o2) := by
  have hk' : k = 3 ∨ k = 4 ∨ k = 5 ∨ k = 6 ∨ k = 7 ∨ k = 8 := by omega
  constructor
  · rintro ⟨a, b, rfl, hz, rfl, rfl, rfl⟩
    rcases hk' with rfl | rfl | rfl | rfl | rfl | rfl <;> cases mvmc <;>
      simp [r2kWanted, r2kTwo, r2kTwoA, r2kTwoB, hz, r2kPut_eq] <;> split_ifs <;> simp_all [r2kPut_eq, r2kPut_ne]
  · intro h
    have q : ∀ (T : R2kIdx) (j a b : ℕ), (k = j → [a, b] ≠ [] → G.zero (G.rindx a) = true → l = r2kWanted mvmc a b j) → G.zero (G.rindx a) = true →
        T.put G j a b n ir k o1 o2 = T ir k o1 o2 := by
      intro T j a b hl hz
      by_cases e : k = j
      · subst e
        rw [r2kPut_eq, if_neg]
        rintro ⟨e1, e2, e3⟩
        exact h ⟨a, b, hl rfl (by simp) hz, hz, e1, e2, e3⟩
      · exact r2kPut_ne _ _ _ _ _ _ _ _ _ _ e
    unfold r2kTwo
    split
    · rename_i i1 s2 i3 s4 i5 s6 i7 s8
      have eA : ∀ T, i1 = i3 → i5 = i7 → G.zero (G.rindx i1) = true → r2kTwoA G mvmc T n i1 s2 s4 i5 s6 s8 ir k o1 o2 = T ir k o1 o2 := by
        intro T e1 e2 hz
        subst e1 e2
        unfold r2kTwoA
        split_ifs with a1 a2 a3 a4 a5 a6 a7 a8 a9
        · exact q _ _ _ _ (fun _ _ _ => by rw [a1.1, a1.2, a2.1, a2.2]; rfl) hz
        · exact q _ _ _ _ (fun _ _ _ => by rw [a1.1, a1.2, a3.1, a3.2]; rfl) hz
        · rfl
        · exact q _ _ _ _ (fun _ _ _ => by rw [a4.1, a4.2, a5.1, a5.2]; rfl) hz
        · exact q _ _ _ _ (fun _ _ _ => by rw [a4.1, a4.2, a6.1, a6.2]; rfl) hz
        · rfl
        · exact q _ _ _ _ (fun _ _ _ => by rw [a8.1.1, a8.1.2, a8.2.1, a8.2.2, a7]; rfl) hz
        · exact q _ _ _ _ (fun _ _ _ => by rw [a9.1.1, a9.1.2, a9.2.1, a9.2.2, a7]; rfl) hz
        · rfl
        · rfl
      have eB : ∀ T, mvmc = true → i1 = i7 → i3 = i5 → G.zero (G.rindx i1) = true → r2kTwoB G T n i1 s2 s4 i5 s6 s8 ir k o1 o2 = T ir k o1 o2 := by
        intro T e0 e1 e2 hz
        subst e1 e2
        unfold r2kTwoB
        split_ifs with a1 a2
        · exact q _ _ _ _ (fun _ _ _ => by rw [a1.1.1, a1.1.2, a1.2.1, a1.2.2, e0]; rfl) hz
        · exact q _ _ _ _ (fun _ _ _ => by rw [a2.1.1, a2.1.2, a2.2.1, a2.2.2, e0]; rfl) hz
        · rfl
      by_cases c1 : i1 = i3 ∧ i5 = i7 ∧ G.zero (G.rindx i1) = false
      · rw [if_pos c1]
      · rw [if_neg c1]
        have key : (if i1 = i3 ∧ i5 = i7 then r2kTwoA G mvmc T n i1 s2 s4 i5 s6 s8 else T) ir k o1 o2 = T ir k o1 o2 := by
          by_cases c2 : i1 = i3 ∧ i5 = i7
          · rw [if_pos c2]
            refine eA _ c2.1 c2.2 ?_
            cases hh : G.zero (G.rindx i1)
            · exact absurd ⟨c2.1, c2.2, hh⟩ c1
            · rfl
          · rw [if_neg c2]
        generalize (if i1 = i3 ∧ i5 = i7 then r2kTwoA G mvmc T n i1 s2 s4 i5 s6 s8 else T) = T' at key ⊢
        by_cases c3 : mvmc = true ∧ (i1 = i7 ∧ i3 = i5)
        · rw [if_pos c3]
          by_cases c4 : G.zero (G.rindx i1) = false
          · rw [if_pos c4, key]
          · rw [if_neg c4, eB _ c3.1 c3.2.1 c3.2.2 (by simpa using c4), key]
        · rw [if_neg c3, key]
    · rfl

theorem r2kTable_one (G : R2kGeo) (mvmc : Bool) (one two : List (List ℕ)) (ir k o1 o2 : ℕ) (hk : k = 1 ∨ k = 2) :
    IsLastLine (r2kFits G mvmc ir k o1 o2) one (r2kTable G mvmc one two ir k o1 o2) := by
  have e : r2kTable G mvmc one two ir k o1 o2 = r2kLines (r2kOne G) one 1 (fun _ _ _ _ => 0) ir k o1 o2 := by
    rw [r2kTable]
    exact r2kLines_keep _ _ _ _ _ (fun T n l => r2kTwo_keep _ _ _ _ _ _ _ _ _ (by omega)) _ _ _
  rw [e]
  rcases r2kLines_spec (r2kOne G) (r2kFits G mvmc ir k o1 o2) ir k o1 o2 (fun T n l => (r2kOne_cell G mvmc T n l ir k o1 o2 hk).1)
    (fun T n l => (r2kOne_cell G mvmc T n l ir k o1 o2 hk).2) one 1 (fun _ _ _ _ => 0) with h | ⟨m, h1, h2⟩
  · exact Or.inl h
  · exact Or.inr ⟨m, by omega, h2⟩

theorem r2kTable_two (G : R2kGeo) (mvmc : Bool) (one two : List (List ℕ)) (ir k o1 o2 : ℕ) (hk : 3 ≤ k ∧ k ≤ 8) :
    IsLastLine (r2kFits G mvmc ir k o1 o2) two (r2kTable G mvmc one two ir k o1 o2) := by
  have e : r2kLines (r2kOne G) one 1 (fun _ _ _ _ => 0) ir k o1 o2 = 0 :=
    r2kLines_keep _ _ _ _ _ (fun T n l => r2kOne_keep _ _ _ _ _ _ _ _ (by omega) (by omega)) _ _ _
  rcases r2kLines_spec (r2kTwo G mvmc) (r2kFits G mvmc ir k o1 o2) ir k o1 o2 (fun T n l => (r2kTwo_cell G mvmc T n l ir k o1 o2 hk).1)
    (fun T n l => (r2kTwo_cell G mvmc T n l ir k o1 o2 hk).2) two 1 (r2kLines (r2kOne G) one 1 fun _ _ _ _ => 0) with h | ⟨m, h1, h2⟩
  · exact Or.inl ⟨h.1.trans e, h.2⟩
  · exact Or.inr ⟨m, by rw [r2kTable, h1]; omega, h2⟩

/-- `c†_{i↑} c_{i↓} c†_{j↓} c_{j↑} = δ_{ij} c†_{i↑} c_{i↑} - c†_{i↑} c_{j↑} c†_{j↓} c_{i↓}`; `x`, `y` the orbitals of `i`, `z`, `w` of `j` -/
theorem r2k_flip {M x y z w : ℕ} (hy : y < M) (hz : z < M) (hw : w < M) (h1 : y ≠ z) (h2 : w ≠ z) :
    prodMat M [.cr x, .an y] * prodMat M [.cr w, .an z] = (if y = w then prodMat M [.cr x, .an z] else 0) - prodMat M [.cr x, .an z, .cr w, .an y] := by
  simp only [prodMat, List.map_cons, List.map_nil, List.prod_cons, List.prod_nil, Matrix.mul_one]
  have e1 := jw_anti (M := M) (.an z) (.cr w) hz hw (Ne.symm h2)
  have e2 := jw_anti (M := M) (.an z) (.an y) hz hy (Ne.symm h1)
  have e3 : jw M (.an z) * (jw M (.cr w) * jw M (.an y)) = (jw M (.cr w) * jw M (.an y)) * jw M (.an z) := by
    rw [← Matrix.mul_assoc, e1, Matrix.neg_mul, Matrix.mul_assoc, e2, Matrix.mul_neg, neg_neg, Matrix.mul_assoc]
  rw [e3]
  by_cases h : y = w
  · subst h
    have e4 := jw_same (M := M) hy
    have e5 : jw M (.an y) * jw M (.cr y) = 1 - jw M (.cr y) * jw M (.an y) := by rw [← e4]; abel
    rw [if_pos rfl, Matrix.mul_assoc, ← Matrix.mul_assoc (jw M (.an y)), e5]
    simp only [Matrix.sub_mul, Matrix.mul_sub, Matrix.one_mul, Matrix.mul_assoc]
  · have e4 := jw_anti (M := M) (.an y) (.cr w) hy hw h
    rw [if_neg h, Matrix.mul_assoc, ← Matrix.mul_assoc (jw M (.an y)), e4]
    simp only [Matrix.neg_mul, Matrix.mul_neg, Matrix.mul_assoc, zero_sub]

end MVMC
