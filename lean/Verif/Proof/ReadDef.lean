import Verif.Model.ReadDef
import Verif.Proof.SlaterBase
import Mathlib.Tactic.Linarith
import Mathlib.Tactic.SplitIfs

/-!
# Lemmas on the readers of definition files
-/

namespace MVMC

/-- A site of a lattice of `N` sites. -/
def InLat (N z : ℤ) : Prop := 0 ≤ z ∧ z < N

theorem checkSite_iff (z N : ℤ) : checkSite z N = 0 ↔ InLat N z := by
  unfold checkSite InLat
  split_ifs with h
  · constructor
    · intro c; exact absurd c (by decide)
    · intro c; omega
  · simp only [true_iff]
    omega

theorem checkPairSite_iff (a b N : ℤ) : checkPairSite a b N = 0 ↔ InLat N a ∧ InLat N b := by
  unfold checkPairSite
  rw [← checkSite_iff, ← checkSite_iff]
  split_ifs with h1 h2
  · simp [h1]
  · simp [h2]
  · simp only [not_not] at h1 h2
    simp [h1, h2]

theorem checkQuadSite_iff (a b c d N : ℤ) :
    checkQuadSite a b c d N = 0 ↔ (InLat N a ∧ InLat N b) ∧ InLat N c ∧ InLat N d := by
  unfold checkQuadSite
  rw [← checkPairSite_iff, ← checkPairSite_iff]
  split_ifs with h1 h2
  · simp [h1]
  · simp [h2]
  · simp only [not_not] at h1 h2
    simp [h1, h2]

/-! ## Rows -/

/-- The rows of a file with what is carried over from line to line. -/
def scanRows (n m : ℕ) : List DLine → List ℤ → List ℚ → List (List ℤ × List ℚ)
  | [], _, _ => []
  | l :: ls, x, v => (scanI n x l, scanV n m v l) :: scanRows n m ls (scanI n x l) (scanV n m v l)

theorem scanRows_length (n m : ℕ) : ∀ ls x v, (scanRows n m ls x v).length = ls.length
  | [], _, _ => rfl
  | l :: ls, x, v => by simp [scanRows, scanRows_length n m ls]

theorem scanI_length {n : ℕ} {x : List ℤ} (hx : x.length = n) (l : DLine) :
    (scanI n x l).length = n := by
  unfold scanI
  rw [List.length_append, List.length_take, List.length_drop]
  omega

theorem scanRows_widths {n m : ℕ} : ∀ ls x v, x.length = n → ∀ r ∈ scanRows n m ls x v, r.1.length = n
  | [], _, _, _ => by simp [scanRows]
  | l :: ls, x, v, hx => by
    intro r hr
    rcases List.mem_cons.1 hr with rfl | hr
    · exact scanI_length hx l
    · exact scanRows_widths ls _ _ (scanI_length hx l) r hr

/-- A line with all its fields. -/
def Full (n m : ℕ) (l : DLine) : Prop := n ≤ l.ints.length ∧ m ≤ l.vals.length

theorem scanRows_full {n m : ℕ} : ∀ ls x v, x.length = n → v.length = m → (∀ l ∈ ls, Full n m l) →
    scanRows n m ls x v = ls.map fun l => (l.ints.take n, l.vals.take m)
  | [], _, _, _, _, _ => rfl
  | l :: ls, x, v, hx, hv, h => by
    have hl := h l (by simp)
    have e1 : scanI n x l = l.ints.take n := by
      unfold scanI
      rw [List.drop_eq_nil_of_le (by rw [hx]; exact hl.1), List.append_nil]
    have e2 : scanV n m v l = l.vals.take m := by
      unfold scanV
      rw [if_neg (by have := hl.1; omega), List.drop_eq_nil_of_le (by rw [hv]; exact hl.2),
        List.append_nil]
    rw [scanRows, e1, e2, List.map_cons]
    congr 1
    refine scanRows_full ls _ _ ?_ ?_ (fun l hl => h l (by simp [hl]))
    · rw [List.length_take]; have := hl.1; omega
    · rw [List.length_take]; have := hl.2; omega

theorem rowLoop_spec (n m : ℕ) (check : List ℤ → Bool) (NArray : ℤ) : ∀ ls x v rows,
    (rows.length : ℤ) ≤ NArray →
    (∀ t, rowLoop n m check NArray ls x v rows = .ok t ↔
      ((rows.length + ls.length : ℕ) : ℤ) = NArray ∧ (∀ r ∈ scanRows n m ls x v, check r.1 = true) ∧
      t = rows ++ scanRows n m ls x v) ∧
    (rowLoop n m check NArray ls x v rows = .ub ↔
      NArray < ((rows.length + ls.length : ℕ) : ℤ) ∧
      ∀ r ∈ (scanRows n m ls x v).take (NArray.toNat - rows.length), check r.1 = true) ∧
    rowLoop n m check NArray ls x v rows ≠ .hang := by
  intro ls
  induction ls with
  | nil =>
    intro x v rows h
    unfold rowLoop
    refine ⟨fun t => ?_, ?_, ?_⟩
    · split_ifs with c
      · simp only [scanRows, List.length_nil, Nat.add_zero, reduceCtorEq, false_iff]
        rintro ⟨a, _⟩
        exact c a
      · simp only [not_not] at c
        simp only [RdOut.ok.injEq, scanRows, List.length_nil, Nat.add_zero, List.append_nil]
        constructor
        · rintro rfl; exact ⟨c, by simp, rfl⟩
        · rintro ⟨_, _, rfl⟩; rfl
    · have : ¬ NArray < ((rows.length + ([] : List DLine).length : ℕ) : ℤ) := by
        simp only [List.length_nil, Nat.add_zero]; omega
      split_ifs <;> simp only [false_iff] <;> tauto
    · split_ifs <;> simp
  | cons l ls ih =>
    intro x v rows h
    unfold rowLoop
    dsimp only
    by_cases h1 : (rows.length : ℤ) ≥ NArray
    · rw [if_pos h1]
      refine ⟨fun t => ?_, ?_, by simp⟩
      · simp only [reduceCtorEq, false_iff]
        rintro ⟨a, _⟩
        simp only [List.length_cons] at a
        omega
      · simp only [true_iff]
        refine ⟨by simp only [List.length_cons]; omega, ?_⟩
        rw [show NArray.toNat - rows.length = 0 by omega]
        simp
    · rw [if_neg h1]
      by_cases h2 : check (scanI n x l) = false
      · rw [if_pos h2]
        refine ⟨fun t => ?_, ?_, by simp⟩
        · simp only [reduceCtorEq, false_iff]
          rintro ⟨_, a, _⟩
          have := a _ (List.mem_cons_self ..)
          dsimp only at this
          rw [h2] at this
          cases this
        · simp only [reduceCtorEq, false_iff]
          rintro ⟨_, a⟩
          rw [show NArray.toNat - rows.length = (NArray.toNat - rows.length - 1) + 1 by omega,
            scanRows, List.take_succ_cons] at a
          have := a _ (List.mem_cons_self ..)
          dsimp only at this
          rw [h2] at this
          cases this
      · rw [if_neg h2]
        have h3 : check (scanI n x l) = true := by simpa using h2
        obtain ⟨i1, i2, i3⟩ := ih (scanI n x l) (scanV n m v l)
          (rows ++ [(scanI n x l, scanV n m v l)]) (by
            rw [List.length_append, List.length_singleton]; omega)
        have e : (rows ++ [(scanI n x l, scanV n m v l)]).length + ls.length
            = rows.length + (l :: ls).length := by
          simp only [List.length_append, List.length_cons, List.length_nil]; omega
        rw [e] at i1 i2
        refine ⟨fun t => ?_, ?_, i3⟩
        · rw [i1 t]
          simp only [scanRows, List.mem_cons, forall_eq_or_imp, List.append_assoc,
            List.singleton_append, h3, true_and]
        · rw [i2, scanRows, show NArray.toNat - rows.length = (NArray.toNat -
            (rows ++ [(scanI n x l, scanV n m v l)]).length) + 1 by
              simp only [List.length_append, List.length_cons, List.length_nil]; omega,
            List.take_succ_cons]
          simp only [List.mem_cons, forall_eq_or_imp, h3, true_and]

/-- Outcome of a row reader on any file. -/
theorem rowReader_spec (n m : ℕ) (check : List ℤ → Bool) {NArray : ℤ} (h : 0 < NArray) (ls : List DLine) :
    (∀ t, rowReader n m check NArray ls = .ok t ↔ (ls.length : ℤ) = NArray ∧
      (∀ r ∈ t, check r.1 = true) ∧
      t = scanRows n m ls (List.replicate n 0) (List.replicate m 0)) ∧
    (rowReader n m check NArray ls = .ub ↔ NArray < ls.length ∧
      ∀ r ∈ (scanRows n m ls (List.replicate n 0) (List.replicate m 0)).take NArray.toNat,
        check r.1 = true) ∧
    rowReader n m check NArray ls ≠ .hang := by
  unfold rowReader
  rw [if_neg (by omega)]
  obtain ⟨h1, h2, h3⟩ := rowLoop_spec n m check NArray ls (List.replicate n 0) (List.replicate m 0) []
    (by simpa using h.le)
  simp only [List.length_nil, Nat.zero_add, List.nil_append, Nat.sub_zero] at h1 h2
  refine ⟨fun t => ?_, h2, h3⟩
  rw [h1 t]
  constructor
  · rintro ⟨a, b, rfl⟩; exact ⟨a, b, rfl⟩
  · rintro ⟨a, b, rfl⟩; exact ⟨a, b, rfl⟩

theorem rowReader_nonpos (n m : ℕ) (check : List ℤ → Bool) {NArray : ℤ} (h : NArray ≤ 0) (ls : List DLine)
    (t : List (List ℤ × List ℚ)) : rowReader n m check NArray ls = .ok t ↔ NArray = 0 ∧ t = [] := by
  unfold rowReader
  by_cases c : NArray = 0
  · rw [if_pos c]
    simp only [RdOut.ok.injEq, c, true_and]
    exact eq_comm
  · rw [if_neg c]
    simp only [c, false_and, iff_false]
    cases ls with
    | nil =>
      unfold rowLoop
      rw [if_pos (by simp; omega)]
      simp
    | cons l ls =>
      unfold rowLoop
      dsimp only
      rw [if_pos (by simp; omega)]
      simp

end MVMC
