import Verif.Model.LsOut
import Verif.Props.GreenIdx

/-! # The lines of the Lanczos step: proofs -/
namespace MVMC

/-- every operator in the table stands at its number -/
def AtNumber (Ns : ℕ) (toIdx : ℤ × ℤ → ℤ) (t : GTab) : Prop := ∀ (k : ℕ) o, t k = some o → ∃ p, gcell Ns o = some p ∧ toIdx p = k

theorem putOp_at {Ns : ℕ} {NC : ℤ} {toIdx : ℤ × ℤ → ℤ} {o : GOp} {t t' : GTab} {k : ℤ} (h : AtNumber Ns toIdx t) (e : putOp Ns NC toIdx o t = some (k, t')) :
    AtNumber Ns toIdx t' := by
  unfold putOp at e
  split at e
  · cases e
  · rename_i p hp
    split at e
    · cases e
    · rename_i hb
      simp only [Option.some.injEq, Prod.mk.injEq] at e
      intro j q hj
      rw [← e.2] at hj
      simp only at hj
      by_cases hjk : j = (toIdx p).toNat
      · rw [if_pos hjk, Option.some.injEq] at hj
        subst hj
        exact ⟨p, hp, by omega⟩
      · rw [if_neg hjk] at hj
        exact h j q hj

theorem oneBodyLoop_at {Ns : ℕ} {NC : ℤ} {toIdx : ℤ × ℤ → ℤ} : ∀ (rows : List (List ℤ)) (t t' : GTab), AtNumber Ns toIdx t →
    oneBodyLoop Ns NC toIdx rows t = .ok t' → AtNumber Ns toIdx t'
  | [], t, t', h, e => by
    unfold oneBodyLoop at e
    injection e with e
    rw [← e]
    exact h
  | x :: rows, t, t', h, e => by
    unfold oneBodyLoop at e
    split at e
    · cases e
    · rename_i k t1 hp
      split at e
      · cases e
      · exact oneBodyLoop_at rows t1 t' (putOp_at h hp) e

theorem twoBodyExLoop_at {Ns : ℕ} {NC N2 : ℤ} {toIdx : ℤ × ℤ → ℤ} : ∀ (rows : List (List ℤ)) (idx : ℕ) (t t' : GTab) (c c' : ℕ → Option (ℤ × ℤ)), AtNumber Ns toIdx t →
    twoBodyExLoop Ns NC N2 toIdx rows idx t c = .ok (t', c') → AtNumber Ns toIdx t'
  | [], idx, t, t', c, c', h, e => by
    unfold twoBodyExLoop at e
    split at e
    · cases e
    · injection e with e
      rw [Prod.mk.injEq] at e
      rw [← e.1]
      exact h
  | x :: rows, idx, t, t', c, c', h, e => by
    unfold twoBodyExLoop at e
    split at e
    · cases e
    · rename_i k1 t1 hp1
      split at e
      · cases e
      · split at e
        · cases e
        · rename_i k2 t2 hp2
          simp only at e
          split at e
          · cases e
          · exact twoBodyExLoop_at rows (idx + 1) t2 t' _ c' (putOp_at (putOp_at h hp1) hp2) e

/-- the two passes agree when two-body functions are requested -/
theorem greenTables_at {Ns : ℕ} {L N1 N2 : ℤ} {l1 l2 : List DLine} {toIdx : ℤ × ℤ → ℤ} {n n' : ℤ} {t : GTab} {c : ℕ → Option (ℤ × ℤ)} (hN : 0 < N2)
    (hc : countOneBodyG Ns N1 N2 l1 l2 = .ok (toIdx, n')) (ht : greenTables Ns L N1 N2 l1 l2 = .ok (n, t, c)) : n' = n ∧ AtNumber Ns toIdx t := by
  unfold greenTables at ht
  rw [if_pos (Or.inl hN), hc] at ht
  simp only at ht
  rw [if_pos hN] at ht
  have h0 : AtNumber Ns toIdx (fun _ => none) := fun k o h => by cases h
  split at ht
  · cases ht
  · cases ht
  · cases ht
  · rename_i t1 h1
    have h1' : AtNumber Ns toIdx t1 := by
      split at h1
      · injection h1 with h1
        rw [← h1]
        exact h0
      · exact oneBodyLoop_at _ _ _ h0 h1
    split at ht
    · cases ht
    · cases ht
    · cases ht
    · rename_i t2 c2 h2
      injection ht with ht
      simp only [Prod.mk.injEq] at ht
      refine ⟨ht.1, ?_⟩
      rw [← ht.2.1]
      exact twoBodyExLoop_at _ _ _ _ _ _ h1' h2

theorem greenTables_count {Ns : ℕ} {L N1 N2 : ℤ} {l1 l2 : List DLine} {n : ℤ} {t : GTab} {c : ℕ → Option (ℤ × ℤ)} (hN : 0 < N2)
    (ht : greenTables Ns L N1 N2 l1 l2 = .ok (n, t, c)) : ∃ toIdx, countOneBodyG Ns N1 N2 l1 l2 = .ok (toIdx, n) := by
  cases e : countOneBodyG Ns N1 N2 l1 l2 with
  | ok r => exact ⟨r.1, by rw [← (greenTables_at (toIdx := r.1) (n' := r.2) hN e ht).1]⟩
  | err => simp [greenTables, hN, e] at ht
  | ub => simp [greenTables, hN, e] at ht
  | hang => simp [greenTables, hN, e] at ht

/-- operators that differ are numbered in their order -/
theorem assignAll_order (Ns : ℕ) : ∀ (os : List GOp) (st : (ℤ × ℤ → ℤ) × ℕ), (∀ o ∈ os, GoodOp Ns o) → os.Nodup →
    (∀ o ∈ os, ∀ p, gcell Ns o = some p → st.1 p = -1) →
    ∃ st', assignAll Ns os st = .ok st' ∧ st'.2 = st.2 + os.length ∧
      (∀ p, (∀ o ∈ os, gcell Ns o ≠ some p) → st'.1 p = st.1 p) ∧
      ∀ (k : ℕ) o, os[k]? = some o → ∃ p, gcell Ns o = some p ∧ st'.1 p = st.2 + k
  | [], st, _, _, _ => ⟨st, rfl, by simp, fun _ _ => rfl, fun k o h => by simp at h⟩
  | o :: os, st, hg, hn, hf => by
    obtain ⟨p, hp⟩ : ∃ p, gcell Ns o = some p := ⟨_, gcell_good (hg o (by simp))⟩
    rw [List.nodup_cons] at hn
    have hne : ∀ q ∈ os, gcell Ns q ≠ some p := fun q hq e => hn.1 (by
      rw [gcell_inj (hg o (by simp)) (hg q (by simp [hq])) (hp.trans e.symm)]
      exact hq)
    obtain ⟨st', h1, h2, h3, h4⟩ := assignAll_order Ns os (fun q => if q = p then (st.2 : ℤ) else st.1 q, st.2 + 1) (fun q hq => hg q (by simp [hq])) hn.2 (by
      intro q hq r hr
      have : r ≠ p := fun e => hne q hq (by rw [hr, e])
      simp only
      rw [if_neg this]
      exact hf q (by simp [hq]) r hr)
    refine ⟨st', ?_, ?_, ?_, ?_⟩
    · have ea : assignIdx Ns o st = .ok (fun q => if q = p then (st.2 : ℤ) else st.1 q, st.2 + 1) := by
        unfold assignIdx
        rw [hp]
        simp only
        rw [if_pos (hf o (by simp) p hp)]
      unfold assignAll
      rw [ea]
      exact h1
    · rw [h2, List.length_cons]
      simp only
      omega
    · intro r hr
      have : r ≠ p := fun e => hr o (by simp) (by rw [hp, e])
      rw [h3 r (fun q hq => hr q (by simp [hq]))]
      simp only
      rw [if_neg this]
    · intro k q hk
      cases k with
      | zero =>
        rw [List.getElem?_cons_zero, Option.some.injEq] at hk
        subst hk
        refine ⟨p, hp, ?_⟩
        rw [h3 p hne]
        simp
      | succ k =>
        rw [List.getElem?_cons_succ] at hk
        obtain ⟨r, hr, e⟩ := h4 k q hk
        refine ⟨r, hr, ?_⟩
        rw [e]
        push_cast
        ring

theorem mapM_rows {β : Type} (f : ℕ → Option β) (g : ℕ → β) : ∀ l : List ℕ, (∀ i ∈ l, f i = some (g i)) → l.mapM f = some (l.map g)
  | [], _ => rfl
  | i :: l, h => by
    rw [List.mapM_cons, h i (by simp), mapM_rows f g l (fun j hj => h j (by simp [hj]))]
    rfl

/-- the lines when every operator stands at its number -/
theorem lsRows_at {α : Type} {Ns n : ℕ} {toIdx : ℤ × ℤ → ℤ} {t : GTab} (h : AtNumber Ns toIdx t) (hw : ∀ k < n, ∃ o, t k = some o) (val : ℕ → α) :
    ∃ rows, lsRows Ns n toIdx t val = some rows ∧ rows.length = n ∧ ∀ (k : ℕ) o, k < n → t k = some o → rows[k]? = some (o, val k) := by
  refine ⟨(List.range n).map fun i => ((t i).getD (0, 0, 0, 0), val i), mapM_rows _ _ _ fun i hi => ?_, by simp, ?_⟩
  · have hi := List.mem_range.1 hi
    obtain ⟨o, ho⟩ := hw i hi
    obtain ⟨p, hp, e⟩ := h i o ho
    unfold lsRow
    rw [ho]
    simp only
    rw [hp]
    simp only
    rw [e, if_neg (by omega), Int.toNat_natCast, ho]
    rfl
  · intro k o hk ho
    rw [List.getElem?_map, List.getElem?_range hk, Option.map_some, ho]
    rfl

end MVMC
