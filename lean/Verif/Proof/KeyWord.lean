import Verif.Model.KeyWord
import Mathlib.Data.List.GetD
import Mathlib.Tactic.Push
import Mathlib.Tactic.NormNum

/-! # Lemmas on keywords -/

namespace MVMC

/-- A word that fits C: no NUL character. -/
def NulFree (w : Word) : Prop := ∀ c ∈ w, c ≠ '\x00'

instance (w : Word) : Decidable (NulFree w) := by unfold NulFree; infer_instance

/-- The word in lower case. -/
def lowerW (w : Word) : Word := w.map Char.toLower

theorem toLower_ne_nul {c : Char} (h : c ≠ '\x00') : c.toLower ≠ '\x00' := by
  unfold Char.toLower
  split
  · rename_i hc
    intro e
    have := congrArg (fun c : Char => c.val) e
    dsimp only at this
    have h1 : c.val.toNat ≥ 65 := hc.1
    have h2 : c.val.toNat ≤ 90 := hc.2
    have h3 := congrArg UInt32.toNat this
    rw [UInt32.toNat_add] at h3
    have h4 : ('\x00' : Char).val.toNat = 0 := rfl
    rw [h4] at h3
    have h5 : (('a'.val - 'A'.val : UInt32)).toNat = 32 := by decide
    rw [h5] at h3
    omega
  · exact h

theorem lowerW_nulFree {w : Word} (h : NulFree w) : NulFree (lowerW w) := by
  intro c hc
  obtain ⟨d, hd, rfl⟩ := List.mem_map.1 hc
  exact toLower_ne_nul (h d hd)

theorem cbuf_nul {w : Word} (h : NulFree w) {i : Nat} : cbuf w i = '\x00' ↔ w.length ≤ i := by
  unfold cbuf
  constructor
  · intro e
    by_contra c
    push Not at c
    rw [List.getD_eq_getElem _ _ c] at e
    exact h _ (List.getElem_mem c) e
  · intro c
    rw [List.getD_eq_default _ _ c]

theorem strncmp_zero {a b : Word} (ha : NulFree a) (hb : NulFree b) (n : Nat) :
    ∀ i, a.length ≤ i + n → b.length ≤ i + n →
      (strncmp (cbuf a) (cbuf b) n i = 0 ↔ a.drop i = b.drop i) := by
  induction n with
  | zero =>
    intro i h1 h2
    rw [List.drop_eq_nil_of_le (by omega), List.drop_eq_nil_of_le (by omega)]
    exact ⟨fun _ => rfl, fun _ => rfl⟩
  | succ n ih =>
    intro i h1 h2
    unfold strncmp
    by_cases hne : cbuf a i = cbuf b i
    · rw [if_neg (by simpa using hne)]
      by_cases hn : cbuf a i = '\x00'
      · rw [if_pos hn]
        have k1 := (cbuf_nul ha).1 hn
        have k2 := (cbuf_nul hb).1 (hne ▸ hn)
        rw [List.drop_eq_nil_of_le k1, List.drop_eq_nil_of_le k2]
        exact ⟨fun _ => rfl, fun _ => rfl⟩
      · rw [if_neg hn, ih (i + 1) (by omega) (by omega)]
        have k1 : i < a.length := by
          by_contra c; exact hn ((cbuf_nul ha).2 (by omega))
        have k2 : i < b.length := by
          by_contra c; exact hn (hne.trans ((cbuf_nul hb).2 (by omega)))
        rw [List.drop_eq_getElem_cons k1, List.drop_eq_getElem_cons k2]
        have e : a[i] = b[i] := by
          unfold cbuf at hne
          rwa [List.getD_eq_getElem _ _ k1, List.getD_eq_getElem _ _ k2] at hne
        rw [e]
        constructor
        · intro h; rw [h]
        · intro h; exact (List.cons.inj h).2
    · rw [if_pos (by simpa using hne)]
      constructor
      · intro h
        exfalso
        apply hne
        have : (cbuf a i).toNat = (cbuf b i).toNat := by omega
        exact Char.toNat_inj.1 this
      · intro h
        exfalso
        apply hne
        have := congrArg (fun l : Word => l.getD 0 '\x00') h
        simpa [cbuf, List.getD_eq_getElem?_getD, List.getElem?_drop] using this

theorem checkWords_iff {c k : Word} (hc : NulFree c) (hk : NulFree k) (lc : c.length < 257)
    (lk : k.length < 256) :
    ∃ r, checkWords c k = some r ∧ (r = 0 ↔ lowerW c = lowerW k) := by
  unfold checkWords
  rw [if_neg (by omega)]
  refine ⟨_, rfl, ?_⟩
  have := strncmp_zero (lowerW_nulFree hc) (lowerW_nulFree hk)
    (if c.length < k.length then k.length else c.length) 0
    (by rw [lowerW, List.length_map]; split <;> omega)
    (by rw [lowerW, List.length_map]; split <;> omega)
  rw [List.drop_zero, List.drop_zero] at this
  exact this

/-- Words in a keyword list that the code can compare with. -/
def KwOK (ws : List Word) : Prop := ∀ w ∈ ws, NulFree w ∧ w.length < 256

theorem checkKWLoop_none {c : Word} (hc : NulFree c) (lc : c.length < 257) (h0 : c ≠ [])
    (ws : List Word) (hw : KwOK ws) : ∀ b acc, (∀ w ∈ ws, lowerW c ≠ lowerW w) →
    checkKWLoop c ws b acc = some acc := by
  induction ws with
  | nil => intros; rfl
  | cons w ws ih =>
    intro b acc h
    obtain ⟨r, e, hr⟩ := checkWords_iff hc (hw w (by simp)).1 lc (hw w (by simp)).2
    unfold checkKWLoop
    rw [if_neg h0, e]
    dsimp only
    have : r ≠ 0 := fun c => h w (by simp) (hr.1 c)
    rw [if_neg this]
    exact ih (fun x hx => hw x (by simp [hx])) _ _ (fun x hx => h x (by simp [hx]))

theorem checkKWLoop_some {c : Word} (hc : NulFree c) (lc : c.length < 257) (h0 : c ≠ [])
    (ws : List Word) (hw : KwOK ws) : ∀ b acc (j : Nat) (w : Word), ws[j]? = some w →
    lowerW c = lowerW w → (∀ j' w', j < j' → ws[j']? = some w' → lowerW c ≠ lowerW w') →
    checkKWLoop c ws b acc = some (some (b + j)) := by
  induction ws with
  | nil => intro b acc j w h; simp at h
  | cons v ws ih =>
    intro b acc j w hj hl hafter
    obtain ⟨r, e, hr⟩ := checkWords_iff hc (hw v (by simp)).1 lc (hw v (by simp)).2
    unfold checkKWLoop
    rw [if_neg h0, e]
    dsimp only
    have hw' : KwOK ws := fun x hx => hw x (by simp [hx])
    cases j with
    | zero =>
      rw [List.getElem?_cons_zero] at hj
      cases hj
      rw [if_pos (hr.2 hl)]
      rw [checkKWLoop_none hc lc h0 ws hw']
      · rfl
      · intro x hx
        obtain ⟨i, hi⟩ := List.getElem?_of_mem hx
        exact hafter (i + 1) x (by omega) (by rw [List.getElem?_cons_succ]; exact hi)
    | succ j =>
      rw [List.getElem?_cons_succ] at hj
      rw [ih hw' (b + 1) _ j w hj hl]
      · congr 2; omega
      · intro j' w' h1 h2
        exact hafter (j' + 1) w' (by omega) (by rw [List.getElem?_cons_succ]; exact h2)

theorem kwList_ok : KwOK kwList := by
  unfold KwOK kwList
  decide

theorem kwList_nodup : (kwList.map lowerW).Nodup := by
  unfold kwList
  decide

theorem kwList_inj {i j : Nat} {v w : Word} (hi : kwList[i]? = some v) (hj : kwList[j]? = some w)
    (h : lowerW v = lowerW w) : i = j := by
  have h1 : (kwList.map lowerW)[i]? = some (lowerW v) := by rw [List.getElem?_map, hi]; rfl
  have h2 : (kwList.map lowerW)[j]? = some (lowerW w) := by rw [List.getElem?_map, hj]; rfl
  have l1 : i < (kwList.map lowerW).length := by
    rw [List.getElem?_eq_some_iff] at h1; exact h1.1
  exact (List.getElem?_inj l1 kwList_nodup).1 (h1.trans (h ▸ h2.symm))

/-- The keyword `k` of the list is the word `c`, ignoring case. -/
def IsKw (c : Word) (k : Nat) : Prop := ∃ w, kwList[k]? = some w ∧ lowerW c = lowerW w

theorem checkKW_iff {c : Word} (hc : NulFree c) (lc : c.length < 257) (h0 : c ≠ []) :
    ∃ r, checkKW c kwList = some r ∧ ∀ k, r = some k ↔ IsKw c k := by
  unfold checkKW
  by_cases h : ∃ k, IsKw c k
  · obtain ⟨k, w, hk, hl⟩ := h
    refine ⟨some k, ?_, ?_⟩
    · rw [checkKWLoop_some hc lc h0 kwList kwList_ok 0 none k w hk hl]
      · rw [Nat.zero_add]
      · intro j' w' hlt hj' e
        exact absurd (kwList_inj hk hj' (hl.symm.trans e)) (by omega)
    · intro k'
      constructor
      · rintro ⟨⟩; exact ⟨w, hk, hl⟩
      · rintro ⟨w', hk', hl'⟩
        rw [kwList_inj hk hk' (hl.symm.trans hl')]
  · refine ⟨none, ?_, fun k => ⟨fun e => (Option.some_ne_none k e.symm).elim,
      fun e => absurd ⟨k, e⟩ h⟩⟩
    refine checkKWLoop_none hc lc h0 kwList kwList_ok 0 none fun w hw e => h ?_
    obtain ⟨i, hi⟩ := List.getElem?_of_mem hw
    exact ⟨i, w, hi, e⟩

end MVMC
