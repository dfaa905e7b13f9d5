import Verif.Proof.SRMat
import Mathlib.Tactic.Ring

/-! # Selection and update of parameters; block-cyclic distribution -/
namespace MVMC
open Finset

/-! ### selection -/

theorem foldl_filter {β : Type} (p : β → Prop) [DecidablePred p] (q : β → Prop) [DecidablePred q] : ∀ (l acc : List β),
    l.foldl (fun l x => if ¬ p x then l else if q x then l else l ++ [x]) acc = acc ++ l.filter (fun x => p x ∧ ¬ q x)
  | [], acc => by simp
  | x :: l, acc => by
    rw [List.foldl_cons, foldl_filter p q l]
    by_cases hp : p x <;> by_cases hq : q x <;> simp [hp, hq]

theorem smatToPara_eq (m : Nat) (flag : Nat → Int) (sd : Nat → ℝ) (redCut : ℝ) :
    smatToPara m flag sd redCut = (List.range m).filter (fun pi => flag pi = 1 ∧ ¬ sd pi < sDiagMax m sd * redCut) := by
  unfold smatToPara
  rw [foldl_filter (fun pi => flag pi = 1) (fun pi => sd pi < sDiagMax m sd * redCut), List.nil_append]

theorem foldl_max (sd : Nat → ℝ) : ∀ (l : List Nat) (a : ℝ),
    a ≤ l.foldl (fun mx pi => if sd pi > mx then sd pi else mx) a ∧ (∀ x ∈ l, sd x ≤ l.foldl (fun mx pi => if sd pi > mx then sd pi else mx) a) ∧
    (l.foldl (fun mx pi => if sd pi > mx then sd pi else mx) a = a ∨ ∃ x ∈ l, l.foldl (fun mx pi => if sd pi > mx then sd pi else mx) a = sd x)
  | [], a => by simp
  | x :: l, a => by
    obtain ⟨h1, h2, h3⟩ := foldl_max sd l (if sd x > a then sd x else a)
    rw [List.foldl_cons]
    have e1 : a ≤ (if sd x > a then sd x else a) := by split_ifs with h <;> linarith
    have e2 : sd x ≤ (if sd x > a then sd x else a) := by
      split_ifs with h
      · exact le_rfl
      · exact not_lt.mp h
    refine ⟨e1.trans h1, ?_, ?_⟩
    · intro y hy
      rcases List.mem_cons.mp hy with rfl | hy
      · exact e2.trans h1
      · exact h2 y hy
    · rcases h3 with h3 | ⟨y, hy, h3⟩
      · by_cases h : sd x > a
        · rw [if_pos h] at h3 ⊢
          exact .inr ⟨x, List.mem_cons_self, h3⟩
        · rw [if_neg h] at h3 ⊢
          exact .inl h3
      · exact .inr ⟨y, List.mem_cons_of_mem _ hy, h3⟩

theorem sDiagMax_max (m : Nat) (sd : Nat → ℝ) (hm : 0 < m) :
    (∀ pi, pi < m → sd pi ≤ sDiagMax m sd) ∧ ∃ pi, pi < m ∧ sDiagMax m sd = sd pi := by
  obtain ⟨_, h2, h3⟩ := foldl_max sd (List.range m) (sd 0)
  refine ⟨fun pi h => h2 pi (List.mem_range.mpr h), ?_⟩
  rcases h3 with h | ⟨x, hx, h⟩
  · exact ⟨0, hm, h⟩
  · exact ⟨x, List.mem_range.mp hx, h⟩

/-! ### update -/

/-- a sum over the selected entries with their positions -/
theorem sum_selected {M : Type} [AddCommMonoid M] (p : Nat → Bool) (f : Nat → Nat → M) : ∀ m,
    ((List.range ((List.range m).filter p).length).map fun si => f (((List.range m).filter p).getD si 0) si).sum =
      ∑ pi ∈ range m, if p pi then f pi ((List.range pi).filter p).length else 0
  | 0 => by simp
  | m + 1 => by
    rw [sum_range_succ, ← sum_selected p f m, List.range_succ, List.filter_append]
    by_cases h : p m
    · have e : [m].filter p = [m] := by simp [h]
      rw [e, List.length_append, List.length_singleton, List.range_succ, List.map_append, List.sum_append, if_pos h]
      congr 1
      · congr 1
        refine List.map_congr_left (fun si hsi => ?_)
        rw [List.getD_eq_getElem?_getD, List.getD_eq_getElem?_getD, List.getElem?_append_left (List.mem_range.mp hsi)]
      · simp [List.getD_eq_getElem?_getD]
    · have e : [m].filter p = [] := by simp [h]
      rw [e, List.append_nil, if_neg h, add_zero]

theorem updateAdds_val (p : Nat → Bool) (m : Nat) (r : Nat → ℝ) (para : Nat → ℂ) (k : Nat) :
    runAdds ((List.range ((List.range m).filter p).length).map (paraAdd r ((List.range m).filter p))) para k =
      para k + (if 2 * k < m ∧ p (2 * k) then (r ((List.range (2 * k)).filter p).length : ℂ) else 0)
        + (if 2 * k + 1 < m ∧ p (2 * k + 1) then (r ((List.range (2 * k + 1)).filter p).length : ℂ) * Complex.I else 0) := by
  rw [runAdds_eq, List.map_map]
  have := sum_selected p (fun pi si => if (if pi % 2 = 0 then (pi / 2, (r si : ℂ)) else ((pi - 1) / 2, (r si : ℂ) * Complex.I)).1 = k
    then (if pi % 2 = 0 then (pi / 2, (r si : ℂ)) else ((pi - 1) / 2, (r si : ℂ) * Complex.I)).2 else 0) m
  rw [show ((fun e : ℕ × ℂ => if e.1 = k then e.2 else 0) ∘ paraAdd r ((List.range m).filter p)) =
    fun si => (fun pi si => if (if pi % 2 = 0 then (pi / 2, (r si : ℂ)) else ((pi - 1) / 2, (r si : ℂ) * Complex.I)).1 = k
    then (if pi % 2 = 0 then (pi / 2, (r si : ℂ)) else ((pi - 1) / 2, (r si : ℂ) * Complex.I)).2 else 0) (((List.range m).filter p).getD si 0) si from rfl, this,
    add_assoc]
  congr 1
  have e : ∀ pi ∈ range m, (if p pi then (fun pi si => if (if pi % 2 = 0 then (pi / 2, (r si : ℂ)) else ((pi - 1) / 2, (r si : ℂ) * Complex.I)).1 = k
      then (if pi % 2 = 0 then (pi / 2, (r si : ℂ)) else ((pi - 1) / 2, (r si : ℂ) * Complex.I)).2 else 0) pi ((List.range pi).filter p).length else 0) =
      (if pi = 2 * k then (if p (2 * k) then (r ((List.range (2 * k)).filter p).length : ℂ) else 0) else 0) +
      (if pi = 2 * k + 1 then (if p (2 * k + 1) then (r ((List.range (2 * k + 1)).filter p).length : ℂ) * Complex.I else 0) else 0) := by
    intro pi _
    by_cases h1 : pi = 2 * k
    · subst h1
      rw [if_pos (rfl : 2 * k = 2 * k), if_neg (by omega : ¬ 2 * k = 2 * k + 1), add_zero]
      beta_reduce
      rw [if_pos (by omega : 2 * k % 2 = 0), if_pos (by omega : 2 * k / 2 = k)]
    · rw [if_neg h1, zero_add]
      by_cases h2 : pi = 2 * k + 1
      · subst h2
        rw [if_pos (rfl : 2 * k + 1 = 2 * k + 1)]
        beta_reduce
        rw [if_neg (by omega : ¬ (2 * k + 1) % 2 = 0), if_pos (by omega : (2 * k + 1 - 1) / 2 = k)]
      · rw [if_neg h2]
        by_cases h3 : pi % 2 = 0
        · simp only [if_pos h3]
          rw [if_neg (by omega : ¬ pi / 2 = k), ite_self]
        · simp only [if_neg h3]
          rw [if_neg (by omega : ¬ (pi - 1) / 2 = k), ite_self]
  rw [sum_congr rfl e, sum_add_distrib, sum_ite_eq', sum_ite_eq']
  simp only [mem_range]
  congr 1
  · by_cases h : 2 * k < m <;> simp [h]
  · by_cases h : 2 * k + 1 < m <;> simp [h]

/-! ### the parallel update -/

theorem updEv_other (add : Nat → Nat × ℂ) (m : Nat) (hinj : ∀ a b, a < m → b < m → (add a).1 = (add b).1 → a = b) {si : Nat} (hsi : si < m)
    (e : UpdEv) (he : e.iter < m) (st st' : (Nat → ℂ) × (Nat → ℂ)) (h1 : st.1 (add si).1 = st'.1 (add si).1) (h2 : st.2 si = st'.2 si) :
    (if e.iter = si then (updEv add st e).1 (add si).1 = (updEv add st' e).1 (add si).1 ∧ (updEv add st e).2 si = (updEv add st' e).2 si
     else (updEv add st e).1 (add si).1 = st'.1 (add si).1 ∧ (updEv add st e).2 si = st'.2 si) := by
  split_ifs with h
  · cases e with
    | load a =>
      have h : a = si := h
      subst h
      simp [updEv, h1]
    | store a =>
      have h : a = si := h
      subst h
      simp [updEv, h2]
  · cases e with
    | load a =>
      have h : a ≠ si := h
      refine ⟨h1, ?_⟩
      show (if si = a then _ else _) = _
      rw [if_neg (fun q => h q.symm), h2]
    | store a =>
      have h : a ≠ si := h
      refine ⟨?_, h2⟩
      show (if (add si).1 = (add a).1 then _ else _) = _
      rw [if_neg (fun q => h (hinj si a hsi he q).symm), h1]

theorem updEv_fold (add : Nat → Nat × ℂ) (m : Nat) (hinj : ∀ a b, a < m → b < m → (add a).1 = (add b).1 → a = b) {si : Nat} (hsi : si < m) :
    ∀ (evs : List UpdEv), (∀ e ∈ evs, e.iter < m) → ∀ (st st' : (Nat → ℂ) × (Nat → ℂ)), st.1 (add si).1 = st'.1 (add si).1 → st.2 si = st'.2 si →
    (evs.foldl (updEv add) st).1 (add si).1 = ((evs.filter (·.iter = si)).foldl (updEv add) st').1 (add si).1
  | [], _, st, st', h1, _ => h1
  | e :: evs, he, st, st', h1, h2 => by
    have := updEv_other add m hinj hsi e (he e List.mem_cons_self) st st' h1 h2
    rw [List.foldl_cons]
    by_cases h : e.iter = si
    · rw [if_pos h] at this
      rw [List.filter_cons_of_pos (by simpa using h), List.foldl_cons]
      exact updEv_fold add m hinj hsi evs (fun e' h' => he e' (List.mem_cons_of_mem _ h')) _ _ this.1 this.2
    · rw [if_neg h] at this
      rw [List.filter_cons_of_neg (by simpa using h)]
      exact updEv_fold add m hinj hsi evs (fun e' h' => he e' (List.mem_cons_of_mem _ h')) _ _ this.1 this.2

/-- if no two iterations share a parameter, every execution adds every increment once -/
theorem updatePar_safe (add : Nat → Nat × ℂ) (m : Nat) (hinj : ∀ a b, a < m → b < m → (add a).1 = (add b).1 → a = b) (evs : List UpdEv)
    (hr : UpdRun m evs) (tmp para : Nat → ℂ) {si : Nat} (hsi : si < m) : updatePar add evs tmp para (add si).1 = para (add si).1 + (add si).2 := by
  unfold updatePar
  rw [updEv_fold add m hinj hsi evs hr.1 (para, tmp) (para, tmp) rfl rfl, hr.2 si hsi]
  simp [updEv]

theorem updatePar_untouched (add : Nat → Nat × ℂ) (m : Nat) {k : Nat} (hk : ∀ a, a < m → (add a).1 ≠ k) : ∀ (evs : List UpdEv),
    (∀ e ∈ evs, e.iter < m) → ∀ (st : (Nat → ℂ) × (Nat → ℂ)), (evs.foldl (updEv add) st).1 k = st.1 k
  | [], _, _ => rfl
  | e :: evs, he, st => by
    rw [List.foldl_cons, updatePar_untouched add m hk evs (fun e' h' => he e' (List.mem_cons_of_mem _ h'))]
    have := he e List.mem_cons_self
    cases e with
    | load a => rfl
    | store a =>
      show (if k = (add a).1 then _ else _) = _
      rw [if_neg (fun q => hk a this q.symm)]

/-! ### block-cyclic distribution -/

theorem lex_lt {m a b t u : Nat} (ht : t < m) (hu : u < m) : a * m + t < b * m + u ↔ a < b ∨ (a = b ∧ t < u) := by
  constructor
  · intro h
    rcases Nat.lt_trichotomy a b with q | q | q
    · exact .inl q
    · subst q; exact .inr ⟨rfl, by omega⟩
    · have : (b + 1) * m ≤ a * m := Nat.mul_le_mul_right _ q
      rw [Nat.add_mul] at this
      omega
  · rintro (q | ⟨rfl, q⟩)
    · have : (a + 1) * m ≤ b * m := Nat.mul_le_mul_right _ q
      rw [Nat.add_mul] at this
      omega
    · omega

theorem globalIdx_eq (mb nprow p ir : Nat) : globalIdx mb nprow p ir = (ir / mb * nprow + p) * mb + ir % mb := by
  unfold globalIdx
  ring

/-- the local indices are exactly those whose global index exists -/
theorem numroc_iff {n mb nprow p ir : Nat} (hmb : 0 < mb) (hp : p < nprow) : ir < numroc n mb p nprow ↔ globalIdx mb nprow p ir < n := by
  have hnp : 0 < nprow := by omega
  rw [globalIdx_eq]
  have en : n = n / mb * mb + n % mb := by rw [Nat.mul_comm]; exact (Nat.div_add_mod n mb).symm
  have eN : n / mb = n / mb / nprow * nprow + n / mb % nprow := by rw [Nat.mul_comm]; exact (Nat.div_add_mod _ nprow).symm
  have eir : ir = ir / mb * mb + ir % mb := by rw [Nat.mul_comm]; exact (Nat.div_add_mod ir mb).symm
  have hu : n % mb < mb := Nat.mod_lt _ hmb
  have ht : ir % mb < mb := Nat.mod_lt _ hmb
  have hE : n / mb % nprow < nprow := Nat.mod_lt _ hnp
  have r : ((ir / mb * nprow + p) * mb + ir % mb < n) ↔ (ir / mb * nprow + p < n / mb ∨ (ir / mb * nprow + p = n / mb ∧ ir % mb < n % mb)) := by
    conv_lhs => rw [en]
    exact lex_lt ht hu
  have r1 : ir / mb * nprow + p < n / mb ↔ (ir / mb < n / mb / nprow ∨ (ir / mb = n / mb / nprow ∧ p < n / mb % nprow)) := by
    conv_lhs => rw [eN]
    exact lex_lt hp hE
  have r2 : ir / mb * nprow + p = n / mb ↔ (ir / mb = n / mb / nprow ∧ p = n / mb % nprow) := by
    conv_lhs => rw [eN]
    exact flat2_iff hp hE
  rw [r, r1, r2]
  have hl : ∀ b u, u < mb → (ir < b * mb + u ↔ (ir / mb < b ∨ (ir / mb = b ∧ ir % mb < u))) := by
    intro b u hu
    conv_lhs => rw [eir]
    exact lex_lt ht hu
  unfold numroc
  simp only []
  split_ifs with h1 h2
  · rw [show n / mb / nprow * mb + mb = (n / mb / nprow + 1) * mb + 0 by ring, hl _ 0 hmb]
    omega
  · rw [hl _ _ hu]
    omega
  · rw [show n / mb / nprow * mb = n / mb / nprow * mb + 0 by ring, hl _ 0 hmb]
    omega

/-- owner and local index of a global index -/
theorem globalIdx_inv {mb nprow p ir gi : Nat} (hmb : 0 < mb) (hp : p < nprow) :
    globalIdx mb nprow p ir = gi ↔ (p = gi / mb % nprow ∧ ir = gi / mb / nprow * mb + gi % mb) := by
  have hnp : 0 < nprow := by omega
  rw [globalIdx_eq]
  have eg : gi = gi / mb * mb + gi % mb := by rw [Nat.mul_comm]; exact (Nat.div_add_mod gi mb).symm
  have eN : gi / mb = gi / mb / nprow * nprow + gi / mb % nprow := by rw [Nat.mul_comm]; exact (Nat.div_add_mod _ nprow).symm
  have eir : ir = ir / mb * mb + ir % mb := by rw [Nat.mul_comm]; exact (Nat.div_add_mod ir mb).symm
  have r : ((ir / mb * nprow + p) * mb + ir % mb = gi) ↔ (ir / mb * nprow + p = gi / mb ∧ ir % mb = gi % mb) := by
    conv_lhs => rw [eg]
    exact flat2_iff (Nat.mod_lt _ hmb) (Nat.mod_lt _ hmb)
  have r2 : ir / mb * nprow + p = gi / mb ↔ (ir / mb = gi / mb / nprow ∧ p = gi / mb % nprow) := by
    conv_lhs => rw [eN]
    exact flat2_iff hp (Nat.mod_lt _ hnp)
  have r3 : ir = gi / mb / nprow * mb + gi % mb ↔ (ir / mb = gi / mb / nprow ∧ ir % mb = gi % mb) := by
    conv_lhs => rw [eir]
    exact flat2_iff (Nat.mod_lt _ hmb) (Nat.mod_lt _ hmb)
  rw [r, r2, r3]
  tauto

theorem gatherLocal_val {n mb nprow p : Nat} (hmb : 0 < mb) (hp : p < nprow) (g : Nat → ℝ) {si : Nat} (hsi : si < n) :
    gatherLocal n mb nprow p g si = if si / mb % nprow = p then g (si / mb / nprow * mb + si % mb) else 0 := by
  unfold gatherLocal
  split_ifs with h
  · have hg : globalIdx mb nprow p (si / mb / nprow * mb + si % mb) = si := (globalIdx_inv hmb hp).mpr ⟨h.symm, rfl⟩
    refine runStores_mem _ _ ?_ (si, g (si / mb / nprow * mb + si % mb)) ?_
    · intro e he e' he' q
      simp only [List.mem_map, List.mem_range] at he he'
      obtain ⟨a, ha, rfl⟩ := he
      obtain ⟨b, hb, rfl⟩ := he'
      have qa : globalIdx mb nprow p a = globalIdx mb nprow p b := q
      rw [((globalIdx_inv hmb hp).mp qa).2, ← ((globalIdx_inv hmb hp).mp (rfl : globalIdx mb nprow p b = _)).2]
    · simp only [List.mem_map, List.mem_range]
      exact ⟨si / mb / nprow * mb + si % mb, by rw [numroc_iff hmb hp, hg]; exact hsi, by rw [hg]⟩
  · rw [runStores_notin]
    intro e he
    simp only [List.mem_map, List.mem_range] at he
    obtain ⟨a, ha, rfl⟩ := he
    intro q
    exact h ((globalIdx_inv hmb hp).mp q).1.symm

end MVMC
