import Verif.Proof.GreenIdx
import Mathlib.Data.Finset.Card

/-!
# C40: indirect two-body Green functions
-/

namespace MVMC

/-- The operator `c†_{i s} c_{j s'}` at place `k` of a line `… i s j s' …`. -/
def lineOp (l : DLine) (k : ℕ) : GOp :=
  (l.ints.getD k 0, l.ints.getD (k + 1) 0, l.ints.getD (k + 2) 0, l.ints.getD (k + 3) 0)

/-- The adjoint of `c†_a c_b` is `c†_b c_a`. -/
def gAdj (o : GOp) : GOp := (o.2.2.1, o.2.2.2, o.1, o.2.1)

/-- The one-body operators needed: those requested, and for each two-body function
`O₁ O₂` the operators `O₁` and `O₂†`. -/
def neededOps (l1 l2 : List DLine) : List GOp :=
  (l1.map fun l => lineOp l 0) ++ l2.flatMap fun l => [lineOp l 0, gAdj (lineOp l 4)]

theorem gop1_take (l : DLine) {n : ℕ} (h : 4 ≤ n) : gop1 (l.ints.take n) = lineOp l 0 := by
  unfold gop1 lineOp
  simp only [List.getD_eq_getElem?_getD, List.getElem?_take]
  rw [if_pos (by omega), if_pos (by omega), if_pos (by omega), if_pos (by omega)]

theorem gop2_take (l : DLine) : gop2 (l.ints.take 8) = gAdj (lineOp l 4) := by
  unfold gop2 lineOp gAdj
  simp only [List.getD_eq_getElem?_getD, List.getElem?_take]
  rw [if_pos (by omega), if_pos (by omega), if_pos (by omega), if_pos (by omega)]

theorem good_adj {Ns : ℕ} {o : GOp} (h : GoodOp Ns o) : GoodOp Ns (gAdj o) :=
  ⟨h.2.2.1, h.2.2.2, h.1, h.2.1⟩

theorem sscan1 {l1 : List DLine} (h : ∀ l ∈ l1, Full 4 0 l) :
    (sscanRows 4 l1 [0, 0, 0, 0]).map gop1 = l1.map fun l => lineOp l 0 := by
  rw [sscanRows_full (n := 4) l1 _ rfl h, List.map_map]
  exact List.map_congr_left fun l _ => gop1_take l le_rfl

/-- C40: with complete lines whose sites are in the lattice and whose spins are 0 or 1,
the tables are read; the table of one-body operators lists each needed operator exactly
once and nothing else, and the two entries of a two-body function `O₁ O₂` are the places
of `O₁` and `O₂†`. -/
theorem C40_tables_partial (Ns : ℕ) (Lanczos : ℤ) (l1 l2 : List DLine)
    (f1 : ∀ l ∈ l1, Full 4 0 l) (f2 : ∀ l ∈ l2, Full 8 0 l) (hne : l2 ≠ [])
    (g1 : ∀ l ∈ l1, GoodOp Ns (lineOp l 0))
    (g2 : ∀ l ∈ l2, GoodOp Ns (lineOp l 0) ∧ GoodOp Ns (lineOp l 4)) :
    ∃ (n : ℕ) (t : GTab) (c : ℕ → Option (ℤ × ℤ)),
      greenTables Ns Lanczos l1.length l2.length l1 l2 = .ok (n, t, c) ∧
      (∀ k < n, ∃ o ∈ neededOps l1 l2, t k = some o) ∧ (∀ k, n ≤ k → t k = none) ∧
      (∀ o ∈ neededOps l1 l2, ∃! k, t k = some o) ∧
      (∀ r l, l2[r]? = some l → ∃ k1 k2 : ℕ, c r = some ((k1 : ℤ), (k2 : ℤ)) ∧
        t k1 = some (lineOp l 0) ∧ t k2 = some (gAdj (lineOp l 4))) ∧
      ∀ r, l2.length ≤ r → c r = none := by
  have hpos : (0 : ℤ) < l2.length := by
    have := List.length_pos_of_ne_nil hne; omega
  -- first pass
  have r1 : getInfoOneBodyG Ns l1.length l1 =
      .ok (l1.map fun l => (l.ints.take 4, l.vals.take 0)) := by
    rcases Nat.eq_zero_or_pos l1.length with h | h
    · rw [List.length_eq_zero_iff.1 h]; rfl
    · refine ((C38_oneBodyG_partial Ns).2.1 _ _ (by omega) f1 _).2 ⟨rfl, fun l hl => ?_, rfl⟩
      have := g1 l hl
      rw [← gop1_take l (n := 4) le_rfl] at this
      exact ⟨this.1, this.2.2.1⟩
  have r2 : getInfoTwoBodyG Ns l2.length l2 =
      .ok (l2.map fun l => (l.ints.take 8, l.vals.take 0)) := by
    refine ((C38_twoBodyG_partial Ns).2.1 _ _ hpos f2 _).2 ⟨rfl, fun l hl => ?_, rfl⟩
    obtain ⟨a, b⟩ := g2 l hl
    rw [← gop1_take l (n := 8) (by omega)] at a
    have b := good_adj b
    rw [← gop2_take l] at b
    intro k hk
    simp only [List.mem_cons, List.not_mem_nil, or_false] at hk
    rcases hk with rfl | rfl | rfl | rfl
    · exact a.1
    · exact a.2.2.1
    · exact b.2.2.1
    · exact b.1
  have e1 : ((l1.map fun l => (l.ints.take 4, l.vals.take 0)).map fun r : List ℤ × List ℚ => gop1 r.1) =
      l1.map fun l => lineOp l 0 := by
    rw [List.map_map]
    exact List.map_congr_left fun l _ => gop1_take l le_rfl
  have e2 : ((l2.map fun l => (l.ints.take 8, l.vals.take 0)).flatMap
      fun r : List ℤ × List ℚ => [gop1 r.1, gop2 r.1]) =
      l2.flatMap fun l => [lineOp l 0, gAdj (lineOp l 4)] := by
    rw [List.flatMap_map]
    refine List.flatMap_congr fun l _ => ?_
    rw [gop1_take l (by omega), gop2_take l]
  obtain ⟨st1, seen1, a1, n1, m1⟩ := assignAll_ok Ns (l1.map fun l => lineOp l 0) _ _ (numbered_nil Ns)
    (by
      intro o ho
      obtain ⟨l, hl, rfl⟩ := List.mem_map.1 ho
      exact g1 l hl)
  obtain ⟨st, seen, a2, nn, m2⟩ := assignAll_ok Ns
    (l2.flatMap fun l => [lineOp l 0, gAdj (lineOp l 4)]) _ _ n1
    (by
      intro o ho
      obtain ⟨l, hl, ho⟩ := List.mem_flatMap.1 ho
      rcases List.mem_cons.1 ho with rfl | ho
      · exact (g2 l hl).1
      · rw [List.mem_singleton.1 ho]; exact good_adj (g2 l hl).2)
  have mem : ∀ o, o ∈ seen ↔ o ∈ neededOps l1 l2 := by
    intro o
    rw [m2 o, m1 o, neededOps, List.mem_append]
    simp
  have hcount : countOneBodyG Ns l1.length l2.length l1 l2 = .ok (st.1, (st.2 : ℤ)) := by
    unfold countOneBodyG
    simp only [r1, r2, e1, e2, a1, a2]
  -- second pass
  have s1 := sscan1 f1
  have hin1 : ∀ x ∈ sscanRows 4 l1 [0, 0, 0, 0], gop1 x ∈ seen := by
    intro x hx
    rw [mem, neededOps, List.mem_append, ← s1]
    exact Or.inl (List.mem_map.2 ⟨x, hx, rfl⟩)
  have s2 : sscanRows 8 l2 [0, 0, 0, 0, 0, 0, 0, 0] = l2.map fun l => l.ints.take 8 :=
    sscanRows_full l2 _ rfl f2
  have hin2 : ∀ x ∈ sscanRows 8 l2 [0, 0, 0, 0, 0, 0, 0, 0], gop1 x ∈ seen ∧ gop2 x ∈ seen := by
    intro x hx
    rw [s2] at hx
    obtain ⟨l, hl, rfl⟩ := List.mem_map.1 hx
    rw [gop1_take l (by omega), gop2_take l, mem, mem, neededOps, List.mem_append, List.mem_append]
    exact ⟨Or.inr (List.mem_flatMap.2 ⟨l, hl, by simp⟩), Or.inr (List.mem_flatMap.2 ⟨l, hl, by simp⟩)⟩
  obtain ⟨t1, b1, fl1, w1, _⟩ := oneBodyLoop_ok nn _ (fun _ => none) hin1 (by intro k o h; cases h)
  obtain ⟨t, c, b2, fl2, w2, mono, _, cout, cin⟩ := twoBodyExLoop_ok nn _ 0 l2.length t1 (fun _ => none) hin2 fl1
    (by rw [s2, List.length_map]; push_cast; omega)
  have hNC : ((st.2 : ℕ) : ℤ) ≠ 0 := by
    intro h
    obtain ⟨l, ls, rfl⟩ := List.exists_cons_of_ne_nil hne
    have : lineOp l 0 ∈ seen := by
      rw [mem, neededOps, List.mem_append]; exact Or.inr (by simp)
    have h1 := nn.1
    have := List.length_pos_of_mem this
    omega
  have wAll : ∀ o ∈ seen, ∃ k : ℕ, seen[k]? = some o ∧ t k = some o := by
    intro o ho
    rw [mem, neededOps, List.mem_append] at ho
    rcases ho with ho | ho
    · obtain ⟨k, u, v⟩ := w1 o (by rw [s1]; exact ho)
      exact ⟨k, u, mono k o v⟩
    · refine w2 o ?_
      rw [s2, List.flatMap_map]
      have : (l2.flatMap fun l => [gop1 (l.ints.take 8), gop2 (l.ints.take 8)]) =
          l2.flatMap fun l => [lineOp l 0, gAdj (lineOp l 4)] :=
        List.flatMap_congr fun l _ => by rw [gop1_take l (by omega), gop2_take l]
      rw [this]
      exact ho
  have tseen : ∀ k o, seen[k]? = some o → t k = some o := by
    intro k o h
    obtain ⟨j, u, v⟩ := wAll o (List.mem_of_getElem? h)
    obtain ⟨hk, h⟩ := List.getElem?_eq_some_iff.1 h
    obtain ⟨hj, u⟩ := List.getElem?_eq_some_iff.1 u
    have : j = k := (List.Nodup.getElem_inj_iff nn.2.1).1 (u.trans h.symm)
    rw [← this]; exact v
  refine ⟨st.2, t, c, ?_, ?_, ?_, ?_, ?_, ?_⟩
  · unfold greenTables
    rw [if_pos (Or.inl hpos), hcount]
    simp only
    rw [if_pos hpos, if_neg hNC, b1]
    simp only [b2]
  · intro k hk
    rw [nn.1] at hk
    exact ⟨seen[k], (mem _).1 (List.getElem_mem hk), tseen k _ (List.getElem?_eq_getElem hk)⟩
  · intro k hk
    rw [nn.1] at hk
    cases h : t k with
    | none => rfl
    | some o =>
      have := (List.getElem?_eq_some_iff.1 (fl2 k o h)).1
      omega
  · intro o ho
    obtain ⟨k, u, v⟩ := wAll o ((mem o).2 ho)
    refine ⟨k, v, fun j hj => ?_⟩
    obtain ⟨hj', w⟩ := List.getElem?_eq_some_iff.1 (fl2 j o hj)
    obtain ⟨hk', u⟩ := List.getElem?_eq_some_iff.1 u
    exact (List.Nodup.getElem_inj_iff nn.2.1).1 (w.trans u.symm)
  · intro r l hr
    obtain ⟨k1, k2, u, v, w⟩ := cin r (l.ints.take 8) (by rw [s2, List.getElem?_map, hr]; rfl)
    rw [Nat.zero_add] at u
    rw [gop1_take l (by omega)] at v
    rw [gop2_take l] at w
    exact ⟨k1, k2, u, tseen _ _ v, tseen _ _ w⟩
  · intro r hr
    rw [cout r (by rw [s2, List.length_map]; omega)]

theorem direct_ok (Ns : ℕ) (l1 : List DLine) (f1 : ∀ l ∈ l1, Full 4 0 l)
    (g1 : ∀ l ∈ l1, InLat Ns (lineOp l 0).1 ∧ InLat Ns (lineOp l 0).2.2.1) :
    getInfoOneBodyG Ns l1.length l1 = .ok (l1.map fun l => (l.ints.take 4, l.vals.take 0)) := by
  rcases Nat.eq_zero_or_pos l1.length with h | h
  · rw [List.length_eq_zero_iff.1 h]; rfl
  · refine ((C38_oneBodyG_partial Ns).2.1 _ _ (by omega) f1 _).2 ⟨rfl, fun l hl => ?_, rfl⟩
    have := g1 l hl
    rw [← gop1_take l (n := 4) le_rfl] at this
    exact this

theorem direct_tab (l1 : List DLine) (k : ℕ) :
    (((l1.map fun l => (l.ints.take 4, l.vals.take 0))[k]?).map fun r : List ℤ × List ℚ => gop1 r.1) =
      (l1[k]?).map fun l => lineOp l 0 := by
  simp only [List.getElem?_map, Option.map_map]
  cases l1[k]? with
  | none => rfl
  | some l => exact congrArg some (gop1_take l le_rfl)

/-- C40: without two-body functions and without Green functions in the Lanczos step the
table is the file. -/
theorem C40_direct (Ns : ℕ) (Lanczos : ℤ) (hL : Lanczos ≤ 1) (l1 l2 : List DLine)
    (f1 : ∀ l ∈ l1, Full 4 0 l) (g1 : ∀ l ∈ l1, InLat Ns (lineOp l 0).1 ∧ InLat Ns (lineOp l 0).2.2.1) :
    ∃ (t : GTab) (c : ℕ → Option (ℤ × ℤ)),
      greenTables Ns Lanczos l1.length 0 l1 l2 = .ok (l1.length, t, c) ∧
      (∀ k, t k = (l1[k]?).map fun l => lineOp l 0) ∧ ∀ r, c r = none := by
  refine ⟨fun k => (l1[k]?).map fun l => lineOp l 0, fun _ => none, ?_, fun _ => rfl, fun _ => rfl⟩
  rw [greenTables, if_neg (by omega)]
  simp only
  rw [if_neg (by omega), direct_ok Ns l1 f1 g1]
  simp only [direct_tab]

/-- A list with the same members and no repetitions is not longer. -/
theorem seen_length {seen os : List GOp} (h : seen.Nodup) (m : ∀ o, o ∈ seen ↔ o ∈ os) :
    seen.length ≤ os.length ∧ (seen.length = os.length ↔ os.Nodup) := by
  have e : seen.toFinset = os.toFinset := by ext o; simp [m o]
  have a : seen.toFinset.card = seen.length := List.toFinset_card_of_nodup h
  refine ⟨by rw [← a, e]; exact List.toFinset_card_le os, ?_, ?_⟩
  · intro l
    rw [← a, e] at l
    have : os.dedup.length = os.length := l
    rw [← (List.dedup_sublist os).eq_of_length this]
    exact List.nodup_dedup os
  · intro n
    rw [← a, e, List.toFinset_card_of_nodup n]

/-- C40: Green functions in the Lanczos step without two-body functions.  The table is the
file if no operator is requested twice; otherwise the file is longer than the table and
the reader writes behind it. -/
theorem C40_lanczos_partial (Ns : ℕ) (Lanczos : ℤ) (hL : 1 < Lanczos) (l1 l2 : List DLine)
    (f1 : ∀ l ∈ l1, Full 4 0 l) (g1 : ∀ l ∈ l1, GoodOp Ns (lineOp l 0)) :
    ((l1.map fun l => lineOp l 0).Nodup → ∃ (t : GTab) (c : ℕ → Option (ℤ × ℤ)),
      greenTables Ns Lanczos l1.length 0 l1 l2 = .ok (l1.length, t, c) ∧
      (∀ k, t k = (l1[k]?).map fun l => lineOp l 0) ∧ ∀ r, c r = none) ∧
    (¬ (l1.map fun l => lineOp l 0).Nodup → greenTables Ns Lanczos l1.length 0 l1 l2 = .ub) := by
  have g1' : ∀ l ∈ l1, InLat Ns (lineOp l 0).1 ∧ InLat Ns (lineOp l 0).2.2.1 :=
    fun l hl => ⟨(g1 l hl).1, (g1 l hl).2.2.1⟩
  have r1 := direct_ok Ns l1 f1 g1'
  obtain ⟨st, seen, a1, nn, m1⟩ := assignAll_ok Ns (l1.map fun l => lineOp l 0) _ _ (numbered_nil Ns)
    (by
      intro o ho
      obtain ⟨l, hl, rfl⟩ := List.mem_map.1 ho
      exact g1 l hl)
  have e1 : ((l1.map fun l => (l.ints.take 4, l.vals.take 0)).map fun r : List ℤ × List ℚ => gop1 r.1) =
      l1.map fun l => lineOp l 0 := by
    rw [List.map_map]
    exact List.map_congr_left fun l _ => gop1_take l le_rfl
  have hcount : countOneBodyG Ns l1.length 0 l1 l2 = .ok (st.1, (st.2 : ℤ)) := by
    have r2 : getInfoTwoBodyG Ns 0 l2 = .ok [] := rfl
    unfold countOneBodyG
    simp only [r1, r2, e1, a1, List.flatMap_nil, assignAll]
  obtain ⟨s1, s2⟩ := seen_length nn.2.1 (fun o => by rw [m1 o]; simp : ∀ o, o ∈ seen ↔ o ∈ l1.map fun l => lineOp l 0)
  rw [List.length_map, ← nn.1] at s1 s2
  constructor
  · intro hn
    refine ⟨fun k => (l1[k]?).map fun l => lineOp l 0, fun _ => none, ?_, fun _ => rfl, fun _ => rfl⟩
    rw [greenTables, if_pos (Or.inr hL), hcount]
    simp only
    rw [if_neg (by omega), s2.2 hn, r1]
    simp only [direct_tab]
  · intro hn
    have lt : st.2 < l1.length := lt_of_le_of_ne s1 fun h => hn (s2.1 h)
    have pos : 0 < st.2 := by
      obtain ⟨l, ls, rfl⟩ := List.exists_cons_of_ne_nil
        (show l1 ≠ [] by rintro rfl; simp at lt)
      have : lineOp l 0 ∈ seen := by rw [m1]; simp
      have := List.length_pos_of_mem this
      rw [nn.1]; exact this
    have u : getInfoOneBodyG Ns st.2 l1 = .ub := by
      refine ((rowReader_spec 4 0 _ (by omega) l1).2.1).2 ⟨by omega, fun r hr => ?_⟩
      rw [scanRows_full (n := 4) (m := 0) l1 _ _ rfl rfl f1] at hr
      obtain ⟨l, hl, rfl⟩ := List.mem_map.1 (List.mem_of_mem_take hr)
      have := g1' l hl
      rw [← gop1_take l (n := 4) le_rfl] at this
      rw [decide_eq_true_eq, checkPairSite_iff]
      exact this
    rw [greenTables, if_pos (Or.inr hL), hcount]
    simp only
    rw [if_neg (by omega), u]

/-! ## Examples and violations -/

/-- Two requested operators, one two-body function `n_{0↑} (c†_{1↓} c_{0↓})`, and one
that repeats operators. -/
def gIdxOne : List DLine := [⟨[0, 0, 0, 0], []⟩, ⟨[0, 1, 1, 1], []⟩, ⟨[0, 0, 0, 0], []⟩]
def gIdxTwo : List DLine := [⟨[0, 0, 0, 0, 1, 1, 0, 1], []⟩, ⟨[1, 0, 0, 0, 1, 1, 1, 1], []⟩]

/-- The one-body table has four operators; the functions point to `(0, 1)` and `(2, 3)`. -/
example : (match greenTables 2 0 3 2 gIdxOne gIdxTwo with
    | .ok (n, t, c) => (n, (List.range 5).map t, (List.range 3).map c)
    | _ => (0, [], [])) =
    (4, [some (0, 0, 0, 0), some (0, 1, 1, 1), some (1, 0, 0, 0), some (1, 1, 1, 1), none],
      [some (0, 1), some (2, 3), none]) := rfl

/-- C40 is violated by the code for spins other than 0 and 1: they are not checked and
address the table of numbers outside its range. -/
theorem C40_spin_violated :
    greenTables 2 0 1 1 [⟨[1, 2, 0, 0], []⟩] [⟨[0, 0, 0, 0, 1, 1, 1, 1], []⟩] = .ub := rfl

/-- C40 is violated by the code for Green functions in the Lanczos step: an operator
requested twice makes the reader write behind the table. -/
theorem C40_repeat_violated :
    greenTables 2 2 2 0 [⟨[0, 0, 1, 0], []⟩, ⟨[0, 0, 1, 0], []⟩] [] = .ub := rfl

/-- C40 is violated by the code for wrong files: the failure of the first pass becomes the
count −1, and the second pass writes outside the table instead of reporting it. -/
theorem C40_count_violated :
    greenTables 2 0 1 1 [⟨[0, 0, 1, 0], []⟩] [⟨[0, 0, 0, 0, 5, 1, 1, 1], []⟩] = .ub := rfl

/-- C40 is violated by the code for a one-body file announcing no entry but having some:
the second pass reads them. -/
theorem C40_announced_violated :
    greenTables 2 0 0 1 [⟨[0, 0, 1, 0], []⟩] [⟨[0, 0, 0, 0, 1, 1, 1, 1], []⟩] = .ub := rfl

end MVMC
