import Verif.Model.ReadTrans
import Verif.Model.Slater
import Mathlib.Data.Finset.Prod
import Mathlib.Data.Finset.Card
import Mathlib.Tactic.Ring

/-!
# C65: the symmetry tables are those of the file

A row `(i, j, k, s)` of the file says that operation `i` takes site `j` to site `k` with sign `s`; the rows follow one coefficient per
operation.
-/
namespace MVMC

/-- a row of the table as a line of the file -/
def symLine (r : ℤ × ℤ × ℤ × ℤ) : DLine := ⟨[r.1, r.2.1, r.2.2.1, r.2.2.2], []⟩
/-- a coefficient as a line of the file -/
def coefLine (c : ℤ × ℚ × ℚ) : DLine := ⟨[c.1], [c.2.1, c.2.2]⟩

/-- existing operation and sites -/
def RowOK (Nsite NArray : ℕ) (r : ℤ × ℤ × ℤ × ℤ) : Prop :=
  0 ≤ r.1 ∧ r.1 < NArray ∧ 0 ≤ r.2.1 ∧ r.2.1 < Nsite ∧ 0 ≤ r.2.2.1 ∧ r.2.2.1 < Nsite

/-- the state after a row -/
def rowPut (t : TransT) (r : ℤ × ℤ × ℤ × ℤ) : TransT :=
  { t with trans := putAt t.trans r.1.toNat r.2.1.toNat r.2.2.1, sgn := putAt t.sgn r.1.toNat r.2.1.toNat r.2.2.2,
           inv := putAt t.inv r.1.toNat r.2.2.1.toNat r.2.1 }

theorem transLoop_rows (Nsite NArray : ℕ) : ∀ (rows : List (ℤ × ℤ × ℤ × ℤ)) (x : List ℤ) (idx : ℕ) (t : TransT) (r : ℕ × TransT), x.length = 4 →
    transLoop Nsite NArray (rows.map symLine) x idx t = .ok r →
    r = (idx + rows.length, rows.foldl rowPut t) ∧ ∀ y ∈ rows, RowOK Nsite NArray y
  | [], x, idx, t, r, _, h => by
    simp only [List.map_nil, transLoop, RdOut.ok.injEq] at h
    exact ⟨h.symm, fun y hy => absurd hy List.not_mem_nil⟩
  | y :: rows, x, idx, t, r, hx, h => by
    have e : scanI 4 x (symLine y) = [y.1, y.2.1, y.2.2.1, y.2.2.2] := by
      show [y.1, y.2.1, y.2.2.1, y.2.2.2] ++ x.drop 4 = _
      rw [List.drop_of_length_le (by omega), List.append_nil]
    rw [List.map_cons, transLoop, e] at h
    change (if y.1 < 0 ∨ y.1 ≥ NArray ∨ y.2.1 < 0 ∨ y.2.1 ≥ Nsite ∨ y.2.2.1 < 0 ∨ y.2.2.1 ≥ Nsite then RdOut.ub
      else transLoop Nsite NArray (rows.map symLine) [y.1, y.2.1, y.2.2.1, y.2.2.2] (idx + 1) (rowPut t y)) = _ at h
    split at h
    · cases h
    · rename_i hy
      obtain ⟨h1, h2⟩ := transLoop_rows Nsite NArray rows _ _ _ r rfl h
      refine ⟨by rw [h1, List.length_cons]; congr 1; omega, fun z hz => ?_⟩
      rcases List.mem_cons.mp hz with rfl | hz
      · unfold RowOK; omega
      · exact h2 z hz

theorem coefLoop_rows (NArray : ℕ) : ∀ (cs : List (ℤ × ℚ × ℚ)) (rest : List DLine) (buf : Option DLine) (p : ℕ → Option (ℚ × ℚ)) (it : ℤ) r,
    coefLoop NArray cs.length (cs.map coefLine ++ rest) buf p it = .ok r →
    r.1 = cs.foldl (fun p c => fun x => if x = c.1.toNat then some c.2 else p x) p ∧ r.2.2 = rest ∧ ∀ c ∈ cs, 0 ≤ c.1 ∧ c.1 < NArray
  | [], rest, buf, p, it, r, h => by
    simp only [List.length_nil, List.map_nil, List.nil_append, coefLoop, RdOut.ok.injEq] at h
    rw [← h]
    exact ⟨rfl, rfl, fun c hc => absurd hc List.not_mem_nil⟩
  | c :: cs, rest, buf, p, it, r, h => by
    rw [List.length_cons, List.map_cons, List.cons_append, coefLoop] at h
    change (if c.1 < 0 ∨ c.1 ≥ NArray then RdOut.ub
      else coefLoop NArray cs.length (cs.map coefLine ++ rest) (some (coefLine c)) (fun x => if x = c.1.toNat then some c.2 else p x) c.1) = _ at h
    split at h
    · cases h
    · rename_i hc
      obtain ⟨h1, h2, h3⟩ := coefLoop_rows NArray cs rest _ _ _ r h
      refine ⟨h1, h2, fun z hz => ?_⟩
      rcases List.mem_cons.mp hz with rfl | hz
      · omega
      · exact h3 z hz

/-- stores at different places -/
theorem puts_val {α β : Type} [DecidableEq α] {γ : Type} (key : γ → α) (val : γ → β) : ∀ (rows : List γ) (a : α → Option β), (rows.map key).Nodup →
    (∀ r ∈ rows, rows.foldl (fun a r => fun x => if x = key r then some (val r) else a x) a (key r) = some (val r)) ∧
    ∀ x, x ∉ rows.map key → rows.foldl (fun a r => fun x => if x = key r then some (val r) else a x) a x = a x
  | [], a, _ => ⟨fun r hr => absurd hr List.not_mem_nil, fun _ _ => rfl⟩
  | y :: rows, a, h => by
    rw [List.map_cons, List.nodup_cons] at h
    obtain ⟨i1, i2⟩ := puts_val key val rows (fun x => if x = key y then some (val y) else a x) h.2
    refine ⟨fun r hr => ?_, fun x hx => ?_⟩
    · rw [List.foldl_cons]
      rcases List.mem_cons.mp hr with rfl | hr
      · rw [i2 _ h.1, if_pos rfl]
      · exact i1 r hr
    · rw [List.map_cons, List.mem_cons, not_or] at hx
      rw [List.foldl_cons, i2 x hx.2, if_neg hx.1]

theorem foldl_trans (rows : List (ℤ × ℤ × ℤ × ℤ)) : ∀ t : TransT,
    (fun x : ℕ × ℕ => (rows.foldl rowPut t).trans x.1 x.2) = rows.foldl (fun a r => fun x => if x = (r.1.toNat, r.2.1.toNat) then some r.2.2.1 else a x) (fun x => t.trans x.1 x.2) ∧
    (fun x : ℕ × ℕ => (rows.foldl rowPut t).sgn x.1 x.2) = rows.foldl (fun a r => fun x => if x = (r.1.toNat, r.2.1.toNat) then some r.2.2.2 else a x) (fun x => t.sgn x.1 x.2) ∧
    (fun x : ℕ × ℕ => (rows.foldl rowPut t).inv x.1 x.2) = rows.foldl (fun a r => fun x => if x = (r.1.toNat, r.2.2.1.toNat) then some r.2.1 else a x) (fun x => t.inv x.1 x.2) ∧
    (rows.foldl rowPut t).para = t.para := by
  induction rows with
  | nil => intro t; exact ⟨rfl, rfl, rfl, rfl⟩
  | cons y rows ih =>
    intro t
    obtain ⟨a, b, c, d⟩ := ih (rowPut t y)
    simp only [List.foldl_cons]
    refine ⟨a.trans ?_, b.trans ?_, c.trans ?_, d⟩ <;> congr 1 <;> funext x <;> simp only [rowPut, putAt, Prod.ext_iff]

/-- in-range cells that are listed once, as many as there are, are all cells -/
theorem cells_all {Nsite NArray : ℕ} {rows : List (ℤ × ℤ × ℤ × ℤ)} (hr : ∀ y ∈ rows, RowOK Nsite NArray y)
    (hn : (rows.map fun r => (r.1, r.2.1)).Nodup) (hl : rows.length = Nsite * NArray) {i j : ℕ} (hi : i < NArray) (hj : j < Nsite) :
    ∃ r ∈ rows, r.1 = i ∧ r.2.1 = j := by
  have hn' : (rows.map fun r => (r.1.toNat, r.2.1.toNat)).Nodup := by
    refine List.Nodup.map_on ?_ (List.Nodup.of_map _ hn)
    intro a ha b hb e
    have e1 := (Prod.ext_iff.mp e).1
    have e2 := (Prod.ext_iff.mp e).2
    obtain ⟨a1, _, a2, _⟩ := hr a ha
    obtain ⟨b1, _, b2, _⟩ := hr b hb
    have := List.inj_on_of_nodup_map hn ha hb
    exact this (Prod.ext (by show a.1 = b.1; dsimp only at e1; omega) (by show a.2.1 = b.2.1; dsimp only at e2; omega))
  have hsub : (rows.map fun r => (r.1.toNat, r.2.1.toNat)).toFinset ⊆ Finset.range NArray ×ˢ Finset.range Nsite := by
    intro x hx
    rw [List.mem_toFinset, List.mem_map] at hx
    obtain ⟨r, h, rfl⟩ := hx
    obtain ⟨a1, a2, a3, a4, _⟩ := hr r h
    rw [Finset.mem_product, Finset.mem_range, Finset.mem_range]
    dsimp only
    omega
  have hc : (Finset.range NArray ×ˢ Finset.range Nsite).card ≤ (rows.map fun r => (r.1.toNat, r.2.1.toNat)).toFinset.card := by
    rw [List.toFinset_card_of_nodup hn', List.length_map, hl, Finset.card_product, Finset.card_range, Finset.card_range, Nat.mul_comm]
  have he := Finset.eq_of_subset_of_card_le hsub hc
  have : (i, j) ∈ (rows.map fun r => (r.1.toNat, r.2.1.toNat)).toFinset := by
    rw [he, Finset.mem_product, Finset.mem_range, Finset.mem_range]
    exact ⟨hi, hj⟩
  rw [List.mem_toFinset, List.mem_map] at this
  obtain ⟨r, h, e⟩ := this
  obtain ⟨a1, _, a2, _⟩ := hr r h
  have e1 := (Prod.ext_iff.mp e).1
  have e2 := (Prod.ext_iff.mp e).2
  dsimp only at e1 e2
  exact ⟨r, h, by omega, by omega⟩

/-- If the reader accepts a file without repeated rows, every operation acts on every site as the file says, with the listed sign
(`APFlag = 1`) or sign 1 (`APFlag = 0`); `QPTransInv` is the inverse if the operations are permutations; the coefficients are those of the
file. Not covered: a file with repeated rows. -/
theorem C65_tables_partial (ap : ℤ) (Nsite NArray : ℕ) (cs : List (ℤ × ℚ × ℚ)) (rows : List (ℤ × ℤ × ℤ × ℤ)) (t t' : TransT) (hN : 0 < NArray)
    (hcs : cs.length = NArray) (hrd : getInfoTransSym ap Nsite NArray (cs.map coefLine ++ rows.map symLine) t = .ok t')
    (hn : (rows.map fun r => (r.1, r.2.1)).Nodup) :
    (∀ i < NArray, ∀ j < Nsite, ∃ r ∈ rows, r.1 = i ∧ r.2.1 = j) ∧
    (∀ r ∈ rows, RowOK Nsite NArray r ∧ t'.trans r.1.toNat r.2.1.toNat = some r.2.2.1 ∧
      t'.sgn r.1.toNat r.2.1.toNat = some (if ap = 0 then 1 else r.2.2.2)) ∧
    ((rows.map fun r => (r.1, r.2.2.1)).Nodup → ∀ r ∈ rows, t'.inv r.1.toNat r.2.2.1.toNat = some r.2.1) ∧
    ((cs.map fun c => c.1).Nodup → ∀ c ∈ cs, t'.para c.1.toNat = some c.2) := by
  unfold getInfoTransSym at hrd
  rw [if_neg (by omega)] at hrd
  split at hrd
  · cases hrd
  · cases hrd
  · cases hrd
  rename_i p it ls hco
  have hco' : coefLoop NArray cs.length (cs.map coefLine ++ rows.map symLine) none t.para 0 = .ok (p, it, ls) := by rw [hcs]; exact hco
  obtain ⟨c1, c2, c3⟩ := coefLoop_rows NArray cs _ _ _ _ _ hco'
  dsimp only at c1 c2
  subst c2
  split at hrd
  · cases hrd
  · cases hrd
  · cases hrd
  rename_i idx t1 htl
  obtain ⟨d1, d2⟩ := transLoop_rows Nsite NArray rows _ _ _ _ rfl htl
  obtain ⟨d3, d4⟩ := Prod.ext_iff.mp d1
  dsimp only at d3 d4
  change (if idx ≠ Nsite * NArray then RdOut.err else RdOut.ok
    (if ap = 0 then { t1 with sgn := fun i j => if i < NArray ∧ j < Nsite then some 1 else t1.sgn i j } else t1)) = _ at hrd
  split at hrd
  · cases hrd
  rename_i hidx
  have hlen : rows.length = Nsite * NArray := by omega
  have ht : t' = if ap = 0 then { t1 with sgn := fun i j => if i < NArray ∧ j < Nsite then some 1 else t1.sgn i j } else t1 := by
    exact (RdOut.ok.inj hrd).symm
  obtain ⟨f1, f2, f3, f4⟩ := foldl_trans rows { t with para := p }
  rw [← d4] at f1 f2 f3 f4
  have ht1 : t'.trans = t1.trans ∧ t'.inv = t1.inv ∧ t'.para = t1.para := by rw [ht]; split_ifs <;> exact ⟨rfl, rfl, rfl⟩
  have toNat_nodup : ∀ g : ℤ × ℤ × ℤ × ℤ → ℤ, (∀ r ∈ rows, 0 ≤ g r) → (rows.map fun r => (r.1, g r)).Nodup →
      (rows.map fun r => (r.1.toNat, (g r).toNat)).Nodup := by
    intro g hg h
    refine List.Nodup.map_on ?_ (List.Nodup.of_map _ h)
    intro a ha b hb e
    have e1 := (Prod.ext_iff.mp e).1
    have e2 := (Prod.ext_iff.mp e).2
    have a1 := (d2 a ha).1
    have b1 := (d2 b hb).1
    have a2 := hg a ha
    have b2 := hg b hb
    exact List.inj_on_of_nodup_map h ha hb (Prod.ext (by show a.1 = b.1; dsimp only at e1; omega) (by show g a = g b; dsimp only at e2; omega))
  have hn' := toNat_nodup (fun r => r.2.1) (fun r hr => (d2 r hr).2.2.1) hn
  refine ⟨fun i hi j hj => cells_all d2 hn hlen hi hj, fun r hr => ⟨d2 r hr, ?_, ?_⟩, fun hi r hr => ?_, fun hc c hcm => ?_⟩
  · rw [ht1.1]
    have := congrFun f1 (r.1.toNat, r.2.1.toNat)
    exact this.trans ((puts_val (fun r : ℤ × ℤ × ℤ × ℤ => (r.1.toNat, r.2.1.toNat)) (fun r => r.2.2.1) rows _ hn').1 r hr)
  · have hr' := d2 r hr
    unfold RowOK at hr'
    rw [ht]
    by_cases ha : ap = 0
    · rw [if_pos ha, if_pos ha]
      show (if r.1.toNat < NArray ∧ r.2.1.toNat < Nsite then some 1 else _) = _
      rw [if_pos (by omega)]
    · rw [if_neg ha, if_neg ha]
      have := congrFun f2 (r.1.toNat, r.2.1.toNat)
      exact this.trans ((puts_val (fun r : ℤ × ℤ × ℤ × ℤ => (r.1.toNat, r.2.1.toNat)) (fun r => r.2.2.2) rows _ hn').1 r hr)
  · rw [ht1.2.1]
    have hi' := toNat_nodup (fun r => r.2.2.1) (fun r hr => (d2 r hr).2.2.2.2.1) hi
    have := congrFun f3 (r.1.toNat, r.2.2.1.toNat)
    exact this.trans ((puts_val (fun r : ℤ × ℤ × ℤ × ℤ => (r.1.toNat, r.2.2.1.toNat)) (fun r => r.2.1) rows _ hi').1 r hr)
  · rw [ht1.2.2, f4]
    show p c.1.toNat = _
    rw [c1]
    have hc' : (cs.map fun c => c.1.toNat).Nodup := by
      refine List.Nodup.map_on ?_ (List.Nodup.of_map _ hc)
      intro a ha b hb e
      have := c3 a ha
      have := c3 b hb
      exact List.inj_on_of_nodup_map hc ha hb (by omega)
    exact (puts_val (fun c : ℤ × ℚ × ℚ => c.1.toNat) (fun c => c.2) cs _ hc').1 c hcm

/-- A file that has the right number of rows but repeats one is accepted; the missing entry is never written. -/
theorem C65_missing_violation : ∃ t, getInfoTransSym 0 2 1 ([(0, 1, 0)].map coefLine ++ [(0, 0, 0, 1), (0, 0, 1, 1)].map symLine) TransT.fresh = .ok t ∧
    t.trans 0 1 = none := ⟨_, rfl, rfl⟩

/-- The table of the second kind of operations is accepted even if it is empty. -/
theorem C65_opt_violation (Nsite NArray : ℕ) (x : List ℤ) (t : TransT) : optTransLoop Nsite NArray [] x t = .ok t := rfl

/-- Two operations that take different sites to the same site are accepted. -/
theorem C65_permutation_violation : ∃ t, getInfoTransSym 0 2 1 ([(0, 1, 0)].map coefLine ++ [(0, 0, 0, 1), (0, 1, 0, 1)].map symLine) TransT.fresh = .ok t ∧
    t.trans 0 0 = some 0 ∧ t.trans 0 1 = some 0 ∧ t.inv 0 1 = none := ⟨_, rfl, rfl, rfl, rfl⟩

/-- A site number outside the lattice is not checked. -/
theorem C65_range_violation : getInfoTransSym 0 2 1 ([(0, 1, 0)].map coefLine ++ [(0, 0, 1, 1), (0, 1, 2, 1)].map symLine) TransT.fresh = .ub := rfl

/-- C65: without a file the operations of the second kind change neither the sites nor the signs of the Slater elements. -/
theorem C65_default (Q : QPPar) (h : ∀ o r, (Q.opt o r, Q.optSgn o r) = defaultOptTrans r) (o mp r : ℕ) :
    Q.tr o mp r = Q.trans mp r ∧ Q.sg o mp r = Q.transSgn mp r := by
  obtain ⟨h1, h2⟩ := Prod.ext_iff.mp (h o r)
  unfold QPPar.tr QPPar.sg
  rw [show Q.opt o r = r from h1, show Q.optSgn o r = 1 from h2, mul_one]
  exact ⟨rfl, rfl⟩

-- two sites, two operations, antiperiodic signs
example : ∃ t, getInfoTransSym 1 2 2 ([(0, 1, 0), (1, -1, 0)].map coefLine ++ [(0, 0, 0, 1), (0, 1, 1, 1), (1, 0, 1, 1), (1, 1, 0, -1)].map symLine)
    TransT.fresh = .ok t ∧ t.trans 1 0 = some 1 ∧ t.sgn 1 1 = some (-1) ∧ t.inv 1 0 = some 1 ∧ t.para 1 = some (-1, 0) := ⟨_, rfl, rfl, rfl, rfl, rfl⟩
-- one row short
example : getInfoTransSym 1 2 1 ([(0, 1, 0)].map coefLine ++ [(0, 0, 0, 1)].map symLine) TransT.fresh = .err := rfl

end MVMC
