import Verif.Proof.LsOut

/-! # C87: the file of one-body Green functions of the Lanczos step -/
namespace MVMC

/-- the average of operator `k` in the state `(1 + α H)ψ`, from the averages of `H^a O H^b` in `ψ` -/
noncomputable def lsMean (H1 H2_1 alpha : ℂ) (Q : ℕ → ℂ) (n nLSHam k : ℕ) : ℂ :=
  (∑ a ∈ Finset.range 2, ∑ b ∈ Finset.range 2, alpha ^ (a + b) * Q ((a * nLSHam + b) * n + k)) / ((1 + 2 * alpha * H1 + alpha ^ 2 * H2_1).re : ℂ)

theorem calculatePhysVal_mean {H1 H2_1 alpha : ℂ} (h : (1 + 2 * alpha * H1 + alpha ^ 2 * H2_1).re ≠ 0) (Q : ℕ → ℂ) (n nLSHam k : ℕ) :
    calculatePhysVal H1 H2_1 alpha Q n nLSHam k = some (lsMean H1 H2_1 alpha Q n nLSHam k) := by
  unfold calculatePhysVal lsMean
  simp only
  rw [← pow_two, if_neg h, Option.some.injEq]
  congr 1
  simp only [Finset.sum_range_succ, Finset.sum_range_zero, zero_add, Nat.zero_mul, pow_zero, one_mul, add_zero, Nat.add_mul, pow_one]
  ring

/-- C87: when two-body functions are requested, the file has exactly one line for each operator that is needed, with its four indices and its average.
Missing: incomplete lines, sites outside the lattice and spins other than 0 and 1. -/
theorem C87_rows_partial (Ns : ℕ) (Lanczos : ℤ) (l1 l2 : List DLine) (f1 : ∀ l ∈ l1, Full 4 0 l) (f2 : ∀ l ∈ l2, Full 8 0 l) (hne : l2 ≠ [])
    (g1 : ∀ l ∈ l1, GoodOp Ns (lineOp l 0)) (g2 : ∀ l ∈ l2, GoodOp Ns (lineOp l 0) ∧ GoodOp Ns (lineOp l 4))
    (H1 H2_1 alpha : ℂ) (Q : ℕ → ℂ) (nLSHam : ℕ) (hnorm : (1 + 2 * alpha * H1 + alpha ^ 2 * H2_1).re ≠ 0) :
    ∃ (n : ℕ) (toIdx : ℤ × ℤ → ℤ) (t : GTab) (c : ℕ → Option (ℤ × ℤ)) (rows : List (GOp × Option ℂ)),
      greenTables Ns Lanczos l1.length l2.length l1 l2 = .ok (n, t, c) ∧ countOneBodyG Ns l1.length l2.length l1 l2 = .ok (toIdx, n) ∧
      lsCisAjs Ns n toIdx t H1 H2_1 alpha Q nLSHam = some rows ∧ rows.length = n ∧
      (∀ (k : ℕ) o v, rows[k]? = some (o, v) → o ∈ neededOps l1 l2 ∧ t k = some o ∧ v = some (lsMean H1 H2_1 alpha Q n nLSHam k)) ∧
      ∀ o ∈ neededOps l1 l2, ∃! k : ℕ, ∃ v, rows[k]? = some (o, v) := by
  have hpos : (0 : ℤ) < l2.length := by
    have := List.length_pos_of_ne_nil hne
    omega
  obtain ⟨n, t, c, ht, hin, hout, hall, -⟩ := C40_tables_partial Ns Lanczos l1 l2 f1 f2 hne g1 g2
  obtain ⟨toIdx, hc⟩ := greenTables_count hpos ht
  obtain ⟨-, hat⟩ := greenTables_at hpos hc ht
  obtain ⟨rows, hr, hlen, hrow⟩ := lsRows_at hat (fun k hk => (hin k hk).imp fun o ho => ho.2) (calculatePhysVal H1 H2_1 alpha Q n nLSHam)
  refine ⟨n, toIdx, t, c, rows, ht, hc, hr, hlen, ?_, ?_⟩
  · intro k o v hk
    have hlt : k < n := by
      rw [← hlen]
      exact (List.getElem?_eq_some_iff.1 hk).1
    obtain ⟨q, hq, hqt⟩ := hin k hlt
    rw [hrow k q hlt hqt, Option.some.injEq, Prod.mk.injEq] at hk
    rw [← hk.1, ← hk.2]
    exact ⟨hq, hqt, calculatePhysVal_mean hnorm Q n nLSHam k⟩
  · intro o ho
    obtain ⟨k, hk, huniq⟩ := hall o ho
    have lt_of : ∀ j, t j = some o → j < n := fun j hj => by
      by_contra h
      rw [hout j (by omega)] at hj
      cases hj
    refine ⟨k, ⟨_, hrow k o (lt_of k hk) hk⟩, ?_⟩
    rintro j ⟨v, hj⟩
    apply huniq
    have hlt : j < n := by
      rw [← hlen]
      exact (List.getElem?_eq_some_iff.1 hj).1
    obtain ⟨q, -, hqt⟩ := hin j hlt
    rw [hrow j q hlt hqt, Option.some.injEq, Prod.mk.injEq] at hj
    rw [hqt, hj.1]

/-- C87: without two-body functions the file has the lines of the one-body file in their order, each with its average. Missing: an operator that is requested twice,
which is undefined behaviour already in the reader (`C40_repeat_violated`). -/
theorem C87_rows_direct_partial (Ns : ℕ) (Lanczos : ℤ) (hL : 1 < Lanczos) (l1 l2 : List DLine) (f1 : ∀ l ∈ l1, Full 4 0 l)
    (g1 : ∀ l ∈ l1, GoodOp Ns (lineOp l 0)) (hnd : (l1.map fun l => lineOp l 0).Nodup)
    (H1 H2_1 alpha : ℂ) (Q : ℕ → ℂ) (nLSHam : ℕ) (hnorm : (1 + 2 * alpha * H1 + alpha ^ 2 * H2_1).re ≠ 0) :
    ∃ (toIdx : ℤ × ℤ → ℤ) (t : GTab) (c : ℕ → Option (ℤ × ℤ)),
      countOneBodyG Ns l1.length 0 l1 l2 = .ok (toIdx, l1.length) ∧ greenTables Ns Lanczos l1.length 0 l1 l2 = .ok (l1.length, t, c) ∧
      lsCisAjs Ns l1.length toIdx t H1 H2_1 alpha Q nLSHam =
        some (l1.mapIdx fun k l => (lineOp l 0, some (lsMean H1 H2_1 alpha Q l1.length nLSHam k))) := by
  obtain ⟨t, c, ht, htab, -⟩ := (C40_lanczos_partial Ns Lanczos hL l1 l2 f1 g1).1 hnd
  obtain ⟨st, h1, h2, -, h4⟩ := assignAll_order Ns (l1.map fun l => lineOp l 0) (fun _ => -1, 0) (by
    intro o ho
    obtain ⟨l, hl, rfl⟩ := List.mem_map.1 ho
    exact g1 l hl) hnd (fun _ _ _ _ => rfl)
  have r1 := direct_ok Ns l1 f1 (fun l hl => ⟨(g1 l hl).1, (g1 l hl).2.2.1⟩)
  have e1 : ((l1.map fun l => (l.ints.take 4, l.vals.take 0)).map fun r : List ℤ × List ℚ => gop1 r.1) = l1.map fun l => lineOp l 0 := by
    rw [List.map_map]
    exact List.map_congr_left fun l _ => gop1_take l le_rfl
  have hcount : countOneBodyG Ns l1.length 0 l1 l2 = .ok (st.1, (l1.length : ℤ)) := by
    have r2 : getInfoTwoBodyG Ns 0 l2 = .ok [] := rfl
    have h2' : st.2 = l1.length := by simpa using h2
    unfold countOneBodyG
    simp only [r1, r2, e1, h1, List.flatMap_nil, assignAll, h2']
  have hat : AtNumber Ns st.1 t := by
    intro k o hk
    rw [htab k, ← List.getElem?_map] at hk
    obtain ⟨p, hp, e⟩ := h4 k o hk
    exact ⟨p, hp, by simpa using e⟩
  have tget : ∀ k (hk : k < l1.length), t k = some (lineOp l1[k] 0) := fun k hk => by rw [htab k, List.getElem?_eq_getElem hk, Option.map_some]
  obtain ⟨rows, hr, hlen, hrow⟩ := lsRows_at hat (fun k hk => ⟨_, tget k hk⟩) (calculatePhysVal H1 H2_1 alpha Q l1.length nLSHam)
  refine ⟨st.1, t, c, hcount, ht, ?_⟩
  unfold lsCisAjs
  rw [hr, Option.some.injEq]
  apply List.ext_getElem?
  intro k
  by_cases hk : k < l1.length
  · rw [hrow k _ hk (tget k hk), List.getElem?_mapIdx, List.getElem?_eq_getElem hk, Option.map_some, calculatePhysVal_mean hnorm]
  · rw [List.getElem?_eq_none (by omega), List.getElem?_eq_none (by rw [List.length_mapIdx]; omega)]

/-- C87: when the energy cannot be found, one of the three blocks of `PhysCalLanczos_fcmp` is not given back; otherwise all are. -/
theorem C87_blocks_violated : (lsBlocks true).1 = (lsBlocks true).2 ∧ "LS_CisAjsCktAltDC" ∈ (lsBlocks false).1 ∧ "LS_CisAjsCktAltDC" ∉ (lsBlocks false).2 := by decide

/-- The tables of the example of C40: four lines, in the order of the numbers. -/
example : (match greenTables 2 2 3 2 gIdxOne gIdxTwo, countOneBodyG 2 3 2 gIdxOne gIdxTwo with
    | .ok (n, t, _), .ok (toIdx, _) => lsRows 2 n.toNat toIdx t (fun k => k)
    | _, _ => none) = some [((0, 0, 0, 0), 0), ((0, 1, 1, 1), 1), ((1, 0, 0, 0), 2), ((1, 1, 1, 1), 3)] := by decide +kernel

end MVMC
