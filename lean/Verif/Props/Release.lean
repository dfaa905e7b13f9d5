import Verif.Proof.Release3
import Verif.Model.CmdLine

/-! # C85: what the program gives back at the end, and the copies of the burn sample -/
namespace MVMC
open Spec

/-- C85: no block is given back twice, no block is given back that was not allocated, tables are used only while they exist, and the blocks that are still held at the end are those of
`memHeld`: for all parameters and all requests for work space. -/
theorem C85_release (P : MemPar) (reqs : List (WsKind × ℤ)) (hw : P.world = 0 → P.rank = 0) :
    ∃ s, memRun (memProg P reqs) (fun _ => (.null, 0)) = some s ∧ ∀ b, heldBy (s b) = memHeld P reqs b := by
  have h : ∀ b, ∃ x, ptrRun (opsOn b (memProg P reqs)) (.null, 0) = some x ∧ heldBy x = memHeld P reqs b := by
    intro b
    cases b with
    | var v => exact held_var P reqs hw v
    | row v i => exact held_row P reqs hw v i
  obtain ⟨s, h1, h2⟩ := memRun_of_blk (memProg P reqs) (fun _ => (.null, 0)) fun b => ⟨_, (h b).choose_spec.1⟩
  refine ⟨s, h1, fun b => ?_⟩
  obtain ⟨x, hx, e⟩ := h b
  have := (h2 b).symm.trans hx
  rw [Option.some.injEq] at this
  rw [this, e]

/-- C85 with the ranks that `main` gives to the processes, for one and for several sets of input files. -/
theorem C85_release_run (P : MemPar) (reqs : List (WsKind × ℤ)) (size n : ℕ) (hr : P.rank = if P.multi = true then childRank size n P.world else P.world) :
    ∃ s, memRun (memProg P reqs) (fun _ => (.null, 0)) = some s ∧ ∀ b, heldBy (s b) = memHeld P reqs b := by
  refine C85_release P reqs fun h => ?_
  rw [hr, h]
  split <;> simp [childRank]

-- the condition on the ranks is needed: the first process of all would read a table that it did not make
example : memRun (memProg ⟨0, 0, 0, 0, 0, 0, 0, 1, 1, 2, 0, 2, 0, 1, false⟩ []) (fun _ => (.null, 0)) = none := by decide +kernel

-- four processes, two sets of input files: process 2 is the first one of its group and keeps the table of its lines
example : (memRun (memProg ⟨0, 0, 0, 0, 0, 0, 0, 1, 1, 2, 0, 2, 2, childRank 4 2 2, true⟩ []) (fun _ => (.null, 0))).map
    (fun s => (heldBy (s (.var .iOneBodyGIdx)), heldBy (s (.row .iOneBodyGIdx 3)), heldBy (s (.row .iOneBodyGIdx 4)))) = some (1, 1, 0) := by decide +kernel

/-- C85: violated: ten blocks are never given back, whatever the input. -/
theorem C85_kept_violated (P : MemPar) (reqs : List (WsKind × ℤ)) (hw : P.world = 0 → P.rank = 0) : ∃ s, memRun (memProg P reqs) (fun _ => (.null, 0)) = some s ∧
    ∀ v ∈ [MemVar.orbitalSgn, .qpTransInv, .paraCoulombIntra, .paraQPTrans, .eleNum, .eleSpn, .slaterElmReal, .invMReal, .wsTComplex, .wsTComplexNow], heldBy (s (.var v)) = 1 := by
  obtain ⟨s, h, e⟩ := C85_release P reqs hw
  refine ⟨s, h, fun v hv => ?_⟩
  rw [e]
  simp only [List.mem_cons, List.not_mem_nil, or_false] at hv
  rcases hv with rfl | rfl | rfl | rfl | rfl | rfl | rfl | rfl | rfl | rfl <;> rfl

/-- C85: violated: with several sets of input files the table of the one-body lines stays with the first process of every group but one, because it is given back by the first process of
all; and with the Lanczos step it stays if there are no two-body lines. -/
theorem C85_lines_violated (P : MemPar) (reqs : List (WsKind × ℤ)) (hr : P.rank = 0) (h : 0 < P.world ∧ P.NCisAjsCktAlt > 0 ∨ P.NLanczosMode > 1 ∧ P.NCisAjsCktAlt ≤ 0) :
    ∃ s, memRun (memProg P reqs) (fun _ => (.null, 0)) = some s ∧ heldBy (s (.var .iOneBodyGIdx)) = 1 ∧ ∀ i < 2 * P.Nsite, heldBy (s (.row .iOneBodyGIdx i)) = 1 := by
  obtain ⟨s, hs, e⟩ := C85_release P reqs fun _ => hr
  have hk : LineTableKept P := by
    rcases h with ⟨h1, h2⟩ | ⟨h1, h2⟩
    · exact ⟨hr, Or.inl h2, fun q => by omega⟩
    · exact ⟨hr, Or.inr h1, fun q => by omega⟩
  refine ⟨s, hs, ?_, fun i hi => ?_⟩
  · rw [e]; simp [memHeld, hk]
  · rw [e]; simp [memHeld, hk, hi]

/-- With one set of input files and two-body lines this table is given back. -/
theorem C85_lines_partial (P : MemPar) (reqs : List (WsKind × ℤ)) (hw : P.world = P.rank) (h : P.NCisAjsCktAlt > 0 ∨ P.NLanczosMode ≤ 1) :
    ∃ s, memRun (memProg P reqs) (fun _ => (.null, 0)) = some s ∧ heldBy (s (.var .iOneBodyGIdx)) = 0 ∧ ∀ i, heldBy (s (.row .iOneBodyGIdx i)) = 0 := by
  obtain ⟨s, hs, e⟩ := C85_release P reqs fun q => by omega
  have hk : ¬ LineTableKept P := fun ⟨h1, h2, h3⟩ => h3 ⟨by omega, by omega⟩
  refine ⟨s, hs, ?_, fun i => ?_⟩
  · rw [e]; simp [memHeld, hk]
  · rw [e]; simp [memHeld, hk]

-- two sites, two threads, optimisation: two requests, the second one replaces the first work space
example : (memRun (memProg ⟨0, 0, 0, 0, 0, 0, 0, 1, 1, 2, 0, 2, 0, 0, false⟩ [(.tDouble, 3), (.tDouble, 5), (.complex, 1)]) (fun _ => (.null, 0))).map
    (fun s => (heldBy (s (.row .wsTDouble 1)), heldBy (s (.var .wsComplex)), heldBy (s (.row .iOneBodyGIdx 3)), heldBy (s (.var .srOptOOReal)))) = some (0, 1, 0, 1) := by decide +kernel

-- a block that is given back twice
example : memRun [.malloc (.var .para), .free (.var .para), .free (.var .para)] (fun _ => (.null, 0)) = none := by decide

/-! ## Burn sample -/

theorem copyInts_eq (n : ℕ) (src dst : List ℤ) : copyInts n src dst = if n ≤ src.length ∧ n ≤ dst.length then some (src.take n ++ dst.drop n) else none := by
  induction n with
  | zero => simp [copyInts]
  | succ n ih =>
    have e : copyInts (n + 1) src dst = (copyInts n src dst).bind fun d => if n < src.length ∧ n < d.length then some (d.set n (src.getD n 0)) else none := by
      unfold copyInts
      rw [List.range_succ, List.foldlM_append]
      congr 1
      funext d
      simp
    rw [e, ih]
    by_cases h : n + 1 ≤ src.length ∧ n + 1 ≤ dst.length
    · rw [if_pos h, if_pos (by omega), Option.bind_some, if_pos ⟨by omega, by simp; omega⟩]
      congr 1
      apply List.ext_getElem?
      intro i
      rw [List.getD_eq_getElem?_getD, List.getElem?_eq_getElem (by omega : n < src.length), Option.getD_some, List.getElem?_set]
      have l1 : (List.take n src).length = n := by simp; omega
      have l2 : (List.take (n + 1) src).length = n + 1 := by simp; omega
      rcases Nat.lt_trichotomy i n with hi | hi | hi
      · rw [if_neg (by omega), List.getElem?_append_left (by omega), List.getElem?_append_left (by omega), List.getElem?_take_of_lt hi, List.getElem?_take_of_lt (by omega)]
      · subst hi
        rw [if_pos rfl, if_pos (by simp; omega), List.getElem?_append_left (by omega), List.getElem?_take_of_lt (by omega), List.getElem?_eq_getElem (by omega : i < src.length)]
      · rw [if_neg (by omega), List.getElem?_append_right (by omega), List.getElem?_append_right (by omega), l1, l2, List.getElem?_drop, List.getElem?_drop]
        congr 1
        omega
    · rw [if_neg h]
      by_cases h' : n ≤ src.length ∧ n ≤ dst.length
      · rw [if_pos h', Option.bind_some, if_neg (by simp; omega)]
      · rw [if_neg h']; rfl

/-- C85: the copies stay inside the blocks, and copying the burn sample back restores places, numbers, occupations and counts; the rest of the block stays as it is. -/
theorem C85_burn (Ne Nsite NProj : ℕ) (tmp burn tmp' : List ℤ) (h1 : tmp.length = burnSize Ne Nsite NProj) (h2 : burn.length = burnSize Ne Nsite NProj)
    (h3 : tmp'.length = burnSize Ne Nsite NProj) :
    ∃ burn' r, copyInts (burnLen (2 * Ne) Nsite NProj) tmp burn = some burn' ∧ copyInts (burnLen (2 * Ne) Nsite NProj) burn' tmp' = some r ∧ r.length = burnSize Ne Nsite NProj ∧
      burnTables Ne Nsite NProj r = ((burnTables Ne Nsite NProj tmp).1, (burnTables Ne Nsite NProj tmp).2.1, (burnTables Ne Nsite NProj tmp).2.2.1, (burnTables Ne Nsite NProj tmp).2.2.2.1,
        (burnTables Ne Nsite NProj tmp').2.2.2.2) := by
  unfold burnSize at h1 h2 h3
  set L := burnLen (2 * Ne) Nsite NProj with hL
  unfold burnLen at hL
  have hb : (List.take L tmp ++ List.drop L burn).length = 2 * Ne + 2 * Nsite + 2 * Nsite + NProj + 2 * Ne := by simp; omega
  refine ⟨tmp.take L ++ burn.drop L, tmp.take L ++ tmp'.drop L, ?_, ?_, ?_, ?_⟩
  · rw [copyInts_eq, if_pos (by omega)]
  · rw [copyInts_eq, if_pos (by omega), List.take_append_of_le_length (by simp; omega), List.take_take, Nat.min_self]
  · unfold burnSize; simp; omega
  · have part : ∀ a n, a + n ≤ L → List.take n (List.drop a (List.take L tmp ++ List.drop L tmp')) = List.take n (List.drop a tmp) := by
      intro a n h
      rw [List.drop_append_of_le_length (by simp; omega), List.take_append_of_le_length (by simp; omega), List.drop_take, List.take_take, Nat.min_eq_left (by omega)]
    have p0 : List.take (2 * Ne) (List.take L tmp ++ List.drop L tmp') = List.take (2 * Ne) tmp := by simpa using part 0 (2 * Ne) (by omega)
    have pl : List.drop (2 * Ne + 2 * Nsite + 2 * Nsite + NProj) (List.take L tmp ++ List.drop L tmp') = List.drop (2 * Ne + 2 * Nsite + 2 * Nsite + NProj) tmp' := by
      rw [← hL, List.drop_append]
      simp [h1]
      omega
    unfold burnTables
    rw [p0, part _ _ (by omega), part _ _ (by omega), part _ _ (by omega), pl]

/-- C85, general Sz: the spins are restored as well, that is the whole block. -/
theorem C85_burn_fsz (Ne Nsite NProj : ℕ) (tmp burn tmp' : List ℤ) (h1 : tmp.length = burnSize Ne Nsite NProj) (h2 : burn.length = burnSize Ne Nsite NProj)
    (h3 : tmp'.length = burnSize Ne Nsite NProj) :
    ∃ burn', copyInts (burnLenF (2 * Ne) Nsite NProj) tmp burn = some burn' ∧ copyInts (burnLenF (2 * Ne) Nsite NProj) burn' tmp' = some tmp := by
  have e : burnLenF (2 * Ne) Nsite NProj = burnSize Ne Nsite NProj := rfl
  refine ⟨tmp, ?_, ?_⟩
  · rw [copyInts_eq, if_pos (by omega), e, ← h1, List.take_length, List.drop_of_length_le (by omega), List.append_nil]
  · rw [copyInts_eq, if_pos (by omega), e, ← h1, List.take_length, List.drop_of_length_le (by omega), List.append_nil]

/-- C85: violated by the copies for the back flow: they go beyond the blocks when `16 Nsite Nrange > 2 Ne` (the reader rejects such inputs, C39). -/
theorem C85_burn_backflow_violated (Ne Nsite NProj Nrange : ℕ) (tmp burn : List ℤ) (h1 : tmp.length = burnSize Ne Nsite NProj) (h2 : burn.length = burnSize Ne Nsite NProj) :
    copyInts (burnLenBF (2 * Ne) Nsite NProj Nrange) tmp burn = none ↔ 2 * Ne < 16 * Nsite * Nrange := by
  rw [copyInts_eq]
  unfold burnLenBF
  unfold burnSize at h1 h2
  split_ifs with h
  · simp; omega
  · simp; omega

-- one electron pair on two sites, one correlation factor
example : copyInts (burnLen 2 2 1) [0, 1, 0, -1, -1, 0, 1, 0, 0, 1, 7, 0, 0] [9, 9, 9, 9, 9, 9, 9, 9, 9, 9, 9, 9, 9] = some [0, 1, 0, -1, -1, 0, 1, 0, 0, 1, 7, 9, 9] := by decide

end MVMC
