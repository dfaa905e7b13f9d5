import Verif.Proof.PfUpdate

/-! Two-electron updates, new Pfaffians without commit, and the calculation from scratch. -/
namespace MVMC
open Spec

variable {K : Type} [Field K]

section two
variable {p : PfPar} {slt : Nat → K} {msa msb : Nat} {rs rs' : Nat → Nat} {qpStart q : Nat} {st : PfState K}
  (hsk : SlaterSkew p.Nsite2 slt (q + qpStart))
  (hrs : ∀ i, i < p.Nsize → rs i < p.Nsite2) (hrs' : ∀ i, i < p.Nsize → rs' i < p.Nsite2)
  (ha : msa < p.Nsize) (hb : msb < p.Nsize) (hab : msa ≠ msb)
  (hne : ∀ i, i < p.Nsize → i ≠ msa → i ≠ msb → rs' i = rs i)
  (hI : IsInv (entry p.Nsite2 slt (q + qpStart)) p.Nsize rs (entry p.Nsize st.invM q))
  (hpf : st.pfM q = pfOf (entry p.Nsite2 slt (q + qpStart)) p.Nsize rs)
include hsk hrs hrs' ha hb hab hne hI hpf

theorem calculateNewPfMTwoChild_ok :
    calculateNewPfMTwoChild p slt msa (rs' msa) msb (rs' msb) rs' qpStart st q
      = pfOf (entry p.Nsite2 slt (q + qpStart)) p.Nsize rs' := by
  rw [pfOf_change2 (slaterSkew_on hsk) hrs hrs' ha hb hab hne hI
    (fun j => entry p.Nsite2 slt (q + qpStart) (rs' msa) (rs' j)) (fun _ _ _ _ => rfl)]
  unfold calculateNewPfMTwoChild
  simp only [sumLoop_eq]
  rw [hpf]
  simp only [sltAt, invAt, entry]
  ring

theorem updateMAllTwoChild_pfM (x : K) :
    (updateMAllTwoChild p slt msa (rs' msa) msb (rs' msb) rs' x qpStart q st).pfM
      = setAt st.pfM q (pfOf (entry p.Nsite2 slt (q + qpStart)) p.Nsize rs') := by
  rw [pfOf_change2 (slaterSkew_on hsk) hrs hrs' ha hb hab hne hI
    (setAt (fun j => entry p.Nsite2 slt (q + qpStart) (rs' msa) (rs' j)) msb x)
    (fun i _ _ h => setAt_ne h)]
  unfold updateMAllTwoChild
  simp only [sumLoop_eq]
  rw [hpf]
  simp only [sltAt, invAt, entry]
  congr 1
  ring

theorem updateMAllTwoChild_inv (x : K) (h0 : pfOf (entry p.Nsite2 slt (q + qpStart)) p.Nsize rs' ≠ 0) :
    IsInv (entry p.Nsite2 slt (q + qpStart)) p.Nsize rs'
      (entry p.Nsize (updateMAllTwoChild p slt msa (rs' msa) msb (rs' msb) rs' x qpStart q st).invM q) := by
  let A := entry p.Nsite2 slt (q + qpStart)
  let N := entry p.Nsize st.invM q
  let u : Nat → K := setAt (fun j => A (rs' msa) (rs' j)) msb x
  let P : Nat → K := fun i => sumLoop p.Nsize (fun j => N i j * u j)
  let Q : Nat → K := fun i => sumLoop p.Nsize (fun j => N i j * A (rs' msb) (rs' j))
  let B : K := sumLoop p.Nsize (fun i => A (rs' msb) (rs' i) * P i)
  let D : K := (- P msa) * (- Q msb) - P msb * Q msa - (- B - A (rs' msb) (rs' msa)) * N msa msb
  let s : Nat → K := fun i => 1 / D * N msa i
  let t : Nat → K := fun i => 1 / D * N msb i
  have hD : D = P msa * Q msb - P msb * Q msa + (B + A (rs' msb) (rs' msa)) * N msa msb := by
    show (- P msa) * (- Q msb) - P msb * Q msa - (- B - A (rs' msb) (rs' msa)) * N msa msb = _
    ring
  have hD0 : D ≠ 0 := by
    intro hz
    have := pfOf_change2 (slaterSkew_on hsk) hrs hrs' ha hb hab hne hI u (fun i _ _ h => setAt_ne h)
    apply h0
    rw [this]
    have e : entry p.Nsize st.invM q msa msb * (entry p.Nsite2 slt (q + qpStart) (rs' msb) (rs' msa)
          + ∑ i ∈ Finset.range p.Nsize, entry p.Nsite2 slt (q + qpStart) (rs' msb) (rs' i) *
              ∑ j ∈ Finset.range p.Nsize, entry p.Nsize st.invM q i j * u j)
        + (∑ j ∈ Finset.range p.Nsize, entry p.Nsize st.invM q msa j * u j)
          * (∑ j ∈ Finset.range p.Nsize, entry p.Nsize st.invM q msb j * entry p.Nsite2 slt (q + qpStart) (rs' msb) (rs' j))
        - (∑ j ∈ Finset.range p.Nsize, entry p.Nsize st.invM q msb j * u j)
          * (∑ j ∈ Finset.range p.Nsize, entry p.Nsize st.invM q msa j * entry p.Nsite2 slt (q + qpStart) (rs' msb) (rs' j)) = D := by
      rw [hD]
      simp only [P, Q, B, A, N, sumLoop_eq]
      ring
    rw [e, hz, zero_mul]
  refine isInv_change2 (slaterSkew_on hsk) hrs hrs' ha hb hab hne hI u P Q s t (B := B) (D := D) ?_
    (fun i _ _ h => setAt_ne h) (fun i _ => sumLoop_eq _ _) (fun i _ => sumLoop_eq _ _) (sumLoop_eq _ _) hD hD0
    (fun i _ => by show 1 / D * N msa i = N msa i / D; ring) (fun i _ => by show 1 / D * N msb i = N msb i / D; ring) ?_
  · show setAt _ msb x msa = 0
    rw [setAt_ne hab]
    exact hsk.2 _ (hrs' msa ha)
  · intro i hi j hj
    let base := q * p.Nsize * p.Nsize
    let f := N msa msb
    let iD := 1 / D
    let ca := - P msa
    let cb := P msb
    let cc := Q msa
    let cd := - Q msb
    let ce := - B - A (rs' msb) (rs' msa)
    let G : Nat → Nat → K := fun i j => ca * (Q i * t j - Q j * t i) + cb * (Q i * s j - Q j * s i)
          + cc * (P i * t j - P j * t i) + cd * (P i * s j - P j * s i)
          + ce * D * (s i * t j - s j * t i) + f * iD * (P i * Q j - Q i * P j)
    show addAt (addAt ((List.range p.Nsize).foldl (fun m j =>
        addAt (addAt m (base + msa * p.Nsize + j) (cc * t j + cd * s j + f * iD * Q j))
          (base + msb * p.Nsize + j) (ca * t j + cb * s j - f * iD * P j))
        ((List.range p.Nsize).foldl (fun m i =>
          addAt (addAt ((List.range p.Nsize).foldl (fun m j => addAt m (base + i * p.Nsize + j) (G i j)) m)
            (base + i * p.Nsize + msa) (- cc * t i - cd * s i - f * iD * Q i))
            (base + i * p.Nsize + msb) (- ca * t i - cb * s i + f * iD * P i)) st.invM))
      (base + msa * p.Nsize + msb) (f * iD)) (base + msb * p.Nsize + msa) (- (f * iD)) (base + i * p.Nsize + j) = _
    rw [addAt_apply, addAt_apply]
    rw [foldl_range_additive p.Nsize _ (fun j' k =>
        (if k = base + msa * p.Nsize + j' then cc * t j' + cd * s j' + f * iD * Q j' else 0)
        + (if k = base + msb * p.Nsize + j' then ca * t j' + cb * s j' - f * iD * P j' else 0))
      (fun m j' _ k => by rw [addAt_apply, addAt_apply]; ring)]
    rw [foldl_range_additive p.Nsize _ (fun i' k =>
        (∑ j' ∈ Finset.range p.Nsize, if k = base + i' * p.Nsize + j' then G i' j' else 0)
        + (if k = base + i' * p.Nsize + msa then - cc * t i' - cd * s i' - f * iD * Q i' else 0)
        + (if k = base + i' * p.Nsize + msb then - ca * t i' - cb * s i' + f * iD * P i' else 0))
      (fun m i' _ k => by rw [addAt_apply, addAt_apply, foldl_addAt]; ring)]
    simp only [Finset.sum_add_distrib]
    rw [sum_rowcol base hi hj G, sum_rowfix base msa hi hj ha, sum_rowfix base msb hi hj hb,
      sum_colfix base msa hj, sum_colfix base msb hj]
    have e1 : (if base + i * p.Nsize + j = base + msa * p.Nsize + msb then f * iD else 0)
        = if i = msa ∧ j = msb then N msa msb / D else 0 := by
      by_cases h : i = msa ∧ j = msb
      · rw [if_pos h, if_pos (by rw [h.1, h.2])]; show N msa msb * (1 / D) = _; ring
      · rw [if_neg h, if_neg]
        intro h'; exact h (rowcol_inj (i := i) (i' := msa) hj hb (by omega))
    have e2 : (if base + i * p.Nsize + j = base + msb * p.Nsize + msa then - (f * iD) else 0)
        = - (if i = msb ∧ j = msa then N msa msb / D else 0) := by
      by_cases h : i = msb ∧ j = msa
      · rw [if_pos h, if_pos (by rw [h.1, h.2])]; show - (N msa msb * (1 / D)) = _; ring
      · rw [if_neg h, if_neg, neg_zero]
        intro h'; exact h (rowcol_inj (i := i) (i' := msb) hj ha (by omega))
    rw [e1, e2]
    have efd : f * iD = N msa msb / D := by show N msa msb * (1 / D) = _; ring
    have eN : st.invM (base + i * p.Nsize + j) = N i j := rfl
    have t1 : (if j = msa then - cc * t i - cd * s i - f * iD * Q i else 0)
        = if j = msa then - Q msa * t i + Q msb * s i - N msa msb / D * Q i else 0 := by
      rw [efd]; congr 1; show - Q msa * t i - (- Q msb) * s i - _ = _; ring
    have t2 : (if j = msb then - ca * t i - cb * s i + f * iD * P i else 0)
        = if j = msb then P msa * t i - P msb * s i + N msa msb / D * P i else 0 := by
      rw [efd]; congr 1; show - (- P msa) * t i - P msb * s i + _ = _; ring
    have t3 : (if i = msa then cc * t j + cd * s j + f * iD * Q j else 0)
        = if i = msa then Q msa * t j - Q msb * s j + N msa msb / D * Q j else 0 := by
      rw [efd]; congr 1; show Q msa * t j + (- Q msb) * s j + _ = _; ring
    have t4 : (if i = msb then ca * t j + cb * s j - f * iD * P j else 0)
        = if i = msb then - P msa * t j + P msb * s j - N msa msb / D * P j else 0 := by
      rw [efd]
    have t5 : G i j = - P msa * (Q i * t j - Q j * t i) + P msb * (Q i * s j - Q j * s i) + Q msa * (P i * t j - P j * t i)
        - Q msb * (P i * s j - P j * s i) - (B + A (rs' msb) (rs' msa)) * D * (s i * t j - s j * t i)
        + N msa msb / D * (P i * Q j - Q i * P j) := by
      simp only [G]
      rw [efd]
      show - P msa * _ + P msb * _ + Q msa * _ + (- Q msb) * _ + (- B - A (rs' msb) (rs' msa)) * D * _ + _ = _
      ring
    rw [t1, t2, t3, t4, t5, eN]
    ring

end two

theorem foldl_keep {σ : Type} (n : Nat) (step : σ → Nat → σ) (P : σ → Prop) (st : σ) (h : P st)
    (hs : ∀ s i, i < n → P s → P (step s i)) : P ((List.range n).foldl step st) := by
  induction n with
  | zero => simpa using h
  | succ n ih =>
    rw [List.range_succ, List.foldl_append, List.foldl_cons, List.foldl_nil]
    exact hs _ _ (by omega) (ih (fun s i hi => hs s i (by omega)))

theorem addAt_ne {a : Nat → K} {i k : Nat} {v : K} (h : k ≠ i) : addAt a i v k = a k := by simp [addAt, h]

theorem updateMAllTwoChild_frame (p : PfPar) (slt : Nat → K) (msa rsa msb rsb : Nat) (rs : Nat → Nat) (x : K)
    (qpStart q : Nat) (st : PfState K) {q' i j : Nat} (hq : q' ≠ q) (hi : i < p.Nsize) (hj : j < p.Nsize)
    (ha : msa < p.Nsize) (hb : msb < p.Nsize) :
    entry p.Nsize (updateMAllTwoChild p slt msa rsa msb rsb rs x qpStart q st).invM q' i j
      = entry p.Nsize st.invM q' i j := by
  unfold updateMAllTwoChild
  simp only [entry]
  rw [addAt_ne (block_sep hq hi hj hb ha), addAt_ne (block_sep hq hi hj ha hb)]
  refine foldl_keep p.Nsize _ (fun m : Nat → K => m (q' * p.Nsize * p.Nsize + i * p.Nsize + j) = _) _ ?_ ?_
  · refine foldl_keep p.Nsize _ (fun m : Nat → K => m (q' * p.Nsize * p.Nsize + i * p.Nsize + j) = _) _ rfl ?_
    intro m i' hi' h
    rw [addAt_ne (block_sep hq hi hj hi' hb), addAt_ne (block_sep hq hi hj hi' ha)]
    refine foldl_keep p.Nsize _ (fun m : Nat → K => m (q' * p.Nsize * p.Nsize + i * p.Nsize + j) = _) _ h ?_
    intro m j' hj' h
    rw [addAt_ne (block_sep hq hi hj hi' hj')]
    exact h
  · intro m j' hj' h
    rw [addAt_ne (block_sep hq hi hj hb hj'), addAt_ne (block_sep hq hi hj ha hj')]
    exact h

theorem updateTwoLoop_ok {p : PfPar} {slt : Nat → K} {msa msb : Nat} {rs rs' : Nat → Nat} {qpStart nq : Nat} {st : PfState K}
    (hsk : ∀ q, q < nq → SlaterSkew p.Nsite2 slt (q + qpStart))
    (hrs : ∀ i, i < p.Nsize → rs i < p.Nsite2) (hrs' : ∀ i, i < p.Nsize → rs' i < p.Nsite2)
    (ha : msa < p.Nsize) (hb : msb < p.Nsize) (hab : msa ≠ msb)
    (hne : ∀ i, i < p.Nsize → i ≠ msa → i ≠ msb → rs' i = rs i) (x : Nat → K)
    (hst : PfOK p.Nsize p.Nsite2 slt qpStart nq rs st.pfM st.invM)
    (h0 : ∀ q, q < nq → pfOf (entry p.Nsite2 slt (q + qpStart)) p.Nsize rs' ≠ 0) :
    let st' := (List.range nq).foldl (fun st q =>
      updateMAllTwoChild p slt msa (rs' msa) msb (rs' msb) rs' (x q) qpStart q st) st
    PfOK p.Nsize p.Nsite2 slt qpStart nq rs' st'.pfM st'.invM := by
  intro st'
  let Good (r : Nat → Nat) (q : Nat) (s : PfState K) : Prop :=
    s.pfM q = pfOf (entry p.Nsite2 slt (q + qpStart)) p.Nsize r ∧
      IsInv (entry p.Nsite2 slt (q + qpStart)) p.Nsize r (entry p.Nsize s.invM q)
  have keep : ∀ (r : Nat → Nat) (s : PfState K) (q q' : Nat), q < nq → q' < nq → q' ≠ q → Good r q' s →
      Good r q' (updateMAllTwoChild p slt msa (rs' msa) msb (rs' msb) rs' (x q) qpStart q s) := by
    intro r s q q' _ _ hqq hg
    refine ⟨?_, ?_⟩
    · show setAt s.pfM q _ q' = _
      rw [setAt_ne hqq]; exact hg.1
    · exact isInv_congr (fun _ _ => rfl) (fun _ _ _ _ => rfl)
        (fun i hi j hj => (updateMAllTwoChild_frame p slt msa (rs' msa) msb (rs' msb) rs' (x q) qpStart q s hqq hi hj ha hb).symm)
        hg.2
  refine foldl_blocks nq _ (Good rs) (Good rs') ?_ (keep rs) (keep rs') st hst
  intro s q hq hg
  refine ⟨?_, updateMAllTwoChild_inv (hsk q hq) hrs hrs' ha hb hab hne hg.2 hg.1 (x q) (h0 q hq)⟩
  rw [updateMAllTwoChild_pfM (hsk q hq) hrs hrs' ha hb hab hne hg.2 hg.1 (x q)]
  simp [setAt]

/-! ### new Pfaffian without commit -/

theorem list_sum_rangeK (n : Nat) (f : Nat → K) : ((List.range n).map f).sum = ∑ j ∈ Finset.range n, f j := by
  rw [← sumLoop_eq]
  unfold sumLoop
  rw [foldl_sum_from, zero_add]

theorem newPfM_sum {p : PfPar} {slt : Nat → K} {ma s : Nat} {idx : Arr} {qpStart q : Nat} {st : PfState K}
    (hma : ma < p.Ne) :
    calculateNewPfM p slt ma s idx qpStart st q
      = - (∑ j ∈ Finset.range p.Nsize, entry p.Nsize st.invM q (ma + s * p.Ne) j *
          entry p.Nsite2 slt (q + qpStart) (rsSz p idx (ma + s * p.Ne)) (rsSz p idx j)) * st.pfM q := by
  have hNe : 0 < p.Ne := by omega
  have hrsa : rsSz p idx (ma + s * p.Ne) = (idx (ma + s * p.Ne)).toNat + s * p.Nsite := by
    unfold rsSz
    rw [Nat.add_mul_div_right _ _ hNe, Nat.div_eq_of_lt hma, Nat.zero_add]
  unfold calculateNewPfM
  simp only
  rw [foldl_sum_from, foldl_sum_from, zero_add, hrsa, ← List.sum_append]
  congr 2
  rw [← list_sum_rangeK]
  have hsz : List.range p.Nsize = List.range p.Ne ++ List.range' p.Ne (p.Nsize - p.Ne) := by
    rw [List.range_eq_range', List.range_eq_range']
    have := List.range'_append (s := 0) (m := p.Ne) (n := p.Nsize - p.Ne) (step := 1)
    rw [Nat.zero_add, Nat.one_mul] at this
    rw [this]
    congr 1
    unfold PfPar.Nsize; omega
  rw [hsz, List.map_append]
  congr 2
  · apply List.map_congr_left
    intro j hj
    have hj := List.mem_range.mp hj
    have : rsSz p idx j = (idx j).toNat := by unfold rsSz; rw [Nat.div_eq_of_lt hj]; omega
    rw [this]; rfl
  · apply List.map_congr_left
    intro j hj
    have hj := List.mem_range'_1.mp hj
    have : rsSz p idx j = (idx j).toNat + p.Nsite := by
      unfold rsSz
      have : j / p.Ne = 1 := by
        apply Nat.div_eq_of_lt_le
        · omega
        · unfold PfPar.Nsize at hj; omega
      rw [this]; omega
    rw [this]; rfl

theorem newPfMFsz_sum {p : PfPar} {slt : Nat → K} {ma s : Nat} {idx spn : Arr} {qpStart q : Nat} {st : PfState K}
    (hs : (spn ma).toNat = s) :
    calculateNewPfMFsz p slt ma s idx spn qpStart st q
      = - (∑ j ∈ Finset.range p.Nsize, entry p.Nsize st.invM q ma j *
          entry p.Nsite2 slt (q + qpStart) (rsFsz p idx spn ma) (rsFsz p idx spn j)) * st.pfM q := by
  unfold calculateNewPfMFsz
  simp only [sumLoop_eq, rsFsz, hs]
  rfl

/-! ### from scratch -/

theorem foldl_setAt (n base : Nat) (v : Nat → K) (m : Nat → K) (k : Nat) :
    (List.range n).foldl (fun m j => setAt m (base + j) (v j)) m k
      = if base ≤ k ∧ k < base + n then v (k - base) else m k := by
  induction n with
  | zero => simp; try omega
  | succ n ih =>
    rw [List.range_succ, List.foldl_append, List.foldl_cons, List.foldl_nil]
    unfold setAt
    by_cases e : k = base + n
    · rw [if_pos e, if_pos (by omega)]
      congr 1; omega
    · rw [if_neg e]
      rw [show (List.range n).foldl (fun m j => fun k => if k = base + j then v j else m k) m k
        = (List.range n).foldl (fun m j => setAt m (base + j) (v j)) m k from rfl, ih]
      by_cases h : base ≤ k ∧ k < base + n
      · rw [if_pos h, if_pos (by omega)]
      · rw [if_neg h, if_neg (by omega)]

theorem foldl_setAt2 (n r base : Nat) (v : Nat → Nat → K) (m : Nat → K) :
    (∀ i j, i < r → j < n → (List.range r).foldl (fun m i => (List.range n).foldl (fun m j =>
      setAt m (base + i * n + j) (v i j)) m) m (base + i * n + j) = v i j) ∧
    (∀ k, k < base ∨ base + r * n ≤ k → (List.range r).foldl (fun m i => (List.range n).foldl (fun m j =>
      setAt m (base + i * n + j) (v i j)) m) m k = m k) := by
  induction r with
  | zero => exact ⟨fun i j hi => by omega, fun k _ => by simp⟩
  | succ r ih =>
    rw [List.range_succ, List.foldl_append, List.foldl_cons, List.foldl_nil]
    refine ⟨fun i j hi hj => ?_, fun k hk => ?_⟩
    · rw [foldl_setAt]
      by_cases e : i = r
      · subst e
        rw [if_pos (by omega)]
        congr 1; omega
      · rw [if_neg]
        · exact ih.1 i j (by omega) hj
        · intro h
          have : (i + 1) * n ≤ r * n := Nat.mul_le_mul_right n (by omega)
          rw [Nat.add_mul] at this
          omega
    · rw [foldl_setAt, if_neg]
      · apply ih.2
        rw [Nat.add_mul] at hk
        omega
      · rw [Nat.add_mul] at hk
        omega

/-- The contract of the factorisation library for the column-major matrix `B[i+n*j]`:
a returned pair is the Pfaffian of `B` and the column-major inverse of `B`. -/
def LibOK (lib : SkLib K) : Prop :=
  ∀ n (b : Nat → K) pfaff inv, lib n b = some (pfaff, inv) →
    (∀ i j, i < n → j < n → b (i + n * j) = - b (j + n * i)) →
    (∀ i, i < n → b (i + n * i) = 0) →
    pfaff = pfOf (fun i j => b (i + n * j)) n id ∧
    (∀ i, i < n → ∀ j, j < n → ∑ k ∈ Finset.range n, inv (i + n * k) * b (k + n * j) = if i = j then 1 else 0)

theorem pf_map {α β : Type} (f : β → α) (A : α → α → K) : ∀ (n : Nat) (l : List β), l.length ≤ n →
    pf A (l.map f) = pf (fun x y => A (f x) (f y)) l
  | _, [], _ => rfl
  | n + 1, x :: l, hl => by
    rw [List.map_cons, pf_cons, pf_cons]
    simp only [List.length_cons] at hl
    have H : ∀ (F : List α → K) (G : List β → K) (l : List β), (∀ m, m.length + 1 = l.length → F (m.map f) = G m) →
        altSum (A (f x)) F (l.map f) = altSum (fun y => A (f x) (f y)) G l := by
      intro F G l
      induction l generalizing F G with
      | nil => intro _; rfl
      | cons y l ih =>
        intro h
        rw [List.map_cons, altSum_cons', altSum_cons', h l (by simp),
          ih (fun m => F (f y :: m)) (fun m => G (y :: m))]
        intro m hm
        have := h (y :: m) (by simp only [List.length_cons]; omega)
        simpa using this
    apply H
    intro m hm
    exact pf_map f A n m (by omega)

theorem pfOf_id {α : Type} (A : α → α → K) (n : Nat) (rs : Nat → α) :
    pfOf A n rs = pfOf (fun i j => A (rs i) (rs j)) n id := by
  unfold pfOf
  rw [pf_map rs A _ _ (Nat.le_refl _), List.map_id]

theorem calculateMAllChild_ok {p : PfPar} {lib : SkLib K} (hlib : LibOK lib) {slt : Nat → K} {qpStart q : Nat}
    {rs : Nat → Nat} {st st' : PfState K} (hsk : SlaterSkew p.Nsite2 slt (q + qpStart))
    (hrs : ∀ i, i < p.Nsize → rs i < p.Nsite2) (h : calculateMAllChild p lib slt qpStart q rs st = some st') :
    st'.pfM q = pfOf (entry p.Nsite2 slt (q + qpStart)) p.Nsize rs ∧
    IsInv (entry p.Nsite2 slt (q + qpStart)) p.Nsize rs (entry p.Nsize st'.invM q) ∧
    (∀ q', q' ≠ q → st'.pfM q' = st.pfM q') ∧
    (∀ q', q' ≠ q → ∀ i, i < p.Nsize → ∀ j, j < p.Nsize → entry p.Nsize st'.invM q' i j = entry p.Nsize st.invM q' i j) := by
  unfold calculateMAllChild at h
  simp only at h
  generalize hinv1 : (List.range p.Nsize).foldl (fun m msi =>
    (List.range p.Nsize).foldl (fun m msj =>
      setAt m (q * p.Nsize * p.Nsize + msi * p.Nsize + msj) (- sltAt p slt (q + qpStart) (rs msi) (rs msj))) m) st.invM
    = inv1 at h
  have hval := foldl_setAt2 p.Nsize p.Nsize (q * p.Nsize * p.Nsize)
    (fun i j => - sltAt p slt (q + qpStart) (rs i) (rs j)) st.invM
  rw [hinv1] at hval
  cases hl : lib p.Nsize (fun k => inv1 (q * p.Nsize * p.Nsize + k)) with
  | none => rw [hl] at h; simp at h
  | some r =>
    obtain ⟨pfaff, inv2⟩ := r
    rw [hl] at h
    simp only [Option.some.injEq] at h
    -- column-major entry (i,j) is sltE[rs i][rs j]
    have hb : ∀ i j, i < p.Nsize → j < p.Nsize → inv1 (q * p.Nsize * p.Nsize + (i + p.Nsize * j))
        = entry p.Nsite2 slt (q + qpStart) (rs i) (rs j) := by
      intro i j hi hj
      have := hval.1 j i hj hi
      rw [show q * p.Nsize * p.Nsize + (i + p.Nsize * j) = q * p.Nsize * p.Nsize + j * p.Nsize + i by
        rw [Nat.mul_comm p.Nsize j]; omega, this]
      rw [hsk.1 _ _ (hrs i hi) (hrs j hj)]
      rfl
    have hc := hlib p.Nsize _ pfaff inv2 hl
      (by intro i j hi hj; rw [hb i j hi hj, hb j i hj hi]; exact hsk.1 _ _ (hrs i hi) (hrs j hj))
      (by intro i hi; rw [hb i i hi hi]; exact hsk.2 _ (hrs i hi))
    have hE : ∀ i j, i < p.Nsize → j < p.Nsize → inv1 (q * p.Nsize * p.Nsize + (j + p.Nsize * i))
        = - inv1 (q * p.Nsize * p.Nsize + (i + p.Nsize * j)) := by
      intro i j hi hj; rw [hb i j hi hj, hb j i hj hi]; exact hsk.1 _ _ (hrs j hj) (hrs i hi)
    subst h
    -- the inverse returned by the library is antisymmetric
    have hI2 : IsInv (fun i j => inv1 (q * p.Nsize * p.Nsize + (i + p.Nsize * j))) p.Nsize id
        (fun i j => inv2 (i + p.Nsize * j)) := hc.2
    have hsk2 : SkewOn (· < p.Nsize) (fun i j => inv1 (q * p.Nsize * p.Nsize + (i + p.Nsize * j))) :=
      ⟨fun i j hi hj => hE j i hj hi, fun i hi => by
        show inv1 (q * p.Nsize * p.Nsize + (i + p.Nsize * i)) = 0
        rw [hb i i hi hi]; exact hsk.2 _ (hrs i hi)⟩
    have hskew := inv_skew_on hsk2 (fun i hi => hi) hI2
    have hfin : ∀ i j, i < p.Nsize → j < p.Nsize →
        entry p.Nsize ((List.range (p.Nsize * p.Nsize)).foldl
          (fun m k => setAt m (q * p.Nsize * p.Nsize + k) (-1 * inv2 k)) inv1) q i j = inv2 (i + p.Nsize * j) := by
      intro i j hi hj
      have hlt : i * p.Nsize + j < p.Nsize * p.Nsize := by
        have : (i + 1) * p.Nsize ≤ p.Nsize * p.Nsize := Nat.mul_le_mul_right _ (by omega)
        rw [Nat.add_mul] at this; omega
      unfold entry
      rw [foldl_setAt, if_pos (by omega)]
      rw [show q * p.Nsize * p.Nsize + i * p.Nsize + j - q * p.Nsize * p.Nsize = j + p.Nsize * i by
        rw [Nat.mul_comm p.Nsize i]; omega]
      have := hskew i hi j hj
      rw [this]; ring
    refine ⟨?_, ?_, ?_, ?_⟩
    · simp only [setAt, if_true]
      rw [hc.1, pfOf_id (entry p.Nsite2 slt (q + qpStart)) p.Nsize rs]
      apply pfOf_congr (fun _ _ => rfl)
      intro i hi j hj
      exact hb i j hi hj
    · intro i hi j hj
      rw [← hc.2 i hi j hj]
      apply Finset.sum_congr rfl
      intro k hk
      have hk := Finset.mem_range.mp hk
      rw [hb k j hk hj]
      congr 1
      exact hfin i k hi hk
    · intro q' hq'
      exact setAt_ne hq'
    · intro q' hq' i hi j hj
      have hout : q' * p.Nsize * p.Nsize + i * p.Nsize + j < q * p.Nsize * p.Nsize ∨
          q * p.Nsize * p.Nsize + p.Nsize * p.Nsize ≤ q' * p.Nsize * p.Nsize + i * p.Nsize + j := by
        have hlt : i * p.Nsize + j < p.Nsize * p.Nsize := by
          have : (i + 1) * p.Nsize ≤ p.Nsize * p.Nsize := Nat.mul_le_mul_right _ (by omega)
          rw [Nat.add_mul] at this; omega
        rcases Nat.lt_or_gt_of_ne hq' with hlt' | hgt
        · left
          have : (q' + 1) * (p.Nsize * p.Nsize) ≤ q * (p.Nsize * p.Nsize) := Nat.mul_le_mul_right _ hlt'
          rw [Nat.add_mul, Nat.one_mul, ← Nat.mul_assoc, ← Nat.mul_assoc] at this
          omega
        · right
          have : (q + 1) * (p.Nsize * p.Nsize) ≤ q' * (p.Nsize * p.Nsize) := Nat.mul_le_mul_right _ hgt
          rw [Nat.add_mul, Nat.one_mul, ← Nat.mul_assoc, ← Nat.mul_assoc] at this
          omega
      show (List.range (p.Nsize * p.Nsize)).foldl (fun m k => setAt m (q * p.Nsize * p.Nsize + k) (-1 * inv2 k)) inv1 _ = _
      rw [foldl_setAt, if_neg (by omega), hval.2 _ hout]
      rfl

theorem calculateMAll_ok {p : PfPar} {lib : SkLib K} (hlib : LibOK lib) {slt : Nat → K} {qpStart qpEnd : Nat}
    {rs : Nat → Nat} {st st' : PfState K} (hsk : ∀ q, q < qpEnd - qpStart → SlaterSkew p.Nsite2 slt (q + qpStart))
    (hrs : ∀ i, i < p.Nsize → rs i < p.Nsite2) (h : calculateMAll p lib slt qpStart qpEnd rs st = some st') :
    PfOK p.Nsize p.Nsite2 slt qpStart (qpEnd - qpStart) rs st'.pfM st'.invM := by
  unfold calculateMAll at h
  suffices H : ∀ k, k ≤ qpEnd - qpStart → ∀ st', (List.range k).foldl (fun o q =>
      match o with
      | none => none
      | some st => calculateMAllChild p lib slt qpStart q rs st) (some st) = some st' →
      PfOK p.Nsize p.Nsite2 slt qpStart k rs st'.pfM st'.invM from H _ (Nat.le_refl _) st' h
  intro k
  induction k with
  | zero => intro _ st' _ q hq; omega
  | succ k ih =>
    intro hk st' h'
    rw [List.range_succ, List.foldl_append, List.foldl_cons, List.foldl_nil] at h'
    generalize ho : (List.range k).foldl (fun o q =>
      match o with
      | none => none
      | some st => calculateMAllChild p lib slt qpStart q rs st) (some st) = o at h'
    cases o with
    | none => simp at h'
    | some s1 =>
      simp only at h'
      have h1 := ih (by omega) s1 ho
      obtain ⟨c1, c2, c3, c4⟩ := calculateMAllChild_ok hlib (hsk k (by omega)) hrs h'
      intro q hq
      by_cases e : q = k
      · subst e; exact ⟨c1, c2⟩
      · have := h1 q (by omega)
        refine ⟨by rw [c3 q e]; exact this.1, ?_⟩
        exact isInv_congr (fun _ _ => rfl) (fun _ _ _ _ => rfl) (fun i hi j hj => (c4 q e i hi j hj).symm) this.2

end MVMC
