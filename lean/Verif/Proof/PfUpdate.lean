import Verif.Model.PfUpdate
import Verif.Spec.PfState
import Verif.Proof.InvUpdate

/-! The array loops of the Pfaffian updates. -/
namespace MVMC
open Spec

variable {K : Type} [Field K]

/-! ### loops -/

theorem foldl_range_additive (n : Nat) (step : (Nat → K) → Nat → (Nat → K)) (g : Nat → Nat → K)
    (h : ∀ m i, i < n → ∀ k, step m i k = m k + g i k) (m : Nat → K) (k : Nat) :
    (List.range n).foldl step m k = m k + ∑ i ∈ Finset.range n, g i k := by
  induction n generalizing m with
  | zero => simp
  | succ n ih =>
    rw [List.range_succ, List.foldl_append, List.foldl_cons, List.foldl_nil, h _ n (by omega),
      ih (fun m i hi => h m i (by omega)), Finset.sum_range_succ]
    ring

theorem addAt_apply (a : Nat → K) (i : Nat) (v : K) (k : Nat) : addAt a i v k = a k + if k = i then v else 0 := by
  unfold addAt; split <;> simp

theorem foldl_addAt (n : Nat) (ix : Nat → Nat) (v : Nat → K) (m : Nat → K) (k : Nat) :
    (List.range n).foldl (fun m j => addAt m (ix j) (v j)) m k
      = m k + ∑ j ∈ Finset.range n, if k = ix j then v j else 0 :=
  foldl_range_additive n _ (fun j k => if k = ix j then v j else 0) (fun m i _ k => addAt_apply m (ix i) (v i) k) m k

theorem sumLoop_eq (n : Nat) (f : Nat → K) : sumLoop n f = ∑ j ∈ Finset.range n, f j := by
  unfold sumLoop
  induction n with
  | zero => simp
  | succ n ih => rw [List.range_succ, List.foldl_append, List.foldl_cons, List.foldl_nil, ih, Finset.sum_range_succ]

theorem foldl_sum_from (l : List Nat) (f : Nat → K) (z : K) :
    l.foldl (fun z j => z + f j) z = z + (l.map f).sum := by
  induction l generalizing z with
  | nil => simp
  | cons x l ih => rw [List.foldl_cons, ih, List.map_cons, List.sum_cons]; ring

theorem rowcol_inj {n i j i' j' : Nat} (hj : j < n) (hj' : j' < n) (h : i * n + j = i' * n + j') : i = i' ∧ j = j' := by
  have hn : 0 < n := by omega
  have h1 : (i * n + j) / n = i := by rw [Nat.mul_comm, Nat.mul_add_div hn, Nat.div_eq_of_lt hj]; omega
  have h2 : (i' * n + j') / n = i' := by rw [Nat.mul_comm, Nat.mul_add_div hn, Nat.div_eq_of_lt hj']; omega
  have : i = i' := by rw [← h1, ← h2, h]
  subst this
  exact ⟨rfl, by omega⟩

theorem sum_rowcol {n i j : Nat} (base : Nat) (hi : i < n) (hj : j < n) (v : Nat → Nat → K) :
    (∑ i' ∈ Finset.range n, ∑ j' ∈ Finset.range n,
      if base + i * n + j = base + i' * n + j' then v i' j' else 0) = v i j := by
  rw [Finset.sum_eq_single i, Finset.sum_eq_single j]
  · simp
  · intro j' hj' hne
    rw [if_neg]; omega
  · intro hc; exact absurd (Finset.mem_range.mpr hj) hc
  · intro i' hi' hne
    apply Finset.sum_eq_zero
    intro j' hj'
    rw [if_neg]
    intro h
    exact hne (rowcol_inj hj (Finset.mem_range.mp hj') (by omega)).1.symm
  · intro hc; exact absurd (Finset.mem_range.mpr hi) hc

theorem sum_rowfix {n i j : Nat} (base a : Nat) (hi : i < n) (hj : j < n) (ha : a < n) (v : Nat → K) :
    (∑ i' ∈ Finset.range n, if base + i * n + j = base + i' * n + a then v i' else 0) = if j = a then v i else 0 := by
  by_cases h : j = a
  · subst h
    rw [if_pos rfl, Finset.sum_eq_single i]
    · simp
    · intro i' _ hne
      rw [if_neg]
      intro h
      exact hne (rowcol_inj hj hj (by omega)).1.symm
    · intro hc; exact absurd (Finset.mem_range.mpr hi) hc
  · rw [if_neg h]
    apply Finset.sum_eq_zero
    intro i' _
    rw [if_neg]
    intro h'
    exact h (rowcol_inj (i := i) (i' := i') hj ha (by omega)).2

theorem sum_colfix {n i j : Nat} (base a : Nat) (hj : j < n) (v : Nat → K) :
    (∑ j' ∈ Finset.range n, if base + i * n + j = base + a * n + j' then v j' else 0) = if i = a then v j else 0 := by
  by_cases h : i = a
  · subst h
    rw [if_pos rfl, Finset.sum_eq_single j]
    · simp
    · intro j' _ hne
      rw [if_neg]; omega
    · intro hc; exact absurd (Finset.mem_range.mpr hj) hc
  · rw [if_neg h]
    apply Finset.sum_eq_zero
    intro j' hj'
    rw [if_neg]
    intro h'
    exact h (rowcol_inj hj (Finset.mem_range.mp hj') (by omega)).1

theorem block_sep {n q q' i j i' j' : Nat} (hq : q ≠ q') (hi : i < n) (hj : j < n) (hi' : i' < n) (hj' : j' < n) :
    q * n * n + i * n + j ≠ q' * n * n + i' * n + j' := by
  intro h
  have h1 : (q * n + i) * n + j = (q' * n + i') * n + j' := by
    rw [Nat.add_mul, Nat.add_mul]; exact h
  have h2 := (rowcol_inj hj hj' h1).1
  exact hq (rowcol_inj hi hi' h2).1

/-! ### one electron -/

section one
variable (p : PfPar) (slt : Nat → K) (msa rsa : Nat) (rs : Nat → Nat) (qpStart q : Nat) (st : PfState K)

/-- the vector `vec1` of `updateMAll_child` -/
def vec1Of : Nat → K := (List.range p.Nsize).foldl (fun v msj =>
    (List.range p.Nsize).foldl (fun v msi =>
      addAt v msi (- invAt p st.invM q msj msi * sltAt p slt (q + qpStart) rsa (rs msj))) v) (fun _ => 0)

theorem vec1Of_eq {i : Nat} (hi : i < p.Nsize) : vec1Of p slt rsa rs qpStart q st i
    = ∑ j ∈ Finset.range p.Nsize, - invAt p st.invM q j i * sltAt p slt (q + qpStart) rsa (rs j) := by
  unfold vec1Of
  rw [foldl_range_additive p.Nsize _ (fun j k => ∑ i ∈ Finset.range p.Nsize,
      if k = i then - invAt p st.invM q j i * sltAt p slt (q + qpStart) rsa (rs j) else 0)
    (fun m j _ k => foldl_addAt p.Nsize (fun i => i) _ m k)]
  rw [zero_add]
  apply Finset.sum_congr rfl
  intro j _
  rw [Finset.sum_ite_eq, if_pos (Finset.mem_range.mpr hi)]

theorem updateMAllChild_pfM : (updateMAllChild p slt msa rsa rs qpStart q st).pfM
    = setAt st.pfM q (st.pfM q * (- vec1Of p slt rsa rs qpStart q st msa)) := rfl

theorem updateMAllChild_inv {i j : Nat} (hi : i < p.Nsize) (hj : j < p.Nsize) (ha : msa < p.Nsize) :
    let v1 := vec1Of p slt rsa rs qpStart q st
    let v2 := fun i => invAt p st.invM q msa i * (-1 / v1 msa)
    entry p.Nsize (updateMAllChild p slt msa rsa rs qpStart q st).invM q i j
      = entry p.Nsize st.invM q i j + (v1 i * v2 j - v1 j * v2 i) + (if j = msa then - v2 i else 0)
        + (if i = msa then v2 j else 0) := by
  intro v1 v2
  show (List.range p.Nsize).foldl (fun m msj => addAt m (q * p.Nsize * p.Nsize + msa * p.Nsize + msj) (v2 msj))
    ((List.range p.Nsize).foldl (fun m msi =>
      addAt ((List.range p.Nsize).foldl (fun m msj =>
        addAt m (q * p.Nsize * p.Nsize + msi * p.Nsize + msj) (v1 msi * v2 msj - v1 msj * v2 msi)) m)
        (q * p.Nsize * p.Nsize + msi * p.Nsize + msa) (- v2 msi)) st.invM)
      (q * p.Nsize * p.Nsize + i * p.Nsize + j) = _
  rw [foldl_addAt, sum_colfix _ _ hj]
  rw [foldl_range_additive p.Nsize _ (fun i' k => (∑ j' ∈ Finset.range p.Nsize,
      if k = q * p.Nsize * p.Nsize + i' * p.Nsize + j' then v1 i' * v2 j' - v1 j' * v2 i' else 0)
        + if k = q * p.Nsize * p.Nsize + i' * p.Nsize + msa then - v2 i' else 0)
    (fun m i' _ k => by
      rw [addAt_apply, foldl_addAt]; ring)]
  rw [Finset.sum_add_distrib, sum_rowcol _ hi hj (fun i' j' => v1 i' * v2 j' - v1 j' * v2 i'),
    sum_rowfix _ _ hi hj ha]
  unfold entry
  ring

theorem updateMAllChild_frame {q' i j : Nat} (hq : q' ≠ q) (hi : i < p.Nsize) (hj : j < p.Nsize) (ha : msa < p.Nsize) :
    entry p.Nsize (updateMAllChild p slt msa rsa rs qpStart q st).invM q' i j = entry p.Nsize st.invM q' i j := by
  let v1 := vec1Of p slt rsa rs qpStart q st
  let v2 := fun i => invAt p st.invM q msa i * (-1 / v1 msa)
  show (List.range p.Nsize).foldl (fun m msj => addAt m (q * p.Nsize * p.Nsize + msa * p.Nsize + msj) (v2 msj))
    ((List.range p.Nsize).foldl (fun m msi =>
      addAt ((List.range p.Nsize).foldl (fun m msj =>
        addAt m (q * p.Nsize * p.Nsize + msi * p.Nsize + msj) (v1 msi * v2 msj - v1 msj * v2 msi)) m)
        (q * p.Nsize * p.Nsize + msi * p.Nsize + msa) (- v2 msi)) st.invM)
      (q' * p.Nsize * p.Nsize + i * p.Nsize + j) = _
  rw [foldl_addAt, foldl_range_additive p.Nsize _ (fun i' k => (∑ j' ∈ Finset.range p.Nsize,
      if k = q * p.Nsize * p.Nsize + i' * p.Nsize + j' then v1 i' * v2 j' - v1 j' * v2 i' else 0)
        + if k = q * p.Nsize * p.Nsize + i' * p.Nsize + msa then - v2 i' else 0)
    (fun m i' _ k => by
      rw [addAt_apply, foldl_addAt]; ring)]
  rw [Finset.sum_eq_zero, Finset.sum_eq_zero]
  · unfold entry; ring
  · intro j' hj'
    rw [if_neg (block_sep hq hi hj ha (Finset.mem_range.mp hj'))]
  · intro i' hi'
    rw [if_neg (block_sep hq hi hj (Finset.mem_range.mp hi') ha), add_zero]
    apply Finset.sum_eq_zero
    intro j' hj'
    rw [if_neg (block_sep hq hi hj (Finset.mem_range.mp hi') (Finset.mem_range.mp hj'))]

end one

/-! ### from arrays to matrices -/

section lift
variable {n m : Nat} {A : Nat → Nat → K} (hsk : SkewOn (· < m) A)
include hsk

theorem lift_inv {rs : Nat → Nat} (hrs : ∀ i, i < n → rs i < m) {N : Nat → Nat → K} (h : IsInv A n rs N) :
    IsInv (cut (· < m) A) n rs N :=
  isInv_congr (fun _ _ => rfl) (fun i hi j hj => (cut_eq (S := (· < m)) (hrs i hi) (hrs j hj)).symm) (fun _ _ _ _ => rfl) h

omit hsk in
theorem lower_inv {rs : Nat → Nat} (hrs : ∀ i, i < n → rs i < m) {N : Nat → Nat → K}
    (h : IsInv (cut (· < m) A) n rs N) : IsInv A n rs N :=
  isInv_congr (fun _ _ => rfl) (fun i hi j hj => cut_eq (S := (· < m)) (hrs i hi) (hrs j hj)) (fun _ _ _ _ => rfl) h

omit hsk in
theorem lift_pf {rs : Nat → Nat} (hrs : ∀ i, i < n → rs i < m) : pfOf (cut (· < m) A) n rs = pfOf A n rs :=
  pfOf_congr (fun _ _ => rfl) (fun i hi j hj => cut_eq (S := (· < m)) (hrs i hi) (hrs j hj))

theorem inv_skew_on {rs : Nat → Nat} (hrs : ∀ i, i < n → rs i < m) {N : Nat → Nat → K} (h : IsInv A n rs N) :
    ∀ i, i < n → ∀ j, j < n → N i j = - N j i := isInv_skew hsk.cut (lift_inv hsk hrs h)

/-- one row, kernel antisymmetric on the valid indices only -/
theorem pfOf_change {rs rs' : Nat → Nat} (hrs : ∀ i, i < n → rs i < m) (hrs' : ∀ i, i < n → rs' i < m)
    {a : Nat} (ha : a < n) (hne : ∀ i, i < n → i ≠ a → rs' i = rs i) {N : Nat → Nat → K} (h : IsInv A n rs N) :
    pfOf A n rs' = (- ∑ j ∈ Finset.range n, N a j * A (rs' a) (rs' j)) * pfOf A n rs := by
  rw [← lift_pf hrs, ← lift_pf hrs']
  rw [← pfOf_update hsk.cut (lift_inv hsk hrs h) ha (rs' a) (fun j => A (rs' a) (rs' j))
    (fun i hi hia => by rw [hne i hi hia, cut_eq (S := (· < m)) (hrs' a ha) (hrs i hi)])]
  apply pfOf_congr
  · intro i hi
    by_cases e : i = a
    · rw [e, Function.update_self]
    · rw [Function.update_of_ne e, hne i hi e]
  · intros; rfl

theorem isInv_change {rs rs' : Nat → Nat} (hrs : ∀ i, i < n → rs i < m) (hrs' : ∀ i, i < n → rs' i < m)
    {a : Nat} (ha : a < n) (hne : ∀ i, i < n → i ≠ a → rs' i = rs i) {N N' : Nat → Nat → K} (h : IsInv A n rs N)
    (P r : Nat → K) (hP : ∀ i, i < n → P i = ∑ j ∈ Finset.range n, N i j * A (rs' a) (rs' j)) (hp0 : P a ≠ 0)
    (hr : ∀ i, i < n → r i = N a i * (-1 / P a))
    (hN' : ∀ i, i < n → ∀ j, j < n → N' i j = N i j + (P i * r j - P j * r i) + (if j = a then - r i else 0)
      + (if i = a then r j else 0)) : IsInv A n rs' N' := by
  apply lower_inv hrs'
  have := isInv_update hsk.cut (lift_inv hsk hrs h) ha (rs' a) (fun j => A (rs' a) (rs' j)) P r
    (hsk.diag _ (hrs' a ha)) (fun i hi hia => by rw [hne i hi hia, cut_eq (S := (· < m)) (hrs' a ha) (hrs i hi)]) hP hp0 hr hN'
  refine isInv_congr ?_ (fun _ _ _ _ => rfl) (fun _ _ _ _ => rfl) this
  intro i hi
  by_cases e : i = a
  · rw [e, Function.update_self]
  · rw [Function.update_of_ne e, hne i hi e]

/-- two rows -/
theorem pfOf_change2 {rs rs' : Nat → Nat} (hrs : ∀ i, i < n → rs i < m) (hrs' : ∀ i, i < n → rs' i < m)
    {a b : Nat} (ha : a < n) (hb : b < n) (hab : a ≠ b) (hne : ∀ i, i < n → i ≠ a → i ≠ b → rs' i = rs i)
    {N : Nat → Nat → K} (h : IsInv A n rs N) (u : Nat → K)
    (hu : ∀ i, i < n → i ≠ a → i ≠ b → u i = A (rs' a) (rs' i)) :
    pfOf A n rs' = (N a b * (A (rs' b) (rs' a) + ∑ i ∈ Finset.range n, A (rs' b) (rs' i) * ∑ j ∈ Finset.range n, N i j * u j)
        + (∑ j ∈ Finset.range n, N a j * u j) * (∑ j ∈ Finset.range n, N b j * A (rs' b) (rs' j))
        - (∑ j ∈ Finset.range n, N b j * u j) * (∑ j ∈ Finset.range n, N a j * A (rs' b) (rs' j))) * pfOf A n rs := by
  have := pfOf_update2 hsk.cut (lift_inv hsk hrs h) ha hb hab (rs' a) (rs' b) u (fun j => A (rs' b) (rs' j))
    (fun i hi h1 h2 => by rw [hu i hi h1 h2, hne i hi h1 h2, cut_eq (S := (· < m)) (hrs' a ha) (hrs i hi)])
    (fun i hi h1 h2 => by rw [hne i hi h1 h2, cut_eq (S := (· < m)) (hrs' b hb) (hrs i hi)])
  rw [cut_eq (S := (· < m)) (hrs' b hb) (hrs' a ha), lift_pf hrs] at this
  rw [← this, ← lift_pf hrs']
  apply pfOf_congr
  · intro i hi
    by_cases e : i = b
    · rw [e, Function.update_self]
    · rw [Function.update_of_ne e]
      by_cases e' : i = a
      · rw [e', Function.update_self]
      · rw [Function.update_of_ne e', hne i hi e' e]
  · intros; rfl

theorem isInv_change2 {rs rs' : Nat → Nat} (hrs : ∀ i, i < n → rs i < m) (hrs' : ∀ i, i < n → rs' i < m)
    {a b : Nat} (ha : a < n) (hb : b < n) (hab : a ≠ b) (hne : ∀ i, i < n → i ≠ a → i ≠ b → rs' i = rs i)
    {N N' : Nat → Nat → K} (h : IsInv A n rs N) (u P Q s t : Nat → K) {B D : K} (hua : u a = 0)
    (hu : ∀ i, i < n → i ≠ a → i ≠ b → u i = A (rs' a) (rs' i))
    (hP : ∀ i, i < n → P i = ∑ j ∈ Finset.range n, N i j * u j)
    (hQ : ∀ i, i < n → Q i = ∑ j ∈ Finset.range n, N i j * A (rs' b) (rs' j))
    (hB : B = ∑ i ∈ Finset.range n, A (rs' b) (rs' i) * P i)
    (hD : D = P a * Q b - P b * Q a + (B + A (rs' b) (rs' a)) * N a b) (hD0 : D ≠ 0)
    (hs : ∀ i, i < n → s i = N a i / D) (ht : ∀ i, i < n → t i = N b i / D)
    (hN' : ∀ i, i < n → ∀ j, j < n → N' i j = N i j
      + (- P a * (Q i * t j - Q j * t i) + P b * (Q i * s j - Q j * s i) + Q a * (P i * t j - P j * t i)
        - Q b * (P i * s j - P j * s i) - (B + A (rs' b) (rs' a)) * D * (s i * t j - s j * t i)
        + N a b / D * (P i * Q j - Q i * P j))
      + (if j = a then - Q a * t i + Q b * s i - N a b / D * Q i else 0)
      + (if j = b then P a * t i - P b * s i + N a b / D * P i else 0)
      + (if i = a then Q a * t j - Q b * s j + N a b / D * Q j else 0)
      + (if i = b then - P a * t j + P b * s j - N a b / D * P j else 0)
      + (if i = a ∧ j = b then N a b / D else 0) - (if i = b ∧ j = a then N a b / D else 0)) :
    IsInv A n rs' N' := by
  apply lower_inv hrs'
  have := isInv_update2 hsk.cut (lift_inv hsk hrs h) ha hb hab (rs' a) (rs' b) u (fun j => A (rs' b) (rs' j)) P Q s t
    (B := B) (D := D) hua (hsk.diag _ (hrs' b hb)) (by rw [cut_eq (S := (· < m)) (hrs' b hb) (hrs' a ha)])
    (fun i hi h1 h2 => by rw [hu i hi h1 h2, hne i hi h1 h2, cut_eq (S := (· < m)) (hrs' a ha) (hrs i hi)])
    (fun i hi h1 h2 => by rw [hne i hi h1 h2, cut_eq (S := (· < m)) (hrs' b hb) (hrs i hi)]) hP hQ hB hD hD0 hs ht hN'
  refine isInv_congr ?_ (fun _ _ _ _ => rfl) (fun _ _ _ _ => rfl) this
  intro i hi
  by_cases e : i = b
  · rw [e, Function.update_self]
  · rw [Function.update_of_ne e]
    by_cases e' : i = a
    · rw [e', Function.update_self]
    · rw [Function.update_of_ne e', hne i hi e' e]

end lift

theorem slaterSkew_on {m : Nat} {slt : Nat → K} {q : Nat} (h : SlaterSkew m slt q) : SkewOn (· < m) (entry m slt q) :=
  ⟨h.1, h.2⟩

/-! ### one electron: correctness -/

section oneOK
variable {p : PfPar} {slt : Nat → K} {msa : Nat} {rs rs' : Nat → Nat} {qpStart q : Nat} {st : PfState K}
  (hsk : SlaterSkew p.Nsite2 slt (q + qpStart))
  (hrs : ∀ i, i < p.Nsize → rs i < p.Nsite2) (hrs' : ∀ i, i < p.Nsize → rs' i < p.Nsite2)
  (ha : msa < p.Nsize) (hne : ∀ i, i < p.Nsize → i ≠ msa → rs' i = rs i)
  (hI : IsInv (entry p.Nsite2 slt (q + qpStart)) p.Nsize rs (entry p.Nsize st.invM q))
include hsk hrs hI

theorem vec1Of_spec {i : Nat} (hi : i < p.Nsize) : vec1Of p slt (rs' msa) rs' qpStart q st i
    = ∑ j ∈ Finset.range p.Nsize, entry p.Nsize st.invM q i j * entry p.Nsite2 slt (q + qpStart) (rs' msa) (rs' j) := by
  rw [vec1Of_eq p slt (rs' msa) rs' qpStart q st hi]
  apply Finset.sum_congr rfl
  intro j hj
  rw [inv_skew_on (slaterSkew_on hsk) hrs hI i hi j (Finset.mem_range.mp hj)]
  rfl

include hrs' ha hne

theorem updateMAllChild_ok (hpf : st.pfM q = pfOf (entry p.Nsite2 slt (q + qpStart)) p.Nsize rs)
    (h0 : pfOf (entry p.Nsite2 slt (q + qpStart)) p.Nsize rs' ≠ 0) :
    (updateMAllChild p slt msa (rs' msa) rs' qpStart q st).pfM q = pfOf (entry p.Nsite2 slt (q + qpStart)) p.Nsize rs' ∧
    IsInv (entry p.Nsite2 slt (q + qpStart)) p.Nsize rs'
      (entry p.Nsize (updateMAllChild p slt msa (rs' msa) rs' qpStart q st).invM q) := by
  have hr := pfOf_change (slaterSkew_on hsk) hrs hrs' ha hne hI
  have hv := vec1Of_spec (rs' := rs') (msa := msa) hsk hrs hI ha
  have hp0 : vec1Of p slt (rs' msa) rs' qpStart q st msa ≠ 0 := by
    intro h
    rw [hv] at h
    rw [h] at hr
    exact h0 (by rw [hr]; ring)
  constructor
  · rw [updateMAllChild_pfM]
    simp only [setAt, if_true]
    rw [hv, hpf, hr]; ring
  · exact isInv_change (slaterSkew_on hsk) hrs hrs' ha hne hI _ _ (fun i hi => vec1Of_spec hsk hrs hI hi) hp0
      (fun _ _ => rfl) (fun i hi j hj => updateMAllChild_inv p slt msa (rs' msa) rs' qpStart q st hi hj ha)

end oneOK

/-- a loop over `q` in which step `q` establishes the property of block `q` and keeps the other blocks -/
theorem foldl_blocks {σ : Type} (nq : Nat) (step : σ → Nat → σ) (Old New : Nat → σ → Prop)
    (hnew : ∀ st q, q < nq → Old q st → New q (step st q))
    (hkeepO : ∀ st q q', q < nq → q' < nq → q' ≠ q → Old q' st → Old q' (step st q))
    (hkeepN : ∀ st q q', q < nq → q' < nq → q' ≠ q → New q' st → New q' (step st q))
    (st : σ) (h : ∀ q, q < nq → Old q st) : ∀ q, q < nq → New q ((List.range nq).foldl step st) := by
  suffices H : ∀ k, k ≤ nq → (∀ q, q < k → New q ((List.range k).foldl step st)) ∧
      ∀ q, k ≤ q → q < nq → Old q ((List.range k).foldl step st) from (H nq (Nat.le_refl _)).1
  intro k
  induction k with
  | zero => intro _; exact ⟨fun q hq => by omega, fun q _ hq => by simpa using h q hq⟩
  | succ k ih =>
    intro hk
    obtain ⟨h1, h2⟩ := ih (by omega)
    rw [List.range_succ, List.foldl_append, List.foldl_cons, List.foldl_nil]
    refine ⟨fun q hq => ?_, fun q hq1 hq2 => ?_⟩
    · by_cases e : q = k
      · subst e; exact hnew _ _ (by omega) (h2 q (by omega) (by omega))
      · exact hkeepN _ _ _ (by omega) (by omega) e (h1 q (by omega))
    · exact hkeepO _ _ _ (by omega) hq2 (by omega) (h2 q (by omega) hq2)

theorem setAt_ne {a : Nat → K} {i k : Nat} {v : K} (h : k ≠ i) : setAt a i v k = a k := by simp [setAt, h]

/-- the whole `UpdateMAll` loop -/
theorem updateLoop_ok {p : PfPar} {slt : Nat → K} {msa : Nat} {rs rs' : Nat → Nat} {qpStart nq : Nat} {st : PfState K}
    (hsk : ∀ q, q < nq → SlaterSkew p.Nsite2 slt (q + qpStart))
    (hrs : ∀ i, i < p.Nsize → rs i < p.Nsite2) (hrs' : ∀ i, i < p.Nsize → rs' i < p.Nsite2)
    (ha : msa < p.Nsize) (hne : ∀ i, i < p.Nsize → i ≠ msa → rs' i = rs i)
    (hst : PfOK p.Nsize p.Nsite2 slt qpStart nq rs st.pfM st.invM)
    (h0 : ∀ q, q < nq → pfOf (entry p.Nsite2 slt (q + qpStart)) p.Nsize rs' ≠ 0) :
    let st' := (List.range nq).foldl (fun st q => updateMAllChild p slt msa (rs' msa) rs' qpStart q st) st
    PfOK p.Nsize p.Nsite2 slt qpStart nq rs' st'.pfM st'.invM := by
  intro st'
  let Good (r : Nat → Nat) (q : Nat) (s : PfState K) : Prop :=
    s.pfM q = pfOf (entry p.Nsite2 slt (q + qpStart)) p.Nsize r ∧
      IsInv (entry p.Nsite2 slt (q + qpStart)) p.Nsize r (entry p.Nsize s.invM q)
  have keep : ∀ (r : Nat → Nat) (s : PfState K) (q q' : Nat), q < nq → q' < nq → q' ≠ q → Good r q' s →
      Good r q' (updateMAllChild p slt msa (rs' msa) rs' qpStart q s) := by
    intro r s q q' _ _ hqq hg
    refine ⟨?_, ?_⟩
    · rw [updateMAllChild_pfM, setAt_ne hqq]; exact hg.1
    · exact isInv_congr (fun _ _ => rfl) (fun _ _ _ _ => rfl)
        (fun i hi j hj => (updateMAllChild_frame p slt msa (rs' msa) rs' qpStart q s hqq hi hj ha).symm) hg.2
  exact foldl_blocks nq _ (Good rs) (Good rs')
    (fun s q hq hg => updateMAllChild_ok (hsk q hq) hrs hrs' ha hne hg.2 hg.1 (h0 q hq)) (keep rs) (keep rs') st hst

end MVMC
