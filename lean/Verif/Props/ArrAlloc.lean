import Verif.Proof.ArrAlloc

/-!
# C91: arrays with two indices

`N` rows of `M` elements. `h` is any memory in which blocks that were not handed out yet are free.
-/

namespace MVMC

/-- C91: an allocated array with at least one row has `N * M` elements: each is inside an allocated block that is new, different indices are different
elements, and every element is zero. The memory that existed before is unchanged. Missing: an array without rows (`C91_empty_violated`). -/
theorem C91_elements_partial (N M : ℕ) (hN : 0 < N) (h : Heap) (hf : ∀ b, h.next ≤ b → h.size b = none) :
    ∃ a h', alloc2 N M h = some (a, h') ∧
      (∀ i < N, ∀ j < M, ∃ p n, elem2 a i j h' = some p ∧ h.size p.1 = none ∧ h'.size p.1 = some n ∧ p.2 < n ∧ h'.cell p.1 p.2 = .zero) ∧
      (∀ i < N, ∀ j < M, ∀ i' < N, ∀ j' < M, elem2 a i j h' = elem2 a i' j' h' → i = i' ∧ j = j') ∧
      ∀ b n, h.size b = some n → h'.size b = some n ∧ h'.cell b = h.cell b := by
  obtain ⟨h', e, s, -, o, r, z⟩ := alloc2_ok N M h hN
  have sa : h'.size h.next = some N := by rw [s]; simp
  have sd : h'.size (h.next + 1) = some (M * N) := by rw [s]; simp
  have el : ∀ i < N, ∀ j, elem2 h.next i j h' = some (h.next + 1, i * M + j) := by
    intro i hi j
    simp [elem2, hLoadPtr_ok sa hi (r i hi)]
  have bound : ∀ i < N, ∀ j < M, i * M + j < M * N := by
    intro i hi j hj
    calc i * M + j < i * M + M := by omega
      _ = (i + 1) * M := by rw [Nat.add_mul, Nat.one_mul]
      _ ≤ N * M := Nat.mul_le_mul_right M hi
      _ = M * N := Nat.mul_comm N M
  refine ⟨h.next, h', e, ?_, ?_, ?_⟩
  · intro i hi j hj
    exact ⟨_, _, el i hi j, hf _ (by simp), sd, bound i hi j hj, z _ (bound i hi j hj)⟩
  · intro i hi j hj i' hi' j' hj' he
    rw [el i hi j, el i' hi' j'] at he
    simp only [Option.some.injEq, Prod.mk.injEq, true_and] at he
    have hM : 0 < M := by omega
    have q : (i * M + j) / M = i := by rw [Nat.mul_comm, Nat.mul_add_div hM, Nat.div_eq_of_lt hj, Nat.add_zero]
    have q' : (i' * M + j') / M = i' := by rw [Nat.mul_comm, Nat.mul_add_div hM, Nat.div_eq_of_lt hj', Nat.add_zero]
    have hi : i = i' := by rw [← q, ← q', he]
    subst hi
    exact ⟨rfl, by omega⟩
  · intro b n hb
    have h1 : b ≠ h.next := fun x => by rw [hf b (by omega)] at hb; cases hb
    have h2 : b ≠ h.next + 1 := fun x => by rw [hf b (by omega)] at hb; cases hb
    refine ⟨?_, o b h1 h2⟩
    rw [s, Function.update_of_ne h2, Function.update_of_ne h1, hb]

/-- C91: freeing the array gives back exactly what was allocated, whatever was stored in its elements in between (`w`), if its row pointers were not changed.
Missing: an array without rows. -/
theorem C91_free_partial (N M : ℕ) (hN : 0 < N) (h : Heap) (hf : ∀ b, h.next ≤ b → h.size b = none) (w : ℕ → HVal) :
    ∃ a h', alloc2 N M h = some (a, h') ∧ ∃ h'', free2 a { h' with cell := Function.update h'.cell (a + 1) w } = some h'' ∧ h''.size = h.size := by
  obtain ⟨h', e, s, -, -, r, -⟩ := alloc2_ok N M h hN
  refine ⟨h.next, h', e, ?_⟩
  have sa : h'.size h.next = some N := by rw [s]; simp
  have sd : h'.size (h.next + 1) = some (M * N) := by rw [s]; simp
  have ne : h.next ≠ h.next + 1 := by omega
  have hl : hLoadPtr h.next 0 { h' with cell := Function.update h'.cell (h.next + 1) w } = some (h.next + 1, 0) := by
    refine hLoadPtr_ok (n := N) sa hN ?_
    dsimp only
    rw [Function.update_of_ne ne, r 0 hN, Nat.zero_mul]
  refine ⟨{ size := Function.update (Function.update h'.size (h.next + 1) none) h.next none,
            cell := Function.update h'.cell (h.next + 1) w, next := h'.next }, ?_, ?_⟩
  · simp [free2, hl, hFree, sd, sa]
  · funext b
    dsimp only
    rw [s]
    by_cases h1 : b = h.next
    · subst h1; rw [Function.update_self, hf _ (Nat.le_refl _)]
    · rw [Function.update_of_ne h1]
      by_cases h2 : b = h.next + 1
      · subst h2; rw [Function.update_self, hf _ (by omega)]
      · rw [Function.update_of_ne h2, Function.update_of_ne h2, Function.update_of_ne h1]

/-- C91 is violated by the code for arrays without rows (a keyword whose file has no entries): `A[0]` is stored behind the end of an empty block. -/
theorem C91_empty_violated (M : ℕ) (h : Heap) : alloc2 0 M h = none := by
  simp [alloc2, hStore, hMalloc]

theorem allocTables_iff : ∀ (l : List (ℕ × ℕ)) (h : Heap), (∃ h', allocTables l h = some h') ↔ ∀ t ∈ l, 0 < t.1
  | [], h => by simp [allocTables]
  | t :: r, h => by
    rcases Nat.eq_zero_or_pos t.1 with h0 | hp
    · have : allocTables (t :: r) h = none := by
        unfold allocTables
        rw [h0, C91_empty_violated]
        rfl
      rw [this]
      constructor
      · rintro ⟨_, e⟩; cases e
      · intro g
        have := g t (by simp)
        omega
    · obtain ⟨h', e, -⟩ := alloc2_ok t.1 t.2 h hp
      have : allocTables (t :: r) h = allocTables r h' := by
        rw [allocTables, e]
        rfl
      rw [this, allocTables_iff r h']
      constructor
      · intro g x hx
        rcases List.mem_cons.1 hx with rfl | hx
        · exact hp
        · exact g x hx
      · exact fun g x hx => g x (by simp [hx])

/-- C91: the tables of `ComplexUHF` are allocated without undefined behaviour exactly if every one of them has at least one row. -/
theorem C91_uhf_partial (c : UhfCounts) (h : Heap) : (∃ h', allocTables (uhfTables c) h = some h') ↔
    0 < c.nSite ∧ 0 < c.nTransfer ∧ 0 < c.nCoulombIntra ∧ 0 < c.nCoulombInter ∧ 0 < c.nHund ∧ 0 < c.nPairHop ∧ 0 < c.nExchange ∧
      0 < c.nInterAll ∧ 0 < c.nInitial ∧ 0 < c.nCisAjs ∧ 0 < c.nCisAjsCktAltDC := by
  rw [allocTables_iff]
  simp only [uhfTables, List.forall_mem_cons, List.not_mem_nil, false_implies, implies_true, and_true, Nat.pos_iff_ne_zero, Nat.mul_ne_zero_iff]
  constructor
  · rintro ⟨⟨a, -⟩, b1, b2, b3, b4, b5, b6, b7, b8, -, -, b9, b10⟩
    exact ⟨a, b1, b2, b3, b4, b5, b6, b7, b8, b9, b10⟩
  · rintro ⟨a, b1, b2, b3, b4, b5, b6, b7, b8, b9, b10⟩
    exact ⟨⟨a, a⟩, b1, b2, b3, b4, b5, b6, b7, b8, ⟨a, by decide⟩, ⟨a, by decide⟩, b9, b10⟩

/-- C91 is violated by the code for every input of `ComplexUHF` without pair hopping, as the Hubbard model is, or without another kind of interaction. -/
theorem C91_uhf_violated (c : UhfCounts) (h : Heap) (hz : c.nPairHop = 0 ∨ c.nHund = 0 ∨ c.nExchange = 0 ∨ c.nInterAll = 0 ∨ c.nInitial = 0) :
    allocTables (uhfTables c) h = none := by
  rw [Option.eq_none_iff_forall_ne_some]
  intro h' e
  have := (C91_uhf_partial c h).1 ⟨h', e⟩
  omega

/-- Two rows of three: `A[1][2]` is the last of six elements, `A[1][3]` would be behind the block. -/
example : ((alloc2 2 3 { size := fun _ => none, cell := fun _ _ => .undef, next := 0 }).bind fun x => elem2 x.1 1 2 x.2) = some (1, 5) ∧
    ((alloc2 2 3 { size := fun _ => none, cell := fun _ _ => .undef, next := 0 }).bind fun x => x.2.size 1) = some 6 := by
  decide

end MVMC
