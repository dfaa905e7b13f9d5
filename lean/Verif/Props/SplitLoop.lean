import Verif.Proof.SplitLoop

/-! # C01, C02: loop splitting -/
namespace MVMC

/-- C01: for every loop length and every positive number of workers the ranges are
consecutive, start at 0 and end at the loop length. -/
theorem C01_splitLoop_tiles (len size : Nat) (hs : 0 < size) :
    Spec.Tiles (fun r => splitLoop len r size) size len where
  first := by rw [splitLoop_eq len 0 size hs]; exact splitStart_zero len size
  last := by
    rw [splitLoop_eq len (size-1) size (by omega)]
    simp only [show size - 1 + 1 = size by omega]
    exact splitStart_size len size hs
  ordered := by
    intro r hr
    rw [splitLoop_eq len r size hr]
    exact splitStart_mono len size (Nat.le_succ r)
  consecutive := by
    intro r hr
    rw [splitLoop_eq len r size (by omega), splitLoop_eq len (r+1) size hr]

/-- C01: every index has exactly one owner and no owner gets an index outside the loop. -/
theorem C01_splitLoop_exactly_one_owner (len size : Nat) (hs : 0 < size) :
    Spec.ExactlyOneOwner (fun r => splitLoop len r size) size len :=
  tiles_exactlyOne (fun r hr => splitLoop_eq len r size hr) (splitStart_mono len size)
    (splitStart_zero len size) (splitStart_size len size hs)

/-- C01: the shares of any two workers differ by at most one item. -/
theorem C01_splitLoop_balanced (len size : Nat) :
    Spec.Balanced (fun r => splitLoop len r size) size := by
  intro r r' hr hr'
  simp only
  rw [splitLoop_eq len r size hr, splitLoop_eq len r' size hr']
  obtain ⟨q, hq⟩ := splitStart_step len size
  have h1 := hq r
  have h2 := hq r'
  simp only; omega

/-- C02: adding up the partial sums of all ranks gives the serial sum, in every
commutative monoid, for every summand and every number of ranks. -/
theorem C02_reduce_eq_serial {α : Type} [AddCommMonoid α] (f : Nat → α) (len size : Nat)
    (hs : 0 < size) : reduceShares f len size = ∑ i ∈ Finset.range len, f i := by
  unfold reduceShares
  rw [foldl_add_eq_sum (fun r => ownShare f (splitLoop len r size)), zero_add]
  have : (List.range size).map (fun r => ownShare f (splitLoop len r size))
      = (List.range size).map
          (fun r => ∑ i ∈ Finset.Ico (splitStart len r size) (splitStart len (r+1) size), f i) := by
    apply List.map_congr_left
    intro r hr
    rw [splitLoop_eq len r size (List.mem_range.mp hr), ownShare_eq]
  rw [this, sum_cells f (fun r => splitStart len r size) (splitStart_mono len size) size,
    splitStart_zero, splitStart_size len size hs, Finset.range_eq_Ico]

/-- C02: the result does not depend on the number of ranks. -/
theorem C02_reduce_rank_independent {α : Type} [AddCommMonoid α] (f : Nat → α)
    (len size size' : Nat) (hs : 0 < size) (hs' : 0 < size') :
    reduceShares f len size = reduceShares f len size' := by
  rw [C02_reduce_eq_serial f len size hs, C02_reduce_eq_serial f len size' hs']

/-- C02: if each rank holds the Pfaffians of its own projection indices, the overlap computed on any
number of ranks is the full weighted sum over all projection indices. -/
theorem C02_overlap_eq_full_sum {α : Type} [Semiring α] (weight pf : Nat → α) (pfM : Nat → Nat → α)
    (nqp size : Nat) (hs : 0 < size)
    (hpf : ∀ r q, r < size → (splitLoop nqp r size).1 + q < (splitLoop nqp r size).2 →
      pfM r q = pf ((splitLoop nqp r size).1 + q)) :
    calculateIP weight pfM nqp size = ∑ q ∈ Finset.range nqp, weight q * pf q := by
  have key : ∀ r, r < size → localIP weight (pfM r) (splitLoop nqp r size)
      = ownShare (fun q => weight q * pf q) (splitLoop nqp r size) := by
    intro r hr
    have h := hpf r
    rw [splitLoop_eq nqp r size hr] at h ⊢
    rw [localIP_eq, ownShare_eq]
    apply Finset.sum_congr rfl
    intro i hi
    rw [Finset.mem_Ico] at hi
    rw [h (i - splitStart nqp r size) hr (by simp only; omega)]
    simp only [show splitStart nqp r size + (i - splitStart nqp r size) = i by omega]
  rw [← C02_reduce_eq_serial (fun q => weight q * pf q) nqp size hs]
  unfold calculateIP reduceShares
  split
  · rw [foldl_add_eq_sum (fun r => localIP weight (pfM r) (splitLoop nqp r size)),
      foldl_add_eq_sum (fun r => ownShare (fun q => weight q * pf q) (splitLoop nqp r size))]
    congr 2
    exact List.map_congr_left fun r hr => key r (List.mem_range.mp hr)
  · have : size = 1 := by omega
    subst this
    rw [key 0 (by omega)]
    simp [List.range_succ]

-- concrete cases: remainder branch, even branch, more workers than items
example : (List.range 4).map (fun r => splitLoop 10 r 4) = [(0,2),(2,4),(4,7),(7,10)] := by decide
example : (List.range 3).map (fun r => splitLoop 6 r 3) = [(0,2),(2,4),(4,6)] := by decide
example : (List.range 4).map (fun r => splitLoop 2 r 4) = [(0,1),(1,2),(2,2),(2,2)] := by decide
example : reduceShares (fun i => i*i) 10 4 = 285 := by decide
example : calculateIP (fun q => q + 1) (fun r q => 10 * ((splitLoop 5 r 2).1 + q)) 5 2 = 400 := by decide

end MVMC
