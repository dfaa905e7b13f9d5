import Verif.Proof.ReadBody
import Verif.Proof.SlaterBase
import Mathlib.Data.List.GetD
import Mathlib.Data.Finset.Prod
import Mathlib.Data.Fintype.Basic
import Mathlib.Order.Interval.Finset.Basic
import Mathlib.Data.Int.Interval

/-!
# C38: definition files and their tables
-/

namespace MVMC

/-! ## Rows -/

/-- What is expected of a reader of rows with `n` integers and `m` numbers: success
means exactly the announced number of valid rows; a file of complete lines is accepted
iff it has the announced number of valid lines, which then are the table; nothing is
written outside the table if there are not more lines than announced. -/
def RowSpec (reader : ℤ → List DLine → RdOut (List (List ℤ × List ℚ))) (n m : ℕ)
    (good : List ℤ → Prop) : Prop :=
  (∀ N ls t, reader N ls = .ok t → (t.length : ℤ) = N ∧ ∀ r ∈ t, r.1.length = n ∧ good r.1) ∧
  (∀ N ls, 0 < N → (∀ l ∈ ls, Full n m l) → ∀ t, reader N ls = .ok t ↔
    (ls.length : ℤ) = N ∧ (∀ l ∈ ls, good (l.ints.take n)) ∧
      t = ls.map fun l => (l.ints.take n, l.vals.take m)) ∧
  (∀ N ls, (ls.length : ℤ) ≤ N → reader N ls ≠ .ub)

theorem rowReader_rowSpec (n m : ℕ) (check : List ℤ → Bool) (good : List ℤ → Prop)
    (h : ∀ x, check x = true ↔ good x) : RowSpec (rowReader n m check) n m good := by
  refine ⟨?_, ?_, ?_⟩
  · intro N ls t ht
    rcases lt_or_ge 0 N with hN | hN
    · obtain ⟨a, b, rfl⟩ := ((rowReader_spec n m check hN ls).1 t).1 ht
      refine ⟨by rw [scanRows_length]; exact a, fun r hr => ⟨?_, (h _).1 (b r hr)⟩⟩
      exact scanRows_widths _ _ _ (List.length_replicate ..) r hr
    · obtain ⟨rfl, rfl⟩ := (rowReader_nonpos n m check hN ls t).1 ht
      simp
  · intro N ls hN hf t
    rw [(rowReader_spec n m check hN ls).1 t,
      scanRows_full ls _ _ (List.length_replicate ..) (List.length_replicate ..) hf]
    constructor
    · rintro ⟨a, b, rfl⟩
      refine ⟨a, fun l hl => (h _).1 (b _ (List.mem_map.2 ⟨l, hl, rfl⟩)), rfl⟩
    · rintro ⟨a, b, rfl⟩
      refine ⟨a, fun r hr => ?_, rfl⟩
      obtain ⟨l, hl, rfl⟩ := List.mem_map.1 hr
      exact (h _).2 (b l hl)
  · intro N ls hl hu
    rcases lt_or_ge 0 N with hN | hN
    · obtain ⟨a, _⟩ := ((rowReader_spec n m check hN ls).2.1).1 hu
      omega
    · have : ls = [] := List.length_eq_zero_iff.1 (by omega)
      subst this
      unfold rowReader rowLoop at hu
      split_ifs at hu

/-- C38: hopping amplitudes `i s j s' re im`. -/
theorem C38_transfer_partial (Nsite : ℤ) : RowSpec (getTransferInfo Nsite) 4 2
    (fun x => InLat Nsite (x.getD 0 0) ∧ InLat Nsite (x.getD 2 0)) :=
  rowReader_rowSpec _ _ _ _ (fun x => by simp [checkPairSite_iff])

/-- C38: on-site interactions `i U`. -/
theorem C38_coulombIntra_partial (Nsite : ℤ) : RowSpec (getInfoCoulombIntra Nsite) 1 1
    (fun x => InLat Nsite (x.getD 0 0)) :=
  rowReader_rowSpec _ _ _ _ (fun x => by simp [checkSite_iff])

/-- C38: interactions `i j V` (intersite Coulomb, Hund, exchange). -/
theorem C38_pair_partial (Nsite : ℤ) : RowSpec (readPairDValue Nsite) 2 1
    (fun x => InLat Nsite (x.getD 0 0) ∧ InLat Nsite (x.getD 1 0)) :=
  rowReader_rowSpec _ _ _ _ (fun x => by simp [checkPairSite_iff])

/-- C38: one-body Green functions. -/
theorem C38_oneBodyG_partial (Nsite : ℤ) : RowSpec (getInfoOneBodyG Nsite) 4 0
    (fun x => InLat Nsite (x.getD 0 0) ∧ InLat Nsite (x.getD 2 0)) :=
  rowReader_rowSpec _ _ _ _ (fun x => by simp [checkPairSite_iff])

/-- C38: two-body Green functions. -/
theorem C38_twoBodyG_partial (Nsite : ℤ) : RowSpec (getInfoTwoBodyG Nsite) 8 0
    (fun x => ∀ k ∈ [0, 2, 4, 6], InLat Nsite (x.getD k 0)) :=
  rowReader_rowSpec _ _ _ _ (fun x => by simp [checkQuadSite_iff, and_assoc])

/-- C38: general two-body interactions; unless the magnetisation is free they conserve
both spins. -/
theorem C38_interAll_partial (TwoSz Nsite : ℤ) : RowSpec (getInfoInterAll TwoSz Nsite) 8 2
    (fun x => (∀ k ∈ [0, 2, 4, 6], InLat Nsite (x.getD k 0)) ∧
      (TwoSz = -1 ∨ x.getD 1 0 = x.getD 3 0 ∧ x.getD 5 0 = x.getD 7 0)) :=
  rowReader_rowSpec _ _ _ _ (fun x => by
    simp only [checkQuadSite_iff, decide_eq_true_eq, List.mem_cons, List.not_mem_nil, or_false,
      forall_eq_or_imp, forall_eq]
    tauto)

example : getTransferInfo 2 2 [⟨[0, 0, 1, 0], [1, 0]⟩, ⟨[1, 0, 0, 0], [1, 0]⟩] =
    .ok [([0, 0, 1, 0], [1, 0]), ([1, 0, 0, 0], [1, 0])] := by decide
example : getTransferInfo 2 2 [⟨[0, 0, 1, 0], [1, 0]⟩, ⟨[1, 0, 2, 0], [1, 0]⟩] = .err := by decide
example : getInfoInterAll 0 2 1 [⟨[0, 0, 1, 1, 0, 0, 1, 0], [1, 0]⟩] = .err := by decide

/-- C38: pair hopping `i j J`; each line gives the rows `i j` and `j i`. -/
theorem pairHopLoop_ok (Nsite N : ℤ) : ∀ ls idx x v rows t, x.length = 2 →
    pairHopLoop Nsite N ls idx x v rows = .ok t →
    2 * ((idx + ls.length : ℕ) : ℤ) = N ∧
    (∀ r ∈ scanRows 2 1 ls x v, InLat Nsite (r.1.getD 0 0) ∧ InLat Nsite (r.1.getD 1 0)) ∧
    t = rows ++ (scanRows 2 1 ls x v).flatMap fun r => [r, ([r.1.getD 1 0, r.1.getD 0 0], r.2)] := by
  intro ls
  induction ls with
  | nil =>
    intro idx x v rows t _ h
    unfold pairHopLoop at h
    split_ifs at h with h1
    push Not at h1
    cases h
    refine ⟨by simpa using h1, by simp [scanRows], by simp [scanRows]⟩
  | cons l ls ih =>
    intro idx x v rows t hx h
    unfold pairHopLoop at h
    dsimp only at h
    by_cases h1 : 2 * (idx : ℤ) ≥ N
    · rw [if_pos h1] at h; cases h
    rw [if_neg h1] at h
    by_cases h2 : checkPairSite ((scanI 2 x l).getD 0 0) ((scanI 2 x l).getD 1 0) Nsite ≠ 0
    · rw [if_pos h2] at h; cases h
    rw [if_neg h2] at h
    by_cases h3 : 2 * (idx : ℤ) + 1 ≥ N
    · rw [if_pos h3] at h; cases h
    rw [if_neg h3] at h
    obtain ⟨a, b, c⟩ := ih _ _ _ _ _ (scanI_length hx l) h
    rw [not_not, checkPairSite_iff] at h2
    refine ⟨by rw [← a, List.length_cons]; push_cast; ring, ?_, ?_⟩
    · intro r hr
      rcases List.mem_cons.1 hr with rfl | hr
      · exact h2
      · exact b r hr
    · rw [c, scanRows]
      simp

/-- C38: pair hopping; success means that the announced number of rows was stored, both
orders of each line, on sites of the lattice. -/
theorem C38_pairHop_partial (Nsite N : ℤ) (ls : List DLine) (t : List (List ℤ × List ℚ))
    (h : readPairHopValue Nsite N ls = .ok t) :
    (t.length : ℤ) = N ∧ (∀ r ∈ t, r.1.length = 2 ∧ InLat Nsite (r.1.getD 0 0) ∧
      InLat Nsite (r.1.getD 1 0)) ∧
    ((∀ l ∈ ls, Full 2 1 l) → N ≠ 0 → t = ls.flatMap fun l =>
      [(l.ints.take 2, l.vals.take 1), ((l.ints.take 2).reverse, l.vals.take 1)]) := by
  unfold readPairHopValue at h
  by_cases h0 : N = 0
  · rw [if_pos h0] at h
    cases h
    simp [h0]
  rw [if_neg h0] at h
  obtain ⟨a, b, c⟩ := pairHopLoop_ok Nsite N ls 0 [0, 0] [0] [] t rfl h
  rw [List.nil_append] at c
  refine ⟨?_, ?_, ?_⟩
  · rw [c, List.length_flatMap, ← a]
    simp [scanRows_length]
    ring
  · intro r hr
    rw [c] at hr
    obtain ⟨q, hq, hr⟩ := List.mem_flatMap.1 hr
    have hw := scanRows_widths ls [0, 0] [0] rfl q hq
    simp only [List.mem_cons, List.not_mem_nil, or_false] at hr
    rcases hr with rfl | rfl
    · exact ⟨hw, b r hq⟩
    · exact ⟨rfl, (b q hq).2, (b q hq).1⟩
  · intro hf _
    rw [c, scanRows_full (n := 2) (m := 1) ls _ _ rfl rfl hf, List.flatMap_map]
    refine List.flatMap_congr fun l hl => ?_
    obtain ⟨hl1, _⟩ := hf l hl
    have : (l.ints.take 2).length = 2 := by rw [List.length_take]; omega
    obtain ⟨p, q, e⟩ := len2 this
    simp only [e]
    rfl

/-- C38 is violated by the code for every reader of rows when the file has one line more
than announced, be it an empty one: a row is written behind the table. -/
theorem C38_extra_line_violated (n m : ℕ) (check : List ℤ → Bool) {N : ℤ} (hN : 0 < N)
    (ls : List DLine) (t : List (List ℤ × List ℚ)) (h : rowReader n m check N ls = .ok t) (l : DLine) :
    rowReader n m check N (ls ++ [l]) = .ub := by
  obtain ⟨a, b, rfl⟩ := ((rowReader_spec n m check hN ls).1 t).1 h
  rw [(rowReader_spec n m check hN _).2.1]
  refine ⟨by rw [List.length_append, ← a]; simp, ?_⟩
  have key : ∀ (ls : List DLine) x v, (scanRows n m (ls ++ [l]) x v).take ls.length =
      scanRows n m ls x v := by
    intro ls
    induction ls with
    | nil => intro x v; simp [scanRows]
    | cons q ls ih => intro x v; simp [scanRows, ih]
  have e : N.toNat = ls.length := by omega
  rw [e, key]
  exact b

example : getTransferInfo 2 1 [⟨[0, 0, 1, 0], [1, 0]⟩, ⟨[], []⟩] = .ub := by decide

/-- C38 is violated by the code for an incomplete line: the fields of the line before
are used again. -/
theorem C38_short_line_violated :
    getTransferInfo 2 2 [⟨[0, 0, 1, 0], [1, 0]⟩, ⟨[1], []⟩] =
      .ok [([0, 0, 1, 0], [1, 0]), ([1, 0, 1, 0], [1, 0])] := by decide

/-- C38 is violated by the code for spins: they are not checked. -/
theorem C38_spin_violated : getTransferInfo 2 1 [⟨[0, 5, 1, -3], [1, 0]⟩] =
    .ok [([0, 5, 1, -3], [1, 0])] := by decide

/-! ## Local spins -/

theorem locSpinLoop_ok (N : ℕ) : ∀ ls idx x tab t, x.length = 2 →
    locSpinLoop N ls idx x tab = .ok t →
    idx + ls.length = N ∧ (∀ r ∈ scanRows 2 0 ls x [], InLat N (r.1.getD 0 0)) ∧
    t = runStores ((scanRows 2 0 ls x []).map fun r => ((r.1.getD 0 0).toNat, some (r.1.getD 1 0))) tab := by
  intro ls
  induction ls with
  | nil =>
    intro idx x tab t _ h
    unfold locSpinLoop at h
    split_ifs at h with h1
    push Not at h1
    cases h
    exact ⟨by simpa using h1, by simp [scanRows], rfl⟩
  | cons l ls ih =>
    intro idx x tab t hx h
    unfold locSpinLoop at h
    dsimp only at h
    by_cases h1 : (scanI 2 x l).getD 0 0 < 0 ∨ (scanI 2 x l).getD 0 0 ≥ N
    · rw [if_pos h1] at h; cases h
    rw [if_neg h1] at h
    have hv : InLat N ((scanI 2 x l).getD 0 0) := by unfold InLat; omega
    rw [if_neg (by rw [not_not]; exact (checkSite_iff _ _).2 hv)] at h
    obtain ⟨a, b, c⟩ := ih _ _ _ _ (scanI_length hx l) h
    have e : scanV 2 0 [] l = [] := by
      unfold scanV
      split_ifs <;> simp
    refine ⟨by rw [← a, List.length_cons]; ring, ?_, ?_⟩
    · intro r hr
      rw [scanRows, e] at hr
      rcases List.mem_cons.1 hr with rfl | hr
      · exact hv
      · exact b r hr
    · rw [c, scanRows, e]
      rfl

/-- C38: if the reader of local spins reports success and the sites in the file are
different, every site has the value given for it. -/
theorem C38_locspin_partial (N : ℕ) (ls : List DLine) (t : Tab) (hf : ∀ l ∈ ls, Full 2 0 l)
    (h : getLocSpinInfo N ls = .ok t) :
    ls.length = N ∧ (∀ l ∈ ls, InLat N (l.ints.getD 0 0)) ∧
    ((ls.map fun l => l.ints.getD 0 0).Nodup →
      (∀ l ∈ ls, t (l.ints.getD 0 0).toNat = some (l.ints.getD 1 0)) ∧
      ∀ i < N, ∃ l ∈ ls, l.ints.getD 0 0 = i ∧ t i = some (l.ints.getD 1 0)) := by
  obtain ⟨a, b, c⟩ := locSpinLoop_ok N ls 0 [0, 0] _ t rfl h
  rw [scanRows_full (n := 2) (m := 0) ls _ _ rfl rfl hf] at b c
  rw [Nat.zero_add] at a
  have tk : ∀ l ∈ ls, ∀ k < 2, (l.ints.take 2).getD k 0 = l.ints.getD k 0 := by
    intro l hl k hk
    have := (hf l hl).1
    rw [List.getD_eq_getElem _ _ (by rw [List.length_take]; omega),
      List.getD_eq_getElem _ _ (by omega), List.getElem_take]
  have hin : ∀ l ∈ ls, InLat N (l.ints.getD 0 0) := by
    intro l hl
    have := b _ (List.mem_map.2 ⟨l, hl, rfl⟩)
    dsimp only at this
    rwa [tk l hl 0 (by omega)] at this
  refine ⟨a, hin, fun hn => ?_⟩
  have val : ∀ l ∈ ls, t (l.ints.getD 0 0).toNat = some (l.ints.getD 1 0) := by
    intro l hl
    rw [c]
    refine runStores_mem _ _ ?_ ((l.ints.getD 0 0).toNat, some (l.ints.getD 1 0)) ?_
    · intro e he e' he' heq
      simp only [List.mem_map, exists_exists_and_eq_and] at he he'
      obtain ⟨p, hp, rfl⟩ := he
      obtain ⟨q, hq, rfl⟩ := he'
      dsimp only at heq ⊢
      rw [tk p hp 0 (by omega), tk q hq 0 (by omega)] at heq
      have h1 := hin p hp
      have h2 := hin q hq
      have : p.ints.getD 0 0 = q.ints.getD 0 0 := by unfold InLat at h1 h2; omega
      rw [List.inj_on_of_nodup_map hn hp hq this]
    · simp only [List.mem_map, exists_exists_and_eq_and]
      exact ⟨l, hl, by rw [tk l hl 0 (by omega), tk l hl 1 (by omega)]⟩
  refine ⟨val, fun i hi => ?_⟩
  have hsurj : (i : ℤ) ∈ ls.map fun l => l.ints.getD 0 0 := by
    have hsub : (ls.map fun l => l.ints.getD 0 0).toFinset ⊆ (Finset.range N).map Nat.castEmbedding := by
      intro z hz
      rw [List.mem_toFinset, List.mem_map] at hz
      obtain ⟨l, hl, rfl⟩ := hz
      have := hin l hl
      rw [Finset.mem_map]
      exact ⟨(l.ints.getD 0 0).toNat, by rw [Finset.mem_range]; unfold InLat at this; omega,
        by unfold InLat at this; exact Int.toNat_of_nonneg this.1⟩
    have hcard : ((Finset.range N).map (Nat.castEmbedding (R := ℤ))).card ≤
        (ls.map fun l => l.ints.getD 0 0).toFinset.card := by
      rw [Finset.card_map, Finset.card_range, List.toFinset_card_of_nodup hn, List.length_map, a]
    rw [← List.mem_toFinset, Finset.eq_of_subset_of_card_le hsub hcard, Finset.mem_map]
    exact ⟨i, Finset.mem_range.2 hi, rfl⟩
  obtain ⟨l, hl, e⟩ := List.mem_map.1 hsurj
  refine ⟨l, hl, e, ?_⟩
  have := val l hl
  rw [e] at this
  simpa using this

/-- C38 is violated by the code for local spins: a site outside the lattice is used as an
address before it is checked, so that the check never helps. -/
theorem C38_locspin_oob_violated (N : ℕ) (l : DLine) (rest : List DLine) (h : Full 2 0 l)
    (hs : ¬ InLat N (l.ints.getD 0 0)) : getLocSpinInfo N (l :: rest) = .ub := by
  unfold getLocSpinInfo locSpinLoop
  dsimp only
  have e : (scanI 2 [0, 0] l).getD 0 0 = l.ints.getD 0 0 := by
    unfold scanI
    have := h.1
    rw [List.drop_eq_nil_of_le (by simpa using this), List.append_nil,
      List.getD_eq_getElem _ _ (by rw [List.length_take]; omega),
      List.getD_eq_getElem _ _ (by omega), List.getElem_take]
  rw [e, if_pos (by unfold InLat at hs; omega)]

/-- C38 is violated by the code for local spins: a file naming a site twice is accepted
and another site stays without a value. -/
theorem C38_locspin_twice_violated : ∃ t, getLocSpinInfo 2 [⟨[0, 1], []⟩, ⟨[0, 0], []⟩] = .ok t ∧
    t 1 = none := by
  refine ⟨fun j => if j = 0 then some 0 else if j = 0 then some 1 else none, ?_, rfl⟩
  rfl

example : ∃ t, getLocSpinInfo 2 [⟨[1, 1], []⟩, ⟨[0, 0], []⟩] = .ok t ∧ t 0 = some 0 ∧ t 1 = some 1 :=
  ⟨fun j => if j = 0 then some 0 else if j = 1 then some 1 else none, rfl, rfl, rfl⟩

/-! ## Parameter indices -/

/-- What is expected of a reader of parameter indices: success means that the file
consists of exactly `limit` valid entries, each stored at its place, followed by
exactly `nOpt` flags (of which only the last may be cut off); such files are accepted. -/
def GroupSpec (reader : ℕ → ℤ → ℕ → ℤ → List Tok → Tab → Tab → RdOut (Tab × Tab)) (limit nOpt : ℤ → ℕ)
    (width : ℕ) (valid : ℤ → List ℤ → Prop) (st : List ℤ → List (ℕ × Option ℤ)) : Prop :=
  (∀ cap c fidx N s t opt t' opt', 0 < N → reader cap c fidx N s t opt = .ok (t', opt') →
    ∃ (ents : List (List ℤ)) (prs : List (ℤ × ℤ)),
      ents.length = limit N ∧ (∀ a ∈ ents, a.length = width ∧ valid N a) ∧
      t' = runStores (ents.flatMap st) t ∧
      ((s = ents.flatten.map some ++ encOpts prs ∧ prs.length = nOpt N ∧
          opt' = withFlags c fidx (prs.map Prod.snd) opt ∧ 2 * (fidx + nOpt N) ≤ cap + 1) ∨
        ∃ i, s = ents.flatten.map some ++ encOpts prs ++ [some i] ∧ prs.length + 1 = nOpt N)) ∧
  (∀ cap c fidx N (ents : List (List ℤ)) (prs : List (ℤ × ℤ)) t opt, 0 < N → ents ≠ [] →
    ents.length = limit N → (∀ a ∈ ents, a.length = width ∧ valid N a) → prs.length = nOpt N →
    2 * (fidx + nOpt N) ≤ cap →
    reader cap c fidx N (ents.flatten.map some ++ encOpts prs) t opt =
      .ok (runStores (ents.flatMap st) t, withFlags c fidx (prs.map Prod.snd) opt))

theorem groupReader_groupSpec {nk e : ℕ} {body : ℤ → List ℤ → List Tok → Tab → Step}
    {valid : ℤ → List ℤ → Prop} {st : List ℤ → List (ℕ × Option ℤ)} {limit nOpt : ℤ → ℕ}
    (B : ∀ N, BodyOK nk e (body N) (valid N) st) (hO : ∀ N, 0 < N → 0 < nOpt N) :
    GroupSpec (fun cap c fidx N s t opt =>
      groupReader nk (body N) (limit N) (nOpt N) cap c fidx N s t opt) limit nOpt (nk + e) valid st :=
  ⟨fun _ _ _ N _ _ _ _ _ hN h => groupReader_ok (B N) hN (hO N hN) h,
   fun _ _ _ N ents prs t opt hN h0 hl hv hp hc =>
    groupReader_enc (B N) hN ents prs h0 hl hv hp hc t opt⟩

/-- C38: layers of the Boltzmann machine and on-site correlation factors, entries
`i index`. -/
theorem C38_layer_partial (N : ℕ) :
    GroupSpec (getInfoRBM_Layer N) (fun _ => N) Int.toNat 2 (fun _ a => InLat N (a.getD 0 0))
      (fun a => [((a.getD 0 0).toNat, some (a.getD 1 0))]) ∧
    ∀ cap c M s t opt, getInfoGutzwiller N cap c M s t opt = getInfoRBM_Layer N cap c 0 M s t opt :=
  ⟨groupReader_groupSpec (fun _ => layerBody_ok N) (by omega), fun _ _ _ _ _ _ => rfl⟩

/-- C38: Jastrow factors, entries `i j index` with `i ≠ j`; the diagonal is −1. -/
theorem C38_jastrow_partial (N : ℕ) :
    GroupSpec (getInfoJastrow N) (fun _ => N * (N - 1)) Int.toNat 3
      (fun _ a => a.getD 0 0 ≠ a.getD 1 0 ∧ InLat N (a.getD 0 0) ∧ InLat N (a.getD 1 0))
      (fun a => [((a.getD 0 0).toNat * N + (a.getD 1 0).toNat, some (a.getD 2 0)),
        ((a.getD 0 0).toNat * N + (a.getD 0 0).toNat, some (-1))]) :=
  groupReader_groupSpec (fun _ => jastrowBody_ok N) (by omega)

/-- C38: two-site doublon-holon factors, entries `i x0 x1 n`. -/
theorem C38_dh2_partial (N : ℕ) :
    GroupSpec (getInfoDH2 N) (fun M => N * M.toNat) (fun M => 6 * M.toNat) 4
      (fun M a => InLat N (a.getD 0 0) ∧ InLat N (a.getD 1 0) ∧ InLat N (a.getD 2 0) ∧
        InLat M.toNat (a.getD 3 0))
      (fun a => [((a.getD 3 0).toNat * (2 * N) + 2 * (a.getD 0 0).toNat, some (a.getD 1 0)),
        ((a.getD 3 0).toNat * (2 * N) + (2 * (a.getD 0 0).toNat + 1), some (a.getD 2 0))]) :=
  groupReader_groupSpec (fun M => dh2Body_ok N M.toNat) (by omega)

/-- C38: four-site doublon-holon factors, entries `i x0 x1 x2 x3 n`. -/
theorem C38_dh4_partial (N : ℕ) :
    GroupSpec (getInfoDH4 N) (fun M => N * M.toNat) (fun M => 10 * M.toNat) 6
      (fun M a => InLat N (a.getD 0 0) ∧ ((InLat N (a.getD 1 0) ∧ InLat N (a.getD 2 0)) ∧
        InLat N (a.getD 3 0) ∧ InLat N (a.getD 4 0)) ∧ InLat M.toNat (a.getD 5 0))
      (fun a => (List.range 4).map fun k =>
        ((a.getD 5 0).toNat * (4 * N) + (4 * (a.getD 0 0).toNat + k), some (a.getD (k + 1) 0))) :=
  groupReader_groupSpec (fun M => dh4Body_ok N M.toNat) (by omega)

/-- C38: layer of spin orbitals, entries `i s index`. -/
theorem C38_genLayer_partial (N : ℕ) :
    GroupSpec (getInfoGeneralRBM_Layer N) (fun _ => 2 * N) Int.toNat 3
      (fun _ a => InLat N (a.getD 0 0) ∧ InLat 2 (a.getD 1 0))
      (fun a => [((a.getD 0 0 + a.getD 1 0 * N).toNat, some (a.getD 2 0))]) :=
  groupReader_groupSpec (fun _ => genLayerBody_ok N) (by omega)

/-- C38: couplings of the Boltzmann machine, entries `i j index`. -/
theorem C38_physHidden_partial (N M : ℕ) :
    GroupSpec (getInfoRBM_PhysHidden N M) (fun _ => N * M) Int.toNat 3
      (fun _ a => InLat N (a.getD 0 0) ∧ InLat M (a.getD 1 0))
      (fun a => [((a.getD 0 0).toNat * M + (a.getD 1 0).toNat, some (a.getD 2 0))]) :=
  groupReader_groupSpec (fun _ => physHiddenBody_ok N M) (by omega)

/-- C38: couplings to spin orbitals, entries `i s j index`. -/
theorem C38_genPhysHidden_partial (N M : ℕ) :
    GroupSpec (getInfoGeneralRBM_PhysHidden N M) (fun _ => 2 * N * M) Int.toNat 4
      (fun _ a => InLat N (a.getD 0 0) ∧ InLat 2 (a.getD 1 0) ∧ InLat M (a.getD 2 0))
      (fun a => [((a.getD 0 0 + a.getD 1 0 * N).toNat * M + (a.getD 2 0).toNat, some (a.getD 3 0))]) :=
  groupReader_groupSpec (fun _ => genPhysHiddenBody_ok N M) (by omega)

/-! ## Complete tables -/

/-- As many different keys as there are possible ones are all of them. -/
theorem keys_cover {κ : Type} [DecidableEq κ] (K : Finset κ) (l : List (List ℤ)) (key : List ℤ → κ)
    (hin : ∀ a ∈ l, key a ∈ K) (hn : (l.map key).Nodup) (hl : l.length = K.card) :
    ∀ k ∈ K, ∃ a ∈ l, key a = k := by
  intro k hk
  have hsub : (l.map key).toFinset ⊆ K := by
    intro z hz
    rw [List.mem_toFinset, List.mem_map] at hz
    obtain ⟨a, ha, rfl⟩ := hz
    exact hin a ha
  have := Finset.eq_of_subset_of_card_le hsub
    (by rw [List.toFinset_card_of_nodup hn, List.length_map, hl])
  rw [← this, List.mem_toFinset, List.mem_map] at hk
  exact hk

/-- Stores of entries with different keys do not disturb each other. -/
theorem stores_keep {κ : Type} (l : List (List ℤ)) (key : List ℤ → κ)
    (st : List ℤ → List (ℕ × Option ℤ)) (hn : (l.map key).Nodup)
    (hd : ∀ a ∈ l, ∀ b ∈ l, ∀ p ∈ st a, ∀ q ∈ st b, p.1 = q.1 → p.2 = q.2 ∨ key a = key b)
    (hs : ∀ a ∈ l, ∀ p ∈ st a, ∀ q ∈ st a, p.1 = q.1 → p.2 = q.2) (t : Tab) :
    ∀ a ∈ l, ∀ p ∈ st a, runStores (l.flatMap st) t p.1 = p.2 := by
  intro a ha p hp
  refine runStores_mem _ _ ?_ p (List.mem_flatMap.2 ⟨a, ha, hp⟩)
  intro e he e' he' heq
  obtain ⟨b, hb, he⟩ := List.mem_flatMap.1 he
  obtain ⟨b', hb', he'⟩ := List.mem_flatMap.1 he'
  rcases hd b hb b' hb' e he e' he' heq with h | h
  · exact h
  · have := List.inj_on_of_nodup_map hn hb hb' h
    subst this
    exact hs b hb e he e' he' heq


theorem inLat_iff (N : ℕ) (z : ℤ) : InLat N z ↔ z ∈ Finset.Ico (0 : ℤ) N := by
  rw [Finset.mem_Ico]; rfl

theorem card_lat (N : ℕ) : (Finset.Ico (0 : ℤ) N).card = N := by simp

theorem cell_inj {N : ℕ} {i j i' j' : ℤ} (hi : InLat N j) (hj : InLat N j') (h0 : 0 ≤ i) (h0' : 0 ≤ i')
    (h : i.toNat * N + j.toNat = i'.toNat * N + j'.toNat) : i = i' ∧ j = j' := by
  unfold InLat at hi hj
  obtain ⟨a, b⟩ := flat2_inj (n := N) (show j.toNat < N by omega) (show j'.toNat < N by omega) h
  omega

/-- C38: a layer file with different sites determines the whole layer. -/
theorem C38_layer_complete (N : ℕ) (ents : List (List ℤ)) (t : Tab) (hl : ents.length = N)
    (hv : ∀ a ∈ ents, a.length = 2 ∧ InLat N (a.getD 0 0)) (hn : (ents.map fun a => a.getD 0 0).Nodup) :
    ∀ i : ℕ, i < N → ∃ v, [(i : ℤ), v] ∈ ents ∧
      runStores (ents.flatMap fun a => [((a.getD 0 0).toNat, some (a.getD 1 0))]) t i = some v := by
  intro i hi
  obtain ⟨a, ha, e⟩ := keys_cover (Finset.Ico (0 : ℤ) N) ents _
    (fun a ha => (inLat_iff _ _).1 (hv a ha).2) hn (by rw [hl, card_lat]) i
    (by rw [Finset.mem_Ico]; omega)
  obtain ⟨p, q, rfl⟩ := len2 (hv a ha).1
  have e' : p = i := e
  subst e'
  refine ⟨q, ha, ?_⟩
  have := stores_keep ents (fun a => a.getD 0 0)
    (fun a => [((a.getD 0 0).toNat, some (a.getD 1 0))]) hn ?_ ?_ t _ ha ((i : ℤ).toNat, some q) (by simp)
  · simpa using this
  · intro a ha b hb p hp q hq h
    simp only [List.mem_singleton] at hp hq
    subst hp hq
    dsimp only at h
    have h1 := (hv a ha).2
    have h2 := (hv b hb).2
    unfold InLat at h1 h2
    right; omega
  · intro a _ p hp q hq _
    simp only [List.mem_singleton] at hp hq
    rw [hp, hq]

/-- C38: a Jastrow file with different pairs determines the whole table; its diagonal
is −1. -/
theorem C38_jastrow_complete (N : ℕ) (ents : List (List ℤ)) (t : Tab) (hl : ents.length = N * (N - 1))
    (hv : ∀ a ∈ ents, a.length = 3 ∧ a.getD 0 0 ≠ a.getD 1 0 ∧ InLat N (a.getD 0 0) ∧
      InLat N (a.getD 1 0)) (hn : (ents.map fun a => (a.getD 0 0, a.getD 1 0)).Nodup) :
    let t' := runStores (ents.flatMap fun a =>
      [((a.getD 0 0).toNat * N + (a.getD 1 0).toNat, some (a.getD 2 0)),
        ((a.getD 0 0).toNat * N + (a.getD 0 0).toNat, some (-1))]) t
    ∀ i j : ℕ, i < N → j < N → i ≠ j →
      (∃ v, [(i : ℤ), (j : ℤ), v] ∈ ents ∧ t' (i * N + j) = some v) ∧ t' (i * N + i) = some (-1) := by
  intro t' i j hi hj hij
  obtain ⟨a, ha, e⟩ := keys_cover (Finset.offDiag (Finset.Ico (0 : ℤ) N)) ents _
    (fun a ha => by
      have := (hv a ha).2
      rw [Finset.mem_offDiag, ← inLat_iff, ← inLat_iff]
      exact ⟨this.2.1, this.2.2, this.1⟩) hn
    (by rw [hl, Finset.offDiag_card, card_lat, Nat.mul_sub, Nat.mul_one]) ((i : ℤ), (j : ℤ))
    (by rw [Finset.mem_offDiag, Finset.mem_Ico, Finset.mem_Ico]; simp; omega)
  obtain ⟨p, q, r, rfl⟩ := len3 (hv a ha).1
  have e' : (p, q) = ((i : ℤ), (j : ℤ)) := e
  simp only [Prod.mk.injEq] at e'
  obtain ⟨rfl, rfl⟩ := e'
  have key := stores_keep ents (fun a => (a.getD 0 0, a.getD 1 0))
    (fun a => [((a.getD 0 0).toNat * N + (a.getD 1 0).toNat, some (a.getD 2 0)),
        ((a.getD 0 0).toNat * N + (a.getD 0 0).toNat, some (-1))]) hn ?_ ?_ t _ ha
  · refine ⟨⟨r, ha, ?_⟩, ?_⟩
    · exact key ((i : ℤ).toNat * N + (j : ℤ).toNat, some r) (by simp)
    · exact key ((i : ℤ).toNat * N + (i : ℤ).toNat, some (-1)) (by simp)
  · intro a ha b hb p hp q hq h
    obtain ⟨-, h0, h1, h2⟩ := hv a ha
    obtain ⟨-, k0, k1, k2⟩ := hv b hb
    simp only [List.mem_cons, List.not_mem_nil, or_false] at hp hq
    rcases hp with rfl | rfl <;> rcases hq with rfl | rfl <;> dsimp only at h ⊢
    · obtain ⟨x, y⟩ := cell_inj h2 k2 h1.1 k1.1 h
      right; rw [x, y]
    · obtain ⟨x, y⟩ := cell_inj h2 k1 h1.1 k1.1 h
      exact absurd (x.trans y.symm) h0
    · obtain ⟨x, y⟩ := cell_inj h1 k2 h1.1 k1.1 h
      exact absurd (x.symm.trans y) k0
    · left; rfl
  · intro a ha p hp q hq h
    obtain ⟨-, h0, h1, h2⟩ := hv a ha
    simp only [List.mem_cons, List.not_mem_nil, or_false] at hp hq
    rcases hp with rfl | rfl <;> rcases hq with rfl | rfl <;> dsimp only at h ⊢
    · obtain ⟨x, y⟩ := cell_inj h2 h1 h1.1 h1.1 h
      exact absurd y.symm h0
    · obtain ⟨x, y⟩ := cell_inj h1 h2 h1.1 h1.1 h
      exact absurd y h0

theorem dhCell {w N : ℕ} {n i n' i' : ℤ} {k k' : ℕ} (hw : 0 < w) (hi : InLat N i) (hi' : InLat N i')
    (hk : k < w) (hk' : k' < w) (hn : 0 ≤ n) (hn' : 0 ≤ n')
    (h : n.toNat * (w * N) + (w * i.toNat + k) = n'.toNat * (w * N) + (w * i'.toNat + k')) :
    n = n' ∧ i = i' ∧ k = k' := by
  unfold InLat at hi hi'
  have b : ∀ (x : ℤ) (y : ℕ), 0 ≤ x ∧ x < N → y < w → w * x.toNat + y < w * N := by
    intro x y hx hy
    have : x.toNat + 1 ≤ N := by omega
    calc w * x.toNat + y < w * x.toNat + w := by omega
      _ = w * (x.toNat + 1) := by ring
      _ ≤ w * N := Nat.mul_le_mul_left _ this
  obtain ⟨e1, e2⟩ := flat2_inj (b i k hi hk) (b i' k' hi' hk') h
  obtain ⟨e3, e4⟩ := flat2_inj (a := i.toNat) (c := i'.toNat) hk hk' (by
    rw [Nat.mul_comm i.toNat, Nat.mul_comm i'.toNat]; exact e2)
  exact ⟨by omega, by omega, e4⟩

/-- C38: a file of two-site doublon-holon factors with different pairs `(site, factor)`
determines the whole table. -/
theorem C38_dh2_complete (N M : ℕ) (ents : List (List ℤ)) (t : Tab) (hl : ents.length = N * M)
    (hv : ∀ a ∈ ents, a.length = 4 ∧ InLat N (a.getD 0 0) ∧ InLat N (a.getD 1 0) ∧ InLat N (a.getD 2 0) ∧
        InLat M (a.getD 3 0)) (hn : (ents.map fun a => (a.getD 0 0, a.getD 3 0)).Nodup) :
    let t' := runStores (ents.flatMap fun a =>
      [((a.getD 3 0).toNat * (2 * N) + 2 * (a.getD 0 0).toNat, some (a.getD 1 0)),
        ((a.getD 3 0).toNat * (2 * N) + (2 * (a.getD 0 0).toNat + 1), some (a.getD 2 0))]) t
    ∀ n i : ℕ, n < M → i < N → ∃ x0 x1, [(i : ℤ), x0, x1, (n : ℤ)] ∈ ents ∧
      t' (n * (2 * N) + 2 * i) = some x0 ∧ t' (n * (2 * N) + (2 * i + 1)) = some x1 := by
  intro t' n i hn' hi
  obtain ⟨a, ha, e⟩ := keys_cover (Finset.Ico (0 : ℤ) N ×ˢ Finset.Ico (0 : ℤ) M) ents _
    (fun a ha => by
      have := (hv a ha).2
      rw [Finset.mem_product, ← inLat_iff, ← inLat_iff]
      exact ⟨this.1, this.2.2.2⟩) hn
    (by rw [hl, Finset.card_product, card_lat, card_lat]) ((i : ℤ), (n : ℤ))
    (by rw [Finset.mem_product, Finset.mem_Ico, Finset.mem_Ico]; simp; omega)
  obtain ⟨p, q, r, u, rfl⟩ := len4 (hv a ha).1
  have e' : (p, u) = ((i : ℤ), (n : ℤ)) := e
  simp only [Prod.mk.injEq] at e'
  obtain ⟨rfl, rfl⟩ := e'
  have key := stores_keep ents (fun a => (a.getD 0 0, a.getD 3 0))
    (fun a => [((a.getD 3 0).toNat * (2 * N) + 2 * (a.getD 0 0).toNat, some (a.getD 1 0)),
        ((a.getD 3 0).toNat * (2 * N) + (2 * (a.getD 0 0).toNat + 1), some (a.getD 2 0))]) hn ?_ ?_ t _ ha
  · refine ⟨q, r, ha, ?_, ?_⟩
    · exact key ((n : ℤ).toNat * (2 * N) + 2 * (i : ℤ).toNat, some q) (by simp)
    · exact key ((n : ℤ).toNat * (2 * N) + (2 * (i : ℤ).toNat + 1), some r) (by simp)
  · intro a ha b hb p hp q hq h
    obtain ⟨-, h0, -, -, h1⟩ := hv a ha
    obtain ⟨-, k0, -, -, k1⟩ := hv b hb
    right
    have : ∃ k k', k < 2 ∧ k' < 2 ∧
        (a.getD 3 0).toNat * (2 * N) + (2 * (a.getD 0 0).toNat + k) =
        (b.getD 3 0).toNat * (2 * N) + (2 * (b.getD 0 0).toNat + k') := by
      simp only [List.mem_cons, List.not_mem_nil, or_false] at hp hq
      rcases hp with rfl | rfl <;> rcases hq with rfl | rfl
      · exact ⟨0, 0, by decide, by decide, h⟩
      · exact ⟨0, 1, by decide, by decide, h⟩
      · exact ⟨1, 0, by decide, by decide, h⟩
      · exact ⟨1, 1, by decide, by decide, h⟩
    obtain ⟨k, k', hk, hk', h⟩ := this
    obtain ⟨x, y, -⟩ := dhCell (by decide) h0 k0 hk hk' h1.1 k1.1 h
    rw [x, y]
  · intro a _ p hp q hq h
    simp only [List.mem_cons, List.not_mem_nil, or_false] at hp hq
    rcases hp with rfl | rfl <;> rcases hq with rfl | rfl <;> dsimp only at h ⊢ <;> omega

/-- C38: a file of four-site doublon-holon factors with different pairs `(site, factor)`
determines the whole table. -/
theorem C38_dh4_complete (N M : ℕ) (ents : List (List ℤ)) (t : Tab) (hl : ents.length = N * M)
    (hv : ∀ a ∈ ents, a.length = 6 ∧ InLat N (a.getD 0 0) ∧ InLat M (a.getD 5 0))
    (hn : (ents.map fun a => (a.getD 0 0, a.getD 5 0)).Nodup) :
    let t' := runStores (ents.flatMap fun a => (List.range 4).map fun k =>
        ((a.getD 5 0).toNat * (4 * N) + (4 * (a.getD 0 0).toNat + k), some (a.getD (k + 1) 0))) t
    ∀ n i : ℕ, n < M → i < N → ∃ a ∈ ents, a.getD 0 0 = i ∧ a.getD 5 0 = n ∧
      ∀ k < 4, t' (n * (4 * N) + (4 * i + k)) = some (a.getD (k + 1) 0) := by
  intro t' n i hn' hi
  obtain ⟨a, ha, e⟩ := keys_cover (Finset.Ico (0 : ℤ) N ×ˢ Finset.Ico (0 : ℤ) M) ents _
    (fun a ha => by
      have := (hv a ha).2
      rw [Finset.mem_product, ← inLat_iff, ← inLat_iff]
      exact this) hn
    (by rw [hl, Finset.card_product, card_lat, card_lat]) ((i : ℤ), (n : ℤ))
    (by rw [Finset.mem_product, Finset.mem_Ico, Finset.mem_Ico]; simp; omega)
  have e1 : a.getD 0 0 = i := congrArg Prod.fst e
  have e2 : a.getD 5 0 = n := congrArg Prod.snd e
  refine ⟨a, ha, e1, e2, fun k hk => ?_⟩
  have key := stores_keep ents (fun a => (a.getD 0 0, a.getD 5 0))
    (fun a => (List.range 4).map fun k =>
        ((a.getD 5 0).toNat * (4 * N) + (4 * (a.getD 0 0).toNat + k), some (a.getD (k + 1) 0))) hn ?_ ?_ t
    _ ha (n * (4 * N) + (4 * i + k), some (a.getD (k + 1) 0))
    (List.mem_map.2 ⟨k, List.mem_range.2 hk, by rw [e1, e2]; simp⟩)
  · exact key
  · intro a ha b hb p hp q hq h
    obtain ⟨-, h0, h1⟩ := hv a ha
    obtain ⟨-, k0, k1⟩ := hv b hb
    obtain ⟨k, hk, rfl⟩ := List.mem_map.1 hp
    obtain ⟨k', hk', rfl⟩ := List.mem_map.1 hq
    obtain ⟨x, y, -⟩ := dhCell (by decide) h0 k0 (List.mem_range.1 hk) (List.mem_range.1 hk') h1.1 k1.1 h
    right
    rw [x, y]
  · intro a _ p hp q hq h
    obtain ⟨k, hk, rfl⟩ := List.mem_map.1 hp
    obtain ⟨k', hk', rfl⟩ := List.mem_map.1 hq
    dsimp only at h ⊢
    have : k = k' := by omega
    rw [this]

/-- C38: a file of couplings with different pairs determines the whole table. -/
theorem C38_physHidden_complete (N M : ℕ) (ents : List (List ℤ)) (t : Tab) (hl : ents.length = N * M)
    (hv : ∀ a ∈ ents, a.length = 3 ∧ InLat N (a.getD 0 0) ∧ InLat M (a.getD 1 0))
    (hn : (ents.map fun a => (a.getD 0 0, a.getD 1 0)).Nodup) :
    ∀ i j : ℕ, i < N → j < M → ∃ v, [(i : ℤ), (j : ℤ), v] ∈ ents ∧
      runStores (ents.flatMap fun a =>
        [((a.getD 0 0).toNat * M + (a.getD 1 0).toNat, some (a.getD 2 0))]) t (i * M + j) = some v := by
  intro i j hi hj
  obtain ⟨a, ha, e⟩ := keys_cover (Finset.Ico (0 : ℤ) N ×ˢ Finset.Ico (0 : ℤ) M) ents _
    (fun a ha => by
      have := (hv a ha).2
      rw [Finset.mem_product, ← inLat_iff, ← inLat_iff]
      exact this) hn
    (by rw [hl, Finset.card_product, card_lat, card_lat]) ((i : ℤ), (j : ℤ))
    (by rw [Finset.mem_product, Finset.mem_Ico, Finset.mem_Ico]; simp; omega)
  obtain ⟨p, q, r, rfl⟩ := len3 (hv a ha).1
  have e' : (p, q) = ((i : ℤ), (j : ℤ)) := e
  simp only [Prod.mk.injEq] at e'
  obtain ⟨rfl, rfl⟩ := e'
  have key := stores_keep ents (fun a => (a.getD 0 0, a.getD 1 0))
    (fun a => [((a.getD 0 0).toNat * M + (a.getD 1 0).toNat, some (a.getD 2 0))]) hn ?_ ?_ t _ ha
    ((i : ℤ).toNat * M + (j : ℤ).toNat, some r) (by simp)
  · exact ⟨r, ha, by simpa using key⟩
  · intro a ha b hb p hp q hq h
    obtain ⟨-, h0, h1⟩ := hv a ha
    obtain ⟨-, k0, k1⟩ := hv b hb
    simp only [List.mem_singleton] at hp hq
    subst hp hq
    obtain ⟨x, y⟩ := cell_inj h1 k1 h0.1 k0.1 h
    right; rw [x, y]
  · intro a _ p hp q hq _
    simp only [List.mem_singleton] at hp hq
    rw [hp, hq]

theorem spinSite {N : ℕ} {i s i' s' : ℤ} (hi : InLat N i) (hs : InLat 2 s) (hi' : InLat N i')
    (hs' : InLat 2 s') (h : (i + s * N).toNat = (i' + s' * N).toNat) : i = i' ∧ s = s' := by
  unfold InLat at *
  have c : s = 0 ∨ s = 1 := by omega
  have c' : s' = 0 ∨ s' = 1 := by omega
  rcases c with rfl | rfl <;> rcases c' with rfl | rfl <;> omega

/-- C38: a layer file of spin orbitals with different pairs `(site, spin)` determines the
whole layer; spin orbital `(i, s)` is number `i + s * N`. -/
theorem C38_genLayer_complete (N : ℕ) (ents : List (List ℤ)) (t : Tab) (hl : ents.length = 2 * N)
    (hv : ∀ a ∈ ents, a.length = 3 ∧ InLat N (a.getD 0 0) ∧ InLat 2 (a.getD 1 0))
    (hn : (ents.map fun a => (a.getD 0 0, a.getD 1 0)).Nodup) :
    ∀ i s : ℕ, i < N → s < 2 → ∃ v, [(i : ℤ), (s : ℤ), v] ∈ ents ∧
      runStores (ents.flatMap fun a =>
        [((a.getD 0 0 + a.getD 1 0 * (N : ℤ)).toNat, some (a.getD 2 0))]) t (i + s * N) = some v := by
  intro i j hi hj
  obtain ⟨a, ha, e⟩ := keys_cover (Finset.Ico (0 : ℤ) N ×ˢ Finset.Ico (0 : ℤ) (2 : ℕ)) ents _
    (fun a ha => by
      have := (hv a ha).2
      rw [Finset.mem_product, ← inLat_iff, ← inLat_iff]
      exact this) hn
    (by rw [hl, Finset.card_product, card_lat, card_lat, Nat.mul_comm]) ((i : ℤ), (j : ℤ))
    (by rw [Finset.mem_product, Finset.mem_Ico, Finset.mem_Ico]; simp; omega)
  obtain ⟨p, q, r, rfl⟩ := len3 (hv a ha).1
  have e' : (p, q) = ((i : ℤ), (j : ℤ)) := e
  simp only [Prod.mk.injEq] at e'
  obtain ⟨rfl, rfl⟩ := e'
  have key := stores_keep ents (fun a => (a.getD 0 0, a.getD 1 0))
    (fun a => [((a.getD 0 0 + a.getD 1 0 * (N : ℤ)).toNat, some (a.getD 2 0))]) hn ?_ ?_ t _ ha
    (((i : ℤ) + (j : ℤ) * N).toNat, some r) (by simp)
  · refine ⟨r, ha, ?_⟩
    have e : ((i : ℤ) + (j : ℤ) * N).toNat = i + j * N := by
      rw [← Nat.cast_mul, ← Nat.cast_add, Int.toNat_natCast]
    rw [← e]
    exact key
  · intro a ha b hb p hp q hq h
    obtain ⟨-, h0, h1⟩ := hv a ha
    obtain ⟨-, k0, k1⟩ := hv b hb
    simp only [List.mem_singleton] at hp hq
    subst hp hq
    right
    dsimp only at h ⊢
    obtain ⟨x, y⟩ := spinSite h0 h1 k0 k1 h
    rw [x, y]
  · intro a _ p hp q hq _
    simp only [List.mem_singleton] at hp hq
    rw [hp, hq]

/-- C38: a file of couplings to spin orbitals with different triples `(site, spin, unit)`
determines the whole table. -/
theorem C38_genPhysHidden_complete (N M : ℕ) (ents : List (List ℤ)) (t : Tab)
    (hl : ents.length = 2 * N * M)
    (hv : ∀ a ∈ ents, a.length = 4 ∧ InLat N (a.getD 0 0) ∧ InLat 2 (a.getD 1 0) ∧ InLat M (a.getD 2 0))
    (hn : (ents.map fun a => (a.getD 0 0, a.getD 1 0, a.getD 2 0)).Nodup) :
    ∀ i s j : ℕ, i < N → s < 2 → j < M → ∃ v, [(i : ℤ), (s : ℤ), (j : ℤ), v] ∈ ents ∧
      runStores (ents.flatMap fun a =>
        [((a.getD 0 0 + a.getD 1 0 * (N : ℤ)).toNat * M + (a.getD 2 0).toNat, some (a.getD 3 0))]) t
        ((i + s * N) * M + j) = some v := by
  intro i s j hi hs hj
  obtain ⟨a, ha, e⟩ := keys_cover
    (Finset.Ico (0 : ℤ) N ×ˢ Finset.Ico (0 : ℤ) (2 : ℕ) ×ˢ Finset.Ico (0 : ℤ) M) ents _
    (fun a ha => by
      have := (hv a ha).2
      rw [Finset.mem_product, Finset.mem_product, ← inLat_iff, ← inLat_iff, ← inLat_iff]
      exact this) hn
    (by rw [hl, Finset.card_product, Finset.card_product, card_lat, card_lat, card_lat]; ring)
    ((i : ℤ), (s : ℤ), (j : ℤ))
    (by rw [Finset.mem_product, Finset.mem_product, Finset.mem_Ico, Finset.mem_Ico, Finset.mem_Ico]
        simp; omega)
  obtain ⟨p, q, r, u, rfl⟩ := len4 (hv a ha).1
  have e' : (p, q, r) = ((i : ℤ), (s : ℤ), (j : ℤ)) := e
  simp only [Prod.mk.injEq] at e'
  obtain ⟨rfl, rfl, rfl⟩ := e'
  have key := stores_keep ents (fun a => (a.getD 0 0, a.getD 1 0, a.getD 2 0))
    (fun a => [((a.getD 0 0 + a.getD 1 0 * (N : ℤ)).toNat * M + (a.getD 2 0).toNat,
      some (a.getD 3 0))]) hn ?_ ?_ t _ ha
    (((i : ℤ) + (s : ℤ) * N).toNat * M + (j : ℤ).toNat, some u) (by simp)
  · refine ⟨u, ha, ?_⟩
    have e : ((i : ℤ) + (s : ℤ) * N).toNat = i + s * N := by
      rw [← Nat.cast_mul, ← Nat.cast_add, Int.toNat_natCast]
    rw [← e]
    exact key
  · intro a ha b hb p hp q hq h
    obtain ⟨-, h0, h1, h2⟩ := hv a ha
    obtain ⟨-, k0, k1, k2⟩ := hv b hb
    simp only [List.mem_singleton] at hp hq
    subst hp hq
    right
    dsimp only at h
    obtain ⟨x, y⟩ := flat2_inj (n := M) (show (a.getD 2 0).toNat < M by unfold InLat at h2; omega)
      (show (b.getD 2 0).toNat < M by unfold InLat at k2; omega) h
    obtain ⟨x1, x2⟩ := spinSite h0 h1 k0 k1 x
    have y : a.getD 2 0 = b.getD 2 0 := by unfold InLat at h2 k2; omega
    rw [x1, x2, y]
  · intro a _ p hp q hq _
    simp only [List.mem_singleton] at hp hq
    rw [hp, hq]

/-! ## What the readers of indices accept -/

/-- C38 is violated by the code for parameter indices: they are not compared with the
number of parameters. -/
theorem C38_index_violated :
    ∃ t opt, getInfoGutzwiller 2 2 0 1 [some 0, some 7, some 1, some (-4), some 0, some 1]
      (fun _ => none) (fun _ => none) = .ok (t, opt) ∧ t 0 = some 7 ∧ t 1 = some (-4) := by
  have := (C38_layer_partial 2).1.2 2 0 0 1 [[0, 7], [1, -4]] [(0, 1)] (fun _ => none) (fun _ => none)
    (by decide) (by decide) (by decide) (by simp [InLat]) (by decide) (by decide)
  exact ⟨_, _, this, by decide, by decide⟩

/-- C38 is violated by the code for parameter indices: a file naming one site twice is
accepted and leaves another site without index. -/
theorem C38_index_twice_violated :
    ∃ t opt, getInfoGutzwiller 2 2 0 1 [some 0, some 0, some 0, some 0, some 0, some 1]
      (fun _ => none) (fun _ => none) = .ok (t, opt) ∧ t 1 = none := by
  have := (C38_layer_partial 2).1.2 2 0 0 1 [[0, 0], [0, 0]] [(0, 1)] (fun _ => none) (fun _ => none)
    (by decide) (by decide) (by decide) (by simp [InLat]) (by decide) (by decide)
  exact ⟨_, _, this, by decide⟩

/-- C38 is violated by the code for doublon-holon factors: site and factor number are
used as an address before they are checked. -/
theorem C38_dh_oob_violated :
    getInfoDH2 2 12 0 0 1 [some 2, some 0, some 0, some 0] (fun _ => none) (fun _ => none) = .ub ∧
    getInfoDH2 2 12 0 0 1 [some 0, some 0, some 0, some 1] (fun _ => none) (fun _ => none) = .ub := ⟨rfl, rfl⟩

/-- C38 is violated by the code for a word in the flag section: the reader neither
accepts nor rejects the file; it stays in its loop, for complex parameters until it
writes behind the flags. -/
theorem C38_junk_violated :
    getInfoGutzwiller 1 2 0 1 [some 0, some 0, none] (fun _ => none) (fun _ => none) = .hang ∧
    getInfoGutzwiller 1 2 1 1 [some 0, some 0, none] (fun _ => none) (fun _ => none) = .ub := ⟨rfl, rfl⟩

end MVMC
