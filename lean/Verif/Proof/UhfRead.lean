import Verif.Spec.UhfRead

/-! # The second pass of the Hartree–Fock reader -/
namespace MVMC
open Spec

theorem uhfRealLoop_spec (n : ℕ) (N : ℤ) (ls : List DLine) : ∀ rows : List URow,
    ((rows.length : ℤ) + ls.length > N → ls ≠ [] → uhfRealLoop n N ls rows = .ub) ∧
    ((rows.length : ℤ) + ls.length ≤ N → ∃ r, uhfRealLoop n N ls rows = .ok (rows ++ r) ∧ r.length = ls.length ∧
      ((∀ l ∈ ls, n ≤ l.ints.length ∧ 1 ≤ l.vals.length) → r = ls.map fun l => ⟨l.ints.take n, l.vals.head?, none⟩)) := by
  induction ls with
  | nil => intro rows; exact ⟨fun _ h => absurd rfl h, fun _ => ⟨[], by simp [uhfRealLoop], rfl, fun _ => rfl⟩⟩
  | cons l ls ih =>
    intro rows
    rw [uhfRealLoop]
    by_cases h : (rows.length : ℤ) ≥ N
    · rw [if_pos h]
      refine ⟨fun _ _ => rfl, fun hc => ?_⟩
      simp only [List.length_cons] at hc
      push_cast at hc
      omega
    · rw [if_neg h]
      obtain ⟨i1, i2⟩ := ih (rows ++ [⟨scanI n (List.replicate n 0) l, if l.ints.length < n then none else l.vals.head?, none⟩])
      simp only [List.length_append, List.length_cons, List.length_nil] at i1 i2 ⊢
      push_cast at i1 i2 ⊢
      constructor
      · intro hc _
        refine i1 (by omega) ?_
        rintro rfl
        simp at hc
        omega
      · intro hc
        obtain ⟨r, e1, e2, e3⟩ := i2 (by omega)
        refine ⟨_ :: r, by rw [e1]; simp; exact rfl, by simp [e2], fun hl => ?_⟩
        have h0 := hl l (by simp)
        rw [e3 (fun x hx => hl x (by simp [hx]))]
        rw [List.map_cons, if_neg (by omega), scanI, List.drop_eq_nil_of_le (by simpa using h0.1), List.append_nil]

theorem uhfCplxLoop_spec (n : ℕ) (zero : Bool) (N : ℤ) (ls : List DLine) : ∀ (re im : Option ℚ) (rows : List URow),
    ((rows.length : ℤ) + ls.length > N → ls ≠ [] → uhfCplxLoop n zero N ls re im rows = .ub) ∧
    ((rows.length : ℤ) + ls.length ≤ N → ∃ re' im' r, uhfCplxLoop n zero N ls re im rows = .ok (re', im', rows ++ r) ∧ r.length = ls.length ∧
      ((∀ l ∈ ls, n ≤ l.ints.length ∧ (if zero then 1 else 2) ≤ l.vals.length) →
        r = ls.map fun l => ⟨l.ints.take n, l.vals.head?, if zero then some (l.vals[1]?.getD 0) else l.vals[1]?⟩)) := by
  induction ls with
  | nil => intro re im rows; exact ⟨fun _ h => absurd rfl h, fun _ => ⟨re, im, [], by simp [uhfCplxLoop], rfl, fun _ => rfl⟩⟩
  | cons l ls ih =>
    intro re im rows
    rw [uhfCplxLoop]
    by_cases h : (rows.length : ℤ) ≥ N
    · rw [if_pos h]
      refine ⟨fun _ _ => rfl, fun hc => ?_⟩
      simp only [List.length_cons] at hc
      push_cast at hc
      omega
    · rw [if_neg h]
      obtain ⟨i1, i2⟩ := ih (if l.ints.length < n then re else (l.vals[0]?).or re)
        (if l.ints.length < n then (if zero then some 0 else im) else (l.vals[1]?).or (if zero then some 0 else im))
        (rows ++ [⟨scanI n (List.replicate n 0) l, if l.ints.length < n then re else (l.vals[0]?).or re,
          if l.ints.length < n then (if zero then some 0 else im) else (l.vals[1]?).or (if zero then some 0 else im)⟩])
      simp only [List.length_append, List.length_cons, List.length_nil] at i1 i2 ⊢
      push_cast at i1 i2 ⊢
      constructor
      · intro hc _
        refine i1 (by omega) ?_
        rintro rfl
        simp at hc
        omega
      · intro hc
        obtain ⟨re', im', r, e1, e2, e3⟩ := i2 (by omega)
        refine ⟨re', im', _ :: r, by rw [e1]; simp; exact rfl, by simp [e2], fun hl => ?_⟩
        have h0 := hl l (by simp)
        rw [e3 (fun x hx => hl x (by simp [hx]))]
        have hv : 1 ≤ l.vals.length := by
          have := h0.2
          split at this <;> omega
        rw [List.map_cons, if_neg (by omega), if_neg (by omega), scanI, List.drop_eq_nil_of_le (by simpa using h0.1), List.append_nil]
        congr 2
        · obtain ⟨v, vs, e⟩ := List.exists_cons_of_length_pos hv
          simp [e]
        · cases zero with
          | true => cases h1 : l.vals[1]? <;> simp
          | false =>
            have h2 : 2 ≤ l.vals.length := by simpa using h0.2
            rw [List.getElem?_eq_getElem (by omega)]
            simp

theorem uhfPairLoop_spec (N : ℤ) (ls : List DLine) : ∀ (idx : ℕ) (rows : List URow), rows.length = 2 * idx → Even N →
    (2 * ((idx : ℤ) + ls.length) > N → ls ≠ [] → uhfPairLoop N ls idx rows = .ub) ∧
    (2 * ((idx : ℤ) + ls.length) ≤ N → ∃ r, uhfPairLoop N ls idx rows = .ok (idx + ls.length, rows ++ r) ∧ r.length = 2 * ls.length ∧
      ((∀ l ∈ ls, 2 ≤ l.ints.length ∧ 1 ≤ l.vals.length) →
        r = ls.flatMap fun l => [⟨l.ints.take 2, l.vals.head?, none⟩, ⟨(l.ints.take 2).reverse, l.vals.head?, none⟩])) := by
  induction ls with
  | nil => intro idx rows _ _; exact ⟨fun _ h => absurd rfl h, fun _ => ⟨[], by simp [uhfPairLoop], rfl, fun _ => rfl⟩⟩
  | cons l ls ih =>
    intro idx rows hr hN
    obtain ⟨M, hM⟩ := hN
    rw [uhfPairLoop]
    by_cases h : 2 * (idx : ℤ) + 1 ≥ N
    · rw [if_pos h]
      refine ⟨fun _ _ => rfl, fun hc => ?_⟩
      simp only [List.length_cons] at hc
      push_cast at hc
      omega
    · rw [if_neg h]
      dsimp only
      obtain ⟨i1, i2⟩ := ih (idx + 1) (rows ++ [⟨scanI 2 [0, 0] l, if l.ints.length < 2 then none else l.vals.head?, none⟩,
        ⟨[(scanI 2 [0, 0] l).getD 1 0, (scanI 2 [0, 0] l).getD 0 0], if l.ints.length < 2 then none else l.vals.head?, none⟩])
        (by simp [hr]; omega) ⟨M, hM⟩
      simp only [List.length_cons] at i1 i2 ⊢
      push_cast at i1 i2 ⊢
      constructor
      · intro hc _
        refine i1 (by omega) ?_
        rintro rfl
        simp at hc
        omega
      · intro hc
        obtain ⟨r, e1, e2, e3⟩ := i2 (by omega)
        refine ⟨_ :: _ :: r, by rw [e1]; simp [Nat.add_assoc, Nat.add_comm 1]; exact ⟨rfl, rfl⟩, by simp [e2]; omega, fun hl => ?_⟩
        have h0 := hl l (by simp)
        rw [e3 (fun x hx => hl x (by simp [hx]))]
        obtain ⟨a, b, s, e⟩ : ∃ a b s, l.ints = a :: b :: s := by
          match hh : l.ints with
          | a :: b :: s => exact ⟨a, b, s, rfl⟩
          | [] => rw [hh] at h0; simp at h0
          | [a] => rw [hh] at h0; simp at h0
        simp [e, scanI]

theorem uhfLocLoop_spec (N : ℤ) (ls : List DLine) : ∀ (x : List (Option ℤ)) (idx : ℕ) (t : ℕ → Option ℤ), x.length = 2 →
    (∀ l ∈ ls, 2 ≤ l.ints.length) →
    ((∃ l ∈ ls, ¬ (0 ≤ l.ints.headD 0 ∧ l.ints.headD 0 < N)) → uhfLocLoop N ls x idx t = .ub) ∧
    ((∀ l ∈ ls, 0 ≤ l.ints.headD 0 ∧ l.ints.headD 0 < N) → ∃ t', uhfLocLoop N ls x idx t = .ok (idx + ls.length, t') ∧
      (∀ j : ℕ, (∀ l ∈ ls, l.ints.headD 0 ≠ j) → t' j = t j) ∧
      (∀ pre l post, ls = pre ++ l :: post → (∀ l' ∈ post, l'.ints.headD 0 ≠ l.ints.headD 0) → t' (l.ints.headD 0).toNat = l.ints[1]?)) := by
  induction ls with
  | nil => intro x idx t _ _; exact ⟨fun h => by simp at h, fun _ => ⟨t, by simp [uhfLocLoop], by simp, by simp⟩⟩
  | cons l ls ih =>
    intro x idx t hx hc
    obtain ⟨a, b, r, e⟩ : ∃ a b s, l.ints = a :: b :: s := by
      have h0 := hc l (by simp)
      match hh : l.ints with
      | a :: b :: s => exact ⟨a, b, s, rfl⟩
      | [] => rw [hh] at h0; simp at h0
      | [a] => rw [hh] at h0; simp at h0
    have hs : scanO 2 x l.ints = [some a, some b] := by simp [scanO, e, hx]
    rw [uhfLocLoop, hs]
    dsimp only
    have hh : l.ints.headD 0 = a := by rw [e]; rfl
    by_cases h : a < 0 ∨ a ≥ N
    · rw [if_pos h]
      refine ⟨fun _ => rfl, fun hc => ?_⟩
      have := hc l (by simp)
      rw [hh] at this
      omega
    · rw [if_neg h]
      obtain ⟨i1, i2⟩ := ih [some a, some b] (idx + 1) (fun j => if j = a.toNat then some b else t j) rfl (fun x hx => hc x (by simp [hx]))
      constructor
      · rintro ⟨y, hy, hn⟩
        rcases List.mem_cons.1 hy with rfl | hy
        · rw [hh] at hn; omega
        · exact i1 ⟨y, hy, hn⟩
      · intro hin
        obtain ⟨t', e1, e2, e3⟩ := i2 (fun y hy => hin y (by simp [hy]))
        refine ⟨t', by rw [e1, List.length_cons]; congr 2; omega, fun j hj => ?_, ?_⟩
        · rw [e2 j (fun y hy => hj y (by simp [hy]))]
          have := hj l (by simp)
          rw [hh] at this
          rw [if_neg (by omega)]
        · intro pre m post hpre hpost
          cases pre with
          | nil =>
            simp only [List.nil_append, List.cons.injEq] at hpre
            obtain ⟨rfl, rfl⟩ := hpre
            rw [e2 _ (fun y hy => ?_)]
            · rw [hh, if_pos rfl, e]; rfl
            · have := hpost y hy
              rw [hh] at this ⊢
              omega
          | cons p pre =>
            simp only [List.cons_append, List.cons.injEq] at hpre
            exact e3 pre m post hpre.2 hpost

theorem uhfOneBodyLoop_spec (N : ℤ) (ls : List DLine) : ∀ (x : List (Option ℤ)) (rows : List URow), x.length = 4 → (∀ l ∈ ls, UhfSameSpin l) →
    ((rows.length : ℤ) + ls.length > N → ls ≠ [] → uhfOneBodyLoop N ls x rows = .ub) ∧
    ((rows.length : ℤ) + ls.length ≤ N → uhfOneBodyLoop N ls x rows =
      .ok (false, rows ++ ls.map (fun l => ⟨l.ints.take 4, none, none⟩), rows ++ ls.map (fun l => ⟨l.ints.take 4, none, none⟩))) := by
  induction ls with
  | nil => intro x rows _ _; exact ⟨fun _ h => absurd rfl h, fun _ => by simp [uhfOneBodyLoop]⟩
  | cons l ls ih =>
    intro x rows hx hl
    obtain ⟨a, s, b, r, e⟩ := hl l (by simp)
    have hs : scanO 4 x l.ints = [some a, some s, some b, some s] := by simp [scanO, e, hx]
    rw [uhfOneBodyLoop, hs]
    dsimp only
    by_cases h : (rows.length : ℤ) ≥ N
    · rw [if_pos h]
      refine ⟨fun _ _ => rfl, fun hc => ?_⟩
      simp only [List.length_cons] at hc
      push_cast at hc
      omega
    · rw [if_neg h, if_neg (by simp)]
      obtain ⟨i1, i2⟩ := ih [some a, some s, some b, some s] (rows ++ [⟨[a, s, b, s], none, none⟩]) rfl (fun x hx => hl x (by simp [hx]))
      simp only [List.length_append, List.length_cons, List.length_nil] at i1 i2 ⊢
      push_cast at i1 i2 ⊢
      constructor
      · intro hc _
        refine i1 (by omega) ?_
        rintro rfl
        simp at hc
        omega
      · intro hc
        rw [i2 (by omega)]
        simp [e]

/-! ## One file -/

/-- kinds of tables with rows -/
def UTab (k : UKW) : Prop := uhfCols k ≠ none ∨ k = .pairHop

theorem uhfStep_tab (N : ℕ) (z : USizes) (k : UKW) (ls : List DLine) (t : UTabs) (hk : UTab k)
    (hs : k = .oneBodyG → ∀ l ∈ ls, UhfSameSpin l) (hp : Even (z.buf.cnt .pairHop)) (h0 : 0 < z.buf.cnt k) :
    (¬ uhfPerLine k * (ls.length : ℤ) ≤ z.buf.cnt k → uhfFileStep N z k ls t = .ub) ∧
    (uhfPerLine k * (ls.length : ℤ) ≤ z.buf.cnt k → ∃ t', uhfFileStep N z k ls t = .ok t' ∧ t'.loc = t.loc ∧ t'.orb = t.orb ∧ (∀ j, j ≠ k → t'.rows j = t.rows j) ∧
      t'.info = (if uhfPerLine k * (ls.length : ℤ) = z.buf.cnt k then t.info else 0) ∧
      ((∀ l ∈ ls, UhfComplete k l) → t'.rows k = uhfTable k ls ++ List.replicate ((z.buf.cnt k).toNat - (uhfTable k ls).length) (uhfNoRow k))) := by
  have hne : ∀ n : ℕ, (n : ℤ) > z.buf.cnt k → n ≠ 0 := by intro n h; omega
  have real : ∀ n, (k = .coulombIntra ∧ n = 1 ∨ k = .coulombInter ∧ n = 2 ∨ k = .hund ∧ n = 2 ∨ k = .exchange ∧ n = 2) → 
    (¬ uhfPerLine k * (ls.length : ℤ) ≤ z.buf.cnt k → uhfFileStep N z k ls t = .ub) ∧
    (uhfPerLine k * (ls.length : ℤ) ≤ z.buf.cnt k → ∃ t', uhfFileStep N z k ls t = .ok t' ∧ t'.loc = t.loc ∧ t'.orb = t.orb ∧ (∀ j, j ≠ k → t'.rows j = t.rows j) ∧
      t'.info = (if uhfPerLine k * (ls.length : ℤ) = z.buf.cnt k then t.info else 0) ∧
      ((∀ l ∈ ls, UhfComplete k l) → t'.rows k = uhfTable k ls ++ List.replicate ((z.buf.cnt k).toNat - (uhfTable k ls).length) (uhfNoRow k))) := by
    intro n hn
    obtain ⟨s1, s2⟩ := uhfRealLoop_spec n (z.buf.cnt k) ls []
    have hst : uhfFileStep N z k ls t = (match uhfRealLoop n (z.buf.cnt k) ls [] with
      | .ok rows => .ok (uhfStore k n (z.buf.cnt k) rows rows t)
      | _ => .ub) := by
      rcases hn with ⟨rfl, rfl⟩ | ⟨rfl, rfl⟩ | ⟨rfl, rfl⟩ | ⟨rfl, rfl⟩ <;> simp only [uhfFileStep, gt_iff_lt, if_pos h0] <;>
        (generalize uhfRealLoop _ _ _ _ = q; cases q <;> rfl)
    have hf : uhfPerLine k * (ls.length : ℤ) ≤ z.buf.cnt k ↔ (ls.length : ℤ) ≤ z.buf.cnt k := by
      rcases hn with ⟨rfl, rfl⟩ | ⟨rfl, rfl⟩ | ⟨rfl, rfl⟩ | ⟨rfl, rfl⟩ <;> simp [uhfPerLine]
    have hkp : k ≠ .pairHop := by rcases hn with ⟨rfl, rfl⟩ | ⟨rfl, rfl⟩ | ⟨rfl, rfl⟩ | ⟨rfl, rfl⟩ <;> decide
    rw [hst, hf]
    simp only [List.length_nil, Nat.cast_zero, zero_add] at s1 s2
    constructor
    · intro h
      rw [s1 (by omega) (by rintro rfl; simp at h; omega)]
    · intro h
      obtain ⟨r, e1, e2, e3⟩ := s2 h
      rw [e1]
      refine ⟨_, rfl, rfl, rfl, fun j hj => by simp [uhfStore, hj], ?_, fun hl => ?_⟩
      · simp [uhfStore, e2, hkp, uhfDefError, uhfPerLine]
      · have e3' := e3 (fun l hm => by
          have := hl l hm
          rcases hn with ⟨rfl, rfl⟩ | ⟨rfl, rfl⟩ | ⟨rfl, rfl⟩ | ⟨rfl, rfl⟩ <;> exact this)
        have : r = uhfTable k ls := by
          rw [e3']
          rcases hn with ⟨rfl, rfl⟩ | ⟨rfl, rfl⟩ | ⟨rfl, rfl⟩ | ⟨rfl, rfl⟩ <;> rfl
        have h2 : uRowEmpty n = uhfNoRow k := by rcases hn with ⟨rfl, rfl⟩ | ⟨rfl, rfl⟩ | ⟨rfl, rfl⟩ | ⟨rfl, rfl⟩ <;> rfl
        simp only [uhfStore, if_true, uhfFill, List.nil_append, this, h2]
  have cplx : ∀ n zero, (k = .trans ∧ n = 4 ∧ zero = true ∨ k = .interAll ∧ n = 8 ∧ zero = false ∨ k = .initial ∧ n = 4 ∧ zero = true) → 
    (¬ uhfPerLine k * (ls.length : ℤ) ≤ z.buf.cnt k → uhfFileStep N z k ls t = .ub) ∧
    (uhfPerLine k * (ls.length : ℤ) ≤ z.buf.cnt k → ∃ t', uhfFileStep N z k ls t = .ok t' ∧ t'.loc = t.loc ∧ t'.orb = t.orb ∧ (∀ j, j ≠ k → t'.rows j = t.rows j) ∧
      t'.info = (if uhfPerLine k * (ls.length : ℤ) = z.buf.cnt k then t.info else 0) ∧
      ((∀ l ∈ ls, UhfComplete k l) → t'.rows k = uhfTable k ls ++ List.replicate ((z.buf.cnt k).toNat - (uhfTable k ls).length) (uhfNoRow k))) := by
    intro n zero hn
    obtain ⟨s1, s2⟩ := uhfCplxLoop_spec n zero (z.buf.cnt k) ls t.re t.im []
    have hst : uhfFileStep N z k ls t = (match uhfCplxLoop n zero (z.buf.cnt k) ls t.re t.im [] with
      | .ok (re, im, rows) => .ok (uhfStore k n (z.buf.cnt k) rows rows { t with re := re, im := im })
      | _ => .ub) := by
      rcases hn with ⟨rfl, rfl, rfl⟩ | ⟨rfl, rfl, rfl⟩ | ⟨rfl, rfl, rfl⟩ <;> simp only [uhfFileStep, gt_iff_lt, if_pos h0] <;>
        (generalize uhfCplxLoop _ _ _ _ _ _ _ = q; cases q <;> rfl)
    have hf : uhfPerLine k * (ls.length : ℤ) ≤ z.buf.cnt k ↔ (ls.length : ℤ) ≤ z.buf.cnt k := by
      rcases hn with ⟨rfl, rfl, rfl⟩ | ⟨rfl, rfl, rfl⟩ | ⟨rfl, rfl, rfl⟩ <;> simp [uhfPerLine]
    have hkp : k ≠ .pairHop := by rcases hn with ⟨rfl, rfl, rfl⟩ | ⟨rfl, rfl, rfl⟩ | ⟨rfl, rfl, rfl⟩ <;> decide
    rw [hst, hf]
    simp only [List.length_nil, Nat.cast_zero, zero_add] at s1 s2
    constructor
    · intro h
      rw [s1 (by omega) (by rintro rfl; simp at h; omega)]
    · intro h
      obtain ⟨re, im, r, e1, e2, e3⟩ := s2 h
      rw [e1]
      refine ⟨_, rfl, rfl, rfl, fun j hj => by simp [uhfStore, hj], ?_, fun hl => ?_⟩
      · simp [uhfStore, e2, hkp, uhfDefError, uhfPerLine]
      · have e3' := e3 (fun l hm => by
          have := hl l hm
          rcases hn with ⟨rfl, rfl, rfl⟩ | ⟨rfl, rfl, rfl⟩ | ⟨rfl, rfl, rfl⟩ <;> exact this)
        have : r = uhfTable k ls := by
          rw [e3']
          rcases hn with ⟨rfl, rfl, rfl⟩ | ⟨rfl, rfl, rfl⟩ | ⟨rfl, rfl, rfl⟩ <;> rfl
        have h2 : uRowEmpty n = uhfNoRow k := by rcases hn with ⟨rfl, rfl, rfl⟩ | ⟨rfl, rfl, rfl⟩ | ⟨rfl, rfl, rfl⟩ <;> rfl
        simp only [uhfStore, if_true, uhfFill, List.nil_append, this, h2]
  cases k with
  | trans => exact cplx 4 true (by simp)
  | coulombIntra => exact real 1 (by simp)
  | coulombInter => exact real 2 (by simp)
  | hund => exact real 2 (by simp)
  | exchange => exact real 2 (by simp)
  | interAll => exact cplx 8 false (by simp)
  | initial => exact cplx 4 true (by simp)
  | pairHop =>
    obtain ⟨s1, s2⟩ := uhfPairLoop_spec (z.buf.cnt .pairHop) ls 0 [] rfl hp
    have hst : uhfFileStep N z .pairHop ls t = (match uhfPairLoop (z.buf.cnt .pairHop) ls 0 [] with
      | .ok (idx, rows) => .ok { uhfStore .pairHop 2 (z.buf.cnt .pairHop) rows rows t with info := if (idx : ℤ) ≠ (z.buf.cnt .pairHop).tdiv 2 then uhfDefError else t.info }
      | _ => .ub) := by
      simp only [uhfFileStep, gt_iff_lt, if_pos h0]
      generalize uhfPairLoop _ _ _ _ = q
      cases q <;> rfl
    rw [hst]
    simp only [Nat.cast_zero, zero_add] at s1 s2
    constructor
    · intro h
      have h' : ¬ 2 * (ls.length : ℤ) ≤ z.buf.cnt .pairHop := by simpa [uhfPerLine] using h
      rw [s1 (by omega) (by rintro rfl; simp at h'; omega)]
    · intro h
      have h' : 2 * (ls.length : ℤ) ≤ z.buf.cnt .pairHop := by simpa [uhfPerLine] using h
      obtain ⟨r, e1, e2, e3⟩ := s2 h'
      rw [e1]
      refine ⟨_, rfl, rfl, rfl, fun j hj => by simp [uhfStore, hj], ?_, fun hl => ?_⟩
      · dsimp only
        obtain ⟨M, hM⟩ := hp
        have : (z.buf.cnt .pairHop).tdiv 2 = M := by rw [hM, ← two_mul]; simp
        rw [this, uhfPerLine, if_pos rfl, hM]
        by_cases c : (ls.length : ℤ) = M
        · rw [if_neg (by simpa using c), if_pos (by omega)]
        · rw [if_pos (by simpa using c), if_neg (by omega)]; rfl
      · have : r = uhfTable .pairHop ls := e3 hl
        simp only [uhfStore, if_true, uhfFill, List.nil_append, this]
        rfl
  | locSpin => simp [UTab, uhfCols] at hk
  | orbital => simp [UTab, uhfCols] at hk
  | orbitalAP => simp [UTab, uhfCols] at hk
  | orbitalP => simp [UTab, uhfCols] at hk
  | orbitalG => simp [UTab, uhfCols] at hk
  | oneBodyG =>
    obtain ⟨s1, s2⟩ := uhfOneBodyLoop_spec (z.buf.cnt .oneBodyG) ls [none, none, none, none] [] rfl (hs rfl)
    have hst : uhfFileStep N z .oneBodyG ls t = (match uhfOneBodyLoop (z.buf.cnt .oneBodyG) ls [none, none, none, none] [] with
      | .ok (stopped, counted, rows) => .ok (uhfStore .oneBodyG 4 (z.buf.cnt .oneBodyG) counted rows { t with info := if stopped then uhfDefError else t.info })
      | _ => .ub) := by
      simp only [uhfFileStep, gt_iff_lt, if_pos h0]
      generalize uhfOneBodyLoop _ _ _ _ = q
      cases q <;> rfl
    rw [hst]
    have hf : uhfPerLine .oneBodyG * (ls.length : ℤ) ≤ z.buf.cnt .oneBodyG ↔ (ls.length : ℤ) ≤ z.buf.cnt .oneBodyG := by simp [uhfPerLine]
    rw [hf]
    simp only [List.length_nil, Nat.cast_zero, zero_add] at s1 s2
    constructor
    · intro h
      rw [s1 (by omega) (by rintro rfl; simp at h; omega)]
    · intro h
      rw [s2 h]
      refine ⟨_, rfl, rfl, rfl, fun j hj => by simp [uhfStore, hj], ?_, fun hl => ?_⟩
      · simp [uhfStore, uhfDefError, uhfPerLine]
      · simp only [uhfStore, if_true, uhfFill, List.nil_append]
        rfl

theorem uhfStep_zero (N : ℕ) (z : USizes) (k : UKW) (ls : List DLine) (t : UTabs) (hk : UTab k) (h0 : z.buf.cnt k = 0) :
    uhfFileStep N z k ls t = .ok t := by
  cases k <;> simp_all [UTab, uhfCols, uhfFileStep]

/-! ## All files -/

/-- the table kinds -/
theorem utab_iff (k : UKW) : UTab k ↔ k ≠ .locSpin ∧ k ≠ .orbital ∧ k ≠ .orbitalAP ∧ k ≠ .orbitalP ∧ k ≠ .orbitalG := by
  cases k <;> simp [UTab, uhfCols]

theorem uhfFileLoop_spec (N : ℕ) (z : USizes) (files : UKW → Option (Option (List DLine))) (hh : ∀ k, files k ≠ some none)
    (hs : ∀ ls, files .oneBodyG = some (some ls) → ∀ l ∈ ls, UhfSameSpin l) (hc : ∀ k, 0 ≤ z.buf.cnt k) (hp : Even (z.buf.cnt .pairHop)) (ks : List UKW) :
    ∀ t, ks.Nodup → (∀ k ∈ ks, ∀ ls, files k = some (some ls) → UTab k) →
    ((∃ k ∈ ks, ∃ ls, UhfUsed z files k ls ∧ ¬ uhfPerLine k * (ls.length : ℤ) ≤ z.buf.cnt k) → uhfFileLoop N z files ks t = .ub) ∧
    ((∀ k ∈ ks, ∀ ls, UhfUsed z files k ls → uhfPerLine k * (ls.length : ℤ) ≤ z.buf.cnt k) → ∃ t', uhfFileLoop N z files ks t = .ok t' ∧
      t'.loc = t.loc ∧ (∀ j, j ∉ ks → t'.rows j = t.rows j) ∧
      ((∃ k ∈ ks, ∃ ls, UhfUsed z files k ls ∧ uhfPerLine k * (ls.length : ℤ) ≠ z.buf.cnt k) → t'.info = 0) ∧
      ((∀ k ∈ ks, ∀ ls, UhfUsed z files k ls → uhfPerLine k * (ls.length : ℤ) = z.buf.cnt k) → t'.info = t.info) ∧
      (∀ k ∈ ks, ∀ ls, UhfUsed z files k ls → (∀ l ∈ ls, UhfComplete k l) →
        t'.rows k = uhfTable k ls ++ List.replicate ((z.buf.cnt k).toNat - (uhfTable k ls).length) (uhfNoRow k))) := by
  induction ks with
  | nil => intro t _ _; exact ⟨by simp, fun _ => ⟨t, rfl, rfl, by simp, by simp, by simp, by simp⟩⟩
  | cons k ks ih =>
    intro t hn hk
    obtain ⟨hn1, hn2⟩ := List.nodup_cons.1 hn
    have hk' : ∀ k ∈ ks, ∀ ls, files k = some (some ls) → UTab k := fun j hj => hk j (by simp [hj])
    rw [uhfFileLoop]
    have skip : (∀ ls, ¬ UhfUsed z files k ls) →
        ((∃ j ∈ k :: ks, ∃ ls, UhfUsed z files j ls ∧ ¬ uhfPerLine j * (ls.length : ℤ) ≤ z.buf.cnt j) → uhfFileLoop N z files ks t = .ub) ∧
        ((∀ j ∈ k :: ks, ∀ ls, UhfUsed z files j ls → uhfPerLine j * (ls.length : ℤ) ≤ z.buf.cnt j) → ∃ t', uhfFileLoop N z files ks t = .ok t' ∧
        t'.loc = t.loc ∧ (∀ j, j ∉ k :: ks → t'.rows j = t.rows j) ∧
        ((∃ j ∈ k :: ks, ∃ ls, UhfUsed z files j ls ∧ uhfPerLine j * (ls.length : ℤ) ≠ z.buf.cnt j) → t'.info = 0) ∧
        ((∀ j ∈ k :: ks, ∀ ls, UhfUsed z files j ls → uhfPerLine j * (ls.length : ℤ) = z.buf.cnt j) → t'.info = t.info) ∧
        (∀ j ∈ k :: ks, ∀ ls, UhfUsed z files j ls → (∀ l ∈ ls, UhfComplete j l) →
          t'.rows j = uhfTable j ls ++ List.replicate ((z.buf.cnt j).toNat - (uhfTable j ls).length) (uhfNoRow j))) := by
      intro hu
      obtain ⟨i1, i2⟩ := ih t hn2 hk'
      constructor
      · rintro ⟨j, hj, ls, u, b⟩
        rcases List.mem_cons.1 hj with rfl | hj
        · exact absurd u (hu ls)
        · exact i1 ⟨j, hj, ls, u, b⟩
      · intro hf
        obtain ⟨t', a1, a2, a3, a4, a5, a6⟩ := i2 (fun j hj => hf j (by simp [hj]))
        refine ⟨t', a1, a2, fun j hj => a3 j (fun c => hj (by simp [c])), ?_, fun h => a5 (fun j hj => h j (by simp [hj])), ?_⟩
        · rintro ⟨j, hj, ls, u, b⟩
          rcases List.mem_cons.1 hj with rfl | hj
          · exact absurd u (hu ls)
          · exact a4 ⟨j, hj, ls, u, b⟩
        · intro j hj ls u b
          rcases List.mem_cons.1 hj with rfl | hj
          · exact absurd u (hu ls)
          · exact a6 j hj ls u b
    cases hf : files k with
    | none => exact skip (fun ls u => by rw [u.2.1] at hf; cases hf)
    | some o =>
      cases o with
      | none => exact absurd hf (hh k)
      | some ls =>
        dsimp only
        have htab := hk k (by simp) ls hf
        have hkl : k ≠ .locSpin := ((utab_iff k).1 htab).1
        rcases (hc k).eq_or_lt with h0 | h0
        · rw [uhfStep_zero N z k ls t htab h0.symm]
          exact skip (fun ls u => by have := u.2.2; omega)
        · obtain ⟨s1, s2⟩ := uhfStep_tab N z k ls t htab (fun e => by subst e; exact hs ls hf) hp h0
          have hu : ∀ ls', UhfUsed z files k ls' → ls' = ls := by
            intro ls' u
            rw [u.2.1] at hf
            cases hf
            rfl
          have hu0 : UhfUsed z files k ls := ⟨hkl, hf, h0⟩
          by_cases hfit : uhfPerLine k * (ls.length : ℤ) ≤ z.buf.cnt k
          · obtain ⟨t1, e1, e2, e3, e4, e5, e6⟩ := s2 hfit
            rw [e1]
            dsimp only
            obtain ⟨i1, i2⟩ := ih t1 hn2 hk'
            constructor
            · rintro ⟨j, hj, ls', u, b⟩
              rcases List.mem_cons.1 hj with rfl | hj
              · rw [hu ls' u] at b; exact absurd hfit b
              · exact i1 ⟨j, hj, ls', u, b⟩
            · intro hall
              obtain ⟨t', a1, a2, a3, a4, a5, a6⟩ := i2 (fun j hj => hall j (by simp [hj]))
              refine ⟨t', a1, a2.trans e2, fun j hj => ?_, ?_, fun h => ?_, ?_⟩
              · rw [a3 j (fun c => hj (by simp [c])), e4 j (fun c => hj (by simp [c]))]
              · rintro ⟨j, hj, ls', u, b⟩
                by_cases hex : ∃ k ∈ ks, ∃ ls, UhfUsed z files k ls ∧ uhfPerLine k * (ls.length : ℤ) ≠ z.buf.cnt k
                · exact a4 hex
                · rcases List.mem_cons.1 hj with rfl | hj
                  · rw [hu ls' u] at b
                    rw [a5 (fun i hi l' u' => by by_contra c; exact hex ⟨i, hi, l', u', c⟩), e5, if_neg b]
                  · exact absurd ⟨j, hj, ls', u, b⟩ hex
              · rw [a5 (fun j hj => h j (by simp [hj])), e5, if_pos (h k (by simp) ls hu0)]
              · intro j hj ls' u b
                rcases List.mem_cons.1 hj with rfl | hj
                · rw [hu ls' u] at b ⊢
                  rw [a3 j hn1, e6 b]
                · exact a6 j hj ls' u b
          · rw [s1 hfit]
            refine ⟨fun _ => rfl, fun h => absurd (h k (by simp) ls hu0) hfit⟩

end MVMC
