import Verif.Proof.FockN

/-! The reduction loop of `GreenFuncN`. -/
namespace MVMC
open MVMC.Spec

/-- the operator pairs `a … a+n-1` -/
def prs (rsi rsj : Nat → Nat) (a n : Nat) : List (Nat × Nat) := (List.range' a n).map (fun k => (rsi k, rsj k))

theorem shift_fold (l : Nat) (a : Nat → Nat) : ∀ c m, (List.range' l c).foldl (fun a m => setN a m (a (m + 1))) a m
    = if l ≤ m ∧ m < l + c then a (m + 1) else a m
  | 0, m => by simp
  | c + 1, m => by
    rw [List.range'_concat, List.foldl_append]
    simp only [List.foldl_cons, List.foldl_nil, one_mul]
    rw [show (fun a m => setN a m (a (m + 1))) = (fun (a : Nat → Nat) m => setN a m (a (m + 1))) from rfl]
    show (if m = l + c then _ else _) = _
    rw [shift_fold l a c, shift_fold l a c]
    by_cases e : m = l + c
    · subst e
      rw [if_pos rfl, if_neg (by omega), if_pos (by omega)]
    · rw [if_neg e]
      by_cases h : l ≤ m ∧ m < l + c
      · rw [if_pos h, if_pos (by omega)]
      · rw [if_neg h, if_neg (by omega)]

theorem shiftDown_apply {n l : Nat} (hl : l < n) (a : Nat → Nat) (m : Nat) :
    shiftDown n l a m = if l ≤ m ∧ m < n - 1 then a (m + 1) else a m := by
  unfold shiftDown
  rw [shift_fold]
  have : l + (n - 1 - l) = n - 1 := by omega
  rw [this]

theorem prs_split {rsi rsj : Nat → Nat} {n k : Nat} (a : Nat) (h : k < n) :
    prs rsi rsj a n = prs rsi rsj a k ++ (rsi (a + k), rsj (a + k)) :: prs rsi rsj (a + k + 1) (n - k - 1) := by
  unfold prs
  have : List.range' a n = List.range' a k ++ (a + k) :: List.range' (a + k + 1) (n - k - 1) := by
    rw [← List.range'_succ (s := a + k), List.range'_append_1]
    congr 1; omega
  rw [this, List.map_append, List.map_cons]

theorem prs_congr {rsi rsj rsi' rsj' : Nat → Nat} {a n : Nat} (h : ∀ m, a ≤ m → m < a + n → rsi m = rsi' m ∧ rsj m = rsj' m) :
    prs rsi rsj a n = prs rsi' rsj' a n := by
  unfold prs
  apply List.map_congr_left
  intro m hm
  rw [List.mem_range'_1] at hm
  rw [(h m hm.1 hm.2).1, (h m hm.1 hm.2).2]

theorem mem_prs {rsi rsj : Nat → Nat} {a n : Nat} {q : Nat × Nat} :
    q ∈ prs rsi rsj a n ↔ ∃ m, a ≤ m ∧ m < a + n ∧ q = (rsi m, rsj m) := by
  unfold prs
  rw [List.mem_map]
  constructor
  · rintro ⟨m, hm, rfl⟩
    rw [List.mem_range'_1] at hm
    exact ⟨m, hm.1, hm.2, rfl⟩
  · rintro ⟨m, h1, h2, rfl⟩
    exact ⟨m, List.mem_range'_1.mpr ⟨h1, h2⟩, rfl⟩

theorem prs_shift {rsi rsj : Nat → Nat} {n l : Nat} (hl : l < n) :
    prs (shiftDown n l rsi) (shiftDown n l rsj) 0 (n - 1) = prs rsi rsj 0 l ++ prs rsi rsj (l + 1) (n - 1 - l) := by
  have e : prs (shiftDown n l rsi) (shiftDown n l rsj) 0 (n - 1)
      = prs (shiftDown n l rsi) (shiftDown n l rsj) 0 l ++ prs (shiftDown n l rsi) (shiftDown n l rsj) l (n - 1 - l) := by
    unfold prs
    rw [← List.map_append]
    congr 1
    have := List.range'_append_1 (s := 0) (m := l) (n := n - 1 - l)
    rw [Nat.zero_add] at this
    rw [this]; congr 1; omega
  rw [e]
  congr 1
  · apply prs_congr
    intro m _ hm
    rw [shiftDown_apply hl, shiftDown_apply hl, if_neg (by omega), if_neg (by omega)]
    exact ⟨rfl, rfl⟩
  · unfold prs
    have : List.range' (l + 1) (n - 1 - l) = (List.range' l (n - 1 - l)).map (· + 1) := by
      have := List.map_add_range' (a := 1) l (n - 1 - l) 1
      rw [Nat.add_comm l 1, ← this]
      exact List.map_congr_left (fun x _ => Nat.add_comm 1 x)
    rw [this, List.map_map]
    apply List.map_congr_left
    intro m hm
    rw [List.mem_range'_1] at hm
    simp only [Function.comp]
    rw [shiftDown_apply hl, shiftDown_apply hl, if_pos (by omega), if_pos (by omega)]

/-- indices valid, spins equal within each pair -/
def PairsOK (M : Nat) (f : Nat → Nat) (rsi rsj : Nat → Nat) (n : Nat) : Prop :=
  ∀ k, k < n → rsi k < M ∧ rsj k < M ∧ f (rsi k) = f (rsj k)

theorem pairsOK_shift {M : Nat} {f rsi rsj : Nat → Nat} {n l : Nat} (hl : l < n) (h : ∀ k, k < n → k ≠ l → rsi k < M ∧ rsj k < M ∧ f (rsi k) = f (rsj k)) :
    PairsOK M f (shiftDown n l rsi) (shiftDown n l rsj) (n - 1) := by
  intro k hk
  rw [shiftDown_apply hl, shiftDown_apply hl]
  by_cases e : l ≤ k ∧ k < n - 1
  · rw [if_pos e, if_pos e]; exact h (k + 1) (by omega) (by omega)
  · rw [if_neg e, if_neg e]; exact h k (by omega) (by omega)

theorem scanAnn_none {n k : Nat} {rsi rsj : Nat → Nat} : ∀ {ls : List Nat}, scanAnn n k rsi rsj ls = none →
    ∀ l ∈ ls, rsj k ≠ rsi l ∧ rsj k ≠ rsj l
  | [], _, l, hl => absurd hl (by simp)
  | a :: ls, h, l, hl => by
    unfold scanAnn at h
    by_cases e1 : rsj k = rsi a
    · rw [if_pos e1] at h; exact absurd h (by simp)
    rw [if_neg e1] at h
    by_cases e2 : rsj k = rsj a
    · rw [if_pos e2] at h; exact absurd h (by simp)
    rw [if_neg e2] at h
    rcases List.mem_cons.mp hl with rfl | hl
    · exact ⟨e1, e2⟩
    · exact scanAnn_none h l hl

theorem scanAnn_some {n k : Nat} {rsi rsj : Nat → Nat} {s : RedStep} : ∀ {ls : List Nat}, scanAnn n k rsi rsj ls = some s →
    ∃ l ∈ ls, (rsj k = rsi l ∧ s = .recur false (shiftDown n l rsi) (shiftDown n l (setN rsj k (rsj l)))) ∨
      (rsj k = rsj l ∧ s = .zero)
  | [], h => absurd h (by simp [scanAnn])
  | a :: ls, h => by
    unfold scanAnn at h
    by_cases e1 : rsj k = rsi a
    · rw [if_pos e1] at h; exact ⟨a, by simp, Or.inl ⟨e1, (Option.some.inj h).symm⟩⟩
    rw [if_neg e1] at h
    by_cases e2 : rsj k = rsj a
    · rw [if_pos e2] at h; exact ⟨a, by simp, Or.inr ⟨e2, (Option.some.inj h).symm⟩⟩
    rw [if_neg e2] at h
    obtain ⟨l, hl, h'⟩ := scanAnn_some h
    exact ⟨l, by simp [hl], h'⟩

theorem scanCr_none {n k : Nat} {rsi rsj : Nat → Nat} : ∀ {ls : List Nat}, scanCr n k rsi rsj ls = none →
    ∀ l ∈ ls, rsi k ≠ rsi l ∧ rsi k ≠ rsj l
  | [], _, l, hl => absurd hl (by simp)
  | a :: ls, h, l, hl => by
    unfold scanCr at h
    by_cases e1 : rsi k = rsi a
    · rw [if_pos e1] at h; exact absurd h (by simp)
    rw [if_neg e1] at h
    by_cases e2 : rsi k = rsj a
    · rw [if_pos e2] at h; exact absurd h (by simp)
    rw [if_neg e2] at h
    rcases List.mem_cons.mp hl with rfl | hl
    · exact ⟨e1, e2⟩
    · exact scanCr_none h l hl

theorem scanCr_some {n k : Nat} {rsi rsj : Nat → Nat} {s : RedStep} : ∀ {ls : List Nat}, scanCr n k rsi rsj ls = some s →
    ∃ l ∈ ls, (rsi k = rsi l ∧ s = .zero) ∨
      (rsi k = rsj l ∧ s = .recur true (shiftDown n l (setN rsi k (rsi l))) (shiftDown n l rsj))
  | [], h => absurd h (by simp [scanCr])
  | a :: ls, h => by
    unfold scanCr at h
    by_cases e1 : rsi k = rsi a
    · rw [if_pos e1] at h; exact ⟨a, by simp, Or.inl ⟨e1, (Option.some.inj h).symm⟩⟩
    rw [if_neg e1] at h
    by_cases e2 : rsi k = rsj a
    · rw [if_pos e2] at h; exact ⟨a, by simp, Or.inr ⟨e2, (Option.some.inj h).symm⟩⟩
    rw [if_neg e2] at h
    obtain ⟨l, hl, h'⟩ := scanCr_some h
    exact ⟨l, by simp [hl], h'⟩

/-- what a reduction step has to satisfy -/
def StepOK (M : Nat) (f : Nat → Nat) (F : List Nat → ℂ) (l : List Nat) (n : Nat) (rsi rsj : Nat → Nat) : RedStep → Prop
  | .zero => dualN (prs rsi rsj 0 n) F l = 0
  | .recur neg rsi' rsj' => PairsOK M f rsi' rsj' (n - 1) ∧
      dualN (prs rsi rsj 0 n) F l = (if neg then -1 else 1) * dualN (prs rsi' rsj' 0 (n - 1)) F l
  | .hop => Good (prs rsi rsj 0 n) l

/-- **the reduction is exact** -/
theorem scanRed_ok {M : Nat} {f : Nat → Nat} {F : List Nat → ℂ} (hF : Anti M F) {l : List Nat} (hn : l.Nodup) (hr : ∀ z ∈ l, z < M)
    {n : Nat} {rsi rsj : Nat → Nat} (hok : PairsOK M f rsi rsj n) {num : Arr} (h1 : ∀ x < M, x ∈ l ↔ num x ≠ 0)
    (h2 : ∀ x < M, x ∈ l ↔ num x = 1) : ∀ k, k ≤ n → Good (prs rsi rsj k (n - k)) l →
    StepOK M f F l n rsi rsj (scanRed n rsi rsj num k)
  | 0, _, h => h
  | k + 1, hk, h => by
    have hkn : k < n := by omega
    have sp := prs_split (rsi := rsi) (rsj := rsj) 0 hkn
    simp only [Nat.zero_add] at sp
    rw [show n - k - 1 = n - (k + 1) by omega] at sp
    set G := dualN (prs rsi rsj 0 k) F with hG
    have hGA : Anti M G := dualN_anti _ hF (by
      intro q hq
      obtain ⟨m, _, hm, rfl⟩ := mem_prs.mp hq
      exact (hok m (by omega)).1)
    set P := prs rsi rsj (k + 1) (n - (k + 1)) with hPd
    have hP : ∀ q ∈ P, q.1 < M := by
      intro q hq
      obtain ⟨m, _, hm, rfl⟩ := mem_prs.mp hq
      exact (hok m (by omega)).1
    have tot : dualN (prs rsi rsj 0 n) F l = dualN ((rsi k, rsj k) :: P) G l := by rw [sp, dualN_append]
    have hI := (hok k hkn).1
    have hJ := (hok k hkn).2.1
    have inP : ∀ m, k < m → m < n → (rsi m, rsj m) ∈ P := fun m a b => mem_prs.mpr ⟨m, a, by omega, rfl⟩
    -- splitting off pair `m`
    have spl : ∀ m, k < m → m < n → P = prs rsi rsj (k + 1) (m - (k + 1)) ++ (rsi m, rsj m) :: prs rsi rsj (m + 1) (n - 1 - m) := by
      intro m a b
      have := prs_split (rsi := rsi) (rsj := rsj) (n := n - (k + 1)) (k := m - (k + 1)) (k + 1) (by omega)
      rw [hPd, this]
      have e1 : k + 1 + (m - (k + 1)) = m := by omega
      rw [e1]
      have e2 : n - (k + 1) - (m - (k + 1)) - 1 = n - 1 - m := by omega
      rw [e2]
    -- the list after merging pair `m` into pair `k`
    have mrg : ∀ m, k < m → m < n → ∀ ri rj : Nat → Nat, (∀ x, x ≠ k → ri x = rsi x ∧ rj x = rsj x) →
        dualN (prs (shiftDown n m ri) (shiftDown n m rj) 0 (n - 1)) F l =
          dualN ((ri k, rj k) :: (prs rsi rsj (k + 1) (m - (k + 1)) ++ prs rsi rsj (m + 1) (n - 1 - m))) G l := by
      intro m a b ri rj hx
      rw [prs_shift b, prs_split (n := m) (k := k) 0 a]
      simp only [Nat.zero_add]
      rw [prs_congr (rsi := ri) (rsj := rj) (rsi' := rsi) (rsj' := rsj) (a := 0) (n := k) (fun x _ h => hx x (by omega)),
        prs_congr (rsi := ri) (rsj := rj) (rsi' := rsi) (rsj' := rsj) (a := k + 1) (n := m - k - 1) (fun x _ h => hx x (by omega)),
        prs_congr (rsi := ri) (rsj := rj) (rsi' := rsi) (rsj' := rsj) (a := m + 1) (n := n - 1 - m) (fun x _ h => hx x (by omega)),
        List.append_assoc, dualN_append, List.cons_append, show m - k - 1 = m - (k + 1) by omega]
    unfold scanRed
    cases hs : scanAnn n k rsi rsj (List.range' (k + 1) (n - (k + 1))) with
    | some s =>
      simp only []
      obtain ⟨m, hm, hcase⟩ := scanAnn_some hs
      rw [List.mem_range'_1] at hm
      have hm1 : k < m := by omega
      have hm2 : m < n := by omega
      rcases hcase with ⟨e, rfl⟩ | ⟨e, rfl⟩
      · refine ⟨?_, ?_⟩
        · refine pairsOK_shift hm2 ?_
          intro x hx hxm
          unfold setN
          by_cases ex : x = k
          · rw [ex, if_pos rfl]
            refine ⟨hI, (hok m hm2).2.1, ?_⟩
            rw [(hok k hkn).2.2, e, (hok m hm2).2.2]
          · rw [if_neg ex]; exact hok x hx
        · rw [tot, mrg m hm1 hm2 rsi (setN rsj k (rsj m)) (fun x hx => ⟨rfl, by unfold setN; rw [if_neg hx]⟩)]
          have hh : Good P l := h
          rw [spl m hm1 hm2] at hh hP ⊢
          have := dualN_annCr hGA hn hr hh hI hP
          have e3 : setN rsj k (rsj m) k = rsj m := by unfold setN; rw [if_pos rfl]
          rw [e3, e]
          simpa using this
      · show dualN (prs rsi rsj 0 n) F l = 0
        rw [tot]
        exact dualN_annAnn hGA hn hr h hI hP (inP m hm1 hm2) e
    | none =>
      simp only []
      have hA := scanAnn_none hs
      have hA1 : ∀ q ∈ P, rsj k ≠ q.1 ∧ rsj k ≠ q.2 := by
        intro q hq
        obtain ⟨m, a, b, rfl⟩ := mem_prs.mp hq
        exact hA m (List.mem_range'_1.mpr ⟨a, b⟩)
      by_cases e0 : num (rsj k) = 0
      · rw [if_pos e0]
        show dualN (prs rsi rsj 0 n) F l = 0
        rw [tot]
        exact dualN_annEmpty hGA hn hr h hI hP (fun q hq => (hA1 q hq).1) (by rw [h1 _ hJ]; simp [e0])
      rw [if_neg e0]
      have hJl : rsj k ∈ l := (h1 _ hJ).mpr e0
      by_cases eIJ : rsi k = rsj k
      · rw [if_pos eIJ]
        refine ⟨?_, ?_⟩
        · exact pairsOK_shift hkn (fun x hx _ => hok x hx)
        · rw [tot, prs_shift hkn, dualN_append, eIJ,
            dualN_number hGA hn hr h hJ hP (fun q hq => (hA1 q hq).2) hJl, show n - 1 - k = n - (k + 1) by omega]
          simp
          rfl
      rw [if_neg eIJ]
      cases hs2 : scanCr n k rsi rsj (List.range' (k + 1) (n - (k + 1))) with
      | some s =>
        simp only []
        obtain ⟨m, hm, hcase⟩ := scanCr_some hs2
        rw [List.mem_range'_1] at hm
        have hm1 : k < m := by omega
        have hm2 : m < n := by omega
        rcases hcase with ⟨e, rfl⟩ | ⟨e, rfl⟩
        · show dualN (prs rsi rsj 0 n) F l = 0
          rw [tot]
          exact dualN_crCr hGA hn hr h hI hP (inP m hm1 hm2) e eIJ
        · refine ⟨?_, ?_⟩
          · refine pairsOK_shift hm2 ?_
            intro x hx hxm
            unfold setN
            by_cases ex : x = k
            · rw [ex, if_pos rfl]
              refine ⟨(hok m hm2).1, hJ, ?_⟩
              rw [(hok m hm2).2.2, ← e, (hok k hkn).2.2]
            · rw [if_neg ex]; exact hok x hx
          · rw [tot, mrg m hm1 hm2 (setN rsi k (rsi m)) rsj (fun x hx => ⟨by unfold setN; rw [if_neg hx], rfl⟩)]
            have hh : Good P l := h
            have hjm := hA m (List.mem_range'_1.mpr ⟨by omega, by omega⟩)
            have hA2 : ∀ x ∈ prs rsi rsj (k + 1) (m - (k + 1)) ++ prs rsi rsj (m + 1) (n - 1 - m), rsj k ≠ x.2 := by
              intro x hx
              refine (hA1 x ?_).2
              rw [spl m hm1 hm2]
              simp only [List.mem_append, List.mem_cons] at hx ⊢
              tauto
            rw [spl m hm1 hm2] at hh hP ⊢
            have := dualN_crAnn hGA hn hr hh hP (J := rsj k) hjm.2 hA2 hJl
            have e3 : setN rsi k (rsi m) k = rsi m := by unfold setN; rw [if_pos rfl]
            rw [e3, e, if_pos rfl, neg_one_mul]
            exact this
      | none =>
        simp only []
        have hC := scanCr_none hs2
        have hC1 : ∀ q ∈ P, rsi k ≠ q.1 ∧ rsi k ≠ q.2 := by
          intro q hq
          obtain ⟨m, a, b, rfl⟩ := mem_prs.mp hq
          exact hC m (List.mem_range'_1.mpr ⟨a, b⟩)
        by_cases e1 : num (rsi k) = 1
        · rw [if_pos e1]
          show dualN (prs rsi rsj 0 n) F l = 0
          rw [tot]
          exact dualN_crOcc hGA hn hr h hI hP (fun q hq => (hC1 q hq).2) ((h2 _ hI).mpr e1) eIJ
        rw [if_neg e1]
        refine scanRed_ok hF hn hr hok h1 h2 k (by omega) ?_
        have e4 : prs rsi rsj k (n - k) = (rsi k, rsj k) :: P := by
          have := prs_split (rsi := rsi) (rsj := rsj) (n := n - k) (k := 0) k (by omega)
          rw [this, hPd, show n - k - 0 - 1 = n - (k + 1) by omega]
          rfl
        rw [e4, good_cons]
        exact ⟨⟨eIJ, fun x hx => ⟨(hC1 x hx).1, (hC1 x hx).2, (hA1 x hx).1, (hA1 x hx).2⟩, by rw [h2 _ hI]; exact e1, hJl⟩, h⟩

end MVMC
