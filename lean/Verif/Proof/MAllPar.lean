import Verif.Model.MAllPar
import Mathlib.Data.List.Induction
import Mathlib.Tactic.Ring
import Mathlib.Tactic.Linarith
import Mathlib.Tactic.SplitIfs

/-! # The parallel loop of `CalculateMAll`: proofs -/
namespace MVMC

variable {K : Type} [Field K]

/-- the library reads the matrix and nothing behind it -/
def LibLocal (lib : SkLib K) : Prop := ∀ n (a b : ℕ → K), (∀ k < n * n, a k = b k) → lib n a = lib n b

/-- what the threads of the loop can do: every iteration below `n` goes through its three events, each once and in order; the events of different iterations come in any order -/
structure MAllRun (n : ℕ) (evs : List MAllEv) : Prop where
  nodup : evs.Nodup
  idx : ∀ e ∈ evs, e.idx < n
  all : ∀ q < n, MAllEv.post q ∈ evs
  check_run : ∀ pre suf q, evs = pre ++ .run q :: suf → MAllEv.check q ∈ pre
  run_post : ∀ pre suf q, evs = pre ++ .post q :: suf → MAllEv.run q ∈ pre

omit [Field K] in
theorem storeRow (f : ℕ → K) (base : ℕ) (m : ℕ → K) : ∀ (n i : ℕ), (List.range n).foldl (fun m k => setAt m (base + k) (f k)) m i =
    if base ≤ i ∧ i < base + n then f (i - base) else m i
  | 0, i => by
    rw [if_neg (by omega)]
    rfl
  | n + 1, i => by
    rw [List.range_succ, List.foldl_append, List.foldl_cons, List.foldl_nil, setAt]
    by_cases h : i = base + n
    · rw [if_pos h, if_pos (by omega), h, Nat.add_sub_cancel_left]
    · rw [if_neg h, storeRow f base m n i]
      by_cases h2 : base ≤ i ∧ i < base + n
      · rw [if_pos h2, if_pos (by omega)]
      · rw [if_neg h2, if_neg (by omega)]

omit [Field K] in
theorem storeRows (N : ℕ) (f : ℕ → ℕ → K) (base : ℕ) (m : ℕ → K) : ∀ (r i : ℕ),
    (List.range r).foldl (fun m a => (List.range N).foldl (fun m b => setAt m (base + a * N + b) (f a b)) m) m i =
    if base ≤ i ∧ i < base + r * N then f ((i - base) / N) ((i - base) % N) else m i
  | 0, i => by
    rw [if_neg (by omega)]
    rfl
  | r + 1, i => by
    rw [List.range_succ, List.foldl_append, List.foldl_cons, List.foldl_nil, storeRow (fun b => f r b)]
    have e : (r + 1) * N = r * N + N := Nat.succ_mul r N
    by_cases h : base + r * N ≤ i ∧ i < base + r * N + N
    · have hN : 0 < N := by omega
      rw [if_pos h, if_pos (by omega)]
      have hi : i - base = (i - (base + r * N)) + r * N := by omega
      rw [hi, Nat.add_mul_div_right _ _ hN, Nat.add_mul_mod_self_right, Nat.div_eq_of_lt (by omega), Nat.mod_eq_of_lt (by omega), Nat.zero_add]
    · rw [if_neg h, storeRows N f base m r i]
      by_cases h2 : base ≤ i ∧ i < base + r * N
      · rw [if_pos h2, if_pos (by omega)]
      · rw [if_neg h2, if_neg (by omega)]

variable (p : PfPar) (lib : SkLib K) (slt : ℕ → K) (qpStart : ℕ) (rs : ℕ → ℕ)

/-- what the library returns for projection `q` -/
def mAllRes (q : ℕ) : Option (K × (ℕ → K)) := lib p.Nsize fun k => - sltAt p slt (q + qpStart) (rs (k / p.Nsize)) (rs (k % p.Nsize))

/-- memory after the children in `D` -/
def mAllMem (D : ℕ → Prop) [DecidablePred D] (st : PfState K) : PfState K where
  pfM i := if D i then ((mAllRes p lib slt qpStart rs i).map Prod.fst).getD 0 else st.pfM i
  invM i := if D (i / (p.Nsize * p.Nsize)) ∧ 0 < p.Nsize then -1 * ((mAllRes p lib slt qpStart rs (i / (p.Nsize * p.Nsize))).map Prod.snd).getD (fun _ => 0) (i % (p.Nsize * p.Nsize))
    else st.invM i

theorem child_none (hl : LibLocal lib) (q : ℕ) (st : PfState K) : calculateMAllChild p lib slt qpStart q rs st = none ↔ mAllRes p lib slt qpStart rs q = none := by
  unfold calculateMAllChild mAllRes
  simp only
  rw [hl p.Nsize _ (fun k => - sltAt p slt (q + qpStart) (rs (k / p.Nsize)) (rs (k % p.Nsize))) ?_]
  · split <;> simp_all
  · intro k hk
    rw [storeRows p.Nsize (fun a b => - sltAt p slt (q + qpStart) (rs a) (rs b)), if_pos ⟨by omega, by omega⟩, Nat.add_sub_cancel_left]

theorem child_some (hl : LibLocal lib) (q : ℕ) (D D' : ℕ → Prop) [DecidablePred D] [DecidablePred D'] (hD : ∀ i, D' i ↔ i = q ∨ D i) (st st' : PfState K)
    (h : calculateMAllChild p lib slt qpStart q rs (mAllMem p lib slt qpStart rs D st) = some st') : st' = mAllMem p lib slt qpStart rs D' st := by
  unfold calculateMAllChild at h
  simp only at h
  rw [hl p.Nsize _ (fun k => - sltAt p slt (q + qpStart) (rs (k / p.Nsize)) (rs (k % p.Nsize))) (by
    intro k hk
    rw [storeRows p.Nsize (fun a b => - sltAt p slt (q + qpStart) (rs a) (rs b)), if_pos ⟨by omega, by omega⟩, Nat.add_sub_cancel_left])] at h
  cases e : mAllRes p lib slt qpStart rs q with
  | none =>
    unfold mAllRes at e
    rw [e] at h
    cases h
  | some r =>
    have e' := e
    unfold mAllRes at e'
    rw [e'] at h
    simp only [Option.some.injEq] at h
    rw [← h]
    unfold mAllMem
    congr 1
    · funext i
      unfold setAt
      by_cases hi : i = q
      · rw [if_pos hi, if_pos ((hD i).2 (Or.inl hi)), hi, e]
        rfl
      · rw [if_neg hi]
        simp only [hD, hi, false_or]
    · funext i
      rw [storeRow (fun k => -1 * r.2 k), storeRows p.Nsize (fun a b => - sltAt p slt (q + qpStart) (rs a) (rs b))]
      rw [Nat.mul_assoc q]
      generalize hM : p.Nsize * p.Nsize = M
      by_cases hi : q * M ≤ i ∧ i < q * M + M
      · have hMpos : 0 < M := by omega
        have hN : 0 < p.Nsize := Nat.pos_of_ne_zero fun h0 => by rw [h0] at hM; omega
        have hdec : i = (i - q * M) + q * M := by omega
        have hdiv : i / M = q := by
          rw [hdec, Nat.add_mul_div_right _ _ hMpos, Nat.div_eq_of_lt (by omega), Nat.zero_add]
        have hmod : i % M = i - q * M := by
          conv_lhs => rw [hdec, Nat.add_mul_mod_self_right, Nat.mod_eq_of_lt (by omega)]
        rw [if_pos hi, if_pos ⟨(hD _).2 (Or.inl hdiv), hN⟩, hdiv, hmod, e]
        rfl
      · rw [if_neg hi, if_neg hi]
        by_cases hN : 0 < p.Nsize
        · have hMpos : 0 < M := by
            rw [← hM]
            exact Nat.mul_pos hN hN
          have hne : i / M ≠ q := by
            intro hq
            apply hi
            have h1 := Nat.div_mul_le_self i M
            have h2 : i < i / M * M + M := Nat.lt_div_mul_add hMpos
            rw [hq] at h1 h2
            exact ⟨h1, h2⟩
          simp only [hD, hne, false_or]
        · rw [if_neg (fun h => hN h.2)]
          exact if_neg (fun h => hN h.2)

theorem mem_congr (D D' : ℕ → Prop) [DecidablePred D] [DecidablePred D'] (h : ∀ i, D' i ↔ D i) (st : PfState K) :
    mAllMem p lib slt qpStart rs D st = mAllMem p lib slt qpStart rs D' st := by
  unfold mAllMem
  simp only [h]

theorem mem_none (D : ℕ → Prop) [DecidablePred D] (h : ∀ i, ¬ D i) (st : PfState K) : mAllMem p lib slt qpStart rs D st = st := by
  unfold mAllMem
  simp only [h, if_false, false_and]

/-- the loop of one thread -/
theorem mAll_seq (hl : LibLocal lib) (st : PfState K) (n : ℕ) :
    ((∀ q < n, mAllRes p lib slt qpStart rs q ≠ none) → calculateMAll p lib slt qpStart (qpStart + n) rs st = some (mAllMem p lib slt qpStart rs (· < n) st)) ∧
    ((∃ q < n, mAllRes p lib slt qpStart rs q = none) → calculateMAll p lib slt qpStart (qpStart + n) rs st = none) := by
  unfold calculateMAll
  rw [Nat.add_sub_cancel_left]
  induction n with
  | zero => exact ⟨fun _ => congrArg some (mem_none p lib slt qpStart rs _ (fun i => Nat.not_lt_zero i) st).symm, fun h => absurd h.choose_spec.1 (Nat.not_lt_zero _)⟩
  | succ n ih =>
    rw [List.range_succ, List.foldl_append, List.foldl_cons, List.foldl_nil]
    constructor
    · intro h
      rw [ih.1 (fun q hq => h q (by omega))]
      simp only
      cases e : calculateMAllChild p lib slt qpStart n rs (mAllMem p lib slt qpStart rs (· < n) st) with
      | none => exact absurd ((child_none p lib slt qpStart rs hl n _).1 e) (h n (by omega))
      | some st' => rw [child_some p lib slt qpStart rs hl n (· < n) (· < n + 1) (fun i => by omega) st st' e]
    · rintro ⟨q, hq, e⟩
      by_cases hex : ∃ q < n, mAllRes p lib slt qpStart rs q = none
      · rw [ih.2 hex]
      · have hqn : q = n := by
          by_contra hne
          exact hex ⟨q, by omega, e⟩
        rw [ih.1 (fun j hj hj0 => hex ⟨j, hj, hj0⟩)]
        simp only
        rw [← hqn]
        exact (child_none p lib slt qpStart rs hl q _).2 e

variable (code : ℕ → ℤ) (junk : ℕ → PfState K → PfState K)

theorem mAll_inv (hl : LibLocal lib) (hcode : ∀ q, code q ≠ 0) (st : PfState K) {n : ℕ} {evs : List MAllEv} (hrun : MAllRun n evs) : ∀ (P S : List MAllEv), evs = P ++ S →
    ((mAllPar p lib slt qpStart rs code junk st P).info = 0 ∨ ∃ q < n, mAllRes p lib slt qpStart rs q = none ∧ (mAllPar p lib slt qpStart rs code junk st P).info = code q) ∧
    (∀ q, (mAllPar p lib slt qpStart rs code junk st P).failed q = true → mAllRes p lib slt qpStart rs q = none) ∧
    ((mAllPar p lib slt qpStart rs code junk st P).info = 0 →
      (∀ q, MAllEv.check q ∈ P → (mAllPar p lib slt qpStart rs code junk st P).active q = true) ∧
      (∀ q, MAllEv.run q ∈ P → mAllRes p lib slt qpStart rs q = none → (mAllPar p lib slt qpStart rs code junk st P).failed q = true) ∧
      (∀ q, MAllEv.post q ∈ P → mAllRes p lib slt qpStart rs q ≠ none) ∧
      ((∀ q, MAllEv.run q ∈ P → mAllRes p lib slt qpStart rs q ≠ none) →
        (mAllPar p lib slt qpStart rs code junk st P).st = mAllMem p lib slt qpStart rs (fun q => MAllEv.run q ∈ P) st)) := by
  intro P
  induction P using List.reverseRecOn with
  | nil =>
    intro S _
    refine ⟨Or.inl rfl, fun q h => (by cases h), fun _ => ⟨fun q h => (by cases h), fun q h => (by cases h), fun q h => (by cases h), fun _ => ?_⟩⟩
    exact (mem_none p lib slt qpStart rs _ (fun i => List.not_mem_nil) st).symm
  | append_singleton P e ih =>
    intro S hS
    have hS' : evs = P ++ e :: S := by rw [hS, List.append_assoc, List.singleton_append]
    obtain ⟨ha, hb, hc⟩ := ih (e :: S) hS'
    have hstep : mAllPar p lib slt qpStart rs code junk st (P ++ [e]) = mAllStep p lib slt qpStart rs code junk (mAllPar p lib slt qpStart rs code junk st P) e := by
      unfold mAllPar
      rw [List.foldl_append, List.foldl_cons, List.foldl_nil]
    rw [hstep]
    generalize mAllPar p lib slt qpStart rs code junk st P = T at ha hb hc ⊢
    have hidx := hrun.idx e (by rw [hS']; simp)
    cases e with
    | check q =>
      refine ⟨ha, hb, fun h0 => ?_⟩
      obtain ⟨c1, c2, c3, c4⟩ := hc h0
      have h0' : T.info = 0 := h0
      refine ⟨fun j hj => ?_, fun j hj => c2 j (by simpa using hj), fun j hj => c3 j (by simpa using hj), fun h => ?_⟩
      · simp only [mAllStep]
        by_cases hjq : j = q
        · rw [if_pos hjq]
          exact decide_eq_true h0'
        · rw [if_neg hjq]
          exact c1 j (by simpa [hjq] using hj)
      · refine (c4 fun j hj => h j (by simpa using hj)).trans ?_
        exact mem_congr p lib slt qpStart rs _ _ (fun i => by simp) st
    | run q =>
      have hchk := hrun.check_run P S q hS'
      simp only [mAllStep]
      by_cases hact : T.active q = true
      · rw [if_pos hact]
        cases ech : calculateMAllChild p lib slt qpStart q rs T.st with
        | none =>
          have hres := (child_none p lib slt qpStart rs hl q _).1 ech
          refine ⟨ha, fun j hj => ?_, fun h0 => ?_⟩
          · by_cases hjq : j = q
            · rw [hjq]
              exact hres
            · simp only [if_neg hjq] at hj
              exact hb j hj
          · obtain ⟨c1, c2, c3, c4⟩ := hc h0
            refine ⟨fun j hj => c1 j (by simpa using hj), fun j hj hr => ?_, fun j hj => c3 j (by simpa using hj), fun h => absurd hres (h q (by simp))⟩
            simp only
            by_cases hjq : j = q
            · rw [if_pos hjq]
            · rw [if_neg hjq]
              exact c2 j (by simpa [hjq] using hj) hr
        | some st' =>
          have hres : mAllRes p lib slt qpStart rs q ≠ none := fun h => by
            rw [(child_none p lib slt qpStart rs hl q _).2 h] at ech
            cases ech
          refine ⟨ha, hb, fun h0 => ?_⟩
          obtain ⟨c1, c2, c3, c4⟩ := hc h0
          refine ⟨fun j hj => c1 j (by simpa using hj), fun j hj hr => ?_, fun j hj => c3 j (by simpa using hj), fun h => ?_⟩
          · by_cases hjq : j = q
            · rw [hjq] at hr
              exact absurd hr hres
            · exact c2 j (by simpa [hjq] using hj) hr
          · rw [c4 fun j hj => h j (by simp [hj])] at ech
            exact child_some p lib slt qpStart rs hl q _ _ (fun i => by simp [or_comm]) st st' ech
      · rw [if_neg hact]
        refine ⟨ha, hb, fun h0 => absurd ((hc h0).1 q hchk) hact⟩
    | post q =>
      have hr := hrun.run_post P S q hS'
      simp only [mAllStep]
      by_cases hf : T.failed q = true
      · rw [if_pos hf]
        exact ⟨Or.inr ⟨q, hidx, hb q hf, rfl⟩, hb, fun h0 => absurd h0 (hcode q)⟩
      · rw [if_neg hf]
        refine ⟨ha, hb, fun h0 => ?_⟩
        obtain ⟨c1, c2, c3, c4⟩ := hc h0
        refine ⟨fun j hj => c1 j (by simpa using hj), fun j hj => c2 j (by simpa using hj), fun j hj => ?_, fun h => ?_⟩
        · by_cases hjq : j = q
          · rw [hjq]
            exact fun hn => hf (c2 q hr hn)
          · exact c3 j (by simpa [hjq] using hj)
        · refine (c4 fun j hj => h j (by simpa using hj)).trans ?_
          exact mem_congr p lib slt qpStart rs _ _ (fun i => by simp) st

/-- each use of a private pointer gets the memory of its thread -/
theorem wkPrivate_own : ∀ (es : List WkEv) (v : ℕ → Option ℕ), (∀ pre suf th, es = pre ++ .use th :: suf → WkEv.get th ∈ pre ∨ v th = some th) →
    ∀ u ∈ wkPrivate es v, u.2 = some u.1
  | [], _, _ => fun u hu => by cases hu
  | .get t :: es, v, h => by
    refine wkPrivate_own es _ fun pre suf th e => ?_
    by_cases ht : th = t
    · right
      rw [if_pos ht, ht]
    · rcases h (.get t :: pre) suf th (by rw [e]; rfl) with h1 | h1
      · left
        simpa [ht] using h1
      · right
        rw [if_neg ht]
        exact h1
  | .use t :: es, v, h => by
    intro u hu
    rw [wkPrivate, List.mem_cons] at hu
    rcases hu with rfl | hu
    · simpa using h [] es t rfl
    · refine wkPrivate_own es v (fun pre suf th e => ?_) u hu
      rcases h (.use t :: pre) suf th (by rw [e]; rfl) with h1 | h1
      · left
        simpa using h1
      · exact Or.inr h1

end MVMC
