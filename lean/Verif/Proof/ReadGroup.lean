import Verif.Proof.ReadDef

/-!
# Lemmas on the readers of parameter indices
-/

namespace MVMC

/-! ## Flags -/

/-- The words of a list of pairs. -/
def encOpts (prs : List (ℤ × ℤ)) : List Tok := prs.flatMap fun p => [some p.1, some p.2]

/-- The flag array after storing flags for the parameters `fidx, fidx + 1, …`: real parts,
and imaginary parts of complex parameters. -/
def withFlags (c : ℤ) (fidx : ℕ) (fl : List ℤ) (opt : Tab) : Tab := fun k =>
  if fidx ≤ k / 2 then
    match fl[k / 2 - fidx]? with
    | some f => if k % 2 = 0 ∨ c > 0 then some f else opt k
    | none => opt k
  else opt k

theorem withFlags_nil (c : ℤ) (fidx : ℕ) (opt : Tab) : withFlags c fidx [] opt = opt := by
  funext k
  simp [withFlags]

theorem withFlags_cons (c : ℤ) (fidx : ℕ) (f : ℤ) (fl : List ℤ) (opt : Tab) :
    withFlags c fidx (f :: fl) opt = withFlags c (fidx + 1) fl
      (if c > 0 then (opt.put (2 * fidx) (some f)).put (2 * fidx + 1) (some f)
        else opt.put (2 * fidx) (some f)) := by
  funext k
  unfold withFlags Tab.put
  by_cases h1 : fidx ≤ k / 2
  · rw [if_pos h1]
    by_cases h2 : fidx + 1 ≤ k / 2
    · rw [if_pos h2, show k / 2 - fidx = (k / 2 - (fidx + 1)) + 1 by omega, List.getElem?_cons_succ]
      have a1 : k ≠ 2 * fidx := by omega
      have a2 : k ≠ 2 * fidx + 1 := by omega
      split_ifs <;> simp [a1, a2]
    · rw [if_neg h2, show k / 2 - fidx = 0 by omega, List.getElem?_cons_zero]
      dsimp only
      by_cases e : k % 2 = 0
      · have e1 : k = 2 * fidx := by omega
        have e2 : k ≠ 2 * fidx + 1 := by omega
        rw [if_pos (Or.inl e)]
        split_ifs <;> simp [e1]
      · have e1 : k ≠ 2 * fidx := by omega
        have e2 : k = 2 * fidx + 1 := by omega
        by_cases hc : c > 0
        · rw [if_pos (Or.inr hc), if_pos hc]
          simp [e2]
        · rw [if_neg (by tauto), if_neg hc, if_neg e1]
  · have h2 : ¬ fidx + 1 ≤ k / 2 := by omega
    rw [if_neg h1, if_neg h2]
    have a1 : k ≠ 2 * fidx := by omega
    have a2 : k ≠ 2 * fidx + 1 := by omega
    split_ifs <;> simp [a1, a2]

theorem getInfoOpt_enc {cap : ℕ} {c : ℤ} (prs : List (ℤ × ℤ)) : ∀ (fidx : ℕ) (opt : Tab) (cnt : ℕ),
    2 * (fidx + prs.length) ≤ cap →
    getInfoOpt cap c (encOpts prs) fidx opt cnt =
      .ok (cnt + prs.length, withFlags c fidx (prs.map Prod.snd) opt) := by
  induction prs with
  | nil =>
    intro fidx opt cnt _
    simp [encOpts, getInfoOpt, withFlags_nil]
  | cons p prs ih =>
    intro fidx opt cnt h
    rw [List.length_cons] at h
    have e : encOpts (p :: prs) = some p.1 :: some p.2 :: encOpts prs := by simp [encOpts]
    rw [e, getInfoOpt, if_neg (by omega)]
    dsimp only
    have hp : (opt.put (2 * fidx) (some p.2)) (2 * fidx) = some p.2 := by simp [Tab.put]
    rw [hp, List.map_cons, withFlags_cons, List.length_cons]
    have e2 : cnt + (prs.length + 1) = cnt + 1 + prs.length := by omega
    rw [e2]
    by_cases hc : c > 0
    · rw [if_pos hc, if_neg (by omega), ih _ _ _ (by omega), if_pos hc]
    · rw [if_neg hc, ih _ _ _ (by omega), if_neg hc]

/-- What `GetInfoOpt` has read if it comes to an end; the last flag may be missing. -/
theorem getInfoOpt_ok {cap : ℕ} {c : ℤ} : ∀ (len : ℕ) (s : List Tok), s.length = len →
    ∀ (fidx : ℕ) (opt : Tab) (cnt : ℕ) (n : ℕ) (opt' : Tab),
    getInfoOpt cap c s fidx opt cnt = .ok (n, opt') →
    ∃ prs : List (ℤ × ℤ),
      (s = encOpts prs ∧ n = cnt + prs.length ∧ opt' = withFlags c fidx (prs.map Prod.snd) opt ∧
        (prs ≠ [] → 2 * (fidx + prs.length) ≤ cap + 1)) ∨
      (∃ i, s = encOpts prs ++ [some i] ∧ n = cnt + prs.length + 1) := by
  intro len
  induction len using Nat.strong_induction_on with
  | _ len ih =>
    intro s hs fidx opt cnt n opt' h
    match s, hs, h with
    | [], _, h =>
      rw [getInfoOpt] at h
      cases h
      exact ⟨[], Or.inl ⟨rfl, by simp, by simp [withFlags_nil], by simp⟩⟩
    | none :: s, _, h =>
      rw [getInfoOpt] at h
      split_ifs at h
    | [some i], _, h =>
      refine ⟨[], Or.inr ⟨i, rfl, ?_⟩⟩
      rw [getInfoOpt] at h
      · split_ifs at h
        · rw [getInfoOpt] at h; cases h; simp
        · rw [getInfoOpt] at h; cases h; simp
      · intro f s c; cases c
    | some i :: none :: s, _, h =>
      exfalso
      rw [getInfoOpt] at h
      · split_ifs at h
        · rw [getInfoOpt] at h
          split_ifs at h
        · rw [getInfoOpt] at h
          split_ifs at h
      · intro f s c; cases c
    | some i :: some f :: s, hs, h =>
      rw [getInfoOpt] at h
      by_cases h1 : 2 * fidx ≥ cap
      · rw [if_pos h1] at h; cases h
      rw [if_neg h1] at h
      dsimp only at h
      have hp : (opt.put (2 * fidx) (some f)) (2 * fidx) = some f := by simp [Tab.put]
      rw [hp] at h
      simp only [List.length_cons] at hs
      have key : getInfoOpt cap c s (fidx + 1) (if c > 0 then
          (opt.put (2 * fidx) (some f)).put (2 * fidx + 1) (some f)
          else opt.put (2 * fidx) (some f)) (cnt + 1) = .ok (n, opt') := by
        by_cases hc : c > 0
        · rw [if_pos hc] at h ⊢
          by_cases h2 : 2 * fidx + 1 ≥ cap
          · rw [if_pos h2] at h; cases h
          · rw [if_neg h2] at h; exact h
        · rw [if_neg hc] at h ⊢; exact h
      obtain ⟨prs, hprs⟩ := ih s.length (by omega) s rfl _ _ _ _ _ key
      refine ⟨(i, f) :: prs, ?_⟩
      rcases hprs with ⟨a, b, d, e⟩ | ⟨j, a, b⟩
      · left
        refine ⟨by rw [a]; simp [encOpts], by rw [b, List.length_cons]; omega, ?_, ?_⟩
        · rw [d, List.map_cons, withFlags_cons]
        · intro _
          rw [List.length_cons]
          by_cases hn : prs = []
          · subst hn
            simp only [List.length_nil]
            omega
          · have := e hn
            omega
      · right
        exact ⟨j, by rw [a]; simp [encOpts], by rw [b, List.length_cons]; omega⟩

/-! ## Entries -/

/-- Nothing more can be read: end of the file, or a word that is not an integer. -/
def Stuck (s : List Tok) : Prop := s = [] ∨ ∃ s', s = none :: s'

theorem lead_full {n : ℕ} : ∀ {ys : List ℤ} (s : List Tok), ys.length = n →
    lead n (ys.map some ++ s) = (ys, s) := by
  induction n with
  | zero =>
    intro ys s h
    rw [List.length_eq_zero_iff.1 h]
    simp [lead]
  | succ n ih =>
    intro ys s h
    cases ys with
    | nil => simp at h
    | cons y ys =>
      simp only [List.map_cons, List.cons_append, lead, ih s (by simpa using h)]

theorem lead_cases (n : ℕ) : ∀ s : List Tok,
    (∃ ys : List ℤ, ∃ r, ys.length = n ∧ s = ys.map some ++ r) ∨ Stuck (lead n s).2 := by
  induction n with
  | zero => intro s; exact Or.inl ⟨[], s, rfl, rfl⟩
  | succ n ih =>
    intro s
    match s with
    | [] => right; left; rfl
    | none :: s => right; right; exact ⟨s, rfl⟩
    | some z :: s =>
      rcases ih s with ⟨ys, r, h1, h2⟩ | h
      · left
        exact ⟨z :: ys, r, by simp [h1], by simp [h2]⟩
      · right
        exact h

theorem lead_stuck {n : ℕ} {s : List Tok} (h : Stuck s) : (lead n s).2 = s := by
  cases n with
  | zero => rfl
  | succ n =>
    rcases h with rfl | ⟨s', rfl⟩ <;> rfl

theorem fscanI_full {n : ℕ} {ys : List ℤ} (x : List ℤ) (hx : x.length = n) (s : List Tok)
    (h : ys.length = n) : fscanI n x (ys.map some ++ s) = (ys, s) := by
  unfold fscanI
  rw [lead_full s h]
  dsimp only
  rw [List.drop_eq_nil_of_le (by omega), List.append_nil]

theorem lead_len (n : ℕ) : ∀ s : List Tok, (lead n s).1.length ≤ n := by
  induction n with
  | zero => intro s; simp [lead]
  | succ n ih =>
    intro s
    match s with
    | [] => simp [lead]
    | none :: s => simp [lead]
    | some z :: s => simp only [lead, List.length_cons]; have := ih s; omega

theorem fscanI_len {n : ℕ} {x : List ℤ} (hx : x.length = n) (s : List Tok) :
    (fscanI n x s).1.length = n := by
  unfold fscanI
  rw [List.length_append, List.length_drop, hx]
  have := lead_len n s
  omega

/-- A loop body that reads `nk` words, then `e` more; on a complete entry it performs `st`
if the entry is valid and otherwise leaves or writes outside the table. -/
structure BodyOK (nk e : ℕ) (body : List ℤ → List Tok → Tab → Step) (valid : List ℤ → Prop)
    (st : List ℤ → List (ℕ × Option ℤ)) : Prop where
  pos : 0 < nk
  one : e ≤ 1
  good : ∀ x ys s t, x.length = nk → ys.length = e → valid (x ++ ys) →
    body x (ys.map some ++ s) t = .cont s (runStores (st (x ++ ys)) t)
  bad : ∀ x ys s t, x.length = nk → ys.length = e → ¬ valid (x ++ ys) →
    ∀ s' t', body x (ys.map some ++ s) t ≠ .cont s' t'
  stuck : ∀ x s t s' t', Stuck s → body x s t = .cont s' t' → s' = s

section
variable {nk e : ℕ} {body : List ℤ → List Tok → Tab → Step} {valid : List ℤ → Prop}
  {st : List ℤ → List (ℕ × Option ℤ)} (B : BodyOK nk e body valid st)
include B

theorem entryLoop_stuck : ∀ rem x s t cnt r, Stuck s →
    entryLoop nk body rem x s t cnt = .ok r → r.2.2.2 = s := by
  intro rem
  induction rem with
  | zero =>
    intro x s t cnt r hs h
    unfold entryLoop at h
    by_cases h1 : s = []
    · rw [if_pos h1] at h; cases h; rfl
    · rw [if_neg h1] at h
      split at h
      · cases h; exact lead_stuck hs
      · cases h
      · cases h
  | succ rem ih =>
    intro x s t cnt r hs h
    unfold entryLoop at h
    by_cases h1 : s = []
    · rw [if_pos h1] at h; cases h; rfl
    · rw [if_neg h1] at h
      split at h
      · cases h; exact lead_stuck hs
      · cases h
      · rename_i s' t' hb
        have e1 : (fscanI nk x s).2 = s := lead_stuck hs
        rw [e1] at hb
        have e2 := B.stuck _ _ _ _ _ hs hb
        split_ifs at h
        · cases h; exact e2
        · rw [e2] at h
          exact ih _ _ _ _ _ hs h

/-- A completed loop has read exactly `rem` valid entries. -/
theorem entryLoop_ok : ∀ rem x s t cnt t' s', x.length = nk →
    entryLoop nk body rem x s t cnt = .ok (cnt + rem, 0, t', s') → ¬ Stuck s' → rem ≠ 0 →
    ∃ ents : List (List ℤ), ents.length = rem ∧ (∀ a ∈ ents, a.length = nk + e ∧ valid a) ∧
      s = ents.flatten.map some ++ s' ∧ t' = runStores (ents.flatMap st) t := by
  intro rem
  induction rem with
  | zero => intro x s t cnt t' s' _ _ _ h; exact absurd rfl h
  | succ rem ih =>
    intro x s t cnt t' s' hx h hns _
    unfold entryLoop at h
    by_cases h1 : s = []
    · rw [if_pos h1] at h
      cases h
    · rw [if_neg h1] at h
      split at h
      · simp at h
      · cases h
      · rename_i s1 t1 hb
        have fin : ∀ s1 t1, Stuck s1 → (if rem = 0 then RdOut.ok (cnt + 1, (0 : ℤ), t1, s1)
            else entryLoop nk body rem (fscanI nk x s).1 s1 t1 (cnt + 1)) =
              .ok (cnt + (rem + 1), 0, t', s') → False := by
          intro s1 t1 hst hh
          split_ifs at hh
          · simp only [RdOut.ok.injEq, Prod.mk.injEq] at hh
            rw [hh.2.2.2] at hst
            exact hns hst
          · have := entryLoop_stuck B _ _ _ _ _ _ hst hh
            dsimp only at this
            rw [this] at hns
            exact hns hst
        rcases lead_cases nk s with ⟨ys, r, hy, rfl⟩ | hst
        · rw [fscanI_full x hx r hy] at hb h
          rw [fscanI_full x hx r hy] at fin
          dsimp only at hb h fin
          rcases lead_cases e r with ⟨zs, r', hz, rfl⟩ | hst
          · have hv : valid (ys ++ zs) := by
              by_contra c
              exact B.bad ys zs r' t hy hz c _ _ hb
            rw [B.good ys zs r' t hy hz hv] at hb
            cases hb
            by_cases h0 : rem = 0
            · subst h0
              rw [if_pos rfl] at h
              simp only [RdOut.ok.injEq, Prod.mk.injEq] at h
              obtain ⟨_, _, rfl, rfl⟩ := h
              refine ⟨[ys ++ zs], rfl, ?_, ?_, ?_⟩
              · simp only [List.mem_singleton, forall_eq, List.length_append]
                exact ⟨by omega, hv⟩
              · simp
              · simp
            · rw [if_neg h0, show cnt + (rem + 1) = cnt + 1 + rem by omega] at h
              obtain ⟨ents, a1, a2, a3, a4⟩ := ih _ _ _ _ _ _ hy h hns h0
              refine ⟨(ys ++ zs) :: ents, by simp [a1], ?_, ?_, ?_⟩
              · simp only [List.mem_cons, forall_eq_or_imp, List.length_append]
                exact ⟨⟨by omega, hv⟩, a2⟩
              · rw [a3]; simp
              · rw [a4]
                simp [runStores, List.foldl_append]
          · -- the entry is cut off after the key
            cases e with
            | zero =>
              exfalso
              by_cases c : valid (ys ++ [])
              · have hb' := B.good ys [] r t hy rfl c
                simp only [List.map_nil, List.nil_append] at hb'
                rw [hb'] at hb
                cases hb
                exact fin _ _ hst h
              · have := B.bad ys [] r t hy rfl c s1 t1
                simp only [List.map_nil, List.nil_append] at this
                exact this hb
            | succ e =>
              have hr : Stuck r ∨ ∃ v r', r = some v :: r' := by
                match r with
                | [] => exact Or.inl (Or.inl rfl)
                | none :: r => exact Or.inl (Or.inr ⟨r, rfl⟩)
                | some v :: r => exact Or.inr ⟨v, r, rfl⟩
              rcases hr with hr | ⟨v, r', rfl⟩
              · exact (fin _ _ (by rw [B.stuck _ _ _ _ _ hr hb]; exact hr) h).elim
              · have he : e = 0 := by have := B.one; omega
                subst he
                have hst' : Stuck r' := hst
                by_cases c : valid (ys ++ [v])
                · have hb' := B.good ys [v] r' t hy rfl c
                  simp only [List.map_cons, List.map_nil, List.cons_append, List.nil_append] at hb'
                  rw [hb'] at hb
                  cases hb
                  exact (fin _ _ hst' h).elim
                · have := B.bad ys [v] r' t hy rfl c s1 t1
                  simp only [List.map_cons, List.map_nil, List.cons_append, List.nil_append] at this
                  exact (this hb).elim
        · have e1 : (fscanI nk x s).2 = (lead nk s).2 := rfl
          have hs1 : s1 = (lead nk s).2 := B.stuck _ _ _ _ _ hst (by rw [← e1]; exact hb)
          exact (fin _ _ (by rw [hs1]; exact hst) h).elim

/-- A well-formed file is read completely. -/
theorem entryLoop_enc : ∀ (ents : List (List ℤ)) x s' t cnt, x.length = nk → ents ≠ [] →
    (∀ a ∈ ents, a.length = nk + e ∧ valid a) →
    entryLoop nk body ents.length x (ents.flatten.map some ++ s') t cnt =
      .ok (cnt + ents.length, 0, runStores (ents.flatMap st) t, s') := by
  intro ents
  induction ents with
  | nil => intro x s' t cnt _ h; exact absurd rfl h
  | cons a ents ih =>
    intro x s' t cnt hx _ hv
    obtain ⟨ha, hva⟩ := hv a (by simp)
    have e1 : a = a.take nk ++ a.drop nk := (List.take_append_drop nk a).symm
    have l1 : (a.take nk).length = nk := by rw [List.length_take]; omega
    have l2 : (a.drop nk).length = e := by rw [List.length_drop]; omega
    have e2 : (a :: ents).flatten.map some ++ s' =
        (a.take nk).map some ++ ((a.drop nk).map some ++ (ents.flatten.map some ++ s')) := by
      have e3 : a.map some = (a.take nk).map some ++ (a.drop nk).map some := by
        rw [← List.map_append, List.take_append_drop]
      rw [List.flatten_cons, List.map_append, e3, List.append_assoc, List.append_assoc]
    have hne : (a :: ents).flatten.map some ++ s' ≠ [] := by
      have := B.pos
      intro c
      have := congrArg List.length c
      rw [List.length_append, List.length_map, List.flatten_cons, List.length_append, ha,
        List.length_nil] at this
      omega
    rw [List.length_cons]
    unfold entryLoop
    rw [if_neg hne, e2, fscanI_full x hx _ l1]
    dsimp only
    rw [B.good _ _ _ t l1 l2 (by rw [← e1]; exact hva), ← e1]
    dsimp only
    cases ents with
    | nil =>
      simp
    | cons b ents =>
      rw [if_neg (by simp), ih _ _ _ _ l1 (by simp) (fun c hc => hv c (by simp [hc]))]
      simp only [RdOut.ok.injEq, Prod.mk.injEq, true_and, and_true]
      refine ⟨by simp only [List.length_cons]; omega, ?_⟩
      simp [runStores, List.foldl_append]

theorem getInfoOpt_stuck {cap : ℕ} {c : ℤ} {s : List Tok} (h : Stuck s) {fidx : ℕ} {opt : Tab} {n : ℕ}
    {opt' : Tab} (hn : getInfoOpt cap c s fidx opt 0 = .ok (n, opt')) : n = 0 := by
  rcases h with rfl | ⟨s', rfl⟩
  · rw [getInfoOpt] at hn
    cases hn; rfl
  · rw [getInfoOpt] at hn
    split_ifs at hn

/-- A group reader that reports success has read exactly the announced number of valid
entries and of flags; only the very last flag may be missing. -/
theorem groupReader_ok {limit nOpt cap : ℕ} {c : ℤ} {fidx : ℕ} {NArray : ℤ} (hN : 0 < NArray)
    (hO : 0 < nOpt) {s : List Tok} {t opt t' opt' : Tab}
    (h : groupReader nk body limit nOpt cap c fidx NArray s t opt = .ok (t', opt')) :
    ∃ (ents : List (List ℤ)) (prs : List (ℤ × ℤ)),
      ents.length = limit ∧ (∀ a ∈ ents, a.length = nk + e ∧ valid a) ∧
      t' = runStores (ents.flatMap st) t ∧
      ((s = ents.flatten.map some ++ encOpts prs ∧ prs.length = nOpt ∧
          opt' = withFlags c fidx (prs.map Prod.snd) opt ∧ 2 * (fidx + nOpt) ≤ cap + 1) ∨
        ∃ i, s = ents.flatten.map some ++ encOpts prs ++ [some i] ∧ prs.length + 1 = nOpt) := by
  unfold groupReader at h
  rw [if_pos hN] at h
  split at h
  · cases h
  · cases h
  · cases h
  · rename_i idx0 info t1 s1 he
    split at h
    · cases h
    · cases h
    · cases h
    · rename_i idx1 opt1 hopt
      split_ifs at h with h1 h2
      push Not at h1 h2
      obtain ⟨rfl, rfl⟩ := h1
      subst h2
      cases h
      have hns : ¬ Stuck s1 := fun c => by
        have := getInfoOpt_stuck B c hopt
        omega
      by_cases hl : idx0 = 0
      · exfalso
        subst hl
        unfold entryLoop at he
        split_ifs at he with h3
        · cases he
          exact hns (Or.inl h3)
        · split at he
          · cases he
          · cases he
          · cases he
      · have he' : entryLoop nk body idx0 (List.replicate nk 0) s t 0 = .ok (0 + idx0, 0, t', s1) := by
          rw [Nat.zero_add]; exact he
        obtain ⟨ents, a1, a2, a3, a4⟩ := entryLoop_ok B _ _ _ _ _ _ _ (List.length_replicate ..) he' hns hl
        obtain ⟨prs, hp⟩ := getInfoOpt_ok _ s1 rfl _ _ _ _ _ hopt
        refine ⟨ents, prs, a1, a2, a4, ?_⟩
        rcases hp with ⟨b1, b2, b3, b4⟩ | ⟨i, b1, b2⟩
        · left
          refine ⟨by rw [a3, b1], by omega, b3, ?_⟩
          have := b4 (by rintro rfl; simp at b2; omega)
          rw [b2, Nat.zero_add]
          exact this
        · right
          exact ⟨i, by rw [a3, b1, List.append_assoc], by omega⟩

/-- A well-formed file is accepted. -/
theorem groupReader_enc {limit nOpt cap : ℕ} {c : ℤ} {fidx : ℕ} {NArray : ℤ} (hN : 0 < NArray)
    (ents : List (List ℤ)) (prs : List (ℤ × ℤ)) (h0 : ents ≠ []) (hl : ents.length = limit)
    (hv : ∀ a ∈ ents, a.length = nk + e ∧ valid a) (hp : prs.length = nOpt)
    (hc : 2 * (fidx + nOpt) ≤ cap) (t opt : Tab) :
    groupReader nk body limit nOpt cap c fidx NArray (ents.flatten.map some ++ encOpts prs) t opt =
      .ok (runStores (ents.flatMap st) t, withFlags c fidx (prs.map Prod.snd) opt) := by
  unfold groupReader
  rw [if_pos hN, ← hl, entryLoop_enc B ents _ _ _ _ (List.length_replicate ..) h0 hv]
  dsimp only
  rw [getInfoOpt_enc prs _ _ _ (by omega)]
  dsimp only
  rw [if_neg (by simp [hp]), if_neg (by simp)]

end

end MVMC
