import Verif.Props.ReadFlags
import Mathlib.Algebra.BigOperators.Intervals
import Mathlib.Data.Finset.Sigma
import Mathlib.Algebra.BigOperators.Group.Finset.Sigma

/-!
# C54: orbital definition files

`OrbitalIdx` and `OrbitalSgn` give the parameter and the sign of each pair orbital.  In the
tables of size `2*Nsite` spin orbital `(i, s)` is number `i + s * Nsite`, and
`f_ab = -f_ba` requires a symmetric index and an antisymmetric sign.
-/

namespace MVMC

/-- Symmetric indices and antisymmetric signs. -/
def OrbAnti (T : OrbT) : Prop := ∀ a b, T.idx a b = T.idx b a ∧ T.sgn a b = -T.sgn b a

theorem mirror_anti {T : OrbT} (h : OrbAnti T) {a b : ℕ} (hab : a ≠ b) (f s : ℤ) :
    OrbAnti (T.mirror a b f s) := by
  intro x y
  have := h x y
  have h2 := h y x
  unfold OrbT.mirror OrbT.set
  dsimp only
  constructor
  · split_ifs <;> first | rfl | omega | (exfalso; omega)
  · split_ifs <;> first | rfl | omega | (exfalso; omega)

/-- A step that keeps the tables antisymmetric if the order of the pair is right. -/
def StepAnti (step : List (Option ℤ) → OrbT → RdOut (Bool × OrbT)) : Prop :=
  ∀ x T T', OrbAnti T → step x T = .ok (false, T') → OrbAnti T'

theorem orbLoop_anti {n inc limit : ℕ} {step : List (Option ℤ) → OrbT → RdOut (Bool × OrbT)}
    (H : StepAnti step) : ∀ ls x idx0 T idx0' T' rest, OrbAnti T →
    orbLoop n inc limit step ls x idx0 false T = .ok (idx0', false, T', rest) → OrbAnti T' := by
  have bad : ∀ ls x idx0 T idx0' T' rest,
      orbLoop n inc limit step ls x idx0 true T ≠ .ok (idx0', false, T', rest) := by
    intro ls
    induction ls with
    | nil => intro x idx0 T idx0' T' rest h; rw [orbLoop] at h; simp at h
    | cons l ls ih =>
      intro x idx0 T idx0' T' rest h
      rw [orbLoop] at h
      split at h
      · cases h
      · cases h
      · cases h
      · rw [Bool.true_or] at h
        split_ifs at h
        · simp at h
        · exact ih _ _ _ _ _ _ h
  intro ls
  induction ls with
  | nil =>
    intro x idx0 T idx0' T' rest hT h
    rw [orbLoop] at h
    simp only [RdOut.ok.injEq, Prod.mk.injEq] at h
    rw [← h.2.2.1]
    exact hT
  | cons l ls ih =>
    intro x idx0 T idx0' T' rest hT h
    rw [orbLoop] at h
    split at h
    · cases h
    · cases h
    · cases h
    · rename_i b T1 hs
      rw [Bool.false_or] at h
      cases b with
      | true =>
        split_ifs at h
        · simp at h
        · exact absurd h (bad _ _ _ _ _ _ _)
      | false =>
        have h1 := H _ _ _ hT hs
        split_ifs at h
        · simp only [RdOut.ok.injEq, Prod.mk.injEq] at h
          rw [← h.2.2.1]
          exact h1
        · exact ih _ _ _ _ _ _ h1 h

theorem orbReader_anti {n inc limit : ℕ} {x0 : List (Option ℤ)}
    {step : List (Option ℤ) → OrbT → RdOut (Bool × OrbT)} {sgn : OrbT → OrbT}
    {flags : List Tok → RdOut (ℕ × Tab)} {APFlag : ℤ} {NArray : ℕ} {ls : List (List ℤ)} {T T' : OrbT}
    {opt opt' : Tab} (H : StepAnti step) (hs : ∀ T, OrbAnti T → OrbAnti (sgn T)) (hT : OrbAnti T)
    (h : orbReader n inc limit x0 step sgn flags APFlag NArray ls T opt = .ok (T', opt')) :
    OrbAnti T' := by
  unfold orbReader at h
  by_cases h0 : NArray = 0
  · rw [if_pos h0] at h; cases h; exact hT
  · rw [if_neg h0] at h
    split at h
    · cases h
    · cases h
    · cases h
    · rename_i idx0 itmp T1 rest hl
      dsimp only at h
      split at h
      · cases h
      · cases h
      · cases h
      · rename_i idx1 opt1 hf
        by_cases hc : idx0 ≠ limit ∨ idx1 ≠ NArray ∨ itmp = true
        · rw [if_pos hc] at h; cases h
        rw [if_neg hc] at h
        push Not at hc
        have hi : itmp = false := by simpa using hc.2.2
        subst hi
        have h1 := orbLoop_anti H _ _ _ _ _ _ _ hT hl
        simp only [RdOut.ok.injEq, Prod.mk.injEq] at h
        rw [← h.1]
        split_ifs
        · exact hs _ h1
        · exact h1

theorem apGenStep_anti (N : ℕ) : StepAnti (apGenStep N) := by
  intro x T T' hT h
  unfold apGenStep at h
  split at h
  · rename_i i j f s
    dsimp only at h
    split_ifs at h with hc
    simp only [RdOut.ok.injEq, Prod.mk.injEq, decide_eq_false_iff_not] at h
    rw [not_not, checkPairSite_iff] at hc
    unfold InLat at hc
    rw [← h.2]
    exact mirror_anti hT (by omega) f s
  · cases h

theorem orbGenStep_anti (N : ℕ) : StepAnti (orbGenStep N) := by
  intro x T T' hT h
  unfold orbGenStep at h
  split at h
  · rename_i i si j sj f s
    dsimp only at h
    split_ifs at h with hc hd
    simp only [RdOut.ok.injEq, Prod.mk.injEq, decide_eq_false_iff_not] at h
    rw [← h.2]
    exact mirror_anti hT (by omega) f s
  · cases h

theorem parStep_anti (N M : ℕ) : StepAnti (parStep N M) := by
  intro x T T' hT h
  unfold parStep at h
  split at h
  · rename_i i j rest
    split_ifs at h with hc
    rw [not_not, checkPairSite_iff] at hc
    unfold InLat at hc
    split at h
    · simp only [RdOut.ok.injEq, Prod.mk.injEq, decide_eq_false_iff_not] at h
      rw [← h.2]
      exact mirror_anti (mirror_anti hT (by omega) _ _) (by omega) _ _
    · cases h
  · cases h

theorem apGenSgn_anti (N : ℕ) (T : OrbT) (hT : OrbAnti T) : OrbAnti (apGenSgn N T) := by
  intro a b
  refine ⟨(hT a b).1, ?_⟩
  have := (hT a b).2
  unfold apGenSgn
  dsimp only
  split_ifs <;> omega

theorem orbGenSgn_anti (N : ℕ) (T : OrbT) (hT : OrbAnti T) : OrbAnti (orbGenSgn N T) := by
  intro a b
  refine ⟨(hT a b).1, ?_⟩
  have := (hT a b).2
  unfold orbGenSgn
  dsimp only
  split_ifs <;> omega

theorem parSgn_anti (N : ℕ) (T : OrbT) (hT : OrbAnti T) : OrbAnti (parSgn N T) := by
  intro a b
  refine ⟨(hT a b).1, ?_⟩
  have := (hT a b).2
  unfold parSgn
  dsimp only
  split_ifs <;> omega

/-- C54: whatever the files contain, if the readers report success the pair orbitals are
antisymmetric. -/
theorem C54_antisymmetric (N cap : ℕ) (c : ℤ) (fidx : ℕ) (APFlag : ℤ) (NArray NArrayAP : ℕ)
    (ls : List (List ℤ)) (T T' : OrbT) (opt opt' : Tab) (hT : OrbAnti T)
    (h : getInfoOrbitalAntiParallel true N cap c fidx APFlag NArray ls T opt = .ok (T', opt') ∨
      getInfoOrbitalGeneral N cap c fidx APFlag NArray ls T opt = .ok (T', opt') ∨
      getInfoOrbitalParallel N cap c fidx APFlag NArray NArrayAP ls T opt = .ok (T', opt')) :
    OrbAnti T' := by
  rcases h with h | h | h
  · exact orbReader_anti (apGenStep_anti N) (apGenSgn_anti N) hT h
  · exact orbReader_anti (orbGenStep_anti N) (orbGenSgn_anti N) hT h
  · exact orbReader_anti (parStep_anti N NArrayAP) (parSgn_anti N) hT h

/-- The tables of `SetMemoryDef` are a possible start. -/
theorem zero_anti : OrbAnti OrbT.zero := fun _ _ => ⟨rfl, rfl⟩

/-! ## Complete files -/

/-- Stores `(a, b, index, sign)`. -/
def orbSets (l : List (ℕ × ℕ × ℤ × ℤ)) (T : OrbT) : OrbT :=
  l.foldl (fun T e => T.set e.1 e.2.1 e.2.2.1 e.2.2.2) T

theorem orbSets_append (l m : List (ℕ × ℕ × ℤ × ℤ)) (T : OrbT) :
    orbSets (l ++ m) T = orbSets m (orbSets l T) := List.foldl_append

theorem orbSets_notin (a b : ℕ) : ∀ (l : List (ℕ × ℕ × ℤ × ℤ)) (T : OrbT),
    (∀ e ∈ l, ¬ (e.1 = a ∧ e.2.1 = b)) →
    (orbSets l T).idx a b = T.idx a b ∧ (orbSets l T).sgn a b = T.sgn a b
  | [], _, _ => ⟨rfl, rfl⟩
  | e :: l, T, h => by
    have := orbSets_notin a b l (T.set e.1 e.2.1 e.2.2.1 e.2.2.2) (fun e he => h e (by simp [he]))
    have h0 := h e (by simp)
    have h1 : ¬ (a = e.1 ∧ b = e.2.1) := fun ⟨p, q⟩ => h0 ⟨p.symm, q.symm⟩
    unfold OrbT.set at this
    dsimp only at this
    rw [if_neg h1, if_neg h1] at this
    exact this

theorem orbSets_mem (a b : ℕ) (f s : ℤ) : ∀ (l : List (ℕ × ℕ × ℤ × ℤ)) (T : OrbT),
    (a, b, f, s) ∈ l → (∀ e ∈ l, e.1 = a → e.2.1 = b → e.2.2 = (f, s)) →
    (orbSets l T).idx a b = f ∧ (orbSets l T).sgn a b = s
  | e :: l, T, hm, h => by
    by_cases hl : ∃ e ∈ l, e.1 = a ∧ e.2.1 = b
    · obtain ⟨⟨a', b', f', s'⟩, he, rfl, rfl⟩ := hl
      have := h _ (List.mem_cons_of_mem _ he) rfl rfl
      dsimp only at this
      rw [this] at he
      exact orbSets_mem _ _ f s l _ he (fun e he => h e (by simp [he]))
    · push Not at hl
      have key := orbSets_notin a b l (T.set e.1 e.2.1 e.2.2.1 e.2.2.2) (fun e he hc => hl e he hc.1 hc.2)
      rcases List.mem_cons.1 hm with rfl | hm
      · refine ⟨key.1.trans ?_, key.2.trans ?_⟩ <;> simp [OrbT.set]
      · exact absurd rfl (hl _ hm rfl)

theorem scanO_full {n : ℕ} {a : List ℤ} (h : a.length = n) (x : List (Option ℤ)) (hx : x.length = n) :
    scanO n x a = a.map some := by
  unfold scanO
  rw [List.take_of_length_le (by omega), List.drop_eq_nil_of_le (by omega), List.append_nil]

theorem orbLoop_enc {n inc limit : ℕ} {step : List (Option ℤ) → OrbT → RdOut (Bool × OrbT)}
    {st : List ℤ → List (ℕ × ℕ × ℤ × ℤ)} (hi : 0 < inc) (rest : List (List ℤ)) :
    ∀ (ents : List (List ℤ)) x idx0 T, x.length = n → ents ≠ [] →
    (∀ a ∈ ents, a.length = n ∧ ∀ T, step (a.map some) T = .ok (false, orbSets (st a) T)) →
    idx0 + inc * ents.length = limit →
    orbLoop n inc limit step (ents ++ rest) x idx0 false T =
      .ok (limit, false, orbSets (ents.flatMap st) T, rest)
  | [], _, _, _, _, h, _, _ => absurd rfl h
  | a :: ents, x, idx0, T, hx, _, hv, hl => by
    obtain ⟨h1, h2⟩ := hv a (by simp)
    rw [List.cons_append, orbLoop, scanO_full h1 x hx, h2]
    dsimp only
    rw [Bool.false_or]
    by_cases he : ents = []
    · subst he
      rw [if_pos (by simpa using hl)]
      have e : idx0 + inc = limit := by simpa using hl
      rw [e]
      simp
    · have hpos : 0 < ents.length := List.length_pos_iff.2 he
      have : idx0 + inc ≠ limit := by
        rw [← hl, List.length_cons]
        have : inc ≤ inc * ents.length := Nat.le_mul_of_pos_right _ hpos
        rw [Nat.mul_succ]
        omega
      rw [if_neg this, orbLoop_enc hi rest ents _ _ _ (by rw [List.length_map, h1]) he
        (fun b hb => hv b (by simp [hb])) (by rw [← hl, List.length_cons]; ring)]
      rw [List.flatMap_cons, orbSets_append]

theorem orbReader_enc {n inc limit : ℕ} {x0 : List (Option ℤ)}
    {step : List (Option ℤ) → OrbT → RdOut (Bool × OrbT)} {sgn : OrbT → OrbT}
    {flags : List Tok → RdOut (ℕ × Tab)} {APFlag : ℤ} {NArray : ℕ} {ents rest : List (List ℤ)}
    {T : OrbT} {opt opt' : Tab} {st : List ℤ → List (ℕ × ℕ × ℤ × ℤ)} (hi : 0 < inc) (hN : NArray ≠ 0)
    (hx : x0.length = n) (h0 : ents ≠ [])
    (hv : ∀ a ∈ ents, a.length = n ∧ ∀ T, step (a.map some) T = .ok (false, orbSets (st a) T))
    (hl : inc * ents.length = limit) (hf : flags (rest.flatten.map some) = .ok (NArray, opt')) :
    orbReader n inc limit x0 step sgn flags APFlag NArray (ents ++ rest) T opt =
      .ok (if APFlag = 0 then sgn (orbSets (ents.flatMap st) T) else orbSets (ents.flatMap st) T, opt') := by
  unfold orbReader
  rw [if_neg hN, orbLoop_enc hi rest ents x0 0 T hx h0 hv (by rw [Nat.zero_add, hl])]
  dsimp only
  rw [hf]
  simp


theorem sets_keep {κ : Type} (l : List (List ℤ)) (key : List ℤ → κ) (st : List ℤ → List (ℕ × ℕ × ℤ × ℤ))
    (hn : (l.map key).Nodup)
    (hd : ∀ a ∈ l, ∀ b ∈ l, ∀ p ∈ st a, ∀ q ∈ st b, p.1 = q.1 → p.2.1 = q.2.1 → key a = key b)
    (hs : ∀ a ∈ l, ∀ p ∈ st a, ∀ q ∈ st a, p.1 = q.1 → p.2.1 = q.2.1 → p.2.2 = q.2.2) (T : OrbT) :
    ∀ a ∈ l, ∀ p ∈ st a, (orbSets (l.flatMap st) T).idx p.1 p.2.1 = p.2.2.1 ∧
      (orbSets (l.flatMap st) T).sgn p.1 p.2.1 = p.2.2.2 := by
  intro a ha p hp
  refine orbSets_mem p.1 p.2.1 p.2.2.1 p.2.2.2 _ T (List.mem_flatMap.2 ⟨a, ha, hp⟩) ?_
  intro q hq h1 h2
  obtain ⟨b, hb, hq⟩ := List.mem_flatMap.1 hq
  have := List.inj_on_of_nodup_map hn hb ha (hd b hb a ha q hq p hp h1 h2)
  subst this
  exact hs b hb q hq p hp h1 h2

theorem nodup_key {κ κ' : Type} {l : List (List ℤ)} {key : List ℤ → κ} {key' : List ℤ → κ'}
    (h : ∀ a ∈ l, ∀ b ∈ l, key a = key b → key' a = key' b) (hn : (l.map key').Nodup) :
    (l.map key).Nodup := by
  rw [List.Nodup, List.pairwise_map] at hn ⊢
  exact hn.imp_of_mem fun {a b} ha hb hab e => hab (h a ha b hb e)

/-- C54: a file of antiparallel orbitals with all pairs of sites gives the pair orbital
of every pair, and its flags the flags of the parameters (tables of size `Nsite`). -/
theorem C54_antiparallel_partial (N cap : ℕ) (c : ℤ) (fidx : ℕ) (APFlag : ℤ) (NArray : ℕ)
    (ents rest : List (List ℤ)) (prs : List (ℤ × ℤ)) (T : OrbT) (opt : Tab) (hN : 0 < N) (hA : NArray ≠ 0)
    (hl : ents.length = N * N)
    (hv : ∀ a ∈ ents, a.length = 4 ∧ InLat N (a.getD 0 0) ∧ InLat N (a.getD 1 0))
    (hn : (ents.map fun a => (a.getD 0 0, a.getD 1 0)).Nodup)
    (hr : rest.flatten.map some = encOpts prs) (hp : prs.length = NArray)
    (hc : 2 * (fidx + NArray) ≤ cap) :
    ∃ T', getInfoOrbitalAntiParallel false N cap c fidx APFlag NArray (ents ++ rest) T opt =
        .ok (T', withFlags c fidx (prs.map Prod.snd) opt) ∧
      ∀ i j : ℕ, i < N → j < N → ∃ f s, [(i : ℤ), (j : ℤ), f, s] ∈ ents ∧ T'.idx i j = f ∧
        T'.sgn i j = if APFlag = 0 then 1 else s := by
  have h0 : ents ≠ [] := by
    intro h
    rw [h] at hl
    have := Nat.mul_pos hN hN
    simp at hl
    omega
  let st : List ℤ → List (ℕ × ℕ × ℤ × ℤ) := fun a =>
    [((a.getD 0 0).toNat, (a.getD 1 0).toNat, a.getD 2 0, a.getD 3 0)]
  have step : ∀ a ∈ ents, a.length = 4 ∧ ∀ T, apStep N (a.map some) T = .ok (false, orbSets (st a) T) := by
    intro a ha
    obtain ⟨h4, h1, h2⟩ := hv a ha
    refine ⟨h4, fun T => ?_⟩
    obtain ⟨i, j, f, s, rfl⟩ := len4 h4
    show (if checkPairSite i j N ≠ 0 then RdOut.err else _) = _
    rw [if_neg (by rw [not_not]; exact (checkPairSite_iff _ _ _).2 ⟨h1, h2⟩)]
    rfl
  have run := orbReader_enc (sgn := apSgn N) (APFlag := APFlag) (T := T) (opt := opt)
    (flags := fun s => getInfoOpt cap c s fidx opt 0) (x0 := [none, none, some 0, some 1])
    (rest := rest) (limit := N * N) (inc := 1) (by decide) hA rfl h0 step (by rw [hl, Nat.one_mul])
    (opt' := withFlags c fidx (prs.map Prod.snd) opt)
    (by rw [hr, getInfoOpt_enc prs _ _ _ (by omega), Nat.zero_add, hp])
  refine ⟨_, run, fun i j hi hj => ?_⟩
  obtain ⟨a, ha, e⟩ := keys_cover (Finset.Ico (0 : ℤ) N ×ˢ Finset.Ico (0 : ℤ) N) ents _
    (fun a ha => by
      have := (hv a ha).2
      rw [Finset.mem_product, ← inLat_iff, ← inLat_iff]
      exact this) hn
    (by rw [hl, Finset.card_product, card_lat]) ((i : ℤ), (j : ℤ))
    (by rw [Finset.mem_product, Finset.mem_Ico, Finset.mem_Ico]; simp; omega)
  obtain ⟨p, q, f, s, rfl⟩ := len4 (hv a ha).1
  have e' : (p, q) = ((i : ℤ), (j : ℤ)) := e
  simp only [Prod.mk.injEq] at e'
  obtain ⟨rfl, rfl⟩ := e'
  have val : (orbSets (ents.flatMap st) T).idx i j = f ∧ (orbSets (ents.flatMap st) T).sgn i j = s :=
    sets_keep ents (fun a => (a.getD 0 0, a.getD 1 0)) st hn ?_ ?_ T _ ha (i, j, f, s) (by simp [st])
  · refine ⟨f, s, ha, ?_⟩
    split_ifs
    · exact ⟨val.1, if_pos ⟨hi, hj⟩⟩
    · exact val
  · intro a ha b hb p hp q hq h1 h2
    obtain ⟨-, a1, a2⟩ := hv a ha
    obtain ⟨-, b1, b2⟩ := hv b hb
    simp only [st, List.mem_singleton] at hp hq
    subst hp hq
    dsimp only at h1 h2 ⊢
    unfold InLat at a1 a2 b1 b2
    exact Prod.ext (by dsimp only; omega) (by dsimp only; omega)
  · intro a _ p hp q hq _ _
    simp only [st, List.mem_singleton] at hp hq
    rw [hp, hq]

/-- The stores of a pair and its mirror image do not collide. -/
theorem mirror_apart {a b : ℕ} (h : a < b) (f s : ℤ) :
    ∀ p ∈ [(a, b, f, s), (b, a, f, -s)], ∀ q ∈ [(a, b, f, s), (b, a, f, -s)],
      p.1 = q.1 → p.2.1 = q.2.1 → p.2.2 = q.2.2 := by
  intro p hp q hq h1 h2
  simp only [List.mem_cons, List.not_mem_nil, or_false] at hp hq
  rcases hp with rfl | rfl <;> rcases hq with rfl | rfl <;> first | rfl | (dsimp only at h1 h2; omega)

/-- C54: the same for tables of size `2*Nsite`: pairs of an up and a down orbital. -/
theorem C54_antiparallel_general_partial (N cap : ℕ) (c : ℤ) (fidx : ℕ) (APFlag : ℤ) (NArray : ℕ)
    (ents rest : List (List ℤ)) (prs : List (ℤ × ℤ)) (T : OrbT) (opt : Tab) (hN : 0 < N) (hA : NArray ≠ 0)
    (hl : ents.length = N * N)
    (hv : ∀ a ∈ ents, a.length = 4 ∧ InLat N (a.getD 0 0) ∧ InLat N (a.getD 1 0))
    (hn : (ents.map fun a => (a.getD 0 0, a.getD 1 0)).Nodup)
    (hr : rest.flatten.map some = encOpts prs) (hp : prs.length = NArray)
    (hc : 2 * (fidx + NArray) ≤ cap) :
    ∃ T', getInfoOrbitalAntiParallel true N cap c fidx APFlag NArray (ents ++ rest) T opt =
        .ok (T', withFlags c fidx (prs.map Prod.snd) opt) ∧
      ∀ i j : ℕ, i < N → j < N → ∃ f s, [(i : ℤ), (j : ℤ), f, s] ∈ ents ∧ T'.idx i (j + N) = f ∧
        T'.sgn i (j + N) = if APFlag = 0 then 1 else s := by
  have h0 : ents ≠ [] := by
    intro h
    rw [h] at hl
    have := Nat.mul_pos hN hN
    simp at hl
    omega
  let st : List ℤ → List (ℕ × ℕ × ℤ × ℤ) := fun a =>
    [((a.getD 0 0).toNat, (a.getD 1 0 + N).toNat, a.getD 2 0, a.getD 3 0),
     ((a.getD 1 0 + N).toNat, (a.getD 0 0).toNat, a.getD 2 0, -a.getD 3 0)]
  have step : ∀ a ∈ ents, a.length = 4 ∧ ∀ T, apGenStep N (a.map some) T = .ok (false, orbSets (st a) T) := by
    intro a ha
    obtain ⟨h4, h1, h2⟩ := hv a ha
    refine ⟨h4, fun T => ?_⟩
    obtain ⟨i, j, f, s, rfl⟩ := len4 h4
    have h1' : InLat N i := h1
    have h2' : InLat N j := h2
    show (if checkPairSite i j N ≠ 0 then RdOut.err else _) = _
    rw [if_neg (by rw [not_not]; exact (checkPairSite_iff _ _ _).2 ⟨h1, h2⟩)]
    unfold InLat at h1' h2'
    have hlt : ¬ (i + 0 * (N : ℤ) ≥ j + 1 * (N : ℤ)) := by omega
    rw [decide_eq_false hlt, Int.zero_mul, Int.one_mul, Int.add_zero]
    rfl
  have run := orbReader_enc (sgn := apGenSgn N) (APFlag := APFlag) (T := T) (opt := opt)
    (flags := fun s => getInfoOpt cap c s fidx opt 0) (x0 := [none, none, some 0, some 1])
    (rest := rest) (limit := N * N) (inc := 1) (by decide) hA rfl h0 step (by rw [hl, Nat.one_mul])
    (opt' := withFlags c fidx (prs.map Prod.snd) opt)
    (by rw [hr, getInfoOpt_enc prs _ _ _ (by omega), Nat.zero_add, hp])
  refine ⟨_, run, fun i j hi hj => ?_⟩
  obtain ⟨a, ha, e⟩ := keys_cover (Finset.Ico (0 : ℤ) N ×ˢ Finset.Ico (0 : ℤ) N) ents _
    (fun a ha => by
      have := (hv a ha).2
      rw [Finset.mem_product, ← inLat_iff, ← inLat_iff]
      exact this) hn
    (by rw [hl, Finset.card_product, card_lat]) ((i : ℤ), (j : ℤ))
    (by rw [Finset.mem_product, Finset.mem_Ico, Finset.mem_Ico]; simp; omega)
  obtain ⟨p, q, f, s, rfl⟩ := len4 (hv a ha).1
  have e' : (p, q) = ((i : ℤ), (j : ℤ)) := e
  simp only [Prod.mk.injEq] at e'
  obtain ⟨rfl, rfl⟩ := e'
  have val : (orbSets (ents.flatMap st) T).idx i (j + N) = f ∧
      (orbSets (ents.flatMap st) T).sgn i (j + N) = s :=
    sets_keep ents (fun a => (a.getD 0 0, a.getD 1 0)) st hn ?_ ?_ T _ ha (i, j + N, f, s)
      (by
        have : ((j : ℤ) + (N : ℤ)).toNat = j + N := by omega
        simp [st, this])
  · refine ⟨f, s, ha, ?_⟩
    split_ifs
    · exact ⟨val.1, if_pos ⟨hi, by omega, by omega⟩⟩
    · exact val
  · intro a ha b hb p hp q hq h1 h2
    obtain ⟨-, a1, a2⟩ := hv a ha
    obtain ⟨-, b1, b2⟩ := hv b hb
    unfold InLat at a1 a2 b1 b2
    simp only [st, List.mem_cons, List.not_mem_nil, or_false] at hp hq
    rcases hp with rfl | rfl <;> rcases hq with rfl | rfl <;> dsimp only at h1 h2 ⊢ <;>
      exact Prod.ext (by dsimp only; omega) (by dsimp only; omega)
  · intro a ha
    obtain ⟨-, a1, a2⟩ := hv a ha
    unfold InLat at a1 a2
    exact mirror_apart (by omega) _ _

theorem card_pairs (n : ℕ) : ((Finset.range n).sigma fun b => Finset.range b).card = n * (n - 1) / 2 := by
  rw [Finset.card_sigma]
  simp only [Finset.card_range]
  exact Finset.sum_range_id n

/-- C54: a file of general orbitals with all pairs of spin orbitals gives the pair orbital
of every pair. -/
theorem C54_general_partial (N cap : ℕ) (c : ℤ) (fidx : ℕ) (APFlag : ℤ) (NArray : ℕ)
    (ents rest : List (List ℤ)) (prs : List (ℤ × ℤ)) (T : OrbT) (opt : Tab) (hN : 0 < N) (hA : NArray ≠ 0)
    (hl : ents.length = 2 * N * N - N)
    (hv : ∀ a ∈ ents, a.length = 6 ∧ InLat N (a.getD 0 0) ∧ InLat 2 (a.getD 1 0) ∧ InLat N (a.getD 2 0) ∧
      InLat 2 (a.getD 3 0) ∧ a.getD 0 0 + a.getD 1 0 * N < a.getD 2 0 + a.getD 3 0 * N)
    (hn : (ents.map fun a => (a.getD 0 0, a.getD 1 0, a.getD 2 0, a.getD 3 0)).Nodup)
    (hr : rest.flatten.map some = encOpts prs) (hp : prs.length = NArray)
    (hc : 2 * (fidx + NArray) ≤ cap) :
    ∃ T', getInfoOrbitalGeneral N cap c fidx APFlag NArray (ents ++ rest) T opt =
        .ok (T', withFlags c fidx (prs.map Prod.snd) opt) ∧
      ∀ a b : ℕ, a < b → b < 2 * N → ∃ i si j sj f s, [i, si, j, sj, f, s] ∈ ents ∧
        i + si * N = a ∧ j + sj * N = b ∧ T'.idx a b = f ∧ T'.sgn a b = if APFlag = 0 then 1 else s := by
  have hNN : N ≤ 2 * N * N - N ∧ 2 * N * N - N = (2 * N) * (2 * N - 1) / 2 := by
    obtain ⟨m, rfl⟩ : ∃ m, N = m + 1 := ⟨N - 1, by omega⟩
    have e1 : 2 * (m + 1) * (m + 1) - (m + 1) = (m + 1) * (2 * m + 1) := by
      rw [show 2 * (m + 1) * (m + 1) = (m + 1) * (2 * m + 1) + (m + 1) by ring, Nat.add_sub_cancel]
    refine ⟨?_, ?_⟩
    · rw [e1]; exact Nat.le_mul_of_pos_right _ (by omega)
    · rw [e1, show 2 * (m + 1) - 1 = 2 * m + 1 by omega, Nat.mul_assoc, Nat.mul_div_cancel_left _ (by decide)]
  have h0 : ents ≠ [] := by
    intro h
    rw [h] at hl
    simp at hl
    omega
  let st : List ℤ → List (ℕ × ℕ × ℤ × ℤ) := fun a =>
    [((a.getD 0 0 + a.getD 1 0 * (N : ℤ)).toNat, (a.getD 2 0 + a.getD 3 0 * (N : ℤ)).toNat, a.getD 4 0, a.getD 5 0),
     ((a.getD 2 0 + a.getD 3 0 * (N : ℤ)).toNat, (a.getD 0 0 + a.getD 1 0 * (N : ℤ)).toNat, a.getD 4 0, -a.getD 5 0)]
  have rng : ∀ i s : ℤ, InLat N i → InLat 2 s → 0 ≤ i + s * N ∧ i + s * N < 2 * N := by
    intro i s hi hs
    unfold InLat at hi hs
    have : s = 0 ∨ s = 1 := by omega
    rcases this with rfl | rfl <;> omega
  have step : ∀ a ∈ ents, a.length = 6 ∧ ∀ T, orbGenStep N (a.map some) T = .ok (false, orbSets (st a) T) := by
    intro a ha
    obtain ⟨h4, h1, h2, h3, h5, hlt⟩ := hv a ha
    refine ⟨h4, fun T => ?_⟩
    obtain ⟨i, si, j, sj, f, s, rfl⟩ := len6 h4
    have r1 := rng i si h1 h2
    have r2 := rng j sj h3 h5
    have hlt' : i + si * (N : ℤ) < j + sj * (N : ℤ) := hlt
    show (if checkPairSite i j N ≠ 0 then RdOut.err else _) = _
    rw [if_neg (by rw [not_not]; exact (checkPairSite_iff _ _ _).2 ⟨h1, h3⟩), if_neg (by omega),
      decide_eq_false (by omega)]
    rfl
  have run := orbReader_enc (sgn := orbGenSgn N) (APFlag := APFlag) (T := T) (opt := opt)
    (flags := fun s => getInfoOpt cap c s fidx opt 0) (x0 := [none, none, none, none, some 0, some 1])
    (rest := rest) (limit := 2 * N * N - N) (inc := 1) (by decide) hA rfl h0 step (by rw [hl, Nat.one_mul])
    (opt' := withFlags c fidx (prs.map Prod.snd) opt)
    (by rw [hr, getInfoOpt_enc prs _ _ _ (by omega), Nat.zero_add, hp])
  refine ⟨_, run, fun a b hab hb => ?_⟩
  let key : List ℤ → (_ : ℕ) × ℕ := fun a =>
    ⟨(a.getD 2 0 + a.getD 3 0 * (N : ℤ)).toNat, (a.getD 0 0 + a.getD 1 0 * (N : ℤ)).toNat⟩
  have hkey : (ents.map key).Nodup := by
    refine nodup_key ?_ hn
    intro a ha b hb e
    obtain ⟨-, a1, a2, a3, a4, -⟩ := hv a ha
    obtain ⟨-, b1, b2, b3, b4, -⟩ := hv b hb
    simp only [key, Sigma.mk.injEq, heq_eq_eq] at e
    obtain ⟨x1, x2⟩ := spinSite a3 a4 b3 b4 e.1
    obtain ⟨x3, x4⟩ := spinSite a1 a2 b1 b2 e.2
    rw [x1, x2, x3, x4]
  obtain ⟨x, hx, e⟩ := keys_cover ((Finset.range (2 * N)).sigma fun b => Finset.range b) ents key
    (fun a ha => by
      obtain ⟨-, a1, a2, a3, a4, hlt⟩ := hv a ha
      have r1 := rng _ _ a1 a2
      have r2 := rng _ _ a3 a4
      rw [Finset.mem_sigma, Finset.mem_range, Finset.mem_range]
      dsimp only [key]
      omega) hkey
    (by rw [hl, card_pairs, hNN.2]) ⟨b, a⟩
    (by rw [Finset.mem_sigma, Finset.mem_range, Finset.mem_range]; exact ⟨hb, hab⟩)
  obtain ⟨i, si, j, sj, f, s, rfl⟩ := len6 (hv x hx).1
  obtain ⟨-, a1, a2, a3, a4, hlt⟩ := hv _ hx
  have r1 := rng i si a1 a2
  have r2 := rng j sj a3 a4
  simp only [key, Sigma.mk.injEq, heq_eq_eq] at e
  have e1 : (j + sj * (N : ℤ)).toNat = b := e.1
  have e2 : (i + si * (N : ℤ)).toNat = a := e.2
  have val : (orbSets (ents.flatMap st) T).idx a b = f ∧ (orbSets (ents.flatMap st) T).sgn a b = s :=
    sets_keep ents key st hkey ?_ ?_ T _ hx (a, b, f, s) (by simp [st, e1, e2])
  · refine ⟨i, si, j, sj, f, s, hx, by omega, by omega, ?_⟩
    split_ifs
    · exact ⟨val.1, if_pos ⟨hab, hb⟩⟩
    · exact val
  · intro a ha b hb p hp q hq h1 h2
    obtain ⟨-, a1, a2, a3, a4, hlt⟩ := hv a ha
    obtain ⟨-, b1, b2, b3, b4, hlt'⟩ := hv b hb
    have r1 := rng _ _ a1 a2
    have r2 := rng _ _ a3 a4
    have r3 := rng _ _ b1 b2
    have r4 := rng _ _ b3 b4
    simp only [st, List.mem_cons, List.not_mem_nil, or_false] at hp hq
    rcases hp with rfl | rfl <;> rcases hq with rfl | rfl <;> dsimp only at h1 h2 ⊢ <;>
      first | (exfalso; omega) | (simp only [key]; rw [h1, h2])
  · intro a ha
    obtain ⟨-, a1, a2, a3, a4, hlt⟩ := hv a ha
    have r1 := rng _ _ a1 a2
    exact mirror_apart (by omega) _ _

theorem par_apart {N : ℕ} {i j : ℤ} (h0 : 0 ≤ i) (h : i < j) (hj : j < N) (f g s : ℤ) :
    ∀ p ∈ [(i.toNat, j.toNat, f, s), (j.toNat, i.toNat, f, -s), ((i + N).toNat, (j + N).toNat, g, s),
      ((j + N).toNat, (i + N).toNat, g, -s)],
    ∀ q ∈ [(i.toNat, j.toNat, f, s), (j.toNat, i.toNat, f, -s), ((i + N).toNat, (j + N).toNat, g, s),
      ((j + N).toNat, (i + N).toNat, g, -s)], p.1 = q.1 → p.2.1 = q.2.1 → p.2.2 = q.2.2 := by
  intro p hp q hq h1 h2
  simp only [List.mem_cons, List.not_mem_nil, or_false] at hp hq
  rcases hp with rfl | rfl | rfl | rfl <;> rcases hq with rfl | rfl | rfl | rfl <;>
    first | rfl | (dsimp only at h1 h2; omega)

/-- C54: a file of parallel orbitals with all pairs of sites gives the pair orbitals of
every pair of orbitals with equal spin; the parameters of the two spins are neighbours
behind those of the antiparallel orbitals. -/
theorem C54_parallel_partial (N cap : ℕ) (c : ℤ) (fidx : ℕ) (APFlag : ℤ) (NArray NArrayAP : ℕ)
    (ents rest : List (List ℤ)) (prs : List (ℤ × ℤ)) (T : OrbT) (opt : Tab) (hN : 1 < N) (hA : NArray ≠ 0)
    (hl : 2 * ents.length = N * (N - 1))
    (hv : ∀ a ∈ ents, a.length = 4 ∧ InLat N (a.getD 0 0) ∧ InLat N (a.getD 1 0) ∧ a.getD 0 0 < a.getD 1 0)
    (hn : (ents.map fun a => (a.getD 0 0, a.getD 1 0)).Nodup)
    (hr : rest.flatten.map some = encOpts prs) (hp : prs.length = NArray)
    (hc : 2 * (fidx + 2 * NArray) ≤ cap) :
    ∃ T', getInfoOrbitalParallel N cap c fidx APFlag NArray NArrayAP (ents ++ rest) T opt =
        .ok (T', parFlags c fidx (prs.map Prod.snd) opt) ∧
      ∀ i j s : ℕ, i < j → j < N → s < 2 → ∃ f sg, [(i : ℤ), (j : ℤ), f, sg] ∈ ents ∧
        T'.idx (i + s * N) (j + s * N) = NArrayAP + 2 * f + s ∧
        T'.sgn (i + s * N) (j + s * N) = if APFlag = 0 then 1 else sg := by
  have h0 : ents ≠ [] := by
    intro h
    rw [h] at hl
    have : 0 < N * (N - 1) := Nat.mul_pos (by omega) (by omega)
    simp at hl
    omega
  let st : List ℤ → List (ℕ × ℕ × ℤ × ℤ) := fun a =>
    [((a.getD 0 0).toNat, (a.getD 1 0).toNat, NArrayAP + 2 * a.getD 2 0 + 0, a.getD 3 0),
     ((a.getD 1 0).toNat, (a.getD 0 0).toNat, NArrayAP + 2 * a.getD 2 0 + 0, -a.getD 3 0),
     ((a.getD 0 0 + N).toNat, (a.getD 1 0 + N).toNat, NArrayAP + 2 * a.getD 2 0 + 1, a.getD 3 0),
     ((a.getD 1 0 + N).toNat, (a.getD 0 0 + N).toNat, NArrayAP + 2 * a.getD 2 0 + 1, -a.getD 3 0)]
  have step : ∀ a ∈ ents, a.length = 4 ∧
      ∀ T, parStep N NArrayAP (a.map some) T = .ok (false, orbSets (st a) T) := by
    intro a ha
    obtain ⟨h4, h1, h2, hlt⟩ := hv a ha
    refine ⟨h4, fun T => ?_⟩
    obtain ⟨i, j, f, s, rfl⟩ := len4 h4
    have hlt' : i < j := hlt
    show (if checkPairSite i j N ≠ 0 then RdOut.err else RdOut.ok (decide (i ≥ j), _)) = _
    rw [if_neg (by rw [not_not]; exact (checkPairSite_iff _ _ _).2 ⟨h1, h2⟩), decide_eq_false (by omega)]
    rfl
  have run := orbReader_enc (sgn := parSgn N) (APFlag := APFlag) (T := T) (opt := opt)
    (flags := fun s => getInfoOptPar cap c fidx s opt 0) (x0 := [none, none, none, some 1])
    (rest := rest) (limit := N * (N - 1)) (inc := 2) (by decide) hA rfl h0 step hl
    (opt' := parFlags c fidx (prs.map Prod.snd) opt)
    (by rw [hr, getInfoOptPar_enc prs _ _ (by omega), Nat.zero_add, hp, Nat.mul_zero, Nat.add_zero])
  refine ⟨_, run, fun i j s hij hj hs => ?_⟩
  let key : List ℤ → (_ : ℕ) × ℕ := fun a => ⟨(a.getD 1 0).toNat, (a.getD 0 0).toNat⟩
  have hkey : (ents.map key).Nodup := by
    refine nodup_key ?_ hn
    intro a ha b hb e
    obtain ⟨-, a1, a2, -⟩ := hv a ha
    obtain ⟨-, b1, b2, -⟩ := hv b hb
    simp only [key, Sigma.mk.injEq, heq_eq_eq] at e
    unfold InLat at a1 a2 b1 b2
    exact Prod.ext (by dsimp only; omega) (by dsimp only; omega)
  obtain ⟨x, hx, e⟩ := keys_cover ((Finset.range N).sigma fun b => Finset.range b) ents key
    (fun a ha => by
      obtain ⟨-, a1, a2, hlt⟩ := hv a ha
      unfold InLat at a1 a2
      rw [Finset.mem_sigma, Finset.mem_range, Finset.mem_range]
      dsimp only [key]
      omega) hkey
    (by rw [card_pairs, ← hl, Nat.mul_div_cancel_left _ (by decide)]) ⟨j, i⟩
    (by rw [Finset.mem_sigma, Finset.mem_range, Finset.mem_range]; exact ⟨hj, hij⟩)
  obtain ⟨p, q, f, sg, rfl⟩ := len4 (hv x hx).1
  obtain ⟨-, a1, a2, hlt⟩ := hv _ hx
  have a1' : InLat N p := a1
  have a2' : InLat N q := a2
  simp only [key, Sigma.mk.injEq, heq_eq_eq] at e
  have e1 : q.toNat = j := e.1
  have e2 : p.toNat = i := e.2
  unfold InLat at a1' a2'
  have e3 : q = (j : ℤ) := by omega
  have e4 : p = (i : ℤ) := by omega
  subst e3 e4
  have val : (orbSets (ents.flatMap st) T).idx (i + s * N) (j + s * N) = NArrayAP + 2 * f + s ∧
      (orbSets (ents.flatMap st) T).sgn (i + s * N) (j + s * N) = sg :=
    sets_keep ents key st hkey ?_ ?_ T _ hx (i + s * N, j + s * N, NArrayAP + 2 * f + s, sg) ?_
  · refine ⟨f, sg, hx, ?_⟩
    split_ifs
    · refine ⟨val.1, ?_⟩
      have : s = 0 ∨ s = 1 := by omega
      unfold parSgn
      dsimp only
      rcases this with rfl | rfl
      · rw [if_pos (by omega)]
      · rw [if_neg (by omega), if_neg (by omega), if_pos (by omega)]
    · exact val
  · intro a ha b hb p hp q hq h1 h2
    obtain ⟨-, a1, a2, hlt⟩ := hv a ha
    obtain ⟨-, b1, b2, hlt'⟩ := hv b hb
    unfold InLat at a1 a2 b1 b2
    have : (a.getD 1 0).toNat = (b.getD 1 0).toNat ∧ (a.getD 0 0).toNat = (b.getD 0 0).toNat := by
      simp only [st, List.mem_cons, List.not_mem_nil, or_false] at hp hq
      rcases hp with rfl | rfl | rfl | rfl <;> rcases hq with rfl | rfl | rfl | rfl <;>
        dsimp only at h1 h2 <;> omega
    simp only [key]
    rw [this.1, this.2]
  · intro a ha
    obtain ⟨-, a1, a2, hlt⟩ := hv a ha
    exact par_apart a1.1 hlt a2.2 _ _ _
  · have c1 : ((i : ℤ) + (N : ℤ)).toNat = i + N := by omega
    have c2 : ((j : ℤ) + (N : ℤ)).toNat = j + N := by omega
    have : s = 0 ∨ s = 1 := by omega
    rcases this with rfl | rfl <;> simp [st, c1, c2]

/-! ## Examples and violations -/

example : ∃ T opt, getInfoOrbitalGeneral 1 2 0 0 1 1 [[0, 0, 0, 1, 0, -1], [0, 1]] OrbT.zero (fun _ => none) =
    .ok (T, opt) ∧ T.idx 0 1 = 0 ∧ T.sgn 0 1 = -1 ∧ T.sgn 1 0 = 1 ∧ opt 0 = some 1 := by
  refine ⟨_, _, rfl, ?_⟩
  decide

example : getInfoOrbitalGeneral 1 2 0 0 1 1 [[0, 1, 0, 0, 0, 1], [0, 1]] OrbT.zero (fun _ => none) = .err := rfl

/-- C54 is violated by the code for parameter numbers: they are not compared with the
number of parameters, so that the Slater matrix is built from other memory. -/
theorem C54_index_violated : ∃ T opt, getInfoOrbitalAntiParallel false 1 2 0 0 1 1 [[0, 0, 9, 1], [0, 1]]
    OrbT.zero (fun _ => none) = .ok (T, opt) ∧ T.idx 0 0 = 9 := by
  refine ⟨_, _, rfl, ?_⟩
  decide

/-- C54 is violated by the code for files that name a pair twice: they are accepted and
another pair gets the first parameter with amplitude zero. -/
theorem C54_twice_violated : ∃ T opt, getInfoOrbitalAntiParallel false 2 4 0 0 1 2
    [[0, 0, 1, 1], [0, 0, 1, 1], [0, 1, 0, 1], [1, 0, 0, 1], [0, 1, 1, 1]] OrbT.zero (fun _ => none) =
    .ok (T, opt) ∧ T.idx 1 1 = 0 ∧ T.sgn 1 1 = 0 := by
  refine ⟨_, _, rfl, ?_⟩
  decide

/-- C54 is violated by the code for spins other than 0 and 1: they are not checked before
they are used as an address. -/
theorem C54_spin_violated : getInfoOrbitalGeneral 1 2 0 0 1 1 [[0, 0, 0, 2, 0, 1], [0, 1]] OrbT.zero
    (fun _ => none) = .ub := rfl

/-- C54 is violated by the code for an incomplete first line: uninitialised variables are
used. -/
theorem C54_short_line_violated : getInfoOrbitalAntiParallel false 1 2 0 0 1 1 [[0], [0, 1]] OrbT.zero
    (fun _ => none) = .ub := rfl

end MVMC
