import Verif.Proof.UhfOut3
import Verif.Props.ReadOrb

/-! The orbital files as read by the Hartree–Fock program. -/
namespace MVMC
open MVMC.Spec

theorem uhfScan_full {n : ℕ} {a : List ℤ} (hn : 0 < n) (h : a.length = n) (x : List (Option ℤ)) (hx : x.length = n) :
    uhfScan n x a = a.map some := by
  unfold uhfScan
  rw [if_neg (by rw [List.length_take]; omega), scanO_full h x hx]

theorem uhfOrbLoop_enc {n inc limit : ℕ} {stop : Bool} {info : ℤ} {step : List (Option ℤ) → OrbT → RdOut (Bool × OrbT)}
    {st : List ℤ → List (ℕ × ℕ × ℤ × ℤ)} (hn : 0 < n) (hi : 0 < inc) (rest : List (List ℤ)) :
    ∀ (ents : List (List ℤ)) x idx T, x.length = n → ents ≠ [] →
    (∀ a ∈ ents, a.length = n ∧ ∀ T, step (a.map some) T = .ok (true, orbSets (st a) T)) →
    idx + inc * ents.length = limit →
    uhfOrbLoop n inc limit stop step (ents ++ rest) x info idx T = .ok (info, limit, orbSets (ents.flatMap st) T)
  | [], _, _, _, _, h, _, _ => absurd rfl h
  | a :: ents, x, idx, T, hx, _, hv, hl => by
    obtain ⟨h1, h2⟩ := hv a (by simp)
    rw [List.cons_append, uhfOrbLoop, uhfScan_full hn h1 x hx, h2]
    dsimp only
    by_cases he : ents = []
    · subst he
      rw [if_pos (by simpa using hl)]
      have e : idx + inc = limit := by simpa using hl
      rw [e]
      simp
    · have hpos : 0 < ents.length := List.length_pos_iff.2 he
      have : idx + inc ≠ limit := by
        rw [← hl, List.length_cons]
        have : inc ≤ inc * ents.length := Nat.le_mul_of_pos_right _ hpos
        rw [Nat.mul_succ]
        omega
      rw [if_neg this, uhfOrbLoop_enc hn hi rest ents _ _ _ (by rw [List.length_map, h1]) he
        (fun b hb => hv b (by simp [hb])) (by rw [← hl, List.length_cons]; ring)]
      rw [List.flatMap_cons, orbSets_append]

section
variable {N : ℕ} {ents rest : List (List ℤ)} {T : OrbT} {info : ℤ}

theorem uhf_ap_read (hN : 0 < N) (hl : ents.length = N * N)
    (hv : ∀ a ∈ ents, a.length = 4 ∧ InLat N (a.getD 0 0) ∧ InLat N (a.getD 1 0))
    (hn : (ents.map fun a => (a.getD 0 0, a.getD 1 0)).Nodup) :
    ∃ T', uhfReadAP false N (ents ++ rest) info T = .ok (info, T') ∧
      ∀ i j : ℕ, ∀ f s : ℤ, [(i : ℤ), (j : ℤ), f, s] ∈ ents → T'.idx i (j + N) = f ∧ T'.sgn i (j + N) = s := by
  have h0 : ents ≠ [] := by
    intro h
    rw [h] at hl
    have := Nat.mul_pos hN hN
    simp at hl
    omega
  let st : List ℤ → List (ℕ × ℕ × ℤ × ℤ) := fun a =>
    [((a.getD 0 0 + N * 0).toNat, (a.getD 1 0 + N * 1).toNat, a.getD 2 0, a.getD 3 0)]
  have step : ∀ a ∈ ents, a.length = 4 ∧ ∀ T, uhfApStep N (a.map some) T = .ok (true, orbSets (st a) T) := by
    intro a ha
    obtain ⟨h4, h1, h2⟩ := hv a ha
    refine ⟨h4, fun T => ?_⟩
    obtain ⟨i, j, f, s, rfl⟩ := len4 h4
    have h1' : InLat N i := h1
    have h2' : InLat N j := h2
    have hc : ¬ (checkPairSite i j N ≠ 0) := by rw [not_not]; exact (checkPairSite_iff _ _ _).2 ⟨h1, h2⟩
    unfold InLat at h1' h2'
    simp only [uhfApStep, List.map_cons, List.map_nil]
    rw [if_neg (by omega), decide_eq_true (not_not.mp hc)]
    rfl
  have run := uhfOrbLoop_enc (n := 4) (stop := true) (info := info) (by decide) (by decide) rest ents [none, none, none, none] 0 T rfl h0 step
    (show 0 + 1 * ents.length = N * N by omega)
  refine ⟨orbSets (ents.flatMap st) T, ?_, ?_⟩
  · unfold uhfReadAP
    simp only [Bool.false_eq_true, if_false]
    rw [run]
    simp
  · intro i j f s ha
    obtain ⟨-, h1, h2⟩ := hv _ ha
    refine sets_keep ents (fun a => (a.getD 0 0, a.getD 1 0)) st hn ?_ ?_ T _ ha (i, j + N, f, s) ?_
    · intro a ha b hb p hp q hq e1 e2
      obtain ⟨-, a1, a2⟩ := hv a ha
      obtain ⟨-, b1, b2⟩ := hv b hb
      simp only [st, List.mem_singleton] at hp hq
      subst hp hq
      dsimp only at e1 e2 ⊢
      unfold InLat at a1 a2 b1 b2
      exact Prod.ext (by dsimp only; omega) (by dsimp only; omega)
    · intro a _ p hp q hq _ _
      simp only [st, List.mem_singleton] at hp hq
      rw [hp, hq]
    · have : ((j : ℤ) + (N : ℤ)).toNat = j + N := by omega
      simp [st, this]

theorem uhf_apGen_read (hN : 0 < N) (hl : ents.length = N * N)
    (hv : ∀ a ∈ ents, a.length = 4 ∧ InLat N (a.getD 0 0) ∧ InLat N (a.getD 1 0))
    (hn : (ents.map fun a => (a.getD 0 0, a.getD 1 0)).Nodup) :
    ∃ T', uhfReadAP true N (ents ++ rest) info T = .ok (info, T') ∧
      (∀ i j : ℕ, ∀ f s : ℤ, [(i : ℤ), (j : ℤ), f, s] ∈ ents → T'.idx i (j + N) = f ∧ T'.sgn i (j + N) = s) ∧
      ∀ a b : ℕ, ((a < N ∧ b < N) ∨ (N ≤ a ∧ N ≤ b)) → T'.idx a b = T.idx a b ∧ T'.sgn a b = T.sgn a b := by
  have h0 : ents ≠ [] := by
    intro h
    rw [h] at hl
    have := Nat.mul_pos hN hN
    simp at hl
    omega
  let st : List ℤ → List (ℕ × ℕ × ℤ × ℤ) := fun a =>
    [((a.getD 0 0 + 0 * (N : ℤ)).toNat, (a.getD 1 0 + 1 * (N : ℤ)).toNat, a.getD 2 0, a.getD 3 0),
     ((a.getD 1 0 + 1 * (N : ℤ)).toNat, (a.getD 0 0 + 0 * (N : ℤ)).toNat, a.getD 2 0, -a.getD 3 0)]
  have step : ∀ a ∈ ents, a.length = 4 ∧ ∀ T, uhfApGenStep N (a.map some) T = .ok (true, orbSets (st a) T) := by
    intro a ha
    obtain ⟨h4, h1, h2⟩ := hv a ha
    refine ⟨h4, fun T => ?_⟩
    obtain ⟨i, j, f, s, rfl⟩ := len4 h4
    show (if checkPairSite i j N ≠ 0 then RdOut.ok (false, T) else _) = _
    rw [if_neg (by rw [not_not]; exact (checkPairSite_iff _ _ _).2 ⟨h1, h2⟩)]
    rfl
  have run := uhfOrbLoop_enc (n := 4) (stop := true) (info := info) (by decide) (by decide) rest ents [none, none, none, none] 0 T rfl h0 step
    (show 0 + 1 * ents.length = N * N by omega)
  refine ⟨orbSets (ents.flatMap st) T, ?_, ?_, ?_⟩
  · unfold uhfReadAP
    simp only [if_true]
    rw [run]
    simp
  · intro i j f s ha
    obtain ⟨-, h1, h2⟩ := hv _ ha
    refine sets_keep ents (fun a => (a.getD 0 0, a.getD 1 0)) st hn ?_ ?_ T _ ha (i, j + N, f, s) ?_
    · intro a ha b hb p hp q hq e1 e2
      obtain ⟨-, a1, a2⟩ := hv a ha
      obtain ⟨-, b1, b2⟩ := hv b hb
      unfold InLat at a1 a2 b1 b2
      simp only [st, List.mem_cons, List.not_mem_nil, or_false] at hp hq
      rcases hp with rfl | rfl <;> rcases hq with rfl | rfl <;> dsimp only at e1 e2 ⊢ <;>
        exact Prod.ext (by dsimp only; omega) (by dsimp only; omega)
    · intro a ha
      obtain ⟨-, a1, a2⟩ := hv a ha
      unfold InLat at a1 a2
      exact mirror_apart (by omega) _ _
    · have : ((j : ℤ) + (N : ℤ)).toNat = j + N := by omega
      simp [st, this]
  · intro a b hab
    apply orbSets_notin
    intro e he
    obtain ⟨x, hx, he⟩ := List.mem_flatMap.mp he
    obtain ⟨-, a1, a2⟩ := hv x hx
    unfold InLat at a1 a2
    simp only [st, List.mem_cons, List.not_mem_nil, or_false] at he
    rcases he with rfl | rfl <;> dsimp only <;> omega

theorem uhf_par_read (nAP : ℕ) (hN : 1 < N) (hl : 2 * ents.length = N * (N - 1))
    (hv : ∀ a ∈ ents, a.length = 4 ∧ InLat N (a.getD 0 0) ∧ InLat N (a.getD 1 0) ∧ a.getD 0 0 < a.getD 1 0)
    (hn : (ents.map fun a => (a.getD 0 0, a.getD 1 0)).Nodup) :
    ∃ T', uhfReadP N nAP (ents ++ rest) info T = .ok (info, T') ∧
      (∀ i j s : ℕ, ∀ f sg : ℤ, s < 2 → [(i : ℤ), (j : ℤ), f, sg] ∈ ents →
        T'.idx (i + s * N) (j + s * N) = nAP + 2 * f + s ∧ T'.sgn (i + s * N) (j + s * N) = sg) ∧
      ∀ a b : ℕ, ((a < N ∧ N ≤ b) ∨ (N ≤ a ∧ b < N)) → T'.idx a b = T.idx a b ∧ T'.sgn a b = T.sgn a b := by
  have h0 : ents ≠ [] := by
    intro h
    rw [h] at hl
    have : 0 < N * (N - 1) := Nat.mul_pos (by omega) (by omega)
    simp at hl
    omega
  let st : List ℤ → List (ℕ × ℕ × ℤ × ℤ) := fun a =>
    [((a.getD 0 0).toNat, (a.getD 1 0).toNat, nAP + 2 * a.getD 2 0 + 0, a.getD 3 0),
     ((a.getD 1 0).toNat, (a.getD 0 0).toNat, nAP + 2 * a.getD 2 0 + 0, -a.getD 3 0),
     ((a.getD 0 0 + N).toNat, (a.getD 1 0 + N).toNat, nAP + 2 * a.getD 2 0 + 1, a.getD 3 0),
     ((a.getD 1 0 + N).toNat, (a.getD 0 0 + N).toNat, nAP + 2 * a.getD 2 0 + 1, -a.getD 3 0)]
  have step : ∀ a ∈ ents, a.length = 4 ∧ ∀ T, uhfParStep N nAP (a.map some) T = .ok (true, orbSets (st a) T) := by
    intro a ha
    obtain ⟨h4, h1, h2, hlt⟩ := hv a ha
    refine ⟨h4, fun T => ?_⟩
    obtain ⟨i, j, f, s, rfl⟩ := len4 h4
    show (if checkPairSite i j N ≠ 0 then RdOut.ok (false, T) else RdOut.ok _) = _
    rw [if_neg (by rw [not_not]; exact (checkPairSite_iff _ _ _).2 ⟨h1, h2⟩)]
    rw [Int.zero_mul, Int.one_mul, Int.add_zero, Int.add_zero j]
    rfl
  have run := uhfOrbLoop_enc (n := 4) (stop := false) (info := info) (by decide) (by decide) rest ents [none, none, none, none] 0 T rfl h0 step
    (show 0 + 2 * ents.length = N * (N - 1) by omega)
  let key : List ℤ → (_ : ℕ) × ℕ := fun a => ⟨(a.getD 1 0).toNat, (a.getD 0 0).toNat⟩
  have hkey : (ents.map key).Nodup := by
    refine nodup_key ?_ hn
    intro a ha b hb e
    obtain ⟨-, a1, a2, -⟩ := hv a ha
    obtain ⟨-, b1, b2, -⟩ := hv b hb
    simp only [key, Sigma.mk.injEq, heq_eq_eq] at e
    unfold InLat at a1 a2 b1 b2
    exact Prod.ext (by dsimp only; omega) (by dsimp only; omega)
  refine ⟨orbSets (ents.flatMap st) T, ?_, ?_, ?_⟩
  · unfold uhfReadP
    rw [run]
  · intro i j s f sg hs ha
    refine sets_keep ents key st hkey ?_ ?_ T _ ha (i + s * N, j + s * N, nAP + 2 * f + s, sg) ?_
    · intro a ha b hb p hp q hq h1 h2
      obtain ⟨-, a1, a2, hlt⟩ := hv a ha
      obtain ⟨-, b1, b2, hlt'⟩ := hv b hb
      unfold InLat at a1 a2 b1 b2
      have : (a.getD 1 0).toNat = (b.getD 1 0).toNat ∧ (a.getD 0 0).toNat = (b.getD 0 0).toNat := by
        simp only [st, List.mem_cons, List.not_mem_nil, or_false] at hp hq
        rcases hp with rfl | rfl | rfl | rfl <;> rcases hq with rfl | rfl | rfl | rfl <;>
          dsimp only at h1 h2 <;> omega
      simp only [key]
      rw [this.1, this.2]
    · intro a ha
      obtain ⟨-, a1, a2, hlt⟩ := hv a ha
      exact par_apart a1.1 hlt a2.2 _ _ _
    · have c1 : ((i : ℤ) + (N : ℤ)).toNat = i + N := by omega
      have c2 : ((j : ℤ) + (N : ℤ)).toNat = j + N := by omega
      have : s = 0 ∨ s = 1 := by omega
      rcases this with rfl | rfl <;> simp [st, c1, c2]
  · intro a b hab
    apply orbSets_notin
    intro e he
    obtain ⟨x, hx, he⟩ := List.mem_flatMap.mp he
    obtain ⟨-, a1, a2, -⟩ := hv x hx
    unfold InLat at a1 a2
    simp only [st, List.mem_cons, List.not_mem_nil, or_false] at he
    rcases he with rfl | rfl | rfl | rfl <;> dsimp only <;> omega

theorem uhf_gen_read (nIdx : ℕ) (hA : nIdx ≠ 0) (hN : 0 < N) (hl : ents.length = 2 * N * N - N)
    (hv : ∀ a ∈ ents, a.length = 6 ∧ InLat N (a.getD 0 0) ∧ InLat 2 (a.getD 1 0) ∧ InLat N (a.getD 2 0) ∧
      InLat 2 (a.getD 3 0) ∧ a.getD 0 0 + a.getD 1 0 * N < a.getD 2 0 + a.getD 3 0 * N)
    (hn : (ents.map fun a => (a.getD 0 0, a.getD 1 0, a.getD 2 0, a.getD 3 0)).Nodup) :
    ∃ T', uhfReadG N nIdx (ents ++ rest) info T = .ok (info, T') ∧
      (∀ a b : ℕ, ∀ i si j sj f s : ℤ, [i, si, j, sj, f, s] ∈ ents → i + si * N = a → j + sj * N = b →
        T'.idx a b = f ∧ T'.sgn a b = s) ∧
      ∀ a b : ℕ, b ≤ a → T'.idx a b = T.idx a b ∧ T'.sgn a b = T.sgn a b := by
  have hNN : N * (2 * N - 1) = 2 * N * N - N := by rw [Nat.mul_sub, Nat.mul_one, Nat.mul_left_comm, Nat.mul_assoc]
  have h0 : ents ≠ [] := by
    intro h
    rw [h, ← hNN] at hl
    have : 0 < N * (2 * N - 1) := Nat.mul_pos hN (by omega)
    simp at hl
    omega
  let st : List ℤ → List (ℕ × ℕ × ℤ × ℤ) := fun a =>
    [((a.getD 0 0 + N * a.getD 1 0).toNat, (a.getD 2 0 + N * a.getD 3 0).toNat, a.getD 4 0, a.getD 5 0)]
  have rng : ∀ i s : ℤ, InLat N i → InLat 2 s → 0 ≤ i + N * s ∧ i + N * s < 2 * N := by
    intro i s hi hs
    unfold InLat at hi hs
    have : s = 0 ∨ s = 1 := by omega
    rcases this with rfl | rfl <;> omega
  have step : ∀ a ∈ ents, a.length = 6 ∧ ∀ T, uhfGenStep N (a.map some) T = .ok (true, orbSets (st a) T) := by
    intro a ha
    obtain ⟨h4, h1, h2, h3, h5, hlt⟩ := hv a ha
    refine ⟨h4, fun T => ?_⟩
    obtain ⟨i, si, j, sj, f, s, rfl⟩ := len6 h4
    have r1 := rng i si h1 h2
    have r2 := rng j sj h3 h5
    simp only [uhfGenStep, List.map_cons, List.map_nil]
    rw [if_neg (by omega)]
    rfl
  have run := uhfOrbLoop_enc (n := 6) (stop := false) (info := info) (by decide) (by decide) rest ents [none, none, none, none, none, none] 0 T rfl h0 step
    (show 0 + 1 * ents.length = N * (2 * N - 1) by omega)
  let key : List ℤ → (_ : ℕ) × ℕ := fun a => ⟨(a.getD 2 0 + N * a.getD 3 0).toNat, (a.getD 0 0 + N * a.getD 1 0).toNat⟩
  have hkey : (ents.map key).Nodup := by
    refine nodup_key ?_ hn
    intro a ha b hb e
    obtain ⟨-, a1, a2, a3, a4, -⟩ := hv a ha
    obtain ⟨-, b1, b2, b3, b4, -⟩ := hv b hb
    simp only [key, Sigma.mk.injEq, heq_eq_eq] at e
    have e1 := e.1
    have e2 := e.2
    rw [mul_comm (N : ℤ), mul_comm (N : ℤ)] at e1 e2
    obtain ⟨x1, x2⟩ := spinSite a3 a4 b3 b4 e1
    obtain ⟨x3, x4⟩ := spinSite a1 a2 b1 b2 e2
    rw [x1, x2, x3, x4]
  refine ⟨orbSets (ents.flatMap st) T, ?_, ?_, ?_⟩
  · unfold uhfReadG
    rw [if_neg hA, run]
    simp
  · intro a b i si j sj f s ha e1 e2
    have c1 : (i + N * si).toNat = a := by rw [mul_comm]; omega
    have c2 : (j + N * sj).toNat = b := by rw [mul_comm]; omega
    refine sets_keep ents key st hkey ?_ ?_ T _ ha (a, b, f, s) (by simp [st, c1, c2])
    · intro a _ b _ p hp q hq h1 h2
      simp only [st, List.mem_singleton] at hp hq
      subst hp hq
      simp only [key]
      dsimp only at h1 h2
      rw [h1, h2]
    · intro a _ p hp q hq _ _
      simp only [st, List.mem_singleton] at hp hq
      rw [hp, hq]
  · intro a b hab
    apply orbSets_notin
    intro e he
    obtain ⟨x, hx, he⟩ := List.mem_flatMap.mp he
    obtain ⟨-, a1, a2, a3, a4, hlt⟩ := hv x hx
    have r1 := rng _ _ a1 a2
    have r2 := rng _ _ a3 a4
    rw [mul_comm, mul_comm (a := x.getD 3 0)] at hlt
    simp only [st, List.mem_singleton] at he
    subst he
    dsimp only
    omega

end

end MVMC
