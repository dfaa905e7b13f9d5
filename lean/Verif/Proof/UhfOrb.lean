import Verif.Proof.UhfOut4

/-! Wrong sites in the orbital files of the Hartree–Fock program. -/
namespace MVMC
open Spec

theorem uhfScan_four {l : List ℤ} (h : l.length = 4 ∨ l.length = 3) (x : List (Option ℤ)) (hx : x.length = 4) :
    ∃ s, uhfScan 4 x l = [some (l.getD 0 0), some (l.getD 1 0), some (l.getD 2 0), some s] := by
  rcases h with h | h
  · rw [uhfScan_full (by decide) h x hx]
    obtain ⟨i, j, f, s, rfl⟩ := len4 h
    exact ⟨s, rfl⟩
  · match x, hx, l, h with
    | [_, _, _, _], _, [i, j, f], _ => exact ⟨1, rfl⟩

/-- once `info` is 1 it stays 1 -/
theorem uhfOrbLoop_one {n inc limit : ℕ} {stop : Bool} {step : List (Option ℤ) → OrbT → RdOut (Bool × OrbT)} (good : List ℤ → Bool)
    (hlen : ∀ x l, x.length = n → (uhfScan n x l).length = n) :
    ∀ (ls : List (List ℤ)) x idx T, x.length = n → (∀ l ∈ ls, ∀ x T, x.length = n → ∃ T', step (uhfScan n x l) T = .ok (good l, T')) →
    ∃ idx' T', uhfOrbLoop n inc limit stop step ls x 1 idx T = .ok (1, idx', T')
  | [], _, idx, T, _, _ => ⟨idx, T, rfl⟩
  | l :: ls, x, idx, T, hx, hs => by
    obtain ⟨T', e⟩ := hs l (by simp) x T hx
    rw [uhfOrbLoop, e]
    cases good l <;> dsimp only <;> split_ifs
    · exact ⟨_, _, rfl⟩
    · exact uhfOrbLoop_one good hlen ls _ _ _ (hlen x l hx) fun l hl => hs l (by simp [hl])
    · exact ⟨_, _, rfl⟩
    · exact uhfOrbLoop_one good hlen ls _ _ _ (hlen x l hx) fun l hl => hs l (by simp [hl])

theorem uhfOrbLoop_info {n inc limit : ℕ} {stop : Bool} {info : ℤ} {step : List (Option ℤ) → OrbT → RdOut (Bool × OrbT)} (good : List ℤ → Bool) (hi : 0 < inc)
    (hlen : ∀ x l, x.length = n → (uhfScan n x l).length = n) :
    ∀ (ls : List (List ℤ)) (m : ℕ) x idx T, x.length = n → (∀ l ∈ ls, ∀ x T, x.length = n → ∃ T', step (uhfScan n x l) T = .ok (good l, T')) →
    0 < m → idx + inc * m = limit →
    ∃ idx' T', uhfOrbLoop n inc limit stop step ls x info idx T = .ok (if (ls.take m).all good then info else 1, idx', T') ∧
      ((ls.take m).all good = true → idx' = idx + inc * min m ls.length) ∧ (stop = true → (ls.take m).all good = false → idx' < limit)
  | [], m, _, idx, T, _, _, _, _ => ⟨idx, T, by simp [uhfOrbLoop], by simp, by simp⟩
  | l :: ls, m + 1, x, idx, T, hx, hs, _, hl => by
    obtain ⟨T', e⟩ := hs l (by simp) x T hx
    rw [uhfOrbLoop, e]
    cases hg : good l
    · dsimp only
      simp only [List.take_succ_cons, List.all_cons, hg, Bool.false_and, Bool.false_eq_true, if_false, false_imp_iff, true_and, forall_const]
      split_ifs with hst
      · refine ⟨_, _, rfl, fun _ => ?_⟩
        have : 0 < inc * (m + 1) := Nat.mul_pos hi (by omega)
        omega
      · obtain ⟨idx', T'', h⟩ := uhfOrbLoop_one (limit := limit) (inc := inc) (stop := stop) good hlen ls _ idx T' (hlen x l hx) fun l hl => hs l (by simp [hl])
        exact ⟨idx', T'', h, fun h => absurd (Or.inl h) hst⟩
    · dsimp only
      simp only [List.take_succ_cons, List.all_cons, hg, Bool.true_and]
      rcases Nat.eq_zero_or_pos m with rfl | hm
      · rw [if_pos (by omega)]
        exact ⟨idx + inc, T', by simp, by simp, by simp⟩
      · have : inc ≤ inc * m := Nat.le_mul_of_pos_right _ hm
        rw [if_neg (by rw [Nat.mul_succ] at hl; omega)]
        obtain ⟨idx', T'', h1, h2, h3⟩ := uhfOrbLoop_info (info := info) (stop := stop) (limit := limit) good hi hlen ls m _ (idx + inc) T' (hlen x l hx)
          (fun l hl => hs l (by simp [hl])) hm (by rw [Nat.mul_succ] at hl; omega)
        refine ⟨idx', T'', h1, fun h => ?_, h3⟩
        rw [h2 h, List.length_cons, Nat.add_min_add_right, Nat.mul_add]
        omega

theorem uhfScan_length4 (x : List (Option ℤ)) (l : List ℤ) (hx : x.length = 4) : (uhfScan 4 x l).length = 4 := by
  match x, hx with
  | [_, _, _, _], _ => match l with
    | [] => rfl
    | [_] => rfl
    | [_, _] => rfl
    | [_, _, _] => rfl
    | _ :: _ :: _ :: _ :: _ => simp [uhfScan, scanO]

end MVMC
