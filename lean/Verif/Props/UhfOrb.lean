import Verif.Proof.UhfOrb

/-!
# C81: wrong sites in the orbital files of the Hartree–Fock program
-/
namespace MVMC
open Spec

open Classical in
/-- C81: if the orbitals are stored for all spins, a wrong site among the lines of an antiparallel file that are needed sets `info`, and nothing else does; the tables are within bounds. -/
theorem C81_orbital_sites_ap {N : ℕ} (hN : 0 < N) (ls : List (List ℤ)) (hl : ∀ l ∈ ls, l.length = 4 ∨ l.length = 3) (info : ℤ) (T : OrbT) :
    ∃ T', uhfReadAP true N ls info T = .ok (if ∀ l ∈ ls.take (N * N), InLat N (l.getD 0 0) ∧ InLat N (l.getD 1 0) then info else 1, T') := by
  obtain ⟨idx', T', h, _⟩ := uhfOrbLoop_info (n := 4) (inc := 1) (limit := N * N) (stop := true) (info := info) (step := uhfApGenStep N)
    (fun l => decide (checkPairSite (l.getD 0 0) (l.getD 1 0) N = 0)) (by decide) uhfScan_length4 ls (N * N) [none, none, none, none] 0 T rfl
    (by
      intro l h x T hx
      obtain ⟨s, e⟩ := uhfScan_four (hl l h) x hx
      rw [e]
      by_cases c : checkPairSite (l.getD 0 0) (l.getD 1 0) N = 0
      · exact ⟨_, by rw [uhfApGenStep, if_neg (not_not.mpr c), decide_eq_true c]⟩
      · exact ⟨_, by rw [uhfApGenStep, if_pos c, decide_eq_false c]⟩)
    (Nat.mul_pos hN hN) (by omega)
  refine ⟨T', ?_⟩
  simp only [uhfReadAP, if_true, h, Bool.not_true, Bool.false_and, Bool.false_eq_true, if_false, List.all_eq_true, decide_eq_true_eq, checkPairSite_iff]

example : ∃ T, uhfReadAP true 1 [[0, 0, 0, 1], [5, 0, 0, 1]] 0 (uhfOrbInit true 1) = .ok (0, T) := ⟨_, rfl⟩
example : ∃ T, uhfReadAP true 2 [[0, 0, 0, 1], [5, 0, 0, 1]] 0 (uhfOrbInit true 2) = .ok (1, T) := ⟨_, rfl⟩

open Classical in
/-- C81: the same for a parallel file; lines with wrong sites are skipped. -/
theorem C81_orbital_sites_p {N : ℕ} (hN : 2 ≤ N) (nAP : ℕ) (ls : List (List ℤ)) (hl : ∀ l ∈ ls, l.length = 4 ∨ l.length = 3) (info : ℤ) (T : OrbT) :
    ∃ T', uhfReadP N nAP ls info T = .ok (if ∀ l ∈ ls.take (N * (N - 1) / 2), InLat N (l.getD 0 0) ∧ InLat N (l.getD 1 0) then info else 1, T') := by
  have he : 2 ∣ N * (N - 1) := (Nat.even_mul_pred_self N).two_dvd
  have hp : 0 < N * (N - 1) := Nat.mul_pos (by omega) (by omega)
  obtain ⟨idx', T', h, _⟩ := uhfOrbLoop_info (n := 4) (inc := 2) (limit := N * (N - 1)) (stop := false) (info := info) (step := uhfParStep N nAP)
    (fun l => decide (checkPairSite (l.getD 0 0) (l.getD 1 0) N = 0)) (by decide) uhfScan_length4 ls (N * (N - 1) / 2) [none, none, none, none] 0 T rfl
    (by
      intro l h x T hx
      obtain ⟨s, e⟩ := uhfScan_four (hl l h) x hx
      rw [e]
      by_cases c : checkPairSite (l.getD 0 0) (l.getD 1 0) N = 0
      · exact ⟨_, by rw [uhfParStep, if_neg (not_not.mpr c), decide_eq_true c]⟩
      · exact ⟨_, by rw [uhfParStep, if_pos c, decide_eq_false c]⟩)
    (by omega) (by omega)
  refine ⟨T', ?_⟩
  simp only [uhfReadP, h, List.all_eq_true, decide_eq_true_eq, checkPairSite_iff]
  split_ifs <;> rfl

example : ∃ T, uhfReadP 2 4 [[0, 1, 0, 1], [2, 0, 0, 1]] 0 (uhfOrbInit true 2) = .ok (0, T) := ⟨_, rfl⟩
example : ∃ T, uhfReadP 2 4 [[2, 0, 0, 1], [0, 1, 0, 1]] 0 (uhfOrbInit true 2) = .ok (1, T) := ⟨_, rfl⟩

open Classical in
/-- C81 is violated by the code for an antiparallel file of the other mode: as long as nothing is written outside the tables, `info` is kept for a complete file with right sites and cleared
for every other file, whatever is wrong with it. -/
theorem C81_orbital_short_violated {N : ℕ} (hN : 0 < N) (ls : List (List ℤ))
    (hl : ∀ l ∈ ls, (l.length = 4 ∨ l.length = 3) ∧ (0 ≤ l.getD 0 0 ∧ l.getD 0 0 < 2 * N) ∧ -N ≤ l.getD 1 0 ∧ l.getD 1 0 < N) (info : ℤ) (T : OrbT) :
    ∃ T', uhfReadAP false N ls info T =
      .ok (if N * N ≤ ls.length ∧ ∀ l ∈ ls.take (N * N), InLat N (l.getD 0 0) ∧ InLat N (l.getD 1 0) then info else 0, T') := by
  have hs : ∀ l ∈ ls, ∀ x T, x.length = 4 → ∃ T', uhfApStep N (uhfScan 4 x l) T = .ok (decide (checkPairSite (l.getD 0 0) (l.getD 1 0) N = 0), T') := by
    intro l h x T hx
    obtain ⟨h3, h4, h5⟩ := hl l h
    obtain ⟨s, e⟩ := uhfScan_four h3 x hx
    rw [e]
    simp only [uhfApStep]
    rw [if_neg (by omega)]
    exact ⟨_, rfl⟩
  obtain ⟨idx', T', h, h'⟩ := uhfOrbLoop_info (n := 4) (inc := 1) (limit := N * N) (stop := true) (info := info) (step := uhfApStep N)
    (fun l => decide (checkPairSite (l.getD 0 0) (l.getD 1 0) N = 0)) (by decide) uhfScan_length4 ls (N * N) [none, none, none, none] 0 T rfl hs
    (Nat.mul_pos hN hN) (by omega)
  refine ⟨T', ?_⟩
  simp only [uhfReadAP, Bool.false_eq_true, if_false, h, Bool.not_false, Bool.true_and, decide_eq_true_eq]
  by_cases c : ∀ l ∈ ls.take (N * N), InLat N (l.getD 0 0) ∧ InLat N (l.getD 1 0)
  · have c' : ((ls.take (N * N)).all fun l => decide (checkPairSite (l.getD 0 0) (l.getD 1 0) N = 0)) = true := by
      simpa only [List.all_eq_true, decide_eq_true_eq, checkPairSite_iff] using c
    have e := h'.1 c'
    rw [c', if_pos rfl]
    by_cases d : N * N ≤ ls.length
    · rw [if_neg (by rw [not_not, e, Nat.min_eq_left d]; omega), if_pos ⟨d, c⟩]
    · rw [if_pos (by rw [e, Nat.min_eq_right (by omega)]; omega), if_neg (fun h => d h.1)]
      rfl
  · have c' : ((ls.take (N * N)).all fun l => decide (checkPairSite (l.getD 0 0) (l.getD 1 0) N = 0)) = false := by
      rw [Bool.eq_false_iff]
      intro h
      exact c (by simpa only [List.all_eq_true, decide_eq_true_eq, checkPairSite_iff] using h)
    have e := h'.2 rfl c'
    rw [if_pos (by omega), if_neg (fun h => c h.2)]
    rfl

end MVMC
