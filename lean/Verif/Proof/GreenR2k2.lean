import Verif.Proof.GreenR2k
import Mathlib.Algebra.Module.LinearMap.Defs

/-! # Proofs about the Fourier tool: the correlations in real space -/
namespace MVMC
open Spec Matrix

theorem r2kVal_last {P : List ℕ → Prop} {ls : List (List ℕ)} {n : ℕ} (h : IsLastLine P ls n) (f : List ℕ → ℂ) (v : ℂ)
    (hex : ∃ l ∈ ls, P l) (hu : ∀ l ∈ ls, P l → f l = v) : r2kVal (ls.map f) n = v := by
  rcases h with ⟨_, h⟩ | ⟨m, rfl, ⟨l, hl, hp⟩, _⟩
  · obtain ⟨l, hl, hp⟩ := hex
    exact absurd hp (h l hl)
  · rw [r2kVal, if_neg (by omega), Nat.add_sub_cancel, List.getD_eq_getElem?_getD, List.getElem?_map, hl]
    exact hu l (List.mem_of_getElem? hl) hp

theorem r2kWanted_left (mvmc : Bool) (a b k : ℕ) (hk : 1 ≤ k ∧ k ≤ 8) : (r2kWanted mvmc a b k).getD (2 * 0) 0 = a := by
  have : k = 1 ∨ k = 2 ∨ k = 3 ∨ k = 4 ∨ k = 5 ∨ k = 6 ∨ k = 7 ∨ k = 8 := by omega
  rcases this with rfl | rfl | rfl | rfl | rfl | rfl | rfl | rfl <;> cases mvmc <;> rfl

theorem r2kWanted_right1 (mvmc : Bool) (a b k : ℕ) (hk : k = 1 ∨ k = 2) : (r2kWanted mvmc a b k).getD (2 * 1) 0 = b := by
  rcases hk with rfl | rfl <;> rfl

theorem r2kWanted_right2 (mvmc : Bool) (a b k : ℕ) (hk : 3 ≤ k ∧ k ≤ 8) : (r2kWanted mvmc a b k).getD (2 * 2) 0 = b := by
  have : k = 3 ∨ k = 4 ∨ k = 5 ∨ k = 6 ∨ k = 7 ∨ k = 8 := by omega
  rcases this with rfl | rfl | rfl | rfl | rfl | rfl <;> cases mvmc <;> rfl

variable {N ir0 : ℕ} {G : R2kGeo} {mvmc : Bool} {one two : List (List ℕ)}

theorem r2k_value1 (hG : R2kGood N ir0 G.rindx G.orb G.zero) (hF : R2kFiles N ir0 G.rindx mvmc one two) (f : List ℕ → ℂ) {a b : ℕ} (ha : a < N) (hb : b < N)
    (h0 : G.rindx a = ir0) {k : ℕ} (hk : k = 1 ∨ k = 2) :
    r2kVal (one.map f) (r2kTable G mvmc one two (G.rindx b) k (G.orb a) (G.orb b)) = f (r2kWanted mvmc a b k) := by
  refine r2kVal_last (r2kTable_one G mvmc one two _ k _ _ hk) f _ ⟨_, hF.one_all a ha h0 b hb k hk, a, b, rfl, (hG.zero a ha).mpr h0, rfl, rfl, rfl⟩ ?_
  rintro l hl ⟨a', b', rfl, hz, e1, e2, e3⟩
  have ha' := hF.one_in _ hl 0
  have hb' := hF.one_in _ hl 1
  rw [r2kWanted_left mvmc _ _ k (by omega)] at ha'
  rw [r2kWanted_right1 mvmc _ _ k hk] at hb'
  rw [hG.inj a' ha' a ha (by rw [h0]; exact (hG.zero a' ha').mp hz) e2.symm, hG.inj b' hb' b hb e1.symm e3.symm]

theorem r2k_value2 (hG : R2kGood N ir0 G.rindx G.orb G.zero) (hF : R2kFiles N ir0 G.rindx mvmc one two) (f : List ℕ → ℂ) {a b : ℕ} (ha : a < N) (hb : b < N)
    (h0 : G.rindx a = ir0) {k : ℕ} (hk : 3 ≤ k ∧ k ≤ 8) :
    r2kVal (two.map f) (r2kTable G mvmc one two (G.rindx b) k (G.orb a) (G.orb b)) = f (r2kWanted mvmc a b k) := by
  refine r2kVal_last (r2kTable_two G mvmc one two _ k _ _ hk) f _ ⟨_, hF.two_all a ha h0 b hb k hk.1 hk.2, a, b, rfl, (hG.zero a ha).mpr h0, rfl, rfl, rfl⟩ ?_
  rintro l hl ⟨a', b', rfl, hz, e1, e2, e3⟩
  have ha' := hF.two_in _ hl 0
  have hb' := hF.two_in _ hl 2
  rw [r2kWanted_left mvmc _ _ k (by omega)] at ha'
  rw [r2kWanted_right2 mvmc _ _ k hk] at hb'
  rw [hG.inj a' ha' a ha (by rw [h0]; exact (hG.zero a' ha').mp hz) e2.symm, hG.inj b' hb' b hb e1.symm e3.symm]

/-- the value of a line for a linear expectation value -/
noncomputable def r2kFile (N : ℕ) (E : Matrix (Conf (2 * N)) (Conf (2 * N)) ℂ →ₗ[ℂ] ℂ) (l : List ℕ) : ℂ := E (prodMat (2 * N) (lineOps N l))

variable (E : Matrix (Conf (2 * N)) (Conf (2 * N)) ℂ →ₗ[ℂ] ℂ)

theorem r2k_cor1 (hG : R2kGood N ir0 G.rindx G.orb G.zero) (hF : R2kFiles N ir0 G.rindx mvmc one two) {a b : ℕ} (ha : a < N) (hb : b < N) (h0 : G.rindx a = ir0)
    (c2 : List ℂ) : r2kCor (r2kTable G mvmc one two) mvmc (one.map (r2kFile N E)) c2 ir0 (G.rindx b) 1 (G.orb a) (G.orb b) = E (prodMat (2 * N) [.cr a, .an b]) := by
  rw [r2kCor, if_neg (by decide), if_neg (by decide), if_neg (by decide), if_neg (by decide), r2kCor1, r2k_value1 hG hF _ ha hb h0 (Or.inl rfl)]
  simp [r2kFile, r2kWanted, lineOps]

theorem r2k_cor2 (hG : R2kGood N ir0 G.rindx G.orb G.zero) (hF : R2kFiles N ir0 G.rindx mvmc one two) {a b : ℕ} (ha : a < N) (hb : b < N) (h0 : G.rindx a = ir0)
    (c2 : List ℂ) : r2kCor (r2kTable G mvmc one two) mvmc (one.map (r2kFile N E)) c2 ir0 (G.rindx b) 2 (G.orb a) (G.orb b) = E (prodMat (2 * N) [.cr (a + N), .an (b + N)]) := by
  rw [r2kCor, if_neg (by decide), if_neg (by decide), if_neg (by decide), if_neg (by decide), r2kCor1, r2k_value1 hG hF _ ha hb h0 (Or.inr rfl)]
  simp [r2kFile, r2kWanted, lineOps]

theorem r2k_num (x y : ℕ) : prodMat (2 * N) [.cr x, .an x, .cr y, .an y] = prodMat (2 * N) (numOp x) * prodMat (2 * N) (numOp y) := prodMat_append (2 * N) (numOp x) (numOp y)

theorem r2k_pair (p q r s : Op) : prodMat (2 * N) [p, q, r, s] = prodMat (2 * N) [p, q] * prodMat (2 * N) [r, s] := prodMat_append (2 * N) [p, q] [r, s]

theorem r2k_cor3 (hG : R2kGood N ir0 G.rindx G.orb G.zero) (hF : R2kFiles N ir0 G.rindx mvmc one two) {a b b0 : ℕ} (ha : a < N) (hb : b < N) (hb0 : b0 < N)
    (h0 : G.rindx a = ir0) (h1 : G.rindx b0 = ir0) (ho : G.orb b0 = G.orb b) :
    r2kCor (r2kTable G mvmc one two) mvmc (one.map (r2kFile N E)) (two.map (r2kFile N E)) ir0 (G.rindx b) 3 (G.orb a) (G.orb b) =
      E (opRho N a * opRho N b) - E (opRho N a) * E (opRho N b0) := by
  have ea1 := r2k_value1 hG hF (r2kFile N E) ha ha h0 (Or.inl rfl)
  have ea2 := r2k_value1 hG hF (r2kFile N E) ha ha h0 (Or.inr rfl)
  have eb1 := r2k_value1 hG hF (r2kFile N E) hb0 hb0 h1 (Or.inl rfl)
  have eb2 := r2k_value1 hG hF (r2kFile N E) hb0 hb0 h1 (Or.inr rfl)
  rw [h0] at ea1 ea2
  rw [h1, ho] at eb1 eb2
  rw [r2kCor, if_pos rfl, r2kCor3, r2k_value2 hG hF _ ha hb h0 (by omega), r2k_value2 hG hF _ ha hb h0 (by omega), r2k_value2 hG hF _ ha hb h0 (by omega),
    r2k_value2 hG hF _ ha hb h0 (by omega)]
  simp only [r2kCor1]
  rw [ea1, ea2, eb1, eb2]
  simp only [r2kFile, r2kWanted, lineOps, Nat.mul_zero, Nat.add_zero, Nat.mul_one, r2k_num, opRho, Matrix.add_mul, Matrix.mul_add, map_add, numOp]
  ring

theorem r2k_cor4 (hG : R2kGood N ir0 G.rindx G.orb G.zero) (hF : R2kFiles N ir0 G.rindx mvmc one two) {a b : ℕ} (ha : a < N) (hb : b < N) (h0 : G.rindx a = ir0) :
    r2kCor4 (r2kTable G mvmc one two) (two.map (r2kFile N E)) (G.rindx b) (G.orb a) (G.orb b) = E (opSz N a * opSz N b) := by
  rw [r2kCor4, r2k_value2 hG hF _ ha hb h0 (by omega), r2k_value2 hG hF _ ha hb h0 (by omega), r2k_value2 hG hF _ ha hb h0 (by omega),
    r2k_value2 hG hF _ ha hb h0 (by omega)]
  simp only [r2kFile, r2kWanted, lineOps, Nat.mul_zero, Nat.add_zero, Nat.mul_one, r2k_num, opSz, Matrix.sub_mul, Matrix.mul_sub, map_sub, Matrix.smul_mul, Matrix.mul_smul,
    map_smul, smul_eq_mul]
  ring

theorem r2kCor_five (T : R2kIdx) (mvmc : Bool) (c1 c2 : List ℂ) (ir0 ir o1 o2 : ℕ) : r2kCor T mvmc c1 c2 ir0 ir 5 o1 o2 = r2kCor56 T mvmc c1 c2 ir 5 o1 o2 := by
  rw [r2kCor, if_neg (by decide), if_neg (by decide), if_pos rfl]

/-- the flips for mVMC without the one-body term -/
theorem r2k_flip5 {a b : ℕ} (ha : a < N) (hb : b < N) :
    opSplus N a * opSminus N b = (if a = b then prodMat (2 * N) [.cr a, .an b] else 0) - prodMat (2 * N) [.cr a, .an b, .cr (b + N), .an (a + N)] := by
  rw [opSplus, opSminus, r2k_flip (M := 2 * N) (by omega) (by omega) (by omega) (by omega) (by omega)]
  by_cases h : a = b
  · rw [if_pos h, if_pos (by omega)]
  · rw [if_neg h, if_neg (by omega)]

theorem r2k_flip6 {a b : ℕ} (ha : a < N) (hb : b < N) :
    opSminus N a * opSplus N b = (if a = b then prodMat (2 * N) [.cr (a + N), .an (b + N)] else 0) - prodMat (2 * N) [.cr (a + N), .an (b + N), .cr b, .an a] := by
  rw [opSplus, opSminus, r2k_flip (M := 2 * N) (by omega) (by omega) (by omega) (by omega) (by omega)]

theorem r2k_cor5_raw (hG : R2kGood N ir0 G.rindx G.orb G.zero) (hF : R2kFiles N ir0 G.rindx mvmc one two) {a b : ℕ} (ha : a < N) (hb : b < N) (h0 : G.rindx a = ir0) :
    r2kVal (two.map (r2kFile N E)) (r2kTable G mvmc one two (G.rindx b) 7 (G.orb a) (G.orb b)) =
      if mvmc then E (prodMat (2 * N) [.cr a, .an b, .cr (b + N), .an (a + N)]) else E (opSplus N a * opSminus N b) := by
  rw [r2k_value2 hG hF _ ha hb h0 (by omega)]
  cases mvmc
  · simp [r2kFile, r2kWanted, lineOps, r2k_pair, opSplus, opSminus]
  · simp [r2kFile, r2kWanted, lineOps]

theorem r2k_cor6_raw (hG : R2kGood N ir0 G.rindx G.orb G.zero) (hF : R2kFiles N ir0 G.rindx mvmc one two) {a b : ℕ} (ha : a < N) (hb : b < N) (h0 : G.rindx a = ir0) :
    r2kVal (two.map (r2kFile N E)) (r2kTable G mvmc one two (G.rindx b) 8 (G.orb a) (G.orb b)) =
      if mvmc then E (prodMat (2 * N) [.cr (a + N), .an (b + N), .cr b, .an a]) else E (opSminus N a * opSplus N b) := by
  rw [r2k_value2 hG hF _ ha hb h0 (by omega)]
  cases mvmc
  · simp [r2kFile, r2kWanted, lineOps, r2k_pair, opSplus, opSminus]
  · simp [r2kFile, r2kWanted, lineOps]

theorem r2k_cor56 (hG : R2kGood N ir0 G.rindx G.orb G.zero) (hF : R2kFiles N ir0 G.rindx mvmc one two) {a b : ℕ} (ha : a < N) (hb : b < N) (h0 : G.rindx a = ir0)
    (h : mvmc = true → ir0 = 0) :
    r2kCor56 (r2kTable G mvmc one two) mvmc (one.map (r2kFile N E)) (two.map (r2kFile N E)) (G.rindx b) 5 (G.orb a) (G.orb b) = E (opSplus N a * opSminus N b) ∧
    r2kCor56 (r2kTable G mvmc one two) mvmc (one.map (r2kFile N E)) (two.map (r2kFile N E)) (G.rindx b) 6 (G.orb a) (G.orb b) = E (opSminus N a * opSplus N b) := by
  simp only [r2kCor56, Nat.reduceAdd, Nat.reduceSub]
  rw [r2k_cor5_raw E hG hF ha hb h0, r2k_cor6_raw E hG hF ha hb h0]
  cases mvmc
  · simp
  · have h00 := h rfl
    subst h00
    have c : (G.rindx b = 0 ∧ G.orb a = G.orb b) ↔ a = b := by
      constructor
      · rintro ⟨e1, e2⟩
        exact hG.inj a ha b hb (h0.trans e1.symm) e2
      · rintro rfl
        exact ⟨h0, rfl⟩
    have e1 := r2k_value1 hG hF (r2kFile N E) ha ha h0 (Or.inl rfl)
    have e2 := r2k_value1 hG hF (r2kFile N E) ha ha h0 (Or.inr rfl)
    rw [h0] at e1 e2
    simp only [c, if_true, r2kCor1]
    rw [e1, e2, r2k_flip5 ha hb, r2k_flip6 ha hb, map_sub, map_sub]
    by_cases e : a = b
    · subst e
      simp only [if_true, r2kFile, r2kWanted, lineOps, Nat.mul_zero, Nat.add_zero, Nat.mul_one]
      constructor <;> ring
    · simp only [if_neg e, map_zero]
      constructor <;> ring

/-- an expectation value: the state with one electron at `x` -/
theorem r2k_state {M x : ℕ} (hx : x < M) : ∃ F : Matrix (Conf M) (Conf M) ℂ →ₗ[ℂ] ℂ, F 1 = 1 ∧ F (prodMat M (numOp x)) = 1 := by
  let S : Conf M := ⟨{x}, by simpa using hx⟩
  let T0 : Conf M := ⟨∅, by simp⟩
  refine ⟨⟨⟨fun A => A S S, fun _ _ => rfl⟩, fun _ _ => rfl⟩, ?_, ?_⟩
  · change (1 : Matrix (Conf M) (Conf M) ℂ) S S = 1
    rw [Matrix.one_apply_eq]
  · change prodMat M (numOp x) S S = 1
    have e : prodMat M (numOp x) = (jwAn M x)ᴴ * jwAn M x := by simp [prodMat, numOp, jw]
    rw [e, Matrix.mul_apply, Finset.sum_eq_single T0]
    · simp [jwAn, S, T0, ← mul_pow]
    · intro T _ hT
      have : jwAn M x T S = 0 := by
        rw [jwAn, if_neg]
        rintro ⟨_, h⟩
        exact hT (Subtype.ext (by simpa [S, T0] using h))
      rw [this, mul_zero]
    · intro h
      exact absurd (Finset.mem_univ _) h

end MVMC
