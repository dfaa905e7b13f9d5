import Verif.Proof.Respack

/-!
# C93: conversion of RESPACK matrices

A file is a list of matrices; each has its lattice vector and its elements `(i, j, value)`, which name every pair of orbitals once, in any order.
-/

namespace MVMC

variable {V : Type}

/-- C93: a complete file, with an empty line after each matrix, is converted to a table with exactly one line for each element, with its vector, its orbitals in their
order and its value; the vectors keep their order, and the two numbers of the header are those of the orbitals and of the vectors. Missing: a file without the last
empty line (`C93_last_violated`). -/
theorem C93_convert_partial (zero : V) (norb : ℕ) (bs : List ((ℤ × ℤ × ℤ) × List (ℕ × ℕ × V))) (hne : bs ≠ [])
    (hb : ∀ b ∈ bs, (b.2.map fun e => (e.1, e.2.1)).Perm (orbPairs norb)) :
    ∃ outs, res2wan zero (respFile bs) = some (norb, bs.length, outs.flatten) ∧
      List.Forall₂ (fun o b => o.Perm (b.2.map fun e => (b.1, e))) outs bs := by
  obtain ⟨outs, ho, hp⟩ := rBlocks_spec zero norb bs hb
  refine ⟨outs, ?_, hp⟩
  have hs : rSplit (respFile bs) = bs.map respLines ++ [[]] := by
    have := rSplit_file bs ([] : List (RLine V))
    simpa [rSplit] using this
  have hn : Nat.sqrt (((bs.map respLines ++ [[]]).headD []).length - 1) = norb := by
    cases bs with
    | nil => exact absurd rfl hne
    | cons b bs =>
      have hl := (hb b List.mem_cons_self).length_eq
      rw [List.length_map, orbPairs_length] at hl
      simp [respLines, hl, Nat.sqrt_eq]
  unfold res2wan
  dsimp only
  rw [hs, hn]
  simp [ho]

/-- C93: the elements of a converted file do not depend on the order of the lines inside a matrix. -/
theorem C93_order (zero : V) (norb : ℕ) (bs cs : List ((ℤ × ℤ × ℤ) × List (ℕ × ℕ × V))) (hne : bs ≠ [])
    (hb : ∀ b ∈ bs, (b.2.map fun e => (e.1, e.2.1)).Perm (orbPairs norb))
    (h : List.Forall₂ (fun b c => b.1 = c.1 ∧ b.2.Perm c.2) bs cs) :
    ∃ o o', res2wan zero (respFile bs) = some (norb, bs.length, o) ∧ res2wan zero (respFile cs) = some (norb, bs.length, o') ∧
      o.Perm o' := by
  have hc : ∀ c ∈ cs, (c.2.map fun e => (e.1, e.2.1)).Perm (orbPairs norb) := by
    clear hne
    induction h with
    | nil => simp
    | cons hbc _ ih =>
      intro c hc
      rcases List.mem_cons.1 hc with rfl | hc
      · exact (hbc.2.symm.map _).trans (hb _ List.mem_cons_self)
      · exact ih (fun b h => hb b (List.mem_cons_of_mem _ h)) c hc
  have hp : (bs.flatMap fun b => b.2.map fun e => (b.1, e)).Perm (cs.flatMap fun b => b.2.map fun e => (b.1, e)) := by
    clear hne hb hc
    induction h with
    | nil => exact List.Perm.refl _
    | cons hbc _ ih =>
      simp only [List.flatMap_cons]
      refine List.Perm.append ?_ ih
      rw [hbc.1]
      exact hbc.2.map _
  have hlen := h.length_eq
  have hne' : cs ≠ [] := by
    intro e
    rw [e] at hlen
    exact hne (List.length_eq_zero_iff.1 hlen)
  obtain ⟨o, e1, p1⟩ := C93_convert_partial zero norb bs hne hb
  obtain ⟨o', e2, p2⟩ := C93_convert_partial zero norb cs hne' hc
  refine ⟨_, _, e1, by rw [hlen]; exact e2, (forall₂_perm_flatten p1).trans (hp.trans (forall₂_perm_flatten p2).symm)⟩

/-- C93 is violated: if the empty line at the end of the file is missing, the last matrix is lost without a message. -/
theorem C93_last_violated (zero : V) (bs : List ((ℤ × ℤ × ℤ) × List (ℕ × ℕ × V))) (hne : bs ≠ []) (b : (ℤ × ℤ × ℤ) × List (ℕ × ℕ × V)) :
    res2wan zero (respFile bs ++ respLines b) = res2wan zero (respFile bs) := by
  have h0 : rSplit (respFile bs) = bs.map respLines ++ [[]] := by
    have := rSplit_file bs ([] : List (RLine V))
    simpa [rSplit] using this
  have h1 : rSplit (respFile bs ++ respLines b) = bs.map respLines ++ [respLines b] := by
    rw [rSplit_file]
    have := rSplit_lines b ([] : List (RLine V))
    simp [rSplit] at this
    rw [this]
  unfold res2wan
  dsimp only
  rw [h0, h1]
  cases bs with
  | nil => exact absurd rfl hne
  | cons c cs => simp

/-- C93: the weights fill lines of fifteen, as the Wannier90 format asks, and the rest is in one more line. -/
theorem C93_weights (nr : ℕ) :
    wtLines nr = List.replicate (nr / 15) 15 ++ (if nr % 15 = 0 then [] else [nr % 15]) ∧ (wtLines nr).sum = nr := by
  have h : wtLines nr = List.replicate (nr / 15) 15 ++ (if nr % 15 = 0 then [] else [nr % 15]) := by
    unfold wtLines
    rw [wtLoop_eq]
    by_cases h : nr % 15 = 0 <;> simp [h]
  refine ⟨h, ?_⟩
  rw [h]
  by_cases h0 : nr % 15 = 0
  · simp [h0]; omega
  · simp [h0]; omega

/-- C93: the centres that are written are the coefficients of the positions in the lattice vectors that are written, up to the unit of length; only independent lattice vectors are
accepted. -/
theorem C93_geometry {K : Type} [Field K] (bohr : K) {nwan : ℕ} (avec : Matrix (Fin 3) (Fin 3) K) (centre : Matrix (Fin nwan) (Fin 3) K) :
    (ref2geom bohr avec centre = none ↔ avec.det = 0) ∧
    ∀ a c, ref2geom bohr avec centre = some (a, c) → c * a = bohr • centre ∧ a = bohr • avec := by
  unfold ref2geom
  by_cases h : avec.det = 0
  · simp [h]
  · rw [if_neg h]
    refine ⟨by simp [h], ?_⟩
    rintro a c e
    simp only [Option.some.injEq, Prod.mk.injEq] at e
    obtain ⟨rfl, rfl⟩ := e
    refine ⟨?_, rfl⟩
    rw [Matrix.mul_smul, Matrix.mul_assoc, Matrix.nonsing_inv_mul _ (isUnit_iff_ne_zero.2 h), Matrix.mul_one]

example : wtLines 32 = [15, 15, 2] := by decide

/-- Two orbitals, one vector: the table is written column by column. -/
example : res2wan (0 : ℤ) (respFile [((1, 0, 0), [(1, 1, 5), (1, 2, 6), (2, 1, 7), (2, 2, 8)])]) =
    some (2, 1, [((1, 0, 0), 1, 1, 5), ((1, 0, 0), 2, 1, 7), ((1, 0, 0), 1, 2, 6), ((1, 0, 0), 2, 2, 8)]) := by
  simp [res2wan, respFile, respLines, rSplit, rBlocks, rBlock, rFill, rOut, show Nat.sqrt 4 = 2 from Nat.sqrt_eq 2, List.range_succ]

end MVMC
