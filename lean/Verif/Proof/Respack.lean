import Verif.Model.Respack
import Mathlib.Data.List.Nodup
import Mathlib.Data.List.Basic

/-!
# Proof: conversion of RESPACK matrices
-/

namespace MVMC

variable {V : Type}

/-- A matrix for one vector, as written by RESPACK: the vector and one line per element. -/
def respLines (b : (ℤ × ℤ × ℤ) × List (ℕ × ℕ × V)) : List (RLine V) := .vec b.1 :: b.2.map .hop

/-- A complete file: an empty line after each matrix. -/
def respFile (bs : List ((ℤ × ℤ × ℤ) × List (ℕ × ℕ × V))) : List (RLine V) := bs.flatMap fun b => respLines b ++ [.blank]

/-- The pairs of orbitals. -/
def orbPairs (norb : ℕ) : List (ℕ × ℕ) := (List.range norb).flatMap fun i => (List.range norb).map fun j => (j + 1, i + 1)

theorem wtLoop_eq (n : ℕ) : wtLoop n = (List.replicate (n / 15) 15, n % 15) := by
  induction n with
  | zero => rfl
  | succ n ih =>
    unfold wtLoop
    rw [ih]
    split
    · rename_i h
      have h1 : (n + 1) / 15 = n / 15 + 1 := by omega
      have h2 : (n + 1) % 15 = 0 := by omega
      rw [h1, h2, List.replicate_succ', h]
    · have h1 : (n + 1) / 15 = n / 15 := by omega
      have h2 : (n + 1) % 15 = n % 15 + 1 := by omega
      rw [h1, h2]

theorem rSplit_ne (l : List (RLine V)) : rSplit l ≠ [] := by
  cases l with
  | nil => simp [rSplit]
  | cons x l => cases x <;> simp [rSplit]

theorem rSplit_hops (es : List (ℕ × ℕ × V)) (l : List (RLine V)) :
    rSplit (es.map .hop ++ l) = (es.map .hop ++ (rSplit l).headD []) :: (rSplit l).tail := by
  induction es with
  | nil =>
    have := rSplit_ne l
    cases h : rSplit l with
    | nil => exact absurd h this
    | cons a t => simp [h]
  | cons e es ih => simp [rSplit, ih]

theorem rSplit_lines (b : (ℤ × ℤ × ℤ) × List (ℕ × ℕ × V)) (l : List (RLine V)) :
    rSplit (respLines b ++ l) = (respLines b ++ (rSplit l).headD []) :: (rSplit l).tail := by
  simp [respLines, rSplit, rSplit_hops]

theorem rSplit_file (bs : List ((ℤ × ℤ × ℤ) × List (ℕ × ℕ × V))) (l : List (RLine V)) :
    rSplit (respFile bs ++ l) = bs.map respLines ++ rSplit l := by
  induction bs with
  | nil => simp [respFile]
  | cons b bs ih =>
    have : respFile (b :: bs) ++ l = respLines b ++ (.blank :: (respFile bs ++ l)) := by simp [respFile]
    rw [this, rSplit_lines]
    simp [rSplit, ih]

theorem rFill_spec (norb : ℕ) (es : List (ℕ × ℕ × V)) (h : ℕ → ℕ → V)
    (hr : ∀ e ∈ es, 1 ≤ e.1 ∧ e.1 ≤ norb ∧ 1 ≤ e.2.1 ∧ e.2.1 ≤ norb) (hn : (es.map fun e => (e.1, e.2.1)).Nodup) :
    ∃ g, rFill norb (es.map .hop) h = some g ∧ (∀ e ∈ es, g (e.1 - 1) (e.2.1 - 1) = e.2.2) ∧
      ∀ a b, (∀ e ∈ es, ¬ (a = e.1 - 1 ∧ b = e.2.1 - 1)) → g a b = h a b := by
  induction es generalizing h with
  | nil => exact ⟨h, rfl, by simp, by simp⟩
  | cons e es ih =>
    obtain ⟨i, j, v⟩ := e
    have h1 := hr (i, j, v) List.mem_cons_self
    simp only [List.map_cons, List.nodup_cons] at hn
    obtain ⟨g, hg, hm, ho⟩ := ih (fun a b => if a = i - 1 ∧ b = j - 1 then v else h a b)
      (fun e he => hr e (List.mem_cons_of_mem _ he)) hn.2
    refine ⟨g, ?_, ?_, ?_⟩
    · simp only [List.map_cons, rFill]
      rw [if_pos h1]; exact hg
    · intro e he
      rcases List.mem_cons.1 he with rfl | he
      · rw [ho]
        · simp
        · rintro e' he' ⟨ha, hb⟩
          have h2 := hr e' (List.mem_cons_of_mem _ he')
          apply hn.1
          refine List.mem_map.2 ⟨e', he', ?_⟩
          dsimp only at h1 ha hb ⊢
          ext <;> dsimp only <;> omega
      · exact hm e he
    · intro a b hab
      rw [ho a b fun e he => hab e (List.mem_cons_of_mem _ he)]
      rw [if_neg (hab (i, j, v) List.mem_cons_self)]

theorem orbPairs_mem (norb : ℕ) (x : ℕ × ℕ) : x ∈ orbPairs norb ↔ 1 ≤ x.1 ∧ x.1 ≤ norb ∧ 1 ≤ x.2 ∧ x.2 ≤ norb := by
  obtain ⟨a, b⟩ := x
  simp only [orbPairs, List.mem_flatMap, List.mem_map, List.mem_range, Prod.mk.injEq]
  constructor
  · rintro ⟨i, hi, j, hj, rfl, rfl⟩; omega
  · rintro ⟨h1, h2, h3, h4⟩
    exact ⟨b - 1, by omega, a - 1, by omega, by omega, by omega⟩

theorem orbPairs_length (norb : ℕ) : (orbPairs norb).length = norb * norb := by
  simp [orbPairs, List.length_flatMap]

theorem orbPairs_nodup (norb : ℕ) : (orbPairs norb).Nodup := by
  unfold orbPairs
  rw [List.nodup_flatMap]
  constructor
  · intro i _
    exact List.nodup_range.map fun a b h => by simpa using h
  · refine List.nodup_range.imp ?_
    intro i j hij
    simp only [Function.onFun, List.disjoint_left, List.mem_map, not_exists, not_and]
    rintro x ⟨a, _, rfl⟩ b _ h
    apply hij
    simpa using (congrArg Prod.snd h).symm

theorem rOut_eq (norb : ℕ) (r : ℤ × ℤ × ℤ) (h : ℕ → ℕ → V) :
    rOut norb (r, h) = (orbPairs norb).map fun x => (r, x.1, x.2, h (x.1 - 1) (x.2 - 1)) := by
  simp [rOut, orbPairs, List.map_flatMap, Function.comp_def]

theorem rBlock_spec (zero : V) (norb : ℕ) (b : (ℤ × ℤ × ℤ) × List (ℕ × ℕ × V))
    (hb : (b.2.map fun e => (e.1, e.2.1)).Perm (orbPairs norb)) :
    ∃ g, rBlock zero norb (respLines b) = some (b.1, g) ∧ (rOut norb (b.1, g)).Perm (b.2.map fun e => (b.1, e)) := by
  have hl : b.2.length = norb * norb := by
    have := hb.length_eq
    rw [List.length_map, orbPairs_length] at this
    exact this
  obtain ⟨g, hg, hm, -⟩ := rFill_spec norb b.2 (fun _ _ => zero)
    (fun e he => (orbPairs_mem norb (e.1, e.2.1)).1 (hb.mem_iff.1 (List.mem_map.2 ⟨e, he, rfl⟩)))
    (hb.nodup_iff.2 (orbPairs_nodup norb))
  refine ⟨g, ?_, ?_⟩
  · unfold respLines rBlock
    simp only [List.length_map, hl, lt_irrefl, if_false]
    rw [List.take_of_length_le (by simp [hl]), hg]
    rfl
  · rw [rOut_eq]
    refine (hb.symm.map _).trans ?_
    rw [List.map_map]
    refine List.Perm.of_eq (List.map_congr_left ?_)
    intro e he
    simp [hm e he]

theorem rBlocks_spec (zero : V) (norb : ℕ) (bs : List ((ℤ × ℤ × ℤ) × List (ℕ × ℕ × V)))
    (hb : ∀ b ∈ bs, (b.2.map fun e => (e.1, e.2.1)).Perm (orbPairs norb)) :
    ∃ outs, rBlocks zero norb (bs.map respLines) = some outs.flatten ∧
      List.Forall₂ (fun o b => o.Perm (b.2.map fun e => (b.1, e))) outs bs := by
  induction bs with
  | nil => exact ⟨[], rfl, .nil⟩
  | cons b bs ih =>
    obtain ⟨outs, ho, hp⟩ := ih fun c hc => hb c (List.mem_cons_of_mem _ hc)
    obtain ⟨g, hg, hq⟩ := rBlock_spec zero norb b (hb b List.mem_cons_self)
    exact ⟨rOut norb (b.1, g) :: outs, by simp [rBlocks, hg, ho], .cons hq hp⟩

theorem forall₂_perm_flatten {α β : Type} {f : β → List α} {outs : List (List α)} {bs : List β}
    (h : List.Forall₂ (fun o b => o.Perm (f b)) outs bs) : outs.flatten.Perm (bs.flatMap f) := by
  induction h with
  | nil => exact List.Perm.refl _
  | cons h1 _ ih => simpa using h1.append ih

end MVMC
