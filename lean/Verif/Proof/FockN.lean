import Verif.Proof.Fock
import Verif.Model.LocGrnN

/-! Products of `n` pairs `c†_i c_j` on occupation lists. -/
namespace MVMC
open MVMC.Spec

/-- `c†_{i1} c_{j1} c†_{i2} c_{j2} …` -/
def pairOps (P : List (Nat × Nat)) : List Op := P.flatMap (fun q => [.cr q.1, .an q.2])

/-- the functional composed with a product of pairs -/
noncomputable def dualN (P : List (Nat × Nat)) (F : List Nat → ℂ) : List Nat → ℂ :=
  P.foldl (fun F q => anD q.2 (crD q.1 F)) F

theorem overlap_pairs : ∀ (P : List (Nat × Nat)) (F : List Nat → ℂ) (k : Ket),
    overlap F (actAll (pairOps P) k) = overlap (dualN P F) k
  | [], _, _ => rfl
  | q :: P, F, k => by
    show overlap F (Op.act (.cr q.1) (Op.act (.an q.2) (actAll (pairOps P) k))) = _
    rw [overlap_cr, overlap_an, overlap_pairs P]
    rfl

theorem dualN_append (P Q : List (Nat × Nat)) (F : List Nat → ℂ) : dualN (P ++ Q) F = dualN Q (dualN P F) := by
  unfold dualN; rw [List.foldl_append]

theorem dualN_cons (q : Nat × Nat) (Q : List (Nat × Nat)) (F : List Nat → ℂ) :
    dualN (q :: Q) F = dualN Q (anD q.2 (crD q.1 F)) := rfl

theorem dualN_anti {M : Nat} : ∀ (P : List (Nat × Nat)) {F : List Nat → ℂ}, Anti M F → (∀ q ∈ P, q.1 < M) → Anti M (dualN P F)
  | [], _, h, _ => h
  | q :: P, _, h, hP => dualN_anti P (anti_an (anti_cr h (hP q (by simp))) q.2) (fun x hx => hP x (by simp [hx]))

/-- all hops at once -/
def hopL : List (Nat × Nat) → List Nat → List Nat
  | [], l => l
  | q :: P, l => repl q.2 q.1 (hopL P l)

/-- all orbitals distinct, targets empty, sources occupied -/
structure Good (P : List (Nat × Nat)) (l : List Nat) : Prop where
  nd : (P.map Prod.fst ++ P.map Prod.snd).Nodup
  emp : ∀ q ∈ P, q.1 ∉ l
  occ : ∀ q ∈ P, q.2 ∈ l

theorem Good.nil (l : List Nat) : Good [] l := ⟨by simp, by simp, by simp⟩

theorem good_cons {q : Nat × Nat} {P : List (Nat × Nat)} {l : List Nat} : Good (q :: P) l ↔
    (q.1 ≠ q.2 ∧ (∀ x ∈ P, q.1 ≠ x.1 ∧ q.1 ≠ x.2 ∧ q.2 ≠ x.1 ∧ q.2 ≠ x.2) ∧ q.1 ∉ l ∧ q.2 ∈ l) ∧ Good P l := by
  have e : ((q :: P).map Prod.fst ++ (q :: P).map Prod.snd).Nodup ↔
      (q.1 ≠ q.2 ∧ ∀ x ∈ P, q.1 ≠ x.1 ∧ q.1 ≠ x.2 ∧ q.2 ≠ x.1 ∧ q.2 ≠ x.2) ∧ (P.map Prod.fst ++ P.map Prod.snd).Nodup := by
    rw [List.map_cons, List.map_cons, (List.perm_middle (a := q.2) (l₁ := q.1 :: P.map Prod.fst)).nodup_iff]
    simp only [List.cons_append, List.nodup_cons, List.mem_cons, List.mem_append, List.mem_map, not_or, not_exists, not_and]
    constructor
    · rintro ⟨⟨h1, h2, h3⟩, ⟨h4, h5⟩, h6⟩
      exact ⟨⟨fun h => h1 h.symm, fun x hx => ⟨fun h => h4 x hx h.symm, fun h => h5 x hx h.symm, fun h => h2 x hx h.symm,
        fun h => h3 x hx h.symm⟩⟩, h6⟩
    · rintro ⟨⟨h1, h2⟩, h6⟩
      exact ⟨⟨fun h => h1 h.symm, fun x hx h => (h2 x hx).2.2.1 h.symm, fun x hx h => (h2 x hx).2.2.2 h.symm⟩,
        ⟨fun x hx h => (h2 x hx).1 h.symm, fun x hx h => (h2 x hx).2.1 h.symm⟩, h6⟩
  constructor
  · rintro ⟨a, b, c⟩
    obtain ⟨h1, h2⟩ := e.mp a
    exact ⟨⟨h1.1, h1.2, b q (by simp), c q (by simp)⟩, h2, fun x hx => b x (by simp [hx]), fun x hx => c x (by simp [hx])⟩
  · rintro ⟨⟨h1, h2, h3, h4⟩, h5⟩
    refine ⟨e.mpr ⟨⟨h1, h2⟩, h5.nd⟩, ?_, ?_⟩
    · intro x hx
      rcases List.mem_cons.mp hx with rfl | hx
      · exact h3
      · exact h5.emp x hx
    · intro x hx
      rcases List.mem_cons.mp hx with rfl | hx
      · exact h4
      · exact h5.occ x hx

theorem mem_hopL : ∀ {P : List (Nat × Nat)} {l : List Nat}, Good P l → ∀ x,
    x ∈ hopL P l ↔ (∃ q ∈ P, x = q.1) ∨ ((∀ q ∈ P, x ≠ q.2) ∧ x ∈ l)
  | [], l, _, x => by simp [hopL]
  | q :: P, l, h, x => by
    obtain ⟨⟨h1, h2, h3, h4⟩, h5⟩ := good_cons.mp h
    have ih := mem_hopL h5
    have hq : q.2 ∈ hopL P l := (ih q.2).mpr (Or.inr ⟨fun y hy => (h2 y hy).2.2.2, h4⟩)
    show x ∈ repl q.2 q.1 (hopL P l) ↔ _
    rw [mem_repl, ih x]
    simp only [List.mem_cons, exists_eq_or_imp, forall_eq_or_imp]
    constructor
    · rintro (⟨e, _⟩ | ⟨h, h' | h'⟩)
      · exact Or.inl (Or.inl e)
      · exact Or.inl (Or.inr h')
      · exact Or.inr ⟨⟨h, h'.1⟩, h'.2⟩
    · rintro ((e | ⟨y, hy, e⟩) | ⟨⟨h, h'⟩, h''⟩)
      · exact Or.inl ⟨e, hq⟩
      · refine Or.inr ⟨?_, Or.inl ⟨y, hy, e⟩⟩
        rw [e]; exact fun h => (h2 y hy).2.2.1 h.symm
      · exact Or.inr ⟨h, Or.inr ⟨h', h''⟩⟩

theorem nodup_hopL : ∀ {P : List (Nat × Nat)} {l : List Nat}, Good P l → l.Nodup → (hopL P l).Nodup
  | [], _, _, h => h
  | q :: P, l, h, hn => by
    obtain ⟨⟨h1, h2, h3, h4⟩, h5⟩ := good_cons.mp h
    refine nodup_repl (nodup_hopL h5 hn) (Or.inl ?_)
    rw [mem_hopL h5]
    rintro (⟨y, hy, e⟩ | ⟨_, h⟩)
    · exact (h2 y hy).1 e
    · exact h3 h

theorem lt_hopL {M : Nat} : ∀ {P : List (Nat × Nat)} {l : List Nat}, (∀ z ∈ l, z < M) → (∀ q ∈ P, q.1 < M) →
    ∀ z ∈ hopL P l, z < M
  | [], _, h, _ => h
  | q :: P, l, h, hP => lt_repl (lt_hopL h (fun x hx => hP x (by simp [hx]))) (hP q (by simp))

section
variable {M : Nat} {F : List Nat → ℂ} (hF : Anti M F) {l : List Nat} (hn : l.Nodup) (hr : ∀ z ∈ l, z < M)
include hn hr

include hF in
theorem dualN_good : ∀ {P : List (Nat × Nat)}, Good P l → (∀ q ∈ P, q.1 < M) → dualN P F l = F (hopL P l) := by
  intro P
  induction P generalizing F with
  | nil => intro _ _; rfl
  | cons q P ih =>
    intro h hP
    obtain ⟨⟨h1, h2, h3, h4⟩, h5⟩ := good_cons.mp h
    have hq := hP q (by simp)
    have hP' : ∀ x ∈ P, x.1 < M := fun x hx => hP x (by simp [hx])
    rw [dualN_cons, ih (anti_an (anti_cr hF hq) q.2) h5 hP', one_body hF hq (nodup_hopL h5 hn) (lt_hopL hr hP')]
    have hmem : q.2 ∈ hopL P l ∧ (q.1 ∉ hopL P l ∨ q.1 = q.2) := by
      constructor
      · exact (mem_hopL h5 _).mpr (Or.inr ⟨fun y hy => (h2 y hy).2.2.2, h4⟩)
      · left
        rw [mem_hopL h5]
        rintro (⟨y, hy, e⟩ | ⟨_, h⟩)
        · exact (h2 y hy).1 e
        · exact h3 h
    rw [if_pos hmem]
    rfl

include hF in
/-- one more pair in front of good pairs -/
theorem dualN_head {I J : Nat} {P : List (Nat × Nat)} (h : Good P l) (hI : I < M) (hP : ∀ q ∈ P, q.1 < M) :
    dualN ((I, J) :: P) F l = if J ∈ hopL P l ∧ (I ∉ hopL P l ∨ I = J) then F (repl J I (hopL P l)) else 0 := by
  rw [dualN_cons, dualN_good (anti_an (anti_cr hF hI) J) hn hr h hP,
    one_body hF hI (nodup_hopL h hn) (lt_hopL hr hP)]

end

theorem repl_comm {j i j' i' : Nat} (h1 : j ≠ j') (h2 : i' ≠ j) (h3 : i ≠ j') (l : List Nat) :
    repl j i (repl j' i' l) = repl j' i' (repl j i l) := by
  unfold repl
  rw [List.map_map, List.map_map]
  apply List.map_congr_left
  intro x _
  simp only [Function.comp]
  by_cases a : x = j' <;> by_cases b : x = j
  · exact absurd (b.symm.trans a) h1
  · rw [if_pos a, if_neg h2, if_neg b, if_pos a]
  · rw [if_neg a, if_pos b, if_neg h3]
  · rw [if_neg a, if_neg b, if_neg a]

theorem good_mid {P1 P2 : List (Nat × Nat)} {q : Nat × Nat} {l : List Nat} (h : Good (P1 ++ q :: P2) l) :
    (∀ x ∈ P1 ++ P2, q.1 ≠ x.1 ∧ q.1 ≠ x.2 ∧ q.2 ≠ x.1 ∧ q.2 ≠ x.2) ∧ q.1 ≠ q.2 ∧ q.1 ∉ l ∧ q.2 ∈ l ∧ Good (P1 ++ P2) l := by
  have e : (P1 ++ q :: P2).Perm (q :: (P1 ++ P2)) := List.perm_middle
  have h' : Good (q :: (P1 ++ P2)) l := by
    refine ⟨?_, fun x hx => h.emp x (e.mem_iff.mpr hx), fun x hx => h.occ x (e.mem_iff.mpr hx)⟩
    have := h.nd
    rwa [((e.map Prod.fst).append (e.map Prod.snd)).nodup_iff] at this
  obtain ⟨⟨h1, h2, h3, h4⟩, h5⟩ := good_cons.mp h'
  exact ⟨h2, h1, h3, h4, h5⟩

theorem hopL_mid : ∀ {P1 P2 : List (Nat × Nat)} {q : Nat × Nat} {l : List Nat}, Good (P1 ++ q :: P2) l →
    hopL (P1 ++ q :: P2) l = repl q.2 q.1 (hopL (P1 ++ P2) l)
  | [], _, _, _, _ => rfl
  | r :: P1, P2, q, l, h => by
    have h' := (good_cons.mp h)
    obtain ⟨h2, _, _, _, _⟩ := good_mid h
    have := h2 r (by simp)
    show repl r.2 r.1 (hopL (P1 ++ q :: P2) l) = repl q.2 q.1 (repl r.2 r.1 (hopL (P1 ++ P2) l))
    rw [hopL_mid h'.2, repl_comm this.2.2.2.symm this.2.1 this.2.2.1.symm]

section cases
variable {M : Nat} {F : List Nat → ℂ} (hF : Anti M F) {l : List Nat} (hn : l.Nodup) (hr : ∀ z ∈ l, z < M)
  {I J : Nat} {P : List (Nat × Nat)} (h : Good P l) (hI : I < M) (hP : ∀ q ∈ P, q.1 < M)
include hF hn hr h hI hP

/-- annihilator equal to a later annihilator -/
theorem dualN_annAnn {q : Nat × Nat} (hq : q ∈ P) (e : J = q.2) : dualN ((I, J) :: P) F l = 0 := by
  rw [dualN_head hF hn hr h hI hP, if_neg]
  rintro ⟨h1, _⟩
  rw [e, mem_hopL h] at h1
  rcases h1 with ⟨y, hy, e'⟩ | ⟨h1, _⟩
  · have := h.nd
    rw [List.nodup_append] at this
    exact this.2.2 y.1 (List.mem_map_of_mem hy) q.2 (List.mem_map_of_mem hq) e'.symm
  · exact h1 q hq rfl

/-- annihilator of an empty orbital -/
theorem dualN_annEmpty (h1 : ∀ q ∈ P, J ≠ q.1) (h2 : J ∉ l) : dualN ((I, J) :: P) F l = 0 := by
  rw [dualN_head hF hn hr h hI hP, if_neg]
  rintro ⟨h3, _⟩
  rw [mem_hopL h] at h3
  rcases h3 with ⟨y, hy, e⟩ | ⟨_, h3⟩
  · exact h1 y hy e
  · exact h2 h3

/-- creator equal to its annihilator -/
theorem dualN_number (h2 : ∀ q ∈ P, I ≠ q.2) (h3 : I ∈ l) : dualN ((I, I) :: P) F l = dualN P F l := by
  rw [dualN_head hF hn hr h hI hP, dualN_good hF hn hr h hP, repl_same, if_pos]
  exact ⟨(mem_hopL h I).mpr (Or.inr ⟨h2, h3⟩), Or.inr rfl⟩

/-- creator equal to a later creator -/
theorem dualN_crCr {q : Nat × Nat} (hq : q ∈ P) (e : I = q.1) (hIJ : I ≠ J) : dualN ((I, J) :: P) F l = 0 := by
  rw [dualN_head hF hn hr h hI hP, if_neg]
  rintro ⟨_, h1 | h1⟩
  · exact h1 ((mem_hopL h I).mpr (Or.inl ⟨q, hq, e⟩))
  · exact hIJ h1

/-- creator of an occupied orbital -/
theorem dualN_crOcc (h2 : ∀ q ∈ P, I ≠ q.2) (h3 : I ∈ l) (hIJ : I ≠ J) : dualN ((I, J) :: P) F l = 0 := by
  rw [dualN_head hF hn hr h hI hP, if_neg]
  rintro ⟨_, h1 | h1⟩
  · exact h1 ((mem_hopL h I).mpr (Or.inr ⟨h2, h3⟩))
  · exact hIJ h1

end cases

section cases2
variable {M : Nat} {F : List Nat → ℂ} (hF : Anti M F) {l : List Nat} (hn : l.Nodup) (hr : ∀ z ∈ l, z < M)
  {I J : Nat} {P1 P2 : List (Nat × Nat)} {q : Nat × Nat} (h : Good (P1 ++ q :: P2) l) (hI : I < M)
  (hP : ∀ x ∈ P1 ++ q :: P2, x.1 < M)
include hF hn hr h hI hP

/-- annihilator equal to a later creator -/
theorem dualN_annCr : dualN ((I, q.1) :: (P1 ++ q :: P2)) F l = dualN ((I, q.2) :: (P1 ++ P2)) F l := by
  obtain ⟨h1, h2, h3, h4, h5⟩ := good_mid h
  have hP' : ∀ x ∈ P1 ++ P2, x.1 < M := fun x hx => hP x (by
    simp only [List.mem_append, List.mem_cons] at hx ⊢; tauto)
  rw [dualN_head hF hn hr h hI hP, dualN_head hF hn hr h5 hI hP', hopL_mid h]
  have hi : q.1 ∉ hopL (P1 ++ P2) l := by
    rw [mem_hopL h5]
    rintro (⟨y, hy, e⟩ | ⟨_, h⟩)
    · exact (h1 y hy).1 e
    · exact h3 h
  have hj : q.2 ∈ hopL (P1 ++ P2) l := (mem_hopL h5 _).mpr (Or.inr ⟨fun y hy => (h1 y hy).2.2.2, h4⟩)
  rw [repl_repl hi]
  have e1 : q.1 ∈ repl q.2 q.1 (hopL (P1 ++ P2) l) := mem_repl.mpr (Or.inl ⟨rfl, hj⟩)
  have e2 : (I ∉ repl q.2 q.1 (hopL (P1 ++ P2) l) ∨ I = q.1) ↔ (I ∉ hopL (P1 ++ P2) l ∨ I = q.2) := by
    rw [mem_repl]
    by_cases a : I = q.1
    · rw [a]; simp [hi]
    · simp only [a, false_and, false_or, or_false, not_and, ne_eq]
      tauto
  simp only [e1, hj, true_and, e2]

omit hI in
/-- creator equal to a later annihilator -/
theorem dualN_crAnn (hJq : J ≠ q.2) (hJ1 : ∀ x ∈ P1 ++ P2, J ≠ x.2) (hJl : J ∈ l) :
    dualN ((q.2, J) :: (P1 ++ q :: P2)) F l = - dualN ((q.1, J) :: (P1 ++ P2)) F l := by
  obtain ⟨h1, h2, h3, h4, h5⟩ := good_mid h
  have hP' : ∀ x ∈ P1 ++ P2, x.1 < M := fun x hx => hP x (by
    simp only [List.mem_append, List.mem_cons] at hx ⊢; tauto)
  have hq1 : q.1 < M := hP q (by simp)
  rw [dualN_head hF hn hr h (hr _ h4) hP, dualN_head hF hn hr h5 hq1 hP', hopL_mid h]
  have hi : q.1 ∉ hopL (P1 ++ P2) l := by
    rw [mem_hopL h5]
    rintro (⟨y, hy, e⟩ | ⟨_, h⟩)
    · exact (h1 y hy).1 e
    · exact h3 h
  have hj : q.2 ∈ hopL (P1 ++ P2) l := (mem_hopL h5 _).mpr (Or.inr ⟨fun y hy => (h1 y hy).2.2.2, h4⟩)
  have hJ : J ∈ hopL (P1 ++ P2) l := (mem_hopL h5 _).mpr (Or.inr ⟨hJ1, hJl⟩)
  have c1 : J ∈ repl q.2 q.1 (hopL (P1 ++ P2) l) ∧ (q.2 ∉ repl q.2 q.1 (hopL (P1 ++ P2) l) ∨ q.2 = J) := by
    constructor
    · exact mem_repl.mpr (Or.inr ⟨hJq, hJ⟩)
    · left
      rw [mem_repl]
      rintro (⟨e, _⟩ | ⟨e, _⟩)
      · exact h2 e.symm
      · exact e rfl
  rw [if_pos c1, if_pos ⟨hJ, Or.inl hi⟩]
  exact anti_rename hF (nodup_hopL h5 hn) (lt_hopL hr hP') hJ hj hJq hi hq1

end cases2

end MVMC
