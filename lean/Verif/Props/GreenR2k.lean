import Verif.Proof.GreenR2k4

/-! # C84: the Fourier tool -/
namespace MVMC
open Spec Matrix

/-- The R-vectors are the different cells of the sites, and every site has the index of its cell. -/
theorem C84_sites (vs : List R2V) : (r2kSites vs [] []).1.Nodup ∧ (∀ v ∈ (r2kSites vs [] []).1, v ∈ vs) ∧
    List.Forall₂ (fun v m => (r2kSites vs [] []).1[m]? = some v) vs (r2kSites vs [] []).2 := by
  obtain ⟨ext, new, e, hn, hf, hm⟩ := r2kSites_spec vs [] [] List.nodup_nil
  rw [e]
  simp only [List.nil_append] at hn hf ⊢
  exact ⟨hn, hm, hf⟩

example : r2kSites [(0, 0, 0), (0, 0, 0), (1, 0, 0), (0, 0, 0)] [] [] = ([(0, 0, 0), (1, 0, 0)], [0, 0, 1, 0]) := by decide

/-- The images kept are exactly the shortest ones among the shifts by up to two supercells, if different lengths differ by more than 10⁻⁶. -/
theorem C84_images (d : Fin 3 → Fin 3 → ℝ) (box : R2V × R2V × R2V) (v : R2V) (hl : ∀ s ∈ r2kShifts, r2kLen d (r2kMove box v s) < 10 ^ 10 - 1 / 10 ^ 6)
    (hs : ∀ s ∈ r2kShifts, ∀ t ∈ r2kShifts, r2kLen d (r2kMove box v s) = r2kLen d (r2kMove box v t) ∨ 1 / 10 ^ 6 < |r2kLen d (r2kMove box v s) - r2kLen d (r2kMove box v t)|) :
    (r2kImages d box v).2 ≠ [] ∧ ∀ s, s ∈ (r2kImages d box v).2 ↔ s ∈ r2kShifts ∧ ∀ t ∈ r2kShifts, r2kLen d (r2kMove box v s) ≤ r2kLen d (r2kMove box v t) := by
  obtain ⟨⟨p, hp, he⟩, hmin, hfil⟩ := r2kFold_spec (fun s => r2kLen d (r2kMove box v s)) (10 ^ 10) r2kShifts (by decide) hl hs
  have key : ∀ s, s ∈ (r2kImages d box v).2 ↔ s ∈ r2kShifts ∧ ∀ t ∈ r2kShifts, r2kLen d (r2kMove box v s) ≤ r2kLen d (r2kMove box v t) := by
    intro s
    rw [r2kImages, hfil, List.mem_filter, decide_eq_true_eq]
    refine and_congr_right fun hs => ⟨fun h t ht => h.le.trans (hmin t ht), fun h => le_antisymm ((h p hp).trans he.le) (hmin s hs)⟩
  refine ⟨?_, key⟩
  have : p ∈ (r2kImages d box v).2 := (key p).mpr ⟨hp, fun t ht => he.le.trans (hmin t ht)⟩
  exact List.ne_nil_of_mem this

/-- a square of four sites: the cell (2, 0, 0) of a 4 × 1 × 1 supercell has two images -/
theorem C84_images_two : (r2kImages r2kCubic ((4, 0, 0), (0, 9, 0), (0, 0, 9)) (2, 0, 0)).2 = [(-1, 0, 0), (0, 0, 0)] := by
  rw [r2kImages_cubic _ _ 4 (by decide +kernel) (by decide +kernel) (by decide +kernel)]
  decide +kernel

/-- An R-vector that is three supercells away from zero is not recognised as zero. -/
theorem C84_images_violated : ∃ (box : R2V × R2V × R2V) (v : R2V), r2kMove box v (-3, 0, 0) = 0 ∧ ∀ s ∈ (r2kImages r2kCubic box v).2, r2kMove box v s ≠ 0 := by
  refine ⟨((1, 0, 0), (0, 1, 0), (0, 0, 1)), (3, 0, 0), by decide, ?_⟩
  rw [r2kImages_cubic _ _ 1 (by decide +kernel) (by decide +kernel) (by decide +kernel)]
  decide +kernel

/-- The table holds the number of the last line of the form that the manual asks for, with the left operator in cell 0, or 0. -/
theorem C84_index (G : R2kGeo) (mvmc : Bool) (one two : List (List ℕ)) (ir k o1 o2 : ℕ) (hk : 1 ≤ k ∧ k ≤ 8) :
    IsLastLine (fun l => ∃ a b, l = r2kWanted mvmc a b k ∧ G.zero (G.rindx a) = true ∧ ir = G.rindx b ∧ o1 = G.orb a ∧ o2 = G.orb b)
      (if k ≤ 2 then one else two) (r2kTable G mvmc one two ir k o1 o2) := by
  by_cases h : k ≤ 2
  · rw [if_pos h]
    exact r2kTable_one G mvmc one two ir k o1 o2 (by omega)
  · rw [if_neg h]
    exact r2kTable_two G mvmc one two ir k o1 o2 (by omega)

/-- two sites in a ring -/
def r2kRing (n : ℕ) : R2kGeo := ⟨fun i => i, fun _ => 0, fun ir => ir = n⟩

example : r2kTable (r2kRing 0) true [[0, 0, 0, 0], [1, 0, 0, 0], [0, 0, 1, 0], [0, 1, 1, 1]] [[0, 0, 1, 0, 1, 1, 0, 1]] 1 1 0 0 = 3 ∧
    r2kTable (r2kRing 0) true [[0, 0, 0, 0], [1, 0, 0, 0], [0, 0, 1, 0], [0, 1, 1, 1]] [[0, 0, 1, 0, 1, 1, 0, 1]] 1 7 0 0 = 1 := by decide

/-- The program stops exactly if one of the two-body correlations has no line. -/
theorem C84_stop (G : R2kGeo) (mvmc : Bool) (one two : List (List ℕ)) (nr norb : ℕ) :
    r2kGoes (r2kTable G mvmc one two) nr norb = true ↔ ∀ ir < nr, ∀ k, 3 ≤ k → k ≤ 8 → ∀ o1 < norb, ∀ o2 < norb,
      ∃ a b, r2kWanted mvmc a b k ∈ two ∧ G.zero (G.rindx a) = true ∧ ir = G.rindx b ∧ o1 = G.orb a ∧ o2 = G.orb b := by
  have key : ∀ ir k o1 o2, 3 ≤ k ∧ k ≤ 8 → (r2kTable G mvmc one two ir k o1 o2 ≠ 0 ↔
      ∃ a b, r2kWanted mvmc a b k ∈ two ∧ G.zero (G.rindx a) = true ∧ ir = G.rindx b ∧ o1 = G.orb a ∧ o2 = G.orb b) := by
    intro ir k o1 o2 hk
    rcases r2kTable_two G mvmc one two ir k o1 o2 hk with ⟨h0, hn⟩ | ⟨m, hm, ⟨l, hl, a, b, rfl, h⟩, _⟩
    · rw [h0]
      refine ⟨fun h => absurd rfl h, ?_⟩
      rintro ⟨a, b, hl, h⟩
      exact absurd ⟨a, b, rfl, h⟩ (hn _ hl)
    · rw [hm]
      exact ⟨fun _ => ⟨a, b, List.mem_of_getElem? hl, h⟩, fun _ => by omega⟩
  simp only [r2kGoes, List.all_eq_true, List.mem_range, decide_eq_true_eq]
  constructor
  · intro h ir hir k h3 h8 o1 ho1 o2 ho2
    refine (key ir k o1 o2 ⟨h3, h8⟩).mp (h ir hir k ?_ o1 ho1 o2 ho2)
    have : k = 3 ∨ k = 4 ∨ k = 5 ∨ k = 6 ∨ k = 7 ∨ k = 8 := by omega
    simpa using this
  · intro h ir hir k hk o1 ho1 o2 ho2
    have hk' : 3 ≤ k ∧ k ≤ 8 := by
      simp only [List.mem_cons, List.not_mem_nil, or_false] at hk
      omega
    exact (key ir k o1 o2 hk').mpr (h ir hir k hk'.1 hk'.2 o1 ho1 o2 ho2)

/-- `S⁺S⁻` and `S⁻S⁺` in terms of the products that mVMC measures. -/
theorem C84_flip {N a b : ℕ} (ha : a < N) (hb : b < N) :
    opSplus N a * opSminus N b = (if a = b then prodMat (2 * N) [.cr a, .an b] else 0) - prodMat (2 * N) [.cr a, .an b, .cr (b + N), .an (a + N)] ∧
    opSminus N a * opSplus N b = (if a = b then prodMat (2 * N) [.cr (a + N), .an (b + N)] else 0) - prodMat (2 * N) [.cr (a + N), .an (b + N), .cr b, .an a] :=
  ⟨r2k_flip5 ha hb, r2k_flip6 ha hb⟩

/-- The correlations in real space are those of the manual, if the index files are complete and, for mVMC, the first R-vector is zero. The density is subtracted as if it were the same in
all cells. -/
theorem C84_values_partial {N ir0 : ℕ} {G : R2kGeo} {mvmc : Bool} {one two : List (List ℕ)} (E : Matrix (Conf (2 * N)) (Conf (2 * N)) ℂ →ₗ[ℂ] ℂ) (h1 : E 1 = 1)
    (hG : R2kGood N ir0 G.rindx G.orb G.zero) (hF : R2kFiles N ir0 G.rindx mvmc one two) (h : mvmc = true → ir0 = 0) {a b b0 : ℕ} (ha : a < N) (hb : b < N) (hb0 : b0 < N)
    (ha0 : G.rindx a = ir0) (hb00 : G.rindx b0 = ir0) (ho : G.orb b0 = G.orb b) (ht : E (opRho N b) = E (opRho N b0)) {k : ℕ} (hk : 1 ≤ k ∧ k ≤ 6) :
    r2kCor (r2kTable G mvmc one two) mvmc (one.map fun l => E (prodMat (2 * N) (lineOps N l))) (two.map fun l => E (prodMat (2 * N) (lineOps N l))) ir0
      (G.rindx b) k (G.orb a) (G.orb b) = docCor N E a b k := by
  have h56 := r2k_cor56 E hG hF ha hb ha0 h
  have hk' : k = 1 ∨ k = 2 ∨ k = 3 ∨ k = 4 ∨ k = 5 ∨ k = 6 := by omega
  rcases hk' with rfl | rfl | rfl | rfl | rfl | rfl
  · exact r2k_cor1 E hG hF ha hb ha0 _
  · exact r2k_cor2 E hG hF ha hb ha0 _
  · refine (r2k_cor3 E hG hF ha hb hb0 ha0 hb00 ho).trans ?_
    simp only [docCor, Matrix.sub_mul, Matrix.mul_sub, Matrix.smul_mul, Matrix.mul_smul, Matrix.one_mul, Matrix.mul_one, map_sub, map_smul, smul_eq_mul, h1, ht]
    ring
  · exact r2k_cor4 E hG hF ha hb ha0
  · exact h56.1
  · change r2kCor4 _ _ _ _ _ + 1 / 2 * (r2kCor56 _ _ _ _ _ 5 _ _ + r2kCor56 _ _ _ _ _ 6 _ _) = _
    refine (congrArg₂ (fun x y => x + 1 / 2 * y) (r2k_cor4 E hG hF ha hb ha0) (congrArg₂ (· + ·) h56.1 h56.2)).trans ?_
    simp only [docCor, opSS, map_add, map_smul, smul_eq_mul]

/-- Without translation symmetry of the density the density correlation is that of the manual plus an error. -/
theorem C84_density_violated {N ir0 : ℕ} {G : R2kGeo} {mvmc : Bool} {one two : List (List ℕ)} (E : Matrix (Conf (2 * N)) (Conf (2 * N)) ℂ →ₗ[ℂ] ℂ) (h1 : E 1 = 1)
    (hG : R2kGood N ir0 G.rindx G.orb G.zero) (hF : R2kFiles N ir0 G.rindx mvmc one two) {a b b0 : ℕ} (ha : a < N) (hb : b < N) (hb0 : b0 < N)
    (ha0 : G.rindx a = ir0) (hb00 : G.rindx b0 = ir0) (ho : G.orb b0 = G.orb b) :
    r2kCor (r2kTable G mvmc one two) mvmc (one.map fun l => E (prodMat (2 * N) (lineOps N l))) (two.map fun l => E (prodMat (2 * N) (lineOps N l))) ir0
      (G.rindx b) 3 (G.orb a) (G.orb b) = docCor N E a b 3 + E (opRho N a) * (E (opRho N b) - E (opRho N b0)) := by
  refine (r2k_cor3 E hG hF ha hb hb0 ha0 hb00 ho).trans ?_
  simp only [docCor, Matrix.sub_mul, Matrix.mul_sub, Matrix.smul_mul, Matrix.mul_smul, Matrix.one_mul, Matrix.mul_one, map_sub, map_smul, smul_eq_mul, h1]
  ring

/-- If the first R-vector is not zero, the one-body term of `S⁺S⁻` is missing at R = 0. -/
theorem C84_delta_violated {N ir0 : ℕ} {G : R2kGeo} {one two : List (List ℕ)} (E : Matrix (Conf (2 * N)) (Conf (2 * N)) ℂ →ₗ[ℂ] ℂ)
    (hG : R2kGood N ir0 G.rindx G.orb G.zero) (hF : R2kFiles N ir0 G.rindx true one two) (h : ir0 ≠ 0) {a : ℕ} (ha : a < N) (ha0 : G.rindx a = ir0) :
    r2kCor (r2kTable G true one two) true (one.map fun l => E (prodMat (2 * N) (lineOps N l))) (two.map fun l => E (prodMat (2 * N) (lineOps N l))) ir0
      (G.rindx a) 5 (G.orb a) (G.orb a) = docCor N E a a 5 - E (prodMat (2 * N) (numOp a)) := by
  rw [r2kCor_five]
  have e := r2k_cor5_raw E hG hF ha ha ha0
  rw [if_pos rfl] at e
  simp only [r2kCor56, if_true, Nat.reduceAdd]
  refine (congrArg (fun x => -x + _) e).trans ?_
  rw [if_neg (fun hh => h (ha0.symm.trans hh.1)), docCor, r2k_flip5 ha ha, map_sub, if_pos rfl]
  simp only [numOp]
  ring

/-- Missing one-body correlations are not reported: without any line in `greenone.def` the program goes on, all one-body correlations are 0 and the one-body term of `S⁺S⁻` is missing. -/
theorem C84_onebody_violated {N : ℕ} {G : R2kGeo} {one two : List (List ℕ)} (E : Matrix (Conf (2 * N)) (Conf (2 * N)) ℂ →ₗ[ℂ] ℂ) {ir0 : ℕ}
    (hG : R2kGood N ir0 G.rindx G.orb G.zero) (hF : R2kFiles N ir0 G.rindx true one two) {a : ℕ} (ha : a < N) (ha0 : G.rindx a = ir0) (nr norb : ℕ)
    (hg : r2kGoes (r2kTable G true one two) nr norb = true) :
    r2kGoes (r2kTable G true [] two) nr norb = true ∧ (∀ ir o1 o2 c2, r2kCor (r2kTable G true [] two) true [] c2 ir0 ir 1 o1 o2 = 0) ∧
    r2kCor (r2kTable G true [] two) true [] (two.map fun l => E (prodMat (2 * N) (lineOps N l))) ir0 (G.rindx a) 5 (G.orb a) (G.orb a) =
      docCor N E a a 5 - E (prodMat (2 * N) (numOp a)) := by
  refine ⟨(C84_stop _ _ _ _ _ _).mpr ((C84_stop _ _ _ _ _ _).mp hg), ?_, ?_⟩
  · intro ir o1 o2 c2
    change r2kVal [] _ = 0
    rw [r2kVal]
    split_ifs <;> simp
  · have same : ∀ ir k o1 o2, 3 ≤ k ∧ k ≤ 8 → r2kVal (two.map (r2kFile N E)) (r2kTable G true [] two ir k o1 o2) = r2kVal (two.map (r2kFile N E)) (r2kTable G true one two ir k o1 o2) := by
      intro ir k o1 o2 hk
      have u := r2kTable_two G true [] two ir k o1 o2 hk
      have w := r2kTable_two G true one two ir k o1 o2 hk
      congr 1
      rcases u with ⟨h0, hn⟩ | ⟨m, hm, ⟨l, hl, hp⟩, hlast⟩
      · rcases w with ⟨h0', _⟩ | ⟨m', _, ⟨l', hl', hp'⟩, _⟩
        · rw [h0, h0']
        · exact absurd hp' (hn l' (List.mem_of_getElem? hl'))
      · rcases w with ⟨_, hn⟩ | ⟨m', hm', ⟨l', hl', hp'⟩, hlast'⟩
        · exact absurd hp (hn l (List.mem_of_getElem? hl))
        · rw [hm, hm']
          rcases lt_trichotomy m m' with h | h | h
          · exact absurd hp' (hlast m' l' h hl')
          · rw [h]
          · exact absurd hp (hlast' m l h hl)
    rw [r2kCor_five]
    have e := (same (G.rindx a) 7 (G.orb a) (G.orb a) (by omega)).trans (r2k_cor5_raw E hG hF ha ha ha0)
    rw [if_pos rfl] at e
    simp only [r2kCor56, if_true, Nat.reduceAdd]
    refine (congrArg (fun x => -x + _) e).trans ?_
    have z : ∀ n, r2kVal ([] : List ℂ) n = 0 := by
      intro n
      rw [r2kVal]
      split_ifs <;> simp
    simp only [r2kCor1, z, ite_self, add_zero, docCor]
    rw [r2k_flip5 ha ha, map_sub, if_pos rfl]
    simp only [numOp]
    ring

/-- The lines of the manual for two sites in a ring. -/
def r2kRingLines (mvmc : Bool) (z : ℕ) (ks : List ℕ) : List (List ℕ) := ks.flatMap fun k => [r2kWanted mvmc z 0 k, r2kWanted mvmc z 1 k]

/-- The conditions of these theorems hold for a ring of two sites, with cell 0 as the first or as the second cell. -/
theorem C84_ring (mvmc : Bool) (z : ℕ) (hz : z < 2) : R2kGood 2 z (r2kRing z).rindx (r2kRing z).orb (r2kRing z).zero ∧
    R2kFiles 2 z (r2kRing z).rindx mvmc (r2kRingLines mvmc z [1, 2]) (r2kRingLines mvmc z [3, 4, 5, 6, 7, 8]) ∧
    r2kGoes (r2kTable (r2kRing z) mvmc (r2kRingLines mvmc z [1, 2]) (r2kRingLines mvmc z [3, 4, 5, 6, 7, 8])) 2 1 = true := by
  have inRange : ∀ l : List ℕ, (∀ x ∈ l, x < 2) → ∀ p, l.getD p 0 < 2 := by
    intro l h p
    rw [List.getD_eq_getElem?_getD]
    cases e : l[p]? with
    | none => simp
    | some x => exact h x (List.mem_of_getElem? e)
  refine ⟨⟨fun i _ j _ h _ => h, fun i _ => by simp [r2kRing]⟩, ⟨?_, ?_, ?_, ?_⟩, ?_⟩
  · have : ∀ l ∈ r2kRingLines mvmc z [1, 2], ∀ x ∈ l, x < 2 := by
      have hz' : z = 0 ∨ z = 1 := by omega
      rcases hz' with rfl | rfl <;> cases mvmc <;> decide
    exact fun l hl p => inRange l (this l hl) _
  · have : ∀ l ∈ r2kRingLines mvmc z [3, 4, 5, 6, 7, 8], ∀ x ∈ l, x < 2 := by
      have hz' : z = 0 ∨ z = 1 := by omega
      rcases hz' with rfl | rfl <;> cases mvmc <;> decide
    exact fun l hl p => inRange l (this l hl) _
  · intro a _ h b hb k hk
    have ha : a = z := h
    subst ha
    have hb' : b = 0 ∨ b = 1 := by omega
    rcases hb' with rfl | rfl <;> rcases hk with rfl | rfl <;> simp [r2kRingLines]
  · intro a _ h b hb k h3 h8
    have ha : a = z := h
    subst ha
    have hb' : b = 0 ∨ b = 1 := by omega
    have hk : k = 3 ∨ k = 4 ∨ k = 5 ∨ k = 6 ∨ k = 7 ∨ k = 8 := by omega
    rcases hb' with rfl | rfl <;> rcases hk with rfl | rfl | rfl | rfl | rfl | rfl <;> simp [r2kRingLines]
  · have hz' : z = 0 ∨ z = 1 := by omega
    rcases hz' with rfl | rfl <;> cases mvmc <;> decide

/-- A ring of two sites whose first line in the geometry file is not cell 0, with one electron: `S⁺S⁻` at R = 0 is wrong, for complete index files. -/
theorem C84_delta_witness : ∃ (E : Matrix (Conf (2 * 2)) (Conf (2 * 2)) ℂ →ₗ[ℂ] ℂ), E 1 = 1 ∧
    r2kCor (r2kTable (r2kRing 1) true (r2kRingLines true 1 [1, 2]) (r2kRingLines true 1 [3, 4, 5, 6, 7, 8])) true
      ((r2kRingLines true 1 [1, 2]).map fun l => E (prodMat (2 * 2) (lineOps 2 l))) ((r2kRingLines true 1 [3, 4, 5, 6, 7, 8]).map fun l => E (prodMat (2 * 2) (lineOps 2 l))) 1 1 5 0 0 ≠
      docCor 2 E 1 1 5 := by
  obtain ⟨E, h1, h2⟩ := r2k_state (M := 2 * 2) (x := 1) (by decide)
  obtain ⟨g1, g2, _⟩ := C84_ring true 1 (by decide)
  refine ⟨E, h1, ?_⟩
  have := C84_delta_violated E g1 g2 (by decide) (a := 1) (by decide) rfl
  rw [h2] at this
  refine fun h => ?_
  have e := this.symm.trans h
  have : (1 : ℂ) = 0 := by linear_combination -e
  exact one_ne_zero this

/-- The conditions on the lattice hold for a geometry file with independent lattice vectors whose lines are different, whose cells are different modulo the supercell, and one of which is zero
up to two supercells. -/
theorem C84_geometry {d : Fin 3 → Fin 3 → ℝ} (hd : (Matrix.of d).det ≠ 0) (box : R2V × R2V × R2V) (sites : List (R2V × ℕ)) (hn : sites.Nodup)
    (hl : ∀ x ∈ sites, ∀ s ∈ r2kShifts, r2kLen d (r2kMove box x.1 s) < 10 ^ 10 - 1 / 10 ^ 6)
    (hs : ∀ x ∈ sites, ∀ s ∈ r2kShifts, ∀ t ∈ r2kShifts, r2kLen d (r2kMove box x.1 s) = r2kLen d (r2kMove box x.1 t) ∨
      1 / 10 ^ 6 < |r2kLen d (r2kMove box x.1 s) - r2kLen d (r2kMove box x.1 t)|)
    (hc : ∀ x ∈ sites, ∀ y ∈ sites, ∀ s, r2kMove box x.1 s = y.1 → x.1 = y.1) {z : ℕ} (hz : z < sites.length) {s0 : R2V} (hs0 : s0 ∈ r2kShifts) (h0 : r2kMove box sites[z].1 s0 = 0) :
    R2kGood sites.length ((r2kGeoOf d box sites).rindx z) (r2kGeoOf d box sites).rindx (r2kGeoOf d box sites).orb (r2kGeoOf d box sites).zero := by
  have hnd : (r2kSites (sites.map Prod.fst) [] []).1.Nodup := (C84_sites _).1
  have same : ∀ i (hi : i < sites.length) j (hj : j < sites.length), (r2kGeoOf d box sites).rindx i = (r2kGeoOf d box sites).rindx j ↔ sites[i].1 = sites[j].1 := by
    intro i hi j hj
    have ei := r2kGeoOf_rindx d box sites i hi
    have ej := r2kGeoOf_rindx d box sites j hj
    constructor
    · intro h
      rw [h, ej] at ei
      exact (Option.some.inj ei).symm
    · intro h
      rw [h, ← ej] at ei
      obtain ⟨hi', _⟩ := List.getElem?_eq_some_iff.mp (r2kGeoOf_rindx d box sites i hi)
      exact (List.getElem?_inj hi' hnd).mp ei
  refine ⟨?_, ?_⟩
  · intro i hi j hj h ho
    have e1 := (same i hi j hj).mp h
    simp only [r2kGeoOf, List.getD_eq_getElem?_getD, List.getElem?_eq_getElem hi, List.getElem?_eq_getElem hj, Option.getD_some] at ho
    exact (hn.getElem_inj_iff).mp (Prod.ext e1 ho)
  · intro i hi
    rw [same i hi z hz]
    have hv : (r2kSites (sites.map Prod.fst) [] []).1.getD ((r2kGeoOf d box sites).rindx i) 0 = sites[i].1 := by
      rw [List.getD_eq_getElem?_getD, r2kGeoOf_rindx d box sites i hi]
      rfl
    have hzero : (r2kGeoOf d box sites).zero ((r2kGeoOf d box sites).rindx i) = true ↔ ((r2kImages d box sites[i].1).2.map (r2kMove box sites[i].1)).head? = some 0 := by
      change decide _ = true ↔ _
      rw [decide_eq_true_eq, hv]
    rw [hzero]
    obtain ⟨hne, him⟩ := C84_images d box sites[i].1 (hl _ (List.getElem_mem hi)) (hs _ (List.getElem_mem hi))
    obtain ⟨s, rest, e⟩ := List.exists_cons_of_ne_nil hne
    rw [e, List.map_cons, List.head?_cons, Option.some_inj]
    constructor
    · intro h
      exact hc _ (List.getElem_mem hi) _ (List.getElem_mem hz) (s - s0) (r2kMove_back box _ _ s s0 (h.trans h0.symm))
    · intro h
      have m := ((him s).mp (e ▸ List.mem_cons_self)).2 s0 hs0
      have z0 : r2kLen d (r2kMove box sites[i].1 s0) = 0 := (r2kLen_zero hd).mpr (by rw [h]; exact h0)
      rw [z0] at m
      exact (r2kLen_zero hd).mp (le_antisymm m (Real.sqrt_nonneg _))

/-- a chain of two cells with two orbitals, the second cell first and given one supercell further -/
example : R2kGood 4 1 (r2kGeoOf r2kCubic ((2, 0, 0), (0, 9, 0), (0, 0, 9)) [((3, 0, 0), 0), ((3, 0, 0), 1), ((2, 0, 0), 0), ((2, 0, 0), 1)]).rindx
    (r2kGeoOf r2kCubic ((2, 0, 0), (0, 9, 0), (0, 0, 9)) [((3, 0, 0), 0), ((3, 0, 0), 1), ((2, 0, 0), 0), ((2, 0, 0), 1)]).orb
    (r2kGeoOf r2kCubic ((2, 0, 0), (0, 9, 0), (0, 0, 9)) [((3, 0, 0), 0), ((3, 0, 0), 1), ((2, 0, 0), 0), ((2, 0, 0), 1)]).zero := by
  have big : ∀ x ∈ [(((3, 0, 0) : R2V), 0), ((3, 0, 0), 1), ((2, 0, 0), 0), ((2, 0, 0), 1)], ∀ s ∈ r2kShifts, r2kSq (r2kMove ((2, 0, 0), (0, 9, 0), (0, 0, 9)) x.1 s) ≤ 10 ^ 8 := by decide +kernel
  refine C84_geometry (z := 2) (s0 := (-1, 0, 0)) ?_ _ _ (by decide) (fun x hx => (r2kCubic_cond _ _ (big x hx)).1) (fun x hx => (r2kCubic_cond _ _ (big x hx)).2) ?_ (by decide)
    (by decide) (by decide)
  · have : (Matrix.of r2kCubic) = 1 := by
      ext i j
      simp [r2kCubic, Matrix.one_apply]
    rw [this, Matrix.det_one]
    exact one_ne_zero
  · intro x hx y hy s h
    have h1 := congrArg Prod.fst h
    simp only [r2kMove, Prod.fst_add, Prod.smul_fst, smul_eq_mul, mul_zero, add_zero] at h1
    simp only [List.mem_cons, List.not_mem_nil, or_false] at hx hy
    rcases hx with rfl | rfl | rfl | rfl <;> rcases hy with rfl | rfl | rfl | rfl <;> first | rfl | (exfalso; simp only at h1; omega)

/-- The cell that is taken as cell 0 is the only one that is recognised as zero. -/
theorem C84_zero_cell {N ir0 nr : ℕ} {G : R2kGeo} (hG : R2kGood N ir0 G.rindx G.orb G.zero) (hr : ∀ ir < nr, ∃ i < N, G.rindx i = ir) (h0 : ir0 < nr) :
    r2kIr0 G.zero nr = some ir0 := by
  have key : ∀ ir < nr, G.zero ir = true ↔ ir = ir0 := by
    intro ir h
    obtain ⟨i, hi, rfl⟩ := hr ir h
    exact hG.zero i hi
  cases e : r2kIr0 G.zero nr with
  | none =>
    rw [r2kIr0, List.find?_eq_none] at e
    exact absurd ((key ir0 h0).mpr rfl) (e ir0 (List.mem_range.mpr h0))
  | some x =>
    rw [r2kIr0] at e
    have hx := List.mem_range.mp (List.mem_of_find?_eq_some e)
    rw [(key x hx).mp (List.find?_some e)]

example : r2kIr0 (r2kRing 1).zero 2 = some 1 := by decide

/-- At a k-point of the lattice with the boundary phase, the result is the sum of the manual over the R-vectors. -/
theorem C84_fourier_partial {N ir0 nr : ℕ} {G : R2kGeo} {mvmc : Bool} {one two : List (List ℕ)} (E : Matrix (Conf (2 * N)) (Conf (2 * N)) ℂ →ₗ[ℂ] ℂ) (h1 : E 1 = 1)
    (hG : R2kGood N ir0 G.rindx G.orb G.zero) (hF : R2kFiles N ir0 G.rindx mvmc one two) (h : mvmc = true → ir0 = 0) {a b0 o2 : ℕ} (ha : a < N) (hb0 : b0 < N)
    (ha0 : G.rindx a = ir0) (hb00 : G.rindx b0 = ir0) (ho : G.orb b0 = o2) (site : ℕ → ℕ)
    (hsite : ∀ ir < nr, site ir < N ∧ G.rindx (site ir) = ir ∧ G.orb (site ir) = o2 ∧ E (opRho N (site ir)) = E (opRho N b0))
    (d : Fin 3 → Fin 3 → ℝ) (box : R2V × R2V × R2V) (phase0 q : ℝ × ℝ × ℝ) (R : ℕ → R2V) (himg : ∀ ir < nr, (r2kImages d box (R ir)).2 ≠ [])
    (hq1 : ∃ m : ℤ, 2 * Real.pi * r2kDot q box.1 = phase0.1 + 2 * Real.pi * m) (hq2 : ∃ m : ℤ, 2 * Real.pi * r2kDot q box.2.1 = phase0.2.1 + 2 * Real.pi * m)
    (hq3 : ∃ m : ℤ, 2 * Real.pi * r2kDot q box.2.2 = phase0.2.2 + 2 * Real.pi * m) {k : ℕ} (hk : 1 ≤ k ∧ k ≤ 6) :
    r2kCorK nr (fun ir => r2kFmat box phase0 (R ir) (r2kImages d box (R ir)).2 q)
      (fun ir k => r2kCor (r2kTable G mvmc one two) mvmc (one.map fun l => E (prodMat (2 * N) (lineOps N l))) (two.map fun l => E (prodMat (2 * N) (lineOps N l))) ir0 ir k (G.orb a) o2) k =
      (∑ ir ∈ Finset.range nr, planeWave q (R ir) * docCor N E a (site ir) k) / if k ≤ 2 then 1 else (nr : ℂ) := by
  have e : ∀ ir ∈ Finset.range nr, r2kFmat box phase0 (R ir) (r2kImages d box (R ir)).2 q *
      r2kCor (r2kTable G mvmc one two) mvmc (one.map fun l => E (prodMat (2 * N) (lineOps N l))) (two.map fun l => E (prodMat (2 * N) (lineOps N l))) ir0 ir k (G.orb a) o2 =
      planeWave q (R ir) * docCor N E a (site ir) k := by
    intro ir hir
    obtain ⟨s1, s2, s3, s4⟩ := hsite ir (Finset.mem_range.mp hir)
    rw [r2kFmat_eq _ _ _ _ _ (himg ir (Finset.mem_range.mp hir)) hq1 hq2 hq3]
    congr 1
    have := C84_values_partial E h1 hG hF h ha s1 hb0 ha0 hb00 (ho.trans s3.symm) s4 hk
    rw [s2, s3] at this
    exact this
  rw [r2kCorK, Finset.sum_congr rfl e]
  split_ifs <;> simp

/-- With antiperiodic boundaries the density and spin correlations are multiplied by the boundary phase as well, though they are periodic: for a constant correlation on a ring of three
cells the value at k = 0 is 1/3 instead of 1. -/
theorem C84_phase_violated : ∃ (box : R2V × R2V × R2V) (phase0 : ℝ × ℝ × ℝ) (R : ℕ → R2V),
    r2kCorK 3 (fun ir => r2kFmat box phase0 (R ir) (r2kImages r2kCubic box (R ir)).2 (0, 0, 0)) (fun _ _ => 1) 4 = 1 / 3 ∧
    (∑ ir ∈ Finset.range 3, planeWave (0, 0, 0) (R ir) * 1) / 3 = (1 : ℂ) := by
  refine ⟨((3, 0, 0), (0, 9, 0), (0, 0, 9)), (Real.pi, 0, 0), fun ir => ((ir : ℤ), 0, 0), ?_, ?_⟩
  · have e0 : (r2kImages r2kCubic ((3, 0, 0), (0, 9, 0), (0, 0, 9)) (((0 : ℕ) : ℤ), 0, 0)).2 = [(0, 0, 0)] := by
      rw [r2kImages_cubic _ _ 0 (by decide +kernel) (by decide +kernel) (by decide +kernel)]; decide +kernel
    have e1 : (r2kImages r2kCubic ((3, 0, 0), (0, 9, 0), (0, 0, 9)) (((1 : ℕ) : ℤ), 0, 0)).2 = [(0, 0, 0)] := by
      rw [r2kImages_cubic _ _ 1 (by decide +kernel) (by decide +kernel) (by decide +kernel)]; decide +kernel
    have e2 : (r2kImages r2kCubic ((3, 0, 0), (0, 9, 0), (0, 0, 9)) (((2 : ℕ) : ℤ), 0, 0)).2 = [(-1, 0, 0)] := by
      rw [r2kImages_cubic _ _ 1 (by decide +kernel) (by decide +kernel) (by decide +kernel)]; decide +kernel
    rw [r2kCorK, if_neg (by decide), Finset.sum_range_succ, Finset.sum_range_succ, Finset.sum_range_one, e0, e1, e2]
    have f0 : ∀ v : R2V, r2kFmat ((3, 0, 0), (0, 9, 0), (0, 0, 9)) (Real.pi, 0, 0) v [(0, 0, 0)] (0, 0, 0) = 1 := by
      intro v
      simp [r2kFmat, r2kDot, Complex.ext_iff]
    have f2 : ∀ v : R2V, r2kFmat ((3, 0, 0), (0, 9, 0), (0, 0, 9)) (Real.pi, 0, 0) v [(-1, 0, 0)] (0, 0, 0) = -1 := by
      intro v
      simp [r2kFmat, r2kDot, Complex.ext_iff]
    rw [f0, f0, f2]
    norm_num
  · simp [planeWave]

/-- The k-points: as many as allocated, the lines between the nodes with equal steps, then the grid with the last index fastest. -/
theorem C84_kpoints (knode : List (ℚ × ℚ × ℚ)) (nkLine n1 n2 n3 : ℕ) :
    (r2kKpoints knode nkLine n1 n2 n3).length = r2kNk knode.length nkLine n1 n2 n3 ∧
    (r2kKpoints knode nkLine n1 n2 n3)[0]? = some (knode.getD 0 0) ∧
    (∀ i < knode.length - 1, ∀ j < nkLine, (r2kKpoints knode nkLine n1 n2 n3)[1 + (i * nkLine + j)]? =
      some (knode.getD i 0 + (((j + 1 : ℕ) : ℚ) / nkLine) • (knode.getD (i + 1) 0 - knode.getD i 0))) ∧
    ∀ i1 < n1, ∀ i2 < n2, ∀ i3 < n3, (r2kKpoints knode nkLine n1 n2 n3)[1 + (knode.length - 1) * nkLine + ((i1 * n2 + i2) * n3 + i3)]? =
      some ((i1 / n1 : ℚ), (i2 / n2 : ℚ), (i3 / n3 : ℚ)) := by
  set A : ℕ → List (ℚ × ℚ × ℚ) := fun inode => (List.range nkLine).map fun ik =>
    let xx : ℚ := ((ik + 1 : ℕ) : ℚ) / nkLine
    (1 - xx) • knode.getD inode 0 + xx • knode.getD (inode + 1) 0 with hA
  set B : ℕ → ℕ → List (ℚ × ℚ × ℚ) := fun i1 i2 => (List.range n3).map fun (i3 : ℕ) => ((i1 / n1 : ℚ), (i2 / n2 : ℚ), (i3 / n3 : ℚ)) with hB
  have e : r2kKpoints knode nkLine n1 n2 n3 = [knode.getD 0 0] ++ (List.range (knode.length - 1)).flatMap A ++ (List.range n1).flatMap (fun i1 => (List.range n2).flatMap (B i1)) := by
    unfold r2kKpoints
    rfl
  have lA := r2k_flatMap_length A nkLine (knode.length - 1) (fun i _ => by simp [hA])
  have lB : ∀ i1, ((List.range n2).flatMap (B i1)).length = n2 * n3 := fun i1 => r2k_flatMap_length (B i1) n3 n2 (fun i _ => by simp [hB])
  have lC := r2k_flatMap_length (fun i1 => (List.range n2).flatMap (B i1)) (n2 * n3) n1 (fun i _ => lB i)
  rw [e]
  refine ⟨?_, ?_, ?_, ?_⟩
  · rw [List.length_append, List.length_append, lA, lC, r2kNk, List.length_singleton]
    ring
  · simp
  · intro i hi j hj
    have hlt : i * nkLine + j < (knode.length - 1) * nkLine := by
      have := Nat.mul_le_mul_right nkLine (show i + 1 ≤ knode.length - 1 by omega)
      rw [Nat.succ_mul] at this
      omega
    rw [List.append_assoc, List.getElem?_append_right (by simp), List.length_singleton, Nat.add_sub_cancel_left, List.getElem?_append_left (by omega),
      r2k_flatMap_get A nkLine _ (fun i _ => by simp [hA]) i hi j hj]
    simp only [hA, List.getElem?_map, List.getElem?_range hj, Option.map_some]
    congr 1
    module
  · intro i1 h1 i2 h2 i3 h3
    have hlt : i2 * n3 + i3 < n2 * n3 := by
      have := Nat.mul_le_mul_right n3 (show i2 + 1 ≤ n2 by omega)
      rw [Nat.succ_mul] at this
      omega
    rw [List.getElem?_append_right (by simp only [List.length_append, List.length_singleton, lA]; omega), List.length_append, List.length_singleton, lA, Nat.add_sub_cancel_left,
      show (i1 * n2 + i2) * n3 + i3 = i1 * (n2 * n3) + (i2 * n3 + i3) by ring,
      r2k_flatMap_get (fun i1 => (List.range n2).flatMap (B i1)) (n2 * n3) n1 (fun i _ => lB i) i1 h1 _ hlt,
      r2k_flatMap_get (B i1) n3 n2 (fun i _ => by simp [hB]) i2 h2 i3 h3]
    simp [hB, List.getElem?_range h3]

example : r2kKpoints [(0, 0, 0), (1 / 2, 0, 0)] 2 1 2 1 = [(0, 0, 0), (1 / 4, 0, 0), (1 / 2, 0, 0), (0, 0, 0), (0, 1 / 2, 0)] := by decide +kernel

/-- The error is the standard error of the mean, for real and imaginary part. -/
theorem C84_error (x : List ℂ) (hx : 2 ≤ x.length) :
    (r2kErr x).re = Real.sqrt ((x.map fun z => (z.re - (x.map Complex.re).sum / x.length) ^ 2).sum / (x.length * (x.length - 1))) ∧
    (r2kErr x).im = Real.sqrt ((x.map fun z => (z.im - (x.map Complex.im).sum / x.length) ^ 2).sum / (x.length * (x.length - 1))) := by
  have hr : (r2kAve x).re = (x.map Complex.re).sum / x.length := by
    rw [r2kAve, ← r2k_sum_re, Complex.div_natCast_re]
  have hi : (r2kAve x).im = (x.map Complex.im).sum / x.length := by
    rw [r2kAve, ← r2k_sum_im, Complex.div_natCast_im]
  have hn : (((x.length * (x.length - 1) : ℕ)) : ℝ) = x.length * (x.length - 1) := by
    rw [Nat.cast_mul, Nat.cast_sub (by omega), Nat.cast_one]
  have hp : (0 : ℝ) ≤ x.length * (x.length - 1) := by rw [← hn]; positivity
  rw [r2kErr, if_neg (by omega)]
  dsimp only
  rw [Complex.div_ofReal_re, Complex.div_ofReal_im, hn, r2k_sum_re, r2k_sum_im, List.map_map, List.map_map, ← Real.sqrt_div' _ hp, ← Real.sqrt_div' _ hp]
  simp only [Function.comp_def, Complex.sub_re, Complex.sub_im, hr, hi]
  exact ⟨trivial, trivial⟩

/-- File names: three digits as `%03d` of mVMC below 1000. -/
theorem C84_file_name : ∀ n < 1000, r2kTail n = '_' :: (List.replicate (3 - (Nat.toDigits 10 n).length) '0' ++ Nat.toDigits 10 n) ++ ['.', 'd', 'a', 't'] := by
  decide +kernel

/-- From 1000 on the tool looks for a file that mVMC does not write, and for the same one each time. -/
theorem C84_file_name_violated : r2kTail 1000 = "_***.dat".toList ∧ r2kTail 1001 = r2kTail 1000 := ⟨rfl, rfl⟩

end MVMC
