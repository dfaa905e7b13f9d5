import Verif.Proof.ReadGroup

/-!
# The loop bodies of the readers of parameter indices
-/

namespace MVMC

theorem len2 {a : List ℤ} (h : a.length = 2) : ∃ p q, a = [p, q] := by
  match a, h with
  | [p, q], _ => exact ⟨p, q, rfl⟩

theorem len1 {a : List ℤ} (h : a.length = 1) : ∃ p, a = [p] := by
  match a, h with
  | [p], _ => exact ⟨p, rfl⟩

theorem len3 {a : List ℤ} (h : a.length = 3) : ∃ p q r, a = [p, q, r] := by
  match a, h with
  | [p, q, r], _ => exact ⟨p, q, r, rfl⟩

theorem len4 {a : List ℤ} (h : a.length = 4) : ∃ p q r s, a = [p, q, r, s] := by
  match a, h with
  | [p, q, r, s], _ => exact ⟨p, q, r, s, rfl⟩

theorem len6 {a : List ℤ} (h : a.length = 6) : ∃ p q r s u v, a = [p, q, r, s, u, v] := by
  match a, h with
  | [p, q, r, s, u, v], _ => exact ⟨p, q, r, s, u, v, rfl⟩

theorem len0 {a : List ℤ} (h : a.length = 0) : a = [] := List.length_eq_zero_iff.1 h

/-- An entry `i v` of a layer. -/
def LayerV (N : ℕ) (a : List ℤ) : Prop := InLat N (a.getD 0 0)
/-- The store of an entry of a layer. -/
def layerS (a : List ℤ) : List (ℕ × Option ℤ) := [((a.getD 0 0).toNat, some (a.getD 1 0))]

theorem layerBody_ok (N : ℕ) : BodyOK 1 1 (layerBody N) (LayerV N) layerS where
  pos := by decide
  one := by decide
  good := by
    intro x ys s t hx hy hv
    obtain ⟨i, rfl⟩ := len1 hx
    obtain ⟨v, rfl⟩ := len1 hy
    have hv' : InLat N i := hv
    simp only [layerBody, List.map_cons, List.map_nil, List.cons_append, List.nil_append,
      List.getD_cons_zero]
    rw [if_neg (by unfold InLat at hv'; omega), if_neg (by rw [not_not]; exact (checkSite_iff _ _).2 hv')]
    rfl
  bad := by
    intro x ys s t hx hy hv s' t'
    obtain ⟨i, rfl⟩ := len1 hx
    obtain ⟨v, rfl⟩ := len1 hy
    have hv' : ¬ InLat N i := hv
    simp only [layerBody, List.map_cons, List.map_nil, List.cons_append, List.nil_append,
      List.getD_cons_zero]
    rw [if_pos (by unfold InLat at hv'; omega)]
    simp
  stuck := by
    intro x s t s' t' hs h
    rcases hs with rfl | ⟨r, rfl⟩
    all_goals
      simp only [layerBody] at h
      split_ifs at h
      cases h
      rfl

/-- An entry `i j v` of the Jastrow table. -/
def JastV (N : ℕ) (a : List ℤ) : Prop :=
  a.getD 0 0 ≠ a.getD 1 0 ∧ InLat N (a.getD 0 0) ∧ InLat N (a.getD 1 0)
/-- The stores of an entry of the Jastrow table. -/
def jastS (N : ℕ) (a : List ℤ) : List (ℕ × Option ℤ) :=
  [((a.getD 0 0).toNat * N + (a.getD 1 0).toNat, some (a.getD 2 0)),
   ((a.getD 0 0).toNat * N + (a.getD 0 0).toNat, some (-1))]

theorem jastrowBody_ok (N : ℕ) : BodyOK 2 1 (jastrowBody N) (JastV N) (jastS N) where
  pos := by decide
  one := by decide
  good := by
    intro x ys s t hx hy hv
    obtain ⟨i, j, rfl⟩ := len2 hx
    obtain ⟨v, rfl⟩ := len1 hy
    obtain ⟨h1, h2⟩ := hv
    have h1' : i ≠ j := h1
    have h2' : checkPairSite i j N = 0 := (checkPairSite_iff _ _ _).2 h2
    simp only [jastrowBody, List.map_cons, List.map_nil, List.cons_append, List.nil_append,
      List.getD_cons_zero, List.getD_cons_succ, if_neg h1', h2']
    rfl
  bad := by
    intro x ys s t hx hy hv s' t'
    obtain ⟨i, j, rfl⟩ := len2 hx
    obtain ⟨v, rfl⟩ := len1 hy
    have hv' : ¬ (i ≠ j ∧ InLat N i ∧ InLat N j) := hv
    simp only [jastrowBody, List.map_cons, List.map_nil, List.cons_append, List.nil_append,
      List.getD_cons_zero, List.getD_cons_succ]
    by_cases h1 : i = j
    · rw [if_pos h1]; simp
    · rw [if_neg h1, if_pos (fun c => hv' ⟨h1, (checkPairSite_iff _ _ _).1 c⟩)]
      simp
  stuck := by
    intro x s t s' t' hs h
    rcases hs with rfl | ⟨r, rfl⟩
    all_goals
      simp only [jastrowBody] at h
      split_ifs at h
      cases h
      rfl

/-- An entry `i x0 x1 n` of the two-site doublon-holon table. -/
def DH2V (N M : ℕ) (a : List ℤ) : Prop :=
  InLat N (a.getD 0 0) ∧ InLat N (a.getD 1 0) ∧ InLat N (a.getD 2 0) ∧ InLat M (a.getD 3 0)
/-- The stores of an entry of the two-site doublon-holon table. -/
def dh2S (N : ℕ) (a : List ℤ) : List (ℕ × Option ℤ) :=
  [((a.getD 3 0).toNat * (2 * N) + 2 * (a.getD 0 0).toNat, some (a.getD 1 0)),
   ((a.getD 3 0).toNat * (2 * N) + (2 * (a.getD 0 0).toNat + 1), some (a.getD 2 0))]

theorem dh2Body_ok (N M : ℕ) : BodyOK 4 0 (dh2Body N M) (DH2V N M) (dh2S N) where
  pos := by decide
  one := by decide
  good := by
    intro x ys s t hx hy hv
    obtain ⟨i, x0, x1, n, rfl⟩ := len4 hx
    rw [len0 hy] at hv ⊢
    have hv' : InLat N i ∧ InLat N x0 ∧ InLat N x1 ∧ InLat M n := hv
    obtain ⟨h1, h2, h3, h4⟩ := hv'
    simp only [dh2Body, List.map_nil, List.nil_append, List.getD_cons_zero, List.getD_cons_succ]
    rw [if_neg (by unfold InLat at h1 h4; omega), if_neg (by
      rw [not_or, not_not, not_not]
      exact ⟨(checkSite_iff _ _).2 h1, (checkPairSite_iff _ _ _).2 ⟨h2, h3⟩⟩)]
    rfl
  bad := by
    intro x ys s t hx hy hv s' t'
    obtain ⟨i, x0, x1, n, rfl⟩ := len4 hx
    rw [len0 hy] at hv ⊢
    have hv' : ¬ (InLat N i ∧ InLat N x0 ∧ InLat N x1 ∧ InLat M n) := hv
    simp only [dh2Body, List.map_nil, List.nil_append, List.getD_cons_zero, List.getD_cons_succ]
    split_ifs with c1 c2
    · simp
    · simp
    · exfalso
      rw [not_or, not_not, not_not, checkSite_iff, checkPairSite_iff] at c2
      exact hv' ⟨c2.1, c2.2.1, c2.2.2, by unfold InLat; omega⟩
  stuck := by
    intro x s t s' t' _ h
    simp only [dh2Body] at h
    split_ifs at h
    cases h
    rfl

/-- An entry `i x0 x1 x2 x3 n` of the four-site doublon-holon table. -/
def DH4V (N M : ℕ) (a : List ℤ) : Prop :=
  InLat N (a.getD 0 0) ∧ ((InLat N (a.getD 1 0) ∧ InLat N (a.getD 2 0)) ∧
    InLat N (a.getD 3 0) ∧ InLat N (a.getD 4 0)) ∧ InLat M (a.getD 5 0)
/-- The stores of an entry of the four-site doublon-holon table. -/
def dh4S (N : ℕ) (a : List ℤ) : List (ℕ × Option ℤ) :=
  (List.range 4).map fun k =>
    ((a.getD 5 0).toNat * (4 * N) + (4 * (a.getD 0 0).toNat + k), some (a.getD (k + 1) 0))

theorem dh4Body_ok (N M : ℕ) : BodyOK 6 0 (dh4Body N M) (DH4V N M) (dh4S N) where
  pos := by decide
  one := by decide
  good := by
    intro x ys s t hx hy hv
    obtain ⟨i, x0, x1, x2, x3, n, rfl⟩ := len6 hx
    rw [len0 hy] at hv ⊢
    have hv' : InLat N i ∧ ((InLat N x0 ∧ InLat N x1) ∧ InLat N x2 ∧ InLat N x3) ∧ InLat M n := hv
    obtain ⟨h1, h2, h4⟩ := hv'
    simp only [dh4Body, List.map_nil, List.nil_append, List.getD_cons_zero, List.getD_cons_succ]
    rw [if_neg (by unfold InLat at h1 h4; omega), if_neg (by
      rw [not_or, not_not, not_not]
      exact ⟨(checkSite_iff _ _).2 h1, (checkQuadSite_iff _ _ _ _ _).2 h2⟩)]
    rfl
  bad := by
    intro x ys s t hx hy hv s' t'
    obtain ⟨i, x0, x1, x2, x3, n, rfl⟩ := len6 hx
    rw [len0 hy] at hv ⊢
    have hv' : ¬ (InLat N i ∧ ((InLat N x0 ∧ InLat N x1) ∧ InLat N x2 ∧ InLat N x3) ∧ InLat M n) := hv
    simp only [dh4Body, List.map_nil, List.nil_append, List.getD_cons_zero, List.getD_cons_succ]
    split_ifs with c1 c2
    · simp
    · simp
    · exfalso
      rw [not_or, not_not, not_not, checkSite_iff, checkQuadSite_iff] at c2
      exact hv' ⟨c2.1, c2.2, by unfold InLat; omega⟩
  stuck := by
    intro x s t s' t' _ h
    simp only [dh4Body] at h
    split_ifs at h
    cases h
    rfl

/-- An entry `i s v` of the layer of spin orbitals. -/
def GenLayerV (N : ℕ) (a : List ℤ) : Prop := InLat N (a.getD 0 0) ∧ InLat 2 (a.getD 1 0)
/-- The store of an entry of the layer of spin orbitals. -/
def genLayerS (N : ℕ) (a : List ℤ) : List (ℕ × Option ℤ) :=
  [((a.getD 0 0 + a.getD 1 0 * N).toNat, some (a.getD 2 0))]

theorem genLayerBody_ok (N : ℕ) : BodyOK 2 1 (genLayerBody N) (GenLayerV N) (genLayerS N) where
  pos := by decide
  one := by decide
  good := by
    intro x ys s t hx hy hv
    obtain ⟨i, j, rfl⟩ := len2 hx
    obtain ⟨v, rfl⟩ := len1 hy
    have hv' : InLat N i ∧ InLat 2 j := hv
    simp only [genLayerBody, List.map_cons, List.map_nil, List.cons_append, List.nil_append,
      List.getD_cons_zero, List.getD_cons_succ]
    rw [if_neg ?_, if_neg (by
      rw [not_or, not_not, not_not]
      exact ⟨(checkSite_iff _ _).2 hv'.1, (checkSite_iff _ _).2 hv'.2⟩)]
    · rfl
    · unfold InLat at hv'
      obtain ⟨⟨a, b⟩, c, d⟩ := hv'
      have : j = 0 ∨ j = 1 := by omega
      rcases this with rfl | rfl
      · push Not; constructor <;> simp <;> omega
      · push Not; constructor <;> simp <;> omega
  bad := by
    intro x ys s t hx hy hv s' t'
    obtain ⟨i, j, rfl⟩ := len2 hx
    obtain ⟨v, rfl⟩ := len1 hy
    have hv' : ¬ (InLat N i ∧ InLat 2 j) := hv
    simp only [genLayerBody, List.map_cons, List.map_nil, List.cons_append, List.nil_append,
      List.getD_cons_zero, List.getD_cons_succ]
    split_ifs with c1 c2
    · simp
    · simp
    · exfalso
      rw [not_or, not_not, not_not, checkSite_iff, checkSite_iff] at c2
      exact hv' c2
  stuck := by
    intro x s t s' t' hs h
    rcases hs with rfl | ⟨r, rfl⟩
    all_goals
      simp only [genLayerBody] at h
      split_ifs at h
      cases h
      rfl

/-- An entry `i j v` of the couplings of a site to a hidden unit. -/
def PhysHiddenV (N M : ℕ) (a : List ℤ) : Prop := InLat N (a.getD 0 0) ∧ InLat M (a.getD 1 0)
/-- The store of such an entry. -/
def physHiddenS (M : ℕ) (a : List ℤ) : List (ℕ × Option ℤ) :=
  [((a.getD 0 0).toNat * M + (a.getD 1 0).toNat, some (a.getD 2 0))]

theorem physHiddenBody_ok (N M : ℕ) :
    BodyOK 2 1 (physHiddenBody N M) (PhysHiddenV N M) (physHiddenS M) where
  pos := by decide
  one := by decide
  good := by
    intro x ys s t hx hy hv
    obtain ⟨i, j, rfl⟩ := len2 hx
    obtain ⟨v, rfl⟩ := len1 hy
    have hv' : InLat N i ∧ InLat M j := hv
    simp only [physHiddenBody, List.map_cons, List.map_nil, List.cons_append, List.nil_append,
      List.getD_cons_zero, List.getD_cons_succ]
    rw [if_neg (by
      rw [not_or, not_not, not_not]
      exact ⟨(checkSite_iff _ _).2 hv'.1, (checkSite_iff _ _).2 hv'.2⟩)]
    rfl
  bad := by
    intro x ys s t hx hy hv s' t'
    obtain ⟨i, j, rfl⟩ := len2 hx
    obtain ⟨v, rfl⟩ := len1 hy
    have hv' : ¬ (InLat N i ∧ InLat M j) := hv
    simp only [physHiddenBody, List.map_cons, List.map_nil, List.cons_append, List.nil_append,
      List.getD_cons_zero, List.getD_cons_succ]
    split_ifs with c2
    · simp
    · exfalso
      rw [not_or, not_not, not_not, checkSite_iff, checkSite_iff] at c2
      exact hv' c2
  stuck := by
    intro x s t s' t' hs h
    rcases hs with rfl | ⟨r, rfl⟩
    all_goals
      simp only [physHiddenBody] at h
      split_ifs at h
      cases h
      rfl

/-- An entry `i s j v` of the couplings of a spin orbital to a hidden unit. -/
def GenPhysHiddenV (N M : ℕ) (a : List ℤ) : Prop :=
  InLat N (a.getD 0 0) ∧ InLat 2 (a.getD 1 0) ∧ InLat M (a.getD 2 0)
/-- The store of such an entry. -/
def genPhysHiddenS (N M : ℕ) (a : List ℤ) : List (ℕ × Option ℤ) :=
  [((a.getD 0 0 + a.getD 1 0 * N).toNat * M + (a.getD 2 0).toNat, some (a.getD 3 0))]

theorem genPhysHiddenBody_ok (N M : ℕ) :
    BodyOK 3 1 (genPhysHiddenBody N M) (GenPhysHiddenV N M) (genPhysHiddenS N M) where
  pos := by decide
  one := by decide
  good := by
    intro x ys s t hx hy hv
    obtain ⟨i, sp, j, rfl⟩ := len3 hx
    obtain ⟨v, rfl⟩ := len1 hy
    have hv' : InLat N i ∧ InLat 2 sp ∧ InLat M j := hv
    simp only [genPhysHiddenBody, List.map_cons, List.map_nil, List.cons_append, List.nil_append,
      List.getD_cons_zero, List.getD_cons_succ]
    rw [if_neg (by
      rw [not_or, not_or, not_not, not_not, not_not]
      exact ⟨(checkSite_iff _ _).2 hv'.1, (checkSite_iff _ _).2 hv'.2.1, (checkSite_iff _ _).2 hv'.2.2⟩)]
    rfl
  bad := by
    intro x ys s t hx hy hv s' t'
    obtain ⟨i, sp, j, rfl⟩ := len3 hx
    obtain ⟨v, rfl⟩ := len1 hy
    have hv' : ¬ (InLat N i ∧ InLat 2 sp ∧ InLat M j) := hv
    simp only [genPhysHiddenBody, List.map_cons, List.map_nil, List.cons_append, List.nil_append,
      List.getD_cons_zero, List.getD_cons_succ]
    split_ifs with c2
    · simp
    · exfalso
      rw [not_or, not_or, not_not, not_not, not_not, checkSite_iff, checkSite_iff, checkSite_iff] at c2
      exact hv' c2
  stuck := by
    intro x s t s' t' hs h
    rcases hs with rfl | ⟨r, rfl⟩
    all_goals
      simp only [genPhysHiddenBody] at h
      split_ifs at h
      cases h
      rfl

end MVMC
