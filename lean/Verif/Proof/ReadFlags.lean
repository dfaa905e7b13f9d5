import Verif.Model.ReadOrb
import Verif.Proof.ReadGroup

/-! # Proofs: the layout of the optimisation flags -/

namespace MVMC

/-- The flag array after storing the flags of the parallel orbitals. -/
def parFlags (c : ℤ) (fidx : ℕ) (fl : List ℤ) (opt : Tab) : Tab := fun k =>
  if fidx ≤ k / 2 then
    match fl[(k / 2 - fidx) / 2]? with
    | some f => if k % 2 = 0 then some f else some c
    | none => opt k
  else opt k

theorem parFlags_nil (c : ℤ) (fidx : ℕ) (opt : Tab) : parFlags c fidx [] opt = opt := by
  funext k
  simp [parFlags]

theorem parFlags_cons (c : ℤ) (fidx : ℕ) (f : ℤ) (fl : List ℤ) (opt : Tab) :
    parFlags c fidx (f :: fl) opt = parFlags c (fidx + 2) fl
      ((((opt.put (2 * fidx) (some f)).put (2 * fidx + 1) (some c)).put (2 * fidx + 2) (some f)).put
        (2 * fidx + 3) (some c)) := by
  funext k
  unfold parFlags Tab.put
  by_cases h1 : fidx ≤ k / 2
  · rw [if_pos h1]
    by_cases h2 : fidx + 2 ≤ k / 2
    · rw [if_pos h2, show (k / 2 - fidx) / 2 = ((k / 2 - (fidx + 2)) / 2) + 1 by omega,
        List.getElem?_cons_succ]
      have a0 : k ≠ 2 * fidx := by omega
      have a1 : k ≠ 2 * fidx + 1 := by omega
      have a2 : k ≠ 2 * fidx + 2 := by omega
      have a3 : k ≠ 2 * fidx + 3 := by omega
      simp [a0, a1, a2, a3]
    · rw [if_neg h2, show (k / 2 - fidx) / 2 = 0 by omega, List.getElem?_cons_zero]
      have : k = 2 * fidx ∨ k = 2 * fidx + 1 ∨ k = 2 * fidx + 2 ∨ k = 2 * fidx + 3 := by omega
      rcases this with rfl | rfl | rfl | rfl
      · simp
      · simp [Nat.add_mod]
      · simp
      · simp [Nat.add_mod]
  · have h2 : ¬ fidx + 2 ≤ k / 2 := by omega
    rw [if_neg h1, if_neg h2]
    have a0 : k ≠ 2 * fidx := by omega
    have a1 : k ≠ 2 * fidx + 1 := by omega
    have a2 : k ≠ 2 * fidx + 2 := by omega
    have a3 : k ≠ 2 * fidx + 3 := by omega
    simp [a0, a1, a2, a3]

theorem getInfoOptPar_enc {cap : ℕ} {c : ℤ} {fidx : ℕ} (prs : List (ℤ × ℤ)) : ∀ (opt : Tab) (cnt : ℕ),
    2 * (fidx + 2 * (cnt + prs.length)) ≤ cap →
    getInfoOptPar cap c fidx (encOpts prs) opt cnt =
      .ok (cnt + prs.length, parFlags c (fidx + 2 * cnt) (prs.map Prod.snd) opt) := by
  induction prs with
  | nil =>
    intro opt cnt _
    simp [encOpts, getInfoOptPar, parFlags_nil]
  | cons p prs ih =>
    intro opt cnt h
    rw [List.length_cons] at h
    have e : encOpts (p :: prs) = some p.1 :: some p.2 :: encOpts prs := by simp [encOpts]
    rw [e, getInfoOptPar]
    rw [if_neg (by omega), ih _ _ (by omega), List.map_cons, parFlags_cons, List.length_cons,
      show cnt + (prs.length + 1) = cnt + 1 + prs.length by omega,
      show fidx + 2 * (cnt + 1) = fidx + 2 * cnt + 2 by ring]

/-- The flags of one file. -/
def fileFlags (S : IOSizes) (kw : InKW) (c : ℤ) (fl : List ℤ) (opt : Tab) : Tab :=
  if kw = .orbP then parFlags c (optOffset S kw) fl opt else withFlags c (optOffset S kw) fl opt

theorem readFlags_enc (S : IOSizes) {cap : ℕ} (kw : InKW) (hk : kw ≠ .opt) (c : ℤ)
    (prs : List (ℤ × ℤ)) (hp : prs.length = optNumber S kw)
    (hc : optOffset S kw + inLen S kw ≤ cap / 2) (hl : inLen S kw =
      if kw = .orbP then 2 * optNumber S kw else optNumber S kw) (opt : Tab) :
    readFlags S cap kw c (encOpts prs) opt =
      .ok (inLen S kw, fileFlags S kw c (prs.map Prod.snd) opt) := by
  by_cases hz : optNumber S kw = 0
  · have : prs = [] := List.length_eq_zero_iff.1 (by omega)
    subst this
    have e : fileFlags S kw c (([] : List (ℤ × ℤ)).map Prod.snd) opt = opt := by
      unfold fileFlags
      rw [List.map_nil, parFlags_nil, withFlags_nil, ite_self]
    rw [e, hl, hz]
    cases kw <;> first | exact absurd rfl hk | simp [readFlags, hz]
  · by_cases hpar : kw = .orbP
    · subst hpar
      rw [if_pos rfl] at hl
      unfold readFlags
      dsimp only
      rw [if_neg hz, getInfoOptPar_enc prs _ _ (by omega)]
      dsimp only
      rw [if_neg (by omega), hl, fileFlags, if_pos rfl, Nat.zero_add, hp, Nat.mul_zero, Nat.add_zero]
    · rw [if_neg hpar] at hl
      have key : (if optNumber S kw = 0 then RdOut.ok (0, opt)
        else match getInfoOpt cap c (encOpts prs) (optOffset S kw) opt 0 with
          | .ok (n, opt) => if n ≠ optNumber S kw then .err else .ok (n, opt)
          | .err => .err
          | .ub => .ub
          | .hang => .hang) = .ok (inLen S kw, fileFlags S kw c (prs.map Prod.snd) opt) := by
        rw [if_neg hz, getInfoOpt_enc prs _ _ _ (by omega)]
        dsimp only
        rw [if_neg (by omega), hl, fileFlags, if_neg hpar, Nat.zero_add, hp]
      cases kw <;> first | exact absurd rfl hk | exact absurd rfl hpar | exact key

theorem fileFlags_outside (S : IOSizes) (kw : InKW) (c : ℤ) (fl : List ℤ) (opt : Tab)
    (hl : (if kw = .orbP then 2 * fl.length else fl.length) = inLen S kw) (k : ℕ)
    (hk : ¬ (optOffset S kw ≤ k / 2 ∧ k / 2 < optOffset S kw + inLen S kw)) :
    fileFlags S kw c fl opt k = opt k := by
  unfold fileFlags
  by_cases hpar : kw = .orbP
  · rw [if_pos hpar] at hl
    rw [if_pos hpar]
    unfold parFlags
    by_cases h1 : optOffset S kw ≤ k / 2
    · rw [if_pos h1, List.getElem?_eq_none (by omega)]
    · rw [if_neg h1]
  · rw [if_neg hpar] at hl
    rw [if_neg hpar]
    unfold withFlags
    by_cases h1 : optOffset S kw ≤ k / 2
    · rw [if_pos h1, List.getElem?_eq_none (by omega)]
    · rw [if_neg h1]

end MVMC
