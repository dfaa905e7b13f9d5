import Verif.Proof.PfBlock2

/-! `push_update` and `pop_update` keep the invariant. -/
namespace MVMC
open Spec
open scoped Classical in
section
variable {K : Type} [Field K]

/-- change of `U(msj,l)` -/
def pushD (p : BlkPar K) (t : Tdi K) (osi msj osj l : Nat) : K :=
  orbAt p.X osi (t.dst l) - orbAt p.X osj (t.cfg (t.frm l)) - t.U msj l

theorem pushLoop_eq {p : BlkPar K} {t : Tdi K} {c : Nat → Nat} {k osi msj osj : Nat} (hk : k < p.mmax)
    (hc : ∀ l, l < k → c (t.frm l) = t.dst l) : ∀ m, m ≤ k →
    (List.range m).foldl (pushLoop p k osi msj osj) t = { t with
      U := fun i b => if b < m ∧ i = msj then orbAt p.X osi (t.dst b) - orbAt p.X osj (t.cfg (t.frm b))
        else if b = k ∧ ∃ l, l < m ∧ t.frm l = i then orbAt p.X (c i) osi - orbAt p.X (t.cfg i) osj else t.U i b
      Q := fun i b => if b < m ∧ i < p.n then t.Q i b + pushD p t osi msj osj b * t.Q i (p.mmax + k) else t.Q i b
      UMV := fun a o => if a < m ∧ o < k then t.UMV a o + pushD p t osi msj osj a * t.Q msj (p.mmax + o) else t.UMV a o } := by
  intro m
  induction m with
  | zero => intro _; simp
  | succ m ih =>
    intro hm
    rw [List.range_succ, List.foldl_append, ih (by omega)]
    simp only [List.foldl_cons, List.foldl_nil]
    unfold pushLoop
    simp only
    have hmk : m ≠ k := by omega
    have e1 : ∀ i, ¬ (p.mmax + k < m ∧ i < p.n) := by intro i; omega
    simp only [Nat.lt_irrefl, false_and, hmk, e1, if_false]
    congr 1
    · funext i b
      unfold set2
      beta_reduce
      by_cases h1 : i = msj ∧ b = m
      · obtain ⟨rfl, rfl⟩ := h1
        simp
      · rw [if_neg h1]
        by_cases h2 : i = t.frm m ∧ b = k
        · obtain ⟨rfl, rfl⟩ := h2
          rw [if_pos ⟨rfl, rfl⟩, if_neg (by omega), if_pos ⟨rfl, m, by omega, rfl⟩, hc m (by omega)]
        · rw [if_neg h2]
          by_cases h3 : b < m ∧ i = msj
          · rw [if_pos h3, if_pos (by omega)]
          · rw [if_neg h3, if_neg (show ¬ (b < m + 1 ∧ i = msj) by omega)]
            by_cases h4 : b = k ∧ ∃ l, l < m ∧ t.frm l = i
            · obtain ⟨rfl, l, hl, hl2⟩ := h4
              rw [if_pos ⟨rfl, l, hl, hl2⟩, if_pos ⟨rfl, l, by omega, hl2⟩]
            · rw [if_neg h4, if_neg]
              rintro ⟨rfl, l, hl, hl2⟩
              rcases Nat.lt_succ_iff_lt_or_eq.mp hl with h5 | rfl
              · exact h4 ⟨rfl, l, h5, hl2⟩
              · exact h2 ⟨hl2.symm, rfl⟩
    · funext i b
      unfold setCol set2 pushD
      simp only [and_self, if_true]
      by_cases h1 : b = m ∧ i < p.n
      · obtain ⟨rfl, h1⟩ := h1
        rw [if_pos ⟨rfl, h1⟩, if_pos (by omega)]
      · rw [if_neg h1]
        by_cases h2 : b < m ∧ i < p.n
        · rw [if_pos h2, if_pos (by omega)]
        · rw [if_neg h2, if_neg (by omega)]
    · funext a o
      unfold setCol set2 pushD
      simp only [and_self, if_true]
      by_cases h1 : a = m ∧ o < k
      · obtain ⟨rfl, h1⟩ := h1
        rw [if_pos ⟨rfl, h1⟩, if_neg (show ¬ (a < a ∧ o < k) by omega), if_neg (show ¬ (p.mmax + o = a ∧ msj < p.n) by omega),
          if_neg (show ¬ (p.mmax + o < a ∧ msj < p.n) by omega), if_pos (show a < a + 1 ∧ o < k by omega)]
      · rw [if_neg h1]
        by_cases h2 : a < m ∧ o < k
        · rw [if_pos h2, if_pos (by omega)]
        · rw [if_neg h2, if_neg (by omega)]

/-- state after the book-keeping part of `push_update`, in closed form -/
def pushed (p : BlkPar K) (t : Tdi K) (c : Nat → Nat) (osi msj : Nat) : Tdi K :=
  let k := t.k
  let osj := t.cfg msj
  let U0 : Nat → Nat → K := fun i b => if b = k ∧ i < p.n then p.X (t.cfg i) osi - p.X (t.cfg i) osj else t.U i b
  let Q0 := setCol p.n t.Q (p.mmax + k) (skslc t.M msj)
  let U1 := fun i b => if b < k ∧ i = msj then orbAt p.X osi (t.dst b) - orbAt p.X osj (t.cfg (t.frm b))
        else if b = k ∧ ∃ l, l < k ∧ t.frm l = i then orbAt p.X (c i) osi - orbAt p.X (t.cfg i) osj else U0 i b
  let d := fun b => orbAt p.X osi (t.dst b) - orbAt p.X osj (t.cfg (t.frm b)) - U0 msj b
  let Q1 := fun i b => if b < k ∧ i < p.n then Q0 i b + d b * Q0 i (p.mmax + k) else Q0 i b
  { t with
    U := U1
    Q := Q1
    W := fun l c => if c = k ∧ l < k then - orbAt p.X (t.dst l) osi + orbAt p.X (t.cfg (t.frm l)) osj else t.W l c
    UMV := fun a b => if a < k ∧ b = k then dotN p.n (fun i => U1 i a) (fun i => Q1 i (p.mmax + k))
      else if a = k ∧ b ≤ k then dotN p.n (fun i => U1 i k) (fun i => Q1 i (p.mmax + b))
      else if a < k ∧ b < k then t.UMV a b + d a * Q0 msj (p.mmax + b) else t.UMV a b
    VMV := fun l c => if c = k ∧ l < k then - Q1 msj (p.mmax + l) else t.VMV l c
    frm := fun l => if l = k then msj else t.frm l
    dst := fun l => if l = k then osi else t.dst l
    k := k + 1 }

theorem pushUpdate_eq {p : BlkPar K} {lib : BlkLib K} {t : Tdi K} {c : Nat → Nat} (h : TdiCore p t c) {osi msj : Nat}
    (hm : msj < p.n) (ho : osi < p.nsite) (hk : t.k < p.mmax) (compute : Bool) :
    pushUpdate p lib osi msj compute t =
      if compute then some (pushPfa p lib (pushed p t c osi msj)) else some { pushed p t c osi msj with ratio := 0 } := by
  unfold pushUpdate
  rw [if_neg (by simp [hm, ho, hk])]
  simp only
  rw [pushColU_eq h.cfgInj h.cfgLt]
  have L := pushLoop_eq (p := p) (t := { t with
      U := fun i b => if b = t.k ∧ i < p.n then p.X (t.cfg i) osi - p.X (t.cfg i) (t.cfg msj) else t.U i b
      Q := setCol p.n t.Q (p.mmax + t.k) (skslc t.M msj) }) (c := c) (k := t.k) (osi := osi) (msj := msj) (osj := t.cfg msj) hk h.cur t.k (Nat.le_refl _)
  rw [L]
  rfl

theorem push_core {p : BlkPar K} (hX : SkewMat p.nsite p.X) {t : Tdi K} {c : Nat → Nat} (h : TdiCore p t c) {osi msj : Nat}
    (hm : msj < p.n) (ho : osi < p.nsite) (hk : t.k < p.mmax) (hnew : ∀ l, l < t.k → t.frm l ≠ msj) :
    TdiCore p (pushed p t c osi msj) (hopTo c msj osi) := by
  have hs := orbAt_skew p.X
  have hmk : ∀ l, l < t.k → hopTo c msj osi (t.frm l) = t.dst l := by
    intro l hl
    unfold hopTo
    rw [if_neg (hnew l hl), h.cur l hl]
  have hmm : hopTo c msj osi msj = osi := by unfold hopTo; rw [if_pos rfl]
  have hoth : ∀ i, i ≠ msj → hopTo c msj osi i = c i := by intro i hi; unfold hopTo; rw [if_neg hi]
  have hcm : c msj = t.cfg msj := h.base msj hm hnew
  -- columns of U
  have hUold : ∀ l, l < t.k → ∀ i, i ≠ msj → (pushed p t c osi msj).U i l = t.U i l := by
    intro l hl i hi
    show (if l < t.k ∧ i = msj then _ else if l = t.k ∧ _ then _ else if l = t.k ∧ i < p.n then _ else t.U i l) = t.U i l
    rw [if_neg (fun e => hi e.2), if_neg (by omega), if_neg (by omega)]
  have hUm : ∀ l, l < t.k → (pushed p t c osi msj).U msj l = orbAt p.X osi (t.dst l) - orbAt p.X (t.cfg msj) (t.cfg (t.frm l)) := by
    intro l hl
    show (if l < t.k ∧ msj = msj then _ else if l = t.k ∧ _ then _ else if l = t.k ∧ msj < p.n then _ else t.U msj l) = _
    rw [if_pos ⟨hl, rfl⟩]
  have hUk : ∀ i, i < p.n → i ≠ msj → (pushed p t c osi msj).U i t.k = orbAt p.X (c i) osi - orbAt p.X (t.cfg i) (t.cfg msj) := by
    intro i hi him
    show (if t.k < t.k ∧ i = msj then _ else if t.k = t.k ∧ (∃ l, l < t.k ∧ t.frm l = i) then orbAt p.X (c i) osi - orbAt p.X (t.cfg i) (t.cfg msj)
      else if t.k = t.k ∧ i < p.n then p.X (t.cfg i) osi - p.X (t.cfg i) (t.cfg msj) else t.U i t.k) = _
    rw [if_neg (by omega)]
    by_cases e : ∃ l, l < t.k ∧ t.frm l = i
    · rw [if_pos ⟨rfl, e⟩]
    · rw [if_neg (fun e' => e e'.2), if_pos ⟨rfl, hi⟩, h.base i hi (fun l hl e' => e ⟨l, hl, e'⟩),
        orbAt_eq hX (h.cfgLt i hi) ho, orbAt_eq hX (h.cfgLt i hi) (h.cfgLt msj hm)]
  -- columns of P
  have hPk : ∀ i, i < p.n → (pushed p t c osi msj).Q i (p.mmax + t.k) = upSkew t.M i msj := by
    intro i hi
    show (if p.mmax + t.k < t.k ∧ i < p.n then _ else setCol p.n t.Q (p.mmax + t.k) (skslc t.M msj) i (p.mmax + t.k)) = _
    rw [if_neg (by omega)]
    unfold setCol
    rw [if_pos ⟨rfl, hi⟩, skslc_eq]
  have hPl : ∀ l, l < t.k → ∀ i, i < p.n → (pushed p t c osi msj).Q i (p.mmax + l) = upSkew t.M i (t.frm l) := by
    intro l hl i hi
    show (if p.mmax + l < t.k ∧ i < p.n then _ else setCol p.n t.Q (p.mmax + t.k) (skslc t.M msj) i (p.mmax + l)) = _
    rw [if_neg (by omega)]
    unfold setCol
    rw [if_neg (by omega), h.hP l hl i hi]
  have hQ0 : ∀ l, l < t.k → ∀ i, setCol p.n t.Q (p.mmax + t.k) (skslc t.M msj) i l = t.Q i l := by
    intro l hl i; unfold setCol; rw [if_neg (by omega)]
  have hd : ∀ l, l < t.k → (orbAt p.X osi (t.dst l) - orbAt p.X (t.cfg msj) (t.cfg (t.frm l)) -
      (if l = t.k ∧ msj < p.n then p.X (t.cfg msj) osi - p.X (t.cfg msj) (t.cfg msj) else t.U msj l)) =
      (pushed p t c osi msj).U msj l - t.U msj l := by
    intro l hl
    rw [hUm l hl, if_neg (by omega)]
  have hfr : ∀ l, l < t.k → (pushed p t c osi msj).frm l = t.frm l := by
    intro l hl; show (if l = t.k then msj else t.frm l) = _; rw [if_neg (by omega)]
  have hfk : (pushed p t c osi msj).frm t.k = msj := by show (if t.k = t.k then msj else t.frm t.k) = _; rw [if_pos rfl]
  have hdl : ∀ l, l < t.k → (pushed p t c osi msj).dst l = t.dst l := by
    intro l hl; show (if l = t.k then osi else t.dst l) = _; rw [if_neg (by omega)]
  have hdk : (pushed p t c osi msj).dst t.k = osi := by show (if t.k = t.k then osi else t.dst t.k) = _; rw [if_pos rfl]
  have hkk : (pushed p t c osi msj).k = t.k + 1 := rfl
  have hMM : (pushed p t c osi msj).M = t.M := rfl
  -- effect of the changed row on sums
  have hsum : ∀ l, l < t.k → ∀ f : Nat → K, ∑ i ∈ Finset.range p.n, (pushed p t c osi msj).U i l * f i =
      ∑ i ∈ Finset.range p.n, t.U i l * f i + ((pushed p t c osi msj).U msj l - t.U msj l) * f msj := by
    intro l hl f
    have e : ∀ i ∈ Finset.range p.n, (pushed p t c osi msj).U i l * f i =
        t.U i l * f i + (if i = msj then 1 else 0) * (((pushed p t c osi msj).U msj l - t.U msj l) * f i) := by
      intro i _
      by_cases e : i = msj
      · rw [e, if_pos rfl]; ring
      · rw [hUold l hl i e, if_neg e]; ring
    rw [Finset.sum_congr rfl e, Finset.sum_add_distrib, sum_hop' p.n (fun i => ((pushed p t c osi msj).U msj l - t.U msj l) * f i) msj hm]
  refine ⟨h.cfgLt, h.cfgInj, h.pfa, h.inv, hk, ?_, ?_, ?_, ?_, ?_, ?_, Nat.le_succ_of_le h.nqk, ?_, ?_, ?_, ?_, ?_⟩
  · -- frLt
    intro l hl
    rw [hkk] at hl
    rcases Nat.lt_succ_iff_lt_or_eq.mp hl with e | rfl
    · rw [hfr l e]; exact h.frLt l e
    · rw [hfk]; exact hm
  · -- frInj
    intro l hl o ho' e
    rw [hkk] at hl ho'
    rcases Nat.lt_succ_iff_lt_or_eq.mp hl with e1 | rfl <;> rcases Nat.lt_succ_iff_lt_or_eq.mp ho' with e2 | rfl
    · rw [hfr l e1, hfr o e2] at e; exact h.frInj l e1 o e2 e
    · rw [hfr l e1, hfk] at e; exact absurd e (hnew l e1)
    · rw [hfr o e2, hfk] at e; exact absurd e.symm (hnew o e2)
    · rfl
  · -- dstLt
    intro l hl
    rw [hkk] at hl
    rcases Nat.lt_succ_iff_lt_or_eq.mp hl with e | rfl
    · rw [hdl l e]; exact h.dstLt l e
    · rw [hdk]; exact ho
  · -- cur
    intro l hl
    rw [hkk] at hl
    rcases Nat.lt_succ_iff_lt_or_eq.mp hl with e | rfl
    · rw [hfr l e, hdl l e]; exact hmk l e
    · rw [hfk, hdk]; exact hmm
  · -- base
    intro i hi hn
    have h1 : i ≠ msj := fun e => hn t.k (by rw [hkk]; omega) (hfk.trans e.symm)
    rw [hoth i h1]
    exact h.base i hi (fun l hl e => hn l (by rw [hkk]; omega) ((hfr l hl).trans e))
  · -- U
    intro l hl i hi hne
    rw [hkk] at hl
    rcases Nat.lt_succ_iff_lt_or_eq.mp hl with e | rfl
    · rw [hfr l e] at hne ⊢
      rw [hoth (t.frm l) (hnew l e)]
      by_cases e2 : i = msj
      · rw [e2, hUm l e, hmm, h.cur l e]; rfl
      · rw [hUold l e i e2, hoth i e2]; exact h.hU l e i hi hne
    · rw [hfk] at hne ⊢
      rw [hUk i hi hne, hoth i hne, hmm]; rfl
  · -- Q
    intro l hl i hi
    have hl' : l < t.nq := hl
    have hlk : l < t.k := Nat.lt_of_lt_of_le hl' h.nqk
    show (if l < t.k ∧ i < p.n then setCol p.n t.Q (p.mmax + t.k) (skslc t.M msj) i l + _ * setCol p.n t.Q (p.mmax + t.k) (skslc t.M msj) i (p.mmax + t.k) else _) = _
    rw [if_pos ⟨hlk, hi⟩, hQ0 l hlk]
    beta_reduce
    rw [hd l hlk, h.hQ l hl' i hi]
    have e : setCol p.n t.Q (p.mmax + t.k) (skslc t.M msj) i (p.mmax + t.k) = upSkew t.M i msj := by
      unfold setCol; rw [if_pos ⟨rfl, hi⟩, skslc_eq]
    rw [e, hMM]
    rw [Finset.sum_congr rfl (fun j _ => mul_comm (upSkew t.M i j) ((pushed p t c osi msj).U j l)), hsum l hlk (fun j => upSkew t.M i j)]
    rw [Finset.sum_congr rfl (fun j _ => mul_comm (upSkew t.M i j) (t.U j l))]
  · -- P
    intro l hl i hi
    rw [hkk] at hl
    rcases Nat.lt_succ_iff_lt_or_eq.mp hl with e | rfl
    · rw [hfr l e, hPl l e i hi]; rfl
    · rw [hfk, hPk i hi]; rfl
  · -- W
    intro o ho' l hl
    rw [hkk] at ho'
    show (if o = t.k ∧ l < t.k then - orbAt p.X (t.dst l) osi + orbAt p.X (t.cfg (t.frm l)) (t.cfg msj) else t.W l o) = _
    rcases Nat.lt_succ_iff_lt_or_eq.mp ho' with e | rfl
    · rw [if_neg (by omega), hfr l (by omega), hfr o e, hmk l (by omega), hmk o e, h.hW o e l hl, h.cur l (by omega), h.cur o e]; rfl
    · rw [if_pos ⟨rfl, hl⟩, hfr l hl, hfk, hmk l hl, hmm]
      show _ = - (_ - orbAt p.X (t.cfg (t.frm l)) (t.cfg msj))
      ring
  · -- UMV
    intro l hl o ho'
    rw [hkk] at hl ho'
    rw [hMM]
    rcases Nat.lt_succ_iff_lt_or_eq.mp hl with e1 | rfl <;> rcases Nat.lt_succ_iff_lt_or_eq.mp ho' with e2 | rfl
    · show (if l < t.k ∧ o = t.k then _ else if l = t.k ∧ o ≤ t.k then _ else if l < t.k ∧ o < t.k then
        t.UMV l o + _ * setCol p.n t.Q (p.mmax + t.k) (skslc t.M msj) msj (p.mmax + o) else _) = _
      rw [if_neg (by omega), if_neg (by omega), if_pos ⟨e1, e2⟩]
      beta_reduce
      rw [hd l e1, hfr o e2, hsum l e1 (fun i => upSkew t.M i (t.frm o)), h.hUMV l e1 o e2]
      have e : setCol p.n t.Q (p.mmax + t.k) (skslc t.M msj) msj (p.mmax + o) = upSkew t.M msj (t.frm o) := by
        unfold setCol; rw [if_neg (by omega), h.hP o e2 msj hm]
      rw [e]
    · show (if l < t.k ∧ t.k = t.k then dotN p.n (fun i => (pushed p t c osi msj).U i l) (fun i => (pushed p t c osi msj).Q i (p.mmax + t.k)) else _) = _
      rw [if_pos ⟨e1, rfl⟩, hfk]
      exact Finset.sum_congr rfl (fun i hi => by beta_reduce; rw [hPk i (Finset.mem_range.mp hi)])
    · show (if t.k < t.k ∧ o = t.k then _ else if t.k = t.k ∧ o ≤ t.k then dotN p.n (fun i => (pushed p t c osi msj).U i t.k) (fun i => (pushed p t c osi msj).Q i (p.mmax + o)) else _) = _
      rw [if_neg (by omega), if_pos ⟨rfl, by omega⟩, hfr o e2]
      exact Finset.sum_congr rfl (fun i hi => by beta_reduce; rw [hPl o e2 i (Finset.mem_range.mp hi)])
    · show (if t.k < t.k ∧ t.k = t.k then _ else if t.k = t.k ∧ t.k ≤ t.k then dotN p.n (fun i => (pushed p t c osi msj).U i t.k) (fun i => (pushed p t c osi msj).Q i (p.mmax + t.k)) else _) = _
      rw [if_neg (by omega), if_pos ⟨rfl, by omega⟩, hfk]
      exact Finset.sum_congr rfl (fun i hi => by beta_reduce; rw [hPk i (Finset.mem_range.mp hi)])
  · -- VMV
    intro o ho' l hl
    rw [hkk] at ho'
    show (if o = t.k ∧ l < t.k then - (pushed p t c osi msj).Q msj (p.mmax + l) else t.VMV l o) = _
    rw [hMM]
    rcases Nat.lt_succ_iff_lt_or_eq.mp ho' with e | rfl
    · rw [if_neg (by omega), hfr l (by omega), hfr o e, h.hVMV o e l hl]
    · rw [if_pos ⟨rfl, hl⟩, hfr l hl, hfk, hPl l hl msj hm, ← (upSkew_skew t.M).neg]
end
end MVMC
