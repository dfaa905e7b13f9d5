import Verif.Proof.LocGrn
import Verif.Proof.LocGrnNScan
import Verif.Proof.LocGrnNPf

/-! Value of `GreenFuncN`. -/
namespace MVMC
open MVMC.Spec

theorem mod_div {N x : Nat} : x % N + x / N * N = x := by
  rw [Nat.mul_comm]; exact Nat.mod_add_div x N

theorem div_lt_two {N x : Nat} (h : x < 2 * N) : x / N < 2 := by
  rw [Nat.div_lt_iff_lt_mul (by omega)]; omega

/-- the hop of pair `k` -/
def hopOf (g : GrnEnv) (c : EleCfg) (rsi rsj : Nat → Nat) (k : Nat) : Hop :=
  ⟨(c.cfg (rsj k)).toNat, rsj k % g.p.Nsite, rsi k % g.p.Nsite, rsj k / g.p.Nsite⟩

/-- all tables updated, including `eleCfg` -/
def fullHop (g : GrnEnv) (c : EleCfg) (rsi rsj : Nat → Nat) : Nat → EleCfg
  | 0 => c
  | t + 1 => updateEleConfig g.sp (hopOf g c rsi rsj t) (fullHop g c rsi rsj t)

section
variable {g : GrnEnv} {c : EleCfg} (hc : Cons g.sp c) {n : Nat} {rsi rsj : Nat → Nat}
  (hok : PairsOK (2 * g.p.Nsite) (· / g.p.Nsite) rsi rsj n) (hgood : Good (prs rsi rsj 0 n) (szList g c))
include hok hgood

omit hok in
theorem good_prefix {t : Nat} (ht : t ≤ n) : Good (prs rsi rsj 0 t) (szList g c) := by
  by_cases e : t = n
  · rw [e]; exact hgood
  have sub : (prs rsi rsj 0 t).Sublist (prs rsi rsj 0 n) := by
    rw [prs_split (rsi := rsi) (rsj := rsj) (n := n) (k := t) 0 (by omega)]
    exact List.sublist_append_left _ _
  exact ⟨hgood.nd.sublist ((sub.map _).append (sub.map _)), fun q hq => hgood.emp q (sub.subset hq),
    fun q hq => hgood.occ q (sub.subset hq)⟩

omit hok in
theorem pair_ne {k m : Nat} (hk : k < n) (hm : m < n) : rsi k ≠ rsj m ∧ (k ≠ m → rsi k ≠ rsi m ∧ rsj k ≠ rsj m) := by
  have nd := hgood.nd
  unfold prs at nd
  rw [List.map_map, List.map_map, List.nodup_append] at nd
  obtain ⟨n1, n2, n3⟩ := nd
  have memR : ∀ {x}, x < n → x ∈ List.range' 0 n := fun h => List.mem_range'_1.mpr ⟨by omega, by omega⟩
  refine ⟨n3 _ (List.mem_map.mpr ⟨k, memR hk, rfl⟩) _ (List.mem_map.mpr ⟨m, memR hm, rfl⟩), fun hne => ⟨fun e => hne ?_, fun e => hne ?_⟩⟩
  · exact List.inj_on_of_nodup_map n1 (memR hk) (memR hm) e
  · exact List.inj_on_of_nodup_map n2 (memR hk) (memR hm) e

include hc

/-- the invariant of the hopping loop -/
theorem fullHop_inv : ∀ t, t ≤ n → Cons g.sp (fullHop g c rsi rsj t) ∧
    szList g (fullHop g c rsi rsj t) = hopL (prs rsi rsj 0 t) (szList g c) ∧
    (∀ k, t ≤ k → k < n → (fullHop g c rsi rsj t).cfg (rsj k) = c.cfg (rsj k)) ∧
    (∀ k, k < t → HopOK g.sp (fullHop g c rsi rsj k) (hopOf g c rsi rsj k)) := by
  intro t
  induction t with
  | zero =>
    intro _
    exact ⟨hc, rfl, fun _ _ _ => rfl, fun k hk => absurd hk (Nat.not_lt_zero k)⟩
  | succ t ih =>
    intro ht
    obtain ⟨i1, i2, i3, i4⟩ := ih (by omega)
    have htn : t < n := by omega
    have gp := good_prefix hgood (t := t) (by omega)
    have gp1 := good_prefix hgood (t := t + 1) ht
    have ept : prs rsi rsj 0 (t + 1) = prs rsi rsj 0 t ++ (rsi t, rsj t) :: [] := by
      have := prs_split (rsi := rsi) (rsj := rsj) (n := t + 1) (k := t) 0 (by omega)
      simp only [Nat.zero_add, Nat.add_sub_cancel_left, Nat.sub_self] at this
      rw [this]; rfl
    rw [ept] at gp1
    obtain ⟨m1, m2, m3, m4, _⟩ := good_mid gp1
    rw [List.append_nil] at m1
    obtain ⟨b1, b2, b3⟩ := hok t htn
    have pl := placed_sz i1
    have hmemJ : rsj t ∈ szList g (fullHop g c rsi rsj t) := by
      rw [i2]; exact (mem_hopL gp _).mpr (Or.inr ⟨fun q hq => (m1 q hq).2.2.2, m4⟩)
    have hmemI : rsi t ∉ szList g (fullHop g c rsi rsj t) := by
      rw [i2, mem_hopL gp]
      rintro (⟨y, hy, e⟩ | ⟨_, h⟩)
      · exact (m1 y hy).1 e
      · exact m3 h
    have nJ : (fullHop g c rsi rsj t).num (rsj t) = 1 := (pl.mem b2).mp hmemJ
    have nI : (fullHop g c rsi rsj t).num (rsi t) ≠ 1 := fun e => hmemI ((pl.mem b1).mpr e)
    have hN : 0 < g.p.Nsite := by omega
    have hs : rsj t / g.p.Nsite < 2 := div_lt_two b2
    have eJ : rsj t % g.p.Nsite + rsj t / g.p.Nsite * g.p.Nsite = rsj t := mod_div
    have eI : rsi t % g.p.Nsite + rsj t / g.p.Nsite * g.p.Nsite = rsi t := by
      have b3 : rsi t / g.p.Nsite = rsj t / g.p.Nsite := b3
      rw [← b3]; exact mod_div
    have at0 := cons_at i1 (s := rsj t / g.p.Nsite) (r := rsj t % g.p.Nsite) hs (Nat.mod_lt _ hN) (by
      show (fullHop g c rsi rsj t).num (rsj t % g.p.Nsite + rsj t / g.p.Nsite * g.p.Nsite) ≠ 0
      rw [eJ, nJ]; decide)
    have fr0 := cons_free i1 (s := rsj t / g.p.Nsite) (r := rsi t % g.p.Nsite) hs (Nat.mod_lt _ hN) (by
      show (fullHop g c rsi rsj t).num (rsi t % g.p.Nsite + rsj t / g.p.Nsite * g.p.Nsite) ≠ 1
      rw [eI]; exact nI)
    have at1 : (fullHop g c rsi rsj t).cfg (rsj t % g.p.Nsite + rsj t / g.p.Nsite * g.p.Nsite) = c.cfg (rsj t) := by
      rw [eJ]; exact i3 t (Nat.le_refl t) htn
    have at2 : ((fullHop g c rsi rsj t).cfg (rsj t % g.p.Nsite + rsj t / g.p.Nsite * g.p.Nsite)).toNat < g.p.Ne ∧
      (fullHop g c rsi rsj t).idx (((fullHop g c rsi rsj t).cfg (rsj t % g.p.Nsite + rsj t / g.p.Nsite * g.p.Nsite)).toNat +
        rsj t / g.p.Nsite * g.p.Ne) = ((rsj t % g.p.Nsite : Nat) : Int) := at0
    rw [at1] at at2
    have ok : HopOK g.sp (fullHop g c rsi rsj t) (hopOf g c rsi rsj t) :=
      ⟨hs, at2.1, Nat.mod_lt _ hN, Nat.mod_lt _ hN, at2.2, fr0⟩
    refine ⟨update_cons i1 ok, ?_, ?_, ?_⟩
    · show szList g (updateEleConfig g.sp (hopOf g c rsi rsj t) (fullHop g c rsi rsj t)) = _
      rw [szList_update i1 ok, ept, hopL_mid gp1, List.append_nil, i2]
      show repl (rsj t % g.p.Nsite + rsj t / g.p.Nsite * g.p.Nsite) (rsi t % g.p.Nsite + rsj t / g.p.Nsite * g.p.Nsite) _ = _
      rw [eI, eJ]
    · intro k hk hkn
      show (((fullHop g c rsi rsj t).cfg.set (rsj t % g.p.Nsite + rsj t / g.p.Nsite * g.p.Nsite) (-1)).set
        (rsi t % g.p.Nsite + rsj t / g.p.Nsite * g.p.Nsite) _) (rsj k) = _
      rw [eI, eJ]
      have := pair_ne hgood htn hkn
      rw [set_ne this.1.symm, set_ne ((this.2 (by omega)).2.symm)]
      exact i3 k (by omega) hkn
    · intro k hk
      rcases Nat.lt_succ_iff_lt_or_eq.mp hk with h | rfl
      · exact i4 k h
      · exact ok

/-- the hopping loop leaves `eleCfg` alone and changes the other two tables like `fullHop` -/
theorem hopN_eq : ∀ t, t ≤ n → (hopN g t rsi rsj c).idx = (fullHop g c rsi rsj t).idx ∧
    (hopN g t rsi rsj c).num = (fullHop g c rsi rsj t).num ∧ (hopN g t rsi rsj c).cfg = c.cfg := by
  intro t
  induction t with
  | zero => intro _; exact ⟨rfl, rfl, rfl⟩
  | succ t ih =>
    intro ht
    obtain ⟨i1, i2, i3⟩ := ih (by omega)
    have e : hopN g (t + 1) rsi rsj c = { hopN g t rsi rsj c with
        idx := (hopN g t rsi rsj c).idx.set (hopMs g (hopN g t rsi rsj c) rsj t) ((rsi t % g.p.Nsite : Nat) : Int)
        num := ((hopN g t rsi rsj c).num.set (rsj t) 0).set (rsi t) 1 } := by
      unfold hopN
      rw [List.range_succ, List.foldl_append]
      rfl
    have eJ : rsj t % g.p.Nsite + rsj t / g.p.Nsite * g.p.Nsite = rsj t := mod_div
    have eI : rsi t % g.p.Nsite + rsj t / g.p.Nsite * g.p.Nsite = rsi t := by
      have b3 : rsi t / g.p.Nsite = rsj t / g.p.Nsite := (hok t (by omega)).2.2
      rw [← b3]; exact mod_div
    rw [e]
    refine ⟨?_, ?_, i3⟩
    · show (hopN g t rsi rsj c).idx.set _ _ = (fullHop g c rsi rsj t).idx.set _ _
      rw [i1]
      unfold hopMs
      rw [i3]
      rfl
    · show ((hopN g t rsi rsj c).num.set (rsj t) 0).set (rsi t) 1
        = ((fullHop g c rsi rsj t).num.set (rsj t % g.p.Nsite + rsj t / g.p.Nsite * g.p.Nsite) 0).set
          (rsi t % g.p.Nsite + rsj t / g.p.Nsite * g.p.Nsite) 1
      rw [eI, eJ, i2]

/-- the electron numbers of the hops -/
theorem hopMs_spec {k : Nat} (hk : k < n) : hopMs g c rsj k < 2 * g.p.Ne ∧ c.idx (hopMs g c rsj k) = ((rsj k % g.p.Nsite : Nat) : Int) ∧
    c.num (rsj k) = 1 ∧ c.num (rsi k) = 0 := by
  obtain ⟨b1, b2, b3⟩ := hok k hk
  have pl := placed_sz hc
  have hq : (rsi k, rsj k) ∈ prs rsi rsj 0 n := mem_prs.mpr ⟨k, by omega, by omega, rfl⟩
  have nJ : c.num (rsj k) = 1 := (pl.mem b2).mp (hgood.occ _ hq)
  have nI : c.num (rsi k) = 0 := (notin_of pl b1).mp (hgood.emp _ hq)
  have hN : 0 < g.p.Nsite := by omega
  have hs := div_lt_two b2
  have eJ : rsj k % g.p.Nsite + rsj k / g.p.Nsite * g.p.Nsite = rsj k := mod_div
  have at0 : (c.cfg (rsj k % g.p.Nsite + rsj k / g.p.Nsite * g.p.Nsite)).toNat < g.p.Ne ∧
      c.idx ((c.cfg (rsj k % g.p.Nsite + rsj k / g.p.Nsite * g.p.Nsite)).toNat + rsj k / g.p.Nsite * g.p.Ne)
        = ((rsj k % g.p.Nsite : Nat) : Int) := cons_at hc hs (Nat.mod_lt _ hN) (by
      show c.num (rsj k % g.p.Nsite + rsj k / g.p.Nsite * g.p.Nsite) ≠ 0
      rw [eJ, nJ]; decide)
  rw [eJ] at at0
  refine ⟨?_, at0.2, nJ, nI⟩
  unfold hopMs
  have hle : rsj k / g.p.Nsite * g.p.Ne ≤ 1 * g.p.Ne := Nat.mul_le_mul_right _ (by omega)
  have := at0.1
  omega

theorem hopMs_inj {k m : Nat} (hk : k < n) (hm : m < n) (e : hopMs g c rsj k = hopMs g c rsj m) : k = m := by
  by_contra hne
  have h1 := (hopMs_spec hc hok hgood hk).2.1
  have h2 := (hopMs_spec hc hok hgood hm).2.1
  obtain ⟨b1, b2, b3⟩ := hok k hk
  obtain ⟨b1', b2', b3'⟩ := hok m hm
  have pl := placed_sz hc
  -- same electron, same spin, same site
  have hN : 0 < g.p.Nsite := by omega
  have c1 : ∀ {x}, x < n → (c.cfg (rsj x)).toNat < g.p.Ne := by
    intro x hx
    have eJ : rsj x % g.p.Nsite + rsj x / g.p.Nsite * g.p.Nsite = rsj x := mod_div
    have at0 : (c.cfg (rsj x % g.p.Nsite + rsj x / g.p.Nsite * g.p.Nsite)).toNat < g.p.Ne ∧ _ :=
      cons_at hc (div_lt_two (hok x hx).2.1) (Nat.mod_lt _ hN) (by
      show c.num (rsj x % g.p.Nsite + rsj x / g.p.Nsite * g.p.Nsite) ≠ 0
      rw [eJ, (hopMs_spec hc hok hgood hx).2.2.1]; decide)
    rw [eJ] at at0
    exact at0.1
  have e' := (flat_inj (div_lt_two b2) (div_lt_two b2') (c1 hk) (c1 hm)).mp e
  rw [e, h2] at h1
  have : rsj k = rsj m := by
    rw [← mod_div (N := g.p.Nsite) (x := rsj k), ← mod_div (N := g.p.Nsite) (x := rsj m), e'.2]
    congr 1
    omega
  exact ((pair_ne hgood hk hm).2 hne).2 this

/-- entries that the hops do not touch -/
theorem hopN_frame : ∀ t, t ≤ n → (∀ x, (∀ k, k < t → x ≠ hopMs g c rsj k) → (hopN g t rsi rsj c).idx x = c.idx x) ∧
    (∀ x, (∀ k, k < t → x ≠ rsi k ∧ x ≠ rsj k) → (hopN g t rsi rsj c).num x = c.num x) := by
  intro t
  induction t with
  | zero => intro _; exact ⟨fun _ _ => rfl, fun _ _ => rfl⟩
  | succ t ih =>
    intro ht
    obtain ⟨i1, i2⟩ := ih (by omega)
    have hcfg := (hopN_eq hc hok hgood t (by omega)).2.2
    have e : hopN g (t + 1) rsi rsj c = { hopN g t rsi rsj c with
        idx := (hopN g t rsi rsj c).idx.set (hopMs g (hopN g t rsi rsj c) rsj t) ((rsi t % g.p.Nsite : Nat) : Int)
        num := ((hopN g t rsi rsj c).num.set (rsj t) 0).set (rsi t) 1 } := by
      unfold hopN
      rw [List.range_succ, List.foldl_append]
      rfl
    have ems : hopMs g (hopN g t rsi rsj c) rsj t = hopMs g c rsj t := by unfold hopMs; rw [hcfg]
    rw [e, ems]
    refine ⟨fun x hx => ?_, fun x hx => ?_⟩
    · show (hopN g t rsi rsj c).idx.set _ _ x = _
      rw [set_ne (hx t (by omega))]
      exact i1 x (fun k hk => hx k (by omega))
    · show ((hopN g t rsi rsj c).num.set (rsj t) 0).set (rsi t) 1 x = _
      rw [set_ne (hx t (by omega)).1, set_ne (hx t (by omega)).2]
      exact i2 x (fun k hk => hx k (by omega))

omit hc hok hgood in
theorem unhopN_vals (X : EleCfg) : ∀ t, (unhopN g t rsi rsj X).cfg = X.cfg ∧
    (∀ x, (∃ k, k < t ∧ x = hopMs g X rsj k ∧ (unhopN g t rsi rsj X).idx x = ((rsj k % g.p.Nsite : Nat) : Int)) ∨
      ((∀ k, k < t → x ≠ hopMs g X rsj k) ∧ (unhopN g t rsi rsj X).idx x = X.idx x)) ∧
    (∀ x, (∃ k, k < t ∧ x = rsi k ∧ (unhopN g t rsi rsj X).num x = 0) ∨ (∃ k, k < t ∧ x = rsj k ∧ (unhopN g t rsi rsj X).num x = 1) ∨
      ((∀ k, k < t → x ≠ rsi k ∧ x ≠ rsj k) ∧ (unhopN g t rsi rsj X).num x = X.num x)) := by
  intro t
  induction t with
  | zero =>
    exact ⟨rfl, fun x => Or.inr ⟨fun k hk => absurd hk (Nat.not_lt_zero k), rfl⟩,
      fun x => Or.inr (Or.inr ⟨fun k hk => absurd hk (Nat.not_lt_zero k), rfl⟩)⟩
  | succ t ih =>
    obtain ⟨i0, i1, i2⟩ := ih
    have e : unhopN g (t + 1) rsi rsj X = { unhopN g t rsi rsj X with
        idx := (unhopN g t rsi rsj X).idx.set (hopMs g (unhopN g t rsi rsj X) rsj t) ((rsj t % g.p.Nsite : Nat) : Int)
        num := ((unhopN g t rsi rsj X).num.set (rsj t) 1).set (rsi t) 0 } := by
      unfold unhopN
      rw [List.range_succ, List.foldl_append]
      rfl
    have ems : hopMs g (unhopN g t rsi rsj X) rsj t = hopMs g X rsj t := by unfold hopMs; rw [i0]
    rw [e, ems]
    refine ⟨i0, fun x => ?_, fun x => ?_⟩
    · by_cases h : x = hopMs g X rsj t
      · left
        refine ⟨t, by omega, h, ?_⟩
        show (unhopN g t rsi rsj X).idx.set _ _ x = _
        rw [h, set_self]
      · have q : ((unhopN g t rsi rsj X).idx.set (hopMs g X rsj t) ((rsj t % g.p.Nsite : Nat) : Int)) x
            = (unhopN g t rsi rsj X).idx x := set_ne h
        rcases i1 x with ⟨k, hk, h1, h2⟩ | ⟨h1, h2⟩
        · exact Or.inl ⟨k, by omega, h1, q.trans h2⟩
        · refine Or.inr ⟨fun k hk => ?_, q.trans h2⟩
          rcases Nat.lt_succ_iff_lt_or_eq.mp hk with h' | rfl
          · exact h1 k h'
          · exact h
    · by_cases h : x = rsi t
      · left
        refine ⟨t, by omega, h, ?_⟩
        show ((unhopN g t rsi rsj X).num.set _ _).set _ _ x = _
        rw [h, set_self]
      by_cases h' : x = rsj t
      · right; left
        refine ⟨t, by omega, h', ?_⟩
        show ((unhopN g t rsi rsj X).num.set _ _).set _ _ x = _
        rw [set_ne h, h', set_self]
      have q : (((unhopN g t rsi rsj X).num.set (rsj t) 1).set (rsi t) 0) x = (unhopN g t rsi rsj X).num x := by
        rw [set_ne h, set_ne h']
      rcases i2 x with ⟨k, hk, h1, h2⟩ | ⟨k, hk, h1, h2⟩ | ⟨h1, h2⟩
      · exact Or.inl ⟨k, by omega, h1, q.trans h2⟩
      · exact Or.inr (Or.inl ⟨k, by omega, h1, q.trans h2⟩)
      · refine Or.inr (Or.inr ⟨fun k hk => ?_, q.trans h2⟩)
        rcases Nat.lt_succ_iff_lt_or_eq.mp hk with h3 | rfl
        · exact h1 k h3
        · exact ⟨h, h'⟩

/-- the tables are restored -/
theorem unhop_hop : unhopN g n rsi rsj (hopN g n rsi rsj c) = c := by
  obtain ⟨f1, f2⟩ := hopN_frame hc hok hgood n (Nat.le_refl n)
  have hcfg := (hopN_eq hc hok hgood n (Nat.le_refl n)).2.2
  obtain ⟨u0, u1, u2⟩ := unhopN_vals (g := g) (rsi := rsi) (rsj := rsj) (hopN g n rsi rsj c) n
  have ems : ∀ k, hopMs g (hopN g n rsi rsj c) rsj k = hopMs g c rsj k := fun k => by unfold hopMs; rw [hcfg]
  have e1 : (unhopN g n rsi rsj (hopN g n rsi rsj c)).idx = c.idx := by
    funext x
    rcases u1 x with ⟨k, hk, h1, h2⟩ | ⟨h1, h2⟩
    · rw [h2, h1, ems, (hopMs_spec hc hok hgood hk).2.1]
    · rw [h2]; exact f1 x (fun k hk => by rw [← ems]; exact h1 k hk)
  have e2 : (unhopN g n rsi rsj (hopN g n rsi rsj c)).num = c.num := by
    funext x
    rcases u2 x with ⟨k, hk, h1, h2⟩ | ⟨k, hk, h1, h2⟩ | ⟨h1, h2⟩
    · rw [h2, h1, (hopMs_spec hc hok hgood hk).2.2.2]
    · rw [h2, h1, (hopMs_spec hc hok hgood hk).2.2.1]
    · rw [h2]; exact f2 x h1
  have e3 : (unhopN g n rsi rsj (hopN g n rsi rsj c)).cfg = c.cfg := u0.trans hcfg
  cases h : unhopN g n rsi rsj (hopN g n rsi rsj c)
  rw [h] at e1 e2 e3
  cases c
  simp only at e1 e2 e3
  rw [e1, e2, e3]

end

/-- the matrix element of a product of pairs -/
theorem matrixElement_pairs (Ψ : List Nat → ℂ) (P : List (Nat × Nat)) (l : List Nat) :
    matrixElement Ψ (pairOps P) l = (starRingEnd ℂ) (dualN P Ψ l / Ψ l) := by
  unfold matrixElement
  rw [overlap_pairs, overlap_one]

section
variable {g : GrnEnv} (hg : GrnOK g) (hr : g.flagRBM = true → GrnRBM g) {c : EleCfg} {ip : ℂ} {projCnt : Arr} {rbmCnt : Nat → ℂ}
  (h : Sampled g c ip projCnt rbmCnt) {pfa : Nat → (Nat → ℂ) → ℂ} (hpfa : PfaOK pfa)
include hg hr h

include hpfa in
theorem greenFuncNHop_val {n : Nat} {rsi rsj : Nat → Nat} (hok : PairsOK (2 * g.p.Nsite) (· / g.p.Nsite) rsi rsj n)
    (hgood : Good (prs rsi rsj 0 n) (szList g c)) :
    greenFuncNHop g (fun n msa idx q => some (calculateNewPfMN g.p pfa g.slt n msa idx g.st q)) n rsi rsj ip projCnt rbmCnt c
      = some (matrixElement (psi g) (pairOps (prs rsi rsj 0 n)) (szList g c), c) := by
  have hc : Cons g.sp c := h.cons
  have pl := placed_sz hc
  have nd : (szList g c).Nodup := pl.nodup
  have rg : ∀ z ∈ szList g c, z < 2 * g.p.Nsite := pl.range
  obtain ⟨f1, f2, f3, f4⟩ := fullHop_inv hc hok hgood n (Nat.le_refl n)
  obtain ⟨h1, h2, h3⟩ := hopN_eq hc hok hgood n (Nat.le_refl n)
  have pl' := placed_sz f1
  rw [matrixElement_pairs, dualN_good (psi_anti hg) nd rg hgood (fun q hq => by
    obtain ⟨m, _, hm, rfl⟩ := mem_prs.mp hq
    exact (hok m (by omega)).1), ← f2]
  unfold greenFuncNHop
  simp only []
  rw [if_pos (by simp), unhop_hop hc hok hgood]
  congr 2
  have key := h.carried.ratio hg hr pl' (projNew := makeProjCnt g.q (hopN g n rsi rsj c).num)
    (rbmNew := makeRBMCnt g.rbm (hopN g n rsi rsj c).num) (fun k _ => by rw [h2]) (fun _ k _ => by rw [h2])
  have amp : calculateIPLocal g.w (fun q => (some (calculateNewPfMN g.p pfa g.slt n (hopMs g c rsj) (hopN g n rsi rsj c).idx g.st q)).getD 0)
      0 g.nQP = amplitude (2 * g.p.Ne) (2 * g.p.Nsite) g.slt g.w 0 g.nQP
        (occSz g.p.Ne g.p.Nsite (fullHop g c rsi rsj n).idx) := by
    refine calculateIPLocal_eq (n := 2 * g.p.Ne) (nsite2 := 2 * g.p.Nsite) (slt := g.slt) (w := g.w) (qpStart := 0)
      (qpEnd := g.nQP) (rs := occSz g.p.Ne g.p.Nsite (fullHop g c rsi rsj n).idx) ?_
    intro q hq
    rw [Option.getD_some, h1, Nat.add_zero]
    exact calculateNewPfMN_ok (p := g.p) (nq := g.nQP) (idx := c.idx) hpfa (hg.skew q (by omega)) (onSites_of_cons hc)
      (onSites_of_cons f1) (fun k hk => (hopMs_spec hc hok hgood hk).1) (fun k hk l hl => hopMs_inj hc hok hgood hk hl)
      (fun i _ hi => by rw [← h1]; exact (hopN_frame hc hok hgood n (Nat.le_refl n)).1 i (fun k hk => (hi k hk).symm)) (by omega) h.pf
  rw [amp]
  exact congrArg (starRingEnd ℂ) key

include hpfa in
/-- **value of the n-body Green function** -/
theorem greenFuncN_val : ∀ (n : Nat) (rsi rsj : Nat → Nat), 0 < n → PairsOK (2 * g.p.Nsite) (· / g.p.Nsite) rsi rsj n →
    greenFuncNReal g pfa ip projCnt rbmCnt c n rsi rsj
      = some (matrixElement (psi g) (pairOps (prs rsi rsj 0 n)) (szList g c), c)
  | 0, _, _, h0, _ => absurd h0 (by decide)
  | 1, rsi, rsj, _, hok => by
    obtain ⟨b1, b2, b3⟩ := hok 0 (by omega)
    have b3 : rsi 0 / g.p.Nsite = rsj 0 / g.p.Nsite := b3
    have hN : 0 < g.p.Nsite := by omega
    unfold greenFuncNReal greenFuncN
    simp only []
    rw [if_neg (not_not.mpr b3), greenFunc1_val hg hr h (div_lt_two b1) (Nat.mod_lt _ hN) (Nat.mod_lt _ hN)]
    congr 2
    rw [mod_div, b3, mod_div]
    rfl
  | 2, rsi, rsj, _, hok => by
    obtain ⟨b1, b2, b3⟩ := hok 0 (by omega)
    obtain ⟨d1, d2, d3⟩ := hok 1 (by omega)
    have b3 : rsi 0 / g.p.Nsite = rsj 0 / g.p.Nsite := b3
    have d3 : rsi 1 / g.p.Nsite = rsj 1 / g.p.Nsite := d3
    have hN : 0 < g.p.Nsite := by omega
    unfold greenFuncNReal greenFuncN
    simp only []
    rw [if_neg (by rw [b3, d3]; simp), greenFunc2_val hg hr h (div_lt_two b1) (div_lt_two d1) (Nat.mod_lt _ hN) (Nat.mod_lt _ hN)
      (Nat.mod_lt _ hN) (Nat.mod_lt _ hN)]
    congr 2
    rw [mod_div, b3, mod_div, mod_div, d3, mod_div]
    rfl
  | n + 3, rsi, rsj, _, hok => by
    have pl := placed_sz (g := g) (c := c) h.cons
    have nd : (szList g c).Nodup := pl.nodup
    have rg : ∀ z ∈ szList g c, z < 2 * g.p.Nsite := pl.range
    have sc := scanRed_ok (f := (· / g.p.Nsite)) (psi_anti hg) nd rg hok (num := c.num)
      (fun x hx => by
        have e1 : x ∈ szList g c ↔ _ := pl.mem hx
        rw [e1]
        rcases pl.bin x hx with e | e <;> rw [e] <;> simp)
      (fun x hx => pl.mem hx) (n + 3) (Nat.le_refl _) (by
        rw [Nat.sub_self]; exact Good.nil _)
    have hany : (List.range (n + 3)).any (fun k => rsi k / g.p.Nsite != rsj k / g.p.Nsite) = false := by
      rw [List.any_eq_false]
      intro k hk
      have := (hok k (List.mem_range.mp hk)).2.2
      simpa using this
    unfold greenFuncNReal greenFuncN
    simp only []
    rw [hany, if_neg (by decide)]
    cases hs : scanRed (n + 3) rsi rsj c.num (n + 3) with
    | zero =>
      rw [hs] at sc
      have sc : dualN (prs rsi rsj 0 (n + 3)) (psi g) (szList g c) = 0 := sc
      simp only []
      rw [matrixElement_pairs, sc]
      simp
    | recur neg rsi' rsj' =>
      rw [hs] at sc
      obtain ⟨s1, s2⟩ := sc
      have ih := greenFuncN_val (n + 2) rsi' rsj' (by omega) s1
      unfold greenFuncNReal at ih
      simp only []
      rw [ih]
      simp only []
      rw [matrixElement_pairs, matrixElement_pairs, s2]
      congr 2
      cases neg with
      | false => simp
      | true =>
        simp only [if_true]
        rw [neg_one_mul, neg_one_mul, neg_div, map_neg]
        rfl
    | hop =>
      rw [hs] at sc
      simp only []
      exact greenFuncNHop_val hg hr h hpfa hok sc

end

end MVMC
