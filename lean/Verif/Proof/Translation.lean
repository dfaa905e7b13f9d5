import Verif.Spec.Translation
import Verif.Spec.TrialState
import Verif.Proof.SpinCode

/-! Lattice symmetries of the amplitude. -/
namespace MVMC
open MVMC.Spec Finset

section base
variable {N : Nat} {T : Nat → Nat} (hT : SitePerm N T)
include hT

theorem moveOrb_mod {x : Nat} (hx : x < 2 * N) : moveOrb N T x % N = T (x % N) ∧ moveOrb N T x / N = x / N ∧ moveOrb N T x < 2 * N := by
  have hN : 0 < N := by omega
  have h := hT.lt (x % N) (Nat.mod_lt _ hN)
  have hd : x / N < 2 := Nat.div_lt_of_lt_mul (by omega)
  unfold moveOrb
  refine ⟨by rw [Nat.add_mul_mod_self_right, Nat.mod_eq_of_lt h], by rw [Nat.add_mul_div_right _ _ hN, Nat.div_eq_of_lt h, Nat.zero_add], ?_⟩
  have : x / N * N ≤ 1 * N := Nat.mul_le_mul_right _ (by omega)
  omega

theorem moveOrb_inj {x y : Nat} (hx : x < 2 * N) (hy : y < 2 * N) (h : moveOrb N T x = moveOrb N T y) : x = y := by
  have hN : 0 < N := by omega
  obtain ⟨a1, a2, _⟩ := moveOrb_mod hT hx
  obtain ⟨b1, b2, _⟩ := moveOrb_mod hT hy
  have e1 := hT.inj _ (Nat.mod_lt x hN) _ (Nat.mod_lt y hN) (by rw [← a1, ← b1, h])
  have e2 : x / N = y / N := by rw [← a2, ← b2, h]
  rw [← Nat.div_add_mod x N, ← Nat.div_add_mod y N, e1, e2]

omit hT in
theorem moveOrb_up {r : Nat} (hr : r < N) : moveOrb N T r = T r ∧ moveOrb N T (r + N) = T r + N := by
  unfold moveOrb
  rw [Nat.mod_eq_of_lt hr, Nat.div_eq_of_lt hr, Nat.add_mod_right, Nat.mod_eq_of_lt hr, Nat.add_div_right _ (by omega), Nat.div_eq_of_lt hr]
  constructor <;> omega

theorem occupation_moved {l : List Nat} (hl : OnLattice N l) {x : Nat} (hx : x < 2 * N) :
    occupation (moved N T l) (moveOrb N T x) = occupation l x := by
  have : moveOrb N T x ∈ moved N T l ↔ x ∈ l := by
    unfold moved
    rw [List.mem_map]
    exact ⟨fun ⟨y, hy, e⟩ => moveOrb_inj hT (hl y hy) hx e ▸ hy, fun h => ⟨x, h, rfl⟩⟩
  unfold occupation
  simp only [this]

theorem sum_perm {M : Type} [AddCommMonoid M] (f : Nat → M) : ∑ r ∈ range N, f (T r) = ∑ r ∈ range N, f r := by
  have hm : Set.MapsTo T (range N : Set Nat) (range N) := fun r hr => mem_coe.mpr (mem_range.mpr (hT.lt r (mem_range.mp (mem_coe.mp hr))))
  have hi : Set.InjOn T (range N : Set Nat) := fun r hr s hs h => hT.inj r (mem_range.mp (mem_coe.mp hr)) s (mem_range.mp (mem_coe.mp hs)) h
  exact Finset.sum_nbij T (fun r hr => mem_range.mpr (hT.lt r (mem_range.mp hr))) hi (Finset.surjOn_of_injOn_of_card_le T hm hi le_rfl) (fun _ _ => rfl)

theorem card_perm (p p' : Nat → Prop) [DecidablePred p] [DecidablePred p'] (h : ∀ r < N, (p' (T r) ↔ p r)) :
    ((range N).filter p').card = ((range N).filter p).card := by
  rw [Finset.card_filter, Finset.card_filter, ← sum_perm hT]
  exact Finset.sum_congr rfl fun r hr => by simp only [h r (mem_range.mp hr)]

end base

theorem sitePerm_double {N : Nat} {T : Nat → Nat} (hT : SitePerm N T) : SitePerm (2 * N) (moveOrb N T) :=
  ⟨fun _ hx => (moveOrb_mod hT hx).2.2, fun _ hx _ hy h => moveOrb_inj hT hx hy h⟩

/-! ## the group sum -/

theorem sum_group {nT : Nat} {mul : Nat → Nat → Nat} (h1 : ∀ m < nT, ∀ a < nT, mul m a < nT)
    (h2 : ∀ m < nT, ∀ m' < nT, ∀ a < nT, mul m a = mul m' a → m = m') {a : Nat} (ha : a < nT) {M : Type} [AddCommMonoid M] (f : Nat → M) :
    ∑ m ∈ range nT, f (mul m a) = ∑ m ∈ range nT, f m :=
  sum_perm (T := fun m => mul m a) ⟨fun m hm => h1 m hm a ha, fun m hm m' hm' e => h2 m hm m' hm' a ha e⟩ f

theorem unit_sq {z : Int} (h : z = 1 ∨ z = -1) : z * z = 1 := by rcases h with h | h <;> rw [h] <;> rfl

/-- a matrix seen through a lattice map -/
theorem pf_moved {N : Nat} {T : Nat → Nat} {σ : Nat → Int} {A B : Nat → Nat → ℂ}
    (h : ∀ x < 2 * N, ∀ y < 2 * N, A (moveOrb N T x) (moveOrb N T y) = ((σ (x % N) : Int) : ℂ) * ((σ (y % N) : Int) : ℂ) * B x y)
    {l : List Nat} (hl : OnLattice N l) : pf A (moved N T l) = (movedSgn N σ l : ℂ) * pf B l := by
  unfold moved
  rw [pf_map (moveOrb N T) A l.length l le_rfl]
  rw [pf_congr (B := fun x y => 1 * (fun x => ((σ (x % N) : Int) : ℂ)) x * (fun x => ((σ (x % N) : Int) : ℂ)) y * B x y)
    (fun x hx y hy => by rw [h x (hl x hx) y (hl y hy)]; ring)]
  rw [pf_scale 1 _ B l.length l le_rfl, one_pow, one_mul]
  congr 1
  unfold movedSgn
  rw [Int.cast_list_prod, List.map_map]
  rfl

section tables
variable {N nT nO : Nat} {T : Nat → Nat → Nat} {σ : Nat → Nat → Int} {mul : Nat → Nat → Nat} {O : Nat → Nat → Nat} {τ : Nat → Nat → Int}

theorem comm_tr (hG : SymGroup N nT T σ mul) (hO : OptCommute N nT nO T σ O τ) {o m a r : Nat} (ho : o < nO) (hm : m < nT) (ha : a < nT)
    (hr : r < N) : T m (O o (T a r)) = T (mul m a) (O o r) := by
  rw [hO.comm o ho a ha r hr, hG.comp m hm a ha _ (hO.lt o ho r hr)]

theorem comm_sg (hG : SymGroup N nT T σ mul) (hO : OptCommute N nT nO T σ O τ) {o m a : Nat} (ho : o < nO) (hm : m < nT) (ha : a < nT) :
    ∃ ε : Int, ε * ε = 1 ∧ ∀ r < N, σ m (O o (T a r)) * τ o (T a r) = ε * (σ (mul m a) (O o r) * τ o r * σ a r) := by
  obtain ⟨e1, u1, h1⟩ := hG.comp_sgn m hm a ha
  obtain ⟨e2, u2, h2⟩ := hO.comm_sgn o ho a ha
  have v1 := unit_sq u1
  have v2 := unit_sq u2
  refine ⟨e1 * e2, by rw [mul_mul_mul_comm, v1, v2]; rfl, fun r hr => ?_⟩
  have e := h2 r hr
  have u := unit_sq (hG.unit a ha r hr)
  rw [hO.comm o ho a ha r hr, h1 _ (hO.lt o ho r hr)]
  calc σ m (T a (O o r)) * τ o (T a r) = σ m (T a (O o r)) * (τ o (T a r) * (σ a r * σ a r)) := by rw [u, mul_one]
    _ = σ m (T a (O o r)) * ((τ o (T a r) * σ a r) * σ a r) := by ring
    _ = 1 * (σ m (T a (O o r)) * (e2 * (σ a (O o r) * τ o r) * σ a r)) := by rw [e, one_mul]
    _ = e1 * e1 * (σ m (T a (O o r)) * (e2 * (σ a (O o r) * τ o r) * σ a r)) := by rw [v1]
    _ = _ := by ring

end tables

/-! ## the amplitude -/

/-- the factor of the second projection -/
noncomputable def optCoef (G : ParGlob) (Para : Nat → ℂ) (o : Nat) : ℂ := if G.flagOpt then Para (G.oOpt + o) else 1

/-- pair coefficient of a spin point and two symmetry operations -/
noncomputable def pairT (Q : QPPar) (cs cc ss S : Nat → ℂ) (i m o x y : Nat) : ℂ :=
  translated S Q.orbIdx Q.orbSgn (Q.tr o m) (Q.sg o m) (x % Q.Nsite) (y % Q.Nsite) * spinCoef (cs i) (cc i) (ss i) (x / Q.Nsite) (y / Q.Nsite)

/-- the same in general-Sz mode -/
noncomputable def pairTF (Q : QPPar) (S : Nat → ℂ) (m o x y : Nat) : ℂ :=
  S (Q.orbIdx (moveOrb Q.Nsite (Q.tr o m) x) (moveOrb Q.Nsite (Q.tr o m) y))
    * ((Q.orbSgn (moveOrb Q.Nsite (Q.tr o m) x) (moveOrb Q.Nsite (Q.tr o m) y) * Q.sg o m (x % Q.Nsite) * Q.sg o m (y % Q.Nsite) : Int) : ℂ)

section psi
variable (G : ParGlob) (Para wsp paraQP old : Nat → ℂ) (hN : G.p.Nsite = G.Q.Nsite) (hs : 0 < G.Q.nSP) (hm : 0 < G.Q.nMP)
  (hO : G.flagOpt = false → G.Q.nOpt = 1) (hfix : G.fix = qpFixWeight G.Q wsp paraQP old)
include hN hs hm hO hfix

theorem psi_sum {l : List Nat} (hl : OnLattice G.Q.Nsite l) : psi (G.env Para) l = corrSpec (G.env Para) (occupation l) *
    ∑ i ∈ range G.Q.nSP, ∑ o ∈ range G.Q.nOpt, ∑ m ∈ range G.Q.nMP, optCoef G Para o * (wsp i * paraQP m) *
      pf (antisym (pairT G.Q G.cs G.cc G.ss (fun k => Para (G.oSlater + k)) i m o)) l := by
  rw [← sum_triples G.Q hs hm (fun i m o => optCoef G Para o * (wsp i * paraQP m) *
      pf (antisym (pairT G.Q G.cs G.cc G.ss (fun k => Para (G.oSlater + k)) i m o)) l)]
  show _ * ∑ k ∈ range G.Q.nFull, qpFullWeight G.Q G.flagOpt (fun i => Para (G.oOpt + i)) G.fix G.w0 k *
    pf (entry (2 * G.p.Nsite) (updateSlaterElm G.Q G.cs G.cc G.ss (fun k => Para (G.oSlater + k)) G.slt0) k) l = _
  congr 1
  refine Finset.sum_congr rfl fun k hk => ?_
  have hk := mem_range.mp hk
  rw [hfix, C46_weight G.Q hs hm G.flagOpt hO _ _ _ _ _ k hk, hN]
  congr 1
  exact pf_congr fun x hx y hy => slater_entry G.Q _ _ _ _ (List.Perm.refl _) G.slt0 hk (hl x hx) (hl y hy)

theorem psiF_sum {l : List Nat} (hl : OnLattice G.Q.Nsite l) : psi (G.envF Para) l = corrSpec (G.envF Para) (occupation l) *
    ∑ i ∈ range G.Q.nSP, ∑ o ∈ range G.Q.nOpt, ∑ m ∈ range G.Q.nMP, optCoef G Para o * (wsp i * paraQP m) *
      pf (antisym (pairTF G.Q (fun k => Para (G.oSlater + k)) m o)) l := by
  rw [← sum_triples G.Q hs hm (fun i m o => optCoef G Para o * (wsp i * paraQP m) *
      pf (antisym (pairTF G.Q (fun k => Para (G.oSlater + k)) m o)) l)]
  show _ * ∑ k ∈ range G.Q.nFull, qpFullWeight G.Q G.flagOpt (fun i => Para (G.oOpt + i)) G.fix G.w0 k *
    pf (entry (2 * G.p.Nsite) (updateSlaterElmF G.Q (fun k => Para (G.oSlater + k)) G.slt0) k) l = _
  congr 1
  refine Finset.sum_congr rfl fun k hk => ?_
  have hk := mem_range.mp hk
  rw [hfix, C46_weight G.Q hs hm G.flagOpt hO _ _ _ _ _ k hk, hN]
  congr 1
  exact pf_congr fun x hx y hy => slaterF_entry G.Q _ (List.Perm.refl _) G.slt0 hk (hl x hx) (hl y hy)

end psi

section move
variable {Q : QPPar} {mul : Nat → Nat → Nat} (hG : SymGroup Q.Nsite Q.nMP Q.trans Q.transSgn mul)
  (hC : OptCommute Q.Nsite Q.nMP Q.nOpt Q.trans Q.transSgn Q.opt Q.optSgn)
include hG hC

theorem tr_shift {o m a r : Nat} (ho : o < Q.nOpt) (hm : m < Q.nMP) (ha : a < Q.nMP) (hr : r < Q.Nsite) :
    Q.tr o m (Q.trans a r) = Q.tr o (mul m a) r := comm_tr hG hC ho hm ha hr

theorem sg_shift {o m a : Nat} (ho : o < Q.nOpt) (hm : m < Q.nMP) (ha : a < Q.nMP) : ∃ ε : Int, ε * ε = 1 ∧
    ∀ r < Q.Nsite, Q.sg o m (Q.trans a r) = ε * (Q.sg o (mul m a) r * Q.transSgn a r) := comm_sg hG hC ho hm ha

omit hG hC in
theorem eps_pull {ε : Int} (h : ε * ε = 1) (S s a b c d : ℂ) : S * (s * (ε * (a * b)) * (ε * (c * d))) = b * d * (S * (s * a * c)) := by
  have : (ε : ℂ) * ε = 1 := by exact_mod_cast h
  linear_combination (S * s * a * b * c * d) * this

theorem pairT_shift (cs cc ss S : Nat → ℂ) (i : Nat) {o m a x y : Nat} (ho : o < Q.nOpt) (hm : m < Q.nMP) (ha : a < Q.nMP)
    (hx : x < 2 * Q.Nsite) (hy : y < 2 * Q.Nsite) :
    antisym (pairT Q cs cc ss S i m o) (moveOrb Q.Nsite (Q.trans a) x) (moveOrb Q.Nsite (Q.trans a) y) =
      ((Q.transSgn a (x % Q.Nsite) : Int) : ℂ) * ((Q.transSgn a (y % Q.Nsite) : Int) : ℂ) * antisym (pairT Q cs cc ss S i (mul m a) o) x y := by
  have hp := hG.perm a ha
  have hN : 0 < Q.Nsite := by omega
  obtain ⟨x1, x2, _⟩ := moveOrb_mod hp hx
  obtain ⟨y1, y2, _⟩ := moveOrb_mod hp hy
  have a1 := tr_shift hG hC ho hm ha (Nat.mod_lt x hN)
  have b1 := tr_shift hG hC ho hm ha (Nat.mod_lt y hN)
  obtain ⟨ε, hε, hsg⟩ := sg_shift hG hC ho hm ha
  unfold antisym pairT translated
  rw [x1, x2, y1, y2, a1, b1, hsg _ (Nat.mod_lt x hN), hsg _ (Nat.mod_lt y hN)]
  push_cast
  rw [eps_pull hε, eps_pull hε]
  ring

theorem pairTF_shift (S : Nat → ℂ) {o m a x y : Nat} (ho : o < Q.nOpt) (hm : m < Q.nMP) (ha : a < Q.nMP)
    (hx : x < 2 * Q.Nsite) (hy : y < 2 * Q.Nsite) :
    antisym (pairTF Q S m o) (moveOrb Q.Nsite (Q.trans a) x) (moveOrb Q.Nsite (Q.trans a) y) =
      ((Q.transSgn a (x % Q.Nsite) : Int) : ℂ) * ((Q.transSgn a (y % Q.Nsite) : Int) : ℂ) * antisym (pairTF Q S (mul m a) o) x y := by
  have hp := hG.perm a ha
  have hN : 0 < Q.Nsite := by omega
  have key : ∀ x < 2 * Q.Nsite, moveOrb Q.Nsite (Q.tr o m) (moveOrb Q.Nsite (Q.trans a) x) = moveOrb Q.Nsite (Q.tr o (mul m a)) x := by
    intro x hx
    obtain ⟨x1, x2, _⟩ := moveOrb_mod hp hx
    show Q.tr o m (moveOrb Q.Nsite (Q.trans a) x % Q.Nsite) + moveOrb Q.Nsite (Q.trans a) x / Q.Nsite * Q.Nsite = _
    rw [x1, x2, tr_shift hG hC ho hm ha (Nat.mod_lt x hN)]
    rfl
  obtain ⟨ε, hε, hsg⟩ := sg_shift hG hC ho hm ha
  unfold antisym pairTF
  rw [key x hx, key y hy, (moveOrb_mod hp hx).1, (moveOrb_mod hp hy).1, hsg _ (Nat.mod_lt x hN), hsg _ (Nat.mod_lt y hN)]
  push_cast
  rw [eps_pull hε, eps_pull hε]
  ring

omit hC in
theorem group_sum {χ : Nat → ℂ} (hχ : Character Q.nMP mul χ) {A : Nat → Nat → Nat → ℂ} {a : Nat} (ha : a < Q.nMP) (w : ℂ)
    (hA : ∀ m < Q.nMP, ∀ x < 2 * Q.Nsite, ∀ y < 2 * Q.Nsite, A m (moveOrb Q.Nsite (Q.trans a) x) (moveOrb Q.Nsite (Q.trans a) y) =
      ((Q.transSgn a (x % Q.Nsite) : Int) : ℂ) * ((Q.transSgn a (y % Q.Nsite) : Int) : ℂ) * A (mul m a) x y) {l : List Nat}
    (hl : OnLattice Q.Nsite l) (c : ℂ) : χ a * ∑ m ∈ range Q.nMP, c * (w * χ m) * pf (A m) (moved Q.Nsite (Q.trans a) l) =
      (movedSgn Q.Nsite (Q.transSgn a) l : ℂ) * ∑ m ∈ range Q.nMP, c * (w * χ m) * pf (A m) l := by
  rw [← sum_group hG.mul_lt hG.cancel ha (fun m => c * (w * χ m) * pf (A m) l), Finset.mul_sum, Finset.mul_sum]
  refine Finset.sum_congr rfl fun m hm => ?_
  rw [pf_moved (hA m (mem_range.mp hm)) hl, hχ.map m (mem_range.mp hm) a ha]
  ring

end move

end MVMC
