import Verif.Proof.UhfOut4
import Mathlib.Topology.Algebra.Ring.Basic
import Mathlib.Topology.Instances.Complex
import Mathlib.Analysis.Complex.Basic

/-! Amplitudes of the variational state built from the file. -/
namespace MVMC
open MVMC.Spec Finset

theorem altSum_cont {α : Type} {c : ℝ → α → ℂ} (hc : ∀ y, Continuous fun t => c t y) : ∀ (l : List α) (F : ℝ → List α → ℂ),
    (∀ m, Continuous fun t => F t m) → Continuous fun t => altSum (c t) (F t) l
  | [], _, _ => continuous_const
  | y :: l, F, hF => by
    simp only [altSum]
    exact ((hc y).mul (hF l)).sub (altSum_cont hc l (fun t m => F t (y :: m)) (fun m => hF (y :: m)))

theorem pfN_cont {α : Type} {A : ℝ → α → α → ℂ} (hA : ∀ x y, Continuous fun t => A t x y) : ∀ (n : Nat) (l : List α),
    Continuous fun t => pfN (A t) n l
  | 0, [] => by simp only [pfN]; exact continuous_const
  | _ + 1, [] => by simp only [pfN]; exact continuous_const
  | 0, _ :: _ => by simp only [pfN]; exact continuous_const
  | n + 1, x :: l => by
    simp only [pfN]
    exact altSum_cont (hA x) l _ (fun m => pfN_cont hA n m)

/-- the amplitude for a matrix linear in `δ` -/
theorem pf_tendsto {M : Nat} {B A C : Nat → Nat → ℂ} {E : ℝ → Nat → Nat → ℂ} {x : List Nat} (hx : ∀ y ∈ x, y < M)
    (hE : ∀ δ, ∀ a < M, ∀ b < M, E δ a b = A a b + δ * C a b) (hB : ∀ a < M, ∀ b < M, A a b = B a b) :
    pf (E 0) x = pf B x ∧ Filter.Tendsto (fun δ => pf (E δ) x) (nhds 0) (nhds (pf B x)) := by
  have e : ∀ δ, pf (E δ) x = pf (fun a b => B a b + δ * C a b) x :=
    fun δ => pf_congr fun a ha b hb => by rw [hE δ a (hx a ha) b (hx b hb), hB a (hx a ha) b (hx b hb)]
  have e0 : pf (fun a b => B a b + ((0 : ℝ) : ℂ) * C a b) x = pf B x := by
    congr 1; funext a b; simp
  refine ⟨by rw [e, e0], ?_⟩
  simp only [e]
  rw [← e0]
  have c : Continuous fun δ : ℝ => pf (fun a b => B a b + (δ : ℂ) * C a b) x :=
    pfN_cont (A := fun (t : ℝ) a b => B a b + (t : ℂ) * C a b)
      (fun a b => continuous_const.add (Complex.continuous_ofReal.mul continuous_const)) x.length x
  exact c.tendsto 0

theorem uhfFij_pair (Ne : Nat) (L : Mat2) : uhfFij Ne (fun l k => (starRingEnd ℂ) (L k l)) = pairForm Ne L := by
  funext a b
  unfold uhfFij pairForm
  rw [sumLoop_eq]
  simp only [Complex.conj_conj]

theorem class_upper {N : Nat} {T : OrbT} (hlow : ∀ a < 2 * N, ∀ b ≤ a, T.idx a b = -1) (k : Nat) :
    pairClass T (allSet N) k = pairClass T (upperSet N) k := by
  ext p
  simp only [pairClass, allSet, upperSet, Finset.mem_filter, Finset.mem_product, Finset.mem_range]
  constructor
  · rintro ⟨⟨h1, h2⟩, h3⟩
    refine ⟨⟨⟨h1, h2⟩, ?_⟩, h3⟩
    by_contra hc
    have := hlow p.1 h1 p.2 (by omega)
    omega
  · rintro ⟨⟨h, _⟩, h3⟩; exact ⟨h, h3⟩

theorem mean_upper {N : Nat} {T : OrbT} (hlow : ∀ a < 2 * N, ∀ b ≤ a, T.idx a b = -1) (F : Mat2) (k : Nat) :
    classMean T (allSet N) F k = classMean T (upperSet N) F k := by
  unfold classMean; rw [class_upper hlow]

/-- value of a parameter read back, for a pair of its class -/
theorem read_pair {T : OrbT} {S : Finset (Nat × Nat)} {F : Mat2} (hr : Respects T S F) {nIdx k : Nat} {r : ℂ} {u δ : ℝ}
    {par : Option ℂ} {v : ℂ} {p : Nat × Nat} (hp : p ∈ S) (hk : T.idx p.1 p.2 = k) (hs : T.sgn p.1 p.2 = 1 ∨ T.sgn p.1 p.2 = -1)
    (hpar : par = if (pairClass T S k).card = 0 then none else some (classMean T S F k + (u : ℂ) * δ))
    (hv : ∀ z, par = some z → v = r * z) :
    v * (T.sgn p.1 p.2 : ℂ) = r * F p.1 p.2 + δ * (r * u * (T.sgn p.1 p.2 : ℂ)) := by
  obtain ⟨hc, hm⟩ := mean_respects hr hp hk hs
  rw [if_neg hc] at hpar
  rw [hv _ hpar, ← hm]; ring

/-- a matrix of the general-Sz program from pair values above the diagonal -/
theorem antisym_upper {Q : QPPar} (hm : Mirrored Q) {S : Nat → ℂ} {V : Mat2}
    (hS : ∀ a b, a < b → b < 2 * Q.Nsite → S (Q.orbIdx a b) * (Q.orbSgn a b : ℂ) = V a b) {a b : Nat} (ha : a < 2 * Q.Nsite) (hb : b < 2 * Q.Nsite) :
    antisym (fun i j => S (Q.orbIdx i j) * (Q.orbSgn i j : ℂ)) a b = if a < b then 2 * V a b else if b < a then -(2 * V b a) else 0 := by
  unfold antisym
  dsimp only
  rcases lt_trichotomy a b with h | h | h
  · obtain ⟨m1, m2⟩ := hm a b h hb
    rw [if_pos h, m1, m2, ← hS a b h hb]; push_cast; ring
  · subst h; rw [if_neg (lt_irrefl _), if_neg (lt_irrefl _), sub_self]
  · obtain ⟨m1, m2⟩ := hm b a h ha
    rw [if_neg (by omega), if_pos h, m1, m2, ← hS b a h ha]; push_cast; ring

theorem pairForm_anti (Ne : Nat) (φ : Mat2) (a b : Nat) : pairForm Ne φ a b = - pairForm Ne φ b a := by
  unfold pairForm
  rw [← Finset.sum_neg_distrib]
  refine Finset.sum_congr rfl fun m _ => by ring

theorem pairForm_self (Ne : Nat) (φ : Mat2) (a : Nat) : pairForm Ne φ a a = 0 := by
  unfold pairForm
  apply Finset.sum_eq_zero; intro m _; ring

/-- general-Sz amplitude from parameters that reproduce the pair function up to `δ` -/
theorem state_gen {Q : QPPar} (hQ : Unprojected Q) (hm : Mirrored Q) {Ne : Nat} {L C : Mat2} {r : ℂ} {S : ℝ → Nat → ℂ} (old : Nat → ℂ)
    (hS : ∀ δ a b, a < b → b < 2 * Q.Nsite → S δ (Q.orbIdx a b) * (Q.orbSgn a b : ℂ) = r * pairForm Ne L a b + δ * C a b)
    {x : List Nat} (hl : x.length = 2 * Ne) (hx : ∀ y ∈ x, y < 2 * Q.Nsite) :
    pf (entry (2 * Q.Nsite) (updateSlaterElmF Q (S 0) old) 0) x = (2 * r) ^ Ne * slater (2 * Ne) L x ∧
    Filter.Tendsto (fun δ => pf (entry (2 * Q.Nsite) (updateSlaterElmF Q (S δ) old) 0) x) (nhds 0)
      (nhds ((2 * r) ^ Ne * slater (2 * Ne) L x)) := by
  have e : (2 * r) ^ Ne * slater (2 * Ne) L x = pf (fun a b => 2 * r * pairForm Ne L a b) x := by
    rw [pf_smul (2 * r) _ x.length x le_rfl, hl, show 2 * Ne / 2 = Ne by omega, pairForm_slater Ne L hl]
  rw [e]
  refine pf_tendsto (M := 2 * Q.Nsite) (E := fun δ => entry (2 * Q.Nsite) (updateSlaterElmF Q (S δ) old) 0)
    (A := fun a b => 2 * r * pairForm Ne L a b)
    (C := fun a b => if a < b then 2 * C a b else if b < a then -(2 * C b a) else 0) hx ?_ (fun _ _ _ _ => rfl)
  intro δ a ha b hb
  rw [unproj_entryF hQ _ _ ha hb, antisym_upper hm (hS δ) ha hb]
  rcases lt_trichotomy a b with h | h | h
  · rw [if_pos h, if_pos h]; ring
  · subst h; rw [if_neg (lt_irrefl _), if_neg (lt_irrefl _), if_neg (lt_irrefl _), if_neg (lt_irrefl _), pairForm_self]; ring
  · rw [if_neg (show ¬ a < b by omega), if_pos h, if_neg (show ¬ a < b by omega), if_pos h, pairForm_anti Ne L a b]; ring

/-- amplitude with definite total spin from parameters that reproduce the pair function up to `δ` -/
theorem state_ap {Q : QPPar} (hQ : Unprojected Q) {Ne : Nat} {U D C : Mat2} {r : ℂ} {S : ℝ → Nat → ℂ} (old : Nat → ℂ)
    (hS : ∀ δ, ∀ i < Q.Nsite, ∀ j < Q.Nsite, S δ (Q.orbIdx i j) * (Q.orbSgn i j : ℂ) = r * (∑ m ∈ range Ne, U m i * D m j) + δ * C i j)
    {x : List Nat} (hl : x.length = 2 * Ne) (hx : ∀ y ∈ x, y < 2 * Q.Nsite) :
    pf (entry (2 * Q.Nsite) (updateSlaterElm Q (fun _ => 0) (fun _ => 1) (fun _ => 0) (S 0) old) 0) x =
      r ^ Ne * slater (2 * Ne) (spinOrbitals Q.Nsite U D) x ∧
    Filter.Tendsto (fun δ => pf (entry (2 * Q.Nsite) (updateSlaterElm Q (fun _ => 0) (fun _ => 1) (fun _ => 0) (S δ) old) 0) x) (nhds 0)
      (nhds (r ^ Ne * slater (2 * Ne) (spinOrbitals Q.Nsite U D) x)) := by
  have e : r ^ Ne * slater (2 * Ne) (spinOrbitals Q.Nsite U D) x = pf (fun a b => r * pairForm Ne (spinOrbitals Q.Nsite U D) a b) x := by
    rw [pf_smul r _ x.length x le_rfl, hl, show 2 * Ne / 2 = Ne by omega, pairForm_slater Ne _ hl]
  rw [e]
  refine pf_tendsto (M := 2 * Q.Nsite) (E := fun δ => entry (2 * Q.Nsite) (updateSlaterElm Q (fun _ => 0) (fun _ => 1) (fun _ => 0) (S δ) old) 0)
    (A := fun a b => r * pairForm Ne (spinOrbitals Q.Nsite U D) a b)
    (C := fun a b => antisym (rotatedPair Q.Nsite 1 0 C) a b) hx ?_ (fun _ _ _ _ => rfl)
  intro δ a ha b hb
  have hN : 0 < Q.Nsite := by omega
  rw [unproj_entry hQ _ _ ha hb, ← rot_pairForm Q.Nsite Ne U D ha hb]
  unfold antisym rotatedPair
  dsimp only
  rw [hS δ _ (Nat.mod_lt a hN) _ (Nat.mod_lt b hN), hS δ _ (Nat.mod_lt b hN) _ (Nat.mod_lt a hN)]
  ring

end MVMC
