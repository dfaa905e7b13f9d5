import Verif.Proof.SrOptOMain
import Mathlib.Analysis.SpecialFunctions.Trigonometric.Deriv
import Mathlib.Analysis.Calculus.FDeriv.Pi
import Mathlib.Analysis.Calculus.FDeriv.Mul
import Mathlib.Analysis.Calculus.FDeriv.Add
import Mathlib.Analysis.Calculus.FDeriv.RestrictScalars
import Mathlib.Analysis.Calculus.FDeriv.Prod

/-! # The amplitude is a differentiable function of all parameters together -/
namespace MVMC
open MVMC.Spec Finset

variable {E : Type} [NormedAddCommGroup E] [NormedSpace ℝ E]

/-! ## Stores -/

/-- a list of stores with fixed targets and differentiable values -/
def DiffStores (L : E → List (Nat × ℂ)) : Prop :=
  ∃ evs : List (Nat × (E → ℂ)), (∀ p ∈ evs, Differentiable ℝ p.2) ∧ ∀ e, L e = evs.map fun p => (p.1, p.2 e)

theorem DiffStores.nil : DiffStores (fun _ : E => ([] : List (Nat × ℂ))) := ⟨[], by simp, by simp⟩

theorem DiffStores.cons {L : E → List (Nat × ℂ)} (k : Nat) {f : E → ℂ} (hf : Differentiable ℝ f) (h : DiffStores L) :
    DiffStores (fun e => (k, f e) :: L e) := by
  obtain ⟨evs, h1, h2⟩ := h
  refine ⟨(k, f) :: evs, ?_, fun e => by simp only [h2 e]; rfl⟩
  intro p hp
  rcases List.mem_cons.mp hp with rfl | hp
  · exact hf
  · exact h1 p hp

theorem DiffStores.append {L M : E → List (Nat × ℂ)} (h : DiffStores L) (h' : DiffStores M) : DiffStores (fun e => L e ++ M e) := by
  obtain ⟨evs, h1, h2⟩ := h
  obtain ⟨evs', h3, h4⟩ := h'
  refine ⟨evs ++ evs', ?_, fun e => by simp only [h2 e, h4 e, List.map_append]⟩
  intro p hp
  rcases List.mem_append.mp hp with hp | hp
  · exact h1 p hp
  · exact h3 p hp

theorem DiffStores.flatMap {ι : Type} (l : List ι) {L : ι → E → List (Nat × ℂ)} (h : ∀ i, DiffStores (L i)) : DiffStores (fun e => l.flatMap fun i => L i e) := by
  induction l with
  | nil => exact DiffStores.nil
  | cons i l ih =>
    simp only [List.flatMap_cons]
    exact (h i).append ih

theorem DiffStores.run {L : E → List (Nat × ℂ)} (h : DiffStores L) (a : Nat → ℂ) (k : Nat) : Differentiable ℝ fun e => runStores (L e) a k := by
  obtain ⟨evs, h1, h2⟩ := h
  have key : ∀ (evs : List (Nat × (E → ℂ))) (b : E → Nat → ℂ), (∀ p ∈ evs, Differentiable ℝ p.2) → (∀ k, Differentiable ℝ fun e => b e k) →
      ∀ k, Differentiable ℝ fun e => runStores (evs.map fun p => (p.1, p.2 e)) (b e) k := by
    intro evs
    induction evs with
    | nil => intro b _ hb k; exact hb k
    | cons p evs ih =>
      intro b hp hb k
      show Differentiable ℝ fun e => runStores (evs.map fun p => (p.1, p.2 e)) (storeAt (b e) (p.1, p.2 e)) k
      refine ih (fun e => storeAt (b e) (p.1, p.2 e)) (fun q hq => hp q (List.mem_cons_of_mem _ hq)) (fun j => ?_) k
      by_cases hj : j = p.1
      · have : (fun e => storeAt (b e) (p.1, p.2 e) j) = p.2 := by funext e; simp [storeAt, hj]
        rw [this]; exact hp p List.mem_cons_self
      · have : (fun e => storeAt (b e) (p.1, p.2 e) j) = fun e => b e j := by funext e; simp [storeAt, hj]
        rw [this]; exact hb j
  simp only [h2]
  exact key evs (fun _ => a) h1 (fun _ => differentiable_const _) k

/-! ## The Pfaffian -/

theorem altSum_diff {c : E → Nat → ℂ} (hc : ∀ y, Differentiable ℝ fun e => c e y) : ∀ (l : List Nat) (F : E → List Nat → ℂ),
    (∀ m, Differentiable ℝ fun e => F e m) → Differentiable ℝ fun e => altSum (c e) (F e) l
  | [], _, _ => differentiable_const _
  | y :: l, F, hF => ((hc y).mul (hF l)).sub (altSum_diff hc l (fun e m => F e (y :: m)) fun _ => hF _)

theorem pfN_diff {A : E → Nat → Nat → ℂ} (hA : ∀ x y, Differentiable ℝ fun e => A e x y) : ∀ (n : Nat) (l : List Nat), Differentiable ℝ fun e => pfN (A e) n l
  | 0, [] => differentiable_const _
  | _ + 1, [] => differentiable_const _
  | 0, _ :: _ => differentiable_const _
  | n + 1, x :: l => altSum_diff (fun y => hA x y) l (fun e => pfN (A e) n) fun m => pfN_diff hA n m

theorem prod_diff (n : Nat) (f : Nat → E → ℂ) (h : ∀ i, Differentiable ℝ (f i)) : Differentiable ℝ fun e => ∏ i ∈ range n, f i e := by
  induction n with
  | zero => simp
  | succ n ih =>
    simp only [prod_range_succ]
    exact ih.mul (h n)

/-! ## The amplitude -/

variable {p : E → Nat → ℂ} (hp : ∀ k, Differentiable ℝ fun e => p e k)
include hp

theorem slater_diff (Q : QPPar) (cs cc ss : Nat → ℂ) (off : Nat) (slt0 : Nat → ℂ) (k : Nat) :
    Differentiable ℝ fun e => updateSlaterElm Q cs cc ss (fun k => p e (off + k)) slt0 k := by
  refine DiffStores.run ?_ slt0 k
  refine DiffStores.flatMap _ fun q => DiffStores.flatMap _ fun ri => DiffStores.flatMap _ fun rj => ?_
  refine DiffStores.cons _ ?_ (DiffStores.cons _ ?_ (DiffStores.cons _ ?_ (DiffStores.cons _ ?_ DiffStores.nil)))
  all_goals
    have h1 := hp (off + Q.orbIdx (Q.tr (Q.optidx q) (Q.mpidx q) ri) (Q.tr (Q.optidx q) (Q.mpidx q) rj))
    have h2 := hp (off + Q.orbIdx (Q.tr (Q.optidx q) (Q.mpidx q) rj) (Q.tr (Q.optidx q) (Q.mpidx q) ri))
    fun_prop

theorem slaterF_diff (Q : QPPar) (off : Nat) (slt0 : Nat → ℂ) (k : Nat) :
    Differentiable ℝ fun e => updateSlaterElmF Q (fun k => p e (off + k)) slt0 k := by
  refine DiffStores.run ?_ slt0 k
  refine DiffStores.flatMap _ fun q => DiffStores.flatMap _ fun ri => DiffStores.flatMap _ fun rj => ?_
  refine DiffStores.cons _ ?_ (DiffStores.cons _ ?_ (DiffStores.cons _ ?_ (DiffStores.cons _ ?_ DiffStores.nil)))
  all_goals
    have h := fun a b => hp (off + Q.orbIdx a b)
    fun_prop

theorem weight_diff (Q : QPPar) (flagOpt : Bool) (off : Nat) (fix w0 : Nat → ℂ) (k : Nat) :
    Differentiable ℝ fun e => qpFullWeight Q flagOpt (fun i => p e (off + i)) fix w0 k := by
  unfold qpFullWeight
  cases flagOpt with
  | false =>
    simp only [Bool.false_eq_true, if_false]
    exact differentiable_const _
  | true =>
    simp only [if_true]
    refine DiffStores.run ?_ w0 k
    refine DiffStores.flatMap _ fun i => ?_
    have e : (fun e => (List.range Q.nFix).map fun j => (i * Q.nFix + j, p e (off + i) * fix j)) =
        fun e => (List.range Q.nFix).flatMap fun j => [(i * Q.nFix + j, p e (off + i) * fix j)] := by
      funext e
      rw [← List.flatMap_pure_eq_map]; rfl
    rw [e]
    refine DiffStores.flatMap _ fun j => DiffStores.cons _ ?_ DiffStores.nil
    have h := hp (off + i)
    fun_prop

theorem proj_diff (q : ProjPar) (num : Nat → Int) : Differentiable ℝ fun e => ((projSpec q (p e) num : ℝ) : ℂ) := by
  have hr : ∀ k, Differentiable ℝ fun e => (p e k).re := fun k => Complex.reCLM.differentiable.comp (hp k)
  have h : Differentiable ℝ fun e => projSpec q (p e) num := by
    unfold projSpec logCorr
    fun_prop
  exact Complex.ofRealCLM.differentiable.comp h

theorem rbm_diff (P : RBMPar ℂ) (off : Nat) (num : Nat → Int) : Differentiable ℝ fun e => rbmSpec { P with par := fun i => p e (off + i) } num := by
  have hexp : Differentiable ℝ Complex.exp := (Complex.differentiable_exp (𝕜 := ℂ)).restrictScalars ℝ
  have hcosh : Differentiable ℝ Complex.cosh := Complex.differentiable_cosh.restrictScalars ℝ
  have h := fun k => hp (off + k)
  have hif : ∀ (c : Prop) (d : E → Decidable c) (k : Nat), Differentiable ℝ fun e => @ite ℂ c (d e) (p e k) 0 := by
    intro c d k
    by_cases hc : c
    · simpa [hc] using hp k
    · simp [hc]
  unfold rbmSpec rbmFactor hiddenInput
  simp only [RBMPar.hidden, RBMPar.physHidden, RBMPar.nPhys, RBMPar.nHid]
  refine Differentiable.mul (hexp.comp ?_) (Differentiable.mul (Differentiable.mul ?_ ?_) ?_)
  · fun_prop
  all_goals
    refine prod_diff _ _ fun h => hcosh.comp ?_
    refine Differentiable.add (hif _ (fun _ => _) _) (Differentiable.fun_sum fun r _ => (hif _ (fun _ => _) _).mul_const _)

/-- all parameters together -/
theorem psiWith_diff (G : ParGlob) (slt : E → Nat → ℂ) (hs : ∀ k, Differentiable ℝ fun e => slt e k) (l : List Nat) :
    Differentiable ℝ fun e => psi (G.envWith (p e) (slt e)) l := by
  show Differentiable ℝ fun e => (((projSpec G.q (p e) (occupation l) : ℝ) : ℂ) *
      if G.flagRBM = true then rbmSpec { G.rbm with par := fun i => p e (G.q.NProj + i) } (occupation l) else 1) *
    ∑ q ∈ range G.Q.nFull, qpFullWeight G.Q G.flagOpt (fun i => p e (G.oOpt + i)) G.fix G.w0 q * pfN (entry (2 * G.p.Nsite) (slt e) q) l.length l
  refine Differentiable.mul (Differentiable.mul ?_ ?_) (Differentiable.fun_sum fun q _ => Differentiable.mul ?_ ?_)
  · exact proj_diff hp G.q _
  · cases G.flagRBM with
    | false => simp
    | true =>
      simp only [if_true]
      exact rbm_diff hp G.rbm G.q.NProj _
  · exact weight_diff hp G.Q G.flagOpt G.oOpt G.fix G.w0 q
  · exact pfN_diff (fun x y => hs _) _ _

theorem psi_diff (G : ParGlob) (l : List Nat) : Differentiable ℝ fun e => psi (G.env (p e)) l :=
  psiWith_diff hp G _ (fun k => slater_diff hp G.Q G.cs G.cc G.ss G.oSlater G.slt0 k) l

theorem psiF_diff (G : ParGlob) (l : List Nat) : Differentiable ℝ fun e => psi (G.envF (p e)) l :=
  psiWith_diff hp G _ (fun k => slaterF_diff hp G.Q G.oSlater G.slt0 k) l

end MVMC
