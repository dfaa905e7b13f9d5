import Verif.Spec.Spin
import Verif.Proof.LsDual
import Verif.Proof.PfaffianDeriv

/-! One-body operators as derivations on functions of lists. -/
namespace MVMC
open MVMC.Spec

/-- `Σ_k s(l_k) F(l with l_k replaced by φ(l_k))` -/
noncomputable def derL (s : Nat → ℂ) (φ : Nat → Nat) (F : List Nat → ℂ) : List Nat → ℂ
  | [] => 0
  | x :: l => s x * F (φ x :: l) + derL s φ (fun m => F (x :: m)) l

section basic
variable (s : Nat → ℂ) (φ : Nat → Nat)

theorem derL_add (F G : List Nat → ℂ) : ∀ l, derL s φ (fun m => F m + G m) l = derL s φ F l + derL s φ G l
  | [] => by simp [derL]
  | x :: l => by
    simp only [derL]
    rw [derL_add (fun m => F (x :: m)) (fun m => G (x :: m)) l]; ring

theorem derL_smul (c : ℂ) (F : List Nat → ℂ) : ∀ l, derL s φ (fun m => c * F m) l = c * derL s φ F l
  | [] => by simp [derL]
  | x :: l => by
    simp only [derL]
    rw [derL_smul c (fun m => F (x :: m)) l]; ring

theorem derL_zero (l : List Nat) : derL s φ (fun _ => 0) l = 0 := by
  have := derL_smul s φ 0 (fun _ => 0) l
  simpa using this

theorem derL_sum {ι : Type} (t : Finset ι) (F : ι → List Nat → ℂ) (l : List Nat) :
    derL s φ (fun m => ∑ k ∈ t, F k m) l = ∑ k ∈ t, derL s φ (F k) l := by
  classical
  induction t using Finset.induction_on with
  | empty => simp [derL_zero]
  | insert a t ha ih =>
    rw [Finset.sum_insert ha, ← ih, ← derL_add]
    congr 1; funext m; rw [Finset.sum_insert ha]

theorem derL_coef (c : ℂ) (F : List Nat → ℂ) : ∀ l, derL (fun x => c * s x) φ F l = c * derL s φ F l
  | [] => by simp [derL]
  | x :: l => by
    simp only [derL]
    rw [derL_coef c (fun m => F (x :: m)) l]; ring

theorem derL_coef_add (s t : Nat → ℂ) (F : List Nat → ℂ) : ∀ l, derL (fun x => s x + t x) φ F l = derL s φ F l + derL t φ F l
  | [] => by simp [derL]
  | x :: l => by
    simp only [derL]
    rw [derL_coef_add s t (fun m => F (x :: m)) l]; ring

/-- equal coefficients and functions on the lists that occur -/
theorem derL_congr {s t : Nat → ℂ} {φ : Nat → Nat} {M : Nat} (hφ : ∀ x < M, φ x < M) : ∀ {l : List Nat} {F G : List Nat → ℂ},
    (∀ x ∈ l, x < M) → (∀ x < M, s x = t x) → (∀ m : List Nat, m.length = l.length → (∀ x ∈ m, x < M) → F m = G m) →
    derL s φ F l = derL t φ G l
  | [], _, _, _, _, _ => rfl
  | x :: l, F, G, hl, hs, hF => by
    have hx : x < M := hl x (by simp)
    have hl' : ∀ y ∈ l, y < M := fun y hy => hl y (by simp [hy])
    simp only [derL]
    rw [hs x hx, hF (φ x :: l) (by simp) (by intro y hy; rcases List.mem_cons.mp hy with rfl | h; exacts [hφ x hx, hl' y h]),
      derL_congr hφ (F := fun m => F (x :: m)) (G := fun m => G (x :: m)) hl' hs
        (fun m e hm => hF (x :: m) (by simp [e]) (by intro y hy; rcases List.mem_cons.mp hy with rfl | h; exacts [hx, hm y h]))]

/-- commutator -/
theorem derL_comm (s t : Nat → ℂ) (φ χ : Nat → Nat) (u : Nat → ℂ) (ψ : Nat → Nat) {M : Nat} (hφ : ∀ x < M, φ x < M) (hχ : ∀ x < M, χ x < M)
    (h : ∀ x < M, ∀ F : Nat → ℂ, s x * t (φ x) * F (χ (φ x)) - t x * s (χ x) * F (φ (χ x)) = u x * F (ψ x)) :
    ∀ (l : List Nat) (F : List Nat → ℂ), (∀ x ∈ l, x < M) →
      derL s φ (derL t χ F) l - derL t χ (derL s φ F) l = derL u ψ F l
  | [], F, _ => by simp [derL]
  | x :: l, F, hl => by
    have ih := derL_comm s t φ χ u ψ hφ hχ h l (fun m => F (x :: m)) (fun y hy => hl y (by simp [hy]))
    have e1 : ∀ (s t : Nat → ℂ) (φ χ : Nat → Nat), derL s φ (derL t χ F) (x :: l) = s x * t (φ x) * F (χ (φ x) :: l) +
        s x * derL t χ (fun m => F (φ x :: m)) l + t x * derL s φ (fun m => F (χ x :: m)) l +
        derL s φ (derL t χ (fun m => F (x :: m))) l := by
      intro s t φ χ
      have : (fun m => derL t χ F (x :: m)) = fun m => t x * F (χ x :: m) + derL t χ (fun m => F (x :: m)) m := by
        funext m; simp only [derL]
      simp only [derL]
      rw [derL_add, derL_smul]
      ring
    rw [e1, e1]
    have h0 := h x (hl x (by simp)) (fun y => F (y :: l))
    simp only [derL]
    linear_combination ih + h0

end basic

/-! ### antisymmetry -/

/-- antisymmetric on all lists of orbitals below `M` -/
def AltL (M : Nat) (F : List Nat → ℂ) : Prop :=
  ∀ p x y s, (∀ z ∈ p ++ x :: y :: s, z < M) → F (p ++ x :: y :: s) = - F (p ++ y :: x :: s)

theorem AltL.anti {M : Nat} {F : List Nat → ℂ} (h : AltL M F) : Anti M F := fun p x y s _ hr => h p x y s hr

theorem AltL.cons {M : Nat} {F : List Nat → ℂ} (h : AltL M F) {a : Nat} (ha : a < M) : AltL M (fun m => F (a :: m)) := by
  intro p x y s hr
  exact h (a :: p) x y s (by intro z hz; rcases List.mem_cons.mp hz with rfl | h'; exacts [ha, hr z h'])

theorem AltL.dup {M : Nat} {F : List Nat → ℂ} (h : AltL M F) : ∀ (q p : List Nat) (x : Nat) (s : List Nat),
    (∀ z ∈ p ++ x :: q ++ x :: s, z < M) → F (p ++ x :: q ++ x :: s) = 0
  | [], p, x, s, hr => by
    have := h p x x s (by simpa using hr)
    have e : F (p ++ x :: x :: s) = 0 := by
      have h2 : (2 : ℂ) * F (p ++ x :: x :: s) = 0 := by linear_combination this
      simpa using h2
    simpa using e
  | a :: q, p, x, s, hr => by
    have h1 := h p x a (q ++ x :: s) (by simpa using hr)
    have h2 := AltL.dup h q (p ++ [a]) x s (by intro z hz; apply hr; simp at hz ⊢; tauto)
    simp only [List.append_assoc, List.cons_append, List.nil_append] at h1 h2 ⊢
    rw [h1, h2, neg_zero]

theorem AltL.zero {M : Nat} {F : List Nat → ℂ} (h : AltL M F) {l : List Nat} (hr : ∀ z ∈ l, z < M) (hn : ¬ l.Nodup) : F l = 0 := by
  obtain ⟨p, x, q, s, rfl⟩ := exists_dup_of_not_nodup hn
  exact h.dup q p x s hr

theorem altL_der {M : Nat} (s : Nat → ℂ) {φ : Nat → Nat} (hφ : ∀ x < M, φ x < M) : ∀ (p : List Nat) {F : List Nat → ℂ}, AltL M F → ∀ x y r,
    (∀ z ∈ p ++ x :: y :: r, z < M) → derL s φ F (p ++ x :: y :: r) = - derL s φ F (p ++ y :: x :: r)
  | [], F, h, x, y, r, hr => by
    simp only [List.nil_append] at hr ⊢
    have hx := hr x (by simp)
    have hy := hr y (by simp)
    have hr' : ∀ z ∈ r, z < M := fun z hz => hr z (by simp [hz])
    simp only [derL]
    have e1 := h [] (φ x) y r (by intro z hz; simp at hz; rcases hz with rfl | rfl | hz; exacts [hφ x hx, hy, hr' z hz])
    have e2 := h [] x (φ y) r (by intro z hz; simp at hz; rcases hz with rfl | rfl | hz; exacts [hx, hφ y hy, hr' z hz])
    have e3 : derL s φ (fun m => F (x :: y :: m)) r = - derL s φ (fun m => F (y :: x :: m)) r := by
      rw [← neg_one_mul, ← derL_smul]
      refine derL_congr hφ hr' (fun _ _ => rfl) (fun m _ hm => ?_)
      have := h [] x y m (by intro z hz; simp at hz; rcases hz with rfl | rfl | hz; exacts [hx, hy, hm z hz])
      simpa using this
    simp only [List.nil_append] at e1 e2
    rw [e1, e2, e3]; ring
  | a :: p, F, h, x, y, r, hr => by
    have ha : a < M := hr a (by simp)
    have hr' : ∀ z ∈ p ++ x :: y :: r, z < M := fun z hz => hr z (by rw [List.cons_append, List.mem_cons]; exact Or.inr hz)
    have ih := altL_der s hφ p (h.cons ha) x y r hr'
    have e1 := h.cons (hφ a ha) p x y r hr'
    beta_reduce at e1
    simp only [List.cons_append, derL]
    rw [ih, e1]; ring

theorem AltL.der {M : Nat} {F : List Nat → ℂ} (h : AltL M F) (s : Nat → ℂ) {φ : Nat → Nat} (hφ : ∀ x < M, φ x < M) :
    AltL M (derL s φ F) := fun p x y r hr => altL_der s hφ p h x y r hr

/-! ### derivation of the Pfaffian -/

theorem derL_altSum (s : Nat → ℂ) (φ : Nat → Nat) (c : Nat → ℂ) : ∀ (l : List Nat) (F : List Nat → ℂ),
    derL s φ (altSum c F) l = altSum (fun y => s y * c (φ y)) F l + altSum c (derL s φ F) l
  | [], F => by simp [derL, altSum]
  | y :: l, F => by
    have ih := derL_altSum s φ c l (fun m => F (y :: m))
    have e1 : (fun m => altSum c F (y :: m)) = fun m => c y * F m + (-1) * altSum c (fun m => F (y :: m)) m := by
      funext m; rw [altSum_cons']; ring
    have e2 : (fun m => derL s φ F (y :: m)) = fun m => s y * F (φ y :: m) + derL s φ (fun m => F (y :: m)) m := by
      funext m; simp only [derL]
    rw [altSum_cons', altSum_cons', e2, altSum_add, altSum_smul]
    show s y * altSum c F (φ y :: l) + derL s φ (fun m => altSum c F (y :: m)) l = _
    rw [e1, derL_add, derL_smul, derL_smul, ih, altSum_cons']
    ring

theorem derL_pfN (s : Nat → ℂ) (φ : Nat → Nat) (A : Nat → Nat → ℂ) : ∀ (n : Nat) (l : List Nat),
    derL s φ (pfN A n) l = dpfN A (fun x y => s x * A (φ x) y + s y * A x (φ y)) n l
  | 0, [] => rfl
  | _ + 1, [] => rfl
  | 0, x :: l => by
    show s x * 0 + derL s φ (fun _ => 0) l = 0
    rw [derL_zero]; simp
  | n + 1, x :: l => by
    have e : derL s φ (pfN A n) = dpfN A (fun x y => s x * A (φ x) y + s y * A x (φ y)) n := funext (derL_pfN s φ A n)
    show s x * altSum (A (φ x)) (pfN A n) l + derL s φ (altSum (A x) (pfN A n)) l =
      altSum (fun y => s x * A (φ x) y + s y * A x (φ y)) (pfN A n) l + altSum (A x) (dpfN A _ n) l
    rw [derL_altSum, altSum_add_left, altSum_smul_left, e]
    ring

/-- the Pfaffian with enough steps, as a function -/
theorem derL_pf (s : Nat → ℂ) (φ : Nat → Nat) (A : Nat → Nat → ℂ) (l : List Nat) :
    derL s φ (pf A) l = dpfN A (fun x y => s x * A (φ x) y + s y * A x (φ y)) l.length l := by
  rw [← derL_pfN]
  have : ∀ (l : List Nat) (F G : List Nat → ℂ), (∀ m : List Nat, m.length = l.length → F m = G m) → derL s φ F l = derL s φ G l := by
    intro l
    induction l with
    | nil => intros; rfl
    | cons x l ih =>
      intro F G h
      simp only [derL]
      rw [h _ (by simp), ih (fun m => F (x :: m)) (fun m => G (x :: m)) (fun m e => h _ (by simp [e]))]
  exact this l _ _ (fun m e => by unfold pf; rw [e])

end MVMC
