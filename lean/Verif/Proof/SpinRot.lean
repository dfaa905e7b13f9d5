import Verif.Proof.SpinAlg
import Verif.Proof.Gauss
import Mathlib.Analysis.SpecialFunctions.Trigonometric.Deriv
import Mathlib.Analysis.Complex.RealDeriv

/-! Rotated pair states. -/
namespace MVMC
open MVMC.Spec

theorem dpfN_congr_mem {A B B' : Nat → Nat → ℂ} : ∀ (n : Nat) {l : List Nat}, (∀ x ∈ l, ∀ y ∈ l, B x y = B' x y) → dpfN A B n l = dpfN A B' n l
  | 0, [], _ => rfl
  | _ + 1, [], _ => rfl
  | 0, _ :: _, _ => rfl
  | n + 1, x :: l, h => by
    show altSum (B x) (pfN A n) l + altSum (A x) (dpfN A B n) l = altSum (B' x) (pfN A n) l + altSum (A x) (dpfN A B' n) l
    have h1 : altSum (B x) (pfN A n) l = altSum (B' x) (pfN A n) l :=
      altSum_congr_mem (fun y hy => h x (by simp) y (by simp [hy])) (fun _ _ _ => rfl)
    have h2 : altSum (A x) (dpfN A B n) l = altSum (A x) (dpfN A B' n) l :=
      altSum_congr_mem (fun _ _ => rfl) (fun m _ hm => dpfN_congr_mem n (fun a ha b hb => h a (by simp [hm a ha]) b (by simp [hm b hb])))
    rw [h1, h2]

theorem dpfN_lin (A B B' : Nat → Nat → ℂ) (c d : ℂ) (n : Nat) (l : List Nat) :
    dpfN A (fun x y => c * B x y + d * B' x y) n l = c * dpfN A B n l + d * dpfN A B' n l := by
  have := dpfN_sum (Finset.univ : Finset Bool) (fun b => if b then c else d) A (fun b => if b then B else B') n l
  simpa using this

theorem dpfN_zero (A : Nat → Nat → ℂ) (n : Nat) (l : List Nat) : dpfN A (fun _ _ => 0) n l = 0 := by
  have := dpfN_lin A (fun _ _ => 0) (fun _ _ => 0) 0 0 n l
  simpa using this

/-- the rotated state with complex angle -/
noncomputable def rotC (N : Nat) (f : Nat → Nat → ℂ) (z : ℂ) (x y : Nat) : ℂ := antisym (rotatedPair N (Complex.cos (z / 2)) (Complex.sin (z / 2)) f) x y

theorem rotC_real (N : Nat) (f : Nat → Nat → ℂ) (β : ℝ) (l : List Nat) : rotatedState N f β l = pf (rotC N f β) l := by
  unfold rotatedState rotC
  have e1 : ((Real.cos (β / 2) : ℝ) : ℂ) = Complex.cos (β / 2) := by push_cast; rfl
  have e2 : ((Real.sin (β / 2) : ℝ) : ℂ) = Complex.sin (β / 2) := by push_cast; rfl
  rw [e1, e2]

theorem antisym_skew (P : Nat → Nat → ℂ) : Skew (antisym P) where
  neg x y := by unfold antisym; ring
  diag x := by unfold antisym; ring

theorem skew_altL {A : Nat → Nat → ℂ} (hA : Skew A) (M : Nat) : AltL M (pf A) := fun p x y s _ => pf_swap hA p x y s

section
variable {N : Nat}

theorem flip_mod {x : Nat} (h : x < 2 * N) : flipS N x % N = x % N := by
  unfold flipS
  split_ifs with h1
  · rw [Nat.add_mod_right]
  · conv_rhs => rw [show x = x - N + N by omega, Nat.add_mod_right]

theorem div_lo {x : Nat} (h : x < N) : x / N = 0 := Nat.div_eq_of_lt h
theorem div_hi {x : Nat} (h : x < 2 * N) (h' : ¬ x < N) : x / N = 1 := by
  rw [show x = x - N + N by omega, Nat.add_div_right _ (by omega), Nat.div_eq_of_lt (by omega)]

theorem leg_up {x : Nat} (h : x < 2 * N) (c s : ℂ) : rotUp c s (x / N) = if x < N then c else s := by
  by_cases h' : x < N
  · rw [if_pos h', div_lo h']; rfl
  · rw [if_neg h', div_hi h h']; rfl

theorem leg_dn {x : Nat} (h : x < 2 * N) (c s : ℂ) : rotDn c s (x / N) = if x < N then -s else c := by
  by_cases h' : x < N
  · rw [if_pos h', div_lo h']; rfl
  · rw [if_neg h', div_hi h h']; rfl

theorem leg_up_flip {x : Nat} (h : x < 2 * N) (c s : ℂ) : rotUp c s (flipS N x / N) = if x < N then s else c := by
  rw [leg_up (flipS_lt h), if_congr (flipS_iff h) rfl rfl, ite_not]

theorem leg_dn_flip {x : Nat} (h : x < 2 * N) (c s : ℂ) : rotDn c s (flipS N x / N) = if x < N then c else -s := by
  rw [leg_dn (flipS_lt h), if_congr (flipS_iff h) rfl rfl, ite_not]

/-- derivative of a rotated leg -/
theorem leg_deriv (f : Nat → Nat → ℂ) (z : ℂ) {x y : Nat} (hx : x < 2 * N) (hy : y < 2 * N) :
    HasDerivAt (fun z => rotatedPair N (Complex.cos (z / 2)) (Complex.sin (z / 2)) f x y)
      (tS N x * rotatedPair N (Complex.cos (z / 2)) (Complex.sin (z / 2)) f (flipS N x) y +
        tS N y * rotatedPair N (Complex.cos (z / 2)) (Complex.sin (z / 2)) f x (flipS N y)) z := by
  have hz : HasDerivAt (fun z : ℂ => z / 2) (1 / 2) z := (hasDerivAt_id z).div_const 2
  have hc := hz.ccos
  have hs := hz.csin
  have hs' : HasDerivAt (fun z : ℂ => -Complex.sin (z / 2)) (-(Complex.cos (z / 2) * (1 / 2))) z := hs.neg
  unfold rotatedPair
  rw [flip_mod hx, flip_mod hy, leg_up_flip hx, leg_dn_flip hy, leg_up hx, leg_dn hy]
  simp only [leg_up hx, leg_dn hy]
  unfold tS
  by_cases h1 : x < N <;> by_cases h2 : y < N
  · simp only [if_pos h1, if_pos h2]
    exact ((hc.mul hs').const_mul _).congr_deriv (by ring)
  · simp only [if_pos h1, if_neg h2]
    exact ((hc.mul hc).const_mul _).congr_deriv (by ring)
  · simp only [if_neg h1, if_pos h2]
    exact ((hs.mul hs').const_mul _).congr_deriv (by ring)
  · simp only [if_neg h1, if_neg h2]
    exact ((hs.mul hc).const_mul _).congr_deriv (by ring)

theorem rotC_deriv (f : Nat → Nat → ℂ) (z : ℂ) {x y : Nat} (hx : x < 2 * N) (hy : y < 2 * N) :
    HasDerivAt (fun z => rotC N f z x y) (tS N x * rotC N f z (flipS N x) y + tS N y * rotC N f z x (flipS N y)) z := by
  unfold rotC antisym
  exact ((leg_deriv f z hx hy).sub (leg_deriv f z hy hx)).congr_deriv (by ring)

/-- the rotation is generated by the spin -/
theorem rot_deriv (f : Nat → Nat → ℂ) (z : ℂ) {l : List Nat} (hl : ∀ x ∈ l, x < 2 * N) :
    HasDerivAt (fun z => pf (rotC N f z) l) (derL (tS N) (flipS N) (pf (rotC N f z)) l) z := by
  rw [derL_pf]
  exact pfN_deriv l.length l (fun x hx y hy => rotC_deriv f z (hl x hx) (hl y hy))

/-- a derivation of a family -/
theorem derL_deriv {s : Nat → ℂ} {φ : Nat → Nat} {M : Nat} (hφ : ∀ x < M, φ x < M) {z : ℂ} : ∀ {l : List Nat} {F : ℂ → List Nat → ℂ}
    {F' : List Nat → ℂ}, (∀ x ∈ l, x < M) → (∀ m : List Nat, (∀ x ∈ m, x < M) → HasDerivAt (fun z => F z m) (F' m) z) →
    HasDerivAt (fun z => derL s φ (F z) l) (derL s φ F' l) z
  | [], _, _, _, _ => hasDerivAt_const z 0
  | x :: l, F, F', hl, h => by
    have hx : x < M := hl x (by simp)
    have hl' : ∀ y ∈ l, y < M := fun y hy => hl y (by simp [hy])
    have h1 := h (φ x :: l) (by intro y hy; rcases List.mem_cons.mp hy with rfl | h'; exacts [hφ x hx, hl' y h'])
    have h2 := derL_deriv (s := s) hφ (F := fun z m => F z (x :: m)) (F' := fun m => F' (x :: m)) hl'
      (fun m hm => h (x :: m) (by intro y hy; rcases List.mem_cons.mp hy with rfl | h'; exacts [hx, hm y h']))
    exact (h1.const_mul (s x)).add h2

/-- no spin along the rotated axis -/
theorem rot_axis (f : Nat → Nat → ℂ) (z : ℂ) {l : List Nat} (hl : ∀ x ∈ l, x < 2 * N) :
    Complex.cos z * derL (zS N) id (pf (rotC N f z)) l + Complex.sin z * derL (fun _ => 1 / 2) (flipS N) (pf (rotC N f z)) l = 0 := by
  rw [derL_pf, derL_pf, ← dpfN_lin, ← dpfN_zero (rotC N f z) l.length l]
  apply dpfN_congr_mem
  intro x hx y hy
  have key : ∀ x y, x < 2 * N → y < 2 * N →
      Complex.cos z * (zS N x + zS N y) * rotatedPair N (Complex.cos (z / 2)) (Complex.sin (z / 2)) f x y +
      Complex.sin z * (1 / 2) * (rotatedPair N (Complex.cos (z / 2)) (Complex.sin (z / 2)) f (flipS N x) y +
        rotatedPair N (Complex.cos (z / 2)) (Complex.sin (z / 2)) f x (flipS N y)) = 0 := by
    intro x y hx hy
    have e1 : Complex.cos z = Complex.cos (z / 2) ^ 2 - Complex.sin (z / 2) ^ 2 := by
      rw [← Complex.cos_two_mul']; congr 1; ring
    have e2 : Complex.sin z = 2 * Complex.sin (z / 2) * Complex.cos (z / 2) := by
      rw [← Complex.sin_two_mul]; congr 1; ring
    have e3 := Complex.sin_sq_add_cos_sq (z / 2)
    unfold rotatedPair
    rw [flip_mod hx, flip_mod hy, leg_up_flip hx, leg_dn_flip hy, leg_up hx, leg_dn hy, e1, e2]
    unfold zS
    by_cases h1 : x < N <;> by_cases h2 : y < N
    · simp only [if_pos h1, if_pos h2]; ring
    · simp only [if_pos h1, if_neg h2]; ring
    · simp only [if_neg h1, if_pos h2]; ring
    · simp only [if_neg h1, if_neg h2]; ring
  have k1 := key x y (hl x hx) (hl y hy)
  have k2 := key y x (hl y hy) (hl x hx)
  unfold rotC antisym
  simp only [id_eq]
  linear_combination k1 - k2

/-- `S²` of the rotated state in terms of derivatives with respect to the angle -/
theorem rot_ode (f : Nat → Nat → ℂ) (z : ℂ) {l : List Nat} (hl : IsConfig N l) (hz : SzZero N l) :
    Complex.sin z * applyAdj (spinSq N) (pf (rotC N f z)) l =
      - Complex.cos z * derL (tS N) (flipS N) (pf (rotC N f z)) l -
        Complex.sin z * derL (tS N) (flipS N) (derL (tS N) (flipS N) (pf (rotC N f z))) l :=
  spinSq_axis (skew_altL (antisym_skew _) _) (fun _ hm => rot_axis f z hm) hl hz

end

end MVMC
