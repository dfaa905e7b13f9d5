import Mathlib.Tactic.Ring
import Mathlib.Tactic.LinearCombination
import Verif.Spec.Pfaffian
import Mathlib.Data.List.Induction

/-! Basic theory of the list Pfaffian. -/
namespace MVMC
open Spec

variable {α R : Type} [CommRing R]

/-! ### the alternating sum -/

theorem altSum_congr {c : α → R} {F G : List α → R} : ∀ {l : List α},
    (∀ m, m.length + 1 = l.length → F m = G m) → altSum c F l = altSum c G l
  | [], _ => rfl
  | y :: l, h => by
    unfold altSum
    rw [h l (by simp), altSum_congr (l := l) (F := fun m => F (y :: m)) (G := fun m => G (y :: m))]
    intro m hm
    exact h _ (by simp; omega)

theorem altSum_add (c : α → R) (F G : List α → R) : ∀ l : List α,
    altSum c (fun m => F m + G m) l = altSum c F l + altSum c G l
  | [] => by simp [altSum]
  | y :: l => by
    unfold altSum
    rw [altSum_add c (fun m => F (y :: m)) (fun m => G (y :: m)) l]; ring

theorem altSum_smul (c : α → R) (F : List α → R) (k : R) : ∀ l : List α,
    altSum c (fun m => k * F m) l = k * altSum c F l
  | [] => by simp [altSum]
  | y :: l => by
    unfold altSum
    rw [altSum_smul c (fun m => F (y :: m)) k l]; ring

theorem altSum_neg (c : α → R) (F : List α → R) (l : List α) :
    altSum c (fun m => - F m) l = - altSum c F l := by
  have := altSum_smul c F (-1) l
  simpa using this

theorem altSum_sub (c : α → R) (F G : List α → R) (l : List α) :
    altSum c (fun m => F m - G m) l = altSum c F l - altSum c G l := by
  have := altSum_add c F (fun m => - G m) l
  rw [altSum_neg] at this
  simp only [← sub_eq_add_neg] at this
  exact this

theorem altSum_add_left (c d : α → R) (F : List α → R) : ∀ l : List α,
    altSum (fun x => c x + d x) F l = altSum c F l + altSum d F l
  | [] => by simp [altSum]
  | y :: l => by
    unfold altSum
    rw [altSum_add_left c d (fun m => F (y :: m)) l]; ring

theorem altSum_smul_left (c : α → R) (F : List α → R) (k : R) : ∀ l : List α,
    altSum (fun x => k * c x) F l = k * altSum c F l
  | [] => by simp [altSum]
  | y :: l => by
    unfold altSum
    rw [altSum_smul_left c (fun m => F (y :: m)) k l]; ring

theorem altSum_cons' (c : α → R) (F : List α → R) (y : α) (l : List α) :
    altSum c F (y :: l) = c y * F l - altSum c (fun m => F (y :: m)) l := rfl

/-- double contraction is alternating -/
theorem altSum_self (c : α → R) : ∀ (l : List α) (F : List α → R), altSum c (altSum c F) l = 0
  | [], F => rfl
  | y :: l, F => by
    rw [altSum_cons']
    have : altSum c (fun m => altSum c F (y :: m)) l =
        c y * altSum c F l - altSum c (altSum c (fun m => F (y :: m))) l := by
      simp only [altSum_cons']
      rw [altSum_sub, altSum_smul]
    rw [this, altSum_self c l]; ring

theorem altSum_comm (c d : α → R) (l : List α) (F : List α → R) :
    altSum c (altSum d F) l = - altSum d (altSum c F) l := by
  have h := altSum_self (fun x => c x + d x) l F
  have e : altSum (fun x => c x + d x) F = fun m => altSum c F m + altSum d F m := by
    funext m; exact altSum_add_left c d F m
  rw [e, altSum_add_left, altSum_add, altSum_add, altSum_self, altSum_self] at h
  linear_combination h

/-! ### the Pfaffian -/

theorem pfN_stable (A : α → α → R) : ∀ (a b : Nat) (l : List α), l.length ≤ a → l.length ≤ b →
    pfN A a l = pfN A b l
  | _, _, [], _, _ => by simp [pfN]
  | a + 1, b + 1, x :: l, ha, hb => by
    show altSum (A x) (pfN A a) l = altSum (A x) (pfN A b) l
    apply altSum_congr
    intro m hm
    simp only [List.length_cons] at ha hb
    exact pfN_stable A a b m (by omega) (by omega)

theorem pf_nil (A : α → α → R) : pf A [] = 1 := rfl

theorem pf_cons (A : α → α → R) (x : α) (l : List α) : pf A (x :: l) = altSum (A x) (pf A) l := by
  show altSum (A x) (pfN A l.length) l = altSum (A x) (pf A) l
  apply altSum_congr
  intro m hm
  exact pfN_stable A _ _ m (by omega) (by omega)

/-- antisymmetric kernel -/
structure Skew (A : α → α → R) : Prop where
  neg : ∀ x y, A x y = - A y x
  diag : ∀ x, A x x = 0

def SwapLe (n : Nat) (F : List α → R) : Prop :=
  ∀ p x y s, p.length + s.length + 2 ≤ n → F (p ++ x :: y :: s) = - F (p ++ y :: x :: s)

def DupLe (n : Nat) (F : List α → R) : Prop :=
  ∀ p x s, p.length + s.length + 2 ≤ n → F (p ++ x :: x :: s) = 0

theorem altSum_swap (c : α → R) : ∀ (p : List α) (n : Nat) (F : List α → R), SwapLe n F →
    ∀ x y s, p.length + s.length + 2 ≤ n + 1 →
      altSum c F (p ++ x :: y :: s) = - altSum c F (p ++ y :: x :: s)
  | [], n, F, h, x, y, s, hl => by
    simp only [List.nil_append, altSum_cons']
    have : altSum c (fun m => F (x :: y :: m)) s = - altSum c (fun m => F (y :: x :: m)) s := by
      rw [← altSum_neg]
      apply altSum_congr
      intro m hm
      simp only [List.length_nil] at hl
      exact h [] x y m (by simp only [List.length_nil]; omega)
    rw [this]; ring
  | w :: p, n, F, h, x, y, s, hl => by
    simp only [List.cons_append, altSum_cons']
    simp only [List.length_cons] at hl
    rw [h p x y s (by omega)]
    rw [altSum_swap c p (n - 1) (fun m => F (w :: m)) ?_ x y s (by omega)]
    · ring
    · intro q a b t hq
      exact h (w :: q) a b t (by simp only [List.length_cons]; omega)

theorem altSum_dup (c : α → R) : ∀ (p : List α) (n : Nat) (F : List α → R), DupLe n F →
    ∀ x s, p.length + s.length + 2 ≤ n + 1 → altSum c F (p ++ x :: x :: s) = 0
  | [], n, F, h, x, s, hl => by
    simp only [List.nil_append, altSum_cons']
    have : altSum c (fun m => F (x :: x :: m)) s = altSum c (fun m => 0 * F m) s := by
      apply altSum_congr
      intro m hm
      simp only [List.length_nil] at hl
      rw [zero_mul]
      exact h [] x m (by simp only [List.length_nil]; omega)
    rw [this, altSum_smul]; ring
  | w :: p, n, F, h, x, s, hl => by
    simp only [List.cons_append, altSum_cons']
    simp only [List.length_cons] at hl
    rw [h p x s (by omega)]
    rw [altSum_dup c p (n - 1) (fun m => F (w :: m)) ?_ x s (by omega)]
    · ring
    · intro q a t hq
      exact h (w :: q) a t (by simp only [List.length_cons]; omega)

theorem pf_cons2 (A : α → α → R) (x y : α) (s : List α) :
    pf A (x :: y :: s) = A x y * pf A s - altSum (A x) (altSum (A y) (pf A)) s := by
  rw [pf_cons, altSum_cons']
  congr 1
  apply altSum_congr
  intro m _
  exact pf_cons A y m

theorem pf_swapLe {A : α → α → R} (hA : Skew A) : ∀ n, SwapLe n (pf A)
  | 0 => by intro p x y s h; omega
  | n + 1 => by
    intro p x y s h
    cases p with
    | nil =>
      simp only [List.nil_append]
      rw [pf_cons2, pf_cons2, altSum_comm (A x) (A y), hA.neg x y]; ring
    | cons w p =>
      simp only [List.cons_append, List.length_cons] at h ⊢
      rw [pf_cons, pf_cons]
      exact altSum_swap (A w) p n (pf A) (pf_swapLe hA n) x y s (by omega)

theorem pf_dupLe {A : α → α → R} (hA : Skew A) : ∀ n, DupLe n (pf A)
  | 0 => by intro p x s h; omega
  | n + 1 => by
    intro p x s h
    cases p with
    | nil =>
      simp only [List.nil_append]
      rw [pf_cons2, altSum_self, hA.diag]; ring
    | cons w p =>
      simp only [List.cons_append, List.length_cons] at h ⊢
      rw [pf_cons]
      exact altSum_dup (A w) p n (pf A) (pf_dupLe hA n) x s (by omega)

/-- exchange of neighbours -/
theorem pf_swap {A : α → α → R} (hA : Skew A) (p : List α) (x y : α) (s : List α) :
    pf A (p ++ x :: y :: s) = - pf A (p ++ y :: x :: s) := pf_swapLe hA _ p x y s (Nat.le_refl _)

theorem pf_dup_adj {A : α → α → R} (hA : Skew A) (p : List α) (x : α) (s : List α) :
    pf A (p ++ x :: x :: s) = 0 := pf_dupLe hA _ p x s (Nat.le_refl _)

/-- moving an element to the front of a segment -/
theorem pf_move {A : α → α → R} (hA : Skew A) : ∀ (q p : List α) (x : α) (s : List α),
    pf A (p ++ q ++ x :: s) = (-1) ^ q.length * pf A (p ++ x :: q ++ s) := by
  intro q
  induction q using List.reverseRecOn with
  | nil => intro p x s; simp
  | append_singleton q z ih =>
    intro p x s
    have e1 : p ++ (q ++ [z]) ++ x :: s = (p ++ q) ++ z :: x :: s := by simp
    rw [e1, pf_swap hA, ih p x (z :: s)]
    have e2 : p ++ x :: q ++ z :: s = p ++ x :: (q ++ [z]) ++ s := by simp
    rw [e2]
    simp only [List.length_append, List.length_cons, List.length_nil]
    ring

theorem pf_front {A : α → α → R} (hA : Skew A) (p : List α) (x : α) (s : List α) :
    pf A (p ++ x :: s) = (-1) ^ p.length * pf A (x :: (p ++ s)) := by
  have := pf_move hA p [] x s
  simpa using this

/-- two equal entries -/
theorem pf_dup {A : α → α → R} (hA : Skew A) (p q : List α) (x : α) (s : List α) :
    pf A (p ++ x :: q ++ x :: s) = 0 := by
  have e : p ++ x :: q ++ x :: s = (p ++ [x]) ++ q ++ x :: s := by simp
  rw [e, pf_move hA]
  have e2 : p ++ [x] ++ x :: q ++ s = p ++ x :: x :: (q ++ s) := by simp
  rw [e2, pf_dup_adj hA]; ring

theorem exists_dup_of_not_nodup : ∀ {l : List α}, ¬ l.Nodup → ∃ p x q s, l = p ++ x :: q ++ x :: s
  | [], h => absurd List.nodup_nil h
  | y :: l, h => by
    by_cases hy : y ∈ l
    · obtain ⟨q, s, e⟩ := List.append_of_mem hy
      exact ⟨[], y, q, s, by simp [e]⟩
    · obtain ⟨p, x, q, s, e⟩ := exists_dup_of_not_nodup (l := l) (fun hn => h (List.nodup_cons.mpr ⟨hy, hn⟩))
      exact ⟨y :: p, x, q, s, by simp [e]⟩

theorem pf_eq_zero_of_not_nodup {A : α → α → R} (hA : Skew A) {l : List α} (h : ¬ l.Nodup) : pf A l = 0 := by
  obtain ⟨p, x, q, s, e⟩ := exists_dup_of_not_nodup h
  rw [e, pf_dup hA]

/-- exchange of two arbitrary entries -/
theorem pf_exchange {A : α → α → R} (hA : Skew A) (p q : List α) (x y : α) (s : List α) :
    pf A (p ++ x :: q ++ y :: s) = - pf A (p ++ y :: q ++ x :: s) := by
  have e1 : p ++ x :: q ++ y :: s = (p ++ [x]) ++ q ++ y :: s := by simp
  have e2 : p ++ y :: q ++ x :: s = (p ++ [y]) ++ q ++ x :: s := by simp
  rw [e1, e2, pf_move hA, pf_move hA]
  have e3 : p ++ [x] ++ y :: q ++ s = p ++ x :: y :: (q ++ s) := by simp
  have e4 : p ++ [y] ++ x :: q ++ s = p ++ y :: x :: (q ++ s) := by simp
  rw [e3, e4, pf_swap hA p x y]; ring

end MVMC
