import Verif.Spec.Hamiltonian
import Verif.Spec.Quantum
import Mathlib.Data.Finset.Powerset
import Mathlib.Data.Finset.Sort

/-!
# Fermion operators as matrices

The Jordan–Wigner matrices of `M` spin orbitals over the basis of all sets of occupied orbitals: the textbook definition of
second quantisation, independent of the ordered lists of `Verif.Spec.Fock`.
-/
namespace MVMC.Spec
open Matrix MVMC

/-- a basis state: a set of occupied orbitals below `M` -/
abbrev Conf (M : Nat) : Type := ↥(Finset.range M).powerset

/-- `c_x`: removes the electron at `x`, with the parity of the number of electrons below `x` -/
noncomputable def jwAn (M x : Nat) : Matrix (Conf M) (Conf M) ℂ := fun T S =>
  if x ∈ S.1 ∧ T.1 = S.1.erase x then (-1) ^ (S.1.filter (· < x)).card else 0

/-- `c†_x` is the adjoint of `c_x` -/
noncomputable def jw (M : Nat) : Op → Matrix (Conf M) (Conf M) ℂ
  | .an x => jwAn M x
  | .cr x => (jwAn M x)ᴴ

/-- a product of operators -/
noncomputable def prodMat (M : Nat) (ops : List Op) : Matrix (Conf M) (Conf M) ℂ := (ops.map (jw M)).prod

/-- `Σ coefficient · operator product` -/
noncomputable def hamMat (M : Nat) (H : List (ℂ × List Op)) : Matrix (Conf M) (Conf M) ℂ := (H.map fun t => t.1 • prodMat M t.2).sum

/-- orbital of an operator -/
def Op.spinOrb : Op → Nat
  | .an x => x
  | .cr x => x

/-- adjoint of an operator -/
def Op.adj : Op → Op
  | .an x => .cr x
  | .cr x => .an x

/-- the amplitudes of a function of ordered lists on the configurations of a sector `P`, zero outside -/
noncomputable def stateOn (M : Nat) (P : Conf M → Prop) [DecidablePred P] (Ψ : List Nat → ℂ) : Conf M → ℂ := fun S =>
  if P S then Ψ (S.1.sort (· ≤ ·)) else 0

/-- the operator does not lead out of the sector -/
def ClosedOn {M : Nat} (P : Conf M → Prop) (A : Matrix (Conf M) (Conf M) ℂ) : Prop := ∀ S T, P S → ¬ P T → A T S = 0

/-- `Ne` electrons of either spin on `N` sites; orbitals `site + N·spin` -/
def fixedSz (Ne N : Nat) (S : Conf (2 * N)) : Prop := (S.1.filter (· < N)).card = Ne ∧ (S.1.filter (N ≤ ·)).card = Ne

instance (Ne N : Nat) : DecidablePred (fixedSz Ne N) := fun _ => inferInstanceAs (Decidable (_ ∧ _))

/-- `n` electrons -/
def fixedN (n : Nat) {M : Nat} (S : Conf M) : Prop := S.1.card = n

instance (n M : Nat) : DecidablePred (fixedN n (M := M)) := fun _ => inferInstanceAs (Decidable (_ = _))

/-- sites of local spins hold exactly one electron -/
def localOne (N : Nat) (locSpn : Nat → Int) (S : Conf (2 * N)) : Prop := ∀ r < N, locSpn r = 1 → (S.1.filter (fun x => x = r ∨ x = r + N)).card = 1

instance (N : Nat) (locSpn : Nat → Int) : DecidablePred (localOne N locSpn) := fun S =>
  inferInstanceAs (Decidable (∀ r < N, locSpn r = 1 → (S.1.filter (fun x => x = r ∨ x = r + N)).card = 1))

/-- the lines conserve the number of electrons on every local-spin site -/
structure HamLocal (N : Nat) (locSpn : Nat → Int) (H : HamPar) : Prop where
  tr : ∀ r < N, locSpn r = 1 → ∀ i < H.nTR, (H.tr i 0 = r ↔ H.tr i 2 = r)
  ph : ∀ r < N, locSpn r = 1 → ∀ i < H.nPH, (H.ph i 0 = r ↔ H.ph i 1 = r)
  ia : ∀ r < N, locSpn r = 1 → ∀ i < H.nIA,
    (if H.ia i 0 = r then 1 else 0) + (if H.ia i 4 = r then 1 else 0) = (if H.ia i 2 = r then 1 else 0) + (if H.ia i 6 = r then (1 : Nat) else 0)

/-- every line has its adjoint among the lines: a transfer with the two ends exchanged, a pair hop with the two sites exchanged, an
interaction in the opposite order of operators, or with the ends of both pairs exchanged if the pairs have no orbital in common -/
structure HamHermitian (H : HamPar) : Prop where
  tr : ∃ σ : Nat → Nat, ∀ i < H.nTR, σ i < H.nTR ∧ σ (σ i) = i ∧ H.pTR (σ i) = (starRingEnd ℂ) (H.pTR i) ∧
    H.tr (σ i) 0 = H.tr i 2 ∧ H.tr (σ i) 1 = H.tr i 3 ∧ H.tr (σ i) 2 = H.tr i 0 ∧ H.tr (σ i) 3 = H.tr i 1
  ph : ∃ σ : Nat → Nat, ∀ i < H.nPH, σ i < H.nPH ∧ σ (σ i) = i ∧ H.pPH (σ i) = H.pPH i ∧ H.ph (σ i) 0 = H.ph i 1 ∧ H.ph (σ i) 1 = H.ph i 0
  ia : ∃ σ : Nat → Nat, ∀ i < H.nIA, σ i < H.nIA ∧ σ (σ i) = i ∧ H.pIA (σ i) = (starRingEnd ℂ) (H.pIA i) ∧
    ((H.ia (σ i) 0 = H.ia i 6 ∧ H.ia (σ i) 1 = H.ia i 7 ∧ H.ia (σ i) 2 = H.ia i 4 ∧ H.ia (σ i) 3 = H.ia i 5 ∧
      H.ia (σ i) 4 = H.ia i 2 ∧ H.ia (σ i) 5 = H.ia i 3 ∧ H.ia (σ i) 6 = H.ia i 0 ∧ H.ia (σ i) 7 = H.ia i 1) ∨
     ((H.ia (σ i) 0 = H.ia i 2 ∧ H.ia (σ i) 1 = H.ia i 3 ∧ H.ia (σ i) 2 = H.ia i 0 ∧ H.ia (σ i) 3 = H.ia i 1 ∧
      H.ia (σ i) 4 = H.ia i 6 ∧ H.ia (σ i) 5 = H.ia i 7 ∧ H.ia (σ i) 6 = H.ia i 4 ∧ H.ia (σ i) 7 = H.ia i 5) ∧
      ∀ a b, a = 0 ∨ a = 2 → b = 4 ∨ b = 6 → ¬ (H.ia i a = H.ia i b ∧ H.ia i (a + 1) = H.ia i (b + 1))))

end MVMC.Spec
