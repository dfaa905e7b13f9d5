import Verif.Spec.Fock
import Verif.Model.CalHam

/-!
# The Hamiltonian of the definition files as a sum of operator products

Coefficient and operator product of every line of the definition files, with the signs of the manual: transfer and Hund
terms enter with a minus sign. Orbitals are `site + Nsite·spin`.
-/
namespace MVMC.Spec

/-- `<ψ|H|x>/<ψ|x>` for `H = Σ coefficient · operator product`. -/
noncomputable def energyOf (Ψ : List Nat → ℂ) (H : List (ℂ × List Op)) (x : List Nat) : ℂ :=
  (H.map (fun t => t.1 * matrixElement Ψ t.2 x)).sum

/-- number operator -/
def numOp (x : Nat) : List Op := [.cr x, .an x]

def termCoulombIntra (N : Nat) (U : ℂ) (i : Nat) : List (ℂ × List Op) := [(U, numOp i ++ numOp (i + N))]

def termCoulombInter (N : Nat) (V : ℂ) (i j : Nat) : List (ℂ × List Op) :=
  [(V, numOp i ++ numOp j), (V, numOp i ++ numOp (j + N)), (V, numOp (i + N) ++ numOp j), (V, numOp (i + N) ++ numOp (j + N))]

def termHund (N : Nat) (J : ℂ) (i j : Nat) : List (ℂ × List Op) :=
  [(-J, numOp i ++ numOp j), (-J, numOp (i + N) ++ numOp (j + N))]

def termTransfer (N : Nat) (t : ℂ) (i s j s' : Nat) : List (ℂ × List Op) := [(-t, [.cr (i + s * N), .an (j + s' * N)])]

def termPairHop (N : Nat) (J : ℂ) (i j : Nat) : List (ℂ × List Op) := [(J, [.cr i, .an j, .cr (i + N), .an (j + N)])]

def termExchange (N : Nat) (J : ℂ) (i j : Nat) : List (ℂ × List Op) :=
  [(J, [.cr i, .an j, .cr (j + N), .an (i + N)]), (J, [.cr (i + N), .an (j + N), .cr j, .an i])]

def termInterAll (N : Nat) (I : ℂ) (i s j s' k u l u' : Nat) : List (ℂ × List Op) :=
  [(I, [.cr (i + s * N), .an (j + s' * N), .cr (k + u * N), .an (l + u' * N)])]

open MVMC in
/-- All lines of the definition files, in order. -/
noncomputable def hamTerms (N : Nat) (H : HamPar) : List (ℂ × List Op) :=
  (List.range H.nCI).flatMap (fun i => termCoulombIntra N (H.pCI i) (H.ci i)) ++
  (List.range H.nCO).flatMap (fun i => termCoulombInter N (H.pCO i) (H.co i 0) (H.co i 1)) ++
  (List.range H.nHU).flatMap (fun i => termHund N (H.pHU i) (H.hu i 0) (H.hu i 1)) ++
  (List.range H.nTR).flatMap (fun i => termTransfer N (H.pTR i) (H.tr i 0) (H.tr i 1) (H.tr i 2) (H.tr i 3)) ++
  (List.range H.nPH).flatMap (fun i => termPairHop N (H.pPH i) (H.ph i 0) (H.ph i 1)) ++
  (List.range H.nEX).flatMap (fun i => termExchange N (H.pEX i) (H.ex i 0) (H.ex i 1)) ++
  (List.range H.nIA).flatMap (fun i => termInterAll N (H.pIA i) (H.ia i 0) (H.ia i 1) (H.ia i 2) (H.ia i 3) (H.ia i 4) (H.ia i 5)
    (H.ia i 6) (H.ia i 7))

open MVMC in
/-- The lines that are products of number operators. -/
noncomputable def hamDiag (N : Nat) (H : HamPar) : List (ℂ × List Op) :=
  (List.range H.nCI).flatMap (fun i => termCoulombIntra N (H.pCI i) (H.ci i)) ++
  (List.range H.nCO).flatMap (fun i => termCoulombInter N (H.pCO i) (H.co i 0) (H.co i 1)) ++
  (List.range H.nHU).flatMap (fun i => termHund N (H.pHU i) (H.hu i 0) (H.hu i 1))

/-- site and spin columns in range -/
structure HamIdx (N : Nat) (H : HamPar) : Prop where
  ci : ∀ i < H.nCI, H.ci i < N
  co : ∀ i < H.nCO, H.co i 0 < N ∧ H.co i 1 < N
  hu : ∀ i < H.nHU, H.hu i 0 < N ∧ H.hu i 1 < N
  tr : ∀ i < H.nTR, H.tr i 0 < N ∧ H.tr i 1 < 2 ∧ H.tr i 2 < N ∧ H.tr i 3 < 2
  ph : ∀ i < H.nPH, H.ph i 0 < N ∧ H.ph i 1 < N
  ex : ∀ i < H.nEX, H.ex i 0 < N ∧ H.ex i 1 < N
  ia : ∀ i < H.nIA, (H.ia i 0 < N ∧ H.ia i 2 < N ∧ H.ia i 4 < N ∧ H.ia i 6 < N) ∧
    H.ia i 1 < 2 ∧ H.ia i 3 < 2 ∧ H.ia i 5 < 2 ∧ H.ia i 7 < 2

/-- every line conserves the spin of each annihilation–creation pair -/
structure HamSzConserving (H : HamPar) : Prop where
  tr : ∀ i < H.nTR, H.tr i 1 = H.tr i 3
  ia : ∀ i < H.nIA, H.ia i 1 = H.ia i 3 ∧ H.ia i 5 = H.ia i 7

/-! ### schedules and measured operators -/

/-- a schedule that uses the threads `0..T-1` -/
def SchedOK (H : HamPar) (T : Nat) (sched : Nat → Nat → Nat) : Prop :=
  (∀ i < H.nCI, sched 0 i < T) ∧ (∀ i < H.nCO, sched 1 i < T) ∧ (∀ i < H.nHU, sched 2 i < T) ∧ (∀ i < H.nTR, sched 3 i < T) ∧
  (∀ i < H.nPH, sched 4 i < T) ∧ (∀ i < H.nEX, sched 5 i < T) ∧ (∀ i < H.nIA, sched 6 i < T)

/-- measured one-body operator of line `i`, creation site/spin and annihilation site/spin -/
def grnOp1 (N : Nat) (T : GrnTab) (i : Nat) : List Op := [.cr (T.t1 i 0 + T.t1 i 1 * N), .an (T.t1 i 2 + T.t1 i 3 * N)]
/-- measured two-body operator of line `i` -/
def grnOpDC (N : Nat) (T : GrnTab) (i : Nat) : List Op :=
  [.cr (T.tDC i 0 + T.tDC i 1 * N), .an (T.tDC i 2 + T.tDC i 3 * N), .cr (T.tDC i 4 + T.tDC i 5 * N), .an (T.tDC i 6 + T.tDC i 7 * N)]

/-- index columns in range -/
structure GrnIdx (N : Nat) (T : GrnTab) : Prop where
  one : ∀ i < T.n1, T.t1 i 0 < N ∧ T.t1 i 1 < 2 ∧ T.t1 i 2 < N ∧ T.t1 i 3 < 2
  two : ∀ i < T.nDC, (T.tDC i 0 < N ∧ T.tDC i 2 < N ∧ T.tDC i 4 < N ∧ T.tDC i 6 < N) ∧
    T.tDC i 1 < 2 ∧ T.tDC i 3 < 2 ∧ T.tDC i 5 < 2 ∧ T.tDC i 7 < 2
  prod : ∀ i < T.n2, T.t2 i 0 < T.n1 ∧ T.t2 i 1 < T.n1

/-- spin conserving lines -/
structure GrnSz (T : GrnTab) : Prop where
  one : ∀ i < T.n1, T.t1 i 1 = T.t1 i 3
  two : ∀ i < T.nDC, T.tDC i 1 = T.tDC i 3 ∧ T.tDC i 5 = T.tDC i 7

def GrnSched (T : GrnTab) (nT : Nat) (sched : Nat → Nat → Nat) : Prop :=
  (∀ i < T.n1, sched 0 i < nT) ∧ (∀ i < T.nDC, sched 1 i < nT) ∧ (∀ i < T.n1, sched 2 i < nT) ∧ (∀ i < T.nDC, sched 3 i < nT) ∧
  (∀ i < T.n2, sched 4 i < nT)

/-- what one sample must add to the measured arrays -/
structure Measured (N : Nat) (T : GrnTab) (Ψ : List Nat → ℂ) (x : List Nat) (w : ℝ) (a a' : GrnAcc) : Prop where
  one : ∀ i < T.n1, a'.phys1 i = a.phys1 i + w * matrixElement Ψ (grnOp1 N T i) x
  two : ∀ i < T.nDC, a'.physDC i = a.physDC i + w * matrixElement Ψ (grnOpDC N T i) x
  prod : ∀ i < T.n2, a'.phys2 i = a.phys2 i +
    w * matrixElement Ψ (grnOp1 N T (T.t2 i 0)) x * (starRingEnd ℂ) (matrixElement Ψ (grnOp1 N T (T.t2 i 1)) x)

end MVMC.Spec
