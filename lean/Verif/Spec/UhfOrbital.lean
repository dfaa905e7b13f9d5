import Verif.Spec.MeanField
import Verif.Model.ReadOrb

/-!
# Pair orbitals of a Slater determinant

`classMean` is the average of a pair function over the pairs that share a parameter, in the sign convention of the tables.
`spinOrbitals` are the orbitals of electrons with definite spin, up and down in turn. `Unprojected` describes the input of the
variational program without quantum-number projection.
-/
namespace MVMC.Spec
open MVMC

/-- pairs of an up and a down orbital -/
def apSet (N : Nat) : Finset (Nat × Nat) := Finset.range N ×ˢ Finset.Ico N (2 * N)
/-- pairs `a < b` of orbitals with equal spin -/
def parSet (N : Nat) : Finset (Nat × Nat) :=
  (Finset.range (2 * N) ×ˢ Finset.range (2 * N)).filter fun p => p.1 < p.2 ∧ (p.2 < N ∨ N ≤ p.1)
/-- pairs `a < b` -/
def upperSet (N : Nat) : Finset (Nat × Nat) :=
  (Finset.range (2 * N) ×ˢ Finset.range (2 * N)).filter fun p => p.1 < p.2
/-- all pairs -/
def allSet (N : Nat) : Finset (Nat × Nat) := Finset.range (2 * N) ×ˢ Finset.range (2 * N)

/-- the pairs of `S` with parameter `k` -/
def pairClass (T : OrbT) (S : Finset (Nat × Nat)) (k : Nat) : Finset (Nat × Nat) := S.filter fun p => T.idx p.1 p.2 = k

/-- average of `± F` over the pairs with parameter `k` -/
noncomputable def classMean (T : OrbT) (S : Finset (Nat × Nat)) (F : Nat → Nat → ℂ) (k : Nat) : ℂ :=
  (∑ p ∈ pairClass T S k, F p.1 p.2 * (T.sgn p.1 p.2 : ℂ)) / ((pairClass T S k).card : ℂ)

/-- `F` takes the same value, up to the sign of the table, on pairs with the same parameter. -/
def Respects (T : OrbT) (S : Finset (Nat × Nat)) (F : Nat → Nat → ℂ) : Prop :=
  ∀ p ∈ S, ∀ q ∈ S, T.idx p.1 p.2 = T.idx q.1 q.2 → F p.1 p.2 * (T.sgn p.1 p.2 : ℂ) = F q.1 q.2 * (T.sgn q.1 q.2 : ℂ)

/-- orbitals of electrons with definite spin, up and down in turn: number `2m` is `U m` on the up sites, `2m+1` is `D m` on the down sites -/
def spinOrbitals (N : Nat) (U D : Nat → Nat → ℂ) (k x : Nat) : ℂ :=
  if k % 2 = 0 then (if x < N then U (k / 2) x else 0) else (if x < N then 0 else D (k / 2) (x - N))

/-- no quantum-number projection: one spin angle, one translation which is the identity, no optional translation -/
structure Unprojected (Q : QPPar) : Prop where
  sp : Q.nSP = 1
  mp : Q.nMP = 1
  op : Q.nOpt = 1
  id : ∀ r < Q.Nsite, Q.tr 0 0 r = r
  sg : ∀ r < Q.Nsite, Q.sg 0 0 r = 1

/-- The tables of the two programs agree on the pairs of an up and a down orbital (the variational program stores only the sites), the
signs are `±1` and the numbers are those of parameters. -/
def SameAP (nIdx : Nat) (T : OrbT) (Q : QPPar) : Prop :=
  ∀ i < Q.Nsite, ∀ j < Q.Nsite, T.idx i (j + Q.Nsite) = Q.orbIdx i j ∧ T.sgn i (j + Q.Nsite) = Q.orbSgn i j ∧
    (Q.orbSgn i j = 1 ∨ Q.orbSgn i j = -1) ∧ Q.orbIdx i j < nIdx

/-- The same for the pairs in `S` of spin orbitals; parameter numbers from `lo` to `hi`. -/
def SameOn (S : Finset (Nat × Nat)) (lo hi : Nat) (T : OrbT) (Q : QPPar) : Prop :=
  ∀ p ∈ S, T.idx p.1 p.2 = Q.orbIdx p.1 p.2 ∧ T.sgn p.1 p.2 = Q.orbSgn p.1 p.2 ∧
    (Q.orbSgn p.1 p.2 = 1 ∨ Q.orbSgn p.1 p.2 = -1) ∧ lo ≤ Q.orbIdx p.1 p.2 ∧ Q.orbIdx p.1 p.2 < hi

/-- the tables of the variational program are antisymmetric -/
def Mirrored (Q : QPPar) : Prop :=
  ∀ a b, a < b → b < 2 * Q.Nsite → Q.orbIdx b a = Q.orbIdx a b ∧ Q.orbSgn b a = - Q.orbSgn a b

/-- the parameters `S` of the variational program are those of the file, `par`, times `r` -/
def ReadsFile (nIdx : Nat) (r : ℂ) (par : Nat → Option ℂ) (S : Nat → ℂ) : Prop := ∀ k < nIdx, ∀ z, par k = some z → S k = r * z

end MVMC.Spec
