import Verif.Spec.Translation
import Verif.Spec.TrialState

/-! Index tables of the correlation factors that respect a lattice symmetry. -/
namespace MVMC
open MVMC.Spec

/-- the classes of the Gutzwiller, Jastrow and doublon-holon factors do not change under `T` -/
structure ProjSym (q : ProjPar) (T : Nat → Nat) : Prop where
  g : ∀ r < q.Nsite, q.gIdx (T r) = q.gIdx r
  j : ∀ i < q.Nsite, ∀ j < q.Nsite, i ≠ j → q.jIdx (T i) (T j) = q.jIdx i j
  jSymm : ∀ i < q.Nsite, ∀ j < q.Nsite, i ≠ j → q.jIdx i j = q.jIdx j i
  d2Lt : ∀ t < q.N2, ∀ k < 2 * q.Nsite, q.dh2 t k < q.Nsite
  d2 : ∀ t < q.N2, ∀ r < q.Nsite, [q.dh2 t (2 * T r), q.dh2 t (2 * T r + 1)].Perm [T (q.dh2 t (2 * r)), T (q.dh2 t (2 * r + 1))]
  d4Lt : ∀ t < q.N4, ∀ k < 4 * q.Nsite, q.dh4 t k < q.Nsite
  d4 : ∀ t < q.N4, ∀ r < q.Nsite,
    [q.dh4 t (4 * T r), q.dh4 t (4 * T r + 1), q.dh4 t (4 * T r + 2), q.dh4 t (4 * T r + 3)].Perm
      [T (q.dh4 t (4 * r)), T (q.dh4 t (4 * r + 1)), T (q.dh4 t (4 * r + 2)), T (q.dh4 t (4 * r + 3))]

/-- the symmetry permutes the hidden units of one kind: `π` keeps the bias class, and the coupling class follows the site -/
structure HiddenSym (n h : Nat) (T : Nat → Nat) (bias : Nat → Nat) (coup : Nat → Nat → Nat) (π : Nat → Nat) : Prop where
  perm : SitePerm h π
  bias : ∀ k < h, bias (π k) = bias k
  coup : ∀ k < h, ∀ r < n, coup (T r) (π k) = coup r k

/-- the same for the Boltzmann machine -/
structure RBMSym (p : RBMPar ℂ) (T : Nat → Nat) : Prop where
  c : ∀ r < p.Nsite, p.cP (T r) = p.cP r
  s : ∀ r < p.Nsite, p.sP (T r) = p.sP r
  g : ∀ x < 2 * p.Nsite, p.gP (moveOrb p.Nsite T x) = p.gP x
  hc : ∃ π, HiddenSym p.Nsite p.hC T p.cH p.cX π
  hs : ∃ π, HiddenSym p.Nsite p.hS T p.sH p.sX π
  hg : ∃ π, HiddenSym (2 * p.Nsite) p.hG (moveOrb p.Nsite T) p.gH p.gX π

end MVMC
