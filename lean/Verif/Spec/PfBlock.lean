import Verif.Spec.Pfaffian
import Verif.Model.PfBlock

/-! What the external routines of the block update have to return, and what the objects are for. -/
namespace MVMC.Spec
open MVMC

variable {K : Type} [Field K]

/-- `skpfa` returns the Pfaffian; `sktrf`, `ltl2pfa`, `ltl2inv` return Pfaffian and inverse. Only the strict upper triangle of the argument is used. -/
def BlkLibOK (lib : BlkLib K) : Prop :=
  (∀ n b, n % 2 = 0 → (lib.pfa n b).1 = pfOf (upSkew b) n id) ∧
  (∀ n b pf inv, n % 2 = 0 → lib.fac n b = some (pf, inv) → pf = pfOf (upSkew b) n id ∧ IsInv (upSkew b) n id inv)

/-- The factorisation succeeds for a regular matrix. -/
def BlkLibTotal (lib : BlkLib K) : Prop :=
  ∀ n b inv, n % 2 = 0 → IsInv (upSkew b) n id inv → ∃ r, lib.fac n b = some r

/-- `X` is antisymmetric on the existing orbitals. -/
def SkewMat (n : Nat) (X : Nat → Nat → K) : Prop := (∀ i j, i < n → j < n → X i j = - X j i) ∧ ∀ i, i < n → X i i = 0

/-- electron `m` put on orbital `s` -/
def hopTo (c : Nat → Nat) (m s : Nat) : Nat → Nat := fun i => if i = m then s else c i

/-- configuration proposed by an event -/
def proposed (c : Nat → Nat) : BlkEv → Nat → Nat
  | .hop osi msj _ => hopTo c msj osi
  | .exch osi msj osk msl _ => hopTo (hopTo c msj osi) msl osk
  | .refresh => c

/-- configuration after an event -/
def after (c : Nat → Nat) : BlkEv → Nat → Nat
  | .hop osi msj acc => if acc then hopTo c msj osi else c
  | .exch osi msj osk msl acc => if acc then hopTo (hopTo c msj osi) msl osk else c
  | .refresh => c

/-- Electrons and orbitals exist, an exchange moves two different electrons. -/
def ValidEv (n nsite : Nat) : BlkEv → Prop
  | .hop osi msj _ => msj < n ∧ osi < nsite
  | .exch osi msj osk msl _ => msj < n ∧ osi < nsite ∧ msl < n ∧ osk < nsite ∧ msj ≠ msl
  | .refresh => True

/-- A queue of `mmax` hops is long enough for the event. -/
def Fits (mmax : Nat) : BlkEv → Prop
  | .hop _ _ _ => 1 ≤ mmax
  | .exch _ _ _ _ _ => 2 ≤ mmax
  | .refresh => True

/-- Events of which each leads to a configuration with non-vanishing Pfaffians of the `nqp` matrices `A`. -/
def ValidEvs (n nsite mmax nqp : Nat) (A : Nat → Nat → Nat → K) : (Nat → Nat) → List BlkEv → Prop
  | _, [] => True
  | c, e :: es => ValidEv n nsite e ∧ Fits mmax e ∧ (∀ q, q < nqp → pfOf (A q) n (after c e) ≠ 0) ∧ ValidEvs n nsite mmax nqp A (after c e) es

/-- The configurations whose Pfaffians are needed, in order. -/
def wanted : (Nat → Nat) → List BlkEv → List (Nat → Nat)
  | _, [] => []
  | c, e :: es => proposed c e :: wanted (after c e) es

/-- configuration at the end -/
def finalCfg : (Nat → Nat) → List BlkEv → Nat → Nat
  | c, [] => c
  | c, e :: es => finalCfg (after c e) es

end MVMC.Spec
