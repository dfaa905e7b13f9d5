import Verif.Spec.JordanWigner

/-! # Conditions on the measured operators -/
namespace MVMC.Spec
open MVMC

/-- the measured operators conserve the number of electrons on every local-spin site -/
structure GrnLocal (N : Nat) (locSpn : Nat → Int) (T : GrnTab) : Prop where
  one : ∀ r < N, locSpn r = 1 → ∀ i < T.n1, (T.t1 i 0 = r ↔ T.t1 i 2 = r)
  two : ∀ r < N, locSpn r = 1 → ∀ i < T.nDC,
    (if T.tDC i 0 = r then 1 else 0) + (if T.tDC i 4 = r then 1 else 0) = (if T.tDC i 2 = r then 1 else 0) + (if T.tDC i 6 = r then (1 : Nat) else 0)

/-- the product `A B†` that entry `i` of the table of pairs stands for: `c†c c†c` -/
def grnOpPair (N : Nat) (T : GrnTab) (i : Nat) : List Op := grnOp1 N T (T.t2 i 0) ++ (grnOp1 N T (T.t2 i 1)).reverse.map Op.adj

-- `A = c†₀c₁`, `B = c†₁c₀`: the product is `c†₀c₁ c†₀c₁`
example : grnOpPair 2 ⟨2, fun i k => if k = 0 then i else if k = 2 then 1 - i else 0, 0, fun _ _ => 0, 1, fun _ k => k⟩ 0 =
    [.cr 0, .an 1, .cr 0, .an 1] := by decide

end MVMC.Spec
