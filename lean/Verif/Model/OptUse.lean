import Verif.Model.SR
import Verif.Model.ReadOrb

/-!
# Model: from the optimisation flags of the files to the list of optimised components

`OptFlag` is part of one `malloc` block, so every entry has some value before the files are read. The reader stores the flags of the
files into it and the optimiser reads it, for the real and for the imaginary part of every parameter.
-/

namespace MVMC

/-- `OptFlag` before the files are read: the contents `mem` of the fresh memory (`/repo/src/mVMC/setmemory.c:43,227`). -/
def freshFlags (mem : ℕ → ℤ) : Tab := fun k => some (mem k)

/-- `OptFlag[k]` (`/repo/src/mVMC/stcopt.c:112`). Every entry has a value, see `freshFlags`. -/
def flagAt (o : Tab) (k : ℕ) : ℤ := (o k).getD 0

/-- The components chosen by `StochasticOpt`, and by `StochasticOptCG` in complex mode, after the files `files` were read
(`/repo/src/mVMC/readdef.c:847-1145`, `/repo/src/mVMC/stcopt.c:108-126`, `/repo/src/mVMC/stcopt_cg_impl.c:136-158`): `sd` is the diagonal of the overlap
matrix, `redCut` is `DSROptRedCut`. -/
noncomputable def chosen (S : IOSizes) (files : List (InKW × ℤ × List Tok)) (sd : ℕ → ℝ) (redCut : ℝ) (mem : ℕ → ℤ) : RdOut (List ℕ) :=
  match readIdxParaFlags S files 0 (freshFlags mem) with
  | .ok o => .ok (smatToPara (2 * S.nPara) (flagAt o) sd redCut)
  | .err => .err
  | .ub => .ub
  | .hang => .hang

/-- The same for the real version of `StochasticOptCG`, which looks at the flags of the real parts (`/repo/src/mVMC/stcopt_cg_impl.c:139-143`). -/
noncomputable def chosenRealCG (S : IOSizes) (files : List (InKW × ℤ × List Tok)) (sd : ℕ → ℝ) (redCut : ℝ) (mem : ℕ → ℤ) : RdOut (List ℕ) :=
  match readIdxParaFlags S files 0 (freshFlags mem) with
  | .ok o => .ok (smatToPara S.nPara (fun pi => flagAt o (2 * pi)) sd redCut)
  | .err => .err
  | .ub => .ub
  | .hang => .hang

end MVMC
