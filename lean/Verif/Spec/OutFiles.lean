import Verif.Model.OutFiles

/-! # What the output files of a run contain -/
namespace MVMC.Spec

/-- steps done: up to and including the first failing one -/
def stepsDone (srOk : Nat → Bool) (n : Nat) : Nat := min n (((List.range n).takeWhile srOk).length + 1)

/-- `n` lines and a line break -/
def linesOf (n : Nat) (x : Nat → OutRec) : List OutRec := (List.range n).map x ++ [.newline]

/-- the files of one sample of a calculation of physical quantities: handle and tag in the name -/
def sampleTags (q : OutPar) : List (OutH × String) :=
  [(.out, "_out_"), (.var, if q.binary then "_varbin_" else "_var_")] ++
  (if 0 < q.nCis then [(.cis, "_cisajs_")] else []) ++ (if 0 < q.nCkt then [(.ckt, "_cisajscktaltex_")] else []) ++
  (if 0 < q.nDC then [(.cktDC, "_cisajscktalt_")] else []) ++ (if 0 < q.lanczos then [(.ls, "_ls_out_"), (.lsQQQQ, "_ls_qqqq_")] else []) ++
  (if 1 < q.lanczos then (if q.debug then [(.lsQCis, "_ls_qcisajsq_"), (.lsQCkt, "_ls_qcisajscktaltq_")] else []) ++
    [(.lsCis, "_ls_cisajs_"), (.lsCkt, "_ls_cisajscktaltex_"), (.lsCktDC, "_ls_cisajscktalt_")] else [])

/-- what the file of a handle contains after sample `i`; `lsOk`: the Lanczos energies are printed -/
def sampleFile (q : OutPar) (i : Nat) (lsOk : Bool) : OutH → List OutRec
  | .out => [.out i]
  | .var => if q.binary then [.binHead q.nPara 1, .bin i] else [.var i]
  | .cis => linesOf q.nCis (.cis i)
  | .ckt => linesOf q.nCkt (.ckt i)
  | .cktDC => linesOf q.nDC (.cktDC i)
  | .ls => if lsOk then [.ls i 0, .ls i 1, .ls i 2] else []
  | .lsQQQQ => if lsOk then linesOf (q.nLSHam ^ 4) (.lsQQQQ i) else []
  | .lsQCis => if lsOk then linesOf (q.nLSHam ^ 2 * q.nCis) (.lsQCis i) else []
  | .lsQCkt => if lsOk then linesOf (q.nLSHam ^ 2 * q.nCkt) (.lsQCkt i) else []
  | .lsCis => if lsOk then linesOf q.nCis (.lsCis i) else []
  | .lsCkt => if lsOk then linesOf q.nCkt (.lsCkt i) else []
  | .lsCktDC => if lsOk then linesOf q.nDC (.lsCktDC i) else []
  | _ => []

/-- nothing is left open, nothing was overwritten while open, no file was opened twice at the same time -/
structure AllClosed (s : FileSys) : Prop where
  closed : ∀ h, s.hd h = none
  leak : s.leak = false
  clash : s.clash = false

end MVMC.Spec
