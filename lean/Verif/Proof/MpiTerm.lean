import Verif.Proof.MpiPhases
import Mathlib.Data.DFinsupp.WellFounded
import Verif.Model.MpiCG
import Verif.Proof.PfUpdate

/-! Every execution ends; `StochasticOptCG` and the measurement in lock-step. -/
namespace MVMC

section
variable {K α : Type}

/-- the process has done one collective operation -/
def WProg.Next (q p : WProg K α) : Prop := ∃ c o x k v, p = .coll c o x k ∧ q = k v

theorem WProg.next_wf : WellFounded (WProg.Next (K := K) (α := α)) := by
  refine ⟨fun p => ?_⟩
  induction p with
  | ret a => exact ⟨_, fun q h => (by obtain ⟨_, _, _, _, _, h, _⟩ := h; cases h)⟩
  | stuck => exact ⟨_, fun q h => (by obtain ⟨_, _, _, _, _, h, _⟩ := h; cases h)⟩
  | abort => exact ⟨_, fun q h => (by obtain ⟨_, _, _, _, _, h, _⟩ := h; cases h)⟩
  | coll c o x k ih =>
    refine ⟨_, fun q h => ?_⟩
    obtain ⟨_, _, _, _, v, h, rfl⟩ := h
    cases h
    exact ih v

variable [AddCommMonoid K] {N s : Nat}

theorem step_lex {ps qs : Fin N → WProg K α} (h : WStep s ps qs) :
    Pi.Lex (· < ·) (fun {_} => WProg.Next (K := K) (α := α)) qs ps := by
  classical
  obtain ⟨c, g, o, ⟨he, hw⟩, rfl⟩ := h
  obtain ⟨r, hr, hmin⟩ : ∃ r : Fin N, colour s c r = g ∧ ∀ r' < r, colour s c r' ≠ g := by
    obtain ⟨r0, h0⟩ := he
    have := (Finset.univ.filter fun r : Fin N => colour s c r = g).exists_minimal ⟨r0, by simp [h0]⟩
    obtain ⟨r, hr⟩ := this
    refine ⟨r, (Finset.mem_filter.mp hr.1).2, fun r' hlt e => ?_⟩
    exact absurd hlt (not_lt.mpr (hr.2 (Finset.mem_filter.mpr ⟨Finset.mem_univ _, e⟩) hlt.le))
  refine ⟨r, fun j hj => ?_, ?_⟩
  · unfold fire; rw [if_neg (hmin j hj)]
  · obtain ⟨x, k, e⟩ := waits_coll (hw r hr)
    unfold fire
    rw [if_pos hr, e]
    exact ⟨c, o, x, k, _, rfl, rfl⟩

/-- every start has an execution that cannot be continued -/
theorem exists_final (ps : Fin N → WProg K α) : ∃ n T, WRun s n ps T ∧ ∀ us, ¬ WStep s T us := by
  have wf := Pi.Lex.wellFounded (ι := Fin N) (· < ·) (s := fun _ => WProg.Next (K := K) (α := α)) (fun _ => WProg.next_wf)
  induction ps using wf.induction with
  | _ ps ih =>
    by_cases h : ∃ us, WStep s ps us
    · obtain ⟨us, hu⟩ := h
      obtain ⟨n, T, h1, h2⟩ := ih us (step_lex hu)
      exact ⟨n + 1, T, .cons hu h1, h2⟩
    · exact ⟨0, ps, .nil _, fun us hu => h ⟨us, hu⟩⟩

end

section
variable {δ ρ π K : Type} [Field K] {n s : Nat}

/-! ### `StochasticOptCG` -/

theorem gets_opByS (P : CGPrep ρ K) (locs : Fin (n + 1) → ρ) (x : Nat → K) :
    Gets s (fun r : Fin (n + 1) => opByS P (locs r) x)
      (fun as => ∀ r, as r = (x, P.comb (fun i => ∑ r', P.part (locs r') x i) x)) := by
  unfold opByS
  refine Gets.bind (gets_bcastV P.n (fun _ : Fin (n + 1) => x)) fun as has => ?_
  have e : as = fun _ => x := funext has
  subst e
  refine Gets.coll .c0 .barrier (fun _ => .int 0) _ ?_
  refine Gets.coll .c0 (.sumVec P.n) (fun r => .vec (P.part (locs r) x)) _ (Gets.ret _ fun r => ?_)
  congr 1

/-- the solution that the iteration delivers, with the products formed at once -/
def cgRef (P : CGPrep ρ K) (S : (Nat → K) → Nat → K) : (fuel iter : Nat) → CGMem K → Nat → K
  | 0, _, c => c.x
  | fuel + 1, iter, c =>
    if P.below c.delta then c.x
    else
      let q := S c.d
      let alpha := c.delta / vdot P.n c.d q
      let x := fun i => c.x i + alpha * c.d i
      let r := if (iter + 1) % 20 = 0 then (let z := S x; fun i => P.g i - z i) else fun i => c.r i - alpha * q i
      let beta := vdot P.n r r / c.delta
      cgRef P S fuel (iter + 1) ⟨x, r, fun i => r i + beta * c.d i, beta * c.delta⟩

theorem gets_cgProg (P : CGPrep ρ K) (locs : Fin (n + 1) → ρ) : ∀ (fuel iter : Nat) (c : CGMem K),
    Gets s (fun r : Fin (n + 1) => cgProg P (locs r) fuel iter c)
      (fun as => ∀ r, as r = cgRef P (fun x => P.comb (fun i => ∑ r', P.part (locs r') x i) x) fuel iter c)
  | 0, _, c => Gets.ret _ fun _ => rfl
  | fuel + 1, iter, c => by
    unfold cgProg cgRef
    by_cases hb : P.below c.delta = true
    · simp only [if_pos hb]
      exact Gets.ret _ fun _ => rfl
    · simp only [if_neg hb]
      refine Gets.bind (gets_opByS P locs c.d) fun as has => ?_
      have e : as = fun _ => (c.d, P.comb (fun i => ∑ r', P.part (locs r') c.d i) c.d) := funext has
      subst e
      dsimp only
      by_cases h20 : (iter + 1) % 20 = 0
      · simp only [if_pos h20, WProg.bind_assoc]
        refine Gets.bind (gets_opByS P locs _) fun bs hbs => ?_
        simp only [WProg.bind, hbs]
        exact gets_cgProg P locs fuel (iter + 1) _
      · simp only [if_neg h20, WProg.bind]
        exact gets_cgProg P locs fuel (iter + 1) _

/-- the solution that all processes get -/
def cgSol (P : CGPrep ρ K) (locs : Fin (n + 1) → ρ) : Nat → K :=
  cgRef P (fun x => P.comb (fun i => ∑ r, P.part (locs r) x i) x) P.maxIter 0 ⟨fun _ => 0, P.g, P.g, vdot P.n P.g P.g⟩

/-- the status and the parameters of `StochasticOptCG` -/
def cgFun (O : WholeOps δ ρ π K) (prep : (Nat → K) → (Nat → K) → CGPrep ρ K) (ms : Fin (n + 1) → Proc δ ρ K) : Int × (Nat → K) :=
  let x := cgSol (prep (ms 0).we (ms 0).sr) fun r => (ms r).loc
  (if O.bad (ms 0).sr x = true then 1 else 0, O.upd (ms 0).sr x (ms 0).para)

theorem cgPhase_good (O : WholeOps δ ρ π K) (prep : (Nat → K) → (Nat → K) → CGPrep ρ K) : SrFun s n (cgPhase O prep) (cgFun O prep) := by
  intro ms hms
  unfold cgPhase
  have ep : ∀ r, prep (ms r).we (ms r).sr = prep (ms 0).we (ms 0).sr := fun r => by rw [(hms r 0).2.1, (hms r 0).2.2]
  simp only [ep]
  refine Gets.bind (gets_cgProg (prep (ms 0).we (ms 0).sr) (fun r => (ms r).loc) _ _ _) fun xs hxs => ?_
  have ex : xs = fun _ => cgSol (prep (ms 0).we (ms 0).sr) fun r => (ms r).loc := funext hxs
  subst ex
  generalize hx : cgSol (prep (ms 0).we (ms 0).sr) (fun r => (ms r).loc) = x
  refine gets_bcastInt (K := K) (fun r : Fin (n + 1) => if r.val = 0 ∧ O.bad (ms r).sr x = true then 1 else 0)
    (fun r v => (v, if v = 0 ∧ r.val = 0 then { ms r with para := O.upd (ms r).sr x (ms r).para } else ms r)) ?_
  intro r
  have e : (if (0 : Fin (n + 1)).val = 0 ∧ O.bad (ms 0).sr x = true then (1 : Int) else 0) = (cgFun O prep ms).1 := by
    simp only [Fin.val_zero, true_and, ← hx]; rfl
  have e' : (cgFun O prep ms).2 = O.upd (ms 0).sr x (ms 0).para := by rw [← hx]; rfl
  dsimp only
  rw [e, e']
  congr 1
  by_cases hr : r.val = 0
  · have : r = 0 := Fin.ext hr
    subst this
    rfl
  · simp only [hr, and_false, if_false]

/-! ### programs that do not stop -/

/-- no execution of the program stops -/
def Sure : WProg K α → Prop
  | .ret _ => True
  | .stuck => False
  | .abort => False
  | .coll _ _ _ k => ∀ v, Sure (k v)

omit [Field K] in
theorem Sure.bind {α β : Type} {f : α → WProg K β} (hf : ∀ a, Sure (f a)) : ∀ {p : WProg K α}, Sure p → Sure (p.bind f)
  | .ret a, _ => hf a
  | .coll _ _ _ _, h => fun v => Sure.bind hf (h v)

theorem sure_step {α : Type} {N : Nat} {ps qs : Fin N → WProg K α} (h : WStep s ps qs) (hp : ∀ r, Sure (ps r)) (r : Fin N) : Sure (qs r) := by
  obtain ⟨c, g, o, he, rfl⟩ := h
  unfold fire
  split
  · next hg =>
    obtain ⟨x, k, e⟩ := waits_coll (he.2 r hg)
    have := hp r
    rw [e] at this ⊢
    exact this _
  · exact hp r

theorem sure_run {α : Type} {N : Nat} : ∀ {m : Nat} {ps qs : Fin N → WProg K α}, WRun s m ps qs → (∀ r, Sure (ps r)) → ∀ r, Sure (qs r)
  | 0, _, _, .nil _, h => h
  | _ + 1, _, _, .cons h1 h2, h => sure_run h2 (sure_step h1 h)

omit [Field K] in
theorem Sure.not_stopped {α : Type} {p : WProg K α} (h : Sure p) : ¬ Stopped p := by
  rintro (rfl | rfl) <;> exact h

theorem sure_opByS (P : CGPrep ρ K) (loc : ρ) (x : Nat → K) : Sure (opByS P loc x) := fun _ _ _ => trivial

theorem sure_cgProg (P : CGPrep ρ K) (loc : ρ) : ∀ (fuel iter : Nat) (c : CGMem K), Sure (cgProg P loc fuel iter c)
  | 0, _, _ => trivial
  | fuel + 1, iter, c => by
    unfold cgProg
    split
    · trivial
    · refine Sure.bind (fun dq => ?_) (sure_opByS P loc c.d)
      refine Sure.bind (fun xr => sure_cgProg P loc fuel (iter + 1) _) ?_
      split
      · refine Sure.bind ?_ (sure_opByS P loc _)
        exact fun _ => trivial
      · trivial

theorem sure_cgPhase (O : WholeOps δ ρ π K) (prep : (Nat → K) → (Nat → K) → CGPrep ρ K) (r : Nat) (m : Proc δ ρ K) : Sure (cgPhase O prep r m) := by
  unfold cgPhase
  refine Sure.bind ?_ (sure_cgProg _ _ _ _ _)
  exact fun _ _ => trivial

/-! ### the measurement -/

/-- the memory after one pass of `VMCPhysCal`, computed without processes -/
def physRef (O : WholeOps δ ρ π K) (s : Nat) (ms : Fin (n + 1) → Proc δ ρ K)
    (xs : Fin (n + 1) → SState (RB δ ρ K) × List (Nat × SState (RB δ ρ K)) × List Nat) (r : Fin (n + 1)) : Proc δ ρ K :=
  let a := fun r : Fin (n + 1) => afterSample O r (ms r) (xs r)
  let we := O.normWe fun i => ∑ r, (a r).we i
  let gr := if r.val = 0 then O.normSr (fun i => ∑ r, (a r).we i) fun i => ∑ r, (a r).sr i else (a r).sr
  let cnt := cntRef s (fun r => (a r).cnt) r
  { a r with we := we, sr := gr, cnt := cnt, out := if r.val = 0 then (we, gr, cnt) :: (ms r).out else (ms r).out }

theorem gets_physStep (O : WholeOps δ ρ π K) (hs : 0 < s) {ms : Fin (n + 1) → Proc δ ρ K} (h : Synced s ms) :
    Gets s (fun r : Fin (n + 1) => physStep O (n + 1) s r (ms r))
      (fun ys => ∃ xs, ChainsDone O s ms xs ∧ ∀ r, ys r = physRef O s ms xs r) := by
  unfold physStep
  refine Gets.bind (gets_sample O hs h) fun m1 ⟨xs, hxs, h1⟩ => ?_
  have e1 : m1 = fun r : Fin (n + 1) => afterSample O r (ms r) (xs r) := funext h1
  subst e1
  refine Gets.bind (gets_allSumV 5 fun r => (afterSample O r (ms r) (xs r)).we) fun we hwe => ?_
  have e2 : we = fun _ i => ∑ r : Fin (n + 1), (afterSample O r (ms r) (xs r)).we i := funext fun r => funext (hwe r)
  subst e2
  refine Gets.bind (Q := fun gs => ∀ r : Fin (n + 1), gs r = if r.val = 0 then
    O.normSr (fun i => ∑ r : Fin (n + 1), (afterSample O r (ms r) (xs r)).we i) fun i => ∑ r : Fin (n + 1), (afterSample O r (ms r) (xs r)).sr i
    else (afterSample O r (ms r) (xs r)).sr) ?_ fun gs hgs => ?_
  · by_cases hn : n + 1 > 1
    · simp only [if_pos hn]
      refine Gets.coll .c0 (.redVec O.nSr) (fun r : Fin (n + 1) => .vec (afterSample O r (ms r) (xs r)).sr) _ (Gets.ret _ fun r => ?_)
      rfl
    · simp only [if_neg hn]
      have : n = 0 := by omega
      subst this
      refine Gets.ret _ fun r => ?_
      have : r = 0 := Fin.fin_one_eq_zero r
      subst this
      rw [if_pos (Fin.val_zero _)]
      congr 1
      funext i
      rw [Fin.sum_univ_one]
  · have e3 : gs = _ := funext hgs
    subst e3
    refine Gets.bind (gets_counter O) fun m2 h2 => Gets.ret _ ⟨xs, hxs, fun r => ?_⟩
    dsimp only
    rw [h2 r]
    unfold physRef
    by_cases hr : r.val = 0
    · simp only [if_pos hr]; rfl
    · simp only [if_neg hr]; rfl

theorem physRef_synced (O : WholeOps δ ρ π K) (hs : 0 < s) {ms : Fin (n + 1) → Proc δ ρ K} (h : Synced s ms) {xs}
    (hx : ChainsDone O s ms xs) : Synced s (physRef O s ms xs) ∧ ∀ r r', (physRef O s ms xs r).we = (physRef O s ms xs r').we := by
  refine ⟨⟨fun r r' => h.para r r', fun r r' => h.store r r', fun r r' hr => ?_⟩, fun _ _ => rfl⟩
  obtain ⟨h1, h2, h3, _⟩ := hx.same hs hr
  exact ⟨rfl, h3, fun _ => ⟨h1, h2⟩⟩

theorem gets_physLoop (O : WholeOps δ ρ π K) (hs : 0 < s) : ∀ (left : Nat) {ms : Fin (n + 1) → Proc δ ρ K}, Synced s ms →
    (∀ r r', (ms r).we = (ms r').we) →
    Gets s (fun r : Fin (n + 1) => physLoop O (n + 1) s r left (ms r)) (fun ms' => Synced s ms' ∧ ∀ r r', (ms' r).we = (ms' r').we)
  | 0, ms, h, hw => Gets.ret ms ⟨h, hw⟩
  | left + 1, ms, h, _ => by
    unfold physLoop
    refine Gets.bind (gets_physStep O hs h) fun ys ⟨xs, hx, hys⟩ => ?_
    have e : ys = physRef O s ms xs := funext hys
    subst e
    obtain ⟨h1, h2⟩ := physRef_synced O hs h hx
    exact gets_physLoop O hs left h1 h2

theorem gets_mainPhys (O : WholeOps δ ρ π K) (hs : 0 < s) (nData : Nat)
    (c0 : Fin (n + 1) → EleCfg) (d0 : Fin (n + 1) → δ) (l0 : Fin (n + 1) → ρ) :
    Gets s (fun r : Fin (n + 1) => mainPhys O (n + 1) s r nData (c0 r) (d0 r) (l0 r))
      (fun ms => Synced s ms ∧ ∀ r r', (ms r).we = (ms r').we) := by
  unfold mainPhys
  exact Gets.bind (gets_startUp O c0 d0 l0) fun ms h => gets_physLoop O hs nData h.1 fun r r' => (h.2 r r').1

end

/-! ### the conjugate gradients of C32 -/

theorem vdot_xdot (n : Nat) (a b : Nat → ℝ) : vdot n a b = xdot n a b := rfl

/-- the processes compute what `cgMain` computes -/
theorem cgRef_cgLoop {ρ : Type} (P : CGPrep ρ ℝ) (S : (Nat → ℝ) → Nat → ℝ) (thr : ℝ) (hb : ∀ d, P.below d = true ↔ d < thr) :
    ∀ (fuel iter : Nat) (c : CGSt) (c' : CGSt) (k : Nat), cgLoop P.n S P.g thr fuel iter c = some (c', k) →
      cgRef P S fuel iter ⟨c.x, c.r, c.d, c.delta⟩ = c'.x
  | 0, iter, c, c', k, h => by cases h; rfl
  | fuel + 1, iter, c, c', k, h => by
    unfold cgLoop at h
    unfold cgRef
    by_cases hd : c.delta < thr
    · rw [if_pos hd] at h
      rw [if_pos ((hb _).mpr hd)]
      cases h; rfl
    · rw [if_neg hd] at h
      rw [if_neg (fun e => hd ((hb _).mp e))]
      unfold cgStep at h
      dsimp only at h
      by_cases hz : xdot P.n c.d (S c.d) = 0 ∨ c.delta = 0
      · rw [if_pos hz] at h; cases h
      · rw [if_neg hz] at h
        exact cgRef_cgLoop P S thr hb fuel (iter + 1) _ c' k h

theorem cgSol_cgMain {n : Nat} (nSmat nS maxIter : Nat) (tol W staDel : ℝ) (stcO sdiag g : Nat → ℝ) (os : Fin (n + 1) → Nat → Nat → ℝ × ℝ)
    (os' : Nat → Nat → Nat → ℝ × ℝ) (ho : ∀ r : Fin (n + 1), os' r = os r) {c : CGSt} {k : Nat}
    (h : cgMain nSmat (operateByS nSmat (n + 1) nS os' W staDel stcO sdiag) g maxIter tol = some (c, k)) :
    cgSol (storePrep nSmat nS maxIter tol W staDel stcO sdiag g) os = c.x := by
  have e : (fun x => (storePrep nSmat nS maxIter tol W staDel stcO sdiag g).comb
      (fun i => ∑ r, (storePrep nSmat nS maxIter tol W staDel stcO sdiag g).part (os r) x i) x) =
      operateByS nSmat (n + 1) nS os' W staDel stcO sdiag := by
    funext x si
    unfold operateByS storePrep
    dsimp only
    rw [sumLoop_eq (n + 1), Finset.sum_range]
    simp only [ho]
  unfold cgSol
  rw [e]
  exact cgRef_cgLoop (storePrep nSmat nS maxIter tol W staDel stcO sdiag g) _ (tol * tol * nSmat * nSmat)
    (fun d => by simp [storePrep]) _ 0 ⟨fun _ => 0, g, g, xdot nSmat g g⟩ c k h

end MVMC
