import Mathlib.Algebra.Field.Basic
import Mathlib.Algebra.Ring.Hom.Defs
import Mathlib.Algebra.GroupWithZero.Units.Lemmas
import Verif.Proof.PfSampler

/-! The Pfaffian and inverse updates commute with a homomorphism of the number type. -/
namespace MVMC

variable {K L : Type} [Field K] [Field L] (φ : K →+* L)

/-- Source: `/repo/src/mVMC/vmccal.c:129`. -/
def PfState.map (st : PfState K) : PfState L := ⟨fun q => φ (st.pfM q), fun k => φ (st.invM k)⟩

theorem foldl_comm {σ τ α : Type} (F : σ → τ) (f : σ → α → σ) (g : τ → α → τ) (h : ∀ s x, F (f s x) = g (F s) x) (l : List α) (s : σ) :
    F (l.foldl f s) = l.foldl g (F s) := by
  induction l generalizing s with
  | nil => rfl
  | cons y t ih => rw [List.foldl_cons, List.foldl_cons, ih, h]

theorem foldl_comm' {σ τ α : Type} (F : σ → τ) (f : σ → α → σ) (g : τ → α → τ) (h : ∀ s x, F (f s x) = g (F s) x) (l : List α) {s : σ} {t : τ}
    (e : F s = t) : F (l.foldl f s) = l.foldl g t := by
  rw [← e]; exact foldl_comm F f g h l s

theorem map_sumLoop (n : Nat) (f : Nat → K) : φ (sumLoop n f) = sumLoop n (fun j => φ (f j)) := by
  unfold sumLoop
  rw [foldl_comm φ _ (fun z j => z + φ (f j)) (fun s x => map_add φ _ _), map_zero]

theorem map_setAt (a : Nat → K) (i : Nat) (v : K) : (fun k => φ (setAt a i v k)) = setAt (fun k => φ (a k)) i (φ v) := by
  funext k; unfold setAt; split <;> rfl

theorem map_addAt (a : Nat → K) (i : Nat) (v : K) : (fun k => φ (addAt a i v k)) = addAt (fun k => φ (a k)) i (φ v) := by
  funext k; unfold addAt; split
  · rw [map_add]
  · rfl

theorem map_invAt (p : PfPar) (inv : Nat → K) (q i j : Nat) : φ (invAt p inv q i j) = invAt p (fun k => φ (inv k)) q i j := rfl

theorem map_sltAt (p : PfPar) (slt : Nat → K) (q i j : Nat) : φ (sltAt p slt q i j) = sltAt p (fun k => φ (slt k)) q i j := rfl

theorem map_calculateNewPfM (p : PfPar) (slt : Nat → K) (ma s : Nat) (idx : Arr) (qs : Nat) (st : PfState K) (q : Nat) :
    φ (calculateNewPfM p slt ma s idx qs st q) = calculateNewPfM p (fun k => φ (slt k)) ma s idx qs (st.map φ) q := by
  have h : ∀ (r : Nat → Nat) (m x : Nat) (l : List Nat) (a : K),
      φ (l.foldl (fun z j => z + invAt p st.invM q m j * sltAt p slt (q + qs) x (r j)) a) =
        l.foldl (fun z j => z + invAt p (st.map φ).invM q m j * sltAt p (fun k => φ (slt k)) (q + qs) x (r j)) (φ a) := by
    intro r m x l a
    refine foldl_comm φ _ _ (fun s x => ?_) _ _
    rw [map_add, map_mul, map_invAt, map_sltAt]
    rfl
  unfold calculateNewPfM
  simp only [map_mul, map_neg]
  rw [h (fun j => (idx j).toNat + p.Nsite), h (fun j => (idx j).toNat), map_zero]
  rfl

theorem map_calculateNewPfMFsz (p : PfPar) (slt : Nat → K) (ma s : Nat) (idx spn : Arr) (qs : Nat) (st : PfState K) (q : Nat) :
    φ (calculateNewPfMFsz p slt ma s idx spn qs st q) = calculateNewPfMFsz p (fun k => φ (slt k)) ma s idx spn qs (st.map φ) q := by
  unfold calculateNewPfMFsz
  simp only [map_mul, map_neg, PfState.map, map_sumLoop, map_invAt, map_sltAt]

theorem map_calculateNewPfMTwoChild (p : PfPar) (slt : Nat → K) (msa rsa msb rsb : Nat) (rs : Nat → Nat) (qs : Nat) (st : PfState K) (q : Nat) :
    φ (calculateNewPfMTwoChild p slt msa rsa msb rsb rs qs st q) =
      calculateNewPfMTwoChild p (fun k => φ (slt k)) msa rsa msb rsb rs qs (st.map φ) q := by
  unfold calculateNewPfMTwoChild
  simp only [map_mul, map_add, map_sub, PfState.map, map_sumLoop, map_invAt, map_sltAt]

theorem map_calculateNewPfMTwo (p : PfPar) (slt : Nat → K) (ma s mb t : Nat) (idx : Arr) (qs : Nat) (st : PfState K) (q : Nat) :
    φ (calculateNewPfMTwo p slt ma s mb t idx qs st q) = calculateNewPfMTwo p (fun k => φ (slt k)) ma s mb t idx qs (st.map φ) q := by
  unfold calculateNewPfMTwo
  simp only
  split
  · exact map_calculateNewPfM φ ..
  · exact map_calculateNewPfMTwoChild φ ..

theorem map_calculateNewPfMTwoFsz (p : PfPar) (slt : Nat → K) (ma s mb t : Nat) (idx spn : Arr) (qs : Nat) (st : PfState K) (q : Nat) :
    φ (calculateNewPfMTwoFsz p slt ma s mb t idx spn qs st q) =
      calculateNewPfMTwoFsz p (fun k => φ (slt k)) ma s mb t idx spn qs (st.map φ) q := by
  unfold calculateNewPfMTwoFsz
  split
  · exact map_calculateNewPfMFsz φ ..
  · exact map_calculateNewPfMTwoChild φ ..

/-- componentwise application of the homomorphism -/
abbrev mapF (a : Nat → K) : Nat → L := fun k => φ (a k)

theorem map_updateMAllChild (p : PfPar) (slt : Nat → K) (msa rsa : Nat) (rs : Nat → Nat) (qs q : Nat) (st : PfState K) :
    (updateMAllChild p slt msa rsa rs qs q st).map φ = updateMAllChild p (fun k => φ (slt k)) msa rsa rs qs q (st.map φ) := by
  have hv : (fun k => φ ((List.range p.Nsize).foldl (fun v msj =>
      (List.range p.Nsize).foldl (fun v msi =>
        addAt v msi (- invAt p st.invM q msj msi * sltAt p slt (q + qs) rsa (rs msj))) v) (fun _ => 0) k)) =
      (List.range p.Nsize).foldl (fun v msj =>
      (List.range p.Nsize).foldl (fun v msi =>
        addAt v msi (- invAt p (st.map φ).invM q msj msi * sltAt p (fun k => φ (slt k)) (q + qs) rsa (rs msj))) v) (fun _ => 0) := by
    rw [show (fun _ : Nat => (0 : L)) = mapF φ (fun _ => 0) from by funext; exact (map_zero φ).symm]
    refine foldl_comm (mapF φ) _ _ (fun s msj => ?_) _ _
    refine foldl_comm (mapF φ) _ _ (fun s msi => ?_) _ _
    refine (map_addAt φ _ _ _).trans ?_
    rw [map_mul, map_neg, map_invAt, map_sltAt]
    rfl
  unfold updateMAllChild
  simp only
  rw [← hv]
  generalize (List.range p.Nsize).foldl (fun v msj =>
      (List.range p.Nsize).foldl (fun v msi =>
        addAt v msi (- invAt p st.invM q msj msi * sltAt p slt (q + qs) rsa (rs msj))) v) (fun _ => 0) = v
  have hi : ∀ msi, φ (invAt p st.invM q msa msi * (-1 / v msa)) = invAt p (st.map φ).invM q msa msi * (-1 / φ (v msa)) := by
    intro msi
    rw [map_mul, map_div₀, map_neg, map_one]
    rfl
  simp only [← hi]
  unfold PfState.map
  congr 1
  · rw [map_setAt, map_mul, map_neg]
  · rw [show (fun k => φ (st.invM k)) = mapF φ st.invM from rfl]
    rw [← foldl_comm (mapF φ) (fun m msi =>
      addAt ((List.range p.Nsize).foldl (fun m msj =>
        addAt m (q * p.Nsize * p.Nsize + msi * p.Nsize + msj) (v msi * (invAt p st.invM q msa msj * (-1 / v msa)) -
          v msj * (invAt p st.invM q msa msi * (-1 / v msa)))) m)
        (q * p.Nsize * p.Nsize + msi * p.Nsize + msa) (- (invAt p st.invM q msa msi * (-1 / v msa)))) _ (fun m msi => ?_)]
    · refine foldl_comm (mapF φ) _ _ (fun s msi => ?_) _ _
      exact map_addAt φ _ _ _
    · refine (map_addAt φ _ _ _).trans ?_
      rw [map_neg]
      congr 1
      refine foldl_comm (mapF φ) _ _ (fun s msj => ?_) _ _
      refine (map_addAt φ _ _ _).trans ?_
      rw [map_sub, map_mul φ (v msi), map_mul φ (v msj)]

theorem map_updateMAll (p : PfPar) (slt : Nat → K) (ma s : Nat) (idx : Arr) (qs qe : Nat) (st : PfState K) :
    (updateMAll p slt ma s idx qs qe st).map φ = updateMAll p (fun k => φ (slt k)) ma s idx qs qe (st.map φ) := by
  unfold updateMAll
  exact foldl_comm (PfState.map φ) _ _ (fun s x => map_updateMAllChild φ ..) _ _

theorem map_updateMAllFsz (p : PfPar) (slt : Nat → K) (ma s : Nat) (idx spn : Arr) (qs qe : Nat) (st : PfState K) :
    (updateMAllFsz p slt ma s idx spn qs qe st).map φ = updateMAllFsz p (fun k => φ (slt k)) ma s idx spn qs qe (st.map φ) := by
  unfold updateMAllFsz
  exact foldl_comm (PfState.map φ) _ _ (fun s x => map_updateMAllChild φ ..) _ _

theorem map_updateMAllTwoChild (p : PfPar) (slt : Nat → K) (msa rsa msb rsb : Nat) (rs : Nat → Nat) (mOld : K) (qs q : Nat) (st : PfState K) :
    (updateMAllTwoChild p slt msa rsa msb rsb rs mOld qs q st).map φ =
      updateMAllTwoChild p (fun k => φ (slt k)) msa rsa msb rsb rs (φ mOld) qs q (st.map φ) := by
  have hS : ∀ i, setAt (fun msi => φ (sltAt p slt (q + qs) rsa (rs msi))) msb (φ mOld) i =
      φ (setAt (fun msi => sltAt p slt (q + qs) rsa (rs msi)) msb mOld i) := fun i => (congrFun (map_setAt φ _ _ _) i).symm
  have hI : ∀ i j, invAt p (st.map φ).invM q i j = φ (invAt p st.invM q i j) := fun _ _ => rfl
  have hT : ∀ i j, sltAt p (fun k => φ (slt k)) (q + qs) i j = φ (sltAt p slt (q + qs) i j) := fun _ _ => rfl
  have h1 : (1 : L) = φ 1 := (map_one φ).symm
  unfold updateMAllTwoChild
  simp only [hS, hI, hT, h1, ← map_mul, ← map_add, ← map_sub, ← map_neg, ← map_sumLoop, ← map_div₀]
  unfold PfState.map
  simp only
  congr 1
  · rw [map_setAt, map_mul]
  · rw [show (fun k => φ (st.invM k)) = mapF φ st.invM from rfl]
    refine (map_addAt φ _ _ _).trans ?_
    congr 1
    refine (map_addAt φ _ _ _).trans ?_
    congr 1
    refine foldl_comm' (mapF φ) _ _ (fun m j => ?_) _ ?_
    rotate_left
    · refine foldl_comm (mapF φ) _ _ (fun m j => ?_) _ _
      refine (map_addAt φ _ _ _).trans ?_
      congr 1
      refine (map_addAt φ _ _ _).trans ?_
      congr 1
      refine foldl_comm (mapF φ) _ _ (fun s msj => ?_) _ _
      exact map_addAt φ _ _ _
    · refine (map_addAt φ _ _ _).trans ?_
      congr 1
      exact map_addAt φ _ _ _

theorem map_updateMAllTwo (p : PfPar) (slt : Nat → K) (ma s mb t ra : Nat) (idx : Arr) (qs qe : Nat) (st : PfState K) :
    (updateMAllTwo p slt ma s mb t ra idx qs qe st).map φ = updateMAllTwo p (fun k => φ (slt k)) ma s mb t ra idx qs qe (st.map φ) := by
  unfold updateMAllTwo
  exact foldl_comm (PfState.map φ) _ _ (fun s x => map_updateMAllTwoChild φ ..) _ _

theorem map_updateMAllTwoFsz (p : PfPar) (slt : Nat → K) (ma s mb t ra : Nat) (idx spn : Arr) (qs qe : Nat) (st : PfState K) :
    (updateMAllTwoFsz p slt ma s mb t ra idx spn qs qe st).map φ =
      updateMAllTwoFsz p (fun k => φ (slt k)) ma s mb t ra idx spn qs qe (st.map φ) := by
  unfold updateMAllTwoFsz
  exact foldl_comm (PfState.map φ) _ _ (fun s x => map_updateMAllTwoChild φ ..) _ _

theorem map_calculateIPLocal (w pf : Nat → K) (qs qe : Nat) :
    φ (calculateIPLocal w pf qs qe) = calculateIPLocal (fun k => φ (w k)) (fun k => φ (pf k)) qs qe := by
  unfold calculateIPLocal
  rw [map_sumLoop]
  simp only [map_mul]

/-- the library `libL` does on images of matrices over `K` what `lib` does -/
def LibMap (lib : SkLib K) (libL : SkLib L) : Prop :=
  ∀ n b, libL n (fun k => φ (b k)) = (lib n b).map (fun r => (φ r.1, fun k => φ (r.2 k)))

theorem map_calculateMAllChild {lib : SkLib K} {libL : SkLib L} (hl : LibMap φ lib libL) (p : PfPar) (slt : Nat → K) (qs q : Nat) (rs : Nat → Nat)
    (st : PfState K) : calculateMAllChild p libL (fun k => φ (slt k)) qs q rs (st.map φ) =
      (calculateMAllChild p lib slt qs q rs st).map (PfState.map φ) := by
  have h : (List.range p.Nsize).foldl (fun m msi =>
      (List.range p.Nsize).foldl (fun m msj =>
        setAt m (q * p.Nsize * p.Nsize + msi * p.Nsize + msj) (- sltAt p (fun k => φ (slt k)) (q + qs) (rs msi) (rs msj))) m) (st.map φ).invM =
      mapF φ ((List.range p.Nsize).foldl (fun m msi =>
        (List.range p.Nsize).foldl (fun m msj =>
          setAt m (q * p.Nsize * p.Nsize + msi * p.Nsize + msj) (- sltAt p slt (q + qs) (rs msi) (rs msj))) m) st.invM) := by
    symm
    refine foldl_comm (mapF φ) _ _ (fun m i => ?_) _ _
    refine foldl_comm (mapF φ) _ _ (fun m j => ?_) _ _
    refine (map_setAt φ _ _ _).trans ?_
    rw [map_neg]
    rfl
  unfold calculateMAllChild
  simp only
  rw [h]
  generalize (List.range p.Nsize).foldl (fun m msi =>
        (List.range p.Nsize).foldl (fun m msj =>
          setAt m (q * p.Nsize * p.Nsize + msi * p.Nsize + msj) (- sltAt p slt (q + qs) (rs msi) (rs msj))) m) st.invM = m
  rw [hl]
  cases lib p.Nsize (fun k => m (q * p.Nsize * p.Nsize + k)) with
  | none => rfl
  | some r =>
    simp only [Option.map_some]
    unfold PfState.map
    simp only
    congr 2
    · rw [map_setAt]
    · symm
      refine foldl_comm (mapF φ) _ _ (fun m i => ?_) _ _
      refine (map_setAt φ _ _ _).trans ?_
      rw [map_mul, map_neg, map_one]

theorem map_calculateMAll {lib : SkLib K} {libL : SkLib L} (hl : LibMap φ lib libL) (p : PfPar) (slt : Nat → K) (qs qe : Nat) (rs : Nat → Nat)
    (st : PfState K) : calculateMAll p libL (fun k => φ (slt k)) qs qe rs (st.map φ) =
      (calculateMAll p lib slt qs qe rs st).map (PfState.map φ) := by
  unfold calculateMAll
  symm
  refine foldl_comm (Option.map (PfState.map φ)) _ _ (fun o q => ?_) _ _
  cases o with
  | none => rfl
  | some st => exact (map_calculateMAllChild φ hl p slt qs q rs st).symm

end MVMC
