import Verif.Proof.UhfOut5
import Verif.Props.Uhf

/-!
# C61: the orbitals of the Hartree–Fock program as the start of the variational program

The parameters written are averages of the pair function over the pairs with the same number. If the pair function has the symmetry of
the numbering, the variational program started from the file has the amplitudes of the Hartree–Fock determinant and its energy.
-/
namespace MVMC
open MVMC.Spec Finset

/-! ### what is written -/

/-- C61: parameters for pairs of an up and a down orbital. -/
theorem C61_antiparallel {N nIdx : Nat} {T : OrbT} (h : ∀ p ∈ apSet N, IdxOK nIdx T p) (F : Mat2) (u : Nat → ℝ) (δ : ℝ) :
    (∃ out, outAP2 N nIdx T F u δ = some out ∧ ∀ k, out k =
      if (pairClass T (apSet N) k).card = 0 then none else some (classMean T (apSet N) (fun a b => F a (b - N)) k + (u k : ℂ) * δ)) ∧
    ∃ out, outAP N nIdx T F u δ = some out ∧ ∀ k, out k =
      if (pairClass T (apSet N) k).card = 0 then none else some (classMean T (apSet N) F k + (u k : ℂ) * δ) := by
  refine ⟨?_, ?_⟩
  · obtain ⟨acc, h1, h2⟩ := collect_mean (F := fun a b => F a (b - N)) (visits_ap N) h
    refine ⟨orbFinish acc u δ, ?_, fun k => h2 u δ k⟩
    unfold outAP2
    rw [apPairs2_map, h1]; rfl
  · obtain ⟨acc, h1, h2⟩ := collect_mean (F := F) (visits_ap N) h
    refine ⟨orbFinish acc u δ, ?_, fun k => h2 u δ k⟩
    unfold outAP
    rw [apPairs_map, h1]; rfl

/-- C61: parameters for pairs of equal spin; they are numbered from 0 in their own file. -/
theorem C61_parallel {N nAP nP nIdx : Nat} {T : OrbT} (h : ∀ p ∈ parSet N, IdxOK nIdx T p) (F : Mat2) (u : Nat → ℝ) (δ : ℝ) :
    ∃ out, outP N nAP nP nIdx T F u δ = some out ∧ ∀ k < nP, out k =
      if (pairClass T (parSet N) (nAP + k)).card = 0 then none
      else some (classMean T (parSet N) F (nAP + k) + (u (nAP + k) : ℂ) * δ) := by
  obtain ⟨acc, h1, h2⟩ := collect_mean (F := F) (visits_par N) h
  refine ⟨_, by unfold outP; rw [parPairs_map, h1]; rfl, fun k hk => ?_⟩
  refine (shift_down nAP nP (fun i => if nAP ≤ i ∧ i < nAP + nP then orbFinish acc u δ i else some (acc.par i)) k).trans ?_
  rw [if_pos hk, if_pos (by omega), h2]

/-- C61: parameters for general pairs. -/
theorem C61_general {N nIdx : Nat} {T : OrbT} (h : ∀ p ∈ allSet N, IdxOK nIdx T p) (F : Mat2) (u : Nat → ℝ) (δ : ℝ) :
    ∃ out, outG N nIdx T F u δ = some out ∧ ∀ k, out k =
      if (pairClass T (allSet N) k).card = 0 then none else some (classMean T (allSet N) F k + (u k : ℂ) * δ) := by
  obtain ⟨acc, h1, h2⟩ := collect_mean (F := F) (visits_all N) h
  refine ⟨orbFinish acc u δ, ?_, fun k => h2 u δ k⟩
  unfold outG
  rw [genPairs_map, h1]; rfl

/-- The kinds of files among the flags. -/
def orbKinds (general ap p : Bool) : List OrbFile := (if ap then [.ap] else []) ++ (if p then [.p] else []) ++ if general then [.g] else []

/-- C61: a file is written for every orbital file that was read, and no other. Orbitals for antiparallel pairs only, or with those for
parallel pairs, or general orbitals are accepted, every other choice is an error. The tables are stored for all spins unless there
are only antiparallel pairs, in which case the spins are diagonalised separately. -/
theorem C61_files (zheev : Nat → (Nat → ℂ) → (Nat → ℝ) × (Nat → ℂ)) {N Ne nAP nP nIdx : Nat} (hn : nIdx ≠ 0) (T : OrbT) (ham : Mat2)
    (u : Nat → ℝ) (δ : ℝ) (general ap p : Bool) :
    (orbKinds general ap p ∈ [[OrbFile.ap], [.ap, .p], [.g]] →
      ∃ mode, judgeOrbitalMode general ap p = .ok (mode, general || p) ∧
        (makeOrbitalFile zheev N Ne nAP nP nIdx mode T ham u δ).map Prod.fst = orbKinds general ap p ∧
        let F := uhfFij Ne (diag zheev N ham).2.1
        ∀ o ∈ makeOrbitalFile zheev N Ne nAP nP nIdx mode T ham u δ, o.2 =
          match o.1 with
          | .ap => if p then outAP N nIdx T F u δ else outAP2 N nIdx T (uhfApFij zheev N Ne ham) u δ
          | .p => outP N nAP nP nIdx T F u δ
          | .g => outG N nIdx T F u δ) ∧
    (orbKinds general ap p ∉ [[OrbFile.ap], [.ap, .p], [.g]] → judgeOrbitalMode general ap p = .err) := by
  cases general <;> cases ap <;> cases p <;> simp [orbKinds, judgeOrbitalMode, makeOrbitalFile, hn]
  rintro a b (⟨rfl, rfl⟩ | ⟨rfl, rfl⟩) <;> rfl

/-- C61: a parameter number outside the range of the file is a store outside the arrays. -/
theorem C61_index_ub {N nIdx : Nat} {T : OrbT} (F : Mat2) (u : Nat → ℝ) (δ : ℝ) :
    ((∃ p ∈ apSet N, ¬ IdxOK nIdx T p) → outAP2 N nIdx T F u δ = none ∧ outAP N nIdx T F u δ = none) ∧
    ((∃ p ∈ parSet N, ¬ IdxOK nIdx T p) → ∀ nAP nP, outP N nAP nP nIdx T F u δ = none) ∧
    ((∃ p ∈ allSet N, ¬ IdxOK nIdx T p) → outG N nIdx T F u δ = none) := by
  refine ⟨?_, ?_, ?_⟩
  · rintro ⟨p, hp, hb⟩
    have hp' := ((visits_ap N).mem p).mpr hp
    refine ⟨?_, ?_⟩
    · unfold outAP2; rw [apPairs2_map]; unfold orbCollect
      rw [collect_bad nIdx T (fun a b => F a (b - N)) _ _ ⟨p, hp', hb⟩]; rfl
    · unfold outAP; rw [apPairs_map]; unfold orbCollect
      rw [collect_bad nIdx T F _ _ ⟨p, hp', hb⟩]; rfl
  · rintro ⟨p, hp, hb⟩ nAP nP
    have hp' := ((visits_par N).mem p).mpr hp
    unfold outP; rw [parPairs_map]; unfold orbCollect
    rw [collect_bad nIdx T F _ _ ⟨p, hp', hb⟩]; rfl
  · rintro ⟨p, hp, hb⟩
    have hp' := ((visits_all N).mem p).mpr hp
    unfold outG; rw [genPairs_map]; unfold orbCollect
    rw [collect_bad nIdx T F _ _ ⟨p, hp', hb⟩]; rfl

/-! ### the tables -/

section
variable {N cap : ℕ} {c : ℤ} {fidx : ℕ} {APFlag : ℤ} {NArray : ℕ} {ents rest : List (List ℤ)} {prs : List (ℤ × ℤ)} {T T0 Tv : OrbT}
  {opt opt' : Tab}

/-- C61: both programs read the same tables from the file of antiparallel orbitals (numbers always, signs unless the variational
program ignores them). -/
theorem C61_tables_antiparallel (hN : 0 < N) (hA : NArray ≠ 0) (hl : ents.length = N * N)
    (hv : ∀ a ∈ ents, a.length = 4 ∧ InLat N (a.getD 0 0) ∧ InLat N (a.getD 1 0))
    (hn : (ents.map fun a => (a.getD 0 0, a.getD 1 0)).Nodup)
    (hr : rest.flatten.map some = encOpts prs) (hp : prs.length = NArray) (hc : 2 * (fidx + NArray) ≤ cap) :
    ∃ Tu Tv, uhfReadAP false N (ents ++ rest) 0 T = .ok (0, Tu) ∧
      getInfoOrbitalAntiParallel false N cap c fidx APFlag NArray (ents ++ rest) T0 opt =
        .ok (Tv, withFlags c fidx (prs.map Prod.snd) opt) ∧
      ∀ i < N, ∀ j < N, ∃ s, Tu.idx i (j + N) = Tv.idx i j ∧ Tu.sgn i (j + N) = s ∧ Tv.sgn i j = if APFlag = 0 then 1 else s := by
  obtain ⟨Tu, h1, h2⟩ := uhf_ap_read (info := 0) (rest := rest) (T := T) hN hl hv hn
  obtain ⟨Tv, h3, h4⟩ := C54_antiparallel_partial N cap c fidx APFlag NArray ents rest prs T0 opt hN hA hl hv hn hr hp hc
  refine ⟨Tu, Tv, h1, h3, fun i hi j hj => ?_⟩
  obtain ⟨f, s, hm, e1, e2⟩ := h4 i j hi hj
  obtain ⟨e3, e4⟩ := h2 i j f s hm
  exact ⟨s, by rw [e3, e1], e4, e2⟩

/-- C61: the same if the tables hold all spins (antiparallel and parallel file together). -/
theorem C61_tables_both (hN : 1 < N) (hA : NArray ≠ 0) {NP cap' fidx' : ℕ} (hA' : NP ≠ 0) (hl : ents.length = N * N)
    (hv : ∀ a ∈ ents, a.length = 4 ∧ InLat N (a.getD 0 0) ∧ InLat N (a.getD 1 0))
    (hn : (ents.map fun a => (a.getD 0 0, a.getD 1 0)).Nodup)
    (hr : rest.flatten.map some = encOpts prs) (hp : prs.length = NArray) (hc : 2 * (fidx + NArray) ≤ cap)
    {ents' rest' : List (List ℤ)} {prs' : List (ℤ × ℤ)} (hl' : 2 * ents'.length = N * (N - 1))
    (hv' : ∀ a ∈ ents', a.length = 4 ∧ InLat N (a.getD 0 0) ∧ InLat N (a.getD 1 0) ∧ a.getD 0 0 < a.getD 1 0)
    (hn' : (ents'.map fun a => (a.getD 0 0, a.getD 1 0)).Nodup)
    (hr' : rest'.flatten.map some = encOpts prs') (hp' : prs'.length = NP) (hc' : 2 * (fidx' + 2 * NP) ≤ cap') :
    ∃ Tu1 Tu Tv Tp, uhfReadAP true N (ents ++ rest) 0 T = .ok (0, Tu1) ∧ uhfReadP N NArray (ents' ++ rest') 0 Tu1 = .ok (0, Tu) ∧
      getInfoOrbitalAntiParallel true N cap c fidx APFlag NArray (ents ++ rest) T0 opt =
        .ok (Tv, withFlags c fidx (prs.map Prod.snd) opt) ∧
      getInfoOrbitalParallel N cap' c fidx' APFlag NP NArray (ents' ++ rest') Tv opt' =
        .ok (Tp, parFlags c fidx' (prs'.map Prod.snd) opt') ∧
      (∀ p ∈ apSet N, ∃ s, Tu.idx p.1 p.2 = Tv.idx p.1 p.2 ∧ Tu.sgn p.1 p.2 = s ∧ Tv.sgn p.1 p.2 = if APFlag = 0 then 1 else s) ∧
      ∀ p ∈ parSet N, ∃ s, Tu.idx p.1 p.2 = Tp.idx p.1 p.2 ∧ Tu.sgn p.1 p.2 = s ∧ Tp.sgn p.1 p.2 = if APFlag = 0 then 1 else s := by
  obtain ⟨Tu1, h1, h2, _⟩ := uhf_apGen_read (info := 0) (rest := rest) (T := T) (by omega) hl hv hn
  obtain ⟨Tu, h5, h6, h7⟩ := uhf_par_read (info := 0) (rest := rest') (T := Tu1) NArray hN hl' hv' hn'
  obtain ⟨Tv, h3, h4⟩ := C54_antiparallel_general_partial N cap c fidx APFlag NArray ents rest prs T0 opt (by omega) hA hl hv hn hr hp hc
  obtain ⟨Tp, h8, h9⟩ := C54_parallel_partial N cap' c fidx' APFlag NP NArray ents' rest' prs' Tv opt' hN hA' hl' hv' hn' hr' hp' hc'
  refine ⟨Tu1, Tu, Tv, Tp, h1, h5, h3, h8, ?_, ?_⟩
  · rintro ⟨a, b⟩ hab
    simp only [apSet, Finset.mem_product, Finset.mem_range, Finset.mem_Ico] at hab
    obtain ⟨j, rfl⟩ : ∃ j, b = j + N := ⟨b - N, by omega⟩
    obtain ⟨f, s, hm, e1, e2⟩ := h4 a j hab.1 (by omega)
    obtain ⟨e3, e4⟩ := h2 a j f s hm
    obtain ⟨e5, e6⟩ := h7 a (j + N) (Or.inl ⟨hab.1, by omega⟩)
    exact ⟨s, by rw [e5, e3, e1], by rw [e6, e4], e2⟩
  · rintro ⟨a, b⟩ hab
    simp only [parSet, Finset.mem_filter, Finset.mem_product, Finset.mem_range] at hab
    obtain ⟨i, j, t, ht, hj, rfl, rfl⟩ : ∃ i j t, t < 2 ∧ (i < j ∧ j < N) ∧ a = i + t * N ∧ b = j + t * N := by
      by_cases hb : b < N
      · exact ⟨a, b, 0, by omega, by omega, by omega, by omega⟩
      · exact ⟨a - N, b - N, 1, by omega, by omega, by omega, by omega⟩
    obtain ⟨f, s, hm, e1, e2⟩ := h9 i j t hj.1 hj.2 ht
    obtain ⟨e3, e4⟩ := h6 i j t f s ht hm
    exact ⟨s, by rw [e3, e1], e4, e2⟩

/-- C61: the same for the file of general orbitals. The Hartree–Fock program keeps `-1` below the diagonal. -/
theorem C61_tables_general (hN : 0 < N) (hA : NArray ≠ 0) (hl : ents.length = 2 * N * N - N)
    (hv : ∀ a ∈ ents, a.length = 6 ∧ InLat N (a.getD 0 0) ∧ InLat 2 (a.getD 1 0) ∧ InLat N (a.getD 2 0) ∧
      InLat 2 (a.getD 3 0) ∧ a.getD 0 0 + a.getD 1 0 * N < a.getD 2 0 + a.getD 3 0 * N)
    (hn : (ents.map fun a => (a.getD 0 0, a.getD 1 0, a.getD 2 0, a.getD 3 0)).Nodup)
    (hr : rest.flatten.map some = encOpts prs) (hp : prs.length = NArray) (hc : 2 * (fidx + NArray) ≤ cap) :
    ∃ Tu Tv, uhfReadG N NArray (ents ++ rest) 0 (uhfOrbInit true N) = .ok (0, Tu) ∧
      getInfoOrbitalGeneral N cap c fidx APFlag NArray (ents ++ rest) T0 opt =
        .ok (Tv, withFlags c fidx (prs.map Prod.snd) opt) ∧
      (∀ p ∈ upperSet N, ∃ s, Tu.idx p.1 p.2 = Tv.idx p.1 p.2 ∧ Tu.sgn p.1 p.2 = s ∧ Tv.sgn p.1 p.2 = if APFlag = 0 then 1 else s) ∧
      ∀ a < 2 * N, ∀ b ≤ a, Tu.idx a b = -1 := by
  obtain ⟨Tu, h1, h2, h5⟩ := uhf_gen_read (info := 0) (rest := rest) (T := uhfOrbInit true N) NArray hA hN hl hv hn
  obtain ⟨Tv, h3, h4⟩ := C54_general_partial N cap c fidx APFlag NArray ents rest prs T0 opt hN hA hl hv hn hr hp hc
  refine ⟨Tu, Tv, h1, h3, ?_, ?_⟩
  · rintro ⟨a, b⟩ hab
    simp only [upperSet, Finset.mem_filter, Finset.mem_product, Finset.mem_range] at hab
    obtain ⟨i, si, j, sj, f, s, hm, q1, q2, e1, e2⟩ := h4 a b hab.2 hab.1.2
    obtain ⟨e3, e4⟩ := h2 a b i si j sj f s hm q1 q2
    exact ⟨s, by rw [e3, e1], e4, e2⟩
  · intro a ha b hb
    rw [(h5 a b hb).1]
    unfold uhfOrbInit
    simp only [if_true]
    rw [if_pos (by omega)]

end

/-! ### the state -/

section
variable {Q : QPPar} (hQ : Unprojected Q) {Ne nIdx : Nat} {Tu : OrbT} {r : ℂ} (u : Nat → ℝ) (old : Nat → ℂ)
include hQ

/-- C61: antiparallel orbitals. If the pair function respects the numbering, the state of the variational program is the
determinant of the lowest `Ne` orbitals of each spin, exactly without the random part of the parameters and in the limit of a small one. -/
theorem C61_state_antiparallel (ht : SameAP nIdx Tu Q) (zheev : Nat → (Nat → ℂ) → (Nat → ℝ) × (Nat → ℂ)) (ham : Mat2)
    (hr : Respects Tu (apSet Q.Nsite) (fun a b => uhfApFij zheev Q.Nsite Ne ham a (b - Q.Nsite))) :
    ∃ out : ℝ → Nat → Option ℂ, (∀ δ, outAP2 Q.Nsite nIdx Tu (uhfApFij zheev Q.Nsite Ne ham) u δ = some (out δ)) ∧
      ∀ S : ℝ → Nat → ℂ, (∀ δ, ReadsFile nIdx r (out δ) (S δ)) → ∀ x : List Nat, x.length = 2 * Ne → (∀ y ∈ x, y < 2 * Q.Nsite) →
        let ψ := slater (2 * Ne) (spinOrbitals Q.Nsite (zheevAll zheev Q.Nsite (fun i j => ham i j)).2
          (zheevAll zheev Q.Nsite (fun i j => ham (i + Q.Nsite) (j + Q.Nsite))).2) x
        pf (entry (2 * Q.Nsite) (updateSlaterElm Q (fun _ => 0) (fun _ => 1) (fun _ => 0) (S 0) old) 0) x = r ^ Ne * ψ ∧
        Filter.Tendsto (fun δ => pf (entry (2 * Q.Nsite) (updateSlaterElm Q (fun _ => 0) (fun _ => 1) (fun _ => 0) (S δ) old) 0) x)
          (nhds 0) (nhds (r ^ Ne * ψ)) := by
  have hok : ∀ p ∈ apSet Q.Nsite, IdxOK nIdx Tu p := by
    rintro ⟨a, b⟩ hp
    simp only [apSet, Finset.mem_product, Finset.mem_range, Finset.mem_Ico] at hp
    obtain ⟨j, rfl⟩ : ∃ j, b = j + Q.Nsite := ⟨b - Q.Nsite, by omega⟩
    obtain ⟨h1, _, _, h4⟩ := ht a hp.1 j (by omega)
    right
    dsimp only
    omega
  have ex := fun δ => (C61_antiparallel hok (uhfApFij zheev Q.Nsite Ne ham) u δ).1
  choose out h1 h2 using ex
  refine ⟨out, h1, fun S hS x hl hx => ?_⟩
  refine state_ap hQ (C := fun i j => r * u (Q.orbIdx i j) * (Q.orbSgn i j : ℂ)) old ?_ hl hx
  intro δ i hi j hj
  obtain ⟨g1, g2, g3, g4⟩ := ht i hi j hj
  have hp : (i, j + Q.Nsite) ∈ apSet Q.Nsite := by
    simp only [apSet, Finset.mem_product, Finset.mem_range, Finset.mem_Ico]; omega
  have e := read_pair (nIdx := nIdx) hr (u := u (Q.orbIdx i j)) (δ := δ) hp g1 (by rw [g2]; exact g3) (h2 δ (Q.orbIdx i j)) (fun z hz => hS δ _ g4 z hz)
  dsimp only at e
  rw [g2, Nat.add_sub_cancel] at e
  rw [e]
  unfold uhfApFij
  rw [sumLoop_eq]

/-- C61: general orbitals. -/
theorem C61_state_general (hm : Mirrored Q) (ht : SameOn (upperSet Q.Nsite) 0 nIdx Tu Q)
    (hlow : ∀ a < 2 * Q.Nsite, ∀ b ≤ a, Tu.idx a b = -1) (zheev : Nat → (Nat → ℂ) → (Nat → ℝ) × (Nat → ℂ)) (ham : Mat2)
    (hr : Respects Tu (upperSet Q.Nsite) (uhfFij Ne (diag zheev Q.Nsite ham).2.1)) :
    ∃ out : ℝ → Nat → Option ℂ, (∀ δ, outG Q.Nsite nIdx Tu (uhfFij Ne (diag zheev Q.Nsite ham).2.1) u δ = some (out δ)) ∧
      ∀ S : ℝ → Nat → ℂ, (∀ δ, ReadsFile nIdx r (out δ) (S δ)) → ∀ x : List Nat, x.length = 2 * Ne → (∀ y ∈ x, y < 2 * Q.Nsite) →
        let ψ := slater (2 * Ne) (diag zheev Q.Nsite ham).2.2 x
        pf (entry (2 * Q.Nsite) (updateSlaterElmF Q (S 0) old) 0) x = (2 * r) ^ Ne * ψ ∧
        Filter.Tendsto (fun δ => pf (entry (2 * Q.Nsite) (updateSlaterElmF Q (S δ) old) 0) x) (nhds 0) (nhds ((2 * r) ^ Ne * ψ)) := by
  have hok : ∀ p ∈ allSet Q.Nsite, IdxOK nIdx Tu p := by
    rintro ⟨a, b⟩ hp
    simp only [allSet, Finset.mem_product, Finset.mem_range] at hp
    by_cases hab : a < b
    · obtain ⟨h1, _, _, _, h4⟩ := ht (a, b) (by simp only [upperSet, Finset.mem_filter, Finset.mem_product, Finset.mem_range]; exact ⟨hp, hab⟩)
      right; dsimp only at h1 h4 ⊢; omega
    · left; exact hlow a hp.1 b (by omega)
  have ex := fun δ => C61_general hok (uhfFij Ne (diag zheev Q.Nsite ham).2.1) u δ
  choose out h1 h2 using ex
  refine ⟨out, h1, fun S hS x hl hx => ?_⟩
  have hF : uhfFij Ne (diag zheev Q.Nsite ham).2.1 = pairForm Ne (diag zheev Q.Nsite ham).2.2 := uhfFij_pair Ne _
  refine state_gen hQ hm (C := fun i j => r * u (Q.orbIdx i j) * (Q.orbSgn i j : ℂ)) old ?_ hl hx
  intro δ a b hab hb
  have hp : (a, b) ∈ upperSet Q.Nsite := by
    simp only [upperSet, Finset.mem_filter, Finset.mem_product, Finset.mem_range]; omega
  obtain ⟨g1, g2, g3, _, g4⟩ := ht (a, b) hp
  have h2' := h2 δ (Q.orbIdx a b)
  rw [class_upper hlow, mean_upper hlow] at h2'
  have e := read_pair (nIdx := nIdx) hr (u := u (Q.orbIdx a b)) (δ := δ) hp g1 (by rw [g2]; exact g3) h2' (fun z hz => hS δ _ g4 z hz)
  dsimp only at e g2
  rw [g2, hF] at e
  exact e

/-- C61: antiparallel and parallel orbitals together. -/
theorem C61_state_both {nAP nP : Nat} (hm : Mirrored Q) (ht : SameOn (apSet Q.Nsite) 0 nAP Tu Q)
    (ht' : SameOn (parSet Q.Nsite) nAP (nAP + nP) Tu Q) (hn : nAP + nP ≤ nIdx)
    (zheev : Nat → (Nat → ℂ) → (Nat → ℝ) × (Nat → ℂ)) (ham : Mat2)
    (hr : Respects Tu (apSet Q.Nsite) (uhfFij Ne (diag zheev Q.Nsite ham).2.1))
    (hr' : Respects Tu (parSet Q.Nsite) (uhfFij Ne (diag zheev Q.Nsite ham).2.1)) :
    ∃ out out' : ℝ → Nat → Option ℂ, (∀ δ, outAP Q.Nsite nIdx Tu (uhfFij Ne (diag zheev Q.Nsite ham).2.1) u δ = some (out δ)) ∧
      (∀ δ, outP Q.Nsite nAP nP nIdx Tu (uhfFij Ne (diag zheev Q.Nsite ham).2.1) u δ = some (out' δ)) ∧
      ∀ S : ℝ → Nat → ℂ, (∀ δ, ReadsFile nAP r (out δ) (S δ)) → (∀ δ, ReadsFile nP r (out' δ) (fun k => S δ (nAP + k))) →
        ∀ x : List Nat, x.length = 2 * Ne → (∀ y ∈ x, y < 2 * Q.Nsite) →
        let ψ := slater (2 * Ne) (diag zheev Q.Nsite ham).2.2 x
        pf (entry (2 * Q.Nsite) (updateSlaterElmF Q (S 0) old) 0) x = (2 * r) ^ Ne * ψ ∧
        Filter.Tendsto (fun δ => pf (entry (2 * Q.Nsite) (updateSlaterElmF Q (S δ) old) 0) x) (nhds 0) (nhds ((2 * r) ^ Ne * ψ)) := by
  have hok : ∀ p ∈ apSet Q.Nsite, IdxOK nIdx Tu p := by
    intro p hp
    obtain ⟨h1, _, _, _, h4⟩ := ht p hp
    right; omega
  have hok' : ∀ p ∈ parSet Q.Nsite, IdxOK nIdx Tu p := by
    intro p hp
    obtain ⟨h1, _, _, _, h4⟩ := ht' p hp
    right; omega
  have ex := fun δ => (C61_antiparallel hok (uhfFij Ne (diag zheev Q.Nsite ham).2.1) u δ).2
  have ex' := fun δ => C61_parallel (nAP := nAP) (nP := nP) hok' (uhfFij Ne (diag zheev Q.Nsite ham).2.1) u δ
  choose out h1 h2 using ex
  choose out' h1' h2' using ex'
  refine ⟨out, out', h1, h1', fun S hS hS' x hl hx => ?_⟩
  have hF : uhfFij Ne (diag zheev Q.Nsite ham).2.1 = pairForm Ne (diag zheev Q.Nsite ham).2.2 := uhfFij_pair Ne _
  refine state_gen hQ hm (C := fun i j => r * u (Q.orbIdx i j) * (Q.orbSgn i j : ℂ)) old ?_ hl hx
  intro δ a b hab hb
  by_cases hs : a < Q.Nsite ∧ Q.Nsite ≤ b
  · have hp : (a, b) ∈ apSet Q.Nsite := by
      simp only [apSet, Finset.mem_product, Finset.mem_range, Finset.mem_Ico]; omega
    obtain ⟨g1, g2, g3, _, g4⟩ := ht (a, b) hp
    have e := read_pair (nIdx := nAP) hr (u := u (Q.orbIdx a b)) (δ := δ) hp g1 (by rw [g2]; exact g3) (h2 δ (Q.orbIdx a b)) (fun z hz => hS δ _ g4 z hz)
    dsimp only at e g2
    rw [g2, hF] at e
    exact e
  · have hp : (a, b) ∈ parSet Q.Nsite := by
      simp only [parSet, Finset.mem_filter, Finset.mem_product, Finset.mem_range]; omega
    obtain ⟨g1, g2, g3, g5, g4⟩ := ht' (a, b) hp
    dsimp only at g1 g2 g5 g4
    have k : nAP + (Q.orbIdx a b - nAP) = Q.orbIdx a b := by omega
    have h3 := h2' δ (Q.orbIdx a b - nAP) (by omega)
    rw [k] at h3
    have e := read_pair (nIdx := nP) hr' (u := u (Q.orbIdx a b)) (δ := δ) (v := S δ (Q.orbIdx a b)) hp g1 (by rw [g2]; exact g3) h3
      (fun z hz => by have := hS' δ _ (by omega) z hz; dsimp only at this; rwa [k] at this)
    dsimp only at e
    rw [g2, hF] at e
    exact e

end

/-! ### the energy -/

section
variable {N nsize : Nat} {H : HamPar} {zheev : Nat → (Nat → ℂ) → (Nat → ℝ) × (Nat → ℂ)} {jPH jIA mix : ℝ}

/-- C61: a state with the amplitudes of the determinant up to a common factor has, for the Hamiltonian of the input files, the energy
the Hartree–Fock program prints, up to the bound of C60 on its residue. -/
theorem C61_energy {Ne : Nat} (hi : HamIdx N H) (hd : HamDistinct H) (hh : HamHerm H) (hn : 2 * Ne ≤ 2 * N) (hN : 0 < N) {s : UhfSt}
    (hz : ZheevOK zheev (2 * N) (zheevArg N (makeham N H true s.G))) {Ψ : List Nat → ℂ} {c : ℂ} (hc : c ≠ 0)
    (hΨ : ∀ x : List Nat, x.length = 2 * Ne → (∀ y ∈ x, y < 2 * N) →
      Ψ x = c * slater (2 * Ne) (diag zheev N (makeham N H true s.G)).2.2 x) :
    let s' := uhfStep zheev N (2 * Ne) H true jPH jIA mix s
    ‖(s'.energy : ℂ) - expectOf (2 * N) (2 * Ne) Ψ (hamTerms N H)‖ ≤ 16 * N ^ 2 * twoBodyWeight (hamTerms N H) * s'.rest := by
  intro s'
  rw [expect_scale hc hΨ rfl hi]
  exact C60_energy hi hd hh hn hN hz

/-- C61: if the mean-field matrix does not mix spins and the `Ne` lowest levels of each spin lie below the empty levels of the full
matrix, the determinant of the separate spins is that of the Hartree–Fock program up to a phase. -/
theorem C61_same_determinant {Ne : Nat} {ham : Mat2} (hn : Ne ≤ N) (hs : SpinDiag N ham)
    (hz : ZheevOK zheev (2 * N) (fun k => ham (k % (2 * N)) (k / (2 * N))))
    (hu : ZheevOK zheev N (fun k => ham (k % N) (k / N))) (hdn : ZheevOK zheev N (fun k => ham (k % N + N) (k / N + N)))
    (gap : ∀ m < Ne, ∀ k, 2 * Ne ≤ k → k < 2 * N → (zheevAll zheev N (fun i j => ham i j)).1 m < (diag zheev N ham).1 k ∧
      (zheevAll zheev N (fun i j => ham (i + N) (j + N))).1 m < (diag zheev N ham).1 k) :
    ∃ c : ℂ, Complex.normSq c = 1 ∧ ∀ x : List Nat, x.length = 2 * Ne → (∀ y ∈ x, y < 2 * N) →
      slater (2 * Ne) (spinOrbitals N (zheevAll zheev N (fun i j => ham i j)).2 (zheevAll zheev N (fun i j => ham (i + N) (j + N))).2) x =
        c * slater (2 * Ne) (diag zheev N ham).2.2 x := by
  obtain ⟨u1, u2⟩ := zheevAll_eigen (A := fun i j => ham i j) hu
  obtain ⟨d1, d2⟩ := zheevAll_eigen (A := fun i j => ham (i + N) (j + N)) hdn
  obtain ⟨f1, f2⟩ := zheevAll_eigen (A := ham) hz
  refine same_slater (by omega) f2 (spin_ortho (ortho_mono u2 hn) (ortho_mono d2 hn)) ?_
  intro a ha k hk hk'
  have hh := hermU_herm (2 * N) ham
  obtain ⟨m, rfl | rfl⟩ : ∃ m, a = 2 * m ∨ a = 2 * m + 1 := ⟨a / 2, by omega⟩
  · obtain ⟨g1, _⟩ := gap m (by omega) k hk hk'
    exact eig_orth hh (f1 k hk') (spin_eig_up hs (u1 m (by omega))) (ne_of_gt g1)
  · obtain ⟨_, g2⟩ := gap m (by omega) k hk hk'
    refine eig_orth hh (f1 k hk') (spin_eig_dn hs (e := (zheevAll zheev N (fun i j => ham (i + N) (j + N))).1 m) ?_) (ne_of_gt g2)
    intro i hi'
    have := d1 m (by omega) i hi'
    simp only [hermU_block] at this
    exact this

/-- C61: started from the file of general orbitals, the variational program has the energy of the Hartree–Fock program. -/
theorem C61_energy_general {Q : QPPar} (hQ : Unprojected Q) (hm : Mirrored Q) {Ne nIdx : Nat} {Tu : OrbT} {r : ℂ} (hr0 : r ≠ 0)
    (u : Nat → ℝ) (old : Nat → ℂ) (ht : SameOn (upperSet Q.Nsite) 0 nIdx Tu Q) (hlow : ∀ a < 2 * Q.Nsite, ∀ b ≤ a, Tu.idx a b = -1)
    (hi : HamIdx Q.Nsite H) (hd : HamDistinct H) (hh : HamHerm H) (hn : Ne ≤ Q.Nsite) (hN : 0 < Q.Nsite) {s : UhfSt}
    (hz : ZheevOK zheev (2 * Q.Nsite) (zheevArg Q.Nsite (makeham Q.Nsite H true s.G)))
    (hr : Respects Tu (upperSet Q.Nsite) (uhfFij Ne (diag zheev Q.Nsite (makeham Q.Nsite H true s.G)).2.1)) :
    let s' := uhfStep zheev Q.Nsite (2 * Ne) H true jPH jIA mix s
    ∃ out, outG Q.Nsite nIdx Tu (uhfFij Ne (diag zheev Q.Nsite (makeham Q.Nsite H true s.G)).2.1) u 0 = some out ∧
      ∀ S, ReadsFile nIdx r out S →
        ‖(s'.energy : ℂ) - expectOf (2 * Q.Nsite) (2 * Ne) (pf (entry (2 * Q.Nsite) (updateSlaterElmF Q S old) 0)) (hamTerms Q.Nsite H)‖ ≤
          16 * Q.Nsite ^ 2 * twoBodyWeight (hamTerms Q.Nsite H) * s'.rest := by
  intro s'
  obtain ⟨out, h1, h2⟩ := C61_state_general hQ (r := r) u old hm ht hlow zheev _ hr
  refine ⟨out 0, h1 0, fun S hS => ?_⟩
  have hc : (2 * r) ^ Ne ≠ 0 := pow_ne_zero _ (mul_ne_zero two_ne_zero hr0)
  refine C61_energy hi hd hh (by omega) hN hz hc ?_
  intro x hl hx
  have := (h2 (fun δ k => if δ = 0 then S k else r * (out δ k).getD 0) ?_ x hl hx).1
  · simpa using this
  · intro δ k hk z hz
    by_cases h : δ = 0
    · subst h; simp only [if_true]; exact hS k hk z hz
    · simp only [if_neg h, hz, Option.getD_some]

/-- C61: started from the file of antiparallel orbitals, the variational program has the energy of the Hartree–Fock program if the
mean field does not mix spins and the levels are occupied in pairs. -/
theorem C61_energy_antiparallel {Q : QPPar} (hQ : Unprojected Q) {Ne nIdx : Nat} {Tu : OrbT} {r : ℂ} (hr0 : r ≠ 0)
    (u : Nat → ℝ) (old : Nat → ℂ) (ht : SameAP nIdx Tu Q)
    (hi : HamIdx Q.Nsite H) (hd : HamDistinct H) (hh : HamHerm H) (hn : Ne ≤ Q.Nsite) (hN : 0 < Q.Nsite) {s : UhfSt}
    (hz : ∀ n a, ZheevOK zheev n a) (hs : SpinDiag Q.Nsite (makeham Q.Nsite H true s.G))
    (gap : ∀ m < Ne, ∀ k, 2 * Ne ≤ k → k < 2 * Q.Nsite →
      (zheevAll zheev Q.Nsite (fun i j => makeham Q.Nsite H true s.G i j)).1 m < (diag zheev Q.Nsite (makeham Q.Nsite H true s.G)).1 k ∧
      (zheevAll zheev Q.Nsite (fun i j => makeham Q.Nsite H true s.G (i + Q.Nsite) (j + Q.Nsite))).1 m <
        (diag zheev Q.Nsite (makeham Q.Nsite H true s.G)).1 k)
    (hr : Respects Tu (apSet Q.Nsite) (fun a b => uhfApFij zheev Q.Nsite Ne (makeham Q.Nsite H true s.G) a (b - Q.Nsite))) :
    let s' := uhfStep zheev Q.Nsite (2 * Ne) H true jPH jIA mix s
    ∃ out, outAP2 Q.Nsite nIdx Tu (uhfApFij zheev Q.Nsite Ne (makeham Q.Nsite H true s.G)) u 0 = some out ∧
      ∀ S, ReadsFile nIdx r out S →
        ‖(s'.energy : ℂ) - expectOf (2 * Q.Nsite) (2 * Ne)
          (pf (entry (2 * Q.Nsite) (updateSlaterElm Q (fun _ => 0) (fun _ => 1) (fun _ => 0) S old) 0)) (hamTerms Q.Nsite H)‖ ≤
          16 * Q.Nsite ^ 2 * twoBodyWeight (hamTerms Q.Nsite H) * s'.rest := by
  intro s'
  obtain ⟨out, h1, h2⟩ := C61_state_antiparallel hQ (r := r) u old ht zheev _ hr
  obtain ⟨c, c1, c2⟩ := C61_same_determinant hn hs (hz _ _) (hz _ _) (hz _ _) gap
  refine ⟨out 0, h1 0, fun S hS => ?_⟩
  have hc0 : c ≠ 0 := by
    intro h; rw [h, map_zero] at c1; exact zero_ne_one c1
  have hc : r ^ Ne * c ≠ 0 := mul_ne_zero (pow_ne_zero _ hr0) hc0
  refine C61_energy hi hd hh (by omega) hN (hz _ _) hc ?_
  intro x hl hx
  have := (h2 (fun δ k => if δ = 0 then S k else r * (out δ k).getD 0) ?_ x hl hx).1
  · simp only [if_true] at this
    rw [this, c2 x hl hx, mul_assoc]
  · intro δ k hk z hz
    by_cases h : δ = 0
    · subst h; simp only [if_true]; exact hS k hk z hz
    · simp only [if_neg h, hz, Option.getD_some]

end

/-! ### electron numbers and gap -/

/-- C61 is violated by the code for the electron number: with `Ne` as the only electron number in the input, as in the manual, and
an orbital file, no orbital is occupied. -/
theorem C61_electrons_violated (ne : ℤ) : uhfCounts (some ne) none 0 true = .ok (0, 0) := by
  simp [uhfCounts]

/-- With `Ncond` given, an even number, the numbers are those of conduction electrons and local spins. -/
theorem C61_electrons {ncond nLoc : ℤ} (h1 : ncond ≠ -1) (h2 : 2 ∣ ncond) (h3 : 2 ∣ nLoc) (ne : Option ℤ) (o : Bool) :
    ∃ m, uhfCounts ne (some ncond) nLoc o = .ok (m, nLoc + ncond) ∧ (o = true → 2 * m = nLoc + ncond) := by
  have e : (nLoc + ncond).tdiv 2 * 2 = nLoc + ncond := Int.tdiv_mul_cancel (dvd_add h3 h2)
  cases o
  · exact ⟨ne.getD 0, by simp [uhfCounts, h1], by simp⟩
  · refine ⟨(nLoc + ncond).tdiv 2, ?_, fun _ => by rw [mul_comm]; exact e⟩
    have t : ncond.tmod 2 = 0 := Int.tmod_eq_zero_of_dvd h2
    simp only [uhfCounts, Option.getD_some, if_true]
    rw [if_pos h1, if_neg (by rw [t]; simp), mul_comm, e]

/-- C61 is violated by the code for an odd number of local spins: one electron is lost. -/
theorem C61_odd_spins_violated : uhfCounts none (some 0) 3 true = .ok (1, 2) := by decide

/-- C61 is violated by the code for the gap of a full or an empty lattice: it reads outside the array of levels. -/
theorem C61_gap_violated (N : Nat) (eig : Nat → ℝ) : uhfGap N (2 * N) eig = .ub ∧ uhfGap N 0 eig = .ub := by
  unfold uhfGap
  exact ⟨if_pos (Or.inr (by omega)), if_pos (Or.inl (by omega))⟩

/-- Otherwise it is the distance of the lowest empty from the highest occupied level. -/
theorem C61_gap {N n : Nat} (h : 0 < n) (h' : n < 2 * N) (eig : Nat → ℝ) : uhfGap N n eig = .ok (eig n - eig (n - 1)) := by
  unfold uhfGap
  rw [if_neg (by omega)]
  have : ((n : ℤ) - 1).toNat = n - 1 := by omega
  rw [this]; rfl

/-! ### examples -/

/-- two sites, one parameter on the diagonal, one off it, antisymmetric -/
def exTab : OrbT where
  idx a b := if b < 2 then -1 else if a + 2 = b then 0 else 1
  sgn a b := if a = 1 ∧ b = 2 then -1 else 1

/-- a pair function on two sites -/
def exF : Mat2 := fun i j => if i = 0 then (if j = 0 then 1 else 3) else (if j = 0 then 5 else 2)

theorem exClass0 : pairClass exTab (apSet 2) 0 = {(0, 2), (1, 3)} := by decide
theorem exClass1 : pairClass exTab (apSet 2) 1 = {(0, 3), (1, 2)} := by decide
theorem exClass2 : pairClass exTab (apSet 2) 2 = ∅ := by decide

theorem exTab_ok : ∀ p ∈ apSet 2, IdxOK 3 exTab p := by
  unfold IdxOK
  decide

/-- The parameters are `(1+2)/2` and `(3-5)/2`; a third parameter without pairs is `0/0`. -/
example (u : Nat → ℝ) : ∃ out, outAP2 2 3 exTab exF u 0 = some out ∧ out 0 = some (3 / 2) ∧ out 1 = some (-1) ∧ out 2 = none := by
  obtain ⟨out, h1, h2⟩ := (C61_antiparallel exTab_ok exF u 0).1
  refine ⟨out, h1, ?_, ?_, ?_⟩
  · rw [h2]; unfold classMean; rw [exClass0]; simp [exF, exTab]; norm_num
  · rw [h2]; unfold classMean; rw [exClass1]; simp [exF, exTab]; norm_num
  · rw [h2, exClass2]; simp

/-- `exF` does not have the symmetry of the numbering. -/
example : ¬ Respects exTab (apSet 2) (fun a b => exF a (b - 2)) := by
  intro h
  have := h (0, 2) (by decide) (1, 3) (by decide) (by decide)
  simp [exF, exTab] at this

/-- one site without projection -/
def exOne : QPPar where
  Nsite := 1
  nSP := 1
  nMP := 1
  nOpt := 1
  nSlater := 1
  trans := fun _ r => r
  transSgn := fun _ _ => 1
  opt := fun _ r => r
  optSgn := fun _ _ => 1
  orbIdx := fun _ _ => 0
  orbSgn := fun _ _ => 1

theorem exOne_unproj : Unprojected exOne where
  sp := rfl
  mp := rfl
  op := rfl
  id _ _ := rfl
  sg _ _ := rfl

def exOneTab : OrbT where
  idx a b := if a = 0 ∧ b = 1 then 0 else -1
  sgn a b := if a = 0 ∧ b = 1 then 1 else 0

theorem exOne_same : SameAP 1 exOneTab exOne := by
  unfold SameAP
  decide

theorem exOne_respects (F : Mat2) : Respects exOneTab (apSet 1) F := by
  intro p hp q hq _
  have e : apSet 1 = {(0, 1)} := by decide
  rw [e, Finset.mem_singleton] at hp hq
  rw [hp, hq]

theorem exUhf_diag : SpinDiag 1 (makeham 1 exUhf true exFull.G) := by
  intro i hi j hj
  obtain rfl : i = 0 := by omega
  obtain rfl : j = 0 := by omega
  rw [exUhf_ham (by omega) (by omega)]
  simp

/-- The hypotheses of `C61_energy_antiparallel` are met by the one-site example of C60. -/
example (jPH jIA mix : ℝ) : ∃ out, outAP2 1 1 exOneTab (uhfApFij idealZheev 1 1 (makeham 1 exUhf true exFull.G)) (fun _ => 0) 0 = some out ∧
    ∀ S, ReadsFile 1 1 out S →
      ‖((uhfStep idealZheev 1 2 exUhf true jPH jIA mix exFull).energy : ℂ) - expectOf 2 2
        (pf (entry 2 (updateSlaterElm exOne (fun _ => 0) (fun _ => 1) (fun _ => 0) S (fun _ => 0)) 0)) (hamTerms 1 exUhf)‖ ≤
        16 * 1 ^ 2 * twoBodyWeight (hamTerms 1 exUhf) * (uhfStep idealZheev 1 2 exUhf true jPH jIA mix exFull).rest := by
  have := C61_energy_antiparallel (H := exUhf) (zheev := idealZheev) (jPH := jPH) (jIA := jIA) (mix := mix) (Ne := 1) exOne_unproj
    (r := 1) one_ne_zero (fun _ => 0) (fun _ => 0) exOne_same exUhf_idx exUhf_distinct exUhf_herm (by decide) (by decide) (s := exFull)
    idealZheev_ok exUhf_diag (by intro m _ k h1 h2; exact absurd (show k < 2 from h2) (by omega)) (exOne_respects _)
  simpa [exOne] using this

/-- A file of antiparallel orbitals for two sites. -/
example : ∃ T, uhfReadAP false 2 [[0, 0, 0, 1], [0, 1, 1, 1], [1, 0, 1, -1], [1, 1, 0]] 0 (uhfOrbInit false 2) = .ok (0, T) ∧
    T.idx 1 2 = 1 ∧ T.sgn 1 2 = -1 ∧ T.sgn 1 3 = 1 := by
  refine ⟨_, rfl, ?_⟩
  decide

/-- A site outside the lattice: the table is written before the check. -/
example : uhfReadAP false 1 [[0, 1, 0, 1]] 0 (uhfOrbInit false 1) = .ub := rfl

end MVMC
