import Verif.Props.PostInterrupt

/-! # C138: an example without periodic directions (an atom on springs) -/

namespace Interphon.Props
open Py Interphon Interphon.UnitCell Interphon.SuperCell Interphon.PreProcess Interphon.Args Interphon.Inout Interphon.Cli Interphon.Main Interphon.PostProcess Interphon.Phonon Interphon.ForceConstant

noncomputable section

def atomOpts : PreOpts := { enlargement := "1 1 1".toList, periodicity := "0 0 0".toList }

theorem atom_preRun : PreRun "/w".toList atomOpts .vasp ⟨some (1 / 50), some [1, 1, 1], some [0, 0, 0]⟩ [1, 1, 1] [0, 0, 0] (1 / 50) chainUnit [0] (fun _ => chainArgs)
    (fun m => List.replicate m 0) chainFs where
  code := rfl
  args := by decide +kernel
  enlargement := rfl
  periodicity := rfl
  displacement := rfl
  positive := by decide
  slash := by decide
  name := by decide
  noSym := by decide
  read := chain_preRun.read
  unit := chain_preRun.unit
  files := chain_preRun.files
  junk := by simp

/-- The atom is held by springs of strength 32.04 N/m. -/
def atomSprings : Springs := fun _ x _ y => if x = y then Finsupp.single 0 (3204 / 100) else 0

theorem atom_range : ∀ a x b y l, l ∈ (atomSprings a x b y).support → l = 0 := by
  intro a x b y l hl
  by_contra hc
  apply Finsupp.mem_support_iff.1 hl
  unfold atomSprings
  split_ifs
  · simp [Finsupp.single_apply, Ne.symm hc]
  · rfl

theorem atom_super (x y : Fin 3) : superSprings (fun i => ([1, 1, 1] : List ℤ).getD i 0) 1 atomSprings 0 x 0 y = if x = y then 3204 / 100 else 0 := by
  unfold superSprings
  simp only [Nat.zero_div]
  rw [Finset.sum_filter]
  have h1 : ∀ i : Fin 3, ([1, 1, 1] : List ℤ).getD i 0 ∣ (0 : Fin 3 → ℤ) i - (cellOf (fun i => ([1, 1, 1] : List ℤ).getD i 0) (0 % 1) i - cellOf (fun i => ([1, 1, 1] : List ℤ).getD i 0) (0 % 1) i) := by decide
  by_cases hxy : x = y
  · have e : atomSprings 0 x 0 y = Finsupp.single 0 (3204 / 100) := by unfold atomSprings; rw [if_pos hxy]
    rw [e, if_pos hxy]
    have hsum : ∀ (F : (Fin 3 → ℤ) →₀ ℝ) (P : (Fin 3 → ℤ) → Prop) [DecidablePred P], (∑ l ∈ F.support, if P l then F l else 0) = F.sum fun l φ => if P l then φ else 0 :=
      fun F P _ => rfl
    rw [hsum, Finsupp.sum_single_index (by simp), if_pos h1]
  · have e : atomSprings 0 x 0 y = 0 := by unfold atomSprings; rw [if_neg hxy]
    rw [e, if_neg hxy]
    simp

/-- The force on the atom. -/
def atomText (k : ℕ) : Str := "forces\n".toList ++ forceLine k (-sgn k)

theorem atom_force_file (k : ℕ) (hk : k < 6) : ForceOutput .vasp "vasprun.xml".toList (readlines (atomText k)) [forceVec k (-sgn k)] := by
  refine .inl ⟨rfl, ⟨[], "forces\n".toList, [], [forceLine k (-sgn k)], [], ?_, by simp, ?_, rfl, ?_⟩⟩
  · revert k; decide +kernel
  · rw [← isInfix_iff]; decide
  · have hsplit : ∀ k < 6, ∀ s ∈ [(1 : ℤ), -1], split (forceLine k s) = [['v']] ++ tokOf k s 0 :: tokOf k s 1 :: tokOf k s 2 :: [] ∧
      parseFloat (tokOf k s 0) = some (forceVec k s 0) ∧ parseFloat (tokOf k s 1) = some (forceVec k s 1) ∧ parseFloat (tokOf k s 2) = some (forceVec k s 2) := by decide +kernel
    have hs : -sgn k ∈ [(1 : ℤ), -1] := by
      unfold sgn
      split_ifs <;> simp
    obtain ⟨h1, h2, h3, h4⟩ := hsplit k hk _ hs
    exact .cons ⟨_, _, _, _, _, h1, rfl, h2, h3, h4⟩ .nil

def atomK : Str := "list\n2\nReciprocal\n0 0 0\n0 0 0\n".toList

def atomFs2 (fs1 : Fs) : Fs := fun q => match (List.range 6).find? (fun k => decide (q = chainDir k ++ "/POSCAR".toList)) with
  | some k => fs1 (fileName "/w/POSCAR".toList (k + 1))
  | none => match (List.range 6).find? (fun k => decide (q = chainDir k ++ "/vasprun.xml".toList)) with
    | some k => some (atomText k)
    | none => if q = "/w/KPOINTS".toList then some atomK else fs1 q

theorem atom_calculated {fs1 : Fs} {rec : PreRecord} (search : Run (List (ℕ × List (V3 ℚ)))) (group : Run Str)
    (hpre : preMain "/w".toList atomOpts (fun _ => chainArgs) (fun m => List.replicate m 0) search group chainFs = .ok (fs1, rec)) :
    Calculated .vasp "/w".toList atomOpts.unitcell fs1 (atomFs2 fs1)
      (superSprings (fun i => ([1, 1, 1] : List ℤ).getD i 0) (([1, 1, 1] : List ℤ).getD 0 0 * ([1, 1, 1] : List ℤ).getD 1 0 * ([1, 1, 1] : List ℤ).getD 2 0).toNat atomSprings)
      (fun _ _ => 0) (6 * ([0] : List ℕ).length) chainForce := by
  have hget : ∀ (k : ℕ) (f : Str), chainForce[k]? = some f → k < 6 ∧ f = chainDir k ++ "/vasprun.xml".toList := by
    intro k f hf
    unfold chainForce at hf
    rw [List.getElem?_map] at hf
    obtain ⟨z, hz, rfl⟩ := Option.map_eq_some_iff.1 hf
    obtain ⟨hz1, hz2⟩ := List.getElem?_eq_some_iff.1 hz
    rw [List.getElem_range] at hz2
    subst hz2
    exact ⟨by simpa using hz1, rfl⟩
  have hother : ∀ q : Str, (List.range 6).find? (fun k => decide (q = chainDir k ++ "/POSCAR".toList)) = none →
      (List.range 6).find? (fun k => decide (q = chainDir k ++ "/vasprun.xml".toList)) = none → q ≠ "/w/KPOINTS".toList → atomFs2 fs1 q = fs1 q := by
    intro q h1 h2 h3
    simp only [atomFs2, h1, h2, if_neg h3]
  refine ⟨rfl, hother _ (by decide +kernel) (by decide +kernel) (by decide), hother _ (by decide +kernel) (by decide +kernel) (by decide), ?_, ?_⟩
  · intro k f hf
    obtain ⟨hk, rfl⟩ := hget k f hf
    have h1 : ∀ k < 6, dirName (chainDir k ++ "/vasprun.xml".toList) ++ '/' :: atomOpts.unitcell = chainDir k ++ "/POSCAR".toList := by decide +kernel
    have h2 : ∀ k < 6, (List.range 6).find? (fun k' => decide (chainDir k ++ "/POSCAR".toList = chainDir k' ++ "/POSCAR".toList)) = some k := by decide +kernel
    rw [h1 k hk]
    simp only [atomFs2, h2 k hk]
    rfl
  · intro k f hf
    obtain ⟨hk, rfl⟩ := hget k f hf
    have h1 : ∀ k < 6, (List.range 6).find? (fun k' => decide (chainDir k ++ "/vasprun.xml".toList = chainDir k' ++ "/POSCAR".toList)) = none := by decide +kernel
    have h2 : ∀ k < 6, (List.range 6).find? (fun k' => decide (chainDir k ++ "/vasprun.xml".toList = chainDir k' ++ "/vasprun.xml".toList)) = some k := by decide +kernel
    have h3 : ∀ k < 6, baseName (chainDir k ++ "/vasprun.xml".toList) = "vasprun.xml".toList := by decide +kernel
    refine ⟨atomText k, [forceVec k (-sgn k)], by simp only [atomFs2, h1 k hk, h2 k hk], by rw [h3 k hk]; exact atom_force_file k hk, ?_⟩
    obtain ⟨sup, hs1, -, hs3, -, hs5⟩ := C118_files atom_preRun chain_dec ⟨2 * 10 ^ 14, by norm_num⟩ search group hpre
    obtain ⟨dis, v, hd1, -, -, hd4, hd5, hd6⟩ := hs5 k (by simpa using hk)
    intro sup' dis' hsup' hdis'
    have e1 := hs1.unique hsup'
    have e2 := hd1.unique hdis'
    subst e1 e2
    have hrow : (([1, 1, 1] : List ℤ).getD 0 0 * ([1, 1, 1] : List ℤ).getD 1 0 * ([1, 1, 1] : List ℤ).getD 2 0).toNat * ([0] : List ℕ).getD (k / 6) 0 = 0 := by
      rw [show k / 6 = 0 by omega]; rfl
    rw [hrow] at hd4 hd5 hd6
    have hlen : sup.cart.length = 1 := hs3
    refine ⟨hlen.symm, ?_⟩
    rw [hlen]
    intro a ha c
    have ha0 : a = 0 := by omega
    subst ha0
    have hE : (([1, 1, 1] : List ℤ).getD 0 0 * ([1, 1, 1] : List ℤ).getD 1 0 * ([1, 1, 1] : List ℤ).getD 2 0).toNat = 1 := rfl
    rw [hE]
    have hdiff0 : ∀ y : Fin 3, (toR dis).cart.getD 0 0 y - (toR sup).cart.getD 0 0 y = if (y : ℕ) = k % 6 / 2 then (sgn k : ℝ) * (1 / 50) else 0 := by
      intro y
      simp only [toR, List.getD_eq_getElem?_getD, List.getElem?_map, hd5, hd6, Option.map_some, Option.getD_some, toReal, sgn]
      split_ifs <;> simp
    have hlenR : (toR sup).cart.length = 1 := by simp [toR, hlen]
    unfold harmonicForces
    rw [hlenR, Finset.sum_range_one]
    simp only [hdiff0]
    simp only [atom_super]
    have hsum : (∑ y : Fin 3, (if c = y then (3204 / 100 : ℝ) else 0) * ((if (y : ℕ) = k % 6 / 2 then (sgn k : ℝ) * (1 / 50) else 0) * (1 / 10 ^ 10))) =
        (3204 / 100 : ℝ) * ((if (c : ℕ) = k % 6 / 2 then (sgn k : ℝ) * (1 / 50) else 0) * (1 / 10 ^ 10)) := by
      rw [Finset.sum_eq_single c]
      · rw [if_pos rfl]
      · intro b _ hb
        rw [if_neg (Ne.symm hb), zero_mul]
      · simp
    rw [hsum]
    show (((if (c : ℕ) = k % 6 / 2 then ((-sgn k : ℤ) : ℚ) * (1 / 25) else 0) * (1602 / 10 ^ 12) : ℚ) : ℝ) = _
    split_ifs <;> push_cast <;> ring

/-- All hypotheses of `C138_molecule_end_to_end` are met by an atom on springs: the file contains its three frequencies, although drawing the picture of the band fails afterwards. -/
example (search : Run (List (ℕ × List (V3 ℚ)))) (group : Run Str) {S : PostProcess.Solver} (hS : IsSolver S) (A : Argsorts) (j : Junk) (fl : ℝ → ℚ) :
    ∃ fs1 rec file mass row nums, preMain "/w".toList atomOpts (fun _ => chainArgs) (fun m => List.replicate m 0) search group chainFs = .ok (fs1, rec) ∧
      (((chainBandJob S A j fl search rec).trace "/w".toList (atomFs2 fs1)).writes.foldl perform ⟨atomFs2 fs1, .missing⟩).files "/w/freqency_at_gamma_point.dat".toList = some file ∧
      IsSpectrum (moleculeDyn [0] mass atomSprings 3) row ∧ List.Forall₂ (Reads9 fl) row nums ∧ readTable file = nums.map fun n => [n] := by
  obtain ⟨fs1, rec, h1, h2⟩ := C138_molecule_end_to_end atom_preRun (by decide) (by norm_num) chain_det rfl chain_dec ⟨2 * 10 ^ 14, by norm_num⟩ atomSprings atom_range (fun _ _ => 0) search group
  obtain ⟨file, mass, row, nums, h3, -, h4, h5, h6⟩ := h2 (chainBandJob S A j fl search rec) ⟨atomFs2 fs1, .missing⟩ chainForce "KPOINTS".toList atomK [![0, 0, 0], ![0, 0, 0]] [] hS rfl rfl rfl rfl rfl rfl
    (atom_calculated search group h1) (by
      have e1 : (List.range 6).find? (fun k => decide (absPath "/w".toList "KPOINTS".toList = chainDir k ++ "/POSCAR".toList)) = none := by decide +kernel
      have e2 : (List.range 6).find? (fun k => decide (absPath "/w".toList "KPOINTS".toList = chainDir k ++ "/vasprun.xml".toList)) = none := by decide +kernel
      simp only [atomFs2, e1, e2]
      rfl) (by decide +kernel) (by decide)
  exact ⟨fs1, rec, file, mass, row, nums, h1, h3, h4, h5, h6⟩

end
end Interphon.Props
