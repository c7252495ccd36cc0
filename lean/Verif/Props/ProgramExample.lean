import Verif.Props.Program

/-! # C118, C119: a complete example, and what happens to a unit cell called SUPERCELL -/

namespace Interphon.Props
open Py Interphon Interphon.UnitCell Interphon.SuperCell Interphon.PreProcess Interphon.Args Interphon.Inout Interphon.Cli Interphon.Main
open Interphon.PostProcess Interphon.Phonon Interphon.ForceConstant

/-- A chain of carbon atoms. -/
def chainPoscar : Str := "chain\n1.0\n4 0 0\n0 4 0\n0 0 4\nC\n1\nCartesian\n0.5 0 0\n".toList

def chainUnit : Cell ℚ where
  lattice := fun i j => if i = j then 4 else 0
  atomType := ["C".toList]
  numAtom := [1]
  selective := false
  coordinate := .cartesian
  cart := [![1 / 2, 0, 0]]
  atomTrue := some [0]
  xyzTrue := some [0, 0, 0]

def chainOpts : PreOpts := { enlargement := "2 1 1".toList, periodicity := "1 0 0".toList }

def chainFs : Fs := fun q => if q = "/w/POSCAR".toList then some chainPoscar else none

def chainArgs : FileArgs := ⟨"Supercell".toList, ["C".toList], fun _ => "12".toList⟩

theorem chain_preRun : PreRun "/w".toList chainOpts .vasp ⟨some (1 / 50), some [2, 1, 1], some [1, 0, 0]⟩ [2, 1, 1] [1, 0, 0] (1 / 50) chainUnit [0] (fun _ => chainArgs)
    (fun m => List.replicate m 0) chainFs where
  code := rfl
  args := by decide +kernel
  enlargement := rfl
  periodicity := rfl
  displacement := rfl
  positive := by decide
  slash := by decide
  name := by decide
  noSym := by decide
  read := by
    refine ⟨(readFile chainFs chainOpts.dft (absPath "/w".toList chainOpts.unitcell)).1, Prod.ext rfl (by decide +kernel), ?_⟩
    refine ⟨?_, ?_, ?_, ?_, ?_, ?_, ?_, ?_⟩ <;> decide +kernel
  unit := {
    groups := ⟨[("C".toList, 1)], ⟨by simp, by decide, by simp [IsToken]; decide, rfl, rfl, rfl⟩⟩
    names := by
      intro t ht
      have : t = "C".toList := by simpa [chainUnit] using ht
      subst this
      exact ⟨6, by decide, _, rfl, "C".toList, by decide +kernel, rfl⟩
    selected := rfl
    sorted := by simp
    bound := by decide }
  files := fun _ => {
    comment := by decide
    species := fun _ => Iff.rfl
    weight := by
      intro t y hy
      have : ∀ z ∈ "12".toList, z ∈ (List.range 10).map digitChar := by decide +kernel
      obtain ⟨n, -, e⟩ := List.mem_map.1 (this y hy)
      exact .inl ⟨n, e.symm⟩ }
  junk := by simp

/-- Springs of strength `16.02` N/m to both neighbours. -/
noncomputable def stiffSprings : Springs := fun _ x _ y =>
  if x = y then Finsupp.single 0 (2 * (1602 / 100)) + (Finsupp.single ![1, 0, 0] (-(1602 / 100)) + Finsupp.single ![-1, 0, 0] (-(1602 / 100))) else 0

theorem stiff_range : ∀ a x b y l, l ∈ (stiffSprings a x b y).support → ∀ i : Fin 3, ([1, 0, 0] : List ℤ).getD i 0 = 0 → l i = 0 := by
  intro a x b y l hl i hi
  have h3 : l = 0 ∨ l = ![1, 0, 0] ∨ l = ![-1, 0, 0] := by
    by_contra hc
    push Not at hc
    apply Finsupp.mem_support_iff.1 hl
    unfold stiffSprings
    split_ifs
    · simp [Finsupp.single_apply, hc.1.symm, hc.2.1.symm, hc.2.2.symm]
    · rfl
  rcases h3 with rfl | rfl | rfl <;> fin_cases i <;> simp at hi ⊢

/-- In the super cell of two atoms the atom is tied to itself by two springs and to the other atom by two springs. -/
theorem stiff_super (r : ℕ) (hr : r < 2) (x y : Fin 3) :
    superSprings (fun i => ([2, 1, 1] : List ℤ).getD i 0) 2 stiffSprings r x 0 y = if x = y then (if r = 0 then 3204 / 100 else -(3204 / 100)) else 0 := by
  unfold superSprings
  have hdiv : r / 2 = 0 := by omega
  rw [hdiv]
  by_cases hxy : x = y
  · have e : stiffSprings 0 x (0 / 2) y = Finsupp.single 0 (2 * (1602 / 100)) + (Finsupp.single ![1, 0, 0] (-(1602 / 100)) + Finsupp.single ![-1, 0, 0] (-(1602 / 100))) := by
      unfold stiffSprings
      rw [if_pos hxy]
    rw [e, if_pos hxy, Finset.sum_filter]
    have hsum : ∀ (F : (Fin 3 → ℤ) →₀ ℝ) (P : (Fin 3 → ℤ) → Prop) [DecidablePred P], (∑ l ∈ F.support, if P l then F l else 0) = F.sum fun l φ => if P l then φ else 0 :=
      fun F P _ => rfl
    rw [hsum, Finsupp.sum_add_index' (by simp) (by intros; split_ifs <;> simp), Finsupp.sum_add_index' (by simp) (by intros; split_ifs <;> simp),
      Finsupp.sum_single_index (by simp), Finsupp.sum_single_index (by simp), Finsupp.sum_single_index (by simp)]
    interval_cases r
    · have h1 : ∀ i : Fin 3, ([2, 1, 1] : List ℤ).getD i 0 ∣ (0 : Fin 3 → ℤ) i - (cellOf (fun i => ([2, 1, 1] : List ℤ).getD i 0) (0 % 2) i - cellOf (fun i => ([2, 1, 1] : List ℤ).getD i 0) (0 % 2) i) := by decide
      have h2 : ¬ ∀ i : Fin 3, ([2, 1, 1] : List ℤ).getD i 0 ∣ (![1, 0, 0] : Fin 3 → ℤ) i - (cellOf (fun i => ([2, 1, 1] : List ℤ).getD i 0) (0 % 2) i - cellOf (fun i => ([2, 1, 1] : List ℤ).getD i 0) (0 % 2) i) := by decide
      have h3 : ¬ ∀ i : Fin 3, ([2, 1, 1] : List ℤ).getD i 0 ∣ (![-1, 0, 0] : Fin 3 → ℤ) i - (cellOf (fun i => ([2, 1, 1] : List ℤ).getD i 0) (0 % 2) i - cellOf (fun i => ([2, 1, 1] : List ℤ).getD i 0) (0 % 2) i) := by decide
      rw [if_pos h1, if_neg h2, if_neg h3]
      norm_num
    · have h1 : ¬ ∀ i : Fin 3, ([2, 1, 1] : List ℤ).getD i 0 ∣ (0 : Fin 3 → ℤ) i - (cellOf (fun i => ([2, 1, 1] : List ℤ).getD i 0) (1 % 2) i - cellOf (fun i => ([2, 1, 1] : List ℤ).getD i 0) (0 % 2) i) := by decide
      have h2 : ∀ i : Fin 3, ([2, 1, 1] : List ℤ).getD i 0 ∣ (![1, 0, 0] : Fin 3 → ℤ) i - (cellOf (fun i => ([2, 1, 1] : List ℤ).getD i 0) (1 % 2) i - cellOf (fun i => ([2, 1, 1] : List ℤ).getD i 0) (0 % 2) i) := by decide
      have h3 : ∀ i : Fin 3, ([2, 1, 1] : List ℤ).getD i 0 ∣ (![-1, 0, 0] : Fin 3 → ℤ) i - (cellOf (fun i => ([2, 1, 1] : List ℤ).getD i 0) (1 % 2) i - cellOf (fun i => ([2, 1, 1] : List ℤ).getD i 0) (0 % 2) i) := by decide
      rw [if_neg h1, if_pos h2, if_pos h3]
      norm_num
  · have e : stiffSprings 0 x (0 / 2) y = 0 := by
      unfold stiffSprings
      rw [if_neg hxy]
    rw [e, if_neg hxy]
    simp

/-- The sign of the displacement of file number `k + 1`. -/
def sgn (k : ℕ) : ℤ := if k % 2 = 0 then 1 else -1

def tok (z : ℤ) : Str := if z = 1 then "0.04".toList else if z = -1 then "-0.04".toList else "0".toList

def tokOf (k : ℕ) (s : ℤ) (c : ℕ) : Str := tok (if c = k % 6 / 2 then s else 0)

def forceLine (k : ℕ) (s : ℤ) : Str := "v ".toList ++ tokOf k s 0 ++ ' ' :: (tokOf k s 1 ++ ' ' :: (tokOf k s 2 ++ "\n".toList))

/-- The forces on the two atoms: the moved atom is pulled back. -/
def chainText (k : ℕ) : Str := "forces\n".toList ++ forceLine k (-sgn k) ++ forceLine k (sgn k)

def forceVec (k : ℕ) (s : ℤ) : V3 ℚ := fun c => if (c : ℕ) = k % 6 / 2 then s * (1 / 25) else 0

theorem chain_force_file (k : ℕ) (hk : k < 6) : ForceOutput .vasp "vasprun.xml".toList (readlines (chainText k)) [forceVec k (-sgn k), forceVec k (sgn k)] := by
  refine .inl ⟨rfl, ⟨[], "forces\n".toList, [], [forceLine k (-sgn k), forceLine k (sgn k)], [], ?_, by simp, ?_, rfl, ?_⟩⟩
  · revert k; decide +kernel
  · rw [← isInfix_iff]; decide
  · have hsplit : ∀ k < 6, ∀ s ∈ [(1 : ℤ), -1], split (forceLine k s) = [['v']] ++ tokOf k s 0 :: tokOf k s 1 :: tokOf k s 2 :: [] ∧
      parseFloat (tokOf k s 0) = some (forceVec k s 0) ∧ parseFloat (tokOf k s 1) = some (forceVec k s 1) ∧ parseFloat (tokOf k s 2) = some (forceVec k s 2) := by decide +kernel
    have hs : sgn k ∈ [(1 : ℤ), -1] ∧ -sgn k ∈ [(1 : ℤ), -1] := by
      unfold sgn
      split_ifs <;> simp
    refine .cons ?_ (.cons ?_ .nil)
    · obtain ⟨h1, h2, h3, h4⟩ := hsplit k hk _ hs.2
      exact ⟨_, _, _, _, _, h1, rfl, h2, h3, h4⟩
    · obtain ⟨h1, h2, h3, h4⟩ := hsplit k hk _ hs.1
      exact ⟨_, _, _, _, _, h1, rfl, h2, h3, h4⟩

def chainDir (k : ℕ) : Str := "/d".toList ++ [digitChar k]

def chainForce : List Str := (List.range 6).map fun k => chainDir k ++ "/vasprun.xml".toList

def chainK : Str := "list\n2\nReciprocal\n0 0 0\n0.5 0 0\n".toList

/-- Another list of wave vectors, for the density of states. -/
def chainKdos : Str := "list\n1\nReciprocal\n0.5 0 0\n".toList

/-- A mesh of two wave vectors, for the tetrahedron method. -/
def chainMesh : Str := "mesh\n0\nGamma\n2 1 1\n".toList

/-- The files before the post-process. -/
def chainFs2 (fs1 : Fs) : Fs := fun q => match (List.range 6).find? (fun k => decide (q = chainDir k ++ "/POSCAR".toList)) with
  | some k => fs1 (fileName "/w/POSCAR".toList (k + 1))
  | none => match (List.range 6).find? (fun k => decide (q = chainDir k ++ "/vasprun.xml".toList)) with
    | some k => some (chainText k)
    | none => if q = "/w/KPOINTS".toList then some chainK else if q = "/w/KDOS".toList then some chainKdos else
      if q = "/w/KMESH".toList then some chainMesh else fs1 q

theorem chain_calculated {fs1 : Fs} {rec : PreRecord} (search : Run (List (ℕ × List (V3 ℚ)))) (group : Run Str)
    (hpre : preMain "/w".toList chainOpts (fun _ => chainArgs) (fun m => List.replicate m 0) search group chainFs = .ok (fs1, rec)) :
    Calculated .vasp "/w".toList chainOpts.unitcell fs1 (chainFs2 fs1)
      (superSprings (fun i => ([2, 1, 1] : List ℤ).getD i 0) (([2, 1, 1] : List ℤ).getD 0 0 * ([2, 1, 1] : List ℤ).getD 1 0 * ([2, 1, 1] : List ℤ).getD 2 0).toNat stiffSprings)
      (fun _ _ => 0) (6 * ([0] : List ℕ).length) chainForce := by
  have hget : ∀ (k : ℕ) (f : Str), chainForce[k]? = some f → k < 6 ∧ f = chainDir k ++ "/vasprun.xml".toList := by
    intro k f hf
    unfold chainForce at hf
    rw [List.getElem?_map] at hf
    obtain ⟨z, hz, rfl⟩ := Option.map_eq_some_iff.1 hf
    obtain ⟨hz1, hz2⟩ := List.getElem?_eq_some_iff.1 hz
    rw [List.getElem_range] at hz2
    subst hz2
    exact ⟨by simpa using hz1, rfl⟩
  have hother : ∀ q : Str, (List.range 6).find? (fun k => decide (q = chainDir k ++ "/POSCAR".toList)) = none →
      (List.range 6).find? (fun k => decide (q = chainDir k ++ "/vasprun.xml".toList)) = none → q ≠ "/w/KPOINTS".toList → q ≠ "/w/KDOS".toList → q ≠ "/w/KMESH".toList →
      chainFs2 fs1 q = fs1 q := by
    intro q h1 h2 h3 h4 h5
    simp only [chainFs2, h1, h2, if_neg h3, if_neg h4, if_neg h5]
  refine ⟨rfl, hother _ (by decide +kernel) (by decide +kernel) (by decide) (by decide) (by decide), hother _ (by decide +kernel) (by decide +kernel) (by decide) (by decide) (by decide), ?_, ?_⟩
  · intro k f hf
    obtain ⟨hk, rfl⟩ := hget k f hf
    have h1 : ∀ k < 6, dirName (chainDir k ++ "/vasprun.xml".toList) ++ '/' :: chainOpts.unitcell = chainDir k ++ "/POSCAR".toList := by decide +kernel
    have h2 : ∀ k < 6, (List.range 6).find? (fun k' => decide (chainDir k ++ "/POSCAR".toList = chainDir k' ++ "/POSCAR".toList)) = some k := by decide +kernel
    rw [h1 k hk]
    simp only [chainFs2, h2 k hk]
    rfl
  · intro k f hf
    obtain ⟨hk, rfl⟩ := hget k f hf
    have h1 : ∀ k < 6, (List.range 6).find? (fun k' => decide (chainDir k ++ "/vasprun.xml".toList = chainDir k' ++ "/POSCAR".toList)) = none := by decide +kernel
    have h2 : ∀ k < 6, (List.range 6).find? (fun k' => decide (chainDir k ++ "/vasprun.xml".toList = chainDir k' ++ "/vasprun.xml".toList)) = some k := by decide +kernel
    have h3 : ∀ k < 6, baseName (chainDir k ++ "/vasprun.xml".toList) = "vasprun.xml".toList := by decide +kernel
    refine ⟨chainText k, [forceVec k (-sgn k), forceVec k (sgn k)], by simp only [chainFs2, h1 k hk, h2 k hk], by rw [h3 k hk]; exact chain_force_file k hk, ?_⟩
    obtain ⟨sup, hs1, -, hs3, -, hs5⟩ := C118_files chain_preRun
      ⟨fun i j => by show Dec16 (if i = j then 4 else 0); split_ifs; exacts [⟨4 * 10 ^ 16, by norm_num⟩, ⟨0, by norm_num⟩],
        by
          intro v hv j
          have : v = ![1 / 2, 0, 0] := by simpa [chainUnit] using hv
          subst this
          fin_cases j
          · exact ⟨5 * 10 ^ 15, by norm_num⟩
          · exact ⟨0, by norm_num⟩
          · exact ⟨0, by norm_num⟩⟩ ⟨2 * 10 ^ 14, by norm_num⟩ search group hpre
    obtain ⟨dis, v, hd1, -, -, hd4, hd5, hd6⟩ := hs5 k (by simpa using hk)
    intro sup' dis' hsup' hdis'
    have e1 := hs1.unique hsup'
    have e2 := hd1.unique hdis'
    subst e1 e2
    have hrow : (([2, 1, 1] : List ℤ).getD 0 0 * ([2, 1, 1] : List ℤ).getD 1 0 * ([2, 1, 1] : List ℤ).getD 2 0).toNat * ([0] : List ℕ).getD (k / 6) 0 = 0 := by
      rw [show k / 6 = 0 by omega]; rfl
    rw [hrow] at hd4 hd5 hd6
    have hlen : sup.cart.length = 2 := hs3
    refine ⟨hlen.symm, ?_⟩
    rw [hlen]
    intro a ha c
    have hE : (([2, 1, 1] : List ℤ).getD 0 0 * ([2, 1, 1] : List ℤ).getD 1 0 * ([2, 1, 1] : List ℤ).getD 2 0).toNat = 2 := rfl
    rw [hE]
    have hdiff0 : ∀ y : Fin 3, (toR dis).cart.getD 0 0 y - (toR sup).cart.getD 0 0 y = if (y : ℕ) = k % 6 / 2 then (sgn k : ℝ) * (1 / 50) else 0 := by
      intro y
      simp only [toR, List.getD_eq_getElem?_getD, List.getElem?_map, hd5, hd6, Option.map_some, Option.getD_some, toReal, sgn]
      split_ifs <;> simp
    have hdiff1 : ∀ y : Fin 3, (toR dis).cart.getD 1 0 y - (toR sup).cart.getD 1 0 y = 0 := by
      intro y
      simp only [toR, List.getD_eq_getElem?_getD, List.getElem?_map, hd4 1 (by decide), sub_self]
    have hlenR : (toR sup).cart.length = 2 := by simp [toR, hlen]
    unfold harmonicForces
    rw [hlenR, Finset.sum_range_succ, Finset.sum_range_one]
    simp only [hdiff0, hdiff1, zero_mul, mul_zero, Finset.sum_const_zero, add_zero]
    simp only [stiff_super a ha]
    have hsum : (∑ y : Fin 3, (if c = y then (if a = 0 then (3204 / 100 : ℝ) else -(3204 / 100)) else 0) * ((if (y : ℕ) = k % 6 / 2 then (sgn k : ℝ) * (1 / 50) else 0) * (1 / 10 ^ 10))) =
        (if a = 0 then (3204 / 100 : ℝ) else -(3204 / 100)) * ((if (c : ℕ) = k % 6 / 2 then (sgn k : ℝ) * (1 / 50) else 0) * (1 / 10 ^ 10)) := by
      rw [Finset.sum_eq_single c]
      · rw [if_pos rfl]
      · intro b _ hb
        rw [if_neg (Ne.symm hb), zero_mul]
      · simp
    rw [hsum]
    interval_cases a
    · show (((if (c : ℕ) = k % 6 / 2 then ((-sgn k : ℤ) : ℚ) * (1 / 25) else 0) * (1602 / 10 ^ 12) : ℚ) : ℝ) = _
      rw [if_pos (rfl : (0 : ℕ) = 0)]
      split_ifs <;> push_cast <;> ring
    · show (((if (c : ℕ) = k % 6 / 2 then ((sgn k : ℤ) : ℚ) * (1 / 25) else 0) * (1602 / 10 ^ 12) : ℚ) : ℝ) = _
      rw [if_neg (one_ne_zero : (1 : ℕ) ≠ 0)]
      split_ifs <;> push_cast <;> ring

/-- All hypotheses of `C118_end_to_end` are met by the chain: the band program returns the exact frequencies at the listed wave vector `(1/2, 0, 0)`. -/
example (search : Run (List (ℕ × List (V3 ℚ)))) (group : Run Str) {S : Solver} (hS : IsSolver S) (j : Junk) :
    ∃ fs1 rec obj rows mass, preMain "/w".toList chainOpts (fun _ => chainArgs) (fun m => List.replicate m 0) search group chainFs = .ok (fs1, rec) ∧
      bandMain S j "/w".toList {} rec (fun _ => []) chainForce "KPOINTS".toList search (chainFs2 fs1) = .ok (obj, rows) ∧ rows.length = 2 ∧
      ∃ len row q, rows[1]? = some (len, row) ∧ (∀ c, dot3 q ((toR chainUnit).lattice c) = 2 * Real.pi * (((![1 / 2, 0, 0] : V3 ℚ) c : ℚ) : ℝ)) ∧
        IsSpectrum (trueDyn (toR chainUnit) [0] mass stiffSprings q 3) row := by
  obtain ⟨fs1, rec, h1, h2⟩ := C118_end_to_end chain_preRun (by norm_num) (by
      rw [Matrix.det_fin_three]
      simp [chainUnit]) rfl
    ⟨fun i j => by show Dec16 (if i = j then 4 else 0); split_ifs; exacts [⟨4 * 10 ^ 16, by norm_num⟩, ⟨0, by norm_num⟩],
        by
          intro v hv j
          have : v = ![1 / 2, 0, 0] := by simpa [chainUnit] using hv
          subst this
          fin_cases j
          · exact ⟨5 * 10 ^ 15, by norm_num⟩
          · exact ⟨0, by norm_num⟩
          · exact ⟨0, by norm_num⟩⟩ ⟨2 * 10 ^ 14, by norm_num⟩ stiffSprings stiff_range (fun _ _ => 0) search group hS j
  obtain ⟨obj, rows, mass, h3, -, h4, h5⟩ := h2 (chainFs2 fs1) (fun _ => []) chainForce chainForce rfl (chain_calculated search group h1) "KPOINTS".toList chainK
    [![0, 0, 0], ![1 / 2, 0, 0]] [] (by
      have e1 : (List.range 6).find? (fun k => decide (absPath "/w".toList "KPOINTS".toList = chainDir k ++ "/POSCAR".toList)) = none := by decide +kernel
      have e2 : (List.range 6).find? (fun k => decide (absPath "/w".toList "KPOINTS".toList = chainDir k ++ "/vasprun.xml".toList)) = none := by decide +kernel
      simp only [chainFs2, e1, e2]
      rfl) (by decide +kernel) (by decide)
  refine ⟨fs1, rec, obj, rows, mass, h1, h3, h4, ?_⟩
  obtain ⟨len, row, q, a1, a2, a3⟩ := h5 1 _ rfl (by
    intro i hi
    fin_cases i
    · exact ⟨1, by simp [toReal]⟩
    · simp at hi
    · simp at hi)
  exact ⟨len, row, q, a1, a2, a3⟩

/-! ### C119 -/

private theorem bind_ok {α β : Type} {x : Run α} {f : α → Run β} {b : β} (h : (x >>= f) = .ok b) : ∃ a, x = .ok a ∧ f a = .ok b := by
  cases x with
  | error e => cases h
  | ok a => exact ⟨a, rfl, h⟩

theorem writeTo_frame {fs fs' : Fs} {code path : Str} {x : FileArgs} {c : Cell ℚ} (h : writeTo fs code x path c = .ok fs') (q : Str) (hq : q ≠ path) : fs' q = fs q := by
  unfold writeTo at h
  split_ifs at h
  · split at h
    · cases h
    · cases h; exact put_other _ _ hq
  · split at h
    · cases h
    · cases h; exact put_other _ _ hq
  · split at h
    · cases h
    · cases h; exact put_other _ _ hq
  · cases h; rfl

theorem writeAll_frame {code : Str} {x : ℕ → FileArgs} {out : Str} {files : List (ℕ × Cell ℚ)} {fs fs' : Fs} (h : writeAll code x out fs files = .ok fs') (q : Str)
    (hq : ∀ k, q ≠ fileName out k) : fs' q = fs q := by
  induction files generalizing fs with
  | nil => cases h; rfl
  | cons f rest ih =>
    rw [writeAll] at h
    split at h
    · cases h
    · rename_i fs1 h1
      rw [ih h, writeTo_frame h1 q (hq f.1)]

/-- **C119 (frame).**  Whatever the options, the files and the outcome of the symmetry search: a pre-process that ends without an exception changes no file other
than SUPERCELL in the directory of the unit cell, and the files whose names are that of the unit cell followed by a number. -/
theorem C119_only_output_files (cwd : Str) (o : PreOpts) (x : ℕ → FileArgs) (junk : ℕ → List (V3 ℚ)) (search : Run (List (ℕ × List (V3 ℚ)))) (group : Run Str)
    (fs fs1 : Fs) (rec : PreRecord) (h : preMain cwd o x junk search group fs = .ok (fs1, rec)) (q : Str)
    (h1 : q ≠ dirName (absPath cwd o.unitcell) ++ '/' :: "SUPERCELL".toList) (h2 : ∀ k, q ≠ fileName (absPath cwd o.unitcell) k) : fs1 q = fs q := by
  unfold preMain at h
  obtain ⟨_, -, h⟩ := bind_ok h
  obtain ⟨_, -, h⟩ := bind_ok h
  obtain ⟨_, -, h⟩ := bind_ok h
  obtain ⟨_, -, h⟩ := bind_ok h
  obtain ⟨_, -, h⟩ := bind_ok h
  obtain ⟨_, -, h⟩ := bind_ok h
  obtain ⟨fa, hfa, h⟩ := bind_ok h
  obtain ⟨_, -, h⟩ := bind_ok h
  obtain ⟨_, -, h⟩ := bind_ok h
  obtain ⟨_, -, h⟩ := bind_ok h
  obtain ⟨_, -, h⟩ := bind_ok h
  obtain ⟨fb, hfb, h⟩ := bind_ok h
  obtain ⟨_, -, h⟩ := bind_ok h
  cases h
  rw [writeAll_frame hfb q h2, writeTo_frame hfa q h1]

/-- **C119, full statement**: the pre-process leaves the unit-cell file as it was. -/
def C119_full : Prop := ∀ (cwd : Str) (o : PreOpts) (x : ℕ → FileArgs) (junk : ℕ → List (V3 ℚ)) (search : Run (List (ℕ × List (V3 ℚ)))) (group : Run Str)
    (fs fs1 : Fs) (rec : PreRecord), preMain cwd o x junk search group fs = .ok (fs1, rec) → fs1 (absPath cwd o.unitcell) = fs (absPath cwd o.unitcell)

/-- **C119 (partial).**  It does so if the unit-cell file is not called SUPERCELL. -/
theorem C119_unit_cell_kept_partial (cwd : Str) (o : PreOpts) (x : ℕ → FileArgs) (junk : ℕ → List (V3 ℚ)) (search : Run (List (ℕ × List (V3 ℚ)))) (group : Run Str)
    (fs fs1 : Fs) (rec : PreRecord) (h : preMain cwd o x junk search group fs = .ok (fs1, rec)) (hn : baseName (absPath cwd o.unitcell) ≠ "SUPERCELL".toList) :
    fs1 (absPath cwd o.unitcell) = fs (absPath cwd o.unitcell) := by
  refine C119_only_output_files cwd o x junk search group fs fs1 rec h _ ?_ fun k => (file_ne_unit _ k).symm
  intro e
  apply hn
  rw [e]
  unfold baseName
  have e1 : (dirName (absPath cwd o.unitcell) ++ '/' :: "SUPERCELL".toList).reverse = "SUPERCELL".toList.reverse ++ '/' :: (dirName (absPath cwd o.unitcell)).reverse := by simp
  rw [e1, List.takeWhile_append_of_pos (by decide)]
  simp

/-- **C119 (refuted).**  A unit cell of one atom called SUPERCELL is replaced by its super cell of two atoms, without a warning. -/
theorem C119_overwritten_refuted : ¬ C119_full := by
  intro hf
  have key : (match preMain "/w".toList { chainOpts with unitcell := "SUPERCELL".toList } (fun _ => chainArgs) (fun m => List.replicate m 0) (.ok []) (.ok [])
      (fun q => if q = "/w/SUPERCELL".toList then some chainPoscar else none) with
    | .ok r => (r.1 "/w/SUPERCELL".toList).map fun t => (readCell {} .vasp t).1.numAtom
    | .error _ => none) = some (some [2]) := by decide +kernel
  split at key
  · rename_i r hr
    have := hf _ _ _ _ _ _ _ r.1 r.2 hr
    have e : absPath "/w".toList "SUPERCELL".toList = "/w/SUPERCELL".toList := by decide
    simp only [e, if_true] at this
    rw [this] at key
    exact absurd key (by decide +kernel)
  · cases key

end Interphon.Props
