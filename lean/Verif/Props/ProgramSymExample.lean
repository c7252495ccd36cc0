import Verif.Props.ProgramSym
import Verif.Props.ProgramExample

/-!
# C130: the hypotheses are met

A search result with rational directions and output files of the first-principles code exist for every crystal; one crystal in full.
-/

namespace Interphon.Props
open Py Interphon Interphon.UnitCell Interphon.Symmetry Interphon.SymPlan Interphon.SuperCell Interphon.ForceConstant Interphon.PreProcess
  Interphon.Phonon Interphon.PostProcess Interphon.Main Interphon.Args Interphon.Cli Interphon.Inout

/-! ### Rational directions -/

theorem rational_near {ε : ℝ} (hε : 0 < ε) (w : V3 ℝ) : ∃ v : V3 ℚ, ∀ c, |(v c : ℝ) - w c| ≤ ε := by
  have : ∀ c, ∃ q : ℚ, |(q : ℝ) - w c| ≤ ε := by
    intro c
    obtain ⟨q, hq⟩ := Rat.denseRange_cast.exists_dist_lt (w c) hε
    rw [Real.dist_eq, abs_sub_comm] at hq
    exact ⟨q, hq.le⟩
  choose v hv using this
  exact ⟨v, hv⟩

theorem choose_list {α β : Type*} {P : α → β → Prop} (h : ∀ b, ∃ a, P a b) (l : List β) : ∃ l', List.Forall₂ P l' l := by
  choose f hf using h
  refine ⟨l.map f, ?_⟩
  rw [List.forall₂_map_left_iff]
  exact List.forall₂_same.2 fun b _ => hf b

/-- For every crystal there are rational directions as near to those of the search as one likes. -/
theorem near_search_exists {ε : ℝ} (hε : 0 < ε) {u s : Cell ℝ} {sel : List ℕ} {n : Fin 3 → ℤ} (h : ExactCrystal u s sel n) :
    ∃ plan, NearSearch ε u s sel (numImages n) plan := by
  obtain ⟨req, der, -, -, -, hp, -⟩ := C86_symmetry_end_to_end_partial h (Φ := fun _ _ _ _ => 0) (by intro Q τ σ hQ t ht t' ht'; ext; simp [blk, Matrix.mul_apply]) (fun _ _ => 0)
    (d := 1) one_ne_zero (fun _ _ _ => 0) 0
  obtain ⟨plan, hpl⟩ := choose_list (P := fun (q : ℕ × List (V3 ℚ)) (r : ReqAtom ℝ) => q.1 = numImages n * sel.getD r.idx 0 ∧
    List.Forall₂ (fun (v : V3 ℚ) (w : V3 ℝ) => ∀ c, |(v c : ℝ) - w c| ≤ ε) q.2 (calcDirs r)) (fun r => by
      obtain ⟨l, hl⟩ := choose_list (rational_near hε) (calcDirs r)
      exact ⟨(_, l), rfl, hl⟩) req
  exact ⟨plan, req, der, hp, hpl⟩

/-! ### Output files -/

def outDir (k : ℕ) : Str := "/f".toList ++ List.replicate k 'x'

def outPath (k : ℕ) : Str := outDir k ++ '/' :: "vasprun.xml".toList

def outLine (v : V3 ℚ) : Str := "v ".toList ++ (row v ++ ['\n'])

/-- A file with the forces `g`, sixteen decimals each. -/
def outText (g : List (V3 ℚ)) : Str := (("forces\n".toList) :: g.map outLine).flatten

theorem out_output (g : List (V3 ℚ)) : ForceOutput .vasp "vasprun.xml".toList (readlines (outText g)) (g.map fun v c => rndDec 16 (v c)) := by
  have hl : readlines (outText g) = ("forces\n".toList) :: g.map outLine := by
    refine readlines_flatten ?_
    intro l hl
    rcases List.mem_cons.1 hl with rfl | hl
    · exact ⟨"forces".toList, by decide, rfl⟩
    · obtain ⟨v, -, rfl⟩ := List.mem_map.1 hl
      refine ⟨"v ".toList ++ row v, ?_, by simp [outLine]⟩
      rw [List.mem_append, not_or]
      exact ⟨by decide, row_not_mem (by decide) (by decide) (by decide) (by decide) v⟩
  rw [hl]
  refine .inl ⟨rfl, ⟨[], "forces\n".toList, [], g.map outLine, [], by rw [List.append_nil]; rfl, by simp, ?_, rfl, ?_⟩⟩
  · rw [← isInfix_iff]; decide
  · rw [List.forall₂_map_left_iff, List.forall₂_map_right_iff]
    refine List.forall₂_same.2 fun v _ => ?_
    refine ⟨[['v']], fmtFixed 16 (v 0), fmtFixed 16 (v 1), fmtFixed 16 (v 2), [], ?_, rfl, parseFloat_fmtFixed _ _, parseFloat_fmtFixed _ _, parseFloat_fmtFixed _ _⟩
    show split (['v'] ++ ' ' :: (row v ++ '\n' :: [])) = _
    rw [split_token_ws (by simp [IsToken]; decide) (by decide), split_row v (by decide)]
    rfl

theorem dir_base (d l : Str) (hl : '/' ∉ l) : dirName (d ++ '/' :: l) = d ∧ baseName (d ++ '/' :: l) = l := by
  have e : (d ++ '/' :: l).reverse = l.reverse ++ '/' :: d.reverse := by simp
  have hp : ∀ y ∈ l.reverse, (decide (y ≠ '/')) = true := by
    intro y hy
    have : y ≠ '/' := by rintro rfl; exact hl (by simpa using hy)
    simpa using this
  constructor
  · unfold dirName
    rw [e, List.dropWhile_append_of_pos hp, List.dropWhile_cons_of_neg (by simp)]
    simp
  · unfold baseName
    rw [e, List.takeWhile_append_of_pos hp, List.takeWhile_cons_of_neg (by simp)]
    simp

theorem outDir_inj {k k' : ℕ} {l l' : Str} (h : outDir k ++ '/' :: l = outDir k' ++ '/' :: l') (hl : '/' ∉ l) (hl' : '/' ∉ l') : k = k' ∧ l = l' := by
  have h1 := (dir_base (outDir k) _ hl).1
  have h2 := (dir_base (outDir k) _ hl).2
  rw [h] at h1 h2
  rw [(dir_base _ _ hl').1] at h1
  rw [(dir_base _ _ hl').2] at h2
  refine ⟨?_, h2.symm⟩
  have := congrArg List.length h1
  simp [outDir] at this
  exact this.symm

open Classical in
/-- The files of the post-process: a copy of every displaced super cell and an output file beside it, and a k-point file. -/
noncomputable def outFs (fs1 : Fs) (g : ℕ → List (V3 ℚ)) (kpts : Str) : Fs := fun q =>
  if h : ∃ k, q = outDir k ++ '/' :: "POSCAR".toList then fs1 (fileName "/w/POSCAR".toList (h.choose + 1))
  else if h : ∃ k, q = outPath k then some (outText (g h.choose))
  else if q = "/w/KPOINTS".toList then some kpts else fs1 q

theorem outFs_copy (fs1 : Fs) (g : ℕ → List (V3 ℚ)) (kpts : Str) (k : ℕ) : outFs fs1 g kpts (outDir k ++ '/' :: "POSCAR".toList) = fs1 (fileName "/w/POSCAR".toList (k + 1)) := by
  have h : ∃ k', outDir k ++ '/' :: "POSCAR".toList = outDir k' ++ '/' :: "POSCAR".toList := ⟨k, rfl⟩
  have e : h.choose = k := (outDir_inj h.choose_spec (by decide) (by decide)).1.symm
  simp only [outFs]
  rw [dif_pos h, e]

theorem outFs_output (fs1 : Fs) (g : ℕ → List (V3 ℚ)) (kpts : Str) (k : ℕ) : outFs fs1 g kpts (outPath k) = some (outText (g k)) := by
  have h0 : ¬ ∃ k', outPath k = outDir k' ++ '/' :: "POSCAR".toList := by
    rintro ⟨k', h⟩
    have := (outDir_inj h (by decide) (by decide)).2
    revert this
    decide
  have h : ∃ k', outPath k = outPath k' := ⟨k, rfl⟩
  have e : h.choose = k := (outDir_inj h.choose_spec (by decide) (by decide)).1.symm
  simp only [outFs]
  rw [dif_neg h0, dif_pos h, e]

theorem outFs_other (fs1 : Fs) (g : ℕ → List (V3 ℚ)) (kpts l : Str) : outFs fs1 g kpts ("/w".toList ++ l) = if "/w".toList ++ l = "/w/KPOINTS".toList then some kpts else fs1 ("/w".toList ++ l) := by
  have hne : ∀ (k : ℕ) (l' : Str), "/w".toList ++ l ≠ outDir k ++ l' := by
    intro k l' h
    have h1 := congrArg (fun z : Str => z[1]?) h
    simp [outDir] at h1
  simp only [outFs]
  rw [dif_neg (by rintro ⟨k, h⟩; exact hne k _ h), dif_neg (by rintro ⟨k, h⟩; exact hne k _ h)]

/-- Whatever the springs: output files with the forces of the harmonic crystal, rounded to sixteen decimals, can be made for every list of displaced super cells. -/
theorem outputs_exist (fs1 : Fs) (kpts : Str) (Ψ : ℕ → Fin 3 → ℕ → Fin 3 → ℝ) (F0 : Rows ℝ) (count : ℕ) : ∃ fs2, fs2 "/w/KPOINTS".toList = some kpts ∧
    CalculatedWithin (1 / 10 ^ 20) .vasp "/w".toList "POSCAR".toList fs1 fs2 Ψ F0 count ((List.range count).map outPath) := by
  classical
  have hex : ∀ k, ∃ g : List (V3 ℚ), ∀ sup dis, Holds fs1 .vasp ("/w".toList ++ '/' :: "SUPERCELL".toList) sup → Holds fs1 .vasp (fileName ("/w".toList ++ '/' :: "POSCAR".toList) (k + 1)) dis →
      g.length = sup.cart.length ∧ ∀ a < sup.cart.length, ∀ c : Fin 3,
        |((rndDec 16 (g.getD a 0 c) * Code.unit .vasp : ℚ) : ℝ) - harmonicForces Ψ F0 (toR sup) (toR dis) a c| ≤ 1 / 10 ^ 20 := by
    intro k
    by_cases hh : ∃ sup dis, Holds fs1 .vasp ("/w".toList ++ '/' :: "SUPERCELL".toList) sup ∧ Holds fs1 .vasp (fileName ("/w".toList ++ '/' :: "POSCAR".toList) (k + 1)) dis
    · obtain ⟨sup, dis, h1, h2⟩ := hh
      have hr : ∀ a : ℕ, ∃ v : V3 ℚ, ∀ c, |(v c : ℝ) - harmonicForces Ψ F0 (toR sup) (toR dis) a c / (1602 / 10 ^ 12)| ≤ 1 / 10 ^ 12 := fun a =>
        rational_near (by positivity) fun c => harmonicForces Ψ F0 (toR sup) (toR dis) a c / (1602 / 10 ^ 12)
      choose v hv using hr
      refine ⟨(List.range sup.cart.length).map v, ?_⟩
      intro sup' dis' h1' h2'
      have e1 := h1.unique h1'
      have e2 := h2.unique h2'
      subst e1 e2
      refine ⟨by simp, ?_⟩
      intro a ha c
      have e3 : ((List.range sup.cart.length).map v).getD a 0 c = v a c := by
        rw [List.getD_eq_getElem _ _ (by simpa using ha)]
        simp
      rw [e3]
      have h3 : |((rndDec 16 (v a c) : ℚ) : ℝ) - (v a c : ℝ)| ≤ 1 / 2 / 10 ^ 16 := by
        have := (Rat.cast_le (K := ℝ)).2 (C57_rounding_error (v a c))
        rw [Rat.cast_abs] at this
        push_cast at this
        exact this
      have h4 := hv a c
      set H := harmonicForces Ψ F0 (toR sup) (toR dis) a c
      have e4 : ((rndDec 16 (v a c) * Code.unit .vasp : ℚ) : ℝ) - H = (((rndDec 16 (v a c) : ℚ) : ℝ) - (v a c : ℝ) + ((v a c : ℝ) - H / (1602 / 10 ^ 12))) * (1602 / 10 ^ 12) := by
        have : ((Code.unit .vasp : ℚ) : ℝ) = 1602 / 10 ^ 12 := by
          show (((1602 / 10 ^ 12 : ℚ)) : ℝ) = _
          push_cast
          rfl
        push_cast
        rw [this]
        ring
      rw [e4, abs_mul, abs_of_pos (show (0 : ℝ) < 1602 / 10 ^ 12 by positivity)]
      have h5 := (abs_add_le (((rndDec 16 (v a c) : ℚ) : ℝ) - (v a c : ℝ)) ((v a c : ℝ) - H / (1602 / 10 ^ 12))).trans (add_le_add h3 h4)
      refine (mul_le_mul_of_nonneg_right h5 (by positivity)).trans ?_
      norm_num
    · exact ⟨[], fun sup dis h1 h2 => absurd ⟨sup, dis, h1, h2⟩ hh⟩
  choose g hg using hex
  refine ⟨outFs fs1 g kpts, ?_, ?_, ?_, ?_, ?_, ?_⟩
  · have := outFs_other fs1 g kpts "/KPOINTS".toList
    rw [if_pos (by decide)] at this
    exact this
  · simp
  · have := outFs_other fs1 g kpts "/POSCAR".toList
    rw [if_neg (by decide)] at this
    exact this
  · have := outFs_other fs1 g kpts "/SUPERCELL".toList
    rw [if_neg (by decide)] at this
    exact this
  · intro k f hf
    rw [List.getElem?_map] at hf
    obtain ⟨z, hz, rfl⟩ := Option.map_eq_some_iff.1 hf
    obtain ⟨hz1, hz2⟩ := List.getElem?_eq_some_iff.1 hz
    rw [List.getElem_range] at hz2
    subst hz2
    rw [outPath, (dir_base _ _ (by decide)).1, outFs_copy]
    rfl
  · intro k f hf
    rw [List.getElem?_map] at hf
    obtain ⟨z, hz, rfl⟩ := Option.map_eq_some_iff.1 hf
    obtain ⟨hz1, hz2⟩ := List.getElem?_eq_some_iff.1 hz
    rw [List.getElem_range] at hz2
    subst hz2
    refine ⟨_, (g k).map fun v c => rndDec 16 (v c), outFs_output fs1 g kpts k, ?_, ?_⟩
    · rw [outPath, (dir_base _ _ (by decide)).2]
      exact out_output (g k)
    · intro sup dis h1 h2
      obtain ⟨e1, e2⟩ := hg k sup dis h1 h2
      refine ⟨by rw [List.length_map, e1], fun a ha c => ?_⟩
      have e3 : ((g k).map fun (v : V3 ℚ) (c : Fin 3) => rndDec 16 (v c)).getD a 0 c = rndDec 16 ((g k).getD a 0 c) := by
        rw [List.getD_eq_getElem _ _ (by rw [List.length_map, e1]; exact ha), List.getD_eq_getElem _ _ (by rw [e1]; exact ha), List.getElem_map]
      rw [e3]
      exact e2 a ha c

/-! ### The rectangular crystal -/

def rectPoscar : Str := "rectangle\n1.0\n3 0 0\n0 4 0\n0 0 20\nC\n2\nCartesian\n0.6 0 1\n-0.6 0 1\n".toList

def rectUnit : Cell ℚ where
  lattice := fun i j => if i = j then (if i = 0 then 3 else if i = 1 then 4 else 20) else 0
  atomType := ["C".toList, "C".toList]
  numAtom := [2]
  selective := false
  coordinate := .cartesian
  cart := [![3 / 5, 0, 1], ![-3 / 5, 0, 1]]
  atomTrue := some [0, 1]
  xyzTrue := some [0, 0, 0, 1, 1, 1]

def rectOpts : PreOpts := { enlargement := "2 1 1".toList, periodicity := "1 1 0".toList, sym := true }

def rectFs : Fs := fun q => if q = "/w/POSCAR".toList then some rectPoscar else none

theorem rect_baseRun : BaseRun "/w".toList rectOpts .vasp ⟨some (1 / 50), some [2, 1, 1], some [1, 1, 0]⟩ [2, 1, 1] [1, 1, 0] (1 / 50) rectUnit [0, 1] (fun _ => chainArgs)
    (fun m => List.replicate m 0) rectFs where
  code := rfl
  args := by decide +kernel
  enlargement := rfl
  periodicity := rfl
  displacement := rfl
  positive := by decide
  slash := by decide
  name := by decide
  read := by
    refine ⟨(readFile rectFs rectOpts.dft (absPath "/w".toList rectOpts.unitcell)).1, Prod.ext rfl (by decide +kernel), ?_⟩
    refine ⟨?_, ?_, ?_, ?_, ?_, ?_, ?_, ?_⟩ <;> decide +kernel
  unit := {
    groups := ⟨[("C".toList, 2)], ⟨by simp, by decide, by simp [IsToken]; decide, rfl, rfl, rfl⟩⟩
    names := by
      intro t ht
      have : t = "C".toList := by
        change t ∈ ["C".toList, "C".toList] at ht
        generalize "C".toList = z at ht ⊢
        simpa using ht
      subst this
      exact ⟨6, by decide, _, rfl, "C".toList, by decide +kernel, rfl⟩
    selected := rfl
    sorted := by simp
    bound := by decide }
  files := fun _ => {
    comment := by decide
    species := fun t => by
      show t ∈ ["C".toList] ↔ t ∈ ["C".toList, "C".toList]
      generalize "C".toList = z
      simp
    weight := by
      intro t y hy
      have : ∀ z ∈ "12".toList, z ∈ (List.range 10).map digitChar := by decide +kernel
      obtain ⟨n, -, e⟩ := List.mem_map.1 (this y hy)
      exact .inl ⟨n, e.symm⟩ }
  junk := by simp

theorem rect_toR : toR rectUnit = rectCell := by
  have e1 : (toR rectUnit).lattice = rectCell.lattice := by
    ext i j
    fin_cases i <;> fin_cases j <;> simp [toR, rectUnit, rectCell]
  have e2 : (toR rectUnit).cart = rectCell.cart := by
    have h : ∀ v : V3 ℚ, toReal v = ![(v 0 : ℝ), v 1, v 2] := by
      intro v; funext c; fin_cases c <;> rfl
    show [toReal ![3 / 5, 0, 1], toReal ![-3 / 5, 0, 1]] = [![3 / 5, 0, 1], ![-3 / 5, 0, 1]]
    rw [h, h]
    have a1 : (![3 / 5, 0, 1] : V3 ℚ) 2 = 1 := rfl
    have a2 : (![-3 / 5, 0, 1] : V3 ℚ) 2 = 1 := rfl
    rw [a1, a2]
    norm_num
  have e3 : toR rectUnit = { rectCell with lattice := (toR rectUnit).lattice, cart := (toR rectUnit).cart } := rfl
  rw [e3, e1, e2]

theorem rect_dec : DecCell rectUnit := by
  refine ⟨fun i j => ?_, fun v hv j => ?_⟩
  · show Dec16 (if i = j then (if i = 0 then 3 else if i = 1 then 4 else 20) else 0)
    split_ifs
    exacts [⟨3 * 10 ^ 16, by norm_num⟩, ⟨4 * 10 ^ 16, by norm_num⟩, ⟨20 * 10 ^ 16, by norm_num⟩, ⟨0, by norm_num⟩]
  · have : v = ![3 / 5, 0, 1] ∨ v = ![-3 / 5, 0, 1] := by simpa [rectUnit] using hv
    rcases this with rfl | rfl <;> fin_cases j
    exacts [⟨6 * 10 ^ 15, by norm_num⟩, ⟨0, by norm_num⟩, ⟨10 ^ 16, by norm_num⟩, ⟨-6 * 10 ^ 15, by norm_num⟩, ⟨0, by norm_num⟩, ⟨10 ^ 16, by norm_num⟩]

theorem rectSprings_symmetric : SymmetricSprings rectSprings := by
  intro a x b y l
  unfold rectSprings
  by_cases hxy : x = y
  · rw [if_pos hxy, if_pos hxy.symm]
    have h1 : ∀ l : Fin 3 → ℤ, (0 = -l) ↔ (0 = l) := fun l => by constructor <;> intro h <;> · rw [eq_comm, neg_eq_zero] at * <;> simp_all
    have h2 : ∀ l : Fin 3 → ℤ, (![1, 0, 0] = -l) ↔ (![-1, 0, 0] = l) := fun l => by
      rw [← neg_eq_iff_eq_neg]
      have : -(![1, 0, 0] : Fin 3 → ℤ) = ![-1, 0, 0] := by decide
      rw [this]
    have h3 : ∀ l : Fin 3 → ℤ, (![-1, 0, 0] = -l) ↔ (![1, 0, 0] = l) := fun l => by
      rw [← neg_eq_iff_eq_neg]
      have : -(![-1, 0, 0] : Fin 3 → ℤ) = ![1, 0, 0] := by decide
      rw [this]
    simp only [Finsupp.add_apply, Finsupp.single_apply, h1, h2, h3, eq_comm (a := a) (b := b)]
    ring
  · rw [if_neg hxy, if_neg (Ne.symm hxy)]
    rfl

/-- The search asks for at least one displacement: otherwise the force constants would not depend on the springs. -/
theorem plan_nonempty {s : Cell ℝ} (hs : IsSuperOf rectCell s [0, 1] ![2, 1, 1] ![1, 1, 0]) {ε : ℝ} {plan : List (ℕ × List (V3 ℚ))}
    (h : NearSearch ε rectCell s [0, 1] (numImages ![2, 1, 1]) plan) : 0 < (plan.map fun q => q.2.length).sum := by
  by_contra h0
  have hcr := symmorphic_exact (rect_crystal hs)
  obtain ⟨req, der, hp, hpl⟩ := h
  have hsum : ((req.map fun q => (numImages ![2, 1, 1] * ([0, 1] : List ℕ).getD q.idx 0, calcDirs q)).map fun q => q.2.length).sum = (plan.map fun q => q.2.length).sum := by
    clear hp h0
    induction hpl with
    | nil => rfl
    | cons h1 _ ih =>
      simp only [List.map_cons, List.sum_cons]
      rw [ih, h1.2.length_eq]
  have hlen : s.cart.length = 4 := by
    obtain ⟨junk, s0, hg, e1, e2⟩ := hs.made
    obtain ⟨s0', e1', hl, -⟩ := C06_supercell_positions hg
    rw [e1] at e1'; cases e1'
    unfold setSuperIndTrue at e2
    simp only [hs.selected] at e2
    cases e2
    exact hl
  have hN : superN s = 4 := by
    obtain ⟨-, -, ⟨at', hat, hatl, -⟩, -⟩ := super_selected hs
    rw [superN, hat]
    simpa [numImages] using hatl
  have key : ∀ Φ, Symmetric s Φ → ∃ fc, setSym 1 (superRow s) (fun _ _ _ => 0) 0 req der [] = .ok fc ∧
      fc (3 * superRow s 0 + ((0 : Fin 3) : ℕ)) (3 * 0 + ((0 : Fin 3) : ℕ)) = Φ (superRow s 0) 0 (numImages ![2, 1, 1] * ([0, 1] : List ℕ).getD 0 0) 0 := by
    intro Φ hΦ
    obtain ⟨req', der', s', files, fc, e1, e2, e3, e4⟩ := C86_symmetry_end_to_end_partial hcr hΦ (fun _ _ => 0) (d := 1) one_ne_zero (fun _ _ _ => 0) 0
    rw [hp] at e1; cases e1
    obtain ⟨s2, files2, f1, f2, -⟩ := C15_displaced_files_sym s [0, 1] (numImages ![2, 1, 1]) 1 ![1, 1, 0] (by decide) (req.map fun q => (numImages ![2, 1, 1] * ([0, 1] : List ℕ).getD q.idx 0, calcDirs q)) (by
      intro q hq
      obtain ⟨r, -, rfl⟩ := List.mem_map.1 hq
      rw [hlen]
      have h1 : ([0, 1] : List ℕ).getD r.idx 0 ≤ 1 := by
        rcases r.idx with _ | _ | m <;> simp
      have h2 : numImages ![2, 1, 1] = 2 := by decide
      show numImages ![2, 1, 1] * ([0, 1] : List ℕ).getD r.idx 0 < 4
      rw [h2]
      omega)
    rw [e2] at f1; cases f1
    have hf : files = [] := by
      apply List.eq_nil_of_length_eq_zero
      rw [f2, hsum]
      omega
    subst hf
    exact ⟨fc, e3, e4 0 (by simp) 0 (by rw [hN]; omega) 0 0⟩
  obtain ⟨fc1, a1, a2⟩ := key (fun _ _ _ _ => 0) (by intro Q τ σ hQ t ht t' ht'; ext; simp [blk, Matrix.mul_apply])
  obtain ⟨fc2, b1, b2⟩ := key (fun r x r' y => if x = y then (if r = r' then 3 else -1) else 0) (rect_symmetric hs fun t _ t' _ x y => rfl)
  rw [a1] at b1; cases b1
  rw [a2] at b2
  rw [if_pos rfl] at b2
  split_ifs at b2 <;> norm_num at b2

/-- All hypotheses of `C130_end_to_end_partial` are met by the rectangular crystal, with rational directions as good as one likes and output files with sixteen decimals. -/
example {S : Solver} (hS : IsSolver S) (j : Junk) {ε : ℝ} (hε : 0 < ε) : ∃ (K : ℝ) (plan : List (ℕ × List (V3 ℚ))) (fs1 fs2 : Fs) (rec : PreRecord) (force : List Str) (obj : Object)
    (rows : List (ℝ × List ℝ)) (mass : ℕ → ℝ), 0 ≤ K ∧
      preMain "/w".toList rectOpts (fun _ => chainArgs) (fun m => List.replicate m 0) (.ok plan) (.ok []) rectFs = .ok (fs1, rec) ∧
      bandMain S j "/w".toList {} rec (fun _ => []) force "KPOINTS".toList (.ok plan) fs2 = .ok (obj, rows) ∧ rows.length = 2 ∧
      ∃ len row q row0, rows[1]? = some (len, row) ∧ (∀ c, dot3 q (rectCell.lattice c) = 2 * Real.pi * (((![1 / 2, 0, 0] : V3 ℚ) c : ℚ) : ℝ)) ∧
        IsSpectrum (trueDyn rectCell [0, 1] mass rectSprings q 6) row0 ∧ ∀ ν ∈ row, ∃ ν0 ∈ row0, |ν - ν0| ≤
          Real.sqrt ((2 : ℕ) * (K * (1 / 10 ^ 20 + ε + 1 / 10 ^ 16)) * ∑ r : Fin 6, 1 / mass r) / (Real.pi * 10 ^ 12) := by
  have hn : (fun i : Fin 3 => ([2, 1, 1] : List ℤ).getD i 0) = ![2, 1, 1] := by funext i; fin_cases i <;> rfl
  have hp : (fun i : Fin 3 => ([1, 1, 0] : List ℤ).getD i 0) = ![1, 1, 0] := by funext i; fin_cases i <;> rfl
  obtain ⟨groups, hg⟩ := rect_baseRun.unit.groups
  obtain ⟨hcall, -⟩ := C06_supercell_from_arguments rect_baseRun.junk rectUnit hg.len.symm _ (accepted_check rect_baseRun.args) [2, 1, 1] [1, 1, 0] rect_baseRun.enlargement
    rect_baseRun.periodicity rect_baseRun.positive
  rw [hn, hp] at hcall
  obtain ⟨s0, s, -, hs, -⟩ := pre_super_ok hcall rect_baseRun.unit
  have hdet : rectUnit.lattice.det ≠ 0 := by
    rw [Matrix.det_fin_three]
    decide +kernel
  have hsup := toR_isSuper hcall rect_baseRun.unit hdet hs
  have hsup' := hsup
  rw [rect_toR] at hsup'
  have hcr : ExactCrystal (toR rectUnit) (toR s) [0, 1] ![2, 1, 1] := by
    rw [rect_toR]
    exact symmorphic_exact (rect_crystal hsup')
  have hsp : Symmetric (toR s) (superSprings ![2, 1, 1] (numImages ![2, 1, 1]) rectSprings) := rect_symmetric hsup' fun t _ t' _ x y => rect_springs_value _ _ _ _
  obtain ⟨K, hK, hmain⟩ := C130_end_to_end_partial (name := []) rect_baseRun (by norm_num) hdet rfl rect_dec rfl (by rw [hn]; exact hs) (by rw [hn]; exact hcr) rectSprings rect_range
    rectSprings_symmetric (by rw [hn]; exact hsp) (fun _ _ => 0) hS j
  obtain ⟨plan, hplan⟩ := near_search_exists hε hcr
  obtain ⟨fs1, rec, hpre, hpost⟩ := hmain ε hε.le plan (by rw [hn]; exact hplan)
  obtain ⟨fs2, hk, hcalc⟩ := outputs_exist fs1 chainK (superSprings (fun i => ([2, 1, 1] : List ℤ).getD i 0) (numImages fun i => ([2, 1, 1] : List ℤ).getD i 0) rectSprings) (fun _ _ => 0)
    (2 * (plan.map fun q => q.2.length).sum)
  have hpos := plan_nonempty hsup' (by rw [rect_toR] at hplan; exact hplan)
  set count := 2 * (plan.map fun q => q.2.length).sum with hcount
  have hforce : forceFiles (fun _ => []) ((List.range count).map outPath) = .ok ((List.range count).map outPath) := by
    unfold forceFiles
    rw [if_pos (by simp; omega)]
  obtain ⟨obj, rows, mass, h3, -, h4, h5⟩ := hpost _ (by positivity) fs2 (fun _ => []) _ _ hforce hcalc "KPOINTS".toList chainK [![0, 0, 0], ![1 / 2, 0, 0]] [] hk (by decide +kernel)
    (by decide)
  refine ⟨K, plan, fs1, fs2, rec, _, obj, rows, mass, hK, hpre, h3, h4, ?_⟩
  obtain ⟨len, row, q, row0, a1, -, a2, a3, a4⟩ := h5 1 _ rfl (by
    intro i hi
    fin_cases i
    · exact ⟨1, by simp [toReal]⟩
    · exact ⟨0, by simp [toReal]⟩
    · simp at hi)
  rw [rect_toR] at a2 a3
  exact ⟨len, row, q, row0, a1, a2, a3, a4⟩

end Interphon.Props
