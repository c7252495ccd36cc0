import Verif.Props.ProgramMode

/-! # C135: the rows of the array of mode vectors are not modes -/

namespace Interphon.Props
open Py Interphon Interphon.UnitCell Interphon.SuperCell Interphon.PreProcess Interphon.Args Interphon.Inout Interphon.Cli Interphon.Main
open Interphon.PostProcess Interphon.Phonon Interphon.ForceConstant Interphon.Mode

noncomputable section

/-- A solver like LAPACK's exists: scale the eigenvectors. -/
theorem lapack_solver_exists : ∃ S : Solver, LapackSolver S := by
  have h : ∀ (m : ℕ) (A : Matrix (Fin m) (Fin m) ℂ), ∃ r : (Fin m → ℝ) × Matrix (Fin m) (Fin m) ℂ,
      ∃ (w : Fin m → ℂ) (V : Matrix (Fin m) (Fin m) ℂ) (σ τ : Equiv.Perm (Fin m)),
      IsEig A w V ∧ IsArgsort (fun i => freqOf (w i)) σ ∧ IsArgsort (fun i => freqOf (w (σ i))) τ ∧ r = store w V σ τ ∧
        ∀ c, ∑ r, ‖V r c‖ ^ 2 = 1 ∧ ∃ r, (∀ r', ‖V r' c‖ ≤ ‖V r c‖) ∧ (V r c).im = 0 := by
    intro m A
    obtain ⟨w, V, hw⟩ := eig_exists m A
    have hmax : ∀ c : Fin m, ∃ r : Fin m, ∀ r', ‖V r' c‖ ≤ ‖V r c‖ := by
      intro c
      obtain ⟨r, -, hr⟩ := Finset.exists_max_image Finset.univ (fun r => ‖V r c‖) ⟨c, Finset.mem_univ c⟩
      exact ⟨r, fun r' => hr r' (Finset.mem_univ _)⟩
    choose ρ hρ using hmax
    have hne : ∀ c, V (ρ c) c ≠ 0 := by
      intro c h0
      apply hw.nonzero c
      funext r
      have := hρ c r
      rw [h0, norm_zero] at this
      exact norm_le_zero_iff.1 this
    have hN : ∀ c, 0 < ∑ r, ‖V r c‖ ^ 2 := by
      intro c
      have h1 : 0 < ‖V (ρ c) c‖ ^ 2 := by have := norm_pos_iff.2 (hne c); positivity
      exact h1.trans_le (Finset.single_le_sum (f := fun r => ‖V r c‖ ^ 2) (fun r _ => by positivity) (Finset.mem_univ (ρ c)))
    set f : Fin m → ℂ := fun c => (starRingEnd ℂ) (V (ρ c) c) / ((‖V (ρ c) c‖ * Real.sqrt (∑ r, ‖V r c‖ ^ 2) : ℝ) : ℂ) with hf
    have hden : ∀ c, 0 < ‖V (ρ c) c‖ * Real.sqrt (∑ r, ‖V r c‖ ^ 2) := fun c => mul_pos (norm_pos_iff.2 (hne c)) (Real.sqrt_pos.2 (hN c))
    have hfn : ∀ c, ‖f c‖ = 1 / Real.sqrt (∑ r, ‖V r c‖ ^ 2) := by
      intro c
      rw [hf]
      simp only
      rw [norm_div, RCLike.norm_conj, Complex.norm_real, Real.norm_of_nonneg (hden c).le]
      have := norm_pos_iff.2 (hne c)
      have := Real.sqrt_pos.2 (hN c)
      field_simp
    have hf0 : ∀ c, f c ≠ 0 := by
      intro c
      rw [← norm_pos_iff, hfn]
      have := Real.sqrt_pos.2 (hN c)
      positivity
    refine ⟨_, w, fun r c => V r c * f c, Tuple.sort _, Tuple.sort _, ⟨?_, ?_, hw.charpoly⟩, Tuple.monotone_sort _, Tuple.monotone_sort _, rfl, ?_⟩
    · intro c
      have h1 := hw.vec c
      have e : (fun r => V r c * f c) = f c • fun r => V r c := by funext r; simp [mul_comm]
      rw [e, Matrix.mulVec_smul, h1, smul_comm]
    · intro c h0
      have := congrFun h0 (ρ c)
      simp only [Pi.zero_apply, mul_eq_zero] at this
      exact this.elim (hne c) (hf0 c)
    · intro c
      constructor
      · simp only [norm_mul, mul_pow]
        rw [← Finset.sum_mul, hfn, div_pow, one_pow, Real.sq_sqrt (hN c).le]
        have := hN c
        field_simp
      · refine ⟨ρ c, fun r' => ?_, ?_⟩
        · simp only [norm_mul]
          exact mul_le_mul_of_nonneg_right (hρ c r') (norm_nonneg _)
        · simp only [hf]
          rw [← mul_div_assoc, Complex.mul_conj, ← Complex.ofReal_div, Complex.ofReal_im]
  choose S hS using h
  exact ⟨S, hS⟩

theorem LapackSolver.isSolver {S : Solver} (h : LapackSolver S) : IsSolver S := by
  intro m A
  obtain ⟨w, V, σ, τ, h1, h2, h3, h4, -⟩ := h m A
  exact ⟨w, V, σ, τ, h1, h2, h3, h4⟩

/-! ### Atoms in the field of a surface -/

/-- The stiffness (in units of 16.02 N/m) of the surroundings of an atom. -/
def wellB (x y : Fin 3) : ℤ := (!![11, -1, -4; -1, 11, -4; -4, -4, 14] : Matrix (Fin 3) (Fin 3) ℤ) x y

/-- Every atom is held by its surroundings only. -/
def wellSprings : Springs := fun a x b y => if a = b then Finsupp.single 0 (1602 / 100 * (wellB x y : ℝ)) else 0

theorem well_range : ∀ a x b y l, l ∈ (wellSprings a x b y).support → ∀ i : Fin 3, ([1, 0, 0] : List ℤ).getD i 0 = 0 → l i = 0 := by
  intro a x b y l hl i _
  have : l = 0 := by
    by_contra hc
    apply Finsupp.mem_support_iff.1 hl
    unfold wellSprings
    split_ifs
    · simp [Finsupp.single_apply, Ne.symm hc]
    · rfl
  rw [this]; rfl

theorem wellB_symm (x y : Fin 3) : wellB x y = wellB y x := by revert x y; decide

theorem well_symmetric : SymmetricSprings wellSprings := by
  intro a x b y l
  unfold wellSprings
  by_cases hab : a = b
  · rw [if_pos hab, if_pos hab.symm, wellB_symm]
    have e0 : (0 : Fin 3 → ℤ) = -l ↔ (0 : Fin 3 → ℤ) = l := by rw [eq_comm, neg_eq_zero, eq_comm]
    simp only [Finsupp.single_apply, e0]
  · rw [if_neg hab, if_neg (Ne.symm hab)]; rfl

theorem well_super (r : ℕ) (hr : r < 2) (x y : Fin 3) :
    superSprings (fun i => ([2, 1, 1] : List ℤ).getD i 0) 2 wellSprings r x 0 y = if r = 0 then 1602 / 100 * (wellB x y : ℝ) else 0 := by
  unfold superSprings
  have hdiv : r / 2 = 0 := by omega
  rw [hdiv]
  have e : wellSprings 0 x (0 / 2) y = Finsupp.single 0 (1602 / 100 * (wellB x y : ℝ)) := by
    unfold wellSprings; rw [if_pos rfl]
  rw [e, Finset.sum_filter]
  have hsum : ∀ (F : (Fin 3 → ℤ) →₀ ℝ) (P : (Fin 3 → ℤ) → Prop) [DecidablePred P], (∑ l ∈ F.support, if P l then F l else 0) = F.sum fun l φ => if P l then φ else 0 :=
    fun F P _ => rfl
  rw [hsum, Finsupp.sum_single_index (by simp)]
  interval_cases r
  · rw [if_pos (by decide), if_pos rfl]
  · rw [if_neg (by decide), if_neg one_ne_zero]

/-- A force in the text: `z` times 0.02 eV/Å. -/
def wtok (z : ℤ) : Str := if z = 11 then "0.22".toList else if z = -11 then "-0.22".toList else if z = 1 then "0.02".toList else if z = -1 then "-0.02".toList else
  if z = 4 then "0.08".toList else if z = -4 then "-0.08".toList else if z = 14 then "0.28".toList else if z = -14 then "-0.28".toList else "0".toList

def wline (z : ℕ → ℤ) : Str := "v ".toList ++ wtok (z 0) ++ ' ' :: (wtok (z 1) ++ ' ' :: (wtok (z 2) ++ "\n".toList))

/-- The force on the moved atom in calculation number `k + 1`. -/
def wforce (k : ℕ) (c : ℕ) : ℤ := -sgn k * wellB (Fin.ofNat 3 c) (Fin.ofNat 3 (k % 6 / 2))

def wellText (k : ℕ) : Str := "forces\n".toList ++ wline (wforce k) ++ wline fun _ => 0

def wvec (z : ℕ → ℤ) : V3 ℚ := fun c => z c * (1 / 50)

theorem well_force_file (k : ℕ) (hk : k < 6) : ForceOutput .vasp "vasprun.xml".toList (readlines (wellText k)) [wvec (wforce k), wvec fun _ => 0] := by
  refine .inl ⟨rfl, ⟨[], "forces\n".toList, [], [wline (wforce k), wline fun _ => 0], [], ?_, by simp, ?_, rfl, ?_⟩⟩
  · revert k; decide +kernel
  · rw [← isInfix_iff]; decide
  · have hsplit : ∀ k < 6, split (wline (wforce k)) = [['v']] ++ wtok (wforce k 0) :: wtok (wforce k 1) :: wtok (wforce k 2) :: [] ∧
      parseFloat (wtok (wforce k 0)) = some (wvec (wforce k) 0) ∧ parseFloat (wtok (wforce k 1)) = some (wvec (wforce k) 1) ∧ parseFloat (wtok (wforce k 2)) = some (wvec (wforce k) 2) := by
      decide +kernel
    have hzero : split (wline fun _ => 0) = [['v']] ++ wtok 0 :: wtok 0 :: wtok 0 :: [] ∧ parseFloat (wtok 0) = some (wvec (fun _ => 0) 0) := by decide +kernel
    refine .cons ?_ (.cons ?_ .nil)
    · obtain ⟨h1, h2, h3, h4⟩ := hsplit k hk
      exact ⟨_, _, _, _, _, h1, rfl, h2, h3, h4⟩
    · obtain ⟨h1, h2⟩ := hzero
      exact ⟨_, _, _, _, _, h1, rfl, h2, h2, h2⟩

/-- The files before the post-process. -/
def wellFs2 (fs1 : Fs) : Fs := fun q => match (List.range 6).find? (fun k => decide (q = chainDir k ++ "/POSCAR".toList)) with
  | some k => fs1 (fileName "/w/POSCAR".toList (k + 1))
  | none => match (List.range 6).find? (fun k => decide (q = chainDir k ++ "/vasprun.xml".toList)) with
    | some k => some (wellText k)
    | none => if q = "/w/KPOINTS".toList then some chainK else fs1 q

theorem well_calculated {fs1 : Fs} {rec : PreRecord} (search : Run (List (ℕ × List (V3 ℚ)))) (group : Run Str)
    (hpre : preMain "/w".toList chainOpts (fun _ => chainArgs) (fun m => List.replicate m 0) search group chainFs = .ok (fs1, rec)) :
    Calculated .vasp "/w".toList chainOpts.unitcell fs1 (wellFs2 fs1)
      (superSprings (fun i => ([2, 1, 1] : List ℤ).getD i 0) (([2, 1, 1] : List ℤ).getD 0 0 * ([2, 1, 1] : List ℤ).getD 1 0 * ([2, 1, 1] : List ℤ).getD 2 0).toNat wellSprings)
      (fun _ _ => 0) (6 * ([0] : List ℕ).length) chainForce := by
  have hget : ∀ (k : ℕ) (f : Str), chainForce[k]? = some f → k < 6 ∧ f = chainDir k ++ "/vasprun.xml".toList := by
    intro k f hf
    unfold chainForce at hf
    rw [List.getElem?_map] at hf
    obtain ⟨z, hz, rfl⟩ := Option.map_eq_some_iff.1 hf
    obtain ⟨hz1, hz2⟩ := List.getElem?_eq_some_iff.1 hz
    rw [List.getElem_range] at hz2
    subst hz2
    exact ⟨by simpa using hz1, rfl⟩
  have hother : ∀ q : Str, (List.range 6).find? (fun k => decide (q = chainDir k ++ "/POSCAR".toList)) = none →
      (List.range 6).find? (fun k => decide (q = chainDir k ++ "/vasprun.xml".toList)) = none → q ≠ "/w/KPOINTS".toList → wellFs2 fs1 q = fs1 q := by
    intro q h1 h2 h3
    simp only [wellFs2, h1, h2, if_neg h3]
  refine ⟨rfl, hother _ (by decide +kernel) (by decide +kernel) (by decide), hother _ (by decide +kernel) (by decide +kernel) (by decide), ?_, ?_⟩
  · intro k f hf
    obtain ⟨hk, rfl⟩ := hget k f hf
    have h1 : ∀ k < 6, dirName (chainDir k ++ "/vasprun.xml".toList) ++ '/' :: chainOpts.unitcell = chainDir k ++ "/POSCAR".toList := by decide +kernel
    have h2 : ∀ k < 6, (List.range 6).find? (fun k' => decide (chainDir k ++ "/POSCAR".toList = chainDir k' ++ "/POSCAR".toList)) = some k := by decide +kernel
    rw [h1 k hk]
    simp only [wellFs2, h2 k hk]
    rfl
  · intro k f hf
    obtain ⟨hk, rfl⟩ := hget k f hf
    have h1 : ∀ k < 6, (List.range 6).find? (fun k' => decide (chainDir k ++ "/vasprun.xml".toList = chainDir k' ++ "/POSCAR".toList)) = none := by decide +kernel
    have h2 : ∀ k < 6, (List.range 6).find? (fun k' => decide (chainDir k ++ "/vasprun.xml".toList = chainDir k' ++ "/vasprun.xml".toList)) = some k := by decide +kernel
    have h3 : ∀ k < 6, baseName (chainDir k ++ "/vasprun.xml".toList) = "vasprun.xml".toList := by decide +kernel
    refine ⟨wellText k, [wvec (wforce k), wvec fun _ => 0], by simp only [wellFs2, h1 k hk, h2 k hk], by rw [h3 k hk]; exact well_force_file k hk, ?_⟩
    obtain ⟨sup, hs1, -, hs3, -, hs5⟩ := C118_files chain_preRun chain_dec ⟨2 * 10 ^ 14, by norm_num⟩ search group hpre
    obtain ⟨dis, v, hd1, -, -, hd4, hd5, hd6⟩ := hs5 k (by simpa using hk)
    intro sup' dis' hsup' hdis'
    have e1 := hs1.unique hsup'
    have e2 := hd1.unique hdis'
    subst e1 e2
    have hrow : (([2, 1, 1] : List ℤ).getD 0 0 * ([2, 1, 1] : List ℤ).getD 1 0 * ([2, 1, 1] : List ℤ).getD 2 0).toNat * ([0] : List ℕ).getD (k / 6) 0 = 0 := by
      rw [show k / 6 = 0 by omega]; rfl
    rw [hrow] at hd4 hd5 hd6
    have hlen : sup.cart.length = 2 := hs3
    refine ⟨hlen.symm, ?_⟩
    rw [hlen]
    intro a ha c
    have hE : (([2, 1, 1] : List ℤ).getD 0 0 * ([2, 1, 1] : List ℤ).getD 1 0 * ([2, 1, 1] : List ℤ).getD 2 0).toNat = 2 := rfl
    rw [hE]
    have hdiff0 : ∀ y : Fin 3, (toR dis).cart.getD 0 0 y - (toR sup).cart.getD 0 0 y = if y = Fin.ofNat 3 (k % 6 / 2) then (sgn k : ℝ) * (1 / 50) else 0 := by
      intro y
      have hy : (y = Fin.ofNat 3 (k % 6 / 2)) ↔ (y : ℕ) = k % 6 / 2 := by
        rw [Fin.ext_iff]
        show (y : ℕ) = k % 6 / 2 % 3 ↔ _
        rw [Nat.mod_eq_of_lt (by omega)]
      simp only [hy]
      simp only [toR, List.getD_eq_getElem?_getD, List.getElem?_map, hd5, hd6, Option.map_some, Option.getD_some, toReal, sgn]
      split_ifs <;> simp
    have hdiff1 : ∀ y : Fin 3, (toR dis).cart.getD 1 0 y - (toR sup).cart.getD 1 0 y = 0 := by
      intro y
      simp only [toR, List.getD_eq_getElem?_getD, List.getElem?_map, hd4 1 (by decide), sub_self]
    have hlenR : (toR sup).cart.length = 2 := by simp [toR, hlen]
    unfold harmonicForces
    rw [hlenR, Finset.sum_range_succ, Finset.sum_range_one]
    simp only [hdiff0, hdiff1, zero_mul, mul_zero, Finset.sum_const_zero, add_zero]
    simp only [well_super a ha, ite_mul, zero_mul, mul_ite, mul_zero]
    have hc : Fin.ofNat 3 (c : ℕ) = c := by
      apply Fin.ext
      show (c : ℕ) % 3 = c
      exact Nat.mod_eq_of_lt c.2
    interval_cases a
    · show (((wforce k c : ℤ) * (1 / 50) * (1602 / 10 ^ 12) : ℚ) : ℝ) = _
      simp only [if_true, Finset.sum_ite_eq', Finset.mem_univ]
      unfold wforce
      rw [hc]
      push_cast
      ring
    · show ((((0 : ℤ) : ℚ) * (1 / 50) * (1602 / 10 ^ 12) : ℚ) : ℝ) = _
      simp

/-- The run for the chain, with the three modes at the zone centre asked for. -/
theorem well_input : Nonempty (ModeInput chainUnit [0] wellSprings 0 0 [0, 1, 2]) := by
  obtain ⟨L, hL⟩ := limitDen_exists
  obtain ⟨fs1, rec, s1, s2, files, hpre, -⟩ := C118_preprocess chain_preRun (.ok []) (.ok [])
  exact ⟨{
    cwd := "/w".toList, o := chainOpts, code := .vasp, a := _, e := [2, 1, 1], p := [1, 0, 0], d := 1 / 50, x := fun _ => chainArgs, junk := fun m => List.replicate m 0, fs := chainFs
    run := chain_preRun, d0 := by norm_num, det := chain_det, xyz := rfl, dec := chain_dec, d16 := ⟨2 * 10 ^ 14, by norm_num⟩, range := well_range, F0 := fun _ _ => 0
    search := .ok [], group := .ok [], fs1 := fs1, record := rec, pre := hpre, fs2 := wellFs2 fs1, glob := fun _ => [], args := chainForce, force := chainForce, files := rfl
    calculated := well_calculated _ _ hpre, kband := "KPOINTS".toList, t := chainK, ks := [![0, 0, 0], ![1 / 2, 0, 0]], auto := []
    kfile := by
      have e1 : (List.range 6).find? (fun k => decide (absPath "/w".toList "KPOINTS".toList = chainDir k ++ "/POSCAR".toList)) = none := by decide +kernel
      have e2 : (List.range 6).find? (fun k => decide (absPath "/w".toList "KPOINTS".toList = chainDir k ++ "/vasprun.xml".toList)) = none := by decide +kernel
      simp only [wellFs2, e1, e2]
      rfl
    kread := by decide +kernel
    two := by decide
    inds := .list [.int 0, .int 1, .int 2]
    request := {
      listed := by
        show some (![0, 0, 0] : V3 ℚ) = some 0
        congr 1
        funext c; fin_cases c <;> rfl
      fits := by
        intro i hi
        exact ⟨0, by simp [toReal]⟩
      last := by
        intro i' k' h1 h2 hm
        obtain ⟨hl, rfl⟩ := List.getElem?_eq_some_iff.1 h2
        have : i' = 1 := by simp at hl; omega
        subst this
        have h0 := hm 0
        simp [toReal] at h0
        norm_num [abs_of_pos] at h0
      fractions := by intro c _; simp
      indices := rfl
      valid := by decide }
    L := L, limit := hL, jc := fun m => List.replicate m 0, fresh := by simp }⟩

/-- The dynamical matrix at the zone centre. -/
def wellA (κ : ℝ) : Matrix (Fin 3) (Fin 3) ℂ := Matrix.of fun x y => (κ : ℂ) * (wellB x y : ℂ)

theorem well_dyn {mass : ℕ → ℝ} {m : ℝ} (hm : 0 < m) (hmass : ∀ r < 3, mass r = m) :
    trueDyn (toR chainUnit) [0] mass wellSprings 0 3 = wellA (1602 / 100 / m) := by
  ext r c
  have hr3 : (r : ℕ) / 3 = 0 := by have := r.2; omega
  have hc3 : (c : ℕ) / 3 = 0 := by have := c.2; omega
  have hcr : ∀ r : Fin 3, Props.comp (r : ℕ) = r := by decide
  have hz : ∀ w : V3 ℝ, dot3 (0 : V3 ℝ) w = 0 := fun w => by simp [dot3]
  simp only [trueDyn, wellA, Matrix.of_apply, hr3, hc3, hmass r r.2, hmass c c.2, Real.sqrt_mul_self hm.le, hcr, hz]
  unfold wellSprings
  rw [if_pos rfl, Finsupp.sum_single_index (by simp)]
  push_cast
  simp
  ring

theorem rows_B (v : Fin 3 → ℂ) (κ μ : ℂ) (hκ : κ ≠ 0) (h : ∀ r, ∑ c, κ * (wellB r c : ℂ) * v c = κ * μ * v r) :
    (μ - 6) * (v 0 + v 1 + v 2) = 0 ∧ (μ - 12) * (v 0 - v 1) = 0 ∧ (μ - 18) * (v 0 + v 1 - 2 * v 2) = 0 := by
  have h' : ∀ r, ∑ c, (wellB r c : ℂ) * v c = μ * v r := by
    intro r
    apply mul_left_cancel₀ hκ
    rw [← mul_assoc, ← h r, Finset.mul_sum]
    exact Finset.sum_congr rfl fun c _ => by ring
  have h0 := h' 0
  have h1 := h' 1
  have h2 := h' 2
  simp [Fin.sum_univ_three, wellB] at h0 h1 h2
  refine ⟨?_, ?_, ?_⟩
  · linear_combination -h0 - h1 - h2
  · linear_combination -h0 + h1
  · linear_combination -h0 - h1 + 2 * h2

theorem well_value {κ : ℝ} {w : Fin 3 → ℂ} {V : Matrix (Fin 3) (Fin 3) ℂ} (hE : IsEig (wellA κ) w V) (μ : ℂ) (hμ : (μ - 6) * (μ - 12) * (μ - 18) = 0) :
    ∃ m, w m = κ * μ := by
  have h1 : (wellA κ).charpoly.eval (κ * μ) = 0 := by
    rw [Matrix.eval_charpoly]
    simp only [Matrix.det_fin_three, Matrix.scalar_apply, Matrix.sub_apply, Matrix.diagonal_apply, wellA, Matrix.of_apply, wellB]
    simp
    linear_combination (κ : ℂ) ^ 3 * hμ
  rw [hE.charpoly, Polynomial.eval_prod, Finset.prod_eq_zero_iff] at h1
  obtain ⟨m, -, hm⟩ := h1
  refine ⟨m, ?_⟩
  simp only [Polynomial.eval_sub, Polynomial.eval_X, Polynomial.eval_C] at hm
  exact (sub_eq_zero.1 hm).symm

private theorem well_column {κ : ℝ} (hκ : κ ≠ 0) {w : Fin 3 → ℂ} {V : Matrix (Fin 3) (Fin 3) ℂ} (hE : IsEig (wellA κ) w V)
    (hV : ∀ c, ∑ r, ‖V r c‖ ^ 2 = 1 ∧ ∃ r, (∀ r', ‖V r' c‖ ≤ ‖V r c‖) ∧ (V r c).im = 0) (m : Fin 3) :
    (w m = κ * 6 → (V 0 m).re ^ 2 = 1 / 3 ∧ (V 1 m).re ^ 2 = 1 / 3 ∧ (V 2 m).re ^ 2 = 1 / 3) ∧
    (w m = κ * 12 → (V 0 m).re ^ 2 = 1 / 2 ∧ (V 1 m).re ^ 2 = 1 / 2 ∧ (V 2 m).re ^ 2 = 0) ∧
    (w m = κ * 18 → (V 0 m).re ^ 2 = 1 / 6 ∧ (V 1 m).re ^ 2 = 1 / 6 ∧ (V 2 m).re ^ 2 = 2 / 3) := by
  have hκ' : (κ : ℂ) ≠ 0 := by exact_mod_cast hκ
  have hB : ∀ μ : ℂ, w m = κ * μ → (μ - 6) * (V 0 m + V 1 m + V 2 m) = 0 ∧ (μ - 12) * (V 0 m - V 1 m) = 0 ∧ (μ - 18) * (V 0 m + V 1 m - 2 * V 2 m) = 0 := by
    intro μ hμ
    refine rows_B (fun r => V r m) κ μ hκ' fun r => ?_
    have := congrFun (hE.vec m) r
    simp only [Matrix.mulVec, dotProduct, wellA, Matrix.of_apply, Pi.smul_apply, smul_eq_mul, hμ] at this
    exact this
  obtain ⟨hn, r, hmax, him⟩ := hV m
  rw [Fin.sum_univ_three] at hn
  simp only [← Complex.normSq_eq_norm_sq, Complex.normSq_apply] at hn
  have hmax' : ∀ r', (V r' m).re ^ 2 + (V r' m).im ^ 2 ≤ (V r m).re ^ 2 := by
    intro r'
    have h1 := pow_le_pow_left₀ (norm_nonneg _) (hmax r') 2
    simp only [← Complex.normSq_eq_norm_sq, Complex.normSq_apply, him] at h1
    nlinarith [h1]
  have split3 : ∀ z : Fin 3, z = 0 ∨ z = 1 ∨ z = 2 := by decide
  refine ⟨fun h => ?_, fun h => ?_, fun h => ?_⟩
  · obtain ⟨-, h2, h3⟩ := hB _ h
    have e1 : V 1 m = V 0 m := by linear_combination (1 / 6) * h2
    have e2 : V 2 m = V 0 m := by linear_combination (1 / 24) * h3 + (1 / 2) * (1 / 6) * h2
    have hi : (V 0 m).im = 0 := by
      rcases split3 r with rfl | rfl | rfl
      · exact him
      · rw [e1] at him; exact him
      · rw [e2] at him; exact him
    rw [e1, e2] at hn ⊢
    rw [hi] at hn
    refine ⟨?_, ?_, ?_⟩ <;> nlinarith [hn]
  · obtain ⟨h1, -, h3⟩ := hB _ h
    have e2 : V 2 m = 0 := by linear_combination (1 / 18) * h1 + (1 / 18) * h3
    have e1 : V 1 m = -V 0 m := by linear_combination (1 / 6) * h1 - e2
    have hi : (V 0 m).im = 0 := by
      rcases split3 r with rfl | rfl | rfl
      · exact him
      · rw [e1] at him; simpa using him
      · have := hmax' 0
        rw [e2] at this
        simp only [Complex.zero_re] at this
        nlinarith [sq_nonneg (V 0 m).re, sq_nonneg (V 0 m).im]
    rw [e1, e2] at hn ⊢
    simp only [Complex.neg_re, Complex.neg_im, Complex.zero_re, Complex.zero_im] at hn ⊢
    rw [hi] at hn
    refine ⟨?_, ?_, ?_⟩ <;> nlinarith [hn]
  · obtain ⟨h1, h2, -⟩ := hB _ h
    have e1 : V 1 m = V 0 m := by linear_combination (-1 / 6) * h2
    have e2 : V 2 m = -2 * V 0 m := by linear_combination (1 / 12) * h1 - e1
    have hi : (V 0 m).im = 0 := by
      rcases split3 r with rfl | rfl | rfl
      · exact him
      · rw [e1] at him; exact him
      · rw [e2] at him; simpa using him
    rw [e1, e2] at hn ⊢
    have hre : ((-2 : ℂ) * V 0 m).re = -2 * (V 0 m).re := by simp
    have hime : ((-2 : ℂ) * V 0 m).im = -2 * (V 0 m).im := by simp
    rw [hre, hime, hi] at hn
    rw [hre]
    refine ⟨?_, ?_, ?_⟩ <;> nlinarith [hn]

/-- No row of the array of mode vectors is a mode. -/
theorem well_rows {κ : ℝ} (hκ : κ ≠ 0) {w : Fin 3 → ℂ} {V : Matrix (Fin 3) (Fin 3) ℂ} (hE : IsEig (wellA κ) w V)
    (hV : ∀ c, ∑ r, ‖V r c‖ ^ 2 = 1 ∧ ∃ r, (∀ r', ‖V r' c‖ ≤ ‖V r c‖) ∧ (V r c).im = 0) (b : Fin 3) (lam : ℝ)
    (h : ∀ r, ∑ c, wellA κ r c * ((V b c).re : ℂ) = lam * ((V b r).re : ℂ)) : False := by
  have hκ' : (κ : ℂ) ≠ 0 := by exact_mod_cast hκ
  obtain ⟨m6, h6⟩ := well_value hE 6 (by ring)
  obtain ⟨m12, h12⟩ := well_value hE 12 (by ring)
  obtain ⟨m18, h18⟩ := well_value hE 18 (by ring)
  obtain ⟨b1, b2, b3⟩ := rows_B (fun c => ((V b c).re : ℂ)) κ (lam / κ) hκ' (fun r => by
    rw [mul_div_cancel₀ _ hκ']
    exact h r)
  have hsq : (V b 0).re ^ 2 = (V b 1).re ^ 2 := by
    rcases mul_eq_zero.1 b2 with e | e
    · have hμ : (lam / κ : ℂ) = 12 := by linear_combination e
      rw [hμ] at b1 b3
      have e3 : ((V b 0).re + (V b 1).re : ℂ) = 0 := by linear_combination (1 / 9) * b1 - (1 / 18) * b3
      have e4 : (V b 0).re + (V b 1).re = 0 := by exact_mod_cast e3
      have : (V b 0).re = -(V b 1).re := by linarith
      rw [this]; ring
    · have e4 : ((V b 0).re : ℂ) = (V b 1).re := by linear_combination e
      have e5 : (V b 0).re = (V b 1).re := by exact_mod_cast e4
      rw [e5]
  have c6 := (well_column hκ hE hV m6).1 h6
  have c12 := (well_column hκ hE hV m12).2.1 h12
  have c18 := (well_column hκ hE hV m18).2.2 h18
  have fin : ∀ (g : Fin 3 → ℝ) (a b c : Fin 3), g a ≠ g b → g a ≠ g c → g b ≠ g c → g 0 ≠ g 1 := by
    intro g a b c
    fin_cases a <;> fin_cases b <;> fin_cases c <;> simp (config := { contextual := true }) <;> intro h1 h2 h3 <;> first | exact h1 | exact h2 | exact h3 | exact Ne.symm h1 | exact Ne.symm h2 | exact Ne.symm h3
  refine fin (fun c => (V b c).re ^ 2) m6 m12 m18 ?_ ?_ ?_ hsq <;> fin_cases b <;> simp only [Fin.zero_eta, Fin.mk_one, Fin.reduceFinMk] <;>
    simp only [c6.1, c6.2.1, c6.2.2, c12.1, c12.2.1, c12.2.2, c18.1, c18.2.1, c18.2.2] <;> norm_num

/-- **C135** (the violation).  For a chain of atoms held by a surface with stable, undamped springs, no animation at the zone centre moves along a normal mode, whatever eigenvalue routine
that normalises like LAPACK's is used. -/
theorem C135_no_mode {S : Solver} (hS : LapackSolver S) (r : ModeInput chainUnit [0] wellSprings 0 0 [0, 1, 2]) (j : Junk) (mj : ModeJunk) :
    ∃ rows movies structs, r.outcome S j mj none = .ok (rows, movies, structs) ∧ movies.map (·.ind) = [0, 1, 2] ∧
      ∀ mass, IsMasses chainUnit [0] mass → ∀ mv ∈ movies, ∀ lam, ¬ MovesAlong (toR chainUnit) [0] mass wellSprings mv.frames lam := by
  obtain ⟨rows', mass', len, hmass', -, -, hout, -⟩ := C135_files r hS.isSolver j mj
  obtain ⟨hind, hiff⟩ := C135_animation_iff r hS.isSolver j mj hout
  refine ⟨_, _, _, hout, hind, fun mass hmass mv hmv lam hmove => ?_⟩
  have hz : mv.ind ∈ ([0, 1, 2] : List ℤ) := by rw [← hind]; exact List.mem_map_of_mem hmv
  obtain ⟨m, hm, hmm⟩ := chain_masses hmass
  have hd := (hiff mass hmass mv hmv lam).1 hmove
  have hA := well_dyn hm hmm
  have hκ : (1602 / 100 / m : ℝ) ≠ 0 := by positivity
  obtain ⟨w, V, σ, τ, hE, -, -, hSt, hV⟩ := hS 3 (wellA (1602 / 100 / m))
  have hb : designates (3 * ([0] : List ℕ).length) mv.ind < 3 := by
    simp at hz
    rcases hz with e | e | e <;> rw [e] <;> decide
  refine well_rows hκ hE hV (τ ⟨_, hb⟩) lam fun r => ?_
  have := hd r
  have hrow : ∀ d : Fin 3, modeRow S (trueDyn (toR chainUnit) [0] mass wellSprings 0 3) (designates (3 * ([0] : List ℕ).length) mv.ind) d = V (τ ⟨_, hb⟩) d := by
    intro d
    unfold modeRow
    rw [dif_pos ⟨hb, d.2⟩, hA, hSt]
    rfl
  have h3 : 3 * ([0] : List ℕ).length = 3 := rfl
  change ∑ c : Fin 3, trueDyn (toR chainUnit) [0] mass wellSprings 0 3 r c * _ = _ at this
  rw [hA] at this
  rw [← hA] at this
  simp only [] at this
  rw [← hrow r]
  simp only [← hrow]
  rw [← hA]
  exact this

/-- **C135** (the full statement fails). -/
theorem C135_refuted : ¬ C135_full := by
  intro hfull
  obtain ⟨S, hS⟩ := lapack_solver_exists
  obtain ⟨r⟩ := well_input
  let j : Junk := ⟨default, default, default, default, default⟩
  let mj : ModeJunk := ⟨default, default⟩
  obtain ⟨rows, movies, structs, hout, hind, hno⟩ := C135_no_mode hS r j mj
  have hne : ∃ mv, mv ∈ movies := by
    rcases movies with _ | ⟨mv, t⟩
    · simp at hind
    · exact ⟨mv, by simp⟩
  obtain ⟨mv, hmv⟩ := hne
  obtain ⟨mass', lam, len, row, hmass', -, -, hmove⟩ := hfull S hS chainUnit [0] wellSprings 0 [0, 1, 2] r j mj well_symmetric rows movies structs hout mv hmv
  exact hno mass' hmass' mv hmv lam hmove

/-! ### The partial theorem applies -/

/-- The run for the chain with springs between the atoms; the modes at the edge of the zone are asked for. -/
theorem chain_input : Nonempty (ModeInput chainUnit [0] stiffSprings 1 ![1 / 2, 0, 0] [0, -1]) := by
  obtain ⟨L, hL⟩ := limitDen_exists
  obtain ⟨fs1, rec, s1, s2, files, hpre, -⟩ := C118_preprocess chain_preRun (.ok []) (.ok [])
  exact ⟨{
    cwd := "/w".toList, o := chainOpts, code := .vasp, a := _, e := [2, 1, 1], p := [1, 0, 0], d := 1 / 50, x := fun _ => chainArgs, junk := fun m => List.replicate m 0, fs := chainFs
    run := chain_preRun, d0 := by norm_num, det := chain_det, xyz := rfl, dec := chain_dec, d16 := ⟨2 * 10 ^ 14, by norm_num⟩, range := stiff_range, F0 := fun _ _ => 0
    search := .ok [], group := .ok [], fs1 := fs1, record := rec, pre := hpre, fs2 := chainFs2 fs1, glob := fun _ => [], args := chainForce, force := chainForce, files := rfl
    calculated := chain_calculated _ _ hpre, kband := "KPOINTS".toList, t := chainK, ks := [![0, 0, 0], ![1 / 2, 0, 0]], auto := []
    kfile := by
      have e1 : (List.range 6).find? (fun k => decide (absPath "/w".toList "KPOINTS".toList = chainDir k ++ "/POSCAR".toList)) = none := by decide +kernel
      have e2 : (List.range 6).find? (fun k => decide (absPath "/w".toList "KPOINTS".toList = chainDir k ++ "/vasprun.xml".toList)) = none := by decide +kernel
      simp only [chainFs2, e1, e2]
      rfl
    kread := by decide +kernel
    two := by decide
    inds := .list [.int 0, .int (-1)]
    request := {
      listed := rfl
      fits := by
        intro i hi
        fin_cases i
        · exact ⟨1, by simp [toReal]⟩
        · exact absurd rfl hi
        · exact absurd rfl hi
      last := by
        intro i' k' h1 h2 hm
        obtain ⟨hl, rfl⟩ := List.getElem?_eq_some_iff.1 h2
        simp at hl; omega
      fractions := by intro c _; revert c; decide +kernel
      indices := rfl
      valid := by decide }
    L := L, limit := hL, jc := fun m => List.replicate m 0, fresh := by simp }⟩

/-- The hypotheses of `C135_modes_partial` are met: the two modes at the zone edge have the frequency of `4 · 16.02 / m`. -/
example (S : Solver) (hS : IsSolver S) (j : Junk) (mj : ModeJunk) (r : ModeInput chainUnit [0] stiffSprings 1 ![1 / 2, 0, 0] [0, -1]) :
    ∃ rows movies structs, r.outcome S j mj (some 1) = .ok (rows, movies, structs) ∧ structs.map (·.1) = [0, -1] ∧ ∃ mass s, IsMasses chainUnit [0] mass ∧ ∀ st ∈ structs, ∃ lam,
      AlongMode (modeSprings r.L ![1 / 2, 0, 0] (fun i => r.p.getD i 0) stiffSprings) s st.2.cart
        (selectedCopies (copies (commensurate r.L ![1 / 2, 0, 0] fun i => r.p.getD i 0)) [0]) lam
        (fun c x => mass (3 * ([0] : List ℕ).idxOf (c / copies (commensurate r.L ![1 / 2, 0, 0] fun i => r.p.getD i 0)) + x)) := by
  have hrow : ∀ mass, IsMasses chainUnit [0] mass → ∀ b : Fin (3 * ([0] : List ℕ).length), ∃ lam : ℝ,
      (S (3 * ([0] : List ℕ).length) (trueDyn (toR chainUnit) [0] mass stiffSprings (qOf (toReal ![1 / 2, 0, 0]) (reciprocal (toR chainUnit).lattice)) (3 * ([0] : List ℕ).length))).1 b = freqOf (lam : ℂ) ∧
      EigenMode (toR chainUnit) [0] mass stiffSprings (qOf (toReal ![1 / 2, 0, 0]) (reciprocal (toR chainUnit).lattice)) lam
        fun d => ((modeRow S (trueDyn (toR chainUnit) [0] mass stiffSprings (qOf (toReal ![1 / 2, 0, 0]) (reciprocal (toR chainUnit).lattice)) (3 * ([0] : List ℕ).length)) b d).re : ℂ) := by
    intro mass hmass b
    obtain ⟨m, hm, hmm⟩ := chain_masses hmass
    have hdet : (toR chainUnit).lattice.det ≠ 0 := toR_det chain_det
    have hdyn := chain_dyn hm hmm (q := qOf (toReal ![1 / 2, 0, 0]) (reciprocal (toR chainUnit).lattice)) fun c => qOf_lattice _ hdet _ c
    refine ⟨4 * (1602 / 100) / m, ?_, ?_⟩
    · change (S 3 (trueDyn (toR chainUnit) [0] mass stiffSprings (qOf (toReal ![1 / 2, 0, 0]) (reciprocal (toR chainUnit).lattice)) 3)).1 b = _
      rw [hdyn]
      have h1 := spectrum_diagonal (spectrum_of_solver hS 3 (Matrix.diagonal fun _ => (((4 * (1602 / 100)) / m : ℝ) : ℂ)))
      have h2 : ∀ x ∈ List.ofFn (S 3 (Matrix.diagonal fun _ => (((4 * (1602 / 100)) / m : ℝ) : ℂ))).1, x = freqOf (((4 * (1602 / 100)) / m : ℝ) : ℂ) := by
        rw [h1]; exact fun x hx => List.eq_of_mem_replicate hx
      exact h2 _ (List.mem_ofFn.2 ⟨b, rfl⟩)
    · intro x
      change ∑ c : Fin 3, trueDyn (toR chainUnit) [0] mass stiffSprings (qOf (toReal ![1 / 2, 0, 0]) (reciprocal (toR chainUnit).lattice)) 3 x c * _ = _
      generalize hv : (fun d : ℕ => ((modeRow S (trueDyn (toR chainUnit) [0] mass stiffSprings (qOf (toReal ![1 / 2, 0, 0]) (reciprocal (toR chainUnit).lattice)) (3 * ([0] : List ℕ).length)) b d).re : ℂ)) = v
      rw [hdyn]
      simp [Matrix.diagonal_apply]
  obtain ⟨rows, movies, structs, mass, len, row, h1, -, h2, h3, -, -, s, sm, -, h4⟩ := C135_modes_partial r hS j mj hrow 1
  exact ⟨rows, movies, structs, h1, h2, mass, s, h3, fun st hst => (h4 st hst).imp fun lam h => h.2⟩

end
end Interphon.Props
