import Verif.Props.ProgramDos
import Verif.Props.ProgramExample
import Mathlib.Analysis.Matrix.Spectrum

/-! # C120, C121: complete examples (the chain of carbon atoms of ProgramExample) -/

namespace Interphon.Props
open Py Interphon Interphon.UnitCell Interphon.SuperCell Interphon.PreProcess Interphon.Args Interphon.Inout Interphon.Cli Interphon.Main
open Interphon.PostProcess Interphon.Phonon Interphon.ForceConstant

/-- A solver that returns unitary eigenvectors for Hermitian matrices. -/
theorem normalised_solver_exists : ∃ S : Solver, IsSolver S ∧ Normalised S := by
  have h : ∀ (m : ℕ) (A : Matrix (Fin m) (Fin m) ℂ), ∃ r : (Fin m → ℝ) × Matrix (Fin m) (Fin m) ℂ,
      (∃ (w : Fin m → ℂ) (V : Matrix (Fin m) (Fin m) ℂ) (σ τ : Equiv.Perm (Fin m)),
        IsEig A w V ∧ IsArgsort (fun i => freqOf (w i)) σ ∧ IsArgsort (fun i => freqOf (w (σ i))) τ ∧ r = store w V σ τ) ∧
      (A.IsHermitian → ∀ i, ∑ c, ‖r.2 i c‖ ^ 2 = 1) := by
    intro m A
    by_cases hA : A.IsHermitian
    · have hU : (hA.eigenvectorUnitary : Matrix (Fin m) (Fin m) ℂ) * star (hA.eigenvectorUnitary : Matrix (Fin m) (Fin m) ℂ) = 1 := Unitary.coe_mul_star_self _
      have hrow : ∀ i, ∑ c, ‖(hA.eigenvectorUnitary : Matrix (Fin m) (Fin m) ℂ) i c‖ ^ 2 = 1 := by
        intro i
        have := congrFun (congrFun hU i) i
        rw [Matrix.mul_apply, Matrix.one_apply_eq] at this
        have h2 : ((∑ c, ‖(hA.eigenvectorUnitary : Matrix (Fin m) (Fin m) ℂ) i c‖ ^ 2 : ℝ) : ℂ) = 1 := by
          rw [← this]
          push_cast
          refine Finset.sum_congr rfl fun c _ => ?_
          rw [Matrix.star_apply, ← Complex.mul_conj']
          rfl
        exact_mod_cast h2
      refine ⟨store (fun i => ((hA.eigenvalues i : ℝ) : ℂ)) hA.eigenvectorUnitary (Tuple.sort _) (Tuple.sort _),
        ⟨_, _, Tuple.sort _, Tuple.sort _, ⟨?_, ?_, ?_⟩, Tuple.monotone_sort _, Tuple.monotone_sort _, rfl⟩, fun _ i => hrow _⟩
      · intro j
        have := hA.mulVec_eigenvectorBasis j
        show A.mulVec (⇑(hA.eigenvectorBasis j)) = ((hA.eigenvalues j : ℝ) : ℂ) • ⇑(hA.eigenvectorBasis j)
        rw [this]
        funext r
        simp
      · intro j h0
        have h1 := hA.eigenvectorBasis.orthonormal.1 j
        have : hA.eigenvectorBasis j = 0 := by
          ext r
          exact congrFun h0 r
        rw [this, norm_zero] at h1
        exact zero_ne_one h1
      · exact hA.charpoly_eq
    · obtain ⟨w, V, hw⟩ := eig_exists m A
      exact ⟨_, ⟨w, V, Tuple.sort _, Tuple.sort _, hw, Tuple.monotone_sort _, Tuple.monotone_sort _, rfl⟩, fun h => absurd h hA⟩
  choose S hS using h
  exact ⟨S, fun m A => (hS m A).1, fun m A => (hS m A).2⟩

theorem stiff_symmetric : SymmetricSprings stiffSprings := by
  intro a x b y l
  unfold stiffSprings
  by_cases hxy : x = y
  · rw [if_pos hxy, if_pos hxy.symm]
    have e1 : (![1, 0, 0] : Fin 3 → ℤ) = -l ↔ (![-1, 0, 0] : Fin 3 → ℤ) = l := by
      rw [eq_comm, neg_eq_iff_eq_neg, eq_comm]
      have : -(![1, 0, 0] : Fin 3 → ℤ) = ![-1, 0, 0] := by decide
      rw [this]
    have e2 : (![-1, 0, 0] : Fin 3 → ℤ) = -l ↔ (![1, 0, 0] : Fin 3 → ℤ) = l := by
      rw [eq_comm, neg_eq_iff_eq_neg, eq_comm]
      have : -(![-1, 0, 0] : Fin 3 → ℤ) = ![1, 0, 0] := by decide
      rw [this]
    have e0 : (0 : Fin 3 → ℤ) = -l ↔ (0 : Fin 3 → ℤ) = l := by rw [eq_comm, neg_eq_zero, eq_comm]
    simp only [Finsupp.add_apply, Finsupp.single_apply, e0, e1, e2]
    ring
  · rw [if_neg hxy, if_neg (Ne.symm hxy)]
    rfl

theorem chain_dec : DecCell chainUnit :=
  ⟨fun i j => by show Dec16 (if i = j then 4 else 0); split_ifs; exacts [⟨4 * 10 ^ 16, by norm_num⟩, ⟨0, by norm_num⟩],
    by
      intro v hv j
      have : v = ![1 / 2, 0, 0] := by simpa [chainUnit] using hv
      subst this
      fin_cases j
      · exact ⟨5 * 10 ^ 15, by norm_num⟩
      · exact ⟨0, by norm_num⟩
      · exact ⟨0, by norm_num⟩⟩

theorem chain_det : Matrix.det chainUnit.lattice ≠ 0 := by
  rw [Matrix.det_fin_three]
  simp [chainUnit]

theorem chain_masses {mass : ℕ → ℝ} (h : IsMasses chainUnit [0] mass) : ∃ m > 0, ∀ r < 3, mass r = m := by
  obtain ⟨w, h1, h2, h3⟩ := h 0 0 0 "C".toList rfl rfl
  refine ⟨((w / (6022 * 10 ^ 20) / 1000 : ℚ) : ℝ), ?_, ?_⟩
  rotate_right
  · intro r hr
    obtain ⟨w', h1', -, h3'⟩ := h 0 0 ⟨r, hr⟩ "C".toList rfl rfl
    rw [h1] at h1'
    cases h1'
    simpa using h3'
  · have : (0 : ℚ) < w / (6022 * 10 ^ 20) / 1000 := by positivity
    exact_mod_cast this

/-- At the zone boundary the dynamical matrix of the chain is `4 · 16.02 N/m` over the mass, times the unit matrix. -/
theorem chain_dyn {mass : ℕ → ℝ} {m : ℝ} (hm : 0 < m) (hmass : ∀ r < 3, mass r = m) {q : V3 ℝ}
    (hq : ∀ c, dot3 q ((toR chainUnit).lattice c) = 2 * Real.pi * (((![1 / 2, 0, 0] : V3 ℚ) c : ℚ) : ℝ)) :
    trueDyn (toR chainUnit) [0] mass stiffSprings q 3 = Matrix.diagonal fun _ => (((4 * (1602 / 100)) / m : ℝ) : ℂ) := by
  have hq0 : 4 * q 0 = Real.pi := by
    have := hq 0
    simp [dot3, toR, chainUnit] at this
    linarith
  ext r c
  have hr3 : (r : ℕ) / 3 = 0 := by have := r.2; omega
  have hc3 : (c : ℕ) / 3 = 0 := by have := c.2; omega
  simp only [trueDyn, Matrix.of_apply, hr3, hc3, hmass r r.2, hmass c c.2, Real.sqrt_mul_self hm.le]
  by_cases hrc : r = c
  · subst hrc
    rw [Matrix.diagonal_apply_eq]
    unfold stiffSprings
    rw [if_pos rfl, Finsupp.sum_add_index' (by simp) (by intros; push_cast; ring), Finsupp.sum_add_index' (by simp) (by intros; push_cast; ring),
      Finsupp.sum_single_index (by simp), Finsupp.sum_single_index (by simp), Finsupp.sum_single_index (by simp)]
    have e0 : dot3 q ((toR chainUnit).cart.getD (([0] : List ℕ).getD 0 0) 0 + latVec (toR chainUnit).lattice 0 - (toR chainUnit).cart.getD (([0] : List ℕ).getD 0 0) 0) = 0 := by
      simp [latVec, dot3]
    have e1 : dot3 q ((toR chainUnit).cart.getD (([0] : List ℕ).getD 0 0) 0 + latVec (toR chainUnit).lattice ![1, 0, 0] - (toR chainUnit).cart.getD (([0] : List ℕ).getD 0 0) 0) = Real.pi := by
      simp [latVec, dot3, Fin.sum_univ_three, toR, chainUnit]
      linarith
    have e2 : dot3 q ((toR chainUnit).cart.getD (([0] : List ℕ).getD 0 0) 0 + latVec (toR chainUnit).lattice ![-1, 0, 0] - (toR chainUnit).cart.getD (([0] : List ℕ).getD 0 0) 0) = -Real.pi := by
      simp [latVec, dot3, Fin.sum_univ_three, toR, chainUnit]
      linarith
    rw [e0, e1, e2]
    have x1 : Complex.exp (Complex.I * ((Real.pi : ℝ) : ℂ)) = -1 := by rw [mul_comm]; exact Complex.exp_pi_mul_I
    have x2 : Complex.exp (Complex.I * ((-Real.pi : ℝ) : ℂ)) = -1 := by
      rw [Complex.ofReal_neg, mul_neg, Complex.exp_neg, x1]; norm_num
    rw [x1, x2]
    push_cast
    rw [mul_zero, Complex.exp_zero]
    ring
  · rw [Matrix.diagonal_apply_ne _ hrc]
    have : comp (r : ℕ) ≠ comp (c : ℕ) := by
      revert hrc; revert r c; decide
    unfold stiffSprings
    rw [if_neg this]
    simp

theorem spectrum_diagonal {m : ℕ} {l : ℝ} {row : List ℝ} (h : IsSpectrum (Matrix.diagonal fun _ : Fin m => (l : ℂ)) row) : row = List.replicate m (freqOf l) := by
  have e := h.2
  rw [Matrix.charpoly_diagonal, Polynomial.roots_prod _ _ (Finset.prod_ne_zero_iff.2 fun i _ => Polynomial.X_sub_C_ne_zero _)] at e
  simp only [Polynomial.roots_X_sub_C, Multiset.bind_singleton, Multiset.map_map] at e
  rw [List.eq_replicate_iff]
  constructor
  · have := congrArg Multiset.card e
    simpa using this
  · intro b hb
    have : b ∈ (row : Multiset ℝ) := hb
    rw [e] at this
    obtain ⟨_, -, rfl⟩ := Multiset.mem_map.1 this
    rfl

/-- All hypotheses of `C121_dos_thermal` are met by the chain with the wave vector at the zone boundary: the three frequencies are equal and positive, `w > 0`;
with 5 points and width 1 the DOS file starts at `w - 2` in steps of `4/5`; at 300 K the free energy is that of three oscillators. -/
theorem chain_dos (search : Run (List (ℕ × List (V3 ℚ)))) (group : Run Str) (A : Argsorts) (j : Junk) :
    ∃ (S : Solver) (fs1 : Fs) (rec : PreRecord) (w : ℝ) (dos : Dos.State) (th : Thermal.State), IsSolver S ∧ 0 < w ∧
      preMain "/w".toList chainOpts (fun _ => chainArgs) (fun m => List.replicate m 0) search group chainFs = .ok (fs1, rec) ∧
      dosMain S A j "/w".toList {} rec (fun _ => []) chainForce "KDOS".toList 1 5 (some [300]) search (chainFs2 fs1) = .ok (dos, some th) ∧
      (Dos.totalRows dos)[0]? = some (w - 2, some (3 * bell 1 w (w - 2))) ∧
      th.freeEnergy = [some (3 * oscF (quantum w) 300)] := by
  obtain ⟨S, hS, hU⟩ := normalised_solver_exists
  obtain ⟨fs1, rec, h1, h2⟩ := C121_dos_thermal chain_preRun (by norm_num) chain_det rfl chain_dec ⟨2 * 10 ^ 14, by norm_num⟩ (by simp) stiffSprings stiff_range stiff_symmetric
    (fun _ _ => 0) search group hS hU A j
  obtain ⟨mass, rows, hmass, hlen, hrows, hrest⟩ := h2 (chainFs2 fs1) (fun _ => []) chainForce chainForce rfl (chain_calculated search group h1) "KDOS".toList chainKdos
    [![1 / 2, 0, 0]] [] (by
      have e1 : (List.range 6).find? (fun k => decide (absPath "/w".toList "KDOS".toList = chainDir k ++ "/POSCAR".toList)) = none := by decide +kernel
      have e2 : (List.range 6).find? (fun k => decide (absPath "/w".toList "KDOS".toList = chainDir k ++ "/vasprun.xml".toList)) = none := by decide +kernel
      simp only [chainFs2, e1, e2]
      rfl) (by decide +kernel) (by simp) (by
      intro k hk
      have : k = ![1 / 2, 0, 0] := by simpa using hk
      subst this
      intro i hi
      fin_cases i
      · exact ⟨1, by simp [toReal]⟩
      · simp at hi
      · simp at hi)
  obtain ⟨m, hm, hmm⟩ := chain_masses hmass
  obtain ⟨row, q, r1, r2, r3⟩ := hrows 0 _ rfl
  have r3' : IsSpectrum (trueDyn (toR chainUnit) [0] mass stiffSprings q 3) row := r3
  rw [chain_dyn hm hmm r2] at r3'
  have hrow := spectrum_diagonal r3'
  have hrr : rows = [row] := by
    rcases rows with _ | ⟨x, _ | ⟨y, ys⟩⟩
    · simp at r1
    · simpa using r1
    · simp at hlen
  obtain ⟨dos, th, d1, ⟨lo, hlo, hi, hhi, -, d2⟩, d3⟩ := hrest 1 5 [300] one_ne_zero (by norm_num)
  set w : ℝ := freqOf ((((4 * (1602 / 100)) / m : ℝ) : ℂ)) with hw
  have hwpos : 0 < w := by
    have := C30_order_preserving (show (0 : ℝ) < (4 * (1602 / 100)) / m by positivity)
    have h0 : freqOf ((0 : ℝ) : ℂ) = 0 := (C30_sign 0).2.2 rfl
    simp only at this
    rwa [h0] at this
  have hflat : rows.flatten = [w, w, w] := by rw [hrr, hrow]; rfl
  rw [hflat] at hlo hhi d2 d3
  have elo : lo = w := by simpa using hlo
  have ehi : hi = w := by simpa using hhi
  rw [elo, ehi] at d2
  clear_value w
  refine ⟨S, fs1, rec, w, dos, th, hS, hwpos, h1, d1, ?_, ?_⟩
  · rw [d2]
    simp
    ring_nf
  · obtain ⟨-, t2, -⟩ := d3 (by simp) (by simp [hwpos.ne])
    rw [t2]
    simp [hwpos.le]
    ring

/-- All hypotheses of `C120_dos_and_band` are met by the chain: the run with DOS, thermal properties and band succeeds. -/
theorem chain_both (search : Run (List (ℕ × List (V3 ℚ)))) (group : Run Str) (A : Argsorts) (j j' : Junk) :
    ∃ (S : Solver) (fs1 : Fs) (rec : PreRecord) (x : Dos.State × Option Thermal.State) (b : List (ℝ × List ℝ)),
      preMain "/w".toList chainOpts (fun _ => chainArgs) (fun m => List.replicate m 0) search group chainFs = .ok (fs1, rec) ∧
      bothMain S A j j' "/w".toList {} rec (fun _ => []) chainForce "KDOS".toList "KPOINTS".toList 1 5 (some [300]) search (chainFs2 fs1) = .ok (x, b) ∧ b.length = 2 := by
  obtain ⟨S, fs1, rec, w, dos, th, hS, -, hpre, hdos, -⟩ := chain_dos search group A j
  obtain ⟨fs1', rec', h1, h2⟩ := C118_end_to_end chain_preRun (by norm_num) chain_det rfl chain_dec ⟨2 * 10 ^ 14, by norm_num⟩ stiffSprings stiff_range (fun _ _ => 0) search group hS j
  rw [hpre] at h1; cases h1
  obtain ⟨obj, rows, mass, h3, -, h4, -⟩ := h2 (chainFs2 fs1) (fun _ => []) chainForce chainForce rfl (chain_calculated search group hpre) "KPOINTS".toList chainK
    [![0, 0, 0], ![1 / 2, 0, 0]] [] (by
      have e1 : (List.range 6).find? (fun k => decide (absPath "/w".toList "KPOINTS".toList = chainDir k ++ "/POSCAR".toList)) = none := by decide +kernel
      have e2 : (List.range 6).find? (fun k => decide (absPath "/w".toList "KPOINTS".toList = chainDir k ++ "/vasprun.xml".toList)) = none := by decide +kernel
      simp only [chainFs2, e1, e2]
      rfl) (by decide +kernel) (by decide)
  obtain ⟨_, rec', _, _, _, h1, hrec, -⟩ := C118_preprocess chain_preRun search group
  rw [hpre] at h1; cases h1
  have hsym : (postResolve "/w".toList {} rec).sym = false := by
    cases hrec
    rfl
  refine ⟨S, fs1, rec, (dos, some th), rows, hpre, ?_, h4⟩
  exact (C120_dos_and_band S A j j' j _ _ _ _ _ _ _ _ _ _ search _ (by rw [hsym]; intro h; cases h) _ _).2 ⟨hdos, obj, h3⟩

end Interphon.Props
