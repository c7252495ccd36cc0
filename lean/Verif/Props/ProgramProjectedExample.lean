import Verif.Props.ProgramProjected

/-! # C136: the columns of the projected density of states belong to other modes -/

namespace Interphon.Props
open Py Interphon Interphon.UnitCell Interphon.SuperCell Interphon.PreProcess Interphon.Args Interphon.Inout Interphon.Cli Interphon.Main
open Interphon.PostProcess Interphon.Phonon Interphon.ForceConstant Interphon.Mode

noncomputable section

/-- The k points of the file. -/
def wellKs : List (V3 ℚ) := [![0, 0, 0], ![1 / 2, 0, 0]]

/-- The run for the atoms held by a surface. -/
theorem well_dos_input : Nonempty (DosInput chainUnit [0] wellSprings wellKs) := by
  obtain ⟨fs1, rec, s1, s2, files, hpre, -⟩ := C118_preprocess chain_preRun (.ok []) (.ok [])
  exact ⟨{
    cwd := "/w".toList, o := chainOpts, code := .vasp, a := _, e := [2, 1, 1], p := [1, 0, 0], d := 1 / 50, x := fun _ => chainArgs, junk := fun m => List.replicate m 0, fs := chainFs
    run := chain_preRun, d0 := by norm_num, det := chain_det, xyz := rfl, dec := chain_dec, d16 := ⟨2 * 10 ^ 14, by norm_num⟩, atoms := by simp, range := well_range, F0 := fun _ _ => 0
    search := .ok [], group := .ok [], fs1 := fs1, record := rec, pre := hpre, fs2 := wellFs2 fs1, glob := fun _ => [], args := chainForce, force := chainForce, files := rfl
    calculated := well_calculated _ _ hpre, kdos := "KPOINTS".toList, t := chainK, auto := []
    kfile := by
      have e1 : (List.range 6).find? (fun k => decide (absPath "/w".toList "KPOINTS".toList = chainDir k ++ "/POSCAR".toList)) = none := by decide +kernel
      have e2 : (List.range 6).find? (fun k => decide (absPath "/w".toList "KPOINTS".toList = chainDir k ++ "/vasprun.xml".toList)) = none := by decide +kernel
      simp only [wellFs2, e1, e2]
      rfl
    kread := by decide +kernel
    some := by decide
    fits := by
      intro k hk i hi
      have hk' : k = ![0, 0, 0] ∨ k = ![1 / 2, 0, 0] := by simpa [wellKs] using hk
      fin_cases i
      · rcases hk' with rfl | rfl
        · exact ⟨0, by simp [toReal]⟩
        · exact ⟨1, by simp [toReal]⟩
      · exact absurd rfl hi
      · exact absurd rfl hi }⟩

theorem well_dyn_at {mass : ℕ → ℝ} {m : ℝ} (hm : 0 < m) (hmass : ∀ r < 3, mass r = m) (k : V3 ℚ) : dynAt chainUnit [0] mass wellSprings k = wellA (1602 / 100 / m) := by
  unfold dynAt
  generalize qOf (toReal k) (reciprocal (toR chainUnit).lattice) = q
  rw [← well_dyn hm hmass]
  ext r c
  have hr3 : (r : ℕ) / 3 = 0 := by have : (r : ℕ) < 3 := r.2; omega
  have hc3 : (c : ℕ) / 3 = 0 := by have : (c : ℕ) < 3 := c.2; omega
  simp only [trueDyn, Matrix.of_apply, hr3, hc3]
  congr 1
  unfold wellSprings
  rw [if_pos rfl, Finsupp.sum_single_index (by simp), Finsupp.sum_single_index (by simp)]
  have hl : ∀ x : V3 ℝ, x + latVec (toR chainUnit).lattice 0 - x = 0 := by
    intro x; funext y; simp [latVec]
  rw [hl]
  simp [dot3]

/-- The normal modes, from soft to stiff. -/
def wellModes : Fin 3 → Fin 3 → ℂ :=
  ![![((1 / Real.sqrt 3 : ℝ) : ℂ), ((1 / Real.sqrt 3 : ℝ) : ℂ), ((1 / Real.sqrt 3 : ℝ) : ℂ)], ![((1 / Real.sqrt 2 : ℝ) : ℂ), ((-(1 / Real.sqrt 2) : ℝ) : ℂ), ((0 : ℝ) : ℂ)],
    ![((1 / Real.sqrt 6 : ℝ) : ℂ), ((1 / Real.sqrt 6 : ℝ) : ℂ), ((-2 * (1 / Real.sqrt 6) : ℝ) : ℂ)]]

theorem well_modes (κ : ℝ) : NormalModes (wellA κ) ![6 * κ, 12 * κ, 18 * κ] wellModes := by
  have h3 : (1 / Real.sqrt 3) * (1 / Real.sqrt 3) = 1 / 3 := by rw [div_mul_div_comm, Real.mul_self_sqrt (by norm_num)]; norm_num
  have h2 : (1 / Real.sqrt 2) * (1 / Real.sqrt 2) = 1 / 2 := by rw [div_mul_div_comm, Real.mul_self_sqrt (by norm_num)]; norm_num
  have h6 : (1 / Real.sqrt 6) * (1 / Real.sqrt 6) = 1 / 6 := by rw [div_mul_div_comm, Real.mul_self_sqrt (by norm_num)]; norm_num
  unfold wellModes
  generalize (1 / Real.sqrt 3) = a at *
  generalize (1 / Real.sqrt 2) = b at *
  generalize (1 / Real.sqrt 6) = c at *
  have ha : (a : ℂ) * a = 1 / 3 := by rw [← Complex.ofReal_mul, h3]; norm_num
  have hb : (b : ℂ) * b = 1 / 2 := by rw [← Complex.ofReal_mul, h2]; norm_num
  have hc : (c : ℂ) * c = 1 / 6 := by rw [← Complex.ofReal_mul, h6]; norm_num
  have h2c : (starRingEnd ℂ) 2 = 2 := Complex.conj_ofReal 2
  constructor
  · intro i
    funext r
    fin_cases i <;> fin_cases r <;> simp [Matrix.mulVec, dotProduct, Fin.sum_univ_three, wellA, wellB] <;> ring
  · intro i k
    fin_cases i <;> fin_cases k <;> simp [Fin.sum_univ_three, Complex.conj_ofReal, h2c] <;>
      first
      | ring1
      | linear_combination 3 * ha
      | linear_combination 2 * hb
      | linear_combination 6 * hc

/-- The squared components of the eigenvectors. -/
theorem well_norms {κ : ℝ} (hκ : κ ≠ 0) {w : Fin 3 → ℂ} {V : Matrix (Fin 3) (Fin 3) ℂ} (hE : IsEig (wellA κ) w V) (hV : ∀ c, ∑ r, ‖V r c‖ ^ 2 = 1) (m : Fin 3) :
    (w m = κ * 6 → ∀ r, ‖V r m‖ ^ 2 = 1 / 3) ∧ (w m = κ * 12 → ∀ r, ‖V r m‖ ^ 2 ≠ 1 / 3) ∧ (w m = κ * 18 → ∀ r, ‖V r m‖ ^ 2 ≠ 1 / 3) := by
  have hκ' : (κ : ℂ) ≠ 0 := by exact_mod_cast hκ
  have hB : ∀ μ : ℂ, w m = κ * μ → (μ - 6) * (V 0 m + V 1 m + V 2 m) = 0 ∧ (μ - 12) * (V 0 m - V 1 m) = 0 ∧ (μ - 18) * (V 0 m + V 1 m - 2 * V 2 m) = 0 := by
    intro μ hμ
    refine rows_B (fun r => V r m) κ μ hκ' fun r => ?_
    have := congrFun (hE.vec m) r
    simp only [Matrix.mulVec, dotProduct, wellA, Matrix.of_apply, Pi.smul_apply, smul_eq_mul, hμ] at this
    exact this
  have hn := hV m
  rw [Fin.sum_univ_three] at hn
  have split3 : ∀ z : Fin 3, z = 0 ∨ z = 1 ∨ z = 2 := by decide
  refine ⟨fun h r => ?_, fun h r => ?_, fun h r => ?_⟩
  · obtain ⟨-, h2, h3⟩ := hB _ h
    have e1 : V 1 m = V 0 m := by linear_combination (1 / 6) * h2
    have e2 : V 2 m = V 0 m := by linear_combination (1 / 24) * h3 + (1 / 2) * (1 / 6) * h2
    rw [e1, e2] at hn
    rcases split3 r with rfl | rfl | rfl <;> [skip; rw [e1]; rw [e2]] <;> linarith
  · obtain ⟨h1, -, h3⟩ := hB _ h
    have e2 : V 2 m = 0 := by linear_combination (1 / 18) * h1 + (1 / 18) * h3
    have e1 : V 1 m = -V 0 m := by linear_combination (1 / 6) * h1 - e2
    have e1n : ‖V 1 m‖ = ‖V 0 m‖ := by rw [e1, norm_neg]
    have e2n : ‖V 2 m‖ = 0 := by rw [e2, norm_zero]
    rw [e1n, e2n] at hn
    rcases split3 r with rfl | rfl | rfl <;> [skip; rw [e1n]; rw [e2n]] <;> intro hc <;> linarith
  · obtain ⟨h1, h2, -⟩ := hB _ h
    have e1 : V 1 m = V 0 m := by linear_combination (-1 / 6) * h2
    have e2 : V 2 m = -2 * V 0 m := by linear_combination (1 / 12) * h1 - e1
    have e2n : ‖V 2 m‖ ^ 2 = 4 * ‖V 0 m‖ ^ 2 := by rw [e2, norm_mul, mul_pow]; norm_num
    rw [e1, e2n] at hn
    rcases split3 r with rfl | rfl | rfl <;> [skip; rw [e1]; rw [e2n]] <;> intro hc <;> linarith

theorem well_shares (d : Fin 3) : ‖wellModes 0 d‖ ^ 2 = 1 / 3 ∧ ‖wellModes 1 d‖ ^ 2 ≠ 1 / 3 := by
  have h3 : (1 / Real.sqrt 3) ^ 2 = 1 / 3 := by rw [div_pow, Real.sq_sqrt (by norm_num)]; norm_num
  have h2 : (1 / Real.sqrt 2) ^ 2 = 1 / 2 := by rw [div_pow, Real.sq_sqrt (by norm_num)]; norm_num
  unfold wellModes
  generalize (1 / Real.sqrt 3) = a at *
  generalize (1 / Real.sqrt 2) = b at *
  fin_cases d <;> simp [h3, h2] <;> norm_num <;> intro hc <;> rw [h2] at hc <;> norm_num at hc

/-- **C136** (the violation).  For atoms held by a surface with stable springs, with any eigenvalue routine that returns eigenvectors of norm 1 and at least three rows, *no* column of
`projected_dos.dat` shows the share of its degree of freedom in the normal modes. -/
theorem C136_no_column {S : Solver} (hS : LapackSolver S) (r : DosInput chainUnit [0] wellSprings wellKs) (A : Argsorts) (j : Junk) {sigma : ℝ} (hsig : sigma ≠ 0) {num : ℕ}
    (hnum : 3 ≤ num) : ∃ dos, r.outcome S A j sigma num = .ok (dos, none) ∧ ∀ mass, IsMasses chainUnit [0] mass →
      ∀ (lam : Fin 2 → Fin 3 → ℝ) (v : Fin 2 → Fin 3 → Fin 3 → ℂ), (∀ k : Fin 2, NormalModes (dynAt chainUnit [0] mass wellSprings wellKs[k]) (lam k) (v k)) →
        ∀ d : Fin 3, ¬ ∀ x ∈ Dos.columnRows dos d, x.2 = some (smeared sigma (fun k b => freqOf (lam k b : ℂ)) (fun k b => ‖v k b d‖ ^ 2) x.1) := by
  obtain ⟨mass0, hmass0, hrun⟩ := C136_written r hS.isSolver A j
  obtain ⟨dos, lo, hi, hout, -⟩ := hrun sigma num hsig (by omega)
  refine ⟨dos, hout, fun mass hmass lam v hv d hcol => ?_⟩
  obtain ⟨m, hm, hmm⟩ := chain_masses hmass
  set κ : ℝ := 1602 / 100 / m with hκd
  have hκ : 0 < κ := by positivity
  have hdyn : ∀ k, dynAt chainUnit [0] mass wellSprings k = wellA κ := well_dyn_at hm hmm
  have hherm : (wellA κ).IsHermitian := by
    rw [← hdyn 0]; exact trueDyn_hermitian (toR chainUnit) [0] mass well_symmetric _ _
  obtain ⟨w, V, σ, τ, hE, -, -, hSt, hV⟩ := hS 3 (wellA κ)
  -- the exact modes may be chosen
  have hcol' : ∀ x ∈ Dos.columnRows dos d, x.2 = some (smeared (n := 2) sigma (fun _ b => freqOf ((![6 * κ, 12 * κ, 18 * κ] : Fin 3 → ℝ) b : ℂ)) (fun _ b => ‖wellModes b d‖ ^ 2) x.1) := by
    intro x hx
    rw [hcol x hx]
    congr 1
    unfold smeared
    congr 1
    refine Finset.sum_congr rfl fun k _ => ?_
    have h1 := hv k
    rw [hdyn] at h1
    exact h1.share_unique hherm (well_modes κ) (fun l => bell sigma (freqOf (l : ℂ)) x.1) d
  have hiff := (C136_column_iff r hS.isSolver A j hsig hout hmass (by
    refine le_trans ?_ hnum
    simp only [hdyn]
    have : (Finset.univ.image fun x : Fin wellKs.length × Fin (3 * ([0] : List ℕ).length) => (S _ (wellA κ)).1 x.2) ⊆ Finset.univ.image (S 3 (wellA κ)).1 := by
      intro y hy
      obtain ⟨x, -, rfl⟩ := Finset.mem_image.1 hy
      exact Finset.mem_image_of_mem (S 3 (wellA κ)).1 (Finset.mem_univ x.2)
    exact (Finset.card_le_card this).trans (Finset.card_image_le.trans (by simp)))
    (lam := fun _ => ![6 * κ, 12 * κ, 18 * κ]) (v := fun _ => wellModes) (fun k => by rw [hdyn]; exact well_modes κ) d).1 hcol'
  simp only [hdyn] at hiff
  have hiff' : ∀ ν, (∑ b : Fin 3, if (S 3 (wellA κ)).1 b = ν then ‖(S 3 (wellA κ)).2 b d‖ ^ 2 else 0) =
      ∑ b : Fin 3, if freqOf ((![6 * κ, 12 * κ, 18 * κ] : Fin 3 → ℝ) b : ℂ) = ν then ‖wellModes b d‖ ^ 2 else 0 := by
    intro ν
    have := hiff ν
    change (∑ _k : Fin 2, ∑ b : Fin 3, if (S 3 (wellA κ)).1 b = ν then ‖(S 3 (wellA κ)).2 b d‖ ^ 2 else 0) =
      ∑ _k : Fin 2, ∑ b : Fin 3, if freqOf ((![6 * κ, 12 * κ, 18 * κ] : Fin 3 → ℝ) b : ℂ) = ν then ‖wellModes b d‖ ^ 2 else 0 at this
    simp only [Finset.sum_const, Finset.card_univ, Fintype.card_fin, nsmul_eq_mul] at this
    exact mul_left_cancel₀ (by norm_num) this
  -- each value occurs once
  obtain ⟨m6, h6⟩ := well_value hE 6 (by ring)
  obtain ⟨m12, h12⟩ := well_value hE 12 (by ring)
  obtain ⟨m18, h18⟩ := well_value hE 18 (by ring)
  have hinj := C30_order_preserving.injective
  have hκ' : (κ : ℂ) ≠ 0 := by exact_mod_cast hκ.ne'
  have n1 : m6 ≠ m12 := by intro e; rw [e, h12] at h6; have := mul_left_cancel₀ hκ' h6; norm_num at this
  have n2 : m6 ≠ m18 := by intro e; rw [e, h18] at h6; have := mul_left_cancel₀ hκ' h6; norm_num at this
  have n3 : m12 ≠ m18 := by intro e; rw [e, h18] at h12; have := mul_left_cancel₀ hκ' h12; norm_num at this
  have hcover : ∀ c : Fin 3, c = m6 ∨ c = m12 ∨ c = m18 := by
    have : ∀ a b c x : Fin 3, a ≠ b → a ≠ c → b ≠ c → x = a ∨ x = b ∨ x = c := by decide
    exact fun c => this m6 m12 m18 c n1 n2 n3
  have hfr : ∀ {x y : ℝ}, x ≠ y → freqOf ((κ * x : ℝ) : ℂ) ≠ freqOf ((κ * y : ℝ) : ℂ) := fun hxy hc => hxy (mul_left_cancel₀ hκ.ne' (hinj hc))
  have c6 : freqOf (w m6) = freqOf ((κ * 6 : ℝ) : ℂ) := by rw [h6]; push_cast; rfl
  have c12 : freqOf (w m12) = freqOf ((κ * 12 : ℝ) : ℂ) := by rw [h12]; push_cast; rfl
  have c18 : freqOf (w m18) = freqOf ((κ * 18 : ℝ) : ℂ) := by rw [h18]; push_cast; rfl
  have d1 := hfr (x := 6) (y := 12) (by norm_num)
  have d2 := hfr (x := 6) (y := 18) (by norm_num)
  have d3 := hfr (x := 12) (y := 18) (by norm_num)
  have hS1 : ∀ b, (S 3 (wellA κ)).1 b = freqOf (w (σ b)) := fun b => by rw [hSt]; rfl
  have hS2 : ∀ b, (S 3 (wellA κ)).2 b d = V (τ b) d := fun b => by rw [hSt]; rfl
  have r0 : freqOf ((![6 * κ, 12 * κ, 18 * κ] : Fin 3 → ℝ) 0 : ℂ) = freqOf ((κ * 6 : ℝ) : ℂ) := by rw [mul_comm κ]; rfl
  have r1 : freqOf ((![6 * κ, 12 * κ, 18 * κ] : Fin 3 → ℝ) 1 : ℂ) = freqOf ((κ * 12 : ℝ) : ℂ) := by rw [mul_comm κ]; rfl
  have r2 : freqOf ((![6 * κ, 12 * κ, 18 * κ] : Fin 3 → ℝ) 2 : ℂ) = freqOf ((κ * 18 : ℝ) : ℂ) := by rw [mul_comm κ]; rfl
  have hnorm := well_norms hκ.ne' hE (fun c => (hV c).1) d
  have hsh := well_shares d
  -- the sum over the rows has one term
  have hone : ∀ (m : Fin 3), (∀ c, freqOf (w c) = freqOf (w m) → c = m) →
      (∑ b : Fin 3, if (S 3 (wellA κ)).1 b = freqOf (w m) then ‖(S 3 (wellA κ)).2 b d‖ ^ 2 else 0) = ‖V (τ (σ.symm m)) d‖ ^ 2 := by
    intro m hm
    rw [Finset.sum_eq_single (σ.symm m)]
    · rw [hS1, hS2, Equiv.apply_symm_apply, if_pos rfl]
    · intro b _ hb
      rw [if_neg]
      intro hc
      rw [hS1] at hc
      exact hb (by rw [← hm _ hc, Equiv.symm_apply_apply])
    · exact fun hc => absurd (Finset.mem_univ _) hc
  have o6 : ∀ c, freqOf (w c) = freqOf (w m6) → c = m6 := by
    intro c hc
    rcases hcover c with e | e | e
    · exact e
    · rw [e, c12, c6] at hc; exact absurd hc.symm d1
    · rw [e, c18, c6] at hc; exact absurd hc.symm d2
  have o12 : ∀ c, freqOf (w c) = freqOf (w m12) → c = m12 := by
    intro c hc
    rcases hcover c with e | e | e
    · rw [e, c12, c6] at hc; exact absurd hc d1
    · exact e
    · rw [e, c18, c12] at hc; exact absurd hc.symm d3
  have e6 : ‖V (τ (σ.symm m6)) d‖ ^ 2 = 1 / 3 := by
    rw [← hone m6 o6, hiff', Fin.sum_univ_three, r0, r1, r2, c6, if_pos rfl, if_neg d1.symm, if_neg d2.symm, add_zero, add_zero]
    exact hsh.1
  have e12 : ‖V (τ (σ.symm m12)) d‖ ^ 2 ≠ 1 / 3 := by
    rw [← hone m12 o12, hiff', Fin.sum_univ_three, r0, r1, r2, c12, if_pos rfl, if_neg d1, if_neg d3.symm, zero_add, add_zero]
    exact hsh.2
  rcases hcover d with e | e | e
  · have := hnorm.1 (e ▸ h6)
    exact e12 (this _)
  · exact hnorm.2.1 (e ▸ h12) _ e6
  · exact hnorm.2.2 (e ▸ h18) _ e6

/-- **C136** (full statement refuted). -/
theorem C136_refuted : ¬ C136_full := by
  intro hfull
  obtain ⟨S, hS⟩ := lapack_solver_exists
  obtain ⟨r⟩ := well_dos_input
  let A : Argsorts := ⟨fun _ => 1, fun _ => 1, fun _ => 1⟩
  let j : Junk := ⟨default, default, default, default, default⟩
  obtain ⟨dos, hout, hno⟩ := C136_no_column hS r A j (sigma := 1) one_ne_zero (num := 3) le_rfl
  obtain ⟨mass, hmass, lam, v, hv, hcol⟩ := hfull S hS A chainUnit [0] wellSprings wellKs r j well_symmetric 1 3 one_ne_zero (by norm_num) dos none hout
  exact hno mass hmass lam v hv 0 (hcol 0)

/-- The run for the chain of springs, at the zone boundary. -/
theorem chain_dos_input : Nonempty (DosInput chainUnit [0] stiffSprings [![1 / 2, 0, 0]]) := by
  obtain ⟨fs1, rec, s1, s2, files, hpre, -⟩ := C118_preprocess chain_preRun (.ok []) (.ok [])
  exact ⟨{
    cwd := "/w".toList, o := chainOpts, code := .vasp, a := _, e := [2, 1, 1], p := [1, 0, 0], d := 1 / 50, x := fun _ => chainArgs, junk := fun m => List.replicate m 0, fs := chainFs
    run := chain_preRun, d0 := by norm_num, det := chain_det, xyz := rfl, dec := chain_dec, d16 := ⟨2 * 10 ^ 14, by norm_num⟩, atoms := by simp, range := stiff_range, F0 := fun _ _ => 0
    search := .ok [], group := .ok [], fs1 := fs1, record := rec, pre := hpre, fs2 := chainFs2 fs1, glob := fun _ => [], args := chainForce, force := chainForce, files := rfl
    calculated := chain_calculated _ _ hpre, kdos := "KDOS".toList, t := chainKdos, auto := []
    kfile := by
      have e1 : (List.range 6).find? (fun k => decide (absPath "/w".toList "KDOS".toList = chainDir k ++ "/POSCAR".toList)) = none := by decide +kernel
      have e2 : (List.range 6).find? (fun k => decide (absPath "/w".toList "KDOS".toList = chainDir k ++ "/vasprun.xml".toList)) = none := by decide +kernel
      simp only [chainFs2, e1, e2]
      rfl
    kread := by decide +kernel
    some := by simp
    fits := by
      intro k hk
      have : k = ![1 / 2, 0, 0] := by simpa using hk
      subst this
      intro i hi
      fin_cases i
      · exact ⟨1, by simp [toReal]⟩
      · simp at hi
      · simp at hi }⟩

/-- A solver that returns the unit vectors for a multiple of the unit matrix. -/
theorem unit_solver_exists : ∃ S : Solver, IsSolver S ∧ ∀ (m : ℕ) (l : ℝ), S m (Matrix.diagonal fun _ => (l : ℂ)) = (fun _ => freqOf (l : ℂ), 1) := by
  classical
  obtain ⟨S, hS⟩ := solver_exists
  refine ⟨fun m A => if ∃ l : ℝ, A = Matrix.diagonal fun _ => (l : ℂ) then (fun i => freqOf (A i i), 1) else S m A, fun m A => ?_, fun m l => ?_⟩
  · by_cases h : ∃ l : ℝ, A = Matrix.diagonal fun _ => (l : ℂ)
    · obtain ⟨l, rfl⟩ := h
      refine ⟨fun _ => (l : ℂ), 1, 1, 1, ⟨fun i => ?_, fun i h0 => ?_, ?_⟩, fun _ _ _ => le_rfl, fun _ _ _ => le_rfl, ?_⟩
      · funext x
        simp [Matrix.mulVec_diagonal]
      · have := congrFun h0 i
        simp at this
      · rw [Matrix.charpoly_diagonal]
      · refine (if_pos (⟨l, rfl⟩ : ∃ l' : ℝ, (Matrix.diagonal fun _ : Fin m => (l : ℂ)) = Matrix.diagonal fun _ => (l' : ℂ))).trans ?_
        refine Prod.ext (funext fun i => ?_) (Matrix.ext fun i k => rfl)
        show freqOf ((Matrix.diagonal fun _ : Fin m => (l : ℂ)) i i) = freqOf (l : ℂ)
        rw [Matrix.diagonal_apply_eq]
    · obtain ⟨w, V, σ, τ, h1, h2, h3, h4⟩ := hS m A
      exact ⟨w, V, σ, τ, h1, h2, h3, (if_neg h).trans h4⟩
  · refine (if_pos (⟨l, rfl⟩ : ∃ l' : ℝ, (Matrix.diagonal fun _ : Fin m => (l : ℂ)) = Matrix.diagonal fun _ => (l' : ℂ))).trans ?_
    refine Prod.ext (funext fun i => ?_) rfl
    show freqOf ((Matrix.diagonal fun _ : Fin m => (l : ℂ)) i i) = freqOf (l : ℂ)
    rw [Matrix.diagonal_apply_eq]

/-- The hypotheses of `C136_projected_partial` are met for the chain at the zone boundary, where all frequencies are equal. -/
example (A : Argsorts) (j : Junk) : ∃ (S : Solver) (r : DosInput chainUnit [0] stiffSprings [![1 / 2, 0, 0]]) (dos : Dos.State), r.outcome S A j 1 5 = .ok (dos, none) ∧
    ∃ l : ℝ, 0 < l ∧ ∀ d : Fin 3, (Dos.columnRows dos d).length = 5 ∧ ∀ x ∈ Dos.columnRows dos d, x.2 = some (bell 1 (freqOf (l : ℂ)) x.1) := by
  obtain ⟨r⟩ := chain_dos_input
  obtain ⟨S, hS, hunit⟩ := unit_solver_exists
  have hdyn : ∀ mass, IsMasses chainUnit [0] mass → ∃ l : ℝ, 0 < l ∧ dynAt chainUnit [0] mass stiffSprings ![1 / 2, 0, 0] = Matrix.diagonal fun _ => (l : ℂ) := by
    intro mass hmass
    obtain ⟨m, hm, hmm⟩ := chain_masses hmass
    exact ⟨(4 * (1602 / 100)) / m, by positivity, chain_dyn hm hmm (qOf_lattice _ (toR_det chain_det) _)⟩
  have hmodes : ∀ l : ℝ, NormalModes (Matrix.diagonal fun _ : Fin 3 => (l : ℂ)) (fun _ => l) (fun b d => if b = d then 1 else 0) := by
    intro l
    constructor
    · intro b
      funext x
      simp [Matrix.mulVec_diagonal]
    · intro b c
      simp [eq_comm]
  obtain ⟨dos, mass, hout, hmass, hall⟩ := C136_projected_partial r hS A j stiff_symmetric (sigma := 1) one_ne_zero (num := 5) (by norm_num) (by
    intro mass hmass k
    obtain ⟨l, -, hl⟩ := hdyn mass hmass
    have hk : ([![1 / 2, 0, 0]] : List (V3 ℚ))[k] = ![1 / 2, 0, 0] := by
      have : k = 0 := Subsingleton.elim (α := Fin 1) _ _
      subst this; rfl
    rw [hk, hl]
    refine ⟨fun _ => l, _, hmodes l, fun b => ?_⟩
    rw [hunit]
    refine ⟨rfl, fun d => ?_⟩
    simp [Matrix.one_apply])
  obtain ⟨l, hl0, hl⟩ := hdyn mass hmass
  refine ⟨S, r, dos, hout, l, hl0, fun d => ?_⟩
  obtain ⟨h1, h2⟩ := hall (fun _ _ => l) (fun _ b d => if b = d then 1 else 0) (by
    intro k
    have hk : ([![1 / 2, 0, 0]] : List (V3 ℚ))[k] = ![1 / 2, 0, 0] := by
      have : k = 0 := Subsingleton.elim (α := Fin 1) _ _
      subst this; rfl
    rw [hk, hl]
    exact hmodes l) d
  refine ⟨h1, fun x hx => ?_⟩
  rw [h2 x hx]
  congr 1
  unfold smeared
  have : ∀ b : Fin 3, ‖(if b = d then (1 : ℂ) else 0)‖ ^ 2 = if b = d then 1 else 0 := by
    intro b; split <;> simp
  show (∑ _k : Fin 1, ∑ b : Fin 3, bell 1 (freqOf (l : ℂ)) x.1 * ‖(if b = d then (1 : ℂ) else 0)‖ ^ 2) / ((1 : ℕ) : ℝ) = _
  simp only [this]
  simp

end
end Interphon.Props
