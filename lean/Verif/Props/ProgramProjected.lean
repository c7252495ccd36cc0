import Verif.Props.ProgramModeExample
import Mathlib.LinearAlgebra.Vandermonde

/-! # C136: the projected density of states at the level of the program -/

namespace Interphon.Props
open Py Interphon Interphon.UnitCell Interphon.SuperCell Interphon.PreProcess Interphon.Args Interphon.Inout Interphon.Cli Interphon.Main
open Interphon.PostProcess Interphon.Phonon Interphon.ForceConstant Interphon.Mode

noncomputable section

/-! ### Specification -/

/-- The normal modes of a dynamical matrix: orthonormal eigenvectors `v b` with eigenvalues `lam b`. -/
structure NormalModes {m : ℕ} (A : Matrix (Fin m) (Fin m) ℂ) (lam : Fin m → ℝ) (v : Fin m → Fin m → ℂ) : Prop where
  eig : ∀ b, A.mulVec (v b) = (lam b : ℂ) • v b
  orthonormal : ∀ b c, ∑ d, star (v b d) * v c d = if b = c then 1 else 0

/-- One normal density of width `sigma` per mode, each multiplied with the share of the degree of freedom in the mode, averaged over the wave vectors. -/
def smeared {n m : ℕ} (sigma : ℝ) (freq share : Fin n → Fin m → ℝ) (f : ℝ) : ℝ := (∑ k, ∑ b, bell sigma (freq k b) f * share k b) / n

/-- The dynamical matrix of the infinite crystal at the k point `k`. -/
def dynAt (u : Cell ℚ) (sel : List ℕ) (mass : ℕ → ℝ) (Φ : Springs) (k : V3 ℚ) : Matrix (Fin (3 * sel.length)) (Fin (3 * sel.length)) ℂ :=
  trueDyn (toR u) sel mass Φ (qOf (toReal k) (reciprocal (toR u).lattice)) (3 * sel.length)

/-- A run with a density of states: pre-process, calculations with the forces of an infinite harmonic crystal with the springs `Φ`, and the input of the post-process with `-dos` for the
k points `ks`, which fit into the super cell. -/
structure DosInput (u : Cell ℚ) (sel : List ℕ) (Φ : Springs) (ks : List (V3 ℚ)) where
  cwd : Str
  o : PreOpts
  code : Code
  a : PreArg
  e : List ℤ
  p : List ℤ
  d : ℚ
  x : ℕ → FileArgs
  junk : ℕ → List (V3 ℚ)
  fs : Fs
  run : PreRun cwd o code a e p d u sel x junk fs
  d0 : d ≠ 0
  det : u.lattice.det ≠ 0
  xyz : u.xyzTrue = some (sel.flatMap fun a => [a, a, a])
  dec : DecCell u
  d16 : Dec16 d
  atoms : sel ≠ []
  range : ∀ a x b y l, l ∈ (Φ a x b y).support → ∀ i : Fin 3, p.getD i 0 = 0 → l i = 0
  F0 : Rows ℝ
  search : Run (List (ℕ × List (V3 ℚ)))
  group : Run Str
  fs1 : Fs
  record : PreRecord
  pre : preMain cwd o x junk search group fs = .ok (fs1, record)
  fs2 : Fs
  glob : Str → List Str
  args : List Str
  force : List Str
  files : forceFiles glob args = .ok force
  calculated : Calculated code cwd o.unitcell fs1 fs2 (superSprings (fun i => e.getD i 0) (e.getD 0 0 * e.getD 1 0 * e.getD 2 0).toNat Φ) F0 (6 * sel.length) force
  kdos : Str
  t : Str
  auto : List ℤ
  kfile : fs2 (absPath cwd kdos) = some t
  kread : KPoints.setKPoints (readlines t) (fun c => decide (p.getD c 0 ≠ 0)) = .ok (ks, auto)
  some : ks ≠ []
  fits : ∀ k ∈ ks, Fits (fun i => e.getD i 0) (fun i => p.getD i 0) (toReal k)

/-- The outcome of the post-process with smearing `sigma` and `num` rows. -/
def DosInput.outcome {u : Cell ℚ} {sel : List ℕ} {Φ : Springs} {ks : List (V3 ℚ)} (r : DosInput u sel Φ ks) (S : Solver) (A : Argsorts) (j : Junk) (sigma : ℝ) (num : ℕ) :
    Run (Dos.State × Option Thermal.State) :=
  dosMain S A j r.cwd {} r.record r.glob r.args r.kdos sigma num none r.search r.fs2

/-- **C136, full statement.**  Every column of `projected_dos.dat` shows the share of its degree of freedom in the normal modes of the crystal. -/
def C136_full : Prop := ∀ (S : Solver), LapackSolver S → ∀ (A : Argsorts) (u : Cell ℚ) (sel : List ℕ) (Φ : Springs) (ks : List (V3 ℚ)) (r : DosInput u sel Φ ks) (j : Junk),
  SymmetricSprings Φ → ∀ (sigma : ℝ) (num : ℕ), sigma ≠ 0 → 0 < num → ∀ dos th, r.outcome S A j sigma num = .ok (dos, th) →
    ∃ mass, IsMasses u sel mass ∧ ∃ (lam : Fin ks.length → Fin (3 * sel.length) → ℝ) (v : Fin ks.length → Fin (3 * sel.length) → Fin (3 * sel.length) → ℂ),
      (∀ k, NormalModes (dynAt u sel mass Φ ks[k]) (lam k) (v k)) ∧
      ∀ (d : Fin (3 * sel.length)), ∀ x ∈ Dos.columnRows dos d, x.2 = some (smeared sigma (fun k b => freqOf (lam k b : ℂ)) (fun k b => ‖v k b d‖ ^ 2) x.1)

/-! ### Proofs -/

variable {u : Cell ℚ} {sel : List ℕ} {Φ : Springs} {ks : List (V3 ℚ)}

/-- **C136** (what is written).  Column `d` holds, instead of the share in the mode, the squared entry number `d` of row `b` of the array of eigenvectors. -/
theorem C136_written (r : DosInput u sel Φ ks) {S : Solver} (hS : IsSolver S) (A : Argsorts) (j : Junk) :
    ∃ mass, IsMasses u sel mass ∧ ∀ (sigma : ℝ) (num : ℕ), sigma ≠ 0 → 0 < num → ∃ dos lo hi, r.outcome S A j sigma num = .ok (dos, none) ∧
      ((∃ (k : Fin ks.length) (b : Fin (3 * sel.length)), (S _ (dynAt u sel mass Φ ks[k])).1 b = lo) ∧
        (∃ (k : Fin ks.length) (b : Fin (3 * sel.length)), (S _ (dynAt u sel mass Φ ks[k])).1 b = hi) ∧
        ∀ (k : Fin ks.length) (b : Fin (3 * sel.length)), lo ≤ (S _ (dynAt u sel mass Φ ks[k])).1 b ∧ (S _ (dynAt u sel mass Φ ks[k])).1 b ≤ hi) ∧
      ∀ d : Fin (3 * sel.length), Dos.columnRows dos d = (List.range num).map fun i : ℕ => (lo - 2 + i * ((hi - lo + 4) / num),
        some (smeared sigma (fun k b => (S _ (dynAt u sel mass Φ ks[k])).1 b) (fun k b => ‖(S _ (dynAt u sel mass Φ ks[k])).2 b d‖ ^ 2) (lo - 2 + i * ((hi - lo + 4) / num)))) := by
  obtain ⟨fs1, rec, hpre, hpost⟩ := post_ok r.run r.d0 r.det r.xyz r.dec r.d16 Φ r.range r.F0 r.search r.group hS j
  have hpre' := r.pre
  rw [hpre] at hpre'
  injection hpre' with hpre'
  have e1 : fs1 = r.fs1 := congrArg Prod.fst hpre'
  have e2 : rec = r.record := congrArg Prod.snd hpre'
  subst e1 e2
  obtain ⟨P, mass, hset, hmass, -, hrest⟩ := hpost r.fs2 r.force r.calculated
  obtain ⟨o2, o3, hph, ho3, hk2, hk3, hauto, hp3, hdof2, hdof3, hwl, hrows⟩ := hrest (absPath r.cwd r.kdos) r.t ks r.auto r.kfile r.kread r.some
  have hst : o3 = { frequencies S o2 with gammaFile := (eval S o2).1.gammaFile } := by rw [ho3]; exact eval_state S o2
  have hlen2 : o2.kPoints.length ≠ 0 := by rw [hk2]; simpa using r.some
  have hwq : o3.wq = ks.map fun k => List.ofFn (atK S o2 k).1 := by
    rw [hst, ← hk2]
    simp only [frequencies, if_pos hlen2]
  have hvq : o3.vq = ks.map fun k => List.ofFn fun m => List.ofFn ((atK S o2 k).2 m) := by
    rw [hst, ← hk2]
    simp only [frequencies, if_pos hlen2]
  have hkpos : 0 < ks.length := List.length_pos_of_ne_nil r.some
  have hspos : 0 < sel.length := List.length_pos_of_ne_nil r.atoms
  have hdetR : (toR u).lattice.det ≠ 0 := toR_det r.det
  have hdyn : ∀ k : Fin ks.length, ∀ x y : Fin (3 * sel.length), dynMatrix (PostProcess.data o2) (toReal ks[k]) x y = dynAt u sel mass Φ ks[k] x y := by
    intro k x y
    obtain ⟨row, q, -, hq, -, hm⟩ := hrows k ks[k] (List.getElem?_eq_getElem k.2) (r.fits _ (List.getElem_mem _))
    rw [hm x y, q_unique _ hdetR q _ hq]
    rfl
  have hsr := fun k : Fin ks.length => stored_row S o2 ks[k] (3 * sel.length) hdof2 (dynAt u sel mass Φ ks[k]) (hdyn k)
  have hw : ∀ (k : Fin ks.length) (b : Fin (3 * sel.length)), (dosProc o3).w k b = (S _ (dynAt u sel mass Φ ks[k])).1 b := by
    intro k b
    show (o3.wq.getD k []).getD b 0 = _
    have e0 : o3.wq.getD k [] = List.ofFn (S _ (dynAt u sel mass Φ ks[k])).1 := by
      rw [hwq, List.getD_eq_getElem (n := (k : ℕ)) _ _ (by rw [List.length_map]; exact k.2), List.getElem_map]
      exact (hsr k).1
    rw [e0, List.getD_eq_getElem _ _ (by rw [List.length_ofFn]; exact b.2), List.getElem_ofFn]
  have hF : ∀ (k : Fin ks.length) (b d : Fin (3 * sel.length)), (dosProc o3).F k b d = ‖(S _ (dynAt u sel mass Φ ks[k])).2 b d‖ ^ 2 := by
    intro k b d
    show ‖((o3.vq.getD k []).getD b []).getD d 0‖ ^ 2 = _
    have e0 : o3.vq.getD k [] = List.ofFn fun m => List.ofFn ((atK S o2 ks[k]).2 m) := by
      rw [hvq, List.getD_eq_getElem (n := (k : ℕ)) _ _ (by rw [List.length_map]; exact k.2), List.getElem_map]
      rfl
    have h3 : (((o3.vq.getD k []).map fun (row : List ℂ) d => row.getD d 0))[(b : ℕ)]? = some (modeRow S (dynAt u sel mass Φ ks[k]) b) := by
      rw [e0, (hsr k).2, List.getElem?_map, List.getElem?_range b.2]
      rfl
    rw [List.getElem?_map] at h3
    obtain ⟨row, hr, he⟩ := Option.map_eq_some_iff.1 h3
    have e1 : (o3.vq.getD k []).getD b [] = row := by rw [List.getD_eq_getElem?_getD, hr, Option.getD_some]
    rw [e1]
    have h4 : row.getD d 0 = modeRow S (dynAt u sel mass Φ ks[k]) b d := congrFun he d
    rw [h4, modeRow, dif_pos ⟨b.2, d.2⟩]
  have hkp : (dosProc o3).kPoints.length = ks.length := by
    show (o3.kPoints.map toReal).length = _
    rw [List.length_map, hk3]
  have hnb : (dosProc o3).nb = 3 * sel.length := hdof3
  have hnd : (dosProc o3).nd = 3 * sel.length := hdof3
  have hnk : (dosProc o3).nk = ks.length := hwl
  refine ⟨mass, hmass, fun sigma num hsig hnum => ?_⟩
  obtain ⟨s0, hs0⟩ := (C46_succeeds_iff (dosProc o3) num).2 ⟨by rw [hnk]; exact hkpos, by rw [hnb]; omega⟩
  obtain ⟨lo, hi, ⟨k1, hk1, b1, hb1, e1⟩, ⟨k2', hk2', b2, hb2, e2⟩, hbound, hflen, hfreq, -, -, hshape, -⟩ := C46_grid _ num hnum s0 hs0
  obtain ⟨s1, hs1, hfr, hentry⟩ := C48_entry A.two A.three A.four (dosProc o3) sigma hsig num hnum s0 hs0
  rw [hnk] at hk1 hk2' hbound
  rw [hnb] at hb1 hb2 hbound
  refine ⟨s1, lo, hi, ?_, ⟨⟨⟨k1, hk1⟩, ⟨b1, hb1⟩, by rw [← hw]; exact e1⟩, ⟨⟨k2', hk2'⟩, ⟨b2, hb2⟩, by rw [← hw]; exact e2⟩, fun k b => by rw [← hw]; exact hbound k k.2 b b.2⟩, ?_⟩
  · unfold DosInput.outcome dosMain dosPart dosOf
    rw [r.files]
    simp only [run_ok]
    rw [hset]
    simp only [run_ok]
    rw [hph]
    simp only [run_ok]
    rw [hs0]
    simp only [run_ok]
    rw [if_neg (fun hc => hsig hc.1)]
    simp only [raising, run_ok]
    rw [hs1]
    rfl
  · intro d
    apply List.ext_getElem?
    intro i
    unfold Dos.columnRows
    rw [List.getElem?_map]
    by_cases hi' : i < num
    · rw [List.getElem?_range hi', Option.map_some]
      have hif : s1.freq[i]? = some (lo - 2 + i * ((hi - lo + 4) / num)) := by rw [hfr]; exact hfreq i hi'
      have hen := hentry d (by rw [hnd]; exact d.2) i hi' _ (hfreq i hi')
      unfold entry at hen
      obtain ⟨row, hr1, hr2⟩ := Option.bind_eq_some_iff.1 hen
      have hzip : (s1.freq.zip (s1.pdos.getD d []))[i]? = some (_, _) := List.getElem?_zip_eq_some.2 ⟨hif, by rw [List.getD_eq_getElem?_getD, hr1, Option.getD_some]; exact hr2⟩
      rw [hzip]
      congr 3
      generalize lo - 2 + (i : ℝ) * ((hi - lo + 4) / num) = f
      unfold gaussDos smeared
      rw [hkp, hnk, hnb, Finset.sum_range, Finset.sum_div]
      refine Finset.sum_congr rfl fun k _ => ?_
      rw [Finset.sum_range, Finset.sum_div]
      refine Finset.sum_congr rfl fun b _ => ?_
      rw [hw, hF]
      ring
    · rw [List.getElem?_eq_none (by rw [List.length_zip, hfr, hflen]; omega), List.getElem?_eq_none (by rw [List.length_range]; omega)]
      rfl

/-! ### The local density of states is well defined -/

/-- Completeness of the normal modes. -/
theorem NormalModes.complete {m : ℕ} {A : Matrix (Fin m) (Fin m) ℂ} {lam : Fin m → ℝ} {v : Fin m → Fin m → ℂ} (h : NormalModes A lam v) (d e : Fin m) :
    ∑ b, v b d * star (v b e) = if d = e then 1 else 0 := by
  have h1 : (Matrix.of fun b d => star (v b d)) * (Matrix.of fun d c => v c d) = 1 := by
    ext b c
    rw [Matrix.mul_apply, Matrix.one_apply]
    exact h.orthonormal b c
  have h0 := mul_eq_one_comm.1 h1
  have h2 := congrFun (congrFun h0 d) e
  rw [Matrix.mul_apply, Matrix.one_apply] at h2
  exact h2

/-- The sum over the modes does not depend on the choice of the modes (which are not unique at degenerate frequencies). -/
theorem NormalModes.share_unique {m : ℕ} {A : Matrix (Fin m) (Fin m) ℂ} (hA : A.IsHermitian) {lam lam' : Fin m → ℝ} {v v' : Fin m → Fin m → ℂ} (h : NormalModes A lam v)
    (h' : NormalModes A lam' v') (g : ℝ → ℝ) (d : Fin m) : ∑ b, g (lam b) * ‖v b d‖ ^ 2 = ∑ b, g (lam' b) * ‖v' b d‖ ^ 2 := by
  set U : Fin m → Fin m → ℂ := fun b c => ∑ e, star (v b e) * v' c e with hU
  have hUd : ∀ b c, U b c = star (v b) ⬝ᵥ v' c := fun b c => rfl
  have h1 : ∀ b c, (g (lam b) : ℂ) * U b c = g (lam' c) * U b c := by
    intro b c
    have e1 : star (v b) ⬝ᵥ A.mulVec (v' c) = star (A.mulVec (v b)) ⬝ᵥ v' c := by
      rw [Matrix.dotProduct_mulVec, Matrix.star_mulVec, hA.eq]
    rw [h.eig, h'.eig, dotProduct_smul, star_smul, smul_dotProduct, ← hUd] at e1
    simp only [smul_eq_mul, Complex.star_def, Complex.conj_ofReal] at e1
    rcases eq_or_ne (U b c) 0 with h0 | h0
    · rw [h0, mul_zero, mul_zero]
    · have : (lam' c : ℂ) = lam b := mul_right_cancel₀ h0 e1
      have e2 : lam' c = lam b := by exact_mod_cast this
      rw [e2]
  have h2 : ∀ b, star (v b d) = ∑ c, star (v' c d) * U b c := by
    intro b
    simp only [hU, Finset.mul_sum]
    rw [Finset.sum_comm]
    have : ∀ e, ∑ c, star (v' c d) * (star (v b e) * v' c e) = star (v b e) * if e = d then 1 else 0 := by
      intro e
      rw [← h'.complete e d, Finset.mul_sum]
      exact Finset.sum_congr rfl fun c _ => by ring
    simp only [this]
    simp
  have h3 : ∀ c, ∑ b, v b d * U b c = v' c d := by
    intro c
    simp only [hU, Finset.mul_sum]
    rw [Finset.sum_comm]
    have : ∀ e, ∑ b, v b d * (star (v b e) * v' c e) = (if d = e then 1 else 0) * v' c e := by
      intro e
      rw [← h.complete d e, Finset.sum_mul]
      exact Finset.sum_congr rfl fun c _ => by ring
    simp only [this]
    simp
  have hn : ∀ z : ℂ, ((‖z‖ ^ 2 : ℝ) : ℂ) = z * star z := by
    intro z
    rw [Complex.star_def, Complex.mul_conj, Complex.normSq_eq_norm_sq]
  have key : ((∑ b, g (lam b) * ‖v b d‖ ^ 2 : ℝ) : ℂ) = ((∑ b, g (lam' b) * ‖v' b d‖ ^ 2 : ℝ) : ℂ) := by
    rw [Complex.ofReal_sum, Complex.ofReal_sum]
    simp only [Complex.ofReal_mul, hn]
    calc ∑ b, (g (lam b) : ℂ) * (v b d * star (v b d)) = ∑ b, ∑ c, star (v' c d) * ((g (lam b) * U b c) * v b d) := by
          refine Finset.sum_congr rfl fun b _ => ?_
          rw [h2 b, Finset.mul_sum, Finset.mul_sum]
          exact Finset.sum_congr rfl fun c _ => by ring
      _ = ∑ c, ∑ b, star (v' c d) * ((g (lam' c) * U b c) * v b d) := by
          rw [Finset.sum_comm]
          simp only [h1]
      _ = ∑ c, (g (lam' c) : ℂ) * (v' c d * star (v' c d)) := by
          refine Finset.sum_congr rfl fun c _ => ?_
          have e : ∑ b, star (v' c d) * ((g (lam' c) : ℂ) * U b c * v b d) = star (v' c d) * g (lam' c) * ∑ b, v b d * U b c := by
            rw [Finset.mul_sum]
            exact Finset.sum_congr rfl fun b _ => by ring
          rw [e, h3 c]
          ring
  exact_mod_cast key

/-- The frequencies of the normal modes are among those of the solver. -/
theorem NormalModes.listed {m : ℕ} {A : Matrix (Fin m) (Fin m) ℂ} {lam : Fin m → ℝ} {v : Fin m → Fin m → ℂ} (h : NormalModes A lam v) {S : Solver} (hS : IsSolver S) (b : Fin m) :
    ∃ b', (S m A).1 b' = freqOf (lam b : ℂ) := by
  obtain ⟨w, V, σ, τ, hE, -, -, hst⟩ := hS m A
  have hne : v b ≠ 0 := by
    intro h0
    have := h.orthonormal b b
    rw [h0] at this
    simp at this
  have hdet : (Matrix.scalar (Fin m) (lam b : ℂ) - A).det = 0 := by
    rw [← Matrix.exists_mulVec_eq_zero_iff]
    refine ⟨v b, hne, ?_⟩
    rw [Matrix.sub_mulVec, h.eig]
    simp [Matrix.scalar_apply, ← Matrix.smul_one_eq_diagonal, Matrix.smul_mulVec]
  have h1 := Matrix.eval_charpoly A (lam b : ℂ)
  rw [hdet, hE.charpoly, Polynomial.eval_prod, Finset.prod_eq_zero_iff] at h1
  obtain ⟨c, -, hc⟩ := h1
  simp only [Polynomial.eval_sub, Polynomial.eval_X, Polynomial.eval_C] at hc
  refine ⟨σ.symm c, ?_⟩
  rw [hst]
  show freqOf (w (σ (σ.symm c))) = _
  rw [Equiv.apply_symm_apply, sub_eq_zero.1 hc]

/-! ### The rows determine the weights -/

/-- Normal densities with different centres are linearly independent on equally spaced points. -/
theorem bells_independent (s : Finset ℝ) (c : ℝ → ℝ) {sigma x0 h : ℝ} (hsig : sigma ≠ 0) (hh : h ≠ 0) {n : ℕ} (hn : s.card ≤ n)
    (h0 : ∀ i < n, ∑ ν ∈ s, bell sigma ν (x0 + i * h) * c ν = 0) : ∀ ν ∈ s, c ν = 0 := by
  have hb : ∀ (i : ℕ) (ν : ℝ), bell sigma ν (x0 + i * h) =
      (Real.exp (-(x0 + i * h) ^ 2 / (2 * sigma ^ 2)) / (sigma * Real.sqrt (2 * Real.pi))) * (Real.exp (-ν ^ 2 / (2 * sigma ^ 2) + x0 * ν / sigma ^ 2) * Real.exp (h * ν / sigma ^ 2) ^ i) := by
    intro i ν
    unfold bell
    rw [← Real.exp_nat_mul, ← Real.exp_add, div_mul_eq_mul_div, ← Real.exp_add]
    congr 2
    field_simp
    ring
  let e := s.equivFin
  have hinj : Function.Injective fun j : Fin s.card => Real.exp (h * ((e.symm j : ℝ)) / sigma ^ 2) := by
    intro a b hab
    have h1 := Real.exp_injective hab
    have h2 : (e.symm a : ℝ) = e.symm b := by
      have : sigma ^ 2 ≠ 0 := pow_ne_zero 2 hsig
      field_simp at h1
      exact h1
    exact e.symm.injective (Subtype.ext h2)
  have hv := Matrix.eq_zero_of_forall_pow_sum_mul_pow_eq_zero (v := fun j : Fin s.card => c (e.symm j) * Real.exp (-(e.symm j : ℝ) ^ 2 / (2 * sigma ^ 2) + x0 * (e.symm j : ℝ) / sigma ^ 2)) hinj (by
    intro i
    have h1 := h0 i (i.2.trans_le hn)
    simp only [hb] at h1
    have h2 : (Real.exp (-(x0 + (i : ℕ) * h) ^ 2 / (2 * sigma ^ 2)) / (sigma * Real.sqrt (2 * Real.pi))) *
        ∑ ν ∈ s, c ν * Real.exp (-ν ^ 2 / (2 * sigma ^ 2) + x0 * ν / sigma ^ 2) * Real.exp (h * ν / sigma ^ 2) ^ (i : ℕ) = 0 := by
      rw [← h1, Finset.mul_sum]
      exact Finset.sum_congr rfl fun ν _ => by ring
    have hne : Real.exp (-(x0 + (i : ℕ) * h) ^ 2 / (2 * sigma ^ 2)) / (sigma * Real.sqrt (2 * Real.pi)) ≠ 0 := by
      have := Real.exp_pos (-(x0 + (i : ℕ) * h) ^ 2 / (2 * sigma ^ 2))
      have : Real.sqrt (2 * Real.pi) ≠ 0 := by have := Real.pi_pos; positivity
      exact div_ne_zero (Real.exp_ne_zero _) (mul_ne_zero hsig this)
    have h3 := (mul_eq_zero.1 h2).resolve_left hne
    rw [← h3, ← Finset.sum_coe_sort s]
    exact Equiv.sum_comp e.symm fun ν : s => c ν * Real.exp (-(ν : ℝ) ^ 2 / (2 * sigma ^ 2) + x0 * (ν : ℝ) / sigma ^ 2) * Real.exp (h * (ν : ℝ) / sigma ^ 2) ^ (i : ℕ))
  intro ν hν
  have h1 := congrFun hv (e ⟨ν, hν⟩)
  simp only [Equiv.symm_apply_apply, Pi.zero_apply] at h1
  exact (mul_eq_zero.1 h1).resolve_right (Real.exp_ne_zero _)

/-- Two smeared densities agree on enough equally spaced points exactly if every frequency has the same weight in both. -/
theorem smeared_iff {n m : ℕ} (hn : 0 < n) (freq share freq' share' : Fin n → Fin m → ℝ) (hsub : ∀ k b, ∃ k' b', freq k' b' = freq' k b) {sigma x0 h : ℝ} (hsig : sigma ≠ 0) (hh : h ≠ 0)
    {num : ℕ} (hnum : (Finset.univ.image fun x : Fin n × Fin m => freq x.1 x.2).card ≤ num) :
    (∀ i < num, smeared sigma freq share (x0 + (i : ℕ) * h) = smeared sigma freq' share' (x0 + (i : ℕ) * h)) ↔
      ∀ ν, (∑ k, ∑ b, if freq k b = ν then share k b else 0) = ∑ k, ∑ b, if freq' k b = ν then share' k b else 0 := by
  set s := Finset.univ.image fun x : Fin n × Fin m => freq x.1 x.2 with hs
  have hmem : ∀ x : Fin n × Fin m, freq x.1 x.2 ∈ s := fun x => Finset.mem_image_of_mem _ (Finset.mem_univ x)
  have hmem' : ∀ x : Fin n × Fin m, freq' x.1 x.2 ∈ s := by
    intro x
    obtain ⟨k', b', e⟩ := hsub x.1 x.2
    rw [← e]
    exact hmem (k', b')
  have hexp : ∀ (F G : Fin n → Fin m → ℝ), (∀ x : Fin n × Fin m, F x.1 x.2 ∈ s) → ∀ f,
      smeared sigma F G f = (∑ ν ∈ s, bell sigma ν f * ∑ k, ∑ b, if F k b = ν then G k b else 0) / n := by
    intro F G hF f
    unfold smeared
    congr 1
    rw [← Fintype.sum_prod_type' fun k b => bell sigma (F k b) f * G k b]
    have e : ∀ ν, (∑ k, ∑ b, if F k b = ν then G k b else 0) = ∑ x : Fin n × Fin m, if F x.1 x.2 = ν then G x.1 x.2 else 0 := fun ν =>
      (Fintype.sum_prod_type' fun k b => if F k b = ν then G k b else 0).symm
    simp only [e, Finset.mul_sum]
    rw [Finset.sum_comm]
    refine Finset.sum_congr rfl fun x _ => ?_
    rw [Finset.sum_eq_single_of_mem _ (hF x) (fun ν _ hne => by rw [if_neg (Ne.symm hne), mul_zero]), if_pos rfl]
  have hn' : (n : ℝ) ≠ 0 := by positivity
  constructor
  · intro hall
    set c : ℝ → ℝ := fun ν => (∑ k, ∑ b, if freq k b = ν then share k b else 0) - ∑ k, ∑ b, if freq' k b = ν then share' k b else 0 with hc
    have h1 := bells_independent s c hsig hh hnum (x0 := x0) (by
      intro i hi
      have := hall i hi
      rw [hexp _ _ hmem, hexp _ _ hmem', div_left_inj' hn'] at this
      simp only [hc, mul_sub, Finset.sum_sub_distrib]
      rw [this, sub_self])
    intro ν
    by_cases hν : ν ∈ s
    · exact sub_eq_zero.1 (h1 ν hν)
    · have e1 : ∀ (F G : Fin n → Fin m → ℝ), (∀ x : Fin n × Fin m, F x.1 x.2 ∈ s) → (∑ k, ∑ b, if F k b = ν then G k b else 0) = 0 := by
        intro F G hF
        refine Finset.sum_eq_zero fun k _ => Finset.sum_eq_zero fun b _ => ?_
        rw [if_neg]
        intro hc
        exact hν (hc ▸ hF (k, b))
      rw [e1 _ _ hmem, e1 _ _ hmem']
  · intro hall i _
    rw [hexp _ _ hmem, hexp _ _ hmem']
    simp only [hall]

theorem dynAt_unique {u : Cell ℚ} {sel : List ℕ} {M M' : ℕ → ℝ} (h : IsMasses u sel M) (h' : IsMasses u sel M') (hb : ∀ t ∈ sel, t < u.atomType.length) (k : V3 ℚ) :
    dynAt u sel M Φ k = dynAt u sel M' Φ k := trueDyn_congr (masses_unique h h' hb) _

/-- The selected atoms of a run exist. -/
theorem DosInput.bound (r : DosInput u sel Φ ks) : ∀ t ∈ sel, t < u.atomType.length := by
  obtain ⟨groups, hg⟩ := r.run.unit.groups
  intro t ht; rw [← hg.len]; exact r.run.unit.bound t ht

/-- **C136** (exact condition).  With at least as many rows as there are different frequencies, column `d` shows the share of its degree of freedom in the normal modes exactly if for every
frequency the squared entries `d` of the rows of the array of eigenvectors add up to the squared components `d` of the normal modes with this frequency. -/
theorem C136_column_iff (r : DosInput u sel Φ ks) {S : Solver} (hS : IsSolver S) (A : Argsorts) (j : Junk) {sigma : ℝ} {num : ℕ} (hsig : sigma ≠ 0)
    {dos : Dos.State} {th : Option Thermal.State} (h : r.outcome S A j sigma num = .ok (dos, th)) {mass : ℕ → ℝ} (hmass : IsMasses u sel mass)
    (hnum : (Finset.univ.image fun x : Fin ks.length × Fin (3 * sel.length) => (S _ (dynAt u sel mass Φ ks[x.1])).1 x.2).card ≤ num)
    {lam : Fin ks.length → Fin (3 * sel.length) → ℝ} {v : Fin ks.length → Fin (3 * sel.length) → Fin (3 * sel.length) → ℂ}
    (hv : ∀ k, NormalModes (dynAt u sel mass Φ ks[k]) (lam k) (v k)) (d : Fin (3 * sel.length)) :
    (∀ x ∈ Dos.columnRows dos d, x.2 = some (smeared sigma (fun k b => freqOf (lam k b : ℂ)) (fun k b => ‖v k b d‖ ^ 2) x.1)) ↔
      ∀ ν, (∑ k : Fin ks.length, ∑ b, if (S _ (dynAt u sel mass Φ ks[k])).1 b = ν then ‖(S _ (dynAt u sel mass Φ ks[k])).2 b d‖ ^ 2 else 0) =
        ∑ k, ∑ b, if freqOf (lam k b : ℂ) = ν then ‖v k b d‖ ^ 2 else 0 := by
  obtain ⟨mass', hmass', hrun⟩ := C136_written r hS A j
  have hdyn : ∀ k, dynAt u sel mass' Φ k = dynAt u sel mass Φ k := dynAt_unique hmass' hmass r.bound
  simp only [hdyn] at hrun
  have hkpos : 0 < ks.length := List.length_pos_of_ne_nil r.some
  have hspos : 0 < sel.length := List.length_pos_of_ne_nil r.atoms
  have hn0 : 0 < num := by
    refine lt_of_lt_of_le (Finset.card_pos.2 ?_) hnum
    exact ⟨_, Finset.mem_image_of_mem _ (Finset.mem_univ (⟨0, hkpos⟩, ⟨0, by omega⟩))⟩
  obtain ⟨dos', lo, hi, hout, ⟨⟨k1, b1, hlo⟩, -, hbound⟩, hcol⟩ := hrun sigma num hsig hn0
  rw [h] at hout
  cases hout
  have hle : lo ≤ hi := by have := hbound k1 b1; linarith [this.1, this.2]
  have hh : (hi - lo + 4) / (num : ℝ) ≠ 0 := by
    have : 0 < hi - lo + 4 := by linarith
    positivity
  rw [← smeared_iff hkpos (fun k b => (S _ (dynAt u sel mass Φ ks[k])).1 b) (fun k b => ‖(S _ (dynAt u sel mass Φ ks[k])).2 b d‖ ^ 2) (fun k b => freqOf (lam k b : ℂ)) (fun k b => ‖v k b d‖ ^ 2)
    (fun k b => by
      obtain ⟨b', hb'⟩ := (hv k).listed hS b
      exact ⟨k, b', hb'⟩) hsig hh (x0 := lo - 2) hnum, hcol d]
  simp only [List.mem_map, List.mem_range, forall_exists_index, and_imp, forall_apply_eq_imp_iff₂, Option.some.injEq]

/-- **C136** (partial).  If the rows of the array of eigenvectors have the same squared entries as normal modes with the listed frequencies, every column of the file shows the share of its
degree of freedom in the normal modes, whatever modes are chosen at degenerate frequencies.  (Missing: in general the *columns* are the modes, see `C136_refuted`.) -/
theorem C136_projected_partial (r : DosInput u sel Φ ks) {S : Solver} (hS : IsSolver S) (A : Argsorts) (j : Junk) (hsymm : SymmetricSprings Φ) {sigma : ℝ} {num : ℕ} (hsig : sigma ≠ 0)
    (hnum : 0 < num) (hrow : ∀ mass, IsMasses u sel mass → ∀ k : Fin ks.length, ∃ lam v, NormalModes (dynAt u sel mass Φ ks[k]) lam v ∧
      ∀ b, (S _ (dynAt u sel mass Φ ks[k])).1 b = freqOf (lam b : ℂ) ∧ ∀ d, ‖(S _ (dynAt u sel mass Φ ks[k])).2 b d‖ = ‖v b d‖) :
    ∃ dos mass, r.outcome S A j sigma num = .ok (dos, none) ∧ IsMasses u sel mass ∧
      ∀ (lam : Fin ks.length → Fin (3 * sel.length) → ℝ) (v : Fin ks.length → Fin (3 * sel.length) → Fin (3 * sel.length) → ℂ),
        (∀ k, NormalModes (dynAt u sel mass Φ ks[k]) (lam k) (v k)) →
        ∀ d : Fin (3 * sel.length), (Dos.columnRows dos d).length = num ∧
          ∀ x ∈ Dos.columnRows dos d, x.2 = some (smeared sigma (fun k b => freqOf (lam k b : ℂ)) (fun k b => ‖v k b d‖ ^ 2) x.1) := by
  obtain ⟨mass, hmass, hrun⟩ := C136_written r hS A j
  obtain ⟨dos, lo, hi, hout, -, hcol⟩ := hrun sigma num hsig hnum
  refine ⟨dos, mass, hout, hmass, fun lam v hv d => ⟨by rw [hcol, List.length_map, List.length_range], fun x hx => ?_⟩⟩
  rw [hcol] at hx
  obtain ⟨i, -, rfl⟩ := List.mem_map.1 hx
  simp only [Option.some.injEq]
  generalize lo - 2 + (i : ℝ) * ((hi - lo + 4) / num) = f
  unfold smeared
  congr 1
  refine Finset.sum_congr rfl fun k _ => ?_
  obtain ⟨lam', v', hm, he⟩ := hrow mass hmass k
  simp only [(he _).1, (he _).2]
  exact hm.share_unique (trueDyn_hermitian (toR u) sel mass hsymm _ _) (hv k) (fun l => bell sigma (freqOf (l : ℂ)) f) d

end
end Interphon.Props
