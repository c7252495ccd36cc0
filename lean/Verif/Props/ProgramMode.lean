import Verif.Props.ProgramDos
import Verif.Props.ProgramNear
import Verif.Props.ProgramDosExample
import Verif.Props.ModeMotion

/-! # C135: the mode analysis, from the command line to the files -/

namespace Interphon.Props
open Py Interphon Interphon.UnitCell Interphon.SuperCell Interphon.PreProcess Interphon.Args Interphon.Inout Interphon.Cli Interphon.Main
open Interphon.PostProcess Interphon.Phonon Interphon.ForceConstant Interphon.Mode

noncomputable section

/-! ### Specification -/

/-- Row `b` of the array of mode vectors that the eigenvalue routine leaves for the matrix `A`. -/
def modeRow (S : Solver) {m : ℕ} (A : Matrix (Fin m) (Fin m) ℂ) (b : ℕ) : ℕ → ℂ := fun d => if h : b < m ∧ d < m then (S m A).2 ⟨b, h.1⟩ ⟨d, h.2⟩ else 0

/-- A request for modes: the k point `k` is entry number `i` of the listed points `ks` (and no later point matches it), it fits into the super cell `n` of the calculation and its
components are fractions with denominators up to 100; the indices asked for are `l`, and each designates one of the `3 · atoms` modes. -/
structure ModeRequest (n p : Fin 3 → ℤ) (sel : List ℕ) (ks : List (V3 ℚ)) (i : ℕ) (k : V3 ℚ) (inds : PyVal) (l : List ℤ) : Prop where
  listed : ks[i]? = some k
  fits : Fits n p (toReal k)
  last : ∀ i' k', i < i' → ks[i']? = some k' → ¬Matches (toReal k) (toReal k')
  fractions : ∀ c, p c ≠ 0 → (k c).den ≤ 100
  indices : toIntNumpy inds = .ok l
  valid : ∀ z ∈ l, -((3 * sel.length : ℕ) : ℤ) ≤ z ∧ z < (3 * sel.length : ℕ)

/-- Every image of a film moves along a normal mode with `ω² = lam` of the crystal (all unit cells moving alike). -/
def MovesAlong (u : Cell ℝ) (sel : List ℕ) (M : ℕ → ℝ) (Φ : Springs) (images : List (List (V3 ℝ))) (lam : ℝ) : Prop :=
  ∀ W ∈ images, AlongMode (superSprings 1 1 Φ) u W sel lam fun r x => M (3 * sel.idxOf r + x)

/-- A solver that behaves like `numpy.linalg.eig` (LAPACK `geev`): the eigenvectors have norm 1, and their largest component is real. -/
def LapackSolver (S : Solver) : Prop := ∀ (m : ℕ) (A : Matrix (Fin m) (Fin m) ℂ), ∃ (w : Fin m → ℂ) (V : Matrix (Fin m) (Fin m) ℂ) (σ τ : Equiv.Perm (Fin m)),
  IsEig A w V ∧ IsArgsort (fun i => freqOf (w i)) σ ∧ IsArgsort (fun i => freqOf (w (σ i))) τ ∧ S m A = store w V σ τ ∧
    ∀ c, ∑ r, ‖V r c‖ ^ 2 = 1 ∧ ∃ r, (∀ r', ‖V r' c‖ ≤ ‖V r c‖) ∧ (V r c).im = 0

/-- A run with mode analysis: pre-process, calculations with the forces of an infinite harmonic crystal with the springs `Φ`, and the input of the post-process with `-band` and `-mode` for
the modes `l` of the k point `k`, which is number `i` of the k-point file. -/
structure ModeInput (u : Cell ℚ) (sel : List ℕ) (Φ : Springs) (i : ℕ) (k : V3 ℚ) (l : List ℤ) where
  cwd : Str
  o : PreOpts
  code : Code
  a : PreArg
  e : List ℤ
  p : List ℤ
  d : ℚ
  x : ℕ → FileArgs
  junk : ℕ → List (V3 ℚ)
  fs : Fs
  run : PreRun cwd o code a e p d u sel x junk fs
  d0 : d ≠ 0
  det : u.lattice.det ≠ 0
  xyz : u.xyzTrue = some (sel.flatMap fun a => [a, a, a])
  dec : DecCell u
  d16 : Dec16 d
  range : ∀ a x b y l, l ∈ (Φ a x b y).support → ∀ i : Fin 3, p.getD i 0 = 0 → l i = 0
  F0 : Rows ℝ
  search : Run (List (ℕ × List (V3 ℚ)))
  group : Run Str
  fs1 : Fs
  record : PreRecord
  pre : preMain cwd o x junk search group fs = .ok (fs1, record)
  fs2 : Fs
  glob : Str → List Str
  args : List Str
  force : List Str
  files : forceFiles glob args = .ok force
  calculated : Calculated code cwd o.unitcell fs1 fs2 (superSprings (fun i => e.getD i 0) (e.getD 0 0 * e.getD 1 0 * e.getD 2 0).toNat Φ) F0 (6 * sel.length) force
  kband : Str
  t : Str
  ks : List (V3 ℚ)
  auto : List ℤ
  kfile : fs2 (absPath cwd kband) = some t
  kread : KPoints.setKPoints (readlines t) (fun c => decide (p.getD c 0 ≠ 0)) = .ok (ks, auto)
  two : 2 ≤ ks.length
  inds : PyVal
  request : ModeRequest (fun i => e.getD i 0) (fun i => p.getD i 0) sel ks i k inds l
  L : ℚ → ℚ
  limit : LimitDen L
  jc : ℕ → List (V3 ℝ)
  fresh : ∀ m, (jc m).length = m

/-- The outcome of the post-process: the rows of `band.dat`, the animations, the displaced structures. -/
def ModeInput.outcome {u : Cell ℚ} {sel : List ℕ} {Φ : Springs} {i : ℕ} {k : V3 ℚ} {l : List ℤ} (r : ModeInput u sel Φ i k l) (S : Solver) (j : Junk) (mj : ModeJunk) (amplitude : Option ℝ) :
    Run (List (ℝ × List ℝ) × List Movie × List (ℤ × Cell ℝ)) :=
  modeMain S j mj r.L r.jc r.cwd {} r.record r.glob r.args r.kband r.inds k amplitude r.search r.fs2

/-! ### Proofs -/

theorem stored_row (S : Solver) (o : Object) (k : V3 ℚ) (m : ℕ) (hm : dof o = m) (A : Matrix (Fin m) (Fin m) ℂ)
    (h : ∀ r c : Fin m, dynMatrix (PostProcess.data o) (toReal k) r c = A r c) :
    (List.ofFn (atK S o k).1 = List.ofFn (S m A).1) ∧
    ((List.ofFn fun b => List.ofFn ((atK S o k).2 b)).map fun (row : List ℂ) d => row.getD d 0) = (List.range m).map (modeRow S A) := by
  subst hm
  have e : (Matrix.of fun (r c : Fin (dof o)) => dynMatrix (PostProcess.data o) (toReal k) r c) = A := by
    ext r c; exact h r c
  unfold atK
  rw [e]
  refine ⟨rfl, ?_⟩
  apply List.ext_getElem
  · simp
  · intro i h1 h2
    have hi : i < dof o := by simpa using h1
    simp only [List.getElem_map, List.getElem_ofFn, List.getElem_range]
    funext d
    unfold modeRow
    by_cases hd : d < dof o
    · rw [dif_pos ⟨hi, hd⟩, List.getD_eq_getElem _ _ (by simpa using hd), List.getElem_ofFn]
    · rw [dif_neg (fun hc => hd hc.2), List.getD_eq_default _ _ (by simpa using hd)]

theorem phonons_recip {S : Solver} {fs : Fs} {kfile : Str} {o o' : Object} (h : phonons S fs kfile o = .ok o') : o'.recip = o.recip := by
  unfold phonons at h
  obtain ⟨t, e1, h⟩ := run_inv h
  obtain ⟨o1, e2, h⟩ := run_inv h
  obtain ⟨-, e2⟩ := call_inv e2
  obtain ⟨-, e3⟩ := call_inv h
  rw [e3, e2]
  show (eval S (setK _ o).1).1.recip = _
  rw [eval_state]
  have hf : ∀ o : Object, (frequencies S o).recip = o.recip := by
    intro o; unfold frequencies; split <;> rfl
  refine (hf _).trans ?_
  unfold setK
  split
  · rfl
  · split <;> rfl

/-- The wave vector is determined by its phases. -/
theorem q_unique (A : M3 ℝ) (hA : A.det ≠ 0) (q : V3 ℝ) (k : V3 ℝ) (h : ∀ c, dot3 q (A c) = 2 * Real.pi * k c) : q = qOf k (reciprocal A) := by
  have h1 : A.mulVec q = A.mulVec (qOf k (reciprocal A)) := by
    funext c
    have e : ∀ w : V3 ℝ, A.mulVec w c = dot3 w (A c) := by
      intro w
      simp [Matrix.mulVec, dotProduct, dot3, Fin.sum_univ_three]
      ring
    rw [e, e, h, qOf_lattice A hA]
  exact Matrix.mulVec_injective_of_isUnit ((Matrix.isUnit_iff_isUnit_det _).2 (isUnit_iff_ne_zero.2 hA)) h1

theorem toR_det {u : Cell ℚ} (h : u.lattice.det ≠ 0) : (toR u).lattice.det ≠ 0 := by
  have e : (toR u).lattice.det = ((u.lattice.det : ℚ) : ℝ) := by
    rw [Matrix.det_fin_three, Matrix.det_fin_three]
    simp only [toR]
    push_cast
    ring
  rw [e]
  exact_mod_cast h

/-- The masses of the super cell built for a mode. -/
theorem super_masses {L : ℚ → ℚ} {junk : ℕ → List (V3 ℝ)} {u : Cell ℚ} {sel : List ℕ} {k : Fin 3 → ℚ} {p : Fin 3 → ℤ} {mass : ℕ → ℝ} (hL : LimitDen L) (hj : ∀ m, (junk m).length = m)
    (hu : GoodUnit u sel) (hdet : (toR u).lattice.det ≠ 0) (hk : ∀ i, p i ≠ 0 → (k i).den ≤ 100) (hmass : IsMasses u sel mass) :
    ∃ s0 s sm, setSuperCell junk (toR u) (commensurate L k p) p = .ok s0 ∧ setSuperIndTrue s0 (toR u) (commensurate L k p) p = .ok s ∧ superMass s = .ok sm ∧
      ModeSetup L junk (toR u) sel k p s mass sm := by
  obtain ⟨groups, hg⟩ := hu.groups
  have ht : (toR u).atomType.length = (toR u).cart.length := by
    show u.atomType.length = (u.cart.map toReal).length
    rw [List.length_map, hg.len]
  have hsel : (toR u).atomTrue = some sel := hu.selected
  obtain ⟨hcall, s0, hs0⟩ := C56_supercell_built (L := L) junk hj (toR u) ht k p
  set n := commensurate L k p with hn
  have hE : 0 < copies n := by
    have h0 := hcall.pos 0
    have h1 := hcall.pos 1
    have h2 := hcall.pos 2
    have : 0 < n 0 * n 1 * n 2 := by positivity
    unfold copies
    omega
  obtain ⟨s, hs, hst, hsx, hsty⟩ : ∃ s, setSuperIndTrue s0 (toR u) n p = .ok s ∧ s.atomTrue = some (selectedCopies (copies n) sel) ∧
      s.xyzTrue = some ((selectedCopies (copies n) sel).flatMap fun a => [a, a, a]) ∧ s.atomType = s0.atomType := by
    unfold setSuperIndTrue
    rw [hsel]
    simp only [enlarge_eq n p hcall.cons]
    exact ⟨_, rfl, rfl, rfl, rfl⟩
  obtain ⟨hlen, htl, htypes, -⟩ := C07_supercell_counts_types hcall hs0
  have hb : ∀ a ∈ sel, a < u.atomType.length := by
    intro a ha; rw [← hg.len]; exact hu.bound a ha
  have htype : ∀ j < sel.length * copies n, ∃ a t, (selectedCopies (copies n) sel)[j]? = some a ∧ s0.atomType[a]? = some t ∧
      ∃ a0, sel[j / copies n]? = some a0 ∧ u.atomType[a0]? = some t := by
    intro j hj
    have hj1 : j / copies n < sel.length := (Nat.div_lt_iff_lt_mul hE).2 hj
    have hj2 := Nat.mod_lt j hE
    have h1 := selectedCopies_get (copies n) sel (j / copies n) (j % copies n) hj1 hj2
    rw [Nat.div_add_mod'] at h1
    have h2 : sel[j / copies n]? = some (sel.getD (j / copies n) 0) := by
      rw [List.getD_eq_getElem _ _ hj1, List.getElem?_eq_getElem hj1]
    have h3 : sel.getD (j / copies n) 0 < u.atomType.length := by
      rw [List.getD_eq_getElem _ _ hj1]; exact hb _ (List.getElem_mem _)
    refine ⟨_, u.atomType[sel.getD (j / copies n) 0], h1, ?_, _, h2, List.getElem?_eq_getElem h3⟩
    have := htypes (sel.getD (j / copies n) 0) (j % copies n) _ hj2 (List.getElem?_eq_getElem h3)
    rwa [Nat.mul_comm] at this
  -- names of the super cell
  have hnames : ∀ t ∈ s.atomType, ∃ z, NamesElement t z := by
    intro t h
    rw [hsty] at h
    obtain ⟨i, hi, rfl⟩ := List.getElem_of_mem h
    have hi' : i < copies n * (toR u).cart.length := by rw [htl, hlen] at hi; exact hi
    have h1 : i / copies n < u.atomType.length := by
      rw [Nat.div_lt_iff_lt_mul hE, hg.len.symm, Nat.mul_comm]
      simpa [toR] using hi'
    have := htypes (i / copies n) (i % copies n) _ (Nat.mod_lt _ hE) (List.getElem?_eq_getElem h1)
    have e : (n 0 * n 1 * n 2).toNat * (i / copies n) + i % copies n = i := Nat.div_add_mod i (copies n)
    rw [e, List.getElem?_eq_getElem hi] at this
    rw [Option.some_inj.1 this]
    exact hu.names _ (List.getElem_mem _)
  have hlensel : (selectedCopies (copies n) sel).length = sel.length * copies n := by
    simp [selectedCopies, List.length_flatMap, Nat.mul_comm]
  obtain ⟨ws, hws, hwl⟩ := weights_ok s.atomType hnames
  obtain ⟨m, hm, hml⟩ := fancy_ok (ws.map fun w => w / (6022 * 10 ^ 20) / 1000) ((selectedCopies (copies n) sel).flatMap fun a => [a, a, a]) (by
    intro a ha
    obtain ⟨b, hbm, hab⟩ := List.mem_flatMap.1 ha
    have : a = b := by simpa using hab
    subst this
    rw [List.length_map, hwl, hsty]
    have hb1 := hb _ ((selectedCopies_mem hE).1 hbm)
    rw [htl, hlen]
    have : (toR u).cart.length = u.atomType.length := ht.symm
    rw [this]
    calc a = copies n * (a / copies n) + a % copies n := (Nat.div_add_mod _ _).symm
      _ < copies n * (a / copies n) + copies n := by have := Nat.mod_lt a hE; omega
      _ = copies n * (a / copies n + 1) := by ring
      _ ≤ _ := Nat.mul_le_mul_left _ hb1)
  set raw : RawCell := { atomType := some s.atomType, atomTrue := s.atomTrue.map (·.map Int.ofNat), xyzTrue := s.xyzTrue.map (·.map Int.ofNat) } with hraw
  have hx : raw.xyzTrue = some (((selectedCopies (copies n) sel).flatMap fun a => [a, a, a]).map fun a : ℕ => (a : ℤ)) := by
    rw [hraw]; simp only [hsx]; rfl
  have hset : setMassTrue raw = ({ raw with mass := some m }, none) := by
    have ha : raw.atomTrue = some ((selectedCopies (copies n) sel).map Int.ofNat) := by rw [hraw]; simp only [hst]; rfl
    unfold setMassTrue
    have ht : raw.atomType = some s.atomType := rfl
    simp only [ht, hws, hx, hm]
    unfold setMass
    rw [ha]
    simp only
    rw [if_pos (by rw [hml]; simp; ring)]
    rw [← hx, ← ha, ← ht]
  have hsm : superMass s = .ok (m.map fun q : ℚ => (q : ℝ)) := by
    unfold superMass
    rw [← hraw, hset]
    rfl
  obtain ⟨m', hm', -, hget⟩ := C14_masses raw _ s.atomType _ rfl hx hset
  cases hm'
  refine ⟨s0, s, _, hs0, hs, hsm, ?_⟩
  refine ⟨hL, hj, ht, hdet, hsel, ?_, ?_, hk, ⟨s0, hs0, hs⟩, ?_, ?_, ?_⟩
  · exact hu.sorted.imp fun h => h.ne
  · intro t h
    simpa [toR] using hu.bound t h
  · intro i hi
    exact masses_pos hmass hb ⟨i, hi⟩
  · rw [List.length_map, hml]
    simp only [List.length_flatMap, List.length_cons, List.length_nil]
    rw [← hlensel]
    simp [mul_comm]
  · intro j hj c
    obtain ⟨a, t, h1, h2, a0, h3, h4⟩ := htype j hj
    obtain ⟨w, w1, w2, -⟩ := hget (3 * j + c) a t (by rw [List.getElem?_map, three_get _ j a c h1]; rfl) (by rw [hsty]; exact h2)
    obtain ⟨w', w1', -, w2'⟩ := hmass (j / copies n) a0 c t h3 h4
    rw [w1] at w1'
    cases w1'
    rw [w2', List.getD_eq_getElem?_getD, List.getElem?_map, w2]
    rfl

/-- The run of the mode analysis from the phonons: what is in the files. -/
theorem mode_core {S : Solver} {j : Junk} {cwd : Str} {rec : PreRecord} {force : List Str} {search : Run (List (ℕ × List (V3 ℚ)))} {fs2 : Fs} {n p : Fin 3 → ℤ}
    {u : Cell ℚ} {sel : List ℕ} {Φ : Springs} (hu : GoodUnit u sel) (hdet : (toR u).lattice.det ≠ 0)
    (hmain : ExactPhonons S j cwd rec force search fs2 n p u sel Φ) {glob : Str → List Str} {args : List Str}
    (hforce : forceFiles glob args = .ok force) (kband t : Str) (ks : List (V3 ℚ)) (auto : List ℤ) (hkf : fs2 (absPath cwd kband) = some t)
    (hk : KPoints.setKPoints (readlines t) (fun c => decide (p c ≠ 0)) = .ok (ks, auto)) (hk2 : 2 ≤ ks.length)
    (i : ℕ) (k : V3 ℚ) (hi : ks[i]? = some k) (hfit : Fits n p (toReal k)) (hlast : ∀ i' k', i < i' → ks[i']? = some k' → ¬Matches (toReal k) (toReal k'))
    (inds : PyVal) {l : List ℤ} (hl : toIntNumpy inds = .ok l) (hr : ∀ z ∈ l, -((3 * sel.length : ℕ) : ℤ) ≤ z ∧ z < (3 * sel.length : ℕ)) (mj : ModeJunk)
    {L : ℚ → ℚ} (hL : LimitDen L) {jc : ℕ → List (V3 ℝ)} (hjc : ∀ m, (jc m).length = m) (hden : ∀ c, p c ≠ 0 → (k c).den ≤ 100) :
    ∃ rows mass len, IsMasses u sel mass ∧ rows.length = ks.length ∧
      rows[i]? = some (len, List.ofFn (S (3 * sel.length) (trueDyn (toR u) sel mass Φ (qOf (toReal k) (reciprocal (toR u).lattice)) (3 * sel.length))).1) ∧
      modeMain S j mj L jc cwd {} rec glob args kband inds k none search fs2 = .ok (rows, l.map (fun z => ⟨z, toReal k, animation (toR u).cart sel ((List.range (3 * sel.length)).map mass) 30
          (modeRow S (trueDyn (toR u) sel mass Φ (qOf (toReal k) (reciprocal (toR u).lattice)) (3 * sel.length)) (designates (3 * sel.length) z))⟩), []) ∧
      ∃ s sm, ModeSetup L jc (toR u) sel k p s mass sm ∧ ∀ amp : ℝ,
        modeMain S j mj L jc cwd {} rec glob args kband inds k (some amp) search fs2 = .ok (rows,
          l.map (fun z => ⟨z, toReal k, animation (toR u).cart sel ((List.range (3 * sel.length)).map mass) 30
            (modeRow S (trueDyn (toR u) sel mass Φ (qOf (toReal k) (reciprocal (toR u).lattice)) (3 * sel.length)) (designates (3 * sel.length) z))⟩),
          l.map fun z => (z, { s with cart := modeStructure L (toR u) s sel k p sm amp (modeRow S (trueDyn (toR u) sel mass Φ (qOf (toReal k) (reciprocal (toR u).lattice)) (3 * sel.length)) (designates (3 * sel.length) z)) })) := by
  obtain ⟨P, mass, hpost, hmass, ⟨hPu, hPm, hPp, hPr⟩, hrest⟩ := hmain
  obtain ⟨o3, o4, hph, ho4, hk3, hkp, -, hp4, hdof3, hdof4, hwl, hrows⟩ := hrest (absPath cwd kband) t ks auto hkf hk (by rintro rfl; simp at hk2)
  obtain ⟨hun, hma⟩ := phonons_inputs hph
  have hre := phonons_recip hph
  rw [hPu] at hun
  rw [hPm] at hma
  rw [hPr] at hre
  obtain ⟨b, hb1, hb2, -⟩ := C81_path_partial (o4.kPoints.map toReal) (by rw [List.length_map, hkp]; exact hk2) o4.wq.length (dof o4) (dof o4)
    (fun k f m => ((o4.vq.getD k []).getD f []).getD m 0) j.band
  rw [List.length_map, hkp] at hb2
  have hband : bandMain S j cwd {} rec glob args kband search fs2 = .ok (o4, b.len.zip o4.wq) := by
    unfold bandMain bandOf
    rw [hforce]
    simp only [run_ok]
    rw [hpost]
    simp only [run_ok]
    rw [hph]
    simp only [run_ok]
    rw [hb1]
    rfl
  obtain ⟨row, q, hr1, hq, -, hdyn⟩ := hrows i k hi hfit
  obtain rfl : q = qOf (toReal k) (reciprocal (toR u).lattice) := q_unique _ hdet _ _ hq
  set A := trueDyn (toR u) sel mass Φ (qOf (toReal k) (reciprocal (toR u).lattice)) (3 * sel.length) with hA
  obtain ⟨f1, f2⟩ := stored_row S o3 k (3 * sel.length) hdof3 A hdyn
  have hst : o4 = { frequencies S o3 with gammaFile := (eval S o3).1.gammaFile } := by rw [ho4]; exact eval_state S o3
  have hlen3 : o3.kPoints.length ≠ 0 := by rw [hk3]; omega
  have hwq : o4.wq = ks.map fun k => List.ofFn (atK S o3 k).1 := by
    rw [hst, ← hk3]
    simp only [frequencies, if_pos hlen3]
  have hvq : o4.vq = ks.map fun k => List.ofFn fun m => List.ofFn ((atK S o3 k).2 m) := by
    rw [hst, ← hk3]
    simp only [frequencies, if_pos hlen3]
  obtain ⟨hil, hik⟩ := List.getElem?_eq_some_iff.1 hi
  have hrow : row = List.ofFn (S (3 * sel.length) A).1 := by
    rw [hwq, List.getElem?_map, hi] at hr1
    rw [← Option.some_inj.1 hr1]
    exact f1
  have hsel : o4.unit.atomTrue = some sel := by rw [hun]; exact hu.selected
  have hselm : ∀ t ∈ sel, t < (toR u).cart.length := fun t h => by simpa [toR] using hu.bound t h
  have hnd : sel.Nodup := hu.sorted.imp fun h => h.ne
  obtain ⟨groups, hg⟩ := hu.groups
  have hpos : ∀ m ∈ (List.range (3 * sel.length)).map mass, 0 ≤ m := by
    intro m hm
    obtain ⟨r, hr, rfl⟩ := List.mem_map.1 hm
    exact (masses_pos hmass (by intro t ht; rw [← hg.len]; exact hu.bound t ht) ⟨r, List.mem_range.1 hr⟩).le
  set vq := o4.vq.map fun rows => rows.map fun (row : List ℂ) d => row.getD d 0 with hvqd
  have hvi : vq.getD i [] = (List.range (3 * sel.length)).map (modeRow S A) := by
    rw [hvqd, List.getD_eq_getElem?_getD, List.getElem?_map, hvq, List.getElem?_map, hi, Option.map_some, Option.map_some, Option.getD_some, f2]
  have hvl : (vq.getD i []).length = 3 * sel.length := by rw [hvi]; simp
  have hks : ∀ i' : ℕ, i' < ks.length → (ks.map toReal).getD i' 0 = toReal (ks.getD i' 0) := by
    intro i' hi'
    rw [List.getD_eq_getElem _ _ (by simpa using hi'), List.getElem_map, List.getD_eq_getElem _ _ hi']
  have hkd : ks.getD i 0 = k := by rw [List.getD_eq_getElem _ _ hil, hik]
  obtain ⟨g1, g2, -⟩ := C113_files (Obj.new mj.k mj.mode) (ks.map toReal) vq inds (toReal k) hl (i := i) (by simpa using hil)
    (by
      rw [hks i hil, hkd]
      intro c
      rw [sub_self, abs_zero]; positivity)
    (by
      intro i' h1 h2
      have h2' : i' < ks.length := by simpa using h2
      rw [hks i' h2', List.getD_eq_getElem _ _ h2']
      exact hlast i' _ h1 (List.getElem?_eq_getElem h2'))
    (by rw [hvl]; exact hr) (toR u).cart sel hnd ((List.range (3 * sel.length)).map mass) hpos
  have hdes : ∀ z ∈ l, (vq.getD i []).getD (designates (vq.getD i []).length z) 0 = modeRow S A (designates (3 * sel.length) z) := by
    intro z hz
    rw [hvl, hvi]
    obtain ⟨h1, h2⟩ := hr z hz
    have : designates (3 * sel.length) z < 3 * sel.length := by
      unfold designates
      have : (0 : ℤ) < (3 * sel.length : ℕ) := by omega
      have h3 := Int.emod_lt_of_pos z this
      have h4 := Int.emod_nonneg z this.ne'
      omega
    rw [List.getD_eq_getElem _ _ (by simpa using this), List.getElem_map, List.getElem_range]
  have hmov : l.map (fun z => (⟨z, toReal k, animation (toR u).cart sel ((List.range (3 * sel.length)).map mass) (Obj.new mj.k mj.mode).images
      ((vq.getD i []).getD (designates (vq.getD i []).length z) 0)⟩ : Movie)) =
      l.map fun z => ⟨z, toReal k, animation (toR u).cart sel ((List.range (3 * sel.length)).map mass) 30 (modeRow S A (designates (3 * sel.length) z))⟩ := by
    refine List.map_congr_left fun z hz => ?_
    rw [hdes z hz]
    rfl
  rw [hmov] at g2
  obtain ⟨s0, s, sm, hs0, hs, hsm, hsetup⟩ := super_masses (p := p) (k := k) hL hjc hu hdet hden hmass
  set ob := ((Obj.new mj.k mj.mode).set (ks.map toReal) vq inds (toReal k)).1 with hob
  have hset : (Obj.new mj.k mj.mode).set (ks.map toReal) vq inds (toReal k) = (ob, none) := Prod.ext rfl g1
  have hobj : ob.inds = l ∧ ob.k = toReal k ∧ ob.mode = vq.getD i [] := by
    have hc : chooseK (ks.map toReal) (toReal k) = .ok i := ((C55_chosen_k _ _).1 i).2 ⟨by simpa using hil, by
      rw [hks i hil, hkd]
      intro c
      rw [sub_self, abs_zero]; positivity, by
      intro i' h1 h2
      have h2' : i' < ks.length := by simpa using h2
      rw [hks i' h2', List.getD_eq_getElem _ _ h2']
      exact hlast i' _ h1 (List.getElem?_eq_getElem h2')⟩
    rw [hob, Obj.set, hl]
    simp only [hc]
    refine ⟨?_, ?_, ?_⟩ <;> trivial
  have hmode : ∀ amp : Option ℝ, ∀ d, (match amp with | none => .ok [] | some a => displaceOf L jc o4 ob k a : Run (List (ℤ × Cell ℝ))) = .ok d →
      modeMain S j mj L jc cwd {} rec glob args kband inds k amp search fs2 = .ok (b.len.zip o4.wq, l.map (fun z => ⟨z, toReal k,
        animation (toR u).cart sel ((List.range (3 * sel.length)).map mass) 30 (modeRow S A (designates (3 * sel.length) z))⟩), d) := by
    intro amp d hd
    unfold modeMain
    rw [hband, run_ok]
    unfold modeOf
    simp only
    rw [hkp, ← hvqd, hset, hsel, hun, hdof4, hma, Option.getD_some]
    simp only [raising, run_ok]
    rw [g2]
    simp only [run_ok]
    cases amp with
    | none => cases hd; rfl
    | some a =>
      have hd' : displaceOf L jc o4 ob k a = .ok d := hd
      simp only
      rw [hd']
      rfl
  refine ⟨b.len.zip o4.wq, mass, b.len[i]'(by rw [hb2]; exact hil), hmass, by rw [List.length_zip, hb2, hwl, min_self], ?_, hmode none [] rfl, s, sm, hsetup, ?_⟩
  · rw [List.getElem?_zip_eq_some, ← hrow]
    exact ⟨List.getElem?_eq_getElem (by rw [hb2]; exact hil), hr1⟩
  · intro amp
    refine hmode (some amp) _ ?_
    show displaceOf L jc o4 ob k amp = _
    have hsat : s.atomTrue.getD [] = selectedCopies (copies (commensurate L k p)) sel := by rw [hsetup.super.2.2]; rfl
    have hd := C113_structures ob (by rw [hobj.1, hobj.2.2, hvl]; exact hr) (qOf (toReal k) (reciprocal (toR u).lattice)) amp (copies (commensurate L k p)) sm s.cart
      (selectedCopies (copies (commensurate L k p)) sel) (selectedCopies_nodup hsetup.copies_pos hnd)
    unfold displaceOf
    simp only
    rw [hp4, hun, hs0, run_ok, hs, run_ok, hsm, run_ok, hsat, hobj.2.1, hre]
    rw [enlarge_eq _ p hsetup.call.cons]
    have e : (commensurate L k p 0 * commensurate L k p 1 * commensurate L k p 2).toNat = copies (commensurate L k p) := rfl
    rw [e]
    change (do raising (ob.displace (qOf (toReal k) (reciprocal (toR u).lattice)) amp (copies (commensurate L k p)) sm s.cart (selectedCopies (copies (commensurate L k p)) sel)).2
               return _ : Run _) = _
    rw [hd]
    simp only [raising, run_ok]
    rw [hobj.1]
    show Except.ok _ = _
    rw [List.map_map]
    congr 1
    refine List.map_congr_left fun z hz => ?_
    simp only [Function.comp, modeStructure]
    rw [hobj.2.2, hdes z hz]
    rfl

/-! ### What the files contain -/

section
variable {u : Cell ℚ} {sel : List ℕ} {Φ : Springs} {i : ℕ} {k : V3 ℚ} {l : List ℤ}

/-- **C135** (what is shown).  The post-process succeeds.  `band.dat` lists at the k point asked for the frequencies of the dynamical matrix of the infinite crystal; each index asked for
gets one animation (30 images) and, with an amplitude, one displaced structure, both made from the row of the array of mode vectors that the index designates. -/
theorem C135_files (r : ModeInput u sel Φ i k l) {S : Solver} (hS : IsSolver S) (j : Junk) (mj : ModeJunk) :
    ∃ rows mass len, IsMasses u sel mass ∧ rows.length = r.ks.length ∧
      rows[i]? = some (len, List.ofFn (S (3 * sel.length) (trueDyn (toR u) sel mass Φ (qOf (toReal k) (reciprocal (toR u).lattice)) (3 * sel.length))).1) ∧
      r.outcome S j mj none = .ok (rows, l.map (fun z => ⟨z, toReal k, animation (toR u).cart sel ((List.range (3 * sel.length)).map mass) 30
          (modeRow S (trueDyn (toR u) sel mass Φ (qOf (toReal k) (reciprocal (toR u).lattice)) (3 * sel.length)) (designates (3 * sel.length) z))⟩), []) ∧
      ∃ s sm, ModeSetup r.L r.jc (toR u) sel k (fun i => r.p.getD i 0) s mass sm ∧ ∀ amp : ℝ,
        r.outcome S j mj (some amp) = .ok (rows,
          l.map (fun z => ⟨z, toReal k, animation (toR u).cart sel ((List.range (3 * sel.length)).map mass) 30
            (modeRow S (trueDyn (toR u) sel mass Φ (qOf (toReal k) (reciprocal (toR u).lattice)) (3 * sel.length)) (designates (3 * sel.length) z))⟩),
          l.map fun z => (z, { s with cart := modeStructure r.L (toR u) s sel k (fun i => r.p.getD i 0) sm amp (modeRow S (trueDyn (toR u) sel mass Φ (qOf (toReal k) (reciprocal (toR u).lattice)) (3 * sel.length)) (designates (3 * sel.length) z)) })) := by
  obtain ⟨fs1, rec, hpre, hmain⟩ := post_ok r.run r.d0 r.det r.xyz r.dec r.d16 Φ r.range r.F0 r.search r.group hS j
  have e := r.pre
  rw [hpre] at e
  cases e
  exact mode_core r.run.unit (toR_det r.det) (hmain r.fs2 r.force r.calculated) r.files r.kband r.t r.ks r.auto r.kfile r.kread r.two i k r.request.listed r.request.fits r.request.last
    r.inds r.request.indices r.request.valid mj r.limit r.fresh r.request.fractions

theorem animation_mem {cart : List (V3 ℝ)} {mass : List ℝ} {N : ℕ} {v : ℕ → ℂ} {W : List (V3 ℝ)} :
    W ∈ animation cart sel mass N v ↔ ∃ t < N, image cart sel mass N v t = W := by
  unfold animation image
  simp only [List.mem_map, List.mem_range]

theorem mass_list {M : ℕ → ℝ} {n r : ℕ} (hr : r < n) : ((List.range n).map M).getD r 0 = M r := by
  rw [List.getD_eq_getElem _ _ (by simpa using hr), List.getElem_map, List.getElem_range]

theorem trueDyn_congr {u : Cell ℝ} {M M' : ℕ → ℝ} {m : ℕ} (h : ∀ r < m, M r = M' r) (q : V3 ℝ) : trueDyn u sel M Φ q m = trueDyn u sel M' Φ q m := by
  ext r c
  simp only [trueDyn, Matrix.of_apply, h r r.2, h c c.2]

/-- There is only one possible list of masses. -/
theorem masses_unique {u : Cell ℚ} {sel : List ℕ} {M M' : ℕ → ℝ} (h : IsMasses u sel M) (h' : IsMasses u sel M') (hb : ∀ t ∈ sel, t < u.atomType.length) :
    ∀ r < 3 * sel.length, M r = M' r := by
  intro r hr
  have hr : r / 3 < sel.length := by omega
  have h1 : sel[r / 3]? = some sel[r / 3] := List.getElem?_eq_getElem hr
  have h2 := hb _ (List.getElem_mem hr)
  obtain ⟨w, e1, -, hm⟩ := h (r / 3) _ ⟨r % 3, by omega⟩ _ h1 (List.getElem?_eq_getElem h2)
  obtain ⟨w', e1', -, hm'⟩ := h' (r / 3) _ ⟨r % 3, by omega⟩ _ h1 (List.getElem?_eq_getElem h2)
  rw [e1] at e1'
  cases e1'
  have e : 3 * (r / 3) + r % 3 = r := by omega
  simp only [e] at hm hm'
  rw [hm, hm']

/-- An animation at the zone centre moves along a normal mode exactly if the real part of its mode vector is one. -/
theorem moves_iff {u : Cell ℝ} {M : ℕ → ℝ} (hnd : sel.Nodup) (hlt : ∀ t ∈ sel, t < u.cart.length) (hpos : ∀ r < 3 * sel.length, 0 < M r) (v : ℕ → ℂ) (lam : ℝ) :
    MovesAlong u sel M Φ (animation u.cart sel ((List.range (3 * sel.length)).map M) 30 v) lam ↔ EigenMode u sel M Φ 0 lam fun i => ((v i).re : ℂ) := by
  set ml := (List.range (3 * sel.length)).map M with hml
  have hlen : ml.length = 3 * sel.length := by simp [hml]
  have hp : ∀ m ∈ ml, 0 < m := by
    intro m hm
    obtain ⟨r, hr, rfl⟩ := List.mem_map.1 hm
    exact hpos r (List.mem_range.1 hr)
  have hM : ∀ r < 3 * sel.length, ml.getD r 0 = M r := fun r hr => mass_list hr
  have heig : ∀ v : ℕ → ℂ, EigenMode u sel (fun i => ml.getD i 0) Φ 0 lam v ↔ EigenMode u sel M Φ 0 lam v := by
    intro v
    unfold EigenMode
    rw [trueDyn_congr hM]
  have hal : ∀ W, AlongMode (superSprings 1 1 Φ) u W sel lam (fun r x => ml.getD (3 * sel.idxOf r + x) 0) ↔ AlongMode (superSprings 1 1 Φ) u W sel lam (fun r x => M (3 * sel.idxOf r + x)) := by
    intro W
    unfold AlongMode
    refine forall_congr' fun F0 => forall_congr' fun r => forall_congr' fun hr => forall_congr' fun x => ?_
    have := List.idxOf_lt_length_of_mem hr
    have := x.2
    beta_reduce
    rw [hM (3 * sel.idxOf r + x) (by omega)]
  have key := fun t => C131_animation_gamma_iff u sel hnd hlt Φ ml hlen hp v lam 30 t
  constructor
  · intro H
    have h1 := H (image u.cart sel ml 30 v 1) (animation_mem.2 ⟨1, by norm_num, rfl⟩)
    rw [← hal, key] at h1
    rcases h1 with h1 | h1
    · exfalso
      have : 0 < Real.sin (2 * Real.pi * (1 : ℕ) / (30 : ℕ)) := by
        apply Real.sin_pos_of_pos_of_lt_pi
        · have := Real.pi_pos; positivity
        · have := Real.pi_pos
          push_cast
          linarith
      exact this.ne' h1
    · exact (heig _).1 h1
  · intro H W hW
    obtain ⟨t, -, rfl⟩ := animation_mem.1 hW
    rw [← hal, key]
    exact .inr ((heig _).2 H)

theorem qOf_zero (A : M3 ℝ) : qOf (toReal 0) A = 0 := by
  funext c; simp [qOf, toReal]

/-- **C135, full statement**: with a solver like LAPACK's, each animation that the program writes at the zone centre shows a normal mode of the crystal: its images are displaced along a
normal mode whose frequency is the one that `band.dat` lists under the same index. -/
def C135_full : Prop := ∀ (S : Solver), LapackSolver S → ∀ (u : Cell ℚ) (sel : List ℕ) (Φ : Springs) (i : ℕ) (l : List ℤ) (r : ModeInput u sel Φ i 0 l) (j : Junk) (mj : ModeJunk),
  SymmetricSprings Φ → ∀ rows movies structs, r.outcome S j mj none = .ok (rows, movies, structs) → ∀ mv ∈ movies, ∃ (mass : ℕ → ℝ) (lam len : ℝ) (row : List ℝ),
    IsMasses u sel mass ∧ rows[i]? = some (len, row) ∧ row[designates (3 * sel.length) mv.ind]? = some (freqOf (lam : ℂ)) ∧ MovesAlong (toR u) sel mass Φ mv.frames lam

/-- **C135** (exact condition).  At the zone centre the animation of an index shows a normal mode with `ω² = lam` exactly if the real part of the row of the array of mode vectors that
the index designates is an eigenvector for `lam`. -/
theorem C135_animation_iff (r : ModeInput u sel Φ i 0 l) {S : Solver} (hS : IsSolver S) (j : Junk) (mj : ModeJunk) {rows : List (ℝ × List ℝ)} {movies : List Movie} {structs : List (ℤ × Cell ℝ)}
    (h : r.outcome S j mj none = .ok (rows, movies, structs)) : movies.map (·.ind) = l ∧ ∀ mass, IsMasses u sel mass → ∀ mv ∈ movies, ∀ lam : ℝ,
      MovesAlong (toR u) sel mass Φ mv.frames lam ↔
        EigenMode (toR u) sel mass Φ 0 lam fun d => ((modeRow S (trueDyn (toR u) sel mass Φ 0 (3 * sel.length)) (designates (3 * sel.length) mv.ind) d).re : ℂ) := by
  obtain ⟨rows', mass0, len, hmass0, -, -, hout, -⟩ := C135_files r hS j mj
  rw [h] at hout
  cases hout
  have hlen : ∀ t ∈ sel, t < u.atomType.length := by
    obtain ⟨groups, hg⟩ := r.run.unit.groups
    intro t ht; rw [← hg.len]; exact r.run.unit.bound t ht
  refine ⟨by rw [List.map_map]; exact List.map_id _, ?_⟩
  intro mass hmass mv hmv lam
  obtain ⟨z, -, rfl⟩ := List.mem_map.1 hmv
  have hM := masses_unique hmass0 hmass hlen
  have hml : (List.range (3 * sel.length)).map mass0 = (List.range (3 * sel.length)).map mass := List.map_congr_left fun r hr => hM r (List.mem_range.1 hr)
  rw [qOf_zero, trueDyn_congr hM, hml]
  exact moves_iff (r.run.unit.sorted.imp fun h => h.ne) (fun t h => by simpa [toR] using r.run.unit.bound t h) (fun c hc => masses_pos hmass hlen ⟨c, hc⟩) _ lam

/-- **C135** (partial).  If the rows of the array of mode vectors at the k point are real eigenvectors to the listed frequencies, then every animation at the zone centre and every displaced
structure at any k point moves along a normal mode with the frequency that `band.dat` lists.  (Missing: for solvers like LAPACK's the *columns* are eigenvectors, the rows in general not, see
`C135_refuted`.) -/
theorem C135_modes_partial (r : ModeInput u sel Φ i k l) {S : Solver} (hS : IsSolver S) (j : Junk) (mj : ModeJunk)
    (hrow : ∀ mass, IsMasses u sel mass → ∀ b : Fin (3 * sel.length), ∃ lam : ℝ,
      (S (3 * sel.length) (trueDyn (toR u) sel mass Φ (qOf (toReal k) (reciprocal (toR u).lattice)) (3 * sel.length))).1 b = freqOf (lam : ℂ) ∧
      EigenMode (toR u) sel mass Φ (qOf (toReal k) (reciprocal (toR u).lattice)) lam
        fun d => ((modeRow S (trueDyn (toR u) sel mass Φ (qOf (toReal k) (reciprocal (toR u).lattice)) (3 * sel.length)) b d).re : ℂ)) (amp : ℝ) :
    ∃ rows movies structs mass len row, r.outcome S j mj (some amp) = .ok (rows, movies, structs) ∧ movies.map (·.ind) = l ∧ structs.map (·.1) = l ∧ IsMasses u sel mass ∧
      rows[i]? = some (len, row) ∧
      (k = 0 → ∀ mv ∈ movies, ∃ lam : ℝ, row[designates (3 * sel.length) mv.ind]? = some (freqOf (lam : ℂ)) ∧ MovesAlong (toR u) sel mass Φ mv.frames lam) ∧
      ∃ s sm, ModeSetup r.L r.jc (toR u) sel k (fun i => r.p.getD i 0) s mass sm ∧ ∀ st ∈ structs, ∃ lam : ℝ, row[designates (3 * sel.length) st.1]? = some (freqOf (lam : ℂ)) ∧
        AlongMode (modeSprings r.L k (fun i => r.p.getD i 0) Φ) s st.2.cart (selectedCopies (copies (commensurate r.L k fun i => r.p.getD i 0)) sel) lam
          (fun c x => mass (3 * sel.idxOf (c / copies (commensurate r.L k fun i => r.p.getD i 0)) + x)) := by
  obtain ⟨rows, mass, len, hmass, -, hrows, -, s, sm, hset, hout⟩ := C135_files r hS j mj
  have hlen : ∀ t ∈ sel, t < u.atomType.length := by
    obtain ⟨groups, hg⟩ := r.run.unit.groups
    intro t ht; rw [← hg.len]; exact r.run.unit.bound t ht
  have hdes : ∀ z ∈ l, designates (3 * sel.length) z < 3 * sel.length := by
    intro z hz
    obtain ⟨h1, h2⟩ := r.request.valid z hz
    unfold designates
    have : (0 : ℤ) < (3 * sel.length : ℕ) := by omega
    have h3 := Int.emod_lt_of_pos z this
    have h4 := Int.emod_nonneg z this.ne'
    omega
  refine ⟨rows, _, _, mass, len, _, hout amp, by rw [List.map_map]; exact List.map_id _, by rw [List.map_map]; exact List.map_id _, hmass, hrows, ?_, s, sm, hset, ?_⟩
  · rintro rfl mv hmv
    obtain ⟨z, hz, rfl⟩ := List.mem_map.1 hmv
    obtain ⟨lam, h1, h2⟩ := hrow mass hmass ⟨_, hdes z hz⟩
    refine ⟨lam, ?_, ?_⟩
    · rw [List.getElem?_eq_getElem (by simpa using hdes z hz), List.getElem_ofFn, ← h1]
    · rw [qOf_zero] at h2 ⊢
      exact (moves_iff (r.run.unit.sorted.imp fun h => h.ne) (fun t h => by simpa [toR] using r.run.unit.bound t h) (fun c hc => masses_pos hmass hlen ⟨c, hc⟩) _ lam).2 h2
  · intro st hst
    obtain ⟨z, hz, rfl⟩ := List.mem_map.1 hst
    obtain ⟨lam, h1, h2⟩ := hrow mass hmass ⟨_, hdes z hz⟩
    refine ⟨lam, ?_, ?_⟩
    · rw [List.getElem?_eq_getElem (by simpa using hdes z hz), List.getElem_ofFn, ← h1]
    · exact C131_along_mode_partial hset Φ r.range amp _ lam h2

end

end
end Interphon.Props
