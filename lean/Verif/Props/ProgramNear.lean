import Verif.Props.Program
import Verif.Props.Stable
import Verif.Props.CellImages
import Verif.Props.ProgramDosExample

/-!
# The whole program with errors in the forces: C129

The numbers in the output files of the first-principles code are not exact and the displaced super cells are written with sixteen decimals; the frequencies
that the program prints are off by little.
-/

namespace Interphon.Props
open Py Interphon Interphon.UnitCell Interphon.SuperCell Interphon.PreProcess Interphon.Args Interphon.Inout Interphon.Cli Interphon.Main
open Interphon.PostProcess Interphon.Phonon Interphon.ForceConstant

/-- The forces of a structure that has been written to a file, against those of a real structure: the error of the displacement and the rounding of the file. -/
theorem force_near {s f b : Cell ℚ} {row : ℕ} {δ : V3 ℚ} (hs : DecCell s) (hrow : row < s.cart.length) (hmv : IsMoved s row δ f) (hb : Rounded f b) {δ' : V3 ℝ} {g : Cell ℝ}
    (hmvR : IsMoved (toR s) row δ' g) {e κ : ℝ} (he : ∀ c, |(δ c : ℝ) - δ' c| ≤ e) {Ψ : ℕ → Fin 3 → ℕ → Fin 3 → ℝ} (F0 : Rows ℝ) (a : ℕ) (c : Fin 3)
    (hκ : ∑ y, |Ψ a c row y| ≤ κ) :
    |harmonicForces Ψ F0 (toR s) (toR b) a c - harmonicForces Ψ F0 (toR s) g a c| ≤ κ * ((e + 1 / 2 / 10 ^ 16) * (1 / 10 ^ 10)) := by
  obtain ⟨v, hv1, hv2⟩ := hmv.moved
  set δb : V3 ℚ := fun j => rndDec 16 (v j + δ j) - v j with hδb
  have hmvb : IsMoved s row δb { f with cart := b.cart } := by
    refine ⟨hmv.lattice, hmv.atomType, hmv.numAtom, hmv.coordinate, hmv.selective, ?_, v, hv1, ?_⟩
    · intro r hr
      show b.cart[r]? = _
      rw [hb.cart, List.getElem?_map, hmv.others r hr]
      cases hsr : s.cart[r]? with
      | none => rfl
      | some w =>
        have hw := hs.2 w (List.mem_of_getElem? hsr)
        simp only [Option.map_some, Option.some.injEq]
        funext j
        exact (hw j).round
    · show b.cart[row]? = _
      rw [hb.cart, List.getElem?_map, hv2]
      simp only [Option.map_some, Option.some.injEq]
      funext j
      simp [hδb]
  have hrowR : row < (toR s).cart.length := by simpa [toR] using hrow
  have e1 : harmonicForces Ψ F0 (toR s) (toR b) = harmonicForces Ψ F0 (toR s) (toR { f with cart := b.cart }) := harmonic_congr _ _ rfl rfl
  rw [e1, harmonic_moved _ _ _ _ _ _ hrowR (toR_moved hmvb), harmonic_moved _ _ _ _ _ _ hrowR hmvR, sub_sub_sub_cancel_left, ← Finset.sum_sub_distrib]
  have he0 : 0 ≤ e := (abs_nonneg _).trans (he 0)
  have hδ : ∀ j, |(toReal δb) j - δ' j| ≤ e + 1 / 2 / 10 ^ 16 := by
    intro j
    have h1 := C57_rounding_error (v j + δ j)
    have h2 : |(((rndDec 16 (v j + δ j) - (v j + δ j) : ℚ)) : ℝ)| ≤ 1 / 2 / 10 ^ 16 := by
      have := (Rat.cast_le (K := ℝ)).2 h1
      rw [Rat.cast_abs] at this
      refine this.trans (le_of_eq ?_)
      push_cast
      rfl
    have h3 : (toReal δb) j - δ' j = ((δ j : ℝ) - δ' j) + ((rndDec 16 (v j + δ j) - (v j + δ j) : ℚ) : ℝ) := by
      simp only [toReal, hδb]
      push_cast
      ring
    rw [h3]
    exact (abs_add_le _ _).trans (add_le_add (he j) h2)
  refine (Finset.abs_sum_le_sum_abs _ _).trans ?_
  have hterm : ∀ y ∈ (Finset.univ : Finset (Fin 3)), |Ψ a c row y * (δ' y * (1 / 10 ^ 10)) - Ψ a c row y * ((toReal δb) y * (1 / 10 ^ 10))| ≤
      |Ψ a c row y| * ((e + 1 / 2 / 10 ^ 16) * (1 / 10 ^ 10)) := by
    intro y _
    rw [← mul_sub, ← sub_mul, abs_mul, abs_mul, abs_sub_comm (δ' y), abs_of_pos (show (0 : ℝ) < 1 / 10 ^ 10 by positivity)]
    gcongr
    exact hδ y
  refine (Finset.sum_le_sum hterm).trans ?_
  rw [← Finset.sum_mul]
  gcongr

/-- The post-process (default options, so everything comes from the record) builds its object, and with every k-point file the frequencies at every wave vector that fits into
the super cell are, up to `√(E·ε·Σ 1/m) / π` THz, among those of the infinite crystal with springs `Φ` (`E` unit cells in the super cell). -/
def NearPhonons (ε : ℝ) (S : Solver) (j : Junk) (cwd : Str) (rec : PreRecord) (force : List Str) (search : Run (List (ℕ × List (V3 ℚ)))) (fs : Fs) (n p : Fin 3 → ℤ)
    (u : Cell ℚ) (sel : List ℕ) (Φ : Springs) : Prop :=
  ∃ P mass, postSetup S j (postResolve cwd {} rec) force search fs = .ok P ∧ IsMasses u sel mass ∧
    ∀ (kfile t : Str) (ks : List (V3 ℚ)) (auto : List ℤ), fs kfile = some t →
    KPoints.setKPoints (readlines t) (fun c => decide (p c ≠ 0)) = .ok (ks, auto) → ks ≠ [] →
    ∃ o3, phonons S fs kfile P.obj = .ok o3 ∧ o3.kPoints = ks ∧ o3.wq.length = ks.length ∧
      ∀ (i : ℕ) (k : V3 ℚ), ks[i]? = some k → Fits n p (toReal k) →
        ∃ row q row0, o3.wq[i]? = some row ∧ row.length = 3 * sel.length ∧ (∀ c, dot3 q ((toR u).lattice c) = 2 * Real.pi * (k c : ℝ)) ∧
          IsSpectrum (trueDyn (toR u) sel mass Φ q (3 * sel.length)) row0 ∧
          ∀ ν ∈ row, ∃ ν0 ∈ row0, |ν - ν0| ≤ Real.sqrt ((n 0 * n 1 * n 2).toNat * ε * ∑ r : Fin (3 * sel.length), 1 / mass r) / (Real.pi * 10 ^ 12)

/-- Masses of elements are positive. -/
theorem masses_pos {u : Cell ℚ} {sel : List ℕ} {mass : ℕ → ℝ} (h : IsMasses u sel mass) (hb : ∀ t ∈ sel, t < u.atomType.length) (r : Fin (3 * sel.length)) : 0 < mass r := by
  have hr : (r : ℕ) / 3 < sel.length := by have := r.2; omega
  have h1 : sel[(r : ℕ) / 3]? = some sel[(r : ℕ) / 3] := List.getElem?_eq_getElem hr
  have h2 := hb _ (List.getElem_mem hr)
  obtain ⟨w, -, hw, hm⟩ := h ((r : ℕ) / 3) _ ⟨(r : ℕ) % 3, by omega⟩ _ h1 (List.getElem?_eq_getElem h2)
  have e : 3 * ((r : ℕ) / 3) + ((⟨(r : ℕ) % 3, by omega⟩ : Fin 3) : ℕ) = r := by simp only; omega
  rw [e] at hm
  rw [hm]
  have : (0 : ℚ) < w / (6022 * 10 ^ 20) / 1000 := by positivity
  exact_mod_cast this

/-- From nearby force constants to nearby frequencies. -/
theorem near_core {cwd : Str} {rec : PreRecord} {force : List Str} {search : Run (List (ℕ × List (V3 ℚ)))} {fs2 : Fs} {S : Solver} (hS : IsSolver S) {j : Junk} {a : PreArg}
    {n p : Fin 3 → ℤ} {d : ℝ} {u s s3 : Cell ℚ} {sel : List ℕ} {sym : Bool} {mass : ℕ → ℝ} (hmass : IsMasses u sel mass) (htl : ∀ t ∈ sel, t < u.atomType.length)
    (hsel : u.atomTrue = some sel) (hxyz : u.xyzTrue = some (sel.flatMap fun a => [a, a, a])) (hdet : (toR u).lattice.det ≠ 0)
    {junkR : ℕ → List (V3 ℝ)} {s0 : Cell ℝ} (hcall : GoodCall junkR (toR u) n p) (hs0 : setSuperCell junkR (toR u) n p = .ok s0)
    (hs1 : setSuperIndTrue s0 (toR u) n p = .ok (toR s)) (h3c : s3.cart = s.cart) (h3l : s3.lattice = s.lattice) (h3x : s3.xyzTrue = s.xyzTrue)
    {F : List (Rows ℝ)} {fc fc0 : FC ℝ} {ε : ℝ} (hε : 0 ≤ ε) (hfc : forceConstant j.cols sym F (PostProcess.new (toR u) (toR s3) n p d mass (reciprocal (toR u).lattice) j.fc) = .ok fc)
    (hnear : FcWithin ε fc fc0) {Φ : Springs} (hsymm : SymmetricSprings Φ)
    (hset : ∀ o2, call S (PostProcess.new (toR u) (toR s3) n p d mass (reciprocal (toR u).lattice) j.fc) (.force j.left j.cols sym F) = .ok o2 →
      postSetup S j (postResolve cwd {} rec) force search fs2 = .ok ⟨a, u, s3, o2⟩)
    (hmat : ∀ k : V3 ℝ, Fits n p k → (Matrix.of fun (r c : Fin (3 * sel.length)) => dynMatrix (ofCells (toR u) (toR s) n p fc0 mass) k r c) =
      trueDyn (toR u) sel mass Φ (qVec (ofCells (toR u) (toR s) n p fc0 mass) k) (3 * sel.length)) :
    NearPhonons ε S j cwd rec force search fs2 n p u sel Φ := by
  have hofC : ofCells (toR u) (toR s3) n p fc mass = ofCells (toR u) (toR s) n p fc mass := by
    have e1 : (toR s3).cart = (toR s).cart := by simp [toR, h3c]
    have e2 : (toR s3).lattice = (toR s).lattice := by
      show (fun i j => ((s3.lattice i j : ℚ) : ℝ)) = fun i j => ((s.lattice i j : ℚ) : ℝ)
      rw [h3l]
    have e3 : (toR s3).xyzTrue = (toR s).xyzTrue := h3x
    simp only [ofCells, e1, e2, e3]
  obtain ⟨o2, hc2⟩ : ∃ o2, call S (PostProcess.new (toR u) (toR s3) n p d mass (reciprocal (toR u).lattice) j.fc) (.force j.left j.cols sym F) = .ok o2 := by
    refine ⟨(step S (PostProcess.new (toR u) (toR s3) n p d mass (reciprocal (toR u).lattice) j.fc) (.force j.left j.cols sym F)).1, ?_⟩
    have e1 : (step S (PostProcess.new (toR u) (toR s3) n p d mass (reciprocal (toR u).lattice) j.fc) (.force j.left j.cols sym F)).2 = none := by
      show (setForce j.left j.cols sym F _).2 = none
      unfold setForce
      rw [hfc]
    unfold call
    rw [e1]
  refine ⟨_, mass, hset o2 hc2, hmass, ?_⟩
  intro kfile t ks auto hkf hk hne
  obtain ⟨o2', o3, o4, hc2', hph, ho4, hk3, hkp, hauto, hp4, hdof3, hdof4, hwl, hdata, hrows⟩ := phonons_ok (u := toR u) (s := toR s3) (n := n) (p := p)
    hsel hxyz hS (left := j.left) hfc fs2 hkf hk hne
  rw [hc2] at hc2'; cases hc2'
  refine ⟨o4, hph, hkp, hwl, ?_⟩
  intro i k hi hfit
  obtain ⟨row, hr1, hr2⟩ := hrows i k hi
  rw [hofC] at hr2
  have hA := hmat (toReal k) hfit
  set D := ofCells (toR u) (toR s) n p fc0 mass with hD
  obtain ⟨hgs, -⟩ := phonon_data_reachable hcall hdet sel hsel hxyz hs0 hs1 fc0 mass
  set A := trueDyn (toR u) sel mass Φ (qVec D (toReal k)) (3 * sel.length) with hAdef
  refine ⟨row, qVec D (toReal k), (A.charpoly.roots.map freqOf).sort (· ≤ ·), hr1, ?_, ?_, ⟨Multiset.pairwise_sort _ _, Multiset.sort_eq _ _⟩, ?_⟩
  · obtain ⟨w, -, -, rfl⟩ := enumerate hr2
    simp
  · intro c
    exact q_exists (toR u).lattice hdet _ rfl (toReal k) c
  · have hE : (D.E : ℝ) = ((n 0 * n 1 * n 2).toNat : ℝ) := by
      simp only [hD, ofCells]
      rw [enlarge_eq n p hcall.cons]
    refine near_spectrum (trueDyn_hermitian (toR u) sel mass hsymm _ _) (by positivity) (masses_pos hmass htl) ?_ hr2 ⟨Multiset.pairwise_sort _ _, Multiset.sort_eq _ _⟩
    intro r c
    have := dyn_near D sel hgs fc (ε := ε) hnear (toReal k) r.2 c.2
    rw [hE] at this
    change ‖_ - A r c‖ ≤ _
    rw [← hA]
    exact this

/-- The frequencies of the band. -/
theorem near_band {ε : ℝ} {S : Solver} {j : Junk} {cwd : Str} {rec : PreRecord} {force : List Str} {search : Run (List (ℕ × List (V3 ℚ)))} {fs2 : Fs} {n p : Fin 3 → ℤ}
    {u : Cell ℚ} {sel : List ℕ} {Φ : Springs} (hmain : NearPhonons ε S j cwd rec force search fs2 n p u sel Φ) {glob : Str → List Str} {args : List Str}
    (hforce : forceFiles glob args = .ok force) (kband t : Str) (ks : List (V3 ℚ)) (auto : List ℤ) (hkf : fs2 (absPath cwd kband) = some t)
    (hk : KPoints.setKPoints (readlines t) (fun c => decide (p c ≠ 0)) = .ok (ks, auto)) (hk2 : 2 ≤ ks.length) :
    ∃ obj rows mass, bandMain S j cwd {} rec glob args kband search fs2 = .ok (obj, rows) ∧ IsMasses u sel mass ∧ rows.length = ks.length ∧
      ∀ (i : ℕ) (k : V3 ℚ), ks[i]? = some k → Fits n p (toReal k) →
        ∃ len row q row0, rows[i]? = some (len, row) ∧ row.length = 3 * sel.length ∧ (∀ c, dot3 q ((toR u).lattice c) = 2 * Real.pi * (k c : ℝ)) ∧
          IsSpectrum (trueDyn (toR u) sel mass Φ q (3 * sel.length)) row0 ∧
          ∀ ν ∈ row, ∃ ν0 ∈ row0, |ν - ν0| ≤ Real.sqrt ((n 0 * n 1 * n 2).toNat * ε * ∑ r : Fin (3 * sel.length), 1 / mass r) / (Real.pi * 10 ^ 12) := by
  obtain ⟨P, mass, hpost, hmass, hrest⟩ := hmain
  obtain ⟨o4, hph, hkp, hwl, hrows⟩ := hrest (absPath cwd kband) t ks auto hkf hk (by rintro rfl; simp at hk2)
  obtain ⟨b, hb1, hb2, -⟩ := C81_path_partial (o4.kPoints.map toReal) (by rw [List.length_map, hkp]; exact hk2) o4.wq.length (dof o4) (dof o4)
    (fun k f m => ((o4.vq.getD k []).getD f []).getD m 0) j.band
  rw [List.length_map, hkp] at hb2
  have ok_bind : ∀ {α β : Type} (a : α) (f : α → Run β), (Except.ok a >>= f) = f a := fun _ _ => rfl
  refine ⟨o4, b.len.zip o4.wq, mass, ?_, hmass, ?_, ?_⟩
  · unfold bandMain bandOf
    rw [hforce]
    simp only [ok_bind]
    rw [hpost]
    simp only [ok_bind]
    rw [hph]
    simp only [ok_bind]
    rw [hb1]
    rfl
  · rw [List.length_zip, hb2, hwl, min_self]
  · intro i k hi hfit
    obtain ⟨row, q, row0, hr1, hr2⟩ := hrows i k hi hfit
    have hil : i < b.len.length := by rw [hb2]; exact (List.getElem?_eq_some_iff.1 hi).1
    refine ⟨b.len[i], row, q, row0, ?_, hr2⟩
    rw [List.getElem?_zip_eq_some]
    exact ⟨List.getElem?_eq_getElem hil, hr1⟩

/-- The super cell of the program, over the reals. -/
theorem toR_isSuper {junk : ℕ → List (V3 ℚ)} {u s1 : Cell ℚ} {n p : Fin 3 → ℤ} {sel : List ℕ} (hcall : GoodCall junk u n p) (hu : GoodUnit u sel)
    (hdet : u.lattice.det ≠ 0) (hs1 : preSuper junk u n p = .ok s1) : IsSuperOf (toR u) (toR s1) sel n p := by
  obtain ⟨s0, s1', hs0, hs1', hw, hc1, hlat, hty, hnum, hsel1, hmem, hat, hxyz1⟩ := pre_super_ok hcall hu
  rw [hs1] at hs1'; cases hs1'
  obtain ⟨hcallR, hsR⟩ := toR_super hcall hs0
  have hs1eq : s1 = { s0 with selective := true, atomTrue := s1.atomTrue, xyzTrue := s1.xyzTrue } := by
    have h1 := hs1
    rw [preSuper, hs0] at h1
    have hset : setSuperIndTrue s0 u n p = .ok ({ s0 with selective := true, atomTrue := s1.atomTrue, xyzTrue := s1.xyzTrue } : Cell ℚ) := by
      unfold setSuperIndTrue
      simp only [enlarge_eq _ _ hcall.cons, hu.selected]
      rw [hxyz1, hat]
      rfl
    have h2 : setSuperIndTrue s0 u n p = .ok s1 := h1
    rw [hset] at h2
    exact (Except.ok.inj h2).symm
  have hsR' : setSuperIndTrue ({ toR s0 with atomTrue := none, xyzTrue := none } : Cell ℝ) (toR u) n p = .ok (toR s1) := by
    have hself : (toR u).atomTrue = some sel := hu.selected
    have hR : toR s1 = { toR s0 with selective := true, atomTrue := s1.atomTrue, xyzTrue := s1.xyzTrue } := by
      conv_lhs => rw [hs1eq]
      rfl
    rw [hR, hxyz1, hat]
    unfold setSuperIndTrue
    simp only [enlarge_eq _ _ hcall.cons, hself]
    rfl
  refine ⟨⟨_, _, hcallR, hsR, hsR'⟩, hu.selected, ?_, ?_⟩
  · intro t ht; simpa [toR] using hu.bound t ht
  · have e1 : (toR u).lattice.det = ((u.lattice.det : ℚ) : ℝ) := by
      rw [Matrix.det_fin_three, Matrix.det_fin_three]
      simp only [toR]
      push_cast
      ring
    rw [e1]
    exact_mod_cast hdet

/-- The whole post-process without symmetry: forces with an error `η`, any displacement. -/
theorem post_near_plain {cwd : Str} {o : PreOpts} {code : Code} {a : PreArg} {e p : List ℤ} {d : ℚ} {u : Cell ℚ} {sel : List ℕ} {x : ℕ → FileArgs}
    {junk : ℕ → List (V3 ℚ)} {fs : Fs} (h : PreRun cwd o code a e p d u sel x junk fs) (hd : d ≠ 0) (hdet : u.lattice.det ≠ 0)
    (hxyz : u.xyzTrue = some (sel.flatMap fun a => [a, a, a])) (hdec : DecCell u)
    (Φ : Springs) (hΦ : ∀ a x b y l, l ∈ (Φ a x b y).support → ∀ i : Fin 3, p.getD i 0 = 0 → l i = 0) (hsymm : SymmetricSprings Φ) {κ : ℝ}
    (hκ : ∀ r x c, ∑ y, |superSprings (fun i => e.getD i 0) (e.getD 0 0 * e.getD 1 0 * e.getD 2 0).toNat Φ r x c y| ≤ κ) (F0 : Rows ℝ)
    (search : Run (List (ℕ × List (V3 ℚ)))) (group : Run Str) {S : Solver} (hS : IsSolver S) (j : Junk) :
    ∃ fs1 rec, preMain cwd o x junk search group fs = .ok (fs1, rec) ∧
      ∀ (η : ℝ), 0 ≤ η → ∀ (fs2 : Fs) (force : List Str),
        CalculatedWithin η code cwd o.unitcell fs1 fs2 (superSprings (fun i => e.getD i 0) (e.getD 0 0 * e.getD 1 0 * e.getD 2 0).toNat Φ) F0 (6 * sel.length) force →
        NearPhonons ((η + κ * (1 / 2 / 10 ^ 16 * (1 / 10 ^ 10))) / (|(d : ℝ)| * (1 / 10 ^ 10))) S j cwd rec force search fs2 (fun i => e.getD i 0) (fun i => p.getD i 0) u sel Φ := by
  obtain ⟨groups, hg⟩ := h.unit.groups
  obtain ⟨hcall, harg⟩ := C06_supercell_from_arguments h.junk u hg.len.symm a (accepted_check h.args) e p h.enlargement h.periodicity h.positive
  set n : Fin 3 → ℤ := fun i => e.getD i 0 with hn
  set pp : Fin 3 → ℤ := fun i => p.getD i 0 with hpp
  have hn3 : e.getD 0 0 * e.getD 1 0 * e.getD 2 0 = n 0 * n 1 * n 2 := rfl
  set E := (n 0 * n 1 * n 2).toNat with hEdef
  have hEpos : 0 < E := by
    have h0 := hcall.pos 0
    have h1 := hcall.pos 1
    have h2 := hcall.pos 2
    have : 0 < n 0 * n 1 * n 2 := by positivity
    omega
  obtain ⟨fs1, rec, s1, s2, files, hpre, hs1, hwd0, hmain⟩ := post_near h.toBaseRun hxyz hdec search group (pg := none) (by unfold prePointGroup; rw [h.noSym]; rfl)
    (noSym_plan h fun t ht => Nat.mul_lt_mul_of_pos_left (h.unit.bound t ht) hEpos)
  rw [hn3] at hwd0 hκ
  have hwd : writeDisplaceCell s1 sel E d pp false search = .ok (s2, files) := by
    rw [← hwd0]
    unfold writeDisplaceCell
    rw [h.noSym]; rfl
  refine ⟨fs1, rec, hpre, ?_⟩
  intro η hη fs2 force hcalc
  rw [hn3] at hcalc
  obtain ⟨s0, s1', hs0, hs1', hw, hc1, hlat, hty, hnum, hsel1, hmem, hat, hxyz1⟩ := pre_super_ok hcall h.unit
  rw [hs1] at hs1'; cases hs1'
  obtain ⟨s00, hs00, hlen, -⟩ := C06_supercell_positions hcall
  rw [hs0] at hs00; cases hs00
  have hlen1 : s1.cart.length = E * u.cart.length := by rw [hc1, hlen]
  have hin : ∀ t ∈ sel, E * t < s1.cart.length := by
    intro t ht
    rw [hlen1]
    exact Nat.mul_lt_mul_of_pos_left (h.unit.bound t ht) hEpos
  have hfl : files.length = 6 * sel.length := by
    obtain ⟨s2', files', e1, e2, -⟩ := C15_displaced_files s1 sel E d pp false search (.inl rfl) hin
    rw [hwd] at e1; cases e1
    exact e2
  have hmoves : Moves s1 files := by
    intro k f hf
    obtain ⟨hkl, -⟩ := List.getElem?_eq_some_iff.1 hf
    obtain ⟨f', hf', hmv⟩ := file_move s1 sel E d pp search hin hwd k (by omega)
    rw [hf] at hf'; cases hf'
    refine ⟨_, _, ?_, hmv⟩
    apply hin
    rw [List.getD_eq_getElem _ _ (by omega)]
    exact List.getElem_mem _
  rw [← hfl] at hcalc
  obtain ⟨s3, mass, F, hc3, hlat3, h3t, h3a, h3x, hmass, hFl, hFv, hset⟩ := hmain hmoves _ F0 η fs2 force hcalc
  have hsup := toR_isSuper hcall h.unit hdet hs1
  obtain ⟨junkR, s0R, hcallR, hsR, hsR'⟩ := hsup.made
  set Φ' : Springs := fun a x b y => if a < u.cart.length then Φ a x b y else 0 with hΦ'
  set F0' : Rows ℝ := fun a c => if a < s1.cart.length then F0 a c else 0 with hF0'
  obtain ⟨sw, filesR, fc, hwR, hfc, hmat⟩ := C97_exact_dynamical_matrix hcallR hsup.regular sel h.unit.selected hsup.valid hxyz hsR hsR' Φ'
    (by
      intro a x b y l hl i hi
      simp only [hΦ'] at hl
      split_ifs at hl
      · exact hΦ a x b y l hl i hi
      · simp at hl) (d : ℝ) (by exact_mod_cast hd) F0' j.fc (.ok []) mass
  have hinR : ∀ t ∈ sel, E * t < (toR s1).cart.length := by
    intro t ht
    simpa [toR] using hin t ht
  have hflR : filesR.length = 6 * sel.length := by
    obtain ⟨s'', files', h1, h2, -⟩ := C15_displaced_files (toR s1) sel E (d : ℝ) pp false (.ok []) (.inl rfl) hinR
    rw [hwR] at h1; cases h1
    exact h2
  have hdecs : DecCell s1 := by
    have := hdec.super hcall hs0
    exact ⟨by rw [hlat]; exact this.1, by rw [hc1]; exact this.2⟩
  set forces := filesR.map fun f => harmonicForces (superSprings n E Φ') F0' (toR s1) f.2 with hforcesdef
  have hτ : 0 ≤ κ := (Finset.sum_nonneg fun _ _ => abs_nonneg _).trans (hκ 0 0 0)
  have hF : FilesWithin (η + κ * (1 / 2 / 10 ^ 16 * (1 / 10 ^ 10))) F forces := by
    refine ⟨by rw [hFl, hforcesdef, List.length_map, hflR, hfl], ?_⟩
    intro k g gR' hgF hgR0 a c
    rw [hforcesdef, List.getElem?_map] at hgR0
    obtain ⟨gR, hgR, rfl⟩ := Option.map_eq_some_iff.1 hgR0
    clear hgR0
    have hk6 : k < 6 * sel.length := by rw [← hflR]; exact (List.getElem?_eq_some_iff.1 hgR).1
    obtain ⟨gR', e1, hmvR⟩ := file_move (toR s1) sel E (d : ℝ) pp (.ok []) hinR hwR k hk6
    rw [hgR] at e1; cases e1
    obtain ⟨f, hf, hmv⟩ := file_move s1 sel E d pp search hin hwd k hk6
    obtain ⟨b, hb, hval⟩ := hFv k f g hf hgF
    have hrow : E * sel.getD (k / 6) 0 < s1.cart.length := by
      apply hin
      rw [List.getD_eq_getElem _ _ (by omega)]
      exact List.getElem_mem _
    have hrowR : E * sel.getD (k / 6) 0 < (toR s1).cart.length := by simpa [toR] using hrow
    have hcast : toReal (axis (if k % 2 = 0 then d else -d) ⟨k % 6 / 2, by omega⟩) = axis (if k % 2 = 0 then (d : ℝ) else -d) ⟨k % 6 / 2, by omega⟩ := by
      rw [toReal_axis]
      split_ifs <;> push_cast <;> rfl
    by_cases ha : a < s1.cart.length
    · have h1 := (hval a c).1 ha
      have h2 := force_near hdecs hrow hmv hb hmvR (e := 0) (by
        intro c
        have := congrFun hcast c
        simp only [toReal] at this
        rw [this, sub_self, abs_zero]) F0 a c (hκ a c _)
      have h3 : harmonicForces (superSprings n E Φ') F0' (toR s1) gR.2 a c = harmonicForces (superSprings n E Φ) F0 (toR s1) gR.2 a c := by
        rw [harmonic_moved _ _ _ _ _ _ hrowR hmvR, harmonic_moved _ _ _ _ _ _ hrowR hmvR]
        have hF : F0' a c = F0 a c := if_pos ha
        have hS : ∀ r' y, superSprings n E Φ' a c r' y = superSprings n E Φ a c r' y := by
          intro r' y
          rw [hΦ', super_cut n hEpos, if_pos (by rw [Nat.mul_comm, ← hlen1]; exact ha)]
        simp only [hF, hS]
      rw [h3, zero_add] at *
      rw [show g a c - harmonicForces (superSprings n E Φ) F0 (toR s1) gR.2 a c = (g a c - harmonicForces (superSprings n E Φ) F0 (toR s1) (toR b) a c) +
        (harmonicForces (superSprings n E Φ) F0 (toR s1) (toR b) a c - harmonicForces (superSprings n E Φ) F0 (toR s1) gR.2 a c) by ring]
      exact (abs_add_le _ _).trans (add_le_add h1 h2)
    · rw [(hval a c).2 (by omega), harmonic_moved _ _ _ _ _ _ hrowR hmvR]
      have hF : F0' a c = 0 := if_neg ha
      have hS : ∀ r' y, superSprings n E Φ' a c r' y = 0 := by
        intro r' y
        rw [hΦ', super_cut n hEpos, if_neg (by rw [Nat.mul_comm, ← hlen1]; exact ha)]
      simp only [hF, hS]
      simp
      positivity
  have hτ0 : 0 ≤ η + κ * (1 / 2 / 10 ^ 16 * (1 / 10 ^ 10)) := by positivity
  obtain ⟨fc1, hfc1, hnear⟩ := setPlain_near hτ0 sel.length j.fc (files_symm hF) hfc
  have hfcst : forceConstant j.cols false F (PostProcess.new (toR u) (toR s3) n pp (d : ℝ) mass (reciprocal (toR u).lattice) j.fc) = .ok fc1 := by
    unfold forceConstant
    rw [if_neg (by simp)]
    have hself : (toR u).atomTrue = some sel := h.unit.selected
    show setPlain _ ((toR u).atomTrue.getD []).length _ _ = _
    rw [hself]
    exact hfc1
  refine near_core (a := a) hS hmass (fun t ht => by rw [← hg.len]; exact h.unit.bound t ht) h.unit.selected hxyz hsup.regular hcallR hsR hsR' hc3 hlat3 h3x ?_ hfcst (fc0 := fc) ?_ hsymm ?_ ?_
  · positivity
  · intro r c
    rw [abs_sub_comm]
    exact hnear r c
  · intro o2 hc2
    exact hset S j o2 (by rw [h.noSym]; exact hc2)
  · intro k hfit
    rw [hmat k hfit _ le_rfl]
    ext r c
    have hr3 : (r : ℕ) / 3 < sel.length := by have := r.2; omega
    have hlt : sel.getD ((r : ℕ) / 3) 0 < u.cart.length := by
      rw [List.getD_eq_getElem _ _ hr3]
      exact h.unit.bound _ (List.getElem_mem _)
    simp only [trueDyn, Matrix.of_apply, hΦ', if_pos hlt]

/-- **C129.**  From the command line to the band, with errors.  Without symmetry, for every amplitude: if the forces in the output files are those of an infinite harmonic
crystal (symmetric springs, at most `κ` newton per metre of force on one atom for one metre of another) at the structures in the files, up to `η` newton in every
component, the band run returns one row of `3·(number of selected atoms)` frequencies per wave vector of the k-point file, and at every wave vector that fits into the super
cell each of them is, up to `√(E·ε·Σ 1/m) / π` THz, an exact frequency of the crystal; `ε = (η + κ·½·10⁻¹⁶·10⁻¹⁰) / (|d|·10⁻¹⁰)` is the error of the force constants (the
second term is due to the sixteen decimals of the displaced super cells), `E` the number of unit cells in the super cell. -/
theorem C129_end_to_end {cwd : Str} {o : PreOpts} {code : Code} {a : PreArg} {e p : List ℤ} {d : ℚ} {u : Cell ℚ} {sel : List ℕ} {x : ℕ → FileArgs}
    {junk : ℕ → List (V3 ℚ)} {fs : Fs} (h : PreRun cwd o code a e p d u sel x junk fs) (hd : d ≠ 0) (hdet : u.lattice.det ≠ 0)
    (hxyz : u.xyzTrue = some (sel.flatMap fun a => [a, a, a])) (hdec : DecCell u)
    (Φ : Springs) (hΦ : ∀ a x b y l, l ∈ (Φ a x b y).support → ∀ i : Fin 3, p.getD i 0 = 0 → l i = 0) (hsymm : SymmetricSprings Φ) {κ : ℝ}
    (hκ : ∀ r x c, ∑ y, |superSprings (fun i => e.getD i 0) (e.getD 0 0 * e.getD 1 0 * e.getD 2 0).toNat Φ r x c y| ≤ κ) (F0 : Rows ℝ)
    (search : Run (List (ℕ × List (V3 ℚ)))) (group : Run Str) {S : Solver} (hS : IsSolver S) (j : Junk) :
    ∃ fs1 rec, preMain cwd o x junk search group fs = .ok (fs1, rec) ∧
      ∀ (η : ℝ), 0 ≤ η → ∀ (fs2 : Fs) (glob : Str → List Str) (args force : List Str), forceFiles glob args = .ok force →
        CalculatedWithin η code cwd o.unitcell fs1 fs2 (superSprings (fun i => e.getD i 0) (e.getD 0 0 * e.getD 1 0 * e.getD 2 0).toNat Φ) F0 (6 * sel.length) force →
        ∀ (kband t : Str) (ks : List (V3 ℚ)) (auto : List ℤ), fs2 (absPath cwd kband) = some t →
          KPoints.setKPoints (readlines t) (fun c => decide (p.getD c 0 ≠ 0)) = .ok (ks, auto) → 2 ≤ ks.length →
          ∃ obj rows mass, bandMain S j cwd {} rec glob args kband search fs2 = .ok (obj, rows) ∧ IsMasses u sel mass ∧ rows.length = ks.length ∧
            ∀ (i : ℕ) (k : V3 ℚ), ks[i]? = some k → Fits (fun i => e.getD i 0) (fun i => p.getD i 0) (toReal k) →
              ∃ len row q row0, rows[i]? = some (len, row) ∧ row.length = 3 * sel.length ∧ (∀ c, dot3 q ((toR u).lattice c) = 2 * Real.pi * (k c : ℝ)) ∧
                IsSpectrum (trueDyn (toR u) sel mass Φ q (3 * sel.length)) row0 ∧
                ∀ ν ∈ row, ∃ ν0 ∈ row0, |ν - ν0| ≤ Real.sqrt ((e.getD 0 0 * e.getD 1 0 * e.getD 2 0).toNat *
                  ((η + κ * (1 / 2 / 10 ^ 16 * (1 / 10 ^ 10))) / (|(d : ℝ)| * (1 / 10 ^ 10))) * ∑ r : Fin (3 * sel.length), 1 / mass r) / (Real.pi * 10 ^ 12) := by
  obtain ⟨fs1, rec, hpre, hmain⟩ := post_near_plain h hd hdet hxyz hdec Φ hΦ hsymm hκ F0 search group hS j
  refine ⟨fs1, rec, hpre, ?_⟩
  intro η hη fs2 glob args force hforce hcalc kband t ks auto hkf hk hk2
  exact near_band (hmain η hη fs2 force hcalc) hforce kband t ks auto hkf hk hk2

/-- A larger error is a weaker condition. -/
theorem CalculatedWithin.mono {η η' : ℝ} (hη : η ≤ η') {code : Code} {cwd unit : Str} {fs1 fs2 : Fs} {Ψ : ℕ → Fin 3 → ℕ → Fin 3 → ℝ} {F0 : Rows ℝ} {count : ℕ} {force : List Str}
    (h : CalculatedWithin η code cwd unit fs1 fs2 Ψ F0 count force) : CalculatedWithin η' code cwd unit fs1 fs2 Ψ F0 count force :=
  ⟨h.length, h.unitcell, h.supercell, h.copied, fun k f hf => by
    obtain ⟨t, g, h1, h2, h3⟩ := h.forces k f hf
    refine ⟨t, g, h1, h2, fun sup dis hs hd => ?_⟩
    obtain ⟨h4, h5⟩ := h3 sup dis hs hd
    exact ⟨h4, fun a ha c => (h5 a ha c).trans hη⟩⟩

/-- Springs of the super cell are not larger than those of the crystal together. -/
theorem super_bound (n : Fin 3 → ℤ) (E : ℕ) (Φ : Springs) (r c : ℕ) (x y : Fin 3) (t : Finset (Fin 3 → ℤ)) (ht : (Φ (r / E) x (c / E) y).support ⊆ t) :
    |superSprings n E Φ r x c y| ≤ ∑ l ∈ t, |Φ (r / E) x (c / E) y l| := by
  unfold superSprings
  refine (Finset.abs_sum_le_sum_abs _ _).trans ?_
  exact Finset.sum_le_sum_of_subset_of_nonneg ((Finset.filter_subset _ _).trans ht) fun _ _ _ => abs_nonneg _

theorem stiff_bound (n : Fin 3 → ℤ) (E r : ℕ) (x : Fin 3) (c : ℕ) : ∑ y, |superSprings n E stiffSprings r x c y| ≤ 200 := by
  have hsub : ∀ y, (stiffSprings (r / E) x (c / E) y).support ⊆ {0, ![1, 0, 0], ![-1, 0, 0]} := by
    intro y l hl
    simp only [Finset.mem_insert, Finset.mem_singleton]
    by_contra hc
    push Not at hc
    apply Finsupp.mem_support_iff.1 hl
    unfold stiffSprings
    split_ifs
    · simp [Finsupp.single_apply, hc.1.symm, hc.2.1.symm, hc.2.2.symm]
    · rfl
  have hb : ∀ y, |superSprings n E stiffSprings r x c y| ≤ 65 := by
    intro y
    refine (super_bound n E stiffSprings r c x y _ (hsub y)).trans ?_
    have d1 : (0 : Fin 3 → ℤ) ≠ ![1, 0, 0] := by decide
    have d2 : (0 : Fin 3 → ℤ) ≠ ![-1, 0, 0] := by decide
    have d3 : (![1, 0, 0] : Fin 3 → ℤ) ≠ ![-1, 0, 0] := by decide
    rw [Finset.sum_insert (by simp [d1, d2]), Finset.sum_insert (by simp [d3]), Finset.sum_singleton]
    unfold stiffSprings
    split_ifs
    · simp only [Finsupp.add_apply, Finsupp.single_apply, if_neg d1, if_neg d1.symm, if_neg d2, if_neg d2.symm, if_neg d3, if_neg d3.symm, if_true]
      norm_num [abs_of_pos, abs_of_neg]
    · simp
  rw [Fin.sum_univ_three]
  have h0 := hb 0
  have h1 := hb 1
  have h2 := hb 2
  linarith

/-- All hypotheses of `C129_end_to_end` are met by the chain of `C118`, for every error. -/
example (search : Run (List (ℕ × List (V3 ℚ)))) (group : Run Str) {S : Solver} (hS : IsSolver S) (j : Junk) {η : ℝ} (hη : 0 ≤ η) :
    ∃ fs1 rec obj rows mass, preMain "/w".toList chainOpts (fun _ => chainArgs) (fun m => List.replicate m 0) search group chainFs = .ok (fs1, rec) ∧
      bandMain S j "/w".toList {} rec (fun _ => []) chainForce "KPOINTS".toList search (chainFs2 fs1) = .ok (obj, rows) ∧ rows.length = 2 ∧
      ∃ len row q row0, rows[1]? = some (len, row) ∧ (∀ c, dot3 q ((toR chainUnit).lattice c) = 2 * Real.pi * (((![1 / 2, 0, 0] : V3 ℚ) c : ℚ) : ℝ)) ∧
        IsSpectrum (trueDyn (toR chainUnit) [0] mass stiffSprings q 3) row0 ∧ ∀ ν ∈ row, ∃ ν0 ∈ row0, |ν - ν0| ≤
          Real.sqrt ((2 : ℕ) * ((η + 200 * (1 / 2 / 10 ^ 16 * (1 / 10 ^ 10))) / (|((1 / 50 : ℚ) : ℝ)| * (1 / 10 ^ 10))) * ∑ r : Fin 3, 1 / mass r) / (Real.pi * 10 ^ 12) := by
  obtain ⟨fs1, rec, h1, h2⟩ := C129_end_to_end chain_preRun (by norm_num) chain_det rfl chain_dec stiffSprings stiff_range stiff_symmetric (fun r x c => stiff_bound _ _ r x c)
    (fun _ _ => 0) search group hS j
  obtain ⟨obj, rows, mass, h3, -, h4, h5⟩ := h2 η hη (chainFs2 fs1) (fun _ => []) chainForce chainForce rfl ((chain_calculated search group h1).within.mono hη) "KPOINTS".toList chainK
    [![0, 0, 0], ![1 / 2, 0, 0]] [] (by
      have e1 : (List.range 6).find? (fun k => decide (absPath "/w".toList "KPOINTS".toList = chainDir k ++ "/POSCAR".toList)) = none := by decide +kernel
      have e2 : (List.range 6).find? (fun k => decide (absPath "/w".toList "KPOINTS".toList = chainDir k ++ "/vasprun.xml".toList)) = none := by decide +kernel
      simp only [chainFs2, e1, e2]
      rfl) (by decide +kernel) (by decide)
  refine ⟨fs1, rec, obj, rows, mass, h1, h3, h4, ?_⟩
  obtain ⟨len, row, q, row0, a1, -, a2, a3, a4⟩ := h5 1 _ rfl (by
    intro i hi
    fin_cases i
    · exact ⟨1, by simp [toReal]⟩
    · simp at hi
    · simp at hi)
  exact ⟨len, row, q, row0, a1, a2, a3, a4⟩

end Interphon.Props
