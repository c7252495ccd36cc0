import Verif.Model.PostProcess
import Verif.Props.Frequencies
import Verif.Props.KPoints
import Mathlib.Analysis.Complex.Polynomial.Basic
import Mathlib.Data.Fin.Tuple.Sort
import Mathlib.LinearAlgebra.Matrix.Charpoly.Coeff
import Mathlib.LinearAlgebra.Matrix.ToLinearEquiv

/-! # Properties C89, C90, C91: the post-process object over histories of calls -/

namespace Interphon.Props
open Py Interphon Interphon.Phonon Interphon.PostProcess Interphon.ForceConstant Complex

noncomputable section

/-- Specification of the solver: some outcome of `np.linalg.eig`, sorted by two `np.argsort` calls. -/
def IsSolver (S : Solver) : Prop := ∀ (m : ℕ) (A : Matrix (Fin m) (Fin m) ℂ), ∃ (w : Fin m → ℂ) (V : Matrix (Fin m) (Fin m) ℂ) (σ τ : Equiv.Perm (Fin m)),
  IsEig A w V ∧ IsArgsort (fun i => freqOf (w i)) σ ∧ IsArgsort (fun i => freqOf (w (σ i))) τ ∧ S m A = store w V σ τ

/-- Every complex matrix has an outcome of `np.linalg.eig`. -/
theorem eig_exists (m : ℕ) (A : Matrix (Fin m) (Fin m) ℂ) : ∃ (w : Fin m → ℂ) (V : Matrix (Fin m) (Fin m) ℂ), IsEig A w V := by
  have hcard : A.charpoly.roots.card = m := by
    have h := (Polynomial.splits_iff_card_roots (f := A.charpoly)).1 (IsAlgClosed.splits _)
    rw [h, Matrix.charpoly_natDegree_eq_dim, Fintype.card_fin]
  set l := A.charpoly.roots.toList with hl
  have hlen : l.length = m := by rw [hl, Multiset.length_toList, hcard]
  have hroot : ∀ i : Fin m, l[i] ∈ A.charpoly.roots := fun i => by
    rw [← Multiset.mem_toList]; exact List.getElem_mem _
  have hv : ∀ i : Fin m, ∃ v : Fin m → ℂ, v ≠ 0 ∧ A.mulVec v = l[i] • v := by
    intro i
    have h0 : (Matrix.scalar (Fin m) l[i] - A).det = 0 := by
      rw [← Matrix.eval_charpoly]
      exact (Polynomial.mem_roots'.1 (hroot i)).2
    obtain ⟨v, hv0, hv⟩ := Matrix.exists_mulVec_eq_zero_iff.2 h0
    refine ⟨v, hv0, ?_⟩
    rw [Matrix.sub_mulVec, sub_eq_zero] at hv
    rw [← hv]
    funext r
    simp [Matrix.mulVec_diagonal]
  choose v hv0 hv using hv
  refine ⟨fun i => l[i], fun r i => v i r, fun i => hv i, fun i => hv0 i, ?_⟩
  have h1 : A.charpoly = (A.charpoly.roots.map fun a => Polynomial.X - Polynomial.C a).prod := by
    exact ((IsAlgClosed.splits A.charpoly).eq_prod_roots_of_monic (Matrix.charpoly_monic A))
  conv_lhs => rw [h1]
  rw [← Multiset.coe_toList A.charpoly.roots, ← hl, Multiset.map_coe, Multiset.prod_coe]
  rw [← List.prod_ofFn]
  congr 1
  refine List.ext_getElem (by simp [hlen]) ?_
  intro i h1 h2
  simp

/-- A solver exists. -/
theorem solver_exists : ∃ S : Solver, IsSolver S := by
  have h : ∀ (m : ℕ) (A : Matrix (Fin m) (Fin m) ℂ), ∃ r : (Fin m → ℝ) × Matrix (Fin m) (Fin m) ℂ,
      ∃ (w : Fin m → ℂ) (V : Matrix (Fin m) (Fin m) ℂ) (σ τ : Equiv.Perm (Fin m)),
      IsEig A w V ∧ IsArgsort (fun i => freqOf (w i)) σ ∧ IsArgsort (fun i => freqOf (w (σ i))) τ ∧ r = store w V σ τ := by
    intro m A
    obtain ⟨w, V, hw⟩ := eig_exists m A
    exact ⟨_, w, V, Tuple.sort _, Tuple.sort _, hw, Tuple.monotone_sort _, Tuple.monotone_sort _, rfl⟩
  choose S hS using h
  exact ⟨S, hS⟩

/-- The dynamical matrix of the object at a wave vector, from its *present* force constants and reciprocal lattice. -/
def dynOf (o : Object) (k : V3 ℚ) : Matrix (Fin (dof o)) (Fin (dof o)) ℂ :=
  Matrix.of fun (r c : Fin (dof o)) => dynMatrix (PostProcess.data o) (toReal k) r c

/-- `row` lists the frequencies of the matrix `A` in ascending order: one per eigenvalue, with multiplicity. -/
def IsSpectrum {m : ℕ} (A : Matrix (Fin m) (Fin m) ℂ) (row : List ℝ) : Prop :=
  row.Pairwise (· ≤ ·) ∧ (row : Multiset ℝ) = A.charpoly.roots.map freqOf

/-- The stored frequencies belong to the stored wave vectors, force constants and reciprocal lattice. -/
def Current (o : Object) : Prop :=
  o.wq.length = o.kPoints.length ∧ ∀ (i : ℕ) (k : V3 ℚ), o.kPoints[i]? = some k → ∃ row : List ℝ, o.wq[i]? = some row ∧ IsSpectrum (dynOf o k) row

/-- **C89, full statement**: after any history of calls, an `eval_phonon` that raises nothing leaves frequencies that belong to the present
wave vectors and force constants. -/
def C89_full : Prop := ∀ S, IsSolver S → ∀ u s n p d mass junkR junkF h,
  (step S (run S (new u s n p d mass junkR junkF) h) .eval).2 = none → Current (step S (run S (new u s n p d mass junkR junkF) h) .eval).1

theorem spectrum_of_solver {S : Solver} (hS : IsSolver S) (m : ℕ) (A : Matrix (Fin m) (Fin m) ℂ) : IsSpectrum A (List.ofFn (S m A).1) := by
  obtain ⟨w, V, σ, τ, hw, hσ, -, e⟩ := hS m A
  rw [e]
  constructor
  · show (List.ofFn fun i => freqOf (w (σ i))).Pairwise (· ≤ ·)
    rw [List.pairwise_ofFn]
    intro i j hij
    exact hσ hij.le
  · rw [hw.charpoly, Polynomial.roots_prod _ _ (Finset.prod_ne_zero_iff.2 fun i _ => Polynomial.X_sub_C_ne_zero _)]
    simp only [Polynomial.roots_X_sub_C, Multiset.bind_singleton, Multiset.map_map]
    show ((List.ofFn fun i => freqOf (w (σ i)) : List ℝ) : Multiset ℝ) = _
    rw [List.ofFn_eq_map, ← Multiset.map_coe]
    have : ((List.finRange m : List (Fin m)) : Multiset (Fin m)) = (Finset.univ : Finset (Fin m)).val := rfl
    rw [this]
    have h2 : (Finset.univ : Finset (Fin m)).val = (Finset.univ : Finset (Fin m)).val.map σ := by
      have h3 : (Finset.univ : Finset (Fin m)).map σ.toEmbedding = Finset.univ := Finset.map_univ_equiv σ
      exact (congrArg Finset.val h3).symm
    conv_rhs => rw [h2]
    rw [Multiset.map_map]
    rfl

theorem frequencies_current {S : Solver} (hS : IsSolver S) (o : Object) (hk : o.kPoints ≠ []) : Current (frequencies S o) := by
  have hk' : o.kPoints.length ≠ 0 := by simpa using hk
  unfold frequencies
  rw [if_pos hk']
  refine ⟨by simp, ?_⟩
  intro i k e
  refine ⟨List.ofFn (atK S o k).1, ?_, spectrum_of_solver hS _ _⟩
  have e' : o.kPoints[i]? = some k := e
  simp [e']

theorem eval_state (S : Solver) (o : Object) : (eval S o).1 = { frequencies S o with gammaFile := (eval S o).1.gammaFile } := by
  simp only [eval]
  split
  · split <;> rfl
  · rfl

theorem current_gamma (o : Object) (g : Option (List ℝ)) (h : Current o) : Current { o with gammaFile := g } := h

theorem frequencies_kPoints (S : Solver) (o : Object) : (frequencies S o).kPoints = o.kPoints := by
  unfold frequencies; split <;> rfl

/-- **C89 (partial).**  After any history, `eval_phonon` with at least one wave vector leaves exactly one row of frequencies per present wave
vector, in their order: the ascending signed square roots of all eigenvalues of the dynamical matrix built from the present force constants and the
present reciprocal lattice.  Missing: with no wave vectors the old frequencies stay. -/
theorem C89_frequencies_current_partial {S : Solver} (hS : IsSolver S) (o : Object) (h : List Call)
    (hk : (run S o h).kPoints ≠ []) : Current (step S (run S o h) .eval).1 := by
  show Current (eval S (run S o h)).1
  rw [eval_state]
  exact current_gamma _ _ (frequencies_current hS _ hk)

/-- On a new object there are no old frequencies: the first `eval_phonon` is always right, whatever was called before it. -/
theorem C89_first_evaluation_partial {S : Solver} (hS : IsSolver S) (u s : Cell ℝ) (n p : Fin 3 → ℤ) (d : ℝ) (mass : ℕ → ℝ) (junkR : M3 ℝ) (junkF : FC ℝ)
    (h : List Call) (hne : ∀ c ∈ h, c ≠ .eval) :
    Current (step S (run S (new u s n p d mass junkR junkF) h) .eval).1 := by
  have key : ∀ (h : List Call) (o : Object), (∀ c ∈ h, c ≠ .eval) → (run S o h).wq = o.wq := by
    intro h
    induction h with
    | nil => intro o _; rfl
    | cons c rest ih =>
      intro o hne
      have h1 : (run S o (c :: rest)).wq = (step S o c).1.wq := ih _ fun c' hc' => hne c' (List.mem_cons_of_mem _ hc')
      rw [h1]
      cases c with
      | reciprocal => rfl
      | force left jc sym files => simp only [step, setForce]; split <;> rfl
      | kPoints file =>
        cases file with
        | none => rfl
        | some lines => simp only [step, setK]; split <;> rfl
      | eval => exact absurd rfl (hne .eval List.mem_cons_self)
  by_cases hk : (run S (new u s n p d mass junkR junkF) h).kPoints = []
  · show Current (eval S _).1
    rw [eval_state]
    refine current_gamma _ _ ?_
    have e : frequencies S (run S (new u s n p d mass junkR junkF) h) = run S (new u s n p d mass junkR junkF) h := by
      unfold frequencies; rw [if_neg (by simp [hk])]
    rw [e]
    have hw := key h (new u s n p d mass junkR junkF) hne
    constructor
    · rw [hw, hk]; rfl
    · intro i k e; rw [hk] at e; simp at e
  · exact C89_frequencies_current_partial hS _ h hk

/-! ### What the attributes hold after any history -/

/-- Calls never change the cells, arguments or masses. -/
theorem C89_inputs_kept (S : Solver) (o : Object) (h : List Call) :
    (run S o h).unit = o.unit ∧ (run S o h).super = o.super ∧ (run S o h).n = o.n ∧ (run S o h).p = o.p ∧ (run S o h).d = o.d ∧
      (run S o h).mass = o.mass := by
  induction h generalizing o with
  | nil => exact ⟨rfl, rfl, rfl, rfl, rfl, rfl⟩
  | cons c rest ih =>
    have h1 : (step S o c).1.unit = o.unit ∧ (step S o c).1.super = o.super ∧ (step S o c).1.n = o.n ∧ (step S o c).1.p = o.p ∧
        (step S o c).1.d = o.d ∧ (step S o c).1.mass = o.mass := by
      cases c with
      | reciprocal => exact ⟨rfl, rfl, rfl, rfl, rfl, rfl⟩
      | force left jc sym files => simp only [step, setForce]; split <;> exact ⟨rfl, rfl, rfl, rfl, rfl, rfl⟩
      | kPoints file =>
        cases file with
        | none => exact ⟨rfl, rfl, rfl, rfl, rfl, rfl⟩
        | some lines => simp only [step, setK]; split <;> exact ⟨rfl, rfl, rfl, rfl, rfl, rfl⟩
      | eval =>
        simp only [step]
        rw [eval_state]
        unfold frequencies
        split <;> exact ⟨rfl, rfl, rfl, rfl, rfl, rfl⟩
    have h2 := ih (step S o c).1
    obtain ⟨a1, a2, a3, a4, a5, a6⟩ := h1
    obtain ⟨b1, b2, b3, b4, b5, b6⟩ := h2
    exact ⟨b1.trans a1, b2.trans a2, b3.trans a3, b4.trans a4, b5.trans a5, b6.trans a6⟩

/-- The wave vectors after a history: those of the last k-point file that could be opened (none if reading it failed). -/
def lastK (p : Fin 3 → ℤ) (start : List (V3 ℚ)) : List Call → List (V3 ℚ)
  | [] => start
  | .kPoints (some lines) :: rest =>
    lastK p (((KPoints.setKPoints lines fun c => decide (p c ≠ 0)).toOption.map Prod.fst).getD []) rest
  | _ :: rest => lastK p start rest

theorem C89_wave_vectors (S : Solver) (o : Object) (h : List Call) : (run S o h).kPoints = lastK o.p o.kPoints h := by
  induction h generalizing o with
  | nil => rfl
  | cons c rest ih =>
    have h1 := ih (step S o c).1
    have hp : (step S o c).1.p = o.p := (C89_inputs_kept S o [c]).2.2.2.1
    rw [hp] at h1
    refine h1.trans ?_
    cases c with
    | reciprocal => rfl
    | force left jc sym files => simp only [step, setForce]; split <;> rfl
    | kPoints file =>
      cases file with
      | none => rfl
      | some lines =>
        simp only [step, setK, lastK]
        split <;> rename_i e <;> rw [e] <;> rfl
    | eval =>
      show lastK o.p (eval S o).1.kPoints rest = _
      rw [eval_state]
      show lastK o.p (frequencies S o).kPoints rest = _
      rw [frequencies_kPoints]
      rfl

open Classical in
/-- The reciprocal lattice is uninitialised memory until `set_reciprocal_lattice` is called, and the dual of the unit cell's lattice from then on. -/
theorem C89_reciprocal (S : Solver) (o : Object) (h : List Call) :
    (run S o h).recip = if Call.reciprocal ∈ h then reciprocal o.unit.lattice else o.recip := by
  induction h generalizing o with
  | nil => simp [run]
  | cons c rest ih =>
    have h1 := ih (step S o c).1
    have hu : (step S o c).1.unit = o.unit := (C89_inputs_kept S o [c]).1
    refine h1.trans ?_
    rw [hu]
    by_cases hr : Call.reciprocal ∈ rest
    · rw [if_pos hr, if_pos (List.mem_cons_of_mem _ hr)]
    · rw [if_neg hr]
      cases c with
      | reciprocal => rw [if_pos List.mem_cons_self]; rfl
      | force left jc sym files =>
        rw [if_neg (by simp [hr])]; simp only [step, setForce]; split <;> rfl
      | kPoints file =>
        rw [if_neg (by simp [hr])]
        cases file with
        | none => rfl
        | some lines => simp only [step, setK]; split <;> rfl
      | eval =>
        rw [if_neg (by simp [hr])]
        show (eval S o).1.recip = _
        rw [eval_state]
        show (frequencies S o).recip = _
        unfold frequencies; split <;> rfl

/-! ### C89: the full statement fails -/

/-- A k-point file with one explicit wave vector, and one with an unknown mode letter. -/
def goodK : List Str := ["one point".toList, "1".toList, "Reciprocal".toList, "0 0 0".toList]
def badK : List Str := ["mesh".toList, "0".toList, "Automatic".toList, "4 4 1".toList]

theorem goodK_points (p : Fin 3 → Bool) : ∃ k a, KPoints.setKPoints goodK p = .ok ([k], a) := by
  exact ⟨_, _, rfl⟩

theorem badK_points (p : Fin 3 → Bool) : KPoints.setKPoints badK p = .ok ([], []) := by
  rfl

theorem setK_ok {o : Object} {lines : List Str} {k : List (V3 ℚ)} {a : List ℤ}
    (h : KPoints.setKPoints lines (fun c => decide (o.p c ≠ 0)) = .ok (k, a)) : setK (some lines) o = ({ o with kPoints := k, auto := a }, none) := by
  unfold setK
  simp only [h]

theorem eval_periodic (S : Solver) {o : Object} (hp : PreProcess.numPbc o.p ≠ 0) : eval S o = (frequencies S o, none) := by
  simp only [eval, if_neg hp]

theorem eval_nil (S : Solver) {o : Object} (hp : PreProcess.numPbc o.p = 0) (hw : (frequencies S o).wq = []) :
    eval S o = ({ frequencies S o with gammaFile := some [] }, some .indexError) := by
  simp only [eval, if_pos hp, hw]

theorem eval_cons (S : Solver) {o : Object} (hp : PreProcess.numPbc o.p = 0) {row : List ℝ} {rest : List (List ℝ)} (hw : (frequencies S o).wq = row :: rest) :
    eval S o = ({ frequencies S o with gammaFile := some row }, none) := by
  simp only [eval, if_pos hp, hw]

theorem setK_err {o : Object} {lines : List Str} {e : PyErr}
    (h : KPoints.setKPoints lines (fun c => decide (o.p c ≠ 0)) = .error e) : setK (some lines) o = ({ o with kPoints := [], auto := [] }, some e) := by
  unfold setK
  simp only [h]

theorem frequencies_none (S : Solver) {o : Object} (hk : o.kPoints = []) : frequencies S o = o := by
  unfold frequencies
  rw [if_neg (by simp [hk])]

/-- A second k-point file that yields no wave vectors without an exception (an unknown mode letter, C39): the next `eval_phonon` raises
nothing and keeps the frequencies of the wave vectors used before, for every object and history. -/
theorem C89_stale_frequencies (S : Solver) (o : Object) (h : List Call) (hp : PreProcess.numPbc o.p ≠ 0) (bad : List Str)
    (hb : KPoints.setKPoints bad (fun c => decide (o.p c ≠ 0)) = .ok ([], [])) :
    let o' := run S o (h ++ [.kPoints (some bad)])
    (step S o' .eval).2 = none ∧ (step S o' .eval).1.kPoints = [] ∧ (step S o' .eval).1.wq = (run S o h).wq := by
  intro o'
  have hpo : (run S o h).p = o.p := (C89_inputs_kept S o h).2.2.2.1
  have e1 : o' = (setK (some bad) (run S o h)).1 := by
    show run S o (h ++ [.kPoints (some bad)]) = _
    unfold run
    rw [List.foldl_append]
    rfl
  have hb' : KPoints.setKPoints bad (fun c => decide ((run S o h).p c ≠ 0)) = .ok ([], []) := by rw [hpo]; exact hb
  have e2 : o' = { run S o h with kPoints := [], auto := [] } := by rw [e1, setK_ok hb']
  have hp' : PreProcess.numPbc o'.p ≠ 0 := by rw [e2]; show PreProcess.numPbc (run S o h).p ≠ 0; rw [hpo]; exact hp
  have hk' : o'.kPoints = [] := by rw [e2]
  have e3 : step S o' .eval = (o', none) := by
    show eval S o' = _
    rw [eval_periodic S hp', frequencies_none S hk']
  rw [e3]
  exact ⟨rfl, hk', by rw [e2]⟩

theorem C89_refuted : ¬ C89_full := by
  obtain ⟨S, hS⟩ := solver_exists
  intro h
  let u : Cell ℝ := ⟨1, [], [], false, .direct, [], none, none⟩
  have hp : PreProcess.numPbc (fun _ => 1) ≠ 0 := by decide
  set o := new u u (fun _ => 1) (fun _ => 1) 1 (fun _ => 1) 0 (fun _ _ => 0) with ho
  obtain ⟨k, a, hk⟩ := goodK_points fun c => decide (o.p c ≠ 0)
  have h1 := C89_stale_frequencies S o [.kPoints (some goodK), .eval] hp badK (badK_points _)
  have h2 := h S hS u u (fun _ => 1) (fun _ => 1) 1 (fun _ => 1) 0 (fun _ _ => 0) _ h1.1
  have h3 := h2.1
  have e1 : run S o [.kPoints (some goodK), .eval] = (eval S (setK (some goodK) o).1).1 := rfl
  rw [setK_ok hk, eval_periodic S hp] at e1
  have e2 := congrArg Object.wq e1
  have e3 : (frequencies S { o with kPoints := [k], auto := a }).wq.length = 1 := by
    unfold frequencies
    rw [if_pos (by simp)]
    simp
  rw [← e2] at e3
  rw [← ho, h1.2.1, h1.2.2, e3] at h3
  simp at h3

/-- The hypothesis of `C89_frequencies_current_partial` is met by the first file, whatever the object. -/
example (S : Solver) (o : Object) : (run S o [.reciprocal, .kPoints (some goodK)]).kPoints ≠ [] := by
  obtain ⟨k, a, hk⟩ := goodK_points fun c => decide (o.p c ≠ 0)
  show (setK (some goodK) (setReciprocal o).1).1.kPoints ≠ []
  rw [setK_ok (o := (setReciprocal o).1) hk]
  simp

/-! ### C90: order and repetition of the calls -/

/-- **C90 (order).**  The three preparation calls may be made in any order: the objects are equal, and so is everything computed later.  (`hf`: the
force files are accepted.) -/
theorem C90_preparation_order (S : Solver) (o : Object) (left : FC ℝ) (jc : ℕ → Rows ℝ) (sym : Bool) (files : List (Rows ℝ)) (file : Option (List Str))
    (l₁ l₂ : List Call) (h₁ : l₁.Perm [.reciprocal, .force left jc sym files, .kPoints file]) (h₂ : l₂.Perm l₁) : run S o l₁ = run S o l₂ := by
  have comm : ∀ a ∈ [Call.reciprocal, .force left jc sym files, .kPoints file], ∀ b ∈ [Call.reciprocal, .force left jc sym files, .kPoints file],
      ∀ o : Object, (step S (step S o a).1 b).1 = (step S (step S o b).1 a).1 := by
    have rf : ∀ o : Object, (step S (step S o .reciprocal).1 (.force left jc sym files)).1 = (step S (step S o (.force left jc sym files)).1 .reciprocal).1 := by
      intro o
      show (setForce left jc sym files (setReciprocal o).1).1 = (setReciprocal (setForce left jc sym files o).1).1
      have e : forceConstant jc sym files (setReciprocal o).1 = forceConstant jc sym files o := rfl
      unfold setForce
      rw [e]
      cases forceConstant jc sym files o <;> rfl
    have rk : ∀ o : Object, (step S (step S o .reciprocal).1 (.kPoints file)).1 = (step S (step S o (.kPoints file)).1 .reciprocal).1 := by
      intro o
      show (setK file (setReciprocal o).1).1 = (setReciprocal (setK file o).1).1
      cases file with
      | none => rfl
      | some lines =>
        cases hk : KPoints.setKPoints lines fun c => decide (o.p c ≠ 0) with
        | error e => rw [setK_err hk, setK_err (o := (setReciprocal o).1) hk]; rfl
        | ok r => rw [setK_ok hk, setK_ok (o := (setReciprocal o).1) hk]; rfl
    have fk : ∀ o : Object, (step S (step S o (.force left jc sym files)).1 (.kPoints file)).1 = (step S (step S o (.kPoints file)).1 (.force left jc sym files)).1 := by
      intro o
      show (setK file (setForce left jc sym files o).1).1 = (setForce left jc sym files (setK file o).1).1
      cases file with
      | none => rfl
      | some lines =>
        cases hk : KPoints.setKPoints lines fun c => decide (o.p c ≠ 0) with
        | error e =>
          have e' : forceConstant jc sym files { o with kPoints := [], auto := [] } = forceConstant jc sym files o := rfl
          rw [setK_err hk]
          unfold setForce
          rw [e']
          cases forceConstant jc sym files o with
          | error e2 => rw [setK_err (o := { o with fc := left }) hk]
          | ok fc => rw [setK_err (o := { o with fc := fc }) hk]
        | ok r =>
          have e' : forceConstant jc sym files { o with kPoints := r.1, auto := r.2 } = forceConstant jc sym files o := rfl
          rw [setK_ok hk]
          unfold setForce
          rw [e']
          cases forceConstant jc sym files o with
          | error e2 => rw [setK_ok (o := { o with fc := left }) hk]
          | ok fc => rw [setK_ok (o := { o with fc := fc }) hk]
    intro a ha b hb o
    simp only [List.mem_cons, List.not_mem_nil, or_false] at ha hb
    rcases ha with rfl | rfl | rfl <;> rcases hb with rfl | rfl | rfl
    · rfl
    · exact rf o
    · exact rk o
    · exact (rf o).symm
    · rfl
    · exact fk o
    · exact (rk o).symm
    · exact (fk o).symm
    · rfl
  have hmem : ∀ c ∈ l₂, c ∈ [Call.reciprocal, .force left jc sym files, .kPoints file] := fun c hc => (h₂.trans h₁).subset hc
  symm
  unfold run
  refine h₂.foldl_eq' ?_ o
  intro a ha b hb z
  exact comm a (hmem a ha) b (hmem b hb) z

/-- **C90 (repetition).**  Repeating a call right away changes nothing, for every call but the force files after a failure. -/
theorem C90_repetition (S : Solver) (o : Object) (file : Option (List Str)) :
    run S o [.reciprocal, .reciprocal] = run S o [.reciprocal] ∧
      run S o [.kPoints file, .kPoints file] = run S o [.kPoints file] ∧
      run S o [.eval, .eval] = run S o [.eval] := by
  refine ⟨rfl, ?_, ?_⟩
  · cases file with
    | none => rfl
    | some lines =>
      show (setK (some lines) (setK (some lines) o).1).1 = (setK (some lines) o).1
      cases hk : KPoints.setKPoints lines fun c => decide (o.p c ≠ 0) with
      | error e => rw [setK_err hk, setK_err (o := { o with kPoints := [], auto := [] }) hk]
      | ok r => rw [setK_ok hk, setK_ok (o := { o with kPoints := r.1, auto := r.2 }) hk]
  · simp only [run, List.foldl, step]
    have hf : ∀ o : Object, frequencies S (frequencies S o) = frequencies S o := by
      intro o
      by_cases hk : o.kPoints.length ≠ 0
      · have e : frequencies S o = { o with
            wq := o.kPoints.map fun k => List.ofFn (atK S o k).1
            vq := o.kPoints.map fun k => List.ofFn fun m => List.ofFn ((atK S o k).2 m) } := by
          rw [frequencies, if_pos hk]
        rw [e, frequencies, if_pos hk]
        rfl
      · have e : frequencies S o = o := by rw [frequencies, if_neg hk]
        rw [e, e]
    have hg : ∀ (o : Object) (g : Option (List ℝ)), frequencies S { o with gammaFile := g } = { frequencies S o with gammaFile := g } := by
      intro o g
      by_cases hk : o.kPoints.length ≠ 0
      · rw [frequencies, if_pos hk, frequencies, if_pos hk]
        rfl
      · rw [frequencies, if_neg hk, frequencies, if_neg hk]
    have hpp : (frequencies S o).p = o.p := by unfold frequencies; split <;> rfl
    have hp1 : ∀ g, frequencies S { frequencies S o with gammaFile := g } = { frequencies S o with gammaFile := g } := by
      intro g; rw [hg, hf]
    by_cases hp : PreProcess.numPbc o.p = 0
    · have hp' : ∀ g, PreProcess.numPbc ({ frequencies S o with gammaFile := g } : Object).p = 0 := by
        intro g; show PreProcess.numPbc (frequencies S o).p = 0; rw [hpp]; exact hp
      cases hw : (frequencies S o).wq with
      | nil =>
        rw [eval_nil S hp hw]
        have hw' : (frequencies S { frequencies S o with gammaFile := some [] }).wq = [] := by rw [hp1]; exact hw
        rw [eval_nil S (hp' _) hw', hp1]
      | cons row rest =>
        rw [eval_cons S hp hw]
        have hw' : (frequencies S { frequencies S o with gammaFile := some row }).wq = row :: rest := by rw [hp1]; exact hw
        rw [eval_cons S (hp' _) hw', hp1]
    · have hp' : PreProcess.numPbc (frequencies S o).p ≠ 0 := by rw [hpp]; exact hp
      rw [eval_periodic S hp, eval_periodic S hp', hf]

/-! ### C91: the frequency file of non-periodic systems -/

/-- **C91.**  `eval_phonon` writes the file exactly for systems without a periodic direction.  If there are frequencies the file lists, one per line, the
frequencies stored for the first wave vector; with none, the call raises `IndexError` and leaves a file without frequencies. -/
theorem C91_gamma_file (S : Solver) (o : Object) :
    (PreProcess.numPbc o.p ≠ 0 → (step S o .eval).2 = none ∧ (step S o .eval).1.gammaFile = o.gammaFile) ∧
      (PreProcess.numPbc o.p = 0 → (step S o .eval).1.wq ≠ [] →
        (step S o .eval).2 = none ∧ (step S o .eval).1.gammaFile = (step S o .eval).1.wq[0]?) ∧
      (PreProcess.numPbc o.p = 0 → (step S o .eval).1.wq = [] →
        (step S o .eval).2 = some .indexError ∧ (step S o .eval).1.gammaFile = some []) := by
  have hg : (frequencies S o).gammaFile = o.gammaFile := by unfold frequencies; split <;> rfl
  refine ⟨fun hp => ?_, fun hp hw => ?_, fun hp hw => ?_⟩
  · simp only [step, eval, if_neg hp]
    exact ⟨trivial, hg⟩
  · have e : (step S o .eval).1.wq = (frequencies S o).wq := by
      show (eval S o).1.wq = _
      rw [eval_state]
    cases hf : (frequencies S o).wq with
    | nil => rw [e, hf] at hw; exact absurd rfl hw
    | cons row rest =>
      simp only [step, eval, if_pos hp, hf]
      simp
  · have e : (step S o .eval).1.wq = (frequencies S o).wq := by
      show (eval S o).1.wq = _
      rw [eval_state]
    have hf : (frequencies S o).wq = [] := e ▸ hw
    simp only [step, eval, if_pos hp, hf]
    simp

/-- **C91 (molecule).**  For a system without periodic directions and a Gamma-centred file, the only wave vector is zero, so the file lists the ascending
frequencies of the force-constant matrix itself divided by the masses. -/
theorem C91_molecule {S : Solver} (hS : IsSolver S) (o : Object) (hp : PreProcess.numPbc o.p = 0) (hk : o.kPoints = [0]) :
    ∃ row, (step S o .eval).1.gammaFile = some row ∧ IsSpectrum (dynOf o 0) row := by
  have hk' : o.kPoints ≠ [] := by simp [hk]
  have hc := frequencies_current hS o hk'
  obtain ⟨row, hr, hsp⟩ := hc.2 0 0 (by rw [frequencies_kPoints, hk]; rfl)
  have hw : (step S o .eval).1.wq = (frequencies S o).wq := by
    show (eval S o).1.wq = _
    rw [eval_state]
  have hne : (step S o .eval).1.wq ≠ [] := by
    rw [hw]; intro h0; rw [h0] at hr; simp at hr
  refine ⟨row, ?_, ?_⟩
  · rw [((C91_gamma_file S o).2.1 hp hne).2, hw, hr]
  · have e : frequencies S o = { o with
        wq := o.kPoints.map fun k => List.ofFn (atK S o k).1
        vq := o.kPoints.map fun k => List.ofFn fun m => List.ofFn ((atK S o k).2 m) } := by
      rw [frequencies, if_pos (by simp [hk])]
    rw [e] at hsp
    exact hsp

/-- **C91 (matrix).**  For a system without periodic directions (selected atoms `sel`, unit cell = super cell up to order), that matrix is the
force-constant matrix divided by `√(m m')`: no phases, no images. -/
theorem C91_molecule_matrix (o : Object) (hp : PreProcess.numPbc o.p = 0) (sel : List ℕ) (hsel : GoodSelection (PostProcess.data o) sel)
    (a b : ℕ) (ha : a < sel.length) (hb : b < sel.length) (x y : Fin 3) (h1 : 3 * a + (x : ℕ) < dof o) (h2 : 3 * b + (y : ℕ) < dof o) :
    dynOf o 0 ⟨3 * a + x, h1⟩ ⟨3 * b + y, h2⟩ =
      (o.fc (3 * sel.getD a 0 + x) (3 * b + y) : ℂ) / (Real.sqrt (o.mass (3 * a + x) * o.mass (3 * b + y)) : ℝ) := by
  have hp0 : o.p 0 = 0 ∧ o.p 1 = 0 ∧ o.p 2 = 0 := by
    unfold PreProcess.numPbc at hp
    rw [List.length_eq_zero_iff, List.filter_eq_nil_iff] at hp
    refine ⟨?_, ?_, ?_⟩
    · simpa using hp (o.p 0) (by simp)
    · simpa using hp (o.p 1) (by simp)
    · simpa using hp (o.p 2) (by simp)
  have hE : (PostProcess.data o).E = 1 := by
    show (Args.enlarge [o.n 0, o.n 1, o.n 2] [o.p 0, o.p 1, o.p 2]).toNat = 1
    rw [hp0.1, hp0.2.1, hp0.2.2]
    simp [Args.enlarge, Args.enlargeLoop]
  have h0 : toReal 0 = 0 := by funext c; simp [toReal]
  have h := C26_commensurate (PostProcess.data o) sel hsel 0 (C26_gamma_commensurate _) a b ha hb x y
  have hq : qVec (PostProcess.data o) 0 = 0 := by funext j; simp [qVec]
  rw [hE, hq] at h
  show dynMatrix (PostProcess.data o) (toReal 0) _ _ = _
  rw [h0, h]
  simp only [Finset.range_one, Finset.sum_singleton, mul_one, add_zero]
  have : dot3 (0 : V3 ℝ) ((PostProcess.data o).superCart (sel.getD a 0) - (PostProcess.data o).unitCart (sel.getD b 0)) = 0 := by simp [dot3]
  rw [this]
  simp only [ofReal_zero, mul_zero, exp_zero, mul_one]
  rfl

/-- The hypotheses of `C91_molecule` are met: a two-atom molecule after reading a one-point file. -/
example : ∃ o : Object, PreProcess.numPbc o.p = 0 ∧ o.kPoints = [0] ∧ GoodSelection (PostProcess.data o) [0, 1] ∧ dof o = 6 := by
  let u : Cell ℝ := ⟨1, [['H'], ['H']], [2], false, .cartesian, [![0, 0, 0], ![1, 0, 0]], some [0, 1], some [0, 0, 0, 1, 1, 1]⟩
  refine ⟨{ new u u (fun _ => 1) (fun _ => 0) (1 / 100) (fun _ => 1) 0 (fun _ _ => 0) with kPoints := [0] }, by decide, rfl, ⟨rfl, ?_, ?_⟩, rfl⟩
  · rfl
  · show 0 < (Args.enlarge [1, 1, 1] [0, 0, 0]).toNat
    decide

end
end Interphon.Props
