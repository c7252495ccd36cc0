import Verif.Props.Files
import Verif.Props.Cli
import Verif.Props.Exact
import Verif.Props.Forces
import Verif.Props.Band

/-!
# Property C118: the program from the command line to the band

The pre-process writes files, a first-principles code adds forces, the post-process reads both.
-/

namespace Interphon.Props
open Py Interphon Interphon.UnitCell Interphon.SuperCell Interphon.PreProcess Interphon.Args Interphon.Inout Interphon.Cli Interphon.Main
open Interphon.PostProcess Interphon.Phonon Interphon.ForceConstant

/-! ### Utilities -/

theorem ofRaw_isCell {r : RawCell} {c : Cell ℚ} (h : IsCell r c) : ofRaw r = .ok c := by
  unfold ofRaw
  rw [h.lattice, h.atomType, h.numAtom, h.coordinate, h.cart, h.atomTrue, h.xyzTrue, h.selective]
  simp only
  have e1 : (fun i j : Fin 3 => (((List.finRange 3).map fun i => [c.lattice i 0, c.lattice i 1, c.lattice i 2]).getD i []).getD j 0) = c.lattice := by
    funext i j
    fin_cases i <;> fin_cases j <;> rfl
  have e2 : (c.cart.map fun v => [v 0, v 1, v 2]).map (fun v : List ℚ => (![v.getD 0 0, v.getD 1 0, v.getD 2 0] : V3 ℚ)) = c.cart := by
    rw [List.map_map]
    conv_rhs => rw [← List.map_id c.cart]
    refine List.map_congr_left fun v _ => ?_
    funext j
    fin_cases j <;> rfl
  have e3 : ∀ l : Option (List ℕ), (l.map fun l => l.map fun a : ℕ => (a : ℤ)).map (fun l => l.map Int.toNat) = l := by
    intro l
    cases l with
    | none => rfl
    | some l =>
      show some ((l.map fun a : ℕ => (a : ℤ)).map Int.toNat) = some l
      rw [List.map_map]
      exact congrArg some ((List.map_congr_left fun a _ => by simp).trans (List.map_id l))
  rw [e2, e3, e3, e1]

theorem Code.name_cases (code : Code) :
    (code = .vasp ∧ code.name = "vasp".toList) ∨ (code = .espresso ∧ code.name = "espresso".toList) ∨ (code = .aims ∧ code.name = "aims".toList) := by
  cases code
  · exact .inl ⟨rfl, rfl⟩
  · exact .inr (.inl ⟨rfl, rfl⟩)
  · exact .inr (.inr ⟨rfl, rfl⟩)

theorem readFile_text {fs : Fs} {path text : Str} (code : Str) (h : fs path = some text) :
    readFile fs code path = readUnitCell {} code (fun _ => Vasp.readInput (readlines text)) (fun _ => Espresso.readInput (readlines text))
      (fun _ => Aims.readInput (readlines text)) := by
  have : load fs path = .ok text := by unfold load; rw [h]
  unfold readFile
  rw [this]

theorem readFile_congr {fs fs' : Fs} {path path' : Str} (code : Str) (h : fs path = fs' path') : readFile fs code path = readFile fs' code path' := by
  unfold readFile load
  rw [h]

theorem writeTo_ok {fs : Fs} {code : Code} {x : FileArgs} {c : Cell ℚ} {ls : List Str} (path : Str) (h : writeFile code x c = .ok ls) :
    writeTo fs code.name x path c = .ok (put fs path ls.flatten) := by
  unfold writeTo
  cases code with
  | vasp =>
    rw [if_pos (show Code.vasp.name = "vasp".toList from rfl)]
    have h' : Vasp.writeInput c x.comment = .ok ls := h
    rw [h']
  | espresso =>
    rw [if_neg (by decide), if_pos (show Code.espresso.name = "espresso".toList from rfl)]
    have h' : Espresso.writeInput c x.species x.weight = .ok ls := h
    rw [h']
  | aims =>
    rw [if_neg (by decide), if_neg (by decide), if_pos (show Code.aims.name = "aims".toList from rfl)]
    have h' : Aims.writeInput c = .ok ls := h
    rw [h']

theorem put_same (fs : Fs) (path text : Str) : put fs path text path = some text := if_pos rfl
theorem put_other (fs : Fs) {path q : Str} (text : Str) (h : q ≠ path) : put fs path text q = fs q := if_neg h

/-- Writing a list of files with different numbers: every one of them holds its text afterwards, and no other path changes. -/
theorem writeAll_ok (code : Code) (x : ℕ → FileArgs) (out : Str) (files : List (ℕ × Cell ℚ)) (fs : Fs) (hnd : (files.map (·.1)).Nodup)
    (hw : ∀ f ∈ files, ∃ ls, writeFile code (x f.1) f.2 = .ok ls) :
    ∃ fs', writeAll code.name x out fs files = .ok fs' ∧
      (∀ f ∈ files, ∃ ls, writeFile code (x f.1) f.2 = .ok ls ∧ fs' (fileName out f.1) = some ls.flatten) ∧
      ∀ q, (∀ f ∈ files, q ≠ fileName out f.1) → fs' q = fs q := by
  induction files generalizing fs with
  | nil => exact ⟨fs, rfl, by simp, fun _ _ => rfl⟩
  | cons f rest ih =>
    obtain ⟨ls, hls⟩ := hw f (by simp)
    rw [List.map_cons, List.nodup_cons] at hnd
    obtain ⟨fs', h1, h2, h3⟩ := ih (put fs (fileName out f.1) ls.flatten) hnd.2 fun g hg => hw g (by simp [hg])
    refine ⟨fs', ?_, ?_, ?_⟩
    · rw [writeAll, writeTo_ok _ hls]
      exact h1
    · intro g hg
      rcases List.mem_cons.1 hg with rfl | hg
      · refine ⟨ls, hls, ?_⟩
        rw [h3 _ fun g' hg' e => hnd.1 ?_, put_same]
        have := C16_names_injective out e
        rw [this]
        exact List.mem_map_of_mem hg'
      · exact h2 g hg
    · intro q hq
      rw [h3 q fun g hg => hq g (by simp [hg]), put_other _ _ (hq f (by simp))]

/-- Numbers with at most 16 decimals. -/
def Dec16 (x : ℚ) : Prop := ∃ z : ℤ, x = z / 10 ^ 16

theorem Dec16.round {x : ℚ} (h : Dec16 x) : rndDec 16 x = x := by
  have herr := C57_rounding_error x
  obtain ⟨z, hz⟩ := h
  obtain ⟨w, hw⟩ : ∃ w : ℤ, rndDec 16 x = w / 10 ^ 16 := by
    unfold rndDec
    split_ifs
    · refine ⟨-(roundHalfEven (|x| * 10 ^ 16) : ℤ), ?_⟩
      push_cast
      ring
    · exact ⟨(roundHalfEven (|x| * 10 ^ 16) : ℤ), by push_cast; rfl⟩
  rw [hw, hz] at herr ⊢
  have h1 : |(w : ℚ) - z| ≤ 1 / 2 := by
    have e : (w : ℚ) / 10 ^ 16 - z / 10 ^ 16 = (w - z) / 10 ^ 16 := by ring
    rw [e, abs_div, abs_of_pos (by positivity : (0 : ℚ) < 10 ^ 16), div_le_div_iff_of_pos_right (by positivity)] at herr
    exact herr
  have h2 : |((w - z : ℤ) : ℚ)| < 1 := by push_cast; linarith
  have h3 : |w - z| < 1 := by exact_mod_cast h2
  have : w - z = 0 := Int.abs_lt_one_iff.1 h3
  rw [show w = z by omega]

theorem Dec16.add {x y : ℚ} (hx : Dec16 x) (hy : Dec16 y) : Dec16 (x + y) := by
  obtain ⟨a, rfl⟩ := hx
  obtain ⟨b, rfl⟩ := hy
  exact ⟨a + b, by push_cast; ring⟩

theorem Dec16.int_mul {x : ℚ} (hx : Dec16 x) (z : ℤ) : Dec16 (z * x) := by
  obtain ⟨a, rfl⟩ := hx
  exact ⟨z * a, by push_cast; ring⟩

/-- Lattice and positions with at most 16 decimals: they survive being written and read. -/
def DecCell (c : Cell ℚ) : Prop := (∀ i j, Dec16 (c.lattice i j)) ∧ ∀ v ∈ c.cart, ∀ j, Dec16 (v j)

theorem rounded_exact {c b : Cell ℚ} (hd : DecCell c) (h : Rounded c b) : b.lattice = c.lattice ∧ b.cart = c.cart := by
  refine ⟨?_, ?_⟩
  · ext i j
    rw [h.lattice, (hd.1 i j).round]
  · rw [h.cart]
    conv_rhs => rw [← List.map_id c.cart]
    refine List.map_congr_left fun v hv => ?_
    funext j
    exact (hd.2 v hv j).round

private theorem ok_bind {α β : Type} (a : α) (f : α → Run β) : (Except.ok a >>= f) = f a := rfl

/-! ### The pre-process -/

/-- A run of the pre-process that the user may expect to work: an accepted argument object `a` (enlargement `e`, periodicity `p`, amplitude `d`)
and a readable unit-cell file in the working directory, not called SUPERCELL, that holds the structure `u` with the selected atoms `sel`. -/
structure BaseRun (cwd : Str) (o : PreOpts) (code : Code) (a : PreArg) (e p : List ℤ) (d : ℚ) (u : Cell ℚ) (sel : List ℕ) (x : ℕ → FileArgs)
    (junk : ℕ → List (V3 ℚ)) (fs : Fs) : Prop where
  code : o.dft = code.name
  args : okState (setUserArgument {} o.dict) = some a
  enlargement : a.enlargement = some e
  periodicity : a.periodicity = some p
  displacement : a.displacement = some d
  positive : ∀ m ∈ e, 0 < m
  slash : '/' ∉ o.unitcell
  name : o.unitcell ≠ "SUPERCELL".toList
  read : ∃ r, readFile fs o.dft (absPath cwd o.unitcell) = (r, none) ∧ IsCell r u
  unit : GoodUnit u sel
  files : ∀ k, GoodFile u (x k)
  junk : ∀ m, (junk m).length = m

/-- A run without symmetry: it is switched off, or the number of periodic directions is not two. -/
structure PreRun (cwd : Str) (o : PreOpts) (code : Code) (a : PreArg) (e p : List ℤ) (d : ℚ) (u : Cell ℚ) (sel : List ℕ) (x : ℕ → FileArgs)
    (junk : ℕ → List (V3 ℚ)) (fs : Fs) : Prop extends BaseRun cwd o code a e p d u sel x junk fs where
  noSym : (o.sym && numPbc (fun i => p.getD i 0) == 2) = false

private theorem accepted_aux {a : PreArg} (st : PreArg) (h : (if checkUserArgument st = none then some st else none) = some a) :
    checkUserArgument a = none := by
  by_cases hc : checkUserArgument st = none
  · rw [if_pos hc] at h
    cases h
    exact hc
  · rw [if_neg hc] at h
    cases h

theorem accepted_check {o : PreOpts} {a : PreArg} (h : okState (setUserArgument {} o.dict) = some a) : checkUserArgument a = none := by
  unfold PreOpts.dict at h
  rw [dict_ok _ _ _ _ _ _ rfl] at h
  unfold acceptedState at h
  split at h
  · exact accepted_aux _ h
  · cases h

theorem outcome_ok {x : Args.Outcome} {a : PreArg} (h : okState x = some a) : x = (a, none) := by
  unfold okState at h
  split at h
  · cases h; rfl
  · cases h

theorem paths {cwd : Str} {o : PreOpts} (hs : '/' ∉ o.unitcell) :
    absPath cwd o.unitcell = cwd ++ '/' :: o.unitcell ∧ (preFiles cwd o).1 = cwd ++ '/' :: o.unitcell ∧ (preFiles cwd o).2 = cwd ++ '/' :: "SUPERCELL".toList := by
  have hh : ¬ o.unitcell.head? = some '/' := fun e => hs (List.mem_of_mem_head? e)
  have habs : absPath cwd o.unitcell = cwd ++ '/' :: o.unitcell := by rw [absPath, if_neg hh]
  have hdn : dirName (absPath cwd o.unitcell) = cwd := by
    rw [habs]
    unfold dirName
    have e : (cwd ++ '/' :: o.unitcell).reverse = o.unitcell.reverse ++ '/' :: cwd.reverse := by simp
    rw [e, List.dropWhile_append_of_pos (by intro y hy; have : y ≠ '/' := (by rintro rfl; exact hs (by simpa using hy)); simpa using this),
      List.dropWhile_cons_of_neg (by simp)]
    simp
  refine ⟨habs, habs, ?_⟩
  unfold preFiles
  rw [hdn]

theorem super_ne_unit {cwd n : Str} (h : n ≠ "SUPERCELL".toList) : cwd ++ '/' :: "SUPERCELL".toList ≠ cwd ++ '/' :: n := by
  intro e
  have := List.append_cancel_left e
  exact h (List.cons_injective this).symm

theorem file_ne_unit (n : Str) (k : ℕ) : fileName n k ≠ n := by
  intro e
  have := congrArg List.length e
  unfold fileName suffix at this
  simp at this

theorem file_ne_super (cwd n : Str) (k : ℕ) : fileName (cwd ++ '/' :: n) k ≠ cwd ++ '/' :: "SUPERCELL".toList := by
  intro e
  have h1 : '-' ∈ "SUPERCELL".toList := by
    have e' : cwd ++ ('/' :: n ++ suffix k) = cwd ++ '/' :: "SUPERCELL".toList := by rw [← e]; unfold fileName; simp
    have := List.append_cancel_left e'
    have := List.cons_injective this
    rw [← this]
    unfold suffix
    simp
  exact absurd h1 (by decide)

/-- The files written are numbered from 1. -/
theorem numbers_ok {s : Cell ℚ} {sel : List ℕ} {E : ℕ} {d : ℚ} {p : Fin 3 → ℤ} {sym : Bool} {search : Run (List (ℕ × List (V3 ℚ)))}
    (hgood : GoodPlan s.cart.length sel E p sym search) {s' : Cell ℚ} {files : Files ℚ} (hw : writeDisplaceCell s sel E d p sym search = .ok (s', files)) :
    files.map (·.1) = (List.range files.length).map (· + 1) := by
  rcases hgood with ⟨hsym, hsel⟩ | ⟨hsym, hp, plan, rfl, hplan⟩
  · have hc : (sym && numPbc p == 2) = false := by rcases hsym with h | h <;> simp [h]
    have hw' : writeDisplaceCell s sel E d p false search = .ok (s', files) := by
      rw [← hw]
      unfold writeDisplaceCell
      rw [hc]; rfl
    have := C16_numbers_complete s sel E d p search hsel s' files hw'
    have hl := congrArg List.length this
    simp only [List.length_map, List.length_range] at hl
    rw [hl]; exact this
  · subst hsym
    obtain ⟨s'', files', h1, h2, h3⟩ := C15_displaced_files_sym s sel E d p hp plan hplan
    rw [hw] at h1; cases h1
    apply List.ext_getElem?
    intro m
    by_cases hm : m < files.length
    · have hlen : (plan.flatMap fun q => q.2.map fun v => (q.1, v)).length = (plan.map fun q => q.2.length).sum := by
        rw [List.length_flatMap]; simp
      have hk : m / 2 < (plan.flatMap fun q => q.2.map fun v => (q.1, v)).length := by rw [hlen]; omega
      obtain ⟨⟨c, a1, -⟩, ⟨c', a2, -⟩⟩ := h3 (m / 2) _ _ (List.getElem?_eq_getElem hk)
      rw [List.getElem?_map, List.getElem?_map, List.getElem?_range hm]
      rcases (by omega : m % 2 = 0 ∨ m % 2 = 1) with hb | hb
      · rw [show 2 * (m / 2) = m by omega] at a1
        rw [a1]; rfl
      · rw [show 2 * (m / 2) + 1 = m by omega, show 2 * (m / 2) + 2 = m + 1 by omega] at a2
        rw [a2]; rfl
    · rw [List.getElem?_eq_none (by simpa using hm), List.getElem?_eq_none (by simpa using hm)]

/-- The pre-process, with or without symmetry. -/
theorem pre_core {cwd : Str} {o : PreOpts} {code : Code} {a : PreArg} {e p : List ℤ} {d : ℚ} {u : Cell ℚ} {sel : List ℕ} {x : ℕ → FileArgs}
    {junk : ℕ → List (V3 ℚ)} {fs : Fs} (h : BaseRun cwd o code a e p d u sel x junk fs) (search : Run (List (ℕ × List (V3 ℚ)))) (group : Run Str) {pg : Option Str}
    (hpg : prePointGroup o.sym (fun i => p.getD i 0) group = .ok pg)
    (hplan : GoodPlan ((e.getD 0 0 * e.getD 1 0 * e.getD 2 0).toNat * u.cart.length) sel (e.getD 0 0 * e.getD 1 0 * e.getD 2 0).toNat (fun i => p.getD i 0) o.sym search) :
    ∃ fs1 rec s1 s2 files, preMain cwd o x junk search group fs = .ok (fs1, rec) ∧ preRecord cwd o a pg = .ok rec ∧
      preSuper junk u (fun i => e.getD i 0) (fun i => p.getD i 0) = .ok s1 ∧
      writeDisplaceCell s1 sel (e.getD 0 0 * e.getD 1 0 * e.getD 2 0).toNat d (fun i => p.getD i 0) o.sym search = .ok (s2, files) ∧
      (∃ ls, writeFile code (x 0) s1 = .ok ls ∧ fs1 (cwd ++ '/' :: "SUPERCELL".toList) = some ls.flatten) ∧
      (∀ f ∈ files, ∃ ls, writeFile code (x f.1) f.2 = .ok ls ∧ fs1 (fileName (cwd ++ '/' :: o.unitcell) f.1) = some ls.flatten) ∧
      files.map (·.1) = (List.range files.length).map (· + 1) ∧
      ∀ q, q ≠ cwd ++ '/' :: "SUPERCELL".toList → (∀ k, 1 ≤ k → k ≤ files.length → q ≠ fileName (cwd ++ '/' :: o.unitcell) k) → fs1 q = fs q := by
  have hchk := accepted_check h.args
  obtain ⟨habs, hp1, hp2⟩ := paths (cwd := cwd) h.slash
  obtain ⟨r, hr, hcell⟩ := h.read
  obtain ⟨groups, hg⟩ := h.unit.groups
  obtain ⟨hcall, harg⟩ := C06_supercell_from_arguments h.junk u hg.len.symm a hchk e p h.enlargement h.periodicity h.positive
  obtain ⟨e', p', he', hp', hl, hpl, -⟩ := (C02_check_decides_consistency a).mp hchk
  rw [h.enlargement] at he'; rw [h.periodicity] at hp'; cases he'; cases hp'
  obtain ⟨s0, s1, hs0, hs1, hw, hc1, hlat, hty, hnum, hsel1, hmem, hat, hxyz⟩ := pre_super_ok hcall h.unit
  have hx1 : ∀ k, GoodFile s1 (x k) := fun k => ⟨(h.files k).comment, fun t => ((h.files k).species t).trans (hmem t).symm, (h.files k).weight⟩
  have hE : enlarge e p = e.getD 0 0 * e.getD 1 0 * e.getD 2 0 := by
    obtain ⟨a0, a1, a2, rfl⟩ : ∃ a0 a1 a2, e = [a0, a1, a2] := List.length_eq_three.1 hl
    obtain ⟨b0, b1, b2, rfl⟩ : ∃ a0 a1 a2, p = [a0, a1, a2] := List.length_eq_three.1 hpl
    exact enlarge_eq _ _ hcall.cons
  obtain ⟨s00, hs00, hlen, -⟩ := C06_supercell_positions hcall
  rw [hs0] at hs00; cases hs00
  have hl' : s1.cart.length = (e.getD 0 0 * e.getD 1 0 * e.getD 2 0).toNat * u.cart.length := by rw [hc1, hlen]; rfl
  have hgood : GoodPlan s1.cart.length sel (e.getD 0 0 * e.getD 1 0 * e.getD 2 0).toNat (fun i : Fin 3 => p.getD i 0) o.sym search := by rw [hl']; exact hplan
  obtain ⟨s2, files, -, -, hwd, -, -, -⟩ := same_moves s1 s1 rfl sel (e.getD 0 0 * e.getD 1 0 * e.getD 2 0).toNat d (fun i : Fin 3 => p.getD i 0) o.sym search hgood
  have hnums := numbers_ok hgood hwd
  have hwrite : ∀ f ∈ files, ∃ ls, writeFile code (x f.1) f.2 = .ok ls := by
    intro f hf
    obtain ⟨k, hk, hkf⟩ := List.getElem_of_mem hf
    obtain ⟨s2', files', tt, _, m1, -, -, m4⟩ := same_moves s1 s1 rfl sel (e.getD 0 0 * e.getD 1 0 * e.getD 2 0).toNat d (fun i : Fin 3 => p.getD i 0) o.sym search hgood
    rw [hwd] at m1; cases m1
    obtain ⟨f', g, row, δ, q1, -, q3, -⟩ := m4 k hk
    rw [List.getElem?_eq_getElem hk, hkf] at q1; cases q1
    obtain ⟨ls, hls, -⟩ := C92_file_roundtrip code f.2 (moved_writable hw q3) (x f.1)
      ⟨(hx1 f.1).comment, fun y => by rw [q3.atomType]; exact (hx1 f.1).species y, (hx1 f.1).weight⟩
    exact ⟨ls, hls⟩
  obtain ⟨ls, hls, -⟩ := C92_file_roundtrip code s1 hw (x 0) (hx1 0)
  obtain ⟨fs1, hfs1, hin1, hout1⟩ := writeAll_ok code x (cwd ++ '/' :: o.unitcell) files (put fs (cwd ++ '/' :: "SUPERCELL".toList) ls.flatten)
    (by rw [hnums]; exact (List.nodup_range).map (fun a b hab => by simpa using hab)) hwrite
  have hmemnum : ∀ f ∈ files, 1 ≤ f.1 ∧ f.1 ≤ files.length := by
    intro f hf
    have : f.1 ∈ (List.range (files.length)).map (· + 1) := by rw [← hnums]; exact List.mem_map_of_mem hf
    obtain ⟨k, hk, e⟩ := List.mem_map.1 this
    rw [List.mem_range] at hk
    omega
  obtain ⟨rec, hrec⟩ : ∃ rec, preRecord cwd o a pg = .ok rec := by
    unfold preRecord
    rw [h.enlargement, h.periodicity]
    exact ⟨_, rfl⟩
  have hs1' : setSuperIndTrue s0 u (fun i => e.getD i 0) (fun i => p.getD i 0) = .ok s1 := by
    have := hs1
    rw [preSuper, hs0] at this
    exact this
  refine ⟨fs1, rec, s1, s2, files, ?_, hrec, hs1, hwd, ⟨ls, hls, ?_⟩, hin1, hnums, ?_⟩
  · have hve : vec (some e) = fun i : Fin 3 => e.getD i 0 := rfl
    have hvp : vec (some p) = fun i : Fin 3 => p.getD i 0 := rfl
    unfold preMain
    rw [outcome_ok h.args]
    simp only [hchk, raising, ok_bind, h.enlargement, h.periodicity, h.displacement, hve, hvp, Option.getD_some, some?]
    rw [hp1, ← habs, hr]
    simp only [raising, ok_bind]
    rw [ofRaw_isCell hcell]
    simp only [ok_bind]
    rw [harg, hs0]
    simp only [ok_bind]
    rw [hs1']
    simp only [ok_bind]
    rw [hp2, h.code, writeTo_ok _ hls]
    simp only [ok_bind]
    rw [h.unit.selected]
    simp only [some?, ok_bind]
    rw [hpg]
    simp only [ok_bind]
    rw [hE, hwd]
    simp only [ok_bind]
    rw [habs, hfs1]
    simp only [ok_bind]
    rw [hrec]
    rfl
  · rw [hout1 _ fun f _ => (file_ne_super cwd o.unitcell f.1).symm, put_same]
  · intro q hq1 hq2
    rw [hout1 q fun f hf => hq2 f.1 (hmemnum f hf).1 (hmemnum f hf).2, put_other _ _ hq1]

theorem noSym_plan {cwd : Str} {o : PreOpts} {code : Code} {a : PreArg} {e p : List ℤ} {d : ℚ} {u : Cell ℚ} {sel : List ℕ} {x : ℕ → FileArgs}
    {junk : ℕ → List (V3 ℚ)} {fs : Fs} (h : PreRun cwd o code a e p d u sel x junk fs) {N E : ℕ} {search : Run (List (ℕ × List (V3 ℚ)))} (hin : ∀ t ∈ sel, E * t < N) :
    GoodPlan N sel E (fun i => p.getD i 0) o.sym search := by
  refine .inl ⟨?_, hin⟩
  have := h.noSym
  rw [Bool.and_eq_false_iff] at this
  rcases this with h1 | h1
  · exact .inl h1
  · refine .inr fun hc => ?_
    rw [hc] at h1
    exact absurd h1 (by decide)

/-- **C118 (pre-process).**  The run ends without an exception and writes the super cell next to the unit cell and the displaced super cells number
`1, …, 6·(number of selected atoms)`; it changes no other file, in particular not the unit cell. -/
theorem C118_preprocess {cwd : Str} {o : PreOpts} {code : Code} {a : PreArg} {e p : List ℤ} {d : ℚ} {u : Cell ℚ} {sel : List ℕ} {x : ℕ → FileArgs}
    {junk : ℕ → List (V3 ℚ)} {fs : Fs} (h : PreRun cwd o code a e p d u sel x junk fs) (search : Run (List (ℕ × List (V3 ℚ)))) (group : Run Str) :
    ∃ fs1 rec s1 s2 files, preMain cwd o x junk search group fs = .ok (fs1, rec) ∧ preRecord cwd o a none = .ok rec ∧
      preSuper junk u (fun i => e.getD i 0) (fun i => p.getD i 0) = .ok s1 ∧
      writeDisplaceCell s1 sel (e.getD 0 0 * e.getD 1 0 * e.getD 2 0).toNat d (fun i => p.getD i 0) false search = .ok (s2, files) ∧
      (∃ ls, writeFile code (x 0) s1 = .ok ls ∧ fs1 (cwd ++ '/' :: "SUPERCELL".toList) = some ls.flatten) ∧
      (∀ f ∈ files, ∃ ls, writeFile code (x f.1) f.2 = .ok ls ∧ fs1 (fileName (cwd ++ '/' :: o.unitcell) f.1) = some ls.flatten) ∧
      files.map (·.1) = (List.range (6 * sel.length)).map (· + 1) ∧
      ∀ q, q ≠ cwd ++ '/' :: "SUPERCELL".toList → (∀ k, 1 ≤ k → k ≤ 6 * sel.length → q ≠ fileName (cwd ++ '/' :: o.unitcell) k) → fs1 q = fs q := by
  obtain ⟨groups, hg⟩ := h.unit.groups
  obtain ⟨hcall, -⟩ := C06_supercell_from_arguments h.junk u hg.len.symm a (accepted_check h.args) e p h.enlargement h.periodicity h.positive
  have hEpos : 0 < (e.getD 0 0 * e.getD 1 0 * e.getD 2 0).toNat := by
    have h0 := hcall.pos 0
    have h1 := hcall.pos 1
    have h2 := hcall.pos 2
    have h3 : 0 < e.getD (0 : Fin 3) 0 * e.getD (1 : Fin 3) 0 * e.getD (2 : Fin 3) 0 := by positivity
    have h3' : 0 < e.getD 0 0 * e.getD 1 0 * e.getD 2 0 := h3
    omega
  have hin : ∀ t ∈ sel, (e.getD 0 0 * e.getD 1 0 * e.getD 2 0).toNat * t < (e.getD 0 0 * e.getD 1 0 * e.getD 2 0).toNat * u.cart.length := fun t ht =>
    Nat.mul_lt_mul_of_pos_left (h.unit.bound t ht) hEpos
  obtain ⟨fs1, rec, s1, s2, files, g1, g2, g3, g4, g5, g6, g7, g8⟩ := pre_core h.toBaseRun search group (pg := none) (by unfold prePointGroup; rw [h.noSym]; rfl)
    (noSym_plan h hin)
  have g4' : writeDisplaceCell s1 sel (e.getD 0 0 * e.getD 1 0 * e.getD 2 0).toNat d (fun i => p.getD i 0) false search = .ok (s2, files) := by
    rw [← g4]
    unfold writeDisplaceCell
    rw [h.noSym]; rfl
  have hlen1 : s1.cart.length = (e.getD 0 0 * e.getD 1 0 * e.getD 2 0).toNat * u.cart.length := by
    obtain ⟨s0, s1', hs0, hs1', -, hc1, -⟩ := pre_super_ok hcall h.unit
    obtain ⟨s00, hs00, hlen, -⟩ := C06_supercell_positions hcall
    rw [hs0] at hs00; cases hs00
    rw [g3] at hs1'; cases hs1'
    rw [hc1, hlen]; rfl
  have hfl : files.length = 6 * sel.length := by
    obtain ⟨s2', files', e1, e2, -⟩ := C15_displaced_files s1 sel (e.getD 0 0 * e.getD 1 0 * e.getD 2 0).toNat d (fun i : Fin 3 => p.getD i 0) false search (.inl rfl)
      (by rw [hlen1]; exact hin)
    rw [g4'] at e1; cases e1
    exact e2
  rw [hfl] at g7 g8
  exact ⟨fs1, rec, s1, s2, files, g1, g2, g3, g4', g5, g6, g7, g8⟩

/-! ### Masses -/

theorem weights_ok (l : List Str) (h : ∀ t ∈ l, ∃ k, NamesElement t k) : ∃ ws, weights l = .ok ws ∧ ws.length = l.length := by
  induction l with
  | nil => exact ⟨[], rfl, rfl⟩
  | cons t ts ih =>
    obtain ⟨ws, h1, h2⟩ := ih fun t ht => h t (by simp [ht])
    obtain ⟨k, hk⟩ := h t (by simp)
    obtain ⟨w, -, -, hw⟩ := C64_element_weight t k hk
    exact ⟨w :: ws, by simp only [weights, hw, h1], by simp [h2]⟩

theorem fancy_ok (l : List ℚ) (x : List ℕ) (h : ∀ a ∈ x, a < l.length) : ∃ m, fancy l (x.map fun a : ℕ => (a : ℤ)) = .ok m ∧ m.length = x.length := by
  induction x with
  | nil => exact ⟨[], rfl, rfl⟩
  | cons a as ih =>
    obtain ⟨m, h1, h2⟩ := ih fun b hb => h b (by simp [hb])
    have ha := h a (by simp)
    have hp : pyGet l (a : ℤ) = .ok l[a] := by
      unfold pyGet getE
      rw [if_pos (by omega)]
      simp [ha]
    refine ⟨l[a] :: m, ?_, by simp [h2]⟩
    rw [List.map_cons, fancy, hp]
    simp only
    rw [h1]

/-- The masses of the degrees of freedom of the selected atoms: tabulated weight divided by Avogadro's number, in kilogram. -/
def IsMasses (u : Cell ℚ) (sel : List ℕ) (mass : ℕ → ℝ) : Prop :=
  ∀ (k a : ℕ) (c : Fin 3) (t : Str), sel[k]? = some a → u.atomType[a]? = some t →
    ∃ w : ℚ, AtomicWeight.getAtomicWeight t = .ok (some w) ∧ 0 < w ∧ mass (3 * k + c) = ((w / (6022 * 10 ^ 20) / 1000 : ℚ) : ℝ)

theorem three_get (sel : List ℕ) (k a : ℕ) (c : Fin 3) (h : sel[k]? = some a) : (sel.flatMap fun a => [a, a, a])[3 * k + c]? = some a := by
  induction sel generalizing k with
  | nil => simp at h
  | cons b bs ih =>
    rw [List.flatMap_cons]
    cases k with
    | zero =>
      simp only [List.getElem?_cons_zero, Option.some.injEq] at h
      subst h
      fin_cases c <;> rfl
    | succ k =>
      rw [List.getElem?_append_right (by simp; omega)]
      have e : 3 * (k + 1) + (c : ℕ) - ([b, b, b] : List ℕ).length = 3 * k + c := by simp; omega
      rw [e]
      exact ih k (by simpa using h)

theorem masses_ok {r : RawCell} {u : Cell ℚ} {sel : List ℕ} (hr : IsCell r u) (hu : GoodUnit u sel) (hxyz : u.xyzTrue = some (sel.flatMap fun a => [a, a, a])) :
    ∃ m r', setMassTrue r = (r', none) ∧ IsCell r' u ∧ r'.mass = some m ∧ IsMasses u sel (fun i => ((m.getD i 0 : ℚ) : ℝ)) := by
  obtain ⟨groups, hg⟩ := hu.groups
  obtain ⟨ws, hws, hwl⟩ := weights_ok u.atomType hu.names
  have hx : r.xyzTrue = some ((sel.flatMap fun a => [a, a, a]).map fun a : ℕ => (a : ℤ)) := by rw [hr.xyzTrue, hxyz]; rfl
  obtain ⟨m, hm, hml⟩ := fancy_ok (ws.map fun w => w / (6022 * 10 ^ 20) / 1000) (sel.flatMap fun a => [a, a, a]) (by
    intro a ha
    obtain ⟨b, hb, hab⟩ := List.mem_flatMap.1 ha
    have : a = b := by simpa using hab
    rw [this, List.length_map, hwl, ← hg.len]
    exact hu.bound b hb)
  have hset : setMassTrue r = ({ r with mass := some m }, none) := by
    unfold setMassTrue
    simp only [hr.atomType, hws, hx, hm]
    unfold setMass
    rw [hr.atomTrue, hu.selected]
    simp only [Option.map_some]
    rw [if_pos (by rw [hml]; simp; ring), ← hx]
    have e1 := hr.atomType
    have e2 := hr.atomTrue
    rw [hu.selected] at e2
    simp only [Option.map_some] at e2
    rw [← e1, ← e2]
  refine ⟨m, _, hset, ⟨hr.lattice, hr.atomType, hr.numAtom, hr.selective, hr.coordinate, hr.cart, hr.atomTrue, hr.xyzTrue⟩, rfl, ?_⟩
  obtain ⟨m', hm', -, hget⟩ := C14_masses r _ u.atomType _ hr.atomType hx hset
  cases hm'
  intro k a c t hk ht
  obtain ⟨w, hw, hmk, hpos⟩ := hget (3 * k + c) a t (by rw [List.getElem?_map, three_get sel k a c hk]; rfl) ht
  refine ⟨w, hw, ?_, by show ((m.getD _ 0 : ℚ) : ℝ) = _; rw [List.getD_eq_getElem?_getD, hmk]; rfl⟩
  by_contra hn
  have h0 : w ≤ 0 := not_lt.1 hn
  have : w / (6022 * 10 ^ 20) / 1000 ≤ 0 := div_nonpos_of_nonpos_of_nonneg (div_nonpos_of_nonpos_of_nonneg h0 (by norm_num)) (by norm_num)
  linarith

/-! ### Real structures -/

theorem toR_super {junk : ℕ → List (V3 ℚ)} {u s : Cell ℚ} {n p : Fin 3 → ℤ} (h : GoodCall junk u n p) (hs : setSuperCell junk u n p = .ok s) :
    GoodCall (fun m => List.replicate m (0 : V3 ℝ)) (toR u) n p ∧
      setSuperCell (fun m => List.replicate m (0 : V3 ℝ)) (toR u) n p = .ok { toR s with atomTrue := none, xyzTrue := none } := by
  have hg : GoodCall (fun m => List.replicate m (0 : V3 ℝ)) (toR u) n p := ⟨by simp, by simp [toR, h.types], h.pos, h.cons⟩
  refine ⟨hg, ?_⟩
  rw [setSuperCell_eq h] at hs
  cases hs
  rw [setSuperCell_eq hg]
  have hlat : superLattice (toR u).lattice n = fun i j => ((superLattice u.lattice n i j : ℚ) : ℝ) := by
    funext i j
    simp [superLattice, toR]
  have hbox : (boxDirect n : List (V3 ℝ)) = (boxDirect n : List (V3 ℚ)).map toReal := by
    unfold boxDirect
    simp only [List.map_flatMap, List.map_map]
    congr 1
    funext x
    congr 1
    funext y
    refine List.map_congr_left fun z _ => ?_
    funext j
    fin_cases j <;> simp [toReal]
  have hpos : ∀ (v d : V3 ℚ), imagePos (toReal v) (superLattice (toR u).lattice n) (toReal d) = toReal (imagePos v (superLattice u.lattice n) d) := by
    intro v d
    funext j
    rw [hlat]
    simp [imagePos, toReal, Fin.sum_univ_three]
  congr 1
  rw [Cell.mk.injEq]
  refine ⟨hlat, rfl, rfl, rfl, rfl, ?_, rfl, rfl⟩
  show ((u.cart.map toReal).flatMap fun v => (boxDirect n).map (imagePos v (superLattice (toR u).lattice n))) =
    (u.cart.flatMap fun v => (boxDirect n).map (imagePos v (superLattice u.lattice n))).map toReal
  rw [List.flatMap_map, List.map_flatMap, hbox]
  congr 1
  funext v
  rw [List.map_map, List.map_map]
  exact List.map_congr_left fun d _ => hpos v d

theorem toR_moved {s f : Cell ℚ} {row : ℕ} {δ : V3 ℚ} (h : IsMoved s row δ f) : IsMoved (toR s) row (toReal δ) (toR f) := by
  obtain ⟨v, h1, h2⟩ := h.moved
  refine ⟨?_, h.atomType, h.numAtom, h.coordinate, h.selective, ?_, toReal v, ?_, ?_⟩
  · show (fun i j => ((f.lattice i j : ℚ) : ℝ)) = _
    rw [h.lattice]
    rfl
  · intro r hr
    simp only [toR, List.getElem?_map, h.others r hr]
  · simp only [toR, List.getElem?_map, h1, Option.map_some]
  · simp only [toR, List.getElem?_map, h2, Option.map_some, Option.some.injEq]
    funext j
    simp [toReal]

theorem toReal_axis (d : ℚ) (j : Fin 3) : toReal (axis d j) = axis (d : ℝ) j := by
  funext c
  unfold toReal axis
  split_ifs <;> simp

/-! ### Decimal structures -/

theorem DecCell.super {junk : ℕ → List (V3 ℚ)} {u s : Cell ℚ} {n p : Fin 3 → ℤ} (hd : DecCell u) (h : GoodCall junk u n p)
    (hs : setSuperCell junk u n p = .ok s) : DecCell s := by
  refine ⟨fun i j => ?_, fun v hv j => ?_⟩
  · rw [(C07_supercell_counts_types h hs).2.2.2.2.2 i j]
    exact (hd.1 i j).int_mul (n i)
  · obtain ⟨s0, hs0, hlen, -⟩ := C06_supercell_positions h
    rw [hs] at hs0; cases hs0
    have h0 := h.pos 0
    have h1 := h.pos 1
    have h2 := h.pos 2
    have hE : 0 < (n 0 * n 1 * n 2).toNat := by
      have : 0 < n 0 * n 1 * n 2 := by positivity
      omega
    obtain ⟨i, hi, rfl⟩ := List.getElem_of_mem hv
    obtain ⟨w, hw, x, y, z, hx⟩ : ∃ w ∈ u.cart, ∃ x y z : ℕ, s.cart[i] = translate u.lattice w x y z := by
      rw [setSuperCell_eq h] at hs
      have hmem : s.cart[i] ∈ s.cart := List.getElem_mem _
      cases hs
      obtain ⟨w, hw, hb⟩ := List.mem_flatMap.1 hmem
      obtain ⟨b, hb, e⟩ := List.mem_map.1 hb
      obtain ⟨x, -, hb⟩ := List.mem_flatMap.1 hb
      obtain ⟨y, -, hb⟩ := List.mem_flatMap.1 hb
      obtain ⟨z, -, hb⟩ := List.mem_map.1 hb
      refine ⟨w, hw, x, y, z, ?_⟩
      rw [← e, ← hb]
      funext c
      have q0 : (n 0 : ℚ) ≠ 0 := by exact_mod_cast h0.ne'
      have q1 : (n 1 : ℚ) ≠ 0 := by exact_mod_cast h1.ne'
      have q2 : (n 2 : ℚ) ≠ 0 := by exact_mod_cast h2.ne'
      simp only [imagePos, translate, superLattice, Fin.sum_univ_three, Matrix.cons_val_zero, Matrix.cons_val_one, Matrix.cons_val]
      field_simp
    rw [hx]
    have := (hd.2 w hw j).add ((((hd.1 0 j).int_mul x).add ((hd.1 1 j).int_mul y)).add ((hd.1 2 j).int_mul z))
    simpa [translate] using this

theorem DecCell.moved {s f : Cell ℚ} {row : ℕ} {δ : V3 ℚ} (hd : DecCell s) (hδ : ∀ j, Dec16 (δ j)) (h : IsMoved s row δ f) : DecCell f := by
  refine ⟨fun i j => by rw [h.lattice]; exact hd.1 i j, fun v hv j => ?_⟩
  obtain ⟨i, hi, e⟩ := List.getElem_of_mem hv
  have hv' : f.cart[i]? = some v := by rw [← e]; exact List.getElem?_eq_getElem hi
  by_cases hr : i = row
  · subst hr
    obtain ⟨w, h1, h2⟩ := h.moved
    rw [hv'] at h2; cases h2
    exact (hd.2 w (List.mem_of_getElem? h1) j).add (hδ j)
  · rw [h.others i hr] at hv'
    exact hd.2 v (List.mem_of_getElem? hv') j

theorem Dec16.axis {d : ℚ} (h : Dec16 d) (j c : Fin 3) : Dec16 (Props.axis d j c) := by
  unfold Props.axis
  split_ifs
  · exact h
  · exact ⟨0, by simp⟩

theorem Dec16.neg {d : ℚ} (h : Dec16 d) : Dec16 (-d) := by
  have := h.int_mul (-1)
  simpa using this

/-! ### Force files -/

/-- Newton per unit of force of the code (eV/Å, or Ry/bohr). -/
def Code.unit : Code → ℚ
  | .espresso => (13.605662 * 1.602e-19) / 0.529177e-10
  | _ => 1602 / 10 ^ 12

/-- A file called `name` with the given lines is a finished output of the code whose table of forces is `g`. -/
def ForceOutput (code : Code) (name : Str) (lines : List Str) (g : List (V3 ℚ)) : Prop :=
  match code with
  | .vasp => (name = "vasprun.xml".toList ∧ ForceFile "forces".toList 1 0 lines g) ∨ (name = "OUTCAR".toList ∧ ForceFile "TOTAL-FORCE".toList 3 1 lines g)
  | .espresso => ForceFile "Forces acting on atoms".toList 6 1 lines g
  | .aims => ForceFile "Total atomic forces".toList 2 0 lines g

theorem readForces_ok {fs : Fs} {code : Code} {path t : Str} {g : List (V3 ℚ)} (ht : fs path = some t) (h : ForceOutput code (baseName path) (readlines t) g) :
    readForces fs code.name g.length path = .ok (inUnits code.unit g) := by
  have hl : load fs path = .ok t := by unfold load; rw [ht]
  unfold readForces
  rw [hl]
  simp only [ok_bind]
  cases code with
  | vasp =>
    rw [if_pos (show Code.vasp.name = "vasp".toList from rfl)]
    rcases h with ⟨e, h⟩ | ⟨e, h⟩
    · rw [e, C60_vasprun h]; rfl
    · rw [e, C60_outcar h]; rfl
  | espresso =>
    rw [if_neg (by decide), if_pos (show Code.espresso.name = "espresso".toList from rfl), C60_espresso h]
    rfl
  | aims =>
    rw [if_neg (by decide), if_neg (by decide), if_pos (show Code.aims.name = "aims".toList from rfl), C60_aims h]
    rfl

theorem inUnits_get (w : ℚ) (g : List (V3 ℚ)) (a : ℕ) (c : Fin 3) : ((inUnits w g).getD a []).getD c 0 = g.getD a 0 c * w := by
  unfold inUnits
  rw [List.getD_eq_getElem?_getD (l := List.map _ g), List.getElem?_map, List.getD_eq_getElem?_getD (l := g)]
  cases g[a]? with
  | none => simp
  | some v => fin_cases c <;> rfl

theorem stretch_full {n : ℕ} {x : List (List ℚ)} (hl : x.length = n) (hw : ∀ r ∈ x, r.length = 3) (a : ℕ) (c : Fin 3) :
    stretch n x a c = (((x.getD a []).getD c 0 : ℚ) : ℝ) := by
  unfold stretch
  simp only
  by_cases ha : a < n
  · rw [if_pos ha]
    have hrow : (if x.length = 1 then x.getD 0 [] else x.getD a []) = x.getD a [] := by
      split_ifs with h1
      · rw [show a = 0 by omega]
      · rfl
    rw [hrow, if_neg]
    have : (x.getD a []).length = 3 := by
      rw [List.getD_eq_getElem _ _ (by omega)]
      exact hw _ (List.getElem_mem _)
    omega
  · have : x.getD a [] = [] := List.getD_eq_default _ _ (by omega)
    rw [if_neg ha, this]
    simp

theorem head_length {x : List (List ℚ)} (hw : ∀ r ∈ x, r.length = 3) (hx : x ≠ []) : (x.headD []).length = 3 := by
  cases x with
  | nil => exact absurd rfl hx
  | cons r x => exact hw r (List.mem_cons_self ..)

theorem pairForces_ok {n : ℕ} (hn : n ≠ 0) (l : List (List (List ℚ))) (h : ∀ x ∈ l, x.length = n ∧ ∀ r ∈ x, r.length = 3) :
    pairForces n l = .ok (l.map (stretch n)) := by
  induction hk : l.length using Nat.strong_induction_on generalizing l with
  | _ k ih =>
    match l, h, hk with
    | [], _, _ => rfl
    | [x], _, _ => rfl
    | x :: y :: rest, h, hk =>
      have hx := h x (by simp)
      have hy := h y (by simp)
      have fx := head_length hx.2 (by intro e; simp [e] at hx; omega)
      have fy := head_length hy.2 (by intro e; simp [e] at hy; omega)
      rw [pairForces, if_pos (by unfold fits; simp only [hx.1, hy.1, fx, fy]; simp),
        ih rest.length (by simp at hk; omega) rest (fun z hz => h z (by simp [hz])) rfl]
      rfl

/-! ### The post-process -/

theorem each_ok {α β : Type} (f : α → Run β) (l : List α) (bs : List β) (hlen : l.length = bs.length)
    (h : ∀ (k : ℕ) (a : α) (b : β), l[k]? = some a → bs[k]? = some b → f a = .ok b) : each f l = .ok bs := by
  induction l generalizing bs with
  | nil =>
    cases bs with
    | nil => rfl
    | cons b bs => simp at hlen
  | cons a l ih =>
    cases bs with
    | nil => simp at hlen
    | cons b bs =>
      rw [each, h 0 a b rfl rfl]
      simp only
      rw [ih bs (by simpa using hlen) fun k a b h1 h2 => h (k + 1) a b (by simpa using h1) (by simpa using h2)]

theorem allForces_ok {fs : Fs} {code : Str} {n : ℕ} (hn : n ≠ 0) {force : List Str} {l : List (List (List ℚ))} (hr : each (readForces fs code n) force = .ok l)
    (h : ∀ x ∈ l, x.length = n ∧ ∀ r ∈ x, r.length = 3) (sym : Bool) : allForces fs code sym n force = .ok (l.map (stretch n)) := by
  unfold allForces
  rw [hr]
  simp only [ok_bind]
  by_cases hs : sym = true
  · rw [if_pos hs]
    apply each_ok
    · rw [List.length_map]
    · intro k a b ha hb
      rw [List.getElem?_map, ha] at hb
      cases hb
      have hx := h a (List.mem_of_getElem? ha)
      unfold oneForces
      rw [if_pos ⟨hx.1, head_length hx.2 (by intro e; simp [e] at hx; omega)⟩]
  · rw [if_neg hs, pairForces_ok hn l h]

theorem allForces_get {fs : Fs} {code : Str} {n : ℕ} {force : List Str} {bs : List (Rows ℝ)} (hn : n = 0 → force = []) (hlen : force.length = bs.length)
    (h : ∀ (k : ℕ) (f : Str) (b : Rows ℝ), force[k]? = some f → bs[k]? = some b →
      ∃ x, readForces fs code n f = .ok x ∧ x.length = n ∧ (∀ r ∈ x, r.length = 3) ∧ stretch n x = b) (sym : Bool) : allForces fs code sym n force = .ok bs := by
  by_cases hn0 : n = 0
  · have hf := hn hn0
    subst hf
    have : bs = [] := by
      cases bs with
      | nil => rfl
      | cons b bs => simp at hlen
    subst this
    cases sym <;> rfl
  clear hn
  obtain ⟨l, h1, h2, h3⟩ : ∃ l, each (readForces fs code n) force = .ok l ∧ (∀ x ∈ l, x.length = n ∧ ∀ r ∈ x, r.length = 3) ∧ l.map (stretch n) = bs := by
    induction force generalizing bs with
    | nil =>
      cases bs with
      | nil => exact ⟨[], rfl, by simp, rfl⟩
      | cons b bs => simp at hlen
    | cons f force ih =>
      cases bs with
      | nil => simp at hlen
      | cons b bs =>
        obtain ⟨x, q1, q2, q3, q4⟩ := h 0 f b rfl rfl
        obtain ⟨l, p1, p2, p3⟩ := ih (bs := bs) (by simpa using hlen) fun k f b h1 h2 => h (k + 1) f b (by simpa using h1) (by simpa using h2)
        refine ⟨x :: l, ?_, ?_, ?_⟩
        · rw [each, q1]
          simp only
          rw [p1]
        · intro z hz
          rcases List.mem_cons.1 hz with rfl | hz
          · exact ⟨q2, q3⟩
          · exact p2 z hz
        · rw [List.map_cons, q4, p3]
  rw [allForces_ok hn0 h1 h2, h3]

/-- The file at `path` holds the structure `c`. -/
def Holds (fs : Fs) (code : Code) (path : Str) (c : Cell ℚ) : Prop := ∃ r, readFile fs code.name path = (r, none) ∧ IsCell r c

/-- What the user does between the two programs.  `fs1` are the files after the pre-process, `fs2` those before the post-process.  The files of the
pre-process are still there; `force` lists one output file of the code per displaced super cell, in a directory that also holds a copy of the displaced
super cell; and the forces in it are those of the harmonic crystal with springs `Ψ` (newton per metre), displaced from SUPERCELL to that structure. -/
structure Calculated (code : Code) (cwd unit : Str) (fs1 fs2 : Fs) (Ψ : ℕ → Fin 3 → ℕ → Fin 3 → ℝ) (F0 : Rows ℝ) (count : ℕ) (force : List Str) : Prop where
  length : force.length = count
  unitcell : fs2 (cwd ++ '/' :: unit) = fs1 (cwd ++ '/' :: unit)
  supercell : fs2 (cwd ++ '/' :: "SUPERCELL".toList) = fs1 (cwd ++ '/' :: "SUPERCELL".toList)
  copied : ∀ (k : ℕ) (f : Str), force[k]? = some f → fs2 (dirName f ++ '/' :: unit) = fs1 (fileName (cwd ++ '/' :: unit) (k + 1))
  forces : ∀ (k : ℕ) (f : Str), force[k]? = some f → ∃ t g, fs2 f = some t ∧ ForceOutput code (baseName f) (readlines t) g ∧
    ∀ sup dis, Holds fs1 code (cwd ++ '/' :: "SUPERCELL".toList) sup → Holds fs1 code (fileName (cwd ++ '/' :: unit) (k + 1)) dis →
      g.length = sup.cart.length ∧ ∀ a < sup.cart.length, ∀ c : Fin 3, ((g.getD a 0 c * code.unit : ℚ) : ℝ) = harmonicForces Ψ F0 (toR sup) (toR dis) a c

/-- The same with forces that are off by at most `η` newton in every component. -/
structure CalculatedWithin (η : ℝ) (code : Code) (cwd unit : Str) (fs1 fs2 : Fs) (Ψ : ℕ → Fin 3 → ℕ → Fin 3 → ℝ) (F0 : Rows ℝ) (count : ℕ) (force : List Str) : Prop where
  length : force.length = count
  unitcell : fs2 (cwd ++ '/' :: unit) = fs1 (cwd ++ '/' :: unit)
  supercell : fs2 (cwd ++ '/' :: "SUPERCELL".toList) = fs1 (cwd ++ '/' :: "SUPERCELL".toList)
  copied : ∀ (k : ℕ) (f : Str), force[k]? = some f → fs2 (dirName f ++ '/' :: unit) = fs1 (fileName (cwd ++ '/' :: unit) (k + 1))
  forces : ∀ (k : ℕ) (f : Str), force[k]? = some f → ∃ t g, fs2 f = some t ∧ ForceOutput code (baseName f) (readlines t) g ∧
    ∀ sup dis, Holds fs1 code (cwd ++ '/' :: "SUPERCELL".toList) sup → Holds fs1 code (fileName (cwd ++ '/' :: unit) (k + 1)) dis →
      g.length = sup.cart.length ∧ ∀ a < sup.cart.length, ∀ c : Fin 3, |((g.getD a 0 c * code.unit : ℚ) : ℝ) - harmonicForces Ψ F0 (toR sup) (toR dis) a c| ≤ η

theorem Calculated.within {code : Code} {cwd unit : Str} {fs1 fs2 : Fs} {Ψ : ℕ → Fin 3 → ℕ → Fin 3 → ℝ} {F0 : Rows ℝ} {count : ℕ} {force : List Str}
    (h : Calculated code cwd unit fs1 fs2 Ψ F0 count force) : CalculatedWithin 0 code cwd unit fs1 fs2 Ψ F0 count force :=
  ⟨h.length, h.unitcell, h.supercell, h.copied, fun k f hf => by
    obtain ⟨t, g, h1, h2, h3⟩ := h.forces k f hf
    refine ⟨t, g, h1, h2, fun sup dis hs hd => ?_⟩
    obtain ⟨h4, h5⟩ := h3 sup dis hs hd
    exact ⟨h4, fun a ha c => by rw [h5 a ha c, sub_self, abs_zero]⟩⟩

theorem harmonic_congr (Ψ : ℕ → Fin 3 → ℕ → Fin 3 → ℝ) (F0 : Rows ℝ) {s s' c c' : Cell ℝ} (h1 : s.cart = s'.cart) (h2 : c.cart = c'.cart) :
    harmonicForces Ψ F0 s c = harmonicForces Ψ F0 s' c' := by
  unfold harmonicForces
  rw [h1, h2]

theorem isCell_mass {r : RawCell} {c : Cell ℚ} (h : IsCell r c) {c' : Cell ℚ} (h' : IsCell r c') : c = c' := by
  have h1 := ofRaw_isCell h
  rw [ofRaw_isCell h'] at h1
  cases h1
  rfl

/-- Which atom the displaced file number `k + 1` moves, and by how much. -/
theorem file_move {K : Type*} [Field K] (s : Cell K) (sel : List ℕ) (E : ℕ) (d : K) (p : Fin 3 → ℤ) (search : Run (List (ℕ × List (V3 K))))
    (hin : ∀ t ∈ sel, E * t < s.cart.length) {s' : Cell K} {files : Files K} (hw : writeDisplaceCell s sel E d p false search = .ok (s', files)) (k : ℕ)
    (hk : k < 6 * sel.length) :
    ∃ f, files[k]? = some f ∧ IsMoved s (E * sel.getD (k / 6) 0) (axis (if k % 2 = 0 then d else -d) ⟨k % 6 / 2, by omega⟩) f.2 := by
  obtain ⟨s'', files', h1, h2, h3⟩ := C15_displaced_files s sel E d p false search (.inl rfl) hin
  rw [hw] at h1; cases h1
  have hi : k / 6 < sel.length := by omega
  obtain ⟨⟨c, a1, a2⟩, ⟨c', a3, a4⟩⟩ := h3 (k / 6) _ ⟨k % 6 / 2, by omega⟩ (List.getElem?_eq_getElem hi)
  rw [List.getD_eq_getElem _ _ hi]
  rcases (by omega : k % 2 = 0 ∨ k % 2 = 1) with hb | hb
  · have e : 6 * (k / 6) + 2 * (k % 6 / 2) = k := by omega
    simp only [e] at a1
    rw [if_pos hb]
    exact ⟨_, a1, a2⟩
  · have e : 6 * (k / 6) + 2 * (k % 6 / 2) + 1 = k := by omega
    simp only [e] at a3
    rw [if_neg (by omega)]
    exact ⟨_, a3, a4⟩

theorem Holds.unique {fs : Fs} {code : Code} {path : Str} {c c' : Cell ℚ} (h : Holds fs code path c) (h' : Holds fs code path c') : c = c' := by
  obtain ⟨r, h1, h2⟩ := h
  obtain ⟨r', h1', h2'⟩ := h'
  rw [h1] at h1'
  cases h1'
  exact isCell_mass h2 h2'

/-- **C118 (files).**  What the pre-process leaves on disk, read back: SUPERCELL holds the enlarged lattice and, for every atom of the unit cell, all its translates;
file number `k + 1` holds the same structure with one selected atom moved by exactly the requested amplitude along one axis (files `6i+1, …, 6i+6` belong to the
selected atom number `i`: plus and minus along each axis). -/
theorem C118_files {cwd : Str} {o : PreOpts} {code : Code} {a : PreArg} {e p : List ℤ} {d : ℚ} {u : Cell ℚ} {sel : List ℕ} {x : ℕ → FileArgs}
    {junk : ℕ → List (V3 ℚ)} {fs : Fs} (h : PreRun cwd o code a e p d u sel x junk fs) (hdec : DecCell u) (hd16 : Dec16 d)
    (search : Run (List (ℕ × List (V3 ℚ)))) (group : Run Str) {fs1 : Fs} {rec : PreRecord} (hpre : preMain cwd o x junk search group fs = .ok (fs1, rec)) :
    ∃ sup, Holds fs1 code (cwd ++ '/' :: "SUPERCELL".toList) sup ∧
      (∀ i j : Fin 3, sup.lattice i j = e.getD i 0 * u.lattice i j) ∧
      sup.cart.length = (e.getD 0 0 * e.getD 1 0 * e.getD 2 0).toNat * u.cart.length ∧
      (∀ (i : ℕ) (v : V3 ℚ), u.cart[i]? = some v → ∀ x y z : ℕ, (x : ℤ) < e.getD 0 0 → (y : ℤ) < e.getD 1 0 → (z : ℤ) < e.getD 2 0 →
        sup.cart[(e.getD 0 0 * e.getD 1 0 * e.getD 2 0).toNat * i + ((x * (e.getD 1 0).toNat + y) * (e.getD 2 0).toNat + z)]? =
          some (translate u.lattice v x y z)) ∧
      ∀ k < 6 * sel.length, ∃ dis v, Holds fs1 code (fileName (cwd ++ '/' :: o.unitcell) (k + 1)) dis ∧
        dis.lattice = sup.lattice ∧ dis.atomType = sup.atomType ∧
        (∀ r, r ≠ (e.getD 0 0 * e.getD 1 0 * e.getD 2 0).toNat * sel.getD (k / 6) 0 → dis.cart[r]? = sup.cart[r]?) ∧
        sup.cart[(e.getD 0 0 * e.getD 1 0 * e.getD 2 0).toNat * sel.getD (k / 6) 0]? = some v ∧
        dis.cart[(e.getD 0 0 * e.getD 1 0 * e.getD 2 0).toNat * sel.getD (k / 6) 0]? =
          some fun c : Fin 3 => if (c : ℕ) = k % 6 / 2 then v c + (if k % 2 = 0 then d else -d) else v c := by
  obtain ⟨fs1', rec', s1, s2, files, hpre', hrec, hs1, hwd, ⟨ls, hls, hsup⟩, hfile, hnums, hother⟩ := C118_preprocess h search group
  rw [hpre] at hpre'; cases hpre'
  have hchk := accepted_check h.args
  obtain ⟨groups, hg⟩ := h.unit.groups
  obtain ⟨hcall, harg⟩ := C06_supercell_from_arguments h.junk u hg.len.symm a hchk e p h.enlargement h.periodicity h.positive
  obtain ⟨s0, s1', hs0, hs1', hw, hc1, hlat, hty, hnum, hsel1, hmem, hat, hxyz1⟩ := pre_super_ok hcall h.unit
  rw [hs1] at hs1'; cases hs1'
  set n : Fin 3 → ℤ := fun i => e.getD i 0 with hn
  set pp : Fin 3 → ℤ := fun i => p.getD i 0 with hpp
  have hn3 : e.getD 0 0 * e.getD 1 0 * e.getD 2 0 = n 0 * n 1 * n 2 := rfl
  rw [hn3] at hwd ⊢
  obtain ⟨s00, hs00, hlen, hpos⟩ := C06_supercell_positions hcall
  rw [hs0] at hs00; cases hs00
  set E := (n 0 * n 1 * n 2).toNat with hEdef
  have hEpos : 0 < E := by
    have h0 := hcall.pos 0
    have h1 := hcall.pos 1
    have h2 := hcall.pos 2
    have : 0 < n 0 * n 1 * n 2 := by positivity
    omega
  have hlen1 : s1.cart.length = E * u.cart.length := by rw [hc1, hlen]
  have hin : ∀ t ∈ sel, E * t < s1.cart.length := by
    intro t ht
    rw [hlen1]
    exact Nat.mul_lt_mul_of_pos_left (h.unit.bound t ht) hEpos
  have hx1 : ∀ k, GoodFile s1 (x k) := fun k => ⟨(h.files k).comment, fun t => ((h.files k).species t).trans (hmem t).symm, (h.files k).weight⟩
  have hdec0 := hdec.super hcall hs0
  have hdec1 : DecCell s1 := ⟨fun i j => by rw [hlat]; exact hdec0.1 i j, fun v hv j => hdec0.2 v (by rw [← hc1]; exact hv) j⟩
  obtain ⟨lsx, hlsx, hrx⟩ := C92_file_roundtrip code s1 hw (x 0) (hx1 0)
  rw [hls] at hlsx; cases hlsx
  obtain ⟨rs, sr, hrs, hrscell, hround⟩ := hrx {}
  obtain ⟨hsrl, hsrc⟩ := rounded_exact hdec1 hround
  refine ⟨sr, ⟨rs, by rw [readFile_text _ hsup]; exact hrs, hrscell⟩, ?_, by rw [hsrc, hlen1], ?_, ?_⟩
  · intro i j
    rw [hsrl, hlat]
    exact (C07_supercell_counts_types hcall hs0).2.2.2.2.2 i j
  · intro i v hv x y z hx hy hz
    rw [hsrc, hc1]
    exact hpos i v hv x y z hx hy hz
  · intro k hk
    obtain ⟨f, hf, hmv⟩ := file_move s1 sel E d pp search hin hwd k hk
    have hfn : f.1 = k + 1 := by
      have h1 : (files.map (·.1))[k]? = some f.1 := by rw [List.getElem?_map, hf]; rfl
      rw [hnums, List.getElem?_map] at h1
      obtain ⟨z, hz, hzf⟩ := Option.map_eq_some_iff.1 h1
      obtain ⟨hz1, hz2⟩ := List.getElem?_eq_some_iff.1 hz
      rw [List.getElem_range] at hz2
      rw [← hzf, hz2]
    obtain ⟨ls1, hl1, hfs⟩ := hfile f (List.mem_of_getElem? hf)
    rw [hfn] at hl1 hfs
    obtain ⟨ls2, hl2, hrd⟩ := C92_file_roundtrip code f.2 (moved_writable hw hmv) (x (k + 1))
      ⟨(hx1 _).comment, fun y => by rw [hmv.atomType]; exact (hx1 _).species y, (hx1 _).weight⟩
    rw [hl1] at hl2; cases hl2
    obtain ⟨r', b, q1, q2, q3⟩ := hrd {}
    obtain ⟨hbl, hbc⟩ := rounded_exact (hdec1.moved (fun j => by
      split_ifs
      · exact hd16.axis _ _
      · exact hd16.neg.axis _ _) hmv) q3
    obtain ⟨v, hv1, hv2⟩ := hmv.moved
    refine ⟨b, v, ⟨r', by rw [readFile_text _ hfs]; exact q1, q2⟩, by rw [hbl, hmv.lattice, hsrl], by rw [q3.atomType, hmv.atomType, hround.atomType], ?_, ?_, ?_⟩
    · intro r hr
      rw [hbc, hsrc]
      exact hmv.others r hr
    · rw [hsrc]; exact hv1
    · rw [hbc, hv2]
      congr 1
      funext c
      unfold axis
      by_cases hc : (c : ℕ) = k % 6 / 2
      · rw [if_pos hc, if_pos (Fin.ext hc)]
      · rw [if_neg hc, if_neg (fun hh => hc (congrArg Fin.val hh)), add_zero]

/-- Springs and forces cut down to the atoms of the super cell. -/
theorem super_cut (n : Fin 3 → ℤ) {E N : ℕ} (hE : 0 < E) (Φ : Springs) (r c : ℕ) (x y : Fin 3) :
    superSprings n E (fun a x b y => if a < N then Φ a x b y else 0) r x c y = if r < N * E then superSprings n E Φ r x c y else 0 := by
  have h : r / E < N ↔ r < N * E := Nat.div_lt_iff_lt_mul hE
  unfold superSprings
  by_cases hr : r < N * E
  · simp only [if_pos hr, if_pos (h.2 hr)]
  · simp only [if_neg hr, if_neg (mt h.1 hr), Finsupp.support_zero]
    rfl

theorem q_exists (L : M3 ℝ) (hdet : L.det ≠ 0) (D : PhononData) (hr : D.recip = reciprocal L) (k : V3 ℝ) (i : Fin 3) :
    dot3 (qVec D k) (L i) = 2 * Real.pi * k i := by
  have h := fun j => C24_reciprocal_dual L hdet j i
  simp only [Fin.sum_univ_three] at h
  have e : dot3 (qVec D k) (L i) = k 0 * (reciprocal L 0 0 * L i 0 + reciprocal L 0 1 * L i 1 + reciprocal L 0 2 * L i 2) +
      k 1 * (reciprocal L 1 0 * L i 0 + reciprocal L 1 1 * L i 1 + reciprocal L 1 2 * L i 2) +
      k 2 * (reciprocal L 2 0 * L i 0 + reciprocal L 2 1 * L i 1 + reciprocal L 2 2 * L i 2) := by
    simp only [dot3, qVec, hr]; ring
  rw [e, h 0, h 1, h 2]
  fin_cases i <;> simp <;> ring

/-- Every displaced super cell is the super cell with one atom moved by decimals. -/
def DecMoves (s : Cell ℚ) (files : Files ℚ) : Prop := ∀ (k : ℕ) (f : ℕ × Cell ℚ), files[k]? = some f →
  ∃ row δ, row < s.cart.length ∧ IsMoved s row δ f.2 ∧ ∀ c, Dec16 (δ c)

/-- Every displaced super cell is the super cell with one atom moved. -/
def Moves (s : Cell ℚ) (files : Files ℚ) : Prop := ∀ (k : ℕ) (f : ℕ × Cell ℚ), files[k]? = some f → ∃ row δ, row < s.cart.length ∧ IsMoved s row δ f.2

/-- The post-process up to the force constants, with or without symmetry, and forces with an error: the object is made from the real crystal and gets forces within the
error of those of the structures in the files. -/
theorem post_near {cwd : Str} {o : PreOpts} {code : Code} {a : PreArg} {e p : List ℤ} {d : ℚ} {u : Cell ℚ} {sel : List ℕ} {x : ℕ → FileArgs}
    {junk : ℕ → List (V3 ℚ)} {fs : Fs} (h : BaseRun cwd o code a e p d u sel x junk fs)
    (hxyz : u.xyzTrue = some (sel.flatMap fun a => [a, a, a])) (hdec : DecCell u) (search : Run (List (ℕ × List (V3 ℚ)))) (group : Run Str) {pg : Option Str}
    (hpg : prePointGroup o.sym (fun i => p.getD i 0) group = .ok pg)
    (hplan : GoodPlan ((e.getD 0 0 * e.getD 1 0 * e.getD 2 0).toNat * u.cart.length) sel (e.getD 0 0 * e.getD 1 0 * e.getD 2 0).toNat (fun i => p.getD i 0) o.sym search) :
    ∃ fs1 rec s1 s2 files, preMain cwd o x junk search group fs = .ok (fs1, rec) ∧
      preSuper junk u (fun i => e.getD i 0) (fun i => p.getD i 0) = .ok s1 ∧
      writeDisplaceCell s1 sel (e.getD 0 0 * e.getD 1 0 * e.getD 2 0).toNat d (fun i => p.getD i 0) o.sym search = .ok (s2, files) ∧
      ∀ (_ : Moves s1 files) (Ψ : ℕ → Fin 3 → ℕ → Fin 3 → ℝ) (F0 : Rows ℝ) (η : ℝ) (fs2 : Fs) (force : List Str), CalculatedWithin η code cwd o.unitcell fs1 fs2 Ψ F0 files.length force →
        ∃ s3 mass F, s3.cart = s1.cart ∧ s3.lattice = s1.lattice ∧ s3.atomType = s1.atomType ∧ s3.atomTrue = s1.atomTrue ∧ s3.xyzTrue = s1.xyzTrue ∧ IsMasses u sel mass ∧
          F.length = files.length ∧
          (∀ (k : ℕ) (f : ℕ × Cell ℚ) (g : Rows ℝ), files[k]? = some f → F[k]? = some g → ∃ b, Rounded f.2 b ∧ ∀ a c,
            (a < s1.cart.length → |g a c - harmonicForces Ψ F0 (toR s1) (toR b) a c| ≤ η) ∧ (s1.cart.length ≤ a → g a c = 0)) ∧
          ∀ (S : Solver) (j : Junk) (o2 : Object), call S (PostProcess.new (toR u) (toR s3) (fun i => e.getD i 0) (fun i => p.getD i 0) (d : ℝ) mass (reciprocal (toR u).lattice) j.fc)
                (.force j.left j.cols (o.sym && numPbc (fun i => p.getD i 0) == 2) F) = .ok o2 →
              postSetup S j (postResolve cwd {} rec) force search fs2 = .ok ⟨a, u, s3, o2⟩ := by
  obtain ⟨fs1, rec, s1, s2, files, hpre, hrec, hs1, hwd, ⟨ls, hls, hsup⟩, hfile, hnums, hother⟩ := pre_core h search group hpg hplan
  refine ⟨fs1, rec, s1, s2, files, hpre, hs1, hwd, ?_⟩
  intro hmoves Ψ F0 η fs2 force hcalc
  have hchk := accepted_check h.args
  obtain ⟨habs, hp1, hp2⟩ := paths (cwd := cwd) h.slash
  obtain ⟨groups, hg⟩ := h.unit.groups
  obtain ⟨hcall, harg⟩ := C06_supercell_from_arguments h.junk u hg.len.symm a hchk e p h.enlargement h.periodicity h.positive
  obtain ⟨e', p', he', hp', hl, hpl, -⟩ := (C02_check_decides_consistency a).mp hchk
  rw [h.enlargement] at he'; rw [h.periodicity] at hp'; cases he'; cases hp'
  obtain ⟨s0, s1', hs0, hs1', hw, hc1, hlat, hty, hnum, hsel1, hmem, hat, hxyz1⟩ := pre_super_ok hcall h.unit
  rw [hs1] at hs1'; cases hs1'
  have hE : enlarge e p = e.getD 0 0 * e.getD 1 0 * e.getD 2 0 := by
    obtain ⟨a0, a1, a2, rfl⟩ : ∃ a0 a1 a2, e = [a0, a1, a2] := List.length_eq_three.1 hl
    obtain ⟨b0, b1, b2, rfl⟩ : ∃ a0 a1 a2, p = [a0, a1, a2] := List.length_eq_three.1 hpl
    exact enlarge_eq _ _ hcall.cons
  set n : Fin 3 → ℤ := fun i => e.getD i 0 with hn
  set pp : Fin 3 → ℤ := fun i => p.getD i 0 with hpp
  have hn3 : e.getD 0 0 * e.getD 1 0 * e.getD 2 0 = n 0 * n 1 * n 2 := rfl
  rw [hn3] at hE hwd
  obtain ⟨s00, hs00, hlen, -⟩ := C06_supercell_positions hcall
  rw [hs0] at hs00; cases hs00
  set E := (n 0 * n 1 * n 2).toNat with hEdef
  have hEpos : 0 < E := by
    have h0 := hcall.pos 0
    have h1 := hcall.pos 1
    have h2 := hcall.pos 2
    have : 0 < n 0 * n 1 * n 2 := by positivity
    omega
  have hlen1 : s1.cart.length = E * u.cart.length := by rw [hc1, hlen]
  have hx1 : ∀ k, GoodFile s1 (x k) := fun k => ⟨(h.files k).comment, fun t => ((h.files k).species t).trans (hmem t).symm, (h.files k).weight⟩
  have hdec1 : DecCell s1 := by
    have := hdec.super hcall hs0
    exact ⟨fun i j => by rw [hlat]; exact this.1 i j, fun v hv j => this.2 v (by rw [← hc1]; exact hv) j⟩
  -- the unit cell
  obtain ⟨r, hr, hcell⟩ := h.read
  have hru : readFile fs2 o.dft (cwd ++ '/' :: o.unitcell) = (r, none) := by
    rw [← hr, habs]
    apply readFile_congr
    rw [hcalc.unitcell]
    apply hother
    · exact (super_ne_unit h.name).symm
    · intro k _ _
      exact (file_ne_unit _ k).symm
  obtain ⟨m, rm, hrm, hrmcell, hm, hmass⟩ := masses_ok hcell h.unit hxyz
  -- the super cell
  obtain ⟨s1', hs1', ls', hls', hsupread⟩ := C92_supercell_file code h.junk u sel h.unit a hchk e p h.enlargement h.periodicity h.positive (x 0) (h.files 0)
  rw [hs1] at hs1'; cases hs1'
  rw [hls] at hls'; cases hls'
  obtain ⟨rs, sr, s3, hrs, hrscell, hmatch, hs3, h3a, h3x, h3t, h3l, h3n⟩ := hsupread {}
  obtain ⟨lsx, hlsx, hrx⟩ := C92_file_roundtrip code s1 hw (x 0) (hx1 0)
  rw [hls] at hlsx; cases hlsx
  obtain ⟨rs', sr', hrs', hrscell', hround⟩ := hrx {}
  rw [hrs] at hrs'; cases hrs'
  have := isCell_mass hrscell hrscell'
  subst this
  obtain ⟨hsrl, hsrc⟩ := rounded_exact hdec1 hround
  have hs3' : s3 = { sr with selective := true, atomTrue := s1.atomTrue, xyzTrue := s1.xyzTrue } := by
    have hset : setSuperIndTrue sr u n pp = .ok ({ sr with selective := true, atomTrue := s1.atomTrue, xyzTrue := s1.xyzTrue } : Cell ℚ) := by
      unfold setSuperIndTrue
      simp only [enlarge_eq _ _ hcall.cons, h.unit.selected]
      rw [hxyz1, hat]
      rfl
    rw [hs3] at hset
    cases hset
    rfl
  have hc3 : s3.cart = s1.cart := by rw [hs3']; exact hsrc
  have hlat3 : s3.lattice = s1.lattice := by rw [hs3']; exact hsrl
  have hrs2 : readFile fs2 o.dft (cwd ++ '/' :: "SUPERCELL".toList) = (rs, none) := by
    rw [h.code, readFile_text _ (hcalc.supercell.trans hsup)]
    exact hrs
  have hholds : Holds fs1 code (cwd ++ '/' :: "SUPERCELL".toList) sr := ⟨rs, by rw [readFile_text _ hsup]; exact hrs, hrscell⟩
  -- the displaced structures
  have hnum' : ∀ (k : ℕ) (f : ℕ × Cell ℚ), files[k]? = some f → f.1 = k + 1 := by
    intro k f hf
    have h1 : (files.map (·.1))[k]? = some f.1 := by rw [List.getElem?_map, hf]; rfl
    rw [hnums, List.getElem?_map] at h1
    obtain ⟨z, hz, hzf⟩ := Option.map_eq_some_iff.1 h1
    obtain ⟨hz1, hz2⟩ := List.getElem?_eq_some_iff.1 hz
    rw [List.getElem_range] at hz2
    rw [← hzf, hz2]
  have hgood : GoodPlan s1.cart.length sel E pp o.sym search := by rw [hlen1]; exact hplan
  have hdis : ∀ (k : ℕ) (f : ℕ × Cell ℚ), files[k]? = some f → ∃ ls r b, writeFile code (x (k + 1)) f.2 = .ok ls ∧
      fs1 (fileName (cwd ++ '/' :: o.unitcell) (k + 1)) = some ls.flatten ∧ readCell {} code ls.flatten = (r, none) ∧ IsCell r b ∧ Rounded f.2 b := by
    intro k f hf
    obtain ⟨row, δ, -, hmv⟩ := hmoves k f hf
    obtain ⟨ls1, hl1, hfs⟩ := hfile f (List.mem_of_getElem? hf)
    rw [hnum' k f hf] at hl1 hfs
    obtain ⟨ls2, hl2, hrd⟩ := C92_file_roundtrip code f.2 (moved_writable hw hmv) (x (k + 1))
      ⟨(hx1 _).comment, fun y => by rw [hmv.atomType]; exact (hx1 _).species y, (hx1 _).weight⟩
    rw [hl1] at hl2; cases hl2
    obtain ⟨r', b, q1, q2, q3⟩ := hrd {}
    refine ⟨ls1, r', b, hl1, hfs, q1, q2, q3⟩
  obtain ⟨hdict, hdft⟩ := C76_default_arguments_partial cwd cwd o {} {} a pg rec h.args (by rw [h.displacement]; simp) hrec
  have hfiles2 := C76_files_partial cwd o a pg rec h.slash hrec
  have hsym := C78_sym_flag_agrees cwd cwd o a pp group pg rec hpg hrec {}
  have hunit2 : (postResolve cwd {} rec).unitCellFile = cwd ++ '/' :: o.unitcell := (congrArg Prod.fst hfiles2).trans hp1
  have hsuper2 : (postResolve cwd {} rec).superCellFile = cwd ++ '/' :: "SUPERCELL".toList := (congrArg Prod.snd hfiles2).trans hp2
  generalize postResolve cwd {} rec = pa at *
  have hbase : baseName pa.unitCellFile = o.unitcell := by
    rw [hunit2]
    unfold baseName
    have e1 : (cwd ++ '/' :: o.unitcell).reverse = o.unitcell.reverse ++ '/' :: cwd.reverse := by simp
    rw [e1, List.takeWhile_append_of_pos (by intro y hy; have : y ≠ '/' := (by rintro rfl; exact h.slash (by simpa using hy)); simpa using this)]
    simp
  have hstructs : each (readStructure fs2 pa.dft (baseName pa.unitCellFile)) force = .ok (files.map fun f => f.2.cart.map fun v j => rndDec 16 (v j)) := by
    apply each_ok
    · rw [hcalc.length, List.length_map]
    · intro k f b hf hb
      rw [List.getElem?_map] at hb
      obtain ⟨g, hg', rfl⟩ := Option.map_eq_some_iff.1 hb
      obtain ⟨ls', r', b, -, q2, q3, q4, q5⟩ := hdis k g hg'
      unfold readStructure
      rw [hbase, hdft, h.code, readFile_text _ ((hcalc.copied k f hf).trans q2)]
      have q3' : readUnitCell {} code.name (fun _ => Vasp.readInput (readlines ls'.flatten)) (fun _ => Espresso.readInput (readlines ls'.flatten))
        (fun _ => Aims.readInput (readlines ls'.flatten)) = (r', none) := q3
      rw [q3']
      simp only [raising, ok_bind]
      rw [ofRaw_isCell q4]
      simp only [ok_bind]
      rw [q5.cart]
      rfl
  have horder : checkFileOrder s3 sel E d pa.sym search (files.map fun f => f.2.cart.map fun v j => rndDec 16 (v j)) = .ok () := by
    obtain ⟨s2', files', hwd', -, hacc⟩ := C93_displaced_files_accepted code s1 s3 hw ⟨h3l, h3n⟩ sel E d pp o.sym search hgood (fun k => x (k + 1))
      (fun k => hx1 (k + 1)) (fun _ => {})
    rw [hwd] at hwd'; cases hwd'
    rw [hsym]
    apply hacc
    intro k f hf
    obtain ⟨ls', r', b, q1, -, q3, q4, q5⟩ := hdis k f hf
    exact ⟨ls', r', b, q1, q3, q4, by rw [List.getElem?_map, hf, q5.cart]; rfl⟩
  have h3len : s3.atomType.length = s1.cart.length := by
    obtain ⟨gr, hgr⟩ := hw.groups
    rw [h3t, hgr.len]
  have hex : ∀ k : Fin files.length, ∃ G : Rows ℝ,
      (∀ f, force[(k : ℕ)]? = some f → ∃ l, readForces fs2 code.name s1.cart.length f = .ok l ∧ l.length = s1.cart.length ∧ (∀ r ∈ l, r.length = 3) ∧
        stretch s1.cart.length l = G) ∧
      ∀ f, files[(k : ℕ)]? = some f → ∃ b, Rounded f.2 b ∧ ∀ a c,
        (a < s1.cart.length → |G a c - harmonicForces Ψ F0 (toR s1) (toR b) a c| ≤ η) ∧ (s1.cart.length ≤ a → G a c = 0) := by
    intro k
    have hkf : (k : ℕ) < force.length := by rw [hcalc.length]; exact k.2
    have hf : force[(k : ℕ)]? = some force[(k : ℕ)] := List.getElem?_eq_getElem hkf
    obtain ⟨gQ, hgQ⟩ : ∃ gQ, files[(k : ℕ)]? = some gQ := ⟨_, List.getElem?_eq_getElem k.2⟩
    obtain ⟨ls', r', b', -, q2, q3, q4, q5⟩ := hdis k gQ hgQ
    obtain ⟨tx, g, ht, hout, hval⟩ := hcalc.forces k _ hf
    obtain ⟨hgl, hval⟩ := hval sr b' hholds ⟨r', by rw [readFile_text _ q2]; exact q3, q4⟩
    rw [hsrc] at hgl hval
    have hgu : (inUnits code.unit g).length = s1.cart.length := by rw [← hgl]; simp [inUnits]
    have hgw : ∀ r ∈ inUnits code.unit g, r.length = 3 := by
      intro r hr
      unfold inUnits at hr
      obtain ⟨v, -, rfl⟩ := List.mem_map.1 hr
      rfl
    refine ⟨stretch s1.cart.length (inUnits code.unit g), ?_, ?_⟩
    · intro f hf'
      rw [hf] at hf'
      cases hf'
      exact ⟨inUnits code.unit g, by rw [← hgl, readForces_ok ht hout], hgu, hgw, rfl⟩
    · intro f hf'
      rw [hgQ] at hf'
      cases hf'
      refine ⟨b', q5, fun a c => ⟨fun ha => ?_, fun ha => ?_⟩⟩
      · rw [stretch_full hgu hgw, inUnits_get, harmonic_congr _ _ (s := toR s1) (s' := toR sr) (c' := toR b') (by simp [toR, hsrc]) rfl]
        exact hval a ha c
      · rw [stretch_full hgu hgw, inUnits_get, List.getD_eq_default _ _ (by rw [hgl]; exact ha)]
        simp
  choose G hG1 hG2 using hex
  have hFget : ∀ (k : ℕ) (g : Rows ℝ), (List.ofFn G)[k]? = some g → ∃ hk : k < files.length, g = G ⟨k, hk⟩ := by
    intro k g hg
    obtain ⟨hk, e⟩ := List.getElem?_eq_some_iff.1 hg
    have hk' : k < files.length := by simpa using hk
    exact ⟨hk', by rw [← e, List.getElem_ofFn]⟩
  refine ⟨s3, fun i => ((m.getD i 0 : ℚ) : ℝ), List.ofFn G, hc3, hlat3, h3t, h3a, h3x, hmass, by simp, ?_, ?_⟩
  · intro k f g hf hg
    obtain ⟨hk, rfl⟩ := hFget k g hg
    exact hG2 ⟨k, hk⟩ f hf
  intro S j o2 hc2
  have hforces : ∀ sym, allForces fs2 pa.dft sym s3.atomType.length force = .ok (List.ofFn G) := by
    apply allForces_get
    · rw [h3len]
      intro h0
      by_contra hne
      have : 0 < force.length := List.length_pos_of_ne_nil hne
      rw [hcalc.length] at this
      obtain ⟨row, δ, hr, -⟩ := hmoves 0 _ (List.getElem?_eq_getElem this)
      omega
    · rw [hcalc.length, List.length_ofFn]
    · intro k f b hf hb
      obtain ⟨hk, rfl⟩ := hFget k b hb
      rw [hdft, h.code, h3len]
      exact hG1 ⟨k, hk⟩ f hf
  set mass : ℕ → ℝ := fun i => ((m.getD i 0 : ℚ) : ℝ) with hmassdef
  have hc1' : call S (PostProcess.new (toR u) (toR s3) n pp (d : ℝ) mass j.recip j.fc) .reciprocal =
    .ok (PostProcess.new (toR u) (toR s3) n pp (d : ℝ) mass (reciprocal (toR u).lattice) j.fc) := rfl
  have hve : vec (some e) = n := rfl
  have hvp : vec (some p) = pp := rfl
  unfold postSetup newProcess configure
  rw [hunit2, hsuper2, hdft, hru, hrs2]
  simp only [raising, ok_bind]
  rw [hrm]
  simp only [raising, ok_bind]
  rw [ofRaw_isCell hrmcell, ofRaw_isCell hrscell]
  simp only [ok_bind, some?, hm]
  show ((do
    raising (setUserArgument {} pa.dict).2
    _ : Run Process)) = _
  rw [outcome_ok hdict]
  simp only [raising, ok_bind, hchk, hmatch, h.enlargement, h.periodicity, h.displacement, hve, hvp, Option.getD_some, some?, h.unit.selected]
  rw [hs3]
  simp only [ok_bind]
  have hobj : ({ PostProcess.new (toR u) (toR sr) 0 0 0 mass j.recip j.fc with super := toR s3, n := n, p := pp, d := (d : ℝ) } : Object) =
      PostProcess.new (toR u) (toR s3) n pp (d : ℝ) mass j.recip j.fc := rfl
  rw [hobj, hc1']
  simp only [ok_bind]
  rw [← hunit2, ← hdft, hstructs]
  simp only [ok_bind]
  rw [hE, horder]
  simp only [ok_bind]
  rw [hforces]
  simp only [ok_bind]
  rw [hsym, hc2]
  rfl

/-- The post-process up to the force constants, with or without symmetry: the object is made from the real crystal and gets the harmonic forces. -/
theorem post_core {cwd : Str} {o : PreOpts} {code : Code} {a : PreArg} {e p : List ℤ} {d : ℚ} {u : Cell ℚ} {sel : List ℕ} {x : ℕ → FileArgs}
    {junk : ℕ → List (V3 ℚ)} {fs : Fs} (h : BaseRun cwd o code a e p d u sel x junk fs)
    (hxyz : u.xyzTrue = some (sel.flatMap fun a => [a, a, a])) (hdec : DecCell u) (search : Run (List (ℕ × List (V3 ℚ)))) (group : Run Str) {pg : Option Str}
    (hpg : prePointGroup o.sym (fun i => p.getD i 0) group = .ok pg)
    (hplan : GoodPlan ((e.getD 0 0 * e.getD 1 0 * e.getD 2 0).toNat * u.cart.length) sel (e.getD 0 0 * e.getD 1 0 * e.getD 2 0).toNat (fun i => p.getD i 0) o.sym search) :
    ∃ fs1 rec s1 s2 files, preMain cwd o x junk search group fs = .ok (fs1, rec) ∧
      preSuper junk u (fun i => e.getD i 0) (fun i => p.getD i 0) = .ok s1 ∧
      writeDisplaceCell s1 sel (e.getD 0 0 * e.getD 1 0 * e.getD 2 0).toNat d (fun i => p.getD i 0) o.sym search = .ok (s2, files) ∧
      ∀ (_ : DecMoves s1 files) (Ψ : ℕ → Fin 3 → ℕ → Fin 3 → ℝ) (F0 : Rows ℝ) (fs2 : Fs) (force : List Str), Calculated code cwd o.unitcell fs1 fs2 Ψ F0 files.length force →
        ∃ s3 mass, s3.cart = s1.cart ∧ s3.lattice = s1.lattice ∧ s3.atomType = s1.atomType ∧ s3.atomTrue = s1.atomTrue ∧ s3.xyzTrue = s1.xyzTrue ∧ IsMasses u sel mass ∧
          ∀ (S : Solver) (j : Junk) (F : List (Rows ℝ)), F.length = files.length →
            (∀ (k : ℕ) (f : ℕ × Cell ℚ) (g : Rows ℝ), files[k]? = some f → F[k]? = some g → ∀ a c,
              g a c = if a < s1.cart.length then harmonicForces Ψ F0 (toR s1) (toR f.2) a c else 0) →
            ∀ o2, call S (PostProcess.new (toR u) (toR s3) (fun i => e.getD i 0) (fun i => p.getD i 0) (d : ℝ) mass (reciprocal (toR u).lattice) j.fc)
                (.force j.left j.cols (o.sym && numPbc (fun i => p.getD i 0) == 2) F) = .ok o2 →
              postSetup S j (postResolve cwd {} rec) force search fs2 = .ok ⟨a, u, s3, o2⟩ := by
  obtain ⟨fs1, rec, s1, s2, files, hpre, hs1, hwd, hmain⟩ := post_near h hxyz hdec search group hpg hplan
  refine ⟨fs1, rec, s1, s2, files, hpre, hs1, hwd, ?_⟩
  intro hmoves Ψ F0 fs2 force hcalc
  obtain ⟨s3, mass, F', h1, h2, h3, h4, h5, h6, hl, hF', hset⟩ := hmain (fun k f hf => by
    obtain ⟨row, δ, e1, e2, -⟩ := hmoves k f hf
    exact ⟨row, δ, e1, e2⟩) Ψ F0 0 fs2 force hcalc.within
  refine ⟨s3, mass, h1, h2, h3, h4, h5, h6, ?_⟩
  intro S j F hFl hF o2 hc2
  have hdec1 : DecCell s1 := by
    obtain ⟨groups, hg⟩ := h.unit.groups
    obtain ⟨hcall, harg⟩ := C06_supercell_from_arguments h.junk u hg.len.symm a (accepted_check h.args) e p h.enlargement h.periodicity h.positive
    obtain ⟨s0, s1', hs0, hs1', hw, hc1, hlat, -⟩ := pre_super_ok hcall h.unit
    rw [hs1] at hs1'; cases hs1'
    have := hdec.super hcall hs0
    exact ⟨fun i j => by rw [hlat]; exact this.1 i j, fun v hv j => this.2 v (by rw [← hc1]; exact hv) j⟩
  have hFF : F = F' := by
    apply List.ext_getElem (by rw [hFl, hl])
    intro k hk hk'
    have hkf : k < files.length := by rw [← hFl]; exact hk
    obtain ⟨row, δ, -, hmv, hδ⟩ := hmoves k _ (List.getElem?_eq_getElem hkf)
    obtain ⟨b, hb, hval⟩ := hF' k _ _ (List.getElem?_eq_getElem hkf) (List.getElem?_eq_getElem hk')
    have hcart := (rounded_exact (hdec1.moved hδ hmv) hb).2
    funext a c
    rw [hF k _ _ (List.getElem?_eq_getElem hkf) (List.getElem?_eq_getElem hk) a c]
    by_cases ha : a < s1.cart.length
    · rw [if_pos ha]
      have := (hval a c).1 ha
      rw [abs_nonpos_iff, sub_eq_zero] at this
      rw [this]
      exact congrFun (congrFun (harmonic_congr _ _ rfl (by simp [toR, hcart])) a) c
    · rw [if_neg ha, (hval a c).2 (by omega)]
  rw [hFF] at hc2
  exact hset S j o2 hc2

/-- Wave vectors and frequencies of an object with force constants. -/
theorem phonons_ok {u s : Cell ℝ} {n p : Fin 3 → ℤ} {sel : List ℕ} (hsel : u.atomTrue = some sel)
    (hxyz : u.xyzTrue = some (sel.flatMap fun a => [a, a, a])) {d : ℝ} {mass : ℕ → ℝ} {S : Solver} (hS : IsSolver S) {junkF left : FC ℝ} {jc : ℕ → Rows ℝ} {sym : Bool}
    {F : List (Rows ℝ)} {fc : FC ℝ} (hf : forceConstant jc sym F (PostProcess.new u s n p d mass (reciprocal u.lattice) junkF) = .ok fc)
    (fs : Fs) {kfile t : Str} {ks : List (V3 ℚ)} {auto : List ℤ} (hkf : fs kfile = some t)
    (hk : KPoints.setKPoints (readlines t) (fun c => decide (p c ≠ 0)) = .ok (ks, auto)) (hne : ks ≠ []) :
    ∃ o2 o3 o4, call S (PostProcess.new u s n p d mass (reciprocal u.lattice) junkF) (.force left jc sym F) = .ok o2 ∧ phonons S fs kfile o2 = .ok o4 ∧
      o4 = (step S o3 .eval).1 ∧ o3.kPoints = ks ∧ o4.kPoints = ks ∧ o4.auto = auto ∧ o4.p = p ∧ dof o3 = 3 * sel.length ∧ dof o4 = 3 * sel.length ∧
      o4.wq.length = ks.length ∧ PostProcess.data o3 = ofCells u s n p fc mass ∧
      ∀ (i : ℕ) (k : V3 ℚ), ks[i]? = some k → ∃ row, o4.wq[i]? = some row ∧
        IsSpectrum (Matrix.of fun (r c : Fin (3 * sel.length)) => dynMatrix (ofCells u s n p fc mass) (toReal k) r c) row := by
  obtain ⟨hdata, hev, hkp, hwl, hrows⟩ := run_spectrum_of (u := u) (s' := s) (n := n) (p := p) sel hsel hxyz d mass hS 0 junkF left jc
    (readlines t) ks auto hk hne F fc sym hf
  set o1 := PostProcess.new u s n p d mass (reciprocal u.lattice) junkF with ho1
  set o2 := (step S o1 (.force left jc sym F)).1 with ho2
  have hc2 : call S o1 (.force left jc sym F) = .ok o2 := by
    have e1 : (step S o1 (.force left jc sym F)).2 = none := by
      show (setForce left jc sym F o1).2 = none
      unfold setForce
      rw [hf]
    unfold call
    rw [e1]
  have hp2 : o2 = { o1 with fc := fc } := by
    show (setForce left jc sym F o1).1 = _
    unfold setForce
    rw [hf]
  set o3 := (step S o2 (.kPoints (some (readlines t)))).1 with ho3
  have hrun : PostProcess.run S (PostProcess.new u s n p d mass 0 junkF) [.reciprocal, .force left jc sym F, .kPoints (some (readlines t))] = o3 := rfl
  rw [hrun] at hdata hev hkp hwl hrows
  set o4 := (step S o3 .eval).1 with ho4
  have hsk : setK (some (readlines t)) o2 = ({ o2 with kPoints := ks, auto := auto }, none) := by
    unfold setK
    have hk' : KPoints.setKPoints (readlines t) (fun c => decide (o2.p c ≠ 0)) = .ok (ks, auto) := by rw [hp2]; exact hk
    simp only [hk']
  have ho3' : o3 = { o2 with kPoints := ks, auto := auto } := congrArg Prod.fst hsk
  have hc3 : call S o2 (.kPoints (some (readlines t))) = .ok o3 := by
    have e1 : (step S o2 (.kPoints (some (readlines t)))).2 = none := congrArg Prod.snd hsk
    unfold call
    rw [e1]
  have hc4 : call S o3 .eval = .ok o4 := by
    unfold call
    rw [hev]
  have hload : load fs kfile = .ok t := by unfold load; rw [hkf]
  have hst : o4 = { frequencies S o3 with gammaFile := (eval S o3).1.gammaFile } := eval_state S o3
  have hdof3 : dof o3 = 3 * sel.length := by
    rw [ho3', hp2]
    show ((u.xyzTrue).getD []).length = _
    rw [hxyz]
    simp [List.length_flatMap]
    omega
  have hfr : ∃ w v, frequencies S o3 = { o3 with wq := w, vq := v } := by
    unfold frequencies
    split_ifs
    · exact ⟨_, _, rfl⟩
    · exact ⟨o3.wq, o3.vq, rfl⟩
  obtain ⟨w, v, hwv⟩ := hfr
  rw [hwv] at hst
  refine ⟨o2, o3, o4, hc2, ?_, ho4, by rw [ho3'], hkp, by rw [hst, ho3'], by rw [hst, ho3', hp2]; rfl, hdof3, by rw [hst]; exact hdof3, hwl, hdata, hrows⟩
  unfold phonons
  rw [hload]
  simp only [ok_bind]
  rw [hc3]
  simp only [ok_bind]
  rw [hc4]

/-- The post-process (default options, so everything comes from the record) builds its object, and with every k-point file it gets the exact frequencies of the
infinite crystal with springs `Φ` at every wave vector that fits into the super cell. -/
def ExactPhonons (S : Solver) (j : Junk) (cwd : Str) (rec : PreRecord) (force : List Str) (search : Run (List (ℕ × List (V3 ℚ)))) (fs : Fs) (n p : Fin 3 → ℤ)
    (u : Cell ℚ) (sel : List ℕ) (Φ : Springs) : Prop :=
  ∃ P mass, postSetup S j (postResolve cwd {} rec) force search fs = .ok P ∧ IsMasses u sel mass ∧
    (P.obj.unit = toR u ∧ P.obj.mass = mass ∧ P.obj.p = p ∧ P.obj.recip = reciprocal (toR u).lattice) ∧
    ∀ (kfile t : Str) (ks : List (V3 ℚ)) (auto : List ℤ), fs kfile = some t →
    KPoints.setKPoints (readlines t) (fun c => decide (p c ≠ 0)) = .ok (ks, auto) → ks ≠ [] →
    ∃ o2 o3, phonons S fs kfile P.obj = .ok o3 ∧ o3 = (step S o2 .eval).1 ∧ o2.kPoints = ks ∧ o3.kPoints = ks ∧ o3.auto = auto ∧
      o3.p = p ∧ dof o2 = 3 * sel.length ∧ dof o3 = 3 * sel.length ∧ o3.wq.length = ks.length ∧
      ∀ (i : ℕ) (k : V3 ℚ), ks[i]? = some k → Fits n p (toReal k) →
        ∃ row q, o3.wq[i]? = some row ∧ (∀ c, dot3 q ((toR u).lattice c) = 2 * Real.pi * (k c : ℝ)) ∧
          IsSpectrum (trueDyn (toR u) sel mass Φ q (3 * sel.length)) row ∧
          ∀ r c : Fin (3 * sel.length), dynMatrix (PostProcess.data o2) (toReal k) r c = trueDyn (toR u) sel mass Φ q (3 * sel.length) r c

/-- The post-process after the calculations with the forces of an infinite harmonic crystal: the object gets its force constants, and with every k-point file the
frequencies of the wave vectors that fit into the super cell are the exact ones. -/
theorem post_ok {cwd : Str} {o : PreOpts} {code : Code} {a : PreArg} {e p : List ℤ} {d : ℚ} {u : Cell ℚ} {sel : List ℕ} {x : ℕ → FileArgs}
    {junk : ℕ → List (V3 ℚ)} {fs : Fs} (h : PreRun cwd o code a e p d u sel x junk fs) (hd : d ≠ 0) (hdet : u.lattice.det ≠ 0)
    (hxyz : u.xyzTrue = some (sel.flatMap fun a => [a, a, a])) (hdec : DecCell u) (hd16 : Dec16 d)
    (Φ : Springs) (hΦ : ∀ a x b y l, l ∈ (Φ a x b y).support → ∀ i : Fin 3, p.getD i 0 = 0 → l i = 0) (F0 : Rows ℝ)
    (search : Run (List (ℕ × List (V3 ℚ)))) (group : Run Str) {S : Solver} (hS : IsSolver S) (j : Junk) :
    ∃ fs1 rec, preMain cwd o x junk search group fs = .ok (fs1, rec) ∧
      ∀ (fs2 : Fs) (force : List Str),
        Calculated code cwd o.unitcell fs1 fs2 (superSprings (fun i => e.getD i 0) (e.getD 0 0 * e.getD 1 0 * e.getD 2 0).toNat Φ) F0 (6 * sel.length) force →
        ExactPhonons S j cwd rec force search fs2 (fun i => e.getD i 0) (fun i => p.getD i 0) u sel Φ := by
  obtain ⟨groups, hg⟩ := h.unit.groups
  obtain ⟨hcall, harg⟩ := C06_supercell_from_arguments h.junk u hg.len.symm a (accepted_check h.args) e p h.enlargement h.periodicity h.positive
  set n : Fin 3 → ℤ := fun i => e.getD i 0 with hn
  set pp : Fin 3 → ℤ := fun i => p.getD i 0 with hpp
  have hn3 : e.getD 0 0 * e.getD 1 0 * e.getD 2 0 = n 0 * n 1 * n 2 := rfl
  set E := (n 0 * n 1 * n 2).toNat with hEdef
  have hEpos : 0 < E := by
    have h0 := hcall.pos 0
    have h1 := hcall.pos 1
    have h2 := hcall.pos 2
    have : 0 < n 0 * n 1 * n 2 := by positivity
    omega
  obtain ⟨fs1, rec, s1, s2, files, hpre, hs1, hwd0, hmain⟩ := post_core h.toBaseRun hxyz hdec search group (pg := none) (by unfold prePointGroup; rw [h.noSym]; rfl)
    (noSym_plan h fun t ht => Nat.mul_lt_mul_of_pos_left (h.unit.bound t ht) hEpos)
  rw [hn3] at hwd0
  have hwd : writeDisplaceCell s1 sel E d pp false search = .ok (s2, files) := by
    rw [← hwd0]
    unfold writeDisplaceCell
    rw [h.noSym]; rfl
  refine ⟨fs1, rec, hpre, ?_⟩
  intro fs2 force hcalc
  rw [hn3] at hcalc
  obtain ⟨s0, s1', hs0, hs1', hw, hc1, hlat, hty, hnum, hsel1, hmem, hat, hxyz1⟩ := pre_super_ok hcall h.unit
  rw [hs1] at hs1'; cases hs1'
  obtain ⟨s00, hs00, hlen, -⟩ := C06_supercell_positions hcall
  rw [hs0] at hs00; cases hs00
  have hlen1 : s1.cart.length = E * u.cart.length := by rw [hc1, hlen]
  have hin : ∀ t ∈ sel, E * t < s1.cart.length := by
    intro t ht
    rw [hlen1]
    exact Nat.mul_lt_mul_of_pos_left (h.unit.bound t ht) hEpos
  have hfl : files.length = 6 * sel.length := by
    obtain ⟨s2', files', e1, e2, -⟩ := C15_displaced_files s1 sel E d pp false search (.inl rfl) hin
    rw [hwd] at e1; cases e1
    exact e2
  have hmoves : DecMoves s1 files := by
    intro k f hf
    obtain ⟨hkl, -⟩ := List.getElem?_eq_some_iff.1 hf
    obtain ⟨f', hf', hmv⟩ := file_move s1 sel E d pp search hin hwd k (by omega)
    rw [hf] at hf'; cases hf'
    refine ⟨_, _, ?_, hmv, fun c => ?_⟩
    · apply hin
      rw [List.getD_eq_getElem _ _ (by omega)]
      exact List.getElem_mem _
    · split_ifs
      · exact hd16.axis _ _
      · exact hd16.neg.axis _ _
  rw [← hfl] at hcalc
  obtain ⟨s3, mass, hc3, hlat3, h3t, h3a, h3x, hmass, hset⟩ := hmain hmoves _ F0 fs2 force hcalc
  -- the real crystal
  obtain ⟨hcallR, hsR⟩ := toR_super hcall hs0
  have hs1eq : s1 = { s0 with selective := true, atomTrue := s1.atomTrue, xyzTrue := s1.xyzTrue } := by
    have h1 := hs1
    rw [preSuper, hs0] at h1
    have hset : setSuperIndTrue s0 u n pp = .ok ({ s0 with selective := true, atomTrue := s1.atomTrue, xyzTrue := s1.xyzTrue } : Cell ℚ) := by
      unfold setSuperIndTrue
      simp only [enlarge_eq _ _ hcall.cons, h.unit.selected]
      rw [hxyz1, hat]
      rfl
    have h2 : setSuperIndTrue s0 u n pp = .ok s1 := h1
    rw [hset] at h2
    exact (Except.ok.inj h2).symm
  have hsR' : setSuperIndTrue ({ toR s0 with atomTrue := none, xyzTrue := none } : Cell ℝ) (toR u) n pp = .ok (toR s1) := by
    have hself : (toR u).atomTrue = some sel := h.unit.selected
    have hR : toR s1 = { toR s0 with selective := true, atomTrue := s1.atomTrue, xyzTrue := s1.xyzTrue } := by
      conv_lhs => rw [hs1eq]
      rfl
    rw [hR, hxyz1, hat]
    unfold setSuperIndTrue
    simp only [enlarge_eq _ _ hcall.cons, hself]
    rfl
  have hdetR : (toR u).lattice.det ≠ 0 := by
    have e1 : (toR u).lattice.det = ((u.lattice.det : ℚ) : ℝ) := by
      rw [Matrix.det_fin_three, Matrix.det_fin_three]
      simp only [toR]
      push_cast
      ring
    rw [e1]
    exact_mod_cast hdet
  set Φ' : Springs := fun a x b y => if a < u.cart.length then Φ a x b y else 0 with hΦ'
  set F0' : Rows ℝ := fun a c => if a < s1.cart.length then F0 a c else 0 with hF0'
  obtain ⟨sw, filesR, fc, hwR, hfc, hmat⟩ := C97_exact_dynamical_matrix hcallR hdetR sel h.unit.selected (by intro t ht; simpa [toR] using h.unit.bound t ht) hxyz hsR hsR' Φ'
    (by
      intro a x b y l hl i hi
      simp only [hΦ'] at hl
      split_ifs at hl
      · exact hΦ a x b y l hl i hi
      · simp at hl) (d : ℝ) (by exact_mod_cast hd) F0' j.fc (.ok []) mass
  have hinR : ∀ t ∈ sel, E * t < (toR s1).cart.length := by
    intro t ht
    simpa [toR] using hin t ht
  have hflR : filesR.length = 6 * sel.length := by
    obtain ⟨s'', files', h1, h2, -⟩ := C15_displaced_files (toR s1) sel E (d : ℝ) pp false (.ok []) (.inl rfl) hinR
    rw [hwR] at h1; cases h1
    exact h2
  set forces := filesR.map fun f => harmonicForces (superSprings n E Φ') F0' (toR s1) f.2 with hforcesdef
  have hF : ∀ (k : ℕ) (f : ℕ × Cell ℚ) (g : Rows ℝ), files[k]? = some f → forces[k]? = some g → ∀ a c,
      g a c = if a < s1.cart.length then harmonicForces (superSprings n E Φ) F0 (toR s1) (toR f.2) a c else 0 := by
    intro k f g hf hg a c
    rw [hforcesdef, List.getElem?_map] at hg
    obtain ⟨gR, hgR, rfl⟩ := Option.map_eq_some_iff.1 hg
    have hk6 : k < 6 * sel.length := by rw [← hflR]; exact (List.getElem?_eq_some_iff.1 hgR).1
    obtain ⟨gR', e1, hmvR⟩ := file_move (toR s1) sel E (d : ℝ) pp (.ok []) hinR hwR k hk6
    rw [hgR] at e1; cases e1
    obtain ⟨gQ, hgQ, hmv⟩ := file_move s1 sel E d pp search hin hwd k hk6
    rw [hf] at hgQ; cases hgQ
    have hrow : E * sel.getD (k / 6) 0 < (toR s1).cart.length := by
      apply hinR
      rw [List.getD_eq_getElem _ _ (by omega)]
      exact List.getElem_mem _
    have hcast : toReal (axis (if k % 2 = 0 then d else -d) ⟨k % 6 / 2, by omega⟩) = axis (if k % 2 = 0 then (d : ℝ) else -d) ⟨k % 6 / 2, by omega⟩ := by
      rw [toReal_axis]
      split_ifs <;> push_cast <;> rfl
    have hmv2 := toR_moved hmv
    rw [hcast] at hmv2
    by_cases ha : a < s1.cart.length
    · rw [if_pos ha, harmonic_moved _ _ _ _ _ _ hrow hmv2, harmonic_moved _ _ _ _ _ _ hrow hmvR]
      have hF : F0' a c = F0 a c := if_pos ha
      have hS : ∀ r' y, superSprings n E Φ' a c r' y = superSprings n E Φ a c r' y := by
        intro r' y
        rw [hΦ', super_cut n hEpos, if_pos (by rw [Nat.mul_comm, ← hlen1]; exact ha)]
      simp only [hF, hS]
    · rw [if_neg ha, harmonic_moved _ _ _ _ _ _ hrow hmvR]
      have hF : F0' a c = 0 := if_neg ha
      have hS : ∀ r' y, superSprings n E Φ' a c r' y = 0 := by
        intro r' y
        rw [hΦ', super_cut n hEpos, if_neg (by rw [Nat.mul_comm, ← hlen1]; exact ha)]
      simp only [hF, hS]
      simp
  have hofC : ∀ mass : ℕ → ℝ, ofCells (toR u) (toR s3) n pp fc mass = ofCells (toR u) (toR s1) n pp fc mass := by
    intro mass
    have e1 : (toR s3).cart = (toR s1).cart := by simp [toR, hc3]
    have e2 : (toR s3).lattice = (toR s1).lattice := by
      show (fun i j => ((s3.lattice i j : ℚ) : ℝ)) = fun i j => ((s1.lattice i j : ℚ) : ℝ)
      rw [hlat3]
    have e3 : (toR s3).xyzTrue = (toR s1).xyzTrue := h3x
    simp only [ofCells, e1, e2, e3]
  have hfcst : forceConstant j.cols false forces (PostProcess.new (toR u) (toR s3) n pp (d : ℝ) mass (reciprocal (toR u).lattice) j.fc) = .ok fc := by
    unfold forceConstant
    rw [if_neg (by simp)]
    have hself : (toR u).atomTrue = some sel := h.unit.selected
    show setPlain _ ((toR u).atomTrue.getD []).length _ _ = _
    rw [hself]
    exact hfc
  obtain ⟨o2, hc2⟩ : ∃ o2, call S (PostProcess.new (toR u) (toR s3) n pp (d : ℝ) mass (reciprocal (toR u).lattice) j.fc) (.force j.left j.cols false forces) = .ok o2 := by
    refine ⟨(step S (PostProcess.new (toR u) (toR s3) n pp (d : ℝ) mass (reciprocal (toR u).lattice) j.fc) (.force j.left j.cols false forces)).1, ?_⟩
    have e1 : (step S (PostProcess.new (toR u) (toR s3) n pp (d : ℝ) mass (reciprocal (toR u).lattice) j.fc) (.force j.left j.cols false forces)).2 = none := by
      show (setForce j.left j.cols false forces _).2 = none
      unfold setForce
      rw [hfcst]
    unfold call
    rw [e1]
  have hpost := hset S j forces (by rw [hforcesdef, List.length_map, hflR, hfl]) hF o2 (by rw [h.noSym]; exact hc2)
  have hinp : o2.unit = toR u ∧ o2.mass = mass ∧ o2.p = pp ∧ o2.recip = reciprocal (toR u).lattice := by
    have e2 : o2 = (step S (PostProcess.new (toR u) (toR s3) n pp (d : ℝ) mass (reciprocal (toR u).lattice) j.fc) (.force j.left j.cols false forces)).1 := by
      unfold call at hc2
      split at hc2
      · exact (Except.ok.inj hc2).symm
      · cases hc2
    rw [e2]
    show (setForce j.left j.cols false forces _).1.unit = _ ∧ (setForce j.left j.cols false forces _).1.mass = _ ∧ (setForce j.left j.cols false forces _).1.p = _ ∧
      (setForce j.left j.cols false forces _).1.recip = _
    unfold setForce
    rw [hfcst]
    exact ⟨rfl, rfl, rfl, rfl⟩
  refine ⟨_, mass, hpost, hmass, hinp, ?_⟩
  intro kfile t ks auto hkf hk hne
  obtain ⟨o2', o3, o4, hc2', hph, ho4, hk3, hkp, hauto, hp4, hdof3, hdof4, hwl, hdata, hrows⟩ := phonons_ok (u := toR u) (s := toR s3) (n := n) (p := pp)
    h.unit.selected hxyz hS (left := j.left) hfcst fs2 hkf hk hne
  rw [hc2] at hc2'; cases hc2'
  refine ⟨o3, o4, hph, ho4, hk3, hkp, hauto, hp4, hdof3, hdof4, hwl, ?_⟩
  intro i k hi hfit
  obtain ⟨row, hr1, hr2⟩ := hrows i k hi
  have hmatk := hmat (toReal k) hfit (3 * sel.length) le_rfl
  have hdat : ∀ r c : Fin (3 * sel.length), dynMatrix (PostProcess.data o3) (toReal k) r c =
      (Matrix.of fun (r c : Fin (3 * sel.length)) => dynMatrix (ofCells (toR u) (toR s1) n pp fc mass) (toReal k) r c) r c := by
    intro r c
    rw [hdata, hofC]
    rfl
  refine ⟨row, qVec (ofCells (toR u) (toR s1) n pp fc mass) (toReal k), hr1, ?_, ?_⟩
  · intro c
    exact q_exists (toR u).lattice hdetR _ rfl (toReal k) c
  · rw [hofC, hmat (toReal k) hfit _ le_rfl] at hr2
    have hcut : trueDyn (toR u) sel mass Φ' (qVec (ofCells (toR u) (toR s1) n pp fc mass) (toReal k)) (3 * sel.length) =
        trueDyn (toR u) sel mass Φ (qVec (ofCells (toR u) (toR s1) n pp fc mass) (toReal k)) (3 * sel.length) := by
      ext r c
      have hr3 : (r : ℕ) / 3 < sel.length := by have := r.2; omega
      have hlt : sel.getD ((r : ℕ) / 3) 0 < u.cart.length := by
        rw [List.getD_eq_getElem _ _ hr3]
        exact h.unit.bound _ (List.getElem_mem _)
      simp only [trueDyn, Matrix.of_apply, hΦ', if_pos hlt]
    rw [hcut] at hr2
    refine ⟨hr2, fun r c => ?_⟩
    rw [hdat, hmatk, hcut]

/-- The frequencies of the band, from the phonons. -/
theorem band_core {S : Solver} {j : Junk} {cwd : Str} {rec : PreRecord} {force : List Str} {search : Run (List (ℕ × List (V3 ℚ)))} {fs2 : Fs} {n p : Fin 3 → ℤ}
    {u : Cell ℚ} {sel : List ℕ} {Φ : Springs} (hmain : ExactPhonons S j cwd rec force search fs2 n p u sel Φ) {glob : Str → List Str} {args : List Str}
    (hforce : forceFiles glob args = .ok force) (kband t : Str) (ks : List (V3 ℚ)) (auto : List ℤ) (hkf : fs2 (absPath cwd kband) = some t)
    (hk : KPoints.setKPoints (readlines t) (fun c => decide (p c ≠ 0)) = .ok (ks, auto)) (hk2 : 2 ≤ ks.length) :
    ∃ obj rows mass, bandMain S j cwd {} rec glob args kband search fs2 = .ok (obj, rows) ∧ IsMasses u sel mass ∧ rows.length = ks.length ∧
      ∀ (i : ℕ) (k : V3 ℚ), ks[i]? = some k → Fits n p (toReal k) →
        ∃ len row q, rows[i]? = some (len, row) ∧ (∀ c, dot3 q ((toR u).lattice c) = 2 * Real.pi * (k c : ℝ)) ∧
          IsSpectrum (trueDyn (toR u) sel mass Φ q (3 * sel.length)) row := by
  obtain ⟨P, mass, hpost, hmass, -, hrest⟩ := hmain
  obtain ⟨o3, o4, hph, -, -, hkp, -, -, -, -, hwl, hrows⟩ := hrest (absPath cwd kband) t ks auto hkf hk (by rintro rfl; simp at hk2)
  obtain ⟨b, hb1, hb2, -⟩ := C81_path_partial (o4.kPoints.map toReal) (by rw [List.length_map, hkp]; exact hk2) o4.wq.length (dof o4) (dof o4)
    (fun k f m => ((o4.vq.getD k []).getD f []).getD m 0) j.band
  rw [List.length_map, hkp] at hb2
  refine ⟨o4, b.len.zip o4.wq, mass, ?_, hmass, ?_, ?_⟩
  · unfold bandMain bandOf
    rw [hforce]
    simp only [ok_bind]
    rw [hpost]
    simp only [ok_bind]
    rw [hph]
    simp only [ok_bind]
    rw [hb1]
    rfl
  · rw [List.length_zip, hb2, hwl, min_self]
  · intro i k hi hfit
    obtain ⟨row, q, hr1, hq, hr2, -⟩ := hrows i k hi hfit
    have hil : i < b.len.length := by rw [hb2]; exact (List.getElem?_eq_some_iff.1 hi).1
    refine ⟨b.len[i], row, q, ?_, hq, hr2⟩
    rw [List.getElem?_zip_eq_some]
    exact ⟨List.getElem?_eq_getElem hil, hr1⟩

/-- **C118.**  From the command line to the band.  The pre-process runs; after the calculations with the forces of an infinite harmonic crystal, the post-process
(default options, so everything comes from the record of the pre-process) runs and returns one row per wave vector of the k-point file: the row of every wave vector
that fits into the super cell is the ascending list of the exact frequencies of the infinite crystal. -/
theorem C118_end_to_end {cwd : Str} {o : PreOpts} {code : Code} {a : PreArg} {e p : List ℤ} {d : ℚ} {u : Cell ℚ} {sel : List ℕ} {x : ℕ → FileArgs}
    {junk : ℕ → List (V3 ℚ)} {fs : Fs} (h : PreRun cwd o code a e p d u sel x junk fs) (hd : d ≠ 0) (hdet : u.lattice.det ≠ 0)
    (hxyz : u.xyzTrue = some (sel.flatMap fun a => [a, a, a])) (hdec : DecCell u) (hd16 : Dec16 d)
    (Φ : Springs) (hΦ : ∀ a x b y l, l ∈ (Φ a x b y).support → ∀ i : Fin 3, p.getD i 0 = 0 → l i = 0) (F0 : Rows ℝ)
    (search : Run (List (ℕ × List (V3 ℚ)))) (group : Run Str) {S : Solver} (hS : IsSolver S) (j : Junk) :
    ∃ fs1 rec, preMain cwd o x junk search group fs = .ok (fs1, rec) ∧
      ∀ (fs2 : Fs) (glob : Str → List Str) (args force : List Str), forceFiles glob args = .ok force →
        Calculated code cwd o.unitcell fs1 fs2 (superSprings (fun i => e.getD i 0) (e.getD 0 0 * e.getD 1 0 * e.getD 2 0).toNat Φ) F0 (6 * sel.length) force →
        ∀ (kband t : Str) (ks : List (V3 ℚ)) (auto : List ℤ), fs2 (absPath cwd kband) = some t →
          KPoints.setKPoints (readlines t) (fun c => decide (p.getD c 0 ≠ 0)) = .ok (ks, auto) → 2 ≤ ks.length →
          ∃ obj rows mass, bandMain S j cwd {} rec glob args kband search fs2 = .ok (obj, rows) ∧ IsMasses u sel mass ∧ rows.length = ks.length ∧
            ∀ (i : ℕ) (k : V3 ℚ), ks[i]? = some k → Fits (fun i => e.getD i 0) (fun i => p.getD i 0) (toReal k) →
              ∃ len row q, rows[i]? = some (len, row) ∧ (∀ c, dot3 q ((toR u).lattice c) = 2 * Real.pi * (k c : ℝ)) ∧
                IsSpectrum (trueDyn (toR u) sel mass Φ q (3 * sel.length)) row := by
  obtain ⟨fs1, rec, hpre, hmain⟩ := post_ok h hd hdet hxyz hdec hd16 Φ hΦ F0 search group hS j
  refine ⟨fs1, rec, hpre, ?_⟩
  intro fs2 glob args force hforce hcalc kband t ks auto hkf hk hk2
  exact band_core (hmain fs2 force hcalc) hforce kband t ks auto hkf hk hk2

end Interphon.Props
