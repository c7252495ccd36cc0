import Verif.Props.Vasp
import Verif.Props.Espresso
import Verif.Props.Aims
import Verif.Props.UnitCell
import Verif.Props.FileOrder
import Verif.Model.Main

/-!
# Properties C92, C93: from the pre-process to the post-process through files

The text of the files is in between: what the pre-process writes is what the post-process reads.
-/

namespace Interphon.Props
open Py Interphon Interphon.UnitCell Interphon.SuperCell Interphon.PreProcess Interphon.Args Interphon.Inout
open Interphon.Main (FileArgs)

/-- The three file formats. -/
inductive Code | vasp | espresso | aims

/-- The value of `code_name`. -/
def Code.name : Code → Str
  | .vasp => "vasp".toList
  | .espresso => "espresso".toList
  | .aims => "aims".toList

/-- The comment is one line, the species are those of the structure, the weights decimal texts. -/
structure GoodFile (c : Cell ℚ) (x : FileArgs) : Prop where
  comment : '\n' ∉ x.comment
  species : ∀ t, t ∈ x.species ↔ t ∈ c.atomType
  weight : ∀ t, ∀ y ∈ x.weight t, IsDigit y ∨ y = '.'

/-- `write_unit_cell(…, code_name)`. -/
def writeFile (code : Code) (x : FileArgs) (c : Cell ℚ) : Run (List Str) :=
  match code with
  | .vasp => Vasp.writeInput c x.comment
  | .espresso => Espresso.writeInput c x.species x.weight
  | .aims => Aims.writeInput c

/-- `read_unit_cell(…, code_name)` of an object with previous content `r`, on a file with the given text. -/
def readCell (r : RawCell) (code : Code) (text : Str) : UnitCell.Outcome :=
  readUnitCell r code.name (fun _ => Vasp.readInput (readlines text)) (fun _ => Espresso.readInput (readlines text))
    (fun _ => Aims.readInput (readlines text))

/-- The attributes of an object are exactly those of the structure `c`. -/
structure IsCell (r : RawCell) (c : Cell ℚ) : Prop where
  lattice : r.lattice = some ((List.finRange 3).map fun i => [c.lattice i 0, c.lattice i 1, c.lattice i 2])
  atomType : r.atomType = some c.atomType
  numAtom : r.numAtom = some c.numAtom
  selective : r.selective = c.selective
  coordinate : r.coordinate = some c.coordinate
  cart : r.cart = some (c.cart.map fun v => [v 0, v 1, v 2])
  atomTrue : r.atomTrue = c.atomTrue.map fun l => l.map fun a : ℕ => (a : ℤ)
  xyzTrue : r.xyzTrue = c.xyzTrue.map fun l => l.map fun a : ℕ => (a : ℤ)

/-- `b` is the structure `c` after one trip through a file: same types and selected atoms, lattice and positions rounded to 16 decimals. -/
structure Rounded (c b : Cell ℚ) : Prop where
  lattice : ∀ i j, b.lattice i j = rndDec 16 (c.lattice i j)
  atomType : b.atomType = c.atomType
  coordinate : b.coordinate = .cartesian
  cart : b.cart = c.cart.map fun v j => rndDec 16 (v j)
  atomTrue : b.atomTrue = some (selectedAtoms c)
  xyzTrue : b.xyzTrue = some ((selectedAtoms c).flatMap fun a => [a, a, a])

/-- A structure that can be written: groups of elements, and a valid selection. -/
structure Writable (c : Cell ℚ) : Prop where
  groups : ∃ groups, IsStructure c groups
  names : ∀ t ∈ c.atomType, ∃ k, NamesElement t k
  sel : c.selective = true → ∃ sel, c.atomTrue = some sel ∧ sel.Pairwise (· < ·) ∧ ∀ a ∈ sel, a < c.cart.length

theorem selected_sorted {c : Cell ℚ} (h : c.selective = true → ∃ sel, c.atomTrue = some sel ∧ sel.Pairwise (· < ·) ∧ ∀ a ∈ sel, a < c.cart.length) :
    (selectedAtoms c).Pairwise (· < ·) ∧ ∀ a ∈ selectedAtoms c, a < c.cart.length := by
  unfold selectedAtoms
  by_cases hs : c.selective = true
  · obtain ⟨sel, e, h1, h2⟩ := h hs
    rw [if_pos hs, e]
    exact ⟨h1, h2⟩
  · rw [if_neg hs]
    exact ⟨List.pairwise_lt_range, fun a ha => List.mem_range.1 ha⟩

private theorem sorted_cast {l : List ℕ} (h : l.Pairwise (· ≤ ·)) : UnitCell.sorted (l.map fun a : ℕ => (a : ℤ)) = l.map fun a : ℕ => (a : ℤ) := by
  unfold UnitCell.sorted
  apply List.Pairwise.insertionSort_eq
  rw [List.pairwise_map]
  exact h.imp fun hab => by exact_mod_cast hab

private theorem pairwise_three {l : List ℕ} (h : l.Pairwise (· < ·)) : (l.flatMap fun a => [a, a, a]).Pairwise (· ≤ ·) := by
  rw [List.pairwise_flatMap]
  refine ⟨fun a _ => by simp, h.imp ?_⟩
  intro a b hab x hx y hy
  simp at hx hy
  omega

/-- What the parsers return for a written structure. -/
structure Stored (c : Cell ℚ) (P : Parsed) : Prop where
  lattice : P.lattice = (List.finRange 3).map fun i => [rndDec 16 (c.lattice i 0), rndDec 16 (c.lattice i 1), rndDec 16 (c.lattice i 2)]
  atomType : P.atomType = c.atomType
  coordinate : P.coordinate = "cartesian".toList
  cart : P.cart = c.cart.map fun v => [rndDec 16 (v 0), rndDec 16 (v 1), rndDec 16 (v 2)]
  atomTrue : P.atomTrue = (selectedAtoms c).map fun a : ℕ => (a : ℤ)
  xyzTrue : P.xyzTrue = ((selectedAtoms c).flatMap fun a => [a, a, a]).map fun a : ℕ => (a : ℤ)

theorem assign_stored {c : Cell ℚ} {P : Parsed} (h : Stored c P) (hne : c.atomType ≠ []) (hlen : c.cart.length = c.atomType.length)
    (hs : (selectedAtoms c).Pairwise (· < ·)) (hb : ∀ a ∈ selectedAtoms c, a < c.cart.length) :
    ∃ r b, assignParsed {} P = (r, none) ∧ IsCell r b ∧ Rounded c b := by
  refine ⟨⟨some P.lattice, some P.atomType, some P.numAtom, P.selective, some .cartesian, some P.cart, some P.atomTrue, some P.xyzTrue, none⟩,
    ⟨fun i j => rndDec 16 (c.lattice i j), P.atomType, P.numAtom, P.selective, .cartesian, c.cart.map fun v j => rndDec 16 (v j),
      some (selectedAtoms c), some ((selectedAtoms c).flatMap fun a => [a, a, a])⟩, ?_, ?_, ?_⟩
  · have h1 : hasShape P.lattice 3 = true := by
      rw [h.lattice]; simp [hasShape]
    have h2 : hasShape P.cart P.atomType.length = true := by
      have h0 : c.cart ≠ [] := fun h0 => hne (List.length_eq_zero_iff.1 (by rw [← hlen, h0]; rfl))
      rw [h.cart, h.atomType]; simp [hasShape, hlen, h0]
    have h3 : P.atomTrue.all (fun i => decide (0 ≤ i ∧ i < P.atomType.length)) = true := by
      rw [h.atomTrue, h.atomType]
      simp only [List.all_eq_true, decide_eq_true_eq, List.mem_map]
      rintro i ⟨a, ha, rfl⟩
      have := hb a ha
      omega
    have e3 : UnitCell.sorted P.atomTrue = P.atomTrue := by
      rw [h.atomTrue]; exact sorted_cast (hs.imp le_of_lt)
    have e4 : UnitCell.sorted P.xyzTrue = P.xyzTrue := by
      rw [h.xyzTrue]; exact sorted_cast (pairwise_three hs)
    have h4 : P.xyzTrue.all (fun i => decide (i ∈ P.atomTrue)) = true := by
      rw [h.xyzTrue, h.atomTrue]
      simp only [List.all_eq_true, decide_eq_true_eq, List.mem_map, List.mem_flatMap]
      rintro i ⟨a, ⟨b, hb', hab⟩, rfl⟩
      simp at hab
      subst hab
      exact ⟨a, hb', rfl⟩
    unfold assignParsed
    simp only [seqOut, setLattice, h1, if_true, setAtomType, setNumAtom, setSelective]
    rw [h.coordinate]
    have hc : ∀ s : RawCell, setCoordinate s "cartesian".toList = ({ s with coordinate := some .cartesian }, none) := by
      intro s; rfl
    simp only [hc, seqOut, setCart, h2, if_true, setAtomTrue, h3, setXyzTrue, e3, h4, e4]
  · exact ⟨by rw [h.lattice], rfl, rfl, rfl, rfl, by rw [h.cart]; simp, by rw [h.atomTrue]; rfl, by rw [h.xyzTrue]; rfl⟩
  · exact ⟨fun _ _ => rfl, h.atomType, rfl, rfl, rfl, rfl⟩

/-- Every non-empty list of types is a list of runs. -/
theorem runs_exist : ∀ (l : List Str), l ≠ [] → ∃ groups, IsRuns l groups := by
  intro l
  induction l with
  | nil => intro h; exact absurd rfl h
  | cons t rest ih =>
    intro _
    by_cases hr : rest = []
    · subst hr
      exact ⟨[(t, 1)], by simp, by simp, by simp, by simp⟩
    · obtain ⟨groups, h1, h2, h3, h4⟩ := ih hr
      cases groups with
      | nil => exact absurd rfl h1
      | cons g gs =>
        by_cases ht : t = g.1
        · refine ⟨(g.1, g.2 + 1) :: gs, by simp, ?_, ?_, ?_⟩
          · intro x hx
            rcases List.mem_cons.1 hx with rfl | hx
            · simp
            · exact h2 x (List.mem_cons_of_mem _ hx)
          · rw [h3, ht]; simp [List.replicate_succ]
          · cases gs with
            | nil => simp
            | cons g' gs' =>
              rw [List.isChain_cons_cons] at h4 ⊢
              exact h4
        · refine ⟨(t, 1) :: g :: gs, by simp, ?_, ?_, ?_⟩
          · intro x hx
            rcases List.mem_cons.1 hx with rfl | hx
            · simp
            · exact h2 x hx
          · rw [h3]; simp
          · rw [List.isChain_cons_cons]; exact ⟨ht, h4⟩

private theorem read_ok {c : Cell ℚ} {rd : Run Parsed} {P : Parsed} (h2 : rd = .ok P) (h : Stored c P) (hne : c.atomType ≠ []) (hlen : c.cart.length = c.atomType.length)
    (hs : (selectedAtoms c).Pairwise (· < ·)) (hb : ∀ a ∈ selectedAtoms c, a < c.cart.length) :
    ∃ r b, (match rd with | .error x => (({}, some x) : UnitCell.Outcome) | .ok p => assignParsed {} p) = (r, none) ∧ IsCell r b ∧ Rounded c b := by
  subst h2
  exact assign_stored h hne hlen hs hb

/-- **C92 (one file).**  In every format, a structure is written, and reading the text into an object with any previous content raises nothing and leaves
exactly that structure with lattice and positions rounded to 16 decimals. -/
theorem C92_file_roundtrip (code : Code) (c : Cell ℚ) (h : Writable c) (x : FileArgs) (hx : GoodFile c x) :
    ∃ ls, writeFile code x c = .ok ls ∧ ∀ r0, ∃ r b, readCell r0 code ls.flatten = (r, none) ∧ IsCell r b ∧ Rounded c b := by
  obtain ⟨groups, hg⟩ := h.groups
  obtain ⟨hs, hb⟩ := selected_sorted h.sel
  have hne : c.atomType ≠ [] := by
    rw [hg.types]
    intro h0
    obtain ⟨g, gs, e⟩ := List.exists_cons_of_ne_nil hg.nonempty
    have hpos := hg.positive g (by rw [e]; simp)
    rw [e, List.flatMap_cons] at h0
    have := (List.append_eq_nil_iff.1 h0).1
    rw [List.replicate_eq_nil_iff] at this
    omega
  obtain ⟨runs, hr⟩ := runs_exist _ hne
  cases code with
  | vasp =>
    obtain ⟨ls, h1, h2⟩ := C57_roundtrip c groups hg x.comment hx.comment h.sel
    refine ⟨ls, h1, fun r0 => ?_⟩
    obtain ⟨r, b, a1, a2, a3⟩ := read_ok (c := c) h2 ⟨rfl, rfl, rfl, rfl, rfl, rfl⟩ hne hg.len hs hb
    exact ⟨r, b, ((C13_known_code _ _ _ _).1).trans a1, a2, a3⟩
  | espresso =>
    obtain ⟨ls, h1, h2⟩ := C58_roundtrip c runs hr hg.len h.names h.sel x.species hx.species x.weight hx.weight
    refine ⟨ls, h1, fun r0 => ?_⟩
    obtain ⟨r, b, a1, a2, a3⟩ := read_ok (c := c) h2 ⟨rfl, rfl, rfl, rfl, rfl, rfl⟩ hne hg.len hs hb
    exact ⟨r, b, ((C13_known_code _ _ _ _).2.1).trans a1, a2, a3⟩
  | aims =>
    obtain ⟨ls, h1, h2⟩ := C59_roundtrip c runs hr hg.len h.names h.sel
    refine ⟨ls, h1, fun r0 => ?_⟩
    obtain ⟨r, b, a1, a2, a3⟩ := read_ok (c := c) h2 ⟨rfl, rfl, rfl, rfl, rfl, rfl⟩ hne hg.len hs hb
    exact ⟨r, b, ((C13_known_code _ _ _ _).2.2).trans a1, a2, a3⟩

/-! ### The super cell -/

/-- The unit cell of the pre-process: a structure of elements with a valid, increasing selection. -/
structure GoodUnit (u : Cell ℚ) (sel : List ℕ) : Prop where
  groups : ∃ groups, IsStructure u groups
  names : ∀ t ∈ u.atomType, ∃ k, NamesElement t k
  selected : u.atomTrue = some sel
  sorted : sel.Pairwise (· < ·)
  bound : ∀ a ∈ sel, a < u.cart.length

/-- `set_super_cell` followed by `set_super_ind_true`, `core/pre_process.py:110-111`. -/
def preSuper (junk : ℕ → List (V3 ℚ)) (u : Cell ℚ) (n p : Fin 3 → ℤ) : Run (Cell ℚ) :=
  match setSuperCell junk u n p with
  | .error e => .error e
  | .ok s => setSuperIndTrue s u n p

theorem super_structure {junk : ℕ → List (V3 ℚ)} {u s : Cell ℚ} {n p : Fin 3 → ℤ} (h : GoodCall junk u n p) (hs : setSuperCell junk u n p = .ok s)
    {groups : List (Str × ℕ)} (hg : IsStructure u groups) :
    IsStructure s (groups.map fun g => (g.1, g.2 * (n 0 * n 1 * n 2).toNat)) ∧ ∀ t, t ∈ s.atomType ↔ t ∈ u.atomType := by
  have hpos : 0 < n 0 * n 1 * n 2 := by
    have h0 := h.pos 0
    have h1 := h.pos 1
    have h2 := h.pos 2
    positivity
  have hE : 0 < (n 0 * n 1 * n 2).toNat := by omega
  have hlen := (C07_supercell_counts_types h hs).2.1
  rw [setSuperCell_eq h] at hs
  have hlen2 : s.cart.length = s.atomType.length := hlen.symm
  cases hs
  generalize hm : n 0 * n 1 * n 2 = m at *
  have hty : (u.atomType.flatMap fun t => (rangeInt m).map fun _ => t) =
      (groups.map fun g => (g.1, g.2 * m.toNat)).flatMap fun g => List.replicate g.2 g.1 := by
    rw [hg.types, List.flatMap_assoc, List.flatMap_map]
    congr 1
    funext g
    have : ∀ (k : ℕ) (t : Str), ((List.replicate k t).flatMap fun t => (rangeInt m).map fun _ => t) = List.replicate (k * m.toNat) t := by
      intro k t
      induction k with
      | zero => simp
      | succ k ih =>
        rw [List.replicate_succ, List.flatMap_cons, ih, rangeInt, List.map_const', List.length_range, List.replicate_append_replicate]
        congr 1; ring
    exact this _ _
  refine ⟨⟨by simpa using hg.nonempty, ?_, ?_, hty, ?_, hlen2⟩, ?_⟩
  · intro g hgm
    obtain ⟨g0, h0, rfl⟩ := List.mem_map.1 hgm
    exact Nat.mul_pos (hg.positive g0 h0) hE
  · intro g hgm
    obtain ⟨g0, h0, rfl⟩ := List.mem_map.1 hgm
    exact hg.token g0 h0
  · show u.numAtom.map (· * m) = _
    rw [hg.counts, List.map_map, List.map_map]
    refine List.map_congr_left fun g _ => ?_
    simp only [Function.comp]
    push_cast
    rw [Int.toNat_of_nonneg hpos.le]
  · intro t
    show t ∈ (u.atomType.flatMap fun t => (rangeInt m).map fun _ => t) ↔ _
    simp only [List.mem_flatMap, List.mem_map, rangeInt, List.mem_range]
    constructor
    · rintro ⟨a, ha, k, -, rfl⟩; exact ha
    · intro ht; exact ⟨t, ht, 0, hE, rfl⟩

theorem pre_super_ok {junk : ℕ → List (V3 ℚ)} {u : Cell ℚ} {n p : Fin 3 → ℤ} (h : GoodCall junk u n p) {sel : List ℕ} (hu : GoodUnit u sel) :
    ∃ s0 s1, setSuperCell junk u n p = .ok s0 ∧ preSuper junk u n p = .ok s1 ∧ Writable s1 ∧ s1.cart = s0.cart ∧ s1.lattice = s0.lattice ∧
      s1.atomType = s0.atomType ∧ s1.numAtom = s0.numAtom ∧ s1.selective = true ∧ (∀ t, t ∈ s1.atomType ↔ t ∈ u.atomType) ∧
      s1.atomTrue = some (sel.flatMap fun i => (rangeInt (n 0 * n 1 * n 2)).map fun k => i * (n 0 * n 1 * n 2).toNat + k) ∧
      s1.xyzTrue = s1.atomTrue.map fun l => l.flatMap fun a => [a, a, a] := by
  obtain ⟨s0, hs0, hlen, -⟩ := C06_supercell_positions h
  obtain ⟨groups, hg⟩ := hu.groups
  obtain ⟨hst, hty⟩ := super_structure h hs0 hg
  obtain ⟨s1, at', h1, h2, h3, h4, -, h6, h7, h8, h9, h10⟩ := C09_selection (s := s0) h.pos h.cons sel hu.selected hu.sorted
  have hE : 0 < (n 0 * n 1 * n 2).toNat := by
    have h0 := h.pos 0
    have h1 := h.pos 1
    have h2 := h.pos 2
    have : 0 < n 0 * n 1 * n 2 := by positivity
    omega
  refine ⟨s0, s1, hs0, by rw [preSuper, hs0]; exact h1, ⟨⟨groups.map fun g => (g.1, g.2 * (n 0 * n 1 * n 2).toNat), ?_⟩, ?_, ?_⟩, h7, h8, h9, h10, h6, fun t => by rw [h9]; exact hty t, ?_, ?_⟩
  · exact ⟨hst.nonempty, hst.positive, hst.token, by rw [h9]; exact hst.types, by rw [h10]; exact hst.counts, by rw [h7, h9]; exact hst.len⟩
  · intro t ht
    rw [h9, hty] at ht
    exact hu.names t ht
  · intro _
    refine ⟨at', h2, h4, fun a ha => ?_⟩
    have := hu.bound _ ((h3 a).1 ha)
    rw [h7, hlen]
    rw [mul_comm]
    exact Nat.lt_mul_of_div_lt this hE
  · unfold setSuperIndTrue at h1
    simp only [enlarge_eq n p h.cons, hu.selected] at h1
    cases h1
    rfl
  · unfold setSuperIndTrue at h1
    simp only [enlarge_eq n p h.cons, hu.selected] at h1
    cases h1
    rfl

/-- **C92 (super cell).**  For every accepted argument object with positive factors, every unit cell and every format: the super-cell file written by the
pre-process is read by the post-process without an exception, whatever its objects held before; `check_match_argument` accepts the read lattice; and after
`set_super_ind_true` the post-process works with the same atom types and the same selected atoms as the pre-process, at positions that differ by at most half
a unit of the 16th decimal. -/
theorem C92_supercell_file (code : Code) {junk : ℕ → List (V3 ℚ)} (hj : ∀ m, (junk m).length = m) (u : Cell ℚ) (sel : List ℕ) (hu : GoodUnit u sel)
    (a : PreArg) (hchk : checkUserArgument a = none) (e p : List ℤ) (he : a.enlargement = some e) (hp : a.periodicity = some p) (hpos : ∀ m ∈ e, 0 < m)
    (x : FileArgs) (hx : GoodFile u x) :
    ∃ s1, preSuper junk u (fun i => e.getD i 0) (fun i => p.getD i 0) = .ok s1 ∧ ∃ ls, writeFile code x s1 = .ok ls ∧
      ∀ r0, ∃ r s2 s3, readCell r0 code ls.flatten = (r, none) ∧ IsCell r s2 ∧ checkMatchArgument a u.lattice s2.lattice = none ∧
        setSuperIndTrue s2 u (fun i => e.getD i 0) (fun i => p.getD i 0) = .ok s3 ∧
        s3.atomTrue = s1.atomTrue ∧ s3.xyzTrue = s1.xyzTrue ∧ s3.atomType = s1.atomType ∧ s3.cart.length = s1.cart.length ∧
        ∀ (i : ℕ) (v w : V3 ℚ), s1.cart[i]? = some v → s3.cart[i]? = some w → ∀ c, |w c - v c| ≤ 1 / 2 / 10 ^ 16 := by
  obtain ⟨groups, hg⟩ := hu.groups
  obtain ⟨hcall, -⟩ := C06_supercell_from_arguments hj u hg.len.symm a hchk e p he hp hpos
  obtain ⟨e', p', he', hp', hl, hpl, -⟩ := (C02_check_decides_consistency a).mp hchk
  rw [he] at he'; rw [hp] at hp'; cases he'; cases hp'
  obtain ⟨s0, s1, hs0, hs1, hw, hc1, hlat, hty, hnum, hsel1, hmem, hat, hxyz⟩ := pre_super_ok hcall hu
  have hx1 : GoodFile s1 x := ⟨hx.comment, fun t => (hx.species t).trans (hmem t).symm, hx.weight⟩
  obtain ⟨ls, hls, hrd⟩ := C92_file_roundtrip code s1 hw x hx1
  refine ⟨s1, hs1, ls, hls, fun r0 => ?_⟩
  obtain ⟨r, s2, hr, hcell, hround⟩ := hrd r0
  have hset : setSuperIndTrue s2 u (fun i => e.getD i 0) (fun i => p.getD i 0) =
      .ok ({ s2 with selective := true, atomTrue := s1.atomTrue, xyzTrue := s1.xyzTrue } : Cell ℚ) := by
    unfold setSuperIndTrue
    simp only [enlarge_eq _ _ hcall.cons, hu.selected]
    rw [hxyz, hat]
    rfl
  refine ⟨r, s2, _, hr, hcell, ?_, hset, rfl, rfl, hround.atomType, by simp [hround.cart], ?_⟩
  · rw [(C10_check_match_decides a e p he hl hp hpl _ _).1]
    intro i j
    have h1 : s1.lattice i j = u.lattice i j * (e.getD i 0 : ℚ) := by
      rw [hlat, (C07_supercell_counts_types hcall hs0).2.2.2.2.2 i j]; ring
    rw [hround.lattice, ← h1, abs_sub_comm]
    have h2 := C57_rounding_error (s1.lattice i j)
    have h3 : (0 : ℚ) ≤ 1 / 100000 * |rndDec 16 (s1.lattice i j)| := by positivity
    have h4 : (1 / 2 / 10 ^ 16 : ℚ) ≤ 1 / 100000000 := by norm_num
    linarith
  · intro i v w hv hwi c
    have hwi' : s2.cart[i]? = some w := hwi
    rw [hround.cart, List.getElem?_map, hv] at hwi'
    simp only [Option.map_some, Option.some.injEq] at hwi'
    rw [← hwi']
    exact C57_rounding_error (v c)

/-! ### The displaced super cells -/

/-- The displacement plan is valid for a super cell with `N` atoms: without symmetry the home images exist; with symmetry the rows of the plan exist. -/
def GoodPlan (N : ℕ) (sel : List ℕ) (E : ℕ) (p : Fin 3 → ℤ) (symFlag : Bool) (search : Run (List (ℕ × List (V3 ℚ)))) : Prop :=
  ((symFlag = false ∨ numPbc p ≠ 2) ∧ ∀ t ∈ sel, E * t < N) ∨
    (symFlag = true ∧ numPbc p = 2 ∧ ∃ plan, search = .ok plan ∧ ∀ q ∈ plan, q.1 < N)

/-- Two super cells with the same number of atoms get the same displacements, file by file. -/
theorem same_moves (s t : Cell ℚ) (hst : t.cart.length = s.cart.length) (sel : List ℕ) (E : ℕ) (d : ℚ) (p : Fin 3 → ℤ) (symFlag : Bool)
    (search : Run (List (ℕ × List (V3 ℚ)))) (hgood : GoodPlan s.cart.length sel E p symFlag search) :
    ∃ s' files t' tiles, writeDisplaceCell s sel E d p symFlag search = .ok (s', files) ∧
      writeDisplaceCell t sel E d p symFlag search = .ok (t', tiles) ∧ files.length = tiles.length ∧
      ∀ k < files.length, ∃ f g row δ, files[k]? = some f ∧ tiles[k]? = some g ∧ IsMoved s row δ f.2 ∧ IsMoved t row δ g.2 := by
  rcases hgood with ⟨hsym, hsel⟩ | ⟨hsym, hp, plan, rfl, hplan⟩
  · obtain ⟨s', files, h1, h2, h3⟩ := C15_displaced_files s sel E d p symFlag search hsym hsel
    obtain ⟨t', tiles, h1', h2', h3'⟩ := C15_displaced_files t sel E d p symFlag search hsym (by rw [hst]; exact hsel)
    refine ⟨s', files, t', tiles, h1, h1', by rw [h2, h2'], fun k hk => ?_⟩
    have hi : k / 6 < sel.length := by omega
    have hj : k % 6 / 2 < 3 := by omega
    obtain ⟨⟨c, a1, a2⟩, ⟨c', a3, a4⟩⟩ := h3 (k / 6) _ ⟨k % 6 / 2, hj⟩ (List.getElem?_eq_getElem hi)
    obtain ⟨⟨b, b1, b2⟩, ⟨b', b3, b4⟩⟩ := h3' (k / 6) _ ⟨k % 6 / 2, hj⟩ (List.getElem?_eq_getElem hi)
    rcases (by omega : k % 2 = 0 ∨ k % 2 = 1) with hb | hb
    · have e : 6 * (k / 6) + 2 * (k % 6 / 2) = k := by omega
      simp only [e] at a1 b1
      exact ⟨_, _, _, _, a1, b1, a2, b2⟩
    · have e : 6 * (k / 6) + 2 * (k % 6 / 2) + 1 = k := by omega
      simp only [e] at a3 b3
      exact ⟨_, _, _, _, a3, b3, a4, b4⟩
  · subst hsym
    obtain ⟨s', files, h1, h2, h3⟩ := C15_displaced_files_sym s sel E d p hp plan hplan
    obtain ⟨t', tiles, h1', h2', h3'⟩ := C15_displaced_files_sym t sel E d p hp plan (by rw [hst]; exact hplan)
    refine ⟨s', files, t', tiles, h1, h1', by rw [h2, h2'], fun k hk => ?_⟩
    have hfl : (plan.flatMap fun q => q.2.map fun v => (q.1, v)).length = (plan.map fun q => q.2.length).sum := by
      simp [List.length_flatMap]
    have hk2 : k / 2 < (plan.flatMap fun q => q.2.map fun v => (q.1, v)).length := by omega
    obtain ⟨⟨c, a1, a2⟩, ⟨c', a3, a4⟩⟩ := h3 (k / 2) _ _ (List.getElem?_eq_getElem hk2)
    obtain ⟨⟨b, b1, b2⟩, ⟨b', b3, b4⟩⟩ := h3' (k / 2) _ _ (List.getElem?_eq_getElem hk2)
    rcases (by omega : k % 2 = 0 ∨ k % 2 = 1) with hb | hb
    · have e : 2 * (k / 2) = k := by omega
      simp only [e] at a1 b1
      exact ⟨_, _, _, _, a1, b1, a2, b2⟩
    · have e : 2 * (k / 2) + 1 = k := by omega
      simp only [e] at a3 b3
      exact ⟨_, _, _, _, a3, b3, a4, b4⟩

/-- Positions of `t` are those of `s` up to rounding. -/
def Near (s t : Cell ℚ) : Prop := t.cart.length = s.cart.length ∧
  ∀ (i : ℕ) (v w : V3 ℚ), s.cart[i]? = some v → t.cart[i]? = some w → ∀ c, |w c - v c| ≤ 1 / 2 / 10 ^ 16

theorem moved_agree {s t f g : Cell ℚ} {row : ℕ} {δ : V3 ℚ} (hn : Near s t) (hf : IsMoved s row δ f) (hg : IsMoved t row δ g) :
    Agree g.cart (f.cart.map fun v j => rndDec 16 (v j)) := by
  have row_lt : ∀ {a b : Cell ℚ}, IsMoved a row δ b → ∀ i : ℕ, b.cart[i]? = none ↔ a.cart[i]? = none := by
    intro a b h i
    by_cases hi : i = row
    · obtain ⟨v, h1, h2⟩ := h.moved
      rw [hi, h1, h2]; simp
    · rw [h.others i hi]
  have len : ∀ {a b : Cell ℚ}, IsMoved a row δ b → b.cart.length = a.cart.length := by
    intro a b h
    apply le_antisymm
    · exact List.getElem?_eq_none_iff.1 ((row_lt h _).2 (List.getElem?_eq_none_iff.2 le_rfl))
    · exact List.getElem?_eq_none_iff.1 ((row_lt h _).1 (List.getElem?_eq_none_iff.2 le_rfl))
  refine ⟨by rw [List.length_map, len hf, len hg, hn.1], ?_⟩
  intro i x y hx hy c
  rw [List.getElem?_map] at hy
  obtain ⟨y0, hy0, rfl⟩ := Option.map_eq_some_iff.1 hy
  have key : |x c - y0 c| ≤ 1 / 2 / 10 ^ 16 := by
    by_cases hi : i = row
    · subst hi
      obtain ⟨v, h1, h2⟩ := hf.moved
      obtain ⟨w, h3, h4⟩ := hg.moved
      rw [h2] at hy0; rw [h4] at hx
      cases hy0; cases hx
      have := hn.2 i v w h1 h3 c
      rw [show w c + δ c - (v c + δ c) = w c - v c by ring]
      exact this
    · rw [hf.others i hi] at hy0
      rw [hg.others i hi] at hx
      exact hn.2 i y0 x hy0 hx c
  have h2 := C57_rounding_error (y0 c)
  have h3 : |x c - rndDec 16 (y0 c)| ≤ |x c - y0 c| + |rndDec 16 (y0 c) - y0 c| := by
    rw [show x c - rndDec 16 (y0 c) = (x c - y0 c) - (rndDec 16 (y0 c) - y0 c) by ring]
    exact abs_sub _ _
  have h4 : (0 : ℚ) ≤ 1 / 10 ^ 5 * |rndDec 16 (y0 c)| := by positivity
  have h5 : (1 / 2 / 10 ^ 16 + 1 / 2 / 10 ^ 16 : ℚ) ≤ 1 / 10 ^ 8 := by norm_num
  linarith

theorem moved_writable {s f : Cell ℚ} {row : ℕ} {δ : V3 ℚ} (hs : Writable s) (hf : IsMoved s row δ f) : Writable f := by
  obtain ⟨groups, hg⟩ := hs.groups
  have hlen : f.cart.length = s.cart.length := by
    have h : ∀ i : ℕ, f.cart[i]? = none ↔ s.cart[i]? = none := by
      intro i
      by_cases hi : i = row
      · obtain ⟨v, h1, h2⟩ := hf.moved
        rw [hi, h1, h2]; simp
      · rw [hf.others i hi]
    apply le_antisymm
    · exact List.getElem?_eq_none_iff.1 ((h _).2 (List.getElem?_eq_none_iff.2 le_rfl))
    · exact List.getElem?_eq_none_iff.1 ((h _).1 (List.getElem?_eq_none_iff.2 le_rfl))
  refine ⟨⟨groups, hg.nonempty, hg.positive, hg.token, by rw [hf.atomType]; exact hg.types, by rw [hf.numAtom]; exact hg.counts,
    by rw [hlen, hf.atomType]; exact hg.len⟩, by rw [hf.atomType]; exact hs.names, fun h => ?_⟩
  rw [hf.selective] at h; cases h

/-- **C93.**  Let `s` be the super cell of the pre-process and `t` that of the post-process (read from the super-cell file, C92: the same up to rounding).  Every
displaced super cell is written, in every format, with every admissible comment line and species order; every text is read back without an exception by an
object with any previous content; and the order check of the post-process accepts the read structures in the order in which the files were written. -/
theorem C93_displaced_files_accepted (code : Code) (s t : Cell ℚ) (hs : Writable s) (hn : Near s t) (sel : List ℕ) (E : ℕ) (d : ℚ) (p : Fin 3 → ℤ)
    (symFlag : Bool) (search : Run (List (ℕ × List (V3 ℚ)))) (hgood : GoodPlan s.cart.length sel E p symFlag search)
    (x : ℕ → FileArgs) (hx : ∀ k, GoodFile s (x k)) (r0 : ℕ → RawCell) :
    ∃ s' files, writeDisplaceCell s sel E d p symFlag search = .ok (s', files) ∧
      (∀ (k : ℕ) (f : ℕ × Cell ℚ), files[k]? = some f → ∃ ls r b, writeFile code (x k) f.2 = .ok ls ∧ readCell (r0 k) code ls.flatten = (r, none) ∧ IsCell r b) ∧
      ∀ structs : List (List (V3 ℚ)),
        (∀ (k : ℕ) (f : ℕ × Cell ℚ), files[k]? = some f → ∃ ls r b, writeFile code (x k) f.2 = .ok ls ∧ readCell (r0 k) code ls.flatten = (r, none) ∧ IsCell r b ∧
          structs[k]? = some b.cart) →
        Cli.checkFileOrder t sel E d (symFlag && numPbc p == 2) search structs = .ok () := by
  obtain ⟨s', files, t', tiles, h1, h2, hlen, h3⟩ := same_moves s t hn.1 sel E d p symFlag search hgood
  have hfile : ∀ (k : ℕ) (f : ℕ × Cell ℚ), files[k]? = some f → ∃ ls, writeFile code (x k) f.2 = .ok ls ∧
      ∀ r0, ∃ r b, readCell r0 code ls.flatten = (r, none) ∧ IsCell r b ∧ Rounded f.2 b := by
    intro k f hf
    obtain ⟨f', g, row, δ, e1, e2, m1, m2⟩ := h3 k (List.getElem?_eq_some_iff.1 hf).1
    rw [hf] at e1; cases e1
    exact C92_file_roundtrip code f.2 (moved_writable hs m1) (x k)
      ⟨(hx k).comment, fun y => by rw [m1.atomType]; exact (hx k).species y, (hx k).weight⟩
  refine ⟨s', files, h1, ?_, ?_⟩
  · intro k f hf
    obtain ⟨ls, a1, a2⟩ := hfile k f hf
    obtain ⟨r, b, a3, a4, -⟩ := a2 (r0 k)
    exact ⟨ls, r, b, a1, a3, a4⟩
  · intro structs hst
    rw [C18_check_iff t sel E d p symFlag search t' tiles h2]
    intro k g hg
    have hk : k < files.length := by rw [hlen]; exact (List.getElem?_eq_some_iff.1 hg).1
    obtain ⟨f, g', row, δ, e1, e2, m1, m2⟩ := h3 k hk
    rw [hg] at e2; cases e2
    obtain ⟨ls, r, b, c1, c2, c3, c4⟩ := hst k f e1
    obtain ⟨ls', a1, a2⟩ := hfile k f e1
    rw [c1] at a1; cases a1
    obtain ⟨r', b', a3, a4, a5⟩ := a2 (r0 k)
    rw [c2] at a3; cases a3
    have hb : b.cart = b'.cart := by
      have := c3.cart.symm.trans a4.cart
      simp only [Option.some.injEq] at this
      have hinj : Function.Injective fun v : V3 ℚ => [v 0, v 1, v 2] := by
        intro v w h
        simp only [List.cons.injEq, and_true] at h
        funext c
        fin_cases c
        · exact h.1
        · exact h.2.1
        · exact h.2.2
      exact List.map_injective_iff.2 hinj this
    refine ⟨b.cart, c4, ?_⟩
    rw [hb, a5.cart]
    exact moved_agree hn m1 m2

/-! ### Non-vacuity -/

example : GoodUnit exampleStructure [1] where
  groups := ⟨_, exampleStructure_ok⟩
  names := by
    have hGa : NamesElement "Ga".toList 31 := ⟨by decide, _, rfl, "Ga".toList, by decide +kernel, rfl⟩
    have hAs : NamesElement "As".toList 33 := ⟨by decide, _, rfl, "As".toList, by decide +kernel, rfl⟩
    intro t ht
    simp only [exampleStructure, List.mem_cons, List.not_mem_nil, or_false] at ht
    rcases ht with rfl | rfl | rfl
    · exact ⟨_, hGa⟩
    · exact ⟨_, hAs⟩
    · exact ⟨_, hAs⟩
  selected := rfl
  sorted := by simp
  bound := by decide

example : GoodFile exampleStructure ⟨"Supercell".toList, ["As".toList, "Ga".toList], fun t => if t = "Ga".toList then "69.723".toList else "74.92".toList⟩ where
  comment := by decide
  species := by intro t; simp only [exampleStructure, List.mem_cons, List.not_mem_nil, or_false]; tauto
  weight := by
    intro t y hy
    simp only at hy
    have hd : ∀ z ∈ "69.723".toList ++ "74.92".toList, IsDigit z ∨ z = '.' := by
      intro z hz
      have : ∀ z ∈ "69.723".toList ++ "74.92".toList, z ∈ (List.range 10).map digitChar ∨ z = '.' := by decide +kernel
      rcases this z hz with h | h
      · obtain ⟨n, -, e⟩ := List.mem_map.1 h
        exact Or.inl ⟨n, e.symm⟩
      · exact Or.inr h
    split at hy
    · exact hd y (List.mem_append_left _ hy)
    · exact hd y (List.mem_append_right _ hy)

example : GoodPlan (2 * 3) [1] 2 ![1, 0, 0] true (.ok []) := Or.inl ⟨Or.inr (by decide), by decide⟩

end Interphon.Props
