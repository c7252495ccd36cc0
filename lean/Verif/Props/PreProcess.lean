import Verif.Lemmas.PreProcess
import Verif.Lemmas.Str
import Verif.Props.SuperCell
import Verif.Props.UnitCell
import Mathlib.Data.List.Sort

/-! # Properties C15–C17, C80: pre-process -/

namespace Interphon.Props
open Py Interphon Interphon.Args Interphon.SuperCell Interphon.PreProcess

section
variable {K : Type*} [Field K]

/-- `c` is the structure `s` with exactly one atom (row `row`) moved by `δ`; lattice, types, counts and
all other positions are those of `s`; the structure is written without selective flags. -/
structure IsMoved (s : Cell K) (row : ℕ) (δ : V3 K) (c : Cell K) : Prop where
  lattice : c.lattice = s.lattice
  atomType : c.atomType = s.atomType
  numAtom : c.numAtom = s.numAtom
  coordinate : c.coordinate = s.coordinate
  selective : c.selective = false
  others : ∀ r, r ≠ row → c.cart[r]? = s.cart[r]?
  moved : ∃ v, s.cart[row]? = some v ∧ c.cart[row]? = some (fun j => v j + δ j)

private theorem isMoved_movedCell (s : Cell K) (row : ℕ) (hrow : row < s.cart.length) (δ : V3 K) :
    IsMoved s row δ (movedCell { s with selective := false } s.cart row (s.cart.getD row 0) δ) := by
  refine ⟨rfl, rfl, rfl, rfl, rfl, ?_, ?_⟩
  · intro r hr
    simp [movedCell, List.getElem?_set, hr.symm]
  · refine ⟨s.cart[row], List.getElem?_eq_getElem hrow, ?_⟩
    simp [movedCell, List.getElem?_set, hrow, List.getD_eq_getElem?_getD]

/-- Cartesian unit vector along axis `j`, scaled by `d`. -/
def axis (d : K) (j : Fin 3) : V3 K := fun c => if c = j then d else 0

private theorem axis_eq (d : K) (j : Fin 3) : axis d j = fun c => d * (![(![1, 0, 0] : V3 K), ![0, 1, 0], ![0, 0, 1]] j) c := by
  funext c
  fin_cases j <;> fin_cases c <;> simp [axis]

/-- **C15** (the branch): `numPbc`, in the statements below, is the number of directions whose periodicity entry is not zero - whatever the entry is. -/
theorem C15_periodic_directions (p : Fin 3 → ℤ) : numPbc p = (Finset.univ.filter fun i => p i ≠ 0).card := by
  unfold numPbc
  rw [Finset.card_filter, Fin.sum_univ_three]
  by_cases h0 : p 0 = 0 <;> by_cases h1 : p 1 = 0 <;> by_cases h2 : p 2 = 0 <;> simp [h0, h1, h2]

example : numPbc ![1, 0, -3] = 2 := by decide

/-- **C15.** Without symmetry (flag off, or not exactly two periodic directions), `write_displace_cell`
writes exactly `6n` files for `n` selected atoms; for the `i`-th selected atom `t` and axis `j`, the file
in position `6i+2j` has number `6i+2j+1` and is the super cell with only the home image `E*t` moved by `+d`
along axis `j`, and the next file has number `6i+2j+2` and the move is `-d`. -/
theorem C15_displaced_files (s : Cell K) (sel : List ℕ) (E : ℕ) (d : K) (p : Fin 3 → ℤ) (symFlag : Bool)
    (search : Run (List (ℕ × List (V3 K)))) (hsym : symFlag = false ∨ numPbc p ≠ 2)
    (hsel : ∀ t ∈ sel, E * t < s.cart.length) :
    ∃ s' files, writeDisplaceCell s sel E d p symFlag search = .ok (s', files) ∧
      files.length = 6 * sel.length ∧
      ∀ (i t : ℕ) (j : Fin 3), sel[i]? = some t →
        (∃ c, files[6 * i + 2 * j]? = some (6 * i + 2 * j + 1, c) ∧ IsMoved s (E * t) (axis d j) c) ∧
        (∃ c, files[6 * i + 2 * j + 1]? = some (6 * i + 2 * j + 2, c) ∧ IsMoved s (E * t) (axis (-d) j) c) := by
  have hcond : (symFlag && numPbc p == 2) = false := by
    rcases hsym with h | h
    · simp [h]
    · simp [h]
  unfold writeDisplaceCell
  simp only [hcond, Bool.false_eq_true, if_false]
  rw [atomLoop_ok { s with selective := false } d s.cart E sel 0 _ hsel ⟨_, rfl⟩]
  refine ⟨_, _, rfl, ?_, ?_⟩
  · simp [length_allFiles]
  · intro i t j hi
    have hlt : E * t < s.cart.length := hsel t (List.mem_of_getElem? hi)
    simp only [List.nil_append]
    rw [show 6 * i + 2 * (j : ℕ) + 1 = 6 * i + (2 * j + 1) by ring]
    rw [getElem?_allFiles _ _ _ _ sel 0 i t (2 * j) hi (by omega), getElem?_allFiles _ _ _ _ sel 0 i t (2 * j + 1) hi (by omega)]
    have hneg : axis (-d) j = fun c => - (d * (![(![1, 0, 0] : V3 K), ![0, 1, 0], ![0, 0, 1]] j) c) := by
      rw [axis_eq]; funext c; ring
    rw [hneg, axis_eq]
    constructor
    · refine ⟨_, ?_, isMoved_movedCell s (E * t) hlt _⟩
      fin_cases j <;> simp [atomFiles, pairFiles]
    · refine ⟨_, ?_, isMoved_movedCell s (E * t) hlt _⟩
      fin_cases j <;> simp [atomFiles, pairFiles]

/-- **C15** (with symmetry).  With the symmetry branch, the `k`-th (atom row, direction) of the displacement
plan gives files number `2k+1` and `2k+2`: the super cell with only that row moved by `±d·direction`. -/
theorem C15_displaced_files_sym (s : Cell K) (sel : List ℕ) (E : ℕ) (d : K) (p : Fin 3 → ℤ) (hp : numPbc p = 2)
    (plan : List (ℕ × List (V3 K))) (hplan : ∀ q ∈ plan, q.1 < s.cart.length) :
    ∃ s' files, writeDisplaceCell s sel E d p true (.ok plan) = .ok (s', files) ∧
      files.length = 2 * (plan.map fun q => q.2.length).sum ∧
      ∀ (k row : ℕ) (dir : V3 K), (plan.flatMap fun q => q.2.map fun v => (q.1, v))[k]? = some (row, dir) →
        (∃ c, files[2 * k]? = some (2 * k + 1, c) ∧ IsMoved s row (fun x => d * dir x) c) ∧
        (∃ c, files[2 * k + 1]? = some (2 * k + 2, c) ∧ IsMoved s row (fun x => - (d * dir x)) c) := by
  unfold writeDisplaceCell
  simp only [hp, Bool.true_and, beq_self_eq_true, if_true]
  obtain ⟨c, hc⟩ := symAtomLoop_ok { s with selective := false } d s.cart plan 0 ({ s with selective := false }, [])
    hplan ⟨_, rfl⟩
  refine ⟨_, _, hc, ?_, ?_⟩
  · simp [length_symFiles, flatPlan, List.length_flatMap]
  · intro k row dir hk
    have hrow : row < s.cart.length := by
      have := List.mem_of_getElem? hk
      simp only [List.mem_flatMap, List.mem_map] at this
      obtain ⟨q, hq, v, -, he⟩ := this
      cases he
      exact hplan q hq
    have hk' : (flatPlan plan)[k]? = some (row, dir) := hk
    have h0 := getElem?_symFiles { s with selective := false } s.cart d (flatPlan plan) 0 k row dir 0 hk' (by omega)
    have h1 := getElem?_symFiles { s with selective := false } s.cart d (flatPlan plan) 0 k row dir 1 hk' (by omega)
    simp only [List.nil_append, zero_add, Nat.add_zero] at h0 h1 ⊢
    rw [h0, h1]
    refine ⟨⟨_, by simp [pairFiles], isMoved_movedCell s row hrow _⟩, ⟨_, by simp [pairFiles], isMoved_movedCell s row hrow _⟩⟩

/-- **C15 end to end**: the super cell built from an accepted argument object always satisfies the
hypothesis of `C15_displaced_files`, for any selection of unit-cell atoms. -/
theorem C15_home_rows_exist [CharZero K] {junk : ℕ → List (V3 K)} {u : Cell K} {n p : Fin 3 → ℤ} (h : GoodCall junk u n p)
    {s : Cell K} (hs : setSuperCell junk u n p = .ok s) (t : ℕ) (ht : t < u.cart.length) :
    (n 0 * n 1 * n 2).toNat * t < s.cart.length := by
  obtain ⟨s', hs', hlen, -⟩ := C06_supercell_positions h
  rw [hs] at hs'; cases hs'
  rw [hlen]
  have h0 := h.pos 0
  have h1 := h.pos 1
  have h2 := h.pos 2
  have : 0 < (n 0 * n 1 * n 2).toNat := by
    have : 0 < n 0 * n 1 * n 2 := by positivity
    omega
  exact Nat.mul_lt_mul_of_pos_left ht this

example : ∀ t ∈ [1], 1 * t < exampleCell.cart.length := by decide

/-- Finding recorded with C15: when the point group cannot be identified, the intended fall-back to
"no symmetry" is not reached; an `AttributeError` escapes instead. -/
theorem C15_point_group_fallback_crashes (s : Cell K) (sel : List ℕ) (E : ℕ) (d : K) (p : Fin 3 → ℤ) (hp : numPbc p = 2) :
    writeDisplaceCell s sel E d p true (.error .cannotSearchPointGroup) = .error .attributeError := by
  simp [writeDisplaceCell, hp]

end

/-! ### C16 -/

/-- **C16** (numbers).  The file numbers written without symmetry are `1, 2, …, 6n`, each once, in order. -/
theorem C16_numbers_complete {K : Type*} [Field K] (s : Cell K) (sel : List ℕ) (E : ℕ) (d : K) (p : Fin 3 → ℤ)
    (search : Run (List (ℕ × List (V3 K)))) (hsel : ∀ t ∈ sel, E * t < s.cart.length)
    (s' : Cell K) (files : Files K) (h : writeDisplaceCell s sel E d p false search = .ok (s', files)) :
    files.map (·.1) = (List.range (6 * sel.length)).map (· + 1) := by
  obtain ⟨s'', files', h', hlen, hf⟩ := C15_displaced_files s sel E d p false search (Or.inl rfl) hsel
  rw [h] at h'; cases h'
  apply List.ext_getElem?
  intro m
  by_cases hm : m < 6 * sel.length
  · have hi : m / 6 < sel.length := Nat.div_lt_of_lt_mul hm
    have hk : m % 6 < 6 := Nat.mod_lt _ (by norm_num)
    have hdm := Nat.div_add_mod m 6
    obtain ⟨h1, h2⟩ := hf (m / 6) sel[m / 6] ⟨m % 6 / 2, by omega⟩ (List.getElem?_eq_getElem hi)
    obtain ⟨c1, e1, -⟩ := h1
    obtain ⟨c2, e2, -⟩ := h2
    simp only at e1 e2
    simp only [List.getElem?_map]
    rw [List.getElem?_range hm]
    rcases Nat.mod_two_eq_zero_or_one (m % 6) with hpar | hpar
    · have : 6 * (m / 6) + 2 * (m % 6 / 2) = m := by omega
      rw [this] at e1
      simp [e1]
    · have : 6 * (m / 6) + 2 * (m % 6 / 2) + 1 = m := by omega
      rw [show 6 * (m / 6) + 2 * (m % 6 / 2) + 2 = m + 1 by omega, this] at e2
      simp [e2]
  · simp only [List.getElem?_map]
    rw [List.getElem?_eq_none (by omega), List.getElem?_eq_none (by simpa using hm)]
    rfl

/-- **C16** (names are distinct).  The name determines the number: for every prefix, different numbers give
different file names, and the number can be read back from the name. -/
theorem C16_names_injective (out : Str) : Function.Injective (fileName out) := by
  intro a b h
  have h1 : suffix a = suffix b := List.append_cancel_left h
  have h2 : padLeft '0' 4 (natStr a) = padLeft '0' 4 (natStr b) := by
    simpa [suffix] using h1
  have h3 := congrArg parseNat h2
  rw [parseNat_padLeft_zero, parseNat_padLeft_zero] at h3
  exact Option.some.inj h3

private theorem names_lt (out : Str) {a b : ℕ} (h : a < b) (hb : b < 10000) : fileName out a < fileName out b := by
  unfold fileName suffix
  rw [padLeft_natStr 4 a (by omega) (by norm_num), padLeft_natStr 4 b (by omega) (by norm_num)]
  apply List.append_left_lt
  exact List.Lex.cons (fixDigits_lt 4 h (by omega))

/-- Names of files `1..N` in numeric order. -/
def namesUpTo (out : Str) (N : ℕ) : List Str := (List.range N).map fun k => fileName out (k + 1)

/-- Full C16 (order): sorting the names alphabetically gives numeric order. -/
def C16_sorted (out : Str) (N : ℕ) : Prop := (namesUpTo out N).Pairwise (· < ·)

/-- **C16, proved part** (order).  Up to 9999 files, the numeric order of the files is the alphabetical order
of their names — so sorting any permutation of the names recovers the calculation order.
Missing: more than 9999 files (`C16_sort_refuted`). -/
theorem C16_sorted_partial (out : Str) (N : ℕ) (hN : N < 10000) :
    C16_sorted out N ∧
    ∀ l : List Str, l.Perm (namesUpTo out N) → l.Pairwise (fun a b => ¬ b < a) → l = namesUpTo out N := by
  have hs : C16_sorted out N := by
    unfold C16_sorted namesUpTo
    rw [List.pairwise_map]
    have : (List.range N).Pairwise (fun a b => a < b ∧ b < N) := by
      rw [List.pairwise_iff_getElem]
      intro i j hi hj hij
      simp at hi hj ⊢; omega
    refine this.imp ?_
    rintro a b ⟨h1, h2⟩
    exact names_lt out (by omega) (by omega)
  refine ⟨hs, fun l hp hl => ?_⟩
  have hs' : (namesUpTo out N).Pairwise (fun a b => ¬ b < a) := hs.imp fun h => List.lt_asymm h
  exact hp.eq_of_pairwise (fun a b _ _ h1 h2 => List.le_antisymm (Std.not_lt.mp h1) (Std.not_lt.mp h2)) hl hs'

/-- **C16 is false beyond 9999 files**: the name of file 10000 sorts before that of file 9999. -/
theorem C16_sort_refuted (out : Str) : fileName out 10000 < fileName out 9999 ∧ ¬ C16_sorted out 10000 := by
  have h : fileName out 10000 < fileName out 9999 := by
    unfold fileName
    apply List.append_left_lt
    decide +kernel
  refine ⟨h, fun hs => ?_⟩
  unfold C16_sorted at hs
  have := List.pairwise_iff_getElem.mp hs 9998 9999 (by simp [namesUpTo]) (by simp [namesUpTo]) (by norm_num)
  simp [namesUpTo] at this
  exact List.lt_asymm this h

/-- **C16** (exact condition).  The alphabetical order of the names is the numeric order exactly if there are at most 9999 files. -/
theorem C16_sorted_iff (out : Str) (N : ℕ) : C16_sorted out N ↔ N < 10000 := by
  refine ⟨fun h => ?_, fun h => (C16_sorted_partial out N h).1⟩
  by_contra hN
  refine (C16_sort_refuted out).2 ?_
  unfold C16_sorted namesUpTo at *
  refine h.sublist (List.Sublist.map _ ?_)
  obtain ⟨m, rfl⟩ : ∃ m, N = 10000 + m := ⟨N - 10000, by omega⟩
  rw [List.range_add]
  exact List.sublist_append_left _ _

example : fileName "POSCAR".toList 13 = "POSCAR-0013".toList := by decide +kernel

/-! ### C17 -/

section
variable {K : Type*} [Field K]

/-- Full C17: the super cell object after `write_displace_cell` is the one before. -/
def C17_full (K : Type*) [Field K] : Prop :=
  ∀ (s : Cell K) (sel : List ℕ) (E : ℕ) (d : K) (p : Fin 3 → ℤ) (s' : Cell K) (files : Files K),
    writeDisplaceCell s sel E d p false (.ok []) = .ok (s', files) → s' = s

/-- **C17, proved part.**  Only two things of the super cell change: the selective flag is switched off, and
the home image of the *last* selected atom stays displaced by `-d` along z.  With no atom selected only the
flag changes.  Missing: these two changes themselves (`C17_refuted`). -/
theorem C17_what_changes_partial (s : Cell K) (sel : List ℕ) (t : ℕ) (E : ℕ) (d : K) (p : Fin 3 → ℤ)
    (search : Run (List (ℕ × List (V3 K)))) (hsel : ∀ t' ∈ sel ++ [t], E * t' < s.cart.length)
    (s' : Cell K) (files : Files K) (h : writeDisplaceCell s (sel ++ [t]) E d p false search = .ok (s', files)) :
    IsMoved s (E * t) (axis (-d) 2) s' ∧ s'.atomTrue = s.atomTrue ∧ s'.xyzTrue = s.xyzTrue := by
  unfold writeDisplaceCell at h
  simp only [Bool.false_and, Bool.false_eq_true, if_false] at h
  rw [atomLoop_ok { s with selective := false } d s.cart E (sel ++ [t]) 0 _ hsel ⟨_, rfl⟩] at h
  simp only [lastCell_append, Except.ok.injEq, Prod.mk.injEq] at h
  obtain ⟨rfl, -⟩ := h
  have hneg : axis (-d) 2 = fun c => - (d * (![0, 0, 1] : V3 K) c) := by
    funext c
    fin_cases c <;> simp [axis]
  refine ⟨?_, rfl, rfl⟩
  rw [hneg]
  exact isMoved_movedCell s (E * t) (hsel t (by simp)) _

/-- **C17 is false**: after writing the displaced cells of the example cell, its second atom is left
displaced; a second call therefore starts from a different structure. -/
theorem C17_refuted : ¬ C17_full ℚ := by
  intro h
  obtain ⟨s', files, hr, -⟩ := C15_displaced_files exampleCell [1] 1 (1/50) ![1, 1, 0] false (.ok []) (Or.inl rfl) (by decide)
  have hs := h _ _ _ _ _ _ _ hr
  have hm := (C17_what_changes_partial exampleCell [] 1 1 (1/50) ![1, 1, 0] (.ok []) (by decide) s' files hr).1.moved
  rw [hs] at hm
  obtain ⟨v, h1, h2⟩ := hm
  rw [h1] at h2
  have := congrFun (Option.some.inj h2) 2
  simp [axis] at this

/-- **C17** (exact condition).  Writing the displaced cells of at least one selected atom leaves the super cell unchanged exactly if the displacement is zero and the
structure had no selective flags. -/
theorem C17_unchanged_iff (s : Cell K) (sel : List ℕ) (t : ℕ) (E : ℕ) (d : K) (p : Fin 3 → ℤ)
    (search : Run (List (ℕ × List (V3 K)))) (hsel : ∀ t' ∈ sel ++ [t], E * t' < s.cart.length)
    (s' : Cell K) (files : Files K) (h : writeDisplaceCell s (sel ++ [t]) E d p false search = .ok (s', files)) :
    s' = s ↔ d = 0 ∧ s.selective = false := by
  obtain ⟨hm, ht, hx⟩ := C17_what_changes_partial s sel t E d p search hsel s' files h
  obtain ⟨v, h1, h2⟩ := hm.moved
  constructor
  · intro e
    refine ⟨?_, e ▸ hm.selective⟩
    rw [e, h1] at h2
    have := congrFun (Option.some.inj h2) 2
    simpa [axis] using this
  · rintro ⟨rfl, hs⟩
    have hc : s'.cart = s.cart := by
      apply List.ext_getElem?
      intro r
      by_cases hr : r = E * t
      · subst hr
        rw [h1, h2]
        congr 1
        funext j
        simp [axis]
      · exact hm.others r hr
    have e1 := hm.lattice
    have e2 := hm.atomType
    have e3 := hm.numAtom
    have e4 := hm.coordinate
    have e5 := hm.selective.trans hs.symm
    cases s
    cases s'
    simp only at hc e1 e2 e3 e4 e5 ht hx
    simp [hc, e1, e2, e3, e4, e5, ht, hx]

/-- The second call writes different files than the first (on the example cell): its "forward x" file has
the atom also displaced along z. -/
theorem C17_second_call_differs : ∃ s' files s'' files',
    writeDisplaceCell exampleCell [1] 1 (1/50) ![1, 1, 0] false (.ok []) = .ok (s', files) ∧
    writeDisplaceCell s' [1] 1 (1/50) ![1, 1, 0] false (.ok []) = .ok (s'', files') ∧ files ≠ files' := by
  obtain ⟨s', files, hr, -, hf⟩ := C15_displaced_files exampleCell [1] 1 (1/50) ![1, 1, 0] false (.ok []) (Or.inl rfl) (by decide)
  have hm := (C17_what_changes_partial exampleCell [] 1 1 (1/50) ![1, 1, 0] (.ok []) (by decide) s' files hr).1.moved
  obtain ⟨v, h1, h2⟩ := hm
  have hlen : ∀ t ∈ [1], 1 * t < s'.cart.length := by
    intro t ht
    simp at ht; subst ht
    exact (List.getElem?_eq_some_iff.mp h2).1
  obtain ⟨s'', files', hr', -, hf'⟩ := C15_displaced_files s' [1] 1 (1/50) ![1, 1, 0] false (.ok []) (Or.inl rfl) hlen
  refine ⟨s', files, s'', files', hr, hr', fun he => ?_⟩
  obtain ⟨c, hc, hmc⟩ := (hf 0 1 0 rfl).1
  obtain ⟨c', hc', hmc'⟩ := (hf' 0 1 0 rfl).1
  rw [← he, hc] at hc'
  cases hc'
  obtain ⟨w, hw, hw'⟩ := hmc.moved
  obtain ⟨w2, hw2, hw2'⟩ := hmc'.moved
  rw [h1] at hw; cases hw
  rw [h2] at hw2; cases hw2
  rw [hw'] at hw2'
  have := congrFun (Option.some.inj hw2') 2
  simp [axis] at this

end

/-! ### C80 -/

/-- Full C80: an operation on one default-constructed object leaves another one alone. -/
def C80_full : Prop :=
  ∀ (d : List (Str × PyVal)),
    let (h1, p1) := newDefault bootHeap
    let (h2, p2) := newDefault h1
    (setUserArg h2 p1 d).args p2.userArg = h2.args p2.userArg

/-- **C80 is false**: the default objects are created once and shared by all instances. -/
theorem C80_refuted : ¬ C80_full := by
  intro h
  have := h cliDict
  simp only [newDefault, setUserArg, Function.update_self, bootHeap] at this
  have h2 := congrArg PreArg.displacement this
  revert h2
  decide +kernel

/-- **C80, proved part.**  Two processes built on explicitly created objects never interfere: setting the
arguments or the unit cell of one leaves the arguments and cells of the other unchanged.
Missing: default-constructed processes (`C80_refuted`). -/
theorem C80_explicit_objects_partial (h : Heap) (d : List (Str × PyVal)) (c : UnitCell.Parsed) :
    let a := newExplicit h
    let b := newExplicit a.1
    (setUserArg b.1 a.2 d).args b.2.userArg = b.1.args b.2.userArg ∧
    (setUserArg b.1 a.2 d).cells b.2.unitCell = b.1.cells b.2.unitCell ∧
    (setUnitCell b.1 a.2 c).cells b.2.unitCell = b.1.cells b.2.unitCell ∧
    (setUnitCell b.1 a.2 c).cells b.2.superCell = b.1.cells b.2.superCell ∧
    (setUserArg b.1 b.2 d).args a.2.userArg = b.1.args a.2.userArg ∧
    (setUnitCell b.1 b.2 c).cells a.2.unitCell = b.1.cells a.2.unitCell := by
  simp only [newExplicit, setUserArg, setUnitCell]
  refine ⟨?_, trivial, ?_, ?_, ?_, ?_⟩
  · rw [Function.update_of_ne (by omega)]
  · rw [Function.update_of_ne (by omega)]
  · rw [Function.update_of_ne (by omega)]
  · rw [Function.update_of_ne (by omega)]
  · rw [Function.update_of_ne (by omega)]

/-- What a program does to process number `k` (of those it created): `set_user_arg` or `set_unit_cell`. -/
inductive ProcOp where
  | arg (k : ℕ) (d : List (Str × PyVal))
  | cell (k : ℕ) (c : UnitCell.Parsed)

/-- One statement of the program; a process number that does not exist does nothing. -/
def execOp (ps : List Proc) (h : Heap) : ProcOp → Heap
  | .arg k d => (ps[k]?).elim h fun p => setUserArg h p d
  | .cell k c => (ps[k]?).elim h fun p => setUnitCell h p c

/-- A program creates `n` processes on explicitly created objects. -/
def build : ℕ → Heap → Heap × List Proc
  | 0, h => (h, [])
  | n + 1, h => ((newExplicit (build n h).1).1, (build n h).2 ++ [(newExplicit (build n h).1).2])

/-- The `set_user_arg` calls made on process `k`, in order. -/
def argsOf (k : ℕ) (ops : List ProcOp) : List (List (Str × PyVal)) :=
  ops.filterMap fun | .arg j d => if j = k then some d else none | .cell _ _ => none

/-- The files given to `set_unit_cell` of process `k`, in order. -/
def filesOf (k : ℕ) (ops : List ProcOp) : List UnitCell.Parsed :=
  ops.filterMap fun | .cell j c => if j = k then some c else none | .arg _ _ => none

private theorem build_spec (h : Heap) (n : ℕ) :
    (build n h).1.nextArg = h.nextArg + n ∧ (build n h).1.nextCell = h.nextCell + 2 * n ∧ (build n h).2.length = n ∧
    ∀ k < n, (build n h).2[k]? = some ⟨h.nextArg + k, h.nextCell + 2 * k, h.nextCell + 2 * k + 1⟩ ∧
      (build n h).1.args (h.nextArg + k) = {} ∧ (build n h).1.cells (h.nextCell + 2 * k) = {} ∧
      (build n h).1.cells (h.nextCell + 2 * k + 1) = {} := by
  induction n with
  | zero => simp [build]
  | succ n ih =>
    obtain ⟨h1, h2, h3, h4⟩ := ih
    refine ⟨by simp only [build, newExplicit]; omega, by simp only [build, newExplicit]; omega, by simp [build, h3], ?_⟩
    intro k hk
    by_cases hkn : k = n
    · subst hkn
      refine ⟨?_, ?_, ?_, ?_⟩
      · simp only [build]
        rw [List.getElem?_append_right (by omega), h3, Nat.sub_self]
        simp only [newExplicit, List.getElem?_cons_zero, h1, h2]
      · simp only [build, newExplicit, h1, Function.update_self]
      · simp only [build, newExplicit, h2]
        rw [Function.update_of_ne (by omega), Function.update_self]
      · simp only [build, newExplicit, h2, Function.update_self]
    · obtain ⟨g1, g2, g3, g4⟩ := h4 k (by omega)
      refine ⟨?_, ?_, ?_, ?_⟩
      · simp only [build]
        rw [List.getElem?_append_left (by omega)]
        exact g1
      · simp only [build, newExplicit, h1]
        rw [Function.update_of_ne (by omega)]
        exact g2
      · simp only [build, newExplicit, h2]
        rw [Function.update_of_ne (by omega), Function.update_of_ne (by omega)]
        exact g3
      · simp only [build, newExplicit, h2]
        rw [Function.update_of_ne (by omega), Function.update_of_ne (by omega)]
        exact g4

/-- **C80, proved part, for every history.**  A program creates any number of processes on explicitly created objects and then calls `set_user_arg` and
`set_unit_cell` on them in any order, any number of times.  Every process ends with exactly the arguments and the unit cell it would have had alone: its own
argument dictionaries applied to a new argument object, its own files read one after the other, each after a reset, and an untouched super cell.
Missing: default-constructed processes (`C80_refuted`). -/
theorem C80_history_partial (n : ℕ) (ops : List ProcOp) (k : ℕ) (hk : k < n) :
    ∃ p, (build n bootHeap).2[k]? = some p ∧
      (ops.foldl (execOp (build n bootHeap).2) (build n bootHeap).1).args p.userArg =
        (argsOf k ops).foldl (fun a d => (setUserArgument a d).1) {} ∧
      (ops.foldl (execOp (build n bootHeap).2) (build n bootHeap).1).cells p.unitCell =
        (filesOf k ops).foldl (fun r c => (UnitCell.assignParsed (UnitCell.initialization r) c).1) {} ∧
      (ops.foldl (execOp (build n bootHeap).2) (build n bootHeap).1).cells p.superCell = {} := by
  obtain ⟨-, -, hlen, hb⟩ := build_spec bootHeap n
  obtain ⟨h1, h2, h3, h4⟩ := hb k hk
  refine ⟨_, h1, ?_⟩
  generalize (build n bootHeap).1 = h at h2 h3 h4 ⊢
  have key : ∀ (ops : List ProcOp) (h : Heap) (a : PreArg) (r s : UnitCell.RawCell),
      h.args (bootHeap.nextArg + k) = a → h.cells (bootHeap.nextCell + 2 * k) = r → h.cells (bootHeap.nextCell + 2 * k + 1) = s →
      (ops.foldl (execOp (build n bootHeap).2) h).args (bootHeap.nextArg + k) = (argsOf k ops).foldl (fun a d => (setUserArgument a d).1) a ∧
      (ops.foldl (execOp (build n bootHeap).2) h).cells (bootHeap.nextCell + 2 * k) =
        (filesOf k ops).foldl (fun r c => (UnitCell.assignParsed (UnitCell.initialization r) c).1) r ∧
      (ops.foldl (execOp (build n bootHeap).2) h).cells (bootHeap.nextCell + 2 * k + 1) = s := by
    intro ops
    induction ops with
    | nil => intro h a r s e1 e2 e3; exact ⟨e1, e2, e3⟩
    | cons op ops ih =>
      intro h a r s e1 e2 e3
      rw [List.foldl_cons]
      cases op with
      | arg j d =>
        by_cases hj : j < n
        · obtain ⟨g1, -⟩ := hb j hj
          have hex : execOp (build n bootHeap).2 h (.arg j d) = setUserArg h ⟨bootHeap.nextArg + j, bootHeap.nextCell + 2 * j, bootHeap.nextCell + 2 * j + 1⟩ d := by
            simp only [execOp, g1, Option.elim_some]
          rw [hex]
          by_cases hjk : j = k
          · subst hjk
            have := ih (setUserArg h ⟨bootHeap.nextArg + j, bootHeap.nextCell + 2 * j, bootHeap.nextCell + 2 * j + 1⟩ d) (setUserArgument a d).1 r s
              (by simp only [setUserArg, Function.update_self, e1]) e2 e3
            simpa [argsOf, filesOf] using this
          · have := ih (setUserArg h ⟨bootHeap.nextArg + j, bootHeap.nextCell + 2 * j, bootHeap.nextCell + 2 * j + 1⟩ d) a r s
              (by simp only [setUserArg]; rw [Function.update_of_ne (by omega)]; exact e1) e2 e3
            simpa [argsOf, filesOf, hjk] using this
        · have hex : execOp (build n bootHeap).2 h (.arg j d) = h := by
            simp only [execOp, List.getElem?_eq_none_iff.2 (by rw [hlen]; omega : (build n bootHeap).2.length ≤ j), Option.elim_none]
          rw [hex]
          have hjk : j ≠ k := by omega
          simpa [argsOf, filesOf, hjk] using ih h a r s e1 e2 e3
      | cell j c =>
        by_cases hj : j < n
        · obtain ⟨g1, -⟩ := hb j hj
          have hex : execOp (build n bootHeap).2 h (.cell j c) = setUnitCell h ⟨bootHeap.nextArg + j, bootHeap.nextCell + 2 * j, bootHeap.nextCell + 2 * j + 1⟩ c := by
            simp only [execOp, g1, Option.elim_some]
          rw [hex]
          by_cases hjk : j = k
          · subst hjk
            have := ih (setUnitCell h ⟨bootHeap.nextArg + j, bootHeap.nextCell + 2 * j, bootHeap.nextCell + 2 * j + 1⟩ c) a
              (UnitCell.assignParsed (UnitCell.initialization r) c).1 s e1 (by simp only [setUnitCell, Function.update_self, e2])
              (by simp only [setUnitCell]; rw [Function.update_of_ne (by omega)]; exact e3)
            simpa [argsOf, filesOf] using this
          · have := ih (setUnitCell h ⟨bootHeap.nextArg + j, bootHeap.nextCell + 2 * j, bootHeap.nextCell + 2 * j + 1⟩ c) a r s e1
              (by simp only [setUnitCell]; rw [Function.update_of_ne (by omega)]; exact e2)
              (by simp only [setUnitCell]; rw [Function.update_of_ne (by omega)]; exact e3)
            simpa [argsOf, filesOf, hjk] using this
        · have hex : execOp (build n bootHeap).2 h (.cell j c) = h := by
            simp only [execOp, List.getElem?_eq_none_iff.2 (by rw [hlen]; omega : (build n bootHeap).2.length ≤ j), Option.elim_none]
          rw [hex]
          have hjk : j ≠ k := by omega
          simpa [argsOf, filesOf, hjk] using ih h a r s e1 e2 e3
  exact key ops h _ _ _ h2 h3 h4

/-- Calls on processes with objects of their own never reach the shared default objects: a process created with the defaults afterwards
is in the initial state. -/
theorem C80_defaults_untouched (n : ℕ) (ops : List ProcOp) :
    let h := ops.foldl (execOp (build n bootHeap).2) (build n bootHeap).1
    (newDefault h).1.args (newDefault h).2.userArg = {} ∧ (newDefault h).1.cells (newDefault h).2.unitCell = {} ∧
      (newDefault h).1.cells (newDefault h).2.superCell = {} := by
  have hb0 : ∀ m, (build m bootHeap).1.args 0 = {} ∧ (build m bootHeap).1.cells 0 = {} ∧ (build m bootHeap).1.cells 1 = {} := by
    intro m
    induction m with
    | zero => exact ⟨rfl, rfl, rfl⟩
    | succ m ih =>
      obtain ⟨e1, e2, -, -⟩ := build_spec bootHeap m
      have a1 : bootHeap.nextArg = 1 := rfl
      have a2 : bootHeap.nextCell = 2 := rfl
      refine ⟨?_, ?_, ?_⟩
      · simp only [build, newExplicit]
        rw [Function.update_of_ne (by omega)]
        exact ih.1
      · simp only [build, newExplicit]
        rw [Function.update_of_ne (by omega), Function.update_of_ne (by omega)]
        exact ih.2.1
      · simp only [build, newExplicit]
        rw [Function.update_of_ne (by omega), Function.update_of_ne (by omega)]
        exact ih.2.2
  obtain ⟨-, -, hlen, hb⟩ := build_spec bootHeap n
  have a1 : bootHeap.nextArg = 1 := rfl
  have a2 : bootHeap.nextCell = 2 := rfl
  have key : ∀ (ops : List ProcOp) (h : Heap), h.args 0 = {} → h.cells 0 = {} → h.cells 1 = {} →
      (ops.foldl (execOp (build n bootHeap).2) h).args 0 = {} ∧ (ops.foldl (execOp (build n bootHeap).2) h).cells 0 = {} ∧
      (ops.foldl (execOp (build n bootHeap).2) h).cells 1 = {} := by
    intro ops
    induction ops with
    | nil => intro h e1 e2 e3; exact ⟨e1, e2, e3⟩
    | cons op ops ih =>
      intro h e1 e2 e3
      rw [List.foldl_cons]
      cases op with
      | arg j d =>
        by_cases hj : j < n
        · obtain ⟨g1, -⟩ := hb j hj
          simp only [execOp, g1, Option.elim_some]
          exact ih _ (by simp only [setUserArg]; rw [Function.update_of_ne (by omega)]; exact e1) e2 e3
        · simp only [execOp, List.getElem?_eq_none_iff.2 (by rw [hlen]; omega : (build n bootHeap).2.length ≤ j), Option.elim_none]
          exact ih h e1 e2 e3
      | cell j c =>
        by_cases hj : j < n
        · obtain ⟨g1, -⟩ := hb j hj
          simp only [execOp, g1, Option.elim_some]
          exact ih _ e1 (by simp only [setUnitCell]; rw [Function.update_of_ne (by omega)]; exact e2)
            (by simp only [setUnitCell]; rw [Function.update_of_ne (by omega)]; exact e3)
        · simp only [execOp, List.getElem?_eq_none_iff.2 (by rw [hlen]; omega : (build n bootHeap).2.length ≤ j), Option.elim_none]
          exact ih h e1 e2 e3
  exact key ops _ (hb0 n).1 (hb0 n).2.1 (hb0 n).2.2

/-- Default-constructed processes, as they are: all of them share one argument object and one unit cell, so each ends with the calls made on any of them. -/
theorem C80_shared_defaults (ops : List ProcOp) (n k : ℕ) (hk : k < n)
    (hops : ∀ op ∈ ops, match op with | .arg j _ => j < n | .cell j _ => j < n) :
    let ps := List.replicate n (newDefault bootHeap).2
    (ps[k]?).map (fun p => (ops.foldl (execOp ps) bootHeap).args p.userArg) =
      some ((ops.filterMap fun | .arg _ d => some d | .cell _ _ => none).foldl (fun a d => (setUserArgument a d).1) {}) := by
  intro ps
  have hps : ∀ j < n, ps[j]? = some ⟨0, 0, 1⟩ := fun j hj => by simp [ps, newDefault, hj]
  rw [hps k hk, Option.map_some]
  congr 1
  have key : ∀ (ops : List ProcOp) (h : Heap), (∀ op ∈ ops, match op with | .arg j _ => j < n | .cell j _ => j < n) →
      (ops.foldl (execOp ps) h).args 0 =
        (ops.filterMap fun | .arg _ d => some d | .cell _ _ => none).foldl (fun a d => (setUserArgument a d).1) (h.args 0) := by
    intro ops
    induction ops with
    | nil => intro h _; rfl
    | cons op ops ih =>
      intro h hh
      rw [List.foldl_cons, ih _ fun o ho => hh o (List.mem_cons_of_mem _ ho)]
      have h0 := hh op List.mem_cons_self
      cases op with
      | arg j d => simp [execOp, hps j h0, setUserArg]
      | cell j c => simp [execOp, hps j h0, setUnitCell]
  exact key ops bootHeap hops

end Interphon.Props
