import Verif.Model.UnitCell
import Verif.Props.AtomicWeight

/-! # Properties C11–C14: unit cell objects -/

namespace Interphon.Props
open Py Interphon Interphon.UnitCell

/-- Assignments (and re-initialisation) on a unit cell. -/
inductive CellOp
  | lattice (a : List (List ℚ)) | atomType (l : List Str) | numAtom (l : List ℤ) | selective (b : Bool)
  | coordinate (s : Str) | cart (a : List (List ℚ)) | direct (a : List (List ℚ))
  | atomTrue (l : List ℤ) | xyzTrue (l : List ℤ) | mass (l : List ℚ) | setMassTrue | init

def CellOp.exec (s : RawCell) : CellOp → Outcome
  | .lattice a => setLattice s a
  | .atomType l => setAtomType s l
  | .numAtom l => setNumAtom s l
  | .selective b => setSelective s b
  | .coordinate t => setCoordinate s t
  | .cart a => setCart s a
  | .direct a => setDirect s a
  | .atomTrue l => setAtomTrue s l
  | .xyzTrue l => setXyzTrue s l
  | .mass l => setMass s l
  | .setMassTrue => UnitCell.setMassTrue s
  | .init => (initialization s, none)

/-- A history with exceptions caught. -/
def runCellOps (s : RawCell) (ops : List CellOp) : RawCell := ops.foldl (fun s op => (op.exec s).1) s

/-- Full C11: all attributes that are set agree with each other. -/
structure ShapesOk (s : RawCell) : Prop where
  lattice : ∀ a, s.lattice = some a → a.length = 3 ∧ ∀ r ∈ a, r.length = 3
  types : ∀ t c, s.atomType = some t → s.cart = some c → t.length = c.length
  rows : ∀ t c, s.atomType = some t → s.cart = some c → ∀ r ∈ c, r.length = 3
  counts : ∀ n c, s.numAtom = some n → s.cart = some c → n.sum = c.length
  selected : ∀ t l, s.atomType = some t → s.atomTrue = some l → ∀ i ∈ l, 0 ≤ i ∧ i < t.length
  distinct : ∀ l, s.atomTrue = some l → l.Pairwise (· < ·)

/-- The part of C11 that holds in every history. -/
structure ShapesInv (s : RawCell) : Prop where
  lattice : ∀ a, s.lattice = some a → a.length = 3 ∧ ∀ r ∈ a, r.length = 3
  types : ∀ t c, s.atomType = some t → s.cart = some c → t.length = c.length
  sortedSel : ∀ l, s.atomTrue = some l → l.Pairwise (· ≤ ·)
  sortedXyz : ∀ l, s.xyzTrue = some l → l.Pairwise (· ≤ ·)

private theorem hasShape_iff (a : List (List ℚ)) (n : ℕ) :
    hasShape a n = true ↔ a.length = n ∧ a ≠ [] ∧ ∀ r ∈ a, r.length = 3 := by
  simp [hasShape, and_assoc]

private theorem hasShape_three (a : List (List ℚ)) : hasShape a 3 = true ↔ a.length = 3 ∧ ∀ r ∈ a, r.length = 3 := by
  rw [hasShape_iff]
  exact ⟨fun h => ⟨h.1, h.2.2⟩, fun h => ⟨h.1, by rintro rfl; simp at h, h.2⟩⟩

private theorem sorted_pairwise (l : List ℤ) : (sorted l).Pairwise (· ≤ ·) := by
  unfold sorted
  exact List.pairwise_insertionSort (· ≤ ·) l

private theorem dotLattice_length (a c : List (List ℚ)) (M) (h : dotLattice a M = .ok c) : c.length = a.length := by
  unfold dotLattice at h
  split at h
  · cases h
  · split_ifs at h
    cases h; simp

private theorem setMass_inv (s : RawCell) (l) (h : ShapesInv s) : ShapesInv (setMass s l).1 := by
  unfold setMass
  split
  · exact ⟨h.1, h.2, h.3, h.4⟩
  · split_ifs
    · exact ⟨h.1, h.2, h.3, h.4⟩
    · exact h

/-- One assignment preserves the invariant. -/
private theorem step_inv (s : RawCell) (op : CellOp) (h : ShapesInv s) : ShapesInv (op.exec s).1 := by
  cases op with
  | lattice a =>
    simp only [CellOp.exec, setLattice]
    split_ifs with h1
    · refine ⟨?_, h.2, h.3, h.4⟩
      intro b hb; cases hb; exact (hasShape_three a).mp h1
    · exact h
  | atomType l =>
    simp only [CellOp.exec, setAtomType]
    split
    · rename_i hc
      refine ⟨h.1, ?_, h.3, h.4⟩
      intro t c ht hc'; simp only [hc] at hc'; cases hc'
    · rename_i c hc
      split_ifs with h1
      · refine ⟨h.1, ?_, h.3, h.4⟩
        intro t c' ht hc'
        simp only [hc] at hc'; cases hc'; cases ht; exact h1
      · exact h
  | numAtom l =>
    simp only [CellOp.exec, setNumAtom]
    split
    · exact ⟨h.1, h.2, h.3, h.4⟩
    · split_ifs
      · exact ⟨h.1, h.2, h.3, h.4⟩
      · exact h
  | selective b => exact ⟨h.1, h.2, h.3, h.4⟩
  | coordinate t =>
    cases t with
    | nil => exact h
    | cons c cs =>
      simp only [CellOp.exec, setCoordinate]
      split_ifs
      · exact ⟨h.1, h.2, h.3, h.4⟩
      · exact ⟨h.1, h.2, h.3, h.4⟩
      · exact h
  | cart a =>
    simp only [CellOp.exec, setCart]
    split
    · rename_i ht
      refine ⟨h.1, ?_, h.3, h.4⟩
      intro t c ht' hc; simp only [ht] at ht'; cases ht'
    · rename_i t ht
      split_ifs with h1
      · refine ⟨h.1, ?_, h.3, h.4⟩
        intro t' c' ht' hc'
        simp only [ht] at ht'; cases ht'; cases hc'
        exact ((hasShape_iff a _).mp h1).1.symm
      · exact h
  | direct a =>
    simp only [CellOp.exec, setDirect]
    split
    · rename_i ht
      split
      · refine ⟨h.1, ?_, h.3, h.4⟩
        intro t c ht' hc; simp only [ht] at ht'; cases ht'
      · exact h
    · rename_i t ht
      split_ifs with h1
      · split
        · rename_i c hc
          refine ⟨h.1, ?_, h.3, h.4⟩
          intro t' c' ht' hc'
          simp only [ht] at ht'; cases ht'; cases hc'
          rw [dotLattice_length _ _ _ hc]
          exact ((hasShape_iff a _).mp h1).1.symm
        · exact h
      · exact h
  | atomTrue l =>
    simp only [CellOp.exec, setAtomTrue]
    split
    · refine ⟨h.1, h.2, ?_, h.4⟩
      intro l' hl; cases hl; exact sorted_pairwise l
    · split_ifs
      · refine ⟨h.1, h.2, ?_, h.4⟩
        intro l' hl; cases hl; exact sorted_pairwise l
      · exact h
  | xyzTrue l =>
    simp only [CellOp.exec, setXyzTrue]
    split
    · refine ⟨h.1, h.2, h.3, ?_⟩
      intro l' hl; cases hl; exact sorted_pairwise l
    · split_ifs
      · refine ⟨h.1, h.2, h.3, ?_⟩
        intro l' hl; cases hl; exact sorted_pairwise l
      · exact h
  | mass l => exact setMass_inv s l h
  | setMassTrue =>
    simp only [CellOp.exec, UnitCell.setMassTrue]
    split
    · exact h
    · split
      · exact h
      · split
        · exact h
        · split
          · exact h
          · exact setMass_inv s _ h
  | init => exact ⟨by simp [CellOp.exec, initialization], by simp [CellOp.exec, initialization],
      by simp [CellOp.exec, initialization], by simp [CellOp.exec, initialization]⟩

/-- **C11, proved part.**  In every history of assignments on an empty cell (exceptions caught), the
lattice is 3×3, types and coordinates have the same number of atoms whenever both are set, and the
selection lists are sorted.  Missing from the full C11: counts per type, valid and distinct selected
indices, width of rows (see the three refutations below). -/
theorem C11_shapes_partial (ops : List CellOp) : ShapesInv (runCellOps {} ops) := by
  have : ∀ (ops : List CellOp) (s : RawCell), ShapesInv s → ShapesInv (runCellOps s ops) := by
    intro ops
    induction ops with
    | nil => intro s h; exact h
    | cons op rest ih => intro s h; exact ih _ (step_inv s op h)
  exact this ops {} ⟨by simp, by simp, by simp, by simp⟩

/-- An assignment that raises changes nothing. -/
theorem C11_failed_assignment_changes_nothing (s : RawCell) (op : CellOp) (e : PyErr)
    (h : (op.exec s).2 = some e) : (op.exec s).1 = s := by
  cases op with
  | lattice a => simp only [CellOp.exec, setLattice] at h ⊢; split_ifs at h ⊢; rfl
  | atomType l =>
    simp only [CellOp.exec, setAtomType] at h ⊢
    split at h
    · simp at h
    · split_ifs at h ⊢; rfl
  | numAtom l =>
    simp only [CellOp.exec, setNumAtom] at h ⊢
    split at h
    · simp at h
    · split_ifs at h ⊢; rfl
  | selective b => simp [CellOp.exec, setSelective] at h
  | coordinate t =>
    cases t with
    | nil => rfl
    | cons c cs => simp only [CellOp.exec, setCoordinate] at h ⊢; split_ifs at h ⊢; rfl
  | cart a =>
    simp only [CellOp.exec, setCart] at h ⊢
    split at h
    · simp at h
    · split_ifs at h ⊢; rfl
  | direct a =>
    simp only [CellOp.exec, setDirect] at h ⊢
    split at h
    · split at h
      · simp at h
      · rfl
    · split_ifs at h ⊢
      · split at h
        · simp at h
        · rfl
      · rfl
  | atomTrue l =>
    simp only [CellOp.exec, setAtomTrue] at h ⊢
    split at h
    · simp at h
    · split_ifs at h ⊢; rfl
  | xyzTrue l =>
    simp only [CellOp.exec, setXyzTrue] at h ⊢
    split at h
    · simp at h
    · split_ifs at h ⊢; rfl
  | mass l =>
    simp only [CellOp.exec, setMass] at h ⊢
    split at h
    · simp at h
    · split_ifs at h ⊢; rfl
  | setMassTrue =>
    simp only [CellOp.exec, UnitCell.setMassTrue, setMass] at h ⊢
    repeat' split at h
    all_goals first | rfl | (simp at h; done) | simp_all
  | init => simp [CellOp.exec] at h

/-- **C11 is false (counts)**: assigning `num_atom` before `atom_cart` leaves `num_atom = [5]` next to one
atom, because the `atom_cart` setter does not check it. -/
theorem C11_refuted_counts : ¬ ∀ ops, ShapesOk (runCellOps {} ops) := by
  intro h
  have := (h [.numAtom [5], .cart [[0, 0, 0]]]).counts [5] [[0, 0, 0]] (by decide +kernel) (by decide +kernel)
  simp at this

/-- **C11 is false (selection range)**: assigning `atom_true` before `atom_type` accepts any index. -/
theorem C11_refuted_selection : ¬ ∀ ops, ShapesOk (runCellOps {} ops) := by
  intro h
  have := (h [.atomTrue [7], .atomType ["H".toList]]).selected ["H".toList] [7] (by decide +kernel) (by decide +kernel) 7 (by simp)
  simp at this

/-- **C11 is false (duplicates)**: repeated selected atoms are accepted. -/
theorem C11_refuted_distinct : ¬ ∀ ops, ShapesOk (runCellOps {} ops) := by
  intro h
  have := (h [.atomType ["H".toList], .atomTrue [0, 0]]).distinct [0, 0] (by decide +kernel)
  simp at this

/-- **C11** (after reading).  When `read_unit_cell`'s eight assignments all succeed on an empty cell, the
stored lattice is 3×3, there is one 3-component row per atom type, every selected index is valid and
every degree of freedom belongs to a selected atom; the values are those that were read. -/
theorem C11_after_reading (p : Parsed) (s : RawCell) (h : assignParsed {} p = (s, none)) :
    s.lattice = some p.lattice ∧ p.lattice.length = 3 ∧ (∀ r ∈ p.lattice, r.length = 3) ∧
    s.atomType = some p.atomType ∧ s.cart = some p.cart ∧ p.cart.length = p.atomType.length ∧
    (∀ r ∈ p.cart, r.length = 3) ∧ s.numAtom = some p.numAtom ∧ s.selective = p.selective ∧
    (∃ l, s.atomTrue = some l ∧ l.Perm p.atomTrue ∧ l.Pairwise (· ≤ ·) ∧
      ∀ i ∈ l, 0 ≤ i ∧ i < p.atomType.length) ∧
    (∃ x, s.xyzTrue = some x ∧ x.Perm p.xyzTrue ∧ x.Pairwise (· ≤ ·) ∧ ∀ i ∈ x, i ∈ p.atomTrue) := by
  unfold assignParsed at h
  simp only [seqOut, setLattice] at h
  split_ifs at h with h1
  swap
  · simp [seqOut] at h
  simp only [seqOut, setAtomType, setNumAtom, setSelective] at h
  cases hc : p.coordinate with
  | nil => rw [hc] at h; simp [setCoordinate, seqOut] at h
  | cons c cs =>
    rw [hc] at h
    simp only [setCoordinate] at h
    have key : ∀ (co : Coord), seqOut (setCart { lattice := some p.lattice, atomType := some p.atomType, numAtom := some p.numAtom, selective := p.selective, coordinate := some co } p.cart)
        [(setAtomTrue · p.atomTrue), (setXyzTrue · p.xyzTrue)] = (s, none) →
        s.lattice = some p.lattice ∧ p.lattice.length = 3 ∧ (∀ r ∈ p.lattice, r.length = 3) ∧
        s.atomType = some p.atomType ∧ s.cart = some p.cart ∧ p.cart.length = p.atomType.length ∧
        (∀ r ∈ p.cart, r.length = 3) ∧ s.numAtom = some p.numAtom ∧ s.selective = p.selective ∧
        (∃ l, s.atomTrue = some l ∧ l.Perm p.atomTrue ∧ l.Pairwise (· ≤ ·) ∧
          ∀ i ∈ l, 0 ≤ i ∧ i < p.atomType.length) ∧
        (∃ x, s.xyzTrue = some x ∧ x.Perm p.xyzTrue ∧ x.Pairwise (· ≤ ·) ∧ ∀ i ∈ x, i ∈ p.atomTrue) := by
      intro co h
      simp only [setCart] at h
      split_ifs at h with h2
      swap
      · simp [seqOut] at h
      simp only [seqOut, setAtomTrue] at h
      split_ifs at h with h3
      swap
      · simp [seqOut] at h
      simp only [seqOut, setXyzTrue] at h
      split_ifs at h with h4
      swap
      · simp at h
      simp only [Prod.mk.injEq, and_true] at h
      subst h
      obtain ⟨l1, l2⟩ := (hasShape_three _).mp h1
      obtain ⟨c1, c0, c2⟩ := (hasShape_iff _ _).mp h2
      have ps : ∀ l, (sorted l).Perm l := fun l => List.perm_insertionSort _ l
      refine ⟨rfl, l1, l2, rfl, rfl, c1, c2, rfl, rfl, ⟨_, rfl, ps _, sorted_pairwise _, ?_⟩, ⟨_, rfl, ps _, sorted_pairwise _, ?_⟩⟩
      · intro i hi
        have := List.all_eq_true.mp h3 i ((ps _).mem_iff.mp hi)
        simpa using this
      · intro i hi
        have := List.all_eq_true.mp h4 i ((ps _).mem_iff.mp hi)
        have hm : i ∈ sorted p.atomTrue := by simpa using this
        exact (ps _).mem_iff.mp hm
    split_ifs at h
    · exact key .direct h
    · exact key .cartesian h
    · simp [seqOut] at h

/-- A structure without atoms is not accepted. -/
theorem C11_reading_needs_atoms (p : Parsed) (s : RawCell) (h : assignParsed {} p = (s, none)) : p.cart ≠ [] := by
  unfold assignParsed at h
  simp only [seqOut, setLattice] at h
  split_ifs at h with h1
  swap
  · simp [seqOut] at h
  simp only [seqOut, setAtomType, setNumAtom, setSelective] at h
  cases hc : p.coordinate with
  | nil => rw [hc] at h; simp [setCoordinate, seqOut] at h
  | cons c cs =>
    rw [hc] at h
    simp only [setCoordinate] at h
    have key : ∀ (co : Coord), seqOut (setCart { lattice := some p.lattice, atomType := some p.atomType, numAtom := some p.numAtom, selective := p.selective, coordinate := some co } p.cart)
        [(setAtomTrue · p.atomTrue), (setXyzTrue · p.xyzTrue)] = (s, none) → p.cart ≠ [] := by
      intro co h
      simp only [setCart] at h
      split_ifs at h with h2
      · exact ((hasShape_iff _ _).mp h2).2.1
      · simp [seqOut] at h
    split_ifs at h
    · exact key .direct h
    · exact key .cartesian h
    · simp [seqOut] at h

/-- A small parsed structure used for non-vacuity. -/
def exampleParsed : Parsed where
  lattice := [[3, 0, 0], [0, 3, 0], [0, 0, 15]]
  atomType := ["Ga".toList, "As".toList]
  numAtom := [1, 1]
  selective := true
  coordinate := "Direct".toList
  cart := [[0, 0, 5], [3/2, 3/2, 6]]
  atomTrue := [1]
  xyzTrue := [1, 1, 1]

example : (assignParsed {} exampleParsed).2 = none := by decide +kernel

/-- "The assignment succeeds with new state `s'` exactly if `P`; otherwise it raises and changes nothing." -/
def Decides (o : Outcome) (s s' : RawCell) (P : Prop) : Prop := (P → o = (s', none)) ∧ (¬P → o.1 = s ∧ o.2 ≠ none)

/-- **C11** (each assignment).  What each assignment of an attribute accepts and stores, in any state: a lattice iff it is 3×3, types, counts and
coordinates iff they fit the number of atoms already known, a coordinate keyword by its first letter, selected atoms iff they exist, degrees of freedom iff
their atoms are selected, masses iff there are three per selected atom.  Everything else raises and leaves the object as it was. -/
theorem C11_setters_decide (s : RawCell) :
    (∀ a, Decides (CellOp.exec s (.lattice a)) s { s with lattice := some a } (a.length = 3 ∧ ∀ r ∈ a, r.length = 3)) ∧
    (∀ l, Decides (CellOp.exec s (.atomType l)) s { s with atomType := some l } (∀ c, s.cart = some c → l.length = c.length)) ∧
    (∀ l, Decides (CellOp.exec s (.numAtom l)) s { s with numAtom := some l } (∀ c, s.cart = some c → l.sum = c.length)) ∧
    (∀ c cs, (c ∈ ['D', 'd'] → CellOp.exec s (.coordinate (c :: cs)) = ({ s with coordinate := some .direct }, none)) ∧
      (c ∈ ['C', 'c', 'K', 'k'] → CellOp.exec s (.coordinate (c :: cs)) = ({ s with coordinate := some .cartesian }, none)) ∧
      (c ∉ ['D', 'd', 'C', 'c', 'K', 'k'] → CellOp.exec s (.coordinate (c :: cs)) = (s, some .valueError))) ∧
    (∀ a, Decides (CellOp.exec s (.cart a)) s { s with cart := some a }
      (∀ t, s.atomType = some t → a.length = t.length ∧ a ≠ [] ∧ ∀ r ∈ a, r.length = 3)) ∧
    (∀ l, Decides (CellOp.exec s (.atomTrue l)) s { s with atomTrue := some (sorted l) }
      (∀ t, s.atomType = some t → ∀ i ∈ l, 0 ≤ i ∧ i < t.length)) ∧
    (∀ l, Decides (CellOp.exec s (.xyzTrue l)) s { s with xyzTrue := some (sorted l) } (∀ t, s.atomTrue = some t → ∀ i ∈ l, i ∈ t)) ∧
    (∀ l, Decides (CellOp.exec s (.mass l)) s { s with mass := some l } (∀ t, s.atomTrue = some t → l.length = 3 * t.length)) := by
  refine ⟨fun a => ?_, fun l => ?_, fun l => ?_, fun c cs => ?_, fun a => ?_, fun l => ?_, fun l => ?_, fun l => ?_⟩
  · rw [← hasShape_three]
    exact ⟨fun h => by simp [CellOp.exec, setLattice, h], fun h => by simp [CellOp.exec, setLattice, h]⟩
  · cases hc : s.cart with
    | none => exact ⟨fun _ => by simp [CellOp.exec, setAtomType, hc], fun h => absurd (by simp) h⟩
    | some c => exact ⟨fun h => by simp [CellOp.exec, setAtomType, hc, h c rfl],
        fun h => by
          have : l.length ≠ c.length := fun e => h fun c' e' => by cases e'; exact e
          simp [CellOp.exec, setAtomType, hc, this]⟩
  · cases hc : s.cart with
    | none => exact ⟨fun _ => by simp [CellOp.exec, setNumAtom, hc], fun h => absurd (by simp) h⟩
    | some c => exact ⟨fun h => by simp [CellOp.exec, setNumAtom, hc, h c rfl],
        fun h => by
          have : l.sum ≠ c.length := fun e => h fun c' e' => by cases e'; exact e
          simp [CellOp.exec, setNumAtom, hc, this]⟩
  · refine ⟨fun h => ?_, fun h => ?_, fun h => ?_⟩
    · have : c = 'D' ∨ c = 'd' := by simpa using h
      simp [CellOp.exec, setCoordinate, this]
    · have h' : c = 'C' ∨ c = 'c' ∨ c = 'K' ∨ c = 'k' := by simpa using h
      rcases h' with rfl | rfl | rfl | rfl <;> simp [CellOp.exec, setCoordinate]
    · simp only [List.mem_cons, List.not_mem_nil, or_false, not_or] at h
      simp [CellOp.exec, setCoordinate, h]
  · cases ht : s.atomType with
    | none => exact ⟨fun _ => by simp [CellOp.exec, setCart, ht], fun h => absurd (by simp) h⟩
    | some t => exact ⟨fun h => by
          have := (hasShape_iff a t.length).2 (h t rfl)
          simp [CellOp.exec, setCart, ht, this],
        fun h => by
          have : ¬hasShape a t.length = true := fun e => h fun t' e' => by cases e'; exact (hasShape_iff _ _).1 e
          simp [CellOp.exec, setCart, ht, this]⟩
  · cases ht : s.atomType with
    | none => exact ⟨fun _ => by simp [CellOp.exec, setAtomTrue, ht], fun h => absurd (by simp) h⟩
    | some t => exact ⟨fun h => by
          have : (l.all fun i => decide (0 ≤ i ∧ i < t.length)) = true := by simpa using h t rfl
          simp only [CellOp.exec, setAtomTrue, ht, this, if_true],
        fun h => by
          have : ¬(l.all fun i => decide (0 ≤ i ∧ i < t.length)) = true := fun e => h fun t' e' => by cases e'; simpa using e
          simp only [CellOp.exec, setAtomTrue, ht, if_neg this]
          exact ⟨trivial, by simp⟩⟩
  · cases ht : s.atomTrue with
    | none => exact ⟨fun _ => by simp [CellOp.exec, setXyzTrue, ht], fun h => absurd (by simp) h⟩
    | some t => exact ⟨fun h => by
          have : (l.all fun i => decide (i ∈ t)) = true := by simpa using h t rfl
          simp only [CellOp.exec, setXyzTrue, ht, this, if_true],
        fun h => by
          have : ¬(l.all fun i => decide (i ∈ t)) = true := fun e => h fun t' e' => by cases e'; simpa using e
          simp only [CellOp.exec, setXyzTrue, ht, if_neg this]
          exact ⟨trivial, by simp⟩⟩
  · cases ht : s.atomTrue with
    | none => exact ⟨fun _ => by simp [CellOp.exec, setMass, ht], fun h => absurd (by simp) h⟩
    | some t => exact ⟨fun h => by simp [CellOp.exec, setMass, ht, h t rfl],
        fun h => by
          have : l.length ≠ 3 * t.length := fun e => h fun t' e' => by cases e'; exact e
          simp [CellOp.exec, setMass, ht, this]⟩

/-! ### C12 -/

section
variable {K : Type*} [Field K]

/-- **C12.** For a non-singular lattice, direct → Cartesian → direct and Cartesian → direct → Cartesian are
both the identity, and the Cartesian row stored for direct coordinates `(x,y,z)` is `x a₁ + y a₂ + z a₃`. -/
theorem C12_direct_cartesian (L : M3 K) (hL : L.det ≠ 0) (l : List (V3 K)) :
    atomDirect L (cartOfDirect L l) = l ∧ cartOfDirect L (atomDirect L l) = l ∧
    (∀ (i : ℕ) (v : V3 K), l[i]? = some v →
      (cartOfDirect L l)[i]? = some (fun j => v 0 * L 0 j + v 1 * L 1 j + v 2 * L 2 j)) := by
  have hu : IsUnit L.det := isUnit_iff_ne_zero.mpr hL
  refine ⟨?_, ?_, ?_⟩
  · simp [atomDirect, cartOfDirect, Matrix.vecMul_vecMul, Matrix.mul_nonsing_inv _ hu, Function.comp_def]
  · simp [atomDirect, cartOfDirect, Matrix.vecMul_vecMul, Matrix.nonsing_inv_mul _ hu, Function.comp_def]
  · intro i v hv
    simp only [cartOfDirect, List.getElem?_map, hv, Option.map_some]
    congr 1
    funext j
    simp [Matrix.vecMul, dotProduct, Fin.sum_univ_three]

/-- **C12** (direct coordinates are lattice-independent labels).  Translating an atom by an integer lattice
vector changes its direct coordinates by exactly these integers. -/
theorem C12_translation_shifts_direct (L : M3 K) (hL : L.det ≠ 0) (v t : V3 K) :
    Matrix.vecMul (fun j => v j + (t 0 * L 0 j + t 1 * L 1 j + t 2 * L 2 j)) L⁻¹ = Matrix.vecMul v L⁻¹ + t := by
  have hu : IsUnit L.det := isUnit_iff_ne_zero.mpr hL
  have : (fun j => v j + (t 0 * L 0 j + t 1 * L 1 j + t 2 * L 2 j)) = v + Matrix.vecMul t L := by
    funext j
    simp [Matrix.vecMul, dotProduct, Fin.sum_univ_three]
  rw [this, Matrix.add_vecMul, Matrix.vecMul_vecMul, Matrix.mul_nonsing_inv _ hu, Matrix.vecMul_one]

example : (!![3, 0, 0; 1, 4, 0; 0, 0, 20] : M3 ℚ).det ≠ 0 := by simp [Matrix.det_fin_three]

end

/-- **C12** (assigning direct coordinates).  Assigning direct coordinates to an object with lattice vectors `a`, `b`, `c` stores the Cartesian rows
`x a + y b + z c`; it raises, changing nothing, if the number of rows differs from the number of types or if there is no lattice. -/
theorem C12_direct_setter (s : RawCell) (a0 a1 a2 b0 b1 b2 c0 c1 c2 : ℚ) (rows : List (ℚ × ℚ × ℚ)) :
    (s.lattice = some [[a0, a1, a2], [b0, b1, b2], [c0, c1, c2]] → (∀ t, s.atomType = some t → rows.length = t.length ∧ rows ≠ []) →
      CellOp.exec s (.direct (rows.map fun r => [r.1, r.2.1, r.2.2])) =
        ({ s with cart := some (rows.map fun r => [r.1 * a0 + r.2.1 * b0 + r.2.2 * c0, r.1 * a1 + r.2.1 * b1 + r.2.2 * c1,
            r.1 * a2 + r.2.1 * b2 + r.2.2 * c2]) }, none)) ∧
    (s.lattice = none ∨ (∃ t, s.atomType = some t ∧ rows.length ≠ t.length) →
      (CellOp.exec s (.direct (rows.map fun r => [r.1, r.2.1, r.2.2]))).1 = s ∧
      (CellOp.exec s (.direct (rows.map fun r => [r.1, r.2.1, r.2.2]))).2 ≠ none) := by
  have hrow : ∀ r ∈ rows.map (fun r : ℚ × ℚ × ℚ => [r.1, r.2.1, r.2.2]), r.length = 3 := by
    intro r hr; obtain ⟨q, _, rfl⟩ := List.mem_map.1 hr; rfl
  constructor
  · intro hl ht
    have hall : (rows.map (fun r : ℚ × ℚ × ℚ => [r.1, r.2.1, r.2.2])).all (fun r => decide (r.length = 3)) = true := by
      simp
    have hdot : dotLattice (rows.map fun r : ℚ × ℚ × ℚ => [r.1, r.2.1, r.2.2]) s.lattice = .ok (rows.map fun r =>
        [r.1 * a0 + r.2.1 * b0 + r.2.2 * c0, r.1 * a1 + r.2.1 * b1 + r.2.2 * c1, r.1 * a2 + r.2.1 * b2 + r.2.2 * c2]) := by
      rw [hl]
      simp only [dotLattice, List.length_cons, List.length_nil, Nat.reduceAdd, hall, if_true, List.map_map]
      congr 1
      refine List.map_congr_left fun r _ => ?_
      simp [dotRow, List.range_succ, add_assoc]
    cases hty : s.atomType with
    | none => simp only [CellOp.exec, setDirect, hty, hdot]
    | some t =>
      have hs : hasShape (rows.map fun r : ℚ × ℚ × ℚ => [r.1, r.2.1, r.2.2]) t.length = true :=
        (hasShape_iff _ _).2 ⟨by simpa using (ht t hty).1, by simpa using (ht t hty).2, hrow⟩
      simp only [CellOp.exec, setDirect, hty, hs, hdot, if_true]
  · rintro h
    cases hty : s.atomType with
    | none =>
      rcases h with h | ⟨t, h, _⟩
      · simp [CellOp.exec, setDirect, hty, h, dotLattice]
      · rw [hty] at h; cases h
    | some t =>
      rcases h with h | ⟨t', h, hne⟩
      · simp only [CellOp.exec, setDirect, hty, h, dotLattice]
        split_ifs <;> simp
      · rw [hty] at h; cases h
        have hs : ¬hasShape (rows.map fun r : ℚ × ℚ × ℚ => [r.1, r.2.1, r.2.2]) t.length = true := by
          intro e; exact hne (by simpa using ((hasShape_iff _ _).1 e).1)
        simp [CellOp.exec, setDirect, hty, hs]

example : (CellOp.exec { lattice := some [[3, 0, 0], [1, 4, 0], [0, 0, 20]] } (.direct [[1 / 2, 1 / 4, 0]])).1.cart = some [[7 / 4, 1, 0]] := by
  decide +kernel

/-! ### C13 -/

/-- **C13.** The result of `read_unit_cell` does not depend on the previous content of the object. -/
theorem C13_reading_forgets (s t : RawCell) (code : Str) (v e a : Unit → Run Parsed) :
    readUnitCell s code v e a = readUnitCell t code v e a := by
  have : initialization s = initialization t := rfl
  unfold readUnitCell
  rw [this]

/-- **C13** (unknown code).  For an unknown code name the object ends up empty, without an exception. -/
theorem C13_unknown_code_empties (s : RawCell) (code : Str) (v e a : Unit → Run Parsed)
    (h1 : code ≠ "vasp".toList) (h2 : code ≠ "espresso".toList) (h3 : code ≠ "aims".toList) :
    readUnitCell s code v e a = ({}, none) := by
  simp only [readUnitCell, h1, h2, h3, if_false]
  rfl

/-- **C13** (known code).  For a known code the outcome is the parser's exception on an empty object, or
the assignment of the parsed values to an empty object. -/
theorem C13_known_code (s : RawCell) (v e a : Unit → Run Parsed) :
    readUnitCell s "vasp".toList v e a = (match v () with | .error x => ({}, some x) | .ok p => assignParsed {} p) ∧
    readUnitCell s "espresso".toList v e a = (match e () with | .error x => ({}, some x) | .ok p => assignParsed {} p) ∧
    readUnitCell s "aims".toList v e a = (match a () with | .error x => ({}, some x) | .ok p => assignParsed {} p) := by
  have h1 : ("espresso".toList = "vasp".toList) = False := by decide +kernel
  have h2 : ("aims".toList = "vasp".toList) = False := by decide +kernel
  have h3 : ("aims".toList = "espresso".toList) = False := by decide +kernel
  refine ⟨?_, ?_, ?_⟩
  · simp only [readUnitCell, if_true]; rfl
  · simp only [readUnitCell, h1, if_false, if_true]; rfl
  · simp only [readUnitCell, h2, h3, if_false, if_true]; rfl

/-! ### C14 -/

private theorem weights_get (t : List Str) (ws : List ℚ) (h : weights t = .ok ws) :
    ws.length = t.length ∧ ∀ (i : ℕ) (x : Str), t[i]? = some x → ∃ w, ws[i]? = some w ∧
      AtomicWeight.getAtomicWeight x = .ok (some w) := by
  induction t generalizing ws with
  | nil => cases h; simp
  | cons a as ih =>
    unfold weights at h
    split at h
    · cases h
    · cases h
    · rename_i w hw
      split at h
      · cases h
      · rename_i ws' hws
        cases h
        obtain ⟨l, g⟩ := ih ws' hws
        refine ⟨by simp [l], ?_⟩
        intro i x hx
        cases i with
        | zero => simp at hx; subst hx; exact ⟨w, by simp, hw⟩
        | succ i => simpa using g i x (by simpa using hx)

private theorem fancy_get (l : List ℚ) (x : List ℤ) (m : List ℚ) (h : fancy l x = .ok m) :
    m.length = x.length ∧ ∀ (k : ℕ) (i : ℤ), x[k]? = some i → 0 ≤ i → m[k]? = l[i.toNat]? := by
  induction x generalizing m with
  | nil => cases h; simp
  | cons a as ih =>
    unfold fancy at h
    split at h
    · cases h
    · rename_i v hv
      split at h
      · cases h
      · rename_i ms hms
        cases h
        obtain ⟨hl, g⟩ := ih ms hms
        refine ⟨by simp [hl], ?_⟩
        intro k i hk hi
        cases k with
        | zero =>
          simp at hk; subst hk
          simp only [pyGet, hi, if_true, getE] at hv
          split at hv
          · rename_i w hw; cases hv; simp [hw]
          · cases hv
        | succ k => simpa using g k i (by simpa using hk) hi

/-- Table weights are positive whenever the lookup yields a number. -/
private theorem weight_pos (x : Str) (w : ℚ) (h : AtomicWeight.getAtomicWeight x = .ok (some w)) : 0 < w := by
  rcases C65_only_elements_partial x with ⟨k, hk⟩ | ⟨e, he, hes⟩ | hbad
  · obtain ⟨w', -, hpos, hw'⟩ := C64_element_weight x k hk
    rw [h] at hw'; cases hw'; exact hpos
  · have h1 : ∀ e ∈ ["Short_name".toList, "Full_name".toList, "Atomic_number".toList],
        AtomicWeight.getAtomicWeight e = .ok none := by decide +kernel
    rw [← C64_case_insensitive e x hes, h1 e he] at h
    cases h
  · rw [h] at hbad; cases hbad

/-- **C14.** If `set_mass_true` returns normally, the `k`-th stored mass is the tabulated weight of the atom
type of the `k`-th selected degree of freedom, divided by 6.022e23 and 1000, it is positive, and there is
one mass per degree of freedom (so equal degrees of freedom get equal masses). -/
theorem C14_masses (s s' : RawCell) (t : List Str) (x : List ℤ) (ht : s.atomType = some t) (hx : s.xyzTrue = some x)
    (h : setMassTrue s = (s', none)) :
    ∃ m, s'.mass = some m ∧ m.length = x.length ∧
      ∀ (k i : ℕ) (ty : Str), x[k]? = some (i : ℤ) → t[i]? = some ty →
        ∃ w, AtomicWeight.getAtomicWeight ty = .ok (some w) ∧ m[k]? = some (w / (6022 * 10 ^ 20) / 1000) ∧
          0 < w / (6022 * 10 ^ 20) / 1000 := by
  unfold setMassTrue at h
  simp only [ht, hx] at h
  split at h
  · simp at h
  · rename_i ws hws
    split at h
    · simp at h
    · rename_i m hm
      obtain ⟨wl, wg⟩ := weights_get t ws hws
      obtain ⟨fl, fg⟩ := fancy_get _ _ _ hm
      have hs' : s'.mass = some m := by
        unfold setMass at h
        split at h
        · cases h; rfl
        · split_ifs at h
          · cases h; rfl
          · simp at h
      refine ⟨m, hs', fl, ?_⟩
      intro k i ty hk hty
      obtain ⟨w, hw, hget⟩ := wg i ty hty
      refine ⟨w, hget, ?_, ?_⟩
      · rw [fg k i hk (by omega)]
        simp [hw]
      · have := weight_pos ty w hget
        positivity

private theorem fancy_get_neg (l : List ℚ) (x : List ℤ) (m : List ℚ) (h : fancy l x = .ok m) :
    ∀ (k j : ℕ) (i : ℤ), x[k]? = some i → i < 0 → i + l.length = j → m[k]? = l[j]? := by
  induction x generalizing m with
  | nil => cases h; simp
  | cons a as ih =>
    unfold fancy at h
    split at h
    · cases h
    · rename_i v hv
      split at h
      · cases h
      · rename_i ms hms
        cases h
        intro k j i hk hi hj
        cases k with
        | zero =>
          simp at hk; subst hk
          have e : ((l.length : ℤ) + a).toNat = j := by omega
          simp only [pyGet, getE, if_neg (not_le.mpr hi), if_pos (show -(l.length : ℤ) ≤ a by omega), e] at hv
          split at hv
          · rename_i w hw; cases hv; simp [hw]
          · cases hv
        | succ k => simpa using ih ms hms k j i (by simpa using hk) hi hj

/-- **C14** (negative indices).  An index `-1, -2, …` in `xyz_true` (which the setter accepts as long as no atom types are known) counts from the end,
as everywhere in numpy: the mass is that of the last, last but one, … atom. -/
theorem C14_masses_negative (s s' : RawCell) (t : List Str) (x : List ℤ) (ht : s.atomType = some t) (hx : s.xyzTrue = some x)
    (h : setMassTrue s = (s', none)) :
    ∃ m, s'.mass = some m ∧
      ∀ (k j : ℕ) (i : ℤ) (ty : Str), x[k]? = some i → i < 0 → i + t.length = j → t[j]? = some ty →
        ∃ w, AtomicWeight.getAtomicWeight ty = .ok (some w) ∧ m[k]? = some (w / (6022 * 10 ^ 20) / 1000) := by
  unfold setMassTrue at h
  simp only [ht, hx] at h
  split at h
  · simp at h
  · rename_i ws hws
    split at h
    · simp at h
    · rename_i m hm
      obtain ⟨wl, wg⟩ := weights_get t ws hws
      have fg := fancy_get_neg _ _ _ hm
      have hs' : s'.mass = some m := by
        unfold setMass at h
        split at h
        · cases h; rfl
        · split_ifs at h
          · cases h; rfl
          · simp at h
      refine ⟨m, hs', ?_⟩
      intro k j i ty hk hi hj hty
      obtain ⟨w, hw, hget⟩ := wg j ty hty
      refine ⟨w, hget, ?_⟩
      rw [fg k j i hk hi (by rw [List.length_map, wl]; exact hj)]
      simp [hw]

example : let s : RawCell := { atomType := some ["Au".toList, "Ag".toList], xyzTrue := some [-1, 0] }
    ((setMassTrue s).2 = none) ∧ (setMassTrue s).1.mass = ((setMassTrue { s with xyzTrue := some [1, 0] }).1).mass := by decide +kernel

/-- **C14** (unknown element).  If some atom type has no weight, `set_mass_true` raises and stores nothing. -/
theorem C14_unknown_element_raises (s : RawCell) (t : List Str) (ht : s.atomType = some t) (x : Str) (hx : x ∈ t)
    (e : PyErr) (hbad : AtomicWeight.getAtomicWeight x = .error e) :
    ∃ e', setMassTrue s = (s, some e') := by
  have : ∀ t : List Str, x ∈ t → ∃ e', weights t = .error e' := by
    intro t
    induction t with
    | nil => intro h; simp at h
    | cons a as ih =>
      intro h
      unfold weights
      rcases List.mem_cons.mp h with rfl | h'
      · rw [hbad]; exact ⟨e, rfl⟩
      · obtain ⟨e', he'⟩ := ih h'
        split
        · exact ⟨_, rfl⟩
        · exact ⟨_, rfl⟩
        · rw [he']; exact ⟨e', rfl⟩
  obtain ⟨e', he'⟩ := this t hx
  exact ⟨e', by simp [setMassTrue, ht, he']⟩

example : (setMassTrue (assignParsed {} exampleParsed).1).2 = none := by decide +kernel

end Interphon.Props
