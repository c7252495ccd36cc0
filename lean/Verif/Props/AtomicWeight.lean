import Verif.Model.AtomicWeight
import Verif.Lemmas.Char

/-! # Properties C64, C65: atomic weights -/

namespace Interphon.Props
open Py Interphon.AtomicWeight

/-- Equality up to letter case. -/
def SameUpToCase (s t : Str) : Prop := s.map Char.toLower = t.map Char.toLower

/-- A string names element number `k` (1–118): up to letter case it is the symbol, the English name or the
number of row `k` of the table. -/
def NamesElement (s : Str) (k : ℕ) : Prop :=
  1 ≤ k ∧ ∃ row, table[k]? = some row ∧ ∃ e ∈ row, SameUpToCase e s

/-- Complete evaluation of the finite table: each entry is found in its own row. -/
private theorem lookup_all : ∀ k < 119, ∀ e ∈ (table[k]?).getD [], findRow e = some k ∧ capitalize e = e := by
  decide +kernel

private theorem weights_pos : ∀ k < 119, 1 ≤ k → ∃ w ∈ atomicWeights[k]?.join, 0 < w := by
  decide +kernel

private theorem table_length : table.length = 119 := by decide +kernel

private theorem capitalize_congr (s t : Str) (h : SameUpToCase s t) : capitalize s = capitalize t := by
  unfold SameUpToCase at h
  cases s with
  | nil => cases t with
    | nil => rfl
    | cons c cs => simp at h
  | cons c cs => cases t with
    | nil => simp at h
    | cons d ds =>
      simp only [List.map_cons, List.cons.injEq] at h
      simp only [capitalize, h.2]
      rw [← toUpper_toLower c, h.1, toUpper_toLower]

private theorem capitalize_same (s : Str) : SameUpToCase (capitalize s) s := by
  unfold SameUpToCase
  cases s with
  | nil => rfl
  | cons c cs =>
    simp only [capitalize, List.map_cons, toLower_toUpper, List.map_map]
    congr 1
    apply List.map_congr_left
    intro x _
    exact toLower_toLower x

/-- **C64** (letter case).  Strings that differ only in letter case get the same answer. -/
theorem C64_case_insensitive (s t : Str) (h : SameUpToCase s t) : getAtomicWeight s = getAtomicWeight t := by
  unfold getAtomicWeight
  rw [capitalize_congr s t h]

/-- **C64** (every element is found).  A string naming element `k` gets the `k`-th tabulated weight, which
is a positive number. -/
theorem C64_element_weight (s : Str) (k : ℕ) (h : NamesElement s k) :
    ∃ w, atomicWeights[k]? = some (some w) ∧ 0 < w ∧ getAtomicWeight s = .ok (some w) := by
  obtain ⟨hk, row, hrow, e, he, hes⟩ := h
  have hlt : k < 119 := by
    rw [← table_length]
    exact (List.getElem?_eq_some_iff.mp hrow).1
  obtain ⟨hf, hc⟩ := lookup_all k hlt e (by rw [hrow]; exact he)
  obtain ⟨w, hw, hpos⟩ := weights_pos k hlt hk
  have hw' : atomicWeights[k]? = some (some w) := by
    cases h : atomicWeights[k]? with
    | none => rw [h] at hw; simp at hw
    | some o => rw [h] at hw; simp at hw; rw [hw]
  refine ⟨w, hw', hpos, ?_⟩
  rw [← C64_case_insensitive e s hes]
  simp only [getAtomicWeight, hc, hf, hw']

/-- **C64** (no confusion).  No string names two different elements. -/
theorem C64_no_confusion (s : Str) (k l : ℕ) (hk : NamesElement s k) (hl : NamesElement s l) : k = l := by
  obtain ⟨-, row, hrow, e, he, hes⟩ := hk
  obtain ⟨-, row', hrow', e', he', hes'⟩ := hl
  have h1 : k < 119 := by rw [← table_length]; exact (List.getElem?_eq_some_iff.mp hrow).1
  have h2 : l < 119 := by rw [← table_length]; exact (List.getElem?_eq_some_iff.mp hrow').1
  obtain ⟨a1, a2⟩ := lookup_all k h1 e (by rw [hrow]; exact he)
  obtain ⟨b1, b2⟩ := lookup_all l h2 e' (by rw [hrow']; exact he')
  have : e = e' := by
    rw [← a2, ← b2]
    exact capitalize_congr e e' (hes.trans hes'.symm)
  subst this
  rw [a1] at b1
  exact Option.some.inj b1

private theorem findRow_some (e : Str) (k : ℕ) (h : findRow e = some k) : ∃ row, table[k]? = some row ∧ e ∈ row := by
  unfold findRow at h
  rw [List.findIdx?_eq_some_iff_getElem] at h
  obtain ⟨hlt, h1, -⟩ := h
  exact ⟨_, List.getElem?_eq_getElem hlt, by simpa using h1⟩

/-- **C65, proved part / C64** (rejection).  A string that gets an answer names an element of the table or,
up to letter case, one of the three words of the header row; every other string raises `NameError`.
Missing from C65: the header words (see `C65_refuted`). -/
theorem C65_only_elements_partial (s : Str) :
    (∃ k, NamesElement s k) ∨ (∃ e ∈ ["Short_name".toList, "Full_name".toList, "Atomic_number".toList], SameUpToCase e s) ∨
      getAtomicWeight s = .error .nameError := by
  unfold getAtomicWeight
  cases h : findRow (capitalize s) with
  | none => right; right; rfl
  | some k =>
    obtain ⟨row, hrow, hmem⟩ := findRow_some _ _ h
    rcases Nat.eq_zero_or_pos k with rfl | hk
    · right; left
      refine ⟨_, ?_, capitalize_same s⟩
      have : table[0]? = some ["Short_name".toList, "Full_name".toList, "Atomic_number".toList] := by decide +kernel
      rw [this] at hrow
      cases hrow
      exact hmem
    · left
      exact ⟨k, hk, row, hrow, _, hmem, capitalize_same s⟩

/-- Full C65: every string that names no element raises. -/
def C65_full : Prop := ∀ s, (¬ ∃ k, NamesElement s k) → ∃ e, getAtomicWeight s = .error e

/-- The lookup succeeds (with Python's `None`) on the header word. -/
theorem C65_header_returns_none : getAtomicWeight "short_name".toList = .ok none := by decide +kernel

/-- **C65 is false**: the header word `short_name` returns `None` instead of raising. -/
theorem C65_refuted : ¬ C65_full := by
  intro h
  obtain ⟨e, he⟩ := h "short_name".toList (by
    rintro ⟨k, hk⟩
    obtain ⟨w, -, -, hw⟩ := C64_element_weight _ k hk
    rw [C65_header_returns_none] at hw
    cases hw)
  rw [C65_header_returns_none] at he
  cases he

/-- **C65** (exactly when).  A string is rejected precisely when it names no element and is not, up to letter case, one of the three words of
the header row; the header words get no weight but no exception either. -/
theorem C65_rejected_iff (s : Str) :
    ((∃ e, getAtomicWeight s = .error e) ↔
      (¬ ∃ k, NamesElement s k) ∧ ¬ ∃ e ∈ ["Short_name".toList, "Full_name".toList, "Atomic_number".toList], SameUpToCase e s) ∧
    ((∃ e ∈ ["Short_name".toList, "Full_name".toList, "Atomic_number".toList], SameUpToCase e s) → getAtomicWeight s = .ok none) := by
  have hh : (∃ e ∈ ["Short_name".toList, "Full_name".toList, "Atomic_number".toList], SameUpToCase e s) → getAtomicWeight s = .ok none := by
    rintro ⟨e, he, hes⟩
    rw [← C64_case_insensitive e s hes]
    revert e
    simp only [List.mem_cons, List.not_mem_nil, or_false]
    rintro e (rfl | rfl | rfl) - <;> decide +kernel
  refine ⟨⟨?_, ?_⟩, hh⟩
  · rintro ⟨e, he⟩
    constructor
    · rintro ⟨k, hk⟩
      obtain ⟨w, -, -, hw⟩ := C64_element_weight _ k hk
      rw [he] at hw
      cases hw
    · intro h
      rw [hh h] at he
      cases he
  · rintro ⟨h1, h2⟩
    rcases C65_only_elements_partial s with h | h | h
    · exact absurd h h1
    · exact absurd h h2
    · exact ⟨_, h⟩

/-- Non-vacuity: `gALLIUM` names element 31, weight 69.723. -/
example : NamesElement "gALLIUM".toList 31 ∧ getAtomicWeight "gALLIUM".toList = .ok (some (69723/1000)) :=
  ⟨⟨by decide, _, rfl, "Gallium".toList, by decide +kernel, by unfold SameUpToCase; decide +kernel⟩, by decide +kernel⟩
example : getAtomicWeight "Xx".toList = .error .nameError := by decide +kernel

end Interphon.Props
