import Verif.Model.Aims
import Verif.Props.Espresso

/-!
# Properties of the FHI-aims reader and writer (C59)
-/

namespace Interphon.Props
open Py Interphon Interphon.Inout Interphon.UnitCell

namespace Aims
open Interphon.Aims

/-- The atom line of the writer. -/
def atomText (t : Str) (v : V3 ℚ) : Str := "atom ".toList ++ row v ++ (' ' :: (t ++ ['\n']))

/-- The line written below a fixed atom. -/
def fixedText : Str := "    constrain_relaxation .true.\n".toList

theorem posLines_eq (c : Cell ℚ) (i : ℕ) (t : Str) (v : V3 ℚ) :
    posLines c i t v = if QE.isFixed c i then [atomText t v, fixedText] else [atomText t v] := by
  unfold posLines QE.isFixed atomText fixedText
  by_cases h : c.selective = true ∧ i ∉ c.atomTrue.getD []
  · rw [if_pos h, if_pos (by simpa using h)]
  · rw [if_neg h, if_neg (by simpa using h)]

theorem atomText_split {t : Str} (ht : IsToken t) (v : V3 ℚ) : split (atomText t v) = "atom".toList :: (rowTokens v ++ [t]) := by
  have h1 : IsToken "atom".toList := ⟨by decide, by decide⟩
  have e : atomText t v = "atom".toList ++ ' ' :: (row v ++ ' ' :: (t ++ '\n' :: [])) := by simp [atomText]
  rw [e, split_token_ws h1 (by decide), split_row v (by decide), split_token_ws ht (by decide), split_nil]

theorem latText_split (v : V3 ℚ) : split ("lattice_vector ".toList ++ row v ++ ['\n']) = "lattice_vector".toList :: rowTokens v := by
  have h1 : IsToken "lattice_vector".toList := ⟨by decide, by decide⟩
  have e : "lattice_vector ".toList ++ row v ++ ['\n'] = "lattice_vector".toList ++ ' ' :: (row v ++ '\n' :: []) := by simp
  rw [e, split_token_ws h1 (by decide), split_row v (by decide), split_nil, List.append_nil]

/-- A word that starts with a letter is not a number. -/
theorem word_not_row {w : Str} {x : Char} (hx : x ∈ w) (h1 : digitVal x = none) (h2 : x ≠ '-') (h3 : x ≠ '.') (v : V3 ℚ) : w ∉ rowTokens v := by
  intro h
  have hT : ∀ q, w ≠ fmtFixed 16 q := by
    intro q e
    rw [e] at hx
    exact fmtFixed_not_mem h1 h2 h3 hx
  simp only [rowTokens, List.mem_cons, List.not_mem_nil, or_false] at h
  rcases h with h | h | h <;> exact hT _ h

theorem atomText_free {t : Str} (ht : PlainName t) (v : V3 ℚ) : isInfix constraint (atomText t v) = false := by
  rw [Bool.eq_false_iff, Ne, isInfix_iff]
  refine not_infix_of_mem (c := '_') (by decide) ?_
  simp only [atomText, List.mem_append, List.mem_cons, List.not_mem_nil, or_false, not_or]
  exact ⟨⟨by decide, row_not_mem (by decide) (by decide) (by decide) (by decide) v⟩, by decide, ht.underscore, by decide⟩

/-- The atoms read from the lines written for them. -/
theorem atoms_written (c : Cell ℚ) : ∀ (l : List (Str × V3 ℚ)) (k : ℕ), (∀ x ∈ l, PlainName x.1) →
    atoms (l.mapIdx fun i x => posLines c (k + i) x.1 x.2).flatten = .ok (l.mapIdx fun i x => (x.1, rowTokens x.2, QE.isFixed c (k + i)))
  | [], _, _ => rfl
  | x :: l, k, h => by
    have hx := h x (by simp)
    have ih := atoms_written c l (k + 1) fun y hy => h y (by simp [hy])
    have e1 : (fun i (y : Str × V3 ℚ) => posLines c (k + (i + 1)) y.1 y.2) = fun i y => posLines c (k + 1 + i) y.1 y.2 := by
      funext i y; rw [show k + (i + 1) = k + 1 + i by ring]
    have e2 : (fun i (y : Str × V3 ℚ) => (y.1, rowTokens y.2, QE.isFixed c (k + (i + 1)))) =
        fun i y => (y.1, rowTokens y.2, QE.isFixed c (k + 1 + i)) := by
      funext i y; rw [show k + (i + 1) = k + 1 + i by ring]
    rw [List.mapIdx_cons, List.mapIdx_cons, List.flatten_cons, e1, e2]
    set R := (l.mapIdx fun i x => posLines c (k + 1 + i) x.1 x.2).flatten with hR
    have hatom : "atom".toList ∈ split (atomText x.1 x.2) := by rw [atomText_split hx.token]; simp
    have hget : getE (split (atomText x.1 x.2)) 4 = .ok x.1 := by rw [atomText_split hx.token]; rfl
    have htake : ((split (atomText x.1 x.2)).take 4).drop 1 = rowTokens x.2 := by rw [atomText_split hx.token]; rfl
    have hnext : nextFixed R = false := by
      rw [hR]
      cases l with
      | nil => rfl
      | cons y l =>
        have hy := h y (by simp)
        simp only [List.mapIdx_cons, List.flatten_cons, posLines_eq]
        split <;> simp [nextFixed, atomText_free hy]
    have hfree := atomText_free hx x.2
    rw [posLines_eq, Nat.add_zero]
    by_cases hf : QE.isFixed c k = true
    · rw [if_pos hf]
      have hnot : "atom".toList ∉ split fixedText := by decide
      show atoms (atomText x.1 x.2 :: fixedText :: R) = _
      rw [atoms, if_pos hatom, hget, htake, nextFixed, atoms, if_neg hnot, ih]
      have : isInfix constraint fixedText = true := by decide
      simp only [hfree, this, hf, Bool.false_or]
    · rw [if_neg hf]
      show atoms (atomText x.1 x.2 :: R) = _
      rw [atoms, if_pos hatom, hget, htake, ih]
      simp only [hfree, hnext, Bool.false_or, Bool.eq_false_iff.2 hf]

theorem atoms_skip : ∀ (L R : List Str), (∀ l ∈ L, "atom".toList ∉ split l) → atoms (L ++ R) = atoms R
  | [], R, _ => rfl
  | l :: L, R, h => by
    rw [List.cons_append, atoms, if_neg (h l (by simp)), atoms_skip L R fun x hx => h x (by simp [hx])]

end Aims
open Aims Interphon.Aims

/-- **C59.**  For every structure of elements the written FHI-aims file is read back into the same types, their run lengths as counts, the
lattice and positions rounded to 16 decimals, and the same selected atoms; the selection flag read back says whether some atom is fixed. -/
theorem C59_roundtrip (c : Cell ℚ) (groups : List (Str × ℕ)) (hruns : IsRuns c.atomType groups) (hlen : c.cart.length = c.atomType.length)
    (hname : ∀ t ∈ c.atomType, ∃ k, NamesElement t k)
    (hsel : c.selective = true → ∃ sel, c.atomTrue = some sel ∧ sel.Pairwise (· < ·) ∧ ∀ a ∈ sel, a < c.cart.length) :
    ∃ ls, writeInput c = .ok ls ∧ readInput (readlines ls.flatten) = .ok {
      lattice := (List.finRange 3).map fun i => [rndDec 16 (c.lattice i 0), rndDec 16 (c.lattice i 1), rndDec 16 (c.lattice i 2)]
      atomType := c.atomType
      numAtom := groups.map fun g => (g.2 : ℤ)
      selective := decide (∃ i < c.cart.length, i ∉ selectedAtoms c)
      coordinate := "cartesian".toList
      cart := c.cart.map fun v => [rndDec 16 (v 0), rndDec 16 (v 1), rndDec 16 (v 2)]
      atomTrue := (selectedAtoms c).map fun a : ℕ => (a : ℤ)
      xyzTrue := ((selectedAtoms c).flatMap fun a => [a, a, a]).map fun a : ℕ => (a : ℤ) } := by
  have hplain : ∀ t ∈ c.atomType, PlainName t := fun t ht => by
    obtain ⟨k, hk⟩ := hname t ht
    exact plainName hk
  have hcond : ¬(c.selective = true ∧ c.atomTrue = none ∧ c.cart ≠ []) := by
    rintro ⟨h1, h2, -⟩
    obtain ⟨sel, hs, -⟩ := hsel h1
    rw [h2] at hs; cases hs
  refine ⟨inputLines c, by rw [writeInput, if_neg hcond], ?_⟩
  set L := (List.finRange 3).map (fun i => "lattice_vector ".toList ++ row (c.lattice i) ++ ['\n']) with hL
  set P := ((c.atomType.zip c.cart).mapIdx fun i x => posLines c i x.1 x.2).flatten with hP
  have hzip : ∀ x ∈ c.atomType.zip c.cart, PlainName x.1 := fun x hx => hplain _ (List.of_mem_zip hx).1
  have hmemP : ∀ l ∈ P, l = fixedText ∨ ∃ x ∈ c.atomType.zip c.cart, l = atomText x.1 x.2 := by
    intro l hl
    rw [hP, List.mem_flatten] at hl
    obtain ⟨ls, hls, hl⟩ := hl
    rw [List.mem_mapIdx] at hls
    obtain ⟨i, hi, rfl⟩ := hls
    rw [posLines_eq] at hl
    have hm := List.getElem_mem hi
    split at hl
    · simp only [List.mem_cons, List.not_mem_nil, or_false] at hl
      rcases hl with rfl | rfl
      · exact .inr ⟨_, hm, rfl⟩
      · exact .inl rfl
    · rw [List.mem_singleton] at hl
      exact .inr ⟨_, hm, hl⟩
  have hlines : ∀ l ∈ L ++ P, IsLine l := by
    intro l hl
    have hr : ∀ v, '\n' ∉ row v := fun v => row_not_mem (by decide) (by decide) (by decide) (by decide) v
    rcases List.mem_append.1 hl with hl | hl
    · rw [hL, List.mem_map] at hl
      obtain ⟨i, -, rfl⟩ := hl
      exact ⟨"lattice_vector ".toList ++ row (c.lattice i), by
        rw [List.mem_append, not_or]; exact ⟨by decide, hr _⟩, rfl⟩
    · rcases hmemP l hl with rfl | ⟨x, hx, rfl⟩
      · exact QE.isLine_const (by decide)
      · refine ⟨"atom ".toList ++ row x.2 ++ (' ' :: x.1), ?_, by simp [atomText]⟩
        simp only [List.mem_append, List.mem_cons, not_or]
        exact ⟨⟨by decide, hr _⟩, by decide, token_no_newline (hzip x hx).token⟩
  have hin : inputLines c = L ++ P := rfl
  rw [readlines_flatten (by rw [hin]; exact hlines), hin]
  have hfilter : (L ++ P).filter (fun l => "lattice_vector".toList ∈ split l) = L := by
    rw [List.filter_append]
    have h1 : L.filter (fun l => "lattice_vector".toList ∈ split l) = L := by
      rw [List.filter_eq_self]
      intro l hl
      rw [hL, List.mem_map] at hl
      obtain ⟨i, -, rfl⟩ := hl
      rw [latText_split]; simp
    have h2 : P.filter (fun l => "lattice_vector".toList ∈ split l) = [] := by
      rw [List.filter_eq_nil_iff]
      intro l hl
      rcases hmemP l hl with rfl | ⟨x, hx, rfl⟩
      · decide
      · rw [atomText_split (hzip x hx).token, decide_eq_true_eq]
        simp only [List.mem_cons, List.mem_append, List.not_mem_nil, or_false, not_or]
        exact ⟨by decide, word_not_row (x := 'l') (by decide) (by decide) (by decide) (by decide) _, (hzip x hx).lattice.symm⟩
    rw [h1, h2, List.append_nil]
  have hskip : atoms (L ++ P) = atoms P := by
    apply atoms_skip
    intro l hl
    rw [hL, List.mem_map] at hl
    obtain ⟨i, -, rfl⟩ := hl
    rw [latText_split]
    simp only [List.mem_cons, not_or]
    exact ⟨by decide, word_not_row (x := 'a') (by decide) (by decide) (by decide) (by decide) _⟩
  have hatoms : atoms (L ++ P) = .ok ((c.atomType.zip c.cart).mapIdx fun i x => (x.1, rowTokens x.2, QE.isFixed c i)) := by
    rw [hskip]
    have := atoms_written c (c.atomType.zip c.cart) 0 hzip
    simpa only [Nat.zero_add] using this
  have hz1 : (((c.atomType.zip c.cart).mapIdx fun i x => (x.1, rowTokens x.2, QE.isFixed c i)).map fun a => a.1) = c.atomType := by
    apply List.ext_getElem (by simp [hlen])
    intro i h1 h2
    simp
  have hz2 : (((c.atomType.zip c.cart).mapIdx fun i x => (x.1, rowTokens x.2, QE.isFixed c i)).map fun a => a.2.1) = c.cart.map rowTokens := by
    apply List.ext_getElem (by simp [hlen])
    intro i h1 h2
    simp
  have hz3 : (((c.atomType.zip c.cart).mapIdx fun i x => (x.1, rowTokens x.2, QE.isFixed c i)).map fun a => a.2.2) =
      (List.range c.cart.length).map (QE.isFixed c) := by
    apply List.ext_getElem (by simp [hlen])
    intro i h1 h2
    simp
  have hany : (((c.atomType.zip c.cart).mapIdx fun i x => (x.1, rowTokens x.2, QE.isFixed c i)).any fun a => a.2.2) =
      decide (∃ i < c.cart.length, i ∉ selectedAtoms c) := by
    rw [show ∀ l : List (Str × List Str × Bool), l.any (fun a => a.2.2) = (l.map fun a => a.2.2).any id from fun l => by simp, hz3,
      Bool.eq_iff_iff, List.any_map, List.any_eq_true, decide_eq_true_eq]
    simp only [List.mem_range, Function.comp, id, QE.isFixed, decide_eq_true_eq, selectedAtoms]
    constructor
    · rintro ⟨i, hi, h1, h2⟩
      exact ⟨i, hi, by rw [if_pos h1]; exact h2⟩
    · rintro ⟨i, hi, h1⟩
      refine ⟨i, hi, ?_⟩
      split at h1
      · rename_i h; exact ⟨h, h1⟩
      · exact absurd (List.mem_range.2 hi) h1
  have hxyz : ∀ l : List ℕ, xyzOf (l.map fun a : ℕ => (a : ℤ)) = (l.flatMap fun a => [a, a, a]).map fun a : ℕ => (a : ℤ) := by
    intro l; simp [xyzOf, List.flatMap_map, List.map_flatMap]
  have hlat : asRows (L.map fun l => ((split l).take 4).drop 1) = .ok ((List.finRange 3).map fun i => rowValues (c.lattice i)) := by
    rw [hL, List.map_map]
    have : ((fun l => ((split l).take 4).drop 1) ∘ fun i => "lattice_vector ".toList ++ row (c.lattice i) ++ ['\n']) =
        fun i => rowTokens (c.lattice i) := by
      funext i; simp only [Function.comp]; rw [latText_split]; rfl
    rw [this]
    have := asRows_tokens ((List.finRange 3).map fun i => c.lattice i)
    simpa [List.map_map, Function.comp_def] using this
  have hfree : freeIndices ((List.range c.cart.length).map (QE.isFixed c)) = (selectedAtoms c).map fun a : ℕ => (a : ℤ) :=
    QE.free_indices c _ hsel
  unfold readInput
  rw [hfilter, hlat]
  simp only [hatoms, hz1, hz2, hz3, hany, asRows_tokens, hfree, runs_eq hruns, hxyz]
  rfl

/-- Non-vacuity: the example structure with one free atom. -/
example : ∃ ls p, writeInput exampleStructure = .ok ls ∧ readInput (readlines ls.flatten) = .ok p ∧ p.atomTrue = [1] ∧
    p.atomType = ["Ga".toList, "As".toList, "As".toList] ∧ p.numAtom = [1, 2] ∧ p.selective = true := by
  obtain ⟨h, -⟩ := C58_counts exampleStructure _ exampleStructure_ok (by simp)
  have hGa : NamesElement "Ga".toList 31 := ⟨by decide, _, rfl, "Ga".toList, by decide +kernel, rfl⟩
  have hAs : NamesElement "As".toList 33 := ⟨by decide, _, rfl, "As".toList, by decide +kernel, rfl⟩
  obtain ⟨ls, h1, h2⟩ := C59_roundtrip exampleStructure _ h rfl
    (by
      intro t ht
      simp only [exampleStructure, List.mem_cons, List.not_mem_nil, or_false] at ht
      rcases ht with rfl | rfl | rfl
      · exact ⟨_, hGa⟩
      · exact ⟨_, hAs⟩
      · exact ⟨_, hAs⟩)
    (fun _ => ⟨[1], rfl, by decide, by decide⟩)
  refine ⟨ls, _, h1, h2, rfl, rfl, rfl, ?_⟩
  simp only [decide_eq_true_eq]
  exact ⟨0, by decide, by decide⟩

end Interphon.Props
