import Verif.Model.Espresso
import Verif.Props.Vasp
import Verif.Props.AtomicWeight

/-!
# Properties of the Quantum ESPRESSO reader and writer (C58, C63)
-/

namespace Interphon.Props
open Py Interphon Interphon.Inout Interphon.UnitCell

/-! ### Groups of consecutive equal types -/

/-- `groups` are the maximal runs of equal types of a list of atom types: non-empty blocks, consecutive ones of different type. -/
structure IsRuns (types : List Str) (groups : List (Str × ℕ)) : Prop where
  nonempty : groups ≠ []
  positive : ∀ g ∈ groups, 0 < g.2
  types_eq : types = groups.flatMap fun g => List.replicate g.2 g.1
  distinct : groups.IsChain fun g g' => g.1 ≠ g'.1

private theorem runsAux_same (t : Str) (rest : List Str) : ∀ (m : ℕ) (n : ℤ),
    runsAux (List.replicate m t ++ rest) (some t) n = runsAux rest (some t) (n + m)
  | 0, n => by simp
  | m + 1, n => by
    rw [List.replicate_succ, List.cons_append, runsAux, if_neg (by simp), runsAux_same t rest m]
    push_cast; ring_nf

private theorem runsAux_groups : ∀ (groups : List (Str × ℕ)) (g : Str × ℕ), (∀ x ∈ groups, 0 < x.2) → 0 < g.2 →
    (g :: groups).IsChain (fun g g' => g.1 ≠ g'.1) →
    runsAux (groups.flatMap fun g => List.replicate g.2 g.1) (some g.1) (g.2 : ℤ) = (g.2 : ℤ) :: groups.map fun g => (g.2 : ℤ)
  | [], g, _, _, _ => rfl
  | h :: groups, g, hp, hg, hc => by
    rw [List.isChain_cons_cons] at hc
    obtain ⟨m, hm⟩ := Nat.exists_eq_succ_of_ne_zero (hp h (by simp)).ne'
    have ih := runsAux_groups groups h (fun x hx => hp x (by simp [hx])) (hp h (by simp)) hc.2
    rw [List.flatMap_cons, hm, List.replicate_succ, List.cons_append, runsAux, if_pos (by simpa using Ne.symm hc.1),
      if_pos (by exact_mod_cast hg.ne'), runsAux_same, List.map_cons, ← ih, hm]
    push_cast; ring_nf

/-- The counts made by the Quantum ESPRESSO and FHI-aims readers are the lengths of the runs of equal types. -/
theorem runs_eq {types : List Str} {groups : List (Str × ℕ)} (h : IsRuns types groups) : runs types = groups.map fun g => (g.2 : ℤ) := by
  obtain ⟨h1, h2, h3, h4⟩ := h
  cases groups with
  | nil => exact absurd rfl h1
  | cons g groups =>
    obtain ⟨m, hm⟩ := Nat.exists_eq_succ_of_ne_zero (h2 g (by simp)).ne'
    have := runsAux_groups groups g (fun x hx => h2 x (by simp [hx])) (h2 g (by simp)) h4
    rw [h3, runs, List.flatMap_cons, hm, List.replicate_succ, List.cons_append, runsAux, if_pos (by simp), if_neg (by simp), runsAux_same,
      List.map_cons, ← this, hm]
    push_cast; ring_nf

/-- Every non-empty list of types has its runs. -/
theorem exists_runs : ∀ (types : List Str), types ≠ [] → ∃ groups, IsRuns types groups
  | [], h => absurd rfl h
  | [t], _ => ⟨[(t, 1)], by simp, by simp, by simp, .singleton _⟩
  | t :: t' :: rest, _ => by
    obtain ⟨groups, h1, h2, h3, h4⟩ := exists_runs (t' :: rest) (by simp)
    cases groups with
    | nil => exact absurd rfl h1
    | cons g groups =>
      by_cases e : t = g.1
      · refine ⟨(t, g.2 + 1) :: groups, by simp, ?_, ?_, ?_⟩
        · intro x hx
          rcases List.mem_cons.1 hx with rfl | hx
          · simp
          · exact h2 x (by simp [hx])
        · rw [h3, e]; simp [List.replicate_succ]
        · cases groups with
          | nil => exact .singleton _
          | cons g' groups =>
            rw [List.isChain_cons_cons] at h4 ⊢
            exact ⟨by rw [e]; exact h4.1, h4.2⟩
      · refine ⟨(t, 1) :: g :: groups, by simp, ?_, ?_, ?_⟩
        · intro x hx
          rcases List.mem_cons.1 hx with rfl | hx
          · simp
          · exact h2 x hx
        · rw [h3]; simp
        · rw [List.isChain_cons_cons]; exact ⟨e, h4⟩

/-! ### Names of elements never look like keywords -/

private theorem table_names : ∀ row ∈ AtomicWeight.table.drop 1, ∀ e ∈ row, e ≠ [] ∧ e.map Char.toLower ≠ "0".toList ∧
    '_' ∉ e.map Char.toLower ∧ isInfix "nat".toList (e.map Char.toLower) = false ∧
    isInfix "parameters".toList (e.map Char.toLower) = false ∧ isInfix "positions".toList (e.map Char.toLower) = false ∧
    e.map Char.toLower ≠ "atom".toList ∧ e.map Char.toLower ≠ "lattice_vector".toList ∧
    (∀ c ∈ e.map Char.toLower, isWs c = false) := by decide +kernel

private theorem isWs_toLower (c : Char) (h : isWs c = true) : c.toLower = c := by
  simp only [isWs, Bool.or_eq_true, decide_eq_true_eq] at h
  rcases h with ((((((((h | h) | h) | h) | h) | h) | h) | h) | h) | h <;> subst h <;> decide

/-- What the readers need to know about the name of an element. -/
structure PlainName (t : Str) : Prop where
  token : IsToken t
  zero : t ≠ "0".toList
  underscore : '_' ∉ t
  nat : ¬"nat".toList <:+: t
  param : ¬"PARAMETERS".toList <:+: t
  pos : ¬"POSITIONS".toList <:+: t
  atom : t ≠ "atom".toList
  lattice : t ≠ "lattice_vector".toList

theorem plainName {t : Str} {k : ℕ} (h : NamesElement t k) : PlainName t := by
  obtain ⟨hk, row, hrow, e, he, hes⟩ := h
  have hmem : row ∈ AtomicWeight.table.drop 1 := by
    obtain ⟨k, rfl⟩ : ∃ m, k = 1 + m := ⟨k - 1, by omega⟩
    rw [← List.getElem?_drop] at hrow
    exact List.mem_of_getElem? hrow
  obtain ⟨h0, h1, h2, h3, h4, h5, h6, h7, h8⟩ := table_names row hmem e he
  unfold SameUpToCase at hes
  rw [hes] at h1 h2 h3 h4 h5 h6 h7 h8
  have hinf : ∀ p : Str, p <:+: t → p.map Char.toLower <:+: t.map Char.toLower := fun p hp => hp.map _
  refine ⟨⟨?_, ?_⟩, ?_, ?_, ?_, ?_, ?_, ?_, ?_⟩
  · rintro rfl
    cases e with
    | nil => exact h0 rfl
    | cons a e => simp at hes
  · intro c hc
    by_contra hw
    rw [Bool.not_eq_false] at hw
    have := h8 c.toLower (List.mem_map_of_mem hc)
    rw [isWs_toLower c hw, hw] at this
    cases this
  · rintro rfl; exact h1 (by decide)
  · intro hc; exact h2 (List.mem_map.2 ⟨'_', hc, by decide⟩)
  · intro hp
    have := hinf _ hp
    rw [← isInfix_iff, show "nat".toList.map Char.toLower = "nat".toList by decide, h3] at this
    cases this
  · intro hp
    have := hinf _ hp
    rw [← isInfix_iff, show "PARAMETERS".toList.map Char.toLower = "parameters".toList by decide, h4] at this
    cases this
  · intro hp
    have := hinf _ hp
    rw [← isInfix_iff, show "POSITIONS".toList.map Char.toLower = "positions".toList by decide, h5] at this
    cases this
  · rintro rfl; exact h6 (by decide)
  · rintro rfl; exact h7 (by decide)

/-! ### The scan for keywords -/
namespace QE
open Interphon.Espresso

/-- A line without any keyword. -/
def Neutral (l : Str) : Prop := ¬"nat".toList <:+: l ∧ ¬"PARAMETERS".toList <:+: l ∧ ¬"POSITIONS".toList <:+: l

private theorem long_param {l : Str} (h : ¬"PARAMETERS".toList <:+: l) : isInfix "CELL_PARAMETERS".toList l = false := by
  rw [Bool.eq_false_iff, Ne, isInfix_iff]
  intro h'
  exact h (List.IsInfix.trans ⟨"CELL_".toList, [], by decide⟩ h')

private theorem long_pos {l : Str} (h : ¬"POSITIONS".toList <:+: l) : isInfix "ATOMIC_POSITIONS".toList l = false := by
  rw [Bool.eq_false_iff, Ne, isInfix_iff]
  intro h'
  exact h (List.IsInfix.trans ⟨"ATOMIC_".toList, [], by decide⟩ h')

theorem scan_neutral : ∀ (L R : List Str) (i : ℕ) (s : Scan), (∀ l ∈ L, Neutral l) → scan (L ++ R) i s = scan R (i + L.length) s
  | [], R, i, s, _ => by simp
  | l :: L, R, i, s, h => by
    obtain ⟨h1, h2, h3⟩ := h l (by simp)
    have h1' : isInfix "nat".toList l = false := by rw [Bool.eq_false_iff, Ne, isInfix_iff]; exact h1
    rw [List.cons_append, scan, h1', long_param h2, long_pos h3]
    simp only [Bool.false_eq_true, if_false]
    rw [scan_neutral L R (i + 1) s fun x hx => h x (by simp [hx]), List.length_cons]
    congr 1; omega

theorem neutral_split {a b : Str} {c : Char} (h1 : c ∉ "nat".toList) (h2 : c ∉ "PARAMETERS".toList) (h3 : c ∉ "POSITIONS".toList)
    (ha : Neutral a) (hb : Neutral b) : Neutral (a ++ c :: b) :=
  ⟨fun h => (infix_append_cons h1 h).elim ha.1 hb.1, fun h => (infix_append_cons h2 h).elim ha.2.1 hb.2.1,
    fun h => (infix_append_cons h3 h).elim ha.2.2 hb.2.2⟩

/-- Text without letters has no keyword. -/
theorem neutral_of_chars {l : Str} (h : ∀ c ∈ l, IsDigit c ∨ c = '.' ∨ c = '-' ∨ c = ' ' ∨ c = '\n') : Neutral l := by
  have key : ∀ x : Char, digitVal x = none → x ≠ '.' → x ≠ '-' → x ≠ ' ' → x ≠ '\n' → x ∉ l := by
    intro x h1 h2 h3 h4 h5 hx
    rcases h x hx with h | h | h | h | h
    · exact isDigit_ne h h1 rfl
    · exact h2 h
    · exact h3 h
    · exact h4 h
    · exact h5 h
  exact ⟨not_infix_of_mem (c := 'n') (by decide) (key _ (by decide) (by decide) (by decide) (by decide) (by decide)),
    not_infix_of_mem (c := 'P') (by decide) (key _ (by decide) (by decide) (by decide) (by decide) (by decide)),
    not_infix_of_mem (c := 'P') (by decide) (key _ (by decide) (by decide) (by decide) (by decide) (by decide))⟩

theorem row_chars (v : V3 ℚ) : ∀ c ∈ row v, IsDigit c ∨ c = '.' ∨ c = '-' ∨ c = ' ' ∨ c = '\n' := by
  have hn : ∀ q, ∀ c ∈ num q, IsDigit c ∨ c = '.' ∨ c = '-' ∨ c = ' ' ∨ c = '\n' := by
    intro q c hc
    rw [num, padLeft, List.mem_append] at hc
    rcases hc with hc | hc
    · rw [List.mem_replicate] at hc; tauto
    · have := fmtFixed_chars 16 q c hc; tauto
  intro c hc
  simp only [row, List.mem_append] at hc
  have h2 : c ∈ "  ".toList → c = ' ' := by intro h; revert h; simp
  rcases hc with (((hc | hc) | hc) | hc) | hc
  · exact hn _ c hc
  · have := h2 hc; tauto
  · exact hn _ c hc
  · have := h2 hc; tauto
  · exact hn _ c hc

theorem neutral_name {t : Str} (h : PlainName t) : Neutral t := ⟨h.nat, h.param, h.pos⟩

theorem posLine_neutral (c : Cell ℚ) (i : ℕ) {t : Str} (h : PlainName t) (v : V3 ℚ) : Neutral (posLine c i t v) := by
  unfold posLine
  split
  · refine neutral_split (by decide) (by decide) (by decide) (neutral_name h) (neutral_of_chars fun x hx => ?_)
    rcases List.mem_append.1 hx with hx | hx
    · exact row_chars v x hx
    · have h0 : IsDigit '0' := ⟨0, by decide⟩
      have h3 : ∀ y ∈ "   0 0 0\n".toList, y = ' ' ∨ y = '0' ∨ y = '\n' := by decide
      rcases h3 x hx with e | e | e
      · exact .inr (.inr (.inr (.inl e)))
      · rw [e]; exact .inl h0
      · exact .inr (.inr (.inr (.inr e)))
  · refine neutral_split (by decide) (by decide) (by decide) (neutral_name h) (neutral_of_chars fun x hx => ?_)
    rcases List.mem_append.1 hx with hx | hx
    · exact row_chars v x hx
    · exact .inr (.inr (.inr (.inr (List.mem_singleton.1 hx))))

theorem speciesLine_neutral (w : Str → Str) {t : Str} (h : PlainName t) (hw : ∀ c ∈ w t, IsDigit c ∨ c = '.') :
    Neutral (speciesLine w t) := by
  refine neutral_split (by decide) (by decide) (by decide) (neutral_name h)
    (neutral_split (by decide) (by decide) (by decide) (neutral_of_chars fun x hx => by have := hw x hx; tauto) ?_)
  show Neutral (t ++ '_' :: "dummy.URF\n".toList)
  refine neutral_split (by decide) (by decide) (by decide) (neutral_name h) ?_
  refine ⟨?_, ?_, ?_⟩ <;> (rw [← isInfix_iff]; decide)

theorem neutral_const {l : Str} (h : isInfix "nat".toList l = false ∧ isInfix "PARAMETERS".toList l = false ∧
    isInfix "POSITIONS".toList l = false) : Neutral l := by
  simp only [Neutral, ← isInfix_iff, h.1, h.2.1, h.2.2]; simp

/-! ### Reading, section by section -/

theorem drop_mid {α : Type} (a : List α) (x : α) (b : List α) : (a ++ x :: b).drop (a.length + 1) = b := by
  induction a with
  | nil => rfl
  | cons y a ih => exact ih

theorem skip_blanks {lines X : List Str} {i k : ℕ} (h : lines.drop (i + 1) = List.replicate k ['\n'] ++ X) (hX : ∀ l ∈ X.head?, l ≠ ['\n']) :
    skipBlank lines i = i + k ∧ lines.drop (skipBlank lines i + 1) = X := by
  have h1 : skipBlank lines i = i + k := by
    rw [skipBlank, h]
    congr 1
    rw [List.takeWhile_append_of_pos (by intro a ha; simp [List.eq_of_mem_replicate ha])]
    cases X with
    | nil => simp
    | cons x X => rw [List.takeWhile_cons_of_neg (by simpa using hX x (by simp))]; simp
  refine ⟨h1, ?_⟩
  rw [h1, show i + k + 1 = (i + 1) + k by ring, ← List.drop_drop, h]
  simp

/-- A file with the two cards in the usual order, whatever surrounds them, with empty lines after their headings. -/
theorem readInput_sections {pre lat mid pos rest : List Str} {cell head : Str} {n k1 k2 : ℕ} (hlat : lat.length = 3) (hpos : pos.length = n)
    (hs : scan (pre ++ cell :: (List.replicate k1 ['\n'] ++ (lat ++ (mid ++ head :: (List.replicate k2 ['\n'] ++ (pos ++ rest)))))) 0 {} =
      .ok ⟨some (n : ℤ), some pre.length, some (pre.length + 1 + k1 + 3 + mid.length)⟩)
    (h1 : ∀ l ∈ lat.head?, l ≠ ['\n']) (h2 : ∀ l ∈ (pos ++ rest).head?, l ≠ ['\n'])
    {lattice cart : List (List ℚ)} {atoms : List (Str × List Str × Bool)}
    (h3 : asRows (lat.map fun l => (split l).take 3) = .ok lattice) (h4 : mapE atomLine pos = .ok atoms)
    (h5 : asRows (atoms.map fun a => a.2.1) = .ok cart) :
    readInput (pre ++ cell :: (List.replicate k1 ['\n'] ++ (lat ++ (mid ++ head :: (List.replicate k2 ['\n'] ++ (pos ++ rest)))))) =
      .ok ⟨lattice, atoms.map fun a => a.1, runs (atoms.map fun a => a.1),
      atoms.any fun a => a.2.2, "cartesian".toList, cart, freeIndices (atoms.map fun a => a.2.2),
      xyzOf (freeIndices (atoms.map fun a => a.2.2))⟩ := by
  set lines := pre ++ cell :: (List.replicate k1 ['\n'] ++ (lat ++ (mid ++ head :: (List.replicate k2 ['\n'] ++ (pos ++ rest))))) with hl
  have d1 : lines.drop (pre.length + 1) = List.replicate k1 ['\n'] ++ (lat ++ (mid ++ head :: (List.replicate k2 ['\n'] ++ (pos ++ rest)))) := by
    rw [hl, drop_mid]
  have d2 : lines.drop (pre.length + 1 + k1 + 3 + mid.length + 1) = List.replicate k2 ['\n'] ++ (pos ++ rest) := by
    have : pre.length + 1 + k1 + 3 + mid.length + 1 = (pre.length + 1) + ((k1 + 3 + mid.length) + 1) := by ring
    have e : (List.replicate k1 ['\n'] ++ lat ++ mid).length = k1 + 3 + mid.length := by simp [hlat]; ring
    rw [this, ← List.drop_drop, d1, ← e, ← List.append_assoc, ← List.append_assoc, drop_mid]
  obtain ⟨b1, t1⟩ := skip_blanks d1 (by
    intro l hl
    cases lat with
    | nil => simp at hlat
    | cons x lat => exact h1 l hl)
  obtain ⟨b2, t2⟩ := skip_blanks d2 h2
  have t1' : (lines.drop (skipBlank lines pre.length + 1)).take 3 = lat := by rw [t1, ← hlat]; simp
  have t2' : slice lines (skipBlank lines (pre.length + 1 + k1 + 3 + mid.length) + 1)
      ((skipBlank lines (pre.length + 1 + k1 + 3 + mid.length) + 1 : ℕ) + (n : ℤ)) = pos := by
    rw [slice, if_pos (by positivity), t2]
    have : ∀ m : ℕ, ((m : ℕ) + (n : ℤ)).toNat - m = n := by intro m; omega
    rw [this, ← hpos]; simp
  unfold readInput
  rw [hs]
  simp only [t1', t2', h3, h4, h5]

/-! ### Positions -/

theorem posLine_split (c : Cell ℚ) (i : ℕ) {t : Str} (ht : IsToken t) (v : V3 ℚ) : split (posLine c i t v) = t :: (rowTokens v ++
    (if c.selective = true ∧ i ∉ c.atomTrue.getD [] then ["0".toList, "0".toList, "0".toList] else [])) := by
  unfold posLine
  split
  · rw [split_token_ws ht (by decide)]
    show t :: split (row v ++ ' ' :: "  0 0 0\n".toList) = _
    rw [split_row v (by decide)]; rfl
  · rw [split_token_ws ht (by decide), split_row v (by decide)]; rfl

theorem zero_not_row (v : V3 ℚ) : "0".toList ∉ rowTokens v := by
  intro h
  have hT : ∀ q, "0".toList ≠ fmtFixed 16 q := by
    intro q e
    have : '.' ∈ fmtFixed 16 q := by simp [fmtFixed]
    rw [← e] at this
    revert this; decide
  simp only [rowTokens, List.mem_cons, List.not_mem_nil, or_false] at h
  rcases h with h | h | h <;> exact hT _ h

/-- Is atom `i` written as fixed? -/
def isFixed (c : Cell ℚ) (i : ℕ) : Bool := decide (c.selective = true ∧ i ∉ c.atomTrue.getD [])

theorem posLine_atom (c : Cell ℚ) (i : ℕ) {t : Str} (ht : PlainName t) (v : V3 ℚ) :
    atomLine (posLine c i t v) = .ok (t, rowTokens v, isFixed c i) := by
  have hz := zero_not_row v
  unfold atomLine
  rw [posLine_split c i ht.token]
  have h1 : getE (t :: (rowTokens v ++ (if c.selective = true ∧ i ∉ c.atomTrue.getD [] then ["0".toList, "0".toList, "0".toList] else []))) 0
      = .ok t := rfl
  rw [h1]
  have h2 : "0".toList ∈ (t :: (rowTokens v ++ (if c.selective = true ∧ i ∉ c.atomTrue.getD [] then ["0".toList, "0".toList, "0".toList]
      else []))) ↔ (c.selective = true ∧ i ∉ c.atomTrue.getD []) := by
    rw [List.mem_cons, List.mem_append]
    constructor
    · rintro (h | h | h)
      · exact absurd h.symm ht.zero
      · exact absurd h hz
      · split at h
        · assumption
        · simp at h
    · intro h; rw [if_pos h]; simp
  simp only [h2, isFixed]
  rfl

theorem free_indices (c : Cell ℚ) (n : ℕ)
    (hsel : c.selective = true → ∃ sel, c.atomTrue = some sel ∧ sel.Pairwise (· < ·) ∧ ∀ a ∈ sel, a < n) :
    freeIndices ((List.range n).map (isFixed c)) = (if c.selective then c.atomTrue.getD [] else List.range n).map fun a : ℕ => (a : ℤ) := by
  show Vasp.indices (fun b => !b) _ = _
  apply sorted_ext (indices_sorted _ _)
  · rw [List.pairwise_map]
    split
    · rename_i h
      obtain ⟨sel, h1, h2, -⟩ := hsel h
      rw [h1]; exact h2.imp fun h => by exact_mod_cast h
    · exact List.pairwise_lt_range.imp fun h => by exact_mod_cast h
  · intro i
    rw [mem_indices, List.mem_map]
    constructor
    · rintro ⟨m, rfl, b, hb, hb'⟩
      rw [List.getElem?_map, Option.map_eq_some_iff] at hb
      obtain ⟨m', hm', rfl⟩ := hb
      obtain ⟨hlt, hmm⟩ := List.getElem?_eq_some_iff.1 hm'
      rw [List.getElem_range] at hmm
      subst hmm
      simp only [List.length_range] at hlt
      refine ⟨m, ?_, rfl⟩
      split
      · rename_i h
        simpa [isFixed, h] using hb'
      · exact List.mem_range.2 hlt
    · rintro ⟨m, hm, rfl⟩
      refine ⟨m, rfl, isFixed c m, ?_, ?_⟩
      · rw [List.getElem?_map, Option.map_eq_some_iff]
        refine ⟨m, ?_, rfl⟩
        have hlt : m < n := by
          split at hm
          · rename_i h
            obtain ⟨sel, h1, -, h3⟩ := hsel h
            rw [h1] at hm; exact h3 m hm
          · exact List.mem_range.1 hm
        exact List.getElem?_range hlt
      · split at hm
        · simp [isFixed, hm]
        · rename_i h
          simp [isFixed, h]

theorem isLine_const {l : Str} (h : l.getLast? = some '\n' ∧ '\n' ∉ l.dropLast) : IsLine l := by
  refine ⟨l.dropLast, h.2, ?_⟩
  have hne : l ≠ [] := by rintro rfl; simp at h
  have := List.dropLast_append_getLast hne
  rw [List.getLast?_eq_getLast_of_ne_nil hne] at h
  rw [← this, Option.some.inj h.1]; simp

/-- The part of the written file before the cell card, inout/espresso.py:147-167, in three pieces. -/
def pre1 (species : List Str) : List Str := ["&CONTROL\n".toList, "/\n".toList, "&SYSTEM\n".toList,
    "    ".toList ++ padRight ' ' 20 "ntyp".toList ++ " = ".toList ++ natStr species.length ++ ['\n']]
def natLine (n : ℕ) : Str := "    ".toList ++ padRight ' ' 20 "nat".toList ++ " = ".toList ++ natStr n ++ ['\n']
def pre2 (species : List Str) (w : Str → Str) : List Str :=
  ["    ".toList ++ padRight ' ' 20 "ibrav".toList ++ " = 0\n".toList,
    "/\n".toList, "&ELECTRONS\n".toList, "/\n".toList, "&IONS\n".toList, "/\n".toList, "&CELL\n".toList, "/\n".toList, "\n".toList,
    "ATOMIC_SPECIES\n".toList] ++ (species.map (speciesLine w) ++ ["\n".toList, "K_POINTS gamma\n".toList, "\n".toList])

theorem inputLines_eq (c : Cell ℚ) (species : List Str) (w : Str → Str) : inputLines c species w =
    (pre1 species ++ natLine c.atomType.length :: pre2 species w) ++ "CELL_PARAMETERS angstrom\n".toList ::
      ((List.finRange 3).map (fun i => ' ' :: (row (c.lattice i) ++ ['\n'])) ++ (["\n".toList] ++ "ATOMIC_POSITIONS angstrom\n".toList ::
        (c.atomType.zip c.cart).mapIdx (fun i x => posLine c i x.1 x.2))) := by
  simp [inputLines, pre1, pre2, natLine]

theorem natStr_no_newline (n : ℕ) : '\n' ∉ natStr n := fun h => isDigit_ne (natStr_digits n _ h) (by decide) rfl

theorem pre_lines (species : List Str) (w : Str → Str) (n : ℕ) (hp : ∀ t ∈ species, PlainName t)
    (hw : ∀ t, ∀ x ∈ w t, IsDigit x ∨ x = '.') : ∀ l ∈ pre1 species ++ natLine n :: pre2 species w, IsLine l := by
  intro l hl
  simp only [pre1, pre2, List.mem_append, List.mem_cons, List.not_mem_nil, or_false, List.mem_map] at hl
  rcases hl with (rfl | rfl | rfl | rfl) | rfl | (rfl | rfl | rfl | rfl | rfl | rfl | rfl | rfl | rfl | rfl) | ⟨t, ht, rfl⟩ | rfl | rfl | rfl
  all_goals try exact isLine_const (by decide)
  · exact ⟨"    ".toList ++ padRight ' ' 20 "ntyp".toList ++ " = ".toList ++ natStr species.length, by
      rw [List.mem_append, not_or]; exact ⟨by decide, natStr_no_newline _⟩, rfl⟩
  · exact ⟨"    ".toList ++ padRight ' ' 20 "nat".toList ++ " = ".toList ++ natStr n, by
      rw [List.mem_append, not_or]; exact ⟨by decide, natStr_no_newline _⟩, rfl⟩
  · have h1 := token_no_newline (hp t ht).token
    have h2 : '\n' ∉ w t := fun h => by
      rcases hw t _ h with h | h
      · exact isDigit_ne h (by decide) rfl
      · revert h; decide
    refine ⟨t ++ (' ' :: (w t ++ (' ' :: (t ++ "_dummy.URF".toList)))), ?_, by simp [speciesLine]⟩
    simp only [List.mem_cons, List.mem_append, not_or]
    exact ⟨h1, by decide, h2, by decide, h1, by decide⟩

theorem pre1_neutral (species : List Str) : ∀ l ∈ pre1 species, Neutral l := by
  intro l hl
  simp only [pre1, List.mem_cons, List.not_mem_nil, or_false] at hl
  rcases hl with rfl | rfl | rfl | rfl
  all_goals try exact neutral_const (by decide)
  show Neutral ((("    ".toList ++ padRight ' ' 20 "ntyp".toList ++ " = ".toList) ++ natStr species.length) ++ ['\n'])
  have e : ("    ".toList ++ padRight ' ' 20 "ntyp".toList ++ " = ".toList) = ("    ntyp                ".toList ++ ' ' :: "= ".toList) := by decide
  rw [e, List.append_assoc, List.append_assoc]
  refine neutral_split (by decide) (by decide) (by decide) (neutral_const (by decide)) ?_
  show Neutral ([] ++ '=' :: (' ' :: (natStr species.length ++ ['\n'])))
  refine neutral_split (by decide) (by decide) (by decide) (neutral_const (by decide)) (neutral_of_chars ?_)
  intro x hx
  simp only [List.mem_cons, List.mem_append, List.not_mem_nil, or_false] at hx
  rcases hx with hx | hx | hx
  · tauto
  · exact .inl (natStr_digits _ x hx)
  · tauto

theorem pre2_neutral (species : List Str) (w : Str → Str) (hp : ∀ t ∈ species, PlainName t)
    (hw : ∀ t, ∀ x ∈ w t, IsDigit x ∨ x = '.') : ∀ l ∈ pre2 species w, Neutral l := by
  intro l hl
  simp only [pre2, List.mem_append, List.mem_cons, List.not_mem_nil, or_false, List.mem_map] at hl
  rcases hl with (rfl | rfl | rfl | rfl | rfl | rfl | rfl | rfl | rfl | rfl) | ⟨t, ht, rfl⟩ | rfl | rfl | rfl
  all_goals try exact neutral_const (by decide)
  exact speciesLine_neutral w (hp t ht) (hw t)

theorem natLine_split (n : ℕ) : split (natLine n) = ["nat".toList, "=".toList, natStr n] := by
  have e : natLine n = "    ".toList ++ ("nat".toList ++ ' ' :: (List.replicate 17 ' ' ++ ("=".toList ++ ' ' :: (natStr n ++ '\n' :: [])))) := by
    rw [natLine, show "    ".toList ++ padRight ' ' 20 "nat".toList ++ " = ".toList =
      "    ".toList ++ ("nat".toList ++ ' ' :: (List.replicate 17 ' ' ++ ("=".toList ++ [' ']))) by decide]
    simp
  have t1 : IsToken "nat".toList := ⟨by decide, by decide⟩
  have t2 : IsToken "=".toList := ⟨by decide, by decide⟩
  rw [e, show "    ".toList = List.replicate 4 ' ' from rfl, split_replicate_ws, split_token_ws t1 (by decide), split_replicate_ws,
    split_token_ws t2 (by decide), split_token_ws (natStr_token n) (by decide), split_nil]

theorem scan_nat {l : Str} {n : ℕ} {R : List Str} {i : ℕ} {s : Scan} (hl : l = natLine n) :
    scan (l :: R) i s = scan R (i + 1) { s with nat := some (n : ℤ) } := by
  subst hl
  have h1 : isInfix "nat".toList (natLine n) = true := by
    rw [isInfix_iff]
    refine ⟨"    ".toList, List.replicate 17 ' ' ++ " = ".toList ++ natStr n ++ ['\n'], ?_⟩
    rw [natLine, show "    ".toList ++ padRight ' ' 20 "nat".toList = "    ".toList ++ "nat".toList ++ List.replicate 17 ' ' by decide]
    simp
  rw [scan, if_pos h1, natLine_split]
  show (match intE (natStr n) with | .error e => _ | .ok m => _) = _
  rw [intE, parseInt_natStr]

theorem scan_file (c : Cell ℚ) (species : List Str) (w : Str → Str) (hp : ∀ t ∈ species, PlainName t)
    (hw : ∀ t, ∀ x ∈ w t, IsDigit x ∨ x = '.') (P : List Str) (hP : ∀ l ∈ P, Neutral l) (lat : List Str) (hlat : lat.length = 3)
    (hl : ∀ l ∈ lat, Neutral l) (n : ℕ) :
    scan ((pre1 species ++ natLine n :: pre2 species w) ++ "CELL_PARAMETERS angstrom\n".toList ::
      (lat ++ (["\n".toList] ++ "ATOMIC_POSITIONS angstrom\n".toList :: P))) 0 {} =
      .ok ⟨some (n : ℤ), some (pre1 species ++ natLine n :: pre2 species w).length,
        some ((pre1 species ++ natLine n :: pre2 species w).length + 1 + 3 + ["\n".toList].length)⟩ := by
  rw [List.append_assoc, scan_neutral _ _ _ _ (pre1_neutral species), List.cons_append, scan_nat rfl,
    scan_neutral _ _ _ _ (pre2_neutral species w hp hw), scan, if_neg (by decide), if_pos (by decide), scan_neutral _ _ _ _ hl,
    scan_neutral _ _ _ _ (fun l h => by rw [List.mem_singleton.1 h]; exact neutral_const (by decide)),
    scan, if_neg (by decide), if_neg (by decide), if_pos (by decide)]
  have := scan_neutral P [] (0 + (pre1 species).length + 1 + (pre2 species w).length + 1 + lat.length + ["\n".toList].length + 1)
    ⟨some (n : ℤ), some (0 + (pre1 species).length + 1 + (pre2 species w).length),
      some (0 + (pre1 species).length + 1 + (pre2 species w).length + 1 + lat.length + ["\n".toList].length)⟩ hP
  rw [List.append_nil] at this
  rw [this, scan, hlat]
  simp only [List.length_append, List.length_cons]
  have e1 : 0 + (pre1 species).length + 1 + (pre2 species w).length = (pre1 species).length + ((pre2 species w).length + 1) := by omega
  rw [e1]

end QE
open QE Interphon.Espresso

/-- **C58** (when a file is written).  Writing succeeds exactly if every species of the structure has an atomic weight and, for a structure with selective dynamics and at
least one atom, the selection is known; otherwise it raises and no file appears. -/
theorem C58_written_iff (c : Cell ℚ) (species : List Str) (w : Str → Str) :
    (∃ ls, writeInput c species w = .ok ls) ↔
      (∀ t ∈ species, ∃ x, AtomicWeight.getAtomicWeight t = .ok (some x)) ∧ (c.selective = true → c.cart ≠ [] → ∃ sel, c.atomTrue = some sel) := by
  unfold writeInput
  cases hm : mapE AtomicWeight.getAtomicWeight species with
  | error e =>
    simp only [reduceCtorEq, exists_false, false_iff, not_and]
    intro h
    exfalso
    have : ∃ ws, mapE AtomicWeight.getAtomicWeight species = .ok ws := by
      clear hm
      induction species with
      | nil => exact ⟨[], rfl⟩
      | cons t sp ih =>
        obtain ⟨ws, h1⟩ := ih fun u hu => h u (by simp [hu])
        obtain ⟨x, hx⟩ := h t (by simp)
        exact ⟨some x :: ws, by rw [mapE, hx, h1]⟩
    obtain ⟨ws, h1⟩ := this
    rw [hm] at h1; cases h1
  | ok ws =>
    have hf := mapE_ok_iff.1 hm
    have hnone : none ∉ ws ↔ ∀ t ∈ species, ∃ x, AtomicWeight.getAtomicWeight t = .ok (some x) := by
      clear hm
      induction hf with
      | nil => simp
      | @cons t o sp ws h1 _ ih =>
        rw [List.mem_cons, not_or, ih, List.forall_mem_cons, h1]
        cases o <;> simp
    by_cases hn : none ∈ ws
    · have := mt hnone.2 (not_not.2 hn)
      simp only [if_pos hn, reduceCtorEq, exists_false, false_iff, not_and]
      exact fun h => absurd h this
    · simp only [if_neg hn]
      by_cases hc : c.selective ∧ c.atomTrue = none ∧ c.cart ≠ []
      · simp only [if_pos hc, reduceCtorEq, exists_false, false_iff, not_and]
        intro _ h
        obtain ⟨sel, hs⟩ := h hc.1 hc.2.2
        rw [hs] at hc
        simp at hc
      · simp only [if_neg hc]
        refine iff_of_true ⟨_, rfl⟩ ⟨hnone.1 hn, fun h1 h2 => ?_⟩
        cases h3 : c.atomTrue with
        | none => exact absurd ⟨h1, h3, h2⟩ hc
        | some sel => exact ⟨sel, rfl⟩

/-- Non-vacuity: gallium has a weight, a heading of the table has none. -/
example (c : Cell ℚ) (w : Str → Str) (hc : c.selective = false) :
    (∃ ls, writeInput c ["Ga".toList] w = .ok ls) ∧ ¬ ∃ ls, writeInput c ["short_name".toList] w = .ok ls := by
  rw [C58_written_iff, C58_written_iff]
  refine ⟨⟨fun t ht => ?_, by simp [hc]⟩, fun h => ?_⟩
  · rw [List.mem_singleton] at ht
    subst ht
    have : (match AtomicWeight.getAtomicWeight "Ga".toList with | .ok (some _) => true | _ => false) = true := by decide +kernel
    revert this
    rcases AtomicWeight.getAtomicWeight "Ga".toList with e | _ | x
    · simp
    · simp
    · exact fun _ => ⟨x, rfl⟩
  · obtain ⟨x, hx⟩ := h.1 _ (List.mem_singleton_self _)
    rw [C65_header_returns_none] at hx
    cases hx

/-- **C58.**  For every structure of elements, whatever the iteration order of the set of species, the written Quantum ESPRESSO file is
read back into the same types, their run lengths as counts, the lattice and positions rounded to 16 decimals, and the same selected
atoms; the selection flag read back says whether some atom is fixed. -/
theorem C58_roundtrip (c : Cell ℚ) (groups : List (Str × ℕ)) (hruns : IsRuns c.atomType groups) (hlen : c.cart.length = c.atomType.length)
    (hname : ∀ t ∈ c.atomType, ∃ k, NamesElement t k)
    (hsel : c.selective = true → ∃ sel, c.atomTrue = some sel ∧ sel.Pairwise (· < ·) ∧ ∀ a ∈ sel, a < c.cart.length)
    (species : List Str) (hsp : ∀ t, t ∈ species ↔ t ∈ c.atomType) (w : Str → Str) (hw : ∀ t, ∀ x ∈ w t, IsDigit x ∨ x = '.') :
    ∃ ls, writeInput c species w = .ok ls ∧ readInput (readlines ls.flatten) = .ok {
      lattice := (List.finRange 3).map fun i => [rndDec 16 (c.lattice i 0), rndDec 16 (c.lattice i 1), rndDec 16 (c.lattice i 2)]
      atomType := c.atomType
      numAtom := groups.map fun g => (g.2 : ℤ)
      selective := decide (∃ i < c.cart.length, i ∉ selectedAtoms c)
      coordinate := "cartesian".toList
      cart := c.cart.map fun v => [rndDec 16 (v 0), rndDec 16 (v 1), rndDec 16 (v 2)]
      atomTrue := (selectedAtoms c).map fun a : ℕ => (a : ℤ)
      xyzTrue := ((selectedAtoms c).flatMap fun a => [a, a, a]).map fun a : ℕ => (a : ℤ) } := by
  have hplain : ∀ t ∈ c.atomType, PlainName t := fun t ht => by
    obtain ⟨k, hk⟩ := hname t ht
    exact plainName hk
  have hcond : ¬(c.selective = true ∧ c.atomTrue = none ∧ c.cart ≠ []) := by
    rintro ⟨h1, h2, -⟩
    obtain ⟨sel, hs, -⟩ := hsel h1
    rw [h2] at hs; cases hs
  have hweights : ∃ ws, mapE AtomicWeight.getAtomicWeight species = .ok ws ∧ none ∉ ws := by
    have hx : ∀ t ∈ species, ∃ x, AtomicWeight.getAtomicWeight t = .ok (some x) := by
      intro t ht
      obtain ⟨k, hk⟩ := hname t ((hsp t).1 ht)
      obtain ⟨x, -, -, hx⟩ := C64_element_weight t k hk
      exact ⟨x, hx⟩
    clear hsp
    induction species with
    | nil => exact ⟨[], rfl, by simp⟩
    | cons t sp ih =>
      obtain ⟨ws, h1, h2⟩ := ih fun u hu => hx u (by simp [hu])
      obtain ⟨x, hx⟩ := hx t (by simp)
      exact ⟨some x :: ws, by rw [mapE, hx, h1], by simp [h2]⟩
  obtain ⟨ws, hws, hnone⟩ := hweights
  refine ⟨inputLines c species w, by rw [writeInput, hws]; simp only [if_neg hnone, if_neg hcond], ?_⟩
  have hf3 : List.finRange 3 = [0, 1, 2] := rfl
  set P := (c.atomType.zip c.cart).mapIdx (fun i x => posLine c i x.1 x.2) with hP
  have hmemP : ∀ l ∈ P, ∃ i, ∃ t ∈ c.atomType, ∃ v, l = posLine c i t v := by
    intro l hl
    rw [hP, List.mem_mapIdx] at hl
    obtain ⟨i, hi, rfl⟩ := hl
    exact ⟨i, _, (List.of_mem_zip (List.getElem_mem hi)).1, _, rfl⟩
  have hlineP : ∀ l ∈ P, IsLine l := by
    intro l hl
    obtain ⟨i, t, ht, v, rfl⟩ := hmemP l hl
    have ht' := token_no_newline (hplain t ht).token
    have hr : '\n' ∉ row v := row_not_mem (by decide) (by decide) (by decide) (by decide) v
    unfold posLine
    split
    · exact ⟨t ++ (' ' :: (row v ++ "   0 0 0".toList)), by
        simp only [List.mem_cons, List.mem_append, not_or]
        exact ⟨ht', by decide, hr, by decide⟩, by simp⟩
    · exact ⟨t ++ (' ' :: row v), by
        simp only [List.mem_cons, List.mem_append, not_or]
        exact ⟨ht', by decide, hr⟩, by simp⟩
  have hspP : ∀ t ∈ species, PlainName t := fun t ht => hplain t ((hsp t).1 ht)
  have hlatN : ∀ l ∈ (List.finRange 3).map (fun i => ' ' :: (row (c.lattice i) ++ ['\n'])), Neutral l := by
    intro l hl
    rw [List.mem_map] at hl
    obtain ⟨i, -, rfl⟩ := hl
    refine neutral_of_chars fun x hx => ?_
    simp only [List.mem_cons, List.mem_append, List.not_mem_nil, or_false] at hx
    rcases hx with hx | hx | hx
    · tauto
    · exact row_chars _ x hx
    · tauto
  have hPN : ∀ l ∈ P, Neutral l := by
    intro l hl
    obtain ⟨i, t, ht, v, rfl⟩ := hmemP l hl
    exact posLine_neutral c i (hplain t ht) v
  have hPlen : P.length = c.atomType.length := by rw [hP]; simp [hlen]
  rw [readlines_flatten]
  swap
  · intro l hl
    rw [inputLines_eq] at hl
    rcases List.mem_append.1 hl with hl | hl
    · exact pre_lines species w _ hspP hw l hl
    · rcases List.mem_cons.1 hl with rfl | hl
      · exact isLine_const (by decide)
      · rcases List.mem_append.1 hl with hl | hl
        · rw [List.mem_map] at hl
          obtain ⟨i, -, rfl⟩ := hl
          exact rowLine _ [] (by simp)
        · rcases List.mem_append.1 hl with hl | hl
          · rw [List.mem_singleton.1 hl]; exact isLine_const (by decide)
          · rcases List.mem_cons.1 hl with rfl | hl
            · exact isLine_const (by decide)
            · exact hlineP l hl
  have hatoms : mapE atomLine P = .ok ((c.atomType.zip c.cart).mapIdx fun i x => (x.1, rowTokens x.2, isFixed c i)) := by
    rw [mapE_ok_iff, List.forall₂_iff_get]
    refine ⟨by simp [hP], fun i h1 h2 => ?_⟩
    simp only [hP, List.get_eq_getElem, List.getElem_mapIdx]
    refine posLine_atom c i (hplain _ ?_) _
    have : i < (c.atomType.zip c.cart).length := by simpa [hP] using h1
    exact (List.of_mem_zip (List.getElem_mem this)).1
  have hz1 : (((c.atomType.zip c.cart).mapIdx fun i x => (x.1, rowTokens x.2, isFixed c i)).map fun a => a.1) = c.atomType := by
    apply List.ext_getElem (by simp [hlen])
    intro i h1 h2
    simp
  have hz2 : (((c.atomType.zip c.cart).mapIdx fun i x => (x.1, rowTokens x.2, isFixed c i)).map fun a => a.2.1) = c.cart.map rowTokens := by
    apply List.ext_getElem (by simp [hlen])
    intro i h1 h2
    simp
  have hz3 : (((c.atomType.zip c.cart).mapIdx fun i x => (x.1, rowTokens x.2, isFixed c i)).map fun a => a.2.2) =
      (List.range c.cart.length).map (isFixed c) := by
    apply List.ext_getElem (by simp [hlen])
    intro i h1 h2
    simp
  have hany : (((c.atomType.zip c.cart).mapIdx fun i x => (x.1, rowTokens x.2, isFixed c i)).any fun a => a.2.2) =
      decide (∃ i < c.cart.length, i ∉ selectedAtoms c) := by
    rw [show ∀ l : List (Str × List Str × Bool), l.any (fun a => a.2.2) = (l.map fun a => a.2.2).any id from fun l => by simp, hz3, Bool.eq_iff_iff, List.any_map, List.any_eq_true,
      decide_eq_true_eq]
    simp only [List.mem_range, Function.comp, id, isFixed, decide_eq_true_eq, selectedAtoms]
    constructor
    · rintro ⟨i, hi, h1, h2⟩
      exact ⟨i, hi, by rw [if_pos h1]; exact h2⟩
    · rintro ⟨i, hi, h1⟩
      refine ⟨i, hi, ?_⟩
      split at h1
      · rename_i h; exact ⟨h, h1⟩
      · exact absurd (List.mem_range.2 hi) h1
  have hxyz : ∀ l : List ℕ, xyzOf (l.map fun a : ℕ => (a : ℤ)) = (l.flatMap fun a => [a, a, a]).map fun a : ℕ => (a : ℤ) := by
    intro l; simp [xyzOf, List.flatMap_map, List.map_flatMap]
  have hrow : ∀ v : V3 ℚ, (split (' ' :: (row v ++ ['\n']))).take 3 = rowTokens v := by
    intro v
    rw [split_cons_ws (by decide), split_row v (by decide)]; rfl
  have hscan := scan_file c species w hspP hw P hPN _ (by simp) hlatN c.atomType.length
  have hrd := readInput_sections (n := c.atomType.length) (mid := ["\n".toList]) (rest := []) (k1 := 0) (k2 := 0)
    (pre := pre1 species ++ natLine c.atomType.length :: pre2 species w) (cell := "CELL_PARAMETERS angstrom\n".toList)
    (head := "ATOMIC_POSITIONS angstrom\n".toList) (pos := P)
    (lat := (List.finRange 3).map (fun i => ' ' :: (row (c.lattice i) ++ ['\n']))) (by simp) hPlen
    (by simpa only [List.replicate_zero, List.nil_append, List.append_nil, Nat.add_zero] using hscan)
    (by rw [hf3]; intro l hl; simp at hl; rw [← hl]; intro e; simp at e)
    (by
      intro l hl e
      rw [List.append_nil] at hl
      obtain ⟨i, t, ht, v, rfl⟩ := hmemP l (List.mem_of_mem_head? hl)
      have hs : split (posLine c i t v) = [] := by rw [e]; decide
      rw [posLine_split c i (hplain t ht).token] at hs
      cases hs)
    (lattice := (List.finRange 3).map fun i => rowValues (c.lattice i)) (cart := c.cart.map rowValues)
    (by
      rw [List.map_map]
      have : ((fun l => List.take 3 (split l)) ∘ fun i => ' ' :: (row (c.lattice i) ++ ['\n'])) = fun i => rowTokens (c.lattice i) := by
        funext i; exact hrow _
      rw [this]
      have := asRows_tokens ((List.finRange 3).map fun i => c.lattice i)
      simpa [List.map_map, Function.comp_def] using this)
    hatoms (by rw [hz2]; exact asRows_tokens _)
  simp only [List.replicate_zero, List.nil_append, List.append_nil] at hrd
  rw [inputLines_eq]
  rw [List.singleton_append] at hrd ⊢
  rw [hrd, hz1, hz3, hany, free_indices c _ hsel, runs_eq hruns, hxyz]
  rfl

/-- **C58** (counts).  If consecutive groups of the structure have different types, the counts are those of the structure. -/
theorem C58_counts (c : Cell ℚ) (groups : List (Str × ℕ)) (h : IsStructure c groups) (hd : groups.IsChain fun g g' => g.1 ≠ g'.1) :
    IsRuns c.atomType groups ∧ (groups.map fun g => (g.2 : ℤ)) = c.numAtom :=
  ⟨⟨h.nonempty, h.positive, h.types, hd⟩, h.counts.symm⟩

/-- Non-vacuity: a structure with a fixed atom, species listed in the other order, weights as decimal texts. -/
example : ∃ ls p, writeInput exampleStructure ["As".toList, "Ga".toList] (fun t => if t = "Ga".toList then "69.723".toList else "74.921595".toList)
      = .ok ls ∧ readInput (readlines ls.flatten) = .ok p ∧ p.atomTrue = [1] ∧
    p.atomType = ["Ga".toList, "As".toList, "As".toList] ∧ p.numAtom = [1, 2] ∧ p.selective = true := by
  obtain ⟨h, -⟩ := C58_counts exampleStructure _ exampleStructure_ok (by simp)
  have hGa : NamesElement "Ga".toList 31 := ⟨by decide, _, rfl, "Ga".toList, by decide +kernel, rfl⟩
  have hAs : NamesElement "As".toList 33 := ⟨by decide, _, rfl, "As".toList, by decide +kernel, rfl⟩
  obtain ⟨ls, h1, h2⟩ := C58_roundtrip exampleStructure _ h rfl
    (by
      intro t ht
      simp only [exampleStructure, List.mem_cons, List.not_mem_nil, or_false] at ht
      rcases ht with rfl | rfl | rfl
      · exact ⟨_, hGa⟩
      · exact ⟨_, hAs⟩
      · exact ⟨_, hAs⟩)
    (fun _ => ⟨[1], rfl, by decide, by decide⟩) ["As".toList, "Ga".toList] (by intro t; simp [exampleStructure]; tauto)
    (fun t => if t = "Ga".toList then "69.723".toList else "74.921595".toList)
    (by
      intro t x hx
      have hd : ∀ x ∈ "69.723".toList ++ "74.921595".toList, (digitVal x).isSome ∨ x = '.' := by decide
      have hm : x ∈ "69.723".toList ++ "74.921595".toList := by
        rw [List.mem_append]
        split at hx
        · exact .inl hx
        · exact .inr hx
      have h5 : ∀ x ∈ "69.723".toList ++ "74.921595".toList, (∃ n < 10, x = digitChar n) ∨ x = '.' := by decide
      rcases h5 x hm with ⟨n, -, hn⟩ | h
      · exact .inl ⟨n, hn⟩
      · exact .inr h)
  refine ⟨ls, _, h1, h2, rfl, rfl, rfl, ?_⟩
  simp only [decide_eq_true_eq]
  exact ⟨0, by decide, by decide⟩

/-! ### C63 -/

/-- A Quantum ESPRESSO input file with the `nat` entry before the cell card and the cell card before the positions, no other line
with one of the keywords, and any number of empty lines below the headings; `n ≥ 1` is the number of atoms announced. -/
structure IsInput (a : List Str) (natL : Str) (b : List Str) (cell : Str) (lat mid : List Str) (head : Str) (pos rest : List Str) (n : ℕ) : Prop where
  neutral : ∀ l ∈ a ++ b ++ lat ++ mid ++ pos ++ rest, Neutral l
  nat : isInfix "nat".toList natL = true ∧ ∃ t0 t1 t2 r, split natL = t0 :: t1 :: t2 :: r ∧ parseInt t2 = some (n : ℤ)
  cell : isInfix "nat".toList cell = false ∧ isInfix "CELL_PARAMETERS".toList cell = true
  head : isInfix "nat".toList head = false ∧ isInfix "CELL_PARAMETERS".toList head = false ∧ isInfix "ATOMIC_POSITIONS".toList head = true
  lat_len : lat.length = 3
  pos_len : pos.length = n
  some_atom : n ≠ 0

/-- The whole file. -/
def fileOf (a : List Str) (natL : Str) (b : List Str) (cell : Str) (k1 : ℕ) (lat mid : List Str) (head : Str) (k2 : ℕ) (pos rest : List Str) :
    List Str :=
  (a ++ natL :: b) ++ cell :: (List.replicate k1 ['\n'] ++ (lat ++ (mid ++ head :: (List.replicate k2 ['\n'] ++ (pos ++ rest)))))

/-- A position line: name, three numbers, further tokens (`if_pos` flags if present). -/
structure PosTokens where
  name : Str
  x : Str
  y : Str
  z : Str
  flags : List Str

/-- The full claim C63 for one line: fixed exactly when a flag is `0`. -/
def C63_line (l : Str) (t : PosTokens) : Prop :=
  split l = t.name :: t.x :: t.y :: t.z :: t.flags → ∀ r, atomLine l = .ok r → (r.2.2 = true ↔ "0".toList ∈ t.flags)

/-- **C63** (one line, partial): for names and coordinates that are not literally `0`. -/
theorem C63_line_partial (l : Str) (t : PosTokens) (h : t.name ≠ "0".toList ∧ t.x ≠ "0".toList ∧ t.y ≠ "0".toList ∧ t.z ≠ "0".toList) :
    C63_line l t := by
  intro hs r hr
  unfold atomLine at hr
  rw [hs] at hr
  simp only [getE, List.getElem?_cons_zero] at hr
  cases hr
  simp only [decide_eq_true_eq, List.mem_cons]
  constructor
  · rintro (e | e | e | e | e)
    · exact absurd e.symm h.1
    · exact absurd e.symm h.2.1
    · exact absurd e.symm h.2.2.1
    · exact absurd e.symm h.2.2.2
    · exact e
  · tauto

private theorem blanks_neutral (k : ℕ) : ∀ l ∈ List.replicate k ['\n'], Neutral l := by
  intro l hl
  rw [List.eq_of_mem_replicate hl]
  exact neutral_const (by decide)

theorem scan_input {a b lat mid pos rest : List Str} {natL cell head : Str} {n : ℕ} (k1 k2 : ℕ)
    (hf : IsInput a natL b cell lat mid head pos rest n) : scan (fileOf a natL b cell k1 lat mid head k2 pos rest) 0 {} =
      .ok ⟨some (n : ℤ), some (a ++ natL :: b).length, some ((a ++ natL :: b).length + 1 + k1 + 3 + mid.length)⟩ := by
  have hm := hf.neutral
  simp only [List.mem_append] at hm
  obtain ⟨hn, t0, t1, t2, r, hs, hp⟩ := hf.nat
  have hnat : ∀ (R : List Str) (i : ℕ) (s : Scan), scan (natL :: R) i s = scan R (i + 1) { s with nat := some (n : ℤ) } := by
    intro R i s
    rw [scan, if_pos hn, hs]
    show (match intE t2 with | .error e => _ | .ok m => _) = _
    rw [intE, hp]
  have htail : ∀ (i : ℕ) (s : Scan), scan (List.replicate k2 ['\n'] ++ (pos ++ rest)) i s = .ok s := by
    intro i s
    rw [scan_neutral _ _ _ _ (blanks_neutral k2), scan_neutral _ _ _ _ (fun l hl => hm l (by tauto))]
    have := scan_neutral rest [] (i + (List.replicate k2 ['\n']).length + pos.length) s (fun l hl => hm l (by tauto))
    rw [List.append_nil] at this
    rw [this, scan]
  unfold fileOf
  rw [List.append_assoc, scan_neutral _ _ _ _ (fun l hl => hm l (by tauto)), List.cons_append, hnat,
    scan_neutral _ _ _ _ (fun l hl => hm l (by tauto)), scan, if_neg (by rw [hf.cell.1]; simp), if_pos hf.cell.2,
    scan_neutral _ _ _ _ (blanks_neutral k1), scan_neutral _ _ _ _ (fun l hl => hm l (by tauto)),
    scan_neutral _ _ _ _ (fun l hl => hm l (by tauto)), scan, if_neg (by rw [hf.head.1]; simp), if_neg (by rw [hf.head.2.1]; simp),
    if_pos hf.head.2.2, htail, hf.lat_len, List.length_replicate]
  have e1 : 0 + a.length + 1 + b.length = (a ++ natL :: b).length := by simp; omega
  rw [e1]

private theorem mapE_isSome {ts : List Str} (h : ∀ t ∈ ts, (parseFloat t).isSome) :
    mapE floatE ts = .ok (ts.map fun t => (parseFloat t).getD 0) := by
  apply mapE_ok
  intro t ht
  obtain ⟨q, hq⟩ := Option.isSome_iff_exists.1 (h t ht)
  rw [floatE, hq]; rfl

private theorem asRows_three {α : Type} (l : List α) (f : α → List Str) (h3 : ∀ x ∈ l, (f x).length = 3)
    (h : ∀ x ∈ l, ∀ t ∈ f x, (parseFloat t).isSome) :
    asRows (l.map f) = .ok (l.map fun x => (f x).map fun t => (parseFloat t).getD 0) := by
  rw [asRows, mapE_ok (fun ts => ts.map fun t => (parseFloat t).getD 0)]
  · have hall : ((l.map f).map fun ts => ts.map fun t => (parseFloat t).getD 0).all
        (fun x => x.length = (((l.map f).map fun ts => ts.map fun t => (parseFloat t).getD 0).headD []).length) = true := by
      cases l with
      | nil => rfl
      | cons y l =>
        rw [List.all_eq_true]
        intro x hx
        simp only [List.map_map, List.mem_map, Function.comp] at hx
        obtain ⟨z, hz, rfl⟩ := hx
        simp [h3 z hz, h3 y (by simp)]
    simp only [hall, if_true]
    rw [List.map_map]; rfl
  · intro ts hts
    rw [List.mem_map] at hts
    obtain ⟨x, hx, rfl⟩ := hts
    exact mapE_isSome (h x hx)

/-- **C63 (partial).**  Reading any Quantum ESPRESSO input whose position lines do not have the coordinate text `0` (`0.0`, `0.00` are
fine): names and positions are those of the file, and the selected atoms are exactly those without a flag `0`.
Missing: coordinates written as `0`, see `C63_refuted`. -/
theorem C63_read_partial {a b lat mid pos rest : List Str} {natL cell head : Str} {n : ℕ}
    (hf : IsInput a natL b cell lat mid head pos rest n) (k1 k2 : ℕ)
    (hlat : ∀ l ∈ lat, ∃ v : V3 ℚ, ∃ fl, IsPos fl l v)
    (ts : List PosTokens) (hts : List.Forall₂ (fun l t => split l = t.name :: t.x :: t.y :: t.z :: t.flags) pos ts)
    (hnum : ∀ t ∈ ts, (parseFloat t.x).isSome ∧ (parseFloat t.y).isSome ∧ (parseFloat t.z).isSome)
    (hz : ∀ t ∈ ts, t.name ≠ "0".toList ∧ t.x ≠ "0".toList ∧ t.y ≠ "0".toList ∧ t.z ≠ "0".toList) :
    ∃ p, readInput (fileOf a natL b cell k1 lat mid head k2 pos rest) = .ok p ∧ p.atomType = ts.map (·.name) ∧
      p.lattice = lat.map (fun l => ((split l).take 3).map fun t => (parseFloat t).getD 0) ∧
      p.cart = ts.map (fun t => [(parseFloat t.x).getD 0, (parseFloat t.y).getD 0, (parseFloat t.z).getD 0]) ∧
      (∀ i : ℕ, (i : ℤ) ∈ p.atomTrue ↔ ∃ t, ts[i]? = some t ∧ "0".toList ∉ t.flags) ∧
      (p.selective = true ↔ ∃ t ∈ ts, "0".toList ∈ t.flags) := by
  have hmapE : mapE atomLine pos = .ok (ts.map fun t => (t.name, [t.x, t.y, t.z], decide ("0".toList ∈ t.flags))) := by
    rw [mapE_ok_iff]
    have : ∀ (pos : List Str) (ts : List PosTokens), List.Forall₂ (fun l t => split l = t.name :: t.x :: t.y :: t.z :: t.flags) pos ts →
        (∀ t ∈ ts, t.name ≠ "0".toList ∧ t.x ≠ "0".toList ∧ t.y ≠ "0".toList ∧ t.z ≠ "0".toList) →
        List.Forall₂ (fun l r => atomLine l = .ok r) pos (ts.map fun t => (t.name, [t.x, t.y, t.z], decide ("0".toList ∈ t.flags))) := by
      intro pos ts h
      induction h with
      | nil => intro _; exact .nil
      | @cons l t pos ts h _ ih =>
        intro hz
        refine .cons ?_ (ih fun t ht => hz t (by simp [ht]))
        have hl := C63_line_partial l t (hz t (by simp)) h
        have e : atomLine l = .ok (t.name, [t.x, t.y, t.z], decide ("0".toList ∈ split l)) := by
          unfold atomLine; rw [h]; rfl
        have e2 := hl _ e
        rw [e]
        simp only at e2
        have e3 : decide ("0".toList ∈ split l) = decide ("0".toList ∈ t.flags) := by
          rw [Bool.eq_iff_iff, e2]; simp
        rw [e3]
    exact this pos ts hts hz
  have hcart := asRows_three ts (fun t => [t.x, t.y, t.z]) (by simp) (by
    intro t ht s hs
    obtain ⟨h1, h2, h3⟩ := hnum t ht
    simp only [List.mem_cons, List.not_mem_nil, or_false] at hs
    rcases hs with rfl | rfl | rfl <;> assumption)
  have hlattice := asRows_three lat (fun l => (split l).take 3)
    (by intro l hl; obtain ⟨v, fl, t0, t1, t2, hs, -⟩ := hlat l hl; simp [hs])
    (by
      intro l hl s hs
      obtain ⟨v, fl, t0, t1, t2, h, h0, h1, h2⟩ := hlat l hl
      rw [h] at hs
      simp only [List.take_succ_cons, List.take_zero, List.mem_cons, List.not_mem_nil, or_false] at hs
      rcases hs with rfl | rfl | rfl <;> simp [*])
  have hblank : split ['\n'] = [] := by decide
  refine ⟨_, readInput_sections hf.lat_len hf.pos_len (scan_input k1 k2 hf) ?_ ?_ hlattice hmapE (by rw [List.map_map]; exact hcart), ?_, rfl, ?_, ?_, ?_⟩
  · intro l hl e
    obtain ⟨v, fl, t0, t1, t2, h, -⟩ := hlat l (List.mem_of_mem_head? hl)
    rw [e, hblank] at h; cases h
  · intro l hl e
    cases hts with
    | nil => exact hf.some_atom hf.pos_len.symm
    | @cons l' t pos ts h _ =>
      simp only [List.cons_append, List.head?_cons, Option.mem_def, Option.some.injEq] at hl
      subst hl
      rw [e, hblank] at h; cases h
  · simp [Function.comp_def]
  · rfl
  · intro i
    show (i : ℤ) ∈ Vasp.indices (fun b => !b) _ ↔ _
    rw [mem_indices]
    simp only [List.map_map, List.getElem?_map, Option.map_eq_some_iff, Function.comp]
    constructor
    · rintro ⟨m, hm, b, ⟨t, ht, rfl⟩, hb⟩
      have : m = i := by exact_mod_cast hm
      subst this
      exact ⟨t, ht, by simpa using hb⟩
    · rintro ⟨t, ht, hb⟩
      exact ⟨i, rfl, _, ⟨t, ht, rfl⟩, by simpa using hb⟩
  · simp

/-- A file that announces one free hydrogen atom, without flags, at `(0, 0, 1/2)`. -/
def zeroFile : List Str := fileOf [] "nat = 1\n".toList [] "CELL_PARAMETERS angstrom\n".toList 0
  ["1 0 0\n".toList, "0 1 0\n".toList, "0 0 1\n".toList] [] "ATOMIC_POSITIONS angstrom\n".toList 0 ["H 0 0 0.5\n".toList] []

/-- **C63** (one line, exactly when).  A position line is judged correctly precisely when a flag is `0` or none of its first four words is. -/
theorem C63_line_iff (l : Str) (t : PosTokens) (hs : split l = t.name :: t.x :: t.y :: t.z :: t.flags) :
    (∀ r, atomLine l = .ok r → (r.2.2 = true ↔ "0".toList ∈ t.flags)) ↔
      ("0".toList ∈ t.flags ∨ (t.name ≠ "0".toList ∧ t.x ≠ "0".toList ∧ t.y ≠ "0".toList ∧ t.z ≠ "0".toList)) := by
  have key : ∃ r, atomLine l = .ok r ∧ (r.2.2 = true ↔ "0".toList ∈ t.name :: t.x :: t.y :: t.z :: t.flags) := by
    unfold atomLine
    rw [hs]
    simp only [getE, List.getElem?_cons_zero]
    exact ⟨_, rfl, by simp only [decide_eq_true_eq]⟩
  obtain ⟨r, hr, hk⟩ := key
  constructor
  · intro h
    by_cases hf : "0".toList ∈ t.flags
    · exact .inl hf
    · have hn := mt (h r hr).1 hf
      rw [hk] at hn
      simp only [List.mem_cons, not_or] at hn
      exact .inr ⟨fun e => hn.1 e.symm, fun e => hn.2.1 e.symm, fun e => hn.2.2.1 e.symm, fun e => hn.2.2.2.1 e.symm⟩
  · intro h r' hr'
    rw [hr] at hr'
    cases hr'
    rw [hk]
    simp only [List.mem_cons]
    constructor
    · rintro (e | e | e | e | e)
      all_goals first
        | exact e
        | (rcases h with h | h
           · exact h
           · exact absurd e.symm (by tauto))
    · tauto

/-- **C63 refuted** for coordinates written as `0`: the atom of `zeroFile` has no flag at all, but is reported fixed. -/
theorem C63_refuted : ∃ p, readInput zeroFile = .ok p ∧ p.atomTrue = [] ∧ p.selective = true ∧
    ¬C63_line "H 0 0 0.5\n".toList ⟨"H".toList, "0".toList, "0".toList, "0.5".toList, []⟩ := by
  refine ⟨⟨[[1, 0, 0], [0, 1, 0], [0, 0, 1]], ["H".toList], [1], true, "cartesian".toList, [[0, 0, 1/2]], [], []⟩, by decide +kernel, rfl, rfl, ?_⟩
  intro h
  have := h (by decide) ("H".toList, ["0".toList, "0".toList, "0.5".toList], true) (by decide)
  simp at this

/-- Non-vacuity of `C63_read_partial`: two atoms, the second fixed, a comment line in between and an empty line below the heading. -/
example : IsInput ["&SYSTEM\n".toList] "nat = 2\n".toList [] "CELL_PARAMETERS angstrom\n".toList
      ["1 0 0\n".toList, "0 1 0\n".toList, "0 0 1\n".toList] ["! c\n".toList] "ATOMIC_POSITIONS angstrom\n".toList
      ["H 0.0 0.0 0.5\n".toList, "H 0.5 0.0 0.5 1 0 1\n".toList] ["\n".toList] 2 ∧
    ("0".toList ∉ ([] : List Str)) ∧ "0".toList ∈ ["1".toList, "0".toList, "1".toList] := by
  refine ⟨⟨?_, ⟨by decide, "nat".toList, "=".toList, "2".toList, [], by decide +kernel, by decide +kernel⟩, by decide, by decide, rfl, rfl, by decide⟩,
    by decide, by decide⟩
  intro l hl
  apply neutral_const
  revert l; decide

end Interphon.Props
