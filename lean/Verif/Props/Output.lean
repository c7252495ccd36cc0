import Verif.Model.Output
import Verif.Props.Vasp

/-! # C94 to C96: the text of the data files -/

namespace Interphon.Props
open Py Interphon Interphon.Inout Interphon.Output

/-! ### Specification: how a table is read (as by `np.loadtxt(name, skiprows=2)`) -/

/-- The number a token stands for. -/
def readNum (s : Str) : Option Num :=
  if s = "nan".toList then some .nan else if s = "inf".toList then some (.inf false) else if s = "-inf".toList then some (.inf true)
  else (parseFloat s).map .fin

/-- The table in a text: two lines of heading, then one row per line, one number per blank-separated token. -/
def readTable (text : Str) : List (List (Option Num)) := ((readlines text).drop 2).map fun l => (split l).map readNum

/-- `x` rounded to `d` decimals. -/
def rounded (d : ℕ) : Num → Num
  | .fin q => .fin (rndDec d q)
  | x => x

/-! ### Rounding -/

private theorem rhe_error (x : ℚ) (hx : 0 ≤ x) : |(roundHalfEven x : ℚ) - x| ≤ 1 / 2 := by
  have h1 := Nat.floor_le hx
  have h2 := Nat.lt_floor_add_one x
  unfold roundHalfEven
  simp only
  split_ifs with a b c
  · rw [abs_le]; constructor <;> linarith
  · rw [abs_le]; push_cast; constructor <;> linarith
  · rw [abs_le]; constructor <;> linarith
  · rw [abs_le]; push_cast; constructor <;> linarith

/-- A value read back differs from the stored one by at most half a unit of the last printed decimal. -/
theorem C94_rounding_error (d : ℕ) (q : ℚ) : |rndDec d q - q| ≤ 1 / 2 / 10 ^ d := by
  have h := rhe_error (|q| * 10 ^ d) (by positivity)
  have h' : abs ((roundHalfEven (|q| * 10 ^ d) : ℚ) / 10 ^ d - |q|) ≤ 1 / 2 / 10 ^ d := by
    have e : (roundHalfEven (|q| * 10 ^ d) : ℚ) / 10 ^ d - |q| = ((roundHalfEven (|q| * 10 ^ d) : ℚ) - |q| * 10 ^ d) / 10 ^ d := by
      field_simp
    rw [e, abs_div, abs_of_pos (by positivity : (0 : ℚ) < 10 ^ d)]
    exact div_le_div_of_nonneg_right h (by positivity)
  unfold rndDec
  simp only
  split_ifs with hq
  · rw [abs_of_neg hq] at h' ⊢
    rw [← abs_neg]; convert h' using 2; ring
  · rwa [abs_of_nonneg (not_lt.1 hq)] at h' ⊢

private theorem rhe_mono {a b : ℚ} (ha : 0 ≤ a) (h : a ≤ b) : roundHalfEven a ≤ roundHalfEven b := by
  by_contra hc
  have h1 := abs_le.1 (rhe_error a ha)
  have h2 := abs_le.1 (rhe_error b (ha.trans h))
  have h3 : (roundHalfEven b : ℚ) + 1 ≤ roundHalfEven a := by exact_mod_cast not_le.1 hc
  have h4 : a = b := by linarith [h1.1, h1.2, h2.1, h2.2]
  rw [h4] at hc
  exact hc le_rfl

/-- Printing keeps the order: ascending values are printed ascending. -/
theorem C94_order_kept (d : ℕ) {a b : ℚ} (h : a ≤ b) : rndDec d a ≤ rndDec d b := by
  have h10 : (0 : ℚ) < 10 ^ d := by positivity
  unfold rndDec
  simp only
  split_ifs with h1 h2 h2
  · rw [neg_le_neg_iff, abs_of_neg h1, abs_of_neg h2]
    apply div_le_div_of_nonneg_right _ h10.le
    exact_mod_cast rhe_mono (by nlinarith [neg_pos.2 h2]) (by nlinarith)
  · have e1 : (0 : ℚ) ≤ (roundHalfEven (|a| * 10 ^ d) : ℚ) / 10 ^ d := by positivity
    have e2 : (0 : ℚ) ≤ (roundHalfEven (|b| * 10 ^ d) : ℚ) / 10 ^ d := by positivity
    linarith
  · exact absurd (lt_of_le_of_lt h h2) h1
  · rw [abs_of_nonneg (not_lt.1 h1), abs_of_nonneg (not_lt.1 h2)]
    apply div_le_div_of_nonneg_right _ h10.le
    exact_mod_cast rhe_mono (by nlinarith [not_lt.1 h1]) (by nlinarith)

/-! ### Columns -/

private theorem digits_token (d : ℕ) (x : Num) : IsToken (digits d x) := by
  cases x with
  | fin q => exact fmtFixed_token d q
  | nan => exact (⟨by decide, by decide⟩ : IsToken "nan".toList)
  | inf b =>
    cases b
    · exact (⟨by decide, by decide⟩ : IsToken "inf".toList)
    · exact (⟨by decide, by decide⟩ : IsToken "-inf".toList)

private theorem map_mapIdx {α β γ : Type} (g : β → γ) (f : ℕ → α → β) (l : List α) : (l.mapIdx f).map g = l.mapIdx fun i x => g (f i x) := by
  apply List.ext_getElem?
  intro i
  simp only [List.getElem?_map, List.getElem?_mapIdx, Option.map_map]
  rfl

private theorem label_eq (a : ℕ) : label a = ' ' :: ' ' :: ' ' :: (("pdos-atom-".toList ++ padLeft '0' 3 (natStr a)) ++ [' ', ' ']) := by
  have e1 : "   pdos-atom-".toList = ' ' :: ' ' :: ' ' :: "pdos-atom-".toList := by decide
  have e2 : "  ".toList = [' ', ' '] := by decide
  unfold label
  generalize padLeft '0' 3 (natStr a) = P
  rw [e1, e2]
  simp only [List.append_assoc, List.cons_append]

private theorem label_token (a : ℕ) : IsToken ("pdos-atom-".toList ++ padLeft '0' 3 (natStr a)) := by
  have h0 : ∀ c ∈ "pdos-atom-".toList, isWs c = false := by decide
  refine ⟨by simp, fun c hc => ?_⟩
  rcases List.mem_append.1 hc with h | h
  · exact h0 c h
  · rw [padLeft] at h
    rcases List.mem_append.1 h with h | h
    · rw [List.eq_of_mem_replicate h]; decide
    · exact (natStr_token a).2 c h

private theorem label_newline (xyz : List ℕ) : '\n' ∉ (xyz.map label).flatten := by
  intro h
  obtain ⟨l, hl, h⟩ := List.mem_flatten.1 h
  obtain ⟨a, -, rfl⟩ := List.mem_map.1 hl
  rw [label_eq] at h
  have hs : '\n' ≠ ' ' := by decide
  rcases List.mem_cons.1 h with h | h
  · exact hs h
  rcases List.mem_cons.1 h with h | h
  · exact hs h
  rcases List.mem_cons.1 h with h | h
  · exact hs h
  rcases List.mem_append.1 h with h | h
  · exact token_no_newline (label_token a) h
  · simp at h

private theorem readNum_digits (d : ℕ) (x : Num) : readNum (digits d x) = some (rounded d x) := by
  cases x with
  | fin q =>
    have hn : 'n' ∉ fmtFixed d q := fmtFixed_not_mem (by decide) (by decide) (by decide)
    have h1 : fmtFixed d q ≠ "nan".toList := fun h => hn (by rw [h]; decide)
    have h2 : fmtFixed d q ≠ "inf".toList := fun h => hn (by rw [h]; decide)
    have h3 : fmtFixed d q ≠ "-inf".toList := fun h => hn (by rw [h]; decide)
    simp only [digits, readNum, if_neg h1, if_neg h2, if_neg h3, parseFloat_fmtFixed, rounded, Option.map_some]
  | nan => exact (by decide : readNum "nan".toList = some .nan)
  | inf b =>
    cases b
    · exact (by decide : readNum "inf".toList = some (.inf false))
    · exact (by decide : readNum "-inf".toList = some (.inf true))

private theorem split_col (w : ℕ) (x : Num) (s : Str) : split (col w x ++ s) = digits 9 x :: split s := by
  rw [col, List.cons_append, split_cons_ws (by decide), List.append_assoc, split_padLeft]
  exact split_token_ws (digits_token 9 x) (by decide) s

private theorem split_cols (w : ℕ) (xs : List Num) (s : Str) : split ((xs.map (col w)).flatten ++ s) = xs.map (digits 9) ++ split s := by
  induction xs with
  | nil => rfl
  | cons x xs ih => rw [List.map_cons, List.flatten_cons, List.append_assoc, split_col, ih]; rfl

private theorem col_newline (w : ℕ) (x : Num) : '\n' ∉ col w x := by
  intro h
  rw [col, padLeft] at h
  simp only [List.mem_cons, List.mem_append, List.not_mem_nil, or_false] at h
  rcases h with h | (h | h) | h
  · exact absurd h (by decide)
  · exact absurd (List.eq_of_mem_replicate h) (by decide)
  · exact absurd ((digits_token 9 x).2 _ h) (by decide)
  · exact absurd h (by decide)

private theorem cols_newline (w : ℕ) (xs : List Num) : '\n' ∉ (xs.map (col w)).flatten := by
  intro h
  obtain ⟨l, hl, h⟩ := List.mem_flatten.1 h
  obtain ⟨x, -, rfl⟩ := List.mem_map.1 hl
  exact col_newline w x h

/-- A data line made of columns. -/
private theorem data_line (w : ℕ) (xs : List Num) :
    IsLine ((xs.map (col w)).flatten ++ ['\n']) ∧ (split ((xs.map (col w)).flatten ++ ['\n'])).map readNum = xs.map fun x => some (rounded 9 x) := by
  refine ⟨⟨_, cols_newline w xs, rfl⟩, ?_⟩
  rw [split_cols, show split ['\n'] = [] by decide, List.append_nil, List.map_map]
  exact List.map_congr_left fun x _ => readNum_digits 9 x

/-- A file of two heading lines and data lines of columns. -/
private theorem table_of (w : ℕ) (h1 h2 : Str) (i1 : IsLine h1) (i2 : IsLine h2) (rows : List (List Num)) (ls : List Str)
    (hls : ls = [h1, h2] ++ rows.map fun xs => (xs.map (col w)).flatten ++ ['\n']) :
    readlines ls.flatten = ls ∧ readTable ls.flatten = rows.map fun xs => xs.map fun x => some (rounded 9 x) := by
  have h : readlines ls.flatten = ls := by
    apply readlines_flatten
    intro l hl
    rw [hls] at hl
    simp only [List.mem_append, List.mem_cons, List.not_mem_nil, or_false] at hl
    rcases hl with (rfl | rfl) | hl
    · exact i1
    · exact i2
    · obtain ⟨xs, -, rfl⟩ := List.mem_map.1 hl
      exact (data_line w xs).1
  refine ⟨h, ?_⟩
  rw [readTable, h, hls]
  simp only [List.cons_append, List.nil_append, List.drop_succ_cons, List.drop_zero, List.map_map]
  exact List.map_congr_left fun xs _ => (data_line w xs).2

private theorem comment_line (what : Str) (hw : '\n' ∉ what) (sigma : ℚ) : IsLine (dosComment what sigma) := by
  rw [dosComment]
  split_ifs with h
  · refine ⟨what ++ " phonon DOS by Linear Tetrahedron Method".toList, ?_, by rw [List.append_assoc]; rfl⟩
    rw [List.mem_append, not_or]
    exact ⟨hw, by decide⟩
  · refine ⟨_, ?_, rfl⟩
    simp only [List.mem_append, not_or]
    exact ⟨⟨hw, by decide⟩, fmtFixed_not_mem (by decide) (by decide) (by decide)⟩

/-! ### C94 -/

/-- **C94**, `total_dos.dat`: for all values, however large, the table in the file has one row per frequency, with the frequency and the density, rounded to
nine decimals. -/
theorem C94_total_dos (sigma : ℚ) (freq tdos : List Num) :
    readTable (totalDos sigma freq tdos).flatten = (freq.zip tdos).map fun p => [some (rounded 9 p.1), some (rounded 9 p.2)] := by
  have := (table_of 16 _ _ (comment_line "Total".toList (by decide) sigma)
    ⟨"    Frequency (THz)    Total_Density_of_State".toList, by decide, rfl⟩ ((freq.zip tdos).map fun p => [p.1, p.2]) (totalDos sigma freq tdos)
    (by simp [totalDos])).2
  rw [this]
  simp

/-- **C94**, `projected_dos.dat`: one row per frequency: the frequency, then one number for every degree of freedom. -/
theorem C94_projected_dos (sigma : ℚ) (xyz : List ℕ) (freq : List Num) (pdos : ℕ → ℕ → Num) :
    readTable (projectedDos sigma xyz freq pdos).flatten =
      freq.mapIdx fun i x => some (rounded 9 x) :: (List.range xyz.length).map fun ind => some (rounded 9 (pdos ind i)) := by
  have hlab := label_newline xyz
  have := (table_of 16 _ ("    Frequency (THz)".toList ++ (xyz.map label).flatten ++ ['\n']) (comment_line "Projected".toList (by decide) sigma)
    ⟨_, by rw [List.mem_append, not_or]; exact ⟨by decide, hlab⟩, rfl⟩
    (freq.mapIdx fun i x => x :: (List.range xyz.length).map fun ind => pdos ind i) (projectedDos sigma xyz freq pdos)
    (by rw [map_mapIdx]; simp [projectedDos, Function.comp_def])).2
  rw [this, map_mapIdx]
  simp [Function.comp_def]

/-- **C94**, `band.dat`: one row per k point: the path coordinate, then the frequencies of that k point. -/
theorem C94_band (len : List Num) (w : List (List Num)) :
    readTable (band len w).flatten = (len.zip w).map fun p => some (rounded 9 p.1) :: p.2.map fun x => some (rounded 9 x) := by
  have := (table_of 16 _ _ ⟨"Phonon Band".toList, by decide, rfl⟩ ⟨"    K_Points_Path    Frequency (THz)".toList, by decide, rfl⟩
    ((len.zip w).map fun p => p.1 :: p.2) (band len w) (by simp [band])).2
  rw [this]
  simp

/-- **C94**, `thermal_properties.dat`: one row per temperature. -/
theorem C94_thermal (temp free entropy : List Num) :
    readTable (thermal temp free entropy).flatten =
      (temp.zip (free.zip entropy)).map fun p => [some (rounded 9 p.1), some (rounded 9 p.2.1), some (rounded 9 p.2.2)] := by
  have := (table_of 20 _ _ ⟨"Thermal Properties / atom".toList, by decide, rfl⟩
    ⟨"    Temperature (K)    Free_energy (eV/atom)    Entropy (meV/K/atom)".toList, by decide, rfl⟩
    ((temp.zip (free.zip entropy)).map fun p => [p.1, p.2.1, p.2.2]) (thermal temp free entropy) (by simp [thermal])).2
  rw [this]
  simp

/-- **C94**, `freqency_at_gamma_point.dat`: one frequency per row. -/
theorem C94_gamma_file (freqs : List Num) : readTable (gammaFile freqs).flatten = freqs.map fun x => [some (rounded 9 x)] := by
  have := (table_of 16 _ _ ⟨"Discrete frequency of non-periodic system".toList, by decide, rfl⟩ ⟨"    Frequency (THz)".toList, by decide, rfl⟩
    (freqs.map fun x => [x]) (gammaFile freqs) (by simp [gammaFile])).2
  rw [this]
  simp

/-- The first line of the density files tells the method and the smearing. -/
theorem C94_method_line (sigma : ℚ) (freq tdos : List Num) : (readlines (totalDos sigma freq tdos).flatten)[0]? =
    some (if sigma = 0 then "Total phonon DOS by Linear Tetrahedron Method\n".toList
      else "Total phonon DOS by Gaussian Smearing with Sigma = ".toList ++ fmtFixed 6 sigma ++ ['\n']) := by
  have := (table_of 16 _ _ (comment_line "Total".toList (by decide) sigma)
    ⟨"    Frequency (THz)    Total_Density_of_State".toList, by decide, rfl⟩ ((freq.zip tdos).map fun p => [p.1, p.2]) (totalDos sigma freq tdos)
    (by simp [totalDos])).1
  rw [this, totalDos]
  simp only [List.cons_append, List.getElem?_cons_zero, Option.some.injEq, dosComment]
  split_ifs <;> rfl

/-! ### C95 -/

/-- **C95.**  The heading of `projected_dos.dat` has, after the two words of the frequency column, one label for every column of the table, in the same order, made
of the number of the atom the column belongs to. -/
theorem C95_labels (sigma : ℚ) (xyz : List ℕ) (freq : List Num) (pdos : ℕ → ℕ → Num) :
    (readlines (projectedDos sigma xyz freq pdos).flatten)[1]?.map split =
      some (["Frequency".toList, "(THz)".toList] ++ xyz.map fun a => "pdos-atom-".toList ++ padLeft '0' 3 (natStr a)) := by
  have htok := label_token
  have hsp : ∀ s : Str, split ((xyz.map label).flatten ++ s) = (xyz.map fun a => "pdos-atom-".toList ++ padLeft '0' 3 (natStr a)) ++ split s := by
    intro s
    induction xyz with
    | nil => rfl
    | cons a l ih =>
      rw [List.map_cons, List.flatten_cons, List.append_assoc, List.map_cons, List.cons_append, ← ih]
      have e : label a ++ ((l.map label).flatten ++ s) =
          ' ' :: ' ' :: ' ' :: (("pdos-atom-".toList ++ padLeft '0' 3 (natStr a)) ++ ' ' :: (' ' :: ((l.map label).flatten ++ s))) := by
        rw [label_eq]; simp only [List.cons_append, List.append_assoc, List.nil_append]
      rw [e, split_cons_ws (by decide), split_cons_ws (by decide), split_cons_ws (by decide), split_token_ws (htok a) (by decide), split_cons_ws (by decide)]
  have hlab := label_newline xyz
  have := (table_of 16 _ ("    Frequency (THz)".toList ++ (xyz.map label).flatten ++ ['\n']) (comment_line "Projected".toList (by decide) sigma)
    ⟨_, by rw [List.mem_append, not_or]; exact ⟨by decide, hlab⟩, rfl⟩
    (freq.mapIdx fun i x => x :: (List.range xyz.length).map fun ind => pdos ind i) (projectedDos sigma xyz freq pdos)
    (by rw [map_mapIdx]; simp [projectedDos, Function.comp_def])).1
  rw [this, projectedDos]
  simp only [List.cons_append, List.nil_append, List.getElem?_cons_succ, List.getElem?_cons_zero, Option.map_some, Option.some.injEq]
  have e : "    Frequency (THz)".toList ++ (xyz.map label).flatten ++ ['\n'] =
      List.replicate 4 ' ' ++ ("Frequency".toList ++ ' ' :: ("(THz)".toList ++ ((xyz.map label).flatten ++ ['\n']))) := by
    rw [show "    Frequency (THz)".toList = List.replicate 4 ' ' ++ ("Frequency".toList ++ ' ' :: "(THz)".toList) by decide]
    simp only [List.append_assoc, List.cons_append]
  have hT : IsToken "(THz)".toList := ⟨by decide, by decide⟩
  rw [e, split_replicate_ws, split_token_ws ⟨by decide, by decide⟩ (by decide)]
  congr 1
  cases xyz with
  | nil =>
    simp only [List.map_nil, List.flatten_nil, List.nil_append]
    exact (split_token_ws hT (by decide) []).trans rfl
  | cons a l =>
    have h0 := hsp ['\n']
    rw [List.map_cons, List.flatten_cons] at h0 ⊢
    have e2 : label a = ' ' :: (label a).tail := by rw [label_eq]; rfl
    rw [e2] at h0 ⊢
    simp only [List.cons_append] at h0 ⊢
    rw [split_token_ws hT (by decide)]
    rw [split_cons_ws (by decide)] at h0
    rw [h0]
    rw [show split ['\n'] = [] by decide]
    simp

/-- Labels of different atoms are different. -/
theorem C95_labels_distinct (a b : ℕ) (h : "pdos-atom-".toList ++ padLeft '0' 3 (natStr a) = "pdos-atom-".toList ++ padLeft '0' 3 (natStr b)) : a = b := by
  have h1 := List.append_cancel_left h
  have h2 := parseNat_padLeft_zero 3 a
  rw [h1, parseNat_padLeft_zero] at h2
  exact (Option.some.inj h2).symm

/-- The three columns of one atom share their label: only the order (x, y, z) tells them apart. -/
theorem C95_columns_of_an_atom (sigma : ℚ) (freq : List Num) (pdos : ℕ → ℕ → Num) :
    (readlines (projectedDos sigma [4, 4, 4] freq pdos).flatten)[1]?.map split =
      some ["Frequency".toList, "(THz)".toList, "pdos-atom-004".toList, "pdos-atom-004".toList, "pdos-atom-004".toList] := by
  rw [C95_labels]; decide +kernel

/-! ### C96 -/

/-- Specification: the structure number `k` of an animation file with `N` atoms, as a structure file: the seven heading lines, the word for Cartesian
coordinates, and the `N` lines below the `k`-th configuration line. -/
def structureAt (N k : ℕ) (ls : List Str) : List Str :=
  ls.take 7 ++ ["Cartesian\n".toList] ++ (ls.drop (7 + k * (N + 1) + 1)).take N

private def body (f : List (V3 ℚ)) : List Str := f.map fun v => ' ' :: (row v ++ ['\n'])

private theorem write_frame (c : Cell ℚ) (groups : List (Str × ℕ)) (h : IsStructure c groups) :
    ∃ hd : List Str, hd.length = 7 ∧ (∀ l ∈ hd, IsLine l) ∧ ∀ f : List (V3 ℚ),
      Vasp.writeInput { c with selective := false, cart := f } "unknown system".toList = .ok (hd ++ "Cartesian\n".toList :: body f) := by
  have hf3 : List.finRange 3 = [0, 1, 2] := rfl
  have hbody : ∀ f : List (V3 ℚ), f.mapIdx (Vasp.posLine { c with selective := false, cart := f }) = body f := by
    intro f
    rw [body, List.mapIdx_eq_iff]
    intro i
    rw [List.getElem?_map]
    rfl
  obtain ⟨ls, hls, -⟩ := C57_roundtrip { c with selective := false } groups ⟨h.nonempty, h.positive, h.token, h.types, h.counts, h.len⟩
    "unknown system".toList (by decide) (by simp)
  have hg : ∃ g, Vasp.groupTypes c.atomType c.numAtom.dropLast 0 = .ok g ∧ ∀ t ∈ g, IsToken t := by
    refine ⟨groups.map Prod.fst, ?_, ?_⟩
    · rw [h.types, h.counts]
      exact group_types groups [] h.nonempty h.positive
    · intro t ht
      obtain ⟨x, hx, rfl⟩ := List.mem_map.1 ht
      exact h.token x hx
  obtain ⟨g, hg, htok⟩ := hg
  have hint : ∀ t ∈ c.numAtom.map intStr, IsToken t := by
    intro t ht
    rw [h.counts, List.map_map, List.mem_map] at ht
    obtain ⟨x, -, rfl⟩ := ht
    rw [Function.comp, intStr_natCast]; exact natStr_token _
  refine ⟨["unknown system".toList ++ ['\n'], "1.00000000000000\n".toList, ' ' :: (row (c.lattice 0) ++ ['\n']), ' ' :: (row (c.lattice 1) ++ ['\n']),
    ' ' :: (row (c.lattice 2) ++ ['\n']), Vasp.join "    ".toList g ++ ['\n'], Vasp.join "    ".toList (c.numAtom.map intStr) ++ ['\n']], rfl, ?_, ?_⟩
  · intro l hl
    simp only [List.mem_cons, List.not_mem_nil, or_false] at hl
    rcases hl with rfl | rfl | rfl | rfl | rfl | rfl | rfl
    · exact ⟨_, by decide, rfl⟩
    · exact ⟨"1.00000000000000".toList, by decide, rfl⟩
    · exact rowLine _ [] (by simp)
    · exact rowLine _ [] (by simp)
    · exact rowLine _ [] (by simp)
    · exact ⟨_, join_not_mem (by decide) (fun t ht => token_no_newline (htok t ht)), rfl⟩
    · exact ⟨_, join_not_mem (by decide) (fun t ht => token_no_newline (hint t ht)), rfl⟩
  · intro f
    rw [Vasp.writeInput]
    simp only [hg, Bool.false_eq_true, false_and, if_false]
    rw [Vasp.inputLines, hbody]
    simp [hf3]

private theorem loop_tail (c : Cell ℚ) (hd : List Str) (h7 : hd.length = 7)
    (hw : ∀ f : List (V3 ℚ), Vasp.writeInput { c with selective := false, cart := f } "unknown system".toList = .ok (hd ++ "Cartesian\n".toList :: body f)) :
    ∀ (fs : List (List (V3 ℚ))) (ind : ℕ) (acc : List Str), ind ≠ 1 → ind ≠ 0 →
      modeLoop c ind fs (some acc) = .ok (some (acc ++ (fs.mapIdx fun i f => configLine (ind + i) :: body f).flatten)) := by
  intro fs
  induction fs with
  | nil => intro ind acc _ _; simp [modeLoop]
  | cons f fs ih =>
    intro ind acc h1 h0
    have hset : setLine (hd ++ "Cartesian\n".toList :: body f) 7 (configLine ind) = .ok (hd ++ configLine ind :: body f) := by
      rw [setLine, if_pos (by simp [h7]), List.set_append_right _ _ (by omega), h7]
      rfl
    rw [modeLoop, hw]
    simp only [hset, if_neg h1]
    rw [ih (ind + 1) _ (by omega) (by omega), List.drop_append, h7]
    rw [show hd.drop 7 = [] from List.drop_eq_nil_of_le (by omega)]
    simp [Nat.add_assoc, Nat.add_comm 1]

/-- **C96.**  For every structure and every non-empty list of images, the animation file is written, has seven heading lines and then, for every image, a
configuration line with its number (from 1) and one line per atom.  Taken out of the file, every image is a structure file that reads back as that image: the
lattice, types and counts of the unit cell and the positions of the image, rounded to 16 decimals. -/
theorem C96_animation_file (c : Cell ℚ) (groups : List (Str × ℕ)) (h : IsStructure c groups) (frames : List (List (V3 ℚ))) (hne : frames ≠ [])
    (hlen : ∀ f ∈ frames, f.length = c.cart.length) :
    ∃ ls, modeFile c frames = .ok ls ∧ readlines ls.flatten = ls ∧ ls.length = 7 + frames.length * (c.cart.length + 1) ∧
      ∀ (k : ℕ) (f : List (V3 ℚ)), frames[k]? = some f →
        (ls[7 + k * (c.cart.length + 1)]?).map split = some ["Cartesian".toList, "configuration=".toList, natStr (k + 1)] ∧
        ∃ P, Vasp.readInput (structureAt c.cart.length k ls) = .ok P ∧
          P.lattice = (List.finRange 3).map (fun i => [rndDec 16 (c.lattice i 0), rndDec 16 (c.lattice i 1), rndDec 16 (c.lattice i 2)]) ∧
          P.atomType = c.atomType ∧ P.numAtom = c.numAtom ∧ P.coordinate = "cartesian".toList ∧
          P.cart = f.map fun v => [rndDec 16 (v 0), rndDec 16 (v 1), rndDec 16 (v 2)] := by
  obtain ⟨hd, h7, hline, hw⟩ := write_frame c groups h
  have hfile : modeFile c frames = .ok (hd ++ (frames.mapIdx fun i f => configLine (1 + i) :: body f).flatten) := by
    cases frames with
    | nil => exact absurd rfl hne
    | cons f fs =>
      have hset : setLine (hd ++ "Cartesian\n".toList :: body f) 7 (configLine 1) = .ok (hd ++ configLine 1 :: body f) := by
        rw [setLine, if_pos (by simp [h7]), List.set_append_right _ _ (by omega), h7]
        rfl
      rw [modeFile, modeLoop, hw]
      simp only [hset, if_true]
      rw [loop_tail c hd h7 hw fs (1 + 1) _ (by omega) (by omega)]
      simp only [List.mapIdx_cons, List.flatten_cons, Nat.add_zero, List.append_assoc, List.cons_append]
      have e : (fun i f => configLine (1 + 1 + i) :: body f) = fun i f => configLine (1 + (i + 1)) :: body f := by
        funext i f; rw [Nat.add_assoc, Nat.add_comm 1 i]
      rw [e]
  have hconf : ∀ n, IsLine (configLine n) := by
    intro n
    refine ⟨_, ?_, rfl⟩
    simp only [List.mem_append, padLeft]
    rintro (h | h | h)
    · revert h; decide
    · exact absurd (List.eq_of_mem_replicate h) (by decide)
    · exact absurd ((natStr_token n).2 _ h) (by decide)
  have hbodyline : ∀ (f : List (V3 ℚ)), ∀ l ∈ body f, IsLine l := by
    intro f l hl
    obtain ⟨v, -, rfl⟩ := List.mem_map.1 hl
    exact rowLine v [] (by simp)
  have hblocklen : ∀ (fr : List (List (V3 ℚ))) (s : ℕ), (∀ f ∈ fr, f.length = c.cart.length) →
      (fr.mapIdx fun i f => configLine (s + i) :: body f).flatten.length = fr.length * (c.cart.length + 1) := by
    intro fr
    induction fr with
    | nil => intro s _; simp
    | cons f fr ih =>
      intro s hl
      rw [List.mapIdx_cons, List.flatten_cons, List.length_append]
      have e : (fun i f => configLine (s + (i + 1)) :: body f) = fun i f => configLine (s + 1 + i) :: body f := by
        funext i f; rw [Nat.add_assoc, Nat.add_comm 1]
      rw [e, ih (s + 1) fun g hg => hl g (List.mem_cons_of_mem _ hg)]
      simp [body, hl f List.mem_cons_self]
      ring
  have hdrop : ∀ (fr : List (List (V3 ℚ))) (s k : ℕ) (f : List (V3 ℚ)), (∀ f ∈ fr, f.length = c.cart.length) → fr[k]? = some f →
      ∃ rest, (fr.mapIdx fun i f => configLine (s + i) :: body f).flatten.drop (k * (c.cart.length + 1)) = configLine (s + k) :: (body f ++ rest) := by
    intro fr
    induction fr with
    | nil => intro s k f _ hk; simp at hk
    | cons g fr ih =>
      intro s k f hl hk
      have e : (fun i f => configLine (s + (i + 1)) :: body f) = fun i f => configLine (s + 1 + i) :: body f := by
        funext i f; rw [Nat.add_assoc, Nat.add_comm 1]
      rw [List.mapIdx_cons, List.flatten_cons, e]
      cases k with
      | zero =>
        simp only [List.getElem?_cons_zero, Option.some.injEq] at hk
        subst hk
        exact ⟨(fr.mapIdx fun i f => configLine (s + 1 + i) :: body f).flatten, by simp⟩
      | succ k =>
        rw [List.getElem?_cons_succ] at hk
        obtain ⟨rest, hr⟩ := ih (s + 1) k f (fun x hx => hl x (List.mem_cons_of_mem _ hx)) hk
        refine ⟨rest, ?_⟩
        rw [List.drop_append, List.drop_eq_nil_of_le, List.nil_append]
        · have e1 : (k + 1) * (c.cart.length + 1) - (configLine (s + 0) :: body g).length = k * (c.cart.length + 1) := by
            simp only [List.length_cons, body, List.length_map, hl g List.mem_cons_self]
            rw [Nat.add_mul]; omega
          rw [e1, hr]
          simp only [Nat.add_assoc, Nat.add_comm 1 k]
        · simp only [List.length_cons, body, List.length_map, hl g List.mem_cons_self]
          nlinarith [Nat.zero_le (k * (c.cart.length + 1))]
  refine ⟨_, hfile, ?_, ?_, ?_⟩
  · apply readlines_flatten
    intro l hl
    rcases List.mem_append.1 hl with hl | hl
    · exact hline l hl
    · obtain ⟨b, hb, hl⟩ := List.mem_flatten.1 hl
      obtain ⟨i, hi, rfl⟩ := List.mem_mapIdx.1 hb
      rcases List.mem_cons.1 hl with rfl | hl
      · exact hconf _
      · exact hbodyline _ _ hl
  · rw [List.length_append, h7, hblocklen frames 1 hlen]
  · intro k f hk
    obtain ⟨rest, hr⟩ := hdrop frames 1 k f hlen hk
    have hd7 : ∀ n, (hd ++ (frames.mapIdx fun i f => configLine (1 + i) :: body f).flatten).drop (7 + n) =
        (frames.mapIdx fun i f => configLine (1 + i) :: body f).flatten.drop n := by
      intro n
      rw [List.drop_append, h7, show hd.drop (7 + n) = [] from List.drop_eq_nil_of_le (by omega)]
      simp
    refine ⟨?_, ?_⟩
    · have : (hd ++ (frames.mapIdx fun i f => configLine (1 + i) :: body f).flatten)[7 + k * (c.cart.length + 1)]? = some (configLine (1 + k)) := by
        rw [← Nat.add_zero (7 + k * (c.cart.length + 1)), ← List.getElem?_drop, hd7, hr]
        rfl
      rw [this, Option.map_some, Option.some.injEq]
      have e : configLine (1 + k) = "Cartesian".toList ++ ' ' :: ("configuration=".toList ++ ' ' :: (padLeft ' ' 4 (natStr (1 + k)) ++ ['\n'])) := by
        have e1 : "Cartesian configuration= ".toList = "Cartesian".toList ++ ' ' :: ("configuration=".toList ++ [' ']) := by decide
        unfold configLine
        generalize padLeft ' ' 4 (natStr (1 + k)) = P
        rw [e1]
        simp only [List.append_assoc, List.cons_append, List.nil_append]
      rw [e, split_token_ws ⟨by decide, by decide⟩ (by decide), split_token_ws ⟨by decide, by decide⟩ (by decide), split_padLeft,
        split_token_ws (natStr_token _) (by decide), Nat.add_comm]
      rfl
    · have hst : structureAt c.cart.length k (hd ++ (frames.mapIdx fun i f => configLine (1 + i) :: body f).flatten) =
          hd ++ "Cartesian\n".toList :: body f := by
        rw [structureAt, List.take_append_of_le_length (by omega), List.take_of_length_le (by omega), Nat.add_assoc, hd7,
          ← List.drop_drop, hr]
        simp only [List.drop_succ_cons, List.drop_zero, List.append_assoc, List.cons_append, List.nil_append]
        have hbl : (body f).length = c.cart.length := by
          rw [body, List.length_map]; exact hlen f (List.mem_of_getElem? hk)
        rw [← hbl, List.take_left]
      have hs : IsStructure { c with selective := false, cart := f } groups :=
        ⟨h.nonempty, h.positive, h.token, h.types, h.counts, by rw [← h.len]; exact hlen f (List.mem_of_getElem? hk)⟩
      obtain ⟨ls, w1, w2⟩ := C57_roundtrip { c with selective := false, cart := f } groups hs "unknown system".toList (by decide) (by simp)
      rw [hw f] at w1
      cases w1
      rw [readlines_flatten] at w2
      · rw [hst]
        exact ⟨_, w2, rfl, rfl, rfl, rfl, rfl⟩
      · intro l hl
        rcases List.mem_append.1 hl with hl | hl
        · exact hline l hl
        · rcases List.mem_cons.1 hl with rfl | hl
          · exact ⟨"Cartesian".toList, by decide, rfl⟩
          · exact hbodyline f l hl

/-- Without images (`num_images = 0`) nothing is written: the call raises. -/
theorem C96_no_image (c : Cell ℚ) : modeFile c [] = .error .unboundLocal := rfl

/-! ### Non-vacuity -/

example : readTable (totalDos (1/10) [.fin 0, .fin (12345678901234567890 / 7), .inf true] [.nan, .fin (-1/3), .fin 5]).flatten =
    [[some (.fin 0), some .nan], [some (.fin (rndDec 9 (12345678901234567890 / 7))), some (.fin (-333333333/1000000000))], [some (.inf true), some (.fin 5)]] := by
  rw [C94_total_dos]; decide +kernel

example : ∃ ls, modeFile exampleStructure [exampleStructure.cart, [![0, 0, 5], ![3/2, -3/2, 6], ![1/3, 1, 1]]] = .ok ls ∧ ls.length = 15 := by
  obtain ⟨ls, h1, -, h3, -⟩ := C96_animation_file exampleStructure _ exampleStructure_ok
    [exampleStructure.cart, [![0, 0, 5], ![3/2, -3/2, 6], ![1/3, 1, 1]]] (by simp) (by simp [exampleStructure])
  exact ⟨ls, h1, h3⟩

end Interphon.Props
