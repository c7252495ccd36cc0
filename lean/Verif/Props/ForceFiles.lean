import Verif.Props.Faithful
import Verif.Props.ProgramDos

/-! # Property C124: incomplete output files of the calculations -/

noncomputable section

namespace Interphon.Props
open Py Interphon Interphon.Inout Interphon.Main Interphon.Cli

/-! ### What a reader returns -/

/-- Specification: `r` are the (at most three) numbers in a line from word `lead` on, times `unit`. -/
def ForceRow (lead : ℕ) (unit : ℚ) (l : Str) (r : List ℚ) : Prop :=
  List.Forall₂ (fun t q => ∃ v, parseFloat t = some v ∧ q = v * unit) (((split l).drop lead).take 3) r

/-- Specification: `x` is what stands in the lines where the table of forces of `n` atoms should be - after the first line that contains the tag and `gap` further lines.
At the end of the file the table may be cut. -/
def ForceTable (tag : Str) (lead gap : ℕ) (unit : ℚ) (lines : List Str) (n : ℕ) (x : List (List ℚ)) : Prop :=
  ∃ (before : List Str) (tagLine : Str) (rest : List Str), lines = before ++ tagLine :: rest ∧ (∀ l ∈ before, ¬tag <:+: l) ∧ tag <:+: tagLine ∧
    List.Forall₂ (ForceRow lead unit) ((rest.drop gap).take n) x ∧ ∀ r ∈ x, r.length = (x.headD []).length

/-- Specification: `x` is what stands in the table of forces (in newton) of the output file `name` of the code, made for `n` atoms. -/
def OutputTable (code : Code) (name : Str) (lines : List Str) (n : ℕ) (x : List (List ℚ)) : Prop :=
  match code with
  | .vasp => (name = "vasprun.xml".toList ∧ ForceTable "forces".toList 1 0 code.unit lines n x) ∨
      (name = "OUTCAR".toList ∧ ForceTable "TOTAL-FORCE".toList 3 1 code.unit lines n x)
  | .espresso => ForceTable "Forces acting on atoms".toList 6 1 code.unit lines n x
  | .aims => ForceTable "Total atomic forces".toList 2 0 code.unit lines n x

theorem findIdx_iff {tag : Str} {lines : List Str} {i : ℕ} : lines.findIdx? (fun l => isInfix tag l) = some i ↔
    ∃ before tagLine rest, lines = before ++ tagLine :: rest ∧ (∀ l ∈ before, ¬tag <:+: l) ∧ tag <:+: tagLine ∧ before.length = i := by
  constructor
  · intro h
    rw [List.findIdx?_eq_some_iff_getElem] at h
    obtain ⟨hi, h1, h2⟩ := h
    refine ⟨lines.take i, lines[i], lines.drop (i + 1), ?_, ?_, (isInfix_iff _ _).1 h1, ?_⟩
    · rw [List.getElem_cons_drop, List.take_append_drop]
    · intro l hl
      obtain ⟨k, hk, rfl⟩ := List.getElem_of_mem hl
      rw [List.length_take] at hk
      rw [List.getElem_take]
      have := h2 k (by omega)
      rw [← isInfix_iff]
      exact this
    · rw [List.length_take]; omega
  · rintro ⟨before, tagLine, rest, rfl, h1, h2, rfl⟩
    rw [List.findIdx?_append, List.findIdx?_eq_none_iff.2 (fun l hl => by
      rw [Bool.eq_false_iff, Ne, isInfix_iff]; exact h1 l hl), List.findIdx?_cons, if_pos ((isInfix_iff _ _).2 h2)]
    simp

theorem asRows_iff {rows : List (List Str)} {x : List (List ℚ)} :
    asRows rows = .ok x ↔ List.Forall₂ (List.Forall₂ fun t q => parseFloat t = some q) rows x ∧ ∀ r ∈ x, r.length = (x.headD []).length := by
  unfold asRows
  have key : ∀ r, mapE (mapE floatE) rows = .ok r ↔ List.Forall₂ (List.Forall₂ fun t q => parseFloat t = some q) rows r := by
    intro r
    rw [mapE_ok_iff]
    constructor
    · intro h
      refine h.imp fun a b hab => ?_
      rw [mapE_ok_iff] at hab
      exact hab.imp fun _ _ => floatE_iff.1
    · intro h
      refine h.imp fun a b hab => ?_
      rw [mapE_ok_iff]
      exact hab.imp fun _ _ => floatE_iff.2
  rw [← key]
  cases hm : mapE (mapE floatE) rows with
  | error e => simp
  | ok r =>
    simp only [Except.ok.injEq]
    constructor
    · intro h
      split_ifs at h with hh
      cases h
      exact ⟨rfl, by simpa using hh⟩
    · rintro ⟨rfl, h⟩
      rw [if_pos (by simpa using h)]

theorem forces_iff {tag : Str} {off lo n : ℕ} {u : ℚ} {lines : List Str} {x : List (List ℚ)} :
    forces tag (off + 1) lo (lo + 3) u n lines = .ok x ↔ ForceTable tag lo off u lines n x := by
  have hcols : ∀ l, ((split l).take (lo + 3)).drop lo = ((split l).drop lo).take 3 := by
    intro l
    rw [List.drop_take, Nat.add_sub_cancel_left]
  have hdrop : ∀ (before : List Str) (tagLine : Str) (rest : List Str), (before ++ tagLine :: rest).drop (before.length + (off + 1)) = rest.drop off := by
    intro before tagLine rest
    rw [List.drop_append, List.drop_eq_nil_of_le (by omega), Nat.add_sub_cancel_left]
    rfl
  have hrows : ∀ (ls : List Str) (x : List (List ℚ)), (∃ r, asRows (ls.map fun l => ((split l).take (lo + 3)).drop lo) = .ok r ∧ x = r.map fun y => y.map (· * u)) ↔
      List.Forall₂ (ForceRow lo u) ls x ∧ ∀ r ∈ x, r.length = (x.headD []).length := by
    intro ls x
    constructor
    · rintro ⟨r, hr, rfl⟩
      rw [asRows_iff] at hr
      obtain ⟨h1, h2⟩ := hr
      constructor
      · rw [List.forall₂_map_left_iff] at h1
        rw [List.forall₂_map_right_iff]
        refine h1.imp fun l y hy => ?_
        unfold ForceRow
        rw [hcols] at hy
        rw [List.forall₂_map_right_iff]
        exact hy.imp fun t q hq => ⟨q, hq, rfl⟩
      · intro y hy
        obtain ⟨z, hz, rfl⟩ := List.mem_map.1 hy
        cases r with
        | nil => simp at hz
        | cons a r => simpa using h2 z hz
    · rintro ⟨h1, h2⟩
      have : ∃ r, List.Forall₂ (List.Forall₂ fun t q => parseFloat t = some q) (ls.map fun l => ((split l).take (lo + 3)).drop lo) r ∧ x = r.map fun y => y.map (· * u) := by
        clear h2
        induction h1 with
        | nil => exact ⟨[], .nil, rfl⟩
        | @cons l y ls x hl _ ih =>
          obtain ⟨r, hr, rfl⟩ := ih
          have : ∃ z, List.Forall₂ (fun t q => parseFloat t = some q) (((split l).drop lo).take 3) z ∧ y = z.map (· * u) := by
            unfold ForceRow at hl
            generalize ((split l).drop lo).take 3 = c at hl
            induction hl with
            | nil => exact ⟨[], .nil, rfl⟩
            | @cons t q c y ht _ ih =>
              obtain ⟨v, hv, rfl⟩ := ht
              obtain ⟨z, hz, rfl⟩ := ih
              exact ⟨v :: z, .cons hv hz, rfl⟩
          obtain ⟨z, hz, rfl⟩ := this
          exact ⟨z :: r, .cons (by show List.Forall₂ _ (((split l).take (lo + 3)).drop lo) z; rw [hcols]; exact hz) hr, rfl⟩
      obtain ⟨r, hr, rfl⟩ := this
      refine ⟨r, asRows_iff.2 ⟨hr, ?_⟩, rfl⟩
      intro y hy
      have := h2 _ (List.mem_map_of_mem hy)
      cases r with
      | nil => simp at hy
      | cons a r => simpa using this
  unfold forces ForceTable
  cases hi : lines.findIdx? (fun l => isInfix tag l) with
  | none =>
    refine ⟨fun h => (by cases h), ?_⟩
    rintro ⟨before, tagLine, rest, h1, h2, h3, -⟩
    rw [findIdx_iff.2 ⟨before, tagLine, rest, h1, h2, h3, rfl⟩] at hi
    cases hi
  | some i =>
    simp only
    constructor
    · intro h
      obtain ⟨before, tagLine, rest, rfl, h1, h2, rfl⟩ := findIdx_iff.1 hi
      rw [hdrop] at h
      refine ⟨before, tagLine, rest, rfl, h1, h2, ?_⟩
      rw [← hrows]
      split at h
      · cases h
      · rename_i r hr
        cases h
        exact ⟨r, hr, rfl⟩
    · rintro ⟨before, tagLine, rest, rfl, h1, h2, h3⟩
      rw [findIdx_iff.2 ⟨before, tagLine, rest, rfl, h1, h2, rfl⟩] at hi
      cases hi
      rw [hdrop]
      obtain ⟨r, hr, rfl⟩ := (hrows _ _).2 h3
      rw [hr]

/-- **C124** (one file).  An output file is read exactly if its table of forces - as far as it goes - consists of lines with the same number (at most three) of numbers;
the array is this table, in newton. -/
theorem C124_file (fs : Fs) (code : Code) (n : ℕ) (path : Str) (x : List (List ℚ)) :
    readForces fs code.name n path = .ok x ↔ ∃ t, fs path = some t ∧ OutputTable code (baseName path) (readlines t) n x := by
  unfold readForces
  rw [bind_iff]
  have hload : ∀ t, load fs path = .ok t ↔ fs path = some t := by
    intro t
    unfold load
    cases fs path <;> simp
  simp only [hload]
  refine exists_congr fun t => and_congr_right fun _ => ?_
  cases code with
  | vasp =>
    rw [if_pos (show Code.vasp.name = "vasp".toList from rfl)]
    unfold Vasp.readOutput OutputTable
    rw [show (Vasp.unitFactor : ℚ) = Code.vasp.unit by norm_num [Vasp.unitFactor, Code.unit]]
    simp only
    by_cases h1 : baseName path = "vasprun.xml".toList
    · have h2 : baseName path ≠ "OUTCAR".toList := by rw [h1]; decide
      rw [if_pos h1]
      simp only [h1, true_and]
      rw [h1] at h2
      simp only [h2, false_and, or_false]
      exact forces_iff (off := 0) (lo := 1)
    · rw [if_neg h1]
      simp only [h1, false_and, false_or]
      by_cases h2 : baseName path = "OUTCAR".toList
      · rw [if_pos h2]
        simp only [h2, true_and]
        exact forces_iff (off := 1) (lo := 3)
      · rw [if_neg h2]
        simp only [h2, false_and]
        exact ⟨fun h => (by cases h), False.elim⟩
  | espresso =>
    rw [if_neg (by decide), if_pos (show Code.espresso.name = "espresso".toList from rfl)]
    unfold Espresso.readOutput OutputTable
    rw [show (Espresso.unitFactor : ℚ) = Code.espresso.unit by norm_num [Espresso.unitFactor, Code.unit]]
    exact forces_iff (off := 1) (lo := 6)
  | aims =>
    rw [if_neg (by decide), if_neg (by decide), if_pos (show Code.aims.name = "aims".toList from rfl)]
    unfold Aims.readOutput OutputTable
    rw [show (Aims.unitFactor : ℚ) = Code.aims.unit by norm_num [Aims.unitFactor, Code.unit]]
    exact forces_iff (off := 0) (lo := 2)

/-! ### All files -/

/-- Specification: an array of `a` rows of `b` numbers. -/
def Shape (a b : ℕ) (x : List (List ℚ)) : Prop := x.length = a ∧ ∀ r ∈ x, r.length = b

/-- Specification: the shapes two arrays of forces may have: both complete, or one complete and the other with a single row or a single column (or the rows from the one, the columns from
the other). -/
def PairShape (n : ℕ) (x y : List (List ℚ)) : Prop :=
  ∃ a b a' b', Shape a b x ∧ Shape a' b' y ∧ (a = n ∧ a' = n ∨ a = n ∧ a' = 1 ∨ a = 1 ∧ a' = n) ∧ (b = 3 ∧ b' = 3 ∨ b = 3 ∧ b' = 1 ∨ b = 1 ∧ b' = 3)

/-- All rows of the array have the same length (every array has it). -/
def Rect (x : List (List ℚ)) : Prop := ∀ r ∈ x, r.length = (x.headD []).length

theorem output_rect {code : Code} {name : Str} {lines : List Str} {n : ℕ} {x : List (List ℚ)} (h : OutputTable code name lines n x) : Rect x := by
  unfold OutputTable at h
  cases code with
  | vasp =>
    rcases h with ⟨-, -, -, -, -, -, -, -, h⟩ | ⟨-, -, -, -, -, -, -, -, h⟩ <;> exact h
  | espresso =>
    obtain ⟨-, -, -, -, -, -, -, h⟩ := h; exact h
  | aims =>
    obtain ⟨-, -, -, -, -, -, -, h⟩ := h; exact h

theorem shape_iff {a b : ℕ} (ha : a ≠ 0) {x : List (List ℚ)} (hx : Rect x) : Shape a b x ↔ x.length = a ∧ (x.headD []).length = b := by
  unfold Shape
  refine and_congr_right fun hl => ?_
  cases x with
  | nil => simp at hl; omega
  | cons r x =>
    constructor
    · intro h; exact h r (List.mem_cons_self ..)
    · intro h q hq; rw [hx q hq]; exact h

theorem fits_iff {n : ℕ} (hn : n ≠ 0) {x y : List (List ℚ)} (hx : Rect x) (hy : Rect y) : fits n x y = true ↔ PairShape n x y := by
  unfold fits PairShape
  simp only [Bool.and_eq_true, Bool.or_eq_true, beq_iff_eq]
  constructor
  · rintro ⟨⟨⟨⟨⟨h1, h2⟩, h3⟩, h4⟩, h5⟩, h6⟩
    refine ⟨x.length, (x.headD []).length, y.length, (y.headD []).length, (shape_iff (by omega) hx).2 ⟨rfl, rfl⟩, (shape_iff (by omega) hy).2 ⟨rfl, rfl⟩, by omega, by omega⟩
  · rintro ⟨a, b, a', b', h1, h2, h3, h4⟩
    rw [shape_iff (by omega) hx] at h1
    rw [shape_iff (by omega) hy] at h2
    omega

theorem pairForces_iff {n : ℕ} (hn : n ≠ 0) (l : List (List (List ℚ))) (hl : ∀ x ∈ l, Rect x) (bs : List (ForceConstant.Rows ℝ)) : pairForces n l = .ok bs ↔
    (∀ k x y, l[2 * k]? = some x → l[2 * k + 1]? = some y → PairShape n x y) ∧ bs = l.map (stretch n) := by
  induction hk : l.length using Nat.strong_induction_on generalizing l bs with
  | _ k ih =>
    match l, hl, hk with
    | [], hl, hk =>
      rw [pairForces]
      simp [eq_comm]
    | [x], hl, hk =>
      rw [pairForces]
      simp [eq_comm]
    | x :: y :: rest, hl, hk =>
      have hx := hl x (by simp)
      have hy := hl y (by simp)
      have ih := fun bs => ih rest.length (by simp at hk; omega) rest (fun z hz => hl z (by simp [hz])) bs rfl
      rw [pairForces]
      by_cases hf : fits n x y = true
      · rw [if_pos hf]
        constructor
        · intro h
          cases hp : pairForces n rest with
          | error e => rw [hp] at h; cases h
          | ok r =>
            rw [hp] at h
            cases h
            obtain ⟨h1, h2⟩ := (ih r).1 hp
            refine ⟨?_, by rw [h2]; rfl⟩
            intro k u v hu hv
            cases k with
            | zero => cases hu; cases hv; exact (fits_iff hn hx hy).1 hf
            | succ k => exact h1 k u v (by simpa [Nat.mul_add] using hu) (by simpa [Nat.mul_add] using hv)
        · rintro ⟨h1, rfl⟩
          rw [(ih (rest.map (stretch n))).2 ⟨fun k u v hu hv => h1 (k + 1) u v (by simpa [Nat.mul_add] using hu) (by simpa [Nat.mul_add] using hv), rfl⟩]
          rfl
      · rw [if_neg hf]
        refine ⟨fun h => (by cases h), ?_⟩
        rintro ⟨h1, -⟩
        exact absurd ((fits_iff hn hx hy).2 (h1 0 x y rfl rfl)) hf

/-- Specification: `l` are the tables of the output files. -/
def Tables (fs : Fs) (code : Code) (n : ℕ) (force : List Str) (l : List (List (List ℚ))) : Prop :=
  List.Forall₂ (fun f x => ∃ t, fs f = some t ∧ OutputTable code (baseName f) (readlines t) n x) force l

theorem each_iff {α β : Type} {f : α → Run β} {l : List α} {bs : List β} : each f l = .ok bs ↔ List.Forall₂ (fun a b => f a = .ok b) l bs := by
  constructor
  · intro h
    induction l generalizing bs with
    | nil => cases h; exact .nil
    | cons a l ih =>
      rw [each] at h
      cases ha : f a with
      | error e => rw [ha] at h; cases h
      | ok b =>
        rw [ha] at h
        simp only at h
        cases hb : each f l with
        | error e => rw [hb] at h; cases h
        | ok bs' =>
          rw [hb] at h
          cases h
          exact .cons ha (ih hb)
  · intro h
    induction h with
    | nil => rfl
    | cons ha _ ih =>
      rw [each, ha]
      simp only
      rw [ih]

theorem tables_iff {fs : Fs} {code : Code} {n : ℕ} {force : List Str} {l : List (List (List ℚ))} :
    each (readForces fs code.name n) force = .ok l ↔ Tables fs code n force l := by
  rw [each_iff]
  unfold Tables
  simp only [C124_file]

theorem tables_rect {fs : Fs} {code : Code} {n : ℕ} {force : List Str} {l : List (List (List ℚ))} (h : Tables fs code n force l) : ∀ x ∈ l, Rect x := by
  induction h with
  | nil => simp
  | cons ha _ ih =>
    intro x hx
    rcases List.mem_cons.1 hx with rfl | hx
    · obtain ⟨t, -, ht⟩ := ha
      exact output_rect ht
    · exact ih x hx

/-- **C124** (which output files are accepted, without symmetry): exactly if every file has a table of forces and, two by two, their shapes fit. -/
theorem C124_accepted_iff (fs : Fs) (code : Code) (n : ℕ) (hn : n ≠ 0) (force : List Str) : (∃ bs, allForces fs code.name false n force = .ok bs) ↔
    ∃ l, Tables fs code n force l ∧ ∀ k x y, l[2 * k]? = some x → l[2 * k + 1]? = some y → PairShape n x y := by
  unfold allForces
  simp only [bind_iff, tables_iff]
  constructor
  · rintro ⟨bs, l, h1, h2⟩
    rw [if_neg (by decide), pairForces_iff hn l (tables_rect h1)] at h2
    exact ⟨l, h1, h2.1⟩
  · rintro ⟨l, h1, h2⟩
    refine ⟨l.map (stretch n), l, h1, ?_⟩
    rw [if_neg (by decide)]
    exact (pairForces_iff hn l (tables_rect h1) _).2 ⟨h2, rfl⟩

/-- **C124** (with symmetry): exactly if every file has a complete table of forces. -/
theorem C124_symmetry_iff (fs : Fs) (code : Code) (n : ℕ) (hn : n ≠ 0) (force : List Str) : (∃ bs, allForces fs code.name true n force = .ok bs) ↔
    ∃ l, Tables fs code n force l ∧ ∀ x ∈ l, Shape n 3 x := by
  unfold allForces
  simp only [bind_iff, tables_iff, if_true]
  constructor
  · rintro ⟨bs, l, h1, h2⟩
    rw [each_iff] at h2
    refine ⟨l, h1, ?_⟩
    intro x hx
    obtain ⟨k, hk, rfl⟩ := List.getElem_of_mem hx
    have := (List.forall₂_iff_get.1 h2).2 k hk (by rw [← h2.length_eq]; exact hk)
    simp only [List.get_eq_getElem] at this
    unfold oneForces at this
    split_ifs at this with hs
    exact (shape_iff hn (tables_rect h1 _ hx)).2 hs
  · rintro ⟨l, h1, h2⟩
    refine ⟨l.map (stretch n), l, h1, ?_⟩
    rw [each_iff, List.forall₂_map_right_iff]
    rw [List.forall₂_same]
    intro x hx
    unfold oneForces
    rw [if_pos ((shape_iff hn (tables_rect h1 x hx)).1 (h2 x hx))]

theorem allForces_stretch {fs : Fs} {code : Code} {sym : Bool} {n : ℕ} {force : List Str} {l : List (List (List ℚ))} (h : Tables fs code n force l)
    {bs : List (ForceConstant.Rows ℝ)} (hb : allForces fs code.name sym n force = .ok bs) : bs = l.map (stretch n) := by
  unfold allForces at hb
  obtain ⟨l', h1, hc⟩ := bind_iff.1 hb
  clear hb
  rename' hc => hb
  rw [tables_iff.2 h] at h1
  cases h1
  by_cases hsym : sym = true
  · rw [if_pos hsym, each_iff] at hb
    clear h
    induction hb with
    | nil => rfl
    | cons ha _ ih =>
      unfold oneForces at ha
      split_ifs at ha
      cases ha
      rw [List.map_cons, ih]
  · rw [if_neg hsym] at hb
    clear h
    induction hk : l.length using Nat.strong_induction_on generalizing l bs with
    | _ k ih =>
      match l, hb, hk with
      | [], hb, hk => cases hb; rfl
      | [x], hb, hk => cases hb; rfl
      | x :: y :: rest, hb, hk =>
        rw [pairForces] at hb
        by_cases hf : fits n x y = true
        · rw [if_pos hf] at hb
          cases hp : pairForces n rest with
          | error e => rw [hp] at hb; cases hb
          | ok r =>
            rw [hp] at hb
            cases hb
            rw [ih rest.length (by simp at hk; omega) hp rfl]
            rfl
        · rw [if_neg hf] at hb; cases hb

/-- **C124** (what the program works with, complete tables): the forces in the files. -/
theorem C124_values (fs : Fs) (code : Code) (sym : Bool) (n : ℕ) (force : List Str) (l : List (List (List ℚ))) (h : Tables fs code n force l) (bs : List (ForceConstant.Rows ℝ))
    (hb : allForces fs code.name sym n force = .ok bs) (k : ℕ) (x : List (List ℚ)) (hk : l[k]? = some x) (hx : Shape n 3 x) :
    ∃ b, bs[k]? = some b ∧ ∀ (a : ℕ) (r : List ℚ) (c : Fin 3) (q : ℚ), x[a]? = some r → r[(c : ℕ)]? = some q → b a c = (q : ℝ) := by
  refine ⟨stretch n x, by rw [allForces_stretch h hb, List.getElem?_map, hk]; rfl, ?_⟩
  intro a r c q ha hc
  rw [stretch_full hx.1 hx.2, List.getD_eq_getElem?_getD, List.getD_eq_getElem?_getD, ha]
  simp only [Option.getD_some]
  rw [hc]
  rfl

/-- **C124** (what the program works with, a table cut after its first line): this line counts for all `n` atoms. -/
theorem C124_single_row (fs : Fs) (code : Code) (sym : Bool) (n : ℕ) (force : List Str) (l : List (List (List ℚ))) (h : Tables fs code n force l)
    (bs : List (ForceConstant.Rows ℝ)) (hb : allForces fs code.name sym n force = .ok bs) (k : ℕ) (v : V3 ℚ) (hk : l[k]? = some [[v 0, v 1, v 2]]) :
    ∃ b, bs[k]? = some b ∧ ∀ a < n, ∀ c : Fin 3, b a c = (v c : ℝ) := by
  refine ⟨stretch n _, by rw [allForces_stretch h hb, List.getElem?_map, hk]; rfl, ?_⟩
  intro a ha c
  unfold stretch
  simp only [List.length_singleton, if_true, if_pos ha]
  fin_cases c <;> rfl

/-- **C124, partial.**  If the forces are accepted, no file is left over and no table has a single line or a single column, then every file has a complete table: three numbers for each of the
`n` atoms.  Missing: tables of a single line or column, see `C124_single_row_refuted`. -/
theorem C124_complete_partial (fs : Fs) (code : Code) (sym : Bool) (n : ℕ) (hn : n ≠ 0) (force : List Str) (bs : List (ForceConstant.Rows ℝ))
    (hb : allForces fs code.name sym n force = .ok bs) (heven : Even force.length) : ∃ l, Tables fs code n force l ∧
      ((∀ x ∈ l, (x.length = 1 → n = 1) ∧ ∀ r ∈ x, r.length ≠ 1) → ∀ x ∈ l, Shape n 3 x) := by
  cases sym with
  | true =>
    obtain ⟨l, h1, h2⟩ := (C124_symmetry_iff fs code n hn force).1 ⟨bs, hb⟩
    exact ⟨l, h1, fun _ => h2⟩
  | false =>
    obtain ⟨l, h1, h2⟩ := (C124_accepted_iff fs code n hn force).1 ⟨bs, hb⟩
    refine ⟨l, h1, fun h3 x hx => ?_⟩
    have hlen : l.length = force.length := h1.length_eq.symm
    obtain ⟨m, hm⟩ := heven
    have key : ∀ k x y, l[2 * k]? = some x → l[2 * k + 1]? = some y → Shape n 3 x ∧ Shape n 3 y := by
      intro k x y hx hy
      obtain ⟨a, b, a', b', q1, q2, q3, q4⟩ := h2 k x y hx hy
      have e1 := h3 x (List.mem_of_getElem? hx)
      have e2 := h3 y (List.mem_of_getElem? hy)
      have n1 := e1.1
      have n2 := e2.1
      rw [q1.1] at n1
      rw [q2.1] at n2
      have ha : a = n := by omega
      have ha' : a' = n := by omega
      subst ha
      have f1 : b ≠ 1 := by
        intro hb
        cases x with
        | nil => exact hn q1.1.symm
        | cons r x => exact e1.2 r (List.mem_cons_self ..) ((q1.2 r (List.mem_cons_self ..)).trans hb)
      have f2 : b' ≠ 1 := by
        intro hb
        cases y with
        | nil => exact hn (ha' ▸ q2.1.symm)
        | cons r y => exact e2.2 r (List.mem_cons_self ..) ((q2.2 r (List.mem_cons_self ..)).trans hb)
      have hb3 : b = 3 := by omega
      have hb3' : b' = 3 := by omega
      subst hb3
      subst hb3'
      rw [ha'] at q2
      exact ⟨q1, q2⟩
    obtain ⟨k, hk, rfl⟩ := List.getElem_of_mem hx
    rcases Nat.even_or_odd' k with ⟨i, rfl | rfl⟩
    · exact (key i _ _ (List.getElem?_eq_getElem hk) (List.getElem?_eq_getElem (by omega))).1
    · exact (key i _ _ (List.getElem?_eq_getElem (by omega)) (List.getElem?_eq_getElem hk)).2

/-- **C124** (a file that ends inside the table).  If, without symmetry, the table of one file of a pair ends too early, but not right after its first line, the forces are rejected. -/
theorem C124_truncated (fs : Fs) (code : Code) (n : ℕ) (hn : n ≠ 0) (force : List Str) (l : List (List (List ℚ))) (h : Tables fs code n force l) (k : ℕ)
    (x : List (List ℚ)) (hk : l[k]? = some x) (hpair : 2 * (k / 2) + 1 < force.length) (h1 : x.length ≠ n) (h2 : x.length ≠ 1) :
    ¬ ∃ bs, allForces fs code.name false n force = .ok bs := by
  rw [C124_accepted_iff fs code n hn]
  rintro ⟨l', h1', h2'⟩
  have : l' = l := by
    have := (tables_iff.2 h).symm.trans (tables_iff.2 h1')
    cases this
    rfl
  subst this
  have hlen : l'.length = force.length := h.length_eq.symm
  rcases Nat.even_or_odd' k with ⟨i, rfl | rfl⟩
  · obtain ⟨a, b, a', b', q1, q2, q3, q4⟩ := h2' i x _ hk (List.getElem?_eq_getElem (by omega))
    have := q1.1
    omega
  · obtain ⟨a, b, a', b', q1, q2, q3, q4⟩ := h2' i _ x (List.getElem?_eq_getElem (by omega)) hk
    have := q2.1
    omega

/-- Two output files for two atoms: the second one ends inside the table. -/
def cutFs : Fs := fun f =>
  if f = "1/vasprun.xml".toList then some "forces\n<v> 1 2 3 </v>\n<v> -1 -2 -3 </v>\n".toList
  else if f = "2/vasprun.xml".toList then some "forces\n<v> 4 5 6 </v>\n".toList
  else none

theorem cut_tables : Tables cutFs .vasp 2 ["1/vasprun.xml".toList, "2/vasprun.xml".toList]
    [[[1602 / 10 ^ 12, 3204 / 10 ^ 12, 4806 / 10 ^ 12], [-1602 / 10 ^ 12, -3204 / 10 ^ 12, -4806 / 10 ^ 12]], [[6408 / 10 ^ 12, 8010 / 10 ^ 12, 9612 / 10 ^ 12]]] := by
  rw [← tables_iff]
  decide +kernel

/-- **C124, refuted.**  A file that ends after the first line of its table is accepted (if its partner is complete): the program takes this line for the force on both atoms. -/
theorem C124_single_row_refuted : ∃ (force : List Str) (l : List (List (List ℚ))) (bs : List (ForceConstant.Rows ℝ)), Tables cutFs .vasp 2 force l ∧
    ¬ (∀ x ∈ l, Shape 2 3 x) ∧ allForces cutFs Code.vasp.name false 2 force = .ok bs ∧ ∃ b, bs[1]? = some b ∧ b 1 0 = 6408 / 10 ^ 12 := by
  obtain ⟨bs, hb⟩ := (C124_accepted_iff cutFs .vasp 2 (by decide) _).2 ⟨_, cut_tables, by
    intro k x y hx hy
    cases k with
    | zero =>
      cases hx
      cases hy
      exact ⟨2, 3, 1, 3, ⟨rfl, by simp⟩, ⟨rfl, by simp⟩, by omega, by omega⟩
    | succ k => simp [Nat.mul_add] at hx⟩
  refine ⟨_, _, bs, cut_tables, ?_, hb, ?_⟩
  · intro h
    have := (h _ (List.mem_cons_of_mem _ (List.mem_singleton.2 rfl))).1
    simp at this
  · obtain ⟨b, h1, h2⟩ := C124_single_row _ _ _ _ _ _ cut_tables bs hb 1 ![6408 / 10 ^ 12, 8010 / 10 ^ 12, 9612 / 10 ^ 12] rfl
    refine ⟨b, h1, ?_⟩
    rw [h2 1 (by norm_num) 0]
    norm_num

end Interphon.Props
