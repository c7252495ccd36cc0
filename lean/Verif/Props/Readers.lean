import Verif.Props.Files

/-! # Properties C111, C112: what an accepted structure file leaves behind -/

namespace Interphon.Props
open Py Interphon Interphon.UnitCell Interphon.Inout

/-- All attributes of the object fit together: a 3×3 lattice, at least one atom, one type and one row of three coordinates per atom, counts that add up to the
number of atoms (if no count is negative), selected atoms that exist, each listed once in ascending order, three degrees of freedom for each of them, and all atoms
selected without selective dynamics. -/
structure Consistent (r : RawCell) (L : List (List ℚ)) (T : List Str) (N : List ℤ) (C : List (List ℚ)) (sel : List ℤ) : Prop where
  lattice : r.lattice = some L ∧ L.length = 3 ∧ ∀ v ∈ L, v.length = 3
  types : r.atomType = some T ∧ T ≠ []
  cart : r.cart = some C ∧ C.length = T.length ∧ ∀ v ∈ C, v.length = 3
  counts : r.numAtom = some N ∧ ((∀ n ∈ N, 0 ≤ n) → N.sum = T.length)
  selected : r.atomTrue = some sel ∧ sel.Pairwise (· < ·) ∧ ∀ i ∈ sel, 0 ≤ i ∧ i < T.length
  dof : r.xyzTrue = some (sel.flatMap fun i => [i, i, i])
  free : r.selective = false → sel = (List.range T.length).map fun (i : ℕ) => (i : ℤ)

private theorem bind_inv {α β : Type} {x : Run α} {f : α → Run β} {b : β} (h : (x >>= f) = .ok b) : ∃ a, x = .ok a ∧ f a = .ok b := by
  cases x with
  | error e => cases h
  | ok a => exact ⟨a, rfl, h⟩

/-- What the parsers guarantee about their result. -/
structure GoodParsed (p : Parsed) : Prop where
  counts : (∀ n ∈ p.numAtom, 0 ≤ n) → p.numAtom.sum = p.atomType.length
  sel : ∃ q : ℕ → Bool, p.atomTrue = ((List.range p.cart.length).filter q).map fun (i : ℕ) => (i : ℤ)
  all : p.selective = false → p.atomTrue = (List.range p.cart.length).map fun (i : ℕ) => (i : ℤ)
  xyz : p.xyzTrue = p.atomTrue.flatMap fun i => [i, i, i]

private theorem consistent_of {r : RawCell} {p : Parsed} (hp : GoodParsed p) (h : assignParsed {} p = (r, none)) :
    Consistent r p.lattice p.atomType p.numAtom p.cart p.atomTrue := by
  obtain ⟨h1, h2, h3, h4, h5, h6, h7, h8, h9, ⟨l, h10, h11, h12, h13⟩, x, h14, h15, h16, -⟩ := C11_after_reading p r h
  obtain ⟨q, hq⟩ := hp.sel
  have hs : p.atomTrue.Pairwise (· < ·) := by
    rw [hq, List.pairwise_map]
    exact (List.Pairwise.filter q List.pairwise_lt_range).imp fun hab => by exact_mod_cast hab
  have hl : l = p.atomTrue := h11.eq_of_pairwise (fun _ _ _ _ => le_antisymm) h12 (hs.imp le_of_lt)
  have hx : x = p.xyzTrue := by
    refine h15.eq_of_pairwise (fun _ _ _ _ => le_antisymm) h16 ?_
    rw [hp.xyz, List.pairwise_flatMap]
    refine ⟨fun a _ => by simp, hs.imp ?_⟩
    intro a b hab x hx y hy
    simp at hx hy
    omega
  subst hl hx
  have hne : p.cart ≠ [] := C11_reading_needs_atoms p r h
  exact ⟨⟨h1, h2, h3⟩, ⟨h4, fun h0 => hne (List.length_eq_zero_iff.1 (by rw [h6, h0]; rfl))⟩, ⟨h5, h6, h7⟩, ⟨h8, hp.counts⟩, ⟨h10, hs, h13⟩,
    by rw [h14, hp.xyz], fun hf => by rw [hp.all (h9 ▸ hf), h6]⟩

private theorem mapE_length {α β : Type} {f : α → Run β} : ∀ {l : List α} {r : List β}, mapE f l = .ok r → r.length = l.length
  | [], r, h => by cases h; rfl
  | a :: l, r, h => by
    rw [mapE] at h
    cases h1 : f a with
    | error e => rw [h1] at h; cases h
    | ok b =>
      cases h2 : mapE f l with
      | error e => rw [h1, h2] at h; cases h
      | ok bs =>
        rw [h1, h2] at h; cases h
        simp [mapE_length h2]

private theorem asRows_length {rows : List (List Str)} {r : List (List ℚ)} (h : asRows rows = .ok r) : r.length = rows.length := by
  unfold asRows at h
  cases h1 : mapE (mapE floatE) rows with
  | error e => rw [h1] at h; cases h
  | ok r' =>
    rw [h1] at h
    simp only at h
    split_ifs at h
    cases h
    exact mapE_length h1

private theorem zipIdx_filter {α : Type} (p : α → Bool) (l : List α) : ∀ k, ((l.zipIdx k).filter fun x => p x.1).map (fun x => x.2) =
    ((List.range' k l.length).filter fun i => (l[i - k]?.map p).getD false) := by
  induction l with
  | nil => intro k; simp
  | cons a l ih =>
    intro k
    rw [List.zipIdx_cons, List.length_cons, List.range'_succ, List.filter_cons, List.filter_cons]
    have e : (List.range' (k + 1) l.length).filter (fun i => (((a :: l)[i - k]?).map p).getD false) =
        (List.range' (k + 1) l.length).filter (fun i => (l[i - (k + 1)]?.map p).getD false) := by
      apply List.filter_congr
      intro i hi
      rw [List.mem_range'_1] at hi
      obtain ⟨j, rfl⟩ := Nat.exists_eq_add_of_le hi.1
      rw [show k + 1 + j - k = j + 1 by omega, List.getElem?_cons_succ, show k + 1 + j - (k + 1) = j by omega]
    rw [e, ← ih (k + 1)]
    cases h : p a <;> simp [h]

theorem indices_eq {α : Type} (p : α → Bool) (l : List α) : Vasp.indices p l =
    ((List.range l.length).filter fun i => (l[i]?.map p).getD false).map fun (i : ℕ) => (i : ℤ) := by
  have e := zipIdx_filter p l 0
  rw [← List.range_eq_range'] at e
  simp only [Nat.sub_zero] at e
  unfold Vasp.indices
  rw [← e, List.map_map]
  rfl

theorem indices_all {α : Type} (p : α → Bool) (l : List α) (h : ∀ a ∈ l, p a = true) :
    Vasp.indices p l = (List.range l.length).map fun (i : ℕ) => (i : ℤ) := by
  rw [indices_eq, List.filter_eq_self.2]
  intro i hi
  rw [List.mem_range] at hi
  simp [hi, h]

theorem types_length (names : List Str) : ∀ (N : List ℤ) (k : ℕ) (T : List Str), Vasp.typesLoop names N k = .ok T →
    T.length = (N.map Int.toNat).sum
  | [], k, T, h => by cases h; rfl
  | n :: N, k, T, h => by
    rw [Vasp.typesLoop] at h
    cases h1 : mapE (fun _ => getE names k) (rangeInt n) with
    | error e => rw [h1] at h; cases h
    | ok t =>
      cases h2 : Vasp.typesLoop names N (k + 1) with
      | error e => rw [h1, h2] at h; cases h
      | ok ts =>
        rw [h1, h2] at h; cases h
        rw [List.length_append, types_length names N _ ts h2, mapE_length h1, rangeInt, List.length_range]
        simp

theorem sum_toNat : ∀ (N : List ℤ), (∀ n ∈ N, 0 ≤ n) → (((N.map Int.toNat).sum : ℕ) : ℤ) = N.sum
  | [], _ => rfl
  | n :: N, h => by
    have := sum_toNat N fun m hm => h m (by simp [hm])
    have h0 := h n (by simp)
    simp only [List.map_cons, List.sum_cons, Nat.cast_add, this]
    rw [Int.toNat_of_nonneg h0]

private theorem coords_length {ch : Char} {pos : List Str} {L : List (List ℚ)} {x : Str × List (List ℚ)} (h : Vasp.coords ch pos L = .ok x) :
    x.2.length = pos.length := by
  unfold Vasp.coords at h
  cases h1 : asRows (pos.map fun l => (split l).take 3) with
  | error e => rw [h1] at h; split_ifs at h
  | ok a =>
    have hl := asRows_length h1
    rw [List.length_map] at hl
    rw [h1] at h
    split_ifs at h with hd hc
    · cases h2 : dotRows a L with
      | error e => simp only [h2] at h; cases h
      | ok m =>
        simp only [h2] at h
        cases h
        unfold dotRows at h2
        split_ifs at h2
        cases h2
        simpa using hl
    · cases h; exact hl

/-- What reading a POSCAR text yields. -/
theorem vasp_inv {lines : List Str} {p : Parsed} (h : Vasp.readInput lines = .ok p) :
    GoodParsed p ∧ p.cart.length ≤ lines.length - (if p.selective then 9 else 8) ∧ (p.atomType.length : ℤ) = ((p.numAtom.map Int.toNat).sum : ℕ) := by
  unfold Vasp.readInput at h
  obtain ⟨l1, -, h⟩ := bind_inv h
  obtain ⟨t1, -, h⟩ := bind_inv h
  obtain ⟨ratio, -, h⟩ := bind_inv h
  obtain ⟨lat, -, h⟩ := bind_inv h
  obtain ⟨l6, -, h⟩ := bind_inv h
  obtain ⟨N, hN, h⟩ := bind_inv h
  obtain ⟨l5, -, h⟩ := bind_inv h
  obtain ⟨T, hT, h⟩ := bind_inv h
  obtain ⟨c7, -, h⟩ := bind_inv h
  have hlen := types_length _ _ _ _ hT
  have hsum : (∀ n ∈ N, 0 ≤ n) → N.sum = T.length := fun h0 => by rw [hlen, sum_toNat N h0]
  split_ifs at h with hs
  · obtain ⟨c8, -, h⟩ := bind_inv h
    obtain ⟨x, hx, h⟩ := bind_inv h
    cases h
    have hc := coords_length hx
    refine ⟨⟨hsum, by simp only [hc]; exact ⟨_, indices_eq _ _⟩, fun h => (by cases h), rfl⟩, ?_, by rw [hlen]⟩
    · show x.2.length ≤ lines.length - 9
      rw [hc, slice, List.length_take, List.length_drop]
      omega
  · obtain ⟨x, hx, h⟩ := bind_inv h
    cases h
    have hc := coords_length hx
    refine ⟨⟨hsum, by simp only [hc]; exact ⟨_, indices_eq _ _⟩, fun _ => ?_, rfl⟩, ?_, by rw [hlen]⟩
    · simp only [hc]
      exact indices_all _ _ (fun _ _ => rfl)
    · show x.2.length ≤ lines.length - 8
      rw [hc, slice, List.length_take, List.length_drop]
      omega

/-- The counts of runs of equal types add up to the number of atoms. -/
theorem runs_sum (T : List Str) : (runs T).sum = T.length := by
  by_cases hT : T = []
  · subst hT; rfl
  · obtain ⟨g, hg⟩ := exists_runs T hT
    rw [runs_eq hg]
    conv_rhs => rw [hg.types_eq]
    generalize g = g
    induction g with
    | nil => rfl
    | cons a g ih => simp [ih]

theorem good_fixed (types : List Str) (fixed : List Bool) (cart : List (List ℚ)) (lattice : List (List ℚ)) (coord : Str)
    (h2 : fixed.length = cart.length) :
    GoodParsed ⟨lattice, types, runs types, fixed.any id, coord, cart, Vasp.indices (fun b => !b) fixed, xyzOf (Vasp.indices (fun b => !b) fixed)⟩ := by
  refine ⟨fun _ => runs_sum types, ⟨fun i => (fixed[i]?.map fun b => !b).getD false, ?_⟩, fun h => ?_, rfl⟩
  · show Vasp.indices _ _ = _
    rw [indices_eq, h2]
  · show Vasp.indices _ _ = _
    rw [indices_all, h2]
    intro a ha
    have : ¬ (fixed.any id = true) := by rw [show fixed.any id = false from h]; simp
    rw [List.any_eq_true] at this
    cases a with
    | false => rfl
    | true => exact absurd ⟨true, ha, rfl⟩ this

theorem espresso_inv {lines : List Str} {p : Parsed} (h : Espresso.readInput lines = .ok p) :
    GoodParsed p ∧ p.numAtom = runs p.atomType := by
  unfold Espresso.readInput at h
  cases h1 : Espresso.scan lines 0 {} with
  | error e => rw [h1] at h; cases h
  | ok s =>
    obtain ⟨n, l, q⟩ := s
    rw [h1] at h
    cases n with
    | none => cases h
    | some n =>
    cases l with
    | none => cases h
    | some l =>
    cases q with
    | none => cases h
    | some q =>
    simp only at h
    generalize h2 : asRows (((lines.drop (Espresso.skipBlank lines l + 1)).take 3).map fun l => (split l).take 3) = x at h
    cases x with
    | error e => cases h
    | ok lattice =>
    simp only at h
    generalize h3 : mapE Espresso.atomLine (slice lines (Espresso.skipBlank lines q + 1) ((Espresso.skipBlank lines q + 1 : ℕ) + n)) = x at h
    cases x with
    | error e => cases h
    | ok atoms =>
    simp only at h
    generalize h4 : asRows (atoms.map fun a => a.2.1) = x at h
    cases x with
    | error e => cases h
    | ok cart =>
    cases h
    have := good_fixed (atoms.map fun a => a.1) (atoms.map fun a => a.2.2) cart lattice "cartesian".toList
      (by rw [List.length_map, asRows_length h4, List.length_map])
    rw [List.any_map] at this
    exact ⟨this, rfl⟩

theorem aims_inv {lines : List Str} {p : Parsed} (h : Aims.readInput lines = .ok p) :
    GoodParsed p ∧ p.numAtom = runs p.atomType := by
  unfold Aims.readInput at h
  generalize h2 : asRows ((lines.filter fun l => "lattice_vector".toList ∈ split l).map fun l => ((split l).take 4).drop 1) = x at h
  cases x with
  | error e => cases h
  | ok lattice =>
  simp only at h
  cases h3 : Aims.atoms lines with
  | error e => rw [h3] at h; cases h
  | ok atoms =>
  rw [h3] at h
  simp only at h
  generalize h4 : asRows (atoms.map fun a => a.2.1) = x at h
  cases x with
  | error e => cases h
  | ok cart =>
  cases h
  have := good_fixed (atoms.map fun a => a.1) (atoms.map fun a => a.2.2) cart lattice "cartesian".toList
    (by rw [List.length_map, asRows_length h4, List.length_map])
  rw [List.any_map] at this
  exact ⟨this, rfl⟩

theorem readCell_ok {r0 r : RawCell} {code : Code} {text : Str} (h : readCell r0 code text = (r, none)) : ∃ p, (match code with
      | .vasp => Vasp.readInput (readlines text)
      | .espresso => Espresso.readInput (readlines text)
      | .aims => Aims.readInput (readlines text)) = .ok p ∧ assignParsed {} p = (r, none) := by
  unfold readCell at h
  have key : ∀ x : Run Parsed, (match x with | .error e => (({} : RawCell), some e) | .ok p => assignParsed {} p) = (r, none) →
      ∃ p, x = .ok p ∧ assignParsed {} p = (r, none) := by
    intro x hx
    cases x with
    | error e => cases hx
    | ok p => exact ⟨p, rfl, hx⟩
  obtain ⟨h1, h2, h3⟩ := C13_known_code r0 (fun _ => Vasp.readInput (readlines text)) (fun _ => Espresso.readInput (readlines text))
    (fun _ => Aims.readInput (readlines text))
  cases code with
  | vasp => exact key _ (h1.symm.trans h)
  | espresso => exact key _ (h2.symm.trans h)
  | aims => exact key _ (h3.symm.trans h)

private theorem runs_pos {T : List Str} (hT : T ≠ []) : ∀ n ∈ runs T, 0 < n := by
  obtain ⟨g, hg⟩ := exists_runs T hT
  rw [runs_eq hg]
  intro n hn
  obtain ⟨x, hx, rfl⟩ := List.mem_map.1 hn
  exact_mod_cast hg.positive x hx

/-- **C111.**  In every format, whatever the text of the file and the previous content of the object: if reading raises nothing, the attributes fit together.  (The
counts that the Quantum ESPRESSO and FHI-aims readers derive are positive; the counts of a POSCAR are whatever the file says.) -/
theorem C111_accepted_is_consistent (code : Code) (r0 r : RawCell) (text : Str) (h : readCell r0 code text = (r, none)) :
    ∃ L T N C sel, Consistent r L T N C sel ∧ (code ≠ .vasp → ∀ n ∈ N, 0 < n) := by
  obtain ⟨p, hp, ha⟩ := readCell_ok h
  have main : GoodParsed p ∧ (code ≠ .vasp → p.numAtom = runs p.atomType) := by
    cases code with
    | vasp => exact ⟨(vasp_inv hp).1, fun h => absurd rfl h⟩
    | espresso => exact ⟨(espresso_inv hp).1, fun _ => (espresso_inv hp).2⟩
    | aims => exact ⟨(aims_inv hp).1, fun _ => (aims_inv hp).2⟩
  have hc := consistent_of main.1 ha
  refine ⟨_, _, _, _, _, hc, fun hv => ?_⟩
  rw [main.2 hv]
  exact runs_pos hc.types.2

/-- **C112** (POSCAR).  A POSCAR that is accepted is complete: with non-negative counts, behind the header of eight lines (nine with selective dynamics) there is at
least one line for every atom that the counts announce, and all of them were read. -/
theorem C112_poscar_complete_partial (r0 r : RawCell) (text : Str) (h : readCell r0 .vasp text = (r, none)) :
    ∃ N C, r.numAtom = some N ∧ r.cart = some C ∧ ((∀ n ∈ N, 0 ≤ n) → (C.length : ℤ) = N.sum ∧
      C.length + (if r.selective then 9 else 8) ≤ (readlines text).length) := by
  obtain ⟨p, hp, ha⟩ := readCell_ok h
  obtain ⟨hg, hle, -⟩ := vasp_inv hp
  have hc := consistent_of hg ha
  have hs : r.selective = p.selective := (C11_after_reading p r ha).2.2.2.2.2.2.2.2.1
  refine ⟨_, _, hc.counts.1, hc.cart.1, fun h0 => ⟨?_, ?_⟩⟩
  · rw [hc.counts.2 h0, hc.cart.2.1]
  · have hpos : 0 < p.cart.length := by rw [hc.cart.2.1]; exact List.length_pos_of_ne_nil hc.types.2
    rw [hs]
    omega

/-- A Quantum ESPRESSO input that announces two atoms (`nat = 2`) and is cut off after the line of the first one. -/
def cutEspresso : Str :=
  "&SYSTEM\nnat = 2\n/\nCELL_PARAMETERS angstrom\n1 0 0\n0 1 0\n0 0 1\nATOMIC_POSITIONS angstrom\nGa 0 0 0\n".toList

/-- An FHI-aims structure of one atom: the first four lines of a file with two atoms. -/
def cutAims : Str := "lattice_vector 1 0 0\nlattice_vector 0 1 0\nlattice_vector 0 0 1\natom 0 0 0 Ga\n".toList

/-- **C112 refuted** (Quantum ESPRESSO).  The file announces two atoms and is cut off after the first; it is read without an exception as a structure of one atom. -/
theorem C112_espresso_refuted (r0 : RawCell) : "nat = 2\n".toList ∈ readlines cutEspresso ∧
    ∃ r, readCell r0 .espresso cutEspresso = (r, none) ∧ r.atomType = some ["Ga".toList] ∧ r.numAtom = some [1] ∧ r.cart = some [[0, 0, 0]] := by
  refine ⟨by decide +kernel, (readCell {} .espresso cutEspresso).1, ?_, ?_, ?_, ?_⟩
  · rw [show readCell r0 .espresso cutEspresso = readCell {} .espresso cutEspresso from C13_reading_forgets _ _ _ _ _ _]
    exact Prod.ext rfl (by decide +kernel)
  all_goals decide +kernel

/-- **C112 refuted** (FHI-aims, whose format announces no number of atoms).  A file and the same file cut off in the middle of the atom list are both accepted. -/
theorem C112_aims_refuted (r0 : RawCell) :
    (∃ r, readCell r0 .aims (cutAims ++ "atom 0.5 0.5 0.5 As\n".toList) = (r, none) ∧ r.atomType = some ["Ga".toList, "As".toList]) ∧
    ∃ r, readCell r0 .aims cutAims = (r, none) ∧ r.atomType = some ["Ga".toList] := by
  refine ⟨⟨(readCell {} .aims (cutAims ++ "atom 0.5 0.5 0.5 As\n".toList)).1, ?_, ?_⟩, (readCell {} .aims cutAims).1, ?_, ?_⟩
  · rw [show readCell r0 .aims (cutAims ++ "atom 0.5 0.5 0.5 As\n".toList) = readCell {} .aims (cutAims ++ "atom 0.5 0.5 0.5 As\n".toList) from
      C13_reading_forgets _ _ _ _ _ _]
    exact Prod.ext rfl (by decide +kernel)
  · decide +kernel
  · rw [show readCell r0 .aims cutAims = readCell {} .aims cutAims from C13_reading_forgets _ _ _ _ _ _]
    exact Prod.ext rfl (by decide +kernel)
  · decide +kernel

/-- A POSCAR with two types, selective dynamics and three atoms. -/
def smallPoscar : Str :=
  "slab\n1.0\n2 0 0\n0 2 0\n0 0 9\nGa As\n1 2\nSelective\nDirect\n0 0 0 F F F\n0.5 0 0.25 T T T\n0 0.5 0.5 T T T\n".toList

/-- Non-vacuity: the POSCAR is accepted, with three atoms of which the last two are free; without its last line it raises. -/
example : (∃ r, readCell {} .vasp smallPoscar = (r, none) ∧ r.atomTrue = some [1, 2] ∧ r.numAtom = some [1, 2] ∧
      r.cart = some [[0, 0, 0], [1, 0, 9 / 4], [0, 1, 9 / 2]] ∧ r.xyzTrue = some [1, 1, 1, 2, 2, 2]) ∧
    ∃ r, readCell {} .vasp (smallPoscar.take 83) = (r, some .valueError) := by
  refine ⟨⟨(readCell {} .vasp smallPoscar).1, Prod.ext rfl ?_, ?_, ?_, ?_, ?_⟩, (readCell {} .vasp (smallPoscar.take 83)).1, Prod.ext rfl ?_⟩
  all_goals decide +kernel

/-- Non-vacuity for the other formats: accepted files exist. -/
example : (readCell {} .espresso cutEspresso).2 = none ∧ (readCell {} .aims cutAims).2 = none := by
  refine ⟨?_, ?_⟩ <;> decide +kernel

end Interphon.Props
