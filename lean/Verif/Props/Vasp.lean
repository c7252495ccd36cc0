import Verif.Lemmas.Inout

/-!
# Properties of the VASP reader and writer (C57, C60, C61, C62)
-/

namespace Interphon.Props
open Py Interphon Interphon.Inout Interphon.Vasp Interphon.UnitCell

/-! ### Reading, step by step -/

theorem readInput_selective {lines : List Str} {l1 l5 l6 t1 : Str} {r1 : List Str} {ratio : ℚ} {lat cart : List (List ℚ)} {n : List ℤ} {types : List Str}
    {c7 c8 : Char} {co : Str} (h1 : getE lines 1 = .ok l1) (h2 : split l1 = t1 :: r1) (h3 : floatE t1 = .ok ratio)
    (h4 : asRows ((slice lines 2 5).map fun l => (split l).take 3) = .ok lat) (h5 : getE lines 6 = .ok l6)
    (h6 : mapE intE (split l6) = .ok n) (h7 : getE lines 5 = .ok l5) (h8 : typesLoop (split l5) n 0 = .ok types)
    (h9 : letter lines 7 = .ok c7) (h10 : c7 = 'S' ∨ c7 = 's') (h11 : letter lines 8 = .ok c8)
    (h12 : coords c8 (slice lines 9 (9 + n.sum)) (lat.map fun r => r.map (· * ratio)) = .ok (co, cart)) :
    readInput lines = .ok ⟨lat.map fun r => r.map (· * ratio), types, n, true, co, cart,
      indices (fun l => "T".toList ∈ split l) (slice lines 9 (9 + n.sum)),
      xyzOf (indices (fun l => "T".toList ∈ split l) (slice lines 9 (9 + n.sum)))⟩ := by
  have h2' : getE (split l1) 0 = .ok t1 := by rw [h2]; rfl
  unfold readInput
  simp only [h1, h2', h3, h4, h5, h6, h7, h8, h9, h11, bind, Except.bind, if_pos h10, h12]

theorem readInput_plain {lines : List Str} {l1 l5 l6 t1 : Str} {r1 : List Str} {ratio : ℚ} {lat cart : List (List ℚ)} {n : List ℤ} {types : List Str}
    {c7 : Char} {co : Str} (h1 : getE lines 1 = .ok l1) (h2 : split l1 = t1 :: r1) (h3 : floatE t1 = .ok ratio)
    (h4 : asRows ((slice lines 2 5).map fun l => (split l).take 3) = .ok lat) (h5 : getE lines 6 = .ok l6)
    (h6 : mapE intE (split l6) = .ok n) (h7 : getE lines 5 = .ok l5) (h8 : typesLoop (split l5) n 0 = .ok types)
    (h9 : letter lines 7 = .ok c7) (h10 : ¬(c7 = 'S' ∨ c7 = 's'))
    (h12 : coords c7 (slice lines 8 (8 + n.sum)) (lat.map fun r => r.map (· * ratio)) = .ok (co, cart)) :
    readInput lines = .ok ⟨lat.map fun r => r.map (· * ratio), types, n, false, co, cart,
      indices (fun _ => true) (slice lines 8 (8 + n.sum)), xyzOf (indices (fun _ => true) (slice lines 8 (8 + n.sum)))⟩ := by
  have h2' : getE (split l1) 0 = .ok t1 := by rw [h2]; rfl
  unfold readInput
  simp only [h1, h2', h3, h4, h5, h6, h7, h8, h9, bind, Except.bind, if_neg h10, h12]

/-! ### C57 -/

/-- A structure made of `groups` of atoms of one type: `(type, how many)`. The same type may occur in several groups. -/
structure IsStructure (c : Cell ℚ) (groups : List (Str × ℕ)) : Prop where
  nonempty : groups ≠ []
  positive : ∀ g ∈ groups, 0 < g.2
  token : ∀ g ∈ groups, IsToken g.1
  types : c.atomType = groups.flatMap fun g => List.replicate g.2 g.1
  counts : c.numAtom = groups.map fun g => (g.2 : ℤ)
  len : c.cart.length = c.atomType.length

/-- The selected atoms of a structure: the listed ones if the structure has selection flags, all atoms otherwise. -/
def selectedAtoms (c : Cell ℚ) : List ℕ := if c.selective then c.atomTrue.getD [] else List.range c.cart.length

theorem group_types : ∀ (groups : List (Str × ℕ)) (pre : List Str), groups ≠ [] → (∀ g ∈ groups, 0 < g.2) →
    groupTypes (pre ++ groups.flatMap fun g => List.replicate g.2 g.1) (groups.map fun g => (g.2 : ℤ)).dropLast pre.length =
      .ok (groups.map Prod.fst)
  | [], _, h, _ => absurd rfl h
  | [g], pre, _, hp => by
    obtain ⟨m, hm⟩ := Nat.exists_eq_succ_of_ne_zero (hp g (by simp)).ne'
    simp [groupTypes, getE, hm, List.replicate_succ]
  | g :: g' :: rest, pre, _, hp => by
    obtain ⟨m, hm⟩ := Nat.exists_eq_succ_of_ne_zero (hp g (by simp)).ne'
    have ih := group_types (g' :: rest) (pre ++ List.replicate g.2 g.1) (by simp) (fun x hx => hp x (by simp at hx ⊢; tauto))
    simp only [List.length_append, List.length_replicate] at ih
    have hget : getE (pre ++ (g :: g' :: rest).flatMap fun g => List.replicate g.2 g.1) pre.length = .ok g.1 := by
      simp [getE, hm, List.replicate_succ]
    rw [List.map_cons, List.map_cons, List.dropLast_cons₂, groupTypes, hget]
    simp only [Int.toNat_natCast, Nat.cast_nonneg, not_lt.2, if_false, not_lt]
    rw [← List.map_cons (f := fun g : Str × ℕ => (g.2 : ℤ))]
    rw [List.flatMap_cons, ← List.append_assoc, ih]
    simp

private theorem types_loop : ∀ (groups : List (Str × ℕ)) (pre : List Str),
    typesLoop (pre ++ groups.map Prod.fst) (groups.map fun g => (g.2 : ℤ)) pre.length =
      .ok (groups.flatMap fun g => List.replicate g.2 g.1)
  | [], _ => rfl
  | g :: rest, pre => by
    have ih := types_loop rest (pre ++ [g.1])
    simp only [List.length_append, List.length_singleton, List.append_assoc, List.singleton_append] at ih
    have hget : ∀ _x : ℕ, getE (pre ++ (g :: rest).map Prod.fst) pre.length = .ok g.1 := by
      intro _; simp [getE]
    rw [List.map_cons (f := fun g : Str × ℕ => (g.2 : ℤ)), typesLoop.eq_2, mapE_ok (fun _ => g.1) (fun a _ => hget a)]
    simp only [List.map_cons] at ih ⊢
    rw [ih]
    simp [rangeInt, List.map_const']

private theorem sum_counts : ∀ groups : List (Str × ℕ),
    (groups.map fun g => (g.2 : ℤ)).sum = ((groups.flatMap fun g => List.replicate g.2 g.1).length : ℤ)
  | [] => rfl
  | g :: rest => by
    rw [List.map_cons, List.sum_cons, sum_counts rest, List.flatMap_cons, List.length_append, List.length_replicate]; push_cast; rfl

theorem rowLine (v : V3 ℚ) (tail : Str) (h : '\n' ∉ tail) : IsLine (' ' :: (row v ++ (tail ++ ['\n']))) :=
  ⟨' ' :: (row v ++ tail), by
    simp only [List.mem_cons, List.mem_append, not_or]
    exact ⟨by decide, row_not_mem (by decide) (by decide) (by decide) (by decide) v, h⟩, by simp⟩

theorem token_no_newline {t : Str} (h : IsToken t) : '\n' ∉ t := fun hm => by
  have := h.2 _ hm
  revert this; decide

private theorem posLine_isLine (c : Cell ℚ) (i : ℕ) (v : V3 ℚ) : IsLine (posLine c i v) := by
  unfold posLine
  split
  · split
    · exact rowLine v "   T   T   T".toList (by decide)
    · exact rowLine v "   F   F   F".toList (by decide)
  · exact rowLine v [] (by simp)

private theorem posLine_split (c : Cell ℚ) (i : ℕ) (v : V3 ℚ) : split (posLine c i v) = rowTokens v ++
    (if c.selective then (if i ∈ c.atomTrue.getD [] then ["T".toList, "T".toList, "T".toList] else ["F".toList, "F".toList, "F".toList])
      else []) := by
  unfold posLine
  split
  · split
    · rw [split_cons_ws (by decide)]
      show split (row v ++ ' ' :: "  T   T   T\n".toList) = _
      rw [split_row v (by decide)]; rfl
    · rw [split_cons_ws (by decide)]
      show split (row v ++ ' ' :: "  F   F   F\n".toList) = _
      rw [split_row v (by decide)]; rfl
  · rw [split_cons_ws (by decide), split_row v (by decide)]; rfl

private theorem pos_rows (c : Cell ℚ) : (c.cart.mapIdx (posLine c)).map (fun l => (split l).take 3) = c.cart.map rowTokens := by
  apply List.ext_getElem?
  intro i
  simp only [List.getElem?_map, List.getElem?_mapIdx, Option.map_map]
  congr 1
  funext v
  simp only [Function.comp, posLine_split]
  rfl

private theorem T_not_row (v : V3 ℚ) : "T".toList ∉ rowTokens v := by
  intro h
  have hT : ∀ q, "T".toList ≠ fmtFixed 16 q := by
    intro q e
    have : 'T' ∈ fmtFixed 16 q := by rw [← e]; decide
    exact fmtFixed_not_mem (by decide) (by decide) (by decide) this
  simp only [rowTokens, List.mem_cons, List.not_mem_nil, or_false] at h
  rcases h with h | h | h <;> exact hT _ h

theorem mem_indices {α : Type} (p : α → Bool) (l : List α) (i : ℤ) :
    i ∈ indices p l ↔ ∃ n : ℕ, (n : ℤ) = i ∧ ∃ a, l[n]? = some a ∧ p a = true := by
  simp only [indices, List.mem_map, List.mem_filter]
  constructor
  · rintro ⟨⟨a, n⟩, ⟨h1, h2⟩, rfl⟩
    rw [List.mem_zipIdx_iff_getElem?] at h1
    exact ⟨n, rfl, a, h1, h2⟩
  · rintro ⟨n, rfl, a, h1, h2⟩
    exact ⟨(a, n), ⟨List.mem_zipIdx_iff_getElem?.2 h1, h2⟩, rfl⟩

theorem indices_sorted {α : Type} (p : α → Bool) (l : List α) : (indices p l).Pairwise (· < ·) := by
  have : ∀ (l : List α) (k : ℕ), (((l.zipIdx k).filter fun x => p x.1).map fun x => (x.2 : ℤ)).Pairwise (· < ·) := by
    intro l k
    rw [List.pairwise_map]
    apply List.Pairwise.filter
    have : ((l.zipIdx k).map Prod.snd).Pairwise (· < ·) := by
      rw [List.zipIdx_map_snd]
      exact List.pairwise_lt_range'
    rw [List.pairwise_map] at this
    exact this.imp fun h => by exact_mod_cast h
  exact this l 0

/-- Two strictly increasing lists with the same elements are equal. -/
theorem sorted_ext {a b : List ℤ} (ha : a.Pairwise (· < ·)) (hb : b.Pairwise (· < ·)) (h : ∀ i, i ∈ a ↔ i ∈ b) : a = b :=
  List.Perm.eq_of_pairwise (fun _ _ _ _ h1 h2 => absurd h1 (not_lt.2 h2.le))
    ha hb ((List.perm_ext_iff_of_nodup (ha.imp ne_of_lt) (hb.imp ne_of_lt)).2 h)

/-- **C57.**  For every structure with any number of groups and atoms, the written file is read back into the same types, counts and
selection flags, the lattice and the positions rounded to 16 decimals, and the same selected atoms. -/
theorem C57_roundtrip (c : Cell ℚ) (groups : List (Str × ℕ)) (h : IsStructure c groups) (comment : Str) (hc : '\n' ∉ comment)
    (hsel : c.selective = true → ∃ sel, c.atomTrue = some sel ∧ sel.Pairwise (· < ·) ∧ ∀ a ∈ sel, a < c.cart.length) :
    ∃ ls, writeInput c comment = .ok ls ∧ readInput (readlines ls.flatten) = .ok {
      lattice := (List.finRange 3).map fun i => [rndDec 16 (c.lattice i 0), rndDec 16 (c.lattice i 1), rndDec 16 (c.lattice i 2)]
      atomType := c.atomType
      numAtom := c.numAtom
      selective := c.selective
      coordinate := "cartesian".toList
      cart := c.cart.map fun v => [rndDec 16 (v 0), rndDec 16 (v 1), rndDec 16 (v 2)]
      atomTrue := (selectedAtoms c).map fun a : ℕ => (a : ℤ)
      xyzTrue := ((selectedAtoms c).flatMap fun a => [a, a, a]).map fun a : ℕ => (a : ℤ) } := by
  have hg : groupTypes c.atomType c.numAtom.dropLast 0 = .ok (groups.map Prod.fst) := by
    rw [h.types, h.counts]
    exact group_types groups [] h.nonempty h.positive
  have hcond : ¬(c.selective = true ∧ c.atomTrue = none ∧ c.cart ≠ []) := by
    rintro ⟨h1, h2, -⟩
    obtain ⟨sel, hs, -⟩ := hsel h1
    rw [h2] at hs; cases hs
  refine ⟨inputLines c comment (groups.map Prod.fst), by rw [writeInput, hg]; simp only [if_neg hcond], ?_⟩
  have hintTok : ∀ t ∈ c.numAtom.map intStr, IsToken t := by
    intro t ht
    rw [h.counts, List.map_map, List.mem_map] at ht
    obtain ⟨g, -, rfl⟩ := ht
    rw [Function.comp, intStr_natCast]; exact natStr_token _
  have hnameTok : ∀ t ∈ groups.map Prod.fst, IsToken t := by
    intro t ht
    rw [List.mem_map] at ht
    obtain ⟨g, hg, rfl⟩ := ht
    exact h.token g hg
  have hpos : ∀ l ∈ c.cart.mapIdx (posLine c), IsLine l := by
    intro l hl
    rw [List.mem_mapIdx] at hl
    obtain ⟨i, hi, rfl⟩ := hl
    exact posLine_isLine _ _ _
  have hf3 : List.finRange 3 = [0, 1, 2] := rfl
  rw [readlines_flatten]
  swap
  · intro l hl
    simp only [inputLines, hf3, List.map_cons, List.map_nil, List.mem_append, List.mem_cons, List.not_mem_nil, or_false] at hl
    rcases hl with ((((((rfl | rfl) | rfl | rfl | rfl)) | rfl | rfl) | hl) | rfl) | hl
    · exact ⟨comment, hc, rfl⟩
    · exact ⟨"1.00000000000000".toList, by decide, rfl⟩
    · exact rowLine _ [] (by simp)
    · exact rowLine _ [] (by simp)
    · exact rowLine _ [] (by simp)
    · exact ⟨_, join_not_mem (by decide) (fun t ht => token_no_newline (hnameTok t ht)), rfl⟩
    · exact ⟨_, join_not_mem (by decide) (fun t ht => token_no_newline (hintTok t ht)), rfl⟩
    · split at hl
      · simp only [List.mem_singleton] at hl; subst hl; exact ⟨"Selective dynamics".toList, by decide, rfl⟩
      · simp at hl
    · exact ⟨"Cartesian".toList, by decide, rfl⟩
    · exact hpos l hl
  have hratio : floatE "1.00000000000000".toList = .ok 1 := by decide +kernel
  have hsc : split "1.00000000000000\n".toList = ["1.00000000000000".toList] := by decide +kernel
  have hrow : ∀ v : V3 ℚ, (split (' ' :: (row v ++ ['\n']))).take 3 = rowTokens v := by
    intro v
    rw [split_cons_ws (by decide), split_row v (by decide)]; rfl
  have hlat := asRows_tokens [c.lattice 0, c.lattice 1, c.lattice 2]
  have hint : mapE intE (c.numAtom.map intStr) = .ok c.numAtom := by
    rw [mapE_ok (fun t => (parseInt t).getD 0)]
    · rw [List.map_map, h.counts, List.map_map]
      congr 1
      apply List.map_congr_left
      intro g _
      simp [intStr_natCast, parseInt_natStr]
    · intro t ht
      rw [h.counts, List.map_map, List.mem_map] at ht
      obtain ⟨g, -, rfl⟩ := ht
      simp [intE, intStr_natCast, parseInt_natStr]
  have htot : c.numAtom.sum = (c.cart.length : ℤ) := by rw [h.counts, sum_counts, h.len, h.types]
  have htypes : typesLoop (groups.map Prod.fst) c.numAtom 0 = .ok c.atomType := by
    rw [h.counts, h.types]; exact types_loop groups []
  have hcoord : coords 'C' (c.cart.mapIdx (posLine c)) ((c.lattice 0 :: c.lattice 1 :: [c.lattice 2]).map rowValues) =
      .ok ("cartesian".toList, c.cart.map rowValues) := by
    rw [coords, if_neg (by decide), if_pos (by decide), pos_rows, asRows_tokens]
  have hone : ∀ l : List (V3 ℚ), (l.map rowValues).map (fun r => r.map fun x => x * 1) = l.map rowValues := by
    intro l; simp
  have hlen : (c.cart.mapIdx (posLine c)).length = c.cart.length := by simp
  have hxyz : ∀ l : List ℕ, xyzOf (l.map fun a : ℕ => (a : ℤ)) = (l.flatMap fun a => [a, a, a]).map fun a : ℕ => (a : ℤ) := by
    intro l; simp [xyzOf, List.flatMap_map, List.map_flatMap]
  simp only [inputLines, hf3, List.map_cons, List.map_nil, List.cons_append, List.nil_append]
  have hs5 : ∀ (a b r0 r1 r2 : Str) (l : List Str), slice (a :: b :: r0 :: r1 :: r2 :: l) 2 5 = [r0, r1, r2] := fun _ _ _ _ _ _ => rfl
  have hlat' : ∀ v0 v1 v2 : V3 ℚ, asRows ([' ' :: (row v0 ++ ['\n']), ' ' :: (row v1 ++ ['\n']), ' ' :: (row v2 ++ ['\n'])].map
      fun l => (split l).take 3) = .ok [rowValues v0, rowValues v1, rowValues v2] := by
    intro v0 v1 v2
    simp only [List.map_cons, List.map_nil, hrow]
    exact asRows_tokens [v0, v1, v2]
  by_cases hs : c.selective = true
  · obtain ⟨sel, hsel1, hsel2, hsel3⟩ := hsel hs
    have hidx : indices (fun l => decide ("T".toList ∈ split l)) (c.cart.mapIdx (posLine c)) = (selectedAtoms c).map fun a : ℕ => (a : ℤ) := by
      apply sorted_ext (indices_sorted _ _)
      · rw [selectedAtoms, if_pos hs, hsel1]
        exact (List.pairwise_map.2 (hsel2.imp fun h => by exact_mod_cast h))
      · intro i
        rw [mem_indices, List.mem_map, selectedAtoms, if_pos hs, hsel1]
        simp only [List.getElem?_mapIdx, Option.map_eq_some_iff, Option.getD_some, decide_eq_true_eq]
        constructor
        · rintro ⟨n, rfl, a, ⟨v, hv, rfl⟩, hT⟩
          refine ⟨n, ?_, rfl⟩
          rw [posLine_split, hs, hsel1] at hT
          simp only [if_true, List.mem_append, Option.getD_some] at hT
          rcases hT with hT | hT
          · exact absurd hT (T_not_row v)
          · by_contra hn
            rw [if_neg hn] at hT
            revert hT; decide
        · rintro ⟨n, hn, rfl⟩
          have hlt := hsel3 n hn
          refine ⟨n, rfl, _, ⟨_, List.getElem?_eq_getElem hlt, rfl⟩, ?_⟩
          rw [posLine_split, hs, hsel1]
          simp [hn]
    simp only [if_pos hs, List.cons_append, List.nil_append]
    have hl7 : letter ((comment ++ ['\n']) :: "1.00000000000000\n".toList :: (' ' :: (row (c.lattice 0) ++ ['\n'])) ::
        (' ' :: (row (c.lattice 1) ++ ['\n'])) :: (' ' :: (row (c.lattice 2) ++ ['\n'])) ::
        (join "    ".toList (groups.map Prod.fst) ++ ['\n']) :: (join "    ".toList (c.numAtom.map intStr) ++ ['\n']) ::
        "Selective dynamics\n".toList :: "Cartesian\n".toList :: c.cart.mapIdx (posLine c)) 7 = .ok 'S' := by
      simp only [letter, getE, List.getElem?_cons_succ, List.getElem?_cons_zero]
      decide +kernel
    have hl8 : letter ((comment ++ ['\n']) :: "1.00000000000000\n".toList :: (' ' :: (row (c.lattice 0) ++ ['\n'])) ::
        (' ' :: (row (c.lattice 1) ++ ['\n'])) :: (' ' :: (row (c.lattice 2) ++ ['\n'])) ::
        (join "    ".toList (groups.map Prod.fst) ++ ['\n']) :: (join "    ".toList (c.numAtom.map intStr) ++ ['\n']) ::
        "Selective dynamics\n".toList :: "Cartesian\n".toList :: c.cart.mapIdx (posLine c)) 8 = .ok 'C' := by
      simp only [letter, getE, List.getElem?_cons_succ, List.getElem?_cons_zero]
      decide +kernel
    have hsl : ∀ (a b r0 r1 r2 n k s co : Str), slice (a :: b :: r0 :: r1 :: r2 :: n :: k :: s :: co :: c.cart.mapIdx (posLine c)) 9
        (9 + c.numAtom.sum) = c.cart.mapIdx (posLine c) := by
      intro a b r0 r1 r2 n k s co
      rw [htot, slice]
      rw [if_pos (by omega), show (9 + (c.cart.length : ℤ)).toNat - 9 = c.cart.length by omega]
      simp only [List.drop_succ_cons, List.drop_zero]
      rw [← hlen, List.take_length]
    refine (readInput_selective (l1 := "1.00000000000000\n".toList) rfl hsc hratio (by rw [hs5]; exact hlat' _ _ _) rfl
      (by rw [split_join _ hintTok]; exact hint) rfl (by rw [split_join _ hnameTok]; exact htypes) hl7 (.inl rfl) hl8
      (by rw [hsl]; simp only [List.map_cons, List.map_nil, mul_one, List.map_id']; exact hcoord)).trans ?_
    rw [hsl, hidx, hxyz, hs]
    simp only [List.map_cons, List.map_nil, mul_one, List.map_id']
    rfl
  · have hidx : indices (fun _ => true) (c.cart.mapIdx (posLine c)) = (selectedAtoms c).map fun a : ℕ => (a : ℤ) := by
      apply sorted_ext (indices_sorted _ _)
      · rw [selectedAtoms, if_neg hs]
        exact (List.pairwise_map.2 (List.pairwise_lt_range.imp fun h => by exact_mod_cast h))
      · intro i
        rw [mem_indices, List.mem_map, selectedAtoms, if_neg hs]
        simp only [List.mem_range, List.getElem?_mapIdx, Option.map_eq_some_iff]
        constructor
        · rintro ⟨n, rfl, a, ⟨v, hv, rfl⟩, -⟩
          obtain ⟨hlt, -⟩ := List.getElem?_eq_some_iff.1 hv
          exact ⟨n, hlt, rfl⟩
        · rintro ⟨n, hn, rfl⟩
          exact ⟨n, rfl, _, ⟨_, List.getElem?_eq_getElem hn, rfl⟩, trivial⟩
    simp only [if_neg hs, List.nil_append]
    have hl7 : letter ((comment ++ ['\n']) :: "1.00000000000000\n".toList :: (' ' :: (row (c.lattice 0) ++ ['\n'])) ::
        (' ' :: (row (c.lattice 1) ++ ['\n'])) :: (' ' :: (row (c.lattice 2) ++ ['\n'])) ::
        (join "    ".toList (groups.map Prod.fst) ++ ['\n']) :: (join "    ".toList (c.numAtom.map intStr) ++ ['\n']) ::
        "Cartesian\n".toList :: c.cart.mapIdx (posLine c)) 7 = .ok 'C' := by
      simp only [letter, getE, List.getElem?_cons_succ, List.getElem?_cons_zero]
      decide +kernel
    have hsl : ∀ (a b r0 r1 r2 n k co : Str), slice (a :: b :: r0 :: r1 :: r2 :: n :: k :: co :: c.cart.mapIdx (posLine c)) 8
        (8 + c.numAtom.sum) = c.cart.mapIdx (posLine c) := by
      intro a b r0 r1 r2 n k co
      rw [htot, slice]
      rw [if_pos (by omega), show (8 + (c.cart.length : ℤ)).toNat - 8 = c.cart.length by omega]
      simp only [List.drop_succ_cons, List.drop_zero]
      rw [← hlen, List.take_length]
    refine (readInput_plain (l1 := "1.00000000000000\n".toList) rfl hsc hratio (by rw [hs5]; exact hlat' _ _ _) rfl
      (by rw [split_join _ hintTok]; exact hint) rfl (by rw [split_join _ hnameTok]; exact htypes) hl7 (by decide)
      (by rw [hsl]; simp only [List.map_cons, List.map_nil, mul_one, List.map_id']; exact hcoord)).trans ?_
    rw [hsl, hidx, hxyz, Bool.eq_false_iff.2 hs]
    simp only [List.map_cons, List.map_nil, mul_one, List.map_id']
    rfl

/-- How far the values read back can be from those written: half a unit of the 16th decimal. -/
theorem C57_rounding_error (q : ℚ) : |rndDec 16 q - q| ≤ 1 / 2 / 10 ^ 16 := by
  have key : ∀ x : ℚ, 0 ≤ x → |(roundHalfEven x : ℚ) - x| ≤ 1 / 2 := by
    intro x hx
    have h1 := Nat.floor_le hx
    have h2 := Nat.lt_floor_add_one x
    unfold roundHalfEven
    simp only
    split_ifs with a b c
    · rw [abs_le]; constructor <;> linarith
    · rw [abs_le]; push_cast; constructor <;> linarith
    · rw [abs_le]; constructor <;> linarith
    · rw [abs_le]; push_cast; constructor <;> linarith
  have h := key (|q| * 10 ^ 16) (by positivity)
  have h' : abs ((roundHalfEven (|q| * 10 ^ 16) : ℚ) / 10 ^ 16 - |q|) ≤ 1 / 2 / 10 ^ 16 := by
    have e : (roundHalfEven (|q| * 10 ^ 16) : ℚ) / 10 ^ 16 - |q| = ((roundHalfEven (|q| * 10 ^ 16) : ℚ) - |q| * 10 ^ 16) / 10 ^ 16 := by
      field_simp
    rw [e, abs_div, abs_of_pos (by positivity : (0 : ℚ) < 10 ^ 16)]
    exact div_le_div_of_nonneg_right h (by positivity)
  unfold rndDec
  simp only
  split_ifs with hq
  · rw [abs_of_neg hq] at h' ⊢
    rw [← abs_neg]; convert h' using 2; ring
  · rwa [abs_of_nonneg (not_lt.1 hq)] at h' ⊢

/-- Values that already have at most 16 decimals are read back exactly, so writing what was read back changes nothing. -/
theorem C57_exact_values (m : ℤ) : rndDec 16 ((m : ℚ) / 10 ^ 16) = (m : ℚ) / 10 ^ 16 := by
  have hr : ∀ n : ℕ, roundHalfEven (n : ℚ) = n := by
    intro n; simp [roundHalfEven]
  have h10 : (0 : ℚ) < 10 ^ 16 := by positivity
  have e : |(m : ℚ) / 10 ^ 16| * 10 ^ 16 = (m.natAbs : ℚ) := by
    rw [abs_div, abs_of_pos h10, div_mul_cancel₀ _ h10.ne', Nat.cast_natAbs]; push_cast; rfl
  unfold rndDec
  rw [e, hr]
  simp only
  split_ifs with h
  · have hm : m < 0 := by
      by_contra hc
      have : (0 : ℚ) ≤ m := by exact_mod_cast not_lt.1 hc
      exact absurd h (not_lt.2 (div_nonneg this h10.le))
    rw [Nat.cast_natAbs, abs_of_neg hm]; push_cast; ring
  · have hm : 0 ≤ m := by
      by_contra hc
      have : (m : ℚ) < 0 := by exact_mod_cast not_le.1 hc
      exact h (div_neg_of_neg_of_pos this h10)
    rw [Nat.cast_natAbs, abs_of_nonneg hm]

/-- Non-vacuity: a two-group structure with one atom selected. -/
def exampleStructure : Cell ℚ where
  lattice := !![3, 0, 0; 1, 4, 0; 0, 0, 20]
  atomType := ["Ga".toList, "As".toList, "As".toList]
  numAtom := [1, 2]
  selective := true
  coordinate := .cartesian
  cart := [![0, 0, 5], ![3/2, -2, 6], ![1/3, 1, 1]]
  atomTrue := some [1]

theorem exampleStructure_ok : IsStructure exampleStructure [("Ga".toList, 1), ("As".toList, 2)] :=
  ⟨by simp, by decide, by simp [IsToken]; decide, by decide, by decide, by decide⟩

example : ∃ ls p, writeInput exampleStructure "x".toList = .ok ls ∧ readInput (readlines ls.flatten) = .ok p ∧ p.atomTrue = [1] ∧
    p.atomType = ["Ga".toList, "As".toList, "As".toList] ∧ p.numAtom = [1, 2] ∧ p.selective = true := by
  obtain ⟨ls, h1, h2⟩ := C57_roundtrip exampleStructure _ exampleStructure_ok "x".toList (by decide)
    (fun _ => ⟨[1], rfl, by decide, by decide⟩)
  exact ⟨ls, _, h1, h2, rfl, rfl, rfl, rfl⟩

/-! ### C61, C62 -/

/-- A position line with the three numbers `v` and the remaining tokens `flags`. -/
def IsPos (flags : List Str) (l : Str) (v : V3 ℚ) : Prop :=
  ∃ t0 t1 t2, split l = t0 :: t1 :: t2 :: flags ∧ parseFloat t0 = some (v 0) ∧ parseFloat t1 = some (v 1) ∧ parseFloat t2 = some (v 2)

private theorem isPos_rows {pos : List Str} {v : List (V3 ℚ)} {flags : List (List Str)} (hl : flags.length = pos.length)
    (h : List.Forall₂ (fun (p : Str × List Str) v => IsPos p.2 p.1 v) (pos.zip flags) v) :
    asRows (pos.map fun l => (split l).take 3) = .ok (v.map fun w => [w 0, w 1, w 2]) := by
  have h1 : mapE (mapE floatE) (pos.map fun l => (split l).take 3) = .ok (v.map fun w => [w 0, w 1, w 2]) := by
    rw [mapE_ok_iff]
    induction pos generalizing v flags with
    | nil => simp only [List.zip_nil_left, List.forall₂_nil_left_iff] at h; subst h; exact .nil
    | cons p pos ih =>
      cases flags with
      | nil => simp at hl
      | cons f flags =>
        rw [List.zip_cons_cons] at h
        cases h with
        | cons h h' =>
          refine .cons ?_ (ih (by simpa using hl) h')
          obtain ⟨t0, t1, t2, hs, a0, a1, a2⟩ := h
          simp only at hs
          simp [hs, mapE, floatE, a0, a1, a2]
  rw [asRows, h1]
  simp only
  rw [if_pos]
  cases v with
  | nil => rfl
  | cons a v => simp

/-- The first seven lines of a POSCAR: scale `s`, lattice rows `A` (before scaling), counts and types. -/
structure IsHeader (hd : List Str) (s : ℚ) (A : M3 ℚ) (n : List ℤ) (types : List Str) : Prop where
  len : hd.length = 7
  scale : ∃ l t rest, hd[1]? = some l ∧ split l = t :: rest ∧ parseFloat t = some s
  lattice : ∀ i : Fin 3, ∃ l, hd[2 + (i : ℕ)]? = some l ∧ ∃ fl, IsPos fl l (A i)
  counts : ∃ l, hd[6]? = some l ∧ mapE intE (split l) = .ok n
  names : ∃ l, hd[5]? = some l ∧ typesLoop (split l) n 0 = .ok types

/-- The coordinate-mode part: an optional `Selective dynamics` line and the coordinate line, whose first letter is `ch`. -/
structure IsMode (md : List Str) (sel : Bool) (ch : Char) : Prop where
  shape : (sel = true ∧ ∃ a b, md = [a, b] ∧ (∃ w r ts, split a = (w :: r) :: ts ∧ (w = 'S' ∨ w = 's')) ∧ ∃ r ts, split b = (ch :: r) :: ts) ∨
    (sel = false ∧ ∃ b, md = [b] ∧ (∃ r ts, split b = (ch :: r) :: ts) ∧ ch ≠ 'S' ∧ ch ≠ 's')

/-- What reading a well-formed POSCAR gives, for a coordinate block that `coords` accepts. -/
private theorem read_file {hd md pos : List Str} {s : ℚ} {A : M3 ℚ} {n : List ℤ} {types : List Str} {sel : Bool} {ch : Char} {co : Str}
    {cart : List (List ℚ)} (hh : IsHeader hd s A n types) (hm : IsMode md sel ch) (hn : n.sum = pos.length)
    (hc : coords ch pos ((List.finRange 3).map fun i => [A i 0 * s, A i 1 * s, A i 2 * s]) = .ok (co, cart)) :
    readInput (hd ++ md ++ pos) = .ok ⟨(List.finRange 3).map fun i => [A i 0 * s, A i 1 * s, A i 2 * s], types, n, sel, co, cart,
      indices (fun l => !sel || decide ("T".toList ∈ split l)) pos,
      xyzOf (indices (fun l => !sel || decide ("T".toList ∈ split l)) pos)⟩ := by
  obtain ⟨hlen, ⟨l1, t1, r1, hl1, hs1, hp1⟩, hlat, ⟨l6, hl6, hn6⟩, ⟨l5, hl5, ht5⟩⟩ := hh
  match hd, hlen with
  | [a0, a1, a2, a3, a4, a5, a6], _ =>
    simp only [List.getElem?_cons_succ, List.getElem?_cons_zero, Option.some.injEq] at hl1 hl6 hl5
    subst hl1 hl6 hl5
    have hrow : ∀ (l : Str) (v : V3 ℚ), (∃ fl, IsPos fl l v) → mapE floatE ((split l).take 3) = .ok [v 0, v 1, v 2] := by
      rintro l v ⟨fl, t0, t1, t2, hs, b0, b1, b2⟩
      simp [hs, mapE, floatE, b0, b1, b2]
    obtain ⟨x0, hx0, g0⟩ := hlat 0
    obtain ⟨x1, hx1, g1⟩ := hlat 1
    obtain ⟨x2, hx2, g2⟩ := hlat 2
    simp at hx0 hx1 hx2
    subst hx0 hx1 hx2
    have hrows : asRows ([a2, a3, a4].map fun l => (split l).take 3) = .ok [[A 0 0, A 0 1, A 0 2], [A 1 0, A 1 1, A 1 2], [A 2 0, A 2 1, A 2 2]] := by
      simp only [asRows, List.map_cons, List.map_nil, mapE, hrow _ _ g0, hrow _ _ g1, hrow _ _ g2]
      rfl
    have hfl : floatE t1 = .ok s := by rw [floatE, hp1]
    rcases hm.shape with ⟨rfl, a, b, rfl, ⟨w, r, ts, hw, hw'⟩, r', ts', hb⟩ | ⟨rfl, b, rfl, ⟨r', ts', hb⟩, hne1, hne2⟩
    · have hsl : slice ([a0, a1, a2, a3, a4, a5, a6] ++ [a, b] ++ pos) 9 (9 + n.sum) = pos := by
        rw [hn, slice, if_pos (by omega), show (9 + (pos.length : ℤ)).toNat - 9 = pos.length by omega]
        simp
      have h7 : letter ([a0, a1, a2, a3, a4, a5, a6] ++ [a, b] ++ pos) 7 = .ok w := by
        simp [letter, getE, hw]
      have h8 : letter ([a0, a1, a2, a3, a4, a5, a6] ++ [a, b] ++ pos) 8 = .ok ch := by
        simp [letter, getE, hb]
      refine (readInput_selective rfl hs1 hfl (by exact hrows) rfl hn6 rfl ht5 h7 hw' h8 (by rw [hsl]; exact hc)).trans ?_
      rw [hsl]
      simp only [Bool.not_true, Bool.false_or]
      rfl
    · have hsl : slice ([a0, a1, a2, a3, a4, a5, a6] ++ [b] ++ pos) 8 (8 + n.sum) = pos := by
        rw [hn, slice, if_pos (by omega), show (8 + (pos.length : ℤ)).toNat - 8 = pos.length by omega]
        simp
      have h7 : letter ([a0, a1, a2, a3, a4, a5, a6] ++ [b] ++ pos) 7 = .ok ch := by
        simp [letter, getE, hb]
      refine (readInput_plain rfl hs1 hfl (by exact hrows) rfl hn6 rfl ht5 h7 (by tauto) (by rw [hsl]; exact hc)).trans ?_
      rw [hsl]
      simp only [Bool.not_false, Bool.true_or]
      rfl

/-- A position given in direct coordinates `d` on the lattice `L`. -/
def fromDirect (L : M3 ℚ) (d : V3 ℚ) : V3 ℚ := fun j => d 0 * L 0 j + d 1 * L 1 j + d 2 * L 2 j

/-- Specification: the numbers of the atoms that may move, of a file with the position lines `pos`: every atom if the file has no flags, otherwise those
whose line contains the word `T`. -/
def movable (sel : Bool) (pos : List Str) : List ℕ := (List.range pos.length).filter fun i => !sel || decide ("T".toList ∈ split (pos.getD i []))

private theorem movable_indices (sel : Bool) (pos : List Str) :
    indices (fun f => !sel || decide ("T".toList ∈ f)) (pos.map split) = (movable sel pos).map fun a : ℕ => (a : ℤ) := by
  have gen : ∀ (g : Str → Bool) (l : List Str) (n : ℕ), ((l.zipIdx n).filter fun x => g x.1).map (fun x => x.2) =
      ((List.range l.length).filter fun i => g (l.getD i [])).map (· + n) := by
    intro g l
    induction l with
    | nil => intro n; rfl
    | cons a l ih =>
      intro n
      rw [List.zipIdx_cons, List.length_cons, List.range_succ_eq_map, List.filter_cons, List.filter_cons]
      have e : (List.filter (fun i => g ((a :: l).getD i [])) (List.map Nat.succ (List.range l.length))).map (· + n) =
          ((l.zipIdx (n + 1)).filter fun x => g x.1).map (fun x => x.2) := by
        rw [ih (n + 1), List.filter_map, List.map_map]
        have : ((fun i => g ((a :: l).getD i [])) ∘ Nat.succ) = fun i => g (l.getD i []) := rfl
        rw [this]
        apply List.map_congr_left
        intro i _
        simp only [Function.comp, Nat.succ_eq_add_one]; omega
      by_cases h : g a = true
      · simp only [h, if_true, List.getD_cons_zero, List.map_cons, e, Nat.zero_add]
      · simp only [h, List.getD_cons_zero, e, Bool.false_eq_true, if_false]
  have := gen (fun l => !sel || decide ("T".toList ∈ split l)) pos 0
  unfold indices movable
  rw [List.zipIdx_map, List.filter_map, List.map_map]
  rw [show (List.map (fun a : ℕ => (a : ℤ)) (List.filter (fun i => !sel || decide ("T".toList ∈ split (pos.getD i []))) (List.range pos.length))) =
    (List.map (· + 0) (List.filter (fun i => !sel || decide ("T".toList ∈ split (pos.getD i []))) (List.range pos.length))).map (fun a : ℕ => (a : ℤ)) by simp,
    ← this, List.map_map]
  rfl

private theorem movable_xyz (sel : Bool) (pos : List Str) :
    xyzOf (indices (fun f => !sel || decide ("T".toList ∈ f)) (pos.map split)) = (movable sel pos).flatMap fun a : ℕ => [(a : ℤ), a, a] := by
  rw [movable_indices, xyzOf, List.flatMap_map]

/-- The cell a well-formed *direct* file is read into: lattice times scale, positions from the direct coordinates on the scaled
lattice, flags as given (all atoms if the file has no flags). -/
theorem C61_direct_file {hd md pos : List Str} {s : ℚ} {A : M3 ℚ} {n : List ℤ} {types : List Str} {sel : Bool} {ch : Char}
    (hh : IsHeader hd s A n types) (hm : IsMode md sel ch) (hch : ch = 'D' ∨ ch = 'd')
    (hn : n.sum = pos.length) (hpos : pos ≠ []) (d : List (V3 ℚ)) (flags : List (List Str)) (hfl : flags.length = pos.length)
    (hd' : List.Forall₂ (fun (p : Str × List Str) v => IsPos p.2 p.1 v) (pos.zip flags) d) :
    readInput (hd ++ md ++ pos) = .ok ⟨(List.finRange 3).map fun i => [A i 0 * s, A i 1 * s, A i 2 * s], types, n, sel, "direct".toList,
      d.map fun x => (fun w : V3 ℚ => [w 0, w 1, w 2]) (fromDirect (fun i j => A i j * s) x),
      (movable sel pos).map fun a : ℕ => (a : ℤ), (movable sel pos).flatMap fun a : ℕ => [(a : ℤ), a, a]⟩ := by
  rw [← movable_indices, ← movable_xyz]
  have hidx : ∀ p : List Str → Bool, indices p (pos.map split) = indices (fun l => p (split l)) pos := by
    intro p
    simp only [indices, List.zipIdx_map, List.filter_map, List.map_map]
    rfl
  rw [read_file hh hm hn (co := "direct".toList), hidx]
  rw [coords, if_pos hch, isPos_rows hfl hd']
  simp only
  have hne : d ≠ [] := by
    rintro rfl
    rw [List.forall₂_nil_right_iff] at hd'
    cases pos with
    | nil => exact hpos rfl
    | cons a l => cases flags with
      | nil => simp at hfl
      | cons => simp at hd'
  rw [dotRows, if_pos]
  · simp only [List.map_map]
    congr 2
    apply List.map_congr_left
    intro x _
    have h3 : (List.finRange 3) = [0, 1, 2] := rfl
    have h3' : List.range 3 = [0, 1, 2] := rfl
    simp [h3, h3', fromDirect, List.zip_cons_cons]
    refine ⟨?_, ?_, ?_⟩ <;> ring
  · refine ⟨by simpa using hne, ?_⟩
    simp

/-- The cell a well-formed *Cartesian* file is read into: the positions are the numbers of the file, whatever the scale. -/
theorem C62_cartesian_file {hd md pos : List Str} {s : ℚ} {A : M3 ℚ} {n : List ℤ} {types : List Str} {sel : Bool} {ch : Char}
    (hh : IsHeader hd s A n types) (hm : IsMode md sel ch) (hch : ch = 'C' ∨ ch = 'c' ∨ ch = 'K' ∨ ch = 'k')
    (hn : n.sum = pos.length) (x : List (V3 ℚ)) (flags : List (List Str)) (hfl : flags.length = pos.length)
    (hx : List.Forall₂ (fun (p : Str × List Str) v => IsPos p.2 p.1 v) (pos.zip flags) x) :
    readInput (hd ++ md ++ pos) = .ok ⟨(List.finRange 3).map fun i => [A i 0 * s, A i 1 * s, A i 2 * s], types, n, sel, "cartesian".toList,
      x.map fun w => [w 0, w 1, w 2],
      (movable sel pos).map fun a : ℕ => (a : ℤ), (movable sel pos).flatMap fun a : ℕ => [(a : ℤ), a, a]⟩ := by
  rw [← movable_indices, ← movable_xyz]
  have hidx : ∀ p : List Str → Bool, indices p (pos.map split) = indices (fun l => p (split l)) pos := by
    intro p
    simp only [indices, List.zipIdx_map, List.filter_map, List.map_map]
    rfl
  rw [read_file hh hm hn (co := "cartesian".toList), hidx]
  have hnd : ¬(ch = 'D' ∨ ch = 'd') := by rcases hch with rfl | rfl | rfl | rfl <;> decide
  rw [coords, if_neg hnd, if_pos hch, isPos_rows hfl hx]

/-- **C61 (partial).**  Two files that share the header and the flags of each atom, one giving the positions in direct coordinates `d`
and the other giving the same positions as absolute Cartesian coordinates `x`, are read into cells that agree in everything but the
remembered coordinate mode.  Missing: files whose Cartesian coordinates are to be multiplied by a scale other than 1, as VASP does
(`C61_scaled_refuted`). -/
theorem C61_same_cell_partial {hd md md' pos pos' : List Str} {s : ℚ} {A : M3 ℚ} {n : List ℤ} {types : List Str} {sel : Bool} {ch ch' : Char}
    (hh : IsHeader hd s A n types) (hm : IsMode md sel ch) (hm' : IsMode md' sel ch') (hch : ch = 'D' ∨ ch = 'd')
    (hch' : ch' = 'C' ∨ ch' = 'c' ∨ ch' = 'K' ∨ ch' = 'k') (hpos : pos ≠ []) (hn : n.sum = pos.length) (hn' : pos'.length = pos.length)
    (d x : List (V3 ℚ)) (flags : List (List Str)) (hfl : flags.length = pos.length)
    (hd' : List.Forall₂ (fun (p : Str × List Str) v => IsPos p.2 p.1 v) (pos.zip flags) d)
    (hx : List.Forall₂ (fun (p : Str × List Str) v => IsPos p.2 p.1 v) (pos'.zip flags) x)
    (hflags : pos.map (fun l => decide ("T".toList ∈ split l)) = pos'.map (fun l => decide ("T".toList ∈ split l)))
    (hsame : x = d.map (fromDirect fun i j => A i j * s)) :
    ∃ p p', readInput (hd ++ md ++ pos) = .ok p ∧ readInput (hd ++ md' ++ pos') = .ok p' ∧
      p.coordinate = "direct".toList ∧ p'.coordinate = "cartesian".toList ∧ p = { p' with coordinate := p.coordinate } := by
  refine ⟨_, _, C61_direct_file hh hm hch hn hpos d flags hfl hd',
    C62_cartesian_file hh hm' hch' (by rw [hn, hn']) x flags (by rw [hfl, hn']) hx, rfl, rfl, ?_⟩
  have hmov : movable sel pos = movable sel pos' := by
    unfold movable
    rw [hn']
    refine List.filter_congr fun i hi => ?_
    have hi := List.mem_range.1 hi
    have h := congrArg (fun l => l[i]?) hflags
    simp only [List.getElem?_map] at h
    rw [List.getElem?_eq_getElem hi, List.getElem?_eq_getElem (hn'.symm ▸ hi)] at h
    simp only [Option.map_some, Option.some.injEq] at h
    rw [List.getD_eq_getElem?_getD, List.getD_eq_getElem?_getD, List.getElem?_eq_getElem hi, List.getElem?_eq_getElem (hn'.symm ▸ hi), Option.getD_some,
      Option.getD_some, h]
  rw [hmov, hsame, List.map_map]
  rfl

/-- **C62 (partial).**  With scale 1 the positions read from a Cartesian file are `scale · x`, as VASP defines the format.  For any
other scale they are not (`C62_scale_refuted`). -/
theorem C62_scale_one_partial {hd md pos : List Str} {A : M3 ℚ} {n : List ℤ} {types : List Str} {sel : Bool} {ch : Char}
    (hh : IsHeader hd 1 A n types) (hm : IsMode md sel ch) (hch : ch = 'C' ∨ ch = 'c' ∨ ch = 'K' ∨ ch = 'k')
    (hn : n.sum = pos.length) (x : List (V3 ℚ)) (flags : List (List Str)) (hfl : flags.length = pos.length)
    (hx : List.Forall₂ (fun (p : Str × List Str) v => IsPos p.2 p.1 v) (pos.zip flags) x) :
    ∃ p, readInput (hd ++ md ++ pos) = .ok p ∧ p.cart = x.map fun w => [1 * w 0, 1 * w 1, 1 * w 2] :=
  ⟨_, C62_cartesian_file hh hm hch hn x flags hfl hx, by simp⟩

/-- **C62** (exact condition).  The positions read from a Cartesian file are `scale · x`, as VASP defines the format, exactly if the scale is 1 or every atom sits at the
origin. -/
theorem C62_scaled_iff {hd md pos : List Str} {s : ℚ} {A : M3 ℚ} {n : List ℤ} {types : List Str} {sel : Bool} {ch : Char}
    (hh : IsHeader hd s A n types) (hm : IsMode md sel ch) (hch : ch = 'C' ∨ ch = 'c' ∨ ch = 'K' ∨ ch = 'k')
    (hn : n.sum = pos.length) (x : List (V3 ℚ)) (flags : List (List Str)) (hfl : flags.length = pos.length)
    (hx : List.Forall₂ (fun (p : Str × List Str) v => IsPos p.2 p.1 v) (pos.zip flags) x) :
    ∃ p, readInput (hd ++ md ++ pos) = .ok p ∧ ((p.cart = x.map fun w => [s * w 0, s * w 1, s * w 2]) ↔ s = 1 ∨ ∀ w ∈ x, w = 0) := by
  refine ⟨_, C62_cartesian_file hh hm hch hn x flags hfl hx, ?_⟩
  show ((x.map fun w => [w 0, w 1, w 2]) = x.map fun w => [s * w 0, s * w 1, s * w 2]) ↔ _
  rw [List.map_inj_left]
  constructor
  · intro h
    by_cases hs : s = 1
    · exact .inl hs
    · refine .inr fun w hw => ?_
      have := h w hw
      simp only [List.cons.injEq, and_true] at this
      have h1 : ∀ a : ℚ, a = s * a → a = 0 := by
        intro a ha
        have : (1 - s) * a = 0 := by linarith
        rcases mul_eq_zero.1 this with h' | h'
        · exact absurd (by linarith) hs
        · exact h'
      funext c
      fin_cases c
      · exact h1 _ this.1
      · exact h1 _ this.2.1
      · exact h1 _ this.2.2
  · rintro (rfl | h) w hw
    · simp
    · rw [h w hw]; simp

/-- **C61** (exact condition).  A direct file with coordinates `d` and a Cartesian file with the coordinates `d·A` that VASP multiplies by the scale (the same header, the same
flags) describe the same structure to VASP; the program reads the same positions exactly if the scale is 1 or every `d·A` is zero. -/
theorem C61_scaled_iff {hd md md' pos pos' : List Str} {s : ℚ} {A : M3 ℚ} {n : List ℤ} {types : List Str} {sel : Bool} {ch ch' : Char}
    (hh : IsHeader hd s A n types) (hm : IsMode md sel ch) (hm' : IsMode md' sel ch') (hch : ch = 'D' ∨ ch = 'd')
    (hch' : ch' = 'C' ∨ ch' = 'c' ∨ ch' = 'K' ∨ ch' = 'k') (hpos : pos ≠ []) (hn : n.sum = pos.length) (hn' : pos'.length = pos.length)
    (d : List (V3 ℚ)) (flags : List (List Str)) (hfl : flags.length = pos.length)
    (hd' : List.Forall₂ (fun (p : Str × List Str) v => IsPos p.2 p.1 v) (pos.zip flags) d)
    (hx : List.Forall₂ (fun (p : Str × List Str) v => IsPos p.2 p.1 v) (pos'.zip flags) (d.map (fromDirect A))) :
    ∃ p p', readInput (hd ++ md ++ pos) = .ok p ∧ readInput (hd ++ md' ++ pos') = .ok p' ∧
      (p.cart = p'.cart ↔ s = 1 ∨ ∀ w ∈ d, fromDirect A w = 0) := by
  obtain ⟨p', h1, h2⟩ := C62_scaled_iff hh hm' hch' (by rw [hn, hn']) _ flags (by rw [hfl, hn']) hx
  refine ⟨_, p', C61_direct_file hh hm hch hn hpos d flags hfl hd', h1, ?_⟩
  have e : ∀ w : V3 ℚ, (fun w : V3 ℚ => [w 0, w 1, w 2]) (fromDirect (fun i j => A i j * s) w) =
      (fun w : V3 ℚ => [s * w 0, s * w 1, s * w 2]) (fromDirect A w) := by
    intro w
    simp only [fromDirect]
    refine congrArg₂ _ (by ring) (congrArg₂ _ (by ring) (congrArg₂ _ (by ring) rfl))
  rw [show (s = 1 ∨ ∀ w ∈ d, fromDirect A w = 0) ↔ (s = 1 ∨ ∀ w ∈ d.map (fromDirect A), w = 0) by simp, ← h2, eq_comm, List.map_map]
  simp only [e]
  rfl

/-- A one-atom POSCAR with scale 2 in Cartesian coordinates. -/
def scaledCartesian : List Str := ["c\n".toList, "2.0\n".toList, "1 0 0\n".toList, "0 1 0\n".toList, "0 0 1\n".toList, "H\n".toList,
  "1\n".toList, "Cartesian\n".toList, "0.5 0.5 0.25\n".toList]

/-- The same structure in direct coordinates. -/
def scaledDirect : List Str := ["c\n".toList, "2.0\n".toList, "1 0 0\n".toList, "0 1 0\n".toList, "0 0 1\n".toList, "H\n".toList,
  "1\n".toList, "Direct\n".toList, "0.5 0.5 0.25\n".toList]

/-- **C62 refuted.**  The scale 2 doubles the lattice but not the Cartesian position. -/
theorem C62_scale_refuted : ∃ p, readInput scaledCartesian = .ok p ∧ p.lattice = [[2, 0, 0], [0, 2, 0], [0, 0, 2]] ∧
    p.cart = [[1/2, 1/2, 1/4]] := by
  refine ⟨⟨[[2, 0, 0], [0, 2, 0], [0, 0, 2]], ["H".toList], [1], false, "cartesian".toList, [[1/2, 1/2, 1/4]], [0], [0, 0, 0]⟩,
    by decide +kernel, rfl, rfl⟩

/-- **C61 refuted for scale ≠ 1.**  VASP reads both files as one atom at `(1, 1, 1/2)` in a cubic cell of edge 2; the program
reads different positions. -/
theorem C61_scaled_refuted : ∃ p p', readInput scaledDirect = .ok p ∧ readInput scaledCartesian = .ok p' ∧
    p.lattice = p'.lattice ∧ p.cart = [[1, 1, 1/2]] ∧ p'.cart = [[1/2, 1/2, 1/4]] := by
  refine ⟨⟨[[2, 0, 0], [0, 2, 0], [0, 0, 2]], ["H".toList], [1], false, "direct".toList, [[1, 1, 1/2]], [0], [0, 0, 0]⟩,
    ⟨[[2, 0, 0], [0, 2, 0], [0, 0, 2]], ["H".toList], [1], false, "cartesian".toList, [[1/2, 1/2, 1/4]], [0], [0, 0, 0]⟩,
    by decide +kernel, by decide +kernel, rfl, rfl, rfl⟩

/-- Non-vacuity of the hypotheses of C61/C62: a header with scale 2 and an oblique cell, with flags. -/
example : IsHeader ["c\n".toList, "2.0\n".toList, "1 0 0\n".toList, "0.5 1 0\n".toList, "0 0 1\n".toList, "H\n".toList, "1\n".toList]
      2 !![1, 0, 0; 1/2, 1, 0; 0, 0, 1] [1] ["H".toList] ∧
    IsMode ["Selective\n".toList, "direct\n".toList] true 'd' ∧
    IsPos ["T".toList, "T".toList, "F".toList] "0.5 0.25 0 T T F\n".toList ![1/2, 1/4, 0] ∧
    IsPos ["T".toList, "T".toList, "F".toList] "1.25 0.5 0 T T F\n".toList (fromDirect (fun i j => !![1, 0, 0; 1/2, 1, 0; 0, 0, 1] i j * 2) ![1/2, 1/4, 0]) := by
  refine ⟨⟨rfl, ⟨_, "2.0".toList, [], rfl, by decide +kernel, by decide +kernel⟩, fun i => ?_, ⟨_, rfl, by decide +kernel⟩, ⟨_, rfl, by decide +kernel⟩⟩,
    ⟨.inl ⟨rfl, _, _, rfl, ⟨'S', "elective".toList, [], by decide +kernel, .inl rfl⟩, "irect".toList, [], by decide +kernel⟩⟩,
    ⟨"0.5".toList, "0.25".toList, "0".toList, by decide +kernel, by decide +kernel, by decide +kernel, by decide +kernel⟩,
    ⟨"1.25".toList, "0.5".toList, "0".toList, by decide +kernel, by decide +kernel, by decide +kernel, by decide +kernel⟩⟩
  fin_cases i
  · exact ⟨_, rfl, [], "1".toList, "0".toList, "0".toList, by decide +kernel, by decide +kernel, by decide +kernel, by decide +kernel⟩
  · exact ⟨_, rfl, [], "0.5".toList, "1".toList, "0".toList, by decide +kernel, by decide +kernel, by decide +kernel, by decide +kernel⟩
  · exact ⟨_, rfl, [], "0".toList, "0".toList, "1".toList, by decide +kernel, by decide +kernel, by decide +kernel, by decide +kernel⟩

end Interphon.Props
