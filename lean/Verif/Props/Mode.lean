import Verif.Model.Mode
import Verif.Props.Phonon
import Verif.Props.SuperCell
import Mathlib.Analysis.SpecialFunctions.Trigonometric.Bounds
import Mathlib.Algebra.BigOperators.Group.List.Basic
import Mathlib.Algebra.BigOperators.Intervals

/-!
# Properties of the vibrational-mode writer (C54–C56)
-/

noncomputable section

namespace Interphon.Props
open Py Interphon Interphon.Phonon Interphon.Mode

/-! ### C54 -/

private theorem assign_get (row : ℕ → V3 ℝ) : ∀ (sel : List ℕ) (k : ℕ) (c : List (V3 ℝ)) (i : ℕ), sel.Nodup →
    ((sel.zipIdx k).foldl (fun a (x : ℕ × ℕ) => a.set x.1 (row x.2)) c)[i]? =
      if i ∈ sel ∧ i < c.length then some (row (k + sel.idxOf i)) else c[i]?
  | [], k, c, i, _ => by simp
  | a :: sel, k, c, i, h => by
    rw [List.nodup_cons] at h
    rw [List.zipIdx_cons, List.foldl_cons, assign_get row sel (k + 1) _ i h.2]
    simp only [List.length_set, List.mem_cons]
    by_cases hia : i = a
    · subst hia
      by_cases hl : i < c.length
      · simp [h.1, hl]
      · simp [h.1, hl]
    · have hia' : a ≠ i := fun e => hia e.symm
      by_cases his : i ∈ sel
      · by_cases hl : i < c.length
        · have : List.idxOf i (a :: sel) = List.idxOf i sel + 1 := by
            rw [List.idxOf_cons_ne _ hia']
          simp [his, hl, this, Nat.add_comm, Nat.add_left_comm]
        · simp [his, hl]
      · simp [his, hia, hia', List.getElem?_set]

private theorem assign_length (row : ℕ → V3 ℝ) : ∀ (l : List (ℕ × ℕ)) (c : List (V3 ℝ)),
    (l.foldl (fun a (x : ℕ × ℕ) => a.set x.1 (row x.2)) c).length = c.length
  | [], c => rfl
  | x :: l, c => by rw [List.foldl_cons, assign_length row l]; simp

/-- The structure whose selected atoms are displaced by `d j` (`j` the rank of the atom in the selection) and whose other atoms are
those of `cart`. -/
def displacedStructure (cart : List (V3 ℝ)) (sel : List ℕ) (d : ℕ → V3 ℝ) : List (V3 ℝ) :=
  cart.mapIdx fun i r => if i ∈ sel then r + d (sel.idxOf i) else r

theorem assignRows_eq (cart c : List (V3 ℝ)) (sel : List ℕ) (hn : sel.Nodup) (d : ℕ → V3 ℝ)
    (hl : c.length = cart.length) (ho : ∀ i, i ∉ sel → c[i]? = cart[i]?) :
    assignRows c sel (fun j => cart.getD (sel.getD j 0) 0 + d j) = displacedStructure cart sel d := by
  apply List.ext_getElem?
  intro i
  have h0 := assign_get (fun j => cart.getD (sel.getD j 0) 0 + d j) sel 0 c i hn
  have h1 : (assignRows c sel (fun j => cart.getD (sel.getD j 0) 0 + d j))[i]? = _ := h0
  rw [h1, displacedStructure, List.getElem?_mapIdx]
  by_cases his : i ∈ sel
  · by_cases hlt : i < c.length
    · have h1 : sel.getD (sel.idxOf i) 0 = i := by
        have hx := List.idxOf_lt_length_of_mem his
        rw [List.getD_eq_getElem _ _ hx, List.getElem_idxOf]
      have hlt' : i < cart.length := hl ▸ hlt
      simp only [his, hlt, and_self, if_true, zero_add, h1]
      rw [List.getD_eq_getElem _ _ hlt', List.getElem?_eq_getElem hlt']
      simp
    · have : c[i]? = none := List.getElem?_eq_none (not_lt.1 hlt)
      have : cart[i]? = none := List.getElem?_eq_none (hl ▸ not_lt.1 hlt)
      simp [hlt, *]
      omega
  · simp [his, ho i his]

theorem displaced_length (cart : List (V3 ℝ)) (sel : List ℕ) (d : ℕ → V3 ℝ) :
    (displacedStructure cart sel d).length = cart.length := by simp [displacedStructure]

theorem displaced_other (cart : List (V3 ℝ)) (sel : List ℕ) (d : ℕ → V3 ℝ) (i : ℕ) (h : i ∉ sel) :
    (displacedStructure cart sel d)[i]? = cart[i]? := by
  rw [displacedStructure, List.getElem?_mapIdx]; simp [h]

theorem framesOf_eq (cart : List (V3 ℝ)) (sel : List ℕ) (hn : sel.Nodup) (mass : List ℝ) (m : ℕ → ℝ) :
    ∀ (xs : List ℝ) (c : List (V3 ℝ)), c.length = cart.length → (∀ i, i ∉ sel → c[i]? = cart[i]?) →
      (framesOf (fun j => cart.getD (sel.getD j 0) 0) sel mass m c xs).1 =
        xs.map (fun x => displacedStructure cart sel fun j => Real.sin x • scaled mass m j) ∧
      (framesOf (fun j => cart.getD (sel.getD j 0) 0) sel mass m c xs).2.length = cart.length ∧
      (∀ i, i ∉ sel → (framesOf (fun j => cart.getD (sel.getD j 0) 0) sel mass m c xs).2[i]? = cart[i]?)
  | [], c, hl, ho => by simp [framesOf, hl]; exact ho
  | x :: xs, c, hl, ho => by
    have hs : frameStep (fun j => cart.getD (sel.getD j 0) 0) sel mass m c x =
        displacedStructure cart sel fun j => Real.sin x • scaled mass m j :=
      assignRows_eq cart c sel hn (fun j => Real.sin x • scaled mass m j) hl ho
    have ih := framesOf_eq cart sel hn mass m xs
      (displacedStructure cart sel fun j => Real.sin x • scaled mass m j) (displaced_length _ _ _)
      (displaced_other _ _ _)
    simp only [framesOf, hs, List.map_cons]
    exact ⟨by rw [ih.1], ih.2.1, ih.2.2⟩

private theorem write_go_eq (cart : List (V3 ℝ)) (sel : List ℕ) (hn : sel.Nodup) (mass : List ℝ) (n : ℕ) :
    ∀ (modes : List (ℕ → ℝ)) (c : List (V3 ℝ)), c.length = cart.length → (∀ i, i ∉ sel → c[i]? = cart[i]?) →
      write.go sel mass n (fun j => cart.getD (sel.getD j 0) 0) c modes =
        modes.map fun m => (angles n).map fun x => displacedStructure cart sel fun j => Real.sin x • scaled mass m j
  | [], c, hl, ho => by simp [write.go]
  | m :: ms, c, hl, ho => by
    have h := framesOf_eq cart sel hn mass m (angles n) c hl ho
    rw [write.go]
    simp only [List.map_cons]
    rw [← h.1, write_go_eq cart sel hn mass n ms _ h.2.1 h.2.2]

/-- Specification: the largest of the masses (the least upper bound of the numbers in the list). -/
def heaviest (mass : List ℝ) : ℝ := sSup {m | m ∈ mass}

theorem massMax_eq {mass : List ℝ} (h : ∀ m ∈ mass, 0 ≤ m) : massMax mass = heaviest mass := by
  have hle : ∀ (l : List ℝ) (a : ℝ), a ≤ l.foldl max a ∧ (∀ m ∈ l, m ≤ l.foldl max a) ∧ (l.foldl max a = a ∨ l.foldl max a ∈ l) := by
    intro l
    induction l with
    | nil => intro a; simp
    | cons b l ih =>
      intro a
      obtain ⟨h1, h2, h3⟩ := ih (max a b)
      rw [List.foldl_cons]
      refine ⟨(le_max_left a b).trans h1, fun m hm => ?_, ?_⟩
      · rcases List.mem_cons.1 hm with rfl | hm
        · exact (le_max_right a m).trans h1
        · exact h2 m hm
      · rcases h3 with h3 | h3
        · rcases le_total a b with hab | hab
          · right; rw [h3, max_eq_right hab]; simp
          · left; rw [h3, max_eq_left hab]
        · right; simp [h3]
  obtain ⟨h1, h2, h3⟩ := hle mass 0
  unfold heaviest massMax
  rcases mass with _ | ⟨b, l⟩
  · simp
  have hmem : List.foldl max 0 (b :: l) ∈ (b :: l) := by
    rcases h3 with h3 | h3
    · have hb := h2 b (by simp)
      have : b = 0 := le_antisymm (h3 ▸ hb) (h b (by simp))
      rw [h3, ← this]; simp
    · exact h3
  exact (IsGreatest.csSup_eq (s := {m | m ∈ b :: l}) ⟨hmem, fun m hm => h2 m hm⟩).symm

private theorem frames_raw (cart : List (V3 ℝ)) (sel : List ℕ) (hn : sel.Nodup) (mass : List ℝ) (N : ℕ) (modes : List (ℕ → ℝ)) :
    write cart sel mass N modes = modes.map fun m => (List.range N).map fun k : ℕ =>
      cart.mapIdx fun i r => if i ∈ sel then
        r + Real.sin (2 * Real.pi * k / N) • (fun c : Fin 3 =>
          m (3 * sel.idxOf i + c) / Real.sqrt (mass.getD (3 * sel.idxOf i + c) 0 / massMax mass)) else r := by
  rw [write, write_go_eq cart sel hn mass N modes cart rfl (fun _ _ => rfl)]
  simp only [angles, List.map_map]
  rfl

/-- The files written for *any* list of modes, although all frames of all modes are produced by overwriting one and the same cell:
file number `m` has `N` frames, and in frame `k` every selected atom sits at its equilibrium position plus
`sin(2πk/N)` times its mass-scaled real mode vector, every other atom at its equilibrium position. -/
theorem C54_frames (cart : List (V3 ℝ)) (sel : List ℕ) (hn : sel.Nodup) (mass : List ℝ) (hpos : ∀ m ∈ mass, 0 ≤ m) (N : ℕ)
    (modes : List (ℕ → ℝ)) : write cart sel mass N modes = modes.map fun m => (List.range N).map fun k : ℕ =>
      cart.mapIdx fun i r => if i ∈ sel then
        r + Real.sin (2 * Real.pi * k / N) • (fun c : Fin 3 =>
          m (3 * sel.idxOf i + c) / Real.sqrt (mass.getD (3 * sel.idxOf i + c) 0 / heaviest mass)) else r := by
  rw [frames_raw _ _ hn]
  simp only [massMax_eq hpos]

/-- The first frame of every file is the equilibrium structure. -/
theorem C54_first_frame (cart : List (V3 ℝ)) (sel : List ℕ) (hn : sel.Nodup) (mass : List ℝ) (N : ℕ) (hN : 0 < N)
    (modes : List (ℕ → ℝ)) : ∀ f ∈ write cart sel mass N modes, f.head? = some cart := by
  intro f hf
  rw [frames_raw _ _ hn, List.mem_map] at hf
  obtain ⟨m, _, rfl⟩ := hf
  obtain ⟨N, rfl⟩ := Nat.exists_eq_succ_of_ne_zero hN.ne'
  rw [List.range_succ_eq_map]
  simp only [List.map_cons, List.head?_cons, Option.some.injEq, Nat.cast_zero, mul_zero, zero_div, Real.sin_zero, zero_smul,
    add_zero, ite_self]
  exact List.ext_getElem? fun i => by rw [List.getElem?_mapIdx]; simp

/-- A full period of the sampled sine sums to zero. -/
theorem sin_sum (N : ℕ) : ∑ k ∈ Finset.range N, Real.sin (2 * Real.pi * k / N) = 0 := by
  rcases Nat.eq_zero_or_pos N with rfl | hN
  · simp
  have hN' : (N : ℝ) ≠ 0 := by positivity
  have key : ∑ k ∈ Finset.range N, Real.sin (2 * Real.pi * k / N) =
      ∑ k ∈ Finset.range N, Real.sin (2 * Real.pi * (k + 1 : ℕ) / N) := by
    have h1 := Finset.sum_range_succ (fun k : ℕ => Real.sin (2 * Real.pi * k / N)) N
    have h2 := Finset.sum_range_succ' (fun k : ℕ => Real.sin (2 * Real.pi * k / N)) N
    have e : Real.sin (2 * Real.pi * N / N) = 0 := by
      rw [mul_div_assoc, div_self hN', mul_one, Real.sin_two_pi]
    have e0 : Real.sin (2 * Real.pi * (0 : ℕ) / N) = 0 := by simp
    rw [h1, e, e0] at h2
    simpa using h2
  have refl : ∑ k ∈ Finset.range N, Real.sin (2 * Real.pi * (k + 1 : ℕ) / N) =
      -∑ k ∈ Finset.range N, Real.sin (2 * Real.pi * k / N) := by
    rw [← Finset.sum_range_reflect, ← Finset.sum_neg_distrib]
    refine Finset.sum_congr rfl fun k hk => ?_
    have hk := Finset.mem_range.1 hk
    have : ((N - 1 - k + 1 : ℕ) : ℝ) = N - k := by
      rw [show N - 1 - k + 1 = N - k from by omega, Nat.cast_sub hk.le]
    rw [this, show 2 * Real.pi * ((N : ℝ) - k) / N = 2 * Real.pi - 2 * Real.pi * k / N by field_simp, Real.sin_two_pi_sub]
  linarith

/-- The frames of every file average to the equilibrium structure: the sum over the frames of the position of any atom is
`N` times its equilibrium position. -/
theorem C54_average (cart : List (V3 ℝ)) (sel : List ℕ) (hn : sel.Nodup) (mass : List ℝ) (N : ℕ) (modes : List (ℕ → ℝ)) :
    ∀ f ∈ write cart sel mass N modes, ∀ i, i < cart.length →
      (f.map fun frame => frame.getD i 0).sum = (N : ℝ) • cart.getD i 0 := by
  intro f hf i hi
  rw [frames_raw _ _ hn, List.mem_map] at hf
  obtain ⟨m, _, rfl⟩ := hf
  rw [List.map_map]
  have hfr : ∀ k : ℕ, ((fun frame : List (V3 ℝ) => frame.getD i 0) ∘ fun k : ℕ => cart.mapIdx fun i r => if i ∈ sel then
        r + Real.sin (2 * Real.pi * k / N) • (fun c : Fin 3 =>
          m (3 * sel.idxOf i + c) / Real.sqrt (mass.getD (3 * sel.idxOf i + c) 0 / massMax mass)) else r) k =
      cart.getD i 0 + Real.sin (2 * Real.pi * k / N) • (if i ∈ sel then (fun c : Fin 3 =>
          m (3 * sel.idxOf i + c) / Real.sqrt (mass.getD (3 * sel.idxOf i + c) 0 / massMax mass)) else 0) := by
    intro k
    simp only [Function.comp, List.getD_eq_getElem?_getD, List.getElem?_mapIdx, List.getElem?_eq_getElem hi, Option.map_some,
      Option.getD_some]
    split <;> simp
  rw [List.map_congr_left (fun k _ => hfr k)]
  have hsum : ∀ g : ℕ → V3 ℝ, ((List.range N).map g).sum = ∑ k ∈ Finset.range N, g k := by
    intro g
    rw [Finset.sum_eq_multiset_sum]; simp [Finset.range, Multiset.range]
  rw [hsum, Finset.sum_add_distrib, ← Finset.sum_smul, sin_sum]
  funext c
  simp

/-- Non-vacuity: two modes, one of two atoms selected, four frames. -/
example : ([1] : List ℕ).Nodup ∧
    ((write [0, ![1, 2, 3]] [1] [4, 4, 4] 4 [fun _ => 1, fun i => i]).map List.length) = [4, 4] := by
  refine ⟨by simp, ?_⟩
  rw [frames_raw _ _ (by simp)]; simp

/-- The mode really moves the atom: a quarter period into the animation of the mode `(1,0,0)` the atom is 1 away. -/
example : ((write [0, ![1, 2, 3]] [1] [4, 4, 4] 4 [fun i => if i = 0 then 1 else 0]).map fun f => f.getD 1 []) =
    [[0, ![2, 2, 3]]] := by
  rw [frames_raw _ _ (by simp)]
  have e : (2 * Real.pi / 4 : ℝ) = Real.pi / 2 := by ring
  simp [massMax, e, List.range_succ, List.mapIdx, List.mapIdx.go, Matrix.vecHead, Matrix.vecTail]
  norm_num

/-! ### C55 -/

private theorem choose_fold (req : V3 ℝ) (P : V3 ℝ → Prop) [DecidablePred P] : ∀ (l : List (V3 ℝ)) (k : ℕ) (acc : Option ℕ),
    (∃ i, i < l.length ∧ P (l.getD i 0) ∧ (∀ j, i < j → j < l.length → ¬P (l.getD j 0)) ∧
      (l.zipIdx k).foldl (fun acc (x : V3 ℝ × ℕ) => if P x.1 then some x.2 else acc) acc = some (k + i)) ∨
    ((∀ p ∈ l, ¬P p) ∧ (l.zipIdx k).foldl (fun acc (x : V3 ℝ × ℕ) => if P x.1 then some x.2 else acc) acc = acc)
  | [], k, acc => by right; simp
  | p :: l, k, acc => by
    rw [List.zipIdx_cons, List.foldl_cons]
    rcases choose_fold req P l (k + 1) (if P p then some k else acc) with ⟨i, hi, hP, hl, he⟩ | ⟨hn, he⟩
    · left
      refine ⟨i + 1, by simpa using hi, by simpa using hP, fun j hj hjl => ?_, ?_⟩
      · obtain ⟨j, rfl⟩ := Nat.exists_eq_succ_of_ne_zero (by omega : j ≠ 0)
        simpa using hl j (by omega) (by simpa using hjl)
      · rw [he]; congr 1; omega
    · by_cases hp : P p
      · left
        refine ⟨0, by simp, by simpa using hp, fun j hj hjl => ?_, by rw [he]; simp [hp]⟩
        obtain ⟨j, rfl⟩ := Nat.exists_eq_succ_of_ne_zero (by omega : j ≠ 0)
        have hj' : j < l.length := by simpa using hjl
        simp only [List.getD_cons_succ]
        rw [List.getD_eq_getElem _ _ hj']
        exact hn _ (List.getElem_mem hj')
      · right
        refine ⟨fun q hq => ?_, by rw [he]; simp [hp]⟩
        rcases List.mem_cons.1 hq with rfl | hq
        · exact hp
        · exact hn q hq

/-- Two k points match: every component agrees to `1e-8 + 1e-5·|component of the listed point|` (numpy's defaults). -/
def Matches (req listed : V3 ℝ) : Prop := ∀ i, |req i - listed i| ≤ 1 / 10 ^ 8 + 1 / 10 ^ 5 * |listed i|

theorem matches_iff (a b : V3 ℝ) : allclose3 a b ↔ Matches a b := by
  unfold allclose3 Matches isClose rtolDefault atolDefault
  norm_num

/-- Choosing succeeds exactly when the requested point matches a listed one; the index returned then designates a listed
point that matches (the last such), and otherwise `Not_Specified_Kpath_Error` is raised. -/
theorem C55_chosen_k (ks : List (V3 ℝ)) (req : V3 ℝ) :
    (∀ i, chooseK ks req = .ok i ↔
      i < ks.length ∧ Matches req (ks.getD i 0) ∧ ∀ j, i < j → j < ks.length → ¬Matches req (ks.getD j 0)) ∧
    (chooseK ks req = .error .notSpecifiedKpath ↔ ∀ p ∈ ks, ¬Matches req p) ∧
    (∀ e, chooseK ks req = .error e → e = .notSpecifiedKpath) := by
  classical
  have hf := choose_fold req (fun p => allclose3 req p) ks 0 none
  simp only [matches_iff] at hf
  have hc : chooseK ks req = match ks.zipIdx.foldl (fun acc (x : V3 ℝ × ℕ) => if Matches req x.1 then some x.2 else acc) none with
      | some i => .ok i | none => .error .notSpecifiedKpath := by
    unfold chooseK
    simp only [matches_iff]
    rfl
  rcases hf with ⟨i, hi, hm, hl, he⟩ | ⟨hn, he⟩
  · rw [he] at hc
    simp only [zero_add] at hc
    refine ⟨fun i' => ⟨fun h => ?_, fun ⟨h1, h2, h3⟩ => ?_⟩, ⟨fun h => ?_, fun h => ?_⟩, fun e h => ?_⟩
    · rw [hc] at h; cases h; exact ⟨hi, hm, hl⟩
    · rw [hc]
      rcases lt_trichotomy i i' with h | h | h
      · exact absurd h2 (hl i' h h1)
      · rw [h]
      · exact absurd hm (h3 i h hi)
    · rw [hc] at h; cases h
    · rw [List.getD_eq_getElem _ _ hi] at hm
      exact absurd hm (h _ (List.getElem_mem hi))
    · rw [hc] at h; cases h
  · rw [he] at hc
    refine ⟨fun i' => ⟨fun h => ?_, fun ⟨h1, h2, h3⟩ => ?_⟩, ⟨fun _ => hn, fun _ => hc⟩, fun e h => ?_⟩
    · rw [hc] at h; cases h
    · rw [List.getD_eq_getElem _ _ h1] at h2
      exact absurd h2 (hn _ (List.getElem_mem h1))
    · rw [hc] at h; cases h; rfl

/-- Non-vacuity: the repeated Γ point of a band path is found at its last occurrence, a point off the path is refused. -/
example : chooseK [0, ![1/2, 0, 0], 0] 0 = .ok 2 ∧ chooseK [0, ![1/2, 0, 0], 0] ![1/4, 0, 0] = .error .notSpecifiedKpath := by
  refine ⟨((C55_chosen_k _ _).1 2).2 ⟨by simp, ?_, fun j h1 h2 => by simp at h2; omega⟩, (C55_chosen_k _ _).2.1.2 ?_⟩
  · intro i; simp
  · intro p hp h
    have := h 0
    simp only [List.mem_cons, List.not_mem_nil, or_false] at hp
    rcases hp with rfl | rfl | rfl <;> norm_num [abs_le] at this

/-! ### C56 -/

/-- A fraction with denominator at most 100 is returned unchanged, and every number closer than `1/20000` to such a fraction is
sent to it: binary rounding of `1/3` does no harm. -/
theorem limitDen_near {L : ℚ → ℚ} (hL : LimitDen L) (x y : ℚ) (hy : y.den ≤ 100) (hxy : |x - y| < 1 / 20000) : L x = y := by
  by_contra hne
  have h1 : |L x - x| ≤ |y - x| := hL.closest x y hy
  have h2 : |L x - y| < 1 / 10000 := by
    calc |L x - y| = |(L x - x) + (x - y)| := by ring_nf
      _ ≤ |L x - x| + |x - y| := abs_add_le _ _
      _ ≤ |y - x| + |x - y| := by linarith
      _ < 1 / 10000 := by rw [abs_sub_comm y x]; linarith
  have hd1 : (0 : ℚ) < (L x).den := by exact_mod_cast (L x).den_pos
  have hd2 : (0 : ℚ) < y.den := by exact_mod_cast y.den_pos
  have e : (L x - y) * ((L x).den * y.den) = ((L x).num * y.den - y.num * (L x).den : ℤ) := by
    push_cast
    have a1 := Rat.num_div_den (L x)
    have a2 := Rat.num_div_den y
    have a3 : L x * (L x).den = (L x).num := by rw [eq_comm, ← div_eq_iff hd1.ne']; exact a1
    have a4 : y * y.den = y.num := by rw [eq_comm, ← div_eq_iff hd2.ne']; exact a2
    rw [← a3, ← a4]; ring
  have hz : ((L x).num * y.den - y.num * (L x).den : ℤ) ≠ 0 := by
    intro h0
    rw [h0, Int.cast_zero, mul_eq_zero] at e
    rcases e with e | e
    · exact hne (sub_eq_zero.1 e)
    · exact absurd e (mul_pos hd1 hd2).ne'
  have hz1 : (1 : ℚ) ≤ |(((L x).num * y.den - y.num * (L x).den : ℤ) : ℚ)| := by
    rw [← Int.cast_abs]
    exact_mod_cast Int.one_le_abs hz
  rw [← e, abs_mul, abs_of_pos (mul_pos hd1 hd2)] at hz1
  have hb : ((L x).den : ℚ) * y.den ≤ 10000 := by
    have b1 : ((L x).den : ℚ) ≤ 100 := by exact_mod_cast hL.den x
    have b2 : (y.den : ℚ) ≤ 100 := by exact_mod_cast hy
    nlinarith
  have : |L x - y| * ((L x).den * y.den) ≤ |L x - y| * 10000 := mul_le_mul_of_nonneg_left hb (abs_nonneg _)
  linarith

/-- A function meeting the contract exists. -/
theorem limitDen_exists : ∃ L, LimitDen L := by
  have h : ∀ x : ℚ, ∃ y : ℚ, y.den ≤ 100 ∧ ∀ w : ℚ, w.den ≤ 100 → |y - x| ≤ |w - x| := by
    intro x
    obtain ⟨d, hd, hmin⟩ := Finset.exists_min_image (Finset.Icc 1 100) (fun d : ℕ => |(round (x * d) : ℚ) / d - x|) ⟨1, by simp⟩
    rw [Finset.mem_Icc] at hd
    refine ⟨(round (x * d) : ℚ) / d, ?_, fun w hw => ?_⟩
    · have : ((round (x * d) : ℚ) / d).den ∣ d := by
        have := Rat.den_dvd (round (x * d)) (d : ℤ)
        exact_mod_cast this
      exact (Nat.le_of_dvd (by omega) this).trans hd.2
    · refine (hmin w.den (Finset.mem_Icc.2 ⟨w.den_pos, hw⟩)).trans ?_
      have hp : (0 : ℚ) < w.den := by exact_mod_cast w.den_pos
      have e : w * w.den = w.num := by rw [eq_comm, ← div_eq_iff hp.ne']; exact Rat.num_div_den w
      have h1 := round_le (x * w.den) w.num
      rw [← e] at h1
      have h2 : |(round (x * w.den) : ℚ) / w.den - x| * w.den = |x * w.den - round (x * w.den)| := by
        rw [← abs_of_pos hp, ← abs_mul, abs_of_pos hp, abs_sub_comm]; congr 1; field_simp
      have h3 : |w - x| * w.den = |x * w.den - w * w.den| := by
        rw [← abs_of_pos hp, ← abs_mul, abs_of_pos hp, abs_sub_comm]; congr 1; ring
      exact le_of_mul_le_mul_right (h2 ▸ h3 ▸ h1) hp
  choose f h1 h2 using h
  exact ⟨f, h1, h2⟩

/-- The enlargement chosen is a valid one: at least 1, and 1 along non-periodic directions; so the super cell is built. -/
theorem C56_supercell_built {L : ℚ → ℚ} (junk : ℕ → List (V3 ℝ)) (hj : ∀ m, (junk m).length = m) (u : Cell ℝ)
    (ht : u.atomType.length = u.cart.length) (k : Fin 3 → ℚ) (p : Fin 3 → ℤ) :
    GoodCall junk u (commensurate L k p) p ∧ ∃ s, SuperCell.setSuperCell junk u (commensurate L k p) p = .ok s := by
  have hg : GoodCall junk u (commensurate L k p) p := by
    refine ⟨hj, ht, fun i => ?_, fun i hi => by simp [commensurate, hi]⟩
    unfold commensurate
    split
    · exact_mod_cast (L (k i)).den_pos
    · exact one_pos
  exact ⟨hg, _, (C06_supercell_positions hg).choose_spec.1⟩

private theorem q_dot_lattice (A : M3 ℝ) (hA : A.det ≠ 0) (k : V3 ℝ) (i : Fin 3) : dot3 (qOf k (reciprocal A)) (A i) = 2 * Real.pi * k i := by
  have h : ∀ a, dot3 (reciprocal A a) (A i) = if a = i then 2 * Real.pi else 0 := by
    intro a; rw [← C24_reciprocal_dual A hA a i, Fin.sum_univ_three]; rfl
  have e : dot3 (qOf k (reciprocal A)) (A i) = k 0 * dot3 (reciprocal A 0) (A i) + k 1 * dot3 (reciprocal A 1) (A i) +
      k 2 * dot3 (reciprocal A 2) (A i) := by simp only [dot3, qOf]; ring
  rw [e, h, h, h]
  fin_cases i <;> simp <;> ring

/-- **C56.**  `y` is the nominal k point (denominators at most 100), `k` the number the program holds, closer than `1/20000`.
The super cell built by `write_mode_displace` has as many copies along each periodic direction as the denominator of `y`, and a
translation `∑ zᵢ Sᵢ` by whole super-lattice vectors along periodic directions changes the phase factor by at most `2π` times the
rounding error of `k` times the number of cells crossed. -/
theorem C56_commensurate_rounded {L : ℚ → ℚ} (hL : LimitDen L) (junk : ℕ → List (V3 ℝ)) (u s : Cell ℝ) (hj : ∀ m, (junk m).length = m)
    (ht : u.atomType.length = u.cart.length) (hdet : u.lattice.det ≠ 0) (k y : Fin 3 → ℚ) (p : Fin 3 → ℤ)
    (hy : ∀ i, p i ≠ 0 → (y i).den ≤ 100 ∧ |k i - y i| < 1 / 20000)
    (hs : SuperCell.setSuperCell junk u (commensurate L k p) p = .ok s) :
    (∀ i, commensurate L k p i = if p i ≠ 0 then ((y i).den : ℤ) else 1) ∧
    ∀ (z : Fin 3 → ℤ), (∀ i, p i = 0 → z i = 0) → ∀ r : V3 ℝ,
      |Real.cos (dot3 (qOf (fun i => (k i : ℝ)) (reciprocal u.lattice)) (r + fun j => ∑ i, (z i : ℝ) * s.lattice i j)) -
        Real.cos (dot3 (qOf (fun i => (k i : ℝ)) (reciprocal u.lattice)) r)| ≤
      2 * Real.pi * ∑ i, |(k i : ℝ) - y i| * |(z i : ℝ)| * (commensurate L k p i : ℝ) := by
  have hc : ∀ i, commensurate L k p i = if p i ≠ 0 then ((y i).den : ℤ) else 1 := by
    intro i
    unfold commensurate
    by_cases hp : p i = 0
    · simp [hp]
    · rw [if_pos hp, if_pos hp, limitDen_near hL _ _ (hy i hp).1 (hy i hp).2]
  refine ⟨hc, fun z hz r => ?_⟩
  obtain ⟨hg, -⟩ := C56_supercell_built (L := L) junk hj u ht k p
  have hlat := (C07_supercell_counts_types hg hs).2.2.2.2.2
  set n := commensurate L k p
  set q := qOf (fun i => (k i : ℝ)) (reciprocal u.lattice)
  have hphase : dot3 q (r + fun j => ∑ i, (z i : ℝ) * s.lattice i j) = dot3 q r + 2 * Real.pi * ∑ i, (k i : ℝ) * z i * n i := by
    have h0 := q_dot_lattice u.lattice hdet (fun i => (k i : ℝ)) 0
    have h1 := q_dot_lattice u.lattice hdet (fun i => (k i : ℝ)) 1
    have h2 := q_dot_lattice u.lattice hdet (fun i => (k i : ℝ)) 2
    have : dot3 q (r + fun j => ∑ i, (z i : ℝ) * s.lattice i j) = dot3 q r + ((z 0 : ℝ) * n 0 * dot3 q (u.lattice 0) +
        z 1 * n 1 * dot3 q (u.lattice 1) + z 2 * n 2 * dot3 q (u.lattice 2)) := by
      simp only [dot3, Pi.add_apply, Fin.sum_univ_three, hlat]; ring
    rw [this, h0, h1, h2, Fin.sum_univ_three]; ring
  have hint : ∀ i, ∃ w : ℤ, (y i : ℝ) * z i * n i = w := by
    intro i
    by_cases hp : p i = 0
    · exact ⟨0, by simp [hz i hp]⟩
    · refine ⟨(y i).num * z i, ?_⟩
      rw [hc i, if_pos hp]
      have hd : ((y i).den : ℝ) ≠ 0 := by exact_mod_cast (y i).den_nz
      have : (y i : ℝ) * (y i).den = (y i).num := by
        have := Rat.mul_den_eq_num (y i)
        exact_mod_cast this
      push_cast
      rw [← this]; ring
  choose w hw using hint
  have hshift : Real.cos (dot3 q r) = Real.cos (dot3 q r + ((w 0 + w 1 + w 2 : ℤ) : ℝ) * (2 * Real.pi)) := by
    rw [Real.cos_add_int_mul_two_pi]
  rw [hphase, hshift]
  refine (Real.abs_cos_sub_cos_le _ _).trans ?_
  have hn : ∀ i, (0 : ℝ) ≤ n i := fun i => by exact_mod_cast (hg.pos i).le
  have heq : dot3 q r + 2 * Real.pi * ∑ i, (k i : ℝ) * z i * n i - (dot3 q r + ((w 0 + w 1 + w 2 : ℤ) : ℝ) * (2 * Real.pi)) =
      2 * Real.pi * ∑ i, ((k i : ℝ) - y i) * z i * n i := by
    push_cast
    rw [← hw 0, ← hw 1, ← hw 2, Fin.sum_univ_three, Fin.sum_univ_three]; ring
  rw [heq, abs_mul, abs_of_pos (by positivity : 0 < 2 * Real.pi)]
  refine mul_le_mul_of_nonneg_left ?_ (by positivity)
  refine (Finset.abs_sum_le_sum_abs _ _).trans (Finset.sum_le_sum fun i _ => ?_)
  rw [abs_mul, abs_mul, abs_of_nonneg (hn i)]

/-- **C56**, the case without rounding: for every k point whose components along the periodic directions have denominators at most
100, the phase factor has exactly the periodicity of the written super cell. -/
theorem C56_commensurate {L : ℚ → ℚ} (hL : LimitDen L) (junk : ℕ → List (V3 ℝ)) (u s : Cell ℝ) (hj : ∀ m, (junk m).length = m)
    (ht : u.atomType.length = u.cart.length) (hdet : u.lattice.det ≠ 0) (k : Fin 3 → ℚ) (p : Fin 3 → ℤ)
    (hk : ∀ i, p i ≠ 0 → (k i).den ≤ 100)
    (hs : SuperCell.setSuperCell junk u (commensurate L k p) p = .ok s)
    (z : Fin 3 → ℤ) (hz : ∀ i, p i = 0 → z i = 0) (r : V3 ℝ) :
    Real.cos (dot3 (qOf (fun i => (k i : ℝ)) (reciprocal u.lattice)) (r + fun j => ∑ i, (z i : ℝ) * s.lattice i j)) =
      Real.cos (dot3 (qOf (fun i => (k i : ℝ)) (reciprocal u.lattice)) r) := by
  have h := (C56_commensurate_rounded hL junk u s hj ht hdet k k p (fun i hi => ⟨hk i hi, by norm_num⟩) hs).2 z hz r
  simp only [sub_self, abs_zero, zero_mul, Finset.sum_const_zero, mul_zero] at h
  exact sub_eq_zero.1 (abs_nonpos_iff.1 h)

/-- The bound 100 matters: at `k = 1/101` the super cell built is *not* commensurate. -/
theorem C56_denominator_limit {L : ℚ → ℚ} (hL : LimitDen L) : ¬∃ w : ℤ, (1 / 101 : ℚ) * (L (1 / 101)).den = w := by
  rintro ⟨w, hw⟩
  have hd := hL.den (1 / 101)
  have hp := (L (1 / 101)).den_pos
  have h : ((L (1 / 101)).den : ℚ) = ((101 * w : ℤ) : ℚ) := by push_cast; linarith
  have h' : ((L (1 / 101)).den : ℤ) = 101 * w := by exact_mod_cast h
  omega

/-- Non-vacuity: at `k = (1/3, 1/2, 0)` the program builds a 3×2×1 super cell. -/
example : ∃ L, LimitDen L ∧ commensurate L ![1/3, 1/2, 0] ![1, 1, 0] = ![3, 2, 1] := by
  obtain ⟨L, hL⟩ := limitDen_exists
  have h3 : L (1/3) = 1/3 := limitDen_near hL _ _ (by decide +kernel) (by norm_num)
  have h2 : L (1/2) = 1/2 := limitDen_near hL _ _ (by decide +kernel) (by norm_num)
  have d3 : (1/3 : ℚ).den = 3 := by decide +kernel
  have d2 : (1/2 : ℚ).den = 2 := by decide +kernel
  refine ⟨L, hL, ?_⟩
  funext i
  fin_cases i
  · show ((L (1/3)).den : ℤ) = 3
    rw [h3, d3]; rfl
  · show ((L (1/2)).den : ℤ) = 2
    rw [h2, d2]; rfl
  · rfl

/-! ### C84 -/

/-- The displaced super cell written for the complex mode `v` at wave vector `q`: atoms outside the selection stay, selected atom
number `j` (image of selected unit-cell atom `j / E`) moves by `amplitude · cos(q·r) · Re v / √(m/m_max)`. -/
theorem C84_written_structure (q : V3 ℝ) (amp : ℝ) (E : ℕ) (mass : List ℝ) (hpos : ∀ m ∈ mass, 0 ≤ m)
    (cart : List (V3 ℝ)) (sel : List ℕ) (hn : sel.Nodup) (v : ℕ → ℂ) : writeModeDisplace q amp E mass cart sel (fun i => (v i).re) =
    cart.mapIdx fun i r => if i ∈ sel then
      r + (fun c : Fin 3 => amp * Real.cos (dot3 q r) * (v (3 * (sel.idxOf i / E) + c)).re /
        Real.sqrt (mass.getD (3 * sel.idxOf i + c) 0 / heaviest mass)) else r := by
  rw [← massMax_eq hpos]
  have h := assignRows_eq cart cart sel hn (fun j => modeDisp q amp E mass (fun i => (v i).re) j (cart.getD (sel.getD j 0) 0))
    rfl (fun _ _ => rfl)
  rw [writeModeDisplace]
  rw [show (fun j => cart.getD (sel.getD j 0) 0 + modeDisp q amp E mass (fun i => (v i).re) j (cart.getD (sel.getD j 0) 0)) =
    fun j => cart.getD (sel.getD j 0) 0 + modeDisp q amp E mass (fun i => (v i).re) j (cart.getD (sel.getD j 0) 0) from rfl] at h
  refine h.trans ?_
  unfold displacedStructure
  apply List.ext_getElem?
  intro i
  rw [List.getElem?_mapIdx, List.getElem?_mapIdx]
  by_cases hi : i < cart.length
  · rw [List.getElem?_eq_getElem hi]
    simp only [Option.map_some, Option.some.injEq]
    split
    · rename_i his
      have hx := List.idxOf_lt_length_of_mem his
      rw [List.getD_eq_getElem _ _ hx, List.getElem_idxOf, List.getD_eq_getElem _ _ hi]
      rfl
    · rfl
  · simp [not_lt.1 hi]

/-- The displacement of a phonon with polarization `v` and wave vector `q` at position `r`: `Re (v e^{iq·r})`. -/
def physicalAmplitude (v : ℂ) (q r : V3 ℝ) : ℝ := (v * Complex.exp (Complex.I * (dot3 q r : ℝ))).re

/-- **C84 (partial).**  If the mode vector is real (as at Γ and zone-boundary points with inversion-symmetric phases) every selected
atom of the written structure is displaced by `amplitude · Re(v e^{iq·r}) / √(m/m_max)`.  Missing: complex modes, for which the
claim is false (`C84_complex_mode_refuted`). -/
theorem C84_along_mode_partial (q : V3 ℝ) (amp : ℝ) (E : ℕ) (mass : List ℝ) (hpos : ∀ m ∈ mass, 0 ≤ m)
    (cart : List (V3 ℝ)) (sel : List ℕ) (hn : sel.Nodup) (v : ℕ → ℂ) (hv : ∀ i, (v i).im = 0) (i : ℕ) (hi : i ∈ sel) (r : V3 ℝ) (hr : cart[i]? = some r) :
    (writeModeDisplace q amp E mass cart sel (fun i => (v i).re))[i]? =
      some (fun c : Fin 3 => r c + amp * physicalAmplitude (v (3 * (sel.idxOf i / E) + c)) q r /
        Real.sqrt (mass.getD (3 * sel.idxOf i + c) 0 / heaviest mass)) := by
  rw [C84_written_structure _ _ _ _ hpos _ _ hn, List.getElem?_mapIdx, hr]
  simp only [Option.map_some, hi, if_true, Option.some.injEq]
  funext c
  simp only [Pi.add_apply, physicalAmplitude]
  rw [mul_comm Complex.I, Complex.mul_re, Complex.exp_ofReal_mul_I_re, hv]
  ring

/-- **C84** (exact condition).  With positive masses and an amplitude other than zero, a selected atom of the written structure is displaced by
`amplitude · Re(v e^{iq·r}) / √(m/m_max)` exactly if the imaginary part of each of its mode components is multiplied by `sin(q·r) = 0` or is itself zero. -/
theorem C84_physical_iff (q : V3 ℝ) (amp : ℝ) (hamp : amp ≠ 0) (E : ℕ) (mass : List ℝ) (hpos : ∀ m ∈ mass, 0 ≤ m)
    (cart : List (V3 ℝ)) (sel : List ℕ) (hn : sel.Nodup) (v : ℕ → ℂ) (i : ℕ) (hi : i ∈ sel) (r : V3 ℝ) (hr : cart[i]? = some r)
    (hm : ∀ c : Fin 3, 0 < mass.getD (3 * sel.idxOf i + c) 0 / heaviest mass) :
    (writeModeDisplace q amp E mass cart sel (fun i => (v i).re))[i]? =
      some (fun c : Fin 3 => r c + amp * physicalAmplitude (v (3 * (sel.idxOf i / E) + c)) q r /
        Real.sqrt (mass.getD (3 * sel.idxOf i + c) 0 / heaviest mass)) ↔
      ∀ c : Fin 3, (v (3 * (sel.idxOf i / E) + c)).im = 0 ∨ Real.sin (dot3 q r) = 0 := by
  rw [C84_written_structure _ _ _ _ hpos _ _ hn, List.getElem?_mapIdx, hr]
  simp only [Option.map_some, hi, if_true, Option.some.injEq, funext_iff]
  refine forall_congr' fun c => ?_
  have hs := (Real.sqrt_pos.2 (hm c)).ne'
  simp only [Pi.add_apply, physicalAmplitude]
  rw [mul_comm Complex.I, Complex.mul_re, Complex.exp_ofReal_mul_I_re, Complex.exp_ofReal_mul_I_im, add_right_inj, div_left_inj' hs]
  rw [show amp * Real.cos (dot3 q r) * (v (3 * (sel.idxOf i / E) + c)).re = amp * (Real.cos (dot3 q r) * (v (3 * (sel.idxOf i / E) + c)).re) by ring,
    mul_right_inj' hamp, ← mul_eq_zero]
  constructor <;> intro h <;> linarith

/-- **C84 refuted for complex modes.**  A chain with the circular polarization `v = i`: the structure written is the undisplaced
one, although the phonon displaces the atom at `r = 1/4` (in a chain of period 1, `q = 2π`) by `-1`. -/
theorem C84_complex_mode_refuted : ∃ (q : V3 ℝ) (v : ℕ → ℂ) (r : V3 ℝ),
    writeModeDisplace q 1 1 [1, 1, 1] [r] [0] (fun i => (v i).re) = [r] ∧ physicalAmplitude (v 0) q r = -1 := by
  refine ⟨![2 * Real.pi, 0, 0], fun _ => Complex.I, ![1/4, 0, 0], ?_, ?_⟩
  · rw [C84_written_structure _ _ _ _ (by simp) _ _ (by simp)]
    simp only [List.mapIdx, List.mapIdx.go, List.mem_cons, List.not_mem_nil, or_false]
    simp only [Complex.I_re, mul_zero, zero_div]
    simp [Matrix.vecHead, Matrix.vecTail]
  · have : dot3 ![2 * Real.pi, 0, 0] ![1/4, 0, 0] = Real.pi / 2 := by simp [dot3]; ring
    rw [physicalAmplitude, this, mul_comm Complex.I ((Real.pi / 2 : ℝ) : ℂ), Complex.mul_re, Complex.exp_ofReal_mul_I_re, Complex.exp_ofReal_mul_I_im]
    simp

/-- Non-vacuity of the partial theorem: a real mode on one of two atoms. -/
example : (writeModeDisplace 0 2 1 [1, 1, 1] [0, ![1, 2, 3]] [1] (fun i => ((fun _ => 1 : ℕ → ℂ) i).re))[1]? =
    some ![3, 4, 5] := by
  rw [C84_along_mode_partial _ _ _ _ (by simp) _ _ (by simp) _ (by simp) 1 (by simp) ![1, 2, 3] (by simp)]
  simp only [Option.some.injEq]
  funext c
  fin_cases c <;> simp [physicalAmplitude, dot3, ← massMax_eq (mass := [1, 1, 1]) (by simp), massMax] <;> norm_num

end Interphon.Props
