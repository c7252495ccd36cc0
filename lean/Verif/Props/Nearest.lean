import Verif.Props.Exact

/-! # C25 for one or two periodic directions at right angles, and C98: exact frequencies at every wave vector -/

namespace Interphon.Props
open Py Interphon Interphon.Phonon Interphon.PostProcess Interphon.PreProcess Interphon.SuperCell Interphon.ForceConstant Complex

noncomputable section

/-- Squared length gained by adding `i a + j b` to a vector with projections `P` on `a` and `Q` on `b` (`A = a·a`, `B = b·b`, `a·b = 0`). -/
private def gain (A B : ℝ) (P Q : ℝ) (o : ℝ × ℝ) : ℝ := o.1 * (2 * P + o.1 * A) + o.2 * (2 * Q + o.2 * B)

open Classical in
private def boxStep (A B : ℝ) (s o : ℝ × ℝ) : ℝ × ℝ := if gain A B s.1 s.2 o < 0 then (s.1 + o.1 * A, s.2 + o.2 * B) else s

private def InBox (A B : ℝ) (s : ℝ × ℝ) : Prop := -A ≤ 2 * s.1 ∧ 2 * s.1 ≤ A ∧ -B ≤ 2 * s.2 ∧ 2 * s.2 ≤ B

private theorem fold_step (A B P Q i j : ℝ) (l : List (ℝ × ℝ))
    (h1 : i * (2 * P + i * A) + j * (2 * Q + j * B) < 0 → InBox A B (l.foldl (boxStep A B) (P + i * A, Q + j * B)))
    (h2 : 0 ≤ i * (2 * P + i * A) + j * (2 * Q + j * B) → InBox A B (l.foldl (boxStep A B) (P, Q))) :
    InBox A B (((i, j) :: l).foldl (boxStep A B) (P, Q)) := by
  rw [List.foldl_cons]
  by_cases h : gain A B P Q (i, j) < 0
  · rw [boxStep, if_pos h]; exact h1 h
  · rw [boxStep, if_neg h]; exact h2 (not_lt.1 h)

private theorem box_end (A B P Q : ℝ) (hA : 0 < A) (hB : 0 < B) (p1 : -A ≤ 2 * P) (p2 : P ≤ A) (q1 : -B ≤ 2 * Q) (q2 : Q ≤ B) :
    InBox A B
      ([((-1 : ℝ), (-1 : ℝ)), (-1, 0), (-1, 1), (0, -1), (0, 0), (0, 1), (1, -1), (1, 0), (1, 1)].foldl (boxStep A B) (P, Q)) := by
  iterate 9
    all_goals
      refine fold_step A B _ _ _ _ _ ?_ ?_
      all_goals
        intro h
        try (exfalso; linarith)
  all_goals
    simp only [List.foldl_nil]
    refine ⟨?_, ?_, ?_, ?_⟩ <;> dsimp only <;> linarith

/-! ### Vectors -/

private theorem dot_self_add (p a b : V3 ℝ) (hab : dot3 a b = 0) (i j : ℝ) :
    dot3 (p + fun c => i * a c + j * b c) (p + fun c => i * a c + j * b c) =
      dot3 p p + gain (dot3 a a) (dot3 b b) (dot3 p a) (dot3 p b) (i, j) := by
  have e : dot3 (p + fun c => i * a c + j * b c) (p + fun c => i * a c + j * b c) =
      dot3 p p + gain (dot3 a a) (dot3 b b) (dot3 p a) (dot3 p b) (i, j) + 2 * i * j * dot3 a b := by
    simp only [dot3, gain, Pi.add_apply]; ring
  rw [e, hab]; ring

private theorem proj (p a b : V3 ℝ) (hab : dot3 a b = 0) (i j : ℝ) :
    dot3 (p + fun c => i * a c + j * b c) a = dot3 p a + i * dot3 a a ∧ dot3 (p + fun c => i * a c + j * b c) b = dot3 p b + j * dot3 b b := by
  have e1 : dot3 (p + fun c => i * a c + j * b c) a = dot3 p a + i * dot3 a a + j * dot3 a b := by
    simp only [dot3, Pi.add_apply]; ring
  have e2 : dot3 (p + fun c => i * a c + j * b c) b = dot3 p b + j * dot3 b b + i * dot3 a b := by
    simp only [dot3, Pi.add_apply]; ring
  rw [e1, e2, hab]; constructor <;> ring

private theorem fold_proj (a b : V3 ℝ) (hab : dot3 a b = 0) (l : List (ℝ × ℝ)) : ∀ p : V3 ℝ,
    (dot3 ((l.map fun o => fun c => o.1 * a c + o.2 * b c).foldl imageStep p) a,
      dot3 ((l.map fun o => fun c => o.1 * a c + o.2 * b c).foldl imageStep p) b) =
      l.foldl (boxStep (dot3 a a) (dot3 b b)) (dot3 p a, dot3 p b) := by
  induction l with
  | nil => intro p; rfl
  | cons o l ih =>
    intro p
    rw [List.map_cons, List.foldl_cons, List.foldl_cons, ih]
    congr 1
    have e := dot_self_add p a b hab o.1 o.2
    obtain ⟨p1, p2⟩ := proj p a b hab o.1 o.2
    unfold imageStep boxStep
    by_cases h : gain (dot3 a a) (dot3 b b) (dot3 p a) (dot3 p b) o < 0
    · rw [if_pos (by rw [e]; linarith), if_pos h, p1, p2]
    · rw [if_neg (by rw [e]; push Not at h ⊢; linarith), if_neg h]

private theorem dot_pos {a : V3 ℝ} (h : a ≠ 0) : 0 < dot3 a a := by
  have h3 : 0 ≤ dot3 a a := by simp only [dot3]; nlinarith [sq_nonneg (a 0), sq_nonneg (a 1), sq_nonneg (a 2)]
  refine lt_of_le_of_ne h3 fun h0 => h ?_
  have e : a 0 * a 0 + a 1 * a 1 + a 2 * a 2 = 0 := h0.symm
  funext j
  fin_cases j <;> simp <;> nlinarith [sq_nonneg (a 0), sq_nonneg (a 1), sq_nonneg (a 2)]

/-- The plain difference `w` of two positions is close enough to the origin for the search to succeed: with one periodic direction, it lies within one and a half
super-lattice vectors; with two, these are at right angles and it lies between minus one half and one super-lattice vector along each. -/
inductive Centred (S : M3 ℝ) : List (Fin 3) → V3 ℝ → Prop
  | isolated (w : V3 ℝ) : Centred S [] w
  | chain (a : Fin 3) (w : V3 ℝ) (lo : -(3 * dot3 (S a) (S a)) ≤ 2 * dot3 w (S a)) (hi : 2 * dot3 w (S a) ≤ 3 * dot3 (S a) (S a)) : Centred S [a] w
  | rectangle (a b : Fin 3) (w : V3 ℝ) (right : dot3 (S a) (S b) = 0)
      (loa : -dot3 (S a) (S a) ≤ 2 * dot3 w (S a)) (hia : dot3 w (S a) ≤ dot3 (S a) (S a))
      (lob : -dot3 (S b) (S b) ≤ 2 * dot3 w (S b)) (hib : dot3 w (S b) ≤ dot3 (S b) (S b)) : Centred S [a, b] w

private theorem chain_end (A P : ℝ) (hA : 0 < A) (lo : -(3 * A) ≤ 2 * P) (hi : 2 * P ≤ 3 * A) :
    InBox A 1 ([((-1 : ℝ), (0 : ℝ)), (0, 0), (1, 0)].foldl (boxStep A 1) (P, 0)) := by
  iterate 3
    all_goals
      refine fold_step A 1 _ _ _ _ _ ?_ ?_
      all_goals
        intro h
        try (exfalso; linarith)
  all_goals
    simp only [List.foldl_nil]
    refine ⟨?_, ?_, ?_, ?_⟩ <;> dsimp only <;> linarith

/-- The separation found projects to within half a super-lattice vector along every periodic direction. -/
private theorem in_half (D : PhononData) (s u : ℕ) (hS : ∀ i ∈ D.pbc, D.superLat i ≠ 0) (hc : Centred D.superLat D.pbc (D.superCart s - D.unitCart u)) :
    ∀ i ∈ D.pbc, -dot3 (D.superLat i) (D.superLat i) ≤ 2 * dot3 (posVector D s u) (D.superLat i) ∧
      2 * dot3 (posVector D s u) (D.superLat i) ≤ dot3 (D.superLat i) (D.superLat i) := by
  unfold posVector
  generalize D.superCart s - D.unitCart u = w at hc
  generalize D.superLat = S at hc hS
  generalize D.pbc = pbc at hc hS
  cases hc with
  | isolated => intro i hi; simp at hi
  | chain a _ lo hi =>
    have hA := dot_pos (hS a (by simp))
    have h1 := chain_end _ _ hA lo hi
    intro i hi'
    simp only [List.mem_singleton] at hi'
    subst hi'
    -- a second direction of length one at right angles is not used: take the zero vector
    have e : ∀ (l : List ℝ) (p : V3 ℝ), dot3 ((l.map fun o => fun c => o * S i c).foldl imageStep p) (S i) =
        ((l.map fun o => (o, (0 : ℝ))).foldl (boxStep (dot3 (S i) (S i)) 1) (dot3 p (S i), 0)).1 ∧
        ((l.map fun o => (o, (0 : ℝ))).foldl (boxStep (dot3 (S i) (S i)) 1) (dot3 p (S i), 0)).2 = 0 := by
      intro l
      induction l with
      | nil => intro p; exact ⟨rfl, rfl⟩
      | cons o l ih =>
        intro p
        simp only [List.map_cons, List.foldl_cons]
        have e1 : dot3 (p + fun c => o * S i c) (p + fun c => o * S i c) = dot3 p p + o * (2 * dot3 p (S i) + o * dot3 (S i) (S i)) := by
          simp only [dot3, Pi.add_apply]; ring
        have e2 : dot3 (p + fun c => o * S i c) (S i) = dot3 p (S i) + o * dot3 (S i) (S i) := by
          simp only [dot3, Pi.add_apply]; ring
        by_cases h : o * (2 * dot3 p (S i) + o * dot3 (S i) (S i)) < 0
        · have s1 : imageStep p (fun c => o * S i c) = p + fun c => o * S i c := if_pos (by rw [e1]; linarith)
          have s2 : boxStep (dot3 (S i) (S i)) 1 (dot3 p (S i), 0) (o, 0) = (dot3 p (S i) + o * dot3 (S i) (S i), 0) := by
            rw [boxStep, if_pos (by simp only [gain]; linarith)]; simp
          rw [s1, s2, ← e2]
          exact ih _
        · have s1 : imageStep p (fun c => o * S i c) = p := if_neg (by rw [e1]; push Not at h ⊢; linarith)
          have s2 : boxStep (dot3 (S i) (S i)) 1 (dot3 p (S i), 0) (o, 0) = (dot3 p (S i), 0) := by
            rw [boxStep, if_neg (by simp only [gain]; push Not at h ⊢; linarith)]
          rw [s1, s2]
          exact ih _
    have e' := (e [-1, 0, 1] w).1
    have eo : offsets S [i] = [(-1 : ℝ), 0, 1].map fun o => fun c => o * S i c := by
      simp [offsets, steps]
    rw [eo, e']
    exact ⟨h1.1, h1.2.1⟩
  | rectangle a b _ right loa hia lob hib =>
    have hA := dot_pos (hS a (by simp))
    have hB := dot_pos (hS b (by simp))
    have h1 := box_end _ _ _ _ hA hB loa hia lob hib
    rw [← fold_proj _ _ right] at h1
    have eo : offsets S [a, b] = [((-1 : ℝ), (-1 : ℝ)), (-1, 0), (-1, 1), (0, -1), (0, 0), (0, 1), (1, -1), (1, 0), (1, 1)].map
        fun o => fun c => o.1 * S a c + o.2 * S b c := by
      simp [offsets, steps]
    rw [← eo] at h1
    obtain ⟨x1, x2, x3, x4⟩ := h1
    intro i hi
    simp only [List.mem_cons, List.not_mem_nil, or_false] at hi
    rcases hi with rfl | rfl
    · exact ⟨x1, x2⟩
    · exact ⟨x3, x4⟩

/-! ### C25 -/

private theorem norm_shift (S : M3 ℝ) (pbc : List (Fin 3)) (horth : ∀ i ∈ pbc, ∀ j ∈ pbc, i ≠ j → dot3 (S i) (S j) = 0) (p : V3 ℝ) (t : Fin 3 → ℤ)
    (ht : ∀ i, i ∉ pbc → t i = 0) :
    dot3 (p + fun j => ∑ i, (t i : ℝ) * S i j) (p + fun j => ∑ i, (t i : ℝ) * S i j) =
      dot3 p p + ∑ i, (t i : ℝ) * (2 * dot3 p (S i) + t i * dot3 (S i) (S i)) := by
  have cross : ∀ i j, i ≠ j → (t i : ℝ) * t j * dot3 (S i) (S j) = 0 := by
    intro i j hij
    by_cases hi : i ∈ pbc
    · by_cases hj : j ∈ pbc
      · rw [horth i hi j hj hij, mul_zero]
      · rw [ht j hj]; simp
    · rw [ht i hi]; simp
  have c01 := cross 0 1 (by decide)
  have c02 := cross 0 2 (by decide)
  have c12 := cross 1 2 (by decide)
  have e : dot3 (p + fun j => ∑ i, (t i : ℝ) * S i j) (p + fun j => ∑ i, (t i : ℝ) * S i j) =
      dot3 p p + ∑ i, (t i : ℝ) * (2 * dot3 p (S i) + t i * dot3 (S i) (S i)) +
        2 * ((t 0 : ℝ) * t 1 * dot3 (S 0) (S 1)) + 2 * ((t 0 : ℝ) * t 2 * dot3 (S 0) (S 2)) + 2 * ((t 1 : ℝ) * t 2 * dot3 (S 1) (S 2)) := by
    simp only [dot3, Fin.sum_univ_three, Pi.add_apply]; ring
  rw [e, c01, c02, c12]; ring

private theorem proj_shift (S : M3 ℝ) (pbc : List (Fin 3)) (horth : ∀ i ∈ pbc, ∀ j ∈ pbc, i ≠ j → dot3 (S i) (S j) = 0) (p : V3 ℝ) (t : Fin 3 → ℤ)
    (ht : ∀ i, i ∉ pbc → t i = 0) (c : Fin 3) (hc : c ∈ pbc) :
    dot3 (p + fun j => ∑ i, (t i : ℝ) * S i j) (S c) = dot3 p (S c) + t c * dot3 (S c) (S c) := by
  have cross : ∀ i, i ≠ c → (t i : ℝ) * dot3 (S i) (S c) = 0 := by
    intro i hic
    by_cases hi : i ∈ pbc
    · rw [horth i hi c hc hic, mul_zero]
    · rw [ht i hi]; simp
  have e : dot3 (p + fun j => ∑ i, (t i : ℝ) * S i j) (S c) = dot3 p (S c) + ∑ i, (t i : ℝ) * dot3 (S i) (S c) := by
    simp only [dot3, Fin.sum_univ_three, Pi.add_apply]; ring
  rw [e, Finset.sum_eq_single c]
  · intro i _ hi; exact cross i hi
  · simp

private theorem centred_orth {S : M3 ℝ} {pbc : List (Fin 3)} {w : V3 ℝ} (h : Centred S pbc w) : ∀ i ∈ pbc, ∀ j ∈ pbc, i ≠ j → dot3 (S i) (S j) = 0 := by
  cases h with
  | isolated => simp
  | chain a _ _ _ =>
    intro i hi j hj hij
    simp only [List.mem_singleton] at hi hj
    exact absurd (hi.trans hj.symm) hij
  | rectangle a b _ right _ _ _ _ =>
    have hc : dot3 (S b) (S a) = 0 := by rw [← right]; simp only [dot3]; ring
    intro i hi j hj hij
    simp only [List.mem_cons, List.not_mem_nil, or_false] at hi hj
    rcases hi with rfl | rfl <;> rcases hj with rfl | rfl
    · exact absurd rfl hij
    · exact right
    · exact hc
    · exact absurd rfl hij

/-- **C25, when the search succeeds**: with no periodic direction, with one, or with two at right angles, if the plain difference of the two positions is
`Centred` (for super cells the program builds see `C98_centred`), then the separation used is the shortest among *all* periodic images - not only the
neighbouring ones that are tried. -/
theorem C25_nearest_of_all (D : PhononData) (s u : ℕ) (hS : ∀ i ∈ D.pbc, D.superLat i ≠ 0) (hc : Centred D.superLat D.pbc (D.superCart s - D.unitCart u)) :
    IsPeriodicShift D.superLat D.pbc (posVector D s u - (D.superCart s - D.unitCart u)) ∧
    ∀ v, IsPeriodicShift D.superLat D.pbc v →
      dot3 (posVector D s u) (posVector D s u) ≤ dot3 (D.superCart s - D.unitCart u + v) (D.superCart s - D.unitCart u + v) := by
  have h1 := (C25_equivalent_not_longer_partial D s u).1
  refine ⟨h1, ?_⟩
  rintro v ⟨t, ht, rfl⟩
  obtain ⟨z, hz, ez⟩ := h1
  have hhalf := in_half D s u hS hc
  have horth := centred_orth hc
  have e : D.superCart s - D.unitCart u + (fun j => ∑ i, (t i : ℝ) * D.superLat i j) =
      posVector D s u + fun j => ∑ i, (((t - z) i : ℤ) : ℝ) * D.superLat i j := by
    funext j
    have := congrFun ez j
    simp only [Pi.sub_apply, Pi.add_apply, Fin.sum_univ_three] at this ⊢
    push_cast
    linarith
  rw [e, norm_shift D.superLat D.pbc horth _ (t - z) (fun i hi => by simp [ht i hi, hz i hi])]
  have hnn : ∀ i, 0 ≤ (((t - z) i : ℤ) : ℝ) * (2 * dot3 (posVector D s u) (D.superLat i) + ((t - z) i : ℤ) * dot3 (D.superLat i) (D.superLat i)) := by
    intro i
    by_cases hi : i ∈ D.pbc
    · obtain ⟨lo, hi'⟩ := hhalf i hi
      have hA := dot_pos (hS i hi)
      generalize (t - z) i = m
      rcases lt_trichotomy m 0 with hm | hm | hm
      · have hm' : (m : ℝ) ≤ -1 := by exact_mod_cast (by omega : m ≤ -1)
        exact mul_nonneg_of_nonpos_of_nonpos (by linarith) (by nlinarith)
      · rw [hm]; simp
      · have hm' : (1 : ℝ) ≤ m := by exact_mod_cast hm
        exact mul_nonneg (by linarith) (by nlinarith)
    · simp [ht i hi, hz i hi]
  have := Finset.sum_nonneg fun i (_ : i ∈ Finset.univ) => hnn i
  linarith

/-- A separation strictly within half a super-lattice vector along every periodic direction is the one found. -/
private theorem unique_image (D : PhononData) (s u : ℕ) (hS : ∀ i ∈ D.pbc, D.superLat i ≠ 0) (hc : Centred D.superLat D.pbc (D.superCart s - D.unitCart u))
    (v : V3 ℝ) (hv : IsPeriodicShift D.superLat D.pbc (v - (D.superCart s - D.unitCart u)))
    (hs : ∀ i ∈ D.pbc, 2 * |dot3 v (D.superLat i)| < dot3 (D.superLat i) (D.superLat i)) : posVector D s u = v := by
  obtain ⟨z, hz, ez⟩ := (C25_equivalent_not_longer_partial D s u).1
  obtain ⟨t, ht, et⟩ := hv
  have hhalf := in_half D s u hS hc
  have horth := centred_orth hc
  have hsub : ∀ i, i ∉ D.pbc → (z - t) i = 0 := fun i hi => by simp [ht i hi, hz i hi]
  have e : posVector D s u = v + fun j => ∑ i, (((z - t) i : ℤ) : ℝ) * D.superLat i j := by
    funext j
    have h1 := congrFun ez j
    have h2 := congrFun et j
    simp only [Pi.sub_apply, Pi.add_apply, Fin.sum_univ_three] at h1 h2 ⊢
    push_cast
    linarith
  have hzero : ∀ i, (z - t) i = 0 := by
    intro i
    by_cases hi : i ∈ D.pbc
    · obtain ⟨lo, hi'⟩ := hhalf i hi
      have hA := dot_pos (hS i hi)
      rw [e, proj_shift D.superLat D.pbc horth v _ hsub i hi] at lo hi'
      have h1 := hs i hi
      have h2 := abs_lt.1 (show |dot3 v (D.superLat i)| < dot3 (D.superLat i) (D.superLat i) / 2 by linarith)
      generalize (z - t) i = m at *
      rcases lt_trichotomy m 0 with hm | hm | hm
      · have hm' : (m : ℝ) ≤ -1 := by exact_mod_cast (by omega : m ≤ -1)
        nlinarith
      · exact hm
      · have hm' : (1 : ℝ) ≤ m := by exact_mod_cast hm
        nlinarith
    · exact hsub i hi
  rw [e]
  funext j
  simp [hzero]

/-! ### C98 -/

/-- Where the image search is reliable: at least one direction is not periodic, the periodic directions are at right angles, with two of them the super cell is
at least two cells wide along both, and the selected atoms of the unit cell lie within one cell of each other along every periodic direction. -/
structure Reliable (u : Cell ℝ) (sel : List ℕ) (n p : Fin 3 → ℤ) : Prop where
  open' : ∃ i, p i = 0
  right : ∀ i j, i ≠ j → p i ≠ 0 → p j ≠ 0 → dot3 (u.lattice i) (u.lattice j) = 0
  wide : ∀ i j, i ≠ j → p i ≠ 0 → p j ≠ 0 → 2 ≤ n i
  near : ∀ a ∈ sel, ∀ b ∈ sel, ∀ i, p i ≠ 0 → |dot3 (u.cart.getD a 0 - u.cart.getD b 0) (u.lattice i)| ≤ dot3 (u.lattice i) (u.lattice i)

/-- Every spring between selected atoms stays within the periodic directions and reaches less than half of the super cell along each of them. -/
def ShortSprings (u : Cell ℝ) (sel : List ℕ) (n p : Fin 3 → ℤ) (Φ : Springs) : Prop :=
  ∀ a ∈ sel, ∀ b ∈ sel, ∀ x y l, l ∈ (Φ a x b y).support → (∀ i, p i = 0 → l i = 0) ∧
    ∀ i, p i ≠ 0 → 2 * |dot3 (u.cart.getD a 0 + latVec u.lattice l - u.cart.getD b 0) (u.lattice i)| < n i * dot3 (u.lattice i) (u.lattice i)

/-- Copy `k` lies in a cell of the super cell. -/
theorem cellOf_range {n : Fin 3 → ℤ} (hn : ∀ i, 0 < n i) {k : ℕ} (hk : k < (n 0 * n 1 * n 2).toNat) (i : Fin 3) : 0 ≤ cellOf n k i ∧ cellOf n k i < n i := by
  have h0 := hn 0
  have h1 := hn 1
  have h2 := hn 2
  have hpos : 0 < n 0 * n 1 * n 2 := by positivity
  have hE3 : (n 0 * n 1 * n 2).toNat = (n 0).toNat * (n 1).toNat * (n 2).toNat := by
    zify
    rw [Int.toNat_of_nonneg hpos.le, Int.toNat_of_nonneg h0.le, Int.toNat_of_nonneg h1.le, Int.toNat_of_nonneg h2.le]
  have hb : 0 < (n 1).toNat := by omega
  have hc : 0 < (n 2).toNat := by omega
  have hx : k / (n 2).toNat / (n 1).toNat < (n 0).toNat := by
    rw [Nat.div_div_eq_div_mul, Nat.div_lt_iff_lt_mul (by positivity)]
    calc k < _ := hk
      _ = _ := by rw [hE3]; ring
  have hy := Nat.mod_lt (k / (n 2).toNat) hb
  have hz := Nat.mod_lt k hc
  have e0 : cellOf n k 0 = ((k / (n 2).toNat / (n 1).toNat : ℕ) : ℤ) := rfl
  have e1 : cellOf n k 1 = ((k / (n 2).toNat % (n 1).toNat : ℕ) : ℤ) := rfl
  have e2 : cellOf n k 2 = ((k % (n 2).toNat : ℕ) : ℤ) := rfl
  fin_cases i
  · show 0 ≤ cellOf n k 0 ∧ cellOf n k 0 < n 0
    rw [e0]
    have := Int.ofNat_lt.2 hx
    rw [Int.toNat_of_nonneg h0.le] at this
    exact ⟨Int.natCast_nonneg _, this⟩
  · show 0 ≤ cellOf n k 1 ∧ cellOf n k 1 < n 1
    rw [e1]
    have := Int.ofNat_lt.2 hy
    rw [Int.toNat_of_nonneg h1.le] at this
    exact ⟨Int.natCast_nonneg _, this⟩
  · show 0 ≤ cellOf n k 2 ∧ cellOf n k 2 < n 2
    rw [e2]
    have := Int.ofNat_lt.2 hz
    rw [Int.toNat_of_nonneg h2.le] at this
    exact ⟨Int.natCast_nonneg _, this⟩

/-- In every super cell the program builds for a `Reliable` system, the plain differences are `Centred`. -/
theorem C98_centred {junk : ℕ → List (V3 ℝ)} {u s s' : Cell ℝ} {n p : Fin 3 → ℤ} (h : GoodCall junk u n p)
    (sel : List ℕ) (hsel : u.atomTrue = some sel) (hlt : ∀ t ∈ sel, t < u.cart.length)
    (hs : setSuperCell junk u n p = .ok s) (hs' : setSuperIndTrue s u n p = .ok s') (hR : Reliable u sel n p) (hdet : u.lattice.det ≠ 0)
    (hxyz : u.xyzTrue = some (sel.flatMap fun a => [a, a, a])) (fc : FC ℝ) (mass : ℕ → ℝ)
    (a b k : ℕ) (ha : a ∈ sel) (hb : b ∈ sel) (hk : k < (n 0 * n 1 * n 2).toNat) :
    Centred (ofCells u s' n p fc mass).superLat (ofCells u s' n p fc mass).pbc
      ((ofCells u s' n p fc mass).superCart (a * (n 0 * n 1 * n 2).toNat + k) - (ofCells u s' n p fc mass).unitCart b) := by
  obtain ⟨-, hgg⟩ := phonon_data_reachable h hdet sel hsel hxyz hs hs' fc mass
  have hs'cart : s'.cart = s.cart := by
    unfold setSuperIndTrue at hs'
    simp only [hsel] at hs'
    cases hs'
    rfl
  have hw : (ofCells u s' n p fc mass).superCart (a * (n 0 * n 1 * n 2).toNat + k) - (ofCells u s' n p fc mass).unitCart b =
      u.cart.getD a 0 + latVec u.lattice (cellOf n k) - u.cart.getD b 0 := by
    show s'.cart.getD _ 0 - _ = _
    rw [hs'cart, C97_copy_position h hs a k (hlt a ha) hk]
    rfl
  rw [hw, hgg.lat]
  have hpbc : (ofCells u s' n p fc mass).pbc = (List.finRange 3).filter fun i => p i ≠ 0 := rfl
  rw [hpbc]
  clear hgg hw hpbc
  set w := u.cart.getD a 0 + latVec u.lattice (cellOf n k) - u.cart.getD b 0 with hwdef
  have hSS : ∀ i j, dot3 (fun c => u.lattice i c * (n i : ℝ)) (fun c => u.lattice j c * (n j : ℝ)) = n i * n j * dot3 (u.lattice i) (u.lattice j) := by
    intro i j; simp only [dot3]; ring
  have hcell : ∀ i, p i = 0 → cellOf n k i = 0 := by
    intro i hi
    have := cellOf_range h.pos hk i
    rw [h.cons i hi] at this
    omega
  have hproj : ∀ i, p i ≠ 0 → dot3 w (fun c => u.lattice i c * (n i : ℝ)) =
      n i * (dot3 (u.cart.getD a 0 - u.cart.getD b 0) (u.lattice i) + cellOf n k i * dot3 (u.lattice i) (u.lattice i)) := by
    intro i hi
    have e : dot3 w (fun c => u.lattice i c * (n i : ℝ)) =
        n i * (dot3 (u.cart.getD a 0 - u.cart.getD b 0) (u.lattice i) + ∑ c, (cellOf n k c : ℝ) * dot3 (u.lattice c) (u.lattice i)) := by
      simp only [hwdef, dot3, latVec, Fin.sum_univ_three, Pi.add_apply, Pi.sub_apply]; ring
    rw [e, Finset.sum_eq_single i]
    · intro c _ hc
      by_cases hpc : p c = 0
      · rw [hcell c hpc]; simp
      · rw [hR.right c i hc hpc hi, mul_zero]
    · simp
  have hbase : ∀ i, p i ≠ 0 → 0 ≤ dot3 (u.lattice i) (u.lattice i) ∧
      -(2 * n i * dot3 (u.lattice i) (u.lattice i)) ≤ 2 * dot3 w (fun c => u.lattice i c * (n i : ℝ)) ∧
      dot3 w (fun c => u.lattice i c * (n i : ℝ)) ≤ n i * n i * dot3 (u.lattice i) (u.lattice i) ∧ (1 : ℝ) ≤ n i := by
    intro i hi
    have hl : 0 ≤ dot3 (u.lattice i) (u.lattice i) := by
      simp only [dot3]; nlinarith [sq_nonneg (u.lattice i 0), sq_nonneg (u.lattice i 1), sq_nonneg (u.lattice i 2)]
    obtain ⟨n1, n2⟩ := abs_le.1 (hR.near a ha b hb i hi)
    obtain ⟨c1, c2⟩ := cellOf_range h.pos hk i
    have c1' : (0 : ℝ) ≤ cellOf n k i := by exact_mod_cast c1
    have c2' : (cellOf n k i : ℝ) + 1 ≤ n i := by exact_mod_cast c2
    have hn1 : (1 : ℝ) ≤ n i := by exact_mod_cast h.pos i
    rw [hproj i hi]
    generalize dot3 (u.lattice i) (u.lattice i) = lam at *
    generalize dot3 (u.cart.getD a 0 - u.cart.getD b 0) (u.lattice i) = del at *
    have m1 := mul_nonneg c1' hl
    have m2 := mul_le_mul_of_nonneg_right c2' hl
    have e1 : -lam ≤ del + cellOf n k i * lam := by linarith
    have e2 : del + cellOf n k i * lam ≤ n i * lam := by linarith
    have f1 := mul_le_mul_of_nonneg_left e1 (by linarith : (0 : ℝ) ≤ n i)
    have f2 := mul_le_mul_of_nonneg_left e2 (by linarith : (0 : ℝ) ≤ n i)
    exact ⟨hl, by linarith, by linarith, hn1⟩
  have mkChain : ∀ i, p i ≠ 0 → Centred (fun i j => u.lattice i j * (n i : ℝ)) [i] w := by
    intro i hi
    obtain ⟨hl, b1, b2, b3⟩ := hbase i hi
    have hsq : n i * dot3 (u.lattice i) (u.lattice i) ≤ n i * (n i * dot3 (u.lattice i) (u.lattice i)) := by
      have := mul_nonneg (by linarith : (0 : ℝ) ≤ n i) hl
      nlinarith
    have h0 : 0 ≤ n i * dot3 (u.lattice i) (u.lattice i) := mul_nonneg (by linarith) hl
    refine .chain i w ?_ ?_
    · show -(3 * dot3 (fun c => u.lattice i c * (n i : ℝ)) (fun c => u.lattice i c * (n i : ℝ))) ≤ _
      rw [hSS]; refine le_trans ?_ b1; linarith
    · show _ ≤ 3 * dot3 (fun c => u.lattice i c * (n i : ℝ)) (fun c => u.lattice i c * (n i : ℝ))
      rw [hSS]
      have : 2 * dot3 w (fun c => u.lattice i c * (n i : ℝ)) ≤ 3 * (n i * n i * dot3 (u.lattice i) (u.lattice i)) := by linarith
      exact this
  have mkRect : ∀ i j, i ≠ j → p i ≠ 0 → p j ≠ 0 → Centred (fun i j => u.lattice i j * (n i : ℝ)) [i, j] w := by
    intro i j hij hi hj
    have side : ∀ i, p i ≠ 0 → (2 : ℝ) ≤ n i → -dot3 (fun c => u.lattice i c * (n i : ℝ)) (fun c => u.lattice i c * (n i : ℝ)) ≤ 2 * dot3 w (fun c => u.lattice i c * (n i : ℝ)) ∧
        dot3 w (fun c => u.lattice i c * (n i : ℝ)) ≤ dot3 (fun c => u.lattice i c * (n i : ℝ)) (fun c => u.lattice i c * (n i : ℝ)) := by
      intro i hi h2
      obtain ⟨hl, b1, b2, b3⟩ := hbase i hi
      rw [hSS]
      have h0 : 0 ≤ n i * dot3 (u.lattice i) (u.lattice i) := mul_nonneg (by linarith) hl
      have := mul_le_mul_of_nonneg_right h2 h0
      exact ⟨by linarith, b2⟩
    have hwi : (2 : ℝ) ≤ n i := by exact_mod_cast hR.wide i j hij hi hj
    have hwj : (2 : ℝ) ≤ n j := by exact_mod_cast hR.wide j i hij.symm hj hi
    refine .rectangle i j w ?_ (side i hi hwi).1 (side i hi hwi).2 (side j hj hwj).1 (side j hj hwj).2
    show dot3 (fun c => u.lattice i c * (n i : ℝ)) (fun c => u.lattice j c * (n j : ℝ)) = 0
    rw [hSS, hR.right i j hij hi hj, mul_zero]
  obtain ⟨i0, hi0⟩ := hR.open'
  have hfr : (List.finRange 3) = [0, 1, 2] := rfl
  rw [hfr]
  by_cases h0 : p 0 = 0 <;> by_cases h1 : p 1 = 0 <;> by_cases h2 : p 2 = 0
  · simp only [List.filter, h0, h1, h2, ne_eq, not_true, decide_false]; exact .isolated w
  · simp only [List.filter, h0, h1, h2, ne_eq, not_true, decide_false, not_false_eq_true, decide_true]; exact mkChain 2 h2
  · simp only [List.filter, h0, h1, h2, ne_eq, not_true, decide_false, not_false_eq_true, decide_true]; exact mkChain 1 h1
  · simp only [List.filter, h0, h1, h2, ne_eq, not_true, decide_false, not_false_eq_true, decide_true]; exact mkRect 1 2 (by decide) h1 h2
  · simp only [List.filter, h0, h1, h2, ne_eq, not_true, decide_false, not_false_eq_true, decide_true]; exact mkChain 0 h0
  · simp only [List.filter, h0, h1, h2, ne_eq, not_true, decide_false, not_false_eq_true, decide_true]; exact mkRect 0 2 (by decide) h0 h2
  · simp only [List.filter, h0, h1, h2, ne_eq, not_true, decide_false, not_false_eq_true, decide_true]; exact mkRect 0 1 (by decide) h0 h1
  · fin_cases i0 <;> contradiction

/-- **C98, the separations**: in a `Reliable` system, the separation the program uses for a pair of atoms tied by a short spring is the vector along that spring. -/
theorem C98_spring_image {junk : ℕ → List (V3 ℝ)} {u s s' : Cell ℝ} {n p : Fin 3 → ℤ} (h : GoodCall junk u n p)
    (sel : List ℕ) (hsel : u.atomTrue = some sel) (hlt : ∀ t ∈ sel, t < u.cart.length)
    (hs : setSuperCell junk u n p = .ok s) (hs' : setSuperIndTrue s u n p = .ok s') (hR : Reliable u sel n p) (hdet : u.lattice.det ≠ 0)
    (hxyz : u.xyzTrue = some (sel.flatMap fun a => [a, a, a])) (fc : FC ℝ) (mass : ℕ → ℝ) (Φ : Springs) (hΦ : ShortSprings u sel n p Φ)
    (a b k : ℕ) (ha : a ∈ sel) (hb : b ∈ sel) (hk : k < (n 0 * n 1 * n 2).toNat) (x y : Fin 3) (l : Fin 3 → ℤ) (hl : l ∈ (Φ a x b y).support)
    (hd : ∀ i, n i ∣ l i - cellOf n k i) :
    posVector (ofCells u s' n p fc mass) (a * (n 0 * n 1 * n 2).toNat + k) b = u.cart.getD a 0 + latVec u.lattice l - u.cart.getD b 0 := by
  obtain ⟨-, hgg⟩ := phonon_data_reachable h hdet sel hsel hxyz hs hs' fc mass
  have hc := C98_centred h sel hsel hlt hs hs' hR hdet hxyz fc mass a b k ha hb hk
  obtain ⟨h1, h2⟩ := hΦ a ha b hb x y l hl
  have hs'cart : s'.cart = s.cart := by
    unfold setSuperIndTrue at hs'
    simp only [hsel] at hs'
    cases hs'
    rfl
  have hw : (ofCells u s' n p fc mass).superCart (a * (n 0 * n 1 * n 2).toNat + k) - (ofCells u s' n p fc mass).unitCart b =
      u.cart.getD a 0 + latVec u.lattice (cellOf n k) - u.cart.getD b 0 := by
    show s'.cart.getD _ 0 - _ = _
    rw [hs'cart, C97_copy_position h hs a k (hlt a ha) hk]
    rfl
  have hmem : ∀ i, i ∈ (ofCells u s' n p fc mass).pbc ↔ p i ≠ 0 := by
    intro i
    show i ∈ (List.finRange 3).filter (fun i => p i ≠ 0) ↔ _
    simp
  have hSi : ∀ i, (ofCells u s' n p fc mass).superLat i = fun j => u.lattice i j * (n i : ℝ) := fun i => congrFun hgg.lat i
  have hrow : ∀ i, u.lattice i ≠ 0 := by
    intro i hi
    exact hdet (Matrix.det_eq_zero_of_row_eq_zero i fun j => congrFun hi j)
  have hn0 : ∀ i, (n i : ℝ) ≠ 0 := fun i => by exact_mod_cast (h.pos i).ne'
  refine unique_image _ _ _ ?_ hc _ ?_ ?_
  · intro i _ h0
    rw [hSi] at h0
    apply hrow i
    funext j
    have := congrFun h0 j
    exact (mul_eq_zero.1 this).resolve_right (hn0 i)
  · rw [hw]
    choose z hz using hd
    refine ⟨z, ?_, ?_⟩
    · intro i hi
      have hpi : p i = 0 := by by_contra hne; exact hi ((hmem i).2 hne)
      have hcr := cellOf_range h.pos hk i
      have e := hz i
      rw [h.cons i hpi] at hcr e
      rw [h1 i hpi] at e
      omega
    · funext j
      have e : ∀ i, (l i : ℝ) = cellOf n k i + n i * z i := by
        intro i
        have := hz i
        have h3 : l i = cellOf n k i + n i * z i := by omega
        exact_mod_cast h3
      simp only [Pi.sub_apply, Pi.add_apply, latVec, Fin.sum_univ_three, hSi]
      rw [e 0, e 1, e 2]
      ring
  · intro i hi
    have h3 := h2 i ((hmem i).1 hi)
    have hnp : (0 : ℝ) < n i := by exact_mod_cast h.pos i
    rw [hSi]
    have e1 : ∀ v : V3 ℝ, dot3 v (fun j => u.lattice i j * (n i : ℝ)) = dot3 v (u.lattice i) * n i := by
      intro v; simp only [dot3]; ring
    have e2 : dot3 (fun j => u.lattice i j * (n i : ℝ)) (fun j => u.lattice i j * (n i : ℝ)) = n i * dot3 (u.lattice i) (u.lattice i) * n i := by
      simp only [dot3]; ring
    rw [e1, e2, abs_mul, abs_of_pos hnp, ← mul_assoc]
    exact mul_lt_mul_of_pos_right h3 hnp

/-- **C98.**  For a `Reliable` system (isolated, one periodic direction, or two at right angles) and an infinite harmonic crystal whose springs reach less than
half of the super cell: the force constants are computed without an exception from the forces of that crystal, and at *every* wave vector - fitting into the super
cell or not - the dynamical matrix of the post-process is exactly the one of the infinite crystal. -/
theorem C98_exact_everywhere {junk : ℕ → List (V3 ℝ)} {u s s' : Cell ℝ} {n p : Fin 3 → ℤ} (h : GoodCall junk u n p)
    (hdet : u.lattice.det ≠ 0) (sel : List ℕ) (hsel : u.atomTrue = some sel) (hlt : ∀ t ∈ sel, t < u.cart.length)
    (hxyz : u.xyzTrue = some (sel.flatMap fun a => [a, a, a]))
    (hs : setSuperCell junk u n p = .ok s) (hs' : setSuperIndTrue s u n p = .ok s') (hR : Reliable u sel n p)
    (Φ : Springs) (hΦ : ShortSprings u sel n p Φ)
    (d : ℝ) (hd : d ≠ 0) (F0 : Rows ℝ) (junkF : FC ℝ) (search : Run (List (ℕ × List (V3 ℝ)))) (mass : ℕ → ℝ) :
    ∃ s'' files fc, writeDisplaceCell s' sel (n 0 * n 1 * n 2).toNat d p false search = .ok (s'', files) ∧
      setPlain d sel.length junkF (files.map fun f => harmonicForces (superSprings n (n 0 * n 1 * n 2).toNat Φ) F0 s' f.2) = .ok fc ∧
      ∀ k : V3 ℝ, ∀ m ≤ 3 * sel.length,
        (Matrix.of fun (r c : Fin m) => dynMatrix (ofCells u s' n p fc mass) k r c) =
          trueDyn u sel mass Φ (qVec (ofCells u s' n p fc mass) k) m := by
  have h0 := h.pos 0
  have h1 := h.pos 1
  have h2 := h.pos 2
  have hpos : 0 < n 0 * n 1 * n 2 := by positivity
  have hs'cart : s'.cart = s.cart := by
    unfold setSuperIndTrue at hs'
    simp only [hsel] at hs'
    cases hs'
    rfl
  obtain ⟨s0, hs0, hlen, -⟩ := C06_supercell_positions h
  rw [hs] at hs0; cases hs0
  set E := (n 0 * n 1 * n 2).toNat with hEdef
  have hE0 : 0 < E := by omega
  have hsel' : ∀ t ∈ sel, E * t < s'.cart.length := by
    intro t ht
    rw [hs'cart, hlen]
    exact Nat.mul_lt_mul_of_pos_left (hlt t ht) hE0
  obtain ⟨s'', files, hw, -, -⟩ := C15_displaced_files s' sel E d p false search (Or.inl rfl) hsel'
  obtain ⟨fc, hfc, hent⟩ := C19_harmonic_exact s' sel E d hd p search hsel' (superSprings n E Φ) F0 junkF s'' files hw
  refine ⟨s'', files, fc, hw, hfc, ?_⟩
  intro k m hm
  obtain ⟨hgs, hgg⟩ := phonon_data_reachable h hdet sel hsel hxyz hs hs' fc mass
  have hDE : (ofCells u s' n p fc mass).E = E := by
    simp only [ofCells]; rw [SuperCell.enlarge_eq n p h.cons]
  have himg := C98_spring_image h sel hsel hlt hs hs' hR hdet hxyz fc mass Φ hΦ
  set D := ofCells u s' n p fc mass with hD
  ext r c
  have hr3 : (r : ℕ) / 3 < sel.length := by have := r.2; omega
  have hc3 : (c : ℕ) / 3 < sel.length := by have := c.2; omega
  have er : (r : ℕ) = 3 * (r / 3) + (comp r : ℕ) := by simp only [comp]; omega
  have ec : (c : ℕ) = 3 * (c / 3) + (comp c : ℕ) := by simp only [comp]; omega
  set a := sel.getD ((r : ℕ) / 3) 0 with ha
  set b := sel.getD ((c : ℕ) / 3) 0 with hb
  have hamem : a ∈ sel := by
    rw [ha, List.getD_eq_getElem _ _ hr3]; exact List.getElem_mem _
  have hbget : sel[(c : ℕ) / 3]? = some b := by
    rw [hb, List.getD_eq_getElem _ _ hc3]; exact List.getElem?_eq_getElem hc3
  have hbmem : b ∈ sel := by
    rw [hb, List.getD_eq_getElem _ _ hc3]; exact List.getElem_mem _
  rw [Matrix.of_apply, trueDyn, Matrix.of_apply]
  have hC := dynRaw_entry D sel hgs (qVec D k) ((r : ℕ) / 3) ((c : ℕ) / 3) (comp r) (comp c) hr3 hc3
  rw [← er, ← ec, hDE] at hC
  rw [dynMatrix, hC]
  congr 1
  rw [← regroup n h.pos (Φ a (comp r) b (comp c))
    (fun k' => exp (I * (dot3 (qVec D k) (posVector D (a * E + k') b) : ℝ)))]
  · refine Finset.sum_congr rfl fun i hi => ?_
    have hi' : i < E := Finset.mem_range.1 hi
    congr 2
    have e : (c : ℕ) = 3 * ((c : ℕ) / 3) + (comp c : ℕ) := ec
    rw [← ha]
    conv_lhs => rw [e]
    refine (hent (a * E + i) ((c : ℕ) / 3) b (comp r) (comp c) hbget).trans ?_
    simp only [superSprings]
    rw [Nat.mul_comm a E, Nat.mul_add_div hE0, Nat.div_eq_of_lt hi', Nat.add_zero, Nat.mul_add_mod, Nat.mod_eq_of_lt hi',
      Nat.mul_div_cancel_left _ hE0, Nat.mul_mod_right]
    have hz : ∀ j, cellOf n 0 j = 0 := by
      intro j; fin_cases j <;> simp [cellOf]
    simp only [hz, sub_zero]
  · intro l hl k' hk' hdvd
    rw [himg a b k' hamem hbmem hk' (comp r) (comp c) l hl hdvd]

/-- **C98, the whole calculation**: under the same conditions, on a new post-process object the calls `set_reciprocal_lattice`, `set_force_constant`, `set_k_points`
(with any accepted file listing at least one wave vector) and `eval_phonon` do not raise, and every stored row is the ascending list of the signed frequencies of
the infinite crystal - at every wave vector of a band path or a mesh, not only at those that fit into the super cell. -/
theorem C98_exact_frequencies_everywhere {junk : ℕ → List (V3 ℝ)} {u s s' : Cell ℝ} {n p : Fin 3 → ℤ} (h : GoodCall junk u n p)
    (hdet : u.lattice.det ≠ 0) (sel : List ℕ) (hsel : u.atomTrue = some sel) (hlt : ∀ t ∈ sel, t < u.cart.length)
    (hxyz : u.xyzTrue = some (sel.flatMap fun a => [a, a, a]))
    (hs : setSuperCell junk u n p = .ok s) (hs' : setSuperIndTrue s u n p = .ok s') (hR : Reliable u sel n p)
    (Φ : Springs) (hΦ : ShortSprings u sel n p Φ)
    (d : ℝ) (hd : d ≠ 0) (F0 : Rows ℝ) (search : Run (List (ℕ × List (V3 ℝ)))) (mass : ℕ → ℝ) {S : Solver} (hS : IsSolver S)
    (junkR : M3 ℝ) (junkF left : FC ℝ) (jc : ℕ → Rows ℝ) (lines : List Str) (ks : List (V3 ℚ)) (auto : List ℤ)
    (hk : KPoints.setKPoints lines (fun c => decide (p c ≠ 0)) = .ok (ks, auto)) (hne : ks ≠ []) :
    ∃ s'' files, writeDisplaceCell s' sel (n 0 * n 1 * n 2).toNat d p false search = .ok (s'', files) ∧
      let forces := files.map fun f => harmonicForces (superSprings n (n 0 * n 1 * n 2).toNat Φ) F0 s' f.2
      let o := PostProcess.run S (PostProcess.new u s' n p d mass junkR junkF) [.reciprocal, .force left jc false forces, .kPoints (some lines)]
      (step S o .eval).2 = none ∧ (step S o .eval).1.kPoints = ks ∧ (step S o .eval).1.wq.length = ks.length ∧
      ∀ (i : ℕ) (k : V3 ℚ), ks[i]? = some k → ∃ row, (step S o .eval).1.wq[i]? = some row ∧
        IsSpectrum (trueDyn u sel mass Φ (qVec (PostProcess.data o) (toReal k)) (3 * sel.length)) row := by
  obtain ⟨s'', files, fc, hw, hfc, hmat⟩ := C98_exact_everywhere h hdet sel hsel hlt hxyz hs hs' hR Φ hΦ d hd F0 junkF search mass
  refine ⟨s'', files, hw, ?_⟩
  intro forces o
  obtain ⟨r1, r2, r3, r4⟩ := spectrum_of_matrix sel hsel hxyz Φ d mass hS junkR junkF left jc lines ks auto hk hne forces fc hfc (fun _ => True)
    fun k _ => hmat k _ le_rfl
  exact ⟨r1, r2, r3, fun i k hi => r4 i k hi trivial⟩

/-! ### Non-vacuity -/

/-- The chain of `C97` with a super cell of three atoms. -/
example : Reliable chainCell [0] ![3, 1, 1] ![1, 0, 0] where
  open' := ⟨1, rfl⟩
  right := by
    intro i j hij hi hj
    fin_cases i <;> fin_cases j <;> simp_all
  wide := by
    intro i j hij hi hj
    fin_cases i <;> fin_cases j <;> simp_all
  near := by
    intro a ha b hb i hi
    simp only [List.mem_singleton] at ha hb
    subst ha; subst hb
    have : dot3 (chainCell.cart.getD 0 0 - chainCell.cart.getD 0 0) (chainCell.lattice i) = 0 := by simp [dot3]
    rw [this, abs_zero]
    simp only [dot3]
    nlinarith [sq_nonneg (chainCell.lattice i 0), sq_nonneg (chainCell.lattice i 1), sq_nonneg (chainCell.lattice i 2)]

example : ShortSprings chainCell [0] ![3, 1, 1] ![1, 0, 0] chainSprings := by
  intro a ha b hb x y l hl
  simp only [List.mem_singleton] at ha hb
  subst ha; subst hb
  have h3 : l = 0 ∨ l = ![1, 0, 0] ∨ l = ![-1, 0, 0] := by
    by_contra hc
    push Not at hc
    apply Finsupp.mem_support_iff.1 hl
    unfold chainSprings
    split_ifs
    · simp [Finsupp.single_apply, hc.1.symm, hc.2.1.symm, hc.2.2.symm]
    · rfl
  constructor
  · intro i hi
    rcases h3 with rfl | rfl | rfl <;> fin_cases i <;> simp at hi ⊢
  · intro i hi
    fin_cases i
    · rcases h3 with rfl | rfl | rfl <;> simp [dot3, latVec, chainCell, Fin.sum_univ_three] <;> norm_num
    · simp at hi
    · simp at hi

/-- Two periodic directions: a square lattice with a second atom in the middle, super cell of 2 x 3 cells. -/
def centredSquare : Cell ℝ where
  lattice := !![4, 0, 0; 0, 4, 0; 0, 0, 9]
  atomType := ["C".toList, "C".toList]
  numAtom := [2]
  selective := true
  coordinate := .cartesian
  cart := [0, ![2, 2, 1]]
  atomTrue := some [0, 1]
  xyzTrue := some [0, 0, 0, 1, 1, 1]

example : Reliable centredSquare [0, 1] ![2, 3, 1] ![1, 1, 0] where
  open' := ⟨2, rfl⟩
  right := by intro i j hij _ _; fin_cases i <;> fin_cases j <;> simp [dot3, centredSquare] at hij ⊢
  wide := by
    intro i j hij hi hj
    fin_cases i <;> simp_all
  near := by
    intro a ha b hb i hi
    simp only [List.mem_cons, List.not_mem_nil, or_false] at ha hb
    rcases ha with rfl | rfl <;> rcases hb with rfl | rfl <;> fin_cases i <;> simp [dot3, centredSquare] <;> norm_num at hi ⊢

/-- Springs of strength 1 along the four diagonals from an atom at a corner to the atoms in the middle of the adjacent cells. -/
def squareSprings : Springs := fun a x b y => if a = 1 ∧ b = 0 ∧ x = y then
  Finsupp.single 0 (-1) + (Finsupp.single ![-1, 0, 0] (-1) + (Finsupp.single ![0, -1, 0] (-1) + Finsupp.single ![-1, -1, 0] (-1))) else 0

example : ShortSprings centredSquare [0, 1] ![2, 3, 1] ![1, 1, 0] squareSprings := by
  intro a ha b hb x y l hl
  unfold squareSprings at hl
  by_cases hab : a = 1 ∧ b = 0 ∧ x = y
  · rw [if_pos hab] at hl
    obtain ⟨rfl, rfl, -⟩ := hab
    have h3 : l = 0 ∨ l = ![-1, 0, 0] ∨ l = ![0, -1, 0] ∨ l = ![-1, -1, 0] := by
      by_contra hc
      push Not at hc
      apply Finsupp.mem_support_iff.1 hl
      simp [Finsupp.single_apply, hc.1.symm, hc.2.1.symm, hc.2.2.1.symm, hc.2.2.2.symm]
    constructor
    · intro i hi
      rcases h3 with rfl | rfl | rfl | rfl <;> fin_cases i <;> simp at hi ⊢
    · intro i hi
      have hv : ∀ l : Fin 3 → ℤ, latVec centredSquare.lattice l = ![4 * (l 0 : ℝ), 4 * (l 1 : ℝ), 9 * (l 2 : ℝ)] := by
        intro l; funext j; fin_cases j <;> simp [latVec, centredSquare, Fin.sum_univ_three, mul_comm]
      rw [hv]
      rcases h3 with rfl | rfl | rfl | rfl <;> fin_cases i <;> simp [dot3, centredSquare] at hi ⊢ <;> norm_num [abs_of_pos, abs_of_neg]
  · rw [if_neg hab] at hl
    simp at hl

/-! ### Three periodic directions: false even in a cubic crystal -/

/-- The claim of `C98_exact_everywhere` for any number of periodic directions at right angles. -/
def C98_full : Prop := ∀ (junk : ℕ → List (V3 ℝ)) (u s s' : Cell ℝ) (n p : Fin 3 → ℤ) (sel : List ℕ) (Φ : Springs) (mass : ℕ → ℝ),
  GoodCall junk u n p → u.lattice.det ≠ 0 → u.atomTrue = some sel → (∀ t ∈ sel, t < u.cart.length) →
  u.xyzTrue = some (sel.flatMap fun a => [a, a, a]) → setSuperCell junk u n p = .ok s → setSuperIndTrue s u n p = .ok s' →
  (∀ i j, i ≠ j → p i ≠ 0 → p j ≠ 0 → dot3 (u.lattice i) (u.lattice j) = 0) → (∀ i j, i ≠ j → p i ≠ 0 → p j ≠ 0 → 2 ≤ n i) →
  (∀ a ∈ sel, ∀ b ∈ sel, ∀ i, p i ≠ 0 → |dot3 (u.cart.getD a 0 - u.cart.getD b 0) (u.lattice i)| ≤ dot3 (u.lattice i) (u.lattice i)) →
  ShortSprings u sel n p Φ →
  ∀ (d : ℝ), d ≠ 0 → ∀ (F0 : Rows ℝ) (junkF : FC ℝ) (search : Run (List (ℕ × List (V3 ℝ)))),
    ∃ s'' files fc, writeDisplaceCell s' sel (n 0 * n 1 * n 2).toNat d p false search = .ok (s'', files) ∧
      setPlain d sel.length junkF (files.map fun f => harmonicForces (superSprings n (n 0 * n 1 * n 2).toNat Φ) F0 s' f.2) = .ok fc ∧
      ∀ k : V3 ℝ, ∀ m ≤ 3 * sel.length,
        (Matrix.of fun (r c : Fin m) => dynMatrix (ofCells u s' n p fc mass) k r c) =
          trueDyn u sel mass Φ (qVec (ofCells u s' n p fc mass) k) m

/-- A cubic crystal (lattice constant 4) with two atoms per cell, at the origin and at (1/2, 3/4, 3/4). -/
def cubicCell : Cell ℝ where
  lattice := !![4, 0, 0; 0, 4, 0; 0, 0, 4]
  atomType := ["C".toList, "C".toList]
  numAtom := [2]
  selective := true
  coordinate := .cartesian
  cart := [0, ![2, 3, 3]]
  atomTrue := some [0, 1]
  xyzTrue := some [0, 0, 0, 1, 1, 1]

/-- One spring: from the atom at (2, 3, 3) of the cell below to the atom at the origin. -/
def cubicSpring : Springs := fun a _ b _ => if a = 1 ∧ b = 0 then Finsupp.single ![0, 0, -1] 1 else 0

set_option linter.unnecessarySeqFocus false
set_option linter.unreachableTactic false
set_option linter.unusedTactic false

/-- The pair at (2, 3, 7) in the 8 x 8 x 8 super cell: the search ends at (2, -5, -1), although (2, 3, -1) is a periodic image. -/
theorem C25_bad_image_bulk (D : PhononData) (hL : D.superLat = !![8, 0, 0; 0, 8, 0; 0, 0, 8]) (hp : D.pbc = [0, 1, 2]) (s u : ℕ)
    (hw : D.superCart s - D.unitCart u = ![2, 3, 7]) : posVector D s u = ![2, -5, -1] := by
  have e : offsets D.superLat D.pbc =
      [![-8, -8, -8], ![-8, -8, 0], ![-8, -8, 8], ![-8, 0, -8], ![-8, 0, 0], ![-8, 0, 8], ![-8, 8, -8], ![-8, 8, 0], ![-8, 8, 8], ![0, -8, -8], ![0, -8, 0], ![0, -8, 8], ![0, 0, -8], ![0, 0, 0], ![0, 0, 8], ![0, 8, -8], ![0, 8, 0], ![0, 8, 8], ![8, -8, -8], ![8, -8, 0], ![8, -8, 8], ![8, 0, -8], ![8, 0, 0], ![8, 0, 8], ![8, 8, -8], ![8, 8, 0], ![8, 8, 8]] := by
    rw [hL, hp]
    simp only [offsets, steps, List.flatMap_cons, List.flatMap_nil, List.map_cons, List.map_nil, List.append_nil, List.cons_append, List.nil_append]
    simp only [List.cons.injEq, and_true]
    refine ⟨?_, ?_, ?_, ?_, ?_, ?_, ?_, ?_, ?_, ?_, ?_, ?_, ?_, ?_, ?_, ?_, ?_, ?_, ?_, ?_, ?_, ?_, ?_, ?_, ?_, ?_, ?_⟩ <;> funext j <;> fin_cases j <;> simp
  unfold posVector
  rw [e, hw]
  simp only [List.foldl_cons, List.foldl_nil]
  have keep : ∀ p o : V3 ℝ, ¬ dot3 (p + o) (p + o) < dot3 p p → imageStep p o = p := fun p o h => by simp [imageStep, h]
  have move : ∀ p o r : V3 ℝ, dot3 (p + o) (p + o) < dot3 p p → p + o = r → imageStep p o = r := fun p o r h e => by unfold imageStep; rw [if_pos h]; exact e
  rw [
    keep ![2, 3, 7] ![-8, -8, -8] (by simp [dot3] <;> norm_num),
    keep ![2, 3, 7] ![-8, -8, 0] (by simp [dot3] <;> norm_num),
    keep ![2, 3, 7] ![-8, -8, 8] (by simp [dot3] <;> norm_num),
    move ![2, 3, 7] ![-8, 0, -8] ![-6, 3, -1] (by simp [dot3] <;> norm_num) (by funext j; fin_cases j <;> norm_num),
    keep ![-6, 3, -1] ![-8, 0, 0] (by simp [dot3] <;> norm_num),
    keep ![-6, 3, -1] ![-8, 0, 8] (by simp [dot3] <;> norm_num),
    keep ![-6, 3, -1] ![-8, 8, -8] (by simp [dot3] <;> norm_num),
    keep ![-6, 3, -1] ![-8, 8, 0] (by simp [dot3] <;> norm_num),
    keep ![-6, 3, -1] ![-8, 8, 8] (by simp [dot3] <;> norm_num),
    keep ![-6, 3, -1] ![0, -8, -8] (by simp [dot3] <;> norm_num),
    keep ![-6, 3, -1] ![0, -8, 0] (by simp [dot3] <;> norm_num),
    keep ![-6, 3, -1] ![0, -8, 8] (by simp [dot3] <;> norm_num),
    keep ![-6, 3, -1] ![0, 0, -8] (by simp [dot3] <;> norm_num),
    keep ![-6, 3, -1] ![0, 0, 0] (by simp [dot3] <;> norm_num),
    keep ![-6, 3, -1] ![0, 0, 8] (by simp [dot3] <;> norm_num),
    keep ![-6, 3, -1] ![0, 8, -8] (by simp [dot3] <;> norm_num),
    keep ![-6, 3, -1] ![0, 8, 0] (by simp [dot3] <;> norm_num),
    keep ![-6, 3, -1] ![0, 8, 8] (by simp [dot3] <;> norm_num),
    keep ![-6, 3, -1] ![8, -8, -8] (by simp [dot3] <;> norm_num),
    move ![-6, 3, -1] ![8, -8, 0] ![2, -5, -1] (by simp [dot3] <;> norm_num) (by funext j; fin_cases j <;> norm_num),
    keep ![2, -5, -1] ![8, -8, 8] (by simp [dot3] <;> norm_num),
    keep ![2, -5, -1] ![8, 0, -8] (by simp [dot3] <;> norm_num),
    keep ![2, -5, -1] ![8, 0, 0] (by simp [dot3] <;> norm_num),
    keep ![2, -5, -1] ![8, 0, 8] (by simp [dot3] <;> norm_num),
    keep ![2, -5, -1] ![8, 8, -8] (by simp [dot3] <;> norm_num),
    keep ![2, -5, -1] ![8, 8, 0] (by simp [dot3] <;> norm_num),
    keep ![2, -5, -1] ![8, 8, 8] (by simp [dot3] <;> norm_num)]

private theorem cubic_latVec : latVec cubicCell.lattice ![0, 0, -1] = ![0, 0, -4] := by
  funext j
  fin_cases j <;> simp [latVec, cubicCell, Fin.sum_univ_three]

private theorem cubic_springs : ShortSprings cubicCell [0, 1] ![2, 2, 2] ![1, 1, 1] cubicSpring := by
  intro a ha b hb x y l hl
  unfold cubicSpring at hl
  by_cases hab : a = 1 ∧ b = 0
  · rw [if_pos hab] at hl
    have : l = ![0, 0, -1] := by
      have := Finsupp.support_single_subset hl
      simpa using this
    subst this
    obtain ⟨rfl, rfl⟩ := hab
    constructor
    · intro i hi; fin_cases i <;> simp at hi
    · intro i _
      rw [cubic_latVec]
      fin_cases i <;> simp [dot3, cubicCell] <;> norm_num [abs_of_pos, abs_of_neg]
  · rw [if_neg hab] at hl
    simp at hl

/-- **C98 is false for three periodic directions**: in the cubic crystal `cubicCell` with a 2 x 2 x 2 super cell and one spring shorter than half the super cell,
the program's dynamical matrix at (0, 1/4, 0) has the wrong sign where the spring enters. -/
theorem C98_bulk_refuted : ¬ C98_full := by
  intro H
  have hgood : GoodCall (fun m => List.replicate m 0) cubicCell ![2, 2, 2] ![1, 1, 1] := ⟨by simp, rfl, by decide, by decide⟩
  obtain ⟨s, hs, hlen, -⟩ := C06_supercell_positions hgood
  obtain ⟨s', hs'⟩ : ∃ s', setSuperIndTrue s cubicCell ![2, 2, 2] ![1, 1, 1] = .ok s' := by
    unfold setSuperIndTrue
    simp [cubicCell]
  have hdet : cubicCell.lattice.det ≠ 0 := by simp [cubicCell, Matrix.det_fin_three]
  have hxyz : cubicCell.xyzTrue = some (([0, 1] : List ℕ).flatMap fun a => [a, a, a]) := rfl
  have hlt : ∀ t ∈ ([0, 1] : List ℕ), t < cubicCell.cart.length := by decide
  have hE : ((![2, 2, 2] : Fin 3 → ℤ) 0 * (![2, 2, 2] : Fin 3 → ℤ) 1 * (![2, 2, 2] : Fin 3 → ℤ) 2).toNat = 8 := by decide
  obtain ⟨s'', files, fc, hw, hfc, hmat⟩ := H (fun m => List.replicate m 0) cubicCell s s' ![2, 2, 2] ![1, 1, 1] [0, 1] cubicSpring (fun _ => 1) hgood hdet rfl hlt hxyz hs hs'
    (by intro i j hij _ _; fin_cases i <;> fin_cases j <;> simp [dot3, cubicCell] at hij ⊢)
    (by intro i j _ _ _; fin_cases i <;> simp)
    (by
      intro a ha b hb i _
      simp only [List.mem_cons, List.not_mem_nil, or_false] at ha hb
      rcases ha with rfl | rfl <;> rcases hb with rfl | rfl <;> fin_cases i <;> simp [dot3, cubicCell] <;> norm_num)
    cubic_springs 1 one_ne_zero 0 0 (.ok [])
  rw [hE] at hw hfc
  have hs'cart : s'.cart = s.cart := by
    unfold setSuperIndTrue at hs'
    simp only [cubicCell] at hs'
    cases hs'
    rfl
  have hsel' : ∀ t ∈ ([0, 1] : List ℕ), 8 * t < s'.cart.length := by
    intro t ht
    rw [hs'cart, hlen, hE]
    exact Nat.mul_lt_mul_of_pos_left (hlt t ht) (by norm_num)
  obtain ⟨fc', hfc', hent⟩ := C19_harmonic_exact s' [0, 1] 8 1 one_ne_zero ![1, 1, 1] (.ok []) hsel' (superSprings ![2, 2, 2] 8 cubicSpring) 0 0 s'' files hw
  rw [hfc'] at hfc
  cases hfc
  obtain ⟨hgs, hgg⟩ := phonon_data_reachable hgood hdet [0, 1] rfl hxyz hs hs' fc (fun _ => 1)
  have hq : qVec (ofCells cubicCell s' ![2, 2, 2] ![1, 1, 1] fc fun _ => 1) ![0, 1 / 4, 0] = ![0, Real.pi / 8, 0] := by
    have hr := hgg.recip
    funext j
    simp only [qVec, hr]
    fin_cases j <;> simp [reciprocal, cubicCell, dot3, cross3] <;> ring
  have hpos : posVector (ofCells cubicCell s' ![2, 2, 2] ![1, 1, 1] fc fun _ => 1) 9 0 = ![2, -5, -1] := by
    refine C25_bad_image_bulk _ ?_ rfl 9 0 ?_
    · rw [hgg.lat]
      ext i j
      fin_cases i <;> fin_cases j <;> simp [cubicCell] <;> norm_num
    · have e := C97_copy_position hgood hs 1 1 (by decide) (by decide)
      rw [hE] at e
      show s'.cart.getD 9 0 - cubicCell.cart.getD 0 0 = _
      rw [hs'cart, e]
      have e2 : latVec cubicCell.lattice (cellOf ![2, 2, 2] 1) = ![0, 0, 4] := by
        funext j
        fin_cases j <;> simp [cubicCell, latVec, cellOf, Fin.sum_univ_three]
      rw [e2]
      funext j
      fin_cases j <;> simp [cubicCell] <;> norm_num
  have h30 := congrFun (congrFun (hmat ![0, 1 / 4, 0] 6 (by simp)) 3) 0
  rw [hq] at h30
  have hDE : (ofCells cubicCell s' ![2, 2, 2] ![1, 1, 1] fc fun _ => 1).E = 8 := by
    simp only [ofCells]
    rw [SuperCell.enlarge_eq _ _ hgood.cons, hE]
  have hraw := dynRaw_entry _ [0, 1] hgs ![0, Real.pi / 8, 0] 1 0 0 0 (by simp) (by simp)
  rw [hDE] at hraw
  have hfc1 : ∀ k < 8, fc (3 * (1 * 8 + k) + ((0 : Fin 3) : ℕ)) (3 * 0 + ((0 : Fin 3) : ℕ)) = if k = 1 then 1 else 0 := by
    intro k hk
    rw [hent (1 * 8 + k) 0 0 0 0 rfl]
    have hsup : (cubicSpring 1 0 0 0).support = {![0, 0, -1]} := by
      rw [cubicSpring, if_pos ⟨rfl, rfl⟩]; exact Finsupp.support_single_ne_zero _ one_ne_zero
    have hval : cubicSpring 1 0 0 0 ![0, 0, -1] = 1 := by
      rw [cubicSpring, if_pos ⟨rfl, rfl⟩]; simp
    simp only [superSprings]
    rw [show (1 * 8 + k) / 8 = 1 by omega, show (1 * 8 + k) % 8 = k by omega, show 8 * 0 / 8 = 0 from rfl, show 8 * 0 % 8 = 0 from rfl, hsup, Finset.sum_filter,
      Finset.sum_singleton, hval]
    interval_cases k <;> simp [cellOf, Fin.forall_fin_succ]
  rw [Finset.sum_eq_single 1] at hraw
  · simp only [Fin.val_zero, Nat.add_zero, List.getD_cons_succ, List.getD_cons_zero] at hraw
    rw [show 1 * 8 + 1 = 9 from rfl, hpos] at hraw
    have hl : (Matrix.of fun (r c : Fin 6) => dynMatrix (ofCells cubicCell s' ![2, 2, 2] ![1, 1, 1] fc fun _ => 1) ![0, 1 / 4, 0] r c) 3 0 =
        exp (I * ((-(5 * Real.pi / 8) : ℝ) : ℂ)) := by
      rw [Matrix.of_apply]
      show dynRaw _ (qVec _ _) (3 * 1) (3 * 0) / _ = _
      rw [hq, hraw]
      have := hfc1 1 (by norm_num)
      simp only [Fin.val_zero, Nat.add_zero, if_true] at this
      rw [show (ofCells cubicCell s' ![2, 2, 2] ![1, 1, 1] fc fun _ => 1).fc (3 * 9) (3 * 0) = 1 from this]
      show ((1 : ℝ) : ℂ) * _ / ((Real.sqrt (1 * 1) : ℝ) : ℂ) = _
      simp [dot3]
      congr 1
      ring
    have hr : trueDyn cubicCell [0, 1] (fun _ => 1) cubicSpring ![0, Real.pi / 8, 0] 6 3 0 = exp (I * ((3 * Real.pi / 8 : ℝ) : ℂ)) := by
      rw [trueDyn, Matrix.of_apply]
      show ((cubicSpring 1 _ 0 _).sum fun l φ => (φ : ℂ) * _) / _ = _
      rw [cubicSpring, if_pos ⟨rfl, rfl⟩, Finsupp.sum_single_index (by simp), cubic_latVec]
      simp [dot3, cubicCell]
      congr 1
      ring
    rw [hl, hr] at h30
    have e : I * ((3 * Real.pi / 8 : ℝ) : ℂ) = I * ((-(5 * Real.pi / 8) : ℝ) : ℂ) + Real.pi * I := by push_cast; ring
    rw [e, Complex.exp_add, Complex.exp_pi_mul_I] at h30
    have h0 := Complex.exp_ne_zero (I * ((-(5 * Real.pi / 8) : ℝ) : ℂ))
    apply h0
    linear_combination h30 / 2
  · intro k hk hne
    have := hfc1 k (Finset.mem_range.1 hk)
    rw [if_neg hne] at this
    rw [show (ofCells cubicCell s' ![2, 2, 2] ![1, 1, 1] fc fun _ => 1).fc (3 * (([0, 1] : List ℕ).getD 1 0 * 8 + k) + ((0 : Fin 3) : ℕ)) (3 * 0 + ((0 : Fin 3) : ℕ)) = 0 from this]
    simp
  · simp

end

end Interphon.Props
