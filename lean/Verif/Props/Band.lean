import Verif.Model.Band
import Verif.Props.Mode
import Mathlib.Data.Real.Sqrt

/-!
# Properties of the band path and the band weights (C81, C82)
-/

noncomputable section

namespace Interphon.Props
open Py Interphon Interphon.Phonon Interphon.Mode Interphon.Band

/-! ### C81 -/

open Classical in
private theorem fold_band (ks : List (V3 ℝ)) (len : List ℝ) (ticks : List ℕ) : ∀ m : ℕ, m < len.length →
    let r := ((List.range m).map (· + 1)).foldl (step ks) (len, ticks)
    r.1.length = len.length ∧
    (∀ j, j ≤ m → r.1.getD j 0 = len.getD 0 0 + ∑ i ∈ Finset.range j, Band.dist (ks.getD (i + 1) 0) (ks.getD i 0)) ∧
    r.2 = ticks ++ ((List.range m).map (· + 1)).filter fun i => decide (Matches (ks.getD i 0) (ks.getD (i - 1) 0))
  | 0, _ => by simp
  | m + 1, hm => by
    obtain ⟨h1, h2, h3⟩ := fold_band ks len ticks m (by omega)
    rw [List.range_succ, List.map_append, List.foldl_append]
    set r := ((List.range m).map (· + 1)).foldl (step ks) (len, ticks)
    simp only [List.map_cons, List.map_nil, List.foldl_cons, List.foldl_nil, step]
    refine ⟨by simp [h1], fun j hj => ?_, ?_⟩
    · simp only [List.getD_eq_getElem?_getD, List.getElem?_set]
      rcases Nat.lt_or_ge m j with hlt | hge
      · have hjm : j = m + 1 := by omega
        subst hjm
        have := h2 m le_rfl
        rw [List.getD_eq_getElem?_getD] at this
        simp only [if_true, show m + 1 < r.1.length by omega, Nat.add_sub_cancel, Option.getD_some, this]
        rw [Finset.sum_range_succ]
        simp only [List.getD_eq_getElem?_getD]
        ring
      · rw [if_neg (by omega)]
        have := h2 j hge
        rw [List.getD_eq_getElem?_getD] at this
        rw [this]
        simp only [List.getD_eq_getElem?_getD]
    · simp only [List.filter_append, h3, ← List.append_assoc, Nat.add_sub_cancel, matches_iff]
      split <;> rename_i hm'
      · rw [List.filter_cons, if_pos (by simpa only [Nat.add_sub_cancel, decide_eq_true_eq] using hm')]; simp
      · rw [List.filter_cons, if_neg (by simpa only [Nat.add_sub_cancel, decide_eq_true_eq] using hm')]; simp

/-- Length of the difference of two k points, in the fractional coordinates the program uses. -/
def fracDist (a b : V3 ℝ) : ℝ := Real.sqrt ((a 0 - b 0) ^ 2 + (a 1 - b 1) ^ 2 + (a 2 - b 2) ^ 2)

theorem dist_eq (a b : V3 ℝ) : Band.dist a b = fracDist a b := by
  simp only [Band.dist, fracDist, dot3, Pi.sub_apply]; congr 1; ring

/-- **C81 (partial).**  For every list of at least two k points `set` on a fresh object succeeds; the path coordinate has one entry
per k point, starts at 0, never decreases and grows from one k point to the next by their distance *in fractional coordinates*; tick
marks sit at the first and the last point and at exactly those points that repeat their predecessor (within the tolerance of
`np.allclose`).  Missing: the distance is not the Cartesian one (`C81_cartesian_refuted`). -/
theorem C81_path_partial (ks : List (V3 ℝ)) (hk : 2 ≤ ks.length) (nk nf nm : ℕ) (v : ℕ → ℕ → ℕ → ℂ) (junk : ℕ → ℕ → ℕ → ℝ) :
    ∃ s, Band.set ks nk nf nm v (init ks junk) = .ok s ∧ s.len.length = ks.length ∧ s.len.getD 0 0 = 0 ∧
      (∀ i, i + 1 < ks.length → s.len.getD (i + 1) 0 = s.len.getD i 0 + fracDist (ks.getD (i + 1) 0) (ks.getD i 0)) ∧
      (∀ i j, i ≤ j → j < ks.length → s.len.getD i 0 ≤ s.len.getD j 0) ∧
      (∀ i, i ∈ s.ticks ↔ i = 0 ∨ i = ks.length - 1 ∨
        (0 < i ∧ i < ks.length ∧ Matches (ks.getD i 0) (ks.getD (i - 1) 0))) := by
  classical
  obtain ⟨h1, h2, h3⟩ := fold_band ks (List.replicate ks.length 0) [0] (ks.length - 1) (by simp; omega)
  set r := ((List.range (ks.length - 1)).map (· + 1)).foldl (step ks) (List.replicate ks.length 0, [0])
  have h0 : (List.replicate ks.length (0 : ℝ)).getD 0 0 = 0 := by
    rw [List.getD_eq_getElem?_getD, List.getElem?_replicate]; split <;> rfl
  refine ⟨_, if_neg (by omega), ?_, ?_, ?_, ?_, ?_⟩
  · exact h1.trans (by simp)
  · exact (h2 0 (by omega)).trans (by rw [h0]; simp)
  · intro i hi
    show r.1.getD (i + 1) 0 = r.1.getD i 0 + _
    rw [h2 (i + 1) (by omega), h2 i (by omega), Finset.sum_range_succ, dist_eq, add_assoc]
  · intro i j hij hj
    show r.1.getD i 0 ≤ r.1.getD j 0
    rw [h2 i (by omega), h2 j (by omega)]
    have : ∑ a ∈ Finset.range i, Band.dist (ks.getD (a + 1) 0) (ks.getD a 0) ≤ ∑ a ∈ Finset.range j, Band.dist (ks.getD (a + 1) 0) (ks.getD a 0) :=
      Finset.sum_le_sum_of_subset_of_nonneg (by simpa using hij) fun a _ _ => Real.sqrt_nonneg _
    linarith
  · intro i
    show i ∈ r.2 ++ [ks.length - 1] ↔ _
    rw [h3]
    simp only [List.mem_append, List.mem_cons, List.not_mem_nil, or_false, List.mem_filter, List.mem_map, List.mem_range,
      decide_eq_true_eq]
    constructor
    · rintro ((h | ⟨⟨a, ha, rfl⟩, hm⟩) | h)
      · exact .inl h
      · exact .inr (.inr ⟨by omega, by omega, hm⟩)
      · exact .inr (.inl h)
    · rintro (h | h | ⟨ha, hb, hm⟩)
      · exact .inl (.inl h)
      · exact .inr h
      · exact .inl (.inr ⟨⟨i - 1, by omega, by omega⟩, hm⟩)

open Classical in
/-- **C81** (order of the ticks).  The tick list is: the first point, then in increasing order the points that repeat their predecessor,
then the last point. -/
theorem C81_tick_list (ks : List (V3 ℝ)) (hk : 2 ≤ ks.length) (nk nf nm : ℕ) (v : ℕ → ℕ → ℕ → ℂ) (junk : ℕ → ℕ → ℕ → ℝ) (s : State)
    (h : Band.set ks nk nf nm v (init ks junk) = .ok s) :
    s.ticks = 0 :: (((List.range (ks.length - 1)).map (· + 1)).filter fun i => decide (Matches (ks.getD i 0) (ks.getD (i - 1) 0))) ++ [ks.length - 1] := by
  obtain ⟨-, -, h3⟩ := fold_band ks (List.replicate ks.length 0) [0] (ks.length - 1) (by simp; omega)
  rw [Band.set, if_neg (by omega)] at h
  cases h
  simp only [init]
  rw [h3]
  rfl

/-- The Cartesian distance of two k points given in fractional coordinates of the reciprocal lattice `B`. -/
def cartDist (B : M3 ℝ) (a b : V3 ℝ) : ℝ := fracDist (fun j => ∑ i, a i * B i j) (fun j => ∑ i, b i * B i j)

/-- Where the fractional coordinate is the right one up to scale: if the reciprocal vectors are orthogonal and of equal length `ℓ`,
Cartesian distances are `ℓ` times the fractional ones. -/
theorem C81_cubic_partial (B : M3 ℝ) (l : ℝ) (hl : 0 ≤ l) (hB : ∀ i j, dot3 (B i) (B j) = if i = j then l ^ 2 else 0) (a b : V3 ℝ) :
    cartDist B a b = l * fracDist a b := by
  unfold cartDist fracDist
  have h00 := hB 0 0; have h01 := hB 0 1; have h02 := hB 0 2
  have h11 := hB 1 1; have h12 := hB 1 2; have h22 := hB 2 2
  simp [dot3] at h00 h01 h02 h11 h12 h22
  rw [show (l * Real.sqrt ((a 0 - b 0) ^ 2 + (a 1 - b 1) ^ 2 + (a 2 - b 2) ^ 2)) =
    Real.sqrt (l ^ 2 * ((a 0 - b 0) ^ 2 + (a 1 - b 1) ^ 2 + (a 2 - b 2) ^ 2)) by
      rw [Real.sqrt_mul (sq_nonneg l), Real.sqrt_sq hl]]
  congr 1
  simp only [Fin.sum_univ_three]
  linear_combination (a 0 - b 0) ^ 2 * h00 + (a 1 - b 1) ^ 2 * h11 + (a 2 - b 2) ^ 2 * h22 +
    2 * (a 0 - b 0) * (a 1 - b 1) * h01 + 2 * (a 0 - b 0) * (a 2 - b 2) * h02 + 2 * (a 1 - b 1) * (a 2 - b 2) * h12

/-- **C81** (exact condition).  Fractional lengths are proportional to Cartesian lengths, with one factor `l` for all pairs of wave vectors, exactly if the reciprocal vectors are
orthogonal and all of length `l`: cubic lattices only. -/
theorem C81_proportional_iff (B : M3 ℝ) (l : ℝ) (hl : 0 ≤ l) :
    (∀ a b : V3 ℝ, cartDist B a b = l * fracDist a b) ↔ ∀ i j, dot3 (B i) (B j) = if i = j then l ^ 2 else 0 := by
  refine ⟨fun h => ?_, C81_cubic_partial B l hl⟩
  have key : ∀ k : V3 ℝ, (∑ i, k i * B i 0) ^ 2 + (∑ i, k i * B i 1) ^ 2 + (∑ i, k i * B i 2) ^ 2 = l ^ 2 * (k 0 ^ 2 + k 1 ^ 2 + k 2 ^ 2) := by
    intro k
    have := h k 0
    unfold cartDist fracDist at this
    simp only [Pi.zero_apply, zero_mul, Finset.sum_const_zero, sub_zero] at this
    have h2 := congrArg (· ^ 2) this
    simp only [mul_pow] at h2
    rwa [Real.sq_sqrt (by positivity), Real.sq_sqrt (by positivity)] at h2
  have k0 := key ![1, 0, 0]
  have k1 := key ![0, 1, 0]
  have k2 := key ![0, 0, 1]
  have k01 := key ![1, 1, 0]
  have k02 := key ![1, 0, 1]
  have k12 := key ![0, 1, 1]
  simp [Fin.sum_univ_three] at k0 k1 k2 k01 k02 k12
  intro i j
  fin_cases i <;> fin_cases j <;> simp [dot3] <;> linarith

/-- **C81 refuted.**  On a rectangular lattice (`|a₂| = 2|a₁|`) the two legs Γ→(½,0) and Γ→(0,½) have Cartesian lengths in the ratio
2:1, but `set` gives them the same width: the horizontal axis is not proportional to Cartesian distance. -/
theorem C81_cartesian_refuted : ∃ (A : M3 ℝ) (ks : List (V3 ℝ)) (s : State), A.det ≠ 0 ∧
    Band.set ks 0 0 0 (fun _ _ _ => 0) (init ks fun _ _ _ => 0) = .ok s ∧
    s.len.getD 1 0 - s.len.getD 0 0 = s.len.getD 2 0 - s.len.getD 1 0 ∧
    cartDist (reciprocal A) (ks.getD 1 0) (ks.getD 0 0) = 2 * cartDist (reciprocal A) (ks.getD 2 0) (ks.getD 1 0) ∧
    0 < cartDist (reciprocal A) (ks.getD 2 0) (ks.getD 1 0) := by
  obtain ⟨s, hs, -, -, hstep, -, -⟩ := C81_path_partial [0, ![1/2, 0, 0], ![1/2, 1/2, 0]] (by simp) 0 0 0 (fun _ _ _ => 0) (fun _ _ _ => 0)
  refine ⟨!![1, 0, 0; 0, 2, 0; 0, 0, 1], _, s, by simp [Matrix.det_fin_three], hs, ?_, ?_, ?_⟩
  · have a1 := hstep 0 (by simp)
    have a2 := hstep 1 (by simp)
    rw [a1] at a2 ⊢
    rw [a2]
    simp [fracDist]
  · simp [cartDist, fracDist, Fin.sum_univ_three, reciprocal, cross3, dot3]
    rw [Real.sqrt_sq (by positivity), Real.sqrt_sq (by positivity)]
    ring
  · simp [cartDist, fracDist, Fin.sum_univ_three, reciprocal, cross3, dot3]
    positivity

/-- With a single k point `set` raises. -/
theorem C81_single_point (ks : List (V3 ℝ)) (h : ks.length < 2) (nk nf nm : ℕ) (v : ℕ → ℕ → ℕ → ℂ) (s : State) :
    Band.set ks nk nf nm v s = .error .unboundLocal := if_pos h

/-- Calling `set` again on the same object keeps the path coordinates. -/
theorem C81_repeat_coordinates (ks : List (V3 ℝ)) (hk : 2 ≤ ks.length) (nk nf nm : ℕ) (v : ℕ → ℕ → ℕ → ℂ) (junk : ℕ → ℕ → ℕ → ℝ)
    (s s' : State) (h1 : Band.set ks nk nf nm v (init ks junk) = .ok s) (h2 : Band.set ks nk nf nm v s = .ok s') :
    s'.len = s.len ∧ s'.projected = s.projected ∧
      s'.ticks = s.ticks ++ s.ticks.drop 1 := by
  classical
  obtain ⟨a1, a2, a3⟩ := fold_band ks (List.replicate ks.length 0) [0] (ks.length - 1) (by simp; omega)
  rw [Band.set, if_neg (by omega)] at h1 h2
  cases h1
  cases h2
  simp only [init]
  set r := ((List.range (ks.length - 1)).map (· + 1)).foldl (step ks) (List.replicate ks.length 0, [0])
  obtain ⟨b1, b2, b3⟩ := fold_band ks r.1 (r.2 ++ [ks.length - 1]) (ks.length - 1) (by rw [a1]; simp; omega)
  set r' := ((List.range (ks.length - 1)).map (· + 1)).foldl (step ks) (r.1, r.2 ++ [ks.length - 1])
  have h0 : (List.replicate ks.length (0 : ℝ)).getD 0 0 = 0 := by
    rw [List.getD_eq_getElem?_getD, List.getElem?_replicate]; split <;> rfl
  have hr0 : r.1.getD 0 0 = 0 := (a2 0 (by omega)).trans (by rw [h0]; simp)
  refine ⟨?_, ?_, ?_⟩
  · apply List.ext_getElem (b1)
    intro i hi1 hi2
    have hi : i ≤ ks.length - 1 := by
      rw [a1, List.length_replicate] at hi2; omega
    have e1 := b2 i hi
    have e2 := a2 i hi
    rw [hr0] at e1
    rw [h0] at e2
    rw [List.getD_eq_getElem _ _ hi1] at e1
    rw [List.getD_eq_getElem _ _ hi2] at e2
    rw [e1, e2]
  · funext k f m
    split <;> rfl
  · rw [b3, a3]
    simp

/-- Non-vacuity: a path Γ–X–X–M with the corner point repeated has ticks at 0, 2 and 3. -/
example : ∃ s, Band.set [0, ![1/2, 0, 0], ![1/2, 0, 0], ![1/2, 1/2, 0]] 0 0 0 (fun _ _ _ => 0)
    (init [0, ![1/2, 0, 0], ![1/2, 0, 0], ![1/2, 1/2, 0]] fun _ _ _ => 0) = .ok s ∧ (∀ i, i ∈ s.ticks ↔ i = 0 ∨ i = 2 ∨ i = 3) := by
  obtain ⟨s, hs, -, -, -, -, ht⟩ := C81_path_partial [0, ![1/2, 0, 0], ![1/2, 0, 0], ![1/2, 1/2, 0]] (by simp) 0 0 0
    (fun _ _ _ => 0) (fun _ _ _ => 0)
  refine ⟨s, hs, fun i => ?_⟩
  rw [ht]
  constructor
  · rintro (h | h | ⟨h1, h2, h3⟩)
    · omega
    · simp at h; omega
    · simp at h2
      interval_cases i
      · have := h3 0; norm_num [abs_le] at this
      · omega
      · omega
  · rintro (rfl | rfl | rfl)
    · simp
    · right; right; exact ⟨by omega, by simp, fun i => by simp; positivity⟩
    · simp

/-! ### C82 -/

/-- **C82.**  After `set`, if the polarization vector of a band at a k point is normalised, its projected weights are
non-negative, none exceeds 1, and they add to 1. -/
theorem C82_weights (ks : List (V3 ℝ)) (nk nf nm : ℕ) (v : ℕ → ℕ → ℕ → ℂ) (s s' : State)
    (h : Band.set ks nk nf nm v s = .ok s') (k f : ℕ) (hk : k < nk) (hf : f < nf)
    (hnorm : ∑ m ∈ Finset.range nm, ‖v k f m‖ ^ 2 = 1) :
    (∀ m, m < nm → 0 ≤ s'.projected k f m ∧ s'.projected k f m ≤ 1) ∧ ∑ m ∈ Finset.range nm, s'.projected k f m = 1 := by
  unfold Band.set at h
  split at h
  · cases h
  · cases h
    have e : ∀ m, m < nm → (if k < nk ∧ f < nf ∧ m < nm then ‖v k f m‖ ^ 2 else s.projected k f m) = ‖v k f m‖ ^ 2 :=
      fun m hm => if_pos ⟨hk, hf, hm⟩
    refine ⟨fun m hm => ?_, ?_⟩
    · simp only [e m hm]
      refine ⟨by positivity, ?_⟩
      rw [← hnorm]
      exact Finset.single_le_sum (f := fun m => ‖v k f m‖ ^ 2) (fun i _ => by positivity) (Finset.mem_range.2 hm)
    · rw [← hnorm]
      exact Finset.sum_congr rfl fun m hm => e m (Finset.mem_range.1 hm)

private theorem foldl_add (l : List ℝ) : ∀ a, l.foldl (· + ·) a = a + l.sum := by
  induction l with
  | nil => simp
  | cons x l ih => intro a; rw [List.foldl_cons, ih, List.sum_cons]; ring

/-- The projection plotted for a set of atoms is the sum of the weights of the degrees of freedom of these atoms. -/
theorem C82_projection (s : State) (xyz atoms : List ℕ) (k f : ℕ) :
    projection s xyz atoms k f = ∑ m ∈ Finset.range xyz.length, if xyz.getD m 0 ∈ atoms then s.projected k f m else 0 := by
  have key : ∀ (l : List ℕ) (o : ℕ), (((l.zipIdx o).filter fun x => decide (x.1 ∈ atoms)).map fun x => s.projected k f x.2).sum =
      ∑ m ∈ Finset.range l.length, if l.getD m 0 ∈ atoms then s.projected k f (o + m) else 0 := by
    intro l
    induction l with
    | nil => simp
    | cons a l ih =>
      intro o
      rw [List.length_cons, Finset.sum_range_succ', List.zipIdx_cons, List.filter_cons]
      have e : ∀ m, (if (a :: l).getD (m + 1) 0 ∈ atoms then s.projected k f (o + (m + 1)) else 0) =
          if l.getD m 0 ∈ atoms then s.projected k f (o + 1 + m) else 0 := by
        intro m
        rw [List.getD_cons_succ, show o + (m + 1) = o + 1 + m by omega]
      rw [Finset.sum_congr rfl fun m _ => e m, ← ih]
      by_cases h : a ∈ atoms
      · simp [h, add_comm]
      · simp [h]
  rw [projection, foldl_add, key xyz 0]
  simp

/-- The colour of a band adds up: if every selected atom lies in exactly one of the sets, the projections onto the
sets add to the total weight (1 for a normalised vector). -/
theorem C82_partition (s : State) (xyz : List ℕ) (sets : List (List ℕ)) (k f : ℕ)
    (hpart : ∀ a ∈ xyz, (sets.filter fun A => decide (a ∈ A)).length = 1) :
    (sets.map fun A => projection s xyz A k f).sum = ∑ m ∈ Finset.range xyz.length, s.projected k f m := by
  have step : ∀ (T : List (List ℕ)), (T.map fun A => projection s xyz A k f).sum =
      ∑ m ∈ Finset.range xyz.length, ((T.filter fun A => decide (xyz.getD m 0 ∈ A)).length : ℝ) * s.projected k f m := by
    intro T
    induction T with
    | nil => simp
    | cons A T ih =>
      rw [List.map_cons, List.sum_cons, ih, C82_projection, ← Finset.sum_add_distrib]
      refine Finset.sum_congr rfl fun m _ => ?_
      rw [List.filter_cons]
      by_cases h : xyz.getD m 0 ∈ A
      · simp only [h, decide_true, if_true, List.length_cons]; push_cast; ring
      · simp only [h, decide_false, if_false, Bool.false_eq_true, zero_add]
  rw [step]
  refine Finset.sum_congr rfl fun m hm => ?_
  have hm := Finset.mem_range.1 hm
  rw [hpart _ (by rw [List.getD_eq_getElem _ _ hm]; exact List.getElem_mem hm)]
  simp

/-- Non-vacuity: a normalised complex vector on one atom. -/
example : ∃ s', Band.set [0, ![1/2, 0, 0]] 1 1 2 (fun _ _ m => if m = 0 then 3/5 else 4/5 * Complex.I) (init [0, ![1/2, 0, 0]] fun _ _ _ => 7) = .ok s' ∧
    ∑ m ∈ Finset.range 2, ‖(if m = 0 then 3/5 else 4/5 * Complex.I : ℂ)‖ ^ 2 = 1 := by
  obtain ⟨s, hs, -⟩ := C81_path_partial [0, ![1/2, 0, 0]] (by simp) 1 1 2 (fun _ _ m => if m = 0 then 3/5 else 4/5 * Complex.I) (fun _ _ _ => 7)
  refine ⟨s, hs, ?_⟩
  simp [Finset.sum_range_succ]
  norm_num

end Interphon.Props
