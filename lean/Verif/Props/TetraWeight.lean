import Verif.Props.TetraMesh

/-! # Properties C43 (weights) and C45 -/

namespace Interphon.Props
open Py Interphon Interphon.Tetra

noncomputable section

/-! ### C43: the weights -/

/-- The mesh as an array of reals. -/
def meshR (off : ℚ) (n : Fin 3 → ℤ) (s : Fin 3 → ℚ) (p : Fin 3 → Bool) : List (V3 ℝ) := (meshSpec off n s p).map fun v c => (v c : ℝ)

private theorem mesh_get (off : ℚ) (n : Fin 3 → ℤ) (s : Fin 3 → ℚ) (p : Fin 3 → Bool) (i j k pos : ℕ)
    (hi : (i : ℤ) < n 0) (hj : (j : ℤ) < n 1) (hk : (k : ℤ) < n 2) (hpos : pos = (i * (n 1).toNat + j) * (n 2).toNat + k) :
    getE (meshR off n s p) pos = .ok (fun c => ((meshPoint off n s p ![i, j, k] c : ℚ) : ℝ)) := by
  have h := C33_order off n s p i j k hi hj hk
  rw [← hpos] at h
  unfold getE meshR
  rw [List.getElem?_map, h]
  rfl

private theorem diff_at (off : ℚ) (n : Fin 3 → ℤ) (s : Fin 3 → ℚ) (p : Fin 3 → Bool) (i : Fin 3 → ℕ) :
    ((fun c => ((meshPoint off n s p i c : ℚ) : ℝ)) - fun c => ((meshPoint off n s p ![0, 0, 0] c : ℚ) : ℝ)) =
      fun c => if p c then (i c : ℝ) / (n c : ℝ) else 0 := by
  funext c
  simp only [Pi.sub_apply, meshPoint]
  have h0 : ((![0, 0, 0] : Fin 3 → ℕ) c : ℚ) = 0 := by fin_cases c <;> rfl
  by_cases h : p c
  · simp only [h, if_true, h0]
    push_cast
    ring
  · simp [h]

private theorem cast_ne {z : ℤ} (h : 2 ≤ z) : (0 : ℝ) < z := by exact_mod_cast (by omega : 0 < z)
private theorem toNat_cast {z : ℤ} (h : 2 ≤ z) : (z.toNat : ℝ) = z := by exact_mod_cast Int.toNat_of_nonneg (by omega : 0 ≤ z)

/-- **C43** (weight, 1-D).  On a mesh with `N ≥ 2` points along the periodic direction, the weight of a
segment is exactly `1/N`, so the weights of all segments add up to 1. -/
theorem C43_weight_1d_partial (off : ℚ) (N : ℤ) (s : Fin 3 → ℚ) (hN : 2 ≤ N) :
    (∀ n p, (n = ![N, 1, 1] ∧ p = ![true, false, false] ∨ n = ![1, N, 1] ∧ p = ![false, true, false] ∨ n = ![1, 1, N] ∧ p = ![false, false, true]) →
      volume1 (meshR off n s p) N.toNat = .ok (1 / (N : ℝ))) ∧
    1 / (N : ℝ) * (segments N.toNat).length = 1 := by
  have hn := cast_ne hN
  constructor
  · have hmod : 1 % N.toNat = 1 := Nat.mod_eq_of_lt (by omega)
    have hroot : Real.sqrt (1 / (N : ℝ) * (1 / (N : ℝ))) = 1 / (N : ℝ) := Real.sqrt_mul_self (by positivity)
    rintro n p (⟨rfl, rfl⟩ | ⟨rfl, rfl⟩ | ⟨rfl, rfl⟩)
    · unfold volume1
      rw [hmod, mesh_get off _ s _ 1 0 0 1 (by simp; omega) (by simp) (by simp) (by simp),
        mesh_get off _ s _ 0 0 0 0 (by simp; omega) (by simp) (by simp) (by simp)]
      change Except.ok (Real.sqrt _) = _
      rw [diff_at, ← hroot]
      simp [dot]
    · unfold volume1
      rw [hmod, mesh_get off _ s _ 0 1 0 1 (by simp) (by simp; omega) (by simp) (by simp),
        mesh_get off _ s _ 0 0 0 0 (by simp) (by simp; omega) (by simp) (by simp)]
      change Except.ok (Real.sqrt _) = _
      rw [diff_at, ← hroot]
      simp [dot]
    · unfold volume1
      rw [hmod, mesh_get off _ s _ 0 0 1 1 (by simp) (by simp) (by simp; omega) (by simp),
        mesh_get off _ s _ 0 0 0 0 (by simp) (by simp) (by simp; omega) (by simp)]
      change Except.ok (Real.sqrt _) = _
      rw [diff_at, ← hroot]
      simp [dot]
  · simp [segments, toNat_cast hN, hn.ne']

/-- **C43** (weight, 2-D).  On a mesh with `N, M ≥ 2` points along the two periodic directions, the weight of a
triangle is exactly half a mesh cell, and the weights of all triangles add up to 1. -/
theorem C43_weight_2d_partial (off : ℚ) (N M : ℤ) (s : Fin 3 → ℚ) (hN : 2 ≤ N) (hM : 2 ≤ M) :
    (∀ n p a b, (n = ![N, M, 1] ∧ p = ![true, true, false] ∧ a = 0 ∧ b = 1 ∨ n = ![N, 1, M] ∧ p = ![true, false, true] ∧ a = 0 ∧ b = 2 ∨
        n = ![1, N, M] ∧ p = ![false, true, true] ∧ a = 1 ∧ b = 2) →
      volume2 (meshR off n s p) M.toNat a b = .ok (1 / (2 * N * M : ℝ))) ∧
    1 / (2 * N * M : ℝ) * (triangles N.toNat M.toNat).length = 1 := by
  have hna := cast_ne hN
  have hnb := cast_ne hM
  constructor
  · have hmod : 1 % M.toNat = 1 := Nat.mod_eq_of_lt (by omega)
    have hfin : 1 / (2 * N * M : ℝ) = 1 / 2 * |(M : ℝ)⁻¹ * (N : ℝ)⁻¹| := by
      rw [abs_of_pos (by positivity)]; field_simp
    rintro n p a b (⟨rfl, rfl, rfl, rfl⟩ | ⟨rfl, rfl, rfl, rfl⟩ | ⟨rfl, rfl, rfl, rfl⟩)
    · unfold volume2
      rw [hmod, mesh_get off _ s _ 0 1 0 1 (by simp; omega) (by simp; omega) (by simp) (by simp),
        mesh_get off _ s _ 1 0 0 M.toNat (by simp; omega) (by simp; omega) (by simp) (by simp),
        mesh_get off _ s _ 0 0 0 0 (by simp; omega) (by simp; omega) (by simp) (by simp)]
      change Except.ok (1 / 2 * |_|) = _
      rw [diff_at, diff_at, hfin]
      simp [dot, cross]
    · unfold volume2
      rw [hmod, mesh_get off _ s _ 0 0 1 1 (by simp; omega) (by simp) (by simp; omega) (by simp),
        mesh_get off _ s _ 1 0 0 M.toNat (by simp; omega) (by simp) (by simp; omega) (by simp),
        mesh_get off _ s _ 0 0 0 0 (by simp; omega) (by simp) (by simp; omega) (by simp)]
      change Except.ok (1 / 2 * |_|) = _
      rw [diff_at, diff_at, hfin]
      simp [dot, cross]
    · unfold volume2
      rw [hmod, mesh_get off _ s _ 0 0 1 1 (by simp) (by simp; omega) (by simp; omega) (by simp),
        mesh_get off _ s _ 0 1 0 M.toNat (by simp) (by simp; omega) (by simp; omega) (by simp),
        mesh_get off _ s _ 0 0 0 0 (by simp) (by simp; omega) (by simp; omega) (by simp)]
      change Except.ok (1 / 2 * |_|) = _
      rw [diff_at, diff_at, hfin]
      simp [dot, cross]
  · have hl : (triangles N.toNat M.toNat).length = 2 * (N.toNat * M.toNat) := by
      simp [triangles, corners2, List.length_flatMap]; ring
    rw [hl]
    push_cast [toNat_cast hN, toNat_cast hM]
    field_simp

/-- **C43** (weight, 3-D).  On a mesh with `N ≥ 2` divisions along the first and the *same* number `M ≥ 2` along the
second and third direction, the weight of a tetrahedron is exactly a sixth of a mesh cell. -/
theorem C43_weight_3d_partial (off : ℚ) (N M : ℤ) (s : Fin 3 → ℚ) (hN : 2 ≤ N) (hM : 2 ≤ M) :
    volume3 (meshR off ![N, M, M] s ![true, true, true]) M.toNat M.toNat = .ok (1 / (6 * N * M * M : ℝ)) ∧
    1 / (6 * N * M * M : ℝ) * (tetrahedra N.toNat M.toNat M.toNat).length = 1 := by
  have hna := cast_ne hN
  have hnb := cast_ne hM
  constructor
  · have hmod : 1 % M.toNat = 1 := Nat.mod_eq_of_lt (by omega)
    have hfin : 1 / (6 * N * M * M : ℝ) = 1 / 6 * |(M : ℝ)⁻¹ * ((M : ℝ)⁻¹ * (N : ℝ)⁻¹)| := by
      rw [abs_of_pos (by positivity)]; field_simp
    unfold volume3
    rw [hmod, mesh_get off _ s _ 0 0 1 1 (by simp; omega) (by simp; omega) (by simp; omega) (by simp),
      mesh_get off _ s _ 0 1 0 M.toNat (by simp; omega) (by simp; omega) (by simp; omega) (by simp),
      mesh_get off _ s _ 1 0 0 (M.toNat * M.toNat) (by simp; omega) (by simp; omega) (by simp; omega) (by simp),
      mesh_get off _ s _ 0 0 0 0 (by simp; omega) (by simp; omega) (by simp; omega) (by simp)]
    change Except.ok (1 / 6 * |_|) = _
    rw [diff_at, diff_at, diff_at, hfin]
    simp [dot, cross]
  · have hl : (tetrahedra N.toNat M.toNat M.toNat).length = 6 * (N.toNat * (M.toNat * M.toNat)) := by
      simp [tetrahedra, corners3, List.length_flatMap]; ring
    rw [hl]
    push_cast [toNat_cast hN, toNat_cast hM]
    field_simp

/-- **C43 refuted** (3-D, unequal divisions).  With divisions `(2, 4, 2)` the point taken for the second edge is not the
neighbour along the second direction (the code strides by the second division instead of the third); the weight is
1/48 instead of 1/96 and the weights of all tetrahedra add up to 2: the DOS is twice too large. -/
theorem C43_weight_3d_refuted (off : ℚ) (s : Fin 3 → ℚ) :
    volume3 (meshR off ![2, 4, 2] s ![true, true, true]) 4 2 = .ok (1 / 48) ∧
    (1 / 48 : ℝ) * (tetrahedra 2 4 2).length = 2 := by
  constructor
  · unfold volume3
    rw [mesh_get off _ s _ 0 0 1 (1 % 4) (by simp) (by simp) (by simp) (by simp),
      mesh_get off _ s _ 0 2 0 4 (by simp) (by simp) (by simp) (by simp),
      mesh_get off _ s _ 1 0 0 (4 * 2) (by simp) (by simp) (by simp) (by simp),
      mesh_get off _ s _ 0 0 0 0 (by simp) (by simp) (by simp) (by simp)]
    change Except.ok (1 / 6 * |_|) = _
    rw [diff_at, diff_at, diff_at]
    simp [dot, cross]
    norm_num
  · simp [tetrahedra, corners3, List.length_flatMap]; norm_num

/-- **C43 refuted** (one division).  With a single division along the periodic direction the segment weight is 0, so
the density of states vanishes identically (1-D). -/
theorem C43_single_division_refuted (off : ℚ) (s : Fin 3 → ℚ) :
    volume1 (meshR off ![1, 1, 1] s ![true, false, false]) 1 = .ok 0 := by
  unfold volume1
  rw [mesh_get off _ s _ 0 0 0 (1 % 1) (by simp) (by simp) (by simp) (by simp)]
  change Except.ok (Real.sqrt _) = _
  rw [diff_at]
  simp [dot]

/-- **C43 refuted** (one division along the first of two directions): an index error. -/
theorem C43_single_row_refuted (off : ℚ) (s : Fin 3 → ℚ) (M : ℤ) (hM : 2 ≤ M) :
    volume2 (meshR off ![1, M, 1] s ![true, true, false]) M.toNat 0 1 = .error .indexError := by
  unfold volume2
  have hmod : 1 % M.toNat = 1 := Nat.mod_eq_of_lt (by omega)
  have hlen : (meshR off ![1, M, 1] s ![true, true, false]).length = M.toNat := by
    simp [meshR, meshSpec, List.length_flatMap]
  have : getE (meshR off ![1, M, 1] s ![true, true, false]) M.toNat = .error .indexError := by
    unfold getE
    rw [List.getElem?_eq_none (by rw [hlen])]
  rw [hmod, mesh_get off _ s _ 0 1 0 1 (by simp) (by simp; omega) (by simp) (by simp), this]
  rfl

/-- A total of exactly one state per branch: C42 and C43 together, e.g. in 2-D. -/
theorem C43_normalised_2d_partial (off : ℚ) (N M : ℤ) (s : Fin 3 → ℚ) (hN : 2 ≤ N) (hM : 2 ≤ M) {arg : Argsort 3} (ha : Sorts arg) (nb nd : ℕ)
    (w : ℕ → ℕ → ℝ) (F : ℕ → ℕ → ℕ → ℝ) (hF : ∀ k b, b < nb → ∑ d ∈ Finset.range nd, F k b d = 1)
    (hflat : ∀ b < nb, ∀ t ∈ triangles N.toNat M.toNat, ∃ i j, w (t i) b ≠ w (t j) b) :
    ∃ vol, volume2 (meshR off ![N, M, 1] s ![true, true, false]) M.toNat 0 1 = .ok vol ∧
      ∫ f, total arg branch2 vol nb nd (triangles N.toNat M.toNat) w F f = nb := by
  obtain ⟨h1, h2⟩ := C43_weight_2d_partial off N M s hN hM
  refine ⟨_, h1 _ _ _ _ (Or.inl ⟨rfl, rfl, rfl, rfl⟩), ?_⟩
  rw [(C42_mesh_weight branch2_good ha _ nb nd _ w F hF hflat).2.2, h2, one_mul]

example : ∀ b < 1, ∀ t ∈ triangles 2 2, ∃ i j, ((t i : ℕ) : ℝ) ≠ (t j : ℕ) ∧ b = b := by
  intro b _ t ht
  have : ∀ t ∈ triangles 2 2, t 0 ≠ t 2 := by decide
  exact ⟨0, 2, by exact_mod_cast this t ht, rfl⟩

theorem C43_normalised_1d_partial (off : ℚ) (N : ℤ) (s : Fin 3 → ℚ) (hN : 2 ≤ N) {arg : Argsort 2} (ha : Sorts arg) (nb nd : ℕ)
    (w : ℕ → ℕ → ℝ) (F : ℕ → ℕ → ℕ → ℝ) (hF : ∀ k b, b < nb → ∑ d ∈ Finset.range nd, F k b d = 1)
    (hflat : ∀ b < nb, ∀ t ∈ segments N.toNat, ∃ i j, w (t i) b ≠ w (t j) b) :
    ∃ vol, volume1 (meshR off ![N, 1, 1] s ![true, false, false]) N.toNat = .ok vol ∧
      ∫ f, total arg branch1 vol nb nd (segments N.toNat) w F f = nb := by
  obtain ⟨h1, h2⟩ := C43_weight_1d_partial off N s hN
  refine ⟨_, h1 _ _ (Or.inl ⟨rfl, rfl⟩), ?_⟩
  rw [(C42_mesh_weight branch1_good ha _ nb nd _ w F hF hflat).2.2, h2, one_mul]

theorem C43_normalised_3d_partial (off : ℚ) (N M : ℤ) (s : Fin 3 → ℚ) (hN : 2 ≤ N) (hM : 2 ≤ M) {arg : Argsort 4} (ha : Sorts arg) (nb nd : ℕ)
    (w : ℕ → ℕ → ℝ) (F : ℕ → ℕ → ℕ → ℝ) (hF : ∀ k b, b < nb → ∑ d ∈ Finset.range nd, F k b d = 1)
    (hflat : ∀ b < nb, ∀ t ∈ tetrahedra N.toNat M.toNat M.toNat, ∃ i j, w (t i) b ≠ w (t j) b) :
    ∃ vol, volume3 (meshR off ![N, M, M] s ![true, true, true]) M.toNat M.toNat = .ok vol ∧
      ∫ f, total arg branch3 vol nb nd (tetrahedra N.toNat M.toNat M.toNat) w F f = nb := by
  obtain ⟨h1, h2⟩ := C43_weight_3d_partial off N M s hN hM
  refine ⟨_, h1, ?_⟩
  rw [(C42_mesh_weight branch3_good ha _ nb nd _ w F hF hflat).2.2, h2, one_mul]

/-! ### C45 -/

/-- What one simplex ought to add: the weight of each vertex times the squared amplitude of that vertex. -/
def ownVertex {m : ℕ} (arg : Argsort m) (br : ℝ → (Fin m → ℝ) → Branch m) (vol f : ℝ) (w F : ℕ → ℝ) (v : Fin m → ℕ) : Option ℝ :=
  match br f (sortedFreq arg w v) with
  | .skip => some 0
  | .nan => none
  | .inside g I => some (vol * g * ∑ i, I i * F (v (arg (fun j => w (v j)) i)))

/-- **C45** (partial).  If the vertices of the simplex come in strictly increasing frequency, each weight multiplies
the amplitude of its own vertex. -/
theorem C45_sorted_partial {m : ℕ} {arg : Argsort m} (ha : Sorts arg) (br : ℝ → (Fin m → ℝ) → Branch m) (vol f : ℝ) (w F : ℕ → ℝ) (v : Fin m → ℕ)
    (h : StrictMono fun i => w (v i)) : simplexStep arg br vol f w F (some 0) v = ownVertex arg br vol f w F v := by
  have hid : arg (fun i => w (v i)) = 1 := ha.id h
  have hs : sortedFreq arg w v = fun i => w (v i) := by funext i; unfold sortedFreq; rw [hid]; rfl
  change addTo (some 0) vol (usedAmp arg w F v) (br f (sortedFreq arg w v)) = _
  unfold ownVertex
  rcases hb : br f (sortedFreq arg w v) with _ | ⟨g, I⟩ | _
  · rfl
  · simp only [addTo, Option.map_some, zero_add]
    congr 3
    funext i
    unfold usedAmp
    rw [hs, hid]
    rfl
  · rfl

/-- **C45** (partial).  The sum over degrees of freedom (the total density) is not affected: it uses only that the modes are
normalised; equivalently, equal amplitudes at all vertices give the right result for any order of the vertices. -/
theorem C45_equal_amplitudes_partial {m : ℕ} (arg : Argsort m) (br : ℝ → (Fin m → ℝ) → Branch m) (vol f : ℝ) (w F : ℕ → ℝ) (v : Fin m → ℕ)
    (c : ℝ) (h : ∀ i, F (v i) = c) : simplexStep arg br vol f w F (some 0) v = ownVertex arg br vol f w F v := by
  change addTo (some 0) vol (usedAmp arg w F v) (br f (sortedFreq arg w v)) = _
  unfold ownVertex
  rcases hb : br f (sortedFreq arg w v) with _ | ⟨g, I⟩ | _
  · rfl
  · simp only [addTo, Option.map_some, zero_add, usedAmp, Function.comp_apply, h]
  · rfl

/-- **C45 refuted**: for every segment whose first vertex has the *higher* frequency, at the lower frequency the code adds
the amplitude of the first vertex instead of that of the second. -/
theorem C45_unsorted_refuted {arg : Argsort 2} (ha : Sorts arg) (vol : ℝ) (w F : ℕ → ℝ) (v : Fin 2 → ℕ) (h : w (v 1) < w (v 0)) :
    simplexStep arg branch1 vol (w (v 1)) w F (some 0) v = some (vol * (1 / (w (v 0) - w (v 1))) * F (v 0)) ∧
    ownVertex arg branch1 vol (w (v 1)) w F v = some (vol * (1 / (w (v 0) - w (v 1))) * F (v 1)) := by
  have hsw : arg (fun i => w (v i)) = Equiv.swap 0 1 := by
    have hm := ha (fun i => w (v i)) (show (0 : Fin 2) ≤ 1 by decide)
    simp only [Function.comp_apply] at hm
    set σ := arg (fun i => w (v i)) with hσ
    have h01 : σ 0 ≠ σ 1 := fun h => by simpa using σ.injective h
    have h0 : σ 0 = 1 := by
      by_contra hc
      have z : σ 0 = 0 := by omega
      have o : σ 1 = 1 := by omega
      rw [z, o] at hm
      linarith
    have h1 : σ 1 = 0 := by omega
    ext i
    fin_cases i
    · simp [h0]
    · simp [h1]
  have hs : sortedFreq arg w v = ![w (v 1), w (v 0)] := by
    funext i
    unfold sortedFreq
    rw [hsw]
    fin_cases i <;> simp
  have hid : arg ![w (v 1), w (v 0)] = 1 := by
    apply ha.id
    intro i j hij
    fin_cases i <;> fin_cases j <;> simp at hij ⊢
    exact h
  have hbr : branch1 (w (v 1)) ![w (v 1), w (v 0)] = .inside (1 / (w (v 0) - w (v 1))) ![1, 0] := by
    unfold branch1
    have hne : w (v 1) - w (v 0) ≠ 0 := by linarith
    simp [h, div_self hne]
  constructor
  · change addTo (some 0) vol (usedAmp arg w F v) (branch1 _ (sortedFreq arg w v)) = _
    rw [hs, hbr]
    unfold usedAmp
    rw [hs, hid]
    simp [addTo]
  · unfold ownVertex
    rw [hs, hbr]
    simp [hsw]

/-- **C45** (segments, exactly when).  For a segment, each weight multiplies the amplitude of its own vertex precisely when the vertices are not in
decreasing order of frequency, or the frequency is outside the segment, or the two amplitudes agree, or the frequency is exactly in the middle. -/
theorem C45_segment_iff {arg : Argsort 2} (ha : Sorts arg) (vol : ℝ) (hv : vol ≠ 0) (f : ℝ) (w F : ℕ → ℝ) (v : Fin 2 → ℕ) :
    simplexStep arg branch1 vol f w F (some 0) v = ownVertex arg branch1 vol f w F v ↔
      w (v 0) ≤ w (v 1) ∨ f < w (v 1) ∨ w (v 0) ≤ f ∨ F (v 0) = F (v 1) ∨ f = (w (v 0) + w (v 1)) / 2 := by
  rcases lt_trichotomy (w (v 0)) (w (v 1)) with h | h | h
  · refine ⟨fun _ => .inl h.le, fun _ => C45_sorted_partial ha branch1 vol f w F v ?_⟩
    intro i j hij
    fin_cases i <;> fin_cases j <;> simp at hij ⊢
    exact h
  · refine ⟨fun _ => .inl h.le, fun _ => ?_⟩
    have hc : ∀ i, w (v i) = w (v 0) := by intro i; fin_cases i <;> simp [h]
    have hsk : branch1 f (sortedFreq arg w v) = .skip := by
      unfold branch1 sortedFreq
      simp only [Function.comp_apply]
      rw [hc (arg (fun i => w (v i)) 0), hc (arg (fun i => w (v i)) 1), if_neg (fun q => absurd q.2 (not_lt.2 q.1))]
    change addTo (some 0) vol (usedAmp arg w F v) (branch1 _ (sortedFreq arg w v)) = _
    unfold ownVertex
    rw [hsk]
    rfl
  · have hsw : arg (fun i => w (v i)) = Equiv.swap 0 1 := by
      have hm := ha (fun i => w (v i)) (show (0 : Fin 2) ≤ 1 by decide)
      simp only [Function.comp_apply] at hm
      set σ := arg (fun i => w (v i)) with hσ
      have h01 : σ 0 ≠ σ 1 := fun h => by simpa using σ.injective h
      have h0 : σ 0 = 1 := by
        by_contra hc
        have z : σ 0 = 0 := by omega
        have o : σ 1 = 1 := by omega
        rw [z, o] at hm
        linarith
      have h1 : σ 1 = 0 := by omega
      ext i
      fin_cases i
      · simp [h0]
      · simp [h1]
    have hs : sortedFreq arg w v = ![w (v 1), w (v 0)] := by
      funext i
      unfold sortedFreq
      rw [hsw]
      fin_cases i <;> simp
    have hid : arg ![w (v 1), w (v 0)] = 1 := by
      apply ha.id
      intro i j hij
      fin_cases i <;> fin_cases j <;> simp at hij ⊢
      exact h
    by_cases hin : w (v 1) ≤ f ∧ f < w (v 0)
    · have hbr : branch1 f ![w (v 1), w (v 0)] = .inside (1 / (w (v 0) - w (v 1))) ![(f - w (v 0)) / (w (v 1) - w (v 0)), (f - w (v 1)) / (w (v 0) - w (v 1))] := by
        unfold branch1
        simp [hin]
      have e1 : simplexStep arg branch1 vol f w F (some 0) v = some (vol * (1 / (w (v 0) - w (v 1))) *
          ((f - w (v 0)) / (w (v 1) - w (v 0)) * F (v 0) + (f - w (v 1)) / (w (v 0) - w (v 1)) * F (v 1))) := by
        change addTo (some 0) vol (usedAmp arg w F v) (branch1 _ (sortedFreq arg w v)) = _
        rw [hs, hbr]
        unfold usedAmp
        rw [hs, hid]
        simp [addTo, Fin.sum_univ_two]
      have e2 : ownVertex arg branch1 vol f w F v = some (vol * (1 / (w (v 0) - w (v 1))) *
          ((f - w (v 0)) / (w (v 1) - w (v 0)) * F (v 1) + (f - w (v 1)) / (w (v 0) - w (v 1)) * F (v 0))) := by
        unfold ownVertex
        rw [hs, hbr]
        simp [hsw, Fin.sum_univ_two]
      rw [e1, e2, Option.some.injEq]
      generalize w (v 0) = b at *
      generalize w (v 1) = a at *
      generalize F (v 0) = x
      generalize F (v 1) = y
      have h1 : b - a ≠ 0 := by linarith
      have h2 : a - b ≠ 0 := by linarith
      have key : vol * (1 / (b - a)) * ((f - b) / (a - b) * x + (f - a) / (b - a) * y) - vol * (1 / (b - a)) * ((f - b) / (a - b) * y + (f - a) / (b - a) * x) =
          vol / (b - a) ^ 2 * ((x - y) * (a + b - 2 * f)) := by
        rw [show a - b = -(b - a) by ring]
        field_simp
        ring
      rw [← sub_eq_zero, key]
      have hc : vol / (b - a) ^ 2 ≠ 0 := div_ne_zero hv (pow_ne_zero 2 h1)
      constructor
      · intro q
        rcases mul_eq_zero.1 ((mul_eq_zero.1 q).resolve_left hc) with q | q
        · exact .inr (.inr (.inr (.inl (by linarith))))
        · exact .inr (.inr (.inr (.inr (by linarith))))
      · rintro (q | q | q | q | q)
        · exact absurd h (not_lt.2 q)
        · exact absurd q (not_lt.2 hin.1)
        · exact absurd hin.2 (not_lt.2 q)
        · rw [q]; ring
        · rw [q]; ring
    · have hsk : branch1 f (sortedFreq arg w v) = .skip := by
        rw [hs]
        unfold branch1
        exact if_neg hin
      refine ⟨fun _ => ?_, fun _ => ?_⟩
      · rcases not_and_or.1 hin with q | q
        · exact .inr (.inl (not_le.1 q))
        · exact .inr (.inr (.inl (not_lt.1 q)))
      · change addTo (some 0) vol (usedAmp arg w F v) (branch1 _ (sortedFreq arg w v)) = _
        unfold ownVertex
        rw [hsk]
        rfl

end

end Interphon.Props
