import Verif.Model.KPoints
import Mathlib.Tactic.Ring
import Mathlib.Tactic.FieldSimp
import Mathlib.Tactic.FinCases
import Mathlib.Tactic.IntervalCases
import Mathlib.Tactic.NormNum
import Mathlib.Algebra.Order.Ring.Int

/-! # Properties C33–C39: k-point files -/

namespace Interphon.Props
open Py Interphon Interphon.KPoints

/-! ### Specification -/

/-- The file gives divisions `n` on its fourth line and shift `s` on its fifth (absent: zero shift). -/
structure MeshFile (lines : List Str) (n : Fin 3 → ℤ) (s : Fin 3 → ℚ) : Prop where
  divisions : ∃ l t0 t1 t2 rest, lines[3]? = some l ∧ split l = t0 :: t1 :: t2 :: rest ∧
    parseInt t0 = some (n 0) ∧ parseInt t1 = some (n 1) ∧ parseInt t2 = some (n 2)
  shift : (lines[4]? = none ∧ s = 0) ∨ ∃ l t0 t1 t2 rest, lines[4]? = some l ∧ split l = t0 :: t1 :: t2 :: rest ∧
    parseFloat t0 = some (s 0) ∧ parseFloat t1 = some (s 1) ∧ parseFloat t2 = some (s 2)

/-- Mesh point with integer index `(i 0, i 1, i 2)`: `(i_c + s_c + off)/n_c` along periodic directions, zero
along the others. -/
def meshPoint (off : ℚ) (n : Fin 3 → ℤ) (s : Fin 3 → ℚ) (p : Fin 3 → Bool) (i : Fin 3 → ℕ) : V3 ℚ :=
  fun c => if p c then ((i c : ℚ) + s c + off) / (n c : ℚ) else 0

/-- All mesh points, third index fastest. -/
def meshSpec (off : ℚ) (n : Fin 3 → ℤ) (s : Fin 3 → ℚ) (p : Fin 3 → Bool) : List (V3 ℚ) :=
  (List.range (n 0).toNat).flatMap fun i => (List.range (n 1).toNat).flatMap fun j =>
    (List.range (n 2).toNat).map fun k => meshPoint off n s p ![i, j, k]

/-! ### Proofs about the loops -/

private theorem mapM_ok {α β : Type} (l : List α) (f : α → β) : (l.mapM fun x => (.ok (f x) : Run β)) = .ok (l.map f) := by
  induction l with
  | nil => rfl
  | cons a l ih => simp [List.mapM_cons, ih]; rfl

private theorem getE_three {α : Type} (f : Fin 3 → α) (c : Fin 3) : getE [f 0, f 1, f 2] (c : ℕ) = .ok (f c) := by
  fin_cases c <;> rfl

private theorem bind_ok {α β : Type} (a : α) (f : α → Run β) : ((.ok a : Run α) >>= f) = f a := rfl

private theorem coef_ok (off : ℚ) (n : Fin 3 → ℤ) (s : Fin 3 → ℚ) (c : Fin 3) (i : ℕ) :
    coef off [n 0, n 1, n 2] [s 0, s 1, s 2] c i = .ok ((i + s c + off) / n c) := by
  simp only [coef, getE_three, bind_ok]

private theorem meshPoint_sum (off : ℚ) (n : Fin 3 → ℤ) (s : Fin 3 → ℚ) (p : Fin 3 → Bool) (i : Fin 3 → ℕ) :
    meshPoint off n s p i = (if p 0 then unitVec 0 ((i 0 + s 0 + off) / n 0) else 0) +
      (if p 1 then unitVec 1 ((i 1 + s 1 + off) / n 1) else 0) + (if p 2 then unitVec 2 ((i 2 + s 2 + off) / n 2) else 0) := by
  funext c
  fin_cases c <;> rcases h0 : p 0 with _ | _ <;> rcases h1 : p 1 with _ | _ <;> rcases h2 : p 2 with _ | _ <;>
    simp [meshPoint, unitVec, h0, h1, h2]

private theorem flatMap_single {α β : Type} (l : List α) (f : α → β) : (l.flatMap fun x => [f x]) = l.map f := by
  induction l <;> simp [*]

theorem mesh_ok (off : ℚ) (n : Fin 3 → ℤ) (s : Fin 3 → ℚ) (p : Fin 3 → Bool) (h : ∀ c, p c = false → n c = 1) :
    mesh off [n 0, n 1, n 2] [s 0, s 1, s 2] (indPbc p) = .ok (meshSpec off n s p) := by
  have m0 := h 0
  have m1 := h 1
  have m2 := h 2
  unfold meshSpec
  simp only [meshPoint_sum, indPbc, List.filter]
  rcases h0 : p 0 with _ | _ <;> rcases h1 : p 1 with _ | _ <;> rcases h2 : p 2 with _ | _ <;>
    simp only [h0, h1, h2, forall_const, reduceCtorEq, false_imp_iff] at m0 m1 m2 <;>
    simp only [mesh, getE_three, bind_ok, coef_ok, mapM_ok, rangeInt, ← List.flatMap_def] <;>
    simp only [m0, m1, m2, if_true, if_false, zero_add, add_zero,
      Int.toNat_one, List.range_one, List.flatMap_singleton, List.map_cons, List.map_nil, flatMap_single, Bool.false_eq_true,
      Matrix.cons_val_zero, Matrix.cons_val_one, Matrix.cons_val] <;>
    try rfl

private theorem mapM_three {α β : Type} (f : α → Run β) (a b c : α) (x y z : β) (ha : f a = .ok x) (hb : f b = .ok y) (hc : f c = .ok z) :
    [a, b, c].mapM f = .ok [x, y, z] := by
  simp only [List.mapM_cons, List.mapM_nil, ha, hb, hc]; rfl

theorem readDivisions_ok {lines : List Str} {n : Fin 3 → ℤ} {s : Fin 3 → ℚ} (h : MeshFile lines n s) :
    readDivisions lines = .ok [n 0, n 1, n 2] := by
  obtain ⟨l, t0, t1, t2, rest, hl, hs, h0, h1, h2⟩ := h.divisions
  simp only [readDivisions, getE, hl, bind_ok, hs, List.take_succ_cons, List.take_zero]
  exact mapM_three toInt _ _ _ _ _ _ (by simp [toInt, h0]) (by simp [toInt, h1]) (by simp [toInt, h2])

private theorem readShift_ok {lines : List Str} {n : Fin 3 → ℤ} {s : Fin 3 → ℚ} (h : MeshFile lines n s) :
    readShift lines = .ok [s 0, s 1, s 2] := by
  rcases h.shift with ⟨hl, rfl⟩ | ⟨l, t0, t1, t2, rest, hl, hs, h0, h1, h2⟩
  · simp [readShift, hl]
  · simp only [readShift, hl, hs, List.take_succ_cons, List.take_zero]
    exact mapM_three toFloat _ _ _ _ _ _ (by simp [toFloat, h0]) (by simp [toFloat, h1]) (by simp [toFloat, h2])

theorem checkPbc_iff (p : Fin 3 → Bool) (n : Fin 3 → ℤ) (l : List (Fin 3)) :
    ((∀ c ∈ l, p c = false → n c = 1) → checkPbc p [n 0, n 1, n 2] l = .ok ()) ∧
    ((∃ c ∈ l, p c = false ∧ n c ≠ 1) → checkPbc p [n 0, n 1, n 2] l = .error .mismatchKpath) := by
  induction l with
  | nil => simp [checkPbc]
  | cons c l ih =>
    obtain ⟨ih1, ih2⟩ := ih
    cases hp : p c with
    | true =>
      constructor
      · intro h
        simp only [checkPbc, hp, if_true]
        exact ih1 fun c' hc' => h c' (List.mem_cons_of_mem _ hc')
      · rintro ⟨c', hc', h1, h2⟩
        simp only [checkPbc, hp, if_true]
        rcases List.mem_cons.mp hc' with rfl | hm
        · rw [hp] at h1; exact absurd h1 (by simp)
        · exact ih2 ⟨c', hm, h1, h2⟩
    | false =>
      have hg := getE_three n c
      constructor
      · intro h
        have h1 : n c = 1 := h c (by simp) hp
        simp only [checkPbc, hp, Bool.false_eq_true, if_false, hg, h1, ne_eq, not_true_eq_false]
        exact ih1 fun c' hc' => h c' (List.mem_cons_of_mem _ hc')
      · rintro ⟨c', hc', h1, h2⟩
        simp only [checkPbc, hp, Bool.false_eq_true, if_false, hg]
        by_cases hn : n c = 1
        · simp only [hn, ne_eq, not_true_eq_false, if_false]
          rcases List.mem_cons.mp hc' with rfl | hm
          · exact absurd hn h2
          · exact ih2 ⟨c', hm, h1, h2⟩
        · simp [hn]

private theorem all_mem (c : Fin 3) : c ∈ ([0, 1, 2] : List (Fin 3)) := by fin_cases c <;> simp

/-! ### C33, C34, C35 -/

/-- **C33** (points).  `gamma_centered` on a well-formed file whose non-periodic directions have division 1
returns exactly the mesh `(i_c + s_c)/n_c`, third index fastest, and the divisions. -/
theorem C33_gamma_mesh {lines : List Str} {n : Fin 3 → ℤ} {s : Fin 3 → ℚ} (h : MeshFile lines n s) (p : Fin 3 → Bool)
    (hp : ∀ c, p c = false → n c = 1) :
    gammaCentered lines p = .ok (meshSpec 0 n s p, [n 0, n 1, n 2]) := by
  simp only [gammaCentered, readDivisions_ok h, bind_ok, (checkPbc_iff p n _).1 (fun c _ => hp c), readShift_ok h,
    mesh_ok 0 n s p hp]

/-- **C34** (points).  `monkhorst_pack` returns the mesh displaced by half a step along periodic directions. -/
theorem C34_mp_mesh {lines : List Str} {n : Fin 3 → ℤ} {s : Fin 3 → ℚ} (h : MeshFile lines n s) (p : Fin 3 → Bool)
    (hp : ∀ c, p c = false → n c = 1) :
    monkhorstPack lines p = .ok (meshSpec (1 / 2) n s p, [n 0, n 1, n 2]) := by
  simp only [monkhorstPack, readDivisions_ok h, bind_ok, (checkPbc_iff p n _).1 (fun c _ => hp c), readShift_ok h,
    mesh_ok (1 / 2) n s p hp]

private theorem length_flatMap_const {α β : Type} (l : List α) (f : α → List β) (k : ℕ) (h : ∀ x ∈ l, (f x).length = k) :
    (l.flatMap f).length = l.length * k := by
  induction l with
  | nil => simp
  | cons a l ih =>
    rw [List.flatMap_cons, List.length_append, h a (by simp), ih fun x hx => h x (List.mem_cons_of_mem _ hx), List.length_cons]
    ring

private theorem getElem?_flatMap_const {α β : Type} (l : List α) (f : α → List β) (k : ℕ) (h : ∀ x ∈ l, (f x).length = k)
    (i j : ℕ) (hj : j < k) (x : α) (hx : l[i]? = some x) : (l.flatMap f)[i * k + j]? = (f x)[j]? := by
  induction l generalizing i with
  | nil => simp at hx
  | cons a l ih =>
    rw [List.flatMap_cons]
    cases i with
    | zero =>
      simp only [List.getElem?_cons_zero, Option.some.injEq] at hx
      subst hx
      rw [Nat.zero_mul, Nat.zero_add, List.getElem?_append_left (by rw [h a (by simp)]; exact hj)]
    | succ i =>
      rw [List.getElem?_append_right (by rw [h a (by simp)]; nlinarith), h a (by simp),
        show (i + 1) * k + j - k = i * k + j by rw [Nat.add_mul]; omega]
      exact ih (fun x hx => h x (List.mem_cons_of_mem _ hx)) i (by simpa using hx)

/-- **C33/C34** (count).  The mesh has `n₁·n₂·n₃` points. -/
theorem C33_count (off : ℚ) (n : Fin 3 → ℤ) (s : Fin 3 → ℚ) (p : Fin 3 → Bool) (hn : ∀ c, 0 < n c) :
    ((meshSpec off n s p).length : ℤ) = n 0 * n 1 * n 2 := by
  have hlen : (meshSpec off n s p).length = (n 0).toNat * ((n 1).toNat * (n 2).toNat) := by
    unfold meshSpec
    rw [length_flatMap_const _ _ ((n 1).toNat * (n 2).toNat)]
    · simp
    · intro i _
      rw [length_flatMap_const _ _ (n 2).toNat]
      · simp
      · intro j _; simp
  rw [hlen]
  push_cast [Int.toNat_of_nonneg (hn 0).le, Int.toNat_of_nonneg (hn 1).le, Int.toNat_of_nonneg (hn 2).le]
  ring

/-- **C33/C34** (order).  The point with index `(i,j,k)` is at position `(i·n₂ + j)·n₃ + k`. -/
theorem C33_order (off : ℚ) (n : Fin 3 → ℤ) (s : Fin 3 → ℚ) (p : Fin 3 → Bool) (i j k : ℕ)
    (hi : (i : ℤ) < n 0) (hj : (j : ℤ) < n 1) (hk : (k : ℤ) < n 2) :
    (meshSpec off n s p)[(i * (n 1).toNat + j) * (n 2).toNat + k]? = some (meshPoint off n s p ![i, j, k]) := by
  unfold meshSpec
  have hx : (List.range (n 0).toNat)[i]? = some i := List.getElem?_range (by omega)
  have hy : (List.range (n 1).toNat)[j]? = some j := List.getElem?_range (by omega)
  have hz : (List.range (n 2).toNat)[k]? = some k := List.getElem?_range (by omega)
  have hlt : j * (n 2).toNat + k < (n 1).toNat * (n 2).toNat := by
    have h1 : j + 1 ≤ (n 1).toNat := by omega
    have h2 : k < (n 2).toNat := by omega
    calc j * (n 2).toNat + k < (j + 1) * (n 2).toNat := by rw [Nat.add_mul]; omega
      _ ≤ _ := Nat.mul_le_mul_right _ h1
  rw [show (i * (n 1).toNat + j) * (n 2).toNat + k = i * ((n 1).toNat * (n 2).toNat) + (j * (n 2).toNat + k) by ring]
  rw [getElem?_flatMap_const _ _ ((n 1).toNat * (n 2).toNat) _ i _ hlt i hx]
  · rw [getElem?_flatMap_const _ _ (n 2).toNat _ j k (by omega) j hy]
    · simp [hz]
    · intro y _; simp
  · intro x _
    rw [length_flatMap_const _ _ (n 2).toNat]
    · simp
    · intro y _; simp

/-- **C33** (Gamma).  With zero shift the first point of the Gamma-centred mesh is Gamma. -/
theorem C33_gamma_first (n : Fin 3 → ℤ) (p : Fin 3 → Bool) (hn : ∀ c, 0 < n c) :
    (meshSpec 0 n 0 p)[0]? = some 0 := by
  have := C33_order 0 n 0 p 0 0 0 (hn 0) (hn 1) (hn 2)
  simp only [Nat.zero_mul, Nat.zero_add] at this
  rw [this]
  congr 1
  funext c
  fin_cases c <;> simp [meshPoint]

/-- **C33/C34** (distinct).  Two mesh points with different indices (zero along non-periodic directions)
never differ by integers in all components. -/
theorem C33_distinct (off : ℚ) (n : Fin 3 → ℤ) (s : Fin 3 → ℚ) (p : Fin 3 → Bool) (hp : ∀ c, p c = false → n c = 1)
    (i j : Fin 3 → ℕ) (hi : ∀ c, (i c : ℤ) < n c) (hj : ∀ c, (j c : ℤ) < n c)
    (h : ∀ c, ∃ z : ℤ, meshPoint off n s p i c - meshPoint off n s p j c = z) : i = j := by
  funext c
  have hic := hi c
  have hjc := hj c
  cases hpc : p c with
  | false => have := hp c hpc; omega
  | true =>
    obtain ⟨z, hz⟩ := h c
    have hn : 0 < n c := by omega
    have hnq : (n c : ℚ) ≠ 0 := by exact_mod_cast hn.ne'
    simp only [meshPoint, hpc, if_true] at hz
    have hz' : ((i c : ℚ)) - j c = z * n c := by
      field_simp at hz
      linarith
    have hz2 : (i c : ℤ) - j c = z * n c := by exact_mod_cast hz'
    have : z = 0 := by
      by_contra hne
      rcases lt_or_gt_of_ne hne with hlt | hgt
      · have : z * n c ≤ (-1) * n c := mul_le_mul_of_nonneg_right (by omega) hn.le
        omega
      · have : 1 * n c ≤ z * n c := mul_le_mul_of_nonneg_right (by omega) hn.le
        omega
    subst this
    omega

/-- The standard Monkhorst–Pack fractions along one direction, `u_r = (2r - n - 1)/(2n)`, `r = 1..n`. -/
def mpStandard (n : ℕ) (r : ℕ) : ℚ := (2 * (r + 1 : ℚ) - n - 1) / (2 * n)

/-- Full C34: along each direction the fractions used are the standard ones modulo integers. -/
def C34_full : Prop := ∀ n : ℕ, 0 < n → ∀ r < n, ∃ i < n, ∃ z : ℤ, ((i : ℚ) + 0 + 1 / 2) / n - mpStandard n r = z

/-- **C34, proved part.**  For an even division the fractions `(i + 1/2)/n` are, modulo integers, exactly the
standard Monkhorst–Pack fractions (in both directions). Missing: odd divisions (`C34_refuted`). -/
theorem C34_even_standard_partial (n : ℕ) (hn : 0 < n) (he : n % 2 = 0) :
    (∀ r < n, ∃ i < n, ∃ z : ℤ, ((i : ℚ) + 0 + 1 / 2) / n - mpStandard n r = z) ∧
    (∀ i < n, ∃ r < n, ∃ z : ℤ, ((i : ℚ) + 0 + 1 / 2) / n - mpStandard n r = z) := by
  obtain ⟨m, rfl⟩ : ∃ m, n = 2 * m := ⟨n / 2, by omega⟩
  have hm : 0 < m := by omega
  have hmq : (m : ℚ) ≠ 0 := by exact_mod_cast hm.ne'
  have key : ∀ i r : ℕ, ∀ z : ℤ, (i : ℤ) + m - r = z * (2 * m) →
      ((i : ℚ) + 0 + 1 / 2) / (2 * m : ℕ) - mpStandard (2 * m) r = z := by
    intro i r z h
    have hq : (i : ℚ) + m - r = z * (2 * m) := by exact_mod_cast h
    unfold mpStandard
    push_cast
    field_simp
    linarith
  constructor
  · intro r hr
    rcases Nat.lt_or_ge r m with h | h
    · exact ⟨r + m, by omega, 1, key _ _ _ (by push_cast; ring)⟩
    · exact ⟨r - m, by omega, 0, key _ _ _ (by omega)⟩
  · intro i hi
    rcases Nat.lt_or_ge i m with h | h
    · exact ⟨i + m, by omega, 0, key _ _ _ (by push_cast; ring)⟩
    · exact ⟨i - m, by omega, 1, key _ _ _ (by omega)⟩

/-- For every odd division, no fraction used is an integer: the mesh misses Gamma although the standard set
contains it (at `r = (n-1)/2`). -/
theorem C34_odd_misses_gamma (n : ℕ) (hn : n % 2 = 1) :
    mpStandard n ((n - 1) / 2) = 0 ∧ ∀ i < n, ∀ z : ℤ, ((i : ℚ) + 0 + 1 / 2) / n ≠ z := by
  obtain ⟨m, rfl⟩ : ∃ m, n = 2 * m + 1 := ⟨n / 2, by omega⟩
  constructor
  · rw [show (2 * m + 1 - 1) / 2 = m by omega]
    unfold mpStandard
    push_cast
    ring
  · intro i hi z h
    have hq : ((2 * m + 1 : ℕ) : ℚ) ≠ 0 := by positivity
    rw [div_eq_iff hq] at h
    have h2 : 2 * (i : ℚ) + 1 = 2 * (z * (2 * m + 1 : ℕ)) := by linarith
    have h3 : 2 * (i : ℤ) + 1 = 2 * (z * (2 * m + 1 : ℕ)) := by exact_mod_cast h2
    omega

/-- **C34 is false for odd divisions.** -/
theorem C34_refuted : ¬ C34_full := by
  intro h
  obtain ⟨h0, h1⟩ := C34_odd_misses_gamma 3 rfl
  obtain ⟨i, hi, z, hz⟩ := h 3 (by norm_num) 1 (by norm_num)
  rw [h0, sub_zero] at hz
  exact h1 i hi z hz

/-- **C34** (exact condition).  Along a direction with `n` divisions the fractions used are the standard Monkhorst–Pack fractions, modulo integers, exactly if `n` is even. -/
theorem C34_standard_iff (n : ℕ) (hn : 0 < n) :
    ((∀ r < n, ∃ i < n, ∃ z : ℤ, ((i : ℚ) + 0 + 1 / 2) / n - mpStandard n r = z) ∧
      (∀ i < n, ∃ r < n, ∃ z : ℤ, ((i : ℚ) + 0 + 1 / 2) / n - mpStandard n r = z)) ↔ n % 2 = 0 := by
  refine ⟨fun ⟨h, _⟩ => ?_, C34_even_standard_partial n hn⟩
  by_contra ho
  obtain ⟨h0, h1⟩ := C34_odd_misses_gamma n (by omega)
  obtain ⟨i, hi, z, hz⟩ := h ((n - 1) / 2) (by omega)
  rw [h0, sub_zero] at hz
  exact h1 i hi z hz

/-- **C35.**  On a well-formed file both mesh generators raise `Mismatch_Kpath_and_PBC_Error` exactly when a
non-periodic direction has a division other than 1. -/
theorem C35_mismatch_iff {lines : List Str} {n : Fin 3 → ℤ} {s : Fin 3 → ℚ} (h : MeshFile lines n s) (p : Fin 3 → Bool) :
    (gammaCentered lines p = .error .mismatchKpath ↔ ∃ c, p c = false ∧ n c ≠ 1) ∧
    (monkhorstPack lines p = .error .mismatchKpath ↔ ∃ c, p c = false ∧ n c ≠ 1) := by
  by_cases hc : ∃ c, p c = false ∧ n c ≠ 1
  · obtain ⟨c, h1, h2⟩ := hc
    have he := (checkPbc_iff p n [0, 1, 2]).2 ⟨c, all_mem c, h1, h2⟩
    have e1 : gammaCentered lines p = .error .mismatchKpath := by
      simp only [gammaCentered, readDivisions_ok h, bind_ok, he]; rfl
    have e2 : monkhorstPack lines p = .error .mismatchKpath := by
      simp only [monkhorstPack, readDivisions_ok h, bind_ok, he]; rfl
    exact ⟨⟨fun _ => ⟨c, h1, h2⟩, fun _ => e1⟩, ⟨fun _ => ⟨c, h1, h2⟩, fun _ => e2⟩⟩
  · have hp : ∀ c, p c = false → n c = 1 := fun c hpc => by
      by_contra hne; exact hc ⟨c, hpc, hne⟩
    rw [C33_gamma_mesh h p hp, C34_mp_mesh h p hp]
    simp [hc]

/-- A concrete mesh file. -/
def exampleMesh : List Str := ["mesh", "0", "Gamma", "3 2 1", "0.5 0 0.0"].map String.toList

theorem exampleMesh_ok : MeshFile exampleMesh ![3, 2, 1] ![1 / 2, 0, 0] :=
  ⟨⟨"3 2 1".toList, "3".toList, "2".toList, "1".toList, [], by decide +kernel, by decide +kernel, by decide +kernel, by decide +kernel, by decide +kernel⟩,
   Or.inr ⟨"0.5 0 0.0".toList, "0.5".toList, "0".toList, "0.0".toList, [], by decide +kernel, by decide +kernel, by decide +kernel, by decide +kernel, by decide +kernel⟩⟩

example : gammaCentered exampleMesh ![true, true, false] =
    .ok (meshSpec 0 ![3, 2, 1] ![1 / 2, 0, 0] ![true, true, false], [3, 2, 1]) :=
  C33_gamma_mesh exampleMesh_ok _ (by decide)

example : gammaCentered exampleMesh ![true, false, false] = .error .mismatchKpath :=
  ((C35_mismatch_iff exampleMesh_ok _).1).2 ⟨1, rfl, by decide⟩

/-! ### C36, C37, C38: line paths -/

/-- A non-blank line that starts with the three numbers `v`. -/
def IsPointLine (l : Str) (v : V3 ℚ) : Prop :=
  ∃ t0 t1 t2 rest, split l = t0 :: t1 :: t2 :: rest ∧
    parseFloat t0 = some (v 0) ∧ parseFloat t1 = some (v 1) ∧ parseFloat t2 = some (v 2)

/-- A line-path file: second line starts with `num`; after the third line, apart from blank lines, there are
the end points `ends` in order. -/
structure PathFile (lines : List Str) (num : ℤ) (ends : List (V3 ℚ)) : Prop where
  number : ∃ l t rest, lines[1]? = some l ∧ split l = t :: rest ∧ parseInt t = some num
  points : List.Forall₂ IsPointLine ((lines.drop 3).filter fun l => split l ≠ []) ends

/-- Consecutive pairs. -/
def pairs {α : Type} : List α → List (α × α)
  | a :: b :: rest => (a, b) :: pairs rest
  | _ => []

theorem asfarray_ok {l : Str} {v : V3 ℚ} (h : IsPointLine l v) : asfarray ((split l).take 3) = .ok v := by
  obtain ⟨t0, t1, t2, rest, hs, h0, h1, h2⟩ := h
  simp only [asfarray, hs, List.take_succ_cons, List.take_zero]
  rw [mapM_three toFloat _ _ _ _ _ _ (by rw [toFloat, h0]) (by rw [toFloat, h1]) (by rw [toFloat, h2])]
  simp only [bind_ok]
  congr 1
  funext c
  fin_cases c <;> rfl

/-- The `num` equally spaced points from `a` to `b`. -/
def segPoint (num : ℤ) (a b : V3 ℚ) (i : ℕ) : V3 ℚ := fun c => a c + (i : ℚ) / (num - 1) * (b c - a c)

theorem linspace_ok (a b : V3 ℚ) (num : ℤ) (h : 1 ≤ num) :
    linspace a b num = .ok ((List.range num.toNat).map (segPoint num a b)) := by
  unfold linspace
  rw [if_neg (by omega)]
  split_ifs with h1
  · subst h1
    congr 1
    have : segPoint 1 a b 0 = a := by funext c; simp [segPoint]
    simp [this]
  · congr 1
    apply List.map_congr_left
    intro i _
    funext c
    simp only [segPoint]
    ring

theorem segLoop_ok (p : Fin 3 → Bool) (num : ℤ) (hnum : 1 ≤ num) (hp : ∃ c, p c = false) :
    ∀ (ls : List Str) (vs : List (V3 ℚ)), List.Forall₂ IsPointLine ls vs →
      (∀ q ∈ pairs vs, ∀ c, p c = false → q.1 c = 0) →
      segLoop p num (ls.map fun l => (split l).take 3) =
        .ok ((pairs vs).flatMap fun q => (List.range num.toNat).map (segPoint num q.1 q.2)) := by
  have hne : indNonPbc p ≠ [] := by
    obtain ⟨c, hc⟩ := hp
    have : c ∈ indNonPbc p := List.mem_filter.mpr ⟨all_mem c, by simp [hc]⟩
    exact List.ne_nil_of_mem this
  intro ls
  induction ls using List.twoStepInduction with
  | nil => intro vs h _; cases h; rfl
  | singleton a => intro vs h _; cases h with | cons h1 h2 => cases h2; rfl
  | cons_cons a b ls ih _ =>
    intro vs h hq
    cases h with
    | cons h1 h2 =>
      cases h2 with
      | @cons _ w _ ws h2 h3 =>
        rename_i v
        have hbad : anyNonPbc p v = .ok false := by
          unfold anyNonPbc
          rw [if_neg hne]
          congr 1
          rw [List.any_eq_false]
          intro c hc
          have hpc : p c = false := by simpa [indNonPbc] using (List.mem_filter.mp hc).2
          have : v c = 0 := hq (v, w) (by simp [pairs]) c hpc
          simp [this]
        simp only [List.map_cons, segLoop, asfarray_ok h1, asfarray_ok h2, bind_ok, hbad, Bool.false_eq_true, if_false,
          linspace_ok v w num hnum, pairs, List.flatMap_cons]
        rw [ih ws h3 fun q hqm => hq q (by simp [pairs, hqm])]
        rfl

/-- **C36.**  If there is a non-periodic direction, the number of end points is even and the start of each
segment is zero along non-periodic directions, `line_path` succeeds and the `i`-th point of segment `s` is
`a_s + i/(num-1)·(b_s − a_s)`; nothing else is returned. -/
theorem C36_line_points {lines : List Str} {num : ℤ} {ends : List (V3 ℚ)} (h : PathFile lines num ends)
    (hnum : 1 ≤ num) (heven : ends.length % 2 = 0) (p : Fin 3 → Bool) (hp : ∃ c, p c = false)
    (hstart : ∀ q ∈ pairs ends, ∀ c, p c = false → q.1 c = 0) :
    ∃ pts, linePath lines p = .ok pts ∧ pts.length = (pairs ends).length * num.toNat ∧
      ∀ (s : ℕ) (a b : V3 ℚ) (i : ℕ), (pairs ends)[s]? = some (a, b) → i < num.toNat →
        pts[s * num.toNat + i]? = some (segPoint num a b i) := by
  obtain ⟨l, t, rest, hl, hs, ht⟩ := h.number
  have hlen := h.points.length_eq
  refine ⟨(pairs ends).flatMap fun q => (List.range num.toNat).map (segPoint num q.1 q.2), ?_, ?_, ?_⟩
  · simp only [linePath, getE, hl, bind_ok, firstTok, hs, List.getElem?_cons_zero, toInt, ht, List.length_map]
    rw [if_neg (by rw [hlen]; omega)]
    exact segLoop_ok p num hnum hp _ _ h.points hstart
  · rw [length_flatMap_const _ _ num.toNat]
    intro q _; simp
  · intro s a b i hsab hi
    rw [getElem?_flatMap_const _ _ num.toNat _ s i hi (a, b) hsab]
    · simp [List.getElem?_range hi]
    · intro q _; simp

/-- **C36** (end points).  A segment of at least two points starts at its first and ends at its second end point. -/
theorem C36_segment_ends (num : ℤ) (hnum : 2 ≤ num) (a b : V3 ℚ) :
    segPoint num a b 0 = a ∧ segPoint num a b (num.toNat - 1) = b := by
  constructor
  · funext c; simp [segPoint]
  · funext c
    have h1 : ((num.toNat - 1 : ℕ) : ℚ) = (num : ℚ) - 1 := by
      rw [Nat.cast_sub (by omega)]
      have : ((num.toNat : ℤ) : ℚ) = (num : ℚ) := by rw [Int.toNat_of_nonneg (by omega)]
      push_cast at this ⊢
      rw [this]
    have h2 : (num : ℚ) - 1 ≠ 0 := by
      have : (2 : ℚ) ≤ num := by exact_mod_cast hnum
      linarith
    simp only [segPoint, h1, div_self h2]
    ring

/-- **C36** (odd).  An odd number of end points is rejected, whatever the periodicity. -/
theorem C36_odd_rejected {lines : List Str} {num : ℤ} {ends : List (V3 ℚ)} (h : PathFile lines num ends)
    (hodd : ends.length % 2 = 1) (p : Fin 3 → Bool) : linePath lines p = .error .invalidLineKpath := by
  obtain ⟨l, t, rest, hl, hs, ht⟩ := h.number
  have hlen := h.points.length_eq
  simp only [linePath, getE, hl, bind_ok, firstTok, hs, List.getElem?_cons_zero, toInt, ht, List.length_map]
  rw [if_pos (by rw [hlen]; omega)]

/-- Full C37: whenever `line_path` succeeds, every point is zero along non-periodic directions. -/
def C37_full : Prop := ∀ (lines : List Str) (p : Fin 3 → Bool) (pts : List (V3 ℚ)),
  linePath lines p = .ok pts → ∀ k ∈ pts, ∀ c, p c = false → k c = 0

/-- A path whose second end point leaves the periodic plane. -/
def escapingPath : List Str := ["path", "3", "Line", "0 0 0", "0.5 0 0.5"].map String.toList

/-- **C37, proved part.**  If *both* end points of every segment are zero along non-periodic directions, so is
every returned point.  Missing: the code only checks the start of each segment (`C37_refuted`). -/
theorem C37_stays_in_plane_partial {lines : List Str} {num : ℤ} {ends : List (V3 ℚ)} (h : PathFile lines num ends)
    (hnum : 1 ≤ num) (heven : ends.length % 2 = 0) (p : Fin 3 → Bool) (hp : ∃ c, p c = false)
    (hends : ∀ q ∈ pairs ends, ∀ c, p c = false → q.1 c = 0 ∧ q.2 c = 0) :
    ∃ pts, linePath lines p = .ok pts ∧ ∀ k ∈ pts, ∀ c, p c = false → k c = 0 := by
  obtain ⟨pts, h1, h2, h3⟩ := C36_line_points h hnum heven p hp fun q hq c hc => (hends q hq c hc).1
  refine ⟨pts, h1, fun k hk c hc => ?_⟩
  obtain ⟨m, hm, rfl⟩ := List.getElem_of_mem hk
  have hpos : 0 < num.toNat := by omega
  have hs : m / num.toNat < (pairs ends).length := Nat.div_lt_of_lt_mul (by rw [Nat.mul_comm]; omega)
  have hi : m % num.toNat < num.toNat := Nat.mod_lt _ hpos
  have := h3 (m / num.toNat) (pairs ends)[m / num.toNat].1 (pairs ends)[m / num.toNat].2 (m % num.toNat)
    (List.getElem?_eq_getElem hs) hi
  rw [Nat.div_add_mod' m num.toNat, List.getElem?_eq_getElem hm] at this
  have hm' := Option.some.inj this
  rw [hm']
  obtain ⟨e1, e2⟩ := hends _ (List.getElem_mem hs) c hc
  simp [segPoint, e1, e2]

/-- The start of each segment is checked: a start point leaving the periodic subspace is rejected. -/
theorem C37_start_checked {lines : List Str} {num : ℤ} {a b : V3 ℚ} {rest : List (V3 ℚ)} (h : PathFile lines num (a :: b :: rest))
    (heven : rest.length % 2 = 0) (p : Fin 3 → Bool) (c : Fin 3) (hc : p c = false) (ha : a c ≠ 0) :
    linePath lines p = .error .mismatchKpath := by
  obtain ⟨l, t, rest', hl, hs, ht⟩ := h.number
  have hpts := h.points
  have hlen := hpts.length_eq
  simp only [linePath, getE, hl, bind_ok, firstTok, hs, List.getElem?_cons_zero, toInt, ht, List.length_map]
  rw [if_neg (by rw [hlen]; simp; omega)]
  generalize (lines.drop 3).filter (fun l => split l ≠ []) = ls at *
  cases hpts with
  | cons h1 h2 =>
    cases h2 with
    | cons h2 h3 =>
      have hmem : c ∈ indNonPbc p := List.mem_filter.mpr ⟨all_mem c, by simp [hc]⟩
      have hbad : anyNonPbc p a = .ok true := by
        unfold anyNonPbc
        rw [if_neg (List.ne_nil_of_mem hmem)]
        congr 1
        rw [List.any_eq_true]
        exact ⟨c, hmem, by simpa using ha⟩
      simp only [List.map_cons, segLoop, asfarray_ok h1, bind_ok, hbad, if_true]

theorem escapingPath_result : linePath escapingPath ![true, true, false] =
    .ok [![0, 0, 0], ![1 / 4, 0, 1 / 4], ![1 / 2, 0, 1 / 2]] := by
  have hf : PathFile escapingPath 3 [![0, 0, 0], ![1 / 2, 0, 1 / 2]] := by
    refine ⟨⟨"3".toList, "3".toList, [], by decide +kernel, by decide +kernel, by decide +kernel⟩, ?_⟩
    have e : ((escapingPath.drop 3).filter fun l => split l ≠ []) = ["0 0 0".toList, "0.5 0 0.5".toList] := by decide +kernel
    rw [e]
    refine .cons ⟨"0".toList, "0".toList, "0".toList, [], by decide +kernel, by decide +kernel, by decide +kernel, by decide +kernel⟩
      (.cons ⟨"0.5".toList, "0".toList, "0.5".toList, [], by decide +kernel, by decide +kernel, by decide +kernel, by decide +kernel⟩ .nil)
  obtain ⟨pts, h1, h2, h3⟩ := C36_line_points hf (by norm_num) rfl ![true, true, false] ⟨2, rfl⟩ (by
    intro q hq c hc
    simp [pairs] at hq
    subst hq
    fin_cases c <;> simp)
  rw [h1]
  congr 1
  apply List.ext_getElem?
  intro m
  have hl : pts.length = 3 := by rw [h2]; simp [pairs]
  rcases Nat.lt_or_ge m 3 with hm | hm
  · have := h3 0 ![0, 0, 0] ![1 / 2, 0, 1 / 2] m rfl hm
    rw [Nat.zero_mul, Nat.zero_add] at this
    rw [this]
    interval_cases m <;> simp <;> funext c <;> fin_cases c <;> simp [segPoint] <;> norm_num
  · rw [List.getElem?_eq_none (by omega), List.getElem?_eq_none (by simpa using hm)]

/-- **C37 is false**: a path that ends outside the periodic plane is accepted. -/
theorem C37_refuted : ¬ C37_full := by
  intro h
  have := h _ _ _ escapingPath_result ![1 / 2, 0, 1 / 2] (by simp) 2 rfl
  simp at this

private theorem segLoop_bad (p : Fin 3 → Bool) (num : ℤ) (hnum : 1 ≤ num) (hp : ∃ c, p c = false) :
    ∀ (ls : List Str) (vs : List (V3 ℚ)), List.Forall₂ IsPointLine ls vs →
      (∃ q ∈ pairs vs, ∃ c, p c = false ∧ q.1 c ≠ 0) →
      segLoop p num (ls.map fun l => (split l).take 3) = .error .mismatchKpath := by
  have hne : indNonPbc p ≠ [] := by
    obtain ⟨c, hc⟩ := hp
    have : c ∈ indNonPbc p := List.mem_filter.mpr ⟨all_mem c, by simp [hc]⟩
    exact List.ne_nil_of_mem this
  intro ls
  induction ls using List.twoStepInduction with
  | nil => rintro vs h ⟨q, hq, -⟩; cases h; simp [pairs] at hq
  | singleton a => rintro vs h ⟨q, hq, -⟩; cases h with | cons h1 h2 => cases h2; simp [pairs] at hq
  | cons_cons a b ls ih _ =>
    intro vs h hq
    cases h with
    | cons h1 h2 =>
      cases h2 with
      | @cons _ w _ ws h2 h3 =>
        rename_i v
        by_cases hv : ∃ c, p c = false ∧ v c ≠ 0
        · obtain ⟨c, hc, hvc⟩ := hv
          have hmem : c ∈ indNonPbc p := List.mem_filter.mpr ⟨all_mem c, by simp [hc]⟩
          have hbad : anyNonPbc p v = .ok true := by
            unfold anyNonPbc
            rw [if_neg hne]
            congr 1
            rw [List.any_eq_true]
            exact ⟨c, hmem, by simpa using hvc⟩
          simp only [List.map_cons, segLoop, asfarray_ok h1, bind_ok, hbad, if_true]
        · have hbad : anyNonPbc p v = .ok false := by
            unfold anyNonPbc
            rw [if_neg hne]
            congr 1
            rw [List.any_eq_false]
            intro c hc
            have hpc : p c = false := by simpa [indNonPbc] using (List.mem_filter.mp hc).2
            have : v c = 0 := by
              by_contra hne'
              exact hv ⟨c, hpc, hne'⟩
            simp [this]
          simp only [List.map_cons, segLoop, asfarray_ok h1, asfarray_ok h2, bind_ok, hbad, Bool.false_eq_true, if_false, linspace_ok v w num hnum]
          rw [ih ws h3 ?_]
          · rfl
          · obtain ⟨q, hq, c, hc, hqc⟩ := hq
            rw [pairs, List.mem_cons] at hq
            rcases hq with rfl | hq
            · exact absurd ⟨c, hc, hqc⟩ hv
            · exact ⟨q, hq, c, hc, hqc⟩

/-- **C37** (what is checked).  With a non-periodic direction, `line_path` raises `Mismatch_Kpath_and_PBC_Error` exactly if the *first* point of some segment leaves the
periodic plane. -/
theorem C37_mismatch_iff {lines : List Str} {num : ℤ} {ends : List (V3 ℚ)} (h : PathFile lines num ends)
    (hnum : 1 ≤ num) (heven : ends.length % 2 = 0) (p : Fin 3 → Bool) (hp : ∃ c, p c = false) :
    linePath lines p = .error .mismatchKpath ↔ ∃ q ∈ pairs ends, ∃ c, p c = false ∧ q.1 c ≠ 0 := by
  constructor
  · intro he
    by_contra hno
    obtain ⟨pts, h1, -⟩ := C36_line_points h hnum heven p hp fun q hq c hc => by
      by_contra hne
      exact hno ⟨q, hq, c, hc, hne⟩
    rw [h1] at he
    cases he
  · intro hex
    obtain ⟨l, t, rest', hl, hs, ht⟩ := h.number
    have hlen := h.points.length_eq
    simp only [linePath, getE, hl, bind_ok, firstTok, hs, List.getElem?_cons_zero, toInt, ht, List.length_map]
    rw [if_neg (by rw [hlen]; omega)]
    exact segLoop_bad p num hnum hp _ _ h.points hex

/-- Non-vacuity of the two exact conditions: the path of `C37_refuted` is a well-formed file with an even number of ends. -/
theorem escapingPath_file : PathFile escapingPath 3 [![0, 0, 0], ![1 / 2, 0, 1 / 2]] := by
  refine ⟨⟨"3".toList, "3".toList, [], by decide +kernel, by decide +kernel, by decide +kernel⟩, ?_⟩
  have e : ((escapingPath.drop 3).filter fun l => split l ≠ []) = ["0 0 0".toList, "0.5 0 0.5".toList] := by decide +kernel
  rw [e]
  refine .cons ⟨"0".toList, "0".toList, "0".toList, [], by decide +kernel, by decide +kernel, by decide +kernel, by decide +kernel⟩
    (.cons ⟨"0.5".toList, "0".toList, "0.5".toList, [], by decide +kernel, by decide +kernel, by decide +kernel, by decide +kernel⟩ .nil)

/-- **C37** (exact condition).  For an accepted path with at least two points per segment, all returned points lie in the periodic plane exactly if both ends of every
segment do: whatever second end the user writes, it decides. -/
theorem C37_in_plane_iff {lines : List Str} {num : ℤ} {ends : List (V3 ℚ)} (h : PathFile lines num ends)
    (hnum : 2 ≤ num) (heven : ends.length % 2 = 0) (p : Fin 3 → Bool) (hp : ∃ c, p c = false) (pts : List (V3 ℚ)) (hok : linePath lines p = .ok pts) :
    (∀ k ∈ pts, ∀ c, p c = false → k c = 0) ↔ ∀ q ∈ pairs ends, ∀ c, p c = false → q.1 c = 0 ∧ q.2 c = 0 := by
  constructor
  · intro hall q hq c hc
    have hstart : ∀ q ∈ pairs ends, ∀ c, p c = false → q.1 c = 0 := by
      intro q hq c hc
      by_contra hne
      have := (C37_mismatch_iff h (by omega) heven p hp).2 ⟨q, hq, c, hc, hne⟩
      rw [hok] at this
      cases this
    refine ⟨hstart q hq c hc, ?_⟩
    obtain ⟨pts', h1, -, h3⟩ := C36_line_points h (by omega) heven p hp hstart
    rw [hok] at h1
    cases h1
    obtain ⟨s, hs⟩ := List.getElem?_of_mem hq
    have := h3 s q.1 q.2 (num.toNat - 1) hs (by omega)
    have hk := hall _ (List.mem_of_getElem? this) c hc
    have hnq : ((num.toNat - 1 : ℕ) : ℚ) = num - 1 := by
      have : ((num.toNat - 1 : ℕ) : ℤ) = num - 1 := by omega
      exact_mod_cast this
    have hne : (num : ℚ) - 1 ≠ 0 := by
      have : (2 : ℚ) ≤ num := by exact_mod_cast hnum
      linarith
    rw [segPoint, hnq, div_self hne] at hk
    linarith
  · intro hends
    obtain ⟨pts', h1, h2⟩ := C37_stays_in_plane_partial h (by omega) heven p hp hends
    rw [hok] at h1
    cases h1
    exact h2

/-- Full C38: with all directions periodic every well-formed path file is accepted. -/
def C38_full : Prop := ∀ (lines : List Str) (num : ℤ) (ends : List (V3 ℚ)), PathFile lines num ends → 1 ≤ num →
  ends.length % 2 = 0 → ∃ pts, linePath lines (fun _ => true) = .ok pts

/-- **C38: the opposite holds.**  With all three directions periodic *every* well-formed path file with at
least one segment fails with an `IndexError`. -/
theorem C38_always_fails {lines : List Str} {num : ℤ} {ends : List (V3 ℚ)} (h : PathFile lines num ends)
    (heven : ends.length % 2 = 0) (hne : ends ≠ []) : linePath lines (fun _ => true) = .error .indexError := by
  obtain ⟨l, t, rest', hl, hs, ht⟩ := h.number
  have hpts := h.points
  have hlen := hpts.length_eq
  simp only [linePath, getE, hl, bind_ok, firstTok, hs, List.getElem?_cons_zero, toInt, ht, List.length_map]
  rw [if_neg (by rw [hlen]; omega)]
  generalize (lines.drop 3).filter (fun l => split l ≠ []) = ls at *
  cases hpts with
  | nil => exact absurd rfl hne
  | cons h1 h2 =>
    cases h2 with
    | nil => simp at heven
    | cons h2 h3 =>
      have hbad : ∀ k, anyNonPbc (fun _ => true) k = .error .indexError := by
        intro k; simp [anyNonPbc, indNonPbc]
      simp only [List.map_cons, segLoop, asfarray_ok h1, bind_ok, hbad]
      rfl

/-- **C38, proved part**: for systems with at least one non-periodic direction a well-formed path inside the
periodic subspace is accepted.  Missing: fully periodic systems (`C38_refuted`). -/
theorem C38_accepts_partial {lines : List Str} {num : ℤ} {ends : List (V3 ℚ)} (h : PathFile lines num ends)
    (hnum : 1 ≤ num) (heven : ends.length % 2 = 0) (p : Fin 3 → Bool) (hp : ∃ c, p c = false)
    (hends : ∀ q ∈ pairs ends, ∀ c, p c = false → q.1 c = 0) : ∃ pts, linePath lines p = .ok pts :=
  let ⟨pts, h1, _⟩ := C36_line_points h hnum heven p hp hends
  ⟨pts, h1⟩

/-- **C38** (exact condition).  A well-formed path file with at least one segment is accepted exactly if the system has a non-periodic direction and every segment
starts inside the periodic plane. -/
theorem C38_accepted_iff {lines : List Str} {num : ℤ} {ends : List (V3 ℚ)} (h : PathFile lines num ends)
    (hnum : 1 ≤ num) (heven : ends.length % 2 = 0) (hne : ends ≠ []) (p : Fin 3 → Bool) :
    (∃ pts, linePath lines p = .ok pts) ↔ (∃ c, p c = false) ∧ ∀ q ∈ pairs ends, ∀ c, p c = false → q.1 c = 0 := by
  constructor
  · rintro ⟨pts, hok⟩
    have hp : ∃ c, p c = false := by
      by_contra hno
      have : p = fun _ => true := by
        funext c
        cases hc : p c
        · exact absurd ⟨c, hc⟩ hno
        · rfl
      subst this
      rw [C38_always_fails h heven hne] at hok
      cases hok
    refine ⟨hp, fun q hq c hc => ?_⟩
    by_contra hne'
    rw [(C37_mismatch_iff h hnum heven p hp).2 ⟨q, hq, c, hc, hne'⟩] at hok
    cases hok
  · rintro ⟨hp, hs⟩
    exact C38_accepts_partial h hnum heven p hp hs

theorem C38_refuted : ¬ C38_full := by
  intro h
  have hf : PathFile escapingPath 3 [![0, 0, 0], ![1 / 2, 0, 1 / 2]] := by
    refine ⟨⟨"3".toList, "3".toList, [], by decide +kernel, by decide +kernel, by decide +kernel⟩, ?_⟩
    have e : ((escapingPath.drop 3).filter fun l => split l ≠ []) = ["0 0 0".toList, "0.5 0 0.5".toList] := by decide +kernel
    rw [e]
    refine .cons ⟨"0".toList, "0".toList, "0".toList, [], by decide +kernel, by decide +kernel, by decide +kernel, by decide +kernel⟩
      (.cons ⟨"0.5".toList, "0".toList, "0.5".toList, [], by decide +kernel, by decide +kernel, by decide +kernel, by decide +kernel⟩ .nil)
  obtain ⟨pts, hpts⟩ := h _ _ _ hf (by norm_num) rfl
  rw [C38_always_fails hf rfl (by simp)] at hpts
  cases hpts

/-! ### C39 -/

/-- The mode letter of the file: first character of the third line's first word. -/
def ModeLetter (lines : List Str) (ch : Char) : Prop :=
  ∃ l t ts rest, lines[2]? = some l ∧ split l = t :: ts ∧ t = ch :: rest

theorem setKPoints_letter {lines : List Str} {ch : Char} (h : ModeLetter lines ch) (p : Fin 3 → Bool) :
    setKPoints lines p = (if ch = 'G' ∨ ch = 'g' then gammaCentered lines p
      else if ch = 'M' ∨ ch = 'm' then monkhorstPack lines p
      else if ch = 'L' ∨ ch = 'l' then do
        let pts ← linePath lines p
        .ok (pts, [])
      else if ch = 'R' ∨ ch = 'r' then do
        let pts ← explicitReciprocal lines
        .ok (pts, [])
      else .ok ([], [])) := by
  obtain ⟨l, t, ts, rest, hl, hs, rfl⟩ := h
  simp only [setKPoints, getE, hl, bind_ok, firstTok, hs, List.getElem?_cons_zero]

/-- Full C39: an unknown mode letter is an error. -/
def C39_full : Prop := ∀ (lines : List Str) (p : Fin 3 → Bool) (ch : Char), ModeLetter lines ch →
  ch ∉ ['G', 'g', 'M', 'm', 'L', 'l', 'R', 'r'] → ∃ e, setKPoints lines p = .error e

/-- **C39: the opposite holds.**  Every unknown mode letter is silently accepted with an empty k-point list. -/
theorem C39_unknown_silently_empty {lines : List Str} {p : Fin 3 → Bool} {ch : Char} (h : ModeLetter lines ch)
    (hch : ch ∉ ['G', 'g', 'M', 'm', 'L', 'l', 'R', 'r']) : setKPoints lines p = .ok ([], []) := by
  rw [setKPoints_letter h]
  simp only [List.mem_cons, List.not_mem_nil, or_false, not_or] at hch
  obtain ⟨h1, h2, h3, h4, h5, h6, h7, h8⟩ := hch
  simp [*]

/-- **C39, proved part.**  Each documented mode letter, in either case, selects its generator.
Missing: the error for other letters (`C39_refuted`). -/
theorem C39_known_modes_partial (lines : List Str) (p : Fin 3 → Bool) (ch : Char) (h : ModeLetter lines ch) :
    (ch = 'G' ∨ ch = 'g' → setKPoints lines p = gammaCentered lines p) ∧
    (ch = 'M' ∨ ch = 'm' → setKPoints lines p = monkhorstPack lines p) ∧
    (ch = 'L' ∨ ch = 'l' → setKPoints lines p = (linePath lines p).map fun pts => (pts, [])) ∧
    (ch = 'R' ∨ ch = 'r' → setKPoints lines p = (explicitReciprocal lines).map fun pts => (pts, [])) := by
  refine ⟨?_, ?_, ?_, ?_⟩ <;> rintro (rfl | rfl) <;> rw [setKPoints_letter h] <;>
    simp only [reduceCtorEq, Char.reduceEq, or_self, or_true, true_or, if_true, if_false] <;>
    first
    | (cases linePath lines p <;> rfl)
    | (cases explicitReciprocal lines <;> rfl)

/-- **C39 is false.** -/
theorem C39_refuted : ¬ C39_full := by
  intro h
  have hm : ModeLetter (["x", "3", "Auto"].map String.toList) 'A' :=
    ⟨"Auto".toList, "Auto".toList, [], "uto".toList, by decide +kernel, by decide +kernel, by decide +kernel⟩
  obtain ⟨e, he⟩ := h _ (fun _ => true) 'A' hm (by decide)
  rw [C39_unknown_silently_empty hm (by decide)] at he
  cases he

example : ModeLetter exampleMesh 'G' :=
  ⟨"Gamma".toList, "Gamma".toList, [], "amma".toList, by decide +kernel, by decide +kernel, by decide +kernel⟩

/-! ### Explicit lists -/

/-- **C83.**  In explicit mode the listed points are returned verbatim and in order, when the announced number
covers all lines after the third (blank lines are skipped). -/
theorem C83_explicit_list {lines : List Str} {num : ℤ} {pts : List (V3 ℚ)} (h : PathFile lines num pts)
    (hnum : (lines.length : ℤ) ≤ num + 3) : explicitReciprocal lines = .ok pts := by
  obtain ⟨l, t, rest, hl, hs, ht⟩ := h.number
  simp only [explicitReciprocal, getE, hl, bind_ok, firstTok, hs, List.getElem?_cons_zero, toInt, ht]
  have hsl : Inout.slice lines 3 (3 + num) = lines.drop 3 := by
    have h0 : (0 : ℤ) ≤ lines.length := by omega
    unfold Inout.slice
    simp only
    rw [if_pos (by omega), List.take_of_length_le (by rw [List.length_drop]; omega)]
  rw [hsl]
  have := h.points
  clear h
  generalize (lines.drop 3).filter (fun l => split l ≠ []) = ls at *
  induction this with
  | nil => rfl
  | cons h1 _ ih => rw [List.mapM_cons, asfarray_ok h1, bind_ok, ih]; rfl

end Interphon.Props
