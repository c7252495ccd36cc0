import Verif.Model.ForceConstant
import Verif.Props.PreProcess
import Mathlib.Tactic.LinearCombination

/-! # Properties C19–C23: force constants -/

namespace Interphon.Props
open Py Interphon Interphon.ForceConstant Interphon.PreProcess

section
variable {K : Type*} [Field K] [DecidableEq K]

/-! ### C21, C23: the branch without symmetry -/

/-- Central difference of component `x` on atom `s` between two files. -/
def centralDiff (d : K) (f b : Rows K) (s : ℕ) (x : Fin 3) : K := -(f s x - b s x) / (2 * d * (1 / 10 ^ 10))

private theorem plainLoop_pair (d : K) (n c : ℕ) (fwd f b : Rows K) (rest : List (Rows K)) (fc : FC K) :
    plainLoop d n (2 * c) fwd (f :: b :: rest) fc =
      if c < n then plainLoop d n (2 * (c + 1)) f rest
        (setCol fc c (reshape fun a x => -(f a x - b a x) / (2 * d * ang))) else .error .indexError := by
  rw [plainLoop.eq_2, if_pos (by omega), plainLoop.eq_2, if_neg (by omega)]
  rw [show (2 * c + 1) / 2 = c by omega, show 2 * c + 1 + 1 = 2 * (c + 1) by ring]

private theorem plainLoop_ok (d : K) (n : ℕ) : ∀ (m c : ℕ) (fwd : Rows K) (L tail : List (Rows K)) (fc : FC K),
    L.length = 2 * m → c + m ≤ n → tail.length ≤ 1 →
    ∃ fc', plainLoop d n (2 * c) fwd (L ++ tail) fc = .ok fc' ∧
      (∀ (j : ℕ) (f b : Rows K), j < m → L[2 * j]? = some f → L[2 * j + 1]? = some b → ∀ r,
        fc' r (c + j) = reshape (fun a x => -(f a x - b a x) / (2 * d * ang)) r) ∧
      (∀ c', c' < c ∨ c + m ≤ c' → ∀ r, fc' r c' = fc r c') := by
  intro m
  induction m with
  | zero =>
    intro c fwd L tail fc hL _ ht
    have : L = [] := List.length_eq_zero_iff.mp (by omega)
    subst this
    refine ⟨fc, ?_, by intros; omega, fun _ _ _ => rfl⟩
    match tail, ht with
    | [], _ => rfl
    | [t], _ => rw [List.nil_append, plainLoop.eq_2, if_pos (by omega)]; rfl
  | succ m ih =>
    intro c fwd L tail fc hL hc ht
    match L, hL with
    | f :: b :: rest, hL =>
      simp only [List.length_cons] at hL
      rw [List.cons_append, List.cons_append, plainLoop_pair, if_pos (by omega)]
      obtain ⟨fc', h1, h2, h3⟩ := ih (c + 1) f rest tail
        (setCol fc c (reshape fun a x => -(f a x - b a x) / (2 * d * ang))) (by omega) (by omega) ht
      refine ⟨fc', h1, ?_, ?_⟩
      · intro j f' b' hj hf hb r
        cases j with
        | zero =>
          simp only [Nat.mul_zero, List.getElem?_cons_zero, Nat.zero_add, List.getElem?_cons_succ, Option.some.injEq] at hf hb
          subst hf hb
          rw [Nat.add_zero, h3 c (by omega) r]
          simp [setCol]
        | succ j =>
          have := h2 j f' b' (by omega) (by simpa [Nat.mul_add] using hf) (by simpa [Nat.mul_add] using hb) r
          rw [← this]
          congr 1
          omega
      · intro c' hc' r
        rw [h3 c' (by omega) r]
        simp only [setCol]
        rw [if_neg (by omega)]

/-- **C21.**  With exactly six files per selected atom, `set_force_constant` succeeds and its entry
`(3s+x, 3a+y)` is the central difference of component `x` of the force on super-cell atom `s` between the two
files numbered `6a+2y+1` and `6a+2y+2` (positions `6a+2y`, `6a+2y+1`). -/
theorem C21_entry_layout (d : K) (nsel : ℕ) (junk : FC K) (files : List (Rows K)) (hlen : files.length = 6 * nsel) :
    ∃ fc, setPlain d nsel junk files = .ok fc ∧
      ∀ (s a : ℕ) (x y : Fin 3) (f b : Rows K), a < nsel → files[6 * a + 2 * y]? = some f → files[6 * a + 2 * y + 1]? = some b →
        fc (3 * s + x) (3 * a + y) = centralDiff d f b s x := by
  obtain ⟨fc, h1, h2, -⟩ := plainLoop_ok d (3 * nsel) (3 * nsel) 0 (fun _ _ => 0) files [] junk (by omega) (by omega) (by simp)
  rw [List.append_nil] at h1
  refine ⟨fc, h1, ?_⟩
  intro s a x y f b ha hf hb
  have := h2 (3 * a + y) f b (by omega) (by rw [show 2 * (3 * a + (y : ℕ)) = 6 * a + 2 * y by ring]; exact hf)
    (by rw [show 2 * (3 * a + (y : ℕ)) + 1 = 6 * a + 2 * y + 1 by ring]; exact hb) (3 * s + x)
  rw [Nat.zero_add] at this
  rw [this]
  have hx : comp (3 * s + x) = x := by ext; simp [comp, Nat.mod_eq_of_lt x.isLt]
  have hs : (3 * s + (x : ℕ)) / 3 = s := by omega
  simp only [reshape, hs, hx, centralDiff, ang]

/-- Full C23: with a wrong number of files the call fails. -/
def C23_full (K : Type*) [Field K] [DecidableEq K] : Prop :=
  ∀ (d : K) (nsel : ℕ) (junk : FC K) (files : List (Rows K)), files.length ≠ 6 * nsel →
    ∃ e, setPlain d nsel junk files = .error e

private theorem plainLoop_long (d : K) (n : ℕ) : ∀ (m c : ℕ) (fwd : Rows K) (L : List (Rows K)) (fc : FC K),
    c + m = n → 2 * m + 2 ≤ L.length → plainLoop d n (2 * c) fwd L fc = .error .indexError := by
  intro m
  induction m with
  | zero =>
    intro c fwd L fc hc hL
    match L, hL with
    | f :: b :: rest, _ => rw [plainLoop_pair, if_neg (by omega)]
  | succ m ih =>
    intro c fwd L fc hc hL
    match L, hL with
    | f :: b :: rest, hL =>
      simp only [List.length_cons] at hL
      rw [plainLoop_pair, if_pos (by omega)]
      exact ih (c + 1) f rest _ (by omega) (by omega)

/-- **C23, proved part.**  At least two surplus files are always detected (`IndexError`).
Missing: too few files, or exactly one surplus file (`C23_refuted`, `C23_missing_file_keeps_garbage`). -/
theorem C23_surplus_detected_partial (d : K) (nsel : ℕ) (junk : FC K) (files : List (Rows K))
    (h : 6 * nsel + 2 ≤ files.length) : setPlain d nsel junk files = .error .indexError :=
  plainLoop_long d (3 * nsel) (3 * nsel) 0 _ files junk (by omega) (by omega)

/-- **C23 is false**: whenever an even number `2m ≤ 6n` of files is given (plus possibly one more), the call
succeeds and every column from the `m`-th on keeps the uninitialised content of the array. -/
theorem C23_missing_file_keeps_garbage (d : K) (nsel m : ℕ) (junk : FC K) (L tail : List (Rows K))
    (hL : L.length = 2 * m) (hm : m ≤ 3 * nsel) (ht : tail.length ≤ 1) :
    ∃ fc, setPlain d nsel junk (L ++ tail) = .ok fc ∧ ∀ c, m ≤ c → ∀ r, fc r c = junk r c := by
  obtain ⟨fc, h1, -, h3⟩ := plainLoop_ok d (3 * nsel) m 0 (fun _ _ => 0) L tail junk hL (by omega) ht
  exact ⟨fc, h1, fun c hc r => h3 c (Or.inr (by omega)) r⟩

/-- **C23** (exact condition).  The outcome of `set_force_constant` is the same whatever the uninitialised array holds exactly if there are at least six files per selected
atom: with one file fewer the program hands out memory contents as force constants. -/
theorem C23_independent_iff (d : K) (nsel : ℕ) (files : List (Rows K)) :
    (∀ junk junk' : FC K, ∀ fc fc', setPlain d nsel junk files = .ok fc → setPlain d nsel junk' files = .ok fc' → ∀ r, ∀ c < 3 * nsel, fc r c = fc' r c) ↔
      6 * nsel ≤ files.length := by
  have split : ∀ L : List (Rows K), ∃ A B, L = A ++ B ∧ A.length = 2 * (L.length / 2) ∧ B.length ≤ 1 := by
    intro L
    exact ⟨L.take (2 * (L.length / 2)), L.drop (2 * (L.length / 2)), (List.take_append_drop ..).symm, by simp; omega, by simp; omega⟩
  constructor
  · intro h
    by_contra hlt
    obtain ⟨A, B, rfl, hA, hB⟩ := split files
    generalize hm : (A ++ B).length / 2 = m at *
    have hlen : (A ++ B).length = A.length + B.length := by simp
    have hm' : m < 3 * nsel := by omega
    obtain ⟨fc, h1, h2⟩ := C23_missing_file_keeps_garbage d nsel m (fun _ _ => 0) A B hA (by omega) hB
    obtain ⟨fc', h1', h2'⟩ := C23_missing_file_keeps_garbage d nsel m (fun _ _ => 1) A B hA (by omega) hB
    have := h _ _ fc fc' h1 h1' 0 m hm'
    rw [h2 m le_rfl, h2' m le_rfl] at this
    exact zero_ne_one this
  · intro hge junk junk' fc fc' h1 h1' r c hc
    by_cases hlong : 6 * nsel + 2 ≤ files.length
    · rw [C23_surplus_detected_partial d nsel junk files hlong] at h1
      cases h1
    · obtain ⟨A, B, rfl, hA, hB⟩ := split files
      have hlen : (A ++ B).length = A.length + B.length := by simp
      have hA' : A.length = 2 * (3 * nsel) := by omega
      obtain ⟨g, e1, e2, -⟩ := plainLoop_ok d (3 * nsel) (3 * nsel) 0 (fun _ _ => 0) A B junk hA' (by omega) hB
      obtain ⟨g', e1', e2', -⟩ := plainLoop_ok d (3 * nsel) (3 * nsel) 0 (fun _ _ => 0) A B junk' hA' (by omega) hB
      unfold setPlain at h1 h1'
      rw [e1] at h1
      rw [e1'] at h1'
      cases h1
      cases h1'
      have q1 := e2 c _ _ hc (List.getElem?_eq_getElem (by omega)) (List.getElem?_eq_getElem (by omega)) r
      have q2 := e2' c _ _ hc (List.getElem?_eq_getElem (by omega)) (List.getElem?_eq_getElem (by omega)) r
      rw [Nat.zero_add] at q1 q2
      rw [q1, q2]

/-- **C23** (which numbers of files are rejected).  `set_force_constant` raises exactly when there are at least two files more than six per
selected atom: too few files, and one too many, are never noticed. -/
theorem C23_rejected_iff (d : K) (nsel : ℕ) (junk : FC K) (files : List (Rows K)) :
    (∃ e, setPlain d nsel junk files = .error e) ↔ 6 * nsel + 2 ≤ files.length := by
  constructor
  · rintro ⟨e, he⟩
    by_contra hlt
    obtain ⟨fc, h1, -⟩ := C23_missing_file_keeps_garbage d nsel (files.length / 2) junk (files.take (2 * (files.length / 2))) (files.drop (2 * (files.length / 2)))
      (by simp; omega) (by omega) (by simp; omega)
    rw [List.take_append_drop, he] at h1
    cases h1
  · intro h
    exact ⟨_, C23_surplus_detected_partial d nsel junk files h⟩

theorem C23_refuted : ¬ C23_full ℚ := by
  intro h
  obtain ⟨e, he⟩ := h 1 1 (fun _ _ => 0) [] (by simp)
  obtain ⟨fc, h1, -⟩ := C23_missing_file_keeps_garbage (1 : ℚ) 1 0 (fun _ _ => 0) [] [] rfl (by norm_num) (by simp)
  simp only [List.append_nil] at h1
  rw [h1] at he
  cases he

/-! ### C19: a harmonic crystal gives back its force constants -/

/-- Forces of a harmonic crystal: reference structure `s`, residual forces `F0`, force constants `Φ`
(force on atom `r` along `x` per displacement of atom `r'` along `y`, SI units), evaluated for the structure
`c` (positions in Å). -/
def harmonicForces (Φ : ℕ → Fin 3 → ℕ → Fin 3 → K) (F0 : Rows K) (s c : Cell K) : Rows K := fun r x =>
  F0 r x - ∑ r' ∈ Finset.range s.cart.length, ∑ y : Fin 3,
    Φ r x r' y * ((c.cart.getD r' 0 y - s.cart.getD r' 0 y) * (1 / 10 ^ 10))

theorem harmonic_moved (Φ : ℕ → Fin 3 → ℕ → Fin 3 → K) (F0 : Rows K) (s c : Cell K) (row : ℕ) (δ : V3 K)
    (hrow : row < s.cart.length) (h : IsMoved s row δ c) (r : ℕ) (x : Fin 3) :
    harmonicForces Φ F0 s c r x = F0 r x - ∑ y : Fin 3, Φ r x row y * (δ y * (1 / 10 ^ 10)) := by
  unfold harmonicForces
  congr 1
  rw [Finset.sum_eq_single row]
  · apply Finset.sum_congr rfl
    intro y _
    obtain ⟨v, h1, h2⟩ := h.moved
    simp [List.getD_eq_getElem?_getD, h1, h2]
  · intro r' _ hne
    apply Finset.sum_eq_zero
    intro y _
    simp [List.getD_eq_getElem?_getD, h.others r' hne]
  · intro hn
    exact absurd (Finset.mem_range.mpr hrow) hn

omit [DecidableEq K] in
private theorem sum_axis (g : Fin 3 → K) (d t : K) (j : Fin 3) : ∑ y : Fin 3, g y * (axis d j y * t) = g j * (d * t) := by
  rw [Finset.sum_eq_single j]
  · simp [axis]
  · intro y _ hne; simp [axis, hne]
  · simp

/-- **C19.**  End to end: take the displaced structures written by the pre-process for the selected atoms, let
the "DFT code" return the forces of a harmonic crystal with force constants `Φ` and arbitrary residual forces
`F0` for each of them, in order; then `set_force_constant` (symmetry off) returns exactly
`Φ(s,x; home image of a, y)` at entry `(3s+x, 3a+y)`, for every amplitude `d ≠ 0`. -/
theorem C19_harmonic_exact [CharZero K] (s : Cell K) (sel : List ℕ) (E : ℕ) (d : K) (hd : d ≠ 0) (p : Fin 3 → ℤ)
    (search : Run (List (ℕ × List (V3 K)))) (hsel : ∀ t ∈ sel, E * t < s.cart.length)
    (Φ : ℕ → Fin 3 → ℕ → Fin 3 → K) (F0 : Rows K) (junk : FC K)
    (s' : Cell K) (files : Files K) (hw : writeDisplaceCell s sel E d p false search = .ok (s', files)) :
    ∃ fc, setPlain d sel.length junk (files.map fun f => harmonicForces Φ F0 s f.2) = .ok fc ∧
      ∀ (r a t : ℕ) (x y : Fin 3), sel[a]? = some t → fc (3 * r + x) (3 * a + y) = Φ r x (E * t) y := by
  obtain ⟨s'', files', hw', hlen, hf⟩ := C15_displaced_files s sel E d p false search (Or.inl rfl) hsel
  rw [hw] at hw'; cases hw'
  obtain ⟨fc, h1, h2⟩ := C21_entry_layout d sel.length junk (files.map fun f => harmonicForces Φ F0 s f.2) (by simpa using hlen)
  refine ⟨fc, h1, ?_⟩
  intro r a t x y hat
  obtain ⟨ha, -⟩ := List.getElem?_eq_some_iff.mp hat
  have hrow := hsel t (List.mem_of_getElem? hat)
  obtain ⟨⟨c1, e1, m1⟩, ⟨c2, e2, m2⟩⟩ := hf a t y hat
  rw [h2 r a x y _ _ ha (by rw [List.getElem?_map, e1]; rfl) (by rw [List.getElem?_map, e2]; rfl)]
  simp only [centralDiff, harmonic_moved Φ F0 s _ _ _ hrow m1, harmonic_moved Φ F0 s _ _ _ hrow m2, sum_axis]
  have h10 : (10 : K) ≠ 0 := by norm_num
  field_simp
  ring

example : ∃ s' files, writeDisplaceCell exampleCell [1] 1 (1 / 50) ![1, 1, 0] false (.ok []) = .ok (s', files) ∧
    ∀ t ∈ [1], 1 * t < exampleCell.cart.length :=
  let ⟨s', files, h, _⟩ := C15_displaced_files exampleCell [1] 1 (1 / 50) ![1, 1, 0] false (.ok []) (Or.inl rfl) (by decide)
  ⟨s', files, h, by decide⟩

/-- **C20.**  If the force component along the path is a cubic polynomial `a + b u + c u² + e u³` of the
amplitude `u` (in metres), the central difference is exactly `-(b + e·(d·10⁻¹⁰)²)`: residual force and
quadratic term cancel, the error is quadratic in `d`. -/
theorem C20_central_difference_error [CharZero K] (d : K) (hd : d ≠ 0) (a b c e : K) (f g : Rows K) (s : ℕ) (x : Fin 3)
    (hf : f s x = a + b * (d * (1 / 10 ^ 10)) + c * (d * (1 / 10 ^ 10)) ^ 2 + e * (d * (1 / 10 ^ 10)) ^ 3)
    (hg : g s x = a + b * (-d * (1 / 10 ^ 10)) + c * (-d * (1 / 10 ^ 10)) ^ 2 + e * (-d * (1 / 10 ^ 10)) ^ 3) :
    centralDiff d f g s x = -(b + e * (d * (1 / 10 ^ 10)) ^ 2) := by
  unfold centralDiff
  rw [hf, hg]
  have h10 : (10 : K) ≠ 0 := by norm_num
  field_simp
  ring

/-- **C20** connected to the program: the entry `(3s+x, 3a+y)` computed from two files whose force component is
such a polynomial. -/
theorem C20_entry_error [CharZero K] (d : K) (hd : d ≠ 0) (nsel : ℕ) (junk : FC K) (files : List (Rows K))
    (hlen : files.length = 6 * nsel) (s at_ : ℕ) (hat : at_ < nsel) (x y : Fin 3) (a b c e : K)
    (hf : ∃ f, files[6 * at_ + 2 * y]? = some f ∧
      f s x = a + b * (d * (1 / 10 ^ 10)) + c * (d * (1 / 10 ^ 10)) ^ 2 + e * (d * (1 / 10 ^ 10)) ^ 3)
    (hg : ∃ g, files[6 * at_ + 2 * y + 1]? = some g ∧
      g s x = a + b * (-d * (1 / 10 ^ 10)) + c * (-d * (1 / 10 ^ 10)) ^ 2 + e * (-d * (1 / 10 ^ 10)) ^ 3) :
    ∃ fc, setPlain d nsel junk files = .ok fc ∧ fc (3 * s + x) (3 * at_ + y) = -(b + e * (d * (1 / 10 ^ 10)) ^ 2) := by
  obtain ⟨fc, h1, h2⟩ := C21_entry_layout d nsel junk files hlen
  obtain ⟨f, hf1, hf2⟩ := hf
  obtain ⟨g, hg1, hg2⟩ := hg
  exact ⟨fc, h1, by rw [h2 s at_ x y f g hat hf1 hg1]; exact C20_central_difference_error d hd a b c e f g s x hf2 hg2⟩

/-! ### C22: reconstruction with symmetry -/

/-- The recorded data of a required atom fits the crystal with force constants `Φ` (`Φ r a`: block of
super-cell atom `r` and selected atom `a`): three independent directions; the `k`-th direction of `single` is
the image of the first under the `k`-th operation; each operation permutes the `N` selected super-cell atoms
and leaves `Φ` invariant. -/
structure GoodReq (N : ℕ) (at_ : ℕ → ℕ) (Φ : ℕ → ℕ → M3 K) (q : ReqAtom K) : Prop where
  three : (q.single ++ q.additional).length = 3
  indep : (ofColumns (q.single ++ q.additional)).det ≠ 0
  ops_len : q.ops.length = q.single.length
  some_op : q.ops ≠ []
  image : ∀ (k : ℕ) (perm : List ℕ) (W : M3 K), q.ops[k]? = some (perm, W) → q.single[k]? = some (W.mulVec (q.single.getD 0 0))
  perm_len : ∀ o ∈ q.ops, o.1.Perm (List.range N)
  invariant : ∀ o ∈ q.ops, ∀ i < N, Φ (at_ (o.1.getD i 0)) q.idx * o.2 = o.2 * Φ (at_ i) q.idx

/-- The recorded data of a derived atom fits: the operation maps selected super-cell atom `i` to `rows[i]` and
the derived atom to the required atom `image`, and leaves `Φ` invariant. -/
structure GoodDer (N : ℕ) (at_ : ℕ → ℕ) (Φ : ℕ → ℕ → M3 K) (req : List (ReqAtom K)) (q : Derived K) : Prop where
  inv : q.W.det ≠ 0
  rows_len : q.rows.length = N
  rows_lt : ∀ i ∈ q.rows, i < N
  image : q.image ∈ req.map ReqAtom.idx
  not_req : q.idx ∉ req.map ReqAtom.idx
  invariant : ∀ i < N, Φ (at_ (q.rows.getD i 0)) q.image * q.W = q.W * Φ (at_ i) q.idx

/-- The displacements of a required atom that are actually calculated. -/
def calcDirs (q : ReqAtom K) : List (V3 K) := q.single.getD 0 0 :: q.additional

omit [DecidableEq K] in
private theorem scatter_not_mem (rot : Rows K) (r : ℕ) : ∀ (l : List (ℕ × ℕ)) (M : Rows K), r ∉ l.map Prod.fst → scatter M rot l r = M r := by
  intro l
  induction l with
  | nil => intro M _; rfl
  | cons a l ih =>
    intro M h
    obtain ⟨img, orig⟩ := a
    simp only [List.map_cons, List.mem_cons, not_or] at h
    rw [scatter, ih _ h.2, Function.update_of_ne h.1]

omit [DecidableEq K] in
private theorem scatter_mem (rot : Rows K) (img orig : ℕ) : ∀ (l : List (ℕ × ℕ)) (M : Rows K), (l.map Prod.fst).Nodup → (img, orig) ∈ l →
    scatter M rot l img = rot orig := by
  intro l
  induction l with
  | nil => intro M _ h; simp at h
  | cons a l ih =>
    intro M hn h
    obtain ⟨img', orig'⟩ := a
    simp only [List.map_cons, List.nodup_cons] at hn
    rcases List.mem_cons.mp h with he | h
    · cases he
      rw [scatter, scatter_not_mem rot img l _ hn.1, Function.update_self]
    · rw [scatter, ih _ hn.2 h]

omit [DecidableEq K] in
private theorem scatter_rowPairs (N : ℕ) (at_ : ℕ → ℕ) (hat : ∀ i < N, ∀ j < N, at_ i = at_ j → i = j) (perm : List ℕ)
    (hp : perm.Perm (List.range N)) (acc rot : Rows K) (i : ℕ) (hi : i < N) :
    scatter acc rot (rowPairs at_ perm) (at_ (perm.getD i 0)) = rot (at_ i) := by
  have hlen : perm.length = N := by simpa using hp.length_eq
  apply scatter_mem
  · unfold rowPairs
    rw [List.map_map]
    have e : (Prod.fst ∘ fun i => (at_ (perm.getD i 0), at_ i)) = fun i => at_ (perm.getD i 0) := rfl
    rw [e]
    refine List.Nodup.map_on ?_ List.nodup_range
    intro a ha b hb hab
    simp only [List.mem_range] at ha hb
    have hnd : perm.Nodup := hp.nodup_iff.mpr List.nodup_range
    have ga : perm.getD a 0 = perm[a] := by simp [List.getD_eq_getElem?_getD, ha]
    have gb : perm.getD b 0 = perm[b] := by simp [List.getD_eq_getElem?_getD, hb]
    have la : perm[a] < N := List.mem_range.mp (hp.mem_iff.mp (List.getElem_mem ha))
    have lb : perm[b] < N := List.mem_range.mp (hp.mem_iff.mp (List.getElem_mem hb))
    have := hat _ (by rw [ga]; exact la) _ (by rw [gb]; exact lb) hab
    rw [ga, gb] at this
    exact (List.Nodup.getElem_inj_iff hnd).mp this
  · unfold rowPairs
    exact List.mem_map.mpr ⟨i, by simp [hlen, hi], rfl⟩

omit [DecidableEq K] in
private theorem rotLoop_spec (N : ℕ) (at_ : ℕ → ℕ) (hat : ∀ i < N, ∀ j < N, at_ i = at_ j → i = j) (raw : Rows K) :
    ∀ (ops : List (List ℕ × M3 K)) (k0 : ℕ) (acc : Rows K) (cols : ℕ → Rows K), (∀ o ∈ ops, o.1.Perm (List.range N)) →
      (∀ (k : ℕ) (perm : List ℕ) (W : M3 K), ops[k]? = some (perm, W) → ∀ i < N,
        rotLoop at_ raw k0 acc ops cols (k0 + k) (at_ (perm.getD i 0)) = W.mulVec (raw (at_ i))) ∧
      (∀ c, c < k0 → rotLoop at_ raw k0 acc ops cols c = cols c) := by
  intro ops
  induction ops with
  | nil => intro k0 acc cols _; exact ⟨by intro k perm W h; simp at h, fun _ _ => rfl⟩
  | cons o ops ih =>
    intro k0 acc cols hp
    obtain ⟨perm, W⟩ := o
    obtain ⟨ih1, ih2⟩ := ih (k0 + 1) (scatter acc (fun r => W.mulVec (raw r)) (rowPairs at_ perm))
      (Function.update cols k0 (scatter acc (fun r => W.mulVec (raw r)) (rowPairs at_ perm)))
      (fun o ho => hp o (List.mem_cons_of_mem _ ho))
    constructor
    · intro k perm' W' hk i hi
      rw [rotLoop]
      cases k with
      | zero =>
        simp only [List.getElem?_cons_zero, Option.some.injEq, Prod.mk.injEq] at hk
        obtain ⟨rfl, rfl⟩ := hk
        rw [show k0 + 0 = k0 from rfl, ih2 k0 (by omega), Function.update_self]
        exact scatter_rowPairs N at_ hat perm (hp (perm, W) (by simp)) acc _ i hi
      | succ k =>
        have := ih1 k perm' W' (by simpa using hk) i hi
        rw [show k0 + (k + 1) = k0 + 1 + k by omega]
        exact this
    · intro c hc
      rw [rotLoop, ih2 c (by omega), Function.update_of_ne (by omega)]

omit [DecidableEq K] in
private theorem addLoop_spec (files : List (Rows K)) : ∀ (m start col : ℕ) (cols : ℕ → Rows K),
    (∀ j < m, ∃ f, files[start + 2 * j]? = some f) →
    ∃ out, addLoop files start col m cols = .ok out ∧
      (∀ j < m, ∀ f, files[start + 2 * j]? = some f → out (col + j) = f) ∧ (∀ c < col, out c = cols c) := by
  intro m
  induction m with
  | zero => intro start col cols _; exact ⟨cols, rfl, by intros; omega, fun _ _ => rfl⟩
  | succ m ih =>
    intro start col cols h
    obtain ⟨f, hf⟩ := h 0 (by omega)
    obtain ⟨out, h1, h2, h3⟩ := ih (start + 2) (col + 1) (Function.update cols col f) (by
      intro j hj
      obtain ⟨g, hg⟩ := h (j + 1) (by omega)
      exact ⟨g, by rw [← hg]; congr 1; ring⟩)
    refine ⟨out, ?_, ?_, ?_⟩
    · rw [addLoop]
      rw [Nat.mul_zero, Nat.add_zero] at hf
      simp only [getE, hf]
      exact h1
    · intro j hj g hg
      cases j with
      | zero =>
        rw [hf] at hg
        cases hg
        rw [Nat.add_zero, h3 col (by omega), Function.update_self]
      | succ j =>
        rw [show col + (j + 1) = col + 1 + j by omega]
        exact h2 j (by omega) g (by rw [← hg]; congr 1; ring)
    · intro c hc
      rw [h3 c (by omega), Function.update_of_ne (by omega)]

/-- The forces in the two files of calculation `k` of the plan are the harmonic ones. -/
def HarmonicFiles (Φ : ℕ → ℕ → M3 K) (F0 : Rows K) (t : K) (plan : List (ℕ × V3 K)) (files : List (Rows K)) (k0 : ℕ) : Prop :=
  ∀ (k a : ℕ) (v : V3 K), plan[k]? = some (a, v) →
    files[k0 + 2 * k]? = some (fun r => F0 r - t • (Φ r a).mulVec v) ∧
    files[k0 + 2 * k + 1]? = some (fun r => F0 r + t • (Φ r a).mulVec v)

private theorem reqStep_ok [CharZero K] (N : ℕ) (at_ : ℕ → ℕ) (hat : ∀ i < N, ∀ j < N, at_ i = at_ j → i = j)
    (Φ : ℕ → ℕ → M3 K) (F0 : Rows K) (d : K) (hd : d ≠ 0) (junk : ℕ → Rows K) (files : List (Rows K)) (k0 : ℕ) (q : ReqAtom K)
    (hq : GoodReq N at_ Φ q) (hf : HarmonicFiles Φ F0 (d * (1 / 10 ^ 10)) ((calcDirs q).map fun v => (q.idx, v)) files k0) (fc : FC K) :
    ∃ fc', reqStep d at_ junk files k0 q fc = .ok (k0 + 2 * (calcDirs q).length, fc') ∧
      (∀ i < N, block fc' (at_ i) q.idx = Φ (at_ i) q.idx) ∧
      (∀ s a, a ≠ q.idx → block fc' s a = block fc s a) := by
  obtain ⟨f0, b0⟩ := hf 0 q.idx (q.single.getD 0 0) (by simp [calcDirs])
  rw [Nat.mul_zero, Nat.add_zero] at f0 b0
  have hadd : ∀ j < q.additional.length, files[k0 + 2 + 2 * j]? = some (fun r => F0 r - (d * (1 / 10 ^ 10)) • (Φ r q.idx).mulVec (q.additional.getD j 0)) ∧
      files[k0 + 3 + 2 * j]? = some (fun r => F0 r + (d * (1 / 10 ^ 10)) • (Φ r q.idx).mulVec (q.additional.getD j 0)) := by
    intro j hj
    have := hf (j + 1) q.idx (q.additional.getD j 0) (by simp [calcDirs, List.getD_eq_getElem?_getD, hj])
    rw [show k0 + 2 * (j + 1) = k0 + 2 + 2 * j by ring, show k0 + 2 + 2 * j + 1 = k0 + 3 + 2 * j by ring] at this
    exact this
  set f : Rows K := fun r => F0 r - (d * (1 / 10 ^ 10)) • (Φ r q.idx).mulVec (q.single.getD 0 0) with hfdef
  set b : Rows K := fun r => F0 r + (d * (1 / 10 ^ 10)) • (Φ r q.idx).mulVec (q.single.getD 0 0) with hbdef
  obtain ⟨F, hF1, hF2, hF3⟩ := addLoop_spec files q.additional.length (k0 + 2) q.ops.length (rotLoop at_ f 0 f q.ops junk)
    (fun j hj => ⟨_, (hadd j hj).1⟩)
  obtain ⟨B, hB1, hB2, hB3⟩ := addLoop_spec files q.additional.length (k0 + 3) q.ops.length (rotLoop at_ b 0 b q.ops junk)
    (fun j hj => ⟨_, (hadd j hj).2⟩)
  have hlen3 : q.ops.length + q.additional.length = 3 := by
    have := hq.three
    rw [List.length_append] at this
    rw [hq.ops_len]; exact this
  refine ⟨fun r c =>
            if 3 * q.idx ≤ c ∧ c < 3 * (q.idx + 1) then
              -(∑ k : Fin 3, (reshape (F k) r - reshape (B k) r) * (ofColumns (q.single ++ q.additional))⁻¹ k (comp c)) / (2 * d * ang)
            else fc r c, ?_, ?_, ?_⟩
  · unfold reqStep
    simp only
    rw [if_neg (by
      rintro (h | h)
      · exact h hq.three
      · exact hq.indep h)]
    simp only [getE, f0, b0]
    rw [if_neg (by omega), hF1, hB1]
    simp [calcDirs]
  · intro i hi
    have hdiff : ∀ k : Fin 3, ∀ x, F k (at_ i) x - B k (at_ i) x =
        -(2 * d * (1 / 10 ^ 10)) * ((Φ (at_ i) q.idx * ofColumns (q.single ++ q.additional)) x k) := by
      intro k x
      have hcol : (Φ (at_ i) q.idx * ofColumns (q.single ++ q.additional)) x k =
          (Φ (at_ i) q.idx).mulVec ((q.single ++ q.additional).getD k 0) x := rfl
      rw [hcol]
      by_cases hk : (k : ℕ) < q.ops.length
      · rw [hF3 k hk, hB3 k hk]
        obtain ⟨⟨perm, W⟩, hop'⟩ : ∃ o : List ℕ × M3 K, q.ops[(k : ℕ)]? = some o := ⟨_, List.getElem?_eq_getElem hk⟩
        have hmem : (perm, W) ∈ q.ops := List.mem_of_getElem? hop'
        have hperm := hq.perm_len _ hmem
        have hinv := hq.invariant _ hmem
        have hpl : perm.length = N := by simpa using hperm.length_eq
        -- preimage of row i
        obtain ⟨j, hj, hji⟩ := List.getElem_of_mem (hperm.mem_iff.mpr (List.mem_range.mpr hi))
        have hjN : j < N := hpl ▸ hj
        have hjd : perm.getD j 0 = i := by simp [List.getD_eq_getElem?_getD, hj, hji]
        have e1 := (rotLoop_spec N at_ hat f q.ops 0 f junk hq.perm_len).1 k perm W hop' j hjN
        have e2 := (rotLoop_spec N at_ hat b q.ops 0 b junk hq.perm_len).1 k perm W hop' j hjN
        rw [Nat.zero_add, hjd] at e1 e2
        rw [e1, e2]
        have himg := hq.image k perm W hop'
        have hv : (q.single ++ q.additional).getD k 0 = W.mulVec (q.single.getD 0 0) := by
          rw [List.getD_eq_getElem?_getD, List.getElem?_append_left (by rw [← hq.ops_len]; exact hk), himg]
          rfl
        rw [hv]
        have hc := hinv j hjN
        simp only at hc
        rw [hjd] at hc
        rw [hfdef, hbdef, Matrix.mulVec_mulVec, hc, ← Matrix.mulVec_mulVec, Matrix.mulVec_sub, Matrix.mulVec_add, Matrix.mulVec_smul]
        simp only [Pi.sub_apply, Pi.add_apply, Pi.smul_apply, smul_eq_mul]
        ring
      · have hk' : (k : ℕ) - q.ops.length < q.additional.length := by have := k.isLt; omega
        have e1 := hF2 _ hk' _ (hadd _ hk').1
        have e2 := hB2 _ hk' _ (hadd _ hk').2
        rw [show q.ops.length + ((k : ℕ) - q.ops.length) = k by omega] at e1 e2
        have hv : (q.single ++ q.additional).getD k 0 = q.additional.getD (k - q.ops.length) 0 := by
          rw [List.getD_eq_getElem?_getD, List.getElem?_append_right (by rw [← hq.ops_len]; omega), ← hq.ops_len,
            ← List.getD_eq_getElem?_getD]
        rw [e1, e2, hv]
        simp only [Pi.sub_apply, Pi.add_apply, Pi.smul_apply, smul_eq_mul]
        ring
    funext x y
    unfold block
    simp only
    rw [if_pos (by omega)]
    have hx : comp (3 * at_ i + x) = x := by ext; simp [comp, Nat.mod_eq_of_lt x.isLt]
    have hy : comp (3 * q.idx + y) = y := by ext; simp [comp, Nat.mod_eq_of_lt y.isLt]
    have hs : (3 * at_ i + (x : ℕ)) / 3 = at_ i := by omega
    simp only [reshape, hs, hx, hy, hdiff]
    have hTT : ∑ k : Fin 3, (Φ (at_ i) q.idx * ofColumns (q.single ++ q.additional)) x k * (ofColumns (q.single ++ q.additional))⁻¹ k y
        = Φ (at_ i) q.idx x y := by
      have h1 : IsUnit (ofColumns (q.single ++ q.additional)).det := isUnit_iff_ne_zero.mpr hq.indep
      have := congrFun (congrFun (Matrix.mul_nonsing_inv_cancel_right (A := ofColumns (q.single ++ q.additional)) (Φ (at_ i) q.idx) h1) x) y
      rw [← this]
      rfl
    have hsum : ∑ k : Fin 3, -(2 * d * (1 / 10 ^ 10)) * (Φ (at_ i) q.idx * ofColumns (q.single ++ q.additional)) x k *
        (ofColumns (q.single ++ q.additional))⁻¹ k y = -(2 * d * (1 / 10 ^ 10)) * Φ (at_ i) q.idx x y := by
      rw [← hTT, Finset.mul_sum]
      apply Finset.sum_congr rfl
      intro k _
      ring
    rw [hsum, ang]
    have h10 : (10 : K) ≠ 0 := by norm_num
    field_simp
  · intro s a ha
    funext x y
    unfold block
    simp only
    rw [if_neg (by omega)]

private theorem reqLoop_ok [CharZero K] (N : ℕ) (at_ : ℕ → ℕ) (hat : ∀ i < N, ∀ j < N, at_ i = at_ j → i = j)
    (Φ : ℕ → ℕ → M3 K) (F0 : Rows K) (d : K) (hd : d ≠ 0) (junk : ℕ → Rows K) (files : List (Rows K)) :
    ∀ (req : List (ReqAtom K)) (k0 : ℕ) (fc : FC K), (∀ q ∈ req, GoodReq N at_ Φ q) → (req.map ReqAtom.idx).Nodup →
      HarmonicFiles Φ F0 (d * (1 / 10 ^ 10)) (req.flatMap fun q => (calcDirs q).map fun v => (q.idx, v)) files k0 →
      ∃ fc', reqLoop d at_ junk files k0 req fc = .ok fc' ∧
        (∀ q ∈ req, ∀ i < N, block fc' (at_ i) q.idx = Φ (at_ i) q.idx) ∧
        (∀ s a, a ∉ req.map ReqAtom.idx → block fc' s a = block fc s a) := by
  intro req
  induction req with
  | nil => intro k0 fc _ _ _; exact ⟨fc, rfl, by simp, fun _ _ _ => rfl⟩
  | cons q req ih =>
    intro k0 fc hq hn hf
    simp only [List.map_cons, List.nodup_cons] at hn
    have hf1 : HarmonicFiles Φ F0 (d * (1 / 10 ^ 10)) ((calcDirs q).map fun v => (q.idx, v)) files k0 := by
      intro k a v hk
      apply hf k a v
      rw [List.flatMap_cons, List.getElem?_append_left (List.getElem?_eq_some_iff.mp hk).1]
      exact hk
    have hf2 : HarmonicFiles Φ F0 (d * (1 / 10 ^ 10)) (req.flatMap fun q => (calcDirs q).map fun v => (q.idx, v)) files
        (k0 + 2 * (calcDirs q).length) := by
      intro k a v hk
      have := hf ((calcDirs q).length + k) a v (by
        rw [List.flatMap_cons, List.getElem?_append_right (by simp)]
        simpa using hk)
      rw [show k0 + 2 * ((calcDirs q).length + k) = k0 + 2 * (calcDirs q).length + 2 * k by ring] at this
      exact this
    obtain ⟨fc1, h1, h2, h3⟩ := reqStep_ok N at_ hat Φ F0 d hd junk files k0 q (hq q (by simp)) hf1 fc
    obtain ⟨fc2, g1, g2, g3⟩ := ih (k0 + 2 * (calcDirs q).length) fc1 (fun q' hq' => hq q' (List.mem_cons_of_mem _ hq')) hn.2 hf2
    refine ⟨fc2, ?_, ?_, ?_⟩
    · rw [reqLoop, h1]; exact g1
    · intro q' hq' i hi
      rcases List.mem_cons.mp hq' with rfl | hm
      · rw [g3 _ _ hn.1, h2 i hi]
      · exact g2 q' hm i hi
    · intro s a ha
      simp only [List.map_cons, List.mem_cons, not_or] at ha
      rw [g3 s a ha.2, h3 s a ha.1]

omit [DecidableEq K] in
private theorem block_setBlock (fc : FC K) (s a s' a' : ℕ) (B : M3 K) :
    block (setBlock fc s a B) s' a' = if s' = s ∧ a' = a then B else block fc s' a' := by
  funext x y
  have hx : (3 * s' + (x : ℕ)) / 3 = s' := by omega
  have hy : (3 * a' + (y : ℕ)) / 3 = a' := by omega
  have hx' : comp (3 * s' + x) = x := by ext; simp [comp, Nat.mod_eq_of_lt x.isLt]
  have hy' : comp (3 * a' + y) = y := by ext; simp [comp, Nat.mod_eq_of_lt y.isLt]
  have : block (setBlock fc s a B) s' a' x y = if s' = s ∧ a' = a then B x y else block fc s' a' x y := by
    unfold block setBlock
    simp only [hx, hy, hx', hy']
  rw [this]
  split_ifs <;> rfl

omit [DecidableEq K] in
private theorem derRows_spec (at_ : ℕ → ℕ) (q : Derived K) (hne : q.image ≠ q.idx) :
    ∀ (rows : List ℕ) (si : ℕ) (fc : FC K),
      (∀ i < si + rows.length, ∀ j < si + rows.length, at_ i = at_ j → i = j) →
      (∀ s a, a ≠ q.idx → block (derRows at_ q si rows fc) s a = block fc s a) ∧
      (∀ i < si, block (derRows at_ q si rows fc) (at_ i) q.idx = block fc (at_ i) q.idx) ∧
      (∀ j < rows.length, block (derRows at_ q si rows fc) (at_ (si + j)) q.idx =
        q.W⁻¹ * block fc (at_ (rows.getD j 0)) q.image * q.W) := by
  intro rows
  induction rows with
  | nil => intro si fc _; exact ⟨fun _ _ _ => rfl, fun _ _ => rfl, by intro j hj; simp at hj⟩
  | cons same rows ih =>
    intro si fc hinj
    simp only [List.length_cons] at hinj
    obtain ⟨h1, h2, h3⟩ := ih (si + 1) (setBlock fc (at_ si) q.idx (q.W⁻¹ * block fc (at_ same) q.image * q.W))
      (fun i hi j hj => hinj i (by omega) j (by omega))
    refine ⟨?_, ?_, ?_⟩
    · intro s a ha
      rw [derRows, h1 s a ha, block_setBlock, if_neg (fun h => ha h.2)]
    · intro i hi
      rw [derRows, h2 i (by omega), block_setBlock, if_neg]
      rintro ⟨h, -⟩
      have := hinj i (by omega) si (by omega) h
      omega
    · intro j hj
      cases j with
      | zero =>
        rw [derRows, show si + 0 = si from rfl, h2 si (by omega), block_setBlock, if_pos ⟨rfl, rfl⟩]
        simp
      | succ j =>
        rw [derRows, show si + (j + 1) = si + 1 + j by omega, h3 j (by simpa using hj), block_setBlock,
          if_neg (fun h => hne h.2)]
        simp

private theorem derLoop_ok (N : ℕ) (at_ : ℕ → ℕ) (hat : ∀ i < N, ∀ j < N, at_ i = at_ j → i = j)
    (Φ : ℕ → ℕ → M3 K) (req : List (ReqAtom K)) : ∀ (der : List (Derived K)) (fc : FC K),
      (∀ q ∈ der, GoodDer N at_ Φ req q) → (der.map Derived.idx).Nodup →
      (∀ q ∈ req, ∀ i < N, block fc (at_ i) q.idx = Φ (at_ i) q.idx) →
      ∃ fc', derLoop at_ der fc = .ok fc' ∧
        (∀ q ∈ req, ∀ i < N, block fc' (at_ i) q.idx = Φ (at_ i) q.idx) ∧
        (∀ q ∈ der, ∀ i < N, block fc' (at_ i) q.idx = Φ (at_ i) q.idx) ∧
        (∀ s a, a ∉ der.map Derived.idx → block fc' s a = block fc s a) := by
  intro der
  induction der with
  | nil => intro fc _ _ h; exact ⟨fc, rfl, h, by simp, fun _ _ _ => rfl⟩
  | cons q der ih =>
    intro fc hq hn hreq
    simp only [List.map_cons, List.nodup_cons] at hn
    have g := hq q (by simp)
    have hne : q.image ≠ q.idx := fun h => g.not_req (h ▸ g.image)
    obtain ⟨d1, -, d3⟩ := derRows_spec at_ q hne q.rows 0 fc (by rw [g.rows_len, Nat.zero_add]; exact hat)
    have hreq' : ∀ q' ∈ req, ∀ i < N, block (derRows at_ q 0 q.rows fc) (at_ i) q'.idx = Φ (at_ i) q'.idx := by
      intro q' hq' i hi
      rw [d1 _ _ (fun h => g.not_req (h ▸ List.mem_map.mpr ⟨q', hq', rfl⟩)), hreq q' hq' i hi]
    have hown : ∀ i < N, block (derRows at_ q 0 q.rows fc) (at_ i) q.idx = Φ (at_ i) q.idx := by
      intro i hi
      have h := d3 i (by rw [g.rows_len]; exact hi)
      rw [Nat.zero_add] at h
      rw [h]
      obtain ⟨q', hq', hqi⟩ := List.mem_map.mp g.image
      have hlt : q.rows.getD i 0 < N := by
        have hil : i < q.rows.length := by rw [g.rows_len]; exact hi
        rw [List.getD_eq_getElem?_getD, List.getElem?_eq_getElem hil]
        exact g.rows_lt _ (List.getElem_mem hil)
      rw [← hqi, hreq q' hq' _ hlt, hqi, Matrix.mul_assoc, g.invariant i hi, ← Matrix.mul_assoc,
        Matrix.nonsing_inv_mul _ (isUnit_iff_ne_zero.mpr g.inv), Matrix.one_mul]
    obtain ⟨fc', e1, e2, e3, e4⟩ := ih (derRows at_ q 0 q.rows fc) (fun q' hq' => hq q' (List.mem_cons_of_mem _ hq')) hn.2 hreq'
    refine ⟨fc', ?_, e2, ?_, ?_⟩
    · rw [derLoop, if_neg (fun h => g.inv h.2)]; exact e1
    · intro q' hq' i hi
      rcases List.mem_cons.mp hq' with rfl | hm
      · rw [e4 _ _ hn.1, hown i hi]
      · exact e3 q' hm i hi
    · intro s a ha
      simp only [List.map_cons, List.mem_cons, not_or] at ha
      rw [e4 s a ha.2, d1 s a ha.1]

/-- **C22.**  Symmetry branch: if the recorded operations fit a crystal with force constants `Φ` (`GoodReq`,
`GoodDer`: each leaves `Φ` invariant) and the files contain the harmonic forces for the displacements the
pre-process writes (first direction of each required atom and its additional directions, amplitude `±d`,
arbitrary residual forces `F0`), then the reconstruction succeeds and for *every* selected atom `a` — required or
derived — and every selected super-cell atom, the block is exactly `Φ`. -/
theorem C22_symmetry_reconstruction [CharZero K] (N nsel : ℕ) (at_ : ℕ → ℕ) (hat : ∀ i < N, ∀ j < N, at_ i = at_ j → i = j)
    (Φ : ℕ → ℕ → M3 K) (F0 : Rows K) (d : K) (hd : d ≠ 0) (junkCols : ℕ → Rows K) (junk : FC K)
    (req : List (ReqAtom K)) (der : List (Derived K)) (files : List (Rows K))
    (hreq : ∀ q ∈ req, GoodReq N at_ Φ q) (hder : ∀ q ∈ der, GoodDer N at_ Φ req q)
    (hn1 : (req.map ReqAtom.idx).Nodup) (hn2 : (der.map Derived.idx).Nodup)
    (hcover : ∀ a < nsel, a ∈ req.map ReqAtom.idx ∨ a ∈ der.map Derived.idx)
    (hfiles : HarmonicFiles Φ F0 (d * (1 / 10 ^ 10)) (req.flatMap fun q => (calcDirs q).map fun v => (q.idx, v)) files 0) :
    ∃ fc, setSym d at_ junkCols junk req der files = .ok fc ∧
      ∀ a < nsel, ∀ i < N, ∀ x y : Fin 3, fc (3 * at_ i + x) (3 * a + y) = Φ (at_ i) a x y := by
  obtain ⟨fc1, h1, h2, h3⟩ := reqLoop_ok N at_ hat Φ F0 d hd junkCols files req 0 junk hreq hn1 hfiles
  obtain ⟨fc2, g1, g2, g3, -⟩ := derLoop_ok N at_ hat Φ req der fc1 hder hn2 h2
  refine ⟨fc2, by rw [setSym, h1]; exact g1, ?_⟩
  intro a ha i hi x y
  have : block fc2 (at_ i) a = Φ (at_ i) a := by
    rcases hcover a ha with h | h
    · obtain ⟨q, hq, rfl⟩ := List.mem_map.mp h
      exact g2 q hq i hi
    · obtain ⟨q, hq, rfl⟩ := List.mem_map.mp h
      exact g3 q hq i hi
  exact congrFun (congrFun this x) y

/-- **C22 end to end.**  The pre-process writes the displaced structures of the symmetry plan (required atom
`q` at super-cell row `home q.idx`); the "DFT code" returns the forces of a harmonic crystal for each of them;
`set_force_constant` with symmetry reconstructs exactly the blocks of `Φ4` between every selected super-cell atom
and the home image of every selected atom. -/
theorem C22_end_to_end [CharZero K] (s : Cell K) (sel : List ℕ) (E : ℕ) (d : K) (hd : d ≠ 0) (p : Fin 3 → ℤ) (hp : numPbc p = 2)
    (home : ℕ → ℕ) (N nsel : ℕ) (at_ : ℕ → ℕ) (hat : ∀ i < N, ∀ j < N, at_ i = at_ j → i = j)
    (Φ4 : ℕ → Fin 3 → ℕ → Fin 3 → K) (F0 : Rows K) (junkCols : ℕ → Rows K) (junk : FC K)
    (req : List (ReqAtom K)) (der : List (Derived K))
    (hhome : ∀ q ∈ req, home q.idx < s.cart.length)
    (hreq : ∀ q ∈ req, GoodReq N at_ (fun r a x y => Φ4 r x (home a) y) q)
    (hder : ∀ q ∈ der, GoodDer N at_ (fun r a x y => Φ4 r x (home a) y) req q)
    (hn1 : (req.map ReqAtom.idx).Nodup) (hn2 : (der.map Derived.idx).Nodup)
    (hcover : ∀ a < nsel, a ∈ req.map ReqAtom.idx ∨ a ∈ der.map Derived.idx)
    (s' : Cell K) (files : Files K)
    (hw : writeDisplaceCell s sel E d p true (.ok (req.map fun q => (home q.idx, calcDirs q))) = .ok (s', files)) :
    ∃ fc, setSym d at_ junkCols junk req der (files.map fun f => harmonicForces Φ4 F0 s f.2) = .ok fc ∧
      ∀ a < nsel, ∀ i < N, ∀ x y : Fin 3, fc (3 * at_ i + x) (3 * a + y) = Φ4 (at_ i) x (home a) y := by
  obtain ⟨s'', files', hw', -, hf⟩ := C15_displaced_files_sym s sel E d p hp (req.map fun q => (home q.idx, calcDirs q)) (by
    intro q hq
    obtain ⟨q', hq', rfl⟩ := List.mem_map.mp hq
    exact hhome q' hq')
  rw [hw] at hw'; cases hw'
  apply C22_symmetry_reconstruction N nsel at_ hat _ F0 d hd junkCols junk req der _ hreq hder hn1 hn2 hcover
  intro k a v hk
  have hplan : ((req.map fun q => (home q.idx, calcDirs q)).flatMap fun q => q.2.map fun v => (q.1, v)) =
      (req.flatMap fun q => (calcDirs q).map fun v => (q.idx, v)).map fun t => (home t.1, t.2) := by
    simp [List.flatMap_map, List.map_flatMap, Function.comp_def]
  have hk' := congrArg (Option.map fun t : ℕ × V3 K => (home t.1, t.2)) hk
  rw [← List.getElem?_map, ← hplan] at hk'
  have hrow : home a < s.cart.length := by
    have hm := List.mem_of_getElem? hk
    simp only [List.mem_flatMap, List.mem_map] at hm
    obtain ⟨q, hq, w, -, he⟩ := hm
    cases he
    exact hhome q hq
  obtain ⟨⟨c1, e1, m1⟩, ⟨c2, e2, m2⟩⟩ := hf k (home a) v hk'
  simp only [Nat.zero_add, List.getElem?_map, e1, e2, Option.map_some, Option.some.injEq]
  constructor
  · funext r x
    rw [harmonic_moved Φ4 F0 s _ _ _ hrow m1]
    simp only [Pi.sub_apply, Pi.smul_apply, smul_eq_mul, Matrix.mulVec, dotProduct]
    rw [Finset.mul_sum]
    congr 1
    apply Finset.sum_congr rfl
    intro y _
    ring
  · funext r x
    rw [harmonic_moved Φ4 F0 s _ _ _ hrow m2]
    simp only [Pi.add_apply, Pi.smul_apply, smul_eq_mul, Matrix.mulVec, dotProduct]
    rw [Finset.mul_sum, sub_eq_add_neg, ← Finset.sum_neg_distrib]
    congr 1
    apply Finset.sum_congr rfl
    intro y _
    ring

end

/-! A concrete crystal for C22: two atoms exchanged by the mirror `x → -x`, with non-diagonal force constants. -/

def exMirror : M3 ℚ := !![-1, 0, 0; 0, 1, 0; 0, 0, 1]
def exA : M3 ℚ := !![4, 1, 0; 1, 3, 2; 0, 2, 5]
def exB : M3 ℚ := !![-1, 2, 0; 0, -3, 1; 1, 0, -2]
/-- blocks `Φ 0 0 = A`, `Φ 1 0 = B`, `Φ 1 1 = M A M`, `Φ 0 1 = M B M`. -/
def exΦ (r a : ℕ) : M3 ℚ :=
  if a = 0 then (if r = 0 then exA else exB) else (if r = 0 then exMirror * exB * exMirror else exMirror * exA * exMirror)
def exReq : ReqAtom ℚ := ⟨0, [![1, 0, 1]], [([0, 1], 1)], [![0, 1, 1], ![1, 1, 0]]⟩
def exDer : Derived ℚ := ⟨1, exMirror, [1, 0], 0⟩

example : GoodReq 2 id exΦ exReq where
  three := rfl
  indep := by
    have : (ofColumns (exReq.single ++ exReq.additional)).det = -2 := by
      simp [Matrix.det_fin_three, ofColumns, exReq]; norm_num
    rw [this]; norm_num
  ops_len := rfl
  some_op := by simp [exReq]
  image := by
    intro k perm W h
    cases k with
    | zero => simp [exReq] at h ⊢; obtain ⟨-, rfl⟩ := h; simp
    | succ k => simp [exReq] at h
  perm_len := by simp [exReq, List.range_succ]
  invariant := by
    intro o ho i hi
    simp [exReq] at ho
    subst ho
    interval_cases i <;> simp

example : GoodDer 2 id exΦ [exReq] exDer where
  inv := by
    have : exMirror.det = -1 := by simp [Matrix.det_fin_three, exMirror]
    show exMirror.det ≠ 0
    rw [this]; norm_num
  rows_len := rfl
  rows_lt := by simp [exDer]
  image := by simp [exDer, exReq]
  not_req := by simp [exDer, exReq]
  invariant := by
    intro i hi
    interval_cases i
    · ext a b; fin_cases a <;> fin_cases b <;> simp [exDer, exΦ, exMirror, exB, Matrix.mul_apply, Fin.sum_univ_three]
    · ext a b; fin_cases a <;> fin_cases b <;> simp [exDer, exΦ, exMirror, exA, Matrix.mul_apply, Fin.sum_univ_three]

end Interphon.Props
