import Verif.Props.SymOps

/-!
# Searching the symmetry of a cell: C69, C70, C71, C73
-/

namespace Interphon.Props
open Py Interphon Interphon.Symmetry

section
variable {K : Type*} [Field K] [LinearOrder K] [FloorRing K]

/-! ### Specification -/

/-- The direct-coordinate vector `δ` is, up to a lattice vector, within `tol` of zero in every Cartesian component
(rows of `L` are the lattice vectors). -/
def NearMod (tol : K) (L : M3 K) (δ : V3 K) : Prop :=
  ∃ m : Fin 3 → ℤ, ∀ c, |(Matrix.vecMul (fun k => δ k - (m k : K)) L) c| ≤ tol

/-- Position and type of the selected atom number `a`. -/
def selPos (s : Input K) (a : ℕ) : V3 K := s.x (s.sel.getD a 0)
/-- Its type. -/
def selTyp (s : Input K) (a : ℕ) : Str := s.typ (s.sel.getD a 0)

/-- Selected atoms of one type are more than twice the matching tolerance apart. -/
def Apart (s : Input K) : Prop := ∀ t < s.sel.length, ∀ u < s.sel.length, selTyp s t = selTyp s u →
  NearMod (2 / 10 ^ 4) s.lattice (fun c => selPos s t c - selPos s u c) → t = u

/-- The affine map `x ↦ W x + w` on direct coordinates, `W` acting in the plane of axes `i`, `j`. -/
def applyOp (i j : Fin 3) (W : Op) (w x : V3 K) : V3 K := fun r =>
  (if r = i then (W.a : K) * x i + W.b * x j else if r = j then (W.c : K) * x i + W.d * x j else x r) + w r

/-- Dot products of the in-plane parts of the two periodic lattice vectors. -/
def planeMetric (L : M3 K) (i j : Fin 3) : Matrix (Fin 2) (Fin 2) K :=
  !![L i i * L i i + L i j * L i j, L i i * L j i + L i j * L j j; L j i * L i i + L j j * L i j, L j i * L j i + L j j * L j j]

/-- `Wᵀ G W` agrees with `G` within the tolerance of the program. -/
def MetricKept (G : Matrix (Fin 2) (Fin 2) K) (W : Op) : Prop :=
  let Wm : Matrix (Fin 2) (Fin 2) K := W.mat.map (fun n : ℤ => (n : K))
  ∀ r c, |G r c - (Wm.transpose * G * Wm) r c| ≤ 1 / 10 ^ 6 + 1 / 10 ^ 5 * |(Wm.transpose * G * Wm) r c|

/-- `(W, w)` maps the selected atoms to selected atoms of the same type, number `a` to number `img a`. -/
def MapsTo (s : Input K) (i j : Fin 3) (W : Op) (w : V3 K) (img : ℕ → ℕ) : Prop :=
  ∀ a < s.sel.length, img a < s.sel.length ∧ selTyp s (img a) = selTyp s a ∧
    NearMod (1 / 10 ^ 4) s.lattice (fun c => applyOp i j W w (selPos s a) c - selPos s (img a) c)

variable [IsStrictOrderedRing K]

omit [FloorRing K] [LinearOrder K] [IsStrictOrderedRing K] in
theorem embed_apply {i j : Fin 3} (hij : i ≠ j) (W : Op) (w x : V3 K) (r : Fin 3) :
    ((embed i j W : M3 K).mulVec x) r + w r = applyOp i j W w x r := by
  unfold applyOp
  congr 1
  simp only [Matrix.mulVec, dotProduct, embed]
  revert hij
  fin_cases i <;> fin_cases j <;> fin_cases r <;> simp [Fin.sum_univ_three] <;> ring

theorem nearZero_iff (v : V3 K) : nearZero v = true ↔ ∀ c, |v c| ≤ 1 / 10 ^ 4 := by
  simp [nearZero, close]

theorem nearMod_of_nearZero {L : M3 K} {δ : V3 K} (h : nearZero (deltaCart L δ) = true) : NearMod (1 / 10 ^ 4) L δ :=
  ⟨fun k => rint (δ k), (nearZero_iff _).1 h⟩

omit [FloorRing K] in
theorem nearMod_sub {L : M3 K} {p q : V3 K} {t : K} (h1 : NearMod t L p) (h2 : NearMod t L q) : NearMod (2 * t) L (fun c => p c - q c) := by
  obtain ⟨m, hm⟩ := h1
  obtain ⟨n, hn⟩ := h2
  refine ⟨fun k => m k - n k, fun c => ?_⟩
  have e : (Matrix.vecMul (fun k => p k - q k - ((m k - n k : ℤ) : K)) L) c =
      (Matrix.vecMul (fun k => p k - (m k : K)) L) c - (Matrix.vecMul (fun k => q k - (n k : K)) L) c := by
    simp only [Matrix.vecMul, dotProduct, ← Finset.sum_sub_distrib]
    refine Finset.sum_congr rfl fun k _ => ?_
    push_cast; ring
  rw [e]
  calc _ ≤ _ := abs_sub _ _
    _ ≤ t + t := add_le_add (hm c) (hn c)
    _ = 2 * t := by ring

/-! ### C69 -/

private theorem mem_matches (s : Input K) {i j : Fin 3} (hij : i ≠ j) (W : Op) (w : V3 K) (a t : ℕ) :
    t ∈ matchesOf s (embed i j W) w a ↔ t < s.sel.length ∧ selTyp s t = selTyp s a ∧
      nearZero (deltaCart s.lattice (fun c => applyOp i j W w (selPos s a) c - selPos s t c)) = true := by
  simp only [matchesOf, List.mem_filter, List.mem_range, Bool.and_eq_true, decide_eq_true_eq, embed_apply hij, selTyp, selPos]

private theorem matches_unique (s : Input K) (hs : Apart s) {i j : Fin 3} (hij : i ≠ j) (W : Op) (w : V3 K) (a : ℕ) {t u : ℕ}
    (ht : t ∈ matchesOf s (embed i j W) w a) (hu : u ∈ matchesOf s (embed i j W) w a) : t = u := by
  obtain ⟨t1, t2, t3⟩ := (mem_matches s hij W w a t).1 ht
  obtain ⟨u1, u2, u3⟩ := (mem_matches s hij W w a u).1 hu
  refine hs t t1 u u1 (t2.trans u2.symm) ?_
  have := nearMod_sub (nearMod_of_nearZero u3) (nearMod_of_nearZero t3)
  rw [show (2 : K) * (1 / 10 ^ 4) = 2 / 10 ^ 4 by ring] at this
  convert this using 1
  funext c; ring

private theorem matches_le_one (s : Input K) (hs : Apart s) {i j : Fin 3} (hij : i ≠ j) (W : Op) (w : V3 K) (a : ℕ) :
    (matchesOf s (embed i j W) w a).length ≤ 1 := by
  have hnd : (matchesOf s (embed i j W) w a).Nodup := List.nodup_range.filter _
  have key := fun t ht u hu => matches_unique s hs hij W w a (t := t) (u := u) ht hu
  rcases h : matchesOf s (embed i j W) w a with _ | ⟨x, _ | ⟨y, l⟩⟩
  · simp
  · simp
  · rw [h] at key hnd
    have := key x (by simp) y (by simp)
    simp [this] at hnd

omit [IsStrictOrderedRing K] in
private theorem sameLoop_spec (s : Input K) (W : M3 K) (w : V3 K) (hle : ∀ a, (matchesOf s W w a).length ≤ 1) :
    ∀ (l acc : List ℕ) (n : ℕ), acc.length + l.length ≤ s.sel.length →
      (sameLoop s W w l acc n).1 = acc ++ l.flatMap (matchesOf s W w) ∧
      ((sameLoop s W w l acc n).2 = n ∨ ((sameLoop s W w l acc n).2 = n + 1 ∧ ∀ a ∈ l, (matchesOf s W w a).length = 1)) ∧
      (l ≠ [] → acc.length + l.length = s.sel.length → (∀ a ∈ l, (matchesOf s W w a).length = 1) → (sameLoop s W w l acc n).2 = n + 1) := by
  intro l
  induction l with
  | nil => intro acc n _; simp [sameLoop]
  | cons a rest ih =>
    intro acc n hlen
    rw [sameLoop]
    simp only [List.length_cons] at hlen ⊢
    have h1 := hle a
    have hlen' : (acc ++ matchesOf s W w a).length + rest.length ≤ s.sel.length := by rw [List.length_append]; omega
    by_cases hfull : (acc ++ matchesOf s W w a).length = s.sel.length
    · have hrest : rest = [] := by
        rw [List.length_append] at hfull
        exact List.length_eq_zero_iff.1 (by omega)
      subst hrest
      rw [if_pos hfull]
      have hone : (matchesOf s W w a).length = 1 := by
        rw [List.length_append] at hfull; simp at hlen; omega
      simp only [sameLoop]
      refine ⟨by simp, Or.inr ⟨trivial, by simpa using hone⟩, fun _ _ _ => trivial⟩
    · rw [if_neg hfull]
      obtain ⟨i1, i2, i3⟩ := ih (acc ++ matchesOf s W w a) n hlen'
      refine ⟨by rw [i1]; simp, ?_, ?_⟩
      · rcases i2 with i2 | ⟨i2, i2'⟩
        · exact Or.inl i2
        · by_cases hone : (matchesOf s W w a).length = 1
          · exact Or.inr ⟨i2, by simpa using ⟨hone, i2'⟩⟩
          · left
            exfalso
            -- the running list cannot fill up any more
            have hlt : ∀ (l acc : List ℕ) (n : ℕ), acc.length + l.length < s.sel.length → (sameLoop s W w l acc n).2 = n := by
              intro l
              induction l with
              | nil => intro acc n _; rfl
              | cons b l ihl =>
                intro acc n hl
                simp only [List.length_cons] at hl
                have hb := hle b
                rw [sameLoop]
                rw [if_neg (by rw [List.length_append]; omega), ihl _ _ (by rw [List.length_append]; omega)]
            have := hlt rest (acc ++ matchesOf s W w a) n (by rw [List.length_append]; omega)
            omega
      · intro _ htot hall
        have hone := hall a (by simp)
        by_cases hr : rest = []
        · subst hr; exfalso; apply hfull; rw [List.length_append]; simp at htot; omega
        · exact i3 hr (by rw [List.length_append]; omega) (fun b hb => hall b (by simp [hb]))

omit [IsStrictOrderedRing K] in
private theorem flatMap_one {f : ℕ → List ℕ} : ∀ {l : List ℕ}, (∀ a ∈ l, (f a).length = 1) → l.flatMap f = l.map (fun a => (f a).headD 0) := by
  intro l
  induction l with
  | nil => intro _; rfl
  | cons a l ih =>
    intro h
    rw [List.flatMap_cons, List.map_cons, ih (fun b hb => h b (by simp [hb]))]
    obtain ⟨x, hx⟩ := List.length_eq_one_iff.1 (h a (by simp))
    rw [hx]; rfl

/-- What it means that a translation and an image list are recorded for a rotation. -/
private theorem transFor_spec (s : Input K) (hs : Apart s) {i j : Fin 3} (hij : i ≠ j) (n : Fin 3) (W : Op) {w : V3 K} {img : List ℕ}
    (h : (w, img) ∈ transFor s (embed i j W) n) :
    w ∈ transCands s (embed i j W) n ∧ img.length = s.sel.length ∧ MapsTo s i j W w (fun a => img.getD a 0) := by
  simp only [transFor, List.mem_flatMap, List.mem_replicate, Prod.mk.injEq] at h
  obtain ⟨w', hw', hne, rfl, rfl⟩ := h
  obtain ⟨h1, h2, -⟩ := sameLoop_spec s (embed i j W) w (fun a => matches_le_one s hs hij W w a) (List.range s.sel.length) [] 0 (by simp)
  have hall : ∀ a ∈ List.range s.sel.length, (matchesOf s (embed i j W) w a).length = 1 := by
    rcases h2 with h2 | ⟨-, h2⟩
    · exact absurd h2 hne
    · exact h2
  rw [List.nil_append, flatMap_one hall] at h1
  rw [h1]
  refine ⟨hw', by simp, fun a ha => ?_⟩
  have hg : (List.map (fun a => (matchesOf s (embed i j W) w a).headD 0) (List.range s.sel.length)).getD a 0 =
      (matchesOf s (embed i j W) w a).headD 0 := by
    rw [List.getD_eq_getElem?_getD, List.getElem?_map, List.getElem?_range ha]; rfl
  obtain ⟨x, hx⟩ := List.length_eq_one_iff.1 (hall a (List.mem_range.2 ha))
  simp only [hg, hx, List.headD_cons]
  obtain ⟨m1, m2, m3⟩ := (mem_matches s hij W w a x).1 (by rw [hx]; simp)
  exact ⟨m1, m2, nearMod_of_nearZero m3⟩

omit [FloorRing K] [IsStrictOrderedRing K] in
private theorem metricKept_iff (L : M3 K) (i j : Fin 3) [FloorRing K] (W : Op) : keepsMetric (metric L i j) W = true ↔ MetricKept (planeMetric L i j) W := by
  have e : ∀ r c : Fin 2, ((W.mat.map (fun n : ℤ => (n : K))).transpose * planeMetric L i j * W.mat.map (fun n : ℤ => (n : K))) r c =
      (![![(rotateMetric W (metric L i j)).1, (rotateMetric W (metric L i j)).2.1], ![(rotateMetric W (metric L i j)).2.1, (rotateMetric W (metric L i j)).2.2]] :
        Fin 2 → Fin 2 → K) r c := by
    intro r c
    fin_cases r <;> fin_cases c <;>
      simp [Matrix.mul_apply, Matrix.transpose_apply, Fin.sum_univ_two, planeMetric, metric, rotateMetric, Op.mat] <;> ring
  have g : ∀ r c : Fin 2, planeMetric L i j r c =
      (![![(metric L i j).1, (metric L i j).2.1], ![(metric L i j).2.1, (metric L i j).2.2]] : Fin 2 → Fin 2 → K) r c := by
    intro r c
    fin_cases r <;> fin_cases c <;> simp [planeMetric, metric] <;> ring
  unfold MetricKept keepsMetric
  simp only [e, g, Bool.and_eq_true, close, decide_eq_true_eq]
  constructor
  · rintro ⟨⟨h1, h2⟩, h3⟩ r c
    fin_cases r <;> fin_cases c <;> assumption
  · intro h
    exact ⟨⟨h 0 0, h 0 1⟩, h 1 1⟩

/-- **C69.**  For every recorded operation — rotation part `W`, translation `w`, recorded images `img` — the rotation is one of the candidates
and keeps the metric of the periodic plane within the tolerance, one image is recorded for every selected atom, and `x ↦ W x + w` maps the
selected atom number `a` onto the selected atom number `img[a]`, of the same type, up to a lattice vector and 10⁻⁴ in every Cartesian
component. -/
theorem C69_recorded_maps (s : Input K) (hs : Apart s) {i j : Fin 3} (hij : i ≠ j) (n : Fin 3) {W : Op} {trs : List (V3 K × List ℕ)}
    (hr : (W, trs) ∈ recorded s i j n) : W ∈ candidates ∧ MetricKept (planeMetric s.lattice i j) W ∧ trs ≠ [] ∧
      ∀ w img, (w, img) ∈ trs → img.length = s.sel.length ∧ MapsTo s i j W w (fun a => img.getD a 0) := by
  obtain ⟨hm, hne⟩ := List.mem_filter.1 hr
  obtain ⟨V, hV, e⟩ := List.mem_map.1 hm
  simp only [Prod.mk.injEq] at e
  obtain ⟨rfl, rfl⟩ := e
  obtain ⟨hc, hk⟩ := List.mem_filter.1 hV
  refine ⟨hc, (metricKept_iff _ _ _ _).1 hk, by simpa using hne, fun w img h => ?_⟩
  exact (transFor_spec s hs hij n V h).2

/-! ### C70 -/

/-- **C70**, when every atom is selected: a recorded operation maps every atom onto an atom of the same type.  (Missing: cells with fixed
atoms, see `C70_fixed_atoms_refuted`.) -/
theorem C70_all_selected_partial (s : Input K) (hs : Apart s) (hall : s.sel = List.range s.types.length) {i j : Fin 3} (hij : i ≠ j)
    (n : Fin 3) {W : Op} {trs : List (V3 K × List ℕ)} (hr : (W, trs) ∈ recorded s i j n) {w : V3 K} {img : List ℕ} (hw : (w, img) ∈ trs) :
    ∀ a < s.types.length, ∃ b < s.types.length, s.typ b = s.typ a ∧
      NearMod (1 / 10 ^ 4) s.lattice (fun c => applyOp i j W w (s.x a) c - s.x b c) := by
  intro a ha
  obtain ⟨-, h2⟩ := (C69_recorded_maps s hs hij n hr).2.2.2 w img hw
  have hlen : s.sel.length = s.types.length := by rw [hall, List.length_range]
  have hsel : ∀ b < s.types.length, s.sel.getD b 0 = b := by
    intro b hb; rw [hall, List.getD_eq_getElem?_getD, List.getElem?_range hb]; rfl
  obtain ⟨b1, b2, b3⟩ := h2 a (by omega)
  rw [hlen] at b1
  refine ⟨img.getD a 0, b1, ?_, ?_⟩
  · simpa only [selTyp, hsel a ha, hsel _ b1] using b2
  · simpa only [selPos, hsel a ha, hsel _ b1] using b3

end

/-- Name and rotation parts of a successful search. -/
def summary (r : Run (List (Recorded ℚ) × Str)) : Option (Str × List Op) :=
  match r with
  | .ok (ops, name) => some (name, ops.map Prod.fst)
  | .error _ => none

/-- A square cell: one selected atom `A` at the origin, one fixed atom `B` in a general position. -/
def fixedCell : Input ℚ where
  lattice := !![3, 0, 0; 0, 3, 0; 0, 0, 20]
  types := ["A".toList, "B".toList]
  direct := [![0, 0, 0], ![1 / 10, 1 / 5, 1 / 2]]
  sel := [0]
  period := ![1, 1, 0]

/-- **C70 is false of the code**: fixed atoms are not compared.  For `fixedCell`, whose only symmetry is the identity, the search succeeds and
reports `4mm`; the recorded rotation by 180° maps the fixed atom onto no atom of its type. -/
theorem C70_fixed_atoms_refuted : Apart fixedCell ∧
    (∃ ops, searchPointGroup fixedCell = .ok (ops, "4mm".toList) ∧ (⟨-1, 0, 0, -1⟩ : Op) ∈ ops.map Prod.fst ∧ ops = recorded fixedCell 0 1 2) ∧
    ∀ b < fixedCell.types.length, fixedCell.typ b = fixedCell.typ 1 →
      ¬NearMod (1 / 10 ^ 4) fixedCell.lattice (fun c => applyOp 0 1 ⟨-1, 0, 0, -1⟩ 0 (fixedCell.x 1) c - fixedCell.x b c) := by
  refine ⟨?_, ?_, ?_⟩
  · intro t ht u hu _ _
    have h1 : t < 1 := ht
    have h2 : u < 1 := hu
    omega
  · have h : (summary (searchPointGroup fixedCell)).map (fun t => decide (t.1 = "4mm".toList ∧ (⟨-1, 0, 0, -1⟩ : Op) ∈ t.2)) = some true := by
      decide +kernel
    rcases e : searchPointGroup fixedCell with err | ⟨ops, name⟩
    · rw [e] at h; simp [summary] at h
    · rw [e] at h
      simp only [summary, Option.map_some, Option.some.injEq, decide_eq_true_eq] at h
      obtain ⟨h1, h2⟩ := h
      refine ⟨ops, by rw [h1], h2, ?_⟩
      unfold searchPointGroup at e
      have hax : axes fixedCell.period = [0, 1] := by decide
      have hn : ((List.finRange 3).filter (fun k => fixedCell.period k = 0)).headD 0 = 2 := by decide
      rw [hax] at e
      simp only [hn] at e
      rw [if_neg (by decide)] at e
      split at e
      · simp at e
      · split at e
        · simp at e
        · simp at e; exact e.1.symm
  · intro b hb ht
    have hb' : b < 2 := hb
    interval_cases b
    · exact absurd ht (by decide +kernel)
    · rintro ⟨m, hm⟩
      have h0 := hm 0
      have e : (Matrix.vecMul (fun k => applyOp 0 1 (⟨-1, 0, 0, -1⟩ : Op) 0 (fixedCell.x 1) k - fixedCell.x 1 k - (m k : ℚ)) fixedCell.lattice) 0 =
          3 * (-1 / 5 - (m 0 : ℚ)) := by
        simp [Matrix.vecMul, dotProduct, Fin.sum_univ_three, applyOp, fixedCell, Input.x]; ring
      rw [e] at h0
      obtain ⟨h1, h2⟩ := abs_le.1 h0
      have h3 : (-1 : ℚ) < m 0 := by linarith
      have h4 : (m 0 : ℚ) < 0 := by linarith
      have h3' : (-1 : ℤ) < m 0 := by exact_mod_cast h3
      have h4' : m 0 < 0 := by exact_mod_cast h4
      omega

/-! ### C73 -/

private theorem firstHit_spec (i : ℕ) (req : List ℕ) : ∀ (same0 : List (List ℕ)) (k0 : ℕ), (∀ same ∈ same0, i < same.length) →
    (∃ m same, imageLoop.firstHit same0 i req k0 = .ok (some (k0 + m)) ∧ same0[m]? = some same ∧ same.getD i 0 ∈ req) ∨
    (imageLoop.firstHit same0 i req k0 = .ok none ∧ ∀ same ∈ same0, same.getD i 0 ∉ req) := by
  intro same0
  induction same0 with
  | nil => intro k0 _; exact Or.inr ⟨rfl, by simp⟩
  | cons same rest ih =>
    intro k0 hl
    have hi := hl same (by simp)
    have hg : getE same i = .ok (same.getD i 0) := by
      unfold getE; rw [List.getD_eq_getElem?_getD, List.getElem?_eq_getElem hi]; rfl
    rw [imageLoop.firstHit, hg]
    simp only
    by_cases hm : same.getD i 0 ∈ req
    · rw [if_pos hm]; exact Or.inl ⟨0, same, rfl, rfl, hm⟩
    · rw [if_neg hm]
      rcases ih (k0 + 1) (fun s hs => hl s (by simp [hs])) with ⟨m, s, h1, h2, h3⟩ | ⟨h1, h2⟩
      · refine Or.inl ⟨m + 1, s, ?_, by simpa using h2, h3⟩
        rw [h1, show k0 + 1 + m = k0 + (m + 1) by ring]
      · exact Or.inr ⟨h1, by simpa using ⟨hm, h2⟩⟩

private theorem imageLoop_spec (same0 : List (List ℕ)) : ∀ (l pg req der : List ℕ), (∀ i ∈ l, ∀ same ∈ same0, i < same.length) →
    pg.length = der.length →
    (∀ k a o : ℕ, der[k]? = some a → pg[k]? = some o → ∃ same : List ℕ, same0[o]? = some same ∧ same.getD a 0 ∈ req) →
    (req.Pairwise fun r r' => ∀ same ∈ same0, List.getD same r' 0 ≠ r) →
    ∃ pg' req' der', imageLoop same0 l (pg, req, der) = .ok (pg', req', der') ∧ (req' ++ der').Perm ((req ++ der) ++ l) ∧
      pg'.length = der'.length ∧
      (∀ k a o : ℕ, der'[k]? = some a → pg'[k]? = some o → ∃ same : List ℕ, same0[o]? = some same ∧ same.getD a 0 ∈ req') ∧
      (req'.Pairwise fun r r' => ∀ same ∈ same0, List.getD same r' 0 ≠ r) := by
  intro l
  induction l with
  | nil => intro pg req der _ h1 h2 h3; exact ⟨pg, req, der, rfl, by simp, h1, h2, h3⟩
  | cons i rest ih =>
    intro pg req der hl h1 h2 h3
    have hrest := fun j (hj : j ∈ rest) => hl j (List.mem_cons_of_mem _ hj)
    have perm1 : ((req ++ [i] ++ der) ++ rest).Perm ((req ++ der) ++ i :: rest) := by
      refine (List.Perm.append_right _ ?_).trans (by simp : ((req ++ der) ++ [i] ++ rest).Perm _)
      simp only [List.append_assoc]
      exact List.Perm.append_left _ List.perm_append_comm
    rw [imageLoop]
    by_cases hreq : req = []
    · rw [if_pos hreq]
      obtain ⟨pg', req', der', e, p, q1, q2, q3⟩ := ih pg (req ++ [i]) der hrest h1
        (fun k a o ha ho => by obtain ⟨same, hs, hm⟩ := h2 k a o ha ho; exact ⟨same, hs, List.mem_append_left _ hm⟩) (by subst hreq; simp)
      exact ⟨pg', req', der', e, p.trans perm1, q1, q2, q3⟩
    · rw [if_neg hreq]
      rcases firstHit_spec i req same0 0 (hl i (by simp)) with ⟨m, same, f1, f2, f3⟩ | ⟨f1, f2⟩
      · rw [f1]
        simp only [Nat.zero_add]
        obtain ⟨pg', req', der', e, p, q1, q2, q3⟩ := ih (pg ++ [m]) req (der ++ [i]) hrest (by simp [h1])
          (fun k a o ha ho => by
            rcases Nat.lt_trichotomy k der.length with hk | hk | hk
            · rw [List.getElem?_append_left hk] at ha
              rw [List.getElem?_append_left (by omega)] at ho
              exact h2 k a o ha ho
            · subst hk
              rw [List.getElem?_concat_length] at ha
              rw [← h1, List.getElem?_concat_length] at ho
              cases ha; cases ho
              exact ⟨same, f2, f3⟩
            · rw [List.getElem?_eq_none (by simp; omega)] at ha; cases ha) h3
        refine ⟨pg', req', der', e, p.trans ?_, q1, q2, q3⟩
        simp
      · rw [f1]
        simp only
        obtain ⟨pg', req', der', e, p, q1, q2, q3⟩ := ih pg (req ++ [i]) der hrest h1
          (fun k a o ha ho => by obtain ⟨same, hs, hm⟩ := h2 k a o ha ho; exact ⟨same, hs, List.mem_append_left _ hm⟩) (by
            rw [List.pairwise_append]
            refine ⟨h3, by simp, fun r hr r' hr' same hs hc => ?_⟩
            rw [List.mem_singleton] at hr'; subst hr'
            exact f2 same hs (hc ▸ hr))
        exact ⟨pg', req', der', e, p.trans perm1, q1, q2, q3⟩

/-- **C73.**  Given, for every operation, the list of the images of all `n` selected atoms, `search_image_atom` succeeds and splits the selected
atoms: every selected atom is required or derived, and only once; one operation is recorded for every derived atom, and that operation maps it
onto a required atom; no operation maps a required atom onto an earlier required atom (no displacement is spent twice). -/
theorem C73_partition (same0 : List (List ℕ)) (n : ℕ) (hlen : ∀ same ∈ same0, same.length = n) :
    ∃ pg req der, searchImageAtom same0 n = .ok (pg, req, der) ∧ (req ++ der).Perm (List.range n) ∧ pg.length = der.length ∧
      (∀ k a o : ℕ, der[k]? = some a → pg[k]? = some o → ∃ same : List ℕ, same0[o]? = some same ∧ same.getD a 0 ∈ req) ∧
      (req.Pairwise fun r r' => ∀ same ∈ same0, List.getD same r' 0 ≠ r) := by
  obtain ⟨pg, req, der, e, p, q⟩ := imageLoop_spec same0 (List.range n) [] [] [] (fun i hi same hs => by
    rw [hlen same hs]; exact List.mem_range.1 hi) rfl (by simp) (by simp)
  exact ⟨pg, req, der, e, by simpa using p, q⟩

section
variable {K : Type*} [Field K] [LinearOrder K] [FloorRing K] [IsStrictOrderedRing K]

/-- **C73** on a cell: with the operations found by `search_point_group`, every derived atom is mapped by its recorded operation onto a required
atom of the same type. -/
theorem C73_cell (s : Input K) (hs : Apart s) {i j : Fin 3} (hij : i ≠ j) (n : Fin 3) :
    ∃ pg req der, searchImageAtom (sameFirst (recorded s i j n)) s.sel.length = .ok (pg, req, der) ∧
      (req ++ der).Perm (List.range s.sel.length) ∧ pg.length = der.length ∧
      ∀ k a o : ℕ, der[k]? = some a → pg[k]? = some o → ∃ W w, ∃ r ∈ req, W ∈ candidates ∧ selTyp s r = selTyp s a ∧
        NearMod (1 / 10 ^ 4) s.lattice (fun c => applyOp i j W w (selPos s a) c - selPos s r c) := by
  have first : ∀ r ∈ recorded s i j n, ∃ w img rest, r.2 = (w, img) :: rest := by
    rintro ⟨W, trs⟩ hr
    obtain ⟨-, -, hne, -⟩ := C69_recorded_maps s hs hij n hr
    obtain ⟨⟨w, img⟩, rest, e⟩ := List.exists_cons_of_ne_nil hne
    exact ⟨w, img, rest, e⟩
  obtain ⟨pg, req, der, e, p, q1, q2, -⟩ := C73_partition (sameFirst (recorded s i j n)) s.sel.length (by
    intro same hsame
    obtain ⟨⟨W, trs⟩, hr, rfl⟩ := List.mem_map.1 hsame
    obtain ⟨w, img, rest, e⟩ := first _ hr
    simp only at e
    simp only [e, List.map_cons, List.headD_cons]
    exact ((C69_recorded_maps s hs hij n hr).2.2.2 w img (by rw [e]; simp)).1)
  refine ⟨pg, req, der, e, p, q1, fun k a o ha ho => ?_⟩
  obtain ⟨same, h1, h2⟩ := q2 k a o ha ho
  rw [sameFirst, List.getElem?_map, Option.map_eq_some_iff] at h1
  obtain ⟨⟨W, trs⟩, hr, rfl⟩ := h1
  have hr' := List.mem_of_getElem? hr
  obtain ⟨w, img, rest, e'⟩ := first _ hr'
  simp only at e'
  simp only [e', List.map_cons, List.headD_cons] at h2
  obtain ⟨hc, -, -, hm⟩ := C69_recorded_maps s hs hij n hr'
  have ha' : a < s.sel.length := by
    have : a ∈ req ++ der := List.mem_append_right _ (List.mem_of_getElem? ha)
    exact List.mem_range.1 (p.mem_iff.1 this)
  obtain ⟨-, m2, m3⟩ := (hm w img (by rw [e']; simp)).2 a ha'
  exact ⟨W, w, img.getD a 0, h2, hc, m2, m3⟩

/-! ### C71 -/

theorem rint_near {x : K} {m : ℤ} (h : |x - m| < 1 / 2) : rint x = m := by
  obtain ⟨h1, h2⟩ := abs_lt.1 h
  unfold rint
  rcases lt_or_ge x (m : K) with hx | hx
  · have hf : ⌊x⌋ = m - 1 := by
      rw [Int.floor_eq_iff]; push_cast; constructor <;> linarith
    simp only [hf]
    push_cast
    rw [if_neg (by linarith), if_pos (by linarith)]; ring
  · have hf : ⌊x⌋ = m := by
      rw [Int.floor_eq_iff]; constructor <;> linarith
    simp only [hf]
    rw [if_pos (by linarith)]

/-- The lattice has an inverse with entries that are not astronomically large: a Cartesian vector with components up to 10⁻⁴ has direct
coordinates below one half (for an orthogonal cell: edges of more than 2·10⁻⁴). -/
def WellConditioned (L : M3 K) : Prop := ∃ B : M3 K, L * B = 1 ∧ ∀ k, ∑ c, |B c k| < 5000

omit [FloorRing K] in
theorem direct_small {L : M3 K} (hL : WellConditioned L) {η : V3 K} (h : ∀ c, |(Matrix.vecMul η L) c| ≤ 1 / 10 ^ 4) (k : Fin 3) : |η k| < 1 / 2 := by
  obtain ⟨B, hB, hs⟩ := hL
  have e : η k = ∑ c, (Matrix.vecMul η L) c * B c k := by
    have : Matrix.vecMul (Matrix.vecMul η L) B = η := by rw [Matrix.vecMul_vecMul, hB, Matrix.vecMul_one]
    conv_lhs => rw [← this]
    rfl
  rw [e]
  calc |∑ c, (Matrix.vecMul η L) c * B c k| ≤ ∑ c, |(Matrix.vecMul η L) c * B c k| := Finset.abs_sum_le_sum_abs _ _
    _ ≤ ∑ c, 1 / 10 ^ 4 * |B c k| := Finset.sum_le_sum fun c _ => by
        rw [abs_mul]; exact mul_le_mul_of_nonneg_right (h c) (abs_nonneg _)
    _ = 1 / 10 ^ 4 * ∑ c, |B c k| := by rw [Finset.mul_sum]
    _ < 1 / 2 := by
        have := hs k
        have h5 : (1 / 10 ^ 4 : K) * ∑ c, |B c k| < 1 / 10 ^ 4 * 5000 := mul_lt_mul_of_pos_left this (by positivity)
        norm_num at h5 ⊢; linarith

/-- In a well-conditioned lattice the comparison of the code finds the nearest lattice vector. -/
theorem nearZero_of_nearMod {L : M3 K} (hL : WellConditioned L) {δ : V3 K} (h : NearMod (1 / 10 ^ 4) L δ) : nearZero (deltaCart L δ) = true := by
  obtain ⟨m, hm⟩ := h
  have hr : ∀ k, rint (δ k) = m k := fun k => rint_near (direct_small hL hm k)
  rw [nearZero_iff]
  intro c
  simp only [deltaCart, hr]
  exact hm c

/-- **C71**, for operations about the origin of the cell (translation zero): if a candidate keeps the metric and maps the selected atoms onto
selected atoms of the same type, then it is recorded, with translation zero and with these images first.  (Missing: operations that need a
translation, see `C71_glide_refuted`.) -/
theorem C71_symmorphic_partial (s : Input K) (hs : Apart s) (hL : WellConditioned s.lattice) (hne : s.sel ≠ []) {i j : Fin 3} (hij : i ≠ j)
    (n : Fin 3) {W : Op} (hW : W ∈ candidates) (hm : MetricKept (planeMetric s.lattice i j) W) {img : ℕ → ℕ} (hmap : MapsTo s i j W 0 img) :
    ∃ trs, (W, trs) ∈ recorded s i j n ∧ trs.head? = some ((0 : V3 K), (List.range s.sel.length).map img) := by
  have hmem : ∀ a < s.sel.length, matchesOf s (embed i j W) 0 a = [img a] := by
    intro a ha
    obtain ⟨h1, h2, h3⟩ := hmap a ha
    have hin : img a ∈ matchesOf s (embed i j W) 0 a := (mem_matches s hij W 0 a _).2 ⟨h1, h2, nearZero_of_nearMod hL h3⟩
    have hle := matches_le_one s hs hij W 0 a
    rcases h : matchesOf s (embed i j W) 0 a with _ | ⟨x, _ | ⟨y, l⟩⟩
    · rw [h] at hin; simp at hin
    · rw [h] at hin; simp at hin; rw [hin]
    · rw [h] at hle; simp at hle
  have hone : ∀ a ∈ List.range s.sel.length, (matchesOf s (embed i j W) 0 a).length = 1 := by
    intro a ha; rw [hmem a (List.mem_range.1 ha)]; rfl
  have hN : s.sel.length ≠ 0 := by simpa using hne
  obtain ⟨l1, -, l3⟩ := sameLoop_spec s (embed i j W) 0 (fun a => matches_le_one s hs hij W 0 a) (List.range s.sel.length) [] 0 (by simp)
  have hl3 := l3 (by simpa using hN) (by simp) hone
  rw [List.nil_append, flatMap_one hone] at l1
  have himg : (List.range s.sel.length).map (fun a => (matchesOf s (embed i j W) 0 a).headD 0) = (List.range s.sel.length).map img := by
    refine List.map_congr_left fun a ha => ?_
    rw [hmem a (List.mem_range.1 ha)]; rfl
  have hin : (transFor s (embed i j W) n).head? = some ((0 : V3 K), (List.range s.sel.length).map img) := by
    rw [transFor, transCands, List.flatMap_cons]
    simp only [l1, hl3, himg]
    rfl
  refine ⟨transFor s (embed i j W) n, List.mem_filter.2 ⟨List.mem_map.2 ⟨W, List.mem_filter.2 ⟨hW, (metricKept_iff _ _ _ _).2 hm⟩, rfl⟩, ?_⟩, hin⟩
  simp only [ne_eq, decide_not, Bool.not_eq_eq_eq_not, Bool.not_true, decide_eq_false_iff_not]
  intro h; rw [h] at hin; simp at hin

/-- A recorded pair for a translation that is tried. -/
private theorem transFor_mem (s : Input K) (hs : Apart s) (hL : WellConditioned s.lattice) (hne : s.sel ≠ []) {i j : Fin 3} (hij : i ≠ j)
    (n : Fin 3) {W : Op} {w : V3 K} (hw : w ∈ transCands s (embed i j W) n) {img : ℕ → ℕ} (hmap : MapsTo s i j W w img) :
    (w, (List.range s.sel.length).map img) ∈ transFor s (embed i j W) n := by
  have hmem : ∀ a < s.sel.length, matchesOf s (embed i j W) w a = [img a] := by
    intro a ha
    obtain ⟨h1, h2, h3⟩ := hmap a ha
    have hin : img a ∈ matchesOf s (embed i j W) w a := (mem_matches s hij W w a _).2 ⟨h1, h2, nearZero_of_nearMod hL h3⟩
    have hle := matches_le_one s hs hij W w a
    rcases h : matchesOf s (embed i j W) w a with _ | ⟨x, _ | ⟨y, l⟩⟩
    · rw [h] at hin; simp at hin
    · rw [h] at hin; simp at hin; rw [hin]
    · rw [h] at hle; simp at hle
  have hone : ∀ a ∈ List.range s.sel.length, (matchesOf s (embed i j W) w a).length = 1 := by
    intro a ha; rw [hmem a (List.mem_range.1 ha)]; rfl
  have hN : s.sel.length ≠ 0 := by simpa using hne
  obtain ⟨l1, -, l3⟩ := sameLoop_spec s (embed i j W) w (fun a => matches_le_one s hs hij W w a) (List.range s.sel.length) [] 0 (by simp)
  have hl3 := l3 (by simpa using hN) (by simp) hone
  rw [List.nil_append, flatMap_one hone] at l1
  have himg : (List.range s.sel.length).map (fun a => (matchesOf s (embed i j W) w a).headD 0) = (List.range s.sel.length).map img := by
    refine List.map_congr_left fun a ha => ?_
    rw [hmem a (List.mem_range.1 ha)]; rfl
  rw [transFor, List.mem_flatMap]
  refine ⟨w, hw, ?_⟩
  simp only [l1, hl3, himg]
  simp

private theorem recorded_mem (s : Input K) {i j : Fin 3} (n : Fin 3) {W : Op} (hW : W ∈ candidates)
    (hm : MetricKept (planeMetric s.lattice i j) W) (hne : transFor s (embed i j W) n ≠ []) :
    (W, transFor s (embed i j W) n) ∈ recorded s i j n :=
  List.mem_filter.2 ⟨List.mem_map.2 ⟨W, List.mem_filter.2 ⟨hW, (metricKept_iff _ _ _ _).2 hm⟩, rfl⟩, by simpa using hne⟩

/-- The atom all trial translations start from: the first fixed atom of the file, or the first atom when none is fixed. -/
def IsReference (s : Input K) (T : ℕ) : Prop :=
  if s.sel.length < s.types.length then (T < s.types.length ∧ T ∉ s.sel ∧ ∀ a < T, a ∈ s.sel) else T = 0

/-- The fraction of `x_k - W x_T`, rounded to six decimals, with the sign of the difference. -/
def trialShift (s : Input K) (i j : Fin 3) (W : Op) (T k : ℕ) : V3 K :=
  fun c => modf (round6 (s.x k c - applyOp i j W 0 (s.x T) c))

/-- The translations the program tries for `W`: none, and one for every atom number `k` but the last such that (i) the atom number `k`
(for `k` before the reference atom `T`) or `k + 1` (from there on) has the type of the reference atom, (ii) `x_k - W x_T`, rounded to six
decimals, vanishes along the axis `n` and (iii) its fraction is not within the tolerance of zero. -/
def IsTried (s : Input K) (i j n : Fin 3) (W : Op) (w : V3 K) : Prop :=
  w = 0 ∨ ∃ T k, IsReference s T ∧ k + 1 < s.types.length ∧ s.typ (if k < T then k else k + 1) = s.typ T ∧
    round6 (s.x k n - applyOp i j W 0 (s.x T) n) = 0 ∧ (∃ c, 1 / 10 ^ 6 < |trialShift s i j W T k c|) ∧ w = trialShift s i j W T k

omit [FloorRing K] [IsStrictOrderedRing K] in
private theorem reference_iff [FloorRing K] (s : Input K) (hsel : s.sel.Nodup) (hlt : ∀ a ∈ s.sel, a < s.types.length) (T : ℕ) : IsReference s T ↔ T = tmpIndex s := by
  unfold IsReference tmpIndex
  by_cases h : s.sel.length < s.types.length
  · rw [if_pos h, if_pos h]
    have hex : ∃ a, a < s.types.length ∧ a ∉ s.sel := by
      by_contra hno
      push Not at hno
      have : s.types.length ≤ s.sel.length := by
        have := (List.nodup_range (n := s.types.length)).length_le_of_subset (l₂ := s.sel) (fun a ha => hno a (List.mem_range.1 ha))
        simpa using this
      omega
    have key : ∀ T, (T < s.types.length ∧ T ∉ s.sel ∧ ∀ a < T, a ∈ s.sel) ↔ (List.range s.types.length).find? (fun i => decide (i ∉ s.sel)) = some T := by
      intro T
      rw [List.find?_range_eq_some]
      simp only [decide_not, Bool.not_eq_eq_eq_not, Bool.not_true, decide_eq_false_iff_not, Bool.not_not, decide_eq_true_eq, List.mem_range]
      tauto
    rw [key, ← List.head?_filter]
    rcases e : (List.range s.types.length).filter (fun i => decide (i ∉ s.sel)) with _ | ⟨x, l⟩
    · obtain ⟨a, h1, h2⟩ := hex
      have : a ∈ (List.range s.types.length).filter (fun i => decide (i ∉ s.sel)) := by simp [h1, h2]
      rw [e] at this; simp at this
    · simp [eq_comm]
  · rw [if_neg h, if_neg h]

private theorem tried_iff (s : Input K) (hsel : s.sel.Nodup) (hlt : ∀ a ∈ s.sel, a < s.types.length) {i j : Fin 3} (hij : i ≠ j) (n : Fin 3) (W : Op) (w : V3 K) :
    w ∈ transCands s (embed i j W) n ↔ IsTried s i j n W w := by
  have hv : ∀ k c, candVec s (embed i j W) k c = round6 (s.x k c - applyOp i j W 0 (s.x (tmpIndex s)) c) := by
    intro k c
    rw [candVec, ← embed_apply hij]; simp
  have hcl : ∀ x : K, close (1 / 10 ^ 6) x 0 = true ↔ |x| ≤ 1 / 10 ^ 6 := by intro x; simp [close]
  have hmem : ∀ k o, (o, k) ∈ (others s).zipIdx ↔ (others s)[k]? = some o := by
    intro k o; rw [List.mem_zipIdx_iff_getElem?]
  have hoth : ∀ k o, (others s)[k]? = some o ↔ (k + 1 < s.types.length ∧ o = if k < tmpIndex s then k else k + 1) := by
    intro k o
    by_cases h0 : s.types.length = 0
    · simp [others, h0]
    have hT : tmpIndex s < s.types.length := by
      have hr := (reference_iff s hsel hlt (tmpIndex s)).2 rfl
      unfold IsReference at hr
      by_cases h : s.sel.length < s.types.length
      · rw [if_pos h] at hr; exact hr.1
      · rw [if_neg h] at hr; omega
    have he : others s = (List.range s.types.length).eraseIdx (tmpIndex s) := by
      rw [others, List.erase_eq_eraseIdx_of_idxOf]
      have := List.Nodup.idxOf_getElem (List.nodup_range (n := s.types.length)) (tmpIndex s) (by simpa using hT)
      simpa using this
    rw [he, List.getElem?_eraseIdx]
    by_cases hk : k < tmpIndex s
    · rw [if_pos hk, if_pos hk, List.getElem?_range (by omega)]
      simp only [Option.some.injEq]
      constructor
      · rintro rfl; exact ⟨by omega, rfl⟩
      · rintro ⟨-, h⟩; exact h.symm
    · rw [if_neg hk, if_neg hk]
      by_cases hk1 : k + 1 < s.types.length
      · rw [List.getElem?_range hk1]
        simp only [Option.some.injEq]
        constructor
        · rintro rfl; exact ⟨hk1, rfl⟩
        · rintro ⟨-, h⟩; exact h.symm
      · rw [List.getElem?_eq_none (by simpa using hk1)]
        simp [hk1]
  rw [transCands, List.mem_cons, IsTried]
  refine or_congr Iff.rfl ?_
  rw [List.mem_filterMap]
  constructor
  · rintro ⟨⟨o, k⟩, hm, h⟩
    obtain ⟨h1, h2⟩ := (hoth k o).1 ((hmem k o).1 hm)
    simp only at h
    by_cases hc : s.typ o = s.typ (tmpIndex s) ∧ candVec s (embed i j W) k n = 0 ∧
        ¬(∀ c, close (1 / 10 ^ 6) (modf (candVec s (embed i j W) k c)) 0 = true)
    · rw [if_pos hc] at h
      obtain ⟨c1, c2, c3⟩ := hc
      push Not at c3
      obtain ⟨c, hc⟩ := c3
      refine ⟨tmpIndex s, k, (reference_iff s hsel hlt _).2 rfl, h1, h2 ▸ c1, by rw [← hv]; exact c2, ⟨c, ?_⟩, ?_⟩
      · rw [ne_eq, hcl, not_le, hv] at hc; exact hc
      · rw [← Option.some.inj h]; funext c; rw [hv]; rfl
    · rw [if_neg hc] at h; cases h
  · rintro ⟨T, k, hT, h1, h2, h3, ⟨c, h4⟩, rfl⟩
    rw [reference_iff s hsel hlt] at hT
    subst hT
    refine ⟨(_, k), (hmem _ _).2 ((hoth _ _).2 ⟨h1, rfl⟩), ?_⟩
    simp only
    rw [if_pos]
    · congr 1; funext c; rw [hv]; rfl
    · refine ⟨h2, by rw [hv]; exact h3, fun hall => ?_⟩
      have := (hcl _).1 (hall c)
      rw [hv] at this
      exact absurd h4 (not_lt.2 this)

/-- **C71**, what is found exactly: the search records a candidate that keeps the metric if and only if one of the translations it tries
maps the selected atoms onto selected atoms of the same type. -/
theorem C71_found_iff (s : Input K) (hs : Apart s) (hL : WellConditioned s.lattice) (hne : s.sel ≠ []) (hsel : s.sel.Nodup)
    (hlt : ∀ a ∈ s.sel, a < s.types.length) {i j : Fin 3} (hij : i ≠ j) (n : Fin 3) (W : Op) :
    (∃ trs, (W, trs) ∈ recorded s i j n) ↔
      W ∈ candidates ∧ MetricKept (planeMetric s.lattice i j) W ∧ ∃ w img, IsTried s i j n W w ∧ MapsTo s i j W w img := by
  constructor
  · rintro ⟨trs, h⟩
    obtain ⟨h1, h2⟩ := List.mem_filter.1 h
    obtain ⟨V, hV, e⟩ := List.mem_map.1 h1
    obtain ⟨e1, e2⟩ := Prod.mk.injEq _ _ _ _ ▸ e
    subst e1
    obtain ⟨hc, hk⟩ := List.mem_filter.1 hV
    refine ⟨hc, (metricKept_iff _ _ _ _).1 hk, ?_⟩
    simp only [ne_eq, decide_not, Bool.not_eq_eq_eq_not, Bool.not_true, decide_eq_false_iff_not] at h2
    rcases trs with _ | ⟨⟨w, img⟩, l⟩
    · exact absurd rfl h2
    · obtain ⟨t1, -, t3⟩ := transFor_spec s hs hij n V (w := w) (img := img) (by rw [e2]; simp)
      exact ⟨w, _, (tried_iff s hsel hlt hij n V w).1 t1, t3⟩
  · rintro ⟨hW, hm, w, img, ht, hmap⟩
    have := transFor_mem s hs hL hne hij n ((tried_iff s hsel hlt hij n W w).2 ht) hmap
    exact ⟨_, recorded_mem s n hW hm (List.ne_nil_of_mem this)⟩

omit [FloorRing K] in
private theorem near_shift {L : M3 K} {δ ε : V3 K} (hLs : ∀ c, ∑ k, |L k c| ≤ 100) (h : ∃ m : Fin 3 → ℤ, ∀ k, δ k = m k)
    (hε : ∀ k, |ε k| ≤ 1 / 10 ^ 6) : NearMod (1 / 10 ^ 4) L (fun k => δ k + ε k) := by
  obtain ⟨m, hm⟩ := h
  refine ⟨m, fun c => ?_⟩
  simp only [Matrix.vecMul, dotProduct, hm]
  calc |∑ k, ((m k : K) + ε k - m k) * L k c| ≤ ∑ k, |((m k : K) + ε k - m k) * L k c| := Finset.abs_sum_le_sum_abs _ _
    _ ≤ ∑ k, 1 / 10 ^ 6 * |L k c| := Finset.sum_le_sum fun k _ => by
        rw [abs_mul, add_sub_cancel_left]; exact mul_le_mul_of_nonneg_right (hε k) (abs_nonneg _)
    _ = 1 / 10 ^ 6 * ∑ k, |L k c| := by rw [Finset.mul_sum]
    _ ≤ 1 / 10 ^ 6 * 100 := mul_le_mul_of_nonneg_left (hLs c) (by positivity)
    _ = 1 / 10 ^ 4 := by norm_num

private theorem rint_le (x : K) : |x - (rint x : K)| ≤ 1 / 2 := by
  have h1 := Int.floor_le x
  have h2 := Int.lt_floor_add_one x
  unfold rint
  simp only
  by_cases h : x - ⌊x⌋ < 1 / 2
  · rw [if_pos h, abs_le]; constructor <;> linarith
  · rw [if_neg h]
    by_cases h' : 1 / 2 < x - ⌊x⌋
    · rw [if_pos h', abs_le]; push_cast; constructor <;> linarith
    · rw [if_neg h']
      by_cases h3 : ⌊x⌋ % 2 = 0
      · rw [if_pos h3, abs_le]; constructor <;> linarith
      · rw [if_neg h3, abs_le]; push_cast; constructor <;> linarith

private theorem round6_le (x : K) : |round6 x - x| ≤ 1 / 2 / 10 ^ 6 := by
  have h := rint_le (x * 10 ^ 6)
  have : round6 x - x = -((x * 10 ^ 6 - (rint (x * 10 ^ 6) : K)) / 10 ^ 6) := by
    unfold round6; field_simp; ring
  rw [this, abs_neg, abs_div, abs_of_pos (by positivity : (0 : K) < 10 ^ 6)]
  exact div_le_div_of_nonneg_right h (by positivity)

private theorem modf_int (x : K) : ∃ m : ℤ, modf x = x - m := by
  unfold modf
  by_cases h : 0 ≤ x
  · exact ⟨_, if_pos h⟩
  · exact ⟨_, if_neg h⟩

/-- **C71**, for operations with a translation: a candidate that keeps the metric and, followed by the translation `w`, maps every selected
atom exactly (modulo lattice vectors) onto a selected atom of the same type is recorded, with these images, if it also moves the reference
atom `T` exactly onto an atom number `k` at the same height, and the type check, which looks at atom number `k + 1`, finds the type of `T`
there.  (An image `k` before `T` cannot occur: all atoms before `T` are selected.)  (The lattice vectors have components up to 100 in total, which bounds the
effect of rounding to six decimals; the translation is not within 2·10⁻⁶ of a lattice vector.) -/
theorem C71_translation_partial (s : Input K) (hs : Apart s) (hL : WellConditioned s.lattice) (hLs : ∀ c, ∑ k, |s.lattice k c| ≤ 100) (hne : s.sel ≠ [])
    (hsel : s.sel.Nodup) (hlt : ∀ a ∈ s.sel, a < s.types.length) {i j n : Fin 3} (hij : i ≠ j) (hin : n ≠ i) (hjn : n ≠ j)
    {W : Op} (hW : W ∈ candidates) (hm : MetricKept (planeMetric s.lattice i j) W) {w : V3 K} {img : ℕ → ℕ}
    (hmap : ∀ a < s.sel.length, img a < s.sel.length ∧ selTyp s (img a) = selTyp s a ∧
      ∃ m : Fin 3 → ℤ, ∀ c, applyOp i j W w (selPos s a) c = selPos s (img a) c + m c)
    {T k : ℕ} (hT : IsReference s T) (himg : ∃ m : Fin 3 → ℤ, ∀ c, applyOp i j W w (s.x T) c = s.x k c + m c) (hheight : s.x k n = s.x T n)
    (hk : T ≤ k ∧ k + 1 < s.types.length ∧ s.typ (k + 1) = s.typ T)
    (hw : ∃ c, ∀ m : ℤ, 2 / 10 ^ 6 < |w c - m|) :
    ∃ trs w', (W, trs) ∈ recorded s i j n ∧ (w', (List.range s.sel.length).map img) ∈ trs ∧
      ∀ c, ∃ m : ℤ, |w' c - w c - m| ≤ 1 / 10 ^ 6 := by
  have hadd : ∀ (v x : V3 K) c, applyOp i j W v x c = applyOp i j W 0 x c + v c := by
    intro v x c; simp [applyOp]
  -- the tried translation is the exact one up to rounding and integers
  have hclose : ∀ c, ∃ m : ℤ, ∃ e : K, |e| ≤ 1 / 10 ^ 6 ∧ trialShift s i j W T k c = w c + e + m := by
    intro c
    obtain ⟨m, hm⟩ := himg
    have h1 := hm c
    rw [hadd] at h1
    obtain ⟨m', h2⟩ := modf_int (round6 (s.x k c - applyOp i j W 0 (s.x T) c))
    have h3 := round6_le (s.x k c - applyOp i j W 0 (s.x T) c)
    refine ⟨-m c - m', round6 (s.x k c - applyOp i j W 0 (s.x T) c) - (s.x k c - applyOp i j W 0 (s.x T) c), h3.trans (by norm_num), ?_⟩
    rw [trialShift, h2]
    push_cast
    linear_combination -h1
  choose mc ec hec hsh using hclose
  have htried : IsTried s i j n W (trialShift s i j W T k) := by
    refine Or.inr ⟨T, k, hT, ?_, ?_, ?_, ?_, rfl⟩
    · exact hk.2.1
    · rw [if_neg (by omega)]; exact hk.2.2
    · have e : applyOp i j W 0 (s.x T) n = s.x T n := by simp [applyOp, hin, hjn]
      rw [e, hheight, sub_self]
      unfold round6; simp [rint]
    · obtain ⟨c, hc⟩ := hw
      refine ⟨c, ?_⟩
      have := hc (-mc c)
      rw [hsh c]
      have h1 : w c - ((-mc c : ℤ) : K) = (w c + ec c + mc c) - ec c := by push_cast; ring
      rw [h1] at this
      have h2 := abs_sub (w c + ec c + mc c) (ec c)
      have h3 := hec c
      have h4 : (2 / 10 ^ 6 : K) = 1 / 10 ^ 6 + 1 / 10 ^ 6 := by norm_num
      rw [h4] at this
      linarith
  have hmaps : MapsTo s i j W (trialShift s i j W T k) img := by
    intro a ha
    obtain ⟨h1, h2, m, h3⟩ := hmap a ha
    refine ⟨h1, h2, ?_⟩
    have := near_shift (L := s.lattice) (δ := fun c => ((m c + mc c : ℤ) : K)) (ε := ec) hLs ⟨fun c => m c + mc c, fun c => rfl⟩ hec
    convert this using 1
    funext c
    have := h3 c
    rw [hadd] at this ⊢
    rw [hsh c]
    push_cast
    linear_combination this
  have hin' := transFor_mem s hs hL hne hij n ((tried_iff s hsel hlt hij n W _).2 htried) hmaps
  refine ⟨_, _, recorded_mem s n hW hm (List.ne_nil_of_mem hin'), hin', fun c => ⟨mc c, ?_⟩⟩
  rw [hsh c, show w c + ec c + (mc c : K) - w c - mc c = ec c by ring]
  exact hec c

end

/-- Two equal atoms related by the glide `(x, y) ↦ (x + 1/2, -y)` in a rectangular cell. -/
def glideCell : Input ℚ where
  lattice := !![3, 0, 0; 0, 4, 0; 0, 0, 20]
  types := ["A".toList, "A".toList]
  direct := [![1 / 10, 1 / 5, 1 / 2], ![3 / 5, -1 / 5, 1 / 2]]
  sel := [0, 1]
  period := ![1, 1, 0]

/-- **C71 is false of the code**: the glide `(x, y) ↦ (x + 1/2, -y)` keeps the metric and exchanges the two atoms of `glideCell` exactly, but is not
recorded (the candidate translation is computed from the wrong atom): the search reports `m` instead of `2mm`. -/
theorem C71_glide_refuted : Apart glideCell ∧ (⟨1, 0, 0, -1⟩ : Op) ∈ candidates ∧ MetricKept (planeMetric glideCell.lattice 0 1) ⟨1, 0, 0, -1⟩ ∧
    MapsTo glideCell 0 1 ⟨1, 0, 0, -1⟩ ![1 / 2, 0, 0] (fun a => 1 - a) ∧
    (∀ ops name, searchPointGroup glideCell = .ok (ops, name) → (⟨1, 0, 0, -1⟩ : Op) ∉ ops.map Prod.fst) ∧
    (∃ ops, searchPointGroup glideCell = .ok (ops, "m".toList)) := by
  have hsum : summary (searchPointGroup glideCell) = some ("m".toList, [⟨1, 0, 0, 1⟩, ⟨-1, 0, 0, 1⟩]) := by decide +kernel
  refine ⟨?_, by decide, ?_, ?_, ?_, ?_⟩
  · intro t ht u hu _ h
    have h1 : t < 2 := ht
    have h2 : u < 2 := hu
    obtain ⟨m, hm⟩ := h
    have key : ∀ v : ℚ, v = 1 / 2 ∨ v = -1 / 2 → |3 * (v - (m 0 : ℚ))| ≤ 2 / 10 ^ 4 → False := by
      intro v hv hb
      obtain ⟨b1, b2⟩ := abs_le.1 hb
      rcases hv with rfl | rfl
      · have a1 : (0 : ℚ) < m 0 := by linarith
        have a2 : (m 0 : ℚ) < 1 := by linarith
        have : (0 : ℤ) < m 0 := by exact_mod_cast a1
        have : m 0 < 1 := by exact_mod_cast a2
        omega
      · have a1 : (-1 : ℚ) < m 0 := by linarith
        have a2 : (m 0 : ℚ) < 0 := by linarith
        have : (-1 : ℤ) < m 0 := by exact_mod_cast a1
        have : m 0 < 0 := by exact_mod_cast a2
        omega
    have h0 := hm 0
    interval_cases t <;> interval_cases u
    · rfl
    · exfalso
      refine key (-1 / 2) (Or.inr rfl) ?_
      refine (le_of_eq (congrArg abs ?_)).trans h0
      simp [Matrix.vecMul, dotProduct, Fin.sum_univ_three, selPos, glideCell, Input.x]; ring
    · exfalso
      refine key (1 / 2) (Or.inl rfl) ?_
      refine (le_of_eq (congrArg abs ?_)).trans h0
      simp [Matrix.vecMul, dotProduct, Fin.sum_univ_three, selPos, glideCell, Input.x]; ring
    · rfl
  · rw [← metricKept_iff]; decide +kernel
  · intro a ha
    have h1 : a < 2 := ha
    interval_cases a
    · refine ⟨by decide, rfl, 0, fun c => ?_⟩
      fin_cases c <;> simp [Matrix.vecMul, dotProduct, Fin.sum_univ_three, selPos, glideCell, Input.x, applyOp] <;> norm_num
    · refine ⟨by decide, rfl, ![1, 0, 0], fun c => ?_⟩
      fin_cases c <;> simp [Matrix.vecMul, dotProduct, Fin.sum_univ_three, selPos, glideCell, Input.x, applyOp] <;> norm_num
  · intro ops name h
    rw [h] at hsum
    simp only [summary, Option.some.injEq, Prod.mk.injEq] at hsum
    rw [hsum.2]; decide
  · rcases e : searchPointGroup glideCell with err | ⟨ops, name⟩
    · rw [e] at hsum; simp [summary] at hsum
    · rw [e] at hsum
      simp only [summary, Option.some.injEq, Prod.mk.injEq] at hsum
      exact ⟨ops, by rw [hsum.1]⟩

/-- Two pairs of atoms of one type, each related by the glide `(x, y) ↦ (x + 1/2, -y)`. -/
def glidePairs : Input ℚ where
  lattice := !![3, 0, 0; 0, 4, 0; 0, 0, 20]
  types := ["A".toList, "A".toList, "A".toList, "A".toList]
  direct := [![1 / 10, 1 / 5, 1 / 2], ![3 / 5, -1 / 5, 1 / 2], ![3 / 10, 1 / 5, 3 / 5], ![4 / 5, -1 / 5, 3 / 5]]
  sel := [0, 1, 2, 3]
  period := ![1, 1, 0]

/-- The hypotheses of `C71_translation_partial`: here the glide is found, because the atom after the image of the first atom has the right type. -/
example : ∃ trs w', ((⟨1, 0, 0, -1⟩ : Op), trs) ∈ recorded glidePairs 0 1 2 ∧ (w', [1, 0, 3, 2]) ∈ trs ∧
    ∀ c, ∃ m : ℤ, |w' c - ![1 / 2, 0, 0] c - m| ≤ 1 / 10 ^ 6 := by
  refine C71_translation_partial (img := fun a => if a % 2 = 0 then a + 1 else a - 1) (T := 0) (k := 1) glidePairs ?_ ?_ ?_ (by decide) (by decide) (by decide)
    (by decide) (by decide) (by decide) (by decide) ?_ ?_ ?_ ⟨![0, 0, 0], ?_⟩ rfl (by decide) ⟨0, ?_⟩
  · intro t ht u hu _ h
    have h1 : t < 4 := ht
    have h2 : u < 4 := hu
    obtain ⟨m, hm⟩ := h
    have key : ∀ q : ℤ, q % 10 ≠ 0 → |3 * ((q : ℚ) / 10 - (m 0 : ℚ))| ≤ 2 / 10 ^ 4 → False := by
      intro q hq hb
      obtain ⟨b1, b2⟩ := abs_le.1 hb
      have a1 : (q : ℚ) - 10 * m 0 < 1 := by linarith
      have a2 : (-1 : ℚ) < (q : ℚ) - 10 * m 0 := by linarith
      have a3 : q - 10 * m 0 < 1 := by exact_mod_cast a1
      have a4 : -1 < q - 10 * m 0 := by exact_mod_cast a2
      omega
    by_contra hne
    have h0 := hm 0
    have hx : ∀ t < 4, selPos glidePairs t 0 = ((([1, 6, 3, 8] : List ℤ).getD t 0 : ℤ) : ℚ) / 10 := by
      intro t ht
      interval_cases t <;> simp [selPos, glidePairs, Input.x] <;> norm_num
    refine key (([1, 6, 3, 8] : List ℤ).getD t 0 - ([1, 6, 3, 8] : List ℤ).getD u 0) ?_ ?_
    · clear hm h0 key hx
      interval_cases t <;> interval_cases u <;> first | exact absurd rfl hne | decide
    · refine (le_of_eq (congrArg abs ?_)).trans h0
      simp only [Matrix.vecMul, dotProduct, Fin.sum_univ_three, hx t h1, hx u h2]
      simp [glidePairs]; ring
  · refine ⟨!![1 / 3, 0, 0; 0, 1 / 4, 0; 0, 0, 1 / 20], ?_, fun k => ?_⟩
    · ext i j; fin_cases i <;> fin_cases j <;> simp [glidePairs, Matrix.mul_apply, Fin.sum_univ_three]
    · fin_cases k <;> simp [Fin.sum_univ_three] <;> norm_num
  · intro c; fin_cases c <;> simp [glidePairs, Fin.sum_univ_three] <;> norm_num
  · rw [← metricKept_iff]; decide +kernel
  · intro a ha
    have h1 : a < 4 := ha
    interval_cases a
    · refine ⟨by decide, rfl, 0, fun c => ?_⟩
      fin_cases c <;> simp [selPos, glidePairs, Input.x, applyOp] <;> norm_num
    · refine ⟨by decide, rfl, ![1, 0, 0], fun c => ?_⟩
      fin_cases c <;> simp [selPos, glidePairs, Input.x, applyOp] <;> norm_num
    · refine ⟨by decide, rfl, 0, fun c => ?_⟩
      fin_cases c <;> simp [selPos, glidePairs, Input.x, applyOp] <;> norm_num
    · refine ⟨by decide, rfl, ![1, 0, 0], fun c => ?_⟩
      fin_cases c <;> simp [selPos, glidePairs, Input.x, applyOp] <;> norm_num
  · simp [IsReference, glidePairs]
  · intro c
    fin_cases c <;> simp [glidePairs, Input.x, applyOp] <;> norm_num
  · intro m
    by_contra hb
    rw [not_lt] at hb
    obtain ⟨b1, b2⟩ := abs_le.1 hb
    simp at b1 b2
    have a1 : (0 : ℚ) < m := by linarith
    have a2 : (m : ℚ) < 1 := by linarith
    have : (0 : ℤ) < m := by exact_mod_cast a1
    have : m < 1 := by exact_mod_cast a2
    omega

/-- The hypotheses of C69, C71 and C73 on a cell with two atoms: a square cell with a 4mm site. -/
example : ∃ s : Input ℚ, s.sel.length = 2 ∧ WellConditioned s.lattice ∧ MapsTo s 0 1 ⟨0, -1, 1, 0⟩ 0 id ∧
    summary (searchPointGroup s) = some ("4mm".toList, [⟨0, 1, 1, 0⟩, ⟨0, 1, -1, 0⟩, ⟨0, -1, 1, 0⟩, ⟨0, -1, -1, 0⟩, ⟨1, 0, 0, 1⟩, ⟨1, 0, 0, -1⟩,
      ⟨-1, 0, 0, 1⟩, ⟨-1, 0, 0, -1⟩]) := by
  refine ⟨⟨!![3, 0, 0; 0, 3, 0; 0, 0, 20], ["A".toList, "B".toList], [![0, 0, 0], ![1 / 2, 1 / 2, 1 / 10]], [0, 1], ![1, 1, 0]⟩, rfl, ?_, ?_, ?_⟩
  · refine ⟨!![1 / 3, 0, 0; 0, 1 / 3, 0; 0, 0, 1 / 20], ?_, fun k => ?_⟩
    · ext i j; fin_cases i <;> fin_cases j <;> simp [Matrix.mul_apply, Fin.sum_univ_three]
    · fin_cases k <;> simp [Fin.sum_univ_three] <;> norm_num
  · intro a ha
    have h1 : a < 2 := ha
    interval_cases a
    · refine ⟨by decide, rfl, 0, fun c => ?_⟩
      fin_cases c <;> simp [Matrix.vecMul, dotProduct, Fin.sum_univ_three, selPos, Input.x, applyOp]
    · refine ⟨by decide, rfl, ![-1, 0, 0], fun c => ?_⟩
      fin_cases c <;> simp [Matrix.vecMul, dotProduct, Fin.sum_univ_three, selPos, Input.x, applyOp] <;> norm_num
  · decide +kernel

/-- Without a two-dimensional periodicity the search raises `ValueError` instead of returning a group. -/
theorem C69_needs_plane {K : Type*} [Field K] [LinearOrder K] [FloorRing K] (s : Input K) (h : (axes s.period).length ≠ 2) :
    searchPointGroup s = .error .valueError := by
  unfold searchPointGroup
  rcases e : axes s.period with _ | ⟨x, _ | ⟨y, _ | ⟨z, l⟩⟩⟩
  · rfl
  · rfl
  · rw [e] at h; simp at h
  · rfl

end Interphon.Props
