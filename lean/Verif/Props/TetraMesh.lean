import Verif.Props.Tetra
import Verif.Props.KPoints
import Mathlib.Data.Fin.Tuple.Sort
import Mathlib.Order.Fin.Basic

/-! # Properties C41–C43, C45: the linear tetrahedron method on a whole mesh -/

namespace Interphon.Props
open Py Interphon Interphon.Tetra MeasureTheory Set

noncomputable section

/-- What `np.argsort` guarantees: indexing with its result sorts the array (ties in any order). -/
def Sorts {m : ℕ} (arg : Argsort m) : Prop := ∀ w : Fin m → ℝ, Monotone (w ∘ arg w)

/-- Such functions exist. -/
theorem sorts_exists (m : ℕ) : ∃ arg : Argsort m, Sorts arg := ⟨fun w => Tuple.sort w, fun w => Tuple.monotone_sort w⟩

/-- Strictly increasing frequencies are left alone. -/
theorem Sorts.id {m : ℕ} {arg : Argsort m} (ha : Sorts arg) {w : Fin m → ℝ} (hw : StrictMono w) : arg w = 1 := by
  have hm' : Monotone (arg w) := by
    intro i j hij
    exact hw.le_iff_le.1 (ha w hij)
  have hsm : StrictMono (arg w) := hm'.strictMono_of_injective (Equiv.injective _)
  have := Subsingleton.elim (hsm.orderIsoOfSurjective _ (Equiv.surjective _)) (OrderIso.refl _)
  ext i
  have h2 := congrArg (fun e : Fin m ≃o Fin m => e i) this
  simp at h2
  rw [h2]; rfl

/-! ### Unfolding the accumulation -/

/-- The number one simplex adds (not used when the branch is `nan`). -/
def value {m : ℕ} (vol : ℝ) (F : Fin m → ℝ) : Branch m → ℝ
  | .inside g I => vol * g * ∑ i, I i * F i
  | _ => 0

/-- The frequencies of a simplex in the order the code uses. -/
def sortedFreq {m : ℕ} (arg : Argsort m) (w : ℕ → ℝ) (v : Fin m → ℕ) : Fin m → ℝ := (fun i => w (v i)) ∘ arg (fun i => w (v i))

/-- The squared amplitudes in the order the code uses. -/
def usedAmp {m : ℕ} (arg : Argsort m) (w F : ℕ → ℝ) (v : Fin m → ℕ) : Fin m → ℝ := (fun i => F (v i)) ∘ arg (sortedFreq arg w v)

private theorem step_eq {m : ℕ} (arg : Argsort m) (br : ℝ → (Fin m → ℝ) → Branch m) (vol f : ℝ) (w F : ℕ → ℝ) (acc : Option ℝ) (v : Fin m → ℕ) :
    simplexStep arg br vol f w F acc v = addTo acc vol (usedAmp arg w F v) (br f (sortedFreq arg w v)) := rfl

private theorem addTo_some {m : ℕ} (a vol : ℝ) (F : Fin m → ℝ) (b : Branch m) (h : b ≠ .nan) :
    addTo (some a) vol F b = some (a + value vol F b) := by
  cases b with
  | skip => simp [addTo, value]
  | inside g I => simp [addTo, value]
  | nan => exact absurd rfl h

private theorem addTo_none {m : ℕ} (vol : ℝ) (F : Fin m → ℝ) (b : Branch m) : addTo none vol F b = none := by cases b <;> rfl

private theorem fold_none {m : ℕ} (arg : Argsort m) (br : ℝ → (Fin m → ℝ) → Branch m) (vol f : ℝ) (w F : ℕ → ℝ) (l : List (Fin m → ℕ)) :
    l.foldl (simplexStep arg br vol f w F) none = none := by
  induction l with
  | nil => rfl
  | cons s l ih => rw [List.foldl_cons, step_eq, addTo_none, ih]

private theorem fold_some {m : ℕ} (arg : Argsort m) (br : ℝ → (Fin m → ℝ) → Branch m) (vol f : ℝ) (w F : ℕ → ℝ) (l : List (Fin m → ℕ)) (a : ℝ)
    (h : ∀ s ∈ l, br f (sortedFreq arg w s) ≠ .nan) :
    l.foldl (simplexStep arg br vol f w F) (some a) = some (a + (l.map fun s => value vol (usedAmp arg w F s) (br f (sortedFreq arg w s))).sum) := by
  induction l generalizing a with
  | nil => simp
  | cons s l ih =>
    rw [List.foldl_cons, step_eq, addTo_some _ _ _ _ (h s (by simp)), ih _ (fun t ht => h t (by simp [ht]))]
    simp [add_assoc]

private theorem column_aux {m : ℕ} (arg : Argsort m) (br : ℝ → (Fin m → ℝ) → Branch m) (vol f : ℝ) (L : List ℕ) (simplices : List (Fin m → ℕ))
    (w : ℕ → ℕ → ℝ) (F : ℕ → ℕ → ℕ → ℝ) (d : ℕ) (a : ℝ)
    (h : ∀ b ∈ L, ∀ s ∈ simplices, br f (sortedFreq arg (fun k => w k b) s) ≠ .nan) :
    L.foldl (fun acc b => simplices.foldl (simplexStep arg br vol f (fun k => w k b) (fun k => F k b d)) acc) (some a) =
      some (a + (L.map fun b => (simplices.map fun s =>
        value vol (usedAmp arg (fun k => w k b) (fun k => F k b d) s) (br f (sortedFreq arg (fun k => w k b) s))).sum).sum) := by
  induction L generalizing a with
  | nil => simp
  | cons b L ih =>
    rw [List.foldl_cons, fold_some _ _ _ _ _ _ _ _ (h b (by simp)), ih _ (fun t ht => h t (by simp [ht]))]
    simp [add_assoc]

theorem column_some {m : ℕ} (arg : Argsort m) (br : ℝ → (Fin m → ℝ) → Branch m) (vol f : ℝ) (nb : ℕ) (simplices : List (Fin m → ℕ))
    (w : ℕ → ℕ → ℝ) (F : ℕ → ℕ → ℕ → ℝ) (d : ℕ) (a : ℝ)
    (h : ∀ b < nb, ∀ s ∈ simplices, br f (sortedFreq arg (fun k => w k b) s) ≠ .nan) :
    column arg br vol f nb simplices w F d (some a) =
      some (a + ((List.range nb).map fun b => (simplices.map fun s =>
        value vol (usedAmp arg (fun k => w k b) (fun k => F k b d) s) (br f (sortedFreq arg (fun k => w k b) s))).sum).sum) :=
  column_aux arg br vol f (List.range nb) simplices w F d a (fun b hb => h b (List.mem_range.1 hb))

private theorem column_nan_aux {m : ℕ} (arg : Argsort m) (br : ℝ → (Fin m → ℝ) → Branch m) (vol f : ℝ) (w F : ℕ → ℝ) (l : List (Fin m → ℕ)) (acc : Option ℝ)
    (h : ∃ s ∈ l, br f (sortedFreq arg w s) = .nan) : l.foldl (simplexStep arg br vol f w F) acc = none := by
  induction l generalizing acc with
  | nil => simp at h
  | cons s l ih =>
    rw [List.foldl_cons]
    obtain ⟨t, ht, hn⟩ := h
    rcases List.mem_cons.1 ht with rfl | ht
    · rw [step_eq, hn]; exact fold_none ..
    · exact ih _ ⟨t, ht, hn⟩

/-- One NaN anywhere makes the whole entry NaN. -/
theorem column_nan {m : ℕ} (arg : Argsort m) (br : ℝ → (Fin m → ℝ) → Branch m) (vol f : ℝ) (nb : ℕ) (simplices : List (Fin m → ℕ))
    (w : ℕ → ℕ → ℝ) (F : ℕ → ℕ → ℕ → ℝ) (d : ℕ) (acc : Option ℝ)
    (h : ∃ b < nb, ∃ s ∈ simplices, br f (sortedFreq arg (fun k => w k b) s) = .nan) :
    column arg br vol f nb simplices w F d acc = none := by
  obtain ⟨b, hb, hs⟩ := h
  have hnone : ∀ L : List ℕ, L.foldl (fun acc b => simplices.foldl (simplexStep arg br vol f (fun k => w k b) (fun k => F k b d)) acc) none = none := by
    intro L
    induction L with
    | nil => rfl
    | cons c L ih => rw [List.foldl_cons, fold_none, ih]
  have : ∀ L : List ℕ, b ∈ L → ∀ acc, L.foldl (fun acc b => simplices.foldl (simplexStep arg br vol f (fun k => w k b) (fun k => F k b d)) acc) acc = none := by
    intro L
    induction L with
    | nil => simp
    | cons c L ih =>
      intro hm acc
      rw [List.foldl_cons]
      rcases List.mem_cons.1 hm with rfl | hm
      · rw [column_nan_aux _ _ _ _ _ _ _ _ hs]; exact hnone L
      · exact ih hm _
  exact this _ (List.mem_range.2 hb) _

theorem column_none_iff {m : ℕ} (arg : Argsort m) (br : ℝ → (Fin m → ℝ) → Branch m) (vol f : ℝ) (nb : ℕ) (simplices : List (Fin m → ℕ))
    (w : ℕ → ℕ → ℝ) (F : ℕ → ℕ → ℕ → ℝ) (d : ℕ) (a : ℝ) :
    column arg br vol f nb simplices w F d (some a) = none ↔ ∃ b < nb, ∃ s ∈ simplices, br f (sortedFreq arg (fun k => w k b) s) = .nan := by
  constructor
  · intro h
    by_contra hc
    push Not at hc
    rw [column_some _ _ _ _ _ _ _ _ _ _ hc] at h
    cases h
  · exact fun h => column_nan _ _ _ _ _ _ _ _ _ _ h

/-! ### C41 on the mesh -/

private theorem list_sum_nonneg' {α : Type} (l : List α) (g : α → ℝ) (h : ∀ x ∈ l, 0 ≤ g x) : 0 ≤ (l.map g).sum := by
  induction l with
  | nil => simp
  | cons a l ih => simp only [List.map_cons, List.sum_cons]; exact add_nonneg (h a (by simp)) (ih fun x hx => h x (by simp [hx]))

/-- Every squared amplitude used is one of the given ones. -/
private theorem usedAmp_nonneg {m : ℕ} (arg : Argsort m) (w F : ℕ → ℝ) (v : Fin m → ℕ) (hF : ∀ k, 0 ≤ F k) (i : Fin m) : 0 ≤ usedAmp arg w F v i := hF _

/-- **C41** (mesh, non-negative).  Wherever the accumulated projected density is a number, it is not below what was
there before (in particular starting from 0 it is `≥ 0`), for any simplices, spectrum and squared amplitudes. -/
theorem C41_mesh_nonneg {k : ℕ} {br : ℝ → (Fin (k + 1) → ℝ) → Branch (k + 1)} (hg : GoodBranch br) {arg : Argsort (k + 1)} (ha : Sorts arg)
    {vol : ℝ} (hv : 0 ≤ vol) (f : ℝ) (nb : ℕ) (simplices : List (Fin (k + 1) → ℕ)) (w : ℕ → ℕ → ℝ) (F : ℕ → ℕ → ℕ → ℝ)
    (hF : ∀ k b d, 0 ≤ F k b d) (d : ℕ) (a x : ℝ) (h : column arg br vol f nb simplices w F d (some a) = some x) : a ≤ x := by
  by_cases hc : ∃ b < nb, ∃ s ∈ simplices, br f (sortedFreq arg (fun k => w k b) s) = .nan
  · rw [column_nan _ _ _ _ _ _ _ _ _ _ hc] at h; cases h
  · push Not at hc
    rw [column_some _ _ _ _ _ _ _ _ _ _ hc] at h
    injection h with h
    rw [← h]
    refine le_add_of_nonneg_right (list_sum_nonneg' _ _ fun b hb => list_sum_nonneg' _ _ fun s hs => ?_)
    rcases hbr : br f (sortedFreq arg (fun k => w k b) s) with _ | ⟨g, I⟩ | _
    · simp [value]
    · obtain ⟨h1, h2⟩ := hg.nonneg _ _ _ _ (ha _) hbr
      exact mul_nonneg (mul_nonneg hv h1) (Finset.sum_nonneg fun i _ => mul_nonneg (h2 i) (hF ..))
    · simp [value]

/-- **C41** (mesh, support).  At a frequency below every frequency of the spectrum, or at or above all of them,
nothing is added. -/
theorem C41_mesh_support {k : ℕ} {br : ℝ → (Fin (k + 1) → ℝ) → Branch (k + 1)} (hg : GoodBranch br) {arg : Argsort (k + 1)} (ha : Sorts arg)
    (vol f : ℝ) (nb : ℕ) (simplices : List (Fin (k + 1) → ℕ)) (w : ℕ → ℕ → ℝ) (F : ℕ → ℕ → ℕ → ℝ) (d : ℕ) (a : ℝ)
    (h : (∀ b < nb, ∀ s ∈ simplices, ∀ i, f < w (s i) b) ∨ (∀ b < nb, ∀ s ∈ simplices, ∀ i, w (s i) b ≤ f)) :
    column arg br vol f nb simplices w F d (some a) = some a := by
  have hs : ∀ b < nb, ∀ s ∈ simplices, br f (sortedFreq arg (fun k => w k b) s) = .skip := by
    intro b hb s hs
    refine hg.outside _ _ (ha _) ?_
    rcases h with h | h
    · exact Or.inl (h b hb s hs _)
    · exact Or.inr (h b hb s hs _)
  rw [column_some]
  · congr 1
    have : ((List.range nb).map fun b => (simplices.map fun s =>
        value vol (usedAmp arg (fun k => w k b) (fun k => F k b d) s) (br f (sortedFreq arg (fun k => w k b) s))).sum) = (List.range nb).map fun _ => 0 := by
      refine List.map_congr_left fun b hb => ?_
      have : (simplices.map fun s => value vol (usedAmp arg (fun k => w k b) (fun k => F k b d) s) (br f (sortedFreq arg (fun k => w k b) s))) =
          simplices.map fun _ => 0 := by
        refine List.map_congr_left fun s hs' => ?_
        rw [hs b (List.mem_range.1 hb) s hs']; rfl
      rw [this]; simp
    rw [this]; simp
  · intro b hb s hs'
    rw [hs b hb s hs']
    exact fun h => by cases h

/-- **C41** (mesh, one simplex).  A single simplex adds nothing outside `[min, max)` of its vertex frequencies, and
inside it never lowers the density. -/
theorem C41_simplex_partial {k : ℕ} {br : ℝ → (Fin (k + 1) → ℝ) → Branch (k + 1)} (hg : GoodBranch br) {arg : Argsort (k + 1)} (ha : Sorts arg)
    {vol : ℝ} (hv : 0 ≤ vol) (f : ℝ) (w F : ℕ → ℝ) (hF : ∀ k, 0 ≤ F k) (v : Fin (k + 1) → ℕ) (a : ℝ) :
    (((∀ i, f < w (v i)) ∨ (∀ i, w (v i) ≤ f)) → simplexStep arg br vol f w F (some a) v = some a) ∧
    (∀ x, simplexStep arg br vol f w F (some a) v = some x → a ≤ x) := by
  have h1 := C41_mesh_support hg ha vol f 1 [v] (fun k _ => w k) (fun k _ _ => F k) 0 a
  have h2 := C41_mesh_nonneg hg ha hv f 1 [v] (fun k _ => w k) (fun k _ _ => F k) (fun k _ _ => hF k) 0 a
  simp only [column, List.range_one, List.foldl_cons, List.foldl_nil, List.mem_singleton, forall_eq] at h1 h2
  refine ⟨fun h => h1 ?_, h2⟩
  rcases h with h | h
  · exact Or.inl fun _ _ => h
  · exact Or.inr fun _ _ => h

example : ∃ arg : Argsort 4, Sorts arg ∧ simplexStep arg branch3 1 2 (fun k => k) (fun _ => 1) (some 0) (fun i => i) ≠ some 0 := by
  obtain ⟨arg, ha⟩ := sorts_exists 4
  refine ⟨arg, ha, ?_⟩
  have hid : arg (fun i : Fin 4 => ((i : ℕ) : ℝ)) = 1 := ha.id (fun i j h => by simpa using h)
  rw [step_eq]
  have hs : sortedFreq arg (fun k => (k : ℝ)) (fun i : Fin 4 => (i : ℕ)) = ![0, 1, 2, 3] := by
    unfold sortedFreq
    rw [hid]
    funext i
    fin_cases i <;> simp
  rw [hs]
  unfold branch3
  simp [addTo, usedAmp, Fin.sum_univ_four]
  norm_num
  change ¬ (5 / 18 + (1 / 3 : ℝ) + 7 / 18 = 0)
  norm_num

/-- **C41 refuted** in 3-D: if the two lowest vertex frequencies of some tetrahedron coincide and a grid frequency
hits that value, the entry becomes NaN (0/0) for every degree of freedom, whatever the rest of the spectrum. -/
theorem C41_nan_refuted {arg : Argsort 4} (ha : Sorts arg) (vol f : ℝ) (nb : ℕ) (simplices : List (Fin 4 → ℕ)) (w : ℕ → ℕ → ℝ) (F : ℕ → ℕ → ℕ → ℝ)
    (d : ℕ) (acc : Option ℝ) (b : ℕ) (hb : b < nb) (s : Fin 4 → ℕ) (hs : s ∈ simplices)
    (h : ∃ i j : Fin 4, i ≠ j ∧ w (s i) b = f ∧ w (s j) b = f ∧ ∀ l, l ≠ i → l ≠ j → f < w (s l) b) :
    column arg branch3 vol f nb simplices w F d acc = none := by
  apply column_nan
  refine ⟨b, hb, s, hs, (nan_iff _ _ (ha _)).2 ?_⟩
  set u : Fin 4 → ℝ := fun i => w (s i) b with hu
  set σ := arg u with hσ
  have hm : Monotone (u ∘ σ) := ha u
  obtain ⟨i, j, hij, hi, hj, hl⟩ := h
  have hmin : ∀ l, f ≤ u l := by
    intro l
    by_cases h1 : l = i
    · rw [h1]; exact hi.ge
    · by_cases h2 : l = j
      · rw [h2]; exact hj.ge
      · exact (hl l h1 h2).le
  have key : ∀ p : Fin 4, u (σ p) = f → σ p = i ∨ σ p = j := by
    intro p hp
    by_contra hc
    push Not at hc
    exact absurd hp (hl _ hc.1 hc.2).ne'
  have e : ∀ p q : Fin 4, p < q → u (σ q) = f → u (σ p) = f := by
    intro p q hpq hq
    exact le_antisymm (hq ▸ hm hpq.le) (hmin _)
  -- positions of i and j
  have pi : u (σ (σ.symm i)) = f := by rw [Equiv.apply_symm_apply]; exact hi
  have pj : u (σ (σ.symm j)) = f := by rw [Equiv.apply_symm_apply]; exact hj
  have hne : σ.symm i ≠ σ.symm j := fun h => hij (σ.symm.injective h)
  have h0 : u (σ 0) = f := by
    rcases Fin.eq_zero_or_eq_succ (σ.symm i) with h | ⟨t, h⟩
    · rw [← h]; exact pi
    · exact e 0 _ (by rw [h]; exact Fin.succ_pos t) pi
  have h1 : u (σ 1) = f := by
    rcases lt_or_gt_of_ne hne with h | h
    · rcases (show σ.symm j = 1 ∨ 1 < σ.symm j by omega) with h' | h'
      · rw [← h']; exact pj
      · exact e 1 _ h' pj
    · rcases (show σ.symm i = 1 ∨ 1 < σ.symm i by omega) with h' | h'
      · rw [← h']; exact pi
      · exact e 1 _ h' pi
  refine ⟨h0.symm, h0.trans h1.symm, ?_⟩
  change u (σ 1) < u (σ 2)
  rw [h1]
  refine lt_of_le_of_ne (hmin _) fun h2 => ?_
  have k0 := key 0 h0
  have k1 := key 1 h1
  have k2 := key 2 h2.symm
  have n01 : σ 0 ≠ σ 1 := fun h => by simpa using σ.injective h
  have n02 : σ 0 ≠ σ 2 := fun h => by simpa using σ.injective h
  have n12 : σ 1 ≠ σ 2 := fun h => by simpa using σ.injective h
  rcases k0 with k0 | k0 <;> rcases k1 with k1 | k1 <;> rcases k2 with k2 | k2 <;>
    first
    | exact n01 (k0.trans k1.symm)
    | exact n02 (k0.trans k2.symm)
    | exact n12 (k1.trans k2.symm)

/-- **C41** (not a number, exactly when).  In 3-D an entry that was a number is spoilt precisely when, for some band, some tetrahedron has exactly
two vertices at the grid frequency and the other two above it. -/
theorem C41_nan_iff {arg : Argsort 4} (ha : Sorts arg) (vol f : ℝ) (nb : ℕ) (simplices : List (Fin 4 → ℕ)) (w : ℕ → ℕ → ℝ) (F : ℕ → ℕ → ℕ → ℝ)
    (d : ℕ) (a : ℝ) :
    column arg branch3 vol f nb simplices w F d (some a) = none ↔
      ∃ b < nb, ∃ s ∈ simplices, ∃ i j : Fin 4, i ≠ j ∧ w (s i) b = f ∧ w (s j) b = f ∧ ∀ l, l ≠ i → l ≠ j → f < w (s l) b := by
  constructor
  · intro h
    by_cases hc : ∃ b < nb, ∃ s ∈ simplices, branch3 f (sortedFreq arg (fun k => w k b) s) = .nan
    · obtain ⟨b, hb, s, hs, hn⟩ := hc
      have hm : Monotone (sortedFreq arg (fun k => w k b) s) := ha _
      obtain ⟨h0, h1, h2⟩ := (nan_iff _ _ hm).1 hn
      set σ := arg (fun i => w (s i) b) with hσ
      refine ⟨b, hb, s, hs, σ 0, σ 1, fun h => by simpa using σ.injective h, h0.symm, (h0.trans h1).symm, fun l hl0 hl1 => ?_⟩
      have hp : σ (σ.symm l) = l := Equiv.apply_symm_apply ..
      have h20 : (2 : Fin 4) ≤ σ.symm l := by
        by_contra hlt
        rcases (show σ.symm l = 0 ∨ σ.symm l = 1 by omega) with h | h
        · exact hl0 (by rw [← hp, h])
        · exact hl1 (by rw [← hp, h])
      have h3 : sortedFreq arg (fun k => w k b) s 2 ≤ w (s l) b := by
        have := hm h20
        rwa [show sortedFreq arg (fun k => w k b) s (σ.symm l) = w (s l) b from congrArg (fun q => w (s q) b) hp] at this
      rw [h0, h1]
      exact lt_of_lt_of_le h2 h3
    · push Not at hc
      rw [column_some _ _ _ _ _ _ _ _ _ _ hc] at h
      cases h
  · rintro ⟨b, hb, s, hs, h⟩
    exact C41_nan_refuted ha vol f nb simplices w F d (some a) b hb s hs h

/-! ### C42 on the mesh -/

private theorem sum_value {m : ℕ} (vol : ℝ) (nd : ℕ) (F : ℕ → Fin m → ℝ) (b : Branch m) (hone : ∀ g I, b = .inside g I → ∑ i, I i = 1)
    (hF : ∀ i, ∑ d ∈ Finset.range nd, F d i = 1) : ∑ d ∈ Finset.range nd, value vol (F d) b = vol * density b := by
  cases b with
  | skip => simp [value, density]
  | nan => simp [value, density]
  | inside g I =>
    simp only [value, density]
    rw [← Finset.mul_sum, Finset.sum_comm]
    have : ∑ i, ∑ d ∈ Finset.range nd, I i * F d i = 1 := by
      simp only [← Finset.mul_sum, hF, mul_one]
      exact hone g I rfl
    rw [this, mul_one]

private theorem finset_list_sum {α : Type} (l : List α) (nd : ℕ) (g : ℕ → α → ℝ) :
    ∑ d ∈ Finset.range nd, (l.map (g d)).sum = (l.map fun x => ∑ d ∈ Finset.range nd, g d x).sum := by
  induction l with
  | nil => simp
  | cons a l ih => simp [Finset.sum_add_distrib, ih]

private theorem integral_list_sum {α : Type} (l : List α) (g : α → ℝ → ℝ) (c : α → ℝ) (h : ∀ x ∈ l, Integrable (g x) ∧ ∫ t, g x t = c x) :
    Integrable (fun t => (l.map fun x => g x t).sum) ∧ ∫ t, (l.map fun x => g x t).sum = (l.map c).sum := by
  induction l with
  | nil => simp
  | cons a l ih =>
    obtain ⟨i1, j1⟩ := h a (by simp)
    obtain ⟨i2, j2⟩ := ih fun x hx => h x (by simp [hx])
    simp only [List.map_cons, List.sum_cons]
    exact ⟨i1.add i2, by rw [integral_add i1 i2, j1, j2]⟩

/-- The total density at `f` (sum of the projected densities over all degrees of freedom); NaN counts as 0. -/
def total {m : ℕ} (arg : Argsort m) (br : ℝ → (Fin m → ℝ) → Branch m) (vol : ℝ) (nb nd : ℕ) (simplices : List (Fin m → ℕ))
    (w : ℕ → ℕ → ℝ) (F : ℕ → ℕ → ℕ → ℝ) (f : ℝ) : ℝ :=
  ∑ d ∈ Finset.range nd, (column arg br vol f nb simplices w F d (some 0)).getD 0

/-- **C42** (mesh).  With normalised modes, a spectrum in which no simplex is flat has total weight
(weight per simplex) × (number of simplices) × (number of branches), and the entries are numbers
except at finitely many frequencies. -/
theorem C42_mesh_weight {k : ℕ} {br : ℝ → (Fin (k + 1) → ℝ) → Branch (k + 1)} (hg : GoodBranch br) {arg : Argsort (k + 1)} (ha : Sorts arg)
    (vol : ℝ) (nb nd : ℕ) (simplices : List (Fin (k + 1) → ℕ)) (w : ℕ → ℕ → ℝ) (F : ℕ → ℕ → ℕ → ℝ)
    (hF : ∀ k b, b < nb → ∑ d ∈ Finset.range nd, F k b d = 1)
    (hflat : ∀ b < nb, ∀ s ∈ simplices, ∃ i j, w (s i) b ≠ w (s j) b) :
    {f | ∃ d, column arg br vol f nb simplices w F d (some 0) = none}.Finite ∧
    Integrable (total arg br vol nb nd simplices w F) ∧
    ∫ f, total arg br vol nb nd simplices w F f = vol * simplices.length * nb := by
  have hfin : {f | ∃ b < nb, ∃ s ∈ simplices, br f (sortedFreq arg (fun k => w k b) s) = .nan}.Finite := by
    have hbig : (⋃ b ∈ (Finset.range nb : Set ℕ), ⋃ s ∈ {s | s ∈ simplices}, Set.range fun i => w (s i) b).Finite :=
      (Finset.finite_toSet _).biUnion fun b _ => (List.finite_toSet simplices).biUnion fun s _ => Set.finite_range _
    refine hbig.subset ?_
    rintro f ⟨b, hb, s, hs, hn⟩
    obtain ⟨i, hi⟩ := hg.nan_vertex _ _ (ha _) hn
    simp only [Set.mem_iUnion]
    exact ⟨b, by simpa using hb, s, hs, ⟨_, hi.symm⟩⟩
  have hset : {f | ∃ d, column arg br vol f nb simplices w F d (some 0) = none} ⊆ {f | ∃ b < nb, ∃ s ∈ simplices, br f (sortedFreq arg (fun k => w k b) s) = .nan} := by
    rintro f ⟨d, hd⟩
    exact (column_none_iff ..).1 hd
  -- almost everywhere the total is the plain sum of densities
  have hae : total arg br vol nb nd simplices w F =ᵐ[volume]
      fun f => ((List.range nb).map fun b => (simplices.map fun s => vol * density (br f (sortedFreq arg (fun k => w k b) s))).sum).sum := by
    have h0 : ∀ᵐ f : ℝ, f ∉ {f | ∃ b < nb, ∃ s ∈ simplices, br f (sortedFreq arg (fun k => w k b) s) = .nan} := measure_eq_zero_iff_ae_notMem.1 (hfin.measure_zero _)
    filter_upwards [h0] with f hf
    simp only [Set.mem_setOf_eq, not_exists, not_and] at hf
    unfold total
    have hc := fun d => column_some arg br vol f nb simplices w F d 0 hf
    simp only [hc, Option.getD_some, zero_add]
    rw [finset_list_sum]
    congr 1
    refine List.map_congr_left fun b hb => ?_
    rw [finset_list_sum]
    congr 1
    refine List.map_congr_left fun s hs => ?_
    exact sum_value vol nd _ _ (fun g I h => hg.sum_one _ _ _ _ (ha _) h) fun i => hF _ b (List.mem_range.1 hb)
  have hmass : ∀ b < nb, ∀ s ∈ simplices, Integrable (fun f => vol * density (br f (sortedFreq arg (fun k => w k b) s))) ∧
      ∫ f, vol * density (br f (sortedFreq arg (fun k => w k b) s)) = vol := by
    intro b hb s hs
    obtain ⟨i, j, hij⟩ := hflat b hb s hs
    have hm := ha (fun i => w (s i) b)
    have hlt : sortedFreq arg (fun k => w k b) s 0 < sortedFreq arg (fun k => w k b) s (Fin.last k) := by
      refine lt_of_le_of_ne (hm (Fin.zero_le _)) fun heq => hij ?_
      have hall : ∀ p, sortedFreq arg (fun k => w k b) s p = sortedFreq arg (fun k => w k b) s 0 := fun p =>
        le_antisymm (heq ▸ hm (Fin.le_last p)) (hm (Fin.zero_le p))
      have hi := hall ((arg fun i => w (s i) b).symm i)
      have hj := hall ((arg fun i => w (s i) b).symm j)
      have h3 := hi.trans hj.symm
      simpa [sortedFreq] using h3
    obtain ⟨h1, h2⟩ := hg.mass _ hm hlt
    refine ⟨h1.const_mul vol, ?_⟩
    rw [integral_const_mul, show (∫ f, density (br f (sortedFreq arg (fun k => w k b) s))) = 1 from h2, mul_one]
  obtain ⟨hI, hJ⟩ := integral_list_sum (List.range nb)
    (fun b f => (simplices.map fun s => vol * density (br f (sortedFreq arg (fun k => w k b) s))).sum) (fun _ => vol * simplices.length) (by
      intro b hb
      obtain ⟨i1, j1⟩ := integral_list_sum simplices (fun s f => vol * density (br f (sortedFreq arg (fun k => w k b) s))) (fun _ => vol)
        (fun s hs => hmass b (List.mem_range.1 hb) s hs)
      refine ⟨i1, ?_⟩
      rw [j1]
      simp [mul_comm])
  refine ⟨hfin.subset hset, hI.congr hae.symm, ?_⟩
  rw [integral_congr_ae hae, hJ]
  simp
  ring

/-- **C42** (flat simplices).  A simplex whose vertex frequencies are all equal contributes nothing at any
frequency: a flat band is lost from the density of states, whatever the dimension. -/
theorem C42_flat_contributes_nothing {k : ℕ} {br : ℝ → (Fin (k + 1) → ℝ) → Branch (k + 1)} (hg : GoodBranch br) (arg : Argsort (k + 1))
    (vol f : ℝ) (w F : ℕ → ℝ) (v : Fin (k + 1) → ℕ) (acc : Option ℝ) (c : ℝ) (h : ∀ i, w (v i) = c) :
    simplexStep arg br vol f w F acc v = acc := by
  rw [step_eq]
  have hc : sortedFreq arg w v = fun _ => c := by funext i; exact h _
  rw [hc, hg.outside f _ (fun _ _ _ => le_rfl) (by rcases lt_or_ge f c with h | h; exacts [Or.inl h, Or.inr h])]
  rfl

/-! ### C43: tiling -/

/-- `p` is the convex combination of the corners `c` with weights `l`. -/
def Combination {m n : ℕ} (c : Fin m → Fin n → ℕ) (l : Fin m → ℝ) (p : Fin n → ℝ) : Prop :=
  ∑ i, l i = 1 ∧ ∀ a, p a = ∑ i, l i * c i a

/-- **C43** (cover, 2-D).  Every point of the mesh cell lies in one of the two triangles. -/
theorem C43_cover_2d (p : Fin 2 → ℝ) (h0 : ∀ a, 0 ≤ p a) (h1 : ∀ a, p a ≤ 1) : ∃ c ∈ corners2, ∃ l, (∀ i, 0 ≤ l i) ∧ Combination c l p := by
  have a0 := h0 0; have a1 := h0 1; have b0 := h1 0; have b1 := h1 1
  rcases le_total (p 0) (p 1) with h | h
  · refine ⟨_, List.mem_cons_self .., ![1 - p 1, p 1 - p 0, p 0], ?_, ?_, ?_⟩
    · intro i; fin_cases i <;> simp <;> linarith
    · simp [Fin.sum_univ_three]
    · intro a; fin_cases a <;> simp [Fin.sum_univ_three]
  · refine ⟨_, List.mem_cons_of_mem _ (List.mem_cons_self ..), ![1 - p 0, p 0 - p 1, p 1], ?_, ?_, ?_⟩
    · intro i; fin_cases i <;> simp <;> linarith
    · simp [Fin.sum_univ_three]
    · intro a; fin_cases a <;> simp [Fin.sum_univ_three]

/-- **C43** (no overlap, 2-D).  A point strictly inside one triangle is strictly inside no other. -/
theorem C43_disjoint_2d (p : Fin 2 → ℝ) (c c' : Fin 3 → Fin 2 → ℕ) (hc : c ∈ corners2) (hc' : c' ∈ corners2) (l l' : Fin 3 → ℝ)
    (hl : ∀ i, 0 < l i) (hl' : ∀ i, 0 < l' i) (h : Combination c l p) (h' : Combination c' l' p) : c = c' := by
  obtain ⟨-, h⟩ := h
  obtain ⟨-, h'⟩ := h'
  have q0 := h 0; have q1 := h 1
  have r0 := h' 0; have r1 := h' 1
  have l0 := hl 0; have l1 := hl 1; have l2 := hl 2
  have m0 := hl' 0; have m1 := hl' 1; have m2 := hl' 2
  simp only [corners2, List.mem_cons, List.not_mem_nil, or_false] at hc hc'
  rcases hc with rfl | rfl <;> rcases hc' with rfl | rfl
  · rfl
  · simp [Fin.sum_univ_three] at q0 q1 r0 r1; linarith
  · simp [Fin.sum_univ_three] at q0 q1 r0 r1; linarith
  · rfl

/-- **C43** (cover, 3-D).  Every point of the mesh cell lies in one of the six tetrahedra. -/
theorem C43_cover_3d (p : Fin 3 → ℝ) (h0 : ∀ a, 0 ≤ p a) (h1 : ∀ a, p a ≤ 1) : ∃ c ∈ corners3, ∃ l, (∀ i, 0 ≤ l i) ∧ Combination c l p := by
  have a0 := h0 0; have a1 := h0 1; have a2 := h0 2; have b0 := h1 0; have b1 := h1 1; have b2 := h1 2
  have go : ∀ c ∈ corners3, (∃ l : Fin 4 → ℝ, (∀ i, 0 ≤ l i) ∧ Combination c l p) → ∃ c ∈ corners3, ∃ l, (∀ i, 0 ≤ l i) ∧ Combination c l p :=
    fun c hc h => ⟨c, hc, h⟩
  rcases le_total (p 0) (p 1) with h | h <;> rcases le_total (p 1) (p 2) with h' | h' <;> rcases le_total (p 0) (p 2) with h'' | h''
  -- p0 ≤ p1 ≤ p2
  · refine go ![![0, 0, 0], ![0, 0, 1], ![0, 1, 1], ![1, 1, 1]] (by simp [corners3]) ⟨![1 - p 2, p 2 - p 1, p 1 - p 0, p 0], ?_, ?_, ?_⟩
    · intro i; fin_cases i <;> simp <;> linarith
    · simp [Fin.sum_univ_four]
    · intro a; fin_cases a <;> simp [Fin.sum_univ_four]
  · refine go ![![0, 0, 0], ![0, 0, 1], ![0, 1, 1], ![1, 1, 1]] (by simp [corners3]) ⟨![1 - p 2, p 2 - p 1, p 1 - p 0, p 0], ?_, ?_, ?_⟩
    · intro i; fin_cases i <;> simp <;> linarith
    · simp [Fin.sum_univ_four]
    · intro a; fin_cases a <;> simp [Fin.sum_univ_four]
  -- p0 ≤ p2 ≤ p1
  · refine go ![![0, 0, 0], ![0, 1, 0], ![0, 1, 1], ![1, 1, 1]] (by simp [corners3]) ⟨![1 - p 1, p 1 - p 2, p 2 - p 0, p 0], ?_, ?_, ?_⟩
    · intro i; fin_cases i <;> simp <;> linarith
    · simp [Fin.sum_univ_four]
    · intro a; fin_cases a <;> simp [Fin.sum_univ_four]
  -- p2 ≤ p0 ≤ p1
  · refine go ![![0, 0, 0], ![0, 1, 0], ![1, 1, 0], ![1, 1, 1]] (by simp [corners3]) ⟨![1 - p 1, p 1 - p 0, p 0 - p 2, p 2], ?_, ?_, ?_⟩
    · intro i; fin_cases i <;> simp <;> linarith
    · simp [Fin.sum_univ_four]
    · intro a; fin_cases a <;> simp [Fin.sum_univ_four]
  -- p1 ≤ p0 ≤ p2
  · refine go ![![0, 0, 0], ![0, 0, 1], ![1, 0, 1], ![1, 1, 1]] (by simp [corners3]) ⟨![1 - p 2, p 2 - p 0, p 0 - p 1, p 1], ?_, ?_, ?_⟩
    · intro i; fin_cases i <;> simp <;> linarith
    · simp [Fin.sum_univ_four]
    · intro a; fin_cases a <;> simp [Fin.sum_univ_four]
  -- p1 ≤ p2 ≤ p0
  · refine go ![![0, 0, 0], ![1, 0, 0], ![1, 0, 1], ![1, 1, 1]] (by simp [corners3]) ⟨![1 - p 0, p 0 - p 2, p 2 - p 1, p 1], ?_, ?_, ?_⟩
    · intro i; fin_cases i <;> simp <;> linarith
    · simp [Fin.sum_univ_four]
    · intro a; fin_cases a <;> simp [Fin.sum_univ_four]
  -- p2 ≤ p1 ≤ p0
  · refine go ![![0, 0, 0], ![1, 0, 0], ![1, 1, 0], ![1, 1, 1]] (by simp [corners3]) ⟨![1 - p 0, p 0 - p 1, p 1 - p 2, p 2], ?_, ?_, ?_⟩
    · intro i; fin_cases i <;> simp <;> linarith
    · simp [Fin.sum_univ_four]
    · intro a; fin_cases a <;> simp [Fin.sum_univ_four]
  · refine go ![![0, 0, 0], ![1, 0, 0], ![1, 1, 0], ![1, 1, 1]] (by simp [corners3]) ⟨![1 - p 0, p 0 - p 1, p 1 - p 2, p 2], ?_, ?_, ?_⟩
    · intro i; fin_cases i <;> simp <;> linarith
    · simp [Fin.sum_univ_four]
    · intro a; fin_cases a <;> simp [Fin.sum_univ_four]

/-- **C43** (no overlap, 3-D). -/
theorem C43_disjoint_3d (p : Fin 3 → ℝ) (c c' : Fin 4 → Fin 3 → ℕ) (hc : c ∈ corners3) (hc' : c' ∈ corners3) (l l' : Fin 4 → ℝ)
    (hl : ∀ i, 0 < l i) (hl' : ∀ i, 0 < l' i) (h : Combination c l p) (h' : Combination c' l' p) : c = c' := by
  obtain ⟨-, h⟩ := h
  obtain ⟨-, h'⟩ := h'
  have q0 := h 0; have q1 := h 1; have q2 := h 2
  have r0 := h' 0; have r1 := h' 1; have r2 := h' 2
  have l0 := hl 0; have l1 := hl 1; have l2 := hl 2; have l3 := hl 3
  have m0 := hl' 0; have m1 := hl' 1; have m2 := hl' 2; have m3 := hl' 3
  clear h h'
  simp only [corners3, List.mem_cons, List.not_mem_nil, or_false] at hc hc'
  rcases hc with rfl | rfl | rfl | rfl | rfl | rfl <;> rcases hc' with rfl | rfl | rfl | rfl | rfl | rfl <;>
    first
    | rfl
    | (simp [Fin.sum_univ_four] at q0 q1 q2 r0 r1 r2; linarith)

/-- **C43** (equal volume).  All six tetrahedra have the same volume: the edge matrix from the first corner has
determinant ±1 (a unit cell of volume 1 split into six parts of 1/6). -/
theorem C43_equal_volume_3d : ∀ c ∈ corners3, |Matrix.det (Matrix.of fun i j : Fin 3 => (c i.succ j : ℤ) - c 0 j)| = 1 := by
  decide +kernel

theorem C43_equal_area_2d : ∀ c ∈ corners2, |Matrix.det (Matrix.of fun i j : Fin 2 => (c i.succ j : ℤ) - c 0 j)| = 1 := by
  decide +kernel

/-! ### C43: every mesh point is used equally often -/

private theorem list_range_sum (n : ℕ) (g : ℕ → ℝ) : ((List.range n).map g).sum = ∑ i ∈ Finset.range n, g i := by
  induction n with
  | zero => simp
  | succ n ih => rw [List.range_succ, List.map_append, List.sum_append, ih, Finset.sum_range_succ]; simp

private theorem sum_flatMap {α β : Type} (l : List α) (f : α → List β) (g : β → ℝ) :
    ((l.flatMap f).map g).sum = (l.map fun x => ((f x).map g).sum).sum := by
  induction l with
  | nil => simp
  | cons a l ih => simp [ih]

private theorem shift_sum (n d : ℕ) (g : ℕ → ℝ) : ∑ i ∈ Finset.range n, g ((i + d) % n) = ∑ i ∈ Finset.range n, g i := by
  rcases Nat.eq_zero_or_pos n with rfl | hn
  · simp
  · refine Finset.sum_nbij' (fun i => (i + d) % n) (fun i => (i + (n - d % n)) % n) ?_ ?_ ?_ ?_ ?_
    · intro i _; exact Finset.mem_range.2 (Nat.mod_lt _ hn)
    · intro i _; exact Finset.mem_range.2 (Nat.mod_lt _ hn)
    · intro i hi
      have hd := Nat.mod_lt d hn
      have hi := Finset.mem_range.1 hi
      simp only [Nat.mod_add_mod]
      have : i + d + (n - d % n) = i + n * (d / n + 1) := by
        have := Nat.div_add_mod d n
        rw [Nat.mul_add, Nat.mul_one]; omega
      rw [this, Nat.add_mul_mod_self_left, Nat.mod_eq_of_lt hi]
    · intro i hi
      have hd := Nat.mod_lt d hn
      have hi := Finset.mem_range.1 hi
      simp only [Nat.mod_add_mod]
      have : i + (n - d % n) + d = i + n * (d / n + 1) := by
        have := Nat.div_add_mod d n
        rw [Nat.mul_add, Nat.mul_one]; omega
      rw [this, Nat.add_mul_mod_self_left, Nat.mod_eq_of_lt hi]
    · intro i _; rfl

private theorem two_sum (n m : ℕ) (g : ℕ → ℝ) : ∑ x ∈ Finset.range n, ∑ y ∈ Finset.range m, g (x * m + y) = ∑ i ∈ Finset.range (n * m), g i := by
  induction n with
  | zero => simp
  | succ n ih => rw [Finset.sum_range_succ, ih, Nat.succ_mul, Finset.sum_range_add]

/-- **C43** (use count, 1-D): summing any quantity over the end points of all segments counts each mesh point twice. -/
theorem C43_use_1d (n : ℕ) (g : ℕ → ℝ) : ((segments n).map fun s => ∑ i, g (s i)).sum = 2 * ∑ j ∈ Finset.range n, g j := by
  unfold segments
  rw [List.map_map, list_range_sum]
  simp only [Function.comp_def, Fin.sum_univ_two, Matrix.cons_val_zero, Matrix.cons_val_one]
  rw [Finset.sum_add_distrib, shift_sum]
  ring

private theorem cell_sum2 (n1 n2 : ℕ) (d : Fin 2 → ℕ) (g : ℕ → ℝ) :
    ∑ x ∈ Finset.range n1, ∑ y ∈ Finset.range n2, g (idx2 n1 n2 x y d) = ∑ j ∈ Finset.range (n1 * n2), g j := by
  unfold idx2
  rw [shift_sum n1 (d 0) (fun x => ∑ y ∈ Finset.range n2, g (x * n2 + (y + d 1) % n2))]
  rw [← two_sum]
  refine Finset.sum_congr rfl fun x _ => ?_
  exact shift_sum n2 (d 1) fun y => g (x * n2 + y)

/-- **C43** (use count, 2-D): each mesh point is a corner of six triangles. -/
theorem C43_use_2d (n1 n2 : ℕ) (g : ℕ → ℝ) : ((triangles n1 n2).map fun s => ∑ i, g (s i)).sum = 6 * ∑ j ∈ Finset.range (n1 * n2), g j := by
  unfold triangles
  rw [sum_flatMap, list_range_sum]
  simp only [sum_flatMap, list_range_sum, corners2, List.map_cons, List.map_nil, List.sum_cons, List.sum_nil, Fin.sum_univ_three, Finset.sum_add_distrib, cell_sum2]
  simp only [Finset.sum_const_zero]
  ring

private theorem cell_sum3 (n1 n2 n3 : ℕ) (d : Fin 3 → ℕ) (g : ℕ → ℝ) :
    ∑ x ∈ Finset.range n1, ∑ y ∈ Finset.range n2, ∑ z ∈ Finset.range n3, g (idx3 n1 n2 n3 x y z d) = ∑ j ∈ Finset.range (n1 * n2 * n3), g j := by
  unfold idx3
  rw [shift_sum n1 (d 0) (fun x => ∑ y ∈ Finset.range n2, ∑ z ∈ Finset.range n3, g (x * n2 * n3 + (y + d 1) % n2 * n3 + (z + d 2) % n3))]
  rw [← two_sum, ← two_sum]
  refine Finset.sum_congr rfl fun x _ => ?_
  rw [shift_sum n2 (d 1) (fun y => ∑ z ∈ Finset.range n3, g (x * n2 * n3 + y * n3 + (z + d 2) % n3))]
  refine Finset.sum_congr rfl fun y _ => ?_
  rw [shift_sum n3 (d 2) (fun z => g (x * n2 * n3 + y * n3 + z))]
  refine Finset.sum_congr rfl fun z _ => ?_
  rw [Nat.add_mul]

/-- **C43** (use count, 3-D): each mesh point is a corner of 24 tetrahedra. -/
theorem C43_use_3d (n1 n2 n3 : ℕ) (g : ℕ → ℝ) :
    ((tetrahedra n1 n2 n3).map fun s => ∑ i, g (s i)).sum = 24 * ∑ j ∈ Finset.range (n1 * n2 * n3), g j := by
  unfold tetrahedra
  rw [sum_flatMap, list_range_sum]
  simp only [sum_flatMap, list_range_sum, corners3, List.map_cons, List.map_nil, List.sum_cons, List.sum_nil, Fin.sum_univ_four, Finset.sum_add_distrib, cell_sum3]
  simp only [Finset.sum_const_zero]
  ring

end

end Interphon.Props
