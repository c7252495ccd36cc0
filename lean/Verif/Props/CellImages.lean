import Verif.Props.Symmetry
import Verif.Props.SuperCell
import Verif.Model.SymPlan

/-!
# Image tables of the super cell: C85
-/

namespace Interphon.Props
open Py Interphon Interphon.Symmetry

section
variable {K : Type*} [Field K] [LinearOrder K] [FloorRing K]

/-! ### Specification -/

/-- Atoms of one type of the (super) cell are more than twice the matching tolerance apart. -/
def CellApart (c : CellIn K) : Prop := ∀ t < c.direct.length, ∀ u < c.direct.length, c.types.getD t [] = c.types.getD u [] →
  NearMod (2 / 10 ^ 4) c.lattice (fun x => c.direct.getD t 0 x - c.direct.getD u 0 x) → t = u

/-- The image of the point `x` under the operation with matrix `W` that takes the point `p` to the point `q`. -/
def imageAbout (W : M3 K) (p q x : V3 K) : V3 K := fun r => q r + (W.mulVec (fun y => x y - p y)) r

/-- Two points differ by a lattice vector (direct coordinates). -/
def SameMod (x y : V3 K) : Prop := ∃ m : Fin 3 → ℤ, ∀ r, x r = y r + (m r : K)

variable [IsStrictOrderedRing K]

/-! ### The loop -/

private theorem cellLoop_spec (c : CellIn K) (W : M3 K) (p q : V3 K) (hle : ∀ t, (cellMatches c W p q t).length ≤ 1) :
    ∀ (l acc : List ℕ) (n : ℕ), acc.length + l.length ≤ c.direct.length →
      (cellLoop c W p q l acc n).1 = acc ++ l.flatMap (cellMatches c W p q) ∧
      ((cellLoop c W p q l acc n).2 = n ∨ ((cellLoop c W p q l acc n).2 = n + 1 ∧ ∀ a ∈ l, (cellMatches c W p q a).length = 1)) ∧
      (l ≠ [] → acc.length + l.length = c.direct.length → (∀ a ∈ l, (cellMatches c W p q a).length = 1) → (cellLoop c W p q l acc n).2 = n + 1) := by
  intro l
  induction l with
  | nil => intro acc n _; simp [cellLoop]
  | cons a rest ih =>
    intro acc n hlen
    rw [cellLoop]
    simp only [List.length_cons] at hlen ⊢
    have h1 := hle a
    have hlen' : (acc ++ cellMatches c W p q a).length + rest.length ≤ c.direct.length := by rw [List.length_append]; omega
    by_cases hfull : (acc ++ cellMatches c W p q a).length = c.direct.length
    · have hrest : rest = [] := by
        rw [List.length_append] at hfull
        exact List.length_eq_zero_iff.1 (by omega)
      subst hrest
      rw [if_pos hfull]
      have hone : (cellMatches c W p q a).length = 1 := by
        rw [List.length_append] at hfull; simp at hlen; omega
      simp only [cellLoop]
      refine ⟨by simp, Or.inr ⟨trivial, by simpa using hone⟩, fun _ _ _ => trivial⟩
    · rw [if_neg hfull]
      obtain ⟨i1, i2, i3⟩ := ih (acc ++ cellMatches c W p q a) n hlen'
      refine ⟨by rw [i1]; simp, ?_, ?_⟩
      · rcases i2 with i2 | ⟨i2, i2'⟩
        · exact Or.inl i2
        · by_cases hone : (cellMatches c W p q a).length = 1
          · exact Or.inr ⟨i2, by simpa using ⟨hone, i2'⟩⟩
          · left
            exfalso
            have hlt : ∀ (l acc : List ℕ) (n : ℕ), acc.length + l.length < c.direct.length → (cellLoop c W p q l acc n).2 = n := by
              intro l
              induction l with
              | nil => intro acc n _; rfl
              | cons b l ihl =>
                intro acc n hl
                simp only [List.length_cons] at hl
                have hb := hle b
                rw [cellLoop]
                rw [if_neg (by rw [List.length_append]; omega), ihl _ _ (by rw [List.length_append]; omega)]
            have := hlt rest (acc ++ cellMatches c W p q a) n (by rw [List.length_append]; omega)
            omega
      · intro _ htot hall
        have hone := hall a (by simp)
        by_cases hr : rest = []
        · subst hr; exfalso; apply hfull; rw [List.length_append]; simp at htot; omega
        · exact i3 hr (by rw [List.length_append]; omega) (fun b hb => hall b (by simp [hb]))

omit [IsStrictOrderedRing K] in
private theorem mem_cellMatches (c : CellIn K) (W : M3 K) (p q : V3 K) (t u : ℕ) : u ∈ cellMatches c W p q t ↔ u < c.direct.length ∧
    c.types.getD u [] = c.types.getD t [] ∧ nearZero (deltaCart c.lattice (fun x => imageAbout W p q (c.direct.getD t 0) x - c.direct.getD u 0 x)) = true := by
  simp only [cellMatches, List.mem_filter, List.mem_range, Bool.and_eq_true, decide_eq_true_eq, imageAbout]

private theorem cellMatches_le_one (c : CellIn K) (hs : CellApart c) (W : M3 K) (p q : V3 K) (t : ℕ) : (cellMatches c W p q t).length ≤ 1 := by
  have hnd : (cellMatches c W p q t).Nodup := List.nodup_range.filter _
  have key : ∀ u ∈ cellMatches c W p q t, ∀ v ∈ cellMatches c W p q t, u = v := by
    intro u hu v hv
    obtain ⟨u1, u2, u3⟩ := (mem_cellMatches c W p q t u).1 hu
    obtain ⟨v1, v2, v3⟩ := (mem_cellMatches c W p q t v).1 hv
    refine hs u u1 v v1 (u2.trans v2.symm) ?_
    have := nearMod_sub (nearMod_of_nearZero v3) (nearMod_of_nearZero u3)
    rw [show (2 : K) * (1 / 10 ^ 4) = 2 / 10 ^ 4 by ring] at this
    convert this using 1
    funext c; ring
  rcases h : cellMatches c W p q t with _ | ⟨x, _ | ⟨y, l⟩⟩
  · simp
  · simp
  · rw [h] at key hnd
    have := key x (by simp) y (by simp)
    simp [this] at hnd

omit [FloorRing K] [LinearOrder K] [Field K] [IsStrictOrderedRing K] in
private theorem flatMap_one' {f : ℕ → List ℕ} : ∀ {l : List ℕ}, (∀ a ∈ l, (f a).length = 1) → l.flatMap f = l.map (fun a => (f a).headD 0) := by
  intro l
  induction l with
  | nil => intro _; rfl
  | cons a l ih =>
    intro h
    rw [List.flatMap_cons, List.map_cons, ih (fun b hb => h b (by simp [hb]))]
    obtain ⟨x, hx⟩ := List.length_eq_one_iff.1 (h a (by simp))
    rw [hx]; rfl

/-! ### C85 -/

/-- **C85** (what is recorded is right).  Every image table recorded for an operation belongs to a selected atom `a` with image `img`; it has one entry for
every selected super-cell atom `t`, an atom of the same type, at the image of `t` under the operation that takes the home image of `a` to that of
`img`, up to a lattice vector of the super cell and 10⁻⁴ in every Cartesian component. -/
theorem C85_recorded_tables (c : CellIn K) (hs : CellApart c) (E : ℕ) (W : M3 K) (same : List ℕ) (tab : List ℕ) (h : tab ∈ cellImages c E W same) :
    ∃ a img : ℕ, same[a]? = some img ∧ tab.length = c.direct.length ∧ ∀ t < c.direct.length, tab.getD t 0 < c.direct.length ∧
      c.types.getD (tab.getD t 0) [] = c.types.getD t [] ∧
      NearMod (1 / 10 ^ 4) c.lattice (fun x => imageAbout W (c.direct.getD (a * E) 0) (c.direct.getD (img * E) 0) (c.direct.getD t 0) x -
        c.direct.getD (tab.getD t 0) 0 x) := by
  simp only [cellImages, List.mem_flatMap, List.mem_replicate] at h
  obtain ⟨⟨img, a⟩, hmem, hne, rfl⟩ := h
  have hmem' := (List.mem_zipIdx_iff_getElem?.1 hmem)
  refine ⟨a, img, hmem', ?_⟩
  simp only at hne ⊢
  obtain ⟨h1, h2, -⟩ := cellLoop_spec c W (c.direct.getD (a * E) 0) (c.direct.getD (img * E) 0)
    (fun t => cellMatches_le_one c hs W _ _ t) (List.range c.direct.length) [] 0 (by simp)
  have hall : ∀ t ∈ List.range c.direct.length, (cellMatches c W (c.direct.getD (a * E) 0) (c.direct.getD (img * E) 0) t).length = 1 := by
    rcases h2 with h2 | ⟨-, h2⟩
    · exact absurd h2 hne
    · exact h2
  rw [List.nil_append, flatMap_one' hall] at h1
  rw [h1]
  refine ⟨by simp, fun t ht => ?_⟩
  have hg : (List.map (fun t => (cellMatches c W (c.direct.getD (a * E) 0) (c.direct.getD (img * E) 0) t).headD 0) (List.range c.direct.length)).getD t 0 =
      (cellMatches c W (c.direct.getD (a * E) 0) (c.direct.getD (img * E) 0) t).headD 0 := by
    rw [List.getD_eq_getElem?_getD, List.getElem?_map, List.getElem?_range ht]; rfl
  obtain ⟨x, hx⟩ := List.length_eq_one_iff.1 (hall t (List.mem_range.2 ht))
  simp only [hg, hx, List.headD_cons]
  obtain ⟨m1, m2, m3⟩ := (mem_cellMatches c W _ _ t x).1 (by rw [hx]; simp)
  exact ⟨m1, m2, nearMod_of_nearZero m3⟩

private theorem rint_int (m : ℤ) : rint (m : K) = m := rint_near (by simp)

private theorem nearZero_int (L : M3 K) (δ : V3 K) (m : Fin 3 → ℤ) (h : ∀ c, δ c = m c) : nearZero (deltaCart L δ) = true := by
  rw [nearZero_iff]
  intro c
  have : (fun c => δ c - (rint (δ c) : K)) = 0 := by
    funext c; rw [h, rint_int]; simp
  rw [deltaCart, this, Matrix.zero_vecMul]
  simp

/-- `W` has integer entries and an integer inverse. -/
def Unimodular (W : M3 K) : Prop := ∃ V V' : Matrix (Fin 3) (Fin 3) ℤ, W = V.map (fun n : ℤ => (n : K)) ∧ V' * V = 1

/-- **C85** (all tables are there).  If the operation about each selected atom maps the selected super-cell atoms exactly onto selected super-cell atoms
of the same type, then one table is recorded for every selected atom, in order, and each table is a permutation of the selected super-cell
atoms. -/
theorem C85_all_tables (c : CellIn K) (hs : CellApart c) (hpos : 0 < c.direct.length) (E : ℕ) (W : M3 K) (hW : Unimodular W) (same : List ℕ)
    (img : ℕ → ℕ → ℕ)
    (hmap : ∀ a i : ℕ, same[a]? = some i → ∀ t < c.direct.length, img a t < c.direct.length ∧ c.types.getD (img a t) [] = c.types.getD t [] ∧
      SameMod (imageAbout W (c.direct.getD (a * E) 0) (c.direct.getD (i * E) 0) (c.direct.getD t 0)) (c.direct.getD (img a t) 0)) :
    cellImages c E W same = (List.range same.length).map (fun a => (List.range c.direct.length).map (img a)) ∧
    ∀ a < same.length, ((List.range c.direct.length).map (img a)).Perm (List.range c.direct.length) := by
  have hone : ∀ a i : ℕ, same[a]? = some i → ∀ t < c.direct.length,
      cellMatches c W (c.direct.getD (a * E) 0) (c.direct.getD (i * E) 0) t = [img a t] := by
    intro a i hai t ht
    obtain ⟨h1, h2, m, h3⟩ := hmap a i hai t ht
    have hin : img a t ∈ cellMatches c W (c.direct.getD (a * E) 0) (c.direct.getD (i * E) 0) t :=
      (mem_cellMatches c W _ _ t _).2 ⟨h1, h2, nearZero_int _ _ m fun r => by rw [h3]; ring⟩
    have hle := cellMatches_le_one c hs W (c.direct.getD (a * E) 0) (c.direct.getD (i * E) 0) t
    rcases h : cellMatches c W (c.direct.getD (a * E) 0) (c.direct.getD (i * E) 0) t with _ | ⟨x, _ | ⟨y, l⟩⟩
    · rw [h] at hin; simp at hin
    · rw [h] at hin; simp at hin; rw [hin]
    · rw [h] at hle; simp at hle
  constructor
  · have hstep : ∀ ia ∈ same.zipIdx, (fun ia : ℕ × ℕ =>
        List.replicate (cellLoop c W (c.direct.getD (ia.2 * E) 0) (c.direct.getD (ia.1 * E) 0) (List.range c.direct.length) [] 0).2
          (cellLoop c W (c.direct.getD (ia.2 * E) 0) (c.direct.getD (ia.1 * E) 0) (List.range c.direct.length) [] 0).1) ia =
        [(List.range c.direct.length).map (img ia.2)] := by
      rintro ⟨i, a⟩ hia
      have hai : same[a]? = some i := List.mem_zipIdx_iff_getElem?.1 hia
      obtain ⟨h1, -, h3⟩ := cellLoop_spec c W (c.direct.getD (a * E) 0) (c.direct.getD (i * E) 0)
        (fun t => cellMatches_le_one c hs W _ _ t) (List.range c.direct.length) [] 0 (by simp)
      have hall : ∀ t ∈ List.range c.direct.length, (cellMatches c W (c.direct.getD (a * E) 0) (c.direct.getD (i * E) 0) t).length = 1 := by
        intro t ht; rw [hone a i hai t (List.mem_range.1 ht)]; rfl
      have h3' := h3 (by intro h0; rw [List.range_eq_nil] at h0; omega) (by simp) hall
      rw [List.nil_append, flatMap_one' hall] at h1
      simp only [h1, h3']
      have hm : (List.range c.direct.length).map (fun t => (cellMatches c W (c.direct.getD (a * E) 0) (c.direct.getD (i * E) 0) t).headD 0) =
          (List.range c.direct.length).map (img a) := by
        apply List.map_congr_left
        intro t ht
        rw [hone a i hai t (List.mem_range.1 ht)]; rfl
      rw [hm]; rfl
    unfold cellImages
    rw [show (same.zipIdx.flatMap fun x => match x with
        | (img, a) =>
          let r := cellLoop c W (c.direct.getD (a * E) 0) (c.direct.getD (img * E) 0) (List.range c.direct.length) [] 0
          List.replicate r.2 r.1) = same.zipIdx.flatMap (fun ia : ℕ × ℕ =>
        List.replicate (cellLoop c W (c.direct.getD (ia.2 * E) 0) (c.direct.getD (ia.1 * E) 0) (List.range c.direct.length) [] 0).2
          (cellLoop c W (c.direct.getD (ia.2 * E) 0) (c.direct.getD (ia.1 * E) 0) (List.range c.direct.length) [] 0).1) from rfl]
    rw [List.flatMap_congr hstep]
    rw [← List.map_eq_flatMap]
    apply List.ext_getElem?
    intro k
    simp only [List.getElem?_map, List.getElem?_zipIdx, List.getElem?_range', List.getElem?_range]
    by_cases hk : k < same.length
    · simp [List.getElem?_range hk, List.getElem?_eq_getElem hk]
    · have : same[k]? = none := List.getElem?_eq_none (by omega)
      simp [this, hk]
  · intro a ha
    obtain ⟨i, hai⟩ : ∃ i, same[a]? = some i := ⟨_, List.getElem?_eq_getElem ha⟩
    have hinj : ∀ t < c.direct.length, ∀ u < c.direct.length, img a t = img a u → t = u := by
      intro t ht u hu e
      obtain ⟨-, t2, m, t3⟩ := hmap a i hai t ht
      obtain ⟨-, u2, m', u3⟩ := hmap a i hai u hu
      obtain ⟨V, V', hV, hVV⟩ := hW
      refine hs t ht u hu (t2.symm.trans (e ▸ u2)) ⟨V'.mulVec (fun r => m r - m' r), fun k => ?_⟩
      have hd : W.mulVec (fun y => c.direct.getD t 0 y - c.direct.getD u 0 y) = fun r => ((m r - m' r : ℤ) : K) := by
        funext r
        have e1 := t3 r
        have e2 := u3 r
        rw [e] at e1
        unfold imageAbout at e1 e2
        have e3 : W.mulVec (fun y => c.direct.getD t 0 y - c.direct.getD u 0 y) = W.mulVec (fun y => c.direct.getD t 0 y - c.direct.getD (a * E) 0 y) -
            W.mulVec (fun y => c.direct.getD u 0 y - c.direct.getD (a * E) 0 y) := by
          rw [← Matrix.mulVec_sub]; congr 1; funext y; simp
        rw [e3]; push_cast
        simp only [Pi.sub_apply]
        linear_combination e1 - e2
      have hz : (fun y => c.direct.getD t 0 y - c.direct.getD u 0 y) = fun r => ((V'.mulVec (fun r => m r - m' r) r : ℤ) : K) := by
        have h1 : (V'.map (fun n : ℤ => (n : K))) * W = 1 := by
          rw [hV]
          have := Matrix.map_mul (L := V') (M := V) (f := Int.castRingHom K)
          have h2 : (V'.map (fun n : ℤ => (n : K))) * (V.map (fun n : ℤ => (n : K))) = (V' * V).map (Int.castRingHom K) := this.symm
          rw [h2, hVV]; exact Matrix.map_one _ (by simp) (by simp)
        have h2 := congrArg (fun v => (V'.map (fun n : ℤ => (n : K))).mulVec v) hd
        simp only [Matrix.mulVec_mulVec, h1, Matrix.one_mulVec] at h2
        rw [h2]
        funext r
        simp [Matrix.mulVec, dotProduct]
      rw [hz]; simp [Matrix.vecMul, dotProduct]; positivity
    have hnd : ((List.range c.direct.length).map (img a)).Nodup := by
      refine List.Nodup.map_on ?_ List.nodup_range
      intro t ht u hu e
      exact hinj t (List.mem_range.1 ht) u (List.mem_range.1 hu) e
    refine (List.subperm_of_subset hnd ?_).perm_of_length_le (by simp)
    intro x hx
    obtain ⟨t, ht, rfl⟩ := List.mem_map.1 hx
    exact List.mem_range.2 (hmap a i hai t (List.mem_range.1 ht)).1

/-! ### The super cell made from a unit cell -/

open Interphon.SuperCell Interphon.SymPlan

/-- `s` is the super cell made from the unit cell `u` with selected atoms `sel` by `set_super_cell` and `set_super_ind_true`. -/
structure IsSuperOf (u s : Cell K) (sel : List ℕ) (n p : Fin 3 → ℤ) : Prop where
  made : ∃ junk s0, GoodCall junk u n p ∧ setSuperCell junk u n p = .ok s0 ∧ setSuperIndTrue s0 u n p = .ok s
  selected : u.atomTrue = some sel
  valid : ∀ i ∈ sel, i < u.cart.length
  regular : u.lattice.det ≠ 0

/-- Number of the image with shift `m` among the images of one atom. -/
def boxIdx (n : Fin 3 → ℤ) (m : Fin 3 → ℕ) : ℕ := (m 0 * (n 1).toNat + m 1) * (n 2).toNat + m 2

/-- Number of images of one atom. -/
def numImages (n : Fin 3 → ℤ) : ℕ := (n 0 * n 1 * n 2).toNat

omit [LinearOrder K] [FloorRing K] [IsStrictOrderedRing K] in
theorem box_exists {n : Fin 3 → ℤ} (hpos : ∀ i, 0 < n i) {k : ℕ} (hk : k < numImages n) : ∃ m : Fin 3 → ℕ, (∀ i, (m i : ℤ) < n i) ∧ k = boxIdx n m := by
  obtain ⟨x, y, z, hx, hy, hz, e⟩ := box_index n hpos k hk
  exact ⟨![x, y, z], fun i => by fin_cases i <;> assumption, e⟩

omit [LinearOrder K] [FloorRing K] [IsStrictOrderedRing K] in
theorem boxIdx_lt {n : Fin 3 → ℤ} (hpos : ∀ i, 0 < n i) {m : Fin 3 → ℕ} (hm : ∀ i, (m i : ℤ) < n i) : boxIdx n m < numImages n := by
  have h0 := hpos 0
  have h1 := hpos 1
  have h2 := hpos 2
  have hp : 0 < n 0 * n 1 * n 2 := by positivity
  unfold boxIdx numImages
  zify
  rw [Int.toNat_of_nonneg hp.le, Int.toNat_of_nonneg h1.le, Int.toNat_of_nonneg h2.le]
  nlinarith [mul_pos h1 h2, mul_nonneg (sub_nonneg.mpr (Int.add_one_le_iff.mpr (hm 0))) (mul_pos h1 h2).le,
    mul_nonneg (sub_nonneg.mpr (Int.add_one_le_iff.mpr (hm 1))) h2.le, hm 2]

omit [LinearOrder K] [FloorRing K] [IsStrictOrderedRing K] in
private theorem selPos_eq {u : Cell K} {sel : List ℕ} (hsel : u.atomTrue = some sel) (p : Fin 3 → ℤ) {a i : ℕ} (ha : sel[a]? = some i) {v : V3 K}
    (hv : u.cart[i]? = some v) : selPos (inputOf u p) a = Matrix.vecMul v u.lattice⁻¹ := by
  unfold selPos Input.x inputOf
  simp only [hsel, Option.getD_some]
  rw [List.getD_eq_getElem?_getD (l := sel), ha, Option.getD_some, List.getD_eq_getElem?_getD, UnitCell.atomDirect, List.getElem?_map, hv]
  rfl

omit [LinearOrder K] [FloorRing K] [IsStrictOrderedRing K] in
/-- The selected atoms of the super cell: image `m` of the selected atom `a` has number `a·E + boxIdx n m`. -/
theorem super_selected [CharZero K] {u s : Cell K} {sel : List ℕ} {n p : Fin 3 → ℤ} (h : IsSuperOf u s sel n p) :
    (cellIn s).direct.length = sel.length * numImages n ∧ (cellIn s).lattice = superLattice u.lattice n ∧
    (∃ at' : List ℕ, s.atomTrue = some at' ∧ at'.length = sel.length * numImages n ∧ ∀ a k : ℕ, k < numImages n →
      at'[a * numImages n + k]? = sel[a]?.map (fun i => i * numImages n + k)) ∧
    ∀ a < sel.length, ∀ m : Fin 3 → ℕ, (∀ i, (m i : ℤ) < n i) →
      (cellIn s).direct.getD (a * numImages n + boxIdx n m) 0 = (fun i => (selPos (inputOf u p) a i + (m i : K)) / (n i : K)) ∧
      (cellIn s).types.getD (a * numImages n + boxIdx n m) [] = selTyp (inputOf u p) a := by
  obtain ⟨⟨junk, s0, hg, e1, e2⟩, hsel, hval, hdet⟩ := h
  have hn : ∀ i, (n i : K) ≠ 0 := fun i => by exact_mod_cast (hg.pos i).ne'
  obtain ⟨s0', e1', hlen, hposn⟩ := C06_supercell_positions hg
  rw [e1] at e1'; cases e1'
  obtain ⟨-, htl, htyp, -, -, hlat⟩ := C07_supercell_counts_types hg e1
  unfold setSuperIndTrue at e2
  simp only [hsel, enlarge_eq n p hg.cons] at e2
  cases e2
  set at' := sel.flatMap (fun i => (rangeInt (n 0 * n 1 * n 2)).map fun k => i * (n 0 * n 1 * n 2).toNat + k) with hat
  have hatlen : at'.length = sel.length * numImages n := by
    simp [hat, List.length_flatMap, rangeInt, numImages]
  have hatget : ∀ a k : ℕ, k < numImages n → at'[a * numImages n + k]? = sel[a]?.map (fun i => i * numImages n + k) := by
    intro a k hk
    rw [mul_comm a, hat, getElem?_flatMap_const _ (numImages n) _ (by intro i _; simp [rangeInt, numImages]) a k hk]
    cases sel[a]? with
    | none => rfl
    | some i =>
      rw [Option.bind_some, Option.map_some, List.getElem?_map, rangeInt, List.getElem?_range (show k < (n 0 * n 1 * n 2).toNat from hk)]
      rfl
  have hlat' : s0.lattice = superLattice u.lattice n := by
    funext i j; rw [hlat, superLattice]; ring
  refine ⟨by simp [cellIn, hatlen], hlat', ⟨at', rfl, hatlen, hatget⟩, ?_⟩
  intro a ha m hm
  have hk := boxIdx_lt hg.pos hm
  obtain ⟨i, hi⟩ : ∃ i, sel[a]? = some i := ⟨_, List.getElem?_eq_getElem ha⟩
  have hiv := hval i (List.mem_of_getElem? hi)
  obtain ⟨v, hv⟩ : ∃ v, u.cart[i]? = some v := ⟨_, List.getElem?_eq_getElem hiv⟩
  have hit : i < u.atomType.length := by rw [hg.types]; exact hiv
  obtain ⟨t, ht⟩ : ∃ t, u.atomType[i]? = some t := ⟨_, List.getElem?_eq_getElem hit⟩
  have hrow : at'[a * numImages n + boxIdx n m]? = some (i * numImages n + boxIdx n m) := by rw [hatget a _ hk, hi]; rfl
  constructor
  · have hc := hposn i v hv (m 0) (m 1) (m 2) (hm 0) (hm 1) (hm 2)
    have hcart : s0.cart[i * numImages n + boxIdx n m]? = some (translate u.lattice v (m 0) (m 1) (m 2)) := by
      rw [← hc]; congr 1; rw [numImages, boxIdx]; ring
    simp only [cellIn, Option.getD_some]
    rw [List.getD_eq_getElem?_getD, List.getElem?_map, hrow]
    simp only [Option.map_some, Option.getD_some]
    rw [List.getD_eq_getElem?_getD, UnitCell.atomDirect, List.getElem?_map, hcart]
    simp only [Option.map_some, Option.getD_some]
    rw [selPos_eq hsel p hi hv, hlat']
    have hS : IsUnit (superLattice u.lattice n).det := by
      have : superLattice u.lattice n = Matrix.diagonal (fun i => (n i : K)) * u.lattice := by
        ext i j; rw [Matrix.diagonal_mul, superLattice]; ring
      rw [this, Matrix.det_mul, Matrix.det_diagonal]
      exact (mul_ne_zero (Finset.prod_ne_zero_iff.2 fun i _ => hn i) hdet).isUnit
    have key : translate u.lattice v (m 0) (m 1) (m 2) =
        Matrix.vecMul (fun i => (Matrix.vecMul v u.lattice⁻¹ i + (m i : K)) / (n i : K)) (superLattice u.lattice n) := by
      have hv2 : Matrix.vecMul (Matrix.vecMul v u.lattice⁻¹) u.lattice = v := by
        rw [Matrix.vecMul_vecMul, Matrix.nonsing_inv_mul _ hdet.isUnit, Matrix.vecMul_one]
      funext j
      have h1 : Matrix.vecMul (fun i => (Matrix.vecMul v u.lattice⁻¹ i + (m i : K)) / (n i : K)) (superLattice u.lattice n) j =
          Matrix.vecMul (Matrix.vecMul v u.lattice⁻¹) u.lattice j + (m 0 * u.lattice 0 j + m 1 * u.lattice 1 j + m 2 * u.lattice 2 j) := by
        have hc : ∀ i, (Matrix.vecMul v u.lattice⁻¹ i + (m i : K)) / (n i : K) * (u.lattice i j * (n i : K)) =
            Matrix.vecMul v u.lattice⁻¹ i * u.lattice i j + m i * u.lattice i j := by
          intro i; field_simp [hn i]
        rw [show Matrix.vecMul (fun i => (Matrix.vecMul v u.lattice⁻¹ i + (m i : K)) / (n i : K)) (superLattice u.lattice n) j =
          ∑ i, (Matrix.vecMul v u.lattice⁻¹ i + (m i : K)) / (n i : K) * (u.lattice i j * (n i : K)) from rfl]
        rw [show Matrix.vecMul (Matrix.vecMul v u.lattice⁻¹) u.lattice j = ∑ i, Matrix.vecMul v u.lattice⁻¹ i * u.lattice i j from rfl]
        simp only [hc, Finset.sum_add_distrib, Fin.sum_univ_three]
      rw [h1, hv2, translate]
    rw [key, Matrix.vecMul_vecMul, Matrix.mul_nonsing_inv _ hS, Matrix.vecMul_one]
  · have h2 := htyp i (boxIdx n m) t hk ht
    simp only [cellIn, Option.getD_some]
    rw [List.getD_eq_getElem?_getD, List.getElem?_map, hrow]
    simp only [Option.map_some, Option.getD_some]
    rw [List.getD_eq_getElem?_getD, show i * numImages n + boxIdx n m = (n 0 * n 1 * n 2).toNat * i + boxIdx n m by rw [numImages]; ring, h2]
    unfold selTyp Input.typ inputOf
    simp only [hsel, Option.getD_some]
    rw [List.getD_eq_getElem?_getD (l := sel), hi, Option.getD_some, List.getD_eq_getElem?_getD, ht]
    rfl

/-- Position, in units of the lattice vectors of the *unit* cell, of the selected super-cell atom number `t`. -/
noncomputable def superPos (s : Cell K) (n : Fin 3 → ℤ) (t : ℕ) : V3 K := fun i => (n i : K) * (cellIn s).direct.getD t 0 i

/-- Two positions in units of the lattice vectors of the unit cell differ by a lattice vector of the super cell. -/
def SameSuper (n : Fin 3 → ℤ) (x y : V3 K) : Prop := ∃ m : Fin 3 → ℤ, ∀ i, x i = y i + (n i : K) * (m i : K)

/-- The operation maps the selected atoms of the unit cell exactly onto selected atoms of the same type. -/
def ExactMap (s : Input K) (i j : Fin 3) (W : Op) (w : V3 K) (same : List ℕ) : Prop := same.length = s.sel.length ∧
  ∀ a < s.sel.length, same.getD a 0 < s.sel.length ∧ selTyp s (same.getD a 0) = selTyp s a ∧ SameMod (applyOp i j W w (selPos s a)) (selPos s (same.getD a 0))

/-- The enlargement is compatible with the operation: equal along the axes that the operation mixes. -/
def EnlargeFit (n : Fin 3 → ℤ) (i j : Fin 3) (W : Op) : Prop := n i = n j ∨ (W.b = 0 ∧ W.c = 0)

omit [LinearOrder K] [FloorRing K] [IsStrictOrderedRing K] in
private theorem apply_fit {n : Fin 3 → ℤ} (hn : ∀ i, (n i : K) ≠ 0) {i j : Fin 3} (hij : i ≠ j) {W : Op} (hf : EnlargeFit n i j W) (x : V3 K) (r : Fin 3) :
    ((embed i j W : M3 K).mulVec (fun k => x k / (n k : K))) r = applyOp i j W 0 x r / (n r : K) := by
  have := embed_apply hij W 0 (fun k => x k / (n k : K)) r
  simp only [Pi.zero_apply, add_zero] at this
  rw [this]
  unfold applyOp
  simp only [Pi.zero_apply, add_zero]
  rcases hf with hf | ⟨hb, hc⟩
  · split_ifs with h1 h2
    · rw [h1, hf]; ring
    · rw [h2, hf]; ring
    · rfl
  · rw [hb, hc]
    split_ifs with h1 h2
    · rw [h1]; simp; ring
    · rw [h2]; simp; ring
    · rfl

omit [LinearOrder K] [FloorRing K] [IsStrictOrderedRing K] in
private theorem applyOp_lin (i j : Fin 3) (W : Op) (w x y : V3 K) (r : Fin 3) :
    applyOp i j W 0 (fun k => x k - y k) r = applyOp i j W w x r - applyOp i j W w y r := by
  unfold applyOp; simp only [Pi.zero_apply, add_zero]
  split_ifs <;> ring

/-- Integer image of an integer vector. -/
private def intOp (i j : Fin 3) (W : Op) (m : Fin 3 → ℤ) : Fin 3 → ℤ := fun r =>
  if r = i then W.a * m i + W.b * m j else if r = j then W.c * m i + W.d * m j else m r

omit [LinearOrder K] [FloorRing K] [IsStrictOrderedRing K] in
private theorem applyOp_int (i j : Fin 3) (W : Op) (m : Fin 3 → ℤ) (r : Fin 3) : applyOp i j W 0 (fun k => (m k : K)) r = ((intOp i j W m r : ℤ) : K) := by
  unfold applyOp intOp; simp only [Pi.zero_apply, add_zero]
  split_ifs <;> push_cast <;> rfl

private def embedZ (i j : Fin 3) (W : Op) : Matrix (Fin 3) (Fin 3) ℤ := fun r c =>
  if r = i ∧ c = i then W.a else if r = i ∧ c = j then W.b else if r = j ∧ c = i then W.c
  else if r = j ∧ c = j then W.d else if r = c then 1 else 0

omit [LinearOrder K] [FloorRing K] [IsStrictOrderedRing K] in
private theorem unimodular_embed {i j : Fin 3} (hij : i ≠ j) {W : Op} (hd : W.det = 1 ∨ W.det = -1) : Unimodular (embed i j W : M3 K) := by
  refine ⟨embedZ i j W, embedZ i j ⟨W.det * W.d, -(W.det * W.b), -(W.det * W.c), W.det * W.a⟩, ?_, ?_⟩
  · ext r c
    simp only [Matrix.map_apply, embed, embedZ]
    split_ifs <;> simp
  · have hdd : W.det * W.det = 1 := by rcases hd with h | h <;> rw [h] <;> norm_num
    have hdd' : W.det * (W.a * W.d - W.b * W.c) = 1 := hdd
    ext r c
    rw [Matrix.mul_apply, Fin.sum_univ_three]
    generalize W.det = D at *
    revert hij
    fin_cases i <;> fin_cases j <;> fin_cases r <;> fin_cases c <;> simp [embedZ] <;> first | linear_combination hdd' | ring

/-- Atoms of the super cell are apart if those of the unit cell are and the lattice is well conditioned. -/
theorem super_apart {u s : Cell K} {sel : List ℕ} {n p : Fin 3 → ℤ} (h : IsSuperOf u s sel n p) (hs : Apart (inputOf u p))
    (hL : WellConditioned u.lattice) : CellApart (cellIn s) := by
  obtain ⟨hlen, hlat, -, hpt⟩ := super_selected h
  obtain ⟨⟨junk, s0, hg, -, -⟩, hsel, -, -⟩ := h
  have hE : 0 < numImages n := by
    have h0 := hg.pos 0
    have h1 := hg.pos 1
    have h2 := hg.pos 2
    have hp : 0 < n 0 * n 1 * n 2 := by positivity
    unfold numImages; omega
  have hn : ∀ i, (n i : K) ≠ 0 := fun i => by exact_mod_cast (hg.pos i).ne'
  have split : ∀ t < (cellIn s).direct.length, ∃ a m, a < sel.length ∧ (∀ i, (m i : ℤ) < n i) ∧ t = a * numImages n + boxIdx n m := by
    intro t ht
    rw [hlen] at ht
    obtain ⟨m, hm, e⟩ := box_exists hg.pos (Nat.mod_lt t hE)
    exact ⟨t / numImages n, m, Nat.div_lt_of_lt_mul (by rw [mul_comm]; exact ht), hm, by rw [← e]; exact (Nat.div_add_mod' t _).symm⟩
  intro t ht u' hu' htyp hnear
  obtain ⟨a, m, ha, hm, rfl⟩ := split t ht
  obtain ⟨b, m', hb, hm', rfl⟩ := split u' hu'
  rw [(hpt a ha m hm).2, (hpt b hb m' hm').2] at htyp
  obtain ⟨k, hk⟩ := hnear
  rw [(hpt a ha m hm).1, (hpt b hb m' hm').1, hlat] at hk
  have conv : ∀ c, Matrix.vecMul (fun i => (selPos (inputOf u p) a i + (m i : K)) / (n i : K) - (selPos (inputOf u p) b i + (m' i : K)) / (n i : K) - (k i : K))
      (superLattice u.lattice n) c = Matrix.vecMul (fun i => selPos (inputOf u p) a i - selPos (inputOf u p) b i -
        ((n i * k i - m i + m' i : ℤ) : K)) u.lattice c := by
    intro c
    simp only [Matrix.vecMul, dotProduct]
    refine Finset.sum_congr rfl fun i _ => ?_
    simp only [superLattice]
    have := hn i
    push_cast
    field_simp
    ring
  simp only [conv] at hk
  have hab : a = b := hs a (by simpa [inputOf, hsel] using ha) b (by simpa [inputOf, hsel] using hb) htyp ⟨_, hk⟩
  subst hab
  simp only [sub_self, zero_sub] at hk
  have hsm : ∀ i, (n i * k i - m i + m' i : ℤ) = 0 := by
    intro i
    have hhalf : ∀ c, |Matrix.vecMul (fun i => -((n i * k i - m i + m' i : ℤ) : K) / 2) u.lattice c| ≤ 1 / 10 ^ 4 := by
      intro c
      have e : Matrix.vecMul (fun i => -((n i * k i - m i + m' i : ℤ) : K) / 2) u.lattice c =
          Matrix.vecMul (fun i => -((n i * k i - m i + m' i : ℤ) : K)) u.lattice c / 2 := by
        simp only [Matrix.vecMul, dotProduct, Fin.sum_univ_three]
        ring
      rw [e, abs_div, abs_two]
      have := hk c
      rw [div_le_iff₀ (by norm_num)]
      calc _ ≤ _ := this
        _ = _ := by ring
    have h1 := direct_small hL hhalf i
    rw [abs_div, abs_two, abs_neg, div_lt_div_iff_of_pos_right (by norm_num)] at h1
    have h2 : |(n i * k i - m i + m' i : ℤ)| < 1 := by exact_mod_cast h1
    exact Int.abs_lt_one_iff.1 h2
  have hmm : m = m' := by
    funext i
    have e := hsm i
    have h1 := hm i
    have h2 := hm' i
    have hk0 : k i = 0 := by
      by_contra hne
      have hp := hg.pos i
      rcases lt_or_gt_of_ne hne with h | h
      · nlinarith
      · nlinarith
    rw [hk0] at e
    omega
  rw [hmm]

/-- **C85**, for enlargements that fit the operation (`EnlargeFit`): let the operation map the selected atoms of the unit cell exactly onto selected atoms
(`same`).  Then in the super cell one image table is recorded for every selected atom `a`; each is a permutation of the selected super-cell
atoms, takes the home image of `a` to the home image of `same[a]`, keeps the types, and is the operation `x ↦ W x + τ` on the positions, up to
lattice vectors of the super cell.  (Missing: see `C85_enlargement_refuted`.) -/
theorem C85_supercell_partial {u s : Cell K} {sel : List ℕ} {n p : Fin 3 → ℤ} (h : IsSuperOf u s sel n p) (hs : Apart (inputOf u p))
    (hL : WellConditioned u.lattice) (hne : sel ≠ []) {i j : Fin 3} (hij : i ≠ j) {W : Op} (hd : W.det = 1 ∨ W.det = -1) (hf : EnlargeFit n i j W)
    {w : V3 K} {same : List ℕ} (hex : ExactMap (inputOf u p) i j W w same) :
    (cellImages (cellIn s) (numImages n) (embed i j W) same).length = sel.length ∧
    ∀ a < sel.length, ∃ tab τ, (cellImages (cellIn s) (numImages n) (embed i j W) same)[a]? = some tab ∧
      tab.Perm (List.range (sel.length * numImages n)) ∧ tab.getD (a * numImages n) 0 = same.getD a 0 * numImages n ∧
      ∀ t < sel.length * numImages n, (cellIn s).types.getD (tab.getD t 0) [] = (cellIn s).types.getD t [] ∧
        SameSuper n (applyOp i j W τ (superPos s n t)) (superPos s n (tab.getD t 0)) := by
  have hap := super_apart h hs hL
  obtain ⟨hlen, hlat, -, hpt⟩ := super_selected h
  obtain ⟨⟨junk, s0, hg, -, -⟩, hsel, -, -⟩ := h
  have hselI : (inputOf u p).sel = sel := by simp [inputOf, hsel]
  unfold ExactMap at hex
  rw [hselI] at hex
  obtain ⟨hsl, hex⟩ := hex
  have hE : 0 < numImages n := by
    have h0 := hg.pos 0
    have h1 := hg.pos 1
    have h2 := hg.pos 2
    have hp : 0 < n 0 * n 1 * n 2 := by positivity
    unfold numImages; omega
  have hn : ∀ i, (n i : K) ≠ 0 := fun i => by exact_mod_cast (hg.pos i).ne'
  have hpos : 0 < (cellIn s).direct.length := by
    rw [hlen]; exact Nat.mul_pos (List.length_pos_of_ne_nil hne) hE
  have split : ∀ t < (cellIn s).direct.length, ∃ b m, b < sel.length ∧ (∀ i, (m i : ℤ) < n i) ∧ t = b * numImages n + boxIdx n m := by
    intro t ht
    rw [hlen] at ht
    obtain ⟨m, hm, e⟩ := box_exists hg.pos (Nat.mod_lt t hE)
    exact ⟨t / numImages n, m, Nat.div_lt_of_lt_mul (by rw [mul_comm]; exact ht), hm, by rw [← e]; exact (Nat.div_add_mod' t _).symm⟩
  have home : ∀ a < sel.length, (cellIn s).direct.getD (a * numImages n) 0 = fun i => selPos (inputOf u p) a i / (n i : K) := by
    intro a ha
    have := (hpt a ha (fun _ => 0) (fun i => by exact_mod_cast hg.pos i)).1
    simpa [boxIdx] using this
  -- the image of every atom
  have himg : ∀ a t : ℕ, ∃ v : ℕ, a < sel.length → t < (cellIn s).direct.length → v < (cellIn s).direct.length ∧
      (cellIn s).types.getD v [] = (cellIn s).types.getD t [] ∧
      SameMod (imageAbout (embed i j W) ((cellIn s).direct.getD (a * numImages n) 0) ((cellIn s).direct.getD (same.getD a 0 * numImages n) 0)
        ((cellIn s).direct.getD t 0)) ((cellIn s).direct.getD v 0) := by
    intro a t
    by_cases ha : a < sel.length
    swap
    · exact ⟨0, fun h => absurd h ha⟩
    by_cases ht : t < (cellIn s).direct.length
    swap
    · exact ⟨0, fun _ h => absurd h ht⟩
    obtain ⟨b, m, hb, hm, rfl⟩ := split t ht
    obtain ⟨a1, a2, Ma, a3⟩ := hex a ha
    obtain ⟨b1, b2, Mb, b3⟩ := hex b hb
    set z : Fin 3 → ℤ := fun r => Mb r - Ma r + intOp i j W (fun k => (m k : ℤ)) r with hz
    set m' : Fin 3 → ℕ := fun r => (z r % n r).toNat with hm'
    have hm'0 : ∀ r, ((m' r : ℕ) : ℤ) = z r % n r := fun r => Int.toNat_of_nonneg (Int.emod_nonneg _ (hg.pos r).ne')
    have hm'lt : ∀ r, ((m' r : ℕ) : ℤ) < n r := fun r => by rw [hm'0]; exact Int.emod_lt_of_pos _ (hg.pos r)
    refine ⟨same.getD b 0 * numImages n + boxIdx n m', fun _ _ => ⟨?_, ?_, ?_⟩⟩
    · rw [hlen]
      have := boxIdx_lt hg.pos hm'lt
      calc same.getD b 0 * numImages n + boxIdx n m' < same.getD b 0 * numImages n + numImages n := by omega
        _ = (same.getD b 0 + 1) * numImages n := by ring
        _ ≤ sel.length * numImages n := Nat.mul_le_mul_right _ b1
    · rw [(hpt _ b1 m' hm'lt).2, (hpt b hb m hm).2, b2]
    · refine ⟨fun r => z r / n r, fun r => ?_⟩
      rw [home a ha, home _ a1, (hpt b hb m hm).1, (hpt _ b1 m' hm'lt).1]
      unfold imageAbout
      have hdiff : (fun y => (selPos (inputOf u p) b y + (m y : K)) / (n y : K) - selPos (inputOf u p) a y / (n y : K)) =
          fun y => (selPos (inputOf u p) b y + (m y : K) - selPos (inputOf u p) a y) / (n y : K) := by
        funext y; ring
      simp only [hdiff]
      rw [apply_fit hn hij hf (fun y => selPos (inputOf u p) b y + (m y : K) - selPos (inputOf u p) a y) r]
      have e1 : applyOp i j W 0 (fun y => selPos (inputOf u p) b y + (m y : K) - selPos (inputOf u p) a y) r =
          applyOp i j W w (selPos (inputOf u p) b) r - applyOp i j W w (selPos (inputOf u p) a) r + ((intOp i j W (fun k => (m k : ℤ)) r : ℤ) : K) := by
        rw [← applyOp_int]
        unfold applyOp
        simp only [Pi.zero_apply, add_zero]
        split_ifs <;> push_cast <;> ring
      rw [e1, a3 r, b3 r]
      have hmod : (z r : ℤ) = n r * (z r / n r) + m' r := by
        rw [hm'0]; exact (Int.mul_ediv_add_emod (z r) (n r)).symm
      have hmodK : ((Mb r - Ma r + intOp i j W (fun k => (m k : ℤ)) r : ℤ) : K) = (n r : K) * ((z r / n r : ℤ) : K) + ((m' r : ℕ) : K) := by
        have := congrArg (fun q : ℤ => (q : K)) hmod
        push_cast at this
        rw [← this]
      push_cast at hmodK
      have := hn r
      field_simp
      linear_combination hmodK
  choose img himg using himg
  have hgetD : ∀ a i' : ℕ, same[a]? = some i' → a < sel.length ∧ same.getD a 0 = i' := by
    intro a i' e
    refine ⟨?_, by rw [List.getD_eq_getElem?_getD, e]; rfl⟩
    rw [← hsl]
    exact (List.getElem?_eq_some_iff.1 e).1
  obtain ⟨t1, t2⟩ := C85_all_tables (cellIn s) hap hpos (numImages n) (embed i j W) (unimodular_embed hij hd) same img (by
    intro a i' e t ht
    obtain ⟨ha, hi⟩ := hgetD a i' e
    have := himg a t ha ht
    rw [hi] at this
    exact this)
  rw [t1, hsl]
  refine ⟨by simp, fun a ha => ?_⟩
  have hget : ∀ t < sel.length * numImages n, ((List.range (cellIn s).direct.length).map (img a)).getD t 0 = img a t := by
    intro t ht
    rw [List.getD_eq_getElem?_getD, List.getElem?_map, List.getElem?_range (by rw [hlen]; exact ht)]; rfl
  -- the translation of the table of `a`
  refine ⟨(List.range (cellIn s).direct.length).map (img a), fun r => selPos (inputOf u p) (same.getD a 0) r - applyOp i j W 0 (selPos (inputOf u p) a) r,
    ?_, ?_, ?_, ?_⟩
  · rw [List.getElem?_map, List.getElem?_range ha]; rfl
  · rw [← hlen]; exact t2 a (by rw [hsl]; exact ha)
  · have ht : a * numImages n < sel.length * numImages n := Nat.mul_lt_mul_of_pos_right ha hE
    rw [hget _ ht]
    obtain ⟨v1, v2, m, v3⟩ := himg a (a * numImages n) ha (by rw [hlen]; exact ht)
    have hs1 := (hex a ha).1
    have ht' : same.getD a 0 * numImages n < (cellIn s).direct.length := by rw [hlen]; exact Nat.mul_lt_mul_of_pos_right hs1 hE
    have htyp : ∀ b < sel.length, (cellIn s).types.getD (b * numImages n) [] = selTyp (inputOf u p) b := by
      intro b hb
      have := (hpt b hb (fun _ => 0) (fun i => by exact_mod_cast hg.pos i)).2
      simpa [boxIdx] using this
    refine hap _ v1 _ ht' ?_ ⟨fun r => -m r, fun c => ?_⟩
    · rw [v2, htyp a ha, htyp _ hs1, (hex a ha).2.1]
    · have hz : (fun k => (cellIn s).direct.getD (img a (a * numImages n)) 0 k - (cellIn s).direct.getD (same.getD a 0 * numImages n) 0 k - ((-m k : ℤ) : K)) = 0 := by
        funext k
        have := v3 k
        unfold imageAbout at this
        have h0 : (fun y => (cellIn s).direct.getD (a * numImages n) 0 y - (cellIn s).direct.getD (a * numImages n) 0 y) = 0 := by funext y; simp
        rw [h0, Matrix.mulVec_zero] at this
        push_cast
        simp only [Pi.zero_apply, add_zero] at this ⊢
        linear_combination -this
      rw [hz, Matrix.zero_vecMul]; simp; positivity
  · intro t ht
    rw [hget t ht]
    obtain ⟨-, v2, m, v3⟩ := himg a t ha (by rw [hlen]; exact ht)
    refine ⟨v2, m, fun r => ?_⟩
    have := v3 r
    have hnr := hn r
    have hx : (fun y => (cellIn s).direct.getD t 0 y - (cellIn s).direct.getD (a * numImages n) 0 y) =
        fun y => (superPos s n t y - selPos (inputOf u p) a y) / (n y : K) := by
      funext y
      rw [home a ha]; unfold superPos
      have := hn y
      field_simp
    unfold imageAbout at this
    rw [hx, apply_fit hn hij hf (fun y => superPos s n t y - selPos (inputOf u p) a y) r, home _ (hex a ha).1,
      applyOp_lin i j W 0 (superPos s n t) (selPos (inputOf u p) a)] at this
    have e2 : applyOp i j W (fun r => selPos (inputOf u p) (same.getD a 0) r - applyOp i j W 0 (selPos (inputOf u p) a) r) (superPos s n t) r =
        applyOp i j W 0 (superPos s n t) r + (selPos (inputOf u p) (same.getD a 0) r - applyOp i j W 0 (selPos (inputOf u p) a) r) := by
      unfold applyOp; simp
    rw [e2]
    show _ = (n r : K) * (cellIn s).direct.getD (img a t) 0 r + _
    have h3 := congrArg (fun q => (n r : K) * q) this
    simp only at h3
    rw [mul_add, mul_add, mul_div_cancel₀ _ hnr, mul_div_cancel₀ _ hnr] at h3
    linear_combination h3

end
/-- One atom in a square cell, all selected. -/
def squareCell : Cell ℚ where
  lattice := !![3, 0, 0; 0, 3, 0; 0, 0, 20]
  atomType := ["A".toList]
  numAtom := [1]
  selective := true
  coordinate := .direct
  cart := [![0, 0, 0]]
  atomTrue := some [0]
  xyzTrue := some [0, 0, 0]

open Interphon.SuperCell Interphon.SymPlan in
private theorem square_super (n : Fin 3 → ℤ) (hpos : ∀ i, 0 < n i) (h2 : n 2 = 1) : ∃ s, IsSuperOf squareCell s [0] n ![1, 1, 0] := by
  have hg : GoodCall (fun m => List.replicate m (0 : V3 ℚ)) squareCell n ![1, 1, 0] :=
    ⟨fun m => by simp, rfl, hpos, fun i hi => by
      fin_cases i
      · simp at hi
      · simp at hi
      · exact h2⟩
  obtain ⟨s0, e, -⟩ := C06_supercell_positions hg
  exact ⟨_, ⟨_, s0, hg, e, rfl⟩, rfl, by simp [squareCell], by simp [squareCell, Matrix.det_fin_three]⟩

open Interphon.SymPlan in
private theorem square_pos (a : ℕ) : selPos (inputOf squareCell ![1, 1, 0]) a = 0 := by
  have hx : ∀ k, (inputOf squareCell ![1, 1, 0]).x k = 0 := by
    intro k
    unfold Input.x inputOf UnitCell.atomDirect
    cases k with
    | zero =>
      have : (![0, 0, 0] : V3 ℚ) = 0 := by funext r; fin_cases r <;> rfl
      simp [squareCell, this]
    | succ k => simp [squareCell]
  exact hx _

open Interphon.SymPlan in
private theorem square_exact (W : Op) : ExactMap (inputOf squareCell ![1, 1, 0]) 0 1 W 0 [0] := by
  refine ⟨rfl, fun a ha => ?_⟩
  have ha' : a < 1 := ha
  obtain rfl : a = 0 := by omega
  refine ⟨by decide, rfl, 0, fun r => ?_⟩
  rw [square_pos, square_pos]
  fin_cases r <;> simp [applyOp]

open Interphon.SymPlan in
private theorem square_apart : Apart (inputOf squareCell ![1, 1, 0]) := by
  intro t ht u hu _ _
  have h1 : t < 1 := ht
  have h2 : u < 1 := hu
  omega

private theorem square_cond : WellConditioned squareCell.lattice := by
  refine ⟨!![1 / 3, 0, 0; 0, 1 / 3, 0; 0, 0, 1 / 20], ?_, fun k => ?_⟩
  · ext r c
    fin_cases r <;> fin_cases c <;> simp [squareCell, Matrix.mul_apply, Fin.sum_univ_three]
  · fin_cases k <;> simp [Fin.sum_univ_three] <;> norm_num

/-- The hypotheses of C85 for the rotation of order 4 and enlargement 2 2 1. -/
example : ∃ s, IsSuperOf squareCell s [0] ![2, 2, 1] ![1, 1, 0] ∧ Apart (SymPlan.inputOf squareCell ![1, 1, 0]) ∧ WellConditioned squareCell.lattice ∧
    EnlargeFit ![2, 2, 1] 0 1 ⟨0, -1, 1, 0⟩ ∧ ExactMap (SymPlan.inputOf squareCell ![1, 1, 0]) 0 1 ⟨0, -1, 1, 0⟩ 0 [0] := by
  obtain ⟨s, hs⟩ := square_super ![2, 2, 1] (fun i => by fin_cases i <;> simp) rfl
  exact ⟨s, hs, square_apart, square_cond, Or.inl rfl, square_exact _⟩

open Interphon.SymPlan in
/-- **C85 is false of the code** when the enlargement does not fit the operation: with enlargement 2 1 1 of a square cell no image table at all is
recorded for the rotation of order 4, an exact symmetry of the unit cell (the post-process then indexes an empty list). -/
theorem C85_enlargement_refuted : ∃ s, IsSuperOf squareCell s [0] ![2, 1, 1] ![1, 1, 0] ∧
    ExactMap (inputOf squareCell ![1, 1, 0]) 0 1 ⟨0, -1, 1, 0⟩ 0 [0] ∧ (⟨0, -1, 1, 0⟩ : Op) ∈ candidates ∧
    cellImages (cellIn s) (numImages ![2, 1, 1]) (embed 0 1 ⟨0, -1, 1, 0⟩) [0] = [] := by
  obtain ⟨s, hs⟩ := square_super ![2, 1, 1] (fun i => by fin_cases i <;> simp) rfl
  refine ⟨s, hs, square_exact _, by decide, ?_⟩
  have hap := super_apart hs square_apart square_cond
  obtain ⟨hlen, hlat, -, hpt⟩ := super_selected hs
  have hE : numImages ![2, 1, 1] = 2 := by decide
  rw [hE]
  have hN : (cellIn s).direct.length = 2 := hlen
  have p0 : (cellIn s).direct.getD 0 0 = ![0, 0, 0] := by
    have := (hpt 0 (by decide) ![0, 0, 0] (by decide)).1
    rw [square_pos] at this
    rw [show 0 * numImages ![2, 1, 1] + boxIdx ![2, 1, 1] ![0, 0, 0] = 0 by decide] at this
    rw [this]
    funext r; fin_cases r <;> simp
  have p1 : (cellIn s).direct.getD 1 0 = ![1 / 2, 0, 0] := by
    have := (hpt 0 (by decide) ![1, 0, 0] (by decide)).1
    rw [square_pos] at this
    rw [show 0 * numImages ![2, 1, 1] + boxIdx ![2, 1, 1] ![1, 0, 0] = 1 by decide] at this
    rw [this]
    funext r; fin_cases r <;> simp
  rw [List.eq_nil_iff_forall_not_mem]
  intro tab htab
  obtain ⟨a, img, e, -, h⟩ := C85_recorded_tables (cellIn s) hap 2 _ _ tab htab
  have ha : a = 0 := by
    have := (List.getElem?_eq_some_iff.1 e).1
    simp at this; exact this
  subst ha
  have hi : img = 0 := by simp at e; exact e.symm
  subst hi
  obtain ⟨h1, -, m, h3⟩ := h 1 (by rw [hN]; norm_num)
  rw [hN] at h1
  have hy : ∀ u < 2, (cellIn s).direct.getD u 0 1 = 0 := by
    intro u hu
    interval_cases u
    · rw [p0]; rfl
    · rw [p1]; rfl
  have h4 := h3 1
  rw [hlat] at h4
  have e4 : Matrix.vecMul (fun k => imageAbout (embed 0 1 ⟨0, -1, 1, 0⟩ : M3 ℚ) ((cellIn s).direct.getD (0 * 2) 0) ((cellIn s).direct.getD (0 * 2) 0)
      ((cellIn s).direct.getD 1 0) k - (cellIn s).direct.getD (tab.getD 1 0) 0 k - (m k : ℚ)) (SuperCell.superLattice squareCell.lattice ![2, 1, 1]) 1 =
      3 * (1 / 2 - (m 1 : ℚ)) := by
    have hy1 := hy _ h1
    simp only [Matrix.vecMul, dotProduct, Fin.sum_univ_three, Nat.zero_mul, p0, p1, imageAbout, hy1, SuperCell.superLattice]
    simp [squareCell, embed, Matrix.mulVec, dotProduct, Fin.sum_univ_three]
    ring
  rw [e4] at h4
  obtain ⟨b1, b2⟩ := abs_le.1 h4
  have a1 : (0 : ℚ) < m 1 := by linarith
  have a2 : (m 1 : ℚ) < 1 := by linarith
  have a1' : (0 : ℤ) < m 1 := by exact_mod_cast a1
  have a2' : m 1 < 1 := by exact_mod_cast a2
  omega

end Interphon.Props
