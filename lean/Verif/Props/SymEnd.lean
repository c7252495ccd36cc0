import Verif.Props.SymDisp
import Verif.Props.CellImages
import Verif.Props.ForceConstant

/-!
# Symmetry reduction end to end: C86
-/

namespace Interphon.Props
open Py Interphon Interphon.Symmetry Interphon.SymDisp Interphon.SymPlan Interphon.SuperCell Interphon.ForceConstant Interphon.PreProcess
noncomputable section

/-! ### Specification -/

/-- Row, position and type of the selected super-cell atom number `t`. -/
def superRow (s : Cell ℝ) (t : ℕ) : ℕ := (s.atomTrue.getD []).getD t 0
/-- Cartesian position. -/
def superCart (s : Cell ℝ) (t : ℕ) : V3 ℝ := s.cart.getD (superRow s t) 0
/-- Type. -/
def superType (s : Cell ℝ) (t : ℕ) : Str := s.atomType.getD (superRow s t) []
/-- Number of selected super-cell atoms. -/
def superN (s : Cell ℝ) : ℕ := (s.atomTrue.getD []).length

/-- The isometry `x ↦ Q x + τ` is a symmetry of the periodic arrangement of the selected super-cell atoms: its linear part maps lattice vectors of
the super cell to lattice vectors, and it maps the selected super-cell atoms one to one to selected super-cell atoms of the same type, `t` to `σ t`, up to
lattice vectors of the super cell. -/
def IsSymmetry (s : Cell ℝ) (Q : M3 ℝ) (τ : V3 ℝ) (σ : ℕ → ℕ) : Prop := Q.transpose * Q = 1 ∧
  (∀ m : Fin 3 → ℤ, ∃ m' : Fin 3 → ℤ, Q.mulVec (Matrix.vecMul (fun i => (m i : ℝ)) s.lattice) = Matrix.vecMul (fun i => (m' i : ℝ)) s.lattice) ∧
  (∀ t < superN s, ∀ t' < superN s, σ t = σ t' → t = t') ∧
  ∀ t < superN s, σ t < superN s ∧ superType s (σ t) = superType s t ∧
    ∃ m : Fin 3 → ℤ, Q.mulVec (superCart s t) + τ = superCart s (σ t) + Matrix.vecMul (fun i => (m i : ℝ)) s.lattice

/-- The 3×3 block of the force constants of rows `r`, `r'`. -/
def blk (Φ : ℕ → Fin 3 → ℕ → Fin 3 → ℝ) (r r' : ℕ) : M3 ℝ := fun x y => Φ r x r' y

/-- The force constants have every symmetry of the super cell. -/
def Symmetric (s : Cell ℝ) (Φ : ℕ → Fin 3 → ℕ → Fin 3 → ℝ) : Prop := ∀ Q τ σ, IsSymmetry s Q τ σ → ∀ t < superN s, ∀ t' < superN s,
  blk Φ (superRow s (σ t)) (superRow s (σ t')) * Q = Q * blk Φ (superRow s t) (superRow s t')

/-- First recorded images of a recorded operation, `same_index_select[k][0]`. -/
def firstImages (r : Recorded ℝ) : List ℕ := (r.2.map Prod.snd).headD []

/-- The recorded images compose like the operations. -/
def ImagesCompose (u : Cell ℝ) (sel : List ℕ) : Prop := ∀ r1 ∈ recorded (inputOf u ![1, 1, 0]) 0 1 2, ∀ r2 ∈ recorded (inputOf u ![1, 1, 0]) 0 1 2,
  ∀ r ∈ recorded (inputOf u ![1, 1, 0]) 0 1 2, r.1 = SymDisp.comp r1.1 r2.1 →
    ∀ a < sel.length, (firstImages r).getD a 0 = (firstImages r1).getD ((firstImages r2).getD a 0) 0

/-- A crystal whose recorded symmetry is exact: a slab cell with periodicity 1 1 0 in a well-conditioned lattice, atoms apart, every recorded
operation is an exact symmetry that fits the edges and the enlargement, the recorded operations form a group, and the recorded images compose like the
operations (true of primitive cells, `images_of_primitive`, and of operations about the origin). -/
structure ExactCrystal (u s : Cell ℝ) (sel : List ℕ) (n : Fin 3 → ℤ) : Prop where
  super : IsSuperOf u s sel n ![1, 1, 0]
  nodup : sel.Nodup
  nonempty : sel ≠ []
  apart : Apart (inputOf u ![1, 1, 0])
  cond : WellConditioned u.lattice
  slab : Slab u.lattice 0 1 2
  found : ∃ ops name, searchPointGroup (inputOf u ![1, 1, 0]) = .ok (ops, name)
  exactOps : ∀ r ∈ recorded (inputOf u ![1, 1, 0]) 0 1 2, GoodOp u.lattice r.1 ∧ EnlargeFit n 0 1 r.1 ∧
    ∃ w, ExactMap (inputOf u ![1, 1, 0]) 0 1 r.1 w (firstImages r)
  one : SymDisp.one ∈ (recorded (inputOf u ![1, 1, 0]) 0 1 2).map Prod.fst
  closed : ∀ V ∈ (recorded (inputOf u ![1, 1, 0]) 0 1 2).map Prod.fst, ∀ W ∈ (recorded (inputOf u ![1, 1, 0]) 0 1 2).map Prod.fst,
    SymDisp.comp V W ∈ (recorded (inputOf u ![1, 1, 0]) 0 1 2).map Prod.fst
  images : ImagesCompose u sel

/-! ### Operations on positions -/

private theorem sameMod_trans {x y z : V3 ℝ} (h1 : SameMod x y) (h2 : SameMod y z) : SameMod x z := by
  obtain ⟨m, hm⟩ := h1
  obtain ⟨k, hk⟩ := h2
  exact ⟨fun r => k r + m r, fun r => by rw [hm, hk]; push_cast; ring⟩

private theorem sameMod_symm {x y : V3 ℝ} (h : SameMod x y) : SameMod y x := by
  obtain ⟨m, hm⟩ := h
  exact ⟨fun r => -m r, fun r => by rw [hm]; push_cast; ring⟩

private theorem sameMod_apply {x y : V3 ℝ} (W : Op) (w : V3 ℝ) (h : SameMod x y) : SameMod (applyOp 0 1 W w x) (applyOp 0 1 W w y) := by
  obtain ⟨m, hm⟩ := h
  refine ⟨![W.a * m 0 + W.b * m 1, W.c * m 0 + W.d * m 1, m 2], fun r => ?_⟩
  unfold applyOp
  fin_cases r <;> simp [hm] <;> ring

private def invOp (W : Op) : Op := ⟨W.det * W.d, -(W.det * W.b), -(W.det * W.c), W.det * W.a⟩

private theorem invOp_apply {W : Op} (hd : W.det = 1 ∨ W.det = -1) (w x : V3 ℝ) :
    applyOp 0 1 (invOp W) (fun r => -applyOp 0 1 (invOp W) 0 w r) (applyOp 0 1 W w x) = x := by
  have hdd : (W.det : ℝ) * (W.a * W.d - W.b * W.c) = 1 := by
    have : W.det * W.det = 1 := by rcases hd with h | h <;> rw [h] <;> norm_num
    have h2 : W.det * (W.a * W.d - W.b * W.c) = 1 := this
    exact_mod_cast h2
  funext r
  unfold applyOp invOp
  fin_cases r
  · simp; linear_combination x 0 * hdd
  · simp; linear_combination x 1 * hdd
  · simp

private theorem sameMod_cancel {W : Op} (hd : W.det = 1 ∨ W.det = -1) {w x y : V3 ℝ} (h : SameMod (applyOp 0 1 W w x) (applyOp 0 1 W w y)) : SameMod x y := by
  have := sameMod_apply (invOp W) (fun r => -applyOp 0 1 (invOp W) 0 w r) h
  rwa [invOp_apply hd, invOp_apply hd] at this

private theorem apply_comp (V W : Op) (v w x : V3 ℝ) :
    applyOp 0 1 (SymDisp.comp V W) (applyOp 0 1 V v w) x = applyOp 0 1 V v (applyOp 0 1 W w x) := by
  funext r
  unfold applyOp SymDisp.comp
  fin_cases r <;> simp <;> ring

private theorem nearMod_of_sameMod {L : M3 ℝ} {x y : V3 ℝ} {tol : ℝ} (h0 : 0 ≤ tol) (h : SameMod x y) : NearMod tol L (fun c => x c - y c) := by
  obtain ⟨m, hm⟩ := h
  refine ⟨m, fun c => ?_⟩
  have : (fun k => x k - y k - (m k : ℝ)) = 0 := by funext k; rw [hm]; simp
  rw [this, Matrix.zero_vecMul]; simpa using h0

private theorem exact_inj {inp : Input ℝ} (ha : Apart inp) {W : Op} (hd : W.det = 1 ∨ W.det = -1) {w : V3 ℝ} {same : List ℕ} (h : ExactMap inp 0 1 W w same) :
    ∀ a < inp.sel.length, ∀ b < inp.sel.length, same.getD a 0 = same.getD b 0 → a = b := by
  intro a h1 b h2 e
  obtain ⟨-, a2, a3⟩ := h.2 a h1
  obtain ⟨-, b2, b3⟩ := h.2 b h2
  refine ha a h1 b h2 (a2.symm.trans (by rw [e, b2])) (nearMod_of_sameMod (by norm_num) (sameMod_cancel (W := W) hd (w := w) (sameMod_trans a3 ?_)))
  rw [e]; exact sameMod_symm b3

private theorem exact_surj {inp : Input ℝ} (ha : Apart inp) {W : Op} (hd : W.det = 1 ∨ W.det = -1) {w : V3 ℝ} {same : List ℕ} (h : ExactMap inp 0 1 W w same) :
    ∀ b < inp.sel.length, ∃ a < inp.sel.length, same.getD a 0 = b := by
  have hnd : ((List.range inp.sel.length).map fun a => same.getD a 0).Nodup := by
    refine List.Nodup.map_on ?_ List.nodup_range
    intro t ht u hu e
    exact exact_inj ha hd h t (List.mem_range.1 ht) u (List.mem_range.1 hu) e
  have hp : ((List.range inp.sel.length).map fun a => same.getD a 0).Perm (List.range inp.sel.length) := by
    refine (List.subperm_of_subset hnd ?_).perm_of_length_le (by simp)
    intro x hx
    obtain ⟨t, ht, rfl⟩ := List.mem_map.1 hx
    exact List.mem_range.2 (h.2 t (List.mem_range.1 ht)).1
  intro b hb
  have : b ∈ (List.range inp.sel.length).map fun a => same.getD a 0 := hp.mem_iff.2 (List.mem_range.2 hb)
  obtain ⟨a, h1, h2⟩ := List.mem_map.1 this
  exact ⟨a, List.mem_range.1 h1, h2⟩

/-- In a primitive cell two exact maps with the same rotation part have the same images. -/
private theorem images_unique {inp : Input ℝ} (ha : Apart inp)
    (hprim : ∀ τ same, ExactMap inp 0 1 SymDisp.one τ same → same = List.range inp.sel.length) {W : Op} (hd : W.det = 1 ∨ W.det = -1)
    {w w' : V3 ℝ} {same same' : List ℕ} (h : ExactMap inp 0 1 W w same) (h' : ExactMap inp 0 1 W w' same') :
    ∀ a < inp.sel.length, same.getD a 0 = same'.getD a 0 := by
  have hsurj := exact_surj ha hd h
  have hex : ∀ b : ℕ, ∃ a : ℕ, b < inp.sel.length → a < inp.sel.length ∧ same.getD a 0 = b := by
    intro b
    by_cases hb : b < inp.sel.length
    · obtain ⟨a, h1, h2⟩ := hsurj b hb
      exact ⟨a, fun _ => ⟨h1, h2⟩⟩
    · exact ⟨0, fun h => absurd h hb⟩
  choose inv hinv using hex
  have hgetD : ∀ b < inp.sel.length, ((List.range inp.sel.length).map fun b => same'.getD (inv b) 0).getD b 0 = same'.getD (inv b) 0 := by
    intro b hb
    rw [List.getD_eq_getElem?_getD, List.getElem?_map, List.getElem?_range hb]; rfl
  have := hprim (fun r => w' r - w r) ((List.range inp.sel.length).map fun b => same'.getD (inv b) 0) ⟨by simp, fun b hb => by
    obtain ⟨i1, i2⟩ := hinv b hb
    rw [hgetD b hb]
    obtain ⟨p1, p2, p3⟩ := h'.2 (inv b) i1
    obtain ⟨q1, q2, q3⟩ := h.2 (inv b) i1
    rw [i2] at q2 q3
    refine ⟨p1, p2.trans q2.symm, ?_⟩
    obtain ⟨m, hm⟩ := q3
    obtain ⟨m', hm'⟩ := p3
    refine ⟨fun r => m' r - m r, fun r => ?_⟩
    have e1 := hm r
    have e2 := hm' r
    have e3 : applyOp 0 1 W w' (selPos inp (inv b)) r = applyOp 0 1 W w (selPos inp (inv b)) r + (w' r - w r) := by unfold applyOp; ring
    have e4 : applyOp 0 1 SymDisp.one (fun r => w' r - w r) (selPos inp b) r = selPos inp b r + (w' r - w r) := by
      unfold applyOp SymDisp.one
      fin_cases r <;> simp
    rw [e4]; push_cast
    linear_combination e2 - e1 - e3⟩
  intro a hal
  obtain ⟨h1, -, -⟩ := h.2 a hal
  have e := congrArg (fun l : List ℕ => l.getD (same.getD a 0) 0) this
  simp only [hgetD _ h1] at e
  rw [List.getD_eq_getElem?_getD (l := List.range _), List.getElem?_range h1, Option.getD_some] at e
  obtain ⟨i1, i2⟩ := hinv _ h1
  rw [exact_inj ha hd h _ i1 a hal i2] at e
  exact e.symm

private theorem exact_comp {inp : Input ℝ} {V W : Op} {v w : V3 ℝ} {sv sw : List ℕ} (hv : ExactMap inp 0 1 V v sv) (hw : ExactMap inp 0 1 W w sw) :
    ExactMap inp 0 1 (SymDisp.comp V W) (applyOp 0 1 V v w) ((List.range inp.sel.length).map fun a => sv.getD (sw.getD a 0) 0) := by
  refine ⟨by simp, fun a ha => ?_⟩
  rw [List.getD_eq_getElem?_getD, List.getElem?_map, List.getElem?_range ha]
  obtain ⟨a1, a2, a3⟩ := hw.2 a ha
  obtain ⟨b1, b2, b3⟩ := hv.2 _ a1
  refine ⟨b1, b2.trans a2, ?_⟩
  rw [apply_comp]
  exact sameMod_trans (sameMod_apply V v a3) b3

private theorem candidates_det : ∀ W ∈ candidates, W.det = 1 ∨ W.det = -1 := by decide

private theorem candidates_nodup : candidates.Nodup := by decide

private theorem recorded_nodup (inp : Input ℝ) : ((recorded inp 0 1 2).map Prod.fst).Nodup := by
  unfold recorded
  have hsub := (List.filter_sublist (l := (candidates.filter (keepsMetric (metric inp.lattice 0 1))).map fun W => (W, transFor inp (embed 0 1 W) 2))
    (p := fun r => decide (r.2 ≠ []))).map Prod.fst
  refine List.Nodup.sublist hsub ?_
  rw [List.map_map]
  have : (Prod.fst ∘ fun W => (W, transFor inp (embed 0 1 W) 2)) = (id : Op → Op) := rfl
  rw [this, List.map_id]
  exact candidates_nodup.filter _

/-- In a primitive cell (no translation but the lattice vectors maps the selected atoms onto themselves) the images compose. -/
theorem images_of_primitive {u : Cell ℝ} {sel : List ℕ} (hsel : u.atomTrue = some sel) (ha : Apart (inputOf u ![1, 1, 0]))
    (hex : ∀ r ∈ recorded (inputOf u ![1, 1, 0]) 0 1 2, ∃ w, ExactMap (inputOf u ![1, 1, 0]) 0 1 r.1 w (firstImages r))
    (hprim : ∀ τ same, ExactMap (inputOf u ![1, 1, 0]) 0 1 SymDisp.one τ same → same = List.range sel.length) : ImagesCompose u sel := by
  have hs : (inputOf u ![1, 1, 0]).sel = sel := by simp [inputOf, hsel]
  intro r1 m1 r2 m2 r hr e a hal
  obtain ⟨w1, x1⟩ := hex r1 m1
  obtain ⟨w2, x2⟩ := hex r2 m2
  obtain ⟨w3, x3⟩ := hex r hr
  have hdet := candidates_det r.1 (C69_recorded_maps (inputOf u ![1, 1, 0]) ha (by decide : (0 : Fin 3) ≠ 1) 2 (W := r.1) (trs := r.2) hr).1
  rw [e] at x3 hdet
  rw [images_unique ha (by rw [hs]; exact hprim) hdet x3 (exact_comp x1 x2) a (by rw [hs]; exact hal)]
  rw [List.getD_eq_getElem?_getD, List.getElem?_map, List.getElem?_range (by rw [hs]; exact hal)]
  rfl

/-! ### Positions of the super cell -/

private theorem superCart_eq {u s : Cell ℝ} {sel : List ℕ} {n p : Fin 3 → ℤ} (h : IsSuperOf u s sel n p) (t : ℕ) (ht : t < sel.length * numImages n) :
    superCart s t = Matrix.vecMul (superPos s n t) u.lattice := by
  obtain ⟨hlen, hlat, ⟨at', hat, hatl, -⟩, -⟩ := super_selected h
  obtain ⟨⟨junk, s0, hg, -, -⟩, hsel, -, hdet⟩ := h
  have hn : ∀ i, (n i : ℝ) ≠ 0 := fun i => by exact_mod_cast (hg.pos i).ne'
  have hS : IsUnit (superLattice u.lattice n).det := by
    have : superLattice u.lattice n = Matrix.diagonal (fun i => (n i : ℝ)) * u.lattice := by
      ext i j; rw [Matrix.diagonal_mul, superLattice]; ring
    rw [this, Matrix.det_mul, Matrix.det_diagonal]
    exact (mul_ne_zero (Finset.prod_ne_zero_iff.2 fun i _ => hn i) hdet).isUnit
  have hlat' : s.lattice = superLattice u.lattice n := hlat
  have hd : (cellIn s).direct.getD t 0 = Matrix.vecMul (superCart s t) (superLattice u.lattice n)⁻¹ := by
    have hrow : at'[t]? = some (at'.getD t 0) := by
      rw [List.getD_eq_getElem?_getD, List.getElem?_eq_getElem (by rw [hatl]; exact ht)]; rfl
    unfold cellIn superCart superRow
    simp only [hat, Option.getD_some]
    rw [List.getD_eq_getElem?_getD, List.getElem?_map, hrow]
    simp only [Option.map_some, Option.getD_some]
    rw [UnitCell.atomDirect, hlat', List.getD_eq_getElem?_getD, List.getElem?_map, List.getD_eq_getElem?_getD (l := s.cart)]
    cases s.cart[at'.getD t 0]? with
    | none => simp
    | some v => simp
  have e : Matrix.vecMul (superPos s n t) u.lattice = Matrix.vecMul ((cellIn s).direct.getD t 0) (superLattice u.lattice n) := by
    funext c
    simp only [Matrix.vecMul, dotProduct, superPos, superLattice, Fin.sum_univ_three]
    ring
  rw [e, hd, Matrix.vecMul_vecMul, Matrix.nonsing_inv_mul _ hS, Matrix.vecMul_one]

private theorem superType_eq {u s : Cell ℝ} {sel : List ℕ} {n p : Fin 3 → ℤ} (h : IsSuperOf u s sel n p) (t : ℕ) (ht : t < sel.length * numImages n) :
    superType s t = (cellIn s).types.getD t [] := by
  obtain ⟨-, -, ⟨at', hat, hatl, -⟩, -⟩ := super_selected h
  have hrow : at'[t]? = some (at'.getD t 0) := by
    rw [List.getD_eq_getElem?_getD, List.getElem?_eq_getElem (by rw [hatl]; exact ht)]; rfl
  unfold cellIn superType superRow
  simp only [hat, Option.getD_some]
  conv_rhs => rw [List.getD_eq_getElem?_getD, List.getElem?_map, hrow]
  rfl

/-- An image table is a symmetry of the super cell in the sense of the specification. -/
private theorem table_symmetry {u s : Cell ℝ} {sel : List ℕ} {n : Fin 3 → ℤ} (h : IsSuperOf u s sel n ![1, 1, 0]) (hs : Slab u.lattice 0 1 2) {W : Op}
    (hW : GoodOp u.lattice W) (hf : EnlargeFit n 0 1 W) {tab : List ℕ} {τ : V3 ℝ} (hp : tab.Perm (List.range (sel.length * numImages n)))
    (ht : ∀ t < sel.length * numImages n, (cellIn s).types.getD (tab.getD t 0) [] = (cellIn s).types.getD t [] ∧
        SameSuper n (applyOp 0 1 W τ (superPos s n t)) (superPos s n (tab.getD t 0))) :
    IsSymmetry s (cartOp u.lattice (embed 0 1 W)) (Matrix.vecMul τ u.lattice) (fun t => tab.getD t 0) := by
  obtain ⟨ho, hc⟩ := C75_orthogonal_partial hs hW.1 hW.2
  obtain ⟨-, hlat, ⟨at', hat, hatl, -⟩, -⟩ := super_selected h
  have hN : superN s = sel.length * numImages n := by rw [superN, hat]; exact hatl
  have hl : tab.length = sel.length * numImages n := by rw [hp.length_eq, List.length_range]
  have hlat' : s.lattice = superLattice u.lattice n := hlat
  refine ⟨ho, fun m => ⟨![W.a * m 0 + W.b * m 1, W.c * m 0 + W.d * m 1, m 2], ?_⟩, ?_, fun t htN => ?_⟩
  · have e1 : Matrix.vecMul (fun i => (m i : ℝ)) s.lattice = Matrix.vecMul (fun i => (n i : ℝ) * m i) u.lattice := by
      rw [hlat']; funext c
      simp only [Matrix.vecMul, dotProduct, superLattice, Fin.sum_univ_three]; ring
    rw [e1, hc]
    funext c
    rw [hlat']
    simp only [Matrix.vecMul, dotProduct, superLattice, Fin.sum_univ_three, applyOp]
    rcases hf with e | ⟨e, e'⟩
    · simp [e]; ring
    · simp [e, e']; ring
  · intro t ht t' ht' e
    rw [hN, ← hl] at ht ht'
    have hnd : tab.Nodup := hp.nodup_iff.2 List.nodup_range
    simp only [List.getD_eq_getElem?_getD, List.getElem?_eq_getElem ht, List.getElem?_eq_getElem ht', Option.getD_some] at e
    exact (List.getElem?_inj ht hnd).1 (by rw [List.getElem?_eq_getElem ht, List.getElem?_eq_getElem ht', e])
  rw [hN] at htN
  obtain ⟨h1, m, h2⟩ := ht t htN
  have hlt : tab.getD t 0 < sel.length * numImages n := by
    rw [List.getD_eq_getElem?_getD, List.getElem?_eq_getElem (by rw [hl]; exact htN)]
    exact List.mem_range.1 (hp.mem_iff.1 (List.getElem_mem _))
  refine ⟨by rw [hN]; exact hlt, by rw [superType_eq h _ hlt, superType_eq h _ htN, h1], m, ?_⟩
  rw [superCart_eq h t htN, superCart_eq h _ hlt, hc, ← Matrix.add_vecMul]
  have e1 : applyOp 0 1 W 0 (superPos s n t) + τ = applyOp 0 1 W τ (superPos s n t) := by
    funext r; simp [applyOp]
  have e2 : applyOp 0 1 W τ (superPos s n t) = superPos s n (tab.getD t 0) + fun i => (n i : ℝ) * (m i : ℝ) := by
    funext r; rw [h2 r]; rfl
  rw [e1, e2, Matrix.add_vecMul]
  congr 1
  rw [hlat']
  funext c
  simp only [Matrix.vecMul, dotProduct, superLattice, Fin.sum_univ_three]
  ring

/-! ### C86 -/

private theorem super_lengths {u s : Cell ℝ} {sel : List ℕ} {n p : Fin 3 → ℤ} (h : IsSuperOf u s sel n p) :
    s.atomType.length = numImages n * u.atomType.length ∧ s.cart.length = numImages n * u.cart.length := by
  obtain ⟨⟨junk, s0, hg, e1, e2⟩, hsel, -, -⟩ := h
  obtain ⟨h1, h2, -⟩ := C07_supercell_counts_types hg e1
  unfold setSuperIndTrue at e2
  simp only [hsel] at e2
  cases e2
  exact ⟨by rw [h2, h1, hg.types]; rfl, h1⟩

private theorem mapM_run {α β : Type*} (f : α → Run β) (g : α → β) : ∀ l : List α, (∀ q ∈ l, f q = .ok (g q)) → l.mapM f = .ok (l.map g) := by
  intro l
  induction l with
  | nil => intro _; rfl
  | cons q l ih =>
    intro h
    rw [List.mapM_cons, ih (fun q hq => h q (by simp [hq])), h q (by simp)]
    rfl

theorem search_found {u : Cell ℝ} {ops : List (Recorded ℝ)} {name : Str} (h : searchPointGroup (inputOf u ![1, 1, 0]) = .ok (ops, name)) :
    ops = recorded (inputOf u ![1, 1, 0]) 0 1 2 := by
  unfold searchPointGroup at h
  have hax : axes (inputOf u ![1, 1, 0]).period = [0, 1] := by
    change axes ![1, 1, 0] = [0, 1]; decide
  have hn : ((List.finRange 3).filter (fun k => (inputOf u ![1, 1, 0]).period k = 0)).headD 0 = 2 := by
    change ((List.finRange 3).filter (fun k => (![1, 1, 0] : Fin 3 → ℤ) k = 0)).headD 0 = 2; decide
  rw [hax] at h
  simp only [hn] at h
  split at h
  · cases h
  · split at h
    · cases h
    · split at h
      · cases h
      · cases h; rfl

section main
variable {u s : Cell ℝ} {sel : List ℕ} {n : Fin 3 → ℤ}

/-- The image tables of all recorded operations. -/
private def tabsOf (u s : Cell ℝ) (n : Fin 3 → ℤ) : List (List (List ℕ)) := (recorded (inputOf u ![1, 1, 0]) 0 1 2).map fun r =>
  cellImages (cellIn s) (numImages n) (embed 0 1 r.1) (firstImages r)

private theorem row_home (h : ExactCrystal u s sel n) {a : ℕ} (ha : a < sel.length) : superRow s (a * numImages n) = numImages n * sel.getD a 0 ∧
    a * numImages n < sel.length * numImages n := by
  obtain ⟨-, -, ⟨at', hat, hatl, hget⟩, -⟩ := super_selected h.super
  obtain ⟨⟨junk, s0, hg, -, -⟩, -, -, -⟩ := h.super
  have hE : 0 < numImages n := by
    have h0 := hg.pos 0
    have h1 := hg.pos 1
    have h2 := hg.pos 2
    have hp : 0 < n 0 * n 1 * n 2 := by positivity
    unfold numImages; omega
  refine ⟨?_, Nat.mul_lt_mul_of_pos_right ha hE⟩
  have := hget a 0 hE
  rw [List.getElem?_eq_getElem ha, Nat.add_zero] at this
  unfold superRow
  rw [hat, Option.getD_some, List.getD_eq_getElem?_getD, this, List.getD_eq_getElem?_getD, List.getElem?_eq_getElem ha]
  simp [mul_comm]

/-- What the table of one recorded operation and one selected atom says about the force constants. -/
private theorem rec_table (h : ExactCrystal u s sel n) {Φ : ℕ → Fin 3 → ℕ → Fin 3 → ℝ} (hΦ : Symmetric s Φ) {k : ℕ} {r : Recorded ℝ}
    (hr : (recorded (inputOf u ![1, 1, 0]) 0 1 2)[k]? = some r) {a : ℕ} (ha : a < sel.length) :
    ∃ T tab, getE (tabsOf u s n) k = .ok T ∧ getE T a = .ok tab ∧ tab.Perm (List.range (sel.length * numImages n)) ∧
      ∀ i < sel.length * numImages n, blk Φ (superRow s (tab.getD i 0)) (numImages n * sel.getD ((firstImages r).getD a 0) 0) *
          cartOp u.lattice (embed 0 1 r.1) =
        cartOp u.lattice (embed 0 1 r.1) * blk Φ (superRow s i) (numImages n * sel.getD a 0) := by
  have hmem := List.mem_of_getElem? hr
  obtain ⟨hW, hf, w, hex⟩ := h.exactOps r hmem
  obtain ⟨hc, -⟩ := C69_recorded_maps (inputOf u ![1, 1, 0]) h.apart (by decide : (0 : Fin 3) ≠ 1) 2 (W := r.1) (trs := r.2) hmem
  obtain ⟨-, htab⟩ := C85_supercell_partial h.super h.apart h.cond h.nonempty (by decide) (candidates_det r.1 hc) hf hex
  obtain ⟨tab, τ, e, hp, hhome, hmap⟩ := htab a ha
  refine ⟨cellImages (cellIn s) (numImages n) (embed 0 1 r.1) (firstImages r), tab, ?_, ?_, hp, ?_⟩
  · unfold tabsOf getE; rw [List.getElem?_map, hr]; rfl
  · unfold getE; rw [e]
  · intro i hi
    have hsym := table_symmetry h.super h.slab hW hf hp hmap
    have hN : superN s = sel.length * numImages n := by
      obtain ⟨-, -, ⟨at', hat, hatl, -⟩, -⟩ := super_selected h.super
      rw [superN, hat]; exact hatl
    obtain ⟨r1, r2⟩ := row_home h ha
    have himg : (firstImages r).getD a 0 < sel.length := by
      have hs : (inputOf u ![1, 1, 0]).sel = sel := by simp [inputOf, h.super.selected]
      have := (hex.2 a (by rw [hs]; exact ha)).1
      rwa [hs] at this
    obtain ⟨q1, -⟩ := row_home h himg
    have key := hΦ _ _ _ hsym i (by rw [hN]; exact hi) (a * numImages n) (by rw [hN]; exact r2)
    simp only [hhome, q1, r1] at key
    exact key

private theorem reqPlan_ok (h : ExactCrystal u s sel n) {Φ : ℕ → Fin 3 → ℕ → Fin 3 → ℝ} (hΦ : Symmetric s Φ) {a : ℕ} (ha : a < sel.length) :
    ∃ q, reqPlan u.lattice 0 1 ((recorded (inputOf u ![1, 1, 0]) 0 1 2).map Prod.fst) (sameFirst (recorded (inputOf u ![1, 1, 0]) 0 1 2)) (tabsOf u s n) a =
        some (.ok q) ∧ q.idx = a ∧
      GoodReq (sel.length * numImages n) (superRow s) (fun r b => blk Φ r (numImages n * sel.getD b 0)) q := by
  set rec := recorded (inputOf u ![1, 1, 0]) 0 1 2 with hrec
  have hsel : (inputOf u ![1, 1, 0]).sel = sel := by simp [inputOf, h.super.selected]
  have hcand : ∀ r ∈ rec, r.1.det = 1 ∨ r.1.det = -1 := fun r hr =>
    candidates_det r.1 (C69_recorded_maps (inputOf u ![1, 1, 0]) h.apart (by decide : (0 : Fin 3) ≠ 1) 2 (W := r.1) (trs := r.2) hr).1
  have hnd : (rec.map Prod.fst).Nodup := recorded_nodup _
  -- operations that fix the atom
  let Fixes : Op → Prop := fun W => ∃ (k : ℕ) (r : Recorded ℝ), rec[k]? = some r ∧ r.1 = W ∧ (firstImages r).getD a 0 = a
  have hFone : Fixes SymDisp.one := by
    obtain ⟨r, hr, e⟩ := List.mem_map.1 h.one
    obtain ⟨k, hk⟩ := List.getElem?_of_mem hr
    obtain ⟨-, -, w, hex⟩ := h.exactOps r hr
    rw [e] at hex
    refine ⟨k, r, hk, e, ?_⟩
    have hb := (hex.2 a (by rw [hsel]; exact ha)).1
    rw [hsel] at hb
    have hidem := h.images r hr r hr r hr (by rw [e]; rfl) a ha
    exact (exact_inj h.apart (by left; rfl) hex _ (by rw [hsel]; exact ha) _ (by rw [hsel]; exact hb) hidem).symm
  have hFcomp : ∀ V W, Fixes V → Fixes W → Fixes (SymDisp.comp V W) := by
    rintro V W ⟨k1, r1, e1, rfl, f1⟩ ⟨k2, r2, e2, rfl, f2⟩
    have m1 := List.mem_of_getElem? e1
    have m2 := List.mem_of_getElem? e2
    obtain ⟨r, hr, e⟩ := List.mem_map.1 (h.closed _ (List.mem_map_of_mem m1) _ (List.mem_map_of_mem m2))
    obtain ⟨k, hk⟩ := List.getElem?_of_mem hr
    refine ⟨k, r, hk, e, ?_⟩
    rw [h.images r1 m1 r2 m2 r hr e a ha, f2, f1]
  have hFops : ∀ W, Fixes W → W ∈ rec.map Prod.fst := by
    rintro W ⟨k, r, e, rfl, -⟩
    exact List.mem_map_of_mem (List.mem_of_getElem? e)
  have hFgood : ∀ W, Fixes W → GoodOp u.lattice W := by
    rintro W ⟨k, r, e, rfl, -⟩
    exact (h.exactOps r (List.mem_of_getElem? e)).1
  have hsameget : ∀ (k : ℕ) (r : Recorded ℝ), rec[k]? = some r → (sameFirst rec).getD k [] = firstImages r := by
    intro k r e
    unfold sameFirst
    rw [List.getD_eq_getElem?_getD, List.getElem?_map, e]; rfl
  have hopget : ∀ (k : ℕ) (r : Recorded ℝ), rec[k]? = some r → (rec.map Prod.fst).getD k SymDisp.one = r.1 := by
    intro k r e
    rw [List.getD_eq_getElem?_getD, List.getElem?_map, e]; rfl
  have hself : ∀ W ∈ (selfImages (sameFirst rec) a).map (fun k => (rec.map Prod.fst).getD k SymDisp.one), Fixes W := by
    intro W hW
    obtain ⟨k, hk, rfl⟩ := List.mem_map.1 hW
    obtain ⟨hk1, hk2⟩ := List.mem_filter.1 hk
    have hkl : k < rec.length := by
      have := List.mem_range.1 hk1
      rwa [sameFirst, List.length_map] at this
    have e := List.getElem?_eq_getElem hkl
    rw [decide_eq_true_eq, hsameget k _ e] at hk2
    rw [hopget k _ e]
    exact ⟨k, _, e, rfl, hk2⟩
  have hselfne : (selfImages (sameFirst rec) a).map (fun k => (rec.map Prod.fst).getD k SymDisp.one) ≠ [] := by
    obtain ⟨k, r, e, -, f⟩ := hFone
    have : k ∈ selfImages (sameFirst rec) a := by
      refine List.mem_filter.2 ⟨List.mem_range.2 ?_, ?_⟩
      · rw [sameFirst, List.length_map]; exact (List.getElem?_eq_some_iff.1 e).1
      · rw [decide_eq_true_eq, hsameget k r e, f]
    intro hnil
    rw [List.map_eq_nil_iff] at hnil
    rw [hnil] at this; simp at this
  obtain ⟨l, el, hl, hhead, h3, hdet⟩ := C74_independent_partial h.slab (rec.map Prod.fst) _ Fixes hFops hFgood hFone hFcomp hself hselfne
  -- tables of the kept operations
  have htab : ∀ q ∈ l, ∃ T tab, getE (tabsOf u s n) q.1 = .ok T ∧ getE T a = .ok tab ∧ tab.Perm (List.range (sel.length * numImages n)) ∧
      ∀ i < sel.length * numImages n, blk Φ (superRow s (tab.getD i 0)) (numImages n * sel.getD a 0) * cartOp u.lattice (embed 0 1 q.2.1) =
        cartOp u.lattice (embed 0 1 q.2.1) * blk Φ (superRow s i) (numImages n * sel.getD a 0) := by
    intro q hq
    obtain ⟨⟨k, r, e, e1, f⟩, hget, -⟩ := hl q hq
    have hkq : k = q.1 := by
      have e2 : (rec.map Prod.fst)[k]? = some q.2.1 := by rw [List.getElem?_map, e, ← e1]; rfl
      have hk : k < (rec.map Prod.fst).length := (List.getElem?_eq_some_iff.1 e2).1
      exact (List.getElem?_inj hk hnd).1 (e2.trans hget.symm)
    subst hkq
    obtain ⟨T, tab, t1, t2, t3, t4⟩ := rec_table h hΦ e ha
    rw [f, e1] at t4
    exact ⟨T, tab, t1, t2, t3, t4⟩
  have htot : ∃ F : ℕ × Op × V3 ℝ → List ℕ, ∀ q ∈ l, (∃ T, getE (tabsOf u s n) q.1 = .ok T ∧ getE T a = .ok (F q)) ∧
      (F q).Perm (List.range (sel.length * numImages n)) ∧
      ∀ i < sel.length * numImages n, blk Φ (superRow s ((F q).getD i 0)) (numImages n * sel.getD a 0) * cartOp u.lattice (embed 0 1 q.2.1) =
        cartOp u.lattice (embed 0 1 q.2.1) * blk Φ (superRow s i) (numImages n * sel.getD a 0) := by
    have : ∀ q : ℕ × Op × V3 ℝ, ∃ tab : List ℕ, q ∈ l → (∃ T, getE (tabsOf u s n) q.1 = .ok T ∧ getE T a = .ok tab) ∧
        tab.Perm (List.range (sel.length * numImages n)) ∧
        ∀ i < sel.length * numImages n, blk Φ (superRow s (tab.getD i 0)) (numImages n * sel.getD a 0) * cartOp u.lattice (embed 0 1 q.2.1) =
          cartOp u.lattice (embed 0 1 q.2.1) * blk Φ (superRow s i) (numImages n * sel.getD a 0) := by
      intro q
      by_cases hq : q ∈ l
      · obtain ⟨T, tab, t1, t2, t3, t4⟩ := htab q hq
        exact ⟨tab, fun _ => ⟨⟨T, t1, t2⟩, t3, t4⟩⟩
      · exact ⟨[], fun h => absurd h hq⟩
    choose F hF using this
    exact ⟨F, hF⟩
  obtain ⟨F, hF⟩ := htot
  have hdir0 : (l.map fun q => q.2.2).getD 0 0 = dir0 := by
    rw [List.getD_eq_getElem?_getD, ← List.head?_eq_getElem?, hhead]; rfl
  refine ⟨⟨a, l.map (fun q => q.2.2), l.map (fun q => (F q, cartOp u.lattice (embed 0 1 q.2.1))), additional (l.map fun q => q.2.2)⟩, ?_, rfl, ?_⟩
  · unfold reqPlan
    rw [el]
    simp only
    rw [mapM_run _ (fun q => (F q, cartOp u.lattice (embed 0 1 q.2.1))) l (by
      intro q hq
      obtain ⟨⟨T, t1, t2⟩, -, -⟩ := hF q hq
      rw [t1]
      change (getE T a >>= fun t => _) = _
      rw [t2]; rfl)]
    rfl
  · refine ⟨h3, hdet, by simp, ?_, ?_, ?_, ?_⟩
    · simp only [ne_eq, List.map_eq_nil_iff]
      rintro rfl
      simp at hhead
    · intro k perm W hk
      rw [List.getElem?_map] at hk
      obtain ⟨q, hq, e⟩ := Option.map_eq_some_iff.1 hk
      cases e
      simp only
      rw [hdir0, List.getElem?_map, hq, Option.map_some, (hl q (List.mem_of_getElem? hq)).2.2]
    · intro o ho
      obtain ⟨q, hq, rfl⟩ := List.mem_map.1 ho
      exact (hF q hq).2.1
    · intro o ho
      obtain ⟨q, hq, rfl⟩ := List.mem_map.1 ho
      exact (hF q hq).2.2

private theorem reqPlans_ok (h : ExactCrystal u s sel n) {Φ : ℕ → Fin 3 → ℕ → Fin 3 → ℝ} (hΦ : Symmetric s Φ) : ∀ as : List ℕ, (∀ a ∈ as, a < sel.length) →
    ∃ qs, reqPlans u.lattice 0 1 ((recorded (inputOf u ![1, 1, 0]) 0 1 2).map Prod.fst) (sameFirst (recorded (inputOf u ![1, 1, 0]) 0 1 2)) (tabsOf u s n) as =
        some (.ok qs) ∧ qs.map ReqAtom.idx = as ∧
      ∀ q ∈ qs, GoodReq (sel.length * numImages n) (superRow s) (fun r b => blk Φ r (numImages n * sel.getD b 0)) q := by
  intro as
  induction as with
  | nil => intro _; exact ⟨[], rfl, rfl, by simp⟩
  | cons a as ih =>
    intro ha
    obtain ⟨qs, e1, e2, e3⟩ := ih (fun b hb => ha b (by simp [hb]))
    obtain ⟨q, f1, f2, f3⟩ := reqPlan_ok h hΦ (ha a (by simp))
    refine ⟨q :: qs, ?_, by simp [e2, f2], by simpa using ⟨f3, e3⟩⟩
    rw [reqPlans, e1, f1]

private theorem derPlan_ok (h : ExactCrystal u s sel n) {Φ : ℕ → Fin 3 → ℕ → Fin 3 → ℝ} (hΦ : Symmetric s Φ) (req : List (ReqAtom ℝ)) {o a : ℕ} {r : Recorded ℝ}
    (hr : (recorded (inputOf u ![1, 1, 0]) 0 1 2)[o]? = some r) (ha : a < sel.length) (hreq : (firstImages r).getD a 0 ∈ req.map ReqAtom.idx)
    (hnot : a ∉ req.map ReqAtom.idx) :
    ∃ q, derPlan u.lattice 0 1 ((recorded (inputOf u ![1, 1, 0]) 0 1 2).map Prod.fst) (sameFirst (recorded (inputOf u ![1, 1, 0]) 0 1 2)) (tabsOf u s n) o a =
        .ok q ∧ q.idx = a ∧
      GoodDer (sel.length * numImages n) (superRow s) (fun r b => blk Φ r (numImages n * sel.getD b 0)) req q := by
  have hmem := List.mem_of_getElem? hr
  obtain ⟨hW, hf, w, hex⟩ := h.exactOps r hmem
  have hsel : (inputOf u ![1, 1, 0]).sel = sel := by simp [inputOf, h.super.selected]
  obtain ⟨ho, -⟩ := C75_orthogonal_partial h.slab hW.1 hW.2
  obtain ⟨T, tab, t1, t2, t3, t4⟩ := rec_table h hΦ hr ha
  have hlen : a < (firstImages r).length := by rw [hex.1, hsel]; exact ha
  refine ⟨⟨a, cartOp u.lattice (embed 0 1 r.1), tab, (firstImages r).getD a 0⟩, ?_, rfl, ?_⟩
  · have e1 : getE ((recorded (inputOf u ![1, 1, 0]) 0 1 2).map Prod.fst) o = .ok r.1 := by
      unfold getE; rw [List.getElem?_map, hr]; rfl
    have e2 : getE (sameFirst (recorded (inputOf u ![1, 1, 0]) 0 1 2)) o = .ok (firstImages r) := by
      unfold getE sameFirst; rw [List.getElem?_map, hr]; rfl
    have e3 : getE (firstImages r) a = .ok ((firstImages r).getD a 0) := by
      unfold getE; rw [List.getD_eq_getElem?_getD, List.getElem?_eq_getElem hlen]; rfl
    unfold derPlan
    simp only [e1, e2, t1, bind, Except.bind, t2, e3, pure, Except.pure]
  · refine ⟨?_, by rw [t3.length_eq, List.length_range], fun i hi => List.mem_range.1 (t3.mem_iff.1 hi), hreq, hnot, t4⟩
    intro hz
    have := congrArg Matrix.det ho
    rw [Matrix.det_mul, Matrix.det_transpose, Matrix.det_one] at this
    simp only at hz
    rw [hz] at this; simp at this

theorem superRow_inj (h : ExactCrystal u s sel n) : ∀ i < sel.length * numImages n, ∀ j < sel.length * numImages n, superRow s i = superRow s j → i = j := by
  obtain ⟨-, -, ⟨at', hat, hatl, hget⟩, -⟩ := super_selected h.super
  have key : ∀ i < sel.length * numImages n, ∃ a k, a < sel.length ∧ k < numImages n ∧ i = a * numImages n + k ∧ superRow s i = sel.getD a 0 * numImages n + k := by
    intro i hi
    have hE : 0 < numImages n := Nat.pos_of_ne_zero (by rintro e; rw [e] at hi; omega)
    have hk : i % numImages n < numImages n := Nat.mod_lt _ hE
    have ha : i / numImages n < sel.length := Nat.div_lt_of_lt_mul (by rwa [mul_comm])
    have e : i = i / numImages n * numImages n + i % numImages n := by rw [mul_comm]; exact (Nat.div_add_mod _ _).symm
    refine ⟨i / numImages n, i % numImages n, ha, hk, e, ?_⟩
    have := hget (i / numImages n) _ hk
    rw [← e] at this
    unfold superRow
    rw [hat, Option.getD_some, List.getD_eq_getElem?_getD, this, List.getElem?_eq_getElem ha, List.getD_eq_getElem?_getD, List.getElem?_eq_getElem ha]
    rfl
  intro i hi j hj e
  obtain ⟨a, k, ha, hk, e1, e2⟩ := key i hi
  obtain ⟨b, l, hb, hl, f1, f2⟩ := key j hj
  rw [e2, f2] at e
  have hab : sel.getD a 0 = sel.getD b 0 := by
    have hE : 0 < numImages n := by omega
    have := congrArg (· / numImages n) e
    simp only [mul_comm _ (numImages n), Nat.mul_add_div hE, Nat.div_eq_of_lt hk, Nat.div_eq_of_lt hl] at this
    simpa using this
  have hkl : k = l := by rw [hab] at e; omega
  have : a = b := by
    apply (List.getElem?_inj ha h.nodup).1
    rw [List.getElem?_eq_getElem ha, List.getElem?_eq_getElem hb]
    rw [List.getD_eq_getElem?_getD, List.getElem?_eq_getElem ha, List.getD_eq_getElem?_getD, List.getElem?_eq_getElem hb] at hab
    exact congrArg some hab
  rw [e1, f1, this, hkl]

/-- **C86.**  For a crystal whose recorded symmetry is exact and for force constants with the symmetry of the super cell, the symmetry search ends, the
displaced super cells it asks for are written, and from the (harmonic) forces of those files, in the order in which they were written, the force
constants of *every* selected atom - displaced or not - with every selected super-cell atom come out exactly. -/
theorem C86_symmetry_end_to_end_partial (h : ExactCrystal u s sel n) {Φ : ℕ → Fin 3 → ℕ → Fin 3 → ℝ} (hΦ : Symmetric s Φ) (F0 : Rows ℝ) {d : ℝ} (hd : d ≠ 0)
    (junkCols : ℕ → Rows ℝ) (junk : FC ℝ) :
    ∃ req der s' files fc, symPlan u s ![1, 1, 0] = some (.ok (req, der)) ∧
      writeDisplaceCell s sel (numImages n) d ![1, 1, 0] true (.ok (req.map fun q => (numImages n * sel.getD q.idx 0, calcDirs q))) = .ok (s', files) ∧
      setSym d (superRow s) junkCols junk req der (files.map fun f => harmonicForces Φ F0 s f.2) = .ok fc ∧
      ∀ a < sel.length, ∀ t < superN s, ∀ x y : Fin 3, fc (3 * superRow s t + x) (3 * a + y) = Φ (superRow s t) x (numImages n * sel.getD a 0) y := by
  set rec := recorded (inputOf u ![1, 1, 0]) 0 1 2 with hrec
  have hsel : (inputOf u ![1, 1, 0]).sel = sel := by simp [inputOf, h.super.selected]
  obtain ⟨ops, name, hfound⟩ := h.found
  have hops : ops = rec := search_found hfound
  rw [hops] at hfound
  have hN : superN s = sel.length * numImages n := by
    obtain ⟨-, -, ⟨at', hat, hatl, -⟩, -⟩ := super_selected h.super
    rw [superN, hat]; exact hatl
  obtain ⟨pg, req0, der0, hsearch, hperm, hpl, himg, -⟩ := C73_partition (sameFirst rec) sel.length (by
    intro same hs
    obtain ⟨r, hr, rfl⟩ := List.mem_map.1 hs
    obtain ⟨-, -, w, hex⟩ := h.exactOps r hr
    exact hex.1.trans (by rw [hsel]))
  have hlt : ∀ a ∈ req0 ++ der0, a < sel.length := fun a ha => List.mem_range.1 (hperm.mem_iff.1 ha)
  have hnd : (req0 ++ der0).Nodup := hperm.nodup_iff.2 List.nodup_range
  obtain ⟨req, hreq, hidx, hgreq⟩ := reqPlans_ok h hΦ req0 (fun a ha => hlt a (by simp [ha]))
  have hder : ∀ t ∈ pg.zip der0, ∃ q, derPlan u.lattice 0 1 (rec.map Prod.fst) (sameFirst rec) (tabsOf u s n) t.1 t.2 = .ok q ∧ q.idx = t.2 ∧
      GoodDer (sel.length * numImages n) (superRow s) (fun r b => blk Φ r (numImages n * sel.getD b 0)) req q := by
    rintro ⟨o, a⟩ ht
    obtain ⟨k, hk⟩ := List.getElem?_of_mem ht
    obtain ⟨k1, k2⟩ := List.getElem?_zip_eq_some.1 hk
    obtain ⟨same, e1, e2⟩ := himg k a o k2 k1
    have hmem : a ∈ der0 := List.mem_of_getElem? k2
    have e1' := e1
    unfold sameFirst at e1'
    rw [List.getElem?_map] at e1'
    obtain ⟨r, hr, hrs⟩ := Option.map_eq_some_iff.1 e1'
    refine derPlan_ok h hΦ req hr (hlt a (by simp [hmem])) ?_ ?_
    · rw [hidx]; unfold firstImages; rw [hrs]; exact e2
    · rw [hidx]; intro hr0
      exact (List.disjoint_of_nodup_append hnd) hr0 hmem
  have : ∀ t : ℕ × ℕ, ∃ q : Derived ℝ, t ∈ pg.zip der0 → derPlan u.lattice 0 1 (rec.map Prod.fst) (sameFirst rec) (tabsOf u s n) t.1 t.2 = .ok q ∧ q.idx = t.2 ∧
      GoodDer (sel.length * numImages n) (superRow s) (fun r b => blk Φ r (numImages n * sel.getD b 0)) req q := by
    intro t
    by_cases ht : t ∈ pg.zip der0
    · obtain ⟨q, hq⟩ := hder t ht
      exact ⟨q, fun _ => hq⟩
    · exact ⟨⟨0, 0, [], 0⟩, fun h => absurd h ht⟩
  choose G hG using this
  have hderidx : ((pg.zip der0).map G).map Derived.idx = der0 := by
    rw [List.map_map]
    have : (pg.zip der0).map (Derived.idx ∘ G) = (pg.zip der0).map Prod.snd := List.map_congr_left fun t ht => (hG t ht).2.1
    rw [this, List.map_snd_zip (by omega)]
  have hE : s.atomType.length / u.atomType.length = numImages n := by
    obtain ⟨l1, -⟩ := super_lengths h.super
    obtain ⟨⟨junk', s0, hg, -, -⟩, -, -, -⟩ := h.super
    obtain ⟨i, hi⟩ := List.exists_mem_of_ne_nil _ h.nonempty
    have := h.super.valid i hi
    rw [l1, Nat.mul_div_cancel]
    rw [hg.types]; omega
  have hplan : symPlan u s ![1, 1, 0] = some (.ok (req, (pg.zip der0).map G)) := by
    have hi : (axes ![1, 1, 0]).getD 0 0 = (0 : Fin 3) := by decide
    have hj : (axes ![1, 1, 0]).getD 1 0 = (1 : Fin 3) := by decide
    unfold symPlan
    simp only [hfound, hi, hj, hE, hsel, hsearch]
    have htabs : (rec.map fun r => cellImages (cellIn s) (numImages n) (embed 0 1 r.1) ((r.2.map Prod.snd).headD [])) = tabsOf u s n := rfl
    rw [htabs, hreq]
    simp only
    rw [mapM_run _ G _ fun t ht => (hG t ht).1]
    rfl
  have hhome : ∀ q ∈ req, numImages n * sel.getD q.idx 0 < s.cart.length := by
    intro q hq
    have ha : q.idx < sel.length := hlt _ (by
      have : q.idx ∈ req.map ReqAtom.idx := List.mem_map_of_mem hq
      rw [hidx] at this; simp [this])
    rw [(super_lengths h.super).2]
    have hv := h.super.valid (sel.getD q.idx 0) (by
      rw [List.getD_eq_getElem?_getD, List.getElem?_eq_getElem ha]; exact List.getElem_mem _)
    have hE0 : 0 < numImages n := by
      obtain ⟨⟨junk', s0, hg, -, -⟩, -, -, -⟩ := h.super
      have h0 := hg.pos 0
      have h1 := hg.pos 1
      have h2 := hg.pos 2
      have hp : 0 < n 0 * n 1 * n 2 := by positivity
      unfold numImages; omega
    exact Nat.mul_lt_mul_of_pos_left hv hE0
  obtain ⟨s', files, hw, -, -⟩ := C15_displaced_files_sym s sel (numImages n) d ![1, 1, 0] (by decide) (req.map fun q => (numImages n * sel.getD q.idx 0, calcDirs q)) (by
    intro q hq
    obtain ⟨q', hq', rfl⟩ := List.mem_map.1 hq
    exact hhome q' hq')
  obtain ⟨fc, hfc, hval⟩ := C22_end_to_end s sel (numImages n) d hd ![1, 1, 0] (by decide) (fun a => numImages n * sel.getD a 0) (sel.length * numImages n) sel.length
    (superRow s) (superRow_inj h) Φ F0 junkCols junk req ((pg.zip der0).map G) hhome hgreq (by
      intro q hq
      obtain ⟨t, ht, rfl⟩ := List.mem_map.1 hq
      exact (hG t ht).2.2) (by rw [hidx]; exact (List.nodup_append.1 hnd).1) (by rw [hderidx]; exact (List.nodup_append.1 hnd).2.1) (by
      intro a ha
      rw [hidx, hderidx]
      exact List.mem_append.1 (hperm.mem_iff.2 (List.mem_range.2 ha))) s' files hw
  exact ⟨req, _, s', files, fc, hplan, hw, hfc, fun a ha t ht x y => hval a ha t (by rw [← hN]; exact ht) x y⟩

/-! ### Crystals whose operations all fix the origin -/

/-- A crystal, given by its geometry alone: a slab cell with a reduced, well-conditioned lattice and periodicity 1 1 0, selected atoms apart;
every plane operation that maps the lattice and the selected atoms onto themselves within the tolerance (with any translation) does so exactly
about the origin, and fits the edges and the enlargement. -/
structure SymmorphicCrystal (u s : Cell ℝ) (sel : List ℕ) (n : Fin 3 → ℤ) : Prop where
  super : IsSuperOf u s sel n ![1, 1, 0]
  nodup : sel.Nodup
  nonempty : sel ≠ []
  apart : Apart (inputOf u ![1, 1, 0])
  cond : WellConditioned u.lattice
  slab : Slab u.lattice 0 1 2
  reduced : Reduced (metric u.lattice 0 1)
  exact : ∀ W ∈ candidates, MetricKept (planeMetric u.lattice 0 1) W → (∃ w img, MapsTo (inputOf u ![1, 1, 0]) 0 1 W w img) →
    GoodOp u.lattice W ∧ EnlargeFit n 0 1 W ∧ ∃ same, ExactMap (inputOf u ![1, 1, 0]) 0 1 W 0 same

private theorem metricKept_of_exact {L : M3 ℝ} {W : Op} (h : Exact L 0 1 W) : MetricKept (planeMetric L 0 1) W := by
  unfold Exact at h
  unfold MetricKept
  intro Wm r c
  have : Wm.transpose * planeMetric L 0 1 * Wm = planeMetric L 0 1 := h
  rw [this, sub_self, abs_zero]
  positivity

theorem mapsTo_of_exact {inp : Input ℝ} {W : Op} {w : V3 ℝ} {same : List ℕ} (h : ExactMap inp 0 1 W w same) :
    MapsTo inp 0 1 W w (fun a => same.getD a 0) := by
  intro a ha
  obtain ⟨h1, h2, h3⟩ := h.2 a ha
  exact ⟨h1, h2, nearMod_of_sameMod (by norm_num) h3⟩

private theorem comp_mat (V W : Op) : (SymDisp.comp V W).mat = V.mat * W.mat := by
  ext i j; fin_cases i <;> fin_cases j <;> simp [SymDisp.comp, Op.mat, Matrix.mul_apply, Fin.sum_univ_two]

private theorem op_ext {V W : Op} (e : V.mat = W.mat) : V = W := by
  have h00 := congrFun (congrFun e 0) 0
  have h01 := congrFun (congrFun e 0) 1
  have h10 := congrFun (congrFun e 1) 0
  have h11 := congrFun (congrFun e 1) 1
  cases W; cases V
  simp only [Op.mat, Matrix.of_apply, Matrix.cons_val', Matrix.cons_val_zero, Matrix.cons_val_one, Matrix.cons_val_fin_one] at h00 h01 h10 h11
  subst h00 h01 h10 h11; rfl

private theorem exact_comp_metric {L : M3 ℝ} {V W : Op} (hV : Exact L 0 1 V) (hW : Exact L 0 1 W) : Exact L 0 1 (SymDisp.comp V W) := by
  unfold Exact at *
  have : (SymDisp.comp V W).mat.map (fun n : ℤ => (n : ℝ)) = V.mat.map (fun n : ℤ => (n : ℝ)) * W.mat.map (fun n : ℤ => (n : ℝ)) := by
    rw [comp_mat]
    ext r c; simp [Matrix.mul_apply, Fin.sum_univ_two]
  rw [this, Matrix.transpose_mul]
  calc _ = (W.mat.map (fun n : ℤ => (n : ℝ))).transpose * ((V.mat.map (fun n : ℤ => (n : ℝ))).transpose * planeMetric L 0 1 * V.mat.map (fun n : ℤ => (n : ℝ))) *
        W.mat.map (fun n : ℤ => (n : ℝ)) := by simp only [Matrix.mul_assoc]
    _ = _ := by rw [hV, hW]

private theorem exact_cand {L : M3 ℝ} (hr : Reduced (metric L 0 1)) {W : Op} (hW : Exact L 0 1 W) : W ∈ candidates := by
  obtain ⟨h1, h2, h3⟩ := hr
  obtain ⟨V, hV, e⟩ := C67_reduced_complete (metric L 0 1).1 (metric L 0 1).2.1 (metric L 0 1).2.2 (lt_of_lt_of_le (by norm_num) h1) h2
    (by rw [abs_mul, abs_two]; exact h3) W.mat (by
      have e : planeMetric L 0 1 = !![(metric L 0 1).1, (metric L 0 1).2.1; (metric L 0 1).2.1, (metric L 0 1).2.2] := by
        ext r c; fin_cases r <;> fin_cases c <;> simp [planeMetric, metric] <;> ring
      unfold Preserves
      rw [← e]; exact hW)
  rw [← op_ext e]; exact hV

theorem symmorphic_exact (h : SymmorphicCrystal u s sel n) : ExactCrystal u s sel n := by
  have hsel : (inputOf u ![1, 1, 0]).sel = sel := by simp [inputOf, h.super.selected]
  have hne : (inputOf u ![1, 1, 0]).sel ≠ [] := by rw [hsel]; exact h.nonempty
  have hnd := recorded_nodup (inputOf u ![1, 1, 0])
  -- every exact operation about the origin is recorded, with its images first
  have hrec : ∀ W same, Exact u.lattice 0 1 W → ExactMap (inputOf u ![1, 1, 0]) 0 1 W 0 same →
      ∃ r ∈ recorded (inputOf u ![1, 1, 0]) 0 1 2, r.1 = W ∧ firstImages r = same := by
    intro W same hW hs
    obtain ⟨trs, h1, h2⟩ := C71_symmorphic_partial (inputOf u ![1, 1, 0]) h.apart h.cond hne (by decide : (0 : Fin 3) ≠ 1) 2 (exact_cand h.reduced hW)
      (metricKept_of_exact hW) (mapsTo_of_exact hs)
    refine ⟨_, h1, rfl, ?_⟩
    have : firstImages (W, trs) = (List.range (inputOf u ![1, 1, 0]).sel.length).map fun a => same.getD a 0 := by
      unfold firstImages
      rw [List.headD_eq_head?_getD, List.head?_map, h2]; rfl
    rw [this]
    apply List.ext_getElem
    · simp [hs.1]
    · intro k k1 k2
      simp [List.getD_eq_getElem?_getD, List.getElem?_eq_getElem k2]
  have hall : ∀ r ∈ recorded (inputOf u ![1, 1, 0]) 0 1 2, GoodOp u.lattice r.1 ∧ EnlargeFit n 0 1 r.1 ∧
      ExactMap (inputOf u ![1, 1, 0]) 0 1 r.1 0 (firstImages r) := by
    rintro ⟨W, trs⟩ hr
    obtain ⟨c1, c2, c3, c4⟩ := C69_recorded_maps (inputOf u ![1, 1, 0]) h.apart (by decide : (0 : Fin 3) ≠ 1) 2 hr
    obtain ⟨⟨w, img⟩, hw⟩ := List.exists_mem_of_ne_nil _ c3
    obtain ⟨g1, g2, same, g3⟩ := h.exact W c1 c2 ⟨w, _, (c4 w img hw).2⟩
    obtain ⟨r', h1, h2, h3⟩ := hrec W same g1.1 g3
    have : r' = (W, trs) := List.inj_on_of_nodup_map hnd h1 hr h2
    subst this
    refine ⟨g1, g2, ?_⟩
    rw [h3]; exact g3
  have honeE : Exact u.lattice 0 1 SymDisp.one := by
    unfold Exact
    have : SymDisp.one.mat.map (fun n : ℤ => (n : ℝ)) = 1 := by
      ext r c; fin_cases r <;> fin_cases c <;> simp [SymDisp.one, Op.mat]
    rw [this]; simp
  have hone : SymDisp.one ∈ (recorded (inputOf u ![1, 1, 0]) 0 1 2).map Prod.fst := by
    obtain ⟨r, h1, h2, -⟩ := hrec SymDisp.one (List.range sel.length) honeE ⟨by rw [hsel]; simp, fun a ha => by
      rw [hsel] at ha
      rw [List.getD_eq_getElem?_getD, List.getElem?_range ha]
      refine ⟨by rw [hsel]; exact ha, rfl, 0, fun r => ?_⟩
      unfold applyOp SymDisp.one
      fin_cases r <;> simp⟩
    exact List.mem_map.2 ⟨r, h1, h2⟩
  have hclosed : ∀ V ∈ (recorded (inputOf u ![1, 1, 0]) 0 1 2).map Prod.fst, ∀ W ∈ (recorded (inputOf u ![1, 1, 0]) 0 1 2).map Prod.fst,
      SymDisp.comp V W ∈ (recorded (inputOf u ![1, 1, 0]) 0 1 2).map Prod.fst := by
    intro V hV W hW
    obtain ⟨r1, m1, rfl⟩ := List.mem_map.1 hV
    obtain ⟨r2, m2, rfl⟩ := List.mem_map.1 hW
    obtain ⟨a1, -, a2⟩ := hall r1 m1
    obtain ⟨b1, -, b2⟩ := hall r2 m2
    have hc := exact_comp a2 b2
    have h0 : applyOp 0 1 r1.1 (0 : V3 ℝ) 0 = 0 := by funext r; unfold applyOp; fin_cases r <;> simp
    rw [h0] at hc
    obtain ⟨r, h1, h2, -⟩ := hrec _ _ (exact_comp_metric a1.1 b1.1) hc
    exact List.mem_map.2 ⟨r, h1, h2⟩
  have himages : ImagesCompose u sel := by
    intro r1 m1 r2 m2 r hr e a ha
    obtain ⟨-, -, a2⟩ := hall r1 m1
    obtain ⟨-, -, b2⟩ := hall r2 m2
    obtain ⟨-, -, c2⟩ := hall r hr
    have hc := exact_comp a2 b2
    have h0 : applyOp 0 1 r1.1 (0 : V3 ℝ) 0 = 0 := by funext r; unfold applyOp; fin_cases r <;> simp
    rw [h0, ← e] at hc
    have ha' : a < (inputOf u ![1, 1, 0]).sel.length := by rw [hsel]; exact ha
    obtain ⟨p1, p2, p3⟩ := c2.2 a ha'
    obtain ⟨q1, q2, q3⟩ := hc.2 a ha'
    have := h.apart _ p1 _ q1 (p2.trans q2.symm) (nearMod_of_sameMod (by norm_num) (sameMod_trans (sameMod_symm p3) q3))
    rw [this, List.getD_eq_getElem?_getD, List.getElem?_map, List.getElem?_range ha']
    rfl
  refine ⟨h.super, h.nodup, h.nonempty, h.apart, h.cond, h.slab, ?_, fun r hr => ⟨(hall r hr).1, (hall r hr).2.1, 0, (hall r hr).2.2⟩, hone, hclosed, himages⟩
  obtain ⟨name, hn, -⟩ := C72_search (inputOf u ![1, 1, 0]) 0 1 2 (by change axes ![1, 1, 0] = [0, 1]; decide)
    (by change ((List.finRange 3).filter (fun k => (![1, 1, 0] : Fin 3 → ℤ) k = 0)).head? = some 2; decide) (by
      obtain ⟨⟨junk', s0, hg, -, -⟩, -, -, -⟩ := h.super
      obtain ⟨i, hi⟩ := List.exists_mem_of_ne_nil _ h.nonempty
      have := h.super.valid i hi
      have hl := hg.types
      intro hnil
      have hnil' : u.atomType = [] := hnil
      rw [hnil'] at hl; simp at hl; omega)
    ⟨hnd, fun W hW => by
      obtain ⟨r, hr, rfl⟩ := List.mem_map.1 hW
      exact exact_cand h.reduced (hall r hr).1.1, by intro e; rw [e] at hone; simp at hone, fun V hV W hW =>
      ⟨_, hclosed V hV W hW, comp_mat V W⟩⟩
  exact ⟨_, name, hn⟩

/-- **C86**, in terms of the crystal alone: the hypotheses do not mention what the program found. -/
theorem C86_symmorphic_partial (h : SymmorphicCrystal u s sel n) {Φ : ℕ → Fin 3 → ℕ → Fin 3 → ℝ} (hΦ : Symmetric s Φ) (F0 : Rows ℝ) {d : ℝ} (hd : d ≠ 0)
    (junkCols : ℕ → Rows ℝ) (junk : FC ℝ) :
    ∃ req der s' files fc, symPlan u s ![1, 1, 0] = some (.ok (req, der)) ∧
      writeDisplaceCell s sel (numImages n) d ![1, 1, 0] true (.ok (req.map fun q => (numImages n * sel.getD q.idx 0, calcDirs q))) = .ok (s', files) ∧
      setSym d (superRow s) junkCols junk req der (files.map fun f => harmonicForces Φ F0 s f.2) = .ok fc ∧
      ∀ a < sel.length, ∀ t < superN s, ∀ x y : Fin 3, fc (3 * superRow s t + x) (3 * a + y) = Φ (superRow s t) x (numImages n * sel.getD a 0) y :=
  C86_symmetry_end_to_end_partial (symmorphic_exact h) hΦ F0 hd junkCols junk
end main

/-! ### A crystal that meets the hypotheses -/

/-- A rectangular cell with two equal atoms that are images of each other under the mirror. -/
def rectCell : Cell ℝ where
  lattice := !![3, 0, 0; 0, 4, 0; 0, 0, 20]
  atomType := ["C".toList, "C".toList]
  numAtom := [2]
  selective := false
  coordinate := .cartesian
  cart := [![3 / 5, 0, 1], ![-3 / 5, 0, 1]]
  atomTrue := some [0, 1]
  xyzTrue := some [0, 0, 0, 1, 1, 1]

theorem rect_inv : rectCell.lattice⁻¹ = !![1 / 3, 0, 0; 0, 1 / 4, 0; 0, 0, 1 / 20] := by
  apply Matrix.inv_eq_right_inv
  ext r c; fin_cases r <;> fin_cases c <;> simp [rectCell, Matrix.mul_apply, Fin.sum_univ_three]

private theorem rect_pos0 : selPos (inputOf rectCell ![1, 1, 0]) 0 = ![1 / 5, 0, 1 / 20] := by
  have : selPos (inputOf rectCell ![1, 1, 0]) 0 = Matrix.vecMul ![3 / 5, 0, 1] rectCell.lattice⁻¹ := rfl
  rw [this, rect_inv]
  funext r; fin_cases r <;> simp [Matrix.vecMul, dotProduct, Fin.sum_univ_three] <;> norm_num

private theorem rect_pos1 : selPos (inputOf rectCell ![1, 1, 0]) 1 = ![-1 / 5, 0, 1 / 20] := by
  have : selPos (inputOf rectCell ![1, 1, 0]) 1 = Matrix.vecMul ![-3 / 5, 0, 1] rectCell.lattice⁻¹ := rfl
  rw [this, rect_inv]
  funext r; fin_cases r <;> simp [Matrix.vecMul, dotProduct, Fin.sum_univ_three] <;> norm_num

private theorem rect_apart : Apart (inputOf rectCell ![1, 1, 0]) := by
  have key : ∀ q : ℝ, (q = 2 / 5 ∨ q = -2 / 5) → ∀ m : ℤ, ¬ |3 * (q - m)| ≤ 2 / 10 ^ 4 := by
    intro q hq m h
    obtain ⟨h1, h2⟩ := abs_le.1 h
    rcases hq with rfl | rfl
    · have a1 : (0 : ℝ) < m := by linarith
      have a2 : (m : ℝ) < 1 := by linarith
      have a1' : (0 : ℤ) < m := by exact_mod_cast a1
      have a2' : m < 1 := by exact_mod_cast a2
      omega
    · have a1 : (-1 : ℝ) < m := by linarith
      have a2 : (m : ℝ) < 0 := by linarith
      have a1' : (-1 : ℤ) < m := by exact_mod_cast a1
      have a2' : m < 0 := by exact_mod_cast a2
      omega
  intro t ht v hv _ ⟨m, hm⟩
  have h1 : t < 2 := ht
  have h2 : v < 2 := hv
  have h0 := hm 0
  interval_cases t <;> interval_cases v
  · rfl
  · exfalso
    rw [rect_pos0, rect_pos1] at h0
    refine key (2 / 5) (Or.inl rfl) (m 0) (le_of_eq_of_le (congrArg abs ?_) h0)
    simp [inputOf, rectCell, Matrix.vecMul, dotProduct, Fin.sum_univ_three]; ring
  · exfalso
    rw [rect_pos0, rect_pos1] at h0
    refine key (-2 / 5) (Or.inr rfl) (m 0) (le_of_eq_of_le (congrArg abs ?_) h0)
    simp [inputOf, rectCell, Matrix.vecMul, dotProduct, Fin.sum_univ_three]; ring
  · rfl

theorem rect_super : ∃ s, IsSuperOf rectCell s [0, 1] ![2, 1, 1] ![1, 1, 0] := by
  have hg : GoodCall (fun m => List.replicate m (0 : V3 ℝ)) rectCell ![2, 1, 1] ![1, 1, 0] :=
    ⟨fun m => by simp, rfl, fun i => by fin_cases i <;> simp, fun i hi => by fin_cases i <;> simp at hi ⊢⟩
  obtain ⟨s0, e, -⟩ := C06_supercell_positions hg
  exact ⟨_, ⟨_, s0, hg, e, rfl⟩, rfl, by simp [rectCell], by simp [rectCell, Matrix.det_fin_three]⟩

theorem rect_metric : planeMetric rectCell.lattice 0 1 = !![9, 0; 0, 16] := by
  ext r c; fin_cases r <;> fin_cases c <;> simp [planeMetric, rectCell] <;> norm_num

theorem rect_ops : ∀ W ∈ candidates, MetricKept (planeMetric rectCell.lattice 0 1) W → W.b = 0 ∧ W.c = 0 := by
  intro W hW hk
  rw [rect_metric] at hk
  have h00 := hk 0 0
  have h11 := hk 1 1
  have key : ∀ W ∈ candidates, (W.b = 0 ∧ W.c = 0) ∨ (9 * W.a ^ 2 + 16 * W.c ^ 2 ≠ 9 ∧ 9 * W.a ^ 2 + 16 * W.c ^ 2 ≤ 25) ∨
    (9 * W.b ^ 2 + 16 * W.d ^ 2 ≠ 16 ∧ 9 * W.b ^ 2 + 16 * W.d ^ 2 ≤ 25) := by decide
  have close_int : ∀ g v : ℤ, g ≠ v → 0 ≤ v → v ≤ 25 → ¬ |(g : ℝ) - v| ≤ 1 / 10 ^ 6 + 1 / 10 ^ 5 * |(v : ℝ)| := by
    intro g v hne h0 h25 h
    have h1 : (1 : ℝ) ≤ |(g : ℝ) - v| := by
      have : 1 ≤ |g - v| := Int.one_le_abs (sub_ne_zero.2 hne)
      exact_mod_cast this
    have h2 : |(v : ℝ)| ≤ 25 := by
      rw [abs_of_nonneg (by exact_mod_cast h0)]; exact_mod_cast h25
    linarith
  rcases key W hW with h | ⟨h1, h2⟩ | ⟨h1, h2⟩
  · exact h
  · exfalso
    refine close_int 9 (9 * W.a ^ 2 + 16 * W.c ^ 2) (Ne.symm h1) (by positivity) h2 ?_
    have e : ((W.mat.map (fun n : ℤ => (n : ℝ))).transpose * !![9, 0; 0, 16] * W.mat.map (fun n : ℤ => (n : ℝ)) : Matrix (Fin 2) (Fin 2) ℝ) 0 0 = (((9 * W.a ^ 2 + 16 * W.c ^ 2 : ℤ) : ℝ) : ℝ) := by
      simp [Op.mat, Matrix.mul_apply, Fin.sum_univ_two]; ring
    rw [e] at h00
    simpa using h00
  · exfalso
    refine close_int 16 (9 * W.b ^ 2 + 16 * W.d ^ 2) (Ne.symm h1) (by positivity) h2 ?_
    have e : ((W.mat.map (fun n : ℤ => (n : ℝ))).transpose * !![9, 0; 0, 16] * W.mat.map (fun n : ℤ => (n : ℝ)) : Matrix (Fin 2) (Fin 2) ℝ) 1 1 = (((9 * W.b ^ 2 + 16 * W.d ^ 2 : ℤ) : ℝ) : ℝ) := by
      simp [Op.mat, Matrix.mul_apply, Fin.sum_univ_two]; ring
    rw [e] at h11
    simpa using h11

theorem rect_slab : Slab rectCell.lattice 0 1 2 := by
  constructor <;> simp [rectCell, Matrix.det_fin_three]

theorem rect_crystal {s : Cell ℝ} (hs : IsSuperOf rectCell s [0, 1] ![2, 1, 1] ![1, 1, 0]) : SymmorphicCrystal rectCell s [0, 1] ![2, 1, 1] := by
  refine ⟨hs, by simp, by simp, rect_apart, ?_, rect_slab, ?_, ?_⟩
  · refine ⟨!![1 / 3, 0, 0; 0, 1 / 4, 0; 0, 0, 1 / 20], ?_, fun k => ?_⟩
    · ext r c
      fin_cases r <;> fin_cases c <;> simp [rectCell, Matrix.mul_apply, Fin.sum_univ_three]
    · fin_cases k <;> simp [Fin.sum_univ_three] <;> norm_num
  · unfold Reduced metric
    simp [rectCell]; norm_num
  · intro W hW hk _
    obtain ⟨hb, hc⟩ := rect_ops W hW hk
    have key : ∀ W ∈ candidates, W.b = 0 → W.c = 0 → (W.a = 1 ∨ W.a = -1) ∧ (W.d = 1 ∨ W.d = -1) := by decide
    obtain ⟨ha, hd⟩ := key W hW hb hc
    refine ⟨⟨?_, Or.inr ⟨hb, hc⟩⟩, Or.inr ⟨hb, hc⟩, if W.a = 1 then [0, 1] else [1, 0], ?_⟩
    · unfold Exact
      rw [rect_metric]
      ext r c
      fin_cases r <;> fin_cases c <;> rcases ha with e | e <;> rcases hd with f | f <;> simp [Op.mat, Matrix.mul_apply, Fin.sum_univ_two, hb, hc, e, f]
    · refine ⟨by split <;> rfl, fun a hal => ?_⟩
      have h1 : a < 2 := hal
      interval_cases a
      · rcases ha with e | e
        · rw [if_pos e]
          refine ⟨by decide, rfl, 0, fun r => ?_⟩
          simp only [List.getD_cons_zero]
          rw [rect_pos0]
          fin_cases r <;> rcases hd with f | f <;> simp [applyOp, hb, hc, e, f]
        · rw [if_neg (by rw [e]; decide)]
          refine ⟨by decide, rfl, 0, fun r => ?_⟩
          simp only [List.getD_cons_zero]
          rw [rect_pos0, rect_pos1]
          fin_cases r <;> rcases hd with f | f <;> simp [applyOp, hb, hc, e, f] <;> norm_num
      · rcases ha with e | e
        · rw [if_pos e]
          refine ⟨by decide, rfl, 0, fun r => ?_⟩
          simp only [List.getD_cons_succ, List.getD_cons_zero]
          rw [rect_pos1]
          fin_cases r <;> rcases hd with f | f <;> simp [applyOp, hb, hc, e, f]
        · rw [if_neg (by rw [e]; decide)]
          refine ⟨by decide, rfl, 0, fun r => ?_⟩
          simp only [List.getD_cons_succ, List.getD_cons_zero]
          rw [rect_pos0, rect_pos1]
          fin_cases r <;> rcases hd with f | f <;> simp [applyOp, hb, hc, e, f] <;> norm_num

/-- Force constants that couple all atoms of the super cell in the same way have every symmetry. -/
theorem rect_symmetric {s : Cell ℝ} (hs : IsSuperOf rectCell s [0, 1] ![2, 1, 1] ![1, 1, 0]) {Φ : ℕ → Fin 3 → ℕ → Fin 3 → ℝ}
    (hΦ : ∀ t < superN s, ∀ t' < superN s, ∀ x y, Φ (superRow s t) x (superRow s t') y = if x = y then (if superRow s t = superRow s t' then 3 else -1) else 0) : Symmetric s Φ := by
  have he := symmorphic_exact (rect_crystal hs)
  rintro Q τ σ ⟨-, -, hinj, hmap⟩ t ht t' ht'
  have hN : superN s = [0, 1].length * numImages ![2, 1, 1] := by
    obtain ⟨-, -, ⟨at', hat, hatl, -⟩, -⟩ := super_selected hs
    rw [superN, hat]; exact hatl
  have hb : ∀ t < superN s, ∀ t' < superN s, blk Φ (superRow s t) (superRow s t') = (if superRow s t = superRow s t' then (3 : ℝ) else -1) • (1 : M3 ℝ) := by
    intro t ht t' ht'
    ext x y
    simp only [blk, Matrix.smul_apply, Matrix.one_apply, smul_eq_mul]
    rw [hΦ t ht t' ht']
    split <;> simp
  rw [hb _ (hmap t ht).1 _ (hmap t' ht').1, hb t ht t' ht']
  have : (superRow s (σ t) = superRow s (σ t')) ↔ (superRow s t = superRow s t') := by
    constructor
    · intro e
      have := superRow_inj he _ (by rw [← hN]; exact (hmap t ht).1) _ (by rw [← hN]; exact (hmap t' ht').1) e
      rw [hinj t ht t' ht' this]
    · intro e
      rw [superRow_inj he t (by rw [← hN]; exact ht) t' (by rw [← hN]; exact ht') e]
  simp only [this]
  simp

/-- The hypotheses of C86: two mirror-related atoms in a rectangular cell, enlargement 2 1 1, and force constants that couple all atoms. -/
example : ∃ s, SymmorphicCrystal rectCell s [0, 1] ![2, 1, 1] ∧ ExactCrystal rectCell s [0, 1] ![2, 1, 1] ∧
    ∃ Φ : ℕ → Fin 3 → ℕ → Fin 3 → ℝ, Symmetric s Φ ∧ Φ 0 0 1 0 = -1 ∧ Φ 0 0 0 0 = 3 := by
  obtain ⟨s, hs⟩ := rect_super
  have hc := rect_crystal hs
  exact ⟨s, hc, symmorphic_exact hc, fun r x r' y => if x = y then (if r = r' then 3 else -1) else 0, rect_symmetric hs fun t _ t' _ x y => rfl, by simp, by simp⟩

end
end Interphon.Props
