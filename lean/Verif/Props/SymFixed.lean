import Verif.Props.SymEnd

/-!
# Symmetry reduction with fixed atoms: C86 refuted
-/

namespace Interphon.Props
open Py Interphon Interphon.Symmetry Interphon.SymDisp Interphon.SymPlan Interphon.SuperCell Interphon.ForceConstant Interphon.PreProcess
noncomputable section

/-! ### Specification: symmetries of the whole structure -/

/-- The isometry `x ↦ Q x + τ` is a symmetry of the periodic structure made of *all* atoms (rows) of the cell, selected or fixed: its linear part maps
lattice vectors to lattice vectors, and it maps the atoms one to one to atoms of the same type, `r` to `σ r`, up to lattice vectors. -/
def IsFullSymmetry (s : Cell ℝ) (Q : M3 ℝ) (τ : V3 ℝ) (σ : ℕ → ℕ) : Prop := Q.transpose * Q = 1 ∧
  (∀ m : Fin 3 → ℤ, ∃ m' : Fin 3 → ℤ, Q.mulVec (Matrix.vecMul (fun i => (m i : ℝ)) s.lattice) = Matrix.vecMul (fun i => (m' i : ℝ)) s.lattice) ∧
  (∀ r < s.cart.length, ∀ r' < s.cart.length, σ r = σ r' → r = r') ∧
  ∀ r < s.cart.length, σ r < s.cart.length ∧ s.atomType.getD (σ r) [] = s.atomType.getD r [] ∧
    ∃ m : Fin 3 → ℤ, Q.mulVec (s.cart.getD r 0) + τ = s.cart.getD (σ r) 0 + Matrix.vecMul (fun i => (m i : ℝ)) s.lattice

/-- The force constants have every symmetry of the structure. -/
def FullSymmetric (s : Cell ℝ) (Φ : ℕ → Fin 3 → ℕ → Fin 3 → ℝ) : Prop := ∀ Q τ σ, IsFullSymmetry s Q τ σ →
  ∀ r < s.cart.length, ∀ r' < s.cart.length, blk Φ (σ r) (σ r') * Q = Q * blk Φ r r'

/-! ### The crystal -/

/-- A rectangular cell with a free atom `A` at the origin and a fixed atom `B` in a general position. -/
def fixedRect : Cell ℝ where
  lattice := rectCell.lattice
  atomType := ["A".toList, "B".toList]
  numAtom := [1, 1]
  selective := true
  coordinate := .cartesian
  cart := [![0, 0, 0], ![3 / 4, 1, 5]]
  atomTrue := some [0]
  xyzTrue := some [0, 0, 0]

private theorem fr_super : ∃ s, IsSuperOf fixedRect s [0] ![1, 1, 1] ![1, 1, 0] ∧ s.cart = fixedRect.cart ∧ s.atomType = fixedRect.atomType ∧
    s.lattice = fixedRect.lattice ∧ s.atomTrue = some [0] := by
  have hg : GoodCall (fun m => List.replicate m (0 : V3 ℝ)) fixedRect ![1, 1, 1] ![1, 1, 0] :=
    ⟨fun m => by simp, rfl, fun i => by fin_cases i <;> simp, fun i hi => by fin_cases i <;> simp at hi ⊢⟩
  obtain ⟨s0, e, hl, hp⟩ := C06_supercell_positions hg
  obtain ⟨-, htl, ht, -, -, hlat⟩ := C07_supercell_counts_types hg e
  refine ⟨_, ⟨⟨_, s0, hg, e, rfl⟩, rfl, by simp [fixedRect], by simp [fixedRect, rectCell, Matrix.det_fin_three]⟩, ?_, ?_, ?_, rfl⟩
  · show s0.cart = _
    have hl2 : s0.cart.length = 2 := by rw [hl]; rfl
    apply List.ext_getElem?
    intro i
    rcases Nat.lt_or_ge i 2 with hi | hi
    · have : ∃ v, fixedRect.cart[i]? = some v := by interval_cases i <;> exact ⟨_, rfl⟩
      obtain ⟨v, hv⟩ := this
      have := hp i v hv 0 0 0 (by simp) (by simp) (by simp)
      simp at this
      rw [hv, this]
      congr 1
      funext c
      simp [translate]
    · rw [List.getElem?_eq_none (by omega), List.getElem?_eq_none (by simpa [fixedRect] using hi)]
  · show s0.atomType = _
    have hl2 : s0.atomType.length = 2 := by rw [htl, hl]; rfl
    apply List.ext_getElem?
    intro i
    rcases Nat.lt_or_ge i 2 with hi | hi
    · have : ∃ v, fixedRect.atomType[i]? = some v := by interval_cases i <;> exact ⟨_, rfl⟩
      obtain ⟨v, hv⟩ := this
      have := ht i 0 v (by simp) hv
      simp at this
      rw [hv, this]
    · rw [List.getElem?_eq_none (by omega), List.getElem?_eq_none (by simpa [fixedRect] using hi)]
  · show s0.lattice = _
    ext i j
    rw [hlat]
    fin_cases i <;> simp

private theorem fr_pos : selPos (inputOf fixedRect ![1, 1, 0]) 0 = 0 := by
  have : selPos (inputOf fixedRect ![1, 1, 0]) 0 = Matrix.vecMul ![0, 0, 0] rectCell.lattice⁻¹ := rfl
  rw [this]
  funext r; fin_cases r <;> simp [Matrix.vecMul, dotProduct, Fin.sum_univ_three]

private theorem diag_cands : ∀ W ∈ candidates, W.b = 0 → W.c = 0 → (W.a = 1 ∨ W.a = -1) ∧ (W.d = 1 ∨ W.d = -1) := by decide

private theorem fr_exactMap (W : Op) (hb : W.b = 0) (hc : W.c = 0) : ExactMap (inputOf fixedRect ![1, 1, 0]) 0 1 W 0 [0] := by
  refine ⟨rfl, fun a hal => ?_⟩
  have h1 : a < 1 := hal
  interval_cases a
  refine ⟨by decide, rfl, 0, fun r => ?_⟩
  simp only [List.getD_cons_zero]
  rw [fr_pos]
  fin_cases r <;> simp [applyOp, hb, hc]

private theorem fr_good {W : Op} (hW : W ∈ candidates) (hb : W.b = 0) (hc : W.c = 0) : GoodOp fixedRect.lattice W := by
  obtain ⟨ha, hd⟩ := diag_cands W hW hb hc
  refine ⟨?_, Or.inr ⟨hb, hc⟩⟩
  unfold Exact
  rw [show planeMetric fixedRect.lattice 0 1 = !![9, 0; 0, 16] from rect_metric]
  ext r c
  fin_cases r <;> fin_cases c <;> rcases ha with e | e <;> rcases hd with f | f <;> simp [Op.mat, Matrix.mul_apply, Fin.sum_univ_two, hb, hc, e, f]

private theorem fr_crystal {s : Cell ℝ} (hs : IsSuperOf fixedRect s [0] ![1, 1, 1] ![1, 1, 0]) : SymmorphicCrystal fixedRect s [0] ![1, 1, 1] := by
  refine ⟨hs, by simp, by simp, ?_, ?_, rect_slab, ?_, ?_⟩
  · intro t ht v hv _ _
    have h1 : t < 1 := ht
    have h2 : v < 1 := hv
    omega
  · refine ⟨!![1 / 3, 0, 0; 0, 1 / 4, 0; 0, 0, 1 / 20], ?_, fun k => ?_⟩
    · ext r c
      fin_cases r <;> fin_cases c <;> simp [fixedRect, rectCell, Matrix.mul_apply, Fin.sum_univ_three]
    · fin_cases k <;> simp [Fin.sum_univ_three] <;> norm_num
  · unfold Reduced metric
    simp [fixedRect, rectCell]; norm_num
  · intro W hW hk _
    obtain ⟨hb, hc⟩ := rect_ops W hW hk
    exact ⟨fr_good hW hb hc, Or.inr ⟨hb, hc⟩, [0], fr_exactMap W hb hc⟩

/-- The structure with its fixed atom has no symmetry besides the identity (and lattice translations). -/
private theorem fr_no_symmetry {s : Cell ℝ} (hc : s.cart = fixedRect.cart) (ht : s.atomType = fixedRect.atomType) (hL : s.lattice = fixedRect.lattice)
    {Q : M3 ℝ} {τ : V3 ℝ} {σ : ℕ → ℕ} (h : IsFullSymmetry s Q τ σ) : Q = 1 ∧ σ 0 = 0 ∧ σ 1 = 1 := by
  obtain ⟨hQ, hlat, -, hmap⟩ := h
  have hlen : s.cart.length = 2 := by rw [hc]; rfl
  have hσ0 : σ 0 = 0 := by
    obtain ⟨h1, h2, -⟩ := hmap 0 (by omega)
    rw [hlen] at h1
    rw [ht] at h2
    interval_cases hh : σ 0
    · rfl
    · exact absurd h2 (by decide)
  have hσ1 : σ 1 = 1 := by
    obtain ⟨h1, h2, -⟩ := hmap 1 (by omega)
    rw [hlen] at h1
    rw [ht] at h2
    interval_cases hh : σ 1
    · exact absurd h2 (by decide)
    · rfl
  refine ⟨?_, hσ0, hσ1⟩
  -- orthonormal columns
  have o : ∀ i j, Q 0 i * Q 0 j + Q 1 i * Q 1 j + Q 2 i * Q 2 j = (1 : M3 ℝ) i j := by
    intro i j
    rw [← hQ, Matrix.mul_apply, Fin.sum_univ_three]; rfl
  have col : ∀ k : Fin 3, ∃ m : Fin 3 → ℤ, ∀ r, Q r k * (![3, 4, 20] : Fin 3 → ℝ) k = (m r : ℝ) * (![3, 4, 20] : Fin 3 → ℝ) r := by
    intro k
    obtain ⟨m', hm⟩ := hlat (Pi.single k 1)
    refine ⟨m', fun r => ?_⟩
    have := congrFun hm r
    rw [hL] at this
    simp only [Matrix.mulVec, Matrix.vecMul, dotProduct, Fin.sum_univ_three, fixedRect, rectCell] at this
    fin_cases k <;> fin_cases r <;> simpa using this
  -- first column
  have c0 : Q 1 0 = 0 ∧ Q 2 0 = 0 ∧ (Q 0 0 = 1 ∨ Q 0 0 = -1) := by
    obtain ⟨m, hm⟩ := col 0
    have h0 := hm 0
    have h1 := hm 1
    have h2 := hm 2
    simp at h0 h1 h2
    have hn := o 0 0
    simp at hn
    have e : (9 * m 0 ^ 2 + 16 * m 1 ^ 2 + 400 * m 2 ^ 2 : ℝ) = 9 := by
      have e0 : Q 0 0 = m 0 := by linarith
      have e1 : Q 1 0 = m 1 * 4 / 3 := by linarith
      have e2 : Q 2 0 = m 2 * 20 / 3 := by linarith
      rw [e0, e1, e2] at hn
      nlinarith
    have e' : 9 * m 0 ^ 2 + 16 * m 1 ^ 2 + 400 * m 2 ^ 2 = 9 := by exact_mod_cast e
    have z2 : m 2 = 0 := by
      by_contra hne
      have : 1 ≤ m 2 ^ 2 := by have := sq_pos_of_ne_zero hne; omega
      nlinarith [sq_nonneg (m 0), sq_nonneg (m 1)]
    have z1 : m 1 = 0 := by
      by_contra hne
      have : 1 ≤ m 1 ^ 2 := by have := sq_pos_of_ne_zero hne; omega
      nlinarith [sq_nonneg (m 0), sq_nonneg (m 2)]
    rw [z1] at h1
    rw [z2] at h2
    have q1 : Q 1 0 = 0 := by simpa using h1
    have q2 : Q 2 0 = 0 := by simpa using h2
    refine ⟨q1, q2, ?_⟩
    rw [q1, q2] at hn
    exact mul_self_eq_one_iff.1 (by linarith)
  have c1 : Q 0 1 = 0 ∧ Q 2 1 = 0 ∧ (Q 1 1 = 1 ∨ Q 1 1 = -1) := by
    obtain ⟨m, hm⟩ := col 1
    have h2 := hm 2
    simp at h2
    have hn := o 1 1
    have h01 := o 0 1
    simp at hn h01
    have q0 : Q 0 1 = 0 := by
      rw [c0.1, c0.2.1] at h01
      rcases c0.2.2 with e | e <;> rw [e] at h01 <;> linarith
    have z2 : m 2 = 0 := by
      by_contra hne
      have : 1 ≤ m 2 ^ 2 := by have := sq_pos_of_ne_zero hne; omega
      have h' : (1 : ℝ) ≤ (m 2 : ℝ) ^ 2 := by exact_mod_cast this
      have e2 : Q 2 1 = m 2 * 5 := by linarith
      rw [e2] at hn
      nlinarith [mul_self_nonneg (Q 0 1), mul_self_nonneg (Q 1 1)]
    rw [z2] at h2
    have q2 : Q 2 1 = 0 := by simpa using h2
    refine ⟨q0, q2, ?_⟩
    rw [q0, q2] at hn
    exact mul_self_eq_one_iff.1 (by linarith)
  have c2 : Q 0 2 = 0 ∧ Q 1 2 = 0 ∧ (Q 2 2 = 1 ∨ Q 2 2 = -1) := by
    have hn := o 2 2
    have h02 := o 0 2
    have h12 := o 1 2
    simp at hn h02 h12
    have q0 : Q 0 2 = 0 := by
      rw [c0.1, c0.2.1] at h02
      rcases c0.2.2 with e | e <;> rw [e] at h02 <;> linarith
    have q1 : Q 1 2 = 0 := by
      rw [c1.1, c1.2.1] at h12
      rcases c1.2.2 with e | e <;> rw [e] at h12 <;> linarith
    refine ⟨q0, q1, ?_⟩
    rw [q0, q1] at hn
    exact mul_self_eq_one_iff.1 (by linarith)
  -- positions
  obtain ⟨-, -, m, hm⟩ := hmap 0 (by omega)
  obtain ⟨-, -, m', hm'⟩ := hmap 1 (by omega)
  rw [hσ0, hc, hL] at hm
  rw [hσ1, hc, hL] at hm'
  have half : ∀ (q : ℝ) (e : ℝ) (z z' : ℤ), e ≠ 0 → (q = 1 ∨ q = -1) → q * (e / 4) + z * e = e / 4 + z' * e → q = 1 := by
    intro q e z z' he hq h
    rcases hq with rfl | rfl
    · rfl
    · exfalso
      have h2 : (-(1 : ℝ)) / 2 = z' - z := by
        have : (-(1 : ℝ)) / 2 * e = (z' - z) * e := by linarith
        exact mul_right_cancel₀ he this
      have h3 : (-1 : ℤ) = 2 * (z' - z) := by
        have : (-1 : ℝ) = 2 * (z' - z) := by linarith
        exact_mod_cast this
      omega
  have τv : ∀ r, τ r = (m r : ℝ) * (![3, 4, 20] : Fin 3 → ℝ) r := by
    intro r
    have := congrFun hm r
    simp only [Matrix.mulVec, Matrix.vecMul, dotProduct, Fin.sum_univ_three, fixedRect, rectCell, Pi.add_apply] at this
    fin_cases r <;> simpa using this
  have d0 : Q 0 0 = 1 := by
    have := congrFun hm' 0
    simp only [Matrix.mulVec, Matrix.vecMul, dotProduct, Fin.sum_univ_three, fixedRect, rectCell, Pi.add_apply, τv, c1.1, c2.1] at this
    exact half _ 3 (m 0) (m' 0) (by norm_num) c0.2.2 (by simpa using this)
  have d1 : Q 1 1 = 1 := by
    have := congrFun hm' 1
    simp only [Matrix.mulVec, Matrix.vecMul, dotProduct, Fin.sum_univ_three, fixedRect, rectCell, Pi.add_apply, τv, c0.1, c2.2.1] at this
    exact half _ 4 (m 1) (m' 1) (by norm_num) c1.2.2 (by norm_num; simpa using this)
  have d2 : Q 2 2 = 1 := by
    have := congrFun hm' 2
    simp only [Matrix.mulVec, Matrix.vecMul, dotProduct, Fin.sum_univ_three, fixedRect, rectCell, Pi.add_apply, τv, c0.2.1, c1.2.1] at this
    refine half _ 20 (m 2) (m' 2) (by norm_num) c2.2.2 ?_
    norm_num
    simpa using this
  ext r c
  fin_cases r <;> fin_cases c <;> simp [d0, d1, d2, c0.1, c0.2.1, c1.1, c1.2.1, c2.1, c2.2.1]

/-! ### What the plan asks for -/

private theorem reqPlan_inv {L : M3 ℝ} {i j : Fin 3} {ops : List Op} {same0 : List (List ℕ)} {tabs : List (List (List ℕ))} {a : ℕ} {q : ReqAtom ℝ}
    (h : reqPlan L i j ops same0 tabs a = some (.ok q)) : q.idx = a ∧
      ∃ l, independent L i j ops ((selfImages same0 a).map fun k => ops.getD k SymDisp.one) = some (.ok l) ∧ q.single = l.map (fun x => x.2.2) ∧
        q.additional = additional (l.map fun x => x.2.2) := by
  unfold reqPlan at h
  generalize independent L i j ops ((selfImages same0 a).map fun k => ops.getD k SymDisp.one) = z at h
  rcases z with _ | (e | l)
  · cases h
  · cases h
  · simp only [Option.some.injEq] at h
    generalize hos : (l.mapM fun q : ℕ × Op × V3 ℝ => (do
        let tk ← getE tabs q.1
        let t ← getE tk a
        pure (t, cartOp L (embed i j q.2.1)) : Run (List ℕ × M3 ℝ))) = os at h
    cases os with
    | error e => cases h
    | ok os =>
      cases h
      exact ⟨rfl, l, rfl, rfl, rfl⟩

private theorem reqPlans_inv {L : M3 ℝ} {i j : Fin 3} {ops : List Op} {same0 : List (List ℕ)} {tabs : List (List (List ℕ))} :
    ∀ {as : List ℕ} {qs : List (ReqAtom ℝ)}, reqPlans L i j ops same0 tabs as = some (.ok qs) →
      ∀ q ∈ qs, q.idx ∈ as ∧ reqPlan L i j ops same0 tabs q.idx = some (.ok q)
  | [], qs, h => by cases h; simp
  | a :: as, qs, h => by
    rw [reqPlans] at h
    generalize h1 : reqPlan L i j ops same0 tabs a = z1 at h
    generalize h2 : reqPlans L i j ops same0 tabs as = z2 at h
    rcases z1 with _ | (e | q0)
    · rcases z2 with _ | (e | l) <;> cases h
    · rcases z2 with _ | (e | l) <;> cases h
    · rcases z2 with _ | (e | l)
      · cases h
      · cases h
      · cases h
        intro q hq
        rcases List.mem_cons.1 hq with rfl | hq
        · have := (reqPlan_inv h1).1
          exact ⟨by simp [this], by rw [this]; exact h1⟩
        · obtain ⟨g1, g2⟩ := reqPlans_inv h2 q hq
          exact ⟨by simp [g1], g2⟩

private theorem cart_diag {W : Op} (hb : W.b = 0) (hc : W.c = 0) :
    (cartOp fixedRect.lattice (embed 0 1 W)).mulVec dir0 = ![W.a / Real.sqrt 2, 0, 1 / Real.sqrt 2] := by
  have e0 : edge fixedRect.lattice 0 = 3 := by
    rw [edge, show (∑ k, fixedRect.lattice 0 k ^ 2) = (3 : ℝ) ^ 2 by simp [fixedRect, rectCell, Fin.sum_univ_three]]
    exact Real.sqrt_sq (by norm_num)
  have e1 : edge fixedRect.lattice 1 = 4 := by
    rw [edge, show (∑ k, fixedRect.lattice 1 k ^ 2) = (4 : ℝ) ^ 2 by simp [fixedRect, rectCell, Fin.sum_univ_three]]
    exact Real.sqrt_sq (by norm_num)
  have e2 : edge fixedRect.lattice 2 = 20 := by
    rw [edge, show (∑ k, fixedRect.lattice 2 k ^ 2) = (20 : ℝ) ^ 2 by simp [fixedRect, rectCell, Fin.sum_univ_three]]
    exact Real.sqrt_sq (by norm_num)
  have hB : toCart fixedRect.lattice = 1 := by
    ext r c
    simp only [toCart]
    fin_cases c <;> fin_cases r <;> simp [e0, e1, e2] <;> simp [fixedRect, rectCell]
  unfold cartOp
  rw [hB]
  simp only [one_mul, inv_one, mul_one]
  funext r
  fin_cases r <;> simp [Matrix.mulVec, dotProduct, Fin.sum_univ_three, embed, dir0, hb, hc, div_eq_mul_inv]

private theorem sqrt2 : (1 / Real.sqrt 2) * (1 / Real.sqrt 2) = 1 / 2 := by
  rw [div_mul_div_comm, Real.mul_self_sqrt (by norm_num)]; norm_num

private theorem csDiff_mirror : csDiff ![((-1 : ℤ) : ℝ) / Real.sqrt 2, 0, 1 / Real.sqrt 2] ![((1 : ℤ) : ℝ) / Real.sqrt 2, 0, 1 / Real.sqrt 2] = 1 := by
  unfold csDiff
  have := sqrt2
  simp only [dotProduct, Fin.sum_univ_three, Matrix.cons_val_zero, Matrix.cons_val_one, Matrix.cons_val_two, Matrix.head_cons, Matrix.tail_cons, Matrix.cons_val]
  set a : ℝ := 1 / Real.sqrt 2 with ha
  have e1 : (((-1 : ℤ) : ℝ) / Real.sqrt 2) = -a := by rw [ha]; push_cast; ring
  have e2 : (((1 : ℤ) : ℝ) / Real.sqrt 2) = a := by rw [ha]; push_cast; ring
  rw [e1, e2]
  have : a * a = 1 / 2 := sqrt2
  linear_combination (4 * (a * a) + 2) * this

section
variable {s : Cell ℝ} (hs : IsSuperOf fixedRect s [0] ![1, 1, 1] ![1, 1, 0])
include hs

private theorem fr_ops : ∀ r ∈ recorded (inputOf fixedRect ![1, 1, 0]) 0 1 2, r.1 ∈ candidates ∧ r.1.b = 0 ∧ r.1.c = 0 ∧ (firstImages r).getD 0 0 = 0 := by
  intro r hr
  have hE := symmorphic_exact (fr_crystal hs)
  obtain ⟨hc, hm, -⟩ := C69_recorded_maps (inputOf fixedRect ![1, 1, 0]) hE.apart (by decide : (0 : Fin 3) ≠ 1) 2 (W := r.1) (trs := r.2) hr
  obtain ⟨hb, hc'⟩ := rect_ops r.1 hc hm
  obtain ⟨-, -, w, hex⟩ := hE.exactOps r hr
  have := (hex.2 0 (by decide)).1
  have h1 : (firstImages r).getD 0 0 < 1 := this
  exact ⟨hc, hb, hc', by omega⟩

private theorem fr_mirror : (⟨-1, 0, 0, 1⟩ : Op) ∈ (recorded (inputOf fixedRect ![1, 1, 0]) 0 1 2).map Prod.fst := by
  have hE := symmorphic_exact (fr_crystal hs)
  have hex := fr_exactMap ⟨-1, 0, 0, 1⟩ rfl rfl
  obtain ⟨trs, h1, -⟩ := C71_symmorphic_partial (inputOf fixedRect ![1, 1, 0]) hE.apart hE.cond (by decide) (by decide : (0 : Fin 3) ≠ 1) 2
    (W := ⟨-1, 0, 0, 1⟩) (by decide) (by
      rw [show planeMetric (inputOf fixedRect ![1, 1, 0]).lattice 0 1 = !![9, 0; 0, 16] from rect_metric]
      intro r c
      fin_cases r <;> fin_cases c <;> simp [Op.mat, Matrix.mul_apply, Fin.sum_univ_two] <;> norm_num) (mapsTo_of_exact hex)
  exact List.mem_map.2 ⟨_, h1, rfl⟩

/-- At most two directions are displaced, and they lie in a plane. -/
private theorem fr_plane {selfOps : List Op} (hself : selfOps = (recorded (inputOf fixedRect ![1, 1, 0]) 0 1 2).map Prod.fst) {l : List (ℕ × Op × V3 ℝ)}
    (hl : independent fixedRect.lattice 0 1 ((recorded (inputOf fixedRect ![1, 1, 0]) 0 1 2).map Prod.fst) selfOps = some (.ok l)) :
    ∃ w : V3 ℝ, w 0 ≠ 0 ∧ ∀ v ∈ (l.map fun x => x.2.2).getD 0 0 :: additional (l.map fun x => x.2.2), w ⬝ᵥ v = 0 := by
  have hE := symmorphic_exact (fr_crystal hs)
  set ops := (recorded (inputOf fixedRect ![1, 1, 0]) 0 1 2).map Prod.fst with hops
  subst hself
  have hgood : ∀ W ∈ ops, GoodOp fixedRect.lattice W := by
    intro W hW
    obtain ⟨r, hr, rfl⟩ := List.mem_map.1 hW
    exact (hE.exactOps r hr).1
  have hdiag : ∀ W ∈ ops, W ∈ candidates ∧ W.b = 0 ∧ W.c = 0 := by
    intro W hW
    obtain ⟨r, hr, rfl⟩ := List.mem_map.1 hW
    obtain ⟨h1, h2, h3, -⟩ := fr_ops hs r hr
    exact ⟨h1, h2, h3⟩
  have hne : ops ≠ [] := List.ne_nil_of_mem hE.one
  obtain ⟨l1, e1, -, hhead, -⟩ := C74_independent_partial rect_slab ops ops (· ∈ ops) (fun _ h => h) hgood hE.one (fun V W hV hW => hE.closed V hV W hW) (fun _ h => h) hne
  rw [show fixedRect.lattice = rectCell.lattice from rfl] at hl
  rw [hl] at e1; cases e1
  obtain ⟨l2, e2, hlen, hcov⟩ := C106_no_superfluous rect_slab ops ops (· ∈ ops) (fun _ h => h) hgood hE.one (fun V W hV hW => hE.closed V hV W hW) (fun _ h => h) hne
  rw [hl] at e2; cases e2
  have hd0 : dir0 = ![((1 : ℤ) : ℝ) / Real.sqrt 2, 0, 1 / Real.sqrt 2] := by simp [dir0]
  -- more than one direction is generated
  have h2 : 2 ≤ l.length := by
    rcases hcov with h | ⟨dirs, h1, h2, h3⟩
    · omega
    · by_contra hlt
      have hl1 : l.map (fun x => x.2.2) = [dir0] := by
        rcases l with _ | ⟨q, _ | ⟨q', l⟩⟩
        · simp at hhead
        · simpa using hhead
        · simp at hlt
      rw [hl1] at h3
      have hm := h1 _ (fr_mirror hs)
      rw [show cartOp rectCell.lattice = cartOp fixedRect.lattice from rfl, cart_diag rfl rfl] at hm
      set m : V3 ℝ := ![((-1 : ℤ) : ℝ) / Real.sqrt 2, 0, 1 / Real.sqrt 2] with hmd
      -- first occurrence of the mirrored direction
      have hex : ∃ i, dirs[i]? = some m := List.getElem?_of_mem hm
      classical
      have hi := Nat.find_spec hex
      rcases h3 _ _ hi with h | ⟨j, u, hj, hu, hc⟩
      · have h : m = dir0 := by simpa using h
        have := csDiff_mirror
        rw [← hd0, ← hmd, h] at this
        unfold csDiff at this
        linarith
      · obtain ⟨W, hW, rfl⟩ := h2 u (List.mem_of_getElem? hu)
        obtain ⟨hWc, hb, hc'⟩ := hdiag W hW
        rw [show cartOp rectCell.lattice = cartOp fixedRect.lattice from rfl, cart_diag hb hc'] at hc hu
        rcases (diag_cands W hWc hb hc').1 with e | e
        · rw [e, hmd, csDiff_mirror] at hc
          norm_num at hc
        · rw [e] at hu
          exact Nat.find_min hex hj hu
  have hfirst : (l.map fun x => x.2.2).getD 0 0 = dir0 := by
    cases hq : l.map (fun x => x.2.2) with
    | nil => rw [hq] at hhead; cases hhead
    | cons a t => rw [hq] at hhead; simpa using hhead
  rw [hfirst]
  set a : ℝ := 1 / Real.sqrt 2 with ha
  have hdir : dir0 = ![a, 0, a] := rfl
  have hadd : ∀ v ∈ additional (l.map fun x => x.2.2), ∃ e ∈ extra, additional (l.map fun x => x.2.2) = [e] := by
    intro v hv
    have hll : (l.map fun x => x.2.2).length = l.length := List.length_map _
    have h3 : (additional (l.map fun x => x.2.2)).length = 1 := by
      have := List.length_pos_of_mem hv
      omega
    have hl2 : l.length = 2 := by omega
    unfold additional at hv ⊢
    rw [hll, hl2] at hv ⊢
    simp only at hv ⊢
    rw [Option.mem_toList] at hv
    refine ⟨v, List.mem_of_find?_eq_some hv, ?_⟩
    rw [hv]; rfl
  cases hA : additional (l.map fun x => x.2.2) with
  | nil =>
    refine ⟨![1, 0, -1], by simp, fun v hv => ?_⟩
    simp only [List.mem_cons, List.not_mem_nil, or_false] at hv
    rw [hv, hdir]
    simp [dotProduct, Fin.sum_univ_three]
  | cons e rest =>
    rw [hA] at hadd
    obtain ⟨e', he', heq⟩ := hadd e (by simp)
    cases heq
    simp only [extra, List.mem_cons, List.not_mem_nil, or_false] at he'
    rcases he' with rfl | rfl
    · refine ⟨![1, 1, -1], by simp, fun v hv => ?_⟩
      simp only [List.mem_cons, List.not_mem_nil, or_false] at hv
      rcases hv with rfl | rfl
      · rw [hdir]; simp [dotProduct, Fin.sum_univ_three]
      · simp [dotProduct, Fin.sum_univ_three]
    · refine ⟨![1, -1, -1], by simp, fun v hv => ?_⟩
      simp only [List.mem_cons, List.not_mem_nil, or_false] at hv
      rcases hv with rfl | rfl
      · rw [hdir]; simp [dotProduct, Fin.sum_univ_three]
      · simp [dotProduct, Fin.sum_univ_three]

private theorem fr_self : ((selfImages (sameFirst (recorded (inputOf fixedRect ![1, 1, 0]) 0 1 2)) 0).map fun k =>
    ((recorded (inputOf fixedRect ![1, 1, 0]) 0 1 2).map Prod.fst).getD k SymDisp.one) = (recorded (inputOf fixedRect ![1, 1, 0]) 0 1 2).map Prod.fst := by
  have hr := fr_ops hs
  set rec := recorded (inputOf fixedRect ![1, 1, 0]) 0 1 2
  have e : selfImages (sameFirst rec) 0 = List.range rec.length := by
    unfold selfImages sameFirst
    rw [List.length_map, List.filter_eq_self]
    intro k hk
    rw [List.mem_range] at hk
    have := (hr rec[k] (List.getElem_mem hk)).2.2.2
    unfold firstImages at this
    simp only [decide_eq_true_eq]
    rw [List.getD_eq_getElem?_getD (l := rec.map _), List.getElem?_map, List.getElem?_eq_getElem hk]
    simpa using this
  rw [e]
  apply List.ext_getElem
  · simp
  · intro k h1 h2
    simp only [List.length_map] at h2
    simp [h2]

private theorem fr_plan {req : List (ReqAtom ℝ)} {der : List (Derived ℝ)} (h : symPlan fixedRect s ![1, 1, 0] = some (.ok (req, der))) :
    ∃ w : V3 ℝ, w 0 ≠ 0 ∧ ∀ q ∈ req, q.idx = 0 ∧ ∀ v ∈ calcDirs q, w ⬝ᵥ v = 0 := by
  have hE := symmorphic_exact (fr_crystal hs)
  obtain ⟨ops, name, hfound⟩ := hE.found
  have hops := search_found hfound
  rw [hops] at hfound
  have hself := fr_self hs
  have hlen : ∀ r ∈ recorded (inputOf fixedRect ![1, 1, 0]) 0 1 2, (firstImages r).length = (inputOf fixedRect ![1, 1, 0]).sel.length := by
    intro r hr
    obtain ⟨-, -, w, hex⟩ := hE.exactOps r hr
    exact hex.1
  have hpl := fun selfOps (e : selfOps = _) l hl => fr_plane hs (selfOps := selfOps) e (l := l) hl
  unfold symPlan at h
  have hi : (axes ![1, 1, 0]).getD 0 0 = (0 : Fin 3) := by decide
  have hj : (axes ![1, 1, 0]).getD 1 0 = (1 : Fin 3) := by decide
  simp only [hfound, hi, hj] at h
  generalize recorded (inputOf fixedRect ![1, 1, 0]) 0 1 2 = rec at *
  generalize hsi : searchImageAtom (sameFirst rec) (inputOf fixedRect ![1, 1, 0]).sel.length = si at h
  rcases si with e | ⟨pg, req0, der0⟩
  · cases h
  simp only at h
  generalize hrp : reqPlans fixedRect.lattice 0 1 (rec.map Prod.fst) (sameFirst rec) _ req0 = rp at h
  rcases rp with _ | (e | rs)
  · cases h
  · cases h
  · simp only [Option.some.injEq] at h
    generalize ((pg.zip der0).mapM fun t => derPlan fixedRect.lattice 0 1 (rec.map Prod.fst) (sameFirst rec) _ t.1 t.2) = ds at h
    cases ds with
    | error e => cases h
    | ok ds =>
      cases h
      have main : ∀ q ∈ req, q.idx = 0 ∧ ∃ l, independent fixedRect.lattice 0 1 (rec.map Prod.fst) ((selfImages (sameFirst rec) 0).map fun k =>
          (rec.map Prod.fst).getD k SymDisp.one) = some (.ok l) ∧ calcDirs q = (l.map fun x => x.2.2).getD 0 0 :: additional (l.map fun x => x.2.2) := by
        intro q hq
        obtain ⟨hmem, hq1⟩ := reqPlans_inv hrp q hq
        have hidx : q.idx = 0 := by
          obtain ⟨pg', req', der', e1, hperm, -⟩ := C73_partition (sameFirst rec) (inputOf fixedRect ![1, 1, 0]).sel.length (by
            intro same hsm
            obtain ⟨r, hr, rfl⟩ := List.mem_map.1 hsm
            exact hlen r hr)
          rw [hsi] at e1; cases e1
          have : q.idx ∈ List.range (inputOf fixedRect ![1, 1, 0]).sel.length := hperm.mem_iff.1 (by simp [hmem])
          have h1 : q.idx < 1 := List.mem_range.1 this
          omega
        obtain ⟨-, l, hl, h1, h2⟩ := reqPlan_inv hq1
        rw [hidx] at hl
        refine ⟨hidx, l, hl, ?_⟩
        unfold calcDirs
        rw [h1, h2]
      rcases req with _ | ⟨q0, rs⟩
      · exact ⟨![1, 0, 0], by simp, by simp⟩
      · obtain ⟨-, l0, hl0, -⟩ := main q0 (by simp)
        obtain ⟨w, hw, hv⟩ := hpl _ hself l0 hl0
        refine ⟨w, hw, fun q hq => ?_⟩
        obtain ⟨h1, l, hl, h2⟩ := main q hq
        rw [hl0] at hl; cases hl
        exact ⟨h1, by rw [h2]; exact hv⟩

end

/-- The force constants of a spring between the atoms `A` and `B` along `w`. -/
def springAB (w : V3 ℝ) : ℕ → Fin 3 → ℕ → Fin 3 → ℝ := fun r x r' y => (if r = r' then 1 else -1) * (w x * w y)

/-- The crystal of the counterexample: the force constants that come out are all zero, whereas the spring has a component along the first axis. -/
theorem fixed_core : ∃ s, IsSuperOf fixedRect s [0] ![1, 1, 1] ![1, 1, 0] ∧ s.cart = fixedRect.cart ∧
    ∀ (d : ℝ), d ≠ 0 → ∀ (F0 : Rows ℝ),
      ∃ w : V3 ℝ, w 0 ≠ 0 ∧ FullSymmetric s (springAB w) ∧ ∃ req der s' files, symPlan fixedRect s ![1, 1, 0] = some (.ok (req, der)) ∧
        writeDisplaceCell s [0] (numImages ![1, 1, 1]) d ![1, 1, 0] true (.ok (req.map fun q => (numImages ![1, 1, 1] * [0].getD q.idx 0, calcDirs q))) = .ok (s', files) ∧
        ∀ (junkCols : ℕ → Rows ℝ) (junk : FC ℝ), ∃ fc, setSym d (superRow s) junkCols junk req der (files.map fun f => harmonicForces (springAB w) F0 s f.2) = .ok fc ∧
          ∀ x y : Fin 3, fc x y = 0 := by
  obtain ⟨s, hs, hcart, htype, hlat, hat⟩ := fr_super
  refine ⟨s, hs, hcart, fun d hd F0 => ?_⟩
  have h0 : Symmetric s (fun _ _ _ _ => 0) := by
    intro Q τ σ _ t _ t' _
    have : ∀ r r', blk (fun _ _ _ _ => (0 : ℝ)) r r' = 0 := fun _ _ => rfl
    rw [this, this]; simp
  obtain ⟨req, der, s', files, -, hplan, hw, -, -⟩ := C86_symmorphic_partial (fr_crystal hs) h0 F0 hd (fun _ _ => 0) (fun _ _ => 0)
  have hrow : superRow s 0 = 0 := by unfold superRow; rw [hat]; rfl
  have hN : superN s = 1 := by unfold superN; rw [hat]; rfl
  obtain ⟨w, hw0, hq⟩ := fr_plan hs hplan
  have hlen : s.cart.length = 2 := by rw [hcart]; rfl
  refine ⟨w, hw0, ?_, req, der, s', files, hplan, hw, ?_⟩
  · intro Q τ σ hsym r hr r' hr'
    obtain ⟨rfl, e0, e1⟩ := fr_no_symmetry hcart htype hlat hsym
    have hσ : ∀ r < s.cart.length, σ r = r := by
      intro r hr
      rw [hlen] at hr
      interval_cases r <;> assumption
    rw [hσ r hr, hσ r' hr']; simp
  · have heq : (files.map fun f => harmonicForces (springAB w) F0 s f.2) = files.map fun f => harmonicForces (fun _ _ _ _ => 0) F0 s f.2 := by
      obtain ⟨s'', files', hw', hflen, hf⟩ := C15_displaced_files_sym s [0] (numImages ![1, 1, 1]) d ![1, 1, 0] (by decide)
        (req.map fun q => (numImages ![1, 1, 1] * [0].getD q.idx 0, calcDirs q)) (by
          intro x hx
          obtain ⟨q, hqm, rfl⟩ := List.mem_map.1 hx
          rw [(hq q hqm).1, hlen]; simp)
      rw [hw] at hw'; cases hw'
      apply List.map_congr_left
      intro f hfm
      set flat := (req.map fun q => (numImages ![1, 1, 1] * [0].getD q.idx 0, calcDirs q)).flatMap fun q => q.2.map fun v => (q.1, v) with hflat
      have hfl : files.length = 2 * flat.length := by rw [hflen, hflat, List.length_flatMap]; simp
      have hmem : ∀ (k row : ℕ) (v : V3 ℝ), flat[k]? = some (row, v) → row = 0 ∧ w ⬝ᵥ v = 0 := by
        intro k row v hk
        have := List.mem_of_getElem? hk
        rw [hflat] at this
        obtain ⟨x, hx, hv⟩ := List.mem_flatMap.1 this
        obtain ⟨q, hqm, rfl⟩ := List.mem_map.1 hx
        obtain ⟨v', hv', e⟩ := List.mem_map.1 hv
        cases e
        exact ⟨by rw [(hq q hqm).1]; simp, (hq q hqm).2 v hv'⟩
      have moved : ∀ (δ : V3 ℝ) (c : Cell ℝ), IsMoved s 0 δ c → w ⬝ᵥ δ = 0 → harmonicForces (springAB w) F0 s c = harmonicForces (fun _ _ _ _ => 0) F0 s c := by
        intro δ c hm h
        funext r x
        rw [harmonic_moved _ F0 s c 0 δ (by omega) hm, harmonic_moved _ F0 s c 0 δ (by omega) hm]
        congr 1
        simp only [dotProduct, Fin.sum_univ_three, springAB, zero_mul, add_zero] at h ⊢
        linear_combination ((if r = 0 then (1 : ℝ) else -1) * w x * (1 / 10 ^ 10)) * h
      obtain ⟨i, hi⟩ := List.getElem?_of_mem hfm
      have hil : i < 2 * flat.length := by rw [← hfl]; exact (List.getElem?_eq_some_iff.1 hi).1
      obtain ⟨k, hk⟩ : ∃ k, i = 2 * k ∨ i = 2 * k + 1 := ⟨i / 2, by omega⟩
      obtain ⟨⟨row, v⟩, hkv⟩ : ∃ x, flat[k]? = some x := ⟨_, List.getElem?_eq_getElem (by omega)⟩
      obtain ⟨rfl, hv⟩ := hmem k row v hkv
      obtain ⟨⟨c, h1, h2⟩, c', h3, h4⟩ := hf k 0 v hkv
      rcases hk with rfl | rfl
      · rw [hi] at h1; cases h1
        refine moved _ _ h2 ?_
        simp only [dotProduct, Fin.sum_univ_three] at hv ⊢
        linear_combination d * hv
      · rw [hi] at h3; cases h3
        refine moved _ _ h4 ?_
        simp only [dotProduct, Fin.sum_univ_three] at hv ⊢
        linear_combination -d * hv
    intro junkCols junk
    obtain ⟨req', der', s1', files', fc, hplan', hw', hset, hval⟩ := C86_symmorphic_partial (fr_crystal hs) h0 F0 hd junkCols junk
    rw [hplan] at hplan'
    cases hplan'
    rw [hw] at hw'
    cases hw'
    refine ⟨fc, by rw [heq]; exact hset, fun x y => ?_⟩
    have := hval 0 (by simp) 0 (by omega) x y
    simpa [hrow] using this

/-- **C86 is false of the code with fixed atoms.**  For `fixedRect` - a free atom at the origin of a rectangular cell, a fixed atom in a general position,
so that the structure has no symmetry at all - and some spring between the two atoms, all steps succeed, and the force constants that come out are wrong:
the search ignores the fixed atom, takes the mirror planes of the free atom alone for symmetries and asks for too few displacements. -/
theorem C86_fixed_atoms_refuted : ∃ s, IsSuperOf fixedRect s [0] ![1, 1, 1] ![1, 1, 0] ∧ s.cart = fixedRect.cart ∧
    ∀ (d : ℝ), d ≠ 0 → ∀ (F0 : Rows ℝ) (junkCols : ℕ → Rows ℝ) (junk : FC ℝ),
      ∃ w : V3 ℝ, FullSymmetric s (springAB w) ∧ ∃ req der s' files fc, symPlan fixedRect s ![1, 1, 0] = some (.ok (req, der)) ∧
        writeDisplaceCell s [0] (numImages ![1, 1, 1]) d ![1, 1, 0] true (.ok (req.map fun q => (numImages ![1, 1, 1] * [0].getD q.idx 0, calcDirs q))) = .ok (s', files) ∧
        setSym d (superRow s) junkCols junk req der (files.map fun f => harmonicForces (springAB w) F0 s f.2) = .ok fc ∧
        fc 0 0 ≠ springAB w 0 0 0 0 := by
  obtain ⟨s, hs, hcart, hall⟩ := fixed_core
  refine ⟨s, hs, hcart, fun d hd F0 junkCols junk => ?_⟩
  obtain ⟨w, hw0, hfull, req, der, s', files, hplan, hw, hset⟩ := hall d hd F0
  obtain ⟨fc, e, hz⟩ := hset junkCols junk
  refine ⟨w, hfull, req, der, s', files, fc, hplan, hw, e, ?_⟩
  rw [show fc 0 0 = 0 from hz 0 0]
  unfold springAB
  simpa using fun h => hw0 h

end
end Interphon.Props
