import Verif.Model.SymDisp
import Verif.Props.Symmetry
import Verif.Props.ForceConstant
import Mathlib.Data.Real.Sqrt

/-!
# Cartesian symmetry matrices and displacement directions: C74, C75
-/

namespace Interphon.Props
open Py Interphon Interphon.Symmetry Interphon.SymDisp
open Interphon.ForceConstant (ofColumns)
noncomputable section

/-! ### C75 -/

/-- A slab: the periodic lattice vectors (axes `i`, `j`) lie in the Cartesian plane `i`, `j`, the third one along the axis `n`. -/
structure Slab (L : M3 ℝ) (i j n : Fin 3) : Prop where
  ij : i ≠ j
  ni : n ≠ i
  nj : n ≠ j
  in1 : L i n = 0
  jn1 : L j n = 0
  ni1 : L n i = 0
  nj1 : L n j = 0
  regular : L.det ≠ 0

/-- `W` preserves the metric of the plane exactly. -/
def Exact (L : M3 ℝ) (i j : Fin 3) (W : Op) : Prop :=
  (W.mat.map (fun n : ℤ => (n : ℝ))).transpose * planeMetric L i j * W.mat.map (fun n : ℤ => (n : ℝ)) = planeMetric L i j

/-- The Cartesian matrix of the operation: it maps the vector with direct coordinates `x` to the one with direct coordinates `W x`. -/
def IsCartesianOf (L : M3 ℝ) (i j : Fin 3) (W : Op) (Q : M3 ℝ) : Prop :=
  ∀ x : V3 ℝ, Q.mulVec (Matrix.vecMul x L) = Matrix.vecMul (applyOp i j W 0 x) L

/-- The condition under which the normalised basis does no harm: equal edges, or an operation that does not mix the axes. -/
def EdgesFit (L : M3 ℝ) (i j : Fin 3) (W : Op) : Prop := (∑ k, L i k ^ 2 = ∑ k, L j k ^ 2) ∨ (W.b = 0 ∧ W.c = 0)

private theorem slab_cases {L : M3 ℝ} {i j n : Fin 3} (h : Slab L i j n) :
    (i = 0 ∧ j = 1 ∧ n = 2) ∨ (i = 1 ∧ j = 0 ∧ n = 2) ∨ (i = 0 ∧ j = 2 ∧ n = 1) ∨ (i = 2 ∧ j = 0 ∧ n = 1) ∨ (i = 1 ∧ j = 2 ∧ n = 0) ∨
      (i = 2 ∧ j = 1 ∧ n = 0) := by
  have key : ∀ i j n : Fin 3, i ≠ j → n ≠ i → n ≠ j → (i = 0 ∧ j = 1 ∧ n = 2) ∨ (i = 1 ∧ j = 0 ∧ n = 2) ∨ (i = 0 ∧ j = 2 ∧ n = 1) ∨
      (i = 2 ∧ j = 0 ∧ n = 1) ∨ (i = 1 ∧ j = 2 ∧ n = 0) ∨ (i = 2 ∧ j = 1 ∧ n = 0) := by decide
  exact key i j n h.ij h.ni h.nj

private theorem exact_iff {L : M3 ℝ} {i j : Fin 3} {W : Op} : Exact L i j W ↔
    Preserves (planeMetric L i j 0 0) (planeMetric L i j 0 1) (planeMetric L i j 1 1) W.mat := by
  have e : planeMetric L i j = !![planeMetric L i j 0 0, planeMetric L i j 0 1; planeMetric L i j 0 1, planeMetric L i j 1 1] := by
    ext r c; fin_cases r <;> fin_cases c <;> simp [planeMetric] <;> ring
  unfold Exact Preserves
  rw [← e]

/-- The 3-D metric is preserved. -/
private theorem metric3 {L : M3 ℝ} {i j n : Fin 3} (h : Slab L i j n) {W : Op} (hW : Exact L i j W) :
    (embed i j W : M3 ℝ).transpose * (L * L.transpose) * embed i j W = L * L.transpose := by
  obtain ⟨e1, e2, e3⟩ := (preserves_iff _ _ _ _).1 (exact_iff.1 hW)
  have hc := slab_cases h
  obtain ⟨-, -, -, h4, h5, h6, h7, -⟩ := h
  simp only [planeMetric, Op.mat, Matrix.of_apply, Matrix.cons_val', Matrix.cons_val_zero, Matrix.cons_val_one, Matrix.cons_val_fin_one] at e1 e2 e3
  rcases hc with ⟨rfl, rfl, rfl⟩ | ⟨rfl, rfl, rfl⟩ | ⟨rfl, rfl, rfl⟩ | ⟨rfl, rfl, rfl⟩ | ⟨rfl, rfl, rfl⟩ | ⟨rfl, rfl, rfl⟩ <;>
  · ext r c
    simp only [Matrix.mul_apply, Matrix.transpose_apply, Fin.sum_univ_three]
    fin_cases r <;> fin_cases c <;> simp [embed, h4, h5, h6, h7] <;> first | linear_combination e1 | linear_combination e2 | linear_combination e3

private theorem edge_pos {L : M3 ℝ} (hd : L.det ≠ 0) (c : Fin 3) : 0 < edge L c := by
  unfold edge
  apply Real.sqrt_pos.2
  rcases (Finset.sum_nonneg (fun k _ => sq_nonneg (L c k)) : 0 ≤ ∑ k, L c k ^ 2).lt_or_eq with h | h
  · exact h
  · exfalso; apply hd
    apply Matrix.det_eq_zero_of_row_eq_zero c
    intro k
    have := (Finset.sum_eq_zero_iff_of_nonneg (fun k _ => sq_nonneg (L c k))).1 h.symm k (Finset.mem_univ _)
    exact pow_eq_zero_iff (two_ne_zero) |>.1 this

private theorem cartOp_mul {L : M3 ℝ} {i j n : Fin 3} (h : Slab L i j n) {W : Op} (hf : EdgesFit L i j W) :
    cartOp L (embed i j W) * L.transpose = L.transpose * embed i j W := by
  have hpos := edge_pos h.regular
  have hne : ∀ c, edge L c ≠ 0 := fun c => (hpos c).ne'
  -- the normalised basis
  have hB : toCart L = L.transpose * Matrix.diagonal (fun c => (edge L c)⁻¹) := by
    ext r c; rw [Matrix.mul_diagonal]; simp [toCart, div_eq_mul_inv]
  have hL : L.transpose = toCart L * Matrix.diagonal (edge L) := by
    ext r c; rw [Matrix.mul_diagonal]; simp [toCart, hne c]
  have hdet : IsUnit (toCart L).det := by
    rw [hB, Matrix.det_mul, Matrix.det_transpose, Matrix.det_diagonal]
    exact (mul_ne_zero h.regular (Finset.prod_ne_zero_iff.2 fun c _ => inv_ne_zero (hne c))).isUnit
  have hcomm : Matrix.diagonal (edge L) * (embed i j W : M3 ℝ) = embed i j W * Matrix.diagonal (edge L) := by
    have hij := h.ij
    rcases hf with hf | ⟨hb, hc⟩
    · have he : edge L i = edge L j := by unfold edge; rw [hf]
      ext r c
      rw [Matrix.diagonal_mul, Matrix.mul_diagonal]
      unfold embed
      split_ifs with c1 c2 c3 c4 c5
      · rw [c1.1, c1.2]; ring
      · rw [c2.1, c2.2, he]; ring
      · rw [c3.1, c3.2, he]; ring
      · rw [c4.1, c4.2]; ring
      · rw [c5]; ring
      · ring
    · ext r c
      rw [Matrix.diagonal_mul, Matrix.mul_diagonal]
      unfold embed
      rw [hb, hc]
      split_ifs with c1 c2 c3 c4 c5
      · rw [c1.1, c1.2]; ring
      · simp
      · simp
      · rw [c4.1, c4.2]; ring
      · rw [c5]; ring
      · ring
  unfold cartOp
  rw [Matrix.mul_assoc, hL, ← Matrix.mul_assoc ((toCart L)⁻¹), Matrix.nonsing_inv_mul _ hdet, Matrix.one_mul, Matrix.mul_assoc, ← hcomm,
    ← Matrix.mul_assoc]

/-- **C75**, for a slab cell whose periodic edges have equal length or an operation that does not mix the axes: the Cartesian matrix formed for a
metric-preserving operation is orthogonal, and it is the Cartesian form of the operation.  (Missing: unequal edges, see
`C75_unequal_edges_refuted`.) -/
theorem C75_orthogonal_partial {L : M3 ℝ} {i j n : Fin 3} (h : Slab L i j n) {W : Op} (hW : Exact L i j W) (hf : EdgesFit L i j W) :
    (cartOp L (embed i j W)).transpose * cartOp L (embed i j W) = 1 ∧ IsCartesianOf L i j W (cartOp L (embed i j W)) := by
  have key := cartOp_mul h hf
  have hu : IsUnit L.det := h.regular.isUnit
  have hut : IsUnit L.transpose.det := by rw [Matrix.det_transpose]; exact hu
  refine ⟨?_, fun x => ?_⟩
  · have e : L * ((cartOp L (embed i j W)).transpose * cartOp L (embed i j W)) * L.transpose = L * L.transpose := by
      calc _ = (cartOp L (embed i j W) * L.transpose).transpose * (cartOp L (embed i j W) * L.transpose) := by
            rw [Matrix.transpose_mul, Matrix.transpose_transpose]; simp only [Matrix.mul_assoc]
        _ = _ := by
            rw [key, Matrix.transpose_mul, Matrix.transpose_transpose]
            have := metric3 h hW
            simp only [Matrix.mul_assoc] at this ⊢
            exact this
    have e2 : L⁻¹ * (L * ((cartOp L (embed i j W)).transpose * cartOp L (embed i j W)) * L.transpose) * L.transpose⁻¹ =
        L⁻¹ * (L * L.transpose) * L.transpose⁻¹ := by rw [e]
    rw [Matrix.mul_assoc L, ← Matrix.mul_assoc L⁻¹, Matrix.nonsing_inv_mul _ hu, Matrix.one_mul, Matrix.mul_assoc, Matrix.mul_nonsing_inv _ hut,
      Matrix.mul_one, ← Matrix.mul_assoc L⁻¹, Matrix.nonsing_inv_mul _ hu, Matrix.one_mul, Matrix.mul_nonsing_inv _ hut] at e2
    exact e2
  · have hx : Matrix.vecMul x L = L.transpose.mulVec x := (Matrix.mulVec_transpose L x).symm
    have hy : Matrix.vecMul (applyOp i j W 0 x) L = L.transpose.mulVec (applyOp i j W 0 x) := (Matrix.mulVec_transpose L _).symm
    have ha : applyOp i j W 0 x = (embed i j W : M3 ℝ).mulVec x := by
      funext r; rw [← embed_apply h.ij]; simp
    rw [hx, hy, ha, Matrix.mulVec_mulVec, Matrix.mulVec_mulVec, key]

/-- Preserving the metric and the metric of the normalised basis. -/
private theorem two_metrics {a b c d : ℤ} (ha : a = -1 ∨ a = 0 ∨ a = 1) (hb : b = -1 ∨ b = 0 ∨ b = 1) (hc : c = -1 ∨ c = 0 ∨ c = 1)
    (hd : d = -1 ∨ d = 0 ∨ d = 1) (hdet : a * d - b * c = 1 ∨ a * d - b * c = -1) {u v ρ : ℝ} (hu : 0 < u) (hv : 0 < v)
    (e1 : (a : ℝ) * a * u ^ 2 + 2 * a * c * (ρ * u * v) + c * c * v ^ 2 = u ^ 2)
    (e2 : (a : ℝ) * b * u ^ 2 + (a * d + b * c) * (ρ * u * v) + c * d * v ^ 2 = ρ * u * v)
    (e3 : (b : ℝ) * b * u ^ 2 + 2 * b * d * (ρ * u * v) + d * d * v ^ 2 = v ^ 2)
    (f2 : (a : ℝ) * b + (a * d + b * c) * ρ + c * d = ρ) : u = v ∨ (b = 0 ∧ c = 0) := by
  have hsq : u ^ 2 = v ^ 2 → u = v := fun h => by nlinarith [mul_pos hu hv]
  have hcan : ∀ x : ℝ, x * u = x * v → x ≠ 0 → u = v := fun x h hx => mul_left_cancel₀ hx h
  by_cases hbc : b = 0 ∧ c = 0
  · exact Or.inr hbc
  left
  rcases ha with rfl | rfl | rfl <;> rcases hd with rfl | rfl | rfl <;> rcases hb with rfl | rfl | rfl <;> rcases hc with rfl | rfl | rfl <;>
    first
    | (exfalso; revert hdet; decide)
    | exact absurd ⟨rfl, rfl⟩ hbc
    | (apply hsq; push_cast at e1 e2 e3 f2; linarith)
    | (exfalso; push_cast at e1 e2 e3 f2; nlinarith [mul_pos hu hu, mul_pos hv hv])
    | (push_cast at e1 e2 e3 f2
       have hρ : ρ = 1 / 2 ∨ ρ = -1 / 2 := by first | (left; linarith) | (right; linarith)
       rcases hρ with rfl | rfl <;> first | (refine hcan u ?_ hu.ne'; nlinarith) | (refine hcan v ?_ hv.ne'; nlinarith))

/-- **C75**, the exact condition: for a slab cell and a candidate that preserves the metric of the plane, the Cartesian matrix the program forms
is orthogonal if and only if the periodic edges are equally long or the operation does not mix the axes. -/
theorem C75_orthogonal_iff {L : M3 ℝ} {i j n : Fin 3} (h : Slab L i j n) {W : Op} (hcand : W ∈ candidates) (hW : Exact L i j W) :
    (cartOp L (embed i j W)).transpose * cartOp L (embed i j W) = 1 ↔ EdgesFit L i j W := by
  refine ⟨fun ho => ?_, fun hf => (C75_orthogonal_partial h hW hf).1⟩
  have hpos := edge_pos h.regular
  have hne : ∀ c, edge L c ≠ 0 := fun c => (hpos c).ne'
  have hB : toCart L = L.transpose * Matrix.diagonal (fun c => (edge L c)⁻¹) := by
    ext r c; rw [Matrix.mul_diagonal]; simp [toCart, div_eq_mul_inv]
  have hdet : IsUnit (toCart L).det := by
    rw [hB, Matrix.det_mul, Matrix.det_transpose, Matrix.det_diagonal]
    exact (mul_ne_zero h.regular (Finset.prod_ne_zero_iff.2 fun c _ => inv_ne_zero (hne c))).isUnit
  have hCB : cartOp L (embed i j W) * toCart L = toCart L * embed i j W := by
    rw [cartOp, Matrix.mul_assoc, Matrix.nonsing_inv_mul _ hdet, Matrix.mul_one]
  have hN : (embed i j W : M3 ℝ).transpose * ((toCart L).transpose * toCart L) * embed i j W = (toCart L).transpose * toCart L := by
    calc _ = (toCart L * embed i j W).transpose * (toCart L * embed i j W) := by
          rw [Matrix.transpose_mul]; simp only [Matrix.mul_assoc]
      _ = (toCart L).transpose * ((cartOp L (embed i j W)).transpose * cartOp L (embed i j W)) * toCart L := by
          rw [← hCB, Matrix.transpose_mul]; simp only [Matrix.mul_assoc]
      _ = _ := by rw [ho, Matrix.mul_one]
  have hsqe : ∀ c, edge L c ^ 2 = ∑ k, L c k ^ 2 := fun c => Real.sq_sqrt (Finset.sum_nonneg fun k _ => sq_nonneg _)
  have hent : ∀ r c, ((toCart L).transpose * toCart L) r c = (∑ k, L r k * L c k) / (edge L r * edge L c) := by
    intro r c
    rw [Matrix.mul_apply, div_eq_mul_inv, Finset.sum_mul]
    refine Finset.sum_congr rfl fun k _ => ?_
    simp only [Matrix.transpose_apply, toCart]; rw [div_mul_div_comm, div_eq_mul_inv]
  have hdiag : ∀ c, ((toCart L).transpose * toCart L) c c = 1 := by
    intro c
    rw [hent, show (∑ k, L c k * L c k) = edge L c ^ 2 by rw [hsqe]; exact Finset.sum_congr rfl fun k _ => by ring, sq, div_self (mul_ne_zero (hne c) (hne c))]
  have hN2 := congrFun (congrFun hN i) j
  generalize hNN : (toCart L).transpose * toCart L = N at *
  obtain ⟨e1, e2, e3⟩ := (preserves_iff _ _ _ _).1 (exact_iff.1 hW)
  simp only [planeMetric, Op.mat, Matrix.of_apply, Matrix.cons_val', Matrix.cons_val_zero, Matrix.cons_val_one, Matrix.cons_val_fin_one] at e1 e2 e3
  have hsmall : ∀ V ∈ candidates, (V.a = -1 ∨ V.a = 0 ∨ V.a = 1) ∧ (V.b = -1 ∨ V.b = 0 ∨ V.b = 1) ∧ (V.c = -1 ∨ V.c = 0 ∨ V.c = 1) ∧
      (V.d = -1 ∨ V.d = 0 ∨ V.d = 1) ∧ (V.a * V.d - V.b * V.c = 1 ∨ V.a * V.d - V.b * V.c = -1) := by decide
  obtain ⟨s1, s2, s3, s4, s5⟩ := hsmall W hcand
  have hi := hsqe i
  have hj := hsqe j
  have hij1 := hent i j
  have hij2 := hent j i
  have hii := hdiag i
  have hjj := hdiag j
  have hρ : N i j * edge L i * edge L j = ∑ k, L i k * L j k := by
    rw [hij1]; have := hne i; have := hne j; field_simp
  have hsym : N j i = N i j := by
    rw [hij1, hij2, mul_comm (edge L j)]; congr 1; exact Finset.sum_congr rfl fun k _ => mul_comm _ _
  have hnj : N i n = 0 ∧ N j n = 0 ∧ N n i = 0 ∧ N n j = 0 := by
    have hc := slab_cases h
    obtain ⟨-, -, -, h4, h5, h6, h7, -⟩ := h
    simp only [hent, div_eq_zero_iff]
    refine ⟨Or.inl ?_, Or.inl ?_, Or.inl ?_, Or.inl ?_⟩ <;>
    rcases hc with ⟨rfl, rfl, rfl⟩ | ⟨rfl, rfl, rfl⟩ | ⟨rfl, rfl, rfl⟩ | ⟨rfl, rfl, rfl⟩ | ⟨rfl, rfl, rfl⟩ | ⟨rfl, rfl, rfl⟩ <;>
    simp [Fin.sum_univ_three, h4, h5, h6, h7]
  have f2 : (W.a : ℝ) * W.b + (W.a * W.d + W.b * W.c) * N i j + W.c * W.d = N i j := by
    have hc := slab_cases h
    rcases hc with ⟨rfl, rfl, rfl⟩ | ⟨rfl, rfl, rfl⟩ | ⟨rfl, rfl, rfl⟩ | ⟨rfl, rfl, rfl⟩ | ⟨rfl, rfl, rfl⟩ | ⟨rfl, rfl, rfl⟩ <;>
    · simp [Matrix.mul_apply, Fin.sum_univ_three, embed, hii, hjj, hsym, hnj] at hN2
      linear_combination hN2
  have sumi : (∑ k, L i k ^ 2) = L i i * L i i + L i j * L i j ∧ (∑ k, L j k ^ 2) = L j i * L j i + L j j * L j j ∧
      (∑ k, L i k * L j k) = L i i * L j i + L i j * L j j := by
    have hc := slab_cases h
    obtain ⟨-, -, -, h4, h5, h6, h7, -⟩ := h
    rcases hc with ⟨rfl, rfl, rfl⟩ | ⟨rfl, rfl, rfl⟩ | ⟨rfl, rfl, rfl⟩ | ⟨rfl, rfl, rfl⟩ | ⟨rfl, rfl, rfl⟩ | ⟨rfl, rfl, rfl⟩ <;>
    · simp only [Fin.sum_univ_three, h4, h5]
      refine ⟨?_, ?_, ?_⟩ <;> ring
  obtain ⟨t1, t2, t3⟩ := sumi
  rw [t1] at hi; rw [t2] at hj; rw [t3] at hρ
  have := two_metrics s1 s2 s3 s4 s5 (hpos i) (hpos j) (ρ := N i j)
    (by rw [hi, hj, hρ]; linear_combination e1) (by rw [hi, hj, hρ]; linear_combination e2) (by rw [hi, hj, hρ]; linear_combination e3) f2
  rcases this with hu | hbc
  · left; rw [t1, t2, ← hi, ← hj, hu]
  · exact Or.inr hbc

/-- A centred rectangular lattice in its Lagrange-reduced primitive basis: edges 6 and 37/4. -/
def rhombicLattice : M3 ℝ := !![6, 0, 0; 3, 35 / 4, 0; 0, 0, 20]

/-- **C75 is false of the code** for unequal edges: in the primitive basis of a centred rectangular lattice the mirror `(x, y) ↦ (x + y, -y)` preserves
the metric exactly, but the Cartesian matrix the code forms for it (from the normalised basis) is not orthogonal. -/
theorem C75_unequal_edges_refuted : Slab rhombicLattice 0 1 2 ∧ Reduced (metric rhombicLattice 0 1) ∧ (⟨1, 1, 0, -1⟩ : Op) ∈ candidates ∧
    Exact rhombicLattice 0 1 ⟨1, 1, 0, -1⟩ ∧
    (cartOp rhombicLattice (embed 0 1 ⟨1, 1, 0, -1⟩)).transpose * cartOp rhombicLattice (embed 0 1 ⟨1, 1, 0, -1⟩) ≠ 1 := by
  have e0 : edge rhombicLattice 0 = 6 := by
    rw [edge, show (∑ k, rhombicLattice 0 k ^ 2) = (6 : ℝ) ^ 2 by simp [rhombicLattice, Fin.sum_univ_three]]
    exact Real.sqrt_sq (by norm_num)
  have e1 : edge rhombicLattice 1 = 37 / 4 := by
    rw [edge, show (∑ k, rhombicLattice 1 k ^ 2) = (37 / 4 : ℝ) ^ 2 by simp [rhombicLattice, Fin.sum_univ_three]; norm_num]
    exact Real.sqrt_sq (by norm_num)
  have e2 : edge rhombicLattice 2 = 20 := by
    rw [edge, show (∑ k, rhombicLattice 2 k ^ 2) = (20 : ℝ) ^ 2 by simp [rhombicLattice, Fin.sum_univ_three]]
    exact Real.sqrt_sq (by norm_num)
  have hB : toCart rhombicLattice = !![1, 12 / 37, 0; 0, 35 / 37, 0; 0, 0, 1] := by
    ext r c
    simp only [toCart]
    fin_cases r <;> fin_cases c <;> simp only [Fin.zero_eta, Fin.mk_one, Fin.reduceFinMk, e0, e1, e2] <;> simp [rhombicLattice] <;> norm_num
  have hI : (toCart rhombicLattice)⁻¹ = !![1, -12 / 35, 0; 0, 37 / 35, 0; 0, 0, 1] := by
    rw [hB]
    apply Matrix.inv_eq_right_inv
    ext r c
    fin_cases r <;> fin_cases c <;> simp [Matrix.mul_apply, Fin.sum_univ_three] <;> norm_num
  refine ⟨⟨by decide, by decide, by decide, ?_, ?_, ?_, ?_, ?_⟩, ?_, by decide, ?_, ?_⟩
  · rfl
  · rfl
  · rfl
  · rfl
  · simp [rhombicLattice, Matrix.det_fin_three]
  · simp only [Reduced, metric, rhombicLattice]; norm_num [abs_of_pos]
  · rw [exact_iff, preserves_iff]
    simp [planeMetric, Op.mat, rhombicLattice]; norm_num
  · intro hc
    have h01 := congrFun (congrFun hc 0) 1
    change ((cartOp rhombicLattice (embed 0 1 ⟨1, 1, 0, -1⟩)).transpose * cartOp rhombicLattice (embed 0 1 ⟨1, 1, 0, -1⟩)) 0 1 = 0 at h01
    have hW : (embed 0 1 ⟨1, 1, 0, -1⟩ : M3 ℝ) = !![1, 1, 0; 0, -1, 0; 0, 0, 1] := by
      ext r c; fin_cases r <;> fin_cases c <;> simp [embed]
    have hQ : cartOp rhombicLattice (embed 0 1 ⟨1, 1, 0, -1⟩) = !![1, 13 / 35, 0; 0, -1, 0; 0, 0, 1] := by
      rw [cartOp, hI, hB, hW]
      ext r c; fin_cases r <;> fin_cases c <;> simp [Matrix.mul_apply, Fin.sum_univ_three] <;> norm_num
    rw [hQ] at h01
    simp [Matrix.mul_apply, Fin.sum_univ_three] at h01

/-- The hypotheses of C75 on the hexagonal lattice with the rotation of order 6. -/
example : Slab !![1, 0, 0; -1 / 2, Real.sqrt 3 / 2, 0; 0, 0, 20] 0 1 2 ∧ Exact !![1, 0, 0; -1 / 2, Real.sqrt 3 / 2, 0; 0, 0, 20] 0 1 ⟨1, -1, 1, 0⟩ ∧
    EdgesFit !![1, 0, 0; -1 / 2, Real.sqrt 3 / 2, 0; 0, 0, 20] 0 1 ⟨1, -1, 1, 0⟩ := by
  have h3 : Real.sqrt 3 * Real.sqrt 3 = 3 := Real.mul_self_sqrt (by norm_num)
  have h3p : (0 : ℝ) < Real.sqrt 3 := Real.sqrt_pos.2 (by norm_num)
  refine ⟨⟨by decide, by decide, by decide, ?_, ?_, ?_, ?_, ?_⟩, ?_, ?_⟩
  any_goals simp
  · simp [Matrix.det_fin_three]
  · rw [exact_iff, preserves_iff]
    simp [planeMetric, Op.mat]
    refine ⟨?_, ?_, ?_⟩ <;> nlinarith
  · left
    simp [Fin.sum_univ_three]
    nlinarith

/-! ### C74 -/

/-- An exact symmetry of the plane for which the Cartesian matrix is right. -/
def GoodOp (L : M3 ℝ) (W : Op) : Prop := Exact L 0 1 W ∧ EdgesFit L 0 1 W

private theorem comp_mat (V W : Op) : (SymDisp.comp V W).mat = V.mat * W.mat := by
  ext i j; fin_cases i <;> fin_cases j <;> simp [SymDisp.comp, Op.mat, Matrix.mul_apply, Fin.sum_univ_two]

private theorem good_comp {L : M3 ℝ} {V W : Op} (hV : GoodOp L V) (hW : GoodOp L W) : GoodOp L (SymDisp.comp V W) := by
  constructor
  · have hm : (SymDisp.comp V W).mat.map (fun n : ℤ => (n : ℝ)) = V.mat.map (fun n : ℤ => (n : ℝ)) * W.mat.map (fun n : ℤ => (n : ℝ)) := by
      rw [comp_mat]; exact Matrix.map_mul (f := Int.castRingHom ℝ)
    have h1 := hV.1
    have h2 := hW.1
    unfold Exact at *
    rw [hm, Matrix.transpose_mul]
    calc _ = (W.mat.map (fun n : ℤ => (n : ℝ))).transpose * ((V.mat.map (fun n : ℤ => (n : ℝ))).transpose * planeMetric L 0 1 *
          V.mat.map (fun n : ℤ => (n : ℝ))) * W.mat.map (fun n : ℤ => (n : ℝ)) := by simp only [Matrix.mul_assoc]
      _ = _ := by rw [h1, h2]
  · rcases hV.2 with h | ⟨h1, h2⟩
    · exact Or.inl h
    · rcases hW.2 with h | ⟨h3, h4⟩
      · exact Or.inl h
      · right; simp [SymDisp.comp, h1, h2, h3, h4]

private theorem good_one (L : M3 ℝ) : GoodOp L SymDisp.one := by
  constructor
  · unfold Exact
    have : SymDisp.one.mat.map (fun n : ℤ => (n : ℝ)) = 1 := by
      ext i j; fin_cases i <;> fin_cases j <;> simp [SymDisp.one, Op.mat]
    rw [this]; simp
  · exact Or.inr ⟨rfl, rfl⟩

private theorem op_mat_inj {V W : Op} (e : V.mat = W.mat) : V = W := by
  have h00 := congrFun (congrFun e 0) 0
  have h01 := congrFun (congrFun e 0) 1
  have h10 := congrFun (congrFun e 1) 0
  have h11 := congrFun (congrFun e 1) 1
  cases W; cases V
  simp only [Op.mat, Matrix.of_apply, Matrix.cons_val', Matrix.cons_val_zero, Matrix.cons_val_one, Matrix.cons_val_fin_one] at h00 h01 h10 h11
  subst h00 h01 h10 h11; rfl

private theorem one_mat : SymDisp.one.mat = 1 := by decide

private theorem powersFrom_some (W : Op) : ∀ (f m : ℕ) (cur : Op), m ≤ f → cur.mat * W.mat ^ m = 1 → ∃ l, powersFrom W f cur = some l := by
  intro f
  induction f with
  | zero =>
    intro m cur hm e
    obtain rfl : m = 0 := by omega
    rw [pow_zero, mul_one] at e
    exact ⟨[], by rw [powersFrom, if_pos (op_mat_inj (e.trans one_mat.symm))]⟩
  | succ f ih =>
    intro m cur hm e
    rw [powersFrom]
    split
    · exact ⟨[], rfl⟩
    · rename_i hne
      cases m with
      | zero =>
        rw [pow_zero, mul_one] at e
        exact absurd (op_mat_inj (e.trans one_mat.symm)) hne
      | succ m =>
        obtain ⟨l, hl⟩ := ih m (SymDisp.comp cur W) (by omega) (by rw [comp_mat, mul_assoc, ← pow_succ']; exact e)
        exact ⟨cur :: l, by rw [hl]; rfl⟩

private theorem powersFrom_mem (W : Op) (C : Op → Prop) (hC : ∀ V, C V → C (SymDisp.comp V W)) : ∀ (f : ℕ) (cur : Op) (l : List Op), C cur →
    powersFrom W f cur = some l → ∀ P ∈ l, C P := by
  intro f
  induction f with
  | zero =>
    intro cur l _ e P hP
    rw [powersFrom] at e
    split at e
    · cases e; simp at hP
    · cases e
  | succ f ih =>
    intro cur l hc e P hP
    rw [powersFrom] at e
    split at e
    · cases e; simp at hP
    · obtain ⟨l', e', rfl⟩ := Option.map_eq_some_iff.1 e
      rcases List.mem_cons.1 hP with rfl | hP
      · exact hc
      · exact ih _ l' (hC _ hc) e' P hP

private theorem slab_posDef {L : M3 ℝ} (h : Slab L 0 1 2) : PosDef (planeMetric L 0 1 0 0) (planeMetric L 0 1 0 1) (planeMetric L 0 1 1 1) := by
  have hd := h.regular
  rw [Matrix.det_fin_three, h.in1, h.jn1, h.ni1, h.nj1] at hd
  have h2 : (L 0 0 * L 1 1 - L 0 1 * L 1 0) ≠ 0 := by
    intro hc; apply hd; linear_combination L 2 2 * hc
  have h3 : 0 < (L 0 0 * L 1 1 - L 0 1 * L 1 0) ^ 2 := by positivity
  have key : planeMetric L 0 1 0 0 * planeMetric L 0 1 1 1 - planeMetric L 0 1 0 1 * planeMetric L 0 1 0 1 = (L 0 0 * L 1 1 - L 0 1 * L 1 0) ^ 2 := by
    simp [planeMetric]; ring
  refine ⟨?_, by rw [key]; exact h3⟩
  have hg : 0 ≤ planeMetric L 0 1 0 0 := by simp [planeMetric]; nlinarith [mul_self_nonneg (L 0 0), mul_self_nonneg (L 0 1)]
  rcases hg.lt_or_eq with h | h
  · exact h
  · exfalso
    rw [← h] at key
    nlinarith [mul_self_nonneg (planeMetric L 0 1 0 1)]

private theorem setW_spec {L : M3 ℝ} (h : Slab L 0 1 2) {W : Op} (hW : GoodOp L W) : ∃ l, setW W = some (SymDisp.one :: l) := by
  have ho := C68_order (slab_posDef h) (exact_iff.1 hW.1)
  have : ∃ l, powersFrom W 6 W = some l := by
    rcases ho with e | e
    · exact powersFrom_some W 6 3 W (by omega) (by rw [← pow_succ']; exact e)
    · exact powersFrom_some W 6 5 W (by omega) (by rw [← pow_succ']; exact e)
  obtain ⟨l, hl⟩ := this
  exact ⟨l, by rw [setW, hl]; rfl⟩

/-- The property of all candidate directions: made by an operation out of the closed set `C`. -/
private theorem dirCands_spec {L : M3 ℝ} (h : Slab L 0 1 2) (C : Op → Prop) (hone : C SymDisp.one)
    (hcomp : ∀ V W, C V → C W → C (SymDisp.comp V W)) (hgood : ∀ W, C W → GoodOp L W) :
    ∀ selfOps : List Op, (∀ W ∈ selfOps, C W) → ∃ l, dirCands L 0 1 selfOps = some l ∧
      (∀ q ∈ l, C q.1 ∧ q.2 = (cartOp L (embed 0 1 q.1)).mulVec dir0) ∧
      (selfOps ≠ [] → ∃ rest, l = (SymDisp.one, (cartOp L (embed 0 1 SymDisp.one)).mulVec dir0) :: rest) := by
  intro selfOps
  induction selfOps with
  | nil => intro _; exact ⟨[], rfl, by simp, by simp⟩
  | cons W rest ih =>
    intro hs
    obtain ⟨l, e, h1, -⟩ := ih (fun V hV => hs V (by simp [hV]))
    obtain ⟨ps, hps⟩ := setW_spec h (hgood W (hs W (by simp)))
    have hmem : ∀ P ∈ SymDisp.one :: ps, C P := by
      unfold setW at hps
      obtain ⟨ps', e', e''⟩ := Option.map_eq_some_iff.1 hps
      cases e''
      intro P hP
      rcases List.mem_cons.1 hP with rfl | hP
      · exact hone
      · exact powersFrom_mem W C (fun V hV => hcomp V W hV (hs W (by simp))) 6 W ps (hs W (by simp)) e' P hP
    refine ⟨(SymDisp.one :: ps).map (fun P => (P, (cartOp L (embed 0 1 P)).mulVec dir0)) ++ l, by rw [dirCands, hps, e],
      ?_, fun _ => ⟨_, rfl⟩⟩
    intro q hq
    rcases List.mem_append.1 hq with hq | hq
    · obtain ⟨P, hP, rfl⟩ := List.mem_map.1 hq
      exact ⟨hmem P hP, rfl⟩
    · exact h1 q hq

/-- A direction at 45° to the surface normal. -/
private def InCone (v : V3 ℝ) : Prop := v 2 = 1 / Real.sqrt 2 ∧ v 0 ^ 2 + v 1 ^ 2 = 1 / 2

private theorem half_sq : (1 / Real.sqrt 2) ^ 2 = 1 / 2 := by
  rw [div_pow, Real.sq_sqrt (by norm_num)]; norm_num

private theorem cone_of_good {L : M3 ℝ} (h : Slab L 0 1 2) {W : Op} (hW : GoodOp L W) : InCone ((cartOp L (embed 0 1 W)).mulVec dir0) := by
  obtain ⟨ho, hc⟩ := C75_orthogonal_partial h hW.1 hW.2
  set Q := cartOp L (embed 0 1 W) with hQ
  have h22 : L 2 2 ≠ 0 := by
    intro hz
    have hd := h.regular
    rw [Matrix.det_fin_three, h.in1, h.jn1, h.ni1, h.nj1, hz] at hd
    apply hd; ring
  have hcol : ∀ r, Q r 2 = if r = 2 then 1 else 0 := by
    intro r
    have e := congrFun (hc (Pi.single 2 1)) r
    have ex : Matrix.vecMul (Pi.single (2 : Fin 3) (1 : ℝ)) L = fun c => L 2 c := by
      funext c; simp
    have ea : applyOp 0 1 W 0 (Pi.single (2 : Fin 3) (1 : ℝ)) = Pi.single 2 1 := by
      funext c; fin_cases c <;> simp [applyOp]
    rw [ea, ex] at e
    simp only [Matrix.mulVec, dotProduct, Fin.sum_univ_three, h.ni1, h.nj1, mul_zero, zero_add] at e
    split
    · rename_i hr; subst hr
      have : (Q 2 2 - 1) * L 2 2 = 0 := by linear_combination e
      linarith [(mul_eq_zero.1 this).resolve_right h22]
    · rename_i hr
      have hz : L 2 r = 0 := by
        fin_cases r
        · exact h.ni1
        · exact h.nj1
        · simp at hr
      rw [hz] at e
      exact (mul_eq_zero.1 e).resolve_right h22
  have ho' : Q * Q.transpose = 1 := mul_eq_one_comm.1 ho
  have hrow : Q 2 0 = 0 ∧ Q 2 1 = 0 := by
    have e := congrFun (congrFun ho' 2) 2
    simp only [Matrix.mul_apply, Matrix.transpose_apply, Fin.sum_univ_three, hcol 2, if_true, Matrix.one_apply_eq] at e
    constructor <;> nlinarith [mul_self_nonneg (Q 2 0), mul_self_nonneg (Q 2 1)]
  have hz : (Q.mulVec dir0) 2 = 1 / Real.sqrt 2 := by
    simp [Matrix.mulVec, dotProduct, Fin.sum_univ_three, hrow.1, hrow.2, hcol 2, dir0]
  refine ⟨hz, ?_⟩
  have hn : (Q.mulVec dir0) ⬝ᵥ (Q.mulVec dir0) = dir0 ⬝ᵥ dir0 := by
    rw [Matrix.dotProduct_mulVec, Matrix.vecMul_mulVec, ho, Matrix.vecMul_one]
  simp only [dotProduct, Fin.sum_univ_three, hz] at hn
  have hd : dir0 0 * dir0 0 + dir0 1 * dir0 1 + dir0 2 * dir0 2 = 1 := by
    simp only [dir0, Matrix.cons_val_zero, Matrix.cons_val_one, Matrix.cons_val]
    linear_combination 2 * half_sq
  rw [hd] at hn
  have := half_sq
  nlinarith

private theorem keepLoop_spec (S : Op × V3 ℝ → Prop) : ∀ (rest : List (Op × V3 ℝ)) (prev : List (V3 ℝ)) (kept : List (Op × V3 ℝ)),
    (∀ q ∈ rest, S q) → (∀ q ∈ kept, S q) → (∀ q ∈ kept, q.2 ∈ prev) → kept.length ≤ 3 →
    kept.Pairwise (fun p q => ¬csDiff q.2 p.2 < 1 / 10 ^ 6) →
    (∀ q ∈ keepLoop prev kept rest, S q) ∧ (keepLoop prev kept rest).length ≤ 3 ∧
      (keepLoop prev kept rest).Pairwise (fun p q => ¬csDiff q.2 p.2 < 1 / 10 ^ 6) ∧ kept <+: keepLoop prev kept rest := by
  intro rest
  induction rest with
  | nil => intro prev kept _ h1 _ h3 h4; exact ⟨h1, h3, h4, List.prefix_refl _⟩
  | cons q rest ih =>
    intro prev kept hr h1 h2 h3 h4
    obtain ⟨W, v⟩ := q
    have hr' := fun q hq => hr q (List.mem_cons_of_mem _ hq)
    rw [keepLoop]
    split
    · rename_i hind
      split
      · rename_i hlt
        obtain ⟨a, b, c, d⟩ := ih (prev ++ [v]) (kept ++ [(W, v)]) hr' (by
            intro q hq
            rcases List.mem_append.1 hq with hq | hq
            · exact h1 q hq
            · rw [List.mem_singleton] at hq; subst hq; exact hr _ (by simp)) (by
            intro q hq
            rcases List.mem_append.1 hq with hq | hq
            · exact List.mem_append_left _ (h2 q hq)
            · rw [List.mem_singleton] at hq; subst hq; simp) (by simp; omega) (by
            rw [List.pairwise_append]
            refine ⟨h4, by simp, fun p hp q hq => ?_⟩
            rw [List.mem_singleton] at hq; subst hq
            exact hind _ (h2 p hp))
        exact ⟨a, b, c, (List.prefix_append _ _).trans d⟩
      · exact ⟨h1, h3, h4, List.prefix_refl _⟩
    · exact ih (prev ++ [v]) kept hr' h1 (fun q hq => List.mem_append_left _ (h2 q hq)) h3 h4

private theorem csDiff_self (u : V3 ℝ) : csDiff u u = 0 := by unfold csDiff; ring

/-- Three different directions of the cone are independent: three points of a circle are not collinear. -/
private theorem circle_det {x1 y1 x2 y2 x3 y3 r : ℝ} (h1 : x1 ^ 2 + y1 ^ 2 = r) (h2 : x2 ^ 2 + y2 ^ 2 = r) (h3 : x3 ^ 2 + y3 ^ 2 = r)
    (hd : (x2 - x1) * (y3 - y1) - (x3 - x1) * (y2 - y1) = 0) : (x1 = x2 ∧ y1 = y2) ∨ (x1 = x3 ∧ y1 = y3) ∨ (x2 = x3 ∧ y2 = y3) := by
  by_cases hp : (x2 - x1) ^ 2 + (y2 - y1) ^ 2 = 0
  · left
    constructor <;> nlinarith [sq_nonneg (x2 - x1), sq_nonneg (y2 - y1)]
  · set n := (x2 - x1) ^ 2 + (y2 - y1) ^ 2 with hn
    set l := (x2 - x1) * (x3 - x1) + (y2 - y1) * (y3 - y1) with hl
    have e1 : n * (x3 - x1) = l * (x2 - x1) := by rw [hn, hl]; linear_combination (-(y2 - y1)) * hd
    have e2 : n * (y3 - y1) = l * (y2 - y1) := by rw [hn, hl]; linear_combination (x2 - x1) * hd
    have f2 : 2 * (x1 * (x2 - x1) + y1 * (y2 - y1)) = -n := by rw [hn]; linear_combination h2 - h1
    have f3 : 2 * (x1 * (x3 - x1) + y1 * (y3 - y1)) = -((x3 - x1) ^ 2 + (y3 - y1) ^ 2) := by linear_combination h3 - h1
    have e3 : l * (n - l) * n = 0 := by
      have g1 : n * n * ((x3 - x1) ^ 2 + (y3 - y1) ^ 2) = l * l * n := by
        calc n * n * ((x3 - x1) ^ 2 + (y3 - y1) ^ 2) = (n * (x3 - x1)) ^ 2 + (n * (y3 - y1)) ^ 2 := by ring
          _ = (l * (x2 - x1)) ^ 2 + (l * (y2 - y1)) ^ 2 := by rw [e1, e2]
          _ = l * l * n := by rw [hn]; ring
      have g2 : n * n * (2 * (x1 * (x3 - x1) + y1 * (y3 - y1))) = -(n * n * l) := by
        calc n * n * (2 * (x1 * (x3 - x1) + y1 * (y3 - y1))) = 2 * n * (x1 * (n * (x3 - x1)) + y1 * (n * (y3 - y1))) := by ring
          _ = n * l * (2 * (x1 * (x2 - x1) + y1 * (y2 - y1))) := by rw [e1, e2]; ring
          _ = -(n * n * l) := by rw [f2]; ring
      rw [f3] at g2
      clear_value n l
      linear_combination g1 + g2
    rcases mul_eq_zero.1 e3 with e3 | e3
    · rcases mul_eq_zero.1 e3 with e3 | e3
      · right; left
        rw [e3, zero_mul] at e1 e2
        have := (mul_eq_zero.1 e1).resolve_left hp
        have := (mul_eq_zero.1 e2).resolve_left hp
        constructor <;> linarith
      · right; right
        have hnl : n = l := by linarith
        rw [← hnl] at e1 e2
        have := mul_left_cancel₀ hp e1
        have := mul_left_cancel₀ hp e2
        constructor <;> linarith
    · exact absurd e3 hp

private theorem det_columns (u v w : V3 ℝ) : (ofColumns [u, v, w]).det =
    u 0 * (v 1 * w 2 - v 2 * w 1) - v 0 * (u 1 * w 2 - u 2 * w 1) + w 0 * (u 1 * v 2 - u 2 * v 1) := by
  rw [Matrix.det_fin_three]
  simp only [ofColumns, Fin.val_zero, Fin.val_one, Fin.val_two, List.getD_cons_zero, List.getD_cons_succ]
  ring

private theorem cone_ne {u v : V3 ℝ} (hu : InCone u) (hv : InCone v) (h : ¬csDiff v u < 1 / 10 ^ 6) : ¬(u 0 = v 0 ∧ u 1 = v 1) := by
  rintro ⟨e0, e1⟩
  apply h
  have : v = u := by
    funext c; fin_cases c
    · exact e0.symm
    · exact e1.symm
    · exact hv.1.trans hu.1.symm
  rw [this, csDiff_self]; norm_num

/-- The directions kept and added for one required atom. -/
def directions (kept : List (Op × V3 ℝ)) : List (V3 ℝ) := kept.map Prod.snd ++ additional (kept.map Prod.snd)

private theorem cone_three (single : List (V3 ℝ)) (hlen : single.length ≤ 3) (hhead : single.head? = some dir0) (hcone : ∀ v ∈ single, InCone v)
    (hp : single.Pairwise (fun p q => ¬csDiff q p < 1 / 10 ^ 6)) :
    (single ++ additional single).length = 3 ∧ (ofColumns (single ++ additional single)).det ≠ 0 := by
  have hs := half_sq
  set s := 1 / Real.sqrt 2 with hsdef
  have hspos : 0 < s := by rw [hsdef]; positivity
  have hd0 : dir0 = ![s, 0, s] := rfl
  have hex : extra = [![0, s, s], ![s, s, 0]] := rfl
  match single, hhead, hlen with
  | [a], hh, _ =>
    simp only [List.head?_cons, Option.some.injEq] at hh
    subst hh
    have e : additional [dir0] = [![0, s, s], ![s, s, 0]] := rfl
    rw [e]
    refine ⟨rfl, ?_⟩
    rw [List.cons_append, List.nil_append, det_columns, hd0]
    simp
    ring_nf
    positivity
  | [a, b], hh, _ =>
    simp only [List.head?_cons, Option.some.injEq] at hh
    subst hh
    have hb := hcone b (by simp)
    have hab : ¬csDiff b dir0 < 1 / 10 ^ 6 := by simpa using hp
    have hne := cone_ne (hcone dir0 (by simp)) hb hab
    obtain ⟨b2, bn⟩ := hb
    rw [← hsdef] at b2
    by_cases h1 : ∀ v ∈ [dir0, b], ¬csDiff ![0, s, s] v < 1 / 10 ^ 6
    · have e : additional [dir0, b] = [![0, s, s]] := by
        have : (extra.find? fun e => decide (∀ v ∈ [dir0, b], ¬csDiff e v < 1 / 10 ^ 6)) = some ![0, s, s] := by
          rw [hex, List.find?_cons_of_pos]; exact decide_eq_true h1
        unfold additional
        simp only [List.length_cons, List.length_nil]
        rw [this]; rfl
      rw [e]
      refine ⟨rfl, ?_⟩
      rw [List.cons_append, List.cons_append, List.nil_append, det_columns, hd0]
      simp only [Matrix.cons_val_zero, Matrix.cons_val_one, Matrix.cons_val, b2]
      intro hc
      have hc' : s * s * (b 0 + b 1 - s) = 0 := by linear_combination hc
      have hsum : b 0 + b 1 = s := by
        rcases mul_eq_zero.1 hc' with h | h
        · exact absurd h (by positivity)
        · linarith
      have hprod : b 0 * b 1 = 0 := by nlinarith
      rcases mul_eq_zero.1 hprod with h | h
      · -- `b` is the first additional direction itself
        have hbe : b = ![0, s, s] := by
          funext c; fin_cases c
          · exact h
          · simp; linarith
          · exact b2
        apply h1 b (by simp)
        rw [hbe, csDiff_self]; norm_num
      · apply hne
        rw [hd0]
        simp; constructor <;> linarith
    · have hfail : ¬(∀ v ∈ [dir0, b], ¬csDiff ![0, s, s] v < 1 / 10 ^ 6) := h1
      have c0 : ¬csDiff ![0, s, s] dir0 < 1 / 10 ^ 6 := by
        rw [hd0]; simp only [csDiff, dotProduct, Fin.sum_univ_three, Matrix.cons_val_zero, Matrix.cons_val_one, Matrix.cons_val]
        rw [show (0 * 0 + s * s + s * s) * (s * s + 0 * 0 + s * s) - (0 * s + s * 0 + s * s) * (0 * s + s * 0 + s * s) = 3 * (s ^ 2) ^ 2 by ring, hs]
        norm_num
      have cb : csDiff ![0, s, s] b < 1 / 10 ^ 6 := by
        by_contra hcb
        apply hfail
        intro v hv
        simp only [List.mem_cons, List.not_mem_nil, or_false] at hv
        rcases hv with rfl | rfl
        · exact c0
        · exact hcb
      have hy : 9 / 10 < s * b 1 + 1 / 2 := by
        simp only [csDiff, dotProduct, Fin.sum_univ_three, Matrix.cons_val_zero, Matrix.cons_val_one, Matrix.cons_val, b2] at cb
        have cb' : 1 - (s * b 1 + 1 / 2) ^ 2 < 1 / 10 ^ 6 := by
          have e1 : (0 * 0 + s * s + s * s) = 1 := by linear_combination 2 * hs
          have e2 : b 0 * b 0 + b 1 * b 1 + s * s = 1 := by linear_combination bn + hs
          have e3 : 0 * b 0 + s * b 1 + s * s = s * b 1 + 1 / 2 := by linear_combination hs
          rw [e1, e2, e3] at cb
          linear_combination cb
        have hlow : -(1 / 2) ≤ s * b 1 := by
          nlinarith [sq_nonneg (s + b 1), sq_nonneg (b 0)]
        norm_num at cb'
        nlinarith
      have hb0 : b 1 ≤ s := by nlinarith [sq_nonneg (b 0)]
      have hb0' : b 0 ≤ s := by nlinarith [sq_nonneg (b 1)]
      have hb1pos : 0 < b 1 := by nlinarith
      have h2 : ∀ v ∈ [dir0, b], ¬csDiff ![s, s, 0] v < 1 / 10 ^ 6 := by
        intro v hv
        simp only [List.mem_cons, List.not_mem_nil, or_false] at hv
        rcases hv with rfl | rfl
        · rw [hd0]; simp only [csDiff, dotProduct, Fin.sum_univ_three, Matrix.cons_val_zero, Matrix.cons_val_one, Matrix.cons_val]
          rw [show (s * s + s * s + 0 * 0) * (s * s + 0 * 0 + s * s) - (s * s + s * 0 + 0 * s) * (s * s + s * 0 + 0 * s) = 3 * (s ^ 2) ^ 2 by ring, hs]
          norm_num
        · simp only [csDiff, dotProduct, Fin.sum_univ_three, Matrix.cons_val_zero, Matrix.cons_val_one, Matrix.cons_val, b2]
          have e1 : (s * s + s * s + 0 * 0) = 1 := by linear_combination 2 * hs
          have e2 : v 0 * v 0 + v 1 * v 1 + s * s = 1 := by linear_combination bn + hs
          have e3 : s * v 0 + s * v 1 + 0 * s = s * (v 0 + v 1) := by ring
          rw [e1, e2, e3]
          have hq : (s * (v 0 + v 1)) * (s * (v 0 + v 1)) ≤ 1 / 2 := by
            have : (s * (v 0 + v 1)) * (s * (v 0 + v 1)) = s ^ 2 * (v 0 + v 1) ^ 2 := by ring
            rw [this, hs]
            nlinarith [sq_nonneg (v 0 - v 1)]
          norm_num
          linarith
      have e : additional [dir0, b] = [![s, s, 0]] := by
        have : (extra.find? fun e => decide (∀ v ∈ [dir0, b], ¬csDiff e v < 1 / 10 ^ 6)) = some ![s, s, 0] := by
          rw [hex, List.find?_cons_of_neg, List.find?_cons_of_pos]
          · exact decide_eq_true h2
          · simp only [decide_eq_true_eq]; exact hfail
        unfold additional
        simp only [List.length_cons, List.length_nil]
        rw [this]; rfl
      rw [e]
      refine ⟨rfl, ?_⟩
      rw [List.cons_append, List.cons_append, List.nil_append, det_columns, hd0]
      simp only [Matrix.cons_val_zero, Matrix.cons_val_one, Matrix.cons_val, b2]
      intro hc
      have hc' : s * s * (b 0 - b 1 - s) = 0 := by linear_combination hc
      have hsum : b 0 - b 1 = s := by
        rcases mul_eq_zero.1 hc' with h | h
        · exact absurd h (by positivity)
        · linarith
      linarith
  | [a, b, c], hh, _ =>
    have e : additional [a, b, c] = [] := rfl
    rw [e, List.append_nil]
    refine ⟨rfl, fun hc => ?_⟩
    have ha := hcone a (by simp)
    have hb := hcone b (by simp)
    have hcc := hcone c (by simp)
    simp only [List.pairwise_cons, List.mem_cons, List.not_mem_nil, or_false, forall_eq_or_imp, forall_eq, IsEmpty.forall_iff, implies_true,
      List.Pairwise.nil, and_true] at hp
    obtain ⟨⟨p1, p2⟩, p3⟩ := hp
    rw [det_columns, ha.1, hb.1, hcc.1, ← hsdef] at hc
    have hc' : (b 0 - a 0) * (c 1 - a 1) - (c 0 - a 0) * (b 1 - a 1) = 0 := by
      have : s * ((b 0 - a 0) * (c 1 - a 1) - (c 0 - a 0) * (b 1 - a 1)) = 0 := by linear_combination hc
      exact (mul_eq_zero.1 this).resolve_left hspos.ne'
    rcases circle_det ha.2 hb.2 hcc.2 hc' with h | h | h
    · exact cone_ne ha hb p1 h
    · exact cone_ne ha hcc p2 h
    · exact cone_ne hb hcc p3 h
  | _ :: _ :: _ :: _ :: _, _, hl => simp at hl; omega

private theorem cart_one {L : M3 ℝ} (h : Slab L 0 1 2) : (cartOp L (embed 0 1 SymDisp.one)).mulVec dir0 = dir0 := by
  have e := (C75_orthogonal_partial h (good_one L).1 (good_one L).2).2
  have hu : IsUnit L.det := h.regular.isUnit
  have hx : dir0 = Matrix.vecMul (Matrix.vecMul dir0 L⁻¹) L := by
    rw [Matrix.vecMul_vecMul, Matrix.nonsing_inv_mul _ hu, Matrix.vecMul_one]
  have ha : ∀ x : V3 ℝ, applyOp 0 1 SymDisp.one 0 x = x := by
    intro x; funext c; fin_cases c <;> simp [applyOp, SymDisp.one]
  conv_lhs => rw [hx]
  rw [e, ha, ← hx]

private theorem mapM_find (ops : List Op) : ∀ l : List (Op × V3 ℝ), (∀ q ∈ l, q.1 ∈ ops) →
    (l.mapM fun q => (do let k ← findIndex ops q.1; pure (k, q.1, q.2) : Run (ℕ × Op × V3 ℝ))) = .ok (l.map fun q => (ops.idxOf q.1, q.1, q.2)) := by
  intro l
  induction l with
  | nil => intro _; rfl
  | cons q l ih =>
    intro h
    rw [List.mapM_cons, ih (fun q hq => h q (by simp [hq]))]
    simp only [findIndex, if_pos (h q (by simp))]
    rfl

/-- **C74**, for a slab in the Cartesian `xy` plane (periodicity 1 1 0) whose recorded operations are exact symmetries that close under composition
and for which the Cartesian form is right (`GoodOp`): for each required atom the search succeeds, every direction kept is the image of the
starting direction under a recorded operation that fixes the atom, and together with the added directions they are three linearly
independent vectors.  `Fixes` are the recorded operations that map the atom to itself; `selfOps` lists some of them.  (Missing: other planes, see
`C74_coplanar_refuted`, and the case refuted in C75.) -/
theorem C74_independent_partial {L : M3 ℝ} (h : Slab L 0 1 2) (ops selfOps : List Op) (Fixes : Op → Prop)
    (hops : ∀ W, Fixes W → W ∈ ops) (hgood : ∀ W, Fixes W → GoodOp L W) (hone : Fixes SymDisp.one)
    (hcomp : ∀ V W, Fixes V → Fixes W → Fixes (SymDisp.comp V W)) (hself : ∀ W ∈ selfOps, Fixes W) (hne : selfOps ≠ []) :
    ∃ l : List (ℕ × Op × V3 ℝ), independent L 0 1 ops selfOps = some (.ok l) ∧
      (∀ q ∈ l, Fixes q.2.1 ∧ ops[q.1]? = some q.2.1 ∧ q.2.2 = (cartOp L (embed 0 1 q.2.1)).mulVec dir0) ∧
      (l.map fun q => q.2.2).head? = some dir0 ∧
      ((l.map fun q => q.2.2) ++ additional (l.map fun q => q.2.2)).length = 3 ∧
      (ofColumns ((l.map fun q => q.2.2) ++ additional (l.map fun q => q.2.2))).det ≠ 0 := by
  obtain ⟨cands, e, h1, h2⟩ := dirCands_spec h Fixes hone hcomp hgood selfOps hself
  obtain ⟨rest, hr⟩ := h2 hne
  set v0 := (cartOp L (embed 0 1 SymDisp.one)).mulVec dir0 with hv0
  have hv0' : v0 = dir0 := cart_one h
  obtain ⟨k1, k2, k3, k4⟩ := keepLoop_spec (fun q => Fixes q.1 ∧ q.2 = (cartOp L (embed 0 1 q.1)).mulVec dir0) rest [v0] [(SymDisp.one, v0)]
    (fun q hq => h1 q (by rw [hr]; simp [hq])) (by simp [hone, hv0]) (by simp) (by simp) (by simp)
  set kept := keepLoop [v0] [(SymDisp.one, v0)] rest with hkept
  refine ⟨kept.map fun q => (ops.idxOf q.1, q.1, q.2), ?_, ?_, ?_, ?_⟩
  · unfold independent
    rw [e, hr]
    simp only
    rw [← hkept, mapM_find ops kept (fun q hq => hops _ (k1 q hq).1)]
  · intro q hq
    obtain ⟨q', hq', rfl⟩ := List.mem_map.1 hq
    refine ⟨(k1 q' hq').1, ?_, (k1 q' hq').2⟩
    have hm := hops _ (k1 q' hq').1
    rw [List.getElem?_eq_getElem (List.idxOf_lt_length_iff.2 hm), List.getElem_idxOf]
  · obtain ⟨t, ht⟩ := k4
    rw [← ht]; simp [hv0']
  · rw [List.map_map]
    have hm : ((fun q : ℕ × Op × V3 ℝ => q.2.2) ∘ fun q : Op × V3 ℝ => (ops.idxOf q.1, q.1, q.2)) = Prod.snd := rfl
    rw [hm]
    apply cone_three
    · simpa using k2
    · obtain ⟨t, ht⟩ := k4
      rw [← ht]; simp [hv0']
    · intro v hv
      obtain ⟨q, hq, rfl⟩ := List.mem_map.1 hv
      rw [(k1 q hq).2]
      exact cone_of_good h (hgood _ (k1 q hq).1)
    · exact List.pairwise_map.2 k3

/-! ### C106: no superfluous displacement -/

/-- Every direction of the list is one of `kept` or nearly parallel (within the program's tolerance) to an earlier one of the list. -/
def Covered (kept dirs : List (V3 ℝ)) : Prop :=
  ∀ (i : ℕ) (v : V3 ℝ), dirs[i]? = some v → v ∈ kept ∨ ∃ (j : ℕ) (u : V3 ℝ), j < i ∧ dirs[j]? = some u ∧ csDiff v u < 1 / 10 ^ 6

private theorem covered_snoc {kept kept' dirs : List (V3 ℝ)} {v : V3 ℝ} (h : Covered kept dirs) (hs : ∀ u ∈ kept, u ∈ kept')
    (hv : v ∈ kept' ∨ ∃ u ∈ dirs, csDiff v u < 1 / 10 ^ 6) : Covered kept' (dirs ++ [v]) := by
  intro i w hw
  rcases Nat.lt_or_ge i dirs.length with hi | hi
  · rw [List.getElem?_append_left hi] at hw
    rcases h i w hw with hm | ⟨j, u, hj, hu, hc⟩
    · exact .inl (hs _ hm)
    · exact .inr ⟨j, u, hj, by rw [List.getElem?_append_left (by omega)]; exact hu, hc⟩
  · rw [List.getElem?_append_right hi] at hw
    have h0 : i - dirs.length = 0 := by
      by_contra hc
      rw [List.getElem?_eq_none (by simp; omega)] at hw
      cases hw
    rw [h0, List.getElem?_cons_zero] at hw
    cases hw
    rcases hv with hv | ⟨u, hu, hc⟩
    · exact .inl hv
    · obtain ⟨j, hj, rfl⟩ := List.getElem_of_mem hu
      exact .inr ⟨j, dirs[j], by omega, by rw [List.getElem?_append_left hj]; exact List.getElem?_eq_getElem hj, hc⟩

private theorem keepLoop_covered : ∀ (rest : List (Op × V3 ℝ)) (prev : List (V3 ℝ)) (kept : List (Op × V3 ℝ)), kept.length ≤ 3 →
    Covered (kept.map Prod.snd) prev →
    (keepLoop prev kept rest).length = 3 ∨ Covered ((keepLoop prev kept rest).map Prod.snd) (prev ++ rest.map Prod.snd) := by
  intro rest
  induction rest with
  | nil => intro prev kept _ h; right; simpa [keepLoop] using h
  | cons q rest ih =>
    intro prev kept hl h
    obtain ⟨W, v⟩ := q
    rw [keepLoop]
    by_cases hind : ∀ p ∈ prev, ¬csDiff v p < 1 / 10 ^ 6
    · rw [if_pos hind]
      by_cases hlt : kept.length < 3
      · rw [if_pos hlt]
        have := ih (prev ++ [v]) (kept ++ [(W, v)]) (by simp; omega) (covered_snoc h (by simp; tauto) (.inl (by simp)))
        simpa using this
      · rw [if_neg hlt]; left; omega
    · rw [if_neg hind]
      push_neg at hind
      obtain ⟨u, hu, hc⟩ := hind
      have := ih (prev ++ [v]) kept hl (covered_snoc h (fun _ hu => hu) (.inr ⟨u, hu, hc⟩))
      simpa using this

/-- **C106.**  Symmetry is used fully: for a required atom, either three displacement directions come from symmetry images of the first
one (and nothing more has to be calculated), or every image of the first direction under the operations that fix the atom was considered
and is among the kept ones or parallel, within the program's tolerance, to an earlier image; and the number of additional directions is
exactly what is missing to three. -/
theorem C106_no_superfluous {L : M3 ℝ} (h : Slab L 0 1 2) (ops selfOps : List Op) (Fixes : Op → Prop)
    (hops : ∀ W, Fixes W → W ∈ ops) (hgood : ∀ W, Fixes W → GoodOp L W) (hone : Fixes SymDisp.one)
    (hcomp : ∀ V W, Fixes V → Fixes W → Fixes (SymDisp.comp V W)) (hself : ∀ W ∈ selfOps, Fixes W) (hne : selfOps ≠ []) :
    ∃ l : List (ℕ × Op × V3 ℝ), independent L 0 1 ops selfOps = some (.ok l) ∧
      (additional (l.map fun q => q.2.2)).length = 3 - l.length ∧
      (l.length = 3 ∨ ∃ dirs : List (V3 ℝ), (∀ W ∈ selfOps, (cartOp L (embed 0 1 W)).mulVec dir0 ∈ dirs) ∧
        (∀ v ∈ dirs, ∃ W, Fixes W ∧ v = (cartOp L (embed 0 1 W)).mulVec dir0) ∧ Covered (l.map fun q => q.2.2) dirs) := by
  obtain ⟨l, hl, -, -, hlen, -⟩ := C74_independent_partial h ops selfOps Fixes hops hgood hone hcomp hself hne
  refine ⟨l, hl, by rw [List.length_append, List.length_map] at hlen; omega, ?_⟩
  obtain ⟨cands, e, h1, h2⟩ := dirCands_spec h Fixes hone hcomp hgood selfOps hself
  obtain ⟨rest, hr⟩ := h2 hne
  set v0 := (cartOp L (embed 0 1 SymDisp.one)).mulVec dir0 with hv0
  obtain ⟨k1, -⟩ := keepLoop_spec (fun q => Fixes q.1 ∧ q.2 = (cartOp L (embed 0 1 q.1)).mulVec dir0) rest [v0] [(SymDisp.one, v0)]
    (fun q hq => h1 q (by rw [hr]; simp [hq])) (by simp [hone, hv0]) (by simp) (by simp) (by simp)
  have hcov := keepLoop_covered rest [v0] [(SymDisp.one, v0)] (by simp) (by
    intro i v hv
    rcases i with _ | i
    · simp at hv; left; simp [hv]
    · simp at hv)
  set kept := keepLoop [v0] [(SymDisp.one, v0)] rest with hkept
  have hle : l = kept.map fun q => (ops.idxOf q.1, q.1, q.2) := by
    unfold independent at hl
    rw [e, hr] at hl
    simp only at hl
    rw [← hkept, mapM_find ops kept (fun q hq => hops _ (k1 q hq).1)] at hl
    injection hl with hl
    injection hl with hl
    exact hl.symm
  have hmap : (l.map fun q => q.2.2) = kept.map Prod.snd := by rw [hle, List.map_map]; rfl
  rcases hcov with h3 | hc
  · left; rw [hle, List.length_map]; exact h3
  · right
    refine ⟨cands.map Prod.snd, ?_, ?_, ?_⟩
    · have key : ∀ (so : List Op) (cs : List (Op × V3 ℝ)), dirCands L 0 1 so = some cs → ∀ W ∈ so, (cartOp L (embed 0 1 W)).mulVec dir0 ∈ cs.map Prod.snd := by
        intro so
        induction so with
        | nil => intro cs _ W hW; cases hW
        | cons V so ih =>
          intro cs hcs W hW
          rw [dirCands] at hcs
          rcases hps : setW V with _ | ps
          · rw [hps] at hcs; cases hcs
          rcases hd : dirCands L 0 1 so with _ | cs'
          · rw [hps, hd] at hcs; cases hcs
          rw [hps, hd] at hcs
          simp only [Option.some.injEq] at hcs
          rw [← hcs, List.map_append, List.mem_append]
          rcases List.mem_cons.1 hW with rfl | hW
          · left
            rw [List.map_map, List.mem_map]
            refine ⟨W, ?_, rfl⟩
            unfold setW at hps
            obtain ⟨ps', e', e''⟩ := Option.map_eq_some_iff.1 hps
            cases e''
            rw [powersFrom] at e'
            by_cases hw : W = SymDisp.one
            · rw [hw]; simp
            · rw [if_neg hw] at e'
              obtain ⟨t, -, rfl⟩ := Option.map_eq_some_iff.1 e'
              simp
          · right; exact ih cs' hd W hW
      exact key selfOps cands e
    · intro v hv
      obtain ⟨q, hq, rfl⟩ := List.mem_map.1 hv
      exact ⟨q.1, h1 q hq⟩
    · rw [hmap, hr]
      simpa using hc

/-- The hypotheses of C74 on a square slab: an atom fixed by the rotations of order 4. -/
example : ∃ (L : M3 ℝ) (ops : List Op), ops.length = 4 ∧ Slab L 0 1 2 ∧ (∀ W ∈ ops, GoodOp L W) ∧ SymDisp.one ∈ ops ∧
    (∀ V W, V ∈ ops → W ∈ ops → SymDisp.comp V W ∈ ops) := by
  refine ⟨!![3, 0, 0; 0, 3, 0; 0, 0, 20], [⟨0, 1, -1, 0⟩, ⟨0, -1, 1, 0⟩, ⟨1, 0, 0, 1⟩, ⟨-1, 0, 0, -1⟩], rfl, ?_, ?_, by decide, ?_⟩
  · refine ⟨by decide, by decide, by decide, ?_, ?_, ?_, ?_, ?_⟩
    any_goals rfl
    simp [Matrix.det_fin_three]
  · intro W hW
    refine ⟨?_, Or.inl (by simp [Fin.sum_univ_three])⟩
    rw [exact_iff, preserves_iff]
    simp only [List.mem_cons, List.not_mem_nil, or_false] at hW
    rcases hW with rfl | rfl | rfl | rfl <;> simp [planeMetric, Op.mat]
  · have : ∀ V ∈ [(⟨0, 1, -1, 0⟩ : Op), ⟨0, -1, 1, 0⟩, ⟨1, 0, 0, 1⟩, ⟨-1, 0, 0, -1⟩], ∀ W ∈ [(⟨0, 1, -1, 0⟩ : Op), ⟨0, -1, 1, 0⟩, ⟨1, 0, 0, 1⟩, ⟨-1, 0, 0, -1⟩],
        SymDisp.comp V W ∈ [(⟨0, 1, -1, 0⟩ : Op), ⟨0, -1, 1, 0⟩, ⟨1, 0, 0, 1⟩, ⟨-1, 0, 0, -1⟩] := by decide
    exact fun V W hV hW => this V hV W hW

/-- A square slab with periodicity 0 1 1 whose only symmetry is the mirror `(y, z) ↦ (-z, -y)`. -/
def mirrorCell : Input ℚ where
  lattice := !![20, 0, 0; 0, 3, 0; 0, 0, 3]
  types := ["A".toList, "B".toList]
  direct := [![1 / 2, 0, 0], ![1 / 2, 1 / 10, -1 / 10]]
  sel := [0, 1]
  period := ![0, 1, 1]

/-- **C74 is false of the code** for periodicity 0 1 1: for `mirrorCell` the search reports `m`, both atoms are required and fixed by the two
operations; the search keeps the starting direction (1, 0, 1)/√2 and its mirror image (1, -1, 0)/√2 and adds (0, 1, 1)/√2, three coplanar
vectors, which `np.linalg.inv` cannot invert. -/
theorem C74_coplanar_refuted :
    (∃ ops, searchPointGroup mirrorCell = .ok (ops, "m".toList) ∧ ops.map Prod.fst = [⟨0, -1, -1, 0⟩, ⟨1, 0, 0, 1⟩] ∧
      searchImageAtom (sameFirst ops) 2 = .ok ([], [0, 1], []) ∧ selfImages (sameFirst ops) 0 = [0, 1]) ∧
    ∃ l, independent (mirrorCell.lattice.map (fun q : ℚ => (q : ℝ))) 1 2 [⟨0, -1, -1, 0⟩, ⟨1, 0, 0, 1⟩] [⟨0, -1, -1, 0⟩, ⟨1, 0, 0, 1⟩] = some (.ok l) ∧
      ((l.map fun q => q.2.2) ++ additional (l.map fun q => q.2.2)).length = 3 ∧
      (ofColumns ((l.map fun q => q.2.2) ++ additional (l.map fun q => q.2.2))).det = 0 := by
  constructor
  · have h : (match searchPointGroup mirrorCell with
        | .ok (ops, name) => decide (name = "m".toList ∧ ops.map Prod.fst = [⟨0, -1, -1, 0⟩, ⟨1, 0, 0, 1⟩] ∧
            (match searchImageAtom (sameFirst ops) 2 with | .ok r => decide (r = ([], [0, 1], [])) | .error _ => false) = true ∧ selfImages (sameFirst ops) 0 = [0, 1])
        | .error _ => false) = true := by decide +kernel
    rcases e : searchPointGroup mirrorCell with err | ⟨ops, name⟩
    · rw [e] at h; simp at h
    · rw [e] at h
      simp only [decide_eq_true_eq] at h
      obtain ⟨h1, h2, h3, h4⟩ := h
      refine ⟨ops, by rw [h1], h2, ?_, h4⟩
      rcases e2 : searchImageAtom (sameFirst ops) 2 with err | r
      · rw [e2] at h3; cases h3
      · rw [e2] at h3; rw [of_decide_eq_true h3]
  · set L : M3 ℝ := mirrorCell.lattice.map (fun q : ℚ => (q : ℝ)) with hL
    have hLe : L = !![20, 0, 0; 0, 3, 0; 0, 0, 3] := by
      ext r c; fin_cases r <;> fin_cases c <;> simp [hL, mirrorCell]
    have hedge : ∀ c, edge L c = L c c := by
      intro c
      have : (∑ k, L c k ^ 2) = L c c ^ 2 := by
        rw [hLe]; fin_cases c <;> simp [Fin.sum_univ_three]
      rw [edge, this, Real.sqrt_sq]
      rw [hLe]; fin_cases c <;> simp
    have hcart : toCart L = 1 := by
      ext r c
      rw [toCart, hedge, hLe]
      fin_cases r <;> fin_cases c <;> simp
    have hop : ∀ W, cartOp L W = W := by intro W; rw [cartOp, hcart]; simp
    set s := 1 / Real.sqrt 2 with hs
    have hs2 : s ^ 2 = 1 / 2 := half_sq
    have hd0 : dir0 = ![s, 0, s] := rfl
    have hex : extra = [![0, s, s], ![s, s, 0]] := rfl
    have i1 : (embed 1 2 SymDisp.one : M3 ℝ).mulVec dir0 = ![s, 0, s] := by
      rw [hd0]; funext c; fin_cases c <;> simp [Matrix.mulVec, dotProduct, Fin.sum_univ_three, embed, SymDisp.one]
    have i2 : (embed 1 2 ⟨0, -1, -1, 0⟩ : M3 ℝ).mulVec dir0 = ![s, -s, 0] := by
      rw [hd0]; funext c; fin_cases c <;> simp [Matrix.mulVec, dotProduct, Fin.sum_univ_three, embed]
    have s1 : setW ⟨0, -1, -1, 0⟩ = some [SymDisp.one, ⟨0, -1, -1, 0⟩] := by decide
    have s2 : setW ⟨1, 0, 0, 1⟩ = some [SymDisp.one] := by decide
    have hc : dirCands L 1 2 [⟨0, -1, -1, 0⟩, ⟨1, 0, 0, 1⟩] =
        some [(SymDisp.one, ![s, 0, s]), (⟨0, -1, -1, 0⟩, ![s, -s, 0]), (SymDisp.one, ![s, 0, s])] := by
      rw [dirCands, dirCands, dirCands, s1, s2]
      simp only [List.map_cons, List.map_nil, hop, i1, i2]
      rfl
    have c1 : ¬csDiff ![s, -s, 0] ![s, 0, s] < 1 / 10 ^ 6 := by
      simp only [csDiff, dotProduct, Fin.sum_univ_three, Matrix.cons_val_zero, Matrix.cons_val_one, Matrix.cons_val]
      rw [show (s * s + -s * -s + 0 * 0) * (s * s + 0 * 0 + s * s) - (s * s + -s * 0 + 0 * s) * (s * s + -s * 0 + 0 * s) = 3 * (s ^ 2) ^ 2 by ring, hs2]
      norm_num
    have hk : keepLoop [![s, 0, s]] [(SymDisp.one, ![s, 0, s])] [(⟨0, -1, -1, 0⟩, ![s, -s, 0]), (SymDisp.one, ![s, 0, s])] =
        [(SymDisp.one, ![s, 0, s]), (⟨0, -1, -1, 0⟩, ![s, -s, 0])] := by
      rw [keepLoop, if_pos (by simpa using c1), if_pos (by simp), keepLoop, if_neg]
      · rfl
      · intro hall
        exact hall ![s, 0, s] (by simp) (by rw [csDiff_self]; norm_num)
    have hadd : additional [![s, 0, s], ![s, -s, 0]] = [![0, s, s]] := by
      have : (extra.find? fun e => decide (∀ v ∈ [![s, 0, s], ![s, -s, 0]], ¬csDiff e v < 1 / 10 ^ 6)) = some ![0, s, s] := by
        rw [hex, List.find?_cons_of_pos]
        apply decide_eq_true
        intro v hv
        simp only [List.mem_cons, List.not_mem_nil, or_false] at hv
        rcases hv with rfl | rfl
        · simp only [csDiff, dotProduct, Fin.sum_univ_three, Matrix.cons_val_zero, Matrix.cons_val_one, Matrix.cons_val]
          rw [show (0 * 0 + s * s + s * s) * (s * s + 0 * 0 + s * s) - (0 * s + s * 0 + s * s) * (0 * s + s * 0 + s * s) = 3 * (s ^ 2) ^ 2 by ring, hs2]
          norm_num
        · simp only [csDiff, dotProduct, Fin.sum_univ_three, Matrix.cons_val_zero, Matrix.cons_val_one, Matrix.cons_val]
          rw [show (0 * 0 + s * s + s * s) * (s * s + -s * -s + 0 * 0) - (0 * s + s * -s + s * 0) * (0 * s + s * -s + s * 0) = 3 * (s ^ 2) ^ 2 by ring, hs2]
          norm_num
      unfold additional
      simp only [List.length_cons, List.length_nil]
      rw [this]; rfl
    refine ⟨[(1, SymDisp.one, ![s, 0, s]), (0, ⟨0, -1, -1, 0⟩, ![s, -s, 0])], ?_, ?_, ?_⟩
    · unfold independent
      rw [hc]
      simp only
      rw [hk, mapM_find]
      · rfl
      · intro q hq
        simp only [List.mem_cons, List.not_mem_nil, or_false] at hq
        rcases hq with rfl | rfl <;> decide
    · simp only [List.map_cons, List.map_nil]
      rw [hadd]; rfl
    · simp only [List.map_cons, List.map_nil]
      rw [hadd, List.cons_append, List.cons_append, List.nil_append, det_columns]
      simp

end
end Interphon.Props
