import Verif.Props.Phonon
import Verif.Props.SuperCell
import Mathlib.LinearAlgebra.Matrix.Hermitian
import Mathlib.Algebra.BigOperators.Field
import Mathlib.LinearAlgebra.Matrix.Charpoly.Coeff

/-! # Properties C26–C29, C32: the dynamical matrix -/

namespace Interphon.Props
open Py Interphon Interphon.Phonon Complex

noncomputable section

/-- The `3N × 3N` matrix stored for the wave vector `k`. -/
def dynMat (D : PhononData) (N : ℕ) (k : V3 ℝ) : Matrix (Fin (3 * N)) (Fin (3 * N)) ℂ := fun r c => dynMatrix D k r c

/-- Geometry of a super cell: the reciprocal vectors are those of the unit lattice `L`, super-lattice vector `i`
is `n i` times the lattice vector, and image `k` of atom `i` is that atom shifted by an integer lattice vector. -/
structure GoodGeometry (D : PhononData) (L : M3 ℝ) (n : Fin 3 → ℤ) (N : ℕ) : Prop where
  det : L.det ≠ 0
  recip : D.recip = reciprocal L
  lat : D.superLat = fun i j => L i j * (n i : ℝ)
  shift : ∀ i < N, ∀ k < D.E, ∃ t : Fin 3 → ℤ, D.superCart (i * D.E + k) = D.unitCart i + fun j => ∑ c, (t c : ℝ) * L c j

/-! ### The hypotheses hold for every cell the program builds -/

/-- The data read by `eval_phonon` from cells built by `set_super_cell` and `set_super_ind_true` satisfy
`GoodSelection` and `GoodGeometry`. -/
theorem phonon_data_reachable {junk : ℕ → List (V3 ℝ)} {u s s' : Cell ℝ} {n p : Fin 3 → ℤ} (h : GoodCall junk u n p)
    (hdet : u.lattice.det ≠ 0) (sel : List ℕ) (hsel : u.atomTrue = some sel)
    (hxyz : u.xyzTrue = some (sel.flatMap fun a => [a, a, a]))
    (hs : SuperCell.setSuperCell junk u n p = .ok s) (hs' : SuperCell.setSuperIndTrue s u n p = .ok s')
    (fc : ℕ → ℕ → ℝ) (mass : ℕ → ℝ) :
    GoodSelection (ofCells u s' n p fc mass) sel ∧ GoodGeometry (ofCells u s' n p fc mass) u.lattice n u.cart.length := by
  have h0 := h.pos 0
  have h1 := h.pos 1
  have h2 := h.pos 2
  have hpos : 0 < n 0 * n 1 * n 2 := by positivity
  have hE : (ofCells u s' n p fc mass).E = (n 0 * n 1 * n 2).toNat := by
    simp only [ofCells]; rw [SuperCell.enlarge_eq n p h.cons]
  obtain ⟨s0, hs0, hlen, hcart⟩ := C06_supercell_positions h
  rw [hs] at hs0; cases hs0
  unfold SuperCell.setSuperIndTrue at hs'
  simp only [hsel, SuperCell.enlarge_eq n p h.cons] at hs'
  cases hs'
  have hlat : s.lattice = SuperCell.superLattice u.lattice n := by
    unfold SuperCell.setSuperCell at hs
    simp only at hs
    split_ifs at hs <;> split at hs <;> first | (cases hs; done) | (cases hs; rfl)
  refine ⟨⟨by simp [ofCells, hxyz], ?_, by rw [hE]; omega⟩, ⟨hdet, rfl, by simp [ofCells, hlat, SuperCell.superLattice]; rfl, ?_⟩⟩
  · rw [hE]
    simp [ofCells, rangeInt]
  · intro i hi k hk
    rw [hE] at hk ⊢
    have hb : 0 < (n 1).toNat := by omega
    have hc : 0 < (n 2).toNat := by omega
    have hE3 : (n 0 * n 1 * n 2).toNat = (n 0).toNat * (n 1).toNat * (n 2).toNat := by
      zify
      rw [Int.toNat_of_nonneg hpos.le, Int.toNat_of_nonneg h0.le, Int.toNat_of_nonneg h1.le, Int.toNat_of_nonneg h2.le]
    have hx : k / (n 2).toNat / (n 1).toNat < (n 0).toNat := by
      rw [Nat.div_div_eq_div_mul, Nat.div_lt_iff_lt_mul (by positivity)]
      rw [hE3] at hk
      calc k < _ := hk
        _ = _ := by ring
    have hy := Nat.mod_lt (k / (n 2).toNat) hb
    have hz := Nat.mod_lt k hc
    have hv : u.cart[i]? = some u.cart[i] := List.getElem?_eq_getElem hi
    have := hcart i _ hv (k / (n 2).toNat / (n 1).toNat) (k / (n 2).toNat % (n 1).toNat) (k % (n 2).toNat) (by omega) (by omega) (by omega)
    rw [Nat.div_add_mod', Nat.div_add_mod', Nat.mul_comm _ i] at this
    refine ⟨![((k / (n 2).toNat / (n 1).toNat : ℕ) : ℤ), ((k / (n 2).toNat % (n 1).toNat : ℕ) : ℤ), ((k % (n 2).toNat : ℕ) : ℤ)], ?_⟩
    simp only [ofCells, List.getD_eq_getElem?_getD, this, hv, Option.getD_some]
    funext j
    simp only [translate, Fin.sum_univ_three, Pi.add_apply, Matrix.cons_val_zero, Matrix.cons_val_one, Matrix.cons_val, Int.cast_natCast]

/-! ### Phases -/

private theorem dot3_add_right (a b c : V3 ℝ) : dot3 a (b + c) = dot3 a b + dot3 a c := by simp only [dot3, Pi.add_apply]; ring
private theorem dot3_add_left (a b c : V3 ℝ) : dot3 (a + b) c = dot3 a c + dot3 b c := by simp only [dot3, Pi.add_apply]; ring
private theorem dot3_sub_right (a b c : V3 ℝ) : dot3 a (b - c) = dot3 a b - dot3 a c := by simp only [dot3, Pi.sub_apply]; ring
private theorem dot3_comb (a : V3 ℝ) (z : Fin 3 → ℤ) (S : M3 ℝ) :
    dot3 a (fun j => ∑ i, (z i : ℝ) * S i j) = ∑ i, (z i : ℝ) * dot3 a (S i) := by
  simp only [dot3, Fin.sum_univ_three]; ring

private theorem exp_shift (t : ℝ) (m : ℤ) : exp (I * ((t + 2 * Real.pi * m : ℝ) : ℂ)) = exp (I * (t : ℂ)) := by
  rw [show I * ((t + 2 * Real.pi * m : ℝ) : ℂ) = I * t + m * (2 * Real.pi * I) by push_cast; ring, Complex.exp_add,
    Complex.exp_int_mul_two_pi_mul_I, mul_one]

private theorem sum_int_mul (z : Fin 3 → ℤ) (w : Fin 3 → ℝ) (h : ∀ i, ∃ m : ℤ, (z i : ℝ) * w i = 2 * Real.pi * m) :
    ∃ m : ℤ, ∑ i, (z i : ℝ) * w i = 2 * Real.pi * m := by
  choose m hm using h
  refine ⟨∑ i, m i, ?_⟩
  rw [Finset.sum_congr rfl fun i _ => hm i, ← Finset.mul_sum]
  push_cast
  rfl

/-! ### C26 -/

/-- `q` is commensurate with the super cell: `q·R` is a multiple of `2π` for each periodic super-lattice vector. -/
def Commensurate (D : PhononData) (q : V3 ℝ) : Prop := ∀ i ∈ D.pbc, ∃ z : ℤ, dot3 q (D.superLat i) = 2 * Real.pi * z

private theorem shift_phase (D : PhononData) (q w : V3 ℝ) (h : Commensurate D q) (hw : IsPeriodicShift D.superLat D.pbc w) :
    ∃ m : ℤ, dot3 q w = 2 * Real.pi * m := by
  obtain ⟨z, hz, rfl⟩ := hw
  rw [dot3_comb]
  refine sum_int_mul z _ fun i => ?_
  by_cases hi : i ∈ D.pbc
  · obtain ⟨m, hm⟩ := h i hi
    exact ⟨z i * m, by rw [hm]; push_cast; ring⟩
  · exact ⟨0, by rw [hz i hi]; simp⟩

private theorem commensurate_phase (D : PhononData) (q : V3 ℝ) (h : Commensurate D q) (s u : ℕ) :
    exp (I * (dot3 q (posVector D s u) : ℝ)) = exp (I * (dot3 q (D.superCart s - D.unitCart u) : ℝ)) := by
  obtain ⟨m, hm⟩ := shift_phase D q _ h (C25_equivalent_not_longer_partial D s u).1
  rw [show posVector D s u = (D.superCart s - D.unitCart u) + (posVector D s u - (D.superCart s - D.unitCart u)) by abel,
    dot3_add_right, hm, exp_shift]

/-- **C26.**  At a wave vector commensurate with the super cell, the dynamical matrix between atoms `a`, `b` of
the selection is the sum over the images of `a` of the force constant times the phase of the *plain* position
difference, divided by `√(m m')`: the choice of images has no influence. -/
theorem C26_commensurate (D : PhononData) (sel : List ℕ) (h : GoodSelection D sel) (k : V3 ℝ)
    (hq : Commensurate D (qVec D k)) (a b : ℕ) (ha : a < sel.length) (hb : b < sel.length) (x y : Fin 3) :
    dynMatrix D k (3 * a + x) (3 * b + y) =
      (∑ i ∈ Finset.range D.E, (D.fc (3 * (sel.getD a 0 * D.E + i) + x) (3 * b + y) : ℂ) *
        exp (I * (dot3 (qVec D k) (D.superCart (sel.getD a 0 * D.E + i) - D.unitCart (sel.getD b 0)) : ℝ))) /
      (Real.sqrt (D.mass (3 * a + x) * D.mass (3 * b + y)) : ℝ) := by
  unfold dynMatrix
  rw [dynRaw_entry D sel h _ a b x y ha hb]
  congr 1
  exact Finset.sum_congr rfl fun i _ => by rw [commensurate_phase D _ hq]

/-- Γ is always commensurate. -/
theorem C26_gamma_commensurate (D : PhononData) : Commensurate D (qVec D 0) :=
  fun i _ => ⟨0, by simp [qVec, dot3]⟩

/-! ### C27 -/

private theorem dynRaw_conj (D : PhononData) (q : V3 ℝ) (r c : ℕ) : dynRaw D (-q) r c = (starRingEnd ℂ) (dynRaw D q r c) := by
  rw [dynRaw_sum, dynRaw_sum, map_sum]
  refine Finset.sum_congr rfl fun s1 _ => ?_
  rw [map_sum]
  refine Finset.sum_congr rfl fun s2 _ => ?_
  split_ifs
  · unfold term
    rw [map_mul, Complex.conj_ofReal, ← Complex.exp_conj, map_mul, Complex.conj_I, Complex.conj_ofReal]
    congr 2
    simp only [dot3, Pi.neg_apply]
    push_cast
    ring
  · simp

/-- **C27.**  For every structure and every `k` the dynamical matrix at `-k` is the entrywise complex conjugate of
the one at `k`. -/
theorem C27_time_reversal (D : PhononData) (k : V3 ℝ) (r c : ℕ) :
    dynMatrix D (-k) r c = (starRingEnd ℂ) (dynMatrix D k r c) := by
  have hq : qVec D (-k) = -qVec D k := by funext j; simp only [qVec, Pi.neg_apply]; ring
  unfold dynMatrix
  rw [hq, dynRaw_conj, map_div₀, Complex.conj_ofReal]

/-- Consequence: the dynamical matrix at Γ is real. -/
theorem C27_gamma_real (D : PhononData) (r c : ℕ) : (dynMatrix D 0 r c).im = 0 := by
  have := C27_time_reversal D 0 r c
  rw [neg_zero] at this
  exact Complex.conj_eq_iff_im.mp this.symm

/-! ### C28 -/

private theorem qVec_add (D : PhononData) (k m : V3 ℝ) : qVec D (k + m) = qVec D k + qVec D m := by
  funext j; simp only [qVec, Pi.add_apply]; ring

private theorem G_lattice (D : PhononData) (L : M3 ℝ) (hd : L.det ≠ 0) (hr : D.recip = reciprocal L) (m t : Fin 3 → ℤ) :
    dot3 (qVec D fun i => (m i : ℝ)) (fun j => ∑ c, (t c : ℝ) * L c j) = 2 * Real.pi * ((∑ c, m c * t c : ℤ) : ℝ) := by
  have e : ∀ i, dot3 (qVec D fun i => (m i : ℝ)) (L i) = 2 * Real.pi * m i := by
    intro i
    have h0 := C24_reciprocal_dual L hd 0 i
    have h1 := C24_reciprocal_dual L hd 1 i
    have h2 := C24_reciprocal_dual L hd 2 i
    rw [← hr] at h0 h1 h2
    simp only [Fin.sum_univ_three] at h0 h1 h2
    have : dot3 (qVec D fun i => (m i : ℝ)) (L i) =
        m 0 * (if (0 : Fin 3) = i then 2 * Real.pi else 0) + m 1 * (if (1 : Fin 3) = i then 2 * Real.pi else 0) +
        m 2 * (if (2 : Fin 3) = i then 2 * Real.pi else 0) := by
      rw [← h0, ← h1, ← h2]; simp only [dot3, qVec]; ring
    rw [this]
    fin_cases i <;> simp <;> ring
  rw [dot3_comb, Finset.sum_congr rfl fun i _ => by rw [e i]]
  push_cast
  rw [Finset.mul_sum]
  exact Finset.sum_congr rfl fun i _ => by ring

/-- The phase `e^{iG·r}` of unit-cell atom `i` for the reciprocal vector with integer components `m`. -/
def atomPhase (D : PhononData) (m : Fin 3 → ℤ) (i : ℕ) : ℂ := exp (I * (dot3 (qVec D fun i => (m i : ℝ)) (D.unitCart i) : ℝ))

private theorem phase_shift (D : PhononData) (L : M3 ℝ) (n : Fin 3 → ℤ) (N : ℕ) (hg : GoodGeometry D L n N) (k : V3 ℝ) (m : Fin 3 → ℤ)
    (a b j : ℕ) (ha : a < N) (hj : j < D.E) :
    exp (I * (dot3 (qVec D (k + fun i => (m i : ℝ))) (posVector D (a * D.E + j) b) : ℝ)) =
      atomPhase D m a * exp (I * (dot3 (qVec D k) (posVector D (a * D.E + j) b) : ℝ)) * (starRingEnd ℂ) (atomPhase D m b) := by
  obtain ⟨t, ht⟩ := hg.shift a ha j hj
  obtain ⟨z, -, hz⟩ := (C25_equivalent_not_longer_partial D (a * D.E + j) b).1
  have hp : posVector D (a * D.E + j) b = D.unitCart a - D.unitCart b + fun i => ∑ c, ((t c + z c * n c : ℤ) : ℝ) * L c i := by
    have : posVector D (a * D.E + j) b = (D.superCart (a * D.E + j) - D.unitCart b) +
      (posVector D (a * D.E + j) b - (D.superCart (a * D.E + j) - D.unitCart b)) := by abel
    rw [this, hz, ht, hg.lat]
    funext i
    simp only [Pi.add_apply, Pi.sub_apply, Fin.sum_univ_three]
    push_cast
    ring
  have hG : dot3 (qVec D fun i => (m i : ℝ)) (posVector D (a * D.E + j) b) =
      dot3 (qVec D fun i => (m i : ℝ)) (D.unitCart a) - dot3 (qVec D fun i => (m i : ℝ)) (D.unitCart b) +
      2 * Real.pi * ((∑ c, m c * (t c + z c * n c) : ℤ) : ℝ) := by
    rw [hp, dot3_add_right, dot3_sub_right, G_lattice D L hg.det hg.recip m (fun c => t c + z c * n c)]
  rw [qVec_add, dot3_add_left, hG, ← add_assoc, exp_shift]
  unfold atomPhase
  rw [← Complex.exp_conj, ← Complex.exp_add, ← Complex.exp_add]
  congr 1
  rw [map_mul, Complex.conj_I, Complex.conj_ofReal]
  push_cast
  ring

/-- **C28.**  For every integer vector `m`, the dynamical matrix at `k + m` is `U D(k) U*` with a diagonal unitary
`U` (entries of modulus 1), so it has the same characteristic polynomial, hence the same eigenvalues. -/
theorem C28_reciprocal_periodicity (D : PhononData) (sel : List ℕ) (h : GoodSelection D sel) (L : M3 ℝ) (n : Fin 3 → ℤ) (N : ℕ)
    (hg : GoodGeometry D L n N) (hsel : ∀ a ∈ sel, a < N) (k : V3 ℝ) (m : Fin 3 → ℤ) :
    ∃ U : Fin (3 * sel.length) → ℂ, (∀ r, ‖U r‖ = 1) ∧
      dynMat D sel.length (k + fun i => (m i : ℝ)) =
        Matrix.diagonal U * dynMat D sel.length k * Matrix.diagonal (fun r => (starRingEnd ℂ) (U r)) ∧
      (dynMat D sel.length (k + fun i => (m i : ℝ))).charpoly = (dynMat D sel.length k).charpoly := by
  have hU : ∀ i, ‖atomPhase D m i‖ = 1 := by
    intro i
    unfold atomPhase
    rw [mul_comm, Complex.norm_exp_ofReal_mul_I]
  have hmain : dynMat D sel.length (k + fun i => (m i : ℝ)) =
        Matrix.diagonal (fun r : Fin (3 * sel.length) => atomPhase D m (sel.getD (r / 3) 0)) * dynMat D sel.length k *
          Matrix.diagonal (fun r : Fin (3 * sel.length) => (starRingEnd ℂ) (atomPhase D m (sel.getD (r / 3) 0))) := by
    ext r c
    rw [Matrix.mul_diagonal, Matrix.diagonal_mul]
    have hr := r.isLt
    have hc := c.isLt
    have ha : (r : ℕ) / 3 < sel.length := by omega
    have hb : (c : ℕ) / 3 < sel.length := by omega
    have er : (r : ℕ) = 3 * (r / 3) + ((⟨r % 3, Nat.mod_lt _ (by norm_num)⟩ : Fin 3) : ℕ) := by simp; omega
    have ec : (c : ℕ) = 3 * (c / 3) + ((⟨c % 3, Nat.mod_lt _ (by norm_num)⟩ : Fin 3) : ℕ) := by simp; omega
    have key : dynRaw D (qVec D (k + fun i => (m i : ℝ))) r c = atomPhase D m (sel.getD (r / 3) 0) * dynRaw D (qVec D k) r c *
        (starRingEnd ℂ) (atomPhase D m (sel.getD (c / 3) 0)) := by
      conv_lhs => rw [er, ec]
      conv_rhs => enter [1, 2]; rw [er, ec]
      rw [dynRaw_entry D sel h _ _ _ _ _ ha hb, dynRaw_entry D sel h _ _ _ _ _ ha hb, Finset.mul_sum, Finset.sum_mul]
      refine Finset.sum_congr rfl fun j hj => ?_
      have hin : sel.getD (r / 3) 0 < N := by
        rw [List.getD_eq_getElem _ _ ha]; exact hsel _ (List.getElem_mem ha)
      rw [phase_shift D L n N hg k m _ _ j hin (Finset.mem_range.mp hj)]
      ring
    simp only [dynMat, dynMatrix]
    rw [key]
    ring
  refine ⟨fun r => atomPhase D m (sel.getD (r / 3) 0), fun r => hU _, hmain, ?_⟩
  have hinv : Matrix.diagonal (fun r : Fin (3 * sel.length) => (starRingEnd ℂ) (atomPhase D m (sel.getD (r / 3) 0))) *
      Matrix.diagonal (fun r : Fin (3 * sel.length) => atomPhase D m (sel.getD (r / 3) 0)) = 1 := by
    rw [Matrix.diagonal_mul_diagonal, ← Matrix.diagonal_one]
    congr 1
    funext r
    rw [mul_comm, Complex.mul_conj, Complex.normSq_eq_norm_sq, hU]
    simp
  rw [hmain, mul_assoc, Matrix.charpoly_mul_comm, mul_assoc, hinv, mul_one]

/-! ### A concrete case: a chain of one atom per cell, 2×1×1 super cell -/

/-- One atom in the unit cube, periodic along the first axis, doubled; force constants `f 0` (home image) and
`f 1` (second image), isotropic. -/
def exChain (f : ℕ → ℝ) : PhononData where
  unitCart := fun _ => 0
  superCart := fun i => ![(i : ℝ), 0, 0]
  superLat := fun i j => (1 : M3 ℝ) i j * ((![2, 1, 1] : Fin 3 → ℤ) i : ℝ)
  recip := reciprocal 1
  pbc := [0]
  E := 2
  unitXyz := [0, 0, 0]
  superXyz := [0, 0, 0, 1, 1, 1]
  fc := fun r c => if r % 3 = c % 3 then f (r / 3) else 0
  mass := fun _ => 1

theorem exChain_selection (f : ℕ → ℝ) : GoodSelection (exChain f) [0] := ⟨rfl, rfl, by norm_num [exChain]⟩

theorem exChain_geometry (f : ℕ → ℝ) : GoodGeometry (exChain f) 1 ![2, 1, 1] 1 := by
  refine ⟨by simp, rfl, rfl, ?_⟩
  intro i hi k _
  have : i = 0 := by omega
  subst this
  refine ⟨![(k : ℤ), 0, 0], ?_⟩
  funext j
  fin_cases j <;> simp [exChain, Fin.sum_univ_three]

private theorem recip_one (i j : Fin 3) : reciprocal 1 i j = if i = j then 2 * Real.pi else 0 := by
  rw [← C24_reciprocal_dual 1 (by simp) i j]
  simp [Matrix.one_apply]

private theorem exChain_q (f : ℕ → ℝ) (t : ℝ) : qVec (exChain f) ![t, 0, 0] = ![2 * Real.pi * t, 0, 0] := by
  funext j
  have h : ∀ i j, (exChain f).recip i j = if i = j then 2 * Real.pi else 0 := recip_one
  fin_cases j <;> simp [qVec, h]
  ring

/-- The wave vector of the zone boundary is commensurate. -/
theorem exChain_commensurate (f : ℕ → ℝ) : Commensurate (exChain f) (qVec (exChain f) ![1 / 2, 0, 0]) := by
  intro i hi
  simp only [exChain, List.mem_singleton] at hi
  subst hi
  refine ⟨1, ?_⟩
  rw [exChain_q]
  simp [exChain, dot3]

/-! ### C29 -/

private theorem sum_three (N : ℕ) (g : ℕ → ℂ) : ∑ r : Fin (3 * N), g r = ∑ a ∈ Finset.range N, ∑ x : Fin 3, g (3 * a + x) := by
  rw [Fin.sum_univ_eq_sum_range (fun i => g i)]
  induction N with
  | zero => simp
  | succ N ih =>
    rw [Finset.sum_range_succ, ← ih, Nat.mul_add, Finset.sum_range_add]
    simp [Fin.sum_univ_three, Finset.sum_range_succ]

private theorem sum_blocks (N E : ℕ) (g : ℕ → ℝ) : ∑ s ∈ Finset.range (N * E), g s = ∑ a ∈ Finset.range N, ∑ k ∈ Finset.range E, g (a * E + k) := by
  induction N with
  | zero => simp
  | succ N ih => rw [Nat.add_mul, Nat.one_mul, Finset.sum_range_add, ih, Finset.sum_range_succ]

/-- The mass-weighted uniform translation along direction `x`. -/
def translationMode (D : PhononData) (N : ℕ) (x : Fin 3) : Fin (3 * N) → ℂ := fun r => if (r : ℕ) % 3 = x then (Real.sqrt (D.mass r) : ℂ) else 0

private theorem gamma_entry (D : PhononData) (N : ℕ) (h : GoodSelection D (List.range N)) (a b : ℕ) (x y : Fin 3) (ha : a < N) (hb : b < N) :
    dynMatrix D 0 (3 * a + x) (3 * b + y) = ((∑ k ∈ Finset.range D.E, D.fc (3 * (a * D.E + k) + x) (3 * b + y) : ℝ) : ℂ) /
      (Real.sqrt (D.mass (3 * a + x) * D.mass (3 * b + y)) : ℝ) := by
  unfold dynMatrix
  have hq : qVec D 0 = 0 := by funext j; simp [qVec]
  rw [dynRaw_entry D _ h _ a b x y (by simpa) (by simpa), hq]
  congr 1
  push_cast
  refine Finset.sum_congr rfl fun k _ => ?_
  have : (List.range N).getD a 0 = a := by simp [List.getD_eq_getElem?_getD, List.getElem?_range ha]
  rw [this]
  simp [dot3]

/-- **C29.**  All atoms selected, positive masses: if for every column and direction the force constants of all
super-cell atoms add to zero, the mass-weighted uniform translations are annihilated by the dynamical matrix at Γ
(acting from the left). -/
theorem C29_acoustic_sum_rule (D : PhononData) (N : ℕ) (h : GoodSelection D (List.range N))
    (hm : ∀ r, 0 < D.mass r)
    (hasr : ∀ (x : Fin 3) (c : ℕ), c < 3 * N → ∑ s ∈ Finset.range (N * D.E), D.fc (3 * s + x) c = 0) (x : Fin 3) :
    Matrix.vecMul (translationMode D N x) (dynMat D N 0) = 0 := by
  funext c
  have hc := c.isLt
  have hb : (c : ℕ) / 3 < N := by omega
  have ec : (c : ℕ) = 3 * (c / 3) + ((⟨c % 3, Nat.mod_lt _ (by norm_num)⟩ : Fin 3) : ℕ) := by simp; omega
  simp only [Matrix.vecMul, dotProduct, Pi.zero_apply]
  have e := sum_three N (fun r => (if r % 3 = (x : ℕ) then (Real.sqrt (D.mass r) : ℂ) else 0) * dynMatrix D 0 r c)
  rw [show (∑ i, translationMode D N x i * dynMat D N 0 i c) = _ from e]
  have inner : ∀ a ∈ Finset.range N, (∑ y : Fin 3, (if (3 * a + (y : ℕ)) % 3 = (x : ℕ) then (Real.sqrt (D.mass (3 * a + y)) : ℂ) else 0) * dynMatrix D 0 (3 * a + y) c) =
      ((∑ k ∈ Finset.range D.E, D.fc (3 * (a * D.E + k) + x) c : ℝ) : ℂ) / (Real.sqrt (D.mass c) : ℝ) := by
    intro a ha
    rw [Finset.mem_range] at ha
    rw [Finset.sum_eq_single x]
    · rw [if_pos (by omega)]
      have g := gamma_entry D N h a (c / 3) x ⟨c % 3, Nat.mod_lt _ (by norm_num)⟩ ha hb
      rw [← ec] at g
      rw [g, Real.sqrt_mul (hm _).le]
      have h1 : Real.sqrt (D.mass (3 * a + x)) ≠ 0 := (Real.sqrt_pos.mpr (hm _)).ne'
      have h2 : Real.sqrt (D.mass c) ≠ 0 := (Real.sqrt_pos.mpr (hm _)).ne'
      have h1' : (Real.sqrt (D.mass (3 * a + x)) : ℂ) ≠ 0 := by exact_mod_cast h1
      have h2' : (Real.sqrt (D.mass c) : ℂ) ≠ 0 := by exact_mod_cast h2
      push_cast
      field_simp
    · intro y _ hy
      rw [if_neg, zero_mul]
      intro hh
      apply hy
      ext
      omega
    · simp
  rw [Finset.sum_congr rfl inner, ← Finset.sum_div, ← Complex.ofReal_sum, ← sum_blocks N D.E (fun s => D.fc (3 * s + x) c), hasr x c hc]
  simp

/-- Force constants symmetric at Γ: summed over images, `Φ(a x, b y) = Φ(b y, a x)`. -/
def GammaSymmetric (D : PhononData) (N : ℕ) : Prop := ∀ a < N, ∀ b < N, ∀ x y : Fin 3,
  ∑ k ∈ Finset.range D.E, D.fc (3 * (a * D.E + k) + x) (3 * b + y) = ∑ k ∈ Finset.range D.E, D.fc (3 * (b * D.E + k) + y) (3 * a + x)

/-- **C29.**  With symmetric force constants the translations are eigenvectors of the dynamical matrix at Γ for
eigenvalue 0 in the usual sense. -/
theorem C29_zero_modes (D : PhononData) (N : ℕ) (h : GoodSelection D (List.range N)) (hm : ∀ r, 0 < D.mass r)
    (hasr : ∀ (x : Fin 3) (c : ℕ), c < 3 * N → ∑ s ∈ Finset.range (N * D.E), D.fc (3 * s + x) c = 0)
    (hsym : GammaSymmetric D N) (x : Fin 3) :
    Matrix.mulVec (dynMat D N 0) (translationMode D N x) = 0 := by
  have hT : (dynMat D N 0).transpose = dynMat D N 0 := by
    ext r c
    have hr := r.isLt
    have hc := c.isLt
    have ha : (r : ℕ) / 3 < N := by omega
    have hb : (c : ℕ) / 3 < N := by omega
    have er : (r : ℕ) = 3 * (r / 3) + ((⟨r % 3, Nat.mod_lt _ (by norm_num)⟩ : Fin 3) : ℕ) := by simp; omega
    have ec : (c : ℕ) = 3 * (c / 3) + ((⟨c % 3, Nat.mod_lt _ (by norm_num)⟩ : Fin 3) : ℕ) := by simp; omega
    rw [Matrix.transpose_apply]
    simp only [dynMat]
    rw [er, ec, gamma_entry D N h _ _ _ _ hb ha, gamma_entry D N h _ _ _ _ ha hb, hsym _ hb _ ha, mul_comm (D.mass _)]
  rw [← hT, Matrix.mulVec_transpose]
  exact C29_acoustic_sum_rule D N h hm hasr x

/-- The chain with `Φ₀ = 2`, `Φ₁ = -2` satisfies all hypotheses. -/
example : (∀ (x : Fin 3) (c : ℕ), c < 3 * 1 → ∑ s ∈ Finset.range (1 * (exChain fun i => if i = 0 then 2 else -2).E),
    (exChain fun i => if i = 0 then 2 else -2).fc (3 * s + x) c = 0) ∧ GammaSymmetric (exChain fun i => if i = 0 then 2 else -2) 1 := by
  constructor
  · intro x c hc
    simp only [exChain, Finset.sum_range_succ, Finset.sum_range_zero]
    fin_cases x <;> interval_cases c <;> simp
  · intro a ha b hb x y
    have : a = 0 := by omega
    have : b = 0 := by omega
    subst a b
    simp only [exChain, Finset.sum_range_succ, Finset.sum_range_zero]
    fin_cases x <;> fin_cases y <;> simp

/-! ### C32 -/

/-- The force constants of a super cell are symmetric: `inv k` is the image on the opposite side of the home cell
(image positions `t k`, the same for all atoms, with `t k + t (inv k)` a super-lattice vector), and
`Φ(image k of a, x; b, y) = Φ(image (inv k) of b, y; a, x)`. -/
structure SymmetricForces (D : PhononData) (N : ℕ) (t : ℕ → V3 ℝ) (inv : ℕ → ℕ) : Prop where
  pos : ∀ a < N, ∀ k < D.E, D.superCart (a * D.E + k) = D.unitCart a + t k
  lt : ∀ k < D.E, inv k < D.E
  invol : ∀ k < D.E, inv (inv k) = k
  opposite : ∀ k < D.E, IsPeriodicShift D.superLat D.pbc (t k + t (inv k))
  symm : ∀ a < N, ∀ b < N, ∀ x y : Fin 3, ∀ k < D.E,
    D.fc (3 * (a * D.E + k) + x) (3 * b + y) = D.fc (3 * (b * D.E + inv k) + y) (3 * a + x)

/-- Full C32. -/
def C32_full : Prop := ∀ (D : PhononData) (N : ℕ) (t : ℕ → V3 ℝ) (inv : ℕ → ℕ), GoodSelection D (List.range N) →
  (∀ r, 0 < D.mass r) → SymmetricForces D N t inv →
  (∀ (x : Fin 3) (c : ℕ), c < 3 * N → ∑ s ∈ Finset.range (N * D.E), D.fc (3 * s + x) c = 0) →
  ∀ k, (dynMat D N k).IsHermitian

private theorem hermitian_of_phases (D : PhononData) (N : ℕ) (t : ℕ → V3 ℝ) (inv : ℕ → ℕ) (h : GoodSelection D (List.range N))
    (hs : SymmetricForces D N t inv) (k : V3 ℝ)
    (hph : ∀ a < N, ∀ b < N, ∀ j < D.E, exp (I * (dot3 (qVec D k) (posVector D (b * D.E + inv j) a) : ℝ)) =
      (starRingEnd ℂ) (exp (I * (dot3 (qVec D k) (posVector D (a * D.E + j) b) : ℝ)))) : (dynMat D N k).IsHermitian := by
  ext r c
  have hr := r.isLt
  have hc := c.isLt
  have ha : (r : ℕ) / 3 < N := by omega
  have hb : (c : ℕ) / 3 < N := by omega
  have er : (r : ℕ) = 3 * (r / 3) + ((⟨r % 3, Nat.mod_lt _ (by norm_num)⟩ : Fin 3) : ℕ) := by simp; omega
  have ec : (c : ℕ) = 3 * (c / 3) + ((⟨c % 3, Nat.mod_lt _ (by norm_num)⟩ : Fin 3) : ℕ) := by simp; omega
  rw [Matrix.conjTranspose_apply]
  simp only [dynMat, dynMatrix]
  rw [er, ec]
  have gd : ∀ i < N, (List.range N).getD i 0 = i := by intro i hi; simp [List.getD_eq_getElem?_getD, List.getElem?_range hi]
  rw [dynRaw_entry D _ h _ _ _ _ _ (by simpa using hb) (by simpa using ha), dynRaw_entry D _ h _ _ _ _ _ (by simpa using ha) (by simpa using hb), gd _ ha, gd _ hb]
  rw [star_def, map_div₀, Complex.conj_ofReal, map_sum, mul_comm (D.mass _)]
  congr 1
  refine Finset.sum_nbij' inv inv ?_ ?_ ?_ ?_ ?_
  · intro j hj; exact Finset.mem_range.mpr (hs.lt j (Finset.mem_range.mp hj))
  · intro j hj; exact Finset.mem_range.mpr (hs.lt j (Finset.mem_range.mp hj))
  · intro j hj; exact hs.invol j (Finset.mem_range.mp hj)
  · intro j hj; exact hs.invol j (Finset.mem_range.mp hj)
  · intro j hj
    have hj' := Finset.mem_range.mp hj
    rw [map_mul, Complex.conj_ofReal, hs.symm _ hb _ ha _ _ j hj', hph _ hb _ ha j hj']

/-- **C32, proved part (1).**  At every wave vector commensurate with the super cell the dynamical matrix of
symmetric force constants is Hermitian, whatever images are chosen. -/
theorem C32_hermitian_commensurate_partial (D : PhononData) (N : ℕ) (t : ℕ → V3 ℝ) (inv : ℕ → ℕ) (h : GoodSelection D (List.range N))
    (hs : SymmetricForces D N t inv) (k : V3 ℝ) (hq : Commensurate D (qVec D k)) : (dynMat D N k).IsHermitian := by
  refine hermitian_of_phases D N t inv h hs k fun a ha b hb j hj => ?_
  rw [commensurate_phase D _ hq, commensurate_phase D _ hq, hs.pos a ha j hj, hs.pos b hb _ (hs.lt j hj)]
  obtain ⟨m, hm⟩ := shift_phase D _ _ hq (hs.opposite j hj)
  rw [dot3_add_right] at hm
  have e : dot3 (qVec D k) (D.unitCart b + t (inv j) - D.unitCart a) =
      -dot3 (qVec D k) (D.unitCart a + t j - D.unitCart b) + 2 * Real.pi * m := by
    rw [dot3_sub_right, dot3_sub_right, dot3_add_right, dot3_add_right, ← hm]; ring
  rw [e, exp_shift, ← Complex.exp_conj, map_mul, Complex.conj_I, Complex.conj_ofReal]
  congr 1
  push_cast
  ring

/-- **C32, proved part (2).**  At every wave vector, if the separation used for each pair is the opposite of the
one used for the inverse pair (no pair lies exactly on the boundary where several images are equally near). -/
theorem C32_hermitian_no_ties_partial (D : PhononData) (N : ℕ) (t : ℕ → V3 ℝ) (inv : ℕ → ℕ) (h : GoodSelection D (List.range N))
    (hs : SymmetricForces D N t inv)
    (hopp : ∀ a < N, ∀ b < N, ∀ j < D.E, posVector D (b * D.E + inv j) a = -posVector D (a * D.E + j) b) (k : V3 ℝ) :
    (dynMat D N k).IsHermitian := by
  refine hermitian_of_phases D N t inv h hs k fun a ha b hb j hj => ?_
  rw [hopp a ha b hb j hj, ← Complex.exp_conj, map_mul, Complex.conj_I, Complex.conj_ofReal]
  congr 1
  have : dot3 (qVec D k) (-posVector D (a * D.E + j) b) = -dot3 (qVec D k) (posVector D (a * D.E + j) b) := by
    simp only [dot3, Pi.neg_apply]; ring
  rw [this]
  push_cast
  ring

private theorem exChain_pos (f : ℕ → ℝ) (i : ℕ) (hi : i < 2) : posVector (exChain f) i 0 = ![(i : ℝ), 0, 0] := by
  unfold posVector
  have keep : ∀ p o : V3 ℝ, ¬ dot3 (p + o) (p + o) < dot3 p p → imageStep p o = p := fun p o h => by simp [imageStep, h]
  have e : offsets (exChain f).superLat (exChain f).pbc = [![-2, 0, 0], 0, ![2, 0, 0]] := by
    simp only [offsets, exChain, steps, List.map_cons, List.map_nil, List.cons.injEq, and_true]
    refine ⟨?_, ?_, ?_⟩ <;> funext j <;> fin_cases j <;> simp [Matrix.one_apply]
  have s0 : (exChain f).superCart i - (exChain f).unitCart 0 = ![(i : ℝ), 0, 0] := by simp [exChain]
  rw [e, s0]
  simp only [List.foldl_cons, List.foldl_nil]
  interval_cases i
  · rw [keep _ ![-2, 0, 0] (by simp [dot3]), keep _ 0 (by simp [dot3]), keep _ ![2, 0, 0] (by simp [dot3])]
  · rw [keep _ ![-2, 0, 0] (by simp [dot3]; norm_num), keep _ 0 (by simp [dot3]), keep _ ![2, 0, 0] (by simp [dot3]; norm_num)]

theorem exChain_symmetric (f : ℕ → ℝ) : SymmetricForces (exChain f) 1 (fun k => ![(k : ℝ), 0, 0]) id where
  pos := by intro a ha k _; have : a = 0 := by omega
            subst this; simp [exChain]
  lt := fun _ h => h
  invol := fun _ _ => rfl
  opposite := by
    intro k _
    refine ⟨![(k : ℤ), 0, 0], ?_, ?_⟩
    · intro i hi; fin_cases i <;> simp [exChain] at *
    · funext j; fin_cases j <;> simp [exChain, Fin.sum_univ_three]; ring
  symm := by
    intro a ha b hb x y k hk
    have : a = 0 := by omega
    have : b = 0 := by omega
    subst a b
    have : k = 0 ∨ k = 1 := by simp [exChain] at hk; omega
    rcases this with rfl | rfl <;> fin_cases x <;> fin_cases y <;> simp [exChain]

/-- **C32 is false**: for the two-image chain with `Φ₀ = 2`, `Φ₁ = -2` the dynamical matrix at `k = (1/4,0,0)` is
`2 - 2i` on the diagonal. -/
theorem C32_refuted : ¬ C32_full := by
  intro H
  set f : ℕ → ℝ := fun i => if i = 0 then 2 else -2 with hf
  have h := H (exChain f) 1 _ _ (exChain_selection f) (fun _ => by simp [exChain]) (exChain_symmetric f) (by
    intro x c hc
    simp only [exChain, Finset.sum_range_succ, Finset.sum_range_zero]
    fin_cases x <;> interval_cases c <;> simp [hf]) ![1 / 4, 0, 0]
  have h00 := h.apply 0 0
  simp only [dynMat, dynMatrix] at h00
  have e := dynRaw_entry (exChain f) [0] (exChain_selection f) (qVec (exChain f) ![1 / 4, 0, 0]) 0 0 0 0 (by simp) (by simp)
  have hE : (exChain f).E = 2 := rfl
  simp only [List.getD_cons_zero, Nat.mul_zero, Nat.zero_add, Nat.zero_mul, hE, Finset.sum_range_succ, Finset.sum_range_zero,
    exChain_pos f 0 (by norm_num), exChain_pos f 1 (by norm_num), Fin.val_zero, Nat.add_zero] at e
  have d0 : dot3 (qVec (exChain f) ![1 / 4, 0, 0]) ![((0 : ℕ) : ℝ), 0, 0] = 0 := by simp [dot3]
  have d1 : dot3 (qVec (exChain f) ![1 / 4, 0, 0]) ![((1 : ℕ) : ℝ), 0, 0] = Real.pi / 2 := by
    rw [exChain_q]; simp [dot3]; ring
  rw [d0, d1] at e
  have e' : dynRaw (exChain f) (qVec (exChain f) ![1 / 4, 0, 0]) 0 0 = 2 - 2 * I := by
    rw [e]
    have : exp (I * ((Real.pi / 2 : ℝ) : ℂ)) = I := by rw [mul_comm]; push_cast; exact Complex.exp_pi_div_two_mul_I
    rw [this]
    simp [exChain, hf]
    ring
  have m1 : (exChain f).mass 0 = 1 := rfl
  simp only [Fin.val_zero] at h00
  rw [e', m1] at h00
  have := congrArg Complex.im h00
  simp at this
  norm_num at this
end

end Interphon.Props
