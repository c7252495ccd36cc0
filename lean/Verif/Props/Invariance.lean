import Verif.Props.Exact

/-! # C99, C100: frequencies do not depend on the description of the crystal, and scale with forces and masses -/

namespace Interphon.Props
open Py Interphon Interphon.Phonon Interphon.PostProcess Interphon.PreProcess Interphon.SuperCell Interphon.ForceConstant Complex

noncomputable section

/-! ### Specification -/

/-- `u'` describes the crystal `u` after the rigid motion `x ↦ R x + t`, atom `i` of `u` being listed as atom `σ i` of `u'`. -/
structure Redescribed (R : M3 ℝ) (t : V3 ℝ) (σ : Equiv.Perm ℕ) (u u' : Cell ℝ) : Prop where
  lattice : ∀ i, u'.lattice i = R.mulVec (u.lattice i)
  cart : ∀ (i : ℕ) (v : V3 ℝ), u.cart[i]? = some v → u'.cart[σ i]? = some (R.mulVec v + t)

/-- The springs of the super cell (`E` copies per atom) in the new description: rotated with the crystal, and renumbered with the atoms. -/
def RedescribedSprings (R : M3 ℝ) (σ : Equiv.Perm ℕ) (E : ℕ) (Ψ Ψ' : ℕ → Fin 3 → ℕ → Fin 3 → ℝ) : Prop :=
  ∀ (i k j l : ℕ) (x y : Fin 3), k < E → l < E →
    Ψ' (σ i * E + k) x (σ j * E + l) y = ∑ x', ∑ y', R x x' * Ψ (i * E + k) x' (j * E + l) y' * R y y'

/-! ### Rotated geometry -/

private theorem dot3_eq (a b : V3 ℝ) : dot3 a b = a ⬝ᵥ b := by simp [dot3, dotProduct, Fin.sum_univ_three]

private theorem dot3_rot {R : M3 ℝ} (hR : R * R.transpose = 1) (a b : V3 ℝ) : dot3 (R.mulVec a) (R.mulVec b) = dot3 a b := by
  have hR' : R.transpose * R = 1 := mul_eq_one_comm.1 hR
  rw [dot3_eq, dot3_eq, Matrix.dotProduct_mulVec, Matrix.vecMul_mulVec, hR', Matrix.vecMul_one]

private theorem reciprocal_rot {R : M3 ℝ} (hR : R * R.transpose = 1) (L L' : M3 ℝ) (hdet : L.det ≠ 0) (hL : ∀ i, L' i = R.mulVec (L i)) (i : Fin 3) :
    reciprocal L' i = R.mulVec (reciprocal L i) := by
  have hR' : R.transpose * R = 1 := mul_eq_one_comm.1 hR
  have hLm : L' = L * R.transpose := by
    ext i j
    rw [hL, Matrix.mul_apply]
    simp [Matrix.mulVec, dotProduct, Matrix.transpose_apply, mul_comm]
  have hdR : R.det * R.det = 1 := by
    have := congrArg Matrix.det hR
    rwa [Matrix.det_mul, Matrix.det_transpose, Matrix.det_one] at this
  have hdet' : L'.det ≠ 0 := by
    rw [hLm, Matrix.det_mul, Matrix.det_transpose]
    exact mul_ne_zero hdet (fun h => by rw [h] at hdR; simp at hdR)
  have dual : ∀ M : M3 ℝ, M.det ≠ 0 → reciprocal M * M.transpose = (2 * Real.pi) • (1 : M3 ℝ) := by
    intro M hM
    ext i j
    have := C24_reciprocal_dual M hM i j
    rw [Matrix.mul_apply, Matrix.smul_apply, Matrix.one_apply]
    refine this.trans ?_
    split_ifs <;> simp
  have h1 := dual L hdet
  have h2 := dual L' hdet'
  have h3 : reciprocal L * R.transpose * L'.transpose = (2 * Real.pi) • (1 : M3 ℝ) := by
    rw [hLm, Matrix.transpose_mul, Matrix.transpose_transpose, Matrix.mul_assoc, ← Matrix.mul_assoc R.transpose, hR', Matrix.one_mul, h1]
  have hu : IsUnit L'.transpose.det := by rw [Matrix.det_transpose]; exact isUnit_iff_ne_zero.2 hdet'
  have h4 : reciprocal L' = reciprocal L * R.transpose := by
    have := h2.trans h3.symm
    calc reciprocal L' = reciprocal L' * L'.transpose * L'.transpose⁻¹ := by rw [Matrix.mul_assoc, Matrix.mul_nonsing_inv _ hu, Matrix.mul_one]
      _ = reciprocal L * R.transpose * L'.transpose * L'.transpose⁻¹ := by rw [this]
      _ = _ := by rw [Matrix.mul_assoc, Matrix.mul_nonsing_inv _ hu, Matrix.mul_one]
  funext j
  rw [h4, Matrix.mul_apply]
  simp [Matrix.mulVec, dotProduct, Matrix.transpose_apply, mul_comm]

private theorem offsets_rot (R : M3 ℝ) (S S' : M3 ℝ) (hS : ∀ i, S' i = R.mulVec (S i)) (pbc : List (Fin 3)) :
    offsets S' pbc = (offsets S pbc).map R.mulVec := by
  have e1 : ∀ (a : Fin 3) (i : ℤ), (fun j => (i : ℝ) * S' a j) = R.mulVec (fun j => (i : ℝ) * S a j) := by
    intro a i
    have : (fun j => (i : ℝ) * S a j) = (i : ℝ) • S a := by funext j; simp
    rw [this, Matrix.mulVec_smul, ← hS]
    funext j; simp
  have e2 : ∀ (a b : Fin 3) (i k : ℤ), (fun j => (i : ℝ) * S' a j + (k : ℝ) * S' b j) = R.mulVec (fun j => (i : ℝ) * S a j + (k : ℝ) * S b j) := by
    intro a b i k
    have : (fun j => (i : ℝ) * S a j + (k : ℝ) * S b j) = (fun j => (i : ℝ) * S a j) + fun j => (k : ℝ) * S b j := rfl
    rw [this, Matrix.mulVec_add, ← e1, ← e1]
    rfl
  have e3 : ∀ (a b c : Fin 3) (i k l : ℤ), (fun j => (i : ℝ) * S' a j + (k : ℝ) * S' b j + (l : ℝ) * S' c j) =
      R.mulVec (fun j => (i : ℝ) * S a j + (k : ℝ) * S b j + (l : ℝ) * S c j) := by
    intro a b c i k l
    have : (fun j => (i : ℝ) * S a j + (k : ℝ) * S b j + (l : ℝ) * S c j) = (fun j => (i : ℝ) * S a j + (k : ℝ) * S b j) + fun j => (l : ℝ) * S c j := rfl
    rw [this, Matrix.mulVec_add, ← e2, ← e1]
    rfl
  match pbc with
  | [] => rfl
  | [a] => simp only [offsets, List.map_map]; exact List.map_congr_left fun i _ => e1 a i
  | [a, b] =>
    simp only [offsets, List.map_flatMap, List.map_map]
    exact List.flatMap_congr fun i _ => List.map_congr_left fun k _ => e2 a b i k
  | [a, b, c] =>
    simp only [offsets, List.map_flatMap, List.map_map]
    exact List.flatMap_congr fun i _ => List.flatMap_congr fun k _ => List.map_congr_left fun l _ => e3 a b c i k l
  | _ :: _ :: _ :: _ :: _ => rfl

private theorem fold_rot {R : M3 ℝ} (hR : R * R.transpose = 1) (l : List (V3 ℝ)) : ∀ v : V3 ℝ,
    (l.map R.mulVec).foldl imageStep (R.mulVec v) = R.mulVec (l.foldl imageStep v) := by
  induction l with
  | nil => intro v; rfl
  | cons o l ih =>
    intro v
    rw [List.map_cons, List.foldl_cons, List.foldl_cons, ← ih]
    congr 1
    unfold imageStep
    rw [← Matrix.mulVec_add, dot3_rot hR, dot3_rot hR]
    split_ifs <;> rfl

/-! ### Similar matrices -/

private theorem sum_three (N : ℕ) (g : ℕ → ℂ) : ∑ r : Fin (3 * N), g r = ∑ a ∈ Finset.range N, ∑ x : Fin 3, g (3 * a + x) := by
  rw [Fin.sum_univ_eq_sum_range (fun i => g i)]
  induction N with
  | zero => simp
  | succ N ih =>
    rw [Finset.sum_range_succ, ← ih, Nat.mul_succ, Finset.sum_range_add]
    exact congrArg _ (Fin.sum_univ_eq_sum_range (fun i => g (3 * N + i)) 3).symm

private theorem sum_three' (N : ℕ) (f : Fin (3 * N) → ℂ) (g : ℕ → ℂ) (e : ∀ j : Fin (3 * N), f j = g j) :
    ∑ r : Fin (3 * N), f r = ∑ a ∈ Finset.range N, ∑ x : Fin 3, g (3 * a + x) := by
  rw [← sum_three]; exact Finset.sum_congr rfl fun j _ => e j

/-- If the blocks of `B` are the blocks of `A`, renumbered by an injection `τ` and rotated by `R`, the characteristic polynomials agree. -/
private theorem charpoly_blocks {R : M3 ℝ} (hR : R * R.transpose = 1) (N : ℕ) (τ : ℕ → ℕ) (hτ : ∀ a < N, τ a < N)
    (hinj : ∀ a < N, ∀ b < N, τ a = τ b → a = b) (A B : ℕ → ℕ → ℂ)
    (h : ∀ a < N, ∀ b < N, ∀ x y : Fin 3, B (3 * a + x) (3 * b + y) = ∑ x' : Fin 3, ∑ y' : Fin 3, (R x x' : ℂ) * A (3 * τ a + x') (3 * τ b + y') * (R y y' : ℂ)) :
    (Matrix.of fun (r c : Fin (3 * N)) => B r c).charpoly = (Matrix.of fun (r c : Fin (3 * N)) => A r c).charpoly := by
  set P : Matrix (Fin (3 * N)) (Fin (3 * N)) ℂ := Matrix.of fun r c => if (c : ℕ) / 3 = τ ((r : ℕ) / 3) then (R (comp r) (comp c) : ℂ) else 0 with hP
  have hcomp : ∀ (a : ℕ) (x : Fin 3), comp (3 * a + x) = x := by
    intro a x; apply Fin.ext; simp only [comp]; have := x.2; omega
  have hdiv : ∀ (a : ℕ) (x : Fin 3), (3 * a + (x : ℕ)) / 3 = a := by intro a x; have := x.2; omega
  -- row sums with `P`
  have hrow : ∀ (a : ℕ) (ha : a < N) (x : Fin 3) (g : ℕ → Fin 3 → ℂ),
      ∑ s ∈ Finset.range N, ∑ z : Fin 3, (if s = τ a then (R x z : ℂ) else 0) * g s z = ∑ z : Fin 3, (R x z : ℂ) * g (τ a) z := by
    intro a ha x g
    rw [Finset.sum_eq_single (τ a)]
    · simp
    · intro s _ hs; simp [hs]
    · intro hn; exact absurd (Finset.mem_range.2 (hτ a ha)) hn
  have hPP : P * P.transpose = 1 := by
    ext r c
    have hr : (r : ℕ) / 3 < N := by have := r.2; omega
    have hc : (c : ℕ) / 3 < N := by have := c.2; omega
    rw [Matrix.mul_apply]
    have e : ∀ j : Fin (3 * N), P r j * P.transpose j c = (fun s : ℕ => (if s / 3 = τ ((r : ℕ) / 3) then (R (comp r) (comp s) : ℂ) else 0) *
        (if s / 3 = τ ((c : ℕ) / 3) then (R (comp c) (comp s) : ℂ) else 0)) j := by
      intro j; simp [hP, Matrix.transpose_apply]
    rw [sum_three' N _ (fun s : ℕ => (if s / 3 = τ ((r : ℕ) / 3) then (R (comp r) (comp s) : ℂ) else 0) *
        (if s / 3 = τ ((c : ℕ) / 3) then (R (comp c) (comp s) : ℂ) else 0)) e]
    simp only [hdiv, hcomp]
    rw [hrow ((r : ℕ) / 3) hr (comp r) (fun s z => if s = τ ((c : ℕ) / 3) then (R (comp c) z : ℂ) else 0)]
    have hRR : ∀ x y : Fin 3, ∑ z, (R x z : ℂ) * (R y z : ℂ) = if x = y then 1 else 0 := by
      intro x y
      have := congrFun (congrFun hR x) y
      rw [Matrix.mul_apply, Matrix.one_apply] at this
      simp only [Matrix.transpose_apply] at this
      have h2 : ((∑ z, R x z * R y z : ℝ) : ℂ) = ((if x = y then 1 else 0 : ℝ) : ℂ) := by rw [this]
      push_cast at h2
      rw [h2]
      split_ifs <;> simp
    by_cases hrc : (r : ℕ) / 3 = (c : ℕ) / 3
    · rw [hrc]
      simp only [if_true]
      rw [hRR, Matrix.one_apply]
      congr 1
      simp only [eq_iff_iff]
      constructor
      · intro hh
        apply Fin.ext
        have := congrArg Fin.val hh
        simp only [comp] at this
        omega
      · rintro rfl; rfl
    · have hne : τ ((r : ℕ) / 3) ≠ τ ((c : ℕ) / 3) := fun hh => hrc (hinj _ hr _ hc hh)
      have hne2 : r ≠ c := fun hh => hrc (by rw [hh])
      simp [hne, Matrix.one_apply, hne2]
  have hPP' : P.transpose * P = 1 := mul_eq_one_comm.1 hPP
  have hB : (Matrix.of fun (r c : Fin (3 * N)) => B r c) = P * ((Matrix.of fun (r c : Fin (3 * N)) => A r c) * P.transpose) := by
    ext r c
    have hr : (r : ℕ) / 3 < N := by have := r.2; omega
    have hc : (c : ℕ) / 3 < N := by have := c.2; omega
    have er : (r : ℕ) = 3 * (r / 3) + (comp r : ℕ) := by simp only [comp]; omega
    have ec : (c : ℕ) = 3 * (c / 3) + (comp c : ℕ) := by simp only [comp]; omega
    rw [Matrix.of_apply]
    conv_lhs => rw [er, ec]
    rw [h _ hr _ hc, Matrix.mul_apply]
    have inner : ∀ s : Fin (3 * N), ((Matrix.of fun (r c : Fin (3 * N)) => A r c) * P.transpose) s c =
        ∑ y' : Fin 3, (R (comp c) y' : ℂ) * A s (3 * τ ((c : ℕ) / 3) + y') := by
      intro s
      rw [Matrix.mul_apply]
      have e : ∀ j : Fin (3 * N), (Matrix.of fun (r c : Fin (3 * N)) => A r c) s j * P.transpose j c =
          (fun j : ℕ => (if j / 3 = τ ((c : ℕ) / 3) then (R (comp c) (comp j) : ℂ) else 0) * A s j) j := by
        intro j; simp [hP, Matrix.transpose_apply, mul_comm]
      rw [sum_three' N _ (fun j : ℕ => (if j / 3 = τ ((c : ℕ) / 3) then (R (comp c) (comp j) : ℂ) else 0) * A s j) e]
      simp only [hdiv, hcomp]
      rw [hrow ((c : ℕ) / 3) hc (comp c) (fun j z => A s (3 * j + z))]
    have e : ∀ j : Fin (3 * N), P r j * ((Matrix.of fun (r c : Fin (3 * N)) => A r c) * P.transpose) j c =
        (fun j : ℕ => (if j / 3 = τ ((r : ℕ) / 3) then (R (comp r) (comp j) : ℂ) else 0) *
          ∑ y' : Fin 3, (R (comp c) y' : ℂ) * A j (3 * τ ((c : ℕ) / 3) + y')) j := by
      intro j; rw [inner]; simp [hP]
    rw [sum_three' N _ (fun j : ℕ => (if j / 3 = τ ((r : ℕ) / 3) then (R (comp r) (comp j) : ℂ) else 0) *
          ∑ y' : Fin 3, (R (comp c) y' : ℂ) * A j (3 * τ ((c : ℕ) / 3) + y')) e]
    simp only [hdiv, hcomp]
    rw [hrow ((r : ℕ) / 3) hr (comp r) (fun j z => ∑ y' : Fin 3, (R (comp c) y' : ℂ) * A (3 * j + z) (3 * τ ((c : ℕ) / 3) + y'))]
    refine Finset.sum_congr rfl fun x' _ => ?_
    rw [Finset.mul_sum]
    refine Finset.sum_congr rfl fun y' _ => ?_
    ring
  rw [hB, Matrix.charpoly_mul_comm, Matrix.mul_assoc, hPP', Matrix.mul_one]

/-- The ascending list of frequencies of a matrix is unique. -/
theorem spectrum_unique {m : ℕ} {A B : Matrix (Fin m) (Fin m) ℂ} (h : A.charpoly = B.charpoly) {r r' : List ℝ} (hr : IsSpectrum A r)
    (hr' : IsSpectrum B r') : r = r' := by
  refine List.Perm.eq_of_pairwise' hr.1 hr'.1 ?_
  rw [← Multiset.coe_eq_coe, hr.2, hr'.2, h]

/-! ### C99 -/

private theorem latVec_rot (R : M3 ℝ) (L L' : M3 ℝ) (hL : ∀ i, L' i = R.mulVec (L i)) (l : Fin 3 → ℤ) : latVec L' l = R.mulVec (latVec L l) := by
  have e : ∀ M : M3 ℝ, latVec M l = (l 0 : ℝ) • M 0 + (l 1 : ℝ) • M 1 + (l 2 : ℝ) • M 2 := by
    intro M; funext j; simp [latVec, Fin.sum_univ_three]
  rw [e, e, Matrix.mulVec_add, Matrix.mulVec_add, Matrix.mulVec_smul, Matrix.mulVec_smul, Matrix.mulVec_smul, hL, hL, hL]

/-- What `set_super_ind_true` leaves alone. -/
private theorem ind_true_fields {s s' u : Cell ℝ} {n p : Fin 3 → ℤ} (hs' : setSuperIndTrue s u n p = .ok s') : s'.cart = s.cart ∧ s'.lattice = s.lattice := by
  unfold setSuperIndTrue at hs'
  cases hsel : u.atomTrue with
  | none => simp only [hsel] at hs'; cases hs'
  | some sel => simp only [hsel] at hs'; cases hs'; exact ⟨rfl, rfl⟩

/-- The dynamical matrices of the two descriptions have the same characteristic polynomial. -/
private theorem charpoly_redescribed {junk junk' : ℕ → List (V3 ℝ)} {u s s' v w w' : Cell ℝ} {n p : Fin 3 → ℤ} (h : GoodCall junk u n p) (g : GoodCall junk' v n p)
    (hdet : u.lattice.det ≠ 0) {R : M3 ℝ} (hR : R * R.transpose = 1) {t : V3 ℝ} {σ : Equiv.Perm ℕ} (hre : Redescribed R t σ u v)
    (sel tel : List ℕ) (hsel : u.atomTrue = some sel) (htel : v.atomTrue = some tel) (hnd : sel.Nodup) (hperm : tel.Perm (sel.map σ))
    (hlt : ∀ a ∈ sel, a < u.cart.length)
    (hxyz : u.xyzTrue = some (sel.flatMap fun a => [a, a, a])) (gxyz : v.xyzTrue = some (tel.flatMap fun a => [a, a, a]))
    (hs : setSuperCell junk u n p = .ok s) (hs' : setSuperIndTrue s u n p = .ok s')
    (gs : setSuperCell junk' v n p = .ok w) (gs' : setSuperIndTrue w v n p = .ok w')
    (Ψ Ψ' : ℕ → Fin 3 → ℕ → Fin 3 → ℝ) (hΨ : RedescribedSprings R σ (n 0 * n 1 * n 2).toNat Ψ Ψ')
    (m m' : ℕ → ℝ) (hm : ∀ i, m' (σ i) = m i) (fc fc' : FC ℝ)
    (hfc : ∀ (r a b : ℕ) (x y : Fin 3), sel[a]? = some b → fc (3 * r + x) (3 * a + y) = Ψ r x ((n 0 * n 1 * n 2).toNat * b) y)
    (hfc' : ∀ (r a b : ℕ) (x y : Fin 3), tel[a]? = some b → fc' (3 * r + x) (3 * a + y) = Ψ' r x ((n 0 * n 1 * n 2).toNat * b) y) (k : V3 ℝ) :
    (Matrix.of fun (r c : Fin (3 * sel.length)) => dynMatrix (ofCells v w' n p fc' fun r => m' (tel.getD (r / 3) 0)) k r c).charpoly =
    (Matrix.of fun (r c : Fin (3 * sel.length)) => dynMatrix (ofCells u s' n p fc fun r => m (sel.getD (r / 3) 0)) k r c).charpoly := by
  have hlen : tel.length = sel.length := by rw [hperm.length_eq, List.length_map]
  have h0 := h.pos 0
  have h1 := h.pos 1
  have h2 := h.pos 2
  have hpos : 0 < n 0 * n 1 * n 2 := by positivity
  set E := (n 0 * n 1 * n 2).toNat with hEdef
  have hE0 : 0 < E := by omega
  have hdetv : v.lattice.det ≠ 0 := by
    have hLm : v.lattice = u.lattice * R.transpose := by
      ext i j
      rw [hre.lattice, Matrix.mul_apply]
      simp [Matrix.mulVec, dotProduct, Matrix.transpose_apply, mul_comm]
    have hdR : R.det * R.det = 1 := by
      have := congrArg Matrix.det hR
      rwa [Matrix.det_mul, Matrix.det_transpose, Matrix.det_one] at this
    rw [hLm, Matrix.det_mul, Matrix.det_transpose]
    exact mul_ne_zero hdet (fun h => by rw [h] at hdR; simp at hdR)
  obtain ⟨hgs, hgg⟩ := phonon_data_reachable h hdet sel hsel hxyz hs hs' fc (fun r => m (sel.getD (r / 3) 0))
  obtain ⟨ggs, ggg⟩ := phonon_data_reachable g hdetv tel htel gxyz gs gs' fc' (fun r => m' (tel.getD (r / 3) 0))
  set D := ofCells u s' n p fc (fun r => m (sel.getD (r / 3) 0)) with hD
  set D' := ofCells v w' n p fc' (fun r => m' (tel.getD (r / 3) 0)) with hD'
  have hDE : D.E = E := by simp only [hD, ofCells]; rw [SuperCell.enlarge_eq n p h.cons]
  have hDE' : D'.E = E := by simp only [hD', ofCells]; rw [SuperCell.enlarge_eq n p g.cons]
  -- geometry
  have hbound : ∀ i < u.cart.length, σ i < v.cart.length := by
    intro i hi
    have := hre.cart i _ (List.getElem?_eq_getElem hi)
    exact (List.getElem?_eq_some_iff.1 this).1
  have hcart : ∀ i < u.cart.length, v.cart.getD (σ i) 0 = R.mulVec (u.cart.getD i 0) + t := by
    intro i hi
    have := hre.cart i _ (List.getElem?_eq_getElem hi)
    rw [List.getD_eq_getElem?_getD, this, Option.getD_some, List.getD_eq_getElem _ _ hi]
  have hsuper : ∀ i < u.cart.length, ∀ k < E, D'.superCart (σ i * E + k) = R.mulVec (D.superCart (i * E + k)) + t := by
    intro i hi k hk
    have e1 : D.superCart (i * E + k) = u.cart.getD i 0 + latVec u.lattice (cellOf n k) := by
      show s'.cart.getD _ 0 = _
      rw [(ind_true_fields hs').1]
      exact C97_copy_position h hs i k hi hk
    have e2 : D'.superCart (σ i * E + k) = v.cart.getD (σ i) 0 + latVec v.lattice (cellOf n k) := by
      show w'.cart.getD _ 0 = _
      rw [(ind_true_fields gs').1]
      exact C97_copy_position g gs (σ i) k (hbound i hi) hk
    rw [e1, e2, hcart i hi, latVec_rot R u.lattice v.lattice hre.lattice, Matrix.mulVec_add]
    abel
  have hlat : ∀ i, D'.superLat i = R.mulVec (D.superLat i) := by
    intro i
    have e1 : D.superLat i = (n i : ℝ) • u.lattice i := by
      rw [congrFun hgg.lat i]; funext j; simp [mul_comm]
    have e2 : D'.superLat i = (n i : ℝ) • v.lattice i := by
      rw [congrFun ggg.lat i]; funext j; simp [mul_comm]
    rw [e1, e2, Matrix.mulVec_smul, hre.lattice]
  have hpv : ∀ i < u.cart.length, ∀ k < E, ∀ j < u.cart.length, posVector D' (σ i * E + k) (σ j) = R.mulVec (posVector D (i * E + k) j) := by
    intro i hi k hk j hj
    unfold posVector
    have hpbc : D'.pbc = D.pbc := rfl
    rw [hsuper i hi k hk, show D'.unitCart (σ j) = R.mulVec (D.unitCart j) + t from hcart j hj, hpbc, offsets_rot R _ _ hlat]
    rw [show R.mulVec (D.superCart (i * E + k)) + t - (R.mulVec (D.unitCart j) + t) = R.mulVec (D.superCart (i * E + k) - D.unitCart j) by
      rw [Matrix.mulVec_sub]; abel]
    exact fold_rot hR _ _
  have hq : qVec D' k = R.mulVec (qVec D k) := by
    have e : ∀ F : PhononData, qVec F k = k 0 • F.recip 0 + k 1 • F.recip 1 + k 2 • F.recip 2 := by
      intro F; funext j; simp [qVec]
    have hr : ∀ i, D'.recip i = R.mulVec (D.recip i) := fun i => reciprocal_rot hR u.lattice v.lattice hdet hre.lattice i
    rw [e, e, Matrix.mulVec_add, Matrix.mulVec_add, Matrix.mulVec_smul, Matrix.mulVec_smul, Matrix.mulVec_smul, hr, hr, hr]
  -- renumbering of the selected atoms
  have hpre : ∀ a < sel.length, ∃ b, b < sel.length ∧ tel.getD a 0 = σ (sel.getD b 0) := by
    intro a ha
    have hat : a < tel.length := by rw [hlen]; exact ha
    have hmem : tel.getD a 0 ∈ sel.map σ := by
      rw [← hperm.mem_iff, List.getD_eq_getElem _ _ hat]; exact List.getElem_mem _
    obtain ⟨c, hc, hce⟩ := List.mem_map.1 hmem
    obtain ⟨b, hb, hbe⟩ := List.mem_iff_getElem.1 hc
    exact ⟨b, hb, by rw [List.getD_eq_getElem _ _ hb, hbe, hce]⟩
  choose! τ hτ hτe using hpre
  have htnd : tel.Nodup := by rw [hperm.nodup_iff]; exact hnd.map σ.injective
  refine charpoly_blocks hR sel.length τ hτ ?_ (fun r c => dynMatrix D k r c) (fun r c => dynMatrix D' k r c) ?_
  · intro a ha b hb hab
    have e : tel.getD a 0 = tel.getD b 0 := by rw [hτe a ha, hτe b hb, hab]
    rw [List.getD_eq_getElem _ _ (by omega), List.getD_eq_getElem _ _ (by omega)] at e
    exact (List.Nodup.getElem_inj_iff htnd).1 e
  · intro a ha b hb x y
    have hta : τ a < sel.length := hτ a ha
    have htb : τ b < sel.length := hτ b hb
    set i := sel.getD (τ a) 0 with hi
    set j := sel.getD (τ b) 0 with hj
    have hilt : i < u.cart.length := by rw [hi, List.getD_eq_getElem _ _ hta]; exact hlt _ (List.getElem_mem _)
    have hjlt : j < u.cart.length := by rw [hj, List.getD_eq_getElem _ _ htb]; exact hlt _ (List.getElem_mem _)
    have hjget : sel[τ b]? = some j := by rw [hj, List.getD_eq_getElem _ _ htb]; exact List.getElem?_eq_getElem htb
    have htget : tel[b]? = some (σ j) := by
      rw [hj, ← hτe b hb, List.getD_eq_getElem _ _ (by omega)]; exact List.getElem?_eq_getElem _
    have d3 : ∀ (a : ℕ) (x : Fin 3), (3 * a + (x : ℕ)) / 3 = a := by intro a x; have := x.2; omega
    have hmass : ∀ x' y' : Fin 3, D'.mass (3 * a + x) * D'.mass (3 * b + y) = D.mass (3 * τ a + x') * D.mass (3 * τ b + y') := by
      intro x' y'
      show m' (tel.getD ((3 * a + (x : ℕ)) / 3) 0) * m' (tel.getD ((3 * b + (y : ℕ)) / 3) 0) =
        m (sel.getD ((3 * τ a + (x' : ℕ)) / 3) 0) * m (sel.getD ((3 * τ b + (y' : ℕ)) / 3) 0)
      rw [d3, d3, d3, d3, hτe a ha, hτe b hb, hm, hm]
    have hent : ∀ x' y' : Fin 3, dynMatrix D k (3 * τ a + x') (3 * τ b + y') = (∑ c ∈ Finset.range E,
        (Ψ (i * E + c) x' (E * j) y' : ℂ) * exp (I * (dot3 (qVec D k) (posVector D (i * E + c) j) : ℝ))) /
          (Real.sqrt (D'.mass (3 * a + x) * D'.mass (3 * b + y)) : ℝ) := by
      intro x' y'
      unfold dynMatrix
      rw [dynRaw_entry D sel hgs _ (τ a) (τ b) x' y' hta htb, hDE, hmass x' y']
      congr 1
      refine Finset.sum_congr rfl fun c _ => ?_
      congr 2
      exact hfc _ _ j x' y' hjget
    show dynMatrix D' k (3 * a + x) (3 * b + y) = ∑ x' : Fin 3, ∑ y' : Fin 3, (R x x' : ℂ) * dynMatrix D k (3 * τ a + x') (3 * τ b + y') * (R y y' : ℂ)
    have hent' : dynMatrix D' k (3 * a + x) (3 * b + y) = (∑ c ∈ Finset.range E,
        (∑ x', ∑ y', (R x x' : ℂ) * (Ψ (i * E + c) x' (E * j) y' : ℂ) * (R y y' : ℂ)) * exp (I * (dot3 (qVec D k) (posVector D (i * E + c) j) : ℝ))) /
          (Real.sqrt (D'.mass (3 * a + x) * D'.mass (3 * b + y)) : ℝ) := by
      unfold dynMatrix
      rw [dynRaw_entry D' tel ggs _ a b x y (by omega) (by omega), hDE']
      congr 1
      refine Finset.sum_congr rfl fun c hc => ?_
      have hcE : c < E := Finset.mem_range.1 hc
      rw [hτe a ha, hτe b hb, ← hi, ← hj, hpv i hilt c hcE j hjlt, hq, dot3_rot hR]
      congr 1
      have e1 : fc' (3 * (σ i * E + c) + x) (3 * b + y) = Ψ' (σ i * E + c) x (E * σ j) y := hfc' _ _ _ x y htget
      have e2 := hΨ i c j 0 x y hcE hE0
      rw [Nat.add_zero, Nat.add_zero] at e2
      rw [show D'.fc = fc' from rfl, e1, Nat.mul_comm E, e2, Nat.mul_comm E j]
      push_cast
      rfl
    rw [hent']
    simp only [hent]
    simp only [mul_div_assoc', div_mul_eq_mul_div, ← Finset.sum_div]
    congr 1
    simp only [Finset.sum_mul, Finset.mul_sum]
    rw [Finset.sum_comm]
    refine Finset.sum_congr rfl fun x' _ => ?_
    rw [Finset.sum_comm]
    refine Finset.sum_congr rfl fun y' _ => ?_
    refine Finset.sum_congr rfl fun c _ => ?_
    ring

/-- **C99.**  Frequencies do not depend on how the crystal is described.  Take a unit cell, and the same crystal rotated or reflected (`R`), shifted (`t`) and with
its atoms listed in another order (`σ`); the same selected atoms, the same masses per atom, the same springs.  Run the whole calculation on both: pre-process,
forces of the harmonic crystal with arbitrary residual forces and (possibly different) displacement amplitudes, post-process with any accepted k-point file.  No
call raises, and the stored frequencies are the same lists, wave vector by wave vector - whatever eigenvalue solver is used in each run, and although the nearest
images are searched in Cartesian coordinates. -/
theorem C99_same_crystal_same_frequencies {junk junk' : ℕ → List (V3 ℝ)} {u s s' v w w' : Cell ℝ} {n p : Fin 3 → ℤ} (h : GoodCall junk u n p)
    (g : GoodCall junk' v n p) (hdet : u.lattice.det ≠ 0) {R : M3 ℝ} (hR : R * R.transpose = 1) {t : V3 ℝ} {σ : Equiv.Perm ℕ} (hre : Redescribed R t σ u v)
    (sel tel : List ℕ) (hsel : u.atomTrue = some sel) (htel : v.atomTrue = some tel) (hnd : sel.Nodup) (hperm : tel.Perm (sel.map σ))
    (hlt : ∀ a ∈ sel, a < u.cart.length)
    (hxyz : u.xyzTrue = some (sel.flatMap fun a => [a, a, a])) (gxyz : v.xyzTrue = some (tel.flatMap fun a => [a, a, a]))
    (hs : setSuperCell junk u n p = .ok s) (hs' : setSuperIndTrue s u n p = .ok s')
    (gs : setSuperCell junk' v n p = .ok w) (gs' : setSuperIndTrue w v n p = .ok w')
    (Ψ Ψ' : ℕ → Fin 3 → ℕ → Fin 3 → ℝ) (hΨ : RedescribedSprings R σ (n 0 * n 1 * n 2).toNat Ψ Ψ')
    (m m' : ℕ → ℝ) (hm : ∀ i, m' (σ i) = m i) (d d' : ℝ) (hd : d ≠ 0) (hd' : d' ≠ 0) (F0 F0' : Rows ℝ)
    (search search' : Run (List (ℕ × List (V3 ℝ)))) {S S' : Solver} (hS : IsSolver S) (hS' : IsSolver S')
    (junkR junkR' : M3 ℝ) (junkF junkF' left left' : FC ℝ) (jc jc' : ℕ → Rows ℝ) (lines : List Str) (ks : List (V3 ℚ)) (auto : List ℤ)
    (hk : KPoints.setKPoints lines (fun c => decide (p c ≠ 0)) = .ok (ks, auto)) (hne : ks ≠ []) :
    ∃ s'' files w'' files', writeDisplaceCell s' sel (n 0 * n 1 * n 2).toNat d p false search = .ok (s'', files) ∧
      writeDisplaceCell w' tel (n 0 * n 1 * n 2).toNat d' p false search' = .ok (w'', files') ∧
      let forces := files.map fun f => harmonicForces Ψ F0 s' f.2
      let forces' := files'.map fun f => harmonicForces Ψ' F0' w' f.2
      let o := PostProcess.run S (PostProcess.new u s' n p d (fun r => m (sel.getD (r / 3) 0)) junkR junkF)
        [.reciprocal, .force left jc false forces, .kPoints (some lines)]
      let o' := PostProcess.run S' (PostProcess.new v w' n p d' (fun r => m' (tel.getD (r / 3) 0)) junkR' junkF')
        [.reciprocal, .force left' jc' false forces', .kPoints (some lines)]
      (step S o .eval).2 = none ∧ (step S' o' .eval).2 = none ∧ (step S o .eval).1.wq.length = ks.length ∧
        (step S' o' .eval).1.wq = (step S o .eval).1.wq := by
  have h0 := h.pos 0
  have h1 := h.pos 1
  have h2 := h.pos 2
  have hpos : 0 < n 0 * n 1 * n 2 := by positivity
  have hE0 : 0 < (n 0 * n 1 * n 2).toNat := by omega
  have hlen : tel.length = sel.length := by rw [hperm.length_eq, List.length_map]
  have hb : ∀ a ∈ sel, (n 0 * n 1 * n 2).toNat * a < s'.cart.length := by
    intro a ha
    obtain ⟨s0, hs0, hlen, -⟩ := C06_supercell_positions h
    rw [hs] at hs0; cases hs0
    rw [(ind_true_fields hs').1, hlen]
    exact Nat.mul_lt_mul_of_pos_left (hlt a ha) hE0
  have hb' : ∀ a ∈ tel, (n 0 * n 1 * n 2).toNat * a < w'.cart.length := by
    intro a ha
    obtain ⟨s0, hs0, hlen, -⟩ := C06_supercell_positions g
    rw [gs] at hs0; cases hs0
    rw [(ind_true_fields gs').1, hlen]
    refine Nat.mul_lt_mul_of_pos_left ?_ hE0
    obtain ⟨c, hc, rfl⟩ := List.mem_map.1 (hperm.mem_iff.1 ha)
    exact (List.getElem?_eq_some_iff.1 (hre.cart c _ (List.getElem?_eq_getElem (hlt c hc)))).1
  obtain ⟨s'', files, hw, -, -⟩ := C15_displaced_files s' sel _ d p false search (Or.inl rfl) hb
  obtain ⟨w'', files', hw', -, -⟩ := C15_displaced_files w' tel _ d' p false search' (Or.inl rfl) hb'
  obtain ⟨fc, hfc, hent⟩ := C19_harmonic_exact s' sel _ d hd p search hb Ψ F0 junkF s'' files hw
  obtain ⟨fc', hfc', hent'⟩ := C19_harmonic_exact w' tel _ d' hd' p search' hb' Ψ' F0' junkF' w'' files' hw'
  refine ⟨s'', files, w'', files', hw, hw', ?_⟩
  intro forces forces' o o'
  obtain ⟨-, a1, -, a3, a4⟩ := run_spectrum (s' := s') (n := n) sel hsel hxyz d (fun r => m (sel.getD (r / 3) 0)) hS junkR junkF left jc lines ks auto hk hne forces fc hfc
  obtain ⟨-, b1, -, b3, b4⟩ := run_spectrum (s' := w') (n := n) tel htel gxyz d' (fun r => m' (tel.getD (r / 3) 0)) hS' junkR' junkF' left' jc' lines ks auto hk hne forces'
    fc' hfc'
  refine ⟨a1, b1, a3, ?_⟩
  apply List.ext_getElem?
  intro i
  by_cases hi : i < ks.length
  · obtain ⟨row, r1, r2⟩ := a4 i ks[i] (List.getElem?_eq_getElem hi)
    obtain ⟨row', r1', r2'⟩ := b4 i ks[i] (List.getElem?_eq_getElem hi)
    refine r1'.trans (Eq.trans ?_ r1.symm)
    congr 1
    rw [hlen] at r2'
    exact spectrum_unique (charpoly_redescribed h g hdet hR hre sel tel hsel htel hnd hperm hlt hxyz gxyz hs hs' gs gs' Ψ Ψ' hΨ m m' hm fc fc' hent hent' _) r2' r2
  · rw [List.getElem?_eq_none (by rw [b3]; omega), List.getElem?_eq_none (by rw [a3]; omega)]

/-- Springs of the new description exist for every rotation and every order of the atoms. -/
theorem redescribed_springs_exist (R : M3 ℝ) (σ : Equiv.Perm ℕ) (E : ℕ) (Ψ : ℕ → Fin 3 → ℕ → Fin 3 → ℝ) : ∃ Ψ', RedescribedSprings R σ E Ψ Ψ' := by
  refine ⟨fun r x c y => ∑ x', ∑ y', R x x' * Ψ (σ.symm (r / E) * E + r % E) x' (σ.symm (c / E) * E + c % E) y' * R y y', ?_⟩
  intro i k j l x y hk hl
  have e : ∀ a b, b < E → (σ a * E + b) / E = σ a ∧ (σ a * E + b) % E = b := by
    intro a b hb
    have hE : 0 < E := by omega
    constructor
    · rw [Nat.mul_comm, Nat.mul_add_div hE, Nat.div_eq_of_lt hb, Nat.add_zero]
    · rw [Nat.mul_comm, Nat.mul_add_mod, Nat.mod_eq_of_lt hb]
  simp only [(e i k hk).1, (e i k hk).2, (e j l hl).1, (e j l hl).2, Equiv.symm_apply_apply]

/-- A 2 x 3 rectangular layer with two atoms; below it is turned by 90 degrees, shifted, and its two atoms are exchanged. -/
def layerCell : Cell ℝ where
  lattice := !![4, 0, 0; 0, 5, 0; 0, 0, 9]
  atomType := ["C".toList, "O".toList]
  numAtom := [1, 1]
  selective := true
  coordinate := .cartesian
  cart := [![1, 0, 0], ![2, 2, 1]]
  atomTrue := some [0, 1]
  xyzTrue := some [0, 0, 0, 1, 1, 1]

/-- The turned layer. -/
def turnedCell : Cell ℝ where
  lattice := !![0, 4, 0; -5, 0, 0; 0, 0, 9]
  atomType := ["O".toList, "C".toList]
  numAtom := [1, 1]
  selective := true
  coordinate := .cartesian
  cart := [![-1, 2, 4], ![1, 1, 3]]
  atomTrue := some [0, 1]
  xyzTrue := some [0, 0, 0, 1, 1, 1]

/-- Rotation by 90 degrees about the third axis. -/
def quarterTurn : M3 ℝ := !![0, -1, 0; 1, 0, 0; 0, 0, 1]

example : quarterTurn * quarterTurn.transpose = 1 := by
  ext i j; fin_cases i <;> fin_cases j <;> simp [quarterTurn, Matrix.mul_apply, Fin.sum_univ_three]

example : Redescribed quarterTurn ![1, 0, 3] (Equiv.swap 0 1) layerCell turnedCell where
  lattice := by
    intro i
    funext j
    fin_cases i <;> fin_cases j <;> simp [quarterTurn, layerCell, turnedCell, Matrix.mulVec, dotProduct, Fin.sum_univ_three]
  cart := by
    intro i v hv
    match i with
    | 0 =>
      have : v = ![1, 0, 0] := by simpa [layerCell] using hv.symm
      subst this
      simp only [Equiv.swap_apply_left, turnedCell]
      simp only [List.getElem?_cons_succ, List.getElem?_cons_zero, Option.some.injEq]
      funext j; fin_cases j <;> norm_num [quarterTurn, Matrix.mulVec, dotProduct, Fin.sum_univ_three]
    | 1 =>
      have : v = ![2, 2, 1] := by simpa [layerCell] using hv.symm
      subst this
      simp only [Equiv.swap_apply_right, turnedCell]
      simp only [List.getElem?_cons_zero, Option.some.injEq]
      funext j; fin_cases j <;> norm_num [quarterTurn, Matrix.mulVec, dotProduct, Fin.sum_univ_three]
    | i + 2 => simp [layerCell] at hv

example : [0, 1].Perm ([0, 1].map (Equiv.swap 0 1 : Equiv.Perm ℕ)) := by
  have : [0, 1].map (Equiv.swap 0 1 : Equiv.Perm ℕ) = [1, 0] := by simp
  rw [this]; decide

example : GoodCall (fun m => List.replicate m 0) layerCell ![2, 3, 1] ![1, 1, 0] ∧ GoodCall (fun m => List.replicate m 0) turnedCell ![2, 3, 1] ![1, 1, 0] :=
  ⟨⟨by simp, rfl, by decide, by decide⟩, ⟨by simp, rfl, by decide, by decide⟩⟩

/-! ### C100: scaling -/

private theorem charpoly_scale {m : ℕ} (A : Matrix (Fin m) (Fin m) ℂ) {a : ℂ} (ha : a ≠ 0) : (a • A).charpoly.roots = A.charpoly.roots.map (a * ·) := by
  have hcard : A.charpoly.roots.card = m := by
    have := (IsAlgClosed.splits A.charpoly).natDegree_eq_card_roots
    rw [← this, Matrix.charpoly_natDegree_eq_dim, Fintype.card_fin]
  have hprod : A.charpoly = (A.charpoly.roots.map fun r => Polynomial.X - Polynomial.C r).prod :=
    (IsAlgClosed.splits A.charpoly).eq_prod_roots_of_monic (Matrix.charpoly_monic A)
  have key : (a • A).charpoly = ((A.charpoly.roots.map (a * ·)).map fun r => Polynomial.X - Polynomial.C r).prod := by
    apply Polynomial.funext
    intro z
    rw [Matrix.eval_charpoly, Polynomial.eval_multiset_prod, Multiset.map_map, Multiset.map_map]
    have e1 : Matrix.scalar (Fin m) z - a • A = a • (Matrix.scalar (Fin m) (z / a) - A) := by
      rw [smul_sub]
      congr 1
      ext i j
      by_cases hij : i = j
      · subst hij; simp [mul_div_cancel₀ _ ha]
      · simp [hij]
    rw [e1, Matrix.det_smul, Fintype.card_fin, ← Matrix.eval_charpoly]
    conv_lhs => rw [hprod]
    rw [Polynomial.eval_multiset_prod, Multiset.map_map]
    have e2 : ∀ M : Multiset ℂ, a ^ M.card * (M.map ((Polynomial.eval (z / a)) ∘ fun r => Polynomial.X - Polynomial.C r)).prod =
        (M.map ((Polynomial.eval z ∘ fun r => Polynomial.X - Polynomial.C r) ∘ fun x => a * x)).prod := by
      intro M
      induction M using Multiset.induction with
      | empty => simp
      | cons r M ih =>
        rw [Multiset.card_cons, Multiset.map_cons, Multiset.prod_cons, Multiset.map_cons, Multiset.prod_cons, ← ih]
        simp only [Function.comp, Polynomial.eval_sub, Polynomial.eval_X, Polynomial.eval_C]
        field_simp
        ring
    have := e2 A.charpoly.roots
    rw [hcard] at this
    exact this
  rw [key, Polynomial.roots_multiset_prod_X_sub_C]

private theorem freq_scale {a : ℝ} (ha : 0 < a) (z : ℂ) : freqOf ((a : ℂ) * z) = Real.sqrt a * freqOf z := by
  have h : csqrt ((a : ℂ) * z) = (Real.sqrt a : ℂ) * csqrt z := by
    unfold csqrt
    by_cases hz : z = 0
    · subst hz; simp
    · have ha' : (a : ℂ) ≠ 0 := by exact_mod_cast ha.ne'
      rw [Complex.cpow_def_of_ne_zero (mul_ne_zero ha' hz), Complex.cpow_def_of_ne_zero hz, Complex.log_ofReal_mul ha hz, add_mul, Complex.exp_add]
      congr 1
      rw [Real.sqrt_eq_rpow, Real.rpow_def_of_pos ha]
      push_cast
      rfl
  unfold freqOf
  rw [h, Complex.re_ofReal_mul, Complex.im_ofReal_mul, abs_mul, abs_of_nonneg (Real.sqrt_nonneg a)]
  ring

private theorem spectrum_scale {m : ℕ} {A : Matrix (Fin m) (Fin m) ℂ} {row : List ℝ} (h : IsSpectrum A row) {a : ℝ} (ha : 0 < a) :
    IsSpectrum ((a : ℂ) • A) (row.map (Real.sqrt a * ·)) := by
  constructor
  · rw [List.pairwise_map]
    exact h.1.imp fun hxy => mul_le_mul_of_nonneg_left hxy (Real.sqrt_nonneg a)
  · rw [charpoly_scale A (by exact_mod_cast ha.ne'), Multiset.map_map]
    have : freqOf ∘ (fun x => (a : ℂ) * x) = (Real.sqrt a * ·) ∘ freqOf := by funext z; exact freq_scale ha z
    rw [this, ← Multiset.map_map, ← h.2, Multiset.map_coe]

/-- The dynamical matrix is linear in the force constants and in the inverse masses. -/
private theorem dyn_scale (u s' : Cell ℝ) (n p : Fin 3 → ℤ) (N : ℕ) (hN : (u.xyzTrue.getD []).length = 3 * N) (fc fc' : FC ℝ) (mass : ℕ → ℝ) (κ μ : ℝ) (hμ : 0 < μ)
    (hfc : ∀ (r a : ℕ) (x y : Fin 3), a < N → fc' (3 * r + x) (3 * a + y) = κ * fc (3 * r + x) (3 * a + y)) (k : V3 ℝ) (r c : ℕ) :
    dynMatrix (ofCells u s' n p fc' fun r => μ * mass r) k r c = ((κ / μ : ℝ) : ℂ) * dynMatrix (ofCells u s' n p fc mass) k r c := by
  set D := ofCells u s' n p fc mass with hD
  set D' := ofCells u s' n p fc' fun r => μ * mass r with hD'
  have hterm : ∀ s1 s2, s2 < 3 * N → term D' (qVec D' k) s1 s2 = (κ : ℂ) * term D (qVec D k) s1 s2 := by
    intro s1 s2 h2
    unfold term
    have e : D'.fc (D'.superXyz.getD s1 0 * 3 + s1 % 3) s2 = κ * D.fc (D.superXyz.getD s1 0 * 3 + s1 % 3) s2 := by
      have h3 := hfc (D.superXyz.getD s1 0) (s2 / 3) (comp s1) (comp s2) (by omega)
      have e2 : 3 * (s2 / 3) + (comp s2 : ℕ) = s2 := by simp only [comp]; omega
      rw [e2] at h3
      rw [Nat.mul_comm, Nat.mul_comm (D.superXyz.getD s1 0)]
      exact h3
    rw [e]
    push_cast
    rw [mul_assoc]
    rfl
  have hraw : dynRaw D' (qVec D' k) r c = (κ : ℂ) * dynRaw D (qVec D k) r c := by
    rw [dynRaw_sum, dynRaw_sum, Finset.mul_sum]
    refine Finset.sum_congr rfl fun s1 _ => ?_
    rw [Finset.mul_sum]
    refine Finset.sum_congr rfl fun s2 h2 => ?_
    have h2' : s2 < 3 * N := by rw [← hN]; exact Finset.mem_range.1 h2
    rw [hterm s1 s2 h2']
    split_ifs with h1 h2 h2
    · rfl
    · exact absurd h1 h2
    · exact absurd h2 h1
    · rw [mul_zero]
  unfold dynMatrix
  rw [hraw]
  have hsq : Real.sqrt (D'.mass r * D'.mass c) = μ * Real.sqrt (D.mass r * D.mass c) := by
    show Real.sqrt (μ * mass r * (μ * mass c)) = μ * Real.sqrt (mass r * mass c)
    rw [show μ * mass r * (μ * mass c) = μ ^ 2 * (mass r * mass c) by ring, Real.sqrt_mul (by positivity), Real.sqrt_sq hμ.le]
  rw [hsq]
  push_cast
  rw [mul_div_mul_comm]

/-- **C100.**  Units and isotopes: multiply all forces by `c`, all masses by `μ` and the displacement amplitude by `δ` (all positive), and every stored frequency,
real or imaginary, is multiplied by exactly `√(c / (δ μ))`; the rows stay in place.  Any forces, any cells, any accepted k-point file. -/
theorem C100_scaling {u s' : Cell ℝ} {n p : Fin 3 → ℤ} (sel : List ℕ) (hsel : u.atomTrue = some sel)
    (hxyz : u.xyzTrue = some (sel.flatMap fun a => [a, a, a])) (d : ℝ) (mass : ℕ → ℝ) {S S' : Solver} (hS : IsSolver S) (hS' : IsSolver S')
    (junkR junkR' : M3 ℝ) (junkF junkF' left left' : FC ℝ) (jc jc' : ℕ → Rows ℝ) (lines : List Str) (ks : List (V3 ℚ)) (auto : List ℤ)
    (hk : KPoints.setKPoints lines (fun c => decide (p c ≠ 0)) = .ok (ks, auto)) (hne : ks ≠ []) (forces : List (Rows ℝ))
    (hlen : forces.length = 6 * sel.length) (c μ δ : ℝ) (hc : 0 < c) (hμ : 0 < μ) (hδ : 0 < δ) :
    let o := PostProcess.run S (PostProcess.new u s' n p d mass junkR junkF) [.reciprocal, .force left jc false forces, .kPoints (some lines)]
    let o' := PostProcess.run S' (PostProcess.new u s' n p (δ * d) (fun r => μ * mass r) junkR' junkF')
      [.reciprocal, .force left' jc' false (forces.map fun f => fun r x => c * f r x), .kPoints (some lines)]
    (step S o .eval).2 = none ∧ (step S' o' .eval).2 = none ∧ (step S o .eval).1.wq.length = ks.length ∧
      (step S' o' .eval).1.wq = (step S o .eval).1.wq.map fun row => row.map fun f => Real.sqrt (c / (δ * μ)) * f := by
  intro o o'
  obtain ⟨fc, hfc, hent⟩ := C21_entry_layout d sel.length junkF forces hlen
  obtain ⟨fc', hfc', hent'⟩ := C21_entry_layout (δ * d) sel.length junkF' (forces.map fun f => fun r x => c * f r x) (by simpa using hlen)
  obtain ⟨-, a1, -, a3, a4⟩ := run_spectrum (s' := s') (n := n) sel hsel hxyz d mass hS junkR junkF left jc lines ks auto hk hne forces fc hfc
  obtain ⟨-, b1, -, b3, b4⟩ := run_spectrum (s' := s') (n := n) sel hsel hxyz (δ * d) (fun r => μ * mass r) hS' junkR' junkF' left' jc' lines ks auto hk hne _
    fc' hfc'
  have hrel : ∀ (r a : ℕ) (x y : Fin 3), a < sel.length → fc' (3 * r + x) (3 * a + y) = (c / δ) * fc (3 * r + x) (3 * a + y) := by
    intro r a x y ha
    have hy := y.2
    have g1 : forces[6 * a + 2 * (y : ℕ)]? = some forces[6 * a + 2 * (y : ℕ)] := List.getElem?_eq_getElem (by omega)
    have g2 : forces[6 * a + 2 * (y : ℕ) + 1]? = some forces[6 * a + 2 * (y : ℕ) + 1] := List.getElem?_eq_getElem (by omega)
    rw [hent r a x y _ _ ha g1 g2, hent' r a x y _ _ ha (by rw [List.getElem?_map, g1]; rfl) (by rw [List.getElem?_map, g2]; rfl)]
    simp only [centralDiff]
    by_cases hd : d = 0
    · subst hd; simp
    · field_simp
  refine ⟨a1, b1, a3, ?_⟩
  apply List.ext_getElem?
  intro i
  rw [List.getElem?_map]
  by_cases hi : i < ks.length
  · obtain ⟨row, r1, r2⟩ := a4 i ks[i] (List.getElem?_eq_getElem hi)
    obtain ⟨row', r1', r2'⟩ := b4 i ks[i] (List.getElem?_eq_getElem hi)
    refine r1'.trans (Eq.trans ?_ (congrArg _ r1).symm)
    rw [Option.map_some]
    congr 1
    have hpos : 0 < c / (δ * μ) := by positivity
    refine spectrum_unique ?_ r2' (spectrum_scale r2 hpos)
    congr 1
    ext r q
    rw [Matrix.smul_apply, Matrix.of_apply, Matrix.of_apply, smul_eq_mul]
    rw [dyn_scale u s' n p sel.length (by rw [hxyz]; simp; ring) fc fc' mass (c / δ) μ hμ hrel, div_div]
  · rw [List.getElem?_eq_none (by rw [b3]; omega), List.getElem?_eq_none (by rw [a3]; omega)]
    rfl

example : chainCell.atomTrue = some [0] ∧ chainCell.xyzTrue = some ([0].flatMap fun a => [a, a, a]) ∧
    (List.replicate 6 (fun r (x : Fin 3) => (r : ℝ) - x) : List (Rows ℝ)).length = 6 * [0].length := ⟨rfl, rfl, rfl⟩

/-- Four times the forces, or a quarter of the masses, double all frequencies. -/
example : Real.sqrt (4 / (1 * 1)) = 2 ∧ Real.sqrt (1 / (1 * (1 / 4))) = 2 := by
  constructor <;> (rw [Real.sqrt_eq_iff_mul_self_eq] <;> norm_num)

end

end Interphon.Props
