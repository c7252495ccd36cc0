import Verif.Props.Exact
import Verif.Props.Mode
import Verif.Props.ModeFiles

/-! # C131: the structures written for a mode move along a normal mode of the crystal -/

namespace Interphon.Props
open Py Interphon Interphon.Phonon Interphon.PreProcess Interphon.SuperCell Interphon.ForceConstant Interphon.Mode Complex

noncomputable section

private theorem blocks (N E : ℕ) (g : ℕ → ℝ) : ∑ s ∈ Finset.range (N * E), g s = ∑ a ∈ Finset.range N, ∑ k ∈ Finset.range E, g (a * E + k) := by
  induction N with
  | zero => simp
  | succ N ih => rw [Nat.succ_mul, Finset.sum_range_add, ih, Finset.sum_range_succ]

/-- The number of unit cells in the super cell. -/
def copies (n : Fin 3 → ℤ) : ℕ := (n 0 * n 1 * n 2).toNat

/-- In the directions that are not periodic all copies lie in cell 0. -/
theorem cellOf_flat (n : Fin 3 → ℤ) (hn : ∀ i, 0 < n i) (i : Fin 3) (hi : n i = 1) (k : ℕ) (hk : k < (n 0 * n 1 * n 2).toNat) : cellOf n k i = 0 := by
  obtain ⟨l, ⟨-, hd⟩, hu⟩ := unique_copy n hn (cellOf n k)
  have h0 := hn 0
  have h1 := hn 1
  have h2 := hn 2
  have hE3 : (n 0 * n 1 * n 2).toNat = (n 0).toNat * (n 1).toNat * (n 2).toNat := by
    zify
    rw [Int.toNat_of_nonneg (by positivity), Int.toNat_of_nonneg h0.le, Int.toNat_of_nonneg h1.le, Int.toNat_of_nonneg h2.le]
  fin_cases i
  · have hx : k / (n 2).toNat / (n 1).toNat < (n 0).toNat := by
      rw [Nat.div_div_eq_div_mul, Nat.div_lt_iff_lt_mul (by have : 0 < (n 1).toNat := by omega
                                                            have : 0 < (n 2).toNat := by omega
                                                            positivity)]
      calc k < _ := hk
        _ = _ := by rw [hE3]; ring
    have hi' : n 0 = 1 := hi
    rw [hi'] at hx
    have hx0 : k / (n 2).toNat / (n 1).toNat = 0 := Nat.lt_one_iff.1 hx
    show ((k / (n 2).toNat / (n 1).toNat : ℕ) : ℤ) = 0
    rw [hx0]; rfl
  · have hi' : n 1 = 1 := hi
    simp [cellOf, hi', Nat.mod_one]
  · have hi' : n 2 = 1 := hi
    simp [cellOf, hi', Nat.mod_one]

/-- A plane wave of the crystal in the super cell: the springs of the super cell acting on it give the Fourier transform of the springs of the crystal. -/
theorem bloch_sum (L : M3 ℝ) (n p : Fin 3 → ℤ) (hn : ∀ i, 0 < n i) (hcons : ∀ i, p i = 0 → n i = 1) (q k : V3 ℝ)
    (hq : ∀ i, dot3 q (L i) = 2 * Real.pi * k i) (hk : Fits n p k) (Φ : Springs)
    (hΦ : ∀ a x b y l, l ∈ (Φ a x b y).support → ∀ i, p i = 0 → l i = 0) (a b ka : ℕ) (hka : ka < (n 0 * n 1 * n 2).toNat) (x y : Fin 3) (ra rb : V3 ℝ) :
    ∑ kb ∈ Finset.range (n 0 * n 1 * n 2).toNat,
      (superSprings n (n 0 * n 1 * n 2).toNat Φ (a * (n 0 * n 1 * n 2).toNat + ka) x (b * (n 0 * n 1 * n 2).toNat + kb) y : ℂ) *
        exp (-(I * (dot3 q (rb + latVec L (cellOf n kb)) : ℝ))) =
      exp (-(I * (dot3 q (ra + latVec L (cellOf n ka)) : ℝ))) *
        (Φ a x b y).sum fun l φ => (φ : ℂ) * exp (I * (dot3 q (ra + latVec L l - rb) : ℝ)) := by
  set E := (n 0 * n 1 * n 2).toNat with hE
  have hE0 : 0 < E := by omega
  have hs : ∀ kb ∈ Finset.range E, (superSprings n E Φ (a * E + ka) x (b * E + kb) y : ℂ) * exp (-(I * (dot3 q (rb + latVec L (cellOf n kb)) : ℝ))) =
      ∑ l ∈ (Φ a x b y).support, if (∀ i, n i ∣ (cellOf n ka - l) i - cellOf n kb i) then
        (Φ a x b y l : ℂ) * exp (-(I * (dot3 q (rb + latVec L (cellOf n kb)) : ℝ))) else 0 := by
    intro kb hkb
    have hkb' := Finset.mem_range.1 hkb
    have e1 : (a * E + ka) / E = a := by rw [Nat.mul_comm, Nat.mul_add_div hE0, Nat.div_eq_of_lt hka, Nat.add_zero]
    have e2 : (a * E + ka) % E = ka := by rw [Nat.mul_comm, Nat.mul_add_mod, Nat.mod_eq_of_lt hka]
    have e3 : (b * E + kb) / E = b := by rw [Nat.mul_comm, Nat.mul_add_div hE0, Nat.div_eq_of_lt hkb', Nat.add_zero]
    have e4 : (b * E + kb) % E = kb := by rw [Nat.mul_comm, Nat.mul_add_mod, Nat.mod_eq_of_lt hkb']
    rw [superSprings, e1, e2, e3, e4, Complex.ofReal_sum, Finset.sum_mul, Finset.sum_filter]
    refine Finset.sum_congr rfl fun l _ => ?_
    have hiff : (∀ i, n i ∣ l i - (cellOf n ka i - cellOf n kb i)) ↔ ∀ i, n i ∣ (cellOf n ka - l) i - cellOf n kb i := by
      refine forall_congr' fun i => ?_
      rw [← dvd_neg, Pi.sub_apply]
      ring_nf
    simp only [hiff]
  rw [Finset.sum_congr rfl hs, Finset.sum_comm, Finsupp.sum, Finset.mul_sum]
  refine Finset.sum_congr rfl fun l hl => ?_
  obtain ⟨kb, ⟨hkb, hd⟩, hu⟩ := unique_copy n hn (cellOf n ka - l)
  rw [Finset.sum_eq_single kb]
  · rw [if_pos hd]
    have hint : ∀ i, ∃ z : ℤ, ((cellOf n ka i : ℝ) - l i - cellOf n kb i) * dot3 q (L i) = 2 * Real.pi * z := by
      intro i
      by_cases hpi : p i = 0
      · refine ⟨0, ?_⟩
        rw [hΦ _ _ _ _ l hl i hpi, cellOf_flat n hn i (hcons i hpi) ka hka, cellOf_flat n hn i (hcons i hpi) kb hkb]; simp
      · obtain ⟨z, hz⟩ := hk i hpi
        obtain ⟨w, hw⟩ := hd i
        refine ⟨w * z, ?_⟩
        have hw' : (cellOf n ka i : ℝ) - l i - cellOf n kb i = n i * w := by
          have : cellOf n ka i - l i - cellOf n kb i = n i * w := hw
          exact_mod_cast this
        rw [hw', hq]
        push_cast
        rw [← hz]; ring
    choose z hz using hint
    have e1 : dot3 q (ra + latVec L l - rb) - dot3 q (ra + latVec L (cellOf n ka)) =
        -dot3 q (rb + latVec L (cellOf n kb)) - 2 * Real.pi * ((z 0 + z 1 + z 2 : ℤ) : ℝ) := by
      have hz0 := hz 0
      have hz1 := hz 1
      have hz2 := hz 2
      have d1 : ∀ v w : V3 ℝ, dot3 q (v + w) = dot3 q v + dot3 q w := by
        intro v w; simp only [dot3, Pi.add_apply]; ring
      have d2 : ∀ v w : V3 ℝ, dot3 q (v - w) = dot3 q v - dot3 q w := by
        intro v w; simp only [dot3, Pi.sub_apply]; ring
      rw [d2, d1, d1, d1, dot3_latVec, dot3_latVec, dot3_latVec, Fin.sum_univ_three, Fin.sum_univ_three, Fin.sum_univ_three]
      push_cast
      linarith
    rw [mul_left_comm, ← Complex.exp_add]
    congr 1
    generalize dot3 q (ra + latVec L l - rb) = A at e1 ⊢
    generalize dot3 q (ra + latVec L (cellOf n ka)) = B at e1 ⊢
    generalize dot3 q (rb + latVec L (cellOf n kb)) = C at e1 ⊢
    generalize z 0 + z 1 + z 2 = w at e1 ⊢
    rw [show -(I * (B : ℂ)) + I * (A : ℂ) = I * ((A - B : ℝ) : ℂ) by push_cast; ring, e1,
      show I * ((-C - 2 * Real.pi * w : ℝ) : ℂ) = -(I * (C : ℂ)) + (-w : ℤ) * (2 * Real.pi * I) by push_cast; ring, Complex.exp_add,
      Complex.exp_int_mul_two_pi_mul_I, mul_one]
  · intro j hj hne
    rw [if_neg]
    intro hd'
    exact hne (hu j ⟨Finset.mem_range.1 hj, hd'⟩)
  · intro h; exact absurd (Finset.mem_range.2 hkb) h

private theorem blocks_three (len : ℕ) (g : ℕ → ℂ) : ∑ c : Fin (3 * len), g c = ∑ j ∈ Finset.range len, ∑ y : Fin 3, g (3 * j + y) := by
  rw [Finset.sum_range fun j => ∑ y : Fin 3, g (3 * j + y), ← Finset.sum_range g]
  induction len with
  | zero => simp
  | succ N ih =>
    rw [Nat.mul_succ, Finset.sum_range_add, ih, Fin.sum_univ_castSucc]
    congr 1

private theorem sum_selected (sel : List ℕ) (hnd : sel.Nodup) (N : ℕ) (hlt : ∀ t ∈ sel, t < N) (g : ℕ → ℝ) (h0 : ∀ b, b ∉ sel → g b = 0) :
    ∑ b ∈ Finset.range N, g b = ∑ j ∈ Finset.range sel.length, g (sel.getD j 0) := by
  have h1 : ∑ b ∈ Finset.range N, g b = ∑ b ∈ sel.toFinset, g b := by
    symm
    refine Finset.sum_subset (fun b hb => Finset.mem_range.2 (hlt b (List.mem_toFinset.1 hb))) fun b _ hb => h0 b fun h => hb (List.mem_toFinset.2 h)
  rw [h1, List.sum_toFinset g hnd, Finset.sum_range, ← Fin.sum_univ_getElem]
  rw [← List.sum_ofFn, ← List.sum_ofFn]
  congr 1
  apply List.ext_getElem
  · simp
  · intro i h1 h2
    simp at h1
    simp [List.getD_eq_getElem _ _ h1]

/-- The springs of the super cell acting on a standing wave, in terms of the dynamical matrix. -/
theorem motion_re (u : Cell ℝ) (sel : List ℕ) (hnd : sel.Nodup) (hlt : ∀ t ∈ sel, t < u.cart.length) (n p : Fin 3 → ℤ) (hn : ∀ i, 0 < n i)
    (hcons : ∀ i, p i = 0 → n i = 1) (q k : V3 ℝ) (hq : ∀ i, dot3 q (u.lattice i) = 2 * Real.pi * k i) (hk : Fits n p k) (Φ : Springs)
    (hΦ : ∀ a x b y l, l ∈ (Φ a x b y).support → ∀ i, p i = 0 → l i = 0) (M : ℕ → ℝ) (hM : ∀ i < 3 * sel.length, 0 < M i) (e : ℕ → ℝ) (α : ℝ)
    (f : ℕ → Fin 3 → ℝ)
    (hf : ∀ j < sel.length, ∀ kb < (n 0 * n 1 * n 2).toNat, ∀ y : Fin 3, f (sel.getD j 0 * (n 0 * n 1 * n 2).toNat + kb) y =
      α * Real.cos (dot3 q (u.cart.getD (sel.getD j 0) 0 + latVec u.lattice (cellOf n kb))) * e (3 * j + y) / Real.sqrt (M (3 * j + y)))
    (hf0 : ∀ b, b ∉ sel → ∀ kb < (n 0 * n 1 * n 2).toNat, ∀ y, f (b * (n 0 * n 1 * n 2).toNat + kb) y = 0)
    (j : ℕ) (hj : j < sel.length) (ka : ℕ) (hka : ka < (n 0 * n 1 * n 2).toNat) (x : Fin 3)
    (hr : 3 * j + (x : ℕ) < 3 * sel.length) : ∑ c ∈ Finset.range (u.cart.length * (n 0 * n 1 * n 2).toNat), ∑ y,
      superSprings n (n 0 * n 1 * n 2).toNat Φ (sel.getD j 0 * (n 0 * n 1 * n 2).toNat + ka) x c y * f c y =
      ((α : ℂ) * exp (-(I * (dot3 q (u.cart.getD (sel.getD j 0) 0 + latVec u.lattice (cellOf n ka)) : ℝ))) * Real.sqrt (M (3 * j + x)) *
        ∑ c : Fin (3 * sel.length), trueDyn u sel M Φ q (3 * sel.length) ⟨3 * j + x, hr⟩ c * (e c : ℂ)).re := by
  set E := (n 0 * n 1 * n 2).toNat with hE
  set a := sel.getD j 0 with ha
  set Ra := u.cart.getD a 0 with hRa
  have hx3 := x.2
  rw [blocks, sum_selected sel hnd _ hlt (fun b => ∑ kb ∈ Finset.range E, ∑ y, superSprings n E Φ (a * E + ka) x (b * E + kb) y * f (b * E + kb) y)]
  swap
  · intro b hb
    refine Finset.sum_eq_zero fun kb hkb => Finset.sum_eq_zero fun y _ => ?_
    rw [hf0 b hb kb (Finset.mem_range.1 hkb), mul_zero]
  -- as the real part of a complex sum
  have hre : ∀ j' ∈ Finset.range sel.length,
      ∑ kb ∈ Finset.range E, ∑ y, superSprings n E Φ (a * E + ka) x (sel.getD j' 0 * E + kb) y * f (sel.getD j' 0 * E + kb) y =
      ((α : ℂ) * exp (-(I * (dot3 q (Ra + latVec u.lattice (cellOf n ka)) : ℝ))) * Real.sqrt (M (3 * j + x)) *
        ∑ y : Fin 3, trueDyn u sel M Φ q (3 * sel.length) ⟨3 * j + x, hr⟩ (if h : 3 * j' + (y : ℕ) < 3 * sel.length then ⟨3 * j' + y, h⟩ else ⟨3 * j + x, hr⟩) * (e (3 * j' + y) : ℂ)).re := by
    intro j' hj'
    have hj'' := Finset.mem_range.1 hj'
    rw [Finset.sum_comm, Finset.mul_sum, Complex.re_sum]
    refine Finset.sum_congr rfl fun y _ => ?_
    have hy3 := y.2
    have hc : 3 * j' + (y : ℕ) < 3 * sel.length := by omega
    rw [dif_pos hc]
    have hb := bloch_sum u.lattice n p hn hcons q k hq hk Φ hΦ a (sel.getD j' 0) ka hka x y Ra (u.cart.getD (sel.getD j' 0) 0)
    rw [← hE] at hb
    have hMr := Real.sqrt_pos.2 (hM _ hr)
    have hMc := Real.sqrt_pos.2 (hM _ hc)
    have hentry : trueDyn u sel M Φ q (3 * sel.length) ⟨3 * j + x, hr⟩ ⟨3 * j' + y, hc⟩ =
        ((Φ a x (sel.getD j' 0) y).sum fun l φ => (φ : ℂ) * exp (I * (dot3 q (Ra + latVec u.lattice l - u.cart.getD (sel.getD j' 0) 0) : ℝ))) /
          ((Real.sqrt (M (3 * j + x)) : ℂ) * (Real.sqrt (M (3 * j' + y)) : ℂ)) := by
      have e1 : (3 * j + (x : ℕ)) / 3 = j := by omega
      have e2 : (3 * j' + (y : ℕ)) / 3 = j' := by omega
      have e3 : comp (3 * j + (x : ℕ)) = x := Fin.ext (by show (3 * j + (x : ℕ)) % 3 = x; omega)
      have e4 : comp (3 * j' + (y : ℕ)) = y := Fin.ext (by show (3 * j' + (y : ℕ)) % 3 = y; omega)
      rw [trueDyn, Matrix.of_apply]
      simp only [e1, e2, e3, e4]
      rw [← ha, ← hRa, Real.sqrt_mul (hM _ hr).le, Complex.ofReal_mul]
    rw [hentry]
    generalize ((Φ a x (sel.getD j' 0) y).sum fun l φ => (φ : ℂ) * exp (I * (dot3 q (Ra + latVec u.lattice l - u.cart.getD (sel.getD j' 0) 0) : ℝ))) = T at hb ⊢
    generalize exp (-(I * (dot3 q (Ra + latVec u.lattice (cellOf n ka)) : ℝ))) = W at hb ⊢
    have hMr' : (Real.sqrt (M (3 * j + x)) : ℂ) ≠ 0 := by exact_mod_cast hMr.ne'
    have hMc' : (Real.sqrt (M (3 * j' + y)) : ℂ) ≠ 0 := by exact_mod_cast hMc.ne'
    have e5 : (α : ℂ) * W * (Real.sqrt (M (3 * j + x)) : ℂ) * (T / ((Real.sqrt (M (3 * j + x)) : ℂ) * (Real.sqrt (M (3 * j' + y)) : ℂ)) * (e (3 * j' + y) : ℂ)) =
        ((α * (e (3 * j' + y) / Real.sqrt (M (3 * j' + y))) : ℝ) : ℂ) * (W * T) := by
      push_cast
      field_simp
    rw [e5, ← hb, Complex.re_ofReal_mul, Complex.re_sum, Finset.mul_sum]
    refine Finset.sum_congr rfl fun kb hkb => ?_
    rw [hf j' hj'' kb (Finset.mem_range.1 hkb) y, Complex.re_ofReal_mul, mul_comm I, ← neg_mul, ← Complex.ofReal_neg, Complex.exp_ofReal_mul_I_re, Real.cos_neg]
    ring
  rw [Finset.sum_congr rfl hre, ← Complex.re_sum, ← Finset.mul_sum]
  have hb3 := blocks_three sel.length (fun c => trueDyn u sel M Φ q (3 * sel.length) ⟨3 * j + x, hr⟩
    (if h : c < 3 * sel.length then ⟨c, h⟩ else ⟨3 * j + x, hr⟩) * (e c : ℂ))
  simp only [Fin.is_lt, dif_pos, Fin.eta] at hb3
  rw [← hb3]

/-! ### Specification -/

/-- The situation in which a displaced super cell is written for a mode at the k point `k`: a unit cell `u` with the selection `sel`, a k point whose periodic components
are fractions with denominators up to 100, the super cell `s` that the program builds for it, the masses `M` of the degrees of freedom of the selection, and the same
masses listed for the super cell (copies have the mass of the original). -/
structure ModeSetup (L : ℚ → ℚ) (junk : ℕ → List (V3 ℝ)) (u : Cell ℝ) (sel : List ℕ) (k : Fin 3 → ℚ) (p : Fin 3 → ℤ) (s : Cell ℝ) (M : ℕ → ℝ) (mass : List ℝ) : Prop where
  limit : LimitDen L
  fresh : ∀ m, (junk m).length = m
  types : u.atomType.length = u.cart.length
  det : u.lattice.det ≠ 0
  selection : u.atomTrue = some sel
  nodup : sel.Nodup
  atoms : ∀ t ∈ sel, t < u.cart.length
  fractions : ∀ i, p i ≠ 0 → (k i).den ≤ 100
  built : ∃ s0, setSuperCell junk u (commensurate L k p) p = .ok s0 ∧ setSuperIndTrue s0 u (commensurate L k p) p = .ok s
  positive : ∀ i < 3 * sel.length, 0 < M i
  listed : mass.length = 3 * (sel.length * copies (commensurate L k p))
  copied : ∀ j < sel.length * copies (commensurate L k p), ∀ c : Fin 3, mass.getD (3 * j + c) 0 = M (3 * (j / copies (commensurate L k p)) + c)

/-- The structure `W` of the cell `s` is displaced along a normal mode with `ω² = lam` of the springs `Ψ`: whatever the forces `F0` at rest, every atom of `sel'` feels the additional force
`-lam · mass · displacement` (SI units, positions in Å). -/
def AlongMode (Ψ : ℕ → Fin 3 → ℕ → Fin 3 → ℝ) (s : Cell ℝ) (W : List (V3 ℝ)) (sel' : List ℕ) (lam : ℝ) (mass : ℕ → Fin 3 → ℝ) : Prop :=
  ∀ F0 : Rows ℝ, ∀ r ∈ sel', ∀ x, harmonicForces Ψ F0 s { s with cart := W } r x = F0 r x - lam * mass r x * ((W.getD r 0 x - s.cart.getD r 0 x) * (1 / 10 ^ 10))

/-- `v` is an eigenvector of the dynamical matrix of the crystal for the eigenvalue `lam`. -/
def EigenMode (u : Cell ℝ) (sel : List ℕ) (M : ℕ → ℝ) (Φ : Springs) (q : V3 ℝ) (lam : ℝ) (v : ℕ → ℂ) : Prop :=
  ∀ r : Fin (3 * sel.length), ∑ c : Fin (3 * sel.length), trueDyn u sel M Φ q (3 * sel.length) r c * v c = lam * v r

/-! ### Proofs -/

section
variable {L : ℚ → ℚ} {junk : ℕ → List (V3 ℝ)} {u : Cell ℝ} {sel : List ℕ} {k : Fin 3 → ℚ} {p : Fin 3 → ℤ} {s : Cell ℝ} {M : ℕ → ℝ} {mass : List ℝ}

/-- The wave vector of a k point. -/
theorem qOf_lattice (A : M3 ℝ) (hA : A.det ≠ 0) (k : V3 ℝ) (i : Fin 3) : dot3 (qOf k (reciprocal A)) (A i) = 2 * Real.pi * k i := by
  have h := fun j => C24_reciprocal_dual A hA j i
  simp only [Fin.sum_univ_three] at h
  have e : dot3 (qOf k (reciprocal A)) (A i) = k 0 * (reciprocal A 0 0 * A i 0 + reciprocal A 0 1 * A i 1 + reciprocal A 0 2 * A i 2) +
      k 1 * (reciprocal A 1 0 * A i 0 + reciprocal A 1 1 * A i 1 + reciprocal A 1 2 * A i 2) +
      k 2 * (reciprocal A 2 0 * A i 0 + reciprocal A 2 1 * A i 1 + reciprocal A 2 2 * A i 2) := by
    simp only [dot3, qOf]; ring
  rw [e, h 0, h 1, h 2]
  fin_cases i <;> simp <;> ring

theorem ModeSetup.pos (h : ModeSetup L junk u sel k p s M mass) : ∀ i, 0 < commensurate L k p i := by
  intro i
  unfold commensurate
  split
  · exact_mod_cast (L (k i)).den_pos
  · exact one_pos

theorem ModeSetup.flat (i : Fin 3) (hi : p i = 0) : commensurate L k p i = 1 := by simp [commensurate, hi]

theorem ModeSetup.call (h : ModeSetup L junk u sel k p s M mass) : GoodCall junk u (commensurate L k p) p :=
  ⟨h.fresh, h.types, h.pos, fun i hi => ModeSetup.flat i hi⟩

theorem ModeSetup.fits (h : ModeSetup L junk u sel k p s M mass) : Fits (commensurate L k p) p (fun i => (k i : ℝ)) := by
  intro i hi
  have hL : L (k i) = k i := limitDen_near h.limit _ _ (h.fractions i hi) (by norm_num)
  refine ⟨(k i).num, ?_⟩
  have : (k i) * ((k i).den : ℚ) = (k i).num := Rat.mul_den_eq_num _
  simp only [commensurate, hi, ne_eq, not_false_eq_true, if_true, hL]
  exact_mod_cast this

theorem ModeSetup.super (h : ModeSetup L junk u sel k p s M mass) :
    s.cart.length = u.cart.length * copies (commensurate L k p) ∧
    (∀ i < u.cart.length, ∀ c < copies (commensurate L k p), s.cart.getD (i * copies (commensurate L k p) + c) 0 = u.cart.getD i 0 + latVec u.lattice (cellOf (commensurate L k p) c)) ∧
    s.atomTrue = some (sel.flatMap fun i => (List.range (copies (commensurate L k p))).map fun c => i * copies (commensurate L k p) + c) := by
  obtain ⟨s0, h1, h2⟩ := h.built
  have hg := h.call
  obtain ⟨s0', hs0, hlen, -⟩ := C06_supercell_positions hg
  rw [h1] at hs0; cases hs0
  have hpos := C97_copy_position hg h1
  unfold setSuperIndTrue at h2
  simp only [h.selection, enlarge_eq _ p hg.cons] at h2
  cases h2
  refine ⟨?_, fun i hi c hc => hpos i c hi hc, ?_⟩
  · rw [hlen, Nat.mul_comm]; rfl
  · rfl

/-- The selected atoms of the super cell. -/
def selectedCopies (E : ℕ) (sel : List ℕ) : List ℕ := sel.flatMap fun i => (List.range E).map fun c => i * E + c

theorem selectedCopies_get (E : ℕ) (sel : List ℕ) (j c : ℕ) (hj : j < sel.length) (hc : c < E) :
    (selectedCopies E sel)[j * E + c]? = some (sel.getD j 0 * E + c) := by
  unfold selectedCopies
  have := getElem?_flatMap_const (fun i => (List.range E).map fun c => i * E + c) E sel (by simp) j c hc
  rw [Nat.mul_comm j E, this, List.getElem?_eq_getElem hj, List.getD_eq_getElem _ _ hj]
  simp [hc]

theorem selectedCopies_mem {E : ℕ} {sel : List ℕ} {c : ℕ} (hE : 0 < E) : c ∈ selectedCopies E sel ↔ c / E ∈ sel := by
  simp only [selectedCopies, List.mem_flatMap, List.mem_map, List.mem_range]
  constructor
  · rintro ⟨i, hi, d, hd, rfl⟩
    rwa [Nat.mul_comm, Nat.mul_add_div hE, Nat.div_eq_of_lt hd, Nat.add_zero]
  · intro h
    exact ⟨c / E, h, c % E, Nat.mod_lt _ hE, Nat.div_add_mod' c E⟩

theorem selectedCopies_nodup {E : ℕ} {sel : List ℕ} (hE : 0 < E) (h : sel.Nodup) : (selectedCopies E sel).Nodup := by
  unfold selectedCopies
  rw [List.nodup_flatMap]
  refine ⟨fun i _ => List.Nodup.map (fun a b hab => by simpa using hab) List.nodup_range, ?_⟩
  refine h.imp fun {a b} hab => ?_
  intro x hx hy
  simp only [List.mem_map, List.mem_range] at hx hy
  obtain ⟨c, hc, rfl⟩ := hx
  obtain ⟨d, hd, he⟩ := hy
  apply hab
  have h1 : (a * E + c) / E = a := by rw [Nat.mul_comm, Nat.mul_add_div hE, Nat.div_eq_of_lt hc, Nat.add_zero]
  have h2 : (b * E + d) / E = b := by rw [Nat.mul_comm, Nat.mul_add_div hE, Nat.div_eq_of_lt hd, Nat.add_zero]
  rw [← h1, ← h2, he]

theorem selectedCopies_idxOf {E : ℕ} {sel : List ℕ} (h : sel.Nodup) (j c : ℕ) (hj : j < sel.length) (hc : c < E) :
    (selectedCopies E sel).idxOf (sel.getD j 0 * E + c) = j * E + c := by
  have hg := selectedCopies_get E sel j c hj hc
  obtain ⟨hlt, he⟩ := List.getElem?_eq_some_iff.1 hg
  rw [← he]
  exact (selectedCopies_nodup (by omega) h).idxOf_getElem _ hlt

theorem ModeSetup.copies_pos (h : ModeSetup L junk u sel k p s M mass) : 0 < copies (commensurate L k p) := by
  have h0 := h.pos 0
  have h1 := h.pos 1
  have h2 := h.pos 2
  have : 0 < commensurate L k p 0 * commensurate L k p 1 * commensurate L k p 2 := by positivity
  unfold copies
  omega

theorem ModeSetup.mass_pos (h : ModeSetup L junk u sel k p s M mass) : ∀ m ∈ mass, 0 < m := by
  intro m hm
  obtain ⟨i, hi, rfl⟩ := List.getElem_of_mem hm
  have hE := h.copies_pos
  have hi' := hi
  rw [h.listed] at hi'
  have h3 : i / 3 < sel.length * copies (commensurate L k p) := by omega
  have hc := h.copied (i / 3) h3 ⟨i % 3, Nat.mod_lt _ (by norm_num)⟩
  simp only [Nat.div_add_mod, List.getD_eq_getElem _ _ hi] at hc
  rw [hc]
  apply h.positive
  have h4 : i / 3 / copies (commensurate L k p) < sel.length := by
    rw [Nat.div_lt_iff_lt_mul hE]; exact h3
  have := Nat.mod_lt i (show 3 > 0 by norm_num)
  omega

/-- The displacements of the structure written. -/
theorem ModeSetup.written (h : ModeSetup L junk u sel k p s M mass) (q : V3 ℝ) (amp : ℝ) (v : ℕ → ℂ) :
    (∀ j < sel.length, ∀ c < copies (commensurate L k p), ∀ y : Fin 3,
      (writeModeDisplace q amp (copies (commensurate L k p)) mass s.cart (selectedCopies (copies (commensurate L k p)) sel) fun i => (v i).re).getD
        (sel.getD j 0 * copies (commensurate L k p) + c) 0 y - s.cart.getD (sel.getD j 0 * copies (commensurate L k p) + c) 0 y =
      amp * Real.cos (dot3 q (u.cart.getD (sel.getD j 0) 0 + latVec u.lattice (cellOf (commensurate L k p) c))) * (v (3 * j + y)).re /
        Real.sqrt (M (3 * j + y) / heaviest mass)) ∧
    ∀ b, b ∉ sel → ∀ c < copies (commensurate L k p), ∀ y : Fin 3,
      (writeModeDisplace q amp (copies (commensurate L k p)) mass s.cart (selectedCopies (copies (commensurate L k p)) sel) fun i => (v i).re).getD
        (b * copies (commensurate L k p) + c) 0 y - s.cart.getD (b * copies (commensurate L k p) + c) 0 y = 0 := by
  have hE := h.copies_pos
  obtain ⟨hlen, hcart, -⟩ := h.super
  rw [C84_written_structure q amp _ mass (fun m hm => (h.mass_pos m hm).le) s.cart _ (selectedCopies_nodup hE h.nodup) v]
  have hcop := h.copied
  generalize hEE : copies (commensurate L k p) = E at *
  constructor
  · intro j hj c hc y
    have hb : sel.getD j 0 < u.cart.length := by
      rw [List.getD_eq_getElem _ _ hj]; exact h.atoms _ (List.getElem_mem _)
    have hlt : sel.getD j 0 * E + c < s.cart.length := by
      rw [hlen]
      calc sel.getD j 0 * E + c < sel.getD j 0 * E + E := by omega
        _ = (sel.getD j 0 + 1) * E := by ring
        _ ≤ _ := Nat.mul_le_mul_right _ hb
    have hmem : sel.getD j 0 * E + c ∈ selectedCopies E sel := by
      rw [selectedCopies_mem hE, Nat.mul_comm, Nat.mul_add_div hE, Nat.div_eq_of_lt hc, Nat.add_zero, List.getD_eq_getElem _ _ hj]
      exact List.getElem_mem _
    have hjE : (j * E + c) / E = j := by rw [Nat.mul_comm, Nat.mul_add_div hE, Nat.div_eq_of_lt hc, Nat.add_zero]
    have hj3 : j * E + c < sel.length * E := by
      calc j * E + c < j * E + E := by omega
        _ = (j + 1) * E := by ring
        _ ≤ _ := Nat.mul_le_mul_right _ hj
    rw [List.getD_eq_getElem?_getD, List.getElem?_mapIdx, List.getElem?_eq_getElem hlt]
    simp only [Option.map_some, Option.getD_some, hmem, if_true, Pi.add_apply]
    rw [List.getD_eq_getElem _ _ hlt, selectedCopies_idxOf h.nodup j c hj hc, hjE, hcop _ hj3, hjE, ← List.getD_eq_getElem s.cart 0 hlt, hcart _ hb c hc]
    ring
  · intro b hb c hc y
    have hmem : b * E + c ∉ selectedCopies E sel := by
      rw [selectedCopies_mem hE, Nat.mul_comm, Nat.mul_add_div hE, Nat.div_eq_of_lt hc, Nat.add_zero]
      exact hb
    rw [List.getD_eq_getElem?_getD, List.getElem?_mapIdx, List.getD_eq_getElem?_getD]
    cases s.cart[b * E + c]? with
    | none => simp
    | some r => simp [hmem]

theorem ModeSetup.heaviest_pos (h : ModeSetup L junk u sel k p s M mass) (hsel : 0 < sel.length) : 0 < heaviest mass := by
  have hE := h.copies_pos
  have hl : 0 < mass.length := by rw [h.listed]; positivity
  have hm : mass[0] ∈ mass := List.getElem_mem hl
  exact (h.mass_pos _ hm).trans_le (le_csSup mass.finite_toSet.bddAbove hm)

/-- How far the structure written is from a normal mode, in terms of the dynamical matrix acting on the real part of the mode. -/
theorem ModeSetup.force (h : ModeSetup L junk u sel k p s M mass) (Φ : Springs) (hΦ : ∀ a x b y l, l ∈ (Φ a x b y).support → ∀ i, p i = 0 → l i = 0)
    (amp : ℝ) (v : ℕ → ℂ) (lam : ℝ) (j : ℕ) (hj : j < sel.length) (c : ℕ) (hc : c < copies (commensurate L k p)) (x : Fin 3) (hr : 3 * j + (x : ℕ) < 3 * sel.length)
    (W : List (V3 ℝ)) (hW : W = writeModeDisplace (qOf (fun i => (k i : ℝ)) (reciprocal u.lattice)) amp (copies (commensurate L k p)) mass s.cart
      (selectedCopies (copies (commensurate L k p)) sel) fun i => (v i).re) :
    (∑ r' ∈ Finset.range s.cart.length, ∑ y : Fin 3, superSprings (commensurate L k p) (copies (commensurate L k p)) Φ (sel.getD j 0 * copies (commensurate L k p) + c) x r' y *
      ((W.getD r' 0 y - s.cart.getD r' 0 y) * (1 / 10 ^ 10))) - lam * M (3 * j + x) *
        ((W.getD (sel.getD j 0 * copies (commensurate L k p) + c) 0 x - s.cart.getD (sel.getD j 0 * copies (commensurate L k p) + c) 0 x) * (1 / 10 ^ 10)) =
    (((amp * Real.sqrt (heaviest mass) * (1 / 10 ^ 10) * Real.sqrt (M (3 * j + x)) : ℝ) : ℂ) *
      exp (-(I * (dot3 (qOf (fun i => (k i : ℝ)) (reciprocal u.lattice)) (u.cart.getD (sel.getD j 0) 0 + latVec u.lattice (cellOf (commensurate L k p) c)) : ℝ))) *
      ((∑ d : Fin (3 * sel.length), trueDyn u sel M Φ (qOf (fun i => (k i : ℝ)) (reciprocal u.lattice)) (3 * sel.length) ⟨3 * j + x, hr⟩ d * ((v d).re : ℂ)) -
        lam * ((v (3 * j + x)).re : ℂ))).re := by
  have hh := h.heaviest_pos (by omega)
  obtain ⟨w1, w2⟩ := h.written (qOf (fun i => (k i : ℝ)) (reciprocal u.lattice)) amp v
  rw [← hW] at w1 w2
  obtain ⟨hlen, -, -⟩ := h.super
  have hM := h.positive
  have hdisp : ∀ j < sel.length, ∀ c < copies (commensurate L k p), ∀ y : Fin 3,
      (W.getD (sel.getD j 0 * copies (commensurate L k p) + c) 0 y - s.cart.getD (sel.getD j 0 * copies (commensurate L k p) + c) 0 y) * (1 / 10 ^ 10) =
      (amp * Real.sqrt (heaviest mass) * (1 / 10 ^ 10)) * Real.cos (dot3 (qOf (fun i => (k i : ℝ)) (reciprocal u.lattice))
        (u.cart.getD (sel.getD j 0) 0 + latVec u.lattice (cellOf (commensurate L k p) c))) * (v (3 * j + y)).re / Real.sqrt (M (3 * j + y)) := by
    intro j hj c hc y
    have hy := y.2
    have hMp := hM (3 * j + y) (by omega)
    rw [w1 j hj c hc y, Real.sqrt_div hMp.le]
    have := (Real.sqrt_pos.2 hMp).ne'
    have := (Real.sqrt_pos.2 hh).ne'
    field_simp
  have hmot := motion_re u sel h.nodup h.atoms (commensurate L k p) p h.pos (fun i hi => ModeSetup.flat i hi)
    (qOf (fun i => (k i : ℝ)) (reciprocal u.lattice)) (fun i => (k i : ℝ)) (qOf_lattice _ h.det _) h.fits Φ hΦ M hM (fun i => (v i).re)
    (amp * Real.sqrt (heaviest mass) * (1 / 10 ^ 10)) (fun c y => (W.getD c 0 y - s.cart.getD c 0 y) * (1 / 10 ^ 10))
    (fun j hj c hc y => hdisp j hj c hc y) (fun b hb c hc y => by
      show (_ - _) * _ = (0 : ℝ)
      have : _ - _ = (0 : ℝ) := w2 b hb c hc y
      rw [show (commensurate L k p 0 * commensurate L k p 1 * commensurate L k p 2).toNat = copies (commensurate L k p) from rfl, this, zero_mul]) j hj c hc x hr
  rw [hlen]
  refine (congrArg₂ (fun a b : ℝ => a - lam * M (3 * j + x) * b) hmot (hdisp j hj c hc x)).trans ?_
  show (_ : ℂ).re - _ = _
  generalize (∑ d : Fin (3 * sel.length), trueDyn u sel M Φ (qOf (fun i => (k i : ℝ)) (reciprocal u.lattice)) (3 * sel.length) ⟨3 * j + x, hr⟩ d * ((v d).re : ℂ)) = T
  generalize dot3 (qOf (fun i => (k i : ℝ)) (reciprocal u.lattice)) (u.cart.getD (sel.getD j 0) 0 + latVec u.lattice (cellOf (commensurate L k p) c)) = t
  generalize amp * Real.sqrt (heaviest mass) * (1 / 10 ^ 10) = A
  have hMp := hM _ hr
  have hs := Real.sqrt_pos.2 hMp
  have hsq := Real.mul_self_sqrt hMp.le
  have hexp : (exp (-(I * (t : ℂ)))).re = Real.cos t := by
    rw [mul_comm, ← neg_mul, ← Complex.ofReal_neg, Complex.exp_ofReal_mul_I_re, Real.cos_neg]
  generalize exp (-(I * (t : ℂ))) = z at hexp ⊢
  generalize Real.sqrt (M (3 * j + x)) = m at hs hsq ⊢
  rw [← hexp, ← hsq]
  simp only [Complex.mul_re, Complex.mul_im, Complex.sub_re, Complex.sub_im, Complex.ofReal_re, Complex.ofReal_im]
  field_simp
  ring

/-- The structure the program writes for the mode vector `v` at the k point `k`. -/
def modeStructure (L : ℚ → ℚ) (u s : Cell ℝ) (sel : List ℕ) (k : Fin 3 → ℚ) (p : Fin 3 → ℤ) (mass : List ℝ) (amp : ℝ) (v : ℕ → ℂ) : List (V3 ℝ) :=
  writeModeDisplace (qOf (fun i => (k i : ℝ)) (reciprocal u.lattice)) amp (copies (commensurate L k p)) mass s.cart
    (selectedCopies (copies (commensurate L k p)) sel) fun i => (v i).re

/-- The springs of the crystal in the super cell of `k`. -/
def modeSprings (L : ℚ → ℚ) (k : Fin 3 → ℚ) (p : Fin 3 → ℤ) (Φ : Springs) : ℕ → Fin 3 → ℕ → Fin 3 → ℝ :=
  superSprings (commensurate L k p) (copies (commensurate L k p)) Φ

private theorem along_iff (h : ModeSetup L junk u sel k p s M mass) (Φ : Springs) (hΦ : ∀ a x b y l, l ∈ (Φ a x b y).support → ∀ i, p i = 0 → l i = 0)
    (amp : ℝ) (v : ℕ → ℂ) (lam : ℝ) :
    AlongMode (modeSprings L k p Φ) s (modeStructure L u s sel k p mass amp v) (selectedCopies (copies (commensurate L k p)) sel) lam
      (fun r x => M (3 * sel.idxOf (r / copies (commensurate L k p)) + x)) ↔
    ∀ j, j < sel.length → ∀ c, c < copies (commensurate L k p) → ∀ x : Fin 3, ∀ hr : 3 * j + (x : ℕ) < 3 * sel.length,
    (((amp * Real.sqrt (heaviest mass) * (1 / 10 ^ 10) * Real.sqrt (M (3 * j + x)) : ℝ) : ℂ) *
      exp (-(I * (dot3 (qOf (fun i => (k i : ℝ)) (reciprocal u.lattice)) (u.cart.getD (sel.getD j 0) 0 + latVec u.lattice (cellOf (commensurate L k p) c)) : ℝ))) *
      ((∑ d : Fin (3 * sel.length), trueDyn u sel M Φ (qOf (fun i => (k i : ℝ)) (reciprocal u.lattice)) (3 * sel.length) ⟨3 * j + x, hr⟩ d * ((v d).re : ℂ)) -
        lam * ((v (3 * j + x)).re : ℂ))).re = 0 := by
  have hE := h.copies_pos
  constructor
  · intro H j hj c hc x hr
    rw [← h.force Φ hΦ amp v lam j hj c hc x hr _ rfl]
    have hmem : sel.getD j 0 * copies (commensurate L k p) + c ∈ selectedCopies (copies (commensurate L k p)) sel := by
      rw [selectedCopies_mem hE, Nat.mul_comm, Nat.mul_add_div hE, Nat.div_eq_of_lt hc, Nat.add_zero, List.getD_eq_getElem _ _ hj]
      exact List.getElem_mem _
    have := H 0 _ hmem x
    simp only at this
    rw [Nat.mul_comm (sel.getD j 0), Nat.mul_add_div hE, Nat.div_eq_of_lt hc, Nat.add_zero, List.getD_eq_getElem _ _ hj, h.nodup.idxOf_getElem _ hj,
      Nat.mul_comm (copies _), ← List.getD_eq_getElem _ 0 hj] at this
    unfold harmonicForces at this
    rw [sub_right_inj] at this
    exact sub_eq_zero.2 this
  · intro H F0 r hr x
    have hm := (selectedCopies_mem hE).1 hr
    have hx := x.2
    have hj := List.idxOf_lt_length_of_mem hm
    have hc := Nat.mod_lt r hE
    have hr3 : 3 * sel.idxOf (r / copies (commensurate L k p)) + (x : ℕ) < 3 * sel.length := by omega
    have := H _ hj _ hc x hr3
    rw [← h.force Φ hΦ amp v lam _ hj _ hc x hr3 _ rfl, List.getD_eq_getElem _ _ hj, List.getElem_idxOf, Nat.div_add_mod'] at this
    unfold harmonicForces
    rw [sub_right_inj]
    exact sub_eq_zero.1 this

/-- **C131 (partial).**  If the real part of the mode is itself an eigenvector of the dynamical matrix, the structure written is displaced along a normal mode: the crystal pulls every
selected atom back with `ω²·m` times its displacement.  Missing: modes whose real part is not an eigenvector, for which the claim is false (`C131_full_refuted`). -/
theorem C131_along_mode_partial (h : ModeSetup L junk u sel k p s M mass) (Φ : Springs) (hΦ : ∀ a x b y l, l ∈ (Φ a x b y).support → ∀ i, p i = 0 → l i = 0)
    (amp : ℝ) (v : ℕ → ℂ) (lam : ℝ) (hv : EigenMode u sel M Φ (qOf (fun i => (k i : ℝ)) (reciprocal u.lattice)) lam fun i => ((v i).re : ℂ)) :
    AlongMode (modeSprings L k p Φ) s (modeStructure L u s sel k p mass amp v) (selectedCopies (copies (commensurate L k p)) sel) lam
      (fun r x => M (3 * sel.idxOf (r / copies (commensurate L k p)) + x)) := by
  rw [along_iff h Φ hΦ]
  intro j hj c hc x hr
  rw [hv ⟨3 * j + x, hr⟩]
  simp

/-- **C131** for real modes. -/
theorem C131_real_mode_partial (h : ModeSetup L junk u sel k p s M mass) (Φ : Springs) (hΦ : ∀ a x b y l, l ∈ (Φ a x b y).support → ∀ i, p i = 0 → l i = 0)
    (amp : ℝ) (v : ℕ → ℂ) (lam : ℝ) (hv : EigenMode u sel M Φ (qOf (fun i => (k i : ℝ)) (reciprocal u.lattice)) lam v) (him : ∀ i < 3 * sel.length, (v i).im = 0) :
    AlongMode (modeSprings L k p Φ) s (modeStructure L u s sel k p mass amp v) (selectedCopies (copies (commensurate L k p)) sel) lam
      (fun r x => M (3 * sel.idxOf (r / copies (commensurate L k p)) + x)) := by
  refine C131_along_mode_partial h Φ hΦ amp v lam fun r => ?_
  have e : ∀ i < 3 * sel.length, (((v i).re : ℝ) : ℂ) = v i := fun i hi => Complex.ext rfl (by simp [him i hi])
  show ∑ c : Fin (3 * sel.length), _ * (((v c).re : ℝ) : ℂ) = lam * (((v r).re : ℝ) : ℂ)
  rw [e r r.2, ← hv r]
  exact Finset.sum_congr rfl fun d _ => by rw [e d d.2]

/-- At the zone centre the dynamical matrix is real. -/
theorem trueDyn_gamma_real (u : Cell ℝ) (sel : List ℕ) (M : ℕ → ℝ) (Φ : Springs) (m : ℕ) (r c : Fin m) : (trueDyn u sel M Φ 0 m r c).im = 0 := by
  have hz : ∀ w : V3 ℝ, dot3 (0 : V3 ℝ) w = 0 := fun w => by simp [dot3]
  rw [trueDyn, Matrix.of_apply]
  simp only [hz, Complex.ofReal_zero, mul_zero, Complex.exp_zero, mul_one, Finsupp.sum]
  rw [← Complex.ofReal_sum, ← Complex.ofReal_div, Complex.ofReal_im]

/-- At the zone centre the real part of every mode is zero or a mode. -/
theorem mode_gamma_re (u : Cell ℝ) (sel : List ℕ) (M : ℕ → ℝ) (Φ : Springs) (lam : ℝ) (v : ℕ → ℂ) (hv : EigenMode u sel M Φ 0 lam v) :
    EigenMode u sel M Φ 0 lam fun i => ((v i).re : ℂ) := by
  intro r
  have h1 := congrArg Complex.re (hv r)
  rw [Complex.re_sum, Complex.re_ofReal_mul] at h1
  have h2 : ∀ c : Fin (3 * sel.length), (trueDyn u sel M Φ 0 (3 * sel.length) r c * v c).re = (trueDyn u sel M Φ 0 (3 * sel.length) r c).re * (v c).re := by
    intro c; rw [Complex.mul_re, trueDyn_gamma_real]; ring
  rw [Finset.sum_congr rfl fun c _ => h2 c] at h1
  have h3 : ∀ c : Fin (3 * sel.length), trueDyn u sel M Φ 0 (3 * sel.length) r c * ((v c).re : ℂ) =
      (((trueDyn u sel M Φ 0 (3 * sel.length) r c).re * (v c).re : ℝ) : ℂ) := by
    intro c
    push_cast
    congr 1
    exact Complex.ext rfl (by rw [trueDyn_gamma_real]; rfl)
  rw [Finset.sum_congr rfl fun c _ => h3 c, ← Complex.ofReal_sum, h1]
  push_cast; rfl

/-- **C131** at the zone centre: every mode, real or not. -/
theorem C131_gamma_partial (h : ModeSetup L junk u sel 0 p s M mass) (Φ : Springs) (hΦ : ∀ a x b y l, l ∈ (Φ a x b y).support → ∀ i, p i = 0 → l i = 0)
    (amp : ℝ) (v : ℕ → ℂ) (lam : ℝ) (hv : EigenMode u sel M Φ 0 lam v) :
    AlongMode (modeSprings L 0 p Φ) s (modeStructure L u s sel 0 p mass amp v) (selectedCopies (copies (commensurate L 0 p)) sel) lam
      (fun r x => M (3 * sel.idxOf (r / copies (commensurate L 0 p)) + x)) := by
  refine C131_along_mode_partial h Φ hΦ amp v lam ?_
  have hq : qOf (fun i => (((0 : Fin 3 → ℚ) i : ℚ) : ℝ)) (reciprocal u.lattice) = 0 := by
    funext j; simp [qOf]
  rw [hq]
  exact mode_gamma_re u sel M Φ lam v hv

/-- **C131** (exact condition).  At a k point that is not half a reciprocal lattice vector the structure written with an amplitude other than zero is displaced along a normal mode with `ω² = lam`
exactly if the real part of the mode vector satisfies the eigenvalue equation for `lam`. -/
theorem C131_along_mode_iff (h : ModeSetup L junk u sel k p s M mass) (Φ : Springs) (hΦ : ∀ a x b y l, l ∈ (Φ a x b y).support → ∀ i, p i = 0 → l i = 0)
    {amp : ℝ} (hamp : amp ≠ 0) (v : ℕ → ℂ) (lam : ℝ) (i0 : Fin 3) (hi0 : p i0 ≠ 0) (hk : ∀ z : ℤ, 2 * k i0 ≠ z) :
    AlongMode (modeSprings L k p Φ) s (modeStructure L u s sel k p mass amp v) (selectedCopies (copies (commensurate L k p)) sel) lam
      (fun r x => M (3 * sel.idxOf (r / copies (commensurate L k p)) + x)) ↔
    EigenMode u sel M Φ (qOf (fun i => (k i : ℝ)) (reciprocal u.lattice)) lam fun i => ((v i).re : ℂ) := by
  refine ⟨fun H => ?_, fun H => C131_along_mode_partial h Φ hΦ amp v lam H⟩
  rw [along_iff h Φ hΦ] at H
  intro r
  have hj : (r : ℕ) / 3 < sel.length := by have := r.2; omega
  have hr : 3 * ((r : ℕ) / 3) + ((comp r : Fin 3) : ℕ) < 3 * sel.length := by
    have := r.2; simp only [comp]; omega
  have er : (⟨3 * ((r : ℕ) / 3) + ((comp r : Fin 3) : ℕ), hr⟩ : Fin (3 * sel.length)) = r := Fin.ext (by simp only [comp]; omega)
  have ern : 3 * ((r : ℕ) / 3) + ((comp r : Fin 3) : ℕ) = r := congrArg Fin.val er
  have hn := h.pos
  -- two copies: the cell 0 and the next cell along `i0`
  obtain ⟨c0, ⟨hc0, hd0⟩, -⟩ := unique_copy (commensurate L k p) hn 0
  obtain ⟨c1, ⟨hc1, hd1⟩, -⟩ := unique_copy (commensurate L k p) hn (Pi.single i0 1)
  have H0 := H _ hj c0 hc0 (comp r) hr
  have H1 := H _ hj c1 hc1 (comp r) hr
  rw [er] at H0 H1
  simp only [ern] at H0 H1
  set q := qOf (fun i => (k i : ℝ)) (reciprocal u.lattice) with hq
  have hql : ∀ i, dot3 q (u.lattice i) = 2 * Real.pi * k i := qOf_lattice _ h.det _
  have hint : ∀ (l : Fin 3 → ℤ) (c : ℕ), c < copies (commensurate L k p) → (∀ i, commensurate L k p i ∣ l i - cellOf (commensurate L k p) c i) → (∀ i, p i = 0 → l i = 0) →
      ∃ z : ℤ, dot3 q (latVec u.lattice (cellOf (commensurate L k p) c)) = dot3 q (latVec u.lattice l) + 2 * Real.pi * z := by
    intro l c hc hd hl
    have : ∀ i, ∃ z : ℤ, ((cellOf (commensurate L k p) c i : ℝ) - l i) * dot3 q (u.lattice i) = 2 * Real.pi * z := by
      intro i
      by_cases hpi : p i = 0
      · refine ⟨0, ?_⟩
        rw [hl i hpi, cellOf_flat _ hn i (ModeSetup.flat i hpi) c hc]; simp
      · obtain ⟨z, hz⟩ := h.fits i hpi
        obtain ⟨w, hw⟩ := hd i
        refine ⟨-w * z, ?_⟩
        have hw' : (cellOf (commensurate L k p) c i : ℝ) - l i = -(commensurate L k p i * w) := by
          have : (l i : ℝ) - cellOf (commensurate L k p) c i = commensurate L k p i * w := by exact_mod_cast hw
          linarith
        rw [hw', hql]
        push_cast
        rw [← hz]; ring
    choose z hz using this
    refine ⟨z 0 + z 1 + z 2, ?_⟩
    have hz0 := hz 0
    have hz1 := hz 1
    have hz2 := hz 2
    rw [dot3_latVec, dot3_latVec, Fin.sum_univ_three, Fin.sum_univ_three]
    push_cast
    linarith
  obtain ⟨z0, hz0⟩ := hint 0 c0 hc0 hd0 (fun _ _ => rfl)
  obtain ⟨z1, hz1⟩ := hint (Pi.single i0 1) c1 hc1 hd1 (fun i hi => by
    rw [Pi.single_apply, if_neg]; rintro rfl; exact hi0 hi)
  have hl0 : dot3 q (latVec u.lattice 0) = 0 := by rw [dot3_latVec]; simp
  have hl1 : dot3 q (latVec u.lattice (Pi.single i0 1)) = 2 * Real.pi * k i0 := by
    rw [dot3_latVec, Finset.sum_eq_single i0]
    · rw [Pi.single_eq_same, hql]; simp
    · intro b _ hb; rw [Pi.single_eq_of_ne hb]; simp
    · simp
  have hadd : ∀ v w : V3 ℝ, dot3 q (v + w) = dot3 q v + dot3 q w := by
    intro v w; simp only [dot3, Pi.add_apply]; ring
  rw [hadd, hz0, hl0] at H0
  rw [hadd, hz1, hl1] at H1
  have hMr := Real.sqrt_pos.2 (h.positive r r.2)
  have hh := Real.sqrt_pos.2 (h.heaviest_pos (by omega))
  have hA : amp * Real.sqrt (heaviest mass) * (1 / 10 ^ 10) * Real.sqrt (M r) ≠ 0 := by
    have := hMr.ne'
    have := hh.ne'
    positivity
  rw [← sub_eq_zero]
  generalize (∑ d : Fin (3 * sel.length), trueDyn u sel M Φ q (3 * sel.length) r d * ((v d).re : ℂ)) - lam * ((v r).re : ℂ) = T at H0 H1 ⊢
  generalize amp * Real.sqrt (heaviest mass) * (1 / 10 ^ 10) * Real.sqrt (M r) = A at hA H0 H1
  generalize dot3 q (u.cart.getD (sel.getD ((r : ℕ) / 3) 0) 0) = t at H0 H1
  have e0 : exp (-(I * ((t + (0 + 2 * Real.pi * z0) : ℝ) : ℂ))) = exp (-(I * (t : ℂ))) := by
    rw [show -(I * ((t + (0 + 2 * Real.pi * z0) : ℝ) : ℂ)) = -(I * (t : ℂ)) + (-z0 : ℤ) * (2 * Real.pi * I) by push_cast; ring, Complex.exp_add,
      Complex.exp_int_mul_two_pi_mul_I, mul_one]
  have e1 : exp (-(I * ((t + (2 * Real.pi * k i0 + 2 * Real.pi * z1) : ℝ) : ℂ))) = exp (-(I * (t : ℂ))) * exp (((-(2 * Real.pi * k i0) : ℝ) : ℂ) * I) := by
    rw [show -(I * ((t + (2 * Real.pi * k i0 + 2 * Real.pi * z1) : ℝ) : ℂ)) = -(I * (t : ℂ)) + ((-(2 * Real.pi * k i0) : ℝ) : ℂ) * I + (-z1 : ℤ) * (2 * Real.pi * I) by
      push_cast; ring, Complex.exp_add, Complex.exp_int_mul_two_pi_mul_I, mul_one, Complex.exp_add]
  rw [e0, mul_assoc, Complex.re_ofReal_mul] at H0
  rw [e1, mul_assoc, Complex.re_ofReal_mul] at H1
  have hw0 : exp (-(I * (t : ℂ))) ≠ 0 := Complex.exp_ne_zero _
  have hs : Real.sin (2 * Real.pi * k i0) ≠ 0 := by
    rw [Ne, Real.sin_eq_zero_iff]
    rintro ⟨z, hz⟩
    apply hk z
    have : (z : ℝ) = 2 * k i0 := by
      have hpi := Real.pi_pos.ne'
      apply mul_right_cancel₀ hpi
      rw [hz]; ring
    exact_mod_cast this.symm
  have hR0 := (mul_eq_zero.1 H0).resolve_left hA
  have hR1 := (mul_eq_zero.1 H1).resolve_left hA
  rw [mul_right_comm, Complex.mul_re, hR0, Complex.exp_ofReal_mul_I_im, Real.sin_neg] at hR1
  have hI : (exp (-(I * (t : ℂ))) * T).im = 0 := by
    have : (exp (-(I * (t : ℂ))) * T).im * Real.sin (2 * Real.pi * k i0) = 0 := by linarith
    exact (mul_eq_zero.1 this).resolve_right hs
  exact (mul_eq_zero.1 (Complex.ext hR0 hI : exp (-(I * (t : ℂ))) * T = 0)).resolve_left hw0

end

/-! ### The animation at the zone centre -/

/-- Image number `t` of an animation of `N` images. -/
def image (cart : List (V3 ℝ)) (sel : List ℕ) (mass : List ℝ) (N : ℕ) (v : ℕ → ℂ) (t : ℕ) : List (V3 ℝ) :=
  cart.mapIdx fun i r => if i ∈ sel then
    r + Real.sin (2 * Real.pi * t / N) • (fun c : Fin 3 => (v (3 * sel.idxOf i + c)).re / Real.sqrt (mass.getD (3 * sel.idxOf i + c) 0 / heaviest mass)) else r

/-- The forces in an image, in terms of the dynamical matrix at the zone centre. -/
private theorem image_force (u : Cell ℝ) (sel : List ℕ) (hnd : sel.Nodup) (hlt : ∀ t ∈ sel, t < u.cart.length) (Φ : Springs) (mass : List ℝ)
    (hlen : mass.length = 3 * sel.length) (hpos : ∀ m ∈ mass, 0 < m) (v : ℕ → ℂ) (N t r : ℕ) (hr : r ∈ sel) (x : Fin 3) (hr3 : 3 * sel.idxOf r + (x : ℕ) < 3 * sel.length) :
    0 < mass.getD (3 * sel.idxOf r + x) 0 ∧ 0 < heaviest mass ∧
    ∑ c ∈ Finset.range u.cart.length, ∑ y, superSprings 1 1 Φ r x c y * (((image u.cart sel mass N v t).getD c 0 y - u.cart.getD c 0 y) * (1 / 10 ^ 10)) =
      Real.sin (2 * Real.pi * t / N) * Real.sqrt (heaviest mass) * (1 / 10 ^ 10) * Real.sqrt (mass.getD (3 * sel.idxOf r + x) 0) *
        (∑ c : Fin (3 * sel.length), trueDyn u sel (fun i => mass.getD i 0) Φ 0 (3 * sel.length) ⟨3 * sel.idxOf r + x, hr3⟩ c * ((v c).re : ℂ)).re ∧
    ((image u.cart sel mass N v t).getD r 0 x - u.cart.getD r 0 x) * (1 / 10 ^ 10) =
      Real.sin (2 * Real.pi * t / N) * Real.sqrt (heaviest mass) * (1 / 10 ^ 10) * (v (3 * sel.idxOf r + x)).re / Real.sqrt (mass.getD (3 * sel.idxOf r + x) 0) := by
  unfold image
  have hj := List.idxOf_lt_length_of_mem hr
  have hx := x.2
  have hM : ∀ i < 3 * sel.length, 0 < mass.getD i 0 := by
    intro i hi
    rw [List.getD_eq_getElem _ _ (by omega)]
    exact hpos _ (List.getElem_mem _)
  have hh : 0 < heaviest mass := by
    have hl : 0 < mass.length := by omega
    have hm : mass[0] ∈ mass := List.getElem_mem hl
    exact (hpos _ hm).trans_le (le_csSup mass.finite_toSet.bddAbove hm)
  set σ := Real.sin (2 * Real.pi * t / N) with hσ
  set W := u.cart.mapIdx fun i r => if i ∈ sel then
    r + σ • (fun c : Fin 3 => (v (3 * sel.idxOf i + c)).re / Real.sqrt (mass.getD (3 * sel.idxOf i + c) 0 / heaviest mass)) else r with hWdef
  have e1 : ((1 : Fin 3 → ℤ) 0 * (1 : Fin 3 → ℤ) 1 * (1 : Fin 3 → ℤ) 2).toNat = 1 := rfl
  have hz : ∀ w : V3 ℝ, dot3 (0 : V3 ℝ) w = 0 := fun w => by simp [dot3]
  have hdisp : ∀ j < sel.length, ∀ y : Fin 3, (W.getD (sel.getD j 0) 0 y - u.cart.getD (sel.getD j 0) 0 y) * (1 / 10 ^ 10) =
      σ * Real.sqrt (heaviest mass) * (1 / 10 ^ 10) * (v (3 * j + y)).re / Real.sqrt (mass.getD (3 * j + y) 0) := by
    intro j hj y
    have hy := y.2
    have hb : sel.getD j 0 < u.cart.length := by
      rw [List.getD_eq_getElem _ _ hj]; exact hlt _ (List.getElem_mem _)
    have hmem : sel.getD j 0 ∈ sel := by rw [List.getD_eq_getElem _ _ hj]; exact List.getElem_mem _
    have hidx : sel.idxOf (sel.getD j 0) = j := by rw [List.getD_eq_getElem _ _ hj]; exact hnd.idxOf_getElem _ hj
    have hMp := hM (3 * j + y) (by omega)
    rw [hWdef, List.getD_eq_getElem?_getD, List.getElem?_mapIdx, List.getElem?_eq_getElem hb, List.getD_eq_getElem _ _ hb]
    simp only [Option.map_some, Option.getD_some, hmem, if_true, Pi.add_apply, Pi.smul_apply, smul_eq_mul, hidx]
    rw [Real.sqrt_div hMp.le]
    have := (Real.sqrt_pos.2 hMp).ne'
    have := (Real.sqrt_pos.2 hh).ne'
    field_simp
    ring
  have hmot := motion_re u sel hnd hlt 1 1 (fun _ => one_pos) (fun _ _ => rfl) 0 0 (fun i => by simp [hz]) (fun i _ => ⟨0, by simp⟩) Φ (fun _ _ _ _ _ _ i hi => absurd hi one_ne_zero)
    (fun i => mass.getD i 0) hM (fun i => (v i).re) (σ * Real.sqrt (heaviest mass) * (1 / 10 ^ 10)) (fun c y => (W.getD c 0 y - u.cart.getD c 0 y) * (1 / 10 ^ 10))
    (fun j hj kb hkb y => by
      rw [e1] at hkb ⊢
      obtain rfl : kb = 0 := by omega
      show _ = _
      simp only [mul_one, add_zero, hz, Real.cos_zero]
      exact hdisp j hj y)
    (fun b hb kb hkb y => by
      rw [e1] at hkb ⊢
      obtain rfl : kb = 0 := by omega
      show _ = _
      simp only [mul_one, add_zero]
      have : W.getD b 0 = u.cart.getD b 0 := by
        rw [hWdef, List.getD_eq_getElem?_getD, List.getElem?_mapIdx, List.getD_eq_getElem?_getD]
        cases u.cart[b]? with
        | none => simp
        | some r => simp [hb]
      rw [this]; simp) (sel.idxOf r) hj 0 (by rw [e1]; norm_num) x hr3
  have hg : sel.getD (sel.idxOf r) 0 = r := by rw [List.getD_eq_getElem _ _ hj, List.getElem_idxOf]
  rw [e1, hg] at hmot
  simp only [mul_one, add_zero, hz] at hmot
  have hd := hdisp _ hj x
  rw [hg] at hd
  refine ⟨hM _ hr3, hh, hmot.trans ?_, hd⟩
  simp only [Complex.ofReal_zero, mul_zero, neg_zero, Complex.exp_zero, mul_one]
  rw [← Complex.ofReal_mul, Complex.re_ofReal_mul]

/-- **C131, animation (exact condition).**  An image of the animation is displaced along a normal mode with `ω² = lam` of the crystal (all unit cells moving alike) exactly if it is the
structure at rest (the sine is zero) or the real part of the mode vector satisfies the eigenvalue equation at the zone centre. -/
theorem C131_animation_gamma_iff (u : Cell ℝ) (sel : List ℕ) (hnd : sel.Nodup) (hlt : ∀ t ∈ sel, t < u.cart.length) (Φ : Springs) (mass : List ℝ)
    (hlen : mass.length = 3 * sel.length) (hpos : ∀ m ∈ mass, 0 < m) (v : ℕ → ℂ) (lam : ℝ) (N t : ℕ) :
    AlongMode (superSprings 1 1 Φ) u (image u.cart sel mass N v t) sel lam (fun r x => mass.getD (3 * sel.idxOf r + x) 0) ↔
      Real.sin (2 * Real.pi * t / N) = 0 ∨ EigenMode u sel (fun i => mass.getD i 0) Φ 0 lam fun i => ((v i).re : ℂ) := by
  have key : ∀ r ∈ sel, ∀ x : Fin 3, ∀ hr3 : 3 * sel.idxOf r + (x : ℕ) < 3 * sel.length, ∀ F0 : Rows ℝ,
      (harmonicForces (superSprings 1 1 Φ) F0 u { u with cart := image u.cart sel mass N v t } r x =
        F0 r x - lam * mass.getD (3 * sel.idxOf r + x) 0 * (((image u.cart sel mass N v t).getD r 0 x - u.cart.getD r 0 x) * (1 / 10 ^ 10)) ↔
      Real.sin (2 * Real.pi * t / N) = 0 ∨ ∑ c : Fin (3 * sel.length), trueDyn u sel (fun i => mass.getD i 0) Φ 0 (3 * sel.length) ⟨3 * sel.idxOf r + x, hr3⟩ c * ((v c).re : ℂ) =
        lam * ((v (3 * sel.idxOf r + x)).re : ℂ)) := by
    intro r hr x hr3 F0
    obtain ⟨hMp, hh, hf, hd⟩ := image_force u sel hnd hlt Φ mass hlen hpos v N t r hr x hr3
    unfold harmonicForces
    rw [sub_right_inj]
    simp only at hf ⊢
    rw [hf, hd]
    have him : (∑ c : Fin (3 * sel.length), trueDyn u sel (fun i => mass.getD i 0) Φ 0 (3 * sel.length) ⟨3 * sel.idxOf r + x, hr3⟩ c * ((v c).re : ℂ)).im = 0 := by
      rw [Complex.im_sum]
      refine Finset.sum_eq_zero fun c _ => ?_
      rw [Complex.mul_im, trueDyn_gamma_real, Complex.ofReal_im]
      ring
    generalize ∑ c : Fin (3 * sel.length), trueDyn u sel (fun i => mass.getD i 0) Φ 0 (3 * sel.length) ⟨3 * sel.idxOf r + x, hr3⟩ c * ((v c).re : ℂ) = T at him ⊢
    have hs := Real.sqrt_pos.2 hMp
    have hsq := Real.mul_self_sqrt hMp.le
    have hhs := Real.sqrt_pos.2 hh
    generalize Real.sqrt (mass.getD (3 * sel.idxOf r + x) 0) = m at hs hsq ⊢
    rw [← hsq]
    generalize Real.sqrt (heaviest mass) = H at hhs ⊢
    generalize Real.sin (2 * Real.pi * t / N) = σ
    generalize (v (3 * sel.idxOf r + x)).re = w
    have e2 : T = lam * (w : ℂ) ↔ T.re = lam * w := by
      rw [← Complex.ofReal_mul, Complex.ext_iff, Complex.ofReal_re, Complex.ofReal_im]
      exact ⟨fun h => h.1, fun h => ⟨h, him⟩⟩
    rw [e2]
    have e3 : lam * (m * m) * (σ * H * (1 / 10 ^ 10) * w / m) = σ * H * (1 / 10 ^ 10) * m * (lam * w) := by field_simp
    rw [e3]
    constructor
    · intro h
      by_cases hσ : σ = 0
      · exact .inl hσ
      · right
        refine mul_left_cancel₀ (a := σ * H * (1 / 10 ^ 10) * m) ?_ h
        have := hs.ne'
        have := hhs.ne'
        positivity
    · rintro (h | h)
      · rw [h]; ring
      · rw [h]
  constructor
  · intro h
    by_cases hσ : Real.sin (2 * Real.pi * t / N) = 0
    · exact .inl hσ
    · refine .inr fun r => ?_
      have hj : (r : ℕ) / 3 < sel.length := by have := r.2; omega
      have hmem : sel.getD ((r : ℕ) / 3) 0 ∈ sel := by rw [List.getD_eq_getElem _ _ hj]; exact List.getElem_mem _
      have hidx : sel.idxOf (sel.getD ((r : ℕ) / 3) 0) = (r : ℕ) / 3 := by rw [List.getD_eq_getElem _ _ hj]; exact hnd.idxOf_getElem _ hj
      have hx : 3 * sel.idxOf (sel.getD ((r : ℕ) / 3) 0) + ((comp (r : ℕ) : Fin 3) : ℕ) = r := by
        rw [hidx]; simp only [comp]; omega
      have h1 := (key _ hmem (comp r) (by rw [hx]; exact r.2) 0).1 (h 0 _ hmem (comp r))
      have h2 := h1.resolve_left hσ
      simp only [hx] at h2
      exact h2
  · intro h F0 r hr x
    have hj := List.idxOf_lt_length_of_mem hr
    have hx := x.2
    refine (key r hr x (by omega) F0).2 ?_
    rcases h with h | h
    · exact .inl h
    · exact .inr (h ⟨3 * sel.idxOf r + x, by omega⟩)

/-- **C131, animation.**  At the zone centre every image of the animation is displaced along the normal mode of the crystal (all unit cells moving alike). -/
theorem C131_animation_gamma (u : Cell ℝ) (sel : List ℕ) (hnd : sel.Nodup) (hlt : ∀ t ∈ sel, t < u.cart.length) (Φ : Springs) (mass : List ℝ)
    (hlen : mass.length = 3 * sel.length) (hpos : ∀ m ∈ mass, 0 < m) (v : ℕ → ℂ) (lam : ℝ) (hv : EigenMode u sel (fun i => mass.getD i 0) Φ 0 lam v) (N : ℕ) :
    ∀ W ∈ animation u.cart sel mass N v, AlongMode (superSprings 1 1 Φ) u W sel lam (fun r x => mass.getD (3 * sel.idxOf r + x) 0) := by
  intro W hW
  obtain ⟨t, -, rfl⟩ := List.mem_map.1 hW
  exact (C131_animation_gamma_iff u sel hnd hlt Φ mass hlen hpos v lam N t).2 (.inr (mode_gamma_re u sel (fun i => mass.getD i 0) Φ lam v hv))

/-! ### The claim is false for complex modes -/

/-- **C131, full statement.** -/
def C131_full : Prop := ∀ (L : ℚ → ℚ) (junk : ℕ → List (V3 ℝ)) (u : Cell ℝ) (sel : List ℕ) (k : Fin 3 → ℚ) (p : Fin 3 → ℤ) (s : Cell ℝ) (M : ℕ → ℝ) (mass : List ℝ),
  ModeSetup L junk u sel k p s M mass → ∀ Φ : Springs, (∀ a x b y l, l ∈ (Φ a x b y).support → ∀ i, p i = 0 → l i = 0) → (∀ a x b y l, Φ a x b y l = Φ b y a x (-l)) →
  ∀ (amp lam : ℝ) (v : ℕ → ℂ), EigenMode u sel M Φ (qOf (fun i => (k i : ℝ)) (reciprocal u.lattice)) lam v →
    AlongMode (modeSprings L k p Φ) s (modeStructure L u s sel k p mass amp v) (selectedCopies (copies (commensurate L k p)) sel) lam
      (fun r x => M (3 * sel.idxOf (r / copies (commensurate L k p)) + x))

/-- A row of molecules with two atoms each. -/
def dimerCell : Cell ℝ where
  lattice := 1
  atomType := ["C".toList, "C".toList]
  numAtom := [2]
  selective := false
  coordinate := .direct
  cart := [0, ![1/2, 0, 0]]
  atomTrue := some [0, 1]
  xyzTrue := some [0, 0, 0, 1, 1, 1]

/-- Springs within the molecules, along the row. -/
def dimerSprings : Springs := fun a x b y => if x = 0 ∧ y = 0 ∧ a < 2 ∧ b < 2 then Finsupp.single 0 (if a = b then 1 else -1) else 0

theorem dimer_dyn (q : V3 ℝ) (r c : Fin 6) : trueDyn dimerCell [0, 1] (fun _ => 1) dimerSprings q 6 r c =
    if comp r = 0 ∧ comp c = 0 then (if (r : ℕ) / 3 = c / 3 then 1 else -exp (I * (dot3 q (dimerCell.cart.getD (r / 3) 0 - dimerCell.cart.getD (c / 3) 0) : ℝ))) else 0 := by
  have h01 : ∀ i : ℕ, i < 2 → [0, 1].getD i 0 = i := by
    intro i hi; interval_cases i <;> rfl
  have hr : (r : ℕ) / 3 < 2 := by have := r.2; omega
  have hc : (c : ℕ) / 3 < 2 := by have := c.2; omega
  rw [trueDyn, Matrix.of_apply, h01 _ hr, h01 _ hc]
  have hl : latVec dimerCell.lattice 0 = 0 := by funext j; simp [latVec]
  by_cases h0 : comp r = 0 ∧ comp c = 0
  · rw [if_pos h0]
    have : dimerSprings ((r : ℕ) / 3) (comp r) ((c : ℕ) / 3) (comp c) = Finsupp.single 0 (if (r : ℕ) / 3 = c / 3 then 1 else -1) := by
      unfold dimerSprings; rw [if_pos ⟨h0.1, h0.2, hr, hc⟩]
    rw [this, Finsupp.sum_single_index (by simp), hl, add_zero]
    split_ifs with h1
    · rw [h1]; simp [dot3]
    · simp
  · rw [if_neg h0]
    have : dimerSprings ((r : ℕ) / 3) (comp r) ((c : ℕ) / 3) (comp c) = 0 := by
      unfold dimerSprings; rw [if_neg]; rintro ⟨h1, h2, -⟩; exact h0 ⟨h1, h2⟩
    rw [this]; simp

theorem dimer_range (a : ℕ) (x : Fin 3) (b : ℕ) (y : Fin 3) (l : Fin 3 → ℤ) (hl : l ∈ (dimerSprings a x b y).support) : l = 0 := by
  unfold dimerSprings at hl
  split_ifs at hl with h h'
  · exact Finset.mem_singleton.1 (Finsupp.support_single_subset hl)
  · exact Finset.mem_singleton.1 (Finsupp.support_single_subset hl)
  · simp at hl

theorem dimer_symmetric (a : ℕ) (x : Fin 3) (b : ℕ) (y : Fin 3) (l : Fin 3 → ℤ) : dimerSprings a x b y l = dimerSprings b y a x (-l) := by
  have h1 : (x = 0 ∧ y = 0 ∧ a < 2 ∧ b < 2) ↔ (y = 0 ∧ x = 0 ∧ b < 2 ∧ a < 2) := by tauto
  unfold dimerSprings
  by_cases h : x = 0 ∧ y = 0 ∧ a < 2 ∧ b < 2
  · rw [if_pos h, if_pos (h1.1 h), Finsupp.single_apply, Finsupp.single_apply]
    simp only [eq_comm (a := a) (b := b), eq_comm (a := (0 : Fin 3 → ℤ)), neg_eq_zero]
  · rw [if_neg h, if_neg (fun h' => h (h1.2 h'))]; rfl

theorem dimer_setup (k : Fin 3 → ℚ) (hk : (k 0).den ≤ 100) :
    ∃ L s, ModeSetup L (fun m => List.replicate m 0) dimerCell [0, 1] k ![1, 0, 0] s (fun _ => 1) (List.replicate (3 * (2 * copies (commensurate L k ![1, 0, 0]))) 1) := by
  obtain ⟨L, hL⟩ := limitDen_exists
  obtain ⟨hg, s0, hs0⟩ := C56_supercell_built (L := L) (fun m => List.replicate m 0) (by simp) dimerCell rfl k ![1, 0, 0]
  refine ⟨L, _, hL, by simp, rfl, ?_, rfl, by simp, ?_, ?_, ⟨s0, hs0, rfl⟩, by simp, by simp, ?_⟩
  · show Matrix.det (1 : Matrix (Fin 3) (Fin 3) ℝ) ≠ 0
    rw [Matrix.det_one]; exact one_ne_zero
  · show ∀ t ∈ [0, 1], t < 2
    simp
  · intro i hi
    fin_cases i
    · exact hk
    · exact absurd rfl hi
    · exact absurd rfl hi
  · intro j hj c
    have hc := c.2
    have hj' : j < 2 * copies (commensurate L k ![1, 0, 0]) := hj
    rw [List.getD_eq_getElem _ _ (by rw [List.length_replicate]; omega)]
    simp

theorem dimer_q (k : Fin 3 → ℚ) : qOf (fun i => (k i : ℝ)) (reciprocal dimerCell.lattice) = fun i => 2 * Real.pi * k i := by
  funext i
  have h := qOf_lattice dimerCell.lattice (by show Matrix.det (1 : Matrix (Fin 3) (Fin 3) ℝ) ≠ 0; rw [Matrix.det_one]; exact one_ne_zero) (fun i => (k i : ℝ)) i
  have e : dot3 (qOf (fun i => (k i : ℝ)) (reciprocal dimerCell.lattice)) (dimerCell.lattice i) = qOf (fun i => (k i : ℝ)) (reciprocal dimerCell.lattice) i := by
    show dot3 _ ((1 : Matrix (Fin 3) (Fin 3) ℝ) i) = _
    fin_cases i <;> simp [dot3, Matrix.one_apply]
  rw [← e, h]

/-- The molecules moving as a whole, with the phases of the wave vector `(1/4, 0, 0)`. -/
def rigidMode : ℕ → ℂ := fun i => if i = 0 then 1 else if i = 3 then exp (((Real.pi / 4 : ℝ) : ℂ) * I) else 0

private theorem six_sum (f : Fin 6 → ℂ) : ∑ c, f c = f 0 + f 1 + f 2 + f 3 + f 4 + f 5 := Fin.sum_univ_six f

private theorem dimer_rows (q : V3 ℝ) (lam : ℝ) (v : ℕ → ℂ) (h1 : v 1 = 0) (h2 : v 2 = 0) (h4 : v 4 = 0) (h5 : v 5 = 0) :
    EigenMode dimerCell [0, 1] (fun _ => 1) dimerSprings q lam v ↔
      v 0 - exp (((-(q 0 / 2) : ℝ) : ℂ) * I) * v 3 = lam * v 0 ∧ v 3 - exp (((q 0 / 2 : ℝ) : ℂ) * I) * v 0 = lam * v 3 := by
  have d01 : dot3 q (dimerCell.cart.getD 0 0 - dimerCell.cart.getD 1 0) = -(q 0 / 2) := by
    show dot3 q ((0 : V3 ℝ) - ![1/2, 0, 0]) = _
    simp [dot3]; ring
  have d10 : dot3 q (dimerCell.cart.getD 1 0 - dimerCell.cart.getD 0 0) = q 0 / 2 := by
    show dot3 q (![1/2, 0, 0] - (0 : V3 ℝ)) = _
    simp [dot3]; ring
  have hrow : ∀ r : Fin 6, ∑ c : Fin 6, trueDyn dimerCell [0, 1] (fun _ => 1) dimerSprings q 6 r c * v c =
      if (r : ℕ) = 0 then v 0 - exp (((-(q 0 / 2) : ℝ) : ℂ) * I) * v 3 else if (r : ℕ) = 3 then v 3 - exp (((q 0 / 2 : ℝ) : ℂ) * I) * v 0 else 0 := by
    intro r
    rw [six_sum]
    simp only [dimer_dyn]
    show _ * v 0 + _ * v 1 + _ * v 2 + _ * v 3 + _ * v 4 + _ * v 5 = _
    rw [h1, h2, h4, h5]
    fin_cases r
    · simp [comp, -List.getD_eq_getElem?_getD, d01, mul_comm I]; ring
    · simp [comp]
    · simp [comp]
    · simp [comp, -List.getD_eq_getElem?_getD, d10, mul_comm I]; ring
    · simp [comp]
    · simp [comp]
  constructor
  · intro H
    have H0 := H (0 : Fin 6)
    have H3 := H (3 : Fin 6)
    rw [show ∑ c : Fin (3 * [0, 1].length), trueDyn dimerCell [0, 1] (fun _ => 1) dimerSprings q (3 * [0, 1].length) (0 : Fin 6) c * v c = _ from hrow 0] at H0
    rw [show ∑ c : Fin (3 * [0, 1].length), trueDyn dimerCell [0, 1] (fun _ => 1) dimerSprings q (3 * [0, 1].length) (3 : Fin 6) c * v c = _ from hrow 3] at H3
    exact ⟨by simpa using H0, by simpa using H3⟩
  · rintro ⟨H0, H3⟩ r
    refine (hrow r).trans ?_
    change Fin 6 at r
    fin_cases r
    · simpa using H0
    · simp [h1]
    · simp [h2]
    · simpa using H3
    · simp [h4]
    · simp [h5]

/-- **C131 is false of the code**: in a row of molecules the translation of the molecules costs no force, whatever the phases.  For the mode at `(1/4, 0, 0)` in which the molecules move as a whole, the
structure written has stretched molecules. -/
theorem C131_full_refuted : ¬ C131_full := by
  intro H
  obtain ⟨L, s, h⟩ := dimer_setup ![1/4, 0, 0] (by show (1/4 : ℚ).den ≤ 100; decide +kernel)
  have hq0 : qOf (fun i => ((![1/4, 0, 0] : Fin 3 → ℚ) i : ℝ)) (reciprocal dimerCell.lattice) 0 = Real.pi / 2 := by
    rw [dimer_q]; simp; ring
  have hmode : EigenMode dimerCell [0, 1] (fun _ => 1) dimerSprings (qOf (fun i => ((![1/4, 0, 0] : Fin 3 → ℚ) i : ℝ)) (reciprocal dimerCell.lattice)) 0 rigidMode := by
    rw [dimer_rows _ _ _ rfl rfl rfl rfl, hq0]
    have e : Real.pi / 2 / 2 = Real.pi / 4 := by ring
    rw [e]
    show (1 : ℂ) - _ * exp (((Real.pi / 4 : ℝ) : ℂ) * I) = _ ∧ exp (((Real.pi / 4 : ℝ) : ℂ) * I) - _ * 1 = _
    refine ⟨?_, by simp⟩
    rw [← Complex.exp_add]
    simp
  have hcl := H L _ _ _ _ _ s _ _ h dimerSprings (fun a x b y l hl i _ => by rw [dimer_range a x b y l hl]; rfl) dimer_symmetric 1 0 rigidMode hmode
  rw [C131_along_mode_iff h dimerSprings (fun a x b y l hl i _ => by rw [dimer_range a x b y l hl]; rfl) one_ne_zero rigidMode 0 0 (by simp) (by
    intro z hz
    have : (2 : ℚ) * (1/4) = z := hz
    have h2 : (z : ℚ) * 2 = 1 := by rw [← this]; norm_num
    have h3 : z * 2 = 1 := by exact_mod_cast h2
    omega), dimer_rows _ _ _ (by simp [rigidMode]) (by simp [rigidMode]) (by simp [rigidMode]) (by simp [rigidMode]), hq0] at hcl
  have h3 := congrArg Complex.im hcl.2
  simp only [rigidMode, if_true, Complex.one_re, Complex.ofReal_one, mul_one, Complex.sub_im, Complex.ofReal_im, Complex.exp_ofReal_mul_I_im, Complex.ofReal_zero, zero_mul, Complex.zero_im] at h3
  have e : Real.pi / 2 / 2 = Real.pi / 4 := by ring
  rw [e, Real.sin_pi_div_four] at h3
  have : (0 : ℝ) < Real.sqrt 2 / 2 := by positivity
  simp at h3

/-- Non-vacuity: at the zone centre the molecules vibrate against themselves with `ω² = 2`; the structure written and all images are displaced along this mode. -/
example : ∃ L s, AlongMode (modeSprings L 0 ![1, 0, 0] dimerSprings) s
    (modeStructure L dimerCell s [0, 1] 0 ![1, 0, 0] (List.replicate (3 * (2 * copies (commensurate L 0 ![1, 0, 0]))) 1) 3 fun i => if i = 0 then I else if i = 3 then -I else 0)
    (selectedCopies (copies (commensurate L 0 ![1, 0, 0])) [0, 1]) 2 fun _ _ => 1 := by
  obtain ⟨L, s, h⟩ := dimer_setup 0 (by show (0 : ℚ).den ≤ 100; decide +kernel)
  refine ⟨L, s, C131_gamma_partial h dimerSprings (fun a x b y l hl i _ => by rw [dimer_range a x b y l hl]; rfl) 3 _ 2 ?_⟩
  rw [dimer_rows _ _ _ (by simp) (by simp) (by simp) (by simp)]
  simp
  constructor <;> ring

/-- The same for the animation. -/
example : ∀ W ∈ animation dimerCell.cart [0, 1] (List.replicate 6 1) 30 (fun i => if i = 0 then 1 else if i = 3 then -1 else 0),
    AlongMode (superSprings 1 1 dimerSprings) dimerCell W [0, 1] 2 fun r x => (List.replicate 6 (1 : ℝ)).getD (3 * [0, 1].idxOf r + x) 0 := by
  refine C131_animation_gamma dimerCell [0, 1] (by simp) (by show ∀ t ∈ [0, 1], t < 2; simp) dimerSprings _ rfl (by simp) _ 2 ?_ 30
  have e : ∀ m, m ≤ 6 → trueDyn dimerCell [0, 1] (fun i => (List.replicate 6 (1 : ℝ)).getD i 0) dimerSprings 0 m = trueDyn dimerCell [0, 1] (fun _ => 1) dimerSprings 0 m := by
    intro m hm
    ext r c
    have h1 : ∀ i < 6, (List.replicate 6 (1 : ℝ)).getD i 0 = 1 := by intro i hi; interval_cases i <;> rfl
    simp only [trueDyn, Matrix.of_apply, h1 r (by omega), h1 c (by omega)]
  unfold EigenMode
  rw [e _ (by simp)]
  exact (dimer_rows 0 2 (fun i => if i = 0 then 1 else if i = 3 then -1 else 0) (by simp) (by simp) (by simp) (by simp)).2 (by simp; constructor <;> ring)

end

end Interphon.Props
