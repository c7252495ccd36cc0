import Verif.Spec.Machine
import Verif.Props.Stable
import Mathlib.Algebra.Order.Chebyshev

/-! # C132: rounding errors of the program's own arithmetic -/

namespace Interphon.Props
open Py Interphon Interphon.Phonon Interphon.PostProcess Interphon.PreProcess Interphon.SuperCell Interphon.ForceConstant Complex
open Interphon.Machine (Arith Rounds)

noncomputable section

/-! ### A calculus of errors -/

/-- The computed `x'` is `x` up to `a ε m`, where `m` bounds `|x|`. -/
structure Err (ε a m x' x : ℝ) : Prop where
  near : |x' - x| ≤ a * ε * m
  size : |x| ≤ m

theorem Err.exact {ε x m : ℝ} (h : |x| ≤ m) : Err ε 0 m x x := ⟨by simp, h⟩

theorem Err.pos {ε a m x' x : ℝ} (h : Err ε a m x' x) : 0 ≤ m := (abs_nonneg _).trans h.size

theorem Err.mono {ε a b m m' x' x : ℝ} (h : Err ε a m x' x) (hε : 0 ≤ ε) (ha : 0 ≤ a) (hab : a ≤ b) (hm : m ≤ m') : Err ε b m' x' x := by
  refine ⟨h.near.trans ?_, h.size.trans hm⟩
  exact mul_le_mul (mul_le_mul_of_nonneg_right hab hε) hm h.pos (mul_nonneg (ha.trans hab) hε)

theorem Err.bound {ε a m x' x : ℝ} (h : Err ε a m x' x) (h1 : a * ε ≤ 1) : |x'| ≤ 2 * m := by
  have hm := h.pos
  have := abs_add_le (x' - x) x
  rw [sub_add_cancel] at this
  have h2 := h.near
  have h3 := h.size
  nlinarith

theorem Err.neg {ε a m x' x : ℝ} (h : Err ε a m x' x) : Err ε a m (-x') (-x) := by
  refine ⟨?_, by rw [abs_neg]; exact h.size⟩
  rw [show -x' - -x = -(x' - x) by ring, abs_neg]; exact h.near

theorem abs_prod_sub {ε a b m n x' x y' y : ℝ} (hx : Err ε a m x' x) (hy : Err ε b n y' y) (hε : 0 ≤ ε) (ha : 0 ≤ a) (hb : 0 ≤ b) (h1 : a * ε ≤ 1) :
    |x' * y' - x * y| ≤ (a + 2 * b) * ε * (m * n) := by
  have e : x' * y' - x * y = (x' - x) * y + x' * (y' - y) := by ring
  rw [e]
  refine (abs_add_le _ _).trans ?_
  rw [abs_mul, abs_mul]
  have hm := hx.pos
  have hn := hy.pos
  have h2 := hx.bound h1
  have e1 : |x' - x| * |y| ≤ a * ε * m * n := mul_le_mul hx.near hy.size (abs_nonneg _) (by positivity)
  have e2 : |x'| * |y' - y| ≤ 2 * m * (b * ε * n) := mul_le_mul h2 hy.near (abs_nonneg _) (by positivity)
  calc _ ≤ _ := add_le_add e1 e2
    _ = _ := by ring

theorem Err.mul {ε a b m n x' x y' y : ℝ} {A : Arith} (hA : Rounds ε A) (hε : 0 ≤ ε) (hx : Err ε a m x' x) (hy : Err ε b n y' y) (ha : 0 ≤ a) (hb : 0 ≤ b)
    (h1 : a * ε ≤ 1) (h2 : b * ε ≤ 1) : Err ε (a + 2 * b + 4) (m * n) (A.mul x' y') (x * y) := by
  have hm := hx.pos
  have hn := hy.pos
  refine ⟨?_, by rw [abs_mul]; exact mul_le_mul hx.size hy.size (abs_nonneg _) hm⟩
  have e : A.mul x' y' - x * y = (A.mul x' y' - x' * y') + (x' * y' - x * y) := by ring
  rw [e]
  refine (abs_add_le _ _).trans ?_
  have e1 := hA.mul x' y'
  have e2 := abs_prod_sub hx hy hε ha hb h1
  have e3 : |x' * y'| ≤ (2 * m) * (2 * n) := by
    rw [abs_mul]
    exact mul_le_mul (hx.bound h1) (hy.bound h2) (abs_nonneg _) (by positivity)
  have e4 : ε * |x' * y'| ≤ ε * ((2 * m) * (2 * n)) := mul_le_mul_of_nonneg_left e3 hε
  calc _ ≤ ε * ((2 * m) * (2 * n)) + (a + 2 * b) * ε * (m * n) := add_le_add (e1.trans e4) e2
    _ = _ := by ring

theorem Err.add {ε a b c m n x' x y' y : ℝ} {A : Arith} (hA : Rounds ε A) (hε : 0 ≤ ε) (hx : Err ε a m x' x) (hy : Err ε b n y' y) (ha : 0 ≤ a) (hac : a ≤ c)
    (hb : 0 ≤ b) (hbc : b ≤ c) (h1 : c * ε ≤ 1) : Err ε (c + 2) (m + n) (A.add x' y') (x + y) := by
  have hx' := hx.mono hε ha hac le_rfl
  have hy' := hy.mono hε hb hbc le_rfl
  refine ⟨?_, (abs_add_le _ _).trans (add_le_add hx.size hy.size)⟩
  have e : A.add x' y' - (x + y) = (A.add x' y' - (x' + y')) + ((x' - x) + (y' - y)) := by ring
  rw [e]
  refine (abs_add_le _ _).trans ?_
  have e1 := hA.add x' y'
  have e3 : |x' + y'| ≤ 2 * m + 2 * n := (abs_add_le _ _).trans (add_le_add (hx'.bound h1) (hy'.bound h1))
  have e4 : ε * |x' + y'| ≤ ε * (2 * m + 2 * n) := mul_le_mul_of_nonneg_left e3 hε
  calc _ ≤ ε * (2 * m + 2 * n) + (c * ε * m + c * ε * n) := add_le_add (e1.trans e4) ((abs_add_le _ _).trans (add_le_add hx'.near hy'.near))
    _ = _ := by ring

theorem Err.sub {ε a b c m n x' x y' y : ℝ} {A : Arith} (hA : Rounds ε A) (hε : 0 ≤ ε) (hx : Err ε a m x' x) (hy : Err ε b n y' y) (ha : 0 ≤ a) (hac : a ≤ c)
    (hb : 0 ≤ b) (hbc : b ≤ c) (h1 : c * ε ≤ 1) : Err ε (c + 2) (m + n) (A.sub x' y') (x - y) := by
  have hx' := hx.mono hε ha hac le_rfl
  have hy' := hy.mono hε hb hbc le_rfl
  refine ⟨?_, (abs_sub _ _).trans (add_le_add hx.size hy.size)⟩
  have e : A.sub x' y' - (x - y) = (A.sub x' y' - (x' - y')) + ((x' - x) - (y' - y)) := by ring
  rw [e]
  refine (abs_add_le _ _).trans ?_
  have e1 := hA.sub x' y'
  have e3 : |x' - y'| ≤ 2 * m + 2 * n := (abs_sub _ _).trans (add_le_add (hx'.bound h1) (hy'.bound h1))
  have e4 : ε * |x' - y'| ≤ ε * (2 * m + 2 * n) := mul_le_mul_of_nonneg_left e3 hε
  calc _ ≤ ε * (2 * m + 2 * n) + (c * ε * m + c * ε * n) := add_le_add (e1.trans e4) ((abs_sub _ _).trans (add_le_add hx'.near hy'.near))
    _ = _ := by ring

/-- Quotient by a number of size at least `g`. -/
theorem Err.div {ε a b m n g x' x y' y : ℝ} {A : Arith} (hA : Rounds ε A) (hε : 0 ≤ ε) (hx : Err ε a m x' x) (hy : Err ε b n y' y) (ha : 0 ≤ a) (hb : 0 ≤ b)
    (h1 : a * ε ≤ 1) (hg : 0 < g) (hyg : g ≤ |y|) (h2 : 2 * b * (n / g) * ε ≤ 1) :
    Err ε (2 * a + 2 * b * (n / g) + 4) (m / g) (A.div x' y') (x / y) := by
  have hm := hx.pos
  have hn := hy.pos
  have hd : |y' - y| ≤ g / 2 := by
    refine hy.near.trans ?_
    have : b * ε * n = (2 * b * (n / g) * ε) * (g / 2) := by field_simp
    rw [this]
    nlinarith
  have hy' : g / 2 ≤ |y'| := by
    have := abs_sub_abs_le_abs_sub y y'
    rw [abs_sub_comm y y'] at this
    linarith
  have y0 : y ≠ 0 := by intro h0; rw [h0, abs_zero] at hyg; linarith
  have y0' : y' ≠ 0 := by intro h0; rw [h0, abs_zero] at hy'; linarith
  have ypos : 0 < |y| := abs_pos.2 y0
  have ypos' : 0 < |y'| := abs_pos.2 y0'
  refine ⟨?_, ?_⟩
  · have e : A.div x' y' - x / y = (A.div x' y' - x' / y') + ((x' - x) / y' + x * (y - y') / (y' * y)) := by field_simp; ring
    rw [e]
    refine (abs_add_le _ _).trans ?_
    have e1 := hA.div x' y' y0'
    have e3 : |x' / y'| ≤ 4 * (m / g) := by
      rw [abs_div, div_le_iff₀ ypos']
      calc |x'| ≤ 2 * m := hx.bound h1
        _ = 4 * (m / g) * (g / 2) := by field_simp; ring
        _ ≤ _ := by gcongr
    have e4 : |(x' - x) / y'| ≤ 2 * a * ε * (m / g) := by
      rw [abs_div, div_le_iff₀ ypos']
      calc |x' - x| ≤ a * ε * m := hx.near
        _ = 2 * a * ε * (m / g) * (g / 2) := by field_simp
        _ ≤ _ := by gcongr
    have e5 : |x * (y - y') / (y' * y)| ≤ 2 * b * (n / g) * ε * (m / g) := by
      rw [abs_div, abs_mul, abs_mul, div_le_iff₀ (by positivity), abs_sub_comm]
      calc |x| * |y' - y| ≤ m * (b * ε * n) := mul_le_mul hx.size hy.near (abs_nonneg _) hm
        _ = 2 * b * (n / g) * ε * (m / g) * ((g / 2) * g) := by field_simp
        _ ≤ _ := by gcongr
    calc _ ≤ ε * (4 * (m / g)) + (2 * a * ε * (m / g) + 2 * b * (n / g) * ε * (m / g)) :=
          add_le_add (e1.trans (mul_le_mul_of_nonneg_left e3 hε)) ((abs_add_le _ _).trans (add_le_add e4 e5))
      _ = _ := by ring
  · rw [abs_div]
    exact div_le_div₀ hm hx.size hg hyg

theorem Err.sqrt {ε a x' x : ℝ} {A : Arith} (hA : Rounds ε A) (hε : 0 ≤ ε) (hx : Err ε a x x' x) (ha : 0 ≤ a) (h1 : a * ε ≤ 1) (h0 : 0 < x) :
    Err ε (a + 2) (Real.sqrt x) (A.sqrt x') (Real.sqrt x) := by
  refine ⟨?_, by rw [abs_of_nonneg (Real.sqrt_nonneg _)]⟩
  have hnear := hx.near
  have hx' : 0 ≤ x' := by
    have := (abs_le.1 hnear).1
    nlinarith
  have hle : x' ≤ 2 * x := by
    have := hx.bound h1
    rwa [abs_of_nonneg hx'] at this
  have hs : 0 < Real.sqrt x := Real.sqrt_pos.2 h0
  have e : A.sqrt x' - Real.sqrt x = (A.sqrt x' - Real.sqrt x') + (Real.sqrt x' - Real.sqrt x) := by ring
  rw [e]
  refine (abs_add_le _ _).trans ?_
  have e1 := hA.sqrt x' hx'
  have e2 : Real.sqrt x' ≤ 2 * Real.sqrt x := by
    rw [show (2 : ℝ) * Real.sqrt x = Real.sqrt (4 * x) by rw [Real.sqrt_mul (by norm_num), show (4 : ℝ) = 2 ^ 2 by norm_num, Real.sqrt_sq (by norm_num)]]
    exact Real.sqrt_le_sqrt (by linarith)
  have e3 : |Real.sqrt x' - Real.sqrt x| ≤ a * ε * Real.sqrt x := by
    have hp : Real.sqrt x' - Real.sqrt x = (x' - x) / (Real.sqrt x' + Real.sqrt x) := by
      rw [eq_div_iff (by have := Real.sqrt_nonneg x'; positivity)]
      have s1 := Real.mul_self_sqrt hx'
      have s2 := Real.mul_self_sqrt h0.le
      ring_nf
      rw [Real.sq_sqrt hx', Real.sq_sqrt h0.le]
    rw [hp, abs_div, div_le_iff₀ (abs_pos.2 (by have := Real.sqrt_nonneg x'; positivity))]
    refine hnear.trans ?_
    rw [abs_of_nonneg (by positivity)]
    have s2 := Real.mul_self_sqrt h0.le
    calc a * ε * x = a * ε * (Real.sqrt x * Real.sqrt x) := by rw [s2]
      _ = a * ε * Real.sqrt x * Real.sqrt x := by ring
      _ ≤ _ := by
        have := Real.sqrt_nonneg x'
        gcongr
        linarith
  calc _ ≤ ε * (2 * Real.sqrt x) + a * ε * Real.sqrt x := add_le_add (e1.trans (mul_le_mul_of_nonneg_left e2 hε)) e3
    _ = _ := by ring

theorem Err.dot {ε a b m n : ℝ} {x' x y' y : V3 ℝ} {A : Arith} (hA : Rounds ε A) (hε : 0 ≤ ε) (hx : ∀ i, Err ε a m (x' i) (x i)) (hy : ∀ i, Err ε b n (y' i) (y i))
    (ha : 0 ≤ a) (hb : 0 ≤ b) (h1 : a * ε ≤ 1) (h2 : b * ε ≤ 1) : Err ε (a + 2 * b + 16) (3 * (m * n)) (A.dot x' y') (dot3 x y) := by
  have hm := (hx 0).pos
  have hn := (hy 0).pos
  have hp : ∀ i, |x' i * y' i| ≤ 4 * (m * n) := by
    intro i
    rw [abs_mul]
    calc _ ≤ (2 * m) * (2 * n) := mul_le_mul ((hx i).bound h1) ((hy i).bound h2) (abs_nonneg _) (by positivity)
      _ = _ := by ring
  have hq : ∀ i, |x i * y i| ≤ m * n := fun i => by rw [abs_mul]; exact mul_le_mul (hx i).size (hy i).size (abs_nonneg _) hm
  have hd := fun i => abs_prod_sub (hx i) (hy i) hε ha hb h1
  refine ⟨?_, ?_⟩
  · have e : A.dot x' y' - dot3 x y = (A.dot x' y' - (x' 0 * y' 0 + x' 1 * y' 1 + x' 2 * y' 2)) +
        ((x' 0 * y' 0 - x 0 * y 0) + (x' 1 * y' 1 - x 1 * y 1) + (x' 2 * y' 2 - x 2 * y 2)) := by unfold dot3; ring
    rw [e]
    refine (abs_add_le _ _).trans ?_
    have e1 := hA.dot x' y'
    have e2 : 4 * ε * (|x' 0 * y' 0| + |x' 1 * y' 1| + |x' 2 * y' 2|) ≤ 4 * ε * (4 * (m * n) + 4 * (m * n) + 4 * (m * n)) := by
      have := hp 0; have := hp 1; have := hp 2
      gcongr
    have e3 := (abs_add_three (x' 0 * y' 0 - x 0 * y 0) (x' 1 * y' 1 - x 1 * y 1) (x' 2 * y' 2 - x 2 * y 2)).trans
      (add_le_add (add_le_add (hd 0) (hd 1)) (hd 2))
    calc _ ≤ _ := add_le_add (e1.trans e2) e3
      _ = _ := by ring
  · unfold dot3
    refine (abs_add_three _ _ _).trans ?_
    have := hq 0; have := hq 1; have := hq 2
    linarith

/-! ### Reciprocal lattice and wave vector -/

theorem cross_err {ε ℓ : ℝ} {a' a b' b : V3 ℝ} {A : Arith} (hA : Rounds ε A) (hε : 0 ≤ ε) (h9 : 9 * ε ≤ 1) (ha : ∀ i, Err ε 1 ℓ (a' i) (a i))
    (hb : ∀ i, Err ε 1 ℓ (b' i) (b i)) (j : Fin 3) : Err ε 9 (2 * ℓ ^ 2) (Machine.cross A a' b' j) (cross3 a b j) := by
  have h1 : (1 : ℝ) * ε ≤ 1 := by linarith
  have key : ∀ p q r s : Fin 3, Err ε 9 (2 * ℓ ^ 2) (A.sub (A.mul (a' p) (b' q)) (A.mul (a' r) (b' s))) (a p * b q - a r * b s) := by
    intro p q r s
    have := Err.sub hA hε (c := 7) (Err.mul hA hε (ha p) (hb q) zero_le_one zero_le_one h1 h1) (Err.mul hA hε (ha r) (hb s) zero_le_one zero_le_one h1 h1)
      (by norm_num) (by norm_num) (by norm_num) (by norm_num) (by linarith)
    convert this using 1 <;> ring
  fin_cases j
  · exact key 1 2 2 1
  · exact key 2 0 0 2
  · exact key 0 1 1 0

/-- Twice the machine's `π`. -/
theorem twoPi_err {ε : ℝ} {A : Arith} (hA : Rounds ε A) (hε : 0 ≤ ε) (h1 : ε ≤ 1) : Err ε 6 (2 * Real.pi) (A.mul 2 A.pi) (2 * Real.pi) := by
  have hp : Err ε 1 Real.pi A.pi Real.pi := ⟨by rw [one_mul]; exact hA.pi, by rw [abs_of_pos Real.pi_pos]⟩
  have := Err.mul hA hε (Err.exact (ε := ε) (x := 2) (m := 2) (by norm_num)) hp le_rfl zero_le_one (by linarith) (by linarith)
  convert this using 1; norm_num

/-- The volume of the cell, with its sign. -/
def volume (L : M3 ℝ) : ℝ := dot3 (L 0) (cross3 (L 1) (L 2))

theorem volume_le {L : M3 ℝ} {ℓ : ℝ} (h : ∀ i j, |L i j| ≤ ℓ) : |volume L| ≤ 6 * ℓ ^ 3 := by
  have hl : 0 ≤ ℓ := (abs_nonneg _).trans (h 0 0)
  have h2 : ∀ i j k l m n : Fin 3, |L i j * (L k l * L m n)| ≤ ℓ ^ 3 := by
    intro i j k l m n
    rw [abs_mul, abs_mul]
    calc _ ≤ ℓ * (ℓ * ℓ) := mul_le_mul (h _ _) (mul_le_mul (h _ _) (h _ _) (abs_nonneg _) hl) (by positivity) hl
      _ = _ := by ring
  have e : volume L = L 0 0 * (L 1 1 * L 2 2) - L 0 0 * (L 1 2 * L 2 1) + (L 0 1 * (L 1 2 * L 2 0) - L 0 1 * (L 1 0 * L 2 2)) +
      (L 0 2 * (L 1 0 * L 2 1) - L 0 2 * (L 1 1 * L 2 0)) := by
    simp only [volume, dot3, cross3, Matrix.cons_val_zero, Matrix.cons_val_one, Matrix.cons_val]; ring
  rw [e]
  refine (abs_add_three _ _ _).trans ?_
  have t := fun a b c d e f g h i j k l => (abs_sub (L a b * (L c d * L e f)) (L g h * (L i j * L k l))).trans (add_le_add (h2 a b c d e f) (h2 g h i j k l))
  have t1 := t 0 0 1 1 2 2 0 0 1 2 2 1
  have t2 := t 0 1 1 2 2 0 0 1 1 0 2 2
  have t3 := t 0 2 1 0 2 1 0 2 1 1 2 0
  linarith

/-- How flat the cell is: `6 ℓ³ / |V|`, where `ℓ` bounds the entries of the lattice. -/
def flatness (L : M3 ℝ) (ℓ : ℝ) : ℝ := 6 * ℓ ^ 3 / |volume L|

/-- Bound of the entries of the reciprocal lattice. -/
def recipSize (L : M3 ℝ) (ℓ : ℝ) : ℝ := 4 * Real.pi * ℓ ^ 2 / |volume L|

theorem one_le_flatness {L : M3 ℝ} {ℓ : ℝ} (h : ∀ i j, |L i j| ≤ ℓ) (hV : volume L ≠ 0) : 1 ≤ flatness L ℓ := by
  unfold flatness
  rw [le_div_iff₀ (abs_pos.2 hV), one_mul]
  exact volume_le h

theorem recip_err {ε ℓ : ℝ} {L' L : M3 ℝ} {A : Arith} (hA : Rounds ε A) (hε : 0 ≤ ε) (hL : ∀ i j, Err ε 1 ℓ (L' i j) (L i j)) (hV : volume L ≠ 0)
    (hc : 70 * flatness L ℓ * ε ≤ 1) (i j : Fin 3) :
    Err ε (130 * flatness L ℓ) (recipSize L ℓ) (Machine.reciprocal A L' i j) (reciprocal L i j) := by
  have hκ := one_le_flatness (fun i j => (hL i j).size) hV
  have h70 : 70 * ε ≤ 1 := by nlinarith
  have h1 : (1 : ℝ) * ε ≤ 1 := by linarith
  have hcr := fun a b j => cross_err hA hε (by linarith) (hL a) (hL b) j
  have hvol : Err ε 35 (6 * ℓ ^ 3) (A.dot (L' 0) (Machine.cross A (L' 1) (L' 2))) (volume L) := by
    have := Err.dot hA hε (hL 0) (hcr 1 2) zero_le_one (by norm_num) h1 (by linarith)
    rw [show (1 + 2 * 9 + 16 : ℝ) = 35 by norm_num, show 3 * (ℓ * (2 * ℓ ^ 2)) = 6 * ℓ ^ 3 by ring] at this
    exact this
  have hnum := Err.mul hA hε (twoPi_err hA hε (by linarith)) (hcr (i + 1) (i + 2) j) (by norm_num) (by norm_num) (by linarith) (by linarith)
  have hV' := abs_pos.2 hV
  have := Err.div hA hε hnum hvol (by norm_num) (by norm_num) (by linarith) hV' le_rfl (by
    show 2 * 35 * flatness L ℓ * ε ≤ 1
    linarith)
  have hs : 2 * Real.pi * (2 * ℓ ^ 2) / |volume L| = recipSize L ℓ := by unfold recipSize; ring
  rw [hs] at this
  refine this.mono hε ?_ ?_ le_rfl
  · show 0 ≤ 2 * (6 + 2 * 9 + 4) + 2 * 35 * flatness L ℓ + 4
    linarith
  · show 2 * (6 + 2 * 9 + 4) + 2 * 35 * flatness L ℓ + 4 ≤ _
    linarith

theorem wave_err {ε ℓ k0 : ℝ} {D' D : PhononData} {L' L : M3 ℝ} {k' k : V3 ℝ} {A : Arith} (hA : Rounds ε A) (hε : 0 ≤ ε) (hL : ∀ i j, Err ε 1 ℓ (L' i j) (L i j))
    (hV : volume L ≠ 0) (hr' : D'.recip = Machine.reciprocal A L') (hr : D.recip = reciprocal L) (hk : ∀ i, Err ε 1 k0 (k' i) (k i))
    (hc : 130 * flatness L ℓ * ε ≤ 1) (j : Fin 3) :
    Err ε (277 * flatness L ℓ) (3 * (k0 * recipSize L ℓ)) (Machine.qVec A D' k' j) (qVec D k j) := by
  have hκ := one_le_flatness (fun i j => (hL i j).size) hV
  have h70 : 70 * ε ≤ 1 := by nlinarith
  have hrec := recip_err hA hε hL hV (by nlinarith)
  have := Err.dot hA hε hk (fun i => hrec i j) zero_le_one (by linarith) (by linarith) hc
  have e1 : Machine.qVec A D' k' j = A.dot k' fun i => Machine.reciprocal A L' i j := by unfold Machine.qVec; rw [hr']
  have e2 : qVec D k j = dot3 k fun i => reciprocal L i j := by unfold qVec dot3; rw [hr]
  rw [e1, e2]
  exact this.mono hε (by linarith) (by linarith) le_rfl

/-! ### Separation vectors -/

/-- The exact shift of an image. -/
def shiftBy (S : M3 ℝ) (terms : List (ℤ × Fin 3)) : V3 ℝ := fun j => (terms.map fun t => (t.1 : ℝ) * S t.2 j).sum

theorem shifted_err {ε R : ℝ} {S' S : M3 ℝ} {A : Arith} (hA : Rounds ε A) (hε : 0 ≤ ε) (hS : ∀ i j, Err ε 1 R (S' i j) (S i j)) :
    ∀ (terms : List (ℤ × Fin 3)), (∀ t ∈ terms, |(t.1 : ℝ)| ≤ 1) → ∀ (a M : ℝ) (p' p : V3 ℝ), 6 ≤ a → (a + 2 * terms.length) * ε ≤ 1 →
      (∀ j, Err ε a M (p' j) (p j)) → ∀ j, Err ε (a + 2 * terms.length) (M + terms.length * R) (Machine.shifted A S' p' terms j) (p j + shiftBy S terms j)
  | [], _, a, M, p', p, _, _, h, j => by simpa [Machine.shifted, shiftBy] using h j
  | t :: rest, ht, a, M, p', p, ha, hc, h, j => by
    have hlen : ((t :: rest).length : ℝ) = rest.length + 1 := by simp
    rw [hlen] at hc ⊢
    have hn : (0 : ℝ) ≤ rest.length := Nat.cast_nonneg _
    have haε : a * ε ≤ 1 := by nlinarith
    have h1 : (1 : ℝ) * ε ≤ 1 := by nlinarith
    have hstep : ∀ j, Err ε (a + 2) (M + R) (A.add (p' j) (A.mul (t.1 : ℝ) (S' t.2 j))) (p j + (t.1 : ℝ) * S t.2 j) := by
      intro j
      have hm := Err.mul hA hε (Err.exact (ε := ε) (m := 1) (ht t (by simp))) (hS t.2 j) le_rfl zero_le_one (by linarith) h1
      have := Err.add hA hε (c := a) (h j) hm (by linarith) le_rfl (by norm_num) (by linarith) haε
      rwa [one_mul] at this
    have := shifted_err hA hε hS rest (fun t' h' => ht t' (List.mem_cons_of_mem _ h')) (a + 2) (M + R) _ _ (by linarith) (by
      calc _ = (a + 2 * ((rest.length : ℝ) + 1)) * ε := by ring
        _ ≤ 1 := hc) hstep j
    have e1 : Machine.shifted A S' p' (t :: rest) = Machine.shifted A S' (fun j => A.add (p' j) (A.mul (t.1 : ℝ) (S' t.2 j))) rest := rfl
    have e2 : p j + shiftBy S (t :: rest) j = p j + (t.1 : ℝ) * S t.2 j + shiftBy S rest j := by simp only [shiftBy, List.map_cons, List.sum_cons]; ring
    rw [e1, e2]
    have e3 : a + 2 + 2 * (rest.length : ℝ) = a + 2 * (rest.length + 1) := by ring
    have e4 : M + R + (rest.length : ℝ) * R = M + (rest.length + 1) * R := by ring
    rwa [e3, e4] at this

theorem periodic_add {S : M3 ℝ} {pbc : List (Fin 3)} {v w : V3 ℝ} (hv : IsPeriodicShift S pbc v) (hw : IsPeriodicShift S pbc w) :
    IsPeriodicShift S pbc (v + w) := by
  obtain ⟨z, hz, rfl⟩ := hv
  obtain ⟨y, hy, rfl⟩ := hw
  refine ⟨z + y, fun i hi => by simp [hz i hi, hy i hi], ?_⟩
  funext j
  simp [Finset.sum_add_distrib, add_mul]

theorem periodic_zero (S : M3 ℝ) (pbc : List (Fin 3)) : IsPeriodicShift S pbc 0 := ⟨0, fun _ _ => rfl, by funext j; simp⟩

theorem shiftBy_periodic (S : M3 ℝ) (pbc : List (Fin 3)) : ∀ terms : List (ℤ × Fin 3), (∀ t ∈ terms, t.2 ∈ pbc) → IsPeriodicShift S pbc (shiftBy S terms)
  | [], _ => periodic_zero S pbc
  | t :: rest, h => by
    have e : shiftBy S (t :: rest) = (fun j => (t.1 : ℝ) * S t.2 j) + shiftBy S rest := by
      funext j; simp only [shiftBy, List.map_cons, List.sum_cons, Pi.add_apply]
    rw [e]
    refine periodic_add ⟨fun i => if i = t.2 then t.1 else 0, ?_, ?_⟩ (shiftBy_periodic S pbc rest fun t' h' => h t' (List.mem_cons_of_mem _ h'))
    · intro i hi
      have : i ≠ t.2 := by
        rintro rfl
        exact hi (h t (by simp))
      simp [this]
    · funext j
      rw [Finset.sum_eq_single t.2]
      · simp
      · intro i _ hi; simp [hi]
      · simp

theorem imageTerms_spec (pbc : List (Fin 3)) : (Machine.imageTerms pbc).length ≤ 27 ∧
    ∀ terms ∈ Machine.imageTerms pbc, terms.length ≤ 3 ∧ ∀ t ∈ terms, |(t.1 : ℝ)| ≤ 1 ∧ t.2 ∈ pbc := by
  have hst : ∀ i ∈ steps, |((i : ℤ) : ℝ)| ≤ 1 := by
    intro i hi
    simp only [steps, List.mem_cons, List.not_mem_nil, or_false] at hi
    rcases hi with rfl | rfl | rfl <;> norm_num
  match pbc with
  | [] => simp [Machine.imageTerms]
  | [a] =>
    refine ⟨by simp [Machine.imageTerms, steps], ?_⟩
    intro terms ht
    simp only [Machine.imageTerms, List.mem_map] at ht
    obtain ⟨i, hi, rfl⟩ := ht
    refine ⟨by simp, ?_⟩
    intro t ht
    simp only [List.mem_singleton] at ht
    subst ht
    exact ⟨hst i hi, by simp⟩
  | [a, b] =>
    refine ⟨by simp [Machine.imageTerms, steps], ?_⟩
    intro terms ht
    simp only [Machine.imageTerms, List.mem_flatMap, List.mem_map] at ht
    obtain ⟨i, hi, k, hk, rfl⟩ := ht
    refine ⟨by simp, ?_⟩
    intro t ht
    simp only [List.mem_cons, List.not_mem_nil, or_false] at ht
    rcases ht with rfl | rfl
    · exact ⟨hst i hi, by simp⟩
    · exact ⟨hst k hk, by simp⟩
  | [a, b, c] =>
    refine ⟨by simp [Machine.imageTerms, steps], ?_⟩
    intro terms ht
    simp only [Machine.imageTerms, List.mem_flatMap, List.mem_map] at ht
    obtain ⟨i, hi, k, hk, l, hl, rfl⟩ := ht
    refine ⟨by simp, ?_⟩
    intro t ht
    simp only [List.mem_cons, List.not_mem_nil, or_false] at ht
    rcases ht with rfl | rfl | rfl
    · exact ⟨hst i hi, by simp⟩
    · exact ⟨hst k hk, by simp⟩
    · exact ⟨hst l hl, by simp⟩
  | _ :: _ :: _ :: _ :: _ => simp [Machine.imageTerms]

/-- Whatever the comparisons decide, the computed vector is near *some* periodic image of the exact one. -/
theorem images_err {ε R : ℝ} {S' S : M3 ℝ} {pbc : List (Fin 3)} {A : Arith} (hA : Rounds ε A) (hε : 0 ≤ ε) (hS : ∀ i j, Err ε 1 R (S' i j) (S i j)) (hR : 0 ≤ R) :
    ∀ (l : List (List (ℤ × Fin 3))), (∀ terms ∈ l, terms.length ≤ 3 ∧ ∀ t ∈ terms, |(t.1 : ℝ)| ≤ 1 ∧ t.2 ∈ pbc) → ∀ (a M : ℝ) (p' p : V3 ℝ), 6 ≤ a →
      (a + 6 * l.length) * ε ≤ 1 → (∀ j, Err ε a M (p' j) (p j)) →
      ∃ w, IsPeriodicShift S pbc w ∧ ∀ j, Err ε (a + 6 * l.length) (M + 3 * l.length * R) (l.foldl (Machine.imageStep A S') p' j) (p j + w j)
  | [], _, a, M, p', p, _, _, h => ⟨0, periodic_zero S pbc, fun j => by simpa using h j⟩
  | terms :: rest, ht, a, M, p', p, ha, hc, h => by
    have hlen : ((terms :: rest).length : ℝ) = rest.length + 1 := by simp
    rw [hlen] at hc ⊢
    have hn : (0 : ℝ) ≤ rest.length := Nat.cast_nonneg _
    obtain ⟨h3, h4⟩ := ht terms (by simp)
    have h3' : (terms.length : ℝ) ≤ 3 := by exact_mod_cast h3
    have hM := (h 0).pos
    have hstep : ∃ w, IsPeriodicShift S pbc w ∧ ∀ j, Err ε (a + 6) (M + 3 * R) (Machine.imageStep A S' p' terms j) (p j + w j) := by
      unfold Machine.imageStep
      by_cases hcmp : A.dot (Machine.shifted A S' p' terms) (Machine.shifted A S' p' terms) < A.dot p' p'
      · rw [if_pos hcmp]
        refine ⟨shiftBy S terms, shiftBy_periodic S pbc terms fun t h' => (h4 t h').2, fun j => ?_⟩
        refine (shifted_err hA hε hS terms (fun t h' => (h4 t h').1) a M p' p ha (by nlinarith) h j).mono hε (by positivity) (by linarith) ?_
        gcongr
      · rw [if_neg hcmp]
        refine ⟨0, periodic_zero S pbc, fun j => ?_⟩
        have := (h j).mono hε (by linarith) (by linarith : a ≤ a + 6) (by linarith [mul_nonneg (by norm_num : (0 : ℝ) ≤ 3) hR] : M ≤ M + 3 * R)
        simpa using this
    obtain ⟨w, hw, hp⟩ := hstep
    obtain ⟨v, hv, hp2⟩ := images_err hA hε hS hR rest (fun t h' => ht t (List.mem_cons_of_mem _ h')) (a + 6) (M + 3 * R) _ _ (by linarith) (by
      calc _ = (a + 6 * ((rest.length : ℝ) + 1)) * ε := by ring
        _ ≤ 1 := hc) hp
    refine ⟨w + v, periodic_add hw hv, fun j => ?_⟩
    have := hp2 j
    rw [List.foldl_cons, Pi.add_apply, ← add_assoc]
    convert this using 1 <;> ring

theorem posVector_err {ε R : ℝ} {D' D : PhononData} {A : Arith} (hA : Rounds ε A) (hε : 0 ≤ ε) (hpbc : D'.pbc = D.pbc)
    (hS : ∀ i j, Err ε 1 R (D'.superLat i j) (D.superLat i j)) (s u : ℕ) (hs : ∀ j, Err ε 1 R (D'.superCart s j) (D.superCart s j))
    (hu : ∀ j, Err ε 1 R (D'.unitCart u j) (D.unitCart u j)) (hc : 168 * ε ≤ 1) :
    ∃ w, IsPeriodicShift D.superLat D.pbc w ∧ ∀ j, Err ε 168 (83 * R) (Machine.posVector A D' s u j) ((D.superCart s - D.unitCart u) j + w j) := by
  obtain ⟨h27, hterms⟩ := imageTerms_spec D.pbc
  have h27' : ((Machine.imageTerms D.pbc).length : ℝ) ≤ 27 := by exact_mod_cast h27
  have hR := (hS 0 0).pos
  have h0 : ∀ j, Err ε 6 (2 * R) (A.sub (D'.superCart s j) (D'.unitCart u j)) ((D.superCart s - D.unitCart u) j) := by
    intro j
    have := Err.sub hA hε (c := 1) (hs j) (hu j) zero_le_one le_rfl zero_le_one le_rfl (by linarith)
    refine this.mono hε (by norm_num) (by norm_num) (by linarith)
  obtain ⟨w, hw, h⟩ := images_err hA hε hS hR (Machine.imageTerms D.pbc) hterms 6 (2 * R) _ _ le_rfl (by nlinarith) h0
  refine ⟨w, hw, fun j => ?_⟩
  unfold Machine.posVector
  rw [hpbc]
  refine (h j).mono hε (by positivity) (by linarith) ?_
  have : 3 * ((Machine.imageTerms D.pbc).length : ℝ) * R ≤ 3 * 27 * R := by gcongr
  linarith

/-! ### The terms of the dynamical matrix -/

/-- The data of the exact calculation, `D`, and the numbers `D'` of the machine: lists of indices are the same; positions and super lattice (bounded by `R`) are
stored up to `ε R`; the masses up to a relative error `ε`; the force constants of the atoms used are bounded by `f` and computed up to `34 ε f`. -/
structure DataNear (ε R f : ℝ) (D' D : PhononData) : Prop where
  pbc : D'.pbc = D.pbc
  E : D'.E = D.E
  unitXyz : D'.unitXyz = D.unitXyz
  superXyz : D'.superXyz = D.superXyz
  superLat : ∀ i j, Err ε 1 R (D'.superLat i j) (D.superLat i j)
  superCart : ∀ s ∈ D.superXyz, ∀ j, Err ε 1 R (D'.superCart s j) (D.superCart s j)
  unitCart : ∀ u ∈ D.unitXyz, ∀ j, Err ε 1 R (D'.unitCart u j) (D.unitCart u j)
  fc : ∀ s ∈ D.superXyz, ∀ (x : Fin 3), ∀ c < D.unitXyz.length, Err ε 34 f (D'.fc (s * 3 + x) c) (D.fc (s * 3 + x) c)
  mass : ∀ r < D.unitXyz.length, 0 < D.mass r ∧ |D'.mass r - D.mass r| ≤ ε * D.mass r

theorem shifted_phase (D : PhononData) (q v w : V3 ℝ) (h : Commensurate D q) (hw : IsPeriodicShift D.superLat D.pbc w) :
    ∃ m : ℤ, dot3 q (v + w) = dot3 q v + m * (2 * Real.pi) := by
  obtain ⟨z, hz, rfl⟩ := hw
  have h1 : ∀ i, ∃ m : ℤ, (z i : ℝ) * dot3 q (D.superLat i) = m * (2 * Real.pi) := by
    intro i
    by_cases hi : i ∈ D.pbc
    · obtain ⟨m, hm⟩ := h i hi
      exact ⟨z i * m, by rw [hm]; push_cast; ring⟩
    · exact ⟨0, by rw [hz i hi]; simp⟩
  choose m hm using h1
  refine ⟨m 0 + m 1 + m 2, ?_⟩
  have e : dot3 q (v + fun j => ∑ i, (z i : ℝ) * D.superLat i j) = dot3 q v + ((z 0 : ℝ) * dot3 q (D.superLat 0) + (z 1 : ℝ) * dot3 q (D.superLat 1) +
      (z 2 : ℝ) * dot3 q (D.superLat 2)) := by
    simp only [dot3, Fin.sum_univ_three, Pi.add_apply]; ring
  rw [e, hm, hm, hm]
  push_cast
  ring

/-- The amplification of the rounding errors in the phases: flatness of the cell, size of the wave vector (in units of the reciprocal lattice), of the reciprocal
lattice and of the separations. -/
def phaseFactor (L : M3 ℝ) (ℓ k0 R : ℝ) : ℝ := flatness L ℓ * (k0 * recipSize L ℓ * R)

theorem phase_err {ε ℓ k0 R f : ℝ} {D' D : PhononData} {L' L : M3 ℝ} {k' k : V3 ℝ} {A : Arith} (hA : Rounds ε A) (hε : 0 ≤ ε)
    (hD : DataNear ε R f D' D) (hL : ∀ i j, Err ε 1 ℓ (L' i j) (L i j))
    (hV : volume L ≠ 0) (hr' : D'.recip = Machine.reciprocal A L') (hr : D.recip = reciprocal L) (hk : ∀ i, Err ε 1 k0 (k' i) (k i))
    (hc : 277 * flatness L ℓ * ε ≤ 1) (hq : Commensurate D (qVec D k)) {s u : ℕ} (hs : s ∈ D.superXyz) (hu : u ∈ D.unitXyz) :
    Err ε (469863 * phaseFactor L ℓ k0 R + 2) 1 (A.cos (A.dot (Machine.qVec A D' k') (Machine.posVector A D' s u))) (Real.cos (dot3 (qVec D k) (posVector D s u))) ∧
    Err ε (469863 * phaseFactor L ℓ k0 R + 2) 1 (A.sin (A.dot (Machine.qVec A D' k') (Machine.posVector A D' s u))) (Real.sin (dot3 (qVec D k) (posVector D s u))) := by
  have hκ := one_le_flatness (fun i j => (hL i j).size) hV
  have h277 : 277 * ε ≤ 1 := by nlinarith
  obtain ⟨w, hw, hpos⟩ := posVector_err hA hε hD.pbc hD.superLat s u (hD.superCart s hs) (hD.unitCart u hu) (by linarith)
  have hwave := wave_err hA hε hL hV hr' hr hk (by nlinarith)
  have hdot := Err.dot hA hε hwave (y := (D.superCart s - D.unitCart u) + w) hpos (by linarith) (by norm_num) hc (by linarith)
  obtain ⟨v, hv⟩ : ∃ v, posVector D s u = (D.superCart s - D.unitCart u) + v ∧ IsPeriodicShift D.superLat D.pbc v :=
    ⟨posVector D s u - (D.superCart s - D.unitCart u), by abel, (C25_equivalent_not_longer_partial D s u).1⟩
  obtain ⟨m1, e1⟩ := shifted_phase D (qVec D k) (D.superCart s - D.unitCart u) w hq hw
  obtain ⟨m2, e2⟩ := shifted_phase D (qVec D k) (D.superCart s - D.unitCart u) v hq hv.2
  have hcos : Real.cos (dot3 (qVec D k) (posVector D s u)) = Real.cos (dot3 (qVec D k) ((D.superCart s - D.unitCart u) + w)) := by
    rw [hv.1, e1, e2, Real.cos_add_int_mul_two_pi, Real.cos_add_int_mul_two_pi]
  have hsin : Real.sin (dot3 (qVec D k) (posVector D s u)) = Real.sin (dot3 (qVec D k) ((D.superCart s - D.unitCart u) + w)) := by
    rw [hv.1, e1, e2, Real.sin_add_int_mul_two_pi, Real.sin_add_int_mul_two_pi]
  have hR := (hD.superLat 0 0).pos
  have hk0 := (hk 0).pos
  have hB : 0 ≤ recipSize L ℓ := by unfold recipSize; have := Real.pi_pos; positivity
  have hθ : |A.dot (Machine.qVec A D' k') (Machine.posVector A D' s u) - dot3 (qVec D k) ((D.superCart s - D.unitCart u) + w)| ≤
      469863 * phaseFactor L ℓ k0 R * ε := by
    refine hdot.near.trans ?_
    have hX : 0 ≤ k0 * recipSize L ℓ * R := by positivity
    unfold phaseFactor
    generalize k0 * recipSize L ℓ = X at *
    calc (277 * flatness L ℓ + 2 * 168 + 16) * ε * (3 * (3 * X * (83 * R))) ≤ (629 * flatness L ℓ) * ε * (3 * (3 * X * (83 * R))) := by
          have : 0 ≤ 3 * (3 * X * (83 * R)) := by linarith [show 3 * (3 * X * (83 * R)) = 747 * (X * R) by ring]
          gcongr
          linarith
      _ = _ := by ring
  generalize dot3 (qVec D k) ((D.superCart s - D.unitCart u) + w) = θ at *
  generalize A.dot (Machine.qVec A D' k') (Machine.posVector A D' s u) = θ' at *
  rw [hcos, hsin]
  refine ⟨⟨?_, Real.abs_cos_le_one _⟩, ⟨?_, Real.abs_sin_le_one _⟩⟩
  · calc _ = |(A.cos θ' - Real.cos θ') + (Real.cos θ' - Real.cos θ)| := by ring_nf
      _ ≤ 2 * ε + 469863 * phaseFactor L ℓ k0 R * ε := (abs_add_le _ _).trans (add_le_add (hA.cos θ') ((Real.abs_cos_sub_cos_le _ _).trans hθ))
      _ = _ := by ring
  · calc _ = |(A.sin θ' - Real.sin θ') + (Real.sin θ' - Real.sin θ)| := by ring_nf
      _ ≤ 2 * ε + 469863 * phaseFactor L ℓ k0 R * ε := (abs_add_le _ _).trans (add_le_add (hA.sin θ') ((Real.abs_sin_sub_sin_le _ _).trans hθ))
      _ = _ := by ring

/-- Both parts of a complex number. -/
def CErr (ε a m : ℝ) (z' z : ℂ) : Prop := Err ε a m z'.re z.re ∧ Err ε a m z'.im z.im

theorem term_err {ε ℓ k0 R f : ℝ} {D' D : PhononData} {L' L : M3 ℝ} {k' k : V3 ℝ} {A : Arith} (hA : Rounds ε A) (hε : 0 ≤ ε)
    (hD : DataNear ε R f D' D) (hL : ∀ i j, Err ε 1 ℓ (L' i j) (L i j))
    (hV : volume L ≠ 0) (hr' : D'.recip = Machine.reciprocal A L') (hr : D.recip = reciprocal L) (hk : ∀ i, Err ε 1 k0 (k' i) (k i))
    (hc : 277 * flatness L ℓ * ε ≤ 1) (hc2 : (469863 * phaseFactor L ℓ k0 R + 2) * ε ≤ 1) (hq : Commensurate D (qVec D k)) {s1 s2 : ℕ}
    (h1 : s1 < D.superXyz.length) (h2 : s2 < D.unitXyz.length) :
    CErr ε (939726 * phaseFactor L ℓ k0 R + 42) f (Machine.term A D' (Machine.qVec A D' k') s1 s2) (term D (qVec D k) s1 s2) := by
  have hs : D.superXyz.getD s1 0 ∈ D.superXyz := by rw [List.getD_eq_getElem _ _ h1]; exact List.getElem_mem _
  have hu : D.unitXyz.getD s2 0 ∈ D.unitXyz := by rw [List.getD_eq_getElem _ _ h2]; exact List.getElem_mem _
  obtain ⟨hcos, hsin⟩ := phase_err hA hε hD hL hV hr' hr hk hc hq hs hu
  have hf := hD.fc _ hs ⟨s1 % 3, Nat.mod_lt _ (by norm_num)⟩ s2 h2
  have hκ := one_le_flatness (fun i j => (hL i j).size) hV
  have h277 : 277 * ε ≤ 1 := by nlinarith
  have hR := (hD.superLat 0 0).pos
  have hk0 := (hk 0).pos
  have hB : 0 ≤ recipSize L ℓ := by unfold recipSize; have := Real.pi_pos; positivity
  have hT : 0 ≤ phaseFactor L ℓ k0 R := by unfold phaseFactor; have : 0 ≤ flatness L ℓ := by linarith
                                           positivity
  have e : term D (qVec D k) s1 s2 = ⟨D.fc (D.superXyz.getD s1 0 * 3 + s1 % 3) s2 * Real.cos (dot3 (qVec D k) (posVector D (D.superXyz.getD s1 0) (D.unitXyz.getD s2 0))),
      D.fc (D.superXyz.getD s1 0 * 3 + s1 % 3) s2 * Real.sin (dot3 (qVec D k) (posVector D (D.superXyz.getD s1 0) (D.unitXyz.getD s2 0)))⟩ := by
    unfold term
    generalize dot3 (qVec D k) (posVector D (D.superXyz.getD s1 0) (D.unitXyz.getD s2 0)) = θ
    generalize D.fc (D.superXyz.getD s1 0 * 3 + s1 % 3) s2 = φ
    rw [mul_comm I, Complex.exp_mul_I, ← Complex.ofReal_cos, ← Complex.ofReal_sin]
    apply Complex.ext <;> simp only [Complex.mul_re, Complex.mul_im, Complex.add_re, Complex.add_im, Complex.ofReal_re, Complex.ofReal_im, Complex.I_re, Complex.I_im] <;> ring
  rw [e]
  unfold Machine.term
  rw [hD.superXyz, hD.unitXyz]
  have m1 := Err.mul hA hε hf hcos (by norm_num) (by linarith) (by linarith) hc2
  have m2 := Err.mul hA hε hf hsin (by norm_num) (by linarith) (by linarith) hc2
  rw [mul_one] at m1 m2
  exact ⟨m1.mono hε (by linarith) (by linarith) le_rfl, m2.mono hε (by linarith) (by linarith) le_rfl⟩

/-! ### The accumulation -/

theorem foldl_entry (A : Arith) {ι : Type*} (r c : ι → ℕ) (z : ι → ℂ) : ∀ (l : List ι) (M : ℕ → ℕ → ℂ) (r' c' : ℕ),
    l.foldl (fun M i => Machine.addAt A M (r i) (c i) (z i)) M r' c' = ((l.filter fun i => decide (r' = r i ∧ c' = c i)).map z).foldl (Machine.cadd A) (M r' c') := by
  intro l
  induction l with
  | nil => intros; rfl
  | cons i l ih =>
    intro M r' c'
    rw [List.foldl_cons, ih, List.filter_cons]
    by_cases h : r' = r i ∧ c' = c i
    · rw [if_pos (by simpa using h), List.map_cons, List.foldl_cons]
      congr 1
      unfold Machine.addAt
      rw [if_pos h]
    · rw [if_neg (by simpa using h)]
      congr 1
      unfold Machine.addAt
      rw [if_neg h]

theorem filter_range_eq (n c : ℕ) (h : c < n) : (List.range n).filter (fun i => decide (c = i)) = [c] := by
  have h1 : (List.range n).filter (fun i => decide (c = i)) = List.replicate ((List.range n).count c) c := by
    rw [← List.filter_beq]
    refine List.filter_congr fun i _ => ?_
    by_cases hi : c = i
    · subst hi; simp
    · simp [hi, Ne.symm hi]
  rw [h1, List.count_range]
  simp [h]

/-- The positions of the super-cell list that are added to row `r`. -/
def hits (D : PhononData) (r : ℕ) : List ℕ := (List.range D.superXyz.length).filter fun s1 => decide (r = (s1 / (D.E * 3)) * 3 + s1 % 3)

/-- An entry of the double loop is the sum, from left to right, of the terms that hit it. -/
theorem dynRaw_foldl (A : Arith) (D : PhononData) (q : V3 ℝ) (r c : ℕ) (hc : c < D.unitXyz.length) :
    Machine.dynRaw A D q r c = ((hits D r).map fun s1 => Machine.term A D q s1 c).foldl (Machine.cadd A) 0 := by
  have hin : ∀ (s1 : ℕ) (M : ℕ → ℕ → ℂ), ((List.range D.unitXyz.length).foldl (fun M s2 =>
      Machine.addAt A M ((s1 / (D.E * 3)) * 3 + s1 % 3) s2 (Machine.term A D q s1 s2)) M) r c =
      if r = (s1 / (D.E * 3)) * 3 + s1 % 3 then Machine.cadd A (M r c) (Machine.term A D q s1 c) else M r c := by
    intro s1 M
    rw [foldl_entry A (fun _ => (s1 / (D.E * 3)) * 3 + s1 % 3) (fun s2 => s2) (fun s2 => Machine.term A D q s1 s2)]
    by_cases h : r = (s1 / (D.E * 3)) * 3 + s1 % 3
    · rw [if_pos h]
      have : (List.range D.unitXyz.length).filter (fun i => decide (r = (s1 / (D.E * 3)) * 3 + s1 % 3 ∧ c = i)) = [c] := by
        rw [← filter_range_eq _ c hc]
        refine List.filter_congr fun i _ => ?_
        simp [← h]
      rw [this]
      rfl
    · rw [if_neg h]
      have : (List.range D.unitXyz.length).filter (fun i => decide (r = (s1 / (D.E * 3)) * 3 + s1 % 3 ∧ c = i)) = [] := by
        rw [List.filter_eq_nil_iff]
        intro i _
        simp [h]
      rw [this]
      rfl
  unfold Machine.dynRaw hits
  have hgen : ∀ (l : List ℕ) (M : ℕ → ℕ → ℂ), l.foldl (fun M s1 => (List.range D.unitXyz.length).foldl (fun M s2 =>
      Machine.addAt A M ((s1 / (D.E * 3)) * 3 + s1 % 3) s2 (Machine.term A D q s1 s2)) M) M r c =
      ((l.filter fun s1 => decide (r = (s1 / (D.E * 3)) * 3 + s1 % 3)).map fun s1 => Machine.term A D q s1 c).foldl (Machine.cadd A) (M r c) := by
    intro l
    induction l with
    | nil => intros; rfl
    | cons s1 l ih =>
      intro M
      rw [List.foldl_cons, ih, hin, List.filter_cons]
      by_cases h : r = (s1 / (D.E * 3)) * 3 + s1 % 3
      · rw [if_pos h, if_pos (by simpa using h)]; rfl
      · rw [if_neg h, if_neg (by simpa using h)]
  exact hgen _ _

theorem dynRaw_hits (D : PhononData) (q : V3 ℝ) (r c : ℕ) (hc : c < D.unitXyz.length) :
    dynRaw D q r c = ((hits D r).map fun s1 => term D q s1 c).sum := by
  rw [dynRaw_sum]
  have hin : ∀ s1, ∑ s2 ∈ Finset.range D.unitXyz.length, (if r = (s1 / (D.E * 3)) * 3 + s1 % 3 ∧ c = s2 then term D q s1 s2 else 0) =
      if r = (s1 / (D.E * 3)) * 3 + s1 % 3 then term D q s1 c else 0 := by
    intro s1
    rw [Finset.sum_eq_single c]
    · simp
    · intro s2 _ hs; rw [if_neg]; exact fun hcc => hs hcc.2.symm
    · intro hn; exact absurd (Finset.mem_range.mpr hc) hn
  rw [Finset.sum_congr rfl fun s1 _ => hin s1]
  unfold hits
  generalize D.superXyz.length = n
  induction n with
  | zero => simp
  | succ n ih =>
    rw [Finset.sum_range_succ, ih, List.range_succ, List.filter_append, List.map_append, List.sum_append]
    congr 1
    by_cases h : r = (n / (D.E * 3)) * 3 + n % 3
    · rw [if_pos h, List.filter_cons, if_pos (by simpa using h)]; simp
    · rw [if_neg h, List.filter_cons, if_neg (by simpa using h)]; simp

theorem hits_length (D : PhononData) (sel : List ℕ) (h : GoodSelection D sel) {r : ℕ} (hr : r < 3 * sel.length) (h0 : 0 < sel.length) : (hits D r).length = D.E := by
  have hu : D.unitXyz.length = 3 * sel.length := by rw [h.unit]; simp [mul_comm]
  have er : r = 3 * (r / 3) + (comp r : ℕ) := by simp only [comp]; omega
  have e1 := dynRaw_entry { D with fc := fun _ _ => 1 } sel ⟨h.unit, h.super, h.pos⟩ 0 (r / 3) 0 (comp r) 0 (by omega) h0
  rw [← er] at e1
  have e2 := dynRaw_hits { D with fc := fun _ _ => 1 } 0 r (3 * 0 + (0 : Fin 3)) (by show _ < D.unitXyz.length; rw [hu]; simp; omega)
  rw [e1] at e2
  have hz : ∀ v : V3 ℝ, dot3 0 v = 0 := by intro v; simp [dot3]
  simp only [term, hz, Complex.ofReal_zero, mul_zero, Complex.exp_zero, mul_one, Complex.ofReal_one, Finset.sum_const, Finset.card_range, nsmul_eq_mul,
    List.map_const', List.sum_replicate] at e2
  exact_mod_cast e2.symm

theorem sum_err {ε a f : ℝ} {A : Arith} (hA : Rounds ε A) (hε : 0 ≤ ε) (ha : 0 ≤ a) {ι : Type*} (z' z : ι → ℂ) : ∀ (l : List ι),
    (∀ i ∈ l, CErr ε a f (z' i) (z i)) → ∀ (b M : ℝ) (w' w : ℂ), a ≤ b → (b + 2 * l.length) * ε ≤ 1 → CErr ε b M w' w →
      CErr ε (b + 2 * l.length) (M + l.length * f) ((l.map z').foldl (Machine.cadd A) w') (w + (l.map z).sum)
  | [], _, b, M, w', w, _, _, h => by simpa using h
  | i :: l, hz, b, M, w', w, hab, hc, h => by
    have hlen : ((i :: l).length : ℝ) = l.length + 1 := by simp
    rw [hlen] at hc ⊢
    have hn : (0 : ℝ) ≤ l.length := Nat.cast_nonneg _
    have hbε : b * ε ≤ 1 := by nlinarith
    obtain ⟨z1, z2⟩ := hz i (by simp)
    have hstep : CErr ε (b + 2) (M + f) (Machine.cadd A w' (z' i)) (w + z i) :=
      ⟨Err.add hA hε (c := b) h.1 z1 (by linarith) le_rfl ha hab hbε, Err.add hA hε (c := b) h.2 z2 (by linarith) le_rfl ha hab hbε⟩
    have := sum_err hA hε ha z' z l (fun i' h' => hz i' (List.mem_cons_of_mem _ h')) (b + 2) (M + f) _ _ (by linarith) (by
      calc _ = (b + 2 * ((l.length : ℝ) + 1)) * ε := by ring
        _ ≤ 1 := hc) hstep
    rw [List.map_cons, List.foldl_cons, List.map_cons, List.sum_cons, ← add_assoc]
    have e3 : b + 2 + 2 * (l.length : ℝ) = b + 2 * (l.length + 1) := by ring
    have e4 : M + f + (l.length : ℝ) * f = M + (l.length + 1) * f := by ring
    rwa [e3, e4] at this

/-- The amplification of rounding errors in an entry of the dynamical matrix: phases, number `E` of terms, and a constant. -/
def dynFactor (L : M3 ℝ) (ℓ k0 R : ℝ) (E : ℕ) : ℝ := 939726 * phaseFactor L ℓ k0 R + 2 * E + 90

theorem massRoot_err {ε : ℝ} {A : Arith} (hA : Rounds ε A) (hε : 0 ≤ ε) (h18 : 18 * ε ≤ 1) {D' D : PhononData} {r c : ℕ} (hr : 0 < D.mass r) (hc : 0 < D.mass c)
    (hr' : |D'.mass r - D.mass r| ≤ ε * D.mass r) (hc' : |D'.mass c - D.mass c| ≤ ε * D.mass c) :
    Err ε 22 (1 / Real.sqrt (D.mass r * D.mass c)) (A.div 1 (Machine.massRoot A D' r c)) (1 / Real.sqrt (D.mass r * D.mass c)) := by
  have h1 : (1 : ℝ) * ε ≤ 1 := by linarith
  have m1 : Err ε 1 (D.mass r) (D'.mass r) (D.mass r) := ⟨by rw [one_mul]; exact hr', by rw [abs_of_pos hr]⟩
  have m2 : Err ε 1 (D.mass c) (D'.mass c) (D.mass c) := ⟨by rw [one_mul]; exact hc', by rw [abs_of_pos hc]⟩
  have hp := mul_pos hr hc
  have hs : 0 < Real.sqrt (D.mass r * D.mass c) := Real.sqrt_pos.2 hp
  have m3 := Err.sqrt hA hε (Err.mul hA hε m1 m2 zero_le_one zero_le_one h1 h1) (by norm_num) (by linarith) hp
  have := Err.div hA hε (Err.exact (ε := ε) (x := 1) (m := 1) (by norm_num)) m3 le_rfl (by norm_num) (by linarith) hs (by rw [abs_of_pos hs])
    (by rw [div_self hs.ne']; linarith)
  rw [div_self hs.ne'] at this
  exact this.mono hε (by norm_num) (by norm_num) le_rfl

/-- The entries of the dynamical matrix the machine computes at a wave vector that fits into the super cell. -/
theorem dyn_err {ε ℓ k0 R f : ℝ} {D' D : PhononData} {L' L : M3 ℝ} {k' k : V3 ℝ} {A : Arith} (hA : Rounds ε A) (hε : 0 ≤ ε) {sel : List ℕ} (hgs : GoodSelection D sel)
    (hD : DataNear ε R f D' D) (hL : ∀ i j, Err ε 1 ℓ (L' i j) (L i j))
    (hV : volume L ≠ 0) (hr' : D'.recip = Machine.reciprocal A L') (hr : D.recip = reciprocal L) (hk : ∀ i, Err ε 1 k0 (k' i) (k i))
    (hc : 277 * flatness L ℓ * ε ≤ 1) (hc2 : dynFactor L ℓ k0 R D.E * ε ≤ 1) (hq : Commensurate D (qVec D k)) {r c : ℕ}
    (hrl : r < 3 * sel.length) (hcl : c < 3 * sel.length) :
    CErr ε (dynFactor L ℓ k0 R D.E) (D.E * f / Real.sqrt (D.mass r * D.mass c)) (Machine.dynMatrix A D' k' r c) (dynMatrix D k r c) := by
  have hu : D.unitXyz.length = 3 * sel.length := by rw [hgs.unit]; simp [mul_comm]
  have hκ := one_le_flatness (fun i j => (hL i j).size) hV
  have h277 : 277 * ε ≤ 1 := by nlinarith
  have hR := (hD.superLat 0 0).pos
  have hk0 := (hk 0).pos
  have hB : 0 ≤ recipSize L ℓ := by unfold recipSize; have := Real.pi_pos; positivity
  have hT : 0 ≤ phaseFactor L ℓ k0 R := by unfold phaseFactor; have : 0 ≤ flatness L ℓ := by linarith
                                           positivity
  have hE : (0 : ℝ) ≤ D.E := Nat.cast_nonneg _
  unfold dynFactor at hc2 ⊢
  have hterm : ∀ s1 ∈ hits D r, CErr ε (939726 * phaseFactor L ℓ k0 R + 42) f (Machine.term A D' (Machine.qVec A D' k') s1 c) (term D (qVec D k) s1 c) := by
    intro s1 h1
    have h1' : s1 < D.superXyz.length := by
      unfold hits at h1
      exact List.mem_range.1 (List.mem_filter.1 h1).1
    exact term_err hA hε hD hL hV hr' hr hk hc (by nlinarith) hq h1' (by rw [hu]; exact hcl)
  have hlen : ((hits D r).length : ℝ) = D.E := by rw [hits_length D sel hgs hrl (by omega)]
  have hsum := sum_err hA hε (by linarith) _ _ (hits D r) hterm (939726 * phaseFactor L ℓ k0 R + 42) 0 0 0 le_rfl (by rw [hlen]; nlinarith)
    ⟨⟨by simp, by simp⟩, ⟨by simp, by simp⟩⟩
  have hhits : hits D' r = hits D r := by unfold hits; rw [hD.superXyz, hD.E]
  have e1 := dynRaw_foldl A D' (Machine.qVec A D' k') r c (by rw [hD.unitXyz, hu]; exact hcl)
  rw [hhits] at e1
  rw [zero_add, zero_add, ← e1, ← dynRaw_hits D (qVec D k) r c (by rw [hu]; exact hcl), hlen] at hsum
  obtain ⟨mr, mr'⟩ := hD.mass r (by rw [hu]; exact hrl)
  obtain ⟨mc, mc'⟩ := hD.mass c (by rw [hu]; exact hcl)
  have hm := massRoot_err hA hε (by linarith) mr mc mr' mc'
  have e2 : dynMatrix D k r c = ⟨(dynRaw D (qVec D k) r c).re * (1 / Real.sqrt (D.mass r * D.mass c)), (dynRaw D (qVec D k) r c).im * (1 / Real.sqrt (D.mass r * D.mass c))⟩ := by
    unfold dynMatrix
    rw [div_eq_mul_inv, ← Complex.ofReal_inv, ← one_div]
    apply Complex.ext <;> simp
  rw [e2]
  unfold Machine.dynMatrix
  have p1 := Err.mul hA hε hsum.1 hm (by linarith) (by norm_num) (by nlinarith) (by linarith)
  have p2 := Err.mul hA hε hsum.2 hm (by linarith) (by norm_num) (by nlinarith) (by linarith)
  rw [mul_one_div] at p1 p2
  exact ⟨p1.mono hε (by linarith) (by linarith) le_rfl, p2.mono hε (by linarith) (by linarith) le_rfl⟩

/-! ### Force constants -/

theorem machine_pair (A : Arith) (d : ℝ) (n c : ℕ) (fwd f b : Rows ℝ) (rest : List (Rows ℝ)) (fc : FC ℝ) :
    Machine.plainLoop A d n (2 * c) fwd (f :: b :: rest) fc =
      if c < n then Machine.plainLoop A d n (2 * (c + 1)) f rest
        (setCol fc c (reshape fun a x => Machine.difference A d (f a x) (b a x))) else .error .indexError := by
  rw [Machine.plainLoop.eq_2, if_pos (by omega), Machine.plainLoop.eq_2, if_neg (by omega)]
  rw [show (2 * c + 1) / 2 = c by omega, show 2 * c + 1 + 1 = 2 * (c + 1) by ring]

theorem machine_loop (A : Arith) (d : ℝ) (n : ℕ) : ∀ (m c : ℕ) (fwd : Rows ℝ) (L : List (Rows ℝ)) (fc : FC ℝ), L.length = 2 * m → c + m ≤ n →
    ∃ fc', Machine.plainLoop A d n (2 * c) fwd L fc = .ok fc' ∧
      (∀ (j : ℕ) (f b : Rows ℝ), j < m → L[2 * j]? = some f → L[2 * j + 1]? = some b → ∀ r,
        fc' r (c + j) = reshape (fun a x => Machine.difference A d (f a x) (b a x)) r) ∧
      (∀ c', c' < c ∨ c + m ≤ c' → ∀ r, fc' r c' = fc r c') := by
  intro m
  induction m with
  | zero =>
    intro c fwd L fc hL _
    have : L = [] := List.length_eq_zero_iff.mp (by omega)
    subst this
    exact ⟨fc, rfl, by intros; omega, fun _ _ _ => rfl⟩
  | succ m ih =>
    intro c fwd L fc hL hc
    match L, hL with
    | f :: b :: rest, hL =>
      simp only [List.length_cons] at hL
      rw [machine_pair, if_pos (by omega)]
      obtain ⟨fc', h1, h2, h3⟩ := ih (c + 1) f rest (setCol fc c (reshape fun a x => Machine.difference A d (f a x) (b a x))) (by omega) (by omega)
      refine ⟨fc', h1, ?_, ?_⟩
      · intro j f' b' hj hf hb r
        cases j with
        | zero =>
          simp only [Nat.mul_zero, List.getElem?_cons_zero, Nat.zero_add, List.getElem?_cons_succ, Option.some.injEq] at hf hb
          subst hf hb
          rw [Nat.add_zero, h3 c (by omega) r]
          simp [setCol]
        | succ j =>
          have := h2 j f' b' (by omega) (by simpa [Nat.mul_add] using hf) (by simpa [Nat.mul_add] using hb) r
          rw [← this]
          congr 1
          omega
      · intro c' hc' r
        rw [h3 c' (by omega) r]
        simp only [setCol]
        rw [if_neg (by omega)]

/-- Forces stored up to `ε F`, where `F` bounds the exact ones, for the atoms of a list. -/
def ForcesNear (ε F : ℝ) (atoms : List ℕ) (files' files : List (Rows ℝ)) : Prop :=
  files'.length = files.length ∧ ∀ (i : ℕ) (f' f : Rows ℝ), files'[i]? = some f' → files[i]? = some f → ∀ s ∈ atoms, ∀ x, Err ε 1 F (f' s x) (f s x)

theorem difference_err {ε F d' d : ℝ} {A : Arith} (hA : Rounds ε A) (hε : 0 ≤ ε) (h34 : 34 * ε ≤ 1) (hd : d ≠ 0) (hd' : |d' - d| ≤ ε * |d|) {f' f b' b : ℝ}
    (hf : Err ε 1 F f' f) (hb : Err ε 1 F b' b) : Err ε 34 (F / (|d| * (1 / 10 ^ 10))) (Machine.difference A d' f' b') (-(f - b) / (2 * d * (1 / 10 ^ 10))) := by
  have h1 : (1 : ℝ) * ε ≤ 1 := by linarith
  have e1 := (Err.sub hA hε (c := 1) hf hb zero_le_one le_rfl zero_le_one le_rfl h1).neg
  have e2 : Err ε 1 |d| d' d := ⟨by rw [one_mul]; exact hd', le_rfl⟩
  have e3 := Err.mul hA hε (Err.exact (ε := ε) (x := 2) (m := 2) (by norm_num)) e2 le_rfl zero_le_one (by linarith) h1
  have e4 : Err ε 1 (1 / 10 ^ 10) A.ang (1 / 10 ^ 10) := ⟨by rw [one_mul]; exact hA.ang, by rw [abs_of_pos (by positivity)]⟩
  have e5 := Err.mul hA hε e3 e4 (by norm_num) zero_le_one (by linarith) h1
  have hg : 0 < 2 * |d| * (1 / 10 ^ 10) := by have := abs_pos.2 hd; positivity
  have habs : |2 * d * (1 / 10 ^ 10)| = 2 * |d| * (1 / 10 ^ 10) := by rw [abs_mul, abs_mul, abs_of_pos (by norm_num : (0 : ℝ) < 2), abs_of_pos (by positivity : (0 : ℝ) < 1 / 10 ^ 10)]
  have e6 := Err.div hA hε e1 e5 (by norm_num) (by norm_num) (by linarith) hg (by rw [habs]) (by rw [div_self hg.ne']; linarith)
  rw [div_self hg.ne'] at e6
  have hsz : (F + F) / (2 * |d| * (1 / 10 ^ 10)) = F / (|d| * (1 / 10 ^ 10)) := by
    rw [show F + F = 2 * F by ring, mul_assoc, mul_div_mul_left _ _ (by norm_num : (2 : ℝ) ≠ 0)]
  rw [hsz] at e6
  exact e6.mono hε (by norm_num) (by norm_num) le_rfl

theorem setPlain_err {ε F d' d : ℝ} {A : Arith} (hA : Rounds ε A) (hε : 0 ≤ ε) (h34 : 34 * ε ≤ 1) (hd : d ≠ 0) (hd' : |d' - d| ≤ ε * |d|) (nsel : ℕ)
    (junk' junk : FC ℝ) {files' files : List (Rows ℝ)} {atoms : List ℕ} (h : ForcesNear ε F atoms files' files) (hlen : files.length = 6 * nsel) {fc : FC ℝ}
    (hfc : setPlain d nsel junk files = .ok fc) :
    ∃ fc', Machine.setPlain A d' nsel junk' files' = .ok fc' ∧ ∀ s ∈ atoms, ∀ (x : Fin 3), ∀ c < 3 * nsel,
      Err ε 34 (F / (|d| * (1 / 10 ^ 10))) (fc' (s * 3 + x) c) (fc (s * 3 + x) c) := by
  obtain ⟨fc', h1, h2, -⟩ := machine_loop A d' (3 * nsel) (3 * nsel) 0 (fun _ _ => 0) files' junk' (by rw [h.1, hlen]; ring) (by omega)
  obtain ⟨fc1, g1, g2⟩ := C21_entry_layout d nsel junk files hlen
  rw [hfc] at g1
  cases g1
  refine ⟨fc', h1, ?_⟩
  intro s hs x c hc
  have ec : c = 3 * (c / 3) + (comp c : ℕ) := by simp only [comp]; omega
  have hx : ForceConstant.comp (3 * s + x) = x := by ext; simp [ForceConstant.comp, Nat.mod_eq_of_lt x.isLt]
  have hs3 : (3 * s + (x : ℕ)) / 3 = s := by omega
  have hl' : files'.length = 6 * nsel := by rw [h.1, hlen]
  have i1 : 2 * c < files.length := by omega
  have i2 : 2 * c + 1 < files.length := by omega
  have e1 := h2 c _ _ hc (List.getElem?_eq_getElem (by omega : 2 * c < files'.length)) (List.getElem?_eq_getElem (by omega : 2 * c + 1 < files'.length)) (3 * s + x)
  have e2 := g2 s (c / 3) x (comp c) files[2 * c] files[2 * c + 1] (by omega)
    (by rw [show 6 * (c / 3) + 2 * (comp c : ℕ) = 2 * c by omega]; exact List.getElem?_eq_getElem i1)
    (by rw [show 6 * (c / 3) + 2 * (comp c : ℕ) + 1 = 2 * c + 1 by omega]; exact List.getElem?_eq_getElem i2)
  rw [← ec] at e2
  rw [Nat.zero_add] at e1
  rw [Nat.mul_comm s 3, e1, e2]
  simp only [reshape, hs3, hx, centralDiff]
  exact difference_err hA hε h34 hd hd' (h.2 _ _ _ (List.getElem?_eq_getElem (by omega)) (List.getElem?_eq_getElem i1) s hs x)
    (h.2 _ _ _ (List.getElem?_eq_getElem (by omega)) (List.getElem?_eq_getElem i2) s hs x)

/-! ### Frequencies -/

theorem freq_err {ε : ℝ} {A : Arith} (hA : Rounds ε A) (hε : 0 ≤ ε) (h60 : 60 * ε ≤ 1) (w : ℂ) :
    |Machine.freqOf A w - freqOf w| ≤ 60 * ε * (Real.sqrt ‖w‖ / (Real.pi * 10 ^ 12)) := by
  set c := csqrt w with hc
  have hnorm : ‖c‖ = Real.sqrt ‖w‖ := by
    have h2 : c ^ 2 = w := by
      rw [hc, csqrt, ← Complex.cpow_nat_mul]
      norm_num
    rw [← h2, norm_pow, Real.sqrt_sq (norm_nonneg _)]
  have hcc : ‖A.csqrt w - c‖ ≤ 4 * ε * ‖c‖ := hA.csqrt w
  have e1 : Err ε 4 ‖c‖ (A.csqrt w).re c.re := ⟨by
    have := Complex.abs_re_le_norm (A.csqrt w - c)
    rw [Complex.sub_re] at this
    exact this.trans hcc, Complex.abs_re_le_norm c⟩
  have e2 : Err ε 4 ‖c‖ |(A.csqrt w).im| |c.im| := ⟨by
    have := Complex.abs_im_le_norm (A.csqrt w - c)
    rw [Complex.sub_im] at this
    exact (abs_abs_sub_abs_le _ _).trans (this.trans hcc), by rw [abs_abs]; exact Complex.abs_im_le_norm c⟩
  have e3 := Err.sub hA hε (c := 4) e1 e2 (by norm_num) le_rfl (by norm_num) le_rfl (by linarith)
  have h2pi : 0 < 2 * Real.pi := by have := Real.pi_pos; positivity
  have e4 := Err.div hA hε e3 (twoPi_err hA hε (by linarith)) (by norm_num) (by norm_num) (by linarith) h2pi (by rw [abs_of_pos h2pi]) (by
    rw [div_self h2pi.ne']; linarith)
  rw [div_self h2pi.ne'] at e4
  have h12 : (0 : ℝ) < 10 ^ 12 := by positivity
  have e5 := Err.div hA hε e4 (Err.exact (ε := ε) (x := 10 ^ 12) (m := 10 ^ 12) (by rw [abs_of_pos h12])) (by norm_num) le_rfl (by linarith) h12 (by rw [abs_of_pos h12])
    (by simp)
  have := e5.near
  unfold Machine.freqOf freqOf
  refine this.trans (le_of_eq ?_)
  rw [hnorm]
  have := Real.pi_pos
  field_simp
  ring

theorem freqOf_real {l : ℂ} (h : l.im = 0) : Real.sqrt ‖l‖ / (Real.pi * 10 ^ 12) = 2 * |freqOf l| := by
  obtain ⟨x, rfl⟩ : ∃ x : ℝ, l = x := ⟨l.re, by apply Complex.ext <;> simp [h]⟩
  have hpi := Real.pi_pos
  have hpos : ∀ y : ℝ, 0 ≤ y → csqrt (y : ℂ) = (Real.sqrt y : ℝ) := by
    intro y hy
    rw [csqrt, show (1 / 2 : ℂ) = ((1 / 2 : ℝ) : ℂ) by norm_num, ← Complex.ofReal_cpow hy, Real.sqrt_eq_rpow]
  rw [Complex.norm_real]
  rcases le_total 0 x with hx | hx
  · rw [Real.norm_of_nonneg hx, freqOf, hpos x hx, Complex.ofReal_re, Complex.ofReal_im, abs_zero, sub_zero, abs_of_nonneg (by positivity)]
    field_simp
  · have hi : csqrt (x : ℂ) = I * (Real.sqrt (-x) : ℝ) := by
      rcases hx.eq_or_lt with rfl | hlt
      · simp [csqrt]
      · have hI : csqrt (x : ℂ) ^ 2 = x := by rw [csqrt, ← Complex.cpow_nat_mul]; norm_num
        rw [csqrt, Complex.cpow_def_of_ne_zero (by exact_mod_cast hlt.ne), Complex.log, Complex.arg_ofReal_of_neg hlt, Complex.norm_real, Real.norm_of_nonpos hx,
          add_mul, Complex.exp_add]
        have e1 : Complex.exp (((Real.log (-x) : ℝ) : ℂ) * (1 / 2)) = (Real.sqrt (-x) : ℝ) := by
          rw [show ((Real.log (-x) : ℝ) : ℂ) * (1 / 2) = ((Real.log (-x) * (1 / 2) : ℝ) : ℂ) by push_cast; ring, ← Complex.ofReal_exp, Real.sqrt_eq_rpow,
            Real.rpow_def_of_pos (by linarith)]
        have e2 : Complex.exp ((Real.pi : ℂ) * I * (1 / 2)) = I := by
          rw [show (Real.pi : ℂ) * I * (1 / 2) = (Real.pi / 2 : ℂ) * I by ring, Complex.exp_pi_div_two_mul_I]
        rw [e1, e2, mul_comm]
    rw [Real.norm_of_nonpos hx, freqOf, hi]
    simp only [Complex.mul_re, Complex.mul_im, Complex.I_re, Complex.I_im, Complex.ofReal_re, Complex.ofReal_im, zero_mul, one_mul, mul_zero, sub_zero, zero_sub,
      zero_add, abs_of_nonneg (Real.sqrt_nonneg (-x))]
    rw [show -Real.sqrt (-x) / (2 * Real.pi) / 10 ^ 12 = -(Real.sqrt (-x) / (2 * Real.pi) / 10 ^ 12) by ring, abs_neg, abs_of_nonneg (by positivity)]
    field_simp

/-- Eigenvalues of a matrix that differs from a Hermitian one by mass-weighted errors and by errors of the solver. -/
theorem near_eigenvalue_sum {m : ℕ} {B M : Matrix (Fin m) (Fin m) ℂ} (hB : B.IsHermitian) {α σ : ℝ} (hα : 0 ≤ α) (hσ : 0 ≤ σ) {mass : ℕ → ℝ}
    (hm : ∀ r : Fin m, 0 < mass r) (h : ∀ r c, ‖M r c - B r c‖ ≤ α / Real.sqrt (mass r * mass c) + σ) {μ : ℂ} (hμ : μ ∈ M.charpoly.roots) :
    ∃ l ∈ B.charpoly.roots, ‖μ - l‖ ≤ α * (∑ r : Fin m, 1 / mass r) + m * σ := by
  have hsum : 0 ≤ ∑ r : Fin m, 1 / mass r := Finset.sum_nonneg fun r _ => (one_div_pos.2 (hm r)).le
  refine near_eigenvalue hB (by positivity) ?_ hμ
  set x : Fin m → ℝ := fun r => 1 / Real.sqrt (mass r) with hx
  have hx2 : ∀ r, x r ^ 2 = 1 / mass r := by intro r; rw [hx]; simp only [div_pow, one_pow]; rw [Real.sq_sqrt (hm r).le]
  have h1 : ∀ r c, ‖M r c - B r c‖ ^ 2 ≤ (α * (x r * x c) + σ) ^ 2 := by
    intro r c
    refine pow_le_pow_left₀ (norm_nonneg _) ((h r c).trans (le_of_eq ?_)) 2
    rw [Real.sqrt_mul (hm r).le, hx]
    simp only [one_div]
    rw [← mul_inv, div_eq_mul_inv]
  refine (Finset.sum_le_sum fun r _ => Finset.sum_le_sum fun c _ => h1 r c).trans ?_
  have e : ∑ r, ∑ c, (α * (x r * x c) + σ) ^ 2 = α ^ 2 * ((∑ r, x r ^ 2) * ∑ c, x c ^ 2) + 2 * α * σ * ((∑ r, x r) * ∑ c, x c) + (m : ℝ) ^ 2 * σ ^ 2 := by
    rw [Finset.sum_mul_sum, Finset.sum_mul_sum, Finset.mul_sum, Finset.mul_sum]
    have : (m : ℝ) ^ 2 * σ ^ 2 = ∑ _r : Fin m, ∑ _c : Fin m, σ ^ 2 := by simp; ring
    rw [this, ← Finset.sum_add_distrib, ← Finset.sum_add_distrib]
    refine Finset.sum_congr rfl fun r _ => ?_
    rw [Finset.mul_sum, Finset.mul_sum, ← Finset.sum_add_distrib, ← Finset.sum_add_distrib]
    refine Finset.sum_congr rfl fun c _ => ?_
    ring
  rw [e]
  have hcs : (∑ r, x r) ^ 2 ≤ m * ∑ r, x r ^ 2 := by
    have := sq_sum_le_card_mul_sum_sq (s := Finset.univ) (f := x)
    simpa using this
  have hsx : ∑ r, x r ^ 2 = ∑ r : Fin m, 1 / mass r := Finset.sum_congr rfl fun r _ => hx2 r
  rw [hsx] at hcs ⊢
  have : 2 * α * σ * ((∑ r, x r) * ∑ c, x c) ≤ 2 * α * σ * (m * ∑ r : Fin m, 1 / mass r) := by
    rw [← sq]
    gcongr
  nlinarith [this]

/-! ### C132 -/

/-- The numbers the machine holds for the input: lattice of the unit cell, positions, lattice of the super cell, masses of the degrees of freedom, amplitude. -/
structure Held where
  lattice : M3 ℝ
  unitCart : ℕ → V3 ℝ
  superCart : ℕ → V3 ℝ
  superLat : M3 ℝ
  mass : ℕ → ℝ
  d : ℝ

/-- The stored numbers are the exact ones up to rounding: `ℓ` bounds the lattice of the unit cell, `R` the positions and the lattice of the super cell. -/
structure HeldNear (ε ℓ R : ℝ) (u s : Cell ℝ) (mass : ℕ → ℝ) (d : ℝ) (x : Held) : Prop where
  lattice : ∀ i j, |u.lattice i j| ≤ ℓ ∧ |x.lattice i j - u.lattice i j| ≤ ε * ℓ
  unitCart : ∀ a < u.cart.length, ∀ j, |u.cart.getD a 0 j| ≤ R ∧ |x.unitCart a j - u.cart.getD a 0 j| ≤ ε * R
  superCart : ∀ a < s.cart.length, ∀ j, |s.cart.getD a 0 j| ≤ R ∧ |x.superCart a j - s.cart.getD a 0 j| ≤ ε * R
  superLat : ∀ i j, |s.lattice i j| ≤ R ∧ |x.superLat i j - s.lattice i j| ≤ ε * R
  mass : ∀ r, |x.mass r - mass r| ≤ ε * mass r
  d : |x.d - d| ≤ ε * |d|

/-- The forces of the atoms of a list are stored up to `ε F`, where `F` bounds them. -/
def HeldForces (ε F : ℝ) (atoms : List ℕ) (files' files : List (Rows ℝ)) : Prop :=
  files'.length = files.length ∧ ∀ (i : ℕ) (f' f : Rows ℝ), files'[i]? = some f' → files[i]? = some f → ∀ s ∈ atoms, ∀ x, |f s x| ≤ F ∧ |f' s x - f s x| ≤ ε * F

/-- What `eval_phonon` reads when the machine holds `x` and has computed the force constants `fc`; indices are exact. -/
def Held.data (x : Held) (A : Arith) (u s : Cell ℝ) (n p : Fin 3 → ℤ) (fc : FC ℝ) : PhononData :=
  { ofCells u s n p fc x.mass with unitCart := x.unitCart, superCart := x.superCart, superLat := x.superLat, recip := Machine.reciprocal A x.lattice }

/-- Eigenvalues returned by a backward stable solver: those of a matrix whose entries differ from the given ones by at most `σ`. -/
def BackwardStable {m : ℕ} (σ : ℝ) (M : Matrix (Fin m) (Fin m) ℂ) (w : Fin m → ℂ) : Prop :=
  ∃ M' : Matrix (Fin m) (Fin m) ℂ, (∀ r c, ‖M' r c - M r c‖ ≤ σ) ∧ M'.charpoly.roots = Finset.univ.val.map w

/-- The dynamical matrix the machine computes. -/
def machineMatrix (A : Arith) (x : Held) (u s : Cell ℝ) (n p : Fin 3 → ℤ) (fc : FC ℝ) (k : V3 ℝ) (m : ℕ) : Matrix (Fin m) (Fin m) ℂ :=
  Matrix.of fun r c => Machine.dynMatrix A (x.data A u s n p fc) k r c

/-- **C132, the matrix.**  The calculation of `C97` in an arithmetic that rounds every operation with unit roundoff `ε`, on stored numbers (cells, masses, amplitude,
forces, wave vectors) that are themselves rounded: without symmetry, the force constants are computed without an exception, and at every wave vector that fits into the
super cell every entry of the dynamical matrix is the one of the infinite crystal up to `2 Γ ε · E F / |d| / √(m m')`, provided that `Γ ε ≤ 1` and that the cell is
not too flat for the arithmetic.  (`Γ = dynFactor`, linear in the number `E` of cells, in the flatness of the cell and in the size of the phases.)  Comparisons of
image distances may come out either way under rounding; this does not matter at these wave vectors. -/
theorem C132_matrix {junk : ℕ → List (V3 ℝ)} {u s s' : Cell ℝ} {n p : Fin 3 → ℤ} (h : GoodCall junk u n p)
    (hdet : u.lattice.det ≠ 0) (sel : List ℕ) (hsel : u.atomTrue = some sel) (hlt : ∀ t ∈ sel, t < u.cart.length)
    (hxyz : u.xyzTrue = some (sel.flatMap fun a => [a, a, a]))
    (hs : setSuperCell junk u n p = .ok s) (hs' : setSuperIndTrue s u n p = .ok s')
    (Φ : Springs) (hΦ : ∀ a x b y l, l ∈ (Φ a x b y).support → ∀ i, p i = 0 → l i = 0)
    (d : ℝ) (hd : d ≠ 0) (F0 : Rows ℝ) (search : Run (List (ℕ × List (V3 ℝ)))) (mass : ℕ → ℝ) (hm : ∀ r, 0 < mass r) :
    ∃ s'' files, writeDisplaceCell s' sel (n 0 * n 1 * n 2).toNat d p false search = .ok (s'', files) ∧
      ∀ (ε ℓ R F k0 : ℝ) (A : Arith) (x : Held) (forces : List (Rows ℝ)) (junk' : FC ℝ), 0 ≤ ε → Rounds ε A → HeldNear ε ℓ R u s' mass d x →
        HeldForces ε F (List.range s'.cart.length) forces (files.map fun f => harmonicForces (superSprings n (n 0 * n 1 * n 2).toNat Φ) F0 s' f.2) →
        277 * flatness u.lattice ℓ * ε ≤ 1 → dynFactor u.lattice ℓ k0 R (n 0 * n 1 * n 2).toNat * ε ≤ 1 →
        ∃ fc, Machine.setPlain A x.d sel.length junk' forces = .ok fc ∧
          ∀ k k' : V3 ℝ, Fits n p k → (∀ i, |k i| ≤ k0 ∧ |k' i - k i| ≤ ε * k0) →
            ∃ q : V3 ℝ, (∀ c, dot3 q (u.lattice c) = 2 * Real.pi * k c) ∧ ∀ r c : Fin (3 * sel.length),
              ‖machineMatrix A x u s' n p fc k' (3 * sel.length) r c - trueDyn u sel mass Φ q (3 * sel.length) r c‖ ≤
                2 * dynFactor u.lattice ℓ k0 R (n 0 * n 1 * n 2).toNat * ε * ((n 0 * n 1 * n 2).toNat * (F / (|d| * (1 / 10 ^ 10)))) /
                  Real.sqrt (mass r * mass c) := by
  obtain ⟨s'', files, fc0, hw, hfc0, hmat⟩ := C97_exact_dynamical_matrix h hdet sel hsel hlt hxyz hs hs' Φ hΦ d hd F0 (fun _ _ => 0) search mass
  refine ⟨s'', files, hw, ?_⟩
  intro ε ℓ R F k0 A x forces junk' hε hA hx hF hc hc2
  have hs'cart : s'.cart = s.cart := by
    unfold setSuperIndTrue at hs'
    simp only [hsel] at hs'
    cases hs'
    rfl
  obtain ⟨s0, hs0, hlen, -⟩ := C06_supercell_positions h
  rw [hs] at hs0; cases hs0
  have h0 := h.pos 0
  have h1 := h.pos 1
  have h2 := h.pos 2
  have hpos : 0 < n 0 * n 1 * n 2 := by positivity
  set E := (n 0 * n 1 * n 2).toNat with hEdef
  have hE0 : 0 < E := by omega
  have hsel' : ∀ t ∈ sel, E * t < s'.cart.length := by
    intro t ht
    rw [hs'cart, hlen]
    exact Nat.mul_lt_mul_of_pos_left (hlt t ht) hE0
  have hlen6 : (files.map fun f => harmonicForces (superSprings n E Φ) F0 s' f.2).length = 6 * sel.length := by
    obtain ⟨s1, files1, hw1, hl, -⟩ := C15_displaced_files s' sel E d p false search (Or.inl rfl) hsel'
    rw [hw] at hw1
    cases hw1
    rw [List.length_map, hl]
  obtain ⟨hgs, hgg⟩ := phonon_data_reachable h hdet sel hsel hxyz hs hs' fc0 mass
  have hDE : (ofCells u s' n p fc0 mass).E = E := by
    simp only [ofCells]; rw [SuperCell.enlarge_eq n p h.cons]
  have hV : volume u.lattice ≠ 0 := by
    have : volume u.lattice = u.lattice.det := by
      rw [Matrix.det_fin_three]
      simp only [volume, dot3, cross3, Matrix.cons_val_zero, Matrix.cons_val_one, Matrix.cons_val]; ring
    rw [this]; exact hdet
  have hL : ∀ i j, Err ε 1 ℓ (x.lattice i j) (u.lattice i j) := fun i j => ⟨by rw [one_mul]; exact (hx.lattice i j).2, (hx.lattice i j).1⟩
  have hκ := one_le_flatness (fun i j => (hL i j).size) hV
  have h277 : 277 * ε ≤ 1 := by nlinarith
  have hF' : ForcesNear ε F (List.range s'.cart.length) forces (files.map fun f => harmonicForces (superSprings n E Φ) F0 s' f.2) :=
    ⟨hF.1, fun i f' f g1 g2 a ha y => ⟨by rw [one_mul]; exact (hF.2 i f' f g1 g2 a ha y).2, (hF.2 i f' f g1 g2 a ha y).1⟩⟩
  obtain ⟨fc, hfc, hfce⟩ := setPlain_err hA hε (by linarith) hd hx.d sel.length junk' _ hF' hlen6 hfc0
  refine ⟨fc, hfc, ?_⟩
  intro k k' hk hk'
  refine ⟨qVec (ofCells u s' n p fc0 mass) k, fun c => q_exists u.lattice hdet _ rfl k c, ?_⟩
  have hsx : ∀ a ∈ (ofCells u s' n p fc0 mass).superXyz, a < s'.cart.length := by
    intro a ha
    rw [hgs.super, hDE] at ha
    simp only [List.mem_flatMap, List.mem_map, List.mem_range, List.mem_cons, List.not_mem_nil, or_false] at ha
    obtain ⟨b, ⟨t, ht, i, hi, rfl⟩, ha⟩ := ha
    have hae : a = t * E + i := by rcases ha with h | h | h <;> exact h
    rw [hae, hs'cart, hlen]
    have h1 := hlt t ht
    calc t * E + i < t * E + E := by omega
      _ = E * (t + 1) := by ring
      _ ≤ E * u.cart.length := Nat.mul_le_mul_left _ h1
  have hux : ∀ a ∈ (ofCells u s' n p fc0 mass).unitXyz, a < u.cart.length := by
    intro a ha
    rw [hgs.unit] at ha
    simp only [List.mem_flatMap, List.mem_cons, List.not_mem_nil, or_false] at ha
    obtain ⟨t, ht, ha⟩ := ha
    have hae : a = t := by rcases ha with h | h | h <;> exact h
    rw [hae]; exact hlt t ht
  have hul : (ofCells u s' n p fc0 mass).unitXyz.length = 3 * sel.length := by rw [hgs.unit]; simp [mul_comm]
  have hD : DataNear ε R (F / (|d| * (1 / 10 ^ 10))) (x.data A u s' n p fc) (ofCells u s' n p fc0 mass) :=
    { pbc := rfl
      E := rfl
      unitXyz := rfl
      superXyz := rfl
      superLat := fun i j => ⟨by rw [one_mul]; exact (hx.superLat i j).2, (hx.superLat i j).1⟩
      superCart := fun a ha j => ⟨by rw [one_mul]; exact (hx.superCart a (hsx a ha) j).2, (hx.superCart a (hsx a ha) j).1⟩
      unitCart := fun a ha j => ⟨by rw [one_mul]; exact (hx.unitCart a (hux a ha) j).2, (hx.unitCart a (hux a ha) j).1⟩
      fc := fun a ha y c hcl => hfce a (List.mem_range.2 (hsx a ha)) y c (by rw [← hul]; exact hcl)
      mass := fun r _ => ⟨hm r, hx.mass r⟩ }
  have hcomm : Commensurate (ofCells u s' n p fc0 mass) (qVec (ofCells u s' n p fc0 mass) k) := by
    intro i hi
    have hpi : p i ≠ 0 := by
      have : i ∈ (List.finRange 3).filter fun i => p i ≠ 0 := hi
      simpa using this
    obtain ⟨z, hz⟩ := hk i hpi
    refine ⟨z, ?_⟩
    have e : (ofCells u s' n p fc0 mass).superLat i = fun j => u.lattice i j * (n i : ℝ) := congrFun hgg.lat i
    have e2 : dot3 (qVec (ofCells u s' n p fc0 mass) k) ((ofCells u s' n p fc0 mass).superLat i) =
        dot3 (qVec (ofCells u s' n p fc0 mass) k) (u.lattice i) * n i := by
      rw [e]; simp only [dot3]; ring
    rw [e2, q_exists u.lattice hdet _ rfl k i, mul_assoc, hz]
  intro r c
  have hA' := congrFun (congrFun (hmat k hk _ le_rfl) r) c
  rw [Matrix.of_apply] at hA'
  rw [← hA']
  have := dyn_err hA hε hgs hD hL hV rfl rfl (fun i => ⟨by rw [one_mul]; exact (hk' i).2, (hk' i).1⟩) hc (by rw [hDE]; exact hc2) hcomm r.2 c.2
  rw [hDE] at this
  refine (Complex.norm_le_abs_re_add_abs_im _).trans ?_
  rw [Complex.sub_re, Complex.sub_im]
  refine (add_le_add this.1.near this.2.near).trans (le_of_eq ?_)
  show dynFactor u.lattice ℓ k0 R E * ε * (E * (F / (|d| * (1 / 10 ^ 10))) / Real.sqrt (mass r * mass c)) +
    dynFactor u.lattice ℓ k0 R E * ε * (E * (F / (|d| * (1 / 10 ^ 10))) / Real.sqrt (mass r * mass c)) = _
  ring

/-- **C132.**  The frequencies: in addition the solver is only backward stable (it returns the eigenvalues of a matrix whose entries differ by at most `σ` from the
computed ones), and the conversion to THz is rounded too.  If the springs are symmetric, every frequency `ν` the machine computes is within
`120 ε |ν0| + 2 √(2 Γ ε E F / |d| · Σ 1/m + m σ) / π` (in THz) of a frequency `ν0` of the crystal. -/
theorem C132_frequencies {junk : ℕ → List (V3 ℝ)} {u s s' : Cell ℝ} {n p : Fin 3 → ℤ} (h : GoodCall junk u n p)
    (hdet : u.lattice.det ≠ 0) (sel : List ℕ) (hsel : u.atomTrue = some sel) (hlt : ∀ t ∈ sel, t < u.cart.length)
    (hxyz : u.xyzTrue = some (sel.flatMap fun a => [a, a, a]))
    (hs : setSuperCell junk u n p = .ok s) (hs' : setSuperIndTrue s u n p = .ok s')
    (Φ : Springs) (hΦ : ∀ a x b y l, l ∈ (Φ a x b y).support → ∀ i, p i = 0 → l i = 0) (hsymm : SymmetricSprings Φ)
    (d : ℝ) (hd : d ≠ 0) (F0 : Rows ℝ) (search : Run (List (ℕ × List (V3 ℝ)))) (mass : ℕ → ℝ) (hm : ∀ r, 0 < mass r) :
    ∃ s'' files, writeDisplaceCell s' sel (n 0 * n 1 * n 2).toNat d p false search = .ok (s'', files) ∧
      ∀ (ε ℓ R F k0 σ : ℝ) (A : Arith) (x : Held) (forces : List (Rows ℝ)) (junk' : FC ℝ), 0 ≤ ε → 0 ≤ σ → Rounds ε A → HeldNear ε ℓ R u s' mass d x →
        HeldForces ε F (List.range s'.cart.length) forces (files.map fun f => harmonicForces (superSprings n (n 0 * n 1 * n 2).toNat Φ) F0 s' f.2) →
        277 * flatness u.lattice ℓ * ε ≤ 1 → dynFactor u.lattice ℓ k0 R (n 0 * n 1 * n 2).toNat * ε ≤ 1 →
        ∃ fc, Machine.setPlain A x.d sel.length junk' forces = .ok fc ∧
          ∀ k k' : V3 ℝ, Fits n p k → (∀ i, |k i| ≤ k0 ∧ |k' i - k i| ≤ ε * k0) →
            ∃ q row0, (∀ c, dot3 q (u.lattice c) = 2 * Real.pi * k c) ∧ IsSpectrum (trueDyn u sel mass Φ q (3 * sel.length)) row0 ∧
              ∀ w, BackwardStable σ (machineMatrix A x u s' n p fc k' (3 * sel.length)) w → ∀ i, ∃ ν0 ∈ row0, |Machine.freqOf A (w i) - ν0| ≤
                120 * ε * |ν0| + 2 * Real.sqrt (2 * dynFactor u.lattice ℓ k0 R (n 0 * n 1 * n 2).toNat * ε *
                  ((n 0 * n 1 * n 2).toNat * (F / (|d| * (1 / 10 ^ 10)))) * (∑ r : Fin (3 * sel.length), 1 / mass r) + (3 * sel.length : ℕ) * σ) /
                  (Real.pi * 10 ^ 12) := by
  obtain ⟨s'', files, hw, hmain⟩ := C132_matrix h hdet sel hsel hlt hxyz hs hs' Φ hΦ d hd F0 search mass hm
  refine ⟨s'', files, hw, ?_⟩
  intro ε ℓ R F k0 σ A x forces junk' hε hσ hA hx hF hc hc2
  obtain ⟨fc, hfc, hfin⟩ := hmain ε ℓ R F k0 A x forces junk' hε hA hx hF hc hc2
  refine ⟨fc, hfc, ?_⟩
  intro k k' hk hk'
  obtain ⟨q, hq, hent⟩ := hfin k k' hk hk'
  set B := trueDyn u sel mass Φ q (3 * sel.length) with hB
  obtain ⟨row0, hrow0⟩ : ∃ row0, IsSpectrum B row0 := ⟨(B.charpoly.roots.map freqOf).sort (· ≤ ·), Multiset.pairwise_sort _ _, Multiset.sort_eq _ _⟩
  refine ⟨q, row0, hq, hrow0, ?_⟩
  rintro w ⟨M', hM', hroots⟩ i
  have hherm : B.IsHermitian := trueDyn_hermitian u sel mass hsymm q _
  have hV : 0 < |volume u.lattice| := abs_pos.2 (by
    have : volume u.lattice = u.lattice.det := by
      rw [Matrix.det_fin_three]
      simp only [volume, dot3, cross3, Matrix.cons_val_zero, Matrix.cons_val_one, Matrix.cons_val]; ring
    rw [this]; exact hdet)
  have hl0 : 0 ≤ ℓ := (abs_nonneg _).trans (hx.lattice 0 0).1
  have hR0 : 0 ≤ R := (abs_nonneg _).trans (hx.superLat 0 0).1
  have hk00 : 0 ≤ k0 := (abs_nonneg _).trans (hk' 0).1
  have hfac : 90 ≤ dynFactor u.lattice ℓ k0 R (n 0 * n 1 * n 2).toNat := by
    have hB0 : 0 ≤ recipSize u.lattice ℓ := by unfold recipSize; have := Real.pi_pos; positivity
    have hK0 : 0 ≤ flatness u.lattice ℓ := by unfold flatness; positivity
    have : 0 ≤ phaseFactor u.lattice ℓ k0 R := by unfold phaseFactor; positivity
    have hE : (0 : ℝ) ≤ (n 0 * n 1 * n 2).toNat := Nat.cast_nonneg _
    unfold dynFactor
    linarith
  set Γ := dynFactor u.lattice ℓ k0 R (n 0 * n 1 * n 2).toNat with hΓ
  set f := F / (|d| * (1 / 10 ^ 10)) with hf
  have hα : 0 ≤ 2 * Γ * ε * ((n 0 * n 1 * n 2).toNat * f) := by
    rcases Nat.eq_zero_or_pos (3 * sel.length) with h0 | h0
    · exact absurd i.2 (by omega)
    · have := (norm_nonneg _).trans (hent ⟨0, h0⟩ ⟨0, h0⟩)
      have hs0 : 0 < Real.sqrt (mass 0 * mass 0) := Real.sqrt_pos.2 (mul_pos (hm 0) (hm 0))
      rcases div_nonneg_iff.1 this with h1 | h1
      · exact h1.1
      · exact absurd h1.2 (not_le.2 hs0)
  have hμ : w i ∈ M'.charpoly.roots := by rw [hroots]; exact Multiset.mem_map_of_mem _ (Finset.mem_univ i)
  obtain ⟨l, hl, hnear⟩ := near_eigenvalue_sum hherm hα hσ (fun r => hm r) (fun r c => by
    calc ‖M' r c - B r c‖ = ‖(machineMatrix A x u s' n p fc k' (3 * sel.length) r c - B r c) + (M' r c - machineMatrix A x u s' n p fc k' (3 * sel.length) r c)‖ := by
          congr 1; ring
      _ ≤ _ := (norm_add_le _ _).trans (add_le_add (hent r c) (hM' r c))) hμ
  set b := 2 * Γ * ε * ((n 0 * n 1 * n 2).toNat * f) * (∑ r : Fin (3 * sel.length), 1 / mass r) + (3 * sel.length : ℕ) * σ with hb
  refine ⟨freqOf l, ?_, ?_⟩
  · have : freqOf l ∈ (row0 : Multiset ℝ) := by rw [hrow0.2]; exact Multiset.mem_map_of_mem _ hl
    exact this
  have him : l.im = 0 := by
    have : l ∈ (Finset.univ.val.map fun i => ((hherm.eigenvalues i : ℝ) : ℂ)) := by
      rw [hherm.roots_charpoly_eq_eigenvalues] at hl
      simpa [Function.comp_def] using hl
    obtain ⟨j, -, rfl⟩ := Multiset.mem_map.1 this
    exact Complex.ofReal_im _
  have hpi : 0 < Real.pi * 10 ^ 12 := by have := Real.pi_pos; positivity
  have h60 : 60 * ε ≤ 1 := by nlinarith
  have e1 := freq_err hA hε h60 (w i)
  have e2 := freqOf_near (w i) l
  have e3 := freqOf_real him
  have hb0 : 0 ≤ b := (norm_nonneg _).trans hnear
  have hs1 : Real.sqrt ‖w i - l‖ ≤ Real.sqrt b := Real.sqrt_le_sqrt hnear
  have hs2 : Real.sqrt ‖w i‖ ≤ Real.sqrt ‖l‖ + Real.sqrt b := by
    rw [Real.sqrt_le_left (by positivity)]
    have : ‖w i‖ ≤ ‖l‖ + b := by
      calc ‖w i‖ = ‖l + (w i - l)‖ := by congr 1; ring
        _ ≤ _ := (norm_add_le _ _).trans (by linarith)
    nlinarith [Real.sq_sqrt (norm_nonneg l), Real.sq_sqrt hb0, Real.sqrt_nonneg ‖l‖, Real.sqrt_nonneg b]
  have e4 : Real.sqrt ‖w i‖ / (Real.pi * 10 ^ 12) ≤ 2 * |freqOf l| + Real.sqrt b / (Real.pi * 10 ^ 12) := by
    rw [← e3, ← add_div]
    gcongr
  have e5 : |freqOf (w i) - freqOf l| ≤ Real.sqrt b / (Real.pi * 10 ^ 12) := e2.trans (by gcongr)
  have hY : 0 ≤ Real.sqrt b / (Real.pi * 10 ^ 12) := by positivity
  calc |Machine.freqOf A (w i) - freqOf l| = |(Machine.freqOf A (w i) - freqOf (w i)) + (freqOf (w i) - freqOf l)| := by ring_nf
    _ ≤ 60 * ε * (2 * |freqOf l| + Real.sqrt b / (Real.pi * 10 ^ 12)) + Real.sqrt b / (Real.pi * 10 ^ 12) := by
      refine (abs_add_le _ _).trans (add_le_add (e1.trans ?_) e5)
      gcongr
    _ = 120 * ε * |freqOf l| + (60 * ε + 1) * (Real.sqrt b / (Real.pi * 10 ^ 12)) := by ring
    _ ≤ 120 * ε * |freqOf l| + 2 * (Real.sqrt b / (Real.pi * 10 ^ 12)) := by gcongr; linarith
    _ = _ := by ring

/-! ### Convergence -/

/-- Sorting does not amplify errors. -/
theorem sorted_near {m : ℕ} {f g : Fin m → ℝ} {η : ℝ} (h : ∀ i, |f i - g i| ≤ η) {σ τ : Equiv.Perm (Fin m)} (hσ : Monotone (f ∘ σ)) (hτ : Monotone (g ∘ τ)) (i : Fin m) :
    f (σ i) ≤ g (τ i) + η := by
  by_contra hlt
  push Not at hlt
  have hsub : (Finset.univ.filter fun j : Fin m => i ≤ j).image σ ⊆ (Finset.univ.filter fun j : Fin m => i < j).image τ := by
    intro x hx
    obtain ⟨j, hj, rfl⟩ := Finset.mem_image.1 hx
    have hij : i ≤ j := (Finset.mem_filter.1 hj).2
    refine Finset.mem_image.2 ⟨τ.symm (σ j), Finset.mem_filter.2 ⟨Finset.mem_univ _, ?_⟩, τ.apply_symm_apply _⟩
    by_contra hle
    push Not at hle
    have h1 : f (σ i) ≤ f (σ j) := hσ hij
    have h2 : g (τ (τ.symm (σ j))) ≤ g (τ i) := hτ hle
    rw [τ.apply_symm_apply] at h2
    have h3 := (abs_le.1 (h (σ j))).2
    linarith
  have hcard := Finset.card_le_card hsub
  rw [Finset.card_image_of_injective _ σ.injective, Finset.card_image_of_injective _ τ.injective] at hcard
  have hss : (Finset.univ.filter fun j : Fin m => i < j) ⊂ (Finset.univ.filter fun j : Fin m => i ≤ j) := by
    refine Finset.ssubset_iff_of_subset (fun j hj => ?_) |>.2 ⟨i, by simp, by simp⟩
    exact Finset.mem_filter.2 ⟨Finset.mem_univ _, (Finset.mem_filter.1 hj).2.le⟩
  exact absurd (Finset.card_lt_card hss) (not_lt.2 hcard)

theorem root_norm {m : ℕ} {M : Matrix (Fin m) (Fin m) ℂ} {μ : ℂ} (h : μ ∈ M.charpoly.roots) : ‖μ‖ ≤ ∑ r, ∑ c, ‖M r c‖ := by
  obtain ⟨v, hv, hMv⟩ := (root_iff M μ).1 h
  obtain ⟨r, hr⟩ : ∃ r, ∀ c, ‖v c‖ ≤ ‖v r‖ := by
    have hne : Nonempty (Fin m) := by
      by_contra hemp
      rw [not_nonempty_iff] at hemp
      exact hv (funext fun i => (hemp.false i).elim)
    obtain ⟨r, -, hr⟩ := Finset.exists_max_image Finset.univ (fun c => ‖v c‖) Finset.univ_nonempty
    exact ⟨r, fun c => hr c (Finset.mem_univ _)⟩
  have hvr : 0 < ‖v r‖ := by
    rw [norm_pos_iff]
    intro h0
    refine hv (funext fun c => ?_)
    have := hr c
    rw [h0, norm_zero] at this
    exact norm_le_zero_iff.1 this
  have e := congrFun hMv r
  rw [Pi.smul_apply, smul_eq_mul] at e
  have h1 : ‖μ‖ * ‖v r‖ ≤ (∑ c, ‖M r c‖) * ‖v r‖ := by
    rw [← norm_mul, ← e, Finset.sum_mul]
    show ‖∑ c, M r c * v c‖ ≤ _
    refine (norm_sum_le _ _).trans (Finset.sum_le_sum fun c _ => ?_)
    rw [norm_mul]
    exact mul_le_mul_of_nonneg_left (hr c) (norm_nonneg _)
  have h2 := le_of_mul_le_mul_right h1 hvr
  exact h2.trans (Finset.single_le_sum (f := fun r => ∑ c, ‖M r c‖) (fun r _ => Finset.sum_nonneg fun c _ => norm_nonneg _) (Finset.mem_univ r))

/-- The computed frequencies, in order, of matrices near a given one. -/
theorem machine_spectrum_continuous {m : ℕ} (B : Matrix (Fin m) (Fin m) ℂ) {row0 : List ℝ} (h0 : IsSpectrum B row0) {tol : ℝ} (htol : 0 < tol) :
    ∃ δ > 0, ∀ (ε : ℝ) (A : Arith) (M : Matrix (Fin m) (Fin m) ℂ) (w : Fin m → ℂ) (τ : Equiv.Perm (Fin m)), 0 ≤ ε → ε ≤ δ → Rounds ε A →
      (∀ r c, ‖M r c - B r c‖ ≤ δ) → M.charpoly.roots = Finset.univ.val.map w → IsArgsort (fun i => Machine.freqOf A (w i)) τ →
      List.Forall₂ (fun ν ν0 => |ν - ν0| < tol) (List.ofFn fun i => Machine.freqOf A (w (τ i))) row0 := by
  obtain ⟨δ1, hδ1, hcont⟩ := spectrum_continuous B h0 (ε := tol / 2) (by linarith)
  set S : ℝ := ∑ r, ∑ c, (‖B r c‖ + 1) with hS
  have hS0 : 0 ≤ S := Finset.sum_nonneg fun r _ => Finset.sum_nonneg fun c _ => by positivity
  have hpi : 0 < Real.pi * 10 ^ 12 := by have := Real.pi_pos; positivity
  set Y : ℝ := 60 * (Real.sqrt S / (Real.pi * 10 ^ 12)) with hY
  have hY0 : 0 ≤ Y := by positivity
  refine ⟨min (min δ1 1) (min (1 / 60) (tol / (2 * (Y + 1)))), by positivity, ?_⟩
  intro ε A M w τ hε0 hε hA hM hroots hτ
  have l1 : min (min δ1 1) (min (1 / 60) (tol / (2 * (Y + 1)))) ≤ δ1 := (min_le_left _ _).trans (min_le_left _ _)
  have l2 : min (min δ1 1) (min (1 / 60) (tol / (2 * (Y + 1)))) ≤ 1 := (min_le_left _ _).trans (min_le_right _ _)
  have l3 : ε ≤ 1 / 60 := hε.trans ((min_le_right _ _).trans (min_le_left _ _))
  have l4 : ε ≤ tol / (2 * (Y + 1)) := hε.trans ((min_le_right _ _).trans (min_le_right _ _))
  have hw : ∀ i, ‖w i‖ ≤ S := by
    intro i
    have hμ : w i ∈ M.charpoly.roots := by rw [hroots]; exact Multiset.mem_map_of_mem _ (Finset.mem_univ i)
    refine (root_norm hμ).trans (Finset.sum_le_sum fun r _ => Finset.sum_le_sum fun c _ => ?_)
    calc ‖M r c‖ = ‖B r c + (M r c - B r c)‖ := by congr 1; ring
      _ ≤ _ := (norm_add_le _ _).trans (by have := (hM r c).trans l2; linarith)
  have hf : ∀ i, |Machine.freqOf A (w i) - freqOf (w i)| ≤ ε * Y := by
    intro i
    refine (freq_err hA hε0 (by linarith) (w i)).trans ?_
    have : Real.sqrt ‖w i‖ / (Real.pi * 10 ^ 12) ≤ Real.sqrt S / (Real.pi * 10 ^ 12) := by
      have := Real.sqrt_le_sqrt (hw i)
      gcongr
    rw [hY]
    nlinarith
  have hsmall : ε * Y < tol / 2 := by
    rw [le_div_iff₀ (by positivity)] at l4
    by_cases hz : ε = 0
    · rw [hz, zero_mul]; linarith
    · have : 0 < ε := lt_of_le_of_ne hε0 (Ne.symm hz)
      nlinarith
  set ρ := Tuple.sort (freqOf ∘ w) with hρ
  have hmono : Monotone ((freqOf ∘ w) ∘ ρ) := Tuple.monotone_sort _
  have hspec : IsSpectrum M (List.ofFn ((freqOf ∘ w) ∘ ρ)) := by
    refine ⟨?_, ?_⟩
    · rw [List.pairwise_ofFn]
      intro i j hij
      exact hmono hij.le
    · rw [hroots, ← Fin.univ_val_map, Multiset.map_map, ← Multiset.map_map]
      congr 1
      have := congrArg Finset.val (Finset.map_univ_equiv ρ)
      simpa using this
  have hrow := hcont M _ (fun r c => (hM r c).trans l1) hspec
  have hlen := hrow.length_eq
  rw [List.length_ofFn] at hlen
  rw [List.forall₂_iff_get]
  refine ⟨by rw [List.length_ofFn]; exact hlen, ?_⟩
  intro i hi1 hi2
  rw [List.length_ofFn] at hi1
  have h1 := (List.forall₂_iff_get.1 hrow).2 i (by rw [List.length_ofFn]; exact hi1) hi2
  simp only [List.get_eq_getElem, List.getElem_ofFn, Function.comp] at h1 ⊢
  have a1 := sorted_near hf (σ := τ) (τ := ρ) hτ hmono ⟨i, hi1⟩
  have a2 := sorted_near (fun i => by rw [abs_sub_comm]; exact hf i) (σ := ρ) (τ := τ) hmono hτ ⟨i, hi1⟩
  simp only [Function.comp] at a1 a2
  rw [abs_lt] at h1 ⊢
  constructor <;> linarith [h1.1, h1.2]

/-- **C132, convergence.**  In the limit of a fine arithmetic the stored rows - all frequencies, in order and with multiplicity - are those of the crystal: for every
tolerance there is a roundoff below which every machine, whatever its roundings and its (backward stable) solver do, stores frequencies within the tolerance. -/
theorem C132_converges {junk : ℕ → List (V3 ℝ)} {u s s' : Cell ℝ} {n p : Fin 3 → ℤ} (h : GoodCall junk u n p)
    (hdet : u.lattice.det ≠ 0) (sel : List ℕ) (hsel : u.atomTrue = some sel) (hlt : ∀ t ∈ sel, t < u.cart.length)
    (hxyz : u.xyzTrue = some (sel.flatMap fun a => [a, a, a]))
    (hs : setSuperCell junk u n p = .ok s) (hs' : setSuperIndTrue s u n p = .ok s')
    (Φ : Springs) (hΦ : ∀ a x b y l, l ∈ (Φ a x b y).support → ∀ i, p i = 0 → l i = 0)
    (d : ℝ) (hd : d ≠ 0) (F0 : Rows ℝ) (search : Run (List (ℕ × List (V3 ℝ)))) (mass : ℕ → ℝ) (hm : ∀ r, 0 < mass r)
    (ℓ R F k0 : ℝ) (k : V3 ℝ) (hk : Fits n p k) (hk0 : ∀ i, |k i| ≤ k0) {tol : ℝ} (htol : 0 < tol) :
    ∃ s'' files, writeDisplaceCell s' sel (n 0 * n 1 * n 2).toNat d p false search = .ok (s'', files) ∧
      ∃ (q : V3 ℝ) (row0 : List ℝ), (∀ c, dot3 q (u.lattice c) = 2 * Real.pi * k c) ∧ IsSpectrum (trueDyn u sel mass Φ q (3 * sel.length)) row0 ∧
      ∃ ε0 > 0, ∀ (ε σ : ℝ) (A : Arith) (x : Held) (forces : List (Rows ℝ)) (junk' : FC ℝ) (k' : V3 ℝ), 0 ≤ ε → ε ≤ ε0 → σ ≤ ε0 → Rounds ε A →
        HeldNear ε ℓ R u s' mass d x →
        HeldForces ε F (List.range s'.cart.length) forces (files.map fun f => harmonicForces (superSprings n (n 0 * n 1 * n 2).toNat Φ) F0 s' f.2) →
        (∀ i, |k' i - k i| ≤ ε * k0) →
        ∃ fc, Machine.setPlain A x.d sel.length junk' forces = .ok fc ∧
          ∀ w τ, BackwardStable σ (machineMatrix A x u s' n p fc k' (3 * sel.length)) w → IsArgsort (fun i => Machine.freqOf A (w i)) τ →
            List.Forall₂ (fun ν ν0 => |ν - ν0| < tol) (List.ofFn fun i => Machine.freqOf A (w (τ i))) row0 := by
  obtain ⟨s'', files, hw, hmain⟩ := C132_matrix h hdet sel hsel hlt hxyz hs hs' Φ hΦ d hd F0 search mass hm
  refine ⟨s'', files, hw, ?_⟩
  set q := qVec (ofCells u s' n p (fun _ _ => 0) mass) k with hq
  have hqL : ∀ c, dot3 q (u.lattice c) = 2 * Real.pi * k c := fun c => q_exists u.lattice hdet _ rfl k c
  set B := trueDyn u sel mass Φ q (3 * sel.length) with hB
  obtain ⟨row0, hrow0⟩ : ∃ row0, IsSpectrum B row0 := ⟨(B.charpoly.roots.map freqOf).sort (· ≤ ·), Multiset.pairwise_sort _ _, Multiset.sort_eq _ _⟩
  refine ⟨q, row0, hqL, hrow0, ?_⟩
  obtain ⟨δ, hδ, hcont⟩ := machine_spectrum_continuous B hrow0 htol
  set E := (n 0 * n 1 * n 2).toNat with hE
  set Γ := dynFactor u.lattice ℓ k0 R E with hΓ
  set Z : ℝ := ∑ r : Fin (3 * sel.length), ∑ c : Fin (3 * sel.length), |2 * Γ * (E * (F / (|d| * (1 / 10 ^ 10)))) / Real.sqrt (mass r * mass c)| with hZ
  have hZ0 : 0 ≤ Z := Finset.sum_nonneg fun r _ => Finset.sum_nonneg fun c _ => abs_nonneg _
  refine ⟨min (min (δ / 2) (δ / (2 * (Z + 1)))) (min (1 / (277 * |flatness u.lattice ℓ| + 1)) (1 / (|Γ| + 1))), by positivity, ?_⟩
  intro ε σ A x forces junk' k' hε0 hε hσ hA hx hF hkk
  have l1 := (min_le_left (min (δ / 2) (δ / (2 * (Z + 1)))) (min (1 / (277 * |flatness u.lattice ℓ| + 1)) (1 / (|Γ| + 1)))).trans (min_le_left _ _)
  have l2 := hε.trans ((min_le_left _ _).trans (min_le_right _ _))
  have l3 := hε.trans ((min_le_right _ _).trans (min_le_left _ _))
  have l4 := hε.trans ((min_le_right _ _).trans (min_le_right _ _))
  have hc : 277 * flatness u.lattice ℓ * ε ≤ 1 := by
    rw [le_div_iff₀ (by positivity)] at l3
    have := le_abs_self (flatness u.lattice ℓ)
    nlinarith
  have hc2 : Γ * ε ≤ 1 := by
    rw [le_div_iff₀ (by positivity)] at l4
    have := le_abs_self Γ
    nlinarith
  obtain ⟨fc, hfc, hfin⟩ := hmain ε ℓ R F k0 A x forces junk' hε0 hA hx hF hc hc2
  refine ⟨fc, hfc, ?_⟩
  rintro w τ ⟨M', hM', hroots⟩ hτ
  obtain ⟨q', hq', hent⟩ := hfin k k' hk fun i => ⟨hk0 i, hkk i⟩
  have hqq : q' = q := by
    have hz : ∀ c, dot3 (q' - q) (u.lattice c) = 0 := by
      intro c
      have e : dot3 (q' - q) (u.lattice c) = dot3 q' (u.lattice c) - dot3 q (u.lattice c) := by simp only [dot3, Pi.sub_apply]; ring
      rw [e, hq', hqL, sub_self]
    have hv : u.lattice.mulVec (q' - q) = 0 := by
      funext c
      have := hz c
      simp only [Matrix.mulVec, dotProduct, Fin.sum_univ_three, Pi.zero_apply]
      simp only [dot3] at this
      linarith
    by_contra hne
    exact hdet (Matrix.exists_mulVec_eq_zero_iff.1 ⟨q' - q, sub_ne_zero.2 hne, hv⟩)
  rw [hqq] at hent
  refine hcont ε A M' w τ hε0 (hε.trans (l1.trans (by linarith))) hA ?_ hroots hτ
  intro r c
  have e1 : ‖machineMatrix A x u s' n p fc k' (3 * sel.length) r c - B r c‖ ≤ ε * Z := by
    refine (hent r c).trans ?_
    have : |2 * Γ * (E * (F / (|d| * (1 / 10 ^ 10)))) / Real.sqrt (mass r * mass c)| ≤ Z := by
      refine (Finset.single_le_sum (f := fun c : Fin (3 * sel.length) => |2 * Γ * (E * (F / (|d| * (1 / 10 ^ 10)))) / Real.sqrt (mass r * mass c)|)
        (fun c _ => abs_nonneg _) (Finset.mem_univ c)).trans ?_
      exact Finset.single_le_sum (f := fun r : Fin (3 * sel.length) => ∑ c : Fin (3 * sel.length), |2 * Γ * (E * (F / (|d| * (1 / 10 ^ 10)))) / Real.sqrt (mass r * mass c)|)
        (fun r _ => Finset.sum_nonneg fun c _ => abs_nonneg _) (Finset.mem_univ r)
    calc _ = ε * (2 * Γ * (E * (F / (|d| * (1 / 10 ^ 10)))) / Real.sqrt (mass r * mass c)) := by ring
      _ ≤ ε * Z := mul_le_mul_of_nonneg_left ((le_abs_self _).trans this) hε0
  have e2 : ε * Z ≤ δ / 2 := by
    rw [le_div_iff₀ (by positivity)] at l2
    nlinarith
  calc ‖M' r c - B r c‖ = ‖(machineMatrix A x u s' n p fc k' (3 * sel.length) r c - B r c) + (M' r c - machineMatrix A x u s' n p fc k' (3 * sel.length) r c)‖ := by
        congr 1; ring
    _ ≤ δ / 2 + δ / 2 := (norm_add_le _ _).trans (add_le_add (e1.trans e2) ((hM' r c).trans (hσ.trans l1)))
    _ = δ := by ring

end
end Interphon.Props
