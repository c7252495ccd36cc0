import Verif.Props.Machine
import Verif.Props.StableExample

/-!
# The machine model: exact arithmetic gives the exact model; binary floating-point numbers satisfy the assumptions
-/

namespace Interphon.Props
noncomputable section
open Py Interphon Interphon.UnitCell Interphon.SuperCell Interphon.PreProcess Interphon.PostProcess Interphon.Phonon Interphon.ForceConstant
open Interphon.Machine (Arith Rounds)

/-! ### Exact arithmetic -/

theorem exact_rounds : Rounds 0 Machine.exact := by
  constructor <;> intros <;> simp [Machine.exact]

theorem exact_reciprocal (L : M3 ℝ) : Machine.reciprocal Machine.exact L = Phonon.reciprocal L := by
  funext i j
  fin_cases i <;> fin_cases j <;> simp [Machine.reciprocal, Machine.cross, Machine.exact, Phonon.reciprocal, dot3, cross3]

theorem exact_plainLoop (d : ℝ) (n : ℕ) : ∀ (files : List (Rows ℝ)) (i : ℕ) (fwd : Rows ℝ) (fc : FC ℝ),
    Machine.plainLoop Machine.exact d n i fwd files fc = ForceConstant.plainLoop d n i fwd files fc := by
  intro files
  induction files with
  | nil => intro i fwd fc; rw [Machine.plainLoop, ForceConstant.plainLoop]
  | cons f rest ih =>
    intro i fwd fc
    rw [Machine.plainLoop, ForceConstant.plainLoop]
    simp only [ih]
    rfl

theorem exact_shifted (S : M3 ℝ) : ∀ (terms : List (ℤ × Fin 3)) (pos : V3 ℝ), Machine.shifted Machine.exact S pos terms = pos + shiftBy S terms := by
  intro terms
  induction terms with
  | nil => intro pos; funext j; simp [Machine.shifted, shiftBy]
  | cons t rest ih =>
    intro pos
    rw [Machine.shifted, List.foldl_cons]
    have := ih (fun j => Machine.exact.add (pos j) (Machine.exact.mul (t.1 : ℝ) (S t.2 j)))
    rw [Machine.shifted] at this
    rw [this]
    funext j
    simp [shiftBy, Machine.exact, add_assoc]

theorem exact_posVector (D : PhononData) (s a : ℕ) : Machine.posVector Machine.exact D s a = Phonon.posVector D s a := by
  have hstep : ∀ pos terms, Machine.imageStep Machine.exact D.superLat pos terms = Phonon.imageStep pos (shiftBy D.superLat terms) := by
    intro pos terms
    simp only [Machine.imageStep, Phonon.imageStep, exact_shifted]
    rfl
  have hoff : (Machine.imageTerms D.pbc).map (shiftBy D.superLat) = offsets D.superLat D.pbc := by
    have h : ∀ pbc : List (Fin 3), (Machine.imageTerms pbc).map (shiftBy D.superLat) = offsets D.superLat pbc := by
      intro pbc
      match pbc with
      | [] => rfl
      | [a] =>
        rw [Machine.imageTerms, offsets, List.map_map]
        refine List.map_congr_left fun i _ => ?_
        funext j; simp [shiftBy]
      | [a, b] =>
        rw [Machine.imageTerms, offsets, List.map_flatMap]
        refine List.flatMap_congr fun i _ => ?_
        rw [List.map_map]
        refine List.map_congr_left fun k _ => ?_
        funext j; simp [shiftBy]
      | [a, b, c] =>
        rw [Machine.imageTerms, offsets, List.map_flatMap]
        refine List.flatMap_congr fun i _ => ?_
        rw [List.map_flatMap]
        refine List.flatMap_congr fun k _ => ?_
        rw [List.map_map]
        refine List.map_congr_left fun l _ => ?_
        funext j; simp [shiftBy, add_assoc]
      | a :: b :: c :: e :: l => rfl
    exact h _
  rw [Machine.posVector, Phonon.posVector, ← hoff, List.foldl_map]
  simp only [← hstep]
  rfl

theorem exact_dynMatrix (D : PhononData) (k : V3 ℝ) (r c : ℕ) : Machine.dynMatrix Machine.exact D k r c = Phonon.dynMatrix D k r c := by
  have hq : Machine.qVec Machine.exact D k = Phonon.qVec D k := rfl
  have hterm : ∀ q s1 s2, Machine.term Machine.exact D q s1 s2 = Phonon.term D q s1 s2 := by
    intro q s1 s2
    rw [Machine.term, Phonon.term, exact_posVector]
    have hd : ∀ x y : V3 ℝ, Machine.exact.dot x y = dot3 x y := fun _ _ => rfl
    rw [hd]
    generalize dot3 q _ = θ
    generalize D.fc _ s2 = f
    rw [mul_comm Complex.I, Complex.exp_mul_I, ← Complex.ofReal_cos, ← Complex.ofReal_sin]
    apply Complex.ext <;> simp [Machine.exact, Complex.cos_ofReal_re, Complex.sin_ofReal_re]
  have hadd : ∀ M r c z, Machine.addAt Machine.exact M r c z = Phonon.addAt M r c z := by
    intro M r c z
    funext r' c'
    rw [Machine.addAt, Phonon.addAt]
    split_ifs
    · apply Complex.ext <;> simp [Machine.cadd, Machine.exact]
    · rfl
  have hraw : ∀ q, Machine.dynRaw Machine.exact D q = Phonon.dynRaw D q := by
    intro q
    rw [Machine.dynRaw, Phonon.dynRaw]
    simp only [hterm, hadd]
  rw [Machine.dynMatrix, Phonon.dynMatrix, hq, hraw]
  generalize Phonon.dynRaw D _ r c = z
  rw [div_eq_mul_inv, ← Complex.ofReal_inv]
  apply Complex.ext <;> simp [Machine.massRoot, Machine.exact]

theorem exact_freqOf (w : ℂ) : Machine.freqOf Machine.exact w = Phonon.freqOf w := rfl

/-- **C132, sanity of the model.**  With exact operations the machine computes what the exact model (`C24`-`C30`, `C97`) computes. -/
theorem C132_exact_arithmetic (L : M3 ℝ) (d : ℝ) (n : ℕ) (junk : FC ℝ) (files : List (Rows ℝ)) (D : PhononData) (k : V3 ℝ) (r c : ℕ) (w : ℂ) :
    Rounds 0 Machine.exact ∧ Machine.reciprocal Machine.exact L = Phonon.reciprocal L ∧
      Machine.setPlain Machine.exact d n junk files = ForceConstant.setPlain d n junk files ∧
      Machine.dynMatrix Machine.exact D k r c = Phonon.dynMatrix D k r c ∧ Machine.freqOf Machine.exact w = Phonon.freqOf w :=
  ⟨exact_rounds, exact_reciprocal L, exact_plainLoop d _ files 0 _ _, exact_dynMatrix D k r c, exact_freqOf w⟩

/-! ### Binary floating-point numbers -/

theorem nearest_err (p : ℕ) (x : ℝ) : |Machine.nearest p x - x| ≤ 1 / 2 ^ p * |x| := by
  by_cases hx : x = 0
  · subst hx; simp [Machine.nearest]
  have hpos : 0 < |x| := abs_pos.2 hx
  have hlog := Int.zpow_log_le_self (b := 2) (r := |x|) (by norm_num) hpos
  push_cast at hlog
  unfold Machine.nearest
  set e := Int.log 2 |x| with he
  have e1 : x = x * 2 ^ ((p : ℤ) - 1 - e) * 2 ^ (e - ((p : ℤ) - 1)) := by
    rw [mul_assoc, ← zpow_add₀ (by norm_num : (2 : ℝ) ≠ 0)]
    simp
  have e2 : (round (x * 2 ^ ((p : ℤ) - 1 - e)) : ℝ) * 2 ^ (e - ((p : ℤ) - 1)) - x =
      ((round (x * 2 ^ ((p : ℤ) - 1 - e)) : ℝ) - x * 2 ^ ((p : ℤ) - 1 - e)) * 2 ^ (e - ((p : ℤ) - 1)) := by
    rw [sub_mul, ← e1]
  rw [e2, abs_mul, abs_of_pos (by positivity : (0 : ℝ) < 2 ^ (e - ((p : ℤ) - 1)))]
  have e3 : (2 : ℝ) ^ (e - ((p : ℤ) - 1)) = 2 * (1 / 2 ^ p) * 2 ^ e := by
    rw [show e - ((p : ℤ) - 1) = 1 + (-(p : ℤ)) + e by ring, zpow_add₀ (by norm_num), zpow_add₀ (by norm_num), zpow_neg, zpow_natCast, zpow_one]
    ring
  have h1 := abs_sub_round (x * 2 ^ ((p : ℤ) - 1 - e))
  rw [abs_sub_comm] at h1
  rw [e3]
  have h2 : (1 : ℝ) / 2 * (2 * (1 / 2 ^ p) * 2 ^ e) = 1 / 2 ^ p * 2 ^ e := by ring
  refine (mul_le_mul_of_nonneg_right h1 (by positivity)).trans ?_
  rw [h2]
  exact mul_le_mul_of_nonneg_left hlog (by positivity)

theorem binary_dot (p : ℕ) (hp : 2 ≤ p) (a b c : ℝ) :
    |Machine.nearest p (Machine.nearest p (Machine.nearest p a + Machine.nearest p b) + Machine.nearest p c) - (a + b + c)| ≤
      4 * (1 / 2 ^ p) * (|a| + |b| + |c|) := by
  have hε : (1 : ℝ) / 2 ^ p ≤ 1 / 4 := by
    rw [show (4 : ℝ) = 2 ^ 2 by norm_num]
    gcongr
    norm_num
  have hε0 : (0 : ℝ) ≤ 1 / 2 ^ p := by positivity
  have ha := nearest_err p a
  have hb := nearest_err p b
  have hc := nearest_err p c
  generalize Machine.nearest p a = a' at *
  generalize Machine.nearest p b = b' at *
  generalize Machine.nearest p c = c' at *
  have hs := nearest_err p (a' + b')
  generalize Machine.nearest p (a' + b') = s at *
  have ht := nearest_err p (s + c')
  generalize Machine.nearest p (s + c') = t at *
  generalize (1 : ℝ) / 2 ^ p = ε at *
  have h1 : |a' + b'| ≤ (1 + ε) * (|a| + |b|) := by
    have e : a' + b' = (a' - a) + (b' - b) + a + b := by ring
    rw [e]
    refine (abs_add_le _ _).trans ?_
    have := abs_add_three (a' - a) (b' - b) a
    linarith
  have h2 : |s - (a + b)| ≤ (2 * ε + ε * ε) * (|a| + |b|) := by
    have e : s - (a + b) = (s - (a' + b')) + (a' - a) + (b' - b) := by ring
    rw [e]
    have := abs_add_three (s - (a' + b')) (a' - a) (b' - b)
    have := mul_le_mul_of_nonneg_left h1 hε0
    nlinarith
  have h3 : |s + c'| ≤ (1 + 2 * ε + ε * ε) * (|a| + |b|) + (1 + ε) * |c| := by
    have e : s + c' = (s - (a + b)) + (c' - c) + (a + b + c) := by ring
    rw [e]
    have := abs_add_three (s - (a + b)) (c' - c) (a + b + c)
    have := abs_add_three a b c
    linarith
  have e : t - (a + b + c) = (t - (s + c')) + (s - (a + b)) + (c' - c) := by ring
  rw [e]
  have h4 := abs_add_three (t - (s + c')) (s - (a + b)) (c' - c)
  have h5 := mul_le_mul_of_nonneg_left h3 hε0
  have h6 : 0 ≤ |a| + |b| := by positivity
  have h7 : 0 ≤ |c| := abs_nonneg _
  have h8 : 3 * ε + 3 * (ε * ε) + ε * (ε * ε) ≤ 4 * ε := by nlinarith
  have h9 : 2 * ε + ε * ε ≤ 4 * ε := by nlinarith
  have h10 := mul_le_mul_of_nonneg_right h8 h6
  have h11 := mul_le_mul_of_nonneg_right h9 h7
  linarith

/-- Binary floating-point arithmetic with `p ≥ 2` digits satisfies the assumptions, with unit roundoff `2 ^ (-p)`. -/
theorem binary_rounds (p : ℕ) (hp : 2 ≤ p) : Rounds (1 / 2 ^ p) (Machine.binary p) := by
  have hε0 : (0 : ℝ) ≤ 1 / 2 ^ p := by positivity
  refine { add := fun _ _ => nearest_err _ _, sub := fun _ _ => nearest_err _ _, mul := fun _ _ => nearest_err _ _, div := fun _ _ _ => nearest_err _ _, sqrt := ?_, cos := ?_, sin := ?_, dot := fun _ _ => binary_dot p hp _ _ _, csqrt := ?_, pi := ?_, ang := ?_ }
  · intro x _
    have := nearest_err p (Real.sqrt x)
    rwa [abs_of_nonneg (Real.sqrt_nonneg x)] at this
  · intro x
    have := nearest_err p (Real.cos x)
    have h1 := mul_le_mul_of_nonneg_left (Real.abs_cos_le_one x) hε0
    exact this.trans (by linarith)
  · intro x
    have := nearest_err p (Real.sin x)
    have h1 := mul_le_mul_of_nonneg_left (Real.abs_sin_le_one x) hε0
    exact this.trans (by linarith)
  · intro z
    show ‖(⟨Machine.nearest p (z ^ (1 / 2 : ℂ)).re, Machine.nearest p (z ^ (1 / 2 : ℂ)).im⟩ : ℂ) - z ^ (1 / 2 : ℂ)‖ ≤ _
    generalize z ^ (1 / 2 : ℂ) = v
    refine (Complex.norm_le_abs_re_add_abs_im _).trans ?_
    have h1 := nearest_err p v.re
    have h2 := nearest_err p v.im
    have h3 := mul_le_mul_of_nonneg_left (Complex.abs_re_le_norm v) hε0
    have h4 := mul_le_mul_of_nonneg_left (Complex.abs_im_le_norm v) hε0
    have h5 := mul_nonneg hε0 (norm_nonneg v)
    show |Machine.nearest p v.re - v.re| + |Machine.nearest p v.im - v.im| ≤ _
    linarith
  · have := nearest_err p Real.pi
    rwa [abs_of_pos Real.pi_pos] at this
  · have := nearest_err p (1 / 10 ^ 10)
    rwa [abs_of_pos (by positivity : (0 : ℝ) < 1 / 10 ^ 10)] at this

theorem rows_bounded (n : ℕ) : ∀ l : List (Rows ℝ), ∃ F : ℝ, ∀ (i : ℕ) (f : Rows ℝ), l[i]? = some f → ∀ a < n, ∀ y, |f a y| ≤ F := by
  intro l
  induction l with
  | nil => exact ⟨0, fun i f h => by simp at h⟩
  | cons g rest ih =>
    obtain ⟨F, hF⟩ := ih
    refine ⟨max F (∑ a ∈ Finset.range n, ∑ y : Fin 3, |g a y|), ?_⟩
    intro i f h a ha y
    cases i with
    | zero =>
      cases h
      have h1 : |g a y| ≤ ∑ y : Fin 3, |g a y| := Finset.single_le_sum (f := fun y => |g a y|) (fun _ _ => abs_nonneg _) (Finset.mem_univ y)
      have h2 : ∑ y : Fin 3, |g a y| ≤ ∑ a ∈ Finset.range n, ∑ y : Fin 3, |g a y| :=
        Finset.single_le_sum (f := fun a => ∑ y : Fin 3, |g a y|) (fun _ _ => Finset.sum_nonneg fun _ _ => abs_nonneg _) (Finset.mem_range.2 ha)
      exact h1.trans (h2.trans (le_max_right _ _))
    | succ i => exact (hF i f (by simpa using h) a ha y).trans (le_max_left _ _)

/-- `C132_matrix` and `C132_frequencies` apply to a chain with two cells in the super cell, at the zone boundary, in double precision (53 digits), with all stored
numbers rounded: there are scales (`F` bounds the forces) with which all hypotheses hold. -/
example : ∃ (s s' s'' : Cell ℝ) (files : Files ℝ) (F : ℝ) (x : Held) (forces : List (Rows ℝ)),
    setSuperCell (fun m => List.replicate m 0) chainCell ![2, 1, 1] ![1, 0, 0] = .ok s ∧ setSuperIndTrue s chainCell ![2, 1, 1] ![1, 0, 0] = .ok s' ∧
    writeDisplaceCell s' [0] 2 (1 / 100 : ℝ) ![1, 0, 0] false (.ok []) = .ok (s'', files) ∧ forces.length = 6 ∧
    Rounds (1 / 2 ^ 53) (Machine.binary 53) ∧ HeldNear (1 / 2 ^ 53) 1 2 chainCell s' (fun _ => 2) (1 / 100) x ∧
    HeldForces (1 / 2 ^ 53) F (List.range s'.cart.length) forces (files.map fun f => harmonicForces (superSprings ![2, 1, 1] 2 stiffSprings) (fun _ _ => 0) s' f.2) ∧
    277 * flatness chainCell.lattice 1 * (1 / 2 ^ 53) ≤ 1 ∧ dynFactor chainCell.lattice 1 (1 / 2) 2 2 * (1 / 2 ^ 53) ≤ 1 ∧
    Fits ![2, 1, 1] ![1, 0, 0] ![1 / 2, 0, 0] ∧ ∀ i, |(![1 / 2, 0, 0] : V3 ℝ) i| ≤ 1 / 2 := by
  have hc := C06_supercell_positions chain_call
  obtain ⟨s, hs, hlen, hcopy⟩ := hc
  obtain ⟨s0, s', hs0, hs'⟩ := chain_super
  rw [hs] at hs0; cases hs0
  have hs2 := hs'
  unfold setSuperIndTrue at hs2
  have hcart : s'.cart = s.cart := by cases hs2; rfl
  have hlat : s'.lattice = superLattice chainCell.lattice ![2, 1, 1] := by
    have e := setSuperCell_eq chain_call
    rw [hs] at e
    cases hs2
    cases e
    rfl
  have hlen' : s'.cart.length = 2 := by rw [hcart, hlen]; rfl
  obtain ⟨s'', files, hw, hl6, -⟩ := C15_displaced_files s' [0] 2 (1 / 100 : ℝ) ![1, 0, 0] false (.ok []) (Or.inl rfl) (by
    intro t ht
    have : t = 0 := by simpa using ht
    subst this
    rw [hlen']; decide)
  set exactF := files.map fun f => harmonicForces (superSprings ![2, 1, 1] 2 stiffSprings) (fun _ _ => 0) s' f.2 with hexact
  have hexl : exactF.length = 6 := by rw [hexact, List.length_map, hl6]; rfl
  clear_value exactF
  obtain ⟨F, hbd⟩ := rows_bounded 2 exactF
  have hε0 : (0 : ℝ) ≤ 1 / 2 ^ 53 := by positivity
  have hround : ∀ v m : ℝ, |v| ≤ m → |v| ≤ m ∧ |Machine.nearest 53 v - v| ≤ 1 / 2 ^ 53 * m := fun v m hv =>
    ⟨hv, (nearest_err 53 v).trans (mul_le_mul_of_nonneg_left hv hε0)⟩
  have hflat : flatness chainCell.lattice 1 = 6 := by
    simp [flatness, volume, chainCell, dot3, cross3]
  refine ⟨s, s', s'', files, F, ⟨fun i j => Machine.nearest 53 (chainCell.lattice i j), fun a j => Machine.nearest 53 (chainCell.cart.getD a 0 j),
    fun a j => Machine.nearest 53 (s'.cart.getD a 0 j), fun i j => Machine.nearest 53 (s'.lattice i j), fun _ => Machine.nearest 53 2, Machine.nearest 53 (1 / 100)⟩,
    exactF.map fun f a y => Machine.nearest 53 (f a y), hs, hs', hw, by rw [List.length_map, hexl], binary_rounds 53 (by norm_num), ?_, ?_, ?_, ?_, ?_, ?_⟩
  · refine ⟨fun i j => hround _ _ ?_, fun a _ j => hround _ _ ?_, fun a ha j => hround _ _ ?_, fun i j => hround _ _ ?_, fun r => ?_, nearest_err 53 _⟩
    · show |(1 : M3 ℝ) i j| ≤ 1
      rw [Matrix.one_apply]; split_ifs <;> simp
    · rename_i ha
      have : a = 0 := by
        have : a < 1 := ha
        omega
      subst this
      show |(0 : ℝ)| ≤ 2
      norm_num
    · rw [hcart]
      rw [hlen'] at ha
      have h0 := hcopy 0 0 rfl a 0 0 (by show (a : ℤ) < 2; omega) (by show ((0 : ℕ) : ℤ) < 1; decide) (by show ((0 : ℕ) : ℤ) < 1; decide)
      have e : ((![2, 1, 1] : Fin 3 → ℤ) 0 * (![2, 1, 1] : Fin 3 → ℤ) 1 * (![2, 1, 1] : Fin 3 → ℤ) 2).toNat * 0 +
        ((a * ((![2, 1, 1] : Fin 3 → ℤ) 1).toNat + 0) * ((![2, 1, 1] : Fin 3 → ℤ) 2).toNat + 0) = a := by simp
      rw [e] at h0
      rw [List.getD_eq_getElem?_getD, h0, Option.getD_some]
      have ha' : (a : ℝ) ≤ 2 := by exact_mod_cast ha.le
      fin_cases j <;> simp [translate, chainCell] <;> linarith
    · rw [hlat]
      fin_cases i <;> fin_cases j <;> simp [superLattice, chainCell]
    · have := nearest_err 53 2
      rwa [abs_of_pos (by norm_num : (0 : ℝ) < 2)] at this
  · rw [← hexact]
    refine ⟨by rw [List.length_map], ?_⟩
    intro i f' f h1 h2 a ha y
    rw [List.getElem?_map, h2] at h1
    cases h1
    rw [hlen', List.mem_range] at ha
    exact hround _ _ (hbd i f h2 a ha y)
  · rw [hflat]; norm_num
  · have hr : recipSize chainCell.lattice 1 = 4 * Real.pi := by
      simp [recipSize, volume, chainCell, dot3, cross3]
    rw [dynFactor, phaseFactor, hflat, hr]
    have := Real.pi_le_four
    norm_num
    rw [← le_div_iff₀ (by positivity)]
    norm_num
    linarith
  · intro i hi
    fin_cases i
    · exact ⟨1, by simp⟩
    · simp at hi
    · simp at hi
  · intro i
    fin_cases i <;> simp

end
end Interphon.Props
