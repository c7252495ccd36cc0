import Verif.Props.PostProcess
import Verif.Props.DynMatrix
import Verif.Props.ForceConstant
import Mathlib.Data.Finsupp.Basic

/-! # C97: exact frequencies of a harmonic crystal at commensurate wave vectors -/

namespace Interphon.Props
open Py Interphon Interphon.Phonon Interphon.PostProcess Interphon.PreProcess Interphon.SuperCell Interphon.ForceConstant Complex

noncomputable section

/-! ### Specification: the infinite harmonic crystal -/

/-- The lattice vector with coefficients `l`. -/
def latVec (L : M3 ℝ) (l : Fin 3 → ℤ) : V3 ℝ := fun j => ∑ c, (l c : ℝ) * L c j

/-- The springs of an infinite crystal: `Φ a x b y l` is the force constant between atom `a` of cell `l` (component `x`) and atom `b` of cell `0`
(component `y`).  Springs have finite range. -/
abbrev Springs := ℕ → Fin 3 → ℕ → Fin 3 → ((Fin 3 → ℤ) →₀ ℝ)

/-- Component of a degree of freedom. -/
def comp (r : ℕ) : Fin 3 := ⟨r % 3, Nat.mod_lt _ (by norm_num)⟩

/-- The dynamical matrix of the infinite crystal (with all atoms but those of `sel` clamped) at the wave vector `q`: textbook formula, one row per degree of
freedom, `mass` the masses of the degrees of freedom. -/
def trueDyn (u : Cell ℝ) (sel : List ℕ) (mass : ℕ → ℝ) (Φ : Springs) (q : V3 ℝ) (m : ℕ) : Matrix (Fin m) (Fin m) ℂ := Matrix.of fun r c =>
  ((Φ (sel.getD (r / 3) 0) (comp r) (sel.getD (c / 3) 0) (comp c)).sum fun l φ =>
    (φ : ℂ) * exp (I * (dot3 q (u.cart.getD (sel.getD (r / 3) 0) 0 + latVec u.lattice l - u.cart.getD (sel.getD (c / 3) 0) 0) : ℝ))) /
  (Real.sqrt (mass r * mass c) : ℝ)

/-- The cell in which copy number `k` of an atom lies (`C97_copy_position` below checks this against the super cell the program builds). -/
def cellOf (n : Fin 3 → ℤ) (k : ℕ) : Fin 3 → ℤ :=
  ![((k / (n 2).toNat / (n 1).toNat : ℕ) : ℤ), ((k / (n 2).toNat % (n 1).toNat : ℕ) : ℤ), ((k % (n 2).toNat : ℕ) : ℤ)]

/-- The springs of the same crystal made periodic with the super cell: an atom of the super cell is tied to all periodic images of the other one. -/
def superSprings (n : Fin 3 → ℤ) (E : ℕ) (Φ : Springs) : ℕ → Fin 3 → ℕ → Fin 3 → ℝ := fun r x c y =>
  ∑ l ∈ (Φ (r / E) x (c / E) y).support.filter (fun l => ∀ i, n i ∣ l i - (cellOf n (r % E) i - cellOf n (c % E) i)), Φ (r / E) x (c / E) y l

/-! ### Copies -/

/-- Copy `k` of atom `i` of the super cell the program builds is atom `i` shifted by the lattice vector of `cellOf n k`. -/
theorem C97_copy_position {junk : ℕ → List (V3 ℝ)} {u s : Cell ℝ} {n p : Fin 3 → ℤ} (h : GoodCall junk u n p)
    (hs : setSuperCell junk u n p = .ok s) (i k : ℕ) (hi : i < u.cart.length) (hk : k < (n 0 * n 1 * n 2).toNat) :
    s.cart.getD (i * (n 0 * n 1 * n 2).toNat + k) 0 = u.cart.getD i 0 + latVec u.lattice (cellOf n k) := by
  have h0 := h.pos 0
  have h1 := h.pos 1
  have h2 := h.pos 2
  have hpos : 0 < n 0 * n 1 * n 2 := by positivity
  obtain ⟨s0, hs0, hlen, hcart⟩ := C06_supercell_positions h
  rw [hs] at hs0; cases hs0
  have hb : 0 < (n 1).toNat := by omega
  have hc : 0 < (n 2).toNat := by omega
  have hE3 : (n 0 * n 1 * n 2).toNat = (n 0).toNat * (n 1).toNat * (n 2).toNat := by
    zify
    rw [Int.toNat_of_nonneg hpos.le, Int.toNat_of_nonneg h0.le, Int.toNat_of_nonneg h1.le, Int.toNat_of_nonneg h2.le]
  have hx : k / (n 2).toNat / (n 1).toNat < (n 0).toNat := by
    rw [Nat.div_div_eq_div_mul, Nat.div_lt_iff_lt_mul (by positivity)]
    rw [hE3] at hk
    calc k < _ := hk
      _ = _ := by ring
  have hy := Nat.mod_lt (k / (n 2).toNat) hb
  have hz := Nat.mod_lt k hc
  have hv : u.cart[i]? = some u.cart[i] := List.getElem?_eq_getElem hi
  have := hcart i _ hv (k / (n 2).toNat / (n 1).toNat) (k / (n 2).toNat % (n 1).toNat) (k % (n 2).toNat) (by omega) (by omega) (by omega)
  rw [Nat.div_add_mod', Nat.div_add_mod', Nat.mul_comm _ i] at this
  simp only [List.getD_eq_getElem?_getD, this, hv, Option.getD_some]
  funext j
  simp only [translate, latVec, cellOf, Fin.sum_univ_three, Pi.add_apply, Matrix.cons_val_zero, Matrix.cons_val_one, Matrix.cons_val, Int.cast_natCast]

/-- Every cell is congruent to the cell of exactly one copy. -/
theorem unique_copy (n : Fin 3 → ℤ) (hn : ∀ i, 0 < n i) (l : Fin 3 → ℤ) :
    ∃! k, k < (n 0 * n 1 * n 2).toNat ∧ ∀ i, n i ∣ l i - cellOf n k i := by
  have h0 := hn 0
  have h1 := hn 1
  have h2 := hn 2
  obtain ⟨a, ha⟩ : ∃ a : ℕ, n 0 = a := ⟨(n 0).toNat, by omega⟩
  obtain ⟨b, hb⟩ : ∃ b : ℕ, n 1 = b := ⟨(n 1).toNat, by omega⟩
  obtain ⟨c, hc⟩ : ∃ c : ℕ, n 2 = c := ⟨(n 2).toNat, by omega⟩
  have hE : (n 0 * n 1 * n 2).toNat = a * b * c := by rw [ha, hb, hc]; norm_cast
  have hcell : ∀ k, cellOf n k = ![((k / c / b : ℕ) : ℤ), ((k / c % b : ℕ) : ℤ), ((k % c : ℕ) : ℤ)] := by
    intro k; simp only [cellOf, hb, hc, Int.toNat_natCast]
  have a0 : 0 < a := by omega
  have b0 : 0 < b := by omega
  have c0 : 0 < c := by omega
  obtain ⟨x, hx⟩ : ∃ x : ℕ, l 0 % n 0 = x := ⟨(l 0 % n 0).toNat, by have := Int.emod_nonneg (l 0) h0.ne'; omega⟩
  obtain ⟨y, hy⟩ : ∃ y : ℕ, l 1 % n 1 = y := ⟨(l 1 % n 1).toNat, by have := Int.emod_nonneg (l 1) h1.ne'; omega⟩
  obtain ⟨z, hz⟩ : ∃ z : ℕ, l 2 % n 2 = z := ⟨(l 2 % n 2).toNat, by have := Int.emod_nonneg (l 2) h2.ne'; omega⟩
  have xlt : x < a := by have := Int.emod_lt_of_pos (l 0) h0; omega
  have ylt : y < b := by have := Int.emod_lt_of_pos (l 1) h1; omega
  have zlt : z < c := by have := Int.emod_lt_of_pos (l 2) h2; omega
  have dvd_iff : ∀ (i : Fin 3) (w v : ℕ), (v : ℤ) < n i → l i % n i = w → (n i ∣ l i - v ↔ v = w) := by
    intro i w v hv hw
    rw [← Int.emod_emod_of_dvd (l i) (dvd_refl (n i))] at hw
    constructor
    · intro hd
      have := Int.emod_emod_of_dvd (l i) (dvd_refl (n i))
      have e := (Int.emod_emod_of_dvd (l i) (dvd_refl (n i))).symm
      have h3 : (v : ℤ) % n i = l i % n i := (Int.emod_emod_of_dvd _ (dvd_refl _)).symm.trans (by
        rw [Int.emod_emod_of_dvd _ (dvd_refl _)]
        exact (Int.emod_eq_emod_iff_emod_sub_eq_zero.2 (by
          rw [← Int.emod_eq_zero_of_dvd (Int.dvd_neg.2 hd)]; congr 1; ring)))
      rw [Int.emod_eq_of_lt (by omega) hv] at h3
      rw [this] at hw
      omega
    · rintro rfl
      rw [Int.emod_emod_of_dvd _ (dvd_refl _)] at hw
      rw [← hw]
      exact Int.dvd_self_sub_emod
  have hdiv : ∀ k, k < a * b * c → k / c / b < a ∧ k / c % b < b ∧ k % c < c := by
    intro k hk
    refine ⟨?_, Nat.mod_lt _ b0, Nat.mod_lt _ c0⟩
    rw [Nat.div_div_eq_div_mul, Nat.div_lt_iff_lt_mul (by positivity)]
    calc k < _ := hk
      _ = _ := by ring
  have key : ∀ k, k < a * b * c → ((∀ i, n i ∣ l i - cellOf n k i) ↔ k / c / b = x ∧ k / c % b = y ∧ k % c = z) := by
    intro k hk
    obtain ⟨k1, k2, k3⟩ := hdiv k hk
    rw [hcell, Fin.forall_fin_succ, Fin.forall_fin_succ, Fin.forall_fin_succ]
    simp only [Matrix.cons_val_zero, Fin.succ_zero_eq_one, Matrix.cons_val_one, Fin.succ_one_eq_two, Matrix.cons_val, IsEmpty.forall_iff, and_true]
    rw [dvd_iff 0 x _ (by omega) hx, dvd_iff 1 y _ (by omega) hy]
    have := dvd_iff 2 z (k % c) (by omega) hz
    rw [← this]
  have hval : (x * b + y) * c + z < a * b * c := by
    calc (x * b + y) * c + z < (x * b + y) * c + c := by omega
      _ = (x * b + y + 1) * c := by ring
      _ ≤ (a * b) * c := Nat.mul_le_mul_right _ (by
        calc x * b + y + 1 ≤ x * b + b := by omega
          _ = (x + 1) * b := by ring
          _ ≤ a * b := Nat.mul_le_mul_right _ xlt)
  refine ⟨(x * b + y) * c + z, ⟨by rw [hE]; exact hval, ?_⟩, ?_⟩
  · rw [key _ hval]
    have e1 : ((x * b + y) * c + z) / c = x * b + y := by
      rw [Nat.mul_comm, Nat.mul_add_div c0, Nat.div_eq_of_lt zlt, Nat.add_zero]
    refine ⟨?_, ?_, ?_⟩
    · rw [e1, Nat.mul_comm, Nat.mul_add_div b0, Nat.div_eq_of_lt ylt, Nat.add_zero]
    · rw [e1, Nat.mul_comm, Nat.mul_add_mod, Nat.mod_eq_of_lt ylt]
    · rw [Nat.mul_comm, Nat.mul_add_mod, Nat.mod_eq_of_lt zlt]
  · rintro k ⟨hk, hd⟩
    rw [hE] at hk
    rw [key k hk] at hd
    obtain ⟨e1, e2, e3⟩ := hd
    rw [← e1, ← e2, ← e3, Nat.div_add_mod', Nat.div_add_mod']

theorem regroup (n : Fin 3 → ℤ) (hn : ∀ i, 0 < n i) (F : (Fin 3 → ℤ) →₀ ℝ) (phase : ℕ → ℂ) (wave : (Fin 3 → ℤ) → ℂ)
    (hw : ∀ l ∈ F.support, ∀ k < (n 0 * n 1 * n 2).toNat, (∀ i, n i ∣ l i - cellOf n k i) → wave l = phase k) :
    ∑ k ∈ Finset.range (n 0 * n 1 * n 2).toNat, ((∑ l ∈ F.support.filter (fun l => ∀ i, n i ∣ l i - cellOf n k i), F l : ℝ) : ℂ) * phase k =
      F.sum fun l φ => (φ : ℂ) * wave l := by
  have h1 : ∀ k, ((∑ l ∈ F.support.filter (fun l => ∀ i, n i ∣ l i - cellOf n k i), F l : ℝ) : ℂ) * phase k =
      ∑ l ∈ F.support, if (∀ i, n i ∣ l i - cellOf n k i) then (F l : ℂ) * phase k else 0 := by
    intro k
    rw [Complex.ofReal_sum, Finset.sum_mul, Finset.sum_filter]
  rw [Finset.sum_congr rfl fun k _ => h1 k, Finset.sum_comm, Finsupp.sum]
  refine Finset.sum_congr rfl fun l hl => ?_
  obtain ⟨k, ⟨hk, hd⟩, hu⟩ := unique_copy n hn l
  rw [Finset.sum_eq_single k]
  · rw [if_pos hd, hw l hl k hk hd]
  · intro j hj hne
    rw [if_neg]
    intro hd'
    exact hne (hu j ⟨Finset.mem_range.1 hj, hd'⟩)
  · intro h; exact absurd (Finset.mem_range.2 hk) h

/-- The wave vector `k` fits into the super cell along every periodic direction. -/
def Fits (n p : Fin 3 → ℤ) (k : V3 ℝ) : Prop := ∀ i, p i ≠ 0 → ∃ z : ℤ, k i * n i = z

private theorem q_dot_lattice (D : PhononData) (L : M3 ℝ) (hdet : L.det ≠ 0) (hr : D.recip = reciprocal L) (k : V3 ℝ) (i : Fin 3) :
    dot3 (qVec D k) (L i) = 2 * Real.pi * k i := by
  have h := fun j => C24_reciprocal_dual L hdet j i
  simp only [Fin.sum_univ_three] at h
  have e : dot3 (qVec D k) (L i) = k 0 * (reciprocal L 0 0 * L i 0 + reciprocal L 0 1 * L i 1 + reciprocal L 0 2 * L i 2) +
      k 1 * (reciprocal L 1 0 * L i 0 + reciprocal L 1 1 * L i 1 + reciprocal L 1 2 * L i 2) +
      k 2 * (reciprocal L 2 0 * L i 0 + reciprocal L 2 1 * L i 1 + reciprocal L 2 2 * L i 2) := by
    simp only [dot3, qVec, hr]; ring
  rw [e, h 0, h 1, h 2]
  fin_cases i <;> simp <;> ring

theorem dot3_latVec (q : V3 ℝ) (L : M3 ℝ) (l : Fin 3 → ℤ) : dot3 q (latVec L l) = ∑ i, (l i : ℝ) * dot3 q (L i) := by
  simp only [dot3, latVec, Fin.sum_univ_three]; ring

/-- **C97, the matrix.**  For every unit cell, selection, enlargement and amplitude, and every infinite harmonic crystal with springs of finite range (within
the periodic directions): if the displaced super cells of the pre-process are given the forces of that crystal, made periodic with the super cell, then the force
constants are computed without an exception, and at every wave vector that fits into the super cell the dynamical matrix of the post-process is exactly the one of
the infinite crystal - including springs longer than the super cell, and whatever images are chosen. -/
theorem C97_exact_dynamical_matrix {junk : ℕ → List (V3 ℝ)} {u s s' : Cell ℝ} {n p : Fin 3 → ℤ} (h : GoodCall junk u n p)
    (hdet : u.lattice.det ≠ 0) (sel : List ℕ) (hsel : u.atomTrue = some sel) (hlt : ∀ t ∈ sel, t < u.cart.length)
    (hxyz : u.xyzTrue = some (sel.flatMap fun a => [a, a, a]))
    (hs : setSuperCell junk u n p = .ok s) (hs' : setSuperIndTrue s u n p = .ok s')
    (Φ : Springs) (hΦ : ∀ a x b y l, l ∈ (Φ a x b y).support → ∀ i, p i = 0 → l i = 0)
    (d : ℝ) (hd : d ≠ 0) (F0 : Rows ℝ) (junkF : FC ℝ) (search : Run (List (ℕ × List (V3 ℝ)))) (mass : ℕ → ℝ) :
    ∃ s'' files fc, writeDisplaceCell s' sel (n 0 * n 1 * n 2).toNat d p false search = .ok (s'', files) ∧
      setPlain d sel.length junkF (files.map fun f => harmonicForces (superSprings n (n 0 * n 1 * n 2).toNat Φ) F0 s' f.2) = .ok fc ∧
      ∀ k : V3 ℝ, Fits n p k → ∀ m ≤ 3 * sel.length,
        (Matrix.of fun (r c : Fin m) => dynMatrix (ofCells u s' n p fc mass) k r c) =
          trueDyn u sel mass Φ (qVec (ofCells u s' n p fc mass) k) m := by
  have h0 := h.pos 0
  have h1 := h.pos 1
  have h2 := h.pos 2
  have hpos : 0 < n 0 * n 1 * n 2 := by positivity
  have hs'cart : s'.cart = s.cart := by
    unfold setSuperIndTrue at hs'
    simp only [hsel] at hs'
    cases hs'
    rfl
  have hs'lat : s'.lattice = s.lattice := by
    unfold setSuperIndTrue at hs'
    simp only [hsel] at hs'
    cases hs'
    rfl
  obtain ⟨s0, hs0, hlen, -⟩ := C06_supercell_positions h
  rw [hs] at hs0; cases hs0
  set E := (n 0 * n 1 * n 2).toNat with hEdef
  have hE0 : 0 < E := by omega
  have hsel' : ∀ t ∈ sel, E * t < s'.cart.length := by
    intro t ht
    rw [hs'cart, hlen]
    exact Nat.mul_lt_mul_of_pos_left (hlt t ht) hE0
  obtain ⟨s'', files, hw, -, -⟩ := C15_displaced_files s' sel E d p false search (Or.inl rfl) hsel'
  obtain ⟨fc, hfc, hent⟩ := C19_harmonic_exact s' sel E d hd p search hsel' (superSprings n E Φ) F0 junkF s'' files hw
  refine ⟨s'', files, fc, hw, hfc, ?_⟩
  intro k hk m hm
  obtain ⟨hgs, hgg⟩ := phonon_data_reachable h hdet sel hsel hxyz hs hs' fc mass
  have hDE : (ofCells u s' n p fc mass).E = E := by
    simp only [ofCells]; rw [SuperCell.enlarge_eq n p h.cons]
  set D := ofCells u s' n p fc mass with hD
  have hrec : D.recip = reciprocal u.lattice := rfl
  have hqL := q_dot_lattice D u.lattice hdet hrec k
  have hcomm : Commensurate D (qVec D k) := by
    intro i hi
    have hpi : p i ≠ 0 := by
      have : i ∈ (List.finRange 3).filter fun i => p i ≠ 0 := hi
      simpa using this
    obtain ⟨z, hz⟩ := hk i hpi
    refine ⟨z, ?_⟩
    have e : D.superLat i = fun j => u.lattice i j * (n i : ℝ) := congrFun hgg.lat i
    have e2 : dot3 (qVec D k) (D.superLat i) = dot3 (qVec D k) (u.lattice i) * n i := by
      rw [e]; simp only [dot3]; ring
    rw [e2, hqL, mul_assoc, hz]
  ext r c
  have hr3 : (r : ℕ) / 3 < sel.length := by have := r.2; omega
  have hc3 : (c : ℕ) / 3 < sel.length := by have := c.2; omega
  have er : (r : ℕ) = 3 * (r / 3) + (comp r : ℕ) := by simp only [comp]; omega
  have ec : (c : ℕ) = 3 * (c / 3) + (comp c : ℕ) := by simp only [comp]; omega
  set a := sel.getD ((r : ℕ) / 3) 0 with ha
  set b := sel.getD ((c : ℕ) / 3) 0 with hb
  have hamem : a < u.cart.length := by
    rw [ha, List.getD_eq_getElem _ _ hr3]; exact hlt _ (List.getElem_mem _)
  have hbget : sel[(c : ℕ) / 3]? = some b := by
    rw [hb, List.getD_eq_getElem _ _ hc3]; exact List.getElem?_eq_getElem hc3
  have hbmem : b < u.cart.length := by
    rw [hb, List.getD_eq_getElem _ _ hc3]; exact hlt _ (List.getElem_mem _)
  rw [Matrix.of_apply, trueDyn, Matrix.of_apply]
  have hC := C26_commensurate D sel hgs k hcomm ((r : ℕ) / 3) ((c : ℕ) / 3) hr3 hc3 (comp r) (comp c)
  rw [← er, ← ec, hDE] at hC
  rw [hC]
  congr 1
  rw [← regroup n h.pos (Φ a (comp r) b (comp c))
    (fun k' => exp (I * (dot3 (qVec D k) (D.superCart (a * E + k') - D.unitCart b) : ℝ)))]
  · refine Finset.sum_congr rfl fun i hi => ?_
    have hi' : i < E := Finset.mem_range.1 hi
    congr 2
    have e : (c : ℕ) = 3 * ((c : ℕ) / 3) + (comp c : ℕ) := ec
    rw [← ha]
    conv_lhs => rw [e]
    refine (hent (a * E + i) ((c : ℕ) / 3) b (comp r) (comp c) hbget).trans ?_
    simp only [superSprings]
    rw [Nat.mul_comm a E, Nat.mul_add_div hE0, Nat.div_eq_of_lt hi', Nat.add_zero, Nat.mul_add_mod, Nat.mod_eq_of_lt hi',
      Nat.mul_div_cancel_left _ hE0, Nat.mul_mod_right]
    have hz : ∀ j, cellOf n 0 j = 0 := by
      intro j; fin_cases j <;> simp [cellOf]
    simp only [hz, sub_zero]
  · intro l hl k' hk' hdvd
    have hpos' : D.superCart (a * E + k') = u.cart.getD a 0 + latVec u.lattice (cellOf n k') := by
      show s'.cart.getD _ 0 = _
      rw [hs'cart]
      exact C97_copy_position h hs a k' hamem hk'
    rw [hpos']
    have hcell0 : ∀ i, p i = 0 → cellOf n k' i = 0 := by
      intro i hi
      have hni := h.cons i hi
      have hE3 : E = (n 0).toNat * (n 1).toNat * (n 2).toNat := by
        zify
        rw [hEdef, Int.toNat_of_nonneg hpos.le, Int.toNat_of_nonneg h0.le, Int.toNat_of_nonneg h1.le, Int.toNat_of_nonneg h2.le]
      fin_cases i
      · have hx : k' / (n 2).toNat / (n 1).toNat < (n 0).toNat := by
          rw [Nat.div_div_eq_div_mul, Nat.div_lt_iff_lt_mul (by have : 0 < (n 1).toNat := by omega
                                                                have : 0 < (n 2).toNat := by omega
                                                                positivity)]
          calc k' < E := hk'
            _ = _ := by rw [hE3]; ring
        have hni' : n 0 = 1 := hni
        rw [hni'] at hx
        have hx0 : k' / (n 2).toNat / (n 1).toNat = 0 := Nat.lt_one_iff.1 hx
        show ((k' / (n 2).toNat / (n 1).toNat : ℕ) : ℤ) = 0
        rw [hx0]; rfl
      · simp only [Fin.mk_one] at hni
        simp [cellOf, hni, Nat.mod_one]
      · have hni' : n 2 = 1 := hni
        simp [cellOf, hni', Nat.mod_one]
    have hint : ∀ i, ∃ z : ℤ, ((l i : ℝ) - cellOf n k' i) * dot3 (qVec D k) (u.lattice i) = 2 * Real.pi * z := by
      intro i
      by_cases hpi : p i = 0
      · refine ⟨0, ?_⟩
        rw [hΦ _ _ _ _ l hl i hpi, hcell0 i hpi]; simp
      · obtain ⟨z, hz⟩ := hk i hpi
        obtain ⟨w, hw⟩ := hdvd i
        refine ⟨w * z, ?_⟩
        have hw' : (l i : ℝ) - cellOf n k' i = n i * w := by exact_mod_cast hw
        rw [hw', hqL]
        push_cast
        rw [← hz]; ring
    choose z hz using hint
    have e1 : dot3 (qVec D k) (u.cart.getD a 0 + latVec u.lattice l - u.cart.getD b 0) =
        dot3 (qVec D k) (u.cart.getD a 0 + latVec u.lattice (cellOf n k') - u.cart.getD b 0) + 2 * Real.pi * ((z 0 + z 1 + z 2 : ℤ) : ℝ) := by
      have hz0 := hz 0
      have hz1 := hz 1
      have hz2 := hz 2
      have d1 : ∀ w : V3 ℝ, dot3 (qVec D k) (u.cart.getD a 0 + w - u.cart.getD b 0) =
          dot3 (qVec D k) (u.cart.getD a 0) + dot3 (qVec D k) w - dot3 (qVec D k) (u.cart.getD b 0) := by
        intro w; simp only [dot3, Pi.add_apply, Pi.sub_apply]; ring
      rw [d1, d1, dot3_latVec, dot3_latVec, Fin.sum_univ_three, Fin.sum_univ_three]
      push_cast
      linarith
    show exp (I * ((dot3 (qVec D k) (u.cart.getD a 0 + latVec u.lattice l - u.cart.getD b 0) : ℝ) : ℂ)) =
      exp (I * ((dot3 (qVec D k) (u.cart.getD a 0 + latVec u.lattice (cellOf n k') - u.cart.getD b 0) : ℝ) : ℂ))
    rw [e1]
    generalize dot3 (qVec D k) (u.cart.getD a 0 + latVec u.lattice (cellOf n k') - u.cart.getD b 0) = t
    generalize z 0 + z 1 + z 2 = w
    rw [show I * ((t + 2 * Real.pi * w : ℝ) : ℂ) = I * t + w * (2 * Real.pi * I) by push_cast; ring, Complex.exp_add,
      Complex.exp_int_mul_two_pi_mul_I, mul_one]

/-- The stored rows of a whole post-process: if the force constants `fc` are computed from `forces`, they are the spectra of the dynamical matrices built from
`fc`, one per listed wave vector, and no call raises. -/
theorem run_spectrum_of {u s' : Cell ℝ} {n p : Fin 3 → ℤ} (sel : List ℕ) (hsel : u.atomTrue = some sel)
    (hxyz : u.xyzTrue = some (sel.flatMap fun a => [a, a, a])) (d : ℝ) (mass : ℕ → ℝ) {S : Solver} (hS : IsSolver S)
    (junkR : M3 ℝ) (junkF left : FC ℝ) (jc : ℕ → Rows ℝ) (lines : List Str) (ks : List (V3 ℚ)) (auto : List ℤ)
    (hk : KPoints.setKPoints lines (fun c => decide (p c ≠ 0)) = .ok (ks, auto)) (hne : ks ≠ []) (forces : List (Rows ℝ)) (fc : FC ℝ)
    (sym : Bool) (hf : forceConstant jc sym forces (PostProcess.new u s' n p d mass (reciprocal u.lattice) junkF) = .ok fc) :
    let o := PostProcess.run S (PostProcess.new u s' n p d mass junkR junkF) [.reciprocal, .force left jc sym forces, .kPoints (some lines)]
    PostProcess.data o = ofCells u s' n p fc mass ∧
    (step S o .eval).2 = none ∧ (step S o .eval).1.kPoints = ks ∧ (step S o .eval).1.wq.length = ks.length ∧
      ∀ (i : ℕ) (k : V3 ℚ), ks[i]? = some k → ∃ row, (step S o .eval).1.wq[i]? = some row ∧
        IsSpectrum (Matrix.of fun (r c : Fin (3 * sel.length)) => dynMatrix (ofCells u s' n p fc mass) (toReal k) r c) row := by
  intro o
  have ho : o = { PostProcess.new u s' n p d mass (reciprocal u.lattice) fc with kPoints := ks, auto := auto } := by
    have s1 : (step S (PostProcess.new u s' n p d mass junkR junkF) .reciprocal).1 = PostProcess.new u s' n p d mass (reciprocal u.lattice) junkF := rfl
    have s2 : (step S (PostProcess.new u s' n p d mass (reciprocal u.lattice) junkF) (.force left jc sym forces)).1 =
        PostProcess.new u s' n p d mass (reciprocal u.lattice) fc := by
      show (setForce left jc sym forces _).1 = _
      unfold setForce
      rw [hf]
      rfl
    have s3 : (step S (PostProcess.new u s' n p d mass (reciprocal u.lattice) fc) (.kPoints (some lines))).1 =
        { PostProcess.new u s' n p d mass (reciprocal u.lattice) fc with kPoints := ks, auto := auto } := by
      show (setK (some lines) _).1 = _
      simp only [setK]
      rw [show (fun c => decide ((PostProcess.new u s' n p d mass (reciprocal u.lattice) fc).p c ≠ 0)) = fun c => decide (p c ≠ 0) from rfl, hk]
    show (step S (step S (step S _ .reciprocal).1 _).1 _).1 = _
    rw [s1, s2, s3]
  have hks : o.kPoints = ks := by rw [ho]
  have hcur : Current (step S o .eval).1 := by
    show Current (eval S o).1
    rw [eval_state]
    exact current_gamma _ _ (frequencies_current hS _ (by rw [hks]; exact hne))
  have hst : (step S o .eval).1 = { frequencies S o with gammaFile := (eval S o).1.gammaFile } := eval_state S o
  have hkp : (step S o .eval).1.kPoints = ks := by
    rw [hst]
    show (frequencies S o).kPoints = ks
    rw [frequencies_kPoints, hks]
  have hdata2 : PostProcess.data o = ofCells u s' n p fc mass := by rw [ho]; rfl
  refine ⟨hdata2, ?_, hkp, by rw [← hkp]; exact hcur.1, ?_⟩
  · show (eval S o).2 = none
    have hwne : (frequencies S o).wq ≠ [] := by
      unfold frequencies
      rw [if_pos (by rw [hks]; simpa using hne)]
      simp [hks, hne]
    simp only [eval]
    split
    · split
      · rename_i h0; exact absurd h0 hwne
      · rfl
    · rfl
  · intro i k hi
    obtain ⟨row, hr1, hr2⟩ := hcur.2 i k (by rw [hkp]; exact hi)
    refine ⟨row, hr1, ?_⟩
    have hdof : dof (step S o .eval).1 = 3 * sel.length := by
      have e1 : (step S o .eval).1.unit = u := by
        rw [hst]
        show (frequencies S o).unit = u
        unfold frequencies
        split <;> rw [ho] <;> rfl
      simp only [dof, e1, hxyz]
      simp
      ring
    have hdata : PostProcess.data (step S o .eval).1 = PostProcess.data o := by
      rw [hst]
      show PostProcess.data (frequencies S o) = _
      unfold frequencies
      split <;> rfl
    have hgen : ∀ (m : ℕ) (hm : dof (step S o .eval).1 = m), IsSpectrum (Matrix.of fun (r c : Fin m) => dynMatrix (PostProcess.data o) (toReal k) r c) row := by
      rintro m rfl
      rw [← hdata]
      exact hr2
    have := hgen _ hdof
    rw [hdata2] at this
    exact this

/-- The same without symmetry: if the force constants `fc` are computed from `forces`, they are the spectra of the dynamical matrices built from
`fc`, one per listed wave vector, and no call raises. -/
theorem run_spectrum {u s' : Cell ℝ} {n p : Fin 3 → ℤ} (sel : List ℕ) (hsel : u.atomTrue = some sel)
    (hxyz : u.xyzTrue = some (sel.flatMap fun a => [a, a, a])) (d : ℝ) (mass : ℕ → ℝ) {S : Solver} (hS : IsSolver S)
    (junkR : M3 ℝ) (junkF left : FC ℝ) (jc : ℕ → Rows ℝ) (lines : List Str) (ks : List (V3 ℚ)) (auto : List ℤ)
    (hk : KPoints.setKPoints lines (fun c => decide (p c ≠ 0)) = .ok (ks, auto)) (hne : ks ≠ []) (forces : List (Rows ℝ)) (fc : FC ℝ)
    (hfc : setPlain d sel.length junkF forces = .ok fc) :
    let o := PostProcess.run S (PostProcess.new u s' n p d mass junkR junkF) [.reciprocal, .force left jc false forces, .kPoints (some lines)]
    PostProcess.data o = ofCells u s' n p fc mass ∧
    (step S o .eval).2 = none ∧ (step S o .eval).1.kPoints = ks ∧ (step S o .eval).1.wq.length = ks.length ∧
      ∀ (i : ℕ) (k : V3 ℚ), ks[i]? = some k → ∃ row, (step S o .eval).1.wq[i]? = some row ∧
        IsSpectrum (Matrix.of fun (r c : Fin (3 * sel.length)) => dynMatrix (ofCells u s' n p fc mass) (toReal k) r c) row := by
  exact run_spectrum_of sel hsel hxyz d mass hS junkR junkF left jc lines ks auto hk hne forces fc false (by
    unfold forceConstant
    rw [if_neg (by simp)]
    simp only [PostProcess.new, hsel, Option.getD_some]
    exact hfc)

/-- From the matrix to the stored frequencies: if the force constants are computed from `forces` and the dynamical matrix is the one of the crystal at every wave
vector with property `Q`, then the stored rows at these wave vectors are the spectra of the crystal. -/
theorem spectrum_of_matrix {u s' : Cell ℝ} {n p : Fin 3 → ℤ} (sel : List ℕ) (hsel : u.atomTrue = some sel)
    (hxyz : u.xyzTrue = some (sel.flatMap fun a => [a, a, a])) (Φ : Springs) (d : ℝ) (mass : ℕ → ℝ) {S : Solver} (hS : IsSolver S)
    (junkR : M3 ℝ) (junkF left : FC ℝ) (jc : ℕ → Rows ℝ) (lines : List Str) (ks : List (V3 ℚ)) (auto : List ℤ)
    (hk : KPoints.setKPoints lines (fun c => decide (p c ≠ 0)) = .ok (ks, auto)) (hne : ks ≠ []) (forces : List (Rows ℝ)) (fc : FC ℝ)
    (hfc : setPlain d sel.length junkF forces = .ok fc) (Q : V3 ℝ → Prop)
    (hmat : ∀ k, Q k → (Matrix.of fun (r c : Fin (3 * sel.length)) => dynMatrix (ofCells u s' n p fc mass) k r c) =
      trueDyn u sel mass Φ (qVec (ofCells u s' n p fc mass) k) (3 * sel.length)) :
    let o := PostProcess.run S (PostProcess.new u s' n p d mass junkR junkF) [.reciprocal, .force left jc false forces, .kPoints (some lines)]
    (step S o .eval).2 = none ∧ (step S o .eval).1.kPoints = ks ∧ (step S o .eval).1.wq.length = ks.length ∧
      ∀ (i : ℕ) (k : V3 ℚ), ks[i]? = some k → Q (toReal k) → ∃ row, (step S o .eval).1.wq[i]? = some row ∧
        IsSpectrum (trueDyn u sel mass Φ (qVec (PostProcess.data o) (toReal k)) (3 * sel.length)) row := by
  intro o
  obtain ⟨hd, h1, h2, h3, h4⟩ := run_spectrum (s' := s') (n := n) sel hsel hxyz d mass hS junkR junkF left jc lines ks auto hk hne forces fc hfc
  refine ⟨h1, h2, h3, ?_⟩
  intro i k hi hfit
  obtain ⟨row, r1, r2⟩ := h4 i k hi
  refine ⟨row, r1, ?_⟩
  rw [hmat (toReal k) hfit] at r2
  have hd' : PostProcess.data o = ofCells u s' n p fc mass := hd
  rw [hd']
  exact r2

/-- **C97.**  The whole calculation: pre-process, forces of the infinite harmonic crystal (made periodic), and on a new post-process object the calls
`set_reciprocal_lattice`, `set_force_constant` (without symmetry), `set_k_points` with any k-point file that is accepted and lists at least one wave vector, and
`eval_phonon`.  No call raises (if the system has a periodic direction or not), and for every listed wave vector that fits into the super cell the stored row is
the ascending list of the signed frequencies of the infinite crystal. -/
theorem C97_exact_frequencies {junk : ℕ → List (V3 ℝ)} {u s s' : Cell ℝ} {n p : Fin 3 → ℤ} (h : GoodCall junk u n p)
    (hdet : u.lattice.det ≠ 0) (sel : List ℕ) (hsel : u.atomTrue = some sel) (hlt : ∀ t ∈ sel, t < u.cart.length)
    (hxyz : u.xyzTrue = some (sel.flatMap fun a => [a, a, a]))
    (hs : setSuperCell junk u n p = .ok s) (hs' : setSuperIndTrue s u n p = .ok s')
    (Φ : Springs) (hΦ : ∀ a x b y l, l ∈ (Φ a x b y).support → ∀ i, p i = 0 → l i = 0)
    (d : ℝ) (hd : d ≠ 0) (F0 : Rows ℝ) (search : Run (List (ℕ × List (V3 ℝ)))) (mass : ℕ → ℝ) {S : Solver} (hS : IsSolver S)
    (junkR : M3 ℝ) (junkF left : FC ℝ) (jc : ℕ → Rows ℝ) (lines : List Str) (ks : List (V3 ℚ)) (auto : List ℤ)
    (hk : KPoints.setKPoints lines (fun c => decide (p c ≠ 0)) = .ok (ks, auto)) (hne : ks ≠ []) :
    ∃ s'' files, writeDisplaceCell s' sel (n 0 * n 1 * n 2).toNat d p false search = .ok (s'', files) ∧
      let forces := files.map fun f => harmonicForces (superSprings n (n 0 * n 1 * n 2).toNat Φ) F0 s' f.2
      let o := PostProcess.run S (PostProcess.new u s' n p d mass junkR junkF) [.reciprocal, .force left jc false forces, .kPoints (some lines)]
      (step S o .eval).2 = none ∧ (step S o .eval).1.kPoints = ks ∧ (step S o .eval).1.wq.length = ks.length ∧
      ∀ (i : ℕ) (k : V3 ℚ), ks[i]? = some k → Fits n p (toReal k) → ∃ row, (step S o .eval).1.wq[i]? = some row ∧
        IsSpectrum (trueDyn u sel mass Φ (qVec (PostProcess.data o) (toReal k)) (3 * sel.length)) row := by
  obtain ⟨s'', files, fc, hw, hfc, hmat⟩ := C97_exact_dynamical_matrix h hdet sel hsel hlt hxyz hs hs' Φ hΦ d hd F0 junkF search mass
  refine ⟨s'', files, hw, ?_⟩
  intro forces o
  exact spectrum_of_matrix sel hsel hxyz Φ d mass hS junkR junkF left jc lines ks auto hk hne forces fc hfc (Fits n p)
    fun k hf => hmat k hf _ le_rfl

/-! ### Non-vacuity: a chain of atoms with nearest-neighbour springs, super cell of two atoms -/

/-- One atom per cell, cubic lattice, periodic along the first direction. -/
def chainCell : Cell ℝ where
  lattice := 1
  atomType := ["C".toList]
  numAtom := [1]
  selective := true
  coordinate := .cartesian
  cart := [0]
  atomTrue := some [0]
  xyzTrue := some [0, 0, 0]

/-- Springs of strength 1 to both neighbours. -/
def chainSprings : Springs := fun _ x _ y =>
  if x = y then Finsupp.single 0 2 + (Finsupp.single ![1, 0, 0] (-1) + Finsupp.single ![-1, 0, 0] (-1)) else 0

example : GoodCall (fun m => List.replicate m 0) chainCell ![2, 1, 1] ![1, 0, 0] := ⟨by simp, rfl, by decide, by decide⟩

example : chainCell.lattice.det ≠ 0 := by simp [chainCell]

example : ∀ a x b y l, l ∈ (chainSprings a x b y).support → ∀ i, (![1, 0, 0] : Fin 3 → ℤ) i = 0 → l i = 0 := by
  intro a x b y l hl i hi
  have h3 : l = 0 ∨ l = ![1, 0, 0] ∨ l = ![-1, 0, 0] := by
    by_contra hc
    push Not at hc
    apply Finsupp.mem_support_iff.1 hl
    unfold chainSprings
    split_ifs
    · simp [Finsupp.single_apply, hc.1.symm, hc.2.1.symm, hc.2.2.symm]
    · rfl
  rcases h3 with rfl | rfl | rfl <;> fin_cases i <;> simp at hi ⊢

example : Fits ![2, 1, 1] ![1, 0, 0] ![1 / 2, 0, 0] := by
  intro i hi
  fin_cases i
  · exact ⟨1, by simp⟩
  · simp at hi
  · simp at hi

/-- At the zone boundary the squared frequency of the chain is `4 k / m`. -/
example : trueDyn chainCell [0] (fun _ => 1) chainSprings ![Real.pi, 0, 0] 3 0 0 = 4 := by
  have h : ∀ (F G : (Fin 3 → ℤ) →₀ ℝ) (w : (Fin 3 → ℤ) → ℂ),
      ((F + G).sum fun l φ => (φ : ℂ) * w l) = (F.sum fun l φ => (φ : ℂ) * w l) + G.sum fun l φ => (φ : ℂ) * w l := by
    intro F G w
    exact Finsupp.sum_add_index' (by simp) (by intros; push_cast; ring)
  have hs : ∀ (l : Fin 3 → ℤ) (v : ℝ) (w : (Fin 3 → ℤ) → ℂ), ((Finsupp.single l v).sum fun l φ => (φ : ℂ) * w l) = v * w l := by
    intro l v w
    exact Finsupp.sum_single_index (by simp)
  have e1 : exp (I * (Real.pi : ℂ)) = -1 := by rw [mul_comm]; exact Complex.exp_pi_mul_I
  have e2 : exp (-(I * (Real.pi : ℂ))) = -1 := by rw [Complex.exp_neg, e1]; norm_num
  have hsp : chainSprings 0 0 0 0 = Finsupp.single 0 2 + (Finsupp.single ![1, 0, 0] (-1) + Finsupp.single ![-1, 0, 0] (-1)) := if_pos rfl
  rw [trueDyn, Matrix.of_apply]
  show ((chainSprings 0 0 0 0).sum fun l φ => (φ : ℂ) * _) / _ = _
  rw [hsp, h, h, hs, hs, hs]
  simp [latVec, dot3, chainCell, Fin.sum_univ_three, e1, e2]
  norm_num

end

end Interphon.Props
