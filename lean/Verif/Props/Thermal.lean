import Verif.Model.Thermal
import Mathlib.Analysis.SpecialFunctions.Exp
import Mathlib.Analysis.SpecialFunctions.Log.Deriv
import Mathlib.Analysis.Calculus.Deriv.MeanValue
import Mathlib.Analysis.SpecialFunctions.Pow.Asymptotics
import Mathlib.Tactic.LinearCombination

/-! # Properties C49–C53: thermal properties -/

namespace Interphon.Props
open Py Interphon.Thermal Filter Topology

noncomputable section

/-! ### Specification: textbook harmonic-oscillator formulas -/

/-- Helmholtz free energy of a harmonic mode of energy `e`. -/
def oscF (e T : ℝ) : ℝ := e / 2 + kb * T * Real.log (1 - Real.exp (-(e / (kb * T))))
/-- Entropy of a harmonic mode of energy `e` (Bose–Einstein form). -/
def oscS (e T : ℝ) : ℝ := e / T / (Real.exp (e / (kb * T)) - 1) - kb * Real.log (1 - Real.exp (-(e / (kb * T))))
/-- Energy quantum of a mode of `nu` THz. -/
def quantum (nu : ℝ) : ℝ := h * (nu * 10 ^ 12)

theorem kb_pos : 0 < kb := by unfold kb; positivity
theorem h_pos : 0 < h := by unfold h; positivity
theorem quantum_pos {nu : ℝ} (hn : 0 < nu) : 0 < quantum nu := by
  have := h_pos
  unfold quantum; positivity

theorem x_pos {e T : ℝ} (he : 0 < e) (hT : 0 < T) : 0 < e / (kb * T) := div_pos he (mul_pos kb_pos hT)
theorem one_sub_pos {x : ℝ} (hx : 0 < x) : 0 < 1 - Real.exp (-x) := by
  have : Real.exp (-x) < 1 := by rw [Real.exp_lt_one_iff]; linarith
  linarith
theorem exp_sub_pos {x : ℝ} (hx : 0 < x) : 0 < Real.exp x - 1 := by
  have : 1 < Real.exp x := Real.one_lt_exp_iff.2 hx
  linarith

/-- The code's free-energy formula is the textbook one. -/
theorem C49_free_energy_formula {nu T : ℝ} (hn : 0 < nu) (hT : 0 < T) : modeF nu T = some (oscF (quantum nu) T) := by
  have hx := x_pos (quantum_pos hn) hT
  have e1 : -h * (nu * 10 ^ 12) / (kb * T) = -(quantum nu / (kb * T)) := by unfold quantum; ring
  unfold modeF
  simp only [e1]
  rw [log?, if_pos (one_sub_pos hx)]
  change some _ = some _
  congr 1
  unfold oscF quantum
  ring

/-- The code's entropy formula (with `cosh/sinh`) is the textbook one. -/
theorem C49_entropy_formula {nu T : ℝ} (hn : 0 < nu) (hT : 0 < T) : modeS nu T = some (oscS (quantum nu) T) := by
  have hx := x_pos (quantum_pos hn) hT
  set x := quantum nu / (kb * T) with hxd
  have hk := kb_pos
  have e1 : h * (nu * 10 ^ 12) / (2 * kb * T) = x / 2 := by rw [hxd]; unfold quantum; field_simp
  have hsinh : 0 < Real.sinh (x / 2) := Real.sinh_pos_iff.2 (by linarith)
  unfold modeS
  simp only [e1]
  rw [div?, if_neg hsinh.ne', log?, if_pos (by linarith)]
  change some _ = some _
  congr 1
  have hs : 2 * Real.sinh (x / 2) = Real.exp (x / 2) * (1 - Real.exp (-x)) := by
    rw [Real.sinh_eq, mul_sub, ← Real.exp_add]
    rw [show x / 2 + -x = -(x / 2) by ring]
    ring
  have hc : 2 * Real.cosh (x / 2) = Real.exp (x / 2) * (1 + Real.exp (-x)) := by
    rw [Real.cosh_eq, mul_add, ← Real.exp_add]
    rw [show x / 2 + -x = -(x / 2) by ring]
    ring
  have hlog : Real.log (2 * Real.sinh (x / 2)) = x / 2 + Real.log (1 - Real.exp (-x)) := by
    rw [hs, Real.log_mul (Real.exp_ne_zero _) (one_sub_pos hx).ne', Real.log_exp]
  have hcoth : Real.cosh (x / 2) / Real.sinh (x / 2) = (Real.exp x + 1) / (Real.exp x - 1) := by
    have hne : Real.exp x - 1 ≠ 0 := (exp_sub_pos hx).ne'
    rw [div_eq_div_iff hsinh.ne' hne]
    have p1 : Real.exp x * Real.exp (-x) = 1 := by rw [← Real.exp_add]; simp
    have : 2 * Real.cosh (x / 2) * (Real.exp x - 1) = (Real.exp x + 1) * (2 * Real.sinh (x / 2)) := by
      rw [hs, hc]
      linear_combination (2 * Real.exp (x / 2)) * p1
    linarith
  unfold oscS
  rw [← hxd, hlog]
  have hne : Real.exp x - 1 ≠ 0 := (exp_sub_pos hx).ne'
  have hq : quantum nu = x * (kb * T) := by rw [hxd]; field_simp
  have e2 : 1 / (2 * T) * h * (nu * 10 ^ 12) * Real.cosh (x / 2) / Real.sinh (x / 2) = kb * (x / 2) * ((Real.exp x + 1) / (Real.exp x - 1)) := by
    rw [← hcoth, show 1 / (2 * T) * h * (nu * 10 ^ 12) = 1 / (2 * T) * quantum nu by unfold quantum; ring, hq]
    field_simp
  rw [e2, hq]
  field_simp
  ring

private theorem oscF_deriv {e T : ℝ} (he : 0 < e) (hT : 0 < T) : HasDerivAt (oscF e) (-(oscS e T)) T := by
  have hk := kb_pos
  have hx := x_pos he hT
  have h1 : HasDerivAt (fun T => -(e / (kb * T))) (e / (kb * T ^ 2)) T := by
    have : HasDerivAt (fun T => kb * T) (kb * 1) T := (hasDerivAt_id T).const_mul kb
    have := ((hasDerivAt_const T e).div this (mul_pos hk hT).ne').neg
    refine this.congr_deriv ?_
    field_simp
    ring
  have h2 := (h1.exp.const_sub 1).log (one_sub_pos hx).ne'
  have h3 := (((hasDerivAt_id T).const_mul kb).mul h2).const_add (e / 2)
  refine h3.congr_deriv ?_
  unfold oscS
  have hne : Real.exp (e / (kb * T)) - 1 ≠ 0 := (exp_sub_pos hx).ne'
  have hne2 : 1 - Real.exp (-(e / (kb * T))) ≠ 0 := (one_sub_pos hx).ne'
  have key : Real.exp (-(e / (kb * T))) / (1 - Real.exp (-(e / (kb * T)))) = 1 / (Real.exp (e / (kb * T)) - 1) := by
    rw [div_eq_div_iff hne2 hne, mul_sub, ← Real.exp_add]
    simp
  have : kb * T * (-(Real.exp (-(e / (kb * T))) * (e / (kb * T ^ 2))) / (1 - Real.exp (-(e / (kb * T))))) =
      -(e / T) * (Real.exp (-(e / (kb * T))) / (1 - Real.exp (-(e / (kb * T))))) := by
    field_simp
  simp only [id, mul_one]
  rw [this, key]
  ring

/-- **C49** (one mode).  For every positive frequency, the entropy the code computes is minus the temperature derivative of the
free energy it computes, at every `T > 0`. -/
theorem C49_derivative (nu : ℝ) (hn : 0 < nu) :
    ∃ F S : ℝ → ℝ, (∀ T > 0, modeF nu T = some (F T) ∧ modeS nu T = some (S T)) ∧ ∀ T > 0, HasDerivAt F (-(S T)) T :=
  ⟨oscF (quantum nu), oscS (quantum nu), fun _ hT => ⟨C49_free_energy_formula hn hT, C49_entropy_formula hn hT⟩, fun _ hT => oscF_deriv (quantum_pos hn) hT⟩

/-! ### Sums over the spectrum -/

/-- The frequencies that enter the sums: all non-negative ones. -/
def modes (wq : List (List ℝ)) : List ℝ := wq.flatten.filter fun nu => decide (0 ≤ nu)

private theorem acc_row (nk nm : ℕ) (row : List ℝ) (val : ℝ → Option ℝ) (init : Option ℝ) :
    row.foldl (fun acc nu => if nu < 0 then acc else addMode nk nm acc (val nu)) init =
      (row.filter fun nu => decide (0 ≤ nu)).foldl (fun acc nu => addMode nk nm acc (val nu)) init := by
  induction row generalizing init with
  | nil => rfl
  | cons a row ih =>
    by_cases h : a < 0
    · have : ¬ 0 ≤ a := not_le.2 h
      simp [h, this, ih]
    · have h' := not_lt.1 h
      simp [h, h', ih]

private theorem accumulate_eq (nk nm : ℕ) (wq : List (List ℝ)) (val : ℝ → Option ℝ) (init : Option ℝ) :
    accumulate nk nm wq val init = (modes wq).foldl (fun acc nu => addMode nk nm acc (val nu)) init := by
  unfold accumulate modes
  induction wq generalizing init with
  | nil => rfl
  | cons row wq ih =>
    rw [List.foldl_cons, acc_row, List.flatten_cons, List.filter_append, List.foldl_append]
    exact ih _

private theorem accumulate_some (nk nm : ℕ) (wq : List (List ℝ)) (val : ℝ → Option ℝ) (v : ℝ → ℝ) (h : ∀ nu ∈ modes wq, val nu = some (v nu)) (a : ℝ) :
    accumulate nk nm wq val (some a) = some (a + ((modes wq).map fun nu => v nu / nk / ((nm : ℝ) / 3)).sum) := by
  rw [accumulate_eq]
  generalize modes wq = l at h
  induction l generalizing a with
  | nil => simp
  | cons x l ih =>
    rw [List.foldl_cons, h x (by simp)]
    rw [show addMode nk nm (some a) (some (v x)) = some (a + v x / nk / ((nm : ℝ) / 3)) from rfl]
    rw [ih _ (fun nu hnu => h nu (by simp [hnu]))]
    simp [add_assoc]

/-- **C53.**  Modes with negative (imaginary) frequency contribute nothing: deleting them from every k point leaves every free
energy and entropy entry as it is (counts of k points and modes unchanged), for every spectrum and every state. -/
theorem C53_imaginary (nk nm : ℕ) (wq : List (List ℝ)) (s : State) :
    Thermal.set nk nm (wq.map fun row => row.filter fun nu => decide (0 ≤ nu)) s = Thermal.set nk nm wq s := by
  have hm : modes (wq.map fun row => row.filter fun nu => decide (0 ≤ nu)) = modes wq := by
    unfold modes
    induction wq with
    | nil => rfl
    | cons row wq ih => simp [List.filter_append, ih]
  have : ∀ val init, accumulate nk nm (wq.map fun row => row.filter fun nu => decide (0 ≤ nu)) val init = accumulate nk nm wq val init := by
    intro val init
    rw [accumulate_eq, accumulate_eq, hm]
  unfold Thermal.set
  simp only [this]

/-- A spectrum without exactly-zero frequencies. -/
def NoZeroMode (wq : List (List ℝ)) : Prop := ∀ row ∈ wq, ∀ nu ∈ row, nu ≠ 0

theorem modes_pos {wq : List (List ℝ)} (h : NoZeroMode wq) : ∀ nu ∈ modes wq, 0 < nu := by
  intro nu hnu
  unfold modes at hnu
  simp only [List.mem_filter, List.mem_flatten, decide_eq_true_eq] at hnu
  obtain ⟨⟨row, hr, hn⟩, h0⟩ := hnu
  exact lt_of_le_of_ne h0 (h row hr nu hn).symm

/-- Free energy per atom of a spectrum: the sum of the textbook mode energies over `nk·nm/3`. -/
def specF (nk nm : ℕ) (wq : List (List ℝ)) (T : ℝ) : ℝ := ((modes wq).map fun nu => oscF (quantum nu) T / nk / ((nm : ℝ) / 3)).sum
/-- Entropy per atom. -/
def specS (nk nm : ℕ) (wq : List (List ℝ)) (T : ℝ) : ℝ := ((modes wq).map fun nu => oscS (quantum nu) T / nk / ((nm : ℝ) / 3)).sum
/-- Zero-point energy per atom. -/
def specZ (nk nm : ℕ) (wq : List (List ℝ)) : ℝ := ((modes wq).map fun nu => quantum nu / 2 / nk / ((nm : ℝ) / 3)).sum

/-- **C49** (spectrum).  The same for the sums over the spectrum. -/
theorem C49_derivative_total (nk nm : ℕ) (wq : List (List ℝ)) (h : NoZeroMode wq) (T : ℝ) (hT : 0 < T) :
    HasDerivAt (specF nk nm wq) (-(specS nk nm wq T)) T := by
  have hp := modes_pos h
  unfold specF specS
  generalize modes wq = l at hp
  induction l with
  | nil => simpa using hasDerivAt_const T (0 : ℝ)
  | cons a l ih =>
    simp only [List.map_cons, List.sum_cons]
    have h1 := ((oscF_deriv (quantum_pos (hp a (by simp))) hT).div_const (nk : ℝ)).div_const ((nm : ℝ) / 3)
    refine (h1.add (ih fun nu hnu => hp nu (by simp [hnu]))).congr_deriv ?_
    ring

/-! ### C50 -/

private theorem oscS_nonneg {e T : ℝ} (he : 0 < e) (hT : 0 < T) : 0 ≤ oscS e T := by
  have hx := x_pos he hT
  unfold oscS
  have h1 : 0 ≤ e / T / (Real.exp (e / (kb * T)) - 1) := div_nonneg (div_nonneg he.le hT.le) (exp_sub_pos hx).le
  have h2 : Real.log (1 - Real.exp (-(e / (kb * T)))) ≤ 0 := Real.log_nonpos (one_sub_pos hx).le (by have := Real.exp_pos (-(e / (kb * T))); linarith)
  have h3 := mul_nonpos_of_nonneg_of_nonpos kb_pos.le h2
  linarith

private theorem oscF_le {e T : ℝ} (he : 0 < e) (hT : 0 < T) : oscF e T ≤ e / 2 := by
  have hx := x_pos he hT
  have h2 : Real.log (1 - Real.exp (-(e / (kb * T)))) ≤ 0 := Real.log_nonpos (one_sub_pos hx).le (by have := Real.exp_pos (-(e / (kb * T))); linarith)
  unfold oscF
  have := mul_nonpos_of_nonneg_of_nonpos (mul_pos kb_pos hT).le h2
  linarith

/-- **C50.**  For every positive frequency: entropy ≥ 0, free energy ≤ zero-point energy, and free energy decreasing in `T`. -/
theorem C50_signs (nu : ℝ) (hn : 0 < nu) :
    ∃ F S : ℝ → ℝ, (∀ T > 0, modeF nu T = some (F T) ∧ modeS nu T = some (S T)) ∧
      (∀ T > 0, 0 ≤ S T ∧ F T ≤ modeZ nu) ∧ AntitoneOn F (Set.Ioi 0) := by
  have hq := quantum_pos hn
  refine ⟨oscF (quantum nu), oscS (quantum nu), fun _ hT => ⟨C49_free_energy_formula hn hT, C49_entropy_formula hn hT⟩, ?_, ?_⟩
  · intro T hT
    refine ⟨oscS_nonneg hq hT, ?_⟩
    have : modeZ nu = quantum nu / 2 := by unfold modeZ quantum; ring
    rw [this]
    exact oscF_le hq hT
  · apply antitoneOn_of_deriv_nonpos (convex_Ioi 0)
    · intro T hT
      exact (oscF_deriv hq hT).continuousAt.continuousWithinAt
    · intro T hT
      rw [interior_Ioi] at hT
      exact (oscF_deriv hq hT).differentiableAt.differentiableWithinAt
    · intro T hT
      rw [interior_Ioi] at hT
      rw [(oscF_deriv hq hT).deriv]
      have := oscS_nonneg hq hT
      linarith

private theorem sum_nonneg' (l : List ℝ) (g : ℝ → ℝ) (h : ∀ x ∈ l, 0 ≤ g x) : 0 ≤ (l.map g).sum := by
  induction l with
  | nil => simp
  | cons a l ih => simp only [List.map_cons, List.sum_cons]; exact add_nonneg (h a (by simp)) (ih fun x hx => h x (by simp [hx]))

private theorem sum_le' (l : List ℝ) (g g' : ℝ → ℝ) (h : ∀ x ∈ l, g x ≤ g' x) : (l.map g).sum ≤ (l.map g').sum := by
  induction l with
  | nil => simp
  | cons a l ih => simp only [List.map_cons, List.sum_cons]; exact add_le_add (h a (by simp)) (ih fun x hx => h x (by simp [hx]))

/-- **C50** (spectrum). -/
theorem C50_signs_total (nk nm : ℕ) (wq : List (List ℝ)) (h : NoZeroMode wq) (T : ℝ) (hT : 0 < T) :
    0 ≤ specS nk nm wq T ∧ specF nk nm wq T ≤ specZ nk nm wq := by
  have hp := modes_pos h
  constructor
  · exact sum_nonneg' _ _ fun nu hnu => div_nonneg (div_nonneg (oscS_nonneg (quantum_pos (hp nu hnu)) hT) (Nat.cast_nonneg _)) (by positivity)
  · refine sum_le' _ _ _ fun nu hnu => ?_
    gcongr
    exact oscF_le (quantum_pos (hp nu hnu)) hT

/-! ### C51, C52 -/

private theorem zeroIndices_spec (temp : List ℝ) (i : ℕ) : i ∈ zeroIndices temp ↔ temp[i]? = some 0 := by
  unfold zeroIndices
  simp only [List.mem_filterMap]
  constructor
  · rintro ⟨⟨t, j⟩, hm, h⟩
    have hg := List.mem_zipIdx_iff_getElem?.1 hm
    simp only at h hg
    split_ifs at h with ht
    simp only [Option.some.injEq] at h
    rw [← h, hg, ht]
  · intro h
    exact ⟨(0, i), List.mem_zipIdx_iff_getElem?.2 h, by simp⟩

private theorem accF (nk nm : ℕ) {wq : List (List ℝ)} (h : NoZeroMode wq) {T : ℝ} (hT : 0 < T) :
    accumulate nk nm wq (fun nu => modeF nu T) (some 0) = some (specF nk nm wq T) := by
  rw [accumulate_some nk nm wq _ (fun nu => oscF (quantum nu) T) (fun nu hnu => C49_free_energy_formula (modes_pos h nu hnu) hT), zero_add]; rfl

private theorem accS (nk nm : ℕ) {wq : List (List ℝ)} (h : NoZeroMode wq) {T : ℝ} (hT : 0 < T) :
    accumulate nk nm wq (fun nu => modeS nu T) (some 0) = some (specS nk nm wq T) := by
  rw [accumulate_some nk nm wq _ (fun nu => oscS (quantum nu) T) (fun nu hnu => C49_entropy_formula (modes_pos h nu hnu) hT), zero_add]; rfl

private theorem accZ (nk nm : ℕ) (wq : List (List ℝ)) :
    accumulate nk nm wq (fun nu => some (modeZ nu)) (some 0) = some (specZ nk nm wq) := by
  rw [accumulate_some nk nm wq _ modeZ (fun nu _ => rfl), zero_add]
  unfold specZ
  congr 2
  apply List.map_congr_left
  intro nu _
  unfold modeZ quantum
  ring

/-- **C52** (partial: no zero temperature).  On a fresh object, for every list of positive temperatures and every spectrum without
exactly-zero frequencies, every entry is the value of the formulas at its own temperature. -/
theorem C52_no_zero_partial (nk nm : ℕ) (wq : List (List ℝ)) (h : NoZeroMode wq) (temp : List ℝ) (hT : ∀ T ∈ temp, 0 < T) :
    let s := Thermal.set nk nm wq (Thermal.init temp)
    s.temp = temp ∧ s.freeEnergy = temp.map (fun T => some (specF nk nm wq T)) ∧ s.entropy = temp.map (fun T => some (specS nk nm wq T)) := by
  have hz : zeroIndices temp = [] := by
    apply List.eq_nil_iff_forall_not_mem.2
    intro i hi
    have := (zeroIndices_spec temp i).1 hi
    exact lt_irrefl _ (hT 0 (List.mem_of_getElem? this))
  simp only [Thermal.set, Thermal.init, hz]
  refine ⟨trivial, ?_, ?_⟩
  · apply List.ext_getElem?
    intro i
    rw [List.getElem?_map, List.getElem?_map]
    by_cases hi : i < temp.length
    · have hz2 : ((List.replicate temp.length (some (0 : ℝ))).zip temp)[i]? = some (some 0, temp[i]) :=
        List.getElem?_zip_eq_some.2 ⟨by simp [List.getElem?_replicate, hi], by simp [hi]⟩
      rw [hz2, List.getElem?_eq_getElem hi]
      simp only [Option.map_some]
      rw [accF nk nm h (hT _ (List.getElem_mem hi))]
    · rw [List.getElem?_eq_none (by simp; omega), List.getElem?_eq_none (by omega)]; rfl
  · apply List.ext_getElem?
    intro i
    rw [List.getElem?_map, List.getElem?_map]
    by_cases hi : i < temp.length
    · have hz2 : ((List.replicate temp.length (some (0 : ℝ))).zip temp)[i]? = some (some 0, temp[i]) :=
        List.getElem?_zip_eq_some.2 ⟨by simp [List.getElem?_replicate, hi], by simp [hi]⟩
      rw [hz2, List.getElem?_eq_getElem hi]
      simp only [Option.map_some]
      rw [accS nk nm h (hT _ (List.getElem_mem hi))]
    · rw [List.getElem?_eq_none (by simp; omega), List.getElem?_eq_none (by omega)]; rfl

/-- **C51.**  With exactly one zero, at any position between positive temperatures, whatever the arrays held before: that position gets
the zero-point energy and zero entropy, every other one the value at its own temperature. -/
theorem C51_one_zero (nk nm : ℕ) (wq : List (List ℝ)) (h : NoZeroMode wq) (before after : List ℝ)
    (hb : ∀ T ∈ before, 0 < T) (ha : ∀ T ∈ after, 0 < T) (s0 : State) (hs : s0.temp = before ++ 0 :: after) :
    let s := Thermal.set nk nm wq s0
    s.temp = s0.temp ∧
    s.freeEnergy = before.map (fun T => some (specF nk nm wq T)) ++ some (specZ nk nm wq) :: after.map (fun T => some (specF nk nm wq T)) ∧
    s.entropy = before.map (fun T => some (specS nk nm wq T)) ++ some 0 :: after.map (fun T => some (specS nk nm wq T)) := by
  have key : ∀ (l : List ℝ) (k : ℕ), (∀ T ∈ l, 0 < T) → (l.zipIdx k).filterMap (fun x : ℝ × ℕ => if x.1 = 0 then some x.2 else none) = [] := by
    intro l k hl
    apply List.filterMap_eq_nil_iff.2
    rintro ⟨t, j⟩ hm
    have := hl t (List.fst_mem_of_mem_zipIdx hm)
    simp [this.ne']
  have hz : zeroIndices s0.temp = [before.length] := by
    rw [hs]
    unfold zeroIndices
    have e : ((before ++ 0 :: after).zipIdx).filterMap (fun x : ℝ × ℕ => if x.1 = 0 then some x.2 else none) = [before.length] := by
      rw [List.zipIdx_append, List.filterMap_append, key _ _ hb, List.zipIdx_cons, List.filterMap_cons]
      simp [key _ _ ha]
    exact e
  have hdel : deleteAt s0.temp before.length = before ++ after := by
    rw [hs]; unfold deleteAt; simp [List.drop_append]
  have hins : ∀ (g : ℝ → Option ℝ) (v : Option ℝ), insertAt ((before ++ after).map g) before.length v = before.map g ++ v :: after.map g := by
    intro g v
    unfold insertAt
    simp [List.map_append, List.take_append, List.drop_append]
  have hF : ∀ l : List ℝ, (∀ T ∈ l, 0 < T) → l.map (fun T => accumulate nk nm wq (fun nu => modeF nu T) (some 0)) = l.map (fun T => some (specF nk nm wq T)) :=
    fun l hl => List.map_congr_left fun T hT => accF nk nm h (hl T hT)
  have hS : ∀ l : List ℝ, (∀ T ∈ l, 0 < T) → l.map (fun T => accumulate nk nm wq (fun nu => modeS nu T) (some 0)) = l.map (fun T => some (specS nk nm wq T)) :=
    fun l hl => List.map_congr_left fun T hT => accS nk nm h (hl T hT)
  simp only [Thermal.set, hz, hdel, hins, accZ, hF _ hb, hF _ ha, hS _ hb, hS _ ha, and_self]

/-- **C51** (limits).  The values written at zero temperature are the limits of the formulas for `T → 0⁺`. -/
theorem C51_limit (nu : ℝ) (hn : 0 < nu) :
    ∃ F S : ℝ → ℝ, (∀ T > 0, modeF nu T = some (F T) ∧ modeS nu T = some (S T)) ∧
      Tendsto F (𝓝[>] 0) (𝓝 (modeZ nu)) ∧ Tendsto S (𝓝[>] 0) (𝓝 0) := by
  refine ⟨oscF (quantum nu), oscS (quantum nu), fun _ hT => ⟨C49_free_energy_formula hn hT, C49_entropy_formula hn hT⟩, ?_⟩
  have hq := quantum_pos hn
  have hk := kb_pos
  have hx : Tendsto (fun T => quantum nu / (kb * T)) (𝓝[>] 0) atTop := by
    have : Tendsto (fun T : ℝ => (quantum nu / kb) * T⁻¹) (𝓝[>] 0) atTop := tendsto_inv_nhdsGT_zero.const_mul_atTop (by positivity)
    refine this.congr fun T => ?_
    field_simp
  have hexp : Tendsto (fun T => Real.exp (-(quantum nu / (kb * T)))) (𝓝[>] 0) (𝓝 0) := Real.tendsto_exp_neg_atTop_nhds_zero.comp hx
  have hlog : Tendsto (fun T => Real.log (1 - Real.exp (-(quantum nu / (kb * T))))) (𝓝[>] 0) (𝓝 0) := by
    have h1 : Tendsto (fun T => 1 - Real.exp (-(quantum nu / (kb * T)))) (𝓝[>] 0) (𝓝 (1 - 0)) := hexp.const_sub 1
    have h2 := h1.log (by norm_num)
    simpa using h2
  have hT : Tendsto (fun T : ℝ => T) (𝓝[>] 0) (𝓝 0) := tendsto_id.mono_left nhdsWithin_le_nhds
  constructor
  · have h1 := ((hT.const_mul kb).mul hlog).const_add (quantum nu / 2)
    have hz : modeZ nu = quantum nu / 2 := by unfold modeZ quantum; ring
    rw [hz]
    simp only [mul_zero, add_zero] at h1
    exact h1
  · have hr : Tendsto (fun x : ℝ => kb * (x / (Real.exp x - 1))) atTop (𝓝 0) := by
      have h1 : Tendsto (fun x : ℝ => x / Real.exp x) atTop (𝓝 0) := by
        have := Real.tendsto_pow_mul_exp_neg_atTop_nhds_zero 1
        refine this.congr fun x => ?_
        rw [Real.exp_neg, pow_one]; rfl
      have h2 : Tendsto (fun x : ℝ => 1 - Real.exp (-x)) atTop (𝓝 1) := by simpa using Real.tendsto_exp_neg_atTop_nhds_zero.const_sub 1
      have h3 := (h1.div h2 one_ne_zero).const_mul kb
      simp only [zero_div, mul_zero] at h3
      refine h3.congr fun x => ?_
      have he : Real.exp x - 1 = Real.exp x * (1 - Real.exp (-x)) := by rw [mul_sub, ← Real.exp_add]; simp
      simp only [Pi.div_apply]
      rw [he, div_div]
    have h1 := (hr.comp hx).sub (hlog.const_mul kb)
    simp only [mul_zero, sub_zero] at h1
    refine h1.congr' ?_
    filter_upwards [self_mem_nhdsWithin] with T hT'
    have hT0 : (0 : ℝ) < T := hT'
    simp only [Function.comp_apply, oscS]
    congr 1
    field_simp

/-- **C52 refuted** (several zeros).  If zero occurs twice in the temperature list, `set` computes nothing at all: every array keeps
what it held (zeros on a fresh object), for every spectrum. -/
theorem C52_two_zeros_refuted (nk nm : ℕ) (wq : List (List ℝ)) (s : State) (i j : ℕ) (hij : i ≠ j) (hi : s.temp[i]? = some 0) (hj : s.temp[j]? = some 0) :
    Thermal.set nk nm wq s = s := by
  have h1 := (zeroIndices_spec s.temp i).2 hi
  have h2 := (zeroIndices_spec s.temp j).2 hj
  unfold Thermal.set
  rcases hz : zeroIndices s.temp with _ | ⟨a, _ | ⟨b, l⟩⟩
  · rw [hz] at h1; simp at h1
  · rw [hz] at h1 h2
    simp only [List.mem_singleton] at h1 h2
    exact absurd (h1.trans h2.symm) hij
  · rfl

/-- One exactly-zero frequency makes the accumulated value non-finite. -/
private theorem zero_mode_none (nk nm : ℕ) (wq : List (List ℝ)) (row : List ℝ) (hr : row ∈ wq) (h0 : (0 : ℝ) ∈ row) (T : ℝ) (init : Option ℝ) :
    accumulate nk nm wq (fun nu => modeF nu T) init = none ∧ accumulate nk nm wq (fun nu => modeS nu T) init = none := by
  have hm : (0 : ℝ) ∈ modes wq := by
    unfold modes
    simp only [List.mem_filter, List.mem_flatten, decide_eq_true_eq]
    exact ⟨⟨row, hr, h0⟩, le_rfl⟩
  have hF : modeF 0 T = none := by
    unfold modeF log?
    simp
  have hS : modeS 0 T = none := by
    unfold modeS div?
    simp
  have key : ∀ (val : ℝ → Option ℝ), val 0 = none → ∀ (l : List ℝ), (0 : ℝ) ∈ l → ∀ init, l.foldl (fun acc nu => addMode nk nm acc (val nu)) init = none := by
    intro val hv l
    have hnone : ∀ l : List ℝ, l.foldl (fun acc nu => addMode nk nm acc (val nu)) none = none := by
      intro l
      induction l with
      | nil => rfl
      | cons a l ih => rw [List.foldl_cons]; exact ih
    induction l with
    | nil => simp
    | cons a l ih =>
      intro hmem init
      rw [List.foldl_cons]
      rcases List.mem_cons.1 hmem with rfl | hmem
      · rw [hv]
        have : addMode nk nm init none = none := by cases init <;> rfl
        rw [this]; exact hnone l
      · exact ih hmem _
  rw [accumulate_eq, accumulate_eq]
  exact ⟨key _ hF _ hm _, key _ hS _ hm _⟩

/-- **C52 refuted** (zero frequencies).  One exactly-zero frequency, e.g. an acoustic mode at Γ, makes every free energy and every entropy
non-finite (`log 0`, `0/0`), whatever the positive temperatures. -/
theorem C52_zero_mode_refuted (nk nm : ℕ) (wq : List (List ℝ)) (row : List ℝ) (hr : row ∈ wq) (h0 : (0 : ℝ) ∈ row) (temp : List ℝ) (hT : ∀ T ∈ temp, 0 < T) :
    (Thermal.set nk nm wq (Thermal.init temp)).freeEnergy = temp.map (fun _ => none) ∧
      (Thermal.set nk nm wq (Thermal.init temp)).entropy = temp.map (fun _ => none) := by
  have hz : zeroIndices temp = [] := by
    rw [List.eq_nil_iff_forall_not_mem]
    intro i hi
    have := (zeroIndices_spec temp i).1 hi
    exact absurd (hT 0 (List.mem_of_getElem? this)) (lt_irrefl _)
  unfold Thermal.set
  simp only [Thermal.init, hz]
  constructor
  · refine List.ext_getElem? fun i => ?_
    simp only [List.getElem?_map, List.getElem?_zip_eq_some, List.getElem?_replicate]
    rcases lt_or_ge i temp.length with hi | hi
    · rw [List.getElem?_eq_getElem (by simpa using hi), List.getElem?_eq_getElem hi]
      simp [(zero_mode_none nk nm wq row hr h0 _ _).1]
    · rw [List.getElem?_eq_none (by simpa using hi), List.getElem?_eq_none hi]; rfl
  · refine List.ext_getElem? fun i => ?_
    simp only [List.getElem?_map, List.getElem?_zip_eq_some, List.getElem?_replicate]
    rcases lt_or_ge i temp.length with hi | hi
    · rw [List.getElem?_eq_getElem (by simpa using hi), List.getElem?_eq_getElem hi]
      simp [(zero_mode_none nk nm wq row hr h0 _ _).2]
    · rw [List.getElem?_eq_none (by simpa using hi), List.getElem?_eq_none hi]; rfl

/-- **C52** (exact condition).  On a fresh object with positive temperatures, all free energies are finite exactly if no frequency is exactly
zero, and so are all entropies. -/
theorem C52_finite_iff (nk nm : ℕ) (wq : List (List ℝ)) (temp : List ℝ) (hne : temp ≠ []) (hT : ∀ T ∈ temp, 0 < T) :
    ((∀ x ∈ (Thermal.set nk nm wq (Thermal.init temp)).freeEnergy, x ≠ none) ↔ ∀ row ∈ wq, (0 : ℝ) ∉ row) ∧
      ((∀ x ∈ (Thermal.set nk nm wq (Thermal.init temp)).entropy, x ≠ none) ↔ ∀ row ∈ wq, (0 : ℝ) ∉ row) := by
  obtain ⟨T, l, rfl⟩ := List.exists_cons_of_ne_nil hne
  have back : (∀ row ∈ wq, (0 : ℝ) ∉ row) → NoZeroMode wq := fun h row hr nu hn h0 => h row hr (h0 ▸ hn)
  refine ⟨⟨fun h row hr h0 => ?_, fun h => ?_⟩, ⟨fun h row hr h0 => ?_, fun h => ?_⟩⟩
  · rw [(C52_zero_mode_refuted nk nm wq row hr h0 _ hT).1] at h
    exact h none (by simp) rfl
  · rw [(C52_no_zero_partial nk nm wq (back h) _ hT).2.1]
    intro x hx; obtain ⟨a, -, rfl⟩ := List.mem_map.1 hx; simp
  · rw [(C52_zero_mode_refuted nk nm wq row hr h0 _ hT).2] at h
    exact h none (by simp) rfl
  · rw [(C52_no_zero_partial nk nm wq (back h) _ hT).2.2]
    intro x hx; obtain ⟨a, -, rfl⟩ := List.mem_map.1 hx; simp

/-- **C52 refuted** (repeated analysis).  Without a zero temperature a second `set` doubles every entry. -/
theorem C52_repeat_refuted (nk nm : ℕ) (wq : List (List ℝ)) (h : NoZeroMode wq) (T : ℝ) (hT : 0 < T) :
    (Thermal.set nk nm wq (Thermal.set nk nm wq (Thermal.init [T]))).freeEnergy = [some (2 * specF nk nm wq T)] := by
  obtain ⟨h1, h2, h3⟩ := C52_no_zero_partial nk nm wq h [T] (by simpa using hT)
  set s := Thermal.set nk nm wq (Thermal.init [T]) with hs
  have hz : zeroIndices s.temp = [] := by
    rw [h1]
    simp [zeroIndices, List.zipIdx_cons, hT.ne']
  unfold Thermal.set
  rw [hz]
  simp only [h1, h2]
  simp only [List.map_cons, List.map_nil, List.zip_cons_cons, List.zip_nil_left, List.cons.injEq, and_true]
  have := accumulate_some nk nm wq (fun nu => modeF nu T) (fun nu => oscF (quantum nu) T) (fun nu hnu => C49_free_energy_formula (modes_pos h nu hnu) hT) (specF nk nm wq T)
  rw [this]
  congr 1
  unfold specF
  ring

/-- Hypotheses are met: two k points, an imaginary and two real modes. -/
example : NoZeroMode [[-1, 2], [3, 4]] := by
  intro row hr nu hn
  simp only [List.mem_cons, List.not_mem_nil, or_false] at hr
  rcases hr with rfl | rfl <;> simp at hn <;> rcases hn with rfl | rfl <;> norm_num

end

end Interphon.Props
