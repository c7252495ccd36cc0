import Verif.Props.Thermal

/-! # C50 (entropy), C115 (energy) and C116 (picture): more about the thermal properties -/

namespace Interphon.Props
open Py Interphon.Thermal Filter Topology

noncomputable section

/-! ### C50: entropy grows with temperature -/

private theorem entropy_shape (x : ℝ) (hx : 0 < x) :
    HasDerivAt (fun x => x / (Real.exp x - 1) - Real.log (1 - Real.exp (-x))) (-(x * Real.exp x / (Real.exp x - 1) ^ 2)) x := by
  have hne : Real.exp x - 1 ≠ 0 := (exp_sub_pos hx).ne'
  have h1 : HasDerivAt (fun x => x / (Real.exp x - 1)) ((1 * (Real.exp x - 1) - x * Real.exp x) / (Real.exp x - 1) ^ 2) x :=
    (hasDerivAt_id x).div ((Real.hasDerivAt_exp x).sub_const 1) hne
  have h2 : HasDerivAt (fun x => Real.log (1 - Real.exp (-x))) (-(Real.exp (-x) * -1) / (1 - Real.exp (-x))) x :=
    (((hasDerivAt_neg x).exp).const_sub 1).log (one_sub_pos hx).ne'
  refine (h1.sub h2).congr_deriv ?_
  have key : Real.exp (-x) / (1 - Real.exp (-x)) = 1 / (Real.exp x - 1) := by
    rw [div_eq_div_iff (one_sub_pos hx).ne' hne, mul_sub, ← Real.exp_add]
    simp
  rw [show -(Real.exp (-x) * -1) / (1 - Real.exp (-x)) = Real.exp (-x) / (1 - Real.exp (-x)) by ring, key]
  field_simp
  ring

private theorem entropy_antitone : AntitoneOn (fun x => x / (Real.exp x - 1) - Real.log (1 - Real.exp (-x))) (Set.Ioi 0) := by
  refine antitoneOn_of_deriv_nonpos (convex_Ioi 0) ?_ ?_ ?_
  · intro x hx; exact (entropy_shape x hx).continuousAt.continuousWithinAt
  · intro x hx; rw [interior_Ioi] at hx; exact (entropy_shape x hx).differentiableAt.differentiableWithinAt
  · intro x hx
    rw [interior_Ioi] at hx
    rw [(entropy_shape x hx).deriv, neg_nonpos]
    have : (0 : ℝ) < x := hx
    positivity

private theorem oscS_shape {e T : ℝ} (hT : 0 < T) :
    oscS e T = kb * (e / (kb * T) / (Real.exp (e / (kb * T)) - 1) - Real.log (1 - Real.exp (-(e / (kb * T))))) := by
  have hk := kb_pos
  unfold oscS
  have : e / T = kb * (e / (kb * T)) := by field_simp
  rw [this]; ring

private theorem oscS_mono {e : ℝ} (he : 0 < e) {T T' : ℝ} (hT : 0 < T) (h : T ≤ T') : oscS e T ≤ oscS e T' := by
  have hk := kb_pos
  have hT' := hT.trans_le h
  rw [oscS_shape hT, oscS_shape hT']
  refine mul_le_mul_of_nonneg_left ?_ hk.le
  refine entropy_antitone (x_pos he hT') (x_pos he hT) ?_
  exact div_le_div_of_nonneg_left he.le (mul_pos hk hT) (mul_le_mul_of_nonneg_left h hk.le)

private theorem sum_map_le (l : List ℝ) (f g : ℝ → ℝ) (h : ∀ x ∈ l, f x ≤ g x) : (l.map f).sum ≤ (l.map g).sum :=
  List.sum_le_sum h

/-- **C50** (entropy).  The entropy the program computes never decreases with temperature, for every spectrum without exactly-zero frequencies. -/
theorem C50_entropy_monotone (nk nm : ℕ) (wq : List (List ℝ)) (h : NoZeroMode wq) (temp : List ℝ) (hT : ∀ T ∈ temp, 0 < T) (i j : ℕ)
    {Ti Tj : ℝ} (hi : temp[i]? = some Ti) (hj : temp[j]? = some Tj) (hij : Ti ≤ Tj) :
    ∃ Si Sj : ℝ, (Thermal.set nk nm wq (Thermal.init temp)).entropy[i]? = some (some Si) ∧
      (Thermal.set nk nm wq (Thermal.init temp)).entropy[j]? = some (some Sj) ∧ Si ≤ Sj := by
  obtain ⟨-, -, h3⟩ := C52_no_zero_partial nk nm wq h temp hT
  refine ⟨specS nk nm wq Ti, specS nk nm wq Tj, ?_, ?_, ?_⟩
  · rw [h3, List.getElem?_map, hi]; rfl
  · rw [h3, List.getElem?_map, hj]; rfl
  · unfold specS
    refine sum_map_le _ _ _ fun nu hnu => ?_
    have := oscS_mono (quantum_pos (modes_pos h nu hnu)) (hT Ti (List.mem_of_getElem? hi)) hij
    gcongr

/-! ### C115: the energy -/

/-- Mean energy of a harmonic mode of energy `e` (Bose–Einstein occupation plus one half). -/
def oscU (e T : ℝ) : ℝ := e * (1 / 2 + 1 / (Real.exp (e / (kb * T)) - 1))

/-- Energy per atom of a spectrum. -/
def specU (nk nm : ℕ) (wq : List (List ℝ)) (T : ℝ) : ℝ := ((modes wq).map fun nu => oscU (quantum nu) T / nk / ((nm : ℝ) / 3)).sum

private theorem osc_energy {e T : ℝ} (hT : 0 < T) : oscF e T + T * oscS e T = oscU e T := by
  unfold oscF oscS oscU
  rw [mul_sub, show T * (e / T / (Real.exp (e / (kb * T)) - 1)) = e / (Real.exp (e / (kb * T)) - 1) by field_simp]
  ring

/-- **C115.**  At every temperature free energy and entropy combine to the Bose–Einstein energy of the spectrum: `F + T S = U`. -/
theorem C115_energy (nk nm : ℕ) (wq : List (List ℝ)) (h : NoZeroMode wq) (temp : List ℝ) (hT : ∀ T ∈ temp, 0 < T) (i : ℕ) {T : ℝ}
    (hi : temp[i]? = some T) :
    ∃ F S : ℝ, (Thermal.set nk nm wq (Thermal.init temp)).freeEnergy[i]? = some (some F) ∧
      (Thermal.set nk nm wq (Thermal.init temp)).entropy[i]? = some (some S) ∧ F + T * S = specU nk nm wq T := by
  obtain ⟨-, h2, h3⟩ := C52_no_zero_partial nk nm wq h temp hT
  have hTp := hT T (List.mem_of_getElem? hi)
  refine ⟨specF nk nm wq T, specS nk nm wq T, ?_, ?_, ?_⟩
  · rw [h2, List.getElem?_map, hi]; rfl
  · rw [h3, List.getElem?_map, hi]; rfl
  · unfold specF specS specU
    generalize modes wq = l
    induction l with
    | nil => simp
    | cons a l ih =>
      simp only [List.map_cons, List.sum_cons]
      rw [← ih, ← osc_energy hTp]; ring

/-- **C115.**  The same at zero temperature, where the program stores the zero-point energy: it is the limit of the energy. -/
theorem C115_zero_temperature (nk nm : ℕ) (wq : List (List ℝ)) (h : NoZeroMode wq) :
    Tendsto (specU nk nm wq) (𝓝[>] 0) (𝓝 (specZ nk nm wq)) := by
  have hp := modes_pos h
  unfold specU specZ
  generalize modes wq = l at hp
  induction l with
  | nil => simpa using tendsto_const_nhds
  | cons a l ih =>
    have ha := quantum_pos (hp a (by simp))
    have hk := kb_pos
    have hx : Tendsto (fun T => quantum a / (kb * T)) (𝓝[>] 0) atTop := by
      have : Tendsto (fun T : ℝ => quantum a / kb * T⁻¹) (𝓝[>] 0) atTop := tendsto_inv_nhdsGT_zero.const_mul_atTop (div_pos ha hk)
      refine this.congr fun T => ?_
      rw [div_mul_eq_div_div, div_eq_mul_inv (quantum a / kb)]
    have he : Tendsto (fun T => Real.exp (quantum a / (kb * T)) - 1) (𝓝[>] 0) atTop :=
      tendsto_atTop_add_const_right _ (-1) (Real.tendsto_exp_atTop.comp hx)
    have hi := he.inv_tendsto_atTop
    have h1 : Tendsto (fun T => oscU (quantum a) T) (𝓝[>] 0) (𝓝 (quantum a / 2)) := by
      have := ((hi.const_add (1 / 2 : ℝ)).const_mul (quantum a))
      rw [add_zero, show quantum a * (1 / 2) = quantum a / 2 by ring] at this
      refine this.congr fun T => ?_
      simp [oscU]
    have h2 := ((h1.div_const (nk : ℝ)).div_const ((nm : ℝ) / 3)).add (ih fun nu hnu => hp nu (by simp [hnu]))
    simpa using h2

private theorem oscU_mono {e : ℝ} (he : 0 < e) {T T' : ℝ} (hT : 0 < T) (h : T ≤ T') : oscU e T ≤ oscU e T' := by
  have hk := kb_pos
  have hT' := hT.trans_le h
  have hx : e / (kb * T') ≤ e / (kb * T) := div_le_div_of_nonneg_left he.le (mul_pos hk hT) (mul_le_mul_of_nonneg_left h hk.le)
  unfold oscU
  refine mul_le_mul_of_nonneg_left (add_le_add_right ?_ _) he.le
  exact one_div_le_one_div_of_le (exp_sub_pos (x_pos he hT')) (by have := Real.exp_le_exp.2 hx; linarith)

/-- **C115.**  The energy never decreases with temperature (the heat capacity is not negative). -/
theorem C115_energy_monotone (nk nm : ℕ) (wq : List (List ℝ)) (h : NoZeroMode wq) : MonotoneOn (specU nk nm wq) (Set.Ioi 0) := by
  intro T hT T' _ hTT
  unfold specU
  refine sum_map_le _ _ _ fun nu hnu => ?_
  have := oscU_mono (quantum_pos (modes_pos h nu hnu)) hT hTT
  gcongr

private theorem classical_mode {e : ℝ} (he : 0 < e) : Tendsto (fun T => oscU e T / T) atTop (𝓝 kb) := by
  have hk := kb_pos
  have hslope : Tendsto (fun x => (Real.exp x - 1) / x) (𝓝[>] 0) (𝓝 1) := by
    have := (hasDerivAt_iff_tendsto_slope.1 (Real.hasDerivAt_exp 0)).mono_left (nhdsWithin_mono (0 : ℝ) (fun x (hx : x ∈ Set.Ioi (0 : ℝ)) => ne_of_gt hx))
    rw [Real.exp_zero] at this
    refine this.congr fun x => ?_
    rw [slope_def_field, Real.exp_zero, sub_zero]
  have hx : Tendsto (fun T => e / (kb * T)) atTop (𝓝[>] 0) := by
    refine tendsto_nhdsWithin_iff.2 ⟨?_, ?_⟩
    · have : Tendsto (fun T : ℝ => e / kb * T⁻¹) atTop (𝓝 (e / kb * 0)) := tendsto_inv_atTop_zero.const_mul _
      rw [mul_zero] at this
      refine this.congr fun T => ?_
      rw [div_mul_eq_div_div, div_eq_mul_inv (e / kb)]
    · filter_upwards [eventually_gt_atTop 0] with T hT
      exact x_pos he hT
  have h1 := (hslope.comp hx).inv₀ one_ne_zero
  have h2 : Tendsto (fun T : ℝ => e / 2 * T⁻¹) atTop (𝓝 (e / 2 * 0)) := tendsto_inv_atTop_zero.const_mul _
  have h3 := h2.add (h1.const_mul kb)
  rw [mul_zero, inv_one, mul_one, zero_add] at h3
  refine h3.congr' ?_
  filter_upwards [eventually_gt_atTop 0] with T hT
  have hne := (exp_sub_pos (x_pos he hT)).ne'
  simp only [Function.comp, oscU]
  field_simp

/-- **C115** (Dulong–Petit).  At high temperature the energy per atom grows like `3 k_B T`: for a spectrum of `nk` k points with `nm` positive
frequencies each, the limit of `U / T` is three times the Boltzmann constant of the program. -/
theorem C115_classical_limit (nk nm : ℕ) (wq : List (List ℝ)) (hpos : ∀ row ∈ wq, ∀ nu ∈ row, 0 < nu) (hk : wq.length = nk) (hm : ∀ row ∈ wq, row.length = nm)
    (hk0 : 0 < nk) (hm0 : 0 < nm) : Tendsto (fun T => specU nk nm wq T / T) atTop (𝓝 (3 * kb)) := by
  have hall : modes wq = wq.flatten := by
    unfold modes
    rw [List.filter_eq_self]
    intro nu hnu
    obtain ⟨row, hr, hn⟩ := List.mem_flatten.1 hnu
    simpa using (hpos row hr nu hn).le
  have hp : ∀ nu ∈ wq.flatten, 0 < nu := by
    intro nu hnu
    obtain ⟨row, hr, hn⟩ := List.mem_flatten.1 hnu
    exact hpos row hr nu hn
  have hlen : wq.flatten.length = nk * nm := by
    rw [List.length_flatten, ← hk]
    clear hk hk0 hpos hall hp
    induction wq with
    | nil => simp
    | cons row wq ih =>
      rw [List.map_cons, List.sum_cons, hm row (by simp), ih (fun r hr => hm r (by simp [hr])), List.length_cons]; ring
  have key : ∀ l : List ℝ, (∀ nu ∈ l, 0 < nu) →
      Tendsto (fun T => (l.map fun nu => oscU (quantum nu) T / nk / ((nm : ℝ) / 3)).sum / T) atTop (𝓝 (l.length * (kb / nk / ((nm : ℝ) / 3)))) := by
    intro l
    induction l with
    | nil => intro _; simp
    | cons a l ih =>
      intro hl
      have h1 := ((classical_mode (quantum_pos (hl a (by simp)))).div_const (nk : ℝ)).div_const ((nm : ℝ) / 3)
      have h2 := h1.add (ih fun nu hnu => hl nu (by simp [hnu]))
      rw [show kb / nk / ((nm : ℝ) / 3) + l.length * (kb / nk / ((nm : ℝ) / 3)) = ((a :: l).length : ℝ) * (kb / nk / ((nm : ℝ) / 3)) by
        rw [List.length_cons]; push_cast; ring] at h2
      refine h2.congr fun T => ?_
      rw [List.map_cons, List.sum_cons, add_div]
      ring
  have := key wq.flatten hp
  rw [hlen] at this
  have hk0' : (nk : ℝ) ≠ 0 := by positivity
  have hm0' : (nm : ℝ) ≠ 0 := by positivity
  rw [show ((nk * nm : ℕ) : ℝ) * (kb / nk / ((nm : ℝ) / 3)) = 3 * kb by push_cast; field_simp] at this
  refine this.congr fun T => ?_
  rw [specU, hall]

/-- A spectrum that meets the hypotheses. -/
example : Tendsto (fun T => specU 2 3 [[1, 2, 3], [2, 2, 5]] T / T) atTop (𝓝 (3 * kb)) :=
  C115_classical_limit 2 3 _ (by simp) rfl (by simp) (by norm_num) (by norm_num)

/-! ### C116: the picture -/

/-- **C116.**  After the calculation the picture can be drawn for every non-empty list of temperatures; its two curves are exactly the columns of the data
file, point by point in the order of the temperatures, and the temperature axis runs from the lowest to the highest temperature. -/
theorem C116_picture (nk nm : ℕ) (wq : List (List ℝ)) (temp : List ℝ) (hne : temp ≠ []) :
    ∃ pic, Thermal.plot (Thermal.set nk nm wq (Thermal.init temp)) = .ok pic ∧
      pic.free = (Thermal.rows (Thermal.set nk nm wq (Thermal.init temp))).map (fun r => (r.1, r.2.1)) ∧
      pic.entropy = (Thermal.rows (Thermal.set nk nm wq (Thermal.init temp))).map (fun r => (r.1, r.2.2)) ∧
      pic.free.map Prod.fst = temp ∧ pic.limits.1 ∈ temp ∧ pic.limits.2 ∈ temp ∧ ∀ T ∈ temp, pic.limits.1 ≤ T ∧ T ≤ pic.limits.2 := by
  obtain ⟨t1, t2, t3⟩ : (Thermal.set nk nm wq (Thermal.init temp)).temp = temp ∧
      (Thermal.set nk nm wq (Thermal.init temp)).freeEnergy.length = temp.length ∧ (Thermal.set nk nm wq (Thermal.init temp)).entropy.length = temp.length := by
    unfold Thermal.set
    rcases hz : zeroIndices (Thermal.init temp).temp with _ | ⟨z, _ | ⟨z', l⟩⟩
    · refine ⟨rfl, ?_, ?_⟩ <;> simp [Thermal.init]
    · have hzl : z < temp.length := by
        have : z ∈ zeroIndices temp := by
          have e : (Thermal.init temp).temp = temp := rfl
          rw [e] at hz; rw [hz]; simp
        unfold zeroIndices at this
        obtain ⟨⟨t, i⟩, hm, ht⟩ := List.mem_filterMap.1 this
        have hmi := List.mem_zipIdx_iff_getElem?.1 hm
        simp only at ht hmi
        by_cases h0 : t = 0
        · rw [if_pos h0] at ht
          cases ht
          exact (List.getElem?_eq_some_iff.1 hmi).1
        · rw [if_neg h0] at ht; cases ht
      refine ⟨rfl, ?_, ?_⟩ <;>
      · simp only [insertAt, deleteAt, Thermal.init, List.length_append, List.length_cons, List.length_take, List.length_drop, List.length_map]
        omega
    · refine ⟨rfl, ?_, ?_⟩ <;> simp [Thermal.init]
  generalize Thermal.set nk nm wq (Thermal.init temp) = s at t1 t2 t3
  subst t1
  obtain ⟨lo, hlo⟩ : ∃ lo, s.temp.min? = some lo := Option.ne_none_iff_exists'.1 (by simpa using hne)
  obtain ⟨hi, hhi⟩ : ∃ hi, s.temp.max? = some hi := Option.ne_none_iff_exists'.1 (by simpa using hne)
  have hlo' := List.min?_eq_some_iff.1 hlo
  have hhi' := List.max?_eq_some_iff.1 hhi
  refine ⟨_, by rw [Thermal.plot, hlo, hhi]; simp only; rw [if_pos ⟨t2, t3⟩], ?_, ?_, ?_, hlo'.1, hhi'.1, fun T hT => ⟨hlo'.2 T hT, hhi'.2 T hT⟩⟩
  · simp only [Thermal.rows]
    refine List.ext_getElem? fun i => ?_
    simp only [List.getElem?_map, List.getElem?_zip_eq_some, List.zip, List.getElem?_zipWith]
    cases h1 : s.temp[i]? <;> cases h2 : s.freeEnergy[i]? <;> cases h3 : s.entropy[i]? <;> simp
    have a2 := (List.getElem?_eq_some_iff.1 h2).1
    have a3 := List.getElem?_eq_none_iff.1 h3
    omega
  · simp only [Thermal.rows]
    refine List.ext_getElem? fun i => ?_
    simp only [List.getElem?_map, List.zip, List.getElem?_zipWith]
    cases h1 : s.temp[i]? <;> cases h2 : s.freeEnergy[i]? <;> cases h3 : s.entropy[i]? <;> simp
    have a2 := List.getElem?_eq_none_iff.1 h2
    have a3 := (List.getElem?_eq_some_iff.1 h3).1
    omega
  · exact List.map_fst_zip (by rw [t2])

/-- **C116** (units).  The rows of the data file: temperature, free energy per atom in eV, entropy per atom in meV/K (1000 times the value in eV/K). -/
theorem C116_rows (nk nm : ℕ) (wq : List (List ℝ)) (h : NoZeroMode wq) (temp : List ℝ) (hT : ∀ T ∈ temp, 0 < T) :
    Thermal.rows (Thermal.set nk nm wq (Thermal.init temp)) = temp.map fun T => (T, some (specF nk nm wq T), some (1000 * specS nk nm wq T)) := by
  obtain ⟨h1, h2, h3⟩ := C52_no_zero_partial nk nm wq h temp hT
  rw [Thermal.rows, h1, h2, h3]
  clear h1 h2 h3 hT
  induction temp with
  | nil => rfl
  | cons T l ih =>
    simp only [List.map_cons, List.zip_cons_cons, Option.map_some] at ih ⊢
    rw [ih, mul_comm]

/-- **C116.**  Without temperatures drawing raises `ValueError`. -/
theorem C116_no_temperature (nk nm : ℕ) (wq : List (List ℝ)) : Thermal.plot (Thermal.set nk nm wq (Thermal.init [])) = .error .valueError := rfl

end
end Interphon.Props
