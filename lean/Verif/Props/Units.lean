import Verif.Props.Forces
import Verif.Props.UnitCell
import Verif.Props.Frequencies
import Verif.Props.Thermal

/-! # Property C117: physical units -/

namespace Interphon.Props
open Py Interphon Interphon.Phonon Matrix

noncomputable section

/-! ### Specification: the SI values (CODATA 2018; the first four are exact by definition of the units) -/

/-- Elementary charge, in C: one eV in joule. -/
def siE : ℚ := 1.602176634e-19
/-- Boltzmann constant, in J/K. -/
def siK : ℚ := 1.380649e-23
/-- Planck constant, in J s. -/
def siH : ℚ := 6.62607015e-34
/-- Avogadro constant, in 1/mol. -/
def siN : ℚ := 6.02214076e23
/-- Rydberg energy, in eV. -/
def siRy : ℚ := 13.605693122994
/-- Bohr radius, in angstrom. -/
def siBohr : ℚ := 0.529177210903
/-- One angstrom, in metre. -/
def angstrom : ℚ := 1e-10

/-- `x` is `y` up to the relative error `e`. -/
def Within {K : Type} [Field K] [LinearOrder K] (e x y : K) : Prop := |x - y| ≤ e * |y|

/-! ### Thermal constants -/

/-- **C117** (thermal quantities).  The Boltzmann constant and the Planck constant used for free energy and entropy are those of nature in eV/K and
eV s, with a relative error below 0.04 %. -/
theorem C117_thermal_constants :
    Within 4e-4 Thermal.kb ((siK / siE : ℚ) : ℝ) ∧ Within 4e-4 Thermal.h ((siH / siE : ℚ) : ℝ) := by
  unfold Within Thermal.kb Thermal.h siK siE siH
  constructor <;> · norm_num [abs_le, abs_of_pos]

/-! ### Forces -/

/-- **C117** (forces).  Every reader returns the forces of its code in newton, all of them multiplied by one and the same factor `a`, which differs
from 1 by less than 0.012 %: VASP and FHI-aims print eV/Å, Quantum ESPRESSO prints Ry/bohr. -/
theorem C117_forces {lines : List Str} {f : List (V3 ℚ)} :
    (ForceFile "forces".toList 1 0 lines f →
      ∃ a, Within 12e-5 a 1 ∧ Vasp.readOutput "vasprun.xml".toList f.length lines = .ok (inUnits (a * (siE / angstrom)) f)) ∧
    (ForceFile "TOTAL-FORCE".toList 3 1 lines f →
      ∃ a, Within 12e-5 a 1 ∧ Vasp.readOutput "OUTCAR".toList f.length lines = .ok (inUnits (a * (siE / angstrom)) f)) ∧
    (ForceFile "Forces acting on atoms".toList 6 1 lines f →
      ∃ a, Within 12e-5 a 1 ∧ Espresso.readOutput f.length lines = .ok (inUnits (a * (siRy * siE / (siBohr * angstrom))) f)) ∧
    (ForceFile "Total atomic forces".toList 2 0 lines f →
      ∃ a, Within 12e-5 a 1 ∧ Aims.readOutput f.length lines = .ok (inUnits (a * (siE / angstrom)) f)) := by
  have key : ∀ k u : ℚ, u ≠ 0 → inUnits k f = inUnits (k / u * u) f := fun k u hu => by rw [div_mul_cancel₀ k hu]
  have hu : siE / angstrom ≠ 0 := by norm_num [siE, angstrom]
  have hu' : siRy * siE / (siBohr * angstrom) ≠ 0 := by norm_num [siE, angstrom, siRy, siBohr]
  refine ⟨fun h => ⟨_, ?_, (C60_vasprun h).trans (congrArg _ (key _ _ hu))⟩, fun h => ⟨_, ?_, (C60_outcar h).trans (congrArg _ (key _ _ hu))⟩,
    fun h => ⟨_, ?_, (C60_espresso h).trans (congrArg _ (key _ _ hu'))⟩, fun h => ⟨_, ?_, (C60_aims h).trans (congrArg _ (key _ _ hu))⟩⟩ <;>
    unfold Within siE angstrom <;> norm_num [abs_le, siRy, siBohr]

/-! ### Masses -/

/-- **C117** (masses).  The stored masses are the tabulated weights (g/mol) in kilogram, all of them multiplied by one and the same factor `b`, which
differs from 1 by less than 0.003 %. -/
theorem C117_masses :
    ∃ b : ℚ, Within 3e-5 b 1 ∧ ∀ (s s' : UnitCell.RawCell) (t : List Str) (x : List ℤ), s.atomType = some t → s.xyzTrue = some x →
      UnitCell.setMassTrue s = (s', none) →
      ∃ m, s'.mass = some m ∧ m.length = x.length ∧
        ∀ (k i : ℕ) (ty : Str), x[k]? = some (i : ℤ) → t[i]? = some ty →
          ∃ w, AtomicWeight.getAtomicWeight ty = .ok (some w) ∧ m[k]? = some (b * (w * (1e-3 / siN))) := by
  refine ⟨1 / (6022 * 10 ^ 20) / 1000 / (1e-3 / siN), ?_, fun s s' t x ht hx h => ?_⟩
  · unfold Within siN
    norm_num [abs_le]
  · obtain ⟨m, h1, h2, h3⟩ := C14_masses s s' t x ht hx h
    refine ⟨m, h1, h2, fun k i ty hk hi => ?_⟩
    obtain ⟨w, hw, hm, -⟩ := h3 k i ty hk hi
    refine ⟨w, hw, ?_⟩
    rw [hm]
    congr 1
    unfold siN
    norm_num
    ring

/-! ### Frequencies -/

/-- The same crystal with force constants multiplied by `a` and masses multiplied by `b`. -/
def rescaled (D : PhononData) (a b : ℝ) : PhononData := { D with fc := fun i j => a * D.fc i j, mass := fun i => b * D.mass i }

private theorem dynRaw_rescaled (D : PhononData) (a b : ℝ) (q : V3 ℝ) (r c : ℕ) :
    dynRaw (rescaled D a b) q r c = a * dynRaw D q r c := by
  have hterm : ∀ s1 s2, term (rescaled D a b) q s1 s2 = a * term D q s1 s2 := by
    intro s1 s2
    show (((a * D.fc (D.superXyz.getD s1 0 * 3 + s1 % 3) s2 : ℝ) : ℂ)) * _ = _
    rw [term]
    push_cast
    rw [mul_assoc]
    rfl
  have hin : ∀ (l : List ℕ) (f g : ℕ → ℕ) (s1 : ℕ) (M M' : ℕ → ℕ → ℂ), (∀ r c, M' r c = a * M r c) → ∀ r c,
      l.foldl (fun M s2 => addAt M (f s1) (g s2) (term (rescaled D a b) q s1 s2)) M' r c =
        a * l.foldl (fun M s2 => addAt M (f s1) (g s2) (term D q s1 s2)) M r c := by
    intro l f g s1
    induction l with
    | nil => intro M M' h r c; exact h r c
    | cons s2 l ih =>
      intro M M' h r c
      rw [List.foldl_cons, List.foldl_cons]
      refine ih _ _ (fun r c => ?_) r c
      unfold addAt
      split_ifs
      · rw [h, hterm]; ring
      · exact h r c
  have hout : ∀ (l : List ℕ) (M M' : ℕ → ℕ → ℂ), (∀ r c, M' r c = a * M r c) → ∀ r c,
      l.foldl (fun M s1 => (List.range D.unitXyz.length).foldl (fun M s2 =>
        addAt M ((s1 / (D.E * 3)) * 3 + s1 % 3) s2 (term (rescaled D a b) q s1 s2)) M) M' r c =
        a * l.foldl (fun M s1 => (List.range D.unitXyz.length).foldl (fun M s2 =>
          addAt M ((s1 / (D.E * 3)) * 3 + s1 % 3) s2 (term D q s1 s2)) M) M r c := by
    intro l
    induction l with
    | nil => intro M M' h r c; exact h r c
    | cons s1 l ih =>
      intro M M' h r c
      rw [List.foldl_cons, List.foldl_cons]
      exact ih _ _ (hin _ (fun s1 => (s1 / (D.E * 3)) * 3 + s1 % 3) id s1 M M' h) r c
  exact hout _ _ _ (fun _ _ => by simp) r c

private theorem dyn_rescaled (D : PhononData) {a b : ℝ} (hb : 0 < b) (k : V3 ℝ) (r c : ℕ) :
    dynMatrix (rescaled D a b) k r c = ((a / b : ℝ) : ℂ) * dynMatrix D k r c := by
  unfold dynMatrix
  have hq : qVec (rescaled D a b) k = qVec D k := rfl
  rw [hq, dynRaw_rescaled]
  show _ / ((Real.sqrt (b * D.mass r * (b * D.mass c)) : ℝ) : ℂ) = _
  have : b * D.mass r * (b * D.mass c) = b ^ 2 * (D.mass r * D.mass c) := by ring
  rw [this, Real.sqrt_mul (by positivity), Real.sqrt_sq hb.le]
  push_cast
  have hb' : (b : ℂ) ≠ 0 := by exact_mod_cast hb.ne'
  rw [mul_div_mul_comm]

/-- Frequencies scale with the square root of a common factor of the eigenvalues. -/
private theorem freq_scale {r : ℝ} (hr : 0 < r) (l : ℝ) : freqOf ((r * l : ℝ) : ℂ) = Real.sqrt r * freqOf l := by
  rw [C30_value, C30_value]
  unfold signedFreq
  by_cases h : 0 ≤ l
  · rw [if_pos h, if_pos (by positivity), Real.sqrt_mul hr.le, mul_div_assoc]
  · rw [if_neg h, if_neg (by nlinarith), show -(r * l) = r * -l by ring, Real.sqrt_mul hr.le, mul_neg, mul_div_assoc]

/-- **C117** (frequencies).  Let `D` hold the exact force constants (N/m) and masses (kg), and let the code work with force constants and masses that
carry the factors `a` and `b` of `C117_forces` and `C117_masses` (the same displacement in metre).  Then a vector is a vibration with the real squared
angular frequency `l` in the exact crystal if and only if it is one in the code's crystal with `a/b · l`, and the frequency in THz that the code reports
for it differs from the exact one by less than 0.008 %. -/
theorem C117_frequencies (D : PhononData) {a b : ℝ} (ha : Within 12e-5 a 1) (hb : Within 3e-5 b 1) (k : V3 ℝ) (n : ℕ) (v : Fin n → ℂ) (l : ℝ) :
    ((Matrix.of fun r c : Fin n => dynMatrix D k r c).mulVec v = (l : ℂ) • v ↔
      (Matrix.of fun r c : Fin n => dynMatrix (rescaled D a b) k r c).mulVec v = ((a / b * l : ℝ) : ℂ) • v) ∧
    Within 8e-5 (freqOf ((a / b * l : ℝ) : ℂ)) (freqOf l) := by
  unfold Within at ha hb ⊢
  rw [abs_one, mul_one, abs_le] at ha hb
  have hb0 : 0 < b := by linarith [hb.1]
  have ha0 : 0 < a := by linarith [ha.1]
  have hr : 0 < a / b := div_pos ha0 hb0
  constructor
  · have hM : (Matrix.of fun r c : Fin n => dynMatrix (rescaled D a b) k r c) = ((a / b : ℝ) : ℂ) • Matrix.of fun r c : Fin n => dynMatrix D k r c := by
      ext r c
      simp only [Matrix.of_apply, Matrix.smul_apply, smul_eq_mul]
      exact dyn_rescaled D hb0 k r c
    have hne : ((a / b : ℝ) : ℂ) ≠ 0 := by exact_mod_cast hr.ne'
    rw [hM, Matrix.smul_mulVec, Complex.ofReal_mul, mul_smul]
    exact ⟨fun h => by rw [h], fun h => smul_right_injective _ hne h⟩
  · rw [freq_scale hr, ← sub_one_mul, abs_mul]
    refine mul_le_mul_of_nonneg_right ?_ (abs_nonneg _)
    have h1 : a / b ≤ (1 + 8e-5) ^ 2 := by rw [div_le_iff₀ hb0]; norm_num at *; linarith
    have h2 : (1 - 8e-5) ^ 2 ≤ a / b := by rw [le_div_iff₀ hb0]; norm_num at *; linarith
    rw [abs_le]
    constructor
    · have := Real.le_sqrt_of_sq_le h2
      linarith
    · have := Real.sqrt_le_iff.2 ⟨by norm_num, h1⟩
      linarith

/-- Non-vacuity: the factors of a VASP calculation. -/
example : Within (12e-5 : ℝ) (1602 / 10 ^ 12 / (1.602176634e-19 / 1e-10)) 1 ∧ Within (3e-5 : ℝ) (1 / (6022 * 10 ^ 20) / 1000 / (1e-3 / 6.02214076e23)) 1 := by
  constructor <;> unfold Within <;> norm_num [abs_le]

end

end Interphon.Props
