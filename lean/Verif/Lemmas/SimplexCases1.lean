import Verif.Lemmas.SimplexDensity
import Mathlib.Tactic.FinCases
import Mathlib.Tactic.FieldSimp

/-! # Closed forms of the interpolation density: segments (generated by /verif/tools/gen_simplex.py) -/

noncomputable section

namespace Interphon.Spec
open MeasureTheory Set Complex

set_option maxHeartbeats 4000000
set_option linter.unusedVariables false

theorem case1_ab_0 {t : ℝ} (ht : t ≠ 0) {a b : ℝ} (hab : a ≠ b) :
    (1 : ℂ) * pull t ![a, b] 0 = bump t [⟨a, b, 1 / (b - a) / (a - b), b, 0, -1, 0, -1⟩] := by
  have h0 : pull t ![a, b] 0 = pull t ![a, b] 0 :=
    pull_at (t := t) ![a, b] ![a, b] (perm ![0, 1] (by decide)) (by funext i; fin_cases i <;> rfl)
  rw [h0, pull_pair ht hab,
    wave_pair ht hab]
  have hT : (t * I : ℂ) ≠ 0 := mul_ne_zero (by exact_mod_cast ht) I_ne_zero
  have nab : (((a : ℝ) : ℂ) - (b : ℝ)) ≠ 0 := by rw [sub_ne_zero]; exact_mod_cast hab
  have nba : (((b : ℝ) : ℂ) - (a : ℝ)) ≠ 0 := by rw [sub_ne_zero]; exact_mod_cast hab.symm
  simp only [bump, List.map_cons, List.map_nil, List.sum_cons, List.sum_nil, Piece.prim]
  push_cast
  generalize (t * I : ℂ) = T at *
  generalize cexp (T * a) = ea
  generalize cexp (T * b) = eb
  generalize ((a : ℝ) : ℂ) = za at *
  generalize ((b : ℝ) : ℂ) = zb at *
  field_simp
  ring

theorem case1_ab_1 {t : ℝ} (ht : t ≠ 0) {a b : ℝ} (hab : a ≠ b) :
    (1 : ℂ) * pull t ![a, b] 1 = bump t [⟨a, b, 1 / (b - a) / (b - a), a, 0, -1, 0, -1⟩] := by
  have h0 : pull t ![a, b] 1 = pull t ![b, a] 0 :=
    pull_at (t := t) ![a, b] ![b, a] (perm ![1, 0] (by decide)) (by funext i; fin_cases i <;> rfl)
  rw [h0, pull_pair ht hab.symm,
    wave_at (t := t) ![a, b] ![b, a] (perm ![1, 0] (by decide)) (by funext i; fin_cases i <;> rfl),
    wave_pair ht hab]
  have hT : (t * I : ℂ) ≠ 0 := mul_ne_zero (by exact_mod_cast ht) I_ne_zero
  have nab : (((a : ℝ) : ℂ) - (b : ℝ)) ≠ 0 := by rw [sub_ne_zero]; exact_mod_cast hab
  have nba : (((b : ℝ) : ℂ) - (a : ℝ)) ≠ 0 := by rw [sub_ne_zero]; exact_mod_cast hab.symm
  simp only [bump, List.map_cons, List.map_nil, List.sum_cons, List.sum_nil, Piece.prim]
  push_cast
  generalize (t * I : ℂ) = T at *
  generalize cexp (T * a) = ea
  generalize cexp (T * b) = eb
  generalize ((a : ℝ) : ℂ) = za at *
  generalize ((b : ℝ) : ℂ) = zb at *
  field_simp
  ring

end Interphon.Spec
