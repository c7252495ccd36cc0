import Verif.Lemmas.SimplexDensity
import Mathlib.Tactic.FinCases
import Mathlib.Tactic.FieldSimp

/-! # Closed forms of the interpolation density: triangles (generated by /verif/tools/gen_simplex.py) -/

noncomputable section

namespace Interphon.Spec
open MeasureTheory Set Complex

set_option maxHeartbeats 4000000
set_option linter.unusedVariables false

theorem case2_abc_0 {t : ℝ} (ht : t ≠ 0) {a b c : ℝ} (hab : a ≠ b) (hac : a ≠ c) (hbc : b ≠ c) :
    (2 : ℂ) * pull t ![a, b, c] 0 = bump t [⟨a, b, 1 / (b - a) / (c - a) / (a - b), a, 1, b, 0, -1⟩, ⟨a, b, 1 / (b - a) / (c - a) / (a - c), a, 1, c, 0, -1⟩] + bump t [⟨b, c, -1 / (c - b) / (c - a) / (a - c), c, 1, c, 0, -1⟩] := by
  have h0 : pull t ![a, b, c] 0 = pull t ![a, b, c] 0 :=
    pull_at (t := t) ![a, b, c] ![a, b, c] (perm ![0, 1, 2] (by decide)) (by funext i; fin_cases i <;> rfl)
  rw [h0, pull_triple ht (z := c) hab,
    pull_pair ht hac,
    wave_triple ht (y := b) hac,
    wave_pair ht hac,
    wave_pair ht hbc,
    wave_pair ht hab]
  have hT : (t * I : ℂ) ≠ 0 := mul_ne_zero (by exact_mod_cast ht) I_ne_zero
  have nab : (((a : ℝ) : ℂ) - (b : ℝ)) ≠ 0 := by rw [sub_ne_zero]; exact_mod_cast hab
  have nba : (((b : ℝ) : ℂ) - (a : ℝ)) ≠ 0 := by rw [sub_ne_zero]; exact_mod_cast hab.symm
  have nac : (((a : ℝ) : ℂ) - (c : ℝ)) ≠ 0 := by rw [sub_ne_zero]; exact_mod_cast hac
  have nca : (((c : ℝ) : ℂ) - (a : ℝ)) ≠ 0 := by rw [sub_ne_zero]; exact_mod_cast hac.symm
  have nbc : (((b : ℝ) : ℂ) - (c : ℝ)) ≠ 0 := by rw [sub_ne_zero]; exact_mod_cast hbc
  have ncb : (((c : ℝ) : ℂ) - (b : ℝ)) ≠ 0 := by rw [sub_ne_zero]; exact_mod_cast hbc.symm
  simp only [bump, List.map_cons, List.map_nil, List.sum_cons, List.sum_nil, Piece.prim]
  push_cast
  generalize (t * I : ℂ) = T at *
  generalize cexp (T * a) = ea
  generalize cexp (T * b) = eb
  generalize cexp (T * c) = ec
  generalize ((a : ℝ) : ℂ) = za at *
  generalize ((b : ℝ) : ℂ) = zb at *
  generalize ((c : ℝ) : ℂ) = zc at *
  field_simp
  ring

theorem case2_abc_1 {t : ℝ} (ht : t ≠ 0) {a b c : ℝ} (hab : a ≠ b) (hac : a ≠ c) (hbc : b ≠ c) :
    (2 : ℂ) * pull t ![a, b, c] 1 = bump t [⟨a, b, 1 / (b - a) / (c - a) / (b - a), a, 1, a, 0, -1⟩] + bump t [⟨b, c, -1 / (c - b) / (c - a) / (b - c), c, 1, c, 0, -1⟩] := by
  have h0 : pull t ![a, b, c] 1 = pull t ![b, a, c] 0 :=
    pull_at (t := t) ![a, b, c] ![b, a, c] (perm ![1, 0, 2] (by decide)) (by funext i; fin_cases i <;> rfl)
  rw [h0, pull_triple ht (z := c) hab.symm,
    pull_pair ht hbc,
    wave_at (t := t) ![a, b, c] ![b, a, c] (perm ![1, 0, 2] (by decide)) (by funext i; fin_cases i <;> rfl),
    wave_triple ht (y := b) hac,
    wave_pair ht hbc,
    wave_pair ht hab]
  have hT : (t * I : ℂ) ≠ 0 := mul_ne_zero (by exact_mod_cast ht) I_ne_zero
  have nab : (((a : ℝ) : ℂ) - (b : ℝ)) ≠ 0 := by rw [sub_ne_zero]; exact_mod_cast hab
  have nba : (((b : ℝ) : ℂ) - (a : ℝ)) ≠ 0 := by rw [sub_ne_zero]; exact_mod_cast hab.symm
  have nac : (((a : ℝ) : ℂ) - (c : ℝ)) ≠ 0 := by rw [sub_ne_zero]; exact_mod_cast hac
  have nca : (((c : ℝ) : ℂ) - (a : ℝ)) ≠ 0 := by rw [sub_ne_zero]; exact_mod_cast hac.symm
  have nbc : (((b : ℝ) : ℂ) - (c : ℝ)) ≠ 0 := by rw [sub_ne_zero]; exact_mod_cast hbc
  have ncb : (((c : ℝ) : ℂ) - (b : ℝ)) ≠ 0 := by rw [sub_ne_zero]; exact_mod_cast hbc.symm
  simp only [bump, List.map_cons, List.map_nil, List.sum_cons, List.sum_nil, Piece.prim]
  push_cast
  generalize (t * I : ℂ) = T at *
  generalize cexp (T * a) = ea
  generalize cexp (T * b) = eb
  generalize cexp (T * c) = ec
  generalize ((a : ℝ) : ℂ) = za at *
  generalize ((b : ℝ) : ℂ) = zb at *
  generalize ((c : ℝ) : ℂ) = zc at *
  field_simp
  ring

theorem case2_abc_2 {t : ℝ} (ht : t ≠ 0) {a b c : ℝ} (hab : a ≠ b) (hac : a ≠ c) (hbc : b ≠ c) :
    (2 : ℂ) * pull t ![a, b, c] 2 = bump t [⟨a, b, 1 / (b - a) / (c - a) / (c - a), a, 1, a, 0, -1⟩] + bump t [⟨b, c, -1 / (c - b) / (c - a) / (c - a), c, 1, a, 0, -1⟩, ⟨b, c, -1 / (c - b) / (c - a) / (c - b), c, 1, b, 0, -1⟩] := by
  have h0 : pull t ![a, b, c] 2 = pull t ![c, a, b] 0 :=
    pull_at (t := t) ![a, b, c] ![c, a, b] (perm ![2, 0, 1] (by decide)) (by funext i; fin_cases i <;> rfl)
  rw [h0, pull_triple ht (z := b) hac.symm,
    pull_pair ht hbc.symm,
    wave_at (t := t) ![b, c] ![c, b] (perm ![1, 0] (by decide)) (by funext i; fin_cases i <;> rfl),
    wave_at (t := t) ![a, b, c] ![c, a, b] (perm ![2, 0, 1] (by decide)) (by funext i; fin_cases i <;> rfl),
    wave_triple ht (y := b) hac,
    wave_pair ht hbc,
    wave_pair ht hab]
  have hT : (t * I : ℂ) ≠ 0 := mul_ne_zero (by exact_mod_cast ht) I_ne_zero
  have nab : (((a : ℝ) : ℂ) - (b : ℝ)) ≠ 0 := by rw [sub_ne_zero]; exact_mod_cast hab
  have nba : (((b : ℝ) : ℂ) - (a : ℝ)) ≠ 0 := by rw [sub_ne_zero]; exact_mod_cast hab.symm
  have nac : (((a : ℝ) : ℂ) - (c : ℝ)) ≠ 0 := by rw [sub_ne_zero]; exact_mod_cast hac
  have nca : (((c : ℝ) : ℂ) - (a : ℝ)) ≠ 0 := by rw [sub_ne_zero]; exact_mod_cast hac.symm
  have nbc : (((b : ℝ) : ℂ) - (c : ℝ)) ≠ 0 := by rw [sub_ne_zero]; exact_mod_cast hbc
  have ncb : (((c : ℝ) : ℂ) - (b : ℝ)) ≠ 0 := by rw [sub_ne_zero]; exact_mod_cast hbc.symm
  simp only [bump, List.map_cons, List.map_nil, List.sum_cons, List.sum_nil, Piece.prim]
  push_cast
  generalize (t * I : ℂ) = T at *
  generalize cexp (T * a) = ea
  generalize cexp (T * b) = eb
  generalize cexp (T * c) = ec
  generalize ((a : ℝ) : ℂ) = za at *
  generalize ((b : ℝ) : ℂ) = zb at *
  generalize ((c : ℝ) : ℂ) = zc at *
  field_simp
  ring

theorem case2_aac_0 {t : ℝ} (ht : t ≠ 0) {a c : ℝ} (hac : a ≠ c) :
    (2 : ℂ) * pull t ![a, a, c] 0 = bump t [⟨a, c, -1 / (c - a) / (c - a) / (a - c), c, 1, c, 0, -1⟩] := by
  have h0 : pull t ![a, a, c] 0 = pull t ![a, c, a] 0 :=
    pull_at (t := t) ![a, a, c] ![a, c, a] (perm ![0, 2, 1] (by decide)) (by funext i; fin_cases i <;> rfl)
  rw [h0, pull_triple ht (z := a) hac,
    pull_pair_flat (t := t) a,
    wave_at (t := t) ![a, a, c] ![a, c, a] (perm ![0, 2, 1] (by decide)) (by funext i; fin_cases i <;> rfl),
    wave_triple ht (y := a) hac,
    wave_pair ht hac,
    wave_pair_flat (t := t) a]
  have hT : (t * I : ℂ) ≠ 0 := mul_ne_zero (by exact_mod_cast ht) I_ne_zero
  have nac : (((a : ℝ) : ℂ) - (c : ℝ)) ≠ 0 := by rw [sub_ne_zero]; exact_mod_cast hac
  have nca : (((c : ℝ) : ℂ) - (a : ℝ)) ≠ 0 := by rw [sub_ne_zero]; exact_mod_cast hac.symm
  simp only [bump, List.map_cons, List.map_nil, List.sum_cons, List.sum_nil, Piece.prim]
  push_cast
  generalize (t * I : ℂ) = T at *
  generalize cexp (T * a) = ea
  generalize cexp (T * c) = ec
  generalize ((a : ℝ) : ℂ) = za at *
  generalize ((c : ℝ) : ℂ) = zc at *
  field_simp
  ring

theorem case2_aac_1 {t : ℝ} (ht : t ≠ 0) {a c : ℝ} (hac : a ≠ c) :
    (2 : ℂ) * pull t ![a, a, c] 1 = bump t [⟨a, c, -1 / (c - a) / (c - a) / (a - c), c, 1, c, 0, -1⟩] := by
  have h0 : pull t ![a, a, c] 1 = pull t ![a, c, a] 0 :=
    pull_at (t := t) ![a, a, c] ![a, c, a] (perm ![1, 2, 0] (by decide)) (by funext i; fin_cases i <;> rfl)
  rw [h0, pull_triple ht (z := a) hac,
    pull_pair_flat (t := t) a,
    wave_at (t := t) ![a, a, c] ![a, c, a] (perm ![0, 2, 1] (by decide)) (by funext i; fin_cases i <;> rfl),
    wave_triple ht (y := a) hac,
    wave_pair ht hac,
    wave_pair_flat (t := t) a]
  have hT : (t * I : ℂ) ≠ 0 := mul_ne_zero (by exact_mod_cast ht) I_ne_zero
  have nac : (((a : ℝ) : ℂ) - (c : ℝ)) ≠ 0 := by rw [sub_ne_zero]; exact_mod_cast hac
  have nca : (((c : ℝ) : ℂ) - (a : ℝ)) ≠ 0 := by rw [sub_ne_zero]; exact_mod_cast hac.symm
  simp only [bump, List.map_cons, List.map_nil, List.sum_cons, List.sum_nil, Piece.prim]
  push_cast
  generalize (t * I : ℂ) = T at *
  generalize cexp (T * a) = ea
  generalize cexp (T * c) = ec
  generalize ((a : ℝ) : ℂ) = za at *
  generalize ((c : ℝ) : ℂ) = zc at *
  field_simp
  ring

theorem case2_aac_2 {t : ℝ} (ht : t ≠ 0) {a c : ℝ} (hac : a ≠ c) :
    (2 : ℂ) * pull t ![a, a, c] 2 = bump t [⟨a, c, -1 / (c - a) / (c - a) / (c - a), c, 1, a, 0, -1⟩, ⟨a, c, -1 / (c - a) / (c - a) / (c - a), c, 1, a, 0, -1⟩] := by
  have h0 : pull t ![a, a, c] 2 = pull t ![c, a, a] 0 :=
    pull_at (t := t) ![a, a, c] ![c, a, a] (perm ![2, 0, 1] (by decide)) (by funext i; fin_cases i <;> rfl)
  rw [h0, pull_triple ht (z := a) hac.symm,
    pull_pair ht hac.symm,
    wave_at (t := t) ![a, c] ![c, a] (perm ![1, 0] (by decide)) (by funext i; fin_cases i <;> rfl),
    wave_at (t := t) ![a, a, c] ![c, a, a] (perm ![2, 0, 1] (by decide)) (by funext i; fin_cases i <;> rfl),
    wave_triple ht (y := a) hac,
    wave_pair ht hac,
    wave_pair_flat (t := t) a]
  have hT : (t * I : ℂ) ≠ 0 := mul_ne_zero (by exact_mod_cast ht) I_ne_zero
  have nac : (((a : ℝ) : ℂ) - (c : ℝ)) ≠ 0 := by rw [sub_ne_zero]; exact_mod_cast hac
  have nca : (((c : ℝ) : ℂ) - (a : ℝ)) ≠ 0 := by rw [sub_ne_zero]; exact_mod_cast hac.symm
  simp only [bump, List.map_cons, List.map_nil, List.sum_cons, List.sum_nil, Piece.prim]
  push_cast
  generalize (t * I : ℂ) = T at *
  generalize cexp (T * a) = ea
  generalize cexp (T * c) = ec
  generalize ((a : ℝ) : ℂ) = za at *
  generalize ((c : ℝ) : ℂ) = zc at *
  field_simp
  ring

theorem case2_abb_0 {t : ℝ} (ht : t ≠ 0) {a b : ℝ} (hab : a ≠ b) :
    (2 : ℂ) * pull t ![a, b, b] 0 = bump t [⟨a, b, 1 / (b - a) / (b - a) / (a - b), a, 1, b, 0, -1⟩, ⟨a, b, 1 / (b - a) / (b - a) / (a - b), a, 1, b, 0, -1⟩] := by
  have h0 : pull t ![a, b, b] 0 = pull t ![a, b, b] 0 :=
    pull_at (t := t) ![a, b, b] ![a, b, b] (perm ![0, 1, 2] (by decide)) (by funext i; fin_cases i <;> rfl)
  rw [h0, pull_triple ht (z := b) hab,
    pull_pair ht hab,
    wave_triple ht (y := b) hab,
    wave_pair ht hab,
    wave_pair_flat (t := t) b]
  have hT : (t * I : ℂ) ≠ 0 := mul_ne_zero (by exact_mod_cast ht) I_ne_zero
  have nab : (((a : ℝ) : ℂ) - (b : ℝ)) ≠ 0 := by rw [sub_ne_zero]; exact_mod_cast hab
  have nba : (((b : ℝ) : ℂ) - (a : ℝ)) ≠ 0 := by rw [sub_ne_zero]; exact_mod_cast hab.symm
  simp only [bump, List.map_cons, List.map_nil, List.sum_cons, List.sum_nil, Piece.prim]
  push_cast
  generalize (t * I : ℂ) = T at *
  generalize cexp (T * a) = ea
  generalize cexp (T * b) = eb
  generalize ((a : ℝ) : ℂ) = za at *
  generalize ((b : ℝ) : ℂ) = zb at *
  field_simp
  ring

theorem case2_abb_1 {t : ℝ} (ht : t ≠ 0) {a b : ℝ} (hab : a ≠ b) :
    (2 : ℂ) * pull t ![a, b, b] 1 = bump t [⟨a, b, 1 / (b - a) / (b - a) / (b - a), a, 1, a, 0, -1⟩] := by
  have h0 : pull t ![a, b, b] 1 = pull t ![b, a, b] 0 :=
    pull_at (t := t) ![a, b, b] ![b, a, b] (perm ![1, 0, 2] (by decide)) (by funext i; fin_cases i <;> rfl)
  rw [h0, pull_triple ht (z := b) hab.symm,
    pull_pair_flat (t := t) b,
    wave_at (t := t) ![a, b, b] ![b, a, b] (perm ![1, 0, 2] (by decide)) (by funext i; fin_cases i <;> rfl),
    wave_triple ht (y := b) hab,
    wave_pair_flat (t := t) b,
    wave_pair ht hab]
  have hT : (t * I : ℂ) ≠ 0 := mul_ne_zero (by exact_mod_cast ht) I_ne_zero
  have nab : (((a : ℝ) : ℂ) - (b : ℝ)) ≠ 0 := by rw [sub_ne_zero]; exact_mod_cast hab
  have nba : (((b : ℝ) : ℂ) - (a : ℝ)) ≠ 0 := by rw [sub_ne_zero]; exact_mod_cast hab.symm
  simp only [bump, List.map_cons, List.map_nil, List.sum_cons, List.sum_nil, Piece.prim]
  push_cast
  generalize (t * I : ℂ) = T at *
  generalize cexp (T * a) = ea
  generalize cexp (T * b) = eb
  generalize ((a : ℝ) : ℂ) = za at *
  generalize ((b : ℝ) : ℂ) = zb at *
  field_simp
  ring

theorem case2_abb_2 {t : ℝ} (ht : t ≠ 0) {a b : ℝ} (hab : a ≠ b) :
    (2 : ℂ) * pull t ![a, b, b] 2 = bump t [⟨a, b, 1 / (b - a) / (b - a) / (b - a), a, 1, a, 0, -1⟩] := by
  have h0 : pull t ![a, b, b] 2 = pull t ![b, a, b] 0 :=
    pull_at (t := t) ![a, b, b] ![b, a, b] (perm ![2, 0, 1] (by decide)) (by funext i; fin_cases i <;> rfl)
  rw [h0, pull_triple ht (z := b) hab.symm,
    pull_pair_flat (t := t) b,
    wave_at (t := t) ![a, b, b] ![b, a, b] (perm ![1, 0, 2] (by decide)) (by funext i; fin_cases i <;> rfl),
    wave_triple ht (y := b) hab,
    wave_pair_flat (t := t) b,
    wave_pair ht hab]
  have hT : (t * I : ℂ) ≠ 0 := mul_ne_zero (by exact_mod_cast ht) I_ne_zero
  have nab : (((a : ℝ) : ℂ) - (b : ℝ)) ≠ 0 := by rw [sub_ne_zero]; exact_mod_cast hab
  have nba : (((b : ℝ) : ℂ) - (a : ℝ)) ≠ 0 := by rw [sub_ne_zero]; exact_mod_cast hab.symm
  simp only [bump, List.map_cons, List.map_nil, List.sum_cons, List.sum_nil, Piece.prim]
  push_cast
  generalize (t * I : ℂ) = T at *
  generalize cexp (T * a) = ea
  generalize cexp (T * b) = eb
  generalize ((a : ℝ) : ℂ) = za at *
  generalize ((b : ℝ) : ℂ) = zb at *
  field_simp
  ring

end Interphon.Spec
