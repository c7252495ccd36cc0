import Verif.Lemmas.SimplexDensity
import Mathlib.Tactic.FinCases
import Mathlib.Tactic.FieldSimp

/-! # Closed forms of the interpolation density: tetrahedra with four different corner values (generated by /verif/tools/gen_simplex.py) -/

noncomputable section

namespace Interphon.Spec
open MeasureTheory Set Complex

set_option maxHeartbeats 4000000
set_option linter.unusedVariables false

theorem case3_abcd_0 {t : ℝ} (ht : t ≠ 0) {a b c d : ℝ} (hab : a ≠ b) (hac : a ≠ c) (had : a ≠ d) (hbc : b ≠ c) (hbd : b ≠ d) (hcd : c ≠ d) :
    (6 : ℂ) * pull t ![a, b, c, d] 0 = bump t [⟨a, b, 1 / (b - a) / (c - a) / (d - a) / (a - b), a, 1, a, 1, b⟩, ⟨a, b, 1 / (b - a) / (c - a) / (d - a) / (a - c), a, 1, a, 1, c⟩, ⟨a, b, 1 / (b - a) / (c - a) / (d - a) / (a - d), a, 1, a, 1, d⟩] + bump t [⟨b, c, 1 / (d - a) / ((c - b) * (b - d)) / (a - d), d, 1, b, 1, d⟩, ⟨b, c, 1 / (d - a) / ((c - a) * (b - c)) / (a - d), d, 1, a, 1, c⟩, ⟨b, c, 1 / ((a - c) * (c - a) * (b - c) * (d - a)), c, 1, a, 1, c⟩] + bump t [⟨c, d, 1 / (d - a) / (d - b) / (d - c) / (a - d), d, 1, d, 1, d⟩] := by
  have h0 : pull t ![a, b, c, d] 0 = pull t ![a, b, c, d] 0 :=
    pull_at (t := t) ![a, b, c, d] ![a, b, c, d] (perm ![0, 1, 2, 3] (by decide)) (by funext i; fin_cases i <;> rfl)
  rw [h0, pull_quad ht (z := c) (u := d) hab,
    pull_triple ht (z := d) hac,
    pull_pair ht had,
    wave_quad ht (y := b) (z := c) had,
    wave_triple ht (y := c) had,
    wave_triple ht (y := c) hbd,
    wave_triple ht (y := b) hac,
    wave_pair ht had,
    wave_pair ht hcd,
    wave_pair ht hac,
    wave_pair ht hbc,
    wave_pair ht hab]
  have hT : (t * I : ℂ) ≠ 0 := mul_ne_zero (by exact_mod_cast ht) I_ne_zero
  have nab : (((a : ℝ) : ℂ) - (b : ℝ)) ≠ 0 := by rw [sub_ne_zero]; exact_mod_cast hab
  have nba : (((b : ℝ) : ℂ) - (a : ℝ)) ≠ 0 := by rw [sub_ne_zero]; exact_mod_cast hab.symm
  have nac : (((a : ℝ) : ℂ) - (c : ℝ)) ≠ 0 := by rw [sub_ne_zero]; exact_mod_cast hac
  have nca : (((c : ℝ) : ℂ) - (a : ℝ)) ≠ 0 := by rw [sub_ne_zero]; exact_mod_cast hac.symm
  have nad : (((a : ℝ) : ℂ) - (d : ℝ)) ≠ 0 := by rw [sub_ne_zero]; exact_mod_cast had
  have nda : (((d : ℝ) : ℂ) - (a : ℝ)) ≠ 0 := by rw [sub_ne_zero]; exact_mod_cast had.symm
  have nbc : (((b : ℝ) : ℂ) - (c : ℝ)) ≠ 0 := by rw [sub_ne_zero]; exact_mod_cast hbc
  have ncb : (((c : ℝ) : ℂ) - (b : ℝ)) ≠ 0 := by rw [sub_ne_zero]; exact_mod_cast hbc.symm
  have nbd : (((b : ℝ) : ℂ) - (d : ℝ)) ≠ 0 := by rw [sub_ne_zero]; exact_mod_cast hbd
  have ndb : (((d : ℝ) : ℂ) - (b : ℝ)) ≠ 0 := by rw [sub_ne_zero]; exact_mod_cast hbd.symm
  have ncd : (((c : ℝ) : ℂ) - (d : ℝ)) ≠ 0 := by rw [sub_ne_zero]; exact_mod_cast hcd
  have ndc : (((d : ℝ) : ℂ) - (c : ℝ)) ≠ 0 := by rw [sub_ne_zero]; exact_mod_cast hcd.symm
  simp only [bump, List.map_cons, List.map_nil, List.sum_cons, List.sum_nil, Piece.prim]
  push_cast
  generalize (t * I : ℂ) = T at *
  generalize cexp (T * a) = ea
  generalize cexp (T * b) = eb
  generalize cexp (T * c) = ec
  generalize cexp (T * d) = ed
  generalize ((a : ℝ) : ℂ) = za at *
  generalize ((b : ℝ) : ℂ) = zb at *
  generalize ((c : ℝ) : ℂ) = zc at *
  generalize ((d : ℝ) : ℂ) = zd at *
  field_simp
  ring

theorem case3_abcd_1 {t : ℝ} (ht : t ≠ 0) {a b c d : ℝ} (hab : a ≠ b) (hac : a ≠ c) (had : a ≠ d) (hbc : b ≠ c) (hbd : b ≠ d) (hcd : c ≠ d) :
    (6 : ℂ) * pull t ![a, b, c, d] 1 = bump t [⟨a, b, 1 / (b - a) / (c - a) / (d - a) / (b - a), a, 1, a, 1, a⟩] + bump t [⟨b, c, 1 / (d - a) / ((c - b) * (b - d)) / (b - c), c, 1, b, 1, d⟩, ⟨b, c, 1 / (d - a) / ((c - a) * (b - c)) / (b - c), c, 1, a, 1, c⟩, ⟨b, c, 1 / ((b - d) * (b - d) * (c - b) * (d - a)), d, 1, d, 1, b⟩] + bump t [⟨c, d, 1 / (d - a) / (d - b) / (d - c) / (b - d), d, 1, d, 1, d⟩] := by
  have h0 : pull t ![a, b, c, d] 1 = pull t ![b, a, c, d] 0 :=
    pull_at (t := t) ![a, b, c, d] ![b, a, c, d] (perm ![1, 0, 2, 3] (by decide)) (by funext i; fin_cases i <;> rfl)
  rw [h0, pull_quad ht (z := c) (u := d) hab.symm,
    pull_triple ht (z := d) hbc,
    pull_pair ht hbd,
    wave_at (t := t) ![a, b, c, d] ![b, a, c, d] (perm ![1, 0, 2, 3] (by decide)) (by funext i; fin_cases i <;> rfl),
    wave_quad ht (y := b) (z := c) had,
    wave_triple ht (y := c) hbd,
    wave_triple ht (y := b) hac,
    wave_pair ht hbd,
    wave_pair ht hcd,
    wave_pair ht hbc,
    wave_pair ht hab]
  have hT : (t * I : ℂ) ≠ 0 := mul_ne_zero (by exact_mod_cast ht) I_ne_zero
  have nab : (((a : ℝ) : ℂ) - (b : ℝ)) ≠ 0 := by rw [sub_ne_zero]; exact_mod_cast hab
  have nba : (((b : ℝ) : ℂ) - (a : ℝ)) ≠ 0 := by rw [sub_ne_zero]; exact_mod_cast hab.symm
  have nac : (((a : ℝ) : ℂ) - (c : ℝ)) ≠ 0 := by rw [sub_ne_zero]; exact_mod_cast hac
  have nca : (((c : ℝ) : ℂ) - (a : ℝ)) ≠ 0 := by rw [sub_ne_zero]; exact_mod_cast hac.symm
  have nad : (((a : ℝ) : ℂ) - (d : ℝ)) ≠ 0 := by rw [sub_ne_zero]; exact_mod_cast had
  have nda : (((d : ℝ) : ℂ) - (a : ℝ)) ≠ 0 := by rw [sub_ne_zero]; exact_mod_cast had.symm
  have nbc : (((b : ℝ) : ℂ) - (c : ℝ)) ≠ 0 := by rw [sub_ne_zero]; exact_mod_cast hbc
  have ncb : (((c : ℝ) : ℂ) - (b : ℝ)) ≠ 0 := by rw [sub_ne_zero]; exact_mod_cast hbc.symm
  have nbd : (((b : ℝ) : ℂ) - (d : ℝ)) ≠ 0 := by rw [sub_ne_zero]; exact_mod_cast hbd
  have ndb : (((d : ℝ) : ℂ) - (b : ℝ)) ≠ 0 := by rw [sub_ne_zero]; exact_mod_cast hbd.symm
  have ncd : (((c : ℝ) : ℂ) - (d : ℝ)) ≠ 0 := by rw [sub_ne_zero]; exact_mod_cast hcd
  have ndc : (((d : ℝ) : ℂ) - (c : ℝ)) ≠ 0 := by rw [sub_ne_zero]; exact_mod_cast hcd.symm
  simp only [bump, List.map_cons, List.map_nil, List.sum_cons, List.sum_nil, Piece.prim]
  push_cast
  generalize (t * I : ℂ) = T at *
  generalize cexp (T * a) = ea
  generalize cexp (T * b) = eb
  generalize cexp (T * c) = ec
  generalize cexp (T * d) = ed
  generalize ((a : ℝ) : ℂ) = za at *
  generalize ((b : ℝ) : ℂ) = zb at *
  generalize ((c : ℝ) : ℂ) = zc at *
  generalize ((d : ℝ) : ℂ) = zd at *
  field_simp
  ring

theorem case3_abcd_2 {t : ℝ} (ht : t ≠ 0) {a b c d : ℝ} (hab : a ≠ b) (hac : a ≠ c) (had : a ≠ d) (hbc : b ≠ c) (hbd : b ≠ d) (hcd : c ≠ d) :
    (6 : ℂ) * pull t ![a, b, c, d] 2 = bump t [⟨a, b, 1 / (b - a) / (c - a) / (d - a) / (c - a), a, 1, a, 1, a⟩] + bump t [⟨b, c, 1 / (d - a) / ((c - b) * (b - d)) / (c - b), b, 1, b, 1, d⟩, ⟨b, c, 1 / (d - a) / ((c - a) * (b - c)) / (c - b), b, 1, a, 1, c⟩, ⟨b, c, 1 / ((c - a) * (c - a) * (b - c) * (d - a)), a, 1, a, 1, c⟩] + bump t [⟨c, d, 1 / (d - a) / (d - b) / (d - c) / (c - d), d, 1, d, 1, d⟩] := by
  have h0 : pull t ![a, b, c, d] 2 = pull t ![c, a, b, d] 0 :=
    pull_at (t := t) ![a, b, c, d] ![c, a, b, d] (perm ![2, 0, 1, 3] (by decide)) (by funext i; fin_cases i <;> rfl)
  rw [h0, pull_quad ht (z := b) (u := d) hac.symm,
    pull_triple ht (z := d) hbc.symm,
    pull_pair ht hcd,
    wave_at (t := t) ![b, c, d] ![c, b, d] (perm ![1, 0, 2] (by decide)) (by funext i; fin_cases i <;> rfl),
    wave_at (t := t) ![a, b, c, d] ![c, a, b, d] (perm ![2, 0, 1, 3] (by decide)) (by funext i; fin_cases i <;> rfl),
    wave_quad ht (y := b) (z := c) had,
    wave_triple ht (y := c) hbd,
    wave_triple ht (y := b) hac,
    wave_pair ht hcd,
    wave_pair ht hbc,
    wave_pair ht hab]
  have hT : (t * I : ℂ) ≠ 0 := mul_ne_zero (by exact_mod_cast ht) I_ne_zero
  have nab : (((a : ℝ) : ℂ) - (b : ℝ)) ≠ 0 := by rw [sub_ne_zero]; exact_mod_cast hab
  have nba : (((b : ℝ) : ℂ) - (a : ℝ)) ≠ 0 := by rw [sub_ne_zero]; exact_mod_cast hab.symm
  have nac : (((a : ℝ) : ℂ) - (c : ℝ)) ≠ 0 := by rw [sub_ne_zero]; exact_mod_cast hac
  have nca : (((c : ℝ) : ℂ) - (a : ℝ)) ≠ 0 := by rw [sub_ne_zero]; exact_mod_cast hac.symm
  have nad : (((a : ℝ) : ℂ) - (d : ℝ)) ≠ 0 := by rw [sub_ne_zero]; exact_mod_cast had
  have nda : (((d : ℝ) : ℂ) - (a : ℝ)) ≠ 0 := by rw [sub_ne_zero]; exact_mod_cast had.symm
  have nbc : (((b : ℝ) : ℂ) - (c : ℝ)) ≠ 0 := by rw [sub_ne_zero]; exact_mod_cast hbc
  have ncb : (((c : ℝ) : ℂ) - (b : ℝ)) ≠ 0 := by rw [sub_ne_zero]; exact_mod_cast hbc.symm
  have nbd : (((b : ℝ) : ℂ) - (d : ℝ)) ≠ 0 := by rw [sub_ne_zero]; exact_mod_cast hbd
  have ndb : (((d : ℝ) : ℂ) - (b : ℝ)) ≠ 0 := by rw [sub_ne_zero]; exact_mod_cast hbd.symm
  have ncd : (((c : ℝ) : ℂ) - (d : ℝ)) ≠ 0 := by rw [sub_ne_zero]; exact_mod_cast hcd
  have ndc : (((d : ℝ) : ℂ) - (c : ℝ)) ≠ 0 := by rw [sub_ne_zero]; exact_mod_cast hcd.symm
  simp only [bump, List.map_cons, List.map_nil, List.sum_cons, List.sum_nil, Piece.prim]
  push_cast
  generalize (t * I : ℂ) = T at *
  generalize cexp (T * a) = ea
  generalize cexp (T * b) = eb
  generalize cexp (T * c) = ec
  generalize cexp (T * d) = ed
  generalize ((a : ℝ) : ℂ) = za at *
  generalize ((b : ℝ) : ℂ) = zb at *
  generalize ((c : ℝ) : ℂ) = zc at *
  generalize ((d : ℝ) : ℂ) = zd at *
  field_simp
  ring

theorem case3_abcd_3 {t : ℝ} (ht : t ≠ 0) {a b c d : ℝ} (hab : a ≠ b) (hac : a ≠ c) (had : a ≠ d) (hbc : b ≠ c) (hbd : b ≠ d) (hcd : c ≠ d) :
    (6 : ℂ) * pull t ![a, b, c, d] 3 = bump t [⟨a, b, 1 / (b - a) / (c - a) / (d - a) / (d - a), a, 1, a, 1, a⟩] + bump t [⟨b, c, 1 / (d - a) / ((c - b) * (b - d)) / (d - a), a, 1, b, 1, d⟩, ⟨b, c, 1 / (d - a) / ((c - a) * (b - c)) / (d - a), a, 1, a, 1, c⟩, ⟨b, c, 1 / ((d - b) * (b - d) * (c - b) * (d - a)), b, 1, d, 1, b⟩] + bump t [⟨c, d, 1 / (d - a) / (d - b) / (d - c) / (d - a), d, 1, d, 1, a⟩, ⟨c, d, 1 / (d - a) / (d - b) / (d - c) / (d - b), d, 1, d, 1, b⟩, ⟨c, d, 1 / (d - a) / (d - b) / (d - c) / (d - c), d, 1, d, 1, c⟩] := by
  have h0 : pull t ![a, b, c, d] 3 = pull t ![d, a, b, c] 0 :=
    pull_at (t := t) ![a, b, c, d] ![d, a, b, c] (perm ![3, 0, 1, 2] (by decide)) (by funext i; fin_cases i <;> rfl)
  rw [h0, pull_quad ht (z := b) (u := c) had.symm,
    pull_triple ht (z := c) hbd.symm,
    pull_pair ht hcd.symm,
    wave_at (t := t) ![c, d] ![d, c] (perm ![1, 0] (by decide)) (by funext i; fin_cases i <;> rfl),
    wave_at (t := t) ![b, c, d] ![d, b, c] (perm ![2, 0, 1] (by decide)) (by funext i; fin_cases i <;> rfl),
    wave_at (t := t) ![a, b, c, d] ![d, a, b, c] (perm ![3, 0, 1, 2] (by decide)) (by funext i; fin_cases i <;> rfl),
    wave_quad ht (y := b) (z := c) had,
    wave_triple ht (y := c) hbd,
    wave_triple ht (y := b) hac,
    wave_pair ht hcd,
    wave_pair ht hbc,
    wave_pair ht hab]
  have hT : (t * I : ℂ) ≠ 0 := mul_ne_zero (by exact_mod_cast ht) I_ne_zero
  have nab : (((a : ℝ) : ℂ) - (b : ℝ)) ≠ 0 := by rw [sub_ne_zero]; exact_mod_cast hab
  have nba : (((b : ℝ) : ℂ) - (a : ℝ)) ≠ 0 := by rw [sub_ne_zero]; exact_mod_cast hab.symm
  have nac : (((a : ℝ) : ℂ) - (c : ℝ)) ≠ 0 := by rw [sub_ne_zero]; exact_mod_cast hac
  have nca : (((c : ℝ) : ℂ) - (a : ℝ)) ≠ 0 := by rw [sub_ne_zero]; exact_mod_cast hac.symm
  have nad : (((a : ℝ) : ℂ) - (d : ℝ)) ≠ 0 := by rw [sub_ne_zero]; exact_mod_cast had
  have nda : (((d : ℝ) : ℂ) - (a : ℝ)) ≠ 0 := by rw [sub_ne_zero]; exact_mod_cast had.symm
  have nbc : (((b : ℝ) : ℂ) - (c : ℝ)) ≠ 0 := by rw [sub_ne_zero]; exact_mod_cast hbc
  have ncb : (((c : ℝ) : ℂ) - (b : ℝ)) ≠ 0 := by rw [sub_ne_zero]; exact_mod_cast hbc.symm
  have nbd : (((b : ℝ) : ℂ) - (d : ℝ)) ≠ 0 := by rw [sub_ne_zero]; exact_mod_cast hbd
  have ndb : (((d : ℝ) : ℂ) - (b : ℝ)) ≠ 0 := by rw [sub_ne_zero]; exact_mod_cast hbd.symm
  have ncd : (((c : ℝ) : ℂ) - (d : ℝ)) ≠ 0 := by rw [sub_ne_zero]; exact_mod_cast hcd
  have ndc : (((d : ℝ) : ℂ) - (c : ℝ)) ≠ 0 := by rw [sub_ne_zero]; exact_mod_cast hcd.symm
  simp only [bump, List.map_cons, List.map_nil, List.sum_cons, List.sum_nil, Piece.prim]
  push_cast
  generalize (t * I : ℂ) = T at *
  generalize cexp (T * a) = ea
  generalize cexp (T * b) = eb
  generalize cexp (T * c) = ec
  generalize cexp (T * d) = ed
  generalize ((a : ℝ) : ℂ) = za at *
  generalize ((b : ℝ) : ℂ) = zb at *
  generalize ((c : ℝ) : ℂ) = zc at *
  generalize ((d : ℝ) : ℂ) = zd at *
  field_simp
  ring

end Interphon.Spec
