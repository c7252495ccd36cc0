import Verif.Lemmas.SimplexDensity
import Mathlib.Tactic.FinCases
import Mathlib.Tactic.FieldSimp

/-! # Closed forms of the interpolation density: tetrahedra with two equal corner values (generated by /verif/tools/gen_simplex.py) -/

noncomputable section

namespace Interphon.Spec
open MeasureTheory Set Complex

set_option maxHeartbeats 4000000
set_option linter.unusedVariables false

theorem case3_aacd_0 {t : ℝ} (ht : t ≠ 0) {a c d : ℝ} (hac : a ≠ c) (had : a ≠ d) (hcd : c ≠ d) :
    (6 : ℂ) * pull t ![a, a, c, d] 0 = bump t [⟨a, c, 1 / (d - a) / ((c - a) * (a - d)) / (a - d), d, 1, a, 1, d⟩, ⟨a, c, 1 / (d - a) / ((c - a) * (a - c)) / (a - d), d, 1, a, 1, c⟩, ⟨a, c, 1 / ((a - c) * (c - a) * (a - c) * (d - a)), c, 1, a, 1, c⟩] + bump t [⟨c, d, 1 / (d - a) / (d - a) / (d - c) / (a - d), d, 1, d, 1, d⟩] := by
  have h0 : pull t ![a, a, c, d] 0 = pull t ![a, c, a, d] 0 :=
    pull_at (t := t) ![a, a, c, d] ![a, c, a, d] (perm ![0, 2, 1, 3] (by decide)) (by funext i; fin_cases i <;> rfl)
  rw [h0, pull_quad ht (z := a) (u := d) hac,
    pull_132 (t := t) a d a,
    pull_triple ht (z := a) had,
    pull_pair_flat (t := t) a,
    wave_at (t := t) ![a, a, d] ![a, d, a] (perm ![0, 2, 1] (by decide)) (by funext i; fin_cases i <;> rfl),
    wave_at (t := t) ![a, a, c, d] ![a, c, a, d] (perm ![0, 2, 1, 3] (by decide)) (by funext i; fin_cases i <;> rfl),
    wave_quad ht (y := a) (z := c) had,
    wave_triple ht (y := a) had,
    wave_triple ht (y := c) had,
    wave_triple ht (y := a) hac,
    wave_pair ht had,
    wave_pair_flat (t := t) a,
    wave_pair ht hcd,
    wave_pair ht hac]
  have hT : (t * I : ℂ) ≠ 0 := mul_ne_zero (by exact_mod_cast ht) I_ne_zero
  have nac : (((a : ℝ) : ℂ) - (c : ℝ)) ≠ 0 := by rw [sub_ne_zero]; exact_mod_cast hac
  have nca : (((c : ℝ) : ℂ) - (a : ℝ)) ≠ 0 := by rw [sub_ne_zero]; exact_mod_cast hac.symm
  have nad : (((a : ℝ) : ℂ) - (d : ℝ)) ≠ 0 := by rw [sub_ne_zero]; exact_mod_cast had
  have nda : (((d : ℝ) : ℂ) - (a : ℝ)) ≠ 0 := by rw [sub_ne_zero]; exact_mod_cast had.symm
  have ncd : (((c : ℝ) : ℂ) - (d : ℝ)) ≠ 0 := by rw [sub_ne_zero]; exact_mod_cast hcd
  have ndc : (((d : ℝ) : ℂ) - (c : ℝ)) ≠ 0 := by rw [sub_ne_zero]; exact_mod_cast hcd.symm
  simp only [bump, List.map_cons, List.map_nil, List.sum_cons, List.sum_nil, Piece.prim]
  push_cast
  generalize (t * I : ℂ) = T at *
  generalize cexp (T * a) = ea
  generalize cexp (T * c) = ec
  generalize cexp (T * d) = ed
  generalize ((a : ℝ) : ℂ) = za at *
  generalize ((c : ℝ) : ℂ) = zc at *
  generalize ((d : ℝ) : ℂ) = zd at *
  field_simp
  ring

theorem case3_aacd_1 {t : ℝ} (ht : t ≠ 0) {a c d : ℝ} (hac : a ≠ c) (had : a ≠ d) (hcd : c ≠ d) :
    (6 : ℂ) * pull t ![a, a, c, d] 1 = bump t [⟨a, c, 1 / (d - a) / ((c - a) * (a - d)) / (a - c), c, 1, a, 1, d⟩, ⟨a, c, 1 / (d - a) / ((c - a) * (a - c)) / (a - c), c, 1, a, 1, c⟩, ⟨a, c, 1 / ((a - d) * (a - d) * (c - a) * (d - a)), d, 1, d, 1, a⟩] + bump t [⟨c, d, 1 / (d - a) / (d - a) / (d - c) / (a - d), d, 1, d, 1, d⟩] := by
  have h0 : pull t ![a, a, c, d] 1 = pull t ![a, c, a, d] 0 :=
    pull_at (t := t) ![a, a, c, d] ![a, c, a, d] (perm ![1, 2, 0, 3] (by decide)) (by funext i; fin_cases i <;> rfl)
  rw [h0, pull_quad ht (z := a) (u := d) hac,
    pull_132 (t := t) a d a,
    pull_triple ht (z := a) had,
    pull_pair_flat (t := t) a,
    wave_at (t := t) ![a, a, d] ![a, d, a] (perm ![0, 2, 1] (by decide)) (by funext i; fin_cases i <;> rfl),
    wave_at (t := t) ![a, a, c, d] ![a, c, a, d] (perm ![0, 2, 1, 3] (by decide)) (by funext i; fin_cases i <;> rfl),
    wave_quad ht (y := a) (z := c) had,
    wave_triple ht (y := a) had,
    wave_triple ht (y := c) had,
    wave_triple ht (y := a) hac,
    wave_pair ht had,
    wave_pair_flat (t := t) a,
    wave_pair ht hcd,
    wave_pair ht hac]
  have hT : (t * I : ℂ) ≠ 0 := mul_ne_zero (by exact_mod_cast ht) I_ne_zero
  have nac : (((a : ℝ) : ℂ) - (c : ℝ)) ≠ 0 := by rw [sub_ne_zero]; exact_mod_cast hac
  have nca : (((c : ℝ) : ℂ) - (a : ℝ)) ≠ 0 := by rw [sub_ne_zero]; exact_mod_cast hac.symm
  have nad : (((a : ℝ) : ℂ) - (d : ℝ)) ≠ 0 := by rw [sub_ne_zero]; exact_mod_cast had
  have nda : (((d : ℝ) : ℂ) - (a : ℝ)) ≠ 0 := by rw [sub_ne_zero]; exact_mod_cast had.symm
  have ncd : (((c : ℝ) : ℂ) - (d : ℝ)) ≠ 0 := by rw [sub_ne_zero]; exact_mod_cast hcd
  have ndc : (((d : ℝ) : ℂ) - (c : ℝ)) ≠ 0 := by rw [sub_ne_zero]; exact_mod_cast hcd.symm
  simp only [bump, List.map_cons, List.map_nil, List.sum_cons, List.sum_nil, Piece.prim]
  push_cast
  generalize (t * I : ℂ) = T at *
  generalize cexp (T * a) = ea
  generalize cexp (T * c) = ec
  generalize cexp (T * d) = ed
  generalize ((a : ℝ) : ℂ) = za at *
  generalize ((c : ℝ) : ℂ) = zc at *
  generalize ((d : ℝ) : ℂ) = zd at *
  field_simp
  ring

theorem case3_aacd_2 {t : ℝ} (ht : t ≠ 0) {a c d : ℝ} (hac : a ≠ c) (had : a ≠ d) (hcd : c ≠ d) :
    (6 : ℂ) * pull t ![a, a, c, d] 2 = bump t [⟨a, c, 1 / (d - a) / ((c - a) * (a - d)) / (c - a), a, 1, a, 1, d⟩, ⟨a, c, 1 / (d - a) / ((c - a) * (a - c)) / (c - a), a, 1, a, 1, c⟩, ⟨a, c, 1 / ((c - a) * (c - a) * (a - c) * (d - a)), a, 1, a, 1, c⟩] + bump t [⟨c, d, 1 / (d - a) / (d - a) / (d - c) / (c - d), d, 1, d, 1, d⟩] := by
  have h0 : pull t ![a, a, c, d] 2 = pull t ![c, a, a, d] 0 :=
    pull_at (t := t) ![a, a, c, d] ![c, a, a, d] (perm ![2, 0, 1, 3] (by decide)) (by funext i; fin_cases i <;> rfl)
  rw [h0, pull_quad ht (z := a) (u := d) hac.symm,
    pull_triple ht (z := d) hac.symm,
    pull_pair ht hcd,
    wave_at (t := t) ![a, c, d] ![c, a, d] (perm ![1, 0, 2] (by decide)) (by funext i; fin_cases i <;> rfl),
    wave_at (t := t) ![a, a, c, d] ![c, a, a, d] (perm ![2, 0, 1, 3] (by decide)) (by funext i; fin_cases i <;> rfl),
    wave_quad ht (y := a) (z := c) had,
    wave_triple ht (y := c) had,
    wave_triple ht (y := a) hac,
    wave_pair ht hcd,
    wave_pair ht hac,
    wave_pair_flat (t := t) a]
  have hT : (t * I : ℂ) ≠ 0 := mul_ne_zero (by exact_mod_cast ht) I_ne_zero
  have nac : (((a : ℝ) : ℂ) - (c : ℝ)) ≠ 0 := by rw [sub_ne_zero]; exact_mod_cast hac
  have nca : (((c : ℝ) : ℂ) - (a : ℝ)) ≠ 0 := by rw [sub_ne_zero]; exact_mod_cast hac.symm
  have nad : (((a : ℝ) : ℂ) - (d : ℝ)) ≠ 0 := by rw [sub_ne_zero]; exact_mod_cast had
  have nda : (((d : ℝ) : ℂ) - (a : ℝ)) ≠ 0 := by rw [sub_ne_zero]; exact_mod_cast had.symm
  have ncd : (((c : ℝ) : ℂ) - (d : ℝ)) ≠ 0 := by rw [sub_ne_zero]; exact_mod_cast hcd
  have ndc : (((d : ℝ) : ℂ) - (c : ℝ)) ≠ 0 := by rw [sub_ne_zero]; exact_mod_cast hcd.symm
  simp only [bump, List.map_cons, List.map_nil, List.sum_cons, List.sum_nil, Piece.prim]
  push_cast
  generalize (t * I : ℂ) = T at *
  generalize cexp (T * a) = ea
  generalize cexp (T * c) = ec
  generalize cexp (T * d) = ed
  generalize ((a : ℝ) : ℂ) = za at *
  generalize ((c : ℝ) : ℂ) = zc at *
  generalize ((d : ℝ) : ℂ) = zd at *
  field_simp
  ring

theorem case3_aacd_3 {t : ℝ} (ht : t ≠ 0) {a c d : ℝ} (hac : a ≠ c) (had : a ≠ d) (hcd : c ≠ d) :
    (6 : ℂ) * pull t ![a, a, c, d] 3 = bump t [⟨a, c, 1 / (d - a) / ((c - a) * (a - d)) / (d - a), a, 1, a, 1, d⟩, ⟨a, c, 1 / (d - a) / ((c - a) * (a - c)) / (d - a), a, 1, a, 1, c⟩, ⟨a, c, 1 / ((d - a) * (a - d) * (c - a) * (d - a)), a, 1, d, 1, a⟩] + bump t [⟨c, d, 1 / (d - a) / (d - a) / (d - c) / (d - a), d, 1, d, 1, a⟩, ⟨c, d, 1 / (d - a) / (d - a) / (d - c) / (d - a), d, 1, d, 1, a⟩, ⟨c, d, 1 / (d - a) / (d - a) / (d - c) / (d - c), d, 1, d, 1, c⟩] := by
  have h0 : pull t ![a, a, c, d] 3 = pull t ![d, a, a, c] 0 :=
    pull_at (t := t) ![a, a, c, d] ![d, a, a, c] (perm ![3, 0, 1, 2] (by decide)) (by funext i; fin_cases i <;> rfl)
  rw [h0, pull_quad ht (z := a) (u := c) had.symm,
    pull_triple ht (z := c) had.symm,
    pull_pair ht hcd.symm,
    wave_at (t := t) ![c, d] ![d, c] (perm ![1, 0] (by decide)) (by funext i; fin_cases i <;> rfl),
    wave_at (t := t) ![a, c, d] ![d, a, c] (perm ![2, 0, 1] (by decide)) (by funext i; fin_cases i <;> rfl),
    wave_at (t := t) ![a, a, c, d] ![d, a, a, c] (perm ![3, 0, 1, 2] (by decide)) (by funext i; fin_cases i <;> rfl),
    wave_quad ht (y := a) (z := c) had,
    wave_triple ht (y := c) had,
    wave_triple ht (y := a) hac,
    wave_pair ht hcd,
    wave_pair ht hac,
    wave_pair_flat (t := t) a]
  have hT : (t * I : ℂ) ≠ 0 := mul_ne_zero (by exact_mod_cast ht) I_ne_zero
  have nac : (((a : ℝ) : ℂ) - (c : ℝ)) ≠ 0 := by rw [sub_ne_zero]; exact_mod_cast hac
  have nca : (((c : ℝ) : ℂ) - (a : ℝ)) ≠ 0 := by rw [sub_ne_zero]; exact_mod_cast hac.symm
  have nad : (((a : ℝ) : ℂ) - (d : ℝ)) ≠ 0 := by rw [sub_ne_zero]; exact_mod_cast had
  have nda : (((d : ℝ) : ℂ) - (a : ℝ)) ≠ 0 := by rw [sub_ne_zero]; exact_mod_cast had.symm
  have ncd : (((c : ℝ) : ℂ) - (d : ℝ)) ≠ 0 := by rw [sub_ne_zero]; exact_mod_cast hcd
  have ndc : (((d : ℝ) : ℂ) - (c : ℝ)) ≠ 0 := by rw [sub_ne_zero]; exact_mod_cast hcd.symm
  simp only [bump, List.map_cons, List.map_nil, List.sum_cons, List.sum_nil, Piece.prim]
  push_cast
  generalize (t * I : ℂ) = T at *
  generalize cexp (T * a) = ea
  generalize cexp (T * c) = ec
  generalize cexp (T * d) = ed
  generalize ((a : ℝ) : ℂ) = za at *
  generalize ((c : ℝ) : ℂ) = zc at *
  generalize ((d : ℝ) : ℂ) = zd at *
  field_simp
  ring

theorem case3_abbd_0 {t : ℝ} (ht : t ≠ 0) {a b d : ℝ} (hab : a ≠ b) (had : a ≠ d) (hbd : b ≠ d) :
    (6 : ℂ) * pull t ![a, b, b, d] 0 = bump t [⟨a, b, 1 / (b - a) / (b - a) / (d - a) / (a - b), a, 1, a, 1, b⟩, ⟨a, b, 1 / (b - a) / (b - a) / (d - a) / (a - b), a, 1, a, 1, b⟩, ⟨a, b, 1 / (b - a) / (b - a) / (d - a) / (a - d), a, 1, a, 1, d⟩] + bump t [⟨b, d, 1 / (d - a) / (d - b) / (d - b) / (a - d), d, 1, d, 1, d⟩] := by
  have h0 : pull t ![a, b, b, d] 0 = pull t ![a, b, b, d] 0 :=
    pull_at (t := t) ![a, b, b, d] ![a, b, b, d] (perm ![0, 1, 2, 3] (by decide)) (by funext i; fin_cases i <;> rfl)
  rw [h0, pull_quad ht (z := b) (u := d) hab,
    pull_triple ht (z := d) hab,
    pull_pair ht had,
    wave_quad ht (y := b) (z := b) had,
    wave_triple ht (y := b) had,
    wave_triple ht (y := b) hbd,
    wave_triple ht (y := b) hab,
    wave_pair ht had,
    wave_pair ht hbd,
    wave_pair ht hab,
    wave_pair_flat (t := t) b]
  have hT : (t * I : ℂ) ≠ 0 := mul_ne_zero (by exact_mod_cast ht) I_ne_zero
  have nab : (((a : ℝ) : ℂ) - (b : ℝ)) ≠ 0 := by rw [sub_ne_zero]; exact_mod_cast hab
  have nba : (((b : ℝ) : ℂ) - (a : ℝ)) ≠ 0 := by rw [sub_ne_zero]; exact_mod_cast hab.symm
  have nad : (((a : ℝ) : ℂ) - (d : ℝ)) ≠ 0 := by rw [sub_ne_zero]; exact_mod_cast had
  have nda : (((d : ℝ) : ℂ) - (a : ℝ)) ≠ 0 := by rw [sub_ne_zero]; exact_mod_cast had.symm
  have nbd : (((b : ℝ) : ℂ) - (d : ℝ)) ≠ 0 := by rw [sub_ne_zero]; exact_mod_cast hbd
  have ndb : (((d : ℝ) : ℂ) - (b : ℝ)) ≠ 0 := by rw [sub_ne_zero]; exact_mod_cast hbd.symm
  simp only [bump, List.map_cons, List.map_nil, List.sum_cons, List.sum_nil, Piece.prim]
  push_cast
  generalize (t * I : ℂ) = T at *
  generalize cexp (T * a) = ea
  generalize cexp (T * b) = eb
  generalize cexp (T * d) = ed
  generalize ((a : ℝ) : ℂ) = za at *
  generalize ((b : ℝ) : ℂ) = zb at *
  generalize ((d : ℝ) : ℂ) = zd at *
  field_simp
  ring

theorem case3_abbd_1 {t : ℝ} (ht : t ≠ 0) {a b d : ℝ} (hab : a ≠ b) (had : a ≠ d) (hbd : b ≠ d) :
    (6 : ℂ) * pull t ![a, b, b, d] 1 = bump t [⟨a, b, 1 / (b - a) / (b - a) / (d - a) / (b - a), a, 1, a, 1, a⟩] + bump t [⟨b, d, 1 / (d - a) / (d - b) / (d - b) / (b - d), d, 1, d, 1, d⟩] := by
  have h0 : pull t ![a, b, b, d] 1 = pull t ![b, a, b, d] 0 :=
    pull_at (t := t) ![a, b, b, d] ![b, a, b, d] (perm ![1, 0, 2, 3] (by decide)) (by funext i; fin_cases i <;> rfl)
  rw [h0, pull_quad ht (z := b) (u := d) hab.symm,
    pull_132 (t := t) b d b,
    pull_triple ht (z := b) hbd,
    pull_pair_flat (t := t) b,
    wave_at (t := t) ![b, b, d] ![b, d, b] (perm ![0, 2, 1] (by decide)) (by funext i; fin_cases i <;> rfl),
    wave_at (t := t) ![a, b, b, d] ![b, a, b, d] (perm ![1, 0, 2, 3] (by decide)) (by funext i; fin_cases i <;> rfl),
    wave_quad ht (y := b) (z := b) had,
    wave_triple ht (y := b) hbd,
    wave_triple ht (y := b) hab,
    wave_pair ht hbd,
    wave_pair_flat (t := t) b,
    wave_pair ht hab]
  have hT : (t * I : ℂ) ≠ 0 := mul_ne_zero (by exact_mod_cast ht) I_ne_zero
  have nab : (((a : ℝ) : ℂ) - (b : ℝ)) ≠ 0 := by rw [sub_ne_zero]; exact_mod_cast hab
  have nba : (((b : ℝ) : ℂ) - (a : ℝ)) ≠ 0 := by rw [sub_ne_zero]; exact_mod_cast hab.symm
  have nad : (((a : ℝ) : ℂ) - (d : ℝ)) ≠ 0 := by rw [sub_ne_zero]; exact_mod_cast had
  have nda : (((d : ℝ) : ℂ) - (a : ℝ)) ≠ 0 := by rw [sub_ne_zero]; exact_mod_cast had.symm
  have nbd : (((b : ℝ) : ℂ) - (d : ℝ)) ≠ 0 := by rw [sub_ne_zero]; exact_mod_cast hbd
  have ndb : (((d : ℝ) : ℂ) - (b : ℝ)) ≠ 0 := by rw [sub_ne_zero]; exact_mod_cast hbd.symm
  simp only [bump, List.map_cons, List.map_nil, List.sum_cons, List.sum_nil, Piece.prim]
  push_cast
  generalize (t * I : ℂ) = T at *
  generalize cexp (T * a) = ea
  generalize cexp (T * b) = eb
  generalize cexp (T * d) = ed
  generalize ((a : ℝ) : ℂ) = za at *
  generalize ((b : ℝ) : ℂ) = zb at *
  generalize ((d : ℝ) : ℂ) = zd at *
  field_simp
  ring

theorem case3_abbd_2 {t : ℝ} (ht : t ≠ 0) {a b d : ℝ} (hab : a ≠ b) (had : a ≠ d) (hbd : b ≠ d) :
    (6 : ℂ) * pull t ![a, b, b, d] 2 = bump t [⟨a, b, 1 / (b - a) / (b - a) / (d - a) / (b - a), a, 1, a, 1, a⟩] + bump t [⟨b, d, 1 / (d - a) / (d - b) / (d - b) / (b - d), d, 1, d, 1, d⟩] := by
  have h0 : pull t ![a, b, b, d] 2 = pull t ![b, a, b, d] 0 :=
    pull_at (t := t) ![a, b, b, d] ![b, a, b, d] (perm ![2, 0, 1, 3] (by decide)) (by funext i; fin_cases i <;> rfl)
  rw [h0, pull_quad ht (z := b) (u := d) hab.symm,
    pull_132 (t := t) b d b,
    pull_triple ht (z := b) hbd,
    pull_pair_flat (t := t) b,
    wave_at (t := t) ![b, b, d] ![b, d, b] (perm ![0, 2, 1] (by decide)) (by funext i; fin_cases i <;> rfl),
    wave_at (t := t) ![a, b, b, d] ![b, a, b, d] (perm ![1, 0, 2, 3] (by decide)) (by funext i; fin_cases i <;> rfl),
    wave_quad ht (y := b) (z := b) had,
    wave_triple ht (y := b) hbd,
    wave_triple ht (y := b) hab,
    wave_pair ht hbd,
    wave_pair_flat (t := t) b,
    wave_pair ht hab]
  have hT : (t * I : ℂ) ≠ 0 := mul_ne_zero (by exact_mod_cast ht) I_ne_zero
  have nab : (((a : ℝ) : ℂ) - (b : ℝ)) ≠ 0 := by rw [sub_ne_zero]; exact_mod_cast hab
  have nba : (((b : ℝ) : ℂ) - (a : ℝ)) ≠ 0 := by rw [sub_ne_zero]; exact_mod_cast hab.symm
  have nad : (((a : ℝ) : ℂ) - (d : ℝ)) ≠ 0 := by rw [sub_ne_zero]; exact_mod_cast had
  have nda : (((d : ℝ) : ℂ) - (a : ℝ)) ≠ 0 := by rw [sub_ne_zero]; exact_mod_cast had.symm
  have nbd : (((b : ℝ) : ℂ) - (d : ℝ)) ≠ 0 := by rw [sub_ne_zero]; exact_mod_cast hbd
  have ndb : (((d : ℝ) : ℂ) - (b : ℝ)) ≠ 0 := by rw [sub_ne_zero]; exact_mod_cast hbd.symm
  simp only [bump, List.map_cons, List.map_nil, List.sum_cons, List.sum_nil, Piece.prim]
  push_cast
  generalize (t * I : ℂ) = T at *
  generalize cexp (T * a) = ea
  generalize cexp (T * b) = eb
  generalize cexp (T * d) = ed
  generalize ((a : ℝ) : ℂ) = za at *
  generalize ((b : ℝ) : ℂ) = zb at *
  generalize ((d : ℝ) : ℂ) = zd at *
  field_simp
  ring

theorem case3_abbd_3 {t : ℝ} (ht : t ≠ 0) {a b d : ℝ} (hab : a ≠ b) (had : a ≠ d) (hbd : b ≠ d) :
    (6 : ℂ) * pull t ![a, b, b, d] 3 = bump t [⟨a, b, 1 / (b - a) / (b - a) / (d - a) / (d - a), a, 1, a, 1, a⟩] + bump t [⟨b, d, 1 / (d - a) / (d - b) / (d - b) / (d - a), d, 1, d, 1, a⟩, ⟨b, d, 1 / (d - a) / (d - b) / (d - b) / (d - b), d, 1, d, 1, b⟩, ⟨b, d, 1 / (d - a) / (d - b) / (d - b) / (d - b), d, 1, d, 1, b⟩] := by
  have h0 : pull t ![a, b, b, d] 3 = pull t ![d, a, b, b] 0 :=
    pull_at (t := t) ![a, b, b, d] ![d, a, b, b] (perm ![3, 0, 1, 2] (by decide)) (by funext i; fin_cases i <;> rfl)
  rw [h0, pull_quad ht (z := b) (u := b) had.symm,
    pull_triple ht (z := b) hbd.symm,
    pull_pair ht hbd.symm,
    wave_at (t := t) ![b, d] ![d, b] (perm ![1, 0] (by decide)) (by funext i; fin_cases i <;> rfl),
    wave_at (t := t) ![b, b, d] ![d, b, b] (perm ![2, 0, 1] (by decide)) (by funext i; fin_cases i <;> rfl),
    wave_at (t := t) ![a, b, b, d] ![d, a, b, b] (perm ![3, 0, 1, 2] (by decide)) (by funext i; fin_cases i <;> rfl),
    wave_quad ht (y := b) (z := b) had,
    wave_triple ht (y := b) hbd,
    wave_triple ht (y := b) hab,
    wave_pair ht hbd,
    wave_pair_flat (t := t) b,
    wave_pair ht hab]
  have hT : (t * I : ℂ) ≠ 0 := mul_ne_zero (by exact_mod_cast ht) I_ne_zero
  have nab : (((a : ℝ) : ℂ) - (b : ℝ)) ≠ 0 := by rw [sub_ne_zero]; exact_mod_cast hab
  have nba : (((b : ℝ) : ℂ) - (a : ℝ)) ≠ 0 := by rw [sub_ne_zero]; exact_mod_cast hab.symm
  have nad : (((a : ℝ) : ℂ) - (d : ℝ)) ≠ 0 := by rw [sub_ne_zero]; exact_mod_cast had
  have nda : (((d : ℝ) : ℂ) - (a : ℝ)) ≠ 0 := by rw [sub_ne_zero]; exact_mod_cast had.symm
  have nbd : (((b : ℝ) : ℂ) - (d : ℝ)) ≠ 0 := by rw [sub_ne_zero]; exact_mod_cast hbd
  have ndb : (((d : ℝ) : ℂ) - (b : ℝ)) ≠ 0 := by rw [sub_ne_zero]; exact_mod_cast hbd.symm
  simp only [bump, List.map_cons, List.map_nil, List.sum_cons, List.sum_nil, Piece.prim]
  push_cast
  generalize (t * I : ℂ) = T at *
  generalize cexp (T * a) = ea
  generalize cexp (T * b) = eb
  generalize cexp (T * d) = ed
  generalize ((a : ℝ) : ℂ) = za at *
  generalize ((b : ℝ) : ℂ) = zb at *
  generalize ((d : ℝ) : ℂ) = zd at *
  field_simp
  ring

theorem case3_abcc_0 {t : ℝ} (ht : t ≠ 0) {a b c : ℝ} (hab : a ≠ b) (hac : a ≠ c) (hbc : b ≠ c) :
    (6 : ℂ) * pull t ![a, b, c, c] 0 = bump t [⟨a, b, 1 / (b - a) / (c - a) / (c - a) / (a - b), a, 1, a, 1, b⟩, ⟨a, b, 1 / (b - a) / (c - a) / (c - a) / (a - c), a, 1, a, 1, c⟩, ⟨a, b, 1 / (b - a) / (c - a) / (c - a) / (a - c), a, 1, a, 1, c⟩] + bump t [⟨b, c, 1 / (c - a) / ((c - b) * (b - c)) / (a - c), c, 1, b, 1, c⟩, ⟨b, c, 1 / (c - a) / ((c - a) * (b - c)) / (a - c), c, 1, a, 1, c⟩, ⟨b, c, 1 / ((a - c) * (c - a) * (b - c) * (c - a)), c, 1, a, 1, c⟩] := by
  have h0 : pull t ![a, b, c, c] 0 = pull t ![a, b, c, c] 0 :=
    pull_at (t := t) ![a, b, c, c] ![a, b, c, c] (perm ![0, 1, 2, 3] (by decide)) (by funext i; fin_cases i <;> rfl)
  rw [h0, pull_quad ht (z := c) (u := c) hab,
    pull_triple ht (z := c) hac,
    pull_pair ht hac,
    wave_quad ht (y := b) (z := c) hac,
    wave_triple ht (y := c) hac,
    wave_triple ht (y := c) hbc,
    wave_triple ht (y := b) hac,
    wave_pair ht hac,
    wave_pair_flat (t := t) c,
    wave_pair ht hbc,
    wave_pair ht hab]
  have hT : (t * I : ℂ) ≠ 0 := mul_ne_zero (by exact_mod_cast ht) I_ne_zero
  have nab : (((a : ℝ) : ℂ) - (b : ℝ)) ≠ 0 := by rw [sub_ne_zero]; exact_mod_cast hab
  have nba : (((b : ℝ) : ℂ) - (a : ℝ)) ≠ 0 := by rw [sub_ne_zero]; exact_mod_cast hab.symm
  have nac : (((a : ℝ) : ℂ) - (c : ℝ)) ≠ 0 := by rw [sub_ne_zero]; exact_mod_cast hac
  have nca : (((c : ℝ) : ℂ) - (a : ℝ)) ≠ 0 := by rw [sub_ne_zero]; exact_mod_cast hac.symm
  have nbc : (((b : ℝ) : ℂ) - (c : ℝ)) ≠ 0 := by rw [sub_ne_zero]; exact_mod_cast hbc
  have ncb : (((c : ℝ) : ℂ) - (b : ℝ)) ≠ 0 := by rw [sub_ne_zero]; exact_mod_cast hbc.symm
  simp only [bump, List.map_cons, List.map_nil, List.sum_cons, List.sum_nil, Piece.prim]
  push_cast
  generalize (t * I : ℂ) = T at *
  generalize cexp (T * a) = ea
  generalize cexp (T * b) = eb
  generalize cexp (T * c) = ec
  generalize ((a : ℝ) : ℂ) = za at *
  generalize ((b : ℝ) : ℂ) = zb at *
  generalize ((c : ℝ) : ℂ) = zc at *
  field_simp
  ring

theorem case3_abcc_1 {t : ℝ} (ht : t ≠ 0) {a b c : ℝ} (hab : a ≠ b) (hac : a ≠ c) (hbc : b ≠ c) :
    (6 : ℂ) * pull t ![a, b, c, c] 1 = bump t [⟨a, b, 1 / (b - a) / (c - a) / (c - a) / (b - a), a, 1, a, 1, a⟩] + bump t [⟨b, c, 1 / (c - a) / ((c - b) * (b - c)) / (b - c), c, 1, b, 1, c⟩, ⟨b, c, 1 / (c - a) / ((c - a) * (b - c)) / (b - c), c, 1, a, 1, c⟩, ⟨b, c, 1 / ((b - c) * (b - c) * (c - b) * (c - a)), c, 1, c, 1, b⟩] := by
  have h0 : pull t ![a, b, c, c] 1 = pull t ![b, a, c, c] 0 :=
    pull_at (t := t) ![a, b, c, c] ![b, a, c, c] (perm ![1, 0, 2, 3] (by decide)) (by funext i; fin_cases i <;> rfl)
  rw [h0, pull_quad ht (z := c) (u := c) hab.symm,
    pull_triple ht (z := c) hbc,
    pull_pair ht hbc,
    wave_at (t := t) ![a, b, c, c] ![b, a, c, c] (perm ![1, 0, 2, 3] (by decide)) (by funext i; fin_cases i <;> rfl),
    wave_quad ht (y := b) (z := c) hac,
    wave_triple ht (y := c) hbc,
    wave_triple ht (y := b) hac,
    wave_pair ht hbc,
    wave_pair_flat (t := t) c,
    wave_pair ht hab]
  have hT : (t * I : ℂ) ≠ 0 := mul_ne_zero (by exact_mod_cast ht) I_ne_zero
  have nab : (((a : ℝ) : ℂ) - (b : ℝ)) ≠ 0 := by rw [sub_ne_zero]; exact_mod_cast hab
  have nba : (((b : ℝ) : ℂ) - (a : ℝ)) ≠ 0 := by rw [sub_ne_zero]; exact_mod_cast hab.symm
  have nac : (((a : ℝ) : ℂ) - (c : ℝ)) ≠ 0 := by rw [sub_ne_zero]; exact_mod_cast hac
  have nca : (((c : ℝ) : ℂ) - (a : ℝ)) ≠ 0 := by rw [sub_ne_zero]; exact_mod_cast hac.symm
  have nbc : (((b : ℝ) : ℂ) - (c : ℝ)) ≠ 0 := by rw [sub_ne_zero]; exact_mod_cast hbc
  have ncb : (((c : ℝ) : ℂ) - (b : ℝ)) ≠ 0 := by rw [sub_ne_zero]; exact_mod_cast hbc.symm
  simp only [bump, List.map_cons, List.map_nil, List.sum_cons, List.sum_nil, Piece.prim]
  push_cast
  generalize (t * I : ℂ) = T at *
  generalize cexp (T * a) = ea
  generalize cexp (T * b) = eb
  generalize cexp (T * c) = ec
  generalize ((a : ℝ) : ℂ) = za at *
  generalize ((b : ℝ) : ℂ) = zb at *
  generalize ((c : ℝ) : ℂ) = zc at *
  field_simp
  ring

theorem case3_abcc_2 {t : ℝ} (ht : t ≠ 0) {a b c : ℝ} (hab : a ≠ b) (hac : a ≠ c) (hbc : b ≠ c) :
    (6 : ℂ) * pull t ![a, b, c, c] 2 = bump t [⟨a, b, 1 / (b - a) / (c - a) / (c - a) / (c - a), a, 1, a, 1, a⟩] + bump t [⟨b, c, 1 / (c - a) / ((c - b) * (b - c)) / (c - b), b, 1, b, 1, c⟩, ⟨b, c, 1 / (c - a) / ((c - a) * (b - c)) / (c - b), b, 1, a, 1, c⟩, ⟨b, c, 1 / ((c - a) * (c - a) * (b - c) * (c - a)), a, 1, a, 1, c⟩] := by
  have h0 : pull t ![a, b, c, c] 2 = pull t ![c, a, b, c] 0 :=
    pull_at (t := t) ![a, b, c, c] ![c, a, b, c] (perm ![2, 0, 1, 3] (by decide)) (by funext i; fin_cases i <;> rfl)
  rw [h0, pull_quad ht (z := b) (u := c) hac.symm,
    pull_triple ht (z := c) hbc.symm,
    pull_pair_flat (t := t) c,
    wave_at (t := t) ![b, c, c] ![c, b, c] (perm ![1, 0, 2] (by decide)) (by funext i; fin_cases i <;> rfl),
    wave_at (t := t) ![a, b, c, c] ![c, a, b, c] (perm ![2, 0, 1, 3] (by decide)) (by funext i; fin_cases i <;> rfl),
    wave_quad ht (y := b) (z := c) hac,
    wave_triple ht (y := c) hbc,
    wave_triple ht (y := b) hac,
    wave_pair_flat (t := t) c,
    wave_pair ht hbc,
    wave_pair ht hab]
  have hT : (t * I : ℂ) ≠ 0 := mul_ne_zero (by exact_mod_cast ht) I_ne_zero
  have nab : (((a : ℝ) : ℂ) - (b : ℝ)) ≠ 0 := by rw [sub_ne_zero]; exact_mod_cast hab
  have nba : (((b : ℝ) : ℂ) - (a : ℝ)) ≠ 0 := by rw [sub_ne_zero]; exact_mod_cast hab.symm
  have nac : (((a : ℝ) : ℂ) - (c : ℝ)) ≠ 0 := by rw [sub_ne_zero]; exact_mod_cast hac
  have nca : (((c : ℝ) : ℂ) - (a : ℝ)) ≠ 0 := by rw [sub_ne_zero]; exact_mod_cast hac.symm
  have nbc : (((b : ℝ) : ℂ) - (c : ℝ)) ≠ 0 := by rw [sub_ne_zero]; exact_mod_cast hbc
  have ncb : (((c : ℝ) : ℂ) - (b : ℝ)) ≠ 0 := by rw [sub_ne_zero]; exact_mod_cast hbc.symm
  simp only [bump, List.map_cons, List.map_nil, List.sum_cons, List.sum_nil, Piece.prim]
  push_cast
  generalize (t * I : ℂ) = T at *
  generalize cexp (T * a) = ea
  generalize cexp (T * b) = eb
  generalize cexp (T * c) = ec
  generalize ((a : ℝ) : ℂ) = za at *
  generalize ((b : ℝ) : ℂ) = zb at *
  generalize ((c : ℝ) : ℂ) = zc at *
  field_simp
  ring

theorem case3_abcc_3 {t : ℝ} (ht : t ≠ 0) {a b c : ℝ} (hab : a ≠ b) (hac : a ≠ c) (hbc : b ≠ c) :
    (6 : ℂ) * pull t ![a, b, c, c] 3 = bump t [⟨a, b, 1 / (b - a) / (c - a) / (c - a) / (c - a), a, 1, a, 1, a⟩] + bump t [⟨b, c, 1 / (c - a) / ((c - b) * (b - c)) / (c - a), a, 1, b, 1, c⟩, ⟨b, c, 1 / (c - a) / ((c - a) * (b - c)) / (c - a), a, 1, a, 1, c⟩, ⟨b, c, 1 / ((c - b) * (b - c) * (c - b) * (c - a)), b, 1, c, 1, b⟩] := by
  have h0 : pull t ![a, b, c, c] 3 = pull t ![c, a, b, c] 0 :=
    pull_at (t := t) ![a, b, c, c] ![c, a, b, c] (perm ![3, 0, 1, 2] (by decide)) (by funext i; fin_cases i <;> rfl)
  rw [h0, pull_quad ht (z := b) (u := c) hac.symm,
    pull_triple ht (z := c) hbc.symm,
    pull_pair_flat (t := t) c,
    wave_at (t := t) ![b, c, c] ![c, b, c] (perm ![1, 0, 2] (by decide)) (by funext i; fin_cases i <;> rfl),
    wave_at (t := t) ![a, b, c, c] ![c, a, b, c] (perm ![2, 0, 1, 3] (by decide)) (by funext i; fin_cases i <;> rfl),
    wave_quad ht (y := b) (z := c) hac,
    wave_triple ht (y := c) hbc,
    wave_triple ht (y := b) hac,
    wave_pair_flat (t := t) c,
    wave_pair ht hbc,
    wave_pair ht hab]
  have hT : (t * I : ℂ) ≠ 0 := mul_ne_zero (by exact_mod_cast ht) I_ne_zero
  have nab : (((a : ℝ) : ℂ) - (b : ℝ)) ≠ 0 := by rw [sub_ne_zero]; exact_mod_cast hab
  have nba : (((b : ℝ) : ℂ) - (a : ℝ)) ≠ 0 := by rw [sub_ne_zero]; exact_mod_cast hab.symm
  have nac : (((a : ℝ) : ℂ) - (c : ℝ)) ≠ 0 := by rw [sub_ne_zero]; exact_mod_cast hac
  have nca : (((c : ℝ) : ℂ) - (a : ℝ)) ≠ 0 := by rw [sub_ne_zero]; exact_mod_cast hac.symm
  have nbc : (((b : ℝ) : ℂ) - (c : ℝ)) ≠ 0 := by rw [sub_ne_zero]; exact_mod_cast hbc
  have ncb : (((c : ℝ) : ℂ) - (b : ℝ)) ≠ 0 := by rw [sub_ne_zero]; exact_mod_cast hbc.symm
  simp only [bump, List.map_cons, List.map_nil, List.sum_cons, List.sum_nil, Piece.prim]
  push_cast
  generalize (t * I : ℂ) = T at *
  generalize cexp (T * a) = ea
  generalize cexp (T * b) = eb
  generalize cexp (T * c) = ec
  generalize ((a : ℝ) : ℂ) = za at *
  generalize ((b : ℝ) : ℂ) = zb at *
  generalize ((c : ℝ) : ℂ) = zc at *
  field_simp
  ring

end Interphon.Spec
