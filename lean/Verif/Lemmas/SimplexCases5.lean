import Verif.Lemmas.SimplexDensity
import Mathlib.Tactic.FinCases
import Mathlib.Tactic.FieldSimp

/-! # Closed forms of the interpolation density: tetrahedra with more equal corner values (generated by /verif/tools/gen_simplex.py) -/

noncomputable section

namespace Interphon.Spec
open MeasureTheory Set Complex

set_option maxHeartbeats 4000000
set_option linter.unusedVariables false

theorem case3_aacc_0 {t : ℝ} (ht : t ≠ 0) {a c : ℝ} (hac : a ≠ c) :
    (6 : ℂ) * pull t ![a, a, c, c] 0 = bump t [⟨a, c, 1 / (c - a) / ((c - a) * (a - c)) / (a - c), c, 1, a, 1, c⟩, ⟨a, c, 1 / (c - a) / ((c - a) * (a - c)) / (a - c), c, 1, a, 1, c⟩, ⟨a, c, 1 / ((a - c) * (c - a) * (a - c) * (c - a)), c, 1, a, 1, c⟩] := by
  have h0 : pull t ![a, a, c, c] 0 = pull t ![a, c, a, c] 0 :=
    pull_at (t := t) ![a, a, c, c] ![a, c, a, c] (perm ![0, 2, 1, 3] (by decide)) (by funext i; fin_cases i <;> rfl)
  rw [h0, pull_quad ht (z := a) (u := c) hac,
    pull_132 (t := t) a c a,
    pull_triple ht (z := a) hac,
    pull_pair_flat (t := t) a,
    wave_at (t := t) ![a, a, c] ![a, c, a] (perm ![0, 2, 1] (by decide)) (by funext i; fin_cases i <;> rfl),
    wave_at (t := t) ![a, a, c, c] ![a, c, a, c] (perm ![0, 2, 1, 3] (by decide)) (by funext i; fin_cases i <;> rfl),
    wave_quad ht (y := a) (z := c) hac,
    wave_triple ht (y := a) hac,
    wave_triple ht (y := c) hac,
    wave_pair ht hac,
    wave_pair_flat (t := t) a,
    wave_pair_flat (t := t) c]
  have hT : (t * I : ℂ) ≠ 0 := mul_ne_zero (by exact_mod_cast ht) I_ne_zero
  have nac : (((a : ℝ) : ℂ) - (c : ℝ)) ≠ 0 := by rw [sub_ne_zero]; exact_mod_cast hac
  have nca : (((c : ℝ) : ℂ) - (a : ℝ)) ≠ 0 := by rw [sub_ne_zero]; exact_mod_cast hac.symm
  simp only [bump, List.map_cons, List.map_nil, List.sum_cons, List.sum_nil, Piece.prim]
  push_cast
  generalize (t * I : ℂ) = T at *
  generalize cexp (T * a) = ea
  generalize cexp (T * c) = ec
  generalize ((a : ℝ) : ℂ) = za at *
  generalize ((c : ℝ) : ℂ) = zc at *
  field_simp
  ring

theorem case3_aacc_1 {t : ℝ} (ht : t ≠ 0) {a c : ℝ} (hac : a ≠ c) :
    (6 : ℂ) * pull t ![a, a, c, c] 1 = bump t [⟨a, c, 1 / (c - a) / ((c - a) * (a - c)) / (a - c), c, 1, a, 1, c⟩, ⟨a, c, 1 / (c - a) / ((c - a) * (a - c)) / (a - c), c, 1, a, 1, c⟩, ⟨a, c, 1 / ((a - c) * (a - c) * (c - a) * (c - a)), c, 1, c, 1, a⟩] := by
  have h0 : pull t ![a, a, c, c] 1 = pull t ![a, c, a, c] 0 :=
    pull_at (t := t) ![a, a, c, c] ![a, c, a, c] (perm ![1, 2, 0, 3] (by decide)) (by funext i; fin_cases i <;> rfl)
  rw [h0, pull_quad ht (z := a) (u := c) hac,
    pull_132 (t := t) a c a,
    pull_triple ht (z := a) hac,
    pull_pair_flat (t := t) a,
    wave_at (t := t) ![a, a, c] ![a, c, a] (perm ![0, 2, 1] (by decide)) (by funext i; fin_cases i <;> rfl),
    wave_at (t := t) ![a, a, c, c] ![a, c, a, c] (perm ![0, 2, 1, 3] (by decide)) (by funext i; fin_cases i <;> rfl),
    wave_quad ht (y := a) (z := c) hac,
    wave_triple ht (y := a) hac,
    wave_triple ht (y := c) hac,
    wave_pair ht hac,
    wave_pair_flat (t := t) a,
    wave_pair_flat (t := t) c]
  have hT : (t * I : ℂ) ≠ 0 := mul_ne_zero (by exact_mod_cast ht) I_ne_zero
  have nac : (((a : ℝ) : ℂ) - (c : ℝ)) ≠ 0 := by rw [sub_ne_zero]; exact_mod_cast hac
  have nca : (((c : ℝ) : ℂ) - (a : ℝ)) ≠ 0 := by rw [sub_ne_zero]; exact_mod_cast hac.symm
  simp only [bump, List.map_cons, List.map_nil, List.sum_cons, List.sum_nil, Piece.prim]
  push_cast
  generalize (t * I : ℂ) = T at *
  generalize cexp (T * a) = ea
  generalize cexp (T * c) = ec
  generalize ((a : ℝ) : ℂ) = za at *
  generalize ((c : ℝ) : ℂ) = zc at *
  field_simp
  ring

theorem case3_aacc_2 {t : ℝ} (ht : t ≠ 0) {a c : ℝ} (hac : a ≠ c) :
    (6 : ℂ) * pull t ![a, a, c, c] 2 = bump t [⟨a, c, 1 / (c - a) / ((c - a) * (a - c)) / (c - a), a, 1, a, 1, c⟩, ⟨a, c, 1 / (c - a) / ((c - a) * (a - c)) / (c - a), a, 1, a, 1, c⟩, ⟨a, c, 1 / ((c - a) * (c - a) * (a - c) * (c - a)), a, 1, a, 1, c⟩] := by
  have h0 : pull t ![a, a, c, c] 2 = pull t ![c, a, a, c] 0 :=
    pull_at (t := t) ![a, a, c, c] ![c, a, a, c] (perm ![2, 0, 1, 3] (by decide)) (by funext i; fin_cases i <;> rfl)
  rw [h0, pull_quad ht (z := a) (u := c) hac.symm,
    pull_triple ht (z := c) hac.symm,
    pull_pair_flat (t := t) c,
    wave_at (t := t) ![a, c, c] ![c, a, c] (perm ![1, 0, 2] (by decide)) (by funext i; fin_cases i <;> rfl),
    wave_at (t := t) ![a, a, c, c] ![c, a, a, c] (perm ![2, 0, 1, 3] (by decide)) (by funext i; fin_cases i <;> rfl),
    wave_quad ht (y := a) (z := c) hac,
    wave_triple ht (y := c) hac,
    wave_triple ht (y := a) hac,
    wave_pair_flat (t := t) c,
    wave_pair ht hac,
    wave_pair_flat (t := t) a]
  have hT : (t * I : ℂ) ≠ 0 := mul_ne_zero (by exact_mod_cast ht) I_ne_zero
  have nac : (((a : ℝ) : ℂ) - (c : ℝ)) ≠ 0 := by rw [sub_ne_zero]; exact_mod_cast hac
  have nca : (((c : ℝ) : ℂ) - (a : ℝ)) ≠ 0 := by rw [sub_ne_zero]; exact_mod_cast hac.symm
  simp only [bump, List.map_cons, List.map_nil, List.sum_cons, List.sum_nil, Piece.prim]
  push_cast
  generalize (t * I : ℂ) = T at *
  generalize cexp (T * a) = ea
  generalize cexp (T * c) = ec
  generalize ((a : ℝ) : ℂ) = za at *
  generalize ((c : ℝ) : ℂ) = zc at *
  field_simp
  ring

theorem case3_aacc_3 {t : ℝ} (ht : t ≠ 0) {a c : ℝ} (hac : a ≠ c) :
    (6 : ℂ) * pull t ![a, a, c, c] 3 = bump t [⟨a, c, 1 / (c - a) / ((c - a) * (a - c)) / (c - a), a, 1, a, 1, c⟩, ⟨a, c, 1 / (c - a) / ((c - a) * (a - c)) / (c - a), a, 1, a, 1, c⟩, ⟨a, c, 1 / ((c - a) * (a - c) * (c - a) * (c - a)), a, 1, c, 1, a⟩] := by
  have h0 : pull t ![a, a, c, c] 3 = pull t ![c, a, a, c] 0 :=
    pull_at (t := t) ![a, a, c, c] ![c, a, a, c] (perm ![3, 0, 1, 2] (by decide)) (by funext i; fin_cases i <;> rfl)
  rw [h0, pull_quad ht (z := a) (u := c) hac.symm,
    pull_triple ht (z := c) hac.symm,
    pull_pair_flat (t := t) c,
    wave_at (t := t) ![a, c, c] ![c, a, c] (perm ![1, 0, 2] (by decide)) (by funext i; fin_cases i <;> rfl),
    wave_at (t := t) ![a, a, c, c] ![c, a, a, c] (perm ![2, 0, 1, 3] (by decide)) (by funext i; fin_cases i <;> rfl),
    wave_quad ht (y := a) (z := c) hac,
    wave_triple ht (y := c) hac,
    wave_triple ht (y := a) hac,
    wave_pair_flat (t := t) c,
    wave_pair ht hac,
    wave_pair_flat (t := t) a]
  have hT : (t * I : ℂ) ≠ 0 := mul_ne_zero (by exact_mod_cast ht) I_ne_zero
  have nac : (((a : ℝ) : ℂ) - (c : ℝ)) ≠ 0 := by rw [sub_ne_zero]; exact_mod_cast hac
  have nca : (((c : ℝ) : ℂ) - (a : ℝ)) ≠ 0 := by rw [sub_ne_zero]; exact_mod_cast hac.symm
  simp only [bump, List.map_cons, List.map_nil, List.sum_cons, List.sum_nil, Piece.prim]
  push_cast
  generalize (t * I : ℂ) = T at *
  generalize cexp (T * a) = ea
  generalize cexp (T * c) = ec
  generalize ((a : ℝ) : ℂ) = za at *
  generalize ((c : ℝ) : ℂ) = zc at *
  field_simp
  ring

theorem case3_aaad_0 {t : ℝ} (ht : t ≠ 0) {a d : ℝ} (had : a ≠ d) :
    (6 : ℂ) * pull t ![a, a, a, d] 0 = bump t [⟨a, d, 1 / (d - a) / (d - a) / (d - a) / (a - d), d, 1, d, 1, d⟩] := by
  have h0 : pull t ![a, a, a, d] 0 = pull t ![a, d, a, a] 0 :=
    pull_at (t := t) ![a, a, a, d] ![a, d, a, a] (perm ![0, 3, 1, 2] (by decide)) (by funext i; fin_cases i <;> rfl)
  rw [h0, pull_quad ht (z := a) (u := a) had,
    pull_triple_flat (t := t) a,
    wave_at (t := t) ![a, a, a, d] ![a, d, a, a] (perm ![0, 3, 1, 2] (by decide)) (by funext i; fin_cases i <;> rfl),
    wave_quad ht (y := a) (z := a) had,
    wave_triple ht (y := a) had,
    wave_triple_flat (t := t) a,
    wave_pair ht had,
    wave_pair_flat (t := t) a]
  have hT : (t * I : ℂ) ≠ 0 := mul_ne_zero (by exact_mod_cast ht) I_ne_zero
  have nad : (((a : ℝ) : ℂ) - (d : ℝ)) ≠ 0 := by rw [sub_ne_zero]; exact_mod_cast had
  have nda : (((d : ℝ) : ℂ) - (a : ℝ)) ≠ 0 := by rw [sub_ne_zero]; exact_mod_cast had.symm
  simp only [bump, List.map_cons, List.map_nil, List.sum_cons, List.sum_nil, Piece.prim]
  push_cast
  generalize (t * I : ℂ) = T at *
  generalize cexp (T * a) = ea
  generalize cexp (T * d) = ed
  generalize ((a : ℝ) : ℂ) = za at *
  generalize ((d : ℝ) : ℂ) = zd at *
  field_simp
  ring

theorem case3_aaad_1 {t : ℝ} (ht : t ≠ 0) {a d : ℝ} (had : a ≠ d) :
    (6 : ℂ) * pull t ![a, a, a, d] 1 = bump t [⟨a, d, 1 / (d - a) / (d - a) / (d - a) / (a - d), d, 1, d, 1, d⟩] := by
  have h0 : pull t ![a, a, a, d] 1 = pull t ![a, d, a, a] 0 :=
    pull_at (t := t) ![a, a, a, d] ![a, d, a, a] (perm ![1, 3, 0, 2] (by decide)) (by funext i; fin_cases i <;> rfl)
  rw [h0, pull_quad ht (z := a) (u := a) had,
    pull_triple_flat (t := t) a,
    wave_at (t := t) ![a, a, a, d] ![a, d, a, a] (perm ![0, 3, 1, 2] (by decide)) (by funext i; fin_cases i <;> rfl),
    wave_quad ht (y := a) (z := a) had,
    wave_triple ht (y := a) had,
    wave_triple_flat (t := t) a,
    wave_pair ht had,
    wave_pair_flat (t := t) a]
  have hT : (t * I : ℂ) ≠ 0 := mul_ne_zero (by exact_mod_cast ht) I_ne_zero
  have nad : (((a : ℝ) : ℂ) - (d : ℝ)) ≠ 0 := by rw [sub_ne_zero]; exact_mod_cast had
  have nda : (((d : ℝ) : ℂ) - (a : ℝ)) ≠ 0 := by rw [sub_ne_zero]; exact_mod_cast had.symm
  simp only [bump, List.map_cons, List.map_nil, List.sum_cons, List.sum_nil, Piece.prim]
  push_cast
  generalize (t * I : ℂ) = T at *
  generalize cexp (T * a) = ea
  generalize cexp (T * d) = ed
  generalize ((a : ℝ) : ℂ) = za at *
  generalize ((d : ℝ) : ℂ) = zd at *
  field_simp
  ring

theorem case3_aaad_2 {t : ℝ} (ht : t ≠ 0) {a d : ℝ} (had : a ≠ d) :
    (6 : ℂ) * pull t ![a, a, a, d] 2 = bump t [⟨a, d, 1 / (d - a) / (d - a) / (d - a) / (a - d), d, 1, d, 1, d⟩] := by
  have h0 : pull t ![a, a, a, d] 2 = pull t ![a, d, a, a] 0 :=
    pull_at (t := t) ![a, a, a, d] ![a, d, a, a] (perm ![2, 3, 0, 1] (by decide)) (by funext i; fin_cases i <;> rfl)
  rw [h0, pull_quad ht (z := a) (u := a) had,
    pull_triple_flat (t := t) a,
    wave_at (t := t) ![a, a, a, d] ![a, d, a, a] (perm ![0, 3, 1, 2] (by decide)) (by funext i; fin_cases i <;> rfl),
    wave_quad ht (y := a) (z := a) had,
    wave_triple ht (y := a) had,
    wave_triple_flat (t := t) a,
    wave_pair ht had,
    wave_pair_flat (t := t) a]
  have hT : (t * I : ℂ) ≠ 0 := mul_ne_zero (by exact_mod_cast ht) I_ne_zero
  have nad : (((a : ℝ) : ℂ) - (d : ℝ)) ≠ 0 := by rw [sub_ne_zero]; exact_mod_cast had
  have nda : (((d : ℝ) : ℂ) - (a : ℝ)) ≠ 0 := by rw [sub_ne_zero]; exact_mod_cast had.symm
  simp only [bump, List.map_cons, List.map_nil, List.sum_cons, List.sum_nil, Piece.prim]
  push_cast
  generalize (t * I : ℂ) = T at *
  generalize cexp (T * a) = ea
  generalize cexp (T * d) = ed
  generalize ((a : ℝ) : ℂ) = za at *
  generalize ((d : ℝ) : ℂ) = zd at *
  field_simp
  ring

theorem case3_aaad_3 {t : ℝ} (ht : t ≠ 0) {a d : ℝ} (had : a ≠ d) :
    (6 : ℂ) * pull t ![a, a, a, d] 3 = bump t [⟨a, d, 1 / (d - a) / (d - a) / (d - a) / (d - a), d, 1, d, 1, a⟩, ⟨a, d, 1 / (d - a) / (d - a) / (d - a) / (d - a), d, 1, d, 1, a⟩, ⟨a, d, 1 / (d - a) / (d - a) / (d - a) / (d - a), d, 1, d, 1, a⟩] := by
  have h0 : pull t ![a, a, a, d] 3 = pull t ![d, a, a, a] 0 :=
    pull_at (t := t) ![a, a, a, d] ![d, a, a, a] (perm ![3, 0, 1, 2] (by decide)) (by funext i; fin_cases i <;> rfl)
  rw [h0, pull_quad ht (z := a) (u := a) had.symm,
    pull_triple ht (z := a) had.symm,
    pull_pair ht had.symm,
    wave_at (t := t) ![a, d] ![d, a] (perm ![1, 0] (by decide)) (by funext i; fin_cases i <;> rfl),
    wave_at (t := t) ![a, a, d] ![d, a, a] (perm ![2, 0, 1] (by decide)) (by funext i; fin_cases i <;> rfl),
    wave_at (t := t) ![a, a, a, d] ![d, a, a, a] (perm ![3, 0, 1, 2] (by decide)) (by funext i; fin_cases i <;> rfl),
    wave_quad ht (y := a) (z := a) had,
    wave_triple ht (y := a) had,
    wave_triple_flat (t := t) a,
    wave_pair ht had,
    wave_pair_flat (t := t) a]
  have hT : (t * I : ℂ) ≠ 0 := mul_ne_zero (by exact_mod_cast ht) I_ne_zero
  have nad : (((a : ℝ) : ℂ) - (d : ℝ)) ≠ 0 := by rw [sub_ne_zero]; exact_mod_cast had
  have nda : (((d : ℝ) : ℂ) - (a : ℝ)) ≠ 0 := by rw [sub_ne_zero]; exact_mod_cast had.symm
  simp only [bump, List.map_cons, List.map_nil, List.sum_cons, List.sum_nil, Piece.prim]
  push_cast
  generalize (t * I : ℂ) = T at *
  generalize cexp (T * a) = ea
  generalize cexp (T * d) = ed
  generalize ((a : ℝ) : ℂ) = za at *
  generalize ((d : ℝ) : ℂ) = zd at *
  field_simp
  ring

theorem case3_abbb_0 {t : ℝ} (ht : t ≠ 0) {a b : ℝ} (hab : a ≠ b) :
    (6 : ℂ) * pull t ![a, b, b, b] 0 = bump t [⟨a, b, 1 / (b - a) / (b - a) / (b - a) / (a - b), a, 1, a, 1, b⟩, ⟨a, b, 1 / (b - a) / (b - a) / (b - a) / (a - b), a, 1, a, 1, b⟩, ⟨a, b, 1 / (b - a) / (b - a) / (b - a) / (a - b), a, 1, a, 1, b⟩] := by
  have h0 : pull t ![a, b, b, b] 0 = pull t ![a, b, b, b] 0 :=
    pull_at (t := t) ![a, b, b, b] ![a, b, b, b] (perm ![0, 1, 2, 3] (by decide)) (by funext i; fin_cases i <;> rfl)
  rw [h0, pull_quad ht (z := b) (u := b) hab,
    pull_triple ht (z := b) hab,
    pull_pair ht hab,
    wave_quad ht (y := b) (z := b) hab,
    wave_triple ht (y := b) hab,
    wave_triple_flat (t := t) b,
    wave_pair ht hab,
    wave_pair_flat (t := t) b]
  have hT : (t * I : ℂ) ≠ 0 := mul_ne_zero (by exact_mod_cast ht) I_ne_zero
  have nab : (((a : ℝ) : ℂ) - (b : ℝ)) ≠ 0 := by rw [sub_ne_zero]; exact_mod_cast hab
  have nba : (((b : ℝ) : ℂ) - (a : ℝ)) ≠ 0 := by rw [sub_ne_zero]; exact_mod_cast hab.symm
  simp only [bump, List.map_cons, List.map_nil, List.sum_cons, List.sum_nil, Piece.prim]
  push_cast
  generalize (t * I : ℂ) = T at *
  generalize cexp (T * a) = ea
  generalize cexp (T * b) = eb
  generalize ((a : ℝ) : ℂ) = za at *
  generalize ((b : ℝ) : ℂ) = zb at *
  field_simp
  ring

theorem case3_abbb_1 {t : ℝ} (ht : t ≠ 0) {a b : ℝ} (hab : a ≠ b) :
    (6 : ℂ) * pull t ![a, b, b, b] 1 = bump t [⟨a, b, 1 / (b - a) / (b - a) / (b - a) / (b - a), a, 1, a, 1, a⟩] := by
  have h0 : pull t ![a, b, b, b] 1 = pull t ![b, a, b, b] 0 :=
    pull_at (t := t) ![a, b, b, b] ![b, a, b, b] (perm ![1, 0, 2, 3] (by decide)) (by funext i; fin_cases i <;> rfl)
  rw [h0, pull_quad ht (z := b) (u := b) hab.symm,
    pull_triple_flat (t := t) b,
    wave_at (t := t) ![a, b, b, b] ![b, a, b, b] (perm ![1, 0, 2, 3] (by decide)) (by funext i; fin_cases i <;> rfl),
    wave_quad ht (y := b) (z := b) hab,
    wave_triple_flat (t := t) b,
    wave_triple ht (y := b) hab,
    wave_pair_flat (t := t) b,
    wave_pair ht hab]
  have hT : (t * I : ℂ) ≠ 0 := mul_ne_zero (by exact_mod_cast ht) I_ne_zero
  have nab : (((a : ℝ) : ℂ) - (b : ℝ)) ≠ 0 := by rw [sub_ne_zero]; exact_mod_cast hab
  have nba : (((b : ℝ) : ℂ) - (a : ℝ)) ≠ 0 := by rw [sub_ne_zero]; exact_mod_cast hab.symm
  simp only [bump, List.map_cons, List.map_nil, List.sum_cons, List.sum_nil, Piece.prim]
  push_cast
  generalize (t * I : ℂ) = T at *
  generalize cexp (T * a) = ea
  generalize cexp (T * b) = eb
  generalize ((a : ℝ) : ℂ) = za at *
  generalize ((b : ℝ) : ℂ) = zb at *
  field_simp
  ring

theorem case3_abbb_2 {t : ℝ} (ht : t ≠ 0) {a b : ℝ} (hab : a ≠ b) :
    (6 : ℂ) * pull t ![a, b, b, b] 2 = bump t [⟨a, b, 1 / (b - a) / (b - a) / (b - a) / (b - a), a, 1, a, 1, a⟩] := by
  have h0 : pull t ![a, b, b, b] 2 = pull t ![b, a, b, b] 0 :=
    pull_at (t := t) ![a, b, b, b] ![b, a, b, b] (perm ![2, 0, 1, 3] (by decide)) (by funext i; fin_cases i <;> rfl)
  rw [h0, pull_quad ht (z := b) (u := b) hab.symm,
    pull_triple_flat (t := t) b,
    wave_at (t := t) ![a, b, b, b] ![b, a, b, b] (perm ![1, 0, 2, 3] (by decide)) (by funext i; fin_cases i <;> rfl),
    wave_quad ht (y := b) (z := b) hab,
    wave_triple_flat (t := t) b,
    wave_triple ht (y := b) hab,
    wave_pair_flat (t := t) b,
    wave_pair ht hab]
  have hT : (t * I : ℂ) ≠ 0 := mul_ne_zero (by exact_mod_cast ht) I_ne_zero
  have nab : (((a : ℝ) : ℂ) - (b : ℝ)) ≠ 0 := by rw [sub_ne_zero]; exact_mod_cast hab
  have nba : (((b : ℝ) : ℂ) - (a : ℝ)) ≠ 0 := by rw [sub_ne_zero]; exact_mod_cast hab.symm
  simp only [bump, List.map_cons, List.map_nil, List.sum_cons, List.sum_nil, Piece.prim]
  push_cast
  generalize (t * I : ℂ) = T at *
  generalize cexp (T * a) = ea
  generalize cexp (T * b) = eb
  generalize ((a : ℝ) : ℂ) = za at *
  generalize ((b : ℝ) : ℂ) = zb at *
  field_simp
  ring

theorem case3_abbb_3 {t : ℝ} (ht : t ≠ 0) {a b : ℝ} (hab : a ≠ b) :
    (6 : ℂ) * pull t ![a, b, b, b] 3 = bump t [⟨a, b, 1 / (b - a) / (b - a) / (b - a) / (b - a), a, 1, a, 1, a⟩] := by
  have h0 : pull t ![a, b, b, b] 3 = pull t ![b, a, b, b] 0 :=
    pull_at (t := t) ![a, b, b, b] ![b, a, b, b] (perm ![3, 0, 1, 2] (by decide)) (by funext i; fin_cases i <;> rfl)
  rw [h0, pull_quad ht (z := b) (u := b) hab.symm,
    pull_triple_flat (t := t) b,
    wave_at (t := t) ![a, b, b, b] ![b, a, b, b] (perm ![1, 0, 2, 3] (by decide)) (by funext i; fin_cases i <;> rfl),
    wave_quad ht (y := b) (z := b) hab,
    wave_triple_flat (t := t) b,
    wave_triple ht (y := b) hab,
    wave_pair_flat (t := t) b,
    wave_pair ht hab]
  have hT : (t * I : ℂ) ≠ 0 := mul_ne_zero (by exact_mod_cast ht) I_ne_zero
  have nab : (((a : ℝ) : ℂ) - (b : ℝ)) ≠ 0 := by rw [sub_ne_zero]; exact_mod_cast hab
  have nba : (((b : ℝ) : ℂ) - (a : ℝ)) ≠ 0 := by rw [sub_ne_zero]; exact_mod_cast hab.symm
  simp only [bump, List.map_cons, List.map_nil, List.sum_cons, List.sum_nil, Piece.prim]
  push_cast
  generalize (t * I : ℂ) = T at *
  generalize cexp (T * a) = ea
  generalize cexp (T * b) = eb
  generalize ((a : ℝ) : ℂ) = za at *
  generalize ((b : ℝ) : ℂ) = zb at *
  field_simp
  ring

end Interphon.Spec
