import Verif.Lemmas.SimplexCases1
import Verif.Lemmas.SimplexCases2
import Verif.Lemmas.SimplexCases3
import Verif.Lemmas.SimplexCases4
import Verif.Lemmas.SimplexCases5

/-! # Closed forms of the interpolation density: all cases (generated by /verif/tools/gen_simplex.py) -/

noncomputable section

namespace Interphon.Spec
open MeasureTheory Set Complex

set_option maxHeartbeats 4000000
set_option linter.unusedVariables false

/-- The pieces of the density weighted by corner 0 (1-D). -/
def cuts1_0 (a b : ℝ) : List Piece :=
  [⟨a, b, 1 / (b - a) / (a - b), b, 0, -1, 0, -1⟩]

theorem all1_0 {t : ℝ} (ht : t ≠ 0) {a b : ℝ} (ab : a ≤ b) (hlt : a < b) :
    (1 : ℂ) * pull t ![a, b] 0 = bump t (cuts1_0 a b) := by
  unfold cuts1_0
  have r := case1_ab_0 ht (a := a) (b := b) (by intro hh; linarith)
  linear_combination r

/-- The pieces of the density weighted by corner 1 (1-D). -/
def cuts1_1 (a b : ℝ) : List Piece :=
  [⟨a, b, 1 / (b - a) / (b - a), a, 0, -1, 0, -1⟩]

theorem all1_1 {t : ℝ} (ht : t ≠ 0) {a b : ℝ} (ab : a ≤ b) (hlt : a < b) :
    (1 : ℂ) * pull t ![a, b] 1 = bump t (cuts1_1 a b) := by
  unfold cuts1_1
  have r := case1_ab_1 ht (a := a) (b := b) (by intro hh; linarith)
  linear_combination r

/-- The pieces of the density weighted by corner 0 (2-D). -/
def cuts2_0 (a b c : ℝ) : List Piece :=
  [⟨a, b, 1 / (b - a) / (c - a) / (a - b), a, 1, b, 0, -1⟩, ⟨a, b, 1 / (b - a) / (c - a) / (a - c), a, 1, c, 0, -1⟩] ++ ([⟨b, c, -1 / (c - b) / (c - a) / (a - c), c, 1, c, 0, -1⟩])

theorem all2_0 {t : ℝ} (ht : t ≠ 0) {a b c : ℝ} (ab : a ≤ b) (bc : b ≤ c) (hlt : a < c) :
    (2 : ℂ) * pull t ![a, b, c] 0 = bump t (cuts2_0 a b c) := by
  unfold cuts2_0
  simp only [bump_append]
  rcases ab.eq_or_lt with e0 | e0
  · subst e0
    rcases bc.eq_or_lt with e1 | e1
    · subst e1
      exact absurd hlt (lt_irrefl _)
    ·
      have q0 := bump_empty t [⟨a, a, 1 / (a - a) / (c - a) / (a - a), a, 1, a, 0, -1⟩, ⟨a, a, 1 / (a - a) / (c - a) / (a - c), a, 1, c, 0, -1⟩] (by simp)
      rw [q0]
      have r := case2_aac_0 ht (a := a) (c := c) (by intro hh; linarith)
      linear_combination r
  ·
    rcases bc.eq_or_lt with e1 | e1
    · subst e1
      have q1 := bump_empty t [⟨b, b, -1 / (b - b) / (b - a) / (a - b), b, 1, b, 0, -1⟩] (by simp)
      rw [q1]
      have r := case2_abb_0 ht (a := a) (b := b) (by intro hh; linarith)
      linear_combination r
    ·
      have r := case2_abc_0 ht (a := a) (b := b) (c := c) (by intro hh; linarith) (by intro hh; linarith) (by intro hh; linarith)
      linear_combination r

/-- The pieces of the density weighted by corner 1 (2-D). -/
def cuts2_1 (a b c : ℝ) : List Piece :=
  [⟨a, b, 1 / (b - a) / (c - a) / (b - a), a, 1, a, 0, -1⟩] ++ ([⟨b, c, -1 / (c - b) / (c - a) / (b - c), c, 1, c, 0, -1⟩])

theorem all2_1 {t : ℝ} (ht : t ≠ 0) {a b c : ℝ} (ab : a ≤ b) (bc : b ≤ c) (hlt : a < c) :
    (2 : ℂ) * pull t ![a, b, c] 1 = bump t (cuts2_1 a b c) := by
  unfold cuts2_1
  simp only [bump_append]
  rcases ab.eq_or_lt with e0 | e0
  · subst e0
    rcases bc.eq_or_lt with e1 | e1
    · subst e1
      exact absurd hlt (lt_irrefl _)
    ·
      have q0 := bump_empty t [⟨a, a, 1 / (a - a) / (c - a) / (a - a), a, 1, a, 0, -1⟩] (by simp)
      rw [q0]
      have r := case2_aac_1 ht (a := a) (c := c) (by intro hh; linarith)
      linear_combination r
  ·
    rcases bc.eq_or_lt with e1 | e1
    · subst e1
      have q1 := bump_empty t [⟨b, b, -1 / (b - b) / (b - a) / (b - b), b, 1, b, 0, -1⟩] (by simp)
      rw [q1]
      have r := case2_abb_1 ht (a := a) (b := b) (by intro hh; linarith)
      linear_combination r
    ·
      have r := case2_abc_1 ht (a := a) (b := b) (c := c) (by intro hh; linarith) (by intro hh; linarith) (by intro hh; linarith)
      linear_combination r

/-- The pieces of the density weighted by corner 2 (2-D). -/
def cuts2_2 (a b c : ℝ) : List Piece :=
  [⟨a, b, 1 / (b - a) / (c - a) / (c - a), a, 1, a, 0, -1⟩] ++ ([⟨b, c, -1 / (c - b) / (c - a) / (c - a), c, 1, a, 0, -1⟩, ⟨b, c, -1 / (c - b) / (c - a) / (c - b), c, 1, b, 0, -1⟩])

theorem all2_2 {t : ℝ} (ht : t ≠ 0) {a b c : ℝ} (ab : a ≤ b) (bc : b ≤ c) (hlt : a < c) :
    (2 : ℂ) * pull t ![a, b, c] 2 = bump t (cuts2_2 a b c) := by
  unfold cuts2_2
  simp only [bump_append]
  rcases ab.eq_or_lt with e0 | e0
  · subst e0
    rcases bc.eq_or_lt with e1 | e1
    · subst e1
      exact absurd hlt (lt_irrefl _)
    ·
      have q0 := bump_empty t [⟨a, a, 1 / (a - a) / (c - a) / (c - a), a, 1, a, 0, -1⟩] (by simp)
      rw [q0]
      have r := case2_aac_2 ht (a := a) (c := c) (by intro hh; linarith)
      linear_combination r
  ·
    rcases bc.eq_or_lt with e1 | e1
    · subst e1
      have q1 := bump_empty t [⟨b, b, -1 / (b - b) / (b - a) / (b - a), b, 1, a, 0, -1⟩, ⟨b, b, -1 / (b - b) / (b - a) / (b - b), b, 1, b, 0, -1⟩] (by simp)
      rw [q1]
      have r := case2_abb_2 ht (a := a) (b := b) (by intro hh; linarith)
      linear_combination r
    ·
      have r := case2_abc_2 ht (a := a) (b := b) (c := c) (by intro hh; linarith) (by intro hh; linarith) (by intro hh; linarith)
      linear_combination r

/-- The pieces of the density weighted by corner 0 (3-D). -/
def cuts3_0 (a b c d : ℝ) : List Piece :=
  [⟨a, b, 1 / (b - a) / (c - a) / (d - a) / (a - b), a, 1, a, 1, b⟩, ⟨a, b, 1 / (b - a) / (c - a) / (d - a) / (a - c), a, 1, a, 1, c⟩, ⟨a, b, 1 / (b - a) / (c - a) / (d - a) / (a - d), a, 1, a, 1, d⟩] ++ ([⟨b, c, 1 / (d - a) / ((c - b) * (b - d)) / (a - d), d, 1, b, 1, d⟩, ⟨b, c, 1 / (d - a) / ((c - a) * (b - c)) / (a - d), d, 1, a, 1, c⟩, ⟨b, c, 1 / ((a - c) * (c - a) * (b - c) * (d - a)), c, 1, a, 1, c⟩] ++ ([⟨c, d, 1 / (d - a) / (d - b) / (d - c) / (a - d), d, 1, d, 1, d⟩]))

theorem all3_0 {t : ℝ} (ht : t ≠ 0) {a b c d : ℝ} (ab : a ≤ b) (bc : b ≤ c) (cd : c ≤ d) (hlt : a < d) :
    (6 : ℂ) * pull t ![a, b, c, d] 0 = bump t (cuts3_0 a b c d) := by
  unfold cuts3_0
  simp only [bump_append]
  rcases ab.eq_or_lt with e0 | e0
  · subst e0
    rcases bc.eq_or_lt with e1 | e1
    · subst e1
      rcases cd.eq_or_lt with e2 | e2
      · subst e2
        exact absurd hlt (lt_irrefl _)
      ·
        have q0 := bump_empty t [⟨a, a, 1 / (a - a) / (a - a) / (d - a) / (a - a), a, 1, a, 1, a⟩, ⟨a, a, 1 / (a - a) / (a - a) / (d - a) / (a - a), a, 1, a, 1, a⟩, ⟨a, a, 1 / (a - a) / (a - a) / (d - a) / (a - d), a, 1, a, 1, d⟩] (by simp)
        have q1 := bump_empty t [⟨a, a, 1 / (d - a) / ((a - a) * (a - d)) / (a - d), d, 1, a, 1, d⟩, ⟨a, a, 1 / (d - a) / ((a - a) * (a - a)) / (a - d), d, 1, a, 1, a⟩, ⟨a, a, 1 / ((a - a) * (a - a) * (a - a) * (d - a)), a, 1, a, 1, a⟩] (by simp)
        rw [q0, q1]
        have r := case3_aaad_0 ht (a := a) (d := d) (by intro hh; linarith)
        linear_combination r
    ·
      rcases cd.eq_or_lt with e2 | e2
      · subst e2
        have q0 := bump_empty t [⟨a, a, 1 / (a - a) / (c - a) / (c - a) / (a - a), a, 1, a, 1, a⟩, ⟨a, a, 1 / (a - a) / (c - a) / (c - a) / (a - c), a, 1, a, 1, c⟩, ⟨a, a, 1 / (a - a) / (c - a) / (c - a) / (a - c), a, 1, a, 1, c⟩] (by simp)
        have q2 := bump_empty t [⟨c, c, 1 / (c - a) / (c - a) / (c - c) / (a - c), c, 1, c, 1, c⟩] (by simp)
        rw [q0, q2]
        have r := case3_aacc_0 ht (a := a) (c := c) (by intro hh; linarith)
        linear_combination r
      ·
        have q0 := bump_empty t [⟨a, a, 1 / (a - a) / (c - a) / (d - a) / (a - a), a, 1, a, 1, a⟩, ⟨a, a, 1 / (a - a) / (c - a) / (d - a) / (a - c), a, 1, a, 1, c⟩, ⟨a, a, 1 / (a - a) / (c - a) / (d - a) / (a - d), a, 1, a, 1, d⟩] (by simp)
        rw [q0]
        have r := case3_aacd_0 ht (a := a) (c := c) (d := d) (by intro hh; linarith) (by intro hh; linarith) (by intro hh; linarith)
        linear_combination r
  ·
    rcases bc.eq_or_lt with e1 | e1
    · subst e1
      rcases cd.eq_or_lt with e2 | e2
      · subst e2
        have q1 := bump_empty t [⟨b, b, 1 / (b - a) / ((b - b) * (b - b)) / (a - b), b, 1, b, 1, b⟩, ⟨b, b, 1 / (b - a) / ((b - a) * (b - b)) / (a - b), b, 1, a, 1, b⟩, ⟨b, b, 1 / ((a - b) * (b - a) * (b - b) * (b - a)), b, 1, a, 1, b⟩] (by simp)
        have q2 := bump_empty t [⟨b, b, 1 / (b - a) / (b - b) / (b - b) / (a - b), b, 1, b, 1, b⟩] (by simp)
        rw [q1, q2]
        have r := case3_abbb_0 ht (a := a) (b := b) (by intro hh; linarith)
        linear_combination r
      ·
        have q1 := bump_empty t [⟨b, b, 1 / (d - a) / ((b - b) * (b - d)) / (a - d), d, 1, b, 1, d⟩, ⟨b, b, 1 / (d - a) / ((b - a) * (b - b)) / (a - d), d, 1, a, 1, b⟩, ⟨b, b, 1 / ((a - b) * (b - a) * (b - b) * (d - a)), b, 1, a, 1, b⟩] (by simp)
        rw [q1]
        have r := case3_abbd_0 ht (a := a) (b := b) (d := d) (by intro hh; linarith) (by intro hh; linarith) (by intro hh; linarith)
        linear_combination r
    ·
      rcases cd.eq_or_lt with e2 | e2
      · subst e2
        have q2 := bump_empty t [⟨c, c, 1 / (c - a) / (c - b) / (c - c) / (a - c), c, 1, c, 1, c⟩] (by simp)
        rw [q2]
        have r := case3_abcc_0 ht (a := a) (b := b) (c := c) (by intro hh; linarith) (by intro hh; linarith) (by intro hh; linarith)
        linear_combination r
      ·
        have r := case3_abcd_0 ht (a := a) (b := b) (c := c) (d := d) (by intro hh; linarith) (by intro hh; linarith) (by intro hh; linarith) (by intro hh; linarith) (by intro hh; linarith) (by intro hh; linarith)
        linear_combination r

/-- The pieces of the density weighted by corner 1 (3-D). -/
def cuts3_1 (a b c d : ℝ) : List Piece :=
  [⟨a, b, 1 / (b - a) / (c - a) / (d - a) / (b - a), a, 1, a, 1, a⟩] ++ ([⟨b, c, 1 / (d - a) / ((c - b) * (b - d)) / (b - c), c, 1, b, 1, d⟩, ⟨b, c, 1 / (d - a) / ((c - a) * (b - c)) / (b - c), c, 1, a, 1, c⟩, ⟨b, c, 1 / ((b - d) * (b - d) * (c - b) * (d - a)), d, 1, d, 1, b⟩] ++ ([⟨c, d, 1 / (d - a) / (d - b) / (d - c) / (b - d), d, 1, d, 1, d⟩]))

theorem all3_1 {t : ℝ} (ht : t ≠ 0) {a b c d : ℝ} (ab : a ≤ b) (bc : b ≤ c) (cd : c ≤ d) (hlt : a < d) :
    (6 : ℂ) * pull t ![a, b, c, d] 1 = bump t (cuts3_1 a b c d) := by
  unfold cuts3_1
  simp only [bump_append]
  rcases ab.eq_or_lt with e0 | e0
  · subst e0
    rcases bc.eq_or_lt with e1 | e1
    · subst e1
      rcases cd.eq_or_lt with e2 | e2
      · subst e2
        exact absurd hlt (lt_irrefl _)
      ·
        have q0 := bump_empty t [⟨a, a, 1 / (a - a) / (a - a) / (d - a) / (a - a), a, 1, a, 1, a⟩] (by simp)
        have q1 := bump_empty t [⟨a, a, 1 / (d - a) / ((a - a) * (a - d)) / (a - a), a, 1, a, 1, d⟩, ⟨a, a, 1 / (d - a) / ((a - a) * (a - a)) / (a - a), a, 1, a, 1, a⟩, ⟨a, a, 1 / ((a - d) * (a - d) * (a - a) * (d - a)), d, 1, d, 1, a⟩] (by simp)
        rw [q0, q1]
        have r := case3_aaad_1 ht (a := a) (d := d) (by intro hh; linarith)
        linear_combination r
    ·
      rcases cd.eq_or_lt with e2 | e2
      · subst e2
        have q0 := bump_empty t [⟨a, a, 1 / (a - a) / (c - a) / (c - a) / (a - a), a, 1, a, 1, a⟩] (by simp)
        have q2 := bump_empty t [⟨c, c, 1 / (c - a) / (c - a) / (c - c) / (a - c), c, 1, c, 1, c⟩] (by simp)
        rw [q0, q2]
        have r := case3_aacc_1 ht (a := a) (c := c) (by intro hh; linarith)
        linear_combination r
      ·
        have q0 := bump_empty t [⟨a, a, 1 / (a - a) / (c - a) / (d - a) / (a - a), a, 1, a, 1, a⟩] (by simp)
        rw [q0]
        have r := case3_aacd_1 ht (a := a) (c := c) (d := d) (by intro hh; linarith) (by intro hh; linarith) (by intro hh; linarith)
        linear_combination r
  ·
    rcases bc.eq_or_lt with e1 | e1
    · subst e1
      rcases cd.eq_or_lt with e2 | e2
      · subst e2
        have q1 := bump_empty t [⟨b, b, 1 / (b - a) / ((b - b) * (b - b)) / (b - b), b, 1, b, 1, b⟩, ⟨b, b, 1 / (b - a) / ((b - a) * (b - b)) / (b - b), b, 1, a, 1, b⟩, ⟨b, b, 1 / ((b - b) * (b - b) * (b - b) * (b - a)), b, 1, b, 1, b⟩] (by simp)
        have q2 := bump_empty t [⟨b, b, 1 / (b - a) / (b - b) / (b - b) / (b - b), b, 1, b, 1, b⟩] (by simp)
        rw [q1, q2]
        have r := case3_abbb_1 ht (a := a) (b := b) (by intro hh; linarith)
        linear_combination r
      ·
        have q1 := bump_empty t [⟨b, b, 1 / (d - a) / ((b - b) * (b - d)) / (b - b), b, 1, b, 1, d⟩, ⟨b, b, 1 / (d - a) / ((b - a) * (b - b)) / (b - b), b, 1, a, 1, b⟩, ⟨b, b, 1 / ((b - d) * (b - d) * (b - b) * (d - a)), d, 1, d, 1, b⟩] (by simp)
        rw [q1]
        have r := case3_abbd_1 ht (a := a) (b := b) (d := d) (by intro hh; linarith) (by intro hh; linarith) (by intro hh; linarith)
        linear_combination r
    ·
      rcases cd.eq_or_lt with e2 | e2
      · subst e2
        have q2 := bump_empty t [⟨c, c, 1 / (c - a) / (c - b) / (c - c) / (b - c), c, 1, c, 1, c⟩] (by simp)
        rw [q2]
        have r := case3_abcc_1 ht (a := a) (b := b) (c := c) (by intro hh; linarith) (by intro hh; linarith) (by intro hh; linarith)
        linear_combination r
      ·
        have r := case3_abcd_1 ht (a := a) (b := b) (c := c) (d := d) (by intro hh; linarith) (by intro hh; linarith) (by intro hh; linarith) (by intro hh; linarith) (by intro hh; linarith) (by intro hh; linarith)
        linear_combination r

/-- The pieces of the density weighted by corner 2 (3-D). -/
def cuts3_2 (a b c d : ℝ) : List Piece :=
  [⟨a, b, 1 / (b - a) / (c - a) / (d - a) / (c - a), a, 1, a, 1, a⟩] ++ ([⟨b, c, 1 / (d - a) / ((c - b) * (b - d)) / (c - b), b, 1, b, 1, d⟩, ⟨b, c, 1 / (d - a) / ((c - a) * (b - c)) / (c - b), b, 1, a, 1, c⟩, ⟨b, c, 1 / ((c - a) * (c - a) * (b - c) * (d - a)), a, 1, a, 1, c⟩] ++ ([⟨c, d, 1 / (d - a) / (d - b) / (d - c) / (c - d), d, 1, d, 1, d⟩]))

theorem all3_2 {t : ℝ} (ht : t ≠ 0) {a b c d : ℝ} (ab : a ≤ b) (bc : b ≤ c) (cd : c ≤ d) (hlt : a < d) :
    (6 : ℂ) * pull t ![a, b, c, d] 2 = bump t (cuts3_2 a b c d) := by
  unfold cuts3_2
  simp only [bump_append]
  rcases ab.eq_or_lt with e0 | e0
  · subst e0
    rcases bc.eq_or_lt with e1 | e1
    · subst e1
      rcases cd.eq_or_lt with e2 | e2
      · subst e2
        exact absurd hlt (lt_irrefl _)
      ·
        have q0 := bump_empty t [⟨a, a, 1 / (a - a) / (a - a) / (d - a) / (a - a), a, 1, a, 1, a⟩] (by simp)
        have q1 := bump_empty t [⟨a, a, 1 / (d - a) / ((a - a) * (a - d)) / (a - a), a, 1, a, 1, d⟩, ⟨a, a, 1 / (d - a) / ((a - a) * (a - a)) / (a - a), a, 1, a, 1, a⟩, ⟨a, a, 1 / ((a - a) * (a - a) * (a - a) * (d - a)), a, 1, a, 1, a⟩] (by simp)
        rw [q0, q1]
        have r := case3_aaad_2 ht (a := a) (d := d) (by intro hh; linarith)
        linear_combination r
    ·
      rcases cd.eq_or_lt with e2 | e2
      · subst e2
        have q0 := bump_empty t [⟨a, a, 1 / (a - a) / (c - a) / (c - a) / (c - a), a, 1, a, 1, a⟩] (by simp)
        have q2 := bump_empty t [⟨c, c, 1 / (c - a) / (c - a) / (c - c) / (c - c), c, 1, c, 1, c⟩] (by simp)
        rw [q0, q2]
        have r := case3_aacc_2 ht (a := a) (c := c) (by intro hh; linarith)
        linear_combination r
      ·
        have q0 := bump_empty t [⟨a, a, 1 / (a - a) / (c - a) / (d - a) / (c - a), a, 1, a, 1, a⟩] (by simp)
        rw [q0]
        have r := case3_aacd_2 ht (a := a) (c := c) (d := d) (by intro hh; linarith) (by intro hh; linarith) (by intro hh; linarith)
        linear_combination r
  ·
    rcases bc.eq_or_lt with e1 | e1
    · subst e1
      rcases cd.eq_or_lt with e2 | e2
      · subst e2
        have q1 := bump_empty t [⟨b, b, 1 / (b - a) / ((b - b) * (b - b)) / (b - b), b, 1, b, 1, b⟩, ⟨b, b, 1 / (b - a) / ((b - a) * (b - b)) / (b - b), b, 1, a, 1, b⟩, ⟨b, b, 1 / ((b - a) * (b - a) * (b - b) * (b - a)), a, 1, a, 1, b⟩] (by simp)
        have q2 := bump_empty t [⟨b, b, 1 / (b - a) / (b - b) / (b - b) / (b - b), b, 1, b, 1, b⟩] (by simp)
        rw [q1, q2]
        have r := case3_abbb_2 ht (a := a) (b := b) (by intro hh; linarith)
        linear_combination r
      ·
        have q1 := bump_empty t [⟨b, b, 1 / (d - a) / ((b - b) * (b - d)) / (b - b), b, 1, b, 1, d⟩, ⟨b, b, 1 / (d - a) / ((b - a) * (b - b)) / (b - b), b, 1, a, 1, b⟩, ⟨b, b, 1 / ((b - a) * (b - a) * (b - b) * (d - a)), a, 1, a, 1, b⟩] (by simp)
        rw [q1]
        have r := case3_abbd_2 ht (a := a) (b := b) (d := d) (by intro hh; linarith) (by intro hh; linarith) (by intro hh; linarith)
        linear_combination r
    ·
      rcases cd.eq_or_lt with e2 | e2
      · subst e2
        have q2 := bump_empty t [⟨c, c, 1 / (c - a) / (c - b) / (c - c) / (c - c), c, 1, c, 1, c⟩] (by simp)
        rw [q2]
        have r := case3_abcc_2 ht (a := a) (b := b) (c := c) (by intro hh; linarith) (by intro hh; linarith) (by intro hh; linarith)
        linear_combination r
      ·
        have r := case3_abcd_2 ht (a := a) (b := b) (c := c) (d := d) (by intro hh; linarith) (by intro hh; linarith) (by intro hh; linarith) (by intro hh; linarith) (by intro hh; linarith) (by intro hh; linarith)
        linear_combination r

/-- The pieces of the density weighted by corner 3 (3-D). -/
def cuts3_3 (a b c d : ℝ) : List Piece :=
  [⟨a, b, 1 / (b - a) / (c - a) / (d - a) / (d - a), a, 1, a, 1, a⟩] ++ ([⟨b, c, 1 / (d - a) / ((c - b) * (b - d)) / (d - a), a, 1, b, 1, d⟩, ⟨b, c, 1 / (d - a) / ((c - a) * (b - c)) / (d - a), a, 1, a, 1, c⟩, ⟨b, c, 1 / ((d - b) * (b - d) * (c - b) * (d - a)), b, 1, d, 1, b⟩] ++ ([⟨c, d, 1 / (d - a) / (d - b) / (d - c) / (d - a), d, 1, d, 1, a⟩, ⟨c, d, 1 / (d - a) / (d - b) / (d - c) / (d - b), d, 1, d, 1, b⟩, ⟨c, d, 1 / (d - a) / (d - b) / (d - c) / (d - c), d, 1, d, 1, c⟩]))

theorem all3_3 {t : ℝ} (ht : t ≠ 0) {a b c d : ℝ} (ab : a ≤ b) (bc : b ≤ c) (cd : c ≤ d) (hlt : a < d) :
    (6 : ℂ) * pull t ![a, b, c, d] 3 = bump t (cuts3_3 a b c d) := by
  unfold cuts3_3
  simp only [bump_append]
  rcases ab.eq_or_lt with e0 | e0
  · subst e0
    rcases bc.eq_or_lt with e1 | e1
    · subst e1
      rcases cd.eq_or_lt with e2 | e2
      · subst e2
        exact absurd hlt (lt_irrefl _)
      ·
        have q0 := bump_empty t [⟨a, a, 1 / (a - a) / (a - a) / (d - a) / (d - a), a, 1, a, 1, a⟩] (by simp)
        have q1 := bump_empty t [⟨a, a, 1 / (d - a) / ((a - a) * (a - d)) / (d - a), a, 1, a, 1, d⟩, ⟨a, a, 1 / (d - a) / ((a - a) * (a - a)) / (d - a), a, 1, a, 1, a⟩, ⟨a, a, 1 / ((d - a) * (a - d) * (a - a) * (d - a)), a, 1, d, 1, a⟩] (by simp)
        rw [q0, q1]
        have r := case3_aaad_3 ht (a := a) (d := d) (by intro hh; linarith)
        linear_combination r
    ·
      rcases cd.eq_or_lt with e2 | e2
      · subst e2
        have q0 := bump_empty t [⟨a, a, 1 / (a - a) / (c - a) / (c - a) / (c - a), a, 1, a, 1, a⟩] (by simp)
        have q2 := bump_empty t [⟨c, c, 1 / (c - a) / (c - a) / (c - c) / (c - a), c, 1, c, 1, a⟩, ⟨c, c, 1 / (c - a) / (c - a) / (c - c) / (c - a), c, 1, c, 1, a⟩, ⟨c, c, 1 / (c - a) / (c - a) / (c - c) / (c - c), c, 1, c, 1, c⟩] (by simp)
        rw [q0, q2]
        have r := case3_aacc_3 ht (a := a) (c := c) (by intro hh; linarith)
        linear_combination r
      ·
        have q0 := bump_empty t [⟨a, a, 1 / (a - a) / (c - a) / (d - a) / (d - a), a, 1, a, 1, a⟩] (by simp)
        rw [q0]
        have r := case3_aacd_3 ht (a := a) (c := c) (d := d) (by intro hh; linarith) (by intro hh; linarith) (by intro hh; linarith)
        linear_combination r
  ·
    rcases bc.eq_or_lt with e1 | e1
    · subst e1
      rcases cd.eq_or_lt with e2 | e2
      · subst e2
        have q1 := bump_empty t [⟨b, b, 1 / (b - a) / ((b - b) * (b - b)) / (b - a), a, 1, b, 1, b⟩, ⟨b, b, 1 / (b - a) / ((b - a) * (b - b)) / (b - a), a, 1, a, 1, b⟩, ⟨b, b, 1 / ((b - b) * (b - b) * (b - b) * (b - a)), b, 1, b, 1, b⟩] (by simp)
        have q2 := bump_empty t [⟨b, b, 1 / (b - a) / (b - b) / (b - b) / (b - a), b, 1, b, 1, a⟩, ⟨b, b, 1 / (b - a) / (b - b) / (b - b) / (b - b), b, 1, b, 1, b⟩, ⟨b, b, 1 / (b - a) / (b - b) / (b - b) / (b - b), b, 1, b, 1, b⟩] (by simp)
        rw [q1, q2]
        have r := case3_abbb_3 ht (a := a) (b := b) (by intro hh; linarith)
        linear_combination r
      ·
        have q1 := bump_empty t [⟨b, b, 1 / (d - a) / ((b - b) * (b - d)) / (d - a), a, 1, b, 1, d⟩, ⟨b, b, 1 / (d - a) / ((b - a) * (b - b)) / (d - a), a, 1, a, 1, b⟩, ⟨b, b, 1 / ((d - b) * (b - d) * (b - b) * (d - a)), b, 1, d, 1, b⟩] (by simp)
        rw [q1]
        have r := case3_abbd_3 ht (a := a) (b := b) (d := d) (by intro hh; linarith) (by intro hh; linarith) (by intro hh; linarith)
        linear_combination r
    ·
      rcases cd.eq_or_lt with e2 | e2
      · subst e2
        have q2 := bump_empty t [⟨c, c, 1 / (c - a) / (c - b) / (c - c) / (c - a), c, 1, c, 1, a⟩, ⟨c, c, 1 / (c - a) / (c - b) / (c - c) / (c - b), c, 1, c, 1, b⟩, ⟨c, c, 1 / (c - a) / (c - b) / (c - c) / (c - c), c, 1, c, 1, c⟩] (by simp)
        rw [q2]
        have r := case3_abcc_3 ht (a := a) (b := b) (c := c) (by intro hh; linarith) (by intro hh; linarith) (by intro hh; linarith)
        linear_combination r
      ·
        have r := case3_abcd_3 ht (a := a) (b := b) (c := c) (d := d) (by intro hh; linarith) (by intro hh; linarith) (by intro hh; linarith) (by intro hh; linarith) (by intro hh; linarith) (by intro hh; linarith)
        linear_combination r

end Interphon.Spec
