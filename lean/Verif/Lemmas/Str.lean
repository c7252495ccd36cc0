import Verif.Py
import Mathlib.Tactic.Ring
import Mathlib.Tactic.IntervalCases
import Mathlib.Tactic.FieldSimp
import Mathlib.Tactic.NormNum
import Mathlib.Order.Basic

/-! Lemmas about decimal printing and parsing. -/

namespace Py

theorem digitVal_digitChar (d : ℕ) : digitVal (digitChar d) = some (d % 10) := by
  unfold digitChar
  have h : d % 10 < 10 := Nat.mod_lt _ (by norm_num)
  generalize d % 10 = m at *
  interval_cases m <;> decide

theorem digitChar_lt {a b : ℕ} (h : a % 10 < b % 10) : digitChar a < digitChar b := by
  unfold digitChar
  have h2 : b % 10 < 10 := Nat.mod_lt _ (by norm_num)
  generalize a % 10 = m at *
  generalize b % 10 = n at *
  interval_cases n <;> interval_cases m <;> decide

theorem digitsAux_append (s t : Str) : ∀ acc, digitsAux acc (s ++ t) = (digitsAux acc s).bind fun n => digitsAux n t := by
  induction s with
  | nil => intro acc; simp [digitsAux]
  | cons c cs ih =>
    intro acc
    simp only [List.cons_append, digitsAux]
    cases digitVal c with
    | none => rfl
    | some d => exact ih _

theorem digitsAux_fixDigits (k : ℕ) : ∀ (n acc : ℕ), n < 10 ^ k → digitsAux acc (fixDigits k n) = some (acc * 10 ^ k + n) := by
  induction k with
  | zero => intro n acc h; simp at h; subst h; simp [fixDigits, digitsAux]
  | succ k ih =>
    intro n acc h
    have hn : n / 10 < 10 ^ k := by
      apply Nat.div_lt_of_lt_mul
      rw [pow_succ] at h; linarith
    simp only [fixDigits, digitsAux_append, ih (n / 10) acc hn, Option.bind_some, digitsAux, digitVal_digitChar]
    congr 1
    have := Nat.div_add_mod n 10
    rw [pow_succ]; ring_nf; ring_nf at this; omega

theorem length_fixDigits (k n : ℕ) : (fixDigits k n).length = k := by
  induction k generalizing n with
  | zero => rfl
  | succ k ih => simp [fixDigits, ih]

theorem natStr_ne_nil (n : ℕ) : natStr n ≠ [] := by
  unfold natStr
  split_ifs <;> simp

theorem digitsAux_natStr (n : ℕ) : ∀ acc, digitsAux acc (natStr n) = some (acc * 10 ^ (natStr n).length + n) := by
  induction n using Nat.strongRecOn with
  | _ n ih =>
    intro acc
    unfold natStr
    split_ifs with h
    · simp [digitsAux, digitVal_digitChar, Nat.mod_eq_of_lt h]
    · rw [digitsAux_append, ih (n / 10) (by omega) acc]
      simp only [Option.bind_some, digitsAux, digitVal_digitChar, List.length_append, List.length_cons, List.length_nil, pow_add, zero_add]
      congr 1
      have := Nat.div_add_mod n 10
      ring_nf; ring_nf at this; omega

theorem parseNat_natStr (n : ℕ) : parseNat (natStr n) = some n := by
  unfold parseNat
  rw [if_neg (natStr_ne_nil n), digitsAux_natStr]
  simp

theorem natStr_injective : Function.Injective natStr := by
  intro a b h
  have := congrArg parseNat h
  rw [parseNat_natStr, parseNat_natStr] at this
  exact Option.some.inj this

theorem digitsAux_replicate_zero (k acc : ℕ) (h : acc = 0) (t : Str) :
    digitsAux acc (List.replicate k '0' ++ t) = digitsAux acc t := by
  induction k with
  | zero => simp
  | succ k ih =>
    subst h
    have : digitVal '0' = some 0 := by decide
    rw [List.replicate_succ, List.cons_append, digitsAux, this]
    exact ih

theorem parseNat_padLeft_zero (w n : ℕ) : parseNat (padLeft '0' w (natStr n)) = some n := by
  unfold parseNat padLeft
  rw [if_neg (by simp [natStr_ne_nil]), digitsAux_replicate_zero _ 0 rfl, digitsAux_natStr]
  simp

theorem natStr_eq_fixDigits (n : ℕ) : ∃ k, 0 < k ∧ natStr n = fixDigits k n ∧ (10 ^ (k - 1) ≤ n ∨ k = 1) ∧ n < 10 ^ k := by
  induction n using Nat.strongRecOn with
  | _ n ih =>
    unfold natStr
    split_ifs with h
    · exact ⟨1, by norm_num, by simp [fixDigits], Or.inr rfl, by simpa using h⟩
    · obtain ⟨k, hk, he, hb, hlt⟩ := ih (n / 10) (by omega)
      refine ⟨k + 1, by omega, by rw [he]; rfl, Or.inl ?_, ?_⟩
      · simp only [Nat.add_sub_cancel]
        rcases hb with hb | hb
        · have : 10 ^ (k - 1) * 10 ≤ n := by omega
          rw [← pow_succ] at this
          rwa [show k - 1 + 1 = k by omega] at this
        · subst hb; omega
      · rw [pow_succ]; omega

theorem fixDigits_zero (k : ℕ) : fixDigits k 0 = List.replicate k '0' := by
  induction k with
  | zero => rfl
  | succ k ih =>
    rw [fixDigits, Nat.zero_div, ih, List.replicate_succ']
    rfl

theorem fixDigits_add (j k n : ℕ) (h : n < 10 ^ k) : fixDigits (j + k) n = List.replicate j '0' ++ fixDigits k n := by
  induction k generalizing n with
  | zero => simp at h; subst h; simp [fixDigits_zero, fixDigits]
  | succ k ih =>
    have hn : n / 10 < 10 ^ k := by
      apply Nat.div_lt_of_lt_mul
      rw [pow_succ] at h; linarith
    rw [show j + (k + 1) = (j + k) + 1 by omega, fixDigits, ih _ hn, fixDigits, List.append_assoc]

theorem padLeft_natStr (w n : ℕ) (h : n < 10 ^ w) (hw : 0 < w) : padLeft '0' w (natStr n) = fixDigits w n := by
  obtain ⟨k, hk, he, hb, hlt⟩ := natStr_eq_fixDigits n
  have hkw : k ≤ w := by
    rcases hb with hb | hb
    · by_contra hc
      have : 10 ^ w ≤ 10 ^ (k - 1) := Nat.pow_le_pow_right (by norm_num) (by omega)
      omega
    · omega
  unfold padLeft
  rw [he, length_fixDigits]
  obtain ⟨j, rfl⟩ := Nat.exists_eq_add_of_le' hkw
  rw [Nat.add_sub_cancel, fixDigits_add j k n hlt]

theorem lt_append_of_lt {a b : Str} (h : a < b) (hl : a.length = b.length) (x y : Str) : a ++ x < b ++ y := by
  have h' : List.Lex (· < ·) a b := h
  change List.Lex (· < ·) (a ++ x) (b ++ y)
  clear h
  induction h' with
  | nil => simp at hl
  | cons _ ih => exact List.Lex.cons (ih (by simpa using hl))
  | rel h => exact List.Lex.rel h

theorem fixDigits_lt (k : ℕ) : ∀ {a b : ℕ}, a < b → b < 10 ^ k → fixDigits k a < fixDigits k b := by
  induction k with
  | zero => intro a b h hb; simp at hb; omega
  | succ k ih =>
    intro a b h hb
    have hbk : b / 10 < 10 ^ k := by
      apply Nat.div_lt_of_lt_mul
      rw [pow_succ] at hb; linarith
    rw [fixDigits, fixDigits]
    rcases Nat.lt_or_ge (a / 10) (b / 10) with hlt | hge
    · have := ih hlt hbk
      exact lt_append_of_lt this (by simp [length_fixDigits]) _ _
    · have hEq : a / 10 = b / 10 := by omega
      rw [hEq]
      apply List.append_left_lt
      have : a % 10 < b % 10 := by omega
      exact List.Lex.rel (digitChar_lt this)

end Py
