import Verif.Lemmas.Str
import Verif.Model.Inout
import Mathlib.Algebra.Order.Floor.Semiring
import Mathlib.Data.List.Infix
import Mathlib.Data.List.TakeWhile

/-! Lemmas about splitting text into lines and tokens, substring tests, and reading back formatted numbers. -/

namespace Py

/-! ### Tokens -/

/-- A token: a non-empty string without blanks. -/
def IsToken (s : Str) : Prop := s ≠ [] ∧ ∀ c ∈ s, isWs c = false

theorem split_cons_ws {c : Char} (h : isWs c = true) (s : Str) : split (c :: s) = split s := by
  simp [split, splitAux, h]

theorem splitAux_token (t : Str) (ht : ∀ c ∈ t, isWs c = false) : ∀ (cur rest : Str),
    splitAux (t ++ rest) cur = splitAux rest (t.reverse ++ cur) := by
  induction t with
  | nil => simp
  | cons a t ih =>
    intro cur rest
    have ha := ht a (by simp)
    rw [List.cons_append, splitAux, if_neg (by simp [ha]), ih (fun c hc => ht c (by simp [hc]))]
    simp

theorem split_token_ws {t : Str} (ht : IsToken t) {c : Char} (hc : isWs c = true) (rest : Str) :
    split (t ++ c :: rest) = t :: split rest := by
  rw [split, splitAux_token t ht.2, splitAux, if_pos hc, if_neg (by simp [ht.1])]
  simp [split]

theorem split_token {t : Str} (ht : IsToken t) : split t = [t] := by
  have := splitAux_token t ht.2 [] []
  rw [List.append_nil] at this
  rw [split, this, splitAux, if_neg (by simp [ht.1])]
  simp

theorem split_nil : split [] = [] := rfl

theorem split_replicate_ws (n : ℕ) (s : Str) : split (List.replicate n ' ' ++ s) = split s := by
  induction n with
  | zero => simp
  | succ n ih => rw [List.replicate_succ, List.cons_append, split_cons_ws (by decide), ih]

theorem split_padLeft (w : ℕ) (t s : Str) : split (padLeft ' ' w t ++ s) = split (t ++ s) := by
  rw [padLeft, List.append_assoc, split_replicate_ws]

/-- Every token returned by `split` is a token. -/
theorem splitAux_tokens (s : Str) : ∀ cur : Str, (∀ c ∈ cur, isWs c = false) → ∀ t ∈ splitAux s cur, IsToken t := by
  induction s with
  | nil =>
    intro cur hc t ht
    rw [splitAux] at ht
    split at ht
    · simp at ht
    · simp only [List.mem_singleton] at ht
      subst ht
      exact ⟨by simpa using ‹_›, by simpa using hc⟩
  | cons a s ih =>
    intro cur hc t ht
    rw [splitAux] at ht
    by_cases ha : isWs a = true
    · rw [if_pos ha] at ht
      split at ht
      · exact ih [] (by simp) t ht
      · rcases List.mem_cons.1 ht with rfl | ht
        · exact ⟨by simpa using ‹_›, by simpa using hc⟩
        · exact ih [] (by simp) t ht
    · rw [if_neg ha] at ht
      refine ih (a :: cur) ?_ t ht
      intro c hc'
      rcases List.mem_cons.1 hc' with rfl | h
      · simpa using ha
      · exact hc c h

theorem split_tokens (s : Str) : ∀ t ∈ split s, IsToken t := splitAux_tokens s [] (by simp)

/-! ### Lines -/

/-- A line of a file: text without newline, then one newline. -/
def IsLine (l : Str) : Prop := ∃ t : Str, '\n' ∉ t ∧ l = t ++ ['\n']

open Interphon.Inout

theorem readlinesAux_line (t : Str) (ht : '\n' ∉ t) : ∀ (cur rest : Str),
    readlinesAux (t ++ '\n' :: rest) cur = (cur.reverse ++ t ++ ['\n']) :: readlines rest := by
  induction t with
  | nil => intro cur rest; simp [readlinesAux, readlines]
  | cons a t ih =>
    intro cur rest
    have ha : a ≠ '\n' := fun e => ht (by simp [e])
    rw [List.cons_append, readlinesAux, if_neg ha, ih (fun h => ht (by simp [h]))]
    simp

theorem readlines_flatten {ls : List Str} (h : ∀ l ∈ ls, IsLine l) : readlines ls.flatten = ls := by
  induction ls with
  | nil => rfl
  | cons l ls ih =>
    obtain ⟨t, ht, rfl⟩ := h l (by simp)
    rw [List.flatten_cons, List.append_assoc, List.singleton_append, readlines, readlinesAux_line t ht]
    simp only [List.reverse_nil, List.nil_append]
    rw [ih (fun l hl => h l (by simp [hl]))]

/-! ### Substrings -/

theorem isPrefixOf_iff (p s : Str) : p.isPrefixOf s = true ↔ p <+: s := List.isPrefixOf_iff_prefix

theorem isInfix_iff (p s : Str) : isInfix p s = true ↔ p <:+: s := by
  induction s with
  | nil => simp [isInfix]
  | cons c s ih =>
    rw [isInfix, Bool.or_eq_true, ih, isPrefixOf_iff, List.infix_cons_iff]

theorem infix_append_cons {p a b : Str} {c : Char} (hc : c ∉ p) (h : p <:+: a ++ c :: b) : p <:+: a ∨ p <:+: b := by
  induction a with
  | nil =>
    rw [List.nil_append, List.infix_cons_iff] at h
    rcases h with h | h
    · cases p with
      | nil => left; simp
      | cons x p =>
        rw [List.cons_prefix_cons] at h
        exact absurd (by simp [h.1]) hc
    · exact .inr h
  | cons x a ih =>
    rw [List.cons_append, List.infix_cons_iff] at h
    rcases h with h | h
    · left
      have h' : p <+: x :: a ∨ x :: a <+: p := List.prefix_or_prefix_of_prefix h (List.prefix_append (x :: a) (c :: b))
      rcases h' with h' | h'
      · exact h'.isInfix
      · obtain ⟨q, rfl⟩ := h'
        cases q with
        | nil => simp
        | cons y q =>
          exfalso
          obtain ⟨r, hr⟩ := h
          have hr' : (x :: a) ++ (y :: q ++ r) = (x :: a) ++ (c :: b) := by simpa [List.append_assoc] using hr
          have := List.append_cancel_left hr'
          rw [List.cons_append, List.cons.injEq] at this
          exact hc (by simp [this.1])
    · rcases ih h with h | h
      · exact .inl (h.trans (List.suffix_cons x a).isInfix)
      · exact .inr h

theorem not_infix_of_mem {p s : Str} {c : Char} (hp : c ∈ p) (hs : c ∉ s) : ¬p <:+: s := fun h => hs (h.subset hp)

/-! ### Numbers -/

theorem isWs_digitChar (n : ℕ) : isWs (digitChar n) = false := by
  unfold digitChar
  have h : n % 10 < 10 := Nat.mod_lt _ (by norm_num)
  generalize n % 10 = m at *
  interval_cases m <;> decide

/-- The characters of a decimal number. -/
def IsDigit (c : Char) : Prop := ∃ n, c = digitChar n

theorem isDigit_ne {c d : Char} (h : IsDigit c) (hd : digitVal d = none) : c ≠ d := by
  obtain ⟨n, rfl⟩ := h
  intro e
  rw [← e, digitVal_digitChar] at hd
  cases hd

theorem natStr_digits (n : ℕ) : ∀ c ∈ natStr n, IsDigit c := by
  induction n using Nat.strongRecOn with
  | _ n ih =>
    intro c hc
    rw [natStr] at hc
    split at hc
    · simp only [List.mem_singleton] at hc; exact ⟨n, hc⟩
    · rw [List.mem_append] at hc
      rcases hc with hc | hc
      · exact ih (n / 10) (by omega) c hc
      · simp only [List.mem_singleton] at hc; exact ⟨n, hc⟩

theorem fixDigits_digits (k n : ℕ) : ∀ c ∈ fixDigits k n, IsDigit c := by
  induction k generalizing n with
  | zero => simp [fixDigits]
  | succ k ih =>
    intro c hc
    rw [fixDigits, List.mem_append] at hc
    rcases hc with hc | hc
    · exact ih _ c hc
    · simp only [List.mem_singleton] at hc; exact ⟨n, hc⟩

theorem isDigit_ws {c : Char} (h : IsDigit c) : isWs c = false := by obtain ⟨n, rfl⟩ := h; exact isWs_digitChar n

/-- The characters that occur in a formatted number. -/
theorem fmtFixed_chars (d : ℕ) (q : ℚ) : ∀ c ∈ fmtFixed d q, IsDigit c ∨ c = '-' ∨ c = '.' := by
  intro c hc
  simp only [fmtFixed, List.mem_append, List.mem_cons] at hc
  rcases hc with (hc | hc) | hc | hc
  · split at hc
    · simp only [List.mem_singleton] at hc; exact .inr (.inl hc)
    · simp at hc
  · exact .inl (natStr_digits _ c hc)
  · exact .inr (.inr hc)
  · exact .inl (fixDigits_digits _ _ c hc)

theorem fmtFixed_token (d : ℕ) (q : ℚ) : IsToken (fmtFixed d q) := by
  refine ⟨by simp [fmtFixed], fun c hc => ?_⟩
  rcases fmtFixed_chars d q c hc with h | h | h
  · exact isDigit_ws h
  · subst h; decide
  · subst h; decide

theorem fmtFixed_not_mem {d : ℕ} {q : ℚ} {c : Char} (h1 : digitVal c = none) (h2 : c ≠ '-') (h3 : c ≠ '.') : c ∉ fmtFixed d q := by
  intro hc
  rcases fmtFixed_chars d q c hc with h | h | h
  · exact isDigit_ne h h1 rfl
  · exact h2 h
  · exact h3 h

theorem natStr_token (n : ℕ) : IsToken (natStr n) := ⟨natStr_ne_nil n, fun c hc => isDigit_ws (natStr_digits n c hc)⟩

theorem strip_token {t : Str} (h : ∀ c ∈ t, isWs c = false) : strip t = t := by
  have h1 : lstrip t = t := by
    unfold lstrip
    cases t with
    | nil => rfl
    | cons a t => rw [List.dropWhile_cons_of_neg (by simp [h a (by simp)])]
  have h2 : rstrip t = t := by
    unfold rstrip
    have : ∀ c ∈ t.reverse, isWs c = false := by simpa using h
    cases hr : t.reverse with
    | nil => simp at hr; simp [hr]
    | cons a s =>
      rw [hr] at this
      rw [List.dropWhile_cons_of_neg (by simp [this a (by simp)]), ← hr, List.reverse_reverse]
  rw [strip, h1, h2]

theorem takeSign_of_digits {s : Str} (h : ∀ c ∈ s, IsDigit c ∨ c = '.') : takeSign s = (false, s) := by
  unfold takeSign
  split
  · rename_i cs
    rcases h '-' (by simp) with h | h
    · exact absurd rfl (isDigit_ne h (by decide))
    · simp at h
  · rename_i cs
    rcases h '+' (by simp) with h | h
    · exact absurd rfl (isDigit_ne h (by decide))
    · simp at h
  · rfl

theorem splitOn_none {sep : Char} {s : Str} (h : sep ∉ s) : splitOn sep s = [s] := by
  induction s with
  | nil => rfl
  | cons a s ih =>
    have ha : a ≠ sep := fun e => h (by simp [e])
    rw [splitOn, if_neg ha, ih (fun hm => h (by simp [hm]))]

theorem splitOn_append {sep : Char} {a : Str} (h : sep ∉ a) (b : Str) : splitOn sep (a ++ sep :: b) = a :: splitOn sep b := by
  induction a with
  | nil => simp [splitOn]
  | cons x a ih =>
    have hx : x ≠ sep := fun e => h (by simp [e])
    rw [List.cons_append, splitOn, if_neg hx, ih (fun hm => h (by simp [hm]))]

theorem splitExp_none {s : Str} (h : ∀ c ∈ s, IsDigit c ∨ c = '.') : splitExp s = (s, none) := by
  unfold splitExp
  have : s.dropWhile (fun c => c ≠ 'e' && c ≠ 'E') = [] := by
    apply List.dropWhile_eq_nil_iff.2
    intro c hc
    rcases h c hc with h | h
    · have h1 := isDigit_ne h (show digitVal 'e' = none by decide)
      have h2 := isDigit_ne h (show digitVal 'E' = none by decide)
      simp [h1, h2]
    · subst h; decide
  rw [this]

/-- Reading back what `{:.df}` prints gives the value rounded to `d` decimals. -/
theorem parseFloat_fmtFixed (d : ℕ) (q : ℚ) : parseFloat (fmtFixed d q) = some (rndDec d q) := by
  set n := roundHalfEven (|q| * 10 ^ d) with hn
  set body := natStr (n / 10 ^ d) ++ '.' :: fixDigits d (n % 10 ^ d) with hb
  have hchars : ∀ c ∈ body, IsDigit c ∨ c = '.' := by
    intro c hc
    rw [hb, List.mem_append, List.mem_cons] at hc
    rcases hc with hc | hc | hc
    · exact .inl (natStr_digits _ c hc)
    · exact .inr hc
    · exact .inl (fixDigits_digits _ _ c hc)
  have hdec : parseDec body = some ((n : ℚ) / 10 ^ d) := by
    have hdot : '.' ∉ natStr (n / 10 ^ d) := fun h => isDigit_ne (natStr_digits _ _ h) (by decide) rfl
    have hdot2 : '.' ∉ fixDigits d (n % 10 ^ d) := fun h => isDigit_ne (fixDigits_digits _ _ _ h) (by decide) rfl
    rw [parseDec, hb, splitOn_append hdot, splitOn_none hdot2]
    simp only [natStr_ne_nil, false_and, if_false]
    rw [digitsAux_natStr, digitsAux_fixDigits d _ 0 (Nat.mod_lt _ (by positivity))]
    simp only [zero_mul, zero_add, length_fixDigits, Option.some.injEq]
    have hdm := Nat.div_add_mod n (10 ^ d)
    have : (n : ℚ) = (10 ^ d : ℚ) * ((n / 10 ^ d : ℕ) : ℚ) + ((n % 10 ^ d : ℕ) : ℚ) := by
      exact_mod_cast hdm.symm
    rw [this]; field_simp
  have hfmt : fmtFixed d q = (if q < 0 then ['-'] else []) ++ body := by
    simp only [fmtFixed, hb, ← hn, List.append_assoc]
  have hs : strip (fmtFixed d q) = fmtFixed d q := strip_token (fmtFixed_token d q).2
  unfold parseFloat
  rw [hs, hfmt]
  by_cases hq : q < 0
  · simp only [if_pos hq, List.singleton_append, takeSign, splitExp_none hchars, hdec, rndDec, ← hn]
    simp
  · simp only [if_neg hq, List.nil_append, takeSign_of_digits hchars, splitExp_none hchars, hdec, rndDec, ← hn]
    simp

theorem parseInt_natStr (n : ℕ) : parseInt (natStr n) = some (n : ℤ) := by
  unfold parseInt
  rw [strip_token (natStr_token n).2, takeSign_of_digits fun c hc => .inl (natStr_digits n c hc)]
  simp [parseNat_natStr]

theorem intStr_natCast (n : ℕ) : intStr (n : ℤ) = natStr n := by
  unfold intStr
  rw [if_neg (by omega), Int.natAbs_natCast]

end Py
