import Verif.Lemmas.Text
import Mathlib.Data.Nat.Digits.Defs

/-!
# Words and numbers in text files: C127
-/

namespace Interphon.Props
open Py

/-! ### Specification -/

/-- The decimal digits. -/
def decimalDigits : Str := "0123456789".toList

/-- A string of decimal digits. -/
def IsDigits (w : Str) : Prop := ∀ c ∈ w, c ∈ decimalDigits

/-- The natural number that a string of digits denotes. -/
def digitsValue (w : Str) : ℕ := Nat.ofDigits 10 (w.reverse.map fun c => decimalDigits.idxOf c)

/-- A string of blanks. -/
def Blanks (w : Str) : Prop := ∀ c ∈ w, c ∈ " \t\n\r\x0b\x0c\x1c\x1d\x1e\x1f".toList

/-- An optional sign. -/
inductive Sign : Str → ℤ → Prop
  | none : Sign [] 1
  | plus : Sign ['+'] 1
  | minus : Sign ['-'] (-1)

/-- The word `w` is the integer `z`: sign and digits, blanks around. -/
def IsInteger (w : Str) (z : ℤ) : Prop := ∃ b s σ ds b', w = b ++ (s ++ ds) ++ b' ∧ Blanks b ∧ Blanks b' ∧ Sign s σ ∧ IsDigits ds ∧ ds ≠ [] ∧
  z = σ * digitsValue ds

/-- Digits with at most one decimal point (and at least one digit). -/
inductive Mantissa : Str → ℚ → Prop
  | whole (a : Str) : IsDigits a → a ≠ [] → Mantissa a (digitsValue a)
  | point (a b : Str) : IsDigits a → IsDigits b → a ++ b ≠ [] → Mantissa (a ++ '.' :: b) (digitsValue (a ++ b) / 10 ^ b.length)

/-- An optional power of ten. -/
inductive Exponent : Str → ℤ → Prop
  | none : Exponent [] 0
  | some (e : Char) (s ds : Str) (σ : ℤ) : e = 'e' ∨ e = 'E' → Sign s σ → IsDigits ds → ds ≠ [] → Exponent (e :: (s ++ ds)) (σ * digitsValue ds)

/-- The word `w` is the number `q`: sign, digits with at most one decimal point, optional power of ten, blanks around. -/
def IsNumber (w : Str) (q : ℚ) : Prop := ∃ b s σ m x e n b', w = b ++ (s ++ (m ++ e)) ++ b' ∧ Blanks b ∧ Blanks b' ∧ Sign s σ ∧ Mantissa m x ∧ Exponent e n ∧
  q = σ * x * (10 : ℚ) ^ n

/-- The words of a line: separated by blanks, blanks at both ends do not count. -/
inductive IsWords : Str → List Str → Prop
  | blank (b : Str) : Blanks b → IsWords b []
  | last (b w : Str) : Blanks b → w ≠ [] → (∀ c ∈ w, ¬Blanks [c]) → IsWords (b ++ w) [w]
  | word (b w : Str) (c : Char) (rest : Str) (ws : List Str) : Blanks b → w ≠ [] → (∀ c ∈ w, ¬Blanks [c]) → Blanks [c] → IsWords rest ws →
      IsWords (b ++ (w ++ c :: rest)) (w :: ws)

/-! ### Characters -/

private theorem ws_iff (c : Char) : isWs c = true ↔ Blanks [c] := by
  unfold Blanks isWs
  simp [or_assoc]

private theorem digit_iff (c : Char) (d : ℕ) : digitVal c = some d ↔ c ∈ decimalDigits ∧ decimalDigits.idxOf c = d := by
  unfold digitVal
  constructor
  · intro h
    split at h
    · rename_i hc
      have h1 : 48 ≤ c.toNat := hc.1
      have h2 : c.toNat ≤ 57 := hc.2
      have hcc : c = Char.ofNat c.toNat := (Char.ofNat_toNat c).symm
      cases h
      generalize c.toNat = n at h1 h2 hcc
      subst hcc
      interval_cases n <;> decide
    · cases h
  · rintro ⟨h, rfl⟩
    have : decimalDigits = ['0', '1', '2', '3', '4', '5', '6', '7', '8', '9'] := rfl
    rw [this] at h ⊢
    simp only [List.mem_cons, List.not_mem_nil, or_false] at h
    rcases h with rfl | rfl | rfl | rfl | rfl | rfl | rfl | rfl | rfl | rfl <;> decide

private theorem digit_none (c : Char) : digitVal c = none ↔ c ∉ decimalDigits := by
  constructor
  · intro h hm
    rw [(digit_iff c _).2 ⟨hm, rfl⟩] at h
    cases h
  · intro h
    cases e : digitVal c with
    | none => rfl
    | some d => exact absurd ((digit_iff c d).1 e).1 h

private theorem value_cons (c : Char) (w : Str) : digitsValue (c :: w) = decimalDigits.idxOf c * 10 ^ w.length + digitsValue w := by
  unfold digitsValue
  rw [List.reverse_cons, List.map_append, Nat.ofDigits_append]
  simp
  ring

private theorem value_append (a b : Str) : digitsValue (a ++ b) = digitsValue a * 10 ^ b.length + digitsValue b := by
  induction a with
  | nil => simp [digitsValue]
  | cons c a ih => rw [List.cons_append, value_cons, ih, value_cons, List.length_append, pow_add]; ring

private theorem digitsAux_iff (w : Str) : ∀ (acc n : ℕ), digitsAux acc w = some n ↔ IsDigits w ∧ n = acc * 10 ^ w.length + digitsValue w := by
  induction w with
  | nil => intro acc n; simp [digitsAux, IsDigits, digitsValue, eq_comm]
  | cons c w ih =>
    intro acc n
    rw [digitsAux]
    cases h : digitVal c with
    | none =>
      have := (digit_none c).1 h
      simp only [reduceCtorEq, false_iff]
      rintro ⟨h1, -⟩
      exact this (h1 c (by simp))
    | some d =>
      obtain ⟨h1, h2⟩ := (digit_iff c d).1 h
      simp only
      rw [ih]
      constructor
      · rintro ⟨g1, rfl⟩
        refine ⟨?_, ?_⟩
        · intro x hx
          rcases List.mem_cons.1 hx with rfl | hx
          · exact h1
          · exact g1 x hx
        · rw [value_cons, h2, List.length_cons, pow_succ]; ring
      · rintro ⟨g1, rfl⟩
        refine ⟨fun x hx => g1 x (by simp [hx]), ?_⟩
        rw [value_cons, h2, List.length_cons, pow_succ]; ring

private theorem parseNat_iff (w : Str) (n : ℕ) : parseNat w = some n ↔ IsDigits w ∧ w ≠ [] ∧ n = digitsValue w := by
  unfold parseNat
  by_cases h : w = []
  · rw [if_pos h]; simp [h]
  · rw [if_neg h, digitsAux_iff]
    simp [h]

/-! ### Signs and blanks -/

private theorem sign_inv (w : Str) : ∃ s σ, Sign s σ ∧ w = s ++ (takeSign w).2 ∧ ∀ x : ℚ, (if (takeSign w).1 = true then -x else x) = σ * x := by
  unfold takeSign
  split
  · exact ⟨_, _, .minus, rfl, fun x => by simp⟩
  · exact ⟨_, _, .plus, rfl, fun x => by simp⟩
  · exact ⟨_, _, .none, rfl, fun x => by simp⟩

private theorem sign_of {s r : Str} {σ : ℤ} (h : Sign s σ) (hr : ∀ c ∈ r.head?, c ≠ '+' ∧ c ≠ '-') : (takeSign (s ++ r)).2 = r ∧
    ∀ x : ℚ, (if (takeSign (s ++ r)).1 = true then -x else x) = σ * x := by
  cases h with
  | plus => exact ⟨rfl, fun x => by simp [takeSign]⟩
  | minus => exact ⟨rfl, fun x => by simp [takeSign]⟩
  | none =>
    have : takeSign r = (false, r) := by
      unfold takeSign
      split
      · exact absurd rfl (hr '-' rfl).2
      · exact absurd rfl (hr '+' rfl).1
      · rfl
    rw [List.nil_append, this]
    exact ⟨rfl, fun x => by simp⟩

theorem strip_inv (w : Str) : ∃ b b', w = b ++ strip w ++ b' ∧ Blanks b ∧ Blanks b' := by
  refine ⟨w.takeWhile isWs, ((lstrip w).reverse.takeWhile isWs).reverse, ?_, ?_, ?_⟩
  · rw [List.append_assoc]
    have h1 : strip w ++ ((lstrip w).reverse.takeWhile isWs).reverse = lstrip w := by
      unfold strip rstrip
      rw [← List.reverse_append, List.takeWhile_append_dropWhile, List.reverse_reverse]
    rw [h1]
    exact (List.takeWhile_append_dropWhile).symm
  · intro c hc
    have := List.mem_takeWhile_imp hc
    exact (ws_iff c).1 this c (by simp)
  · intro c hc
    have := List.mem_takeWhile_imp (List.mem_reverse.1 hc)
    exact (ws_iff c).1 this c (by simp)

private theorem blank_ws {b : Str} (h : Blanks b) : ∀ c ∈ b, isWs c = true := fun c hc => (ws_iff c).2 fun x hx => by
  rw [List.mem_singleton.1 hx]; exact h c hc

private theorem lstrip_blank {b t : Str} (h : Blanks b) : lstrip (b ++ t) = lstrip t := by
  unfold lstrip
  have hb := blank_ws h
  clear h
  induction b with
  | nil => rfl
  | cons c b ih =>
    rw [List.cons_append, List.dropWhile_cons_of_pos (hb c (by simp))]
    exact ih fun x hx => hb x (by simp [hx])

private theorem strip_blank {b t b' : Str} (hb : Blanks b) (hb' : Blanks b') (ht : ∀ c ∈ t, isWs c = false) (hne : t ≠ []) : strip (b ++ t ++ b') = t := by
  unfold strip
  rw [List.append_assoc, lstrip_blank hb]
  have h1 : lstrip (t ++ b') = t ++ b' := by
    cases t with
    | nil => exact absurd rfl hne
    | cons c t =>
      unfold lstrip
      rw [List.cons_append, List.dropWhile_cons_of_neg (by rw [ht c (by simp)]; simp)]
  rw [h1]
  unfold rstrip
  have hr : Blanks b'.reverse := fun c hc => hb' c (List.mem_reverse.1 hc)
  rw [List.reverse_append]
  have h2 := lstrip_blank (t := t.reverse) hr
  unfold lstrip at h2
  rw [h2]
  cases h : t.reverse with
  | nil => simp at h; exact absurd h hne
  | cons c r =>
    have hc : c ∈ t := List.mem_reverse.1 (by rw [h]; simp)
    rw [List.dropWhile_cons_of_neg (by rw [ht c hc]; simp), ← h, List.reverse_reverse]

private theorem digits_ws {w : Str} (h : IsDigits w) : ∀ c ∈ w, isWs c = false := by
  intro c hc
  have := h c hc
  have e : decimalDigits = ['0', '1', '2', '3', '4', '5', '6', '7', '8', '9'] := rfl
  rw [e] at this
  simp only [List.mem_cons, List.not_mem_nil, or_false] at this
  rcases this with rfl | rfl | rfl | rfl | rfl | rfl | rfl | rfl | rfl | rfl <;> decide

private theorem digits_ne {w : Str} (h : IsDigits w) (d : Char) (hd : d ∉ decimalDigits) : d ∉ w := fun hm => hd (h d hm)

private theorem sign_ws {s : Str} {σ : ℤ} (h : Sign s σ) : ∀ c ∈ s, isWs c = false := by
  cases h <;> simp [isWs]

private theorem lift_iff {α : Type} {f : ℕ → α} {x : Option ℕ} {z : α} : (do let a ← x; pure (f a)) = some z ↔ ∃ n, x = some n ∧ z = f n := by
  cases x <;> simp [eq_comm]

private theorem exp_value {s : Str} {σ : ℤ} (hs : Sign s σ) (b : Bool) (hb : ∀ y : ℚ, (if b = true then -y else y) = σ * y) (y : ℚ) (n : ℕ) :
    (if b = true then y / 10 ^ n else y * 10 ^ n) = y * (10 : ℚ) ^ (σ * n) := by
  have h1 := hb 1
  cases hs <;> cases b <;> simp [div_eq_mul_inv] at h1 ⊢ <;> norm_num at h1

/-! ### Integers -/

/-- **C127** (integers).  `int(word)` is the integer that the word denotes, and every other word is rejected. -/
theorem C127_integer (w : Str) (z : ℤ) : parseInt w = some z ↔ IsInteger w z := by
  unfold parseInt
  constructor
  · intro h
    obtain ⟨b, b', hw, hb, hb'⟩ := strip_inv w
    obtain ⟨s, σ, hs, e, hx⟩ := sign_inv (strip w)
    simp only [Option.map_eq_some_iff] at h
    obtain ⟨k, h1, h2⟩ := h
    obtain ⟨n, h1', rfl⟩ := lift_iff.1 h1
    obtain ⟨g1, g2, g3⟩ := (parseNat_iff _ _).1 h1'
    refine ⟨b, s, σ, _, b', by rw [← e]; exact hw, hb, hb', hs, g1, g2, ?_⟩
    have h3 := hx (n : ℚ)
    rw [← g3, ← h2]
    have : (((if (takeSign (strip w)).1 = true then -(n : ℤ) else n) : ℤ) : ℚ) = ((σ * n : ℤ) : ℚ) := by
      rw [Int.cast_mul, Int.cast_natCast, ← h3]
      split <;> simp
    exact_mod_cast this
  · rintro ⟨b, s, σ, ds, b', rfl, hb, hb', hs, hd, hne, rfl⟩
    have hst : strip (b ++ (s ++ ds) ++ b') = s ++ ds := strip_blank hb hb' (fun c hc => by
      rcases List.mem_append.1 hc with hc | hc
      · exact sign_ws hs c hc
      · exact digits_ws hd c hc) (by simp [hne])
    obtain ⟨h1, h2⟩ := sign_of (r := ds) hs (fun c hc => by
      have hc' : c ∈ ds := List.mem_of_mem_head? hc
      exact ⟨fun e => digits_ne hd '+' (by decide) (e ▸ hc'), fun e => digits_ne hd '-' (by decide) (e ▸ hc')⟩)
    simp only [hst, h1]
    rw [Option.map_eq_some_iff]
    refine ⟨_, lift_iff.2 ⟨_, (parseNat_iff ds _).2 ⟨hd, hne, rfl⟩, rfl⟩, ?_⟩
    have h3 := h2 (digitsValue ds : ℚ)
    have : (((if (takeSign (s ++ ds)).1 = true then -(digitsValue ds : ℤ) else digitsValue ds) : ℤ) : ℚ) = ((σ * digitsValue ds : ℤ) : ℚ) := by
      rw [Int.cast_mul, Int.cast_natCast, ← h3]
      split <;> simp
    exact_mod_cast this

/-! ### Numbers -/

private theorem splitOn_dot (s : Str) : (∃ a, '.' ∉ a ∧ s = a ∧ splitOn '.' s = [a]) ∨ (∃ a b, '.' ∉ a ∧ '.' ∉ b ∧ s = a ++ '.' :: b ∧ splitOn '.' s = [a, b]) ∨
    (∃ a b c, '.' ∉ a ∧ '.' ∉ b ∧ s = a ++ '.' :: (b ++ '.' :: c) ∧ ∃ x y r, splitOn '.' s = a :: x :: y :: r) := by
  by_cases h : '.' ∈ s
  · obtain ⟨a, t, rfl, ha⟩ := List.eq_append_cons_of_mem h
    by_cases h2 : '.' ∈ t
    · obtain ⟨b, c, rfl, hb⟩ := List.eq_append_cons_of_mem h2
      refine .inr (.inr ⟨a, b, c, ha, hb, rfl, ?_⟩)
      rw [splitOn_append ha, splitOn_append hb]
      cases hc : splitOn '.' c with
      | nil =>
        exfalso
        cases c with
        | nil => simp [splitOn] at hc
        | cons d c =>
          rw [splitOn] at hc
          split at hc
          · cases hc
          · split at hc <;> cases hc
      | cons y r => exact ⟨_, _, _, rfl⟩
    · exact .inr (.inl ⟨a, t, ha, h2, rfl, by rw [splitOn_append ha, splitOn_none h2]⟩)
  · exact .inl ⟨s, h, rfl, splitOn_none h⟩

private theorem parseDec_iff (m : Str) (x : ℚ) : parseDec m = some x ↔ Mantissa m x := by
  unfold parseDec
  rcases splitOn_dot m with ⟨a, ha, rfl, e⟩ | ⟨a, b, ha, hb, rfl, e⟩ | ⟨a, b, c, ha, hb, rfl, ⟨p, q, r, e⟩⟩
  · rw [e]
    simp only [Option.map_eq_some_iff]
    constructor
    · rintro ⟨k, h1, rfl⟩
      obtain ⟨n, h1', rfl⟩ := lift_iff.1 h1
      obtain ⟨g1, g2, rfl⟩ := (parseNat_iff _ _).1 h1'
      exact .whole m g1 g2
    · intro h
      cases h with
      | whole _ g1 g2 => exact ⟨_, lift_iff.2 ⟨_, (parseNat_iff _ _).2 ⟨g1, g2, rfl⟩, rfl⟩, rfl⟩
      | point a b => exact absurd (by simp) ha
  · rw [e]
    simp only
    have huniq : ∀ a' b', '.' ∉ a' → a ++ '.' :: b = a' ++ '.' :: b' → a = a' ∧ b = b' := by
      intro a' b' ha' h
      have h1 := splitOn_append ha b
      rw [h, splitOn_append ha'] at h1
      have e1 := (List.cons.inj h1).1
      subst e1
      exact ⟨rfl, (List.cons.inj (List.append_cancel_left h)).2⟩
    by_cases hab : a = [] ∧ b = []
    · rw [if_pos hab]
      constructor
      · intro h; cases h
      · intro h
        exfalso
        generalize hm : a ++ '.' :: b = m at h
        cases h with
        | whole _ g1 _ => exact digits_ne g1 '.' (by decide) (by rw [← hm]; simp)
        | point a' b' g1 g2 g3 =>
          obtain ⟨rfl, rfl⟩ := huniq a' b' (digits_ne g1 '.' (by decide)) hm
          exact g3 (by rw [hab.1, hab.2]; rfl)
    · rw [if_neg hab]
      constructor
      · intro h
        cases h1 : digitsAux 0 a with
        | none => rw [h1] at h; cases h
        | some n =>
          cases h2 : digitsAux 0 b with
          | none => rw [h1, h2] at h; cases h
          | some k =>
            rw [h1, h2] at h
            obtain ⟨g1, rfl⟩ := (digitsAux_iff _ _ _).1 h1
            obtain ⟨g2, rfl⟩ := (digitsAux_iff _ _ _).1 h2
            cases h
            have := Mantissa.point a b g1 g2 (by simp only [ne_eq, List.append_eq_nil_iff]; exact hab)
            convert this using 1
            rw [value_append]
            push_cast
            field_simp
            simp
      · intro h
        generalize hm : a ++ '.' :: b = m at h
        cases h with
        | whole _ g1 _ => exact absurd (by rw [← hm]; simp) (digits_ne g1 '.' (by decide))
        | point a' b' g1 g2 g3 =>
          obtain ⟨rfl, rfl⟩ := huniq a' b' (digits_ne g1 '.' (by decide)) hm
          rw [(digitsAux_iff a 0 _).2 ⟨g1, rfl⟩, (digitsAux_iff b 0 _).2 ⟨g2, rfl⟩]
          simp only [Option.some.injEq]
          rw [value_append]
          push_cast
          field_simp
          simp
  · rw [e]
    simp only [reduceCtorEq, false_iff]
    intro h
    generalize hm : a ++ '.' :: (b ++ '.' :: c) = m at h
    cases h with
    | whole _ g1 _ => exact digits_ne g1 '.' (by decide) (by rw [← hm]; simp)
    | point a' b' g1 g2 g3 =>
      have h1 := splitOn_append ha (b ++ '.' :: c)
      rw [hm, splitOn_append (digits_ne g1 '.' (by decide)), splitOn_none (digits_ne g2 '.' (by decide)), splitOn_append hb] at h1
      have h2 := (List.cons.inj h1).2
      have h3 := congrArg List.length h2
      have h4 : splitOn '.' c ≠ [] := by
        cases c with
        | nil => simp [splitOn]
        | cons d c =>
          rw [splitOn]
          split
          · simp
          · split <;> simp
      have h5 := List.length_pos_iff.2 h4
      simp at h3
      exact h4 h3

private theorem mantissa_chars {m : Str} {x : ℚ} (h : Mantissa m x) : m ≠ [] ∧ ∀ c ∈ m, c ∈ decimalDigits ∨ c = '.' := by
  cases h with
  | whole _ g1 g2 => exact ⟨g2, fun c hc => .inl (g1 c hc)⟩
  | point a b g1 g2 g3 =>
    refine ⟨by simp, fun c hc => ?_⟩
    simp only [List.mem_append, List.mem_cons] at hc
    rcases hc with hc | hc | hc
    · exact .inl (g1 c hc)
    · exact .inr hc
    · exact .inl (g2 c hc)

private theorem splitExp_inv (s : Str) : (splitExp s = (s, none)) ∨ ∃ e x, (e = 'e' ∨ e = 'E') ∧ s = (splitExp s).1 ++ e :: x ∧ (splitExp s).2 = some x := by
  unfold splitExp
  have h0 := List.takeWhile_append_dropWhile (p := fun c => c ≠ 'e' && c ≠ 'E') (l := s)
  split
  · exact .inl rfl
  · rename_i e x he
    refine .inr ⟨e, x, ?_, ?_, rfl⟩
    · have h1 : (s.dropWhile fun c => c ≠ 'e' && c ≠ 'E').head? = some e := by rw [he]; rfl
      have := List.head?_dropWhile_not (fun c => c ≠ 'e' && c ≠ 'E') s
      rw [h1] at this
      simp at this
      by_cases h : e = 'e'
      · exact .inl h
      · exact .inr (this h)
    · rw [← he]; exact h0.symm

private theorem splitExp_of {m : Str} (h : ∀ c ∈ m, c ≠ 'e' ∧ c ≠ 'E') : splitExp m = (m, none) ∧ ∀ e x, e = 'e' ∨ e = 'E' → splitExp (m ++ e :: x) = (m, some x) := by
  have hp : ∀ c ∈ m, (fun c => c ≠ 'e' && c ≠ 'E') c = true := fun c hc => by simp [h c hc]
  constructor
  · unfold splitExp
    rw [List.dropWhile_eq_nil_iff.2 hp]
  · intro e x he
    have he' : ¬((fun c : Char => decide (c ≠ 'e') && decide (c ≠ 'E')) e = true) := by rcases he with rfl | rfl <;> decide
    unfold splitExp
    rw [List.dropWhile_append_of_pos hp, List.takeWhile_append_of_pos hp, List.dropWhile_cons_of_neg (p := fun c : Char => decide (c ≠ 'e') && decide (c ≠ 'E')) he',
      List.takeWhile_cons_of_neg (p := fun c : Char => decide (c ≠ 'e') && decide (c ≠ 'E')) he', List.append_nil]

/-- **C127** (numbers).  `float(word)` is the number that the word denotes in decimal notation, and every other word is rejected. -/
theorem C127_number (w : Str) (q : ℚ) : parseFloat w = some q ↔ IsNumber w q := by
  unfold parseFloat
  constructor
  · intro h
    obtain ⟨b, b', hw, hb, hb'⟩ := strip_inv w
    obtain ⟨s, σ, hs, e, hx⟩ := sign_inv (strip w)
    simp only at h
    rcases splitExp_inv (takeSign (strip w)).2 with he | ⟨ec, x, hec, hsp, hsnd⟩
    · rw [he] at h
      simp only at h
      cases hd : parseDec (takeSign (strip w)).2 with
      | none => rw [hd] at h; cases h
      | some y =>
        rw [hd] at h
        have hm := (parseDec_iff _ _).1 hd
        refine ⟨b, s, σ, _, y, [], 0, b', by rw [List.append_nil, ← e]; exact hw, hb, hb', hs, hm, .none, ?_⟩
        have := Option.some.inj h
        rw [← this, hx y]; simp
    · rw [hsnd] at h
      cases hd : parseDec (splitExp (takeSign (strip w)).2).1 with
      | none => rw [hd] at h; cases h
      | some y =>
        rw [hd] at h
        simp only [Option.map_eq_some_iff] at h
        obtain ⟨n, h1, h2⟩ := h
        obtain ⟨g1, g2, g3⟩ := (parseNat_iff _ _).1 h1
        obtain ⟨s', σ', hs', e', hx'⟩ := sign_inv x
        have hm := (parseDec_iff _ _).1 hd
        refine ⟨b, s, σ, _, y, ec :: (s' ++ (takeSign x).2), σ' * digitsValue (takeSign x).2, b', ?_, hb, hb', hs, hm, .some ec s' _ σ' hec hs' g1 g2, ?_⟩
        · rw [← e', ← hsp, ← e]; exact hw
        · rw [← h2, hx, mul_assoc, ← g3]
          congr 1
          exact exp_value hs' _ hx' y n
  · rintro ⟨b, s, σ, m, x, e, n, b', rfl, hb, hb', hs, hm, he, rfl⟩
    obtain ⟨hmne, hmc⟩ := mantissa_chars hm
    have hmws : ∀ c ∈ m, isWs c = false := fun c hc => by
      rcases hmc c hc with h | rfl
      · exact digits_ws (w := [c]) (fun x hx => by rw [List.mem_singleton.1 hx]; exact h) c (by simp)
      · decide
    have hews : ∀ c ∈ e, isWs c = false := by
      cases he with
      | none => simp
      | some ec s' ds σ' hec hs' hd hne =>
        intro c hc
        simp only [List.mem_cons, List.mem_append] at hc
        rcases hc with rfl | hc | hc
        · rcases hec with rfl | rfl <;> decide
        · exact sign_ws hs' c hc
        · exact digits_ws hd c hc
    have hst : strip (b ++ (s ++ (m ++ e)) ++ b') = s ++ (m ++ e) := strip_blank hb hb' (fun c hc => by
      simp only [List.mem_append] at hc
      rcases hc with hc | hc | hc
      · exact sign_ws hs c hc
      · exact hmws c hc
      · exact hews c hc) (by simp [hmne])
    obtain ⟨h1, h2⟩ := sign_of (r := m ++ e) hs (fun c hc => by
      have hc' : c ∈ m := by
        cases m with
        | nil => exact absurd rfl hmne
        | cons d m => simp at hc; simp [hc]
      rcases hmc c hc' with h | rfl
      · exact ⟨fun e => by subst e; exact absurd h (by decide), fun e => by subst e; exact absurd h (by decide)⟩
      · exact ⟨by decide, by decide⟩)
    obtain ⟨k1, k2⟩ := splitExp_of (m := m) fun c hc => by
      rcases hmc c hc with h | rfl
      · exact ⟨fun e => by subst e; exact absurd h (by decide), fun e => by subst e; exact absurd h (by decide)⟩
      · exact ⟨by decide, by decide⟩
    have hdm := (parseDec_iff _ _).2 hm
    simp only [hst, h1]
    cases he with
    | none =>
      rw [List.append_nil] at h2 ⊢
      rw [k1]
      simp only [hdm, h2]
      simp
    | some ec s' ds σ' hec hs' hd hne =>
      rw [k2 ec _ hec]
      obtain ⟨i1, i2⟩ := sign_of (r := ds) hs' (fun c hc => by
        have hc' : c ∈ ds := List.mem_of_mem_head? hc
        exact ⟨fun e => digits_ne hd '+' (by decide) (e ▸ hc'), fun e => digits_ne hd '-' (by decide) (e ▸ hc')⟩)
      simp only [hdm, i1, (parseNat_iff ds _).2 ⟨hd, hne, rfl⟩, Option.map_some, h2, Option.some.injEq]
      rw [mul_assoc]
      congr 1
      exact exp_value hs' _ i2 x _

/-- **C127** (no guessing).  A word with any character other than digits, signs, the point, `e` and `E` (and blanks around) is no number: in particular Fortran's
`1.0d0`, a comma and a word with a blank inside are rejected. -/
theorem C127_rejected (w : Str) {c : Char} (hc : c ∈ w) (h : c ∉ "0123456789+-.eE \t\n\r\x0b\x0c\x1c\x1d\x1e\x1f".toList) :
    parseFloat w = none ∧ parseInt w = none := by
  have hd : c ∉ decimalDigits := fun hm => h (by
    have : ∀ x ∈ decimalDigits, x ∈ "0123456789+-.eE \t\n\r\x0b\x0c\x1c\x1d\x1e\x1f".toList := by decide
    exact this c hm)
  have hbl : ∀ b, Blanks b → c ∉ b := fun b hb hm => h (by
    have : ∀ x ∈ " \t\n\r\x0b\x0c\x1c\x1d\x1e\x1f".toList, x ∈ "0123456789+-.eE \t\n\r\x0b\x0c\x1c\x1d\x1e\x1f".toList := by decide
    exact this c (hb c hm))
  have hs : ∀ s σ, Sign s σ → c ∉ s := by
    intro s σ hs hm
    apply h
    cases hs with
    | none => cases hm
    | plus => rw [List.mem_singleton.1 hm]; decide
    | minus => rw [List.mem_singleton.1 hm]; decide
  constructor
  · cases hp : parseFloat w with
    | none => rfl
    | some q =>
      obtain ⟨b, s, σ, m, x, e, n, b', rfl, hb, hb', hsg, hm, he, -⟩ := (C127_number w q).1 hp
      exfalso
      simp only [List.mem_append] at hc
      rcases hc with (hc | hc | hc | hc) | hc
      · exact hbl b hb hc
      · exact hs s σ hsg hc
      · rcases (mantissa_chars hm).2 c hc with hc | rfl
        · exact hd hc
        · exact h (by decide)
      · cases he with
        | none => cases hc
        | some ec s' ds σ' hec hs' hds hne =>
          simp only [List.mem_cons, List.mem_append] at hc
          rcases hc with rfl | hc | hc
          · rcases hec with rfl | rfl <;> exact h (by decide)
          · exact hs _ _ hs' hc
          · exact hd (hds c hc)
      · exact hbl b' hb' hc
  · cases hp : parseInt w with
    | none => rfl
    | some z =>
      obtain ⟨b, s, σ, ds, b', rfl, hb, hb', hsg, hds, hne, -⟩ := (C127_integer w z).1 hp
      exfalso
      simp only [List.mem_append] at hc
      rcases hc with (hc | hc | hc) | hc
      · exact hbl b hb hc
      · exact hs s σ hsg hc
      · exact hd (hds c hc)
      · exact hbl b' hb' hc

/-- **C127** (integers are numbers).  A word that denotes an integer denotes the same number where a number is expected. -/
theorem C127_integer_is_number {w : Str} {z : ℤ} (h : parseInt w = some z) : parseFloat w = some (z : ℚ) := by
  obtain ⟨b, s, σ, ds, b', rfl, hb, hb', hsg, hds, hne, rfl⟩ := (C127_integer w z).1 h
  refine (C127_number _ _).2 ⟨b, s, σ, ds, _, [], 0, b', by rw [List.append_nil], hb, hb', hsg, .whole ds hds hne, .none, ?_⟩
  push_cast
  simp

/-- **C127** (words).  `line.split()` gives the words of the line: the maximal pieces without blanks, in order. -/
theorem C127_words (l : Str) (ws : List Str) : split l = ws ↔ IsWords l ws := by
  have hskip : ∀ b, Blanks b → ∀ t, split (b ++ t) = split t := by
    intro b hb t
    have hb' := blank_ws hb
    clear hb
    induction b with
    | nil => rfl
    | cons c b ih =>
      rw [List.cons_append, split_cons_ws (hb' c (by simp))]
      exact ih fun x hx => hb' x (by simp [hx])
  have htok : ∀ w, w ≠ [] → (∀ c ∈ w, ¬Blanks [c]) → IsToken w := fun w h1 h2 => ⟨h1, fun c hc => by
    cases h : isWs c with
    | false => rfl
    | true => exact absurd ((ws_iff c).1 h) (h2 c hc)⟩
  have hfwd : ∀ l ws, IsWords l ws → split l = ws := by
    intro l ws h
    induction h with
    | blank b hb => have := hskip b hb []; rw [List.append_nil] at this; exact this
    | last b w hb h1 h2 => rw [hskip b hb, split_token (htok w h1 h2)]
    | word b w c rest ws hb h1 h2 hc _ ih => rw [hskip b hb, split_token_ws (htok w h1 h2) ((ws_iff c).2 hc), ih]
  refine ⟨?_, hfwd l ws⟩
  rintro rfl
  have hex : ∀ (n : ℕ) (l : Str), l.length ≤ n → ∃ ws, IsWords l ws := by
    intro n
    induction n with
    | zero => intro l hl; exact ⟨[], by rw [List.eq_nil_of_length_eq_zero (by omega : l.length = 0)]; exact .blank [] (by intro c hc; cases hc)⟩
    | succ n ih =>
      intro l hl
      have e1 := List.takeWhile_append_dropWhile (p := isWs) (l := l)
      have hb : Blanks (l.takeWhile isWs) := fun c hc => (ws_iff c).1 (List.mem_takeWhile_imp hc) c (by simp)
      cases h2 : l.dropWhile isWs with
      | nil => exact ⟨[], by rw [h2, List.append_nil] at e1; rw [← e1]; exact .blank _ hb⟩
      | cons c t =>
        have hc : isWs c = false := by
          have := List.head?_dropWhile_not isWs l
          rw [h2] at this
          simpa using this
        have e2 := List.takeWhile_append_dropWhile (p := fun c => !isWs c) (l := c :: t)
        have hne : (c :: t).takeWhile (fun c => !isWs c) ≠ [] := by rw [List.takeWhile_cons_of_pos (by simp [hc])]; simp
        have hnb : ∀ x ∈ (c :: t).takeWhile (fun c => !isWs c), ¬Blanks [x] := fun x hx hbx => by
          have h3 := List.mem_takeWhile_imp hx
          rw [(ws_iff x).2 hbx] at h3
          simp at h3
        cases h3 : (c :: t).dropWhile (fun c => !isWs c) with
        | nil =>
          rw [h3, List.append_nil] at e2
          refine ⟨[c :: t], ?_⟩
          rw [← e1, h2]
          rw [e2] at hne hnb
          exact .last _ _ hb hne hnb
        | cons x r =>
          have hx : isWs x = true := by
            have := List.head?_dropWhile_not (fun c => !isWs c) (c :: t)
            rw [h3] at this
            simpa using this
          have hlen : r.length ≤ n := by
            have h4 := congrArg List.length e1
            have h5 := congrArg List.length e2
            rw [h3] at h5
            rw [h2] at h4
            simp only [List.length_append, List.length_cons] at h4 h5
            omega
          obtain ⟨ws, hws⟩ := ih r hlen
          refine ⟨(c :: t).takeWhile (fun c => !isWs c) :: ws, ?_⟩
          have e3 : l = l.takeWhile isWs ++ ((c :: t).takeWhile (fun c => !isWs c) ++ x :: r) := by rw [← h3, e2, ← h2, e1]
          have h6 := IsWords.word _ _ x r ws hb hne hnb ((ws_iff x).1 hx) hws
          rwa [← e3] at h6
  obtain ⟨ws, h⟩ := hex _ l le_rfl
  rw [hfwd l ws h]
  exact h

/-- Words that are numbers, and what they denote. -/
example : IsNumber "-12.50".toList (-25 / 2) ∧ IsNumber " +.5E-1\n".toList (1 / 20) ∧ IsNumber "7".toList 7 ∧ IsNumber "1e3".toList 1000 ∧
    IsInteger "-042".toList (-42) := by
  refine ⟨(C127_number _ _).1 ?_, (C127_number _ _).1 ?_, (C127_number _ _).1 ?_, (C127_number _ _).1 ?_, (C127_integer _ _).1 ?_⟩ <;> decide +kernel

/-- Words that are not numbers: Fortran's exponent, a point alone, two points, no digits in the exponent. -/
example : parseFloat "1.0d0".toList = none ∧ (∀ q, ¬IsNumber ".".toList q) ∧ (∀ q, ¬IsNumber "1.2.3".toList q) ∧ ∀ q, ¬IsNumber "1e".toList q := by
  refine ⟨(C127_rejected _ (c := 'd') (by decide) (by decide)).1, fun q h => ?_, fun q h => ?_, fun q h => ?_⟩
  · exact absurd ((C127_number _ _).2 h) (by rw [show parseFloat ".".toList = none by decide +kernel]; simp)
  · exact absurd ((C127_number _ _).2 h) (by rw [show parseFloat "1.2.3".toList = none by decide +kernel]; simp)
  · exact absurd ((C127_number _ _).2 h) (by rw [show parseFloat "1e".toList = none by decide +kernel]; simp)

example : IsWords "  1.0 abc\t2\n".toList ["1.0".toList, "abc".toList, "2".toList] := (C127_words _ _).1 (by decide +kernel)

end Interphon.Props
