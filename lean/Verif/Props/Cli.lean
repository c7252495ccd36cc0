import Verif.Model.Cli
import Verif.Lemmas.Text
import Verif.Props.Args
import Verif.Props.FileOrder

/-!
# The command line: option files (C79), the record of the pre-process (C76, C77, C78), which analyses run (C87), projection groups (C88)
-/

namespace Interphon.Props
open Py Interphon Interphon.Args Interphon.PreProcess Interphon.Cli

/-! ### Lines of an option file -/

/-- Only blanks. -/
def Blank (s : Str) : Prop := ∀ c ∈ s, isWs c = true

/-- No blank at either end. -/
def Trimmed (s : Str) : Prop := (∀ c, s.head? = some c → isWs c = false) ∧ ∀ c, s.getLast? = some c → isWs c = false

instance (s : Str) : Decidable (Blank s) := by unfold Blank; infer_instance

private theorem trimmed_of {s : Str} (h : (s.head?.all (fun c => !isWs c) && s.getLast?.all (fun c => !isWs c)) = true) : Trimmed s := by
  rw [Bool.and_eq_true] at h
  exact ⟨fun c hc => by simpa [hc] using h.1, fun c hc => by simpa [hc] using h.2⟩

/-- Nothing, or a comment. -/
def Comment (s : Str) : Prop := s = [] ∨ ∃ t, s = '#' :: t

/-- A blank line or a line with a comment only. -/
def IsIgnored (line : Str) : Prop := ∃ b c, Blank b ∧ Comment c ∧ line = b ++ c

/-- A line `key = value`, blanks around the two, a comment at the end allowed; `k` is the key in lower case. -/
def IsSetting (line k v : Str) : Prop := ∃ key b1 b2 b3 b4 c, Blank b1 ∧ Blank b2 ∧ Blank b3 ∧ Blank b4 ∧ Comment c ∧ Trimmed key ∧ Trimmed v ∧
  (∀ x ∈ key, x ≠ '#' ∧ x ≠ '=') ∧ (∀ x ∈ v, x ≠ '#' ∧ x ≠ '=') ∧ k = key.map Char.toLower ∧
  line = b1 ++ key ++ b2 ++ '=' :: (b3 ++ v ++ b4 ++ c)

theorem lstrip_blank {b : Str} (h : Blank b) (s : Str) : lstrip (b ++ s) = lstrip s := by
  unfold lstrip
  induction b with
  | nil => rfl
  | cons a b ih => rw [List.cons_append, List.dropWhile_cons_of_pos (h a (by simp)), ih fun c hc => h c (by simp [hc])]

theorem rstrip_blank {b : Str} (h : Blank b) (s : Str) : rstrip (s ++ b) = rstrip s := by
  have : Blank b.reverse := fun c hc => h c (by simpa using hc)
  have := lstrip_blank this s.reverse
  unfold rstrip
  unfold lstrip at this
  rw [List.reverse_append, this]

theorem lstrip_trim {s : Str} (h : ∀ c, s.head? = some c → isWs c = false) : lstrip s = s := by
  unfold lstrip
  cases s with
  | nil => rfl
  | cons a s => rw [List.dropWhile_cons_of_neg (by simp [h a rfl])]

theorem rstrip_trim {s : Str} (h : ∀ c, s.getLast? = some c → isWs c = false) : rstrip s = s := by
  have h' : lstrip s.reverse = s.reverse := lstrip_trim (by simpa using h)
  unfold rstrip
  unfold lstrip at h'
  rw [h', List.reverse_reverse]

theorem strip_trim {s : Str} (h : Trimmed s) : strip s = s := by
  rw [strip, lstrip_trim h.1, rstrip_trim h.2]

private theorem lstrip_eq (s : Str) : ∃ b, Blank b ∧ s = b ++ lstrip s ∧ ∀ c, (lstrip s).head? = some c → isWs c = false := by
  refine ⟨s.takeWhile isWs, fun c hc => by simpa using List.mem_takeWhile_imp hc, (List.takeWhile_append_dropWhile).symm, ?_⟩
  unfold lstrip
  induction s with
  | nil => simp
  | cons a s ih =>
    intro c
    by_cases ha : isWs a = true
    · rw [List.dropWhile_cons_of_pos ha]; exact ih c
    · rw [List.dropWhile_cons_of_neg ha]
      intro h; cases h; simpa using ha

private theorem rstrip_eq (s : Str) : ∃ b, Blank b ∧ s = rstrip s ++ b ∧ ∀ c, (rstrip s).getLast? = some c → isWs c = false := by
  obtain ⟨b, hb, e, hh⟩ := lstrip_eq s.reverse
  refine ⟨b.reverse, fun c hc => hb c (by simpa using hc), ?_, ?_⟩
  · have := congrArg List.reverse e
    rw [List.reverse_reverse, List.reverse_append] at this
    exact this
  · unfold rstrip; unfold lstrip at hh
    simpa using hh

private theorem blank_append {a b : Str} (ha : Blank a) (hb : Blank b) : Blank (a ++ b) := by
  intro c hc
  rcases List.mem_append.1 hc with h | h
  · exact ha c h
  · exact hb c h

private theorem splitOn_head (sep : Char) (s : Str) : (splitOn sep s).headD [] = s.takeWhile (· ≠ sep) := by
  induction s with
  | nil => rfl
  | cons c s ih =>
    rw [splitOn]
    by_cases h : c = sep
    · subst h; simp
    · rw [if_neg h, List.takeWhile_cons_of_pos (by simpa using h), ← ih]
      cases hs : splitOn sep s <;> simp

/-- **C79** (comments and blank lines).  A line is skipped exactly when it is blank or holds a comment only. -/
theorem C79_ignored_iff (line : Str) : parseLine line = .ok none ↔ IsIgnored line := by
  unfold parseLine
  simp only
  rw [splitOn_head]
  obtain ⟨b, hb, eb, hh⟩ := lstrip_eq line
  obtain ⟨b', hb', eb', hh'⟩ := rstrip_eq (lstrip line)
  change lstrip line = strip line ++ b' at eb'
  constructor
  · intro h
    have h0 : (strip line).takeWhile (· ≠ '#') = [] := by
      by_contra hne
      rw [if_neg hne] at h
      revert h
      split <;> simp
    cases hs : strip line with
    | nil =>
      rw [hs, List.nil_append] at eb'
      exact ⟨line, [], by rw [eb, eb']; exact blank_append hb hb', .inl rfl, by simp⟩
    | cons a t =>
      rw [hs] at h0
      have ha : a = '#' := by
        by_contra hne
        rw [List.takeWhile_cons_of_pos (by simpa using hne)] at h0
        cases h0
      subst ha
      rw [hs] at eb'
      exact ⟨b, _, hb, .inr ⟨t ++ b', rfl⟩, by rw [← List.cons_append, ← eb']; exact eb⟩
  · rintro ⟨b0, c, hb0, hc, rfl⟩
    have : (strip (b0 ++ c)).takeWhile (· ≠ '#') = [] := by
      rw [strip, lstrip_blank hb0]
      rcases hc with rfl | ⟨t, rfl⟩
      · rfl
      · have e1 : lstrip ('#' :: t) = '#' :: t := lstrip_trim (by intro c h; cases h; rfl)
        rw [e1]
        obtain ⟨b2, hb2, e2, -⟩ := rstrip_eq ('#' :: t)
        cases hr : rstrip ('#' :: t) with
        | nil =>
          rw [hr, List.nil_append] at e2
          exact absurd (hb2 '#' (by rw [← e2]; simp)) (by decide)
        | cons x y =>
          rw [hr, List.cons_append] at e2
          have : x = '#' := by cases e2; rfl
          subst this
          simp
    rw [if_pos this]

theorem lstrip_mid {x : Char} (hx : isWs x = false) (a r : Str) : lstrip (a ++ x :: r) = lstrip a ++ x :: r := by
  unfold lstrip
  induction a with
  | nil => rw [List.nil_append, List.dropWhile_cons_of_neg (by simp [hx])]; rfl
  | cons y a ih =>
    by_cases hy : isWs y = true
    · rw [List.cons_append, List.dropWhile_cons_of_pos hy, List.dropWhile_cons_of_pos hy, ih]
    · rw [List.cons_append, List.dropWhile_cons_of_neg hy, List.dropWhile_cons_of_neg hy, List.cons_append]

private theorem rstrip_mid {x : Char} (hx : isWs x = false) (a r : Str) : rstrip (a ++ x :: r) = a ++ x :: rstrip r := by
  have := lstrip_mid hx r.reverse a.reverse
  unfold rstrip
  unfold lstrip at this
  rw [List.reverse_append, List.reverse_cons, List.append_assoc, List.singleton_append, this]
  simp

theorem strip_mid {x : Char} (hx : isWs x = false) (a r : Str) : strip (a ++ x :: r) = lstrip a ++ x :: rstrip r := by
  rw [strip, lstrip_mid hx, rstrip_mid hx]

/-- `m` with blanks around it. -/
private def Padded (m s : Str) : Prop := ∃ b b', Blank b ∧ Blank b' ∧ s = b ++ m ++ b'

private theorem padded_lstrip' {m s : Str} (hm : Trimmed m) (h : Padded m s) : ∃ b', Blank b' ∧ lstrip s = m ++ b' := by
  obtain ⟨b, b', hb, hb', rfl⟩ := h
  rw [List.append_assoc, lstrip_blank hb]
  cases m with
  | nil =>
    refine ⟨[], by simp [Blank], ?_⟩
    have := lstrip_blank hb' []
    simpa [lstrip] using this
  | cons a t => exact ⟨b', hb', lstrip_trim fun c h => hm.1 c (by simpa using h)⟩

private theorem padded_lstrip {m s : Str} (hm : Trimmed m) (h : Padded m s) : Padded m (lstrip s) := by
  obtain ⟨b', hb', e⟩ := padded_lstrip' hm h
  exact ⟨[], b', by simp [Blank], hb', by rw [e]; rfl⟩

private theorem padded_rev {m s : Str} (h : Padded m s) : Padded m.reverse s.reverse := by
  obtain ⟨b, b', hb, hb', rfl⟩ := h
  exact ⟨b'.reverse, b.reverse, fun c hc => hb' c (by simpa using hc), fun c hc => hb c (by simpa using hc), by simp⟩

private theorem padded_rstrip {m s : Str} (hm : Trimmed m) (h : Padded m s) : Padded m (rstrip s) := by
  have := padded_rev (padded_lstrip (m := m.reverse) ⟨by simpa using hm.2, by simpa using hm.1⟩ (padded_rev h))
  rwa [List.reverse_reverse] at this

theorem padded_strip {m s : Str} (hm : Trimmed m) (h : Padded m s) : strip s = m := by
  obtain ⟨b', hb', e⟩ := padded_lstrip' hm h
  rw [strip, e, rstrip_blank hb', rstrip_trim hm.2]

private theorem takeWhile_all {p : Char → Bool} {s : Str} (h : ∀ x ∈ s, p x = true) (r : Str) : (s ++ r).takeWhile p = s ++ r.takeWhile p := by
  induction s with
  | nil => rfl
  | cons a s ih => rw [List.cons_append, List.takeWhile_cons_of_pos (h a (by simp)), ih fun x hx => h x (by simp [hx]), List.cons_append]

private theorem mem_lstrip {s : Str} {x : Char} (h : x ∈ lstrip s) : x ∈ s := (List.dropWhile_suffix _).subset h
private theorem mem_rstrip {s : Str} {x : Char} (h : x ∈ rstrip s) : x ∈ s := by
  have : x ∈ lstrip s.reverse := by unfold rstrip at h; simpa [lstrip] using h
  simpa using mem_lstrip this

/-- **C79** (settings).  A line `key = value` is read as the key in lower case and the value, whatever the blanks and the comment. -/
theorem C79_setting_line (line k v : Str) (h : IsSetting line k v) : parseLine line = .ok (some (k, v)) := by
  obtain ⟨key, b1, b2, b3, b4, c, hb1, hb2, hb3, hb4, hc, tk, tv, nk, nv, rfl, rfl⟩ := h
  have nb : ∀ {b : Str}, Blank b → ∀ x ∈ b, x ≠ '#' ∧ x ≠ '=' := by
    intro b hb x hx
    have := hb x hx
    constructor <;> · rintro rfl; revert this; decide
  have heq : isWs '=' = false := by decide
  have nA : ∀ x ∈ b1 ++ key ++ b2, x ≠ '#' ∧ x ≠ '=' := by
    intro x hx
    simp only [List.mem_append] at hx
    rcases hx with (hx | hx) | hx
    · exact nb hb1 x hx
    · exact nk x hx
    · exact nb hb2 x hx
  have nB : ∀ x ∈ b3 ++ v ++ b4, x ≠ '#' ∧ x ≠ '=' := by
    intro x hx
    simp only [List.mem_append] at hx
    rcases hx with (hx | hx) | hx
    · exact nb hb3 x hx
    · exact nv x hx
    · exact nb hb4 x hx
  have pA : Padded key (b1 ++ key ++ b2) := ⟨b1, b2, hb1, hb2, rfl⟩
  have pB : Padded v (b3 ++ v ++ b4) := ⟨b3, b4, hb3, hb4, rfl⟩
  generalize b1 ++ key ++ b2 = A at *
  generalize b3 ++ v ++ b4 = B at *
  -- the part before the comment
  have hl : ∃ Q, Padded v Q ∧ (∀ x ∈ Q, x ≠ '#' ∧ x ≠ '=') ∧ (strip (A ++ '=' :: (B ++ c))).takeWhile (· ≠ '#') = lstrip A ++ '=' :: Q := by
    have t1 : ∀ r : Str, (lstrip A ++ '=' :: r).takeWhile (· ≠ '#') = lstrip A ++ '=' :: r.takeWhile (· ≠ '#') := by
      intro r
      rw [takeWhile_all (by intro x hx; simpa using (nA x (mem_lstrip hx)).1), List.takeWhile_cons_of_pos (by decide)]
    rw [strip_mid heq, t1]
    rcases hc with rfl | ⟨t, rfl⟩
    · refine ⟨rstrip B, padded_rstrip tv pB, fun x hx => nB x (mem_rstrip hx), ?_⟩
      have := takeWhile_all (p := (· ≠ '#')) (s := rstrip B) (by intro x hx; simpa using (nB x (mem_rstrip hx)).1) []
      simp only [List.append_nil, List.takeWhile_nil] at this
      rw [List.append_nil, this]
    · refine ⟨B, pB, nB, ?_⟩
      rw [rstrip_mid (by decide), takeWhile_all (by intro x hx; simpa using (nB x hx).1), List.takeWhile_cons_of_neg (by decide), List.append_nil]
  obtain ⟨Q, pQ, nQ, hl⟩ := hl
  unfold parseLine
  simp only
  rw [splitOn_head, hl, if_neg (by simp), strip_mid heq, splitOn_append, splitOn_none]
  · simp only
    rw [padded_strip tk (padded_lstrip tk (padded_lstrip tk pA)), padded_strip tv (padded_rstrip tv pQ)]
  · exact fun h => (nQ _ (mem_rstrip h)).2 rfl
  · exact fun h => (nA _ (mem_lstrip (mem_lstrip h))).2 rfl

/-- **C79** (limit).  A second `=` cuts the value short without notice, and a line without `=` is an exception. -/
theorem C79_value_with_equals_refuted :
    parseLine "unitcell = a=b/POSCAR".toList = .ok (some ("unitcell".toList, "a".toList)) ∧ parseLine "sym".toList = .error .indexError := by decide +kernel

/-! ### Option files -/

/-- The settings of a file, in the order of its lines. -/
inductive FileSets : List Str → List (Str × Str) → Prop
  | nil : FileSets [] []
  | skip {line ls sets} : IsIgnored line → FileSets ls sets → FileSets (line :: ls) sets
  | set {line ls sets k v} : IsSetting line k v → FileSets ls sets → FileSets (line :: ls) ((k, v) :: sets)

/-- The key `k` (in lower case) names option number `i`. -/
def Names (k : Str) (i : ℕ) : Prop := ∃ s, optTable[i]? = some s ∧ k ∈ s.names

/-- The text `v` is a value of the given kind, and stands for `a`. -/
def Denotes : Kind → Str → PyAtom → Prop
  | .text, v, a => a = .str v
  | .choice l, v, a => v ∈ l ∧ a = .str v
  | .int, v, a => ∃ n, parseInt v = some n ∧ a = .int n
  | .float, v, a => ∃ q, parseFloat v = some q ∧ a = .float q

/-- The setting `v` of key `k` gives option `i` the value `a`. -/
def Gives (k v : Str) (i : ℕ) (a : PyAtom) : Prop := ∃ s, optTable[i]? = some s ∧ k ∈ s.names ∧ Denotes s.kind v a

/-- Each option is spelled in one way only. -/
def OneSpelling (sets : List (Str × Str)) : Prop := ∀ x ∈ sets, ∀ y ∈ sets, ∀ i, Names x.1 i → Names y.1 i → x.1 = y.1

/-- `(k, v)` is the last setting of the key `k`. -/
def LastSetting (sets : List (Str × Str)) (k v : Str) : Prop := ∃ l r, sets = l ++ (k, v) :: r ∧ ∀ x ∈ r, x.1 ≠ k

private theorem convert_iff (K : Kind) (v : Str) (a : PyAtom) : convert K v = .ok a ↔ Denotes K v a := by
  cases K with
  | text => simp [convert, Denotes, eq_comm]
  | choice l =>
    unfold convert Denotes
    by_cases h : v ∈ l <;> simp [h, eq_comm]
  | int =>
    unfold convert Denotes
    cases h : parseInt v <;> simp [h, eq_comm (a := a)]
  | float =>
    unfold convert Denotes
    cases h : parseFloat v <;> simp [h, eq_comm (a := a)]

private theorem names_unique {k : Str} {i j : ℕ} (hi : Names k i) (hj : Names k j) : i = j := by
  obtain ⟨s, es, ks⟩ := hi
  obtain ⟨t, et, kt⟩ := hj
  have hil : i < optTable.length := (List.getElem?_eq_some_iff.1 es).1
  have hjl : j < optTable.length := (List.getElem?_eq_some_iff.1 et).1
  have key : ((List.range optTable.length).all fun i => (List.range optTable.length).all fun j => i == j ||
      ((optTable[i]?.map OptSpec.names).getD []).all fun k => !((optTable[j]?.map OptSpec.names).getD []).contains k) = true := by
    decide +kernel
  by_contra hne
  rw [List.all_eq_true] at key
  have k1 := key i (List.mem_range.2 hil)
  rw [List.all_eq_true] at k1
  have k2 := k1 j (List.mem_range.2 hjl)
  rw [es, et] at k2
  simp only [beq_iff_eq, hne, Option.map_some, Option.getD_some, Bool.or_eq_true, false_or, List.all_eq_true] at k2
  have := k2 k ks
  simp [kt] at this

private theorem findIdx_iff (k : Str) (i : ℕ) : optTable.findIdx? (fun s => decide (k ∈ s.names)) = some i ↔ Names k i := by
  constructor
  · intro h
    rw [List.findIdx?_eq_some_iff_getElem] at h
    obtain ⟨hl, hk, -⟩ := h
    exact ⟨_, List.getElem?_eq_getElem hl, by simpa using hk⟩
  · intro h
    cases hf : optTable.findIdx? (fun s => decide (k ∈ s.names)) with
    | none =>
      rw [List.findIdx?_eq_none_iff] at hf
      obtain ⟨s, es, ks⟩ := h
      have := hf s (List.mem_of_getElem? es)
      simp [ks] at this
    | some j =>
      have h' := hf
      rw [List.findIdx?_eq_some_iff_getElem] at h'
      obtain ⟨hl, hk, -⟩ := h'
      rw [names_unique h ⟨_, List.getElem?_eq_getElem hl, by simpa using hk⟩]

private theorem applyOption_iff (o o' : Opts) (k v : Str) : applyOption o k v = .ok o' ↔
    ((∀ i, ¬Names k i) ∧ o' = o) ∨ ∃ i a, Gives k v i a ∧ o' = Function.update o i a := by
  unfold applyOption
  cases hf : optTable.findIdx? (fun s => decide (k ∈ s.names)) with
  | none =>
    have hn : ∀ i, ¬Names k i := fun i h => by rw [(findIdx_iff k i).2 h] at hf; cases hf
    simp only [Except.ok.injEq]
    constructor
    · rintro rfl; exact .inl ⟨hn, rfl⟩
    · rintro (⟨-, rfl⟩ | ⟨i, a, ⟨s, es, ks, -⟩, -⟩)
      · rfl
      · exact absurd ⟨s, es, ks⟩ (hn i)
  | some i =>
    have hi := (findIdx_iff k i).1 hf
    obtain ⟨s, es, ks⟩ := hi
    simp only [es, Option.map_some, Option.getD_some]
    constructor
    · intro h
      cases hc : convert s.kind v with
      | error e => simp [hc] at h
      | ok a =>
        simp only [hc, Except.ok.injEq] at h
        exact .inr ⟨i, a, ⟨s, es, ks, (convert_iff _ _ _).1 hc⟩, h.symm⟩
    · rintro (⟨h, -⟩ | ⟨j, a, ⟨t, et, kt, dt⟩, rfl⟩)
      · exact absurd ⟨s, es, ks⟩ (h i)
      · have : i = j := names_unique ⟨s, es, ks⟩ ⟨t, et, kt⟩
        subst this
        rw [es] at et; cases et
        rw [(convert_iff _ _ _).2 dt]

/-- What the dictionary must be to give a well-defined result: each option once. -/
private def Once (d : List (Str × Str)) : Prop := d.Pairwise fun x y => ∀ i, Names x.1 i → ¬Names y.1 i

private theorem applyAll_iff : ∀ (d : List (Str × Str)) (o o' : Opts), Once d →
    (applyAll o d = .ok o' ↔ (∀ i, (∀ x ∈ d, ¬Names x.1 i) → o' i = o i) ∧ ∀ x ∈ d, ∀ i, Names x.1 i → Gives x.1 x.2 i (o' i)) := by
  intro d
  induction d with
  | nil =>
    intro o o' _
    simp only [applyAll, Except.ok.injEq, List.not_mem_nil, false_imp_iff, implies_true, true_imp_iff, and_true]
    exact ⟨by rintro rfl; simp, fun h => funext fun i => (h i).symm⟩
  | cons x d ih =>
    obtain ⟨k, v⟩ := x
    intro o o' hd
    rw [Once, List.pairwise_cons] at hd
    rw [applyAll]
    constructor
    · intro h
      cases ha : applyOption o k v with
      | error e => simp [ha] at h
      | ok o1 =>
        simp only [ha] at h
        obtain ⟨h1, h2⟩ := (ih o1 o' hd.2).1 h
        rcases (applyOption_iff o o1 k v).1 ha with ⟨hn, rfl⟩ | ⟨i, a, hg, rfl⟩
        · refine ⟨fun j hj => h1 j fun x hx => hj x (by simp [hx]), fun x hx j hj => ?_⟩
          rcases List.mem_cons.1 hx with rfl | hx
          · exact absurd hj (hn j)
          · exact h2 x hx j hj
        · have hni : Names k i := by obtain ⟨s, es, ks, -⟩ := hg; exact ⟨s, es, ks⟩
          refine ⟨fun j hj => ?_, fun x hx j hj => ?_⟩
          · rw [h1 j fun x hx => hj x (by simp [hx])]
            have : j ≠ i := by rintro rfl; exact hj (k, v) (by simp) hni
            simp [Function.update, this]
          · rcases List.mem_cons.1 hx with rfl | hx
            · have : j = i := names_unique hj hni
              subst this
              rw [h1 j fun x hx => hd.1 x hx j hni]
              simpa using hg
            · exact h2 x hx j hj
    · rintro ⟨h1, h2⟩
      have hx : ∃ o1, applyOption o k v = .ok o1 ∧ (∀ i, (∀ x ∈ d, ¬Names x.1 i) → o' i = o1 i) := by
        by_cases hn : ∃ i, Names k i
        · obtain ⟨i, hi⟩ := hn
          refine ⟨Function.update o i (o' i), (applyOption_iff _ _ _ _).2 (.inr ⟨i, o' i, h2 (k, v) (by simp) i hi, rfl⟩), fun j hj => ?_⟩
          by_cases hji : j = i
          · subst hji; simp
          · rw [Function.update_of_ne hji]
            exact h1 j fun x hx => by
              rcases List.mem_cons.1 hx with rfl | hx
              · exact fun h => hji (names_unique h hi)
              · exact hj x hx
        · push Not at hn
          refine ⟨o, (applyOption_iff _ _ _ _).2 (.inl ⟨hn, rfl⟩), fun j hj => h1 j fun x hx => ?_⟩
          rcases List.mem_cons.1 hx with rfl | hx
          · exact hn j
          · exact hj x hx
      obtain ⟨o1, ho1, ho2⟩ := hx
      simp only [ho1]
      exact (ih o1 o' hd.2).2 ⟨ho2, fun x hx => h2 x (by simp [hx])⟩

private theorem readDict_eq {ls : List Str} {sets : List (Str × Str)} (h : FileSets ls sets) :
    ∀ d, readDict ls d = .ok (sets.foldl (fun d x => dictSet d x.1 x.2) d) := by
  induction h with
  | nil => intro d; rfl
  | skip hi _ ih => intro d; rw [readDict, (C79_ignored_iff _).2 hi]; exact ih d
  | set hs _ ih => intro d; rw [readDict, C79_setting_line _ _ _ hs]; exact ih _

private theorem mem_dictSet (d : List (Str × Str)) (k v : Str) (hd : (d.map Prod.fst).Nodup) :
    ((dictSet d k v).map Prod.fst).Nodup ∧ ∀ x, x ∈ dictSet d k v ↔ x = (k, v) ∨ (x ∈ d ∧ x.1 ≠ k) := by
  induction d with
  | nil => simp [dictSet]
  | cons y d ih =>
    obtain ⟨k', v'⟩ := y
    rw [List.map_cons, List.nodup_cons] at hd
    obtain ⟨i1, i2⟩ := ih hd.2
    rw [dictSet]
    by_cases h : k' = k
    · subst h
      rw [if_pos rfl]
      refine ⟨by rw [List.map_cons, List.nodup_cons]; exact hd, fun x => ?_⟩
      simp only [List.mem_cons]
      constructor
      · rintro (rfl | hx)
        · exact .inl rfl
        · exact .inr ⟨.inr hx, fun e => hd.1 (List.mem_map.2 ⟨x, hx, e⟩)⟩
      · rintro (rfl | ⟨rfl | hx, hne⟩)
        · exact .inl rfl
        · exact absurd rfl hne
        · exact .inr hx
    · rw [if_neg h]
      refine ⟨?_, fun x => ?_⟩
      · rw [List.map_cons, List.nodup_cons]
        refine ⟨fun hm => ?_, i1⟩
        obtain ⟨x, hx, e⟩ := List.mem_map.1 hm
        rcases (i2 x).1 hx with rfl | ⟨hx, -⟩
        · exact h e.symm
        · exact hd.1 (List.mem_map.2 ⟨x, hx, e⟩)
      · simp only [List.mem_cons, i2]
        constructor
        · rintro (rfl | rfl | hx)
          · exact .inr ⟨.inl rfl, h⟩
          · exact .inl rfl
          · exact .inr ⟨.inr hx.1, hx.2⟩
        · rintro (rfl | ⟨rfl | hx, hne⟩)
          · exact .inr (.inl rfl)
          · exact .inl rfl
          · exact .inr (.inr ⟨hx, hne⟩)

private theorem dict_spec (sets : List (Str × Str)) : ((sets.foldl (fun d x => dictSet d x.1 x.2) []).map Prod.fst).Nodup ∧
    ∀ x, x ∈ sets.foldl (fun d x => dictSet d x.1 x.2) [] ↔ LastSetting sets x.1 x.2 := by
  induction sets using List.reverseRecOn with
  | nil => simp [LastSetting]
  | append_singleton l y ih =>
    obtain ⟨k, v⟩ := y
    rw [List.foldl_append]
    simp only [List.foldl_cons, List.foldl_nil]
    obtain ⟨a1, a2⟩ := mem_dictSet _ k v ih.1
    refine ⟨a1, fun x => ?_⟩
    rw [a2, ih.2]
    constructor
    · rintro (rfl | ⟨⟨p, r, rfl, hr⟩, hne⟩)
      · exact ⟨l, [], rfl, by simp⟩
      · refine ⟨p, r ++ [(k, v)], by simp, fun y hy => ?_⟩
        rcases List.mem_append.1 hy with hy | hy
        · exact hr y hy
        · simp only [List.mem_singleton] at hy; subst hy; exact fun e => hne e.symm
    · rintro ⟨p, r, e, hr⟩
      rcases List.eq_nil_or_concat r with rfl | ⟨r', y, rfl⟩
      · have := (List.append_inj' e rfl).2
        simp only [List.cons.injEq, and_true] at this
        exact .inl (by rw [this])
      · rw [List.concat_eq_append] at e hr
        rw [← List.cons_append, ← List.append_assoc] at e
        obtain ⟨e1, e2⟩ := List.append_inj' e rfl
        simp only [List.cons.injEq, and_true] at e2
        refine .inr ⟨⟨p, r', e1, fun y hy => hr y (by simp [hy])⟩, fun e => hr y (by simp) ?_⟩
        rw [← e2]; exact e.symm

/-- **C79.**  A file made of comments, blank lines and settings, each option spelled in one way only.  It is accepted with the resulting options `o'` exactly when:
an option named by no line keeps its value, and the last line of every key that names an option denotes the value of that option in `o'`.
Keys that name no option have no effect. -/
theorem C79_file_partial (o o' : Opts) (ls : List Str) (sets : List (Str × Str)) (h : FileSets ls sets) (h1 : OneSpelling sets) :
    readOptions o ls = .ok o' ↔
      (∀ i, (∀ x ∈ sets, ¬Names x.1 i) → o' i = o i) ∧ ∀ k v i, LastSetting sets k v → Names k i → Gives k v i (o' i) := by
  unfold readOptions
  rw [readDict_eq h]
  obtain ⟨a1, a2⟩ := dict_spec sets
  have sub : ∀ x, LastSetting sets x.1 x.2 → x ∈ sets := by rintro x ⟨p, r, e, -⟩; rw [e]; simp
  have hO : Once (sets.foldl (fun d x => dictSet d x.1 x.2) []) := by
    unfold Once
    rw [List.Nodup, List.pairwise_map] at a1
    refine List.Pairwise.imp_of_mem ?_ a1
    intro x y hx hy hne i hi hj
    exact hne (h1 x (sub x ((a2 x).1 hx)) y (sub y ((a2 y).1 hy)) i hi hj)
  simp only
  rw [applyAll_iff _ _ _ hO]
  have last : ∀ x ∈ sets, ∃ v, LastSetting sets x.1 v := by
    clear h h1 a1 a2 sub hO
    intro x hx
    induction sets using List.reverseRecOn with
    | nil => cases hx
    | append_singleton l y ih =>
      by_cases e : y.1 = x.1
      · exact ⟨y.2, l, [], by rw [← e], by simp⟩
      · have hx : x ∈ l := by
          rcases List.mem_append.1 hx with h | h
          · exact h
          · simp only [List.mem_singleton] at h; exact absurd (by rw [h]) e
        obtain ⟨v, p, r, rfl, hr⟩ := ih hx
        refine ⟨v, p, r ++ [y], by simp, fun z hz => ?_⟩
        rcases List.mem_append.1 hz with hz | hz
        · exact hr z hz
        · simp only [List.mem_singleton] at hz; subst hz; exact e
  constructor
  · rintro ⟨b1, b2⟩
    refine ⟨fun i hi => b1 i fun x hx => hi x (sub x ((a2 x).1 hx)), fun k v i hl hn => b2 (k, v) ((a2 (k, v)).2 hl) i hn⟩
  · rintro ⟨b1, b2⟩
    refine ⟨fun i hi => b1 i fun x hx hn => ?_, fun x hx i hn => b2 x.1 x.2 i ((a2 x).1 hx) hn⟩
    obtain ⟨v, hv⟩ := last x hx
    exact hi (x.1, v) ((a2 (x.1, v)).2 hv) hn

/-- **C79** (order).  Two files with the same settings, no key twice and each option spelled in one way, in any order of the lines and with any comments,
give the same options, or are both rejected. -/
theorem C79_order (o : Opts) (ls ls' : List Str) (sets sets' : List (Str × Str)) (h : FileSets ls sets) (h' : FileSets ls' sets')
    (hp : sets.Perm sets') (hnd : (sets.map Prod.fst).Nodup) (h1 : OneSpelling sets) (o' : Opts) :
    readOptions o ls = .ok o' ↔ readOptions o ls' = .ok o' := by
  have h1' : OneSpelling sets' := fun x hx y hy i => h1 x (hp.mem_iff.2 hx) y (hp.mem_iff.2 hy) i
  rw [C79_file_partial o o' ls sets h h1, C79_file_partial o o' ls' sets' h' h1']
  have last : ∀ {s : List (Str × Str)}, (s.map Prod.fst).Nodup → ∀ k v, LastSetting s k v ↔ (k, v) ∈ s := by
    intro s hs k v
    constructor
    · rintro ⟨p, r, rfl, -⟩; simp
    · intro hm
      obtain ⟨p, r, rfl⟩ := List.append_of_mem hm
      refine ⟨p, r, rfl, fun x hx e => ?_⟩
      rw [List.map_append, List.map_cons, List.nodup_append, List.nodup_cons] at hs
      exact hs.2.1.1 (List.mem_map.2 ⟨x, hx, e⟩)
  have hnd' : (sets'.map Prod.fst).Nodup := (hp.map Prod.fst).nodup_iff.1 hnd
  simp only [last hnd, last hnd', hp.mem_iff]

/-- The value of the displacement after an option file, if the file is accepted. -/
private def dispOf (lines : List Str) : Option PyAtom := match readOptions (fun _ => .none) lines with
  | .ok o => some (o 1)
  | .error _ => none

/-- **C79** (refuted in general).  With two spellings of one option the last line need not win: the option keeps the value of the line `displacement=2`, although
`disp=3` comes later; and exchanging two lines with different keys changes the result. -/
theorem C79_two_spellings_refuted :
    dispOf ["disp=1".toList, "displacement=2".toList, "disp=3".toList] = some (.str "2".toList) ∧
    dispOf ["displacement=2".toList, "disp=3".toList] = some (.str "3".toList) ∧
    dispOf ["disp=3".toList, "displacement=2".toList] = some (.str "2".toList) := by decide +kernel

/-- The options that take a whole number, in both spellings. -/
def integerOptions : List Str := ["number_dos".toList, "ndos".toList, "temperature_minimum".toList, "tmin".toList, "temperature_maximum".toList, "tmax".toList,
  "temperature_step".toList, "tstep".toList]

/-- The options that take a number. -/
def realOptions : List Str := ["sigma".toList, "sig".toList]

/-- The options that take one of a few words: the spellings and the words. -/
def choiceOptions : List (List Str × List Str) := [
  (["dft".toList, "dft_code".toList], ["vasp".toList, "espresso".toList, "aims".toList]),
  (["projection_option_dos".toList, "option_dos".toList], ["plain".toList, "line".toList, "stack".toList]),
  (["image_orientation_dos".toList, "orientation_dos".toList], ["horizontal".toList, "vertical".toList]),
  (["legend_location_dos".toList, "legend_loc_dos".toList], ["best".toList, "upper right".toList, "upper left".toList, "lower left".toList, "lower right".toList,
    "right".toList, "center left".toList, "center right".toList, "lower center".toList, "upper center".toList, "center".toList]),
  (["projection_option_band".toList, "option_band".toList], ["plain".toList, "projection".toList]),
  (["colorbar_location_band".toList, "bar_loc_band".toList], ["right".toList, "bottom".toList])]

/-- The options whose text is kept as it is written. -/
def textOptions : List Str := ["displacement".toList, "disp".toList, "enlargement".toList, "enlarge".toList, "periodicity".toList, "pbc".toList, "unitcell".toList,
  "c".toList, "supercell".toList, "sc".toList, "kpoint_dos".toList, "kdos".toList, "projection_atom_dos".toList, "atom_dos".toList,
  "projection_legend_dos".toList, "legend_dos".toList, "energy_limit".toList, "elimit".toList, "tdos_color_dos".toList, "color_dos".toList,
  "kpoint_band".toList, "kband".toList, "kpoint_label_band".toList, "k_label_band".toList, "projection_atom_band".toList, "atom_band".toList,
  "total_color_band".toList, "color_band".toList, "colorbar_label_band".toList, "bar_label_band".toList, "index_mode".toList, "ind_mode".toList,
  "k_point_mode".toList, "kpt_mode".toList, "displacement_amplitude_mode".toList, "disp_amp_mode".toList]

/-- Outcome of a file with a single setting of the option number `i`. -/
def OnlySets (o : Opts) (r : Run Opts) (i : ℕ) (a : PyAtom) : Prop := ∃ o', r = .ok o' ∧ o' i = a ∧ ∀ j ≠ i, o' j = o j

private theorem one_line (o : Opts) {line k v : Str} (h : IsSetting line k v) {i : ℕ} {K : Kind}
    (hi : optTable.findIdx? (fun s => decide (k ∈ s.names)) = some i) (hK : optTable[i]?.map OptSpec.kind = some K) :
    (∀ a, convert K v = .ok a → OnlySets o (readOptions o [line]) i a) ∧ ∀ e, convert K v = .error e → readOptions o [line] = .error e := by
  have e0 : readOptions o [line] = (match convert K v with | .error e => .error e | .ok a => .ok (Function.update o i a)) := by
    unfold readOptions
    rw [readDict, C79_setting_line _ _ _ h]
    simp only [readDict, dictSet, applyAll, applyOption, hi, hK, Option.getD_some]
    cases convert K v <;> rfl
  constructor
  · intro a ha
    rw [e0, ha]
    exact ⟨_, rfl, Function.update_self .., fun j hj => Function.update_of_ne hj ..⟩
  · intro e he
    rw [e0, he]

/-- **C79** (whole numbers).  A setting of one of the whole-number options, in any layout of the line, gives that option the number written and changes no other
option; a text that is no whole number is a `ValueError`. -/
theorem C79_integer_setting (o : Opts) (line k v : Str) (h : IsSetting line k v) (hk : k ∈ integerOptions) :
    (∀ n : ℤ, parseInt v = some n → ∃ i, Names k i ∧ OnlySets o (readOptions o [line]) i (.int n)) ∧
      (parseInt v = none → readOptions o [line] = .error .valueError) := by
  have hi : ∀ k ∈ integerOptions, ∃ i < optTable.length, optTable.findIdx? (fun s => decide (k ∈ s.names)) = some i ∧
      optTable[i]?.map OptSpec.kind = some .int ∧ k ∈ (optTable[i]?.map OptSpec.names).getD [] := by decide +kernel
  obtain ⟨i, -, h1, h2, h3⟩ := hi k hk
  obtain ⟨g1, g2⟩ := one_line o h h1 h2
  have hn : Names k i := by
    obtain ⟨s, hs, -⟩ := Option.map_eq_some_iff.1 h2
    refine ⟨s, hs, ?_⟩
    rw [hs] at h3; exact h3
  refine ⟨fun n hv => ⟨i, hn, g1 _ (by simp [convert, hv])⟩, fun hv => g2 _ (by simp [convert, hv])⟩

/-- **C79** (numbers).  A setting of the smearing width gives it the decimal number written; a text that is no number is a `ValueError`. -/
theorem C79_real_setting (o : Opts) (line k v : Str) (h : IsSetting line k v) (hk : k ∈ realOptions) :
    (∀ q : ℚ, parseFloat v = some q → ∃ i, Names k i ∧ OnlySets o (readOptions o [line]) i (.float q)) ∧
      (parseFloat v = none → readOptions o [line] = .error .valueError) := by
  have hi : ∀ k ∈ realOptions, ∃ i < optTable.length, optTable.findIdx? (fun s => decide (k ∈ s.names)) = some i ∧
      optTable[i]?.map OptSpec.kind = some .float ∧ k ∈ (optTable[i]?.map OptSpec.names).getD [] := by decide +kernel
  obtain ⟨i, -, h1, h2, h3⟩ := hi k hk
  obtain ⟨g1, g2⟩ := one_line o h h1 h2
  have hn : Names k i := by
    obtain ⟨s, hs, -⟩ := Option.map_eq_some_iff.1 h2
    refine ⟨s, hs, ?_⟩
    rw [hs] at h3; exact h3
  refine ⟨fun n hv => ⟨i, hn, g1 _ (by simp [convert, hv])⟩, fun hv => g2 _ (by simp [convert, hv])⟩

/-- **C79** (choices).  A setting of one of the options with a few allowed words is stored if the word is allowed, and raises otherwise. -/
theorem C79_choice_setting (o : Opts) (line k v : Str) (h : IsSetting line k v) (names words : List Str) (hc : (names, words) ∈ choiceOptions) (hk : k ∈ names) :
    (v ∈ words → ∃ i, Names k i ∧ OnlySets o (readOptions o [line]) i (.str v)) ∧ (v ∉ words → readOptions o [line] = .error .exception) := by
  have hi : ∀ x ∈ choiceOptions, ∀ k ∈ x.1, ∃ i < optTable.length, optTable.findIdx? (fun s => decide (k ∈ s.names)) = some i ∧
      optTable[i]?.map OptSpec.kind = some (.choice x.2) ∧ k ∈ (optTable[i]?.map OptSpec.names).getD [] := by decide +kernel
  obtain ⟨i, -, h1, h2, h3⟩ := hi _ hc k hk
  obtain ⟨g1, g2⟩ := one_line o h h1 h2
  have hn : Names k i := by
    obtain ⟨s, hs, -⟩ := Option.map_eq_some_iff.1 h2
    refine ⟨s, hs, ?_⟩
    rw [hs] at h3; exact h3
  refine ⟨fun hv => ⟨i, hn, g1 _ (by simp [convert, hv])⟩, fun hv => g2 _ (by simp [convert, hv])⟩

/-- **C79** (texts).  A setting of any of the remaining options keeps the text as it is written. -/
theorem C79_text_setting (o : Opts) (line k v : Str) (h : IsSetting line k v) (hk : k ∈ textOptions) :
    ∃ i, Names k i ∧ OnlySets o (readOptions o [line]) i (.str v) := by
  have hi : ∀ k ∈ textOptions, ∃ i < optTable.length, optTable.findIdx? (fun s => decide (k ∈ s.names)) = some i ∧
      optTable[i]?.map OptSpec.kind = some .text ∧ k ∈ (optTable[i]?.map OptSpec.names).getD [] := by decide +kernel
  obtain ⟨i, -, h1, h2, h3⟩ := hi k hk
  obtain ⟨s, hs, -⟩ := Option.map_eq_some_iff.1 h2
  refine ⟨i, ⟨s, hs, ?_⟩, (one_line o h h1 h2).1 _ (by simp [convert])⟩
  rw [hs] at h3; exact h3

/-- **C79** (spellings).  No key names two options. -/
theorem C79_one_option (k : Str) (i j : ℕ) (h : Names k i) (h' : Names k j) : i = j :=
  Option.some.inj (((findIdx_iff k i).2 h).symm.trans ((findIdx_iff k j).2 h'))

/-- Non-vacuity of the four theorems: lines that set such options. -/
example : IsSetting "NDOS = 400\n".toList "ndos".toList "400".toList ∧ parseInt "400".toList = some 400 ∧ parseInt "4.5".toList = none ∧
    parseFloat "0.1".toList = some (1 / 10) ∧ parseFloat "narrow".toList = none := by
  refine ⟨⟨"NDOS".toList, [], " ".toList, " ".toList, "\n".toList, [], ?_, ?_, ?_, ?_, Or.inl rfl, ?_, ?_, ?_, ?_, ?_, rfl⟩, ?_, ?_, ?_, ?_⟩
  all_goals first | decide +kernel | exact trimmed_of (by decide)

/-- Non-vacuity of `C79_file_partial`: an option file with a comment, an unknown key, mixed case and a repeated key. -/
example : FileSets ["# settings\n".toList, "DISP = 0.05 # small\n".toList, "\n".toList, "colour=red\n".toList, "disp=0.01\n".toList]
      [("disp".toList, "0.05".toList), ("colour".toList, "red".toList), ("disp".toList, "0.01".toList)] ∧
    OneSpelling [("disp".toList, "0.05".toList), ("colour".toList, "red".toList), ("disp".toList, "0.01".toList)] ∧
    Names "disp".toList 1 ∧ (∀ i, ¬Names "colour".toList i) ∧
    dispOf ["# settings\n".toList, "DISP = 0.05 # small\n".toList, "\n".toList, "colour=red\n".toList, "disp=0.01\n".toList] = some (.str "0.01".toList) := by
  have hc : ∀ i, ¬Names "colour".toList i := by
    intro i h
    have := (findIdx_iff "colour".toList i).2 h
    revert this
    rw [show optTable.findIdx? (fun s => decide ("colour".toList ∈ s.names)) = none by decide +kernel]
    simp
  refine ⟨.skip ⟨[], "# settings\n".toList, by simp [Blank], .inr ⟨_, rfl⟩, rfl⟩
    (.set ⟨"DISP".toList, [], [' '], [' '], [' '], "# small\n".toList, by decide, by decide, by decide, by decide, .inr ⟨_, rfl⟩, trimmed_of (by decide), trimmed_of (by decide), by decide, by decide, rfl, rfl⟩
    (.skip ⟨"\n".toList, [], by decide, .inl rfl, rfl⟩
    (.set ⟨"colour".toList, [], [], [], ['\n'], [], by decide, by decide, by decide, by decide, .inl rfl, trimmed_of (by decide), trimmed_of (by decide), by decide, by decide, rfl, rfl⟩
    (.set ⟨"disp".toList, [], [], [], ['\n'], [], by decide, by decide, by decide, by decide, .inl rfl, trimmed_of (by decide), trimmed_of (by decide), by decide, by decide, rfl, rfl⟩ .nil)))), ?_,
    ⟨_, rfl, by decide⟩, hc, by decide +kernel⟩
  intro x hx y hy i hi hj
  simp only [List.mem_cons, List.not_mem_nil, or_false] at hx hy
  rcases hx with rfl | rfl | rfl <;> rcases hy with rfl | rfl | rfl <;> first | rfl | exact absurd hi (hc i) | exact absurd hj (hc i)

/-! ### The record of the pre-process -/

private theorem intStr_token (i : ℤ) : IsToken (intStr i) := by
  unfold intStr
  split
  · refine ⟨by simp, fun c hc => ?_⟩
    rcases List.mem_cons.1 hc with rfl | hc
    · decide
    · exact (natStr_token _).2 c hc
  · exact natStr_token _

private theorem parseInt_intStr (i : ℤ) : parseInt (intStr i) = some i := by
  by_cases h : i < 0
  · unfold parseInt
    rw [strip_token (intStr_token i).2]
    unfold intStr
    rw [if_pos h]
    simp only [takeSign, parseNat_natStr, Option.map_some, if_true, Option.some.injEq]
    change some (-(i.natAbs : ℤ)) = some i
    rw [Int.ofNat_natAbs_of_nonpos h.le, neg_neg]
  · unfold intStr
    rw [if_neg h, parseInt_natStr]
    simp only [Option.some.injEq]
    omega

private theorem token_trimmed {t : Str} (h : IsToken t) : Trimmed t :=
  ⟨fun c hc => h.2 c (List.mem_of_mem_head? hc), fun c hc => h.2 c (List.mem_of_mem_getLast? hc)⟩

private theorem joinInts_cons (i j : ℤ) (l : List ℤ) : joinInts (i :: j :: l) = intStr i ++ ' ' :: joinInts (j :: l) := rfl

private theorem joinInts_ne : ∀ (i : ℤ) (l : List ℤ), joinInts (i :: l) ≠ []
  | i, [] => (intStr_token i).1
  | i, j :: l => by rw [joinInts_cons]; simp

private theorem joinInts_trimmed : ∀ (l : List ℤ), Trimmed (joinInts l)
  | [] => ⟨by simp [joinInts], by simp [joinInts]⟩
  | [i] => token_trimmed (intStr_token i)
  | i :: j :: l => by
    have ih := joinInts_trimmed (j :: l)
    rw [joinInts_cons]
    constructor
    · intro c hc
      rw [List.head?_append_of_ne_nil _ (intStr_token i).1] at hc
      exact (token_trimmed (intStr_token i)).1 c hc
    · intro c hc
      rw [List.getLast?_append_of_ne_nil _ (by simp), List.getLast?_cons_of_ne_nil (joinInts_ne j l)] at hc
      exact ih.2 c hc

private theorem split_joinInts : ∀ (l : List ℤ), split (joinInts l) = l.map intStr
  | [] => rfl
  | [i] => split_token (intStr_token i)
  | i :: j :: l => by
    rw [joinInts_cons, split_token_ws (intStr_token i) (by decide), split_joinInts (j :: l)]
    rfl

private theorem intsOf_intStr : ∀ (l : List ℤ), intsOf ((l.map intStr).map .str) = .ok l
  | [] => rfl
  | i :: l => by
    rw [List.map_cons, List.map_cons, intsOf, intsOf_intStr l]
    simp [intOf, parseInt_intStr]

private theorem toIntNumpy_joinInts (l : List ℤ) : toIntNumpy (.atom (.str (joinInts l))) = .ok l := by
  rw [toIntNumpy, strip_trim (joinInts_trimmed l), split_joinInts, intsOf_intStr]

private theorem flags_joinInts (l : List ℤ) (h : ∀ x ∈ l, x = 0 ∨ x = 1) : flags (joinInts l) = l := by
  rw [flags, strip_trim (joinInts_trimmed l), split_joinInts, List.map_map]
  conv_rhs => rw [← List.map_id l]
  apply List.map_congr_left
  intro x hx
  rcases h x hx with rfl | rfl <;> decide +kernel

private theorem flags_01 (t : Str) : ∀ x ∈ flags t, x = 0 ∨ x = 1 := by
  intro x hx
  obtain ⟨tok, -, rfl⟩ := List.mem_map.1 hx
  unfold pbcToken
  split
  · exact .inl rfl
  · split <;> simp

theorem dict_ok (s : PreArg) (k v : Str) (vd ve vp : PyVal) (hk : k = "dft_code".toList) :
    okState (setUserArgument s [(k, .atom (.str v)), ("displacement".toList, vd), ("enlargement".toList, ve), ("periodicity".toList, vp)]) = acceptedState vd ve vp := by
  subst hk
  have h0 : ∀ t : PreArg, setOne t "dft_code".toList (.atom (.str v)) = (t, none) := by
    intro t
    have h1 : isInfix "displacement".toList "dft_code".toList = false := by decide +kernel
    have h2 : isInfix "enlargement".toList "dft_code".toList = false := by decide +kernel
    have h3 : isInfix "periodicity".toList "dft_code".toList = false := by decide +kernel
    simp only [setOne, h1, h2, h3]; rfl
  rw [← (C04_order_irrelevant s cliKeys vd ve vp).1, setUserArgument, setAll, h0]
  rfl

/-- **C76** (user arguments and code).  If the pre-process accepts its arguments with a (non-negative) displacement, then a post-process without arguments
obtains exactly the same displacement, enlargement and periodicity from the record, and the same DFT code. -/
theorem C76_default_arguments_partial (cwd cwd' : Str) (o : PreOpts) (s t a : PreArg) (pg : Option Str) (r : PreRecord)
    (h : okState (setUserArgument s o.dict) = some a) (hd : a.displacement ≠ none) (hr : preRecord cwd o a pg = .ok r) :
    okState (setUserArgument t (postResolve cwd' {} r).dict) = some a ∧ (postResolve cwd' {} r).dft = o.dft := by
  unfold PreOpts.dict at h
  rw [dict_ok _ _ _ _ _ _ rfl] at h
  unfold acceptedState at h
  cases hf : floatOf (.atom (.str o.displacement)) with
  | error e => simp [hf] at h
  | ok d =>
    cases he : toIntNumpy (.atom (.str o.enlargement)) with
    | error e => simp [hf, he] at h
    | ok e =>
      simp only [hf, he] at h
      by_cases hchk : checkUserArgument { displacement := if d < 0 then none else some d, enlargement := some e, periodicity := some (flags o.periodicity) } = none
      · rw [if_pos hchk, Option.some.injEq] at h
        subst h
        unfold preRecord at hr
        simp only at hr
        cases hr
        refine ⟨?_, rfl⟩
        unfold PostArgs.dict postResolve
        simp only [if_true]
        rw [dict_ok _ _ _ _ _ _ rfl]
        by_cases hneg : d < 0
        · simp [hneg] at hd
        · simp only [hneg, if_false] at hchk ⊢
          unfold acceptedState
          simp only [floatOf, toIntNumpy_joinInts, flags_joinInts _ (flags_01 _), hneg, if_false]
          rw [if_pos hchk]
      · rw [if_neg hchk] at h; cases h

private theorem takeWhile_noslash {s : Str} (h : '/' ∉ s) (r : Str) : (s.reverse ++ '/' :: r).takeWhile (· ≠ '/') = s.reverse := by
  rw [takeWhile_all (by intro x hx; have : x ≠ '/' := (by rintro rfl; exact h (by simpa using hx)); simpa using this), List.takeWhile_cons_of_neg (by decide), List.append_nil]

private theorem dropWhile_noslash {s : Str} (h : '/' ∉ s) (r : Str) : (s.reverse ++ '/' :: r).dropWhile (· ≠ '/') = '/' :: r := by
  have := List.takeWhile_append_dropWhile (p := (· ≠ '/')) (l := s.reverse ++ '/' :: r)
  rw [takeWhile_noslash h] at this
  exact List.append_cancel_left this

/-- **C76** (files).  If the unit cell of the pre-process was named without a directory, a post-process started without arguments in the same directory reads the
unit cell that the pre-process read and the super cell that the pre-process wrote. -/
theorem C76_files_partial (cwd : Str) (o : PreOpts) (a : PreArg) (pg : Option Str) (r : PreRecord)
    (hslash : '/' ∉ o.unitcell) (hr : preRecord cwd o a pg = .ok r) :
    ((postResolve cwd {} r).unitCellFile, (postResolve cwd {} r).superCellFile) = preFiles cwd o := by
  have hh : ¬ o.unitcell.head? = some '/' := fun e => hslash (List.mem_of_mem_head? e)
  have habs : absPath cwd o.unitcell = cwd ++ '/' :: o.unitcell := by rw [absPath, if_neg hh]
  have hrev : (cwd ++ '/' :: o.unitcell).reverse = o.unitcell.reverse ++ '/' :: cwd.reverse := by simp
  have hb : baseName (absPath cwd o.unitcell) = o.unitcell := by
    rw [baseName, habs, hrev, takeWhile_noslash hslash, List.reverse_reverse]
  have hdn : dirName (absPath cwd o.unitcell) = cwd := by
    rw [dirName, habs, hrev, dropWhile_noslash hslash]
    simp
  unfold preRecord at hr
  split at hr
  · cases hr
    unfold postResolve preFiles
    simp only [if_true]
    rw [hb, hdn, show absPath cwd "SUPERCELL".toList = cwd ++ '/' :: "SUPERCELL".toList from if_neg (by decide)]
  · cases hr

private theorem path_split {p : Str} (h : '/' ∈ p) : p = dirName p ++ '/' :: baseName p ∧ '/' ∉ baseName p := by
  have hr : '/' ∈ p.reverse := by simpa using h
  have h1 := List.takeWhile_append_dropWhile (p := fun c : Char => decide (c ≠ '/')) (l := p.reverse)
  constructor
  · rcases hd : p.reverse.dropWhile (fun c => decide (c ≠ '/')) with _ | ⟨c, l⟩
    · exfalso
      have := List.dropWhile_eq_nil_iff.1 hd '/' hr
      simp at this
    · have hc : c = '/' := by
        have := List.head?_dropWhile_not (fun c : Char => decide (c ≠ '/')) p.reverse
        rw [hd] at this
        simpa using this
      subst hc
      have h2 : p = (p.reverse.dropWhile (fun c => decide (c ≠ '/'))).reverse ++ (p.reverse.takeWhile (fun c => decide (c ≠ '/'))).reverse := by
        rw [← List.reverse_append, h1, List.reverse_reverse]
      rw [hd] at h2
      unfold dirName baseName
      rw [hd]
      simpa using h2
  · intro hm
    unfold baseName at hm
    rw [List.mem_reverse] at hm
    have := List.mem_takeWhile_imp hm
    simp at this

/-- **C76** (files, exactly when).  Without options the post-process looks for the unit cell and the super cell where the pre-process read and wrote
them precisely when the unit cell lies directly in the working directory. -/
theorem C76_files_iff (cwd : Str) (o : PreOpts) (a : PreArg) (pg : Option Str) (r : PreRecord) (hr : preRecord cwd o a pg = .ok r) :
    ((postResolve cwd {} r).unitCellFile, (postResolve cwd {} r).superCellFile) = preFiles cwd o ↔
      ∃ name, '/' ∉ name ∧ absPath cwd o.unitcell = cwd ++ '/' :: name := by
  have hmem : '/' ∈ absPath cwd o.unitcell := by
    unfold absPath
    split_ifs with h
    · exact List.mem_of_mem_head? h
    · simp
  obtain ⟨h1, h2⟩ := path_split hmem
  have habs : ∀ s : Str, '/' ∉ s → absPath cwd s = cwd ++ '/' :: s := fun s hs => if_neg fun e => hs (List.mem_of_mem_head? e)
  unfold preRecord at hr
  split at hr
  · cases hr
    unfold postResolve preFiles
    simp only [if_true]
    rw [habs _ h2, habs "SUPERCELL".toList (by decide), Prod.mk.injEq]
    constructor
    · rintro ⟨e, -⟩
      exact ⟨_, h2, e.symm⟩
    · rintro ⟨name, hn, e⟩
      have hrev : (cwd ++ '/' :: name).reverse = name.reverse ++ '/' :: cwd.reverse := by simp
      have hb : baseName (absPath cwd o.unitcell) = name := by
        rw [baseName, e, hrev, takeWhile_noslash hn, List.reverse_reverse]
      have hdn : dirName (absPath cwd o.unitcell) = cwd := by
        rw [dirName, e, hrev, dropWhile_noslash hn]
        simp
      rw [hb, hdn]
      exact ⟨e.symm, rfl⟩
  · cases hr

/-- An absolute path in the working directory is found again, one in another directory is not. -/
example : (∃ name, '/' ∉ name ∧ absPath "/w".toList "/w/CELL".toList = "/w".toList ++ '/' :: name) ∧
    ¬ ∃ name, '/' ∉ name ∧ absPath "/w".toList "/v/CELL".toList = "/w".toList ++ '/' :: name := by
  refine ⟨⟨"CELL".toList, by decide, by decide +kernel⟩, ?_⟩
  rintro ⟨name, -, h⟩
  have h1 : (absPath "/w".toList "/v/CELL".toList)[1]? = some 'v' := by decide +kernel
  rw [h] at h1
  exact absurd h1 (by simp)

/-- **C76** (refuted for a unit cell in another directory).  The record keeps the bare file names only: with `-c sub/POSCAR` in `/w` the pre-process reads
`/w/sub/POSCAR` and writes `/w/sub/SUPERCELL`, the post-process looks for `/w/POSCAR` and `/w/SUPERCELL`. -/
theorem C76_directory_refuted : ∃ (o : PreOpts) (a : PreArg) (r : PreRecord), okState (setUserArgument {} o.dict) = some a ∧
    preRecord "/w".toList o a none = .ok r ∧ preFiles "/w".toList o = ("/w/sub/POSCAR".toList, "/w/sub/SUPERCELL".toList) ∧
    (postResolve "/w".toList {} r).unitCellFile = "/w/POSCAR".toList ∧ (postResolve "/w".toList {} r).superCellFile = "/w/SUPERCELL".toList := by
  refine ⟨{ unitcell := "sub/POSCAR".toList }, ⟨some (1 / 50), some [2, 2, 1], some [1, 1, 0]⟩, _, by decide +kernel, rfl, by decide +kernel, by decide +kernel, by decide +kernel⟩

/-- Non-vacuity of `C76_default_arguments_partial`, with a negative enlargement factor in a periodic direction to show that nothing is assumed about it. -/
example : ∃ (a : PreArg) (r : PreRecord), okState (setUserArgument {} ({ displacement := "0.05".toList, enlargement := "4 -2 1".toList, periodicity := "T 1 F".toList, dft := "aims".toList } : PreOpts).dict) = some a ∧
    a.displacement = some (1 / 20) ∧ a.enlargement = some [4, -2, 1] ∧ a.periodicity = some [1, 1, 0] ∧
    preRecord "/w".toList { displacement := "0.05".toList, enlargement := "4 -2 1".toList, periodicity := "T 1 F".toList, dft := "aims".toList } a none = .ok r :=
  ⟨⟨some (1 / 20), some [4, -2, 1], some [1, 1, 0]⟩, _, by decide +kernel, rfl, rfl, rfl, rfl⟩

/-- **C77** (values other than the defaults).  A value different from the default of the option is used, whatever the record says. -/
theorem C77_explicit_wins_partial (cwd : Str) (o : PostOpts) (r : PreRecord) :
    (o.dft ≠ "vasp".toList → (postResolve cwd o r).dft = o.dft) ∧
    (o.displacement ≠ "0.02".toList → (postResolve cwd o r).displacement = .atom (.str o.displacement)) ∧
    (o.enlargement ≠ "2 2 1".toList → (postResolve cwd o r).enlargement = .atom (.str o.enlargement)) ∧
    (o.periodicity ≠ "1 1 0".toList → (postResolve cwd o r).periodicity = .atom (.str o.periodicity)) ∧
    (o.unitcell ≠ "POSCAR".toList → (postResolve cwd o r).unitCellFile = absPath cwd o.unitcell) ∧
    (∀ f, o.supercell = some f → (postResolve cwd o r).superCellFile = absPath cwd f) := by
  unfold postResolve
  refine ⟨fun h => if_neg h, fun h => if_neg h, fun h => if_neg h, fun h => if_neg h, fun h => ?_, fun f h => ?_⟩
  · change absPath cwd (if o.unitcell = "POSCAR".toList then _ else _) = _
    rw [if_neg h]
  · simp only [h]

/-- **C77** (exact condition).  The value of an option is used exactly if it differs from the default or the record holds the same: an explicit default loses against
every other recorded value. -/
theorem C77_explicit_wins_iff (cwd : Str) (o : PostOpts) (r : PreRecord) :
    ((postResolve cwd o r).dft = o.dft ↔ o.dft ≠ "vasp".toList ∨ r.dft = "vasp".toList) ∧
    ((postResolve cwd o r).enlargement = .atom (.str o.enlargement) ↔ o.enlargement ≠ "2 2 1".toList ∨ r.enlargement = "2 2 1".toList) ∧
    ((postResolve cwd o r).periodicity = .atom (.str o.periodicity) ↔ o.periodicity ≠ "1 1 0".toList ∨ r.periodicity = "1 1 0".toList) ∧
    (o.displacement = "0.02".toList → (postResolve cwd o r).displacement ≠ .atom (.str o.displacement)) := by
  unfold postResolve
  refine ⟨?_, ?_, ?_, ?_⟩
  · by_cases h : o.dft = "vasp".toList
    · simp only [if_pos h, h, ne_eq, not_true_eq_false, false_or, if_true]
    · simp only [if_neg h, ne_eq, h, not_false_eq_true, true_or, if_false]
  · by_cases h : o.enlargement = "2 2 1".toList
    · simp only [if_pos h, h, ne_eq, not_true_eq_false, false_or, if_true, PyVal.atom.injEq, PyAtom.str.injEq]
    · simp only [if_neg h, ne_eq, h, not_false_eq_true, true_or, if_false]
  · by_cases h : o.periodicity = "1 1 0".toList
    · simp only [if_pos h, h, ne_eq, not_true_eq_false, false_or, if_true, PyVal.atom.injEq, PyAtom.str.injEq]
    · simp only [if_neg h, ne_eq, h, not_false_eq_true, true_or, if_false]
  · intro h
    simp only [if_pos h]
    cases r.displacement <;> simp

/-- **C77** (refuted for values equal to a default).  After a pre-process with displacement 0.05 and enlargement `3 3 1`, a post-process called with
`-disp 0.02 -enlarge "2 2 1"` uses 0.05 and `3 3 1`. -/
theorem C77_explicit_default_refuted : ∃ (a : PreArg) (r : PreRecord),
    okState (setUserArgument {} ({ displacement := "0.05".toList, enlargement := "3 3 1".toList } : PreOpts).dict) = some a ∧
    preRecord "/w".toList { displacement := "0.05".toList, enlargement := "3 3 1".toList } a none = .ok r ∧
    okState (setUserArgument {} (postResolve "/w".toList { displacement := "0.02".toList, enlargement := "2 2 1".toList } r).dict) = some a ∧
    a.displacement ≠ some (2 / 100) ∧ a.enlargement ≠ some [2, 2, 1] :=
  ⟨⟨some (1 / 20), some [3, 3, 1], some [1, 1, 0]⟩, _, by decide +kernel, rfl, by decide +kernel, by decide +kernel, by decide +kernel⟩

/-! ### Symmetry flag -/

/-- **C78.**  Whatever symmetry flag the post-process is given, it uses symmetry exactly when the pre-process generated its displaced cells with symmetry
(flag on and two periodic directions), provided the pre-process ran to its end. -/
theorem C78_sym_flag_agrees (cwd cwd' : Str) (o : PreOpts) (a : PreArg) (p : Fin 3 → ℤ) (search : Run Str) (pg : Option Str) (r : PreRecord)
    (hpg : prePointGroup o.sym p search = .ok pg) (hr : preRecord cwd o a pg = .ok r) (o' : PostOpts) :
    (postResolve cwd' o' r).sym = (o.sym && numPbc p == 2) := by
  have e : r.pointGroup = pg := by
    unfold preRecord at hr
    split at hr
    · cases hr; rfl
    · cases hr
  have e2 : (postResolve cwd' o' r).sym = pg.isSome := by
    unfold postResolve
    simp only [e]
    cases pg <;> simp
  rw [e2]
  unfold prePointGroup at hpg
  split at hpg
  · rename_i h
    rw [h]
    split at hpg
    · cases hpg
    · cases hpg
    · cases hpg; rfl
  · rename_i h
    cases hpg
    simpa using h

/-- **C78** (consequence).  With that flag the order check of the post-process accepts the displaced cells of the pre-process in their order. -/
theorem C78_check_accepts {K : Type*} [Field K] [LinearOrder K] [IsStrictOrderedRing K] (cwd cwd' : Str) (o : PreOpts) (a : PreArg) (p : Fin 3 → ℤ)
    (search : Run Str) (pg : Option Str) (r : PreRecord) (hpg : prePointGroup o.sym p search = .ok pg) (hr : preRecord cwd o a pg = .ok r) (o' : PostOpts)
    (s s' : Cell K) (sel : List ℕ) (E : ℕ) (d : K) (plan : Run (List (ℕ × List (V3 K)))) (files : Files K)
    (h : writeDisplaceCell s sel E d p o.sym plan = .ok (s', files)) :
    checkFileOrder s sel E d (postResolve cwd' o' r).sym plan (files.map fun f => f.2.cart) = .ok () := by
  rw [C78_sym_flag_agrees cwd cwd' o a p search pg r hpg hr]
  exact C18_accepts_generated s sel E d p o.sym plan s' files h

/-- Non-vacuity: with symmetry and two periodic directions, and the flag turned off in the post-process. -/
example : ∃ r, prePointGroup true ![1, 1, 0] (.ok "4mm (p4mm)".toList) = .ok (some "4mm (p4mm)".toList) ∧
    preRecord "/w".toList {} ⟨some (1 / 50), some [2, 2, 1], some [1, 1, 0]⟩ (some "4mm (p4mm)".toList) = .ok r ∧
    (postResolve "/w".toList { sym := false } r).sym = true :=
  ⟨_, by decide +kernel, rfl, by decide +kernel⟩

/-! ### Which analyses run -/

/-- **C87.**  If the post-process ends without an exception, the common steps succeeded and: the DOS was computed exactly when it was asked for or its k-point file
was given, the thermal properties exactly when asked for, the bands exactly when asked for or their k-point file was given; every computed DOS
(band structure) had a k-point file. -/
theorem C87_analyses_partial (dos thermal band mode : Bool) (kdos kband : Option Str) (common : Run Unit) (l : List Analysis)
    (h : analyses dos thermal band mode kdos kband common = .ok l) :
    common = .ok () ∧ (Analysis.dos ∈ l ↔ dos = true ∨ kdos ≠ none) ∧ (Analysis.thermal ∈ l ↔ thermal = true) ∧
    (Analysis.band ∈ l ↔ band = true ∨ kband ≠ none) ∧ (Analysis.dos ∈ l → kdos ≠ none) ∧ (Analysis.band ∈ l → kband ≠ none) ∧
    (Analysis.mode ∈ l ↔ mode = true ∧ Analysis.band ∈ l) := by
  unfold analyses at h
  cases kdos <;> cases kband <;> cases dos <;> cases thermal <;> cases band <;> cases mode <;> rcases common with e | ⟨⟨⟩⟩ <;> simp at h <;> subst h <;> simp

/-- **C87** (refuted for modes).  With `-mode` and a k-point file for the DOS only, the run ends normally and the mode is not computed. -/
theorem C87_mode_skipped_refuted (dos thermal : Bool) (k : Str) :
    ∃ l, analyses dos thermal false true (some k) none (.ok ()) = .ok l ∧ Analysis.mode ∉ l := by
  cases dos <;> cases thermal <;> simp [analyses]

/-- **C87** (exceptions).  No k-point file; a requested DOS (bands) without its own k-point file; thermal properties without DOS: all stop with an exception. -/
theorem C87_missing_input (dos thermal band mode : Bool) (k : Str) (common : Run Unit) :
    analyses dos thermal band mode none none common = .error .exception ∧
    (∃ e, analyses true thermal band mode none (some k) common = .error e) ∧
    (∃ e, analyses dos thermal true mode (some k) none common = .error e) ∧
    analyses false true band mode none (some k) common = .error .keyError := by
  refine ⟨by simp [analyses], ?_, ?_, by simp [analyses]⟩
  · rcases common with e | ⟨⟨⟩⟩ <;> simp [analyses]
  · rcases common with e | ⟨⟨⟩⟩ <;> cases thermal <;> simp [analyses]

/-- **C87** (exactly when).  The post-process ends normally exactly when the common steps do, some k-point file is given, the density of states and
the bands each have their own k-point file if they were asked for, and thermal properties come with a density of states; and then what was
computed is exactly what was asked for precisely when modes were not asked for or come with bands. -/
theorem C87_iff (dos thermal band mode : Bool) (kdos kband : Option Str) (common : Run Unit) :
    ((∃ l, analyses dos thermal band mode kdos kband common = .ok l) ↔
      common = .ok () ∧ (kdos ≠ none ∨ kband ≠ none) ∧ (dos = true → kdos ≠ none) ∧ (band = true → kband ≠ none) ∧ (thermal = true → kdos ≠ none)) ∧
    ∀ l, analyses dos thermal band mode kdos kband common = .ok l →
      (((Analysis.dos ∈ l ↔ dos = true ∨ kdos ≠ none) ∧ (Analysis.thermal ∈ l ↔ thermal = true) ∧
        (Analysis.band ∈ l ↔ band = true ∨ kband ≠ none) ∧ (Analysis.mode ∈ l ↔ mode = true)) ↔ (mode = true → kband ≠ none)) := by
  constructor
  · cases kdos <;> cases kband <;> cases dos <;> cases thermal <;> cases band <;> cases mode <;> rcases common with e | ⟨⟨⟩⟩ <;> simp [analyses]
  · intro l h
    unfold analyses at h
    cases kdos <;> cases kband <;> cases dos <;> cases thermal <;> cases band <;> cases mode <;> rcases common with e | ⟨⟨⟩⟩ <;> simp at h <;> subst h <;> simp

/-! ### Projection groups -/

/-- Groups of atom indices written as text: `1 2, 3`. -/
def groupsText : List (List ℤ) → Str
  | [] => []
  | [g] => joinInts g
  | g :: gs => joinInts g ++ ',' :: ' ' :: groupsText gs

private theorem groupsText_cons (g g' : List ℤ) (gs : List (List ℤ)) : groupsText (g :: g' :: gs) = joinInts g ++ ',' :: ' ' :: groupsText (g' :: gs) := rfl

private theorem intStr_chars {i : ℤ} {c : Char} (h : c ∈ intStr i) : IsDigit c ∨ c = '-' := by
  unfold intStr at h
  split at h
  · rcases List.mem_cons.1 h with rfl | h
    · exact .inr rfl
    · exact .inl (natStr_digits _ _ h)
  · exact .inl (natStr_digits _ _ h)

private theorem joinInts_nocomma : ∀ (l : List ℤ), ',' ∉ joinInts l
  | [] => by simp [joinInts]
  | [i] => fun h => by
    rcases intStr_chars h with h | h
    · exact isDigit_ne h (by decide) rfl
    · revert h; decide
  | i :: j :: l => fun h => by
    rw [joinInts_cons] at h
    simp only [List.mem_append, List.mem_cons] at h
    rcases h with h | h | h
    · rcases intStr_chars h with h | h
      · exact isDigit_ne h (by decide) rfl
      · revert h; decide
    · revert h; decide
    · exact joinInts_nocomma (j :: l) h

theorem strip_lead (s : Str) : strip (' ' :: s) = strip s := by
  rw [strip, strip, show lstrip (' ' :: s) = lstrip s from lstrip_blank (b := [' ']) (by decide) s]

theorem intList_joinInts (l : List ℤ) : intList (joinInts l) = .ok l := by
  rw [intList, strip_trim (joinInts_trimmed l), split_joinInts, intsOf_intStr]

private theorem splitOn_cons_head (sep x : Char) (hx : x ≠ sep) (s : Str) : ∃ h t, splitOn sep s = h :: t ∧ splitOn sep (x :: s) = (x :: h) :: t := by
  cases hs : splitOn sep s with
  | nil =>
    exfalso
    cases s with
    | nil => simp [splitOn] at hs
    | cons c s =>
      rw [splitOn] at hs
      split at hs
      · cases hs
      · split at hs <;> cases hs
  | cons h t => exact ⟨h, t, rfl, by rw [splitOn, if_neg hx, hs]⟩

private theorem groups_read : ∀ (gs : List (List ℤ)), gs ≠ [] → (splitOn ',' (groupsText gs)).mapM intList = .ok gs
  | [], h => absurd rfl h
  | [g], _ => by
    rw [groupsText, splitOn_none (joinInts_nocomma g)]
    simp only [List.mapM_cons, List.mapM_nil, intList_joinInts]
    rfl
  | g :: g' :: gs, _ => by
    have ih := groups_read (g' :: gs) (by simp)
    obtain ⟨h, t, e1, e2⟩ := splitOn_cons_head ',' ' ' (by decide) (groupsText (g' :: gs))
    rw [groupsText_cons, splitOn_append (joinInts_nocomma g), e2]
    rw [e1] at ih
    have e3 : intList (' ' :: h) = intList h := by unfold intList; rw [strip_lead]
    rw [List.mapM_cons] at ih ⊢
    rw [List.mapM_cons, intList_joinInts, e3]
    revert ih
    cases intList h with
    | error e => intro ih; cases ih
    | ok v =>
      cases t.mapM intList with
      | error e => intro ih; cases ih
      | ok w => intro ih; cases ih; rfl

private theorem groupsText_ne {gs : List (List ℤ)} (h0 : gs ≠ []) (h : ∀ g ∈ gs, g ≠ []) : groupsText gs ≠ [] := by
  match gs, h0 with
  | [g], _ =>
    cases g with
    | nil => exact absurd rfl (h [] (by simp))
    | cons a b => exact joinInts_ne a b
  | g :: g' :: gs, _ => rw [groupsText_cons]; simp

private theorem groupsText_trimmed : ∀ (gs : List (List ℤ)), (∀ g ∈ gs, g ≠ []) → Trimmed (groupsText gs)
  | [], _ => ⟨by simp [groupsText], by simp [groupsText]⟩
  | [g], _ => joinInts_trimmed g
  | g :: g' :: gs, h => by
    have ih := groupsText_trimmed (g' :: gs) fun x hx => h x (List.mem_cons_of_mem _ hx)
    have hne := groupsText_ne (gs := g' :: gs) (by simp) fun x hx => h x (List.mem_cons_of_mem _ hx)
    have hg : joinInts g ≠ [] := by
      cases g with
      | nil => exact absurd rfl (h [] (by simp))
      | cons a b => exact joinInts_ne a b
    rw [groupsText_cons]
    constructor
    · intro c hc
      rw [List.head?_append_of_ne_nil _ hg] at hc
      exact (joinInts_trimmed g).1 c hc
    · intro c hc
      rw [List.getLast?_append_of_ne_nil _ (by simp), List.getLast?_cons_of_ne_nil (by simp), List.getLast?_cons_of_ne_nil hne] at hc
      exact ih.2 c hc

/-- **C88** (groups).  Every list of non-empty groups of integers is read back from its text `1 2, 3`. -/
theorem C88_groups_read_back (gs : List (List ℤ)) (h0 : gs ≠ []) (h : ∀ g ∈ gs, g ≠ []) : atomGroups (groupsText gs) = .ok gs := by
  rw [atomGroups, strip_trim (groupsText_trimmed gs h), groups_read gs h0]

/-- **C88** (accepted arguments are consistent).  If the DOS arguments are accepted: a projection is drawn only with groups of atoms, there is one label for each
group, and an energy window has exactly two limits. -/
theorem C88_accepted_consistent (option : Str) (atom legend elimit : Option Str) (a : DosArgs) (h : dosArgs option atom legend elimit = .ok a) :
    (a.option ≠ "plain".toList → a.option = option ∧ ∃ s g, atom = some s ∧ atomGroups s = .ok g ∧ a.atoms = some g) ∧
    (∀ L, a.legend = some L → ∃ g, a.atoms = some g ∧ L.length = g.length) ∧
    (∀ l, a.elimit = some l → l.length = 2) ∧ (a.elimit = none ↔ elimit = none) := by
  unfold dosArgs at h
  simp only at h
  split at h
  · cases h
  · rename_i groups hg
    split at h
    · cases h
    · rename_i leg hleg
      split at h
      · cases h
      · rename_i el hel
        cases h
        refine ⟨?_, ?_, ?_, ?_⟩
        · intro hne
          simp only at hne ⊢
          cases atom with
          | none =>
            exfalso
            by_cases ho : option = "plain".toList
            · simp [ho] at hne
            · simp [ho] at hne
          | some s =>
            refine ⟨by simp, s, ?_⟩
            simp only at hg
            cases hgs : atomGroups s with
            | error e => rw [hgs] at hg; cases hg
            | ok g => rw [hgs] at hg; cases hg; exact ⟨g, rfl, rfl, rfl⟩
        · intro L hL
          simp only at hL ⊢
          subst hL
          cases legend with
          | none => cases hleg
          | some s =>
            simp only at hleg
            generalize (if atom = none ∧ option ≠ "plain".toList then "plain".toList else option) = opt at hleg
            by_cases ho : opt = "plain".toList
            · rw [if_pos ho] at hleg; cases hleg
            · rw [if_neg ho] at hleg
              cases groups with
              | none => cases hleg
              | some g =>
                simp only at hleg
                by_cases hl : ((splitOn ',' (strip s)).map strip).length = g.length
                · rw [if_pos hl] at hleg; cases hleg; exact ⟨g, rfl, hl⟩
                · rw [if_neg hl] at hleg; cases hleg
        · intro l hl
          simp only at hl
          subst hl
          cases elimit with
          | none => cases hel
          | some s =>
            simp only at hel
            cases hs : intList s with
            | error e => rw [hs] at hel; cases hel
            | ok l' =>
              rw [hs] at hel
              simp only at hel
              split at hel
              · rename_i h2; cases hel; exact h2
              · cases hel
        · simp only
          cases elimit with
          | none => cases hel; simp
          | some s =>
            simp only at hel
            cases hs : intList s with
            | error e => rw [hs] at hel; cases hel
            | ok l' =>
              rw [hs] at hel
              simp only at hel
              split at hel
              · cases hel; simp
              · cases hel

example : atomGroups "0 1 2, 3 4".toList = .ok [[0, 1, 2], [3, 4]] ∧ groupsText [[0, 1, 2], [3, 4]] = "0 1 2, 3 4".toList := by decide +kernel
example : dosArgs "line".toList (some "0 1, 2".toList) (some "C, N".toList) (some "-1 20".toList) =
    .ok ⟨"line".toList, some [[0, 1], [2]], some ["C".toList, "N".toList], some [-1, 20]⟩ := by decide +kernel

end Interphon.Props
