import Verif.Lemmas.Text
import Verif.Spec.Args

/-! # Properties C01–C05: user arguments -/

namespace Interphon.Props
open Py Interphon.Args Interphon.Spec

/-! ### helper facts about the loop -/

private theorem pbcLoop_none_iff (s : PreArg) (e : List ℤ) (he : s.enlargement = some e) :
    ∀ (p : List ℤ) (i : ℕ), i + p.length ≤ e.length →
      (pbcLoop s i p = none ↔ ∀ j, p[j]? = some 0 → e[i + j]? = some 1) := by
  intro p
  induction p with
  | nil => intro i _; simp [pbcLoop]
  | cons v vs ih =>
    intro i hi
    have hlt : i < e.length := by simp at hi; omega
    have ih' := ih (i + 1) (by simp at hi; omega)
    have key : (∀ j, (v :: vs)[j]? = some 0 → e[i + j]? = some 1) ↔
        ((v = 0 → e[i]? = some 1) ∧ ∀ j, vs[j]? = some 0 → e[i + 1 + j]? = some 1) := by
      constructor
      · intro h
        refine ⟨fun hv => by simpa using h 0 (by simp [hv]), fun j hj => ?_⟩
        have := h (j + 1) (by simpa using hj)
        rwa [show i + 1 + j = i + (j + 1) by omega]
      · rintro ⟨h0, h1⟩ j hj
        cases j with
        | zero => simpa using h0 (by simpa using hj)
        | succ j =>
          rw [show i + (j + 1) = i + 1 + j by omega]
          exact h1 j (by simpa using hj)
    rw [key]
    unfold pbcLoop
    by_cases hv : v = 0
    · simp only [hv, if_true, enlAt, he, getE, List.getElem?_eq_getElem hlt]
      by_cases hn : e[i] = 1
      · simp [hn, ih']
      · simp [hn]
    · simp [hv, ih']

private theorem pbcLoop_err (s : PreArg) (e : List ℤ) (he : s.enlargement = some e) :
    ∀ (p : List ℤ) (i : ℕ), i + p.length ≤ e.length → ∀ err, pbcLoop s i p = some err →
      err = .mismatchEnlargePbc := by
  intro p
  induction p with
  | nil => intro i _ err h; simp [pbcLoop] at h
  | cons v vs ih =>
    intro i hi err h
    have hlt : i < e.length := by simp at hi; omega
    have ih' := ih (i + 1) (by simp at hi; omega) err
    unfold pbcLoop at h
    by_cases hv : v = 0
    · simp only [hv, if_true, enlAt, he, getE, List.getElem?_eq_getElem hlt] at h
      by_cases hn : e[i] = 1
      · simp [hn] at h; exact ih' h
      · simp [hn] at h; exact h.symm
    · simp [hv] at h; exact ih' h

/-! ### C02 -/

/-- **C02.** `check_user_argument` returns normally exactly on consistent argument objects. -/
theorem C02_check_decides_consistency (s : PreArg) :
    checkUserArgument s = none ↔ ConsistentArgs s := by
  unfold checkUserArgument ConsistentArgs
  cases he : s.enlargement with
  | none => simp
  | some e =>
    by_cases hl : e.length = 3
    · cases hp : s.periodicity with
      | none => simp [hl]
      | some p =>
        by_cases hpl : p.length = 3
        · simp only [hl, hpl, ne_eq, not_true_eq_false, if_false]
          rw [pbcLoop_none_iff s e he p 0 (by omega)]
          constructor
          · intro h
            exact ⟨e, p, rfl, rfl, hl, hpl, fun i _ hi => by simpa using h i hi⟩
          · rintro ⟨e', p', he', hp', -, -, h⟩ j hj
            cases he'; cases hp'
            have : j < p.length := by
              rcases List.getElem?_eq_some_iff.mp hj with ⟨h, -⟩; exact h
            simpa using h j (by omega) hj
        · simp only [hl, hpl, ne_eq, not_true_eq_false, not_false_eq_true, if_false, if_true]
          constructor
          · intro h; cases h
          · rintro ⟨e', p', -, hp', -, h, -⟩; cases hp'; exact absurd h hpl
    · simp only [hl, ne_eq, not_false_eq_true, if_true]
      constructor
      · intro h; cases h
      · rintro ⟨e', p', he', -, h, -⟩; cases he'; exact absurd h hl

/-- **C02** (which exception).  On stored, inconsistent values the exception is `Insufficient_ENLARGE`
if the enlargement length is wrong, else `Insufficient_PBC` if the periodicity length is wrong, else
`Mismatch_ENLARGE_and_PBC`. -/
theorem C02_check_error_kind (s : PreArg) (e p : List ℤ)
    (he : s.enlargement = some e) (hp : s.periodicity = some p) (hbad : ¬ ConsistentArgs s) :
    checkUserArgument s =
      if e.length ≠ 3 then some .insufficientEnlarge
      else if p.length ≠ 3 then some .insufficientPBC
      else some .mismatchEnlargePbc := by
  have hn : checkUserArgument s ≠ none := fun h => hbad ((C02_check_decides_consistency s).mp h)
  unfold checkUserArgument at hn ⊢
  simp only [he, hp] at hn ⊢
  by_cases hl : e.length = 3
  · by_cases hpl : p.length = 3
    · simp only [hl, hpl, ne_eq, not_true_eq_false, if_false] at hn ⊢
      cases h : pbcLoop s 0 p with
      | none => exact absurd h hn
      | some err => rw [pbcLoop_err s e he p 0 (by omega) err h]
    · simp [hl, hpl]
  · simp [hl]

/-- **C02** (missing values).  If enlargement or periodicity was never set, the check fails. -/
theorem C02_check_unset (s : PreArg) (h : s.enlargement = none ∨ s.periodicity = none) :
    checkUserArgument s ≠ none := by
  rw [Ne, C02_check_decides_consistency]
  rintro ⟨e, p, he, hp, -⟩
  rcases h with h | h
  · rw [he] at h; cases h
  · rw [hp] at h; cases h

example : ConsistentArgs { displacement := some (1/50), enlargement := some [2, 2, 1], periodicity := some [1, 1, 0] } := by
  rw [← C02_check_decides_consistency]; decide +kernel
example : ¬ ConsistentArgs { enlargement := some [2, 2, 2], periodicity := some [1, 1, 0] } := by
  rw [← C02_check_decides_consistency]; decide +kernel

/-! ### C01 -/

/-- **C01.** Whatever the dictionary and whatever the object held before: if `set_user_argument` and
`check_user_argument` both return normally, the stored arguments are consistent. -/
theorem C01_accepted_args_consistent (s s' : PreArg) (d : List (Str × PyVal))
    (_hset : setUserArgument s d = (s', none)) (hchk : checkUserArgument s' = none) :
    ConsistentArgs s' :=
  (C02_check_decides_consistency s').mp hchk

/-- **C01** (history independence).  The outcome of `set_user_argument` does not depend on what the
object held before. -/
theorem C01_set_user_argument_forgets (s t : PreArg) (d : List (Str × PyVal)) :
    setUserArgument s d = setUserArgument t d := rfl

/-- The dictionary the command line builds. -/
def cliDict : List (Str × PyVal) :=
  [("dft_code".toList, .atom (.str "vasp".toList)), ("displacement".toList, .atom (.float (1/50))),
   ("enlargement".toList, .atom (.str "2 2 1".toList)), ("periodicity".toList, .atom (.str "1 1 0".toList))]

example : setUserArgument {} cliDict =
    ({ displacement := some (1/50), enlargement := some [2, 2, 1], periodicity := some [1, 1, 0] }, none) := by
  decide +kernel
example : checkUserArgument (setUserArgument {} cliDict).1 = none := by decide +kernel

/-! ### C03 -/

private theorem setD_atomic (s : PreArg) (v : PyVal) (e : PyErr) (h : (setDisplacement s v).2 = some e) :
    (setDisplacement s v).1 = s := by
  unfold setDisplacement at h ⊢
  split at h
  · simp
  · split_ifs at h

private theorem setE_atomic (s : PreArg) (v : PyVal) (e : PyErr) (h : (setEnlargement s v).2 = some e) :
    (setEnlargement s v).1 = s := by
  unfold setEnlargement at h ⊢
  split at h
  · simp
  · split_ifs at h ⊢
    · rfl

private theorem setP_atomic (s : PreArg) (v : PyVal) (e : PyErr) (h : (setPeriodicity s v).2 = some e) :
    (setPeriodicity s v).1 = s := by
  unfold setPeriodicity at h ⊢
  split
  · simp only at h ⊢
    split_ifs at h ⊢
    · rfl
    · split <;> simp_all
  · rfl

/-- **C03** (atomicity).  An assignment that raises leaves the argument object unchanged. -/
theorem C03_failed_assignment_changes_nothing (s : PreArg) (op : ArgOp) (e : PyErr)
    (hop : ∀ d, op ≠ .setUserArgument d) (h : (op.exec s).2 = some e) : (op.exec s).1 = s := by
  cases op with
  | setDisplacement v => exact setD_atomic s v e h
  | setEnlargement v => exact setE_atomic s v e h
  | setPeriodicity v => exact setP_atomic s v e h
  | setUserArgument d => exact absurd rfl (hop d)

private theorem setD_ok (s : PreArg) (v : PyVal) (h : StoredOk s) : StoredOk (setDisplacement s v).1 := by
  unfold setDisplacement
  split
  · exact h
  · split_ifs with h1 h2
    · exact h
    · refine ⟨?_, h.2.1, h.2.2⟩; intro d hd; cases hd; linarith
    · refine ⟨?_, h.2.1, h.2.2⟩; intro d hd; cases hd; linarith

private theorem setE_ok (s : PreArg) (v : PyVal) (h : StoredOk s) : StoredOk (setEnlargement s v).1 := by
  unfold setEnlargement
  split
  · exact h
  · split_ifs with h1
    · exact h
    · refine ⟨h.1, ?_, h.2.2⟩; intro d hd; cases hd; exact not_not.mp h1

private theorem setP_ok (s : PreArg) (v : PyVal) (h : StoredOk s) : StoredOk (setPeriodicity s v).1 := by
  unfold setPeriodicity
  split
  · simp only
    split_ifs with h1
    · exact h
    · split
      · exact h
      · refine ⟨h.1, h.2.1, ?_⟩; intro d hd; cases hd; exact not_not.mp h1
  · exact h

private theorem setOne_ok (s : PreArg) (k : Str) (v : PyVal) (h : StoredOk s) :
    StoredOk (setOne s k v).1 := by
  unfold setOne
  split_ifs
  · exact setD_ok s v h
  · exact setE_ok s v h
  · exact setP_ok s v h
  · exact h

private theorem setAll_ok (d : List (Str × PyVal)) : ∀ s, StoredOk s → StoredOk (setAll s d).1 := by
  induction d with
  | nil => intro s h; exact h
  | cons kv rest ih =>
    intro s h
    obtain ⟨k, v⟩ := kv
    have h1 := setOne_ok s k v h
    unfold setAll
    cases hr : setOne s k v with
    | mk s' r =>
      rw [hr] at h1
      cases r with
      | none => exact ih s' h1
      | some e => exact h1

/-- **C03** (invariant).  In every history of assignments — also with exceptions caught and execution
continued — a stored displacement is never negative and stored enlargement/periodicity always have
three entries. -/
theorem C03_history_invariant (ops : List ArgOp) (s : PreArg) (h : StoredOk s) :
    StoredOk (runArgOps s ops) := by
  induction ops generalizing s with
  | nil => exact h
  | cons op rest ih =>
    have : StoredOk (op.exec s).1 := by
      cases op with
      | setDisplacement v => exact setD_ok s v h
      | setEnlargement v => exact setE_ok s v h
      | setPeriodicity v => exact setP_ok s v h
      | setUserArgument d =>
        exact setAll_ok d (initialization s) ⟨by simp [initialization], by simp [initialization], by simp [initialization]⟩
    exact ih _ this

/-- **C03** for a fresh object. -/
theorem C03_fresh_history (ops : List ArgOp) : StoredOk (runArgOps {} ops) :=
  C03_history_invariant ops {} ⟨by simp, by simp, by simp⟩

/-- **C03** (values stored).  A non-negative displacement, and an enlargement of three integers, is
stored as given: the setters do not silently change accepted values. -/
theorem C03_accepted_values_stored (s : PreArg) (q : ℚ) (hq : 0 ≤ q) (a b c : ℤ) :
    (setDisplacement s (.atom (.float q))).1.displacement = some q ∧
    (setEnlargement s (.list [.int a, .int b, .int c])).1.enlargement = some [a, b, c] := by
  constructor
  · unfold setDisplacement
    simp only [floatOf, not_lt.mpr hq, if_false]
    split_ifs <;> rfl
  · simp [setEnlargement, toIntNumpy, intsOf, intOf]

/-- **C05** (fractional factors).  Enlargement factors given as decimal numbers are cut to whole numbers, towards zero. -/
theorem C05_fractions_truncated (s : PreArg) (l : List ℚ) (h3 : l.length = 3) :
    ∃ t : List ℤ, setEnlargement s (.list (l.map .float)) = ({ s with enlargement := some t }, none) ∧ t.length = 3 ∧
      ∀ (i : ℕ) (q : ℚ) (z : ℤ), l[i]? = some q → t[i]? = some z → (0 ≤ q → (z : ℚ) ≤ q ∧ q < z + 1) ∧ (q ≤ 0 → q ≤ z ∧ (z : ℚ) - 1 < q) := by
  have key : ∀ l : List ℚ, intsOf (l.map .float) = .ok (l.map fun q => if q < 0 then -⌊-q⌋ else ⌊q⌋) := by
    intro l
    induction l with
    | nil => rfl
    | cons q l ih => rw [List.map_cons, intsOf, ih]; rfl
  refine ⟨l.map fun q => if q < 0 then -⌊-q⌋ else ⌊q⌋, ?_, by simpa using h3, ?_⟩
  · have e : toIntNumpy (.list (l.map .float)) = .ok (l.map fun q => if q < 0 then -⌊-q⌋ else ⌊q⌋) := key l
    unfold setEnlargement
    rw [e]
    simp [h3]
  · intro i q z hq hz
    rw [List.getElem?_map, hq, Option.map_some, Option.some.injEq] at hz
    subst hz
    have h1 := Int.floor_le (-q)
    have h2 := Int.lt_floor_add_one (-q)
    have h4 := Int.floor_le q
    have h5 := Int.lt_floor_add_one q
    by_cases h : q < 0
    · rw [if_pos h]
      push_cast
      exact ⟨fun h0 => absurd h (not_lt.2 h0), fun _ => ⟨by linarith, by linarith⟩⟩
    · rw [if_neg h]
      refine ⟨fun _ => ⟨h4, h5⟩, fun h0 => ?_⟩
      have : q = 0 := le_antisymm h0 (not_lt.1 h)
      subst this
      simp

/-- Non-vacuity: 2.7, 1 and -1.5 become 2, 1 and -1. -/
example : setEnlargement {} (.list ([27 / 10, 1, -3 / 2].map .float)) = ({ enlargement := some [2, 1, -1] }, none) := by decide +kernel

/-- **C03** (single numbers).  A single number, truth value or `None` instead of three factors is never stored: an integer or a truth value is
`Insufficient_ENLARGE`/`Insufficient_PBC`, anything else a `TypeError`. -/
theorem C03_scalar_rejected (s : PreArg) (v : PyAtom) (h : ∀ t, v ≠ .str t) :
    (∃ e, setEnlargement s (.atom v) = (s, some e) ∧ (e = .insufficientEnlarge ↔ (∃ i, v = .int i) ∨ ∃ b, v = .bool b) ∧
      (e = .typeError ↔ (∃ q, v = .float q) ∨ v = .none)) := by
  cases v with
  | str t => exact absurd rfl (h t)
  | int i => exact ⟨_, rfl, by simp, by simp⟩
  | bool b => exact ⟨_, rfl, by simp, by simp⟩
  | float q => exact ⟨_, rfl, by simp, by simp⟩
  | none => exact ⟨_, rfl, by simp, by simp⟩

/-- Non-vacuity: the factor 2 alone is rejected and the stored value stays. -/
example : setEnlargement { enlargement := some [3, 3, 1] } (.atom (.int 2)) = ({ enlargement := some [3, 3, 1] }, some .insufficientEnlarge) := by decide +kernel

/-- Finding recorded with C03: a negative displacement is dropped *without* an exception
(`core/pre_check.py:51` constructs the exception but does not raise it), so the old value survives. -/
theorem C03_negative_displacement_silently_ignored (s : PreArg) (q : ℚ) (hq : q < 0) :
    setDisplacement s (.atom (.float q)) = (s, none) := by
  simp [setDisplacement, floatOf, hq]

example : runArgOps {} [.setEnlargement (.list [.int 2, .int 2, .int 1]), .setPeriodicity (.atom (.str "0 1 0".toList)),
    .setDisplacement (.atom (.float (1/20))), .setDisplacement (.atom (.int (-3)))] =
    { displacement := some (1/20), enlargement := some [2, 2, 1], periodicity := none } := by decide +kernel

/-- A word of the periodicity text that says "not periodic": its first character is `0`, `F` or `f`. -/
def SaysNo (w : Str) : Prop := w.head? = some '0' ∨ w.head? = some 'F' ∨ w.head? = some 'f'

theorem pbcToken_no (w : Str) (h : w ≠ []) : pbcToken w = 0 ↔ SaysNo w := by
  cases w with
  | nil => exact absurd rfl h
  | cons c r =>
    simp only [pbcToken, SaysNo, List.head?_cons, Option.some.injEq]
    split_ifs with hc
    · simp [hc]
    · simp [hc]

/-- **C03** (periodicity text).  With an enlargement stored, a periodicity text of three words is accepted exactly if the enlargement is 1 along every direction whose
word says no (`0…`, `F…`, `f…`); then the flag 0 is stored for these directions and 1 for the others.  A text with another number of words is rejected. -/
theorem C03_periodicity_text (s : PreArg) (n : List ℤ) (hn : n.length = 3) (hs : s.enlargement = some n) (t : Str) :
    ((setPeriodicity s (.atom (.str t))).2 = none ↔
        (split (strip t)).length = 3 ∧ ∀ (i : ℕ) (w : Str), (split (strip t))[i]? = some w → SaysNo w → n[i]? = some 1) ∧
      ((setPeriodicity s (.atom (.str t))).2 = none → ∃ p : List ℤ, (setPeriodicity s (.atom (.str t))).1 = { s with periodicity := some p } ∧
        p.length = 3 ∧ ∀ (i : ℕ) (w : Str), (split (strip t))[i]? = some w → (SaysNo w → p[i]? = some 0) ∧ (¬SaysNo w → p[i]? = some 1)) := by
  have hw : ∀ w ∈ split (strip t), w ≠ [] := fun w h => (split_tokens _ w h).1
  have hflag : ∀ w ∈ split (strip t), (SaysNo w → pbcToken w = 0) ∧ (¬SaysNo w → pbcToken w = 1) := by
    intro w h
    refine ⟨fun h' => (pbcToken_no w (hw w h)).2 h', fun h' => ?_⟩
    have h1 := (pbcToken_no w (hw w h)).not.2 h'
    cases w with
    | nil => exact absurd rfl (hw _ h)
    | cons c r =>
      simp only [pbcToken] at h1 ⊢
      split_ifs at h1 ⊢ with hc
      · exact absurd rfl h1
      · rfl
  have hloop : ∀ (l : List Str) (i : ℕ), (∀ w ∈ l, w ≠ []) → i + l.length = 3 →
      (pbcLoop s i (l.map pbcToken) = none ↔ ∀ j w, l[j]? = some w → SaysNo w → n[i + j]? = some 1) := by
    intro l
    induction l with
    | nil => intro i _ _; simp [pbcLoop]
    | cons w l ih =>
      intro i hl hi
      have ih' := ih (i + 1) (fun w h => hl w (by simp [h])) (by simp at hi ⊢; omega)
      have key : (∀ j w', (w :: l)[j]? = some w' → SaysNo w' → n[i + j]? = some 1) ↔
          ((SaysNo w → n[i]? = some 1) ∧ ∀ j w', l[j]? = some w' → SaysNo w' → n[i + 1 + j]? = some 1) := by
        constructor
        · intro h
          exact ⟨fun hw => by simpa using h 0 w rfl hw, fun j w' h1 h2 => by
            have := h (j + 1) w' (by simpa using h1) h2
            rwa [show i + (j + 1) = i + 1 + j by omega] at this⟩
        · rintro ⟨h0, h1⟩ j w' hj hw'
          cases j with
          | zero => simp at hj; subst hj; simpa using h0 hw'
          | succ j => rw [show i + (j + 1) = i + 1 + j by omega]; exact h1 j w' (by simpa using hj) hw'
      rw [key, List.map_cons, pbcLoop]
      have hi3 : i < n.length := by rw [hn]; simp at hi; omega
      have he : enlAt s i = .ok n[i] := by
        unfold enlAt; rw [hs]; simp [getE, List.getElem?_eq_getElem hi3]
      by_cases hz : SaysNo w
      · rw [if_pos ((pbcToken_no w (hl w (by simp))).2 hz), he]
        simp only
        by_cases h1 : n[i] = 1
        · rw [if_neg (by simpa using h1), ih']
          simp [hz, List.getElem?_eq_getElem hi3, h1]
        · rw [if_pos (by simpa using h1)]
          simp [hz, List.getElem?_eq_getElem hi3, h1]
      · rw [if_neg ((pbcToken_no w (hl w (by simp))).not.2 hz), ih']
        simp [hz]
  have hset : setPeriodicity s (.atom (.str t)) = (if ((split (strip t)).map pbcToken).length ≠ 3 then (s, some .insufficientPBC)
      else match pbcLoop s 0 ((split (strip t)).map pbcToken) with
        | some e => (s, some e)
        | none => ({ s with periodicity := some ((split (strip t)).map pbcToken) }, none)) := rfl
  rw [hset]
  generalize split (strip t) = ws at hw hflag hset
  by_cases hl : ws.length = 3
  · have h0 := hloop ws 0 hw (by omega)
    rw [if_neg (by simpa using hl)]
    cases hp : pbcLoop s 0 (ws.map pbcToken) with
    | some e =>
      rw [hp] at h0
      simp only [Nat.zero_add, reduceCtorEq, false_iff] at h0
      refine ⟨⟨fun h => (by cases h), fun h => absurd h.2 h0⟩, fun h => (by cases h)⟩
    | none =>
      rw [hp] at h0
      simp only [Nat.zero_add, true_iff] at h0
      refine ⟨⟨fun _ => ⟨hl, h0⟩, fun _ => rfl⟩, fun _ => ⟨_, rfl, by simpa using hl, fun i w hi => ?_⟩⟩
      have hm := List.mem_of_getElem? hi
      rw [List.getElem?_map, hi]
      exact ⟨fun h => by simp [(hflag w hm).1 h], fun h => by simp [(hflag w hm).2 h]⟩
  · rw [if_pos (by simpa using hl)]
    exact ⟨⟨fun h => (by cases h), fun h => absurd h.1 hl⟩, fun h => (by cases h)⟩

/-- The hypotheses of `C03_periodicity_text`, with words in all accepted spellings. -/
example : (setPeriodicity { enlargement := some [2, 3, 1] } (.atom (.str " True 1 false ".toList))) =
    ({ enlargement := some [2, 3, 1], periodicity := some [1, 1, 0] }, none) := by decide +kernel

/-! ### C04 -/

/-- The three dictionary entries, for keys that the substring test recognises. -/
structure ThreeKeys (kd ke kp : Str) : Prop where
  d : isInfix "displacement".toList kd = true
  e : isInfix "enlargement".toList ke = true
  e' : isInfix "displacement".toList ke = false
  p : isInfix "periodicity".toList kp = true
  p' : isInfix "displacement".toList kp = false
  p'' : isInfix "enlargement".toList kp = false

theorem cliKeys : ThreeKeys "displacement".toList "enlargement".toList "periodicity".toList := by
  constructor <;> decide +kernel

private theorem setOne_d {kd ke kp} (h : ThreeKeys kd ke kp) (s v) : setOne s kd v = setDisplacement s v := by
  simp only [setOne, h.d]; rfl
private theorem setOne_e {kd ke kp} (h : ThreeKeys kd ke kp) (s v) : setOne s ke v = setEnlargement s v := by
  simp only [setOne, h.e, h.e']; rfl
private theorem setOne_p {kd ke kp} (h : ThreeKeys kd ke kp) (s v) : setOne s kp v = setPeriodicity s v := by
  simp only [setOne, h.p, h.p', h.p'']; rfl

private theorem pbcLoop_congr (s t : PreArg) (h : s.enlargement = t.enlargement) :
    ∀ (p : List ℤ) (i : ℕ), pbcLoop s i p = pbcLoop t i p := by
  intro p
  induction p with
  | nil => intro i; rfl
  | cons v vs ih =>
    intro i
    unfold pbcLoop
    rw [ih (i + 1)]
    simp only [enlAt, h]

/-- Success of a dictionary: the final state if no exception was raised. -/
def okState (o : Outcome) : Option PreArg := match o with
  | (s, none) => some s
  | (_, some _) => none

private theorem ok_d (s : PreArg) (v : PyVal) (rest) (k : Str) (hk : ∀ s v, setOne s k v = setDisplacement s v) :
    okState (setAll s ((k, v) :: rest)) =
      match floatOf v with
      | .ok d => okState (setAll (if d < 0 then s else { s with displacement := some d }) rest)
      | .error _ => none := by
  rw [setAll.eq_2, hk, setDisplacement]
  cases floatOf v with
  | error e => simp [okState]
  | ok d => dsimp only; split_ifs <;> rfl

private theorem ok_e (s : PreArg) (v : PyVal) (rest) (k : Str) (hk : ∀ s v, setOne s k v = setEnlargement s v) :
    okState (setAll s ((k, v) :: rest)) =
      match toIntNumpy v with
      | .ok e => if e.length = 3 then okState (setAll { s with enlargement := some e } rest) else none
      | .error _ => none := by
  rw [setAll.eq_2, hk, setEnlargement]
  cases toIntNumpy v with
  | error e => simp [okState]
  | ok d => dsimp only; split_ifs with h <;> simp_all [okState]

/-- The flags a periodicity string stands for. -/
def flags (t : Str) : List ℤ := (split (strip t)).map pbcToken

private theorem ok_p (s : PreArg) (v : PyVal) (rest) (k : Str) (hk : ∀ s v, setOne s k v = setPeriodicity s v) :
    okState (setAll s ((k, v) :: rest)) =
      match v with
      | .atom (.str t) =>
        if (flags t).length = 3 then
          if pbcLoop s 0 (flags t) = none then
            okState (setAll { s with periodicity := some (flags t) } rest)
          else none
        else none
      | _ => none := by
  rw [setAll.eq_2, hk, setPeriodicity.eq_def]
  cases v with
  | list l => simp [okState]
  | atom a =>
    cases a <;> simp only [okState]
    rename_i t
    rw [← flags]
    by_cases h : (flags t).length = 3
    · simp only [h, ne_eq, not_true_eq_false, if_false, if_true]
      cases hl : pbcLoop s 0 (flags t) with
      | none => simp only [flags] at hl ⊢; simp [hl]
      | some e => simp only [flags] at hl ⊢; simp [hl]
    · simp only [h, ne_eq, not_false_eq_true, if_true, if_false]

/-- What an accepted dictionary must store, written without the setters' order: `d` if it is
non-negative (else nothing), the three enlargements, the three periodicity flags. -/
def acceptedState (vd ve vp : PyVal) : Option PreArg :=
  match floatOf vd, toIntNumpy ve, vp with
  | .ok d, .ok e, .atom (.str t) =>
    let p := flags t
    let s : PreArg := { displacement := if d < 0 then none else some d, enlargement := some e, periodicity := some p }
    if checkUserArgument s = none then some s else none
  | _, _, _ => none

/-- **C04.** All three orders in which enlargement precedes periodicity are accepted in exactly the same
cases and store exactly the same state, namely the order-free `acceptedState`. -/
theorem C04_order_irrelevant (s : PreArg) {kd ke kp : Str} (hk : ThreeKeys kd ke kp) (vd ve vp : PyVal) :
    okState (setUserArgument s [(kd, vd), (ke, ve), (kp, vp)]) = acceptedState vd ve vp ∧
    okState (setUserArgument s [(ke, ve), (kd, vd), (kp, vp)]) = acceptedState vd ve vp ∧
    okState (setUserArgument s [(ke, ve), (kp, vp), (kd, vd)]) = acceptedState vd ve vp := by
  have hd := setOne_d hk
  have he := setOne_e hk
  have hp := setOne_p hk
  have nil : ∀ s, okState (setAll s []) = some s := fun s => rfl
  have loopEq : ∀ d e q p, pbcLoop { displacement := d, enlargement := some e, periodicity := q } 0 p =
      pbcLoop { enlargement := some e } 0 p :=
    fun d e q p => pbcLoop_congr { displacement := d, enlargement := some e, periodicity := q } { enlargement := some e } rfl p 0
  unfold setUserArgument initialization acceptedState
  simp only [ok_d _ _ _ _ hd, ok_e _ _ _ _ he, ok_p _ _ _ _ hp, nil]
  cases floatOf vd with
  | error e =>
    refine ⟨by simp, ?_, ?_⟩
    · cases toIntNumpy ve <;> simp
    · cases toIntNumpy ve <;> simp
      intro _; cases vp with
      | list l => rfl
      | atom a => cases a <;> simp
  | ok d =>
    cases toIntNumpy ve with
    | error e => simp
    | ok e =>
      cases vp with
      | list l => simp
      | atom a =>
        cases a <;> try (simp; done)
        rename_i t
        dsimp only
        generalize flags t = p
        by_cases hl : e.length = 3
        · by_cases hpl : p.length = 3
          · by_cases hdn : d < 0
            · simp only [checkUserArgument, hl, hpl, hdn, if_true, ne_eq, not_true_eq_false, if_false, loopEq, and_self]
            · simp only [checkUserArgument, hl, hpl, hdn, if_true, ne_eq, not_true_eq_false, if_false, loopEq, and_self]
          · simp [checkUserArgument, hl, hpl]
        · simp [checkUserArgument, hl]

private theorem pbcLoop_all_periodic (s : PreArg) : ∀ (p : List ℤ) (i : ℕ), (∀ x ∈ p, x ≠ 0) → pbcLoop s i p = none := by
  intro p
  induction p with
  | nil => intro i _; rfl
  | cons v vs ih =>
    intro i h
    unfold pbcLoop
    rw [if_neg (h v (by simp))]
    exact ih (i + 1) fun x hx => h x (by simp [hx])

/-- **C04** (periodicity first, fully periodic).  If every direction is periodic, periodicity may even
come before enlargement. -/
theorem C04_periodicity_first_periodic (s : PreArg) {kd ke kp : Str} (hk : ThreeKeys kd ke kp)
    (vd ve : PyVal) (t : Str) (hall' : ∀ tok ∈ split (strip t), ¬SaysNo tok) :
    okState (setUserArgument s [(kp, .atom (.str t)), (kd, vd), (ke, ve)]) = acceptedState vd ve (.atom (.str t)) ∧
    okState (setUserArgument s [(kp, .atom (.str t)), (ke, ve), (kd, vd)]) = acceptedState vd ve (.atom (.str t)) ∧
    okState (setUserArgument s [(kd, vd), (kp, .atom (.str t)), (ke, ve)]) = acceptedState vd ve (.atom (.str t)) := by
  have hall : ∀ tok ∈ split (strip t), pbcToken tok ≠ 0 := fun tok h => (pbcToken_no tok (split_tokens _ tok h).1).not.2 (hall' tok h)
  have hd := setOne_d hk
  have he := setOne_e hk
  have hp := setOne_p hk
  have nil : ∀ s, okState (setAll s []) = some s := fun s => rfl
  have hall' : ∀ x ∈ flags t, x ≠ 0 := by
    intro x hx
    obtain ⟨tok, htok, rfl⟩ := List.mem_map.mp hx
    exact hall tok htok
  have loop : ∀ s, pbcLoop s 0 (flags t) = none := fun s => pbcLoop_all_periodic s _ 0 hall'
  unfold setUserArgument initialization acceptedState
  simp only [ok_d _ _ _ _ hd, ok_e _ _ _ _ he, ok_p _ _ _ _ hp, nil, loop]
  by_cases hpl : (flags t).length = 3
  · cases floatOf vd with
    | error e =>
      cases toIntNumpy ve <;> simp [hpl]
    | ok d =>
      cases toIntNumpy ve with
      | error e => simp [hpl]
      | ok e =>
        by_cases hl : e.length = 3 <;> by_cases hdn : d < 0 <;>
          simp [checkUserArgument, hl, hpl, hdn, loop]
  · cases floatOf vd with
    | error e => simp [hpl]
    | ok d =>
      cases toIntNumpy ve with
      | error e => simp [hpl]
      | ok e => by_cases hl : e.length = 3 <;> simp [hpl, hl, checkUserArgument]

/-- **C04** (the excluded order).  On an object without enlargement, a periodicity with a non-periodic
direction fails — the setter indexes `None` — whatever comes later in the dictionary. -/
theorem C04_periodicity_first_nonperiodic_fails (s : PreArg) {kd ke kp : Str} (hk : ThreeKeys kd ke kp)
    (t : Str) (rest : List (Str × PyVal)) (hbad' : ∃ tok ∈ split (strip t), SaysNo tok) :
    okState (setUserArgument s ((kp, .atom (.str t)) :: rest)) = none := by
  have hbad : ∃ tok ∈ split (strip t), pbcToken tok = 0 := by
    obtain ⟨tok, h1, h2⟩ := hbad'
    exact ⟨tok, h1, (pbcToken_no tok (split_tokens _ tok h1).1).2 h2⟩
  have hp := setOne_p hk
  unfold setUserArgument initialization
  rw [ok_p _ _ _ _ hp]
  have : ∀ (p : List ℤ) (i : ℕ), (∃ x ∈ p, x = 0) → pbcLoop {} i p = some .typeError := by
    intro p
    induction p with
    | nil => intro i h; simp at h
    | cons v vs ih =>
      intro i h
      unfold pbcLoop
      by_cases hv : v = 0
      · simp [hv, enlAt]
      · rw [if_neg hv]
        apply ih
        obtain ⟨x, hx, hx0⟩ := h
        rcases List.mem_cons.mp hx with rfl | hx
        · exact absurd hx0 hv
        · exact ⟨x, hx, hx0⟩
  have hex : ∃ x ∈ flags t, x = 0 := by
    obtain ⟨tok, h1, h2⟩ := hbad
    exact ⟨_, List.mem_map_of_mem h1, h2⟩
  simp [this _ 0 hex]

example : okState (setUserArgument {} [("periodicity".toList, .atom (.str "1 T yes".toList)),
    ("enlargement".toList, .list [.int 3, .int 2, .int 1]), ("displacement".toList, .atom (.str "0.02".toList))]) =
    some { displacement := some (1/50), enlargement := some [3, 2, 1], periodicity := some [1, 1, 1] } := by
  decide +kernel
example : acceptedState (.atom (.str "0.02".toList)) (.atom (.str "2 2 1".toList)) (.atom (.str "1 1 0".toList)) =
    some { displacement := some (1/50), enlargement := some [2, 2, 1], periodicity := some [1, 1, 0] } := by
  decide +kernel

/-! ### C05 -/

/-- The full C05: every accepted enlargement factor is at least 1. -/
def C05_full : Prop :=
  ∀ (s s' : PreArg) (d : List (Str × PyVal)), setUserArgument s d = (s', none) → checkUserArgument s' = none →
    ∀ e, s'.enlargement = some e → ∀ n ∈ e, 1 ≤ n

/-- **C05 is false**: `0 -2 1` with periodicity `1 1 0` is accepted. -/
theorem C05_refuted : ¬ C05_full := by
  intro h
  have := h {} { enlargement := some [0, -2, 1], periodicity := some [1, 1, 0] }
    [("enlargement".toList, .atom (.str "0 -2 1".toList)), ("periodicity".toList, .atom (.str "1 1 0".toList))]
    (by decide +kernel) (by decide +kernel) [0, -2, 1] rfl 0 (by simp)
  omega

/-- **C05, proved part.**  Along every non-periodic direction an accepted enlargement factor is exactly 1,
hence positive.  Missing: nothing is checked along periodic directions (see `C05_refuted`). -/
theorem C05_enlargement_positive_partial (s s' : PreArg) (d : List (Str × PyVal))
    (_hset : setUserArgument s d = (s', none)) (hchk : checkUserArgument s' = none)
    (e p : List ℤ) (he : s'.enlargement = some e) (hp : s'.periodicity = some p)
    (i : ℕ) (hi : p[i]? = some 0) : e[i]? = some 1 := by
  obtain ⟨e', p', he', hp', hl, hpl, h⟩ := (C02_check_decides_consistency s').mp hchk
  rw [he] at he'; rw [hp] at hp'; cases he'; cases hp'
  have : i < p.length := (List.getElem?_eq_some_iff.mp hi).1
  exact h i (by omega) hi

end Interphon.Props
