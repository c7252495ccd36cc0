import Verif.Props.Cli
import Verif.Props.Output
import Verif.Props.Numbers

/-! # C108 to C110: force files, temperatures, band and mode arguments, record of the unit cell -/

namespace Interphon.Props
open Py Interphon Interphon.Cli Interphon.Args

/-! ### C108: which force files, in which order -/

/-- Alphabetical order (by code points, as Python sorts): no earlier name is greater than a later one. -/
def Alphabetical (l : List Str) : Prop := l.Pairwise fun a b => ¬ b < a

private theorem alphabetical_unique {l l' : List Str} (hp : l.Perm l') (h : Alphabetical l) (h' : Alphabetical l') : l = l' :=
  hp.eq_of_pairwise (fun _ _ _ _ h1 h2 => List.le_antisymm (Std.not_lt.mp h1) (Std.not_lt.mp h2)) h h'

private theorem sort_spec (l : List Str) : (l.mergeSort (fun x y => decide (¬ y < x))).Perm l ∧ Alphabetical (l.mergeSort (fun x y => decide (¬ y < x))) := by
  refine ⟨List.mergeSort_perm _ _, ?_⟩
  have := List.pairwise_mergeSort (le := fun x y : Str => decide (¬ y < x)) (fun a b c h1 h2 => by
    simp only [decide_eq_true_eq] at h1 h2 ⊢
    exact Std.not_lt.mpr (List.le_trans (Std.not_lt.mp h1) (Std.not_lt.mp h2))) (fun a b => by
    by_cases h : b < a
    · have := List.lt_asymm h; simp [this]
    · simp [h]) l
  exact this.imp fun h => by simpa using h

/-- **C108** (several arguments).  Two or more force-file arguments are used as they are, in the order given. -/
theorem C108_several_arguments (glob : Str → List Str) (args : List Str) (h : 2 ≤ args.length) : forceFiles glob args = .ok args := by
  unfold forceFiles; rw [if_pos (by omega)]

/-- **C108** (one pattern).  A single argument is a pattern: all files that match it are used, each as often as `glob` lists it, in alphabetical order — whatever the
order in which the file system lists them.  If nothing matches, or there is no argument at all, an exception is raised. -/
theorem C108_pattern (glob : Str → List Str) (a : Str) :
    (glob a ≠ [] → ∃ l, forceFiles glob [a] = .ok l ∧ l.Perm (glob a) ∧ Alphabetical l ∧ ∀ l' : List Str, l'.Perm (glob a) → Alphabetical l' → l' = l) ∧
      (glob a = [] → forceFiles glob [a] = .error .exception) ∧ forceFiles glob [] = .error .indexError := by
  obtain ⟨h1, h2⟩ := sort_spec (glob a)
  have e : forceFiles glob [a] = if (glob a).mergeSort (fun x y => decide (¬ y < x)) = [] then .error .exception
      else .ok ((glob a).mergeSort (fun x y => decide (¬ y < x))) := rfl
  refine ⟨fun h => ?_, fun h => ?_, rfl⟩
  · have hne : (glob a).mergeSort (fun x y => decide (¬ y < x)) ≠ [] := fun h0 => by
      rw [h0] at h1; exact h (List.nil_perm.1 h1)
    rw [e, if_neg hne]
    exact ⟨_, rfl, h1, h2, fun l' hp hs => alphabetical_unique (hp.trans h1.symm) hs h2⟩
  · rw [e, h, List.mergeSort_nil, if_pos rfl]

/-- **C108** (numbered directories).  If the files that match differ only in a number written with a fixed number `w` of digits (`…-0001/vasprun.xml`,
`…-0002/vasprun.xml`, …), they are used in the order of the numbers — the order in which the displaced cells were written. -/
theorem C108_numbered (glob : Str → List Str) (a pre post : Str) (w N : ℕ) (hN : 0 < N) (hw : N < 10 ^ w)
    (h : (glob a).Perm ((List.range N).map fun i => pre ++ padLeft '0' w (natStr (i + 1)) ++ post)) :
    forceFiles glob [a] = .ok ((List.range N).map fun i => pre ++ padLeft '0' w (natStr (i + 1)) ++ post) := by
  have hw0 : 0 < w := by
    rcases Nat.eq_zero_or_pos w with rfl | h
    · simp at hw; omega
    · exact h
  have hne : glob a ≠ [] := fun h0 => by
    rw [h0] at h
    have := h.length_eq
    simp at this; omega
  obtain ⟨l, e, -, -, hu⟩ := (C108_pattern glob a).1 hne
  rw [e, ← hu _ h.symm]
  unfold Alphabetical
  rw [List.pairwise_map]
  have hp : (List.range N).Pairwise (fun a b => a < b ∧ b < N) := by
    rw [List.pairwise_iff_getElem]
    intro i j hi hj hij
    simp at hi hj ⊢; omega
  refine hp.imp ?_
  rintro i j ⟨h1, h2⟩
  apply List.lt_asymm
  rw [padLeft_natStr w _ (by omega) hw0, padLeft_natStr w _ (by omega) hw0, List.append_assoc, List.append_assoc]
  apply List.append_left_lt
  exact lt_append_of_lt (fixDigits_lt w (by omega) (by omega)) (by rw [length_fixDigits, length_fixDigits]) _ _

/-- A file system that lists three numbered files in another order. -/
example : forceFiles (fun _ => ["f-0003/o".toList, "f-0001/o".toList, "f-0002/o".toList]) ["f-*/o".toList] =
    .ok ["f-0001/o".toList, "f-0002/o".toList, "f-0003/o".toList] :=
  (by decide +kernel : (List.range 3).map (fun i => "f-".toList ++ padLeft '0' 4 (natStr (i + 1)) ++ "/o".toList) =
    ["f-0001/o".toList, "f-0002/o".toList, "f-0003/o".toList]) ▸
  C108_numbered (fun _ => ["f-0003/o".toList, "f-0001/o".toList, "f-0002/o".toList]) "f-*/o".toList "f-".toList "/o".toList 4 3 (by norm_num)
    (by norm_num) (by decide +kernel)

/-! ### C109: temperatures, band arguments, mode arguments -/

/-- **C109** (temperatures).  With a positive step the temperatures are exactly the values `minimum + k · step`, `k = 0, 1, 2, …`, *below* the maximum (the maximum itself
is not among them), each once, in ascending order; a zero step is an exception. -/
theorem C109_temperatures (tmin tmax tstep : ℤ) :
    (0 < tstep → ∃ l : List ℤ, pyRange tmin tmax tstep = .ok l ∧ l.Pairwise (· < ·) ∧ ∀ t, t ∈ l ↔ t < tmax ∧ ∃ k : ℕ, t = tmin + k * tstep) ∧
      (tstep = 0 → pyRange tmin tmax tstep = .error .valueError) := by
  refine ⟨fun h => ?_, fun h => by rw [pyRange, if_pos h]⟩
  refine ⟨_, by rw [pyRange, if_neg (by omega), if_pos h], ?_, fun t => ?_⟩
  · rw [List.pairwise_map]
    refine List.pairwise_lt_range.imp ?_
    intro a b hab
    have : (a : ℤ) < b := by exact_mod_cast hab
    nlinarith
  · simp only [List.mem_map, List.mem_range]
    have key : ∀ k : ℕ, k < ((tmax - tmin + tstep - 1) / tstep).toNat ↔ tmin + tstep * (k : ℤ) < tmax := by
      intro k
      rw [Int.lt_toNat, ← Int.add_one_le_iff, Int.le_ediv_iff_mul_le h]
      constructor
      · intro h1; nlinarith
      · intro h1; nlinarith
    constructor
    · rintro ⟨k, hk, rfl⟩
      exact ⟨(key k).1 hk, k, by ring⟩
    · rintro ⟨h1, k, rfl⟩
      exact ⟨k, (key k).2 (by linarith [mul_comm (k : ℤ) tstep]), by ring⟩

/-- Words with one blank between them. -/
def joinWords : List Str → Str
  | [] => []
  | [w] => w
  | w :: ws => w ++ ' ' :: joinWords ws

private theorem split_joinWords : ∀ ws : List Str, (∀ w ∈ ws, IsToken w) → split (joinWords ws) = ws
  | [], _ => rfl
  | [w], h => split_token (h w (by simp))
  | w :: v :: ws, h => by
    have e : joinWords (w :: v :: ws) = w ++ ' ' :: joinWords (v :: ws) := rfl
    rw [e, split_token_ws (h w (by simp)) (by decide), split_joinWords (v :: ws) fun x hx => h x (by simp [hx])]

private theorem joinWords_trimmed : ∀ ws : List Str, (∀ w ∈ ws, IsToken w) → Trimmed (joinWords ws)
  | [], _ => ⟨by simp [joinWords], by simp [joinWords]⟩
  | [w], h => ⟨fun c hc => (h w (by simp)).2 c (List.mem_of_mem_head? hc), fun c hc => (h w (by simp)).2 c (List.mem_of_getLast? hc)⟩
  | w :: v :: ws, h => by
    have e : joinWords (w :: v :: ws) = w ++ ' ' :: joinWords (v :: ws) := rfl
    have ih := joinWords_trimmed (v :: ws) fun x hx => h x (by simp [hx])
    have hne : joinWords (v :: ws) ≠ [] := fun h0 => by
      have h1 := split_joinWords (v :: ws) fun x hx => h x (by simp [hx])
      rw [h0] at h1; cases h1
    have hw := h w (by simp)
    rw [e]
    refine ⟨fun c hc => ?_, fun c hc => ?_⟩
    · rw [List.head?_append_of_ne_nil _ hw.1] at hc
      exact hw.2 c (List.mem_of_mem_head? hc)
    · rw [List.getLast?_append_of_ne_nil _ (by simp), List.getLast?_cons_of_ne_nil hne] at hc
      exact ih.2 c hc

private theorem bandArgs_ok {option : Str} {atom kLabel elimit : Option Str} {dosElimit : Option (List ℤ)} {a : BandArgs}
    (h : bandArgs option atom kLabel elimit dosElimit = .ok a) : ∃ atoms el, bandAtoms atom = .ok atoms ∧ bandWindow dosElimit elimit = .ok el ∧
      a = ⟨if atom = none ∧ option ≠ "plain".toList then "plain".toList else option, atoms, bandLabels kLabel, el⟩ := by
  unfold bandArgs at h
  cases h1 : bandAtoms atom with
  | error e => rw [h1] at h; cases h
  | ok atoms =>
    cases h2 : bandWindow dosElimit elimit with
    | error e => rw [h1, h2] at h; cases h
    | ok el => rw [h1, h2] at h; cases h; exact ⟨atoms, el, rfl, rfl, rfl⟩

/-- **C109** (k-point labels).  Labels written with blanks between them are the labels handed to the band plot, in order. -/
theorem C109_labels_read_back (ws : List Str) (h : ∀ w ∈ ws, IsToken w) (option : Str) (atom elimit : Option Str) (dosElimit : Option (List ℤ)) (a : BandArgs)
    (ha : bandArgs option atom (some (joinWords ws)) elimit dosElimit = .ok a) : a.kLabels = ws := by
  obtain ⟨-, -, -, -, rfl⟩ := bandArgs_ok ha
  show split (strip (joinWords ws)) = ws
  rw [strip_trim (joinWords_trimmed ws h), split_joinWords ws h]

/-- **C109** (band arguments).  If the band arguments are accepted: a projection is drawn only with atoms, which are the integers of the text; without atoms the option is
`plain`; the energy window is that of the DOS if there is one and has two limits otherwise; without `-elimit` there is none. -/
theorem C109_band_consistent (option : Str) (atom kLabel elimit : Option Str) (dosElimit : Option (List ℤ)) (a : BandArgs)
    (h : bandArgs option atom kLabel elimit dosElimit = .ok a) :
    (a.option ≠ "plain".toList → a.option = option ∧ ∃ s l, atom = some s ∧ intList s = .ok l ∧ a.atoms = some l) ∧
      (atom = none → a.option = "plain".toList ∧ a.atoms = none) ∧
      (a.elimit = none ↔ elimit = none) ∧ (∀ l, dosElimit = some l → elimit ≠ none → a.elimit = some l) ∧
      (dosElimit = none → ∀ l, a.elimit = some l → l.length = 2) ∧
      (kLabel = none → a.kLabels = []) := by
  obtain ⟨atoms, el, h1, h2, rfl⟩ := bandArgs_ok h
  refine ⟨fun h3 => ?_, fun h3 => ?_, ?_, fun l h3 h4 => ?_, fun h3 l h4 => ?_, fun h3 => by rw [h3]; rfl⟩
  · cases atom with
    | none =>
      simp only [true_and] at h3
      split_ifs at h3 with h4
      · exact absurd rfl h3
      · exact absurd (not_not.1 h4) h3
    | some s =>
      refine ⟨by simp, s, ?_⟩
      cases h5 : intList s with
      | error e => simp [bandAtoms, h5, Except.map] at h1
      | ok l => exact ⟨l, rfl, rfl, by simp [bandAtoms, h5, Except.map] at h1; exact h1.symm⟩
  · subst h3
    cases h1
    refine ⟨?_, rfl⟩
    simp only [true_and]
    split_ifs with h4
    · rfl
    · exact not_not.1 h4
  · cases elimit with
    | none => cases h2; simp
    | some s =>
      cases dosElimit with
      | some l => cases h2; simp
      | none =>
        simp only [bandWindow] at h2
        cases h5 : intList s with
        | error e => rw [h5] at h2; cases h2
        | ok l =>
          rw [h5] at h2
          simp only at h2
          split_ifs at h2
          cases h2; simp
  · cases elimit with
    | none => exact absurd rfl h4
    | some s => subst h3; cases h2; rfl
  · subst h3
    cases elimit with
    | none => cases h2; cases h4
    | some s =>
      simp only [bandWindow] at h2
      cases h5 : intList s with
      | error e => rw [h5] at h2; cases h2
      | ok l' =>
        rw [h5] at h2
        simp only at h2
        split_ifs at h2 with h6
        cases h2; cases h4; exact h6

/-- **C109** (same window).  If DOS and bands are asked for with the same energy window, both are drawn with the same two limits. -/
theorem C109_same_window (optDos optBand : Str) (atomDos legend atomBand kLabel elimit : Option Str) (a : DosArgs) (b : BandArgs)
    (ha : dosArgs optDos atomDos legend elimit = .ok a) (hb : bandArgs optBand atomBand kLabel elimit a.elimit = .ok b) : b.elimit = a.elimit := by
  have h1 := (C88_accepted_consistent _ _ _ _ _ ha).2.2.2
  obtain ⟨-, -, h2, h3, -⟩ := C109_band_consistent _ _ _ _ _ _ hb
  cases he : a.elimit with
  | none => exact h2.2 (h1.1 he)
  | some l => exact h3 l he fun h => by rw [h1.2 h] at he; cases he

/-- **C109** (lists of numbers).  Atoms of the band projection, indices of modes and the energy window may be written as decimal integers with blanks between them. -/
theorem C109_integers_read_back (l : List ℤ) (option : Str) (kLabel : Option Str) :
    bandArgs option (some (joinInts l)) kLabel none none = .ok ⟨option, some l, (kLabel.map fun s => split (strip s)).getD [], none⟩ ∧
      (l.length = 2 → bandArgs option none kLabel (some (joinInts l)) none =
        .ok ⟨"plain".toList, none, (kLabel.map fun s => split (strip s)).getD [], some l⟩) := by
  have hl : (kLabel.map fun s => split (strip s)).getD [] = bandLabels kLabel := by cases kLabel <;> rfl
  rw [hl]
  refine ⟨?_, fun h => ?_⟩
  · simp [bandArgs, bandAtoms, bandWindow, intList_joinInts, Except.map]
  · simp only [bandArgs, bandAtoms, bandWindow, intList_joinInts, h, if_true, true_and]
    congr 2
    split_ifs with h1
    · rfl
    · exact not_not.1 h1

/-- **C109** (mode arguments).  Accepted mode arguments have a k point of exactly three numbers; the amplitude and the flag are passed on as they are. -/
theorem C109_mode_arguments (ind kpt : Str) (w : Bool) (amp : PyAtom) (m : ModeArgs) (h : modeArgs ind kpt w amp = .ok m) :
    m.kPoint.length = 3 ∧ intList ind = .ok m.index ∧ m.writeDisp = w ∧ m.amplitude = amp := by
  unfold modeArgs at h
  cases h1 : intList ind with
  | error e => rw [h1] at h; cases h
  | ok l =>
    cases h2 : floatList kpt with
    | error e => rw [h1, h2] at h; cases h
    | ok k =>
      rw [h1, h2] at h
      simp only at h
      split_ifs at h with h3
      cases h
      exact ⟨h3, rfl, rfl, rfl⟩

private theorem words_pad {l : Str} {ws : List Str} (h : IsWords l ws) {b' : Str} (hb' : Blanks b') : IsWords (l ++ b') ws := by
  induction h with
  | blank b hb => exact .blank _ fun c hc => (List.mem_append.1 hc).elim (hb c) (hb' c)
  | last b w hb hw hn =>
    cases b' with
    | nil => rw [List.append_nil]; exact .last b w hb hw hn
    | cons c r =>
      rw [List.append_assoc]
      exact .word b w c r [] hb hw hn (fun x hx => hb' x (by simp at hx; simp [hx])) (.blank r fun x hx => hb' x (by simp [hx]))
  | word b w c rest ws hb hw hn hc _ ih =>
    have : b ++ (w ++ c :: rest) ++ b' = b ++ (w ++ c :: (rest ++ b')) := by simp
    rw [this]
    exact .word b w c _ ws hb hw hn hc ih

private theorem words_lead {l : Str} {ws : List Str} (h : IsWords l ws) {a : Str} (ha : Blanks a) : IsWords (a ++ l) ws := by
  have hj : ∀ {b}, Blanks b → Blanks (a ++ b) := fun hb c hc => (List.mem_append.1 hc).elim (ha c) (hb c)
  cases h with
  | blank _ hb => exact .blank _ (hj hb)
  | last b w hb hw hn => rw [← List.append_assoc]; exact .last _ w (hj hb) hw hn
  | word b w c rest ws hb hw hn hc h => rw [← List.append_assoc]; exact .word _ w c rest ws (hj hb) hw hn hc h

private theorem split_of_strip (s : Str) : split (strip s) = split s := by
  obtain ⟨b, b', e, hb, hb'⟩ := strip_inv s
  have h := (C127_words (strip s) _).1 rfl
  have := (C127_words s (split (strip s))).2 (by
    conv => arg 1; rw [e]
    exact words_pad (words_lead h hb) hb')
  exact this.symm

private theorem intsOf_iff : ∀ (ws : List Str) (l : List ℤ), intsOf (ws.map .str) = .ok l ↔ List.Forall₂ IsInteger ws l := by
  intro ws
  induction ws with
  | nil => intro l; simp only [List.map_nil, intsOf, List.forall₂_nil_left_iff]; constructor <;> intro h <;> simp_all
  | cons w ws ih =>
    intro l
    rw [List.map_cons, intsOf.eq_2]
    have hw : intOf (.str w) = match parseInt w with
      | some i => .ok i
      | none => .error .valueError := rfl
    rw [hw]
    cases h1 : parseInt w with
    | none =>
      constructor
      · intro h; cases h
      · intro h
        cases h with
        | cons h2 _ => rw [← C127_integer, h1] at h2; cases h2
    | some i =>
      cases h2 : intsOf (ws.map .str) with
      | error e =>
        constructor
        · intro h; cases h
        · intro h
          cases h with
          | cons _ h3 => rw [← ih, h2] at h3; cases h3
      | ok is =>
        constructor
        · intro h
          cases h
          exact .cons ((C127_integer _ _).1 h1) ((ih _).1 h2)
        · intro h
          cases h with
          | cons h3 h4 =>
            rw [← C127_integer, h1] at h3
            rw [← ih, h2] at h4
            cases h3; cases h4; rfl

private theorem floats_iff : ∀ (ws : List Str) (l : List ℚ), (ws.mapM fun t => match parseFloat t with
    | some q => (.ok q : Run ℚ)
    | none => .error .valueError) = .ok l ↔ List.Forall₂ IsNumber ws l := by
  intro ws
  induction ws with
  | nil => intro l; simp only [List.mapM_nil, List.forall₂_nil_left_iff]; constructor <;> intro h <;> cases h <;> rfl
  | cons w ws ih =>
    intro l
    rw [List.mapM_cons]
    cases h1 : parseFloat w with
    | none =>
      constructor
      · intro h; cases h
      · intro h
        cases h with
        | cons h2 _ => rw [← C127_number, h1] at h2; cases h2
    | some q =>
      generalize (ws.mapM fun t => match parseFloat t with
        | some q => (.ok q : Run ℚ)
        | none => .error .valueError) = r at ih
      cases r with
      | error e =>
        constructor
        · intro h; cases h
        · intro h
          cases h with
          | cons _ h3 => rw [← ih] at h3; cases h3
      | ok is =>
        constructor
        · intro h
          cases h
          exact .cons ((C127_number _ _).1 h1) ((ih _).1 rfl)
        · intro h
          cases h with
          | cons h3 h4 =>
            rw [← C127_number, h1] at h3
            rw [← ih] at h4
            cases h3; cases h4; rfl

/-- **C109** (mode arguments, exactly).  Mode arguments are accepted iff the indices are words that are integers and the k point consists of three words that are numbers; these
integers and numbers are then used. -/
theorem C109_mode_iff (ind kpt : Str) (w : Bool) (amp : PyAtom) (m : ModeArgs) :
    modeArgs ind kpt w amp = .ok m ↔ (∃ iw, IsWords ind iw ∧ List.Forall₂ IsInteger iw m.index) ∧
      (∃ a b c x y z, IsWords kpt [a, b, c] ∧ IsNumber a x ∧ IsNumber b y ∧ IsNumber c z ∧ m.kPoint = [x, y, z]) ∧ m.writeDisp = w ∧ m.amplitude = amp := by
  have hi : ∀ l, intList ind = .ok l ↔ List.Forall₂ IsInteger (split ind) l := by
    intro l; rw [intList, split_of_strip, intsOf_iff]
  have hf : ∀ l, floatList kpt = .ok l ↔ List.Forall₂ IsNumber (split kpt) l := by
    intro l; rw [floatList, split_of_strip]; exact floats_iff _ _
  constructor
  · intro h
    unfold modeArgs at h
    cases h1 : intList ind with
    | error e => rw [h1] at h; cases h
    | ok l =>
      cases h2 : floatList kpt with
      | error e => rw [h1, h2] at h; cases h
      | ok k =>
        rw [h1, h2] at h
        simp only at h
        split_ifs at h with h3
        cases h
        refine ⟨⟨_, (C127_words _ _).1 rfl, (hi _).1 h1⟩, ?_, rfl, rfl⟩
        have h4 := (hf _).1 h2
        obtain ⟨x, y, z, rfl⟩ := List.length_eq_three.1 h3
        obtain ⟨a, b, c, e⟩ := List.length_eq_three.1 (h4.length_eq.trans h3)
        rw [e] at h4
        cases h4 with
        | cons ha h4 => cases h4 with
          | cons hb h4 => cases h4 with
            | cons hc h4 => exact ⟨a, b, c, x, y, z, (C127_words _ _).1 e, ha, hb, hc, rfl⟩
  · rintro ⟨⟨iw, hw, hiw⟩, ⟨a, b, c, x, y, z, hk, ha, hb, hc, hm⟩, rfl, rfl⟩
    have h1 : intList ind = .ok m.index := (hi _).2 (by rw [(C127_words _ _).2 hw]; exact hiw)
    have h2 : floatList kpt = .ok [x, y, z] := (hf _).2 (by rw [(C127_words _ _).2 hk]; exact .cons ha (.cons hb (.cons hc .nil)))
    unfold modeArgs
    rw [h1, h2]
    cases m
    cases hm
    rfl

/-- **C109, full statement for the amplitude**: an amplitude that is accepted in an option file is used as the number it denotes. -/
def C109_amplitude_full : Prop := ∀ (o o' : Opts) (v : Str) (q : ℚ), parseFloat v = some q →
  readOptions o ["disp_amp_mode = ".toList ++ v] = .ok o' → amplitudeFactor (o' 28) = .ok q

/-- **C109, refuted part.**  The amplitude of an option file is stored as text and never converted (`interphon.py:397-398`): every amplitude given there makes the
writing of displaced structures fail with a `TypeError`; the same number on the command line works. -/
theorem C109_amplitude_refuted : ¬ C109_amplitude_full := by
  intro h
  have h1 : readOptions (fun _ => .none) ["disp_amp_mode = ".toList ++ "0.5".toList] = .ok (Function.update (fun _ => .none) 28 (.str "0.5".toList)) := by
    rfl
  have h2 := h _ _ "0.5".toList (1 / 2) (by decide +kernel) h1
  rw [Function.update_self] at h2
  cases h2

/-- DOS and bands with the same window, labels with blanks, a mode at a k point: all accepted. -/
example : (dosArgs "plain".toList none none (some "-5 30".toList)).toOption.map (fun a => bandArgs "projection_line".toList (some "0 1 3".toList) (some " G  K M ".toList) (some "-5 30".toList) a.elimit) =
      some (.ok ⟨"projection_line".toList, some [0, 1, 3], ["G".toList, "K".toList, "M".toList], some [-5, 30]⟩) ∧
    modeArgs "0 5".toList "0.5 0 -0.25".toList true (.float 2) = .ok ⟨[0, 5], [1 / 2, 0, -1 / 4], true, .float 2⟩ ∧
    pyRange 0 1000 400 = .ok [0, 400, 800] := by
  decide +kernel

/-! ### C110: the record of the unit cell -/

/-- The numbers of a text with commas between them, as YAML users read it. -/
def readVector (s : Str) : List (Option ℚ) := (splitOn ',' s).map parseFloat

/-- The integers of a text with commas between them. -/
def readIndices (s : Str) : List (Option ℤ) := (splitOn ',' s).map parseInt

private theorem blank_replicate (n : ℕ) : Blank (List.replicate n ' ') := fun c hc => by rw [(List.mem_replicate.1 hc).2]; decide

private theorem token_trimmed {t : Str} (h : IsToken t) : Trimmed t :=
  ⟨fun c hc => h.2 c (List.mem_of_mem_head? hc), fun c hc => h.2 c (List.mem_of_getLast? hc)⟩

private theorem parseFloat_strip {s t : Str} (ht : IsToken t) (h : strip s = t) : parseFloat s = parseFloat t := by
  unfold parseFloat
  rw [h, strip_token ht.2]

private theorem lstrip_padLeft (w : ℕ) {t : Str} (ht : IsToken t) : lstrip (padLeft ' ' w t) = t := by
  unfold padLeft
  rw [lstrip_blank (blank_replicate _), lstrip_trim (token_trimmed ht).1]

private theorem read_padded (w : ℕ) (q : ℚ) : parseFloat (' ' :: padLeft ' ' w (fmtFixed 16 q)) = some (rndDec 16 q) ∧
    ',' ∉ (' ' :: padLeft ' ' w (fmtFixed 16 q)) := by
  have ht := fmtFixed_token 16 q
  constructor
  · rw [parseFloat_strip ht, parseFloat_fmtFixed]
    rw [strip_lead, strip, lstrip_padLeft w ht, rstrip_trim (token_trimmed ht).2]
  · unfold padLeft
    simp only [List.mem_cons, List.mem_append, List.mem_replicate, not_or]
    exact ⟨by decide, by simp, fmtFixed_not_mem (by decide) (by decide) (by decide)⟩

private theorem rstrip_padLeft (w : ℕ) {t : Str} (ht : IsToken t) : rstrip (padLeft ' ' w t) = padLeft ' ' w t :=
  rstrip_trim fun c hc => by
    unfold padLeft at hc
    rw [List.getLast?_append_of_ne_nil _ ht.1] at hc
    exact ht.2 c (List.mem_of_getLast? hc)

/-- **C110** (vectors).  A vector of the record reads back as its three numbers, rounded to 16 decimals. -/
theorem C110_vector (v : V3 ℚ) : readVector (position16 v) = [some (rndDec 16 (v 0)), some (rndDec 16 (v 1)), some (rndDec 16 (v 2))] := by
  have t0 := fmtFixed_token 16 (v 0)
  have t2 := fmtFixed_token 16 (v 2)
  have e : position16 v = fmtFixed 16 (v 0) ++ ',' :: ((' ' :: padLeft ' ' 20 (fmtFixed 16 (v 1))) ++ ',' :: (' ' :: padLeft ' ' 20 (fmtFixed 16 (v 2)))) := by
    unfold position16
    have : padLeft ' ' 20 (fmtFixed 16 (v 0)) ++ ", ".toList ++ padLeft ' ' 20 (fmtFixed 16 (v 1)) ++ ", ".toList ++ padLeft ' ' 20 (fmtFixed 16 (v 2)) =
      (padLeft ' ' 20 (fmtFixed 16 (v 0)) ++ ',' :: (' ' :: padLeft ' ' 20 (fmtFixed 16 (v 1)))) ++ ',' :: (' ' :: padLeft ' ' 20 (fmtFixed 16 (v 2))) := by
      simp
    rw [this, strip_mid (by decide), lstrip_mid (by decide), lstrip_padLeft 20 t0]
    have : rstrip (' ' :: padLeft ' ' 20 (fmtFixed 16 (v 2))) = ' ' :: padLeft ' ' 20 (fmtFixed 16 (v 2)) := rstrip_trim fun c hc => by
      unfold padLeft at hc
      rw [← List.cons_append, List.getLast?_append_of_ne_nil _ t2.1] at hc
      exact t2.2 c (List.mem_of_getLast? hc)
    rw [this]; simp
  have c0 : ',' ∉ fmtFixed 16 (v 0) := fmtFixed_not_mem (by decide) (by decide) (by decide)
  rw [readVector, e, splitOn_append c0, splitOn_append (read_padded 20 (v 1)).2, splitOn_none (read_padded 20 (v 2)).2]
  simp only [List.map_cons, List.map_nil, parseFloat_fmtFixed, (read_padded 20 (v 1)).1, (read_padded 20 (v 2)).1]

/-- **C110** (lattice).  The record has the entries `a1`, `a2`, `a3`, which read back as the three lattice vectors, rounded to 16 decimals. -/
theorem C110_lattice (L : M3 ℚ) : (iterLattice L).map (fun e => (e.1, readVector e.2)) =
    [("a1".toList, [some (rndDec 16 (L 0 0)), some (rndDec 16 (L 0 1)), some (rndDec 16 (L 0 2))]),
     ("a2".toList, [some (rndDec 16 (L 1 0)), some (rndDec 16 (L 1 1)), some (rndDec 16 (L 1 2))]),
     ("a3".toList, [some (rndDec 16 (L 2 0)), some (rndDec 16 (L 2 1)), some (rndDec 16 (L 2 2))])] := by
  have e : iterLattice L = [("a1".toList, position16 (L 0)), ("a2".toList, position16 (L 1)), ("a3".toList, position16 (L 2))] := by
    have h1 : 'a' :: natStr 1 = "a1".toList := by decide +kernel
    have h2 : 'a' :: natStr 2 = "a2".toList := by decide +kernel
    have h3 : 'a' :: natStr 3 = "a3".toList := by decide +kernel
    have e : List.finRange 3 = [0, 1, 2] := by decide
    rw [iterLattice, e, ← h1, ← h2, ← h3]; rfl
  rw [e]
  simp only [List.map_cons, List.map_nil, C110_vector]

private theorem mapM_ok {α β : Type} {f : α → Run β} {g : α → β} : ∀ {l : List α}, (∀ a ∈ l, f a = .ok (g a)) → l.mapM f = .ok (l.map g)
  | [], _ => rfl
  | a :: l, h => by
    rw [List.mapM_cons, h a (by simp), mapM_ok fun b hb => h b (by simp [hb])]; rfl

/-- **C110** (atoms).  For every cell with one type per atom the record lists every atom once, in order, with its index, its type, whether it is selected, and a position
that reads back as its position rounded to 16 decimals. -/
theorem C110_atoms (c : Cell ℚ) (sel : List ℕ) (hs : c.atomTrue = some sel) (hl : c.atomType.length = c.cart.length) :
    ∃ l, iterAtoms c = .ok l ∧ l.length = c.cart.length ∧ ∀ i < c.cart.length, ∃ e ∈ l[i]?, e.index = i ∧ c.atomType[i]? = some e.type ∧ (e.selection = true ↔ i ∈ sel) ∧
      readVector e.position = [some (rndDec 16 (c.cart.getD i 0 0)), some (rndDec 16 (c.cart.getD i 0 1)), some (rndDec 16 (c.cart.getD i 0 2))] := by
  have hm : iterAtoms c = .ok (c.atomType.zipIdx.map fun t => (⟨t.2, t.1, position16 (c.cart.getD t.2 0), decide (t.2 ∈ sel)⟩ : AtomEntry)) := by
    unfold iterAtoms
    refine mapM_ok fun t ht => ?_
    have hlt : t.2 < c.cart.length := by
      have := (List.mem_zipIdx ht).2.1
      omega
    have hg : getE c.cart t.2 = .ok (c.cart.getD t.2 0) := by
      simp [getE, List.getElem?_eq_getElem hlt, List.getD_eq_getElem?_getD]
    rw [hg, hs]
  refine ⟨_, hm, by simpa using hl, fun i hi => ?_⟩
  have hi' : i < c.atomType.length := by omega
  have hv := C110_vector (c.cart.getD i 0)
  generalize position16 = f at hv ⊢
  refine ⟨⟨i, c.atomType[i], f (c.cart.getD i 0), decide (i ∈ sel)⟩, by simp [hi'], rfl, by simp [hi'], by simp, hv⟩

/-- **C110** (selected atoms).  The index list of the record reads back as the indices of the selected atoms, in their order. -/
theorem C110_selected (sel : List ℕ) (h : sel ≠ []) : readIndices (joinComma sel) = sel.map fun (i : ℕ) => some (i : ℤ) := by
  have hc : ∀ n, ',' ∉ natStr n := fun n hn => isDigit_ne (natStr_digits n _ hn) (by decide) rfl
  have hp : ∀ n, parseInt (' ' :: natStr n) = some (n : ℤ) := fun n => by
    rw [← parseInt_natStr n]
    unfold parseInt
    rw [strip_lead]
  have gen : ∀ (sel : List ℕ), sel ≠ [] → ∀ s, s = joinComma sel ∨ s = ' ' :: joinComma sel → readIndices s = sel.map fun (i : ℕ) => some (i : ℤ) := by
    intro sel
    induction sel with
    | nil => intro h; exact absurd rfl h
    | cons i l ih =>
      intro _ s hs
      cases l with
      | nil =>
        rcases hs with rfl | rfl
        · simp [readIndices, joinComma, splitOn_none (hc i), parseInt_natStr]
        · rw [readIndices, joinComma, splitOn_none (by simp [hc i])]
          simp [hp]
      | cons j l =>
        have e : joinComma (i :: j :: l) = natStr i ++ ',' :: (' ' :: joinComma (j :: l)) := by
          rw [joinComma]; simp; simp
        have ih' := ih (by simp) _ (Or.inr rfl)
        rw [e] at hs
        rcases hs with rfl | rfl
        · rw [readIndices, splitOn_append (hc i), List.map_cons, parseInt_natStr]
          exact congrArg _ ih'
        · rw [readIndices, ← List.cons_append, splitOn_append (by simp [hc i]), List.map_cons, hp]
          exact congrArg _ ih'
  exact gen sel h _ (Or.inl rfl)

/-- The record of a cell with two types and a selection. -/
example : (iterAtoms (⟨fun i j => if i = j then 3 else 0, ["Si".toList, "O".toList], [1, 1], false, .direct, [fun _ => 1 / 3, fun _ => -2], some [1], none⟩ : Cell ℚ)) =
      .ok [⟨0, "Si".toList, "0.3333333333333333,   0.3333333333333333,   0.3333333333333333".toList, false⟩,
        ⟨1, "O".toList, "-2.0000000000000000,  -2.0000000000000000,  -2.0000000000000000".toList, true⟩] ∧
    joinComma [0, 4, 12] = "0, 4, 12".toList := by
  decide +kernel

end Interphon.Props
