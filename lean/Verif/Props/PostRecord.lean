import Verif.Model.PostRecord
import Verif.Props.CliArgs

/-!
# C139: the record of the post-process
-/

namespace Interphon.Props
open Py Interphon Interphon.Args Interphon.Cli

/-- The parts of an accepted post-process from which its record is made. -/
structure Recorded (cwd : Str) (a : PostArgs) (u : PreArg) (o : AnalysisOpts) (glob : Str → List Str) (forceArgs : List Str) (r : PostRecord) where
  force : List Str
  dos : List (Str × ArgValue) × Option (List ℤ)
  thermal : List (Str × ArgValue)
  band : List (Str × ArgValue)
  mode : List (Str × ArgValue)
  e : List ℤ
  p : List ℤ
  asked : o.kdos ≠ none ∨ o.kband ≠ none
  hforce : forceFiles glob forceArgs = .ok force
  hdos : dosDict o = .ok dos
  hthermal : thermalDict o = .ok thermal
  hband : bandDict o dos.2 = .ok band
  hmode : modeDict o = .ok mode
  he : u.enlargement = some e
  hp : u.periodicity = some p
  hr : r = ⟨(postFiles cwd a o force).map fun x => (x.1, recordFile x.2), a.dft, u.displacement, joinInts e, joinInts p, recordArgs dos.1, recordArgs thermal, recordArgs band, recordArgs mode⟩

theorem recorded_of {cwd : Str} {a : PostArgs} {u : PreArg} {o : AnalysisOpts} {glob : Str → List Str} {forceArgs : List Str} {r : PostRecord}
    (h : postRecord cwd a u o glob forceArgs = .ok r) : Nonempty (Recorded cwd a u o glob forceArgs r) := by
  unfold postRecord at h
  by_cases hk : o.kdos = none ∧ o.kband = none
  · rw [if_pos hk] at h; cases h
  rw [if_neg hk] at h
  simp only [pure, Except.pure, bind, Except.bind] at h
  cases h1 : forceFiles glob forceArgs with
  | error e => rw [h1] at h; cases h
  | ok force =>
  rw [h1] at h
  simp only at h
  cases h2 : dosDict o with
  | error e => rw [h2] at h; cases h
  | ok d =>
  rw [h2] at h
  simp only at h
  cases h3 : thermalDict o with
  | error e => rw [h3] at h; cases h
  | ok t =>
  rw [h3] at h
  simp only at h
  cases h4 : bandDict o d.2 with
  | error e => rw [h4] at h; cases h
  | ok b =>
  rw [h4] at h
  simp only at h
  cases h5 : modeDict o with
  | error e => rw [h5] at h; cases h
  | ok m =>
  rw [h5] at h
  simp only at h
  cases h6 : u.enlargement with
  | none => rw [h6] at h; cases h
  | some e =>
  cases h7 : u.periodicity with
  | none => rw [h6, h7] at h; cases h
  | some p =>
  rw [h6, h7] at h
  cases h
  exact ⟨⟨force, d, t, b, m, e, p, by rw [← not_and_or]; exact hk, h1, h2, h3, h4, h5, h6, h7, rfl⟩⟩

/-! ### Texts determine their values -/

theorem joinInts_inj {l l' : List ℤ} (h : joinInts l = joinInts l') : l = l' := by
  have h1 := intList_joinInts l
  rw [h, intList_joinInts l'] at h1
  cases h1; rfl

theorem intStr_inj {i j : ℤ} (h : intStr i = intStr j) : i = j := by
  have := joinInts_inj (l := [i]) (l' := [j]) h
  simpa using this

theorem intStr_plain {i : ℤ} {c : Char} (hc : c ∈ intStr i) : c ≠ ',' ∧ c ≠ ')' := by
  have key : ∀ n : ℕ, c ∈ natStr n → c ≠ ',' ∧ c ≠ ')' := fun n h => by
    have hd := natStr_digits n c h
    exact ⟨isDigit_ne hd (by decide), isDigit_ne hd (by decide)⟩
  unfold intStr at hc
  split at hc
  · rcases List.mem_cons.1 hc with rfl | h
    · decide
    · exact key _ h
  · exact key _ hc

/-- The text of a range determines first value, limit and step. -/
theorem rangeText_inj {a b c a' b' c' : ℤ} (h : rangeText a b c = rangeText a' b' c') : a = a' ∧ b = b' ∧ c = c' := by
  have split2 : ∀ x y z : ℤ, splitOn ',' (rangeText x y z) =
      ("range(".toList ++ intStr x) :: (if z = 1 then [' ' :: (intStr y ++ [')'])] else [' ' :: intStr y, ' ' :: (intStr z ++ [')'])]) := by
    intro x y z
    have n1 : ',' ∉ "range(".toList ++ intStr x := by
      intro hm
      rcases List.mem_append.1 hm with hm | hm
      · revert hm; decide
      · exact (intStr_plain hm).1 rfl
    have n2 : ∀ i : ℤ, ',' ∉ ' ' :: intStr i := by
      intro i hm
      rcases List.mem_cons.1 hm with hm | hm
      · revert hm; decide
      · exact (intStr_plain hm).1 rfl
    have n3 : ∀ i : ℤ, ',' ∉ ' ' :: (intStr i ++ [')']) := by
      intro i hm
      rw [← List.cons_append] at hm
      rcases List.mem_append.1 hm with hm | hm
      · exact n2 i hm
      · revert hm; decide
    unfold rangeText
    split_ifs with hz
    · rw [show "range(".toList ++ intStr x ++ ", ".toList ++ intStr y ++ [] ++ ")".toList = ("range(".toList ++ intStr x) ++ ',' :: (' ' :: (intStr y ++ [')'])) by simp,
        splitOn_append n1, splitOn_none (n3 y)]
    · rw [show "range(".toList ++ intStr x ++ ", ".toList ++ intStr y ++ (", ".toList ++ intStr z) ++ ")".toList =
          ("range(".toList ++ intStr x) ++ ',' :: ((' ' :: intStr y) ++ ',' :: (' ' :: (intStr z ++ [')']))) by simp,
        splitOn_append n1, splitOn_append (n2 y), splitOn_none (n3 z)]
  have h2 := congrArg (splitOn ',') h
  rw [split2, split2] at h2
  rw [List.cons.injEq] at h2
  have ha : a = a' := intStr_inj (List.append_cancel_left h2.1)
  have h3 := h2.2
  split_ifs at h3 with hc hc' hc'
  · simp only [List.cons.injEq, and_true, true_and] at h3
    exact ⟨ha, intStr_inj (List.append_cancel_right h3), hc.trans hc'.symm⟩
  · simp at h3
  · simp at h3
  · simp only [List.cons.injEq, and_true, true_and] at h3
    exact ⟨ha, intStr_inj h3.1, intStr_inj (List.append_cancel_right h3.2)⟩

/-! ### The dictionaries -/

theorem optional_inj {α : Type} {f : α → ArgValue} {x y : Option α} (hf : ∀ a b, recordValue (f a) = recordValue (f b) → a = b)
    (hn : ∀ a, some a = x ∨ some a = y → recordValue (f a) ≠ .str "None".toList) (h : recordValue (optional f x) = recordValue (optional f y)) : x = y := by
  cases x with
  | none => cases y with
    | none => rfl
    | some b => exact absurd h.symm (hn b (.inr rfl))
  | some a => cases y with
    | none => exact absurd h (hn a (.inl rfl))
    | some b => rw [hf a b h]

/-- What the density of states is asked to do with the options `o`. -/
structure SameDos (o o' : AnalysisOpts) : Prop where
  sigma : o.sigma = o'.sigma
  num : o.num = o'.num
  color : o.colorDos = o'.colorDos
  orientation : o.orientation = o'.orientation
  legendLoc : o.legendLoc = o'.legendLoc
  rest : dosArgs o.optionDos o.atomDos o.legend o.elimit = dosArgs o'.optionDos o'.atomDos o'.legend o'.elimit

theorem dosDict_inj {o o' : AnalysisOpts} {d d' : List (Str × ArgValue) × Option (List ℤ)} (h : dosDict o = .ok d) (h' : dosDict o' = .ok d')
    (hr : recordArgs d.1 = recordArgs d'.1) : o.dosFlag = o'.dosFlag ∧ (o.dosFlag = true → SameDos o o') ∧ d.2 = d'.2 := by
  unfold dosDict at h h'
  by_cases hf : o.dosFlag = true
  · rw [if_pos hf] at h
    cases hd : dosArgs o.optionDos o.atomDos o.legend o.elimit with
    | error e => rw [hd] at h; cases h
    | ok x =>
    rw [hd] at h
    cases h
    by_cases hf' : o'.dosFlag = true
    · rw [if_pos hf'] at h'
      cases hd' : dosArgs o'.optionDos o'.atomDos o'.legend o'.elimit with
      | error e => rw [hd'] at h'; cases h'
      | ok x' =>
      rw [hd'] at h'
      cases h'
      simp only [recordArgs, List.map_cons, List.map_nil, List.cons.injEq, Prod.mk.injEq, true_and, and_true, recordValue, ArgValue.float.injEq, ArgValue.int.injEq,
        ArgValue.str.injEq] at hr
      obtain ⟨r1, r2, r3, r4, r5, r6, r7, r8, r9⟩ := hr
      have e7 : x.atoms = x'.atoms := optional_inj (f := ArgValue.groups) (fun a b h => by simpa [recordValue] using h) (fun a _ => by simp [recordValue]) r7
      have e8 : x.legend = x'.legend := optional_inj (f := ArgValue.words) (fun a b h => by simpa [recordValue] using h) (fun a _ => by simp [recordValue]) r8
      have e9 : x.elimit = x'.elimit := optional_inj (f := ArgValue.ints) (fun a b h => by simpa [recordValue] using h) (fun a _ => by simp [recordValue]) r9
      refine ⟨hf.trans hf'.symm, fun _ => ⟨r1, r2, r3, r5, r6, ?_⟩, e9⟩
      rw [hd, hd']
      cases x; cases x'
      simp only at r4 e7 e8 e9
      rw [r4, e7, e8, e9]
    · rw [if_neg hf'] at h'
      cases h'
      simp [recordArgs, recordValue] at hr
  · rw [if_neg hf] at h
    cases h
    by_cases hf' : o'.dosFlag = true
    · rw [if_pos hf'] at h'
      cases hd' : dosArgs o'.optionDos o'.atomDos o'.legend o'.elimit with
      | error e => rw [hd'] at h'; cases h'
      | ok x' =>
      rw [hd'] at h'
      cases h'
      simp [recordArgs, recordValue] at hr
    · rw [if_neg hf'] at h'
      cases h'
      refine ⟨?_, fun h => absurd h hf, rfl⟩
      rw [Bool.not_eq_true] at hf hf'
      rw [hf, hf']

theorem thermalDict_inj {o o' : AnalysisOpts} {d d' : List (Str × ArgValue)} (h : thermalDict o = .ok d) (h' : thermalDict o' = .ok d')
    (hr : recordArgs d = recordArgs d') : o.thermal = o'.thermal ∧ (o.thermal = true → o.tmin = o'.tmin ∧ o.tmax = o'.tmax ∧ o.tstep = o'.tstep) := by
  have key : ∀ {q : AnalysisOpts} {l : List (Str × ArgValue)}, thermalDict q = .ok l →
      l = if q.thermal = true then [("flag".toList, .bool true), ("temp".toList, .range q.tmin q.tmax q.tstep), ("legend_loc".toList, .str q.legendLoc)] else [("flag".toList, .bool false)] := by
    intro q l hl
    unfold thermalDict at hl
    by_cases hq : q.thermal = true
    · rw [if_pos hq] at hl ⊢
      cases hp : pyRange q.tmin q.tmax q.tstep with
      | error e => rw [hp] at hl; cases hl
      | ok _ =>
        rw [hp] at hl
        simp only at hl
        by_cases hd : q.dosFlag = true
        · rw [if_pos hd] at hl
          cases hl; rfl
        · rw [if_neg hd] at hl
          cases hl
    · rw [if_neg hq] at hl ⊢
      cases hl; rfl
  rw [key h, key h'] at hr
  by_cases hf : o.thermal = true <;> by_cases hf' : o'.thermal = true
  · rw [if_pos hf, if_pos hf'] at hr
    simp only [recordArgs, List.map_cons, List.map_nil, List.cons.injEq, Prod.mk.injEq, true_and, and_true, recordValue, ArgValue.str.injEq] at hr
    exact ⟨hf.trans hf'.symm, fun _ => rangeText_inj hr.1⟩
  · rw [if_pos hf, if_neg hf'] at hr
    simp [recordArgs, recordValue] at hr
  · rw [if_neg hf, if_pos hf'] at hr
    simp [recordArgs, recordValue] at hr
  · refine ⟨?_, fun h => absurd h hf⟩
    rw [Bool.not_eq_true] at hf hf'
    rw [hf, hf']

/-- What the band structure is asked to do with the options `o`; `w` is the energy window of the density of states. -/
structure SameBand (o o' : AnalysisOpts) (w : Option (List ℤ)) : Prop where
  color : o.colorBand = o'.colorBand
  barLoc : o.barLoc = o'.barLoc
  barLabel : o.barLabel = o'.barLabel
  rest : bandArgs o.optionBand o.atomBand o.kLabel o.elimit w = bandArgs o'.optionBand o'.atomBand o'.kLabel o'.elimit w

theorem bandDict_inj {o o' : AnalysisOpts} {w : Option (List ℤ)} {d d' : List (Str × ArgValue)} (h : bandDict o w = .ok d) (h' : bandDict o' w = .ok d')
    (hn : o.barLabel ≠ some "None".toList) (hn' : o'.barLabel ≠ some "None".toList) (hr : recordArgs d = recordArgs d') :
    o.bandFlag = o'.bandFlag ∧ (o.bandFlag = true → SameBand o o' w) := by
  unfold bandDict at h h'
  by_cases hf : o.bandFlag = true
  · rw [if_pos hf] at h
    cases hd : bandArgs o.optionBand o.atomBand o.kLabel o.elimit w with
    | error e => rw [hd] at h; cases h
    | ok x =>
    rw [hd] at h
    cases h
    by_cases hf' : o'.bandFlag = true
    · rw [if_pos hf'] at h'
      cases hd' : bandArgs o'.optionBand o'.atomBand o'.kLabel o'.elimit w with
      | error e => rw [hd'] at h'; cases h'
      | ok x' =>
      rw [hd'] at h'
      cases h'
      simp only [recordArgs, List.map_cons, List.map_nil, List.cons.injEq, Prod.mk.injEq, true_and, and_true, recordValue, ArgValue.words.injEq,
        ArgValue.str.injEq] at hr
      obtain ⟨r1, r2, r3, r4, r5, r6, r7⟩ := hr
      have e4 : o.barLabel = o'.barLabel := optional_inj (f := ArgValue.str) (fun a b h => by simpa [recordValue] using h)
        (fun a ha => by
          simp only [recordValue, ne_eq, ArgValue.str.injEq]
          rintro rfl
          rcases ha with ha | ha
          · exact hn ha.symm
          · exact hn' ha.symm) r4
      have e6 : x.atoms = x'.atoms := optional_inj (f := ArgValue.ints) (fun a b h => by simpa [recordValue] using h) (fun a _ => by simp [recordValue]) r6
      have e7 : x.elimit = x'.elimit := optional_inj (f := ArgValue.ints) (fun a b h => by simpa [recordValue] using h) (fun a _ => by simp [recordValue]) r7
      refine ⟨hf.trans hf'.symm, fun _ => ⟨r1, r3, e4, ?_⟩⟩
      rw [hd, hd']
      cases x; cases x'
      simp only at r2 r5 e6 e7
      rw [r2, r5, e6, e7]
    · rw [if_neg hf'] at h'
      cases h'
      simp [recordArgs, recordValue] at hr
  · rw [if_neg hf] at h
    cases h
    by_cases hf' : o'.bandFlag = true
    · rw [if_pos hf'] at h'
      cases hd' : bandArgs o'.optionBand o'.atomBand o'.kLabel o'.elimit w with
      | error e => rw [hd'] at h'; cases h'
      | ok x' =>
      rw [hd'] at h'
      cases h'
      simp [recordArgs, recordValue] at hr
    · rw [if_neg hf'] at h'
      cases h'
      refine ⟨?_, fun h => absurd h hf⟩
      rw [Bool.not_eq_true] at hf hf'
      rw [hf, hf']

/-- The amplitude on the command line or in an option file is a number or a text. -/
def IsGiven : PyAtom → Prop
  | .none => False
  | _ => True

theorem modeDict_inj {o o' : AnalysisOpts} {d d' : List (Str × ArgValue)} (h : modeDict o = .ok d) (h' : modeDict o' = .ok d') (hg : IsGiven o.amplitude)
    (hg' : IsGiven o'.amplitude) (hr : recordArgs d = recordArgs d') :
    o.mode = o'.mode ∧ (o.mode = true → modeArgs o.index o.kMode o.writeDisp o.amplitude = modeArgs o'.index o'.kMode o'.writeDisp o'.amplitude) := by
  unfold modeDict at h h'
  by_cases hf : o.mode = true
  · rw [if_pos hf] at h
    cases hd : modeArgs o.index o.kMode o.writeDisp o.amplitude with
    | error e => rw [hd] at h; cases h
    | ok x =>
    rw [hd] at h
    cases h
    by_cases hf' : o'.mode = true
    · rw [if_pos hf'] at h'
      cases hd' : modeArgs o'.index o'.kMode o'.writeDisp o'.amplitude with
      | error e => rw [hd'] at h'; cases h'
      | ok x' =>
      rw [hd'] at h'
      cases h'
      simp only [recordArgs, List.map_cons, List.map_nil, List.cons.injEq, Prod.mk.injEq, true_and, and_true, recordValue, ArgValue.ints.injEq,
        ArgValue.floats.injEq, ArgValue.bool.injEq] at hr
      obtain ⟨r1, r2, r3, r4⟩ := hr
      have g1 := (C109_mode_arguments _ _ _ _ _ hd).2.2.2
      have g2 := (C109_mode_arguments _ _ _ _ _ hd').2.2.2
      have e4 : x.amplitude = x'.amplitude := by
        rw [← g1] at hg
        rw [← g2] at hg'
        revert r4 hg hg'
        cases x.amplitude <;> cases x'.amplitude <;> simp [atomValue, recordValue, IsGiven]
      refine ⟨hf.trans hf'.symm, fun _ => ?_⟩
      cases x; cases x'
      simp only at r1 r2 r3 e4
      rw [r1, r2, r3, e4]
    · rw [if_neg hf'] at h'
      cases h'
      simp [recordArgs, recordValue] at hr
  · rw [if_neg hf] at h
    cases h
    by_cases hf' : o'.mode = true
    · rw [if_pos hf'] at h'
      cases hd' : modeArgs o'.index o'.kMode o'.writeDisp o'.amplitude with
      | error e => rw [hd'] at h'; cases h'
      | ok x' =>
      rw [hd'] at h'
      cases h'
      simp [recordArgs, recordValue] at hr
    · rw [if_neg hf'] at h'
      cases h'
      refine ⟨?_, fun h => absurd h hf⟩
      rw [Bool.not_eq_true] at hf hf'
      rw [hf, hf']

/-! ### Names of files -/

/-- A name without directories is recorded as it is, whatever the working directory. -/
theorem base_name {k : Str} (h : '/' ∉ k) (cwd : Str) : baseName (absPath cwd k) = k := by
  have h1 : k.head? ≠ some '/' := fun hh => h (List.mem_of_mem_head? hh)
  have h2 : ∀ c ∈ k.reverse, c ≠ '/' := fun c hc e => h (by rw [← e]; exact List.mem_reverse.1 hc)
  rw [absPath, if_neg h1, baseName, List.reverse_append, List.reverse_cons, List.append_assoc, List.takeWhile_append_of_pos (by simpa using h2)]
  simp

/-- A recorded name has no directories. -/
theorem base_plain (p : Str) : '/' ∉ baseName p := by
  intro h
  rw [baseName, List.mem_reverse] at h
  have := List.mem_takeWhile_imp h
  simp at this

/-- The entry of a recorded dictionary. -/
def recEntry {α : Type} (k : String) (l : List (Str × α)) : Option α := (l.find? fun x => x.1 = k.toList).map Prod.snd

theorem recEntry_hit {α : Type} (k : String) (v : α) (l : List (Str × α)) : recEntry k ((k.toList, v) :: l) = some v := by
  simp [recEntry]

theorem recEntry_skip {α : Type} (k : String) (k' : Str) (v : α) (l : List (Str × α)) (h : k' ≠ k.toList) : recEntry k ((k', v) :: l) = recEntry k l := by
  rw [recEntry, List.find?_cons_of_neg (by simpa using h), recEntry]

theorem recEntry_nil {α : Type} (k : String) : recEntry k ([] : List (Str × α)) = none := rfl

theorem files_entries (cwd : Str) (a : PostArgs) (o : AnalysisOpts) (force : List Str) :
    recEntry "unit_cell_file" ((postFiles cwd a o force).map fun x => (x.1, recordFile x.2)) = some (.name (baseName a.unitCellFile)) ∧
    recEntry "super_cell_file" ((postFiles cwd a o force).map fun x => (x.1, recordFile x.2)) = some (.name (baseName a.superCellFile)) ∧
    recEntry "k_point_file_dos" ((postFiles cwd a o force).map fun x => (x.1, recordFile x.2)) = (o.kdos.map fun k => .name (baseName (absPath cwd k))) ∧
    recEntry "k_point_file_band" ((postFiles cwd a o force).map fun x => (x.1, recordFile x.2)) = (o.kband.map fun k => .name (baseName (absPath cwd k))) ∧
    recEntry "force_file" ((postFiles cwd a o force).map fun x => (x.1, recordFile x.2)) = some (.list force) := by
  unfold postFiles
  cases o.kdos <;> cases o.kband <;> refine ⟨?_, ?_, ?_, ?_, ?_⟩ <;>
    simp only [List.map_append, List.map_cons, List.map_nil, List.cons_append, List.nil_append, List.append_nil, recordFile, Option.map_none, Option.map_some] <;>
    repeat first
      | rw [recEntry_skip _ _ _ _ (by decide +kernel)]
      | exact recEntry_nil _
      | exact recEntry_hit _ _ _

/-- **C139** (files).  The record names the two cell files, the k-point file of each analysis that has one and no other, and lists the force files, all of them, in the order in which they were
used and with their directories; the other files are named without directories. -/
theorem C139_files {cwd : Str} {a : PostArgs} {u : PreArg} {o : AnalysisOpts} {glob : Str → List Str} {forceArgs : List Str} {r : PostRecord}
    (h : postRecord cwd a u o glob forceArgs = .ok r) :
    (∃ s, recEntry "unit_cell_file" r.files = some (.name s) ∧ '/' ∉ s ∧ ∃ d, a.unitCellFile = d ++ s) ∧
    (∃ s, recEntry "super_cell_file" r.files = some (.name s) ∧ '/' ∉ s ∧ ∃ d, a.superCellFile = d ++ s) ∧
    (o.kdos = none → recEntry "k_point_file_dos" r.files = none) ∧ (∀ k, o.kdos = some k → '/' ∉ k → recEntry "k_point_file_dos" r.files = some (.name k)) ∧
    (o.kband = none → recEntry "k_point_file_band" r.files = none) ∧ (∀ k, o.kband = some k → '/' ∉ k → recEntry "k_point_file_band" r.files = some (.name k)) ∧
    ∃ force, forceFiles glob forceArgs = .ok force ∧ recEntry "force_file" r.files = some (.list force) := by
  obtain ⟨R⟩ := recorded_of h
  obtain ⟨f1, f2, f3, f4, f5⟩ := files_entries cwd a o R.force
  have suffix : ∀ p : Str, ∃ d, p = d ++ baseName p := fun p => by
    refine ⟨(p.reverse.dropWhile (· ≠ '/')).reverse, ?_⟩
    rw [baseName, ← List.reverse_append, List.takeWhile_append_dropWhile, List.reverse_reverse]
  rw [R.hr]
  refine ⟨⟨_, f1, base_plain _, suffix _⟩, ⟨_, f2, base_plain _, suffix _⟩, fun hk => ?_, fun k hk hs => ?_, fun hk => ?_, fun k hk hs => ?_, R.force, R.hforce, f5⟩
  · rw [f3, hk]; rfl
  · rw [f3, hk, Option.map_some, base_name hs]
  · rw [f4, hk]; rfl
  · rw [f4, hk, Option.map_some, base_name hs]

/-! ### User arguments and analyses -/

/-- **C139** (user arguments).  The recorded dft code and displacement are those that were used, and the recorded enlargement and periodicity, given again as an option, are read as the numbers
that were used. -/
theorem C139_user_arguments {cwd : Str} {a : PostArgs} {u : PreArg} {o : AnalysisOpts} {glob : Str → List Str} {forceArgs : List Str} {r : PostRecord}
    (h : postRecord cwd a u o glob forceArgs = .ok r) :
    r.dft = a.dft ∧ r.displacement = u.displacement ∧ ∃ e p, u.enlargement = some e ∧ u.periodicity = some p ∧ intList r.enlargement = .ok e ∧ intList r.periodicity = .ok p := by
  obtain ⟨R⟩ := recorded_of h
  rw [R.hr]
  exact ⟨rfl, rfl, R.e, R.p, R.he, R.hp, intList_joinInts _, intList_joinInts _⟩

theorem dosDict_flag {o : AnalysisOpts} {d : List (Str × ArgValue) × Option (List ℤ)} (h : dosDict o = .ok d) : recEntry "flag" (recordArgs d.1) = some (.bool o.dosFlag) := by
  unfold dosDict at h
  by_cases hf : o.dosFlag = true
  · rw [if_pos hf] at h
    cases hd : dosArgs o.optionDos o.atomDos o.legend o.elimit with
    | error e => rw [hd] at h; cases h
    | ok x => rw [hd] at h; cases h; rw [hf]; rfl
  · rw [if_neg hf] at h
    cases h
    rw [Bool.not_eq_true] at hf
    rw [hf]; rfl

theorem thermalDict_flag {o : AnalysisOpts} {d : List (Str × ArgValue)} (h : thermalDict o = .ok d) : recEntry "flag" (recordArgs d) = some (.bool o.thermal) := by
  unfold thermalDict at h
  by_cases hf : o.thermal = true
  · rw [if_pos hf] at h
    cases hd : pyRange o.tmin o.tmax o.tstep with
    | error e => rw [hd] at h; cases h
    | ok x =>
      rw [hd] at h
      simp only at h
      by_cases hg : o.dosFlag = true
      · rw [if_pos hg] at h; cases h; rw [hf]; rfl
      · rw [if_neg hg] at h; cases h
  · rw [if_neg hf] at h
    cases h
    rw [Bool.not_eq_true] at hf
    rw [hf]; rfl

theorem bandDict_flag {o : AnalysisOpts} {w : Option (List ℤ)} {d : List (Str × ArgValue)} (h : bandDict o w = .ok d) : recEntry "flag" (recordArgs d) = some (.bool o.bandFlag) := by
  unfold bandDict at h
  by_cases hf : o.bandFlag = true
  · rw [if_pos hf] at h
    cases hd : bandArgs o.optionBand o.atomBand o.kLabel o.elimit w with
    | error e => rw [hd] at h; cases h
    | ok x => rw [hd] at h; cases h; rw [hf]; rfl
  · rw [if_neg hf] at h
    cases h
    rw [Bool.not_eq_true] at hf
    rw [hf]; rfl

theorem modeDict_flag {o : AnalysisOpts} {d : List (Str × ArgValue)} (h : modeDict o = .ok d) : recEntry "flag" (recordArgs d) = some (.bool o.mode) := by
  unfold modeDict at h
  by_cases hf : o.mode = true
  · rw [if_pos hf] at h
    cases hd : modeArgs o.index o.kMode o.writeDisp o.amplitude with
    | error e => rw [hd] at h; cases h
    | ok x => rw [hd] at h; cases h; rw [hf]; rfl
  · rw [if_neg hf] at h
    cases h
    rw [Bool.not_eq_true] at hf
    rw [hf]; rfl

/-- **C139** (which analyses ran).  If the run ended normally, the flags of the record tell which analyses were carried out: density of states, thermal properties and bands by their own flag,
the modes by their flag together with the flag of the bands. -/
theorem C139_flags_partial {cwd : Str} {a : PostArgs} {u : PreArg} {o : AnalysisOpts} {glob : Str → List Str} {forceArgs : List Str} {r : PostRecord} {common : Run Unit} {l : List Analysis}
    (h : postRecord cwd a u o glob forceArgs = .ok r) (hl : analyses o.dos o.thermal o.band o.mode o.kdos o.kband common = .ok l) :
    recEntry "flag" r.dos = some (.bool (decide (Analysis.dos ∈ l))) ∧ recEntry "flag" r.thermal = some (.bool (decide (Analysis.thermal ∈ l))) ∧
    recEntry "flag" r.band = some (.bool (decide (Analysis.band ∈ l))) ∧
    (Analysis.mode ∈ l ↔ recEntry "flag" r.mode = some (.bool true) ∧ recEntry "flag" r.band = some (.bool true)) := by
  obtain ⟨R⟩ := recorded_of h
  obtain ⟨-, h1, h2, h3, -, -, h4⟩ := C87_analyses_partial _ _ _ _ _ _ _ _ hl
  have d1 : decide (Analysis.dos ∈ l) = o.dosFlag := by
    rw [Bool.eq_iff_iff, decide_eq_true_iff, h1, AnalysisOpts.dosFlag, Bool.or_eq_true, Option.isSome_iff_ne_none]
  have d2 : decide (Analysis.thermal ∈ l) = o.thermal := by
    rw [Bool.eq_iff_iff, decide_eq_true_iff, h2]
  have d3 : decide (Analysis.band ∈ l) = o.bandFlag := by
    rw [Bool.eq_iff_iff, decide_eq_true_iff, h3, AnalysisOpts.bandFlag, Bool.or_eq_true, Option.isSome_iff_ne_none]
  have e3 : recEntry "flag" r.band = some (.bool o.bandFlag) := by rw [R.hr]; exact bandDict_flag R.hband
  refine ⟨?_, ?_, ?_, ?_⟩
  · rw [d1, R.hr]; exact dosDict_flag R.hdos
  · rw [d2, R.hr]; exact thermalDict_flag R.hthermal
  · rw [d3, e3]
  · have e4 : recEntry "flag" r.mode = some (.bool o.mode) := by rw [R.hr]; exact modeDict_flag R.hmode
    have h5 : Analysis.band ∈ l ↔ o.bandFlag = true := by rw [← d3, decide_eq_true_iff]
    rw [h4, e4, e3, h5]
    simp

/-- **C139** (recorded values).  For an analysis that is asked for, the record holds the numbers and lists that the analysis is given; an argument that is not given is recorded as the word
`None`; the temperatures are recorded by minimum, maximum and step. -/
theorem C139_values {cwd : Str} {a : PostArgs} {u : PreArg} {o : AnalysisOpts} {glob : Str → List Str} {forceArgs : List Str} {r : PostRecord}
    (h : postRecord cwd a u o glob forceArgs = .ok r) :
    (o.dosFlag = true → ∃ d, dosArgs o.optionDos o.atomDos o.legend o.elimit = .ok d ∧ recEntry "sigma" r.dos = some (.float o.sigma) ∧ recEntry "num_dos" r.dos = some (.int o.num) ∧
      recEntry "option" r.dos = some (.str d.option) ∧ recEntry "atom" r.dos = some ((d.atoms.map ArgValue.groups).getD (.str "None".toList)) ∧
      recEntry "legend" r.dos = some ((d.legend.map ArgValue.words).getD (.str "None".toList)) ∧ recEntry "elimit" r.dos = some ((d.elimit.map ArgValue.ints).getD (.str "None".toList))) ∧
    (o.thermal = true → recEntry "temp" r.thermal = some (.str (rangeText o.tmin o.tmax o.tstep))) ∧
    (o.mode = true → ∃ m, modeArgs o.index o.kMode o.writeDisp o.amplitude = .ok m ∧ recEntry "index" r.mode = some (.ints m.index) ∧
      recEntry "k_point" r.mode = some (.floats m.kPoint) ∧ recEntry "write_disp" r.mode = some (.bool o.writeDisp) ∧
      ∀ q, o.amplitude = .float q → recEntry "displacement_amplitude" r.mode = some (.float q)) := by
  obtain ⟨R⟩ := recorded_of h
  refine ⟨fun hf => ?_, fun hf => ?_, fun hf => ?_⟩
  · have hd := R.hdos
    have hr : r.dos = recordArgs R.dos.1 := congrArg PostRecord.dos R.hr
    rw [hr]
    unfold dosDict at hd
    rw [if_pos hf] at hd
    cases hx : dosArgs o.optionDos o.atomDos o.legend o.elimit with
    | error e => rw [hx] at hd; cases hd
    | ok x =>
      rw [hx] at hd
      simp only [Except.ok.injEq] at hd
      rw [← hd]
      refine ⟨x, rfl, ?_, ?_, ?_, ?_, ?_, ?_⟩
      all_goals
        simp only [recordArgs, List.map_cons, List.map_nil]
        repeat rw [recEntry_skip _ _ _ _ (by decide +kernel)]
        rw [recEntry_hit]
      · rfl
      · rfl
      · rfl
      · cases x.atoms <;> rfl
      · cases x.legend <;> rfl
      · cases x.elimit <;> rfl
  · have ht := R.hthermal
    have hr : r.thermal = recordArgs R.thermal := congrArg PostRecord.thermal R.hr
    rw [hr]
    unfold thermalDict at ht
    rw [if_pos hf] at ht
    cases hx : pyRange o.tmin o.tmax o.tstep with
    | error e => rw [hx] at ht; cases ht
    | ok x =>
      rw [hx] at ht
      simp only at ht
      by_cases hg : o.dosFlag = true
      · rw [if_pos hg] at ht
        simp only [Except.ok.injEq] at ht
        rw [← ht]
        simp only [recordArgs, List.map_cons, List.map_nil]
        repeat rw [recEntry_skip _ _ _ _ (by decide +kernel)]
        rw [recEntry_hit]; rfl
      · rw [if_neg hg] at ht; cases ht
  · have hm := R.hmode
    have hr : r.mode = recordArgs R.mode := congrArg PostRecord.mode R.hr
    rw [hr]
    unfold modeDict at hm
    rw [if_pos hf] at hm
    cases hx : modeArgs o.index o.kMode o.writeDisp o.amplitude with
    | error e => rw [hx] at hm; cases hm
    | ok x =>
      rw [hx] at hm
      simp only [Except.ok.injEq] at hm
      obtain ⟨-, -, g3, g4⟩ := C109_mode_arguments _ _ _ _ _ hx
      rw [← hm]
      refine ⟨x, rfl, ?_, ?_, ?_, fun q hq => ?_⟩
      all_goals
        simp only [recordArgs, List.map_cons, List.map_nil]
        repeat rw [recEntry_skip _ _ _ _ (by decide +kernel)]
        rw [recEntry_hit]
      · rfl
      · rfl
      · rw [g3]; rfl
      · rw [g4, hq]; rfl

/-! ### The record determines the calculation -/

/-- Both runs do the same: code, displacement, enlargement and periodicity, force files, and for every analysis whether it is asked for and all that it is given. -/
structure SameRun (a a' : PostArgs) (u u' : PreArg) (o o' : AnalysisOpts) (f f' : Run (List Str)) : Prop where
  dft : a.dft = a'.dft
  displacement : u.displacement = u'.displacement
  enlargement : u.enlargement = u'.enlargement
  periodicity : u.periodicity = u'.periodicity
  force : f = f'
  dos : o.dosFlag = o'.dosFlag ∧ (o.dosFlag = true → SameDos o o')
  thermal : o.thermal = o'.thermal ∧ (o.thermal = true → o.tmin = o'.tmin ∧ o.tmax = o'.tmax ∧ o.tstep = o'.tstep)
  band : o.bandFlag = o'.bandFlag ∧ (o.bandFlag = true → ∃ w, (∀ d, dosDict o = .ok d → w = d.2) ∧ (∀ d, dosDict o' = .ok d → w = d.2) ∧ SameBand o o' w)
  mode : o.mode = o'.mode ∧ (o.mode = true → modeArgs o.index o.kMode o.writeDisp o.amplitude = modeArgs o'.index o'.kMode o'.writeDisp o'.amplitude)
  kdos : o.kdos = o'.kdos
  kband : o.kband = o'.kband

/-- **C139** (full statement): two runs with the same record do the same. -/
def C139_full : Prop :=
  ∀ (cwd : Str) (a a' : PostArgs) (u u' : PreArg) (o o' : AnalysisOpts) (glob glob' : Str → List Str) (args args' : List Str) (r : PostRecord),
    postRecord cwd a u o glob args = .ok r → postRecord cwd a' u' o' glob' args' = .ok r → SameRun a a' u u' o o' (forceFiles glob args) (forceFiles glob' args')

/-- **C139** (the record determines the calculation).  Two runs with the same record do the same, whatever their command lines and option files looked like, if the k-point files are named
without directories and the label of the colour bar is not the word `None`.  Missing: k-point files in other directories, and that label. -/
theorem C139_determined_partial {cwd cwd' : Str} {a a' : PostArgs} {u u' : PreArg} {o o' : AnalysisOpts} {glob glob' : Str → List Str} {args args' : List Str} {r : PostRecord}
    (h : postRecord cwd a u o glob args = .ok r) (h' : postRecord cwd' a' u' o' glob' args' = .ok r)
    (hk : ∀ k, o.kdos = some k ∨ o'.kdos = some k ∨ o.kband = some k ∨ o'.kband = some k → '/' ∉ k)
    (hn : o.barLabel ≠ some "None".toList) (hn' : o'.barLabel ≠ some "None".toList) (hg : IsGiven o.amplitude) (hg' : IsGiven o'.amplitude) :
    SameRun a a' u u' o o' (forceFiles glob args) (forceFiles glob' args') := by
  obtain ⟨-, -, k1, k2, k3, k4, force, hf, k5⟩ := C139_files h
  obtain ⟨-, -, k1', k2', k3', k4', force', hf', k5'⟩ := C139_files h'
  obtain ⟨R⟩ := recorded_of h
  obtain ⟨R'⟩ := recorded_of h'
  have hr := R.hr.symm.trans R'.hr
  simp only [PostRecord.mk.injEq] at hr
  obtain ⟨-, r2, r3, r4, r5, r6, r7, r8, r9⟩ := hr
  obtain ⟨d1, d2, d3⟩ := dosDict_inj R.hdos R'.hdos r6
  have hb' := R'.hband
  rw [← d3] at hb'
  obtain ⟨b1, b2⟩ := bandDict_inj R.hband hb' hn hn' r8
  refine ⟨r2, r3, ?_, ?_, ?_, ⟨d1, d2⟩, thermalDict_inj R.hthermal R'.hthermal r7, ⟨b1, fun hb => ⟨R.dos.2, fun d hd => ?_, fun d hd => ?_, b2 hb⟩⟩,
    modeDict_inj R.hmode R'.hmode hg hg' r9, ?_, ?_⟩
  · rw [R.he, R'.he, joinInts_inj r4]
  · rw [R.hp, R'.hp, joinInts_inj r5]
  · rw [k5, Option.some.injEq, FileEntry.list.injEq] at k5'
    rw [hf, hf', k5']
  · rw [R.hdos] at hd; cases hd; rfl
  · rw [R'.hdos] at hd; cases hd; exact d3
  · cases h1 : o.kdos with
    | none => cases h2 : o'.kdos with
      | none => rfl
      | some k =>
        have := k2' k h2 (hk k (.inr (.inl h2)))
        rw [k1 h1] at this
        cases this
    | some k =>
      have e1 := k2 k h1 (hk k (.inl h1))
      cases h2 : o'.kdos with
      | none => rw [k1' h2] at e1; cases e1
      | some k' =>
        have e2 := k2' k' h2 (hk k' (.inr (.inl h2)))
        rw [e1] at e2
        cases e2; rfl
  · cases h1 : o.kband with
    | none => cases h2 : o'.kband with
      | none => rfl
      | some k =>
        have := k4' k h2 (hk k (.inr (.inr (.inr h2))))
        rw [k3 h1] at this
        cases this
    | some k =>
      have e1 := k4 k h1 (hk k (.inr (.inr (.inl h1))))
      cases h2 : o'.kband with
      | none => rw [k3' h2] at e1; cases e1
      | some k' =>
        have e2 := k4' k' h2 (hk k' (.inr (.inr (.inr h2))))
        rw [e1] at e2
        cases e2; rfl

/-- The resolved arguments of the examples. -/
def recArgs : PostArgs := ⟨"vasp".toList, .atom (.float (1 / 50)), .atom (.str "2 2 1".toList), .atom (.str "1 1 0".toList), "/w/POSCAR".toList, "/w/SUPERCELL".toList, true⟩

/-- The stored user arguments of the examples. -/
def recUser : PreArg := ⟨some (1 / 50), some [2, 2, 1], some [1, 1, 0]⟩

/-- Two force files. -/
def recForce : List Str := ["f-0001/vasprun.xml".toList, "f-0002/vasprun.xml".toList]

/-- Density of states with a projection on two groups of atoms, thermal properties, bands with labels, a mode. -/
def recOpts : AnalysisOpts :=
  { dos := true, thermal := true, mode := true, kdos := some "KPOINTS_dos".toList, kband := some "KPOINTS_band".toList, optionDos := "line".toList,
    atomDos := some "1 2, 3".toList, legend := some "Cu , O".toList, elimit := some " -1 20 ".toList, tstep := 50, kLabel := some "G X M G".toList, barLabel := some "Cu".toList,
    index := "0 3".toList }

/-- Non-vacuity: the record of that run. -/
example : ∃ r, postRecord "/w".toList recArgs recUser recOpts (fun _ => []) recForce = .ok r ∧
    recEntry "atom" r.dos = some (.groups [[1, 2], [3]]) ∧ recEntry "legend" r.dos = some (.words ["Cu".toList, "O".toList]) ∧
    recEntry "temp" r.thermal = some (.str "range(0, 1000, 50)".toList) ∧ recEntry "atom" r.band = some (.str "None".toList) ∧ recEntry "elimit" r.band = some (.ints [-1, 20]) ∧
    recEntry "index" r.mode = some (.ints [0, 3]) ∧ recEntry "k_point_file_dos" r.files = some (.name "KPOINTS_dos".toList) ∧ r.enlargement = "2 2 1".toList ∧
    recEntry "force_file" r.files = some (.list recForce) := by
  refine ⟨_, rfl, ?_⟩
  decide +kernel

/-- **C139** (refuted: directories).  The k-point files `fine/KPOINTS` and `coarse/KPOINTS` leave the same record. -/
theorem C139_directory_refuted : ¬ C139_full := by
  intro h
  have h1 := h "/w".toList recArgs recArgs recUser recUser { kdos := some "fine/KPOINTS".toList } { kdos := some "coarse/KPOINTS".toList } (fun _ => []) (fun _ => []) recForce recForce
    ((postRecord "/w".toList recArgs recUser { kdos := some "fine/KPOINTS".toList } (fun _ => []) recForce).toOption.getD ⟨[], [], none, [], [], [], [], [], []⟩)
    (by decide +kernel) (by decide +kernel)
  exact absurd h1.kdos (by decide)

/-- **C139** (refuted: the label).  No label for the colour bar, and the label `None`, leave the same record. -/
theorem C139_label_refuted : ∃ (o o' : AnalysisOpts) (r : PostRecord), postRecord "/w".toList recArgs recUser o (fun _ => []) recForce = .ok r ∧
    postRecord "/w".toList recArgs recUser o' (fun _ => []) recForce = .ok r ∧ o.bandFlag = true ∧ o.barLabel ≠ o'.barLabel :=
  ⟨{ kband := some "K".toList }, { kband := some "K".toList, barLabel := some "None".toList },
    (postRecord "/w".toList recArgs recUser { kband := some "K".toList } (fun _ => []) recForce).toOption.getD ⟨[], [], none, [], [], [], [], [], []⟩,
    by decide +kernel, by decide +kernel, by decide +kernel, by decide +kernel⟩

/-- **C139** (refuted: the flag of the modes).  With `-mode` and a k-point file for the density of states only, the record says that modes were asked for, but none were calculated. -/
theorem C139_mode_flag_refuted : ∃ (o : AnalysisOpts) (r : PostRecord) (l : List Analysis), postRecord "/w".toList recArgs recUser o (fun _ => []) recForce = .ok r ∧
    analyses o.dos o.thermal o.band o.mode o.kdos o.kband (.ok ()) = .ok l ∧ recEntry "flag" r.mode = some (.bool true) ∧ Analysis.mode ∉ l :=
  ⟨{ mode := true, kdos := some "K".toList },
    (postRecord "/w".toList recArgs recUser { mode := true, kdos := some "K".toList } (fun _ => []) recForce).toOption.getD ⟨[], [], none, [], [], [], [], [], []⟩,
    [Analysis.dos], by decide +kernel, by decide +kernel, by decide +kernel, by decide +kernel⟩

/-- Non-vacuity of the record-determines theorem: written with other blanks and with the window given in the option file, the same record. -/
example : ∃ r, postRecord "/w".toList recArgs recUser recOpts (fun _ => []) recForce = .ok r ∧
    postRecord "/v".toList recArgs recUser { recOpts with atomDos := some "1  2,3".toList, legend := some "Cu,O".toList, elimit := some "-1 20".toList, dos := false } (fun _ => []) recForce = .ok r := by
  refine ⟨(postRecord "/w".toList recArgs recUser recOpts (fun _ => []) recForce).toOption.getD ⟨[], [], none, [], [], [], [], [], []⟩, ?_, ?_⟩ <;> decide +kernel

end Interphon.Props
