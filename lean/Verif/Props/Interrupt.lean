import Verif.Model.Trace
import Verif.Props.ProgramDosExample
import Verif.Props.ProgramSound

/-! # C137: the pre-process may be interrupted at any moment -/

namespace Interphon.Props
open Py Interphon Interphon.UnitCell Interphon.SuperCell Interphon.PreProcess Interphon.Args Interphon.Inout Interphon.Cli Interphon.Main Interphon.PostProcess Interphon.Phonon Interphon.ForceConstant

noncomputable section

/-! ### Specification -/

/-- A program whose writes are `ws` is stopped: before the first of them, in the middle of one of them (a part of the new text, possibly nothing, has arrived; the old content is gone),
or later (also at the end). -/
inductive Interrupted : List Write → Disk → Disk → Prop
  | before (ws : List Write) (d : Disk) : Interrupted ws d d
  | inText {path t t' : Str} (h : t' <+: t) (ws : List Write) (d : Disk) : Interrupted (.text path t :: ws) d { d with files := put d.files path t' }
  | inRecord (r : PreRecord) (ws : List Write) (d : Disk) : Interrupted (.record r :: ws) d { d with record := .damaged }
  | later {w : Write} {ws : List Write} {d d' : Disk} (h : Interrupted ws (perform d w) d') : Interrupted (w :: ws) d d'

/-- A call of the pre-process: its options and what it cannot know (see `preMain`). -/
structure Job where
  o : PreOpts
  x : ℕ → FileArgs
  junk : ℕ → List (V3 ℚ)
  search : Run (List (ℕ × List (V3 ℚ)))
  group : Run Str

/-- The writes and the outcome of the job in the directory `cwd` with the content `d`. -/
def Job.trace (j : Job) (cwd : Str) (d : Disk) : Traced Unit := preTrace cwd j.o j.x j.junk j.search j.group d.files

/-- The job ends without an exception. -/
def Job.Completes (j : Job) (cwd : Str) (d d' : Disk) : Prop := ∃ ws, j.trace cwd d = ⟨ws, .ok ()⟩ ∧ d' = ws.foldl perform d

/-- The job is stopped at some moment, by an exception or from outside, or it ends. -/
def Job.Stops (j : Job) (cwd : Str) (d d' : Disk) : Prop := Interrupted (j.trace cwd d).writes d d'

/-- Any number of jobs of the kind `P` for the unit-cell file `path`, each of them complete or stopped. -/
inductive Jobs (P : Job → Prop) (cwd path : Str) : Disk → Disk → Prop
  | none (d : Disk) : Jobs P cwd path d d
  | one {d d' d'' : Disk} (h : Jobs P cwd path d d') (j : Job) (hP : P j) (hj : absPath cwd j.o.unitcell = path) (hs : j.Stops cwd d' d'') : Jobs P cwd path d d''

/-- The super-cell file next to the unit-cell file. -/
def superOf (path : Str) : Str := dirName path ++ '/' :: "SUPERCELL".toList

/-- **C137, full statement.**  The record describes the files: after any history of jobs (without symmetry search) in a directory without files of the program, if there is a complete record
and the super cell and the first displaced structure can be read, the latter is displaced by the recorded displacement. -/
def C137_full : Prop := ∀ (cwd path : Str) (d d' : Disk), d.record = .missing → (∀ q, q = superOf path ∨ (∃ k, q = fileName path k) → d.files q = none) →
  Jobs (fun j => j.o.sym = false) cwd path d d' → ∀ (r : PreRecord) (δ : ℚ) (code : Code) (sup dis : Cell ℚ), d'.record = .complete r → r.displacement = some δ → r.dft = code.name →
    Holds d'.files code (superOf path) sup → Holds d'.files code (fileName path 1) dis →
    ∃ (row : ℕ) (v w : V3 ℚ), sup.cart[row]? = some v ∧ dis.cart[row]? = some w ∧ ∃ c : Fin 3, w c - v c = δ

/-! ### The sequence of effects and the program of `Model/Main.lean` agree -/

theorem traced_done {α β : Type} {m : Traced α} {f : α → Traced β} {ws : List Write} {b : β} :
    (m >>= f) = ⟨ws, .ok b⟩ ↔ ∃ w1 a w2, m = ⟨w1, .ok a⟩ ∧ f a = ⟨w2, .ok b⟩ ∧ ws = w1 ++ w2 := by
  obtain ⟨w1, r⟩ := m
  cases r with
  | error e =>
    constructor
    · intro h
      have := congrArg Traced.result h
      cases this
    · rintro ⟨_, _, _, h, -⟩
      cases h
  | ok a =>
    constructor
    · intro h
      have h1 : w1 ++ (f a).writes = ws := congrArg Traced.writes h
      have h2 : (f a).result = .ok b := congrArg Traced.result h
      refine ⟨w1, a, (f a).writes, rfl, ?_, h1.symm⟩
      rw [← h2]
    · rintro ⟨w1', a', w2, h, h2, rfl⟩
      cases h
      show (⟨w1 ++ (f a).writes, (f a).result⟩ : Traced β) = _
      rw [h2]

theorem quiet_done {α : Type} {r : Run α} {ws : List Write} {a : α} : quiet r = ⟨ws, .ok a⟩ ↔ ws = [] ∧ r = .ok a := by
  unfold quiet
  constructor
  · intro h; cases h; exact ⟨rfl, rfl⟩
  · rintro ⟨rfl, rfl⟩; rfl

theorem quiet_bind {α β : Type} {r : Run α} {f : α → Traced β} {ws : List Write} {b : β} :
    (quiet r >>= f) = ⟨ws, .ok b⟩ ↔ ∃ a, r = .ok a ∧ f a = ⟨ws, .ok b⟩ := by
  rw [traced_done]
  constructor
  · rintro ⟨w1, a, w2, h1, h2, rfl⟩
    obtain ⟨rfl, h⟩ := quiet_done.1 h1
    exact ⟨a, h, by simpa using h2⟩
  · rintro ⟨a, h, h2⟩
    exact ⟨[], a, ws, quiet_done.2 ⟨rfl, h⟩, h2, rfl⟩

theorem pure_done {α : Type} {a b : α} {ws : List Write} : (pure a : Traced α) = ⟨ws, .ok b⟩ ↔ ws = [] ∧ a = b := by
  constructor
  · intro h
    have h' : (⟨[], .ok a⟩ : Traced α) = ⟨ws, .ok b⟩ := h
    cases h'; exact ⟨rfl, rfl⟩
  · rintro ⟨rfl, rfl⟩; rfl

/-- What `traceTo` does: it writes one file, or nothing. -/
theorem traceTo_cases (code : Str) (x : FileArgs) (path : Str) (c : Cell ℚ) :
    (∃ t, traceTo code x path c = ⟨[.text path t], .ok ()⟩ ∧ ∀ fs, writeTo fs code x path c = .ok (put fs path t)) ∨
    (∃ e, traceTo code x path c = ⟨[], .error e⟩ ∧ ∀ fs, writeTo fs code x path c = .error e) ∨
    (traceTo code x path c = ⟨[], .ok ()⟩ ∧ (∀ fs, writeTo fs code x path c = .ok fs) ∧ ∀ c : Code, code ≠ c.name) := by
  unfold traceTo writeTo
  by_cases h1 : code = "vasp".toList
  · simp only [if_pos h1]
    cases Vasp.writeInput c x.comment with
    | error e => exact .inr (.inl ⟨e, rfl, fun fs => rfl⟩)
    | ok ls => exact .inl ⟨_, rfl, fun fs => rfl⟩
  simp only [if_neg h1]
  by_cases h2 : code = "espresso".toList
  · simp only [if_pos h2]
    cases Espresso.writeInput c x.species x.weight with
    | error e => exact .inr (.inl ⟨e, rfl, fun fs => rfl⟩)
    | ok ls => exact .inl ⟨_, rfl, fun fs => rfl⟩
  simp only [if_neg h2]
  by_cases h3 : code = "aims".toList
  · simp only [if_pos h3]
    cases Aims.writeInput c with
    | error e => exact .inr (.inl ⟨e, rfl, fun fs => rfl⟩)
    | ok ls => exact .inl ⟨_, rfl, fun fs => rfl⟩
  simp only [if_neg h3]
  refine .inr (.inr ⟨trivial, fun fs => trivial, fun c => ?_⟩)
  cases c
  · exact h1
  · exact h2
  · exact h3

/-- All displaced files, as effects. -/
def traceAll (code : Str) (x : ℕ → FileArgs) (out : Str) : List (ℕ × Cell ℚ) → Traced Unit
  | [] => pure ()
  | f :: rest => traceTo code (x f.1) (fileName out f.1) f.2 >>= fun _ => traceAll code x out rest

/-- The effect of the writes on the files alone. -/
def texts (fs : Fs) (ws : List Write) : Fs := (ws.foldl perform ⟨fs, .missing⟩).files

theorem foldl_files (ws : List Write) (d : Disk) : (ws.foldl perform d).files = texts d.files ws := by
  have : ∀ (ws : List Write) (d d' : Disk), d.files = d'.files → (ws.foldl perform d).files = (ws.foldl perform d').files := by
    intro ws
    induction ws with
    | nil => exact fun d d' h => h
    | cons w ws ih =>
      intro d d' h
      rw [List.foldl_cons, List.foldl_cons]
      refine ih _ _ ?_
      cases w with
      | text p t => show put d.files p t = put d'.files p t; rw [h]
      | record r => exact h
  exact this ws d ⟨d.files, .missing⟩ rfl

theorem texts_append (fs : Fs) (v w : List Write) : texts fs (v ++ w) = texts (texts fs v) w := by
  show ((v ++ w).foldl perform ⟨fs, .missing⟩).files = _
  rw [List.foldl_append, foldl_files]
  rfl

theorem traceTo_iff {fs fs' : Fs} {code path : Str} {x : FileArgs} {c : Cell ℚ} :
    writeTo fs code x path c = .ok fs' ↔ ∃ ws, traceTo code x path c = ⟨ws, .ok ()⟩ ∧ fs' = texts fs ws := by
  rcases traceTo_cases code x path c with ⟨t, h1, h2⟩ | ⟨e, h1, h2⟩ | ⟨h1, h2, -⟩ <;> rw [h1, h2]
  · constructor
    · intro h; cases h; exact ⟨_, rfl, rfl⟩
    · rintro ⟨ws, h, rfl⟩; cases h; rfl
  · constructor
    · intro h; cases h
    · rintro ⟨ws, h, -⟩; cases h
  · constructor
    · intro h; cases h; exact ⟨_, rfl, rfl⟩
    · rintro ⟨ws, h, rfl⟩; cases h; rfl

theorem traceAll_iff {code : Str} {x : ℕ → FileArgs} {out : Str} (files : List (ℕ × Cell ℚ)) {fs fs' : Fs} :
    writeAll code x out fs files = .ok fs' ↔ ∃ ws, traceAll code x out files = ⟨ws, .ok ()⟩ ∧ fs' = texts fs ws := by
  induction files generalizing fs with
  | nil =>
    rw [writeAll, traceAll]
    constructor
    · intro h; cases h; exact ⟨[], rfl, rfl⟩
    · rintro ⟨ws, h, rfl⟩
      obtain ⟨rfl, -⟩ := pure_done.1 h
      rfl
  | cons f rest ih =>
    rw [writeAll, traceAll]
    constructor
    · intro h
      cases h1 : writeTo fs code (x f.1) (fileName out f.1) f.2 with
      | error e => rw [h1] at h; cases h
      | ok fs1 =>
        rw [h1] at h
        obtain ⟨w1, t1, rfl⟩ := traceTo_iff.1 h1
        obtain ⟨w2, t2, rfl⟩ := ih.1 h
        exact ⟨w1 ++ w2, traced_done.2 ⟨w1, (), w2, t1, t2, rfl⟩, (texts_append _ _ _).symm⟩
    · rintro ⟨ws, h, rfl⟩
      obtain ⟨w1, _, w2, t1, t2, rfl⟩ := traced_done.1 h
      rw [traceTo_iff.2 ⟨w1, t1, rfl⟩]
      exact ih.2 ⟨w2, t2, by rw [texts_append]⟩

theorem traceAll_append {code : Str} {x : ℕ → FileArgs} {out : Str} (l l' : List (ℕ × Cell ℚ)) {ws : List Write} :
    traceAll code x out (l ++ l') = ⟨ws, .ok ()⟩ ↔ ∃ w1 w2, traceAll code x out l = ⟨w1, .ok ()⟩ ∧ traceAll code x out l' = ⟨w2, .ok ()⟩ ∧ ws = w1 ++ w2 := by
  induction l generalizing ws with
  | nil =>
    constructor
    · intro h; exact ⟨[], ws, rfl, h, rfl⟩
    · rintro ⟨w1, w2, h1, h2, rfl⟩
      obtain ⟨rfl, -⟩ := pure_done.1 h1
      exact h2
  | cons f rest ih =>
    rw [List.cons_append, traceAll, traceAll, traced_done]
    constructor
    · rintro ⟨w1, a, w2, h1, h2, rfl⟩
      obtain ⟨v1, v2, g1, g2, rfl⟩ := ih.1 h2
      exact ⟨w1 ++ v1, v2, traced_done.2 ⟨w1, a, v1, h1, g1, rfl⟩, g2, by rw [List.append_assoc]⟩
    · rintro ⟨v1, v2, g1, g2, rfl⟩
      obtain ⟨w1, a, w2, h1, h2, rfl⟩ := traced_done.1 g1
      exact ⟨w1, a, w2 ++ v2, h1, ih.2 ⟨w2, v2, h2, g2, rfl⟩, by rw [List.append_assoc]⟩

/-- The loop `m` adds the files whose effects are those of `t`. -/
def Sim {β : Type} (code : Str) (x : ℕ → FileArgs) (out : Str) (t : Traced β) (m : Run (β × Files ℚ)) (f0 : Files ℚ) : Prop :=
  (∀ c ws, t = ⟨ws, .ok c⟩ → ∃ new, m = .ok (c, f0 ++ new) ∧ traceAll code x out new = ⟨ws, .ok ()⟩) ∧
    ∀ c f, m = .ok (c, f) → ∃ new, f = f0 ++ new ∧ ∀ ws, traceAll code x out new = ⟨ws, .ok ()⟩ → t = ⟨ws, .ok c⟩

theorem Sim.bind {β γ : Type} {code : Str} {x : ℕ → FileArgs} {out : Str} {t : Traced β} {m : Run (β × Files ℚ)} {f0 : Files ℚ} (h : Sim code x out t m f0)
    {g : β → Traced γ} {k : β × Files ℚ → Run (γ × Files ℚ)} {M : Run (γ × Files ℚ)} (hM : ∀ e, m = .error e → M = .error e) (hM' : ∀ st, m = .ok st → M = k st)
    (hg : ∀ b f, Sim code x out (g b) (k (b, f)) f) : Sim code x out (t >>= g) M f0 := by
  constructor
  · intro c ws hw
    obtain ⟨w1, b, w2, h1, h2, rfl⟩ := traced_done.1 hw
    obtain ⟨n1, e1, a1⟩ := h.1 b w1 h1
    obtain ⟨n2, e2, a2⟩ := (hg b (f0 ++ n1)).1 c w2 h2
    refine ⟨n1 ++ n2, ?_, (traceAll_append _ _).2 ⟨w1, w2, a1, a2, rfl⟩⟩
    rw [hM' _ e1, e2, List.append_assoc]
  · intro c f hf
    cases hm : m with
    | error e => rw [hM e hm] at hf; cases hf
    | ok st =>
      rw [hM' st hm] at hf
      obtain ⟨b, f1⟩ := st
      obtain ⟨n1, rfl, a1⟩ := h.2 b f1 hm
      obtain ⟨n2, rfl, a2⟩ := (hg b (f0 ++ n1)).2 c f hf
      refine ⟨n1 ++ n2, by rw [List.append_assoc], fun ws hw => ?_⟩
      obtain ⟨w1, w2, g1, g2, rfl⟩ := (traceAll_append _ _).1 hw
      exact traced_done.2 ⟨w1, b, w2, a1 w1 g1, a2 w2 g2, rfl⟩

theorem sim_done {β : Type} (code : Str) (x : ℕ → FileArgs) (out : Str) (b : β) (f : Files ℚ) : Sim code x out (pure b) (.ok (b, f)) f := by
  constructor
  · intro c ws h
    obtain ⟨rfl, rfl⟩ := pure_done.1 h
    exact ⟨[], by rw [List.append_nil], rfl⟩
  · intro c f' h
    cases h
    refine ⟨[], by rw [List.append_nil], fun ws hw => ?_⟩
    obtain ⟨rfl, -⟩ := pure_done.1 hw
    rfl

theorem sim_pair (code : Str) (x : ℕ → FileArgs) (out : Str) (d : ℚ) (cur : List (V3 ℚ)) (row num : ℕ) (disp : V3 ℚ) (c : Cell ℚ) (f : Files ℚ) :
    Sim code x out (tracePair code x out d cur row num disp c) (writePair d cur row num disp (c, f)) f := by
  have hall : ∀ (c1 c2 : Cell ℚ) (ws : List Write), traceAll code x out [(num, c1), (num + 1, c2)] = ⟨ws, .ok ()⟩ ↔
      ∃ w1 w2, traceTo code (x num) (fileName out num) c1 = ⟨w1, .ok ()⟩ ∧ traceTo code (x (num + 1)) (fileName out (num + 1)) c2 = ⟨w2, .ok ()⟩ ∧ ws = w1 ++ w2 := by
    intro c1 c2 ws
    rw [traceAll, traceAll, traceAll, traced_done]
    constructor
    · rintro ⟨w1, _, w2, h1, h2, rfl⟩
      obtain ⟨v1, _, v2, g1, g2, rfl⟩ := traced_done.1 h2
      obtain ⟨rfl, -⟩ := pure_done.1 g2
      exact ⟨w1, v1, h1, g1, by rw [List.append_nil]⟩
    · rintro ⟨w1, w2, h1, h2, rfl⟩
      exact ⟨w1, (), w2, h1, traced_done.2 ⟨w2, (), [], h2, rfl, by rw [List.append_nil]⟩, rfl⟩
  constructor
  · intro c' ws h
    unfold tracePair at h
    obtain ⟨v, hv, h⟩ := quiet_bind.1 h
    obtain ⟨c1, hc1, h⟩ := quiet_bind.1 h
    obtain ⟨w1, _, w2, t1, h2, rfl⟩ := traced_done.1 h
    obtain ⟨c2, hc2, h3⟩ := quiet_bind.1 h2
    obtain ⟨v1, _, v2, t2, h4, rfl⟩ := traced_done.1 h3
    obtain ⟨rfl, rfl⟩ := pure_done.1 h4
    refine ⟨[(num, c1), (num + 1, c2)], ?_, (hall _ _ _).2 ⟨w1, v1, t1, t2, by rw [List.append_nil]⟩⟩
    unfold writePair
    simp only [hv, hc1, hc2]
    simp
  · intro c' f' h
    unfold writePair at h
    split at h
    · cases h
    rename_i v hv
    split at h
    · cases h
    rename_i c1 hc1
    split at h
    · cases h
    rename_i c2 hc'
    cases h
    refine ⟨[(num, c1), (num + 1, c')], by simp, fun ws hw => ?_⟩
    obtain ⟨w1, w2, t1, t2, rfl⟩ := (hall _ _ _).1 hw
    unfold tracePair
    refine quiet_bind.2 ⟨v, hv, quiet_bind.2 ⟨c1, hc1, traced_done.2 ⟨w1, (), w2, t1, quiet_bind.2 ⟨c', hc', traced_done.2 ⟨w2, (), [], t2, rfl, by rw [List.append_nil]⟩⟩, rfl⟩⟩⟩

theorem sim_dir (code : Str) (x : ℕ → FileArgs) (out : Str) (d : ℚ) (cur : List (V3 ℚ)) (row i : ℕ) (l : List (V3 ℚ)) (j : ℕ) (c : Cell ℚ) (f : Files ℚ) :
    Sim code x out (traceDir code x out d cur row i j l c) (dirLoop d cur row i j l (c, f)) f := by
  induction l generalizing j c f with
  | nil => exact sim_done code x out c f
  | cons disp rest ih =>
    rw [traceDir, dirLoop]
    exact (sim_pair code x out d cur row _ disp c f).bind (fun e h => by rw [h]) (fun st h => by rw [h]) fun b f => ih (j + 1) b f

theorem sim_atoms (code : Str) (x : ℕ → FileArgs) (out : Str) (d : ℚ) (cur : List (V3 ℚ)) (E : ℕ) (l : List ℕ) (i : ℕ) (c : Cell ℚ) (f : Files ℚ) :
    Sim code x out (traceAtoms code x out d cur E i l c) (atomLoop d cur E i l (c, f)) f := by
  induction l generalizing i c f with
  | nil => exact sim_done code x out c f
  | cons t rest ih =>
    rw [traceAtoms, atomLoop]
    exact (sim_dir code x out d cur (E * t) i eye3 0 { c with cart := cur } f).bind (fun e h => by rw [h]) (fun st h => by rw [h]) fun b f => ih (i + 1) b f

theorem sim_symDir (code : Str) (x : ℕ → FileArgs) (out : Str) (d : ℚ) (cur : List (V3 ℚ)) (row : ℕ) (l : List (V3 ℚ)) (k : ℕ) (c : Cell ℚ) (f : Files ℚ) :
    Sim code x out (traceSymDir code x out d cur row k l c) (match symDirLoop d cur row k l (c, f) with
      | .error e => .error e
      | .ok r => .ok ((r.1, r.2.1), r.2.2)) f := by
  induction l generalizing k c f with
  | nil => exact sim_done code x out (k, c) f
  | cons disp rest ih =>
    rw [traceSymDir, symDirLoop]
    exact (sim_pair code x out d cur row (2 * k + 1) disp c f).bind (fun e h => by rw [h]) (fun st h => by rw [h]) fun b f => ih (k + 1) b f

theorem sim_symAtoms (code : Str) (x : ℕ → FileArgs) (out : Str) (d : ℚ) (cur : List (V3 ℚ)) (l : List (ℕ × List (V3 ℚ))) (k : ℕ) (c : Cell ℚ) (f : Files ℚ) :
    Sim code x out (traceSymAtoms code x out d cur k l c) (symAtomLoop d cur k l (c, f)) f := by
  induction l generalizing k c f with
  | nil => exact sim_done code x out c f
  | cons a rest ih =>
    obtain ⟨row, dirs⟩ := a
    rw [traceSymAtoms, symAtomLoop]
    refine (sim_symDir code x out d cur row dirs k { c with cart := cur } f).bind (k := fun st => symAtomLoop d cur st.1.1 rest (st.1.2, st.2)) (fun e h => ?_) (fun st h => ?_)
      fun b f => ih b.1 b.2 f
    · cases hs : symDirLoop d cur row k dirs ({ c with cart := cur }, f) with
      | error e' => rw [hs] at h; cases h; rfl
      | ok st => rw [hs] at h; cases h
    · cases hs : symDirLoop d cur row k dirs ({ c with cart := cur }, f) with
      | error e' => rw [hs] at h; cases h
      | ok st => rw [hs] at h; cases h; rfl

theorem sim_displace (code : Str) (x : ℕ → FileArgs) (out : Str) (s : Cell ℚ) (sel : List ℕ) (E : ℕ) (d : ℚ) (p : Fin 3 → ℤ) (symFlag : Bool) (search : Run (List (ℕ × List (V3 ℚ)))) :
    Sim code x out (traceDisplace code x out s sel E d p symFlag search) (writeDisplaceCell s sel E d p symFlag search) [] := by
  have herr : ∀ e : PyErr, Sim code x out (⟨[], .error e⟩ : Traced (Cell ℚ)) (.error e) [] := fun e => ⟨fun c ws h => (by cases h), fun c f h => (by cases h)⟩
  unfold traceDisplace writeDisplaceCell
  by_cases h : (symFlag && numPbc p == 2) = true
  · simp only [h, if_true]
    cases search with
    | ok plan => exact sim_symAtoms _ _ _ _ _ _ _ _ _
    | error e => cases e <;> exact herr _
  · simp only [h]
    exact sim_atoms _ _ _ _ _ _ _ _ _ _

/-- The complete runs of the sequence of effects are those of `preMain`. -/
theorem C137_refines (cwd : Str) (o : PreOpts) (x : ℕ → FileArgs) (junk : ℕ → List (V3 ℚ)) (search : Run (List (ℕ × List (V3 ℚ)))) (group : Run Str) (fs fs1 : Fs) (rec : PreRecord) :
    preMain cwd o x junk search group fs = .ok (fs1, rec) ↔ ∃ ws, preTrace cwd o x junk search group fs = ⟨ws ++ [.record rec], .ok ()⟩ ∧ fs1 = texts fs ws := by
  constructor
  · intro h
    unfold preMain at h
    obtain ⟨_, h1, h⟩ := run_inv h
    obtain ⟨_, h2, h⟩ := run_inv h
    obtain ⟨_, h3, h⟩ := run_inv h
    obtain ⟨u, h4, h⟩ := run_inv h
    obtain ⟨s0, h5, h⟩ := run_inv h
    obtain ⟨s, h6, h⟩ := run_inv h
    obtain ⟨fa, hfa, h⟩ := run_inv h
    obtain ⟨sel, h7, h⟩ := run_inv h
    obtain ⟨d, h8, h⟩ := run_inv h
    obtain ⟨pg, h9, h⟩ := run_inv h
    obtain ⟨w, h10, h⟩ := run_inv h
    obtain ⟨fb, hfb, h⟩ := run_inv h
    obtain ⟨rec', h11, h⟩ := run_inv h
    cases h
    obtain ⟨w1, t1, rfl⟩ := traceTo_iff.1 hfa
    obtain ⟨w2, t2, rfl⟩ := (traceAll_iff _).1 hfb
    obtain ⟨new, hnew, hsim⟩ := (sim_displace o.dft x (preFiles cwd o).1 s sel (enlarge ((setUserArgument {} o.dict).1.enlargement.getD []) ((setUserArgument {} o.dict).1.periodicity.getD [])).toNat d
      (vec (setUserArgument {} o.dict).1.periodicity) o.sym search).2 w.1 w.2 h10
    rw [List.nil_append] at hnew
    obtain ⟨rec0, h12⟩ : ∃ r0, preRecord cwd o (setUserArgument {} o.dict).1 none = .ok r0 := by
      unfold preRecord at h11 ⊢
      split at h11
      · exact ⟨_, rfl⟩
      · cases h11
    refine ⟨w1 ++ w2, ?_, (texts_append _ _ _).symm⟩
    unfold preTrace
    refine quiet_bind.2 ⟨_, h1, quiet_bind.2 ⟨_, h2, quiet_bind.2 ⟨_, h12, quiet_bind.2 ⟨_, h3, quiet_bind.2 ⟨u, h4, quiet_bind.2 ⟨sel, h7, quiet_bind.2 ⟨s0, h5, quiet_bind.2 ⟨s, h6, ?_⟩⟩⟩⟩⟩⟩⟩⟩
    refine traced_done.2 ⟨w1, (), w2 ++ [.record rec], t1, ?_, by rw [List.append_assoc]⟩
    refine quiet_bind.2 ⟨d, h8, quiet_bind.2 ⟨pg, h9, traced_done.2 ⟨w2, w.1, [.record rec], hsim w2 (hnew ▸ t2), quiet_bind.2 ⟨rec, h11, rfl⟩, rfl⟩⟩⟩
  · rintro ⟨ws, h, rfl⟩
    unfold preTrace at h
    obtain ⟨_, h1, h⟩ := quiet_bind.1 h
    obtain ⟨_, h2, h⟩ := quiet_bind.1 h
    obtain ⟨_, -, h⟩ := quiet_bind.1 h
    obtain ⟨_, h3, h⟩ := quiet_bind.1 h
    obtain ⟨u, h4, h⟩ := quiet_bind.1 h
    obtain ⟨sel, h7, h⟩ := quiet_bind.1 h
    obtain ⟨s0, h5, h⟩ := quiet_bind.1 h
    obtain ⟨s, h6, h⟩ := quiet_bind.1 h
    obtain ⟨w1, _, w2, t1, h, e1⟩ := traced_done.1 h
    obtain ⟨d, h8, h⟩ := quiet_bind.1 h
    obtain ⟨pg, h9, h⟩ := quiet_bind.1 h
    obtain ⟨v1, c, v2, t2, h', rfl⟩ := traced_done.1 h
    obtain ⟨rec', h11, h''⟩ := quiet_bind.1 h'
    cases h''
    rw [← List.append_assoc] at e1
    obtain ⟨rfl, e2⟩ := List.append_inj' e1 rfl
    cases e2
    obtain ⟨new, hm, hall⟩ := (sim_displace o.dft x (preFiles cwd o).1 s sel (enlarge ((setUserArgument {} o.dict).1.enlargement.getD []) ((setUserArgument {} o.dict).1.periodicity.getD [])).toNat d
      (vec (setUserArgument {} o.dict).1.periodicity) o.sym search).1 c v1 t2
    have hfa := (traceTo_iff (fs := fs)).2 ⟨w1, t1, rfl⟩
    have hfb := (traceAll_iff (fs := texts fs w1) new).2 ⟨v1, hall, rfl⟩
    unfold preMain
    rw [List.nil_append] at hm
    simp only [h1, h2, h3, h4, h5, h6, h7, h8, h9, h11, hm, hfa, hfb, run_ok]
    rw [texts_append]
    rfl

/-! ### Which files are written, in which order -/

/-- Every effect of the program is of the kind `P`. -/
def Only {α : Type} (P : Write → Prop) (t : Traced α) : Prop := ∀ w ∈ t.writes, P w

theorem Only.bind {α β : Type} {P : Write → Prop} {m : Traced α} {f : α → Traced β} (hm : Only P m) (hf : ∀ a, Only P (f a)) : Only P (m >>= f) := by
  obtain ⟨w1, r⟩ := m
  cases r with
  | error e => exact hm
  | ok a =>
    intro w hw
    have hw' : w ∈ w1 ++ (f a).writes := hw
    rcases List.mem_append.1 hw' with h | h
    · exact hm w h
    · exact hf a w h

theorem Only.quiet {α : Type} {P : Write → Prop} (r : Run α) : Only P (quiet r) := fun w hw => by cases hw

theorem Only.pure {α : Type} {P : Write → Prop} (a : α) : Only P (pure a : Traced α) := fun w hw => by
  have : w ∈ ([] : List Write) := hw
  cases this

/-- A text for one of the paths. -/
def IsText (Q : Str → Prop) (w : Write) : Prop := ∃ q t, Q q ∧ w = .text q t

theorem only_traceTo {Q : Str → Prop} (code : Str) (x : FileArgs) (path : Str) (c : Cell ℚ) (hq : Q path) : Only (IsText Q) (traceTo code x path c) := by
  intro w hw
  rcases traceTo_cases code x path c with ⟨t, h, -⟩ | ⟨e, h, -⟩ | ⟨h, -⟩ <;> rw [h] at hw
  · have : w = .text path t := by simpa using hw
    exact ⟨path, t, hq, this⟩
  · cases hw
  · cases hw

theorem only_pair {Q : Str → Prop} (code : Str) (x : ℕ → FileArgs) (out : Str) (hQ : ∀ k, Q (fileName out k)) (d : ℚ) (cur : List (V3 ℚ)) (row num : ℕ) (disp : V3 ℚ) (c : Cell ℚ) :
    Only (IsText Q) (tracePair code x out d cur row num disp c) :=
  (Only.quiet _).bind fun _ => (Only.quiet _).bind fun _ => (only_traceTo _ _ _ _ (hQ _)).bind fun _ => (Only.quiet _).bind fun _ => (only_traceTo _ _ _ _ (hQ _)).bind fun _ => Only.pure _

theorem only_displace {Q : Str → Prop} (code : Str) (x : ℕ → FileArgs) (out : Str) (hQ : ∀ k, Q (fileName out k)) (s : Cell ℚ) (sel : List ℕ) (E : ℕ) (d : ℚ) (p : Fin 3 → ℤ) (symFlag : Bool)
    (search : Run (List (ℕ × List (V3 ℚ)))) : Only (IsText Q) (traceDisplace code x out s sel E d p symFlag search) := by
  have hdir : ∀ cur row i l j c, Only (IsText Q) (traceDir code x out d cur row i j l c) := by
    intro cur row i l
    induction l with
    | nil => exact fun j c => Only.pure _
    | cons a l ih => intro j c; rw [traceDir]; exact (only_pair code x out hQ d cur row _ a c).bind fun b => ih _ b
  have hat : ∀ cur l i c, Only (IsText Q) (traceAtoms code x out d cur E i l c) := by
    intro cur l
    induction l with
    | nil => exact fun j c => Only.pure _
    | cons a l ih => intro j c; rw [traceAtoms]; exact (hdir _ _ _ _ _ _).bind fun b => ih _ b
  have hsd : ∀ cur row l k c, Only (IsText Q) (traceSymDir code x out d cur row k l c) := by
    intro cur row l
    induction l with
    | nil => exact fun j c => Only.pure _
    | cons a l ih => intro j c; rw [traceSymDir]; exact (only_pair code x out hQ d cur row _ a c).bind fun b => ih _ b
  have hsa : ∀ cur l k c, Only (IsText Q) (traceSymAtoms code x out d cur k l c) := by
    intro cur l
    induction l with
    | nil => exact fun j c => Only.pure _
    | cons a l ih => intro j c; obtain ⟨row, dirs⟩ := a; rw [traceSymAtoms]; exact (hsd _ _ _ _ _).bind fun b => ih _ _
  have herr : ∀ e : PyErr, Only (IsText Q) (⟨[], .error e⟩ : Traced (Cell ℚ)) := fun e w hw => by cases hw
  unfold traceDisplace
  by_cases h : (symFlag && numPbc p == 2) = true
  · simp only [h, if_true]
    cases search with
    | ok plan => exact hsa _ _ _ _
    | error e => cases e <;> exact herr _
  · simp only [h]
    exact hat _ _ _ _

/-- The program writes texts first and the record at the end. -/
def TextsThenRecord (Q : Str → Prop) (t : Traced Unit) : Prop := Only (IsText Q) t ∨ ∃ ws r, t = ⟨ws ++ [.record r], .ok ()⟩ ∧ ∀ w ∈ ws, IsText Q w

theorem TextsThenRecord.bind {α : Type} {Q : Str → Prop} {m : Traced α} {f : α → Traced Unit} (hm : Only (IsText Q) m) (hf : ∀ a, TextsThenRecord Q (f a)) : TextsThenRecord Q (m >>= f) := by
  obtain ⟨w1, r⟩ := m
  cases r with
  | error e => exact .inl hm
  | ok a =>
    rcases hf a with h | ⟨ws, r, h, hw⟩
    · refine .inl fun w hw => ?_
      have hw' : w ∈ w1 ++ (f a).writes := hw
      rcases List.mem_append.1 hw' with h' | h'
      · exact hm w h'
      · exact h w h'
    · refine .inr ⟨w1 ++ ws, r, ?_, fun w hw' => ?_⟩
      · show (⟨w1 ++ (f a).writes, (f a).result⟩ : Traced Unit) = _
        rw [h, List.append_assoc]
      · rcases List.mem_append.1 hw' with h' | h'
        · exact hm w h'
        · exact hw w h'

/-- The files of the pre-process for the unit-cell file `path`. -/
def IsOutput (path q : Str) : Prop := q = superOf path ∨ ∃ k, q = fileName path k

theorem pre_order (cwd : Str) (o : PreOpts) (x : ℕ → FileArgs) (junk : ℕ → List (V3 ℚ)) (search : Run (List (ℕ × List (V3 ℚ)))) (group : Run Str) (fs : Fs) :
    TextsThenRecord (IsOutput (absPath cwd o.unitcell)) (preTrace cwd o x junk search group fs) := by
  unfold preTrace
  refine TextsThenRecord.bind (Only.quiet _) fun _ => TextsThenRecord.bind (Only.quiet _) fun _ => TextsThenRecord.bind (Only.quiet _) fun _ => TextsThenRecord.bind (Only.quiet _) fun _ =>
    TextsThenRecord.bind (Only.quiet _) fun u => TextsThenRecord.bind (Only.quiet _) fun sel => TextsThenRecord.bind (Only.quiet _) fun s0 => TextsThenRecord.bind (Only.quiet _) fun s =>
    TextsThenRecord.bind (only_traceTo _ _ _ _ (.inl rfl)) fun _ => TextsThenRecord.bind (Only.quiet _) fun d => TextsThenRecord.bind (Only.quiet _) fun pg =>
    TextsThenRecord.bind (only_displace _ _ _ (fun k => .inr ⟨k, rfl⟩) _ _ _ _ _ _ _) fun c => TextsThenRecord.bind (Only.quiet _) fun rec' => ?_
  exact .inr ⟨[], rec', rfl, fun w hw => by cases hw⟩

/-! ### What an interruption leaves behind -/

theorem put_frame {Q : Str → Prop} {fs : Fs} {p q t : Str} (hp : Q p) (hq : ¬ Q q) : put fs p t q = fs q := by
  rw [put, if_neg]
  rintro rfl
  exact hq hp

theorem Interrupted.texts_only {Q : Str → Prop} {ws : List Write} {d d' : Disk} (h : Interrupted ws d d') (hw : ∀ w ∈ ws, IsText Q w) :
    d'.record = d.record ∧ ∀ q, ¬ Q q → d'.files q = d.files q := by
  induction h with
  | before ws d => exact ⟨rfl, fun q _ => rfl⟩
  | @inText path t t' ht ws d =>
    obtain ⟨q', t0, hq', e⟩ := hw _ (List.mem_cons_self ..)
    cases e
    refine ⟨rfl, fun q hq => ?_⟩
    show put d.files path t' q = _
    exact put_frame hq' hq
  | inRecord r ws d =>
    obtain ⟨q', t0, hq', e⟩ := hw _ (List.mem_cons_self ..)
    cases e
  | @later w ws d d' h ih =>
    obtain ⟨q', t0, hq', rfl⟩ := hw _ (List.mem_cons_self ..)
    obtain ⟨i1, i2⟩ := ih fun w hw' => hw w (List.mem_cons_of_mem _ hw')
    refine ⟨i1, fun q hq => ?_⟩
    rw [i2 q hq]
    show put d.files q' t0 q = _
    exact put_frame hq' hq

theorem foldl_texts {Q : Str → Prop} (ws : List Write) (hw : ∀ w ∈ ws, IsText Q w) (d : Disk) :
    (ws.foldl perform d).record = d.record ∧ ∀ q, ¬ Q q → (ws.foldl perform d).files q = d.files q := by
  have : ∀ (ws : List Write) (d : Disk), Interrupted ws d (ws.foldl perform d) := by
    intro ws
    induction ws with
    | nil => exact fun d => .before [] d
    | cons w ws ih => exact fun d => .later (ih _)
  exact (this ws d).texts_only hw

/-- Stopped while or after the record is written: all files are there. -/
theorem Interrupted.with_record {Q : Str → Prop} {ws : List Write} {r : PreRecord} {d d' : Disk} (h : Interrupted (ws ++ [.record r]) d d') (hw : ∀ w ∈ ws, IsText Q w) :
    (d'.record = d.record ∧ ∀ q, ¬ Q q → d'.files q = d.files q) ∨ (d'.files = (ws.foldl perform d).files ∧ (d'.record = .damaged ∨ d'.record = .complete r)) := by
  induction ws generalizing d with
  | nil =>
    rw [List.nil_append] at h
    cases h with
    | before => exact .inl ⟨rfl, fun q _ => rfl⟩
    | inRecord => exact .inr ⟨rfl, .inl rfl⟩
    | later h =>
      cases h
      exact .inr ⟨rfl, .inr rfl⟩
  | cons w ws ih =>
    obtain ⟨q', t0, hq', rfl⟩ := hw _ (List.mem_cons_self ..)
    rw [List.cons_append] at h
    cases h with
    | before => exact .inl ⟨rfl, fun q _ => rfl⟩
    | inText ht =>
      refine .inl ⟨rfl, fun q hq => ?_⟩
      show put d.files q' _ q = _
      exact put_frame hq' hq
    | later h =>
      rcases ih h fun w hw' => hw w (List.mem_cons_of_mem _ hw') with ⟨i1, i2⟩ | h'
      · refine .inl ⟨i1, fun q hq => ?_⟩
        rw [i2 q hq]
        show put d.files q' t0 q = _
        exact put_frame hq' hq
      · exact .inr h'

/-- **C137** (the user's files).  However many jobs were started for a unit-cell file, with whatever options, and whenever each of them was stopped: no other file than SUPERCELL and the
numbered files has changed. -/
theorem C137_user_files_kept {P : Job → Prop} {cwd path : Str} {d d' : Disk} (h : Jobs P cwd path d d') (q : Str) (h1 : q ≠ dirName path ++ '/' :: "SUPERCELL".toList) (h2 : ∀ k, q ≠ fileName path k) :
    d'.files q = d.files q := by
  have hq : ¬ IsOutput path q := by rintro (e | ⟨k, e⟩); exacts [h1 e, h2 k e]
  induction h with
  | none => rfl
  | @one d' d'' h j hP hj hs ih =>
    rw [← ih]
    have ho := pre_order cwd j.o j.x j.junk j.search j.group d'.files
    rw [hj] at ho
    unfold Job.Stops Job.trace at hs
    rcases ho with ho | ⟨ws, r, e, hw⟩
    · exact (hs.texts_only ho).2 q hq
    · rw [e] at hs
      rcases hs.with_record hw with ⟨-, h⟩ | ⟨h, -⟩
      · exact h q hq
      · rw [h]
        exact (foldl_texts ws hw d').2 q hq

/-- **C137** (the record is the last file).  If a stopped job has touched the record, all its other files are complete: they are those of a run that was not stopped, and the record is
either that of this run or damaged. -/
theorem C137_record_last {cwd : Str} {j : Job} {d d' : Disk} (h : j.Stops cwd d d') (hr : d'.record ≠ d.record) :
    ∃ e, j.Completes cwd d e ∧ d'.files = e.files ∧ (d'.record = .damaged ∨ d'.record = e.record) := by
  have ho := pre_order cwd j.o j.x j.junk j.search j.group d.files
  unfold Job.Stops Job.trace at h
  rcases ho with ho | ⟨ws, r, e, hw⟩
  · exact absurd (h.texts_only ho).1 hr
  · rw [e] at h
    rcases h.with_record hw with ⟨h, -⟩ | ⟨h1, h2⟩
    · exact absurd h hr
    · refine ⟨(ws ++ [Write.record r]).foldl perform d, ⟨_, e, rfl⟩, ?_, ?_⟩
      · rw [h1, List.foldl_append]; rfl
      · rcases h2 with h2 | h2
        · exact .inl h2
        · right; rw [h2, List.foldl_append]; rfl

theorem trace_congr {cwd : Str} {o : PreOpts} (x : ℕ → FileArgs) (junk : ℕ → List (V3 ℚ)) (search : Run (List (ℕ × List (V3 ℚ)))) (group : Run Str) {fs fs' : Fs}
    (h : fs (absPath cwd o.unitcell) = fs' (absPath cwd o.unitcell)) : preTrace cwd o x junk search group fs = preTrace cwd o x junk search group fs' := by
  unfold preTrace
  have e : readFile fs o.dft (preFiles cwd o).1 = readFile fs' o.dft (preFiles cwd o).1 := readFile_congr _ h
  rw [e]

/-- The unit-cell file survives unless it is called SUPERCELL. -/
theorem unit_kept {P : Job → Prop} {cwd path : Str} {d d' : Disk} (h : Jobs P cwd path d d') (hn : baseName path ≠ "SUPERCELL".toList) : d'.files path = d.files path := by
  refine C137_user_files_kept h path ?_ fun k => (file_ne_unit _ k).symm
  intro e
  apply hn
  rw [e]
  unfold baseName
  have e1 : (dirName path ++ '/' :: "SUPERCELL".toList).reverse = "SUPERCELL".toList.reverse ++ '/' :: (dirName path).reverse := by simp
  rw [e1, List.takeWhile_append_of_pos (by decide)]
  simp

/-! ### A run after any history -/

/-- `n` files with consecutive numbers from `a`. -/
def Numbered (out : Str) (a n : ℕ) (ws : List Write) : Prop := ∃ t : ℕ → Str, ws = (List.range n).map fun k => .text (fileName out (a + k)) (t k)

theorem Numbered.append {out : Str} {a m n : ℕ} {v w : List Write} (hv : Numbered out a m v) (hw : Numbered out (a + m) n w) : Numbered out a (m + n) (v ++ w) := by
  obtain ⟨t, rfl⟩ := hv
  obtain ⟨t', rfl⟩ := hw
  refine ⟨fun k => if k < m then t k else t' (k - m), ?_⟩
  rw [List.range_add, List.map_append, List.map_map]
  congr 1
  · refine List.map_congr_left fun k hk => ?_
    beta_reduce
    rw [if_pos (List.mem_range.1 hk)]
  · refine List.map_congr_left fun k hk => ?_
    simp only [Function.comp_apply]
    rw [if_neg (by omega), Nat.add_sub_cancel_left, Nat.add_assoc]

theorem Numbered.nil (out : Str) (a : ℕ) : Numbered out a 0 [] := ⟨fun _ => [], rfl⟩

theorem traceTo_name {code : Code} {x : FileArgs} {path : Str} {c : Cell ℚ} {ws : List Write} (h : traceTo code.name x path c = ⟨ws, .ok ()⟩) : ∃ t, ws = [.text path t] := by
  rcases traceTo_cases code.name x path c with ⟨t, e, -⟩ | ⟨_, e, -⟩ | ⟨e, -, hc⟩
  · rw [e] at h; cases h; exact ⟨t, rfl⟩
  · rw [e] at h; cases h
  · exact absurd rfl (hc code)

theorem pair_numbered {code : Code} {x : ℕ → FileArgs} {out : Str} {d : ℚ} {cur : List (V3 ℚ)} {row num : ℕ} {disp : V3 ℚ} {c c' : Cell ℚ} {ws : List Write}
    (h : tracePair code.name x out d cur row num disp c = ⟨ws, .ok c'⟩) : Numbered out num 2 ws := by
  unfold tracePair at h
  obtain ⟨v, hv, h⟩ := quiet_bind.1 h
  obtain ⟨c1, hc1, h⟩ := quiet_bind.1 h
  obtain ⟨w1, _, w2, t1, h2, rfl⟩ := traced_done.1 h
  obtain ⟨c2, hc2, h3⟩ := quiet_bind.1 h2
  obtain ⟨v1, _, v2, t2, h4, rfl⟩ := traced_done.1 h3
  obtain ⟨rfl, rfl⟩ := pure_done.1 h4
  obtain ⟨a, rfl⟩ := traceTo_name t1
  obtain ⟨b, rfl⟩ := traceTo_name t2
  exact ⟨fun k => if k = 0 then a else b, rfl⟩

theorem dir_numbered {code : Code} {x : ℕ → FileArgs} {out : Str} {d : ℚ} {cur : List (V3 ℚ)} {row i : ℕ} (l : List (V3 ℚ)) {j : ℕ} {c c' : Cell ℚ} {ws : List Write}
    (h : traceDir code.name x out d cur row i j l c = ⟨ws, .ok c'⟩) : Numbered out (6 * i + 2 * j + 1) (2 * l.length) ws := by
  induction l generalizing j c ws with
  | nil =>
    obtain ⟨rfl, -⟩ := pure_done.1 h
    exact Numbered.nil _ _
  | cons a l ih =>
    rw [traceDir] at h
    obtain ⟨w1, b, w2, h1, h2, rfl⟩ := traced_done.1 h
    have e := ih h2
    have e1 := pair_numbered h1
    rw [show 6 * i + 2 * (j + 1) + 1 = 6 * i + 2 * j + 1 + 2 by ring] at e
    rw [List.length_cons, show 2 * (l.length + 1) = 2 + 2 * l.length by ring]
    exact e1.append e

theorem atoms_numbered {code : Code} {x : ℕ → FileArgs} {out : Str} {d : ℚ} {cur : List (V3 ℚ)} {E : ℕ} (l : List ℕ) {i : ℕ} {c c' : Cell ℚ} {ws : List Write}
    (h : traceAtoms code.name x out d cur E i l c = ⟨ws, .ok c'⟩) : Numbered out (6 * i + 1) (6 * l.length) ws := by
  induction l generalizing i c ws with
  | nil =>
    obtain ⟨rfl, -⟩ := pure_done.1 h
    exact Numbered.nil _ _
  | cons a l ih =>
    rw [traceAtoms] at h
    obtain ⟨w1, b, w2, h1, h2, rfl⟩ := traced_done.1 h
    have e := ih h2
    have e1 : Numbered out (6 * i + 2 * 0 + 1) 6 w1 := dir_numbered _ h1
    rw [show 6 * (i + 1) + 1 = 6 * i + 1 + 6 by ring] at e
    rw [List.length_cons, show 6 * (l.length + 1) = 6 + 6 * l.length by ring]
    exact Numbered.append e1 e

theorem symDir_numbered {code : Code} {x : ℕ → FileArgs} {out : Str} {d : ℚ} {cur : List (V3 ℚ)} {row : ℕ} (l : List (V3 ℚ)) {k : ℕ} {c : Cell ℚ} {r : ℕ × Cell ℚ} {ws : List Write}
    (h : traceSymDir code.name x out d cur row k l c = ⟨ws, .ok r⟩) : r.1 = k + l.length ∧ Numbered out (2 * k + 1) (2 * l.length) ws := by
  induction l generalizing k c ws with
  | nil =>
    obtain ⟨rfl, rfl⟩ := pure_done.1 h
    exact ⟨rfl, Numbered.nil _ _⟩
  | cons a l ih =>
    rw [traceSymDir] at h
    obtain ⟨w1, b, w2, h1, h2, rfl⟩ := traced_done.1 h
    obtain ⟨e0, e⟩ := ih h2
    have e1 := pair_numbered h1
    rw [show 2 * (k + 1) + 1 = 2 * k + 1 + 2 by ring] at e
    rw [List.length_cons, show 2 * (l.length + 1) = 2 + 2 * l.length by ring]
    exact ⟨by omega, e1.append e⟩

theorem symAtoms_numbered {code : Code} {x : ℕ → FileArgs} {out : Str} {d : ℚ} {cur : List (V3 ℚ)} (l : List (ℕ × List (V3 ℚ))) {k : ℕ} {c c' : Cell ℚ} {ws : List Write}
    (h : traceSymAtoms code.name x out d cur k l c = ⟨ws, .ok c'⟩) : Numbered out (2 * k + 1) (2 * (l.map fun a => a.2.length).sum) ws := by
  induction l generalizing k c ws with
  | nil =>
    obtain ⟨rfl, -⟩ := pure_done.1 h
    exact Numbered.nil _ _
  | cons a l ih =>
    obtain ⟨row, dirs⟩ := a
    rw [traceSymAtoms] at h
    obtain ⟨w1, b, w2, h1, h2, rfl⟩ := traced_done.1 h
    obtain ⟨e0, e1⟩ := symDir_numbered _ h1
    have e := ih h2
    rw [e0, show 2 * (k + dirs.length) + 1 = 2 * k + 1 + 2 * dirs.length by ring] at e
    rw [List.map_cons, List.sum_cons, Nat.mul_add]
    exact e1.append e

theorem displace_numbered {code : Code} {x : ℕ → FileArgs} {out : Str} {s : Cell ℚ} {sel : List ℕ} {E : ℕ} {d : ℚ} {p : Fin 3 → ℤ} {symFlag : Bool} {search : Run (List (ℕ × List (V3 ℚ)))}
    {c' : Cell ℚ} {ws : List Write} (h : traceDisplace code.name x out s sel E d p symFlag search = ⟨ws, .ok c'⟩) : ∃ N, Numbered out 1 N ws := by
  unfold traceDisplace at h
  by_cases hs : (symFlag && numPbc p == 2) = true
  · simp only [hs, if_true] at h
    cases search with
    | ok plan => exact ⟨_, symAtoms_numbered plan (k := 0) h⟩
    | error e => cases e <;> cases h
  · simp only [hs] at h
    exact ⟨_, atoms_numbered sel (i := 0) h⟩

theorem known_code {fs : Fs} {code path : Str} {u : Cell ℚ} (h : ofRaw (readFile fs code path).1 = .ok u) : ∃ c : Code, code = c.name := by
  by_cases h1 : code = "vasp".toList
  · exact ⟨.vasp, h1⟩
  by_cases h2 : code = "espresso".toList
  · exact ⟨.espresso, h2⟩
  by_cases h3 : code = "aims".toList
  · exact ⟨.aims, h3⟩
  exfalso
  unfold readFile readUnitCell at h
  simp only [if_neg h1, if_neg h2, if_neg h3] at h
  cases h

/-- A complete run writes the super cell, the displaced files with the numbers from 1 on, and the record. -/
theorem complete_writes {cwd : Str} {o : PreOpts} {x : ℕ → FileArgs} {junk : ℕ → List (V3 ℚ)} {search : Run (List (ℕ × List (V3 ℚ)))} {group : Run Str} {fs : Fs} {ws : List Write}
    (h : preTrace cwd o x junk search group fs = ⟨ws, .ok ()⟩) :
    ∃ t N v r, Numbered (absPath cwd o.unitcell) 1 N v ∧ ws = .text (superOf (absPath cwd o.unitcell)) t :: (v ++ [.record r]) := by
  unfold preTrace at h
  obtain ⟨_, h1, h⟩ := quiet_bind.1 h
  obtain ⟨_, h2, h⟩ := quiet_bind.1 h
  obtain ⟨_, -, h⟩ := quiet_bind.1 h
  obtain ⟨_, h3, h⟩ := quiet_bind.1 h
  obtain ⟨u, h4, h⟩ := quiet_bind.1 h
  obtain ⟨sel, h7, h⟩ := quiet_bind.1 h
  obtain ⟨s0, h5, h⟩ := quiet_bind.1 h
  obtain ⟨s, h6, h⟩ := quiet_bind.1 h
  obtain ⟨w1, _, w2, t1, h', e1⟩ := traced_done.1 h
  obtain ⟨d, h8, h'⟩ := quiet_bind.1 h'
  obtain ⟨pg, h9, h'⟩ := quiet_bind.1 h'
  obtain ⟨v1, c, v2, t2, h'', e2⟩ := traced_done.1 h'
  obtain ⟨rec', h11, h''⟩ := quiet_bind.1 h''
  cases h''
  obtain ⟨code, hcode⟩ := known_code h4
  rw [hcode] at t1 t2
  obtain ⟨t, rfl⟩ := traceTo_name t1
  obtain ⟨N, hN⟩ := displace_numbered t2
  exact ⟨t, N, v1, rec', hN, by rw [e1, e2]; rfl⟩

/-- What the writes leave at a path. -/
theorem texts_at (ws : List Write) (q : Str) : (∃ t, ∀ fs, texts fs ws q = some t) ∧ (∃ t, Write.text q t ∈ ws) ∨ (∀ fs, texts fs ws q = fs q) ∧ ∀ t, Write.text q t ∉ ws := by
  induction ws with
  | nil => exact .inr ⟨fun fs => rfl, fun t ht => by cases ht⟩
  | cons w ws ih =>
    have e : ∀ fs, texts fs (w :: ws) = texts (texts fs [w]) ws := fun fs => texts_append fs [w] ws
    rcases ih with ⟨⟨t, ht⟩, ⟨t', hm⟩⟩ | ⟨h, hn⟩
    · exact .inl ⟨⟨t, fun fs => by rw [e, ht]⟩, ⟨t', List.mem_cons_of_mem _ hm⟩⟩
    · cases w with
      | record r =>
        refine .inr ⟨fun fs => by rw [e, h]; rfl, fun t ht => ?_⟩
        rcases List.mem_cons.1 ht with hc | hc
        · cases hc
        · exact hn t hc
      | text p t =>
        by_cases hq : q = p
        · subst hq
          refine .inl ⟨⟨t, fun fs => ?_⟩, ⟨t, List.mem_cons_self ..⟩⟩
          rw [e, h]
          show put fs q t q = _
          rw [put, if_pos rfl]
        · refine .inr ⟨fun fs => ?_, fun t' ht => ?_⟩
          · rw [e, h]
            show put fs p t q = _
            rw [put, if_neg hq]
          · rcases List.mem_cons.1 ht with hc | hc
            · cases hc; exact hq rfl
            · exact hn t' hc

/-- **C137** (repeating the run).  Let the same job be done in a fresh directory and in one in which any number of jobs for the same unit-cell file were stopped or completed before.  Then it
completes in both, with the same record, and leaves the same `SUPERCELL` and the same numbered files 1 to `N`; all other files are as they were. -/
theorem C137_repeat {P : Job → Prop} {cwd : Str} {j : Job} (hn : baseName (absPath cwd j.o.unitcell) ≠ "SUPERCELL".toList) {d d' e : Disk} (h : Jobs P cwd (absPath cwd j.o.unitcell) d d')
    (hc : j.Completes cwd d e) : ∃ e' N, j.Completes cwd d' e' ∧ e'.record = e.record ∧ (∃ r, e.record = .complete r) ∧
      ∀ q, ((q = dirName (absPath cwd j.o.unitcell) ++ '/' :: "SUPERCELL".toList ∨ ∃ k, 1 ≤ k ∧ k ≤ N ∧ q = fileName (absPath cwd j.o.unitcell) k) ∧ e'.files q = e.files q ∧ e.files q ≠ none) ∨
        (q ≠ dirName (absPath cwd j.o.unitcell) ++ '/' :: "SUPERCELL".toList ∧ (∀ k, 1 ≤ k → k ≤ N → q ≠ fileName (absPath cwd j.o.unitcell) k) ∧ e'.files q = d'.files q ∧ e.files q = d.files q) := by
  obtain ⟨ws, ht, rfl⟩ := hc
  have hu := unit_kept h hn
  have ht' : j.trace cwd d' = ⟨ws, .ok ()⟩ := by
    rw [← ht]
    exact trace_congr _ _ _ _ hu
  obtain ⟨t, N, v, r, ⟨tk, rfl⟩, hws⟩ := complete_writes ht
  have hrec : ∀ d : Disk, (ws.foldl perform d).record = .complete r := by
    intro d
    rw [hws, ← List.cons_append, List.foldl_append]
    rfl
  refine ⟨ws.foldl perform d', N, ⟨ws, ht', rfl⟩, by rw [hrec, hrec], ⟨r, hrec d⟩, fun q => ?_⟩
  rw [foldl_files, foldl_files]
  have hmem : (∃ t, Write.text q t ∈ ws) ↔ (q = dirName (absPath cwd j.o.unitcell) ++ '/' :: "SUPERCELL".toList ∨ ∃ k, 1 ≤ k ∧ k ≤ N ∧ q = fileName (absPath cwd j.o.unitcell) k) := by
    rw [hws]
    constructor
    · rintro ⟨t', h'⟩
      rcases List.mem_cons.1 h' with h' | h'
      · cases h'; exact .inl rfl
      rcases List.mem_append.1 h' with h' | h'
      · obtain ⟨k, hk, e⟩ := List.mem_map.1 h'
        cases e
        exact .inr ⟨1 + k, by omega, by have := List.mem_range.1 hk; omega, rfl⟩
      · simp at h'
    · rintro (rfl | ⟨k, h1, h2, rfl⟩)
      · exact ⟨t, List.mem_cons_self ..⟩
      · refine ⟨tk (k - 1), List.mem_cons_of_mem _ (List.mem_append_left _ (List.mem_map.2 ⟨k - 1, List.mem_range.2 (by omega), ?_⟩))⟩
        rw [show 1 + (k - 1) = k by omega]
  rcases texts_at ws q with ⟨⟨t', h1⟩, h2⟩ | ⟨h1, h2⟩
  · exact .inl ⟨hmem.1 h2, by rw [h1, h1], by rw [h1]; exact Option.some_ne_none _⟩
  · refine .inr ⟨fun hq => ?_, fun k hk1 hk2 hq => ?_, h1 _, h1 _⟩
    · obtain ⟨t', h'⟩ := hmem.2 (.inl hq)
      exact h2 t' h'
    · obtain ⟨t', h'⟩ := hmem.2 (.inr ⟨k, hk1, hk2, hq⟩)
      exact h2 t' h'

/-- Complete runs of the job and of the program. -/
theorem completes_iff {j : Job} {cwd : Str} {d e : Disk} : j.Completes cwd d e ↔ ∃ rec, preMain cwd j.o j.x j.junk j.search j.group d.files = .ok (e.files, rec) ∧ e.record = .complete rec := by
  constructor
  · rintro ⟨ws, ht, rfl⟩
    obtain ⟨t, N, v, r, -, hws⟩ := complete_writes ht
    rw [← List.cons_append] at hws
    refine ⟨r, (C137_refines ..).2 ⟨_, hws ▸ ht, ?_⟩, ?_⟩
    · rw [hws, List.foldl_append]
      exact foldl_files _ d
    · rw [hws, List.foldl_append]; rfl
  · rintro ⟨rec, h, hr⟩
    obtain ⟨ws, ht, hf⟩ := (C137_refines ..).1 h
    refine ⟨_, ht, ?_⟩
    rw [List.foldl_append]
    cases e with
    | mk f r =>
      simp only at hf hr
      subst hr
      show (⟨f, _⟩ : Disk) = ⟨(ws.foldl perform d).files, .complete rec⟩
      rw [foldl_files, ← hf]

section
variable {cwd : Str} {o : PreOpts} {code : Code} {a : PreArg} {e p : List ℤ} {d : ℚ} {u : Cell ℚ} {sel : List ℕ} {x : ℕ → FileArgs} {junk : ℕ → List (V3 ℚ)}

theorem base_unit (hs : '/' ∉ o.unitcell) : baseName (absPath cwd o.unitcell) = o.unitcell := by
  rw [(paths hs).1]
  unfold baseName
  have e : (cwd ++ '/' :: o.unitcell).reverse = o.unitcell.reverse ++ '/' :: cwd.reverse := by simp
  rw [e, List.takeWhile_append_of_pos (by intro y hy; have : y ≠ '/' := (by rintro rfl; exact hs (by simpa using hy)); simpa using this)]
  simp

/-- The input of a run is still the same after any history. -/
theorem preRun_after {P : Job → Prop} {D D' : Disk} (h : PreRun cwd o code a e p d u sel x junk D.files) (hist : Jobs P cwd (absPath cwd o.unitcell) D D') :
    PreRun cwd o code a e p d u sel x junk D'.files := by
  refine { h with read := ?_ }
  obtain ⟨r, h1, h2⟩ := h.read
  exact ⟨r, by rw [← h1]; exact readFile_congr _ (unit_kept hist (by rw [base_unit h.slash]; exact h.name)), h2⟩

/-- **C137** (partial).  After any history of jobs for the same unit-cell file, stopped at any moment, a complete run leaves a record and files that fit together: the displaced files are
the super cell in `SUPERCELL` with one coordinate of one selected atom displaced by the recorded displacement.  (Missing: without a complete run at the end an old record may be found beside
new files, see `C137_refuted`.) -/
theorem C137_describes_partial {P : Job → Prop} {D D' : Disk} (h : PreRun cwd o code a e p d u sel x junk D.files) (hdec : DecCell u) (hd16 : Dec16 d)
    (search : Run (List (ℕ × List (V3 ℚ)))) (group : Run Str) (hist : Jobs P cwd (absPath cwd o.unitcell) D D') :
    ∃ E rec sup, (Job.mk o x junk search group).Completes cwd D' E ∧ E.record = .complete rec ∧ rec.displacement = some d ∧ rec.dft = code.name ∧
      Holds E.files code (superOf (absPath cwd o.unitcell)) sup ∧
      ∀ k < 6 * sel.length, ∃ dis v, Holds E.files code (fileName (absPath cwd o.unitcell) (k + 1)) dis ∧
        (∀ r, r ≠ (e.getD 0 0 * e.getD 1 0 * e.getD 2 0).toNat * sel.getD (k / 6) 0 → dis.cart[r]? = sup.cart[r]?) ∧
        sup.cart[(e.getD 0 0 * e.getD 1 0 * e.getD 2 0).toNat * sel.getD (k / 6) 0]? = some v ∧
        dis.cart[(e.getD 0 0 * e.getD 1 0 * e.getD 2 0).toNat * sel.getD (k / 6) 0]? =
          some fun c : Fin 3 => if (c : ℕ) = k % 6 / 2 then v c + (if k % 2 = 0 then d else -d) else v c := by
  have h' := preRun_after h hist
  obtain ⟨fs1, rec, _, _, _, hpre, hrec, -⟩ := C118_preprocess h' search group
  obtain ⟨sup, hsup, -, -, -, hfiles⟩ := C118_files h' hdec hd16 search group hpre
  have hsp : superOf (absPath cwd o.unitcell) = cwd ++ '/' :: "SUPERCELL".toList := (paths h.slash).2.2
  refine ⟨⟨fs1, .complete rec⟩, rec, sup, completes_iff.2 ⟨rec, hpre, rfl⟩, rfl, ?_, ?_, by rw [hsp]; exact hsup, fun k hk => ?_⟩
  · unfold preRecord at hrec
    rw [h.enlargement, h.periodicity] at hrec
    cases hrec
    exact h.displacement
  · unfold preRecord at hrec
    rw [h.enlargement, h.periodicity] at hrec
    cases hrec
    exact h.code
  · obtain ⟨dis, v, g1, -, -, g2, g3, g4⟩ := hfiles k hk
    exact ⟨dis, v, by rw [(paths h.slash).1]; exact g1, g2, g3, g4⟩

/-- **C137** (to the end).  After any history of stopped and completed jobs for the same unit-cell file, a complete run, calculations and the post-process give the exact phonons of the
harmonic crystal. -/
theorem C137_exact {P : Job → Prop} {D D' : Disk} (h : PreRun cwd o code a e p d u sel x junk D.files) (hist : Jobs P cwd (absPath cwd o.unitcell) D D')
    (hd : d ≠ 0) (hdet : u.lattice.det ≠ 0) (hxyz : u.xyzTrue = some (sel.flatMap fun a => [a, a, a])) (hdec : DecCell u) (hd16 : Dec16 d)
    (Φ : Springs) (hΦ : ∀ a x b y l, l ∈ (Φ a x b y).support → ∀ i : Fin 3, p.getD i 0 = 0 → l i = 0) (F0 : Rows ℝ)
    (search : Run (List (ℕ × List (V3 ℚ)))) (group : Run Str) {S : PostProcess.Solver} (hS : IsSolver S) (j : Junk) :
    ∃ E rec, (Job.mk o x junk search group).Completes cwd D' E ∧ E.record = .complete rec ∧
      ∀ (fs2 : Fs) (glob : Str → List Str) (args force : List Str), forceFiles glob args = .ok force →
        Calculated code cwd o.unitcell E.files fs2 (superSprings (fun i => e.getD i 0) (e.getD 0 0 * e.getD 1 0 * e.getD 2 0).toNat Φ) F0 (6 * sel.length) force →
        ∀ (kband t : Str) (ks : List (V3 ℚ)) (auto : List ℤ), fs2 (absPath cwd kband) = some t →
          KPoints.setKPoints (readlines t) (fun c => decide (p.getD c 0 ≠ 0)) = .ok (ks, auto) → 2 ≤ ks.length →
          ∃ obj rows mass, bandMain S j cwd {} rec glob args kband search fs2 = .ok (obj, rows) ∧ IsMasses u sel mass ∧ rows.length = ks.length ∧
            ∀ (i : ℕ) (k : V3 ℚ), ks[i]? = some k → Fits (fun i => e.getD i 0) (fun i => p.getD i 0) (toReal k) →
              ∃ len row q, rows[i]? = some (len, row) ∧ (∀ c, dot3 q ((toR u).lattice c) = 2 * Real.pi * (k c : ℝ)) ∧
                IsSpectrum (trueDyn (toR u) sel mass Φ q (3 * sel.length)) row := by
  obtain ⟨fs1, rec, hpre, hmain⟩ := C118_end_to_end (preRun_after h hist) hd hdet hxyz hdec hd16 Φ hΦ F0 search group hS j
  exact ⟨⟨fs1, .complete rec⟩, rec, completes_iff.2 ⟨rec, hpre, rfl⟩, rfl, hmain⟩

end

/-! ### An old record beside new files -/

/-- A run for the chain with the displacement `t`. -/
def chainJob (t : Str) : Job := ⟨{ chainOpts with sym := false, displacement := t }, fun _ => chainArgs, fun m => List.replicate m 0, .ok [], .ok []⟩

/-- Stopped after some of the writes. -/
theorem interrupted_prefix (v w : List Write) (d : Disk) : Interrupted (v ++ w) d (v.foldl perform d) := by
  induction v generalizing d with
  | nil => exact .before w d
  | cons a v ih => exact .later (ih _)

theorem chain_job_run (t : Str) (δ : ℚ) (h : okState (setUserArgument {} (chainJob t).o.dict) = some ⟨some δ, some [2, 1, 1], some [1, 0, 0]⟩) :
    PreRun "/w".toList (chainJob t).o .vasp ⟨some δ, some [2, 1, 1], some [1, 0, 0]⟩ [2, 1, 1] [1, 0, 0] δ chainUnit [0] (fun _ => chainArgs)
      (fun m => List.replicate m 0) chainFs := { chain_preRun with noSym := rfl, args := h, displacement := rfl }

/-- **C137** (full statement refuted).  After a complete run with displacement 0.02 a second run with 0.03 is stopped after its second file: the record says 0.02, the file is displaced by 0.03. -/
theorem C137_refuted : ¬ C137_full := by
  intro hfull
  have h2 := chain_job_run "0.02".toList (1 / 50) (by decide +kernel)
  have h3 := chain_job_run "0.03".toList (3 / 100) (by decide +kernel)
  obtain ⟨E, rec, -, hE, hrec, hdisp, hdft, -⟩ := C137_describes_partial (D := ⟨chainFs, .missing⟩) h2 chain_dec ⟨2 * 10 ^ 14, by norm_num⟩ (.ok []) (.ok [])
    (.none (P := fun j => j.o.sym = false) _)
  have hE' : (chainJob "0.02".toList).Completes "/w".toList ⟨chainFs, .missing⟩ E := hE
  have hs : (chainJob "0.02".toList).Stops "/w".toList ⟨chainFs, .missing⟩ E := by
    obtain ⟨ws, e1, rfl⟩ := hE'
    unfold Job.Stops
    rw [e1]
    simpa using interrupted_prefix ws [] ⟨chainFs, .missing⟩
  have hist : Jobs (fun j => j.o.sym = false) "/w".toList (absPath "/w".toList (chainJob "0.03".toList).o.unitcell) ⟨chainFs, .missing⟩ E := .one (.none _) (chainJob "0.02".toList) rfl rfl hs
  obtain ⟨E2, -, sup, hE2, -, -, -, hsup, hfiles⟩ := C137_describes_partial (D := ⟨chainFs, .missing⟩) h3 chain_dec ⟨3 * 10 ^ 14, by norm_num⟩ (.ok []) (.ok []) hist
  obtain ⟨dis, v, hdis, hother, hv, hw⟩ := hfiles 0 (by decide)
  obtain ⟨ws, ht, hE2f⟩ := hE2
  obtain ⟨t, N, vs, r, ⟨tk, hvs⟩, hws⟩ := complete_writes ht
  rw [← List.cons_append] at hws
  have hrec' : ((Write.text (superOf (absPath "/w".toList (chainJob "0.03".toList).o.unitcell)) t :: vs).foldl perform E).record = E.record := by
    refine (foldl_texts (Q := fun _ => True) _ (fun w hw => ?_) E).1
    rw [hvs] at hw
    rcases List.mem_cons.1 hw with hw | hw
    · exact ⟨_, _, trivial, hw⟩
    · obtain ⟨k, -, e⟩ := List.mem_map.1 hw
      exact ⟨_, _, trivial, e.symm⟩
  have hfil : ((Write.text (superOf (absPath "/w".toList (chainJob "0.03".toList).o.unitcell)) t :: vs).foldl perform E).files = E2.files := by
    rw [hE2f, hws, List.foldl_append]; rfl
  obtain ⟨row, v', w', a1, a2, c, a3⟩ := hfull "/w".toList "/w/POSCAR".toList ⟨chainFs, .missing⟩ ((Write.text (superOf (absPath "/w".toList (chainJob "0.03".toList).o.unitcell)) t :: vs).foldl perform E)
    rfl (by
      rintro q (rfl | ⟨k, rfl⟩)
      · decide +kernel
      · have h0 : chainFs (fileName "/w/POSCAR".toList k) = none := by rw [chainFs, if_neg (file_ne_unit _ k)]
        exact h0) (.one hist (chainJob "0.03".toList) rfl rfl (by
      have ht' : (chainJob "0.03".toList).trace "/w".toList E = ⟨ws, .ok ()⟩ := ht
      unfold Job.Stops
      rw [ht', hws]
      exact interrupted_prefix _ _ _))
    rec (1 / 50) .vasp sup dis (by rw [hrec']; exact hrec) hdisp hdft (by rw [hfil]; exact hsup) (by rw [hfil]; exact hdis)
  by_cases hr : row = 0
  · subst hr
    have b1 : sup.cart[0]? = some v := hv
    have b2 : dis.cart[0]? = some fun c : Fin 3 => if (c : ℕ) = 0 % 6 / 2 then v c + (if 0 % 2 = 0 then 3 / 100 else -(3 / 100)) else v c := hw
    rw [b1] at a1
    rw [b2] at a2
    cases a1
    cases a2
    beta_reduce at a3
    split at a3
    · norm_num at a3
    · norm_num at a3
  · have := hother row (by simpa using hr)
    rw [a1, a2] at this
    cases this
    norm_num at a3

/-- A history: a job stopped while it writes its first file, so that `SUPERCELL` is empty. -/
theorem chain_stopped : ∃ D', Jobs (fun _ => True) "/w".toList "/w/POSCAR".toList ⟨chainFs, .missing⟩ D' ∧ D'.files "/w/SUPERCELL".toList = some [] := by
  obtain ⟨E, rec, -, ⟨ws, ht, -⟩, -⟩ := C137_describes_partial (D := ⟨chainFs, .missing⟩) (chain_job_run "0.03".toList (3 / 100) (by decide +kernel)) chain_dec ⟨3 * 10 ^ 14, by norm_num⟩
    (.ok []) (.ok []) (.none (P := fun _ => True) _)
  obtain ⟨t, N, vs, r, -, hws⟩ := complete_writes ht
  refine ⟨{ files := put chainFs "/w/SUPERCELL".toList [], record := .missing }, .one (.none _) (chainJob "0.03".toList) trivial rfl ?_, by decide +kernel⟩
  have ht' : (chainJob "0.03".toList).trace "/w".toList ⟨chainFs, .missing⟩ = ⟨ws, .ok ()⟩ := ht
  unfold Job.Stops
  rw [ht', hws]
  exact Interrupted.inText List.nil_prefix _ _

/-- The hypotheses of `C137_repeat` and `C137_record_last` are met: after the interruption the job with displacement 0.02 completes and replaces the empty `SUPERCELL`. -/
example : ∃ D' E' r, Jobs (fun _ => True) "/w".toList "/w/POSCAR".toList ⟨chainFs, .missing⟩ D' ∧ D'.files "/w/SUPERCELL".toList = some [] ∧
    (chainJob "0.02".toList).Completes "/w".toList D' E' ∧ E'.record = .complete r ∧ r.displacement = some (1 / 50) ∧ E'.files "/w/SUPERCELL".toList ≠ some [] := by
  obtain ⟨D', h, h0⟩ := chain_stopped
  obtain ⟨E', r, sup, h1, h2, h3, -, ⟨raw, h4, h5⟩, -⟩ := C137_describes_partial (D := ⟨chainFs, .missing⟩) (chain_job_run "0.02".toList (1 / 50) (by decide +kernel)) chain_dec ⟨2 * 10 ^ 14, by norm_num⟩
    (.ok []) (.ok []) h
  refine ⟨D', E', r, h, h0, h1, h2, h3, fun e => ?_⟩
  have e1 : readFile E'.files Code.vasp.name (superOf (absPath "/w".toList (chainJob "0.02".toList).o.unitcell)) = readFile (fun _ => some []) Code.vasp.name [] := by
    have : E'.files (superOf (absPath "/w".toList (chainJob "0.02".toList).o.unitcell)) = some [] := e
    unfold readFile load
    rw [this]
  rw [e1] at h4
  have e2 : (readFile (fun _ => some []) Code.vasp.name []).2.isNone = false := by decide +kernel
  rw [h4] at e2
  cases e2

/-! ### The post-process notices the old record -/

/-- **C137** (an old record is noticed).  Let the record come from a run with displacement `d1`, the structures from one with `d2` (everything else being the same), and let the calculations be done for
these structures.  If the post-process ends without an exception, then `d1` and `d2` differ by at most the tolerance of the comparison, at every displaced coordinate. -/
theorem C137_noticed {cwd : Str} {o1 o2 : PreOpts} {code : Code} {a1 a2 : PreArg} {e p : List ℤ} {d1 d2 : ℚ} {u : Cell ℚ} {sel : List ℕ} {x : ℕ → FileArgs} {junk : ℕ → List (V3 ℚ)}
    {D1 D2 E1 E2 : Disk} (h1 : PreRun cwd o1 code a1 e p d1 u sel x junk D1.files) (h2 : PreRun cwd o2 code a2 e p d2 u sel x junk D2.files) (hu : o1.unitcell = o2.unitcell)
    (hdec : DecCell u) (hd16 : Dec16 d2) (search : Run (List (ℕ × List (V3 ℚ)))) (group : Run Str) (c1 : (Job.mk o1 x junk search group).Completes cwd D1 E1)
    (c2 : (Job.mk o2 x junk search group).Completes cwd D2 E2) {rec : PreRecord} (hrec : E1.record = .complete rec)
    (fs : Fs) (glob : Str → List Str) (args force : List Str) (hforce : forceFiles glob args = .ok force) (hunit : fs (absPath cwd o2.unitcell) = E2.files (absPath cwd o2.unitcell))
    (hsuper : fs (superOf (absPath cwd o2.unitcell)) = E2.files (superOf (absPath cwd o2.unitcell)))
    (hcopy : ∀ (k : ℕ) (f : Str), force[k]? = some f → fs (dirName f ++ '/' :: o2.unitcell) = E2.files (fileName (absPath cwd o2.unitcell) (k + 1)))
    (S : PostProcess.Solver) (j : Junk) (kband : Str) (res : Object × List (ℝ × List ℝ)) (hb : bandMain S j cwd {} rec glob args kband search fs = .ok res) :
    ∃ sup, Holds E2.files code (superOf (absPath cwd o2.unitcell)) sup ∧ ∀ (i t : ℕ), sel[i]? = some t →
      ∃ v, sup.cart[(e.getD 0 0 * e.getD 1 0 * e.getD 2 0).toNat * t]? = some v ∧ ∀ c : Fin 3, |d1 - d2| ≤ 1 / 10 ^ 8 + 1 / 10 ^ 5 * |v c + d2| ∧ |d1 - d2| ≤ 1 / 10 ^ 8 + 1 / 10 ^ 5 * |v c - d2| := by
  obtain ⟨rec1, m1, m1r⟩ := completes_iff.1 c1
  obtain ⟨rec2, m2, m2r⟩ := completes_iff.1 c2
  rw [hrec] at m1r
  cases m1r
  obtain ⟨_, recA, _, _, _, hpre, hrec1, -⟩ := C118_preprocess h1 search group
  have m1' : preMain cwd o1 x junk search group D1.files = .ok (E1.files, rec) := m1
  rw [m1'] at hpre
  cases hpre
  obtain ⟨_, recB, _, _, _, hpre2, -, -, -, -, -, -, hkeep⟩ := C118_preprocess h2 search group
  have m2' : preMain cwd o2 x junk search group D2.files = .ok (E2.files, rec2) := m2
  rw [m2'] at hpre2
  cases hpre2
  obtain ⟨sup, hsup, hlat, hlen, -, hfiles⟩ := C118_files h2 hdec hd16 search group m2'
  have hp := paths (cwd := cwd) h2.slash
  obtain ⟨hdict, hdft⟩ := C76_default_arguments_partial cwd cwd o1 {} {} a1 none rec h1.args (by rw [h1.displacement]; simp) hrec1
  have hfl := C76_files_partial cwd o1 a1 none rec h1.slash hrec1
  have hsym : (postResolve cwd {} rec).sym = false := by
    rw [C78_sym_flag_agrees cwd cwd o1 a1 (fun i => p.getD i 0) (.ok []) none rec (by unfold prePointGroup; rw [h1.noSym]; rfl) hrec1 {}]
    exact h1.noSym
  have hunit2 : (postResolve cwd {} rec).unitCellFile = absPath cwd o2.unitcell := by rw [← hu]; exact congrArg Prod.fst hfl
  have hsuper2 : (postResolve cwd {} rec).superCellFile = superOf (absPath cwd o2.unitcell) := by rw [← hu]; exact congrArg Prod.snd hfl
  obtain ⟨force', code', e', p', d', u', s', sel', hf', hg, -⟩ := C122_band S j cwd {} rec glob args kband search fs res hb
  rw [hforce] at hf'
  cases hf'
  have ha : a1 = ⟨some d', some e', some p'⟩ := by
    have := hg.args
    rw [hdict] at this
    cases this
    rfl
  have hd : d' = d1 := by have := h1.displacement; rw [ha] at this; cases this; rfl
  have he : e' = e := by have := h1.enlargement; rw [ha] at this; cases this; rfl
  have hcode : code' = code := by
    have : code'.name = code.name := by rw [← hg.format, hdft]; exact h1.code
    cases code <;> cases code' <;> first | rfl | exact absurd this (by decide)
  subst hd he hcode
  have hholds : ∀ {q q' : Str} {c : Cell ℚ}, fs q = E2.files q' → Holds fs code' q c → Holds E2.files code' q' c := by
    rintro q q' c hq ⟨r, g1, g2⟩
    exact ⟨r, by rw [← g1]; exact (readFile_congr _ hq).symm, g2⟩
  have hD : E2.files (absPath cwd o2.unitcell) = D2.files (absPath cwd o2.unitcell) := by
    refine hkeep _ ?_ fun k _ _ => ?_
    · rw [hp.1]
      intro hh
      exact h2.name (List.cons.inj (List.append_cancel_left hh)).2
    · rw [hp.1]; exact (file_ne_unit _ k).symm
  have hu' : u' = u := by
    have g := hg.unit
    rw [hunit2] at g
    obtain ⟨r, g1, g2⟩ := h2.read
    refine (hholds hunit g).unique ⟨r, ?_, g2⟩
    rw [← g1, h2.code]
    exact readFile_congr _ hD
  have hs' : s' = sup := by
    have g := hg.super
    rw [hsuper2] at g
    refine (hholds hsuper g).unique ?_
    have e0 : superOf (absPath cwd o2.unitcell) = cwd ++ '/' :: "SUPERCELL".toList := hp.2.2
    rw [e0]
    exact hsup
  subst hu' hs'
  have hsel : sel' = sel := by
    have := hg.selected
    rw [h2.unit.selected] at this
    cases this
    rfl
  subst hsel
  have e0 : superOf (absPath cwd o2.unitcell) = cwd ++ '/' :: "SUPERCELL".toList := hp.2.2
  refine ⟨s', by rw [e0]; exact hsup, fun i t hi => ?_⟩
  have hget : sel'.getD i 0 = t := by rw [List.getD_eq_getElem?_getD, hi]; rfl
  have hil : i < sel'.length := (List.getElem?_eq_some_iff.1 hi).1
  have key : ∀ (c : Fin 3) (back : Bool), ∃ v, s'.cart[(e'.getD 0 0 * e'.getD 1 0 * e'.getD 2 0).toNat * t]? = some v ∧
      |(if back then -d' else d') - (if back then -d2 else d2)| ≤ 1 / 10 ^ 8 + 1 / 10 ^ 5 * |v c + (if back then -d2 else d2)| := by
    intro c back
    obtain ⟨f, cc, hf, hc, hcl, hmv⟩ := hg.moved hsym i t c back hi
    have hb6 : (if back then 1 else 0) < 2 := by cases back <;> decide
    have hk : 6 * i + 2 * (c : ℕ) + (if back then 1 else 0) < 6 * sel'.length := by have := c.2; omega
    obtain ⟨dis, v, g1, -, -, g2, g3, g4⟩ := hfiles _ hk
    have hdiv : (6 * i + 2 * (c : ℕ) + (if back then 1 else 0)) / 6 = i := by have := c.2; omega
    have hmod : (6 * i + 2 * (c : ℕ) + (if back then 1 else 0)) % 6 / 2 = c := by have := c.2; omega
    rw [hdiv, hget] at g2 g3 g4
    rw [hmod] at g4
    have hpar : (6 * i + 2 * (c : ℕ) + (if back then 1 else 0)) % 2 = if back then 1 else 0 := by omega
    rw [hpar] at g4
    have hc' : cc = dis := by
      rw [hunit2, base_unit h2.slash] at hc
      have := hholds (hcopy _ f hf) hc
      rw [hp.1] at this
      exact this.unique g1
    subst hc'
    refine ⟨v, g3, ?_⟩
    have := hmv _ v _ g3 g4 c
    rw [if_pos ⟨rfl, rfl⟩] at this
    rw [if_pos rfl] at this
    cases back
    · simp only [Bool.false_eq_true, if_false, if_true] at this ⊢
      have e : v c + d' - (v c + d2) = d' - d2 := by ring
      rwa [e] at this
    · simp only [if_true, one_ne_zero, if_false] at this ⊢
      have e : v c + -d' - (v c + -d2) = -d' - -d2 := by ring
      rwa [e] at this
  obtain ⟨v, hv, -⟩ := key 0 false
  refine ⟨v, hv, fun c => ⟨?_, ?_⟩⟩
  · obtain ⟨v', hv', h⟩ := key c false
    rw [hv] at hv'
    cases hv'
    simpa using h
  · obtain ⟨v', hv', h⟩ := key c true
    rw [hv] at hv'
    cases hv'
    have e : -d' - -d2 = -(d' - d2) := by ring
    simp only [if_true] at h
    rw [e, abs_neg] at h
    rw [sub_eq_add_neg (v c)]
    exact h

/-- The stopped run of `C137_refuted` is noticed: with the record of the run with 0.02 and the structures of the run with 0.03 the post-process fails, whatever forces have been calculated. -/
example (E1 E2 : Disk) (rec : PreRecord) (c1 : (chainJob "0.02".toList).Completes "/w".toList ⟨chainFs, .missing⟩ E1) (hrec : E1.record = .complete rec)
    (c2 : (chainJob "0.03".toList).Completes "/w".toList E1 E2) (fs : Fs) (glob : Str → List Str) (args force : List Str) (hforce : forceFiles glob args = .ok force)
    (hunit : fs "/w/POSCAR".toList = E2.files "/w/POSCAR".toList) (hsuper : fs "/w/SUPERCELL".toList = E2.files "/w/SUPERCELL".toList)
    (hcopy : ∀ (k : ℕ) (f : Str), force[k]? = some f → fs (dirName f ++ "/POSCAR".toList) = E2.files (fileName "/w/POSCAR".toList (k + 1)))
    (S : PostProcess.Solver) (j : Junk) (kband : Str) (res : Object × List (ℝ × List ℝ)) : bandMain S j "/w".toList {} rec glob args kband (.ok []) fs ≠ .ok res := by
  intro hb
  have h2 := chain_job_run "0.02".toList (1 / 50) (by decide +kernel)
  have h3 := chain_job_run "0.03".toList (3 / 100) (by decide +kernel)
  have hs : (chainJob "0.02".toList).Stops "/w".toList ⟨chainFs, .missing⟩ E1 := by
    obtain ⟨ws, e1, rfl⟩ := c1
    unfold Job.Stops
    rw [e1]
    simpa using interrupted_prefix ws [] ⟨chainFs, .missing⟩
  have hist : Jobs (fun j => j.o.sym = false) "/w".toList (absPath "/w".toList (chainJob "0.03".toList).o.unitcell) ⟨chainFs, .missing⟩ E1 := .one (.none _) (chainJob "0.02".toList) rfl rfl hs
  have h3' := preRun_after (D := ⟨chainFs, .missing⟩) h3 hist
  obtain ⟨sup, hsup, hall⟩ := C137_noticed (D1 := ⟨chainFs, .missing⟩) h2 h3' rfl chain_dec ⟨3 * 10 ^ 14, by norm_num⟩ (.ok []) (.ok []) c1 c2 hrec fs glob args force hforce hunit hsuper hcopy S j kband res hb
  obtain ⟨v, hv, hc⟩ := hall 0 0 rfl
  obtain ⟨rec2, m2, -⟩ := completes_iff.1 c2
  have m2' : preMain "/w".toList (chainJob "0.03".toList).o (fun _ => chainArgs) (fun m => List.replicate m 0) (.ok []) (.ok []) E1.files = .ok (E2.files, rec2) := m2
  obtain ⟨sup', hsup', -, -, htr, -⟩ := C118_files h3' chain_dec ⟨3 * 10 ^ 14, by norm_num⟩ (.ok []) (.ok []) m2'
  have : sup' = sup := hsup'.unique hsup
  subst this
  have h0 := htr 0 _ (show chainUnit.cart[0]? = some _ from rfl) 0 0 0 (by decide) (by decide) (by decide)
  have hv' : sup'.cart[0]? = some v := hv
  have h0' : sup'.cart[0]? = some _ := h0
  rw [hv'] at h0'
  cases h0'
  have := (hc 0).1
  simp only [translate, chainUnit] at this
  norm_num at this

end
end Interphon.Props
