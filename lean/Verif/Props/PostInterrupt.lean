import Verif.Model.PostTrace
import Verif.Props.Interrupt
import Verif.Props.Output
import Verif.Props.ProgramDosExample

/-! # C138: the files of the post-process -/

namespace Interphon.Props
open Py Interphon Interphon.UnitCell Interphon.SuperCell Interphon.PreProcess Interphon.Args Interphon.Inout Interphon.Cli Interphon.Main Interphon.PostProcess Interphon.Phonon Interphon.ForceConstant

noncomputable section

/-! ### Specification -/

/-- The files the post-process may write, in the directory of the unit cell and in the working directory. -/
def IsResult (cwd dir q : Str) : Prop :=
  q = dir ++ "/total_dos.dat".toList ∨ q = dir ++ "/projected_dos.dat".toList ∨ q = dir ++ "/thermal_properties.dat".toList ∨ q = dir ++ "/band.dat".toList ∨
    q = cwd ++ "/freqency_at_gamma_point.dat".toList ∨ q = cwd ++ "/dos.png".toList ∨ q = cwd ++ "/thermal_properties.png".toList ∨ q = cwd ++ "/band.png".toList ∨
    q = cwd ++ "/band_dos.png".toList ∨ q = cwd ++ "/post_process.yaml".toList

/-- A call of the post-process: options, record, output files, what is asked for, and what cannot be known. -/
structure PostJob where
  S : PostProcess.Solver
  A : Argsorts
  j : Junk
  j' : Junk
  fl : ℝ → ℚ
  pic : Pictures
  yaml : Str
  o : PostOpts
  r : PreRecord
  glob : Str → List Str
  forceArgs : List Str
  dos : Option DosRequest
  band : Option Str
  search : Run (List (ℕ × List (V3 ℚ)))

/-- The writes and the outcome of the job. -/
def PostJob.trace (J : PostJob) (cwd : Str) (fs : Fs) : Traced Unit :=
  postTrace J.S J.A J.j J.j' J.fl J.pic J.yaml cwd J.o J.r J.glob J.forceArgs J.dos J.band J.search fs

/-- The directory of the unit cell. -/
def PostJob.dir (J : PostJob) (cwd : Str) : Str := dirName (postResolve cwd J.o J.r).unitCellFile

/-- Any number of post-process jobs, each of them complete or stopped at some moment. -/
inductive PostJobs (cwd dir : Str) : Disk → Disk → Prop
  | none (d : Disk) : PostJobs cwd dir d d
  | one {d d' d'' : Disk} (h : PostJobs cwd dir d d') (J : PostJob) (hd : J.dir cwd = dir) (hs : Interrupted (J.trace cwd d'.files).writes d' d'') : PostJobs cwd dir d d''

/-- The files the job reads. -/
def PostJob.Reads (J : PostJob) (cwd q : Str) : Prop :=
  q = (postResolve cwd J.o J.r).unitCellFile ∨ q = (postResolve cwd J.o J.r).superCellFile ∨ (∃ x, J.dos = some x ∧ q = absPath cwd x.kfile) ∨ (∃ k, J.band = some k ∧ q = absPath cwd k) ∨
    ∃ force f, forceFiles J.glob J.forceArgs = .ok force ∧ f ∈ force ∧ (q = f ∨ q = dirName f ++ '/' :: baseName (postResolve cwd J.o J.r).unitCellFile)

/-! ### Which files are written -/

theorem only_picture {P : Write → Prop} (path : Str) (h : ∀ t, P (.text path t)) (r : Run (Option Str)) : Only P (picture path r) := by
  unfold picture
  intro w hw
  cases r with
  | error e => cases hw
  | ok r => cases r with
    | none => cases hw
    | some t =>
      have : w = .text path t := by simpa using hw
      rw [this]; exact h t

theorem only_list {P : Write → Prop} {α : Type} (ws : List Write) (a : Run α) (h : ∀ w ∈ ws, P w) : Only P (⟨ws, a⟩ : Traced α) := h

theorem Only.mono {α : Type} {P Q : Write → Prop} {t : Traced α} (h : Only P t) (hPQ : ∀ w, P w → Q w) : Only Q t := fun w hw => hPQ w (h w hw)

theorem only_phonons (S : PostProcess.Solver) (fl : ℝ → ℚ) (cwd : Str) (fs : Fs) (kfile : Str) (o : Object) :
    Only (IsText fun q => q = cwd ++ "/freqency_at_gamma_point.dat".toList) (phononsTrace S fl cwd fs kfile o) := by
  unfold phononsTrace
  refine (Only.quiet _).bind fun o2 => ?_
  split
  · exact only_list _ _ fun w hw => ⟨_, _, rfl, by simpa using hw⟩
  · exact Only.pure _

theorem only_dosWrite {Q : Str → Prop} (fl : ℝ → ℚ) (dir : Str) (sigma : ℚ) (xyz : List ℕ) (s : Dos.State) (h1 : Q (dir ++ "/total_dos.dat".toList)) (h2 : Q (dir ++ "/projected_dos.dat".toList)) :
    Only (IsText Q) (dosWrite fl dir sigma xyz s) := by
  unfold dosWrite
  split <;>
  · refine only_list _ _ fun w hw => ?_
    simp only [List.mem_cons, List.not_mem_nil, or_false] at hw
    rcases hw with rfl | rfl
    · exact ⟨_, _, h1, rfl⟩
    · exact ⟨_, _, h2, rfl⟩

theorem only_dos {Q : Str → Prop} (S : PostProcess.Solver) (A : Argsorts) (j : Junk) (fl : ℝ → ℚ) (pic : Pictures) (cwd : Str) (a : PostArgs) (force : List Str)
    (search : Run (List (ℕ × List (V3 ℚ)))) (q : DosRequest) (fs : Fs) (h1 : Q (cwd ++ "/freqency_at_gamma_point.dat".toList)) (h2 : Q (dirName a.unitCellFile ++ "/total_dos.dat".toList))
    (h3 : Q (dirName a.unitCellFile ++ "/projected_dos.dat".toList)) (h4 : Q (cwd ++ "/dos.png".toList)) (h5 : Q (dirName a.unitCellFile ++ "/thermal_properties.dat".toList))
    (h6 : Q (cwd ++ "/thermal_properties.png".toList)) : Only (IsText Q) (dosTrace S A j fl pic cwd a force search q fs) := by
  unfold dosTrace
  refine (Only.quiet _).bind fun P => Only.bind ?_ fun o2 => (Only.quiet _).bind fun s => Only.bind ?_ fun _ => Only.bind ?_ fun _ => Only.bind ?_ fun _ => Only.pure _
  · refine (only_phonons S fl cwd fs _ _).mono ?_
    rintro w ⟨q, t, rfl, rfl⟩
    exact ⟨_, _, h1, rfl⟩
  · exact only_dosWrite _ _ _ _ _ h2 h3
  · exact only_picture _ (fun t => ⟨_, _, h4, rfl⟩) _
  · cases q.temp with
    | none => exact Only.pure _
    | some t =>
      refine Only.bind (only_list _ _ fun w hw => ?_) fun _ => only_picture _ (fun t => ⟨_, _, h6, rfl⟩) _
      simp only [thermalWrites, List.mem_cons, List.not_mem_nil, or_false] at hw
      subst hw
      exact ⟨_, _, h5, rfl⟩

theorem only_dos' (S : PostProcess.Solver) (A : Argsorts) (j : Junk) (fl : ℝ → ℚ) (pic : Pictures) (cwd : Str) (a : PostArgs) (force : List Str) (search : Run (List (ℕ × List (V3 ℚ))))
    (q : DosRequest) (fs : Fs) : Only (IsText (IsResult cwd (dirName a.unitCellFile))) (dosTrace S A j fl pic cwd a force search q fs) :=
  only_dos S A j fl pic cwd a force search q fs (.inr (.inr (.inr (.inr (.inl rfl))))) (.inl rfl) (.inr (.inl rfl)) (.inr (.inr (.inr (.inr (.inr (.inl rfl)))))) (.inr (.inr (.inl rfl)))
    (.inr (.inr (.inr (.inr (.inr (.inr (.inl rfl)))))))

theorem only_band {Q : Str → Prop} (S : PostProcess.Solver) (j : Junk) (fl : ℝ → ℚ) (pic : Pictures) (cwd : Str) (a : PostArgs) (force : List Str) (search : Run (List (ℕ × List (V3 ℚ))))
    (kband : Str) (P0 : Option Process) (fs : Fs) (h1 : Q (cwd ++ "/freqency_at_gamma_point.dat".toList)) (h2 : Q (dirName a.unitCellFile ++ "/band.dat".toList))
    (h3 : Q (cwd ++ "/band.png".toList)) (h4 : Q (cwd ++ "/band_dos.png".toList)) : Only (IsText Q) (bandTrace S j fl pic cwd a force search kband P0 fs) := by
  unfold bandTrace
  refine (Only.quiet _).bind fun P => Only.bind ?_ fun o2 => (Only.quiet _).bind fun s => Only.bind ?_ fun _ => Only.bind ?_ fun _ => ?_
  · refine (only_phonons S fl cwd fs _ _).mono ?_
    rintro w ⟨q, t, rfl, rfl⟩
    exact ⟨_, _, h1, rfl⟩
  · refine only_list _ _ fun w hw => ?_
    simp only [bandWrites, List.mem_cons, List.not_mem_nil, or_false] at hw
    subst hw
    exact ⟨_, _, h2, rfl⟩
  · exact only_picture _ (fun t => ⟨_, _, h3, rfl⟩) _
  · split
    · exact only_picture _ (fun t => ⟨_, _, h4, rfl⟩) _
    · exact Only.pure _

theorem only_post (J : PostJob) (cwd : Str) (fs : Fs) : Only (IsText (IsResult cwd (J.dir cwd))) (J.trace cwd fs) := by
  unfold PostJob.trace postTrace
  refine (Only.quiet _).bind fun force => ?_
  refine Only.bind ?_ fun P0 => Only.bind ?_ fun _ => ?_
  · cases J.dos with
    | none => exact Only.pure _
    | some q => exact Only.bind (only_dos' _ _ _ _ _ _ _ _ _ _ _) fun _ => Only.pure _
  · cases J.band with
    | none => exact Only.pure _
    | some k =>
      exact only_band (Q := IsResult cwd (J.dir cwd)) _ _ _ _ _ _ _ _ _ _ _ (.inr (.inr (.inr (.inr (.inl rfl))))) (.inr (.inr (.inr (.inl rfl)))) (.inr (.inr (.inr (.inr (.inr (.inr (.inr (.inl rfl))))))))
          (.inr (.inr (.inr (.inr (.inr (.inr (.inr (.inr (.inl rfl)))))))))
  · split
    · exact only_list _ _ fun w hw => by cases hw
    · exact only_list _ _ fun w hw => ⟨_, _, .inr (.inr (.inr (.inr (.inr (.inr (.inr (.inr (.inr rfl)))))))), by simpa using hw⟩

/-- **C138** (inputs are kept).  However many post-process jobs were started, with whatever requests, and whenever each of them was stopped, by an exception or from outside: no file other than
the result files has changed, and the record of the pre-process is the same. -/
theorem C138_inputs_kept {cwd dir : Str} {d d' : Disk} (h : PostJobs cwd dir d d') : d'.record = d.record ∧ ∀ q, ¬ IsResult cwd dir q → d'.files q = d.files q := by
  induction h with
  | none => exact ⟨rfl, fun q _ => rfl⟩
  | @one d' d'' h J hd hs ih =>
    have ho := only_post J cwd d'.files
    rw [hd] at ho
    obtain ⟨h1, h2⟩ := hs.texts_only ho
    exact ⟨h1.trans ih.1, fun q hq => (h2 q hq).trans (ih.2 q hq)⟩

/-! ### The result depends on the files that are read, only -/

theorem each_congr {α β : Type} {f g : α → Run β} (l : List α) (h : ∀ a ∈ l, f a = g a) : each f l = each g l := by
  induction l with
  | nil => rfl
  | cons a l ih => rw [each, each, h a (List.mem_cons_self ..), ih fun b hb => h b (List.mem_cons_of_mem _ hb)]

theorem load_congr {fs fs' : Fs} {p : Str} (h : fs p = fs' p) : load fs p = load fs' p := by
  unfold load
  rw [h]

theorem newProcess_congr (j : Junk) (a : PostArgs) {fs fs' : Fs} (h1 : fs a.unitCellFile = fs' a.unitCellFile) (h2 : fs a.superCellFile = fs' a.superCellFile) :
    newProcess j a fs = newProcess j a fs' := by
  unfold newProcess
  rw [readFile_congr a.dft h1, readFile_congr a.dft h2]

theorem configure_congr (S : PostProcess.Solver) (j : Junk) (a : PostArgs) (force : List Str) (search : Run (List (ℕ × List (V3 ℚ)))) {fs fs' : Fs} (P : Process)
    (h : ∀ f ∈ force, fs f = fs' f ∧ fs (dirName f ++ '/' :: baseName a.unitCellFile) = fs' (dirName f ++ '/' :: baseName a.unitCellFile)) :
    configure S j a force search fs P = configure S j a force search fs' P := by
  have h1 : each (readStructure fs a.dft (baseName a.unitCellFile)) force = each (readStructure fs' a.dft (baseName a.unitCellFile)) force :=
    each_congr force fun f hf => by unfold readStructure; rw [readFile_congr a.dft (h f hf).2]
  have h2 : ∀ sym n, allForces fs a.dft sym n force = allForces fs' a.dft sym n force := by
    intro sym n
    have : each (readForces fs a.dft n) force = each (readForces fs' a.dft n) force :=
      each_congr force fun f hf => by unfold readForces; rw [load_congr (h f hf).1]
    unfold allForces
    rw [this]
  unfold configure
  simp only [h1, h2]

theorem postSetup_congr (S : PostProcess.Solver) (j : Junk) (a : PostArgs) (force : List Str) (search : Run (List (ℕ × List (V3 ℚ)))) {fs fs' : Fs}
    (h1 : fs a.unitCellFile = fs' a.unitCellFile) (h2 : fs a.superCellFile = fs' a.superCellFile)
    (h : ∀ f ∈ force, fs f = fs' f ∧ fs (dirName f ++ '/' :: baseName a.unitCellFile) = fs' (dirName f ++ '/' :: baseName a.unitCellFile)) :
    postSetup S j a force search fs = postSetup S j a force search fs' := by
  unfold postSetup
  rw [newProcess_congr j a h1 h2]
  congr 1
  funext P
  exact configure_congr S j a force search P h

theorem phonons_congr (S : PostProcess.Solver) (fl : ℝ → ℚ) (cwd : Str) {fs fs' : Fs} {kfile : Str} (h : fs kfile = fs' kfile) (o : Object) :
    phononsTrace S fl cwd fs kfile o = phononsTrace S fl cwd fs' kfile o := by
  unfold phononsTrace phonons
  rw [load_congr h]

theorem quiet_ok {α β : Type} (a : α) (f : α → Traced β) : (quiet (.ok a) >>= f) = f a := rfl

theorem traced_pure_writes {α : Type} (a : α) : (pure a : Traced α).writes = [] := rfl

theorem trace_same (J : PostJob) (cwd : Str) {fs fs' : Fs} (hr : ∀ q, J.Reads cwd q → fs q = fs' q) (hn : ∀ q, J.Reads cwd q → ¬ IsResult cwd (J.dir cwd) q) :
    J.trace cwd fs = J.trace cwd fs' := by
  unfold PostJob.trace postTrace
  cases hf : forceFiles J.glob J.forceArgs with
  | error e => rfl
  | ok force =>
    have hforce : ∀ {g g' : Fs}, (∀ q, J.Reads cwd q → g q = g' q) → ∀ f ∈ force, g f = g' f ∧
        g (dirName f ++ '/' :: baseName (postResolve cwd J.o J.r).unitCellFile) = g' (dirName f ++ '/' :: baseName (postResolve cwd J.o J.r).unitCellFile) := fun hg f hm =>
      ⟨hg _ (.inr (.inr (.inr (.inr ⟨force, f, hf, hm, .inl rfl⟩)))), hg _ (.inr (.inr (.inr (.inr ⟨force, f, hf, hm, .inr rfl⟩))))⟩
    have hd : ∀ q, J.dos = some q → dosTrace J.S J.A J.j J.fl J.pic cwd (postResolve cwd J.o J.r) force J.search q fs = dosTrace J.S J.A J.j J.fl J.pic cwd (postResolve cwd J.o J.r) force J.search q fs' := by
      intro q hq
      unfold dosTrace
      rw [postSetup_congr J.S J.j _ force J.search (hr _ (.inl rfl)) (hr _ (.inr (.inl rfl))) (hforce hr)]
      congr 1
      funext P
      rw [phonons_congr J.S J.fl cwd (hr _ (.inr (.inr (.inl ⟨q, hq, rfl⟩)))) P.obj]
    have hb : ∀ k, J.band = some k → ∀ (g g' : Fs), (∀ q, J.Reads cwd q → g q = g' q) → ∀ P0, bandTrace J.S J.j' J.fl J.pic cwd (postResolve cwd J.o J.r) force J.search k P0 g =
        bandTrace J.S J.j' J.fl J.pic cwd (postResolve cwd J.o J.r) force J.search k P0 g' := by
      intro k hk g g' hg P0
      have e1 : ∀ P, phononsTrace J.S J.fl cwd g (absPath cwd k) P = phononsTrace J.S J.fl cwd g' (absPath cwd k) P := fun P => phonons_congr J.S J.fl cwd (hg _ (.inr (.inr (.inr (.inl ⟨k, hk, rfl⟩))))) P
      unfold bandTrace
      cases P0 with
      | none => simp only [postSetup_congr J.S J.j' _ force J.search (hg _ (.inl rfl)) (hg _ (.inr (.inl rfl))) (hforce hg), e1]
      | some P1 => simp only [configure_congr J.S J.j' _ force J.search P1 (hforce hg), e1]
    have haft : ∀ (q : DosRequest) (ws : List Write), (∀ w ∈ ws, IsText (IsResult cwd (J.dir cwd)) w) → ∀ p, J.Reads cwd p → filesAfter fs ws p = filesAfter fs' ws p := by
      intro q ws hw p hp
      have := hn p hp
      unfold filesAfter
      rw [(foldl_texts ws hw ⟨fs, .missing⟩).2 p this, (foldl_texts ws hw ⟨fs', .missing⟩).2 p this]
      exact hr p hp
    rw [quiet_ok, quiet_ok]
    dsimp only
    have hyaml : ∀ (x y : Traced Unit) (g : Unit → Traced Unit), x = y → (x >>= g) = (y >>= g) := fun x y g e => by rw [e]
    cases hdos : J.dos with
    | none =>
      simp only
      cases hband : J.band with
      | none => rfl
      | some k => simp only [filesAfter, hb k hband fs fs' hr, traced_pure_writes, List.foldl_nil]
    | some q =>
      simp only
      rw [hd q hdos]
      cases hband : J.band with
      | none => rfl
      | some k =>
        simp only
        congr 1
        funext P0
        refine hyaml _ _ _ (hb k hband _ _ (haft q _ ?_) P0)
        exact Only.bind (only_dos' _ _ _ _ _ _ _ _ _ _ _) fun _ => Only.pure _

/-- **C138** (repeating the run).  After any history of post-process jobs, complete or stopped, a job whose input files are not called like result files does the same as in a fresh
directory: it has the same outcome (success or exception), writes the same texts in the same order, and hence leaves the same content in all files it writes. -/
theorem C138_repeat {cwd : Str} {J : PostJob} {d d' : Disk} (h : PostJobs cwd (J.dir cwd) d d') (hn : ∀ q, J.Reads cwd q → ¬ IsResult cwd (J.dir cwd) q) :
    (J.trace cwd d'.files).result = (J.trace cwd d.files).result ∧ (J.trace cwd d'.files).writes = (J.trace cwd d.files).writes ∧
      ∀ q t, .text q t ∈ (J.trace cwd d.files).writes →
        ∃ t', ((J.trace cwd d.files).writes.foldl perform d).files q = some t' ∧ ((J.trace cwd d'.files).writes.foldl perform d').files q = some t' := by
  have e := trace_same J cwd (fun q hq => (C138_inputs_kept h).2 q (hn q hq)) hn
  rw [e]
  refine ⟨rfl, rfl, fun q t hq => ?_⟩
  rcases texts_at (J.trace cwd d.files).writes q with ⟨⟨t', ht⟩, -⟩ | ⟨-, hno⟩
  · exact ⟨t', by rw [foldl_files]; exact ht _, by rw [foldl_files]; exact ht _⟩
  · exact absurd hq (hno t)

/-! ### The texts of the result files -/

/-- The program writes `w` first and then files of the kind `Q` only. -/
def Starts {α : Type} (w : List Write) (Q : Write → Prop) (m : Traced α) : Prop := ∃ m' : Traced α, m = ⟨w ++ m'.writes, m'.result⟩ ∧ Only Q m'

theorem Starts.bind {α β : Type} {w : List Write} {Q : Write → Prop} {m : Traced α} {f : α → Traced β} (h : Starts w Q m) (hf : ∀ a, Only Q (f a)) : Starts w Q (m >>= f) := by
  obtain ⟨m', rfl, hm⟩ := h
  refine ⟨m' >>= f, ?_, hm.bind hf⟩
  obtain ⟨w', r⟩ := m'
  cases r with
  | error e => rfl
  | ok a =>
    show (⟨(w ++ w') ++ (f a).writes, (f a).result⟩ : Traced β) = ⟨w ++ (w' ++ (f a).writes), (f a).result⟩
    rw [List.append_assoc]

theorem Starts.after {α β : Type} {w w' : List Write} {Q : Write → Prop} {m : Traced α} {a : α} {f : α → Traced β} (hm : m = ⟨w, .ok a⟩) (h : Starts w' Q (f a)) :
    Starts (w ++ w') Q (m >>= f) := by
  obtain ⟨m', e, hq⟩ := h
  subst hm
  refine ⟨m', ?_, hq⟩
  show (⟨w ++ (f a).writes, (f a).result⟩ : Traced β) = _
  rw [e, List.append_assoc]

theorem Starts.only {α : Type} {Q : Write → Prop} {m : Traced α} (h : Only Q m) : Starts [] Q m := ⟨m, rfl, h⟩

theorem base_of (x n : Str) (hn : '/' ∉ n) : baseName (x ++ '/' :: n) = n := by
  unfold baseName
  have e : (x ++ '/' :: n).reverse = n.reverse ++ '/' :: x.reverse := by simp
  rw [e, List.takeWhile_append_of_pos (by intro y hy; have : y ≠ '/' := (by rintro rfl; exact hn (by simpa using hy)); simpa using this)]
  simp

/-- The last write of a path stays. -/
theorem starts_file {α : Type} {w : List Write} {x n t : Str} (hn : '/' ∉ n) {m : Traced α} (h : Starts (w ++ [.text (x ++ '/' :: n) t]) (IsText fun q => baseName q ≠ n) m) (d : Disk) :
    (m.writes.foldl perform d).files (x ++ '/' :: n) = some t := by
  obtain ⟨m', rfl, hq⟩ := h
  show (((w ++ [Write.text (x ++ '/' :: n) t]) ++ m'.writes).foldl perform d).files _ = _
  rw [List.foldl_append, (foldl_texts m'.writes hq _).2 _ (fun hne => hne (base_of x n hn)), List.foldl_append]
  show put _ _ _ _ = _
  rw [put, if_pos rfl]

theorem result_ne (x : Str) {k n : Str} (hk : '/' ∉ k) (hkn : k ≠ n) : baseName (x ++ '/' :: k) ≠ n := by rw [base_of x k hk]; exact hkn

theorem dosOf_iff {S : PostProcess.Solver} {A : Argsorts} {fs : Fs} {k : Str} {sigma : ℝ} {num : ℕ} {o o2 : Object} {s : Dos.State} :
    dosOf S A fs k sigma num o = .ok (o2, s) ↔ phonons S fs k o = .ok o2 ∧ dosAfter A sigma num o2 = .ok s := by
  unfold dosOf dosAfter
  constructor
  · intro h
    obtain ⟨o2', h1, h⟩ := run_inv h
    obtain ⟨s0, h2, h⟩ := run_inv h
    obtain ⟨_, h3, h⟩ := run_inv h
    obtain ⟨s', h4, h⟩ := run_inv h
    cases h
    exact ⟨h1, by simp only [h2, h3, h4, run_ok]⟩
  · rintro ⟨h1, h⟩
    obtain ⟨s0, h2, h⟩ := run_inv h
    obtain ⟨_, h3, h⟩ := run_inv h
    simp only [h1, h2, h3, h, run_ok]
    rfl

theorem bandOf_iff {S : PostProcess.Solver} {j : Junk} {fs : Fs} {k : Str} {o o2 : Object} {rows : List (ℝ × List ℝ)} :
    bandOf S j fs k o = .ok (o2, rows) ↔ ∃ len, phonons S fs k o = .ok o2 ∧ bandAfter j o2 = .ok len ∧ rows = len.zip o2.wq := by
  unfold bandOf bandAfter
  constructor
  · intro h
    obtain ⟨o2', h1, h⟩ := run_inv h
    obtain ⟨b, h2, h⟩ := run_inv h
    cases h
    exact ⟨b.len, h1, by simp only [h2, run_ok]; rfl, rfl⟩
  · rintro ⟨len, h1, h, rfl⟩
    obtain ⟨b, h2, h'⟩ := run_inv h
    cases h'
    simp only [h1, h2, run_ok]
    rfl

theorem phonons_done {S : PostProcess.Solver} {fl : ℝ → ℚ} {cwd : Str} {fs : Fs} {k : Str} {o o2 : Object} (h : phonons S fs k o = .ok o2) : ∃ w, phononsTrace S fl cwd fs k o = ⟨w, .ok o2⟩ := by
  unfold phononsTrace
  rw [h, quiet_ok]
  split
  · exact ⟨_, rfl⟩
  · exact ⟨[], rfl⟩

theorem dosPart_iff {S : PostProcess.Solver} {A : Argsorts} {j : Junk} {a : PostArgs} {force : List Str} {search : Run (List (ℕ × List (V3 ℚ)))} {k : Str} {sigma : ℝ} {num : ℕ}
    {temp : Option (List ℤ)} {fs : Fs} {P2 : Process} {s : Dos.State} {th : Option Thermal.State} :
    dosPart S A j a force search k sigma num temp fs = .ok (P2, s, th) → ∃ P o2, postSetup S j a force search fs = .ok P ∧ phonons S fs k P.obj = .ok o2 ∧ dosAfter A sigma num o2 = .ok s ∧
      P2 = ⟨P.args, P.unit, P.super, o2⟩ ∧ th = temp.map fun t => thermalOf t o2 := by
  intro h
  unfold dosPart at h
  obtain ⟨P, h1, h⟩ := run_inv h
  obtain ⟨⟨o2, s'⟩, h2, h⟩ := run_inv h
  cases h
  obtain ⟨h3, h4⟩ := dosOf_iff.1 h2
  exact ⟨P, o2, h1, h3, h4, rfl, rfl⟩

theorem dosMain_inv {S : PostProcess.Solver} {A : Argsorts} {j : Junk} {cwd : Str} {o : PostOpts} {r : PreRecord} {glob : Str → List Str} {args : List Str} {k : Str} {sigma : ℝ} {num : ℕ}
    {temp : Option (List ℤ)} {search : Run (List (ℕ × List (V3 ℚ)))} {fs : Fs} {s : Dos.State} {th : Option Thermal.State} (h : dosMain S A j cwd o r glob args k sigma num temp search fs = .ok (s, th)) :
    ∃ force P2, forceFiles glob args = .ok force ∧ dosPart S A j (postResolve cwd o r) force search (absPath cwd k) sigma num temp fs = .ok (P2, s, th) := by
  unfold dosMain at h
  obtain ⟨force, h1, h⟩ := run_inv h
  obtain ⟨⟨P2, s', th'⟩, h2, h⟩ := run_inv h
  cases h
  exact ⟨force, P2, h1, h2⟩

theorem init_shape {p : Dos.Proc} {num : ℕ} {s : Dos.State} (h : Dos.init p num = .ok s) : Shaped p s := by
  unfold Dos.init at h
  split at h
  · cases h
    exact ⟨List.length_replicate .., fun row hr => by rw [List.eq_of_mem_replicate hr, List.length_replicate]⟩
  · cases h

theorem mapEntries_length (upd : ℝ → ℕ → Option ℝ → Option ℝ) (freq : List ℝ) (l : List (List (Option ℝ))) : (Dos.mapEntries upd freq l).length = l.length := by
  simp [Dos.mapEntries]

/-- There is a column for each degree of freedom; with smearing each column has an entry per frequency. -/
theorem dos_shape {A : Argsorts} {sigma : ℝ} {num : ℕ} {o2 : Object} {s : Dos.State} (h : dosAfter A sigma num o2 = .ok s) :
    s.pdos.length = dof o2 ∧ (sigma ≠ 0 ∨ (∃ c, o2.p c ≠ 0) → ∀ row ∈ s.pdos, row.length = s.freq.length) := by
  unfold dosAfter at h
  obtain ⟨s0, h1, h⟩ := run_inv h
  obtain ⟨_, h2, h⟩ := run_inv h
  have hsh := init_shape h1
  constructor
  · rw [show dof o2 = (dosProc o2).nd from rfl, ← hsh.1]
    unfold Dos.set at h
    split at h
    · split at h
      · cases h; rfl
      · obtain ⟨u, h3, h⟩ := run_inv h
        cases h
        exact mapEntries_length ..
    · cases h
      exact mapEntries_length ..
  · intro hd
    refine (C44_total_partial _ _ _ _ _ _ _ hsh h ?_).2.1.2
    rcases hd with hd | ⟨c, hc⟩
    · exact .inl hd
    · exact .inr ⟨c, by simpa [dosProc] using hc⟩

theorem totalText_read (fl : ℝ → ℚ) (sigma : ℚ) (s : Dos.State) :
    readTable (totalText fl sigma s) = (Dos.totalRows s).map fun x => [some (rounded 9 (.fin (fl x.1))), some (rounded 9 (number fl x.2))] := by
  rw [totalText, C94_total_dos, Dos.totalRows, List.zip_map, List.map_map]
  rfl

theorem projectedText_read (fl : ℝ → ℚ) (sigma : ℚ) (xyz : List ℕ) (s : Dos.State) :
    readTable (projectedText fl sigma xyz s s.freq.length) = s.freq.mapIdx fun i x => some (rounded 9 (.fin (fl x))) :: (List.range xyz.length).map fun c => some (rounded 9 (number fl ((s.pdos.getD c []).getD i none))) := by
  rw [projectedText, C94_projected_dos, List.take_length]
  simp only [List.mapIdx_eq_zipIdx_map, List.zipIdx_map, List.map_map]
  rfl

theorem only_picture' {n : Str} (x k : Str) (hk : '/' ∉ k) (hkn : k ≠ n) (r : Run (Option Str)) : Only (IsText fun q => baseName q ≠ n) (picture (x ++ '/' :: k) r) :=
  only_picture _ (fun t => ⟨_, t, result_ne x hk hkn, rfl⟩) r

/-- What follows the DOS part writes none of the data files of the DOS. -/
theorem after_dos (J : PostJob) (cwd : Str) (a : PostArgs) (force : List Str) (fs : Fs) (P0 : Option Process) {n : Str}
    (hn : n = "total_dos.dat".toList ∨ n = "projected_dos.dat".toList ∨ n = "thermal_properties.dat".toList) :
    Only (IsText fun q => baseName q ≠ n) ((match J.band with
      | none => pure ()
      | some kband => bandTrace J.S J.j' J.fl J.pic cwd a force J.search kband P0 fs : Traced Unit) >>= fun _ =>
        if J.dos.isNone && J.band.isNone then ⟨[], .error .unboundLocal⟩ else ⟨[.text (cwd ++ "/post_process.yaml".toList) J.yaml], .ok ()⟩) := by
  refine Only.bind ?_ fun _ => ?_
  · cases J.band with
    | none => exact Only.pure _
    | some k =>
      have hk : ∀ (x : Str) (k : String), '/' ∉ k.toList → k.toList ≠ n → baseName (x ++ '/' :: k.toList) ≠ n := fun x k h1 h2 => result_ne x h1 h2
      refine only_band _ _ _ _ _ _ _ _ _ _ _ (hk cwd "freqency_at_gamma_point.dat" (by decide +kernel) ?_) (hk _ "band.dat" (by decide +kernel) ?_) (hk _ "band.png" (by decide +kernel) ?_)
        (hk _ "band_dos.png" (by decide +kernel) ?_) <;> rcases hn with rfl | rfl | rfl <;> decide +kernel
  · split
    · exact only_list _ _ fun w hw => by cases hw
    · refine only_list _ _ fun w hw => ⟨_, _, ?_, by simpa using hw⟩
      exact result_ne cwd (k := "post_process.yaml".toList) (by decide +kernel) (by rcases hn with rfl | rfl | rfl <;> decide +kernel)

/-- If the DOS part starts with the write of a data file, so does the program. -/
theorem trace_starts {J : PostJob} {cwd : Str} {fs : Fs} {q : DosRequest} {force : List Str} {w : List Write} {n : Str}
    (hn : n = "total_dos.dat".toList ∨ n = "projected_dos.dat".toList ∨ n = "thermal_properties.dat".toList) (hq : J.dos = some q) (hf : forceFiles J.glob J.forceArgs = .ok force)
    (h : Starts w (IsText fun q => baseName q ≠ n) (dosTrace J.S J.A J.j J.fl J.pic cwd (postResolve cwd J.o J.r) force J.search q fs)) :
    Starts w (IsText fun q => baseName q ≠ n) (J.trace cwd fs) := by
  unfold PostJob.trace postTrace
  rw [hf, quiet_ok]
  simp only [hq]
  refine Starts.bind (Starts.bind h fun _ => Only.pure _) fun P0 => ?_
  have := after_dos J cwd (postResolve cwd J.o J.r) force
    (filesAfter fs (dosTrace J.S J.A J.j J.fl J.pic cwd (postResolve cwd J.o J.r) force J.search q fs >>= fun P => pure (some P)).writes) P0 hn
  rw [hq] at this
  exact this

theorem starts_total (fl : ℝ → ℚ) (dir : Str) (sigma : ℚ) (xyz : List ℕ) (s : Dos.State) :
    Starts [.text (dir ++ "/total_dos.dat".toList) (totalText fl sigma s)] (IsText fun q => baseName q ≠ "total_dos.dat".toList) (dosWrite fl dir sigma xyz s) := by
  have hb : ∀ t : Str, IsText (fun q => baseName q ≠ "total_dos.dat".toList) (.text (dir ++ "/projected_dos.dat".toList) t) := fun t =>
    ⟨_, t, result_ne dir (k := "projected_dos.dat".toList) (by decide +kernel) (by decide +kernel), rfl⟩
  unfold dosWrite
  split
  · exact ⟨⟨[_], _⟩, rfl, only_list _ _ fun w hw => by rw [List.mem_singleton.1 hw]; exact hb _⟩
  · exact ⟨⟨[_], _⟩, rfl, only_list _ _ fun w hw => by rw [List.mem_singleton.1 hw]; exact hb _⟩

theorem write_done {fl : ℝ → ℚ} {dir : Str} {sigma : ℚ} {xyz : List ℕ} {s : Dos.State} (h1 : s.pdos.length = xyz.length) (h2 : ∀ row ∈ s.pdos, s.freq.length ≤ row.length) :
    dosWrite fl dir sigma xyz s = ⟨[.text (dir ++ "/total_dos.dat".toList) (totalText fl sigma s)] ++ [.text (dir ++ "/projected_dos.dat".toList) (projectedText fl sigma xyz s s.freq.length)], .ok ()⟩ := by
  unfold dosWrite
  rw [if_neg]
  · rfl
  · rintro ⟨hx, hl⟩
    have : 0 < s.pdos.length := by rw [h1]; exact List.length_pos_of_ne_nil hx
    have h3 := h2 _ (List.getElem_mem this)
    rw [List.getD_eq_getElem?_getD, List.getElem?_eq_getElem this] at hl
    exact absurd hl (not_lt.2 h3)

theorem dosTrace_step {S : PostProcess.Solver} {A : Argsorts} {j : Junk} {fl : ℝ → ℚ} {pic : Pictures} {cwd : Str} {a : PostArgs} {force : List Str} {search : Run (List (ℕ × List (V3 ℚ)))} {q : DosRequest}
    {fs : Fs} {P : Process} {o2 : Object} {s : Dos.State} (h1 : postSetup S j a force search fs = .ok P) (h2 : phonons S fs (absPath cwd q.kfile) P.obj = .ok o2) (h3 : dosAfter A q.sigma q.num o2 = .ok s) :
    ∃ w, ∀ {w' : List Write} {Q : Write → Prop}, Starts w' Q (do
      dosWrite fl (dirName a.unitCellFile) q.sigma (o2.unit.xyzTrue.getD []) s
      picture (cwd ++ "/dos.png".toList) pic.dos
      (match q.temp with
        | none => pure ()
        | some t => do
          (⟨thermalWrites fl (dirName a.unitCellFile) (thermalOf t o2), .ok ()⟩ : Traced Unit)
          picture (cwd ++ "/thermal_properties.png".toList) pic.thermal : Traced Unit)
      return (⟨P.args, P.unit, P.super, o2⟩ : Process)) → Starts (w ++ w') Q (dosTrace S A j fl pic cwd a force search q fs) := by
  obtain ⟨w, hw⟩ := phonons_done (fl := fl) (cwd := cwd) h2
  refine ⟨w, fun {w' Q} h => ?_⟩
  unfold dosTrace
  rw [h1, quiet_ok]
  refine Starts.after hw ?_
  rw [h3, quiet_ok]
  exact h

/-- **C138** (DOS files).  If the analysis gives the density of states `s`, then when the program has ended, however it ended (a picture that cannot be drawn, an error in the band part), the file
`total_dos.dat` in the directory of the unit cell reads back as the frequencies and total densities of `s`, rounded to nine decimals, and nothing else.  If moreover each projected column has
an entry for every frequency — always with smearing or in a periodic system — `projected_dos.dat` reads back as the frequencies and one column per degree of freedom. -/
theorem C138_dos_text {J : PostJob} {cwd : Str} {d : Disk} {q : DosRequest} {s : Dos.State} {th : Option Thermal.State} (hq : J.dos = some q)
    (h : dosMain J.S J.A J.j cwd J.o J.r J.glob J.forceArgs q.kfile q.sigma q.num q.temp J.search d.files = .ok (s, th)) :
    (∃ t, ((J.trace cwd d.files).writes.foldl perform d).files (J.dir cwd ++ "/total_dos.dat".toList) = some t ∧
      readTable t = (Dos.totalRows s).map fun x => [some (rounded 9 (.fin (J.fl x.1))), some (rounded 9 (number J.fl x.2))]) ∧
    ((∀ row ∈ s.pdos, s.freq.length ≤ row.length) → ∃ t, ((J.trace cwd d.files).writes.foldl perform d).files (J.dir cwd ++ "/projected_dos.dat".toList) = some t ∧
      readTable t = s.freq.mapIdx fun i x => some (rounded 9 (.fin (J.fl x))) :: (List.range s.pdos.length).map fun c => some (rounded 9 (number J.fl ((s.pdos.getD c []).getD i none)))) ∧
    (q.sigma ≠ 0 → ∀ row ∈ s.pdos, row.length = s.freq.length) := by
  obtain ⟨force, P2, hf, hp⟩ := dosMain_inv h
  obtain ⟨P, o2, h1, h2, h3, -, -⟩ := dosPart_iff hp
  obtain ⟨hs1, hs2⟩ := dos_shape h3
  obtain ⟨w, hw⟩ := dosTrace_step (fl := J.fl) (pic := J.pic) h1 h2 h3
  have hpic : ∀ n : Str, (n = "total_dos.dat".toList ∨ n = "projected_dos.dat".toList) → Only (IsText fun p => baseName p ≠ n) (do
      picture (cwd ++ "/dos.png".toList) J.pic.dos
      (match q.temp with
        | none => pure ()
        | some t => do
          (⟨thermalWrites J.fl (J.dir cwd) (thermalOf t o2), .ok ()⟩ : Traced Unit)
          picture (cwd ++ "/thermal_properties.png".toList) J.pic.thermal : Traced Unit)
      return (⟨P.args, P.unit, P.super, o2⟩ : Process)) := by
    intro n hn
    refine Only.bind (only_picture' cwd "dos.png".toList (by decide +kernel) (by rcases hn with rfl | rfl <;> decide +kernel) _) fun _ => Only.bind ?_ fun _ => Only.pure _
    cases q.temp with
    | none => exact Only.pure _
    | some t =>
      refine Only.bind (only_list _ _ fun w hw => ?_) fun _ => only_picture' cwd "thermal_properties.png".toList (by decide +kernel) (by rcases hn with rfl | rfl <;> decide +kernel) _
      simp only [thermalWrites, List.mem_cons, List.not_mem_nil, or_false] at hw
      subst hw
      exact ⟨_, _, result_ne (J.dir cwd) (k := "thermal_properties.dat".toList) (by decide +kernel) (by rcases hn with rfl | rfl <;> decide +kernel), rfl⟩
  refine ⟨⟨totalText J.fl q.sigma s, ?_, totalText_read ..⟩, fun hrow => ⟨projectedText J.fl q.sigma (o2.unit.xyzTrue.getD []) s s.freq.length, ?_, ?_⟩, fun hσ => hs2 (.inl (by exact_mod_cast hσ))⟩
  · exact starts_file (n := "total_dos.dat".toList) (by decide +kernel) (trace_starts (.inl rfl) hq hf (hw (Starts.bind (starts_total ..) fun _ => hpic _ (.inl rfl)))) d
  · refine starts_file (w := w ++ [.text (J.dir cwd ++ "/total_dos.dat".toList) (totalText J.fl q.sigma s)]) (n := "projected_dos.dat".toList) (by decide +kernel) (trace_starts (.inr (.inl rfl)) hq hf ?_) d
    rw [List.append_assoc]
    refine hw ?_
    rw [write_done hs1 hrow]
    exact Starts.bind ⟨⟨[], _⟩, rfl, only_list _ _ fun w hw => by cases hw⟩ fun _ => hpic _ (.inr rfl)
  · rw [projectedText_read, show (o2.unit.xyzTrue.getD []).length = s.pdos.length from hs1.symm]

theorem picture_done {path : Str} {r : Run (Option Str)} {x : Option Str} (h : r = .ok x) : ∃ w, picture path r = ⟨w, .ok ()⟩ := by
  subst h
  cases x with
  | none => exact ⟨_, rfl⟩
  | some t => exact ⟨_, rfl⟩

theorem thermalText_read (fl : ℝ → ℚ) (s : Thermal.State) : readTable (Output.thermal (s.temp.map fun x => .fin (fl x)) (s.freeEnergy.map (number fl)) (s.entropy.map fun y => number fl (y.map fun z => z * 1000))).flatten =
    (s.temp.zip (s.freeEnergy.zip s.entropy)).map fun x =>
      [some (rounded 9 (.fin (fl x.1))), some (rounded 9 (number fl x.2.1)), some (rounded 9 (number fl (x.2.2.map fun z => z * 1000)))] := by
  rw [C94_thermal, List.zip_map, List.zip_map, List.map_map]
  rfl

/-- **C138** (thermal properties).  If the analysis gives the thermal properties `th`, the projected columns are complete and the picture of the density of states does not fail, then when the program has
ended, however it ended, `thermal_properties.dat` in the directory of the unit cell reads back as the temperatures, free energies and entropies (times 1000) of `th`, rounded to nine decimals. -/
theorem C138_thermal_text {J : PostJob} {cwd : Str} {d : Disk} {q : DosRequest} {s : Dos.State} {th : Thermal.State} {x : Option Str} (hq : J.dos = some q)
    (h : dosMain J.S J.A J.j cwd J.o J.r J.glob J.forceArgs q.kfile q.sigma q.num q.temp J.search d.files = .ok (s, some th)) (hrow : ∀ row ∈ s.pdos, s.freq.length ≤ row.length) (hp : J.pic.dos = .ok x) :
    ∃ t, ((J.trace cwd d.files).writes.foldl perform d).files (J.dir cwd ++ "/thermal_properties.dat".toList) = some t ∧
      readTable t = (th.temp.zip (th.freeEnergy.zip th.entropy)).map fun x =>
        [some (rounded 9 (.fin (J.fl x.1))), some (rounded 9 (number J.fl x.2.1)), some (rounded 9 (number J.fl (x.2.2.map fun z => z * 1000)))] := by
  obtain ⟨force, P2, hf, hpart⟩ := dosMain_inv h
  obtain ⟨P, o2, h1, h2, h3, -, hth⟩ := dosPart_iff hpart
  obtain ⟨hs1, -⟩ := dos_shape h3
  obtain ⟨w, hw⟩ := dosTrace_step (fl := J.fl) (pic := J.pic) h1 h2 h3
  obtain ⟨wp, hwp⟩ := picture_done (path := cwd ++ "/dos.png".toList) hp
  obtain ⟨tl, htemp⟩ : ∃ tl, q.temp = some tl := by
    cases hqt : q.temp with
    | none => rw [hqt] at hth; cases hth
    | some tl => exact ⟨tl, rfl⟩
  have e : th = thermalOf tl o2 := by rw [htemp] at hth; exact Option.some.inj hth
  refine ⟨_, ?_, thermalText_read J.fl th⟩
  refine starts_file (n := "thermal_properties.dat".toList)
    (w := w ++ (([.text (J.dir cwd ++ "/total_dos.dat".toList) (totalText J.fl q.sigma s)] ++ [.text (J.dir cwd ++ "/projected_dos.dat".toList) (projectedText J.fl q.sigma (o2.unit.xyzTrue.getD []) s s.freq.length)]) ++ wp))
    (by decide +kernel) (trace_starts (.inr (.inr rfl)) hq hf ?_) d
  rw [List.append_assoc, List.append_assoc]
  refine hw (Starts.after (write_done hs1 hrow) (Starts.after hwp ?_))
  rw [htemp]
  refine Starts.bind (Starts.bind (w := [_]) ⟨⟨[], .ok ()⟩, ?_, only_list _ _ fun w hw => by cases hw⟩ fun _ => only_picture' cwd "thermal_properties.png".toList (by decide +kernel) (by decide +kernel) _) fun _ => Only.pure _
  rw [e]
  rfl

theorem bandText_read (fl : ℝ → ℚ) (len : List ℝ) (wq : List (List ℝ)) : readTable (Output.band (len.map fun x => .fin (fl x)) (wq.map fun l => l.map fun x => .fin (fl x))).flatten =
    (len.zip wq).map fun x => some (rounded 9 (.fin (fl x.1))) :: x.2.map fun y => some (rounded 9 (.fin (fl y))) := by
  rw [C94_band, List.zip_map, List.map_map]
  apply List.map_congr_left
  intro x _
  simp

theorem bandTrace_starts {S : PostProcess.Solver} {j : Junk} {fl : ℝ → ℚ} {pic : Pictures} {cwd : Str} {a : PostArgs} {force : List Str} {search : Run (List (ℕ × List (V3 ℚ)))} {k : Str}
    {P0 : Option Process} {fs : Fs} {P : Process} {o2 : Object} {rows : List (ℝ × List ℝ)}
    (h1 : P0 = none → postSetup S j a force search fs = .ok P) (h1' : ∀ P1, P0 = some P1 → configure S j a force search fs P1 = .ok P) (h2 : bandOf S j fs (absPath cwd k) P.obj = .ok (o2, rows)) :
    ∃ w t, Starts (w ++ [.text (dirName a.unitCellFile ++ "/band.dat".toList) t]) (IsText fun p => baseName p ≠ "band.dat".toList) (bandTrace S j fl pic cwd a force search k P0 fs) ∧
      readTable t = rows.map fun x => some (rounded 9 (.fin (fl x.1))) :: x.2.map fun y => some (rounded 9 (.fin (fl y))) := by
  obtain ⟨len, h3, h4, rfl⟩ := bandOf_iff.1 h2
  obtain ⟨w, hw⟩ := phonons_done (fl := fl) (cwd := cwd) h3
  refine ⟨w, _, ?_, bandText_read fl len o2.wq⟩
  unfold bandTrace
  have key : ∀ b : Bool, Starts (w ++ [.text (dirName a.unitCellFile ++ "/band.dat".toList) (Output.band (len.map fun x => .fin (fl x)) (o2.wq.map fun l => l.map fun x => .fin (fl x))).flatten])
      (IsText fun p => baseName p ≠ "band.dat".toList) (do
        let o2 ← phononsTrace S fl cwd fs (absPath cwd k) P.obj
        let len ← quiet (bandAfter j o2)
        (⟨bandWrites fl (dirName a.unitCellFile) len o2.wq, .ok ()⟩ : Traced Unit)
        picture (cwd ++ "/band.png".toList) pic.band
        if b then picture (cwd ++ "/band_dos.png".toList) pic.both) := by
    intro b
    refine Starts.after hw ?_
    rw [h4, quiet_ok]
    refine Starts.bind (w := [_]) ⟨⟨[], .ok ()⟩, rfl, only_list _ _ fun w hw => by cases hw⟩ fun _ => ?_
    refine Only.bind (only_picture' cwd "band.png".toList (by decide +kernel) (by decide +kernel) _) fun _ => ?_
    split
    · exact only_picture' cwd "band_dos.png".toList (by decide +kernel) (by decide +kernel) _
    · exact Only.pure _
  cases P0 with
  | none => simp only [h1 rfl, quiet_ok]; exact key _
  | some P1 => simp only [h1' P1 rfl, quiet_ok]; exact key _

theorem only_yaml {n : Str} (hn : n ≠ "post_process.yaml".toList) (cwd yaml : Str) (b : Bool) :
    Only (IsText fun p => baseName p ≠ n) (if b then ⟨[], .error .unboundLocal⟩ else ⟨[.text (cwd ++ "/post_process.yaml".toList) yaml], .ok ()⟩ : Traced Unit) := by
  split
  · exact only_list _ _ fun w hw => by cases hw
  · refine only_list _ _ fun w hw => ⟨_, _, ?_, by simpa using hw⟩
    exact result_ne cwd (k := "post_process.yaml".toList) (by decide +kernel) (Ne.symm hn)

/-- **C138** (band file).  If only the band is asked for and the analysis gives `rows`, then when the program has ended, however the drawing ended, `band.dat` in the directory of the unit cell reads
back as these rows, rounded to nine decimals: the length along the path and the frequencies. -/
theorem C138_band_text {J : PostJob} {cwd : Str} {d : Disk} {k : Str} {o2 : Object} {rows : List (ℝ × List ℝ)} (hd : J.dos = none) (hb : J.band = some k)
    (h : bandMain J.S J.j' cwd J.o J.r J.glob J.forceArgs k J.search d.files = .ok (o2, rows)) :
    ∃ t, ((J.trace cwd d.files).writes.foldl perform d).files (J.dir cwd ++ "/band.dat".toList) = some t ∧
      readTable t = rows.map fun x => some (rounded 9 (.fin (J.fl x.1))) :: x.2.map fun y => some (rounded 9 (.fin (J.fl y))) := by
  unfold bandMain at h
  obtain ⟨force, hf, h⟩ := run_inv h
  obtain ⟨P, h1, h2⟩ := run_inv h
  obtain ⟨w, t, h3, h4⟩ := bandTrace_starts (fl := J.fl) (pic := J.pic) (P0 := none) (fun _ => h1) (fun _ hP => by cases hP) h2
  refine ⟨t, starts_file (w := w) (n := "band.dat".toList) (by decide +kernel) ?_ d, h4⟩
  unfold PostJob.trace postTrace
  rw [hf, quiet_ok]
  simp only [hd, hb]
  refine Starts.after (w := []) (w' := w ++ [.text (J.dir cwd ++ '/' :: "band.dat".toList) t]) (a := (none : Option Process))
    (f := fun P0 => bandTrace J.S J.j' J.fl J.pic cwd (postResolve cwd J.o J.r) force J.search k P0 (filesAfter d.files (pure none : Traced (Option Process)).writes) >>= fun _ => _) rfl ?_
  exact Starts.bind h3 fun _ => only_yaml (n := "band.dat".toList) (by decide +kernel) cwd J.yaml _

theorem after_ok {α β : Type} {w : List Write} {a : α} {b : β} {m : Traced α} {f : α → Traced β} (hm : m = ⟨w, .ok a⟩) (hr : ∃ w', f a = ⟨w', .ok b⟩) : ∃ w', (m >>= f) = ⟨w', .ok b⟩ := by
  obtain ⟨w', hr⟩ := hr
  subst hm
  refine ⟨w ++ w', ?_⟩
  show (⟨w ++ (f a).writes, (f a).result⟩ : Traced β) = _
  rw [hr]

/-- **C138** (all files of one run).  If density of states and band are asked for, the analyses give `s`, `th` and `rows`, no input file is called like a result file, the columns are complete and the pictures
of the first part do not fail, then when the program has ended `band.dat` reads back as `rows`, although the band part goes on with the object of the first part and reads its files after that part has
written its own. -/
theorem C138_both_text {J : PostJob} {cwd : Str} {d : Disk} {q : DosRequest} {k : Str} {s : Dos.State} {th : Option Thermal.State} {rows : List (ℝ × List ℝ)} {x y : Option Str} (hq : J.dos = some q)
    (hb : J.band = some k) (h : bothMain J.S J.A J.j J.j' cwd J.o J.r J.glob J.forceArgs q.kfile k q.sigma q.num q.temp J.search d.files = .ok ((s, th), rows))
    (hn : ∀ p, J.Reads cwd p → ¬ IsResult cwd (J.dir cwd) p) (hrow : ∀ row ∈ s.pdos, s.freq.length ≤ row.length) (hx : J.pic.dos = .ok x) (hy : J.pic.thermal = .ok y) :
    ∃ t, ((J.trace cwd d.files).writes.foldl perform d).files (J.dir cwd ++ "/band.dat".toList) = some t ∧
      readTable t = rows.map fun x => some (rounded 9 (.fin (J.fl x.1))) :: x.2.map fun y => some (rounded 9 (.fin (J.fl y))) := by
  unfold bothMain at h
  obtain ⟨force, hf, h⟩ := run_inv h
  obtain ⟨⟨P2, s', th'⟩, hpart, h⟩ := run_inv h
  obtain ⟨P3, hc, h⟩ := run_inv h
  obtain ⟨⟨o3, rows'⟩, hband, h⟩ := run_inv h
  cases h
  obtain ⟨P, o2, h1, h2, h3, hP2, hth⟩ := dosPart_iff hpart
  obtain ⟨hs1, -⟩ := dos_shape h3
  -- the DOS part ends well
  obtain ⟨wd, hwd⟩ : ∃ wd, dosTrace J.S J.A J.j J.fl J.pic cwd (postResolve cwd J.o J.r) force J.search q d.files = ⟨wd, .ok P2⟩ := by
    obtain ⟨w1, hw1⟩ := phonons_done (fl := J.fl) (cwd := cwd) h2
    obtain ⟨w2, hw2⟩ := picture_done (path := cwd ++ "/dos.png".toList) hx
    obtain ⟨w3, hw3⟩ := picture_done (path := cwd ++ "/thermal_properties.png".toList) hy
    unfold dosTrace
    rw [h1, quiet_ok]
    refine after_ok hw1 ?_
    rw [h3, quiet_ok]
    refine after_ok (write_done hs1 hrow) (after_ok hw2 ?_)
    cases q.temp with
    | none => exact ⟨[], by rw [hP2]; rfl⟩
    | some t =>
      obtain ⟨w4, hw4⟩ := after_ok (m := (⟨thermalWrites J.fl (dirName (postResolve cwd J.o J.r).unitCellFile) (thermalOf t o2), .ok ()⟩ : Traced Unit)) (f := fun _ => picture (cwd ++ "/thermal_properties.png".toList) J.pic.thermal)
        (a := ()) (b := ()) rfl ⟨w3, hw3⟩
      exact after_ok hw4 ⟨[], by rw [hP2]; rfl⟩
  have hwr : Only (IsText (IsResult cwd (J.dir cwd))) (⟨wd, .ok P2⟩ : Traced Process) := by
    rw [← hwd]; exact only_dos' _ _ _ _ _ _ _ _ _ _ _
  have hfs : ∀ p, J.Reads cwd p → filesAfter d.files wd p = d.files p := fun p hp => by
    unfold filesAfter
    exact (foldl_texts wd hwr ⟨d.files, .missing⟩).2 p (hn p hp)
  have hc' : configure J.S J.j' (postResolve cwd J.o J.r) force J.search (filesAfter d.files wd) P2 = .ok P3 := by
    rw [← hc]
    exact configure_congr _ _ _ _ _ _ fun f hm => ⟨hfs _ (.inr (.inr (.inr (.inr ⟨force, f, hf, hm, .inl rfl⟩)))), hfs _ (.inr (.inr (.inr (.inr ⟨force, f, hf, hm, .inr rfl⟩))))⟩
  have hband' : bandOf J.S J.j' (filesAfter d.files wd) (absPath cwd k) P3.obj = .ok (o3, rows') := by
    rw [← hband]
    unfold bandOf phonons
    rw [load_congr (hfs _ (.inr (.inr (.inr (.inl ⟨k, hb, rfl⟩)))))]
  obtain ⟨w, t, h4, h5⟩ := bandTrace_starts (fl := J.fl) (pic := J.pic) (P0 := some P2) (fun hP => by cases hP) (fun P1 hP => by cases hP; exact hc') hband'
  refine ⟨t, starts_file (w := wd ++ w) (n := "band.dat".toList) (by decide +kernel) ?_ d, h5⟩
  unfold PostJob.trace postTrace
  rw [hf, quiet_ok]
  simp only [hq, hb]
  have e : (dosTrace J.S J.A J.j J.fl J.pic cwd (postResolve cwd J.o J.r) force J.search q d.files >>= fun P => pure (some P)) = (⟨wd, .ok (some P2)⟩ : Traced (Option Process)) := by
    rw [hwd]
    show (⟨wd ++ [], .ok (some P2)⟩ : Traced (Option Process)) = _
    rw [List.append_nil]
  rw [e, List.append_assoc]
  exact Starts.after rfl (Starts.bind h4 fun _ => only_yaml (by decide +kernel) cwd J.yaml _)

theorem phonons_gamma {S : PostProcess.Solver} {fl : ℝ → ℚ} {cwd : Str} {fs : Fs} {k : Str} {o o2 : Object} (h : phonons S fs k o = .ok o2) (hp : numPbc o2.p = 0) :
    phononsTrace S fl cwd fs k o = ⟨[.text (cwd ++ "/freqency_at_gamma_point.dat".toList) (Output.gammaFile ((o2.wq.getD 0 []).map fun x => .fin (fl x))).flatten], .ok o2⟩ := by
  unfold phononsTrace
  rw [h, quiet_ok, if_pos hp]

theorem gammaText_read (fl : ℝ → ℚ) (l : List ℝ) : readTable (Output.gammaFile (l.map fun x => .fin (fl x))).flatten = l.map fun x => [some (rounded 9 (.fin (fl x)))] := by
  rw [C94_gamma_file, List.map_map]
  rfl

/-- **C138** (the file of a molecule, band).  If only the band is asked for in a system without periodic directions and the analysis gives `rows`, then when the program has ended, however it ended,
`freqency_at_gamma_point.dat` in the working directory reads back as the frequencies of the first of these rows. -/
theorem C138_gamma_text {J : PostJob} {cwd : Str} {d : Disk} {k : Str} {o2 : Object} {rows : List (ℝ × List ℝ)} {x : ℝ} {l : List ℝ} (hd : J.dos = none) (hb : J.band = some k)
    (h : bandMain J.S J.j' cwd J.o J.r J.glob J.forceArgs k J.search d.files = .ok (o2, rows)) (hp : ∀ c, o2.p c = 0) (hr : rows[0]? = some (x, l)) :
    ∃ t, ((J.trace cwd d.files).writes.foldl perform d).files (cwd ++ "/freqency_at_gamma_point.dat".toList) = some t ∧ readTable t = l.map fun y => [some (rounded 9 (.fin (J.fl y)))] := by
  unfold bandMain at h
  obtain ⟨force, hf, h⟩ := run_inv h
  obtain ⟨P, h1, h2⟩ := run_inv h
  obtain ⟨len, h3, h4, rfl⟩ := bandOf_iff.1 h2
  have hl : o2.wq.getD 0 [] = l := by
    rw [List.zip_eq_zipWith, List.getElem?_zipWith] at hr
    rw [List.getD_eq_getElem?_getD]
    cases hw : o2.wq[0]? with
    | none => rw [hw] at hr; cases hl0 : len[0]? <;> rw [hl0] at hr <;> cases hr
    | some v => rw [hw] at hr; cases hl0 : len[0]? <;> rw [hl0] at hr <;> cases hr; rfl
  refine ⟨_, ?_, gammaText_read J.fl l⟩
  refine starts_file (w := []) (n := "freqency_at_gamma_point.dat".toList) (by decide +kernel) ?_ d
  unfold PostJob.trace postTrace
  rw [hf, quiet_ok]
  simp only [hd, hb]
  refine Starts.after (w := []) (a := (none : Option Process))
    (f := fun P0 => bandTrace J.S J.j' J.fl J.pic cwd (postResolve cwd J.o J.r) force J.search k P0 (filesAfter d.files (pure none : Traced (Option Process)).writes) >>= fun _ => _) rfl ?_
  refine Starts.bind ?_ fun _ => only_yaml (n := "freqency_at_gamma_point.dat".toList) (by decide +kernel) cwd J.yaml _
  show Starts _ _ (bandTrace J.S J.j' J.fl J.pic cwd (postResolve cwd J.o J.r) force J.search k none d.files)
  unfold bandTrace
  simp only [h1, quiet_ok]
  have hpbc : numPbc o2.p = 0 := by simp [numPbc, hp]
  refine Starts.bind (w := [_]) ⟨⟨[], .ok o2⟩, ?_, only_list _ _ fun w hw => by cases hw⟩ fun o3 => (Only.quiet _).bind fun s => Only.bind ?_ fun _ => Only.bind ?_ fun _ => Only.pure _
  · rw [phonons_gamma h3 hpbc, hl]; rfl
  · refine only_list _ _ fun w hw => ?_
    simp only [bandWrites, List.mem_cons, List.not_mem_nil, or_false] at hw
    subst hw
    exact ⟨_, _, result_ne _ (k := "band.dat".toList) (by decide +kernel) (by decide +kernel), rfl⟩
  · exact only_picture' cwd "band.png".toList (by decide +kernel) (by decide +kernel) _

/-- The program ends with the write `y`, before it writes only `Q`; or it fails and writes only `Q`. -/
def EndsWith (y : Write) (Q : Write → Prop) (m : Traced Unit) : Prop :=
  (m.result = .ok () ∧ ∃ ws, m.writes = ws ++ [y] ∧ ∀ w ∈ ws, Q w) ∨ ((∃ e, m.result = .error e) ∧ ∀ w ∈ m.writes, Q w)

theorem EndsWith.after {α : Type} {y : Write} {Q : Write → Prop} {m : Traced α} {f : α → Traced Unit} (hm : Only Q m) (hf : ∀ a, EndsWith y Q (f a)) : EndsWith y Q (m >>= f) := by
  obtain ⟨w, r⟩ := m
  cases r with
  | error e => exact .inr ⟨⟨e, rfl⟩, hm⟩
  | ok a =>
    rcases hf a with ⟨h1, ws, h2, h3⟩ | ⟨⟨e, h1⟩, h2⟩
    · refine .inl ⟨h1, w ++ ws, ?_, fun x hx => (List.mem_append.1 hx).elim (hm x) (h3 x)⟩
      show w ++ (f a).writes = _
      rw [h2, List.append_assoc]
    · exact .inr ⟨⟨e, h1⟩, fun x hx => (List.mem_append.1 hx).elim (hm x) (h2 x)⟩

/-- **C138** (the record comes last).  If the program succeeds, the last file it has written is its record `post_process.yaml`, and it has written it once; if it ends with an exception, it has not written it.
So a run that was stopped at any moment has not touched the record unless everything else was complete. -/
theorem C138_record_last (J : PostJob) (cwd : Str) (fs : Fs) :
    ((J.trace cwd fs).result = .ok () ∧ ∃ ws, (J.trace cwd fs).writes = ws ++ [.text (cwd ++ "/post_process.yaml".toList) J.yaml] ∧ ∀ t, .text (cwd ++ "/post_process.yaml".toList) t ∉ ws) ∨
      ((∃ e, (J.trace cwd fs).result = .error e) ∧ ∀ t, .text (cwd ++ "/post_process.yaml".toList) t ∉ (J.trace cwd fs).writes) := by
  have hno : ∀ t, ¬ IsText (fun q => baseName q ≠ "post_process.yaml".toList) (.text (cwd ++ "/post_process.yaml".toList) t) := by
    rintro t ⟨q, t', hq, e⟩
    injection e with e1 e2
    rw [← e1] at hq
    exact hq (base_of cwd "post_process.yaml".toList (by decide +kernel))
  have hk : ∀ (x : Str) (k : String), '/' ∉ k.toList → k.toList ≠ "post_process.yaml".toList → baseName (x ++ '/' :: k.toList) ≠ "post_process.yaml".toList := fun x k h1 h2 => result_ne x h1 h2
  have key : EndsWith (.text (cwd ++ "/post_process.yaml".toList) J.yaml) (IsText fun q => baseName q ≠ "post_process.yaml".toList) (J.trace cwd fs) := by
    unfold PostJob.trace postTrace
    refine EndsWith.after (Only.quiet _) fun force => ?_
    refine EndsWith.after ?_ fun P0 => EndsWith.after ?_ fun _ => ?_
    · cases J.dos with
      | none => exact Only.pure _
      | some q =>
        refine Only.bind (only_dos _ _ _ _ _ _ _ _ _ _ _ (hk cwd "freqency_at_gamma_point.dat" ?_ ?_) (hk _ "total_dos.dat" ?_ ?_) (hk _ "projected_dos.dat" ?_ ?_) (hk cwd "dos.png" ?_ ?_)
          (hk _ "thermal_properties.dat" ?_ ?_) (hk cwd "thermal_properties.png" ?_ ?_)) fun _ => Only.pure _ <;> decide +kernel
    · cases J.band with
      | none => exact Only.pure _
      | some k =>
        refine only_band _ _ _ _ _ _ _ _ _ _ _ (hk cwd "freqency_at_gamma_point.dat" ?_ ?_) (hk _ "band.dat" ?_ ?_) (hk cwd "band.png" ?_ ?_) (hk cwd "band_dos.png" ?_ ?_) <;> decide +kernel
    · split
      · exact .inr ⟨⟨_, rfl⟩, fun w hw => by cases hw⟩
      · exact .inl ⟨rfl, [], rfl, fun w hw => by cases hw⟩
  rcases key with ⟨h1, ws, h2, h3⟩ | ⟨h1, h2⟩
  · exact .inl ⟨h1, ws, h2, fun t ht => hno t (h3 _ ht)⟩
  · exact .inr ⟨h1, fun t ht => hno t (h2 _ ht)⟩

/-! ### From the first command to the numbers in the files -/

/-- The number `a` in a file stands for `y`: the error of the double `fl y` and half a unit of the ninth decimal. -/
def Reads9 (fl : ℝ → ℚ) (y : ℝ) (a : Option Output.Num) : Prop := ∃ v : ℚ, a = some (.fin v) ∧ |(v : ℝ) - y| ≤ |(fl y : ℝ) - y| + 1 / 2 / 10 ^ 9

theorem reads9 (fl : ℝ → ℚ) (y : ℝ) : Reads9 fl y (some (rounded 9 (.fin (fl y)))) := by
  refine ⟨_, rfl, ?_⟩
  have h : |((rndDec 9 (fl y) - fl y : ℚ) : ℝ)| ≤ ((1 / 2 / 10 ^ 9 : ℚ) : ℝ) := by
    rw [← Rat.cast_abs]
    exact_mod_cast C94_rounding_error 9 (fl y)
  push_cast at h
  have := abs_add_le ((rndDec 9 (fl y) : ℝ) - (fl y : ℝ)) ((fl y : ℝ) - y)
  rw [sub_add_sub_cancel] at this
  linarith

theorem dir_resolved {cwd : Str} {o : PreOpts} {a : PreArg} {rec : PreRecord} (hs : '/' ∉ o.unitcell) (h : preRecord cwd o a none = .ok rec) : dirName (postResolve cwd {} rec).unitCellFile = cwd := by
  have h1 : (postResolve cwd {} rec).unitCellFile = absPath cwd o.unitcell := congrArg Prod.fst (C76_files_partial cwd o a none rec hs h)
  rw [h1, (paths (cwd := cwd) hs).1]
  have e : (cwd ++ '/' :: o.unitcell).reverse = o.unitcell.reverse ++ '/' :: cwd.reverse := by simp
  unfold dirName
  rw [e, List.dropWhile_append_of_pos (by intro y hy; have : y ≠ '/' := (by rintro rfl; exact hs (by simpa using hy)); simpa using this)]
  simp

/-- **C138** (from the input to the numbers in `band.dat`).  Under the hypotheses of C118 — a crystal with exact decimal coordinates and harmonic forces — the pre-process succeeds, and whatever post-process
command for the band alone is then given, with any picture options, when it has ended the working directory contains a file `band.dat` with one row per wave vector; for each wave vector that fits the enlarged
cell the numbers after the first one are the exact frequencies of the crystal, one for each degree of freedom, up to the error of a double and half a unit of the ninth decimal. -/
theorem C138_band_end_to_end {cwd : Str} {o : PreOpts} {code : Code} {a : PreArg} {e p : List ℤ} {d : ℚ} {u : Cell ℚ} {sel : List ℕ} {x : ℕ → FileArgs}
    {junk : ℕ → List (V3 ℚ)} {fs : Fs} (h : PreRun cwd o code a e p d u sel x junk fs) (hd : d ≠ 0) (hdet : u.lattice.det ≠ 0)
    (hxyz : u.xyzTrue = some (sel.flatMap fun a => [a, a, a])) (hdec : DecCell u) (hd16 : Dec16 d)
    (Φ : Springs) (hΦ : ∀ a x b y l, l ∈ (Φ a x b y).support → ∀ i : Fin 3, p.getD i 0 = 0 → l i = 0) (F0 : Rows ℝ)
    (search : Run (List (ℕ × List (V3 ℚ)))) (group : Run Str) :
    ∃ fs1 rec, preMain cwd o x junk search group fs = .ok (fs1, rec) ∧
      ∀ (J : PostJob) (D : Disk) (force : List Str) (kband t : Str) (ks : List (V3 ℚ)) (auto : List ℤ), IsSolver J.S → J.o = {} → J.r = rec → J.search = search → J.dos = none → J.band = some kband →
        forceFiles J.glob J.forceArgs = .ok force →
        Calculated code cwd o.unitcell fs1 D.files (superSprings (fun i => e.getD i 0) (e.getD 0 0 * e.getD 1 0 * e.getD 2 0).toNat Φ) F0 (6 * sel.length) force →
        D.files (absPath cwd kband) = some t → KPoints.setKPoints (readlines t) (fun c => decide (p.getD c 0 ≠ 0)) = .ok (ks, auto) → 2 ≤ ks.length →
        ∃ file mass, ((J.trace cwd D.files).writes.foldl perform D).files (cwd ++ "/band.dat".toList) = some file ∧ IsMasses u sel mass ∧ (readTable file).length = ks.length ∧
          ∀ (i : ℕ) (k : V3 ℚ), ks[i]? = some k → Fits (fun i => e.getD i 0) (fun i => p.getD i 0) (toReal k) →
            ∃ len nums row q, (readTable file)[i]? = some (len :: nums) ∧ (∀ c, dot3 q ((toR u).lattice c) = 2 * Real.pi * (k c : ℝ)) ∧
              IsSpectrum (trueDyn (toR u) sel mass Φ q (3 * sel.length)) row ∧ List.Forall₂ (Reads9 J.fl) row nums := by
  obtain ⟨fs1, rec0, -, -, -, hpre0, hrec, -⟩ := C118_preprocess h search group
  refine ⟨fs1, rec0, hpre0, ?_⟩
  intro J D force kband t ks auto hS hJo hJr hJs hdos hband hforce hcalc ht hks h2
  obtain ⟨fs1', rec, hpre, hall⟩ := C118_end_to_end h hd hdet hxyz hdec hd16 Φ hΦ F0 search group hS J.j'
  rw [hpre0] at hpre
  cases hpre
  obtain ⟨obj, rows, mass, hb, hmass, hlen, hrows⟩ := hall D.files J.glob J.forceArgs force hforce hcalc kband t ks auto ht hks h2
  rw [← hJo, ← hJr, ← hJs] at hb
  obtain ⟨file, hf, hr⟩ := C138_band_text hdos hband hb
  have hdir : J.dir cwd = cwd := by unfold PostJob.dir; rw [hJo, hJr]; exact dir_resolved h.slash hrec
  rw [hdir] at hf
  refine ⟨file, mass, hf, hmass, by rw [hr, List.length_map, hlen], fun i k hk hfit => ?_⟩
  obtain ⟨len, row, q, h3, h4, h5⟩ := hrows i k hk hfit
  refine ⟨_, _, row, q, by rw [hr, List.getElem?_map, h3]; rfl, h4, h5, ?_⟩
  rw [List.forall₂_map_right_iff]
  exact List.forall₂_same.2 fun y _ => reads9 J.fl y

/-- **C138** (from the input to the numbers in `total_dos.dat` and `thermal_properties.dat`).  Under the hypotheses of C121, with smearing: whatever post-process command with a density of states and thermal
properties is given, with any picture options, with or without a band, when it has ended `total_dos.dat` has one row per requested frequency, with the number of modes of the exact spectrum smeared with
Gaussians; if the first picture does not fail, `thermal_properties.dat` has one row per temperature with the harmonic free energy and entropy; all up to the error of a double and half a unit of the ninth
decimal. -/
theorem C138_dos_end_to_end {cwd : Str} {o : PreOpts} {code : Code} {a : PreArg} {e p : List ℤ} {d : ℚ} {u : Cell ℚ} {sel : List ℕ} {x : ℕ → FileArgs}
    {junk : ℕ → List (V3 ℚ)} {fs : Fs} (h : PreRun cwd o code a e p d u sel x junk fs) (hd : d ≠ 0) (hdet : u.lattice.det ≠ 0)
    (hxyz : u.xyzTrue = some (sel.flatMap fun a => [a, a, a])) (hdec : DecCell u) (hd16 : Dec16 d) (hsel : sel ≠ [])
    (Φ : Springs) (hΦ : ∀ a x b y l, l ∈ (Φ a x b y).support → ∀ i : Fin 3, p.getD i 0 = 0 → l i = 0) (hsymm : SymmetricSprings Φ) (F0 : Rows ℝ)
    (search : Run (List (ℕ × List (V3 ℚ)))) (group : Run Str) :
    ∃ fs1 rec, preMain cwd o x junk search group fs = .ok (fs1, rec) ∧
      ∀ (J : PostJob) (D : Disk) (force : List Str) (q : DosRequest) (temp : List ℤ) (t : Str) (ks : List (V3 ℚ)) (auto : List ℤ), IsSolver J.S → Normalised J.S → J.o = {} → J.r = rec → J.search = search →
        J.dos = some q → q.sigma ≠ 0 → 0 < q.num → q.temp = some temp → forceFiles J.glob J.forceArgs = .ok force →
        Calculated code cwd o.unitcell fs1 D.files (superSprings (fun i => e.getD i 0) (e.getD 0 0 * e.getD 1 0 * e.getD 2 0).toNat Φ) F0 (6 * sel.length) force →
        D.files (absPath cwd q.kfile) = some t → KPoints.setKPoints (readlines t) (fun c => decide (p.getD c 0 ≠ 0)) = .ok (ks, auto) → ks ≠ [] →
        (∀ k ∈ ks, Fits (fun i => e.getD i 0) (fun i => p.getD i 0) (toReal k)) →
        ∃ (mass : ℕ → ℝ) (rows : List (List ℝ)), IsMasses u sel mass ∧ rows.length = ks.length ∧
          (∀ (i : ℕ) (k : V3 ℚ), ks[i]? = some k → ∃ row q, rows[i]? = some row ∧ (∀ c, dot3 q ((toR u).lattice c) = 2 * Real.pi * (k c : ℝ)) ∧
            IsSpectrum (trueDyn (toR u) sel mass Φ q (3 * sel.length)) row) ∧
          (∃ file, ((J.trace cwd D.files).writes.foldl perform D).files (cwd ++ "/total_dos.dat".toList) = some file ∧ (readTable file).length = q.num ∧
            ∃ lo ∈ rows.flatten, ∃ hi ∈ rows.flatten, (∀ w ∈ rows.flatten, lo ≤ w ∧ w ≤ hi) ∧ ∀ i < q.num, ∃ n1 n2, (readTable file)[i]? = some [n1, n2] ∧
              Reads9 J.fl (lo - 2 + i * ((hi - lo + 4) / q.num)) n1 ∧
              Reads9 J.fl ((rows.flatten.map fun w => bell q.sigma w (lo - 2 + i * ((hi - lo + 4) / q.num))).sum / ks.length) n2) ∧
          (∀ pic, J.pic.dos = .ok pic → (∀ T ∈ temp, 0 < T) → (0 : ℝ) ∉ rows.flatten →
            ∃ file, ((J.trace cwd D.files).writes.foldl perform D).files (cwd ++ "/thermal_properties.dat".toList) = some file ∧ (readTable file).length = temp.length ∧
              ∀ (i : ℕ) (T : ℤ), temp[i]? = some T → ∃ n1 n2 n3, (readTable file)[i]? = some [n1, n2, n3] ∧ Reads9 J.fl T n1 ∧
                Reads9 J.fl (((rows.flatten.filter fun w => decide (0 ≤ w)).map fun w => oscF (quantum w) T).sum / (ks.length * sel.length)) n2 ∧
                Reads9 J.fl (((rows.flatten.filter fun w => decide (0 ≤ w)).map fun w => oscS (quantum w) T).sum / (ks.length * sel.length) * 1000) n3) := by
  obtain ⟨fs1, rec0, -, -, -, hpre0, hrec, -⟩ := C118_preprocess h search group
  refine ⟨fs1, rec0, hpre0, ?_⟩
  intro J D force q temp t ks auto hS hU hJo hJr hJs hdos hσ hnum htemp hforce hcalc ht hks hne hfits
  obtain ⟨fs1', rec, hpre, hall⟩ := C121_dos_thermal h hd hdet hxyz hdec hd16 hsel Φ hΦ hsymm F0 search group hS hU J.A J.j
  rw [hpre0] at hpre
  cases hpre
  obtain ⟨mass, rows, hmass, hlen, hrows, hrest⟩ := hall D.files J.glob J.forceArgs force hforce hcalc q.kfile t ks auto ht hks hne hfits
  obtain ⟨dos, th, hb, ⟨lo, hlo, hi, hhi, hbd, htot⟩, hth⟩ := hrest q.sigma q.num temp (by exact_mod_cast hσ) hnum
  rw [← hJo, ← hJr, ← hJs, ← htemp] at hb
  have hdir : J.dir cwd = cwd := by unfold PostJob.dir; rw [hJo, hJr]; exact dir_resolved h.slash hrec
  obtain ⟨⟨file, hf, hr⟩, -, hrow⟩ := C138_dos_text hdos hb
  rw [hdir] at hf
  refine ⟨mass, rows, hmass, hlen, hrows, ⟨file, hf, by rw [hr, htot]; simp, lo, hlo, hi, hhi, hbd, fun i hi' => ?_⟩, fun pic hpic hT h0 => ?_⟩
  · refine ⟨_, _, ?_, reads9 .., reads9 ..⟩
    rw [hr, htot, List.map_map, List.getElem?_map, List.getElem?_range hi']
    rfl
  · obtain ⟨file2, hf2, hr2⟩ := C138_thermal_text hdos hb (fun row hm => le_of_eq (hrow hσ row hm).symm) hpic
    rw [hdir] at hf2
    obtain ⟨e1, e2, e3⟩ := hth hT h0
    rw [e1, e2, e3] at hr2
    refine ⟨file2, hf2, by rw [hr2]; simp, fun i T hi' => ⟨_, _, _, ?_, reads9 .., reads9 .., reads9 ..⟩⟩
    rw [hr2, List.getElem?_map, List.zip_eq_zipWith, List.zip_eq_zipWith, List.getElem?_zipWith, List.getElem?_zipWith]
    simp only [List.getElem?_map, hi', Option.map_some]
    rfl

theorem call_p {S : PostProcess.Solver} {o o' : Object} {c : Call} (h : call S o c = .ok o') : o'.p = o.p := by
  obtain ⟨-, rfl⟩ := call_inv h
  exact (C89_inputs_kept S o [c]).2.2.2.1

/-- The object of the band has the periodicity that was recorded. -/
theorem band_pbc {S : PostProcess.Solver} {j : Junk} {cwd : Str} {o : PostOpts} {r : PreRecord} {glob : Str → List Str} {args : List Str} {k : Str} {search : Run (List (ℕ × List (V3 ℚ)))} {fs : Fs}
    {o2 : Object} {rows : List (ℝ × List ℝ)} {a : PreArg} (h : bandMain S j cwd o r glob args k search fs = .ok (o2, rows)) (ha : okState (setUserArgument {} (postResolve cwd o r).dict) = some a) :
    o2.p = vec a.periodicity := by
  unfold bandMain at h
  obtain ⟨force, hf, h⟩ := run_inv h
  obtain ⟨P, h1, h2⟩ := run_inv h
  obtain ⟨len, h3, -, -⟩ := bandOf_iff.1 h2
  unfold phonons at h3
  obtain ⟨t, -, h3⟩ := run_inv h3
  obtain ⟨o1, e2, e3⟩ := run_inv h3
  rw [call_p e3, call_p e2]
  unfold postSetup at h1
  obtain ⟨P0, n1, h⟩ := run_inv h1
  have hargs : P0.args = {} := by
    unfold newProcess at n1
    simp only at n1
    obtain ⟨_, -, n1⟩ := run_inv n1
    obtain ⟨_, -, n1⟩ := run_inv n1
    obtain ⟨_, -, n1⟩ := run_inv n1
    obtain ⟨_, -, n1⟩ := run_inv n1
    obtain ⟨_, -, n1⟩ := run_inv n1
    obtain ⟨_, -, n1⟩ := run_inv n1
    cases n1
    rfl
  unfold configure at h
  rw [hargs] at h
  simp only at h
  obtain ⟨u1, e1, h⟩ := run_inv h
  obtain ⟨u2, e2, h⟩ := run_inv h
  obtain ⟨u3, e3, h⟩ := run_inv h
  obtain ⟨s, e4, h⟩ := run_inv h
  obtain ⟨d, e5, h⟩ := run_inv h
  obtain ⟨sel, e6, h⟩ := run_inv h
  obtain ⟨o1, e7, h⟩ := run_inv h
  obtain ⟨structs, e8, h⟩ := run_inv h
  obtain ⟨u4, e9, h⟩ := run_inv h
  obtain ⟨forces, e10, h⟩ := run_inv h
  obtain ⟨o2, e11, h⟩ := run_inv h
  cases h
  show o2.p = _
  rw [call_p e11, call_p e7]
  show vec (setUserArgument {} (postResolve cwd o r).dict).1.periodicity = _
  have : (setUserArgument {} (postResolve cwd o r).dict).1 = a := by
    have e0 := raising_inv e1
    generalize setUserArgument {} (postResolve cwd o r).dict = z at ha e0
    obtain ⟨z1, z2⟩ := z
    cases e0
    exact Option.some.inj ha
  rw [this]

/-- The mass-weighted matrix of the force constants of a molecule (only the springs within cell `0`). -/
def moleculeDyn (sel : List ℕ) (mass : ℕ → ℝ) (Φ : Springs) (m : ℕ) : Matrix (Fin m) (Fin m) ℂ := Matrix.of fun r c =>
  ((Φ (sel.getD (r / 3) 0) (comp r) (sel.getD (c / 3) 0) (comp c) 0 : ℝ) : ℂ) / (Real.sqrt (mass r * mass c) : ℝ)

theorem molecule_charpoly (u : Cell ℝ) (sel : List ℕ) (mass : ℕ → ℝ) {Φ : Springs} (hΦ : ∀ a x b y l, l ∈ (Φ a x b y).support → l = 0) (q : V3 ℝ) (m : ℕ) :
    (trueDyn u sel mass Φ q m).charpoly = (moleculeDyn sel mass Φ m).charpoly := by
  let v : Fin m → ℂ := fun r => Complex.exp (Complex.I * (dot3 q (u.cart.getD (sel.getD (r / 3) 0) 0) : ℝ))
  let w : Fin m → ℂ := fun r => Complex.exp (-(Complex.I * (dot3 q (u.cart.getD (sel.getD (r / 3) 0) 0) : ℝ)))
  have hvw : ∀ r, v r * w r = 1 := fun r => by simp only [v, w]; rw [← Complex.exp_add, add_neg_cancel, Complex.exp_zero]
  have e : trueDyn u sel mass Φ q m = Matrix.diagonal v * moleculeDyn sel mass Φ m * Matrix.diagonal w := by
    ext r c
    rw [Matrix.mul_diagonal, Matrix.diagonal_mul]
    have hsum : ∀ f : (Fin 3 → ℤ) → ℝ → ℂ, (∀ l, f l 0 = 0) → ((Φ (sel.getD (r / 3) 0) (comp r) (sel.getD (c / 3) 0) (comp c)).sum f) = f 0 (Φ (sel.getD (r / 3) 0) (comp r) (sel.getD (c / 3) 0) (comp c) 0) := by
      intro f hf
      rw [Finsupp.sum_of_support_subset (s := {0}) _ (fun l hl => Finset.mem_singleton.2 (hΦ _ _ _ _ _ hl)) f (fun l _ => hf l), Finset.sum_singleton]
    simp only [trueDyn, moleculeDyn, Matrix.of_apply]
    rw [hsum _ (fun l => by simp)]
    have hl : latVec u.lattice 0 = 0 := by funext j; simp [latVec]
    have hd : dot3 q (u.cart.getD (sel.getD (r / 3) 0) 0 + latVec u.lattice 0 - u.cart.getD (sel.getD (c / 3) 0) 0) =
        dot3 q (u.cart.getD (sel.getD (r / 3) 0) 0) - dot3 q (u.cart.getD (sel.getD (c / 3) 0) 0) := by
      rw [hl, add_zero]
      simp only [dot3, Pi.sub_apply]
      ring
    rw [hd]
    have he : Complex.exp (Complex.I * ((dot3 q (u.cart.getD (sel.getD (r / 3) 0) 0) - dot3 q (u.cart.getD (sel.getD (c / 3) 0) 0) : ℝ) : ℂ)) = v r * w c := by
      simp only [v, w]
      rw [← Complex.exp_add]
      congr 1
      push_cast
      ring
    rw [he]
    ring
  rw [e, Matrix.mul_assoc, Matrix.charpoly_mul_comm, Matrix.mul_assoc, Matrix.diagonal_mul_diagonal]
  rw [show (fun i => w i * v i) = fun _ => 1 from funext fun i => by rw [mul_comm]; exact hvw i, Matrix.diagonal_one, Matrix.mul_one]

/-- **C138** (from the input to the frequencies of a molecule).  Under the hypotheses of C118 without periodic directions, whatever post-process command for the band is given, when it has ended
`freqency_at_gamma_point.dat` in the working directory contains the exact frequencies, one per line, up to the error of a double and half a unit of the ninth decimal. -/
theorem C138_molecule_end_to_end {cwd : Str} {o : PreOpts} {code : Code} {a : PreArg} {e p : List ℤ} {d : ℚ} {u : Cell ℚ} {sel : List ℕ} {x : ℕ → FileArgs}
    {junk : ℕ → List (V3 ℚ)} {fs : Fs} (h : PreRun cwd o code a e p d u sel x junk fs) (hp : ∀ i : Fin 3, p.getD i 0 = 0) (hd : d ≠ 0) (hdet : u.lattice.det ≠ 0)
    (hxyz : u.xyzTrue = some (sel.flatMap fun a => [a, a, a])) (hdec : DecCell u) (hd16 : Dec16 d)
    (Φ : Springs) (hΦ : ∀ a x b y l, l ∈ (Φ a x b y).support → l = 0) (F0 : Rows ℝ)
    (search : Run (List (ℕ × List (V3 ℚ)))) (group : Run Str) :
    ∃ fs1 rec, preMain cwd o x junk search group fs = .ok (fs1, rec) ∧
      ∀ (J : PostJob) (D : Disk) (force : List Str) (kband t : Str) (ks : List (V3 ℚ)) (auto : List ℤ), IsSolver J.S → J.o = {} → J.r = rec → J.search = search → J.dos = none → J.band = some kband →
        forceFiles J.glob J.forceArgs = .ok force →
        Calculated code cwd o.unitcell fs1 D.files (superSprings (fun i => e.getD i 0) (e.getD 0 0 * e.getD 1 0 * e.getD 2 0).toNat Φ) F0 (6 * sel.length) force →
        D.files (absPath cwd kband) = some t → KPoints.setKPoints (readlines t) (fun _ => false) = .ok (ks, auto) → 2 ≤ ks.length →
        ∃ file mass row nums, ((J.trace cwd D.files).writes.foldl perform D).files (cwd ++ "/freqency_at_gamma_point.dat".toList) = some file ∧ IsMasses u sel mass ∧
          IsSpectrum (moleculeDyn sel mass Φ (3 * sel.length)) row ∧ List.Forall₂ (Reads9 J.fl) row nums ∧ readTable file = nums.map fun n => [n] := by
  obtain ⟨fs1, rec0, -, -, -, hpre0, hrec, -⟩ := C118_preprocess h search group
  refine ⟨fs1, rec0, hpre0, ?_⟩
  intro J D force kband t ks auto hS hJo hJr hJs hdos hband hforce hcalc ht hks h2
  obtain ⟨fs1', rec, hpre, hall⟩ := C118_end_to_end h hd hdet hxyz hdec hd16 Φ (fun a x b y l hl i _ => by rw [hΦ a x b y l hl]; rfl) F0 search group hS J.j'
  rw [hpre0] at hpre
  cases hpre
  obtain ⟨obj, rows, mass, hb, hmass, hlen, hrows⟩ := hall D.files J.glob J.forceArgs force hforce hcalc kband t ks auto ht
    (by rw [show (fun c : Fin 3 => decide (p.getD c 0 ≠ 0)) = fun _ => false from funext fun c => by rw [hp c]; rfl]; exact hks) h2
  obtain ⟨hdict, -⟩ := C76_default_arguments_partial cwd cwd o {} {} a none rec0 h.args (by rw [h.displacement]; simp) hrec
  have hpp : ∀ c, obj.p c = 0 := fun c => by
    rw [band_pbc hb hdict, h.periodicity]
    exact hp c
  rw [← hJo, ← hJr, ← hJs] at hb
  have h0 : ks[0]? = some ks[0] := List.getElem?_eq_getElem (by omega)
  obtain ⟨len, row, q, h3, h4, h5⟩ := hrows 0 _ h0 (fun i hi => absurd (hp i) hi)
  obtain ⟨file, hf, hr⟩ := C138_gamma_text hdos hband hb hpp h3
  have h6 : IsSpectrum (moleculeDyn sel mass Φ (3 * sel.length)) row := by
    unfold IsSpectrum at h5 ⊢
    rw [← molecule_charpoly (toR u) sel mass hΦ q]
    exact h5
  refine ⟨file, mass, row, row.map fun y => some (rounded 9 (.fin (J.fl y))), hf, hmass, h6, ?_, by rw [hr, List.map_map]; rfl⟩
  rw [List.forall₂_map_right_iff]
  exact List.forall₂_same.2 fun y _ => reads9 J.fl y

/-! ### Examples -/

/-- The post-process of the chain with a band; no picture can be drawn. -/
def chainBandJob (S : PostProcess.Solver) (A : Argsorts) (j : Junk) (fl : ℝ → ℚ) (search : Run (List (ℕ × List (V3 ℚ)))) (rec : PreRecord) : PostJob where
  S := S
  A := A
  j := j
  j' := j
  fl := fl
  pic := ⟨.error .valueError, .error .valueError, .error .valueError, .error .valueError⟩
  yaml := []
  o := {}
  r := rec
  glob := fun _ => []
  forceArgs := chainForce
  dos := none
  band := some "KPOINTS".toList
  search := search

theorem chain_kpoints (fs1 : Fs) : chainFs2 fs1 (absPath "/w".toList "KPOINTS".toList) = some chainK := by
  have e1 : (List.range 6).find? (fun k => decide (absPath "/w".toList "KPOINTS".toList = chainDir k ++ "/POSCAR".toList)) = none := by decide +kernel
  have e2 : (List.range 6).find? (fun k => decide (absPath "/w".toList "KPOINTS".toList = chainDir k ++ "/vasprun.xml".toList)) = none := by decide +kernel
  simp only [chainFs2, e1, e2]
  rfl

theorem chain_kdos (fs1 : Fs) : chainFs2 fs1 (absPath "/w".toList "KDOS".toList) = some chainKdos := by
  have e1 : (List.range 6).find? (fun k => decide (absPath "/w".toList "KDOS".toList = chainDir k ++ "/POSCAR".toList)) = none := by decide +kernel
  have e2 : (List.range 6).find? (fun k => decide (absPath "/w".toList "KDOS".toList = chainDir k ++ "/vasprun.xml".toList)) = none := by decide +kernel
  simp only [chainFs2, e1, e2]
  rfl

/-- All hypotheses of `C138_band_end_to_end` are met by the chain, although drawing the picture fails: `band.dat` has two rows, the second one with the exact frequencies at `(1/2, 0, 0)`. -/
example (search : Run (List (ℕ × List (V3 ℚ)))) (group : Run Str) {S : PostProcess.Solver} (hS : IsSolver S) (A : Argsorts) (j : Junk) (fl : ℝ → ℚ) :
    ∃ fs1 rec file mass, preMain "/w".toList chainOpts (fun _ => chainArgs) (fun m => List.replicate m 0) search group chainFs = .ok (fs1, rec) ∧
      ((((chainBandJob S A j fl search rec).trace "/w".toList (chainFs2 fs1)).writes.foldl perform ⟨chainFs2 fs1, .missing⟩).files "/w/band.dat".toList = some file) ∧ (readTable file).length = 2 ∧
      ∃ len nums row q, (readTable file)[1]? = some (len :: nums) ∧ IsSpectrum (trueDyn (toR chainUnit) [0] mass stiffSprings q 3) row ∧ List.Forall₂ (Reads9 fl) row nums := by
  obtain ⟨fs1, rec, h1, h2⟩ := C138_band_end_to_end chain_preRun (by norm_num) chain_det rfl chain_dec ⟨2 * 10 ^ 14, by norm_num⟩ stiffSprings stiff_range (fun _ _ => 0) search group
  obtain ⟨file, mass, h3, -, h4, h5⟩ := h2 (chainBandJob S A j fl search rec) ⟨chainFs2 fs1, .missing⟩ chainForce "KPOINTS".toList chainK [![0, 0, 0], ![1 / 2, 0, 0]] [] hS rfl rfl rfl rfl rfl rfl
    (chain_calculated search group h1) (chain_kpoints fs1) (by decide +kernel) (by decide)
  obtain ⟨len, nums, row, q, a1, -, a2, a3⟩ := h5 1 _ rfl (by
    intro i hi
    fin_cases i
    · exact ⟨1, by simp [toReal]⟩
    · simp at hi
    · simp at hi)
  exact ⟨fs1, rec, file, mass, h1, h3, h4, len, nums, row, q, a1, a2, a3⟩

/-- The request of the chain: smearing 1, five rows, 300 K. -/
def chainRequest : DosRequest := ⟨"KDOS".toList, 1, 5, some [300]⟩

/-- All hypotheses of `C138_dos_end_to_end` are met by the chain (here the first picture is shown in a window). -/
example (search : Run (List (ℕ × List (V3 ℚ)))) (group : Run Str) (A : Argsorts) (j : Junk) (fl : ℝ → ℚ) :
    ∃ S fs1 rec file, preMain "/w".toList chainOpts (fun _ => chainArgs) (fun m => List.replicate m 0) search group chainFs = .ok (fs1, rec) ∧
      (((({ chainBandJob S A j fl search rec with dos := some chainRequest, band := none, pic := ⟨.ok none, .ok none, .ok none, .ok none⟩ } : PostJob).trace "/w".toList (chainFs2 fs1)).writes.foldl perform
        ⟨chainFs2 fs1, .missing⟩).files "/w/total_dos.dat".toList = some file) ∧ (readTable file).length = 5 := by
  obtain ⟨S, hS, hU⟩ := normalised_solver_exists
  obtain ⟨fs1, rec, h1, h2⟩ := C138_dos_end_to_end chain_preRun (by norm_num) chain_det rfl chain_dec ⟨2 * 10 ^ 14, by norm_num⟩ (by simp) stiffSprings stiff_range stiff_symmetric (fun _ _ => 0) search group
  obtain ⟨mass, rows, -, -, -, ⟨file, h3, h4, -⟩, -⟩ := h2 { chainBandJob S A j fl search rec with dos := some chainRequest, band := none, pic := ⟨.ok none, .ok none, .ok none, .ok none⟩ }
    ⟨chainFs2 fs1, .missing⟩ chainForce chainRequest [300] chainKdos [![1 / 2, 0, 0]] [] hS hU rfl rfl rfl rfl (by decide +kernel) (by decide) rfl rfl
    (chain_calculated search group h1) (chain_kdos fs1) (by decide +kernel) (by simp) (by
      intro k hk
      have : k = ![1 / 2, 0, 0] := by simpa using hk
      subst this
      intro i hi
      fin_cases i
      · exact ⟨1, by simp [toReal]⟩
      · simp at hi
      · simp at hi)
  exact ⟨S, fs1, rec, file, h1, h3, h4⟩

/-- The files read for the chain are not called like result files, so `C138_repeat` and `C138_both_text` speak about it. -/
theorem chain_reads {S : PostProcess.Solver} {A : Argsorts} {j : Junk} {fl : ℝ → ℚ} {search : Run (List (ℕ × List (V3 ℚ)))} {rec : PreRecord} {a : PreArg} {dos : Option DosRequest} {pic : Pictures}
    (h : preRecord "/w".toList chainOpts a none = .ok rec) (hd : ∀ q, dos = some q → q.kfile = "KDOS".toList) :
    ∀ p, ({ chainBandJob S A j fl search rec with dos := dos, pic := pic } : PostJob).Reads "/w".toList p →
      ¬ IsResult "/w".toList (({ chainBandJob S A j fl search rec with dos := dos, pic := pic } : PostJob).dir "/w".toList) p := by
  have h1 := C76_files_partial "/w".toList chainOpts a none rec (by decide +kernel) h
  have hu : (postResolve "/w".toList {} rec).unitCellFile = "/w/POSCAR".toList := (congrArg Prod.fst h1).trans (by decide +kernel)
  have hs : (postResolve "/w".toList {} rec).superCellFile = "/w/SUPERCELL".toList := (congrArg Prod.snd h1).trans (by decide +kernel)
  intro p hp
  have hdir : ({ chainBandJob S A j fl search rec with dos := dos, pic := pic } : PostJob).dir "/w".toList = "/w".toList := by
    show dirName (postResolve "/w".toList {} rec).unitCellFile = _
    rw [hu]; decide +kernel
  rw [hdir]
  have hforce : ∀ f ∈ chainForce, ¬ IsResult "/w".toList "/w".toList f ∧ ¬ IsResult "/w".toList "/w".toList (dirName f ++ '/' :: baseName "/w/POSCAR".toList) := by
    unfold IsResult
    decide +kernel
  rcases hp with rfl | rfl | ⟨x, hx, rfl⟩ | ⟨k, hk, rfl⟩ | ⟨force, f, hf, hm, rfl | rfl⟩
  · show ¬ IsResult _ _ (postResolve "/w".toList {} rec).unitCellFile
    rw [hu]; unfold IsResult; decide +kernel
  · show ¬ IsResult _ _ (postResolve "/w".toList {} rec).superCellFile
    rw [hs]; unfold IsResult; decide +kernel
  · rw [hd x hx]; unfold IsResult; decide +kernel
  · have : k = "KPOINTS".toList := (Option.some.inj hk).symm
    rw [this]; unfold IsResult; decide +kernel
  · have : force = chainForce := by cases hf; rfl
    rw [this] at hm
    exact (hforce p hm).1
  · have : force = chainForce := by cases hf; rfl
    rw [this] at hm
    show ¬ IsResult _ _ (dirName f ++ '/' :: baseName (postResolve "/w".toList {} rec).unitCellFile)
    rw [hu]
    exact (hforce f hm).2

/-- `C138_both_text` and `C138_repeat` apply to the chain: density of states, thermal properties and band in one run, in a directory where the same job was stopped before, at any moment. -/
example (search : Run (List (ℕ × List (V3 ℚ)))) (group : Run Str) (A : Argsorts) (j : Junk) (fl : ℝ → ℚ) : ∃ (S : PostProcess.Solver) (fs1 : Fs) (rec : PreRecord) (J : PostJob),
    preMain "/w".toList chainOpts (fun _ => chainArgs) (fun m => List.replicate m 0) search group chainFs = .ok (fs1, rec) ∧ J.r = rec ∧ J.dos = some chainRequest ∧ J.band = some "KPOINTS".toList ∧
      ∀ d', Interrupted (J.trace "/w".toList (chainFs2 fs1)).writes ⟨chainFs2 fs1, .missing⟩ d' →
        ∃ t, ((J.trace "/w".toList d'.files).writes.foldl perform d').files "/w/band.dat".toList = some t ∧ (readTable t).length = 2 := by
  obtain ⟨S, fs1, rec, x, b, hpre, hboth, hlen⟩ := chain_both search group A j j
  obtain ⟨_, rec', _, _, _, h1, hrec, -, -, -, -, -, hkeep⟩ := C118_preprocess chain_preRun search group
  rw [hpre] at h1; cases h1
  have hreads := fun dos pic hd => chain_reads (S := S) (A := A) (j := j) (fl := fl) (search := search) (dos := dos) (pic := pic) hrec hd
  have hJ : ∃ J : PostJob, J = { chainBandJob S A j fl search rec with dos := some chainRequest, pic := ⟨.ok none, .ok none, .ok none, .ok none⟩ } := ⟨_, rfl⟩
  obtain ⟨J, hJ⟩ := hJ
  have hn : ∀ p, J.Reads "/w".toList p → ¬ IsResult "/w".toList (J.dir "/w".toList) p := by
    rw [hJ]
    exact hreads _ _ (by intro q hq; cases hq; rfl)
  have hdir : J.dir "/w".toList = "/w".toList := by
    show dirName (postResolve "/w".toList J.o J.r).unitCellFile = _
    rw [hJ]
    show dirName (postResolve "/w".toList {} rec).unitCellFile = _
    rw [show (postResolve "/w".toList {} rec).unitCellFile = "/w/POSCAR".toList from (congrArg Prod.fst (C76_files_partial "/w".toList chainOpts _ none rec (by decide +kernel) hrec)).trans (by decide +kernel)]
    decide +kernel
  refine ⟨S, fs1, rec, J, hpre, by rw [hJ]; rfl, by rw [hJ], by rw [hJ]; rfl, fun d' hint => ?_⟩
  have hb : bothMain J.S J.A J.j J.j' "/w".toList J.o J.r J.glob J.forceArgs chainRequest.kfile "KPOINTS".toList chainRequest.sigma chainRequest.num chainRequest.temp J.search (chainFs2 fs1) = .ok ((x.1, x.2), b) := by
    rw [hJ, ← hboth]
    show bothMain _ _ _ _ _ _ _ _ _ _ _ ((1 : ℚ) : ℝ) _ _ _ _ = _
    rw [Rat.cast_one]
    rfl
  obtain ⟨⟨force, P2, hf, hp⟩, hσ⟩ : (∃ force P2, forceFiles J.glob J.forceArgs = .ok force ∧ dosPart J.S J.A J.j (postResolve "/w".toList J.o J.r) force J.search (absPath "/w".toList chainRequest.kfile) chainRequest.sigma chainRequest.num
      chainRequest.temp (chainFs2 fs1) = .ok (P2, x.1, x.2)) ∧ ((chainRequest.sigma : ℚ) : ℝ) ≠ 0 := by
    refine ⟨?_, by norm_num [chainRequest]⟩
    unfold bothMain at hb
    obtain ⟨force, hf, h⟩ := run_inv hb
    obtain ⟨⟨P2, s', th'⟩, hpart, h⟩ := run_inv h
    obtain ⟨P3, hc, h⟩ := run_inv h
    obtain ⟨⟨o3, rows'⟩, hband, h⟩ := run_inv h
    cases h
    exact ⟨force, P2, hf, hpart⟩
  obtain ⟨P, o2, -, -, h3, -, -⟩ := dosPart_iff hp
  have hrow := (dos_shape h3).2 (.inl hσ)
  obtain ⟨t, h4, h5⟩ := C138_both_text (d := ⟨chainFs2 fs1, .missing⟩) (x := none) (y := none) (by rw [hJ]) (by rw [hJ]; rfl) hb hn (fun row hm => le_of_eq (hrow row hm).symm) (by rw [hJ]) (by rw [hJ])
  obtain ⟨-, h6, h7⟩ := C138_repeat (J := J) (.one (.none ⟨chainFs2 fs1, .missing⟩) J rfl hint) hn
  refine ⟨t, ?_, by rw [h5, List.length_map, hlen]⟩
  rw [hdir] at h4
  rcases texts_at (J.trace "/w".toList (chainFs2 fs1)).writes "/w/band.dat".toList with ⟨⟨t', ht⟩, -⟩ | ⟨hno, -⟩
  · rw [h6, foldl_files, ht]
    rw [foldl_files] at h4
    exact (ht _).symm.trans h4
  · exfalso
    have e1 : (List.range 6).find? (fun k => decide ("/w/band.dat".toList = chainDir k ++ "/POSCAR".toList)) = none := by decide +kernel
    have e2 : (List.range 6).find? (fun k => decide ("/w/band.dat".toList = chainDir k ++ "/vasprun.xml".toList)) = none := by decide +kernel
    have e3 : chainFs2 fs1 "/w/band.dat".toList = fs1 "/w/band.dat".toList := by
      simp only [chainFs2, e1, e2]
      rw [if_neg (by decide +kernel), if_neg (by decide +kernel), if_neg (by decide +kernel)]
    have e4 : fs1 "/w/band.dat".toList = chainFs "/w/band.dat".toList := hkeep _ (by decide +kernel) fun k _ _ hk => by
      have := congrArg (fun l : Str => l.getD 3 'x') hk
      simp [fileName, chainOpts] at this
    have e5 : chainFs "/w/band.dat".toList = none := by decide +kernel
    rw [foldl_files] at h4
    have h4' := (hno (chainFs2 fs1)).symm.trans h4
    exact Option.some_ne_none t (h4'.symm.trans (e3.trans (e4.trans e5)))

end
end Interphon.Props
