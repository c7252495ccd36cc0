import Verif.Model.ModeTrace
import Verif.Props.PostInterrupt
import Verif.Props.PostRecord
import Verif.Props.ProgramMode
import Verif.Props.ProgramModeExample

/-! # C140: the files of the mode analysis -/

namespace Interphon.Props
open Py Interphon Interphon.UnitCell Interphon.SuperCell Interphon.PreProcess Interphon.Args Interphon.Inout Interphon.Cli Interphon.Main
open Interphon.PostProcess Interphon.Phonon Interphon.ForceConstant Interphon.Mode

noncomputable section

/-! ### Specification -/

/-- The file of the animation of mode `z` at the k point `k`. -/
def animationFile (dir : Str) (shown : V3 ℝ → Str) (z : ℤ) (k : V3 ℝ) : Str := dir ++ "/XDATCAR_phonon_mode_".toList ++ intStr z ++ "_".toList ++ shown k

/-- The file of the structure displaced along mode `z`. -/
def displacedFile (cwd : Str) (z : ℤ) : Str := cwd ++ "/MPOSCAR-".toList ++ intStr z

/-- The files a post-process with a mode analysis may write. -/
def IsModeResult (cwd dir : Str) (shown : V3 ℝ → Str) (q : Str) : Prop :=
  q = cwd ++ "/freqency_at_gamma_point.dat".toList ∨ q = dir ++ "/band.dat".toList ∨ q = cwd ++ "/band.png".toList ∨ (∃ z k, q = animationFile dir shown z k) ∨
    (∃ z, q = dir ++ "/Trajectory_".toList ++ intStr z ++ ".traj".toList) ∨ (∃ z, q = displacedFile cwd z) ∨ q = cwd ++ "/post_process.yaml".toList

/-- A call of the post-process with `-band` and `-mode`: options, record, output files, what is asked for, and what cannot be known. -/
structure ModeJob where
  S : Solver
  j : Junk
  fl : ℝ → ℚ
  pic : Run (Option Str)
  yaml : Str
  mj : ModeJunk
  L : ℚ → ℚ
  junk : ℕ → List (V3 ℝ)
  shown : V3 ℝ → Str
  sh : Show
  x : FileArgs
  o : PostOpts
  r : PreRecord
  glob : Str → List Str
  forceArgs : List Str
  kband : Str
  inds : PyVal
  k : V3 ℚ
  amplitude : Option ℝ
  search : Run (List (ℕ × List (V3 ℚ)))

/-- The writes and the outcome of the job. -/
def ModeJob.trace (J : ModeJob) (cwd : Str) (fs : Fs) : Traced Unit :=
  modePostTrace J.S J.j J.fl J.pic J.yaml J.mj J.L J.junk J.shown J.sh J.x cwd J.o J.r J.glob J.forceArgs J.kband J.inds J.k J.amplitude J.search fs

/-- The directory of the unit cell. -/
def ModeJob.dir (J : ModeJob) (cwd : Str) : Str := dirName (postResolve cwd J.o J.r).unitCellFile

/-- The disk after the job has come to its end (normally or by an exception). -/
def ModeJob.after (J : ModeJob) (cwd : Str) (D : Disk) : Disk := (J.trace cwd D.files).writes.foldl perform D

/-- What the numerical part of the job computes: rows of `band.dat`, animations, displaced structures. -/
def ModeJob.outcome (J : ModeJob) (cwd : Str) (fs : Fs) : Run (List (ℝ × List ℝ) × List Movie × List (ℤ × Cell ℝ)) :=
  modeMain J.S J.j J.mj J.L J.junk cwd J.o J.r J.glob J.forceArgs J.kband J.inds J.k J.amplitude J.search fs

/-- The number `a` in a structure file stands for `y`: the error of the double `fl y` and half a unit of the sixteenth decimal. -/
def Reads16 (fl : ℝ → ℚ) (y : ℝ) (a : ℚ) : Prop := |(a : ℝ) - y| ≤ |(fl y : ℝ) - y| + 1 / 2 / 10 ^ 16

/-- A row of three numbers in a file stands for the vector `v`. -/
def ReadsRow (fl : ℝ → ℚ) (v : V3 ℝ) (row : List ℚ) : Prop := row.length = 3 ∧ ∀ c : Fin 3, Reads16 fl (v c) (row.getD c 0)

/-! ### Proofs -/

theorem animation_path (dir : Str) (shown : V3 ℝ → Str) (m : Movie) : moviePath dir shown m = animationFile dir shown m.ind m.k := by
  unfold moviePath animationFile
  have : "/XDATCAR_phonon_mode_".toList = '/' :: "XDATCAR_phonon_mode_".toList := by decide +kernel
  rw [this]
  simp

theorem displaced_path (cwd : Str) (z : ℤ) : displacedPath cwd z = displacedFile cwd z := by
  unfold displacedPath displacedFile
  have : "/MPOSCAR-".toList = '/' :: "MPOSCAR-".toList := by decide +kernel
  rw [this]
  simp

theorem only_forEach {α : Type} {P : Write → Prop} {f : α → Traced Unit} (h : ∀ a, Only P (f a)) (l : List α) : Only P (forEach f l) := by
  induction l with
  | nil => exact Only.pure _
  | cons a l ih => rw [forEach]; exact (h a).bind fun _ => ih

theorem only_movie {P : Write → Prop} (fl : ℝ → ℚ) (dir : Str) (shown : V3 ℝ → Str) (u : Cell ℝ) (m : Movie) (h : ∀ t, P (.text (animationFile dir shown m.ind m.k) t)) :
    Only P (movieTrace fl dir shown u m) := by
  unfold movieTrace
  split
  · exact only_list _ _ fun w hw => by cases hw
  · refine only_list _ _ fun w hw => ?_
    simp only [List.mem_cons, List.not_mem_nil, or_false] at hw
    subst hw
    rw [animation_path]; exact h _

theorem only_show {P : Write → Prop} (dir : Str) (s : Show) (h : ∀ z t, P (.text (dir ++ "/Trajectory_".toList ++ intStr z ++ ".traj".toList) t)) : Only P (showTrace dir s) := by
  unfold showTrace
  refine only_list _ _ fun w hw => ?_
  obtain ⟨f, -, rfl⟩ := List.mem_map.1 hw
  have e : dir ++ '/' :: ("Trajectory_".toList ++ intStr f.1 ++ ".traj".toList) = dir ++ "/Trajectory_".toList ++ intStr f.1 ++ ".traj".toList := by
    have : "/Trajectory_".toList = '/' :: "Trajectory_".toList := by decide +kernel
    rw [this]
    simp
  rw [e]
  exact h _ _

theorem only_displaced {Q : Str → Prop} (fl : ℝ → ℚ) (code : Str) (x : FileArgs) (shown : V3 ℝ → Str) (cwd : Str) (L : ℚ → ℚ) (junk : ℕ → List (V3 ℝ)) (o : Object) (m : Obj) (k : V3 ℚ) (amp : ℝ)
    (h : ∀ z, Q (displacedFile cwd z)) : Only (IsText Q) (displaceTrace fl code x shown cwd L junk o m k amp) := by
  unfold displaceTrace
  refine (Only.quiet _).bind fun _ => (Only.quiet _).bind fun _ => (Only.quiet _).bind fun _ => Only.bind (only_forEach (fun st => ?_) _) fun _ => Only.quiet _
  exact only_traceTo _ _ _ _ (by rw [displaced_path]; exact h _)

theorem assign_len (cart : List (V3 ℝ)) (sel : List ℕ) (d : ℕ → V3 ℝ) : (assignRows cart sel d).length = cart.length := by
  unfold assignRows
  generalize sel.zipIdx = l
  induction l generalizing cart with
  | nil => rfl
  | cons a l ih => rw [List.foldl_cons, ih, List.length_set]

/-- What is written before the mode analysis. -/
theorem only_mode {Q : Str → Prop} (fl : ℝ → ℚ) (mj : ModeJunk) (L : ℚ → ℚ) (junk : ℕ → List (V3 ℝ)) (shown : V3 ℝ → Str) (sh : Show) (dir cwd code : Str) (x : FileArgs) (inds : PyVal) (k : V3 ℚ)
    (amplitude : Option ℝ) (o : Object) (h1 : ∀ z k, Q (animationFile dir shown z k)) (h2 : ∀ z, Q (dir ++ "/Trajectory_".toList ++ intStr z ++ ".traj".toList)) (h3 : ∀ z, Q (displacedFile cwd z)) :
    Only (IsText Q) (modeTrace fl mj L junk shown sh dir cwd code x inds k amplitude o) := by
  unfold modeTrace
  refine (Only.quiet _).bind fun _ => Only.bind (only_forEach (fun m => only_movie _ _ _ _ _ fun t => ⟨_, _, h1 _ _, rfl⟩) _) fun _ => (Only.quiet _).bind fun _ =>
    Only.bind (only_show _ _ fun z t => ⟨_, _, h2 z, rfl⟩) fun _ => ?_
  cases amplitude with
  | none => exact Only.pure _
  | some a => exact only_displaced _ _ _ _ _ _ _ _ _ _ _ h3

theorem only_modePost (J : ModeJob) (cwd : Str) (fs : Fs) : Only (IsText (IsModeResult cwd (J.dir cwd) J.shown)) (J.trace cwd fs) := by
  unfold ModeJob.trace modePostTrace
  refine (Only.quiet _).bind fun force => (Only.quiet _).bind fun P => Only.bind ?_ fun o2 => (Only.quiet _).bind fun len => Only.bind ?_ fun _ => Only.bind ?_ fun _ => Only.bind ?_ fun _ => ?_
  · refine (only_phonons J.S J.fl cwd fs _ _).mono ?_
    rintro w ⟨q, t, rfl, rfl⟩
    exact ⟨_, _, .inl rfl, rfl⟩
  · refine only_list _ _ fun w hw => ?_
    simp only [bandWrites, List.mem_cons, List.not_mem_nil, or_false] at hw
    subst hw
    exact ⟨_, _, .inr (.inl rfl), rfl⟩
  · exact only_picture _ (fun t => ⟨_, _, .inr (.inr (.inl rfl)), rfl⟩) _
  · exact only_mode _ _ _ _ _ _ _ _ _ _ _ _ _ _ (fun z k => .inr (.inr (.inr (.inl ⟨z, k, rfl⟩)))) (fun z => .inr (.inr (.inr (.inr (.inl ⟨z, rfl⟩))))) (fun z => .inr (.inr (.inr (.inr (.inr (.inl ⟨z, rfl⟩))))))
  · exact only_list _ _ fun w hw => ⟨_, _, .inr (.inr (.inr (.inr (.inr (.inr rfl))))), by simpa using hw⟩

/-- **C140** (inputs are kept).  Whatever modes are asked for, and whenever the program is stopped, by an exception or from outside: no file other than the result files has changed, and the
record of the pre-process is the same. -/
theorem C140_inputs_kept (J : ModeJob) (cwd : Str) {d d' : Disk} (h : Interrupted (J.trace cwd d.files).writes d d') :
    d'.record = d.record ∧ ∀ q, ¬ IsModeResult cwd (J.dir cwd) J.shown q → d'.files q = d.files q := h.texts_only (only_modePost J cwd d.files)

/-- After a sequence of texts a file has the content `t`, if one write puts it there and no other write of that file has another content. -/
def Agrees (q t : Str) (w : Write) : Prop := ∃ q' t', w = .text q' t' ∧ (q' = q → t' = t)

theorem settled {q t : Str} : ∀ (ws : List Write), Write.text q t ∈ ws → (∀ w ∈ ws, Agrees q t w) → ∀ d : Disk, (ws.foldl perform d).files q = some t := by
  intro ws
  induction ws using List.reverseRecOn with
  | nil => intro h; cases h
  | append_singleton ws w ih =>
    intro h hall d
    rw [List.foldl_append]
    obtain ⟨q', t', rfl, hw⟩ := hall w (by simp)
    show put _ q' t' q = _
    by_cases e : q' = q
    · rw [hw e, e, put, if_pos rfl]
    · rw [put, if_neg (Ne.symm e)]
      refine ih ?_ (fun w hw => hall w (by simp [hw])) d
      rcases List.mem_append.1 h with h | h
      · exact h
      · rw [List.mem_singleton] at h
        injection h with h1 h2
        exact absurd h1.symm e

theorem forEach_ok {α : Type} {f : α → Traced Unit} {w : α → List Write} (l : List α) (h : ∀ a ∈ l, f a = ⟨w a, .ok ()⟩) : forEach f l = ⟨l.flatMap w, .ok ()⟩ := by
  induction l with
  | nil => rfl
  | cons a l ih =>
    rw [forEach, h a (by simp), ih fun b hb => h b (by simp [hb])]
    rfl

theorem forEach_map {α β : Type} (f : β → Traced Unit) (g : α → β) (l : List α) : forEach f (l.map g) = forEach (fun a => f (g a)) l := by
  induction l with
  | nil => rfl
  | cons a l ih => rw [List.map_cons, forEach, forEach, ih]

theorem quiet_unit (m : Traced Unit) : (m >>= fun _ => quiet (.ok ())) = m := by
  obtain ⟨w, r⟩ := m
  cases r with
  | error e => rfl
  | ok a => show (⟨w ++ [], .ok ()⟩ : Traced Unit) = ⟨w, .ok a⟩; rw [List.append_nil]

theorem raising_none {x : Option PyErr} {a : Unit} (h : raising x = .ok a) : x = none := by
  cases x with
  | none => rfl
  | some e => cases h

theorem displace_done {fl : ℝ → ℚ} {code : Str} {x : FileArgs} {shown : V3 ℝ → Str} {cwd : Str} {L : ℚ → ℚ} {junk : ℕ → List (V3 ℝ)} {o : Object} {m : Obj} {k : V3 ℚ} {amp : ℝ}
    {structs : List (ℤ × Cell ℝ)} (h : displaceOf L junk o m k amp = .ok structs) : displaceTrace fl code x shown cwd L junk o m k amp =
      forEach (fun st => traceTo code { x with comment := displacedComment shown st.1 m.k } (displacedPath cwd st.1) (roundCell fl { st.2 with selective := true })) structs := by
  unfold displaceOf at h
  obtain ⟨s0, h1, h⟩ := run_inv h
  obtain ⟨s, h2, h⟩ := run_inv h
  obtain ⟨mass, h3, h⟩ := run_inv h
  obtain ⟨_, h4, h⟩ := run_inv h
  cases h
  unfold displaceTrace
  beta_reduce
  rw [forEach_map]
  show (quiet _ >>= fun _ => _) = _
  rw [h1, quiet_ok, h2, quiet_ok, h3, quiet_ok]
  show (_ >>= fun _ => quiet _) = _
  rw [h4]
  exact quiet_unit _

/-- The mode analysis after the numbers are known. -/
theorem mode_done {fl : ℝ → ℚ} {mj : ModeJunk} {L : ℚ → ℚ} {junk : ℕ → List (V3 ℝ)} {shown : V3 ℝ → Str} {sh : Show} {dir cwd code : Str} {x : FileArgs} {inds : PyVal} {k : V3 ℚ}
    {amp : Option ℝ} {o : Object} {movies : List Movie} {structs : List (ℤ × Cell ℝ)} (h : modeOf mj L junk inds k amp o = .ok (movies, structs)) :
    ∃ kc, modeTrace fl mj L junk shown sh dir cwd code x inds k amp o = forEach (movieTrace fl dir shown o.unit) movies >>= fun _ => showTrace dir sh >>= fun _ =>
      forEach (fun st => traceTo code { x with comment := displacedComment shown st.1 kc } (displacedPath cwd st.1) (roundCell fl { st.2 with selective := true })) structs := by
  unfold modeOf at h
  obtain ⟨_, h1, h⟩ := run_inv h
  obtain ⟨_, h2, h⟩ := run_inv h
  obtain ⟨d, h3, h⟩ := run_inv h
  cases h
  refine ⟨((Obj.new mj.k mj.mode).set (o.kPoints.map toReal) (o.vq.map fun rows => rows.map fun row d => row.getD d 0) inds (toReal k)).1.k, ?_⟩
  unfold modeTrace
  simp only
  rw [h1, quiet_ok, h2]
  congr 1
  funext _
  rw [quiet_ok]
  congr 1
  funext _
  cases amp with
  | none => cases h3; rfl
  | some a => exact displace_done h3

/-- The program up to the mode analysis. -/
theorem modePost_done {J : ModeJob} {cwd : Str} {fs : Fs} {rows : List (ℝ × List ℝ)} {movies : List Movie} {structs : List (ℤ × Cell ℝ)} {y : Option Str}
    (h : J.outcome cwd fs = .ok (rows, movies, structs)) (hy : J.pic = .ok y) :
    ∃ force P o2 w0 kc, forceFiles J.glob J.forceArgs = .ok force ∧ postSetup J.S J.j (postResolve cwd J.o J.r) force J.search fs = .ok P ∧ phonons J.S fs (absPath cwd J.kband) P.obj = .ok o2 ∧
      (∀ w ∈ w0, IsText (fun q => q = cwd ++ "/freqency_at_gamma_point.dat".toList ∨ q = J.dir cwd ++ "/band.dat".toList ∨ q = cwd ++ "/band.png".toList) w) ∧
      J.trace cwd fs = (⟨w0, .ok ()⟩ : Traced Unit) >>= fun _ => (forEach (movieTrace J.fl (J.dir cwd) J.shown o2.unit) movies >>= fun _ => showTrace (J.dir cwd) J.sh >>= fun _ =>
        forEach (fun st => traceTo (postResolve cwd J.o J.r).dft { J.x with comment := displacedComment J.shown st.1 kc } (displacedPath cwd st.1) (roundCell J.fl { st.2 with selective := true })) structs)
        >>= fun _ => ⟨[.text (cwd ++ "/post_process.yaml".toList) J.yaml], .ok ()⟩ := by
  unfold ModeJob.outcome modeMain at h
  obtain ⟨⟨o2, rows'⟩, h1, h⟩ := run_inv h
  obtain ⟨⟨mv, sts⟩, h2, h⟩ := run_inv h
  cases h
  unfold bandMain at h1
  obtain ⟨force, f1, h1⟩ := run_inv h1
  obtain ⟨P, f2, h1⟩ := run_inv h1
  obtain ⟨len, f3, f4, -⟩ := bandOf_iff.1 h1
  obtain ⟨w1, f5⟩ := phonons_done (fl := J.fl) (cwd := cwd) f3
  obtain ⟨w2, f6⟩ := picture_done (path := cwd ++ "/band.png".toList) hy
  obtain ⟨kc, f7⟩ := mode_done (fl := J.fl) (shown := J.shown) (sh := J.sh) (dir := J.dir cwd) (cwd := cwd) (code := (postResolve cwd J.o J.r).dft) (x := J.x) h2
  refine ⟨force, P, o2, w1 ++ (bandWrites J.fl (J.dir cwd) len o2.wq ++ w2), kc, f1, f2, f3, ?_, ?_⟩
  · intro w hw
    rcases List.mem_append.1 hw with hw | hw
    · have := only_phonons J.S J.fl cwd fs (absPath cwd J.kband) P.obj
      rw [f5] at this
      obtain ⟨q, t, rfl, rfl⟩ := this w hw
      exact ⟨_, _, .inl rfl, rfl⟩
    · rcases List.mem_append.1 hw with hw | hw
      · simp only [bandWrites, List.mem_cons, List.not_mem_nil, or_false] at hw
        subst hw
        exact ⟨_, _, .inr (.inl rfl), rfl⟩
      · have := only_picture (P := IsText fun q => q = cwd ++ "/freqency_at_gamma_point.dat".toList ∨ q = J.dir cwd ++ "/band.dat".toList ∨ q = cwd ++ "/band.png".toList)
          (cwd ++ "/band.png".toList) (fun t => ⟨_, _, .inr (.inr rfl), rfl⟩) J.pic
        rw [f6] at this
        exact this w hw
  · unfold ModeJob.trace modePostTrace
    rw [f1, quiet_ok, f2, quiet_ok, f5]
    show (⟨w1 ++ _, _⟩ : Traced Unit) = _
    simp only [f4, quiet_ok]
    rw [f6]
    change (⟨w1 ++ (bandWrites J.fl (J.dir cwd) len o2.wq ++ (w2 ++ _)), _⟩ : Traced Unit) = _
    rw [← f7]
    show _ = (⟨(w1 ++ (bandWrites J.fl (J.dir cwd) len o2.wq ++ w2)) ++ _, _⟩ : Traced Unit)
    rw [List.append_assoc, List.append_assoc]
    rfl

/-! ### The structures can be written -/

theorem round_structure {u : Cell ℚ} {groups : List (Str × ℕ)} (h : IsStructure u groups) (fl : ℝ → ℚ) : IsStructure (roundCell fl (toR u)) groups :=
  ⟨h.nonempty, h.positive, h.token, h.types, h.counts, by
    show (((u.cart.map toReal).map _)).length = _
    rw [List.length_map, List.length_map]; exact h.len⟩

/-- The super cell of a k point, with any positions, is a structure that can be written. -/
theorem super_writable {junk : ℕ → List (V3 ℝ)} {u : Cell ℚ} {sel : List ℕ} {n p : Fin 3 → ℤ} {s0 s : Cell ℝ} (hu : GoodUnit u sel) (h : GoodCall junk (toR u) n p)
    (hs0 : setSuperCell junk (toR u) n p = .ok s0) (hs : setSuperIndTrue s0 (toR u) n p = .ok s) (fl : ℝ → ℚ) {W : List (V3 ℝ)} (hW : W.length = s.cart.length) :
    Writable (roundCell fl { s with cart := W, selective := true }) ∧ ∀ t, t ∈ s.atomType ↔ t ∈ u.atomType := by
  have hq : GoodCall (fun m => List.replicate m (0 : V3 ℚ)) u n p := ⟨by simp, by have := h.types; simpa [toR] using this, h.pos, h.cons⟩
  obtain ⟨t0, t1, e0, -, hw, c1, -, y1, m1, hsl, hmem, a1, -⟩ := pre_super_ok hq hu
  have l1 := (C07_supercell_counts_types h hs0).1
  have l2 := (C07_supercell_counts_types hq e0).1
  rw [setSuperCell_eq h] at hs0
  rw [setSuperCell_eq hq] at e0
  unfold setSuperIndTrue at hs
  simp only [enlarge_eq n p h.cons] at hs
  rw [show (toR u).atomTrue = some sel from hu.selected] at hs
  cases hs
  have hty : s0.atomType = t1.atomType := by
    rw [y1]; cases hs0; cases e0; rfl
  have hnum : s0.numAtom = t1.numAtom := by
    rw [m1]; cases hs0; cases e0; rfl
  have hlen : W.length = t1.cart.length := by
    rw [hW, c1, l2]
    show s0.cart.length = _
    rw [l1]; simp [toR]
  obtain ⟨⟨groups, hg⟩, hn, hs⟩ := hw
  refine ⟨⟨⟨groups, hg.nonempty, hg.positive, hg.token, ?_, ?_, ?_⟩, ?_, fun _ => ?_⟩, fun t => ?_⟩
  · show s0.atomType = _
    rw [hty]; exact hg.types
  · show s0.numAtom = _
    rw [hnum]; exact hg.counts
  · show (W.map _).length = s0.atomType.length
    rw [List.length_map, hty, hlen]; exact hg.len
  · show ∀ t ∈ s0.atomType, _
    rw [hty]; exact hn
  · obtain ⟨sel', q1, q2, q3⟩ := hs hsl
    rw [a1] at q1
    cases q1
    refine ⟨_, rfl, q2, fun a ha => ?_⟩
    show a < (W.map _).length
    rw [List.length_map, hlen]; exact q3 a ha
  · show t ∈ s0.atomType ↔ _
    rw [hty]; exact hmem t

/-! ### The names of the files -/

theorem same_start {cwd s s' t t' : Str} (h : cwd ++ s ++ t = cwd ++ s' ++ t') (hl : 2 ≤ s.length) (hl' : 2 ≤ s'.length) : s.take 2 = s'.take 2 := by
  rw [List.append_assoc, List.append_assoc] at h
  have e := congrArg (List.take 2) (List.append_cancel_left h)
  rwa [List.take_append_of_le_length hl, List.take_append_of_le_length hl'] at e

theorem animation_eq (cwd : Str) (shown : V3 ℝ → Str) (z : ℤ) (k : V3 ℝ) : animationFile cwd shown z k = cwd ++ "/XDATCAR_phonon_mode_".toList ++ (intStr z ++ "_".toList ++ shown k) := by
  simp [animationFile]

theorem trajectory_eq (cwd : Str) (z : ℤ) : cwd ++ "/Trajectory_".toList ++ intStr z ++ ".traj".toList = cwd ++ "/Trajectory_".toList ++ (intStr z ++ ".traj".toList) := by simp

theorem animation_inj {cwd : Str} {shown : V3 ℝ → Str} {z z' : ℤ} {k : V3 ℝ} (h : animationFile cwd shown z k = animationFile cwd shown z' k) : z = z' := by
  rw [animation_eq, animation_eq] at h
  have h2 := List.append_cancel_left h
  exact intStr_inj (List.append_cancel_right (List.append_cancel_right h2))

theorem displaced_inj {cwd : Str} {z z' : ℤ} (h : displacedFile cwd z = displacedFile cwd z') : z = z' := intStr_inj (List.append_cancel_left h)

/-- Two paths in one directory whose names begin differently. -/
theorem names_differ {cwd s s' : Str} (t t' : Str) (h : 2 ≤ s.length ∧ 2 ≤ s'.length ∧ s.take 2 ≠ s'.take 2) : cwd ++ s ++ t ≠ cwd ++ s' ++ t' := fun e => h.2.2 (same_start e h.1 h.2.1)

theorem animation_ne {cwd : Str} {shown : V3 ℝ → Str} {z : ℤ} {k : V3 ℝ} :
    (animationFile cwd shown z k ≠ cwd ++ "/freqency_at_gamma_point.dat".toList ∧ animationFile cwd shown z k ≠ cwd ++ "/band.dat".toList ∧ animationFile cwd shown z k ≠ cwd ++ "/band.png".toList) ∧
      (∀ z', animationFile cwd shown z k ≠ cwd ++ "/Trajectory_".toList ++ intStr z' ++ ".traj".toList) ∧ (∀ z', animationFile cwd shown z k ≠ displacedFile cwd z') ∧
      animationFile cwd shown z k ≠ cwd ++ "/post_process.yaml".toList := by
  rw [animation_eq]
  refine ⟨⟨?_, ?_, ?_⟩, fun z' => ?_, fun z' => names_differ _ _ (by decide +kernel), ?_⟩
  · rw [← List.append_nil (cwd ++ "/freqency_at_gamma_point.dat".toList)]; exact names_differ _ _ (by decide +kernel)
  · rw [← List.append_nil (cwd ++ "/band.dat".toList)]; exact names_differ _ _ (by decide +kernel)
  · rw [← List.append_nil (cwd ++ "/band.png".toList)]; exact names_differ _ _ (by decide +kernel)
  · rw [trajectory_eq]; exact names_differ _ _ (by decide +kernel)
  · rw [← List.append_nil (cwd ++ "/post_process.yaml".toList)]; exact names_differ _ _ (by decide +kernel)

theorem displaced_ne {cwd : Str} {z : ℤ} :
    (displacedFile cwd z ≠ cwd ++ "/freqency_at_gamma_point.dat".toList ∧ displacedFile cwd z ≠ cwd ++ "/band.dat".toList ∧ displacedFile cwd z ≠ cwd ++ "/band.png".toList) ∧
      (∀ z', displacedFile cwd z ≠ cwd ++ "/Trajectory_".toList ++ intStr z' ++ ".traj".toList) ∧ displacedFile cwd z ≠ cwd ++ "/post_process.yaml".toList := by
  unfold displacedFile
  refine ⟨⟨?_, ?_, ?_⟩, fun z' => ?_, ?_⟩
  · rw [← List.append_nil (cwd ++ "/freqency_at_gamma_point.dat".toList)]; exact names_differ _ _ (by decide +kernel)
  · rw [← List.append_nil (cwd ++ "/band.dat".toList)]; exact names_differ _ _ (by decide +kernel)
  · rw [← List.append_nil (cwd ++ "/band.png".toList)]; exact names_differ _ _ (by decide +kernel)
  · rw [trajectory_eq]; exact names_differ _ _ (by decide +kernel)
  · rw [← List.append_nil (cwd ++ "/post_process.yaml".toList)]; exact names_differ _ _ (by decide +kernel)

theorem trajectory_ne {cwd : Str} {z : ℤ} : cwd ++ "/Trajectory_".toList ++ intStr z ++ ".traj".toList ≠ cwd ++ "/post_process.yaml".toList := by
  rw [trajectory_eq, ← List.append_nil (cwd ++ "/post_process.yaml".toList)]; exact names_differ _ _ (by decide +kernel)

theorem text_agrees {Q : Str → Prop} {q t : Str} (hq : ¬ Q q) {w : Write} (h : IsText Q w) : Agrees q t w := by
  obtain ⟨q', t', h1, rfl⟩ := h
  exact ⟨q', t', rfl, fun e => absurd (e ▸ h1) hq⟩

theorem mem_left {α β : Type} {m : Traced α} {f : α → Traced β} {w : Write} (h : w ∈ m.writes) : w ∈ (m >>= f).writes := by
  obtain ⟨ws, r⟩ := m
  cases r with
  | error e => exact h
  | ok a => exact List.mem_append_left _ h

theorem mem_right {α β : Type} {m : Traced α} {f : α → Traced β} {w : Write} {ws : List Write} {a : α} (hm : m = ⟨ws, .ok a⟩) (h : w ∈ (f a).writes) : w ∈ (m >>= f).writes := by
  subst hm; exact List.mem_append_right _ h

theorem traceTo_ok {code : Code} {x : FileArgs} {path : Str} {c : Cell ℚ} {ls : List Str} (h : writeFile code x c = .ok ls) : traceTo code.name x path c = ⟨[.text path ls.flatten], .ok ()⟩ := by
  have hw := fun fs => writeTo_ok (fs := fs) path h
  rcases traceTo_cases code.name x path c with ⟨t, h1, h2⟩ | ⟨e, h1, h2⟩ | ⟨h1, h2, h3⟩
  · have e := (hw fun _ => none).symm.trans (h2 fun _ => none)
    have e1 := Except.ok.inj e
    have e2 := congrFun e1 path
    simp only [put, if_true, Option.some.injEq] at e2
    rw [h1, e2]
  · have e := (hw fun _ => none).symm.trans (h2 fun _ => none)
    cases e
  · exact absurd rfl (h3 code)

/-! ### From the input to the files -/

section
variable {u : Cell ℚ} {sel : List ℕ} {Φ : Springs} {i : ℕ} {k : V3 ℚ} {l : List ℤ}

/-- The post-process of the run, with everything that is not determined by it. -/
def ModeInput.job (r : ModeInput u sel Φ i k l) (S : Solver) (j : Junk) (mj : ModeJunk) (fl : ℝ → ℚ) (pic : Run (Option Str)) (yaml : Str) (shown : V3 ℝ → Str) (sh : Show) (x : FileArgs)
    (amplitude : Option ℝ) : ModeJob :=
  ⟨S, j, fl, pic, yaml, mj, r.L, r.jc, shown, sh, x, {}, r.record, r.glob, r.args, r.kband, r.inds, k, amplitude, r.search⟩

/-- The texts of the animations and what is done after them. -/
theorem mode_writes (r : ModeInput u sel Φ i k l) {S : Solver} (hS : IsSolver S) (j : Junk) (mj : ModeJunk) (fl : ℝ → ℚ) {pic : Run (Option Str)} {y : Option Str} (hy : pic = .ok y)
    (yaml : Str) (shown : V3 ℝ → Str) (sh : Show) (x : FileArgs) (amplitude : Option ℝ) {rows : List (ℝ × List ℝ)} {movies : List Movie} {structs : List (ℤ × Cell ℝ)}
    (h : (r.job S j mj fl pic yaml shown sh x amplitude).outcome r.cwd r.fs2 = .ok (rows, movies, structs)) :
    (r.job S j mj fl pic yaml shown sh x amplitude).dir r.cwd = r.cwd ∧ ∃ (w0 : List Write) (kc : V3 ℝ) (ls : Movie → List Str),
      (∀ w ∈ w0, IsText (fun q => q = r.cwd ++ "/freqency_at_gamma_point.dat".toList ∨ q = r.cwd ++ "/band.dat".toList ∨ q = r.cwd ++ "/band.png".toList) w) ∧
      (∀ m ∈ movies, m.k = toReal k ∧ m.frames.length = 30 ∧ (∀ f ∈ m.frames, f.length = u.cart.length) ∧ Output.modeFile (roundCell fl (toR u)) (m.frames.map fun f => f.map fun v i => fl (v i)) = .ok (ls m)) ∧
      (∀ m ∈ movies, ∀ m' ∈ movies, m.ind = m'.ind → m = m') ∧ (∀ s ∈ structs, ∀ s' ∈ structs, s.1 = s'.1 → s = s') ∧
      (∀ s ∈ structs, Writable (roundCell fl { s.2 with selective := true }) ∧ (∀ t, t ∈ s.2.atomType ↔ t ∈ u.atomType) ∧ s.2.atomTrue ≠ none) ∧
      (r.job S j mj fl pic yaml shown sh x amplitude).trace r.cwd r.fs2 =
        (⟨w0, .ok ()⟩ : Traced Unit) >>= fun _ => ((⟨movies.flatMap fun m => [.text (animationFile r.cwd shown m.ind m.k) (ls m).flatten], .ok ()⟩ : Traced Unit) >>= fun _ => showTrace r.cwd sh >>= fun _ =>
        forEach (fun st => traceTo r.code.name { x with comment := displacedComment shown st.1 kc } (displacedFile r.cwd st.1) (roundCell fl { st.2 with selective := true })) structs)
        >>= fun _ => ⟨[.text (r.cwd ++ "/post_process.yaml".toList) yaml], .ok ()⟩ := by
  obtain ⟨fs1, rec0, -, -, -, hpre0, hrec, -⟩ := C118_preprocess r.run r.search r.group
  have e := r.pre
  rw [hpre0] at e
  cases e
  have hdir : (r.job S j mj fl pic yaml shown sh x amplitude).dir r.cwd = r.cwd := dir_resolved r.run.slash hrec
  have hdft : (postResolve r.cwd {} r.record).dft = r.code.name :=
    ((C76_default_arguments_partial r.cwd r.cwd r.o {} {} r.a none r.record r.run.args (by rw [r.run.displacement]; simp) hrec).2).trans r.run.code
  obtain ⟨force, P, o2, w0, kc, f1, f2, f3, f4, f5⟩ := modePost_done h hy
  rw [hdir] at f4 f5
  have hunit : o2.unit = toR u := by
    obtain ⟨fs1', rec', hpre', hmain⟩ := post_ok r.run r.d0 r.det r.xyz r.dec r.d16 Φ r.range r.F0 r.search r.group hS j
    rw [hpre0] at hpre'
    cases hpre'
    obtain ⟨P', mass, hP, -, ⟨hu, -⟩, -⟩ := hmain r.fs2 r.force r.calculated
    have e1 : force = r.force := Except.ok.inj (f1.symm.trans r.files)
    rw [e1] at f2
    have e2 : P = P' := Except.ok.inj (f2.symm.trans hP)
    rw [(phonons_inputs f3).1, e2, hu]
  obtain ⟨groups, hg⟩ := r.run.unit.groups
  obtain ⟨rows', mass, len, hmass, -, -, hnone, s, sm, hset, hsome⟩ := C135_files r hS j mj
  have hmv : movies = l.map (fun z => ⟨z, toReal k, animation (toR u).cart sel ((List.range (3 * sel.length)).map mass) 30
          (modeRow S (trueDyn (toR u) sel mass Φ (qOf (toReal k) (reciprocal (toR u).lattice)) (3 * sel.length)) (designates (3 * sel.length) z))⟩) ∧
      (structs = [] ∨ ∃ amp : ℝ, structs = l.map fun z => (z, { s with cart := (modeStructure r.L (toR u) s sel k (fun i => r.p.getD i 0) sm amp
          (modeRow S (trueDyn (toR u) sel mass Φ (qOf (toReal k) (reciprocal (toR u).lattice)) (3 * sel.length)) (designates (3 * sel.length) z))) })) := by
    cases amplitude with
    | none =>
      have e : r.outcome S j mj none = .ok (rows, movies, structs) := h
      rw [hnone] at e
      cases e
      exact ⟨rfl, .inl rfl⟩
    | some a =>
      have e : r.outcome S j mj (some a) = .ok (rows, movies, structs) := h
      rw [hsome a] at e
      cases e
      exact ⟨rfl, .inr ⟨a, rfl⟩⟩
  obtain ⟨hmv, hst⟩ := hmv
  have hframes : ∀ m ∈ movies, m.k = toReal k ∧ m.frames.length = 30 ∧ ∀ f ∈ m.frames, f.length = u.cart.length := by
    intro m hm
    rw [hmv] at hm
    obtain ⟨z, -, rfl⟩ := List.mem_map.1 hm
    refine ⟨rfl, by simp [animation], fun f hf => ?_⟩
    obtain ⟨t, -, rfl⟩ := animation_mem.1 hf
    simp [image, toR]
  have hfile : ∀ m ∈ movies, ∃ ls, Output.modeFile (roundCell fl (toR u)) (m.frames.map fun f => f.map fun v i => fl (v i)) = .ok ls := by
    intro m hm
    obtain ⟨-, h1, h2⟩ := hframes m hm
    obtain ⟨ls, h3, -⟩ := C96_animation_file (roundCell fl (toR u)) groups (round_structure hg fl) (m.frames.map fun f => f.map fun v i => fl (v i))
      (by intro h0; rw [List.map_eq_nil_iff] at h0; rw [h0] at h1; simp at h1)
      (by
        intro f hf
        obtain ⟨g, hg, rfl⟩ := List.mem_map.1 hf
        rw [List.length_map, h2 g hg]
        simp [roundCell, toR])
    exact ⟨ls, h3⟩
  classical
  refine ⟨hdir, w0, kc, fun m => if hm : m ∈ movies then (hfile m hm).choose else [], f4, fun m hm => ⟨(hframes m hm).1, (hframes m hm).2.1, (hframes m hm).2.2, ?_⟩, ?_, ?_, ?_, ?_⟩
  · beta_reduce
    rw [dif_pos hm]; exact (hfile m hm).choose_spec
  · intro m hm m' hm' hz
    rw [hmv] at hm hm'
    obtain ⟨z, -, rfl⟩ := List.mem_map.1 hm
    obtain ⟨z', -, rfl⟩ := List.mem_map.1 hm'
    have : z = z' := hz
    rw [this]
  · intro m hm m' hm' hz
    rcases hst with rfl | ⟨amp, rfl⟩
    · cases hm
    · obtain ⟨z, -, rfl⟩ := List.mem_map.1 hm
      obtain ⟨z', -, rfl⟩ := List.mem_map.1 hm'
      have : z = z' := hz
      rw [this]
  · intro m hm
    rcases hst with rfl | ⟨amp, rfl⟩
    · cases hm
    · obtain ⟨z, -, rfl⟩ := List.mem_map.1 hm
      obtain ⟨s0, b1, b2⟩ := hset.built
      obtain ⟨c1, c2⟩ := super_writable r.run.unit hset.call b1 b2 fl (W := modeStructure r.L (toR u) s sel k (fun i => r.p.getD i 0) sm amp
        (modeRow S (trueDyn (toR u) sel mass Φ (qOf (toReal k) (reciprocal (toR u).lattice)) (3 * sel.length)) (designates (3 * sel.length) z)))
        (by unfold modeStructure writeModeDisplace; exact assign_len _ _ _)
      exact ⟨c1, c2, by show s.atomTrue ≠ none; rw [hset.super.2.2]; simp⟩
  · rw [f5, hunit]
    congr 1
    funext _
    congr 1
    have hmt : forEach (movieTrace fl r.cwd shown (toR u)) movies =
        ⟨movies.flatMap fun m => [.text (animationFile r.cwd shown m.ind m.k) (if hm : m ∈ movies then (hfile m hm).choose else []).flatten], .ok ()⟩ := by
      refine forEach_ok movies fun m hm => ?_
      unfold movieTrace
      rw [animation_path]
      simp only [dif_pos hm]
      have e := (hfile m hm).choose_spec
      generalize (hfile m hm).choose = ls at e ⊢
      rw [e]
    show (forEach (movieTrace fl r.cwd shown (toR u)) movies >>= fun _ => _) = _
    rw [hmt]
    have hd : (postResolve r.cwd (r.job S j mj fl pic yaml shown sh x amplitude).o (r.job S j mj fl pic yaml shown sh x amplitude).r).dft = r.code.name := hdft
    rw [hd]
    simp only [displaced_path]
    rfl

theorem reads16 (fl : ℝ → ℚ) (y : ℝ) : Reads16 fl y (rndDec 16 (fl y)) := by
  have h : |((rndDec 16 (fl y) - fl y : ℚ) : ℝ)| ≤ ((1 / 2 / 10 ^ 16 : ℚ) : ℝ) := by
    rw [← Rat.cast_abs]
    exact_mod_cast C94_rounding_error 16 (fl y)
  unfold Reads16
  push_cast at h
  have := abs_add_le ((rndDec 16 (fl y) : ℝ) - (fl y : ℝ)) ((fl y : ℝ) - y)
  rw [sub_add_sub_cancel] at this
  linarith

theorem reads_row (fl : ℝ → ℚ) (v : V3 ℝ) : ReadsRow fl v [rndDec 16 (fl (v 0)), rndDec 16 (fl (v 1)), rndDec 16 (fl (v 2))] :=
  ⟨rfl, fun c => by fin_cases c <;> exact reads16 fl _⟩

theorem showTrace_ok {dir : Str} {sh : Show} (h : sh.error = none) : ∃ w, showTrace dir sh = ⟨w, .ok ()⟩ := by
  unfold showTrace; rw [h]; exact ⟨_, rfl⟩

theorem showTrace_error {dir : Str} {sh : Show} {e : PyErr} (h : sh.error = some e) : ∃ w, showTrace dir sh = ⟨w, .error e⟩ := by
  unfold showTrace; rw [h]; exact ⟨_, rfl⟩

/-- **C140** (the animations).  In a run as in C135, whatever the viewer does and whether or not displaced structures are asked for: if the picture does not fail, then at the end there is for
every index asked for a file with the index and the k point in its name; it has 30 images, and image number `n`, read as a VASP structure, has the lattice and the atoms of the unit cell and the
positions of image `n` of the animation that C135 describes, up to the error of a double and half a unit of the sixteenth decimal. -/
theorem C140_animations (r : ModeInput u sel Φ i k l) {S : Solver} (hS : IsSolver S) (j : Junk) (mj : ModeJunk) (fl : ℝ → ℚ) {pic : Run (Option Str)} {y : Option Str} (hy : pic = .ok y)
    (yaml : Str) (shown : V3 ℝ → Str) (sh : Show) (x : FileArgs) (amplitude : Option ℝ) (D : Disk) (hD : D.files = r.fs2) {rows : List (ℝ × List ℝ)} {movies : List Movie}
    {structs : List (ℤ × Cell ℝ)} (h : (r.job S j mj fl pic yaml shown sh x amplitude).outcome r.cwd r.fs2 = .ok (rows, movies, structs)) :
    ∀ m ∈ movies, ∃ file, ((r.job S j mj fl pic yaml shown sh x amplitude).after r.cwd D).files (animationFile r.cwd shown m.ind m.k) = some file ∧ m.k = toReal k ∧ m.frames.length = 30 ∧
      (readlines file).length = 7 + 30 * (u.cart.length + 1) ∧ ∀ (n : ℕ) (f : List (V3 ℝ)), m.frames[n]? = some f → ∃ P, Vasp.readInput (structureAt u.cart.length n (readlines file)) = .ok P ∧
        P.atomType = u.atomType ∧ P.numAtom = u.numAtom ∧ P.coordinate = "cartesian".toList ∧
        List.Forall₂ (ReadsRow fl) ((List.finRange 3).map (toR u).lattice) P.lattice ∧ List.Forall₂ (ReadsRow fl) f P.cart := by
  obtain ⟨hdir, w0, kc, ls, a1, a2, a3, a4, a5, a6⟩ := mode_writes r hS j mj fl hy yaml shown sh x amplitude h
  intro m hm
  obtain ⟨b1, b2, b3, b4⟩ := a2 m hm
  obtain ⟨groups, hg⟩ := r.run.unit.groups
  obtain ⟨n1, n2, n3, n4⟩ := @animation_ne r.cwd shown m.ind m.k
  obtain ⟨ls', c1, c2, c3, c4⟩ := C96_animation_file (roundCell fl (toR u)) groups (round_structure hg fl) (m.frames.map fun f => f.map fun v i => fl (v i))
      (by intro h0; rw [List.map_eq_nil_iff] at h0; rw [h0] at b2; simp at b2)
      (by
        intro f hf
        obtain ⟨g, hg, rfl⟩ := List.mem_map.1 hf
        rw [List.length_map, b3 g hg]
        simp [roundCell, toR])
  rw [b4] at c1
  cases c1
  have hlen : (roundCell fl (toR u)).cart.length = u.cart.length := by simp [roundCell, toR]
  rw [hlen] at c3 c4
  refine ⟨(ls m).flatten, ?_, b1, b2, by rw [c2, c3, List.length_map, b2], fun n f hf => ?_⟩
  · unfold ModeJob.after
    rw [hD, a6]
    refine settled _ ?_ ?_ D
    · refine mem_right rfl (mem_left (mem_left (f := fun _ => _) ?_))
      exact List.mem_flatMap.2 ⟨m, hm, by simp⟩
    · refine Only.bind (only_list _ _ fun w hw => ?_) fun _ => Only.bind (Only.bind (only_list _ _ fun w hw => ?_) fun _ => Only.bind (only_show _ _ fun z t => ?_) fun _ => only_forEach (fun st => ?_) _) fun _ => only_list _ _ fun w hw => ?_
      · exact text_agrees (by rintro (e | e | e); exacts [n1.1 e, n1.2.1 e, n1.2.2 e]) (a1 w hw)
      · obtain ⟨m', hm', hw⟩ := List.mem_flatMap.1 hw
        rw [List.mem_singleton] at hw
        subst hw
        refine ⟨_, _, rfl, fun e => ?_⟩
        rw [(a2 m' hm').1, b1] at e
        rw [a3 m' hm' m hm (animation_inj e)]
      · exact ⟨_, _, rfl, fun e => absurd e.symm (n2 z)⟩
      · refine (only_traceTo (Q := fun q => q = displacedFile r.cwd st.1) _ _ _ _ rfl).mono fun w hw => text_agrees (Q := fun q => q = displacedFile r.cwd st.1) (n3 st.1) hw
      · rw [List.mem_singleton] at hw
        subst hw
        exact ⟨_, _, rfl, fun e => absurd e.symm n4⟩
  · obtain ⟨-, P, d1, d2, d3, d4, d5, d6⟩ := c4 n (f.map fun v i => fl (v i)) (by rw [List.getElem?_map, hf]; rfl)
    rw [c2]
    refine ⟨P, d1, d3, d4, d5, ?_, ?_⟩
    · rw [d2]
      exact List.forall₂_map_right_iff.2 (List.forall₂_map_left_iff.2 (List.forall₂_same.2 fun c _ => reads_row fl ((toR u).lattice c)))
    · rw [d6, List.map_map, List.forall₂_map_right_iff]
      exact List.forall₂_same.2 fun v _ => reads_row fl v

/-- **C140** (the displaced structures).  If moreover the viewer does not fail, the program succeeds, the record is written, and every displaced structure asked for is in its file: read by
InterPhon in the format of the calculation it has the atoms and the selection of the super cell of the k point, and its lattice and positions are those of C135 up to the error of a double and
half a unit of the sixteenth decimal. -/
theorem C140_displaced (r : ModeInput u sel Φ i k l) {S : Solver} (hS : IsSolver S) (j : Junk) (mj : ModeJunk) (fl : ℝ → ℚ) {pic : Run (Option Str)} {y : Option Str} (hy : pic = .ok y)
    (yaml : Str) (shown : V3 ℝ → Str) (hshown : ∀ q, '\n' ∉ shown q) (sh : Show) (hsh : sh.error = none) (x : FileArgs) (hx : GoodFile u x) (amplitude : Option ℝ) (D : Disk) (hD : D.files = r.fs2)
    {rows : List (ℝ × List ℝ)} {movies : List Movie} {structs : List (ℤ × Cell ℝ)} (h : (r.job S j mj fl pic yaml shown sh x amplitude).outcome r.cwd r.fs2 = .ok (rows, movies, structs)) :
    ((r.job S j mj fl pic yaml shown sh x amplitude).trace r.cwd r.fs2).result = .ok () ∧
    ((r.job S j mj fl pic yaml shown sh x amplitude).after r.cwd D).files (r.cwd ++ "/post_process.yaml".toList) = some yaml ∧
    ∀ st ∈ structs, ∃ file, ((r.job S j mj fl pic yaml shown sh x amplitude).after r.cwd D).files (displacedFile r.cwd st.1) = some file ∧
      ∀ r0, ∃ raw b, readCell r0 r.code file = (raw, none) ∧ IsCell raw b ∧ b.atomType = st.2.atomType ∧ b.coordinate = .cartesian ∧ b.atomTrue = st.2.atomTrue ∧
        (∀ c c', Reads16 fl (st.2.lattice c c') (b.lattice c c')) ∧ b.cart.length = st.2.cart.length ∧
        ∀ (n : ℕ) (v : V3 ℝ), st.2.cart[n]? = some v → ∃ w : V3 ℚ, b.cart[n]? = some w ∧ ∀ c : Fin 3, Reads16 fl (v c) (w c) := by
  obtain ⟨hdir, w0, kc, ls, a1, a2, a3, a4, a5, a6⟩ := mode_writes r hS j mj fl hy yaml shown sh x amplitude h
  have hcomment : ∀ z, '\n' ∉ displacedComment shown z kc := by
    intro z hm
    unfold displacedComment at hm
    simp only [List.mem_append] at hm
    rcases hm with ((hm | hm) | hm) | hm
    · revert hm; decide +kernel
    · rw [intStr] at hm
      split at hm
      · rcases List.mem_cons.1 hm with hm | hm
        · cases hm
        · exact isDigit_ne (natStr_digits _ _ hm) (by decide) rfl
      · exact isDigit_ne (natStr_digits _ _ hm) (by decide) rfl
    · revert hm; decide +kernel
    · exact hshown _ hm
  have hw : ∀ st ∈ structs, ∃ lines, writeFile r.code { x with comment := displacedComment shown st.1 kc } (roundCell fl { st.2 with selective := true }) = .ok lines ∧
      ∀ r0, ∃ raw b, readCell r0 r.code lines.flatten = (raw, none) ∧ IsCell raw b ∧ Rounded (roundCell fl { st.2 with selective := true }) b := by
    intro st hst
    obtain ⟨h1, h2, -⟩ := a5 st hst
    exact C92_file_roundtrip r.code _ h1 _ ⟨hcomment st.1, fun t => (hx.species t).trans (h2 t).symm, hx.weight⟩
  classical
  have hd : forEach (fun st => traceTo r.code.name { x with comment := displacedComment shown st.1 kc } (displacedFile r.cwd st.1) (roundCell fl { st.2 with selective := true })) structs =
      ⟨structs.flatMap fun st => [.text (displacedFile r.cwd st.1) (if hst : st ∈ structs then (hw st hst).choose else []).flatten], .ok ()⟩ := by
    refine forEach_ok structs fun st hst => ?_
    simp only [dif_pos hst]
    exact traceTo_ok (hw st hst).choose_spec.1
  obtain ⟨w1, hw1⟩ := showTrace_ok (dir := r.cwd) hsh
  rw [hd, hw1] at a6
  refine ⟨by rw [a6]; rfl, ?_, ?_⟩
  · unfold ModeJob.after
    rw [hD, a6]
    show ((w0 ++ (_ ++ [_])).foldl perform D).files _ = _
    rw [List.foldl_append, List.foldl_append]
    show put _ _ _ _ = _
    rw [put, if_pos rfl]
  · intro st hst
    obtain ⟨n1, n2, n3⟩ := @displaced_ne r.cwd st.1
    refine ⟨((hw st hst).choose).flatten, ?_, ?_⟩
    · unfold ModeJob.after
      rw [hD, a6]
      refine settled _ ?_ ?_ D
      · refine mem_right rfl (mem_left (mem_right rfl (mem_right rfl ?_)))
        exact List.mem_flatMap.2 ⟨st, hst, by rw [dif_pos hst]; simp⟩
      · refine Only.bind (only_list _ _ fun w hw => ?_) fun _ => Only.bind (Only.bind (only_list _ _ fun w hw => ?_) fun _ => Only.bind ?_ fun _ => only_list _ _ fun w hw => ?_) fun _ => only_list _ _ fun w hw => ?_
        · exact text_agrees (by rintro (e | e | e); exacts [n1.1 e, n1.2.1 e, n1.2.2 e]) (a1 w hw)
        · obtain ⟨m', hm', hw⟩ := List.mem_flatMap.1 hw
          rw [List.mem_singleton] at hw
          subst hw
          exact ⟨_, _, rfl, fun e => absurd e (animation_ne.2.2.1 st.1)⟩
        · rw [← hw1]
          exact only_show _ _ fun z t => ⟨_, _, rfl, fun e => absurd e.symm (n2 z)⟩
        · obtain ⟨st', hst', hw⟩ := List.mem_flatMap.1 hw
          rw [List.mem_singleton] at hw
          subst hw
          refine ⟨_, _, rfl, fun e => ?_⟩
          have := a4 st' hst' st hst (displaced_inj e)
          subst this
          rw [dif_pos hst]
        · rw [List.mem_singleton] at hw
          subst hw
          exact ⟨_, _, rfl, fun e => absurd e.symm n3⟩
    · intro r0
      obtain ⟨raw, b, d1, d2, d3⟩ := (hw st hst).choose_spec.2 r0
      refine ⟨raw, b, d1, d2, d3.atomType, d3.coordinate, ?_, fun c c' => ?_, ?_, fun n v hv => ?_⟩
      · rw [d3.atomTrue]
        unfold selectedAtoms
        rw [if_pos (show (roundCell fl { st.2 with selective := true }).selective = true from rfl)]
        show some (st.2.atomTrue.getD []) = _
        cases hs : st.2.atomTrue with
        | none => exact absurd hs (a5 st hst).2.2
        | some l => rfl
      · rw [d3.lattice]; exact reads16 fl _
      · rw [d3.cart]; simp [roundCell]
      · refine ⟨fun c => rndDec 16 (fl (v c)), ?_, fun c => reads16 fl _⟩
        rw [d3.cart]
        show (((st.2.cart.map fun v i => fl (v i))).map _)[n]? = _
        rw [List.getElem?_map, List.getElem?_map, hv]
        rfl

/-- **C140** (without a viewer).  If the viewer fails — for instance because ASE is not installed — the animations are there (`C140_animations`), but the program ends with that exception: no
displaced structure that was asked for is written, and no record of the post-process. -/
theorem C140_viewer_fails (r : ModeInput u sel Φ i k l) {S : Solver} (hS : IsSolver S) (j : Junk) (mj : ModeJunk) (fl : ℝ → ℚ) {pic : Run (Option Str)} {y : Option Str} (hy : pic = .ok y)
    (yaml : Str) (shown : V3 ℝ → Str) (sh : Show) {e : PyErr} (hsh : sh.error = some e) (x : FileArgs) (amplitude : Option ℝ) (D : Disk) (hD : D.files = r.fs2)
    {rows : List (ℝ × List ℝ)} {movies : List Movie} {structs : List (ℤ × Cell ℝ)} (h : (r.job S j mj fl pic yaml shown sh x amplitude).outcome r.cwd r.fs2 = .ok (rows, movies, structs)) :
    ((r.job S j mj fl pic yaml shown sh x amplitude).trace r.cwd r.fs2).result = .error e ∧
    ((r.job S j mj fl pic yaml shown sh x amplitude).after r.cwd D).files (r.cwd ++ "/post_process.yaml".toList) = D.files (r.cwd ++ "/post_process.yaml".toList) ∧
    ∀ z, ((r.job S j mj fl pic yaml shown sh x amplitude).after r.cwd D).files (displacedFile r.cwd z) = D.files (displacedFile r.cwd z) := by
  obtain ⟨hdir, w0, kc, ls, a1, a2, a3, a4, a5, a6⟩ := mode_writes r hS j mj fl hy yaml shown sh x amplitude h
  obtain ⟨w1, hw1⟩ := showTrace_error (dir := r.cwd) hsh
  have hon : Only (IsText fun q => q ≠ r.cwd ++ "/post_process.yaml".toList ∧ ∀ z, q ≠ displacedFile r.cwd z) (showTrace r.cwd sh) :=
    only_show _ _ fun z t => ⟨_, _, ⟨trajectory_ne, fun z' e => displaced_ne.2.1 z e.symm⟩, rfl⟩
  rw [hw1] at a6 hon
  have key : ∀ w ∈ ((r.job S j mj fl pic yaml shown sh x amplitude).trace r.cwd r.fs2).writes, IsText (fun q => q ≠ r.cwd ++ "/post_process.yaml".toList ∧ ∀ z, q ≠ displacedFile r.cwd z) w := by
    rw [a6]
    intro w hw
    change w ∈ w0 ++ (_ ++ w1) at hw
    rcases List.mem_append.1 hw with hw | hw
    · obtain ⟨q, t, hq, rfl⟩ := a1 w hw
      refine ⟨q, t, ⟨?_, fun z => ?_⟩, rfl⟩
      · rcases hq with rfl | rfl | rfl <;>
        · intro e
          have := List.append_cancel_left e
          revert this; decide +kernel
      · obtain ⟨n1, n2, n3⟩ := (@displaced_ne r.cwd z).1
        rcases hq with rfl | rfl | rfl
        exacts [n1.symm, n2.symm, n3.symm]
    · rcases List.mem_append.1 hw with hw | hw
      · obtain ⟨m', hm', hw⟩ := List.mem_flatMap.1 hw
        rw [List.mem_singleton] at hw
        subst hw
        exact ⟨_, _, ⟨animation_ne.2.2.2, animation_ne.2.2.1⟩, rfl⟩
      · exact hon w hw
  have hfold := foldl_texts _ key D
  rw [← hD] at hfold
  refine ⟨by rw [a6]; rfl, hfold.2 _ fun hq => hq.1 rfl, fun z => hfold.2 _ fun hq => hq.2 z rfl⟩

end

/-- **C140** (the record comes last).  For every job: if the program succeeds, the last file it has written is its record `post_process.yaml`, and it has written it once; if it ends with an
exception, it has not written it. -/
theorem C140_record_last (J : ModeJob) (cwd : Str) (fs : Fs) (hslash : ∀ k, '/' ∉ J.shown k) :
    ((J.trace cwd fs).result = .ok () ∧ ∃ ws, (J.trace cwd fs).writes = ws ++ [.text (cwd ++ "/post_process.yaml".toList) J.yaml] ∧ ∀ t, .text (cwd ++ "/post_process.yaml".toList) t ∉ ws) ∨
      ((∃ e, (J.trace cwd fs).result = .error e) ∧ ∀ t, .text (cwd ++ "/post_process.yaml".toList) t ∉ (J.trace cwd fs).writes) := by
  have hno : ∀ t, ¬ IsText (fun q => baseName q ≠ "post_process.yaml".toList) (.text (cwd ++ "/post_process.yaml".toList) t) := by
    rintro t ⟨q, t', hq, e⟩
    injection e with e1 e2
    rw [← e1] at hq
    exact hq (base_of cwd "post_process.yaml".toList (by decide +kernel))
  have hk : ∀ (x : Str) (k : String), '/' ∉ k.toList → k.toList ≠ "post_process.yaml".toList → baseName (x ++ '/' :: k.toList) ≠ "post_process.yaml".toList := fun x k h1 h2 => result_ne x h1 h2
  have hint : ∀ z, '/' ∉ intStr z := by
    intro z hm
    rw [intStr] at hm
    split at hm
    · rcases List.mem_cons.1 hm with hm | hm
      · cases hm
      · exact isDigit_ne (natStr_digits _ _ hm) (by decide) rfl
    · exact isDigit_ne (natStr_digits _ _ hm) (by decide) rfl
  have hlong : ∀ (x p q : Str), '/' ∉ p → '/' ∉ q → p.take 1 ≠ "p".toList → p ≠ [] → baseName (x ++ '/' :: (p ++ q)) ≠ "post_process.yaml".toList := by
    intro x p q h1 h2 h3 h4
    refine result_ne x (by simp [h1, h2]) fun e => h3 ?_
    have := congrArg (List.take 1) e
    rwa [List.take_append_of_le_length (List.length_pos_of_ne_nil h4)] at this
  have key : EndsWith (.text (cwd ++ "/post_process.yaml".toList) J.yaml) (IsText fun q => baseName q ≠ "post_process.yaml".toList) (J.trace cwd fs) := by
    unfold ModeJob.trace modePostTrace
    refine EndsWith.after (Only.quiet _) fun force => EndsWith.after (Only.quiet _) fun P => EndsWith.after ?_ fun o2 => EndsWith.after (Only.quiet _) fun len => EndsWith.after ?_ fun _ =>
      EndsWith.after ?_ fun _ => EndsWith.after ?_ fun _ => ?_
    · refine (only_phonons J.S J.fl cwd fs _ _).mono ?_
      rintro w ⟨q, t, rfl, rfl⟩
      exact ⟨_, _, hk cwd "freqency_at_gamma_point.dat" (by decide +kernel) (by decide +kernel), rfl⟩
    · refine only_list _ _ fun w hw => ?_
      simp only [bandWrites, List.mem_cons, List.not_mem_nil, or_false] at hw
      subst hw
      exact ⟨_, _, hk _ "band.dat" (by decide +kernel) (by decide +kernel), rfl⟩
    · exact only_picture _ (fun t => ⟨_, _, hk cwd "band.png" (by decide +kernel) (by decide +kernel), rfl⟩) _
    · refine only_mode _ _ _ _ _ _ _ _ _ _ _ _ _ _ (fun z k => ?_) (fun z => ?_) fun z => ?_
      · rw [animation_eq]
        have : "/XDATCAR_phonon_mode_".toList = '/' :: "XDATCAR_phonon_mode_".toList := by decide +kernel
        rw [this, List.append_assoc]
        refine hlong _ "XDATCAR_phonon_mode_".toList _ (by decide +kernel) ?_ (by decide +kernel) (by decide +kernel)
        simp only [List.mem_append, not_or]
        exact ⟨⟨hint z, by decide +kernel⟩, hslash k⟩
      · rw [trajectory_eq]
        have : "/Trajectory_".toList = '/' :: "Trajectory_".toList := by decide +kernel
        rw [this, List.append_assoc]
        refine hlong _ "Trajectory_".toList _ (by decide +kernel) ?_ (by decide +kernel) (by decide +kernel)
        simp only [List.mem_append, not_or]
        exact ⟨hint z, by decide +kernel⟩
      · unfold displacedFile
        have : "/MPOSCAR-".toList = '/' :: "MPOSCAR-".toList := by decide +kernel
        rw [this, List.append_assoc]
        exact hlong _ "MPOSCAR-".toList _ (by decide +kernel) (hint z) (by decide +kernel) (by decide +kernel)
    · exact .inl ⟨rfl, [], rfl, fun w hw => by cases hw⟩
  rcases key with ⟨h1, ws, h2, h3⟩ | ⟨h1, h2⟩
  · exact .inl ⟨h1, ws, h2, fun t ht => hno t (h3 _ ht)⟩
  · exact .inr ⟨h1, fun t ht => hno t (h2 _ ht)⟩

/-! ### The hypotheses are met -/

/-- The chain with one atom per cell: two modes at the zone edge, one of them counted from the end, with displaced structures. -/
example (S : Solver) (hS : IsSolver S) (j : Junk) (mj : ModeJunk) (fl : ℝ → ℚ) : ∃ (r : ModeInput chainUnit [0] stiffSprings 1 ![1 / 2, 0, 0] [0, -1]) (J : ModeJob) (D : Disk),
    J = r.job S j mj fl (.ok none) "record".toList (fun _ => "[0.5 0.  0. ]".toList) ⟨[(0, "t".toList)], none⟩ chainArgs (some 1) ∧
    (J.trace r.cwd D.files).result = .ok () ∧ (∀ z ∈ ([0, -1] : List ℤ), (∃ t, (J.after r.cwd D).files (displacedFile r.cwd z) = some t) ∧
      ∃ t, (J.after r.cwd D).files (animationFile r.cwd J.shown z (toReal ![1 / 2, 0, 0])) = some t ∧ (readlines t).length = 7 + 30 * (1 + 1)) := by
  obtain ⟨r⟩ := chain_input
  obtain ⟨rows, mass, len, -, -, -, -, s, sm, -, hsome⟩ := C135_files r hS j mj
  have hout := hsome 1
  have h1 := C140_animations r hS j mj fl (pic := .ok none) rfl "record".toList (fun _ => "[0.5 0.  0. ]".toList) ⟨[(0, "t".toList)], none⟩ chainArgs (some 1) ⟨r.fs2, .missing⟩ rfl hout
  have h2 := C140_displaced r hS j mj fl (pic := .ok none) rfl "record".toList (fun _ => "[0.5 0.  0. ]".toList) (fun _ => by decide +kernel) ⟨[(0, "t".toList)], none⟩ rfl chainArgs (chain_preRun.files 0) (some 1)
    ⟨r.fs2, .missing⟩ rfl hout
  refine ⟨r, _, ⟨r.fs2, .missing⟩, rfl, h2.1, fun z hz => ⟨?_, ?_⟩⟩
  · obtain ⟨t, ht, -⟩ := h2.2.2 _ (List.mem_map.2 ⟨z, hz, rfl⟩)
    exact ⟨t, ht⟩
  · obtain ⟨t, ht, -, -, hl, -⟩ := h1 _ (List.mem_map.2 ⟨z, hz, rfl⟩)
    exact ⟨t, ht, hl⟩

/-- The same without ASE: the animations are there, the structures are not. -/
example (S : Solver) (hS : IsSolver S) (j : Junk) (mj : ModeJunk) (fl : ℝ → ℚ) : ∃ (r : ModeInput chainUnit [0] stiffSprings 1 ![1 / 2, 0, 0] [0, -1]) (J : ModeJob),
    J = r.job S j mj fl (.ok none) "record".toList (fun _ => "[0.5 0.  0. ]".toList) ⟨[], some .exception⟩ chainArgs (some 1) ∧ (J.trace r.cwd r.fs2).result = .error .exception ∧
    (∀ z, (J.after r.cwd ⟨r.fs2, .missing⟩).files (displacedFile r.cwd z) = r.fs2 (displacedFile r.cwd z)) ∧
    ∃ t, (J.after r.cwd ⟨r.fs2, .missing⟩).files (animationFile r.cwd J.shown (-1) (toReal ![1 / 2, 0, 0])) = some t := by
  obtain ⟨r⟩ := chain_input
  obtain ⟨rows, mass, len, -, -, -, -, s, sm, -, hsome⟩ := C135_files r hS j mj
  have hout := hsome 1
  have h1 := C140_animations r hS j mj fl (pic := .ok none) rfl "record".toList (fun _ => "[0.5 0.  0. ]".toList) ⟨[], some .exception⟩ chainArgs (some 1) ⟨r.fs2, .missing⟩ rfl hout
  have h2 := C140_viewer_fails r hS j mj fl (pic := .ok none) rfl "record".toList (fun _ => "[0.5 0.  0. ]".toList) ⟨[], some .exception⟩ rfl chainArgs (some 1) ⟨r.fs2, .missing⟩ rfl hout
  refine ⟨r, _, rfl, h2.1, h2.2.2, ?_⟩
  obtain ⟨t, ht, -⟩ := h1 _ (List.mem_map.2 ⟨-1, by simp, rfl⟩)
  exact ⟨t, ht⟩

end

end Interphon.Props
