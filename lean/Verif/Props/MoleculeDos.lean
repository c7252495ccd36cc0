import Verif.Props.PostMolecule

/-! # C141: the density of states of an isolated system without smearing -/

namespace Interphon.Props
open Py Interphon Interphon.UnitCell Interphon.SuperCell Interphon.PreProcess Interphon.Args Interphon.Inout Interphon.Cli Interphon.Main
open Interphon.PostProcess Interphon.Phonon Interphon.ForceConstant

noncomputable section

/-- A post-process with `-dos` and `-sigma 0` only, with default directories, after the pre-process with record `rec`, with the output files `force` and the wave vectors `ks`. -/
structure MoleculeJob (J : PostJob) (cwd : Str) (D : Disk) (rec : PreRecord) (search : Run (List (ℕ × List (V3 ℚ)))) (force : List Str) (q : DosRequest) (ks : List (V3 ℚ)) : Prop where
  solver : IsSolver J.S
  options : J.o = {}
  record : J.r = rec
  symmetry : J.search = search
  dos : J.dos = some q
  sigma : q.sigma = 0
  num : 0 < q.num
  band : J.band = none
  force : forceFiles J.glob J.forceArgs = .ok force
  kpoints : ∃ t auto, D.files (absPath cwd q.kfile) = some t ∧ KPoints.setKPoints (readlines t) (fun _ => false) = .ok (ks, auto)
  nonempty : ks ≠ []

/-- No picture of the job fails. -/
def PicturesShown (J : PostJob) (q : DosRequest) : Prop := (∃ y, J.pic.dos = .ok y) ∧ (q.temp ≠ none → ∃ y, J.pic.thermal = .ok y)

/-- What `DOS.set` leaves for an isolated system without smearing. -/
theorem molecule_state {A : Argsorts} {num : ℕ} (hnum : 0 < num) {o : Object} (hp : ∀ c, o.p c = 0) (hdof : dof o ≠ 0) (hw : 0 < o.wq.length) :
    ∃ s, dosAfter A 0 num o = .ok s ∧ s.freq = (List.range (dof o)).map (fun b => (o.wq.getD 0 []).getD b 0) ∧ s.tdos = some (List.replicate (dof o) (some 1)) ∧
      s.pdos = List.replicate (dof o) (List.replicate num (some 0)) := by
  obtain ⟨s0, hs0⟩ := (C46_succeeds_iff (dosProc o) num).2 ⟨hw, Nat.pos_of_ne_zero hdof⟩
  obtain ⟨lo, hi, -, -, -, hflen, -⟩ := C46_grid _ num hnum s0 hs0
  have hpbc : PreProcess.numPbc o.p = 0 := by simp [PreProcess.numPbc, hp]
  have hind : Dos.indPbc (dosProc o).periodicity = [] := by simp [Dos.indPbc, dosProc, hp]
  refine ⟨{ s0 with freq := (List.range (dosProc o).nb).map ((dosProc o).w 0), tdos := some (List.replicate (dosProc o).nb (some 1)) }, ?_, rfl, rfl, ?_⟩
  · unfold dosAfter
    rw [hs0]
    simp only [run_ok]
    rw [if_neg (by rintro ⟨-, h, -⟩; exact h hpbc)]
    simp only [raising, run_ok]
    unfold Dos.set
    rw [if_pos rfl, hind]
  · show s0.pdos = _
    unfold Dos.init at hs0
    split at hs0
    · cases hs0
      show List.replicate _ (List.replicate _ _) = _
      simp only at hflen
      rw [hflen]
      rfl
    · cases hs0

theorem spectrum_length {m : ℕ} {A : Matrix (Fin m) (Fin m) ℂ} {row : List ℝ} (h : IsSpectrum A row) : row.length = m := by
  have h1 : row.length = Multiset.card (A.charpoly.roots.map freqOf) := by rw [← h.2, Multiset.coe_card]
  rw [h1, Multiset.card_map, Polynomial.splits_iff_card_roots.1 (IsAlgClosed.splits _), Matrix.charpoly_natDegree_eq_dim, Fintype.card_fin]

theorem projectedText_take (fl : ℝ → ℚ) (sigma : ℚ) (xyz : List ℕ) (s : Dos.State) (n : ℕ) :
    readTable (projectedText fl sigma xyz s n) = (s.freq.take n).mapIdx fun i x => some (rounded 9 (.fin (fl x))) :: (List.range xyz.length).map fun c => some (rounded 9 (number fl ((s.pdos.getD c []).getD i none))) := by
  rw [projectedText, C94_projected_dos]
  simp only [List.mapIdx_eq_zipIdx_map, List.zipIdx_map, List.map_map]
  rfl

theorem picture_result {path : Str} {r : Run (Option Str)} {y : Option Str} (h : r = .ok y) : (picture path r).result = .ok () := by
  obtain ⟨w, hw⟩ := picture_done (path := path) h
  rw [hw]

theorem result_ok {α β : Type} {m : Traced α} {f : α → Traced β} {w : List Write} {a : α} (h : m = ⟨w, .ok a⟩) : (m >>= f).result = (f a).result := by rw [h]; rfl

theorem result_error {α β : Type} {m : Traced α} {f : α → Traced β} {e : PyErr} (h : m.result = .error e) : (m >>= f).result = .error e := by
  obtain ⟨w, r⟩ := m
  cases h
  rfl

theorem result_then {α β : Type} {m : Traced α} {f : α → Traced β} {a : α} {b : β} (h : m.result = .ok a) (hf : (f a).result = .ok b) : (m >>= f).result = .ok b := by
  obtain ⟨w, r⟩ := m
  cases h
  exact hf

/-- **C141** (what is on the disk).  Under the hypotheses of C118 without periodic directions: whatever post-process with `-dos -sigma 0` is given, when it has ended — normally or not — `total_dos.dat` has
one row for each degree of freedom of the selected atoms, the exact frequencies in ascending order, each with the value one; `projected_dos.dat` has the same frequencies — but only as many as `-num` says — and
zero in every other column.  With fewer rows than frequencies the program ends with an `IndexError` and leaves the record of the post-process as it was; otherwise, if no picture fails, it succeeds and writes
the record. -/
theorem C141_files {cwd : Str} {o : PreOpts} {code : Code} {a : PreArg} {e p : List ℤ} {d : ℚ} {u : Cell ℚ} {sel : List ℕ} {x : ℕ → FileArgs}
    {junk : ℕ → List (V3 ℚ)} {fs : Fs} (h : PreRun cwd o code a e p d u sel x junk fs) (hp : ∀ i : Fin 3, p.getD i 0 = 0) (hd : d ≠ 0) (hdet : u.lattice.det ≠ 0)
    (hxyz : u.xyzTrue = some (sel.flatMap fun a => [a, a, a])) (hdec : DecCell u) (hd16 : Dec16 d) (hsel : sel ≠ [])
    (Φ : Springs) (hΦ : ∀ a x b y l, l ∈ (Φ a x b y).support → l = 0) (F0 : Rows ℝ)
    (search : Run (List (ℕ × List (V3 ℚ)))) (group : Run Str) :
    ∃ fs1 rec, preMain cwd o x junk search group fs = .ok (fs1, rec) ∧
      ∀ (J : PostJob) (D : Disk) (force : List Str) (q : DosRequest) (ks : List (V3 ℚ)), MoleculeJob J cwd D rec search force q ks →
        Calculated code cwd o.unitcell fs1 D.files (superSprings (fun i => e.getD i 0) (e.getD 0 0 * e.getD 1 0 * e.getD 2 0).toNat Φ) F0 (6 * sel.length) force →
        ∃ (mass : ℕ → ℝ) (row : List ℝ) (nums : List (Option Output.Num)) (zero one : Option Output.Num), IsMasses u sel mass ∧ row.length = 3 * sel.length ∧
          IsSpectrum (moleculeDyn sel mass Φ (3 * sel.length)) row ∧ List.Forall₂ (Reads9 J.fl) row nums ∧ Reads9 J.fl 0 zero ∧ Reads9 J.fl 1 one ∧
          (∃ file, ((J.trace cwd D.files).writes.foldl perform D).files (cwd ++ "/total_dos.dat".toList) = some file ∧ readTable file = nums.map fun n => [n, one]) ∧
          (∃ file, ((J.trace cwd D.files).writes.foldl perform D).files (cwd ++ "/projected_dos.dat".toList) = some file ∧
            readTable file = (nums.take q.num).map fun n => n :: List.replicate (3 * sel.length) zero) ∧
          (q.num < 3 * sel.length → (J.trace cwd D.files).result = .error .indexError ∧
            ((J.trace cwd D.files).writes.foldl perform D).files (cwd ++ "/post_process.yaml".toList) = D.files (cwd ++ "/post_process.yaml".toList)) ∧
          (3 * sel.length ≤ q.num → PicturesShown J q → (J.trace cwd D.files).result = .ok () ∧
            ((J.trace cwd D.files).writes.foldl perform D).files (cwd ++ "/post_process.yaml".toList) = some J.yaml) := by
  obtain ⟨fs1, rec0, -, -, -, hpre0, hrec, -⟩ := C118_preprocess h search group
  refine ⟨fs1, rec0, hpre0, ?_⟩
  intro J D force q ks hJ hcalc
  obtain ⟨t, auto, ht, hks⟩ := hJ.kpoints
  obtain ⟨fs1', rec, hpre, hmain⟩ := post_ok h hd hdet hxyz hdec hd16 Φ (fun a x b y l hl i _ => by rw [hΦ a x b y l hl]; rfl) F0 search group hJ.solver J.j
  rw [hpre0] at hpre
  cases hpre
  obtain ⟨P, mass, hpost, hmass, -, hrest⟩ := hmain D.files force hcalc
  obtain ⟨o2, o3, hph, ho3, hk2, hk3, hauto, hp3, hdof2, hdof3, hwl, hrows⟩ := hrest (absPath cwd q.kfile) t ks auto ht
    (by rw [show (fun c : Fin 3 => decide (p.getD c 0 ≠ 0)) = fun _ => false from funext fun c => by rw [hp c]; rfl]; exact hks) hJ.nonempty
  have hkpos : 0 < ks.length := List.length_pos_of_ne_nil hJ.nonempty
  have hspos : 0 < sel.length := List.length_pos_of_ne_nil hsel
  obtain ⟨row, qv, hrow, -, hspec, -⟩ := hrows 0 ks[0] (List.getElem?_eq_getElem hkpos) fun i hi => absurd (hp i) hi
  have hspec' : IsSpectrum (moleculeDyn sel mass Φ (3 * sel.length)) row := by
    unfold IsSpectrum at hspec ⊢
    rw [← molecule_charpoly (toR u) sel mass hΦ qv]
    exact hspec
  have hrowlen : row.length = 3 * sel.length := spectrum_length hspec
  obtain ⟨s, hs, hfreq, htdos, hpdos⟩ := molecule_state (A := J.A) hJ.num (o := o3) (fun c => by rw [hp3]; exact hp c) (by rw [hdof3]; omega) (by rw [hwl]; exact hkpos)
  have hrow0 : o3.wq.getD 0 [] = row := by rw [List.getD_eq_getElem?_getD, hrow]; rfl
  have hfreq' : s.freq = row := by
    rw [hfreq, hrow0, hdof3, ← hrowlen]
    exact List.ext_getElem (by simp) fun i h1 h2 => by simp [List.getD_eq_getElem?_getD, h2]
  have hs' : dosAfter J.A ((q.sigma : ℚ) : ℝ) q.num o3 = .ok s := by rw [hJ.sigma]; simpa using hs
  have hpost' : postSetup J.S J.j (postResolve cwd J.o J.r) force J.search D.files = .ok P := by rw [hJ.options, hJ.record, hJ.symmetry]; exact hpost
  have hdir : dirName (postResolve cwd J.o J.r).unitCellFile = cwd := by rw [hJ.options, hJ.record]; exact dir_resolved h.slash hrec
  have hxl : (o3.unit.xyzTrue.getD []).length = 3 * sel.length := hdof3
  have hw0 := phonons_gamma (fl := J.fl) (cwd := cwd) hph (by rw [hp3]; simp only [PreProcess.numPbc, hp]; rfl)
  set total := totalText J.fl q.sigma s with htotal
  set m := min q.num (3 * sel.length) with hm
  set proj := projectedText J.fl q.sigma (o3.unit.xyzTrue.getD []) s m with hproj
  have hwrite : dosWrite J.fl cwd q.sigma (o3.unit.xyzTrue.getD []) s =
      ⟨[.text (cwd ++ "/total_dos.dat".toList) total, .text (cwd ++ "/projected_dos.dat".toList) proj], if q.num < 3 * sel.length then .error .indexError else .ok ()⟩ := by
    have hl0 : (s.pdos.getD 0 []).length = q.num := by
      rw [hpdos, hdof3, List.getD_eq_getElem _ _ (by rw [List.length_replicate]; omega), List.getElem_replicate, List.length_replicate]
    have hx : o3.unit.xyzTrue.getD [] ≠ [] := fun e => by
      rw [e] at hxl
      have : 0 = 3 * sel.length := hxl
      omega
    unfold dosWrite
    rw [hl0, hfreq', hrowlen]
    by_cases hlt : q.num < 3 * sel.length
    · rw [if_pos ⟨hx, hlt⟩, if_pos hlt, hproj, hm, min_eq_left hlt.le]
    · rw [if_neg (fun hc => hlt hc.2), if_neg hlt, hproj, hm, min_eq_right (not_lt.1 hlt)]
  have hmain' : dosMain J.S J.A J.j cwd J.o J.r J.glob J.forceArgs q.kfile q.sigma q.num q.temp J.search D.files = .ok (s, q.temp.map fun t => thermalOf t o3) := by
    unfold dosMain dosPart
    rw [hJ.force]
    simp only [run_ok]
    rw [hpost']
    simp only [run_ok]
    rw [dosOf_iff.2 ⟨hph, hs'⟩]
    rfl
  have hJdir : J.dir cwd = cwd := hdir
  obtain ⟨⟨file1, hf1, hr1⟩, -, -⟩ := C138_dos_text hJ.dos hmain'
  rw [hJdir] at hf1
  have hnums : List.Forall₂ (Reads9 J.fl) row (row.map fun y => some (rounded 9 (.fin (J.fl y)))) := by
    rw [List.forall₂_map_right_iff]
    exact List.forall₂_same.2 fun y _ => reads9 J.fl y
  refine ⟨mass, row, _, some (rounded 9 (.fin (J.fl 0))), some (rounded 9 (.fin (J.fl 1))), hmass, hrowlen, hspec', hnums, reads9 J.fl 0, reads9 J.fl 1, ⟨file1, hf1, ?_⟩, ⟨proj, ?_, ?_⟩, ?_, ?_⟩
  · rw [hr1, Dos.totalRows, hfreq', htdos, Option.getD_some, hdof3, ← hrowlen, List.map_map]
    refine List.ext_getElem (by simp) fun i h1 h2 => ?_
    simp [number]
  · have hpic : Only (IsText fun p => baseName p ≠ "projected_dos.dat".toList) (do
        picture (cwd ++ "/dos.png".toList) J.pic.dos
        (match q.temp with
          | none => pure ()
          | some t => do
            (⟨thermalWrites J.fl cwd (thermalOf t o3), .ok ()⟩ : Traced Unit)
            picture (cwd ++ "/thermal_properties.png".toList) J.pic.thermal : Traced Unit)
        return (⟨P.args, P.unit, P.super, o3⟩ : Process)) := by
      refine Only.bind (only_picture' cwd "dos.png".toList (by decide +kernel) (by decide +kernel) _) fun _ => Only.bind ?_ fun _ => Only.pure _
      cases q.temp with
      | none => exact Only.pure _
      | some t =>
        refine Only.bind (only_list _ _ fun w hw => ?_) fun _ => only_picture' cwd "thermal_properties.png".toList (by decide +kernel) (by decide +kernel) _
        simp only [thermalWrites, List.mem_cons, List.not_mem_nil, or_false] at hw
        subst hw
        exact ⟨_, _, result_ne cwd (k := "thermal_properties.dat".toList) (by decide +kernel) (by decide +kernel), rfl⟩
    obtain ⟨w, hw⟩ := dosTrace_step (fl := J.fl) (pic := J.pic) (cwd := cwd) hpost' hph hs'
    refine starts_file (w := w ++ [.text (cwd ++ "/total_dos.dat".toList) total]) (n := "projected_dos.dat".toList) (by decide +kernel) (trace_starts (.inr (.inl rfl)) hJ.dos hJ.force ?_) D
    rw [List.append_assoc]
    refine hw ?_
    rw [hdir, hwrite]
    exact Starts.bind ⟨⟨[], _⟩, rfl, only_list _ _ fun w hw => by cases hw⟩ fun _ => hpic
  · rw [hproj, projectedText_take, hfreq', hxl]
    have hmin : (row.take m) = row.take q.num := by
      exact List.ext_getElem (by simp [hm, ← hrowlen]) fun i h1 h2 => by simp
    rw [hmin, ← List.map_take, List.map_map]
    refine List.ext_getElem (by simp) fun i h1 h2 => ?_
    have hi : i < q.num := by simp at h2; exact h2.1
    simp only [List.getElem_mapIdx, List.getElem_map, Function.comp]
    congr 1
    refine List.ext_getElem (by simp) fun c h3 h4 => ?_
    have hc : c < 3 * sel.length := by simpa using h3
    have : (s.pdos.getD c []).getD i none = some 0 := by
      have hc' : s.pdos.getD c [] = List.replicate q.num (some 0) := by
        rw [hpdos, hdof3, List.getD_eq_getElem _ _ (by rw [List.length_replicate]; exact hc), List.getElem_replicate]
      rw [hc', List.getD_eq_getElem _ _ (by rw [List.length_replicate]; exact hi), List.getElem_replicate]
    simp only [List.getElem_map, List.getElem_range, List.getElem_replicate, this]
    rfl
  · intro hlt
    have hres : (J.trace cwd D.files).result = .error .indexError := by
      unfold PostJob.trace postTrace
      rw [hJ.force, quiet_ok]
      simp only [hJ.dos, hJ.band]
      unfold dosTrace
      rw [hpost', quiet_ok]
      refine result_error (result_error ?_)
      refine (result_ok hw0).trans ?_
      rw [hs', quiet_ok, hdir]
      exact result_error (by rw [hwrite, if_pos hlt])
    refine ⟨hres, ?_⟩
    rcases C138_record_last J cwd D.files with ⟨h1, -⟩ | ⟨-, h1⟩
    · rw [hres] at h1; cases h1
    · obtain ⟨-, h2⟩ := foldl_texts (Q := fun z => z ≠ cwd ++ "/post_process.yaml".toList) (J.trace cwd D.files).writes (fun w hw => by
        obtain ⟨z, t, -, rfl⟩ := only_post J cwd D.files w hw
        exact ⟨z, t, fun e => h1 t (e ▸ hw), rfl⟩) D
      exact h2 _ fun hz => hz rfl
  · rintro hge ⟨⟨y1, hy1⟩, hy2⟩
    have hres : (J.trace cwd D.files).result = .ok () := by
      unfold PostJob.trace postTrace
      rw [hJ.force, quiet_ok]
      simp only [hJ.dos, hJ.band]
      unfold dosTrace
      rw [hpost', quiet_ok]
      have hd : (do
          dosWrite J.fl cwd q.sigma (o3.unit.xyzTrue.getD []) s
          picture (cwd ++ "/dos.png".toList) J.pic.dos
          (match q.temp with
            | none => pure ()
            | some t => do
              (⟨thermalWrites J.fl cwd (thermalOf t o3), .ok ()⟩ : Traced Unit)
              picture (cwd ++ "/thermal_properties.png".toList) J.pic.thermal : Traced Unit)
          return (⟨P.args, P.unit, P.super, o3⟩ : Process) : Traced Process).result = .ok ⟨P.args, P.unit, P.super, o3⟩ := by
        refine result_then (a := ()) (by rw [hwrite, if_neg (not_lt.2 hge)]) (result_then (a := ()) (picture_result hy1) ?_)
        refine result_then (a := ()) ?_ rfl
        cases htemp : q.temp with
        | none => rfl
        | some t =>
          obtain ⟨y2, hy2⟩ := hy2 (by rw [htemp]; simp)
          exact result_then (a := ()) rfl (picture_result hy2)
      refine result_then (a := some ⟨P.args, P.unit, P.super, o3⟩) (result_then (a := ⟨P.args, P.unit, P.super, o3⟩) ?_ rfl) rfl
      refine (result_ok hw0).trans ?_
      rw [hs', quiet_ok, hdir]
      exact hd
    refine ⟨hres, ?_⟩
    rcases C138_record_last J cwd D.files with ⟨-, ws, h1, -⟩ | ⟨⟨e, h1⟩, -⟩
    · rw [h1, List.foldl_append]
      show put _ _ _ _ = _
      rw [put, if_pos rfl]
    · rw [hres] at h1; cases h1

/-- **C141** (when it completes): exactly if `-num` is at least the number of degrees of freedom. -/
theorem C141_completes_iff {cwd : Str} {o : PreOpts} {code : Code} {a : PreArg} {e p : List ℤ} {d : ℚ} {u : Cell ℚ} {sel : List ℕ} {x : ℕ → FileArgs}
    {junk : ℕ → List (V3 ℚ)} {fs : Fs} (h : PreRun cwd o code a e p d u sel x junk fs) (hp : ∀ i : Fin 3, p.getD i 0 = 0) (hd : d ≠ 0) (hdet : u.lattice.det ≠ 0)
    (hxyz : u.xyzTrue = some (sel.flatMap fun a => [a, a, a])) (hdec : DecCell u) (hd16 : Dec16 d) (hsel : sel ≠ [])
    (Φ : Springs) (hΦ : ∀ a x b y l, l ∈ (Φ a x b y).support → l = 0) (F0 : Rows ℝ)
    (search : Run (List (ℕ × List (V3 ℚ)))) (group : Run Str) :
    ∃ fs1 rec, preMain cwd o x junk search group fs = .ok (fs1, rec) ∧
      ∀ (J : PostJob) (D : Disk) (force : List Str) (q : DosRequest) (ks : List (V3 ℚ)), MoleculeJob J cwd D rec search force q ks →
        Calculated code cwd o.unitcell fs1 D.files (superSprings (fun i => e.getD i 0) (e.getD 0 0 * e.getD 1 0 * e.getD 2 0).toNat Φ) F0 (6 * sel.length) force → PicturesShown J q →
        ((J.trace cwd D.files).result = .ok () ↔ 3 * sel.length ≤ q.num) := by
  obtain ⟨fs1, rec, h1, h2⟩ := C141_files h hp hd hdet hxyz hdec hd16 hsel Φ hΦ F0 search group
  refine ⟨fs1, rec, h1, fun J D force q ks hJ hc hpic => ?_⟩
  obtain ⟨mass, row, nums, zero, one, -, -, -, -, -, -, -, -, a1, a2⟩ := h2 J D force q ks hJ hc
  constructor
  · intro hr
    by_contra hlt
    rw [(a1 (not_le.1 hlt)).1] at hr
    cases hr
  · exact fun hge => (a2 hge hpic).1

/-- **C141** in full: the post-process of an isolated system with `-dos -sigma 0` succeeds, whatever number of rows is asked for. -/
def C141_full : Prop := ∀ {cwd : Str} {o : PreOpts} {code : Code} {a : PreArg} {e p : List ℤ} {d : ℚ} {u : Cell ℚ} {sel : List ℕ} {x : ℕ → FileArgs}
    {junk : ℕ → List (V3 ℚ)} {fs : Fs} (h : PreRun cwd o code a e p d u sel x junk fs) (hp : ∀ i : Fin 3, p.getD i 0 = 0) (hd : d ≠ 0) (hdet : u.lattice.det ≠ 0)
    (hxyz : u.xyzTrue = some (sel.flatMap fun a => [a, a, a])) (hdec : DecCell u) (hd16 : Dec16 d) (hsel : sel ≠ [])
    (Φ : Springs) (hΦ : ∀ a x b y l, l ∈ (Φ a x b y).support → l = 0) (F0 : Rows ℝ)
    (search : Run (List (ℕ × List (V3 ℚ)))) (group : Run Str),
    ∃ fs1 rec, preMain cwd o x junk search group fs = .ok (fs1, rec) ∧
      ∀ (J : PostJob) (D : Disk) (force : List Str) (q : DosRequest) (ks : List (V3 ℚ)), MoleculeJob J cwd D rec search force q ks →
        Calculated code cwd o.unitcell fs1 D.files (superSprings (fun i => e.getD i 0) (e.getD 0 0 * e.getD 1 0 * e.getD 2 0).toNat Φ) F0 (6 * sel.length) force → PicturesShown J q →
        (J.trace cwd D.files).result = .ok ()

/-- The density of states of the atom on springs, with `num` rows. -/
def atomJob (S : PostProcess.Solver) (A : Argsorts) (j : Junk) (fl : ℝ → ℚ) (search : Run (List (ℕ × List (V3 ℚ)))) (rec : PreRecord) (num : ℕ) : PostJob :=
  { chainBandJob S A j fl search rec with dos := some ⟨"KPOINTS".toList, 0, num, some [300]⟩, band := none, pic := ⟨.ok none, .ok (some []), .error .valueError, .error .valueError⟩ }

theorem atom_job {S : PostProcess.Solver} (hS : IsSolver S) (A : Argsorts) (j : Junk) (fl : ℝ → ℚ) (search : Run (List (ℕ × List (V3 ℚ)))) (fs1 : Fs) (rec : PreRecord) {num : ℕ} (hnum : 0 < num) :
    MoleculeJob (atomJob S A j fl search rec num) "/w".toList ⟨atomFs2 fs1, .missing⟩ rec search chainForce ⟨"KPOINTS".toList, 0, num, some [300]⟩ [![0, 0, 0], ![0, 0, 0]] :=
  ⟨hS, rfl, rfl, rfl, rfl, rfl, hnum, rfl, rfl, ⟨atomK, [], by
    have e1 : (List.range 6).find? (fun k => decide (absPath "/w".toList "KPOINTS".toList = chainDir k ++ "/POSCAR".toList)) = none := by decide +kernel
    have e2 : (List.range 6).find? (fun k => decide (absPath "/w".toList "KPOINTS".toList = chainDir k ++ "/vasprun.xml".toList)) = none := by decide +kernel
    simp only [atomFs2, e1, e2]
    rfl, by decide +kernel⟩, by simp⟩

/-- All hypotheses of `C141_files` are met by the atom on springs: with five rows the program succeeds and `projected_dos.dat` has its three frequencies. -/
example (search : Run (List (ℕ × List (V3 ℚ)))) (group : Run Str) {S : PostProcess.Solver} (hS : IsSolver S) (A : Argsorts) (j : Junk) (fl : ℝ → ℚ) :
    ∃ fs1 rec file, preMain "/w".toList atomOpts (fun _ => chainArgs) (fun m => List.replicate m 0) search group chainFs = .ok (fs1, rec) ∧
      ((atomJob S A j fl search rec 5).trace "/w".toList (atomFs2 fs1)).result = .ok () ∧
      (((atomJob S A j fl search rec 5).trace "/w".toList (atomFs2 fs1)).writes.foldl perform ⟨atomFs2 fs1, .missing⟩).files "/w/projected_dos.dat".toList = some file ∧ (readTable file).length = 3 := by
  obtain ⟨fs1, rec, h1, h2⟩ := C141_files atom_preRun (by decide) (by norm_num) chain_det rfl chain_dec ⟨2 * 10 ^ 14, by norm_num⟩ (by simp) atomSprings atom_range (fun _ _ => 0) search group
  obtain ⟨mass, row, nums, zero, one, -, h3, -, h4, -, -, -, ⟨file, h5, h6⟩, -, h7⟩ := h2 _ _ chainForce _ _ (atom_job hS A j fl search fs1 rec (num := 5) (by decide)) (atom_calculated search group h1)
  refine ⟨fs1, rec, file, h1, (h7 (by decide) ⟨⟨_, rfl⟩, fun _ => ⟨_, rfl⟩⟩).1, h5, ?_⟩
  rw [h6, List.length_map, List.length_take, ← h4.length_eq, h3]
  rfl

/-- **C141** is false in full: for the atom on springs with two rows the program ends with an `IndexError`, after it has written two of the three frequencies into `projected_dos.dat`. -/
theorem C141_refuted : ¬ C141_full := by
  intro hf
  obtain ⟨S, hS, -⟩ := normalised_solver_exists
  obtain ⟨fs1, rec, h1, h2⟩ := hf atom_preRun (by decide) (by norm_num) chain_det rfl chain_dec ⟨2 * 10 ^ 14, by norm_num⟩ (by simp) atomSprings atom_range (fun _ _ => 0) (.error .valueError) (.error .valueError)
  obtain ⟨fs1', rec', h1', h2'⟩ := C141_completes_iff atom_preRun (by decide) (by norm_num) chain_det rfl chain_dec ⟨2 * 10 ^ 14, by norm_num⟩ (by simp) atomSprings atom_range (fun _ _ => 0) (.error .valueError)
    (.error .valueError)
  rw [h1] at h1'
  cases h1'
  have hj := atom_job hS ⟨fun _ => 1, fun _ => 1, fun _ => 1⟩ ⟨default, default, default, default, default⟩ (fun _ => 0) (.error .valueError) fs1 rec (num := 2) (by decide)
  have hc := atom_calculated (.error .valueError) (.error .valueError) h1
  have := (h2' _ _ chainForce _ _ hj hc ⟨⟨_, rfl⟩, fun _ => ⟨_, rfl⟩⟩).1 (h2 _ _ chainForce _ _ hj hc ⟨⟨_, rfl⟩, fun _ => ⟨_, rfl⟩⟩)
  exact absurd this (by decide)

end
end Interphon.Props
