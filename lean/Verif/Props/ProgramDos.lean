import Verif.Props.Program
import Verif.Props.Readers
import Verif.Props.History
import Verif.Props.Dos
import Verif.Props.Thermal

/-! # C120, C121: the post-process with DOS, thermal properties and band -/

namespace Interphon.Props
open Py Interphon Interphon.UnitCell Interphon.SuperCell Interphon.PreProcess Interphon.Args Interphon.Inout Interphon.Cli Interphon.Main
open Interphon.PostProcess Interphon.Phonon Interphon.ForceConstant

theorem run_inv {α β : Type} {x : Run α} {f : α → Run β} {b : β} (h : (x >>= f) = .ok b) : ∃ a, x = .ok a ∧ f a = .ok b := by
  cases x with
  | error e => cases h
  | ok a => exact ⟨a, rfl, h⟩

theorem run_ok {α β : Type} (a : α) (f : α → Run β) : ((Except.ok a : Run α) >>= f) = f a := rfl

theorem raising_inv {x : Option PyErr} {u : Unit} (h : raising x = .ok u) : x = none := by
  cases x with
  | none => rfl
  | some e => cases h

theorem call_inv {S : Solver} {o o' : Object} {c : Call} (h : call S o c = .ok o') : (step S o c).2 = none ∧ o' = (step S o c).1 := by
  unfold call at h
  split at h
  · rename_i e
    exact ⟨e, (Except.ok.inj h).symm⟩
  · cases h

theorem call_ok {S : Solver} {o : Object} {c : Call} (h : (step S o c).2 = none) : call S o c = .ok (step S o c).1 := by
  unfold call
  rw [h]

theorem each_length {α β : Type} {f : α → Run β} {l : List α} {bs : List β} (h : each f l = .ok bs) : bs.length = l.length := by
  induction l generalizing bs with
  | nil => cases h; rfl
  | cons a l ih =>
    rw [each] at h
    split at h
    · cases h
    · split at h
      · cases h
      · rename_i e
        cases h
        simp [ih e]

theorem pairForces_length {n : ℕ} {l : List (List (List ℚ))} {bs : List (Rows ℝ)} (h : pairForces n l = .ok bs) : bs.length = l.length := by
  induction hk : l.length using Nat.strong_induction_on generalizing l bs with
  | _ k ih =>
    match l, h, hk with
    | [], h, hk => cases h; simpa using hk
    | [x], h, hk => cases h; simpa using hk
    | x :: y :: rest, h, hk =>
      rw [pairForces] at h
      by_cases hf : fits n x y = true
      · rw [if_pos hf] at h
        cases hp : pairForces n rest with
        | error e => rw [hp] at h; cases h
        | ok r =>
          rw [hp] at h
          cases h
          have := ih rest.length (by simp at hk; omega) hp rfl
          simp at hk ⊢
          omega
      · rw [if_neg hf] at h; cases h

theorem allForces_length {fs : Fs} {code : Str} {sym : Bool} {n : ℕ} {force : List Str} {bs : List (Rows ℝ)} (h : allForces fs code sym n force = .ok bs) :
    bs.length = force.length := by
  unfold allForces at h
  obtain ⟨l, h1, h⟩ := run_inv h
  rw [← each_length h1]
  by_cases hs : sym = true
  · rw [if_pos hs] at h
    exact each_length h
  · rw [if_neg hs] at h
    exact pairForces_length h

/-! ### The order check needs all files -/

theorem checkOne_lt {e : List (V3 ℚ)} {structs : List (List (V3 ℚ))} {k : ℕ} (h : checkOne e structs k = .ok ()) : k < structs.length := by
  unfold checkOne getE at h
  by_contra hk
  rw [List.getElem?_eq_none (by omega)] at h
  cases h

theorem checkPair_lt {d : ℚ} {cur structs row num disp pos r} (h : checkPair (K := ℚ) d cur structs row num disp pos = .ok r) : num + 1 < structs.length := by
  unfold checkPair at h
  split at h
  · cases h
  split at h
  · cases h
  split at h
  · cases h
  split at h
  · cases h
  split at h
  · cases h
  · rename_i e
    exact checkOne_lt e

theorem checkAtoms_length {d : ℚ} {cur structs} {E : ℕ} {sel : List ℕ} {i : ℕ} (h : checkAtoms (K := ℚ) d cur structs E i sel = .ok ()) (hi : 6 * i ≤ structs.length) :
    6 * (i + sel.length) ≤ structs.length := by
  induction sel generalizing i with
  | nil => simpa using hi
  | cons t rest ih =>
    rw [checkAtoms] at h
    split at h
    · cases h
    · rename_i p hp
      have h3 : 6 * (i + 1) ≤ structs.length := by
        unfold eye3 at hp
        rw [checkDirs] at hp
        split at hp
        · cases hp
        rw [checkDirs] at hp
        split at hp
        · cases hp
        rw [checkDirs] at hp
        split at hp
        · cases hp
        · rename_i e
          have := checkPair_lt e
          omega
      have := ih h h3
      simp only [List.length_cons]
      omega

/-! ### Structures read from files list every selected atom three times -/

theorem readFile_thrice {fs : Fs} {code path : Str} {r : RawCell} {u : Cell ℚ} (h : readFile fs code path = (r, none)) (hu : ofRaw r = .ok u) :
    u.xyzTrue.getD [] = (u.atomTrue.getD []).flatMap fun a => [a, a, a] := by
  have key : ∃ sel : List ℤ, r.atomTrue = some sel ∧ r.xyzTrue = some (sel.flatMap fun i => [i, i, i]) := by
    by_cases hc : ∃ c : Code, code = c.name
    · obtain ⟨c, rfl⟩ := hc
      cases hf : fs path with
      | none =>
        exfalso
        have hl : load fs path = .error .fileNotFound := by unfold load; rw [hf]
        unfold readFile readUnitCell at h
        simp only [hl] at h
        split_ifs at h
        · cases h
        · cases h
        · cases h
        · rcases c.name_cases with ⟨-, e⟩ | ⟨-, e⟩ | ⟨-, e⟩ <;> contradiction
      | some t =>
        rw [readFile_text _ hf] at h
        obtain ⟨L, T, N, C, sel, hcons, -⟩ := C111_accepted_is_consistent c {} r t h
        exact ⟨sel, hcons.selected.1, hcons.dof⟩
    · exfalso
      have h1 : code ≠ "vasp".toList := fun e => hc ⟨.vasp, e⟩
      have h2 : code ≠ "espresso".toList := fun e => hc ⟨.espresso, e⟩
      have h3 : code ≠ "aims".toList := fun e => hc ⟨.aims, e⟩
      unfold readFile readUnitCell at h
      simp only [if_neg h1, if_neg h2, if_neg h3] at h
      cases h
      cases hu
  obtain ⟨sel, h1, h2⟩ := key
  unfold ofRaw at hu
  split at hu
  · cases hu
    simp only [h1, h2, Option.map_some, Option.getD_some, List.map_flatMap, List.flatMap_map]
    rfl
  · cases hu

theorem setMass_keeps {r r' : RawCell} (h : setMassTrue r = (r', none)) : r'.atomTrue = r.atomTrue ∧ r'.xyzTrue = r.xyzTrue ∧ r'.lattice = r.lattice ∧
    r'.atomType = r.atomType ∧ r'.numAtom = r.numAtom ∧ r'.coordinate = r.coordinate ∧ r'.cart = r.cart ∧ r'.selective = r.selective := by
  unfold setMassTrue at h
  split at h
  · cases h
  split at h
  · cases h
  split at h
  · cases h
  split at h
  · cases h
  unfold setMass at h
  repeat' split at h
  all_goals first | (cases h; done) | (cases h; exact ⟨rfl, rfl, rfl, rfl, rfl, rfl, rfl, rfl⟩)

theorem ofRaw_congr {r r' : RawCell} (h1 : r'.atomTrue = r.atomTrue) (h2 : r'.xyzTrue = r.xyzTrue) (h3 : r'.lattice = r.lattice) (h4 : r'.atomType = r.atomType)
    (h5 : r'.numAtom = r.numAtom) (h6 : r'.coordinate = r.coordinate) (h7 : r'.cart = r.cart) (h8 : r'.selective = r.selective) : ofRaw r' = ofRaw r := by
  unfold ofRaw
  rw [h1, h2, h3, h4, h5, h6, h7, h8]

/-- What a new object holds does not depend on the content of fresh arrays. -/
theorem newProcess_spec {j : Junk} {a : PostArgs} {fs : Fs} {P : Process} (h : newProcess j a fs = .ok P) :
    P.args = {} ∧ P.obj.unit = toR P.unit ∧ P.unit.xyzTrue.getD [] = (P.unit.atomTrue.getD []).flatMap (fun a => [a, a, a]) ∧
      ∀ j', ∃ P', newProcess j' a fs = .ok P' ∧ P'.args = P.args ∧ P'.unit = P.unit ∧ P'.super = P.super ∧ P'.obj.unit = P.obj.unit ∧ P'.obj.mass = P.obj.mass := by
  unfold newProcess at h ⊢
  obtain ⟨u1, e1, h⟩ := run_inv h
  obtain ⟨u2, e2, h⟩ := run_inv h
  obtain ⟨u3, e3, h⟩ := run_inv h
  obtain ⟨u, e4, h⟩ := run_inv h
  obtain ⟨s0, e5, h⟩ := run_inv h
  obtain ⟨m, e6, h⟩ := run_inv h
  cases h
  refine ⟨rfl, rfl, ?_, fun j' => ?_⟩
  · have hr : readFile fs a.dft a.unitCellFile = ((readFile fs a.dft a.unitCellFile).1, none) := Prod.ext rfl (raising_inv e1)
    have hm : setMassTrue (readFile fs a.dft a.unitCellFile).1 = ((setMassTrue (readFile fs a.dft a.unitCellFile).1).1, none) := Prod.ext rfl (raising_inv e2)
    obtain ⟨k1, k2, k3, k4, k5, k6, k7, k8⟩ := setMass_keeps hm
    rw [ofRaw_congr k1 k2 k3 k4 k5 k6 k7 k8] at e4
    exact readFile_thrice hr e4
  · simp only
    rw [e1]
    simp only [run_ok]
    rw [e2]
    simp only [run_ok]
    rw [e3]
    simp only [run_ok]
    rw [e4]
    simp only [run_ok]
    rw [e5]
    simp only [run_ok]
    rw [e6]
    exact ⟨_, rfl, rfl, rfl, rfl, rfl, rfl⟩

/-! ### C120 -/

/-- The numbers of `band.dat` that come from the path do not depend on anything but the wave vectors. -/
theorem band_set_len {ks : List (V3 ℝ)} {nk nf nm : ℕ} {v : ℕ → ℕ → ℕ → ℂ} {junk : ℕ → ℕ → ℕ → ℝ} {b : Band.State}
    (h : Band.set ks nk nf nm v (Band.init ks junk) = .ok b) (nk' nf' nm' : ℕ) (v' : ℕ → ℕ → ℕ → ℂ) (junk' : ℕ → ℕ → ℕ → ℝ) :
    2 ≤ ks.length ∧ ∃ b', Band.set ks nk' nf' nm' v' (Band.init ks junk') = .ok b' ∧ b'.len = b.len := by
  unfold Band.set at h ⊢
  by_cases hk : ks.length < 2
  · rw [if_pos hk] at h; cases h
  · rw [if_neg hk] at h ⊢
    cases h
    exact ⟨by omega, _, rfl, rfl⟩

theorem super_thrice {s0 u s : Cell ℚ} {n p : Fin 3 → ℤ} (h : setSuperIndTrue s0 u n p = .ok s) : s.xyzTrue.getD [] = (s.atomTrue.getD []).flatMap fun a => [a, a, a] := by
  unfold setSuperIndTrue at h
  split at h
  · cases h
  · cases h; rfl

/-- Selecting the atoms of a super cell once more changes nothing. -/
theorem super_again {s0 u s : Cell ℚ} {n p : Fin 3 → ℤ} (h : setSuperIndTrue s0 u n p = .ok s) (n' p' : Fin 3 → ℤ) :
    setSuperIndTrue s u n' p' = setSuperIndTrue s0 u n' p' ∧ s.lattice = s0.lattice := by
  unfold setSuperIndTrue at h ⊢
  split at h
  · cases h
  · cases h
    exact ⟨rfl, rfl⟩

/-- A complete force calculation on one object and the same on another one made from the same files. -/
theorem band_agree {S : Solver} {j j' : Junk} {a : PostArgs} {force : List Str} {search : Run (List (ℕ × List (V3 ℚ)))} {fs : Fs} {kfile : Str} {P P' Q : Process}
    {ob : Object} {rows : List (ℝ × List ℝ)} (hsym : a.sym = true → ∀ ua, setUserArgument {} a.dict = (ua, none) → PreProcess.numPbc (vec ua.periodicity) = 2)
    (hu : P'.unit = P.unit) (hs : P'.super.lattice = P.super.lattice ∧ ∀ n p, setSuperIndTrue P'.super P'.unit n p = setSuperIndTrue P.super P.unit n p)
    (hou : P.obj.unit = toR P.unit) (hou' : P'.obj.unit = P.obj.unit) (hm : P'.obj.mass = P.obj.mass)
    (h3 : P.unit.xyzTrue.getD [] = (P.unit.atomTrue.getD []).flatMap (fun a => [a, a, a]))
    (hconf : configure S j a force search fs P = .ok Q) (hband : bandOf S j fs kfile Q.obj = .ok (ob, rows)) :
    ∃ Q' ob', configure S j' a force search fs P' = .ok Q' ∧ bandOf S j' fs kfile Q'.obj = .ok (ob', rows) := by
  unfold configure at hconf
  have hua : setUserArgument P.args a.dict = setUserArgument {} a.dict := rfl
  have hua' : setUserArgument P'.args a.dict = setUserArgument {} a.dict := rfl
  rw [hua] at hconf
  simp only at hconf
  obtain ⟨u1, e1, hconf⟩ := run_inv hconf
  obtain ⟨u2, e2, hconf⟩ := run_inv hconf
  obtain ⟨u3, e3, hconf⟩ := run_inv hconf
  obtain ⟨s, e4, hconf⟩ := run_inv hconf
  obtain ⟨d, e5, hconf⟩ := run_inv hconf
  obtain ⟨sel, e6, hconf⟩ := run_inv hconf
  obtain ⟨o1, e7, hconf⟩ := run_inv hconf
  obtain ⟨structs, e8, hconf⟩ := run_inv hconf
  obtain ⟨u4, e9, hconf⟩ := run_inv hconf
  obtain ⟨forces, e10, hconf⟩ := run_inv hconf
  obtain ⟨o2, e11, hconf⟩ := run_inv hconf
  cases hconf
  have hargs := raising_inv e1
  set ua := (setUserArgument {} a.dict).1 with huadef
  have hsym' := fun hh => hsym hh ua (Prod.ext rfl hargs)
  set o0 : Object := { P.obj with super := toR s, n := vec ua.enlargement, p := vec ua.periodicity, d := (d : ℝ) } with ho0
  set o0' : Object := { P'.obj with super := toR s, n := vec ua.enlargement, p := vec ua.periodicity, d := (d : ℝ) } with ho0'
  obtain ⟨-, e7b⟩ := call_inv e7
  obtain ⟨e11a, e11b⟩ := call_inv e11
  have hi : SameInputs o0 o0' := ⟨hou', rfl, rfl, rfl, rfl, hm⟩
  have hsel : P.unit.atomTrue = some sel := by
    cases hh : P.unit.atomTrue with
    | none => rw [hh] at e6; cases e6
    | some l => rw [hh] at e6; cases e6; rfl
  have hT : Thrice o0.unit := by
    show P.obj.unit.xyzTrue.getD [] = _
    rw [hou]; exact h3
  have hT2 : Thrice o0.super := super_thrice e4
  have hc : CompleteFiles o0 a.sym forces := by
    intro hn
    have hns : a.sym = false := by
      by_contra hh
      have ht : a.sym = true := by simpa using hh
      exact hn ⟨ht, hsym' ht⟩
    unfold checkFileOrder at e9
    rw [hns] at e9
    have := checkAtoms_length e9 (Nat.zero_le _)
    rw [each_length e8] at this
    rw [allForces_length e10]
    have hat : o0.unit.atomTrue = some sel := by
      show P.obj.unit.atomTrue = _
      rw [hou]; exact hsel
    rw [hat]
    simpa using this
  have hok : (step S o0 (.force j.left j.cols a.sym forces)).2 = none := by
    rw [e7b] at e11a
    have : (step S (step S o0 .reciprocal).1 (.force j.left j.cols a.sym forces)).2 = (step S o0 (.force j.left j.cols a.sym forces)).2 := by
      show (setForce _ _ _ _ _).2 = (setForce _ _ _ _ _).2
      unfold setForce
      have : forceConstant j.cols a.sym forces (step S o0 .reciprocal).1 = forceConstant j.cols a.sym forces o0 := rfl
      rw [this]
      split <;> rfl
    rw [← this]; exact e11a
  -- the analysis
  unfold bandOf phonons at hband
  obtain ⟨o4, e12, hband⟩ := run_inv hband
  obtain ⟨t, e13, e12⟩ := run_inv e12
  obtain ⟨o3, e14, e12⟩ := run_inv e12
  obtain ⟨b, e15, hband⟩ := run_inv hband
  cases hband
  obtain ⟨e14a, e14b⟩ := call_inv e14
  obtain ⟨e12a, e12b⟩ := call_inv e12
  have hrun : run S o0 (calculation j.left j.cols a.sym forces (readlines t)) = ob := by
    rw [e12b, e14b, e11b, e7b]; rfl
  obtain ⟨hlen, -⟩ := band_set_len e15 0 0 0 (fun _ _ _ => 0) (fun _ _ _ => 0)
  have hk : (run S o0 (calculation j.left j.cols a.sym forces (readlines t))).kPoints ≠ [] := by
    rw [hrun]
    intro hh
    rw [hh] at hlen
    simp at hlen
  obtain ⟨r1, r2, r3, -⟩ := C107_same_calculation S hi hT hT2 a.sym forces hc j.left j'.left j.cols j'.cols (readlines t) hok hk
  rw [hrun] at r2 r3
  set o1' := (step S o0' .reciprocal).1 with ho1'
  have r1' : (step S o1' (.force j'.left j'.cols a.sym forces)).2 = none := by
    have : (step S o1' (.force j'.left j'.cols a.sym forces)).2 = (step S o0' (.force j'.left j'.cols a.sym forces)).2 := by
      show (setForce _ _ _ _ _).2 = (setForce _ _ _ _ _).2
      unfold setForce
      have : forceConstant j'.cols a.sym forces o1' = forceConstant j'.cols a.sym forces o0' := rfl
      rw [this]
      split <;> rfl
    rw [this]; exact r1
  set o2' := (step S o1' (.force j'.left j'.cols a.sym forces)).1 with ho2'
  set o3' := (step S o2' (.kPoints (some (readlines t)))).1 with ho3'
  set o4' := (step S o3' .eval).1 with ho4'
  have hrun' : run S o0' (calculation j'.left j'.cols a.sym forces (readlines t)) = o4' := rfl
  rw [hrun'] at r2 r3
  have hp2 : o2.p = vec ua.periodicity := by
    rw [e11b, e7b]
    show (setForce _ _ _ _ _).1.p = _
    unfold setForce
    split <;> rfl
  have hp2' : o2'.p = vec ua.periodicity := by
    show (setForce _ _ _ _ _).1.p = _
    unfold setForce
    split <;> rfl
  have hk3 : (step S o2' (.kPoints (some (readlines t)))).2 = none := by
    have h1 : (setK (some (readlines t)) o2).2 = none := e14a
    show (setK (some (readlines t)) o2').2 = none
    unfold setK at h1 ⊢
    simp only [hp2, hp2'] at h1 ⊢
    split at h1
    · cases h1
    · rfl
  have hev : (step S o3' .eval).2 = none := by
    show (eval S o3').2 = none
    unfold eval
    simp only
    split_ifs
    · have hw : (frequencies S o3').wq = o4'.wq := by
        rw [ho4']
        show _ = (eval S o3').1.wq
        rw [eval_state]
      rw [hw, r3]
      have hne : ob.wq ≠ [] := by
        have hst : ob = _ := e12b.trans (eval_state S o3)
        have hk3' : o3.kPoints.length ≠ 0 := by
          have h5 : ob.kPoints = o3.kPoints := by rw [hst]; exact frequencies_kPoints S o3
          rw [← h5]
          intro hh
          rw [List.length_map, hh] at hlen
          omega
        rw [hst]
        show (frequencies S o3).wq ≠ []
        unfold frequencies
        rw [if_pos hk3']
        intro hh
        have := congrArg List.length hh
        simp at this
        exact hk3' (by simp [this])
      split
      · rename_i hh; exact absurd hh hne
      · rfl
    · rfl
  rw [List.length_map] at hlen
  have e15' := e15
  rw [← r2] at e15'
  obtain ⟨-, b', hb1, hb2⟩ := band_set_len e15' o4'.wq.length (dof o4') (dof o4') (fun k f m => ((o4'.vq.getD k []).getD f []).getD m 0) j'.band
  refine ⟨⟨ua, P'.unit, s, o2'⟩, o4', ?_, ?_⟩
  · unfold configure
    simp only
    rw [hua', e1]
    simp only [run_ok]
    rw [e2]
    simp only [run_ok]
    rw [hs.1, hu, e3]
    simp only [run_ok]
    rw [← hu, hs.2, e4]
    simp only [run_ok]
    rw [e5]
    simp only [run_ok]
    rw [hu, e6]
    simp only [run_ok]
    rw [show call S o0' .reciprocal = .ok o1' from rfl]
    simp only [run_ok]
    rw [e8]
    simp only [run_ok]
    rw [e9]
    simp only [run_ok]
    rw [e10]
    simp only [run_ok]
    rw [call_ok r1']
    rfl
  · unfold bandOf phonons
    simp only
    rw [e13]
    simp only [run_ok]
    rw [call_ok hk3]
    simp only [run_ok]
    rw [call_ok hev]
    simp only [run_ok]
    rw [hb1]
    simp only [run_ok]
    rw [hb2, r3]
    rfl

theorem configure_inputs {S : Solver} {j : Junk} {a : PostArgs} {force : List Str} {search : Run (List (ℕ × List (V3 ℚ)))} {fs : Fs} {P Q : Process}
    (h : configure S j a force search fs P = .ok Q) :
    Q.unit = P.unit ∧ (∃ n p, setSuperIndTrue P.super P.unit n p = .ok Q.super) ∧ Q.obj.unit = P.obj.unit ∧ Q.obj.mass = P.obj.mass := by
  unfold configure at h
  simp only at h
  obtain ⟨u1, e1, h⟩ := run_inv h
  obtain ⟨u2, e2, h⟩ := run_inv h
  obtain ⟨u3, e3, h⟩ := run_inv h
  obtain ⟨s, e4, h⟩ := run_inv h
  obtain ⟨d, e5, h⟩ := run_inv h
  obtain ⟨sel, e6, h⟩ := run_inv h
  obtain ⟨o1, e7, h⟩ := run_inv h
  obtain ⟨structs, e8, h⟩ := run_inv h
  obtain ⟨u4, e9, h⟩ := run_inv h
  obtain ⟨forces, e10, h⟩ := run_inv h
  obtain ⟨o2, e11, h⟩ := run_inv h
  cases h
  obtain ⟨-, rfl⟩ := call_inv e7
  obtain ⟨-, rfl⟩ := call_inv e11
  refine ⟨rfl, ⟨_, _, e4⟩, ?_, ?_⟩
  · show (setForce _ _ _ _ _).1.unit = _
    unfold setForce
    split <;> rfl
  · show (setForce _ _ _ _ _).1.mass = _
    unfold setForce
    split <;> rfl

theorem phonons_inputs {S : Solver} {fs : Fs} {kfile : Str} {o o' : Object} (h : phonons S fs kfile o = .ok o') : o'.unit = o.unit ∧ o'.mass = o.mass := by
  unfold phonons at h
  obtain ⟨t, e1, h⟩ := run_inv h
  obtain ⟨o1, e2, h⟩ := run_inv h
  obtain ⟨-, e2⟩ := call_inv e2
  obtain ⟨-, e3⟩ := call_inv h
  have h0 := C89_inputs_kept S o [.kPoints (some (readlines t)), .eval]
  have e : run S o [.kPoints (some (readlines t)), .eval] = o' := by rw [e3, e2]; rfl
  rw [e] at h0
  exact ⟨h0.1, h0.2.2.2.2.2⟩

theorem dosOf_inputs {S : Solver} {A : Argsorts} {fs : Fs} {kfile : Str} {sigma : ℝ} {num : ℕ} {o : Object} {r : Object × Dos.State} (h : dosOf S A fs kfile sigma num o = .ok r) :
    r.1.unit = o.unit ∧ r.1.mass = o.mass := by
  unfold dosOf at h
  obtain ⟨o2, e1, h⟩ := run_inv h
  obtain ⟨s0, e2, h⟩ := run_inv h
  obtain ⟨_, e3, h⟩ := run_inv h
  obtain ⟨s, e4, h⟩ := run_inv h
  cases h
  exact phonons_inputs e1

/-- **C120.**  Bands, DOS and thermal properties in one run are those of separate runs.  The post-process that is asked for DOS (with or without thermal properties) and
bands goes on, for the bands, with a copy of the object that holds the force constants, wave vectors and frequencies of the DOS.  Whatever the files, the options and the
content of fresh arrays: it ends without an exception, with these numbers in the DOS, thermal and band files, exactly when the run with the DOS alone ends with these DOS
and thermal numbers, and the run with the band alone with these band numbers.  (If the symmetry flag is on, two directions have to be periodic, as is the case
whenever the pre-process has found a point group.) -/
theorem C120_dos_and_band (S : Solver) (A : Argsorts) (j j' j'' : Junk) (cwd : Str) (o : PostOpts) (r : PreRecord) (glob : Str → List Str) (args : List Str) (kdos kband : Str)
    (sigma : ℝ) (num : ℕ) (temp : Option (List ℤ)) (search : Run (List (ℕ × List (V3 ℚ)))) (fs : Fs)
    (hsym : (postResolve cwd o r).sym = true → ∀ ua, setUserArgument {} (postResolve cwd o r).dict = (ua, none) → PreProcess.numPbc (vec ua.periodicity) = 2)
    (x : Dos.State × Option Thermal.State) (b : List (ℝ × List ℝ)) :
    bothMain S A j j' cwd o r glob args kdos kband sigma num temp search fs = .ok (x, b) ↔
      dosMain S A j cwd o r glob args kdos sigma num temp search fs = .ok x ∧ ∃ obj, bandMain S j'' cwd o r glob args kband search fs = .ok (obj, b) := by
  set a := postResolve cwd o r with ha
  -- the common beginning
  have key : ∀ {force : List Str} {y : Process × Dos.State × Option Thermal.State},
      dosPart S A j a force search (absPath cwd kdos) sigma num temp fs = .ok y →
      ((∃ Q ob, configure S j' a force search fs y.1 = .ok Q ∧ bandOf S j' fs (absPath cwd kband) Q.obj = .ok (ob, b)) ↔
      ∃ Q ob, postSetup S j'' a force search fs = .ok Q ∧ bandOf S j'' fs (absPath cwd kband) Q.obj = .ok (ob, b)) := by
    intro force y hy
    unfold dosPart postSetup at hy
    obtain ⟨P1, h1, hy⟩ := run_inv hy
    obtain ⟨P0, h0, h1⟩ := run_inv h1
    obtain ⟨d, h2, hy⟩ := run_inv hy
    cases hy
    obtain ⟨-, n2, n3, n4⟩ := newProcess_spec h0
    obtain ⟨P0', n5, -, n6, n7, n8, n9⟩ := n4 j''
    obtain ⟨c1, ⟨n, p, c2⟩, c3, c4⟩ := configure_inputs h1
    obtain ⟨d1, d2⟩ := dosOf_inputs h2
    have hpost : postSetup S j'' a force search fs = configure S j'' a force search fs P0' := by
      unfold postSetup
      rw [n5]; rfl
    rw [hpost]
    constructor
    · rintro ⟨Q, ob, q1, q2⟩
      refine band_agree (P := ⟨P1.args, P1.unit, P1.super, d.1⟩) hsym (n6.trans c1.symm) ⟨?_, ?_⟩ ?_ ?_ ?_ ?_ q1 q2
      · rw [n7]; exact (super_again c2 0 0).2.symm
      · intro n' p'
        rw [n6, n7]
        show _ = setSuperIndTrue P1.super P1.unit n' p'
        rw [c1]
        exact ((super_again c2 n' p').1).symm
      · show d.1.unit = toR P1.unit
        rw [d1, c3, n2, c1]
      · show P0'.obj.unit = d.1.unit
        rw [d1, c3, n8]
      · show P0'.obj.mass = d.1.mass
        rw [d2, c4, n9]
      · show P1.unit.xyzTrue.getD [] = _
        rw [c1]; exact n3
    · rintro ⟨Q, ob, q1, q2⟩
      refine band_agree (P := P0') hsym (c1.trans n6.symm) ⟨?_, ?_⟩ ?_ ?_ ?_ ?_ q1 q2
      · rw [n7]; exact (super_again c2 0 0).2
      · intro n' p'
        rw [n6, n7]
        show setSuperIndTrue P1.super P1.unit n' p' = _
        rw [c1]
        exact (super_again c2 n' p').1
      · rw [n8, n2, n6]
      · show d.1.unit = P0'.obj.unit
        rw [d1, c3, n8]
      · show d.1.mass = P0'.obj.mass
        rw [d2, c4, n9]
      · rw [n6]; exact n3
  unfold bothMain dosMain bandMain
  cases hf : forceFiles glob args with
  | error e => constructor <;> intro h <;> [cases h; cases h.1]
  | ok force =>
    simp only [run_ok]
    cases hd : dosPart S A j a force search (absPath cwd kdos) sigma num temp fs with
    | error e => constructor <;> intro h <;> [cases h; cases h.1]
    | ok y =>
      simp only [run_ok]
      have key := key hd
      constructor
      · intro h
        obtain ⟨Q, q1, h⟩ := run_inv h
        obtain ⟨ob, q2, h⟩ := run_inv h
        cases h
        obtain ⟨Q', ob', q3, q4⟩ := key.1 ⟨Q, ob.1, q1, q2⟩
        refine ⟨rfl, ob', ?_⟩
        rw [q3]
        exact q4
      · rintro ⟨h1, obj, h2⟩
        cases h1
        obtain ⟨Q, q1, q2⟩ := run_inv h2
        obtain ⟨Q', ob', q3, q4⟩ := key.2 ⟨Q, obj, q1, q2⟩
        rw [q3]
        simp only [run_ok]
        rw [q4]
        rfl

/-! ### C121 -/

theorem sum_div' (l : List ℝ) (g : ℝ → ℝ) (c : ℝ) : (l.map fun w => g w / c).sum = (l.map g).sum / c := by
  induction l with
  | nil => simp
  | cons a l ih => rw [List.map_cons, List.sum_cons, ih, List.map_cons, List.sum_cons, add_div]

theorem sum_range_getD {α : Type} (l : List α) (z : α) (g : α → ℝ) : ∑ i ∈ Finset.range l.length, g (l.getD i z) = (l.map g).sum := by
  induction l with
  | nil => simp
  | cons a l ih =>
    rw [List.length_cons, Finset.sum_range_succ', List.map_cons, List.sum_cons, add_comm]
    congr 1

theorem sum_rows (rows : List (List ℝ)) (m : ℕ) (h : ∀ row ∈ rows, row.length = m) (g : ℝ → ℝ) :
    ∑ k ∈ Finset.range rows.length, ∑ b ∈ Finset.range m, g ((rows.getD k []).getD b 0) = (rows.flatten.map g).sum := by
  induction rows with
  | nil => simp
  | cons r rows ih =>
    rw [List.length_cons, Finset.sum_range_succ', List.flatten_cons, List.map_append, List.sum_append, add_comm]
    congr 1
    · have := h r (by simp)
      subst this
      exact sum_range_getD r 0 g
    · exact ih fun row hr => h row (by simp [hr])

/-- The springs of a real crystal: the force constant between two atoms does not depend on which of them is moved. -/
def SymmetricSprings (Φ : Springs) : Prop := ∀ a x b y l, Φ a x b y l = Φ b y a x (-l)

theorem trueDyn_hermitian (u : Cell ℝ) (sel : List ℕ) (mass : ℕ → ℝ) {Φ : Springs} (hΦ : SymmetricSprings Φ) (q : V3 ℝ) (m : ℕ) : (trueDyn u sel mass Φ q m).IsHermitian := by
  ext r c
  rw [Matrix.conjTranspose_apply]
  simp only [trueDyn, Matrix.of_apply]
  rw [star_div₀, mul_comm (mass c)]
  congr 1
  · unfold Finsupp.sum
    rw [star_sum]
    refine Finset.sum_bij' (fun l _ => -l) (fun l _ => -l) ?_ ?_ ?_ ?_ ?_
    · intro l hl
      rw [Finsupp.mem_support_iff] at hl ⊢
      rwa [hΦ, neg_neg]
    · intro l hl
      rw [Finsupp.mem_support_iff] at hl ⊢
      rwa [hΦ, neg_neg]
    · intro l _; exact neg_neg l
    · intro l _; exact neg_neg l
    · intro l _
      rw [← hΦ, star_mul', Complex.star_def, Complex.conj_ofReal, ← Complex.exp_conj, map_mul, Complex.conj_I, Complex.conj_ofReal]
      beta_reduce
      congr 2
      have : dot3 q (u.cart.getD (sel.getD ((c : ℕ) / 3) 0) 0 + latVec u.lattice l - u.cart.getD (sel.getD ((r : ℕ) / 3) 0) 0) =
          -dot3 q (u.cart.getD (sel.getD ((r : ℕ) / 3) 0) 0 + latVec u.lattice (-l) - u.cart.getD (sel.getD ((c : ℕ) / 3) 0) 0) := by
        have hl : latVec u.lattice (-l) = -latVec u.lattice l := by
          funext i
          simp [latVec]
          try ring
        rw [hl]
        simp [dot3]
        ring
      rw [this]
      push_cast
      ring
  · rw [Complex.star_def, Complex.conj_ofReal]

/-- The stored mode rows of a Hermitian matrix are normalised.  (`numpy` normalises the eigenvectors; for simple eigenvalues the matrix of eigenvectors is then unitary.) -/
def Normalised (S : Solver) : Prop := ∀ (m : ℕ) (A : Matrix (Fin m) (Fin m) ℂ), A.IsHermitian → ∀ r, ∑ c, ‖(S m A).2 r c‖ ^ 2 = 1

theorem stored_norm {S : Solver} (hU : Normalised S) (o : Object) (k : V3 ℚ) (m : ℕ) (hm : dof o = m) (A : Matrix (Fin m) (Fin m) ℂ) (hA : A.IsHermitian)
    (h : ∀ r c : Fin m, dynMatrix (PostProcess.data o) (toReal k) r c = A r c) (b : ℕ) (hb : b < m) :
    ∑ d ∈ Finset.range m, ‖((List.ofFn fun m => List.ofFn ((atK S o k).2 m)).getD b []).getD d 0‖ ^ 2 = 1 := by
  subst hm
  have e : (Matrix.of fun (r c : Fin (dof o)) => dynMatrix (PostProcess.data o) (toReal k) r c) = A := by
    ext r c; exact h r c
  rw [Finset.sum_range, ← hU (dof o) A hA ⟨b, hb⟩]
  refine Finset.sum_congr rfl fun d _ => ?_
  congr 2
  have hl : (List.ofFn fun m => List.ofFn ((atK S o k).2 m)).getD b [] = List.ofFn ((atK S o k).2 ⟨b, hb⟩) := by
    rw [List.getD_eq_getElem _ _ (by simpa using hb), List.getElem_ofFn]
  rw [hl, List.getD_eq_getElem _ _ (by simp), List.getElem_ofFn]
  unfold atK
  rw [e]

/-- The density of states and the thermal properties, from the phonons. -/
theorem dos_core {S : Solver} (hU : Normalised S) (A : Argsorts) {j : Junk} {cwd : Str} {rec : PreRecord} {force : List Str} {search : Run (List (ℕ × List (V3 ℚ)))} {fs2 : Fs}
    {n p : Fin 3 → ℤ} {u : Cell ℚ} {sel : List ℕ} {Φ : Springs} (hsel : sel ≠ []) (hsymm : SymmetricSprings Φ) (hmain : ExactPhonons S j cwd rec force search fs2 n p u sel Φ)
    {glob : Str → List Str} {args : List Str}
    (hforce : forceFiles glob args = .ok force) (kdos t : Str) (ks : List (V3 ℚ)) (auto : List ℤ) (hkf : fs2 (absPath cwd kdos) = some t)
    (hk : KPoints.setKPoints (readlines t) (fun c => decide (p c ≠ 0)) = .ok (ks, auto)) (hk0 : ks ≠ []) (hfit : ∀ k ∈ ks, Fits n p (toReal k)) :
          ∃ (mass : ℕ → ℝ) (rows : List (List ℝ)), IsMasses u sel mass ∧ rows.length = ks.length ∧
            (∀ (i : ℕ) (k : V3 ℚ), ks[i]? = some k → ∃ row q, rows[i]? = some row ∧ (∀ c, dot3 q ((toR u).lattice c) = 2 * Real.pi * (k c : ℝ)) ∧
              IsSpectrum (trueDyn (toR u) sel mass Φ q (3 * sel.length)) row) ∧
            ∀ (sigma : ℝ) (num : ℕ) (temp : List ℤ), sigma ≠ 0 → 0 < num → ∃ dos th,
              dosMain S A j cwd {} rec glob args kdos sigma num (some temp) search fs2 = .ok (dos, some th) ∧
              (∃ lo ∈ rows.flatten, ∃ hi ∈ rows.flatten, (∀ w ∈ rows.flatten, lo ≤ w ∧ w ≤ hi) ∧
                Dos.totalRows dos = (List.range num).map fun i : ℕ =>
                  (lo - 2 + i * ((hi - lo + 4) / num),
                    some ((rows.flatten.map fun w => bell sigma w (lo - 2 + i * ((hi - lo + 4) / num))).sum / ks.length))) ∧
              ((∀ T ∈ temp, 0 < T) → (0 : ℝ) ∉ rows.flatten →
                th.temp = temp.map (fun z : ℤ => (z : ℝ)) ∧
                th.freeEnergy = temp.map (fun z : ℤ => some (((rows.flatten.filter fun w => decide (0 ≤ w)).map fun w => oscF (quantum w) z).sum / (ks.length * sel.length))) ∧
                th.entropy = temp.map (fun z : ℤ => some (((rows.flatten.filter fun w => decide (0 ≤ w)).map fun w => oscS (quantum w) z).sum / (ks.length * sel.length)))) := by
  obtain ⟨P, mass, hpost, hmass, -, hrest⟩ := hmain
  obtain ⟨o2, o3, hph, ho3, hk2, hk3, hauto, hp3, hdof2, hdof3, hwl, hrows⟩ := hrest (absPath cwd kdos) t ks auto hkf hk hk0
  have hst : o3 = { frequencies S o2 with gammaFile := (eval S o2).1.gammaFile } := by rw [ho3]; exact eval_state S o2
  have hlen2 : o2.kPoints.length ≠ 0 := by rw [hk2]; simpa using hk0
  have hwq : o3.wq = ks.map fun k => List.ofFn (atK S o2 k).1 := by
    rw [hst, ← hk2]
    simp only [frequencies, if_pos hlen2]
  have hvq : o3.vq = ks.map fun k => List.ofFn fun m => List.ofFn ((atK S o2 k).2 m) := by
    rw [hst, ← hk2]
    simp only [frequencies, if_pos hlen2]
  have hrl : ∀ row ∈ o3.wq, row.length = 3 * sel.length := by
    intro row hr
    rw [hwq] at hr
    obtain ⟨k, -, rfl⟩ := List.mem_map.1 hr
    rw [List.length_ofFn, hdof2]
  refine ⟨mass, o3.wq, hmass, hwl, ?_, ?_⟩
  · intro i k hi
    obtain ⟨row, q, h1, h2, h3, -⟩ := hrows i k hi (hfit k (List.mem_of_getElem? hi))
    exact ⟨row, q, h1, h2, h3⟩
  intro sigma num temp hsig hnum
  have hkpos : 0 < ks.length := List.length_pos_of_ne_nil hk0
  have hspos : 0 < sel.length := List.length_pos_of_ne_nil hsel
  have hkp : (dosProc o3).kPoints.length = ks.length := by
    show (o3.kPoints.map toReal).length = _
    rw [List.length_map, hk3]
  have hnb : (dosProc o3).nb = 3 * sel.length := hdof3
  have hnd : (dosProc o3).nd = 3 * sel.length := hdof3
  have hnk : (dosProc o3).nk = ks.length := hwl
  obtain ⟨s0, hs0⟩ := (C46_succeeds_iff (dosProc o3) num).2 ⟨by rw [hnk]; exact hkpos, by rw [hnb]; omega⟩
  obtain ⟨lo, hi, ⟨k1, hk1, b1, hb1, e1⟩, ⟨k2', hk2', b2, hb2, e2⟩, hbound, hflen, hfreq, -, -, hshape, -⟩ := C46_grid _ num hnum s0 hs0
  obtain ⟨s1, hs1, hfr, hentry⟩ := C48_entry A.two A.three A.four (dosProc o3) sigma hsig num hnum s0 hs0
  obtain ⟨-, -, td, htd, htl, htot⟩ := C44_total_partial A.two A.three A.four (dosProc o3) sigma s0 s1 hshape hs1 (.inl hsig)
  have hmem : ∀ w, w ∈ o3.wq.flatten ↔ ∃ k < ks.length, ∃ b < 3 * sel.length, (dosProc o3).w k b = w := by
    intro w
    rw [List.mem_flatten]
    constructor
    · rintro ⟨row, hr, hw⟩
      obtain ⟨k, hk, rfl⟩ := List.getElem_of_mem hr
      obtain ⟨b, hb, rfl⟩ := List.getElem_of_mem hw
      refine ⟨k, by rw [← hwl]; exact hk, b, by rw [← hrl _ hr]; exact hb, ?_⟩
      show (o3.wq.getD k []).getD b 0 = _
      rw [List.getD_eq_getElem _ _ hk, List.getD_eq_getElem _ _ hb]
    · rintro ⟨k, hk, b, hb, rfl⟩
      rw [← hwl] at hk
      refine ⟨o3.wq[k], List.getElem_mem _, ?_⟩
      show (o3.wq.getD k []).getD b 0 ∈ _
      rw [List.getD_eq_getElem _ _ hk, List.getD_eq_getElem _ _ (by rw [hrl _ (List.getElem_mem _)]; exact hb)]
      exact List.getElem_mem _
  have hnorm : ∀ k < ks.length, ∀ b < 3 * sel.length, ∑ d ∈ Finset.range (3 * sel.length), (dosProc o3).F k b d = 1 := by
    intro k hk b hb
    have hki : ks[k]? = some ks[k] := List.getElem?_eq_getElem hk
    obtain ⟨row, q, -, -, -, hm⟩ := hrows k ks[k] hki (hfit _ (List.getElem_mem _))
    have := stored_norm hU o2 ks[k] (3 * sel.length) hdof2 _ (trueDyn_hermitian (toR u) sel mass hsymm q _) hm b hb
    rw [← this]
    refine Finset.sum_congr rfl fun d _ => ?_
    show ‖((o3.vq.getD k []).getD b []).getD d 0‖ ^ 2 = _
    have e1 : o3.vq.getD k [] = List.ofFn fun m => List.ofFn ((atK S o2 ks[k]).2 m) := by
      rw [hvq, List.getD_eq_getElem _ _ (by rw [List.length_map]; exact hk), List.getElem_map]
    rw [e1]
  refine ⟨s1, thermalOf temp o3, ?_, ⟨lo, ?_, hi, ?_, ?_, ?_⟩, ?_⟩
  · unfold dosMain dosPart dosOf
    rw [hforce]
    simp only [run_ok]
    rw [hpost]
    simp only [run_ok]
    rw [hph]
    simp only [run_ok]
    rw [hs0]
    simp only [run_ok]
    rw [if_neg (fun hc => hsig hc.1)]
    simp only [raising, run_ok]
    rw [hs1]
    rfl
  · exact (hmem lo).2 ⟨k1, by rwa [hnk] at hk1, b1, by rwa [hnb] at hb1, e1⟩
  · exact (hmem hi).2 ⟨k2', by rwa [hnk] at hk2', b2, by rwa [hnb] at hb2, e2⟩
  · intro w hw
    obtain ⟨k, hk, b, hb, rfl⟩ := (hmem w).1 hw
    exact hbound k (by rw [hnk]; exact hk) b (by rw [hnb]; exact hb)
  · apply List.ext_getElem?
    intro i
    unfold Dos.totalRows
    rw [htd, Option.getD_some, List.getElem?_map]
    by_cases hi' : i < num
    · rw [List.getElem?_range hi', Option.map_some]
      have hif : s1.freq[i]? = some (lo - 2 + i * ((hi - lo + 4) / num)) := by rw [hfr]; exact hfreq i hi'
      have hil : i < s1.freq.length := by rw [hfr, hflen]; exact hi'
      have htd' := htot i hil (fun d => gaussDos (dosProc o3) sigma d (lo - 2 + i * ((hi - lo + 4) / num))) fun d hd => hentry d hd i hi' _ (hfreq i hi')
      have hzip : (s1.freq.zip td)[i]? = some (_, _) := List.getElem?_zip_eq_some.2 ⟨hif, htd'⟩
      rw [hzip]
      congr 3
      generalize lo - 2 + (i : ℝ) * ((hi - lo + 4) / num) = f
      unfold gaussDos
      rw [hkp, hnk, hnb, hnd, Finset.sum_comm]
      have hrow : ∀ k ∈ Finset.range ks.length, ∑ d ∈ Finset.range (3 * sel.length), ∑ b ∈ Finset.range (3 * sel.length),
          bell sigma ((dosProc o3).w k b) f / (ks.length : ℝ) * (dosProc o3).F k b d =
          ∑ b ∈ Finset.range (3 * sel.length), bell sigma ((o3.wq.getD k []).getD b 0) f / (ks.length : ℝ) := by
        intro k hk
        rw [Finset.sum_comm]
        refine Finset.sum_congr rfl fun b hb => ?_
        rw [← Finset.mul_sum, hnorm k (Finset.mem_range.1 hk) b (Finset.mem_range.1 hb), mul_one]
        rfl
      rw [Finset.sum_congr rfl hrow, ← hwl, sum_rows o3.wq _ hrl fun w => bell sigma w f / (o3.wq.length : ℝ)]
      rw [sum_div']
    · rw [List.getElem?_eq_none (by rw [List.length_zip, hfr, hflen]; omega), List.getElem?_eq_none (by rw [List.length_range]; omega)]
      rfl
  · intro hT hz
    have hz' : NoZeroMode o3.wq := fun row hr nu hnu h0 => hz (by rw [← h0]; exact List.mem_flatten.2 ⟨row, hr, hnu⟩)
    obtain ⟨t1, t2, t3⟩ := C52_no_zero_partial o3.kPoints.length (dof o3) o3.wq hz' (temp.map fun z : ℤ => (z : ℝ)) (by
      intro T hT'
      obtain ⟨z, hz1, rfl⟩ := List.mem_map.1 hT'
      exact_mod_cast hT z hz1)
    have hdiv : ∀ v : ℝ, v / (ks.length : ℝ) / (((3 * sel.length : ℕ) : ℝ) / 3) = v / (ks.length * sel.length) := by
      intro v
      push_cast
      rw [div_div]
      congr 1
      ring
    unfold thermalOf
    refine ⟨t1, t2.trans ?_, t3.trans ?_⟩
    · rw [List.map_map]
      refine List.map_congr_left fun z _ => ?_
      show some (specF _ _ _ _) = _
      unfold specF modes
      rw [hk3, hdof3]
      simp only [hdiv]
      rw [sum_div']
    · rw [List.map_map]
      refine List.map_congr_left fun z _ => ?_
      show some (specS _ _ _ _) = _
      unfold specS modes
      rw [hk3, hdof3]
      simp only [hdiv]
      rw [sum_div']

/-- **C121.**  From the command line to the density of states and the thermal properties.  The pre-process runs; after the calculations with the forces of an infinite
harmonic crystal with symmetric springs, the post-process with `-dos -thermal` and smearing runs (default options), for every k-point file whose wave vectors fit into the
super cell.  With `rows` the exact frequencies of the infinite crystal at these wave vectors: the DOS file has `num` rows, equally spaced from 2 THz below the lowest to 2
THz above the highest frequency, each with the average over the wave vectors of one normal density of width `sigma` per frequency; and, with positive
temperatures and no frequency exactly zero, the thermal file has at each temperature the free energy and the entropy of the oscillators with non-negative frequency, per
wave vector and selected atom. -/
theorem C121_dos_thermal {cwd : Str} {o : PreOpts} {code : Code} {a : PreArg} {e p : List ℤ} {d : ℚ} {u : Cell ℚ} {sel : List ℕ} {x : ℕ → FileArgs}
    {junk : ℕ → List (V3 ℚ)} {fs : Fs} (h : PreRun cwd o code a e p d u sel x junk fs) (hd : d ≠ 0) (hdet : u.lattice.det ≠ 0)
    (hxyz : u.xyzTrue = some (sel.flatMap fun a => [a, a, a])) (hdec : DecCell u) (hd16 : Dec16 d) (hsel : sel ≠ [])
    (Φ : Springs) (hΦ : ∀ a x b y l, l ∈ (Φ a x b y).support → ∀ i : Fin 3, p.getD i 0 = 0 → l i = 0) (hsymm : SymmetricSprings Φ) (F0 : Rows ℝ)
    (search : Run (List (ℕ × List (V3 ℚ)))) (group : Run Str) {S : Solver} (hS : IsSolver S) (hU : Normalised S) (A : Argsorts) (j : Junk) :
    ∃ fs1 rec, preMain cwd o x junk search group fs = .ok (fs1, rec) ∧
      ∀ (fs2 : Fs) (glob : Str → List Str) (args force : List Str), forceFiles glob args = .ok force →
        Calculated code cwd o.unitcell fs1 fs2 (superSprings (fun i => e.getD i 0) (e.getD 0 0 * e.getD 1 0 * e.getD 2 0).toNat Φ) F0 (6 * sel.length) force →
        ∀ (kdos t : Str) (ks : List (V3 ℚ)) (auto : List ℤ), fs2 (absPath cwd kdos) = some t →
          KPoints.setKPoints (readlines t) (fun c => decide (p.getD c 0 ≠ 0)) = .ok (ks, auto) → ks ≠ [] →
          (∀ k ∈ ks, Fits (fun i => e.getD i 0) (fun i => p.getD i 0) (toReal k)) →
          ∃ (mass : ℕ → ℝ) (rows : List (List ℝ)), IsMasses u sel mass ∧ rows.length = ks.length ∧
            (∀ (i : ℕ) (k : V3 ℚ), ks[i]? = some k → ∃ row q, rows[i]? = some row ∧ (∀ c, dot3 q ((toR u).lattice c) = 2 * Real.pi * (k c : ℝ)) ∧
              IsSpectrum (trueDyn (toR u) sel mass Φ q (3 * sel.length)) row) ∧
            ∀ (sigma : ℝ) (num : ℕ) (temp : List ℤ), sigma ≠ 0 → 0 < num → ∃ dos th,
              dosMain S A j cwd {} rec glob args kdos sigma num (some temp) search fs2 = .ok (dos, some th) ∧
              (∃ lo ∈ rows.flatten, ∃ hi ∈ rows.flatten, (∀ w ∈ rows.flatten, lo ≤ w ∧ w ≤ hi) ∧
                Dos.totalRows dos = (List.range num).map fun i : ℕ =>
                  (lo - 2 + i * ((hi - lo + 4) / num),
                    some ((rows.flatten.map fun w => bell sigma w (lo - 2 + i * ((hi - lo + 4) / num))).sum / ks.length))) ∧
              ((∀ T ∈ temp, 0 < T) → (0 : ℝ) ∉ rows.flatten →
                th.temp = temp.map (fun z : ℤ => (z : ℝ)) ∧
                th.freeEnergy = temp.map (fun z : ℤ => some (((rows.flatten.filter fun w => decide (0 ≤ w)).map fun w => oscF (quantum w) z).sum / (ks.length * sel.length))) ∧
                th.entropy = temp.map (fun z : ℤ => some (((rows.flatten.filter fun w => decide (0 ≤ w)).map fun w => oscS (quantum w) z).sum / (ks.length * sel.length)))) := by
  obtain ⟨fs1, rec, hpre, hmain⟩ := post_ok h hd hdet hxyz hdec hd16 Φ hΦ F0 search group hS j
  refine ⟨fs1, rec, hpre, ?_⟩
  intro fs2 glob args force hforce hcalc kdos t ks auto hkf hk hk0 hfit
  exact dos_core hU A hsel hsymm (hmain fs2 force hcalc) hforce kdos t ks auto hkf hk hk0 hfit

end Interphon.Props
