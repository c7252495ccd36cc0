import Verif.Props.ProgramDos
import Verif.Props.ProgramDosExample
import Verif.Props.ForceFiles
import Verif.Props.FileOrder

/-! # C122: a run that succeeds had complete and consistent input -/

namespace Interphon.Props
open Py Interphon Interphon.UnitCell Interphon.SuperCell Interphon.PreProcess Interphon.Args Interphon.Inout Interphon.Cli Interphon.Main
open Interphon.PostProcess Interphon.Phonon Interphon.ForceConstant

/-- A structure that the program works with comes from a file that exists, in a known format, and is exactly what the file says. -/
theorem holds_of_read {fs : Fs} {code path : Str} {r : RawCell} {u : Cell ℚ} (h : readFile fs code path = (r, none)) (hu : ofRaw r = .ok u) :
    ∃ (c : Code) (t : Str), code = c.name ∧ fs path = some t ∧ Holds fs c path u := by
  by_cases hc : ∃ c : Code, code = c.name
  · obtain ⟨c, rfl⟩ := hc
    cases hf : fs path with
    | none =>
      exfalso
      have hl : load fs path = .error .fileNotFound := by unfold load; rw [hf]
      unfold readFile readUnitCell at h
      simp only [hl] at h
      split_ifs at h
      · cases h
      · cases h
      · cases h
      · rcases c.name_cases with ⟨-, e⟩ | ⟨-, e⟩ | ⟨-, e⟩ <;> contradiction
    | some t =>
      refine ⟨c, t, rfl, rfl, r, h, ?_⟩
      rw [readFile_text _ hf] at h
      obtain ⟨L, T, N, C, sel, hcons, -⟩ := C111_accepted_is_consistent c {} r t h
      unfold ofRaw at hu
      split at hu
      · rename_i L' T' N' co C' e1 e2 e3 e4 e5
        cases hu
        obtain ⟨l1, l2, l3⟩ := hcons.lattice
        rw [l1] at e1; cases e1
        obtain ⟨c1, c2, c3⟩ := hcons.cart
        rw [c1] at e5; cases e5
        refine ⟨?_, e2, e3, rfl, e4, ?_, ?_, ?_⟩
        · rw [l1]
          congr 1
          obtain ⟨v0, v1, v2, rfl⟩ := List.length_eq_three.1 l2
          have h3 : ∀ v ∈ [v0, v1, v2], v = [v.getD 0 0, v.getD 1 0, v.getD 2 0] := by
            intro v hv
            obtain ⟨a, b, c, rfl⟩ := List.length_eq_three.1 (l3 v hv)
            rfl
          have e0 := h3 v0 (by simp)
          have e1 := h3 v1 (by simp)
          have e2 := h3 v2 (by simp)
          show [v0, v1, v2] = [[v0.getD 0 0, v0.getD 1 0, v0.getD 2 0], [v1.getD 0 0, v1.getD 1 0, v1.getD 2 0], [v2.getD 0 0, v2.getD 1 0, v2.getD 2 0]]
          rw [← e0, ← e1, ← e2]
        · rw [c1]
          congr 1
          rw [List.map_map]
          conv_lhs => rw [← List.map_id C]
          refine List.map_congr_left fun v hv => ?_
          obtain ⟨a, b, c, rfl⟩ := List.length_eq_three.1 (c3 v hv)
          rfl
        · obtain ⟨s1, s2, s3⟩ := hcons.selected
          rw [s1]
          simp only [Option.map_some, List.map_map]
          congr 1
          conv_lhs => rw [← List.map_id sel]
          refine List.map_congr_left fun v hv => ?_
          exact (Int.toNat_of_nonneg (s3 v hv).1).symm
        · rw [hcons.dof]
          obtain ⟨s1, s2, s3⟩ := hcons.selected
          simp only [Option.map_some, List.map_map]
          congr 1
          conv_lhs => rw [← List.map_id (sel.flatMap _)]
          refine List.map_congr_left fun v hv => ?_
          obtain ⟨a, ha, hv⟩ := List.mem_flatMap.1 hv
          have : v = a := by simpa using hv
          subst this
          exact (Int.toNat_of_nonneg (s3 v ha).1).symm
      · cases hu
  · exfalso
    have h1 : code ≠ "vasp".toList := fun e => hc ⟨.vasp, e⟩
    have h2 : code ≠ "espresso".toList := fun e => hc ⟨.espresso, e⟩
    have h3 : code ≠ "aims".toList := fun e => hc ⟨.aims, e⟩
    unfold readFile readUnitCell at h
    simp only [if_neg h1, if_neg h2, if_neg h3] at h
    cases h
    cases hu

theorem name_injective {c c' : Code} (h : c.name = c'.name) : c = c' := by
  cases c <;> cases c' <;> first | rfl | (exfalso; revert h; decide)

theorem each_get {α β : Type} {f : α → Run β} {l : List α} {bs : List β} (h : each f l = .ok bs) (k : ℕ) (a : α) (hk : l[k]? = some a) :
    ∃ b, bs[k]? = some b ∧ f a = .ok b := by
  induction l generalizing bs k with
  | nil => simp at hk
  | cons x l ih =>
    rw [each] at h
    split at h
    · cases h
    · rename_i b hb
      split at h
      · cases h
      · rename_i bs' hbs
        cases h
        cases k with
        | zero =>
          simp only [List.getElem?_cons_zero, Option.some.injEq] at hk ⊢
          subst hk
          exact ⟨b, rfl, hb⟩
        | succ k =>
          simp only [List.getElem?_cons_succ] at hk ⊢
          exact ih hbs k hk

theorem checkAtoms_rows {d : ℚ} {cur : List (V3 ℚ)} {structs : List (List (V3 ℚ))} {E : ℕ} {sel : List ℕ} {i : ℕ} (h : checkAtoms d cur structs E i sel = .ok ()) :
    ∀ t ∈ sel, E * t < cur.length := by
  induction sel generalizing i with
  | nil => simp
  | cons t rest ih =>
    rw [checkAtoms] at h
    split at h
    · cases h
    · rename_i p hp
      intro t' ht'
      rcases List.mem_cons.1 ht' with rfl | ht'
      · unfold eye3 at hp
        rw [checkDirs] at hp
        split at hp
        · cases hp
        · rename_i p1 hp1
          unfold checkPair at hp1
          split at hp1
          · cases hp1
          · rename_i v hv
            unfold getE at hv
            split at hv
            · rename_i hg
              exact (List.getElem?_eq_some_iff.1 hg).1
            · cases hv
      · exact ih h t' ht'

/-- What the post-process needs: consistent arguments; unit cell and super cell in a known format, whose lattices fit to the enlargement; every output file with a table of forces, whose
shapes fit two by two (see C124), and a structure file next to it; and, without symmetry, for every selected atom, axis and sign an output file at the expected place of the list whose structure is the super cell with
this atom moved this way (within `10⁻⁸ + 10⁻⁵ |y|`). -/
structure GoodInput (fs : Fs) (a : PostArgs) (force : List Str) (code : Code) (e p : List ℤ) (d : ℚ) (u s : Cell ℚ) (sel : List ℕ) : Prop where
  format : a.dft = code.name
  args : okState (setUserArgument {} a.dict) = some ⟨some d, some e, some p⟩
  shape : e.length = 3 ∧ p.length = 3 ∧ ∀ i < 3, p[i]? = some 0 → e[i]? = some 1
  unit : Holds fs code a.unitCellFile u
  super : Holds fs code a.superCellFile s
  lattices : ∀ i j : Fin 3, |u.lattice i j * (e.getD i 0 : ℚ) - s.lattice i j| ≤ 1 / 10 ^ 8 + 1 / 10 ^ 5 * |s.lattice i j|
  selected : u.atomTrue = some sel
  outputs : ∃ l, Tables fs code s.cart.length force l ∧ ∀ k x y, l[2 * k]? = some x → l[2 * k + 1]? = some y → PairShape s.cart.length x y
  structures : ∀ f ∈ force, ∃ c, Holds fs code (dirName f ++ '/' :: baseName a.unitCellFile) c
  moved : a.sym = false → ∀ (i t : ℕ) (j : Fin 3) (back : Bool), sel[i]? = some t → ∃ f c, force[6 * i + 2 * j + (if back then 1 else 0)]? = some f ∧
    Holds fs code (dirName f ++ '/' :: baseName a.unitCellFile) c ∧ c.cart.length = s.cart.length ∧
    ∀ (r : ℕ) (x y : V3 ℚ), s.cart[r]? = some x → c.cart[r]? = some y → ∀ k : Fin 3,
      |x k + (if r = (e.getD 0 0 * e.getD 1 0 * e.getD 2 0).toNat * t ∧ k = j then (if back then -d else d) else 0) - y k| ≤ 1 / 10 ^ 8 + 1 / 10 ^ 5 * |y k|

theorem moved_within {s dis : Cell ℚ} {row : ℕ} {δ : V3 ℚ} {y : List (V3 ℚ)} (h : IsMoved s row δ dis) (ha : Agree dis.cart y) (r : ℕ) (x z : V3 ℚ)
    (hx : s.cart[r]? = some x) (hz : y[r]? = some z) (k : Fin 3) :
    |x k + (if r = row then δ k else 0) - z k| ≤ 1 / 10 ^ 8 + 1 / 10 ^ 5 * |z k| := by
  by_cases hr : r = row
  · subst hr
    obtain ⟨v, h1, h2⟩ := h.moved
    rw [hx] at h1; cases h1
    have := ha.2 r _ z h2 hz k
    rw [if_pos rfl]
    exact this
  · rw [if_neg hr, add_zero]
    exact ha.2 r x z (by rw [h.others r hr]; exact hx) hz k

theorem moved_length {s dis : Cell ℚ} {row : ℕ} {δ : V3 ℚ} (h : IsMoved s row δ dis) : dis.cart.length = s.cart.length := by
  have key : ∀ r, r < dis.cart.length ↔ r < s.cart.length := by
    intro r
    by_cases hr : r = row
    · subst hr
      obtain ⟨v, h1, h2⟩ := h.moved
      exact iff_of_true (List.getElem?_eq_some_iff.1 h2).1 (List.getElem?_eq_some_iff.1 h1).1
    · have := h.others r hr
      constructor
      · intro hl
        by_contra hn
        rw [List.getElem?_eq_none (by omega : s.cart.length ≤ r), List.getElem?_eq_none_iff] at this
        omega
      · intro hl
        by_contra hn
        rw [List.getElem?_eq_none (by omega : dis.cart.length ≤ r)] at this
        have := List.getElem?_eq_none_iff.1 this.symm
        omega
  have h1 := key dis.cart.length
  have h2 := key s.cart.length
  omega

theorem shift_axis (r row : ℕ) (k j : Fin 3) (δ : ℚ) : (if r = row ∧ k = j then δ else 0) = if r = row then axis δ j k else 0 := by
  unfold axis
  by_cases h1 : r = row
  · by_cases h2 : k = j
    · rw [if_pos ⟨h1, h2⟩, if_pos h1]
      simp [h2]
    · rw [if_neg (fun h => h2 h.2), if_pos h1]
      simp [h2]
  · rw [if_neg (fun h => h1 h.1), if_neg h1]

theorem enlarge_lists {e p : List ℤ} (hel : e.length = 3) (hpl : p.length = 3) (h : ∀ i < 3, p[i]? = some 0 → e[i]? = some 1) :
    enlarge e p = e.getD 0 0 * e.getD 1 0 * e.getD 2 0 := by
  obtain ⟨a0, a1, a2, rfl⟩ : ∃ a0 a1 a2, e = [a0, a1, a2] := List.length_eq_three.1 hel
  obtain ⟨b0, b1, b2, rfl⟩ : ∃ a0 a1 a2, p = [a0, a1, a2] := List.length_eq_three.1 hpl
  have h0 : b0 = 0 → a0 = 1 := fun e => by have := h 0 (by norm_num) (by rw [e]; rfl); simpa using this
  have h1 : b1 = 0 → a1 = 1 := fun e => by have := h 1 (by norm_num) (by rw [e]; rfl); simpa using this
  have h2 : b2 = 0 → a2 = 1 := fun e => by have := h 2 (by norm_num) (by rw [e]; rfl); simpa using this
  refine enlarge_eq ![a0, a1, a2] ![b0, b1, b2] ?_
  intro i
  fin_cases i
  · exact h0
  · exact h1
  · exact h2

theorem holds_atoms {fs : Fs} {code : Code} {path : Str} {u : Cell ℚ} (h : Holds fs code path u) : u.cart.length = u.atomType.length ∧ u.cart.length ≠ 0 := by
  obtain ⟨r, hr, hu⟩ := h
  cases hf : fs path with
  | none =>
    exfalso
    have hl : load fs path = .error .fileNotFound := by unfold load; rw [hf]
    unfold readFile readUnitCell at hr
    simp only [hl] at hr
    rcases code.name_cases with ⟨-, e⟩ | ⟨-, e⟩ | ⟨-, e⟩ <;> rw [e] at hr <;> simp (decide := true) at hr
  | some t =>
    rw [readFile_text _ hf] at hr
    obtain ⟨L, T, N, C, sel, hc, -⟩ := C111_accepted_is_consistent _ _ _ _ hr
    have h1 := hc.types.1.symm.trans hu.atomType
    have h2 := hc.cart.1.symm.trans hu.cart
    cases h1
    have h3 := hc.cart.2.1
    cases h2
    rw [List.length_map] at h3
    refine ⟨h3, ?_⟩
    rw [h3]
    intro h0
    exact hc.types.2 (List.length_eq_zero_iff.1 h0)

theorem forces_sound {fs : Fs} {code : Code} {sym : Bool} {n : ℕ} (hn : n ≠ 0) {force : List Str} {bs : List (ForceConstant.Rows ℝ)}
    (h : allForces fs code.name sym n force = .ok bs) :
    ∃ l, Tables fs code n force l ∧ ∀ k x y, l[2 * k]? = some x → l[2 * k + 1]? = some y → PairShape n x y := by
  cases sym with
  | false => exact (C124_accepted_iff fs code n hn force).1 ⟨bs, h⟩
  | true =>
    obtain ⟨l, h1, h2⟩ := (C124_symmetry_iff fs code n hn force).1 ⟨bs, h⟩
    exact ⟨l, h1, fun k x y hx hy => ⟨n, 3, n, 3, h2 x (List.mem_of_getElem? hx), h2 y (List.mem_of_getElem? hy), .inl ⟨rfl, rfl⟩, .inl ⟨rfl, rfl⟩⟩⟩

theorem setup_sound {S : Solver} {j : Junk} {a : PostArgs} {force : List Str} {search : Run (List (ℕ × List (V3 ℚ)))} {fs : Fs} {P : Process}
    (h : postSetup S j a force search fs = .ok P) : ∃ code e p d u s sel, GoodInput fs a force code e p d u s sel := by
  unfold postSetup at h
  obtain ⟨P0, h0, h⟩ := run_inv h
  obtain ⟨hargs, -⟩ := newProcess_spec h0
  unfold newProcess at h0
  simp only at h0
  obtain ⟨_, n1, h0⟩ := run_inv h0
  obtain ⟨_, n2, h0⟩ := run_inv h0
  obtain ⟨_, n3, h0⟩ := run_inv h0
  obtain ⟨u, n4, h0⟩ := run_inv h0
  obtain ⟨s, n5, h0⟩ := run_inv h0
  obtain ⟨m, n6, h0⟩ := run_inv h0
  cases h0
  have hru : readFile fs a.dft a.unitCellFile = ((readFile fs a.dft a.unitCellFile).1, none) := Prod.ext rfl (raising_inv n1)
  have hrs : readFile fs a.dft a.superCellFile = ((readFile fs a.dft a.superCellFile).1, none) := Prod.ext rfl (raising_inv n3)
  have hmm : setMassTrue (readFile fs a.dft a.unitCellFile).1 = ((setMassTrue (readFile fs a.dft a.unitCellFile).1).1, none) := Prod.ext rfl (raising_inv n2)
  obtain ⟨k1, k2, k3, k4, k5, k6, k7, k8⟩ := setMass_keeps hmm
  rw [ofRaw_congr k1 k2 k3 k4 k5 k6 k7 k8] at n4
  obtain ⟨code, tu, hcode, -, hunit⟩ := holds_of_read hru n4
  obtain ⟨code', ts, hcode', -, hsup⟩ := holds_of_read hrs n5
  have := name_injective (hcode.symm.trans hcode')
  subst this
  unfold configure at h
  simp only at h
  obtain ⟨_, e1, h⟩ := run_inv h
  obtain ⟨_, e2, h⟩ := run_inv h
  obtain ⟨_, e3, h⟩ := run_inv h
  obtain ⟨s1, e4, h⟩ := run_inv h
  obtain ⟨d, e5, h⟩ := run_inv h
  obtain ⟨sel, e6, h⟩ := run_inv h
  obtain ⟨o1, e7, h⟩ := run_inv h
  obtain ⟨structs, e8, h⟩ := run_inv h
  obtain ⟨u4, e9, h⟩ := run_inv h
  obtain ⟨forces, e10, h⟩ := run_inv h
  have e1 := raising_inv e1
  have e2 := raising_inv e2
  have e3 := raising_inv e3
  have hset : okState (setUserArgument {} a.dict) = some (setUserArgument {} a.dict).1 := by
    have : setUserArgument {} a.dict = ((setUserArgument {} a.dict).1, none) := Prod.ext rfl e1
    rw [this]
    rfl
  generalize hua : (setUserArgument {} a.dict).1 = ua at *
  obtain ⟨e, p, he, hp, hel, hpl, hcons⟩ := (C02_check_decides_consistency ua).1 e2
  have hlat := (C10_check_match_decides ua e p he hel hp hpl u.lattice s.lattice).1.1 e3
  have hd : ua.displacement = some d := by
    cases hx : ua.displacement with
    | none => rw [hx] at e5; cases e5
    | some d' => rw [hx] at e5; cases e5; rfl
  have hs : u.atomTrue = some sel := by
    cases hx : u.atomTrue with
    | none => simp only [hx] at e6; cases e6
    | some d' => simp only [hx] at e6; cases e6; rfl
  have huaeq : ua = ⟨some d, some e, some p⟩ := by
    cases ua
    simp only at he hp hd
    rw [he, hp, hd]
  have hcart : s1.cart = s.cart := by
    unfold setSuperIndTrue at e4
    split at e4
    · cases e4
    · cases e4; rfl
  have hE : enlarge e p = e.getD 0 0 * e.getD 1 0 * e.getD 2 0 := by
    exact enlarge_lists hel hpl hcons
  have hstruct : ∀ (k : ℕ) (f : Str), force[k]? = some f → ∃ c, structs[k]? = some c.cart ∧ Holds fs code (dirName f ++ '/' :: baseName a.unitCellFile) c := by
    intro k f hk
    obtain ⟨b, hb1, hb2⟩ := each_get e8 k f hk
    unfold readStructure at hb2
    simp only at hb2
    obtain ⟨_, q1, hb2⟩ := run_inv hb2
    obtain ⟨c, q2, hb2⟩ := run_inv hb2
    cases hb2
    have hr : readFile fs a.dft (dirName f ++ '/' :: baseName a.unitCellFile) = ((readFile fs a.dft (dirName f ++ '/' :: baseName a.unitCellFile)).1, none) :=
      Prod.ext rfl (raising_inv q1)
    obtain ⟨code', t, hc', -, hh⟩ := holds_of_read hr q2
    have := name_injective (hcode.symm.trans hc')
    subst this
    exact ⟨c, hb1, hh⟩
  refine ⟨code, e, p, d, u, s, sel, hcode, by rw [hset, huaeq], ⟨hel, hpl, hcons⟩, hunit, hsup, ?_, hs, ?_, ?_, ?_⟩
  · intro i j
    have := hlat i j
    norm_num at this ⊢
    exact this
  · obtain ⟨hn1, hn2⟩ := holds_atoms hsup
    have hty : s1.atomType.length = s.cart.length := by
      unfold setSuperIndTrue at e4
      split at e4
      · cases e4
      · cases e4; exact hn1.symm
    rw [hty, hcode] at e10
    exact forces_sound hn2 e10
  · intro f hf
    obtain ⟨k, hk, rfl⟩ := List.getElem_of_mem hf
    obtain ⟨c, -, hc⟩ := hstruct k _ (List.getElem?_eq_getElem hk)
    exact ⟨c, hc⟩
  · intro hsym i t jj back hi
    have hord : checkFileOrder s1 sel (e.getD 0 0 * e.getD 1 0 * e.getD 2 0).toNat d (false && numPbc (0 : Fin 3 → ℤ) == 2) search structs = .ok () := by
      rw [← hE]
      have := e9
      rw [hsym, he, hp] at this
      exact this
    have hrows : ∀ t ∈ sel, (e.getD 0 0 * e.getD 1 0 * e.getD 2 0).toNat * t < s1.cart.length := by
      have := hord
      unfold checkFileOrder at this
      simp only [Bool.false_and, Bool.false_eq_true, if_false] at this
      exact checkAtoms_rows this
    obtain ⟨s2, files, hw, hfl, hfiles⟩ := C15_displaced_files s1 sel (e.getD 0 0 * e.getD 1 0 * e.getD 2 0).toNat d 0 false search (.inl rfl) hrows
    rw [C18_check_iff _ _ _ _ _ _ _ _ _ hw] at hord
    have hll := each_length e8
    have main : ∀ (k : ℕ) (δ : ℚ) (dis : Cell ℚ) (num : ℕ), files[k]? = some (num, dis) → IsMoved s1 ((e.getD 0 0 * e.getD 1 0 * e.getD 2 0).toNat * t) (axis δ jj) dis →
        ∃ f c, force[k]? = some f ∧ Holds fs code (dirName f ++ '/' :: baseName a.unitCellFile) c ∧ c.cart.length = s.cart.length ∧
          ∀ (r : ℕ) (x y : V3 ℚ), s.cart[r]? = some x → c.cart[r]? = some y → ∀ k : Fin 3,
            |x k + (if r = (e.getD 0 0 * e.getD 1 0 * e.getD 2 0).toNat * t ∧ k = jj then δ else 0) - y k| ≤ 1 / 10 ^ 8 + 1 / 10 ^ 5 * |y k| := by
      intro k δ dis num hk hmv
      obtain ⟨b, hb, hag⟩ := hord k _ hk
      have hkl : k < force.length := by rw [← hll]; exact (List.getElem?_eq_some_iff.1 hb).1
      obtain ⟨c, hc1, hc2⟩ := hstruct k _ (List.getElem?_eq_getElem hkl)
      rw [hb] at hc1; cases hc1
      refine ⟨_, c, List.getElem?_eq_getElem hkl, hc2, ?_, ?_⟩
      · rw [← hag.1, moved_length hmv, hcart]
      · intro r x y hx hy kk
        have := moved_within hmv hag r x y (by rw [hcart]; exact hx) hy kk
        rw [shift_axis]
        exact this
    obtain ⟨⟨c1, f1, m1⟩, ⟨c2, f2, m2⟩⟩ := hfiles i t jj hi
    cases back with
    | false =>
      obtain ⟨f, c, q⟩ := main _ d c1 _ f1 m1
      exact ⟨f, c, q⟩
    | true =>
      obtain ⟨f, c, q⟩ := main _ (-d) c2 _ f2 m2
      exact ⟨f, c, q⟩

theorem phonons_file {S : Solver} {fs : Fs} {kfile : Str} {o o2 : Object} (h : phonons S fs kfile o = .ok o2) : ∃ t, fs kfile = some t := by
  unfold phonons at h
  obtain ⟨t, ht, -⟩ := run_inv h
  unfold load at ht
  cases hx : fs kfile with
  | none => rw [hx] at ht; cases ht
  | some t => exact ⟨t, rfl⟩

/-- **C122** (band): if the post-process delivers a band structure, then its whole input was there and consistent - the files of the unit cell, of the super cell and of the wave
vectors, and for every selected atom, axis and sign an output file in its place whose structure is the super cell with this atom moved. -/
theorem C122_band (S : Solver) (j : Junk) (cwd : Str) (o : PostOpts) (r : PreRecord) (glob : Str → List Str) (forceArgs : List Str) (kband : Str)
    (search : Run (List (ℕ × List (V3 ℚ)))) (fs : Fs) (res : Object × List (ℝ × List ℝ)) (h : bandMain S j cwd o r glob forceArgs kband search fs = .ok res) :
    ∃ force code e p d u s sel, forceFiles glob forceArgs = .ok force ∧ GoodInput fs (postResolve cwd o r) force code e p d u s sel ∧ ∃ t, fs (absPath cwd kband) = some t := by
  unfold bandMain at h
  obtain ⟨force, h1, h⟩ := run_inv h
  obtain ⟨P, h2, h⟩ := run_inv h
  unfold bandOf at h
  obtain ⟨o2, h3, -⟩ := run_inv h
  obtain ⟨code, e, p, d, u, s, sel, hg⟩ := setup_sound h2
  exact ⟨force, code, e, p, d, u, s, sel, h1, hg, phonons_file h3⟩

theorem dosPart_sound {S : Solver} {A : Argsorts} {j : Junk} {a : PostArgs} {force : List Str} {search : Run (List (ℕ × List (V3 ℚ)))} {kfile : Str} {sigma : ℝ} {num : ℕ}
    {temp : Option (List ℤ)} {fs : Fs} {res : Process × Dos.State × Option Thermal.State} (h : dosPart S A j a force search kfile sigma num temp fs = .ok res) :
    ∃ code e p d u s sel, GoodInput fs a force code e p d u s sel ∧ ∃ t, fs kfile = some t := by
  unfold dosPart at h
  obtain ⟨P, h2, h⟩ := run_inv h
  obtain ⟨x, h3, -⟩ := run_inv h
  unfold dosOf at h3
  obtain ⟨o2, h4, -⟩ := run_inv h3
  obtain ⟨code, e, p, d, u, s, sel, hg⟩ := setup_sound h2
  exact ⟨code, e, p, d, u, s, sel, hg, phonons_file h4⟩

/-- **C122** (DOS and thermal properties). -/
theorem C122_dos (S : Solver) (A : Argsorts) (j : Junk) (cwd : Str) (o : PostOpts) (r : PreRecord) (glob : Str → List Str) (forceArgs : List Str) (kdos : Str) (sigma : ℝ) (num : ℕ)
    (temp : Option (List ℤ)) (search : Run (List (ℕ × List (V3 ℚ)))) (fs : Fs) (res : Dos.State × Option Thermal.State)
    (h : dosMain S A j cwd o r glob forceArgs kdos sigma num temp search fs = .ok res) :
    ∃ force code e p d u s sel, forceFiles glob forceArgs = .ok force ∧ GoodInput fs (postResolve cwd o r) force code e p d u s sel ∧ ∃ t, fs (absPath cwd kdos) = some t := by
  unfold dosMain at h
  obtain ⟨force, h1, h⟩ := run_inv h
  obtain ⟨x, h2, -⟩ := run_inv h
  obtain ⟨code, e, p, d, u, s, sel, hg, ht⟩ := dosPart_sound h2
  exact ⟨force, code, e, p, d, u, s, sel, h1, hg, ht⟩

/-- **C122** (DOS and band in one run). -/
theorem C122_both (S : Solver) (A : Argsorts) (j j' : Junk) (cwd : Str) (o : PostOpts) (r : PreRecord) (glob : Str → List Str) (forceArgs : List Str) (kdos kband : Str) (sigma : ℝ)
    (num : ℕ) (temp : Option (List ℤ)) (search : Run (List (ℕ × List (V3 ℚ)))) (fs : Fs) (res : (Dos.State × Option Thermal.State) × List (ℝ × List ℝ))
    (h : bothMain S A j j' cwd o r glob forceArgs kdos kband sigma num temp search fs = .ok res) :
    ∃ force code e p d u s sel, forceFiles glob forceArgs = .ok force ∧ GoodInput fs (postResolve cwd o r) force code e p d u s sel ∧
      (∃ t, fs (absPath cwd kdos) = some t) ∧ ∃ t, fs (absPath cwd kband) = some t := by
  unfold bothMain at h
  obtain ⟨force, h1, h⟩ := run_inv h
  obtain ⟨x, h2, h⟩ := run_inv h
  obtain ⟨P, h3, h⟩ := run_inv h
  obtain ⟨b, h4, -⟩ := run_inv h
  unfold bandOf at h4
  obtain ⟨o2, h5, -⟩ := run_inv h4
  obtain ⟨code, e, p, d, u, s, sel, hg, ht⟩ := dosPart_sound h2
  exact ⟨force, code, e, p, d, u, s, sel, h1, hg, ht, phonons_file h5⟩

/-- **C122** (pre-process): if the displaced files are written, the arguments were accepted and consistent, and the unit-cell file exists, is written in one of the three formats
and says which atoms are selected. -/
theorem C122_preprocess (cwd : Str) (o : PreOpts) (x : ℕ → FileArgs) (junk : ℕ → List (V3 ℚ)) (search : Run (List (ℕ × List (V3 ℚ)))) (group : Run Str) (fs fs' : Fs) (rec : PreRecord)
    (h : preMain cwd o x junk search group fs = .ok (fs', rec)) : ∃ (code : Code) (e p : List ℤ) (d : ℚ) (u : Cell ℚ) (sel : List ℕ), o.dft = code.name ∧
      okState (setUserArgument {} o.dict) = some ⟨some d, some e, some p⟩ ∧ e.length = 3 ∧ p.length = 3 ∧ (∀ i < 3, p[i]? = some 0 → e[i]? = some 1) ∧
      Holds fs code (preFiles cwd o).1 u ∧ u.atomTrue = some sel := by
  unfold preMain at h
  simp only at h
  obtain ⟨_, e1, h⟩ := run_inv h
  obtain ⟨_, e2, h⟩ := run_inv h
  obtain ⟨_, e3, h⟩ := run_inv h
  obtain ⟨u, e4, h⟩ := run_inv h
  obtain ⟨s0, e5, h⟩ := run_inv h
  obtain ⟨s, e6, h⟩ := run_inv h
  obtain ⟨fs1, e7, h⟩ := run_inv h
  obtain ⟨sel, e8, h⟩ := run_inv h
  obtain ⟨d, e9, h⟩ := run_inv h
  have e1 := raising_inv e1
  have e2 := raising_inv e2
  have hru : readFile fs o.dft (preFiles cwd o).1 = ((readFile fs o.dft (preFiles cwd o).1).1, none) := Prod.ext rfl (raising_inv e3)
  obtain ⟨code, t, hcode, -, hunit⟩ := holds_of_read hru e4
  have hset : okState (setUserArgument {} o.dict) = some (setUserArgument {} o.dict).1 := by
    have : setUserArgument {} o.dict = ((setUserArgument {} o.dict).1, none) := Prod.ext rfl e1
    rw [this]
    rfl
  generalize hua : (setUserArgument {} o.dict).1 = ua at *
  obtain ⟨e, p, he, hp, hel, hpl, hcons⟩ := (C02_check_decides_consistency ua).1 e2
  have hd : ua.displacement = some d := by
    cases hx : ua.displacement with
    | none => rw [hx] at e9; cases e9
    | some d' => rw [hx] at e9; cases e9; rfl
  have hs : u.atomTrue = some sel := by
    cases hx : u.atomTrue with
    | none => simp only [hx] at e8; cases e8
    | some d' => simp only [hx] at e8; cases e8; rfl
  have huaeq : ua = ⟨some d, some e, some p⟩ := by
    cases ua
    simp only at he hp hd
    rw [he, hp, hd]
  exact ⟨code, e, p, d, u, sel, hcode, by rw [hset, huaeq], hel, hpl, hcons, hunit, hs⟩

/-- The chain of ProgramExample: the pre-process and the DOS run succeed, hence the files of the chain are a good input. -/
example (search : Run (List (ℕ × List (V3 ℚ)))) (group : Run Str) (A : Argsorts) (j : Junk) :
    ∃ (fs1 : Fs) (rec : PreRecord), preMain "/w".toList chainOpts (fun _ => chainArgs) (fun m => List.replicate m 0) search group chainFs = .ok (fs1, rec) ∧
      ∃ force code e p d u s sel, GoodInput (chainFs2 fs1) (postResolve "/w".toList {} rec) force code e p d u s sel ∧ ∃ t, chainFs2 fs1 (absPath "/w".toList "KDOS".toList) = some t := by
  obtain ⟨S, fs1, rec, w, dos, th, -, -, h1, h2, -⟩ := chain_dos search group A j
  obtain ⟨force, code, e, p, d, u, s, sel, -, hg, ht⟩ := C122_dos _ _ _ _ _ _ _ _ _ _ _ _ _ _ _ h2
  exact ⟨fs1, rec, h1, force, code, e, p, d, u, s, sel, hg, ht⟩

/-- Without a unit-cell file the pre-process fails. -/
example (x : ℕ → FileArgs) (junk : ℕ → List (V3 ℚ)) (search : Run (List (ℕ × List (V3 ℚ)))) (group : Run Str) :
    ¬ ∃ r, preMain "/w".toList chainOpts x junk search group (fun _ => none) = .ok r := by
  rintro ⟨⟨fs', rec⟩, h⟩
  obtain ⟨code, e, p, d, u, sel, -, -, -, -, -, ⟨r, hr, -⟩, -⟩ := C122_preprocess _ _ _ _ _ _ _ _ _ h
  have hl : load (fun _ => none) (preFiles "/w".toList chainOpts).1 = .error .fileNotFound := rfl
  unfold readFile readUnitCell at hr
  simp only [hl] at hr
  rcases code.name_cases with ⟨-, e⟩ | ⟨-, e⟩ | ⟨-, e⟩ <;> rw [e] at hr <;> simp (decide := true) at hr

end Interphon.Props
