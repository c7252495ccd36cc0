import Verif.Props.KPoints
import Verif.Props.Faithful

/-! # C125: which files of wave vectors are accepted -/

namespace Interphon.Props
open Py Interphon Interphon.KPoints

/-! ### Specification -/

/-- Specification: the fourth line gives the divisions `n` (integers); if there is a fifth line, its first three words - as far as there are - are numbers, those for the periodic directions are
there and are the shifts `s`; without a fifth line there is no shift. -/
structure MeshLines (lines : List Str) (p : Fin 3 → Bool) (n : Fin 3 → ℤ) (s : Fin 3 → ℚ) : Prop where
  divisions : ∃ l, lines[3]? = some l ∧ ∀ c : Fin 3, ∃ t, (split l)[(c : ℕ)]? = some t ∧ parseInt t = some (n c)
  shift : (lines[4]? = none ∧ s = 0) ∨ ∃ l, lines[4]? = some l ∧ (∀ (c : Fin 3) (t : Str), (split l)[(c : ℕ)]? = some t → ∃ q, parseFloat t = some q) ∧
    ∀ c : Fin 3, p c = true → ∃ t, (split l)[(c : ℕ)]? = some t ∧ parseFloat t = some (s c)

/-- Specification: a file of a mesh that yields at least one wave vector: divisions 1 along the directions that are not periodic, at least 1 along the others. -/
structure MeshOk (off : ℚ) (lines : List Str) (p : Fin 3 → Bool) (n : Fin 3 → ℤ) (s : Fin 3 → ℚ) (pts : List (V3 ℚ)) (auto : List ℤ) : Prop where
  file : MeshLines lines p n s
  single : ∀ c, p c = false → n c = 1
  positive : ∀ c, p c = true → 0 < n c
  points : pts = meshSpec off n s p
  auto : auto = [n 0, n 1, n 2]

/-- Specification: a file of a path that yields at least one wave vector. -/
structure PathOk (lines : List Str) (p : Fin 3 → Bool) (num : ℤ) (ends : List (V3 ℚ)) (pts : List (V3 ℚ)) : Prop where
  file : PathFile lines num ends
  positive : 1 ≤ num
  even : Even ends.length
  nonempty : ends ≠ []
  confined : ∃ c, p c = false
  starts : ∀ q ∈ pairs ends, ∀ c, p c = false → q.1 c = 0
  points : pts = (pairs ends).flatMap fun q => (List.range num.toNat).map (segPoint num q.1 q.2)

/-- Specification: a list of wave vectors: as many lines after the third as the second line says (counted from the end of the file if that is a number below -3), blank lines left out. -/
def ListOk (lines : List Str) (pts : List (V3 ℚ)) : Prop := ∃ l t rest num, lines[1]? = some l ∧ split l = t :: rest ∧ parseInt t = some num ∧
  List.Forall₂ IsPointLine (((lines.take (if 0 ≤ 3 + num then 3 + num else lines.length + (3 + num)).toNat).drop 3).filter fun l => split l ≠ []) pts

/-! ### Inversion -/

theorem toInt_iff {t : Str} {n : ℤ} : toInt t = .ok n ↔ parseInt t = some n := by
  unfold toInt
  cases parseInt t <;> simp

theorem toFloat_iff {t : Str} {q : ℚ} : toFloat t = .ok q ↔ parseFloat t = some q := by
  unfold toFloat
  cases parseFloat t <;> simp

theorem mapM_iff {α β : Type} {f : α → Run β} {l : List α} {bs : List β} : l.mapM f = .ok bs ↔ List.Forall₂ (fun a b => f a = .ok b) l bs := by
  constructor
  · intro h
    induction l generalizing bs with
    | nil =>
      cases h
      exact .nil
    | cons a l ih =>
      rw [List.mapM_cons] at h
      obtain ⟨b, hb, h⟩ := bind_iff.1 h
      obtain ⟨bs', hbs, h⟩ := bind_iff.1 h
      cases h
      exact .cons hb (ih hbs)
  · intro h
    induction h with
    | nil => rfl
    | cons ha _ ih =>
      rw [List.mapM_cons, ha, ih]
      rfl

theorem forall₂_get {α β : Type} {R : α → β → Prop} {l : List α} {m : List β} (h : List.Forall₂ R l m) (i : ℕ) :
    (∀ a, l[i]? = some a → ∃ b, m[i]? = some b ∧ R a b) ∧ ∀ b, m[i]? = some b → ∃ a, l[i]? = some a ∧ R a b := by
  induction h generalizing i with
  | nil => simp
  | cons hab _ ih =>
    cases i with
    | zero =>
      simp only [List.getElem?_cons_zero, Option.some.injEq]
      exact ⟨by rintro a rfl; exact ⟨_, rfl, hab⟩, by rintro b rfl; exact ⟨_, rfl, hab⟩⟩
    | succ i => simpa using ih i

theorem coef_inv {off : ℚ} {auto : List ℤ} {shift : List ℚ} {c : Fin 3} {i : ℕ} {x : ℚ} (h : coef off auto shift c i = .ok x) :
    (∃ s, shift[(c : ℕ)]? = some s) ∧ ∃ n, auto[(c : ℕ)]? = some n := by
  unfold coef at h
  obtain ⟨s, h1, h⟩ := bind_iff.1 h
  obtain ⟨n, h2, -⟩ := bind_iff.1 h
  exact ⟨⟨s, getE_iff.1 h1⟩, ⟨n, getE_iff.1 h2⟩⟩

theorem range_pos {n : ℤ} {i : ℕ} (h : i ∈ rangeInt n) : 0 < n := by
  unfold rangeInt at h
  have := List.mem_range.1 h
  omega

theorem forall₂_right {α β : Type} {R : α → β → Prop} {l : List α} {m : List β} (h : List.Forall₂ R l m) {b : β} (hb : b ∈ m) : ∃ a ∈ l, R a b := by
  obtain ⟨i, hi, rfl⟩ := List.getElem_of_mem hb
  obtain ⟨a, ha, hr⟩ := (forall₂_get h i).2 _ (List.getElem?_eq_getElem hi)
  exact ⟨a, List.mem_of_getElem? ha, hr⟩

theorem mesh_inv {off : ℚ} {auto : List ℤ} {shift : List ℚ} {l : List (Fin 3)} (hl : l.length ≤ 3) {pts : List (V3 ℚ)} (h : mesh off auto shift l = .ok pts) (hne : pts ≠ []) :
    ∀ c ∈ l, (∃ n, auto[(c : ℕ)]? = some n ∧ 0 < n) ∧ ∃ s, shift[(c : ℕ)]? = some s := by
  match l, hl with
  | [], _ => simp
  | [a], _ =>
    rw [mesh] at h
    obtain ⟨na, h1, h⟩ := bind_iff.1 h
    rw [mapM_iff] at h
    obtain ⟨v, hv⟩ := List.exists_mem_of_ne_nil _ hne
    obtain ⟨i, hi, h⟩ := forall₂_right h hv
    obtain ⟨x, hx, -⟩ := bind_iff.1 h
    intro c hc
    rw [List.mem_singleton.1 hc]
    exact ⟨⟨na, getE_iff.1 h1, range_pos hi⟩, (coef_inv hx).1⟩
  | [a, b], _ =>
    rw [mesh] at h
    obtain ⟨na, h1, h⟩ := bind_iff.1 h
    obtain ⟨rows, h2, h⟩ := bind_iff.1 h
    cases h
    rw [mapM_iff] at h2
    obtain ⟨v, hv⟩ := List.exists_mem_of_ne_nil _ hne
    obtain ⟨row, hrow, hv⟩ := List.mem_flatten.1 hv
    obtain ⟨i, hi, h⟩ := forall₂_right h2 hrow
    obtain ⟨nb, h3, h⟩ := bind_iff.1 h
    rw [mapM_iff] at h
    obtain ⟨j, hj, h⟩ := forall₂_right h hv
    obtain ⟨x, hx, h⟩ := bind_iff.1 h
    obtain ⟨y, hy, -⟩ := bind_iff.1 h
    intro c hc
    rcases List.mem_cons.1 hc with rfl | hc
    · exact ⟨⟨na, getE_iff.1 h1, range_pos hi⟩, (coef_inv hx).1⟩
    · rw [List.mem_singleton.1 hc]
      exact ⟨⟨nb, getE_iff.1 h3, range_pos hj⟩, (coef_inv hy).1⟩
  | [a, b, d], _ =>
    rw [mesh] at h
    obtain ⟨na, h1, h⟩ := bind_iff.1 h
    obtain ⟨planes, h2, h⟩ := bind_iff.1 h
    cases h
    rw [mapM_iff] at h2
    obtain ⟨v, hv⟩ := List.exists_mem_of_ne_nil _ hne
    obtain ⟨plane, hplane, hv⟩ := List.mem_flatten.1 hv
    obtain ⟨i, hi, h⟩ := forall₂_right h2 hplane
    obtain ⟨nb, h3, h⟩ := bind_iff.1 h
    obtain ⟨rows, h4, h⟩ := bind_iff.1 h
    cases h
    obtain ⟨row, hrow, hv⟩ := List.mem_flatten.1 hv
    rw [mapM_iff] at h4
    obtain ⟨j, hj, h⟩ := forall₂_right h4 hrow
    obtain ⟨nc, h5, h⟩ := bind_iff.1 h
    rw [mapM_iff] at h
    obtain ⟨k, hk, h⟩ := forall₂_right h hv
    obtain ⟨x, hx, h⟩ := bind_iff.1 h
    obtain ⟨y, hy, h⟩ := bind_iff.1 h
    obtain ⟨z, hz, -⟩ := bind_iff.1 h
    intro c hc
    rcases List.mem_cons.1 hc with rfl | hc
    · exact ⟨⟨na, getE_iff.1 h1, range_pos hi⟩, (coef_inv hx).1⟩
    · rcases List.mem_cons.1 hc with rfl | hc
      · exact ⟨⟨nb, getE_iff.1 h3, range_pos hj⟩, (coef_inv hy).1⟩
      · rw [List.mem_singleton.1 hc]
        exact ⟨⟨nc, getE_iff.1 h5, range_pos hk⟩, (coef_inv hz).1⟩
  | _ :: _ :: _ :: _ :: _, hl => simp at hl; omega

theorem mesh_shift (off : ℚ) (auto : List ℤ) (shift shift' : List ℚ) (l : List (Fin 3)) (hl : l.length ≤ 3) (h : ∀ c ∈ l, shift[(c : ℕ)]? = shift'[(c : ℕ)]?) :
    mesh off auto shift l = mesh off auto shift' l := by
  have key : ∀ c ∈ l, ∀ i, coef off auto shift c i = coef off auto shift' c i := by
    intro c hc i
    unfold coef getE
    rw [h c hc]
  match l, hl with
  | [], _ => rfl
  | [a], _ => simp only [mesh, key a (by simp)]
  | [a, b], _ => simp only [mesh, key a (by simp), key b (by simp)]
  | [a, b, d], _ => simp only [mesh, key a (by simp), key b (by simp), key d (by simp)]
  | _ :: _ :: _ :: _ :: _, hl => simp at hl; omega

theorem checkPbc_inv {p : Fin 3 → Bool} {auto : List ℤ} {l : List (Fin 3)} (h : checkPbc p auto l = .ok ()) : ∀ c ∈ l, p c = false → auto[(c : ℕ)]? = some 1 := by
  induction l with
  | nil => simp
  | cons a l ih =>
    rw [checkPbc] at h
    intro c hc hp
    by_cases ha : p a = true
    · rw [if_pos ha] at h
      rcases List.mem_cons.1 hc with rfl | hc
      · rw [hp] at ha; cases ha
      · exact ih h c hc hp
    · rw [if_neg ha] at h
      cases hg : getE auto a with
      | error e => rw [hg] at h; cases h
      | ok n =>
        rw [hg] at h
        simp only at h
        by_cases hn : n ≠ 1
        · rw [if_pos hn] at h; cases h
        · rw [if_neg hn] at h
          rcases List.mem_cons.1 hc with rfl | hc
          · rw [getE_iff.1 hg, not_not.1 hn]
          · exact ih h c hc hp

theorem pbc_length (p : Fin 3 → Bool) : (indPbc p).length ≤ 3 := List.length_filter_le _ _

theorem pbc_mem {p : Fin 3 → Bool} {c : Fin 3} : c ∈ indPbc p ↔ p c = true := by
  unfold indPbc
  rw [List.mem_filter]
  exact ⟨fun h => h.2, fun h => ⟨by fin_cases c <;> simp, h⟩⟩

theorem divisions_iff {lines : List Str} {n : Fin 3 → ℤ} : readDivisions lines = .ok [n 0, n 1, n 2] ↔
    ∃ l, lines[3]? = some l ∧ ∀ c : Fin 3, ∃ t, (split l)[(c : ℕ)]? = some t ∧ parseInt t = some (n c) := by
  unfold readDivisions
  rw [bind_iff]
  refine exists_congr fun l => ?_
  rw [getE_iff]
  refine and_congr_right fun _ => ?_
  rw [mapM_iff]
  constructor
  · intro h c
    obtain ⟨t, ht, h⟩ := (forall₂_get h c).2 (n c) (by fin_cases c <;> rfl)
    refine ⟨t, ?_, toInt_iff.1 h⟩
    rw [List.getElem?_take, if_pos c.2] at ht
    exact ht
  · intro h
    obtain ⟨t0, a0, b0⟩ := h 0
    obtain ⟨t1, a1, b1⟩ := h 1
    obtain ⟨t2, a2, b2⟩ := h 2
    obtain ⟨x, y, z, rest, hx⟩ : ∃ x y z rest, split l = x :: y :: z :: rest := by
      match split l, a2 with
      | [], a2 => simp at a2
      | [_], a2 => simp at a2
      | [_, _], a2 => simp at a2
      | x :: y :: z :: rest, _ => exact ⟨x, y, z, rest, rfl⟩
    rw [hx] at a0 a1 a2 ⊢
    simp at a0 a1 a2
    subst a0 a1 a2
    exact .cons (toInt_iff.2 b0) (.cons (toInt_iff.2 b1) (.cons (toInt_iff.2 b2) .nil))

/-- The two mesh generators as one function. -/
def meshOf (off : ℚ) (lines : List Str) (p : Fin 3 → Bool) : Run (List (V3 ℚ) × List ℤ) := do
  let auto ← readDivisions lines
  checkPbc p auto [0, 1, 2]
  let shift ← readShift lines
  let pts ← mesh off auto shift (indPbc p)
  .ok (pts, auto)

theorem meshOf_iff (off : ℚ) (lines : List Str) (p : Fin 3 → Bool) (pts : List (V3 ℚ)) (auto : List ℤ) :
    (meshOf off lines p = .ok (pts, auto) ∧ pts ≠ []) ↔ ∃ n s, MeshOk off lines p n s pts auto := by
  constructor
  · rintro ⟨h, hne⟩
    unfold meshOf at h
    obtain ⟨auto', h1, h⟩ := bind_iff.1 h
    obtain ⟨u, h2, h⟩ := bind_iff.1 h
    obtain ⟨shift, h3, h⟩ := bind_iff.1 h
    obtain ⟨pts', h4, h⟩ := bind_iff.1 h
    cases h
    have hp := checkPbc_inv h2
    have hm := mesh_inv (pbc_length p) h4 hne
    have hau : ∀ c : Fin 3, ∃ n, auto[(c : ℕ)]? = some n := by
      intro c
      cases hc : p c with
      | false => exact ⟨1, hp c (by fin_cases c <;> simp) hc⟩
      | true =>
        obtain ⟨⟨n, hn, -⟩, -⟩ := hm c (pbc_mem.2 hc)
        exact ⟨n, hn⟩
    choose n hn using hau
    have hlen : auto.length ≤ 3 := by
      unfold readDivisions at h1
      obtain ⟨l, -, h1⟩ := bind_iff.1 h1
      rw [mapM_iff] at h1
      rw [← h1.length_eq, List.length_take]
      omega
    have hauto : auto = [n 0, n 1, n 2] := by
      have a0 := hn 0
      have a1 := hn 1
      have a2 := hn 2
      match auto, hlen with
      | [], _ => simp at a0
      | [_], _ => simp at a1
      | [_, _], _ => simp at a2
      | [x, y, z], _ =>
        simp at a0 a1 a2
        rw [a0, a1, a2]
    have hsh : ∀ c : Fin 3, ∃ s : ℚ, (lines[4]? = none → s = 0) ∧ (p c = true → shift[(c : ℕ)]? = some s) := by
      intro c
      by_cases hl : lines[4]? = none
      · unfold readShift at h3
        rw [hl] at h3
        cases h3
        exact ⟨0, fun _ => rfl, fun _ => by fin_cases c <;> rfl⟩
      · cases hc : p c with
        | false => exact ⟨0, fun _ => rfl, fun h => (by cases h)⟩
        | true =>
          obtain ⟨-, s, hs⟩ := hm c (pbc_mem.2 hc)
          exact ⟨s, fun h => absurd h hl, fun _ => hs⟩
    choose s hs0 hs using hsh
    have hsingle : ∀ c, p c = false → n c = 1 := by
      intro c hc
      have := hp c (by fin_cases c <;> simp) hc
      rw [hn c] at this
      exact Option.some.inj this
    refine ⟨n, s, ⟨⟨?_, ?_⟩, hsingle, ?_, ?_, hauto⟩⟩
    · rw [hauto] at h1
      exact divisions_iff.1 h1
    · unfold readShift at h3
      cases hl : lines[4]? with
      | none => exact .inl ⟨rfl, funext fun c => hs0 c hl⟩
      | some l =>
        right
        rw [hl] at h3
        simp only at h3
        rw [mapM_iff] at h3
        refine ⟨l, rfl, ?_, ?_⟩
        · intro c t ht
          obtain ⟨q, -, hq⟩ := (forall₂_get h3 c).1 t (by rw [List.getElem?_take, if_pos c.2]; exact ht)
          exact ⟨q, toFloat_iff.1 hq⟩
        · intro c hc
          obtain ⟨t, ht, hq⟩ := (forall₂_get h3 c).2 _ (hs c hc)
          rw [List.getElem?_take, if_pos c.2] at ht
          exact ⟨t, ht, toFloat_iff.1 hq⟩
    · intro c hc
      obtain ⟨⟨m, hm1, hm2⟩, -⟩ := hm c (pbc_mem.2 hc)
      rw [hn c] at hm1
      cases hm1
      exact hm2
    · rw [hauto, mesh_shift off _ shift [s 0, s 1, s 2] _ (pbc_length p) (by
        intro c hc
        rw [hs c (pbc_mem.1 hc)]
        fin_cases c <;> rfl), mesh_ok off n s p hsingle] at h4
      cases h4
      rfl
  · rintro ⟨n, s, ⟨⟨hd, hsft⟩, hsingle, hpos, rfl, rfl⟩⟩
    have h3 : ∃ shift, readShift lines = .ok shift ∧ ∀ c : Fin 3, p c = true → shift[(c : ℕ)]? = some (s c) := by
      unfold readShift
      rcases hsft with ⟨hl, rfl⟩ | ⟨l, hl, hq, hc⟩
      · rw [hl]
        exact ⟨[0, 0, 0], rfl, fun c _ => by fin_cases c <;> rfl⟩
      · rw [hl]
        simp only
        have : ∃ shift, List.Forall₂ (fun a b => toFloat a = .ok b) ((split l).take 3) shift := by
          have hall : ∀ t ∈ (split l).take 3, ∃ q, toFloat t = .ok q := by
            intro t ht
            obtain ⟨i, hi, rfl⟩ := List.getElem_of_mem ht
            have hi' := hi
            rw [List.length_take] at hi'
            obtain ⟨q, hq⟩ := hq ⟨i, by omega⟩ _ (by rw [← List.getElem?_eq_getElem hi, List.getElem?_take, if_pos (by omega : i < 3)])
            exact ⟨q, toFloat_iff.2 hq⟩
          clear hq hc hl
          generalize (split l).take 3 = ws at hall
          induction ws with
          | nil => exact ⟨[], .nil⟩
          | cons w ws ih =>
            obtain ⟨q, hq⟩ := hall w (by simp)
            obtain ⟨m, hm⟩ := ih fun t ht => hall t (by simp [ht])
            exact ⟨q :: m, .cons hq hm⟩
        obtain ⟨shift, hsh⟩ := this
        refine ⟨shift, mapM_iff.2 hsh, ?_⟩
        intro c hpc
        obtain ⟨t, ht, hv⟩ := hc c hpc
        obtain ⟨b, hb1, hb2⟩ := (forall₂_get hsh c).1 t (by rw [List.getElem?_take, if_pos c.2]; exact ht)
        rw [toFloat_iff, hv] at hb2
        cases hb2
        exact hb1
    obtain ⟨shift, h3, h4⟩ := h3
    constructor
    · unfold meshOf
      refine bind_iff.2 ⟨_, divisions_iff.2 hd, bind_iff.2 ⟨(), (checkPbc_iff p n _).1 (fun c _ => hsingle c), bind_iff.2 ⟨shift, h3, bind_iff.2 ⟨meshSpec off n s p, ?_, rfl⟩⟩⟩⟩
      rw [mesh_shift off _ shift [s 0, s 1, s 2] _ (pbc_length p) (by
        intro c hc
        rw [h4 c (pbc_mem.1 hc)]
        fin_cases c <;> rfl), mesh_ok off n s p hsingle]
    · have hall : ∀ c, 0 < n c := by
        intro c
        cases hc : p c with
        | false => rw [hsingle c hc]; norm_num
        | true => exact hpos c hc
      intro h0
      have := C33_count off n s p hall
      rw [h0] at this
      have h0 := hall 0
      have h1 := hall 1
      have h2 := hall 2
      simp at this
      omega

theorem asfarray_iff {l : Str} {v : V3 ℚ} : asfarray ((split l).take 3) = .ok v ↔ IsPointLine l v := by
  refine ⟨fun h => ?_, asfarray_ok⟩
  unfold asfarray at h
  obtain ⟨w, h1, h2⟩ := bind_iff.1 h
  rw [mapM_iff] at h1
  match w, h2 with
  | [x, y, z], h2 =>
    cases h2
    obtain ⟨t0, t1, t2, e⟩ := List.length_eq_three.1 h1.length_eq
    rw [e, List.forall₂_cons, List.forall₂_cons, List.forall₂_cons] at h1
    refine ⟨t0, t1, t2, (split l).drop 3, ?_, toFloat_iff.1 h1.1, toFloat_iff.1 h1.2.1, toFloat_iff.1 h1.2.2.1⟩
    conv_lhs => rw [← List.take_append_drop 3 (split l), e]
    rfl
  | [], h2 => cases h2
  | [_], h2 => cases h2
  | [_, _], h2 => cases h2
  | _ :: _ :: _ :: _ :: _, h2 => cases h2

theorem number_iff {lines : List Str} {num : ℤ} {β : Type} {f : ℤ → Run β} {b : β} : (do
      let l1 ← getE lines 1
      let t ← firstTok l1
      let num ← toInt t
      f num) = Except.ok b ↔ ∃ l t rest num, lines[1]? = some l ∧ split l = t :: rest ∧ parseInt t = some num ∧ f num = .ok b := by
  simp only [bind_iff, getE_iff, toInt_iff, firstTok]
  constructor
  · rintro ⟨l, h1, t, h2, num, h3, h4⟩
    cases hs : split l with
    | nil => rw [hs] at h2; simp at h2
    | cons x xs =>
      rw [hs] at h2
      simp at h2
      subst h2
      exact ⟨l, x, xs, num, h1, hs, h3, h4⟩
  · rintro ⟨l, t, rest, num, h1, h2, h3, h4⟩
    exact ⟨l, h1, t, by rw [h2]; rfl, num, h3, h4⟩

theorem seg_inv {p : Fin 3 → Bool} {num : ℤ} {ls : List Str} {pts : List (V3 ℚ)} (he : Even ls.length) (h : segLoop p num (ls.map fun l => (split l).take 3) = .ok pts) :
    ∃ ends, List.Forall₂ IsPointLine ls ends ∧ (ls ≠ [] → ∃ c, p c = false) ∧ (∀ q ∈ pairs ends, ∀ c, p c = false → q.1 c = 0) ∧ (num ≤ 0 → pts = []) := by
  induction ls using List.twoStepInduction generalizing pts with
  | nil => cases h; exact ⟨[], .nil, by simp, by simp [pairs], fun _ => rfl⟩
  | singleton a => simp at he
  | cons_cons a b ls ih _ =>
    rw [List.map_cons, List.map_cons, segLoop] at h
    obtain ⟨k1, h1, h⟩ := bind_iff.1 h
    obtain ⟨bad, h2, h⟩ := bind_iff.1 h
    by_cases hb : bad = true
    · rw [if_pos hb] at h; cases h
    · rw [if_neg hb] at h
      obtain ⟨k2, h3, h⟩ := bind_iff.1 h
      obtain ⟨q, h4, h⟩ := bind_iff.1 h
      obtain ⟨more, h5, h⟩ := bind_iff.1 h
      cases h
      obtain ⟨ends, e1, e2, e3, e4⟩ := ih (by simpa [Nat.even_add] using he) h5
      have hnb : indNonPbc p ≠ [] ∧ ∀ c, p c = false → k1 c = 0 := by
        unfold anyNonPbc at h2
        by_cases hi : indNonPbc p = []
        · rw [if_pos hi] at h2; cases h2
        · rw [if_neg hi] at h2
          have h2 := Except.ok.inj h2
          refine ⟨hi, fun c hc => ?_⟩
          have hf : bad = false := by simpa using hb
          rw [hf, List.any_eq_false] at h2
          have := h2 c (List.mem_filter.2 ⟨by fin_cases c <;> simp, by simp [hc]⟩)
          simpa using this
      refine ⟨k1 :: k2 :: ends, .cons (asfarray_iff.1 h1) (.cons (asfarray_iff.1 h3) e1), fun _ => ?_, ?_, ?_⟩
      · obtain ⟨c, hc⟩ := List.exists_mem_of_ne_nil _ hnb.1
        exact ⟨c, by simpa [indNonPbc] using (List.mem_filter.1 hc).2⟩
      · intro r hr c hc
        rw [pairs] at hr
        rcases List.mem_cons.1 hr with rfl | hr
        · exact hnb.2 c hc
        · exact e3 r hr c hc
      · intro hn
        rw [e4 hn]
        unfold linspace at h4
        split_ifs at h4 with c1 c2
        · omega
        · cases h4
          have : num.toNat = 0 := by omega
          simp [rangeInt, this]

theorem path_iff (lines : List Str) (p : Fin 3 → Bool) (pts : List (V3 ℚ)) :
    (linePath lines p = .ok pts ∧ pts ≠ []) ↔ ∃ num ends, PathOk lines p num ends pts := by
  unfold linePath
  simp only
  rw [number_iff (num := 0)]
  constructor
  · rintro ⟨⟨l, t, rest, num, h1, h2, h3, h4⟩, hne⟩
    rw [List.length_map] at h4
    by_cases hl : ((lines.drop 3).filter fun l => split l ≠ []).length % 2 ≠ 0
    · rw [if_pos hl] at h4; cases h4
    · rw [if_neg hl] at h4
      have hev : Even ((lines.drop 3).filter fun l => split l ≠ []).length := Nat.even_iff.2 (by omega)
      obtain ⟨ends, e1, e2, e3, e4⟩ := seg_inv hev h4
      have hnum : 1 ≤ num := by
        by_contra hn
        exact hne (e4 (by omega))
      have hnil : ((lines.drop 3).filter fun l => split l ≠ []) ≠ [] := by
        intro h0
        rw [h0] at h4
        cases h4
        exact hne rfl
      refine ⟨num, ends, ⟨⟨⟨l, t, rest, h1, h2, h3⟩, e1⟩, hnum, by rw [← e1.length_eq]; exact hev, ?_, e2 hnil, e3, ?_⟩⟩
      · intro h0
        rw [h0] at e1
        exact hnil (List.length_eq_zero_iff.1 e1.length_eq)
      · rw [segLoop_ok p num hnum (e2 hnil) _ _ e1 e3] at h4
        exact (Except.ok.inj h4).symm
  · rintro ⟨num, ends, ⟨⟨⟨l, t, rest, h1, h2, h3⟩, e1⟩, hnum, hev, hne, hp, hs, rfl⟩⟩
    refine ⟨⟨l, t, rest, num, h1, h2, h3, ?_⟩, ?_⟩
    · rw [if_neg (by rw [List.length_map, e1.length_eq]; have := Nat.even_iff.1 hev; omega)]
      exact segLoop_ok p num hnum hp _ _ e1 hs
    · match ends, hev, hne with
      | [], _, hne => exact absurd rfl hne
      | [_], hev, _ => simp at hev
      | a :: b :: rest, _, _ =>
        rw [pairs, List.flatMap_cons]
        intro h0
        have := congrArg List.length h0
        simp at this
        omega

theorem list_iff (lines : List Str) (pts : List (V3 ℚ)) : explicitReciprocal lines = .ok pts ↔ ListOk lines pts := by
  unfold explicitReciprocal
  rw [number_iff (num := 0)]
  unfold ListOk
  refine exists_congr fun l => exists_congr fun t => exists_congr fun rest => exists_congr fun num => and_congr_right fun _ => and_congr_right fun _ => and_congr_right fun _ => ?_
  have hsl : Inout.slice lines 3 (3 + num) = (lines.take (if 0 ≤ 3 + num then 3 + num else lines.length + (3 + num)).toNat).drop 3 := by
    unfold Inout.slice
    simp only
    rw [List.drop_take]
    split_ifs <;> rfl
  rw [hsl, mapM_iff]
  constructor
  · intro h
    exact h.imp fun a b => asfarray_iff.1
  · intro h
    exact h.imp fun a b => asfarray_iff.2

/-- **C125.**  Exactly these files yield wave vectors, and exactly these: the third line starts with the letter of the mode; then a mesh (Gamma-centred or shifted by half a step),
a path or a list whose numbers are all well-formed. -/
theorem C125_accepted_iff (lines : List Str) (p : Fin 3 → Bool) (pts : List (V3 ℚ)) (auto : List ℤ) :
    (setKPoints lines p = .ok (pts, auto) ∧ pts ≠ []) ↔ ∃ ch, ModeLetter lines ch ∧
      ((ch ∈ ['G', 'g'] ∧ ∃ n s, MeshOk 0 lines p n s pts auto) ∨ (ch ∈ ['M', 'm'] ∧ ∃ n s, MeshOk (1 / 2) lines p n s pts auto) ∨
        (ch ∈ ['L', 'l'] ∧ auto = [] ∧ ∃ num ends, PathOk lines p num ends pts) ∨ (ch ∈ ['R', 'r'] ∧ auto = [] ∧ ListOk lines pts ∧ pts ≠ [])) := by
  have hletter : ∀ ch, ModeLetter lines ch → ((setKPoints lines p = .ok (pts, auto) ∧ pts ≠ []) ↔
      ((ch ∈ ['G', 'g'] ∧ ∃ n s, MeshOk 0 lines p n s pts auto) ∨ (ch ∈ ['M', 'm'] ∧ ∃ n s, MeshOk (1 / 2) lines p n s pts auto) ∨
        (ch ∈ ['L', 'l'] ∧ auto = [] ∧ ∃ num ends, PathOk lines p num ends pts) ∨ (ch ∈ ['R', 'r'] ∧ auto = [] ∧ ListOk lines pts ∧ pts ≠ []))) := by
    intro ch hm
    rw [setKPoints_letter hm, ← meshOf_iff, ← meshOf_iff, ← path_iff, ← list_iff]
    have e1 : gammaCentered lines p = meshOf 0 lines p := rfl
    have e2 : monkhorstPack lines p = meshOf (1 / 2) lines p := rfl
    rw [e1, e2]
    have hb : ∀ (x : Run (List (V3 ℚ))), ((do let pts ← x; Except.ok (pts, ([] : List ℤ))) = Except.ok (pts, auto)) ↔ auto = [] ∧ x = .ok pts := by
      intro x
      rw [bind_iff]
      constructor
      · rintro ⟨a, h1, h2⟩
        cases h2
        exact ⟨rfl, h1⟩
      · rintro ⟨rfl, h⟩
        exact ⟨pts, h, rfl⟩
    simp only [List.mem_cons, List.not_mem_nil, or_false]
    by_cases c1 : ch = 'G' ∨ ch = 'g'
    · rw [if_pos c1]
      have n2 : ¬(ch = 'M' ∨ ch = 'm') := by rcases c1 with rfl | rfl <;> decide
      have n3 : ¬(ch = 'L' ∨ ch = 'l') := by rcases c1 with rfl | rfl <;> decide
      have n4 : ¬(ch = 'R' ∨ ch = 'r') := by rcases c1 with rfl | rfl <;> decide
      simp only [c1, n2, n3, n4, true_and, false_and, or_false]
    · rw [if_neg c1]
      by_cases c2 : ch = 'M' ∨ ch = 'm'
      · rw [if_pos c2]
        have n3 : ¬(ch = 'L' ∨ ch = 'l') := by rcases c2 with rfl | rfl <;> decide
        have n4 : ¬(ch = 'R' ∨ ch = 'r') := by rcases c2 with rfl | rfl <;> decide
        simp only [c1, c2, n3, n4, true_and, false_and, or_false, false_or]
      · rw [if_neg c2]
        by_cases c3 : ch = 'L' ∨ ch = 'l'
        · rw [if_pos c3, hb]
          have n4 : ¬(ch = 'R' ∨ ch = 'r') := by rcases c3 with rfl | rfl <;> decide
          simp only [c1, c2, c3, n4, true_and, false_and, or_false, false_or, and_assoc]
        · rw [if_neg c3]
          by_cases c4 : ch = 'R' ∨ ch = 'r'
          · rw [if_pos c4, hb]
            simp only [c1, c2, c3, c4, true_and, false_and, false_or, and_assoc]
          · rw [if_neg c4]
            simp only [c1, c2, c3, c4, false_and, or_false, iff_false]
            rintro ⟨h, hne⟩
            cases h
            exact hne rfl
  constructor
  · intro h
    have hm : ∃ ch, ModeLetter lines ch := by
      have h1 := h.1
      unfold setKPoints at h1
      obtain ⟨l, h2, h1⟩ := bind_iff.1 h1
      obtain ⟨t, h3, h1⟩ := bind_iff.1 h1
      obtain ⟨ch, h4, -⟩ := bind_iff.1 h1
      unfold firstTok at h3
      rw [getE_iff] at h2 h3 h4
      cases hs : split l with
      | nil => rw [hs] at h3; simp at h3
      | cons x xs =>
        rw [hs] at h3
        simp at h3
        subst h3
        cases x with
        | nil => simp at h4
        | cons y ys =>
          simp at h4
          subst h4
          exact ⟨y, l, _, xs, ys, h2, hs, rfl⟩
    obtain ⟨ch, hm⟩ := hm
    exact ⟨ch, hm, (hletter ch hm).1 h⟩
  · rintro ⟨ch, hm, h⟩
    exact (hletter ch hm).2 h

/-- Non-vacuity (mesh): a slab, periodic along two directions, with a mesh of 3 × 2 points. -/
example : ∃ pts auto, setKPoints exampleMesh ![true, true, false] = .ok (pts, auto) ∧ pts ≠ [] := by
  refine ⟨_, _, (C125_accepted_iff _ _ _ _).2 ⟨'G', ⟨"Gamma".toList, "Gamma".toList, [], "amma".toList, by decide +kernel, by decide +kernel, by decide +kernel⟩,
    .inl ⟨by decide, ![3, 2, 1], ![1 / 2, 0, 0], ⟨⟨⟨"3 2 1".toList, rfl, ?_⟩, .inr ⟨"0.5 0 0.0".toList, rfl, ?_, ?_⟩⟩, ?_, ?_, rfl, rfl⟩⟩⟩⟩
  · intro c
    fin_cases c
    exacts [⟨"3".toList, by decide +kernel, by decide +kernel⟩, ⟨"2".toList, by decide +kernel, by decide +kernel⟩, ⟨"1".toList, by decide +kernel, by decide +kernel⟩]
  · intro c t ht
    have : ∀ t ∈ split "0.5 0 0.0".toList, (parseFloat t).isSome = true := by decide +kernel
    exact Option.isSome_iff_exists.1 (this t (List.mem_of_getElem? ht))
  · intro c _
    fin_cases c
    exacts [⟨"0.5".toList, by decide +kernel, by decide +kernel⟩, ⟨"0".toList, by decide +kernel, by decide +kernel⟩, ⟨"0.0".toList, by decide +kernel, by decide +kernel⟩]
  · intro c hc
    fin_cases c
    exacts [absurd hc (by decide), absurd hc (by decide), rfl]
  · intro c _
    fin_cases c <;> decide

/-- A division that is not an integer: no wave vectors, whatever the periodicity. -/
example (p : Fin 3 → Bool) : ¬ ∃ pts auto, setKPoints (["mesh", "0", "Gamma", "3 2.5 1"].map String.toList) p = .ok (pts, auto) ∧ pts ≠ [] := by
  rintro ⟨pts, auto, h⟩
  obtain ⟨ch, ⟨l, t, ts, rest, h1, h2, h3⟩, h⟩ := (C125_accepted_iff _ _ _ _).1 h
  cases h1
  have e : split "Gamma".toList = ["Gamma".toList] := by decide +kernel
  rw [e] at h2
  cases h2
  cases h3
  have key : ∀ (off : ℚ) (n : Fin 3 → ℤ) (s : Fin 3 → ℚ), ¬ MeshOk off (["mesh", "0", "Gamma", "3 2.5 1"].map String.toList) p n s pts auto := by
    intro off n s hm
    obtain ⟨l, hl, hd⟩ := hm.file.divisions
    cases hl
    obtain ⟨t, ht, hp⟩ := hd 1
    have e : (split "3 2.5 1".toList)[((1 : Fin 3) : ℕ)]? = some "2.5".toList := by decide +kernel
    rw [e] at ht
    cases ht
    have : parseInt "2.5".toList = none := by decide +kernel
    rw [this] at hp
    cases hp
  rcases h with ⟨-, n, s, hm⟩ | ⟨-, n, s, hm⟩ | ⟨h, -⟩ | ⟨h, -⟩
  · exact key _ n s hm
  · exact key _ n s hm
  · exact absurd h (by decide)
  · exact absurd h (by decide)

end Interphon.Props
