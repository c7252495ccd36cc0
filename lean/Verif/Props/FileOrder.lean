import Verif.Model.Cli
import Verif.Props.PreProcess

/-!
# The order of the force files: C18
-/

namespace Interphon.Props
open Py Interphon Interphon.PreProcess Interphon.Cli

section
variable {K : Type*} [Field K] [LinearOrder K]

/-- Two structures agree within the tolerance of the comparison: the same number of atoms, and every coordinate `a` of the first differs from the
coordinate `b` of the second by at most `10⁻⁸ + 10⁻⁵ |b|`. -/
def Agree (a b : List (V3 K)) : Prop := a.length = b.length ∧
  ∀ (i : ℕ) (x y : V3 K), a[i]? = some x → b[i]? = some y → ∀ c, |x c - y c| ≤ (1 / 10 ^ 8 : K) + 1 / 10 ^ 5 * |y c|

private theorem allClose_iff (a b : List (V3 K)) : allClose a b = .ok true ↔ Agree a b := by
  unfold allClose Agree
  by_cases hl : a.length = b.length
  · simp only [hl, ne_eq, not_true_eq_false, if_false, true_and]
    have e : ∀ x y : K, isClose rtolDefault atolDefault x y ↔ |x - y| ≤ (1 / 10 ^ 8 : K) + 1 / 10 ^ 5 * |y| := by
      intro x y
      unfold isClose rtolDefault atolDefault
      norm_num
    constructor
    · intro h i x y hx hy c
      have h' : decide (∀ i < b.length, ∀ c, isClose rtolDefault atolDefault (a.getD i 0 c) (b.getD i 0 c)) = true := by
        simpa using h
      have := of_decide_eq_true h' i (List.getElem?_eq_some_iff.1 hy).1 c
      rw [List.getD_eq_getElem?_getD, List.getD_eq_getElem?_getD, hx, hy] at this
      exact (e _ _).1 this
    · intro h
      congr 1
      apply decide_eq_true
      intro i hi c
      have hi' : i < a.length := by omega
      rw [List.getD_eq_getElem?_getD, List.getD_eq_getElem?_getD, List.getElem?_eq_getElem hi, List.getElem?_eq_getElem hi']
      exact (e _ _).2 (h i _ _ (List.getElem?_eq_getElem hi') (List.getElem?_eq_getElem hi) c)
  · simp [hl]

/-- The structure in place `k` is there and agrees. -/
private def Matches' (structs : List (List (V3 K))) (k : ℕ) (c : Cell K) : Prop := ∃ b, structs[k]? = some b ∧ Agree c.cart b

private theorem checkOne_iff (e : List (V3 K)) (structs : List (List (V3 K))) (k : ℕ) :
    checkOne e structs k = .ok () ↔ ∃ b, structs[k]? = some b ∧ Agree e b := by
  unfold checkOne getE
  cases h : structs[k]? with
  | none => simp
  | some b =>
    simp only [Option.some.injEq, exists_eq_left']
    rw [← allClose_iff]
    cases h2 : allClose e b with
    | error e => simp
    | ok v => cases v <;> simp

private theorem pair_spec {d : K} {cur : List (V3 K)} {row num : ℕ} {disp : V3 K} {c c2 : Cell K} {fs fs2 : Files K}
    (h : writePair d cur row num disp (c, fs) = .ok (c2, fs2)) :
    ∃ c1, fs2 = fs ++ [(num, c1), (num + 1, c2)] ∧ ∀ structs n0 pos,
      checkPair d cur structs row n0 disp c.cart = .ok pos ↔ pos = c2.cart ∧ Matches' structs n0 c1 ∧ Matches' structs (n0 + 1) c2 := by
  unfold writePair at h
  cases hg : getE cur row with
  | error e => simp [hg] at h
  | ok v =>
    simp only [hg] at h
    unfold setRow at h
    by_cases hr : row < c.cart.length
    · simp only [hr, if_true, List.length_set] at h
      cases h
      refine ⟨_, by rw [List.append_assoc]; rfl, fun structs n0 pos => ?_⟩
      unfold checkPair setPos
      simp only [hg, hr, if_true, List.length_set]
      rw [Matches', Matches', ← checkOne_iff, ← checkOne_iff]
      cases h1 : checkOne (c.cart.set row fun c => v c + d * disp c) structs n0 with
      | error e => simp
      | ok u =>
        cases u
        simp only [true_and]
        cases h2 : checkOne ((c.cart.set row fun c => v c + d * disp c).set row fun c => v c - d * disp c) structs (n0 + 1) with
        | error e => simp
        | ok u => cases u; simp [eq_comm]
    · simp [hr] at h

private theorem tail_two {fs rest : Files K} {x y : ℕ × Cell K} {P : ℕ → ℕ × Cell K → Prop} :
    (∀ k, fs.length ≤ k → ∀ f, (fs ++ [x, y] ++ rest)[k]? = some f → P k f) ↔
      P fs.length x ∧ P (fs.length + 1) y ∧ ∀ k, fs.length + 2 ≤ k → ∀ f, (fs ++ [x, y] ++ rest)[k]? = some f → P k f := by
  constructor
  · intro h
    refine ⟨h _ le_rfl x ?_, h _ (by omega) y ?_, fun k hk => h k (by omega)⟩
    · simp
    · rw [List.append_assoc, List.getElem?_append_right (by omega)]; simp
  · rintro ⟨h1, h2, h3⟩ k hk f hf
    rcases Nat.lt_or_ge k (fs.length + 2) with h | h
    · rcases (by omega : k = fs.length ∨ k = fs.length + 1) with rfl | rfl
      · simp at hf; subst hf; exact h1
      · rw [List.append_assoc, List.getElem?_append_right (by omega)] at hf
        simp at hf; subst hf; exact h2
    · exact h3 k h f hf

private theorem dirs_spec {d : K} {cur : List (V3 K)} {row i : ℕ} (structs : List (List (V3 K))) : ∀ (dirs : List (V3 K)) (j : ℕ) (c c' : Cell K) (fs fs' : Files K),
    dirLoop d cur row i j dirs (c, fs) = .ok (c', fs') → fs.length = 6 * i + 2 * j →
    fs'.length = fs.length + 2 * dirs.length ∧ (∃ r, fs' = fs ++ r) ∧ ((∃ pos, checkDirs d cur structs row i j dirs c.cart = .ok pos) ↔
      ∀ k, fs.length ≤ k → ∀ f, fs'[k]? = some f → Matches' structs k f.2) := by
  intro dirs
  induction dirs with
  | nil =>
    intro j c c' fs fs' h hl
    rw [dirLoop] at h; cases h
    refine ⟨by simp, ⟨[], by simp⟩, ?_⟩
    simp only [checkDirs, Except.ok.injEq, exists_eq', true_iff]
    intro k hk f hf
    rw [List.getElem?_eq_none hk] at hf; cases hf
  | cons disp rest ih =>
    intro j c c' fs fs' h hl
    rw [dirLoop] at h
    cases hp : writePair d cur row (6 * i + 2 * j + 1) disp (c, fs) with
    | error e => simp [hp] at h
    | ok st =>
      obtain ⟨c2, fs2⟩ := st
      simp only [hp] at h
      obtain ⟨c1, e, hc⟩ := pair_spec hp
      have hl2 : fs2.length = 6 * i + 2 * (j + 1) := by rw [e]; simp; omega
      obtain ⟨i1, ⟨r, i2⟩, i3⟩ := ih (j + 1) c2 c' fs2 fs' h hl2
      refine ⟨by rw [i1, e]; simp; omega, ⟨[(6 * i + 2 * j + 1, c1), (6 * i + 2 * j + 1 + 1, c2)] ++ r, by rw [i2, e, List.append_assoc]⟩, ?_⟩
      have key : ∀ v, checkDirs d cur structs row i j (disp :: rest) c.cart = .ok v ↔
          Matches' structs (6 * i + 2 * j) c1 ∧ Matches' structs (6 * i + 2 * j + 1) c2 ∧ checkDirs d cur structs row i (j + 1) rest c2.cart = .ok v := by
        intro v
        rw [checkDirs]
        cases hk : checkPair d cur structs row (6 * i + 2 * j) disp c.cart with
        | error e =>
          simp only [reduceCtorEq, false_iff]
          rintro ⟨m1, m2, -⟩
          have := (hc structs (6 * i + 2 * j) c2.cart).2 ⟨rfl, m1, m2⟩
          rw [hk] at this; cases this
        | ok p =>
          obtain ⟨rfl, m1, m2⟩ := (hc structs (6 * i + 2 * j) p).1 hk
          simp [m1, m2]
      simp only [key]
      rw [i2, e, tail_two, hl]
      rw [i2, e] at i3
      rw [e] at hl2
      rw [hl2, show 6 * i + 2 * (j + 1) = 6 * i + 2 * j + 2 by ring] at i3
      rw [← i3]
      constructor
      · rintro ⟨v, m1, m2, m3⟩; exact ⟨m1, m2, v, m3⟩
      · rintro ⟨m1, m2, v, m3⟩; exact ⟨v, m1, m2, m3⟩

private theorem atoms_spec {d : K} {cur : List (V3 K)} {E : ℕ} (structs : List (List (V3 K))) : ∀ (sel : List ℕ) (i : ℕ) (c c' : Cell K) (fs fs' : Files K),
    atomLoop d cur E i sel (c, fs) = .ok (c', fs') → fs.length = 6 * i →
    (∃ r, fs' = fs ++ r) ∧ (checkAtoms d cur structs E i sel = .ok () ↔ ∀ k, fs.length ≤ k → ∀ f, fs'[k]? = some f → Matches' structs k f.2) := by
  intro sel
  induction sel with
  | nil =>
    intro i c c' fs fs' h hl
    rw [atomLoop] at h; cases h
    refine ⟨⟨[], by simp⟩, ?_⟩
    simp only [checkAtoms, true_iff]
    intro k hk f hf
    rw [List.getElem?_eq_none hk] at hf; cases hf
  | cons t rest ih =>
    intro i c c' fs fs' h hl
    rw [atomLoop] at h
    cases hp : dirLoop d cur (E * t) i 0 eye3 ({ c with cart := cur }, fs) with
    | error e => simp [hp] at h
    | ok st =>
      obtain ⟨c2, fs2⟩ := st
      simp only [hp] at h
      obtain ⟨a1, ⟨r1, a2⟩, a3⟩ := dirs_spec structs eye3 0 _ _ _ _ hp (by omega)
      have hl2 : fs2.length = 6 * (i + 1) := by rw [a1, hl]; simp [eye3]; omega
      obtain ⟨⟨r, i2⟩, i3⟩ := ih (i + 1) c2 c' fs2 fs' h hl2
      refine ⟨⟨r1 ++ r, by rw [i2, a2, List.append_assoc]⟩, ?_⟩
      rw [checkAtoms]
      constructor
      · intro hk k hkl f hf
        cases hd : checkDirs d cur structs (E * t) i 0 eye3 cur with
        | error e => simp [hd] at hk
        | ok p =>
          simp only [hd] at hk
          rcases Nat.lt_or_ge k fs2.length with h2 | h2
          · rw [i2, List.getElem?_append_left h2] at hf
            exact a3.1 ⟨p, hd⟩ k hkl f hf
          · exact i3.1 hk k h2 f hf
      · intro hk
        obtain ⟨p, hd⟩ := a3.2 (fun k hkl f hf => hk k hkl f (by
          rw [i2, List.getElem?_append_left (List.getElem?_eq_some_iff.1 hf).1]; exact hf))
        simp only at hd
        rw [hd]
        exact i3.2 fun k hkl => hk k (by omega)

private theorem symDirs_spec {d : K} {cur : List (V3 K)} {row : ℕ} (structs : List (List (V3 K))) : ∀ (dirs : List (V3 K)) (k0 k1 : ℕ) (c c' : Cell K) (fs fs' : Files K),
    symDirLoop d cur row k0 dirs (c, fs) = .ok (k1, c', fs') → fs.length = 2 * k0 →
    fs'.length = 2 * k1 ∧ (∃ r, fs' = fs ++ r) ∧ (∀ k, checkSymDirs d cur structs row k0 dirs c.cart = .ok k → k = k1) ∧
    ((∃ k, checkSymDirs d cur structs row k0 dirs c.cart = .ok k) ↔ ∀ k, fs.length ≤ k → ∀ f, fs'[k]? = some f → Matches' structs k f.2) := by
  intro dirs
  induction dirs with
  | nil =>
    intro k0 k1 c c' fs fs' h hl
    rw [symDirLoop] at h; cases h
    refine ⟨hl, ⟨[], by simp⟩, by simp [checkSymDirs], ?_⟩
    simp only [checkSymDirs, Except.ok.injEq, exists_eq', true_iff]
    intro k hk f hf
    rw [List.getElem?_eq_none hk] at hf; cases hf
  | cons disp rest ih =>
    intro k0 k1 c c' fs fs' h hl
    rw [symDirLoop] at h
    cases hp : writePair d cur row (2 * k0 + 1) disp (c, fs) with
    | error e => simp [hp] at h
    | ok st =>
      obtain ⟨c2, fs2⟩ := st
      simp only [hp] at h
      obtain ⟨c1, e, hc⟩ := pair_spec hp
      have hl2 : fs2.length = 2 * (k0 + 1) := by rw [e]; simp; omega
      obtain ⟨i1, ⟨r, i2⟩, i3, i4⟩ := ih (k0 + 1) k1 c2 c' fs2 fs' h hl2
      have key : ∀ v, checkSymDirs d cur structs row k0 (disp :: rest) c.cart = .ok v ↔
          Matches' structs (2 * k0) c1 ∧ Matches' structs (2 * k0 + 1) c2 ∧ checkSymDirs d cur structs row (k0 + 1) rest c2.cart = .ok v := by
        intro v
        rw [checkSymDirs]
        cases hk : checkPair d cur structs row (2 * k0) disp c.cart with
        | error e =>
          simp only [reduceCtorEq, false_iff]
          rintro ⟨m1, m2, -⟩
          have := (hc structs (2 * k0) c2.cart).2 ⟨rfl, m1, m2⟩
          rw [hk] at this; cases this
        | ok p =>
          obtain ⟨rfl, m1, m2⟩ := (hc structs (2 * k0) p).1 hk
          simp [m1, m2]
      refine ⟨i1, ⟨[(2 * k0 + 1, c1), (2 * k0 + 1 + 1, c2)] ++ r, by rw [i2, e, List.append_assoc]⟩, fun v hv => i3 v ((key v).1 hv).2.2, ?_⟩
      simp only [key]
      rw [i2, e, tail_two, hl]
      rw [i2, e] at i4
      rw [e] at hl2
      rw [hl2, show 2 * (k0 + 1) = 2 * k0 + 2 by ring] at i4
      rw [← i4]
      constructor
      · rintro ⟨v, m1, m2, m3⟩; exact ⟨m1, m2, v, m3⟩
      · rintro ⟨m1, m2, v, m3⟩; exact ⟨v, m1, m2, m3⟩

private theorem symAtoms_spec {d : K} {cur : List (V3 K)} (structs : List (List (V3 K))) : ∀ (plan : List (ℕ × List (V3 K))) (k0 : ℕ) (c c' : Cell K) (fs fs' : Files K),
    symAtomLoop d cur k0 plan (c, fs) = .ok (c', fs') → fs.length = 2 * k0 →
    (∃ r, fs' = fs ++ r) ∧ (checkSymAtoms d cur structs k0 plan = .ok () ↔ ∀ k, fs.length ≤ k → ∀ f, fs'[k]? = some f → Matches' structs k f.2) := by
  intro plan
  induction plan with
  | nil =>
    intro i c c' fs fs' h hl
    rw [symAtomLoop] at h; cases h
    refine ⟨⟨[], by simp⟩, ?_⟩
    simp only [checkSymAtoms, true_iff]
    intro k hk f hf
    rw [List.getElem?_eq_none hk] at hf; cases hf
  | cons q rest ih =>
    obtain ⟨row, dirs⟩ := q
    intro k0 c c' fs fs' h hl
    rw [symAtomLoop] at h
    cases hp : symDirLoop d cur row k0 dirs ({ c with cart := cur }, fs) with
    | error e => simp [hp] at h
    | ok st =>
      obtain ⟨k1, c2, fs2⟩ := st
      simp only [hp] at h
      obtain ⟨a1, ⟨r1, a2⟩, a3, a4⟩ := symDirs_spec structs dirs k0 k1 _ _ _ _ hp hl
      obtain ⟨⟨r, i2⟩, i3⟩ := ih k1 c2 c' fs2 fs' h a1
      refine ⟨⟨r1 ++ r, by rw [i2, a2, List.append_assoc]⟩, ?_⟩
      rw [checkSymAtoms]
      simp only at a3 a4
      constructor
      · intro hk k hkl f hf
        cases hd : checkSymDirs d cur structs row k0 dirs cur with
        | error e => simp [hd] at hk
        | ok v =>
          simp only [hd] at hk
          rw [a3 v hd] at hk
          rcases Nat.lt_or_ge k fs2.length with h2 | h2
          · rw [i2, List.getElem?_append_left h2] at hf
            exact a4.1 ⟨v, hd⟩ k hkl f hf
          · exact i3.1 hk k h2 f hf
      · intro hk
        obtain ⟨v, hd⟩ := a4.2 (fun k hkl f hf => hk k hkl f (by
          rw [i2, List.getElem?_append_left (List.getElem?_eq_some_iff.1 hf).1]; exact hf))
        rw [hd]
        simp only
        rw [a3 v hd]
        have hle : fs.length ≤ fs2.length := by rw [a2]; simp
        exact i3.2 fun k hkl => hk k (by omega)

/-- **C18.**  Let `files` be what the pre-process writes (with or without symmetry).  The order check of the post-process passes exactly when, for every
file the pre-process wrote, there is a structure in that place of the list of force files and it agrees with the written one; otherwise it raises. -/
theorem C18_check_iff (s : Cell K) (sel : List ℕ) (E : ℕ) (d : K) (p : Fin 3 → ℤ) (symFlag : Bool) (search : Run (List (ℕ × List (V3 K))))
    (s' : Cell K) (files : Files K) (h : writeDisplaceCell s sel E d p symFlag search = .ok (s', files)) (structs : List (List (V3 K))) :
    checkFileOrder s sel E d (symFlag && numPbc p == 2) search structs = .ok () ↔
      ∀ (k : ℕ) (f : ℕ × Cell K), files[k]? = some f → ∃ b, structs[k]? = some b ∧ Agree f.2.cart b := by
  unfold writeDisplaceCell at h
  unfold checkFileOrder
  simp only at h
  split at h
  · rename_i hc
    rw [if_pos hc]
    cases search with
    | error e => cases e <;> simp at h
    | ok plan =>
      simp only at h ⊢
      rw [(symAtoms_spec structs plan 0 _ _ _ _ h rfl).2]
      simp [Matches']
  · rename_i hc
    rw [if_neg hc, (atoms_spec structs sel 0 _ _ _ _ h rfl).2]
    simp [Matches']

variable [IsStrictOrderedRing K]

/-- **C18** (accepts).  The written structures in their order are accepted. -/
theorem C18_accepts_generated (s : Cell K) (sel : List ℕ) (E : ℕ) (d : K) (p : Fin 3 → ℤ) (symFlag : Bool) (search : Run (List (ℕ × List (V3 K))))
    (s' : Cell K) (files : Files K) (h : writeDisplaceCell s sel E d p symFlag search = .ok (s', files)) :
    checkFileOrder s sel E d (symFlag && numPbc p == 2) search (files.map fun f => f.2.cart) = .ok () := by
  rw [C18_check_iff s sel E d p symFlag search s' files h]
  intro k f hf
  refine ⟨f.2.cart, by rw [List.getElem?_map, hf]; rfl, rfl, ?_⟩
  intro i x y hx hy c
  rw [hx] at hy; cases hy
  rw [sub_self, abs_zero]
  positivity

theorem file_at {s : Cell K} {sel : List ℕ} {E : ℕ} {d : K} {files : Files K} (hlen : files.length = 6 * sel.length)
    (hfile : ∀ (i t : ℕ) (j : Fin 3), sel[i]? = some t →
        (∃ c, files[6 * i + 2 * j]? = some (6 * i + 2 * j + 1, c) ∧ IsMoved s (E * t) (axis d j) c) ∧
        (∃ c, files[6 * i + 2 * j + 1]? = some (6 * i + 2 * j + 2, c) ∧ IsMoved s (E * t) (axis (-d) j) c))
    (k : ℕ) (hk : k < files.length) :
    ∃ (i t : ℕ) (j : Fin 3) (b : Bool) (f : ℕ × Cell K), sel[i]? = some t ∧ k = 6 * i + 2 * j + (if b then 1 else 0) ∧ files[k]? = some f ∧
      IsMoved s (E * t) (axis (if b then -d else d) j) f.2 := by
  have hi : k / 6 < sel.length := by omega
  have hj : k % 6 / 2 < 3 := by omega
  obtain ⟨⟨c, h1, h2⟩, ⟨c', h3, h4⟩⟩ := hfile (k / 6) _ ⟨k % 6 / 2, hj⟩ (List.getElem?_eq_getElem hi)
  rcases (by omega : k % 2 = 0 ∨ k % 2 = 1) with hb | hb
  · have e : k = 6 * (k / 6) + 2 * (k % 6 / 2) := by omega
    exact ⟨k / 6, _, ⟨k % 6 / 2, hj⟩, false, _, List.getElem?_eq_getElem hi, by simpa using e, by rw [← h1]; congr 1, by simpa using h2⟩
  · have e : k = 6 * (k / 6) + 2 * (k % 6 / 2) + 1 := by omega
    exact ⟨k / 6, _, ⟨k % 6 / 2, hj⟩, true, _, List.getElem?_eq_getElem hi, by simpa using e, by rw [← h3]; congr 1, by simpa using h4⟩

/-- **C18** (rejects every wrong order).  Without symmetry, if the displacement `d` exceeds the tolerance at the coordinates of the super cell, then among
all lists made of the written structures - with repetitions or not - of the right length only the one in the right order is accepted. -/
theorem C18_rejects_wrong_order (s : Cell K) (sel : List ℕ) (E : ℕ) (d : K) (p : Fin 3 → ℤ) (symFlag : Bool) (search : Run (List (ℕ × List (V3 K))))
    (hsym : symFlag = false ∨ numPbc p ≠ 2) (hsel : ∀ t ∈ sel, E * t < s.cart.length) (hnd : sel.Nodup) (hE : 0 < E)
    {M : K} (hM : ∀ v ∈ s.cart, ∀ c, |v c| ≤ M) (hd0 : 0 < d) (hd : 1 / 10 ^ 8 + 1 / 10 ^ 5 * (M + d) < d)
    (s' : Cell K) (files : Files K) (h : writeDisplaceCell s sel E d p symFlag search = .ok (s', files))
    (π : ℕ → ℕ) (hπ : ∀ k < files.length, π k < files.length)
    (hok : checkFileOrder s sel E d (symFlag && numPbc p == 2) search ((List.range files.length).map fun k => (files.map fun f => f.2.cart).getD (π k) []) = .ok ()) :
    ∀ k < files.length, π k = k := by
  rw [C18_check_iff s sel E d p symFlag search s' files h] at hok
  obtain ⟨s'', files', h', hlen, hfile⟩ := C15_displaced_files s sel E d p symFlag search hsym hsel
  rw [h] at h'; cases h'
  intro k hk
  by_contra hne
  obtain ⟨i, t, j, b, f, hi, ek, hf, mf⟩ := file_at hlen hfile k hk
  obtain ⟨i', t', j', b', f', hi', ek', hf', mf'⟩ := file_at hlen hfile (π k) (hπ k hk)
  obtain ⟨q, hq, -, ag⟩ := hok k f hf
  have eq : q = f'.2.cart := by
    rw [List.getElem?_map, List.getElem?_range hk] at hq
    simp only [Option.map_some, Option.some.injEq] at hq
    rw [← hq, List.getD_eq_getElem?_getD, List.getElem?_map, hf']; rfl
  subst eq
  obtain ⟨v, hv, hm⟩ := mf.moved
  -- the row of file `k` in the other file
  have hy : ∃ y : V3 K, f'.2.cart[E * t]? = some y ∧ |y j| ≤ M + d ∧ d ≤ |v j + axis (if b then -d else d) j j - y j| := by
    have hvM : |v j| ≤ M := hM v (List.mem_of_getElem? hv) j
    have e1 : axis (if b then -d else d) j j = if b then -d else d := by simp [axis]
    have a1 : |(if b then -d else d : K)| = d := by cases b <;> simp [abs_of_pos hd0]
    by_cases ht : E * t = E * t'
    · obtain ⟨v', hv', hm'⟩ := mf'.moved
      rw [← ht, hv] at hv'; cases hv'
      rw [← ht] at hm'
      have ett : t = t' := Nat.eq_of_mul_eq_mul_left hE ht
      have eii : i = i' := by
        have hl := (List.getElem?_eq_some_iff.1 hi).1
        exact (List.getElem?_inj hl hnd).1 (by rw [hi, hi', ett])
      refine ⟨_, hm', ?_, ?_⟩
      · have : |axis (if b' then -d else d) j' j| ≤ d := by
          unfold axis
          split
          · cases b' <;> simp [abs_of_pos hd0]
          · simpa using hd0.le
        exact (abs_add_le _ _).trans (add_le_add hvM this)
      · rw [e1]
        by_cases hj : j = j'
        · subst hj
          have hb : b ≠ b' := by
            rintro rfl
            exact hne (by rw [ek', ek, eii])
          have e2 : axis (if b' then -d else d) j j = if b' then -d else d := by simp [axis]
          rw [e2]
          cases b <;> cases b' <;> simp at hb ⊢
          · rw [abs_of_pos (by linarith)]; linarith
          · rw [abs_of_neg (by linarith)]; linarith
        · have e2 : axis (if b' then -d else d) j' j = 0 := by simp [axis, hj]
          rw [e2, show (v j + (if b then -d else d) - (v j + 0)) = if b then -d else d by ring, a1]
    · refine ⟨v, by rw [mf'.others _ ht, hv], by linarith, ?_⟩
      rw [e1, show (v j + (if b then -d else d) - v j) = if b then -d else d by ring, a1]
  obtain ⟨y, hy1, hy2, hy3⟩ := hy
  have := ag (E * t) _ y hm hy1 j
  have h3 : (1 / 10 ^ 5 : K) * |y j| ≤ 1 / 10 ^ 5 * (M + d) := mul_le_mul_of_nonneg_left hy2 (by positivity)
  linarith

/-- **C18** (limit).  Force files beyond the expected ones are not noticed: any list that is accepted is still accepted with anything appended. -/
theorem C18_extra_files_refuted (s : Cell K) (sel : List ℕ) (E : ℕ) (d : K) (p : Fin 3 → ℤ) (symFlag : Bool) (search : Run (List (ℕ × List (V3 K))))
    (s' : Cell K) (files : Files K) (h : writeDisplaceCell s sel E d p symFlag search = .ok (s', files)) (extra : List (List (V3 K))) :
    checkFileOrder s sel E d (symFlag && numPbc p == 2) search ((files.map fun f => f.2.cart) ++ extra) = .ok () := by
  have h0 := C18_accepts_generated s sel E d p symFlag search s' files h
  rw [C18_check_iff s sel E d p symFlag search s' files h] at h0 ⊢
  intro k f hf
  obtain ⟨b, h1, h2⟩ := h0 k f hf
  exact ⟨b, by rw [List.getElem?_append_left (List.getElem?_eq_some_iff.1 h1).1]; exact h1, h2⟩

end

/-! ### A crystal for the examples -/

/-- One atom at `x` in a one-atom super cell. -/
private def oneAtom (x : ℚ) : Cell ℚ :=
  { lattice := fun i j => if i = j then 200 else 0, atomType := ["Si".toList], numAtom := [1], selective := false, coordinate := .cartesian, cart := [![x, x, x]] }

/-- **C18** (limit).  At a coordinate 100 a displacement of 1/2000 is within the tolerance: forward and backward files in exchanged order pass. -/
theorem C18_small_displacement_refuted :
    ∃ (s s' : Cell ℚ) (files : Files ℚ), writeDisplaceCell s [0] 1 (1 / 2000) ![1, 1, 1] false (.ok []) = .ok (s', files) ∧ files.length = 6 ∧
      (files.map fun f => f.2.cart).reverse ≠ (files.map fun f => f.2.cart) ∧
      checkFileOrder s [0] 1 (1 / 2000) false (.ok []) (files.map fun f => f.2.cart).reverse = .ok () := by
  obtain ⟨s', files, h, hl, -⟩ := C15_displaced_files (oneAtom 100) [0] 1 (1 / 2000) ![1, 1, 1] false (.ok []) (Or.inl rfl) (by simp [oneAtom])
  refine ⟨_, s', files, h, hl, ?_⟩
  have e : files = (match writeDisplaceCell (oneAtom 100) [0] 1 (1 / 2000) ![1, 1, 1] false (.ok []) with
    | .ok x => x.2
    | .error _ => []) := by rw [h]
  rw [e]
  constructor
  · decide +kernel
  · decide +kernel

/-- Non-vacuity of `C18_rejects_wrong_order`: a two-atom super cell with coordinates up to 3 and displacement 1/50. -/
example : ∃ (s s' : Cell ℚ) (files : Files ℚ), (∀ t ∈ [0, 1], 1 * t < s.cart.length) ∧ (∀ v ∈ s.cart, ∀ c, |v c| ≤ 3) ∧
    (1 / 10 ^ 8 + 1 / 10 ^ 5 * (3 + 1 / 50) < (1 / 50 : ℚ)) ∧ writeDisplaceCell s [0, 1] 1 (1 / 50) ![1, 1, 0] false (.ok []) = .ok (s', files) ∧ files.length = 12 := by
  let s : Cell ℚ := { lattice := fun i j => if i = j then 4 else 0, atomType := ["Si".toList], numAtom := [2], selective := false, coordinate := .cartesian, cart := [![1, 2, 3], ![0, 1, 2]] }
  have h0 : ∀ t ∈ [0, 1], 1 * t < s.cart.length := by decide
  obtain ⟨s', files, h, hl, -⟩ := C15_displaced_files s [0, 1] 1 (1 / 50) ![1, 1, 0] false (.ok []) (Or.inl rfl) h0
  exact ⟨s, s', files, h0, by decide +kernel, by norm_num, h, hl⟩

end Interphon.Props
