import Verif.Model.PreProcess
import Verif.Lemmas.SuperCell

/-! Helper lemmas about the displacement loops. -/

namespace Interphon.PreProcess
open Py Interphon Interphon.Args

variable {K : Type*} [Field K]

/-- The cell written when row `row` is moved by `δ` (and the selective flag is off). -/
def movedCell (s : Cell K) (cur : List (V3 K)) (row : ℕ) (v δ : V3 K) : Cell K :=
  { s with cart := cur.set row (fun c => v c + δ c) }

/-- State of the array inside the loops: the pristine array with, at most, row `row` overwritten. -/
def NearPristine (s : Cell K) (cur : List (V3 K)) (row : ℕ) (c : Cell K) : Prop :=
  ∃ w, c = { s with cart := cur.set row w }

theorem writePair_ok (s : Cell K) (d : K) (cur : List (V3 K)) (row num : ℕ) (disp v : V3 K) (hv : cur[row]? = some v)
    (st : DispState K) (hst : NearPristine s cur row st.1) :
    writePair d cur row num disp st =
      .ok (movedCell s cur row v (fun c => - (d * disp c)),
        st.2 ++ [(num, movedCell s cur row v (fun c => d * disp c)),
                 (num + 1, movedCell s cur row v (fun c => - (d * disp c)))]) := by
  obtain ⟨w, hw⟩ := hst
  have hlt : row < cur.length := (List.getElem?_eq_some_iff.mp hv).1
  unfold writePair
  simp only [getE, hv, setRow, hw, List.length_set, hlt, if_true, List.set_set]
  simp [movedCell, sub_eq_add_neg]

theorem nearPristine_moved (s : Cell K) (cur : List (V3 K)) (row : ℕ) (v δ : V3 K) :
    NearPristine s cur row (movedCell s cur row v δ) := ⟨_, rfl⟩

theorem nearPristine_self (s : Cell K) (cur : List (V3 K)) (row : ℕ) (v : V3 K) (hv : cur[row]? = some v) :
    NearPristine s cur row { s with cart := cur } := by
  refine ⟨v, ?_⟩
  have hlt : row < cur.length := (List.getElem?_eq_some_iff.mp hv).1
  have : cur.set row v = cur := by
    rw [← (List.getElem?_eq_some_iff.mp hv).2, List.set_getElem_self]
  rw [this]

/-- The pair of files for one direction. -/
def pairFiles (s : Cell K) (cur : List (V3 K)) (row : ℕ) (v : V3 K) (d : K) (num : ℕ) (disp : V3 K) : Files K :=
  [(num, movedCell s cur row v (fun c => d * disp c)), (num + 1, movedCell s cur row v (fun c => - (d * disp c)))]

/-- Files of one atom without symmetry. -/
def atomFiles (s : Cell K) (cur : List (V3 K)) (row : ℕ) (v : V3 K) (d : K) (i : ℕ) : Files K :=
  pairFiles s cur row v d (6 * i + 1) ![1, 0, 0] ++ pairFiles s cur row v d (6 * i + 3) ![0, 1, 0] ++
    pairFiles s cur row v d (6 * i + 5) ![0, 0, 1]

theorem dirLoop_ok (s : Cell K) (d : K) (cur : List (V3 K)) (row i : ℕ) (v : V3 K) (hv : cur[row]? = some v)
    (st : DispState K) (hst : NearPristine s cur row st.1) :
    dirLoop d cur row i 0 eye3 st =
      .ok (movedCell s cur row v (fun c => - (d * (![0, 0, 1] : V3 K) c)), st.2 ++ atomFiles s cur row v d i) := by
  have h2 : ∀ (num : ℕ) (disp δ : V3 K) (fs : Files K), writePair d cur row num disp (movedCell s cur row v δ, fs) =
      .ok (movedCell s cur row v (fun c => - (d * disp c)),
        fs ++ [(num, movedCell s cur row v (fun c => d * disp c)),
                 (num + 1, movedCell s cur row v (fun c => - (d * disp c)))]) :=
    fun num disp δ fs => writePair_ok s d cur row num disp v hv (_, fs) (nearPristine_moved s cur row v δ)
  unfold eye3
  simp only [dirLoop, writePair_ok s d cur row _ _ v hv _ hst, h2, atomFiles, pairFiles]
  simp [Nat.add_assoc]

/-- All files without symmetry, as an explicit list. -/
def allFiles (s : Cell K) (cur : List (V3 K)) (E : ℕ) (d : K) : ℕ → List ℕ → Files K
  | _, [] => []
  | i, t :: rest => atomFiles s cur (E * t) (cur.getD (E * t) 0) d i ++ allFiles s cur E d (i + 1) rest

/-- Cell left behind. -/
def lastCell (s : Cell K) (cur : List (V3 K)) (E : ℕ) (d : K) (c0 : Cell K) : List ℕ → Cell K
  | [] => c0
  | t :: rest => lastCell s cur E d
      (movedCell s cur (E * t) (cur.getD (E * t) 0) (fun c => - (d * (![0, 0, 1] : V3 K) c))) rest

theorem atomLoop_ok (s : Cell K) (d : K) (cur : List (V3 K)) (E : ℕ) :
    ∀ (sel : List ℕ) (i : ℕ) (st : DispState K), (∀ t ∈ sel, E * t < cur.length) →
      (∃ c, st.1 = { s with cart := c }) →
      atomLoop d cur E i sel st =
        .ok (lastCell s cur E d st.1 sel, st.2 ++ allFiles s cur E d i sel) := by
  intro sel
  induction sel with
  | nil => intro i st _ _; simp [atomLoop, lastCell, allFiles]
  | cons t rest ih =>
    intro i st hsel hst
    obtain ⟨c, hc⟩ := hst
    have hlt := hsel t (by simp)
    have hv : cur[E * t]? = some (cur.getD (E * t) 0) := by
      simp [List.getD_eq_getElem?_getD, List.getElem?_eq_getElem hlt]
    have hnp : NearPristine s cur (E * t) ({ st.1 with cart := cur } : Cell K) := by
      rw [hc]; exact nearPristine_self s cur (E * t) _ hv
    unfold atomLoop
    rw [dirLoop_ok s d cur (E * t) i _ hv ({ st.1 with cart := cur }, st.2) hnp]
    simp only
    rw [ih (i + 1) _ (fun t' ht' => hsel t' (by simp [ht'])) ⟨_, rfl⟩]
    simp [lastCell, allFiles]

theorem length_atomFiles (s : Cell K) (cur : List (V3 K)) (row : ℕ) (v : V3 K) (d : K) (i : ℕ) :
    (atomFiles s cur row v d i).length = 6 := by simp [atomFiles, pairFiles]

theorem length_allFiles (s : Cell K) (cur : List (V3 K)) (E : ℕ) (d : K) (sel : List ℕ) :
    ∀ i, (allFiles s cur E d i sel).length = 6 * sel.length := by
  induction sel with
  | nil => intro i; rfl
  | cons t rest ih => intro i; simp [allFiles, length_atomFiles, ih]; ring

theorem getElem?_allFiles (s : Cell K) (cur : List (V3 K)) (E : ℕ) (d : K) (sel : List ℕ) :
    ∀ (i0 i t k : ℕ), sel[i]? = some t → k < 6 →
      (allFiles s cur E d i0 sel)[6 * i + k]? = (atomFiles s cur (E * t) (cur.getD (E * t) 0) d (i0 + i))[k]? := by
  induction sel with
  | nil => intro i0 i t k h; simp at h
  | cons a rest ih =>
    intro i0 i t k h hk
    rw [allFiles]
    cases i with
    | zero =>
      simp at h; subst h
      rw [List.getElem?_append_left (by rw [length_atomFiles]; omega)]
      simp
    | succ i =>
      rw [List.getElem?_append_right (by rw [length_atomFiles]; omega), length_atomFiles]
      rw [show 6 * (i + 1) + k - 6 = 6 * i + k by omega]
      rw [ih (i0 + 1) i t k (by simpa using h) hk]
      rw [show i0 + 1 + i = i0 + (i + 1) by omega]

theorem lastCell_append (s : Cell K) (cur : List (V3 K)) (E : ℕ) (d : K) (c0 : Cell K) (sel : List ℕ) (t : ℕ) :
    lastCell s cur E d c0 (sel ++ [t]) =
      movedCell s cur (E * t) (cur.getD (E * t) 0) (fun c => - (d * (![0, 0, 1] : V3 K) c)) := by
  induction sel generalizing c0 with
  | nil => rfl
  | cons a rest ih => simp [lastCell, ih]

/-! symmetry branch -/

/-- Flattened plan: one `(row, direction)` per pair of files. -/
def flatPlan (plan : List (ℕ × List (V3 K))) : List (ℕ × V3 K) := plan.flatMap fun p => p.2.map fun v => (p.1, v)

def symFiles (s : Cell K) (cur : List (V3 K)) (d : K) : ℕ → List (ℕ × V3 K) → Files K
  | _, [] => []
  | k, (row, disp) :: rest =>
    pairFiles s cur row (cur.getD row 0) d (2 * k + 1) disp ++ symFiles s cur d (k + 1) rest

theorem symFiles_append (s : Cell K) (cur : List (V3 K)) (d : K) (a b : List (ℕ × V3 K)) :
    ∀ k, symFiles s cur d k (a ++ b) = symFiles s cur d k a ++ symFiles s cur d (k + a.length) b := by
  induction a with
  | nil => intro k; simp [symFiles]
  | cons p rest ih =>
    intro k
    simp only [List.cons_append, symFiles, ih, List.append_assoc, List.length_cons]
    rw [show k + 1 + rest.length = k + (rest.length + 1) by omega]

/-- Cell left behind by the symmetry branch. -/
def symLast (s : Cell K) (cur : List (V3 K)) (d : K) (c0 : Cell K) : List (ℕ × V3 K) → Cell K
  | [] => c0
  | (row, disp) :: rest => symLast s cur d (movedCell s cur row (cur.getD row 0) (fun c => - (d * disp c))) rest

theorem symDirLoop_ok (s : Cell K) (d : K) (cur : List (V3 K)) (row : ℕ) (hrow : row < cur.length) :
    ∀ (dirs : List (V3 K)) (k : ℕ) (st : DispState K), NearPristine s cur row st.1 →
      symDirLoop d cur row k dirs st =
        .ok (k + dirs.length, (symLast s cur d st.1 (dirs.map fun v => (row, v)),
          st.2 ++ symFiles s cur d k (dirs.map fun v => (row, v)))) := by
  have hv : cur[row]? = some (cur.getD row 0) := by
    simp [List.getD_eq_getElem?_getD, List.getElem?_eq_getElem hrow]
  intro dirs
  induction dirs with
  | nil => intro k st h; simp [symDirLoop, symFiles, symLast]
  | cons disp rest ih =>
    intro k st h
    rw [symDirLoop, writePair_ok s d cur row _ disp _ hv st h]
    simp only
    rw [ih (k + 1) _ (nearPristine_moved s cur row _ _)]
    simp [symLast, symFiles, pairFiles]
    omega

/-- Everything except the positions is untouched by the symmetry branch. -/
theorem symLast_shape (s : Cell K) (cur : List (V3 K)) (d : K) (l : List (ℕ × V3 K)) :
    ∀ c0, (∃ c, c0 = { s with cart := c }) → ∃ c, symLast s cur d c0 l = { s with cart := c } := by
  induction l with
  | nil => intro c0 h; exact h
  | cons p rest ih => intro c0 _; exact ih _ ⟨_, rfl⟩

theorem symAtomLoop_ok (s : Cell K) (d : K) (cur : List (V3 K)) :
    ∀ (plan : List (ℕ × List (V3 K))) (k : ℕ) (st : DispState K), (∀ p ∈ plan, p.1 < cur.length) →
      (∃ c, st.1 = { s with cart := c }) →
      ∃ c, symAtomLoop d cur k plan st = .ok ({ s with cart := c }, st.2 ++ symFiles s cur d k (flatPlan plan)) := by
  intro plan
  induction plan with
  | nil =>
    intro k st _ hst
    obtain ⟨c, hc⟩ := hst
    exact ⟨c, by simp [symAtomLoop, flatPlan, symFiles, ← hc]⟩
  | cons p rest ih =>
    intro k st hp hst
    obtain ⟨c, hc⟩ := hst
    obtain ⟨row, dirs⟩ := p
    have hrow : row < cur.length := hp (row, dirs) (by simp)
    have hv : cur[row]? = some (cur.getD row 0) := by
      simp [List.getD_eq_getElem?_getD, List.getElem?_eq_getElem hrow]
    have hnp : NearPristine s cur row ({ st.1 with cart := cur } : Cell K) := by
      rw [hc]; exact nearPristine_self s cur row _ hv
    rw [symAtomLoop, symDirLoop_ok s d cur row hrow dirs k ({ st.1 with cart := cur }, st.2) hnp]
    simp only
    obtain ⟨c', hc'⟩ := ih (k + dirs.length)
      (symLast s cur d { st.1 with cart := cur } (dirs.map fun v => (row, v)),
        st.2 ++ symFiles s cur d k (dirs.map fun v => (row, v)))
      (fun q hq => hp q (by simp [hq]))
      (symLast_shape s cur d _ _ ⟨cur, by rw [hc]⟩)
    refine ⟨c', ?_⟩
    rw [hc']
    simp [flatPlan, symFiles_append]

theorem length_symFiles (s : Cell K) (cur : List (V3 K)) (d : K) (l : List (ℕ × V3 K)) :
    ∀ k, (symFiles s cur d k l).length = 2 * l.length := by
  induction l with
  | nil => intro k; rfl
  | cons p rest ih => intro k; simp [symFiles, pairFiles, ih]; ring

theorem getElem?_symFiles (s : Cell K) (cur : List (V3 K)) (d : K) (l : List (ℕ × V3 K)) :
    ∀ (k0 k : ℕ) (row : ℕ) (disp : V3 K) (m : ℕ), l[k]? = some (row, disp) → m < 2 →
      (symFiles s cur d k0 l)[2 * k + m]? = (pairFiles s cur row (cur.getD row 0) d (2 * (k0 + k) + 1) disp)[m]? := by
  induction l with
  | nil => intro k0 k row disp m h; simp at h
  | cons p rest ih =>
    intro k0 k row disp m h hm
    obtain ⟨r, v⟩ := p
    rw [symFiles]
    cases k with
    | zero =>
      simp at h; obtain ⟨rfl, rfl⟩ := h
      rw [List.getElem?_append_left (by simp [pairFiles]; omega)]
      simp
    | succ k =>
      rw [List.getElem?_append_right (by simp [pairFiles]; omega)]
      rw [show 2 * (k + 1) + m - (pairFiles s cur r (cur.getD r 0) d (2 * k0 + 1) v).length = 2 * k + m by
        simp [pairFiles]; omega]
      rw [ih (k0 + 1) k row disp m (by simpa using h) hm]
      rw [show k0 + 1 + k = k0 + (k + 1) by omega]

end Interphon.PreProcess
