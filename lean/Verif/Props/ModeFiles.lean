import Verif.Props.Mode
import Verif.Props.Cli

/-!
# Which modes are animated: C113, C114
-/

namespace Interphon.Props
open Py Interphon Interphon.Mode
noncomputable section

/-! ### Specification -/

/-- The number of the mode that an index designates among `M` modes: indices from `-M` to `M - 1`, negative ones counted from the end. -/
def designates (M : ℕ) (x : ℤ) : ℕ := (x % M).toNat

/-- The animation of a mode vector `v`: `N` images over one period; in image `t` every selected atom is moved by `sin(2πt/N)` times the real
part of its components of `v`, divided by the square root of its mass relative to the heaviest selected atom. -/
def animation (cart : List (V3 ℝ)) (sel : List ℕ) (mass : List ℝ) (N : ℕ) (v : ℕ → ℂ) : List (List (V3 ℝ)) :=
  (List.range N).map fun t : ℕ => cart.mapIdx fun i r => if i ∈ sel then
    r + Real.sin (2 * Real.pi * t / N) • (fun c : Fin 3 =>
      (v (3 * sel.idxOf i + c)).re / Real.sqrt (mass.getD (3 * sel.idxOf i + c) 0 / heaviest mass)) else r

theorem pyRow_ok {α : Type*} (l : List α) (d : α) {x : ℤ} (h1 : -(l.length : ℤ) ≤ x) (h2 : x < l.length) :
    pyRow l x = .ok (l.getD (designates l.length x) d) := by
  have hM : (0 : ℤ) < l.length := by omega
  unfold pyRow designates
  by_cases h0 : 0 ≤ x
  · rw [if_pos h0, Int.emod_eq_of_lt h0 h2]
    have : x.toNat < l.length := by omega
    rw [List.getElem?_eq_getElem this, List.getD_eq_getElem _ _ this]
  · rw [if_neg h0, if_pos h1]
    have e : x % l.length = l.length + x := by
      rw [← Int.add_emod_left, Int.emod_eq_of_lt (by omega) (by omega)]
    rw [e]
    have : ((l.length : ℤ) + x).toNat < l.length := by omega
    rw [List.getElem?_eq_getElem this, List.getD_eq_getElem _ _ this]

private theorem pyRow_bad {α : Type*} (l : List α) {x : ℤ} (h : ¬(-(l.length : ℤ) ≤ x ∧ x < l.length)) : pyRow l x = .error .indexError := by
  unfold pyRow
  by_cases h0 : 0 ≤ x
  · rw [if_pos h0, List.getElem?_eq_none (by omega)]
  · rw [if_neg h0, if_neg (by omega)]

private theorem frames_animation (cart : List (V3 ℝ)) (sel : List ℕ) (mass : List ℝ) (hpos : ∀ m ∈ mass, 0 ≤ m) (N : ℕ) (v : ℕ → ℂ) :
    (angles N).map (fun x => displacedStructure cart sel fun j => Real.sin x • scaled mass (fun d => (v d).re) j) = animation cart sel mass N v := by
  simp only [angles, List.map_map, animation, ← massMax_eq hpos]; rfl

private theorem writeLoop_eq (o : Obj) (cart : List (V3 ℝ)) (sel : List ℕ) (hn : sel.Nodup) (mass : List ℝ) (hpos : ∀ m ∈ mass, 0 ≤ m) (rest : List ℤ) :
    ∀ (l : List ℤ) (c : List (V3 ℝ)), (∀ x ∈ l, -(o.mode.length : ℤ) ≤ x ∧ x < o.mode.length) → c.length = cart.length →
      (∀ i, i ∉ sel → c[i]? = cart[i]?) → ∃ c' : List (V3 ℝ), c'.length = cart.length ∧ (∀ i, i ∉ sel → c'[i]? = cart[i]?) ∧
      o.writeLoop (fun j => cart.getD (sel.getD j 0) 0) sel mass c (l ++ rest) =
        (l.map (fun x => ⟨x, o.k, animation cart sel mass o.images (o.mode.getD (designates o.mode.length x) 0)⟩) ++
          (o.writeLoop (fun j => cart.getD (sel.getD j 0) 0) sel mass c' rest).1,
          (o.writeLoop (fun j => cart.getD (sel.getD j 0) 0) sel mass c' rest).2) ∧
      o.plotLoop (fun j => cart.getD (sel.getD j 0) 0) sel mass c (l ++ rest) =
        (l.map (fun x => ⟨x, o.k, animation cart sel mass o.images (o.mode.getD (designates o.mode.length x) 0)⟩) ++
          (o.plotLoop (fun j => cart.getD (sel.getD j 0) 0) sel mass c' rest).1,
          (o.plotLoop (fun j => cart.getD (sel.getD j 0) 0) sel mass c' rest).2)
  | [], c, _, hl, ho => ⟨c, hl, ho, by simp, by simp⟩
  | x :: l, c, hx, hl, ho => by
    obtain ⟨h1, h2⟩ := hx x (by simp)
    have hrow := pyRow_ok o.mode 0 h1 h2
    have hf := framesOf_eq cart sel hn mass (fun d => (o.mode.getD (designates o.mode.length x) 0 d).re) (angles o.images) c hl ho
    rw [frames_animation _ _ _ hpos] at hf
    obtain ⟨f1, f2, f3⟩ := hf
    obtain ⟨c', a1, a2, a3, a4⟩ := writeLoop_eq o cart sel hn mass hpos rest l _ (fun y hy => hx y (by simp [hy])) f2 f3
    refine ⟨c', a1, a2, ?_, ?_⟩
    · rw [List.cons_append, Obj.writeLoop, hrow]
      simp only [a3, f1, List.map_cons, List.cons_append]
    · rw [List.cons_append, Obj.plotLoop, hrow]
      simp only [a4, f1, List.map_cons, List.cons_append]

/-- **C113.**  The indices may be given as one integer, as a sequence of integers or as a text of integers separated by blanks. -/
theorem C113_indices : (∀ x : ℤ, Args.toIntNumpy (.atom (.int x)) = .ok [x]) ∧ (∀ l : List ℤ, Args.toIntNumpy (.list (l.map .int)) = .ok l) ∧
    (∀ l : List ℤ, Args.toIntNumpy (.atom (.str (Cli.joinInts l))) = .ok l) := by
  refine ⟨fun x => rfl, fun l => ?_, fun l => intList_joinInts l⟩
  show Args.intsOf (l.map .int) = .ok l
  induction l with
  | nil => rfl
  | cons a l ih => rw [List.map_cons, Args.intsOf, Args.intOf, ih]

/-- **C113.**  When the requested k point matches a listed one and all indices are valid, the request is accepted, and one file per index is
written, in the order of the request and named after the index and the k point, with the animation of exactly the mode that the index designates
at the (last) listed k point that matches.  The trajectories shown with ASE are the same images, if ASE reads the same positions. -/
theorem C113_files (o : Obj) (ks : List (V3 ℝ)) (vq : List (List (ℕ → ℂ))) (inds : Args.PyVal) (k : V3 ℝ) {l : List ℤ}
    (hl : Args.toIntNumpy inds = .ok l) {i : ℕ} (hi : i < ks.length) (hm : Matches k (ks.getD i 0))
    (hlast : ∀ j, i < j → j < ks.length → ¬Matches k (ks.getD j 0))
    (hr : ∀ x ∈ l, -((vq.getD i []).length : ℤ) ≤ x ∧ x < (vq.getD i []).length)
    (cart : List (V3 ℝ)) (sel : List ℕ) (hn : sel.Nodup) (mass : List ℝ) (hpos : ∀ m ∈ mass, 0 ≤ m) :
    (o.set ks vq inds k).2 = none ∧
    (o.set ks vq inds k).1.write cart sel mass = (l.map (fun x =>
      ⟨x, k, animation cart sel mass o.images ((vq.getD i []).getD (designates (vq.getD i []).length x) 0)⟩), none) ∧
    (o.set ks vq inds k).1.plot cart sel mass = (o.set ks vq inds k).1.write cart sel mass := by
  have hk : chooseK ks k = .ok i := ((C55_chosen_k ks k).1 i).2 ⟨hi, hm, hlast⟩
  have hs : o.set ks vq inds k = ({ o with inds := l, k := k, mode := vq.getD i [] }, none) := by
    rw [Obj.set, hl]; simp only [hk]
  rw [hs]
  obtain ⟨c', -, -, h3, h4⟩ := writeLoop_eq { o with inds := l, k := k, mode := vq.getD i [] } cart sel hn mass hpos [] l cart hr rfl (fun _ _ => rfl)
  rw [List.append_nil] at h3 h4
  refine ⟨rfl, ?_, ?_⟩
  · rw [Obj.write]; simp only at h3 ⊢; rw [h3]; simp [Obj.writeLoop]
  · rw [Obj.write, Obj.plot]; simp only at h3 h4 ⊢; rw [h3, h4]; simp [Obj.writeLoop, Obj.plotLoop]

/-- **C113** (displaced structures).  When all indices are valid, `write_mode_displace` gives one structure per index, in the order of the request; each is the super cell displaced along the mode
that its index designates, whatever was written before. -/
theorem C113_structures (o : Obj) (hr : ∀ x ∈ o.inds, -(o.mode.length : ℤ) ≤ x ∧ x < o.mode.length) (q : V3 ℝ) (amp : ℝ) (E : ℕ) (mass : List ℝ) (cart : List (V3 ℝ)) (sel : List ℕ)
    (hn : sel.Nodup) : o.displace q amp E mass cart sel =
      (o.inds.map fun x => (x, writeModeDisplace q amp E mass cart sel fun d => (o.mode.getD (designates o.mode.length x) 0 d).re), none) := by
  unfold Obj.displace
  generalize o.inds = l at hr
  have gen : ∀ (l : List ℤ) (c : List (V3 ℝ)), (∀ x ∈ l, -(o.mode.length : ℤ) ≤ x ∧ x < o.mode.length) → c.length = cart.length → (∀ i, i ∉ sel → c[i]? = cart[i]?) →
      o.displaceLoop q amp E mass (fun j => cart.getD (sel.getD j 0) 0) sel c l =
        (l.map fun x => (x, writeModeDisplace q amp E mass cart sel fun d => (o.mode.getD (designates o.mode.length x) 0 d).re), none) := by
    intro l
    induction l with
    | nil => intro c _ _ _; rfl
    | cons x l ih =>
      intro c hx hl ho
      obtain ⟨h1, h2⟩ := hx x (by simp)
      have hrow := pyRow_ok o.mode 0 h1 h2
      set m := o.mode.getD (designates o.mode.length x) 0 with hm
      have e1 := assignRows_eq cart c sel hn (fun j => modeDisp q amp E mass (fun d => (m d).re) j (cart.getD (sel.getD j 0) 0)) hl ho
      have e2 : writeModeDisplace q amp E mass cart sel (fun d => (m d).re) =
          displacedStructure cart sel fun j => modeDisp q amp E mass (fun d => (m d).re) j (cart.getD (sel.getD j 0) 0) :=
        assignRows_eq cart cart sel hn (fun j => modeDisp q amp E mass (fun d => (m d).re) j (cart.getD (sel.getD j 0) 0)) rfl fun _ _ => rfl
      rw [Obj.displaceLoop, hrow]
      simp only [e1]
      rw [ih _ (fun y hy => hx y (by simp [hy])) (by simp [displacedStructure]) (by
        intro i hi
        rw [displacedStructure, List.getElem?_mapIdx]
        simp [hi])]
      simp only [List.map_cons, ← hm, e2]
  exact gen l cart hr rfl fun _ _ => rfl

/-- **C113.**  An index that designates no mode raises `IndexError`, after the files of the indices before it have been written; the trajectories
for ASE are, besides, an empty one for the bad index. -/
theorem C113_bad_index (o : Obj) (l1 l2 : List ℤ) (x : ℤ) (ho : o.inds = l1 ++ x :: l2)
    (h1 : ∀ y ∈ l1, -(o.mode.length : ℤ) ≤ y ∧ y < o.mode.length) (hx : ¬(-(o.mode.length : ℤ) ≤ x ∧ x < o.mode.length))
    (cart : List (V3 ℝ)) (sel : List ℕ) (hn : sel.Nodup) (mass : List ℝ) (hpos : ∀ m ∈ mass, 0 ≤ m) :
    o.write cart sel mass = (l1.map (fun y => ⟨y, o.k, animation cart sel mass o.images (o.mode.getD (designates o.mode.length y) 0)⟩), some .indexError) ∧
    o.plot cart sel mass = (l1.map (fun y => ⟨y, o.k, animation cart sel mass o.images (o.mode.getD (designates o.mode.length y) 0)⟩) ++ [⟨x, o.k, []⟩],
      some .indexError) := by
  obtain ⟨c', -, -, h3, h4⟩ := writeLoop_eq o cart sel hn mass hpos (x :: l2) l1 cart h1 rfl (fun _ _ => rfl)
  constructor
  · rw [Obj.write, ho, h3, Obj.writeLoop, pyRow_bad _ hx]; simp
  · rw [Obj.plot, ho, h4, Obj.plotLoop, pyRow_bad _ hx]

/-- **C113.**  After an accepted request nothing of an earlier request is left. -/
theorem C113_last_request (o o' : Obj) (him : o.images = o'.images) (ks : List (V3 ℝ)) (vq : List (List (ℕ → ℂ))) (inds : Args.PyVal) (k : V3 ℝ)
    (h : (o.set ks vq inds k).2 = none) : o'.set ks vq inds k = o.set ks vq inds k := by
  obtain ⟨a, b, c, d⟩ := o
  obtain ⟨a', b', c', d'⟩ := o'
  simp only at him
  subst him
  unfold Obj.set at h ⊢
  cases hl : Args.toIntNumpy inds with
  | error e => rw [hl] at h; simp at h
  | ok l =>
    rw [hl] at h
    cases hk : chooseK ks k with
    | error e => rw [hk] at h; simp at h
    | ok i => simp

/-- **C114** (partial).  A request whose indices are not integers is rejected and leaves the object as it was.  (Missing: a request for a k point
that is not listed, see `C114_unlisted_k_refuted`.) -/
theorem C114_bad_indices_partial (o : Obj) (ks : List (V3 ℝ)) (vq : List (List (ℕ → ℂ))) (inds : Args.PyVal) (k : V3 ℝ) {e : PyErr}
    (h : Args.toIntNumpy inds = .error e) : o.set ks vq inds k = (o, some e) := by
  rw [Obj.set, h]

/-- **C114** (exactly when).  A rejected request leaves the object as it was precisely when the indices were not integers, or when the indices
and the wave vector asked for are those the object already held. -/
theorem C114_unchanged_iff (o : Obj) (ks : List (V3 ℝ)) (vq : List (List (ℕ → ℂ))) (inds : Args.PyVal) (k : V3 ℝ) {e : PyErr}
    (h : (o.set ks vq inds k).2 = some e) :
    (o.set ks vq inds k).1 = o ↔ (∃ e', Args.toIntNumpy inds = .error e') ∨ (Args.toIntNumpy inds = .ok o.inds ∧ k = o.k) := by
  unfold Obj.set at h ⊢
  rcases hl : Args.toIntNumpy inds with e' | l
  · simp
  · rw [hl] at h
    rcases hc : chooseK ks k with e' | i
    · simp only [reduceCtorEq, exists_false, false_or, Except.ok.injEq]
      rcases o with ⟨a, b, c, d⟩
      simp [eq_comm]
    · rw [hc] at h
      cases h

/-- **C114 is false of the code**: a request for a k point that is not listed is rejected, but the new indices and the new k point are stored while
the mode vectors are those of the previous request.  If the program goes on, the files it writes are named after the rejected k point and
show the modes of the previous one. -/
theorem C114_unlisted_k_refuted (o : Obj) (ks : List (V3 ℝ)) (vq : List (List (ℕ → ℂ))) (inds : Args.PyVal) (k : V3 ℝ) {l : List ℤ}
    (hl : Args.toIntNumpy inds = .ok l) (hno : ∀ p ∈ ks, ¬Matches k p) (hr : ∀ x ∈ l, -(o.mode.length : ℤ) ≤ x ∧ x < o.mode.length)
    (cart : List (V3 ℝ)) (sel : List ℕ) (hn : sel.Nodup) (mass : List ℝ) (hpos : ∀ m ∈ mass, 0 ≤ m) :
    (o.set ks vq inds k).2 = some .notSpecifiedKpath ∧
    (o.set ks vq inds k).1.write cart sel mass =
      (l.map (fun x => ⟨x, k, animation cart sel mass o.images (o.mode.getD (designates o.mode.length x) 0)⟩), none) := by
  have hk : chooseK ks k = .error .notSpecifiedKpath := (C55_chosen_k ks k).2.1.2 hno
  have hs : o.set ks vq inds k = ({ o with inds := l, k := k }, some .notSpecifiedKpath) := by
    rw [Obj.set, hl]; simp only [hk]
  rw [hs]
  obtain ⟨c', -, -, h3, -⟩ := writeLoop_eq { o with inds := l, k := k } cart sel hn mass hpos [] l cart hr rfl (fun _ _ => rfl)
  rw [List.append_nil] at h3
  refine ⟨rfl, ?_⟩
  rw [Obj.write]; simp only at h3 ⊢; rw [h3]; simp [Obj.writeLoop]

/-- One atom of a chain, two k points, three modes each; the last mode is asked for by the index `-1` as text, then a k point that is not listed. -/
example : ∃ (ks : List (V3 ℝ)) (vq : List (List (ℕ → ℂ))) (o1 o2 : Obj),
    (Obj.new 0 []).set ks vq (.atom (.str (Cli.joinInts [-1]))) ![1 / 2, 0, 0] = (o1, none) ∧
    o1.write [0] [0] [1, 1, 1] = ([⟨-1, ![1 / 2, 0, 0], animation [0] [0] [1, 1, 1] 30 (fun d => if d = 2 then 7 else 0)⟩], none) ∧
    o1.set ks vq (.list [.int 0]) ![1 / 4, 0, 0] = (o2, some .notSpecifiedKpath) ∧
    o2.write [0] [0] [1, 1, 1] = ([⟨0, ![1 / 4, 0, 0], animation [0] [0] [1, 1, 1] 30 (fun d => if d = 0 then 7 else 0)⟩], none) := by
  let row (a : ℂ) (m : ℕ) : ℕ → ℂ := fun d => if d = m then a else 0
  let ks : List (V3 ℝ) := [0, ![1 / 2, 0, 0]]
  let vq : List (List (ℕ → ℂ)) := [[row 1 0, row 1 1, row 1 2], [row 7 0, row 7 1, row 7 2]]
  have hno : ∀ p ∈ ks, ¬Matches ![1 / 4, 0, 0] p := by
    intro p hp hm
    rcases List.mem_cons.1 hp with rfl | hp
    · have h0 := hm 0
      simp at h0
      norm_num [abs_of_pos] at h0
    · rw [List.mem_singleton] at hp
      subst hp
      have h0 := hm 0
      simp at h0
      norm_num [abs_of_pos, abs_of_neg] at h0
  have hm : Matches ![1 / 2, 0, 0] (ks.getD 1 0) := by
    intro i
    show |(![1 / 2, 0, 0] : V3 ℝ) i - (![1 / 2, 0, 0] : V3 ℝ) i| ≤ _
    rw [sub_self, abs_zero]; positivity
  obtain ⟨h1, h2, -⟩ := C113_files (Obj.new 0 []) ks vq (.atom (.str (Cli.joinInts [-1]))) ![1 / 2, 0, 0] (C113_indices.2.2 [-1]) (i := 1) (by decide) hm
    (fun j h1 h2 => absurd h2 (by have : ks.length = 2 := rfl; omega)) (by intro x hx; simp at hx; subst hx; decide) [0] [0] (by simp) [1, 1, 1] (by simp)
  have hk : chooseK ks ![1 / 2, 0, 0] = .ok 1 := ((C55_chosen_k ks _).1 1).2 ⟨by decide, hm, fun j h1 h2 => absurd h2 (by have : ks.length = 2 := rfl; omega)⟩
  have hs : (Obj.new 0 []).set ks vq (.atom (.str (Cli.joinInts [-1]))) ![1 / 2, 0, 0] = (⟨[-1], ![1 / 2, 0, 0], 30, vq.getD 1 []⟩, none) := by
    rw [Obj.set, C113_indices.2.2 [-1]]; simp only [hk]; rfl
  have hr := C114_unlisted_k_refuted ⟨[-1], ![1 / 2, 0, 0], 30, vq.getD 1 []⟩ ks vq (.list [.int 0]) ![1 / 4, 0, 0] (C113_indices.2.1 [0]) hno
    (by intro x hx; simp at hx; subst hx; decide) [0] [0] (by simp) [1, 1, 1] (by simp)
  refine ⟨ks, vq, _, (Obj.set ⟨[-1], ![1 / 2, 0, 0], 30, vq.getD 1 []⟩ ks vq (.list [.int 0]) ![1 / 4, 0, 0]).1, hs, ?_, Prod.ext rfl hr.1, ?_⟩
  · rw [hs] at h2; exact h2
  · exact hr.2

end
end Interphon.Props
