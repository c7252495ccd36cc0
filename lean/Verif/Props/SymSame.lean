import Verif.Props.SymEnd
import Verif.Props.Exact
import Verif.Props.History
import Verif.Props.Program

/-!
# The same phonons with and without symmetry: C126
-/

namespace Interphon.Props
open Py Interphon Interphon.Symmetry Interphon.SymDisp Interphon.SymPlan Interphon.SuperCell Interphon.ForceConstant Interphon.PreProcess
  Interphon.Phonon Interphon.PostProcess
noncomputable section

/-- The super cell that the program makes lists every selected atom three times. -/
theorem super_lists_thrice {u s : Cell ℝ} {sel : List ℕ} {n p : Fin 3 → ℤ} (h : IsSuperOf u s sel n p) : Thrice s := by
  obtain ⟨⟨junk, s0, hg, e1, e2⟩, hsel, -, -⟩ := h
  unfold setSuperIndTrue at e2
  simp only [hsel] at e2
  cases e2
  rfl

/-- **C126.**  Let the recorded symmetry of the crystal be exact (as in every symmorphic crystal, `symmorphic_exact`) and its force constants have the symmetry of the super cell.  Then the displaced super cells are written both with
and without the symmetry option, and whichever of the two sets of (harmonic) forces is given to a post-process object - with the option with which it was
made - the calls of a calculation raise nothing while reading the forces and leave the same wave vectors, frequencies and modes, for every k-point file that lists a wave vector. -/
theorem C126_same_phonons_partial {u s : Cell ℝ} {sel : List ℕ} {n : Fin 3 → ℤ} (h : ExactCrystal u s sel n) (hu : Thrice u)
    {Φ : ℕ → Fin 3 → ℕ → Fin 3 → ℝ} (hΦ : Symmetric s Φ) (F0 : Rows ℝ) {d : ℝ} (hd : d ≠ 0) :
    ∃ req der s1 s2 filesSym filesAll, symPlan u s ![1, 1, 0] = some (.ok (req, der)) ∧
      writeDisplaceCell s sel (numImages n) d ![1, 1, 0] true (.ok (req.map fun q => (numImages n * sel.getD q.idx 0, calcDirs q))) = .ok (s1, filesSym) ∧
      (∀ search, writeDisplaceCell s sel (numImages n) d ![1, 1, 0] false search = .ok (s2, filesAll)) ∧
      filesAll.length = 6 * sel.length ∧
      ∀ (S : Solver) (mass : ℕ → ℝ) (o o' : Object), SameInputs (new u s n ![1, 1, 0] d mass 0 0) o → SameInputs (new u s n ![1, 1, 0] d mass 0 0) o' →
        ∀ (left left' : FC ℝ) (jc jc' : ℕ → Rows ℝ) (kFile : List Str),
          let forcesSym := filesSym.map fun f => harmonicForces Φ F0 s f.2
          let forcesAll := filesAll.map fun f => harmonicForces Φ F0 s f.2
          (step S o (.force left jc true forcesSym)).2 = none ∧ (step S o' (.force left' jc' false forcesAll)).2 = none ∧
          ((run S o' (calculation left' jc' false forcesAll kFile)).kPoints ≠ [] →
            (run S o (calculation left jc true forcesSym kFile)).kPoints = (run S o' (calculation left' jc' false forcesAll kFile)).kPoints ∧
            (run S o (calculation left jc true forcesSym kFile)).wq = (run S o' (calculation left' jc' false forcesAll kFile)).wq ∧
            (run S o (calculation left jc true forcesSym kFile)).vq = (run S o' (calculation left' jc' false forcesAll kFile)).vq) := by
  have hsup := h.super
  obtain ⟨req, der, s1, filesSym, -, hplan, hwS, -, -⟩ := C86_symmetry_end_to_end_partial h hΦ F0 hd (fun _ _ => 0) (fun _ _ => 0)
  have hsym : ∀ (jc : ℕ → Rows ℝ) (junk : FC ℝ), ∃ fc, setSym d (superRow s) jc junk req der (filesSym.map fun f => harmonicForces Φ F0 s f.2) = .ok fc ∧
      ∀ a < sel.length, ∀ t < superN s, ∀ x y : Fin 3, fc (3 * superRow s t + x) (3 * a + y) = Φ (superRow s t) x (numImages n * sel.getD a 0) y := by
    intro jc junk
    obtain ⟨req', der', s1', filesSym', fc, hplan', hwS', e, e'⟩ := C86_symmetry_end_to_end_partial h hΦ F0 hd jc junk
    rw [hplan] at hplan'
    cases hplan'
    rw [hwS] at hwS'
    cases hwS'
    exact ⟨fc, e, e'⟩
  have hrows : ∀ t ∈ sel, numImages n * t < s.cart.length := by
    obtain ⟨⟨junk, s0, hg, e1, e2⟩, hsel, hval, hdet⟩ := hsup
    obtain ⟨s0', e1', hlen, -⟩ := C06_supercell_positions hg
    rw [e1] at e1'; cases e1'
    unfold setSuperIndTrue at e2
    simp only [hsel] at e2
    cases e2
    intro t ht
    show _ < s0.cart.length
    rw [hlen]
    have h1 := hval t ht
    have h2 : 0 < numImages n := by
      have h0 := hg.pos 0
      have h1 := hg.pos 1
      have h2 := hg.pos 2
      have : 0 < n 0 * n 1 * n 2 := by positivity
      unfold numImages; omega
    exact Nat.mul_lt_mul_of_pos_left h1 h2
  obtain ⟨s2, filesAll, hwA, hlenA, -⟩ := C15_displaced_files s sel (numImages n) d ![1, 1, 0] false (.ok []) (Or.inl rfl) hrows
  have hwA' : ∀ search, writeDisplaceCell s sel (numImages n) d ![1, 1, 0] false search = .ok (s2, filesAll) := fun search => by
    rw [← hwA]; rfl
  refine ⟨req, der, s1, s2, filesSym, filesAll, hplan, hwS, hwA', hlenA, ?_⟩
  intro S mass o o' hi hi' left left' jc jc' kFile forcesSym forcesAll
  obtain ⟨fcS, eS, vS⟩ := hsym jc o.fc
  obtain ⟨fcA, eA, vA⟩ := C19_harmonic_exact s sel (numImages n) d hd ![1, 1, 0] (.ok []) hrows Φ F0 o'.fc s2 filesAll hwA
  have hat : ∀ o, SameInputs (new u s n ![1, 1, 0] d mass 0 0) o → o.unit = u ∧ o.super = s ∧ o.p = ![1, 1, 0] ∧ o.d = d := fun o hi => ⟨hi.unit, hi.super, hi.p, hi.d⟩
  obtain ⟨a1, a2, a3, a4⟩ := hat o hi
  obtain ⟨b1, b2, b3, b4⟩ := hat o' hi'
  have hfS : forceConstant jc true forcesSym o = .ok fcS := by
    unfold forceConstant
    rw [a1, a2, a3, a4, if_pos ⟨rfl, by decide⟩, hplan]
    exact eS
  have hfA : forceConstant jc' false forcesAll o' = .ok fcA := by
    unfold forceConstant
    rw [if_neg (by simp), b1, b4, hsup.selected]
    exact eA
  have hii : SameInputs o' o := ⟨hi.unit.trans hi'.unit.symm, hi.super.trans hi'.super.symm, hi.n.trans hi'.n.symm, hi.p.trans hi'.p.symm,
    hi.d.trans hi'.d.symm, hi.mass.trans hi'.mass.symm⟩
  refine ⟨?_, ?_, fun hk => ?_⟩
  · show (setForce left jc true forcesSym o).2 = none
    unfold setForce; rw [hfS]
  · show (setForce left' jc' false forcesAll o').2 = none
    unfold setForce; rw [hfA]
  · refine (results_agree S hii (by rw [b1]; exact hu) (by rw [b2]; exact super_lists_thrice hsup) kFile hfA hfS ?_ hk).2
    rw [b1, b2, hsup.selected, Option.getD_some]
    intro x c hc hx
    obtain ⟨t, ht, et⟩ := List.mem_iff_getElem.1 hx
    have hrow : superRow s t = x / 3 := by
      rw [superRow, List.getD_eq_getElem?_getD, List.getElem?_eq_getElem ht, Option.getD_some, et]
    have hx3 : x = 3 * superRow s t + (comp x : Fin 3) := by rw [hrow]; simp only [comp]; omega
    have hc3 : c = 3 * (c / 3) + (comp c : Fin 3) := by simp only [comp]; omega
    rw [hx3, hc3, vS _ hc t ht, vA _ (c / 3) (sel.getD (c / 3) 0)]
    rw [List.getD_eq_getElem?_getD, List.getElem?_eq_getElem hc, Option.getD_some]

private theorem recip_kept (S : Solver) (o : Object) (left : FC ℝ) (jc : ℕ → Rows ℝ) (sym : Bool) (files : List (Rows ℝ)) (k : Option (List Str)) :
    (PostProcess.data (run S o [.reciprocal, .force left jc sym files, .kPoints k])).recip = reciprocal o.unit.lattice := by
  show (setK k (setForce left jc sym files (setReciprocal o).1).1).1.recip = _
  have h1 : ∀ o : Object, (setForce left jc sym files o).1.recip = o.recip := by
    intro o; unfold setForce; split <;> rfl
  have h2 : ∀ o : Object, (setK k o).1.recip = o.recip := by
    intro o; unfold setK; split
    · rfl
    · split <;> rfl
  rw [h2, h1]
  rfl

/-- **C126** (exact frequencies).  The forces of an infinite harmonic crystal whose springs have the symmetry of the super cell, calculated only for the displacements
the symmetry search asks for, lead to the exact frequencies of the infinite crystal at every wave vector that fits into the super cell. -/
theorem C126_exact_frequencies_partial {u s : Cell ℝ} {sel : List ℕ} {n : Fin 3 → ℤ} (h : ExactCrystal u s sel n)
    (hxyz : u.xyzTrue = some (sel.flatMap fun a => [a, a, a])) (Φ : Springs) (hΦ : ∀ a x b y l, l ∈ (Φ a x b y).support → l 2 = 0)
    (hsym : Symmetric s (superSprings n (numImages n) Φ)) (F0 : Rows ℝ) {d : ℝ} (hd : d ≠ 0) (mass : ℕ → ℝ) {S : Solver} (hS : IsSolver S)
    (junkR : M3 ℝ) (junkF left : FC ℝ) (jc : ℕ → Rows ℝ) (lines : List Str) (ks : List (V3 ℚ)) (auto : List ℤ)
    (hk : KPoints.setKPoints lines ![true, true, false] = .ok (ks, auto)) (hne : ks ≠ []) :
    ∃ req der s1 files, symPlan u s ![1, 1, 0] = some (.ok (req, der)) ∧
      writeDisplaceCell s sel (numImages n) d ![1, 1, 0] true (.ok (req.map fun q => (numImages n * sel.getD q.idx 0, calcDirs q))) = .ok (s1, files) ∧
      let forces := files.map fun f => harmonicForces (superSprings n (numImages n) Φ) F0 s f.2
      let o := run S (new u s n ![1, 1, 0] d mass junkR junkF) (calculation left jc true forces lines)
      o.kPoints = ks ∧ o.wq.length = ks.length ∧
      ∀ (i : ℕ) (k : V3 ℚ), ks[i]? = some k → Fits n ![1, 1, 0] (toReal k) → ∃ row q, o.wq[i]? = some row ∧
        (∀ c, dot3 q (u.lattice c) = 2 * Real.pi * (k c : ℝ)) ∧ IsSpectrum (trueDyn u sel mass Φ q (3 * sel.length)) row := by
  have hu : Thrice u := by unfold Thrice; rw [hxyz, h.super.selected]; rfl
  obtain ⟨req, der, s1, s2, filesSym, filesAll, hplan, hwS, hwA, -, hrun⟩ := C126_same_phonons_partial h hu hsym F0 hd
  refine ⟨req, der, s1, filesSym, hplan, hwS, ?_⟩
  intro forces o
  obtain ⟨⟨junk, s0, hg, e1, e2⟩, hsel, hval, hdet⟩ := h.super
  have hp : (fun c => decide ((![1, 1, 0] : Fin 3 → ℤ) c ≠ 0)) = ![true, true, false] := by
    funext c; fin_cases c <;> rfl
  obtain ⟨s'', filesA, hwA2, hC⟩ := C97_exact_frequencies hg hdet sel hsel hval hxyz e1 e2 Φ (fun a x b y l hl i hi => by
    have : i = 2 := by fin_cases i <;> simp at hi ⊢
    rw [this]; exact hΦ a x b y l hl) d hd F0 (.ok []) mass hS junkR junkF left jc lines ks auto (by rw [hp]; exact hk) hne
  have e := hwA (.ok [])
  have hE : numImages n = (n 0 * n 1 * n 2).toNat := rfl
  rw [← hE] at hwA2
  rw [hwA2] at e
  cases e
  simp only [← hE] at hC
  obtain ⟨-, c2, c3, c4⟩ := hC
  have hnew : SameInputs (new u s n ![1, 1, 0] d mass 0 0) (new u s n ![1, 1, 0] d mass junkR junkF) := ⟨rfl, rfl, rfl, rfl, rfl, rfl⟩
  obtain ⟨-, -, hres⟩ := hrun S mass _ _ hnew hnew left left jc jc lines
  obtain ⟨r1, r2, -⟩ := hres fun h0 => hne (c2.symm.trans h0)
  refine ⟨r1.trans c2, by rw [r2]; exact c3, fun i k hi hf => ?_⟩
  obtain ⟨row, g1, g2⟩ := c4 i k hi hf
  refine ⟨row, _, by rw [r2]; exact g1, fun c => ?_, g2⟩
  refine q_exists u.lattice hdet _ ?_ _ c
  exact recip_kept S _ left jc _ _ _

/-! ### The hypotheses are met -/

/-- Springs of the rectangular cell that tie every atom to every other one of the super cell. -/
def rectSprings : Springs := fun a x b y =>
  if x = y then Finsupp.single 0 (if a = b then 3 else -1) + (Finsupp.single ![1, 0, 0] (-(1 / 2)) + Finsupp.single ![-1, 0, 0] (-(1 / 2))) else 0

theorem rect_springs_value (r c : ℕ) (x y : Fin 3) : superSprings ![2, 1, 1] 2 rectSprings r x c y = if x = y then (if r = c then 3 else -1) else 0 := by
  have hsum : ∀ (F : (Fin 3 → ℤ) →₀ ℝ) (P : (Fin 3 → ℤ) → Prop) [DecidablePred P], ∑ l ∈ F.support.filter P, F l = F.sum fun l v => if P l then v else 0 := by
    intro F P _
    rw [Finset.sum_filter]; rfl
  unfold superSprings
  rw [hsum]
  by_cases hxy : x = y
  · rw [if_pos hxy]
    simp only [rectSprings, if_pos hxy]
    rw [Finsupp.sum_add_index' (by simp) (by intros; split <;> simp), Finsupp.sum_add_index' (by simp) (by intros; split <;> simp), Finsupp.sum_single_index (by simp),
      Finsupp.sum_single_index (by simp), Finsupp.sum_single_index (by simp)]
    have hc0 : cellOf ![2, 1, 1] (r % 2) = ![((r % 2 : ℕ) : ℤ), 0, 0] := by
      funext i; fin_cases i <;> simp [cellOf]
    have hc1 : cellOf ![2, 1, 1] (c % 2) = ![((c % 2 : ℕ) : ℤ), 0, 0] := by
      funext i; fin_cases i <;> simp [cellOf]
    have p0 : (∀ i : Fin 3, (![2, 1, 1] : Fin 3 → ℤ) i ∣ (0 : Fin 3 → ℤ) i - (cellOf ![2, 1, 1] (r % 2) i - cellOf ![2, 1, 1] (c % 2) i)) ↔ r % 2 = c % 2 := by
      rw [hc0, hc1]
      constructor
      · intro h
        have := h 0
        simp only [Matrix.cons_val_zero, Pi.zero_apply] at this
        omega
      · intro h i
        fin_cases i
        · simp [h]
        · simp
        · simp
    have p1 : (∀ i : Fin 3, (![2, 1, 1] : Fin 3 → ℤ) i ∣ (![1, 0, 0] : Fin 3 → ℤ) i - (cellOf ![2, 1, 1] (r % 2) i - cellOf ![2, 1, 1] (c % 2) i)) ↔ r % 2 ≠ c % 2 := by
      rw [hc0, hc1]
      constructor
      · intro h
        have := h 0
        simp only [Matrix.cons_val_zero] at this
        omega
      · intro h i
        fin_cases i
        · simp only [Fin.zero_eta, Matrix.cons_val_zero]
          omega
        · simp
        · simp
    have p2 : (∀ i : Fin 3, (![2, 1, 1] : Fin 3 → ℤ) i ∣ (![-1, 0, 0] : Fin 3 → ℤ) i - (cellOf ![2, 1, 1] (r % 2) i - cellOf ![2, 1, 1] (c % 2) i)) ↔ r % 2 ≠ c % 2 := by
      rw [hc0, hc1]
      constructor
      · intro h
        have := h 0
        simp only [Matrix.cons_val_zero] at this
        omega
      · intro h i
        fin_cases i
        · simp only [Fin.zero_eta, Matrix.cons_val_zero]
          omega
        · simp
        · simp
    simp only [p0, p1, p2]
    by_cases h1 : r % 2 = c % 2
    · rw [if_pos h1, if_neg (not_not.2 h1), add_zero, add_zero]
      have : (r / 2 = c / 2) ↔ r = c := by omega
      simp only [this]
    · rw [if_neg h1, if_pos h1, zero_add, if_neg (by rintro rfl; exact h1 rfl)]
      norm_num
  · rw [if_neg hxy]
    simp [rectSprings, if_neg hxy]

theorem rect_range : ∀ a x b y l, l ∈ (rectSprings a x b y).support → l 2 = 0 := by
  intro a x b y l hl
  by_contra h2
  apply Finsupp.mem_support_iff.1 hl
  unfold rectSprings
  split_ifs
  all_goals first
    | rfl
    | (rw [Finsupp.add_apply, Finsupp.add_apply, Finsupp.single_apply, Finsupp.single_apply, Finsupp.single_apply, if_neg (by rintro rfl; exact h2 rfl),
        if_neg (by rintro rfl; exact h2 rfl), if_neg (by rintro rfl; exact h2 rfl), add_zero, add_zero])

/-- The hypotheses of C126 on the rectangular cell of C86. -/
example : ∃ s, ExactCrystal rectCell s [0, 1] ![2, 1, 1] ∧ Thrice rectCell ∧ rectCell.xyzTrue = some ([0, 1].flatMap fun a => [a, a, a]) ∧
    (∀ a x b y l, l ∈ (rectSprings a x b y).support → l 2 = 0) ∧ Symmetric s (superSprings ![2, 1, 1] (numImages ![2, 1, 1]) rectSprings) ∧
    (∃ (lines : List Str) (ks : List (V3 ℚ)) (auto : List ℤ), KPoints.setKPoints lines ![true, true, false] = .ok (ks, auto) ∧ ks ≠ []) ∧
    Fits ![2, 1, 1] ![1, 1, 0] ![1 / 2, 0, 0] := by
  obtain ⟨s, hs⟩ := rect_super
  refine ⟨s, symmorphic_exact (rect_crystal hs), rfl, rfl, ?_, rect_symmetric hs fun t _ t' _ x y => ?_, ?_, ?_⟩
  · exact rect_range
  · exact rect_springs_value _ _ _ _
  · obtain ⟨k, a, hk⟩ := goodK_points ![true, true, false]
    exact ⟨_, _, _, hk, by simp⟩
  · intro i hi
    fin_cases i
    · exact ⟨1, by simp⟩
    · exact ⟨0, by simp⟩
    · simp at hi

end
end Interphon.Props
