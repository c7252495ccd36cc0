import Verif.Props.ProgramNear
import Verif.Props.SymSame

/-!
# The whole program with the symmetry search: C130
-/

namespace Interphon.Props
open Py Interphon Interphon.Symmetry Interphon.SymDisp Interphon.SymPlan Interphon.SuperCell Interphon.ForceConstant Interphon.PreProcess
  Interphon.Phonon Interphon.PostProcess Interphon.Main Interphon.Args Interphon.Cli Interphon.Inout

/-- The search reads lattice, positions, types and selected atoms of the super cell. -/
theorem symPlan_congr (u : Cell ℝ) {s s' : Cell ℝ} (p : Fin 3 → ℤ) (h1 : s'.cart = s.cart) (h2 : s'.lattice = s.lattice) (h3 : s'.atomType = s.atomType)
    (h4 : s'.atomTrue = s.atomTrue) : symPlan u s' p = symPlan u s p := by
  have e : cellIn s' = cellIn s := by simp only [cellIn, h1, h2, h3, h4]
  unfold symPlan
  rw [e, h3]

/-- `plan` (rational numbers, which are written to files) lists, up to `ε` in every component, what the symmetry search of the program finds (directions with square roots in
their components): for every atom that has to be displaced its row in the super cell and the directions. -/
def NearSearch (ε : ℝ) (u s : Cell ℝ) (sel : List ℕ) (E : ℕ) (plan : List (ℕ × List (V3 ℚ))) : Prop :=
  ∃ req der, symPlan u s ![1, 1, 0] = some (.ok (req, der)) ∧
    List.Forall₂ (fun q r => q.1 = E * sel.getD r.idx 0 ∧ List.Forall₂ (fun (v : V3 ℚ) (w : V3 ℝ) => ∀ c, |(v c : ℝ) - w c| ≤ ε) q.2 (calcDirs r)) plan req

/-- The displaced super cells of two plans that are near each other. -/
theorem sym_moves {s : Cell ℚ} {sel : List ℕ} {E : ℕ} {d : ℚ} {p : Fin 3 → ℤ} (hp : numPbc p = 2) {plan : List (ℕ × List (V3 ℚ))} {planR : List (ℕ × List (V3 ℝ))} {ε : ℝ}
    (hnear : List.Forall₂ (fun q r => q.1 = r.1 ∧ List.Forall₂ (fun (v : V3 ℚ) (w : V3 ℝ) => ∀ c, |(v c : ℝ) - w c| ≤ ε) q.2 r.2) plan planR)
    (hplan : ∀ q ∈ plan, q.1 < s.cart.length) {s' : Cell ℚ} {files : Files ℚ} (hw : writeDisplaceCell s sel E d p true (.ok plan) = .ok (s', files))
    {sR : Cell ℝ} {filesR : Files ℝ} (hwR : writeDisplaceCell (toR s) sel E (d : ℝ) p true (.ok planR) = .ok (sR, filesR)) :
    files.length = 2 * (plan.map fun q => q.2.length).sum ∧ filesR.length = files.length ∧
      ∀ k < files.length, ∃ f g row δ δ', files[k]? = some f ∧ filesR[k]? = some g ∧ row < s.cart.length ∧ IsMoved s row δ f.2 ∧ IsMoved (toR s) row δ' g.2 ∧
        ∀ c, |(δ c : ℝ) - δ' c| ≤ |(d : ℝ)| * ε := by
  obtain ⟨s2, files2, e1, e2, e3⟩ := C15_displaced_files_sym s sel E d p hp plan hplan
  rw [hw] at e1; cases e1
  have hplanR : ∀ q ∈ planR, q.1 < (toR s).cart.length := by
    intro q hq
    obtain ⟨i, hi, rfl⟩ := List.mem_iff_getElem.1 hq
    have hi' : i < plan.length := by rw [hnear.length_eq]; exact hi
    obtain ⟨h1, -⟩ := List.forall₂_iff_get.1 hnear |>.2 i hi' hi
    have h2 := hplan _ (List.getElem_mem hi')
    simp only [List.get_eq_getElem] at h1
    rw [← h1]
    simpa [toR] using h2
  obtain ⟨s3, files3, f1, f2, f3⟩ := C15_displaced_files_sym (toR s) sel E (d : ℝ) p hp _ hplanR
  rw [hwR] at f1; cases f1
  have hflat : List.Forall₂ (fun (t : ℕ × V3 ℚ) (t' : ℕ × V3 ℝ) => t.1 = t'.1 ∧ ∀ c, |(t.2 c : ℝ) - t'.2 c| ≤ ε) (plan.flatMap fun q => q.2.map fun v => (q.1, v))
      (planR.flatMap fun q => q.2.map fun v => (q.1, v)) := by
    clear hplan hplanR hw hwR e2 e3 f2 f3
    induction hnear with
    | nil => exact .nil
    | cons h1 _ ih =>
      rw [List.flatMap_cons, List.flatMap_cons]
      refine List.rel_append ?_ ih
      rw [List.forall₂_map_left_iff, List.forall₂_map_right_iff]
      exact h1.2.imp fun v w hvw => ⟨h1.1, hvw⟩
  have hlen : (plan.flatMap fun q => q.2.map fun v => (q.1, v)).length = (plan.map fun q => q.2.length).sum := by
    simp [List.length_flatMap]
  have hlenR : (planR.flatMap fun q => q.2.map fun v => (q.1, v)).length = (planR.map fun q => q.2.length).sum := by
    simp [List.length_flatMap]
  refine ⟨e2, by rw [f2, e2, ← hlenR, ← hlen, hflat.length_eq], fun k hk => ?_⟩
  have hk2 : k / 2 < (plan.flatMap fun q => q.2.map fun v => (q.1, v)).length := by omega
  have hk2R : k / 2 < (planR.flatMap fun q => q.2.map fun v => (q.1, v)).length := by rw [← hflat.length_eq]; exact hk2
  obtain ⟨⟨row, v⟩, hv⟩ : ∃ t, (plan.flatMap fun q => q.2.map fun v => (q.1, v))[k / 2]? = some t := ⟨_, List.getElem?_eq_getElem hk2⟩
  obtain ⟨⟨rowR, w⟩, hw'⟩ : ∃ t, (planR.flatMap fun q => q.2.map fun v => (q.1, v))[k / 2]? = some t := ⟨_, List.getElem?_eq_getElem hk2R⟩
  have hvw : row = rowR ∧ ∀ c, |(v c : ℝ) - w c| ≤ ε := by
    have := (List.forall₂_iff_get.1 hflat).2 (k / 2) hk2 hk2R
    obtain ⟨_, g1⟩ := List.getElem?_eq_some_iff.1 hv
    obtain ⟨_, g2⟩ := List.getElem?_eq_some_iff.1 hw'
    simp only [List.get_eq_getElem] at this
    rw [g1, g2] at this
    exact this
  obtain ⟨rfl, hvw⟩ := hvw
  obtain ⟨q, hq, hvq⟩ := List.mem_flatMap.1 (List.mem_of_getElem? hv)
  obtain ⟨v', hv', hvv⟩ := List.mem_map.1 hvq
  cases hvv
  obtain ⟨⟨a, a1, a2⟩, ⟨b, b1, b2⟩⟩ := e3 _ _ _ hv
  obtain ⟨⟨a', a1', a2'⟩, ⟨b', b1', b2'⟩⟩ := f3 _ _ _ hw'
  rcases (by omega : k % 2 = 0 ∨ k % 2 = 1) with hb | hb
  · have e : 2 * (k / 2) = k := by omega
    rw [e] at a1 a1'
    refine ⟨_, _, q.1, _, _, a1, a1', hplan q hq, a2, a2', fun c => ?_⟩
    push_cast
    rw [← mul_sub, abs_mul]
    exact mul_le_mul_of_nonneg_left (hvw c) (abs_nonneg _)
  · have e : 2 * (k / 2) + 1 = k := by omega
    rw [e] at b1 b1'
    refine ⟨_, _, q.1, _, _, b1, b1', hplan q hq, b2, b2', fun c => ?_⟩
    push_cast
    rw [neg_sub_neg, abs_sub_comm, ← mul_sub, abs_mul]
    exact mul_le_mul_of_nonneg_left (hvw c) (abs_nonneg _)

/-- The post-process after a pre-process with symmetry and the calculations with the forces of an infinite harmonic crystal, up to errors. -/
theorem post_sym {cwd : Str} {o : PreOpts} {code : Code} {a : PreArg} {e : List ℤ} {d : ℚ} {u : Cell ℚ} {sel : List ℕ} {x : ℕ → FileArgs}
    {junk : ℕ → List (V3 ℚ)} {fs : Fs} (h : BaseRun cwd o code a e [1, 1, 0] d u sel x junk fs) (hd : d ≠ 0) (hdet : u.lattice.det ≠ 0)
    (hxyz : u.xyzTrue = some (sel.flatMap fun a => [a, a, a])) (hdec : DecCell u) (hsym : o.sym = true) {name : Str}
    {s : Cell ℚ} (hs : preSuper junk u (fun i => e.getD i 0) ![1, 1, 0] = .ok s) (hcr : ExactCrystal (toR u) (toR s) sel (fun i => e.getD i 0))
    (Φ : Springs) (hΦ : ∀ a x b y l, l ∈ (Φ a x b y).support → l 2 = 0) (hsymm : SymmetricSprings Φ)
    (hsp : Symmetric (toR s) (superSprings (fun i => e.getD i 0) (numImages fun i => e.getD i 0) Φ)) (F0 : Rows ℝ) {S : Solver} (hS : IsSolver S) (j : Junk) :
    ∃ K : ℝ, 0 ≤ K ∧ ∀ (ε : ℝ), 0 ≤ ε → ∀ plan, NearSearch ε (toR u) (toR s) sel (numImages fun i => e.getD i 0) plan →
      ∃ fs1 rec, preMain cwd o x junk (.ok plan) (.ok name) fs = .ok (fs1, rec) ∧
      ∀ (η : ℝ), 0 ≤ η → ∀ (fs2 : Fs) (force : List Str),
        CalculatedWithin η code cwd o.unitcell fs1 fs2 (superSprings (fun i => e.getD i 0) (numImages fun i => e.getD i 0) Φ) F0 (2 * (plan.map fun q => q.2.length).sum) force →
        NearPhonons (K * (η + ε + 1 / 10 ^ 16)) S j cwd rec force (.ok plan) fs2 (fun i => e.getD i 0) ![1, 1, 0] u sel Φ := by
  set n : Fin 3 → ℤ := fun i => e.getD i 0 with hn
  have hpp : (fun i : Fin 3 => ([1, 1, 0] : List ℤ).getD i 0) = ![1, 1, 0] := by funext i; fin_cases i <;> rfl
  have hnp : numPbc ![1, 1, 0] = 2 := by decide
  set Ψ := superSprings n (numImages n) Φ with hΨ
  have hsup := hcr.super
  obtain ⟨groups, hg⟩ := h.unit.groups
  obtain ⟨hcall, harg⟩ := C06_supercell_from_arguments h.junk u hg.len.symm a (accepted_check h.args) e [1, 1, 0] h.enlargement h.periodicity h.positive
  rw [hpp] at hcall
  obtain ⟨s0, s1', hs0, hs1', hw, hc1, hlat, hty, hnum, hsel1, hmem, hat, hxyz1⟩ := pre_super_ok hcall h.unit
  rw [hs] at hs1'; cases hs1'
  obtain ⟨s00, hs00, hlen, -⟩ := C06_supercell_positions hcall
  rw [hs0] at hs00; cases hs00
  have hlen1 : s.cart.length = numImages n * u.cart.length := by rw [hc1, hlen]; rfl
  have hEpos : 0 < numImages n := by
    have h0 := hcall.pos 0
    have h1 := hcall.pos 1
    have h2 := hcall.pos 2
    have : 0 < n 0 * n 1 * n 2 := by positivity
    unfold numImages
    omega
  have hrows : ∀ t < superN (toR s), superRow (toR s) t < s.cart.length := by
    intro t ht
    have hmem : superRow (toR s) t ∈ (toR s).atomTrue.getD [] := by
      rw [superRow, List.getD_eq_getElem?_getD, List.getElem?_eq_getElem ht]
      exact List.getElem_mem _
    change _ ∈ s.atomTrue.getD [] at hmem
    rw [hat, Option.getD_some] at hmem
    obtain ⟨i, hi, hm⟩ := List.mem_flatMap.1 hmem
    obtain ⟨k, hk, hk2⟩ := List.mem_map.1 hm
    rw [← hk2, hlen1]
    have h1 := h.unit.bound i hi
    have h2 : k < numImages n := by
      unfold rangeInt at hk
      exact List.mem_range.1 hk
    show i * numImages n + k < _
    calc i * numImages n + k < i * numImages n + numImages n := by omega
      _ = numImages n * (i + 1) := by ring
      _ ≤ numImages n * u.cart.length := Nat.mul_le_mul_left _ h1
  set Ψ' : ℕ → Fin 3 → ℕ → Fin 3 → ℝ := fun r x c y => if r < s.cart.length then Ψ r x c y else 0 with hΨ'
  set F0' : Rows ℝ := fun a c => if a < s.cart.length then F0 a c else 0 with hF0'
  have hsp' : Symmetric (toR s) Ψ' := by
    intro Q τ σ hQ t ht t' ht'
    have := hsp Q τ σ hQ t ht t' ht'
    have e : ∀ t < superN (toR s), ∀ t', blk Ψ' (superRow (toR s) t) t' = blk Ψ (superRow (toR s) t) t' := by
      intro t ht t'
      funext x y
      exact if_pos (hrows t ht)
    rw [e _ (hQ.2.2.2 t ht).1, e _ ht]
    exact this
  obtain ⟨req, der, sR, filesR, fcS, hsp1, hwR, hfcS, hentS⟩ := C86_symmetry_end_to_end_partial hcr hsp' F0' (d := (d : ℝ)) (by exact_mod_cast hd) j.cols j.fc
  obtain ⟨K, hK, hKn⟩ := setSym_near (d : ℝ) (superRow (toR s)) j.cols req der
  set κ : ℝ := ∑ r ∈ Finset.range s.cart.length, ∑ x : Fin 3, ∑ c ∈ Finset.range s.cart.length, ∑ y, |Ψ r x c y| with hκdef
  have hκ : ∀ r < s.cart.length, ∀ (x : Fin 3), ∀ c < s.cart.length, ∑ y, |Ψ r x c y| ≤ κ := by
    intro r hr x c hc
    have h0 : ∀ (r : ℕ) (x : Fin 3) (c : ℕ), 0 ≤ ∑ y, |Ψ r x c y| := fun r x c => Finset.sum_nonneg fun _ _ => abs_nonneg _
    refine (Finset.single_le_sum (f := fun c => ∑ y, |Ψ r x c y|) (fun c _ => h0 r x c) (Finset.mem_range.2 hc)).trans ?_
    refine (Finset.single_le_sum (f := fun x => ∑ c ∈ Finset.range s.cart.length, ∑ y, |Ψ r x c y|) (fun x _ => Finset.sum_nonneg fun c _ => h0 r x c) (Finset.mem_univ x)).trans ?_
    exact Finset.single_le_sum (f := fun r => ∑ x : Fin 3, ∑ c ∈ Finset.range s.cart.length, ∑ y, |Ψ r x c y|)
      (fun r _ => Finset.sum_nonneg fun x _ => Finset.sum_nonneg fun c _ => h0 r x c) (Finset.mem_range.2 hr)
  have hκ0 : 0 ≤ κ := Finset.sum_nonneg fun r _ => Finset.sum_nonneg fun x _ => Finset.sum_nonneg fun c _ => Finset.sum_nonneg fun _ _ => abs_nonneg _
  clear_value κ
  refine ⟨K * (1 + κ * (|(d : ℝ)| + 1)), by positivity, ?_⟩
  intro ε hε plan hsearch
  obtain ⟨req', der', hsp1', hpl⟩ := hsearch
  rw [hsp1] at hsp1'; cases hsp1'
  have hpl' : List.Forall₂ (fun q r => q.1 = r.1 ∧ List.Forall₂ (fun (v : V3 ℚ) (w : V3 ℝ) => ∀ c, |(v c : ℝ) - w c| ≤ ε) q.2 r.2) plan
      (req.map fun q => (numImages n * sel.getD q.idx 0, calcDirs q)) := by
    rw [List.forall₂_map_right_iff]
    exact hpl
  have hplanlt : ∀ q ∈ plan, q.1 < s.cart.length := by
    intro q hq
    obtain ⟨i, hi, rfl⟩ := List.mem_iff_getElem.1 hq
    have hi' : i < req.length := by rw [← hpl.length_eq]; exact hi
    obtain ⟨h1, -⟩ := List.forall₂_iff_get.1 hpl |>.2 i hi hi'
    simp only [List.get_eq_getElem] at h1
    rw [h1, hlen1]
    refine Nat.mul_lt_mul_of_pos_left ?_ hEpos
    by_cases hi : req[i].idx < sel.length
    · rw [List.getD_eq_getElem _ _ hi]
      exact h.unit.bound _ (List.getElem_mem _)
    · rw [List.getD_eq_default _ _ (by omega)]
      obtain ⟨t, ht⟩ := List.exists_mem_of_ne_nil _ hcr.nonempty
      have := h.unit.bound t ht
      omega
  obtain ⟨fs1, rec, s1, s2, files, hpre, hs1, hwd, hmain⟩ := post_near h hxyz hdec (.ok plan) (.ok name) (pg := some name) (by rw [hpp, hsym]; rfl)
    (by rw [hpp, hsym]; exact .inr ⟨rfl, hnp, plan, rfl, fun q hq => by rw [← show numImages n = (e.getD 0 0 * e.getD 1 0 * e.getD 2 0).toNat from rfl, ← hlen1]; exact hplanlt q hq⟩)
  simp only [hpp] at hs1 hwd hmain
  rw [hs] at hs1; cases hs1
  rw [hsym] at hwd hmain
  change writeDisplaceCell s sel (numImages n) d ![1, 1, 0] true _ = _ at hwd
  refine ⟨fs1, rec, hpre, ?_⟩
  intro η hη fs2 force hcalc
  obtain ⟨hfl, hflR, hmv⟩ := sym_moves hnp hpl' hplanlt hwd hwR
  rw [← hfl] at hcalc
  obtain ⟨s3, mass, F, hc3, hlat3, h3t, h3a, h3x, hmass, hFl, hFv, hset⟩ := hmain (by
    intro k f hf
    obtain ⟨f', g, row, δ, δ', e1, -, e2, e3, -⟩ := hmv k (List.getElem?_eq_some_iff.1 hf).1
    rw [hf] at e1; cases e1
    exact ⟨row, δ, e2, e3⟩) Ψ F0 η fs2 force hcalc
  have hdecs : DecCell s := by
    have := hdec.super hcall hs0
    exact ⟨by rw [hlat]; exact this.1, by rw [hc1]; exact this.2⟩
  set τ : ℝ := η + κ * ((|(d : ℝ)| * ε + 1 / 2 / 10 ^ 16) * (1 / 10 ^ 10)) with hτ
  have hτ0 : 0 ≤ τ := by positivity
  have hF : FilesWithin τ F (filesR.map fun f => harmonicForces Ψ' F0' (toR s) f.2) := by
    refine ⟨by rw [hFl, List.length_map, hflR], ?_⟩
    intro k g gR' hgF hgR0 a c
    rw [List.getElem?_map] at hgR0
    obtain ⟨gR, hgR, rfl⟩ := Option.map_eq_some_iff.1 hgR0
    clear hgR0
    have hkl : k < files.length := by rw [← hflR]; exact (List.getElem?_eq_some_iff.1 hgR).1
    obtain ⟨f, g', row, δ, δ', e1, e1', e2, e3, e4, e5⟩ := hmv k hkl
    rw [hgR] at e1'; cases e1'
    obtain ⟨b, hb, hval⟩ := hFv k f g e1 hgF
    have hrow : row < (toR s).cart.length := by simpa [toR] using e2
    by_cases ha : a < s.cart.length
    · have h1 := (hval a c).1 ha
      have h2 := force_near hdecs e2 e3 hb e4 e5 F0 a c (hκ a ha c row e2)
      have h3 : harmonicForces Ψ' F0' (toR s) gR.2 a c = harmonicForces Ψ F0 (toR s) gR.2 a c := by
        rw [harmonic_moved _ _ _ _ _ _ hrow e4, harmonic_moved _ _ _ _ _ _ hrow e4]
        have hF : F0' a c = F0 a c := if_pos ha
        have hS : ∀ r' y, Ψ' a c r' y = Ψ a c r' y := fun r' y => if_pos ha
        simp only [hF, hS]
      rw [h3, show g a c - harmonicForces Ψ F0 (toR s) gR.2 a c = (g a c - harmonicForces Ψ F0 (toR s) (toR b) a c) +
        (harmonicForces Ψ F0 (toR s) (toR b) a c - harmonicForces Ψ F0 (toR s) gR.2 a c) by ring]
      exact (abs_add_le _ _).trans (add_le_add h1 h2)
    · rw [(hval a c).2 (by omega), harmonic_moved _ _ _ _ _ _ hrow e4]
      have hF : F0' a c = 0 := if_neg ha
      have hS : ∀ r' y, Ψ' a c r' y = 0 := fun r' y => if_neg ha
      simp only [hF, hS]
      simpa using hτ0
  obtain ⟨fc1, hfc1, hnear⟩ := hKn τ hτ0 j.fc _ _ (files_symm hF) _ hfcS
  have c1 : (toR s3).cart = (toR s).cart := by simp [toR, hc3]
  have c2 : (toR s3).lattice = (toR s).lattice := by
    show (fun i j => ((s3.lattice i j : ℚ) : ℝ)) = fun i j => ((s.lattice i j : ℚ) : ℝ)
    rw [hlat3]
  have hfcst : forceConstant j.cols true F (PostProcess.new (toR u) (toR s3) n ![1, 1, 0] (d : ℝ) mass (reciprocal (toR u).lattice) j.fc) = .ok fc1 := by
    unfold forceConstant
    rw [if_pos ⟨rfl, hnp⟩]
    have hp3 : symPlan (toR u) (toR s3) ![1, 1, 0] = some (.ok (req, der)) := by
      rw [symPlan_congr (toR u) (s := toR s) ![1, 1, 0] c1 c2 h3t h3a, hsp1]
    simp only [PostProcess.new]
    rw [hp3]
    show setSym (d : ℝ) (superRow (toR s3)) j.cols j.fc req der F = _
    have e : superRow (toR s3) = superRow (toR s) := by
      funext t
      show (s3.atomTrue.getD []).getD t 0 = (s.atomTrue.getD []).getD t 0
      rw [h3a]
    rw [e]
    exact hfc1
  -- the force constants without symmetry
  have hdR : (d : ℝ) ≠ 0 := by exact_mod_cast hd
  obtain ⟨junkR, s0R, hgR, eR1, eR2⟩ := hsup.made
  obtain ⟨sw, filesA, fcA, hwA, hfcA, hmat⟩ := C97_exact_dynamical_matrix hgR hsup.regular sel hsup.selected hsup.valid hxyz eR1 eR2 Φ (fun a x b y l hl i hi => by
    have : i = 2 := by fin_cases i <;> simp at hi ⊢
    rw [this]; exact hΦ a x b y l hl) (d : ℝ) hdR F0 j.fc (.ok []) mass
  have hin : ∀ t ∈ sel, numImages n * t < (toR s).cart.length := by
    intro t ht
    have e : (toR s).cart.length = s.cart.length := by simp [toR]
    rw [e, hlen1]
    exact Nat.mul_lt_mul_of_pos_left (h.unit.bound t ht) hEpos
  obtain ⟨fcA', hfcA', hentA⟩ := C19_harmonic_exact (toR s) sel (numImages n) (d : ℝ) hdR ![1, 1, 0] (.ok []) hin Ψ F0 j.fc sw filesA hwA
  have hAA : fcA' = fcA := by
    have h1 : setPlain (d : ℝ) sel.length j.fc (filesA.map fun f => harmonicForces Ψ F0 (toR s) f.2) = .ok fcA := hfcA
    rw [hfcA'] at h1
    exact Except.ok.inj h1
  subst hAA
  have hag : ∀ y c, c / 3 < ((toR u).atomTrue.getD []).length → y / 3 ∈ (toR s).atomTrue.getD [] → fcA' y c = fcS y c := by
    rw [hsup.selected, Option.getD_some]
    intro y c hc hy
    obtain ⟨t, ht, et⟩ := List.mem_iff_getElem.1 hy
    have hrow : superRow (toR s) t = y / 3 := by
      rw [superRow, List.getD_eq_getElem?_getD, List.getElem?_eq_getElem ht, Option.getD_some, et]
    have hx3 : y = 3 * superRow (toR s) t + (comp y : Fin 3) := by rw [hrow]; simp only [comp]; omega
    have hc3 : c = 3 * (c / 3) + (comp c : Fin 3) := by simp only [comp]; omega
    rw [hx3, hc3, hentS _ hc t ht, hentA _ (c / 3) (sel.getD (c / 3) 0)]
    · exact (if_pos (hrows t ht)).symm
    · rw [List.getD_eq_getElem?_getD, List.getElem?_eq_getElem hc, Option.getD_some]
  have hthr : Thrice (toR u) := by
    unfold Thrice
    rw [show (toR u).xyzTrue = some (sel.flatMap fun a => [a, a, a]) from hxyz, hsup.selected]; rfl
  have hε0 : 0 ≤ K * (1 + κ * (|(d : ℝ)| + 1)) * (η + ε + 1 / 10 ^ 16) := by
    clear_value τ
    positivity
  refine near_core (a := a) hS hmass (fun t ht => by rw [← hg.len]; exact h.unit.bound t ht) h.unit.selected hxyz hsup.regular hgR eR1 eR2 hc3 hlat3 h3x hε0 hfcst
    (fc0 := fcS) ?_ hsymm (fun o2 hc2 => hset S j o2 hc2) ?_
  · intro r c
    rw [abs_sub_comm]
    refine (hnear r c).trans ?_
    rw [mul_assoc]
    refine mul_le_mul_of_nonneg_left ?_ hK
    have hd0 := abs_nonneg (d : ℝ)
    have e1 : (|(d : ℝ)| * ε + 1 / 2 / 10 ^ 16) * (1 / 10 ^ 10) ≤ (|(d : ℝ)| + 1) * (η + ε + 1 / 10 ^ 16) := by
      have h1 : |(d : ℝ)| * ε + 1 / 2 / 10 ^ 16 ≤ (|(d : ℝ)| + 1) * (η + ε + 1 / 10 ^ 16) := by
        nlinarith [mul_nonneg hd0 hη, mul_nonneg hd0 hε]
      have h2 : 0 ≤ |(d : ℝ)| * ε + 1 / 2 / 10 ^ 16 := by positivity
      nlinarith
    have e2 := mul_le_mul_of_nonneg_left e1 hκ0
    have e3 : η ≤ η + ε + 1 / 10 ^ 16 := by
      have : (0 : ℝ) < 1 / 10 ^ 16 := by positivity
      linarith
    rw [hτ]
    linarith
  · intro k hfit
    refine Eq.trans ?_ (hmat k hfit _ le_rfl)
    ext r c
    exact ofCells_agree hthr (super_lists_thrice hsup) n ![1, 1, 0] mass hag k r c

theorem slab_flags : (fun c => decide ((![1, 1, 0] : Fin 3 → ℤ) c ≠ 0)) = ![true, true, false] := by
  funext c; fin_cases c <;> rfl

/-- **C130.**  From the command line to the band with the symmetry search (periodicity 1 1 0, a crystal whose symmetry is exact, springs with that symmetry): only the
displacements that the search asks for are written and calculated.  There is a constant `K` that depends on the crystal, its springs and the amplitude only, such that: if
the program's directions are exact up to `ε` and the forces in the output files up to `η` newton, the pre-process and the post-process run without an exception, and every
frequency that the band run returns at a wave vector that fits into the super cell is, up to `√(E·K·(η + ε + 10⁻¹⁶)·Σ 1/m) / π` THz, an exact frequency of the infinite crystal. -/
theorem C130_end_to_end_partial {cwd : Str} {o : PreOpts} {code : Code} {a : PreArg} {e : List ℤ} {d : ℚ} {u : Cell ℚ} {sel : List ℕ} {x : ℕ → FileArgs}
    {junk : ℕ → List (V3 ℚ)} {fs : Fs} (h : BaseRun cwd o code a e [1, 1, 0] d u sel x junk fs) (hd : d ≠ 0) (hdet : u.lattice.det ≠ 0)
    (hxyz : u.xyzTrue = some (sel.flatMap fun a => [a, a, a])) (hdec : DecCell u) (hsym : o.sym = true) {name : Str}
    {s : Cell ℚ} (hs : preSuper junk u (fun i => e.getD i 0) ![1, 1, 0] = .ok s) (hcr : ExactCrystal (toR u) (toR s) sel (fun i => e.getD i 0))
    (Φ : Springs) (hΦ : ∀ a x b y l, l ∈ (Φ a x b y).support → l 2 = 0) (hsymm : SymmetricSprings Φ)
    (hsp : Symmetric (toR s) (superSprings (fun i => e.getD i 0) (numImages fun i => e.getD i 0) Φ)) (F0 : Rows ℝ) {S : Solver} (hS : IsSolver S) (j : Junk) :
    ∃ K : ℝ, 0 ≤ K ∧ ∀ (ε : ℝ), 0 ≤ ε → ∀ plan, NearSearch ε (toR u) (toR s) sel (numImages fun i => e.getD i 0) plan →
      ∃ fs1 rec, preMain cwd o x junk (.ok plan) (.ok name) fs = .ok (fs1, rec) ∧
      ∀ (η : ℝ), 0 ≤ η → ∀ (fs2 : Fs) (glob : Str → List Str) (args force : List Str), forceFiles glob args = .ok force →
        CalculatedWithin η code cwd o.unitcell fs1 fs2 (superSprings (fun i => e.getD i 0) (numImages fun i => e.getD i 0) Φ) F0 (2 * (plan.map fun q => q.2.length).sum) force →
        ∀ (kband t : Str) (ks : List (V3 ℚ)) (auto : List ℤ), fs2 (absPath cwd kband) = some t →
          KPoints.setKPoints (readlines t) ![true, true, false] = .ok (ks, auto) → 2 ≤ ks.length →
          ∃ obj rows mass, bandMain S j cwd {} rec glob args kband (.ok plan) fs2 = .ok (obj, rows) ∧ IsMasses u sel mass ∧ rows.length = ks.length ∧
            ∀ (i : ℕ) (k : V3 ℚ), ks[i]? = some k → Fits (fun i => e.getD i 0) ![1, 1, 0] (toReal k) →
              ∃ len row q row0, rows[i]? = some (len, row) ∧ row.length = 3 * sel.length ∧ (∀ c, dot3 q ((toR u).lattice c) = 2 * Real.pi * (k c : ℝ)) ∧
                IsSpectrum (trueDyn (toR u) sel mass Φ q (3 * sel.length)) row0 ∧
                ∀ ν ∈ row, ∃ ν0 ∈ row0, |ν - ν0| ≤ Real.sqrt ((e.getD 0 0 * e.getD 1 0 * e.getD 2 0).toNat * (K * (η + ε + 1 / 10 ^ 16)) * ∑ r : Fin (3 * sel.length), 1 / mass r) /
                  (Real.pi * 10 ^ 12) := by
  obtain ⟨K, hK, hmain⟩ := post_sym h hd hdet hxyz hdec hsym (name := name) hs hcr Φ hΦ hsymm hsp F0 hS j
  refine ⟨K, hK, ?_⟩
  intro ε hε plan hplan
  obtain ⟨fs1, rec, hpre, hpost⟩ := hmain ε hε plan hplan
  refine ⟨fs1, rec, hpre, ?_⟩
  intro η hη fs2 glob args force hforce hcalc kband t ks auto hkf hk hk2
  exact near_band (hpost η hη fs2 force hcalc) hforce kband t ks auto hkf (by rw [slab_flags]; exact hk) hk2

end Interphon.Props
