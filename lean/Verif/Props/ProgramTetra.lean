import Verif.Props.ProgramDosExample
import Verif.Props.DosMesh
import Verif.Props.TetraExact
import Verif.Props.KFiles

/-! # C134: the post-process with the tetrahedron method -/

namespace Interphon.Props
open Py Interphon Interphon.UnitCell Interphon.SuperCell Interphon.PreProcess Interphon.Args Interphon.Inout Interphon.Cli Interphon.Main
open Interphon.PostProcess Interphon.Phonon Interphon.ForceConstant Interphon.Tetra Interphon.Spec

noncomputable section

/-- Exactly two corner values are `f`, the others lie above. -/
def Touched {m : ℕ} (f : ℝ) (w : Fin m → ℝ) : Prop := ∃ i j, i ≠ j ∧ w i = f ∧ w j = f ∧ ∀ l, l ≠ i → l ≠ j → f < w l

/-- The lines are a mesh file with divisions `m` and shift `s` which yields the wave vectors `ks`. -/
def IsMeshFile (lines : List Str) (per : Fin 3 → Bool) (off : ℚ) (m : Fin 3 → ℤ) (s : Fin 3 → ℚ) (ks : List (V3 ℚ)) : Prop :=
  ∃ ch, ModeLetter lines ch ∧ (ch ∈ ['G', 'g'] ∧ off = 0 ∨ ch ∈ ['M', 'm'] ∧ off = 1 / 2) ∧ MeshOk off lines per m s ks [m 0, m 1, m 2]

/-! ### Where the tetrahedron method yields a number -/

theorem touched_iff {arg : Argsort 4} (ha : Sorts arg) (f : ℝ) (w : ℕ → ℝ) (t : Fin 4 → ℕ) :
    branch3 f (sortedFreq arg w t) = .nan ↔ Touched f (fun i => w (t i)) := by
  constructor
  · intro h
    obtain ⟨h0, h1, h2⟩ := (nan_iff _ _ (ha _)).1 h
    set u : Fin 4 → ℝ := fun i => w (t i) with hu
    simp only [Function.comp] at h0 h1 h2
    have hm : Monotone (u ∘ arg u) := ha u
    have h3 : u (arg u 2) ≤ u (arg u 3) := hm (by decide)
    refine ⟨arg u 0, arg u 1, fun h => by simpa using (arg u).injective h, h0.symm, (h0.trans h1).symm, fun l hl0 hl1 => ?_⟩
    obtain ⟨k, rfl⟩ := (arg u).surjective l
    have : k = 2 ∨ k = 3 := by
      fin_cases k
      · exact absurd rfl hl0
      · exact absurd rfl hl1
      · exact .inl rfl
      · exact .inr rfl
    rcases this with rfl | rfl
    · rw [h0, h1]; exact h2
    · rw [h0, h1]; exact h2.trans_le h3
  · intro h
    by_contra hc
    have := C41_nan_refuted ha 1 f 1 [t] (fun k _ => w k) (fun _ _ _ => 0) 0 (some 0) 0 (by simp) t (by simp) h
    obtain ⟨_, -, s, hs, hn⟩ := (column_none_iff ..).1 this
    obtain rfl := List.mem_singleton.1 hs
    exact hc hn

open Classical in
/-- The total density of states with the tetrahedron method on a list of simplices. -/
private theorem tetra_total {D : ℕ} {br : ℝ → (Fin (D + 1) → ℝ) → Branch (D + 1)} (hb : ExactBranch br) {arg : Argsort (D + 1)} (ha : Sorts arg)
    (arg2 : Argsort 2) (arg3 : Argsort 3) (arg4 : Argsort 4) (p : Dos.Proc) (num : ℕ) (hnum : 0 < num) (s0 s1 : Dos.State) (h0 : Dos.init p num = .ok s0)
    (h1 : Dos.set arg2 arg3 arg4 p 0 s0 = .ok s1) (hper : ∃ c, p.periodicity c = true) (hnd : 0 < p.nd) (vol : ℝ) (L : List (Fin (D + 1) → ℕ)) (hL : L.Nodup)
    (hvol : vol = 1 / L.length)
    (hent : ∀ d i f old, entry s0 d i = some old → s0.freq[i]? = some f → entry s1 d i = some (column arg br vol f p.nb L p.w p.F d old))
    (hF : ∀ t ∈ L, ∀ i, ∀ b < p.nb, ∑ d ∈ Finset.range p.nd, p.F (t i) b d = 1)
    (hnan : ∀ f, ∀ b < p.nb, ∀ t ∈ L, br f (sortedFreq arg (fun k => p.w k b) t) = .nan ↔ D = 3 ∧ Touched f (fun i => p.w (t i) b)) :
    ∃ g, DensityOf g (fun A => (∑ b ∈ Finset.range p.nb, ∑ t ∈ L.toFinset, portion (fun i => p.w (t i) b) A) / L.toFinset.card) ∧
      (Dos.totalRows s1).length = num ∧
      ∀ i < num, ∀ f, s0.freq[i]? = some f →
        (Dos.totalRows s1)[i]? = some (f, if D = 3 ∧ ∃ b < p.nb, ∃ t ∈ L, Touched f (fun i => p.w (t i) b) then none else some (g f)) := by
  obtain ⟨g, hg, hgN⟩ := C133_mesh_total hb ha vol p.nb p.nd L p.w p.F hF
  obtain ⟨lo, hi, -, -, -, hflen, -, -, -, hshape, hzero⟩ := C46_grid p num hnum s0 h0
  obtain ⟨hfr, -, td, htd, htl, htot⟩ := C44_total_partial arg2 arg3 arg4 p 0 s0 s1 hshape h1 (.inr hper)
  have hrow : Dos.totalRows s1 = s1.freq.zip td := by unfold Dos.totalRows; rw [htd]; rfl
  refine ⟨g, ?_, ?_, ?_⟩
  · convert hgN using 1
    funext A
    rw [List.toFinset_card_of_nodup hL, hvol, one_div, div_eq_inv_mul]
    congr 1
    rw [Finset.sum_range, ← List.sum_ofFn]
    congr 1
    apply List.ext_getElem
    · simp
    · intro b h1 h2
      rw [List.getElem_ofFn, List.getElem_map, List.getElem_range, List.sum_toFinset _ hL]
      rfl
  · rw [hrow, List.length_zip, htl, hfr, hflen, min_self]
  intro i hi' f hf
  have hil : i < s1.freq.length := by rw [hfr, hflen]; exact hi'
  have hf1 : s1.freq[i]? = some f := by rw [hfr]; exact hf
  have hcol : ∀ d < p.nd, entry s1 d i = some (column arg br vol f p.nb L p.w p.F d (some 0)) := fun d hd => hent d i f (some 0) (hzero d hd i hi') hf
  rw [hrow]
  by_cases hc : ∃ b < p.nb, ∃ t ∈ L, br f (sortedFreq arg (fun k => p.w k b) t) = .nan
  · have hc' : D = 3 ∧ ∃ b < p.nb, ∃ t ∈ L, Touched f (fun i => p.w (t i) b) := by
      obtain ⟨b, hb', t, ht, hn⟩ := hc
      have := (hnan f b hb' t ht).1 hn
      exact ⟨this.1, b, hb', t, ht, this.2⟩
    rw [if_pos hc']
    have he := hcol 0 hnd
    rw [(column_none_iff ..).2 hc] at he
    obtain ⟨t, ht, hti⟩ := C44_total_nan arg2 arg3 arg4 p 0 s0 s1 h1 (.inr hper) i 0 hil he
    rw [htd] at ht
    cases ht
    exact List.getElem?_zip_eq_some.2 ⟨hf1, hti⟩
  · have hc' : ¬ (D = 3 ∧ ∃ b < p.nb, ∃ t ∈ L, Touched f (fun i => p.w (t i) b)) := by
      rintro ⟨h3, b, hb', t, ht, hn⟩
      exact hc ⟨b, hb', t, ht, (hnan f b hb' t ht).2 ⟨h3, hn⟩⟩
    rw [if_neg hc']
    have hne : ∀ d, column arg br vol f p.nb L p.w p.F d (some 0) ≠ none := fun d h => hc ((column_none_iff ..).1 h)
    have := htot i hil (fun d => (column arg br vol f p.nb L p.w p.F d (some 0)).getD 0) (fun d hd => by
      rw [hcol d hd]
      cases hcd : column arg br vol f p.nb L p.w p.F d (some 0) with
      | none => exact absurd hcd (hne d)
      | some v => rfl)
    refine List.getElem?_zip_eq_some.2 ⟨hf1, this.trans ?_⟩
    congr 2
    exact hg f fun d _ => hne d

/-- The number of periodic directions. -/
def numDir (per : Fin 3 → Bool) : ℕ := (Finset.univ.filter fun c => per c = true).card

/-- What the tetrahedron method needs of the mesh: 1 division along the directions that are not periodic, at least two along the others; with three periodic directions as
many along the second as along the third (otherwise the weights are wrong, C43). -/
structure GoodMesh (per : Fin 3 → Bool) (m : Fin 3 → ℤ) : Prop where
  single : ∀ c, per c = false → m c = 1
  two : ∀ c, per c = true → 2 ≤ m c
  equal : (∀ c, per c = true) → m 1 = m 2

private theorem bools (per : Fin 3 → Bool) : per = ![per 0, per 1, per 2] := by funext c; fin_cases c <;> rfl
private theorem ints (m : Fin 3 → ℤ) : m = ![m 0, m 1, m 2] := by funext c; fin_cases c <;> rfl

open Classical in
/-- The conclusion about the density of states: `rows` are the values at the mesh points, `S` all simplices of the mesh. -/
def TetraDos (nb : ℕ) (per : Fin 3 → Bool) (m : Fin 3 → ℤ) (w : ℕ → ℕ → ℝ) (num : ℕ) (freq : ℕ → ℝ) (total : List (ℝ × Option ℝ)) : Prop :=
  ∃ (S : Finset (Fin (numDir per + 1) → ℕ)) (g : ℝ → ℝ),
    (∀ t, t ∈ S ↔ IsSimplex (fun c => (m c).toNat) per t) ∧ (S.card : ℤ) = (numDir per).factorial * (m 0 * m 1 * m 2) ∧
    DensityOf g (fun A => (∑ b ∈ Finset.range nb, ∑ t ∈ S, portion (fun i => w (t i) b) A) / S.card) ∧
    total = (List.range num).map fun i =>
      (freq i, if numDir per = 3 ∧ ∃ b < nb, ∃ t ∈ S, Touched (freq i) (fun j => w (t j) b) then none else some (g (freq i)))

private theorem rows_list {num : ℕ} {freq : ℕ → ℝ} {v : ℝ → Option ℝ} {total : List (ℝ × Option ℝ)} (hl : total.length = num)
    (h : ∀ i < num, total[i]? = some (freq i, v (freq i))) : total = (List.range num).map fun i => (freq i, v (freq i)) := by
  apply List.ext_getElem?
  intro i
  rw [List.getElem?_map]
  by_cases hi : i < num
  · rw [h i hi, List.getElem?_range hi]; rfl
  · rw [List.getElem?_eq_none (by omega), List.getElem?_eq_none (by simp; omega)]; rfl

private theorem corner_lt {D : ℕ} {m : Fin 3 → ℤ} {per : Fin 3 → Bool} (off : ℚ) (s : Fin 3 → ℚ) (hm : ∀ c, 0 < m c) {t : Fin (D + 1) → ℕ}
    (ht : IsSimplex (fun c => (m c).toNat) per t) (i : Fin (D + 1)) : t i < (meshR off m s per).length := by
  obtain ⟨_, _, _, _, h⟩ := C43_corner_wave_vectors off m s per hm t ht
  obtain ⟨k, hk, -⟩ := h i
  exact (List.getElem?_eq_some_iff.1 hk).1

private theorem tetra_dos (A : Argsorts) (h2 : Sorts A.two) (h3 : Sorts A.three) (h4 : Sorts A.four) (p : Dos.Proc) (off : ℚ) (m : Fin 3 → ℤ) (s : Fin 3 → ℚ)
    (hm : GoodMesh p.periodicity m) (hk : p.kPoints = meshR off m s p.periodicity) (ha : p.auto = fun c => (m c).toNat) (hnk : p.nk = p.kPoints.length)
    (hper : ∃ c, p.periodicity c = true) (hnd : 0 < p.nd) (hF : ∀ k < p.nk, ∀ b < p.nb, ∑ d ∈ Finset.range p.nd, p.F k b d = 1)
    (num : ℕ) (hnum : 0 < num) (s0 : Dos.State) (h0 : Dos.init p num = .ok s0) (freq : ℕ → ℝ) (hfreq : ∀ i < num, s0.freq[i]? = some (freq i)) :
    ∃ s1, Dos.set A.two A.three A.four p 0 s0 = .ok s1 ∧ TetraDos p.nb p.periodicity m p.w num freq (Dos.totalRows s1) := by
  obtain ⟨nk, nb, nd, w, F, kP, auto, per⟩ := p
  simp only at *
  subst hk ha
  have hpos : ∀ c, 0 < m c := by
    intro c
    rcases hb : per c with _ | _
    · rw [hm.single c hb]; norm_num
    · have := hm.two c hb; omega
  have hnat : ∀ c, ((m c).toNat : ℤ) = m c := fun c => Int.toNat_of_nonneg (hpos c).le
  set p : Dos.Proc := ⟨nk, nb, nd, w, F, meshR off m s per, fun c => (m c).toNat, per⟩ with hp
  -- the part common to all numbers of directions
  have common : ∀ {D : ℕ} {br : ℝ → (Fin (D + 1) → ℝ) → Branch (D + 1)} (_ : ExactBranch br) {arg : Argsort (D + 1)} (_ : Sorts arg) (_ : D = numDir per) (s1 : Dos.State)
      (_ : Dos.set A.two A.three A.four p 0 s0 = .ok s1) (vol : ℝ) (L : List (Fin (D + 1) → ℕ)) (_ : L.Nodup) (_ : ∀ t, t ∈ L ↔ IsSimplex (fun c => (m c).toNat) per t)
      (_ : (L.length : ℤ) = D.factorial * (m 0 * m 1 * m 2)) (_ : vol = 1 / L.length)
      (_ : ∀ d i f old, entry s0 d i = some old → s0.freq[i]? = some f → entry s1 d i = some (column arg br vol f nb L w F d old))
      (_ : ∀ f w t, br f (sortedFreq arg w t) = .nan ↔ D = 3 ∧ Touched f (fun i => w (t i))), TetraDos nb per m w num freq (Dos.totalRows s1) := by
    intro D br hbr arg harg hD s1 h1 vol L hL hmem hlen hvol hent hnan
    subst hD
    classical
    obtain ⟨g, g1, g2, g3⟩ := tetra_total hbr harg A.two A.three A.four p num hnum s0 s1 h0 h1 hper hnd vol L hL hvol hent
      (fun t ht i b hb => hF _ (by rw [hnk]; exact corner_lt off s hpos ((hmem t).1 ht) i) b hb) (fun f b _ t _ => hnan f (fun k => w k b) t)
    refine ⟨L.toFinset, g, fun t => by rw [List.mem_toFinset]; exact hmem t, by rw [List.toFinset_card_of_nodup hL]; exact hlen, g1, ?_⟩
    refine rows_list (v := fun f => if numDir per = 3 ∧ ∃ b < nb, ∃ t ∈ L.toFinset, Touched f (fun j => w (t j) b) then none else some (g f)) g2 fun i hi => ?_
    rw [g3 i hi _ (hfreq i hi)]
    simp only [List.mem_toFinset]
    rfl
  have nan1 : ∀ (arg : Argsort 2) f w t, branch1 f (sortedFreq arg w t) = .nan ↔ (1 : ℕ) = 3 ∧ Touched f (fun i => w (t i)) := by
    intro arg f w t
    constructor
    · intro h; unfold branch1 at h; split_ifs at h
    · rintro ⟨h, -⟩; cases h
  have nan2 : ∀ (arg : Argsort 3) f w t, branch2 f (sortedFreq arg w t) = .nan ↔ (2 : ℕ) = 3 ∧ Touched f (fun i => w (t i)) := by
    intro arg f w t
    constructor
    · intro h; unfold branch2 at h; split_ifs at h
    · rintro ⟨h, -⟩; cases h
  have one : ∀ a, Only1 (fun c => (m c).toNat) per a → numDir per = 1 → m 0 * m 1 * m 2 = m a → 2 ≤ m a → volume1 (meshR off m s per) (m a).toNat = .ok (1 / (m a : ℝ)) →
      ∃ s1, Dos.set A.two A.three A.four p 0 s0 = .ok s1 ∧ TetraDos nb per m w num freq (Dos.totalRows s1) := by
    intro a honly hD hprod htwo hv
    have hset : ∃ s1, Dos.set A.two A.three A.four p 0 s0 = .ok s1 := by
      unfold Dos.set
      rw [if_pos rfl, show Dos.indPbc p.periodicity = [a] from indPbc_one honly]
      simp only [Dos.tetraUpdate]
      rw [show volume1 p.kPoints (p.auto a) = _ from hv]
      exact ⟨_, rfl⟩
    obtain ⟨s1, h1⟩ := hset
    obtain ⟨vol, L, hv', hmem, hlen, hnod, hent⟩ := C43_dos_simplices_1d A.two A.three A.four p s0 s1 a honly h1
    rw [show volume1 p.kPoints (p.auto a) = _ from hv] at hv'
    cases hv'
    refine ⟨s1, h1, common branch1_exact h2 hD.symm s1 h1 _ L hnod hmem ?_ ?_ hent (nan1 A.two)⟩
    · rw [hlen, hprod]; show (((m a).toNat : ℕ) : ℤ) = _; rw [hnat]; simp
    · rw [hlen]; show _ = 1 / (((m a).toNat : ℕ) : ℝ); rw [← Int.cast_natCast, hnat]
  have two : ∀ a b, Only2 (fun c => (m c).toNat) per a b → numDir per = 2 → m 0 * m 1 * m 2 = m a * m b → 2 ≤ m a → 2 ≤ m b →
      volume2 (meshR off m s per) (m b).toNat a b = .ok (1 / (2 * m a * m b : ℝ)) →
      ∃ s1, Dos.set A.two A.three A.four p 0 s0 = .ok s1 ∧ TetraDos nb per m w num freq (Dos.totalRows s1) := by
    intro a b honly hD hprod ha hb hv
    have hset : ∃ s1, Dos.set A.two A.three A.four p 0 s0 = .ok s1 := by
      unfold Dos.set
      rw [if_pos rfl, show Dos.indPbc p.periodicity = [a, b] from indPbc_two honly]
      simp only [Dos.tetraUpdate]
      rw [show volume2 p.kPoints (p.auto b) a b = _ from hv]
      exact ⟨_, rfl⟩
    obtain ⟨s1, h1⟩ := hset
    obtain ⟨vol, L, hv', hmem, hlen, hnod, hent⟩ := C43_dos_simplices_2d A.two A.three A.four p s0 s1 a b honly h1
    rw [show volume2 p.kPoints (p.auto b) a b = _ from hv] at hv'
    cases hv'
    refine ⟨s1, h1, common branch2_exact h3 hD.symm s1 h1 _ L (hnod (by show 2 ≤ (m a).toNat; omega) (by show 2 ≤ (m b).toNat; omega)) hmem ?_ ?_ hent (nan2 A.three)⟩
    · rw [hlen, hprod]; show ((2 * ((m a).toNat * (m b).toNat) : ℕ) : ℤ) = _; push_cast [hnat]; simp [Nat.factorial]
    · rw [hlen]; show _ = 1 / ((2 * ((m a).toNat * (m b).toNat) : ℕ) : ℝ)
      have e1 : (((m a).toNat : ℕ) : ℝ) = m a := by exact_mod_cast hnat a
      have e2 : (((m b).toNat : ℕ) : ℝ) = m b := by exact_mod_cast hnat b
      push_cast
      rw [e1, e2, mul_assoc]
  have three : (∀ c, per c = true) → numDir per = 3 → volume3 (meshR off m s per) (m 1).toNat (m 2).toNat = .ok (1 / (6 * m 0 * m 1 * m 2 : ℝ)) →
      ∃ s1, Dos.set A.two A.three A.four p 0 s0 = .ok s1 ∧ TetraDos nb per m w num freq (Dos.totalRows s1) := by
    intro hall hD hv
    have hset : ∃ s1, Dos.set A.two A.three A.four p 0 s0 = .ok s1 := by
      unfold Dos.set
      rw [if_pos rfl, show Dos.indPbc p.periodicity = [0, 1, 2] from by show Dos.indPbc per = _; simp [Dos.indPbc, hall]]
      simp only [Dos.tetraUpdate]
      rw [show volume3 p.kPoints (p.auto 1) (p.auto 2) = _ from hv]
      exact ⟨_, rfl⟩
    obtain ⟨s1, h1⟩ := hset
    obtain ⟨vol, L, hv', hmem, hlen, hnod, hent⟩ := C43_dos_simplices_3d A.two A.three A.four p s0 s1 hall h1
    rw [show volume3 p.kPoints (p.auto 1) (p.auto 2) = _ from hv] at hv'
    cases hv'
    have hn2 : ∀ c, 2 ≤ (m c).toNat := fun c => by have := hm.two c (hall c); omega
    refine ⟨s1, h1, common branch3_exact h4 hD.symm s1 h1 _ L (hnod hn2) hmem ?_ ?_ hent (fun f w t => by rw [touched_iff h4]; simp)⟩
    · rw [hlen]; show ((6 * ((m 0).toNat * (m 1).toNat * (m 2).toNat) : ℕ) : ℤ) = _
      push_cast
      rw [Int.toNat_of_nonneg (hpos 0).le, Int.toNat_of_nonneg (hpos 1).le, Int.toNat_of_nonneg (hpos 2).le]; simp [Nat.factorial]
    · rw [hlen]; show _ = 1 / ((6 * ((m 0).toNat * (m 1).toNat * (m 2).toNat) : ℕ) : ℝ)
      have e : ∀ c, (((m c).toNat : ℕ) : ℝ) = m c := fun c => by exact_mod_cast hnat c
      push_cast
      rw [e, e, e]
      ring
  clear common nan1 nan2
  have hb := bools per
  have hi := ints m
  rcases hb0 : per 0 with _ | _ <;> rcases hb1 : per 1 with _ | _ <;> rcases hb2 : per 2 with _ | _
  · obtain ⟨c, hc⟩ := hper
    fin_cases c
    · exact absurd (hb0.symm.trans hc) (by decide)
    · exact absurd (hb1.symm.trans hc) (by decide)
    · exact absurd (hb2.symm.trans hc) (by decide)
  all_goals rw [hb0, hb1, hb2] at hb
  · have m0 := hm.single 0 hb0; have m1 := hm.single 1 hb1
    refine one 2 ⟨hb2, ?_⟩ (by rw [hb]; decide) (by rw [m0, m1]; ring) (hm.two 2 hb2) ?_
    · intro c hc; fin_cases c
      · exact ⟨hb0, by simp [m0]⟩
      · exact ⟨hb1, by simp [m1]⟩
      · exact absurd rfl hc
    · exact (C43_weight_1d_partial off (m 2) s (hm.two 2 hb2)).1 m per (.inr (.inr ⟨by rw [m0, m1] at hi; exact hi, hb⟩))
  · have m0 := hm.single 0 hb0; have m2 := hm.single 2 hb2
    refine one 1 ⟨hb1, ?_⟩ (by rw [hb]; decide) (by rw [m0, m2]; ring) (hm.two 1 hb1) ?_
    · intro c hc; fin_cases c
      · exact ⟨hb0, by simp [m0]⟩
      · exact absurd rfl hc
      · exact ⟨hb2, by simp [m2]⟩
    · exact (C43_weight_1d_partial off (m 1) s (hm.two 1 hb1)).1 m per (.inr (.inl ⟨by rw [m0, m2] at hi; exact hi, hb⟩))
  · have m0 := hm.single 0 hb0
    refine two 1 2 ⟨by decide, hb1, hb2, ?_⟩ (by rw [hb]; decide) (by rw [m0]; ring) (hm.two 1 hb1) (hm.two 2 hb2) ?_
    · intro c hc hc'; fin_cases c
      · exact ⟨hb0, by simp [m0]⟩
      · exact absurd rfl hc
      · exact absurd rfl hc'
    · exact (C43_weight_2d_partial off (m 1) (m 2) s (hm.two 1 hb1) (hm.two 2 hb2)).1 m per 1 2 (.inr (.inr ⟨by rw [m0] at hi; exact hi, hb, rfl, rfl⟩))
  · have m1 := hm.single 1 hb1; have m2 := hm.single 2 hb2
    refine one 0 ⟨hb0, ?_⟩ (by rw [hb]; decide) (by rw [m1, m2]; ring) (hm.two 0 hb0) ?_
    · intro c hc; fin_cases c
      · exact absurd rfl hc
      · exact ⟨hb1, by simp [m1]⟩
      · exact ⟨hb2, by simp [m2]⟩
    · exact (C43_weight_1d_partial off (m 0) s (hm.two 0 hb0)).1 m per (.inl ⟨by rw [m1, m2] at hi; exact hi, hb⟩)
  · have m1 := hm.single 1 hb1
    refine two 0 2 ⟨by decide, hb0, hb2, ?_⟩ (by rw [hb]; decide) (by rw [m1]; ring) (hm.two 0 hb0) (hm.two 2 hb2) ?_
    · intro c hc hc'; fin_cases c
      · exact absurd rfl hc
      · exact ⟨hb1, by simp [m1]⟩
      · exact absurd rfl hc'
    · exact (C43_weight_2d_partial off (m 0) (m 2) s (hm.two 0 hb0) (hm.two 2 hb2)).1 m per 0 2 (.inr (.inl ⟨by rw [m1] at hi; exact hi, hb, rfl, rfl⟩))
  · have m2 := hm.single 2 hb2
    refine two 0 1 ⟨by decide, hb0, hb1, ?_⟩ (by rw [hb]; decide) (by rw [m2]; ring) (hm.two 0 hb0) (hm.two 1 hb1) ?_
    · intro c hc hc'; fin_cases c
      · exact absurd rfl hc
      · exact absurd rfl hc'
      · exact ⟨hb2, by simp [m2]⟩
    · exact (C43_weight_2d_partial off (m 0) (m 1) s (hm.two 0 hb0) (hm.two 1 hb1)).1 m per 0 1 (.inl ⟨by rw [m2] at hi; exact hi, hb, rfl, rfl⟩)
  · have hall : ∀ c, per c = true := by intro c; fin_cases c; exacts [hb0, hb1, hb2]
    refine three hall (by rw [hb]; decide) ?_
    have h := (C43_weight_3d_partial off (m 0) (m 1) s (hm.two 0 hb0) (hm.two 1 hb1)).1
    have e := hm.equal hall
    rw [← e] at hi ⊢
    rw [hi, hb]
    exact h

/-- A mesh file yields its mesh. -/
theorem meshFile_ok {lines : List Str} {per : Fin 3 → Bool} {off : ℚ} {m : Fin 3 → ℤ} {s : Fin 3 → ℚ} {ks : List (V3 ℚ)} (h : IsMeshFile lines per off m s ks) :
    KPoints.setKPoints lines per = .ok (ks, [m 0, m 1, m 2]) ∧ ks ≠ [] ∧ ks = meshSpec off m s per := by
  obtain ⟨ch, hl, hc, hm⟩ := h
  have h1 := (C125_accepted_iff lines per ks [m 0, m 1, m 2]).2 ⟨ch, hl, by
    rcases hc with ⟨hc, rfl⟩ | ⟨hc, rfl⟩
    · exact .inl ⟨hc, m, s, hm⟩
    · exact .inr (.inl ⟨hc, m, s, hm⟩)⟩
  exact ⟨h1.1, h1.2, hm.points⟩

/-- The density of states with the tetrahedron method, from the phonons. -/
theorem tetra_core {S : Solver} (hU : Normalised S) (A : Argsorts) (h2 : Sorts A.two) (h3 : Sorts A.three) (h4 : Sorts A.four) {j : Junk} {cwd : Str} {rec : PreRecord} {force : List Str}
    {search : Run (List (ℕ × List (V3 ℚ)))} {fs2 : Fs}
    {n p : Fin 3 → ℤ} {u : Cell ℚ} {sel : List ℕ} {Φ : Springs} (hsel : sel ≠ []) (hsymm : SymmetricSprings Φ) (hmain : ExactPhonons S j cwd rec force search fs2 n p u sel Φ)
    {glob : Str → List Str} {args : List Str} (hforce : forceFiles glob args = .ok force) (hper : ∃ c, p c ≠ 0)
    (kdos t : Str) {off : ℚ} {m : Fin 3 → ℤ} {s : Fin 3 → ℚ} {ks : List (V3 ℚ)} (hkf : fs2 (absPath cwd kdos) = some t)
    (hfile : IsMeshFile (readlines t) (fun c => decide (p c ≠ 0)) off m s ks) (hmesh : GoodMesh (fun c => decide (p c ≠ 0)) m) (hfit : ∀ k ∈ ks, Fits n p (toReal k)) :
          ∃ (mass : ℕ → ℝ) (rows : List (List ℝ)), IsMasses u sel mass ∧ rows.length = ks.length ∧
            (∀ (i : ℕ) (k : V3 ℚ), ks[i]? = some k → ∃ row q, rows[i]? = some row ∧ (∀ c, dot3 q ((toR u).lattice c) = 2 * Real.pi * (k c : ℝ)) ∧
              IsSpectrum (trueDyn (toR u) sel mass Φ q (3 * sel.length)) row) ∧
            ∀ (num : ℕ) (temp : Option (List ℤ)), 0 < num → ∃ dos th,
              dosMain S A j cwd {} rec glob args kdos 0 num temp search fs2 = .ok (dos, th) ∧
              ∃ lo ∈ rows.flatten, ∃ hi ∈ rows.flatten, (∀ w ∈ rows.flatten, lo ≤ w ∧ w ≤ hi) ∧
                TetraDos (3 * sel.length) (fun c => decide (p c ≠ 0)) m (fun k b => (rows.getD k []).getD b 0) num
                  (fun i => lo - 2 + i * ((hi - lo + 4) / num)) (Dos.totalRows dos) := by
  obtain ⟨hk, hk0, hspec⟩ := meshFile_ok hfile
  obtain ⟨P, mass, hpost, hmass, -, hrest⟩ := hmain
  obtain ⟨o2, o3, hph, ho3, hk2, hk3, hauto, hp3, hdof2, hdof3, hwl, hrows⟩ := hrest (absPath cwd kdos) t ks _ hkf hk hk0
  have hst : o3 = { frequencies S o2 with gammaFile := (eval S o2).1.gammaFile } := by rw [ho3]; exact eval_state S o2
  have hlen2 : o2.kPoints.length ≠ 0 := by rw [hk2]; simpa using hk0
  have hwq : o3.wq = ks.map fun k => List.ofFn (atK S o2 k).1 := by
    rw [hst, ← hk2]
    simp only [frequencies, if_pos hlen2]
  have hvq : o3.vq = ks.map fun k => List.ofFn fun m => List.ofFn ((atK S o2 k).2 m) := by
    rw [hst, ← hk2]
    simp only [frequencies, if_pos hlen2]
  have hrl : ∀ row ∈ o3.wq, row.length = 3 * sel.length := by
    intro row hr
    rw [hwq] at hr
    obtain ⟨k, -, rfl⟩ := List.mem_map.1 hr
    rw [List.length_ofFn, hdof2]
  refine ⟨mass, o3.wq, hmass, hwl, ?_, ?_⟩
  · intro i k hi
    obtain ⟨row, q, h1, h2, h3, -⟩ := hrows i k hi (hfit k (List.mem_of_getElem? hi))
    exact ⟨row, q, h1, h2, h3⟩
  intro num temp hnum
  have hkpos : 0 < ks.length := List.length_pos_of_ne_nil hk0
  have hspos : 0 < sel.length := List.length_pos_of_ne_nil hsel
  have hkp : (dosProc o3).kPoints.length = ks.length := by
    show (o3.kPoints.map toReal).length = _
    rw [List.length_map, hk3]
  have hnb : (dosProc o3).nb = 3 * sel.length := hdof3
  have hnd : (dosProc o3).nd = 3 * sel.length := hdof3
  have hnk : (dosProc o3).nk = ks.length := hwl
  have hpp : (dosProc o3).periodicity = fun c => decide (p c ≠ 0) := by
    show (fun c => decide (o3.p c ≠ 0)) = _
    rw [hp3]
  obtain ⟨s0, hs0⟩ := (C46_succeeds_iff (dosProc o3) num).2 ⟨by rw [hnk]; exact hkpos, by rw [hnb]; omega⟩
  obtain ⟨lo, hi, ⟨k1, hk1, b1, hb1, e1⟩, ⟨k2', hk2', b2, hb2, e2⟩, hbound, hflen, hfreq, -, -, hshape, -⟩ := C46_grid _ num hnum s0 hs0
  have hmem : ∀ w, w ∈ o3.wq.flatten ↔ ∃ k < ks.length, ∃ b < 3 * sel.length, (dosProc o3).w k b = w := by
    intro w
    rw [List.mem_flatten]
    constructor
    · rintro ⟨row, hr, hw⟩
      obtain ⟨k, hk, rfl⟩ := List.getElem_of_mem hr
      obtain ⟨b, hb, rfl⟩ := List.getElem_of_mem hw
      refine ⟨k, by rw [← hwl]; exact hk, b, by rw [← hrl _ hr]; exact hb, ?_⟩
      show (o3.wq.getD k []).getD b 0 = _
      rw [List.getD_eq_getElem _ _ hk, List.getD_eq_getElem _ _ hb]
    · rintro ⟨k, hk, b, hb, rfl⟩
      rw [← hwl] at hk
      refine ⟨o3.wq[k], List.getElem_mem _, ?_⟩
      show (o3.wq.getD k []).getD b 0 ∈ _
      rw [List.getD_eq_getElem _ _ hk, List.getD_eq_getElem _ _ (by rw [hrl _ (List.getElem_mem _)]; exact hb)]
      exact List.getElem_mem _
  have hnorm : ∀ k < ks.length, ∀ b < 3 * sel.length, ∑ d ∈ Finset.range (3 * sel.length), (dosProc o3).F k b d = 1 := by
    intro k hk b hb
    have hki : ks[k]? = some ks[k] := List.getElem?_eq_getElem hk
    obtain ⟨row, q, -, -, -, hm⟩ := hrows k ks[k] hki (hfit _ (List.getElem_mem _))
    have := stored_norm hU o2 ks[k] (3 * sel.length) hdof2 _ (trueDyn_hermitian (toR u) sel mass hsymm q _) hm b hb
    rw [← this]
    refine Finset.sum_congr rfl fun d _ => ?_
    show ‖((o3.vq.getD k []).getD b []).getD d 0‖ ^ 2 = _
    have e1 : o3.vq.getD k [] = List.ofFn fun m => List.ofFn ((atK S o2 ks[k]).2 m) := by
      rw [hvq, List.getD_eq_getElem _ _ (by rw [List.length_map]; exact hk), List.getElem_map]
    rw [e1]
  obtain ⟨s1, hs1, htet⟩ := tetra_dos A h2 h3 h4 (dosProc o3) off m s (by rw [hpp]; exact hmesh)
    (by
      rw [hpp]
      show o3.kPoints.map toReal = _
      rw [hk3, hspec]
      rfl)
    (by
      funext c
      show (o3.auto.getD c 0).toNat = _
      rw [hauto]
      fin_cases c <;> rfl)
    (by rw [hnk, hkp]) (by rw [hpp]; obtain ⟨c, hc⟩ := hper; exact ⟨c, by simpa using hc⟩) (by rw [hnd]; omega)
    (by rw [hnk, hnb, hnd]; exact hnorm) num hnum s0 hs0 _ hfreq
  rw [hpp, hnb] at htet
  refine ⟨s1, temp.map fun t => thermalOf t o3, ?_, lo, ?_, hi, ?_, ?_, htet⟩
  · unfold dosMain dosPart dosOf
    rw [hforce]
    simp only [run_ok]
    rw [hpost]
    simp only [run_ok]
    rw [hph]
    simp only [run_ok]
    rw [hs0]
    simp only [run_ok]
    rw [if_neg (fun hc => hc.2.2 (by rw [hauto]; rfl))]
    simp only [raising, run_ok]
    rw [hs1]
    rfl
  · exact (hmem lo).2 ⟨k1, by rwa [hnk] at hk1, b1, by rwa [hnb] at hb1, e1⟩
  · exact (hmem hi).2 ⟨k2', by rwa [hnk] at hk2', b2, by rwa [hnb] at hb2, e2⟩
  · intro w hw
    obtain ⟨k, hk, b, hb, rfl⟩ := (hmem w).1 hw
    exact hbound k (by rw [hnk]; exact hk) b (by rw [hnb]; exact hb)

/-- **C134.**  From the command line to the density of states by the tetrahedron method.  The pre-process runs; after the calculations with the forces of an infinite
harmonic crystal with symmetric springs, the post-process with `-dos` and without smearing runs, for every mesh file whose wave vectors fit into the super cell (at least two
divisions along periodic directions, one along the others; with three periodic directions as many along the second as along the third).  With `rows` the exact frequencies of the
infinite crystal at the mesh points: the DOS file has `num` rows, equally spaced from 2 THz below the lowest to 2 THz above the highest frequency; the
numbers in them are the values of *the* right-continuous density of the linear interpolation of these frequencies over the simplices of the mesh (all segments, triangles or tetrahedra,
each once, each with the same weight, simplices with equal corner frequencies left out), except that in three dimensions a row is `nan` where two
corners of some tetrahedron have exactly this frequency and the other two a higher one. -/
theorem C134_tetrahedron {cwd : Str} {o : PreOpts} {code : Code} {a : PreArg} {e p : List ℤ} {d : ℚ} {u : Cell ℚ} {sel : List ℕ} {x : ℕ → FileArgs}
    {junk : ℕ → List (V3 ℚ)} {fs : Fs} (h : PreRun cwd o code a e p d u sel x junk fs) (hd : d ≠ 0) (hdet : u.lattice.det ≠ 0)
    (hxyz : u.xyzTrue = some (sel.flatMap fun a => [a, a, a])) (hdec : DecCell u) (hd16 : Dec16 d) (hsel : sel ≠ [])
    (Φ : Springs) (hΦ : ∀ a x b y l, l ∈ (Φ a x b y).support → ∀ i : Fin 3, p.getD i 0 = 0 → l i = 0) (hsymm : SymmetricSprings Φ) (F0 : Rows ℝ)
    (search : Run (List (ℕ × List (V3 ℚ)))) (group : Run Str) {S : Solver} (hS : IsSolver S) (hU : Normalised S)
    (A : Argsorts) (h2 : Sorts A.two) (h3 : Sorts A.three) (h4 : Sorts A.four) (j : Junk) (hper : ∃ c : Fin 3, p.getD c 0 ≠ 0) :
    ∃ fs1 rec, preMain cwd o x junk search group fs = .ok (fs1, rec) ∧
      ∀ (fs2 : Fs) (glob : Str → List Str) (args force : List Str), forceFiles glob args = .ok force →
        Calculated code cwd o.unitcell fs1 fs2 (superSprings (fun i => e.getD i 0) (e.getD 0 0 * e.getD 1 0 * e.getD 2 0).toNat Φ) F0 (6 * sel.length) force →
        ∀ (kdos t : Str) (off : ℚ) (m : Fin 3 → ℤ) (s : Fin 3 → ℚ) (ks : List (V3 ℚ)), fs2 (absPath cwd kdos) = some t →
          IsMeshFile (readlines t) (fun c => decide (p.getD c 0 ≠ 0)) off m s ks → GoodMesh (fun c => decide (p.getD c 0 ≠ 0)) m →
          (∀ k ∈ ks, Fits (fun i => e.getD i 0) (fun i => p.getD i 0) (toReal k)) →
          ∃ (mass : ℕ → ℝ) (rows : List (List ℝ)), IsMasses u sel mass ∧ rows.length = ks.length ∧
            (∀ (i : ℕ) (k : V3 ℚ), ks[i]? = some k → ∃ row q, rows[i]? = some row ∧ (∀ c, dot3 q ((toR u).lattice c) = 2 * Real.pi * (k c : ℝ)) ∧
              IsSpectrum (trueDyn (toR u) sel mass Φ q (3 * sel.length)) row) ∧
            ∀ (num : ℕ) (temp : Option (List ℤ)), 0 < num → ∃ dos th,
              dosMain S A j cwd {} rec glob args kdos 0 num temp search fs2 = .ok (dos, th) ∧
              ∃ lo ∈ rows.flatten, ∃ hi ∈ rows.flatten, (∀ w ∈ rows.flatten, lo ≤ w ∧ w ≤ hi) ∧
                TetraDos (3 * sel.length) (fun c => decide (p.getD c 0 ≠ 0)) m (fun k b => (rows.getD k []).getD b 0) num
                  (fun i => lo - 2 + i * ((hi - lo + 4) / num)) (Dos.totalRows dos) := by
  obtain ⟨fs1, rec, hpre, hmain⟩ := post_ok h hd hdet hxyz hdec hd16 Φ hΦ F0 search group hS j
  refine ⟨fs1, rec, hpre, ?_⟩
  intro fs2 glob args force hforce hcalc kdos t off m s ks hkf hfile hmesh hfit
  exact tetra_core hU A h2 h3 h4 hsel hsymm (hmain fs2 force hcalc) hforce hper kdos t hkf hfile hmesh hfit

/-- **C134** (all states).  If no simplex is flat, the density integrates to the number of modes per wave vector, the number of degrees of freedom. -/
theorem C134_all_states {nb : ℕ} {per : Fin 3 → Bool} {m : Fin 3 → ℤ} {w : ℕ → ℕ → ℝ} {num : ℕ} {freq : ℕ → ℝ} {total : List (ℝ × Option ℝ)}
    (h : TetraDos nb per m w num freq total) (hm : ∀ c, 0 < m c)
    (hflat : ∀ b < nb, ∀ t : Fin (numDir per + 1) → ℕ, IsSimplex (fun c => (m c).toNat) per t → NotFlat fun i => w (t i) b) :
    ∃ g : ℝ → ℝ, MeasureTheory.Integrable g ∧ ∫ f, g f = nb ∧
      ∀ r ∈ total, r.2 = some (g r.1) ∨ numDir per = 3 ∧ r.2 = none := by
  obtain ⟨S, g, hS, hcard, hg, rfl⟩ := h
  refine ⟨g, hg.integrable, ?_, ?_⟩
  · have h1 := hg.integral Set.univ MeasurableSet.univ
    rw [MeasureTheory.setIntegral_univ] at h1
    rw [h1]
    have hv : ∀ n : ℕ, MeasureTheory.volume.real (unitSimplex n) ≠ 0 := fun n => by
      rw [volume_real_unitSimplex]
      have : ((n.factorial : ℝ)) ≠ 0 := by exact_mod_cast n.factorial_ne_zero
      positivity
    have hone : ∀ b ∈ Finset.range nb, ∀ t ∈ S, portion (fun i => w (t i) b) Set.univ = 1 := by
      intro b hb t ht
      unfold portion
      rw [if_pos (hflat b (Finset.mem_range.1 hb) t ((hS t).1 ht))]
      unfold share
      rw [Set.preimage_univ, Set.inter_univ, div_self (hv _)]
    have hpos : (0 : ℝ) < S.card := by
      have : (0 : ℤ) < S.card := by
        rw [hcard]
        have := hm 0; have := hm 1; have := hm 2
        have := (numDir per).factorial_pos
        positivity
      exact_mod_cast this
    rw [Finset.sum_congr rfl fun b hb => Finset.sum_congr rfl (hone b hb)]
    simp only [Finset.sum_const, Finset.card_range, smul_eq_mul, nsmul_eq_mul, mul_one]
    field_simp
  · intro r hr
    obtain ⟨i, -, rfl⟩ := List.mem_map.1 hr
    simp only
    split_ifs with hc
    · exact .inr ⟨hc.1, rfl⟩
    · exact .inl rfl

/-! ### The hypotheses are met -/

theorem chain_dyn_gamma {mass : ℕ → ℝ} {m : ℝ} (hm : 0 < m) (hmass : ∀ d < 3, mass d = m) {q : V3 ℝ}
    (hq : ∀ c, dot3 q ((toR chainUnit).lattice c) = 2 * Real.pi * (((![0, 0, 0] : V3 ℚ) c : ℚ) : ℝ)) :
    trueDyn (toR chainUnit) [0] mass stiffSprings q 3 = Matrix.diagonal fun _ => (((0 : ℝ)) : ℂ) := by
  have hq0 : q 0 = 0 := by
    have := hq 0
    simpa [dot3, toR, chainUnit] using this
  ext r c
  have hr3 : (r : ℕ) / 3 = 0 := by have := r.2; omega
  have hc3 : (c : ℕ) / 3 = 0 := by have := c.2; omega
  simp only [trueDyn, Matrix.of_apply, hr3, hc3, hmass r r.2, hmass c c.2, Real.sqrt_mul_self hm.le]
  by_cases hrc : r = c
  · subst hrc
    rw [Matrix.diagonal_apply_eq]
    unfold stiffSprings
    rw [if_pos rfl, Finsupp.sum_add_index' (by simp) (by intros; push_cast; ring), Finsupp.sum_add_index' (by simp) (by intros; push_cast; ring),
      Finsupp.sum_single_index (by simp), Finsupp.sum_single_index (by simp), Finsupp.sum_single_index (by simp)]
    have e0 : ∀ l : Fin 3 → ℤ, l 1 = 0 → l 2 = 0 →
        dot3 q ((toR chainUnit).cart.getD (([0] : List ℕ).getD 0 0) 0 + latVec (toR chainUnit).lattice l - (toR chainUnit).cart.getD (([0] : List ℕ).getD 0 0) 0) = 0 := by
      intro l h1 h2
      simp [latVec, dot3, Fin.sum_univ_three, toR, chainUnit, hq0, h1, h2]
    rw [e0 _ rfl rfl, e0 _ rfl rfl, e0 _ rfl rfl]
    push_cast
    rw [mul_zero, Complex.exp_zero]
    ring
  · rw [Matrix.diagonal_apply_ne _ hrc]
    have : comp (r : ℕ) ≠ comp (c : ℕ) := by
      revert hrc; revert r c; decide
    unfold stiffSprings
    rw [if_neg this]
    simp

private theorem chain_mesh_file : IsMeshFile (readlines chainMesh) (fun c => decide (([1, 0, 0] : List ℤ).getD c 0 ≠ 0)) 0 ![2, 1, 1] 0 [![0, 0, 0], ![1 / 2, 0, 0]] := by
  refine ⟨'G', ⟨"Gamma\n".toList, "Gamma".toList, [], "amma".toList, by decide +kernel, by decide +kernel, by decide +kernel⟩, .inl ⟨by simp, rfl⟩,
    ⟨⟨⟨"2 1 1\n".toList, by decide +kernel, ?_⟩, .inl ⟨by decide +kernel, rfl⟩⟩, ?_, ?_, ?_, rfl⟩⟩
  · intro c
    fin_cases c
    · exact ⟨"2".toList, by decide +kernel, by decide +kernel⟩
    · exact ⟨"1".toList, by decide +kernel, by decide +kernel⟩
    · exact ⟨"1".toList, by decide +kernel, by decide +kernel⟩
  · intro c; fin_cases c <;> decide
  · intro c; fin_cases c <;> decide
  · have e : ∀ i : ℕ, meshPoint 0 ![2, 1, 1] 0 (fun c => decide (([1, 0, 0] : List ℤ).getD c 0 ≠ 0)) ![i, 0, 0] = ![(i : ℚ) / 2, 0, 0] := by
      intro i
      funext c
      fin_cases c <;> simp [meshPoint]
    show _ = (List.range 2).flatMap fun i => (List.range 1).flatMap fun j => (List.range 1).map fun k => _
    have r2 : List.range 2 = [0, 1] := rfl
    have r1 : List.range 1 = [0] := rfl
    simp only [r2, r1, List.flatMap_cons, List.flatMap_nil, List.map_cons, List.map_nil, List.append_nil, List.cons_append, List.nil_append]
    rw [e 0, e 1]
    simp

/-- All hypotheses of `C134_tetrahedron` are met by the chain with a mesh of two wave vectors: the frequencies are 0 and `w > 0`, no segment is flat,
the DOS file has 5 rows starting at -2 with the values of a density which integrates to 3. -/
theorem chain_tetra (search : Run (List (ℕ × List (V3 ℚ)))) (group : Run Str) (A : Argsorts) (h2 : Sorts A.two) (h3 : Sorts A.three) (h4 : Sorts A.four) (j : Junk) :
    ∃ (S : Solver) (fs1 : Fs) (rec : PreRecord) (w : ℝ) (dos : Dos.State) (th : Option Thermal.State) (g : ℝ → ℝ), IsSolver S ∧ 0 < w ∧
      preMain "/w".toList chainOpts (fun _ => chainArgs) (fun m => List.replicate m 0) search group chainFs = .ok (fs1, rec) ∧
      dosMain S A j "/w".toList {} rec (fun _ => []) chainForce "KMESH".toList 0 5 none search (chainFs2 fs1) = .ok (dos, th) ∧
      Dos.totalRows dos = (List.range 5).map (fun i : ℕ => (-2 + i * ((w + 4) / 5), some (g (-2 + i * ((w + 4) / 5))))) ∧ ∫ f, g f = 3 := by
  obtain ⟨S, hS, hU⟩ := normalised_solver_exists
  obtain ⟨fs1, rec, h1, hrest⟩ := C134_tetrahedron chain_preRun (by norm_num) chain_det rfl chain_dec ⟨2 * 10 ^ 14, by norm_num⟩ (by simp) stiffSprings stiff_range stiff_symmetric
    (fun _ _ => 0) search group hS hU A h2 h3 h4 j ⟨0, by simp⟩
  obtain ⟨mass, rows, hmass, hlen, hrows, hdos⟩ := hrest (chainFs2 fs1) (fun _ => []) chainForce chainForce rfl (chain_calculated search group h1) "KMESH".toList chainMesh
    0 ![2, 1, 1] 0 [![0, 0, 0], ![1 / 2, 0, 0]] (by
      have e1 : (List.range 6).find? (fun k => decide (absPath "/w".toList "KMESH".toList = chainDir k ++ "/POSCAR".toList)) = none := by decide +kernel
      have e2 : (List.range 6).find? (fun k => decide (absPath "/w".toList "KMESH".toList = chainDir k ++ "/vasprun.xml".toList)) = none := by decide +kernel
      simp only [chainFs2, e1, e2]
      rfl) chain_mesh_file ⟨by intro c; fin_cases c <;> decide, by intro c; fin_cases c <;> decide, fun h => absurd (h 1) (by decide)⟩ (by
      intro k hk i hi
      fin_cases i
      · rcases List.mem_cons.1 hk with rfl | hk
        · exact ⟨0, by simp [toReal]⟩
        · obtain rfl := List.mem_singleton.1 hk
          exact ⟨1, by simp [toReal]⟩
      · simp at hi
      · simp at hi)
  obtain ⟨m, hm, hmm⟩ := chain_masses hmass
  obtain ⟨row, q, r1, r2, r3⟩ := hrows 0 _ rfl
  obtain ⟨row', q', r1', r2', r3'⟩ := hrows 1 _ rfl
  have r3 : IsSpectrum (trueDyn (toR chainUnit) [0] mass stiffSprings q 3) row := r3
  have r3' : IsSpectrum (trueDyn (toR chainUnit) [0] mass stiffSprings q' 3) row' := r3'
  rw [chain_dyn_gamma hm hmm r2] at r3
  rw [chain_dyn hm hmm r2'] at r3'
  have hrow := spectrum_diagonal r3
  have hrow' := spectrum_diagonal r3'
  set w : ℝ := freqOf ((((4 * (1602 / 100)) / m : ℝ) : ℂ)) with hw
  have h0 : freqOf ((0 : ℝ) : ℂ) = 0 := (C30_sign 0).2.2 rfl
  have hwpos : 0 < w := by
    have := C30_order_preserving (show (0 : ℝ) < (4 * (1602 / 100)) / m by positivity)
    simp only at this
    rwa [h0] at this
  rw [h0] at hrow
  clear_value w
  have hrr : rows = [[0, 0, 0], [w, w, w]] := by
    rcases rows with _ | ⟨x, _ | ⟨y, _ | ⟨z, zs⟩⟩⟩
    · simp at hlen
    · simp at hlen
    · simp only [List.getElem?_cons_zero, List.getElem?_cons_succ, Option.some.injEq] at r1 r1'
      rw [r1, r1', hrow, hrow']
      rfl
    · simp at hlen
  obtain ⟨dos, th, d1, lo, hlo, hi, hhi, hb, d2⟩ := hdos 5 none (by norm_num)
  subst hrr
  have elo : lo = 0 := by
    have := (hb 0 (by simp)).1
    have h' : lo = 0 ∨ lo = w := by simpa using hlo
    rcases h' with h' | h'
    · exact h'
    · linarith
  have ehi : hi = w := by
    have := (hb w (by simp)).2
    have h' : hi = 0 ∨ hi = w := by simpa using hhi
    rcases h' with h' | h'
    · linarith
    · exact h'
  subst elo ehi
  have hnum : numDir (fun c => decide (([1, 0, 0] : List ℤ).getD c 0 ≠ 0)) = 1 := by decide
  have hflat : ∀ b < 3 * ([0] : List ℕ).length, ∀ t : Fin (numDir (fun c => decide (([1, 0, 0] : List ℤ).getD c 0 ≠ 0)) + 1) → ℕ,
      IsSimplex (fun c => ((![2, 1, 1] : Fin 3 → ℤ) c).toNat) (fun c => decide (([1, 0, 0] : List ℤ).getD c 0 ≠ 0)) t →
      NotFlat fun i => ((([[0, 0, 0], [hi, hi, hi]] : List (List ℝ)).getD (t i) []).getD b 0) := by
    generalize numDir (fun c => decide (([1, 0, 0] : List ℤ).getD c 0 ≠ 0)) = D at hnum
    subst hnum
    rintro b hb' t ⟨cell, hcell, o, ⟨ho, hstep⟩, e⟩
    obtain ⟨c, hc, -, hs⟩ := hstep 0
    have hc0 : c = 0 := by
      fin_cases c
      · rfl
      · exact absurd hc (by decide)
      · exact absurd hc (by decide)
    subst hc0
    have c0 := hcell 0; have c1 := hcell 1; have c2 := hcell 2
    have hc1 : cell 1 = 0 := by simpa using c1
    have hc2 : cell 2 = 0 := by simpa using c2
    have e0 : t 0 = cell 0 := by
      rw [e 0, ho]
      simp [meshIndex, Nat.mod_one]
      have c0' : cell 0 < 2 := c0
      omega
    have e1 : t 1 = (cell 0 + 1) % 2 := by
      rw [e 1, show o 1 = _ from hs, show o (Fin.castSucc 0) = 0 from ho]
      simp [meshIndex, Nat.mod_one]
    have hv : ∀ k b, k < 2 → b < 3 → ((([[0, 0, 0], [hi, hi, hi]] : List (List ℝ)).getD k []).getD b 0) = if k = 0 then 0 else hi := by
      intro k b hk hb
      interval_cases k <;> interval_cases b <;> rfl
    have hb3 : b < 3 := hb'
    refine ⟨0, 1, ?_⟩
    have c0' : cell 0 < 2 := c0
    simp only
    rw [hv _ _ (by rw [e0]; exact c0') hb3, hv _ _ (by rw [e1]; omega) hb3, e0, e1]
    rcases (show cell 0 = 0 ∨ cell 0 = 1 by omega) with h | h <;> rw [h] <;> simp [hwpos.ne, hwpos.ne']
  obtain ⟨g, -, hg, hall⟩ := C134_all_states d2 (by intro c; fin_cases c <;> decide) hflat
  refine ⟨S, fs1, rec, hi, dos, th, g, hS, hwpos, h1, d1, ?_, by rw [hg]; simp⟩
  obtain ⟨_, _, _, _, _, htot⟩ := d2
  rw [htot] at hall ⊢
  refine List.map_congr_left fun i hi' => ?_
  have := hall _ (List.mem_map_of_mem hi')
  rcases this with h | ⟨h, -⟩
  · refine Prod.ext ?_ (h.trans ?_)
    · simp
    · simp
  · exact absurd (hnum.symm.trans h) (by decide)

end

end Interphon.Props
