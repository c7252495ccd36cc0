import Verif.Props.Stable
import Verif.Props.ProgramDosExample
import Verif.Props.SymSame

/-! # C128: examples -/

namespace Interphon.Props
open Py Interphon Interphon.SuperCell Interphon.ForceConstant Interphon.PreProcess Interphon.Phonon Interphon.PostProcess
noncomputable section

theorem chain_call : GoodCall (fun m => List.replicate m 0) chainCell ![2, 1, 1] ![1, 0, 0] := ⟨by simp, rfl, by decide, by decide⟩

theorem chain_cell_det : chainCell.lattice.det ≠ 0 := by simp [chainCell]

theorem chain_super : ∃ s s', setSuperCell (fun m => List.replicate m 0) chainCell ![2, 1, 1] ![1, 0, 0] = .ok s ∧
    setSuperIndTrue s chainCell ![2, 1, 1] ![1, 0, 0] = .ok s' := by
  obtain ⟨s, hs, -⟩ := C06_supercell_positions chain_call
  exact ⟨s, _, hs, rfl⟩

theorem chain_range : ∀ a x b y l, l ∈ (stiffSprings a x b y).support → ∀ i, (![1, 0, 0] : Fin 3 → ℤ) i = 0 → l i = 0 := by
  intro a x b y l hl i hi
  refine stiff_range a x b y l hl i ?_
  fin_cases i <;> simp at hi ⊢

/-- The hypotheses of `C128_errors` are met by a chain of atoms, displaced by 0.01, with errors of 1 in every component of every force: the force constants are
within `10¹²` and three frequencies are stored. -/
example : ∃ (S : Solver) (s' : Cell ℝ) (files : Files ℝ) (forces : List (Rows ℝ)),
    forces = (files.map fun f a c => harmonicForces (superSprings ![2, 1, 1] 2 stiffSprings) (fun _ _ => 0) s' f.2 a c + 1) ∧ forces ≠ [] ∧
    (phononsOf S chainCell s' ![2, 1, 1] ![1, 0, 0] (1 / 100) (fun _ => 2) 0 0 0 (fun _ _ _ => 0) false goodK forces).2 = none ∧
    |(phononsOf S chainCell s' ![2, 1, 1] ![1, 0, 0] (1 / 100) (fun _ => 2) 0 0 0 (fun _ _ _ => 0) false goodK forces).1.fc 0 0 -
      superSprings ![2, 1, 1] 2 stiffSprings 0 0 0 0| ≤ 10 ^ 12 := by
  obtain ⟨S, hS⟩ := solver_exists
  obtain ⟨s, s', hs, hs'⟩ := chain_super
  obtain ⟨k, auto, hk⟩ := goodK_points (fun c => decide ((![1, 0, 0] : Fin 3 → ℤ) c ≠ 0))
  obtain ⟨s'', files, hw, hres⟩ := C128_errors chain_call chain_cell_det [0] rfl (by simp [chainCell]) rfl hs hs' stiffSprings chain_range stiff_symmetric (1 / 100) (by norm_num)
    (fun _ _ => 0) (.ok []) (fun _ => 2) (by norm_num) hS 0 0 0 (fun _ _ _ => 0) goodK [k] auto hk (by simp) (η := 1) zero_le_one
  have hE : ((![2, 1, 1] : Fin 3 → ℤ) 0 * (![2, 1, 1] : Fin 3 → ℤ) 1 * (![2, 1, 1] : Fin 3 → ℤ) 2).toNat = 2 := rfl
  rw [hE] at hw hres
  refine ⟨S, s', files, _, rfl, ?_, ?_⟩
  · have hlen := (C15_displaced_files s' [0] 2 (1 / 100 : ℝ) ![1, 0, 0] false (.ok []) (Or.inl rfl) (by
      obtain ⟨s0, hs0, hlen, -⟩ := C06_supercell_positions chain_call
      rw [hs] at hs0; cases hs0
      unfold setSuperIndTrue at hs'
      cases hs'
      intro t ht
      have : t = 0 := by simpa using ht
      subst this
      show _ < s.cart.length
      rw [hlen]
      decide))
    obtain ⟨s3, files3, hw3, hl3, -⟩ := hlen
    rw [hw] at hw3
    cases hw3
    intro h0
    have := congrArg List.length h0
    rw [List.length_map, hl3] at this
    simp at this
  · obtain ⟨h1, -, -, h4, -⟩ := hres (files.map fun f a c => harmonicForces (superSprings ![2, 1, 1] 2 stiffSprings) (fun _ _ => 0) s' f.2 a c + 1) ⟨by simp, by
      intro i f g hf hg a c
      rw [List.getElem?_map] at hf hg
      cases hi : files[i]? with
      | none => rw [hi] at hf; cases hf
      | some x =>
        rw [hi] at hf hg
        cases hf
        cases hg
        show |_ + (1 : ℝ) - _| ≤ _
        rw [add_sub_cancel_left, abs_one]⟩
    refine ⟨h1, (h4 0 0 0 0 0 rfl).trans ?_⟩
    norm_num

/-- `C128_continuous` applies to the symmetric calculation of the rectangular crystal (and to the plain one): its force constants can be computed. -/
example : ∃ (s : Cell ℝ) (forces : List (Rows ℝ)) (fc : FC ℝ), IsSuperOf rectCell s [0, 1] ![2, 1, 1] ![1, 1, 0] ∧ fc (3 * superRow s 0) 0 ≠ 0 ∧
    forceConstant (fun _ _ _ => 0) true forces (PostProcess.new rectCell s ![2, 1, 1] ![1, 1, 0] 1 (fun _ => 1) (reciprocal rectCell.lattice) 0) = .ok fc := by
  obtain ⟨s, hs⟩ := rect_super
  obtain ⟨req, der, s', files, fc, h1, h2, h3, h4⟩ := C86_symmorphic_partial (rect_crystal hs) (rect_symmetric hs (Φ := fun r x r' y => if x = y then (if r = r' then 3 else -1) else 0)
    fun t _ t' _ x y => rfl) (fun _ _ => 0) (d := 1) one_ne_zero (fun _ _ _ => 0) 0
  have hN : superN s = 4 := by
    obtain ⟨-, -, ⟨at', hat, hatl, -⟩, -⟩ := super_selected hs
    rw [superN, hat]
    exact hatl
  refine ⟨s, files.map fun f => harmonicForces (fun r x r' y => if x = y then if r = r' then 3 else -1 else 0) (fun x x_1 => 0) s f.2, fc, hs, ?_, ?_⟩
  · have := h4 0 (by simp) 0 (by omega) 0 0
    simp only [Fin.val_zero, Nat.mul_zero, Nat.add_zero] at this
    rw [this, if_pos trivial]
    split_ifs <;> norm_num
  · unfold forceConstant
    rw [if_pos ⟨rfl, by show PreProcess.numPbc ![1, 1, 0] = 2; decide⟩]
    have e : SymPlan.symPlan (PostProcess.new rectCell s ![2, 1, 1] ![1, 1, 0] 1 (fun _ => 1) (reciprocal rectCell.lattice) 0).unit
      (PostProcess.new rectCell s ![2, 1, 1] ![1, 1, 0] 1 (fun _ => 1) (reciprocal rectCell.lattice) 0).super
      (PostProcess.new rectCell s ![2, 1, 1] ![1, 1, 0] 1 (fun _ => 1) (reciprocal rectCell.lattice) 0).p = some (.ok (req, der)) := h1
    rw [e]
    exact h3

end
end Interphon.Props
