import Verif.Props.SymFixed
import Verif.Props.SymSame
import Verif.Props.Stable

/-!
# Phonons with fixed atoms and the symmetry option: C126 refuted
-/

namespace Interphon.Props
open Py Interphon Interphon.Symmetry Interphon.SymDisp Interphon.SymPlan Interphon.SuperCell Interphon.ForceConstant Interphon.PreProcess
  Interphon.Phonon Interphon.PostProcess
noncomputable section

private theorem goodK_gamma : ∃ a, KPoints.setKPoints goodK (fun c => decide ((![1, 1, 0] : Fin 3 → ℤ) c ≠ 0)) = .ok ([![0, 0, 0]], a) := by
  obtain ⟨k, a, h⟩ := goodK_points (fun c => decide ((![1, 1, 0] : Fin 3 → ℤ) c ≠ 0))
  have : ((KPoints.setKPoints goodK (fun c => decide ((![1, 1, 0] : Fin 3 → ℤ) c ≠ 0))).toOption.map fun r => r.1.map fun v => [v 0, v 1, v 2]) = some [[0, 0, 0]] := by
    decide +kernel
  rw [h] at this
  have : [[k 0, k 1, k 2]] = [[(0 : ℚ), 0, 0]] := Option.some.inj this
  simp only [List.cons.injEq, and_true] at this
  refine ⟨a, ?_⟩
  rw [h]
  congr
  funext c
  fin_cases c
  · exact this.1
  · exact this.2.1
  · exact this.2.2

/-- A matrix of zeros has only zero frequencies. -/
private theorem zero_row {m : ℕ} {row : List ℝ} (h : IsSpectrum (0 : Matrix (Fin m) (Fin m) ℂ) row) : ∀ ν ∈ row, ν = 0 := by
  intro ν hν
  have : ν ∈ (0 : Matrix (Fin m) (Fin m) ℂ).charpoly.roots.map freqOf := by rw [← h.2]; exact hν
  obtain ⟨μ, hμ, rfl⟩ := Multiset.mem_map.1 this
  obtain ⟨v, hv, e⟩ := (root_iff _ _).1 hμ
  have : μ = 0 := by
    rw [Matrix.zero_mulVec] at e
    rcases smul_eq_zero.1 e.symm with h | h
    · exact h
    · exact absurd h hv
  rw [this]
  exact (C30_sign 0).2.2 rfl

/-- **C126 is false of the code with fixed atoms.**  For `fixedRect` - a free atom at the origin of a rectangular cell, a fixed atom in a general position,
so that the structure has no symmetry at all - and some spring between the two atoms, the displaced cells are written and the (harmonic) forces are read with and without the
symmetry option; with the option all frequencies at the zone centre are reported as zero, without it one of them is positive. -/
theorem C126_fixed_atoms_refuted : ∃ s, IsSuperOf fixedRect s [0] ![1, 1, 1] ![1, 1, 0] ∧ Thrice fixedRect ∧ ∀ (F0 : Rows ℝ) (d : ℝ), d ≠ 0 →
    ∃ w : V3 ℝ, FullSymmetric s (springAB w) ∧ ∃ req der s1 s2 filesSym filesAll, symPlan fixedRect s ![1, 1, 0] = some (.ok (req, der)) ∧
      writeDisplaceCell s [0] (numImages ![1, 1, 1]) d ![1, 1, 0] true (.ok (req.map fun q => (numImages ![1, 1, 1] * [0].getD q.idx 0, calcDirs q))) = .ok (s1, filesSym) ∧
      (∀ search, writeDisplaceCell s [0] (numImages ![1, 1, 1]) d ![1, 1, 0] false search = .ok (s2, filesAll)) ∧
      ∀ (S : Solver), IsSolver S → ∀ (mass : ℕ → ℝ), (∀ r < 3, 0 < mass r) → ∀ (junkR junkR' : M3 ℝ) (junkF junkF' left left' : FC ℝ) (jc jc' : ℕ → Rows ℝ),
        let forcesSym := filesSym.map fun f => harmonicForces (springAB w) F0 s f.2
        let forcesAll := filesAll.map fun f => harmonicForces (springAB w) F0 s f.2
        let oSym := run S (new fixedRect s ![1, 1, 1] ![1, 1, 0] d mass junkR junkF) (calculation left jc true forcesSym goodK)
        let oAll := run S (new fixedRect s ![1, 1, 1] ![1, 1, 0] d mass junkR' junkF') (calculation left' jc' false forcesAll goodK)
        (∃ row, oSym.wq = [row] ∧ ∀ ν ∈ row, ν = 0) ∧ (∃ row, oAll.wq = [row] ∧ ∃ ν ∈ row, 0 < ν) := by
  obtain ⟨s, hs, hcart, hall⟩ := fixed_core
  refine ⟨s, hs, rfl, fun F0 d hd => ?_⟩
  obtain ⟨w, hw0, hfull, req, der, s1, filesSym, hplan, hwS, hset⟩ := hall d hd F0
  have hrows : ∀ t ∈ [0], numImages ![1, 1, 1] * t < s.cart.length := by
    intro t ht
    rw [hcart]; simp at ht; subst ht; simp [fixedRect]
  obtain ⟨s2, filesAll, hwA, -, -⟩ := C15_displaced_files s [0] (numImages ![1, 1, 1]) d ![1, 1, 0] false (.ok []) (Or.inl rfl) hrows
  refine ⟨w, hfull, req, der, s1, s2, filesSym, filesAll, hplan, hwS, fun search => by rw [← hwA]; rfl, ?_⟩
  intro S hS mass hm junkR junkR' junkF junkF' left left' jc jc' forcesSym forcesAll oSym oAll
  obtain ⟨auto, hk⟩ := goodK_gamma
  obtain ⟨⟨junk, s0, hg, e1, e2⟩, hsel, hval, hdet⟩ := id hs
  obtain ⟨fcS, eS, vS⟩ := hset jc junkF
  obtain ⟨fcA, eA, vA⟩ := C19_harmonic_exact s [0] (numImages ![1, 1, 1]) d hd ![1, 1, 0] (.ok []) hrows (springAB w) F0 junkF' s2 filesAll hwA
  have hxyz : fixedRect.xyzTrue = some ([0].flatMap fun a => [a, a, a]) := rfl
  have hE : ∀ fc, (ofCells fixedRect s ![1, 1, 1] ![1, 1, 0] fc mass).E = 1 := fun fc => by
    simp only [ofCells]; rw [SuperCell.enlarge_eq _ _ hg.cons]; rfl
  have entry : ∀ fc (x y : Fin 3), dynMatrix (ofCells fixedRect s ![1, 1, 1] ![1, 1, 0] fc mass) (toReal ![0, 0, 0]) x y =
      (fc x y : ℂ) / (Real.sqrt (mass x * mass y) : ℝ) := by
    intro fc x y
    obtain ⟨hgs, -⟩ := phonon_data_reachable hg hdet [0] hsel hxyz e1 e2 fc mass
    have h0 : toReal ![0, 0, 0] = 0 := by funext c; fin_cases c <;> simp [toReal]
    rw [h0]
    have hq : qVec (ofCells fixedRect s ![1, 1, 1] ![1, 1, 0] fc mass) 0 = 0 := by
      funext c; simp [qVec]
    have := C26_commensurate _ [0] hgs 0 (C26_gamma_commensurate _) 0 0 (by simp) (by simp) x y
    rw [hE, hq] at this
    simpa [dot3, ofCells] using this
  have single : ∀ (L : List (List ℝ)) row, L.length = 1 → L[0]? = some row → L = [row] := by
    intro L row h1 h2
    obtain ⟨a, rfl⟩ := List.length_eq_one_iff.1 h1
    simpa using h2
  constructor
  · obtain ⟨-, -, -, hl, hr⟩ := run_spectrum_of (s' := s) (n := ![1, 1, 1]) (p := ![1, 1, 0]) [0] hsel hxyz d mass hS junkR junkF left jc goodK _ auto hk (by simp) forcesSym fcS true (by
      unfold forceConstant
      rw [if_pos ⟨rfl, show numPbc ![1, 1, 0] = 2 by decide⟩]
      simp only [PostProcess.new]
      rw [hplan]
      exact eS)
    obtain ⟨row, h1, h2⟩ := hr 0 _ rfl
    refine ⟨row, ?_, ?_⟩
    · exact single _ row hl h1
    · apply zero_row (m := 3 * [0].length)
      have hz : (Matrix.of fun (r c : Fin (3 * [0].length)) => dynMatrix (ofCells fixedRect s ![1, 1, 1] ![1, 1, 0] fcS mass) (toReal ![0, 0, 0]) r c) = 0 := by
        ext r c
        have := entry fcS r c
        rw [vS r c] at this
        simpa using this
      rw [hz] at h2
      exact h2
  · obtain ⟨-, -, -, hl, hr⟩ := run_spectrum (s' := s) (n := ![1, 1, 1]) (p := ![1, 1, 0]) [0] hsel hxyz d mass hS junkR' junkF' left' jc' goodK _ auto hk (by simp) forcesAll fcA eA
    obtain ⟨row, h1, h2⟩ := hr 0 _ rfl
    refine ⟨row, single _ row hl h1, ?_⟩
    set A := (Matrix.of fun (r c : Fin (3 * [0].length)) => dynMatrix (ofCells fixedRect s ![1, 1, 1] ![1, 1, 0] fcA mass) (toReal ![0, 0, 0]) r c) with hA
    let v : Fin 3 → ℝ := fun x => w x / Real.sqrt (mass x)
    have hent : ∀ r c : Fin 3, A r c = ((v r * v c : ℝ) : ℂ) := by
      intro r c
      have e := entry fcA r c
      have ef : fcA r c = w r * w c := by
        have := vA 0 0 0 r c rfl
        simpa [springAB] using this
      rw [ef, Real.sqrt_mul (hm r r.isLt).le] at e
      show dynMatrix _ _ _ _ = _
      rw [e]
      simp only [v]
      push_cast
      rw [mul_div_mul_comm]
    have hpos : 0 < ∑ x, v x * v x := by
      refine Finset.sum_pos' (fun x _ => mul_self_nonneg _) ⟨0, Finset.mem_univ _, ?_⟩
      have : v 0 ≠ 0 := div_ne_zero hw0 (Real.sqrt_pos.2 (hm _ (by decide))).ne'
      exact mul_self_pos.2 this
    have hroot : ((∑ x, v x * v x : ℝ) : ℂ) ∈ A.charpoly.roots := by
      refine (root_iff A _).2 ⟨fun x : Fin 3 => (v x : ℂ), ?_, ?_⟩
      · intro h0
        have : v 0 ≠ 0 := div_ne_zero hw0 (Real.sqrt_pos.2 (hm _ (by decide))).ne'
        exact this (Complex.ofReal_eq_zero.1 (congrFun h0 (0 : Fin 3)))
      · funext r
        show ∑ c : Fin 3, A r c * (v c : ℂ) = _ * (v r : ℂ)
        simp only [hent, Fin.sum_univ_three]
        push_cast
        ring
    refine ⟨freqOf ((∑ x, v x * v x : ℝ) : ℂ), ?_, ?_⟩
    · have : freqOf ((∑ x, v x * v x : ℝ) : ℂ) ∈ (row : Multiset ℝ) := by rw [h2.2]; exact Multiset.mem_map_of_mem _ hroot
      exact this
    · have := C30_order_preserving hpos
      simp only at this
      rwa [(C30_sign 0).2.2 rfl] at this

end
end Interphon.Props
