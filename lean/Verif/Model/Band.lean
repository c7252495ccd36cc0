import Verif.Model.Mode

/-!
# Model of `InterPhon/analysis/band.py` (`Band.__init__`, `Band.set`, the numbers of `Band.write`, the projection sums of `Band.plot`)

Exact reals.  The pictures (matplotlib) are not modelled.
-/

noncomputable section

namespace Interphon.Band
open Py Interphon Interphon.Mode

/-- `np.sqrt(np.dot(a - b, a - b))`, band.py:32-33. -/
def dist (a b : V3 ℝ) : ℝ := Real.sqrt (Phonon.dot3 (a - b) (a - b))

/-- The attributes `k_points_length`, `projected_w`, `ind_high_sym` of a `Band` object, band.py:15-24. -/
structure State where
  len : List ℝ
  projected : ℕ → ℕ → ℕ → ℝ
  ticks : List ℕ

/-- `Band.__init__`, band.py:15-24. `junk` is the uninitialised content of `np.empty`. -/
def init (kPoints : List (V3 ℝ)) (junk : ℕ → ℕ → ℕ → ℝ) : State :=
  { len := List.replicate kPoints.length 0, projected := junk, ticks := [0] }

open Classical in
/-- One iteration of the loop band.py:30-36 for index `ind ≥ 1`. -/
def step (kPoints : List (V3 ℝ)) (s : List ℝ × List ℕ) (ind : ℕ) : List ℝ × List ℕ :=
  let a := kPoints.getD ind 0
  let b := kPoints.getD (ind - 1) 0
  (s.1.set ind (s.1.getD (ind - 1) 0 + dist a b), if allclose3 a b then s.2 ++ [ind] else s.2)

/-- `Band.set`, band.py:26-43.  With fewer than two k points the loop variable of line 37 is unbound.  `w_q` has `nk` rows of
`nf` frequencies, `v k f m` is `v_q[k, f, m]`, and there are `nm` degrees of freedom. -/
def set (kPoints : List (V3 ℝ)) (nk nf nm : ℕ) (v : ℕ → ℕ → ℕ → ℂ) (s : State) : Run State :=
  if kPoints.length < 2 then .error .unboundLocal
  else
    let (len, ticks) := ((List.range (kPoints.length - 1)).map (· + 1)).foldl (step kPoints) (s.len, s.ticks)
    .ok { len := len
          ticks := ticks ++ [kPoints.length - 1]
          projected := fun k f m => if k < nk ∧ f < nf ∧ m < nm then ‖v k f m‖ ^ 2 else s.projected k f m }

/-- The colour value plotted for frequency `f` at `k` when the weights of the atoms in `atoms` are summed, band.py:158-164
(`xyz` is `xyz_true`: the atom of each degree of freedom). -/
def projection (s : State) (xyz : List ℕ) (atoms : List ℕ) (k f : ℕ) : ℝ :=
  ((xyz.zipIdx.filter fun x => x.1 ∈ atoms).map fun x => s.projected k f x.2).foldl (· + ·) 0

end Interphon.Band
