import Verif.Model.Args
import Verif.Model.Cell

/-!
# Model of `InterPhon/core/super_cell.py`
-/

namespace Interphon.SuperCell
open Py Interphon Interphon.Args

variable {K : Type*} [Field K]

/-- Row `i` of the super lattice: `unit_cell.lattice_matrix[i, 0:3] * user_arg.enlargement[i]`,
`core/super_cell.py:66`. `n` are the three enlargement factors. -/
def superLattice (L : M3 K) (n : Fin 3 → ℤ) : M3 K := fun i j => L i j * (n i : K)

/-- One assignment `_super_direct[k, 0:3] = …; k = k + 1`, `core/super_cell.py:85-88`.
Writing past the end of the array is an `IndexError`. -/
def fillStep (st : Run (List (V3 K) × ℕ)) (v : V3 K) : Run (List (V3 K) × ℕ) :=
  match st with
  | .error e => .error e
  | .ok (arr, k) => if k < arr.length then .ok (arr.set k v, k + 1) else .error .indexError

/-- The triple loop filling `_super_direct`, `core/super_cell.py:80-88`.  `junk` is the uninitialised
content of `np.empty`. -/
def superDirect (n : Fin 3 → ℤ) (junk : List (V3 K)) : Run (List (V3 K) × ℕ) :=
  (rangeInt (n 0)).foldl (fun st (x : ℕ) =>
    (rangeInt (n 1)).foldl (fun st (y : ℕ) =>
      (rangeInt (n 2)).foldl (fun st (z : ℕ) =>
        fillStep st ![(x : K) / (n 0 : K), (y : K) / (n 1 : K), (z : K) / (n 2 : K)]) st) st)
    (.ok (junk, 0))

/-- `value + np.dot(_super_direct, self.lattice_matrix)` for one row of `_super_direct`,
`core/super_cell.py:92-93`. -/
def imagePos (value : V3 K) (S : M3 K) (d : V3 K) : V3 K := fun j => value j + ∑ i, d i * S i j

/-- `arr[s : s + len(vals)] = vals`. (Source: `core/super_cell.py:90-93`.) -/
def setSlice {α : Type*} (arr : List α) (s : ℕ) (vals : List α) : List α :=
  arr.take s ++ vals ++ arr.drop (s + vals.length)

/-- The loop of `core/super_cell.py:91-93`: atom index, remaining atoms, array. -/
def cartLoop (E : ℕ) (S : M3 K) (sd : List (V3 K)) : ℕ → List (V3 K) → List (V3 K) → List (V3 K)
  | _, [], arr => arr
  | ind, value :: rest, arr =>
    cartLoop E S sd (ind + 1) rest (setSlice arr (E * ind) (sd.map (imagePos value S)))

/-- `set_super_cell`, `core/super_cell.py:55-93`, for an argument object with three enlargements `n` and
three periodicity flags `p`.  `junk m` is the uninitialised array of length `m`.
`np.empty` raises `ValueError` on a negative size; the `atom_cart` setter
(`core/unit_cell.py:154-161`) raises `ValueError` if the number of rows differs from the number of types. -/
def setSuperCell (junk : ℕ → List (V3 K)) (u : Cell K) (n : Fin 3 → ℤ) (p : Fin 3 → ℤ) : Run (Cell K) :=
  let S := superLattice u.lattice n
  let E : ℤ := enlarge [n 0, n 1, n 2] [p 0, p 1, p 2]
  let types := u.atomType.flatMap fun t => (rangeInt E).map fun _ => t
  if E < 0 then .error .valueError
  else match superDirect n (junk E.toNat) with
    | .error e => .error e
    | .ok (sd, _) =>
      if u.cart.length * E.toNat ≠ types.length then .error .valueError
      else .ok {
        lattice := S
        atomType := types
        numAtom := u.numAtom.map (· * E)
        selective := false
        coordinate := u.coordinate
        cart := cartLoop E.toNat S sd 0 u.cart (junk (u.cart.length * E.toNat)) }

/-- `set_super_cell` called with an argument object, `core/super_cell.py:55-93`: reads
`user_arg.enlargement[0..2]` and enumerates `user_arg.periodicity`.  Simplification: arrays whose length
is not three (only reachable by bypassing the setters) are an `IndexError` here. -/
def setSuperCellArg (junk : ℕ → List (V3 K)) (u : Cell K) (a : PreArg) : Run (Cell K) :=
  match a.enlargement, a.periodicity with
  | some e, some p =>
    if e.length = 3 ∧ p.length = 3 then setSuperCell junk u (fun i => e.getD i 0) (fun i => p.getD i 0)
    else .error .indexError
  | _, _ => .error .typeError

/-- `set_super_ind_true`, `core/super_cell.py:95-118`. The lists are extended in place, bypassing the setters. -/
def setSuperIndTrue (s u : Cell K) (n : Fin 3 → ℤ) (p : Fin 3 → ℤ) : Run (Cell K) :=
  let E : ℤ := enlarge [n 0, n 1, n 2] [p 0, p 1, p 2]
  match u.atomTrue with
  | none => .error .typeError
  | some sel =>
    let at' := sel.flatMap fun i => (rangeInt E).map fun k => i * E.toNat + k
    .ok { s with selective := true, atomTrue := some at',
                 xyzTrue := some (at'.flatMap fun a => [a, a, a]) }

end Interphon.SuperCell
