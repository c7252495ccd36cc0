import Verif.Model.SymDisp
import Verif.Model.SuperCell
import Verif.Model.UnitCell
import Verif.Model.ForceConstant

/-!
# Model of the symmetry data flow, `core/pre_process.py:137-183` and `core/post_process.py:111-176`
-/

namespace Interphon.SymPlan
open Py Interphon Interphon.Symmetry

/-- What `Symmetry2D(self.unit_cell, …)` reads from a unit cell, util/symmetry.py:67-76 and 137-210: lattice, types, `atom_direct` (getter), selected
atoms and the periodicity. -/
noncomputable def inputOf {K : Type*} [Field K] (u : Cell K) (p : Fin 3 → ℤ) : Input K :=
  ⟨u.lattice, u.atomType, UnitCell.atomDirect u.lattice u.cart, u.atomTrue.getD [], p⟩

/-- What `search_cell_image_index` reads of the super cell, util/symmetry.py:328-345: types and `atom_direct` of the rows in `atom_true`. -/
noncomputable def cellIn {K : Type*} [Field K] (s : Cell K) : CellIn K :=
  ⟨s.lattice, (s.atomTrue.getD []).map (fun a => s.atomType.getD a []),
    (s.atomTrue.getD []).map (fun a => (UnitCell.atomDirect s.lattice s.cart).getD a 0)⟩

noncomputable section
open Interphon.SymDisp Interphon.ForceConstant

/-- The data of one required atom `a`, core/post_process.py:121-145: directions, image tables and Cartesian matrices of the operations that make them, and
the additional directions.  `tabs` is `same_supercell_index_select`.  (Simplification: a missing table is an `IndexError` here at once; in the code it is
raised in the loop over the force files.) -/
def reqPlan (L : M3 ℝ) (i j : Fin 3) (ops : List Op) (same0 : List (List ℕ)) (tabs : List (List (List ℕ))) (a : ℕ) : Option (Run (ReqAtom ℝ)) :=
  match independent L i j ops ((selfImages same0 a).map fun k => ops.getD k SymDisp.one) with
  | none => none
  | some (.error e) => some (.error e)
  | some (.ok l) => some (do
      let os ← l.mapM fun q => do
        let tk ← getE tabs q.1
        let t ← getE tk a
        pure (t, cartOp L (embed i j q.2.1))
      pure ⟨a, l.map (fun q => q.2.2), os, additional (l.map fun q => q.2.2)⟩)

/-- The data of one derived atom `a`, core/post_process.py:166-176; `o` is its entry of `point_group_ind`. -/
def derPlan (L : M3 ℝ) (i j : Fin 3) (ops : List Op) (same0 : List (List ℕ)) (tabs : List (List (List ℕ))) (o a : ℕ) : Run (Derived ℝ) := do
  let W ← getE ops o
  let tk ← getE tabs o
  let t ← getE tk a
  let same ← getE same0 o
  let img ← getE same a
  pure ⟨a, cartOp L (embed i j W), t, img⟩

/-- All required atoms, core/post_process.py:121. -/
def reqPlans (L : M3 ℝ) (i j : Fin 3) (ops : List Op) (same0 : List (List ℕ)) (tabs : List (List (List ℕ))) : List ℕ → Option (Run (List (ReqAtom ℝ)))
  | [] => some (.ok [])
  | a :: rest =>
    match reqPlan L i j ops same0 tabs a, reqPlans L i j ops same0 tabs rest with
    | some (.ok q), some (.ok l) => some (.ok (q :: l))
    | some (.error e), _ => some (.error e)
    | some (.ok _), some (.error e) => some (.error e)
    | _, _ => none

/-- The whole search, core/post_process.py:112-118 (and core/pre_process.py:146-158): `search_point_group`, `search_image_atom` (with the image
tables of the super cell, util/symmetry.py:307-309), `search_self_image_atom`, `search_independent_displacement`, `gen_additional_displacement`. -/
def symPlan (u s : Cell ℝ) (p : Fin 3 → ℤ) : Option (Run (List (ReqAtom ℝ) × List (Derived ℝ))) :=
  let inp := inputOf u p
  match searchPointGroup inp with
  | .error e => some (.error e)
  | .ok (rec, _) =>
    let i : Fin 3 := (axes p).getD 0 0
    let j : Fin 3 := (axes p).getD 1 0
    let ops := rec.map Prod.fst
    let same0 := sameFirst rec
    let tabs := rec.map fun r => cellImages (cellIn s) (s.atomType.length / u.atomType.length) (embed i j r.1) ((r.2.map Prod.snd).headD [])
    match searchImageAtom same0 inp.sel.length with
    | .error e => some (.error e)
    | .ok (pg, req, der) =>
      match reqPlans u.lattice i j ops same0 tabs req with
      | none => none
      | some (.error e) => some (.error e)
      | some (.ok rs) => some (do
          let ds ← (pg.zip der).mapM fun t => derPlan u.lattice i j ops same0 tabs t.1 t.2
          pure (rs, ds))

end
end Interphon.SymPlan
