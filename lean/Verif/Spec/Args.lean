import Verif.Model.Args

/-! # Specification vocabulary for the argument properties (C01–C05) -/

namespace Interphon.Spec
open Py Interphon.Args

/-- English: "enlargement and periodicity each have exactly three entries and every direction with
periodicity false has enlargement 1". -/
def ConsistentArgs (s : PreArg) : Prop :=
  ∃ e p : List ℤ, s.enlargement = some e ∧ s.periodicity = some p ∧
    e.length = 3 ∧ p.length = 3 ∧ ∀ i < 3, p[i]? = some 0 → e[i]? = some 1

/-- The assignments a user of an argument object can perform. -/
inductive ArgOp
  | setDisplacement (v : PyVal)
  | setEnlargement (v : PyVal)
  | setPeriodicity (v : PyVal)
  | setUserArgument (d : List (Str × PyVal))

/-- Effect of one assignment. -/
def ArgOp.exec (s : PreArg) : ArgOp → Outcome
  | .setDisplacement v => Args.setDisplacement s v
  | .setEnlargement v => Args.setEnlargement s v
  | .setPeriodicity v => Args.setPeriodicity s v
  | .setUserArgument d => Args.setUserArgument s d

/-- A history of assignments, exceptions caught and execution continued. -/
def runArgOps (s : PreArg) (ops : List ArgOp) : PreArg :=
  ops.foldl (fun s op => (op.exec s).1) s

/-- What C03 promises about a stored state. -/
def StoredOk (s : PreArg) : Prop :=
  (∀ d, s.displacement = some d → 0 ≤ d) ∧
  (∀ e, s.enlargement = some e → e.length = 3) ∧
  (∀ p, s.periodicity = some p → p.length = 3)

end Interphon.Spec
