import Verif.Model.Band
import Verif.Model.Dos
import Mathlib.Algebra.Order.Floor.Defs
import Mathlib.Algebra.Order.Floor.Ring

/-!
# Model of the pictures: `Band.plot`, `DOS.plot`, `Band.plot_with_dos`

What is modelled is the data handed to matplotlib: the limits of the frequency axis, the tick positions and labels, the coordinates
of every line or area and its legend, or the exception raised on the way.  Colours, fonts, line widths and the rendering are not
modelled.  Of matplotlib itself two facts are used: `set_xticklabels` after `set_xticks` raises `ValueError` when labels are given
and their number differs from the number of ticks, and `stackplot` draws area `i` up to the sum of its first `i + 1` rows.
-/

noncomputable section

namespace Interphon.Plot
open Py Interphon

/-- Limits of the frequency axis: band.py:105-110, 306-311 and dos.py:205-210, 402-407.  `floor(min) - 1` and `ceil(max) + 1` of all
frequencies unless limits are given; `min` of an empty array raises ValueError. -/
def window (freqs : List ℝ) : Option (List ℝ) → Run (ℝ × ℝ)
  | none => match freqs.min?, freqs.max? with
    | some lo, some hi => .ok ((⌊lo⌋ : ℝ) - 1, (⌈hi⌉ : ℝ) + 1)
    | _, _ => .error .valueError
  | some (a :: b :: _) => .ok (a, b)
  | some _ => .error .indexError

/-- The text of one k-point label, band.py:115-127 (the same loop again at 316-328): `bar` is "two periodic directions". -/
def kLabel (bar : Bool) (l : Str) : Str :=
  if bar then
    if l = ['G'] ∨ l = ['g'] then "$\\overline{\\Gamma}$".toList else "$\\overline{".toList ++ l ++ "}$".toList
  else
    if l = ['G'] ∨ l = ['g'] then "$\\Gamma$".toList else "$".toList ++ l ++ "$".toList

/-- The labels of the band picture, band.py:112-127, 313-328. -/
def kLabels (p : Fin 3 → Bool) (ls : List Str) : List Str := ls.map (kLabel ((Dos.indPbc p).length = 2))

/-- One segment of a branch in a coloured band picture: two points and the value that chooses the colour, band.py:176-183. -/
structure Segment where
  p1 : ℝ × ℝ
  p2 : ℝ × ℝ
  colour : ℝ

/-- Contents of a band picture. (Source: `analysis/band.py:98-238`.) -/
structure BandPicture where
  window : ℝ × ℝ
  xlim : ℝ × ℝ
  ticks : List ℝ
  labels : List Str
  branches : List (List (ℝ × ℝ))
  coloured : Option (List (List Segment))

/-- The points of branch `f`: `(k_points_length, w_q[:, f])`, band.py:134, 173-174. -/
def branch (s : Band.State) (w : List (List ℝ)) (f : ℕ) : List (ℝ × ℝ) := s.len.zip (w.map fun row => row.getD f 0)

/-- `np.concatenate([points[:-1], points[1:]], axis=1)` with the colours of `lc.set_array`, band.py:176-181: segment `i` joins points
`i` and `i+1` and carries the colour of point `i`. -/
def segments (pts : List (ℝ × ℝ)) (colour : ℕ → ℝ) : List Segment :=
  (pts.zip (pts.drop 1)).zipIdx.map fun x => { p1 := x.1.1, p2 := x.1.2, colour := colour x.2 }

/-- The axes of a band picture: limits, ticks and labels (band.py:105-127, 137-139). -/
def axes (s : Band.State) (w : List (List ℝ)) (p : Fin 3 → Bool) (ls : List Str) (elimit : Option (List ℝ)) :
    Run ((ℝ × ℝ) × List ℝ × List Str) := do
  let win ← window w.flatten elimit
  let ticks := s.ticks.map fun i => s.len.getD i 0
  let labels := kLabels p ls
  if labels ≠ [] ∧ labels.length ≠ ticks.length then .error .valueError
  else return (win, ticks, labels)

/-- `Band.plot`, band.py:65-238: option `plain` draws one line per branch, `projection` colours it by the weight of `atoms`
(`val in None` raises TypeError if no atoms are given and there is at least one degree of freedom), any other option draws nothing
(and no file is written).  `nf` is the number of branches, `xyz` the atom of each degree of freedom.
The colour bar location does not change the data. The order of the two checks (atoms, number of labels) is that of the code. -/
def band (s : Band.State) (w : List (List ℝ)) (nf : ℕ) (p : Fin 3 → Bool) (xyz : List ℕ) (ls : List Str)
    (atoms : Option (List ℕ)) (elimit : Option (List ℝ)) (option : Str) : Run (Option BandPicture) := do
  let win ← window w.flatten elimit
  if option = "plain".toList then
    let (_, ticks, labels) ← axes s w p ls elimit
    return some { window := win, xlim := (s.len.getD 0 0, s.len.getD (s.len.length - 1) 0), ticks := ticks, labels := labels,
                  branches := (List.range nf).map (branch s w), coloured := none }
  else if option = "projection".toList then
    if atoms = none ∧ xyz ≠ [] then .error .typeError
    else
      let (_, ticks, labels) ← axes s w p ls elimit
      return some { window := win, xlim := (s.len.getD 0 0, s.len.getD (s.len.length - 1) 0), ticks := ticks, labels := labels,
                    branches := (List.range nf).map (branch s w),
                    coloured := some ((List.range nf).map fun f =>
                      segments (branch s w f) fun k => Band.projection s xyz (atoms.getD []) k f) }
  else return none

/-! ### DOS -/

/-- A legend entry: a text given by the user, `'atom-{...}'` with the set of atoms of the group (dos.py:287-288), or none. -/
inductive Label
  | text (s : Str)
  | atoms (s : Finset ℕ)
  | none

/-- One curve: `(frequency, value)` points; a NaN value is `none`. (Source: `analysis/dos.py:200-300`.) -/
structure Curve where
  label : Label
  points : List (ℝ × Option ℝ)

/-- Contents of a DOS picture.  `vertical` exchanges the axes. (Source: `analysis/dos.py:185-570`.) -/
structure DosPicture where
  vertical : Bool
  window : ℝ × ℝ
  bulk : Option (Bool × Label × List (ℝ × ℝ))
  total : Option Curve
  groups : List Curve
  stacked : Bool

/-- `ind_modes`: the degrees of freedom of a group of atoms, dos.py:277-278. -/
def groupDofs (xyz : List ℕ) (grp : List ℕ) : List ℕ := (xyz.zipIdx.filter fun x => x.1 ∈ grp).map Prod.snd

/-- Sum of two numbers, NaN if one of them is. (Source: `analysis/dos.py:280`.) -/
def nanAdd (a b : Option ℝ) : Option ℝ := a.bind fun x => b.map fun y => x + y

/-- `acc += row` for numpy vectors: equal lengths, or a row of length 1 that is broadcast; otherwise ValueError, dos.py:280. -/
def addRow (acc row : List (Option ℝ)) : Run (List (Option ℝ)) :=
  if row.length = acc.length then .ok (List.zipWith nanAdd acc row)
  else match row with
    | [r] => .ok (acc.map fun a => nanAdd a r)
    | _ => .error .valueError

/-- The curve of one group: zeros plus the rows of its degrees of freedom, dos.py:273-280 (IndexError for a missing row). -/
def groupCurve (xyz : List ℕ) (st : Dos.State) (grp : List ℕ) : Run (List (Option ℝ)) :=
  (groupDofs xyz grp).foldlM (fun acc d => do
    let row ← (match st.pdos[d]? with | some r => .ok r | none => .error .indexError : Run (List (Option ℝ)))
    addRow acc row) (List.replicate st.freq.length (some 0))

/-- The curves of all groups, dos.py:273-285; `len(None)` raises TypeError. -/
def groupCurves (xyz : List ℕ) (st : Dos.State) : Option (List (List ℕ)) → Run (List (List (Option ℝ)))
  | none => .error .typeError
  | some groups => groups.mapM (groupCurve xyz st)

/-- `np.cumsum(rows, axis=0)` (band.py:530, dos.py:551; the same sums are formed by `stackplot`, dos.py:370): row `i` is the sum of rows `0..i`. -/
def cumRows (acc : List (Option ℝ)) : List (List (Option ℝ)) → List (List (Option ℝ))
  | [] => []
  | r :: rs => List.zipWith nanAdd acc r :: cumRows (List.zipWith nanAdd acc r) rs

/-- Legends of separate lines: `legends[ind_set]`, IndexError if there are too few; dos.py:286-290, 484-488, 552-556, band.py:485-489, 531-535. -/
def lineLabels (groups : List (List ℕ)) : Option (List Str) → Run (List Label)
  | none => .ok (groups.map fun g => .atoms g.toFinset)
  | some ls => if groups.length ≤ ls.length then .ok ((ls.take groups.length).map .text) else .error .indexError

/-- Legends of `stackplot`, dos.py:363-372: missing legends are left out. -/
def stackLabels (groups : List (List ℕ)) : Option (List Str) → List Label
  | none => groups.map fun g => .atoms g.toFinset
  | some ls => groups.zipIdx.map fun x => match ls[x.2]? with | some t => .text t | none => .none

/-- The curve of the bulk DOS, dos.py:213-225 (repeated for every option): the second column times `proportion`, as a line or as an area; the legend defaults to `bulk dos`. -/
def bulkCurve (bulk : Option (List (ℝ × ℝ))) (asLine : Bool) (legend : Option Str) (proportion : ℝ) : Option (Bool × Label × List (ℝ × ℝ)) :=
  bulk.map fun rows => (asLine, .text (legend.getD "bulk dos".toList), rows.map fun x => (x.1, x.2 * proportion))

/-- The total curve, dos.py:227, 264-267. -/
def totalCurve (st : Dos.State) : Curve := { label := .text "total dos".toList, points := st.freq.zip (st.tdos.getD []) }

/-- The panel of a DOS picture after its limits have been found: options `plain` (always the total), `line` (one line per group), `stack`
(stacked areas), dos.py:212-398 (horizontal), 409-576 (vertical), band.py:434-545 (beside the bands); any other option draws nothing.
`byIndex`: the legends of a stack are taken by index (vertical, dos.py:552-556, band.py:531-535) or handed to `stackplot` (horizontal). -/
def panel (st : Dos.State) (win : ℝ × ℝ) (vert byIndex : Bool) (xyz : List ℕ) (plotTotal : Bool) (atoms : Option (List (List ℕ)))
    (option : Str) (legends : Option (List Str)) (bulk : Option (Bool × Label × List (ℝ × ℝ))) : Run (Option DosPicture) :=
  if option = "plain".toList then .ok (some ⟨vert, win, bulk, some (totalCurve st), [], false⟩)
  else if option = "line".toList then do
    let rows ← groupCurves xyz st atoms
    let labels ← lineLabels (atoms.getD []) legends
    .ok (some ⟨vert, win, bulk, if plotTotal then some (totalCurve st) else none,
      List.zipWith (fun l r => { label := l, points := st.freq.zip r }) labels rows, false⟩)
  else if option = "stack".toList then do
    let rows ← groupCurves xyz st atoms
    let labels ← (if byIndex then lineLabels (atoms.getD []) legends else .ok (stackLabels (atoms.getD []) legends) : Run (List Label))
    .ok (some ⟨vert, win, bulk, if plotTotal then some (totalCurve st) else none,
      List.zipWith (fun l r => { label := l, points := st.freq.zip r }) labels (cumRows (List.replicate st.freq.length (some 0)) rows), true⟩)
  else .ok none

/-- `DOS.plot`, dos.py:148-576.  `orientation` other than `horizontal` and `vertical` draws nothing.  `w` are all frequencies of the process. -/
def dos (st : Dos.State) (w : List ℝ) (xyz : List ℕ) (plotTotal : Bool) (atoms : Option (List (List ℕ))) (elimit : Option (List ℝ))
    (option orientation : Str) (legends : Option (List Str)) (bulk : Option (Bool × Label × List (ℝ × ℝ))) : Run (Option DosPicture) :=
  if orientation = "horizontal".toList then do
    let win ← window w elimit
    panel st win false false xyz plotTotal atoms option legends bulk
  else if orientation = "vertical".toList then do
    let win ← window w elimit
    panel st win true true xyz plotTotal atoms option legends bulk
  else .ok none

/-- The DOS panel of `Band.plot_with_dos`, band.py:434-545: always vertical, always with the total.  The frequency axis is shared with the
band panel, whose limits are `win`. -/
def sidePanel (st : Dos.State) (win : ℝ × ℝ) (xyz : List ℕ) (atoms : Option (List (List ℕ)))
    (option : Str) (legends : Option (List Str)) (bulk : Option (Bool × Label × List (ℝ × ℝ))) : Run (Option DosPicture) :=
  panel st win true true xyz true atoms option legends bulk

end Interphon.Plot
