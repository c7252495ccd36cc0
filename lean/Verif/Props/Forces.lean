import Verif.Model.Vasp
import Verif.Model.Espresso
import Verif.Model.Aims
import Verif.Lemmas.Inout

/-!
# C60: reading forces
-/

namespace Interphon.Props
open Py Interphon Interphon.Inout

/-- A line of the force table: `lead` columns, then the three components of `f`, then anything. -/
def ForceLine (lead : ℕ) (l : Str) (f : V3 ℚ) : Prop :=
  ∃ (pre : List Str) (t0 t1 t2 : Str) (rest : List Str), split l = pre ++ t0 :: t1 :: t2 :: rest ∧ pre.length = lead ∧
    parseFloat t0 = some (f 0) ∧ parseFloat t1 = some (f 1) ∧ parseFloat t2 = some (f 2)

/-- An output file: no line before `tagLine` contains the tag, `tagLine` does, then `gap`, then the table, then anything. -/
structure ForceFile (tag : Str) (lead gap : ℕ) (lines : List Str) (f : List (V3 ℚ)) : Prop where
  file : ∃ (before : List Str) (tagLine : Str) (between block after : List Str),
    lines = before ++ tagLine :: (between ++ (block ++ after)) ∧ (∀ l ∈ before, ¬tag <:+: l) ∧ tag <:+: tagLine ∧ between.length = gap ∧
    List.Forall₂ (ForceLine lead) block f

/-- Forces in SI units. -/
def inUnits (u : ℚ) (f : List (V3 ℚ)) : List (List ℚ) := f.map fun v => [v 0 * u, v 1 * u, v 2 * u]

private theorem findIdx_tag {tag tagLine : Str} {before rest : List Str} (h1 : ∀ l ∈ before, ¬tag <:+: l) (h2 : tag <:+: tagLine) :
    (before ++ tagLine :: rest).findIdx? (fun l => isInfix tag l) = some before.length := by
  rw [List.findIdx?_append, List.findIdx?_eq_none_iff.2 (fun l hl => by
    rw [Bool.eq_false_iff, Ne, isInfix_iff]; exact h1 l hl), List.findIdx?_cons, if_pos ((isInfix_iff _ _).2 h2)]
  simp

private theorem forces_file {tag : Str} {off lo : ℕ} {u : ℚ} {lines : List Str} {f : List (V3 ℚ)} (h : ForceFile tag lo off lines f) :
    forces tag (off + 1) lo (lo + 3) u f.length lines = .ok (inUnits u f) := by
  obtain ⟨before, tagLine, between, block, after, rfl, h1, h2, hgap, hb⟩ := h
  have hrow : mapE (mapE floatE) (block.map fun l => ((split l).take (lo + 3)).drop lo) = .ok (f.map fun v => [v 0, v 1, v 2]) := by
    rw [mapE_ok_iff]
    clear h1
    induction hb with
    | nil => exact .nil
    | @cons l v block f h _ ih =>
      refine .cons ?_ ih
      obtain ⟨pre, t0, t1, t2, rest, hs, hl, p0, p1, p2⟩ := h
      have e : ((split l).take (lo + 3)).drop lo = [t0, t1, t2] := by
        rw [hs, ← hl, List.drop_take, List.drop_left, Nat.add_sub_cancel_left]; rfl
      show mapE floatE (((split l).take (lo + 3)).drop lo) = _
      rw [e]
      simp [mapE, floatE, p0, p1, p2]
  have hall : (f.map fun v => [v 0, v 1, v 2]).all
      (fun x => x.length = ((f.map fun v => [v 0, v 1, v 2]).headD []).length) = true := by
    cases f with
    | nil => rfl
    | cons v f => simp
  have hdrop : (before ++ tagLine :: (between ++ (block ++ after))).drop (before.length + (off + 1)) = block ++ after := by
    rw [← hgap, show before ++ tagLine :: (between ++ (block ++ after)) = (before ++ tagLine :: between) ++ (block ++ after) by simp,
      show before.length + (between.length + 1) = (before ++ tagLine :: between).length by simp, List.drop_left]
  have hlen : block.length = f.length := hb.length_eq
  unfold forces
  rw [findIdx_tag h1 h2]
  simp only
  rw [hdrop, ← hlen, List.take_left, asRows, hrow]
  simp only [hall, if_true, inUnits, List.map_map]
  rfl

/-- **C60 (vasprun.xml).** -/
theorem C60_vasprun {lines : List Str} {f : List (V3 ℚ)} (h : ForceFile "forces".toList 1 0 lines f) :
    Vasp.readOutput "vasprun.xml".toList f.length lines = .ok (inUnits (1602 / 10 ^ 12) f) := by
  rw [Vasp.readOutput, if_pos rfl, forces_file (off := 0) (lo := 1) h]
  norm_num [Vasp.unitFactor]

/-- **C60 (OUTCAR).** -/
theorem C60_outcar {lines : List Str} {f : List (V3 ℚ)} (h : ForceFile "TOTAL-FORCE".toList 3 1 lines f) :
    Vasp.readOutput "OUTCAR".toList f.length lines = .ok (inUnits (1602 / 10 ^ 12) f) := by
  rw [Vasp.readOutput, if_neg (by decide), if_pos rfl, forces_file (off := 1) (lo := 3) h]
  norm_num [Vasp.unitFactor]

/-- **C60 (Quantum ESPRESSO).**  The unit is Ry/bohr with the rounded constants of the source. -/
theorem C60_espresso {lines : List Str} {f : List (V3 ℚ)} (h : ForceFile "Forces acting on atoms".toList 6 1 lines f) :
    Espresso.readOutput f.length lines =
      .ok (inUnits ((13.605662 * 1.602e-19) / 0.529177e-10) f) := by
  rw [Espresso.readOutput, forces_file (off := 1) (lo := 6) h]
  norm_num [Espresso.unitFactor]

/-- **C60 (FHI-aims).** -/
theorem C60_aims {lines : List Str} {f : List (V3 ℚ)} (h : ForceFile "Total atomic forces".toList 2 0 lines f) :
    Aims.readOutput f.length lines = .ok (inUnits (1602 / 10 ^ 12) f) := by
  rw [Aims.readOutput, forces_file (off := 0) (lo := 2) h]
  norm_num [Aims.unitFactor]

/-- **C60** (incomplete calculation).  Without the tag every reader raises `AssertionError`. -/
theorem C60_missing (n : ℕ) (lines : List Str) :
    ((∀ l ∈ lines, ¬"forces".toList <:+: l) → Vasp.readOutput "vasprun.xml".toList n lines = .error .assertionError) ∧
    ((∀ l ∈ lines, ¬"TOTAL-FORCE".toList <:+: l) → Vasp.readOutput "OUTCAR".toList n lines = .error .assertionError) ∧
    ((∀ l ∈ lines, ¬"Forces acting on atoms".toList <:+: l) → Espresso.readOutput n lines = .error .assertionError) ∧
    ((∀ l ∈ lines, ¬"Total atomic forces".toList <:+: l) → Aims.readOutput n lines = .error .assertionError) := by
  have key : ∀ (tag : Str) (off lo hi : ℕ) (u : ℚ), (∀ l ∈ lines, ¬tag <:+: l) → forces tag off lo hi u n lines = .error .assertionError := by
    intro tag off lo hi u h
    unfold forces
    rw [List.findIdx?_eq_none_iff.2 (fun l hl => by rw [Bool.eq_false_iff, Ne, isInfix_iff]; exact h l hl)]
  refine ⟨fun h => ?_, fun h => ?_, fun h => ?_, fun h => ?_⟩
  · rw [Vasp.readOutput, if_pos rfl]; exact key _ _ _ _ _ h
  · rw [Vasp.readOutput, if_neg (by decide), if_pos rfl]; exact key _ _ _ _ _ h
  · exact key _ _ _ _ _ h
  · exact key _ _ _ _ _ h

/-- **C60** (file name).  A VASP force file with any other name makes the reader fail. -/
theorem C60_other_name (name : Str) (h1 : name ≠ "vasprun.xml".toList) (h2 : name ≠ "OUTCAR".toList) (n : ℕ) (lines : List Str) :
    Vasp.readOutput name n lines = .error .unboundLocal := by
  rw [Vasp.readOutput, if_neg h1, if_neg h2]

/-- **C60** (truncated file).  If the file ends inside the table, the forces that are there are returned without an error. -/
theorem C60_truncated {lines : List Str} {f : List (V3 ℚ)} {n : ℕ} (hn : f.length < n) (before : List Str) (tagLine : Str) (block : List Str)
    (hfile : lines = before ++ tagLine :: block) (h1 : ∀ l ∈ before, ¬"forces".toList <:+: l) (h2 : "forces".toList <:+: tagLine)
    (hb : List.Forall₂ (ForceLine 1) block f) :
    Vasp.readOutput "vasprun.xml".toList n lines = .ok (inUnits (1602 / 10 ^ 12) f) := by
  have h : ForceFile "forces".toList 1 0 lines f := ⟨before, tagLine, [], block, [], by simp [hfile], h1, h2, rfl, hb⟩
  rw [← C60_vasprun h, Vasp.readOutput, if_pos rfl, Vasp.readOutput, if_pos rfl]
  unfold forces
  have hlen := hb.length_eq
  rw [hfile, findIdx_tag h1 h2]
  simp only
  rw [show before.length + 1 = (before ++ [tagLine]).length by simp,
    show before ++ tagLine :: block = (before ++ [tagLine]) ++ block by simp, List.drop_left, List.take_of_length_le (by omega),
    List.take_of_length_le (by omega)]

/-- Non-vacuity: a two-atom table inside a file. -/
example : ForceFile "forces".toList 1 0 ["<x>\n".toList, " <varray name=\"forces\" >\n".toList, "  <v>  0.5 -0.25  1e-2 </v>\n".toList,
      "  <v> 0 0 0 </v>\n".toList, " </varray>\n".toList, "forces\n".toList] [![1/2, -1/4, 1/100], ![0, 0, 0]] ∧
    Vasp.readOutput "vasprun.xml".toList 2 ["<x>\n".toList, " <varray name=\"forces\" >\n".toList, "  <v>  0.5 -0.25  1e-2 </v>\n".toList,
      "  <v> 0 0 0 </v>\n".toList, " </varray>\n".toList, "forces\n".toList] =
      .ok [[801 / 10 ^ 12, -801 / (2 * 10 ^ 12), 1602 / 10 ^ 14], [0, 0, 0]] := by
  refine ⟨⟨["<x>\n".toList], " <varray name=\"forces\" >\n".toList, [], ["  <v>  0.5 -0.25  1e-2 </v>\n".toList, "  <v> 0 0 0 </v>\n".toList],
    [" </varray>\n".toList, "forces\n".toList], rfl, ?_, ?_, rfl, .cons ?_ (.cons ?_ .nil)⟩, by decide +kernel⟩
  · intro l hl
    rw [List.mem_singleton.1 hl, ← isInfix_iff]; decide
  · rw [← isInfix_iff]; decide
  · exact ⟨["<v>".toList], "0.5".toList, "-0.25".toList, "1e-2".toList, ["</v>".toList], by decide, rfl, by decide +kernel, by decide +kernel, by decide +kernel⟩
  · exact ⟨["<v>".toList], "0".toList, "0".toList, "0".toList, ["</v>".toList], by decide, rfl, by decide +kernel, by decide +kernel, by decide +kernel⟩

end Interphon.Props
