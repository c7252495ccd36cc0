import Verif.Lemmas.Text
import Verif.Model.Vasp

/-! Lemmas about the text primitives of `Verif/Model/Inout.lean`. -/

namespace Interphon.Inout
open Py Interphon Interphon.Vasp

theorem mapE_ok {α β : Type} {f : α → Run β} (g : α → β) : ∀ {l : List α}, (∀ a ∈ l, f a = .ok (g a)) → mapE f l = .ok (l.map g)
  | [], _ => rfl
  | a :: l, h => by
    rw [mapE, h a (by simp), mapE_ok g (fun a ha => h a (by simp [ha]))]; rfl

theorem mapE_ok_iff {α β : Type} {f : α → Run β} : ∀ {l : List α} {r : List β}, mapE f l = .ok r ↔ List.Forall₂ (fun a b => f a = .ok b) l r
  | [], r => by
    simp only [mapE, List.forall₂_nil_left_iff]
    constructor
    · intro h; cases h; rfl
    · intro h; rw [h]
  | a :: l, r => by
    rw [mapE]
    cases hf : f a with
    | error e =>
      simp only [reduceCtorEq, false_iff]
      intro h
      cases h with
      | cons h _ => rw [hf] at h; cases h
    | ok b =>
      cases hm : mapE f l with
      | error e =>
        simp only [reduceCtorEq, false_iff]
        intro h
        cases h with
        | cons _ h => rw [← mapE_ok_iff] at h; rw [hm] at h; cases h
      | ok bs =>
        simp only [Except.ok.injEq]
        constructor
        · rintro rfl; exact .cons hf (mapE_ok_iff.1 hm)
        · intro h
          cases h with
          | cons h1 h2 =>
            rw [← mapE_ok_iff] at h2
            rw [hf] at h1; rw [hm] at h2
            cases h1; cases h2; rfl

theorem floatE_fmt (q : ℚ) : floatE (fmtFixed 16 q) = .ok (rndDec 16 q) := by rw [floatE, parseFloat_fmtFixed]

/-- The three tokens of a formatted row. -/
def rowTokens (v : V3 ℚ) : List Str := [fmtFixed 16 (v 0), fmtFixed 16 (v 1), fmtFixed 16 (v 2)]

/-- The values of a formatted row. -/
def rowValues (v : V3 ℚ) : List ℚ := [rndDec 16 (v 0), rndDec 16 (v 1), rndDec 16 (v 2)]

theorem split_row (v : V3 ℚ) {c : Char} (hc : isWs c = true) (rest : Str) :
    split (row v ++ c :: rest) = rowTokens v ++ split rest := by
  have h2 : ∀ s : Str, split ("  ".toList ++ s) = split s := fun s => split_replicate_ws 2 s
  have e : ∀ (q : ℚ) (s : Str), split (num q ++ ("  ".toList ++ s)) = fmtFixed 16 q :: split s := by
    intro q s
    rw [num, split_padLeft]
    show split (fmtFixed 16 q ++ ' ' :: (' ' :: s)) = _
    rw [split_token_ws (fmtFixed_token _ _) (by decide), split_cons_ws (by decide)]
  rw [row]
  simp only [List.append_assoc]
  rw [e, e, num, split_padLeft, split_token_ws (fmtFixed_token _ _) hc]
  rfl

theorem row_not_mem {c : Char} (h1 : digitVal c = none) (h2 : c ≠ '-') (h3 : c ≠ '.') (h4 : c ≠ ' ') (v : V3 ℚ) : c ∉ row v := by
  have hn : ∀ q, c ∉ num q := by
    intro q h
    rw [num, padLeft, List.mem_append] at h
    rcases h with h | h
    · exact h4 (List.eq_of_mem_replicate h)
    · exact fmtFixed_not_mem h1 h2 h3 h
  rw [row]
  simp only [List.mem_append, not_or]
  refine ⟨⟨⟨⟨hn _, ?_⟩, hn _⟩, ?_⟩, hn _⟩ <;>
  · intro h
    simp at h
    exact h4 h

theorem mapE_rowTokens (v : V3 ℚ) : mapE floatE (rowTokens v) = .ok (rowValues v) := by
  simp [rowTokens, rowValues, mapE, floatE_fmt]

theorem asRows_tokens (l : List (V3 ℚ)) : asRows (l.map rowTokens) = .ok (l.map rowValues) := by
  rw [asRows, mapE_ok (fun ts => (mapE floatE ts).toOption.getD [])]
  · simp only [List.map_map]
    have e : ((fun ts => (mapE floatE ts).toOption.getD []) ∘ rowTokens) = rowValues := by
      funext v; simp [mapE_rowTokens, Except.toOption]
    rw [e]
    rw [if_pos]
    cases l with
    | nil => rfl
    | cons a l =>
      simp only [List.map_cons, List.headD_cons, List.all_eq_true, decide_eq_true_eq]
      intro x hx
      have : ∀ v, (rowValues v).length = 3 := fun v => rfl
      rw [← List.map_cons, List.mem_map] at hx
      obtain ⟨w, -, rfl⟩ := hx
      rw [this, this]
  · intro ts hts
    rw [List.mem_map] at hts
    obtain ⟨v, -, rfl⟩ := hts
    rw [mapE_rowTokens]; rfl

theorem split_join (ts : List Str) (h : ∀ t ∈ ts, IsToken t) : split (join "    ".toList ts ++ ['\n']) = ts := by
  have h4 : ∀ s : Str, split ("    ".toList ++ s) = split s := fun s => split_replicate_ws 4 s
  induction ts with
  | nil => decide
  | cons t ts ih =>
    cases ts with
    | nil =>
      show split ((t ++ []) ++ '\n' :: []) = [t]
      rw [List.append_nil, split_token_ws (h t (by simp)) (by decide)]; rfl
    | cons u ts =>
      have e : join "    ".toList (t :: u :: ts) ++ ['\n'] = t ++ ' ' :: ("   ".toList ++ (join "    ".toList (u :: ts) ++ ['\n'])) := by
        simp [join, List.intersperse]
      rw [e, split_token_ws (h t (by simp)) (by decide), show ∀ s : Str, split ("   ".toList ++ s) = split s from fun s => split_replicate_ws 3 s,
        ih (fun t ht => h t (by simp [ht]))]

theorem join_not_mem {ts : List Str} {c : Char} (hc : c ≠ ' ') (h : ∀ t ∈ ts, c ∉ t) : c ∉ join "    ".toList ts := by
  intro hm
  rw [join, List.mem_flatten] at hm
  obtain ⟨l, hl, hcl⟩ := hm
  have : ∀ (ts : List Str), l ∈ List.intersperse "    ".toList ts → l ∈ ts ∨ l = "    ".toList := by
    intro ts
    induction ts with
    | nil => intro h; simp [List.intersperse] at h
    | cons a ts ih =>
      intro h
      cases ts with
      | nil => simp [List.intersperse] at h; left; simp [h]
      | cons b ts =>
        rw [List.intersperse_cons₂, List.mem_cons, List.mem_cons] at h
        rcases h with h | h | h
        · left; simp [h]
        · right; exact h
        · rcases ih h with h | h
          · left; exact List.mem_cons_of_mem _ h
          · right; exact h
  rcases this ts hl with h' | h'
  · exact h l h' hcl
  · subst h'; simp at hcl; exact hc hcl

end Interphon.Inout
