import Verif.Model.Dos
import Verif.Props.TetraMesh
import Mathlib.Probability.Distributions.Gaussian.Real

/-! # Properties C44, C46–C48: density of states -/

namespace Interphon.Props
open Py Interphon Interphon.Tetra Interphon.Dos MeasureTheory

noncomputable section

/-- Entry of the projected DOS: degree of freedom `d`, grid index `i`. -/
def entry (s : State) (d i : ℕ) : Option (Option ℝ) := s.pdos[d]?.bind fun row => row[i]?

/-- The arrays have matching sizes, as after `DOS.__init__`. -/
def Shaped (p : Proc) (s : State) : Prop := s.pdos.length = p.nd ∧ ∀ row ∈ s.pdos, row.length = s.freq.length

/-! ### C46 -/

private theorem allFreq_mem (p : Proc) (x : ℝ) : x ∈ p.allFreq ↔ ∃ k < p.nk, ∃ b < p.nb, x = p.w k b := by
  simp only [Proc.allFreq, List.mem_flatMap, List.mem_map, List.mem_range]
  constructor
  · rintro ⟨k, hk, b, hb, rfl⟩; exact ⟨k, hk, b, hb, rfl⟩
  · rintro ⟨k, hk, b, hb, rfl⟩; exact ⟨k, hk, b, hb, rfl⟩

/-- **C46.**  For every spectrum and `num_dos ≥ 1`, the constructed grid has exactly `num_dos` equally spaced points from
2 below the lowest frequency `lo`; every point is below `hi + 2` and the last one is within a step of it; and the
projected arrays start at zero. -/
theorem C46_grid (p : Proc) (n : ℕ) (hn : 0 < n) (s : State) (h : Dos.init p n = .ok s) :
    ∃ lo hi, (∃ k < p.nk, ∃ b < p.nb, p.w k b = lo) ∧ (∃ k < p.nk, ∃ b < p.nb, p.w k b = hi) ∧
      (∀ k < p.nk, ∀ b < p.nb, lo ≤ p.w k b ∧ p.w k b ≤ hi) ∧
      s.freq.length = n ∧ (∀ i < n, s.freq[i]? = some (lo - 2 + i * ((hi - lo + 4) / n))) ∧
      (∀ f ∈ s.freq, lo - 2 ≤ f ∧ f < hi + 2) ∧ (∃ f ∈ s.freq, hi + 2 = f + (hi - lo + 4) / n) ∧
      Shaped p s ∧ ∀ d < p.nd, ∀ i < n, entry s d i = some (some 0) := by
  unfold Dos.init at h
  rcases hlo : p.allFreq.min? with _ | lo
  · simp [hlo] at h
  rcases hhi : p.allFreq.max? with _ | hi
  · simp [hlo, hhi] at h
  simp only [hlo, hhi] at h
  injection h with h
  have l1 := List.min?_eq_some_iff.1 hlo
  have l2 := List.max?_eq_some_iff.1 hhi
  obtain ⟨k1, hk1, b1, hb1, e1⟩ := (allFreq_mem p lo).1 l1.1
  obtain ⟨k2, hk2, b2, hb2, e2⟩ := (allFreq_mem p hi).1 l2.1
  have hle : lo ≤ hi := l1.2 _ l2.1
  have hnr : (0 : ℝ) < n := by exact_mod_cast hn
  have hstep : 0 < (hi - lo + 4) / (n : ℝ) := by apply div_pos; linarith; exact hnr
  have hceil : ⌈(hi + 2 - (lo - 2)) / ((hi - lo + 4) / n)⌉₊ = n := by
    have : (hi + 2 - (lo - 2)) / ((hi - lo + 4) / n) = n := by
      have : hi - lo + 4 ≠ 0 := by linarith
      rw [show hi + 2 - (lo - 2) = hi - lo + 4 by ring]
      field_simp
    rw [this, Nat.ceil_natCast]
  have hfreq : s.freq = (List.range n).map fun i : ℕ => lo - 2 + i * ((hi - lo + 4) / n) := by
    rw [← h]; simp only [arange, hceil]
  have hlen : s.freq.length = n := by rw [hfreq]; simp
  have hget : ∀ i < n, s.freq[i]? = some (lo - 2 + i * ((hi - lo + 4) / n)) := by
    intro i hi'
    rw [hfreq, List.getElem?_map, List.getElem?_range hi']; rfl
  have hbound : ∀ i : ℕ, (i : ℝ) * ((hi - lo + 4) / n) = i / n * (hi - lo + 4) := by intro i; ring
  have hpd : s.pdos = List.replicate p.nd (List.replicate s.freq.length (some 0)) := by
    rw [← h]
  refine ⟨lo, hi, ⟨k1, hk1, b1, hb1, e1.symm⟩, ⟨k2, hk2, b2, hb2, e2.symm⟩, ?_, hlen, hget, ?_, ?_, ?_, ?_⟩
  · intro k hk b hb
    exact ⟨l1.2 _ ((allFreq_mem p _).2 ⟨k, hk, b, hb, rfl⟩), l2.2 _ ((allFreq_mem p _).2 ⟨k, hk, b, hb, rfl⟩)⟩
  · intro f hf
    rw [hfreq] at hf
    obtain ⟨i, hi', rfl⟩ := List.mem_map.1 hf
    have hi' := List.mem_range.1 hi'
    have hir : (i : ℝ) < n := by exact_mod_cast hi'
    constructor
    · have : 0 ≤ (i : ℝ) * ((hi - lo + 4) / n) := mul_nonneg (Nat.cast_nonneg _) hstep.le
      linarith
    · have : (i : ℝ) * ((hi - lo + 4) / n) < n * ((hi - lo + 4) / n) := mul_lt_mul_of_pos_right hir hstep
      have h2 : (n : ℝ) * ((hi - lo + 4) / n) = hi - lo + 4 := by field_simp
      linarith
  · refine ⟨lo - 2 + ((n - 1 : ℕ) : ℝ) * ((hi - lo + 4) / n), ?_, ?_⟩
    · exact List.mem_of_getElem? (hget (n - 1) (by omega))
    · rw [Nat.cast_sub hn]
      push_cast
      have h2 : (n : ℝ) * ((hi - lo + 4) / n) = hi - lo + 4 := by field_simp
      linear_combination -h2
  · refine ⟨by rw [hpd]; simp, ?_⟩
    intro row hrow
    rw [hpd] at hrow
    rw [(List.mem_replicate.1 hrow).2]; simp
  · intro d hd i hi'
    unfold entry
    rw [hpd, hlen]
    simp [List.getElem?_replicate, hd, hi']

/-- **C46**: the constructor succeeds exactly when there is at least one frequency. -/
theorem C46_succeeds_iff (p : Proc) (n : ℕ) : (∃ s, Dos.init p n = .ok s) ↔ 0 < p.nk ∧ 0 < p.nb := by
  unfold Dos.init
  constructor
  · rintro ⟨s, h⟩
    rcases hlo : p.allFreq.min? with _ | lo
    · simp [hlo] at h
    obtain ⟨k, hk, b, hb, -⟩ := (allFreq_mem p lo).1 (List.min?_eq_some_iff.1 hlo).1
    exact ⟨by omega, by omega⟩
  · rintro ⟨hk, hb⟩
    have hne : p.allFreq ≠ [] := List.ne_nil_of_mem ((allFreq_mem p (p.w 0 0)).2 ⟨0, hk, 0, hb, rfl⟩)
    rcases hlo : p.allFreq.min? with _ | lo
    · exact absurd (List.min?_eq_none_iff.1 hlo) hne
    rcases hhi : p.allFreq.max? with _ | hi
    · exact absurd (List.max?_eq_none_iff.1 hhi) hne
    exact ⟨_, rfl⟩

/-! ### Entries after an update -/

theorem entry_map (upd : ℝ → ℕ → Option ℝ → Option ℝ) (s : State) (t) (d i : ℕ) (old : Option ℝ) (f : ℝ)
    (h : entry s d i = some old) (hf : s.freq[i]? = some f) :
    entry { s with pdos := mapEntries upd s.freq s.pdos, tdos := t } d i = some (upd f d old) := by
  unfold entry at *
  simp only [mapEntries, List.getElem?_map, List.getElem?_zipIdx]
  rcases hr : s.pdos[d]? with _ | row
  · simp [hr] at h
  · simp only [hr, Option.bind_some] at h
    have hz : (row.zip s.freq)[i]? = some (old, f) := List.getElem?_zip_eq_some.2 ⟨h, hf⟩
    simp [hz]

private theorem shaped_map (upd : ℝ → ℕ → Option ℝ → Option ℝ) (p : Proc) (s : State) (t) (h : Shaped p s) :
    Shaped p { s with pdos := mapEntries upd s.freq s.pdos, tdos := t } := by
  obtain ⟨h1, h2⟩ := h
  refine ⟨by simp [mapEntries, h1], ?_⟩
  intro row hrow
  simp only [mapEntries, List.mem_map] at hrow
  obtain ⟨⟨r, d⟩, hr, rfl⟩ := hrow
  have := h2 r (List.fst_mem_of_mem_zipIdx hr)
  simp [this]

private theorem shaped_entry {p : Proc} {s : State} (h : Shaped p s) {d i : ℕ} (hd : d < p.nd) (hi : i < s.freq.length) : ∃ o, entry s d i = some o := by
  obtain ⟨h1, h2⟩ := h
  have hd' : d < s.pdos.length := by omega
  refine ⟨(s.pdos[d])[i]'(by rw [h2 _ (List.getElem_mem hd')]; exact hi), ?_⟩
  unfold entry
  rw [List.getElem?_eq_getElem hd', Option.bind_some, List.getElem?_eq_getElem]

/-- The update `DOS.set` applies to each entry (for a dimension ≥ 1 or with smearing). -/
def entryUpdate (arg2 : Argsort 2) (arg3 : Argsort 3) (arg4 : Argsort 4) (p : Proc) (sigma : ℝ) (u : ℝ → ℕ → Option ℝ → Option ℝ) : Prop :=
  (sigma ≠ 0 ∧ u = gaussEntry p sigma) ∨ (sigma = 0 ∧ indPbc p.periodicity ≠ [] ∧ tetraUpdate arg2 arg3 arg4 p (indPbc p.periodicity) = .ok u)

private theorem set_update {arg2 : Argsort 2} {arg3 : Argsort 3} {arg4 : Argsort 4} {p : Proc} {sigma : ℝ} {s s' : State}
    (h : Dos.set arg2 arg3 arg4 p sigma s = .ok s') (hd : sigma ≠ 0 ∨ ∃ c, p.periodicity c = true) :
    ∃ u, entryUpdate arg2 arg3 arg4 p sigma u ∧
      s' = { s with pdos := mapEntries u s.freq s.pdos, tdos := some (sumRows s.freq.length (mapEntries u s.freq s.pdos)) } := by
  unfold Dos.set at h
  by_cases hs : sigma = 0
  · rw [if_pos hs] at h
    have hne : indPbc p.periodicity ≠ [] := by
      rcases hd with hd | ⟨c, hc⟩
      · exact absurd hs hd
      · intro he
        have : c ∈ indPbc p.periodicity := by
          simp only [indPbc, List.mem_filter, hc, and_true]
          fin_cases c <;> simp
        rw [he] at this; simp at this
    rcases hl : indPbc p.periodicity with _ | ⟨a, l⟩
    · exact absurd hl hne
    · simp only [hl] at h
      rcases hu : tetraUpdate arg2 arg3 arg4 p (a :: l) with e | u
      · rw [hu] at h; cases h
      · rw [hu] at h
        refine ⟨u, Or.inr ⟨hs, hne, by rw [hl]; exact hu⟩, ?_⟩
        injection h with h
        exact h.symm
  · rw [if_neg hs] at h
    injection h with h
    exact ⟨_, Or.inl ⟨hs, rfl⟩, h.symm⟩

/-! ### C44 -/

private theorem list_range_sum (n : ℕ) (g : ℕ → ℝ) : ((List.range n).map g).sum = ∑ i ∈ Finset.range n, g i := by
  induction n with
  | zero => simp
  | succ n ih => rw [List.range_succ, List.map_append, List.sum_append, ih, Finset.sum_range_succ]; simp


/-- Sum of a list of entries that are all numbers. -/
private theorem nanSum_some (l : List ℝ) : nanSum (l.map some) = some l.sum := by
  have : ∀ (l : List ℝ) (a : ℝ), (l.map some).foldl (fun a b => a.bind fun x => b.map fun y => x + y) (some a) = some (a + l.sum) := by
    intro l
    induction l with
    | nil => simp
    | cons x l ih => intro a; simp [ih, add_assoc]
  have h0 := this l 0
  rw [zero_add] at h0
  exact h0

/-- **C44.**  After `DOS.set` with smearing, or with the tetrahedron method and at least one periodic direction, the total
DOS has one entry per frequency and, wherever the projected entries are numbers, equals their sum. -/
theorem C44_total_partial (arg2 : Argsort 2) (arg3 : Argsort 3) (arg4 : Argsort 4) (p : Proc) (sigma : ℝ) (s s' : State) (hs : Shaped p s)
    (h : Dos.set arg2 arg3 arg4 p sigma s = .ok s') (hd : sigma ≠ 0 ∨ ∃ c, p.periodicity c = true) :
    s'.freq = s.freq ∧ Shaped p s' ∧ ∃ t, s'.tdos = some t ∧ t.length = s'.freq.length ∧
      ∀ i < s'.freq.length, ∀ x : ℕ → ℝ, (∀ d < p.nd, entry s' d i = some (some (x d))) → t[i]? = some (some (∑ d ∈ Finset.range p.nd, x d)) := by
  obtain ⟨u, -, rfl⟩ := set_update h hd
  have hsh := shaped_map u p s (some (sumRows s.freq.length (mapEntries u s.freq s.pdos))) hs
  refine ⟨rfl, hsh, _, rfl, by simp [sumRows], ?_⟩
  intro i hi x hx
  simp only [sumRows] at *
  rw [List.getElem?_map, List.getElem?_range hi]
  simp only [Option.map_some]
  congr 1
  have hcol : ((mapEntries u s.freq s.pdos).map fun row => (row[i]?).getD none) = ((List.range p.nd).map x).map some := by
    apply List.ext_getElem?
    intro d
    rw [List.getElem?_map, List.getElem?_map, List.getElem?_map]
    by_cases hd : d < p.nd
    · have := hx d hd
      unfold entry at this
      simp only at this
      rcases hr : (mapEntries u s.freq s.pdos)[d]? with _ | row
      · simp [hr] at this
      · simp only [hr, Option.bind_some] at this
        simp [this, List.getElem?_range hd]
    · have h1 : (mapEntries u s.freq s.pdos).length = p.nd := hsh.1
      rw [List.getElem?_eq_none (by omega), List.getElem?_eq_none (by simp; omega)]
      rfl
  rw [hcol, nanSum_some]
  rw [list_range_sum]

/-- Sum of a list of entries one of which is not a number. -/
private theorem nanSum_none (l : List (Option ℝ)) (h : none ∈ l) : nanSum l = none := by
  have hn : ∀ l : List (Option ℝ), l.foldl (fun a b => a.bind fun x => b.map fun y => x + y) none = none := by
    intro l
    induction l with
    | nil => rfl
    | cons x l ih => simpa using ih
  have : ∀ (l : List (Option ℝ)) (a : Option ℝ), none ∈ l → l.foldl (fun a b => a.bind fun x => b.map fun y => x + y) a = none := by
    intro l
    induction l with
    | nil => intro a h; cases h
    | cons x l ih =>
      intro a h
      rw [List.foldl_cons]
      rcases List.mem_cons.1 h with rfl | h
      · have e : (a.bind fun x => (none : Option ℝ).map fun y => x + y) = none := by cases a <;> rfl
        rw [e]; exact hn l
      · exact ih _ h
  exact this l _ h

/-- **C44** (NaN).  In the same situations: where a projected entry is not a number, the total is not one either. -/
theorem C44_total_nan (arg2 : Argsort 2) (arg3 : Argsort 3) (arg4 : Argsort 4) (p : Proc) (sigma : ℝ) (s s' : State)
    (h : Dos.set arg2 arg3 arg4 p sigma s = .ok s') (hd : sigma ≠ 0 ∨ ∃ c, p.periodicity c = true) (i d : ℕ) (hi : i < s'.freq.length)
    (he : entry s' d i = some none) : ∃ t, s'.tdos = some t ∧ t[i]? = some none := by
  obtain ⟨u, -, rfl⟩ := set_update h hd
  refine ⟨_, rfl, ?_⟩
  simp only [sumRows] at *
  rw [List.getElem?_map, List.getElem?_range hi]
  simp only [Option.map_some]
  congr 1
  apply nanSum_none
  unfold entry at he
  simp only at he
  rcases hr : (mapEntries u s.freq s.pdos)[d]? with _ | row
  · simp [hr] at he
  · simp only [hr, Option.bind_some] at he
    exact List.mem_map.2 ⟨row, List.mem_of_getElem? hr, by rw [he]; rfl⟩

/-- **C44 refuted** without periodic directions and without smearing: the projected DOS is left at zero on the old grid
while the frequencies are replaced and the total DOS is set to one at each of them. -/
theorem C44_zero_dim_refuted (arg2 : Argsort 2) (arg3 : Argsort 3) (arg4 : Argsort 4) (p : Proc) (hp : ∀ c, p.periodicity c = false) (n : ℕ) (hn : 0 < n)
    (s : State) (h : Dos.init p n = .ok s) :
    ∃ s', Dos.set arg2 arg3 arg4 p 0 s = .ok s' ∧ s'.freq = (List.range p.nb).map (p.w 0) ∧
      s'.tdos = some (List.replicate p.nb (some 1)) ∧ ∀ d < p.nd, ∀ i < n, entry s' d i = some (some 0) := by
  obtain ⟨lo, hi, -, -, -, -, -, -, -, -, h0⟩ := C46_grid p n hn s h
  have : indPbc p.periodicity = [] := by simp [indPbc, hp]
  refine ⟨{ s with freq := (List.range p.nb).map (p.w 0), tdos := some (List.replicate p.nb (some 1)) }, ?_, rfl, rfl, h0⟩
  unfold Dos.set
  rw [if_pos rfl, this]

/-- **C44** (exactly when).  On a fresh object the total DOS is the sum of the projected DOS — at every grid point where that is a number —
precisely with smearing or with a periodic direction. -/
theorem C44_iff (arg2 : Argsort 2) (arg3 : Argsort 3) (arg4 : Argsort 4) (p : Proc) (sigma : ℝ) (n : ℕ) (hn : 0 < n) (s s' : State)
    (h0 : Dos.init p n = .ok s) (h : Dos.set arg2 arg3 arg4 p sigma s = .ok s') :
    (∃ t, s'.tdos = some t ∧ ∀ i < s'.freq.length, ∀ x : ℕ → ℝ, (∀ d < p.nd, entry s' d i = some (some (x d))) → t[i]? = some (some (∑ d ∈ Finset.range p.nd, x d))) ↔
      sigma ≠ 0 ∨ ∃ c, p.periodicity c = true := by
  constructor
  · rintro ⟨t, ht, hsum⟩
    by_contra hc
    push Not at hc
    obtain ⟨rfl, hp⟩ := hc
    obtain ⟨s1, h1, hf, htd, hz⟩ := C44_zero_dim_refuted arg2 arg3 arg4 p (fun c => by simpa using hp c) n hn s h0
    rw [h1] at h
    cases h
    have hnb : 0 < p.nb := ((C46_succeeds_iff p n).1 ⟨s, h0⟩).2
    have := hsum 0 (by rw [hf]; simpa using hnb) (fun _ => 0) (fun d hd => hz d hd 0 hn)
    rw [htd] at ht
    cases ht
    rw [List.getElem?_replicate, if_pos hnb] at this
    simp at this
  · intro hd
    obtain ⟨lo, hi, -, -, -, -, -, -, -, hsh, -⟩ := C46_grid p n hn s h0
    obtain ⟨-, -, t, ht, -, hsum⟩ := C44_total_partial arg2 arg3 arg4 p sigma s s' hsh h hd
    exact ⟨t, ht, hsum⟩

/-! ### C47 -/

/-- An update that adds a fixed amount (or NaN). -/
def Additive (u : ℝ → ℕ → Option ℝ → Option ℝ) : Prop := ∀ f d, (∃ c : ℝ, ∀ old, u f d old = old.map (· + c)) ∨ ∀ old, u f d old = none

private theorem gauss_fold (p : Proc) (sigma f : ℝ) (d : ℕ) (old : Option ℝ) :
    gaussEntry p sigma f d old =
      old.map (· + ((List.range p.nk).map fun k => ((List.range p.nb).map fun b => gauss sigma f (p.w k b) / p.kPoints.length * p.F k b d).sum).sum) := by
  have inner : ∀ (L : List ℕ) (k : ℕ) (acc : Option ℝ), L.foldl (fun acc b => acc.map fun x => x + gauss sigma f (p.w k b) / p.kPoints.length * p.F k b d) acc =
      acc.map (· + (L.map fun b => gauss sigma f (p.w k b) / p.kPoints.length * p.F k b d).sum) := by
    intro L k
    induction L with
    | nil => intro acc; simp
    | cons b L ih =>
      intro acc
      rw [List.foldl_cons, ih]
      cases acc <;> simp [add_assoc]
  unfold gaussEntry
  generalize List.range p.nk = K
  induction K generalizing old with
  | nil => simp
  | cons k K ih =>
    rw [List.foldl_cons, inner, ih]
    cases old <;> simp [add_assoc]

private theorem column_additive {m : ℕ} (arg : Argsort m) (br : ℝ → (Fin m → ℝ) → Branch m) (vol f : ℝ) (nb : ℕ) (simplices : List (Fin m → ℕ))
    (w : ℕ → ℕ → ℝ) (F : ℕ → ℕ → ℕ → ℝ) (d : ℕ) :
    (∃ c : ℝ, ∀ old, column arg br vol f nb simplices w F d old = old.map (· + c)) ∨ ∀ old, column arg br vol f nb simplices w F d old = none := by
  by_cases h : ∃ b < nb, ∃ s ∈ simplices, br f (sortedFreq arg (fun k => w k b) s) = .nan
  · exact Or.inr fun old => column_nan _ _ _ _ _ _ _ _ _ _ h
  · left
    push Not at h
    refine ⟨((List.range nb).map fun b => (simplices.map fun s =>
        value vol (usedAmp arg (fun k => w k b) (fun k => F k b d) s) (br f (sortedFreq arg (fun k => w k b) s))).sum).sum, fun old => ?_⟩
    cases old with
    | some a => exact column_some _ _ _ _ _ _ _ _ _ a h
    | none =>
      have hno : ∀ L : List ℕ, L.foldl (fun acc b => simplices.foldl (simplexStep arg br vol f (fun k => w k b) (fun k => F k b d)) acc) none = none := by
        intro L
        induction L with
        | nil => rfl
        | cons b L ih =>
          rw [List.foldl_cons]
          have : simplices.foldl (simplexStep arg br vol f (fun k => w k b) (fun k => F k b d)) none = none := by
            generalize simplices = S
            induction S with
            | nil => rfl
            | cons s S ih =>
              rw [List.foldl_cons]
              have : simplexStep arg br vol f (fun k => w k b) (fun k => F k b d) none s = none := by
                unfold simplexStep
                dsimp only
                generalize br f _ = B
                cases B <;> rfl
              rw [this, ih]
          rw [this, ih]
      exact hno _

private theorem update_additive {arg2 : Argsort 2} {arg3 : Argsort 3} {arg4 : Argsort 4} {p : Proc} {sigma : ℝ} {u} (h : entryUpdate arg2 arg3 arg4 p sigma u) : Additive u := by
  intro f d
  rcases h with ⟨-, rfl⟩ | ⟨-, hne, h⟩
  · exact Or.inl ⟨_, fun old => gauss_fold ..⟩
  · unfold tetraUpdate at h
    split at h
    · next a _ =>
      rcases hv : volume1 p.kPoints (p.auto a) with e | vol
      · rw [hv] at h; cases h
      · rw [hv] at h; injection h with h; subst h; exact column_additive ..
    · next a b _ =>
      rcases hv : volume2 p.kPoints (p.auto b) a b with e | vol
      · rw [hv] at h; cases h
      · rw [hv] at h; injection h with h; subst h; exact column_additive ..
    · next a b c _ =>
      rcases hv : volume3 p.kPoints (p.auto b) (p.auto c) with e | vol
      · rw [hv] at h; cases h
      · rw [hv] at h; injection h with h; subst h; exact column_additive ..
    · injection h with h; subst h; exact Or.inl ⟨0, fun old => by cases old <;> simp⟩

/-- **C47 refuted**: with smearing, or with the tetrahedron method and a periodic direction, calling `set` a second time on a
freshly constructed object doubles every entry of the projected DOS. -/
theorem C47_doubles_refuted (arg2 : Argsort 2) (arg3 : Argsort 3) (arg4 : Argsort 4) (p : Proc) (sigma : ℝ) (n : ℕ) (hn : 0 < n) (s0 s1 s2 : State)
    (hd : sigma ≠ 0 ∨ ∃ c, p.periodicity c = true)
    (h0 : Dos.init p n = .ok s0) (h1 : Dos.set arg2 arg3 arg4 p sigma s0 = .ok s1) (h2 : Dos.set arg2 arg3 arg4 p sigma s1 = .ok s2) :
    ∀ d < p.nd, ∀ i < n, ∃ o, entry s1 d i = some o ∧ entry s2 d i = some (o.map (2 * ·)) := by
  obtain ⟨lo, hi, -, -, -, hlen, hget, -, -, hsh, hz⟩ := C46_grid p n hn s0 h0
  obtain ⟨u, hu, e1⟩ := set_update h1 hd
  obtain ⟨u', hu', e2⟩ := set_update h2 hd
  have huu : u' = u := by
    rcases hu with ⟨a1, rfl⟩ | ⟨a1, a2, a3⟩ <;> rcases hu' with ⟨b1, rfl⟩ | ⟨b1, b2, b3⟩
    · rfl
    · exact absurd b1 a1
    · exact absurd a1 b1
    · rw [a3] at b3; injection b3 with b3; exact b3.symm
  subst huu
  intro d hdlt i hi'
  have hf := hget i hi'
  have g1 : entry s1 d i = some (u' (lo - 2 + i * ((hi - lo + 4) / n)) d (some 0)) := by rw [e1]; exact entry_map u' s0 _ d i _ _ (hz d hdlt i hi') hf
  have hf1 : s1.freq[i]? = some (lo - 2 + i * ((hi - lo + 4) / n)) := by rw [e1]; exact hf
  have g2 : entry s2 d i = some (u' (lo - 2 + i * ((hi - lo + 4) / n)) d (u' (lo - 2 + i * ((hi - lo + 4) / n)) d (some 0))) := by
    rw [e2]; exact entry_map u' s1 _ d i _ _ g1 hf1
  refine ⟨_, g1, ?_⟩
  rw [g2]
  rcases update_additive hu (lo - 2 + i * ((hi - lo + 4) / n)) d with ⟨c, hc⟩ | hc
  · simp [hc]; ring
  · simp [hc]

/-- **C47** (partial): without periodic directions and without smearing, repeating `set` changes nothing. -/
theorem C47_zero_dim_partial (arg2 : Argsort 2) (arg3 : Argsort 3) (arg4 : Argsort 4) (p : Proc) (hp : ∀ c, p.periodicity c = false) (s s1 : State)
    (h1 : Dos.set arg2 arg3 arg4 p 0 s = .ok s1) : Dos.set arg2 arg3 arg4 p 0 s1 = .ok s1 := by
  have : indPbc p.periodicity = [] := by simp [indPbc, hp]
  unfold Dos.set at *
  rw [if_pos rfl, this] at h1
  rw [if_pos rfl, this]
  injection h1 with h1
  rw [← h1]

/-- **C47** (exactly when).  With smearing or a periodic direction, on a fresh object, a second `set` leaves the same DOS precisely when every
entry of the projected DOS was zero or NaN after the first. -/
theorem C47_iff (arg2 : Argsort 2) (arg3 : Argsort 3) (arg4 : Argsort 4) (p : Proc) (sigma : ℝ) (n : ℕ) (hn : 0 < n) (s0 s1 s2 : State)
    (hd : sigma ≠ 0 ∨ ∃ c, p.periodicity c = true)
    (h0 : Dos.init p n = .ok s0) (h1 : Dos.set arg2 arg3 arg4 p sigma s0 = .ok s1) (h2 : Dos.set arg2 arg3 arg4 p sigma s1 = .ok s2) :
    s2 = s1 ↔ ∀ d < p.nd, ∀ i < n, entry s1 d i = some (some 0) ∨ entry s1 d i = some none := by
  have hdbl := C47_doubles_refuted arg2 arg3 arg4 p sigma n hn s0 s1 s2 hd h0 h1 h2
  obtain ⟨lo, hi, -, -, -, hlen, -, -, -, hsh, -⟩ := C46_grid p n hn s0 h0
  constructor
  · rintro rfl d hdl i hil
    obtain ⟨o, e1, e2⟩ := hdbl d hdl i hil
    rw [e1] at e2
    rcases o with _ | x
    · exact .inr e1
    · refine .inl ?_
      rw [e1]
      simp only [Option.map_some, Option.some.injEq] at e2
      simp only [Option.some.injEq]
      linarith
  · intro h
    have f1 := (C44_total_partial arg2 arg3 arg4 p sigma s0 s1 hsh h1 hd)
    have f2 := (C44_total_partial arg2 arg3 arg4 p sigma s1 s2 f1.2.1 h2 hd)
    obtain ⟨u, hu, e1⟩ := set_update h1 hd
    obtain ⟨u', hu', e2⟩ := set_update h2 hd
    have hl1 : s1.freq.length = n := by rw [f1.1, hlen]
    have hl2 : s2.freq.length = n := by rw [f2.1, hl1]
    have hp : s2.pdos = s1.pdos := by
      refine List.ext_getElem? fun d => ?_
      by_cases hdl : d < p.nd
      · have q1 : d < s1.pdos.length := by rw [f1.2.1.1]; exact hdl
        have q2 : d < s2.pdos.length := by rw [f2.2.1.1]; exact hdl
        rw [List.getElem?_eq_getElem q1, List.getElem?_eq_getElem q2]
        congr 1
        refine List.ext_getElem? fun i => ?_
        by_cases hil : i < n
        · have g1 : entry s1 d i = (s1.pdos[d])[i]? := by unfold entry; rw [List.getElem?_eq_getElem q1]; rfl
          have g2 : entry s2 d i = (s2.pdos[d])[i]? := by unfold entry; rw [List.getElem?_eq_getElem q2]; rfl
          rw [← g1, ← g2]
          obtain ⟨o, a1, a2⟩ := hdbl d hdl i hil
          rw [a1, a2]
          rcases h d hdl i hil with h | h
          · rw [a1] at h; injection h with h; subst h; simp
          · rw [a1] at h; injection h with h; subst h; simp
        · rw [List.getElem?_eq_none (by rw [f2.2.1.2 _ (List.getElem_mem q2)]; omega), List.getElem?_eq_none (by rw [f1.2.1.2 _ (List.getElem_mem q1)]; omega)]
      · rw [List.getElem?_eq_none (by rw [f2.2.1.1]; omega), List.getElem?_eq_none (by rw [f1.2.1.1]; omega)]
    have ht1 : s1.tdos = some (sumRows s1.freq.length s1.pdos) := by rw [e1]
    have ht2 : s2.tdos = some (sumRows s2.freq.length s2.pdos) := by rw [e2]
    have hf : s2.freq = s1.freq := f2.1
    rcases s1 with ⟨fr1, pd1, td1⟩
    rcases s2 with ⟨fr2, pd2, td2⟩
    simp only at hp ht1 ht2 hf
    subst hp hf
    rw [ht1, ht2]

/-! ### C48 -/

/-- Specification: the normal density with mean `w` and standard deviation `sigma`. -/
def bell (sigma w f : ℝ) : ℝ := Real.exp (-((f - w) / sigma) ^ 2 / 2) / (sigma * Real.sqrt (2 * Real.pi))

private theorem gauss_bell (sigma w f : ℝ) : gauss sigma f w = bell sigma w f := by
  unfold gauss bell
  rw [show -((f - w) / sigma) ^ 2 / 2 = -(f - w) ^ 2 / (2 * sigma ^ 2) by rw [div_pow, neg_div, neg_div, div_div, mul_comm (sigma ^ 2)]]
  ring

/-- The projected DOS that the smearing adds to an entry at frequency `f`. -/
def gaussDos (p : Proc) (sigma : ℝ) (d : ℕ) (f : ℝ) : ℝ := ∑ k ∈ Finset.range p.nk, ∑ b ∈ Finset.range p.nb,
  bell sigma (p.w k b) f / p.kPoints.length * p.F k b d

/-- **C48** (value).  On a fresh object with `sigma ≠ 0`, every projected entry after `set` is the sum over k points and
branches of the Gaussians times the squared amplitude over the number of k points. -/
theorem C48_entry (arg2 : Argsort 2) (arg3 : Argsort 3) (arg4 : Argsort 4) (p : Proc) (sigma : ℝ) (hs : sigma ≠ 0) (n : ℕ) (hn : 0 < n) (s0 : State)
    (h0 : Dos.init p n = .ok s0) :
    ∃ s1, Dos.set arg2 arg3 arg4 p sigma s0 = .ok s1 ∧ s1.freq = s0.freq ∧
      ∀ d < p.nd, ∀ i < n, ∀ f, s0.freq[i]? = some f → entry s1 d i = some (some (gaussDos p sigma d f)) := by
  obtain ⟨lo, hi, -, -, -, hlen, hget, -, -, hsh, hz⟩ := C46_grid p n hn s0 h0
  refine ⟨{ s0 with pdos := mapEntries (gaussEntry p sigma) s0.freq s0.pdos, tdos := some (sumRows s0.freq.length (mapEntries (gaussEntry p sigma) s0.freq s0.pdos)) },
    by unfold Dos.set; rw [if_neg hs], rfl, ?_⟩
  intro d hd i hi' f hf
  rw [entry_map _ _ _ d i _ f (hz d hd i hi') hf, gauss_fold]
  simp only [Option.map_some, zero_add, gaussDos, list_range_sum, gauss_bell]

private theorem bell_eq (sigma : ℝ) (hs : 0 < sigma) (f w : ℝ) :
    bell sigma w f = ProbabilityTheory.gaussianPDFReal w ⟨sigma ^ 2, by positivity⟩ f := by
  rw [← gauss_bell]
  unfold gauss ProbabilityTheory.gaussianPDFReal
  have : Real.sqrt (2 * Real.pi * sigma ^ 2) = sigma * Real.sqrt (2 * Real.pi) := by
    rw [Real.sqrt_mul (by positivity), Real.sqrt_sq hs.le, mul_comm]
  change _ = (Real.sqrt (2 * Real.pi * sigma ^ 2))⁻¹ * Real.exp (-(f - w) ^ 2 / (2 * sigma ^ 2))
  rw [this, one_div]

/-- **C48** (unit area).  Each Gaussian is positive and has area 1, for every `sigma > 0`. -/
theorem C48_unit_area (sigma : ℝ) (hs : 0 < sigma) (w : ℝ) :
    (∀ f, 0 < bell sigma w f) ∧ Integrable (fun f => bell sigma w f) ∧ ∫ f, bell sigma w f = 1 := by
  have hv : (⟨sigma ^ 2, by positivity⟩ : NNReal) ≠ 0 := by
    intro h
    have h2 : sigma ^ 2 = 0 := congrArg NNReal.toReal h
    have : 0 < sigma ^ 2 := by positivity
    linarith
  refine ⟨fun f => ?_, ?_, ?_⟩
  · unfold bell; positivity
  · simp only [bell_eq sigma hs]; exact ProbabilityTheory.integrable_gaussianPDFReal _ _
  · simp only [bell_eq sigma hs]; exact ProbabilityTheory.integral_gaussianPDFReal_eq_one _ hv

/-- **C48** (projected).  The projected DOS is non-negative and its integral over all frequencies is the sum of the squared
amplitudes divided by the number of k points. -/
theorem C48_projected (p : Proc) (sigma : ℝ) (hs : 0 < sigma) (hF : ∀ k b d, 0 ≤ p.F k b d) (d : ℕ) :
    (∀ f, 0 ≤ gaussDos p sigma d f) ∧ Integrable (gaussDos p sigma d) ∧
      ∫ f, gaussDos p sigma d f = (∑ k ∈ Finset.range p.nk, ∑ b ∈ Finset.range p.nb, p.F k b d) / p.kPoints.length := by
  have hi : ∀ k b, Integrable fun f => bell sigma (p.w k b) f / p.kPoints.length * p.F k b d := fun k b =>
    ((C48_unit_area sigma hs (p.w k b)).2.1.div_const _).mul_const _
  refine ⟨fun f => ?_, ?_, ?_⟩
  · exact Finset.sum_nonneg fun k _ => Finset.sum_nonneg fun b _ => mul_nonneg (div_nonneg ((C48_unit_area sigma hs _).1 f).le (Nat.cast_nonneg _)) (hF ..)
  · exact integrable_finset_sum _ fun k _ => integrable_finset_sum _ fun b _ => hi k b
  · unfold gaussDos
    rw [integral_finset_sum _ fun k _ => integrable_finset_sum _ fun b _ => hi k b, Finset.sum_div]
    refine Finset.sum_congr rfl fun k _ => ?_
    rw [integral_finset_sum _ fun b _ => hi k b, Finset.sum_div]
    refine Finset.sum_congr rfl fun b _ => ?_
    rw [integral_mul_const, integral_div, (C48_unit_area sigma hs _).2.2]
    ring

/-- **C48** (total).  With normalised modes and one row of frequencies per k point, the total DOS integrates to the number
of branches. -/
theorem C48_total (p : Proc) (sigma : ℝ) (hs : 0 < sigma) (hF : ∀ k b d, 0 ≤ p.F k b d) (hnorm : ∀ k < p.nk, ∀ b < p.nb, ∑ d ∈ Finset.range p.nd, p.F k b d = 1)
    (hk : p.kPoints.length = p.nk) (h0 : 0 < p.nk) :
    ∫ f, ∑ d ∈ Finset.range p.nd, gaussDos p sigma d f = p.nb := by
  rw [integral_finset_sum _ fun d _ => (C48_projected p sigma hs hF d).2.1]
  simp only [(C48_projected p sigma hs hF _).2.2, hk]
  rw [← Finset.sum_div, Finset.sum_comm]
  have : ∀ k ∈ Finset.range p.nk, ∑ d ∈ Finset.range p.nd, ∑ b ∈ Finset.range p.nb, p.F k b d = p.nb := by
    intro k hk'
    rw [Finset.sum_comm, Finset.sum_congr rfl fun b hb => hnorm k (Finset.mem_range.1 hk') b (Finset.mem_range.1 hb)]
    simp
  rw [Finset.sum_congr rfl this]
  have : (p.nk : ℝ) ≠ 0 := by exact_mod_cast h0.ne'
  simp [this]

/-- A small spectrum (two k points, one atom moving along x, one branch each). -/
def exampleProc : Proc := { nk := 2, nb := 1, nd := 1, w := fun k _ => k, F := fun _ _ _ => 1, kPoints := [0, ![1 / 2, 0, 0]], auto := ![2, 1, 1], periodicity := ![true, false, false] }

example : ∃ s, Dos.init exampleProc 4 = .ok s := (C46_succeeds_iff exampleProc 4).2 ⟨by decide, by decide⟩
example : (∀ k b d, 0 ≤ exampleProc.F k b d) ∧ (∀ k < exampleProc.nk, ∀ b < exampleProc.nb, ∑ d ∈ Finset.range exampleProc.nd, exampleProc.F k b d = 1) ∧
    exampleProc.kPoints.length = exampleProc.nk := by
  refine ⟨fun _ _ _ => zero_le_one, fun k _ b _ => by simp [exampleProc], rfl⟩

/-- The doubled entries of C47 really differ: with smearing every entry is positive when some squared amplitude is. -/
theorem C47_differs_refuted (p : Proc) (sigma : ℝ) (hs : 0 < sigma) (hF : ∀ k b d, 0 < p.F k b d) (hk : p.kPoints ≠ []) (h0 : 0 < p.nk) (h1 : 0 < p.nb) (d : ℕ) (f : ℝ) :
    gaussDos p sigma d f ≠ 2 * gaussDos p sigma d f := by
  have hlen : (0 : ℝ) < p.kPoints.length := by exact_mod_cast List.length_pos_iff.2 hk
  have : 0 < gaussDos p sigma d f := by
    refine Finset.sum_pos (fun k _ => Finset.sum_pos (fun b _ => mul_pos (div_pos ((C48_unit_area sigma hs _).1 f) hlen) (hF ..)) ?_) ?_
    · exact Finset.nonempty_range_iff.2 h1.ne'
    · exact Finset.nonempty_range_iff.2 h0.ne'
  intro h
  linarith

end

end Interphon.Props
