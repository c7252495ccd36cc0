import Verif.Props.Dos
import Verif.Props.TetraWeight

/-! C43: the simplices that the density of states of a periodic system sums over are the cells of *its* mesh: which simplices `DOS.set` uses, and which wave vectors their
corners are. -/

namespace Interphon.Props
open Interphon Interphon.Tetra Interphon.Dos

/-- Position of the mesh point `(x 0, x 1, x 2)` in the list of wave vectors, third index fastest (C33). -/
def meshIndex (n x : Fin 3 → ℕ) : ℕ := (x 0 * n 1 + x 1) * n 2 + x 2

/-- Corners of a mesh cell from the corner at its origin: every step switches one more periodic direction from 0 to 1. -/
def IsChain {m : ℕ} (per : Fin 3 → Bool) (o : Fin (m + 1) → Fin 3 → ℕ) : Prop :=
  o 0 = 0 ∧ ∀ i : Fin m, ∃ c, per c = true ∧ o i.castSucc c = 0 ∧ o i.succ = Function.update (o i.castSucc) c 1

/-- A simplex of the mesh: the corners of a chain in some cell, with wrap-around at the zone boundary. -/
def IsSimplex {m : ℕ} (n : Fin 3 → ℕ) (per : Fin 3 → Bool) (t : Fin (m + 1) → ℕ) : Prop :=
  ∃ cell : Fin 3 → ℕ, (∀ c, cell c < n c) ∧ ∃ o, IsChain per o ∧ ∀ i, t i = meshIndex n fun c => (cell c + o i c) % n c

/-- **C43** (corners).  On the mesh of a k-point file the corners of a simplex are the wave vectors of the corners of its cell, up to reciprocal lattice vectors: the
`c`-th component of corner `i` is `(cell_c + o_i,c + shift_c)/n_c` modulo 1. -/
theorem C43_corner_wave_vectors {m : ℕ} (off : ℚ) (n : Fin 3 → ℤ) (s : Fin 3 → ℚ) (per : Fin 3 → Bool) (hn : ∀ c, 0 < n c)
    (t : Fin (m + 1) → ℕ) (ht : IsSimplex (fun c => (n c).toNat) per t) :
    ∃ cell : Fin 3 → ℕ, (∀ c, (cell c : ℤ) < n c) ∧ ∃ o, IsChain per o ∧ ∀ i, ∃ k, (meshR off n s per)[t i]? = some k ∧
      ∀ c, per c = true → ∃ z : ℤ, k c = ((cell c : ℝ) + o i c + s c + off) / n c - z := by
  obtain ⟨cell, hc, o, ho, e⟩ := ht
  have hcell : ∀ c, (cell c : ℤ) < n c := fun c => by have := hc c; simp only at this; omega
  have hpos : ∀ c, 0 < (n c).toNat := fun c => by have := hn c; omega
  refine ⟨cell, hcell, o, ho, fun i => ?_⟩
  have hlt : ∀ c, (((cell c + o i c) % (n c).toNat : ℕ) : ℤ) < n c := fun c => by
    have := Nat.mod_lt (cell c + o i c) (hpos c)
    omega
  have := C33_order off n s per _ _ _ (hlt 0) (hlt 1) (hlt 2)
  refine ⟨fun c => ((meshPoint off n s per (fun c => (cell c + o i c) % (n c).toNat) c : ℚ) : ℝ), ?_, fun c hper => ?_⟩
  · unfold meshR
    rw [List.getElem?_map, e i, meshIndex, this]
    simp only [Option.map_some, Option.some.injEq]
    congr 1
    funext c
    congr 2
    funext c
    fin_cases c <;> rfl
  · refine ⟨(((cell c + o i c) / (n c).toNat : ℕ) : ℤ), ?_⟩
    rw [Int.cast_natCast]
    have hd := Nat.div_add_mod (cell c + o i c) (n c).toNat
    have hz : ((n c).toNat : ℝ) = (n c : ℝ) := by
      have : (((n c).toNat : ℤ)) = n c := by have := hn c; omega
      exact_mod_cast this
    have hne : (n c : ℝ) ≠ 0 := by exact_mod_cast (hn c).ne'
    have hd' : ((n c).toNat : ℝ) * ((cell c + o i c) / (n c).toNat : ℕ) + ((cell c + o i c) % (n c).toNat : ℕ) = cell c + o i c := by exact_mod_cast hd
    simp only [meshPoint, hper, if_true]
    generalize (cell c + o i c) / (n c).toNat = q at *
    generalize (cell c + o i c) % (n c).toNat = r at *
    push_cast
    rw [← hd', hz]
    field_simp
    ring

private theorem chain1 {per : Fin 3 → Bool} {o : Fin 2 → Fin 3 → ℕ} (h : IsChain (m := 1) per o) : ∃ a, per a = true ∧ o = ![0, Pi.single a 1] := by
  obtain ⟨h0, h1⟩ := h
  obtain ⟨a, ha, -, e⟩ := h1 0
  refine ⟨a, ha, ?_⟩
  funext i
  fin_cases i
  · exact h0
  · show o (Fin.succ 0) = _
    rw [e]
    show Function.update (o 0) a 1 = _
    rw [h0]; rfl

private theorem chain2 {per : Fin 3 → Bool} {o : Fin 3 → Fin 3 → ℕ} (h : IsChain (m := 2) per o) :
    ∃ a b, per a = true ∧ per b = true ∧ a ≠ b ∧ o = ![0, Pi.single a 1, Function.update (Pi.single a 1) b 1] := by
  obtain ⟨h0, h1⟩ := h
  obtain ⟨a, ha, -, e⟩ := h1 0
  obtain ⟨b, hb, z, e'⟩ := h1 1
  have e1 : o 1 = Pi.single a 1 := by
    show o (Fin.succ 0) = _
    rw [e]
    show Function.update (o 0) a 1 = _
    rw [h0]; rfl
  have z' : o 1 b = 0 := z
  refine ⟨a, b, ha, hb, ?_, ?_⟩
  · rintro rfl
    rw [e1] at z'
    simp at z'
  · funext i
    fin_cases i
    · exact h0
    · exact e1
    · show o (Fin.succ 1) = _
      rw [e']
      show Function.update (o 1) b 1 = _
      rw [e1]; rfl

private theorem chain3 {per : Fin 3 → Bool} {o : Fin 4 → Fin 3 → ℕ} (h : IsChain (m := 3) per o) :
    ∃ a b c, a ≠ b ∧ c ≠ a ∧ c ≠ b ∧ o = ![0, Pi.single a 1, Function.update (Pi.single a 1) b 1, Function.update (Function.update (Pi.single a 1) b 1) c 1] := by
  obtain ⟨h0, h1⟩ := h
  obtain ⟨a, ha, -, e⟩ := h1 0
  obtain ⟨b, hb, z, e'⟩ := h1 1
  obtain ⟨c, hc, w, e''⟩ := h1 2
  have e1 : o 1 = Pi.single a 1 := by
    show o (Fin.succ 0) = _
    rw [e]
    show Function.update (o 0) a 1 = _
    rw [h0]; rfl
  have e2 : o 2 = Function.update (Pi.single a 1) b 1 := by
    show o (Fin.succ 1) = _
    rw [e']
    show Function.update (o 1) b 1 = _
    rw [e1]
  have z' : o 1 b = 0 := z
  have w' : o 2 c = 0 := w
  have hab : a ≠ b := by
    rintro rfl
    rw [e1] at z'
    simp at z'
  have hcb : c ≠ b := by
    rintro rfl
    rw [e2] at w'
    simp at w'
  refine ⟨a, b, c, hab, ?_, hcb, ?_⟩
  · rintro rfl
    rw [e2, Function.update_of_ne hcb] at w'
    simp at w'
  · funext i
    fin_cases i
    · exact h0
    · exact e1
    · exact e2
    · show o (Fin.succ 2) = _
      rw [e'']
      show Function.update (o 2) c 1 = _
      rw [e2]; rfl

private theorem isChain1 {per : Fin 3 → Bool} {a : Fin 3} (ha : per a = true) : IsChain (m := 1) per ![0, Pi.single a 1] := by
  refine ⟨rfl, fun i => ?_⟩
  fin_cases i
  exact ⟨a, ha, rfl, rfl⟩

private theorem isChain2 {per : Fin 3 → Bool} {a b : Fin 3} (ha : per a = true) (hb : per b = true) (hab : a ≠ b) :
    IsChain (m := 2) per ![0, Pi.single a 1, Function.update (Pi.single a 1) b 1] := by
  refine ⟨rfl, fun i => ?_⟩
  fin_cases i
  · exact ⟨a, ha, rfl, rfl⟩
  · exact ⟨b, hb, by simp [hab.symm], rfl⟩

private theorem isChain3 {per : Fin 3 → Bool} {a b c : Fin 3} (hp : ∀ c, per c = true) (hab : a ≠ b) (hca : c ≠ a) (hcb : c ≠ b) :
    IsChain (m := 3) per ![0, Pi.single a 1, Function.update (Pi.single a 1) b 1, Function.update (Function.update (Pi.single a 1) b 1) c 1] := by
  refine ⟨rfl, fun i => ?_⟩
  fin_cases i
  · exact ⟨a, hp a, rfl, rfl⟩
  · exact ⟨b, hp b, by simp [hab.symm], rfl⟩
  · exact ⟨c, hp c, by simp [hca, hcb], rfl⟩

/-- `a` is the only periodic direction and the others have one division. -/
def Only1 (n : Fin 3 → ℕ) (per : Fin 3 → Bool) (a : Fin 3) : Prop := per a = true ∧ ∀ c, c ≠ a → per c = false ∧ n c = 1

/-- `a < b` are the periodic directions and the third has one division. -/
def Only2 (n : Fin 3 → ℕ) (per : Fin 3 → Bool) (a b : Fin 3) : Prop :=
  a < b ∧ per a = true ∧ per b = true ∧ ∀ c, c ≠ a → c ≠ b → per c = false ∧ n c = 1

private theorem segments_iff {n : Fin 3 → ℕ} {per : Fin 3 → Bool} {a : Fin 3} (h : Only1 n per a) (t : Fin 2 → ℕ) :
    t ∈ segments (n a) ↔ IsSimplex (m := 1) n per t := by
  obtain ⟨ha, hc⟩ := h
  have hidx : ∀ x : Fin 3 → ℕ, (∀ c, c ≠ a → x c = 0) → meshIndex n x = x a := by
    intro x hx
    unfold meshIndex
    fin_cases a
    · have h1 := hc 1 (by decide); have h2 := hc 2 (by decide)
      simp [hx 1 (by decide), hx 2 (by decide), h1.2, h2.2]
    · have h1 := hc 0 (by decide); have h2 := hc 2 (by decide)
      simp [hx 0 (by decide), hx 2 (by decide), h1.2, h2.2]
    · have h1 := hc 0 (by decide); have h2 := hc 1 (by decide)
      simp [hx 0 (by decide), hx 1 (by decide), h1.2, h2.2]
  have hidx' : ∀ x d : Fin 3 → ℕ, (meshIndex n fun c => (x c + d c) % n c) = (x a + d a) % n a :=
    fun x d => hidx _ fun c hca => by rw [(hc c hca).2, Nat.mod_one]
  unfold segments
  rw [List.mem_map]
  constructor
  · rintro ⟨x, hx, rfl⟩
    rw [List.mem_range] at hx
    refine ⟨Pi.single a x, fun c => ?_, _, isChain1 ha, fun i => ?_⟩
    · by_cases hca : c = a
      · subst hca; simpa using hx
      · simp [hca, (hc c hca).2]
    · rw [hidx']
      fin_cases i
      · simp [Nat.mod_eq_of_lt hx]
      · simp
  · rintro ⟨cell, hcell, o, ho, e⟩
    obtain ⟨b, hb, rfl⟩ := chain1 ho
    have hba : b = a := by
      by_contra hne
      rw [(hc b hne).1] at hb
      cases hb
    subst hba
    refine ⟨cell b, List.mem_range.2 (hcell b), ?_⟩
    funext i
    rw [e i, hidx']
    fin_cases i
    · simp [Nat.mod_eq_of_lt (hcell b)]
    · simp

private theorem triangles_iff {n : Fin 3 → ℕ} {per : Fin 3 → Bool} {a b : Fin 3} (h : Only2 n per a b) (t : Fin 3 → ℕ) :
    t ∈ triangles (n a) (n b) ↔ IsSimplex (m := 2) n per t := by
  obtain ⟨hlt, ha, hb, hc⟩ := h
  have hab : a ≠ b := hlt.ne
  have hidx : ∀ x : Fin 3 → ℕ, (∀ c, c ≠ a → c ≠ b → x c = 0) → meshIndex n x = x a * n b + x b := by
    intro x hx
    unfold meshIndex
    fin_cases a <;> fin_cases b <;> simp at hlt
    · have h2 := hc 2 (by decide) (by decide)
      simp [hx 2 (by decide) (by decide), h2.2]
    · have h2 := hc 1 (by decide) (by decide)
      simp [hx 1 (by decide) (by decide), h2.2]
    · have h2 := hc 0 (by decide) (by decide)
      simp [hx 0 (by decide) (by decide)]
  have hidx' : ∀ x d : Fin 3 → ℕ, (meshIndex n fun c => (x c + d c) % n c) = (x a + d a) % n a * n b + (x b + d b) % n b :=
    fun x d => hidx _ fun c hca hcb => by rw [(hc c hca hcb).2, Nat.mod_one]
  unfold triangles
  simp only [List.mem_flatMap, List.mem_range, List.mem_map]
  constructor
  · rintro ⟨x, hx, y, hy, c, hcm, rfl⟩
    have hcell : ∀ c, (Function.update (Pi.single a x) b y : Fin 3 → ℕ) c < n c := by
      intro c
      by_cases hcb : c = b
      · subst hcb; simpa using hy
      · rw [Function.update_of_ne hcb]
        by_cases hca : c = a
        · subst hca; simpa using hx
        · simp [hca, (hc c hca hcb).2]
    rw [corners2, List.mem_cons, List.mem_singleton] at hcm
    rcases hcm with rfl | rfl
    · refine ⟨_, hcell, _, isChain2 hb ha hab.symm, fun i => ?_⟩
      rw [hidx']
      unfold idx2
      fin_cases i <;> simp [hab, hab.symm]
    · refine ⟨_, hcell, _, isChain2 ha hb hab, fun i => ?_⟩
      rw [hidx']
      unfold idx2
      fin_cases i <;> simp [hab, hab.symm]
  · rintro ⟨cell, hcell, o, ho, e⟩
    obtain ⟨c1, c2, h1, h2, h12, rfl⟩ := chain2 ho
    have hin : ∀ c, per c = true → c = a ∨ c = b := by
      intro c hper
      by_contra hno
      rw [not_or] at hno
      rw [(hc c hno.1 hno.2).1] at hper
      cases hper
    refine ⟨cell a, hcell a, cell b, hcell b, ?_⟩
    rcases hin c1 h1 with rfl | rfl <;> rcases hin c2 h2 with rfl | rfl
    · exact absurd rfl h12
    · refine ⟨_, List.mem_cons_of_mem _ (List.mem_singleton_self _), ?_⟩
      funext i
      rw [e i, hidx']
      unfold idx2
      fin_cases i <;> simp [hab, hab.symm]
    · refine ⟨_, List.mem_cons_self, ?_⟩
      funext i
      rw [e i, hidx']
      unfold idx2
      fin_cases i <;> simp [hab, hab.symm]
    · exact absurd rfl h12

private theorem tetrahedra_iff {n : Fin 3 → ℕ} {per : Fin 3 → Bool} (hp : ∀ c, per c = true) (t : Fin 4 → ℕ) :
    t ∈ tetrahedra (n 0) (n 1) (n 2) ↔ IsSimplex (m := 3) n per t := by
  have hidx : ∀ (x y z : ℕ) (d : Fin 3 → ℕ), idx3 (n 0) (n 1) (n 2) x y z d = meshIndex n fun c => ((![x, y, z] : Fin 3 → ℕ) c + d c) % n c := by
    intro x y z d
    simp only [idx3, meshIndex, Matrix.cons_val_zero, Matrix.cons_val_one, Matrix.cons_val]
    ring
  unfold tetrahedra
  simp only [List.mem_flatMap, List.mem_range, List.mem_map]
  constructor
  · rintro ⟨x, hx, y, hy, z, hz, c, hcm, rfl⟩
    refine ⟨![x, y, z], fun c => by fin_cases c <;> assumption, c, ?_, fun i => hidx x y z (c i)⟩
    simp only [corners3, List.mem_cons, List.not_mem_nil, or_false] at hcm
    have key : ∀ a b c : Fin 3, a ≠ b → c ≠ a → c ≠ b → ∀ o : Fin 4 → Fin 3 → ℕ,
        o = ![0, Pi.single a 1, Function.update (Pi.single a 1) b 1, Function.update (Function.update (Pi.single a 1) b 1) c 1] → IsChain (m := 3) per o :=
      fun a b c h1 h2 h3 o e => e ▸ isChain3 hp h1 h2 h3
    rcases hcm with rfl | rfl | rfl | rfl | rfl | rfl
    · exact key 2 0 1 (by decide) (by decide) (by decide) _ (by decide)
    · exact key 2 1 0 (by decide) (by decide) (by decide) _ (by decide)
    · exact key 1 2 0 (by decide) (by decide) (by decide) _ (by decide)
    · exact key 0 2 1 (by decide) (by decide) (by decide) _ (by decide)
    · exact key 0 1 2 (by decide) (by decide) (by decide) _ (by decide)
    · exact key 1 0 2 (by decide) (by decide) (by decide) _ (by decide)
  · rintro ⟨cell, hcell, o, ho, e⟩
    obtain ⟨a, b, c, h1, h2, h3, rfl⟩ := chain3 ho
    have hm : ∀ a b c : Fin 3, a ≠ b → c ≠ a → c ≠ b →
        (![0, Pi.single a 1, Function.update (Pi.single a 1) b 1, Function.update (Function.update (Pi.single a 1) b 1) c 1] : Fin 4 → Fin 3 → ℕ) ∈ corners3 := by decide
    refine ⟨cell 0, hcell 0, cell 1, hcell 1, cell 2, hcell 2, _, hm a b c h1 h2 h3, ?_⟩
    funext i
    rw [e i, hidx]
    congr 1
    funext c
    congr 2
    fin_cases c <;> rfl

/-! ### No simplex twice -/

private theorem mod_step {n x d d' : ℕ} (hn : 2 ≤ n) (hd : d ≤ 1) (hd' : d' ≤ 1) (h : (x + d) % n = (x + d') % n) : d = d' := by
  have h1 : d % n = d' % n := Nat.ModEq.add_left_cancel' x h
  rwa [Nat.mod_eq_of_lt (by omega), Nat.mod_eq_of_lt (by omega)] at h1

private theorem digits {n a b c d : ℕ} (hb : b < n) (hd : d < n) (h : a * n + b = c * n + d) : a = c ∧ b = d := by
  have hn : 0 < n := by omega
  have h1 : (a * n + b) / n = (c * n + d) / n := by rw [h]
  have h2 : (a * n + b) % n = (c * n + d) % n := by rw [h]
  rw [Nat.mul_comm a, Nat.mul_comm c, Nat.mul_add_div hn, Nat.mul_add_div hn, Nat.div_eq_of_lt hb, Nat.div_eq_of_lt hd] at h1
  rw [Nat.mul_comm a, Nat.mul_comm c, Nat.mul_add_mod, Nat.mul_add_mod, Nat.mod_eq_of_lt hb, Nat.mod_eq_of_lt hd] at h2
  exact ⟨by omega, h2⟩

private theorem segments_nodup {n : ℕ} : (segments n).Nodup := by
  unfold segments
  refine List.Nodup.map ?_ List.nodup_range
  intro i j h
  exact congrFun h 0

private theorem triangles_nodup {n m : ℕ} (hn : 2 ≤ n) (hm : 2 ≤ m) : (triangles n m).Nodup := by
  have e : triangles n m = ((List.range n ×ˢ (List.range m ×ˢ corners2)).map fun q => fun i => idx2 n m q.1 q.2.1 (q.2.2 i)) := by
    unfold triangles
    simp [List.product, SProd.sprod, List.map_flatMap, Function.comp_def]
  rw [e]
  refine List.Nodup.map_on ?_ (List.Nodup.product List.nodup_range (List.Nodup.product List.nodup_range (by decide)))
  rintro ⟨x, y, c⟩ h1 ⟨x', y', c'⟩ h2 h
  simp only [SProd.sprod, List.pair_mem_product, List.mem_range] at h1 h2
  obtain ⟨hx, hy, hc⟩ := h1
  obtain ⟨hx', hy', hc'⟩ := h2
  have hz : ∀ c ∈ corners2, c 0 = ![0, 0] := by decide
  have hle : ∀ c ∈ corners2, ∀ i a, c i a ≤ 1 := by decide
  have hd : ∀ i, (x + c i 0) % n = (x' + c' i 0) % n ∧ (y + c i 1) % m = (y' + c' i 1) % m := fun i =>
    digits (Nat.mod_lt _ (by omega)) (Nat.mod_lt _ (by omega)) (congrFun h i)
  have h0 := hd 0
  rw [hz c hc, hz c' hc'] at h0
  simp only [Matrix.cons_val_zero, Matrix.cons_val_one, add_zero, Nat.mod_eq_of_lt hx, Nat.mod_eq_of_lt hx', Nat.mod_eq_of_lt hy, Nat.mod_eq_of_lt hy'] at h0
  obtain ⟨rfl, rfl⟩ := h0
  have : c = c' := by
    funext i a
    fin_cases a
    · exact mod_step hn (hle c hc i 0) (hle c' hc' i 0) (hd i).1
    · exact mod_step hm (hle c hc i 1) (hle c' hc' i 1) (hd i).2
  rw [this]

private theorem tetrahedra_nodup {n m l : ℕ} (hn : 2 ≤ n) (hm : 2 ≤ m) (hl : 2 ≤ l) : (tetrahedra n m l).Nodup := by
  have e : tetrahedra n m l = ((List.range n ×ˢ (List.range m ×ˢ (List.range l ×ˢ corners3))).map fun q => fun i => idx3 n m l q.1 q.2.1 q.2.2.1 (q.2.2.2 i)) := by
    unfold tetrahedra
    simp [List.product, SProd.sprod, List.map_flatMap, Function.comp_def]
  rw [e]
  refine List.Nodup.map_on ?_ (List.Nodup.product List.nodup_range (List.Nodup.product List.nodup_range (List.Nodup.product List.nodup_range (by decide))))
  rintro ⟨x, y, z, c⟩ h1 ⟨x', y', z', c'⟩ h2 h
  simp only [SProd.sprod, List.pair_mem_product, List.mem_range] at h1 h2
  obtain ⟨hx, hy, hw, hc⟩ := h1
  obtain ⟨hx', hy', hw', hc'⟩ := h2
  have hz : ∀ c ∈ corners3, c 0 = ![0, 0, 0] := by decide
  have hle : ∀ c ∈ corners3, ∀ i a, c i a ≤ 1 := by decide
  have hd : ∀ i, (x + c i 0) % n = (x' + c' i 0) % n ∧ (y + c i 1) % m = (y' + c' i 1) % m ∧ (z + c i 2) % l = (z' + c' i 2) % l := by
    intro i
    have e := congrFun h i
    simp only [idx3, ← Nat.add_mul] at e
    have d1 := digits (Nat.mod_lt _ (by omega)) (Nat.mod_lt _ (by omega)) e
    have d2 := digits (Nat.mod_lt _ (by omega)) (Nat.mod_lt _ (by omega)) d1.1
    exact ⟨d2.1, d2.2, d1.2⟩
  have h0 := hd 0
  rw [hz c hc, hz c' hc'] at h0
  simp only [Matrix.cons_val_zero, Matrix.cons_val_one, Matrix.cons_val, add_zero, Nat.mod_eq_of_lt hx, Nat.mod_eq_of_lt hx', Nat.mod_eq_of_lt hy, Nat.mod_eq_of_lt hy',
    Nat.mod_eq_of_lt hw, Nat.mod_eq_of_lt hw'] at h0
  obtain ⟨rfl, rfl, rfl⟩ := h0
  have : c = c' := by
    funext i a
    fin_cases a
    · exact mod_step hn (hle c hc i 0) (hle c' hc' i 0) (hd i).1
    · exact mod_step hm (hle c hc i 1) (hle c' hc' i 1) (hd i).2.1
    · exact mod_step hl (hle c hc i 2) (hle c' hc' i 2) (hd i).2.2
  rw [this]

theorem indPbc_one {n : Fin 3 → ℕ} {per : Fin 3 → Bool} {a : Fin 3} (hp : Only1 n per a) : indPbc per = [a] := by
  obtain ⟨ha, hc⟩ := hp
  unfold indPbc
  fin_cases a
  · have ha : per 0 = true := ha
    simp [List.filter, ha, (hc 1 (by decide)).1, (hc 2 (by decide)).1]
  · have ha : per 1 = true := ha
    simp [List.filter, ha, (hc 0 (by decide)).1, (hc 2 (by decide)).1]
  · have ha : per 2 = true := ha
    simp [List.filter, ha, (hc 0 (by decide)).1, (hc 1 (by decide)).1]

theorem indPbc_two {n : Fin 3 → ℕ} {per : Fin 3 → Bool} {a b : Fin 3} (hp : Only2 n per a b) : indPbc per = [a, b] := by
  obtain ⟨hlt, ha, hb, hc⟩ := hp
  unfold indPbc
  fin_cases a <;> fin_cases b <;> simp at hlt
  · have ha : per 0 = true := ha
    have hb : per 1 = true := hb
    simp [List.filter, ha, hb, (hc 2 (by decide) (by decide)).1]
  · have ha : per 0 = true := ha
    have hb : per 2 = true := hb
    simp [List.filter, ha, hb, (hc 1 (by decide) (by decide)).1]
  · have ha : per 1 = true := ha
    have hb : per 2 = true := hb
    simp [List.filter, ha, hb, (hc 0 (by decide) (by decide)).1]

/-- **C43** (use, 1-D).  With one periodic direction the projected density is summed over exactly the segments of the mesh, each once: neighbouring points, wrapping around. -/
theorem C43_dos_simplices_1d (arg2 : Argsort 2) (arg3 : Argsort 3) (arg4 : Argsort 4) (p : Proc) (s s' : State) (a : Fin 3) (hp : Only1 p.auto p.periodicity a)
    (h : Dos.set arg2 arg3 arg4 p 0 s = .ok s') :
    ∃ vol S, volume1 p.kPoints (p.auto a) = .ok vol ∧ (∀ t, t ∈ S ↔ IsSimplex (m := 1) p.auto p.periodicity t) ∧ S.length = p.auto a ∧ S.Nodup ∧
      ∀ d i f old, entry s d i = some old → s.freq[i]? = some f → entry s' d i = some (column arg2 branch1 vol f p.nb S p.w p.F d old) := by
  have hind := indPbc_one hp
  unfold Dos.set at h
  rw [if_pos rfl, hind] at h
  simp only [tetraUpdate] at h
  rcases hv : volume1 p.kPoints (p.auto a) with e | vol
  · rw [hv] at h; cases h
  · rw [hv] at h
    cases h
    exact ⟨vol, segments (p.auto a), rfl, segments_iff hp, by simp [segments], segments_nodup, fun d i f old h1 h2 => entry_map _ s _ d i old f h1 h2⟩

/-- **C43** (use, 2-D).  With two periodic directions the projected density is summed over exactly the triangles of the mesh: two per cell, each once if there are at least two divisions each way. -/
theorem C43_dos_simplices_2d (arg2 : Argsort 2) (arg3 : Argsort 3) (arg4 : Argsort 4) (p : Proc) (s s' : State) (a b : Fin 3) (hp : Only2 p.auto p.periodicity a b)
    (h : Dos.set arg2 arg3 arg4 p 0 s = .ok s') :
    ∃ vol S, volume2 p.kPoints (p.auto b) a b = .ok vol ∧ (∀ t, t ∈ S ↔ IsSimplex (m := 2) p.auto p.periodicity t) ∧ S.length = 2 * (p.auto a * p.auto b) ∧
      (2 ≤ p.auto a → 2 ≤ p.auto b → S.Nodup) ∧
      ∀ d i f old, entry s d i = some old → s.freq[i]? = some f → entry s' d i = some (column arg3 branch2 vol f p.nb S p.w p.F d old) := by
  have hind := indPbc_two hp
  unfold Dos.set at h
  rw [if_pos rfl, hind] at h
  simp only [tetraUpdate] at h
  rcases hv : volume2 p.kPoints (p.auto b) a b with e | vol
  · rw [hv] at h; cases h
  · rw [hv] at h
    cases h
    exact ⟨vol, triangles (p.auto a) (p.auto b), rfl, triangles_iff hp, by simp [triangles, corners2, List.length_flatMap]; ring, fun h1 h2 => triangles_nodup h1 h2, fun d i f old h1 h2 => entry_map _ s _ d i old f h1 h2⟩

/-- **C43** (use, 3-D).  With three periodic directions the projected density is summed over exactly the tetrahedra of the mesh: six per cell, each once if there are at least two divisions each way. -/
theorem C43_dos_simplices_3d (arg2 : Argsort 2) (arg3 : Argsort 3) (arg4 : Argsort 4) (p : Proc) (s s' : State) (hp : ∀ c, p.periodicity c = true)
    (h : Dos.set arg2 arg3 arg4 p 0 s = .ok s') :
    ∃ vol S, volume3 p.kPoints (p.auto 1) (p.auto 2) = .ok vol ∧ (∀ t, t ∈ S ↔ IsSimplex (m := 3) p.auto p.periodicity t) ∧
      S.length = 6 * (p.auto 0 * p.auto 1 * p.auto 2) ∧ ((∀ c, 2 ≤ p.auto c) → S.Nodup) ∧
      ∀ d i f old, entry s d i = some old → s.freq[i]? = some f → entry s' d i = some (column arg4 branch3 vol f p.nb S p.w p.F d old) := by
  have hind : indPbc p.periodicity = [0, 1, 2] := by simp [indPbc, hp]
  unfold Dos.set at h
  rw [if_pos rfl, hind] at h
  simp only [tetraUpdate] at h
  rcases hv : volume3 p.kPoints (p.auto 1) (p.auto 2) with e | vol
  · rw [hv] at h; cases h
  · rw [hv] at h
    cases h
    exact ⟨vol, tetrahedra (p.auto 0) (p.auto 1) (p.auto 2), rfl, tetrahedra_iff hp, by simp [tetrahedra, corners3, List.length_flatMap]; ring, fun h => tetrahedra_nodup (h 0) (h 1) (h 2), fun d i f old h1 h2 => entry_map _ s _ d i old f h1 h2⟩

/-- Non-vacuity: a 2 × 3 mesh in the plane of the first and third direction; the triangle at the zone boundary wraps around. -/
example : Only2 ![2, 1, 3] ![true, false, true] 0 2 ∧ IsSimplex (m := 2) ![2, 1, 3] ![true, false, true] ![5, 2, 0] := by
  refine ⟨⟨by decide, rfl, rfl, by decide⟩, ![1, 0, 2], by decide, ![0, Pi.single 0 1, Function.update (Pi.single 0 1) 2 1], isChain2 rfl rfl (by decide), by decide⟩

end Interphon.Props
