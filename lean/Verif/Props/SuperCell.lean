import Verif.Lemmas.SuperCell
import Verif.Props.Args
import Mathlib.Tactic.LinearCombination
import Mathlib.Tactic.IntervalCases
import Mathlib.Tactic.Positivity

/-! # Properties C06–C10: super cell construction -/

namespace Interphon.Props
open Py Interphon Interphon.Args Interphon.SuperCell Interphon.Spec

section
variable {K : Type*} [Field K] [CharZero K]

/-- A call of `set_super_cell` as a user makes it: arguments accepted by the checks (non-periodic
directions have factor 1), positive factors, a unit cell with one type per atom, and `np.empty` returning
arrays of the requested size with arbitrary content. -/
structure GoodCall (junk : ℕ → List (V3 K)) (u : Cell K) (n p : Fin 3 → ℤ) : Prop where
  junkLen : ∀ m, (junk m).length = m
  types : u.atomType.length = u.cart.length
  pos : ∀ i, 0 < n i
  cons : ∀ i, p i = 0 → n i = 1

/-- The lattice translation `x a₁ + y a₂ + z a₃` applied to a point. -/
def translate (L : M3 K) (v : V3 K) (x y z : ℕ) : V3 K := fun j => v j + (x * L 0 j + y * L 1 j + z * L 2 j)

theorem setSuperCell_eq {junk : ℕ → List (V3 K)} {u : Cell K} {n p : Fin 3 → ℤ} (h : GoodCall junk u n p) :
    setSuperCell junk u n p = .ok {
        lattice := superLattice u.lattice n
        atomType := u.atomType.flatMap fun t => (rangeInt (n 0 * n 1 * n 2)).map fun _ => t
        numAtom := u.numAtom.map (· * (n 0 * n 1 * n 2))
        selective := false
        coordinate := u.coordinate
        cart := u.cart.flatMap fun v => (boxDirect n).map (imagePos v (superLattice u.lattice n)) } := by
  have h0 := h.pos 0
  have h1 := h.pos 1
  have h2 := h.pos 2
  have hpos : 0 < n 0 * n 1 * n 2 := by positivity
  have hE : (n 0 * n 1 * n 2).toNat = (n 0).toNat * ((n 1).toNat * (n 2).toNat) := by
    zify
    rw [Int.toNat_of_nonneg hpos.le, Int.toNat_of_nonneg h0.le, Int.toNat_of_nonneg h1.le, Int.toNat_of_nonneg h2.le]
    ring
  have hbox : (boxDirect (K := K) n).length = (n 0 * n 1 * n 2).toNat := by rw [hE, length_boxDirect]
  unfold setSuperCell
  simp only [enlarge_eq n p h.cons, not_lt.mpr hpos.le, if_false]
  rw [superDirect_ok n _ (by rw [h.junkLen, hbox])]
  have hc := cartLoop_eq (n 0 * n 1 * n 2).toNat (superLattice u.lattice n) (boxDirect n) hbox u.cart [] 0
    (junk (u.cart.length * (n 0 * n 1 * n 2).toNat)) (by simp) (by rw [h.junkLen]; ring)
  simp only [List.nil_append] at hc
  simp only [hc]
  rw [if_neg]
  simp [List.length_flatMap, rangeInt, h.types]

/-- **C06.** `set_super_cell` succeeds and places atom `E*i + ((x*n₂+y)*n₃+z)` exactly at the position of
unit-cell atom `i` translated by `x a₁ + y a₂ + z a₃`, for every atom and every `(x,y,z)` in the box, in
lexicographic order; there are no other atoms.  -/
theorem C06_supercell_positions {junk : ℕ → List (V3 K)} {u : Cell K} {n p : Fin 3 → ℤ} (h : GoodCall junk u n p) :
    ∃ s, setSuperCell junk u n p = .ok s ∧
      s.cart.length = (n 0 * n 1 * n 2).toNat * u.cart.length ∧
      ∀ (i : ℕ) (v : V3 K), u.cart[i]? = some v → ∀ x y z : ℕ, (x : ℤ) < n 0 → (y : ℤ) < n 1 → (z : ℤ) < n 2 →
        s.cart[(n 0 * n 1 * n 2).toNat * i + ((x * (n 1).toNat + y) * (n 2).toNat + z)]? =
          some (translate u.lattice v x y z) := by
  refine ⟨_, setSuperCell_eq h, ?_, ?_⟩
  all_goals
    have h0 := h.pos 0
    have h1 := h.pos 1
    have h2 := h.pos 2
    have hpos : 0 < n 0 * n 1 * n 2 := by positivity
    have hE : (n 0 * n 1 * n 2).toNat = (n 0).toNat * ((n 1).toNat * (n 2).toNat) := by
      zify
      rw [Int.toNat_of_nonneg hpos.le, Int.toNat_of_nonneg h0.le, Int.toNat_of_nonneg h1.le, Int.toNat_of_nonneg h2.le]
      ring
  · simp [List.length_flatMap, length_boxDirect, hE]; ring
  · intro i v hv x y z hx hy hz
    have hk : (x * (n 1).toNat + y) * (n 2).toNat + z < (n 0 * n 1 * n 2).toNat := by
      rw [hE]
      have hx' : x + 1 ≤ (n 0).toNat := by omega
      have hy' : y + 1 ≤ (n 1).toNat := by omega
      have hz' : z + 1 ≤ (n 2).toNat := by omega
      calc (x * (n 1).toNat + y) * (n 2).toNat + z
          < (x * (n 1).toNat + y) * (n 2).toNat + (n 2).toNat := by omega
        _ = (x * (n 1).toNat + (y + 1)) * (n 2).toNat := by ring
        _ ≤ (x * (n 1).toNat + (n 1).toNat) * (n 2).toNat := by gcongr
        _ = (x + 1) * ((n 1).toNat * (n 2).toNat) := by ring
        _ ≤ _ := by gcongr
    rw [getElem?_flatMap_const _ (n 0 * n 1 * n 2).toNat _ _ i _ hk]
    · rw [hv, Option.bind_some, List.getElem?_map, getElem?_boxDirect n x y z hx hy hz, Option.map_some]
      rw [imagePos_eq v u.lattice n x y z (by exact_mod_cast h0.ne') (by exact_mod_cast h1.ne') (by exact_mod_cast h2.ne')]
      rfl
    · intro a _; simp [length_boxDirect, hE]

/-- **C06** (home image).  The first image of every atom is the atom itself. -/
theorem C06_home_image_first {junk : ℕ → List (V3 K)} {u : Cell K} {n p : Fin 3 → ℤ} (h : GoodCall junk u n p)
    {s : Cell K} (hs : setSuperCell junk u n p = .ok s) (i : ℕ) (v : V3 K) (hv : u.cart[i]? = some v) :
    s.cart[(n 0 * n 1 * n 2).toNat * i]? = some v := by
  obtain ⟨s', hs', -, hpos⟩ := C06_supercell_positions h
  rw [hs] at hs'; cases hs'
  have := hpos i v hv 0 0 0 (by exact_mod_cast h.pos 0) (by exact_mod_cast h.pos 1) (by exact_mod_cast h.pos 2)
  have ht : translate u.lattice v 0 0 0 = v := by funext j; simp [translate]
  rw [ht] at this
  simpa using this

/-- **C06** for an argument object: every accepted argument object with positive enlargement factors. -/
theorem C06_supercell_from_arguments {junk : ℕ → List (V3 K)} (hj : ∀ m, (junk m).length = m) (u : Cell K)
    (hu : u.atomType.length = u.cart.length) (a : PreArg) (hchk : checkUserArgument a = none)
    (e p : List ℤ) (he : a.enlargement = some e) (hp : a.periodicity = some p) (hpos : ∀ m ∈ e, 0 < m) :
    GoodCall junk u (fun i => e.getD i 0) (fun i => p.getD i 0) ∧
    setSuperCellArg junk u a = setSuperCell junk u (fun i => e.getD i 0) (fun i => p.getD i 0) := by
  obtain ⟨e', p', he', hp', hl, hpl, hc⟩ := (C02_check_decides_consistency a).mp hchk
  rw [he] at he'; rw [hp] at hp'; cases he'; cases hp'
  refine ⟨⟨hj, hu, ?_, ?_⟩, ?_⟩
  · intro i
    have : (i : ℕ) < e.length := by omega
    simp only [List.getD_eq_getElem?_getD, List.getElem?_eq_getElem this, Option.getD_some]
    exact hpos _ (List.getElem_mem this)
  · intro i hi
    have h1 : (i : ℕ) < p.length := by omega
    have h2 : (i : ℕ) < e.length := by omega
    have := hc i (by omega)
    simp only [List.getD_eq_getElem?_getD, List.getElem?_eq_getElem h1, List.getElem?_eq_getElem h2, Option.getD_some] at hi this ⊢
    have := this (by rw [hi])
    simpa using this
  · simp [setSuperCellArg, he, hp, hl, hpl]

/-- A concrete non-trivial call: a two-atom slab cell, 2×3×1. -/
def exampleCell : Cell ℚ where
  lattice := !![3, 0, 0; 1, 4, 0; 0, 0, 20]
  atomType := ["Ga".toList, "As".toList]
  numAtom := [1, 1]
  selective := true
  coordinate := .direct
  cart := [![0, 0, 5], ![3/2, 2, 6]]
  atomTrue := some [1]
  xyzTrue := some [1, 1, 1]

theorem exampleGood : GoodCall (fun m => List.replicate m (fun _ => (7 : ℚ))) exampleCell ![2, 3, 1] ![1, 1, 0] :=
  ⟨by simp, rfl, by decide, by decide⟩

/-! ### C07 -/

/-- **C07.** The super cell has `E*N` atoms; atom `E*i+k` has the type of atom `i`; counts per type are
multiplied by `E`; lattice vectors are multiplied by the enlargement factors. -/
theorem C07_supercell_counts_types {junk : ℕ → List (V3 K)} {u : Cell K} {n p : Fin 3 → ℤ} (h : GoodCall junk u n p)
    {s : Cell K} (hs : setSuperCell junk u n p = .ok s) :
    s.cart.length = (n 0 * n 1 * n 2).toNat * u.cart.length ∧
    s.atomType.length = s.cart.length ∧
    (∀ (i k : ℕ) (t : Str), k < (n 0 * n 1 * n 2).toNat → u.atomType[i]? = some t →
      s.atomType[(n 0 * n 1 * n 2).toNat * i + k]? = some t) ∧
    (∀ (i : ℕ) (c : ℤ), u.numAtom[i]? = some c → s.numAtom[i]? = some (n 0 * n 1 * n 2 * c)) ∧
    s.numAtom.length = u.numAtom.length ∧
    (∀ i j, s.lattice i j = (n i : K) * u.lattice i j) := by
  obtain ⟨s', hs', hlen, -⟩ := C06_supercell_positions h
  rw [hs] at hs'; cases hs'
  rw [setSuperCell_eq h] at hs
  cases hs
  refine ⟨hlen, ?_, ?_, ?_, by simp, ?_⟩
  · rw [hlen]; simp [List.length_flatMap, rangeInt, h.types]; ring
  · intro i k t hk ht
    simp only
    rw [getElem?_flatMap_const _ (n 0 * n 1 * n 2).toNat _ (by intro a _; simp [rangeInt]) i k hk, ht]
    simp [rangeInt, hk]
  · intro i c hc
    simp [hc, mul_comm]
  · intro i j
    simp [superLattice, mul_comm]

/-- The sum of the per-type counts stays equal to the number of atoms. -/
theorem C07_counts_add_up {junk : ℕ → List (V3 K)} {u : Cell K} {n p : Fin 3 → ℤ} (h : GoodCall junk u n p)
    (hsum : u.numAtom.sum = u.cart.length)
    {s : Cell K} (hs : setSuperCell junk u n p = .ok s) : s.numAtom.sum = s.cart.length := by
  have hlen := (C07_supercell_counts_types h hs).1
  rw [hlen]
  rw [setSuperCell_eq h] at hs
  cases hs
  have h0 := h.pos 0
  have h1 := h.pos 1
  have h2 := h.pos 2
  have hpos : 0 < n 0 * n 1 * n 2 := by positivity
  simp only [List.sum_map_mul_right, List.map_id'] 
  rw [hsum]; push_cast
  rw [Int.toNat_of_nonneg hpos.le]; ring

/-! ### C08 -/

theorem lattice_coeff_unique (L : M3 K) (hL : L.det ≠ 0) (c c' : V3 K)
    (h : ∀ j, c 0 * L 0 j + c 1 * L 1 j + c 2 * L 2 j = c' 0 * L 0 j + c' 1 * L 1 j + c' 2 * L 2 j) : c = c' := by
  have hv : Matrix.vecMul c L = Matrix.vecMul c' L := by
    funext j
    simp only [Matrix.vecMul, dotProduct, Fin.sum_univ_three]
    exact h j
  have hu : IsUnit L.det := isUnit_iff_ne_zero.mpr hL
  have := congrArg (fun v => Matrix.vecMul v L⁻¹) hv
  simpa [Matrix.vecMul_vecMul, Matrix.mul_nonsing_inv _ hu] using this

/-- Two unit-cell atoms are lattice-equivalent if they differ by an integer lattice vector. -/
def LatticeEquiv (L : M3 K) (v w : V3 K) : Prop :=
  ∃ a b c : ℤ, ∀ j, v j = w j + (a * L 0 j + b * L 1 j + c * L 2 j)

/-- Index arithmetic: every `k < n₁n₂n₃` is `(x*n₂+y)*n₃+z` for exactly one `(x,y,z)` in the box. -/
theorem box_index (n : Fin 3 → ℤ) (hpos : ∀ i, 0 < n i) (k : ℕ) (hk : k < (n 0 * n 1 * n 2).toNat) :
    ∃ x y z : ℕ, (x : ℤ) < n 0 ∧ (y : ℤ) < n 1 ∧ (z : ℤ) < n 2 ∧ k = (x * (n 1).toNat + y) * (n 2).toNat + z := by
  have h0 := hpos 0
  have h1 := hpos 1
  have h2 := hpos 2
  have hp : 0 < n 0 * n 1 * n 2 := by positivity
  have hE : (n 0 * n 1 * n 2).toNat = (n 0).toNat * ((n 1).toNat * (n 2).toNat) := by
    zify
    rw [Int.toNat_of_nonneg hp.le, Int.toNat_of_nonneg h0.le, Int.toNat_of_nonneg h1.le, Int.toNat_of_nonneg h2.le]
    ring
  rw [hE] at hk
  have n1 : 0 < (n 1).toNat := by omega
  have n2 : 0 < (n 2).toNat := by omega
  have hz : k % (n 2).toNat < (n 2).toNat := Nat.mod_lt _ n2
  have hy : k / (n 2).toNat % (n 1).toNat < (n 1).toNat := Nat.mod_lt _ n1
  have hx : k / (n 2).toNat / (n 1).toNat < (n 0).toNat := by
    rw [Nat.div_div_eq_div_mul]
    apply Nat.div_lt_of_lt_mul
    calc k < _ := hk
      _ = _ := by ring
  refine ⟨k / (n 2).toNat / (n 1).toNat, k / (n 2).toNat % (n 1).toNat, k % (n 2).toNat, by omega, by omega, by omega, ?_⟩
  rw [Nat.div_add_mod', Nat.div_add_mod']

/-- **C08** (each translation exactly once).  For a non-singular lattice, the `k`-th image of atom `i` is
the atom translated by exactly one integer vector of the box, and every integer vector of the box occurs
for exactly one `k < E`. -/
theorem C08_each_translation_once {junk : ℕ → List (V3 K)} {u : Cell K} {n p : Fin 3 → ℤ} (h : GoodCall junk u n p)
    (hL : u.lattice.det ≠ 0) {s : Cell K} (hs : setSuperCell junk u n p = .ok s)
    (i : ℕ) (v : V3 K) (hv : u.cart[i]? = some v) :
    (∀ k < (n 0 * n 1 * n 2).toNat, ∃! t : ℕ × ℕ × ℕ, (t.1 : ℤ) < n 0 ∧ (t.2.1 : ℤ) < n 1 ∧ (t.2.2 : ℤ) < n 2 ∧
      s.cart[(n 0 * n 1 * n 2).toNat * i + k]? = some (translate u.lattice v t.1 t.2.1 t.2.2)) ∧
    (∀ x y z : ℕ, (x : ℤ) < n 0 → (y : ℤ) < n 1 → (z : ℤ) < n 2 → ∃! k, k < (n 0 * n 1 * n 2).toNat ∧
      s.cart[(n 0 * n 1 * n 2).toNat * i + k]? = some (translate u.lattice v x y z)) := by
  obtain ⟨s', hs', -, hpos⟩ := C06_supercell_positions h
  rw [hs] at hs'; cases hs'
  have inj : ∀ x y z x' y' z' : ℕ, translate u.lattice v x y z = translate u.lattice v x' y' z' → x = x' ∧ y = y' ∧ z = z' := by
    intro x y z x' y' z' he
    have := lattice_coeff_unique u.lattice hL ![x, y, z] ![x', y', z'] (by
      intro j
      have := congrFun he j
      simpa [translate] using this)
    have e0 := congrFun this 0
    have e1 := congrFun this 1
    have e2 := congrFun this 2
    simp at e0 e1 e2
    exact ⟨e0, e1, e2⟩
  constructor
  · intro k hk
    obtain ⟨x, y, z, hx, hy, hz, rfl⟩ := box_index n h.pos k hk
    refine ⟨(x, y, z), ⟨hx, hy, hz, hpos i v hv x y z hx hy hz⟩, ?_⟩
    rintro ⟨x', y', z'⟩ ⟨hx', hy', hz', he⟩
    rw [hpos i v hv x y z hx hy hz] at he
    obtain ⟨rfl, rfl, rfl⟩ := inj _ _ _ _ _ _ (Option.some.inj he)
    rfl
  · intro x y z hx hy hz
    have hk : (x * (n 1).toNat + y) * (n 2).toNat + z < (n 0 * n 1 * n 2).toNat := by
      have h0 := h.pos 0
      have h1 := h.pos 1
      have h2 := h.pos 2
      have hp : 0 < n 0 * n 1 * n 2 := by positivity
      zify
      rw [Int.toNat_of_nonneg hp.le, Int.toNat_of_nonneg h1.le, Int.toNat_of_nonneg h2.le]
      nlinarith [mul_pos h1 h2, mul_nonneg (sub_nonneg.mpr (Int.add_one_le_iff.mpr hx)) (mul_pos h1 h2).le,
        mul_nonneg (sub_nonneg.mpr (Int.add_one_le_iff.mpr hy)) h2.le]
    refine ⟨_, ⟨hk, hpos i v hv x y z hx hy hz⟩, ?_⟩
    rintro k' ⟨hk', he⟩
    obtain ⟨x', y', z', hx', hy', hz', rfl⟩ := box_index n h.pos k' hk'
    rw [hpos i v hv x' y' z' hx' hy' hz'] at he
    obtain ⟨rfl, rfl, rfl⟩ := inj _ _ _ _ _ _ (Option.some.inj he)
    rfl

/-- **C08** (distinctness).  If the lattice is non-singular and no two different unit-cell atoms are
lattice-equivalent, all atoms of the super cell sit at pairwise distinct points. -/
theorem C08_atoms_distinct {junk : ℕ → List (V3 K)} {u : Cell K} {n p : Fin 3 → ℤ} (h : GoodCall junk u n p)
    (hL : u.lattice.det ≠ 0)
    (hne : ∀ (i j : ℕ) (v w : V3 K), u.cart[i]? = some v → u.cart[j]? = some w → i ≠ j → ¬ LatticeEquiv u.lattice v w)
    {s : Cell K} (hs : setSuperCell junk u n p = .ok s) : s.cart.Nodup := by
  obtain ⟨s', hs', hlen, hpos⟩ := C06_supercell_positions h
  rw [hs] at hs'; cases hs'
  have hE : 0 < (n 0 * n 1 * n 2).toNat := by
    have h0 := h.pos 0
    have h1 := h.pos 1
    have h2 := h.pos 2
    have hp : 0 < n 0 * n 1 * n 2 := by positivity
    omega
  rw [List.nodup_iff_injective_getElem]
  rintro ⟨a, ha⟩ ⟨b, hb⟩ hab
  simp only [Fin.mk.injEq] at hab ⊢
  rw [hlen] at ha hb
  set E := (n 0 * n 1 * n 2).toNat with hEdef
  have split : ∀ a, a < E * u.cart.length → ∃ i k v, u.cart[i]? = some v ∧ k < E ∧ a = E * i + k := by
    intro a ha
    have hi : a / E < u.cart.length := Nat.div_lt_of_lt_mul ha
    exact ⟨a / E, a % E, u.cart[a / E], List.getElem?_eq_getElem hi, Nat.mod_lt _ hE, (Nat.div_add_mod a E).symm⟩
  obtain ⟨i, k, v, hv, hk, rfl⟩ := split a ha
  obtain ⟨j, l, w, hw, hl, rfl⟩ := split b hb
  obtain ⟨x, y, z, hx, hy, hz, rfl⟩ := box_index n h.pos k hk
  obtain ⟨x', y', z', hx', hy', hz', rfl⟩ := box_index n h.pos l hl
  have e1 := hpos i v hv x y z hx hy hz
  have e2 := hpos j w hw x' y' z' hx' hy' hz'
  have heq : translate u.lattice v x y z = translate u.lattice w x' y' z' := by
    rw [List.getElem?_eq_getElem (by rw [hlen]; exact ha)] at e1
    rw [List.getElem?_eq_getElem (by rw [hlen]; exact hb)] at e2
    rw [← Option.some.inj e1, ← Option.some.inj e2]
    exact hab
  by_cases hij : i = j
  · subst hij
    rw [hv] at hw; cases hw
    have := lattice_coeff_unique u.lattice hL ![x, y, z] ![x', y', z'] (by
      intro j
      have := congrFun heq j
      simpa [translate] using this)
    have f0 := congrFun this 0
    have f1 := congrFun this 1
    have f2 := congrFun this 2
    simp at f0 f1 f2
    rw [f0, f1, f2]
  · exfalso
    apply hne i j v w hv hw hij
    refine ⟨(x' : ℤ) - x, (y' : ℤ) - y, (z' : ℤ) - z, fun c => ?_⟩
    have := congrFun heq c
    simp only [translate] at this
    push_cast
    linear_combination this

example : exampleCell.lattice.det ≠ 0 := by
  simp [exampleCell, Matrix.det_fin_three]

/-! ### C09 -/

/-- **C09.** After `set_super_ind_true` the selected super-cell atoms are exactly the images of the
selected unit-cell atoms, in increasing order without repetition; the degree-of-freedom list repeats
each of them three times; nothing else of the super cell changes except the `selective` flag. -/
theorem C09_selection {u s : Cell K} {n p : Fin 3 → ℤ} (hpos : ∀ i, 0 < n i) (hcons : ∀ i, p i = 0 → n i = 1)
    (sel : List ℕ) (hsel : u.atomTrue = some sel) (hsorted : sel.Pairwise (· < ·)) :
    ∃ s' at', setSuperIndTrue s u n p = .ok s' ∧ s'.atomTrue = some at' ∧
      (∀ a, a ∈ at' ↔ a / (n 0 * n 1 * n 2).toNat ∈ sel) ∧
      at'.Pairwise (· < ·) ∧
      (∃ x', s'.xyzTrue = some x' ∧ x'.length = 3 * at'.length ∧
        ∀ i c, c < 3 → x'[3 * i + c]? = at'[i]?) ∧
      s'.selective = true ∧ s'.cart = s.cart ∧ s'.lattice = s.lattice ∧ s'.atomType = s.atomType ∧
      s'.numAtom = s.numAtom := by
  have h0 := hpos 0
  have h1 := hpos 1
  have h2 := hpos 2
  have hp : 0 < n 0 * n 1 * n 2 := by positivity
  have hE : 0 < (n 0 * n 1 * n 2).toNat := by omega
  unfold setSuperIndTrue
  simp only [enlarge_eq n p hcons, hsel]
  generalize (n 0 * n 1 * n 2) = m at *
  refine ⟨_, _, rfl, rfl, ?_, ?_, ⟨_, rfl, ?_, ?_⟩, rfl, rfl, rfl, rfl, rfl⟩
  · intro a
    simp only [List.mem_flatMap, List.mem_map, rangeInt, List.mem_range]
    constructor
    · rintro ⟨i, hi, k, hk, rfl⟩
      rw [mul_comm i, Nat.mul_add_div hE, Nat.div_eq_of_lt hk]
      simpa using hi
    · intro h
      exact ⟨_, h, a % m.toNat, Nat.mod_lt _ hE, Nat.div_add_mod' a m.toNat⟩
  · rw [List.pairwise_flatMap]
    refine ⟨?_, ?_⟩
    · intro i _
      rw [List.pairwise_map]
      refine List.Pairwise.imp ?_ (List.pairwise_lt_range)
      intro a b hab; omega
    · refine List.Pairwise.imp ?_ hsorted
      intro a b hab x hx y hy
      simp only [List.mem_map, rangeInt, List.mem_range] at hx hy
      obtain ⟨k, hk, rfl⟩ := hx
      obtain ⟨l, hl, rfl⟩ := hy
      have : (a + 1) * m.toNat ≤ b * m.toNat := by gcongr; omega
      nlinarith
  · simp [List.length_flatMap]; ring
  · intro i c hc
    rw [getElem?_flatMap_const _ 3 _ (by intro a _; rfl) i c hc]
    cases h : (List.flatMap (fun i => List.map (fun k => i * m.toNat + k) (rangeInt m)) sel)[i]? with
    | none => rfl
    | some a => interval_cases c <;> rfl

example : (setSuperIndTrue exampleCell exampleCell ![2, 3, 1] ![1, 1, 0]).map (·.atomTrue) =
    .ok (some [6, 7, 8, 9, 10, 11]) := by decide +kernel

end

/-! ### C10 -/

section
variable {K : Type*} [Field K] [LinearOrder K] [IsStrictOrderedRing K]

private theorem matchLoop_iff (a : PreArg) (e : List ℤ) (he : a.enlargement = some e) (hl : e.length = 3) (U S : M3 K) :
    (matchLoop a U S [0, 1, 2] = none ↔
      ∀ i j : Fin 3, isClose rtolDefault atolDefault (U i j * (e.getD i 0 : K)) (S i j)) ∧
    (matchLoop a U S [0, 1, 2] = none ∨ matchLoop a U S [0, 1, 2] = some .mismatchEnlargePost) := by
  obtain ⟨x, y, z, rfl⟩ : ∃ x y z, e = [x, y, z] := by
    match e, hl with
    | [x, y, z], _ => exact ⟨x, y, z, rfl⟩
  simp only [matchLoop, enlAt, he, getE, rowClose, Fin.val_zero, List.getElem?_cons_zero]
  simp only [show ((1 : Fin 3) : ℕ) = 1 from rfl, show ((2 : Fin 3) : ℕ) = 2 from rfl,
    List.getElem?_cons_succ, List.getElem?_cons_zero]
  rw [show (∀ i j : Fin 3, isClose rtolDefault atolDefault (U i j * (([x, y, z].getD i 0 : ℤ) : K)) (S i j)) ↔
    ((∀ j, isClose rtolDefault atolDefault (U 0 j * (x : K)) (S 0 j)) ∧
     (∀ j, isClose rtolDefault atolDefault (U 1 j * (y : K)) (S 1 j)) ∧
     (∀ j, isClose rtolDefault atolDefault (U 2 j * (z : K)) (S 2 j))) from
      ⟨fun h => ⟨h 0, h 1, h 2⟩, fun h i => by
        fin_cases i
        · exact h.1
        · exact h.2.1
        · exact h.2.2⟩]
  by_cases c0 : ∀ j, isClose rtolDefault atolDefault (U 0 j * (x : K)) (S 0 j)
  · by_cases c1 : ∀ j, isClose rtolDefault atolDefault (U 1 j * (y : K)) (S 1 j)
    · by_cases c2 : ∀ j, isClose rtolDefault atolDefault (U 2 j * (z : K)) (S 2 j)
      · simp [c0, c1, c2]
      · simp only [c0, c1, c2, if_true, if_false, and_false]; simp
    · simp only [c0, c1, if_true, if_false, and_false, false_and]; simp
  · simp only [c0, if_false, false_and]; simp

/-- **C10** (decision).  For stored three-entry arguments, `check_match_argument` returns normally exactly
when no component of `unit*enlargement` differs from the super-cell component by more than
`1e-8 + 1e-5*|component|`, and raises `Mismatch_ENLARGE_post` otherwise. -/
theorem C10_check_match_decides (a : PreArg) (e p : List ℤ) (he : a.enlargement = some e) (hl : e.length = 3)
    (hp : a.periodicity = some p) (hpl : p.length = 3) (U S : M3 K) :
    (checkMatchArgument a U S = none ↔
      ∀ i j : Fin 3, |U i j * (e.getD i 0 : K) - S i j| ≤ 1 / 100000000 + 1 / 100000 * |S i j|) ∧
    (checkMatchArgument a U S = some .mismatchEnlargePost ↔
      ∃ i j : Fin 3, 1 / 100000000 + 1 / 100000 * |S i j| < |U i j * (e.getD i 0 : K) - S i j|) := by
  have hno : ¬ ∃ i, i < p.length ∧ p.getD i 0 ≠ 0 ∧ (a.enlargement.getD []).length ≤ i := by
    rintro ⟨i, h1, -, h3⟩
    rw [he] at h3; simp only [Option.getD_some] at h3; omega
  obtain ⟨h1, h2⟩ := matchLoop_iff a e he hl U S
  have hiff : (∃ i j : Fin 3, 1 / 100000000 + 1 / 100000 * |S i j| < |U i j * (e.getD i 0 : K) - S i j|) ↔
      ¬ ∀ i j : Fin 3, isClose rtolDefault atolDefault (U i j * (e.getD i 0 : K)) (S i j) := by
    simp only [isClose, rtolDefault, atolDefault, not_forall, not_le]
  have hiff' : (∀ i j : Fin 3, |U i j * (e.getD i 0 : K) - S i j| ≤ 1 / 100000000 + 1 / 100000 * |S i j|) ↔
      ∀ i j : Fin 3, isClose rtolDefault atolDefault (U i j * (e.getD i 0 : K)) (S i j) := Iff.rfl
  rw [hiff, hiff', ← h1]
  unfold checkMatchArgument
  rcases h2 with h2 | h2
  · simp only [h2, hp]
    rw [if_neg hno]; simp
  · simp [h2]

/-- **C10** (own super cell accepted).  The lattice built by `set_super_cell` from the same arguments is
always accepted. -/
theorem C10_accepts_own_supercell (junk : ℕ → List (V3 K)) (u s : Cell K) (a : PreArg)
    (hchk : checkUserArgument a = none) (hs : setSuperCellArg junk u a = .ok s) :
    checkMatchArgument a u.lattice s.lattice = none := by
  obtain ⟨e, p, he, hp, hl, hpl, -⟩ := (C02_check_decides_consistency a).mp hchk
  rw [(C10_check_match_decides a e p he hl hp hpl _ _).1]
  intro i j
  have hlat : s.lattice i j = u.lattice i j * (e.getD i 0 : K) := by
    simp only [setSuperCellArg, he, hp, hl, hpl, and_self, if_true] at hs
    unfold setSuperCell at hs
    simp only at hs
    split at hs
    · cases hs
    · split at hs
      · cases hs
      · split at hs
        · cases hs
        · cases hs
          rfl
  rw [hlat, sub_self, abs_zero]
  positivity

/-- **C10** (wrong enlargement rejected).  If the super cell was built with factors `n` and the arguments
say `e`, different in some direction whose lattice vector has a component of at least `1e-6`, and the
true factor is at most 90000, the check raises. -/
theorem C10_rejects_other_enlargement (a : PreArg) (e p : List ℤ) (he : a.enlargement = some e) (hl : e.length = 3)
    (hp : a.periodicity = some p) (hpl : p.length = 3) (U : M3 K) (n : Fin 3 → ℤ) (i j : Fin 3)
    (hdiff : e.getD i 0 ≠ n i) (hn : |n i| ≤ 90000) (hU : 1 / 1000000 ≤ |U i j|) :
    checkMatchArgument a U (Matrix.of fun r c => (n r : K) * U r c) = some .mismatchEnlargePost := by
  rw [(C10_check_match_decides a e p he hl hp hpl _ _).2]
  refine ⟨i, j, ?_⟩
  have h1 : (Matrix.of fun r c => (n r : K) * U r c) i j = U i j * (n i : K) := mul_comm _ _
  have h2 : |U i j * (e.getD i 0 : K) - U i j * (n i : K)| = |U i j| * |((e.getD i 0 - n i : ℤ) : K)| := by
    rw [← mul_sub, abs_mul]; push_cast; rfl
  have h3 : (1 : K) ≤ |((e.getD i 0 - n i : ℤ) : K)| := by
    rw [← Int.cast_abs]
    exact_mod_cast Int.one_le_abs (sub_ne_zero.mpr hdiff)
  have h4 : |(n i : K)| ≤ 90000 := by
    rw [← Int.cast_abs]; exact_mod_cast hn
  rw [h1, h2, abs_mul]
  have h5 : |U i j| * |(n i : K)| ≤ |U i j| * 90000 := by gcongr
  have h6 : |U i j| * 1 ≤ |U i j| * |((e.getD i 0 - n i : ℤ) : K)| := by gcongr
  nlinarith

example : checkMatchArgument { enlargement := some [3, 2, 1], periodicity := some [1, 1, 0] }
    exampleCell.lattice (Matrix.of fun r c => (((![2, 2, 1] : Fin 3 → ℤ) r : ℤ) : ℚ) * exampleCell.lattice r c) = some .mismatchEnlargePost :=
  C10_rejects_other_enlargement _ [3, 2, 1] [1, 1, 0] rfl rfl rfl rfl _ _ 0 0 (by decide) (by decide)
    (by simp [exampleCell]; norm_num)

end

end Interphon.Props
