import Verif.Model.SuperCell
import Mathlib.Tactic.Ring
import Mathlib.Tactic.FieldSimp

/-! Helper lemmas about the super cell model. -/

namespace Interphon.SuperCell
open Py Interphon Interphon.Args

variable {K : Type*} [Field K]

/-- All vectors written by the triple loop, in order. -/
def boxDirect (n : Fin 3 → ℤ) : List (V3 K) :=
  (rangeInt (n 0)).flatMap fun (x : ℕ) => (rangeInt (n 1)).flatMap fun (y : ℕ) => (rangeInt (n 2)).map fun (z : ℕ) =>
    ![(x : K) / (n 0 : K), (y : K) / (n 1 : K), (z : K) / (n 2 : K)]

theorem superDirect_eq_foldl (n : Fin 3 → ℤ) (junk : List (V3 K)) :
    superDirect n junk = (boxDirect n).foldl fillStep (.ok (junk, 0)) := by
  unfold superDirect boxDirect
  simp only [List.foldl_flatMap, List.foldl_map]

theorem foldl_fillStep (vs : List (V3 K)) : ∀ (done rest : List (V3 K)), vs.length ≤ rest.length →
    vs.foldl fillStep (.ok (done ++ rest, done.length)) =
      .ok (done ++ vs ++ rest.drop vs.length, done.length + vs.length) := by
  induction vs with
  | nil => intro done rest _; simp
  | cons v vs ih =>
    intro done rest h
    cases rest with
    | nil => simp at h
    | cons r rs =>
      have : fillStep (.ok (done ++ r :: rs, done.length)) v = .ok ((done ++ [v]) ++ rs, (done ++ [v]).length) := by
        simp [fillStep]
      rw [List.foldl_cons, this, ih (done ++ [v]) rs (by simpa using h)]
      simp; omega

theorem superDirect_ok (n : Fin 3 → ℤ) (junk : List (V3 K)) (h : (boxDirect (K := K) n).length = junk.length) :
    superDirect n junk = .ok (boxDirect n, junk.length) := by
  rw [superDirect_eq_foldl]
  have := foldl_fillStep (boxDirect (K := K) n) [] junk (by omega)
  simpa [h] using this

theorem length_boxDirect (n : Fin 3 → ℤ) :
    (boxDirect (K := K) n).length = (n 0).toNat * ((n 1).toNat * (n 2).toNat) := by
  simp [boxDirect, rangeInt, List.length_flatMap]

theorem getElem?_flatMap_const {α β : Type*} (f : α → List β) (m : ℕ) (l : List α)
    (hf : ∀ a ∈ l, (f a).length = m) (i j : ℕ) (hj : j < m) :
    (l.flatMap f)[m * i + j]? = l[i]?.bind fun a => (f a)[j]? := by
  induction l generalizing i with
  | nil => simp
  | cons a l ih =>
    have ha : (f a).length = m := hf a (by simp)
    rw [List.flatMap_cons]
    cases i with
    | zero => simp [List.getElem?_append_left (show j < (f a).length by omega)]
    | succ i =>
      rw [List.getElem?_append_right (by rw [ha]; nlinarith)]
      rw [show m * (i + 1) + j - (f a).length = m * i + j by rw [ha, Nat.mul_succ]; omega]
      simpa using ih (fun b hb => hf b (by simp [hb])) i

theorem getElem?_boxDirect (n : Fin 3 → ℤ) (x y z : ℕ) (hx : (x : ℤ) < n 0) (hy : (y : ℤ) < n 1) (hz : (z : ℤ) < n 2) :
    (boxDirect (K := K) n)[(x * (n 1).toNat + y) * (n 2).toNat + z]? =
      some ![(x : K) / (n 0 : K), (y : K) / (n 1 : K), (z : K) / (n 2 : K)] := by
  unfold boxDirect
  have hyN : y < (n 1).toNat := by omega
  have hzN : z < (n 2).toNat := by omega
  have hxN : x < (n 0).toNat := by omega
  have e : (x * (n 1).toNat + y) * (n 2).toNat + z = ((n 1).toNat * (n 2).toNat) * x + ((n 2).toNat * y + z) := by ring
  have hlt : (n 2).toNat * y + z < (n 1).toNat * (n 2).toNat := by nlinarith
  rw [e, getElem?_flatMap_const _ ((n 1).toNat * (n 2).toNat) _ _ x _ hlt]
  · rw [show (rangeInt (n 0))[x]? = some x by simp [rangeInt, hxN]]
    rw [Option.bind_some, getElem?_flatMap_const _ (n 2).toNat _ _ y z hzN]
    · simp [rangeInt, hyN, hzN]
    · intro a _; simp [rangeInt]
  · intro a _; simp [rangeInt, List.length_flatMap]

theorem cartLoop_eq (E : ℕ) (S : M3 K) (sd : List (V3 K)) (hsd : sd.length = E) :
    ∀ (atoms done : List (V3 K)) (ind : ℕ) (rest : List (V3 K)), done.length = E * ind →
      rest.length = E * atoms.length →
      cartLoop E S sd ind atoms (done ++ rest) = done ++ atoms.flatMap fun v => sd.map (imagePos v S) := by
  intro atoms
  induction atoms with
  | nil => intro done ind rest _ hr; simp at hr; simp [cartLoop, hr]
  | cons v vs ih =>
    intro done ind rest hd hr
    have hr' : rest.length = E + E * vs.length := by rw [hr]; simp; ring
    have hs : setSlice (done ++ rest) (E * ind) (sd.map (imagePos v S)) =
        (done ++ sd.map (imagePos v S)) ++ rest.drop E := by
      unfold setSlice
      rw [← hd]
      simp [hsd, List.drop_append]
    rw [cartLoop, hs, ih _ (ind + 1) _ (by simp [hd, hsd]; ring) (by simp [hr'])]
    simp

theorem imagePos_eq (v : V3 K) (L : M3 K) (n : Fin 3 → ℤ) (x y z : ℕ) (h0 : (n 0 : K) ≠ 0) (h1 : (n 1 : K) ≠ 0)
    (h2 : (n 2 : K) ≠ 0) :
    imagePos v (superLattice L n) ![(x : K) / (n 0 : K), (y : K) / (n 1 : K), (z : K) / (n 2 : K)] =
      fun j => v j + (x * L 0 j + y * L 1 j + z * L 2 j) := by
  funext j
  simp only [imagePos, superLattice, Fin.sum_univ_three, Matrix.cons_val_zero, Matrix.cons_val_one, Matrix.cons_val]
  field_simp

/-- With consistent arguments the number of images is the product of all three factors. -/
theorem enlarge_eq (n p : Fin 3 → ℤ) (hcons : ∀ i, p i = 0 → n i = 1) :
    enlarge [n 0, n 1, n 2] [p 0, p 1, p 2] = n 0 * n 1 * n 2 := by
  have h0 := hcons 0
  have h1 := hcons 1
  have h2 := hcons 2
  unfold enlarge
  simp only [enlargeLoop, List.getD_cons_zero, List.getD_cons_succ]
  split_ifs <;> simp_all

end Interphon.SuperCell
