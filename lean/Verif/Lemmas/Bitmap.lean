import Verif.Model.Bitmap
import Verif.Spec.Bits
import Verif.Lemmas.ByteFacts

namespace Nargun
open Spec

theorem index_eq_ok {α} {xs : List α} {i : Nat} {a : α} :
    index xs i = .ok a ↔ xs[i]? = some a := by
  unfold index Res.unwrap; split <;> simp_all

theorem index_lt {α} {xs : List α} {i : Nat} (h : i < xs.length) : index xs i = .ok xs[i] := by
  simp [index, h]

theorem index_ge {α} {xs : List α} {i : Nat} (h : xs.length ≤ i) : index xs i = .panic := by
  simp [index, h]

namespace Bitmap

theorem get_of_lt (b : Bitmap) (i : Nat) (h : i / 8 < b.data.length) :
    b.get i = .ok (bitAt b.data i) := by
  simp only [get, bitAt]
  rw [index_lt h]
  simp only [Res.ok_bind]
  rw [byte_get _ (Nat.mod_lt _ (by decide))]
  simp [h, List.getD]

theorem get_of_ge (b : Bitmap) (i : Nat) (h : b.data.length ≤ i / 8) : b.get i = .panic := by
  simp only [get]
  rw [index_ge h]
  rfl

theorem change_of_ge (b : Bitmap) (i : Nat) (v : Bool) (h : b.data.length ≤ i / 8) :
    b.change i v = .panic := by
  simp only [change]
  rw [index_ge h]
  rfl

theorem change_of_lt (b : Bitmap) (i : Nat) (v : Bool) (h : i / 8 < b.data.length) :
    ∃ b', b.change i v = .ok (b', bitAt b.data i) ∧ b'.len = b.len ∧
      b'.data.length = b.data.length ∧
      ∀ j, bitAt b'.data j = if j = i then v else bitAt b.data j := by
  simp only [change]
  rw [index_lt h]
  simp only [Res.ok_bind]
  rw [byte_get _ (Nat.mod_lt _ (by decide))]
  have hb : (b.data[i / 8]).toNat.testBit (7 - i % 8) = bitAt b.data i := by
    simp only [bitAt, List.getD, List.getElem?_eq_getElem h, Option.getD_some]
  rw [hb]
  refine ⟨_, rfl, rfl, ?_, ?_⟩
  · simp
  · intro j
    simp only [bitAt, List.getD, List.getElem?_set]
    by_cases hj : i / 8 = j / 8
    · rw [if_pos hj, if_pos h, Option.getD_some,
        byte_change _ (Nat.mod_lt _ (by decide)) _ _ (Nat.mod_lt _ (by decide))]
      have e : b.data[j / 8]? = some b.data[i / 8] := by simp [← hj, h]
      rw [e, Option.getD_some]
      have : (i % 8 = j % 8) ↔ j = i := by omega
      simp only [this]
    · have : j ≠ i := by rintro rfl; exact hj rfl
      simp [this, hj]

theorem countBelow_add (p : Nat → Bool) (a b : Nat) :
    countBelow p (a + b) = countBelow p a + countBelow (fun i => p (a + i)) b := by
  induction b with
  | zero => simp [countBelow]
  | succ b ih =>
    show countBelow p (a + b) + _ = countBelow p a + (countBelow _ b + _)
    rw [ih, Nat.add_assoc]; rfl

theorem countBelow_congr {p q : Nat → Bool} {n : Nat} (h : ∀ i < n, p i = q i) :
    countBelow p n = countBelow q n := by
  induction n with
  | zero => rfl
  | succ n ih =>
    simp only [countBelow]
    rw [ih (fun i hi => h i (by omega)), h n (by omega)]

theorem countBelow_false {p : Nat → Bool} {n : Nat} (h : ∀ i < n, p i = false) :
    countBelow p n = 0 := by
  induction n with
  | zero => rfl
  | succ n ih =>
    simp only [countBelow]
    rw [ih (fun i hi => h i (by omega)), h n (by omega)]; rfl

theorem sum_countOnes (ds : Bytes) :
    (ds.map countOnes).sum = countBelow (bitAt ds) (8 * ds.length) := by
  induction ds with
  | nil => rfl
  | cons d ds ih =>
    rw [List.map_cons, List.sum_cons, ih, countOnes_eq_fin, List.length_cons,
      show 8 * (ds.length + 1) = 8 + 8 * ds.length by omega, countBelow_add]
    have e1 : countBelow (bitAt (d :: ds)) 8 = countBelow (fun i => d.toNat.testBit (7 - i)) 8 := by
      apply countBelow_congr
      intro i hi
      simp [bitAt, Nat.div_eq_of_lt hi, Nat.mod_eq_of_lt hi]
    have e2 : countBelow (fun i => bitAt (d :: ds) (8 + i)) (8 * ds.length)
        = countBelow (bitAt ds) (8 * ds.length) := by
      apply countBelow_congr
      intro i hi
      have h1 : (8 + i) / 8 = i / 8 + 1 := by omega
      have h2 : (8 + i) % 8 = i % 8 := by omega
      simp [bitAt, h1, h2]
    rw [e1, e2]

end Bitmap
end Nargun
