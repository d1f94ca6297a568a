import Verif.Spec.Bits
import Verif.Lemmas.Bitmap

namespace Nargun
open Spec

/-! Big-endian numbers of byte strings and their bits. -/

theorem foldl_be (bs : Bytes) (acc : Nat) :
    bs.foldl (fun acc b => acc * 256 + b.toNat) acc = acc * 256 ^ bs.length + beNat bs := by
  induction bs generalizing acc with
  | nil => simp [beNat]
  | cons b bs ih =>
    simp only [beNat, List.foldl_cons, List.length_cons]
    rw [ih, ih (0 * 256 + b.toNat)]
    simp only [Nat.pow_succ]
    grind

theorem beNat_nil : beNat [] = 0 := rfl

theorem beNat_cons (b : Byte) (bs : Bytes) : beNat (b :: bs) = b.toNat * 256 ^ bs.length + beNat bs := by
  simp only [beNat, List.foldl_cons]
  rw [foldl_be]; simp [beNat]

theorem beNat_append (as bs : Bytes) : beNat (as ++ bs) = beNat as * 256 ^ bs.length + beNat bs := by
  unfold beNat
  rw [List.foldl_append, foldl_be]; rfl

theorem pow256 (n : Nat) : 256 ^ n = 2 ^ (8 * n) := by
  rw [Nat.pow_mul]

theorem beNat_lt (bs : Bytes) : beNat bs < 2 ^ (8 * bs.length) := by
  induction bs with
  | nil => simp [beNat]
  | cons b bs ih =>
    rw [beNat_cons, pow256, List.length_cons, show 8 * (bs.length + 1) = 8 + 8 * bs.length by omega,
      Nat.pow_add]
    have hb : b.toNat < 2 ^ 8 := b.isLt
    have : (b.toNat + 1) * 2 ^ (8 * bs.length) ≤ 2 ^ 8 * 2 ^ (8 * bs.length) :=
      Nat.mul_le_mul_right _ hb
    grind

theorem beNat_testBit (bs : Bytes) (i : Nat) (hi : i < 8 * bs.length) :
    (beNat bs).testBit (8 * bs.length - 1 - i) = bitAt bs i := by
  induction bs generalizing i with
  | nil => simp at hi
  | cons b bs ih =>
    rw [beNat_cons, pow256, Nat.mul_comm, Nat.testBit_two_pow_mul_add _ (beNat_lt bs)]
    simp only [List.length_cons] at hi ⊢
    by_cases h : i < 8
    · rw [if_neg (by omega)]
      simp only [bitAt, Nat.div_eq_of_lt h, Nat.mod_eq_of_lt h]
      congr 1
      omega
    · rw [if_pos (by omega)]
      have := ih (i - 8) (by omega)
      rw [show 8 * (bs.length + 1) - 1 - i = 8 * bs.length - 1 - (i - 8) by omega, this]
      have h1 : i / 8 = (i - 8) / 8 + 1 := by omega
      have h2 : i % 8 = (i - 8) % 8 := by omega
      simp [bitAt, h1, h2]

theorem bitAt_of_ge (bs : Bytes) (i : Nat) (hi : 8 * bs.length ≤ i) : bitAt bs i = false := by
  have : bs.length ≤ i / 8 := by omega
  simp [bitAt, List.getD, this]

theorem byte_ext {a b : Byte} (h : ∀ o < 8, a.toNat.testBit (7 - o) = b.toNat.testBit (7 - o)) : a = b := by
  apply BitVec.eq_of_getLsbD_eq
  intro i hi
  have := h (7 - i) (by omega)
  rw [show 7 - (7 - i) = i by omega] at this
  simpa [BitVec.testBit_toNat] using this

theorem bytes_ext {as bs : Bytes} (hl : as.length = bs.length)
    (h : ∀ i < 8 * as.length, bitAt as i = bitAt bs i) : as = bs := by
  apply List.ext_getElem hl
  intro k h1 h2
  apply byte_ext
  intro o ho
  have := h (8 * k + o) (by omega)
  have e1 : (8 * k + o) / 8 = k := by omega
  have e2 : (8 * k + o) % 8 = o := by omega
  simp only [bitAt, e1, e2] at this
  simpa [List.getD, h1, h2] using this

theorem beNat_inj {as bs : Bytes} (hl : as.length = bs.length) (h : beNat as = beNat bs) : as = bs := by
  apply bytes_ext hl
  intro i hi
  rw [← beNat_testBit as i hi, ← beNat_testBit bs i (by omega), h, hl]

theorem bitAt_zipWith_xor (as bs : Bytes) (hl : as.length = bs.length) (i : Nat) :
    bitAt (List.zipWith (· ^^^ ·) as bs) i = (bitAt as i ^^ bitAt bs i) := by
  by_cases h : i / 8 < as.length
  · have h2 : i / 8 < bs.length := by omega
    simp only [bitAt, List.getD, List.getElem?_zipWith, List.getElem?_eq_getElem h,
      List.getElem?_eq_getElem h2]
    simp
  · have h2 : ¬ i / 8 < bs.length := by omega
    rw [bitAt_of_ge _ _ (by simp; omega), bitAt_of_ge _ _ (by omega), bitAt_of_ge _ _ (by omega)]
    rfl

theorem beNat_xor (as bs : Bytes) (hl : as.length = bs.length) :
    beNat (List.zipWith (· ^^^ ·) as bs) = beNat as ^^^ beNat bs := by
  apply Nat.eq_of_testBit_eq
  intro j
  rw [Nat.testBit_xor]
  by_cases h : j < 8 * as.length
  · have e : j = 8 * as.length - 1 - (8 * as.length - 1 - j) := by omega
    have l : (List.zipWith (· ^^^ ·) as bs).length = as.length := by simp [hl]
    have t1 := beNat_testBit (List.zipWith (· ^^^ ·) as bs) (8 * as.length - 1 - j) (by omega)
    have t2 := beNat_testBit as (8 * as.length - 1 - j) (by omega)
    have t3 := beNat_testBit bs (8 * as.length - 1 - j) (by omega)
    rw [l, ← e] at t1
    rw [← e] at t2
    rw [← hl, ← e] at t3
    rw [t1, t2, t3, bitAt_zipWith_xor _ _ hl]
  · have z : ∀ (xs : Bytes), xs.length = as.length → (beNat xs).testBit j = false := by
      intro xs hx
      apply Nat.testBit_lt_two_pow
      calc beNat xs < 2 ^ (8 * xs.length) := beNat_lt xs
        _ ≤ 2 ^ j := Nat.pow_le_pow_right (by decide) (by omega)
    rw [z _ (by simp [hl]), z _ rfl, z _ hl.symm]; rfl

theorem xor_le_add (a b : Nat) : a ^^^ b ≤ a + b := by
  induction a using Nat.strongRecOn generalizing b with
  | _ a ih =>
    by_cases ha : a = 0
    · subst ha; simp
    · have h1 : (a ^^^ b) / 2 = a / 2 ^^^ b / 2 := Nat.xor_div_two ..
      have h2 : (a ^^^ b) % 2 = (a + b) % 2 := by
        have := @Nat.xor_mod_two_eq_one a b
        omega
      have := ih (a / 2) (by omega) (b / 2)
      omega

end Nargun
