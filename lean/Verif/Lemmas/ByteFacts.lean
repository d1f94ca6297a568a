import Verif.Model.Bitmap
import Verif.Spec.Bits

namespace Nargun
open Spec

/-! Facts about single bytes, checked by the kernel for all 256 bytes and 8 offsets, and their lifting. -/

theorem byte_get_fin : ∀ (o : Fin 8) (b : Byte),
    decide ((0x80#8 >>> o.val) &&& b > 0#8) = b.toNat.testBit (7 - o.val) := by decide +kernel

theorem byte_get (o : Nat) (h : o < 8) (b : Byte) :
    decide ((0x80#8 >>> o) &&& b > 0#8) = b.toNat.testBit (7 - o) := byte_get_fin ⟨o, h⟩ b

theorem byte_change_fin : ∀ (o : Fin 8) (v : Bool) (o' : Fin 8) (b : Byte),
    ((~~~ (0x80#8 >>> o.val) &&& b) ||| ((if v then 1#8 else 0#8) <<< (7 - o.val))).toNat.testBit (7 - o'.val)
      = if o = o' then v else b.toNat.testBit (7 - o'.val) := by decide +kernel

theorem byte_change (o : Nat) (h : o < 8) (v : Bool) (o' : Nat) (h' : o' < 8) (b : Byte) :
    ((~~~ (0x80#8 >>> o) &&& b) ||| ((if v then 1#8 else 0#8) <<< (7 - o))).toNat.testBit (7 - o')
      = if o = o' then v else b.toNat.testBit (7 - o') := by
  have := byte_change_fin ⟨o, h⟩ v ⟨o', h'⟩ b
  simpa [Fin.ext_iff] using this

theorem byte_flip_fin : ∀ (o : Fin 8) (o' : Fin 8) (b : Byte),
    (b ^^^ (0x80#8 >>> o.val)).toNat.testBit (7 - o'.val)
      = if o = o' then !b.toNat.testBit (7 - o'.val) else b.toNat.testBit (7 - o'.val) := by decide +kernel

theorem byte_flip (o : Nat) (h : o < 8) (o' : Nat) (h' : o' < 8) (b : Byte) :
    (b ^^^ (0x80#8 >>> o)).toNat.testBit (7 - o')
      = if o = o' then !b.toNat.testBit (7 - o') else b.toNat.testBit (7 - o') := by
  have := byte_flip_fin ⟨o, h⟩ ⟨o', h'⟩ b
  simpa [Fin.ext_iff] using this

theorem byte_shl_msb : ∀ (k : Fin 8) (b : Byte),
    decide (0x80#8 &&& (b <<< k.val) > 0#8) = b.toNat.testBit (7 - k.val) := by decide +kernel

theorem countOnes_eq_fin : ∀ b : Byte,
    Bitmap.countOnes b = countBelow (fun i => b.toNat.testBit (7 - i)) 8 := by decide +kernel

end Nargun
