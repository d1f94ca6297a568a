import Verif.Model.Prelude

/-! # Specification of bit addressing

Bit `i` of a byte string in network (most significant first) order: bit `7 - i mod 8` of byte `i / 8`.
Stated through `Nat.testBit`, independently of the shift/mask code it specifies. -/

namespace Nargun.Spec

/-- Bit `i` (most significant first) of a byte string; `false` outside. -/
def bitAt (data : Bytes) (i : Nat) : Bool := (data.getD (i / 8) 0).toNat.testBit (7 - i % 8)

/-- Number of indices below `n` satisfying `p`. -/
def countBelow (p : Nat → Bool) : Nat → Nat
  | 0 => 0
  | n + 1 => countBelow p n + if p n then 1 else 0

/-- A byte string read as a big-endian number. -/
def beNat (bs : Bytes) : Nat := bs.foldl (fun acc b => acc * 256 + b.toNat) 0

end Nargun.Spec
