import Verif.Spec.Bits
import Verif.Model.Id

/-! # Specification vocabulary for 160-bit identifiers -/

namespace Nargun.Spec

/-- The 160-bit number an identifier denotes. -/
def idNat (a : ID) : Nat := beNat a.bytes

/-- Bit `i` of an identifier, 0 = most significant. -/
def idBit (a : ID) (i : Nat) : Bool := bitAt a.bytes i

/-- Number of binary digits of `n` (0 for 0). -/
def bitLen (n : Nat) : Nat := if n = 0 then 0 else Nat.log2 n + 1

/-- Kademlia distance as a number. -/
def dist (a b : ID) : Nat := idNat a ^^^ idNat b

end Nargun.Spec
