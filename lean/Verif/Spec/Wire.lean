import Verif.Model.Message

/-! # Specification of the peer wire format (BEP 3), independent of the code -/

namespace Nargun.Spec

/-- The `w`-byte big-endian representation of a number. -/
def beBytes (w n : Nat) : Bytes := (List.range w).map fun i => BitVec.ofNat 8 (n / 256 ^ (w - 1 - i) % 256)

/-- What BEP 3 puts behind the length prefix: nothing for keep-alive, otherwise the message id and its fields
as big-endian integers, followed by the raw payload. -/
def payload : Message → Bytes
  | .keepAlive => []
  | .choke => [0#8]
  | .unchoke => [1#8]
  | .interested => [2#8]
  | .notInterested => [3#8]
  | .have_ i => 4#8 :: beBytes 4 i.toNat
  | .bitfield b => 5#8 :: b
  | .request r => 6#8 :: (beBytes 4 r.index.toNat ++ beBytes 4 r.begin_.toNat ++ beBytes 4 r.length.toNat)
  | .piece p => 7#8 :: (beBytes 4 p.index.toNat ++ beBytes 4 p.begin_.toNat ++ p.block)
  | .cancel r => 8#8 :: (beBytes 4 r.index.toNat ++ beBytes 4 r.begin_.toNat ++ beBytes 4 r.length.toNat)
  | .port p => 9#8 :: beBytes 2 p.toNat

/-- The wire form: four bytes counting the bytes that follow, then those bytes. -/
def wire (m : Message) : Bytes := beBytes 4 (payload m).length ++ payload m

/-- The message fits the 32-bit length prefix. -/
def Fits (m : Message) : Prop := (payload m).length < 2 ^ 32

/-- The concatenated wire forms of a sequence of messages. -/
def wireAll (ms : List Message) : Bytes := (ms.map wire).flatten

end Nargun.Spec
