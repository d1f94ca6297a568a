import Verif.Model.Id
import Verif.Model.Addr
import Verif.Spec.Ascii

/-! # Helpers for the transcribed unit tests

The modules below `Verif/Conformance` prove no property.  They run the unit tests of the repository on the model, with
the literals of the tests, so that a slip in the transcription of a function shows up as a failed test.  A value a test
draws at random is replaced by a fixed one. -/

namespace Nargun.Conformance

/-- Bytes from numbers. -/
def bytes (l : List Nat) : Bytes := l.map (BitVec.ofNat 8)

/-- An ID from bytes; all zero if there are not 20 of them. -/
def idOf (b : Bytes) : ID :=
  match ID.fromVec b with
  | .ok i => i
  | _ => ⟨List.replicate ID_LEN 0, List.length_replicate⟩

/-- A node from its compact form. -/
def nodeOf (s : String) : Node :=
  match Node.fromCompact (Spec.ascii s) with
  | .ok n => n
  | _ => ⟨idOf [], ⟨⟨0, 0, 0, 0⟩, 0⟩, none⟩

/-- An address. -/
def addr (a b c d port : Nat) : SockAddr := ⟨⟨.ofNat 8 a, .ofNat 8 b, .ofNat 8 c, .ofNat 8 d⟩, .ofNat 16 port⟩

/-- `Result::is_err`. -/
def isErr {α} : Res α → Bool
  | .err => true
  | _ => false

/-- `Result::is_ok`. -/
def isOk {α} : Res α → Bool
  | .ok _ => true
  | _ => false

/-- The test ends in a panic, or in the error that `unwrap` turns into one. -/
def fails {α} : Res α → Bool
  | .ok _ => false
  | _ => true

end Nargun.Conformance
