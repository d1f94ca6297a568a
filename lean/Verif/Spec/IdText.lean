import Verif.Spec.Id
import Verif.Model.IdText

/-! # How to read the text of an id -/

namespace Nargun.Spec

open Nargun

/-- The value of a hexadecimal digit. -/
def hexCharValue (c : Char) : Option Nat :=
  ("0123456789ABCDEF".toList).findIdx? (· == c)

/-- The bytes that pairs of hexadecimal digits stand for. -/
def readHex : List Char → Option Bytes
  | [] => some []
  | [_] => none
  | x :: y :: rest =>
    match hexCharValue x, hexCharValue y, readHex rest with
    | some h, some l, some bs => some (BitVec.ofNat 8 (16 * h + l) :: bs)
    | _, _, _ => none

/-- The id in a text: the first 18 characters repeat the first bits, what follows are hexadecimal digits and blanks. -/
def idInText (t : List Char) : Option Bytes := readHex ((t.drop 18).filter (· != ' '))

/-- The character for a bit. -/
def bitChar (b : Bool) : Char := if b then '1' else '0'

end Nargun.Spec
