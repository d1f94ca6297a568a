import Verif.Spec.Ascii

/-! # Specification: reading a URL's query the way a tracker does (RFC 3986 and form decoding) -/

namespace Nargun.Spec

open Nargun

/-- Value of a hexadecimal digit. -/
def hexValue (b : Byte) : Option Nat :=
  if 48 ≤ b.toNat ∧ b.toNat ≤ 57 then some (b.toNat - 48)
  else if 65 ≤ b.toNat ∧ b.toNat ≤ 70 then some (b.toNat - 55)
  else if 97 ≤ b.toNat ∧ b.toNat ≤ 102 then some (b.toNat - 87)
  else none

/-- Percent-decoding with `+` for a space; `none` if an escape is malformed. -/
def percentDecode : Bytes → Option Bytes
  | [] => some []
  | b :: rest =>
    if b = 0x25#8 then
      match rest with
      | h :: l :: rest' =>
        match hexValue h, hexValue l, percentDecode rest' with
        | some x, some y, some ds => some (BitVec.ofNat 8 (16 * x + y) :: ds)
        | _, _, _ => none
      | _ => none
    else
      match percentDecode rest with
      | some ds => some ((if b = 0x2b#8 then 0x20#8 else b) :: ds)
      | none => none
termination_by structural bs => bs

/-- The parts of a text between the occurrences of a separator. -/
def splitAll (sep : Byte) : Bytes → List Bytes
  | [] => [[]]
  | b :: bs =>
    if b = sep then [] :: splitAll sep bs
    else
      match splitAll sep bs with
      | p :: ps => (b :: p) :: ps
      | [] => [[b]]

/-- What precedes and what follows the first occurrence of a separator. -/
def splitFirst (sep : Byte) (bs : Bytes) : Bytes × Bytes :=
  (bs.takeWhile (· != sep), (bs.dropWhile (· != sep)).drop 1)

/-- The query of a URL: the fragment (from the first `#`) is cut off; the query follows the first `?`. -/
def urlQuery (url : Bytes) : Bytes := (splitFirst 0x3f#8 (splitFirst 0x23#8 url).1).2

/-- The raw parameters of a query. -/
def rawParams (query : Bytes) : List (Bytes × Bytes) := (splitAll 0x26#8 query).map (splitFirst 0x3d#8)

/-- The parameters of a URL as a tracker sees them; `none` if some value is malformed. -/
def urlParams (url : Bytes) : Option (List (Bytes × Bytes)) :=
  (rawParams (urlQuery url)).mapM fun kv => do
    let v ← percentDecode kv.2
    pure (kv.1, v)

/-- What precedes the query. -/
def urlBase (url : Bytes) : Bytes := (splitFirst 0x3f#8 (splitFirst 0x23#8 url).1).1

/-- Unreserved characters of RFC 3986: letters, digits, `-`, `.`, `_`, `~`. -/
def Unreserved (b : Byte) : Prop :=
  b ∈ ascii "ABCDEFGHIJKLMNOPQRSTUVWXYZabcdefghijklmnopqrstuvwxyz0123456789-._~"

/-- A text made of unreserved characters and `%XX` escapes with upper-case digits. -/
inductive Escaped : Bytes → Prop
  | nil : Escaped []
  | plain (b rest) : Unreserved b → Escaped rest → Escaped (b :: rest)
  | escape (h l rest) : h ∈ ascii "0123456789ABCDEF" → l ∈ ascii "0123456789ABCDEF" → Escaped rest →
      Escaped (0x25#8 :: h :: l :: rest)

end Nargun.Spec
