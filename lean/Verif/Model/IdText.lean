import Verif.Model.Id

/-! # Model of the text of an id, `src/data_structures/id.rs:195-210`

What the formatting macros of the standard library yield for a byte is taken from their documentation. -/

namespace Nargun

/-- `{:08b}` of a byte: eight binary digits, the most significant first. -/
def bin8 (b : Byte) : List Char := (List.range 8).map fun i => if b.getLsbD (7 - i) then '1' else '0'

/-- A digit of a hexadecimal number, upper case. -/
def hexChar (n : Nat) : Char :=
  match n with
  | 10 => 'A' | 11 => 'B' | 12 => 'C' | 13 => 'D' | 14 => 'E' | 15 => 'F'
  | n => Char.ofNat (48 + n)

/-- `{:02X?}` of a byte. -/
def hex2 (b : Byte) : List Char := [hexChar (b.toNat / 16), hexChar (b.toNat % 16)]

/-- `slice::chunks(4)`; the last chunk may be shorter. -/
def chunks4 {α} : List α → List (List α)
  | [] => []
  | a :: b :: c :: d :: rest => [a, b, c, d] :: chunks4 rest
  | l => [l]

/-- `id.rs:196-209` `<ID as fmt::Debug>::fmt`: what is written. All characters are ASCII, so that `rv[1..]` begins at a
character. -/
def ID.debugText (id : ID) : Res (List Char) := do
  let b0 ← index id.bytes 0
  let b1 ← index id.bytes 1
  sliceFrom ((' ' :: bin8 b0 ++ [' ']) ++ (bin8 b1 ++ [' ']) ++
    (chunks4 id.bytes).flatMap (fun chunk => ' ' :: chunk.flatMap hex2)) 1

end Nargun
