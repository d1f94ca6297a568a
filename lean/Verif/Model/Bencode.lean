import Verif.Model.Prelude

/-! # Model of the bencode decoder and encoder (crate `bendy` 0.4.0-beta.2)

The crate is a dependency, not part of the repository; `src/tracker/response.rs`,
`src/transcoding/metainfo.rs` and `src/dht/krpc_message.rs` are written on top of it. The model turns the
crate's lazy token stream into one eager pass: the crate latches the first error and returns it on the next
access, and every caller in the repository runs its dictionaries to the end, so the two agree on which inputs
are accepted. Integers are kept as mathematical integers (the crate keeps their text). -/

namespace Nargun

/-- A bencoded value. -/
inductive BVal where
  | int (n : Int)
  | str (s : Bytes)
  | list (items : List BVal)
  | dict (pairs : List (Bytes × BVal))

/-- `to_string` of an unsigned number, as bytes (used by `bendy`'s encoder and by
`src/tracker/announce.rs:35-44`). -/
def decimal (n : Nat) : Bytes := (Nat.toDigits 10 n).map fun c => BitVec.ofNat 8 c.toNat

/-- `to_string` of a signed number. -/
def decimalInt (n : Int) : Bytes := if n < 0 then 0x2d#8 :: decimal n.natAbs else decimal n.natAbs

/-- An ASCII digit. -/
def isDigit (b : Byte) : Bool := decide (48 ≤ b.toNat ∧ b.toNat ≤ 57)

/-- The number written by ASCII digits (`from_str_radix(.., 10)` without the range check). -/
def digitsValue (ds : Bytes) : Nat := ds.foldl (fun n d => 10 * n + (d.toNat - 48)) 0

/-- `bendy` `take_int` on the unsigned part: digits without a superfluous leading zero, then the terminator. -/
def takeNat (term : Byte) (bs : Bytes) : Res (Nat × Bytes) :=
  let ds := bs.takeWhile isDigit
  if ds = [] then .err
  else if ds.head? = some 0x30#8 ∧ ds.length ≠ 1 then .err
  else match bs.dropWhile isDigit with
    | t :: rest => if t = term then .ok (digitsValue ds, rest) else .err
    | [] => .err

/-- `bendy` `take_int('e')`: an optional minus sign (not before a zero). -/
def takeInt (bs : Bytes) : Res (Int × Bytes) :=
  match bs with
  | [] => .err
  | b :: bs' =>
    if b = 0x2d#8 then do
      let (n, rest) ← takeNat 0x65#8 bs'
      if n = 0 then .err else .ok (-(n : Int), rest)
    else do
      let (n, rest) ← takeNat 0x65#8 bs
      .ok ((n : Int), rest)

/-- `bendy` token `String`: length, colon, that many bytes; the length must fit a `usize`. -/
def takeStr (bs : Bytes) : Res (Bytes × Bytes) := do
  let (n, rest) ← takeNat 0x3a#8 bs
  if n < 2 ^ 64 ∧ n ≤ rest.length then .ok (rest.take n, rest.drop n) else .err

/-- Lexicographic order on byte strings (Rust's `<` on slices). -/
def bytesLt : Bytes → Bytes → Bool
  | _, [] => false
  | [], _ :: _ => true
  | a :: as, b :: bs => decide (a.toNat < b.toNat) || (decide (a = b) && bytesLt as bs)

/-- The key following `last` must be greater (`bendy` `StructureError::UnsortedKeys`). -/
def keyFollows (last : Option Bytes) (k : Bytes) : Bool :=
  match last with
  | none => true
  | some l => bytesLt l k

mutual

/-- `bendy` `Decoder::next_object`, run to the end of the object; `depth` is what is left of `max_depth`.
`fuel` bounds the recursion (the length of the input suffices). -/
def parseVal : Nat → Nat → Bytes → Res (BVal × Bytes)
  | 0, _, _ => .err
  | _ + 1, _, [] => .err
  | f + 1, d, b :: bs =>
    if b = 0x69#8 then do
      let (n, rest) ← takeInt bs
      .ok (.int n, rest)
    else if b = 0x6c#8 then
      match d with
      | 0 => .err
      | d + 1 => do
        let (l, rest) ← parseItems f d bs
        .ok (.list l, rest)
    else if b = 0x64#8 then
      match d with
      | 0 => .err
      | d + 1 => do
        let (l, rest) ← parsePairs f d none bs
        .ok (.dict l, rest)
    else do
      let (s, rest) ← takeStr (b :: bs)
      .ok (.str s, rest)

/-- The items of a list up to the closing `e`. -/
def parseItems : Nat → Nat → Bytes → Res (List BVal × Bytes)
  | 0, _, _ => .err
  | _ + 1, _, [] => .err
  | f + 1, d, b :: bs =>
    if b = 0x65#8 then .ok ([], bs)
    else do
      let (v, rest) ← parseVal f d (b :: bs)
      let (vs, rest') ← parseItems f d rest
      .ok (v :: vs, rest')

/-- The pairs of a dictionary up to the closing `e`; keys are strings in strictly increasing order. -/
def parsePairs : Nat → Nat → Option Bytes → Bytes → Res (List (Bytes × BVal) × Bytes)
  | 0, _, _, _ => .err
  | _ + 1, _, _, [] => .err
  | f + 1, d, last, b :: bs =>
    if b = 0x65#8 then .ok ([], bs)
    else do
      let (k, rest) ← takeStr (b :: bs)
      if keyFollows last k then do
        let (v, rest') ← parseVal f d rest
        let (ps, rest'') ← parsePairs f d (some k) rest'
        .ok ((k, v) :: ps, rest'')
      else .err

end

/-- `Decoder::new(bytes).with_max_depth(depth).next_object()`: the first object of the input and what follows
it. -/
def bdecode (depth : Nat) (bs : Bytes) : Res (BVal × Bytes) := parseVal bs.length depth bs

/-- `bendy`'s default `max_depth`. -/
def BENDY_DEFAULT_DEPTH : Nat := 2048

/-- The bencoding of a byte string. -/
def bencodeStr (s : Bytes) : Bytes := decimal s.length ++ 0x3a#8 :: s

mutual

/-- `bendy`'s encoder (pairs are written in the given order; the crate sorts them first where the order is
not given by the type). -/
def bencode : BVal → Bytes
  | .int n => 0x69#8 :: (decimalInt n ++ [0x65#8])
  | .str s => bencodeStr s
  | .list l => 0x6c#8 :: bencodeItems l
  | .dict l => 0x64#8 :: bencodePairs l

/-- Items of a list and the closing `e`. -/
def bencodeItems : List BVal → Bytes
  | [] => [0x65#8]
  | v :: vs => bencode v ++ bencodeItems vs

/-- Pairs of a dictionary and the closing `e`. -/
def bencodePairs : List (Bytes × BVal) → Bytes
  | [] => [0x65#8]
  | (k, v) :: ps => bencodeStr k ++ (bencode v ++ bencodePairs ps)

end

end Nargun
