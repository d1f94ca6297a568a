import Verif.Model.Prelude

/-! # Model of `src/data_structures/bitmap.rs` -/

namespace Nargun

/-- `src/data_structures/bitmap.rs:4-8` `struct Bitmap`. -/
structure Bitmap where
  data : Bytes
  len : Nat
  deriving Repr, DecidableEq

namespace Bitmap

/-- `bitmap.rs:11-17` `Bitmap::new`: all zero; `len = 0` underflows in `unsigned_ceil_div!`
(panic with overflow checks, an impossible allocation of 2^61 bytes without). -/
def new (len : Nat) : Res Bitmap := do
  let n ← unsignedCeilDiv len 8
  .ok { data := List.replicate n 0, len }

/-- `bitmap.rs:23-37` `Bitmap::replace_data`: refuses a different number of bytes, otherwise copies all
bytes.  The spare bits of the last byte are copied too. -/
def replaceData (b : Bitmap) (newData : Bytes) : Res Bitmap :=
  if newData.length ≠ b.data.length then .err
  else .ok { b with data := newData }

/-- `bitmap.rs:39-46` `Bitmap::get`; the index is checked against the bytes only, not against `len`. -/
def get (b : Bitmap) (i : Nat) : Res Bool := do
  let byteIdx := i / 8
  let bitOffset := i % 8
  let bitGetter : Byte := 0x80#8 >>> bitOffset
  let byte ← index b.data byteIdx
  .ok (decide (bitGetter &&& byte > 0#8))

/-- `bitmap.rs:48-63` `Bitmap::change`: returns the new bitmap and the previous bit. -/
def change (b : Bitmap) (idx : Nat) (val : Bool) : Res (Bitmap × Bool) := do
  let byteIdx := idx / 8
  let bitOffset := idx % 8
  let bitGetter : Byte := 0x80#8 >>> bitOffset
  let byte ← index b.data byteIdx
  let bitVal := bitGetter &&& byte
  let bitClearer := ~~~ bitGetter
  let byteWithoutTargetBit := bitClearer &&& byte
  let bitSetter : Byte := (if val then 1#8 else 0#8) <<< (7 - bitOffset)
  .ok ({ b with data := b.data.set byteIdx (byteWithoutTargetBit ||| bitSetter) },
       decide (bitVal > 0#8))

/-- `u8::count_ones` (std intrinsic). -/
def countOnes (b : Byte) : Nat := (List.range 8).countP (fun i => b.getLsbD i)

/-- `bitmap.rs:65-67` `Bitmap::weight`: population count of all bytes, spare bits included. -/
def weight (b : Bitmap) : Nat := (b.data.map countOnes).sum

/-- `bitmap.rs:78-83` `struct Iter` (the borrowed bitmap is a field). -/
structure Iter where
  data : Bitmap
  curIdx : Nat
  curByte : Byte
  deriving Repr, DecidableEq

/-- `bitmap.rs:69-75` `Bitmap::iter`. -/
def iter (b : Bitmap) : Iter := { data := b, curIdx := 0, curByte := 0 }

/-- `bitmap.rs:88-103` `Iter::next`: the yielded item, if any, and the advanced iterator. -/
def Iter.next (it : Iter) : Res (Option Bool × Iter) :=
  if it.curIdx = it.data.len then .ok (none, it)
  else do
    let curByte ← (if it.curIdx % 8 = 0 then index it.data.data (it.curIdx / 8) else .ok it.curByte : Res Byte)
    let rv := decide (0x80#8 &&& curByte > 0#8)
    .ok (some rv, { it with curByte := curByte <<< 1, curIdx := it.curIdx + 1 })

/-- Repeated `next` calls from `it` yield exactly `xs` and then `None`
(how `for`/`collect` consume `bitmap.rs:85-104`). -/
inductive Iter.Yields : Iter → List Bool → Prop
  | done {it it'} : it.next = .ok (none, it') → Yields it []
  | step {it it' x xs} : it.next = .ok (some x, it') → Yields it' xs → Yields it (x :: xs)

/-- `for bit in bitmap.iter()` / `.collect()`: calls `next` until `None`
(`fuel` only makes the recursion structural; `len + 1` calls are enough, see `C02`). -/
def Iter.collect : Nat → Iter → Res (List Bool)
  | 0, _ => .ok []
  | fuel + 1, it => do
    let (x, it') ← it.next
    match x with
    | none => .ok []
    | some v => do
      let rest ← Iter.collect fuel it'
      .ok (v :: rest)

/-- All items of `bitmap.iter()` as consumed by a `for` loop. -/
def toBools (b : Bitmap) : Res (List Bool) := (iter b).collect (b.len + 1)

end Bitmap
end Nargun
