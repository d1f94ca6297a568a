import Verif.Model.Prelude

/-! # Model of `src/peers/connection/message.rs` -/

namespace Nargun

/-- `u32`. -/
abbrev U32 := BitVec 32

/-- `u16`. -/
abbrev U16 := BitVec 16

/-- `src/peers/connection/connection_manager.rs:18` `BLOCK_SIZE`. -/
def BLOCK_SIZE : Nat := 1 <<< 14

/-- `message.rs:11` `BYTES_IN_LEN_PREFIX`. -/
notation "BYTES_IN_LEN_PREFIX" => (4 : Nat)

/-- `message.rs:56-61` `struct Request`. -/
structure Request where
  index : U32
  begin_ : U32
  length : U32
  deriving DecidableEq, Repr

/-- `message.rs:63-68` `struct Piece`. -/
structure Piece where
  index : U32
  begin_ : U32
  block : Bytes
  deriving DecidableEq, Repr

/-- `message.rs:41-54` `enum Message`. -/
inductive Message where
  | keepAlive
  | choke
  | unchoke
  | interested
  | notInterested
  | have_ (i : U32)
  | bitfield (b : Bytes)
  | request (r : Request)
  | piece (p : Piece)
  | cancel (r : Request)
  | port (p : U16)
  deriving DecidableEq, Repr

/-- `message.rs:70-77` `u32_from_be_slice!`: the four `u32` terms are added (the additions cannot overflow,
so wrapping addition is used). -/
def u32FromBeSlice (s : Bytes) : Res U32 := do
  let b0 ← index s 0
  let b1 ← index s 1
  let b2 ← index s 2
  let b3 ← index s 3
  .ok ((b0.setWidth 32 <<< 24) + (b1.setWidth 32 <<< 16) + (b2.setWidth 32 <<< 8) + b3.setWidth 32)

/-- `message.rs:133-135`: the `u16` read of the `port` message. -/
def u16FromBe (b0 b1 : Byte) : U16 := (b0.setWidth 16 <<< 8) + b1.setWidth 16

/-- bincode's big-endian fixed-width encoding of a `u32` (`message.rs:146-152`). -/
def u32Bytes (x : U32) : Bytes :=
  [(x >>> 24).setWidth 8, (x >>> 16).setWidth 8, (x >>> 8).setWidth 8, x.setWidth 8]

/-- bincode's big-endian fixed-width encoding of a `u16`. -/
def u16Bytes (x : U16) : Bytes := [(x >>> 8).setWidth 8, x.setWidth 8]

namespace Message

/-- `message.rs:80-82` `Message::len`. -/
def len (buf : Bytes) : Res Nat := do
  let s ← sliceR buf 0 BYTES_IN_LEN_PREFIX
  let l ← u32FromBeSlice s
  .ok l.toNat

/-- `message.rs:118-122`, `128-132`: the three numbers of a `Request`. -/
def readRequest (buf : Bytes) : Res Request := do
  let s1 ← sliceFrom buf 5
  let i ← u32FromBeSlice s1
  let s2 ← sliceFrom buf 9
  let b ← u32FromBeSlice s2
  let s3 ← sliceFrom buf 13
  let l ← u32FromBeSlice s3
  .ok ⟨i, b, l⟩

/-- `message.rs:84-144` `Message::from_buf`. `none` is Rust's `None`; slice accesses out of range panic.
The scan for zeros at lines 89-98 only feeds a log message and is omitted. -/
def fromBuf (buf : Bytes) : Res (Option Message) := do
  let s ← sliceR buf 0 BYTES_IN_LEN_PREFIX
  let l ← u32FromBeSlice s
  let len := l.toNat + BYTES_IN_LEN_PREFIX
  if buf.length < len then
    .ok none
  else if len = BYTES_IN_LEN_PREFIX then
    .ok (some .keepAlive)
  else do
    let id ← index buf 4
    match id.toNat with
    | 0 => .ok (some .choke)
    | 1 => .ok (some .unchoke)
    | 2 => .ok (some .interested)
    | 3 => .ok (some .notInterested)
    | 4 => do
      let s ← sliceFrom buf 5
      let i ← u32FromBeSlice s
      .ok (some (.have_ i))
    | 5 => do
      let b ← sliceR buf 5 len
      .ok (some (.bitfield b))
    | 6 => do
      let r ← readRequest buf
      .ok (some (.request r))
    | 7 => do
      let s1 ← sliceFrom buf 5
      let i ← u32FromBeSlice s1
      let s2 ← sliceFrom buf 9
      let b ← u32FromBeSlice s2
      let blk ← sliceR buf 13 len
      .ok (some (.piece ⟨i, b, blk⟩))
    | 8 => do
      let r ← readRequest buf
      .ok (some (.cancel r))
    | 9 => do
      let b0 ← index buf 5
      let b1 ← index buf 6
      .ok (some (.port (u16FromBe b0 b1)))
    | _ => .ok none

/-- `LEN + payload.len() as u32` of `message.rs:195` and `message.rs:211`: the cast truncates, the addition
panics on overflow (debug build). -/
def lenField (base : Nat) (payload : Nat) : Res U32 :=
  let p := payload % 2 ^ 32
  if base + p < 2 ^ 32 then .ok (BitVec.ofNat 32 (base + p)) else .panic

/-- The derived `Serialize` of `Request` (`message.rs:56`): its fields in order. -/
def requestBytes (r : Request) : Bytes := u32Bytes r.index ++ u32Bytes r.begin_ ++ u32Bytes r.length

/-- `message.rs:146-152` `into_bytes` with the `Serialize` impl at `message.rs:155-236`. bincode writes a
tuple's elements without a length; its default options put no limit on the size. -/
def intoBytes : Message → Res Bytes
  | keepAlive => .ok (u32Bytes 0#32)
  | choke => .ok (u32Bytes 1#32 ++ [0#8])
  | unchoke => .ok (u32Bytes 1#32 ++ [1#8])
  | interested => .ok (u32Bytes 1#32 ++ [2#8])
  | notInterested => .ok (u32Bytes 1#32 ++ [3#8])
  | have_ i => .ok (u32Bytes 5#32 ++ [4#8] ++ u32Bytes i)
  | bitfield b => do
    let l ← lenField 1 b.length
    .ok (u32Bytes l ++ [5#8] ++ b)
  | request r => .ok (u32Bytes 13#32 ++ [6#8] ++ requestBytes r)
  | piece p => do
    let l ← lenField 9 p.block.length
    .ok (u32Bytes l ++ [7#8] ++ u32Bytes p.index ++ u32Bytes p.begin_ ++ p.block)
  | cancel r => .ok (u32Bytes 13#32 ++ [8#8] ++ requestBytes r)
  | port p => .ok (u32Bytes 3#32 ++ [9#8] ++ u16Bytes p)

end Message

/-- `src/peers/connection/downloader.rs:26-30` `enum BlockStatus`. -/
inductive BlockStatus where
  | queued
  | requested
  deriving DecidableEq, Repr

/-- `src/peers/connection/downloader.rs:32-37` `struct BlockAddress`. -/
structure BlockAddress where
  pieceIdx : Nat
  blockIdx : Nat
  status : BlockStatus
  deriving DecidableEq, Repr

/-- `src/peers/connection/downloader.rs:39-47` `BlockAddress::new`. -/
def BlockAddress.new (pieceIdx blockIdx : Nat) : BlockAddress := ⟨pieceIdx, blockIdx, .queued⟩

/-- `message.rs:252-260` `impl From<BlockAddress> for Request`; `as u32` truncates. -/
def Request.ofBlockAddress (a : BlockAddress) : Request :=
  { index := BitVec.ofNat 32 a.pieceIdx
    begin_ := BitVec.ofNat 32 (a.blockIdx * BLOCK_SIZE)
    length := BitVec.ofNat 32 BLOCK_SIZE }

end Nargun
