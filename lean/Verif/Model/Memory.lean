import Verif.Model.Map
import Verif.Model.Metainfo

/-! # Model of the memory behind `src/transcoding/metainfo.rs:379-397`

`deserialize_pieces_field` turns a `Vec<u8>` into a `Vec<ID>` without copying. Here a vector is what it is at run time: the
address of a block of memory, a length and a capacity; a heap has the blocks that were allocated, with their size and
alignment. Freeing a block with another size or alignment than it was allocated with is undefined behaviour
(`GlobalAlloc::dealloc`; `Vec::from_raw_parts` demands it as well). `ID` is one array of 20 bytes (`id.rs:16-17`), so its size is 20
and its alignment 1. -/

namespace Nargun

/-- A block of memory. Its size is the number of its bytes. -/
structure MemBlock where
  bytes : Bytes
  align : Nat
  deriving DecidableEq

/-- The allocated blocks by address. -/
abbrev Heap := Map Nat MemBlock

/-- `Vec<T>`: address, number of items, number of items there is room for. -/
structure RawVec where
  addr : Nat
  len : Nat
  cap : Nat
  deriving DecidableEq

/-- `GlobalAlloc::dealloc`; `none` is undefined behaviour. -/
def Heap.dealloc (h : Heap) (addr size align : Nat) : Option Heap :=
  match h.get? addr with
  | none => none
  | some b => if b.bytes.length = size ∧ b.align = align then some (h.erase addr) else none

/-- Dropping a `Vec<T>` whose items need no dropping, for items of the given size and alignment: nothing is freed if there is
no room. -/
def RawVec.drop (v : RawVec) (size align : Nat) (h : Heap) : Option Heap :=
  if v.cap = 0 then some h else h.dealloc v.addr (v.cap * size) align

/-- The bytes of the items of a vector; `none` if they are not in one block. -/
def RawVec.items (v : RawVec) (size : Nat) (h : Heap) : Option Bytes :=
  match h.get? v.addr with
  | none => none
  | some b => if v.len * size ≤ b.bytes.length then some (b.bytes.take (v.len * size)) else none

/-- `metainfo.rs:379-397` `deserialize_pieces_field`: the vector with the hashes. `raw` is forgotten, not dropped (line 391);
on an error it is dropped as a `Vec<u8>`. The heap is not changed otherwise. -/
def deserializePiecesRaw (raw : RawVec) : Res RawVec :=
  if raw.len = 0 ∨ raw.len % ID_LEN > 0 then .err
  else .ok ⟨raw.addr, raw.len / ID_LEN, raw.cap / ID_LEN⟩

end Nargun
