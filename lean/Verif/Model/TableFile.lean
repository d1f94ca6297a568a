import Verif.Model.RoutingTable

/-! # Model of the routing table's file: `src/dht/routing_table/table.rs:25-63`

`bincode` 1.3.3 (`serialize` / `deserialize` free functions: fixed-width little-endian integers, `u64` lengths,
trailing bytes allowed, no size limit) and the derived `serde` implementations are modelled by the byte format they
produce.  Fields in declaration order; `usize` as `u64`; `Vec` as length and elements; `[T; 8]` as its elements;
`Option` as tag byte 0 or 1; byte buffers as length and bytes; `SocketAddrV4` as four octets and the port;
`#[serde(skip)]` fields are absent and come back as `None`. -/

namespace Nargun.TableFile

/-- The `k` low bytes of `n`, least significant first. -/
def le : Nat → Nat → Bytes
  | 0, _ => []
  | k + 1, n => BitVec.ofNat 8 (n % 256) :: le k (n / 256)

/-- The number denoted by a little-endian byte string. -/
def ofLe : Bytes → Nat
  | [] => 0
  | b :: bs => b.toNat + 256 * ofLe bs

/-- `bincode` on `usize`/`u64`. -/
def encU64 (n : Nat) : Bytes := le 8 n

/-- `src/data_structures/id.rs:156-163` `impl Serialize for ID`: `serialize_bytes`. -/
def encId (id : ID) : Bytes := encU64 id.bytes.length ++ id.bytes

/-- `bincode` on `SocketAddrV4`. -/
def encAddr (a : SockAddr) : Bytes := a.ip.octets ++ le 2 a.port.toNat

/-- `bucket.rs:20-26`: derived `Serialize` of `Node`. -/
def encNode (n : Node) : Bytes := encId n.id ++ encAddr n.addr

/-- `bincode` on `Option<Node>`. -/
def encSlot : Option Node → Bytes
  | none => [0#8]
  | some n => 1#8 :: encNode n

/-- `bucket.rs:14-18`: derived `Serialize` of `Bucket`. -/
def encBucket (b : Bucket) : Bytes := encU64 b.depth ++ b.data.flatMap encSlot

/-- `table.rs:18-22`: derived `Serialize` of `RoutingTable`; `bincode::serialize` at `table.rs:57`. -/
def encTable (t : RoutingTable) : Bytes := encId t.ownId ++ (encU64 t.data.length ++ t.data.flatMap encBucket)

/-- A decoder consumes a prefix of its input; running out of input is an error. -/
abbrev Dec (α : Type) := Bytes → Res (α × Bytes)

/-- Reads `k` bytes; `Err(UnexpectedEof)` if there are fewer. -/
def takeN (k : Nat) : Dec Bytes := fun bs => if k ≤ bs.length then .ok (bs.take k, bs.drop k) else .err

/-- `bincode` reading a `u64`. -/
def decU64 : Dec Nat := fun bs => do
  let r ← takeN 8 bs
  .ok (ofLe r.1, r.2)

/-- `src/data_structures/id.rs:171-193` `impl Deserialize for ID` over `bincode`: a length, that many bytes, and
`try_into().unwrap()`. -/
def decId : Dec ID := fun bs => do
  let n ← decU64 bs
  let v ← takeN n.1 n.2
  let id ← ID.visitBytes v.1
  .ok (id, v.2)

/-- `bincode` reading a `SocketAddrV4`. -/
def decAddr : Dec SockAddr := fun bs => do
  let ip ← takeN 4 bs
  let port ← takeN 2 ip.2
  .ok (⟨⟨ip.1.getD 0 0, ip.1.getD 1 0, ip.1.getD 2 0, ip.1.getD 3 0⟩, BitVec.ofNat 16 (ofLe port.1)⟩, port.2)

/-- `bucket.rs:20-26`: derived `Deserialize` of `Node`. -/
def decNode : Dec Node := fun bs => do
  let id ← decId bs
  let addr ← decAddr id.2
  .ok (⟨id.1, addr.1, none⟩, addr.2)

/-- `bincode` reading an `Option<Node>`: a tag other than 0 and 1 is an error. -/
def decSlot : Dec (Option Node) := fun bs => do
  let tag ← takeN 1 bs
  if tag.1 = [0#8] then .ok (none, tag.2)
  else if tag.1 = [1#8] then do
    let n ← decNode tag.2
    .ok (some n.1, n.2)
  else .err

/-- Reading `k` elements one after another. -/
def decMany {α} (d : Dec α) : Nat → Dec (List α)
  | 0, bs => .ok ([], bs)
  | k + 1, bs => do
    let x ← d bs
    let xs ← decMany d k x.2
    .ok (x.1 :: xs.1, xs.2)

/-- `bucket.rs:14-18`: derived `Deserialize` of `Bucket`. -/
def decBucket : Dec Bucket := fun bs => do
  let depth ← decU64 bs
  let slots ← decMany decSlot K_NODE_PER_BUCKET depth.2
  if h : slots.1.length = K_NODE_PER_BUCKET then .ok (⟨depth.1, slots.1, h⟩, slots.2) else .err

/-- `bincode::deserialize` at `table.rs:45`, with the derived `Deserialize` of `RoutingTable`; what is left of the
input is ignored. -/
def decTable (bs : Bytes) : Res RoutingTable := do
  let own ← decId bs
  let n ← decU64 own.2
  let buckets ← decMany decBucket n.1 n.2
  .ok ⟨own.1, buckets.1⟩

/-- `table.rs:35-46` `try_loading_from_disk`; `none` is a file that does not exist or cannot be read. -/
def load : Option Bytes → Res RoutingTable
  | none => .err
  | some bs => decTable bs

/-- `table.rs:25-33` `RoutingTable::new`; `fresh` is the random id drawn when nothing can be loaded. -/
def newTable (fresh : ID) (file : Option Bytes) : Res RoutingTable :=
  match load file with
  | .ok t => .ok t
  | .err => .ok (RoutingTable.default fresh)
  | .panic => .panic

/-- `table.rs:48-63` `RoutingTable::store`: the contents the file goes through.  Before `File::create` the old
contents, then an empty file, then growing prefixes of the encoding up to all of it.  A process that dies inside
leaves one of them behind. -/
def DuringStore (old : Option Bytes) (t : RoutingTable) (file : Option Bytes) : Prop :=
  file = old ∨ ∃ k ≤ (encTable t).length, file = some ((encTable t).take k)

/-- `table.rs:48-63`: the contents after a complete `store`. -/
def afterStore (t : RoutingTable) : Option Bytes := some (encTable t)

end Nargun.TableFile
