import Verif.Model.Message
import Verif.Model.Id

/-! # Model of compact addresses: `src/transcoding/mod.rs`, `src/peers/peer.rs`, the compact node codec of
`src/dht/routing_table/bucket.rs` and `src/dht/krpc_message.rs` -/

namespace Nargun

/-- `std::net::Ipv4Addr`: four octets. -/
structure Ipv4 where
  a : Byte
  b : Byte
  c : Byte
  d : Byte
  deriving DecidableEq, Repr

/-- `Ipv4Addr::octets`. -/
def Ipv4.octets (ip : Ipv4) : Bytes := [ip.a, ip.b, ip.c, ip.d]

/-- `std::net::SocketAddrV4`. -/
structure SockAddr where
  ip : Ipv4
  port : U16
  deriving DecidableEq, Repr

/-- `src/transcoding/mod.rs:6` `COMPACT_SOCKADDR_LEN` (also `peer.rs:6` `COMPACT_PEER_LEN`). -/
notation "COMPACT_SOCKADDR_LEN" => (6 : Nat)

/-- `src/dht/routing_table/mod.rs:9` `COMPACT_NODE_LEN`. -/
notation "COMPACT_NODE_LEN" => (26 : Nat)

/-- `src/transcoding/mod.rs:8-20` `socketaddr_from_compact_bytes`. -/
def sockAddrFromCompact (buf : Bytes) : Res SockAddr :=
  if buf.length = COMPACT_SOCKADDR_LEN then do
    let a ← index buf 0
    let b ← index buf 1
    let c ← index buf 2
    let d ← index buf 3
    let hi ← index buf 4
    let lo ← index buf 5
    .ok ⟨⟨a, b, c, d⟩, (hi.setWidth 16 <<< 8) ||| lo.setWidth 16⟩
  else .err

/-- The compact form written by `src/peers/peer.rs:38-44` and by the macro at
`src/dht/krpc_message.rs:319-321`: four octets, high and low byte of the port. -/
def SockAddr.compact (a : SockAddr) : Bytes :=
  a.ip.octets ++ [(a.port >>> 8).setWidth 8, (a.port &&& 0xff#16).setWidth 8]

/-- `src/peers/peer.rs:8-9` `struct Peer(SocketAddrV4)`. -/
structure Peer where
  addr : SockAddr
  deriving DecidableEq, Repr

/-- `src/peers/peer.rs:16-26` `Peer::from_compact_bytes`. -/
def Peer.fromCompact (buf : Bytes) : Res Peer :=
  if buf.length = COMPACT_SOCKADDR_LEN then do
    let a ← sockAddrFromCompact buf
    .ok ⟨a⟩
  else .err

/-- `src/peers/peer.rs:33-46` `impl Serialize for Peer`: the byte string handed to the serializer. -/
def Peer.compact (p : Peer) : Bytes := p.addr.compact

/-- `src/peers/peer.rs:62-71` `visit_bytes` of `Peer`'s `Deserialize`. -/
def Peer.visitBytes (v : Bytes) : Res Peer :=
  if v.length = COMPACT_SOCKADDR_LEN then Peer.fromCompact v else .err

/-- `src/dht/routing_table/bucket.rs:20-26` `struct Node`; instants are numbers of nanoseconds. -/
structure Node where
  id : ID
  addr : SockAddr
  lastSeen : Option Nat
  deriving DecidableEq, Repr

/-- `src/dht/routing_table/bucket.rs:177-193` `Node::from_compact_bytes`. -/
def Node.fromCompact (buf : Bytes) : Res Node :=
  if buf.length = COMPACT_NODE_LEN then
    match buf.splitAt ID_LEN with
    | (id, addr) => do
      let addr' ← sockAddrFromCompact addr
      if hl : id.length = ID_LEN then .ok ⟨⟨id, hl⟩, addr', none⟩ else .err
  else .err

/-- `src/dht/krpc_message.rs:316-323` `push_node_bytes_to_vec!`. -/
def Node.compact (n : Node) : Bytes := n.id.bytes ++ n.addr.compact

/-- `src/dht/krpc_message.rs:102-106` `enum Nodes`. -/
inductive Nodes where
  | exact (n : Node)
  | closest (ns : List Node)
  deriving DecidableEq, Repr

/-- `src/dht/krpc_message.rs:286-314` `Nodes::iter`: the nodes it yields. -/
def Nodes.list : Nodes → List Node
  | .exact n => [n]
  | .closest ns => ns

/-- `src/dht/krpc_message.rs:325-345` `impl Serialize for Nodes`: the byte string handed to the serializer. -/
def Nodes.compact : Nodes → Bytes
  | .exact n => n.compact
  | .closest ns => ns.foldl (fun v n => v ++ n.compact) []

/-- `slice::chunks(k)` (`k > 0`): consecutive groups of `k`, the last one possibly shorter. -/
def chunks {α} (k : Nat) : Nat → List α → List (List α)
  | 0, _ => []
  | fuel + 1, xs => if xs = [] then [] else xs.take k :: chunks k fuel (xs.drop k)

/-- The loop at `src/dht/krpc_message.rs:381-385`. -/
def nodesFromChunks : List Bytes → Res (List Node)
  | [] => .ok []
  | c :: cs => do
    let n ← Node.fromCompact c
    let ns ← nodesFromChunks cs
    .ok (n :: ns)

/-- `src/dht/krpc_message.rs:361-389` `visit_bytes` of `Nodes`' `Deserialize`. -/
def Nodes.visitBytes (v : Bytes) : Res Nodes :=
  if v.length % COMPACT_NODE_LEN ≠ 0 then .err
  else if v.length / COMPACT_NODE_LEN = 1 then do
    let n ← Node.fromCompact v
    .ok (.exact n)
  else do
    let ns ← nodesFromChunks (chunks COMPACT_NODE_LEN v.length v)
    .ok (.closest ns)

end Nargun
