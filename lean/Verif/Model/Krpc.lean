import Verif.Model.Bencode
import Verif.Model.TrackerResponse
import Verif.Model.Addr

/-! # Model of `src/dht/krpc_message.rs`

The derived (de)serialisers are those of `serde` 1 on top of `bendy`: an untagged enum buffers the whole value and
tries its variants in the order they are declared; the visitor of a variant with named fields walks the pairs of
the dictionary in their order, skips keys that are not fields, stops at the first field that does not convert, and
at the end misses the fields it has not seen. A field met twice is an error in `serde`; here it cannot happen,
because `bendy` refuses dictionaries whose keys do not increase. A panic inside a field's conversion (only
`ID`'s can) ends everything. -/

namespace Nargun.Krpc

open Nargun Spec

/-- `src/dht/krpc_message.rs:45-65` `enum Arguments`. -/
inductive Arguments where
  | announcePeer (id infoHash : ID) (port : U16) (token : Bytes)
  | findNode (id target : ID)
  | getPeers (id infoHash : ID)
  | ping (id : ID)
  deriving DecidableEq

/-- `src/dht/krpc_message.rs:95-100` `enum ValuesOrNodes`. -/
inductive ValuesOrNodes where
  | values (values : List Peer)
  | nodes (nodes : Nodes)
  deriving DecidableEq

/-- `src/dht/krpc_message.rs:67-86` `enum Response`. -/
inductive Response where
  | getPeers (id : ID) (token : Bytes) (valuesOrNodes : ValuesOrNodes)
  | findNode (id : ID) (nodes : Nodes)
  | ping (id : ID)
  | announcePeer (id : ID)
  deriving DecidableEq

/-- `src/dht/krpc_message.rs:88-93` `enum Error`. -/
inductive Error where
  | code (n : U32)
  | desc (s : Bytes)
  deriving DecidableEq

/-- `src/dht/krpc_message.rs:14-43` `enum Message`; the message type (`:234-235`) is its byte, strings are their
UTF-8 bytes. -/
inductive Message where
  | query (tid : Bytes) (msgType : Byte) (method : Bytes) (arguments : Arguments)
  | response (tid : Bytes) (msgType : Byte) (response : Response)
  | error (tid : Bytes) (msgType : Byte) (error : List Error)
  deriving DecidableEq

/-- `src/dht/krpc_message.rs:124-130` `Message::tid`. -/
def Message.tid : Message → Bytes
  | .query t _ _ _ => t
  | .response t _ _ => t
  | .error t _ _ => t

/-- `src/dht/krpc_message.rs:11` `MY_TID_LEN`. -/
def MY_TID_LEN : Nat := 5

/-- `b'q'`, `b'r'` and `b'e'`. -/
def typeQ : Byte := 0x71#8
/-- See `typeQ`. -/
def typeR : Byte := 0x72#8
/-- See `typeQ`. -/
def typeE : Byte := 0x65#8

/-- `src/dht/krpc_message.rs:132-139` `Message::ping_query`. -/
def Message.pingQuery (id : ID) (tid : Bytes) : Message := .query tid typeQ (ascii "ping") (.ping id)

/-- `src/dht/krpc_message.rs:141-147` `Message::ping_resp`. -/
def Message.pingResp (id : ID) (tid : Bytes) : Message := .response tid typeR (.ping id)

/-- `src/dht/krpc_message.rs:149-159` `Message::find_nodes_query`. -/
def Message.findNodesQuery (id target : ID) (tid : Bytes) : Message :=
  .query tid typeQ (ascii "find_node") (.findNode id target)

/-- `src/dht/krpc_message.rs:161-167` `Message::find_nodes_resp`. -/
def Message.findNodesResp (id : ID) (nodes : Nodes) (tid : Bytes) : Message :=
  .response tid typeR (.findNode id nodes)

/-- `src/dht/krpc_message.rs:169-179` `Message::get_peers_query`. -/
def Message.getPeersQuery (id infoHash : ID) (tid : Bytes) : Message :=
  .query tid typeQ (ascii "get_peers") (.getPeers id infoHash)

/-- `src/dht/krpc_message.rs:181-196` `Message::get_peers_resp`. -/
def Message.getPeersResp (id : ID) (token : Bytes) (vn : ValuesOrNodes) (tid : Bytes) : Message :=
  .response tid typeR (.getPeers id token vn)

/-- `src/dht/krpc_message.rs:198-216` `Message::announce_peer_query`. -/
def Message.announcePeerQuery (id infoHash : ID) (port : U16) (token tid : Bytes) : Message :=
  .query tid typeQ (ascii "announce_peer") (.announcePeer id infoHash port token)

/-- `src/dht/krpc_message.rs:218-224` `Message::announce_peer_resp`. -/
def Message.announcePeerResp (id : ID) (tid : Bytes) : Message := .response tid typeR (.announcePeer id)

/-! ## Encoding -/

/-- `src/dht/krpc_message.rs:237-248` `impl Serialize for MessageType`. -/
def typeVal (b : Byte) : BVal :=
  if b = typeQ then .str (ascii "q") else if b = typeR then .str (ascii "r") else .str (ascii "e")

/-- `impl Serialize for ID` (`src/data_structures/id.rs:156-163`). -/
def idVal (id : ID) : BVal := .str id.bytes

/-- Derived `Serialize` of `Arguments`; `bendy` writes the fields of a struct sorted by name. -/
def Arguments.val : Arguments → BVal
  | .announcePeer id ih port token =>
    .dict [(ascii "id", idVal id), (ascii "info_hash", idVal ih), (ascii "port", .int port.toNat),
      (ascii "token", .str token)]
  | .findNode id target => .dict [(ascii "id", idVal id), (ascii "target", idVal target)]
  | .getPeers id ih => .dict [(ascii "id", idVal id), (ascii "info_hash", idVal ih)]
  | .ping id => .dict [(ascii "id", idVal id)]

/-- Derived `Serialize` of `Response`; the flattened `values` or `nodes` is sorted in between. -/
def Response.val : Response → BVal
  | .getPeers id token (.values vs) =>
    .dict [(ascii "id", idVal id), (ascii "token", .str token),
      (ascii "values", .list (vs.map fun p => .str p.compact))]
  | .getPeers id token (.nodes ns) =>
    .dict [(ascii "id", idVal id), (ascii "nodes", .str ns.compact), (ascii "token", .str token)]
  | .findNode id ns => .dict [(ascii "id", idVal id), (ascii "nodes", .str ns.compact)]
  | .ping id => .dict [(ascii "id", idVal id)]
  | .announcePeer id => .dict [(ascii "id", idVal id)]

/-- Derived `Serialize` of `Error`. -/
def Error.val : Error → BVal
  | .code n => .int n.toNat
  | .desc s => .str s

/-- Derived `Serialize` of `Message`. -/
def Message.val : Message → BVal
  | .query t y m a =>
    .dict [(ascii "a", a.val), (ascii "q", .str m), (ascii "t", .str t), (ascii "y", typeVal y)]
  | .response t y r => .dict [(ascii "r", r.val), (ascii "t", .str t), (ascii "y", typeVal y)]
  | .error t y e =>
    .dict [(ascii "e", .list (e.map Error.val)), (ascii "t", .str t), (ascii "y", typeVal y)]

/-- `src/dht/krpc_message.rs:116-118` `Message::into_bytes`. -/
def Message.intoBytes (m : Message) : Bytes := bencode m.val

/-! ## Decoding -/

/-- What the model leaves open about the libraries: which byte strings are UTF-8, and which integers `bendy` can
hand to a buffer of unknown type (it hands them over as 64-bit numbers). -/
structure Lib where
  utf8 : Bytes → Bool
  intOk : Int → Bool

mutual

/-- All integers inside a value can be buffered. -/
def intsOk (p : Int → Bool) : BVal → Bool
  | .int n => p n
  | .str _ => true
  | .list l => intsOkItems p l
  | .dict l => intsOkPairs p l

/-- `intsOk` of all items. -/
def intsOkItems (p : Int → Bool) : List BVal → Bool
  | [] => true
  | v :: vs => intsOk p v && intsOkItems p vs

/-- `intsOk` of all values. -/
def intsOkPairs (p : Int → Bool) : List (Bytes × BVal) → Bool
  | [] => true
  | (_, v) :: ps => intsOk p v && intsOkPairs p ps

end

/-- Untagged enum: the next variant is tried if this one does not convert. -/
def orElse {α} (a : Res α) (b : Unit → Res α) : Res α :=
  match a with
  | .ok x => .ok x
  | .err => b ()
  | .panic => .panic

/-- The visitor of a struct: its local variables and what it does with a pair; `none`: the key is not a field. -/
structure Visitor (σ : Type) where
  init : σ
  field : σ → Bytes → BVal → Option (Res σ)

/-- One field. -/
def Visitor.one {α} (key : String) (read : BVal → Res α) : Visitor (Option α) where
  init := none
  field _ k v := if k = ascii key then some (read v >>= fun x => .ok (some x)) else none

/-- The fields of two visitors. -/
def Visitor.and {σ τ} (p : Visitor σ) (q : Visitor τ) : Visitor (σ × τ) where
  init := (p.init, q.init)
  field s k v :=
    match p.field s.1 k v with
    | some r => some (r >>= fun a => .ok (a, s.2))
    | none =>
      match q.field s.2 k v with
      | some r => some (r >>= fun b => .ok (s.1, b))
      | none => none

/-- `visit_map`: the pairs from left to right. -/
def Visitor.loop {σ} (p : Visitor σ) : σ → List (Bytes × BVal) → Res σ
  | s, [] => .ok s
  | s, (k, v) :: rest =>
    match p.field s k v with
    | some r => r >>= fun s' => p.loop s' rest
    | none => p.loop s rest

/-- A struct is read from a dictionary only. -/
def Visitor.read {σ} (p : Visitor σ) : BVal → Res σ
  | .dict pairs => p.loop p.init pairs
  | _ => .err

/-- `src/data_structures/id.rs:171-193` `impl Deserialize for ID`. -/
def readId : BVal → Res ID
  | .str s => ID.visitBytes s
  | _ => .err

/-- `src/data_structures/serializable_buf.rs:65-90` `impl Deserialize for SerializableBuf`. -/
def readBuf : BVal → Res Bytes
  | .str s => .ok s
  | _ => .err

/-- `src/dht/krpc_message.rs:250-284` `impl Deserialize for MessageType`. -/
def readType : BVal → Res Byte
  | .str [b] => if b = typeQ ∨ b = typeR ∨ b = typeE then .ok b else .err
  | _ => .err

/-- `impl Deserialize for String`. -/
def readString (lib : Lib) : BVal → Res Bytes
  | .str s => if lib.utf8 s then .ok s else .err
  | _ => .err

/-- `impl Deserialize for u16`. -/
def readU16 : BVal → Res U16
  | .int n => if 0 ≤ n ∧ n < 2 ^ 16 then .ok (BitVec.ofNat 16 n.toNat) else .err
  | _ => .err

/-- `impl Deserialize for u32`. -/
def readU32 : BVal → Res U32
  | .int n => if 0 ≤ n ∧ n < 2 ^ 32 then .ok (BitVec.ofNat 32 n.toNat) else .err
  | _ => .err

/-- `src/dht/krpc_message.rs:347-394` `impl Deserialize for Nodes`. -/
def readNodes : BVal → Res Nodes
  | .str s => Nodes.visitBytes s
  | _ => .err

/-- `impl Deserialize for Vec`: the items from left to right. -/
def readItems {α} (read : BVal → Res α) : List BVal → Res (List α)
  | [] => .ok []
  | v :: vs => do
    let x ← read v
    let xs ← readItems read vs
    .ok (x :: xs)

/-- `impl Deserialize for Vec`. -/
def readVec {α} (read : BVal → Res α) : BVal → Res (List α)
  | .list l => readItems read l
  | _ => .err

/-- `src/peers/peer.rs:48-77` `impl Deserialize for Peer`. -/
def readPeer : BVal → Res Peer
  | .str s => Peer.visitBytes s
  | _ => .err

/-- `Arguments::AnnouncePeer` (`src/dht/krpc_message.rs:48-53`). -/
def readAnnouncePeerArgs (v : BVal) : Res Arguments := do
  let (id, ih, port, token) ← ((Visitor.one "id" readId).and ((Visitor.one "info_hash" readId).and
    ((Visitor.one "port" readU16).and (Visitor.one "token" readBuf)))).read v
  let id ← Res.ofOption id
  let ih ← Res.ofOption ih
  let port ← Res.ofOption port
  let token ← Res.ofOption token
  .ok (.announcePeer id ih port token)

/-- `Arguments::FindNode` (`src/dht/krpc_message.rs:54-57`). -/
def readFindNodeArgs (v : BVal) : Res Arguments := do
  let (id, target) ← ((Visitor.one "id" readId).and (Visitor.one "target" readId)).read v
  let id ← Res.ofOption id
  let target ← Res.ofOption target
  .ok (.findNode id target)

/-- `Arguments::GetPeers` (`src/dht/krpc_message.rs:58-61`). -/
def readGetPeersArgs (v : BVal) : Res Arguments := do
  let (id, ih) ← ((Visitor.one "id" readId).and (Visitor.one "info_hash" readId)).read v
  let id ← Res.ofOption id
  let ih ← Res.ofOption ih
  .ok (.getPeers id ih)

/-- `Arguments::Ping` (`src/dht/krpc_message.rs:62-64`). -/
def readPingArgs (v : BVal) : Res Arguments := do
  let id ← (Visitor.one "id" readId).read v
  let id ← Res.ofOption id
  .ok (.ping id)

/-- Derived `Deserialize` of `Arguments`: the variants in the order of declaration. -/
def readArguments (v : BVal) : Res Arguments :=
  orElse (readAnnouncePeerArgs v) fun _ => orElse (readFindNodeArgs v) fun _ =>
    orElse (readGetPeersArgs v) fun _ => readPingArgs v

/-- Derived `Deserialize` of `ValuesOrNodes`. -/
def readValuesOrNodes (v : BVal) : Res ValuesOrNodes :=
  orElse (do
    let vs ← (Visitor.one "values" (readVec readPeer)).read v
    let vs ← Res.ofOption vs
    .ok (.values vs)) fun _ => do
    let ns ← (Visitor.one "nodes" readNodes).read v
    let ns ← Res.ofOption ns
    .ok (.nodes ns)

/-- `Response::GetPeers` (`src/dht/krpc_message.rs:70-75`): the pairs that are no fields are collected and the
flattened field is read from them. -/
def readGetPeersResp (v : BVal) : Res Response := do
  let (id, token) ← ((Visitor.one "id" readId).and (Visitor.one "token" readBuf)).read v
  let id ← Res.ofOption id
  let token ← Res.ofOption token
  let rest := match v with
    | .dict pairs => pairs.filter fun kv => kv.1 ≠ ascii "id" ∧ kv.1 ≠ ascii "token"
    | _ => []
  let vn ← readValuesOrNodes (.dict rest)
  .ok (.getPeers id token vn)

/-- `Response::FindNode` (`src/dht/krpc_message.rs:76-79`). -/
def readFindNodeResp (v : BVal) : Res Response := do
  let (id, ns) ← ((Visitor.one "id" readId).and (Visitor.one "nodes" readNodes)).read v
  let id ← Res.ofOption id
  let ns ← Res.ofOption ns
  .ok (.findNode id ns)

/-- `Response::Ping` (`src/dht/krpc_message.rs:80-82`). -/
def readPingResp (v : BVal) : Res Response := do
  let id ← (Visitor.one "id" readId).read v
  let id ← Res.ofOption id
  .ok (.ping id)

/-- `Response::AnnouncePeer` (`src/dht/krpc_message.rs:83-85`). -/
def readAnnouncePeerResp (v : BVal) : Res Response := do
  let id ← (Visitor.one "id" readId).read v
  let id ← Res.ofOption id
  .ok (.announcePeer id)

/-- Derived `Deserialize` of `Response`. -/
def readResponse (v : BVal) : Res Response :=
  orElse (readGetPeersResp v) fun _ => orElse (readFindNodeResp v) fun _ =>
    orElse (readPingResp v) fun _ => readAnnouncePeerResp v

/-- Derived `Deserialize` of `Error`. -/
def readError (lib : Lib) (v : BVal) : Res Error :=
  orElse (do
    let n ← readU32 v
    .ok (.code n)) fun _ => do
    let s ← readString lib v
    .ok (.desc s)

/-- `Message::Query` (`src/dht/krpc_message.rs:17-26`). -/
def readQuery (lib : Lib) (v : BVal) : Res Message := do
  let (t, y, m, a) ← ((Visitor.one "t" readBuf).and ((Visitor.one "y" readType).and
    ((Visitor.one "q" (readString lib)).and (Visitor.one "a" readArguments)))).read v
  let t ← Res.ofOption t
  let y ← Res.ofOption y
  let m ← Res.ofOption m
  let a ← Res.ofOption a
  .ok (.query t y m a)

/-- `Message::Response` (`src/dht/krpc_message.rs:27-34`). -/
def readResponseMessage (v : BVal) : Res Message := do
  let (t, y, r) ← ((Visitor.one "t" readBuf).and ((Visitor.one "y" readType).and
    (Visitor.one "r" readResponse))).read v
  let t ← Res.ofOption t
  let y ← Res.ofOption y
  let r ← Res.ofOption r
  .ok (.response t y r)

/-- `Message::Error` (`src/dht/krpc_message.rs:35-43`). -/
def readErrorMessage (lib : Lib) (v : BVal) : Res Message := do
  let (t, y, e) ← ((Visitor.one "t" readBuf).and ((Visitor.one "y" readType).and
    (Visitor.one "e" (readVec (readError lib))))).read v
  let t ← Res.ofOption t
  let y ← Res.ofOption y
  let e ← Res.ofOption e
  .ok (.error t y e)

/-- Derived `Deserialize` of `Message`. -/
def readMessage (lib : Lib) (v : BVal) : Res Message :=
  orElse (readQuery lib v) fun _ => orElse (readResponseMessage v) fun _ => readErrorMessage lib v

/-- `src/dht/krpc_message.rs:120-122` `Message::from_bytes`; bytes after the first object are not looked at. -/
def Message.fromBytes (lib : Lib) (buf : Bytes) : Res Message := do
  let (v, _) ← bdecode BENDY_DEFAULT_DEPTH buf
  if intsOk lib.intOk v then readMessage lib v else .err

end Nargun.Krpc
