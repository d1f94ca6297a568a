import Verif.Model.Krpc
import Verif.Spec.TrackerResponse

/-! # Specification of DHT messages (BEP 5), in terms of the dictionary a datagram holds -/

namespace Nargun.Spec

open Nargun Krpc

/-- The arguments a dictionary offers, kind by kind: it has the keys of the kind with values of the right form
(identifiers are strings of 20 bytes, the port is a number below 65536). Other keys do not matter. -/
def Offers (pairs : List (Bytes × BVal)) : Arguments → Prop
  | .announcePeer id ih port token =>
    field pairs "id" = some (.str id.bytes) ∧ field pairs "info_hash" = some (.str ih.bytes) ∧
    field pairs "port" = some (.int port.toNat) ∧ field pairs "token" = some (.str token)
  | .findNode id target =>
    field pairs "id" = some (.str id.bytes) ∧ field pairs "target" = some (.str target.bytes)
  | .getPeers id ih => field pairs "id" = some (.str id.bytes) ∧ field pairs "info_hash" = some (.str ih.bytes)
  | .ping id => field pairs "id" = some (.str id.bytes)

/-- The method BEP 5 gives to each kind of query. -/
def methodName : Arguments → Bytes
  | .announcePeer _ _ _ _ => ascii "announce_peer"
  | .findNode _ _ => ascii "find_node"
  | .getPeers _ _ => ascii "get_peers"
  | .ping _ => ascii "ping"

/-- The order in which kinds of arguments are considered. -/
def argRank : Arguments → Nat
  | .announcePeer _ _ _ _ => 0
  | .findNode _ _ => 1
  | .getPeers _ _ => 2
  | .ping _ => 3

/-- The arguments a dictionary is taken for: the first kind it offers. -/
def TakenFor (pairs : List (Bytes × BVal)) (a : Arguments) : Prop :=
  Offers pairs a ∧ ∀ b, argRank b < argRank a → ¬ Offers pairs b

/-- A list of nodes as it arrives: 26 bytes a node; one node is a single node, any other number a list; nothing
is known about when they were seen. -/
def IsNodes (s : Bytes) (ns : Nodes) : Prop :=
  s = ns.list.flatMap (fun n => n.id.bytes ++ n.addr.compact) ∧ (∀ n ∈ ns.list, n.lastSeen = none) ∧
  ((∃ n, ns = .exact n) ↔ ns.list.length = 1)

/-- The answers a dictionary offers. -/
def OffersResponse (pairs : List (Bytes × BVal)) : Response → Prop
  | .getPeers id token (.values vs) =>
    field pairs "id" = some (.str id.bytes) ∧ field pairs "token" = some (.str token) ∧
    field pairs "values" = some (.list (vs.map fun p => .str p.addr.compact))
  | .getPeers id token (.nodes ns) =>
    field pairs "id" = some (.str id.bytes) ∧ field pairs "token" = some (.str token) ∧
    ∃ s, field pairs "nodes" = some (.str s) ∧ IsNodes s ns
  | .findNode id ns =>
    field pairs "id" = some (.str id.bytes) ∧ ∃ s, field pairs "nodes" = some (.str s) ∧ IsNodes s ns
  | .ping id => field pairs "id" = some (.str id.bytes)
  | .announcePeer id => field pairs "id" = some (.str id.bytes)

/-- The order in which kinds of answers are considered. -/
def respRank : Response → Nat
  | .getPeers _ _ (.values _) => 0
  | .getPeers _ _ (.nodes _) => 1
  | .findNode _ _ => 2
  | .ping _ => 3
  | .announcePeer _ => 4

/-- The answer a dictionary is taken for: the first kind it offers. -/
def TakenForResponse (pairs : List (Bytes × BVal)) (r : Response) : Prop :=
  OffersResponse pairs r ∧ ∀ r', respRank r' < respRank r → ¬ OffersResponse pairs r'

/-- An item of an error. -/
def IsError (utf8 : Bytes → Bool) (v : BVal) : Error → Prop
  | .code n => v = .int n.toNat
  | .desc s => v = .str s ∧ utf8 s = true

/-- The items of an error, in order. -/
def IsErrors (utf8 : Bytes → Bool) (items : List BVal) (e : List Error) : Prop :=
  items.length = e.length ∧ ∀ i (h : i < items.length) (h' : i < e.length), IsError utf8 items[i] e[i]

/-- The type of a message is one of `q`, `r`, `e`. -/
def IsType (v : Option BVal) (y : Byte) : Prop := v = some (.str [y]) ∧ y ∈ ascii "qre"

/-- The messages a dictionary offers. -/
def OffersMessage (utf8 : Bytes → Bool) (pairs : List (Bytes × BVal)) : Krpc.Message → Prop
  | .query t y m a =>
    field pairs "t" = some (.str t) ∧ IsType (field pairs "y") y ∧ field pairs "q" = some (.str m) ∧
    utf8 m = true ∧ ∃ args, field pairs "a" = some (.dict args) ∧ TakenFor args a
  | .response t y r =>
    field pairs "t" = some (.str t) ∧ IsType (field pairs "y") y ∧
    ∃ rp, field pairs "r" = some (.dict rp) ∧ TakenForResponse rp r
  | .error t y e =>
    field pairs "t" = some (.str t) ∧ IsType (field pairs "y") y ∧
    ∃ items, field pairs "e" = some (.list items) ∧ IsErrors utf8 items e

/-- The order in which kinds of messages are considered. -/
def msgRank : Krpc.Message → Nat
  | .query _ _ _ _ => 0
  | .response _ _ _ => 1
  | .error _ _ _ => 2

/-- The message a dictionary is taken for: the first kind it offers. -/
def TakenForMessage (utf8 : Bytes → Bool) (pairs : List (Bytes × BVal)) (m : Krpc.Message) : Prop :=
  OffersMessage utf8 pairs m ∧ ∀ m', msgRank m' < msgRank m → ¬ OffersMessage utf8 pairs m'

/-- The argument keys of BEP 5's queries. -/
def argumentKeys : List String := ["id", "info_hash", "port", "target", "token"]

/-- The arguments BEP 5 gives to each kind of query. -/
def keysOf : Arguments → List String
  | .announcePeer _ _ _ _ => ["id", "info_hash", "port", "token"]
  | .findNode _ _ => ["id", "target"]
  | .getPeers _ _ => ["id", "info_hash"]
  | .ping _ => ["id"]

/-- Arguments as BEP 5 wants them: those of the kind and none of the other kinds'; keys BEP 5 does not know do not
matter. -/
def Conforming (pairs : List (Bytes × BVal)) (a : Arguments) : Prop :=
  Offers pairs a ∧ ∀ k ∈ argumentKeys, k ∉ keysOf a → field pairs k = none

/-- If this key holds a string, it has 20 bytes. -/
def IdSized (pairs : List (Bytes × BVal)) (key : String) : Prop :=
  ∀ s, field pairs key = some (.str s) → s.length = 20

/-- The identifiers of a message have the right size. -/
def Sized (pairs : List (Bytes × BVal)) : Prop :=
  (∀ args, field pairs "a" = some (.dict args) →
    IdSized args "id" ∧ IdSized args "info_hash" ∧ IdSized args "target") ∧
  ∀ rp, field pairs "r" = some (.dict rp) → IdSized rp "id"

/-- Node lists as the receiver sees them. -/
def nodesReceived (ns : Nodes) : Nodes :=
  match ns.list with
  | [n] => .exact { n with lastSeen := none }
  | l => .closest (l.map fun n => { n with lastSeen := none })

/-- Answers as the receiver sees them: an answer to an announcement looks like an answer to a ping. -/
def responseReceived : Response → Response
  | .getPeers id token (.values vs) => .getPeers id token (.values vs)
  | .getPeers id token (.nodes ns) => .getPeers id token (.nodes (nodesReceived ns))
  | .findNode id ns => .findNode id (nodesReceived ns)
  | .ping id => .ping id
  | .announcePeer id => .ping id

/-- Messages as the receiver sees them. -/
def received : Krpc.Message → Krpc.Message
  | .query t y m a => .query t y m a
  | .response t y r => .response t y (responseReceived r)
  | .error t y e => .error t y e

/-- What Rust's types guarantee of a message: texts are UTF-8, the type is one of the three letters (no
constructor uses another), and byte strings fit the address space. -/
def Sendable (utf8 : Bytes → Bool) : Krpc.Message → Prop
  | .query t y m a => t.length < 2 ^ 64 ∧ y ∈ ascii "qre" ∧ utf8 m = true ∧ m.length < 2 ^ 64 ∧
    match a with
    | .announcePeer _ _ _ token => token.length < 2 ^ 64
    | _ => True
  | .response t y r => t.length < 2 ^ 64 ∧ y ∈ ascii "qre" ∧
    match r with
    | .getPeers _ token (.values _) => token.length < 2 ^ 64
    | .getPeers _ token (.nodes ns) => token.length < 2 ^ 64 ∧ 26 * ns.list.length < 2 ^ 64
    | .findNode _ ns => 26 * ns.list.length < 2 ^ 64
    | _ => True
  | .error t y e => t.length < 2 ^ 64 ∧ y ∈ ascii "qre" ∧
    ∀ s, Error.desc s ∈ e → s.length < 2 ^ 64 ∧ utf8 s = true

end Nargun.Spec
