import Verif.Spec.Krpc
import Verif.Spec.Bencode
import Verif.Model.DhtConnection

/-! # What the DHT connection is supposed to do -/

namespace Nargun.Spec

open Krpc Dht

/-- The kind of a query. -/
def kindOf : ToConQuery → RequestType
  | .ping => .ping
  | .findNode _ => .findNode
  | .getPeers _ => .getPeers
  | .announcePeer _ _ _ => .announcePeer

/-- The kind of query an answer belongs to. -/
def answersKind : Response → RequestType
  | .ping _ => .ping
  | .findNode _ _ => .findNode
  | .getPeers _ _ _ => .getPeers
  | .announcePeer _ => .announcePeer

/-- The entry is a query with transaction id `t` and kind `k`, sent for the task behind channel `c`. -/
def Asks (e : Entry) (t : Bytes) (k : RequestType) (c : Nat) : Prop :=
  ∃ target v, e.event = .command t (.query c target v) ∧ kindOf v = k

/-- The entry is a datagram that was taken for an answer with transaction id `t`, and a task was told. -/
def Delivers (e : Entry) (t : Bytes) : Prop :=
  ∃ y r c m, e.heard = some (.response t y r) ∧ Effect.toRequester c m ∈ e.effects

/-- The query with transaction id `t` and kind `k` of the task behind channel `c` waits for its answer: it was sent,
and since then its transaction id was neither used again nor answered. -/
def Outstanding (h : List Entry) (t : Bytes) (k : RequestType) (c : Nat) : Prop :=
  ∃ before q after, h = before ++ q :: after ∧ Asks q t k c ∧
    ∀ e ∈ after, (∀ k' c', ¬ Asks e t k' c') ∧ ¬ Delivers e t

/-- What the requesting task is told about an answer. -/
def told (sender : SockAddr) : Response → FromConResp
  | .ping id => .touch id sender
  | .findNode id nodes => .newNodes nodes sender id
  | .getPeers _ token vn => .getPeers sender token vn
  | .announcePeer id => .touch id sender

/-- The token for the nodes at an address: the hash of the secret and the octets of the address. -/
def tokenFor (sha1 : Bytes → Bytes) (secret : ID) (ip : Ipv4) : Bytes :=
  sha1 (secret.bytes ++ [ip.a, ip.b, ip.c, ip.d])

/-- The arguments of a query, in the order of BEP 3. -/
def argumentNames : ToConQuery → List String
  | .ping => ["id"]
  | .findNode _ => ["id", "target"]
  | .getPeers _ => ["id", "info_hash"]
  | .announcePeer _ _ _ => ["id", "info_hash", "port", "token"]

/-- The values of an answer, in the order of BEP 3. -/
def answerNames : ToConResp → List String
  | .ping => ["id"]
  | .findNode _ => ["id", "nodes"]
  | .getPeers (.values _) => ["id", "token", "values"]
  | .getPeers (.nodes _) => ["id", "nodes", "token"]
  | .announcePeer => ["id"]

/-- The datagram is the query of BEP 5 for `v` with transaction id `tid`, and nothing else is in it. -/
def IsQueryDatagram (own : ID) (tid : Bytes) (v : ToConQuery) (bytes : Bytes) : Prop :=
  ∃ pairs args, bytes = bencode (.dict pairs) ∧ pairs.map (·.1) = ["a", "q", "t", "y"].map ascii ∧
    args.map (·.1) = (argumentNames v).map ascii ∧ (pairs.map (·.1)).Pairwise RawLt ∧ (args.map (·.1)).Pairwise RawLt ∧
    field pairs "t" = some (.str tid) ∧ field pairs "y" = some (.str (ascii "q")) ∧
    field pairs "a" = some (.dict args) ∧ field args "id" = some (.str own.bytes) ∧
    match v with
    | .ping => field pairs "q" = some (.str (ascii "ping"))
    | .findNode target =>
      field pairs "q" = some (.str (ascii "find_node")) ∧ field args "target" = some (.str target.bytes)
    | .getPeers ih =>
      field pairs "q" = some (.str (ascii "get_peers")) ∧ field args "info_hash" = some (.str ih.bytes)
    | .announcePeer ih port token =>
      field pairs "q" = some (.str (ascii "announce_peer")) ∧ field args "info_hash" = some (.str ih.bytes) ∧
      field args "port" = some (.int port.toNat) ∧ field args "token" = some (.str token)

/-- The datagram is the answer of BEP 5 for `v` to the query with transaction id `tid`, and nothing else is in it. -/
def IsAnswerDatagram (own : ID) (tid token : Bytes) (v : ToConResp) (bytes : Bytes) : Prop :=
  ∃ pairs r, bytes = bencode (.dict pairs) ∧ pairs.map (·.1) = ["r", "t", "y"].map ascii ∧
    r.map (·.1) = (answerNames v).map ascii ∧ (pairs.map (·.1)).Pairwise RawLt ∧ (r.map (·.1)).Pairwise RawLt ∧
    field pairs "t" = some (.str tid) ∧ field pairs "y" = some (.str (ascii "r")) ∧
    field pairs "r" = some (.dict r) ∧ field r "id" = some (.str own.bytes) ∧
    match v with
    | .ping => True
    | .findNode nodes => field r "nodes" = some (.str (nodes.list.flatMap Node.compact))
    | .getPeers (.values vs) => field r "token" = some (.str token) ∧
      field r "values" = some (.list (vs.map fun p => .str p.addr.compact))
    | .getPeers (.nodes nodes) => field r "token" = some (.str token) ∧
      field r "nodes" = some (.str (nodes.list.flatMap Node.compact))
    | .announcePeer => True

/-- The datagram starts with a complete dictionary or other value, so that its meaning needs no other bytes. -/
def SelfContained (bytes : Bytes) : Prop :=
  ∃ v rest, Canonical BENDY_DEFAULT_DEPTH v ∧ bytes = bencode v ++ rest ∧ (bencode v).length ≤ 2 * 1300

/-- The result without the contents of the buffer. -/
def observe : Res (Con × List Effect) → Res (Con × List Effect)
  | .ok (s, effs) => .ok ({ s with buf := [] }, effs)
  | .err => .err
  | .panic => .panic

/-- The entry is a query that was sent. -/
def isQuery (e : Entry) : Bool :=
  match e.event with
  | .command _ (.query _ _ _) => true
  | _ => false

/-- In the entry a task was told an answer. -/
def isDelivery (e : Entry) : Bool :=
  e.effects.any fun f => match f with
    | .toRequester _ _ => true
    | _ => false

end Nargun.Spec
