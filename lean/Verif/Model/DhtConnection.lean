import Verif.Model.Krpc
import Verif.Model.Map

/-! # Model of `src/dht/connection/`

The task that owns the UDP socket (`ConnectionManager`), the table of outstanding queries and the messages exchanged
with the other tasks of the DHT.  A channel is a number; what is put into it is an effect.  Channels never fill up
here: the task waits while one is full.  The random source, SHA-1 and the
libraries of the decoder are parameters.  Encoding never fails.  Errors of the socket are in
`Verif.Model.Trouble`. -/

namespace Nargun.Dht

open Nargun Krpc

/-- `connection_manager.rs:12` `MTU`. -/
def MTU : Nat := 1300

/-- `connection_manager.rs:23-27` `struct QueryId`. -/
structure QueryId where
  target : SockAddr
  tid : Bytes
  deriving DecidableEq

/-- `channel_message/to_connection.rs:21-35` `enum ToConQuery`. -/
inductive ToConQuery where
  | ping
  | findNode (target : ID)
  | getPeers (infoHash : ID)
  | announcePeer (infoHash : ID) (port : U16) (token : Bytes)
  deriving DecidableEq

/-- `channel_message/to_connection.rs:37-43` `enum ToConResp`. -/
inductive ToConResp where
  | ping
  | findNode (nodes : Nodes)
  | getPeers (valuesOrNodes : ValuesOrNodes)
  | announcePeer
  deriving DecidableEq

/-- `channel_message/to_connection.rs:8-19` `enum ToCon`; the sending half of a channel is its number. -/
inductive ToCon where
  | query (respReturner : Nat) (target : SockAddr) (variant : ToConQuery)
  | resp (queryId : QueryId) (variant : ToConResp)
  deriving DecidableEq

/-- `channel_message/from_connection.rs:13-18` `enum FromConQuery`. -/
inductive FromConQuery where
  | findNode (target : ID) (queryId : QueryId)
  | getPeers (infoHash : ID) (queryId : QueryId)
  | newPeer (newPeer : Peer) (infoHash : ID)
  deriving DecidableEq

/-- `channel_message/from_connection.rs:20-36` `enum FromConResp`. -/
inductive FromConResp where
  | touch (id : ID) (sender : SockAddr)
  | newNodes (nodes : Nodes) (sender : SockAddr) (id : ID)
  | getPeers (sender : SockAddr) (token : Bytes) (vn : ValuesOrNodes)
  deriving DecidableEq

/-- `channel_message/to_connection.rs:46-62` `ToConQuery::into_message`; the random transaction id is a parameter. -/
def ToConQuery.intoMessage (own : ID) (tid : Bytes) : ToConQuery → Krpc.Message
  | .ping => .pingQuery own tid
  | .findNode target => .findNodesQuery own target tid
  | .getPeers ih => .getPeersQuery own ih tid
  | .announcePeer ih port token => .announcePeerQuery own ih port token tid

/-- `channel_message/to_connection.rs:66-82` `ToConResp::into_message`. -/
def ToConResp.intoMessage (own : ID) (tid token : Bytes) : ToConResp → Krpc.Message
  | .ping => .pingResp own tid
  | .findNode nodes => .findNodesResp own nodes tid
  | .getPeers vn => .getPeersResp own token vn tid
  | .announcePeer => .announcePeerResp own tid

/-- `pending.rs:14-20` `enum RequestType`. -/
inductive RequestType where
  | ping
  | findNode
  | getPeers
  | announcePeer
  deriving DecidableEq

/-- `pending.rs:42-55` `impl From<&Message> for RequestType`. -/
def RequestType.ofMessage : Krpc.Message → Res RequestType
  | .query _ _ _ (.ping _) => .ok .ping
  | .query _ _ _ (.findNode _ _) => .ok .findNode
  | .query _ _ _ (.getPeers _ _) => .ok .getPeers
  | .query _ _ _ (.announcePeer _ _ _ _) => .ok .announcePeer
  | .response _ _ _ => .panic
  | .error _ _ _ => .panic

/-- `pending.rs:57-66` `impl From<&Response> for RequestType`. -/
def RequestType.ofResponse : Response → RequestType
  | .ping _ => .ping
  | .findNode _ _ => .findNode
  | .getPeers _ _ _ => .getPeers
  | .announcePeer _ => .announcePeer

/-- `pending.rs:10` `struct PendingRequests`. -/
abbrev Pending := Map Bytes (RequestType × Nat)

/-- `pending.rs:27-35` `PendingRequests::get`: the requester, and what is left of the table. -/
def Pending.get (p : Pending) (tid : Bytes) (responseType : RequestType) : Option Nat × Pending :=
  match p.get? tid with
  | none => (none, p)
  | some (requestedType, requester) =>
    if requestedType = responseType then (some requester, p.erase tid) else (none, p)

/-- What the task does to the world. -/
inductive Effect where
  /-- `sock.send_to(bytes, target)` -/
  | datagram (target : SockAddr) (bytes : Bytes)
  /-- `query_listener.send(q)` -/
  | toManager (q : FromConQuery)
  /-- `querying_task_channel.send(r)` -/
  | toRequester (channel : Nat) (r : FromConResp)
  deriving DecidableEq

/-- `connection_manager.rs:14-21` `struct ConnectionManager`, with the buffer of `:55`; `listening` says whether the
receiving half of a channel still exists (`none`: that of `query_listener`). -/
structure Con where
  ownId : ID
  secret : ID
  pending : Pending
  buf : Bytes
  listening : Option Nat → Bool

/-- What the model leaves open. -/
structure Env where
  sha1 : Bytes → Bytes
  lib : Lib

/-- `connection_manager.rs:40-47`, `:55`: the task starts with nothing outstanding and a zeroed buffer. -/
def Con.start (own secret : ID) : Con := ⟨own, secret, [], List.replicate (2 * MTU) 0#8, fun _ => true⟩

/-- `connection_manager.rs:70-102` `send`; the random transaction id of a query is a parameter. -/
def Con.send (env : Env) (tid : Bytes) (s : Con) : ToCon → Res (Con × List Effect)
  | .query returner target variant => do
    let message := variant.intoMessage s.ownId tid
    let type ← RequestType.ofMessage message
    .ok ({ s with pending := s.pending.insert message.tid (type, returner) }, [.datagram target message.intoBytes])
  | .resp qid variant =>
    let token := s.secret.hashWithSecret env.sha1 qid.target.ip.octets
    .ok (s, [.datagram qid.target (variant.intoMessage s.ownId qid.tid token).intoBytes])

/-- Sending into a channel: `send(..).await.unwrap()`. -/
def Con.into (s : Con) (e : Effect) : Res (Con × List Effect) :=
  match e with
  | .datagram _ _ => .ok (s, [e])
  | .toManager _ => if s.listening none then .ok (s, [e]) else .panic
  | .toRequester c _ => if s.listening (some c) then .ok (s, [e]) else .panic

/-- `connection_manager.rs:207-209` `token_is_valid`. -/
def Con.tokenIsValid (env : Env) (s : Con) (token : Bytes) (source : SockAddr) : Bool :=
  token = s.secret.hashWithSecret env.sha1 source.ip.octets

/-- `connection_manager.rs:133-205` `handle_query`. -/
def Con.handleQuery (env : Env) (s : Con) (tid : Bytes) (arguments : Arguments) (sender : SockAddr) :
    Res (Con × List Effect) :=
  match arguments with
  | .ping _ => s.send env [] (.resp ⟨sender, tid⟩ .ping)
  | .findNode _ target => s.into (.toManager (.findNode target ⟨sender, tid⟩))
  | .getPeers _ ih => s.into (.toManager (.getPeers ih ⟨sender, tid⟩))
  | .announcePeer _ ih port token =>
    if s.tokenIsValid env token sender then do
      let (s1, e1) ← s.into (.toManager (.newPeer ⟨{ sender with port := port }⟩ ih))
      let (s2, e2) ← s1.send env [] (.resp ⟨sender, tid⟩ .announcePeer)
      .ok (s2, e1 ++ e2)
    else .ok (s, [])

/-- `connection_manager.rs:224-257`: what the requester is sent. -/
def respMessage (sender : SockAddr) : Response → FromConResp
  | .ping id => .touch id sender
  | .findNode id nodes => .newNodes nodes sender id
  | .getPeers _ token vn => .getPeers sender token vn
  | .announcePeer id => .touch id sender

/-- `connection_manager.rs:211-258` `handle_resp`. -/
def Con.handleResp (s : Con) (tid : Bytes) (response : Response) (sender : SockAddr) : Res (Con × List Effect) :=
  match s.pending.get tid (RequestType.ofResponse response) with
  | (none, p) => .ok ({ s with pending := p }, [])
  | (some c, p) => ({ s with pending := p } : Con).into (.toRequester c (respMessage sender response))

/-- `connection_manager.rs:104-131` `handle_received_message`; `none`: the sender has an IPv6 address. -/
def Con.handleReceived (env : Env) (s : Con) (sender : Option SockAddr) (buf : Bytes) : Res (Con × List Effect) :=
  match sender with
  | none => .ok (s, [])
  | some sender =>
    match Krpc.Message.fromBytes env.lib buf with
    | .panic => .panic
    | .err => .ok (s, [])
    | .ok (.query tid _ _ arguments) => s.handleQuery env tid arguments sender
    | .ok (.response tid _ response) => s.handleResp tid response sender
    | .ok (.error _ _ _) => .ok (s, [])

/-- `connection_manager.rs:59-62`: `recv_from` overwrites the beginning of the buffer, cutting the datagram off at its
end; the number of bytes received is dropped and the whole buffer handed on. -/
def Con.receive (env : Env) (s : Con) (sender : Option SockAddr) (datagram : Bytes) : Res (Con × List Effect) :=
  let buf := datagram.take s.buf.length ++ s.buf.drop datagram.length
  ({ s with buf := buf } : Con).handleReceived env sender buf

/-- What can happen to the task. -/
inductive Event where
  /-- a datagram arrives -/
  | datagram (sender : Option SockAddr) (bytes : Bytes)
  /-- a command arrives; `tid` is what `rand_tid` (`krpc_message.rs:108-111`) yields if it is a query -/
  | command (tid : Bytes) (c : ToCon)
  /-- the receiving half of a channel is dropped -/
  | closed (channel : Option Nat)
  /-- a hash map may present its entries in another order -/
  | reorder

/-- One entry of a history: what happened, the message it was taken for if it was a datagram that could be decoded, and
what the task did. -/
structure Entry where
  event : Event
  heard : Option Krpc.Message
  effects : List Effect

/-- The message decoded from the buffer, for the record. -/
def heardIn (env : Env) (buf : Bytes) : Option Krpc.Message :=
  match Krpc.Message.fromBytes env.lib buf with
  | .ok m => some m
  | _ => none

/-- One turn of the loop of `connection_manager.rs:57-67`, or something that happens elsewhere. -/
inductive Con.Step (env : Env) : Con → Entry → Con → Prop
  | datagram {s s' sender bytes effs} : s.receive env sender bytes = .ok (s', effs) →
      Step env s ⟨.datagram sender bytes, heardIn env s'.buf, effs⟩ s'
  | command {s s' tid c effs} : tid.length = MY_TID_LEN → s.send env tid c = .ok (s', effs) →
      Step env s ⟨.command tid c, none, effs⟩ s'
  | closed {s ch} : Step env s ⟨.closed ch, none, []⟩
      { s with listening := fun c => s.listening c && decide (c ≠ ch) }
  | reorder {s p} : s.pending.Perm p → Step env s ⟨.reorder, none, []⟩ { s with pending := p }

/-- A history, the oldest entry first. -/
inductive Con.Run (env : Env) : Con → List Entry → Con → Prop
  | nil {s} : Run env s [] s
  | snoc {s s1 s2 h e} : Run env s h s1 → Step env s1 e s2 → Run env s (h ++ [e]) s2

end Nargun.Dht
