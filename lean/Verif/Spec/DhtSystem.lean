import Verif.Spec.DhtConnection
import Verif.Spec.DhtManager
import Verif.Model.DhtSystem

/-! # Vocabulary for the DHT as a whole -/

namespace Nargun.Spec

open Nargun Dht Krpc DhtManager

/-- The datagrams that left, in order. -/
def sent (h : List DhtSystem.Entry) : List (SockAddr × Bytes) := h.filterMap (·.sent)

/-- The message taken from the socket in this step, and its sender, if it was a message from an IPv4 address. -/
def heardBy (e : DhtSystem.Entry) : Option (SockAddr × Krpc.Message) :=
  match e.con with
  | some ⟨.datagram (some a) _, some m, _⟩ => some (a, m)
  | _ => none

/-- The messages taken from the socket, in order. -/
def heard (h : List DhtSystem.Entry) : List (SockAddr × Krpc.Message) := h.filterMap heardBy

/-- A datagram was taken from the socket in this step. -/
def isArrival (e : DhtSystem.Entry) : Bool :=
  e.fatal.isSome || match e.con with
    | some ⟨.datagram _ _, _, _⟩ => true
    | _ => false

/-- The kind of the query with these arguments. -/
def argsKind : Arguments → RequestType
  | .ping _ => .ping
  | .findNode _ _ => .findNode
  | .getPeers _ _ => .getPeers
  | .announcePeer _ _ _ _ => .announcePeer

/-- The kind of an answer. -/
def respKind : ToConResp → RequestType
  | .ping => .ping
  | .findNode _ => .findNode
  | .getPeers _ => .getPeers
  | .announcePeer => .announcePeer

/-- A query of another node: who asked, under which transaction id, and what kind of query. -/
abbrev Question := SockAddr × Bytes × RequestType

/-- The query a message is. -/
def question : SockAddr × Krpc.Message → Option Question
  | (a, .query t _ _ args) => some (a, t, argsKind args)
  | _ => none

/-- The queries of other nodes that were taken from the socket. -/
def asked (h : List DhtSystem.Entry) : List Question := (heard h).filterMap question

/-- The id of the node that answers. -/
def responder : Response → ID
  | .ping id => id
  | .findNode id _ => id
  | .getPeers id _ _ => id
  | .announcePeer id => id

/-- What happened to the connection. -/
def conHistory (h : List DhtSystem.Entry) : List Dht.Entry := h.filterMap (·.con)

/-- What happened to the task that owns the table. -/
def manHistory (h : List DhtSystem.Entry) : List DhtManager.Entry := h.filterMap (·.man)

/-- The queries of others the connection handed over, in order. -/
def handedQueries (l : List Effect) : List FromConQuery :=
  l.filterMap fun e => match e with | .toManager q => some q | _ => none

/-- The answers the connection handed over to task `c`, in order. -/
def handedAnswers (c : Nat) (l : List Effect) : List FromConResp :=
  l.filterMap fun e => match e with | .toRequester k r => if k = c then some r else none | _ => none

/-- The datagrams among the effects. -/
def datagrams (l : List Effect) : List (SockAddr × Bytes) :=
  l.filterMap fun e => match e with | .datagram a b => some (a, b) | _ => none

/-- Everything the connection did. -/
def allEffects (h : List Dht.Entry) : List Effect := h.flatMap (·.effects)

/-- The commands the connection took, in order. -/
def takenCommands (h : List Dht.Entry) : List ToCon :=
  h.filterMap fun e => match e.event with | .command _ c => some c | _ => none

/-- The queries of others the table task took, in order. -/
def takenQueries (h : List DhtManager.Entry) : List FromConQuery :=
  h.filterMap fun e => match e.event with | .query q => some q | _ => none

/-- The answers the table task took, in order. -/
def takenByManager (h : List DhtManager.Entry) : List FromConResp :=
  h.filterMap fun e => match e.event with | .resp r => some r | _ => none

/-- The answers task `c` took, in order. -/
def takenAnswers (c : Nat) (h : List DhtSystem.Entry) : List FromConResp :=
  if c = OWN_CHANNEL then takenByManager (manHistory h)
  else h.filterMap fun e => match e.heard with | some (k, r) => if k = c then some r else none | _ => none

/-- The commands among the outputs. -/
def sends (l : List Out) : List ToCon := l.filterMap fun o => match o with | .send c => some c | _ => none

/-- The commands put into the queue of the connection, in order. -/
def puts (h : List DhtSystem.Entry) : List ToCon := h.filterMap fun e => e.put.map (·.2)

/-- The commands put into the queue of the connection by the table task, in order. -/
def putsOfManager (h : List DhtSystem.Entry) : List ToCon :=
  h.filterMap fun e => match e.put with | some (.manager, c) => some c | _ => none

/-- The tables written to the file. -/
def storedTables (h : List DhtSystem.Entry) : List RoutingTable := h.filterMap (·.stored)

/-- The command is a query of task `c`. -/
def isQueryOf (c : Nat) : ToCon → Bool
  | .query k _ _ => k = c
  | .resp _ _ => false

/-- A node answered: a message from its address with its id was taken from the socket, as an answer of the right kind to a
query of this program that had been sent before with the same transaction id. -/
def AnsweredUs (own : ID) (h : List DhtSystem.Entry) (id : ID) (addr : SockAddr) : Prop :=
  ∃ h1 e h2 t y r, h = h1 ++ e :: h2 ∧ heardBy e = some (addr, .response t y r) ∧ responder r = id ∧
    ∃ target v bytes, (target, bytes) ∈ sent h1 ∧ IsQueryDatagram own t v bytes ∧ kindOf v = answersKind r

/-- A peer announced itself for a torrent: an announcement with its port and the token for its address came from its
address. -/
def AnnouncedItself (sha1 : Bytes → Bytes) (secret : ID) (h : List DhtSystem.Entry) (ih : ID) (p : Peer) : Prop :=
  ∃ e ∈ h, ∃ a t y q id port,
    heardBy e = some (a, .query t y q (.announcePeer id ih port (tokenFor sha1 secret a.ip))) ∧ p = ⟨⟨a.ip, port⟩⟩

/-- The nodes an answer names. -/
def answerNodes : ToConResp → List Node
  | .findNode nodes => nodes.list
  | .getPeers (.nodes nodes) => nodes.list
  | _ => []

/-- The peers an answer names. -/
def answerPeers : ToConResp → List Peer
  | .getPeers (.values vs) => vs
  | _ => []

/-- The datagrams taken from the socket, with their senders (`none`: an IPv6 address). -/
def arrivals (h : List DhtSystem.Entry) : List (Option SockAddr × Bytes) :=
  h.filterMap fun e => match e.fatal, e.con with
    | some d, _ => some d
    | none, some ⟨.datagram a b, _, _⟩ => some (a, b)
    | none, _ => none

/-- Turns of the table task: everything it does itself, a shutdown included. -/
def turns (h : List DhtSystem.Entry) : List DhtManager.Entry :=
  (manHistory h).filter fun e => match e.event with
    | .others _ => false
    | .pass _ => false
    | .reorder => false
    | _ => true

/-- Nothing is waiting anywhere between the connection and the table task. -/
structure Quiet (s : DhtSystem.State) : Prop where
  conTodo : s.conTodo = []
  manTodo : s.manTodo = []
  commands : s.commands = []
  queries : s.queries = []
  answers : s.answers OWN_CHANNEL = []

/-- The step needs nothing from outside: no datagram arrives, no timer fires, nobody else acts. -/
def isInternal (e : DhtSystem.Entry) : Bool :=
  e.fatal.isNone && e.heard.isNone &&
  (match e.con with
    | some ⟨.datagram _ _, _, _⟩ => false
    | some ⟨.reorder, _, _⟩ => false
    | _ => true) &&
  (match e.man with
    | some ⟨.query _, _⟩ => true
    | some ⟨.resp _, _⟩ => true
    | some _ => false
    | none => true) &&
  (match e.put with
    | some (.other, _) => false
    | _ => true)

end Nargun.Spec
