import Verif.Model.Swarm
import Verif.Spec.Wire
import Verif.Spec.TorrentManager

/-! # Vocabulary for the torrent side as a whole, over its observable history -/

namespace Nargun.Spec

open Nargun

/-- What happened to the torrent manager. -/
def managerEvents (es : List Swarm.Event) : List TM.Event :=
  es.filterMap fun e => match e with | .man t => some t | _ => none

/-- The pieces of the byte stream read from peer `q`, read by read. -/
def readsFrom (q : Peer) (es : List Swarm.Event) : List Bytes :=
  es.filterMap fun e => match e with | .read k b => if k = q then some b else none | _ => none

/-- The bytes read from peer `q`. -/
def bytesFrom (q : Peer) (es : List Swarm.Event) : Bytes := (readsFrom q es).flatten

/-- The messages recognised in the bytes read from peer `q`, in order. -/
def messagesFrom (q : Peer) (es : List Swarm.Event) : List Message :=
  es.filterMap fun e => match e with | .parsed k m => if k = q then some m else none | _ => none

/-- The messages of all peers that were handed over to the task they are meant for, in order. -/
def handedOver (es : List Swarm.Event) : List (Peer × Message) :=
  es.filterMap fun e => match e with | .handed k m => some (k, m) | _ => none

/-- What the manager took from its queue, in order. -/
def managerHeard (es : List Swarm.Event) : List (Peer × ConMessageType) :=
  es.filterMap fun e => match e with | .man (.msg k m) => some (k, m) | _ => none

/-- The blocks the downloader of peer `q` took from its queue, in order. -/
def blocksHeard (q : Peer) (es : List Swarm.Event) : List Piece :=
  es.filterMap fun e => match e with | .dl k (.block b _) => if k = q then some b else none | _ => none

/-- The nodes the DHT took from its queue, in order. -/
def dhtHeard (es : List Swarm.Event) : List SockAddr :=
  es.filterMap fun e => match e with | .dhtTakes a => some a | _ => none

/-- The message of the wire that a message to the manager stands for, if any. -/
def wireMessage : ConMessageType → Option Message
  | .keepAlive => some .keepAlive
  | .choke => some .choke
  | .unchoke => some .unchoke
  | .interested => some .interested
  | .notInterested => some .notInterested
  | .have_ i => some (.have_ i)
  | .bitfield b => some (.bitfield b)
  | .request r => some (.request r)
  | .cancel r => some (.cancel r)
  | _ => none

/-- The messages of the wire among messages to the manager, with the peers they are from. -/
def fromWire (l : List (Peer × ConMessageType)) : List (Peer × Message) :=
  l.filterMap fun e => (wireMessage e.2).map fun m => (e.1, m)

/-- The messages of one peer. -/
def ofPeer (q : Peer) (l : List (Peer × Message)) : List Message :=
  l.filterMap fun e => if e.1 = q then some e.2 else none

/-- Blocks go to the downloader of the peer. -/
def asBlock : Message → Option Piece
  | .piece b => some b
  | _ => none

/-- The DHT node a message of a peer announces: the port of the message at the address of the peer. -/
def asNode : Peer × Message → Option SockAddr
  | (q, .port p) => some ⟨q.addr.ip, p⟩
  | _ => none

/-- Everything else goes to the manager. -/
def forManager : Message → Bool
  | .piece _ => false
  | .port _ => false
  | _ => true

/-- The message the connection of `q` is about to hand over. -/
def inHand (l : Swarm.Link) : List Message :=
  match l.con with
  | .handing m => [m]
  | _ => []

/-- The messages written to peer `q`. -/
def writtenTo (q : Peer) (es : List Swarm.Event) : List Message :=
  es.filterMap fun e => match e with | .wrote k m => if k = q then some m else none | _ => none

/-- The requests the downloader of peer `q` makes, in order. -/
def requestedOf (q : Peer) (es : List Swarm.Event) : List Message :=
  es.filterMap fun e => match e with | .dl k (.request _ r) => if k = q then some (.request r) else none | _ => none

/-- The pieces the downloader of peer `q` completes with the right hash, in order. -/
def completedBy (q : Peer) (es : List Swarm.Event) : List (Nat × List Bytes) :=
  es.filterMap fun e => match e with
    | .dl k (.block _ (.finished i bs)) => if k = q then some (i, bs) else none
    | _ => none

/-- The pieces the downloader of peer `q` reports to the manager, in order. -/
def reportedBy (q : Peer) (es : List Swarm.Event) : List (Nat × List Bytes) :=
  es.filterMap fun e => match e with | .reported k i bs => if k = q then some (i, bs) else none | _ => none

/-- The pieces all downloaders report to the manager, in order. -/
def allReported (es : List Swarm.Event) : List (Peer × Nat × List Bytes) :=
  es.filterMap fun e => match e with | .reported k i bs => some (k, i, bs) | _ => none

/-- The reports of finished pieces among messages to the manager. -/
def reportsIn (l : List (Peer × ConMessageType)) : List (Peer × Nat × List Bytes) :=
  l.filterMap fun e => match e.2 with | .finishedPiece i bs => some (e.1, i, bs) | _ => none

/-- The pieces completed with the right hash by the downloaders. -/
def completedPieces (es : List Swarm.Event) : List (Nat × List Bytes) :=
  es.filterMap fun e => match e with | .dl _ (.block _ (.finished i bs)) => some (i, bs) | _ => none

/-- The peers that a tick connects to. -/
def connectedTo (es : List Swarm.Event) : List Peer :=
  es.flatMap fun e => match e with | .man (.tick batch) => batch | _ => []

end Nargun.Spec
