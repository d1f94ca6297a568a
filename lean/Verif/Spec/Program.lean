import Verif.Spec.Swarm
import Verif.Spec.DhtSystem
import Verif.Spec.Fetcher
import Verif.Spec.Shutdown
import Verif.Spec.Tracker
import Verif.Model.Program

/-! # Vocabulary for the whole program, over its observable history -/

namespace Nargun.Spec

open Nargun Dht Krpc Program

/-- What happened on the torrent side. -/
def torrentEvents (es : List Program.Event) : List Swarm.Event :=
  es.filterMap fun e => match e with
    | .torrent x => some x
    | .node a _ => some (.dhtTakes a)
    | .tableEnds => some .dhtEnds
    | _ => none

/-- What happened in the DHT. -/
def dhtEvents (es : List Program.Event) : List DhtSystem.Entry :=
  es.filterMap fun e => match e with
    | .dht x => some x
    | .node a outs => some { man := some ⟨.peerNode a, outs⟩ }
    | .nodesGone => some { man := some ⟨.peersGone, []⟩ }
    | .tableNotices outs => some { man := some ⟨.shutdown, outs⟩ }
    | .lookup ns _ => some { spawned := some ns }
    | .asks a v => some { put := some (.other, .query LOOKUP_CHANNEL a v) }
    | .hears r _ => some { heard := some (LOOKUP_CHANNEL, r) }
    | _ => none

/-- What happened to the lookup task. -/
def lookupEvents (es : List Program.Event) : List Fetch.Entry :=
  es.filterMap fun e => match e with
    | .look x => some x
    | .hears r sent => some ⟨.answer r, sent⟩
    | _ => none

/-- The queries the lookup task handed to the connection, in order. -/
def lookupAsked (es : List Program.Event) : List Fetch.Sent :=
  es.filterMap fun e => match e with
    | .asks a v => some (a, v)
    | _ => none

/-- What happened to the task of tracker `i`. -/
def trackerInputs (i : Nat) (es : List Program.Event) : List TrackerInput :=
  es.filterMap fun e => match e with
    | .answered k r => if k = i then some (.answers r) else none
    | .tracker k x => if k = i then some x else none
    | .trackerNotices k => if k = i then some (.shutdown 0) else none
    | _ => none

/-- What happened to the shutdown channel once the program was started. -/
def downEvents (es : List Program.Event) : List Shutdown.Event :=
  es.filterMap fun e => match e with
    | .tableNotices _ => some (.recv TABLE_RECEIVER)
    | .tableEnds => some (.drop TABLE_RECEIVER)
    | .trackerNotices i => some (.recv (trackerReceiver i))
    | .trackerEnds i => some (.drop (trackerReceiver i))
    | .signal => some .send
    | .exits => some .waited
    | _ => none

/-- The clones of the shutdown receiver made for `n` trackers, the first with number `k`. -/
def clonesMade (k : Nat) : Nat → List Shutdown.Event
  | 0 => []
  | n + 1 => .clone 2 k :: clonesMade (k + 1) n

/-- What happens to the shutdown channel at the start of a program with `n` HTTP trackers. -/
def startupEvents (n : Nat) : List Shutdown.Event :=
  .clone 0 1 :: .clone 0 2 :: clonesMade 3 n ++ [.drop 2, .drop 0]

/-- A datagram was received at which the task of the socket panicked. -/
def FatalDatagram (es : List Program.Event) : Prop := ∃ e ∈ dhtEvents es, e.fatal.isSome = true

/-- The last thing the task of a tracker did was to announce 'stopped'. -/
def ToldStopped (log : List TrackerEvent) : Prop :=
  ∃ a, log.getLast? = some (.sent a) ∧ a.event = some .stopped

/-- The task of a tracker ended without an answer to the announce it had last begun, and without 'stopped'. -/
def LeftUnanswered (log : List TrackerEvent) : Prop :=
  ∃ before n after, log = before ++ .loaded n :: after ∧ ¬ Answered after ∧
    ∀ a, .sent a ∈ after → a.event ≠ some .stopped

/-- A tracker named the peer in an answer. -/
def NamedByTracker (es : List Program.Event) (q : Peer) : Prop := ∃ i r, .answered i r ∈ es ∧ q ∈ r.peers

/-- A node named the peer: in a message taken from the socket, an answer to a query of this program for the peers of this
torrent that had been sent before with the same transaction id. -/
def NamedByNode (own ih : ID) (h : List DhtSystem.Entry) (q : Peer) : Prop :=
  ∃ h1 e h2 a t y id token vs, h = h1 ++ e :: h2 ∧
    heardBy e = some (a, .response t y (.getPeers id token (.values vs))) ∧ q ∈ vs ∧
    ∃ target bytes, (target, bytes) ∈ sent h1 ∧ IsQueryDatagram own t (.getPeers ih) bytes

/-- The node at `a` gave this token: in a message taken from the socket, an answer to a query of this program for the peers
of this torrent that had been sent before with the same transaction id. -/
def GaveToken (own ih : ID) (h : List DhtSystem.Entry) (a : SockAddr) (token : Bytes) : Prop :=
  ∃ h1 e h2 t y id vn, h = h1 ++ e :: h2 ∧ heardBy e = some (a, .response t y (.getPeers id token vn)) ∧
    ∃ target bytes, (target, bytes) ∈ sent h1 ∧ IsQueryDatagram own t (.getPeers ih) bytes

/-- The nodes named in an answer of another node. -/
def namedNodes : Response → List Node
  | .findNode _ nodes => nodes.list
  | .getPeers _ _ (.nodes nodes) => nodes.list
  | _ => []

/-- A node named an address: in a message taken from the socket, an answer of the right kind to a query of this program
that had been sent before with the same transaction id. -/
def NamedAddress (own : ID) (h : List DhtSystem.Entry) (a : SockAddr) : Prop :=
  ∃ h1 e h2 sender t y r, h = h1 ++ e :: h2 ∧ heardBy e = some (sender, .response t y r) ∧
    a ∈ (namedNodes r).map (·.addr) ∧
    ∃ target v bytes, (target, bytes) ∈ sent h1 ∧ IsQueryDatagram own t v bytes ∧ kindOf v = answersKind r

/-- A peer told of the address, by a `port` message: the IP address is that of the peer. -/
def ToldByPeer (es : List Program.Event) (a : SockAddr) : Prop :=
  ∃ q port, (q, Nargun.Message.port port) ∈ handedOver (torrentEvents es) ∧ a = ⟨q.addr.ip, port⟩

/-- A peer is named to the program: in the answer of a tracker, by its own announcement for this torrent, taken by the table
task, or in an answer the lookup task takes. -/
def Source (u : Setup) (es : List Program.Event) (q : Peer) : Prop :=
  NamedByTracker es q ∨ Announced (manHistory (dhtEvents es)) u.infoHash q ∨
  ∃ sender token vs sent, .hears (.getPeers sender token (.values vs)) sent ∈ es ∧ q ∈ vs

/-- The table task names the peer in an answer to a query of another node. -/
def ToldOthers (es : List Program.Event) (q : Peer) : Prop :=
  ∃ me ∈ manHistory (dhtEvents es), ∃ qid vs, (qid, ToConResp.getPeers (.values vs)) ∈ answers me.outputs ∧ q ∈ vs

/-- The nodes the lookup asked or is going to ask. -/
def askedNodes (es : List Program.Event) : List SockAddr :=
  es.flatMap fun e => match e with
    | .asks a _ => [a]
    | .hears _ sent => sent.map (·.1)
    | _ => []

/-- The tasks of a peer have nothing to do: the connection is up or has ended, the downloader waits for a command or has
ended. -/
def AtRest (l : Swarm.Link) : Prop :=
  (l.con = .ended ∨ (l.Up ∧ l.sends = [])) ∧
  (l.dlAlive = true → l.report = none ∧ l.dl.pc = .select ∧ l.commands = [])

/-- For this nothing has to come from other nodes, peers or trackers: the tasks of the DHT work off what waits, time passes for
the lookup, it asks and takes answers from its queue, a task notices the signal or returns, Ctrl-C, the end of the process. -/
def Unaided : Program.Event → Prop
  | .dht e => isInternal e = true ∨ e.man = some ⟨.conGone, []⟩
  | .tableNotices _ => True
  | .tableEnds => True
  | .lookup _ _ => True
  | .look _ => True
  | .asks _ _ => True
  | .hears _ _ => True
  | .trackerNotices _ => True
  | .trackerEnds _ => True
  | .signal => True
  | .exits => True
  | _ => False

/-- How much time passes for the lookup task. -/
def lookTime (es : List Program.Event) : Nat :=
  (es.map fun e => match e with | .look ⟨.pass d, _⟩ => d | _ => 0).sum

/-- The answers the lookup task took from its queue, in order. -/
def lookupHeard (es : List Program.Event) : List FromConResp :=
  es.filterMap fun e => match e with
    | .hears r _ => some r
    | _ => none

/-- An answer of a node to a query for peers. -/
structure PeersAnswer where
  sender : SockAddr
  id : ID
  token : Bytes
  found : ValuesOrNodes
  tid : Bytes

/-- The answer as a message. -/
def PeersAnswer.message (x : PeersAnswer) : Krpc.Message := .getPeersResp x.id x.token x.found x.tid

end Nargun.Spec
