import Verif.Model.Swarm
import Verif.Model.DhtSystem
import Verif.Model.Fetcher
import Verif.Model.Shutdown
import Verif.Model.TrackerManager

/-! # Model of the whole program: `src/main.rs`

The torrent side (`Verif.Model.Swarm`), the DHT (`Verif.Model.DhtSystem`), the task that looks for peers
(`Verif.Model.Fetcher`), one task for every HTTP tracker (`Verif.Model.TrackerManager`) and `main` itself with the shutdown
channel (`Verif.Model.Shutdown`), running together. They share the table of known peers, which is behind a lock, so that
every access is one step; there is one copy of it here, and every task works on this one.

What the parts leave open is closed here: what the other tasks do with the table of peers is what the tasks of the program
do with it; the nodes the table task takes are those that connections put into the queue; it finds this queue without a
sender only when the manager and all connections have dropped theirs; the one lookup task asks and hears what its own model
says; the shutdown signal is the one of `main`.

This module begins when `main` waits for Ctrl-C; how the program gets there, and what can fail on the way, is in
`Verif.Model.Launch`.

Simplified: the clocks of the tasks are independent of each other; a failure of `ctrl_c` itself (`main.rs:177-179`) and
errors of the UDP socket are in `Verif.Model.Trouble`; after `main` has returned nothing happens any more. Nobody changes the number of downloaded pieces that the
trackers are told (`main.rs:69`), and nobody tells the trackers that the download is complete (`main.rs:80`). -/

namespace Nargun.Program

open Nargun Dht

/-- What the program depends on: the torrent side, the DHT, the pauses of the table refresh and of the lookups, the TCP
port that is announced (`main.rs:67`). -/
structure World where
  cfg : Swarm.Cfg
  env : Env
  refreshPause : Nat → Nat
  lookupPause : Nat → Nat
  port : U16

/-- The lookup task: `peer_fetcher.rs:43-74`; `todo` are the queries it has yet to hand over to the connection. -/
structure Lookup where
  task : Fetch.Fetcher
  todo : List Fetch.Sent
  alive : Bool

/-- All tasks. `peers` is the shared table of known peers (`main.rs:66`); the parts have fields for it as well, which
are set before a part makes a step. -/
structure State where
  peers : Peers
  swarm : Swarm.State
  dht : DhtSystem.State
  lookup : Option Lookup
  trackers : List TrackerTask
  down : Shutdown.State

/-- The torrent side with the present table of peers. -/
def State.torrent (s : State) : Swarm.State := { s.swarm with tm := { s.swarm.tm with peers := s.peers } }

/-- The DHT with the present table of peers. -/
def State.nodes (s : State) : DhtSystem.State := { s.dht with man := { s.dht.man with peers := s.peers } }

/-- A lookup with the present table of peers. -/
def State.looking (s : State) (l : Lookup) : Fetch.Fetcher := { l.task with peers := s.peers }

/-- `main.rs:76`: the receiver of the table task. -/
def TABLE_RECEIVER : Nat := 1

/-- `tracker_manager.rs:36`: the receivers of the tracker tasks are made from that of `main.rs:89`, which has number 2. -/
def trackerReceiver (i : Nat) : Nat := i + 3

/-- `dht_manager.rs:70-81`: the channel for the answers to the lookup task. -/
def LOOKUP_CHANNEL : Nat := 1

/-- `tracker_manager.rs:27,36`: one clone for each tracker. -/
def clones : Nat → Shutdown.State → Shutdown.State
  | 0, s => s
  | n + 1, s => clones n s.clone

/-- `main.rs:62,76,89`, `tracker_manager.rs:36`, `main.rs:169`: the shutdown channel when `main` waits for Ctrl-C. -/
def startDown (trackers : Nat) : Shutdown.State :=
  ((clones trackers Shutdown.channel.clone.clone).drop 2).drop 0

/-- What the program is started with: the torrent, the URLs of its HTTP trackers, the stored routing table and what is
chosen at random. -/
structure Setup where
  infoHash : ID
  pieces : List ID
  pieceLength : Nat
  urls : List Bytes
  table : RoutingTable
  peerId : ID
  secret : ID
  now : Nat

/-- `main.rs:60-169`: the program has just been started. -/
structure Started (w : World) (u : Setup) (s : State) : Prop where
  peers : s.peers = .new u.infoHash
  swarm : Swarm.State.start u.pieces u.pieceLength (.new u.infoHash) = .ok s.swarm
  dht : s.dht = DhtSystem.State.start u.infoHash u.secret u.table (.new u.infoHash) u.now
  lookup : s.lookup = none
  trackers : (u.urls.map fun url =>
    TrackerTask.start url u.infoHash u.peerId u.pieces.length u.pieceLength 0 w.port) = s.trackers.map .ok
  down : s.down = startDown u.urls.length

/-- What happens in a step. -/
inductive Event where
  /-- a step on the torrent side -/
  | torrent (e : Swarm.Event)
  /-- a step of the socket task or the table task -/
  | dht (e : DhtSystem.Entry)
  /-- the table task takes a node that a peer told of -/
  | node (a : SockAddr) (outs : List DhtManager.Out)
  /-- the table task finds that nobody is left who could tell of nodes -/
  | nodesGone
  /-- the table task notices the shutdown signal -/
  | tableNotices (outs : List DhtManager.Out)
  /-- the table task returns -/
  | tableEnds
  /-- the lookup task is started -/
  | lookup (nodes : List Node) (now : Nat)
  /-- a step of the lookup task -/
  | look (e : Fetch.Entry)
  /-- the lookup task hands a query to the connection -/
  | asks (target : SockAddr) (q : ToConQuery)
  /-- the lookup task finds the connection gone -/
  | asksNobody
  /-- the lookup task takes an answer -/
  | hears (r : FromConResp) (sent : List Fetch.Sent)
  /-- a tracker answers -/
  | answered (i : Nat) (r : TrackerResponse)
  /-- a step of the task of a tracker -/
  | tracker (i : Nat) (input : TrackerInput)
  /-- the task of a tracker notices the shutdown signal -/
  | trackerNotices (i : Nat)
  /-- the task of a tracker returns -/
  | trackerEnds (i : Nat)
  /-- Ctrl-C -/
  | signal
  /-- the process ends -/
  | exits

/-- Steps of the torrent side that are not made together with another part. -/
def OwnTorrent : Swarm.Event → Prop
  | .man (.peers _) => False
  | .dhtTakes _ => False
  | .dhtEnds => False
  | _ => True

/-- Events of the table task that are not made together with another part. -/
def OwnTable : DhtManager.Event → Prop
  | .shutdown => False
  | .peerNode _ => False
  | .peersGone => False
  | .others _ => False
  | _ => True

/-- Steps of the DHT that are not made together with another part. -/
structure OwnDht (e : DhtSystem.Entry) : Prop where
  table : ∀ m, e.man = some m → OwnTable m.event
  put : ∀ c, e.put ≠ some (.other, c)
  heard : e.heard = none
  spawned : e.spawned = none

/-- Steps of the lookup task at which it begins or ends a lookup. -/
def LookTurn : Fetch.Event → Prop
  | .tick => True
  | .timeout => True
  | _ => False

/-- Time passes for the lookup task, or a map changes its order. -/
def LookIdle : Fetch.Event → Prop
  | .pass _ => True
  | .reorder => True
  | _ => False

/-- What a tracker task waits for, apart from an answer and the signal; the number of downloaded pieces is 0. -/
def OwnTracker : TrackerInput → Prop
  | .sends => True
  | .fails => True
  | .retryTimer => True
  | .intervalTimer n => n = 0
  | _ => False

/-- The senders of the queue of nodes are dropped: that of the manager (`connection_handle.rs:79,101`) and the clones of all
connections (`connection_handle.rs:136`); and the queue is empty. -/
def State.NodesClosed (s : State) : Prop :=
  s.swarm.man = .dead ∧ (∀ q, s.swarm.Spawned q → (s.swarm.links q).con = .ended) ∧ s.swarm.dht = []

/-- One step of one task. -/
inductive Turn (w : World) : State → Event → State → Prop
  /-- the torrent side -/
  | torrent {s e sw} : OwnTorrent e → Swarm.Step w.cfg s.torrent e sw →
      Turn w s (.torrent e) { s with swarm := sw, peers := sw.tm.peers }
  /-- the DHT -/
  | dht {s e d} : OwnDht e → DhtSystem.Step w.env w.refreshPause s.nodes e d →
      Turn w s (.dht e) { s with dht := d, peers := d.man.peers }
  /-- `dht_manager.rs:58-61`: the node is taken from the queue that `connection_manager.rs:159` puts it into -/
  | node {s a outs sw d} : Swarm.Step w.cfg s.torrent (.dhtTakes a) sw →
      DhtSystem.Step w.env w.refreshPause s.nodes { man := some ⟨.peerNode a, outs⟩ } d →
      Turn w s (.node a outs) { s with swarm := sw, dht := d }
  /-- `dht_manager.rs:58-59` -/
  | nodesGone {s d} : s.NodesClosed →
      DhtSystem.Step w.env w.refreshPause s.nodes { man := some ⟨.peersGone, []⟩ } d →
      Turn w s .nodesGone { s with dht := d }
  /-- `dht_manager.rs:53-56` -/
  | tableNotices {s outs d x} : Shutdown.Step s.down (.recv TABLE_RECEIVER) x →
      DhtSystem.Step w.env w.refreshPause s.nodes { man := some ⟨.shutdown, outs⟩ } d →
      Turn w s (.tableNotices outs) { s with dht := d, down := x }
  /-- `mod.rs:24-40`: the task is over; its receivers are dropped -/
  | tableEnds {s sw x} : s.dht.man.status ≠ .running → ¬ s.dht.ManagerThere →
      Shutdown.Step s.down (.drop TABLE_RECEIVER) x → Swarm.Step w.cfg s.torrent .dhtEnds sw →
      Turn w s .tableEnds { s with swarm := sw, down := x }
  /-- `dht_manager.rs:70-81`, `peer_fetcher.rs:30-51` -/
  | lookup {s ns d now} : s.lookup = none →
      DhtSystem.Step w.env w.refreshPause s.nodes { spawned := some ns } d →
      Turn w s (.lookup ns now)
        { s with dht := d, lookup := some ⟨Fetch.start s.dht.man.infoHash w.port ns s.peers now, [], true⟩ }
  /-- `peer_fetcher.rs:69-90` -/
  | look {s l e f} : s.lookup = some l → l.alive = true → l.todo = [] → LookTurn e.event →
      Fetch.Step w.lookupPause (s.looking l) e f →
      Turn w s (.look e) { s with lookup := some { l with task := f, todo := e.sent } }
  /-- time passes for the lookup task -/
  | lookIdle {s l e f} : s.lookup = some l → LookIdle e.event → Fetch.Step w.lookupPause (s.looking l) e f →
      Turn w s (.look e) { s with lookup := some { l with task := f } }
  /-- `peer_fetcher.rs:83,148,191` -/
  | asks {s l a v rest d} : s.lookup = some l → l.alive = true → l.todo = (a, v) :: rest →
      DhtSystem.Step w.env w.refreshPause s.nodes { put := some (.other, .query LOOKUP_CHANNEL a v) } d →
      Turn w s (.asks a v) { s with dht := d, lookup := some { l with todo := rest } }
  /-- `peer_fetcher.rs:83,148,191`: the connection is gone, `?` ends the task -/
  | asksNobody {s l a v rest} : s.lookup = some l → l.alive = true → l.todo = (a, v) :: rest → s.dht.conAlive = false →
      Turn w s .asksNobody { s with lookup := some { l with alive := false, todo := [] } }
  /-- `peer_fetcher.rs:87-127` -/
  | hears {s l r sent f d} : s.lookup = some l → l.alive = true → l.todo = [] →
      DhtSystem.Step w.env w.refreshPause s.nodes { heard := some (LOOKUP_CHANNEL, r) } d →
      Fetch.Step w.lookupPause (s.looking l) ⟨.answer r, sent⟩ f →
      Turn w s (.hears r sent) { s with dht := d, peers := f.peers, lookup := some { l with task := f, todo := sent } }
  /-- `tracker_manager.rs:131-141`, `:84-89`: the peers of the answer are put into the table -/
  | answered {s i t t' r} : s.trackers[i]? = some t → t.phase = .inFlight → t.step (.answers r) = .ok t' →
      Turn w s (.answered i r) { s with trackers := s.trackers.set i t', peers := s.peers.extend r.peers }
  /-- `tracker_manager.rs:84-150` -/
  | tracker {s i t t' inp} : s.trackers[i]? = some t → OwnTracker inp → t.step inp = .ok t' →
      Turn w s (.tracker i inp) { s with trackers := s.trackers.set i t' }
  /-- `tracker_manager.rs:92-99`, `:128-150` -/
  | trackerNotices {s i t t' x} : s.trackers[i]? = some t → t.phase ≠ .exited →
      Shutdown.Step s.down (.recv (trackerReceiver i)) x → t.step (.shutdown 0) = .ok t' →
      Turn w s (.trackerNotices i) { s with trackers := s.trackers.set i t', down := x }
  /-- the task of a tracker is over; its receiver is dropped -/
  | trackerEnds {s i t x} : s.trackers[i]? = some t → t.phase = .exited →
      Shutdown.Step s.down (.drop (trackerReceiver i)) x → Turn w s (.trackerEnds i) { s with down := x }
  /-- `main.rs:171-174` -/
  | signal {s x} : Shutdown.Step s.down .send x → Turn w s .signal { s with down := x }
  /-- `main.rs:175-185` -/
  | exits {s x} : Shutdown.Step s.down .waited x → Turn w s .exits { s with down := x }

/-- One step; there is none when the process has ended. -/
def Step (w : World) (s : State) (e : Event) (s' : State) : Prop := s.down.phase ≠ .done ∧ Turn w s e s'

/-- A history, the oldest event first. -/
inductive Run (w : World) : State → List Event → State → Prop
  | nil {s} : Run w s [] s
  | snoc {s s1 s2 es e} : Run w s es s1 → Step w s1 e s2 → Run w s (es ++ [e]) s2

end Nargun.Program
