import Verif.Model.Program
import Verif.Model.Storage
import Verif.Model.Metainfo
import Verif.Model.TableFile

/-! # Model of the start of the program: `main.rs:60-169`

From what there is on the machine to the state in which `main` waits for Ctrl-C and `Verif.Model.Program` begins, with
everything that can go wrong on the way. A task that panics at its start is gone, the others go on without it.

Simplified: the tasks that are spawned have done the first thing they do (the storage of the torrent is created, the first
announces are put together, the socket is bound) when `main` waits for Ctrl-C. That the process ends in the middle of
creating the storage is C55. The command line is left out. -/

namespace Nargun.Program

open Nargun Dht


/-- What the program finds on the machine: the metainfo file, the file of the routing table (`none` if there is none), what
is in the file system where the torrent is stored and where something may be created; whether the gateway opens a port
(`gateway_device.rs:9-33`; it is `World.port`), and whether the UDP port 46493 is free. -/
structure Machine where
  metainfo : Option Bytes
  tableFile : Option Bytes
  tree : Tree
  allowed : Loc → Bool
  gateway : Bool
  udpFree : Bool

/-- What is random at the start: the own peer id (`main.rs:60`), the own node id when there is no stored table
(`table.rs:30`), the secret for tokens (`connection_manager.rs:46`), the order of the set of directories
(`dir_builder`), and the time. -/
structure Chance where
  peerId : ID
  nodeId : ID
  secret : ID
  order : List Bytes
  now : Nat

/-- `torrent_manager.rs:99`: where torrents are stored. -/
def STORAGE : Bytes := Spec.ascii "/home/gvelesa/rust/narpath"

/-- `main.rs:65`, `metainfo.rs:54-61`: the torrent; an error is unwrapped. -/
def readTorrent (sha1 : Bytes → ID) (utf8 : Bytes → Bool) (m : Machine) : Res Torrent :=
  match m.metainfo with
  | none => .panic
  | some buf =>
    match Torrent.fromBuf sha1 utf8 buf with
    | .ok t => .ok t
    | _ => .panic

/-- The torrent side when the manager task has panicked at its start. The fields of the manager stand for nothing. -/
def managerGone (pieces : List ID) (peers : Peers) : Swarm.State :=
  { tm := { pieces, connection := .new, activePeers := [], inactivePeers := [], peers, localData := ⟨[], 0⟩,
            activePieces := ⟨[], 0⟩, frequencyMap := [], assignedPeerCount := [], slots := 0 }
    man := .dead, links := fun _ => .fresh, pend := ⟨0, 0, []⟩, poisoned := false, inbox := [], dht := [], dhtOpen := true }

/-- `torrent_manager.rs:83-113` `TorrentManager::spawn`: `Connection::new` makes the table of pending pieces, `FS::new` the
directories, then come the bitmaps. -/
def startManager (allowed : Loc → Bool) (order : List Bytes) (info : Info) (peers : Peers) (t : Tree) : Tree × Swarm.State :=
  match PendingPieces.new info.pieceLength with
  | .ok _ =>
    match FS.new allowed STORAGE info order t with
    | (t', .ok ()) =>
      match Swarm.State.start info.pieces info.pieceLength peers with
      | .ok s => (t', s)
      | _ => (t', managerGone info.pieces peers)
    | (t', _) => (t', managerGone info.pieces peers)
  | _ => (t, managerGone info.pieces peers)

/-- `tracker_manager.rs:56-84`: the task of a tracker; when it panics at its start it is over, and nothing was sent. -/
def startTracker (w : World) (u : Setup) (url : Bytes) : TrackerTask :=
  match TrackerTask.start url u.infoHash u.peerId u.pieces.length u.pieceLength 0 w.port with
  | .ok t => t
  | _ => { pieceCount := u.pieces.length, pieceLength := u.pieceLength,
           announce := ⟨url, u.infoHash, u.peerId, w.port, 0, 0, 0, true, true, some .started, none⟩,
           phase := .exited, log := [.loaded 0] }

/-- `dht/mod.rs:13-40`, `connection_manager.rs:31-49`: the DHT; without the UDP port the socket task panics. -/
def startDht (u : Setup) (udpFree : Bool) : DhtSystem.State :=
  { DhtSystem.State.start u.infoHash u.secret u.table (.new u.infoHash) u.now with conAlive := udpFree }

/-- What the torrent, the routing table and chance give. -/
def setupOf (t : Torrent) (table : RoutingTable) (c : Chance) : Setup :=
  { infoHash := t.infoHash, pieces := t.info.pieces, pieceLength := t.info.pieceLength, urls := t.httpTrackers, table
    peerId := c.peerId, secret := c.secret, now := c.now }

/-- `main.rs:60-169`: the file system afterwards, and all tasks when `main` waits for Ctrl-C; or `main` returns an error
(no gateway, `main.rs:67`) or panics (`main.rs:65`, `table.rs:25-33`). -/
def launch (sha1 : Bytes → ID) (utf8 : Bytes → Bool) (w : World) (m : Machine) (c : Chance) : Tree × Res State :=
  match readTorrent sha1 utf8 m with
  | .ok t =>
    if m.gateway then
      match TableFile.newTable c.nodeId m.tableFile with
      | .ok table =>
        let u := setupOf t table c
        let started := startManager m.allowed c.order t.info (.new u.infoHash) m.tree
        (started.1, .ok { peers := .new u.infoHash, swarm := started.2, dht := startDht u m.udpFree, lookup := none
                          trackers := u.urls.map (startTracker w u), down := startDown u.urls.length })
      | _ => (m.tree, .panic)
    else (m.tree, .err)
  | _ => (m.tree, .panic)

end Nargun.Program
