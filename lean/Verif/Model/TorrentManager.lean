import Verif.Model.Bitmap
import Verif.Model.Connection
import Verif.Model.Handshake

/-! # Model of `src/torrent_manager.rs`

The task's state and its two reactions (`manage`, lines 120-128): a message from a connection, and the tick of
the timer. A tick consists of a part without waiting (the list of peers) and a loop that waits for the downloaders; each
iteration of the loop is a step of its own, so that other tasks can come in between. The file system handle is never used
and is left out; `metainfo` is reduced to the piece hashes. -/

namespace Nargun

/-- Addition of two `u16` under the build profile. -/
def u16Add (p : Profile) (a b : Nat) : Res Nat :=
  if a + b < 65536 then .ok (a + b) else match p with
    | .debug => .panic
    | .release => .ok ((a + b) % 65536)

/-- Subtraction of two `u16` under the build profile. -/
def u16Sub (p : Profile) (a b : Nat) : Res Nat :=
  if b ≤ a then .ok (a - b) else match p with
    | .debug => .panic
    | .release => .ok ((65536 + a - b) % 65536)

/-- `torrent_manager.rs:19-22`. -/
notation "MAX_ACTIVE_PEERS" => (10 : Nat)
/-- `torrent_manager.rs:20`. -/
notation "MAX_ACTIVE_PIECES" => (9 : Nat)
/-- `torrent_manager.rs:21`. -/
notation "MAX_PIECE_PER_PEER" => (4 : Nat)
/-- `torrent_manager.rs:22`. -/
notation "MAX_PEER_PER_PIECE" => (3 : Nat)

/-- `torrent_manager.rs:64-69` `struct PeerInfo`. -/
structure PeerInfo where
  choking : Bool
  interested : Bool
  haves : Bitmap
  working : Bitmap
  deriving DecidableEq

/-- `torrent_manager.rs:72-79` `PeerInfo::new`. -/
def PeerInfo.new (pieceCount : Nat) : Res PeerInfo := do
  let b ← Bitmap.new pieceCount
  .ok ⟨true, false, b, b⟩

/-- `torrent_manager.rs:50-62` `struct TorrentManager` (without `fs` and `own_peer_id`; `pieces` is
`metainfo.info.pieces`), with `slots`, the number of iterations the loop of lines 153-160 has still to make (0: the task is
at its `select!`). -/
structure TM where
  pieces : List ID
  connection : Connection
  activePeers : Map Peer PeerInfo
  inactivePeers : List (Peer × Status)
  peers : Peers
  localData : Bitmap
  activePieces : Bitmap
  frequencyMap : List Nat
  assignedPeerCount : List Nat
  slots : Nat
  deriving DecidableEq

namespace TM

/-- `torrent_manager.rs:92-109`. -/
def init (pieces : List ID) (peers : Peers) : Res TM := do
  let b ← Bitmap.new pieces.length
  .ok { pieces, connection := .new, activePeers := [], inactivePeers := [], peers, localData := b, activePieces := b,
        frequencyMap := List.replicate pieces.length 0, assignedPeerCount := List.replicate pieces.length 0,
        slots := 0 }

/-- `torrent_manager.rs:144-149`: the loop over the new peers. -/
def addPeers : List Peer → TM → Res TM
  | [], s => .ok s
  | peer :: ps, s => do
    let info ← PeerInfo.new s.localData.len
    addPeers ps { s with connection := s.connection.connect peer, activePeers := s.activePeers.insert peer info }

/-- `torrent_manager.rs:131-150` `refresh_peer_list`; the second result is the batch of new peers. -/
def refreshPeerList (p : Profile) (s : TM) : Res (TM × List Peer) := do
  let free ← usizeSub p MAX_ACTIVE_PEERS s.activePeers.length
  if free = 0 then .ok (s, [])
  else do
    let r := s.peers.returnBatch s.inactivePeers free
    let s' ← addPeers r.2 { s with peers := r.1, inactivePeers := [] }
    .ok (s', r.2)

/-- `torrent_manager.rs:199-213` `iter_over_remaining_downloadable_pieces`, given the items of
`local_data.iter()`. -/
def remaining (s : TM) (bits : List Bool) : List (Nat × Nat × Nat) :=
  (((bits.zipIdx.zip s.frequencyMap).zip s.assignedPeerCount).filter
    (fun x => !x.1.1.1 && decide (x.1.2 > 0))).map (fun x => (x.1.1.2, x.1.2, x.2))

/-- `torrent_manager.rs:225-227`: `iter_clone.find(..)`. -/
def findAssigned (s : TM) (peersPerPiece : Nat) : List (Nat × Nat × Nat) → Res (Option Nat)
  | [] => .ok none
  | x :: xs => do
    let c ← index s.assignedPeerCount x.1
    if c = peersPerPiece then .ok (some x.1) else findAssigned s peersPerPiece xs

/-- `torrent_manager.rs:246-254` `find_peer_with_piece`, on the entries in iteration order. -/
def findPeer (pieceIdx piecesPerPeer : Nat) : Map Peer PeerInfo → Res (Option Peer)
  | [] => .ok none
  | (peer, info) :: m =>
    if info.choking then findPeer pieceIdx piecesPerPeer m
    else do
      let h ← info.haves.get pieceIdx
      if h ∧ info.working.weight = piecesPerPeer then .ok (some peer) else findPeer pieceIdx piecesPerPeer m

/-- `torrent_manager.rs:224-243`: the loop; `k` is `iteration_count`, `fuel` the iterations left before it is
`MAX_PEER_PER_PIECE * MAX_PIECE_PER_PEER`. -/
def selectLoop (s : TM) (it : List (Nat × Nat × Nat)) : Nat → Nat → Res (Option (Peer × Nat))
  | 0, _ => .ok none
  | fuel + 1, k => do
    let x ← findAssigned s (k / MAX_PIECE_PER_PEER) it
    match x with
    | none => selectLoop s it fuel (k + 1)
    | some idx => do
      let r ← findPeer idx (k % MAX_PIECE_PER_PEER) s.activePeers
      match r with
      | some peer => .ok (some (peer, idx))
      | none => selectLoop s it fuel (k + 1)

/-- `torrent_manager.rs:215-244` `sequential_select_piece`. -/
def sequentialSelectPiece (s : TM) : Res (Option (Peer × Nat)) := do
  let bits ← s.localData.toBools
  selectLoop s (s.remaining bits) (MAX_PEER_PER_PIECE * MAX_PIECE_PER_PEER) 0

/-- `torrent_manager.rs:186-194` `select_piece`. -/
def selectPiece (s : TM) : Res (Option (Peer × Nat × ID)) := do
  let r ← s.sequentialSelectPiece
  match r with
  | none => .ok none
  | some (peer, idx) => do
    let h ← Res.unwrap s.pieces[idx]?
    .ok (some (peer, idx, h))

/-- `torrent_manager.rs:176-184` `mark_piece_as_ongoing`. -/
def markPieceAsOngoing (s : TM) (peer : Peer) (idx : Nat) : Res TM := do
  let info0 ← PeerInfo.new s.activePieces.len
  let info := (s.activePeers.get? peer).getD info0
  let (ap, _) ← s.activePieces.change idx true
  let (w, _) ← info.working.change idx true
  .ok { s with activePieces := ap, activePeers := s.activePeers.insert peer { info with working := w } }

/-- `torrent_manager.rs:163-174` `start_downloading_piece`. -/
def startDownloadingPiece (s : TM) (idx : Nat) (peer : Peer) (sent : Res Unit) : Res (TM × Bool) :=
  match s.connection.downloadPiece peer sent with
  | .ok () => do
    let s' ← s.markPieceAsOngoing peer idx
    .ok (s', true)
  | .err => .ok (s, false)
  | .panic => .panic

/-- `torrent_manager.rs:123-126` and `:153`: a timer tick, up to the first iteration of the loop. -/
def beginTick (p : Profile) (s : TM) : Res (TM × List Peer) := do
  let (s1, batch) ← s.refreshPeerList p
  let n ← usizeSub p MAX_ACTIVE_PIECES s1.activePieces.weight
  .ok ({ s1 with slots := n }, batch)

/-- `torrent_manager.rs:332-336`: every piece of the bitfield is counted. -/
def addBits (p : Profile) : List Nat → List Bool → Res (List Nat)
  | fs, [] => .ok fs
  | [], true :: _ => .panic
  | [], false :: bs => addBits p [] bs
  | f :: fs, b :: bs => do
    let f' ← (if b then u16Add p f 1 else .ok f : Res Nat)
    let rest ← addBits p fs bs
    .ok (f' :: rest)

/-- `torrent_manager.rs:306-310`: every piece of the peer is uncounted. -/
def subBits (p : Profile) : List Nat → List Bool → Res (List Nat)
  | fs, [] => .ok fs
  | [], _ => .ok []
  | f :: fs, b :: bs => do
    let f' ← (if b then u16Sub p f 1 else .ok f : Res Nat)
    let rest ← subBits p fs bs
    .ok (f' :: rest)

/-- `torrent_manager.rs:302-312` `mark_peer_as_inactive`. -/
def markPeerAsInactive (p : Profile) (s : TM) (peer : Peer) (st : Status) : Res TM :=
  match s.activePeers.get? peer with
  | none => .ok s
  | some info => do
    let bits ← info.haves.toBools
    let f ← subBits p s.frequencyMap bits
    .ok { s with activePeers := s.activePeers.erase peer, inactivePeers := s.inactivePeers ++ [(peer, st)],
                 frequencyMap := f }

/-- `torrent_manager.rs:314-337` `accept_bitfield_if_its_first`. -/
def acceptBitfield (p : Profile) (s : TM) (newData : Bytes) (peer : Peer) : Res TM :=
  match s.activePeers.get? peer with
  | none => .ok s
  | some info =>
    if info.haves.weight > 0 then .ok s
    else
      match info.haves.replaceData newData with
      | .ok b => do
        let bits ← b.toBools
        let f ← addBits p s.frequencyMap bits
        .ok { s with activePeers := s.activePeers.modify peer (fun i => { i with haves := b }), frequencyMap := f }
      | .err => .ok s
      | .panic => .panic

/-- `torrent_manager.rs:285-292`: a `Have` message. -/
def handleHave (p : Profile) (s : TM) (peer : Peer) (i : Nat) : Res TM :=
  match s.activePeers.get? peer with
  | none => .ok s
  | some info => do
    let (h, old) ← info.haves.change i true
    let s1 := { s with activePeers := s.activePeers.modify peer (fun x => { x with haves := h }) }
    if old then .ok s1
    else do
      let f ← index s.frequencyMap i
      let f' ← u16Add p f 1
      .ok { s1 with frequencyMap := s.frequencyMap.set i f' }

/-- `torrent_manager.rs:256-300` `handle_command_tmp`; lines 296-298 are `todo!()`. -/
def handleCommand (p : Profile) (s : TM) (peer : Peer) : ConMessageType → Res TM
  | .unreachable => s.markPeerAsInactive p peer .unableToConnect
  | .disconnected => s.markPeerAsInactive p peer .unknown
  | .keepAlive => .ok s
  | .choke => .ok { s with activePeers := s.activePeers.modify peer (fun i => { i with choking := true }) }
  | .unchoke => .ok { s with activePeers := s.activePeers.modify peer (fun i => { i with choking := false }) }
  | .interested => .ok { s with activePeers := s.activePeers.modify peer (fun i => { i with interested := true }) }
  | .notInterested => .ok { s with activePeers := s.activePeers.modify peer (fun i => { i with interested := false }) }
  | .have_ i => s.handleHave p peer i.toNat
  | .bitfield b => s.acceptBitfield p b peer
  | .request _ => .panic
  | .finishedPiece _ _ => .panic
  | .cancel _ => .panic

/-- What happens to the manager, with what it did. -/
inductive Event where
  /-- another task uses the shared table of peers -/
  | peers (o : Peers.Op)
  /-- the map of active peers is iterated in another order -/
  | reorder
  /-- a timer tick begins; these peers are connected to -/
  | tick (batch : List Peer)
  /-- a piece is selected and its download asked for; `accepted` tells whether the command was handed over -/
  | start (peer : Peer) (idx : Nat) (hash : ID) (accepted : Bool)
  /-- there is nothing to select, the tick is over -/
  | nothing
  | msg (peer : Peer) (m : ConMessageType)
  deriving DecidableEq

/-- One step that does not panic. -/
inductive Step (p : Profile) : TM → Event → TM → Prop
  | peers {s o q} : Peers.Step s.peers o q → Step p s (.peers o) { s with peers := q }
  | reorder {s m} : s.activePeers.Perm m → Step p s .reorder { s with activePeers := m }
  /-- lines 123-124 -/
  | tick {s s' batch} : s.slots = 0 → s.beginTick p = .ok (s', batch) → Step p s (.tick batch) s'
  /-- lines 154-159, one iteration -/
  | start {s k peer idx hash sent s' acc} : s.slots = k + 1 → s.selectPiece = .ok (some (peer, idx, hash)) →
      s.startDownloadingPiece idx peer sent = .ok (s', acc) →
      Step p s (.start peer idx hash acc) { s' with slots := k }
  /-- lines 154-156: `break` -/
  | nothing {s k} : s.slots = k + 1 → s.selectPiece = .ok none → Step p s .nothing { s with slots := 0 }
  /-- line 122 -/
  | msg {s peer m s'} : s.slots = 0 → s.handleCommand p peer m = .ok s' → Step p s (.msg peer m) s'

/-- A history. -/
inductive Run (p : Profile) : TM → List Event → TM → Prop
  | nil {s} : Run p s [] s
  | snoc {s s1 s2 es e} : Run p s es s1 → Step p s1 e s2 → Run p s (es ++ [e]) s2

end TM

end Nargun
