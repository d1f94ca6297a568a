import Verif.Model.TorrentManager
import Verif.Model.Downloader
import Verif.Model.Receiver

/-! # Model of the torrent side as a whole: the torrent manager, the two tasks of every peer, the queues between them

`src/torrent_manager.rs`, `src/peers/connection/connection_handle.rs`, `connection_manager.rs` and `downloader.rs` running
together: the manager (`Verif.Model.TorrentManager`), for every peer it has connected to a task for the TCP connection and
a task for the downloads (`Verif.Model.Downloader`), the structure of pending pieces that all downloaders and the manager
share behind a lock, and the bounded queues. A task that puts something into a full queue waits; a task that waits for
something from an empty queue is woken up with nothing when nobody is left who could put something in. A panic ends the
task it happens in, drops its ends of the queues, and poisons the lock if it is held.

Left out: time (a task may take arbitrarily long for a step, so the pauses of `downloader.rs:121` need no model), the
choke lock (nothing is ever sent over it, `Verif.Model.Connection`), and the shutdown channels of the peers: nobody sends
on them, because `disconnect` is never called, and a receiver holds a sender of its own channel (`shutdown.rs:40-45`), so it
is not woken up when the manager drops the other one. -/

namespace Nargun.Swarm

open Nargun

/-- `connection_handle.rs:17` `MESSAGE_CHANNEL_BUFFER`, the capacity of all queues of a connection. -/
def MESSAGE_CHANNEL_BUFFER : Nat := 2 ^ 5

/-- `main.rs:68`: the capacity of the queue for nodes that peers announce. -/
def DHT_CAP : Nat := 2 ^ 5

/-- What the model is parameterised by: the build, SHA-1, and for every peer the owner set in the clone of
`PendingPieces` its downloader works with (`connection_handle.rs:143`). -/
structure Cfg where
  p : Profile
  hash : Bytes → ID
  owner : Peer → Option Peer

/-- The program as it is: nobody calls `set_owner_peer` (`pending_pieces.rs:71-73`). -/
def Cfg.AsWritten (c : Cfg) : Prop := ∀ q, c.owner q = none

/-- Where the task of a connection is, `connection_manager.rs:49-143`. Sending (lines 79-95) goes on in all states from
`reading` to `handing`. -/
inductive ConPc where
  /-- line 59 -/
  | handshake
  /-- lines 61-66: the peer is to be reported as unreachable -/
  | unreachable
  /-- line 109 -/
  | reading
  /-- line 117 -/
  | parsing
  /-- line 137: a message is to be handed over -/
  | handing (m : Message)
  /-- the task has returned or panicked -/
  | ended
  deriving DecidableEq

/-- The two tasks of a peer, `connection_handle.rs:107-147`, with their queues: `commands` from the manager to the
downloader, `blocks` from the connection to the downloader, `sends` to the connection. `report` is a finished piece that
the downloader has yet to put into the queue of the manager (`downloader.rs:167-172`). -/
structure Link where
  con : ConPc
  recv : RecvState
  dl : Dl.State
  dlAlive : Bool
  report : Option (Nat × List Bytes)
  commands : List (ID × Nat)
  blocks : List Piece
  sends : List Message

/-- A peer whose tasks have just been spawned. -/
def Link.fresh : Link := ⟨.handshake, .init, Dl.init, true, none, [], [], []⟩

/-- The TCP connection is established and its task running. -/
def Link.Up (l : Link) : Prop := l.con = .reading ∨ l.con = .parsing ∨ ∃ m, l.con = .handing m

/-- The task of the connection ends; its ends of the queues are dropped. -/
def Link.conEnds (l : Link) : Link := { l with con := .ended, sends := [] }

/-- The downloader ends; its ends of the queues are dropped. -/
def Link.dlEnds (l : Link) : Link := { l with dlAlive := false, report := none, commands := [], blocks := [] }

/-- Where the manager is, `torrent_manager.rs:112-184`: at its `select!` or, if `tm.slots > 0`, about to choose a piece
(`loop`); waiting for room in a queue of commands (`connection_handle.rs:181-184`); about to put the piece in progress
(`connection_handle.rs:186`); or ended by a panic. -/
inductive ManPc where
  | loop
  | sending (peer : Peer) (idx : Nat) (hash : ID)
  | adding (peer : Peer) (idx : Nat) (hash : ID)
  | dead
  deriving DecidableEq

/-- All tasks and queues. `links` matters for the peers that have been connected to. `pend` is what the lock protects.
`inbox` is the queue of the manager (`rec`), `dht` the queue to the DHT; `dhtOpen` tells whether its other end exists. -/
structure State where
  tm : TM
  man : ManPc
  links : Peer → Link
  pend : PendingPieces
  poisoned : Bool
  inbox : List (Peer × ConMessageType)
  dht : List SockAddr
  dhtOpen : Bool

/-- `torrent_manager.rs:83-113`, `connection_handle.rs:88-105`: the state when the manager enters its loop. -/
def State.start (pieces : List ID) (pieceLength : Nat) (peers : Peers) : Res State := do
  let tm ← TM.init pieces peers
  let pend ← PendingPieces.new pieceLength
  .ok { tm, man := .loop, links := fun _ => .fresh, pend, poisoned := false, inbox := [], dht := [], dhtOpen := true }

/-- The tasks of this peer have been spawned. -/
def State.Spawned (s : State) (q : Peer) : Prop := q ∈ s.tm.connection.spawned

/-- Replace the tasks of one peer. -/
def State.setLink (s : State) (q : Peer) (l : Link) : State :=
  { s with links := fun k => if k = q then l else s.links k }

/-- The manager panics. -/
def State.manDies (s : State) : State := { s with man := .dead, inbox := [] }

/-- `downloader.rs:138-153`, `pending_pieces.rs:97-102`: does the downloader take the lock for this block? -/
def reachesLock (d : Dl.State) (pend : PendingPieces) (b : Piece) : Bool :=
  decide (b.begin_.toNat % BLOCK_SIZE = 0) && (d.currentPieces.get? b.index.toNat).isSome &&
    d.currentBlocks.any (fun a => a.blockIdx = b.begin_.toNat / BLOCK_SIZE) &&
    decide (pend.checkBlockBounds (b.begin_.toNat / BLOCK_SIZE) b.block = .ok ())

/-- What a downloader that panics in `foo` leaves behind: the structure and whether the lock is poisoned. The `todo!()`
of `downloader.rs:154` comes after the lock is released, the panics in `add_block_data` before. -/
def leftBehind (p : Profile) (pend : PendingPieces) (b : Piece) : PendingPieces × Bool :=
  match pend.addBlockData p b.index.toNat (b.begin_.toNat / BLOCK_SIZE) b.block with
  | .ok r => (r.1, false)
  | _ => (pend, true)

/-- `connection_handle.rs:186`: `add_piece`, result dropped. -/
def addPieceAnyway (pend : PendingPieces) (idx : Nat) : PendingPieces :=
  match pend.addPiece idx with
  | .ok p => p
  | _ => pend

/-- `downloader.rs:166-172`: a finished piece is to be reported. -/
def reportOf : Dl.BlockOut → Option (Nat × List Bytes)
  | .finished idx blocks => some (idx, blocks)
  | _ => none

/-- What happens in a step. -/
inductive Event where
  /-- a step of the manager, or of another task on the shared table of peers -/
  | man (e : TM.Event)
  /-- the manager chooses a piece and turns to the downloader of a peer -/
  | choose (peer : Peer) (idx : Nat) (hash : ID)
  /-- the command to download a piece is put into the queue of the downloader -/
  | command (peer : Peer) (idx : Nat) (hash : ID)
  /-- the manager panics -/
  | manDies
  /-- the handshake with the peer ends -/
  | shake (peer : Peer) (ok : Bool)
  /-- the report that the peer is unreachable is put into the queue of the manager, or nobody is there to get it -/
  | unreachable (peer : Peer)
  /-- bytes are read from the connection -/
  | read (peer : Peer) (chunk : Bytes)
  /-- reading from the connection fails -/
  | readFails (peer : Peer)
  /-- a message is recognised in the bytes read -/
  | parsed (peer : Peer) (m : Message)
  /-- there is no further message in the bytes read -/
  | parsedAll (peer : Peer)
  /-- the message is handed over to the task it is meant for, or that task is gone -/
  | handed (peer : Peer) (m : Message)
  /-- the task of the connection panics -/
  | conDies (peer : Peer)
  /-- nobody is left who could send on the connection -/
  | conLeaves (peer : Peer)
  /-- a message is written to the connection -/
  | wrote (peer : Peer) (m : Message)
  /-- a step of the downloader of the peer -/
  | dl (peer : Peer) (e : Dl.Event)
  /-- a finished piece is reported to the manager, or nobody is there to get it -/
  | reported (peer : Peer) (idx : Nat) (blocks : List Bytes)
  /-- the downloader panics -/
  | dlDies (peer : Peer)
  /-- the DHT takes a node announced by a peer -/
  | dhtTakes (a : SockAddr)
  /-- the DHT drops its end of the queue -/
  | dhtEnds
  /-- the map of pending pieces is iterated in another order -/
  | reorder
  deriving DecidableEq

/-- One step of one task. -/
inductive Step (c : Cfg) : State → Event → State → Prop
  /-- another task uses the table of peers -/
  | shared {s o tm'} : TM.Step c.p s.tm (.peers o) tm' → Step c s (.man (.peers o)) { s with tm := tm' }
  /-- the map of active peers is iterated in another order -/
  | reorder {s tm'} : s.man = .loop → TM.Step c.p s.tm .reorder tm' → Step c s (.man .reorder) { s with tm := tm' }
  /-- `torrent_manager.rs:123-124` -/
  | tick {s batch tm'} : s.man = .loop → TM.Step c.p s.tm (.tick batch) tm' →
      Step c s (.man (.tick batch)) { s with tm := tm' }
  /-- `torrent_manager.rs:155-157` -/
  | nothing {s tm'} : s.man = .loop → TM.Step c.p s.tm .nothing tm' → Step c s (.man .nothing) { s with tm := tm' }
  /-- `torrent_manager.rs:154-159`, `connection_handle.rs:178-181` -/
  | choose {s k q i h} : s.man = .loop → s.tm.slots = k + 1 → s.tm.selectPiece = .ok (some (q, i, h)) →
      q ∈ s.tm.connection.peers → Step c s (.choose q i h) { s with man := .sending q i h }
  /-- `connection_handle.rs:179`: the peer is not in the table of connections -/
  | refused {s q i h tm'} : s.man = .loop → q ∉ s.tm.connection.peers → TM.Step c.p s.tm (.start q i h false) tm' →
      Step c s (.man (.start q i h false)) { s with tm := tm' }
  /-- `connection_handle.rs:181-184` -/
  | put {s q i h} : s.man = .sending q i h → (s.links q).dlAlive = true →
      (s.links q).commands.length < MESSAGE_CHANNEL_BUFFER →
      Step c s (.command q i h)
        { s.setLink q { s.links q with commands := (s.links q).commands ++ [(h, i)] } with man := .adding q i h }
  /-- `connection_handle.rs:184`: the downloader is gone -/
  | putFails {s k q i h tm'} : s.man = .sending q i h → (s.links q).dlAlive = false → s.tm.slots = k + 1 →
      s.tm.startDownloadingPiece i q .err = .ok (tm', false) →
      Step c s (.man (.start q i h false)) { s with tm := { tm' with slots := k }, man := .loop }
  /-- `connection_handle.rs:186`, `torrent_manager.rs:176-184` -/
  | add {s k q i h tm'} : s.man = .adding q i h → s.poisoned = false → s.tm.slots = k + 1 →
      s.tm.startDownloadingPiece i q (.ok ()) = .ok (tm', true) →
      Step c s (.man (.start q i h true))
        { s with tm := { tm' with slots := k }, man := .loop, pend := addPieceAnyway s.pend i }
  /-- `pending_pieces.rs:76`: the lock is poisoned -/
  | addPoisoned {s q i h} : s.man = .adding q i h → s.poisoned = true → Step c s .manDies s.manDies
  /-- `torrent_manager.rs:176-184` panics -/
  | addPanics {s q i h} : s.man = .adding q i h → s.poisoned = false →
      s.tm.startDownloadingPiece i q (.ok ()) = .panic → Step c s .manDies s.manDies
  /-- `torrent_manager.rs:122` -/
  | msg {s q m rest tm'} : s.man = .loop → s.inbox = (q, m) :: rest → TM.Step c.p s.tm (.msg q m) tm' →
      Step c s (.man (.msg q m)) { s with tm := tm', inbox := rest }
  /-- `torrent_manager.rs:122` panics -/
  | msgPanics {s q m rest} : s.man = .loop → s.tm.slots = 0 → s.inbox = (q, m) :: rest →
      s.tm.handleCommand c.p q m = .panic → Step c s .manDies s.manDies
  /-- `torrent_manager.rs:123-124` panics -/
  | tickPanics {s} : s.man = .loop → s.tm.slots = 0 → s.tm.beginTick c.p = .panic → Step c s .manDies s.manDies
  /-- `torrent_manager.rs:154` panics -/
  | choosePanics {s k} : s.man = .loop → s.tm.slots = k + 1 → s.tm.selectPiece = .panic → Step c s .manDies s.manDies
  /-- `connection_manager.rs:59`: the outcome of the handshake (`Verif.Model.Handshake`) -/
  | shakeOk {s q} : s.Spawned q → (s.links q).con = .handshake →
      Step c s (.shake q true) (s.setLink q { s.links q with con := .reading })
  /-- `connection_manager.rs:59` -/
  | shakeFails {s q} : s.Spawned q → (s.links q).con = .handshake →
      Step c s (.shake q false) (s.setLink q { s.links q with con := .unreachable })
  /-- `connection_manager.rs:61-67` -/
  | unreachable {s q} : s.Spawned q → (s.links q).con = .unreachable → s.man ≠ .dead →
      s.inbox.length < MESSAGE_CHANNEL_BUFFER →
      Step c s (.unreachable q)
        { s.setLink q (s.links q).conEnds with inbox := s.inbox ++ [(q, .unreachable)] }
  /-- `connection_manager.rs:61-67`: the manager is gone -/
  | unreachableLost {s q} : s.Spawned q → (s.links q).con = .unreachable → s.man = .dead →
      Step c s (.unreachable q) (s.setLink q (s.links q).conEnds)
  /-- `connection_manager.rs:109-110` -/
  | read {s q chunk r} : s.Spawned q → (s.links q).con = .reading → chunk.length ≤ (s.links q).recv.capacity →
      (s.links q).recv.onRead chunk = .ok r →
      Step c s (.read q chunk) (s.setLink q { s.links q with con := .parsing, recv := r })
  /-- `connection_manager.rs:111-114` -/
  | readFails {s q} : s.Spawned q → (s.links q).con = .reading →
      Step c s (.readFails q) (s.setLink q (s.links q).conEnds)
  /-- `connection_manager.rs:117-135`: one message -/
  | parsed {s q m r} : s.Spawned q → (s.links q).con = .parsing → (s.links q).recv.drain 1 = .ok (r, [m]) →
      Step c s (.parsed q m) (s.setLink q { s.links q with con := .handing m, recv := r })
  /-- `connection_manager.rs:117-125,138-140`: the loop is left -/
  | parsedAll {s q r} : s.Spawned q → (s.links q).con = .parsing → (s.links q).recv.drain 1 = .ok (r, []) →
      Step c s (.parsedAll q) (s.setLink q { s.links q with con := .reading, recv := r })
  /-- `connection_manager.rs:117-135` panics -/
  | conDies {s q} : s.Spawned q → (s.links q).con = .parsing → (s.links q).recv.drain 1 = .panic →
      Step c s (.conDies q) (s.setLink q (s.links q).conEnds)
  /-- `connection_manager.rs:154`: a block goes to the downloader -/
  | handBlock {s q b} : s.Spawned q → (s.links q).con = .handing (.piece b) → (s.links q).dlAlive = true →
      (s.links q).blocks.length < MESSAGE_CHANNEL_BUFFER →
      Step c s (.handed q (.piece b))
        (s.setLink q { s.links q with con := .parsing, blocks := (s.links q).blocks ++ [b] })
  /-- `connection_manager.rs:154`: the downloader is gone -/
  | handBlockLost {s q b} : s.Spawned q → (s.links q).con = .handing (.piece b) → (s.links q).dlAlive = false →
      Step c s (.handed q (.piece b)) (s.setLink q { s.links q with con := .parsing })
  /-- `connection_manager.rs:156-159`: the port of the peer's DHT node goes to the DHT -/
  | handPort {s q port a} : s.Spawned q → (s.links q).con = .handing (.port port) → s.dhtOpen = true →
      handleMessage q (.port port) = [.toDht a] → s.dht.length < DHT_CAP →
      Step c s (.handed q (.port port))
        { s.setLink q { s.links q with con := .parsing } with dht := s.dht ++ [a] }
  /-- `connection_manager.rs:159`: the DHT is gone -/
  | handPortLost {s q port} : s.Spawned q → (s.links q).con = .handing (.port port) → s.dhtOpen = false →
      Step c s (.handed q (.port port)) (s.setLink q { s.links q with con := .parsing })
  /-- `connection_manager.rs:160-171`: any other message goes to the manager -/
  | handOther {s q m t} : s.Spawned q → (s.links q).con = .handing m → handleMessage q m = [.toPeers q t] →
      s.man ≠ .dead → s.inbox.length < MESSAGE_CHANNEL_BUFFER →
      Step c s (.handed q m)
        { s.setLink q { s.links q with con := .parsing } with inbox := s.inbox ++ [(q, t)] }
  /-- `connection_manager.rs:170`: the manager is gone -/
  | handOtherLost {s q m t} : s.Spawned q → (s.links q).con = .handing m → handleMessage q m = [.toPeers q t] →
      s.man = .dead → Step c s (.handed q m) (s.setLink q { s.links q with con := .parsing })
  /-- `connection_manager.rs:84,91` -/
  | wrote {s q m rest} : s.Spawned q → (s.links q).Up → (s.links q).sends = m :: rest →
      Step c s (.wrote q m) (s.setLink q { s.links q with sends := rest })
  /-- `connection_manager.rs:84-87`, `:73`: all senders of the queue are gone -/
  | conLeaves {s q} : s.Spawned q → (s.links q).Up → (s.links q).sends = [] → (s.links q).dlAlive = false →
      s.man = .dead → Step c s (.conLeaves q) (s.setLink q (s.links q).conEnds)
  /-- `downloader.rs:95-98`: a command is taken -/
  | dlStart {s q h i rest d' pend'} : s.Spawned q → (s.links q).dlAlive = true → (s.links q).report = none →
      (s.links q).commands = (h, i) :: rest →
      Dl.Step c.p c.hash (c.owner q) ((s.links q).dl, s.pend) (.start h i) (d', pend') →
      Step c s (.dl q (.start h i)) (s.setLink q { s.links q with dl := d', commands := rest })
  /-- `downloader.rs:92-94`: a block is taken -/
  | dlBlock {s q b out rest d' pend'} : s.Spawned q → (s.links q).dlAlive = true → (s.links q).report = none →
      (s.links q).blocks = b :: rest → (s.poisoned = false ∨ reachesLock (s.links q).dl s.pend b = false) →
      Dl.Step c.p c.hash (c.owner q) ((s.links q).dl, s.pend) (.block b out) (d', pend') →
      Step c s (.dl q (.block b out))
        { s.setLink q { s.links q with dl := d', blocks := rest, report := reportOf out } with pend := pend' }
  /-- `downloader.rs:162` -/
  | dlReadd {s q i d' pend'} : s.Spawned q → (s.links q).dlAlive = true → (s.links q).report = none →
      s.poisoned = false → Dl.Step c.p c.hash (c.owner q) ((s.links q).dl, s.pend) (.readd i) (d', pend') →
      Step c s (.dl q (.readd i)) { s.setLink q { s.links q with dl := d' } with pend := pend' }
  /-- `downloader.rs:106-111` -/
  | dlTake {s q got d' pend'} : s.Spawned q → (s.links q).dlAlive = true → (s.links q).report = none →
      (s.poisoned = false ∨ (s.links q).dl.counter % (16 / 3) ≠ 0) →
      Dl.Step c.p c.hash (c.owner q) ((s.links q).dl, s.pend) (.take got) (d', pend') →
      Step c s (.dl q (.take got)) { s.setLink q { s.links q with dl := d' } with pend := pend' }
  /-- `downloader.rs:113-119`: a request is put into the queue of the connection -/
  | dlRequest {s q a r d' pend'} : s.Spawned q → (s.links q).dlAlive = true → (s.links q).report = none →
      (s.links q).con ≠ .ended → (s.links q).sends.length < MESSAGE_CHANNEL_BUFFER →
      Dl.Step c.p c.hash (c.owner q) ((s.links q).dl, s.pend) (.request a r) (d', pend') →
      Step c s (.dl q (.request a r))
        (s.setLink q { s.links q with dl := d', sends := (s.links q).sends ++ [.request r] })
  /-- `downloader.rs:117-119`: the connection is gone -/
  | dlRequestLost {s q a r d' pend'} : s.Spawned q → (s.links q).dlAlive = true → (s.links q).report = none →
      (s.links q).con = .ended → Dl.Step c.p c.hash (c.owner q) ((s.links q).dl, s.pend) (.request a r) (d', pend') →
      Step c s (.dl q (.request a r)) (s.setLink q { s.links q with dl := d' })
  /-- `downloader.rs:126` -/
  | dlLoop {s q d' pend'} : s.Spawned q → (s.links q).dlAlive = true → (s.links q).report = none →
      Dl.Step c.p c.hash (c.owner q) ((s.links q).dl, s.pend) .loop (d', pend') →
      Step c s (.dl q .loop) (s.setLink q { s.links q with dl := d' })
  /-- `downloader.rs:167-172` -/
  | reported {s q i bs} : s.Spawned q → (s.links q).dlAlive = true → (s.links q).report = some (i, bs) →
      s.man ≠ .dead → s.inbox.length < MESSAGE_CHANNEL_BUFFER →
      Step c s (.reported q i bs)
        { s.setLink q { s.links q with report := none } with inbox := s.inbox ++ [(q, .finishedPiece i bs)] }
  /-- `downloader.rs:167-172`: the manager is gone -/
  | reportedLost {s q i bs} : s.Spawned q → (s.links q).dlAlive = true → (s.links q).report = some (i, bs) →
      s.man = .dead → Step c s (.reported q i bs) (s.setLink q { s.links q with report := none })
  /-- `pending_pieces.rs:102`: the lock is poisoned -/
  | blockPoisoned {s q b rest} : s.Spawned q → (s.links q).dlAlive = true → (s.links q).report = none →
      (s.links q).dl.pc = .select → (s.links q).blocks = b :: rest → s.poisoned = true →
      reachesLock (s.links q).dl s.pend b = true → Step c s (.dlDies q) (s.setLink q (s.links q).dlEnds)
  /-- `downloader.rs:92-94` panics -/
  | blockPanics {s q b rest} : s.Spawned q → (s.links q).dlAlive = true → (s.links q).report = none →
      (s.links q).dl.pc = .select → (s.links q).blocks = b :: rest → s.poisoned = false →
      Dl.foo c.p c.hash (s.links q).dl s.pend b = .panic →
      Step c s (.dlDies q)
        { s.setLink q (s.links q).dlEnds with
          pend := (leftBehind c.p s.pend b).1, poisoned := (leftBehind c.p s.pend b).2 }
  /-- `pending_pieces.rs:76`: the lock is poisoned -/
  | readdPoisoned {s q i} : s.Spawned q → (s.links q).dlAlive = true → (s.links q).report = none →
      (s.links q).dl.pc = .readd i → s.poisoned = true → Step c s (.dlDies q) (s.setLink q (s.links q).dlEnds)
  /-- `pending_pieces.rs:149`: the lock is poisoned -/
  | takePoisoned {s q} : s.Spawned q → (s.links q).dlAlive = true → (s.links q).report = none →
      (s.links q).dl.pc = .take → (s.links q).dl.counter % (16 / 3) = 0 → s.poisoned = true →
      Step c s (.dlDies q) (s.setLink q (s.links q).dlEnds)
  /-- `pending_pieces.rs:158` panics; the lock is held -/
  | takePanics {s q now cap} : s.Spawned q → (s.links q).dlAlive = true → (s.links q).report = none →
      (s.links q).dl.pc = .take → s.poisoned = false →
      Dl.take (s.links q).dl s.pend (c.owner q) now cap = .panic →
      Step c s (.dlDies q) { s.setLink q (s.links q).dlEnds with poisoned := true }
  /-- `downloader.rs:93`: the connection is gone and `unwrap` panics -/
  | noBlocks {s q} : s.Spawned q → (s.links q).dlAlive = true → (s.links q).report = none →
      (s.links q).dl.pc = .select → (s.links q).blocks = [] → (s.links q).con = .ended →
      Step c s (.dlDies q) (s.setLink q (s.links q).dlEnds)
  /-- `downloader.rs:101`: the manager is gone, `todo!()` -/
  | noCommands {s q} : s.Spawned q → (s.links q).dlAlive = true → (s.links q).report = none →
      (s.links q).dl.pc = .select → (s.links q).commands = [] → s.man = .dead →
      Step c s (.dlDies q) (s.setLink q (s.links q).dlEnds)
  /-- `dht_manager.rs:58`: the DHT takes a node -/
  | dhtTakes {s a rest} : s.dht = a :: rest → s.dhtOpen = true → Step c s (.dhtTakes a) { s with dht := rest }
  /-- the task that owns the routing table ends -/
  | dhtEnds {s} : s.dhtOpen = true → Step c s .dhtEnds { s with dhtOpen := false, dht := [] }
  /-- the map of pending pieces is iterated in another order -/
  | pendReorder {s m} : s.pend.data.Perm m → Step c s .reorder { s with pend := { s.pend with data := m } }

/-- A history, the oldest event first. -/
inductive Run (c : Cfg) : State → List Event → State → Prop
  | nil {s} : Run c s [] s
  | snoc {s s1 s2 es e} : Run c s es s1 → Step c s1 e s2 → Run c s (es ++ [e]) s2

end Nargun.Swarm
