import Verif.Model.Peers

/-! # Model of `src/peers/connection/connection_handle.rs`

The table of connections and the choke lock. The tasks spawned by `connect` are models of their own
(`Receiver`, `Downloader`); here only the fact that they are spawned is recorded. -/

namespace Nargun

/-- `connection_handle.rs:19-27` `struct Connection`: only the keys of `peers` matter for the operations below.
`spawned` is a ghost field: the peers for which tasks have been spawned, in order. -/
structure Connection where
  peers : List Peer
  spawned : List Peer
  deriving DecidableEq

namespace Connection

/-- `connection_handle.rs:88-105` `Connection::new`. -/
def new : Connection := ⟨[], []⟩

/-- `connection_handle.rs:107-147` `connect`: an occupied entry returns at once, otherwise the entry is made and
the two tasks of the connection are spawned. -/
def connect (c : Connection) (peer : Peer) : Connection :=
  if peer ∈ c.peers then c else ⟨c.peers ++ [peer], c.spawned ++ [peer]⟩

/-- `connection_handle.rs:149-155` `disconnect`. -/
def disconnect (c : Connection) (peer : Peer) : Connection :=
  { c with peers := c.peers.filter (· ≠ peer) }

/-- `connection_handle.rs:172-191` `download_piece`. `sent` is the outcome of line 183-186 for a peer in the
table: the command reaches the downloader and the piece is put in progress (`ok`), the downloader task is gone
(`err`), or the lock of the shared table is poisoned by a task that panicked (`panic`). -/
def downloadPiece (c : Connection) (peer : Peer) (sent : Res Unit) : Res Unit :=
  if peer ∈ c.peers then sent else .err

end Connection

/-! ## The choke lock -/

/-- `connection_handle.rs:42-45` `enum ChokingStatus`. -/
inductive ChokingStatus where
  | choke
  | unchoke
  deriving DecidableEq, Repr

/-- `connection_handle.rs:61-64` `UnchokeWaiter` with the contents of its channel, and the sending side
(`ChokeLocker`, lines 47-49). -/
structure ChokeLock where
  queue : List ChokingStatus
  choking : Bool
  deriving DecidableEq, Repr

namespace ChokeLock

/-- `connection_handle.rs:36-40` `choke_lock`. -/
def new : ChokeLock := ⟨[], true⟩

/-- `connection_handle.rs:51-59` `ChokeLocker::choke` and `unchoke`: `mpsc::Sender::send` is an `async fn`; its
future is dropped without being polled, so nothing is sent. -/
def report (l : ChokeLock) (_ : ChokingStatus) : ChokeLock := l

/-- What `choke`/`unchoke` would do if the message were sent (for the theorem about the waiting side). -/
def deliver (l : ChokeLock) (m : ChokingStatus) : ChokeLock := { l with queue := l.queue ++ [m] }

/-- `connection_handle.rs:68-82`: the messages in the queue are taken one by one (line 70 while choking, line 76
otherwise); the result is the final value of `choking`. -/
def drain : List ChokingStatus → Bool → Bool
  | [], choking => choking
  | .choke :: q, _ => drain q true
  | .unchoke :: q, _ => drain q false

/-- `connection_handle.rs:67-84` `wait_if_choking`, up to the point where it would have to wait for a message
that is not there. The second result is whether it has returned; if not, the task is suspended at line 70. The
sending side is not dropped while the connection is in the table (line 70 would panic). -/
def waitIfChoking (l : ChokeLock) : ChokeLock × Bool :=
  let c := drain l.queue l.choking
  (⟨[], c⟩, !c)

end ChokeLock

end Nargun
