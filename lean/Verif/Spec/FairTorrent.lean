import Verif.Spec.Fair

/-! # Specification: fairness of the tasks on the torrent side

In addition to what `Verif.Spec.Fair` asks for: no connection, no downloader and not the torrent manager is passed over for
ever either, and the table task takes the nodes that peers tell of. What the other side of a connection does, and when it
does it, is left open. -/

namespace Nargun.Spec

open Nargun Program

/-- The connection to `q` looks for the next message in the bytes read. -/
def ConnectionParses (q : Peer) : Program.Event → Prop
  | .torrent (.parsed k _) => k = q
  | .torrent (.parsedAll k) => k = q
  | .torrent (.conDies k) => k = q
  | _ => False

/-- The connection to `q` hands over the message it has in hand. -/
def ConnectionHands (q : Peer) : Program.Event → Prop
  | .torrent (.handed k _) => k = q
  | _ => False

/-- The downloader of `q` takes a command from its queue. -/
def DownloaderTakesCommand (q : Peer) : Program.Event → Prop
  | .torrent (.dl k (.start _ _)) => k = q
  | _ => False

/-- The downloader of `q` takes a block from its queue, or panics. -/
def DownloaderTakesBlock (q : Peer) : Program.Event → Prop
  | .torrent (.dl k (.block _ _)) => k = q
  | .torrent (.dlDies k) => k = q
  | _ => False

/-- The downloader of `q` goes on with the turn it is in: it puts a piece back, reports a finished piece, obtains blocks,
requests blocks, comes to the end of the turn, or panics. -/
def DownloaderWorks (q : Peer) : Program.Event → Prop
  | .torrent (.dl k (.readd _)) => k = q
  | .torrent (.dl k (.take _)) => k = q
  | .torrent (.dl k (.request _ _)) => k = q
  | .torrent (.dl k .loop) => k = q
  | .torrent (.reported k _ _) => k = q
  | .torrent (.dlDies k) => k = q
  | _ => False

/-- The manager takes a message from its queue, or panics. -/
def ManagerHears : Program.Event → Prop
  | .torrent (.man (.msg _ _)) => True
  | .torrent .manDies => True
  | _ => False

/-- The manager goes on with the turn it is in: it chooses a piece or finds none, puts the command into the queue of a
downloader, puts the piece in progress, or panics. -/
def ManagerWorks : Program.Event → Prop
  | .torrent (.choose _ _ _) => True
  | .torrent (.command _ _ _) => True
  | .torrent (.man (.start _ _ _ _)) => True
  | .torrent (.man .nothing) => True
  | .torrent .manDies => True
  | _ => False

/-- The timer of the manager fires: it looks for further peers. -/
def ManagerTicks : Program.Event → Prop
  | .torrent (.man (.tick _)) => True
  | _ => False

/-- The table task takes a node that a peer told of. -/
def TableTakesNode : Program.Event → Prop
  | .node _ _ => True
  | _ => False

/-- No task of the program is passed over for ever. -/
structure FairTorrent (w : World) (σ : Nat → Program.State) (ev : Nat → Option Program.Event) : Prop
    extends FairDht w σ ev where
  connectionParses : ∀ q, FairTo w σ ev (ConnectionParses q)
  connectionHands : ∀ q, FairTo w σ ev (ConnectionHands q)
  downloaderTakesCommand : ∀ q, FairTo w σ ev (DownloaderTakesCommand q)
  downloaderTakesBlock : ∀ q, FairTo w σ ev (DownloaderTakesBlock q)
  downloaderWorks : ∀ q, FairTo w σ ev (DownloaderWorks q)
  managerHears : FairTo w σ ev ManagerHears
  managerWorks : FairTo w σ ev ManagerWorks
  tableTakesNode : FairTo w σ ev TableTakesNode

end Nargun.Spec
