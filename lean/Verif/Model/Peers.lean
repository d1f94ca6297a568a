import Verif.Model.Map
import Verif.Model.Addr
import Verif.Model.Id

/-! # Model of `src/peers/active_peers.rs`

The map behind `Arc<Mutex<..>>` is shared by all clones. The operations are total functions here; that none of them panics in a
build that checks arithmetic, and so poisons the lock, is shown for `Op.checked` (C150). -/

namespace Nargun

/-- `active_peers.rs:7` `ENOUGH_GOOD_PEERS`. -/
notation "ENOUGH_GOOD_PEERS" => (128 : Nat)

/-- `active_peers.rs:9-17` `enum Status`. -/
inductive Status where
  | active
  | unknown
  | unableToConnect
  | chokedForTooLong
  | noUsefulPieces
  deriving DecidableEq, Repr

/-- `active_peers.rs:19-23` `struct Peers`. -/
structure Peers where
  infoHash : ID
  data : Map Peer Status
  deriving DecidableEq

namespace Peers

/-- `active_peers.rs:26-31`. -/
def new (infoHash : ID) : Peers := ⟨infoHash, []⟩

/-- `active_peers.rs:33-35`. -/
def insert (s : Peers) (peer : Peer) : Peers := { s with data := s.data.insert peer .unknown }

/-- `active_peers.rs:38-40`. -/
def serve (s : Peers) (infoHash : ID) : Bool := infoHash = s.infoHash

/-- `active_peers.rs:42-44`. -/
def peerAddresses (s : Peers) : List Peer := s.data.keys

/-- `active_peers.rs:135-139` `extend`. -/
def extend (s : Peers) (ps : List Peer) : Peers :=
  { s with data := ps.foldl (fun m p => m.insert p .unknown) s.data }

/-- `active_peers.rs:112-124`: one pass over the map, which stops after `n` hits (`take` does not ask its inner
iterator for more, so only the yielded entries are changed). -/
def pass (st : Status) : Nat → Map Peer Status → Map Peer Status × List Peer
  | _, [] => ([], [])
  | 0, m => (m, [])
  | n + 1, (p, s) :: m =>
    if s = st then
      let r := pass st n m
      ((p, .active) :: r.1, p :: r.2)
    else
      let r := pass st (n + 1) m
      ((p, s) :: r.1, r.2)

/-- `active_peers.rs:103-128` `activate_peers_in_locked_data`; `acc` is `newly_activated_peers`. -/
def activate (limit : Nat) : List Status → List Peer → Map Peer Status → Map Peer Status × List Peer
  | [], acc, m => (m, acc)
  | st :: order, acc, m =>
    let r := pass st (limit - acc.length) m
    activate limit order (acc ++ r.2) r.1

/-- `active_peers.rs:54-59`. -/
def goodOrder : List Status := [.active, .noUsefulPieces, .unknown, .chokedForTooLong]

/-- `active_peers.rs:79-84`. -/
def batchOrder : List Status := [.unknown, .noUsefulPieces, .chokedForTooLong, .unableToConnect]

/-- `active_peers.rs:53-70` `get_good_peers`. -/
def getGoodPeers (s : Peers) (limit : Nat) : Peers × Option (List Peer) :=
  let r := activate limit goodOrder [] s.data
  ({ s with data := r.1 }, if r.2 = [] then none else some r.2)

/-- `active_peers.rs:46-51` `enough_peers`; `usize::MAX` is `2^64 - 1`. -/
def enoughPeers (s : Peers) : Peers × Bool :=
  let r := s.getGoodPeers (2 ^ 64 - 1)
  (r.1, decide ((r.2.map List.length).getD 0 ≥ ENOUGH_GOOD_PEERS))

/-- `active_peers.rs:93-101` `update_locked_data_with_bad_peers`. -/
def updateBad (m : Map Peer Status) (bad : List (Peer × Status)) : Map Peer Status :=
  bad.foldl (fun m e => m.insert e.1 e.2) m

/-- `active_peers.rs:74-91` `return_batch_of_bad_peers_and_get_new_batch`. -/
def returnBatch (s : Peers) (bad : List (Peer × Status)) (limit : Nat) : Peers × List Peer :=
  let r := activate limit batchOrder [] (updateBad s.data bad)
  ({ s with data := r.1 }, r.2)

/-- A call of a public operation. `reorder` is no call: a hash map may present its entries in another order. -/
inductive Op where
  | insert (p : Peer)
  | extend (ps : List Peer)
  | good (limit : Nat)
  | enough
  | batch (bad : List (Peer × Status)) (limit : Nat)
  | reorder
  deriving DecidableEq

/-- `active_peers.rs:103-128` in a build that checks arithmetic: `limit - newly_activated_peers.len()` (`:121`) panics when it
would be negative. -/
def activateChecked (limit : Nat) : List Status → List Peer → Map Peer Status → Res (Map Peer Status × List Peer)
  | [], acc, m => .ok (m, acc)
  | st :: order, acc, m => do
    let n ← usub limit acc.length
    let r := pass st n m
    activateChecked limit order (acc ++ r.2) r.1

/-- `active_peers.rs:33-35,46-91,135-139`: a call in a build that checks arithmetic. -/
def Op.checked (s : Peers) : Op → Res Peers
  | .insert p => .ok (s.insert p)
  | .extend ps => .ok (s.extend ps)
  | .good limit => do
    let r ← activateChecked limit goodOrder [] s.data
    .ok { s with data := r.1 }
  | .enough => do
    let r ← activateChecked (2 ^ 64 - 1) goodOrder [] s.data
    .ok { s with data := r.1 }
  | .batch bad limit => do
    let r ← activateChecked limit batchOrder [] (updateBad s.data bad)
    .ok { s with data := r.1 }
  | .reorder => .ok s

/-- One call. -/
inductive Step : Peers → Op → Peers → Prop
  | insert {s p} : Step s (.insert p) (s.insert p)
  | extend {s ps} : Step s (.extend ps) (s.extend ps)
  | good {s limit} : Step s (.good limit) (s.getGoodPeers limit).1
  | enough {s} : Step s .enough s.enoughPeers.1
  | batch {s bad limit} : Step s (.batch bad limit) (s.returnBatch bad limit).1
  | reorder {s m} : s.data.Perm m → Step s .reorder { s with data := m }

/-- A history of calls. -/
inductive Run : Peers → List Op → Peers → Prop
  | nil {s} : Run s [] s
  | cons {s s1 s2 o os} : Step s o s1 → Run s1 os s2 → Run s (o :: os) s2

end Peers

end Nargun
