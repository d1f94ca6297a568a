import Verif.Model.TorrentManager
import Verif.Spec.Bits

/-! # Specification of what the torrent manager should know of its peers

Everything here is computed from the history alone: the batches of newly connected peers and the messages. -/

namespace Nargun.Spec

/-- What a peer has told us since it (last) joined. -/
structure PeerView where
  choking : Bool
  announced : Nat → Bool

/-- A peer that has just joined chokes us and has announced nothing. -/
def PeerView.fresh : PeerView := ⟨true, fun _ => false⟩

/-- The effect of one message of the peer on what it has told us (`n` pieces); `none` means it is gone.
A bitfield counts only if it has the right size and nothing is known of the peer yet. -/
def PeerView.hear (n : Nat) (v : PeerView) : ConMessageType → Option PeerView
  | .unreachable => none
  | .disconnected => none
  | .choke => some { v with choking := true }
  | .unchoke => some { v with choking := false }
  | .have_ i => some { v with announced := fun j => v.announced j || decide (j = i.toNat) }
  | .bitfield b =>
    if b.length = (n + 7) / 8 ∧ ∀ j < 8 * b.length, v.announced j = false then
      some { v with announced := bitAt b }
    else some v
  | _ => some v

/-- The effect of one event on what we know of `peer` (`none`: not active). -/
def viewStep (n : Nat) (peer : Peer) (v : Option PeerView) : TM.Event → Option PeerView
  | .tick batch => if peer ∈ batch then some .fresh else v
  | .msg q m => if q = peer then v.bind (fun v => v.hear n m) else v
  | _ => v

/-- What we know of `peer` after a history. -/
def view (n : Nat) (peer : Peer) (es : List TM.Event) : Option PeerView := es.foldl (viewStep n peer) none

/-- The effect of one event on how `peer` left since the last tick: what to report about it, if anything. `v` is
what was known of the peer before the event (nothing, if it was not active). -/
def leaveStep (peer : Peer) (v : Option PeerView) (l : Option Status) : TM.Event → Option Status
  | .tick _ => none
  | .msg q m => if q = peer ∧ v.isSome then
      (match m with
        | .unreachable => some .unableToConnect
        | .disconnected => some .unknown
        | _ => l) else l
  | _ => l

/-- How `peer` left since the last tick of the history, if it did. -/
def left (n : Nat) (peer : Peer) (es : List TM.Event) : Option Status :=
  (es.foldl (fun a e => (viewStep n peer a.1 e, leaveStep peer a.1 a.2 e)) ((none : Option PeerView), none)).2

/-- A download is asked for. -/
def isStart : TM.Event → Bool
  | .start _ _ _ _ => true
  | _ => false

/-- A timer tick begins. -/
def isTick : TM.Event → Bool
  | .tick _ => true
  | _ => false

/-- The peer is active after the history and has announced piece `i`. -/
def holds (n : Nat) (es : List TM.Event) (i : Nat) (q : Peer) : Bool :=
  match view n q es with
  | some v => v.announced i
  | none => false

/-- How many peers are connected to by this event, coming after the history `es`, although they are active and have
announced piece `i`. -/
def rejoining (n : Nat) (es : List TM.Event) (i : Nat) : TM.Event → Nat
  | .tick batch => (batch.filter (holds n es i)).length
  | _ => 0

/-- How often in the history a peer was connected to again although it was active and had announced piece `i`. -/
def rejoined (n : Nat) (es : List TM.Event) (i : Nat) : Nat :=
  ((List.range es.length).map fun k => (es[k]?.map (rejoining n (es.take k) i)).getD 0).sum

/-- In this history no tick connects to a peer that is active at that time. -/
def NoRejoin (n : Nat) : List TM.Event → Prop := fun es =>
  ∀ es1 batch es2, es = es1 ++ .tick batch :: es2 → ∀ peer ∈ batch, view n peer es1 = none

end Nargun.Spec
