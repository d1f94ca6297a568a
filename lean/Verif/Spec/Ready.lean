import Verif.Model.Program

/-! # What a task of the program is waiting for has happened -/

namespace Nargun.Spec

open Nargun Program

/-- What the table task waits for has happened, as far as the DHT knows: a query or an answer is first in its queue, or
the connection is gone. -/
def DhtOffers (s : DhtSystem.State) : DhtManager.Event → Prop
  | .query q => s.queries.head? = some q
  | .resp r => (s.answers 0).head? = some r
  | .conGone => s.conAlive = false ∧ s.queries = []
  | _ => True

/-- It happens to the data of the table task without a turn of its loop. -/
def Aside : DhtManager.Event → Prop
  | .others _ => True
  | .pass _ => True
  | .reorder => True
  | _ => False

/-- What the table task waits for has happened in the program: the signal reaches it, a node told by a peer is first in the
queue, nobody is left who could tell of nodes, or see `DhtOffers`. What other tasks do to the peers is theirs. -/
def TableOffers (s : State) : DhtManager.Event → Prop
  | .shutdown => ∃ x, s.down.recv 1 = some (.ok x)
  | .peerNode a => s.swarm.dht.head? = some a ∧ s.swarm.dhtOpen = true
  | .peersGone => s.swarm.man = .dead ∧ (∀ q, s.swarm.Spawned q → (s.swarm.links q).con = .ended) ∧ s.swarm.dht = []
  | .others _ => False
  | ev => DhtOffers s.dht ev

/-- What the lookup task waits for has happened. -/
def LookupOffers (s : State) : Fetch.Event → Prop
  | .answer r => (s.dht.answers 1).head? = some r
  | .others _ => False
  | _ => True

/-- What the task of tracker `i` waits for has happened. -/
def TrackerOffers (s : State) (i : Nat) : TrackerInput → Prop
  | .sends => True
  | .answers _ => ∃ t, s.trackers[i]? = some t ∧ t.phase = .inFlight
  | .fails => True
  | .retryTimer => True
  | .intervalTimer n => n = 0
  | .completed _ => False
  | .completionClosed => False
  | .shutdown n => n = 0 ∧ (∃ t, s.trackers[i]? = some t ∧ t.phase ≠ .exited) ∧ ∃ x, s.down.recv (i + 3) = some (.ok x)

end Nargun.Spec
