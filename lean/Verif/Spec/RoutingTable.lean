import Verif.Spec.Id
import Verif.Model.TableFile

/-! # Specification vocabulary for the routing table -/

namespace Nargun.Spec

/-- Number of leading bits two identifiers share (160 if they are equal). -/
def sharedPrefix (a b : ID) : Nat := 160 - bitLen (dist a b)

/-- Fifteen minutes in nanoseconds. -/
def fifteenMinutes : Nat := 900000000000

/-- A node is good at time `now` if it was seen less than fifteen minutes ago. -/
def Good (now : Nat) (n : Node) : Prop := ∃ seen, n.lastSeen = some seen ∧ now - seen < fifteenMinutes

/-- The node with id `id` is stored in the table. -/
def Known (t : RoutingTable) (id : ID) : Prop := ∃ n ∈ t.iterNodes, n.id = id

/-- Index of the bucket responsible for `id`: the length of the prefix shared with the own id, but at most the
last bucket. -/
def responsible (t : RoutingTable) (id : ID) : Nat := min (sharedPrefix t.ownId id) (t.data.length - 1)

/-- Histories of a routing table over any number of program runs: a start without a usable file, sightings, and
being stored at shutdown and loaded at the next start. -/
inductive Reachable : RoutingTable → Prop where
  | fresh (own : ID) : Reachable (RoutingTable.default own)
  | sighting (t t' : RoutingTable) (now : Nat) (id : ID) (addr : SockAddr) :
      Reachable t → t.touchNode now id addr = .ok t' → Reachable t'
  | restart (t t' : RoutingTable) (fresh : ID) :
      Reachable t → TableFile.newTable fresh (TableFile.afterStore t) = .ok t' → Reachable t'

/-- The bucket at index `i` holds 8 nodes that are good at time `now`. -/
def FullOfGood (t : RoutingTable) (i now : Nat) : Prop :=
  ∃ b, t.data[i]? = some b ∧ b.nodes.length = 8 ∧ ∀ n ∈ b.nodes, Good now n

/-- A node as it is after being stored and loaded: the time of the last sighting is not kept. -/
def forgetSeen (n : Node) : Node := { n with lastSeen := none }

/-- A bucket as it is after being stored and loaded. -/
def Bucket.forgetSeen (b : Bucket) : Bucket :=
  { b with data := b.data.map (Option.map Spec.forgetSeen), len_eq := by simp [b.len_eq] }

/-- A table as it is after being stored and loaded: same own id, same buckets with the same depths, same nodes
with the same addresses in the same slots. -/
def tableForgetSeen (t : RoutingTable) : RoutingTable := { t with data := t.data.map Bucket.forgetSeen }

end Nargun.Spec
