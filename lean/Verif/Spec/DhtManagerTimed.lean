import Verif.Spec.DhtManager
import Verif.Spec.RoutingTimed
import Verif.Model.DhtManagerTimed

/-! # Vocabulary for the table task while the clock runs -/

namespace Nargun.Spec

open Nargun Dht Krpc DhtManager

/-- The query asks for `id` a stored node that was good at `t0`, and no node that is still good at `t1` shares more leading
bits with `id`. -/
def AsksNearest (t : RoutingTable) (t0 t1 : Nat) (id : ID) (q : SockAddr × ToConQuery) : Prop :=
  ∃ n ∈ t.iterNodes, Good t0 n ∧ q = (n.addr, .findNode id) ∧
    ∀ m ∈ t.iterNodes, Good t1 m → sharedPrefix m.id id ≤ sharedPrefix n.id id

/-- Good nodes for `id`, as far as can be asked for if the clock runs from `t0` to `t1` meanwhile: at least one and at most
15 stored nodes, all good at `t0`, and no node left out that is still good at `t1` shares more leading bits with `id`. -/
def NearestMeanwhile (t : RoutingTable) (t0 t1 : Nat) (id : ID) (ns : List Node) : Prop :=
  ns ≠ [] ∧ ns.length ≤ 15 ∧ (ns.map (·.id)).Nodup ∧ (∀ n ∈ ns, n ∈ t.iterNodes ∧ Good t0 n) ∧
  ∀ n ∈ ns, ∀ m ∈ t.iterNodes, Good t1 m → m ∉ ns → sharedPrefix m.id id ≤ sharedPrefix n.id id

end Nargun.Spec
