import Verif.Spec.FairTorrent

/-! # Specification: fairness of the lookup for peers and of the table task's timer -/

namespace Nargun.Spec

open Nargun Program

/-- The lookup finds that no answer came for 3 seconds, and ends the round. -/
def LookupTimesOut : Program.Event → Prop
  | .look e => e.event = .timeout
  | _ => False

/-- No task of the DHT is passed over for ever, and the timer of the lookup is looked at. -/
structure FairLookup (w : World) (σ : Nat → Program.State) (ev : Nat → Option Program.Event) : Prop
    extends FairDht w σ ev where
  lookupTimesOut : FairTo w σ ev LookupTimesOut

/-- The table task finds that the pause is over, and refreshes the table. -/
def TableRefreshes : Program.Event → Prop
  | .dht e => ∃ rb rt outs, e.man = some ⟨.refresh rb rt, outs⟩
  | _ => False

/-- No task of the DHT is passed over for ever, the timer of the table task is looked at, and time does not stand still for it. -/
structure FairTable (w : World) (σ : Nat → Program.State) (ev : Nat → Option Program.Event) : Prop
    extends FairDht w σ ev where
  tableRefreshes : FairTo w σ ev TableRefreshes
  tableTime : ∀ n t, ∃ m, n ≤ m ∧ ((σ m).down.phase = .done ∨ t ≤ (σ m).dht.man.now)

/-- No task of the program is passed over for ever, and the timers of the manager, the lookup and the table task are looked
at. -/
structure FairAll (w : World) (σ : Nat → Program.State) (ev : Nat → Option Program.Event) : Prop
    extends FairTorrent w σ ev where
  managerTicks : FairTo w σ ev ManagerTicks
  lookupTimesOut : FairTo w σ ev LookupTimesOut
  tableRefreshes : FairTo w σ ev TableRefreshes
  tableTime : ∀ n t, ∃ m, n ≤ m ∧ ((σ m).down.phase = .done ∨ t ≤ (σ m).dht.man.now)

/-- An answer of a node to a ping or to find_node. -/
def OfNode : Dht.FromConResp → Prop
  | .getPeers _ _ _ => False
  | _ => True

/-- The queries and announcements that a turn of the lookup leads to. -/
def lookupWants : Program.Event → List Fetch.Sent
  | .look e => e.sent
  | .hears _ sent => sent
  | _ => []

end Nargun.Spec
