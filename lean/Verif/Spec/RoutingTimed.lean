import Verif.Spec.RoutingTable
import Verif.Model.RoutingTimed

/-! # Specification vocabulary for the routing table while the clock runs -/

namespace Nargun.Spec

/-- All readings of the clock during a sighting are between `t0` and `t1`. -/
def TouchClock.Within (clk : TouchClock) (t0 t1 : Nat) : Prop :=
  (t0 ≤ clk.stamp ∧ clk.stamp ≤ t1) ∧ ∀ k i, t0 ≤ clk.exam k i ∧ clk.exam k i ≤ t1

/-- Histories as in `Reachable`, with arbitrary readings of the clock during every sighting. -/
inductive TimedReachable : RoutingTable → Prop where
  | fresh (own : ID) : TimedReachable (RoutingTable.default own)
  | sighting (t t' : RoutingTable) (clk : TouchClock) (id : ID) (addr : SockAddr) :
      TimedReachable t → t.touchNodeAt clk id addr = .ok t' → TimedReachable t'
  | restart (t t' : RoutingTable) (fresh : ID) :
      TimedReachable t → TableFile.newTable fresh (TableFile.afterStore t) = .ok t' → TimedReachable t'

end Nargun.Spec
