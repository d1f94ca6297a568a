import Verif.Spec.DhtSystem

/-! # Specification: what leaves the DHT socket -/

namespace Nargun.Spec

open Nargun Dht

/-- A datagram with this query left for this address. -/
def HasLeft (own : ID) (h : List DhtSystem.Entry) (a : SockAddr) (v : ToConQuery) : Prop :=
  ∃ t bytes, (a, bytes) ∈ sent h ∧ IsQueryDatagram own t v bytes

end Nargun.Spec
