import Verif.Model.Peers

/-! # Vocabulary for the properties of the table of known peers -/

namespace Nargun.Spec

open Nargun

/-- The recorded status of a peer, if it is known. -/
def statusOf (s : Peers) (p : Peer) : Option Status := s.data.get? p

/-- The status of a peer after the reports: the last report about it counts. -/
def afterReports (s : Peers) (bad : List (Peer × Status)) (p : Peer) : Option Status :=
  match bad.reverse.find? (fun e => e.1 = p) with
  | some e => some e.2
  | none => statusOf s p

/-- How promising a peer is for a new connection; smaller is better. -/
def rank : Status → Nat
  | .unknown => 0
  | .noUsefulPieces => 1
  | .chokedForTooLong => 2
  | .unableToConnect => 3
  | .active => 4

/-- The operation reports this peer (again) as a peer of the torrent. -/
def announces (p : Peer) : Peers.Op → Prop
  | .insert q => q = p
  | .extend qs => p ∈ qs
  | _ => False

/-- The operation reports this peer as bad. -/
def reportsBad (p : Peer) : Peers.Op → Prop
  | .batch bad _ => p ∈ bad.map (·.1)
  | _ => False

end Nargun.Spec
