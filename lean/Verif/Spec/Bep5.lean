import Verif.Spec.DhtConnection

/-! # What BEP 5 says about announcements with `implied_port` and about errors -/

namespace Nargun.Spec

open Krpc Dht

/-- The announcement asks for the port it came from: it has `implied_port` and that is a number other than 0. -/
def PortImplied (args : List (Bytes × BVal)) : Prop := ∃ n : Int, n ≠ 0 ∧ field args "implied_port" = some (.int n)

/-- The peer that an announcement from `a` with the arguments `args` is about: it has the IP address the announcement
came from; its port is the one the announcement came from if the port is implied, otherwise the one under `port`. -/
def AnnouncedPeer (args : List (Bytes × BVal)) (a : SockAddr) (p : Peer) : Prop :=
  p.addr.ip = a.ip ∧ (PortImplied args → p.addr.port = a.port) ∧
  (¬ PortImplied args → field args "port" = some (.int p.addr.port.toNat))

/-- The datagram is an error of BEP 5 for the query with transaction id `tid`: a list of a code and a text. -/
def IsErrorDatagram (tid bytes : Bytes) : Prop :=
  ∃ pairs code text, bytes = bencode (.dict pairs) ∧ pairs.map (·.1) = ["e", "t", "y"].map ascii ∧
    field pairs "e" = some (.list [.int code, .str text]) ∧ field pairs "t" = some (.str tid) ∧
    field pairs "y" = some (.str (ascii "e"))

/-- The dictionary is a query with transaction id `t` whose method is none of BEP 5's four. -/
def UnknownMethod (pairs : List (Bytes × BVal)) (t method : Bytes) : Prop :=
  field pairs "t" = some (.str t) ∧ field pairs "y" = some (.str (ascii "q")) ∧
  field pairs "q" = some (.str method) ∧ method ∉ ["ping", "find_node", "get_peers", "announce_peer"].map ascii

end Nargun.Spec
