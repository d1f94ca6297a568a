import Verif.Spec.DhtConnection

/-! # How large the datagrams of the DHT may be -/

namespace Nargun.Spec

open Krpc Dht

/-- What UDP over IPv4 can carry: 65535 bytes less the headers of IP (20) and UDP (8). -/
def UDP_LIMIT : Nat := 65507

/-- The room this program has for a datagram. -/
def RECEIVE_LIMIT : Nat := 2600

/-- The packet size of the DHT (`connection_handle.rs:9` `DHT_MTU`), by which the number of peers in an answer is chosen. -/
def PACKET_SIZE : Nat := 1300

/-- The most bytes a query has: of bounded size but for the token, which is the other node's choice. -/
def queryLimit : ToConQuery → Nat
  | .announcePeer _ _ token => 128 + token.length
  | _ => 98

end Nargun.Spec
