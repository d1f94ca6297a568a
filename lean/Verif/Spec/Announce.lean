import Verif.Model.Announce
import Verif.Spec.Url

/-! # Specification: the parameters an announce carries (BEP 3, BEP 23) -/

namespace Nargun.Spec

open Nargun

/-- A number in decimal. -/
def number (n : Nat) : Bytes := ascii (toString n)

/-- A truth value as the protocol writes it. -/
def flag (b : Bool) : Bytes := if b then ascii "1" else ascii "0"

/-- The parameters of an announce, in order, with their values as the tracker should read them. -/
def announceParams (a : Announce) : List (Bytes × Bytes) :=
  [(ascii "info_hash", a.infoHash.bytes), (ascii "peer_id", a.peerId.bytes),
   (ascii "port", number a.port.toNat), (ascii "uploaded", number a.uploaded),
   (ascii "downloaded", number a.downloaded), (ascii "left", number a.left), (ascii "compact", flag a.compact)]
  ++ (if a.compact then [] else [(ascii "no_peer_id", flag a.noPeerId)])
  ++ (match a.event with
      | none => []
      | some .started => [(ascii "event", ascii "started")]
      | some .stopped => [(ascii "event", ascii "stopped")]
      | some .completed => [(ascii "event", ascii "completed")])
  ++ (match a.trackerId with
      | none => []
      | some t => [(ascii "trackerid", t)])

end Nargun.Spec
