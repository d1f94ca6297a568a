import Verif.Spec.Jam
import Verif.Spec.Fair

/-! # Specification: queries of other nodes that get no answer although everything works -/

namespace Nargun.Spec

open Nargun Dht DhtManager DhtSystem

/-- The query the table task took in this turn without having anything to say: it knows neither peers of the torrent nor the
node that is looked for nor any good node (`C97_find_node_partial`, `C97_get_peers_partial`). -/
def silentTurn (e : DhtManager.Entry) : Option Question :=
  match e.event with
  | .query (.findNode _ qid) => if (answers e.outputs).isEmpty then some (qid.target, qid.tid, .findNode) else none
  | .query (.getPeers _ qid) => if (answers e.outputs).isEmpty then some (qid.target, qid.tid, .getPeers) else none
  | _ => none

/-- The announcement about which nothing was done: its token was wrong (`C94_ignored`). -/
def refusedAnnouncement (e : Dht.Entry) : Option Question :=
  match e.event, e.heard with
  | .datagram (some a) _, some (.query t _ _ (.announcePeer _ _ _ _)) =>
    if e.effects.isEmpty then some (a, t, .announcePeer) else none
  | _, _ => none

/-- The queries of other nodes that get no answer. -/
def leftUnanswered (h : List DhtSystem.Entry) : List Question :=
  (manHistory h).filterMap silentTurn ++ (conHistory h).filterMap refusedAnnouncement

/-- The datagram is a query of this program, or the answer to the query of another node: it goes to the address that asked,
carries its transaction id and is of its kind. -/
def Answers (own : ID) (d : SockAddr × Bytes) : Option Question → Prop
  | none => ∃ t v, IsQueryDatagram own t v d.2
  | some (a, t, k) => d.1 = a ∧ ∃ token v, respKind v = k ∧ IsAnswerDatagram own t token v d.2

end Nargun.Spec
