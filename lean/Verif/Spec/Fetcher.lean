import Verif.Spec.RoutingTable
import Verif.Model.Fetcher

/-! # Vocabulary for looking up peers and announcing this client -/

namespace Nargun.Spec

open Nargun Dht Krpc Fetch

/-- Nodes that returned peers are worth most, then those that answered without peers, then the others. -/
def worth : Close → Nat
  | .hasPeers _ _ => 0
  | .peerless _ _ => 1
  | .unknown _ => 2

/-- The id a node was named with. -/
def namedId : Close → ID
  | .hasPeers id _ => id
  | .peerless id _ => id
  | .unknown id => id

/-- The token a node gave with its answer; a node that did not answer gave none. -/
def givenToken : Close → Option Bytes
  | .hasPeers _ token => some token
  | .peerless _ token => some token
  | .unknown _ => none

/-- `a` is at least as much preferred as `b`: it is worth more, or as much and shares at least as long a prefix with
the info hash. -/
def Preferred (infoHash : ID) (a b : Close) : Prop :=
  worth a < worth b ∨ worth a = worth b ∧ sharedPrefix (namedId b) infoHash ≤ sharedPrefix (namedId a) infoHash

/-- The node at `a` was asked for peers. -/
def Queried (h : List Fetch.Entry) (a : SockAddr) : Prop := ∃ e ∈ h, ∃ ih, (a, ToConQuery.getPeers ih) ∈ e.sent

/-- The token of an answer from `a`, and whether it had peers. -/
def answerFrom (a : SockAddr) (e : Fetch.Entry) : Option (Bytes × Bool) :=
  match e.event with
  | .answer (.getPeers b token (.values _)) => if b = a then some (token, true) else none
  | .answer (.getPeers b token (.nodes _)) => if b = a then some (token, false) else none
  | _ => none

/-- The last answer from `a`. -/
def lastAnswer (h : List Fetch.Entry) (a : SockAddr) : Option (Bytes × Bool) := h.reverse.findSome? (answerFrom a)

/-- `a` is the address of a node the lookups began with, or one that was named in an answer of a node that had been
asked. -/
def Learned (init : List Node) (h : List Fetch.Entry) (a : SockAddr) : Prop :=
  a ∈ init.map (·.addr) ∨
  ∃ before e after sender token ns, h = before ++ e :: after ∧
    e.event = .answer (.getPeers sender token (.nodes ns)) ∧ Queried before sender ∧ a ∈ ns.list.map (·.addr)

/-- The announcements among the queries: where they go and with which token. -/
def announcements (sent : List Sent) : List (SockAddr × Bytes) :=
  sent.filterMap fun e => match e.2 with
    | .announcePeer _ _ token => some (e.1, token)
    | _ => none

/-- The requests for peers among the queries. -/
def requests (sent : List Sent) : List SockAddr :=
  sent.filterMap fun e => match e.2 with
    | .getPeers _ => some e.1
    | _ => none

/-- What is known about the node at `a` after an answer of the node at `sender`: the sender is marked, and every address
named by a list of nodes that was not known before becomes a node that did not answer yet, with the id it is named with
first. -/
def afterAnswer (nodes : SockAddr → Option Close) (sender : SockAddr) (token : Bytes) (vn : ValuesOrNodes)
    (a : SockAddr) : Option Close :=
  match nodes sender with
  | none => nodes a
  | some node =>
    match vn with
    | .values _ => if a = sender then some (.hasPeers (namedId node) token) else nodes a
    | .nodes ns =>
      if a = sender then some (.peerless (namedId node) token)
      else match nodes a with
        | some n => some n
        | none => (ns.list.find? fun n => n.addr = a).map fun n => .unknown n.id

/-- How many answers of the node at `a` were received. -/
def answersOf (a : SockAddr) (h : List Fetch.Entry) : Nat := h.countP fun e => (answerFrom a e).isSome

/-- How many requests were sent to the node at `a`. -/
def requestsTo (a : SockAddr) (h : List Fetch.Entry) : Nat := (h.map fun e => (requests e.sent).count a).sum

/-- An answer was received, of whatever kind. -/
def IsAnswer (e : Fetch.Entry) : Prop := ∃ r, e.event = .answer r

end Nargun.Spec
