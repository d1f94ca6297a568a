import Verif.Spec.RoutingTable
import Verif.Spec.Peers
import Verif.Model.DhtManager

/-! # Vocabulary for the task that owns the routing table -/

namespace Nargun.Spec

open Nargun Dht Krpc DhtManager

/-- A peer was announced for a torrent. -/
def Announced (h : List DhtManager.Entry) (ih : ID) (p : Peer) : Prop :=
  ∃ e ∈ h, e.event = .query (.newPeer p ih)

/-- The answers among the outputs. -/
def answers (outs : List Out) : List (QueryId × ToConResp) :=
  outs.filterMap fun o => match o with
    | .send (.resp qid r) => some (qid, r)
    | _ => none

/-- The queries among the outputs. -/
def queries (outs : List Out) : List (SockAddr × ToConQuery) :=
  outs.filterMap fun o => match o with
    | .send (.query _ a q) => some (a, q)
    | _ => none

/-- The event is an answer of the node with this id at this address to a ping or to find_node. -/
def AnswerOf (id : ID) (addr : SockAddr) (e : DhtManager.Entry) : Prop :=
  e.event = .resp (.touch id addr) ∨ ∃ nodes, e.event = .resp (.newNodes nodes addr id)

/-- How much time passed during a history. -/
def elapsed (h : List DhtManager.Entry) : Nat :=
  (h.map fun e => match e.event with | .pass d => d | _ => 0).sum

/-- The event is a turn of the loop of the task. -/
def isTurn (e : DhtManager.Entry) : Bool :=
  match e.event with
  | .pass _ => false
  | .reorder => false
  | .others _ => false
  | _ => true

/-- How much time has passed since the last turn; `before` is the time at the beginning of the history. -/
def sinceTurn (before : Nat) : List DhtManager.Entry → Nat
  | [] => before
  | e :: h =>
    if isTurn e then sinceTurn 0 h
    else sinceTurn (before + match e.event with | .pass d => d | _ => 0) h

/-- The event is a refresh of the table. -/
def isRefresh (e : DhtManager.Entry) : Bool :=
  match e.event with
  | .refresh _ _ => true
  | _ => false

/-- How many peers are kept for other torrents. -/
def storedPeers (m : Manager) : Nat := (m.peerMap.map fun e => e.2.length).sum

/-- What a node that asks for an id may be told: the node with this id if it is stored, otherwise good stored nodes, at
most 15, such that none that is left out shares more leading bits with the id. -/
def NodesFor (t : RoutingTable) (now : Nat) (id : ID) : Nodes → Prop
  | .exact n => n ∈ t.iterNodes ∧ n.id = id
  | .closest ns => ¬ Known t id ∧ ns ≠ [] ∧ ns.length ≤ 15 ∧ (ns.map (·.id)).Nodup ∧
      (∀ n ∈ ns, n ∈ t.iterNodes ∧ Good now n) ∧
      ∀ n ∈ ns, ∀ m ∈ t.iterNodes, Good now m → m ∉ ns → sharedPrefix m.id id ≤ sharedPrefix n.id id

/-- A known peer that may be told to others: it is not one that could not be connected to. -/
def Tellable (s : Peers) (p : Peer) : Prop := ∃ st, statusOf s p = some st ∧ st ≠ .unableToConnect

/-- The lookups among the outputs: the nodes each begins with. -/
def lookups (outs : List Out) : List (List Node) :=
  outs.filterMap fun o => match o with
    | .lookups ns => some ns
    | _ => none

/-- The tables that were stored. -/
def stored (outs : List Out) : List RoutingTable :=
  outs.filterMap fun o => match o with
    | .stored t => some t
    | _ => none

/-- Everything the task did in a history. -/
def allOutputs (h : List DhtManager.Entry) : List Out := h.flatMap (·.outputs)

end Nargun.Spec
