import Verif.Model.DhtConnection
import Verif.Model.RoutingTable
import Verif.Model.Peers

/-! # Model of `src/dht/peer_fetcher.rs`

The task that looks up peers of the torrent and announces this client. Time is in milliseconds. When the connection is
gone the task ends with an error; that is in `Verif.Model.Program`. -/

namespace Nargun.Fetch

open Nargun Dht Krpc

/-- `peer_fetcher.rs:24` `ANNOUNCE_TO_N_TOP_NODES`. -/
def ANNOUNCE_TO_N_TOP_NODES : Nat := 2 ^ 4

/-- `peer_fetcher.rs:25` `ACTIVE_CLOSE_NODES_CAP_LOW`. -/
def CAP_LOW : Nat := 2 ^ 7

/-- `peer_fetcher.rs:26` `ACTIVE_CLOSE_NODES_CAP_HIGH`. -/
def CAP_HIGH : Nat := 2 ^ 9

/-- `peer_fetcher.rs:88`: how long a lookup waits for the next answer. -/
def ANSWER_TIMEOUT : Nat := 3000

/-- `peer_fetcher.rs:199-204` `enum NodeCloseToInfoHash`. -/
inductive Close where
  | unknown (id : ID)
  | hasPeers (id : ID) (token : Bytes)
  | peerless (id : ID) (token : Bytes)
  deriving DecidableEq

/-- `peer_fetcher.rs:220-226` `NodeCloseToInfoHash::id`. -/
def Close.id : Close → ID
  | .unknown id => id
  | .hasPeers id _ => id
  | .peerless id _ => id

/-- `peer_fetcher.rs:228-234` `NodeCloseToInfoHash::token`. -/
def Close.token : Close → Option Bytes
  | .unknown _ => none
  | .hasPeers _ token => some token
  | .peerless _ token => some token

/-- `peer_fetcher.rs:236-258` `NodeCloseToInfoHash::cmp_discriminant`. -/
def Close.cmpDiscriminant : Close → Close → Ordering
  | .hasPeers _ _, .peerless _ _ => .lt
  | .hasPeers _ _, .unknown _ => .lt
  | .peerless _ _, .unknown _ => .lt
  | .peerless _ _, .hasPeers _ _ => .gt
  | .unknown _, .hasPeers _ _ => .gt
  | .unknown _, .peerless _ _ => .gt
  | _, _ => .eq

/-- `peer_fetcher.rs:28` `type NodeMap`. -/
abbrev NodeMap := Map SockAddr Close

/-- The comparison of `peer_fetcher.rs:171-178`. -/
def compareClose (infoHash : ID) (a b : Close) : Ordering :=
  if a.cmpDiscriminant b ≠ .eq then a.cmpDiscriminant b else (a.id.sub infoHash).cmp (b.id.sub infoHash)

/-- `peer_fetcher.rs:165-181` `get_sorted_nodes`. -/
def sortedNodes (nodes : NodeMap) (infoHash : ID) : List (SockAddr × Close) :=
  stableSort (fun a b => decide (compareClose infoHash a.2 b.2 ≠ .gt)) nodes

/-- `peer_fetcher.rs:155-163` `forget_far_nodes`. -/
def forgetFarNodes (nodes : NodeMap) (infoHash : ID) : NodeMap := (sortedNodes nodes infoHash).take CAP_LOW

/-- A query handed to the connection: where it goes and what it asks. -/
abbrev Sent := SockAddr × ToConQuery

/-- `peer_fetcher.rs:133-153` `announce_peer`: the announcements handed to the connection. -/
def announcePeer (port : U16) (infoHash : ID) (nodes : NodeMap) : List Sent :=
  (((sortedNodes nodes infoHash).filterMap fun e => e.2.token.map fun token => (e.1, token)).take
    ANNOUNCE_TO_N_TOP_NODES).map fun e => (e.1, .announcePeer infoHash port e.2)

/-- The loop of `peer_fetcher.rs:189-194` `get_peers_from_new_nodes`. -/
def getPeersFromNewNodes (infoHash : ID) : List Node → NodeMap → NodeMap × List Sent
  | [], active => (active, [])
  | n :: ns, active =>
    if active.contains n.addr then getPeersFromNewNodes infoHash ns active
    else
      let r := getPeersFromNewNodes infoHash ns (active.insert n.addr (.unknown n.id))
      (r.1, (n.addr, .getPeers infoHash) :: r.2)

/-- Where the task is. -/
inductive Phase where
  /-- `peer_fetcher.rs:70`: sleeping since `since` -/
  | sleeping (since : Nat)
  /-- `peer_fetcher.rs:87-90`: waiting for an answer since `since` -/
  | fetching (since : Nat)
  deriving DecidableEq

/-- The variables of `peer_fetcher.rs:54-74` `periodically_fetch_peers`; `rounds` is the counter of the interval. -/
structure Fetcher where
  infoHash : ID
  port : U16
  nodes : NodeMap
  peers : Peers
  phase : Phase
  rounds : Nat
  now : Nat

/-- `peer_fetcher.rs:61-67`: the task starts with the nodes of the routing table. -/
def start (infoHash : ID) (port : U16) (nodes : List Node) (peers : Peers) (now : Nat) : Fetcher :=
  ⟨infoHash, port, nodes.foldl (fun m n => m.insert n.addr (.unknown n.id)) [], peers, .sleeping now, 0, now⟩

/-- `peer_fetcher.rs:82-84`: the queries at the beginning of a lookup. -/
def Fetcher.askAll (s : Fetcher) : List Sent := s.nodes.keys.map fun a => (a, .getPeers s.infoHash)

/-- `peer_fetcher.rs:92-118`: an answer; the queries it leads to. -/
def Fetcher.answer (s : Fetcher) : FromConResp → Fetcher × List Sent
  | .getPeers sender token vn =>
    match s.nodes.get? sender with
    | none => (s, [])
    | some node =>
      match vn with
      | .values values =>
        ({ s with peers := s.peers.extend values, nodes := s.nodes.insert sender (.hasPeers node.id token) }, [])
      | .nodes nodes =>
        let r := getPeersFromNewNodes s.infoHash nodes.list (s.nodes.insert sender (.peerless node.id token))
        ({ s with nodes := r.1 }, r.2)
  | _ => (s, [])

/-- Whether `peer_fetcher.rs:92-99` goes on to `:101`. -/
def Fetcher.accepts (s : Fetcher) : FromConResp → Bool
  | .getPeers sender _ _ => s.nodes.contains sender
  | _ => false

/-- `peer_fetcher.rs:120-127`: forgets nodes if there are too many; whether the lookup ends. -/
def Fetcher.trim (s : Fetcher) : Fetcher × Bool :=
  if s.nodes.length ≥ CAP_HIGH then
    let r := s.peers.enoughPeers
    ({ s with nodes := forgetFarNodes s.nodes s.infoHash, peers := r.1 }, r.2)
  else (s, false)

/-- The end of a lookup: `peer_fetcher.rs:72`, then the task sleeps. -/
def Fetcher.finish (s : Fetcher) : Fetcher × List Sent :=
  ({ s with phase := .sleeping s.now }, announcePeer s.port s.infoHash s.nodes)

/-- `peer_fetcher.rs:87-127`: an answer is received; ignored answers restart the timer as well. -/
def Fetcher.receive (s : Fetcher) (r : FromConResp) : Fetcher × List Sent :=
  let waiting := { s with phase := .fetching s.now }
  if s.accepts r then
    let (s1, sent) := waiting.answer r
    let (s2, enough) := s1.trim
    if enough then
      let (s3, announced) := s2.finish
      (s3, sent ++ announced)
    else (s2, sent)
  else (waiting, [])

/-- What can happen. -/
inductive Event where
  /-- the interval has passed -/
  | tick
  /-- an answer arrives -/
  | answer (r : FromConResp)
  /-- no answer arrived for 3 seconds -/
  | timeout
  /-- another task uses the table of known peers -/
  | others (op : Peers.Op)
  /-- time passes -/
  | pass (d : Nat)
  /-- a hash map may present its entries in another order -/
  | reorder

/-- One entry of a history. -/
structure Entry where
  event : Event
  sent : List Sent

/-- One event; `pause k` is the pause before round `k` (`capped_growing_interval.rs`, see `Verif.Model.Interval`). -/
inductive Step (pause : Nat → Nat) : Fetcher → Entry → Fetcher → Prop
  | tick {s since} : s.phase = .sleeping since → since + pause s.rounds ≤ s.now →
      Step pause s ⟨.tick, s.askAll⟩ { s with phase := .fetching s.now, rounds := s.rounds + 1 }
  | answer {s since r} : s.phase = .fetching since → Step pause s ⟨.answer r, (s.receive r).2⟩ (s.receive r).1
  | timeout {s since} : s.phase = .fetching since → since + ANSWER_TIMEOUT ≤ s.now →
      Step pause s ⟨.timeout, s.finish.2⟩ s.finish.1
  | others {s op p} : Peers.Step s.peers op p → Step pause s ⟨.others op, []⟩ { s with peers := p }
  | pass {s d} : Step pause s ⟨.pass d, []⟩ { s with now := s.now + d }
  | reorder {s m} : s.nodes.Perm m → Step pause s ⟨.reorder, []⟩ { s with nodes := m }

/-- A history, the oldest entry first. -/
inductive Run (pause : Nat → Nat) : Fetcher → List Entry → Fetcher → Prop
  | nil {s} : Run pause s [] s
  | snoc {s s1 s2 h e} : Run pause s h s1 → Step pause s1 e s2 → Run pause s (h ++ [e]) s2

end Nargun.Fetch
