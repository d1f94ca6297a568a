import Verif.Model.DhtConnection
import Verif.Model.RoutingTable
import Verif.Model.Peers

/-! # Model of `src/dht/dht_manager.rs`

The task that owns the routing table. Time is in nanoseconds; the clock is read once per turn of the loop. What the task
hands to the connection, the lookups it starts and the table it stores are its outputs. The queues between the tasks have
no bounds here (see `Verif.Model.DhtSystem`). -/

namespace Nargun.DhtManager

open Nargun Dht Krpc

/-- `dht_manager.rs:23` `type PeerMap`; a set of peers is a list without duplicates. -/
abbrev PeerMap := Map ID (List Peer)

/-- `dht_manager.rs:173,179`: `DHT_MTU / COMPACT_PEER_LEN`. -/
def PEERS_PER_ANSWER : Nat := MTU / COMPACT_SOCKADDR_LEN

/-- What the task does to the world. -/
inductive Out where
  /-- `connection.send_..`, `connection.resp_..` -/
  | send (c : ToCon)
  /-- `spawn_fetcher` with these nodes -/
  | lookups (nodes : List Node)
  /-- `routing_table.store()` -/
  | stored (t : RoutingTable)
  deriving DecidableEq

/-- How the task is. -/
inductive Status where
  | running
  /-- it returned at shutdown -/
  | finished
  /-- it returned with an error -/
  | failed
  deriving DecidableEq

/-- The variables of `dht_manager.rs:30-84` `dht`; `since` is when the current turn of the loop began, `refreshes` the
counter of the interval. -/
structure Manager where
  infoHash : ID
  table : RoutingTable
  peers : Peers
  peerMap : PeerMap
  waitForGood : Bool
  since : Nat
  refreshes : Nat
  now : Nat
  status : Status

/-- The number of the channel that answers to the queries of this task come back through. -/
def OWN_CHANNEL : Nat := 0

/-- `connection_handle.rs:32-34`, `:135-138` `send_ping`. -/
def ping (addr : SockAddr) : Out := .send (.query OWN_CHANNEL addr .ping)

/-- `dht_manager.rs:39-50`: the task starts. -/
def start (infoHash : ID) (table : RoutingTable) (peers : Peers) (now : Nat) : Manager :=
  ⟨infoHash, table, peers, [(infoHash, peers.peerAddresses)], true, now, 0, now, .running⟩

/-- `dht_manager.rs:42-44`: what it does when it starts. -/
def startOutputs (table : RoutingTable) : List Out := table.iterNodes.map fun n => ping n.addr

/-- `dht_manager.rs:86-98` `refresh_table`: the queries for the ids. -/
def refreshQueries (t : RoutingTable) (now : Nat) : List ID → Res (List Out)
  | [] => .ok []
  | id :: ids => do
    let o ← t.getClosestNode now id
    let rest ← refreshQueries t now ids
    .ok ((o.map fun n => Out.send (.query OWN_CHANNEL n.addr (.findNode id))).toList ++ rest)

/-- `dht_manager.rs:86-98` `refresh_table`; `rndByte` and `rndBit` are the random source, one for each bucket. -/
def Manager.refresh (m : Manager) (rndByte : Nat → Nat → Byte) (rndBit : Nat → Nat → Bool) : Res (List Out) := do
  let ids ← m.table.fillableIds fun k => ⟨m.now, rndByte k, rndBit k⟩
  refreshQueries m.table m.now ids

/-- `dht_manager.rs:187-203` `store_new_peer`. -/
def Manager.storeNewPeer (m : Manager) (newPeer : Peer) (infoHash : ID) : Manager :=
  if m.peers.serve infoHash then { m with peers := m.peers.insert newPeer }
  else match m.peerMap.get? infoHash with
    | some ps => { m with peerMap := m.peerMap.insert infoHash (if newPeer ∈ ps then ps else newPeer :: ps) }
    | none => { m with peerMap := m.peerMap.insert infoHash [newPeer] }

/-- `dht_manager.rs:171-185` `find_peers`; `shuffle` is the random order in which `choose_multiple` picks. -/
def Manager.findPeers (m : Manager) (shuffle : List Peer → List Peer) (infoHash : ID) : Manager × Option (List Peer) :=
  if m.peers.serve infoHash then
    let r := m.peers.getGoodPeers PEERS_PER_ANSWER
    ({ m with peers := r.1 }, r.2)
  else (m, (m.peerMap.get? infoHash).map fun ps => (shuffle ps).take PEERS_PER_ANSWER)

/-- `dht_manager.rs:100-169` `process_query`, `process_find_node_query`, `process_get_peers_query`. -/
def Manager.processQuery (m : Manager) (shuffle : List Peer → List Peer) : FromConQuery → Res (Manager × List Out)
  | .findNode target qid => do
    let o ← m.table.findNode m.now target
    .ok (m, (o.map fun nodes => Out.send (.resp qid (.findNode nodes))).toList)
  | .getPeers infoHash qid =>
    match m.findPeers shuffle infoHash with
    | (m1, some ps) => .ok (m1, [.send (.resp qid (.getPeers (.values ps)))])
    | (m1, none) => do
      let o ← m1.table.findNode m1.now infoHash
      .ok (m1, (o.map fun nodes => Out.send (.resp qid (.getPeers (.nodes nodes)))).toList)
  | .newPeer newPeer infoHash => .ok (m.storeNewPeer newPeer infoHash, [])

/-- `dht_manager.rs:227-230`: the addresses of the nodes that are not in the table. -/
def unknownAddresses (t : RoutingTable) : List Node → Res (List SockAddr)
  | [] => .ok []
  | n :: ns => do
    let known ← t.containsNode n.id
    let rest ← unknownAddresses t ns
    .ok (if known then rest else n.addr :: rest)

/-- `dht_manager.rs:205-237` `process_resp`, `ping_unknown_nodes`. -/
def Manager.processResp (m : Manager) : FromConResp → Res (Manager × List Out)
  | .touch id sender => do
    let t ← m.table.touchNode m.now id sender
    .ok ({ m with table := t }, [])
  | .newNodes nodes sender id => do
    let t ← m.table.touchNode m.now id sender
    let unknown ← unknownAddresses t nodes.list
    .ok ({ m with table := t }, unknown.map ping)
  | .getPeers _ _ _ => .ok (m, [])

/-- `dht_manager.rs:70-82`: the end of a turn; the lookups are started once there is a good node. A new turn begins and
with it a new sleep of the interval. -/
def Manager.endTurn (m : Manager) : Res (Manager × List Out) := do
  let next := { m with since := m.now }
  if m.waitForGood && decide (m.table.countGoodNodes m.now > 0) then do
    let o ← m.table.getClosestNodes m.now m.infoHash
    match o with
    | some nodes => .ok ({ next with waitForGood := false }, [.lookups nodes])
    | none => .ok (next, [])
  else .ok (next, [])

/-- What can happen. -/
inductive Event where
  /-- the shutdown signal -/
  | shutdown
  /-- the interval has passed -/
  | refresh (rndByte : Nat → Nat → Byte) (rndBit : Nat → Nat → Bool)
  /-- a peer told the UDP port of its DHT node -/
  | peerNode (addr : SockAddr)
  /-- the tasks that tell of peers are gone -/
  | peersGone
  /-- the connection hands over a query -/
  | query (q : FromConQuery)
  /-- the connection hands over an answer -/
  | resp (r : FromConResp)
  /-- the connection is gone -/
  | conGone
  /-- another task uses the table of known peers -/
  | others (op : Peers.Op)
  /-- time passes -/
  | pass (d : Nat)
  /-- a hash map may present its entries in another order -/
  | reorder

/-- One entry of a history. -/
structure Entry where
  event : Event
  outputs : List Out

/-- Two parts of a turn. -/
def andThen (r : Res (Manager × List Out)) : Res (Manager × List Out) := do
  let (m1, o1) ← r
  let (m2, o2) ← m1.endTurn
  .ok (m2, o1 ++ o2)

/-- One turn of the loop `dht_manager.rs:52-83`, or something that happens elsewhere; `pause k` is the sleep before
refresh `k` (`capped_growing_interval.rs`), which starts anew with every turn. -/
inductive Step (pause : Nat → Nat) : Manager → Entry → Manager → Prop
  | shutdown {m} : m.status = .running →
      Step pause m ⟨.shutdown, [.stored m.table]⟩ { m with status := .finished }
  | refresh {m m' o1 outs rb rt} : m.status = .running → m.since + pause m.refreshes ≤ m.now →
      m.refresh rb rt = .ok o1 → andThen (.ok ({ m with refreshes := m.refreshes + 1 }, o1)) = .ok (m', outs) →
      Step pause m ⟨.refresh rb rt, outs⟩ m'
  | peerNode {m m' addr outs} : m.status = .running → andThen (.ok (m, [ping addr])) = .ok (m', outs) →
      Step pause m ⟨.peerNode addr, outs⟩ m'
  | peersGone {m} : m.status = .running → Step pause m ⟨.peersGone, []⟩ { m with status := .failed }
  | query {m m' shuffle q outs} : m.status = .running → (∀ l, (shuffle l).Perm l) →
      andThen (m.processQuery shuffle q) = .ok (m', outs) → Step pause m ⟨.query q, outs⟩ m'
  | resp {m m' r outs} : m.status = .running → andThen (m.processResp r) = .ok (m', outs) →
      Step pause m ⟨.resp r, outs⟩ m'
  | conGone {m} : m.status = .running → Step pause m ⟨.conGone, []⟩ { m with status := .failed }
  | others {m op p} : Peers.Step m.peers op p → Step pause m ⟨.others op, []⟩ { m with peers := p }
  | pass {m d} : Step pause m ⟨.pass d, []⟩ { m with now := m.now + d }
  | reorder {m p} : m.peerMap.Perm p → Step pause m ⟨.reorder, []⟩ { m with peerMap := p }

/-- A history, the oldest entry first. -/
inductive Run (pause : Nat → Nat) : Manager → List Entry → Manager → Prop
  | nil {m} : Run pause m [] m
  | snoc {m m1 m2 h e} : Run pause m h m1 → Step pause m1 e m2 → Run pause m (h ++ [e]) m2

end Nargun.DhtManager
