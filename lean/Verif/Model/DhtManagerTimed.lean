import Verif.Model.DhtManager
import Verif.Model.RoutingTimed

/-! # `src/dht/dht_manager.rs` with all its readings of the clock

`DhtManager` reads the clock once per turn. The code reads it for every node whose goodness is asked for, and a turn can take
any time, because the task waits whenever the queue of the connection is full (`connection_handle.rs`). Here a turn has a
beginning and an end, and every reading during the turn is a value of its own. Everything that does not read the clock is
as in `DhtManager`. -/

namespace Nargun

/-- `bucket.rs:101-103` `Bucket::is_full`; `exam i` is read when slot `i` is looked at. -/
def Bucket.isFullAt (b : Bucket) (exam : Nat → Nat) : Bool := (b.findReplaceableAt exam).isNone

/-- `table.rs:88-96` `RoutingTable::find_node`. -/
def RoutingTable.findNodeAt (t : RoutingTable) (exam : Nat → Nat → Nat) (id : ID) : Res (Option Nodes) := do
  let b ← t.getBucket id
  match b.getNode id with
  | some n => .ok (some (.exact n))
  | none => do
    let o ← t.getClosestNodesAt exam id
    .ok (o.map .closest)

/-- The closure of `table.rs:101-111`. -/
def RoutingTable.refreshTargetAt (own : ID) (exam : Nat → Nat) (rndByte : Nat → Byte) (rndBit : Nat → Bool) (b : Bucket) :
    Res (Option ID) :=
  if b.isFullAt exam then .ok none
  else do
    let i ← usub b.depth 1
    let id ← own.flipBit i
    let id' ← ID.randomizeAfterBit rndByte rndBit id i
    .ok (some id')

end Nargun

namespace Nargun.DhtManager

open Nargun Dht Krpc RoutingTable

/-- The readings of the clock during one turn. -/
structure TurnClock where
  /-- `is_full` of bucket `k`, slot `i` -/
  full : Nat → Nat → Nat
  /-- `get_closest_node` for the id of bucket `k` -/
  look : Nat → Nat → Nat → Nat
  /-- `find_node` for a query of another node -/
  find : Nat → Nat → Nat
  /-- `touch_node` -/
  touch : TouchClock
  /-- `count_good_nodes` at the end of the turn -/
  count : Nat → Nat → Nat
  /-- `get_closest_nodes` in `spawn_fetcher` -/
  spawn : Nat → Nat → Nat
  /-- the end of the turn -/
  done : Nat

/-- The clock stands still during the turn, as in `DhtManager`. -/
def TurnClock.still (now : Nat) : TurnClock :=
  ⟨fun _ _ => now, fun _ _ _ => now, fun _ _ => now, .still now, fun _ _ => now, fun _ _ => now, now⟩

/-- `dht_manager.rs:91-95`: the query for one id. -/
def askClosestAt (t : RoutingTable) (exam : Nat → Nat → Nat) (id : ID) : Res (List Out) := do
  let o ← t.getClosestNodesAt exam id
  .ok ((o.bind fun ns => ns[0]?).map fun n => Out.send (.query OWN_CHANNEL n.addr (.findNode id))).toList

/-- `dht_manager.rs:90-96` over the buckets before the last one; the iterator is lazy, so that the queries for one bucket
are sent before the next bucket is looked at. `k` is the index of the first bucket of the list. -/
def refreshLoopAt (t : RoutingTable) (clk : TurnClock) (rndByte : Nat → Nat → Byte) (rndBit : Nat → Nat → Bool) :
    Nat → List Bucket → Res (List Out)
  | _, [] => .ok []
  | k, b :: bs => do
    let o ← refreshTargetAt t.ownId (clk.full k) (rndByte k) (rndBit k) b
    let outs ← match o with
      | some id => askClosestAt t (clk.look k) id
      | none => .ok []
    let rest ← refreshLoopAt t clk rndByte rndBit (k + 1) bs
    .ok (outs ++ rest)

/-- `dht_manager.rs:86-98` `refresh_table`, with `table.rs:98-118`. -/
def refreshAt (t : RoutingTable) (clk : TurnClock) (rndByte : Nat → Nat → Byte) (rndBit : Nat → Nat → Bool) :
    Res (List Out) := do
  let n ← usub t.data.length 1
  let outs ← refreshLoopAt t clk rndByte rndBit 0 (t.data.take n)
  let last ← match t.data.getLast? with
    | some b =>
      if t.data.length ≤ ID_BIT_COUNT ∨ b.isFullAt (clk.full n) = true then askClosestAt t (clk.look n) t.ownId else .ok []
    | none => .ok []
  .ok (outs ++ last)

/-- `dht_manager.rs:100-169` `process_query`, `process_find_node_query`, `process_get_peers_query`. -/
def Manager.processQueryAt (m : Manager) (clk : TurnClock) (shuffle : List Peer → List Peer) :
    FromConQuery → Res (Manager × List Out)
  | .findNode target qid => do
    let o ← m.table.findNodeAt clk.find target
    .ok (m, (o.map fun nodes => Out.send (.resp qid (.findNode nodes))).toList)
  | .getPeers infoHash qid =>
    match m.findPeers shuffle infoHash with
    | (m1, some ps) => .ok (m1, [.send (.resp qid (.getPeers (.values ps)))])
    | (m1, none) => do
      let o ← m1.table.findNodeAt clk.find infoHash
      .ok (m1, (o.map fun nodes => Out.send (.resp qid (.getPeers (.nodes nodes)))).toList)
  | .newPeer newPeer infoHash => .ok (m.storeNewPeer newPeer infoHash, [])

/-- `dht_manager.rs:205-237` `process_resp`, `ping_unknown_nodes`. -/
def Manager.processRespAt (m : Manager) (clk : TurnClock) : FromConResp → Res (Manager × List Out)
  | .touch id sender => do
    let t ← m.table.touchNodeAt clk.touch id sender
    .ok ({ m with table := t }, [])
  | .newNodes nodes sender id => do
    let t ← m.table.touchNodeAt clk.touch id sender
    let unknown ← unknownAddresses t nodes.list
    .ok ({ m with table := t }, unknown.map ping)
  | .getPeers _ _ _ => .ok (m, [])

/-- `dht_manager.rs:70-82`: the end of a turn. Between the counting and the choice of the nodes the clock goes on, so that
there may be no good node left; `spawn_fetcher` then fails and the task goes on waiting for one. -/
def Manager.endTurnAt (m : Manager) (clk : TurnClock) : Res (Manager × List Out) := do
  let next := { m with since := clk.done, now := clk.done }
  if m.waitForGood && decide (m.table.countGoodNodesAt clk.count > 0) then do
    let o ← m.table.getClosestNodesAt clk.spawn m.infoHash
    match o with
    | some nodes => .ok ({ next with waitForGood := false }, [.lookups nodes])
    | none => .ok (next, [])
  else .ok (next, [])

/-- Two parts of a turn. -/
def andThenAt (clk : TurnClock) (r : Res (Manager × List Out)) : Res (Manager × List Out) := do
  let (m1, o1) ← r
  let (m2, o2) ← m1.endTurnAt clk
  .ok (m2, o1 ++ o2)

/-- What the loop does with an event that reads the clock or waits, as far as it does not depend on the state of the task
whether it can happen (`dht_manager.rs:58-68`). -/
def Manager.turnAt (m : Manager) (clk : TurnClock) (shuffle : List Peer → List Peer) : Event → Res (Manager × List Out)
  | .refresh rb rt => andThenAt clk (do
      let o ← refreshAt m.table clk rb rt
      .ok ({ m with refreshes := m.refreshes + 1 }, o))
  | .peerNode addr => andThenAt clk (.ok (m, [ping addr]))
  | .query q => andThenAt clk (m.processQueryAt clk shuffle q)
  | .resp r => andThenAt clk (m.processRespAt clk r)
  | _ => .err

/-- All readings of a turn are between its beginning and its end. -/
structure TurnClock.During (clk : TurnClock) (t0 : Nat) : Prop where
  full : ∀ k i, t0 ≤ clk.full k i ∧ clk.full k i ≤ clk.done
  look : ∀ j k i, t0 ≤ clk.look j k i ∧ clk.look j k i ≤ clk.done
  find : ∀ k i, t0 ≤ clk.find k i ∧ clk.find k i ≤ clk.done
  exam : ∀ k i, t0 ≤ clk.touch.exam k i ∧ clk.touch.exam k i ≤ clk.done
  stamp : t0 ≤ clk.touch.stamp ∧ clk.touch.stamp ≤ clk.done
  count : ∀ k i, t0 ≤ clk.count k i ∧ clk.count k i ≤ clk.done
  spawn : ∀ k i, t0 ≤ clk.spawn k i ∧ clk.spawn k i ≤ clk.done

/-- One turn of the loop `dht_manager.rs:52-83`, during which any time may pass, or something that happens elsewhere. -/
inductive TimedStep (pause : Nat → Nat) : Manager → Entry → Manager → Prop
  | turn {m m' clk shuffle ev outs} : m.status = .running → (∀ l, (shuffle l).Perm l) → clk.During m.now →
      ((∃ rb rt, ev = .refresh rb rt) → m.since + pause m.refreshes ≤ m.now) →
      m.turnAt clk shuffle ev = .ok (m', outs) → TimedStep pause m ⟨ev, outs⟩ m'
  | shutdown {m} : m.status = .running →
      TimedStep pause m ⟨.shutdown, [.stored m.table]⟩ { m with status := .finished }
  | peersGone {m} : m.status = .running → TimedStep pause m ⟨.peersGone, []⟩ { m with status := .failed }
  | conGone {m} : m.status = .running → TimedStep pause m ⟨.conGone, []⟩ { m with status := .failed }
  | others {m op p} : Peers.Step m.peers op p → TimedStep pause m ⟨.others op, []⟩ { m with peers := p }
  | pass {m d} : TimedStep pause m ⟨.pass d, []⟩ { m with now := m.now + d }
  | reorder {m p} : m.peerMap.Perm p → TimedStep pause m ⟨.reorder, []⟩ { m with peerMap := p }

/-- A history, the oldest entry first. -/
inductive TimedRun (pause : Nat → Nat) : Manager → List Entry → Manager → Prop
  | nil {m} : TimedRun pause m [] m
  | snoc {m m1 m2 h e} : TimedRun pause m h m1 → TimedStep pause m1 e m2 → TimedRun pause m (h ++ [e]) m2

end Nargun.DhtManager
