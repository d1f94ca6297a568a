import Verif.Model.RoutingTable

/-! # `src/dht/routing_table/bucket.rs` and `table.rs` with all their readings of the clock

`RoutingTable` reads the clock once per call. The code reads it once for every node whose goodness is asked for
(`bucket.rs:214`), and once more when a node is stored or touched (`bucket.rs:173`, `196`). Here every such reading is a
value of its own. Everything that does not read the clock is as in `RoutingTable`. -/

namespace Nargun

/-- The readings during one sighting: `exam k i` when slot `i` is looked at while the table has `k` buckets, `stamp` when
the node is stored or touched. (Each round of `insert_new_good` has another number of buckets.) -/
structure TouchClock where
  exam : Nat → Nat → Nat
  stamp : Nat

/-- The clock stands still during the call. -/
def TouchClock.still (now : Nat) : TouchClock := ⟨fun _ _ => now, now⟩

/-- `bucket.rs:135-138`: the first slot whose node is not good when it is looked at; `i` is the index of the first slot of
the list. -/
def firstBadAt (exam : Nat → Nat) : Nat → List (Option Node) → Option Nat
  | _, [] => none
  | i, s :: l => if slotGood (exam i) s then firstBadAt exam (i + 1) l else some i

/-- The nodes of the slots that are good when they are looked at. -/
def goodSlotsAt (exam : Nat → Nat) : Nat → List (Option Node) → List Node
  | _, [] => []
  | i, s :: l => (if slotGood (exam i) s then s.toList else []) ++ goodSlotsAt exam (i + 1) l

namespace Bucket

/-- `bucket.rs:124-143` `Bucket::find_replaceable_node`, `Bucket::find_replaceable_node_idx`. -/
def findReplaceableAt (b : Bucket) (exam : Nat → Nat) : Option Nat :=
  match b.data.findIdx? (fun s => s.isNone) with
  | some i => some i
  | none => firstBadAt exam 0 b.data

/-- `bucket.rs:62-75` `Bucket::try_insert`. -/
def tryInsertAt (b : Bucket) (exam : Nat → Nat) (stamp : Nat) (id : ID) (addr : SockAddr) : Res Bucket :=
  match b.touch stamp id with
  | some b' => .ok b'
  | none => match b.findReplaceableAt exam with
    | none => .err
    | some i => b.setSlot i (some (Node.newGood stamp id addr))

/-- `bucket.rs:113-115` `Bucket::iter_over_goods`. -/
def goodsAt (b : Bucket) (exam : Nat → Nat) : List Node := goodSlotsAt exam 0 b.data

end Bucket

namespace RoutingTable

/-- `table.rs:221-223` `RoutingTable::try_insert`. -/
def tryInsertAt (t : RoutingTable) (clk : TouchClock) (id : ID) (addr : SockAddr) : Res RoutingTable := do
  let b ← t.getBucket id
  let b' ← b.tryInsertAt (clk.exam t.data.length) clk.stamp id addr
  t.setBucket id b'

/-- `table.rs:199-215` `RoutingTable::insert_new_good`.  The recursion is bounded by a counter; theorem
`insertNewGoodAt_spec` shows that it never runs out. -/
def insertNewGoodAt (clk : TouchClock) (id : ID) (addr : SockAddr) : Nat → RoutingTable → Res RoutingTable
  | 0, _ => .panic
  | fuel + 1, t =>
    match t.tryInsertAt clk id addr with
    | .ok t' => .ok t'
    | .panic => .panic
    | .err => do
      let within ← t.idWithinSplittable id
      if within = false then .ok t
      else if t.maxDepthReached then .ok t
      else do
        let t' ← t.split
        insertNewGoodAt clk id addr fuel t'

/-- `table.rs:120-128` `RoutingTable::touch_node`. -/
def touchNodeAt (t : RoutingTable) (clk : TouchClock) (id : ID) (addr : SockAddr) : Res RoutingTable := do
  let b ← t.getBucket id
  match b.touch clk.stamp id with
  | some b' => t.setBucket id b'
  | none => insertNewGoodAt clk id addr 162 t

/-- The loop of `table.rs:143-151`; `exam k i` is read when slot `i` of the `k`-th bucket of the loop is looked at. -/
def collectGoodsAt (exam : Nat → Nat → Nat) : Nat → List Node → List Bucket → List Node
  | _, acc, [] => acc
  | k, acc, b :: bs =>
    if (acc ++ b.goodsAt (exam k)).length ≥ K_NODE_PER_BUCKET then acc ++ b.goodsAt (exam k)
    else collectGoodsAt exam (k + 1) (acc ++ b.goodsAt (exam k)) bs

/-- `table.rs:138-171` `RoutingTable::get_closest_nodes`. -/
def getClosestNodesAt (t : RoutingTable) (exam : Nat → Nat → Nat) (id : ID) : Res (Option (List Node)) := do
  let i ← t.findBucketIdx id
  let upper ← sliceFrom t.data i
  let nodes := collectGoodsAt exam 0 [] (upper ++ (t.data.take i).reverse)
  if nodes ≠ [] then .ok (some (stableSort (fun a b => decide (a.cmpByDistance b id ≠ .gt)) nodes))
  else .ok none

/-- `map(|bucket| bucket.iter_over_goods().count())` at `table.rs:74-76`; `exam k` belongs to bucket `k`. -/
def countsAt (exam : Nat → Nat → Nat) : Nat → List Bucket → List Nat
  | _, [] => []
  | k, b :: bs => (b.goodsAt (exam k)).length :: countsAt exam (k + 1) bs

/-- `table.rs:73-78` `RoutingTable::count_good_nodes`. -/
def countGoodNodesAt (t : RoutingTable) (exam : Nat → Nat → Nat) : Nat := (countsAt exam 0 t.data).sum

end RoutingTable
end Nargun
