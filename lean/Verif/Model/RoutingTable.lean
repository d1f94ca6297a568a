import Verif.Model.Addr

/-! # Model of `src/dht/routing_table/bucket.rs` and `src/dht/routing_table/table.rs`

Instants are numbers of nanoseconds.  Each call reads the clock once (parameter `now`); the code reads it once per
inspected node, a few nanoseconds apart (`RoutingTimed`). -/

namespace Nargun

/-- `src/dht/routing_table/mod.rs:10` `K_NODE_PER_BUCKET`. -/
def K_NODE_PER_BUCKET : Nat := 8

/-- `bucket.rs:12` `NODE_VALIDITY_SECS`, in nanoseconds. -/
def NODE_VALIDITY : Nat := 15 * 60 * 10 ^ 9

/-- `bucket.rs:14-18` `struct Bucket`: the depth and an array of 8 slots. -/
structure Bucket where
  depth : Nat
  data : List (Option Node)
  len_eq : data.length = K_NODE_PER_BUCKET
  deriving DecidableEq, Repr

/-- `bucket.rs:169-175` `Node::new_good`. -/
def Node.newGood (now : Nat) (id : ID) (addr : SockAddr) : Node := ⟨id, addr, some now⟩

/-- `bucket.rs:195-197` `Node::touch`. -/
def Node.touch (now : Nat) (n : Node) : Node := { n with lastSeen := some now }

/-- `bucket.rs:203-208` `Node::cmp_by_distance_to_id`. -/
def Node.cmpByDistance (a b : Node) (id : ID) : Ordering := (a.id.sub id).cmp (b.id.sub id)

/-- `bucket.rs:210-219` `Node::is_some_and_good(slot).is_some()`; `Instant::elapsed` saturates at zero. -/
def slotGood (now : Nat) : Option Node → Bool
  | none => false
  | some n => match n.lastSeen with
    | none => false
    | some t => decide (now - t < NODE_VALIDITY)

/-- `bucket.rs:221-223` `Node::is_some_with_id(slot, id).is_some()`. -/
def slotHasId (id : ID) : Option Node → Bool
  | none => false
  | some n => decide (n.id = id)

/-- Puts `x` in front of the first element that is not before it. -/
def insertSorted {α} (le : α → α → Bool) (x : α) : List α → List α
  | [] => [x]
  | y :: ys => if le x y then x :: y :: ys else y :: insertSorted le x ys

/-- `slice::sort_by`: a stable sort.  For a comparison that is a total preorder there is only one result; the algorithm
of the standard library is not modelled. -/
def stableSort {α} (le : α → α → Bool) : List α → List α
  | [] => []
  | x :: xs => insertSorted le x (stableSort le xs)

namespace Bucket

/-- `bucket.rs:41-46` `Bucket::new`. -/
def new (depth : Nat) : Bucket := ⟨depth, List.replicate K_NODE_PER_BUCKET none, List.length_replicate⟩

/-- Assignment to a slot (`self.data[i] = s`). -/
def setSlot (b : Bucket) (i : Nat) (s : Option Node) : Res Bucket :=
  if i < K_NODE_PER_BUCKET then .ok { b with data := b.data.set i s, len_eq := by simp [b.len_eq] } else .panic

/-- `bucket.rs:48-53` `Bucket::get_node`. -/
def getNode (b : Bucket) (id : ID) : Option Node := (b.data.find? (slotHasId id)).join

/-- `bucket.rs:55-60` `Bucket::get_node_mut` followed by `Node::touch` on the node found; `none` if there is
no such node. -/
def touch (b : Bucket) (now : Nat) (id : ID) : Option Bucket :=
  match b.data.findIdx? (slotHasId id) with
  | none => none
  | some i => some { b with
      data := b.data.set i ((b.data.getD i none).map (Node.touch now)), len_eq := by simp [b.len_eq] }

/-- `bucket.rs:124-143` `Bucket::find_replaceable_node`, `Bucket::find_replaceable_node_idx`. -/
def findReplaceable (b : Bucket) (now : Nat) : Option Nat :=
  match b.data.findIdx? (fun s => s.isNone) with
  | some i => some i
  | none => b.data.findIdx? (fun s => !slotGood now s)

/-- `bucket.rs:62-75` `Bucket::try_insert`; `err` is the error "bucket is full". -/
def tryInsert (b : Bucket) (now : Nat) (id : ID) (addr : SockAddr) : Res Bucket :=
  match b.touch now id with
  | some b' => .ok b'
  | none => match b.findReplaceable now with
    | none => .err
    | some i => b.setSlot i (some (Node.newGood now id addr))

/-- The loop of `bucket.rs:84-92`: state is `(zero, one, cur_left_idx, cur_right_idx)`. -/
def splitLoop (depth : Nat) : List Node → Bucket → Bucket → Nat → Nat → Res (Bucket × Bucket)
  | [], zero, one, _, _ => .ok (zero, one)
  | n :: ns, zero, one, l, r => do
    let bit ← n.id.getBit depth
    if bit then do
      let one' ← one.setSlot r (some n)
      splitLoop depth ns zero one' l (r + 1)
    else do
      let zero' ← zero.setSlot l (some n)
      splitLoop depth ns zero' one (l + 1) r

/-- `bucket.rs:109-111` `Bucket::iter_nodes`: the occupied slots in order. -/
def nodes (b : Bucket) : List Node := b.data.filterMap id

/-- `bucket.rs:77-95` `Bucket::split`. -/
def split (b : Bucket) : Res (Bucket × Bucket) :=
  splitLoop b.depth b.nodes (new (b.depth + 1)) (new (b.depth + 1)) 0 0

/-- `bucket.rs:97-99` `Bucket::contains`. -/
def contains (b : Bucket) (id : ID) : Bool := (b.getNode id).isSome

/-- `bucket.rs:101-103` `Bucket::is_full`. -/
def isFull (b : Bucket) (now : Nat) : Bool := (b.findReplaceable now).isNone

/-- `bucket.rs:113-115` `Bucket::iter_over_goods`. -/
def goods (b : Bucket) (now : Nat) : List Node := (b.data.filter (slotGood now)).filterMap id

/-- `bucket.rs:117-122` `Bucket::id_within_bucket_range`. -/
def idWithinRange (b : Bucket) (own id : ID) : Bool :=
  match own.firstDiffBitIdx id with
  | none => true
  | some d => decide (d > b.depth)

end Bucket

/-- `table.rs:18-22` `struct RoutingTable`. -/
structure RoutingTable where
  ownId : ID
  data : List Bucket
  deriving DecidableEq, Repr

namespace RoutingTable

/-- `table.rs:247-253` `RoutingTable::default`; the random own id is a parameter. -/
def default (own : ID) : RoutingTable := ⟨own, [Bucket.new 0]⟩

/-- `table.rs:69-71` `RoutingTable::iter_nodes`. -/
def iterNodes (t : RoutingTable) : List Node := t.data.flatMap Bucket.nodes

/-- `table.rs:73-78` `RoutingTable::count_good_nodes`. -/
def countGoodNodes (t : RoutingTable) (now : Nat) : Nat := (t.data.map (fun b => (b.goods now).length)).sum

/-- `table.rs:80-82` `RoutingTable::count_nodes`. -/
def countNodes (t : RoutingTable) : Nat := t.iterNodes.length

/-- `table.rs:84-86` `RoutingTable::is_empty`. -/
def isEmpty (t : RoutingTable) : Bool := decide (t.countNodes = 0)

/-- `table.rs:185-197` `RoutingTable::find_bucket_idx_by_id` (debug build: `len() - 1` panics on an empty
table). -/
def findBucketIdx (t : RoutingTable) (id : ID) : Res Nat :=
  match t.ownId.firstDiffBitIdx id with
  | none => usub t.data.length 1
  | some d => if d ≥ t.data.length then usub t.data.length 1 else .ok d

/-- `table.rs:173-177` `RoutingTable::get_bucket`. -/
def getBucket (t : RoutingTable) (id : ID) : Res Bucket := do
  let i ← t.findBucketIdx id
  index t.data i

/-- Assignment through the reference returned by `table.rs:179-183` `RoutingTable::get_bucket_mut`. -/
def setBucket (t : RoutingTable) (id : ID) (b : Bucket) : Res RoutingTable := do
  let i ← t.findBucketIdx id
  .ok { t with data := t.data.set i b }

/-- `table.rs:221-223` `RoutingTable::try_insert`. -/
def tryInsert (t : RoutingTable) (now : Nat) (id : ID) (addr : SockAddr) : Res RoutingTable := do
  let b ← t.getBucket id
  let b' ← b.tryInsert now id addr
  t.setBucket id b'

/-- `table.rs:225-230` `RoutingTable::id_within_splittable_bucket`. -/
def idWithinSplittable (t : RoutingTable) (id : ID) : Res Bool := do
  let last ← Res.unwrap t.data.getLast?
  .ok (last.idWithinRange t.ownId id)

/-- `table.rs:217-219` `RoutingTable::max_depth_reached`. -/
def maxDepthReached (t : RoutingTable) : Bool := decide (t.data.length = 161)

/-- `table.rs:232-243` `RoutingTable::split`. -/
def split (t : RoutingTable) : Res RoutingTable := do
  let last ← Res.unwrap t.data.getLast?
  let parentDepth := last.depth
  let halves ← last.split
  let pair ← t.ownId.bitBasedOrder parentDepth halves.2 halves.1
  .ok { t with data := t.data.dropLast ++ [pair.2, pair.1] }

/-- `table.rs:199-215` `RoutingTable::insert_new_good`.  The recursion is bounded by a counter; theorem
`insertNewGood_spec` shows that it never runs out. -/
def insertNewGood (now : Nat) (id : ID) (addr : SockAddr) : Nat → RoutingTable → Res RoutingTable
  | 0, _ => .panic
  | fuel + 1, t =>
    match t.tryInsert now id addr with
    | .ok t' => .ok t'
    | .panic => .panic
    | .err => do
      let within ← t.idWithinSplittable id
      if within = false then .ok t
      else if t.maxDepthReached then .ok t
      else do
        let t' ← t.split
        insertNewGood now id addr fuel t'

/-- `table.rs:120-128` `RoutingTable::touch_node`. -/
def touchNode (t : RoutingTable) (now : Nat) (id : ID) (addr : SockAddr) : Res RoutingTable := do
  let b ← t.getBucket id
  match b.touch now id with
  | some b' => t.setBucket id b'
  | none => insertNewGood now id addr 162 t

/-- `table.rs:130-132` `RoutingTable::contains_node`. -/
def containsNode (t : RoutingTable) (id : ID) : Res Bool := do
  let b ← t.getBucket id
  .ok (b.contains id)

/-- The loop of `table.rs:143-151`. -/
def collectGoods (now : Nat) : List Node → List Bucket → List Node
  | acc, [] => acc
  | acc, b :: bs =>
    if (acc ++ b.goods now).length ≥ K_NODE_PER_BUCKET then acc ++ b.goods now
    else collectGoods now (acc ++ b.goods now) bs

/-- `table.rs:138-171` `RoutingTable::get_closest_nodes`; `sort_by` is a stable sort. -/
def getClosestNodes (t : RoutingTable) (now : Nat) (id : ID) : Res (Option (List Node)) := do
  let i ← t.findBucketIdx id
  let upper ← sliceFrom t.data i
  let nodes := collectGoods now [] (upper ++ (t.data.take i).reverse)
  if nodes ≠ [] then .ok (some (stableSort (fun a b => decide (a.cmpByDistance b id ≠ .gt)) nodes))
  else .ok none

/-- `table.rs:134-136` `RoutingTable::get_closest_node`. -/
def getClosestNode (t : RoutingTable) (now : Nat) (id : ID) : Res (Option Node) := do
  let o ← t.getClosestNodes now id
  .ok (o.bind (fun ns => ns[0]?))

/-- `table.rs:88-96` `RoutingTable::find_node`. -/
def findNode (t : RoutingTable) (now : Nat) (id : ID) : Res (Option Nodes) := do
  let b ← t.getBucket id
  match b.getNode id with
  | some n => .ok (some (.exact n))
  | none => do
    let o ← t.getClosestNodes now id
    .ok (o.map .closest)

/-- What the random source and the clock yield while one bucket is handled. -/
structure RefreshDraw where
  now : Nat
  rndByte : Nat → Byte
  rndBit : Nat → Bool

/-- The closure of `table.rs:101-111`. -/
def refreshTarget (own : ID) (d : RefreshDraw) (b : Bucket) : Res (Option ID) :=
  if b.isFull d.now then .ok none
  else do
    let i ← usub b.depth 1
    let id ← own.flipBit i
    let id' ← ID.randomizeAfterBit d.rndByte d.rndBit id i
    .ok (some id')

/-- `filter_map` over the buckets; `draws k` belongs to bucket `k`. -/
def refreshTargets (own : ID) (draws : Nat → RefreshDraw) : Nat → List Bucket → Res (List ID)
  | _, [] => .ok []
  | k, b :: bs => do
    let o ← refreshTarget own (draws k) b
    let rest ← refreshTargets own draws (k + 1) bs
    .ok (o.toList ++ rest)

/-- `table.rs:98-118` `RoutingTable::iter_over_ids_within_fillable_buckets`: all ids the iterator yields.  It is
lazy and the consumer awaits between ids, so every bucket has its own clock reading and random draws. -/
def fillableIds (t : RoutingTable) (draws : Nat → RefreshDraw) : Res (List ID) := do
  let n ← usub t.data.length 1
  let nonOwn ← refreshTargets t.ownId draws 0 (t.data.take n)
  let last := t.data.getLast?.bind (fun b =>
    if t.data.length ≤ ID_BIT_COUNT ∨ b.isFull (draws n).now = true then some t.ownId else none)
  .ok (nonOwn ++ last.toList)

end RoutingTable
end Nargun
