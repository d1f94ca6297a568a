import Verif.Conformance.Basic
import Verif.Conformance.Data
import Verif.Model.Krpc
import Verif.Model.DhtConnection
import Verif.Model.RoutingTable
import Verif.Model.TableFile

/-! # Unit tests of `src/dht`, run on the model -/

namespace Nargun.Conformance

open Spec (ascii)
open Krpc

/-! ## `krpc_message.rs` -/

/-- All byte strings and integers of these tests pass the libraries. -/
def lib : Lib := ⟨fun _ => true, fun _ => true⟩

/-- Three IDs the tests use. -/
def idA : ID := idOf (ascii "abcdefghij0123456789")
/-- See `idA`. -/
def idM : ID := idOf (ascii "mnopqrstuvwxyz123456")
/-- See `idA`. -/
def idD : ID := idOf (ascii "0123456789abcdefghij")

/-- The three nodes the tests use. -/
def threeNodes : List Node :=
  [nodeOf "rdYAxWC9Zi!A97zKJUbH9HVcgP", nodeOf "7Z5cQScmZcC4M2hYKy!JrcYPtT", nodeOf "9^jy^pm8sZQy3dukB$CF9^o@of"]

/-- `krpc_message.rs:400-413` `encoded_with_custom_tid!`. -/
def encodedWithTid (start : String) (tid : Bytes) : Bytes :=
  ascii start ++ [BitVec.ofNat 8 (0x30 + tid.length)] ++ ascii ":" ++ tid ++ ascii "1:y1:qe"

/-- In place of `rand_tid()`. -/
def aTid : Bytes := bytes [7, 0, 255, 58, 100]

/-- `krpc_message.rs:415-430` `node_from_compact`. -/
example : Node.fromCompact (ascii "qwertyuiopasdfghjklzyhf5aa") =
      .ok ⟨idOf (ascii "qwertyuiopasdfghjklz"), addr 121 104 102 53 24929, none⟩ ∧
    isErr (Node.fromCompact (ascii "qwertyuiopasdfghjklzyhf5aayhf5aa++")) = true ∧
    isErr (Node.fromCompact (ascii "yhf")) = true := by decide +kernel

/-- `krpc_message.rs:444-461` `encode::ping_query`. -/
example : (Message.pingQuery idA aTid).intoBytes =
    encodedWithTid "d1:ad2:id20:abcdefghij0123456789e1:q4:ping1:t" aTid := by decide +kernel

/-- `krpc_message.rs:463-474` `encode::ping_resp`. -/
example : (Message.pingResp idM (ascii "aa")).intoBytes = ascii "d1:rd2:id20:mnopqrstuvwxyz123456e1:t2:aa1:y1:re" := by
  decide +kernel

/-- `krpc_message.rs:476-496` `encode::find_nodes_query`. -/
example : (Message.findNodesQuery idA idM aTid).intoBytes =
    encodedWithTid "d1:ad2:id20:abcdefghij01234567896:target20:mnopqrstuvwxyz123456e1:q9:find_node1:t" aTid := by
  decide +kernel

/-- `krpc_message.rs:498-514` `encode::find_nodes_resp_closest`. -/
example : (Message.findNodesResp idD (.closest threeNodes) (ascii "aa")).intoBytes =
    ascii "d1:rd2:id20:0123456789abcdefghij5:nodes78:rdYAxWC9Zi!A97zKJUbH9HVcgP7Z5cQScmZcC4M2hYKy!JrcYPtT9^jy^pm8sZQy3dukB$CF9^o@ofe1:t2:aa1:y1:re" := by
  decide +kernel

/-- `krpc_message.rs:516-528` `encode::find_nodes_resp_exact`. -/
example : (Message.findNodesResp idD (.exact (nodeOf "rdYAxWC9Zi!A97zKJUbH9HVcgP")) (ascii "aa")).intoBytes =
    ascii "d1:rd2:id20:0123456789abcdefghij5:nodes26:rdYAxWC9Zi!A97zKJUbH9HVcgPe1:t2:aa1:y1:re" := by decide +kernel

/-- `krpc_message.rs:530-550` `encode::get_peers_query`. -/
example : (Message.getPeersQuery idA idM aTid).intoBytes =
    encodedWithTid "d1:ad2:id20:abcdefghij01234567899:info_hash20:mnopqrstuvwxyz123456e1:q9:get_peers1:t" aTid := by
  decide +kernel

/-- The two peers of the tests. -/
def twoPeers : List Peer := [⟨addr 97 120 106 101 11893⟩, ⟨addr 105 100 104 116 28269⟩]

/-- `krpc_message.rs:552-576` `encode::get_peers_resp_vals`. -/
example : (Message.getPeersResp idA (ascii "aoeusnth") (.values twoPeers) (ascii "aa")).intoBytes =
    ascii "d1:rd2:id20:abcdefghij01234567895:token8:aoeusnth6:valuesl6:axje.u6:idhtnmee1:t2:aa1:y1:re" := by
  decide +kernel

/-- `krpc_message.rs:578-597` `encode::get_peers_resp_nodes`. -/
example : (Message.getPeersResp idA (ascii "aoeusnth") (.nodes (.closest threeNodes)) (ascii "aa")).intoBytes =
    ascii "d1:rd2:id20:abcdefghij01234567895:nodes78:rdYAxWC9Zi!A97zKJUbH9HVcgP7Z5cQScmZcC4M2hYKy!JrcYPtT9^jy^pm8sZQy3dukB$CF9^o@of5:token8:aoeusnthe1:t2:aa1:y1:re" := by
  decide +kernel

/-- `krpc_message.rs:599-621` `encode::announce_peer_query`. -/
example : (Message.announcePeerQuery idA idM 6881#16 (ascii "aoeusnth") aTid).intoBytes =
    encodedWithTid "d1:ad2:id20:abcdefghij01234567899:info_hash20:mnopqrstuvwxyz1234564:porti6881e5:token8:aoeusnthe1:q13:announce_peer1:t" aTid := by
  decide +kernel

/-- `krpc_message.rs:623-634` `encode::announce_peer_resp`. -/
example : (Message.announcePeerResp idM (ascii "aa")).intoBytes =
    ascii "d1:rd2:id20:mnopqrstuvwxyz123456e1:t2:aa1:y1:re" := by decide +kernel

/-- `krpc_message.rs:636-650` `encode::error`. -/
example : (Message.error (ascii "aa") typeE [.code 201#32, .desc (ascii "A Generic Error Ocurred")]).intoBytes =
    ascii "d1:eli201e23:A Generic Error Ocurrede1:t2:aa1:y1:ee" := by decide +kernel

/-- `krpc_message.rs:661-684` `decode::ping_query`. -/
example : Message.fromBytes lib (ascii "d1:ad2:id20:abcdefghij0123456789e1:q4:ping1:t2:aa1:y1:qe") =
    .ok (.query (ascii "aa") 0x71#8 (ascii "ping") (.ping idA)) := by decide +kernel

/-- `krpc_message.rs:686-707` `decode::ping_resp`. -/
example : Message.fromBytes lib (ascii "d1:rd2:id20:mnopqrstuvwxyz123456e1:t2:aa1:y1:re") =
    .ok (.response (ascii "aa") 0x72#8 (.ping idM)) := by decide +kernel

/-- `krpc_message.rs:709-734` `decode::find_nodes_query`. -/
example : Message.fromBytes lib
      (ascii "d1:ad2:id20:abcdefghij01234567896:target20:mnopqrstuvwxyz123456e1:q9:find_node1:t2:aa1:y1:qe") =
    .ok (.query (ascii "aa") 0x71#8 (ascii "find_node") (.findNode idA idM)) := by decide +kernel

/-- `krpc_message.rs:736-766` `decode::find_nodes_resp_closest`. -/
example : Message.fromBytes lib
      (ascii "d1:rd2:id20:0123456789abcdefghij5:nodes78:rdYAxWC9Zi!A97zKJUbH9HVcgP7Z5cQScmZcC4M2hYKy!JrcYPtT9^jy^pm8sZQy3dukB$CF9^o@ofe1:t2:aa1:y1:re") =
      .ok (.response (ascii "aa") 0x72#8 (.findNode idD (.closest threeNodes))) ∧
    threeNodes.length = 3 ∧ threeNodes[1]?.map (·.id) = some (idOf (ascii "7Z5cQScmZcC4M2hYKy!J")) ∧
    threeNodes[2]?.map (·.addr) = some (addr 57 94 111 64 28518) := by decide +kernel

/-- `krpc_message.rs:768-795` `decode::find_nodes_resp_exact`. -/
example : Message.fromBytes lib
      (ascii "d1:rd2:id20:0123456789abcdefghij5:nodes26:rdYAxWC9Zi!A97zKJUbH9HVcgPe1:t2:aa1:y1:re") =
    .ok (.response (ascii "aa") 0x72#8 (.findNode idD
      (.exact ⟨idOf (ascii "rdYAxWC9Zi!A97zKJUbH"), addr 57 72 86 99 26448, none⟩))) := by decide +kernel

/-- `krpc_message.rs:797-822` `decode::get_peers_query`. -/
example : Message.fromBytes lib
      (ascii "d1:ad2:id20:abcdefghij01234567899:info_hash20:mnopqrstuvwxyz123456e1:q9:get_peers1:t2:aa1:y1:qe") =
    .ok (.query (ascii "aa") 0x71#8 (ascii "get_peers") (.getPeers idA idM)) := by decide +kernel

/-- `krpc_message.rs:824-871` `decode::get_peers_resp_vals`. -/
example : Message.fromBytes lib
      (ascii "d1:rd2:id20:abcdefghij01234567895:token8:aoeusnth6:valuesl6:axje.u6:idhtnmee1:t2:aa1:y1:re") =
    .ok (.response (ascii "aa") 0x72#8 (.getPeers idA (ascii "aoeusnth") (.values twoPeers))) := by decide +kernel

/-- `krpc_message.rs:873-912` `decode::get_peers_resp_nodes`. -/
example : Message.fromBytes lib
      (ascii "d1:rd2:id20:abcdefghij01234567895:nodes78:rdYAxWC9Zi!A97zKJUbH9HVcgP7Z5cQScmZcC4M2hYKy!JrcYPtT9^jy^pm8sZQy3dukB$CF9^o@of5:token8:aoeusnthe1:t2:aa1:y1:re") =
    .ok (.response (ascii "aa") 0x72#8 (.getPeers idA (ascii "aoeusnth") (.nodes (.closest threeNodes)))) := by
  decide +kernel

/-- `krpc_message.rs:914-945` `decode::announce_peer_query`. -/
example : Message.fromBytes lib
      (ascii "d1:ad2:id20:abcdefghij012345678912:implied_porti1e9:info_hash20:mnopqrstuvwxyz1234564:porti6881e5:token8:aoeusnthe1:q13:announce_peer1:t2:aa1:y1:qe") =
    .ok (.query (ascii "aa") 0x71#8 (ascii "announce_peer") (.announcePeer idA idM 6881#16 (ascii "aoeusnth"))) := by
  decide +kernel

/-- `krpc_message.rs:956-981` `decode::error`. -/
example : Message.fromBytes lib (ascii "d1:eli201e23:A Generic Error Ocurrede1:t2:aa1:y1:ee") =
    .ok (.error (ascii "aa") 0x65#8 [.code 201#32, .desc (ascii "A Generic Error Ocurred")]) := by decide +kernel

/-! ## `connection/pending.rs` and `connection/channel_message/to_connection.rs` -/

/-- `pending.rs:76-87` `from_message`. -/
example : Dht.RequestType.ofMessage
    (.getPeersQuery (idOf []) (idOf (bytes [0, 1, 2, 3, 4, 5, 6, 7, 8, 9, 0, 1, 2, 3, 4, 5, 6, 7, 8, 9])) aTid) =
    .ok .getPeers := by decide +kernel

/-- `pending.rs:89-98` `from_message_panic`. -/
example : Dht.RequestType.ofMessage (.announcePeerResp (idOf []) (ascii "bytes")) = .panic := by decide +kernel

/-- `pending.rs:100-113` `from_response`. -/
example : (match Message.announcePeerResp (idOf []) (ascii "bytes") with
    | .response _ _ r => some (Dht.RequestType.ofResponse r)
    | _ => none) = some .announcePeer := by decide +kernel

/-- `to_connection.rs:97-115` `query_into_message`. -/
example : ((Dht.ToConQuery.getPeers otherId).intoMessage someId aTid).intoBytes.take 70 =
    (Message.getPeersQuery someId otherId (ascii "other")).intoBytes.take 70 := by decide +kernel

/-- `to_connection.rs:117-146` `resp_into_message`. -/
example : ((Dht.ToConResp.findNode (.exact (nodeOf "rdYAxWC9Zi!A97zKJUbH9HVcgP"))).intoMessage someId (ascii "bytes")
      (ascii "a token")).intoBytes =
    (Message.findNodesResp someId (.exact (nodeOf "rdYAxWC9Zi!A97zKJUbH9HVcgP")) (ascii "bytes")).intoBytes := by
  decide +kernel

/-! ## `routing_table/bucket.rs` -/

/-- `zero_id_with_first!` of `table.rs:423-429`. -/
def firstByte (b : Nat) : ID := idOf (bytes (b :: List.replicate 19 0))

/-- Entries tried one after the other, one nanosecond apart. -/
def tryAll : Nat → List ID → Bucket → Res Bucket
  | _, [], b => .ok b
  | now, i :: is, b => do
    let b ← b.tryInsert now i (addr 1 2 3 4 5)
    tryAll (now + 1) is b

/-- `bucket.rs` `_count_empty`. -/
def countEmpty (b : Bucket) : Nat := b.data.countP Option.isNone

/-- Whether the entry at one slot was seen later than the one at another. -/
def seenLater (b : Bucket) (i j : Nat) : Bool :=
  match (b.data.getD i none).bind (·.lastSeen), (b.data.getD j none).bind (·.lastSeen) with
  | some x, some y => decide (y < x)
  | _, _ => false

/-- `bucket.rs:267-300` `insert`. -/
example : (do
    let b ← tryAll 1000 ((List.range 8).map firstByte) (Bucket.new 0)
    let b ← b.tryInsert 2000 (firstByte 0) (addr 1 2 3 4 5)
    let full := isErr (b.tryInsert 2001 (firstByte 99) (addr 9 9 9 9 9))
    let again := isOk (b.tryInsert (NODE_VALIDITY + 1002) (firstByte 2) (addr 1 2 3 4 5))
    .ok (seenLater b 0 1, seenLater b 2 1, full, again)) = Res.ok (true, true, true, true) := by decide +kernel

/-- `bucket.rs:302-343` `split`. -/
example : (do
    let b ← tryAll 1000 ([0b01100000, 0b01100100, 0b01101000, 0b01101100, 0b01110000, 0b01110100, 0b01111100].map
      firstByte) (Bucket.new 3)
    let (zero, one) ← b.split
    .ok ((zero.goods 1100).length, countEmpty zero, (one.goods 1100).length, countEmpty one, zero.depth, one.depth)) =
    Res.ok (4, 4, 3, 5, 4, 4) := by decide +kernel

/-! ## `routing_table/table.rs` -/

/-- `insert_new_good`, one nanosecond apart. -/
def insertAll : Nat → List ID → RoutingTable → Res RoutingTable
  | _, [], t => .ok t
  | now, i :: is, t => do
    let t ← RoutingTable.insertNewGood now i (addr 1 2 3 4 5) 162 t
    insertAll (now + 1) is t

/-- `table.rs:276-288` `check_node_counts_at_idx`: good and empty places of a bucket. -/
def counts (t : RoutingTable) (k : Nat) : Option (Nat × Nat) :=
  t.data[k]?.map fun b => ((b.goods 5000).length, countEmpty b)

/-- The ids of the tests below: `flips k` are the bits flipped after the `k`-th one. -/
def walk (flips : Nat → List Nat) : Nat → Nat → ID → List ID
  | _, 0, _ => []
  | k, n + 1, i => i :: walk flips (k + 1) n ((flips k).foldl (fun j b => match j.flipBit b with
    | .ok j' => j'
    | _ => j) i)

/-- `table.rs:290-299` `basic_setup`. -/
example : (do
    let t ← insertAll 1000 [otherId] (RoutingTable.default someId)
    t.containsNode otherId) = Res.ok true := by decide +kernel

/-- `table.rs:323-334` `no_duplicates`. -/
example : (do
    let t ← insertAll 1000 [otherId, otherId, otherId] (RoutingTable.default someId)
    .ok (counts t 0)) = Res.ok (some (1, 7)) := by decide +kernel

/-- `table.rs:336-352` `split`. -/
example : (do
    let t ← insertAll 1000 (walk (fun i => [0, i + 1]) 0 9 someId) (RoutingTable.default someId)
    .ok (counts t 0, counts t 1)) = Res.ok (some (4, 4), some (5, 3)) := by decide +kernel

/-- `table.rs:354-374` `multi_split_insert`. -/
example : (do
    let ids := walk (fun i => [1, i + 2]) 0 9 someId
    let t ← insertAll 1000 ids (RoutingTable.default someId)
    let k ← t.findBucketIdx (ids.getLastD someId)
    .ok (counts t 0, counts t 1, counts t 2, k)) = Res.ok (some (0, 8), some (4, 4), some (5, 3), 2) := by
  decide +kernel

/-- `table.rs:376-400` `find_exact_node`. -/
example : (do
    let t ← insertAll 1000 (walk (fun i => [i % 3, i + 3]) 0 20 otherId ++ [otherId]) (RoutingTable.default someId)
    let o ← t.findNode 5000 otherId
    .ok (match o with
      | some (.exact n) => decide (n.id = otherId)
      | _ => false)) = Res.ok true := by decide +kernel

/-- In place of the random ids of `table.rs:407-410`. -/
def spreadIds (n : Nat) : List ID :=
  (List.range n).map fun k => idOf (bytes ((List.range 20).map fun j => (k * 151 + j * 97 + k * k * (j + 7)) % 256))

/-- `table.rs:402-421` `find_closest_nodes`. -/
example : (do
    let t ← insertAll 1000 (spreadIds 60) (RoutingTable.default someId)
    let o ← t.findNode 5000 otherId
    .ok (match o with
      | some (.closest (a :: b :: _)) => decide ((otherId.sub a.id).cmp (otherId.sub b.id) ≠ .gt)
      | _ => false)) = Res.ok true := by decide +kernel

/-- `table.rs:305-321` `cache`: what is stored is loaded again, without the times. -/
example : (do
    let t ← insertAll 1000 (spreadIds 60) (RoutingTable.default someId)
    let t' ← TableFile.newTable otherId (TableFile.afterStore t)
    .ok (decide (t.data.length = t'.data.length ∧ 1 < t.data.length),
      decide (t.data.map (fun b => b.data.map (·.map fun n => (n.id, n.addr))) =
        t'.data.map (fun b => b.data.map (·.map fun n => (n.id, n.addr)))))) = Res.ok (true, true) := by decide +kernel

/-- The ids of the refresh and the first two bits of each. -/
def fillable (t : RoutingTable) : Res (List (Bool × Bool)) := do
  let ids ← t.fillableIds fun k => ⟨5000, fun j => .ofNat 8 (k + 31 * j), fun j => j % 3 = 0⟩
  .ok (ids.map fun i => (i.bit 0, i.bit 1))

/-- `table.rs:431-513` `iterator`. -/
example : (do
    let own := firstByte 0b11111111
    let t ← insertAll 1000 ([0b00000000, 0b00010000, 0b00100000, 0b00110000, 0b01000000, 0b01010000, 0b01100000,
      0b10000000, 0b10010000, 0b10100000, 0b10110000, 0b11000000, 0b11010000, 0b11100000].map firstByte)
      (RoutingTable.default own)
    let f1 ← fillable t
    let t ← insertAll 1100 [firstByte 0b01110000] t
    let f2 ← fillable t
    let t ← insertAll 1200 [firstByte 0b11110000] t
    let f3 ← fillable t
    let t ← insertAll 1300 [firstByte 0b11000001] t
    let f4 ← fillable t
    .ok (f1.map (·.1), f2.map (·.1), f3.map (·.1), f4)) =
    Res.ok ([false, true], [true], [true], [(true, false), (true, true)]) := by decide +kernel

end Nargun.Conformance
