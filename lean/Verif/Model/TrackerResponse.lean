import Verif.Model.Bencode
import Verif.Model.Addr
import Verif.Spec.Ascii

/-! # Model of `src/tracker/response.rs` -/

namespace Nargun

open Spec (ascii)

/-- `src/tracker/response.rs:9-18` `struct Response`. -/
structure TrackerResponse where
  warningMessage : Option Bytes
  interval : Nat
  minInterval : Option Nat
  trackerId : Option Bytes
  complete : Nat
  incomplete : Nat
  peers : List Peer
  deriving DecidableEq

/-- `bendy`: `u64::decode_bencode_object`. -/
def decodeU64 : BVal → Res Nat
  | .int n => if 0 ≤ n ∧ n < 2 ^ 64 then .ok n.toNat else .err
  | _ => .err

/-- `bendy`: `String::decode_bencode_object`; which byte strings are UTF-8 is a parameter. -/
def decodeString (utf8 : Bytes → Bool) : BVal → Res Bytes
  | .str s => if utf8 s then .ok s else .err
  | _ => .err

/-- `bendy`: `AsString::decode_bencode_object`. -/
def decodeBytes : BVal → Res Bytes
  | .str s => .ok s
  | _ => .err

/-- `slice::chunks_exact(k)`: consecutive groups of `k`, an incomplete last group is left out. -/
def chunksExact {α} (k : Nat) : Nat → List α → List (List α)
  | 0, _ => []
  | fuel + 1, xs => if xs.length < k then [] else xs.take k :: chunksExact k fuel (xs.drop k)

/-- `src/tracker/response.rs:57-70`: the peers of a compact peer string (`filter_map` drops what does not
convert). -/
def peersOf (bs : Bytes) : List Peer :=
  (chunksExact COMPACT_SOCKADDR_LEN bs.length bs).filterMap fun c =>
    match sockAddrFromCompact c with
    | .ok a => some ⟨a⟩
    | _ => none

/-- The local variables of `decode_bencode_object`, `src/tracker/response.rs:24-30`. -/
structure ResponseAcc where
  warningMessage : Option Bytes := none
  interval : Option Nat := none
  minInterval : Option Nat := none
  trackerId : Option Bytes := none
  complete : Option Nat := none
  incomplete : Option Nat := none
  peers : Option (List Peer) := none

/-- One turn of the loop at `src/tracker/response.rs:33-76`. -/
def ResponseAcc.pair (utf8 : Bytes → Bool) (acc : ResponseAcc) (kv : Bytes × BVal) : Res ResponseAcc :=
  let (k, v) := kv
  if k = ascii "warning message" then do
    let s ← decodeString utf8 v
    .ok { acc with warningMessage := some s }
  else if k = ascii "interval" then do
    let n ← decodeU64 v
    .ok { acc with interval := some n }
  else if k = ascii "min interval" then do
    let n ← decodeU64 v
    .ok { acc with minInterval := some n }
  else if k = ascii "tracker id" then do
    let s ← decodeString utf8 v
    .ok { acc with trackerId := some s }
  else if k = ascii "complete" then do
    let n ← decodeU64 v
    .ok { acc with complete := some n }
  else if k = ascii "incomplete" then do
    let n ← decodeU64 v
    .ok { acc with incomplete := some n }
  else if k = ascii "peers" then do
    let s ← decodeBytes v
    .ok { acc with peers := some (peersOf s) }
  else .ok acc

/-- The loop at `src/tracker/response.rs:33-76`. -/
def ResponseAcc.run (utf8 : Bytes → Bool) : ResponseAcc → List (Bytes × BVal) → Res ResponseAcc
  | acc, [] => .ok acc
  | acc, kv :: kvs => do
    let acc' ← acc.pair utf8 kv
    acc'.run utf8 kvs

/-- `src/tracker/response.rs:23-87` `Response::decode_bencode_object`. -/
def TrackerResponse.ofBVal (utf8 : Bytes → Bool) : BVal → Res TrackerResponse
  | .dict pairs => do
    let acc ← ResponseAcc.run utf8 {} pairs
    let interval ← Res.ofOption acc.interval
    let complete ← Res.ofOption acc.complete
    let incomplete ← Res.ofOption acc.incomplete
    let peers ← Res.ofOption acc.peers
    .ok ⟨acc.warningMessage, interval, acc.minInterval, acc.trackerId, complete, incomplete, peers⟩
  | _ => .err

/-- `src/tracker/tracker_manager.rs:156-167`: decoding of the body of a tracker's answer; bytes after the first
object are ignored. -/
def decodeTrackerBody (utf8 : Bytes → Bool) (body : Bytes) : Res TrackerResponse := do
  let (v, _) ← bdecode BENDY_DEFAULT_DEPTH body
  TrackerResponse.ofBVal utf8 v

end Nargun
