import Verif.Model.TrackerResponse
import Verif.Model.Id

/-! # Model of `src/transcoding/metainfo.rs`

SHA-1 (`openssl::sha`) and which byte strings are UTF-8 are parameters. The set of trackers (`HashSet`) is a list
without repetitions. `Torrent::from_file` reads the file and calls `from_buf`; reading is not modelled. -/

namespace Nargun

open Spec (ascii)

/-- `metainfo.rs:37-41` `struct File`. -/
structure TorrentFile where
  path : List Bytes
  length : Nat
  deriving DecidableEq

/-- `metainfo.rs:31-35` `enum Mode`. -/
inductive TorrentMode where
  | single (length : Nat)
  | multi (files : List TorrentFile)
  deriving DecidableEq

/-- `metainfo.rs:23-29` `struct Info`. -/
structure Info where
  name : Bytes
  pieceLength : Nat
  pieces : List ID
  mode : TorrentMode
  deriving DecidableEq

/-- `metainfo.rs:43-47` `enum TrackerAddr`. -/
inductive TrackerAddr where
  | http (url : Bytes)
  | udp (url : Bytes)
  deriving DecidableEq

/-- `metainfo.rs:16-21` `struct Torrent`. -/
structure Torrent where
  info : Info
  infoHash : ID
  announce : List TrackerAddr
  deriving DecidableEq

/-- `metainfo.rs:230-238` `Info::length` (the sum is over `u64`; overflow panics in a debug build). -/
def Info.length (i : Info) : Res Nat :=
  match i.mode with
  | .single n => .ok n
  | .multi files =>
    if (files.map (·.length)).sum < 2 ^ 64 then .ok (files.map (·.length)).sum else .panic

/-- `metainfo.rs:240-250` `TrackerAddr::new`. -/
def TrackerAddr.new (url : Bytes) : Res TrackerAddr :=
  if (ascii "udp").isPrefixOf url then .ok (.udp url)
  else if (ascii "http").isPrefixOf url then .ok (.http url)
  else .err

/-- `metainfo.rs:70-77` `Torrent::http_trackers`. -/
def Torrent.httpTrackers (t : Torrent) : List Bytes :=
  t.announce.filterMap fun a => match a with
    | .http u => some u
    | _ => none

/-- `metainfo.rs:79-81` `Torrent::count_pieces`. -/
def Torrent.countPieces (t : Torrent) : Nat := t.info.pieces.length

/-- `HashSet::insert`. -/
def insertNew {α} [DecidableEq α] (a : α) (s : List α) : List α := if a ∈ s then s else s ++ [a]

/-- `metainfo.rs:379-397` `deserialize_pieces_field`: the reinterpretation of the bytes as 20-byte arrays gives
the consecutive groups. (The allocation is in `Verif.Model.Memory`.) -/
def deserializePieces (raw : Bytes) : Res (List ID) :=
  if raw = [] ∨ raw.length % ID_LEN > 0 then .err
  else .ok ((chunksExact ID_LEN raw.length raw).filterMap fun c =>
    if h : c.length = ID_LEN then some ⟨c, h⟩ else none)

/-- `bendy`: `Vec::<T>::decode_bencode_object` from the decoder of the items. -/
def decodeVec {α} (dec : BVal → Res α) : List BVal → Res (List α)
  | [] => .ok []
  | v :: vs => do
    let a ← dec v
    let as ← decodeVec dec vs
    .ok (a :: as)

/-- `bendy`: `Vec::<T>::decode_bencode_object`. -/
def decodeList {α} (dec : BVal → Res α) : BVal → Res (List α)
  | .list l => decodeVec dec l
  | _ => .err

/-- The loop at `metainfo.rs:360-370`. -/
def fileLoop (utf8 : Bytes → Bool) : Option (List Bytes) → Option Nat → List (Bytes × BVal) →
    Res (Option (List Bytes) × Option Nat)
  | path, length, [] => .ok (path, length)
  | path, length, (k, v) :: kvs =>
    if k = ascii "path" then do
      let p ← decodeList (decodeString utf8) v
      fileLoop utf8 (some p) length kvs
    else if k = ascii "length" then do
      let n ← decodeU64 v
      fileLoop utf8 path (some n) kvs
    else fileLoop utf8 path length kvs

/-- `metainfo.rs:355-376` `File::decode_bencode_object`. -/
def TorrentFile.ofBVal (utf8 : Bytes → Bool) : BVal → Res TorrentFile
  | .dict pairs => do
    let (path, length) ← fileLoop utf8 none none pairs
    let p ← Res.ofOption path
    let n ← Res.ofOption length
    .ok ⟨p, n⟩
  | _ => .err

/-- The local variables at `metainfo.rs:309-312`. -/
structure InfoAcc where
  pieceLength : Option Nat := none
  pieces : Option (List ID) := none
  mode : Option TorrentMode := none
  name : Option Bytes := none

/-- One turn of the loop at `metainfo.rs:315-341`. -/
def InfoAcc.pair (utf8 : Bytes → Bool) (acc : InfoAcc) (kv : Bytes × BVal) : Res InfoAcc :=
  let (k, v) := kv
  if k = ascii "name" then do
    let s ← decodeString utf8 v
    .ok { acc with name := some s }
  else if k = ascii "pieces" then do
    let raw ← decodeBytes v
    let ps ← deserializePieces raw
    .ok { acc with pieces := some ps }
  else if k = ascii "length" then do
    let n ← decodeU64 v
    .ok { acc with mode := some (.single n) }
  else if k = ascii "piece length" then do
    let n ← decodeU64 v
    .ok { acc with pieceLength := some n }
  else if k = ascii "files" then do
    let fs ← decodeList (TorrentFile.ofBVal utf8) v
    .ok { acc with mode := some (.multi fs) }
  else .ok acc

/-- The loop at `metainfo.rs:315-341`. -/
def InfoAcc.run (utf8 : Bytes → Bool) : InfoAcc → List (Bytes × BVal) → Res InfoAcc
  | acc, [] => .ok acc
  | acc, kv :: kvs => do
    let acc' ← acc.pair utf8 kv
    acc'.run utf8 kvs

/-- `metainfo.rs:308-349` `Info::decode_bencode_object`. -/
def Info.ofBVal (utf8 : Bytes → Bool) : BVal → Res Info
  | .dict pairs => do
    let acc ← InfoAcc.run utf8 {} pairs
    let pieceLength ← Res.ofOption acc.pieceLength
    let pieces ← Res.ofOption acc.pieces
    let name ← Res.ofOption acc.name
    let mode ← Res.ofOption acc.mode
    .ok ⟨name, pieceLength, pieces, mode⟩
  | _ => .err

/-- The pairs of a dictionary up to the closing `e` (as `parsePairs`), each with the part of the input its value
occupies (what `bendy`'s `into_raw` returns). -/
def rawPairs : Nat → Nat → Option Bytes → Bytes → Res (List (Bytes × BVal × Bytes) × Bytes)
  | 0, _, _, _ => .err
  | _ + 1, _, _, [] => .err
  | f + 1, d, last, b :: bs =>
    if b = 0x65#8 then .ok ([], bs)
    else do
      let (k, rest) ← takeStr (b :: bs)
      if keyFollows last k then do
        let (v, rest') ← parseVal f d rest
        let (ps, rest'') ← rawPairs f d (some k) rest'
        .ok ((k, v, rest.take (rest.length - rest'.length)) :: ps, rest'')
      else .err

/-- `metainfo.rs:283-292`: trackers of an announce list are added where the scheme is supported. -/
def addTrackers (urls : List Bytes) (set : List TrackerAddr) : List TrackerAddr :=
  urls.foldl (fun s u => match TrackerAddr.new u with
    | .ok a => insertNew a s
    | _ => s) set

/-- The local variables at `metainfo.rs:255-257`. -/
structure TorrentAcc where
  info : Option Info := none
  infoHash : Option ID := none
  announce : List TrackerAddr := []

/-- One turn of the loop at `metainfo.rs:260-295`. -/
def TorrentAcc.pair (sha1 : Bytes → ID) (utf8 : Bytes → Bool) (acc : TorrentAcc) (kv : Bytes × BVal × Bytes) :
    Res TorrentAcc :=
  let (k, v, raw) := kv
  if k = ascii "info" then
    match v with
    | .dict _ => do
      let (obj, _) ← bdecode BENDY_DEFAULT_DEPTH raw
      let info ← Info.ofBVal utf8 obj
      .ok { acc with infoHash := some (sha1 raw), info := some info }
    | _ => .err
  else if k = ascii "announce" then do
    let u ← decodeString utf8 v
    .ok { acc with announce := addTrackers [u] acc.announce }
  else if k = ascii "announce-list" then do
    let l ← decodeList (decodeList (decodeString utf8)) v
    .ok { acc with announce := addTrackers l.flatten acc.announce }
  else .ok acc

/-- The loop at `metainfo.rs:260-295`. -/
def TorrentAcc.run (sha1 : Bytes → ID) (utf8 : Bytes → Bool) : TorrentAcc → List (Bytes × BVal × Bytes) →
    Res TorrentAcc
  | acc, [] => .ok acc
  | acc, kv :: kvs => do
    let acc' ← acc.pair sha1 utf8 kv
    acc'.run sha1 utf8 kvs

/-- `metainfo.rs:252` `EXPECTED_RECURSION_DEPTH` of `Torrent`. -/
def TORRENT_DEPTH : Nat := 10

/-- `metainfo.rs:49-51` `Torrent::from_buf` with `metainfo.rs:254-302` `Torrent::decode_bencode_object`. -/
def Torrent.fromBuf (sha1 : Bytes → ID) (utf8 : Bytes → Bool) (buf : Bytes) : Res Torrent :=
  match buf with
  | 0x64#8 :: bs => do
    let (pairs, _) ← rawPairs bs.length (TORRENT_DEPTH - 1) none bs
    let acc ← TorrentAcc.run sha1 utf8 {} pairs
    let announce ← Res.ofOption (if acc.announce ≠ [] then some acc.announce else none)
    let info ← Res.ofOption acc.info
    let infoHash ← Res.ofOption acc.infoHash
    .ok ⟨info, infoHash, announce⟩
  | _ => .err

/-- `openssl::sha::Sha1`: the bytes fed so far. -/
structure Hasher where
  fed : Bytes := []

/-- `Sha1::update`. -/
def Hasher.update (h : Hasher) (bs : Bytes) : Hasher := ⟨h.fed ++ bs⟩

/-- `Sha1::finish`. -/
def Hasher.finish (sha1 : Bytes → ID) (h : Hasher) : ID := sha1 h.fed

/-- `metainfo.rs:83-91` `Torrent::piece_hash`. -/
def Torrent.pieceHash (sha1 : Bytes → ID) (data : List Bytes) : ID :=
  (data.foldl Hasher.update {}).finish sha1

/-- `metainfo.rs:64-68` `Torrent::_is_valid_piece`; block size 16384 (`connection_manager.rs` `BLOCK_SIZE`). -/
def Torrent.isValidPiece (sha1 : Bytes → ID) (t : Torrent) (idx : Nat) (data : List Bytes) : Res Bool := do
  let blocks ← unsignedCeilDiv t.info.pieceLength 16384
  if data.length = blocks then
    if data.all (fun b => b.length = 16384) then do
      let h ← index t.info.pieces idx
      .ok (decide (h = Torrent.pieceHash sha1 data))
    else .ok false
  else .ok false

end Nargun
