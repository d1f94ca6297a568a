import Verif.Model.Bencode
import Verif.Model.Addr
import Verif.Spec.Ascii

/-! # Model of `src/tracker/announce.rs` and of `urlencoding::encode_binary` -/

namespace Nargun

open Spec (ascii)

/-- `src/tracker/announce.rs:3-8` `enum AnnounceEvent`. -/
inductive AnnounceEvent where
  | started
  | stopped
  | completed
  deriving DecidableEq, Repr

/-- `src/tracker/announce.rs:9-22` `struct Announce`; strings are their bytes, `u64` values are numbers. -/
structure Announce where
  trackerUrl : Bytes
  infoHash : ID
  peerId : ID
  port : U16
  uploaded : Nat
  downloaded : Nat
  left : Nat
  compact : Bool
  noPeerId : Bool
  event : Option AnnounceEvent
  trackerId : Option Bytes
  deriving DecidableEq

/-- The bytes `urlencoding` leaves as they are: letters, digits, `-`, `.`, `_`, `~`. -/
def urlUnreserved (b : Byte) : Bool :=
  decide (48 ≤ b.toNat ∧ b.toNat ≤ 57) || decide (65 ≤ b.toNat ∧ b.toNat ≤ 90) ||
    decide (97 ≤ b.toNat ∧ b.toNat ≤ 122) || b == 0x2d#8 || b == 0x2e#8 || b == 0x5f#8 || b == 0x7e#8

/-- `urlencoding`'s `to_hex_digit`: upper case. -/
def toHexDigit (n : Nat) : Byte := if n ≤ 9 then BitVec.ofNat 8 (48 + n) else BitVec.ofNat 8 (65 + (n - 10))

/-- One byte of `urlencoding::encode_binary`. -/
def urlEncodeByte (b : Byte) : Bytes :=
  if urlUnreserved b then [b] else [0x25#8, toHexDigit (b.toNat / 16), toHexDigit (b.toNat % 16)]

/-- `urlencoding::encode_binary` (dependency; used at `src/tracker/announce.rs:29,32`). -/
def urlEncode (bs : Bytes) : Bytes := bs.flatMap urlEncodeByte

/-- `src/tracker/announce.rs:55-60`: the text of an event. -/
def AnnounceEvent.text : AnnounceEvent → Bytes
  | .started => ascii "started"
  | .stopped => ascii "stopped"
  | .completed => ascii "completed"

/-- `src/tracker/announce.rs:25-69` `Announce::as_url`. -/
def Announce.asUrl (a : Announce) : Bytes :=
  let s := a.trackerUrl
  let s := s ++ ascii "?info_hash="
  let s := s ++ urlEncode a.infoHash.bytes
  let s := s ++ ascii "&peer_id="
  let s := s ++ urlEncode a.peerId.bytes
  let s := s ++ ascii "&port="
  let s := s ++ decimal a.port.toNat
  let s := s ++ ascii "&uploaded="
  let s := s ++ decimal a.uploaded
  let s := s ++ ascii "&downloaded="
  let s := s ++ decimal a.downloaded
  let s := s ++ ascii "&left="
  let s := s ++ decimal a.left
  let s := s ++ ascii "&compact="
  let s := s ++ decimal (if a.compact then 1 else 0)
  let s := if a.compact then s else s ++ ascii "&no_peer_id=" ++ decimal (if a.noPeerId then 1 else 0)
  let s := match a.event with
    | some e => s ++ ascii "&event=" ++ e.text
    | none => s
  match a.trackerId with
  | some t => s ++ ascii "&trackerid=" ++ t
  | none => s

end Nargun
