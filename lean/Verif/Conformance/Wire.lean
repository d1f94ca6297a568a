import Verif.Conformance.Basic
import Verif.Model.Message
import Verif.Model.Handshake
import Verif.Model.Announce
import Verif.Model.TrackerResponse

/-! # Unit tests of `src/peers/connection/message.rs`, `src/peers/connection/handshake.rs`, `src/tracker/announce.rs`
and `src/tracker/response.rs`, run on the model -/

namespace Nargun.Conformance

open Spec (ascii)

/-! ## `message.rs` -/

/-- `message.rs:267-271` `long_buf_from_message_slice`: a buffer of 64 bytes. -/
def longBuf (raw : Bytes) : Bytes := raw ++ List.replicate (64 - raw.length) 0

/-- `message.rs:273-283` `test_message_ser_de`. -/
def serDe (raw : Bytes) (m : Message) : Prop :=
  Message.fromBuf (longBuf raw) = .ok (some m) ∧ m.intoBytes = .ok raw

instance (raw : Bytes) (m : Message) : Decidable (serDe raw m) := by unfold serDe; infer_instance

/-- `message.rs:285-290` `keep_alive`. -/
example : serDe (bytes [0, 0, 0, 0]) .keepAlive := by decide +kernel

/-- `message.rs:292-297` `choke`. -/
example : serDe (bytes [0, 0, 0, 1, 0]) .choke := by decide +kernel

/-- `message.rs:299-304` `unchoke`. -/
example : serDe (bytes [0, 0, 0, 1, 1]) .unchoke := by decide +kernel

/-- `message.rs:306-311` `interested`. -/
example : serDe (bytes [0, 0, 0, 1, 2]) .interested := by decide +kernel

/-- `message.rs:313-318` `not_interested`. -/
example : serDe (bytes [0, 0, 0, 1, 3]) .notInterested := by decide +kernel

/-- `u32::to_be_bytes`, on numbers. -/
def be32 (n : Nat) : List Nat := [n / 2 ^ 24 % 256, n / 2 ^ 16 % 256, n / 2 ^ 8 % 256, n % 256]

/-- `message.rs:320-330` `have`. -/
example : serDe (bytes ([0, 0, 0, 5, 4] ++ be32 726049813)) (.have_ 726049813#32) := by decide +kernel

/-- `message.rs:332-341` `bitfield`. -/
example : serDe (bytes [0, 0, 0, 8, 5, 23, 113, 254, 203, 0, 17, 224])
    (.bitfield (bytes [23, 113, 254, 203, 0, 17, 224])) := by decide +kernel

/-- `message.rs:343-361` `request`. -/
example : serDe (bytes ([0, 0, 0, 13, 6] ++ be32 726049813 ++ be32 3456 ++ be32 11166679))
    (.request ⟨726049813#32, 3456#32, 11166679#32⟩) := by decide +kernel

/-- `message.rs:363-383` `piece`. -/
example : serDe
    (bytes ([0, 0, 0, 20, 7] ++ be32 726049813 ++ be32 3456 ++ [247, 251, 239, 152, 196, 66, 34, 33, 90, 29, 97]))
    (.piece ⟨726049813#32, 3456#32, bytes [247, 251, 239, 152, 196, 66, 34, 33, 90, 29, 97]⟩) := by decide +kernel

/-- `message.rs:385-403` `cancel`. -/
example : serDe (bytes ([0, 0, 0, 13, 8] ++ be32 726049813 ++ be32 3456 ++ be32 11166679))
    (.cancel ⟨726049813#32, 3456#32, 11166679#32⟩) := by decide +kernel

/-- `message.rs:405-416` `port`. -/
example : serDe (bytes [0, 0, 0, 3, 9, 45678 / 256, 45678 % 256]) (.port 45678#16) := by decide +kernel

/-- `message.rs:418-427` `incomplete_message`. -/
example : Message.fromBuf
    (longBuf (bytes [0, 0, 0, 69, 7, 1, 2, 3, 4, 5, 6, 7, 8, 247, 251, 239, 152, 196, 66, 34, 33, 90])) = .ok none := by
  decide +kernel

/-! ## `handshake.rs` -/

/-- `handshake.rs:85` `INFO_HASH`. -/
def hsInfoHash : ID := idOf (bytes [0, 1, 2, 3, 4, 5, 6, 7, 8, 9, 0, 1, 2, 3, 4, 5, 6, 7, 8, 9])

/-- `handshake.rs:86` `PEER_ID`. -/
def hsPeerId : ID := idOf (bytes [9, 8, 7, 6, 5, 4, 3, 2, 1, 0, 9, 8, 7, 6, 5, 4, 3, 2, 1, 0])

/-- `handshake.rs:88-114` `serialized_handshake`. -/
def serializedHandshake : Bytes :=
  bytes [19] ++ ascii "BitTorrent protocol" ++ bytes [0, 0, 0, 0, 0, 0, 0, 1] ++ hsInfoHash.bytes ++ hsPeerId.bytes

/-- `handshake.rs:116-137` `serialize`. -/
example : (Handshake.new hsInfoHash hsPeerId).asRef = serializedHandshake ∧ serializedHandshake.length = 68 := by
  decide +kernel

/-- `handshake.rs:139-143` `check_validity`. -/
example : Handshake.checkValidity serializedHandshake = .ok () := by decide +kernel

/-- `handshake.rs:145-150` `raw_handshake_with_wrong_size`. -/
example : fails (Handshake.checkValidity (serializedHandshake.take 66)) = true := by decide +kernel

/-- `handshake.rs:152-158` `raw_handshake_with_wrong_protocol`. -/
example : fails (Handshake.checkValidity (serializedHandshake.set 17 0x58#8)) = true := by decide +kernel

/-! ## `announce.rs` -/

/-- `announce.rs:84-104` `announce_as_url`. -/
example : Announce.asUrl
    { trackerUrl := ascii "http://example.com/announce"
      infoHash := idOf (bytes [1, 2, 3, 4, 5, 6, 7, 8, 9, 0, 1, 2, 3, 4, 5, 6, 7, 8, 9, 0])
      peerId := idOf (bytes [11, 22, 33, 44, 55, 66, 77, 88, 99, 0, 11, 22, 33, 44, 55, 66, 77, 88, 99, 0])
      port := 6887#16
      uploaded := 776241
      downloaded := 277518
      left := 78907
      compact := true
      noPeerId := true
      event := some .started
      trackerId := none } =
    ascii "http://example.com/announce?info_hash=%01%02%03%04%05%06%07%08%09%00%01%02%03%04%05%06%07%08%09%00&peer_id=%0B%16%21%2C7BMXc%00%0B%16%21%2C7BMXc%00&port=6887&uploaded=776241&downloaded=277518&left=78907&compact=1&event=started" := by
  decide +kernel

/-! ## `response.rs` -/

/-- `response.rs:99-110`: the bytes of the answer. -/
def rawResponse : Bytes := bytes [
  0x64, 0x38, 0x3a, 0x63, 0x6f, 0x6d, 0x70, 0x6c, 0x65, 0x74, 0x65, 0x69, 0x35, 0x65,
  0x31, 0x30, 0x3a, 0x64, 0x6f, 0x77, 0x6e, 0x6c, 0x6f, 0x61, 0x64, 0x65, 0x64, 0x69,
  0x35, 0x33, 0x65, 0x31, 0x30, 0x3a, 0x69, 0x6e, 0x63, 0x6f, 0x6d, 0x70, 0x6c, 0x65,
  0x74, 0x65, 0x69, 0x31, 0x65, 0x38, 0x3a, 0x69, 0x6e, 0x74, 0x65, 0x72, 0x76, 0x61,
  0x6c, 0x69, 0x31, 0x39, 0x31, 0x34, 0x65, 0x31, 0x32, 0x3a, 0x6d, 0x69, 0x6e, 0x20,
  0x69, 0x6e, 0x74, 0x65, 0x72, 0x76, 0x61, 0x6c, 0x69, 0x39, 0x35, 0x37, 0x65, 0x35,
  0x3a, 0x70, 0x65, 0x65, 0x72, 0x73, 0x33, 0x36, 0x3a, 0x9f, 0x45, 0x41, 0x9d, 0x1a,
  0xe7, 0x9f, 0x45, 0x41, 0x9d, 0xfe, 0x72, 0x9f, 0x45, 0x41, 0x9d, 0xc8, 0x70, 0x9f,
  0x45, 0x41, 0x9d, 0xab, 0x24, 0x9f, 0x45, 0x41, 0x9d, 0x4c, 0xb7, 0x9f, 0x45, 0x41,
  0x9d, 0x37, 0x02, 0x65]

/-- `response.rs:97-172` `parse_response`. -/
example : decodeTrackerBody (fun _ => true) rawResponse = .ok
    { warningMessage := none
      interval := 1914
      minInterval := some 957
      trackerId := none
      complete := 5
      incomplete := 1
      peers := [⟨addr 0x9f 0x45 0x41 0x9d 6887⟩, ⟨addr 0x9f 0x45 0x41 0x9d 65138⟩, ⟨addr 0x9f 0x45 0x41 0x9d 51312⟩,
        ⟨addr 0x9f 0x45 0x41 0x9d 43812⟩, ⟨addr 0x9f 0x45 0x41 0x9d 19639⟩, ⟨addr 0x9f 0x45 0x41 0x9d 14082⟩] } := by
  decide +kernel

end Nargun.Conformance
