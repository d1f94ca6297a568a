import Verif.Conformance.Basic
import Verif.Model.Bitmap
import Verif.Model.Peers

/-! # Unit tests of `src/data_structures/bitmap.rs`, `src/data_structures/id.rs`, `src/peers/peer.rs` and
`src/peers/active_peers.rs`, run on the model -/

namespace Nargun.Conformance

open Spec (ascii)

/-! ## `bitmap.rs` -/

/-- `bitmap.rs:111-119` `setup`. -/
example : (do let b ← Bitmap.new 67; .ok (b.len, b.data.length)) = Res.ok (67, 9) := by decide +kernel

/-- `bitmap.rs:121-130` `change`. -/
example : (do
    let b ← Bitmap.new 67
    let b := { b with data := b.data.set 7 0b01011010#8 }
    let (b, was1) ← b.change (7 * 8 + 1) false
    let (b, was7) ← b.change (7 * 8 + 7) true
    .ok (was1, was7, b.data[7]?)) = Res.ok (true, false, some 0b00011011#8) := by decide +kernel

/-- `bitmap.rs:132-140` `weight`. -/
example : (do
    let b ← Bitmap.new 21
    let b ← b.replaceData [0b00001111#8, 0b11100011#8, 0b11110000#8]
    .ok b.weight) = Res.ok 13 := by decide +kernel

/-- `bitmap.rs:142-153` `replace`. -/
example : (do
    let b ← Bitmap.new 21
    let b ← b.replaceData [0b00001111#8, 0b11100011#8, 0b11110000#8]
    .ok b.data) = Res.ok [0b00001111#8, 0b11100011#8, 0b11110000#8] := by decide +kernel

/-- `bitmap.rs:155-163` `replace_with_too_long`. -/
example : fails (do
    let b ← Bitmap.new 21
    b.replaceData (bytes [0, 1, 2, 3, 4])) = true := by decide +kernel

/-- `bitmap.rs:165-190` `iter`. -/
example : (do
    let b ← Bitmap.new 13
    let b ← b.replaceData [0b00001111#8, 0b11100000#8]
    b.toBools) = Res.ok [false, false, false, false, true, true, true, true, true, true, true, false, false] := by
  decide +kernel

/-! ## `id.rs` -/

/-- In place of `rand::random()`. -/
def someId : ID :=
  idOf (bytes [201, 7, 99, 14, 250, 33, 68, 129, 90, 45, 171, 6, 222, 83, 19, 160, 58, 237, 112, 4])

/-- In place of a second `rand::random()`. -/
def otherId : ID :=
  idOf (bytes [17, 240, 3, 88, 61, 192, 75, 255, 0, 31, 144, 102, 9, 218, 47, 133, 66, 180, 25, 199])

/-- `id.rs:309-318` `create`. -/
example : someId.bytes =
    bytes [201, 7, 99, 14, 250, 33, 68, 129, 90, 45, 171, 6, 222, 83, 19, 160, 58, 237, 112, 4] := by decide +kernel

/-- `id.rs:320-331` `get_bit`. -/
example : (do
    let a ← someId.setByte 13 0b00010000#8
    let a1 ← a.getBit (13 * 8 + 1)
    let a3 ← a.getBit (13 * 8 + 3)
    let b ← someId.setByte 13 0b01001001#8
    let b1 ← b.getBit (13 * 8 + 1)
    let b3 ← b.getBit (13 * 8 + 3)
    .ok (a1, a3, b1, b3)) = Res.ok (false, true, true, false) := by decide +kernel

/-- `id.rs:333-341` `flip_bit`. -/
example : (do
    let a ← someId.setByte 13 0b00001111#8
    let a ← a.flipBit (13 * 8 + 3)
    .ok a.bytes[13]?) = Res.ok (some 0b00011111#8) := by decide +kernel

/-- `id.rs:343-353` `change_bit`. -/
example : (do
    let a ← someId.setByte 17 0b01011010#8
    let a ← a.changeBit (17 * 8 + 1) false
    let a ← a.changeBit (17 * 8 + 7) true
    .ok a.bytes[17]?) = Res.ok (some 0b00011011#8) := by decide +kernel

/-- `id.rs:355-372` `cmp`. -/
example : (do
    let a ← someId.setByte 0 0b10101010#8
    let b ← otherId.setByte 0 0b10101010#8
    let a ← a.setByte 1 0b10100101#8
    let b ← b.setByte 1 0b10101010#8
    let c0 ← a.cmpFirstNBits b 7
    let c1 ← b.cmpFirstNBits a 7
    let c2 ← a.cmpFirstNBits b 10
    let c3 ← b.cmpFirstNBits a 15
    let c4 ← a.cmpFirstNBits b 14
    .ok (c0, c1, c2, c3, c4)) = Res.ok (.eq, .eq, .eq, .gt, .lt) := by decide +kernel

/-- `id.rs:374-384` `randomize`, one turn with given draws. -/
example : (do
    let a ← ID.randomizeAfterBit (fun k => .ofNat 8 (37 * k + 11)) (fun j => j % 2 = 0) (idOf []) (8 + 2)
    let w ← a.weight
    .ok (a.bytes.getD 1 0 ≤ 0b00011111#8, decide (0 < w))) = Res.ok (true, true) := by decide +kernel

/-- `id.rs:386-395` `weight`. -/
example : (idOf (bytes [1, 1, 1, 1, 1, 0xFF, 0xFF, 0, 0x11, 0xFF, 0xFF, 0xFF, 1, 0, 0, 0, 0, 0, 1, 5])).weight =
    Res.ok 51 := by decide +kernel

/-- `id.rs:397-419` `eq` and `ne`. -/
example : someId = idOf someId.bytes ∧
    someId ≠ idOf (someId.bytes.set 9 (someId.bytes.getD 9 0 + 1)) := by decide +kernel

/-- `id.rs:421-437` `ord`. -/
example :
    let arr := List.replicate 20 0b00001111#8
    (idOf arr).cmp (idOf arr) = .eq ∧ (idOf arr).cmp (idOf (arr.set 0 0b00011111#8)) = .lt ∧
      (idOf arr).cmp (idOf (arr.set 0 0b00000111#8)) = .gt := by decide +kernel

/-- `id.rs:439-509` `xor`. -/
example :
    (idOf (bytes [0, 0, 0, 0, 0, 0b00001111, 0xff, 0xff, 0xff, 0xff, 0xff, 0xff, 0xff, 0xff, 0xff, 0b10101010, 0, 0xff,
        0, 0xff])).xor
      (idOf (bytes [0xff, 0xff, 0, 0, 0, 0b10101010, 0, 0xff, 0, 0xff, 0, 0, 0, 0, 0, 0b11100011, 0, 0, 0, 0])) =
    idOf (bytes [0xff, 0xff, 0, 0, 0, 0b10100101, 0xff, 0, 0xff, 0, 0xff, 0xff, 0xff, 0xff, 0xff, 0b01001001, 0, 0xff,
      0, 0xff]) := by decide +kernel

/-- `id.rs:511-518` `sub`. -/
example : someId.xor otherId = someId.sub otherId ∧ someId.xor otherId = otherId.sub someId := by decide +kernel

/-! ## `peer.rs` -/

/-- `peer.rs:122-140` `peer_from_compact`. -/
example : Peer.fromCompact (ascii "yhf5aa") = .ok ⟨addr 121 104 102 53 24929⟩ ∧
    isErr (Peer.fromCompact (ascii "yhf5aa++")) = true ∧ isErr (Peer.fromCompact (ascii "yhf")) = true ∧
    isErr (sockAddrFromCompact (ascii "yhf")) = true := by decide +kernel

/-! ## `active_peers.rs` -/

/-- `active_peers.rs:151-200` `peers`. -/
example :
    let p52 : Peer := ⟨addr 127 0 0 1 52⟩
    let p53 : Peer := ⟨addr 127 0 0 1 53⟩
    let p54 : Peer := ⟨addr 127 0 0 1 54⟩
    let s := (Peers.new someId).extend [p52, p53, p54]
    let r1 := s.returnBatch [] 2
    let bad := r1.2.headD p54
    let r2 := r1.1.returnBatch [(bad, .unableToConnect)] 100
    (Peers.new someId).serve someId = true ∧ (Peers.new someId).serve otherId = false ∧
      s.data.get? p52 = some .unknown ∧ s.data.get? p53 = some .unknown ∧ s.data.get? p54 = some .unknown ∧
      r1.2.length = 2 ∧ (∀ p ∈ r1.2, r1.1.data.get? p = some .active) ∧
      r2.2.length = 2 ∧ (∀ p ∈ r2.2, r2.1.data.get? p = some .active) ∧
      r2.2[0]? ≠ some bad ∧ r2.2[1]? = some bad ∧ r2.1.peerAddresses.length = 3 := by decide +kernel

end Nargun.Conformance
