import Verif.Lemmas.Message
import Verif.Lemmas.BeNat

/-! # C11-C13: the peer wire codec -/

namespace Nargun
open Spec

/-- C11. Decoding the encoding of any message that fits the 32-bit length prefix, whatever bytes follow it in
the buffer, gives back that message. -/
theorem C11_message_roundtrip (m : Message) (h : Fits m) (rest : Bytes) :
    ∃ bytes, m.intoBytes = .ok bytes ∧ Message.fromBuf (bytes ++ rest) = .ok (some m) :=
  ⟨wire m, intoBytes_eq m h, fromBuf_wire m h rest⟩

/-- A piece message with a full 16 KiB block fits. -/
example : Fits (.piece ⟨7#32, 16384#32, List.replicate 16384 0xAB#8⟩) := by
  simp only [Fits, payload, List.length_cons, List.length_append, beBytes_length, List.length_replicate]
  decide

/-- C12. The encoding is the BEP 3 wire form: a big-endian count of the bytes that follow, the id, and the
fields in order. -/
theorem C12_wire_format (m : Message) (h : Fits m) : m.intoBytes = .ok (wire m) := intoBytes_eq m h

/-- C12. No encoding is a prefix of the encoding of a different message (so encodings are self-delimiting and
different messages have different encodings). -/
theorem C12_prefix_free (m m' : Message) (h : Fits m) (h' : Fits m') (a b : Bytes)
    (ha : m.intoBytes = .ok a) (hb : m'.intoBytes = .ok b) (hp : a <+: b) : m = m' := by
  rw [intoBytes_eq m h] at ha
  rw [intoBytes_eq m' h'] at hb
  cases ha; cases hb
  obtain ⟨r, hr⟩ := hp
  have h1 := fromBuf_wire m h r
  have h2 := fromBuf_wire m' h' []
  rw [hr] at h1
  rw [List.append_nil, h1] at h2
  simpa using h2

/-- C12. The length prefix as the receiver reads it is the number of bytes behind it. -/
theorem C12_length_prefix (m : Message) (h : Fits m) (rest : Bytes) :
    ∃ bytes, m.intoBytes = .ok bytes ∧ ∃ n, Message.len (bytes ++ rest) = .ok n ∧ bytes.length = n + 4 := by
  refine ⟨wire m, intoBytes_eq m h, (payload m).length, ?_, ?_⟩
  · simp only [wire, List.append_assoc]
    exact fromBuf_prefix _ h _
  · rw [wire_length]; omega

example : Message.intoBytes (.have_ 258#32) = .ok [0#8, 0#8, 0#8, 5#8, 4#8, 0#8, 0#8, 1#8, 2#8] := by decide

/-! ## C13 -/

theorem beBytes_beNat_four (a b c d : Byte) : beBytes 4 (beNat [a, b, c, d]) = [a, b, c, d] := by
  have h : beNat [a, b, c, d] = a.toNat * 2 ^ 24 + b.toNat * 2 ^ 16 + c.toNat * 2 ^ 8 + d.toNat := by
    simp [beNat]; omega
  have := a.isLt; have := b.isLt; have := c.isLt; have := d.isLt
  rw [beBytes_four, h]
  simp only [List.cons.injEq, and_true]
  refine ⟨?_, ?_, ?_, ?_⟩ <;> (apply BitVec.eq_of_toNat_eq; simp only [BitVec.toNat_ofNat]; omega)

theorem split_prefix (buf : Bytes) (h : 4 ≤ buf.length) :
    buf = beBytes 4 (beNat (buf.take 4)) ++ buf.drop 4 ∧ beNat (buf.take 4) < 2 ^ 32 := by
  constructor
  · match buf, h with
    | a :: b :: c :: d :: r, _ => simp [beBytes_beNat_four]
  · have := beNat_lt (buf.take 4)
    have e : (buf.take 4).length = 4 := by simp; omega
    rw [e] at this
    exact this

/-- When the bytes behind the id (at least 12 of them) make the decoder panic. -/
theorem bodyMessage_panic (id : Byte) (n : Nat) (body : Bytes) (h12 : 12 ≤ body.length) (hn : n ≤ body.length) :
    bodyMessage id n body = .panic ↔ id = 7#8 ∧ n < 8 := by
  have u : ∀ k, k ≤ 8 → ∃ x, (sliceFrom body k >>= u32FromBeSlice) = .ok x := by
    intro k hk
    rw [sliceFrom_ok (by omega)]
    exact u32FromBe_ok (by simp; omega)
  obtain ⟨x0, h0⟩ := u32FromBe_ok (s := body) (by omega)
  obtain ⟨x4, h4⟩ := u 4 (by omega)
  obtain ⟨x8, h8⟩ := u 8 (by omega)
  have i0 : ∃ y, index body 0 = .ok y := by
    simp only [index, List.getElem?_eq_getElem (show 0 < body.length by omega)]; exact ⟨_, rfl⟩
  have i1 : ∃ y, index body 1 = .ok y := by
    simp only [index, List.getElem?_eq_getElem (show 1 < body.length by omega)]; exact ⟨_, rfl⟩
  obtain ⟨y0, i0⟩ := i0
  obtain ⟨y1, i1⟩ := i1
  have hid : id = 7#8 ↔ id.toNat = 7 := by
    constructor
    · rintro rfl; rfl
    · intro h; apply BitVec.eq_of_toNat_eq; simpa using h
  rw [hid]
  unfold bodyMessage
  simp only [h0, h4, h8, i0, i1, Res.ok_bind]
  split <;> rename_i hv <;> simp only [hv, reduceCtorEq] <;> try simp
  case h_11 => intro h; contradiction
  by_cases h7 : n < 8
  · simp [sliceR, h7, Nat.not_le.mpr h7]
  · simp [sliceR, h7, Nat.not_lt.mp h7, hn]

/-- C13, the part that holds: decoding a buffer of at least 17 bytes (the receiver always passes its whole
16512-byte buffer) panics in exactly one case, a `piece` message (id 7) whose declared length is 1 to 8.
Missing: that case does panic (`C13_decoder_violated`). -/
theorem C13_decoder_total_partial (buf : Bytes) (h : 17 ≤ buf.length) :
    Message.fromBuf buf = .panic ↔
      1 ≤ beNat (buf.take 4) ∧ beNat (buf.take 4) < 9 ∧ buf[4]? = some 7#8 := by
  obtain ⟨e, hlt⟩ := split_prefix buf (by omega)
  generalize hL : beNat (buf.take 4) = L at e hlt
  have hd : (buf.drop 4).length = buf.length - 4 := by simp
  generalize hr : buf.drop 4 = r at e hd
  have hbl : buf.length = 4 + r.length := by omega
  cases r with
  | nil => simp at hd; omega
  | cons id body =>
    have h4 : buf[4]? = some id := by
      rw [e, List.getElem?_append_right (by simp [beBytes_length])]; simp [beBytes_length]
    simp only [List.length_cons] at hbl
    rw [h4]
    simp only [Option.some.injEq]
    by_cases hL0 : L = 0
    · subst hL0
      rw [e]
      have : beBytes 4 0 ++ id :: body = wire .keepAlive ++ (id :: body) := by simp [wire, payload]
      rw [this, fromBuf_wire _ (by simp [Fits, payload])]
      simp
    by_cases hbig : buf.length < L + 4
    · have : Message.fromBuf buf = .ok none := by
        unfold Message.fromBuf
        have hs : sliceR buf 0 BYTES_IN_LEN_PREFIX = .ok (beBytes 4 L) := by
          rw [e, show beBytes 4 L ++ id :: body = [] ++ (beBytes 4 L ++ id :: body) by simp]
          exact sliceR_append (by simp) (by simp [beBytes_length])
        have hu := u32FromBe_beBytes L []
        rw [List.append_nil] at hu
        have hm : (BitVec.ofNat 32 L).toNat = L := by simpa using Nat.mod_eq_of_lt hlt
        simp only [hs, hu, Res.ok_bind, hm, hbig, if_true]
      rw [this]
      simp; omega
    · obtain ⟨n, rfl⟩ : ∃ n, L = n + 1 := ⟨L - 1, by omega⟩
      rw [e, fromBuf_body n hlt id body (by omega), bodyMessage_panic id n body (by omega) (by omega)]
      constructor
      · rintro ⟨h1, h2⟩; exact ⟨by omega, by omega, h1⟩
      · rintro ⟨_, h2, h3⟩; exact ⟨h3, by omega⟩

/-- C13 is violated: five bytes from a peer, a `piece` message announcing length 1, make the decoder panic in
the receiver's own zero-padded buffer. -/
theorem C13_decoder_violated :
    Message.fromBuf ([0#8, 0#8, 0#8, 1#8, 7#8] ++ List.replicate 16507 0#8) = .panic := by
  rw [C13_decoder_total_partial _ (by simp only [List.length_append, List.length_replicate]; decide)]
  simp only [List.cons_append, List.take_succ_cons, List.take_zero, List.getElem?_cons_succ,
    List.getElem?_cons_zero, and_true]
  decide

example : 17 ≤ ([0#8, 0#8, 0#8, 1#8, 7#8] ++ List.replicate 16507 0#8).length := by
  simp only [List.length_append, List.length_replicate]; decide

end Nargun
