import Verif.Spec.Wire

namespace Nargun
open Spec

theorem beBytes_length (w n : Nat) : (beBytes w n).length = w := by simp [beBytes]

theorem beBytes_four (n : Nat) : beBytes 4 n =
    [BitVec.ofNat 8 (n / 2 ^ 24), BitVec.ofNat 8 (n / 2 ^ 16), BitVec.ofNat 8 (n / 2 ^ 8), BitVec.ofNat 8 n] := by
  simp only [beBytes, List.range, List.range.loop, List.map]
  simp only [List.cons.injEq, and_true]
  refine ⟨?_, ?_, ?_, ?_⟩ <;> (apply BitVec.eq_of_toNat_eq; simp)

theorem beBytes_two (n : Nat) : beBytes 2 n = [BitVec.ofNat 8 (n / 2 ^ 8), BitVec.ofNat 8 n] := by
  simp only [beBytes, List.range, List.range.loop, List.map]
  simp only [List.cons.injEq, and_true]
  refine ⟨?_, ?_⟩ <;> (apply BitVec.eq_of_toNat_eq; simp)

theorem u32Bytes_eq (x : U32) : u32Bytes x = beBytes 4 x.toNat := by
  rw [beBytes_four]
  simp only [u32Bytes, List.cons.injEq, and_true]
  refine ⟨?_, ?_, ?_, ?_⟩ <;> (apply BitVec.eq_of_toNat_eq; simp [Nat.shiftRight_eq_div_pow])

theorem u16Bytes_eq (x : U16) : u16Bytes x = beBytes 2 x.toNat := by
  rw [beBytes_two]
  simp only [u16Bytes, List.cons.injEq, and_true]
  refine ⟨?_, ?_⟩ <;> (apply BitVec.eq_of_toNat_eq; simp [Nat.shiftRight_eq_div_pow])

theorem u32FromBe_cons (a b c d : Byte) (r : Bytes) :
    u32FromBeSlice (a :: b :: c :: d :: r) =
      .ok (BitVec.ofNat 32 (a.toNat * 2 ^ 24 + b.toNat * 2 ^ 16 + c.toNat * 2 ^ 8 + d.toNat)) := by
  simp only [u32FromBeSlice, index, List.getElem?_cons_zero, List.getElem?_cons_succ, Res.unwrap_some,
    Res.ok_bind]
  congr 1
  apply BitVec.eq_of_toNat_eq
  simp [Nat.shiftLeft_eq]

theorem u32FromBe_beBytes (n : Nat) (r : Bytes) :
    u32FromBeSlice (beBytes 4 n ++ r) = .ok (BitVec.ofNat 32 n) := by
  rw [beBytes_four]
  simp only [List.cons_append, List.nil_append, u32FromBe_cons]
  congr 1
  apply BitVec.eq_of_toNat_eq
  simp
  omega

theorem u16FromBe_beBytes (n : Nat) :
    u16FromBe (BitVec.ofNat 8 (n / 2 ^ 8)) (BitVec.ofNat 8 n) = BitVec.ofNat 16 n := by
  apply BitVec.eq_of_toNat_eq
  simp [u16FromBe, Nat.shiftLeft_eq]
  omega

/-- Reading a `u32` needs exactly four bytes. -/
theorem u32FromBe_ok {s : Bytes} (h : 4 ≤ s.length) : ∃ x, u32FromBeSlice s = .ok x := by
  match s, h with
  | a :: b :: c :: d :: r, _ => exact ⟨_, u32FromBe_cons a b c d r⟩

theorem sliceFrom_append {α} (a b : List α) : sliceFrom (a ++ b) a.length = .ok b := by
  simp [sliceFrom]

theorem sliceFrom_append' {α} {a b : List α} {n : Nat} (h : n = a.length) :
    sliceFrom (a ++ b) n = .ok b := by subst h; exact sliceFrom_append a b

theorem sliceR_append {α} {a b c : List α} {n m : Nat} (h : n = a.length) (h' : m = a.length + b.length) :
    sliceR (a ++ (b ++ c)) n m = .ok b := by
  subst h h'; simp [sliceR]

theorem sliceFrom_ok {α} {a : List α} {n : Nat} (h : n ≤ a.length) : sliceFrom a n = .ok (a.drop n) := by
  simp [sliceFrom, h]

theorem payload_length_pos (m : Message) (h : m ≠ .keepAlive) : 0 < (payload m).length := by
  cases m <;> simp [payload] at *

theorem wire_length (m : Message) : (wire m).length = 4 + (payload m).length := by
  simp [wire, beBytes_length]

/-- The decoder's view of a buffer starting with a length prefix. -/
theorem fromBuf_prefix (n : Nat) (hn : n < 2 ^ 32) (body : Bytes) :
    Message.len (beBytes 4 n ++ body) = .ok n := by
  simp only [Message.len]
  rw [show beBytes 4 n ++ body = [] ++ (beBytes 4 n ++ body) by simp,
    sliceR_append (by simp) (by simp [beBytes_length])]
  have := u32FromBe_beBytes n []
  rw [List.append_nil] at this
  simp only [Res.ok_bind, this]
  congr 1
  simpa using Nat.mod_eq_of_lt hn

theorem lenField_eq {base n : Nat} (h : base + n < 2 ^ 32) :
    Message.lenField base n = .ok (BitVec.ofNat 32 (base + n)) := by
  have : n % 2 ^ 32 = n := Nat.mod_eq_of_lt (by omega)
  simp only [Message.lenField, this]
  rw [if_pos h]

theorem u32Bytes_ofNat {n : Nat} (h : n < 2 ^ 32) : u32Bytes (BitVec.ofNat 32 n) = beBytes 4 n := by
  rw [u32Bytes_eq]; congr 1; simpa using Nat.mod_eq_of_lt h

theorem intoBytes_eq (m : Message) (h : Fits m) : m.intoBytes = .ok (wire m) := by
  cases m <;> simp only [Message.intoBytes, wire, payload, Message.requestBytes, u32Bytes_eq, u16Bytes_eq]
  case bitfield b =>
    simp only [Fits, payload, List.length_cons] at h
    rw [lenField_eq (by omega)]
    simp only [Res.ok_bind, ← u32Bytes_eq, u32Bytes_ofNat (show 1 + b.length < 2 ^ 32 by omega),
      List.length_cons]
    simp [Nat.add_comm]
  case piece p =>
    simp only [Fits, payload, List.length_cons, List.length_append, beBytes_length] at h
    rw [lenField_eq (by omega)]
    simp only [Res.ok_bind, ← u32Bytes_eq, u32Bytes_ofNat (show 9 + p.block.length < 2 ^ 32 by omega),
      List.length_cons, List.length_append]
    simp [u32Bytes_eq, beBytes_length]
    congr 1
    omega
  all_goals simp [beBytes_length]

/-- `fromBuf` on a buffer split into length prefix, id and the bytes behind the id. -/
def bodyMessage (id : Byte) (n : Nat) (body : Bytes) : Res (Option Message) :=
  match id.toNat with
  | 0 => .ok (some .choke)
  | 1 => .ok (some .unchoke)
  | 2 => .ok (some .interested)
  | 3 => .ok (some .notInterested)
  | 4 => do
    let i ← u32FromBeSlice body
    .ok (some (.have_ i))
  | 5 => .ok (some (.bitfield (body.take n)))
  | 6 => do
    let i ← u32FromBeSlice body
    let b ← sliceFrom body 4 >>= u32FromBeSlice
    let l ← sliceFrom body 8 >>= u32FromBeSlice
    .ok (some (.request ⟨i, b, l⟩))
  | 7 => do
    let i ← u32FromBeSlice body
    let b ← sliceFrom body 4 >>= u32FromBeSlice
    let blk ← sliceR body 8 n
    .ok (some (.piece ⟨i, b, blk⟩))
  | 8 => do
    let i ← u32FromBeSlice body
    let b ← sliceFrom body 4 >>= u32FromBeSlice
    let l ← sliceFrom body 8 >>= u32FromBeSlice
    .ok (some (.cancel ⟨i, b, l⟩))
  | 9 => do
    let b0 ← index body 0
    let b1 ← index body 1
    .ok (some (.port (u16FromBe b0 b1)))
  | _ => .ok none

theorem sliceFrom_add {α} (a b : List α) (n : Nat) : sliceFrom (a ++ b) (a.length + n) = sliceFrom b n := by
  simp [sliceFrom]

theorem sliceR_add {α} (a b : List α) (n m : Nat) :
    sliceR (a ++ b) (a.length + n) (a.length + m) = sliceR b n m := by
  simp [sliceR]
  grind

theorem index_add {α} (a b : List α) (n : Nat) : index (a ++ b) (a.length + n) = index b n := by
  simp [index, List.getElem?_append_right]

theorem fromBuf_body (n : Nat) (hn : n + 1 < 2 ^ 32) (id : Byte) (body : Bytes) (hb : n ≤ body.length) :
    Message.fromBuf (beBytes 4 (n + 1) ++ id :: body) = bodyMessage id n body := by
  have hlen := u32FromBe_beBytes (n + 1) []
  rw [List.append_nil] at hlen
  have hs : sliceR (beBytes 4 (n + 1) ++ id :: body) 0 BYTES_IN_LEN_PREFIX = .ok (beBytes 4 (n + 1)) := by
    rw [show beBytes 4 (n + 1) ++ id :: body = [] ++ (beBytes 4 (n + 1) ++ id :: body) by simp]
    exact sliceR_append (by simp) (by simp [beBytes_length])
  have hm : (BitVec.ofNat 32 (n + 1)).toNat = n + 1 := by simpa using Nat.mod_eq_of_lt hn
  unfold Message.fromBuf
  simp only [hs, Res.ok_bind, hlen, hm]
  have hl : (beBytes 4 (n + 1) ++ id :: body).length = 5 + body.length := by
    simp [beBytes_length]; omega
  rw [hl, if_neg (by omega), if_neg (by omega)]
  have i4 : index (beBytes 4 (n + 1) ++ id :: body) 4 = .ok id := by
    have := index_add (beBytes 4 (n + 1)) (id :: body) 0
    rw [beBytes_length] at this
    rw [this]; rfl
  have e : beBytes 4 (n + 1) ++ id :: body = (beBytes 4 (n + 1) ++ [id]) ++ body := by simp
  have l5 : (beBytes 4 (n + 1) ++ [id]).length = 5 := by simp [beBytes_length]
  have sf : ∀ k, sliceFrom (beBytes 4 (n + 1) ++ id :: body) (5 + k) = sliceFrom body k := by
    intro k; rw [e, ← l5, sliceFrom_add]
  have sr : ∀ k m, sliceR (beBytes 4 (n + 1) ++ id :: body) (5 + k) (5 + m) = sliceR body k m := by
    intro k m; rw [e, ← l5, sliceR_add]
  have ix : ∀ k, index (beBytes 4 (n + 1) ++ id :: body) (5 + k) = index body k := by
    intro k; rw [e, ← l5, index_add]
  have sf0 : sliceFrom (beBytes 4 (n + 1) ++ id :: body) 5 = .ok body := by
    rw [sf 0, sliceFrom_ok (by omega)]; simp
  have sf9 := sf 4
  have sf13 := sf 8
  have sr5 : sliceR (beBytes 4 (n + 1) ++ id :: body) 5 (n + 1 + 4) = .ok (body.take n) := by
    have := sr 0 n
    rw [show n + 1 + 4 = 5 + n by omega, this]
    simp [sliceR, hb]
  have sr13 : sliceR (beBytes 4 (n + 1) ++ id :: body) 13 (n + 1 + 4) = sliceR body 8 n := by
    rw [show n + 1 + 4 = 5 + n by omega, ← sr 8 n]
  have ix5 := ix 0
  have ix6 := ix 1
  simp only [Nat.reduceAdd, Nat.add_zero] at sf9 sf13 ix5 ix6
  simp only [i4, Res.ok_bind, bodyMessage, Message.readRequest, sf0, sf9, sf13, sr5, sr13, ix5, ix6, bind_assoc]
  rfl

theorem fromBuf_wire (m : Message) (h : Fits m) (rest : Bytes) :
    Message.fromBuf (wire m ++ rest) = .ok (some m) := by
  by_cases hk : m = .keepAlive
  · subst hk
    simp [wire, payload, beBytes_four, Message.fromBuf, sliceR, u32FromBe_cons]
  · obtain ⟨id, body, hp⟩ : ∃ id body, payload m = id :: body := by
      cases m <;> simp [payload] at *
    have hf : body.length + 1 < 2 ^ 32 := by simpa [Fits, hp] using h
    have e : wire m ++ rest = beBytes 4 (body.length + 1) ++ id :: (body ++ rest) := by
      simp [wire, hp]
    rw [e, fromBuf_body _ hf _ _ (by simp)]
    have u4 : ∀ (x : U32) (r : Bytes), u32FromBeSlice (beBytes 4 x.toNat ++ r) = .ok x := by
      intro x r; rw [u32FromBe_beBytes]; simp
    cases m <;> simp only [payload, List.cons.injEq, reduceCtorEq] at hp <;>
      obtain ⟨rfl, rfl⟩ := hp
    case neg.port p =>
      simp only [bodyMessage, beBytes_two, index]
      have := u16FromBe_beBytes p.toNat
      simp only [List.cons_append, List.getElem?_cons_zero, List.getElem?_cons_succ, Res.unwrap_some,
        Res.ok_bind, this]
      simp
    all_goals simp [bodyMessage, u4, List.append_assoc, sliceFrom, sliceR, beBytes_length,
      List.drop_append, List.drop_of_length_le, List.take_append]
    case neg.request r => rw [if_pos (by omega)]; simp [u4]
    case neg.cancel r => rw [if_pos (by omega)]; simp [u4]
    case neg.piece p =>
      rw [if_pos (by omega), show 4 + (4 + p.block.length) - 8 = p.block.length by omega]
      simp

end Nargun
