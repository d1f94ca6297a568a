import Verif.Model.Prelude

/-! # Model of `src/data_structures/id.rs` -/

namespace Nargun

/-- `src/data_structures/id.rs:13` `ID_LEN`. -/
def ID_LEN : Nat := 20

/-- `id.rs:14` `ID_BIT_COUNT`. -/
def ID_BIT_COUNT : Nat := ID_LEN * 8

/-- `id.rs:16-22` `struct ID([u8; 20])`. -/
structure ID where
  bytes : Bytes
  len_eq : bytes.length = ID_LEN
  deriving DecidableEq

instance : Repr ID := ⟨fun id _ => repr id.bytes⟩

namespace ID

/-- The expression `(0b1000_0000u8 >> (i % 8)) & self.0[i / 8] > 0` of `id.rs:24-31` where the index is in
range. -/
def bit (id : ID) (i : Nat) : Bool :=
  decide ((0x80#8 >>> (i % 8)) &&& id.bytes.getD (i / 8) 0 > 0#8)

/-- `id.rs:24-31` `ID::get_bit`; panics on an index beyond the array. -/
def getBit (id : ID) (i : Nat) : Res Bool :=
  if i / 8 < ID_LEN then .ok (id.bit i) else .panic

/-- Writing one byte of the array (`self.0[i] = b`), panics out of range. -/
def setByte (id : ID) (i : Nat) (b : Byte) : Res ID :=
  if i < ID_LEN then .ok ⟨id.bytes.set i b, by simp [id.len_eq]⟩ else .panic

/-- `id.rs:33-40` `ID::flip_bit`. -/
def flipBit (id : ID) (i : Nat) : Res ID :=
  id.setByte (i / 8) (id.bytes.getD (i / 8) 0 ^^^ (0x80#8 >>> (i % 8)))

/-- `id.rs:42-54` `ID::change_bit`. -/
def changeBit (id : ID) (i : Nat) (v : Bool) : Res ID :=
  let bitClearer : Byte := ~~~ (0x80#8 >>> (i % 8))
  let byteWithoutTargetBit := bitClearer &&& id.bytes.getD (i / 8) 0
  let bitSetter : Byte := (if v then 1#8 else 0#8) <<< (7 - i % 8)
  id.setByte (i / 8) (byteWithoutTargetBit ||| bitSetter)

/-- `id.rs:60-64`: first loop of `cmp_first_n_bits`, over whole bytes. -/
def cmpBytes : List (Byte × Byte) → Ordering
  | [] => .eq
  | (a, b) :: rest => if compare a.toNat b.toNat ≠ .eq then compare a.toNat b.toNat else cmpBytes rest

/-- `id.rs:66-72`: second loop of `cmp_first_n_bits`, over the remaining bits. -/
def cmpBits (a b : ID) : List Nat → Res Ordering
  | [] => .ok .eq
  | i :: is => do
    let x ← a.getBit i
    let y ← b.getBit i
    if compare x y ≠ .eq then .ok (compare x y) else cmpBits a b is

/-- `id.rs:56-75` `ID::cmp_first_n_bits`. -/
def cmpFirstNBits (a b : ID) (n : Nat) : Res Ordering :=
  let byteIdx := n / 8
  let bitOffset := n % 8
  let c := cmpBytes ((a.bytes.zip b.bytes).take byteIdx)
  if c ≠ .eq then .ok c
  else cmpBits a b ((List.range bitOffset).map (fun i => byteIdx * 8 + i))

/-- `id.rs:77-82,283-300` `ID::bit_iter` / `BitIter::next`: the bits at indices `0 .. 159` in order (the
iterator's guard `idx < ID_LEN * 8` keeps every access in range). -/
def bitIter (id : ID) : List Bool := (List.range (ID_LEN * 8)).map id.bit

/-- Loop of `id.rs:85-91` (`idx` is the `enumerate` counter). -/
def firstDiffLoop : List (Bool × Bool) → Nat → Option Nat
  | [], _ => none
  | (l, r) :: rest, idx => if l ≠ r then some idx else firstDiffLoop rest (idx + 1)

/-- `id.rs:84-92` `ID::first_diff_bit_idx`. -/
def firstDiffBitIdx (a b : ID) : Option Nat := firstDiffLoop (a.bitIter.zip b.bitIter) 0

/-- Loop of `id.rs:107-111`: flips bit `start + k` for each `k` below the count whenever the random source
says so. -/
def flipRandom (rndBit : Nat → Bool) : ID → List Nat → Res ID
  | id, [] => .ok id
  | id, j :: js => do
    let id' ← (if rndBit j then id.flipBit j else .ok id : Res ID)
    flipRandom rndBit id' js

/-- `id.rs:94-112` `ID::randomize_after_bit`.  The random source is a parameter: `rndByte k` is the byte drawn
for position `k`, `rndBit j` the boolean drawn for bit `j`. -/
def randomizeAfterBit (rndByte : Nat → Byte) (rndBit : Nat → Bool) (id : ID) (i : Nat) : Res ID :=
  if i ≥ ID_BIT_COUNT then .ok id
  else
    let firstByteIdx := i / 8 + 1
    let bytes' := id.bytes.take firstByteIdx ++
      (List.range (ID_LEN - firstByteIdx)).map (fun k => rndByte (firstByteIdx + k))
    if h : bytes'.length = ID_LEN then
      flipRandom rndBit ⟨bytes', h⟩
        ((List.range (firstByteIdx * 8 - (i + 1))).map (fun k => i + 1 + k))
    else .panic

/-- `id.rs:114-125` `ID::bit_based_order`. -/
def bitBasedOrder {α : Type} (id : ID) (bitIdx : Nat) (firstIfTrue firstIfFalse : α) : Res (α × α) := do
  let b ← id.getBit bitIdx
  if b then .ok (firstIfTrue, firstIfFalse) else .ok (firstIfFalse, firstIfTrue)

/-- `id.rs:127-132` `ID::hash_with_secret`; SHA-1 is a parameter. -/
def hashWithSecret (sha1 : Bytes → Bytes) (id : ID) (secret : Bytes) : Bytes := sha1 (id.bytes ++ secret)

/-- Checked `u32` subtraction (debug build). -/
def subU32 (a b : BitVec 32) : Res (BitVec 32) := if b ≤ a then .ok (a - b) else .panic

/-- Checked `u32` addition (debug build). -/
def addU32 (a b : BitVec 32) : Res (BitVec 32) :=
  if a.toNat + b.toNat < 2 ^ 32 then .ok (a + b) else .panic

/-- `id.rs:149-154` `hamming_weight`. -/
def hammingWeight (x : BitVec 32) : Res (BitVec 32) := do
  let x ← subU32 x ((x >>> 1) &&& 0x55555555#32)
  let x ← addU32 (x &&& 0x33333333#32) ((x >>> 2) &&& 0x33333333#32)
  let y ← addU32 x (x >>> 4)
  let x := y &&& 0x0f0f0f0f#32
  .ok ((x * 0x01010101#32) >>> 24)

/-- The `k`-th `u32` of `transmute::<[u8; 20], [u32; 5]>` (`id.rs:140`) on a little-endian machine. -/
def word (id : ID) (k : Nat) : BitVec 32 :=
  (id.bytes.getD (4 * k + 3) 0 ++ id.bytes.getD (4 * k + 2) 0 ++
    id.bytes.getD (4 * k + 1) 0 ++ id.bytes.getD (4 * k) 0 : BitVec (8 + 8 + 8 + 8))

/-- `id.rs:138-146` `ID::weight`. -/
def weight (id : ID) : Res Nat := do
  let w0 ← hammingWeight (id.word 0)
  let w1 ← hammingWeight (id.word 1)
  let w2 ← hammingWeight (id.word 2)
  let w3 ← hammingWeight (id.word 3)
  let w4 ← hammingWeight (id.word 4)
  let s ← addU32 w0 w1
  let s ← addU32 s w2
  let s ← addU32 s w3
  let s ← addU32 s w4
  .ok s.toNat

/-- Loop of `id.rs:220-229`. -/
def cmpLoop : List (Bool × Bool) → Ordering
  | [] => .eq
  | (true, true) :: _ => .eq
  | (true, false) :: _ => .gt
  | (false, true) :: _ => .lt
  | (false, false) :: rest => cmpLoop rest

/-- `id.rs:218-231` `impl Ord for ID`. -/
def cmp (a b : ID) : Ordering := cmpLoop (a.bitIter.zip b.bitIter)

/-- `id.rs:233-253` `impl BitXor for ID`. -/
def xor (a b : ID) : ID :=
  ⟨List.zipWith (· ^^^ ·) a.bytes b.bytes, by simp [a.len_eq, b.len_eq]⟩

/-- `id.rs:255-271` `impl Sub for ID`: the XOR distance. -/
def sub (a b : ID) : ID := a.xor b

/-- `id.rs:273-281` `impl From<Vec<u8>> for ID`: panics unless there are 20 bytes. -/
def fromVec (v : Bytes) : Res ID := if h : v.length = ID_LEN then .ok ⟨v, h⟩ else .panic

/-- `id.rs:171-193` `impl Deserialize for ID`, the visitor: `v.try_into().unwrap()` panics unless there are 20
bytes. -/
def visitBytes (v : Bytes) : Res ID := if h : v.length = ID_LEN then .ok ⟨v, h⟩ else .panic

end ID
end Nargun
