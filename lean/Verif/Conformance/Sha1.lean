import Verif.Conformance.Basic

/-! # SHA-1 (FIPS 180-4), for the tests only

The model takes SHA-1 as a parameter.  The tests on real torrent files need a concrete one; it is written for the
kernel's arithmetic on natural numbers. -/

namespace Nargun.Conformance.Sha1

/-- Evaluates a number before it is used. -/
def force {α} (n : Nat) (k : Nat → α) : α :=
  match n with
  | 0 => k 0
  | m + 1 => k (m + 1)

/-- Rotation of a 32-bit word. -/
def rotl (x k : Nat) : Nat := (x <<< k ||| x >>> (32 - k)) % 2 ^ 32

/-- The complement of a 32-bit word. -/
def compl (x : Nat) : Nat := 2 ^ 32 - 1 - x

/-- The five words of the state. -/
structure St where
  a : Nat
  b : Nat
  c : Nat
  d : Nat
  e : Nat

/-- The function and the constant of a round. -/
def roundFn (t b c d : Nat) : Nat :=
  if t < 20 then ((b &&& c) ||| (compl b &&& d)) + 0x5A827999
  else if t < 40 then (b ^^^ c ^^^ d) + 0x6ED9EBA1
  else if t < 60 then ((b &&& c) ||| (b &&& d) ||| (c &&& d)) + 0x8F1BBCDC
  else (b ^^^ c ^^^ d) + 0xCA62C1D6

/-- Rounds `t ..`; the list holds the words of rounds `t .. t + 15`. -/
def rounds : Nat → Nat → List Nat → St → St
  | 0, _, _, s => s
  | _ + 1, _, [], s => s
  | n + 1, t, w :: ws, s =>
    force ((rotl s.a 5 + roundFn t s.b s.c s.d + s.e + w) % 2 ^ 32) fun temp =>
    force (rotl s.b 30) fun c' =>
    force (rotl (w ^^^ ws.getD 1 0 ^^^ ws.getD 7 0 ^^^ ws.getD 12 0) 1) fun w' =>
    rounds n (t + 1) (ws ++ [w']) ⟨temp, s.a, c', s.c, s.d⟩

/-- One block of 64 bytes, given as 16 words. -/
def block (s : St) (ws : List Nat) : St :=
  let r := rounds 80 0 ws s
  force ((s.a + r.a) % 2 ^ 32) fun a =>
  force ((s.b + r.b) % 2 ^ 32) fun b =>
  force ((s.c + r.c) % 2 ^ 32) fun c =>
  force ((s.d + r.d) % 2 ^ 32) fun d =>
  force ((s.e + r.e) % 2 ^ 32) fun e => ⟨a, b, c, d, e⟩

/-- Big-endian words. -/
def words : Bytes → List Nat
  | a :: b :: c :: d :: rest => (((a.toNat * 256 + b.toNat) * 256 + c.toNat) * 256 + d.toNat) :: words rest
  | _ => []

/-- The padded message: a one bit, zeros, the length in bits. -/
def pad (m : Bytes) : Bytes :=
  m ++ 0x80#8 :: List.replicate ((119 - m.length % 64) % 64) 0 ++
    (List.range 8).map fun k => BitVec.ofNat 8 (m.length * 8 / 256 ^ (7 - k))

/-- All blocks. -/
def blocks : Nat → List Nat → St → St
  | 0, _, s => s
  | n + 1, ws, s => if ws = [] then s else blocks n (ws.drop 16) (block s (ws.take 16))

/-- A word as four bytes. -/
def wordBytes (x : Nat) : Bytes := (List.range 4).map fun k => BitVec.ofNat 8 (x / 256 ^ (3 - k))

/-- SHA-1. -/
def sha1 (m : Bytes) : ID :=
  let ws := words (pad m)
  let s := blocks ws.length ws ⟨0x67452301, 0xEFCDAB89, 0x98BADCFE, 0x10325476, 0xC3D2E1F0⟩
  idOf (wordBytes s.a ++ wordBytes s.b ++ wordBytes s.c ++ wordBytes s.d ++ wordBytes s.e)

/-- The number a byte string stands for, big-endian. -/
def num (b : Bytes) : Nat := b.foldl (fun n x => n * 256 + x.toNat) 0

/-- FIPS 180, example 1. -/
example : num (sha1 (Spec.ascii "abc")).bytes = 0xa9993e364706816aba3e25717850c26c9cd0d89d := by decide +kernel

/-- FIPS 180, example 2. -/
example : num (sha1 (Spec.ascii "abcdbcdecdefdefgefghfghighijhijkijkljklmklmnlmnomnopnopq")).bytes =
    0x84983e441c3bd26ebaae4aa1f95129e5e54670f1 := by decide +kernel

/-- The empty string. -/
example : num (sha1 []).bytes = 0xda39a3ee5e6b4b0d3255bfef95601890afd80709 := by decide +kernel

end Nargun.Conformance.Sha1
