import Verif.Model.Bencode

/-! # Specification of canonical bencoding (BEP 3), independent of the decoder -/

namespace Nargun.Spec

open Nargun

/-- Comparison of byte strings as raw strings, byte by byte: `a` is a proper prefix of `b`, or at the first
difference its byte is smaller. -/
def RawLt (a b : Bytes) : Prop :=
  ∃ common, (∃ x xs, a = common ∧ b = common ++ x :: xs) ∨
    ∃ x y xs ys, a = common ++ x :: xs ∧ b = common ++ y :: ys ∧ x.toNat < y.toNat

mutual

/-- `Canonical d v`: nested at most `d` deep, every string's length fits 64 bits, and the keys of every
dictionary are in strictly increasing raw order. -/
def Canonical : Nat → BVal → Prop
  | _, .int _ => True
  | _, .str s => s.length < 2 ^ 64
  | 0, .list _ => False
  | 0, .dict _ => False
  | d + 1, .list l => CanonicalItems d l
  | d + 1, .dict l => CanonicalPairs d l ∧ (l.map (·.1)).Pairwise RawLt

/-- All items are canonical. -/
def CanonicalItems : Nat → List BVal → Prop
  | _, [] => True
  | d, v :: vs => Canonical d v ∧ CanonicalItems d vs

/-- All keys and values are canonical. -/
def CanonicalPairs : Nat → List (Bytes × BVal) → Prop
  | _, [] => True
  | d, (k, v) :: ps => k.length < 2 ^ 64 ∧ Canonical d v ∧ CanonicalPairs d ps

end

end Nargun.Spec
