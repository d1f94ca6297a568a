import Verif.Model.TrackerResponse

/-! # Specification of tracker responses (BEP 3, BEP 23) -/

namespace Nargun.Spec

open Nargun

/-- The value of a key of a dictionary. -/
def field (pairs : List (Bytes × BVal)) (key : String) : Option BVal := pairs.lookup (ascii key)

/-- A required unsigned 64-bit number. -/
def IsNumber (v : Option BVal) (n : Nat) : Prop := v = some (.int n) ∧ n < 2 ^ 64

/-- An optional unsigned 64-bit number. -/
def IsOptNumber (v : Option BVal) (n : Option Nat) : Prop :=
  (v = none ∧ n = none) ∨ ∃ m, IsNumber v m ∧ n = some m

/-- An optional text. -/
def IsOptText (utf8 : Bytes → Bool) (v : Option BVal) (s : Option Bytes) : Prop :=
  (v = none ∧ s = none) ∨ ∃ t, v = some (.str t) ∧ utf8 t = true ∧ s = some t

/-- The addresses of a compact peer string: its `i`-th group of six bytes is the address and port (big endian) of
the `i`-th peer; bytes after the last whole group do not count. -/
def IsPeers (bs : Bytes) (ps : List Peer) : Prop :=
  ps.length = bs.length / 6 ∧
  ∀ i (h : i < ps.length), ∃ a b c d hi lo : Byte,
    (bs.drop (6 * i)).take 6 = [a, b, c, d, hi, lo] ∧ ps[i].addr.ip = ⟨a, b, c, d⟩ ∧
    ps[i].addr.port.toNat = 256 * hi.toNat + lo.toNat

/-- A dictionary with these pairs means this response. -/
structure Means (utf8 : Bytes → Bool) (pairs : List (Bytes × BVal)) (r : TrackerResponse) : Prop where
  interval : IsNumber (field pairs "interval") r.interval
  complete : IsNumber (field pairs "complete") r.complete
  incomplete : IsNumber (field pairs "incomplete") r.incomplete
  peers : ∃ bs, field pairs "peers" = some (.str bs) ∧ IsPeers bs r.peers
  minInterval : IsOptNumber (field pairs "min interval") r.minInterval
  trackerId : IsOptText utf8 (field pairs "tracker id") r.trackerId
  warning : IsOptText utf8 (field pairs "warning message") r.warningMessage

end Nargun.Spec
