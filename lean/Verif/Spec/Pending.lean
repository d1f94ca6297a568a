import Verif.Model.PendingPieces

/-! # Vocabulary for the properties of the set of pieces in progress -/

namespace Nargun.Spec

open Nargun

/-- The pieces in progress. -/
def inProgress (s : PendingPieces) : List Nat := s.data.keys

/-- The recorded state of one block of a piece in progress. -/
def blockAt (s : PendingPieces) (piece block : Nat) : Option Block :=
  (s.data.get? piece).bind fun p => p.data[block]?

/-- Number of 16384-byte blocks needed for a piece. -/
def blockCount (pieceLen : Nat) : Nat := (pieceLen + 16383) / 16384

/-- The size of block `i` of a piece of `pieceLen` bytes: 16384, or what remains for the last one. -/
def blockSize (pieceLen i : Nat) : Nat := min 16384 (pieceLen - i * 16384)

/-- What has been delivered (accepted) for a block since the piece was last started from scratch: a completed
piece is forgotten. -/
def delivered (piece block : Nat) : Option Bytes → List PendingPieces.Event → Option Bytes
  | acc, [] => acc
  | acc, .addBlock pi bi d .added :: es =>
    delivered piece block (if pi = piece ∧ bi = block then some d else acc) es
  | acc, .addBlock pi _ _ (.addedLast _ _) :: es => delivered piece block (if pi = piece then none else acc) es
  | acc, _ :: es => delivered piece block acc es

end Nargun.Spec
