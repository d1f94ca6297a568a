import Verif.Model.PendingPieces

/-! # `take_not_good_blocks` of `src/peers/connection/pending_pieces.rs` with all its readings of the clock

`PendingPieces.takeNotGoodBlocks` reads the clock once. The code reads it once at the beginning (line 151), and once more
for every pending block the second filter looks at (line 254). Here every such reading is a value of its own. -/

namespace Nargun

/-- As `takeFromBlocks` (`pending_pieces.rs:176-189` with the loop body at `154-163`), with a filter that may answer
differently from block to block. -/
def takeFromBlocksAt (f : Nat → Block → Bool) (desc : Block) (pieceIdx : Nat) :
    Nat → List Block → List Block × List BlockAddress
  | _, [] => ([], [])
  | i, b :: bs =>
    let r := takeFromBlocksAt f desc pieceIdx (i + 1) bs
    if f i b then (desc :: r.1, .new pieceIdx i :: r.2) else (b :: r.1, r.2)

/-- As `takeFromPieces` (`filtered_iter_over_blocks`, `pending_pieces.rs:171-190`), with such a filter. -/
def takeFromPiecesAt (f : Nat → Nat → Block → Bool) (desc : Block) (pieces : List Nat) :
    Map Nat PieceState → Map Nat PieceState × List BlockAddress
  | [] => ([], [])
  | (k, p) :: m =>
    let r := takeFromPiecesAt f desc pieces m
    if pieces.contains k then
      let t := takeFromBlocksAt (f k) desc k 0 p.data
      ((k, { p with data := t.1 }) :: r.1, t.2 ++ r.2)
    else ((k, p) :: r.1, r.2)

/-- As `takeFiltered` (`pending_pieces.rs:153-163`), with such a filter. -/
def takeFilteredAt (f : Nat → Nat → Block → Bool) (owner : Option Peer) (now : Nat) (pieces : List Nat)
    (m : Map Nat PieceState) : Res (Map Nat PieceState × List BlockAddress) :=
  match owner with
  | some o => .ok (takeFromPiecesAt f (.pending o now) pieces m)
  | none =>
    if (takeFromPiecesAt f .unbegun pieces m).2 = [] then .ok (m, []) else .panic

namespace PendingPieces

/-- `pending_pieces.rs:140-169` `take_not_good_blocks`: `now` is read at the beginning (line 151), `exam k i` when the
second filter looks at block `i` of piece `k` (line 254). The rest as in `takeNotGoodBlocks`. -/
def takeTimed (s : PendingPieces) (owner : Option Peer) (now : Nat) (exam : Nat → Nat → Nat) (pieces : List Nat)
    (cap : Nat) (blockBuf : List BlockAddress) : Res (PendingPieces × List BlockAddress) := do
  let (m1, a1) ← takeFilteredAt (fun _ _ => Block.isUnbegun) owner now pieces s.data
  let buf1 := blockBuf ++ a1
  if cap = buf1.length then .ok ({ s with data := m1 }, buf1)
  else do
    let (m2, a2) ← takeFilteredAt (fun k i => Block.isExpiredPending (exam k i)) owner now pieces m1
    .ok ({ s with data := m2 }, buf1 ++ a2)

/-- A call with what it returned; the calls that do not take blocks are those of `Event`. -/
inductive TimedEvent where
  | call (e : Event)
  | take (owner : Option Peer) (now : Nat) (exam : Nat → Nat → Nat) (pieces : List Nat) (got : List BlockAddress)

/-- One call that did not panic. -/
inductive TimedStep (p : Profile) : PendingPieces → TimedEvent → PendingPieces → Prop
  | call {s s' e} : Step p s e s' → (∀ o now ps got, e ≠ .take o now ps got) → TimedStep p s (.call e) s'
  | take {s s' o now exam ps cap got} : s.takeTimed o now exam ps cap [] = .ok (s', got) →
      TimedStep p s (.take o now exam ps got) s'

/-- A history of calls by any of the tasks sharing the structure, none of which panicked. -/
inductive TimedRun (p : Profile) : PendingPieces → List TimedEvent → PendingPieces → Prop
  | nil {s} : TimedRun p s [] s
  | cons {s s1 s2 e es} : TimedStep p s e s1 → TimedRun p s1 es s2 → TimedRun p s (e :: es) s2

end PendingPieces

end Nargun
