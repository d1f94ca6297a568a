import Verif.Model.Map
import Verif.Model.Addr

/-! # Model of `src/peers/connection/pending_pieces.rs`

The map behind the `Arc<Mutex<..>>` is shared by all clones; only `copy_owner` differs between clones, so it
is an argument of the one function that reads it. A panic inside an operation poisons the mutex and makes
every later call panic, so a history ends at the first panic. -/

namespace Nargun

/-- `pending_pieces.rs:17` `MAX_PIECES_DOWNLOADING`. -/
notation "MAX_PIECES_DOWNLOADING" => (10 : Nat)

/-- `pending_pieces.rs:18` `MAINLINE_TCP_REQUEST_TIMEOUT_SECS`, in nanoseconds. -/
def REQUEST_TIMEOUT : Nat := 7000000000

/-- `pending_pieces.rs:46-51` `enum Block` with `PendingBlockDesc` (lines 40-44) inlined. -/
inductive Block where
  | unbegun
  | pending (target : Peer) (timeSent : Nat)
  | downloaded (data : Bytes)
  deriving DecidableEq, Repr

/-- `pending_pieces.rs:34-38` `struct Piece`. -/
structure PieceState where
  pending : Nat
  downloaded : Nat
  data : List Block
  deriving DecidableEq, Repr

/-- `pending_pieces.rs:20-26` `struct PendingPieces` (without `copy_owner`, see above). -/
structure PendingPieces where
  pieceLength : Nat
  blocksPerPiece : Nat
  data : Map Nat PieceState
  deriving DecidableEq, Repr

/-- `pending_pieces.rs:53-57` `enum AddBlockRes`, with `FinishedPiece` (lines 28-32) inlined. -/
inductive AddBlockRes where
  | failed
  | added
  | addedLast (idx : Nat) (blocks : List Bytes)
  deriving DecidableEq, Repr

namespace Block

/-- `pending_pieces.rs:145,245-247`: `block.is(&Block::Unbegun)`. -/
def isUnbegun : Block → Bool
  | unbegun => true
  | _ => false

/-- `pending_pieces.rs:249-255` `is_expired_pending`, with the clock reading `now`; `elapsed` saturates. -/
def isExpiredPending (now : Nat) : Block → Bool
  | pending _ t => decide (now - t > REQUEST_TIMEOUT)
  | _ => false

/-- `pending_pieces.rs:257-263` `is_expected_from`. -/
def isExpectedFrom (target : Peer) : Block → Bool
  | pending t _ => decide (t = target)
  | _ => false

/-- `pending_pieces.rs:266-273` `From<Block> for Vec<u8>`. -/
def intoVec : Block → Res Bytes
  | downloaded d => .ok d
  | _ => .panic

end Block

/-- `pending_pieces.rs:225-236` `Piece::new`. -/
def PieceState.new (size : Nat) : Res PieceState := do
  let n ← unsignedCeilDiv size BLOCK_SIZE
  .ok ⟨0, 0, List.replicate n .unbegun⟩

/-- `finished_piece.data.into_iter().map(|b| b.into()).collect()`, `pending_pieces.rs:118`. -/
def blocksIntoVecs : List Block → Res (List Bytes)
  | [] => .ok []
  | b :: bs => do
    let d ← b.intoVec
    let ds ← blocksIntoVecs bs
    .ok (d :: ds)

/-- The inner iterator of `pending_pieces.rs:176-189` together with the loop body at `154-163`, on the blocks
of one piece: every block passing the filter is overwritten with `desc`, and its address is pushed. -/
def takeFromBlocks (f : Block → Bool) (desc : Block) (pieceIdx : Nat) :
    Nat → List Block → List Block × List BlockAddress
  | _, [] => ([], [])
  | i, b :: bs =>
    let r := takeFromBlocks f desc pieceIdx (i + 1) bs
    if f b then (desc :: r.1, .new pieceIdx i :: r.2) else (b :: r.1, r.2)

/-- `filtered_iter_over_blocks`, `pending_pieces.rs:171-190`, with the loop body at `154-163`, on all pieces in
the iteration order of the map. -/
def takeFromPieces (f : Block → Bool) (desc : Block) (pieces : List Nat) :
    Map Nat PieceState → Map Nat PieceState × List BlockAddress
  | [] => ([], [])
  | (k, p) :: m =>
    let r := takeFromPieces f desc pieces m
    if pieces.contains k then
      let t := takeFromBlocks f desc k 0 p.data
      ((k, { p with data := t.1 }) :: r.1, t.2 ++ r.2)
    else ((k, p) :: r.1, r.2)

/-- One iteration of `for filter in filters`, `pending_pieces.rs:153-163`. The `unwrap` of `copy_owner` at
line 158 is evaluated for every block found, so it panics iff there is one and no owner is set. -/
def takeFiltered (f : Block → Bool) (owner : Option Peer) (now : Nat) (pieces : List Nat)
    (m : Map Nat PieceState) : Res (Map Nat PieceState × List BlockAddress) :=
  match owner with
  | some o => .ok (takeFromPieces f (.pending o now) pieces m)
  | none =>
    if (takeFromPieces f .unbegun pieces m).2 = [] then .ok (m, []) else .panic

namespace PendingPieces

/-- `pending_pieces.rs:60-69` `PendingPieces::new`. -/
def new (pieceLength : Nat) : Res PendingPieces := do
  let n ← unsignedCeilDiv pieceLength BLOCK_SIZE
  .ok ⟨pieceLength, n, []⟩

/-- `pending_pieces.rs:75-89` `add_piece`. -/
def addPiece (s : PendingPieces) (idx : Nat) : Res PendingPieces :=
  if s.data.contains idx then .ok s
  else if s.data.length ≥ MAX_PIECES_DOWNLOADING then .err
  else do
    let p ← PieceState.new s.pieceLength
    .ok { s with data := s.data.insert idx p }

/-- `pending_pieces.rs:203-207`: the size a block must have. -/
def expectedSize (s : PendingPieces) (blockIdx : Nat) : Nat :=
  if blockIdx + 1 = s.blocksPerPiece then s.pieceLength % BLOCK_SIZE else BLOCK_SIZE

/-- `pending_pieces.rs:192-222` `check_block_bounds`. -/
def checkBlockBounds (s : PendingPieces) (blockIdx : Nat) (data : Bytes) : Res Unit :=
  if blockIdx ≥ s.blocksPerPiece then .err
  else
    match compare (s.expectedSize blockIdx) data.length with
    | .gt => .err
    | .lt => .err
    | .eq => .ok ()

/-- `pending_pieces.rs:109-113`: store the block, count it as downloaded and no longer pending. -/
def storeBlock (p : Profile) (piece : PieceState) (blockIdx : Nat) (data : Bytes) : Res PieceState :=
  if blockIdx < piece.data.length then do
    let pending ← usizeSub p piece.pending 1
    .ok { pending := pending, downloaded := piece.downloaded + 1,
          data := piece.data.set blockIdx (.downloaded data) }
  else .panic

/-- `pending_pieces.rs:91-124` `add_block_data`. -/
def addBlockData (p : Profile) (s : PendingPieces) (pieceIdx blockIdx : Nat) (blockData : Bytes) :
    Res (PendingPieces × AddBlockRes) :=
  match s.checkBlockBounds blockIdx blockData with
  | .ok () =>
    match s.data.get? pieceIdx with
    | none => .ok (s, .failed)
    | some piece => do
      let piece ← storeBlock p piece blockIdx blockData
      if s.blocksPerPiece = piece.downloaded then do
        let blocks ← blocksIntoVecs piece.data
        .ok ({ s with data := s.data.erase pieceIdx }, .addedLast pieceIdx blocks)
      else .ok ({ s with data := s.data.modify pieceIdx (fun _ => piece) }, .added)
  | _ => .ok (s, .failed)

/-- `pending_pieces.rs:128-138` `cancel_pending` (a public function that the program never calls). -/
def cancelPending (s : PendingPieces) (from_ : Peer) : PendingPieces :=
  { s with data := s.data.map fun e =>
      (e.1, { e.2 with data := e.2.data.map fun b => if b.isExpectedFrom from_ then .unbegun else b }) }

/-- `pending_pieces.rs:140-169` `take_not_good_blocks` called on a clone with the given `copy_owner`, at clock
reading `now` (the code reads the clock once per examined block; one reading is used for the call,
`takeTimed` in `Model/PendingTimed.lean` has them all). The
shuffle of `pieces` has no effect, because the list is only used for membership. `cap` is the capacity of
`block_buf` after the first filter's pushes, which Rust's allocator chooses; the second filter is skipped
exactly when the buffer is full. -/
def takeNotGoodBlocks (s : PendingPieces) (owner : Option Peer) (now : Nat) (pieces : List Nat) (cap : Nat)
    (blockBuf : List BlockAddress) : Res (PendingPieces × List BlockAddress) := do
  let (m1, a1) ← takeFiltered Block.isUnbegun owner now pieces s.data
  let buf1 := blockBuf ++ a1
  if cap = buf1.length then .ok ({ s with data := m1 }, buf1)
  else do
    let (m2, a2) ← takeFiltered (Block.isExpiredPending now) owner now pieces m1
    .ok ({ s with data := m2 }, buf1 ++ a2)

/-- A call of a public operation on (a clone of) the structure with what it returned. `reorder` is no call: a
hash map may present its entries in another order. -/
inductive Event where
  | addPiece (idx : Nat) (accepted : Bool)
  | addBlock (pieceIdx blockIdx : Nat) (data : Bytes) (res : AddBlockRes)
  | cancel (from_ : Peer)
  | take (owner : Option Peer) (now : Nat) (pieces : List Nat) (got : List BlockAddress)
  | reorder
  deriving DecidableEq, Repr

/-- One call that did not panic. -/
inductive Step (p : Profile) : PendingPieces → Event → PendingPieces → Prop
  | added {s s' idx} : s.addPiece idx = .ok s' → Step p s (.addPiece idx true) s'
  | refused {s idx} : s.addPiece idx = .err → Step p s (.addPiece idx false) s
  | block {s s' pi bi d r} : s.addBlockData p pi bi d = .ok (s', r) → Step p s (.addBlock pi bi d r) s'
  | cancel {s f} : Step p s (.cancel f) (s.cancelPending f)
  | take {s s' o now ps cap got} : s.takeNotGoodBlocks o now ps cap [] = .ok (s', got) →
      Step p s (.take o now ps got) s'
  | reorder {s m} : s.data.Perm m → Step p s .reorder { s with data := m }

/-- A history of calls by any of the tasks sharing the structure, none of which panicked. -/
inductive Run (p : Profile) : PendingPieces → List Event → PendingPieces → Prop
  | nil {s} : Run p s [] s
  | cons {s s1 s2 e es} : Step p s e s1 → Run p s1 es s2 → Run p s (e :: es) s2

end PendingPieces

end Nargun
