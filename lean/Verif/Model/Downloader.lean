import Verif.Model.PendingPieces
import Verif.Model.Id

/-! # Model of `src/peers/connection/downloader.rs`

One downloader task and the `PendingPieces` structure it shares with all other tasks. The task is cut into the
sections between which another task can get hold of the shared structure: waiting for input (`select!`),
putting a piece back after a hash mismatch, obtaining blocks, and sending the queued requests one by one.
SHA-1 is a parameter. Sending on a channel succeeds or is logged, and has no effect on the task either way. -/

namespace Nargun

namespace Dl

/-- Where the task is in its loop body (`downloader.rs:89-127`). -/
inductive Pc where
  | select
  | readd (idx : Nat)
  | take
  | send
  deriving DecidableEq, Repr

/-- The local variables of `manage_piece_downloader`, `downloader.rs:84-87`. -/
structure State where
  pc : Pc
  currentPieces : Map Nat ID
  currentBlocks : List BlockAddress
  counter : Nat
  deriving DecidableEq

/-- `downloader.rs:84-87`: the variables on entry. -/
def init : State := ⟨.select, [], [], 0⟩

/-- What `foo` did with a received block. -/
inductive BlockOut where
  /-- one of the `bail!`s before the block is looked at (lines 138-151) -/
  | ignored
  /-- `AddBlockRes::Failed`: the address that was taken out is queued again (lines 156-159) -/
  | requeued (a : BlockAddress)
  /-- `AddBlockRes::AddedLast` with a wrong hash (lines 161-164) -/
  | mismatch (idx : Nat)
  /-- `AddBlockRes::AddedLast` with the right hash: a `FinishedPiece` message is sent (lines 166-171) -/
  | finished (idx : Nat) (blocks : List Bytes)
  deriving DecidableEq, Repr

/-- `metainfo.rs:83-91` `Torrent::piece_hash`: the hash of the concatenated blocks. -/
def pieceHash (H : Bytes → ID) (blocks : List Bytes) : ID := H blocks.flatten

/-- `downloader.rs:130-176` `foo`, up to the call of `add_piece` at line 162. `AddBlockRes::Added` is a
`todo!()` (line 155). -/
def foo (p : Profile) (H : Bytes → ID) (d : State) (pend : PendingPieces) (block : Piece) :
    Res (State × PendingPieces × BlockOut) :=
  if block.begin_.toNat % BLOCK_SIZE > 0 then .ok ({ d with pc := .take }, pend, .ignored)
  else
    match d.currentPieces.get? block.index.toNat with
    | none => .ok ({ d with pc := .take }, pend, .ignored)
    | some hash =>
      let blockIdx := block.begin_.toNat / BLOCK_SIZE
      match d.currentBlocks.findIdx? (fun a => a.blockIdx = blockIdx) with
      | none => .ok ({ d with pc := .take }, pend, .ignored)
      | some i => do
        let removed ← index d.currentBlocks i
        let rest := d.currentBlocks.eraseIdx i
        let (pend', r) ← pend.addBlockData p block.index.toNat blockIdx block.block
        match r with
        | .added => .panic
        | .failed =>
          let a : BlockAddress := { removed with status := .queued }
          .ok ({ d with pc := .take, currentBlocks := rest ++ [a] }, pend', .requeued a)
        | .addedLast idx blocks =>
          if pieceHash H blocks ≠ hash then
            .ok ({ d with pc := .readd block.index.toNat, currentBlocks := rest }, pend', .mismatch idx)
          else .ok ({ d with pc := .take, currentBlocks := rest }, pend', .finished idx blocks)

/-- `downloader.rs:98`: `StartPiece`. -/
def start (d : State) (hash : ID) (idx : Nat) : State :=
  { d with pc := .take, currentPieces := d.currentPieces.insert idx hash }

/-- `downloader.rs:99`: `StopPiece`. -/
def stop (d : State) (idx : Nat) : State :=
  { d with pc := .take, currentPieces := d.currentPieces.erase idx }

/-- `downloader.rs:162`: `pending_pieces.add_piece(piece_idx)`, result dropped. -/
def readd (d : State) (pend : PendingPieces) (idx : Nat) : Res (State × PendingPieces) :=
  match pend.addPiece idx with
  | .ok pend' => .ok ({ d with pc := .take }, pend')
  | .err => .ok ({ d with pc := .take }, pend)
  | .panic => .panic

/-- `downloader.rs:106-111`; `ACTIVE_BLOCKS_PER_PEER / 3 = 5`. The third result is the list of blocks obtained. -/
def take (d : State) (pend : PendingPieces) (owner : Option Peer) (now cap : Nat) :
    Res (State × PendingPieces × List BlockAddress) :=
  if d.counter % (16 / 3) = 0 then do
    let (pend', buf) ← pend.takeNotGoodBlocks owner now d.currentPieces.keys cap d.currentBlocks
    .ok ({ d with pc := .send, currentBlocks := buf }, pend', buf.drop d.currentBlocks.length)
  else .ok ({ d with pc := .send }, pend, [])

/-- `downloader.rs:113-124`, one iteration: the first block that is queued is requested and marked. -/
def sendNext : List BlockAddress → Option (BlockAddress × List BlockAddress)
  | [] => none
  | a :: as =>
    if a.status = .queued then some (a, { a with status := .requested } :: as)
    else (sendNext as).map fun r => (r.1, a :: r.2)

/-- What happens in one step, as seen from outside the task. -/
inductive Event where
  /-- another task uses the shared structure -/
  | env (e : PendingPieces.Event)
  | start (hash : ID) (idx : Nat)
  | stop (idx : Nat)
  | block (b : Piece) (out : BlockOut)
  | readd (idx : Nat)
  | take (got : List BlockAddress)
  | request (a : BlockAddress) (r : Request)
  | loop
  deriving DecidableEq

/-- One step of the task, or of another task on the shared structure, that does not panic. `owner` is the
`copy_owner` of the task's clone of the structure. -/
inductive Step (p : Profile) (H : Bytes → ID) (owner : Option Peer) :
    State × PendingPieces → Event → State × PendingPieces → Prop
  | env {d pend pend' e} : PendingPieces.Step p pend e pend' → Step p H owner (d, pend) (.env e) (d, pend')
  /-- line 98 -/
  | start {d pend h idx} : d.pc = .select → Step p H owner (d, pend) (.start h idx) (Dl.start d h idx, pend)
  /-- line 99 -/
  | stop {d pend idx} : d.pc = .select → Step p H owner (d, pend) (.stop idx) (Dl.stop d idx, pend)
  /-- lines 92-94 -/
  | block {d pend b d' pend' out} : d.pc = .select → foo p H d pend b = .ok (d', pend', out) →
      Step p H owner (d, pend) (.block b out) (d', pend')
  /-- line 162 -/
  | readd {d pend idx d' pend'} : d.pc = .readd idx → readd d pend idx = .ok (d', pend') →
      Step p H owner (d, pend) (.readd idx) (d', pend')
  /-- lines 106-111 -/
  | take {d pend now cap d' pend' got} : d.pc = .take → take d pend owner now cap = .ok (d', pend', got) →
      Step p H owner (d, pend) (.take got) (d', pend')
  /-- lines 113-124 -/
  | request {d pend a bs} : d.pc = .send → sendNext d.currentBlocks = some (a, bs) →
      Step p H owner (d, pend) (.request a (.ofBlockAddress a)) ({ d with currentBlocks := bs }, pend)
  /-- line 126 -/
  | loop {d pend} : d.pc = .send → sendNext d.currentBlocks = none →
      Step p H owner (d, pend) .loop ({ d with pc := .select, counter := d.counter + 1 }, pend)

/-- A history of the task and its environment. -/
inductive Run (p : Profile) (H : Bytes → ID) (owner : Option Peer) :
    State × PendingPieces → List Event → State × PendingPieces → Prop
  | nil {s} : Run p H owner s [] s
  | snoc {s s1 s2 es e} : Run p H owner s es s1 → Step p H owner s1 e s2 → Run p H owner s (es ++ [e]) s2

end Dl

end Nargun
