import Verif.Model.Downloader

/-! # Vocabulary for the properties of a downloader, over its observable history -/

namespace Nargun.Spec

open Nargun Dl

/-- The hash given with the last `StartPiece` for the piece, unless a `StopPiece` for it came later. -/
def assigned (idx : Nat) (es : List Dl.Event) : Option ID :=
  es.foldl (fun acc e => match e with
    | .start h i => if i = idx then some h else acc
    | .stop i => if i = idx then none else acc
    | _ => acc) none

/-- Is this the address of block `bi` of piece `pi`? -/
def isBlock (pi bi : Nat) (a : BlockAddress) : Bool := a.pieceIdx = pi && a.blockIdx = bi

/-- How often the block was requested from the peer. -/
def requested (pi bi : Nat) (es : List Dl.Event) : Nat :=
  (es.map fun e => match e with | .request a _ => if isBlock pi bi a then 1 else 0 | _ => 0).sum

/-- How often the downloader obtained the block (to get it from its peer). -/
def obtained (pi bi : Nat) (es : List Dl.Event) : Nat :=
  (es.map fun e => match e with | .take got => got.countP (isBlock pi bi) | _ => 0).sum

/-- How often the block was put back into the queue. -/
def requeued (pi bi : Nat) (es : List Dl.Event) : Nat :=
  (es.map fun e => match e with | .block _ (.requeued a) => if isBlock pi bi a then 1 else 0 | _ => 0).sum

/-- How often a message delivering exactly this block was refused. -/
def refused (pi bi : Nat) (es : List Dl.Event) : Nat :=
  (es.map fun e => match e with
    | .block b (.requeued _) => if b.index.toNat = pi ∧ b.begin_.toNat = bi * 16384 then 1 else 0
    | _ => 0).sum

end Nargun.Spec
