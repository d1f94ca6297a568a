import Verif.Model.Fs

/-! # Specification of the torrent's storage

A torrent is one sequence of bytes: the files one after the other, cut into pieces of equal size. -/

namespace Nargun.Spec

open Nargun

/-- Where a file starts in the torrent. -/
def fileStart (files : List TorrentFile) (i : Nat) : Nat := ((files.take i).map (·.length)).sum

/-- Number of bytes of the torrent. -/
def totalLength (files : List TorrentFile) : Nat := (files.map (·.length)).sum

/-- The bytes of file `i` are a part of the contents of the torrent. -/
def fileBytes (files : List TorrentFile) (content : Bytes) (i : Nat) (h : i < files.length) : Bytes :=
  (content.drop (fileStart files i)).take (files[i]).length

/-- The ranges of the items, in order, follow each other without gaps, from `a` to `b`. -/
def Adjacent : Nat → List FileWithBounds → Nat → Prop
  | a, [], b => a = b
  | a, seg :: segs, b => seg.start = a ∧ seg.start ≤ seg.end ∧ Adjacent seg.end segs b

/-- A piece as a list of blocks: all blocks but the last are full, none is longer. -/
def InBlocks (data : List Bytes) : Prop :=
  (∀ i (h : i + 1 < data.length), (data[i]'(by omega)).length = 16384) ∧ ∀ b ∈ data, b.length ≤ 16384

/-- `n` pieces of `pl` bytes are as many as `total` bytes need. -/
def EnoughPieces (n pl total : Nat) : Prop := 0 < pl ∧ 0 < n ∧ (n - 1) * pl < total ∧ total ≤ n * pl

/-- Size of a piece: the last one may be smaller. -/
def pieceSize (pl total idx : Nat) : Nat := min pl (total - idx * pl)

/-- Data for a piece: at least its size (a last piece may be padded), at most the size of a full piece, in blocks. -/
def ValidPiece (n pl total : Nat) (idx : Nat) (data : List Bytes) : Prop :=
  idx < n ∧ InBlocks data ∧ pieceSize pl total idx ≤ data.flatten.length ∧ data.flatten.length ≤ pl

/-- A call of one of the two storage operations. -/
inductive FsOp where
  | write (idx : Nat) (data : List Bytes)
  | read (index begin_ length : Nat) (buf : Bytes)

/-- A history of calls: all writes are of valid pieces and successful; reads may have any outcome. -/
inductive FsHistory (write : Nat → List Bytes → DiskM Unit) (read : Nat → Nat → Nat → Bytes → DiskM Bytes)
    (valid : Nat → List Bytes → Prop) : Disk → List FsOp → Disk → Prop
  | nil (d : Disk) : FsHistory write read valid d [] d
  | write {d0 d d' ops idx data} : FsHistory write read valid d0 ops d → valid idx data →
      write idx data d = (d', .ok ()) → FsHistory write read valid d0 (ops ++ [.write idx data]) d'
  | read {d0 d d' ops i b l buf r} : FsHistory write read valid d0 ops d →
      read i b l buf d = (d', r) → FsHistory write read valid d0 (ops ++ [.read i b l buf]) d'

/-- The bytes last written for a piece. -/
def lastWritten (ops : List FsOp) (idx : Nat) : Option Bytes :=
  ops.foldl (fun acc op => match op with
    | .write i data => if i = idx then some data.flatten else acc
    | .read .. => acc) none

/-- Byte `x` of the torrent as last written. -/
def torrentByte (pl : Nat) (ops : List FsOp) (x : Nat) : Option Byte :=
  (lastWritten ops (x / pl)).bind (·[x % pl]?)

/-- What a read of `length` bytes at position `pos` of the torrent should leave in the buffer: the bytes last
written, and the rest of the buffer as it was. -/
def ReadsBack (pl : Nat) (ops : List FsOp) (pos length : Nat) (buf buf' : Bytes) : Prop :=
  buf'.length = buf.length ∧
  ∀ i, i < buf.length → buf'[i]? = if i < length then torrentByte pl ops (pos + i) else buf[i]?

/-- Every write of the history carries the torrent's contents. -/
def AllFrom (pl : Nat) (content : Bytes) (ops : List FsOp) : Prop :=
  ∀ idx data, FsOp.write idx data ∈ ops →
    data.flatten.take (pieceSize pl content.length idx) = (content.drop (idx * pl)).take pl

/-- Every piece has been written. -/
def AllWritten (n : Nat) (ops : List FsOp) : Prop := ∀ idx, idx < n → ∃ data, FsOp.write idx data ∈ ops

/-- The contents of a file; a missing file counts as empty. -/
def fileOf (d : Disk) (p : Bytes) : Bytes := (d.get? p).getD []

end Nargun.Spec
