import Verif.Model.Map
import Verif.Model.Metainfo
import Verif.Model.PendingPieces

/-! # Model of `src/fs/single_file_rw.rs`, `src/fs/multi_file_iter.rs` and `src/fs/multi_file_rw.rs`

The operating system's files are byte strings by path. Simplifications: two different path strings never denote the
same file; a file that may be opened (`openable`) can also be read and written, and a write is complete and visible
when `write_all` returns (`tokio` performs it in the background, and every later operation on the same handle waits
for it); sizes and offsets are exact natural numbers, i.e. below 2^64. The handles that `FileCache` keeps open, writes in the
background and writes that fail are not in this model: `Verif.Model.FileCache`, `Verif.Model.OpenFiles`. -/

namespace Nargun

open Spec (ascii)

/-- The files on disk, by path. -/
abbrev Disk := Map Bytes Bytes

/-- A computation that uses the disk; its effects remain when it fails. -/
def DiskM (α : Type) := Disk → Disk × Res α

namespace DiskM

/-- Sequencing: `?` on errors, unwinding on panics. -/
def bind {α β} (x : DiskM α) (f : α → DiskM β) : DiskM β := fun d =>
  match x d with
  | (d', .ok a) => f a d'
  | (d', .err) => (d', .err)
  | (d', .panic) => (d', .panic)

instance : Monad DiskM where
  pure a := fun d => (d, .ok a)
  bind := bind

/-- A result computed without the disk. -/
def lift {α} (r : Res α) : DiskM α := fun d => (d, r)

end DiskM

/-- Writing at a position of a file; the part between the old end and the position becomes zero (POSIX). Writing
nothing changes nothing. -/
def writeAt (file : Bytes) (pos : Nat) (bs : Bytes) : Bytes :=
  if bs = [] then file
  else (file ++ List.replicate (pos - file.length) 0#8).take pos ++ bs ++ file.drop (pos + bs.length)

/-- `file_cache.rs:47-56`: opening with `create(true)` and without truncation. -/
def openFile (openable : Bytes → Bool) (path : Bytes) : DiskM Unit := fun d =>
  if openable path then
    match d.get? path with
    | some _ => (d, .ok ())
    | none => (d.insert path [], .ok ())
  else (d, .err)

/-- `write_all` at a position. -/
def writeAll (path : Bytes) (pos : Nat) (bs : Bytes) : DiskM Unit := fun d =>
  (d.modify path (fun f => writeAt f pos bs), .ok ())

/-- `read_exact` at a position: an early end of file is an error. -/
def readExact (path : Bytes) (pos n : Nat) : DiskM Bytes := fun d =>
  match d.get? path with
  | some f => if n = 0 ∨ pos + n ≤ f.length then (d, .ok ((f.drop pos).take n)) else (d, .err)
  | none => (d, .err)

/-- `for block in … { file.write_all(block).await?; }` from a position. -/
def writeBlocks (path : Bytes) : Nat → List Bytes → DiskM Unit
  | _, [] => pure ()
  | pos, b :: bs => do
    writeAll path pos b
    writeBlocks path (pos + b.length) bs

/-- Writing to `buf[a..b]` (the target range is replaced; the caller has checked the bounds). -/
def splice (buf : Bytes) (a : Nat) (bs : Bytes) : Bytes := buf.take a ++ bs ++ buf.drop (a + bs.length)

/-! ## One file -/

namespace SingleFile

/-- `single_file_rw.rs:17-25` `SingleFileRw::new`: the path of the file. -/
def path (baseDir : Bytes) (info : Info) : Bytes := baseDir ++ ascii "/" ++ info.name

/-- `single_file_rw.rs:30-50` `read_block`: the buffer afterwards. -/
def readBlock (openable : Bytes → Bool) (baseDir : Bytes) (info : Info) (index begin_ length : Nat) (buf : Bytes) :
    DiskM Bytes := do
  let pieceStart := index * info.pieceLength
  let blockStart := pieceStart + begin_
  openFile openable (path baseDir info)
  let _ ← DiskM.lift (sliceR buf 0 length)
  let bs ← readExact (path baseDir info) blockStart length
  pure (splice buf 0 bs)

/-- `single_file_rw.rs:69-80` `write_middle_piece_single_file`. -/
def writeMiddle (openable : Bytes → Bool) (baseDir : Bytes) (info : Info) (idx : Nat) (data : List Bytes) :
    DiskM Unit := do
  let start := idx * info.pieceLength
  openFile openable (path baseDir info)
  writeBlocks (path baseDir info) start data

/-- `single_file_rw.rs:91-106`: the loop over the remaining bytes. -/
def lastLoop (path : Bytes) : Nat → Nat → List Bytes → DiskM Unit
  | _, 0, _ => pure ()
  | _, _ + 1, [] => DiskM.lift .err
  | pos, r + 1, b :: bs => do
    let n := min (r + 1) BLOCK_SIZE
    let part ← DiskM.lift (sliceR b 0 n)
    writeAll path pos part
    lastLoop path (pos + n) (r + 1 - n) bs

/-- `single_file_rw.rs:82-109` `write_last_piece_single_file`. -/
def writeLast (openable : Bytes → Bool) (baseDir : Bytes) (info : Info) (idx : Nat) (data : List Bytes) :
    DiskM Unit := do
  let start := idx * info.pieceLength
  openFile openable (path baseDir info)
  let length ← DiskM.lift info.length
  let remaining ← DiskM.lift (if info.pieceLength = 0 then .panic else .ok (length % info.pieceLength) : Res Nat)
  lastLoop (path baseDir info) start remaining data

/-- `single_file_rw.rs:52-66` `write_piece`. -/
def writePiece (openable : Bytes → Bool) (baseDir : Bytes) (info : Info) (idx : Nat) (data : List Bytes) :
    DiskM Unit := do
  let last ← DiskM.lift (usub info.pieces.length 1)
  if idx < last then writeMiddle openable baseDir info idx data
  else if idx = last then writeLast openable baseDir info idx data
  else DiskM.lift .err

end SingleFile

/-! ## Several files -/

/-- `multi_file_iter.rs:3-10` `struct FileWithBounds` (the last field, which nothing reads, is kept). -/
structure FileWithBounds where
  file : TorrentFile
  start : Nat
  «end» : Nat
  before : Nat
  after : Nat
  deriving DecidableEq

/-- `multi_file_iter.rs:29-35`: whether a file that starts at `fileStart` is touched by the range. -/
def FilesInBounds.touches (startByte endByte fileStart : Nat) (f : TorrentFile) : Bool :=
  decide (fileStart < endByte) &&
    (decide (fileStart + f.length > startByte) || (f.length == 0 && decide (fileStart + f.length ≥ startByte)))

/-- `multi_file_iter.rs:20-49` `FilesInBounds::new`: the files left to iterate over and `cur_idx`. -/
def FilesInBounds.new (startByte endByte : Nat) : Nat → List TorrentFile → List TorrentFile × Nat
  | fileStart, [] => ([], fileStart)
  | fileStart, f :: fs =>
    if FilesInBounds.touches startByte endByte fileStart f then (f :: fs, fileStart)
    else FilesInBounds.new startByte endByte (fileStart + f.length) fs

/-- `multi_file_iter.rs:53-78` `FilesInBounds::next`, called until it returns `None`. -/
def FilesInBounds.collect (startByte endByte : Nat) : Nat → List TorrentFile → Res (List FileWithBounds)
  | _, [] => .ok []
  | curIdx, f :: fs =>
    let fileStart := curIdx
    let fileEnd := fileStart + f.length
    if fileStart ≥ endByte ∨ (fileEnd ≤ startByte ∧ f.length > 0) ∨ (fileEnd < startByte ∧ f.length = 0) then .ok []
    else do
      let s := max startByte fileStart
      let e := min endByte fileEnd
      let start ← usub s startByte
      let end_ ← usub e startByte
      let before ← usub s fileStart
      let after ← usub fileEnd e
      let rest ← FilesInBounds.collect startByte endByte fileEnd fs
      .ok (⟨f, start, end_, before, after⟩ :: rest)

/-- All items of `FilesInBounds::new(files, start_byte, end_byte)`. -/
def filesInBounds (files : List TorrentFile) (startByte endByte : Nat) : Res (List FileWithBounds) :=
  let (rest, cur) := FilesInBounds.new startByte endByte 0 files
  FilesInBounds.collect startByte endByte cur rest

namespace MultiFile

/-- `path.join("/")` (`multi_file_rw.rs:54`, `:77`). -/
def joinPath : List Bytes → Bytes
  | [] => []
  | [c] => c
  | c :: cs => c ++ ascii "/" ++ joinPath cs

/-- `multi_file_rw.rs:29` with `:54`, `:77`: the path of one of the files. -/
def path (baseDir : Bytes) (name : Bytes) (f : TorrentFile) : Bytes :=
  baseDir ++ ascii "/" ++ name ++ ascii "/" ++ joinPath f.path

/-- `multi_file_rw.rs:50-63`: the loop over the files of a block. -/
def readFiles (openable : Bytes → Bool) (baseDir name : Bytes) : List FileWithBounds → Bytes → DiskM Bytes
  | [], buf => pure buf
  | seg :: segs, buf => do
    let target ← DiskM.lift (sliceR buf seg.start seg.end)
    openFile openable (path baseDir name seg.file)
    let bs ← readExact (path baseDir name seg.file) seg.before target.length
    readFiles openable baseDir name segs (splice buf seg.start bs)

/-- `multi_file_rw.rs:39-66` `read_block`: the buffer afterwards. -/
def readBlock (openable : Bytes → Bool) (baseDir : Bytes) (info : Info) (files : List TorrentFile)
    (index begin_ length : Nat) (buf : Bytes) : DiskM Bytes := do
  let pieceStart := index * info.pieceLength
  let blockStart := pieceStart + begin_
  let blockEnd := blockStart + length
  let segs ← DiskM.lift (filesInBounds files blockStart blockEnd)
  readFiles openable baseDir info.name segs buf

/-- `multi_file_rw.rs:94-134` `write_file_chunk_from_multi_file_piece`. -/
def writeChunk (path : Bytes) (data : List Bytes) (startWithinFile startWithinPiece endWithinPiece : Nat) :
    DiskM Unit := do
  let length ← DiskM.lift (usub endWithinPiece startWithinPiece)
  let startWithinBlock := startWithinPiece % BLOCK_SIZE
  let endWithinBlock := if endWithinPiece % BLOCK_SIZE = 0 then BLOCK_SIZE else endWithinPiece % BLOCK_SIZE
  let startBlock := startWithinPiece / BLOCK_SIZE
  let endMinus ← DiskM.lift (usub endWithinPiece 1)
  let endBlock := endMinus / BLOCK_SIZE + 1
  let slice ← DiskM.lift (sliceR data startBlock endBlock)
  match slice with
  | [] => DiskM.lift .err
  | [b] => do
    let part ← DiskM.lift (sliceR b startWithinBlock (startWithinBlock + length))
    writeAll path startWithinFile part
  | first :: b :: bs => do
    let part ← DiskM.lift (sliceFrom first startWithinBlock)
    writeAll path startWithinFile part
    let full := (b :: bs).dropLast
    writeBlocks path (startWithinFile + part.length) full
    let last ← DiskM.lift (sliceR ((b :: bs).getLast (by simp)) 0 endWithinBlock)
    writeAll path (startWithinFile + part.length + full.flatten.length) last

/-- `multi_file_rw.rs:76-88`: the loop over the files of a piece. -/
def writeFiles (openable : Bytes → Bool) (baseDir name : Bytes) (data : List Bytes) :
    List FileWithBounds → DiskM Unit
  | [] => pure ()
  | seg :: segs => do
    openFile openable (path baseDir name seg.file)
    writeChunk (path baseDir name seg.file) data seg.before seg.start seg.end
    writeFiles openable baseDir name data segs

/-- `multi_file_rw.rs:68-91` `write_piece`. -/
def writePiece (openable : Bytes → Bool) (baseDir : Bytes) (info : Info) (files : List TorrentFile) (idx : Nat)
    (data : List Bytes) : DiskM Unit := do
  let pieceStart := idx * info.pieceLength
  let pieceEnd := (idx + 1) * info.pieceLength
  let segs ← DiskM.lift (filesInBounds files pieceStart pieceEnd)
  writeFiles openable baseDir info.name data segs

end MultiFile

end Nargun
