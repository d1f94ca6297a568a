import Verif.Model.DirBuilder

/-! # Model of `src/fs/mod.rs`: a torrent in the file system

`Verif.Model.Fs` takes files as byte strings by path, with a parameter for what can be opened, and
`Verif.Model.DirBuilder` makes the directories. Here both work on one tree of directories and files: `FS::new` makes the
directories, and a file is opened by following its path in the tree, so that two paths may lead to the same file, and a
file cannot be opened where there is a directory.

The functions of `single_file_rw.rs` and `multi_file_rw.rs` are given once more, for any file system; that they do what those
of `Verif.Model.Fs` do, on file systems that correspond to each other, is proved (`Alike` in `Verif.Lemmas.Storage`).
Simplifications as there, and: the path is followed
at every access and not only when the file is opened (nothing but this program changes the tree). -/

namespace Nargun

open Spec (ascii)

/-- A computation that uses a file system; its effects remain when it fails. -/
def FsM (σ α : Type) := σ → σ × Res α

namespace FsM

/-- Sequencing: `?` on errors, unwinding on panics. -/
def bind {σ α β} (x : FsM σ α) (f : α → FsM σ β) : FsM σ β := fun d =>
  match x d with
  | (d', .ok a) => f a d'
  | (d', .err) => (d', .err)
  | (d', .panic) => (d', .panic)

instance {σ : Type} : Monad (FsM σ) where
  pure a := fun d => (d, .ok a)
  bind := bind

/-- A result computed without the file system. -/
def lift {σ α} (r : Res α) : FsM σ α := fun d => (d, r)

end FsM

/-- What the storage uses of a file system: `FileCache` (`file_cache.rs:26-58`), seeking and writing, seeking and reading. -/
structure FileSystem (σ : Type) where
  openFile : Bytes → FsM σ Unit
  writeAll : Bytes → Nat → Bytes → FsM σ Unit
  readExact : Bytes → Nat → Nat → FsM σ Bytes

namespace FileSystem

variable {σ : Type} (fs : FileSystem σ)

/-- `for block in … { file.write_all(block).await?; }` from a position. -/
def writeBlocks (path : Bytes) : Nat → List Bytes → FsM σ Unit
  | _, [] => pure ()
  | pos, b :: bs => do
    fs.writeAll path pos b
    writeBlocks path (pos + b.length) bs

/-- `single_file_rw.rs:30-50` `read_block`: the buffer afterwards. -/
def singleRead (baseDir : Bytes) (info : Info) (index begin_ length : Nat) (buf : Bytes) : FsM σ Bytes := do
  let pieceStart := index * info.pieceLength
  let blockStart := pieceStart + begin_
  fs.openFile (SingleFile.path baseDir info)
  let _ ← FsM.lift (sliceR buf 0 length)
  let bs ← fs.readExact (SingleFile.path baseDir info) blockStart length
  pure (splice buf 0 bs)

/-- `single_file_rw.rs:69-80` `write_middle_piece_single_file`. -/
def singleMiddle (baseDir : Bytes) (info : Info) (idx : Nat) (data : List Bytes) : FsM σ Unit := do
  let start := idx * info.pieceLength
  fs.openFile (SingleFile.path baseDir info)
  fs.writeBlocks (SingleFile.path baseDir info) start data

/-- `single_file_rw.rs:91-106`: the loop over the remaining bytes. -/
def singleLoop (path : Bytes) : Nat → Nat → List Bytes → FsM σ Unit
  | _, 0, _ => pure ()
  | _, _ + 1, [] => FsM.lift .err
  | pos, r + 1, b :: bs => do
    let n := min (r + 1) BLOCK_SIZE
    let part ← FsM.lift (sliceR b 0 n)
    fs.writeAll path pos part
    singleLoop path (pos + n) (r + 1 - n) bs

/-- `single_file_rw.rs:82-109` `write_last_piece_single_file`. -/
def singleLast (baseDir : Bytes) (info : Info) (idx : Nat) (data : List Bytes) : FsM σ Unit := do
  let start := idx * info.pieceLength
  fs.openFile (SingleFile.path baseDir info)
  let length ← FsM.lift info.length
  let remaining ← FsM.lift (if info.pieceLength = 0 then .panic else .ok (length % info.pieceLength) : Res Nat)
  fs.singleLoop (SingleFile.path baseDir info) start remaining data

/-- `single_file_rw.rs:52-66` `write_piece`. -/
def singleWrite (baseDir : Bytes) (info : Info) (idx : Nat) (data : List Bytes) : FsM σ Unit := do
  let last ← FsM.lift (usub info.pieces.length 1)
  if idx < last then fs.singleMiddle baseDir info idx data
  else if idx = last then fs.singleLast baseDir info idx data
  else FsM.lift .err

/-- `multi_file_rw.rs:50-63`: the loop over the files of a block. -/
def readFiles (baseDir name : Bytes) : List FileWithBounds → Bytes → FsM σ Bytes
  | [], buf => pure buf
  | seg :: segs, buf => do
    let target ← FsM.lift (sliceR buf seg.start seg.end)
    fs.openFile (MultiFile.path baseDir name seg.file)
    let bs ← fs.readExact (MultiFile.path baseDir name seg.file) seg.before target.length
    readFiles baseDir name segs (splice buf seg.start bs)

/-- `multi_file_rw.rs:39-66` `read_block`: the buffer afterwards. -/
def multiRead (baseDir : Bytes) (info : Info) (files : List TorrentFile) (index begin_ length : Nat) (buf : Bytes) :
    FsM σ Bytes := do
  let pieceStart := index * info.pieceLength
  let blockStart := pieceStart + begin_
  let blockEnd := blockStart + length
  let segs ← FsM.lift (filesInBounds files blockStart blockEnd)
  fs.readFiles baseDir info.name segs buf

/-- `multi_file_rw.rs:94-134` `write_file_chunk_from_multi_file_piece`. -/
def writeChunk (path : Bytes) (data : List Bytes) (startWithinFile startWithinPiece endWithinPiece : Nat) :
    FsM σ Unit := do
  let length ← FsM.lift (usub endWithinPiece startWithinPiece)
  let startWithinBlock := startWithinPiece % BLOCK_SIZE
  let endWithinBlock := if endWithinPiece % BLOCK_SIZE = 0 then BLOCK_SIZE else endWithinPiece % BLOCK_SIZE
  let startBlock := startWithinPiece / BLOCK_SIZE
  let endMinus ← FsM.lift (usub endWithinPiece 1)
  let endBlock := endMinus / BLOCK_SIZE + 1
  let slice ← FsM.lift (sliceR data startBlock endBlock)
  match slice with
  | [] => FsM.lift .err
  | [b] => do
    let part ← FsM.lift (sliceR b startWithinBlock (startWithinBlock + length))
    fs.writeAll path startWithinFile part
  | first :: b :: bs => do
    let part ← FsM.lift (sliceFrom first startWithinBlock)
    fs.writeAll path startWithinFile part
    let full := (b :: bs).dropLast
    fs.writeBlocks path (startWithinFile + part.length) full
    let last ← FsM.lift (sliceR ((b :: bs).getLast (by simp)) 0 endWithinBlock)
    fs.writeAll path (startWithinFile + part.length + full.flatten.length) last

/-- `multi_file_rw.rs:76-88`: the loop over the files of a piece. -/
def writeFiles (baseDir name : Bytes) (data : List Bytes) : List FileWithBounds → FsM σ Unit
  | [] => pure ()
  | seg :: segs => do
    fs.openFile (MultiFile.path baseDir name seg.file)
    fs.writeChunk (MultiFile.path baseDir name seg.file) data seg.before seg.start seg.end
    writeFiles baseDir name data segs

/-- `multi_file_rw.rs:68-91` `write_piece`. -/
def multiWrite (baseDir : Bytes) (info : Info) (files : List TorrentFile) (idx : Nat) (data : List Bytes) :
    FsM σ Unit := do
  let pieceStart := idx * info.pieceLength
  let pieceEnd := (idx + 1) * info.pieceLength
  let segs ← FsM.lift (filesInBounds files pieceStart pieceEnd)
  fs.writeFiles baseDir info.name data segs

end FileSystem

/-- `file_cache.rs:47-56`: `open(2)` for reading and writing with `O_CREAT`. A directory, a path that ends in a slash, a path
through something that is no directory, and a location where nothing may be opened (`allowed`) are errors. -/
def Tree.openFile (allowed : Loc → Bool) (path : Bytes) : FsM Tree Unit := fun t =>
  if path.getLast? = some 47#8 then (t, .err)
  else match t.locate path with
    | none => (t, .err)
    | some l =>
      if l.isEmpty ∨ allowed l = false then (t, .err)
      else match t.get? l with
        | some (.file _) => (t, .ok ())
        | some .dir => (t, .err)
        | none => (t.insert l (.file []), .ok ())

/-- The contents of the file that a path names. -/
def Tree.contentAt (t : Tree) (path : Bytes) : Option (Loc × Bytes) :=
  match t.locate path with
  | none => none
  | some l => match t.get? l with
    | some (.file c) => some (l, c)
    | _ => none

/-- `write_all` at a position of an open file (a file that is not in the tree would be written without a trace; it does
not happen, the file has been opened before). -/
def Tree.writeAll (path : Bytes) (pos : Nat) (bs : Bytes) : FsM Tree Unit := fun t =>
  match t.contentAt path with
  | some (l, c) => (t.insert l (.file (writeAt c pos bs)), .ok ())
  | none => (t, .ok ())

/-- `read_exact` at a position of an open file: an early end of file is an error. -/
def Tree.readExact (path : Bytes) (pos n : Nat) : FsM Tree Bytes := fun t =>
  match t.contentAt path with
  | some (_, c) => if n = 0 ∨ pos + n ≤ c.length then (t, .ok ((c.drop pos).take n)) else (t, .err)
  | none => (t, .err)

/-- The file system of the operating system. -/
def treeFs (allowed : Loc → Bool) : FileSystem Tree := ⟨Tree.openFile allowed, Tree.writeAll, Tree.readExact⟩

/-- `fs/mod.rs:22-34` `FS::new`; `order` is the order in which the set of directories is iterated over. -/
def FS.new (allowed : Loc → Bool) (baseDir : Bytes) (info : Info) (order : List Bytes) : FsM Tree Unit :=
  match info.mode with
  | .single _ => pure ()
  | .multi _ => MultiFile.new allowed baseDir info.name order

/-- `fs/mod.rs:38-46` `read_block`: the buffer afterwards. -/
def FS.readBlock (allowed : Loc → Bool) (baseDir : Bytes) (info : Info) (index begin_ length : Nat) (buf : Bytes) :
    FsM Tree Bytes :=
  match info.mode with
  | .single _ => (treeFs allowed).singleRead baseDir info index begin_ length buf
  | .multi files => (treeFs allowed).multiRead baseDir info files index begin_ length buf

/-- `fs/mod.rs:47-49` `write_piece`. -/
def FS.writePiece (allowed : Loc → Bool) (baseDir : Bytes) (info : Info) (idx : Nat) (data : List Bytes) : FsM Tree Unit :=
  match info.mode with
  | .single _ => (treeFs allowed).singleWrite baseDir info idx data
  | .multi files => (treeFs allowed).multiWrite baseDir info files idx data

end Nargun
