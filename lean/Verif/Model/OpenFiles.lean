import Verif.Model.Storage
import Verif.Model.FileCache

/-! # Open files: `src/fs/file_cache.rs` with `tokio::fs::File`

`Verif.Model.Fs` and `Verif.Model.Storage` take a write as complete when `write_all` returns. Here the handles that the cache
keeps are modelled as well, and how `tokio::fs::File` (tokio 1.25.0, `src/fs/file.rs` there) writes:

* `write_all` hands the bytes to a background thread and returns; the bytes reach the file later (`poll_write`,
  `State::Idle`);
* every later operation on the same handle waits for that first (`State::Busy`);
* if the write has failed, the next write on the same handle returns the error, and hands over nothing
  (`poll_write`: `res?` and `last_write_err`); seeking and reading do not report it (`poll_complete`, `poll_read`);
* closing a handle neither waits nor reports: the write goes on in the background.

What is up to the rest of the world is a parameter (`Device`): which files can be opened, the clock, which writes fail and
when background threads get to perform a write. Simplifications: as in `Verif.Model.Fs` different paths are different files
and reads do not fail for other reasons than a file that is too short; a `write_all` is one write (the buffer of
`tokio::fs::File` holds 2 MiB, a block at most 16 KiB); the cache is asked with `get_write` (`single_file_rw.rs:39` reads
with `get_read`, but a torrent with one file has one handle, and which of the two is called decides only which handle is
closed). -/

namespace Nargun

/-- What is not up to the program. -/
structure Device where
  /-- Which paths can be opened. -/
  openable : Bytes → Bool
  /-- What the clock reads during a call. -/
  clock : Nat → CacheClock
  /-- Which writes fail, by their number, and after how many bytes. -/
  fault : Nat → Option Nat
  /-- After how many further calls a write is performed, if nobody waits for it. -/
  delay : Nat → Nat

/-- A write that a background thread has to perform. -/
structure Handed where
  num : Nat
  path : Bytes
  pos : Nat
  bytes : Bytes
  due : Nat
  deriving DecidableEq

/-- `file_cache.rs:9-17` `FileCache`, `CacheEntry`, with the state of the handles in it, and the files. -/
structure OpenFiles where
  /-- What is in the files. -/
  disk : Disk
  /-- The files that are open. -/
  cache : FileCache
  /-- For open files, the last write whose outcome has not been returned by a later one (`State::Busy`,
  `last_write_err`). -/
  unreported : Map Bytes Nat
  /-- Writes that have not been performed. -/
  handed : List Handed
  /-- Number of calls so far. -/
  calls : Nat
  /-- Number of writes so far. -/
  writes : Nat
  deriving DecidableEq

/-- `file_cache.rs:20-24` `FileCache::new`: nothing is open. -/
def OpenFiles.new (d : Disk) : OpenFiles := ⟨d, [], [], [], 0, 0⟩

/-- The bytes of a write that reach the file: one that fails may have written a part. -/
def Device.kept (dev : Device) (w : Handed) : Bytes :=
  match dev.fault w.num with
  | none => w.bytes
  | some n => w.bytes.take n

/-- A background thread performs a write: `Buf::write_to` in `poll_write`. -/
def Device.perform (dev : Device) (d : Disk) (w : Handed) : Disk :=
  d.modify w.path fun c => writeAt c w.pos (dev.kept w)

namespace OpenFiles

/-- Time goes on: the writes that are due are performed. -/
def tick (dev : Device) (s : OpenFiles) : OpenFiles :=
  { s with
    calls := s.calls + 1
    disk := (s.handed.filter fun w => w.due ≤ s.calls + 1).foldl dev.perform s.disk
    handed := s.handed.filter fun w => ¬ w.due ≤ s.calls + 1 }

/-- An operation on a handle waits for the write that was handed over before: `State::Busy` in `poll_write`, `poll_read` and
`poll_complete`. -/
def await (dev : Device) (path : Bytes) (s : OpenFiles) : OpenFiles :=
  match s.unreported.get? path with
  | none => s
  | some n =>
    { s with
      disk := (s.handed.filter fun w => w.num = n).foldl dev.perform s.disk
      handed := s.handed.filter fun w => w.num ≠ n }

/-- `file_cache.rs:34-40` `get_write` (`:26-32` `get_read`), and the `seek` that always follows it
(`single_file_rw.rs:41`, `:73`, `:86`, `multi_file_rw.rs:57`, `:101`). A handle that the cache drops takes what it would have
reported with it. A file that is not there is created, empty. -/
def openFile (dev : Device) (path : Bytes) : FsM OpenFiles Unit := fun s =>
  let s := s.tick dev
  let r := s.cache.getWrite dev.openable (dev.clock s.calls) path
  let s' := { s with
    cache := r.1
    unreported := s.unreported.filter fun e => r.1.contains e.1 || !s.cache.contains e.1 }
  match r.2 with
  | .ok _ =>
    let s' := s'.await dev path
    ({ s' with disk := if s'.disk.contains path then s'.disk else s'.disk.insert path [] }, .ok ())
  | .err => (s', .err)
  | .panic => (s', .panic)

/-- `write_all` (`single_file_rw.rs:76`, `:103`, `multi_file_rw.rs:119-129`): `poll_write`. -/
def writeAll (dev : Device) (path : Bytes) (pos : Nat) (bs : Bytes) : FsM OpenFiles Unit := fun s =>
  if bs = [] then (s, .ok ())
  else
    let s := (s.tick dev).await dev path
    if (s.unreported.get? path).any fun n => (dev.fault n).isSome then
      ({ s with unreported := s.unreported.erase path }, .err)
    else
      ({ s with
         handed := s.handed ++ [⟨s.writes, path, pos, bs, s.calls + dev.delay s.writes⟩]
         unreported := s.unreported.insert path s.writes
         writes := s.writes + 1 }, .ok ())

/-- `read_exact` (`single_file_rw.rs:46`, `multi_file_rw.rs:62`): `poll_read`. -/
def readExact (dev : Device) (path : Bytes) (pos n : Nat) : FsM OpenFiles Bytes := fun s =>
  let s := (s.tick dev).await dev path
  match s.disk.get? path with
  | some c => if n = 0 ∨ pos + n ≤ c.length then (s, .ok ((c.drop pos).take n)) else (s, .err)
  | none => (s, .err)

/-- What is in the files when all writes have been performed. -/
def settled (dev : Device) (s : OpenFiles) : Disk := s.handed.foldl dev.perform s.disk

end OpenFiles

/-- The files as the storage uses them. -/
def Device.files (dev : Device) : FileSystem OpenFiles :=
  ⟨OpenFiles.openFile dev, OpenFiles.writeAll dev, OpenFiles.readExact dev⟩

/-- `fs/mod.rs:38-46` `read_block`: the buffer afterwards. -/
def Device.readBlock (dev : Device) (baseDir : Bytes) (info : Info) (index begin_ length : Nat) (buf : Bytes) :
    FsM OpenFiles Bytes :=
  match info.mode with
  | .single _ => dev.files.singleRead baseDir info index begin_ length buf
  | .multi files => dev.files.multiRead baseDir info files index begin_ length buf

/-- `fs/mod.rs:47-49` `write_piece`. -/
def Device.writePiece (dev : Device) (baseDir : Bytes) (info : Info) (idx : Nat) (data : List Bytes) : FsM OpenFiles Unit :=
  match info.mode with
  | .single _ => dev.files.singleWrite baseDir info idx data
  | .multi files => dev.files.multiWrite baseDir info files idx data

end Nargun
