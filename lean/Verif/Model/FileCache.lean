import Verif.Model.Map

/-! # Model of `src/fs/file_cache.rs`

The entries without the handles. Times are in nanoseconds. Every reading of the clock is a value of its own.
Simplification: products and sums of elapsed times stay below `Duration::MAX` (they would have to reach half an eternity:
2^64 seconds). -/

namespace Nargun

/-- `file_cache.rs:7` `FILE_CACHE_SIZE`. -/
def FILE_CACHE_SIZE : Nat := 16

/-- `file_cache.rs:13-17` `struct CacheEntry`. -/
structure CacheEntry where
  read : Option Nat
  write : Option Nat
  deriving DecidableEq

/-- `file_cache.rs:9-11` `struct FileCache`. -/
abbrev FileCache := Map Bytes CacheEntry

/-- `Duration::MAX`, in nanoseconds. -/
def DURATION_MAX : Nat := 18446744073709551615999999999

/-- The readings of the clock during one request: when the time since the last read and the last write of an entry is
computed by an eviction (`file_cache.rs:77, 80, 83`; `max_by_key` computes its key once for each entry), and when the
request is recorded (`file_cache.rs:29, 37`). -/
structure CacheClock where
  atRead : Bytes → Nat
  atWrite : Bytes → Nat
  stamp : Nat

/-- A clock that stands still. -/
def CacheClock.still (now : Nat) : CacheClock := ⟨fun _ => now, fun _ => now, now⟩

/-- `file_cache.rs:72-87` `weighted_elapsed`, where the two calls of `elapsed` read the clock at `tr` and `tw`. -/
def CacheEntry.weightedElapsed (tr tw : Nat) (e : CacheEntry) : Nat :=
  match e.read, e.write with
  | some r, some w => (tr - r) + (tw - w)
  | some r, none => (tr - r) * 3
  | none, some w => (tw - w) * 3
  | none, none => DURATION_MAX

/-- `Iterator::max_by_key`: of several maxima, the last one. -/
def maxByKey {α} (key : α → Nat) : List α → Option α
  | [] => none
  | x :: xs =>
    match maxByKey key xs with
    | none => some x
    | some y => if key x > key y then some x else some y

namespace FileCache

/-- `file_cache.rs:60-68` `evict`. -/
def evict (clk : CacheClock) (c : FileCache) : FileCache :=
  match maxByKey (fun e => e.2.weightedElapsed (clk.atRead e.1) (clk.atWrite e.1)) c with
  | none => c
  | some (key, _) => c.erase key

/-- `file_cache.rs:42-58` `get_entry`: the file is opened in any case, before the map is consulted. -/
def getEntry (openable : Bytes → Bool) (clk : CacheClock) (path : Bytes) (c : FileCache) : FileCache × Res Unit :=
  let c := if c.length = FILE_CACHE_SIZE ∧ c.contains path = false then c.evict clk else c
  if openable path then
    (if c.contains path then c else c.insert path ⟨none, none⟩, .ok ())
  else (c, .err)

/-- `file_cache.rs:26-32` `get_read`. -/
def getRead (openable : Bytes → Bool) (clk : CacheClock) (path : Bytes) (c : FileCache) : FileCache × Res Unit :=
  match c.getEntry openable clk path with
  | (c', .ok ()) => (c'.modify path (fun e => { e with read := some clk.stamp }), .ok ())
  | (c', r) => (c', r)

/-- `file_cache.rs:34-40` `get_write`. -/
def getWrite (openable : Bytes → Bool) (clk : CacheClock) (path : Bytes) (c : FileCache) : FileCache × Res Unit :=
  match c.getEntry openable clk path with
  | (c', .ok ()) => (c'.modify path (fun e => { e with write := some clk.stamp }), .ok ())
  | (c', r) => (c', r)

end FileCache

end Nargun
