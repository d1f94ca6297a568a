import Verif.Model.FileCache

/-! # Specification of the cache of open files -/

namespace Nargun.Spec

open Nargun

/-- How idle a file is: the times since it was last read and last written, added; if it was only read or only written,
three times that time. The former is measured at the time `tr`, the latter at `tw`. -/
def idleAt (tr tw : Nat) (e : CacheEntry) : Nat :=
  match e.read.map (tr - ·), e.write.map (tw - ·) with
  | some r, some w => r + w
  | some x, none | none, some x => 3 * x
  | none, none => DURATION_MAX

/-- How idle a file is at a moment. -/
def idle (now : Nat) (e : CacheEntry) : Nat := idleAt now now e

/-- A request for a file. -/
inductive CacheOp where
  | read (path : Bytes) (clk : CacheClock)
  | write (path : Bytes) (clk : CacheClock)

/-- The file a request asks for. -/
def CacheOp.path : CacheOp → Bytes
  | .read p _ => p
  | .write p _ => p

/-- What the clock reads while it is carried out. -/
def CacheOp.clk : CacheOp → CacheClock
  | .read _ n => n
  | .write _ n => n

/-- The file's entry `e` after a successful request: the request's time is its last read or write; of the other kind of
access, it remembers what it did before (nothing, if it was not open). -/
def CacheOp.Stamped (before : Option CacheEntry) (e : CacheEntry) : CacheOp → Prop
  | .read _ n => e.read = some n.stamp ∧ e.write = before.bind (·.write)
  | .write _ n => e.write = some n.stamp ∧ e.read = before.bind (·.read)

/-- The call. -/
def CacheOp.run (openable : Bytes → Bool) (c : FileCache) : CacheOp → FileCache × Res Unit
  | .read p n => c.getRead openable n p
  | .write p n => c.getWrite openable n p

/-- States of the cache after a history of requests, successful or not; what can be opened may change all the time,
and the hash map may change its order at any time. -/
inductive CacheReach : FileCache → Prop
  | new : CacheReach []
  | op {c : FileCache} (openable : Bytes → Bool) (op : CacheOp) : CacheReach c → CacheReach (op.run openable c).1
  | rehash {c c' : FileCache} : CacheReach c → c.Perm c' → CacheReach c'

end Nargun.Spec
