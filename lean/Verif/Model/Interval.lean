import Verif.Model.Prelude

/-! # Model of `src/capped_growing_interval.rs`

Floating-point numbers are exact rationals, the infinities and NaN; rounding is not modelled. -/

namespace Nargun

/-- `f64`. -/
inductive F64 where
  | nan
  | negInf
  | fin (q : Rat)
  | posInf
  deriving DecidableEq

/-- `f64::partial_cmp`. -/
def F64.partialCmp : F64 → F64 → Option Ordering
  | .nan, _ => none
  | _, .nan => none
  | .fin a, .fin b => some (if a < b then .lt else if a = b then .eq else .gt)
  | .negInf, .negInf => some .eq
  | .negInf, _ => some .lt
  | _, .negInf => some .gt
  | .posInf, .posInf => some .eq
  | .posInf, _ => some .gt
  | _, .posInf => some .lt

/-- `Iterator::min_by` on the two elements of `capped_growing_interval.rs:19-22`: the first one unless it is greater. -/
def F64.minOf (a b : F64) : Res F64 := do
  let o ← Res.unwrap (a.partialCmp b)
  .ok (if o = .gt then b else a)

/-- `Duration::from_secs_f64`: panics unless the number is finite, not negative and fits 64 bits of seconds; the result is
in seconds (rounding to nanoseconds is not modelled). -/
def F64.toDuration : F64 → Res Rat
  | .fin q => if 0 ≤ q ∧ q < 2 ^ 64 then .ok q else .panic
  | _ => .panic

/-- `capped_growing_interval.rs:3-7` `struct CappedGrowingInterval`; `growth n` is `growth_formula(n as f64)`. -/
structure Interval where
  growth : Nat → F64
  iterCount : Nat
  max : F64

namespace Interval

/-- `capped_growing_interval.rs:10-16` `CappedGrowingInterval::new`. -/
def new (max : F64) (growth : Nat → F64) : Interval := ⟨growth, 0, max⟩

/-- `capped_growing_interval.rs:19-24`: how long `tick` sleeps. -/
def delay (s : Interval) : Res Rat := do
  let m ← F64.minOf (s.growth s.iterCount) s.max
  m.toDuration

/-- What becomes of a call of `tick`. -/
inductive Tick where
  /-- it slept for `d` and returned -/
  | slept (d : Rat)
  /-- it was to sleep for `d` but was given up (`select!` chose another branch) -/
  | dropped (d : Rat)
  deriving DecidableEq

/-- `capped_growing_interval.rs:18-27` `tick`: the counter is incremented only after the sleep. -/
inductive Step : Interval → Tick → Interval → Prop
  | slept {s d} : s.delay = .ok d → Step s (.slept d) { s with iterCount := s.iterCount + 1 }
  | dropped {s d} : s.delay = .ok d → Step s (.dropped d) s

/-- A history of calls, the oldest first. -/
inductive Run : Interval → List Tick → Interval → Prop
  | nil {s} : Run s [] s
  | snoc {s s1 s2 h e} : Run s h s1 → Step s1 e s2 → Run s (h ++ [e]) s2

end Interval

/-- `src/dht/dht_manager.rs:25` `MAX_SECS_INTERVAL_BETWEEN_NODE_REFRESH`. -/
def REFRESH_MAX : F64 := .fin 200

/-- `src/dht/dht_manager.rs:26-27` `INTERVAL_GROWTH`. -/
def REFRESH_GROWTH (n : Nat) : F64 := .fin (3 + (4 / 100) * (n : Rat) ^ 3)

/-- `src/dht/peer_fetcher.rs:21` `MAX_SECS_INTERVAL_BETWEEN_PEER_FETCHES`. -/
def FETCH_MAX : F64 := .fin 120

/-- `src/dht/peer_fetcher.rs:22-23` `INTERVAL_GROWTH`; the power 3.7, which is not a rational number, is a parameter. -/
def FETCH_GROWTH (pow37 : Nat → Rat) (n : Nat) : F64 := .fin (7 + (1 / 100) * pow37 n)

end Nargun
