/-!
# Shared vocabulary of the model

Nothing here models code of the repository except where a definition cites it; these are the conventions
(results, bytes, machine arithmetic, association lists for hash maps) used by all model modules.
-/

namespace Nargun

/-- A byte (`u8`). -/
abbrev Byte := BitVec 8

/-- A byte string (`Vec<u8>` / `&[u8]`). -/
abbrev Bytes := List Byte

/-- Outcome of a Rust call: a value, an `Err(_)` (error payloads are not modelled), or a panic. -/
inductive Res (α : Type u) where
  | ok (a : α)
  | err
  | panic
  deriving Repr, DecidableEq

namespace Res

/-- Sequencing: `?` on errors, unwinding on panics. -/
def bind {α β} (x : Res α) (f : α → Res β) : Res β :=
  match x with
  | ok a => f a
  | err => err
  | panic => panic

instance : Monad Res where
  pure := ok
  bind := bind

@[simp] theorem pure_eq {α} (a : α) : (pure a : Res α) = ok a := rfl
@[simp] theorem ok_bind {α β} (a : α) (f : α → Res β) : (ok a >>= f) = f a := rfl
@[simp] theorem err_bind {α β} (f : α → Res β) : ((err : Res α) >>= f) = err := rfl
@[simp] theorem panic_bind {α β} (f : α → Res β) : ((panic : Res α) >>= f) = panic := rfl

theorem bind_eq_ok {α β} {x : Res α} {f : α → Res β} {b : β} :
    (x >>= f) = ok b ↔ ∃ a, x = ok a ∧ f a = ok b := by
  cases x <;> simp

@[simp] theorem map_ok {α β} (f : α → β) (a : α) : (f <$> (ok a : Res α)) = ok (f a) := rfl
@[simp] theorem map_err {α β} (f : α → β) : (f <$> (err : Res α)) = err := rfl
@[simp] theorem map_panic {α β} (f : α → β) : (f <$> (panic : Res α)) = panic := rfl

instance : LawfulMonad Res := LawfulMonad.mk'
  (id_map := by intro α x; cases x <;> rfl)
  (pure_bind := by intros; rfl)
  (bind_assoc := by intro α β γ x f g; cases x <;> rfl)

/-- `Option::unwrap` / `expect`: a `None` panics. -/
def unwrap {α} : Option α → Res α
  | some a => ok a
  | none => panic

/-- `Option::ok_or(..)?`: a `None` becomes an error. -/
def ofOption {α} : Option α → Res α
  | some a => ok a
  | none => err

@[simp] theorem unwrap_some {α} (a : α) : unwrap (some a) = ok a := rfl
@[simp] theorem unwrap_none {α} : unwrap (none : Option α) = panic := rfl
@[simp] theorem ofOption_some {α} (a : α) : ofOption (some a) = ok a := rfl
@[simp] theorem ofOption_none {α} : ofOption (none : Option α) = err := rfl

end Res

/-- Cargo profile: `debug` builds check arithmetic overflow (and panic), `release` builds wrap. -/
inductive Profile where
  | debug
  | release
  deriving Repr, DecidableEq

/-- `usize`/`u64` subtraction under a profile (64-bit target). -/
def usizeSub (p : Profile) (a b : Nat) : Res Nat :=
  if b ≤ a then .ok (a - b)
  else match p with
    | .debug => .panic
    | .release => .ok (a + 2 ^ 64 - b)

/-- Checked `usize` subtraction (debug build). -/
def usub (a b : Nat) : Res Nat := if b ≤ a then .ok (a - b) else .panic

/-- `1 + ((n - 1) / d)`: `src/macros.rs:2-6` `unsigned_ceil_div!`, debug build (underflow panics; a zero
divisor panics in every build). -/
def unsignedCeilDiv (n d : Nat) : Res Nat := do
  let m ← usub n 1
  if d = 0 then .panic else .ok (1 + m / d)

/-- Rust slice indexing `xs[i]`. -/
def index {α} (xs : List α) (i : Nat) : Res α := Res.unwrap xs[i]?

/-- Rust slice range `&xs[a..b]`: panics unless `a ≤ b ≤ len`. -/
def sliceR {α} (xs : List α) (a b : Nat) : Res (List α) :=
  if a ≤ b ∧ b ≤ xs.length then .ok ((xs.drop a).take (b - a)) else .panic

/-- Rust `&xs[a..]`: panics unless `a ≤ len`. -/
def sliceFrom {α} (xs : List α) (a : Nat) : Res (List α) :=
  if a ≤ xs.length then .ok (xs.drop a) else .panic

end Nargun
