import Verif.Model.Map

/-! # Model of `src/shutdown.rs`

A broadcast channel of capacity 1 carries the signal, a `tokio::sync::mpsc` channel counts the tasks that are still alive:
nothing is ever sent through it, its receiver wakes up when the last sender is dropped. Receivers are numbered in the
order in which they are made. -/

namespace Nargun.Shutdown

open Nargun

/-- What became of the sending half. -/
inductive Phase where
  /-- `Sender` exists -/
  | holding
  /-- `Sender::send` was called, the `AliveTaskWaiter` exists -/
  | waiting
  /-- `AliveTaskWaiter::wait` returned -/
  | done
  /-- it was dropped -/
  | gone
  deriving DecidableEq

/-- `shutdown.rs:24-27` `struct Sender` and `:40-45` `struct Receiver`: everything they share. -/
structure State where
  /-- number of signals put into the broadcast channel -/
  tail : Nat
  /-- live sending halves of the broadcast channel -/
  broadcastSenders : Nat
  /-- live sending halves of the channel of `AliveTaskWaiter` -/
  markers : Nat
  /-- live receivers and the number of the next signal each will see -/
  receivers : Map Nat Nat
  /-- number of receivers ever made -/
  made : Nat
  phase : Phase

/-- `shutdown.rs:3-13` `channel`; both halves hold the sending half of the broadcast channel. -/
def channel : State := ⟨0, 2, 1, [(0, 0)], 1, .holding⟩

/-- `shutdown.rs:4`: the capacity of the broadcast channel. -/
def CAPACITY : Nat := 1

/-- `shutdown.rs:56-58` `Receiver::recv`: `none` while it waits; it panics when the channel is closed or the receiver was
too slow. -/
def State.recv (s : State) (r : Nat) : Option (Res State) :=
  match s.receivers.get? r with
  | none => none
  | some next =>
    if next = s.tail then if s.broadcastSenders = 0 then some .panic else none
    else if s.tail - next > CAPACITY then some .panic
    else some (.ok { s with receivers := s.receivers.insert r (next + 1) })

/-- `shutdown.rs:61-69` `Receiver::clone`: the new receiver subscribes now. -/
def State.clone (s : State) : State :=
  { s with
    broadcastSenders := s.broadcastSenders + 1
    markers := s.markers + 1
    receivers := s.receivers.insert s.made s.tail
    made := s.made + 1 }

/-- Dropping a `Receiver`. -/
def State.drop (s : State) (r : Nat) : State :=
  { s with
    broadcastSenders := s.broadcastSenders - 1
    markers := s.markers - 1
    receivers := s.receivers.erase r }

/-- `shutdown.rs:34-37` `Sender::send`: a signal nobody could receive is not kept; the sending half is dropped. -/
def State.send (s : State) : State :=
  { s with
    tail := if s.receivers = [] then s.tail else s.tail + 1
    broadcastSenders := s.broadcastSenders - 1
    phase := .waiting }

/-- What can happen. -/
inductive Event where
  /-- receiver `old` is cloned, the clone has number `new` -/
  | clone (old new : Nat)
  | drop (r : Nat)
  | send
  | recv (r : Nat)
  /-- `AliveTaskWaiter::wait` returns -/
  | waited
  /-- the sending half is dropped -/
  | dropSender
  deriving DecidableEq

/-- One event. -/
inductive Step : State → Event → State → Prop
  | clone {s r} : s.receivers.contains r = true → Step s (.clone r s.made) s.clone
  | drop {s r} : s.receivers.contains r = true → Step s (.drop r) (s.drop r)
  | send {s} : s.phase = .holding → Step s .send s.send
  | recv {s s' r} : s.recv r = some (.ok s') → Step s (.recv r) s'
  /-- `shutdown.rs:19-21`: no message is ever sent, so `recv` returns when there is no sender any more -/
  | waited {s} : s.phase = .waiting → s.markers = 0 → Step s .waited { s with phase := .done }
  | dropSender {s} : s.phase = .holding →
      Step s .dropSender { s with broadcastSenders := s.broadcastSenders - 1, phase := .gone }
  | dropWaiter {s} : s.phase = .waiting → Step s .dropSender { s with phase := .gone }

/-- A history, the oldest event first. -/
inductive Run : State → List Event → State → Prop
  | nil {s} : Run s [] s
  | snoc {s s1 s2 h e} : Run s h s1 → Step s1 e s2 → Run s (h ++ [e]) s2

end Nargun.Shutdown
