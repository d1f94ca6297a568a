import Verif.Model.Program

/-! # Model of errors that the operating system reports to the running program

`src/dht/connection/connection_manager.rs`, `src/main.rs`: the program of `Verif.Model.Program`, in which moreover every
datagram may be refused when it is to be sent, reading from the UDP socket may fail, and waiting for Ctrl-C may fail. What
makes the system report such an error is left open: every one of them may happen at any time. Errors of TCP connections
(a connection ends) and of HTTP requests (an announce fails) are in `Verif.Model.Program` already, those of the start in
`Verif.Model.Launch`, those of the files in `Verif.Model.OpenFiles`. -/

namespace Nargun.Trouble

open Nargun Dht

/-- What happens in a step. -/
inductive Event where
  /-- a step without an error -/
  | normal (e : Program.Event)
  /-- the system refuses to send a datagram -/
  | refused (target : SockAddr) (bytes : Bytes)
  /-- reading from the socket fails -/
  | recvFails
  /-- waiting for Ctrl-C fails -/
  | noSignal

/-- One step of one task. -/
inductive Step (w : Program.World) : Program.State → Event → Program.State → Prop
  | normal {s e s'} : Program.Step w s e s' → Step w s (.normal e) s'
  /-- `connection_manager.rs:99-101`: the error is written to the log, the task goes on -/
  | refused {s a b rest} : s.down.phase ≠ .done → s.dht.conAlive = true → s.dht.conTodo = .datagram a b :: rest →
      Step w s (.refused a b) { s with dht := { s.nodes with conTodo := rest } }
  /-- `connection_manager.rs:59-60`: `res.ok()?` ends the task that owns the socket -/
  | recvFails {s} : s.down.phase ≠ .done → s.dht.conAlive = true → s.dht.conTodo = [] →
      Step w s .recvFails { s with dht := { s.nodes with conAlive := false } }
  /-- `main.rs:177-185`: the error is printed and `main` returns, which ends the process -/
  | noSignal {s} : s.down.phase = .holding →
      Step w s .noSignal { s with down := { s.down with phase := .done } }

/-- A history, the oldest event first. -/
inductive Run (w : Program.World) : Program.State → List Event → Program.State → Prop
  | nil {s} : Run w s [] s
  | snoc {s s1 s2 es e} : Run w s es s1 → Step w s1 e s2 → Run w s (es ++ [e]) s2

end Nargun.Trouble
