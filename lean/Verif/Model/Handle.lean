import Verif.Model.Connection
import Verif.Model.Swarm

/-! # Model of the sending side of `src/peers/connection/connection_handle.rs` and `connection_manager.rs`

The calls of `Connection` with which messages are given to peers, the queue of each connection and the task that writes
(`manager_sender`), used by a client that calls them in any order. The program calls only `connect` and `download_piece`
(`Verif.Model.Swarm`); the other calls are modelled here. A call that finds the queue full waits; as it borrows the handle
meanwhile, the table does not change, so a call is one step, at the time its message is put into the queue.

Left out: what is received (`Verif.Model.Receiver`, `Verif.Model.Swarm`). When the other parts of the task of a connection
end (line 72 and 74 of `connection_manager.rs`) the task ends; why and when is left open. A write that fails may have
written a part of the message before; after it the stream takes no more bytes and all later writes fail as well (a broken
TCP connection stays broken). -/

namespace Nargun.Handle

open Nargun

/-- The calls with which a message is given to a peer, `connection_handle.rs:193-232`. -/
inductive Call where
  | choke (yn : Bool)
  | interested (yn : Bool)
  | have_ (v : U32)
  | bitfield (v : Bytes)
  | piece (v : Piece)
  | cancel (v : Request)
  | port (v : U16)
  deriving DecidableEq

/-- `connection_handle.rs:194,200-204,210,215,220,225,230`: the message of a call. -/
def Call.message : Call → Message
  | .choke yn => if yn then .choke else .unchoke
  | .interested yn => if yn then .interested else .notInterested
  | .have_ v => .have_ v
  | .bitfield v => .bitfield v
  | .piece v => .piece v
  | .cancel v => .cancel v
  | .port v => .port v

/-- Where the task of a connection is: before line 69 of `connection_manager.rs`, in the `select!`, or ended. -/
inductive Phase where
  | handshake
  | up
  | ended
  deriving DecidableEq

/-- One connection, `connection_handle.rs:108-147`: its queue of messages to send, whether the signal to end was given to
it, whether a write has failed. `out` is what the TCP stream has taken so far. -/
structure Conn where
  peer : Peer
  phase : Phase
  sends : List Message
  told : Bool
  broken : Bool
  out : Bytes
  deriving DecidableEq

/-- `connection_handle.rs:19-27` `struct Connection` with the connections made so far, in order. The table maps a peer to
the number of its connection. -/
structure State where
  table : Map Peer Nat
  conns : List Conn

/-- `connection_handle.rs:88-105` `Connection::new`. -/
def State.new : State := ⟨[], []⟩

/-- Replace a connection. -/
def State.set (s : State) (i : Nat) (c : Conn) : State := { s with conns := s.conns.set i c }

/-- What can happen. -/
inductive Event where
  /-- `connect` is called -/
  | connect (p : Peer)
  /-- `disconnect` is called -/
  | disconnect (p : Peer)
  /-- a call with a message returns; whether it reports success -/
  | call (p : Peer) (c : Call) (ok : Bool)
  /-- the downloader of connection `i` puts a request into the queue -/
  | asks (i : Nat) (r : Request)
  /-- the handshake of connection `i` is done -/
  | shakes (i : Nat)
  /-- connection `i` writes a message -/
  | writes (i : Nat)
  /-- connection `i` fails to write a message -/
  | fails (i : Nat)
  /-- the task of connection `i` ends -/
  | ends (i : Nat)
  deriving DecidableEq

/-- One event. -/
inductive Step : State → Event → State → Prop
  /-- `connection_handle.rs:115`: already in the table -/
  | again {s p i} : s.table.get? p = some i → Step s (.connect p) s
  /-- `connection_handle.rs:114-147` -/
  | connect {s p} : s.table.get? p = none →
      Step s (.connect p) ⟨s.table.insert p s.conns.length, s.conns ++ [⟨p, .handshake, [], false, false, []⟩]⟩
  /-- `connection_handle.rs:150-152` -/
  | unknown {s p} : s.table.get? p = none → Step s (.disconnect p) s
  /-- `connection_handle.rs:149-155`: the signal reaches the task if it still runs -/
  | disconnect {s p i c} : s.table.get? p = some i → s.conns[i]? = some c →
      Step s (.disconnect p) { s.set i { c with told := true } with table := s.table.erase p }
  /-- `connection_handle.rs:236` -/
  | refused {s p m} : s.table.get? p = none → Step s (.call p m false) s
  /-- `connection_handle.rs:237`: the task of the connection has ended -/
  | lost {s p m i c} : s.table.get? p = some i → s.conns[i]? = some c → c.phase = .ended → Step s (.call p m false) s
  /-- `connection_handle.rs:237` -/
  | put {s p m i c} : s.table.get? p = some i → s.conns[i]? = some c → c.phase ≠ .ended →
      c.sends.length < Swarm.MESSAGE_CHANNEL_BUFFER →
      Step s (.call p m true) (s.set i { c with sends := c.sends ++ [m.message] })
  /-- `downloader.rs:113-119` -/
  | asks {s i c r} : s.conns[i]? = some c → c.phase ≠ .ended → c.sends.length < Swarm.MESSAGE_CHANNEL_BUFFER →
      Step s (.asks i r) (s.set i { c with sends := c.sends ++ [.request r] })
  /-- `connection_manager.rs:59` -/
  | shakes {s i c} : s.conns[i]? = some c → c.phase = .handshake → Step s (.shakes i) (s.set i { c with phase := .up })
  /-- `connection_manager.rs:84-91` -/
  | writes {s i c m rest bytes} : s.conns[i]? = some c → c.phase = .up → c.broken = false → c.sends = m :: rest →
      m.intoBytes = .ok bytes → Step s (.writes i) (s.set i { c with sends := rest, out := c.out ++ bytes })
  /-- `connection_manager.rs:91-93`: the error is logged and the loop goes on -/
  | fails {s i c m rest bytes n} : s.conns[i]? = some c → c.phase = .up → c.sends = m :: rest → m.intoBytes = .ok bytes →
      n < bytes.length → Step s (.fails i)
        (s.set i { c with sends := rest, broken := true, out := if c.broken then c.out else c.out ++ bytes.take n })
  /-- `connection_manager.rs:59-68,71-75`: the task ends; it may have been writing a message -/
  | ends {s i c part} : s.conns[i]? = some c → c.phase ≠ .ended →
      (part = [] ∨ c.phase = .up ∧ c.broken = false ∧ ∃ m rest bytes, c.sends = m :: rest ∧ m.intoBytes = .ok bytes ∧ part <+: bytes) →
      Step s (.ends i) (s.set i { c with phase := .ended, sends := [], out := c.out ++ part })

/-- A history, the oldest event first. -/
inductive Run : State → List Event → State → Prop
  | nil {s} : Run s [] s
  | snoc {s s1 s2 h e} : Run s h s1 → Step s1 e s2 → Run s (h ++ [e]) s2

/-! ## The keep-alive task -/

/-- `connection_manager.rs:21` `KEEP_ALIVE_INTERVAL_SECS`, in seconds. -/
def KEEP_ALIVE_INTERVAL_SECS : Nat := 100

/-- `connection_manager.rs:219-230` `_keep_alive_sender` (nobody spawns it). It was polled first at time 0; `now` is the
time, `next` when the next tick of the interval is due. Lines 220-221: the first tick is immediate. After a late tick the
next ones are not shifted (tokio's `MissedTickBehavior::Burst`). -/
structure Alive where
  now : Nat
  next : Nat
  /-- at line 226, waiting for room in the queue -/
  sending : Bool
  ended : Bool
  deriving DecidableEq

/-- `connection_manager.rs:220-221`. -/
def Alive.start : Alive := ⟨0, KEEP_ALIVE_INTERVAL_SECS, false, false⟩

/-- What can happen to the task. -/
inductive AliveEvent where
  | pass (d : Nat)
  | tick
  | sent
  | gone
  deriving DecidableEq

/-- `connection_manager.rs:223-229`. -/
inductive AliveStep : Alive → AliveEvent → Alive → Prop
  | pass {s d} : AliveStep s (.pass d) { s with now := s.now + d }
  | tick {s} : s.ended = false → s.sending = false → s.next ≤ s.now →
      AliveStep s .tick { s with sending := true, next := s.next + KEEP_ALIVE_INTERVAL_SECS }
  | sent {s} : s.ended = false → s.sending = true → AliveStep s .sent { s with sending := false }
  | gone {s} : s.ended = false → s.sending = true → AliveStep s .gone { s with ended := true }

/-- Histories of the keep-alive task. -/
inductive AliveRun : Alive → List AliveEvent → Alive → Prop
  | nil {s} : AliveRun s [] s
  | snoc {s s1 s2 h e} : AliveRun s h s1 → AliveStep s1 e s2 → AliveRun s (h ++ [e]) s2

end Nargun.Handle
