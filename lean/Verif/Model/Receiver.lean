import Verif.Model.Message

/-! # Model of the receive side of `src/peers/connection/connection_manager.rs`

The TCP stream is the list of bytes the peer sends, and the schedule decides how many bytes each `read`
returns (never more than the free buffer space offered to it). -/

namespace Nargun

/-- `connection_manager.rs:19-20` `MAX_MESSAGE_BYTES`. -/
def MAX_MESSAGE_BYTES : Nat := BLOCK_SIZE + 1 <<< 7

/-- The local variables of `manager_receiver`, `connection_manager.rs:104-106`. -/
structure RecvState where
  buf : Bytes
  dataStart : Nat
  dataLen : Nat
  deriving DecidableEq

namespace RecvState

/-- `connection_manager.rs:104-106`: a zeroed buffer with no data. -/
def init : RecvState := ⟨List.replicate MAX_MESSAGE_BYTES 0#8, 0, 0⟩

/-- The space offered to `read` at `connection_manager.rs:109`: `&mut buf[data_start + data_len..]`. -/
def capacity (s : RecvState) : Nat := s.buf.length - (s.dataStart + s.dataLen)

/-- The effect of a `read` that delivered `chunk` (`connection_manager.rs:109-115`): the bytes are written
behind the buffered data. The slice expression panics if `data_start + data_len` exceeds the buffer. -/
def onRead (s : RecvState) (chunk : Bytes) : Res RecvState :=
  if s.dataStart + s.dataLen ≤ s.buf.length then
    .ok { s with
      buf := s.buf.take (s.dataStart + s.dataLen) ++ chunk
        ++ s.buf.drop (s.dataStart + s.dataLen + chunk.length)
      dataLen := s.dataLen + chunk.length }
  else .panic

/-- `buf.copy_within(src..src + n, 0)`, `connection_manager.rs:132`; panics out of range. -/
def copyToFront (buf : Bytes) (src n : Nat) : Res Bytes :=
  if src + n ≤ buf.length then .ok ((buf.drop src).take n ++ buf.drop n) else .panic

/-- The inner `while`, `connection_manager.rs:117-141`; returns the messages handed to `handle_message`, in
order. Every iteration consumes at least four bytes, so `fuel = data_len + 1` iterations reach the exit
(`drain_fuel` in `Lemmas/Receiver`); the receiver calls it with that fuel. -/
def drain : Nat → RecvState → Res (RecvState × List Message)
  | 0, s => .ok (s, [])
  | fuel + 1, s =>
    if s.dataLen < BYTES_IN_LEN_PREFIX then .ok (s, [])
    else do
      let tail ← sliceFrom s.buf s.dataStart
      let l ← Message.len tail
      let messageLen := l + BYTES_IN_LEN_PREFIX
      if messageLen ≤ s.dataLen then do
        match ← Message.fromBuf s.buf with
        | none => .ok ({ s with dataStart := 0, dataLen := 0 }, [])
        | some m => do
          let start := s.dataStart + messageLen
          let rest := s.dataLen - messageLen
          let buf ← (if 0 < rest then copyToFront s.buf start rest else .ok s.buf : Res Bytes)
          let (s', ms) ← drain fuel { buf := buf, dataStart := 0, dataLen := rest }
          .ok (s', m :: ms)
      else .ok (s, [])

/-- One iteration of the outer `loop`, `connection_manager.rs:108-142`, for a `read` that succeeded. -/
def iterate (s : RecvState) (chunk : Bytes) : Res (RecvState × List Message) := do
  let s ← s.onRead chunk
  s.drain (s.dataLen + 1)

/-- The receive loop on a byte stream: `sched` lists how many bytes the operating system is willing to hand
over at each `read`; a read returns no more than the space offered and no more than what is left. Returns the
state, the unread rest of the stream, and the messages handled, in order. -/
def run (s : RecvState) (stream : Bytes) : List Nat → Res (RecvState × Bytes × List Message)
  | [] => .ok (s, stream, [])
  | k :: sched => do
    let n := min k s.capacity
    let (s', ms) ← s.iterate (stream.take n)
    let (s'', rest, ms') ← run s' (stream.drop n) sched
    .ok (s'', rest, ms ++ ms')

end RecvState

/-- Result of one `stream.read(..).await`: `data []` is end of stream (or an empty buffer), `error` an I/O
error. -/
inductive ReadResult where
  | data (chunk : Bytes)
  | error
  deriving DecidableEq

/-- `manager_receiver`, `connection_manager.rs:97-143`, driven by the results of its reads. The Boolean tells
whether the task has returned; nothing but a read error makes it return. -/
def receiver (s : RecvState) : List ReadResult → Res (RecvState × List Message × Bool)
  | [] => .ok (s, [], false)
  | .error :: _ => .ok (s, [], true)
  | .data chunk :: rest => do
    let (s', ms) ← s.iterate chunk
    let (s'', ms', fin) ← receiver s' rest
    .ok (s'', ms ++ ms', fin)

end Nargun
