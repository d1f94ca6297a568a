import Verif.Model.Announce
import Verif.Model.TrackerResponse

/-! # Model of the task talking to one tracker: `src/tracker/tracker_manager.rs`

The task is a state machine over what its environment does: the HTTP exchange (`reqwest`) sends, answers or
fails; timers fire; the completion broadcast delivers; shutdown is signalled. An input that the task is not
waiting for is ignored. Reads of the shared progress counter are inputs (the number loaded). Arithmetic is that of a debug
build. -/

namespace Nargun

/-- What the task waits for. -/
inductive TrackerPhase where
  /-- `send_request` was called but has not put the request on the wire, `tracker_manager.rs:131-136`. -/
  | calling
  /-- The request is on the wire, `tracker_manager.rs:131-136`. -/
  | inFlight
  /-- Waiting to retry, `tracker_manager.rs:143-148`. -/
  | backoff
  /-- Waiting for the interval, completion or shutdown, `tracker_manager.rs:91-114`. -/
  | waiting (interval : Nat)
  /-- The task has ended. -/
  | exited
  deriving DecidableEq

/-- Observable effects, newest last. -/
inductive TrackerEvent where
  /-- The progress counter was read. -/
  | loaded (pieces : Nat)
  /-- A request for this announce was sent. -/
  | sent (a : Announce)
  /-- The tracker answered the last request. -/
  | answered (r : TrackerResponse)
  /-- The last request failed or its answer could not be decoded. -/
  | failed
  /-- These peers were handed to the table of known peers. -/
  | found (ps : List Peer)
  /-- A pause of this many seconds ended. -/
  | slept (secs : Nat)
  deriving DecidableEq

/-- `tracker_manager.rs:16` `RETRY_SECS`. -/
def RETRY_SECS : Nat := 1 <<< 6

/-- The task: what it announces, where it is, what it did. -/
structure TrackerTask where
  pieceCount : Nat
  pieceLength : Nat
  announce : Announce
  phase : TrackerPhase
  log : List TrackerEvent

/-- What the environment does. `pieces` is what the following read of the counter gives. -/
inductive TrackerInput where
  | sends
  | answers (r : TrackerResponse)
  | fails
  | retryTimer
  | intervalTimer (pieces : Nat)
  | completed (pieces : Nat)
  | completionClosed
  | shutdown (pieces : Nat)

/-- `(piece_count - pieces_downloaded) * piece_length` in `u64`, `tracker_manager.rs:77,94,116`. -/
def leftBytes (count pieces length : Nat) : Res Nat := do
  let n ← usub count pieces
  if n * length < 2 ^ 64 then .ok (n * length) else .panic

/-- `tracker_manager.rs:70-84`: the first announce. -/
def TrackerTask.start (url : Bytes) (infoHash peerId : ID) (count length pieces : Nat) (port : U16) :
    Res TrackerTask := do
  let left ← leftBytes count pieces length
  .ok { pieceCount := count, pieceLength := length,
        announce := ⟨url, infoHash, peerId, port, 0, 0, left, true, true, some .started, none⟩,
        phase := .calling, log := [.loaded pieces] }

/-- `tracker_manager.rs:116`: `left` is brought up to date and the loop asks the tracker again with
`event`. -/
def TrackerTask.again (t : TrackerTask) (event : Option AnnounceEvent) (pieces : Nat) : Res TrackerTask := do
  let left ← leftBytes t.pieceCount pieces t.pieceLength
  .ok { t with announce := { t.announce with event := event, left := left }, phase := .calling,
               log := t.log ++ [.loaded pieces] }

/-- `manage_http_tracker` and `contact_tracker`, `tracker_manager.rs:56-150`, as reaction to one input. The
request for 'stopped' (`:97`) is sent without waiting for anything else but its result, which is dropped. -/
def TrackerTask.step (t : TrackerTask) (i : TrackerInput) : Res TrackerTask :=
  match t.phase, i with
  | .calling, .sends => .ok { t with phase := .inFlight, log := t.log ++ [.sent t.announce] }
  | .calling, .fails => .ok { t with phase := .backoff, log := t.log ++ [.failed] }
  | .calling, .shutdown _ => .ok { t with phase := .exited }
  | .inFlight, .answers r =>
    .ok { t with
          announce := if t.announce.trackerId.isNone ∧ r.trackerId.isSome then
            { t.announce with trackerId := r.trackerId } else t.announce
          phase := .waiting r.interval
          log := t.log ++ [.answered r, .found r.peers] }
  | .inFlight, .fails => .ok { t with phase := .backoff, log := t.log ++ [.failed] }
  | .inFlight, .shutdown _ => .ok { t with phase := .exited }
  | .backoff, .retryTimer => .ok { t with phase := .calling, log := t.log ++ [.slept RETRY_SECS] }
  | .backoff, .shutdown _ => .ok { t with phase := .exited }
  | .waiting _, .shutdown pieces => do
    let left ← leftBytes t.pieceCount pieces t.pieceLength
    let a := { t.announce with event := some .stopped, left := left }
    .ok { t with announce := a, phase := .exited, log := t.log ++ [.loaded pieces, .sent a] }
  | .waiting secs, .intervalTimer pieces => TrackerTask.again { t with log := t.log ++ [.slept secs] } none pieces
  | .waiting _, .completed pieces => t.again (some .completed) pieces
  | .waiting _, .completionClosed => .ok { t with phase := .exited }
  | _, _ => .ok t

/-- A history of inputs. -/
def TrackerTask.run (t : TrackerTask) : List TrackerInput → Res TrackerTask
  | [] => .ok t
  | i :: is => do
    let t' ← t.step i
    t'.run is

end Nargun
