import Verif.Spec.Program
import Verif.Spec.Ascii
import Verif.Model.Trouble

/-! # Vocabulary for errors that the operating system reports -/

namespace Nargun.Spec

open Nargun Dht Krpc

/-- A datagram that is no message of the DHT protocol: the id of its sender has one byte instead of twenty. -/
def SHORT_ID : Bytes := ascii "d1:ad2:id1:xe1:q4:ping1:t2:aa1:y1:qe"

/-- What could have happened instead, had the system reported no error: a refused datagram leaves (and may be lost on its
way), and instead of the error of the socket there was a datagram with a sender's id that is too short. -/
def likened : Trouble.Event → Program.Event
  | .normal e => e
  | .refused a b => .dht { sent := some (a, b) }
  | .recvFails => .dht { fatal := some (some ⟨⟨0#8, 0#8, 0#8, 0#8⟩, 0#16⟩, SHORT_ID) }
  | .noSignal => .exits

/-- The steps without an error. -/
def normalEvents (es : List Trouble.Event) : List Program.Event :=
  es.filterMap fun e => match e with
    | .normal x => some x
    | _ => none

/-- The datagrams that were refused, in order. -/
def refusedDatagrams (es : List Trouble.Event) : List (SockAddr × Bytes) :=
  es.filterMap fun e => match e with
    | .refused a b => some (a, b)
    | _ => none

/-- What happens on the torrent side, what the tasks of the trackers do, Ctrl-C and the end of the process. -/
def BesidesDht : Program.Event → Prop
  | .torrent _ => True
  | .answered _ _ => True
  | .tracker _ _ => True
  | .trackerNotices _ => True
  | .trackerEnds _ => True
  | .signal => True
  | .exits => True
  | _ => False

end Nargun.Spec
