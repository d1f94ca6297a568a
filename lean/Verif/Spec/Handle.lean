import Verif.Model.Handle
import Verif.Spec.Wire

/-! # Specification: what a client of the connection handle can expect -/

namespace Nargun.Spec

open Handle

/-- The message each call stands for in BEP 3. -/
def meaning : Call → Message
  | .choke true => .choke
  | .choke false => .unchoke
  | .interested true => .interested
  | .interested false => .notInterested
  | .have_ v => .have_ v
  | .bitfield v => .bitfield v
  | .piece v => .piece v
  | .cancel v => .cancel v
  | .port v => .port v

/-- What the client can note down: how many connections it has made, the number of the one it has to each peer, and what
was said over each of them: the messages of the calls that reported success and the requests of its downloader. -/
structure Notes where
  made : Nat
  current : Peer → Option Nat
  said : Nat → List Message

/-- A message is said over connection `i`. -/
def Notes.say (b : Notes) (i : Nat) (m : Message) : Notes :=
  { b with said := fun j => if j = i then b.said i ++ [m] else b.said j }

/-- What the client notes down at an event. -/
def Notes.note (b : Notes) : Handle.Event → Notes
  | .connect p => if b.current p = none then
      { b with made := b.made + 1, current := fun q => if q = p then some b.made else b.current q } else b
  | .disconnect p => { b with current := fun q => if q = p then none else b.current q }
  | .call p c true => match b.current p with
    | some i => b.say i (meaning c)
    | none => b
  | .asks i r => b.say i (.request r)
  | _ => b

/-- The notes after a history. -/
def notes (h : List Handle.Event) : Notes := h.foldl Notes.note ⟨0, fun _ => none, fun _ => []⟩

/-- The number of keep-alive messages sent. -/
def keepAlives (h : List AliveEvent) : Nat := h.count .sent

end Nargun.Spec
