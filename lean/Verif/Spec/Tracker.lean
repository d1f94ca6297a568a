import Verif.Model.TrackerManager

/-! # Specification of the tracker protocol, over the log of observable effects -/

namespace Nargun.Spec

open Nargun

/-- The tracker has answered. -/
def Answered (log : List TrackerEvent) : Prop := ∃ r, .answered r ∈ log

/-- `Q pre a` holds for every announce `a` sent, `pre` being everything that happened before. -/
def EverySent (log : List TrackerEvent) (Q : List TrackerEvent → Announce → Prop) : Prop :=
  ∀ pre a post, log = pre ++ .sent a :: post → Q pre a

/-- The first tracker id the tracker supplied. -/
def firstTrackerId (log : List TrackerEvent) : Option Bytes :=
  (log.filterMap fun e => match e with
    | .answered r => r.trackerId
    | _ => none).head?

/-- The last progress value read. -/
def lastProgress (log : List TrackerEvent) : Option Nat :=
  (log.filterMap fun e => match e with
    | .loaded n => some n
    | _ => none).getLast?

/-- The announces sent. -/
def sentAnnounces (log : List TrackerEvent) : List Announce :=
  log.filterMap fun e => match e with
    | .sent a => some a
    | _ => none

/-- Length of piece `i` of a torrent of `total` bytes. -/
def pieceBytes (total length i : Nat) : Nat := min length (total - i * length)

/-- Bytes missing: the lengths of the pieces (of `count`) not yet downloaded. -/
def missingBytes (total length : Nat) (have_ : Nat → Bool) : Nat → Nat
  | 0 => 0
  | i + 1 => missingBytes total length have_ i + (if have_ i then 0 else pieceBytes total length i)

/-- Number of downloaded pieces (of `count`). -/
def countHave (have_ : Nat → Bool) : Nat → Nat
  | 0 => 0
  | i + 1 => countHave have_ i + (if have_ i then 1 else 0)

end Nargun.Spec
