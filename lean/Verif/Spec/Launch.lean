import Verif.Model.Launch
import Verif.Spec.Program
import Verif.Spec.Storage

/-! # Specification of the start of the program, and of its sessions -/

namespace Nargun.Spec

open Nargun Dht Krpc Program

/-- All tasks are at work: the manager is in its loop, the socket and the table task of the DHT run, and the task of every
HTTP tracker of the torrent is about to announce the torrent. -/
structure Underway (t : Torrent) (s : Program.State) : Prop where
  manager : s.swarm.man = .loop
  socket : s.dht.conAlive = true
  table : s.dht.man.status = .running
  trackers : s.trackers.map (fun x => (x.announce.trackerUrl, x.phase)) = t.httpTrackers.map (fun url => (url, .calling))
  infoHash : ∀ x ∈ s.trackers, x.announce.infoHash = t.infoHash ∧ x.announce.event = some .started

/-- The directory for torrents exists, and nothing has the name of the torrent there; only torrents with several files need
this. -/
def RoomFor (info : Info) (t : Tree) : Prop :=
  ∀ files, info.mode = .multi files → ∃ b, LeadsTo t STORAGE b ∧ ∀ q, t.get? (b ++ info.name :: q) = none

/-- Names of the torrent that stand for themselves. -/
def PlainNames (info : Info) : Prop :=
  ∀ files, info.mode = .multi files → NormalName info.name ∧ ∀ f ∈ files, f.path ≠ [] ∧ ∀ c ∈ f.path, NormalName c

/-- Nothing is downloaded: no peer is ever connected to, whatever happens; and unless the program is already stopping, the
table task can end at any time it has nothing to do, after which no routing table is ever stored. -/
def DoesNothing (w : World) (s0 : Program.State) : Prop :=
  ∀ es s, Program.Run w s0 es s → connectedTo (torrentEvents es) = [] ∧
    (s.down.phase ≠ .done → s.dht.man.status = .running → s.dht.manTodo = [] →
      ∃ s1, Program.Step w s .nodesGone s1 ∧ ∀ es' s2, Program.Run w s1 es' s2 → storedTables (dhtEvents es') = [])

/-- The file of the routing table when these tables have been stored. -/
def fileAfter (file : Option Bytes) (tables : List RoutingTable) : Option Bytes :=
  match tables.getLast? with
  | none => file
  | some t => TableFile.afterStore t

/-- What a session leaves in the file of the routing table when the process ends in a state, for whatever reason: what has
been stored, or, while the table is being stored, something in between. -/
inductive Leaves (file : Option Bytes) (es : List Program.Event) (s : Program.State) : Option Bytes → Prop
  | kept : Leaves file es s (fileAfter file (storedTables (dhtEvents es)))
  | within {t rest file'} : s.dht.man.status = .finished → s.dht.manTodo = .stored t :: rest →
      TableFile.DuringStore (fileAfter file (storedTables (dhtEvents es))) t file' → Leaves file es s file'

/-- The program has been started any number of times on a machine where it had never been started before, with any
torrents, any peers and nodes, and any ends; these are the histories of the sessions, and this is what the file of the
routing table is now. -/
inductive Sessions (sha1 : Bytes → ID) (utf8 : Bytes → Bool) : List (List Program.Event) → Option Bytes → Prop
  | new : Sessions sha1 utf8 [] none
  | session {hist file w m c tree s0 es s file'} : Sessions sha1 utf8 hist file → m.tableFile = file →
      launch sha1 utf8 w m c = (tree, .ok s0) → Program.Run w s0 es s → Leaves file es s file' →
      Sessions sha1 utf8 (hist ++ [es]) file'

end Nargun.Spec
