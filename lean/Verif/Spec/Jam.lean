import Verif.Spec.Program

/-! # Specification: tasks of the DHT that wait for each other

The socket task, the table task and the lookup hand each other what they have through bounded queues: 1024 commands for the
socket task, 256 queries of others and 1024 answers for the table task, 64 answers for the lookup. -/

namespace Nargun.Spec

open Nargun Dht DhtManager DhtSystem

/-- The room in the queue of commands for the socket task. -/
def freeCommands (s : Program.State) : Nat := 1024 - s.dht.commands.length

/-- The commands the table task has to hand over before it looks at its queues again. -/
def tableOwes (s : Program.State) : Nat := (sends s.dht.manTodo).length

/-- The queries the lookup has to hand over before it takes an answer from its queue again: those it is handing over, and, when
it pauses, one to every node it knows. -/
def lookupOwes (s : Program.State) : Nat :=
  match s.lookup with
  | none => 0
  | some l => l.todo.length + match l.task.phase with
    | .sleeping _ => l.task.nodes.length
    | .fetching _ => 0

/-- The socket task waits for room in the full queue of the table task, which has more to hand over to the socket task than
there is room for. -/
def TableJam (s : Program.State) : Prop :=
  s.dht.conAlive = true ∧ s.dht.man.status = .running ∧ freeCommands s < tableOwes s ∧
  ((∃ q rest, s.dht.conTodo = .toManager q :: rest ∧ 256 ≤ s.dht.queries.length) ∨
    ∃ r rest, s.dht.conTodo = .toRequester OWN_CHANNEL r :: rest ∧ 1024 ≤ (s.dht.answers OWN_CHANNEL).length)

/-- The socket task waits for room in the full queue of the lookup, which has more to hand over to the socket task than there
is room for. -/
def LookupJam (s : Program.State) : Prop :=
  s.dht.conAlive = true ∧ freeCommands s < lookupOwes s ∧
  ∃ r rest, s.dht.conTodo = .toRequester Program.LOOKUP_CHANNEL r :: rest ∧
    64 ≤ (s.dht.answers Program.LOOKUP_CHANNEL).length

/-- The table task cannot come to the end of what it is doing. -/
def TableHangs (s : Program.State) : Prop :=
  TableJam s ∨ (LookupJam s ∧ s.dht.man.status = .running ∧ freeCommands s < tableOwes s)

end Nargun.Spec
