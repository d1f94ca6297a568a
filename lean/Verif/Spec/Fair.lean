import Verif.Spec.Jam

/-! # Specification: executions without end, and fairness

What the program does in the long run can only be said of executions in which no task is passed over for ever. That every
task whose turn is possible again and again gets its turn is what the runtime (`tokio`) promises: its scheduler runs every
task that is ready, its queues serve waiting senders in the order in which they came, and `select!` chooses at random among the
branches that are ready. -/

namespace Nargun.Spec

open Nargun Dht DhtManager Program

/-- An execution: the state at every moment, and what happens between this moment and the next, if anything. A finite
execution is one in which nothing happens any more from some moment on. -/
structure Execution (w : World) (σ : Nat → Program.State) (ev : Nat → Option Program.Event) : Prop where
  step : ∀ n e, ev n = some e → Program.Step w (σ n) e (σ (n + 1))
  idle : ∀ n, ev n = none → σ (n + 1) = σ n

/-- Such an event is possible now. -/
def Possible (w : World) (s : Program.State) (A : Program.Event → Prop) : Prop := ∃ e s', A e ∧ Program.Step w s e s'

/-- If such events are possible again and again, they happen again and again. -/
def FairTo (w : World) (σ : Nat → Program.State) (ev : Nat → Option Program.Event) (A : Program.Event → Prop) : Prop :=
  (∀ n, ∃ m, n ≤ m ∧ Possible w (σ m) A) → ∀ n, ∃ m e, n ≤ m ∧ ev m = some e ∧ A e

/-- The socket task takes a command from its queue. -/
def SocketTakes : Program.Event → Prop
  | .dht e => ∃ tid c effs, e.con = some ⟨.command tid c, none, effs⟩
  | _ => False

/-- The socket task works off what its turn has led to: it sends a datagram, puts something into a queue, or finds nobody
there to take it. -/
def SocketWorks : Program.Event → Prop
  | .dht e => e = {} ∨ ∃ d, e = { sent := some d }
  | _ => False

/-- The table task works off what its turn has led to: it puts a command into the queue or finds the connection gone, starts
the lookup, writes the table. -/
def TableWorks : Program.Event → Prop
  | .dht e => (∃ c, e = { put := some (.manager, c) }) ∨ e = { man := some ⟨.conGone, []⟩ } ∨ ∃ t, e = { stored := some t }
  | .lookup _ _ => True
  | _ => False

/-- The table task notices the shutdown signal. -/
def TableNotices : Program.Event → Prop
  | .tableNotices _ => True
  | _ => False

/-- The lookup takes an answer from its queue. -/
def LookupHears : Program.Event → Prop
  | .hears _ _ => True
  | _ => False

/-- The lookup begins a round. -/
def LookupBegins : Program.Event → Prop
  | .look e => e.event = .tick
  | _ => False

/-- The table task takes a query of another node from its queue. -/
def TableTakesQuery : Program.Event → Prop
  | .dht e => ∃ q outs, e.man = some ⟨.query q, outs⟩
  | _ => False

/-- The table task takes an answer to one of its own queries from its queue. -/
def TableTakesAnswer : Program.Event → Prop
  | .dht e => ∃ r outs, e.man = some ⟨.resp r, outs⟩
  | _ => False

/-- The lookup hands a query to the connection. -/
def LookupAsks : Program.Event → Prop
  | .asks _ _ => True
  | _ => False

/-- No task is passed over for ever, and time does not stand still for the lookup. -/
structure Fair (w : World) (σ : Nat → Program.State) (ev : Nat → Option Program.Event) : Prop where
  socketTakes : FairTo w σ ev SocketTakes
  socketWorks : FairTo w σ ev SocketWorks
  tableWorks : FairTo w σ ev TableWorks
  tableNotices : FairTo w σ ev TableNotices
  tableEnds : FairTo w σ ev (· = .tableEnds)
  lookupHears : FairTo w σ ev LookupHears
  lookupBegins : FairTo w σ ev LookupBegins
  lookupTime : ∀ n t, ∃ m, n ≤ m ∧ ((σ m).down.phase = .done ∨ ∀ l, (σ m).lookup = some l → t ≤ l.task.now)
  trackerNotices : ∀ i, FairTo w σ ev (· = .trackerNotices i)
  trackerEnds : ∀ i, FairTo w σ ev (· = .trackerEnds i)
  exits : FairTo w σ ev (· = .exits)

/-- In addition, the table task takes what is in its queues and the lookup hands over its queries. -/
structure FairDht (w : World) (σ : Nat → Program.State) (ev : Nat → Option Program.Event) : Prop extends Fair w σ ev where
  tableTakesQuery : FairTo w σ ev TableTakesQuery
  tableTakesAnswer : FairTo w σ ev TableTakesAnswer
  lookupAsks : FairTo w σ ev LookupAsks

end Nargun.Spec
