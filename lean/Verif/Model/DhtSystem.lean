import Verif.Model.DhtManager

/-! # Model of the DHT as a whole: `src/dht/mod.rs`, `src/dht/connection/connection_handle.rs`

The task that owns the socket (`Verif.Model.DhtConnection`), the task that owns the routing table
(`Verif.Model.DhtManager`), any number of other tasks that send queries (the lookups) and the queues between them, which
have the capacities of `connection_handle.rs:86,97-99`. A task that puts something into a full queue waits. What a task
puts into queues or sends in one turn of its loop is worked off one by one; the new values of its variables are computed at
the beginning of the turn. A panic ends the task it happens in. The lookups never end (their loop ends only with an
error of the connection); what they ask is left open. -/

namespace Nargun.DhtSystem

open Nargun Dht Krpc DhtManager

/-- `connection_handle.rs:97`: `mpsc::channel(1 << 10)` for commands to the connection. -/
def COMMANDS_CAP : Nat := 2 ^ 10

/-- `connection_handle.rs:99`: `mpsc::channel(1 << 8)` for queries of other nodes. -/
def QUERIES_CAP : Nat := 2 ^ 8

/-- `connection_handle.rs:98` and `:86`: the channels for answers, that of the table task and those of its clones. -/
def answersCap (c : Nat) : Nat := if c = OWN_CHANNEL then 2 ^ 10 else 2 ^ 6

/-- The tasks and the queues; `conTodo` and `manTodo` is what the two tasks have yet to do in their current turn. -/
structure State where
  con : Con
  conAlive : Bool
  conTodo : List Effect
  man : Manager
  manTodo : List Out
  commands : List ToCon
  queries : List FromConQuery
  answers : Nat → List FromConResp

/-- `mod.rs:20-37`, `connection_handle.rs:96-114`: the start; the table task begins with pings to the stored nodes. -/
def State.start (infoHash secret : ID) (table : RoutingTable) (peers : Peers) (now : Nat) : State :=
  { con := Con.start table.ownId secret, conAlive := true, conTodo := []
    man := DhtManager.start infoHash table peers now, manTodo := startOutputs table
    commands := [], queries := [], answers := fun _ => [] }

/-- The table task has not returned yet, so its ends of the queues exist. -/
def State.ManagerThere (s : State) : Prop := s.man.status = .running ∨ (s.man.status = .finished ∧ s.manTodo ≠ [])

/-- The receiving end of the queue for answers to task `c` exists. -/
def State.Listens (s : State) (c : Nat) : Prop := c = OWN_CHANNEL → s.ManagerThere

/-- Who puts a command into the queue of the connection. -/
inductive Source where
  | manager
  | other
  deriving DecidableEq

/-- One entry of a history: what happened to the connection, what happened to the table task, the datagram that left, the
command that was put into the queue, the answer taken out by another task, the table written to the file, the nodes a lookup
was started with, the datagram that made the connection panic. -/
structure Entry where
  con : Option Dht.Entry := none
  man : Option DhtManager.Entry := none
  sent : Option (SockAddr × Bytes) := none
  put : Option (Source × ToCon) := none
  heard : Option (Nat × FromConResp) := none
  stored : Option RoutingTable := none
  spawned : Option (List Node) := none
  fatal : Option (Option SockAddr × Bytes) := none

/-- Events of the table task that need no queue between it and the connection. -/
def Direct : DhtManager.Event → Prop
  | .shutdown => True
  | .refresh _ _ => True
  | .peerNode _ => True
  | .peersGone => True
  | _ => False

/-- Events that are no turn of the loop of the table task. -/
def Outside : DhtManager.Event → Prop
  | .others _ => True
  | .pass _ => True
  | .reorder => True
  | _ => False

/-- One step of one task. -/
inductive Step (env : Env) (pause : Nat → Nat) : State → Entry → State → Prop
  /-- `connection_manager.rs:59-62`: a datagram is taken from the socket -/
  | datagram {s con' sender bytes heard effs} : s.conAlive = true → s.conTodo = [] →
      Con.Step env s.con ⟨.datagram sender bytes, heard, effs⟩ con' →
      Step env pause s { con := some ⟨.datagram sender bytes, heard, effs⟩ } { s with con := con', conTodo := effs }
  /-- a datagram makes the connection panic -/
  | panics {s sender bytes} : s.conAlive = true → s.conTodo = [] → s.con.receive env sender bytes = .panic →
      Step env pause s { fatal := some (sender, bytes) } { s with conAlive := false }
  /-- `connection_manager.rs:63-65`: a command is taken from the queue -/
  | command {s con' tid c rest effs} : s.conAlive = true → s.conTodo = [] → s.commands = c :: rest →
      Con.Step env s.con ⟨.command tid c, none, effs⟩ con' →
      Step env pause s { con := some ⟨.command tid c, none, effs⟩ }
        { s with con := con', conTodo := effs, commands := rest }
  /-- the map of outstanding queries changes its order -/
  | reorder {s con'} : Con.Step env s.con ⟨.reorder, none, []⟩ con' →
      Step env pause s { con := some ⟨.reorder, none, []⟩ } { s with con := con' }
  /-- `connection_manager.rs:99`: a datagram leaves -/
  | sends {s a b rest} : s.conAlive = true → s.conTodo = .datagram a b :: rest →
      Step env pause s { sent := some (a, b) } { s with conTodo := rest }
  /-- `connection_manager.rs:152,164,185`: a query is put into the queue of the table task -/
  | putQuery {s q rest} : s.conAlive = true → s.conTodo = .toManager q :: rest → s.ManagerThere →
      s.queries.length < QUERIES_CAP →
      Step env pause s {} { s with conTodo := rest, queries := s.queries ++ [q] }
  /-- `connection_manager.rs:226,232,242,252`: an answer is put into the queue of the task that asked -/
  | putAnswer {s c r rest} : s.conAlive = true → s.conTodo = .toRequester c r :: rest → s.Listens c →
      (s.answers c).length < answersCap c →
      Step env pause s {}
        { s with conTodo := rest, answers := fun k => if k = c then s.answers c ++ [r] else s.answers k }
  /-- the same lines: nobody listens any more, `unwrap` panics -/
  | noListener {s e rest} : s.conAlive = true → s.conTodo = e :: rest →
      ((∃ q, e = .toManager q) ∨ ∃ r, e = .toRequester OWN_CHANNEL r) → ¬ s.ManagerThere →
      Step env pause s {} { s with conAlive := false }
  /-- `dht_manager.rs:53-61`: a turn of the table task that does not begin with a queue of the connection -/
  | direct {s ev outs man'} : s.manTodo = [] → Direct ev → DhtManager.Step pause s.man ⟨ev, outs⟩ man' →
      Step env pause s { man := some ⟨ev, outs⟩ } { s with man := man', manTodo := outs }
  /-- `dht_manager.rs:62-64`: the table task takes a query -/
  | takeQuery {s q rest outs man'} : s.manTodo = [] → s.queries = q :: rest →
      DhtManager.Step pause s.man ⟨.query q, outs⟩ man' →
      Step env pause s { man := some ⟨.query q, outs⟩ } { s with man := man', manTodo := outs, queries := rest }
  /-- `dht_manager.rs:62-65`: the table task takes an answer -/
  | takeAnswer {s r rest outs man'} : s.manTodo = [] → s.answers OWN_CHANNEL = r :: rest →
      DhtManager.Step pause s.man ⟨.resp r, outs⟩ man' →
      Step env pause s { man := some ⟨.resp r, outs⟩ }
        { s with man := man', manTodo := outs, answers := fun k => if k = OWN_CHANNEL then rest else s.answers k }
  /-- `connection_handle.rs:130`, `dht_manager.rs:63`: the connection is gone and its queue of queries empty -/
  | conGone {s man'} : s.manTodo = [] → s.conAlive = false → s.queries = [] →
      DhtManager.Step pause s.man ⟨.conGone, []⟩ man' →
      Step env pause s { man := some ⟨.conGone, []⟩ } { s with man := man' }
  /-- something that does not concern the connection -/
  | outside {s ev man'} : Outside ev → DhtManager.Step pause s.man ⟨ev, []⟩ man' →
      Step env pause s { man := some ⟨ev, []⟩ } { s with man := man' }
  /-- `connection_handle.rs:64-81`, `:161-173`: the table task hands over a command -/
  | putCommand {s c rest} : s.man.status = .running → s.manTodo = .send c :: rest → s.conAlive = true →
      s.commands.length < COMMANDS_CAP →
      Step env pause s { put := some (.manager, c) } { s with manTodo := rest, commands := s.commands ++ [c] }
  /-- the same lines: the connection is gone, `?` ends the task -/
  | putFails {s c rest man'} : s.manTodo = .send c :: rest → s.conAlive = false →
      DhtManager.Step pause s.man ⟨.conGone, []⟩ man' →
      Step env pause s { man := some ⟨.conGone, []⟩ } { s with man := man' }
  /-- `dht_manager.rs:70-81`: a lookup is started -/
  | spawns {s ns rest} : s.man.status = .running → s.manTodo = .lookups ns :: rest →
      Step env pause s { spawned := some ns } { s with manTodo := rest }
  /-- `dht_manager.rs:54`: the table is written -/
  | stores {s t rest} : s.man.status = .finished → s.manTodo = .stored t :: rest →
      Step env pause s { stored := some t } { s with manTodo := rest }
  /-- `peer_fetcher.rs:83,148,191`: a lookup sends a query -/
  | ask {s c target v} : c ≠ OWN_CHANNEL → s.conAlive = true → s.commands.length < COMMANDS_CAP →
      Step env pause s { put := some (.other, .query c target v) }
        { s with commands := s.commands ++ [.query c target v] }
  /-- `peer_fetcher.rs:89`: a lookup takes an answer -/
  | hear {s c r rest} : c ≠ OWN_CHANNEL → s.answers c = r :: rest →
      Step env pause s { heard := some (c, r) }
        { s with answers := fun k => if k = c then rest else s.answers k }

/-- A history, the oldest entry first. -/
inductive Run (env : Env) (pause : Nat → Nat) : State → List Entry → State → Prop
  | nil {s} : Run env pause s [] s
  | snoc {s s1 s2 h e} : Run env pause s h s1 → Step env pause s1 e s2 → Run env pause s (h ++ [e]) s2

end Nargun.DhtSystem
