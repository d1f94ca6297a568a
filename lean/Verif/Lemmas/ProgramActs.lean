import Verif.Lemmas.ProgramDemo

/-! # Running concrete histories of the whole program, with the DHT

`Program.act` makes a step of a task and says what happened; used for examples only. -/

namespace Nargun.Program

open Nargun Dht Spec

/-- Which step is made. -/
inductive Act where
  | ev (e : Event)
  | datagram (sender : Option SockAddr) (bytes : Bytes)
  | command (tid : Bytes)
  | sends
  | putQuery
  | putAnswer
  | putCommand
  | takeQuery
  | takeAnswer
  | pass (d : Nat)
  | spawns (now : Nat)
  | tick
  | timeout
  | lookPass (d : Nat)
  | asks
  | hears
  | node

/-- The step of the DHT. -/
def act (w : World) (s : State) : Act → Option (Event × State)
  | .ev e => (attempt w s e).map fun s' => (e, s')
  | .datagram sender bytes =>
    if s.dht.conAlive = true ∧ s.dht.conTodo = [] then
      match s.dht.con.receive w.env sender bytes with
      | .ok (con', effs) =>
        some (.dht { con := some ⟨.datagram sender bytes, heardIn w.env con'.buf, effs⟩ },
          { s with dht := { s.nodes with con := con', conTodo := effs } })
      | _ => none
    else none
  | .command tid =>
    match s.dht.commands with
    | c :: rest =>
      if s.dht.conAlive = true ∧ s.dht.conTodo = [] ∧ tid.length = 5 then
        match s.dht.con.send w.env tid c with
        | .ok (con', effs) =>
          some (.dht { con := some ⟨.command tid c, none, effs⟩ },
            { s with dht := { s.nodes with con := con', conTodo := effs, commands := rest } })
        | _ => none
      else none
    | [] => none
  | .sends =>
    match s.dht.conTodo with
    | .datagram a b :: rest =>
      if s.dht.conAlive = true then
        some (.dht { sent := some (a, b) }, { s with dht := { s.nodes with conTodo := rest } })
      else none
    | _ => none
  | .putQuery =>
    match s.dht.conTodo with
    | .toManager q :: rest =>
      if s.dht.conAlive = true ∧ s.dht.man.status = .running ∧ s.dht.queries.length < DhtSystem.QUERIES_CAP then
        some (.dht {}, { s with dht := { s.nodes with conTodo := rest, queries := s.dht.queries ++ [q] } })
      else none
    | _ => none
  | .putAnswer =>
    match s.dht.conTodo with
    | .toRequester c r :: rest =>
      if s.dht.conAlive = true ∧ s.dht.man.status = .running ∧ (s.dht.answers c).length < DhtSystem.answersCap c then
        some (.dht {}, { s with dht := { s.nodes with
          conTodo := rest, answers := fun k => if k = c then s.dht.answers c ++ [r] else s.dht.answers k } })
      else none
    | _ => none
  | .putCommand =>
    match s.dht.manTodo with
    | .send c :: rest =>
      if s.dht.man.status = .running ∧ s.dht.conAlive = true ∧ s.dht.commands.length < DhtSystem.COMMANDS_CAP then
        some (.dht { put := some (.manager, c) },
          { s with dht := { s.nodes with manTodo := rest, commands := s.dht.commands ++ [c] } })
      else none
    | _ => none
  | .takeQuery =>
    match s.dht.queries with
    | q :: rest =>
      if s.dht.manTodo = [] ∧ s.dht.man.status = .running then
        match DhtManager.andThen (s.nodes.man.processQuery id q) with
        | .ok (man', outs) =>
          some (.dht { man := some ⟨.query q, outs⟩ },
            { s with dht := { s.nodes with man := man', manTodo := outs, queries := rest }, peers := man'.peers })
        | _ => none
      else none
    | [] => none
  | .takeAnswer =>
    match s.dht.answers DhtManager.OWN_CHANNEL with
    | r :: rest =>
      if s.dht.manTodo = [] ∧ s.dht.man.status = .running then
        match DhtManager.andThen (s.nodes.man.processResp r) with
        | .ok (man', outs) =>
          some (.dht { man := some ⟨.resp r, outs⟩ },
            { s with
              dht := { s.nodes with
                man := man', manTodo := outs
                answers := fun k => if k = DhtManager.OWN_CHANNEL then rest else s.dht.answers k }
              peers := man'.peers })
        | _ => none
      else none
    | [] => none
  | .pass d =>
    some (.dht { man := some ⟨.pass d, []⟩ },
      { s with dht := { s.nodes with man := { s.nodes.man with now := s.dht.man.now + d } } })
  | .spawns now =>
    match s.dht.manTodo with
    | .lookups ns :: rest =>
      if s.lookup.isNone = true ∧ s.dht.man.status = .running then
        some (.lookup ns now,
          { s with dht := { s.nodes with manTodo := rest },
                   lookup := some ⟨Fetch.start s.dht.man.infoHash w.port ns s.peers now, [], true⟩ })
      else none
    | _ => none
  | .tick =>
    match s.lookup with
    | some l =>
      match l.task.phase with
      | .sleeping since =>
        if l.alive = true ∧ l.todo = [] ∧ since + w.lookupPause l.task.rounds ≤ l.task.now then
          some (.look ⟨.tick, (s.looking l).askAll⟩,
            { s with lookup := some { l with
              task := { s.looking l with phase := .fetching l.task.now, rounds := l.task.rounds + 1 }
              todo := (s.looking l).askAll } })
        else none
      | _ => none
    | none => none
  | .timeout =>
    match s.lookup with
    | some l =>
      match l.task.phase with
      | .fetching since =>
        if l.alive = true ∧ l.todo = [] ∧ since + Fetch.ANSWER_TIMEOUT ≤ l.task.now then
          some (.look ⟨.timeout, (s.looking l).finish.2⟩,
            { s with lookup := some { l with task := (s.looking l).finish.1, todo := (s.looking l).finish.2 } })
        else none
      | _ => none
    | none => none
  | .lookPass d =>
    match s.lookup with
    | some l =>
      some (.look ⟨.pass d, []⟩,
        { s with lookup := some { l with task := { s.looking l with now := l.task.now + d } } })
    | none => none
  | .asks =>
    match s.lookup with
    | some l =>
      match l.todo with
      | (a, v) :: rest =>
        if l.alive = true ∧ s.dht.conAlive = true ∧ s.dht.commands.length < DhtSystem.COMMANDS_CAP then
          some (.asks a v,
            { s with dht := { s.nodes with commands := s.dht.commands ++ [.query LOOKUP_CHANNEL a v] },
                     lookup := some { l with todo := rest } })
        else none
      | [] => none
    | none => none
  | .hears =>
    match s.lookup with
    | some l =>
      match l.task.phase, s.dht.answers LOOKUP_CHANNEL with
      | .fetching _, r :: rest =>
        if l.alive = true ∧ l.todo = [] then
          some (.hears r ((s.looking l).receive r).2,
            { s with
              dht := { s.nodes with answers := fun k => if k = LOOKUP_CHANNEL then rest else s.dht.answers k }
              peers := ((s.looking l).receive r).1.peers
              lookup := some { l with task := ((s.looking l).receive r).1, todo := ((s.looking l).receive r).2 } })
        else none
      | _, _ => none
    | none => none
  | .node =>
    match s.swarm.dht with
    | a :: rest =>
      if s.swarm.dhtOpen = true ∧ s.dht.manTodo = [] ∧ s.dht.man.status = .running then
        match DhtManager.andThen (.ok (s.nodes.man, [DhtManager.ping a])) with
        | .ok (man', outs) =>
          some (.node a outs,
            { s with swarm := { s.torrent with dht := rest }
                     dht := { s.nodes with man := man', manTodo := outs } })
        | _ => none
      else none
    | [] => none

theorem act_turn {w : World} {s s' : State} {e : Event} {a : Act} (h : act w s a = some (e, s')) : Turn w s e s' := by
  cases a with
  | ev e' =>
    obtain ⟨s1, h1, h2⟩ := Option.map_eq_some_iff.mp h
    cases h2
    exact attempt_turn h1
  | datagram sender bytes =>
    simp only [act] at h
    split at h
    · next hc =>
      split at h
      · next hr =>
        cases h
        have := Turn.dht (w := w) (s := s) ⟨by simp, by simp, rfl, rfl⟩
          (.datagram (s := s.nodes) hc.1 hc.2 (.datagram (sender := sender) (bytes := bytes) hr))
        exact this
      · cases h
    · cases h
  | command tid =>
    simp only [act] at h
    split at h
    · next hl =>
      split at h
      · next hc =>
        split at h
        · next hr =>
          cases h
          have := Turn.dht (w := w) (s := s) ⟨by simp, by simp, rfl, rfl⟩
            (.command (s := s.nodes) hc.1 hc.2.1 hl (.command hc.2.2 hr))
          exact this
        · cases h
      · cases h
    · cases h
  | sends =>
    simp only [act] at h
    split at h
    · next hl =>
      split at h
      · next hc => cases h; exact .dht ⟨by simp, by simp, rfl, rfl⟩ (.sends (s := s.nodes) hc hl)
      · cases h
    · cases h
  | putQuery =>
    simp only [act] at h
    split at h
    · next hl =>
      split at h
      · next hc =>
        cases h
        exact .dht ⟨by simp, by simp, rfl, rfl⟩ (.putQuery (s := s.nodes) hc.1 hl (.inl hc.2.1) hc.2.2)
      · cases h
    · cases h
  | putAnswer =>
    simp only [act] at h
    split at h
    · next hl =>
      split at h
      · next hc =>
        cases h
        exact .dht ⟨by simp, by simp, rfl, rfl⟩ (.putAnswer (s := s.nodes) hc.1 hl (fun _ => .inl hc.2.1) hc.2.2)
      · cases h
    · cases h
  | putCommand =>
    simp only [act] at h
    split at h
    · next hl =>
      split at h
      · next hc =>
        cases h
        exact .dht ⟨by simp, by simp, rfl, rfl⟩ (.putCommand (s := s.nodes) hc.1 hl hc.2.1 hc.2.2)
      · cases h
    · cases h
  | takeQuery =>
    simp only [act] at h
    split at h
    · next hl =>
      split at h
      · next hc =>
        split at h
        · next hr =>
          cases h
          have := Turn.dht (w := w) (s := s) ⟨by rintro _ ⟨⟩; trivial, by simp, rfl, rfl⟩
            (.takeQuery (s := s.nodes) hc.1 hl (.query (shuffle := id) hc.2 (fun _ => .refl _) hr))
          exact this
        · cases h
      · cases h
    · cases h
  | takeAnswer =>
    simp only [act] at h
    split at h
    · next hl =>
      split at h
      · next hc =>
        split at h
        · next hr =>
          cases h
          have := Turn.dht (w := w) (s := s) ⟨by rintro _ ⟨⟩; trivial, by simp, rfl, rfl⟩
            (.takeAnswer (s := s.nodes) hc.1 hl (.resp hc.2 hr))
          exact this
        · cases h
      · cases h
    · cases h
  | pass d =>
    cases h
    exact .dht ⟨by rintro _ ⟨⟩; trivial, by simp, rfl, rfl⟩ (.outside (s := s.nodes) (ev := .pass d) trivial .pass)
  | spawns now =>
    simp only [act] at h
    split at h
    · next hl =>
      split at h
      · next hc =>
        cases h
        exact .lookup (by simpa using hc.1) (.spawns (s := s.nodes) hc.2 hl)
      · cases h
    · cases h
  | tick =>
    simp only [act] at h
    split at h
    · next l hl =>
      split at h
      · next hp =>
        split at h
        · next hc =>
          cases h
          have := Turn.look (w := w) hl hc.1 hc.2.1 (e := ⟨.tick, _⟩) trivial (.tick (s := s.looking l) hp hc.2.2)
          exact this
        · cases h
      · cases h
    · cases h
  | timeout =>
    simp only [act] at h
    split at h
    · next l hl =>
      split at h
      · next hp =>
        split at h
        · next hc =>
          cases h
          have := Turn.look (w := w) hl hc.1 hc.2.1 (e := ⟨.timeout, _⟩) trivial (.timeout (s := s.looking l) hp hc.2.2)
          exact this
        · cases h
      · cases h
    · cases h
  | lookPass d =>
    simp only [act] at h
    split at h
    · next l hl =>
      cases h
      have := Turn.lookIdle (w := w) hl (e := ⟨.pass d, _⟩) trivial (.pass (s := s.looking l) (d := d))
      exact this
    · cases h
  | asks =>
    simp only [act] at h
    split at h
    · next l hl =>
      split at h
      · next ht =>
        split at h
        · next hc =>
          cases h
          exact .asks hl hc.1 ht (.ask (s := s.nodes) (by decide) hc.2.1 hc.2.2)
        · cases h
      · cases h
    · cases h
  | hears =>
    simp only [act] at h
    split at h
    · next l hl =>
      split at h
      · next hp ha =>
        split at h
        · next hc =>
          cases h
          exact .hears hl hc.1 hc.2 (.hear (s := s.nodes) (by decide) ha) (.answer (s := s.looking l) hp)
        · cases h
      · cases h
    · cases h
  | node =>
    simp only [act] at h
    split at h
    · next hl =>
      split at h
      · next hc =>
        split at h
        · next hr =>
          cases h
          have := Turn.node (w := w) (s := s) (.dhtTakes (s := s.torrent) hl hc.1)
            (.direct (s := s.nodes) hc.2.1 trivial (.peerNode hc.2.2 hr))
          exact this
        · cases h
      · cases h
    · cases h

/-- Make all of these steps, as long as the process runs. -/
def acts (w : World) (s : State) : List Act → Option (List Event × State)
  | [] => some ([], s)
  | a :: as =>
    if s.down.phase = .done then none
    else (act w s a).bind fun r => (acts w r.2 as).map fun q => (r.1 :: q.1, q.2)

theorem acts_run {w : World} {as : List Act} : ∀ {s s' : State} {es}, acts w s as = some (es, s') → Run w s es s' := by
  induction as with
  | nil => intro s s' es h; cases h; exact .nil
  | cons a as ih =>
    intro s s' es h
    simp only [acts] at h
    split at h
    · cases h
    · next hp =>
      obtain ⟨⟨e1, s1⟩, h1, h2⟩ := Option.bind_eq_some_iff.mp h
      obtain ⟨⟨es2, s2⟩, h3, h4⟩ := Option.map_eq_some_iff.mp h2
      cases h4
      have : Run w s ([] ++ [e1]) s1 := .snoc .nil ⟨hp, act_turn h1⟩
      exact this.trans (ih h3)

/-- What `f` says about what happens and the state after these steps. -/
def play {α : Type} (w : World) (u : Setup) (as : List Act) (f : List Event → State → α) : Option α :=
  (startOf w u).bind fun s => (acts w s as).map fun r => f r.1 r.2

theorem play_sound {α : Type} {w : World} {u : Setup} {as : List Act} {f : List Event → State → α} {a : α}
    (h : play w u as f = some a) : ∃ s0 es s, Started w u s0 ∧ Run w s0 es s ∧ f es s = a := by
  obtain ⟨s0, h0, h⟩ := Option.bind_eq_some_iff.mp h
  obtain ⟨⟨es, s⟩, h1, h2⟩ := Option.map_eq_some_iff.mp h
  exact ⟨s0, es, s, startOf_started h0, acts_run h1, h2⟩

end Nargun.Program
