import Verif.Props.DhtSystem

/-! # Whether the DHT as a whole goes on -/

namespace Nargun

open Dht Krpc Spec DhtManager DhtSystem RoutingTable

section

variable {env : Env} {pause : Nat → Nat} {infoHash secret : ID} {table : RoutingTable} {peers : Peers}
  {os : List Peers.Op} {now : Nat} {h : List DhtSystem.Entry} {s : DhtSystem.State}

theorem system_append {s0 s1 s2 : DhtSystem.State} {h1 h2 : List DhtSystem.Entry} (h1r : DhtSystem.Run env pause s0 h1 s1)
    (h2r : DhtSystem.Run env pause s1 h2 s2) : DhtSystem.Run env pause s0 (h1 ++ h2) s2 := by
  induction h2r with
  | nil => rwa [List.append_nil]
  | snoc _ hs ih => rw [← List.append_assoc]; exact .snoc ih hs

theorem arrivals_append (h1 h2 : List DhtSystem.Entry) : arrivals (h1 ++ h2) = arrivals h1 ++ arrivals h2 :=
  List.filterMap_append

/-! ## C105 -/

/-- Once the connection is gone, nothing is sent or received. -/
theorem dead_run {s s' : DhtSystem.State} (hd : s.conAlive = false) (hr : DhtSystem.Run env pause s h s') :
    s'.conAlive = false ∧ sent h = [] ∧ arrivals h = [] := by
  induction hr with
  | nil => exact ⟨hd, rfl, rfl⟩
  | @snoc s1 s2 h e hr hs ih =>
    obtain ⟨i1, i2, i3⟩ := ih
    have key : s2.conAlive = false ∧ e.sent = none ∧ arrivals [e] = [] := by
      cases hs with
      | datagram ha => rw [i1] at ha; cases ha
      | panics ha => rw [i1] at ha; cases ha
      | command ha => rw [i1] at ha; cases ha
      | sends ha => rw [i1] at ha; cases ha
      | putQuery ha => rw [i1] at ha; cases ha
      | putAnswer ha => rw [i1] at ha; cases ha
      | noListener ha => rw [i1] at ha; cases ha
      | putCommand _ _ ha => rw [i1] at ha; cases ha
      | ask _ ha => rw [i1] at ha; cases ha
      | _ => exact ⟨i1, rfl, rfl⟩
    refine ⟨key.1, ?_, ?_⟩
    · rw [sent, List.filterMap_append, ← sent, i2]
      simp [key.2.1]
    · rw [arrivals_append, i3, key.2.2]; rfl

/-- Once the table task has failed, nothing is stored. -/
theorem failed_run {s s' : DhtSystem.State} (hd : s.man.status = .failed) (hr : DhtSystem.Run env pause s h s') :
    s'.man.status = .failed ∧ storedTables h = [] := by
  induction hr with
  | nil => exact ⟨hd, rfl⟩
  | @snoc s1 s2 h e hr hs ih =>
    obtain ⟨i1, i2⟩ := ih
    have man : ∀ {me m'}, DhtManager.Step pause s1.man me m' → m'.status = .failed := by
      intro me m' h
      cases h with
      | others => exact i1
      | pass => exact i1
      | reorder => exact i1
      | shutdown h => rw [i1] at h; cases h
      | refresh h => rw [i1] at h; cases h
      | peerNode h => rw [i1] at h; cases h
      | peersGone => rfl
      | query h => rw [i1] at h; cases h
      | resp h => rw [i1] at h; cases h
      | conGone => rfl
    have key : s2.man.status = .failed ∧ e.stored = none := by
      cases hs with
      | direct _ _ h => exact ⟨man h, rfl⟩
      | takeQuery _ _ h => exact ⟨man h, rfl⟩
      | takeAnswer _ _ h => exact ⟨man h, rfl⟩
      | conGone _ _ _ h => exact ⟨man h, rfl⟩
      | outside _ h => exact ⟨man h, rfl⟩
      | putFails _ _ h => exact ⟨man h, rfl⟩
      | stores h => rw [i1] at h; cases h
      | _ => exact ⟨i1, rfl⟩
    refine ⟨key.1, ?_⟩
    rw [storedTables, List.filterMap_append, ← storedTables, i2]
    simp [key.2]

/-- C105 is violated: whenever the connection is at its `select!`, one datagram of 36 bytes from any IPv4 address ends it,
and from then on, whatever happens, no datagram is sent or received. If nothing is waiting for the table task at that moment,
the task may fail before it learns of a shutdown, and then the table is never stored. -/
theorem C105_one_datagram_violated (hr : DhtSystem.Run env pause (State.start infoHash secret table peers now) h s)
    (ha : s.conAlive = true) (hc : s.conTodo = []) (a : SockAddr) :
    ∃ e s1, DhtSystem.Step env pause s e s1 ∧ arrivals [e] = [(some a, ascii "d1:ad2:id1:xe1:q4:ping1:t2:aa1:y1:qe")] ∧
      s1.man = s.man ∧
      (∀ h' s2, DhtSystem.Run env pause s1 h' s2 → sent h' = [] ∧ arrivals h' = []) ∧
      (s.man.status = .running → s.manTodo = [] → s.queries = [] →
        ∃ e1 s2, DhtSystem.Step env pause s1 e1 s2 ∧ s2.man.table = s.man.table ∧
          ∀ h' s3, DhtSystem.Run env pause s2 h' s3 → storedTables h' = []) := by
  have hf := Flow.run hr
  have hp := C95_short_id_violated env _ secret _ _ hf.con a
  refine ⟨_, _, .panics ha hc hp, rfl, rfl, fun h' s2 hr' => (dead_run rfl hr').2, fun hrun hm hq => ?_⟩
  refine ⟨_, _, .conGone hm rfl hq (.conGone hrun), rfl, fun h' s3 hr' => (failed_run rfl hr').2⟩

/-- The table task never runs again once it has ended. -/
theorem man_ended {m m' : Manager} {me : DhtManager.Entry} (h : DhtManager.Step pause m me m')
    (hm : m.status ≠ .running) : m'.status ≠ .running := by
  cases h with
  | others => exact hm
  | pass => exact hm
  | reorder => exact hm
  | shutdown h => exact absurd h hm
  | refresh h => exact absurd h hm
  | peerNode h => exact absurd h hm
  | peersGone h => exact absurd h hm
  | query h => exact absurd h hm
  | resp h => exact absurd h hm
  | conGone h => exact absurd h hm

/-- C105, partial: the connection only ever ends because the table task has ended, or because of a datagram after which
the buffer begins with a dictionary in which an identifier does not have 20 bytes. Missing: that such a datagram does not
end it. -/
theorem C105_survives_partial (hr : DhtSystem.Run env pause (State.start infoHash secret table peers now) h s)
    (hd : s.conAlive = false) :
    s.man.status ≠ .running ∨
    ∃ h1 e h2 s1 a bytes pairs rest, h = h1 ++ e :: h2 ∧
      DhtSystem.Run env pause (State.start infoHash secret table peers now) h1 s1 ∧ arrivals [e] = [(a, bytes)] ∧
      bytes.take s1.con.buf.length ++ s1.con.buf.drop bytes.length = bencode (.dict pairs) ++ rest ∧
      Canonical BENDY_DEFAULT_DEPTH (.dict pairs) ∧ ¬ Sized pairs := by
  generalize hs0 : State.start infoHash secret table peers now = s0 at hr
  induction hr with
  | nil => subst hs0; cases hd
  | @snoc s1 s2 h e hr hs ih =>
    have old : s1.conAlive = false → (s1.man.status ≠ .running → s2.man.status ≠ .running) → s2.man.status ≠ .running ∨
      ∃ h1 e' h2 s1 a bytes pairs rest, h ++ [e] = h1 ++ e' :: h2 ∧ DhtSystem.Run env pause s0 h1 s1 ∧
        arrivals [e'] = [(a, bytes)] ∧
        bytes.take s1.con.buf.length ++ s1.con.buf.drop bytes.length = bencode (.dict pairs) ++ rest ∧
        Canonical BENDY_DEFAULT_DEPTH (.dict pairs) ∧ ¬ Sized pairs := by
      intro h1 h2
      rcases ih h1 with h | ⟨l1, e', l2, s', a, bytes, pairs, rest, rfl, h⟩
      · exact .inl (h2 h)
      · exact .inr ⟨l1, e', l2 ++ [e], s', a, bytes, pairs, rest, by simp, h⟩
    have hr' := hr
    rw [← hs0] at hr'
    have hf := Flow.run hr'
    cases hs with
    | @panics a bytes ha hc hp =>
      refine .inr ?_
      have : ¬ ∀ pairs rest, bytes.take s1.con.buf.length ++ s1.con.buf.drop bytes.length = bencode (.dict pairs) ++ rest →
          Canonical BENDY_DEFAULT_DEPTH (.dict pairs) → Sized pairs := by
        intro hz
        obtain ⟨⟨s', effs, h1⟩, _⟩ := C95_survives_partial env s1.con hf.listening a bytes hz [] (.resp ⟨⟨⟨0, 0, 0, 0⟩, 0⟩, []⟩ .ping)
        rw [hp] at h1
        cases h1
      simp only [Classical.not_forall] at this
      obtain ⟨pairs, rest, h1, h2, h3⟩ := this
      exact ⟨h, { fatal := some (a, bytes) }, [], s1, a, bytes, pairs, rest, by simp, hr, rfl, h1, h2, h3⟩
    | noListener ha _ _ hn => exact .inl fun h => hn (.inl h)
    | direct _ _ h => exact old hd (man_ended h)
    | takeQuery _ _ h => exact old hd (man_ended h)
    | takeAnswer _ _ h => exact old hd (man_ended h)
    | conGone _ _ _ h => exact old hd (man_ended h)
    | outside _ h => exact old hd (man_ended h)
    | putFails _ _ h => exact old hd (man_ended h)
    | _ => exact old hd id

/-! ## C92 -/

/-- Both tasks wait for room in each other's queue. -/
structure Stuck (s : DhtSystem.State) : Prop where
  alive : s.conAlive = true
  running : s.man.status = .running
  con : ∃ q rest, s.conTodo = .toManager q :: rest
  man : ∃ c rest, s.manTodo = .send c :: rest
  queries : QUERIES_CAP ≤ s.queries.length
  commands : COMMANDS_CAP ≤ s.commands.length

/-- Nothing resolves this. -/
theorem stuck_step {s s' : DhtSystem.State} {e : DhtSystem.Entry} (hs : Stuck s) (h : DhtSystem.Step env pause s e s') :
    Stuck s' ∧ e.sent = none ∧ e.stored = none ∧ arrivals [e] = [] ∧ turns [e] = [] := by
  obtain ⟨ha, hr, ⟨q, rest, hc⟩, ⟨c, rest', hm⟩, hq, hk⟩ := hs
  cases h with
  | datagram _ h => rw [hc] at h; cases h
  | panics _ h => rw [hc] at h; cases h
  | command _ h => rw [hc] at h; cases h
  | reorder => exact ⟨⟨ha, hr, ⟨q, rest, hc⟩, ⟨c, rest', hm⟩, hq, hk⟩, rfl, rfl, rfl, rfl⟩
  | sends _ h => rw [hc] at h; cases h
  | putQuery _ _ _ h => exact absurd h (Nat.not_lt.mpr hq)
  | putAnswer _ h => rw [hc] at h; cases h
  | noListener _ _ _ h => exact absurd (.inl hr) h
  | direct h => rw [hm] at h; cases h
  | takeQuery h => rw [hm] at h; cases h
  | takeAnswer h => rw [hm] at h; cases h
  | conGone h => rw [hm] at h; cases h
  | outside ho h =>
    cases h with
    | others h => exact ⟨⟨ha, hr, ⟨q, rest, hc⟩, ⟨c, rest', hm⟩, hq, hk⟩, rfl, rfl, rfl, rfl⟩
    | pass => exact ⟨⟨ha, hr, ⟨q, rest, hc⟩, ⟨c, rest', hm⟩, hq, hk⟩, rfl, rfl, rfl, rfl⟩
    | reorder h => exact ⟨⟨ha, hr, ⟨q, rest, hc⟩, ⟨c, rest', hm⟩, hq, hk⟩, rfl, rfl, rfl, rfl⟩
    | _ => exact absurd ho id
  | putCommand _ _ _ h => exact absurd h (Nat.not_lt.mpr hk)
  | putFails _ h => rw [ha] at h; cases h
  | spawns _ h => rw [hm] at h; cases h
  | stores _ h => rw [hm] at h; cases h
  | ask _ _ h => exact absurd h (Nat.not_lt.mpr hk)
  | hear => exact ⟨⟨ha, hr, ⟨q, rest, hc⟩, ⟨c, rest', hm⟩, hq, hk⟩, rfl, rfl, rfl, rfl⟩

theorem stuck_run {s s' : DhtSystem.State} (hs : Stuck s) (hr : DhtSystem.Run env pause s h s') :
    Stuck s' ∧ sent h = [] ∧ storedTables h = [] ∧ arrivals h = [] ∧ turns h = [] := by
  induction hr with
  | nil => exact ⟨hs, rfl, rfl, rfl, rfl⟩
  | @snoc s1 s2 h e hr h1 ih =>
    obtain ⟨i1, i2, i3, i4, i5⟩ := ih
    obtain ⟨k1, k2, k3, k4, k5⟩ := stuck_step i1 h1
    refine ⟨k1, ?_, ?_, ?_, ?_⟩
    · rw [sent, List.filterMap_append, ← sent, i2]; simp [k2]
    · rw [storedTables, List.filterMap_append, ← storedTables, i3]; simp [k3]
    · rw [arrivals_append, i4, k4]; rfl
    · have : turns (h ++ [e]) = turns h ++ turns [e] := by simp [turns, manHistory, List.filterMap_append]
      rw [this, i5, k5]; rfl

/-- What a `find_node` does to an idle connection. -/
theorem recv_find (hint : ∀ n : Nat, n < 2 ^ 32 → env.lib.intOk n = true) (hu : env.lib.utf8 (ascii "find_node") = true)
    {own secret : ID} {c : Con} (hi : Inv own secret c) (hl : c.listening none = true) (a : SockAddr) (id x : ID) (t : Bytes)
    (hb : (Message.findNodesQuery id x t).intoBytes.length ≤ 2 * 1300) :
    ∃ hd c', Con.Step env c ⟨.datagram (some a) (Message.findNodesQuery id x t).intoBytes, hd,
      [.toManager (.findNode x ⟨a, t⟩)]⟩ c' := by
  have ht : t.length < 2 ^ 64 := by
    have : t.length ≤ (Message.findNodesQuery id x t).intoBytes.length := by
      simp only [Krpc.Message.intoBytes, Krpc.Message.findNodesQuery, Krpc.Message.val, bencode, bencodePairs,
        bencodeStr, List.length_append, List.length_cons]
      omega
    exact Nat.lt_of_le_of_lt (Nat.le_trans this hb) (by decide)
  have hdec : Message.fromBytes env.lib (bufAfter c (Message.findNodesQuery id x t).intoBytes) =
      .ok (Message.findNodesQuery id x t) := by
    obtain ⟨tail, hb⟩ := bufAfter_prefix (s := c) (v := (Message.findNodesQuery id x t).val) (rest := []) hi.buf hb
    rw [List.append_nil] at hb
    rw [Krpc.Message.intoBytes, hb]
    exact C71_round_trip_partial env.lib hint (Message.findNodesQuery id x t) ⟨ht, by decide +kernel, hu, by decide +kernel, trivial⟩ tail
  have hrec : c.receive env (some a) (Message.findNodesQuery id x t).intoBytes =
      .ok ({ c with buf := bufAfter c (Message.findNodesQuery id x t).intoBytes }, [.toManager (.findNode x ⟨a, t⟩)]) := by
    simp only [Con.receive, Con.handleReceived]
    change (match Message.fromBytes env.lib (bufAfter c (Message.findNodesQuery id x t).intoBytes) with
      | .panic => _
      | .err => _
      | .ok (.query tid _ _ arguments) => _
      | .ok (.response tid _ response) => _
      | .ok (.error _ _ _) => _) = _
    rw [hdec]
    simp only [Message.findNodesQuery, Con.handleQuery, Con.into, hl, if_true]
    rfl
  exact ⟨_, _, .datagram hrec⟩

/-- Both tasks are at the beginning of their loops and nothing waits for the table task. -/
structure Calm (x : ID) (k : Nat) (s : DhtSystem.State) : Prop where
  alive : s.conAlive = true
  running : s.man.status = .running
  con : s.conTodo = []
  man : s.manTodo = []
  queries : s.queries = []
  commands : s.commands.length = k
  known : ∃ n ∈ s.man.table.iterNodes, n.id = x

/-- What the table task does with a question for a stored node. -/
theorem turn_find {infoHash x : ID} {m : Manager} (hb : Base infoHash m) (hrun : m.status = .running)
    (hk : ∃ n ∈ m.table.iterNodes, n.id = x) (qid : QueryId) :
    ∃ v m' o, DhtManager.Step pause m ⟨.query (.findNode x qid), .send (.resp qid v) :: o⟩ m' ∧ m'.status = .running ∧
      m'.table = m.table ∧ (o = [] ∨ ∃ ns, o = [.lookups ns]) := by
  obtain ⟨n, hn, rfl⟩ := hk
  obtain ⟨w, o, he, hs⟩ := andThen_spec hb.reach [.send (.resp qid (.findNode (.exact n)))]
  refine ⟨.findNode (.exact n), { m with since := m.now, waitForGood := w }, o,
    .query (shuffle := id) hrun (fun l => .refl _) ?_, ?_, ?_, ?_⟩
  · simp only [Manager.processQuery, C65_find_exact m.table hb.reach m.now n hn, Res.ok_bind, Option.map_some,
      Option.toList_some]
    exact he
  · exact hrun
  · rfl
  · rcases hs with ⟨_, _, _, ns, h, _⟩ | ⟨_, _, h⟩
    · exact .inr ⟨ns, h⟩
    · exact .inl h

/-- The tasks of the DHT do this by themselves, apart from what arrives at the socket. -/
structure Alone (e : DhtSystem.Entry) : Prop where
  man : ∀ m, e.man = some m → (∃ q, m.event = .query q) ∨ ∃ r, m.event = .resp r
  put : ∀ c, e.put ≠ some (.other, c)
  heard : e.heard = none

theorem alone_append {h1 h2 : List DhtSystem.Entry} (a1 : ∀ e ∈ h1, Alone e) (a2 : ∀ e ∈ h2, Alone e) :
    ∀ e ∈ h1 ++ h2, Alone e := fun e he => (List.mem_append.mp he).elim (a1 e) (a2 e)

theorem alone_con {c : Option Dht.Entry} : Alone { con := c } := ⟨by simp, by simp, rfl⟩

theorem alone_query {q : FromConQuery} {o : List Out} : Alone { man := some ⟨.query q, o⟩ } :=
  ⟨by rintro m h; cases h; exact .inl ⟨_, rfl⟩, by simp, rfl⟩

theorem alone_put {c : ToCon} : Alone { put := some (.manager, c) } := ⟨by simp, by simp, rfl⟩

theorem alone_spawns {ns : List Node} : Alone { spawned := some ns } := ⟨by simp, by simp, rfl⟩

/-- The flood, first part: the queue of commands grows. -/
theorem flood_commands (ht : Reachable table) (hp : Peers.Run (.new infoHash) os peers)
    (hint : ∀ n : Nat, n < 2 ^ 32 → env.lib.intOk n = true) (hu : env.lib.utf8 (ascii "find_node") = true)
    (hr : DhtSystem.Run env pause (State.start infoHash secret table peers now) h s) (a : SockAddr) (id x : ID) (t : Bytes)
    (hb : (Message.findNodesQuery id x t).intoBytes.length ≤ 2 * 1300) {k : Nat} (hc : Calm x k s) (hk : k < COMMANDS_CAP) :
    ∃ h' s', DhtSystem.Run env pause s h' s' ∧ Calm x (k + 1) s' ∧
      arrivals h' = [(some a, (Message.findNodesQuery id x t).intoBytes)] ∧ sent h' = [] ∧ ∀ e ∈ h', Alone e := by
  have hf := Flow.run hr
  have hbase := (Base.start (now := now) ht hp).run hf.man
  obtain ⟨hd, c', hs1⟩ := recv_find hint hu ((Inv.start _ _).run hf.con) (hf.listening none) a id x t hb
  obtain ⟨v, m', o, hs2, hm1, hm2, ho⟩ := turn_find (pause := pause) hbase hc.running hc.known ⟨a, t⟩
  have r1 := (DhtSystem.Run.nil (env := env) (pause := pause) (s := s)).snoc (.datagram hc.alive hc.con hs1)
  have r2 := r1.snoc (.putQuery hc.alive rfl (.inl hc.running) (by show s.queries.length < _; rw [hc.queries]; decide))
  have r3 := r2.snoc (.takeQuery (rest := []) hc.man (by show s.queries ++ _ = _; rw [hc.queries]; rfl) hs2)
  have r4 := r3.snoc (.putCommand hm1 rfl hc.alive (by show s.commands.length < _; rw [hc.commands]; exact hk))
  rcases ho with rfl | ⟨ns, rfl⟩
  · exact ⟨_, _, r4, ⟨hc.alive, hm1, rfl, rfl, rfl, by show (s.commands ++ _).length = _; rw [List.length_append, hc.commands]; rfl,
      by show ∃ n ∈ m'.table.iterNodes, _; rw [hm2]; exact hc.known⟩, rfl, rfl, by
      simpa using ⟨alone_con, alone_con, alone_query, alone_put⟩⟩
  · have r5 := r4.snoc (.spawns hm1 rfl)
    exact ⟨_, _, r5, ⟨hc.alive, hm1, rfl, rfl, rfl, by show (s.commands ++ _).length = _; rw [List.length_append, hc.commands]; rfl,
      by show ∃ n ∈ m'.table.iterNodes, _; rw [hm2]; exact hc.known⟩, rfl, rfl, by
      simpa using ⟨alone_con, alone_con, alone_query, alone_put, alone_spawns⟩⟩

theorem flood_to_full (ht : Reachable table) (hp : Peers.Run (.new infoHash) os peers)
    (hint : ∀ n : Nat, n < 2 ^ 32 → env.lib.intOk n = true) (hu : env.lib.utf8 (ascii "find_node") = true)
    (a : SockAddr) (id x : ID) (t : Bytes)
    (hb : (Message.findNodesQuery id x t).intoBytes.length ≤ 2 * 1300) (j : Nat) : ∀ {k : Nat} {h s},
    DhtSystem.Run env pause (State.start infoHash secret table peers now) h s → Calm x k s → k + j ≤ COMMANDS_CAP →
    ∃ h' s', DhtSystem.Run env pause s h' s' ∧ Calm x (k + j) s' ∧
      arrivals h' = List.replicate j (some a, (Message.findNodesQuery id x t).intoBytes) ∧ sent h' = [] ∧ ∀ e ∈ h', Alone e := by
  induction j with
  | zero => exact fun hr hc _ => ⟨[], _, .nil, hc, rfl, rfl, by simp⟩
  | succ j ih =>
    intro k h s hr hc hk
    obtain ⟨h1, s1, r1, c1, a1, b1, l1⟩ := flood_commands ht hp hint hu hr a id x t hb hc (by omega)
    obtain ⟨h2, s2, r2, c2, a2, b2, l2⟩ := ih (system_append hr r1) c1 (by omega)
    refine ⟨h1 ++ h2, s2, system_append r1 r2, ?_, ?_, by rw [sent_append, b1, b2]; rfl, alone_append l1 l2⟩
    · rw [show k + (j + 1) = k + 1 + j by omega]; exact c2
    · rw [arrivals_append, a1, a2]; rfl

/-- The table task waits; the queue of queries holds `k`. -/
structure Waits (k : Nat) (s : DhtSystem.State) : Prop where
  alive : s.conAlive = true
  running : s.man.status = .running
  con : s.conTodo = []
  man : ∃ c rest, s.manTodo = .send c :: rest
  queries : s.queries.length = k
  commands : COMMANDS_CAP ≤ s.commands.length

theorem flood_queries (hint : ∀ n : Nat, n < 2 ^ 32 → env.lib.intOk n = true)
    (hu : env.lib.utf8 (ascii "find_node") = true) (a : SockAddr) (id x : ID) (t : Bytes)
    (hb : (Message.findNodesQuery id x t).intoBytes.length ≤ 2 * 1300) (j : Nat) : ∀ {k : Nat} {h s},
    DhtSystem.Run env pause (State.start infoHash secret table peers now) h s → Waits k s → k + j ≤ QUERIES_CAP →
    ∃ h' s', DhtSystem.Run env pause s h' s' ∧ Waits (k + j) s' ∧
      arrivals h' = List.replicate j (some a, (Message.findNodesQuery id x t).intoBytes) ∧ sent h' = [] ∧ ∀ e ∈ h', Alone e := by
  induction j with
  | zero => exact fun hr hc _ => ⟨[], _, .nil, hc, rfl, rfl, by simp⟩
  | succ j ih =>
    intro k h s hr hc hk
    have hf := Flow.run hr
    obtain ⟨hd, c', hs1⟩ := recv_find hint hu ((Inv.start _ _).run hf.con) (hf.listening none) a id x t hb
    have r1 := (DhtSystem.Run.nil (env := env) (pause := pause) (s := s)).snoc (.datagram hc.alive hc.con hs1)
    have r2 := r1.snoc (.putQuery hc.alive rfl (.inl hc.running)
      (by show s.queries.length < _; rw [hc.queries]; omega))
    obtain ⟨h3, s3, r3, c3, a3, b3, l3⟩ := ih (k := k + 1) (system_append hr r2) ⟨hc.alive, hc.running, rfl, hc.man, by
      show (s.queries ++ _).length = _; rw [List.length_append, hc.queries]; rfl, hc.commands⟩ (by omega)
    refine ⟨_, s3, system_append r2 r3, ?_, ?_, by rw [sent_append, b3]; rfl,
      alone_append (by simpa using ⟨alone_con, alone_con⟩) l3⟩
    · rw [show k + (j + 1) = k + 1 + j by omega]; exact c3
    · rw [arrivals_append, a3]; rfl

/-- The flood brings the DHT to a stop. -/
theorem flood_stuck (ht : Reachable table) (hp : Peers.Run (.new infoHash) os peers)
    (hint : ∀ n : Nat, n < 2 ^ 32 → env.lib.intOk n = true) (hu : env.lib.utf8 (ascii "find_node") = true)
    (hr : DhtSystem.Run env pause (State.start infoHash secret table peers now) h s)
    (halive : s.conAlive = true) (hrun : s.man.status = .running) (hcon : s.conTodo = []) (hman : s.manTodo = [])
    (hq : s.queries = []) (x : Node) (hx : x ∈ s.man.table.iterNodes) (a : SockAddr) (id : ID) (t : Bytes)
    (hb : (Message.findNodesQuery id x.id t).intoBytes.length ≤ 2 * 1300) :
    ∃ h' s', DhtSystem.Run env pause s h' s' ∧
      arrivals h' = List.replicate (2 ^ 10 - s.commands.length + 2 ^ 8 + 2)
        (some a, (Message.findNodesQuery id x.id t).intoBytes) ∧ sent h' = [] ∧ Stuck s' ∧ ∀ e ∈ h', Alone e := by
  have hcap : s.commands.length ≤ COMMANDS_CAP := (C106_queues hr).2.2.2.2.2.2.1
  obtain ⟨h1, s1, r1, c1, a1, b1, l1⟩ := flood_to_full ht hp hint hu a id x.id t hb (COMMANDS_CAP - s.commands.length) hr
    ⟨halive, hrun, hcon, hman, hq, rfl, x, hx, rfl⟩ (by omega)
  have hr1 := system_append hr r1
  have hf := Flow.run hr1
  have hbase := (Base.start (now := now) ht hp).run hf.man
  obtain ⟨hd, c', hs1⟩ := recv_find hint hu ((Inv.start _ _).run hf.con) (hf.listening none) a id x.id t hb
  obtain ⟨v, m', o, hs2, hm1, hm2, ho⟩ := turn_find (pause := pause) hbase c1.running c1.known ⟨a, t⟩
  have q1 := r1.snoc (.datagram c1.alive c1.con hs1)
  have q2 := q1.snoc (.putQuery c1.alive rfl (.inl c1.running) (by show s1.queries.length < _; rw [c1.queries]; decide))
  have q3 := q2.snoc (.takeQuery (rest := []) c1.man (by show s1.queries ++ _ = _; rw [c1.queries]; rfl) hs2)
  obtain ⟨h3, s3, r3, w3, a3, b3, l3⟩ := flood_queries hint hu a id x.id t hb QUERIES_CAP (k := 0) (system_append hr q3)
    ⟨c1.alive, hm1, rfl, ⟨_, _, rfl⟩, rfl, by show _ ≤ s1.commands.length; rw [c1.commands]; omega⟩ (by omega)
  have q4 := system_append q3 r3
  have hr4 := system_append hr q4
  have hf4 := Flow.run hr4
  obtain ⟨hd5, c5, hs5⟩ := recv_find hint hu ((Inv.start _ _).run hf4.con) (hf4.listening none) a id x.id t hb
  have q5 := q4.snoc (.datagram w3.alive w3.con hs5)
  refine ⟨_, _, q5, ?_, ?_, ⟨w3.alive, w3.running, ⟨_, _, rfl⟩, w3.man,
      by show _ ≤ s3.queries.length; rw [w3.queries]; omega, w3.commands⟩, ?_⟩
  · rw [arrivals_append, arrivals_append, arrivals_append, arrivals_append, arrivals_append, a1, a3,
      show 2 ^ 10 - s.commands.length + 2 ^ 8 + 2 = (COMMANDS_CAP - s.commands.length) + 1 + QUERIES_CAP + 1 from rfl,
      List.replicate_succ', ← List.replicate_append_replicate, List.replicate_succ']
    simp [arrivals]
  · rw [sent_append, sent_append, sent_append, sent_append, sent_append, b1, b3]; rfl
  · exact alone_append (alone_append (alone_append (alone_append (alone_append l1 (by simpa using alone_con))
      (by simpa using alone_con)) (by simpa using alone_query)) l3) (by simpa using alone_con)

/-- C92 is violated: whenever both tasks are at the beginning of their loops, nothing waits for the table task and the table
holds a node, copies of one small datagram that asks for this node, at most 1282 of them, can bring the DHT to a stop:
with some schedule, from then on, whatever happens, no datagram is sent or received and the table task does nothing more, not
even upon the shutdown signal, so the table is not stored. -/
theorem C92_deadlock_violated (ht : Reachable table) (hp : Peers.Run (.new infoHash) os peers)
    (hint : ∀ n : Nat, n < 2 ^ 32 → env.lib.intOk n = true) (hu : env.lib.utf8 (ascii "find_node") = true)
    (hr : DhtSystem.Run env pause (State.start infoHash secret table peers now) h s)
    (halive : s.conAlive = true) (hrun : s.man.status = .running) (hcon : s.conTodo = []) (hman : s.manTodo = [])
    (hq : s.queries = []) (x : Node) (hx : x ∈ s.man.table.iterNodes) (a : SockAddr) (id : ID) (t : Bytes)
    (hb : (Message.findNodesQuery id x.id t).intoBytes.length ≤ 2 * 1300) :
    ∃ h' s', DhtSystem.Run env pause s h' s' ∧
      arrivals h' = List.replicate (2 ^ 10 - s.commands.length + 2 ^ 8 + 2)
        (some a, (Message.findNodesQuery id x.id t).intoBytes) ∧
      s'.conAlive = true ∧ s'.man.status = .running ∧
      ∀ h'' s'', DhtSystem.Run env pause s' h'' s'' →
        sent h'' = [] ∧ arrivals h'' = [] ∧ turns h'' = [] ∧ storedTables h'' = [] := by
  obtain ⟨h', s', r, ha, _, hst, _⟩ := flood_stuck ht hp hint hu hr halive hrun hcon hman hq x hx a id t hb
  refine ⟨h', s', r, ha, hst.alive, hst.running, fun h'' s'' hr'' => ?_⟩
  obtain ⟨_, g1, g2, g3, g4⟩ := stuck_run hst hr''
  exact ⟨g1, g3, g4, g2⟩

/-! ### Draining -/

/-- Only the first thing the connection has to do concerns a queue; a running table task has nothing to write. -/
structure Shape (s : DhtSystem.State) : Prop where
  con : ∀ e ∈ s.conTodo.tail, ∃ a b, e = Effect.datagram a b
  man : s.man.status = .running → ∀ t, Out.stored t ∉ s.manTodo

theorem shape_effects {c c' : Con} {e : Dht.Entry} (hs : Con.Step env c e c') :
    ∀ f ∈ e.effects.tail, ∃ a b, f = Effect.datagram a b := by
  cases hs with
  | @datagram _ sender bytes effs hrec =>
    obtain ⟨h1, h2⟩ := receive_ok hrec
    revert h2
    split
    · rename_i a t y m args _ hh
      rintro ⟨_, hq⟩
      cases args with
      | ping id => simp only [QueryEffects] at hq; subst hq; simp
      | findNode id target => obtain ⟨rfl, _⟩ := hq; simp
      | getPeers id ih => obtain ⟨rfl, _⟩ := hq; simp
      | announcePeer id ih port token =>
        simp only [QueryEffects] at hq
        split at hq
        · obtain ⟨rfl, _⟩ := hq; simp
        · subst hq; simp
    · rintro (⟨c', _, _, rfl, _⟩ | ⟨_, _, rfl⟩) <;> simp
    · rintro ⟨_, rfl⟩; simp
  | @command _ tid cmd effs htid hc =>
    cases cmd with
    | query c' target v => rw [send_query_eq] at hc; cases hc; simp
    | resp qid v => rw [send_resp_eq] at hc; cases hc; simp
  | closed => simp
  | reorder => simp

theorem tail_shape {e : Effect} {rest : List Effect} (h : ∀ f ∈ (e :: rest).tail, ∃ a b, f = Effect.datagram a b) :
    ∀ f ∈ rest.tail, ∃ a b, f = Effect.datagram a b := fun f hf => h f (List.mem_of_mem_tail hf)

theorem shape_outs {infoHash : ID} {m m' : Manager} {me : DhtManager.Entry} (hb : Base infoHash m)
    (hs : DhtManager.Step pause m me m') (hr : m'.status = .running) (t : RoutingTable) : Out.stored t ∉ me.outputs := by
  intro ht
  have hst : t ∈ stored me.outputs := List.mem_filterMap.mpr ⟨_, ht, rfl⟩
  cases hs.kind hb.reach with
  | @turn ev m1 o1 w o2 hrun hm hl =>
    rw [stored_append, (mid_only hb hm).2, (lookups_only hl).2.2] at hst
    simp at hst
  | shutdown => cases hr
  | gone => simp at ht
  | others => simp at ht
  | pass => simp at ht
  | reorder => simp at ht

theorem shape_run (ht : Reachable table) (hp : Peers.Run (.new infoHash) os peers)
    (hr : DhtSystem.Run env pause (State.start infoHash secret table peers now) h s) : Shape s := by
  generalize hs0 : State.start infoHash secret table peers now = s0 at hr
  induction hr with
  | nil => subst hs0; exact ⟨by simp [State.start], fun _ t => by simp [State.start, startOutputs, ping]⟩
  | @snoc s1 s2 h e hr hs ih =>
    have hr' := hr
    rw [← hs0] at hr'
    have hb := (Base.start (now := now) ht hp).run (Flow.run hr').man
    have back : ∀ {me m'}, DhtManager.Step pause s1.man me m' → m'.status = .running → s1.man.status = .running := by
      intro me m' h h'
      refine Decidable.byContradiction fun hn => ?_
      exact man_ended h hn h'
    cases hs with
    | datagram _ _ hc => exact ⟨shape_effects hc, ih.man⟩
    | panics => exact ⟨ih.con, ih.man⟩
    | command _ _ _ hc => exact ⟨shape_effects hc, ih.man⟩
    | reorder => exact ⟨ih.con, ih.man⟩
    | sends _ he => have := ih.con; rw [he] at this; exact ⟨tail_shape this, ih.man⟩
    | putQuery _ he => have := ih.con; rw [he] at this; exact ⟨tail_shape this, ih.man⟩
    | putAnswer _ he => have := ih.con; rw [he] at this; exact ⟨tail_shape this, ih.man⟩
    | noListener => exact ⟨ih.con, ih.man⟩
    | direct _ _ hm => exact ⟨ih.con, fun hr t => shape_outs hb hm hr t⟩
    | takeQuery _ _ hm => exact ⟨ih.con, fun hr t => shape_outs hb hm hr t⟩
    | takeAnswer _ _ hm => exact ⟨ih.con, fun hr t => shape_outs hb hm hr t⟩
    | conGone _ _ _ hm => exact ⟨ih.con, fun hr => ih.man (back hm hr)⟩
    | outside _ hm => exact ⟨ih.con, fun hr => ih.man (back hm hr)⟩
    | putCommand hrun he =>
      refine ⟨ih.con, fun hr t ht => ih.man hrun t ?_⟩
      rw [he]; exact List.mem_cons_of_mem _ ht
    | putFails _ _ hm => exact ⟨ih.con, fun hr => ih.man (back hm hr)⟩
    | spawns hrun he =>
      refine ⟨ih.con, fun hr t ht => ih.man hrun t ?_⟩
      rw [he]; exact List.mem_cons_of_mem _ ht
    | stores hrun he => exact ⟨ih.con, fun hr => by rw [show s1.man.status = _ from hrun] at hr; cases hr⟩
    | ask => exact ⟨ih.con, ih.man⟩
    | hear => exact ⟨ih.con, ih.man⟩

/-- The work an output makes. -/
def outWork : Out → Nat
  | .send _ => 3
  | _ => 1

/-- The work an answer makes. -/
def respWork : FromConResp → Nat
  | .newNodes nodes _ _ => 3 * nodes.list.length + 2
  | _ => 2

/-- The work an effect makes. -/
def effectWork : Effect → Nat
  | .datagram _ _ => 1
  | .toManager _ => 6
  | .toRequester _ r => respWork r + 1

/-- The work that is left. -/
def work (s : DhtSystem.State) : Nat :=
  (s.conTodo.map effectWork).sum + (s.manTodo.map outWork).sum + 2 * s.commands.length + 5 * s.queries.length +
    ((s.answers OWN_CHANNEL).map respWork).sum

theorem unknown_length {t : RoutingTable} {ns : List Node} {us : List SockAddr} (h : unknownAddresses t ns = .ok us) :
    us.length ≤ ns.length := by
  induction ns generalizing us with
  | nil => cases h; simp
  | cons n ns ih =>
    simp only [unknownAddresses, Res.bind_eq_ok] at h
    obtain ⟨k, _, r, h1, h2⟩ := h
    cases h2
    have := ih h1
    split <;> simp only [List.length_cons] <;> omega

theorem pings_work (us : List SockAddr) : ((us.map ping).map outWork).sum = 3 * us.length := by
  induction us with
  | nil => rfl
  | cons a us ih =>
    rw [List.map_cons, List.map_cons, List.sum_cons, ih, List.length_cons]
    show 3 + _ = _
    omega

theorem lookups_work {m : Manager} {w : Bool} {o : List Out} (h : Lookups m w o) : (o.map outWork).sum ≤ 1 := by
  rcases h with ⟨_, _, _, ns, rfl, _⟩ | ⟨_, _, rfl⟩ <;> simp [outWork]

theorem query_work {infoHash : ID} {m m' : Manager} {q : FromConQuery} {outs : List Out} (hb : Base infoHash m)
    (hs : DhtManager.Step pause m ⟨.query q, outs⟩ m') : (outs.map outWork).sum < 5 := by
  obtain ⟨shuffle, m1, o1, w, o2, _, he, rfl, hl, rfl⟩ := query_step hb hs
  have h2 := lookups_work hl
  have h1 : (o1.map outWork).sum ≤ 3 := by
    cases q with
    | findNode target qid =>
      simp only [Manager.processQuery, Res.bind_eq_ok] at he
      obtain ⟨o, _, he⟩ := he
      cases he
      cases o <;> simp [outWork]
    | getPeers ih qid =>
      simp only [Manager.processQuery] at he
      split at he
      · cases he; simp [outWork]
      · simp only [Res.bind_eq_ok] at he
        obtain ⟨o, _, he⟩ := he
        cases he
        cases o <;> simp [outWork]
    | newPeer p ih =>
      simp only [Manager.processQuery] at he
      cases he; simp
  rw [List.map_append, List.sum_append]
  omega

theorem resp_work {infoHash : ID} {m m' : Manager} {r : FromConResp} {outs : List Out} (hb : Base infoHash m)
    (hs : DhtManager.Step pause m ⟨.resp r, outs⟩ m') : (outs.map outWork).sum < respWork r := by
  have hk := hs.kind hb.reach
  generalize hee : (⟨.resp r, outs⟩ : DhtManager.Entry) = e at hk
  cases hk with
  | @turn ev m1 o1 w o2 hrun hm hl =>
    cases hee
    have h2 := lookups_work hl
    have h1 : (o1.map outWork).sum + 1 < respWork r := by
      cases hm with
      | resp he =>
        cases r with
        | touch id a =>
          simp only [Manager.processResp, Res.bind_eq_ok] at he
          obtain ⟨_, _, he⟩ := he; cases he; simp [respWork]
        | newNodes ns a id =>
          simp only [Manager.processResp, Res.bind_eq_ok] at he
          obtain ⟨_, _, us, hu, he⟩ := he
          cases he
          have := unknown_length hu
          have hsum := pings_work us
          rw [hsum]
          simp only [respWork]
          omega
        | getPeers a t vn => simp only [Manager.processResp] at he; cases he; simp [respWork]
    rw [List.map_append, List.sum_append]
    omega
  | shutdown => cases hee
  | gone _ hev => rcases hev with rfl | rfl <;> cases hee
  | others => cases hee
  | pass => cases hee
  | reorder => cases hee

/-- What the connection does next has room. -/
def Room (s : DhtSystem.State) : Prop :=
  (∀ q rest, s.conTodo = .toManager q :: rest → s.queries.length < 256) ∧
  ∀ c r rest, s.conTodo = .toRequester c r :: rest → (s.answers c).length < if c = OWN_CHANNEL then 1024 else 64

theorem room_datagrams {s : DhtSystem.State} (h : ∀ e ∈ s.conTodo, ∃ a b, e = Effect.datagram a b) : Room s := by
  constructor
  · intro q rest he
    obtain ⟨a, b, h⟩ := h (.toManager q) (by rw [he]; simp)
    cases h
  · intro c r rest he
    obtain ⟨a, b, h⟩ := h (.toRequester c r) (by rw [he]; simp)
    cases h

/-- Unless nothing is waiting, something can be done about it. -/
theorem drain_step (ht : Reachable table) (hp : Peers.Run (.new infoHash) os peers)
    (hr : DhtSystem.Run env pause (State.start infoHash secret table peers now) h s) (ha : s.conAlive = true)
    (hrun : s.man.status = .running) (hroom : Room s) :
    Quiet s ∨ ∃ e s', DhtSystem.Step env pause s e s' ∧ isInternal e = true ∧ s'.conAlive = true ∧
      s'.man.status = .running ∧ Room s' ∧ work s' < work s := by
  have hf := Flow.run hr
  have hb := (Base.start (now := now) ht hp).run hf.man
  have hsh := shape_run ht hp hr
  cases hc : s.conTodo with
  | cons e rest =>
    refine .inr ?_
    have htail : ∀ f ∈ rest, ∃ a b, f = Effect.datagram a b := by
      have := hsh.con
      rw [hc] at this
      exact this
    cases e with
    | datagram a b =>
      refine ⟨_, _, .sends ha hc, rfl, ha, hrun, room_datagrams htail, ?_⟩
      simp only [work, hc, List.map_cons, List.sum_cons, effectWork]; omega
    | toManager q =>
      refine ⟨_, _, .putQuery ha hc (.inl hrun) (hroom.1 q rest hc), rfl, ha, hrun, room_datagrams htail, ?_⟩
      simp only [work, hc, List.map_cons, List.sum_cons, effectWork, List.length_append, List.length_nil, List.length_cons]
      omega
    | toRequester c r =>
      have hcap : (s.answers c).length < answersCap c := hroom.2 c r rest hc
      refine ⟨_, _, .putAnswer ha hc (fun _ => .inl hrun) hcap, rfl, ha, hrun, room_datagrams htail, ?_⟩
      simp only [work, hc, List.map_cons, List.sum_cons, effectWork]
      split
      · rename_i hk
        subst hk
        simp only [List.map_append, List.sum_append, List.map_cons, List.map_nil, List.sum_cons, List.sum_nil]
        omega
      · omega
  | nil =>
    have nilroom : ∀ s' : DhtSystem.State, s'.conTodo = [] → Room s' := fun s' h => room_datagrams (by rw [h]; simp)
    cases hcm : s.commands with
    | cons c cs =>
      refine .inr ?_
      cases c with
      | query ret target v =>
        refine ⟨_, _, .command (tid := List.replicate 5 0#8) ha hc hcm (.command rfl (send_query_eq ..)), rfl, ha, hrun,
          room_datagrams (by simp), ?_⟩
        simp only [work, hc, hcm, List.map_cons, List.sum_cons, effectWork, List.length_cons, List.map_nil, List.sum_nil]
        omega
      | resp qid v =>
        refine ⟨_, _, .command (tid := List.replicate 5 0#8) ha hc hcm (.command rfl (send_resp_eq ..)), rfl, ha, hrun,
          room_datagrams (by simp), ?_⟩
        simp only [work, hc, hcm, List.map_cons, List.sum_cons, effectWork, List.length_cons, List.map_nil, List.sum_nil]
        omega
    | nil =>
      cases hm : s.manTodo with
      | cons o os' =>
        refine .inr ?_
        cases o with
        | send c =>
          refine ⟨_, _, .putCommand hrun hm ha (by rw [hcm]; decide), rfl, ha, hrun, nilroom _ hc, ?_⟩
          simp only [work, hc, hcm, hm, List.map_cons, List.sum_cons, outWork, List.length_append, List.length_nil,
            List.length_cons, List.map_nil, List.sum_nil]
          omega
        | lookups ns =>
          refine ⟨_, _, .spawns hrun hm, rfl, ha, hrun, nilroom _ hc, ?_⟩
          simp only [work, hc, hcm, hm, List.map_cons, List.sum_cons, outWork]
          omega
        | stored t => exact absurd (by rw [hm]; simp) (hsh.man hrun t)
      | nil =>
        cases hq : s.queries with
        | cons q qs =>
          refine .inr ?_
          obtain ⟨m', outs, h1, h2⟩ := (C99_total ht hp hf.man).1 id q
          have hst : DhtManager.Step pause s.man ⟨.query q, outs⟩ m' := .query hrun (fun l => .refl _) h1
          refine ⟨_, _, .takeQuery hm hq hst, rfl, ha, h2.trans hrun, nilroom _ hc, ?_⟩
          have := query_work hb hst
          simp only [work, hc, hcm, hm, hq, List.length_cons, List.map_nil, List.sum_nil]
          omega
        | nil =>
          cases han : s.answers OWN_CHANNEL with
          | cons r rs =>
            refine .inr ?_
            obtain ⟨m', outs, h1, h2⟩ := (C99_total ht hp hf.man).2.1 r
            have hst : DhtManager.Step pause s.man ⟨.resp r, outs⟩ m' := .resp hrun h1
            refine ⟨_, _, .takeAnswer hm han hst, rfl, ha, h2.trans hrun, nilroom _ hc, ?_⟩
            have := resp_work hb hst
            simp only [work, hc, hcm, hm, hq, han, if_true, List.map_cons, List.sum_cons, List.map_nil, List.sum_nil]
            omega
          | nil => exact .inl ⟨hc, hm, hcm, hq, han⟩

/-- C92, partial: whenever the connection and the table task are there and the connection is not waiting for room in a full
queue (256 queries of others, 1024 answers for the table task, 64 for a lookup), everything that is waiting can be done
without anything from outside: a state is reached in which nothing waits. Missing: that the connection never waits while the
table task waits for it. -/
theorem C92_drain_partial (ht : Reachable table) (hp : Peers.Run (.new infoHash) os peers)
    (hr : DhtSystem.Run env pause (State.start infoHash secret table peers now) h s) (ha : s.conAlive = true)
    (hrun : s.man.status = .running)
    (hq : ∀ q rest, s.conTodo = .toManager q :: rest → s.queries.length < 256)
    (han : ∀ c r rest, s.conTodo = .toRequester c r :: rest →
      (s.answers c).length < if c = OWN_CHANNEL then 1024 else 64) :
    ∃ h' s', DhtSystem.Run env pause s h' s' ∧ (∀ e ∈ h', isInternal e = true) ∧ Quiet s' ∧ s'.conAlive = true ∧
      s'.man.status = .running := by
  have hroom : Room s := ⟨hq, han⟩
  clear hq han
  generalize hn : work s = n
  induction n using Nat.strongRecOn generalizing s h with
  | ind n ih =>
    rcases drain_step ht hp hr ha hrun hroom with hq | ⟨e, s1, h1, h2, h3, h4, h5, h6⟩
    · exact ⟨[], s, .nil, by simp, hq, ha, hrun⟩
    · obtain ⟨h', s', k1, k2, k3⟩ := ih _ (hn ▸ h6) (hr.snoc h1) h3 h4 h5 rfl
      refine ⟨[e] ++ h', s', system_append (.snoc (h := []) .nil h1) k1, ?_, k3⟩
      intro e' he
      rcases List.mem_append.mp he with he | he
      · rw [List.mem_singleton.mp he]; exact h2
      · exact k2 e' he

end

/-! ## The hypotheses can be met -/

/-- The start of the program with an empty table. -/
def exSystem : DhtSystem.State := State.start (exId 1#8) (exId 2#8) (.default (exId 0#8)) (.new (exId 1#8)) 5

/-- A peer tells its DHT port; the node there is pinged, its answer comes from the socket and it is stored. The hypotheses of
C102, C103, C104, C106 and C107 (with a node in the table, a datagram sent and one received), of C92 (both parts)
and of C105. -/
theorem ex_system (pause : Nat → Nat) : ∃ h s, DhtSystem.Run demoEnv pause exSystem h s ∧ Calm (exId 7#8) 0 s ∧
    s.man.table.iterNodes = [⟨exId 7#8, exAddr 1, some 5⟩] ∧ (sent h).length = 1 ∧
    arrivals h = [(some (exAddr 1), (Message.pingResp (exId 7#8) (ascii "abcde")).intoBytes)] ∧
    takenAnswers OWN_CHANNEL h = [.touch (exId 7#8) (exAddr 1)] := by
  have ht : Reachable (.default (exId 0#8)) := .fresh _
  have hp : Peers.Run (.new (exId 1#8)) [] (.new (exId 1#8)) := .nil
  have hand : andThen (.ok (exSystem.man, [ping (exAddr 1)])) =
      .ok ({ exSystem.man with since := 5, waitForGood := true }, [ping (exAddr 1)]) := by
    obtain ⟨w, o, he, hs⟩ := andThen_spec (m := exSystem.man) ht [ping (exAddr 1)]
    rcases hs with ⟨_, ⟨n, hn, _⟩, _⟩ | ⟨_, rfl, rfl⟩
    · exact absurd hn (by have : (RoutingTable.default (exId 0#8)).iterNodes = [] := by decide +kernel
                          show n ∉ (RoutingTable.default (exId 0#8)).iterNodes
                          rw [this]; simp)
    · exact he
  have r1 := (DhtSystem.Run.nil (env := demoEnv) (pause := pause) (s := exSystem)).snoc
    (.direct (ev := .peerNode (exAddr 1)) rfl trivial (.peerNode rfl hand))
  have r2 := r1.snoc (.putCommand rfl rfl rfl (by decide))
  have r3 := r2.snoc (.command (tid := ascii "abcde") rfl rfl rfl (.command rfl (send_query_eq ..)))
  have r4 := r3.snoc (.sends rfl rfl)
  have hf4 := Flow.run r4
  have hout : Outstanding (conHistory _) (ascii "abcde") .ping OWN_CHANNEL :=
    (pending_outstanding hf4.con (ascii "abcde") .ping OWN_CHANNEL).mp (by decide +kernel)
  obtain ⟨c5, ⟨ev5, hd5, ef5⟩, hs5, he5, hf5⟩ := C75_source_violated demoEnv (fun _ _ => rfl) _ _ _ _ hf4.con
    (ascii "abcde") OWN_CHANNEL hout rfl (exAddr 1) (exId 7#8) (by decide +kernel)
  cases he5
  cases hf5
  have r5 := r4.snoc (.datagram rfl rfl hs5)
  have r6 := r5.snoc (.putAnswer rfl rfl (fun _ => .inl rfl) (by show 0 < 1024; decide))
  have hf6 := Flow.run r6
  obtain ⟨m1, o1, h1, s1⟩ := (C99_total ht hp hf6.man).2.1 (.touch (exId 7#8) (exAddr 1))
  have st : DhtManager.Step pause _ ⟨.resp (.touch (exId 7#8) (exAddr 1)), o1⟩ m1 := .resp rfl h1
  have r7 := r6.snoc (.takeAnswer (rest := []) rfl rfl st)
  have h2 := (C98_touch ht hp hf6.man _ _ st).2.2
  have h3 : (match (RoutingTable.default (exId 0#8)).touchNode 5 (exId 7#8) (exAddr 1) with
    | .ok t => decide (t.iterNodes = [⟨exId 7#8, exAddr 1, some 5⟩])
    | _ => false) = true := by decide +kernel
  have h4 : m1.table.iterNodes = [⟨exId 7#8, exAddr 1, some 5⟩] := by
    rw [show (RoutingTable.default (exId 0#8)).touchNode 5 (exId 7#8) (exAddr 1) = .ok m1.table from h2] at h3
    simpa using h3
  have ho : o1 = [] ∨ ∃ ns, o1 = [.lookups ns] := by
    have hb := (Base.start (now := 5) ht hp).run hf6.man
    have hw := resp_work hb st
    simp only [respWork] at hw
    have hns := fun t => shape_outs hb st (s1.trans rfl) t
    match o1, hw, hns with
    | [], _, _ => exact .inl rfl
    | [.lookups ns], _, _ => exact .inr ⟨ns, rfl⟩
    | [.send c], hw, _ => simp [outWork] at hw
    | [.stored t], _, hns => exact absurd (List.mem_singleton.mpr rfl) (hns t)
    | a :: b :: l, hw, _ => cases a <;> cases b <;> simp [outWork] at hw <;> omega
  have known : ∃ n ∈ m1.table.iterNodes, n.id = exId 7#8 := ⟨_, by rw [h4]; exact List.mem_singleton.mpr rfl, rfl⟩
  rcases ho with rfl | ⟨ns, rfl⟩
  · exact ⟨_, _, r7, ⟨rfl, s1.trans rfl, rfl, rfl, rfl, rfl, known⟩, h4, rfl, rfl, rfl⟩
  · have r8 := r7.snoc (.spawns (s1.trans rfl) rfl)
    exact ⟨_, _, r8, ⟨rfl, s1.trans rfl, rfl, rfl, rfl, rfl, known⟩, h4, rfl, rfl, rfl⟩

/-- C92 and C105 apply to this state. -/
example (pause : Nat → Nat) : ∃ h s h' s', DhtSystem.Run demoEnv pause exSystem h s ∧ DhtSystem.Run demoEnv pause s h' s' ∧
    (arrivals h').length = 1282 ∧ ∀ h'' s'', DhtSystem.Run demoEnv pause s' h'' s'' → turns h'' = [] := by
  obtain ⟨h, s, hr, hc, h4, _⟩ := ex_system pause
  obtain ⟨h', s', r, ha, _, _, hall⟩ := C92_deadlock_violated (.fresh _) .nil (fun _ _ => rfl) rfl hr hc.alive hc.running
    hc.con hc.man hc.queries ⟨exId 7#8, exAddr 1, some 5⟩ (by rw [h4]; simp) (exAddr 9) (exId 8#8) (ascii "aa")
    (by decide +kernel)
  refine ⟨h, s, h', s', hr, r, ?_, fun h'' s'' hr'' => (hall h'' s'' hr'').2.2.1⟩
  rw [ha, List.length_replicate, hc.commands]

/-- C102, C104: a question of another node is answered: a second datagram leaves. -/
example (pause : Nat → Nat) : ∃ h s, DhtSystem.Run demoEnv pause exSystem h s ∧ (sent h).length = 2 ∧
    (arrivals h).length = 2 := by
  obtain ⟨h, s, hr, hc, h4, h5, h6, _⟩ := ex_system pause
  obtain ⟨h1, s1, r1, c1, a1, e1, _⟩ := flood_commands (.fresh _) .nil (fun _ _ => rfl) rfl hr (exAddr 9) (exId 8#8)
    (exId 7#8) (ascii "aa") (by decide +kernel) hc (by decide)
  obtain ⟨c, hcm⟩ : ∃ c, s1.commands = [c] := List.length_eq_one_iff.mp c1.commands
  have hr1 := system_append hr r1
  have fin : ∀ {s2 s3 ce d}, DhtSystem.Step demoEnv pause s1 ({ con := some ce }) s2 → ce.event = .command (List.replicate 5 0#8) c →
      DhtSystem.Step demoEnv pause s2 { sent := some d } s3 → ∃ h s, DhtSystem.Run demoEnv pause exSystem h s ∧
        (sent h).length = 2 ∧ (arrivals h).length = 2 := by
    intro s2 s3 ce d h2 hce h3
    refine ⟨_, _, (hr1.snoc h2).snoc h3, ?_, ?_⟩
    · simp only [sent, List.filterMap_append, List.length_append] at h5 e1 ⊢
      rw [h5, e1]
      rfl
    · rw [arrivals_append, arrivals_append, arrivals_append, h6, a1]
      obtain ⟨ev, hd, ef⟩ := ce
      cases hce
      rfl
  cases c with
  | query ret target v =>
    exact fin (.command (tid := List.replicate 5 0#8) c1.alive c1.con hcm (.command rfl (send_query_eq ..))) rfl (.sends c1.alive rfl)
  | resp qid v =>
    exact fin (.command (tid := List.replicate 5 0#8) c1.alive c1.con hcm (.command rfl (send_resp_eq ..))) rfl (.sends c1.alive rfl)

end Nargun
