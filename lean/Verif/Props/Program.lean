import Verif.Lemmas.ProgramDemo
import Verif.Props.DhtSystemLive
import Verif.Props.SwarmLive
import Verif.Props.Shutdown
import Verif.Props.Tracker
import Verif.Props.Fetcher

/-! # C119–: the whole program -/

set_option linter.unusedSimpArgs false

namespace Nargun.Program

open Nargun Dht Krpc Spec

variable {w : World} {u : Setup} {s0 s s' : State} {e : Event} {es : List Event}

/-! ## C119 -/

/-- What the table task has written so far. -/
def StoredInv (d : DhtSystem.State) (tables : List RoutingTable) : Prop :=
  match d.man.status with
  | .finished => (d.manTodo = [.stored d.man.table] ∧ tables = []) ∨ (d.manTodo = [] ∧ tables = [d.man.table])
  | _ => tables = []

theorem processQuery_status {m : DhtManager.Manager} {shuffle : List Peer → List Peer} {q : FromConQuery}
    {y : DhtManager.Manager × List DhtManager.Out} (h : m.processQuery shuffle q = .ok y) : y.1.status = m.status := by
  cases q with
  | findNode target qid =>
    simp only [DhtManager.Manager.processQuery] at h
    obtain ⟨o, _, h⟩ := Res.bind_eq_ok.mp h
    cases h; rfl
  | getPeers ih qid =>
    simp only [DhtManager.Manager.processQuery] at h
    have hf : ∀ {m1 o}, m.findPeers shuffle ih = (m1, o) → m1.status = m.status := by
      intro m1 o hf
      simp only [DhtManager.Manager.findPeers] at hf
      split at hf <;> cases hf <;> rfl
    split at h
    · next m1 ps he => cases h; exact hf he
    · next m1 he =>
      obtain ⟨o, _, h⟩ := Res.bind_eq_ok.mp h
      cases h; exact hf he
  | newPeer p ih =>
    simp only [DhtManager.Manager.processQuery, DhtManager.Manager.storeNewPeer] at h
    split at h
    · cases h; rfl
    · split at h <;> cases h <;> rfl

theorem processResp_status {m : DhtManager.Manager} {r : FromConResp} {y : DhtManager.Manager × List DhtManager.Out}
    (h : m.processResp r = .ok y) : y.1.status = m.status := by
  cases r with
  | touch id a =>
    obtain ⟨t, _, h⟩ := Res.bind_eq_ok.mp h
    cases h; rfl
  | newNodes ns a id =>
    obtain ⟨t, _, h⟩ := Res.bind_eq_ok.mp h
    obtain ⟨t, _, h⟩ := Res.bind_eq_ok.mp h
    cases h; rfl
  | getPeers => cases h; rfl

theorem stored_step {env : Env} {pause : Nat → Nat} {a b : DhtSystem.State} {x : DhtSystem.Entry}
    {tables : List RoutingTable} (hi : StoredInv a tables) (hs : DhtSystem.Step env pause a x b) :
    StoredInv b (tables ++ x.stored.toList) := by
  have same : ∀ (m' : DhtManager.Manager), a.man.status = .running → ∀ d : DhtSystem.State, d.man = m' →
      m'.status ≠ .finished → StoredInv d tables := by
    intro m' hr d hd hf
    simp only [StoredInv, hr] at hi
    simp only [StoredInv, hd]
    cases hm : m'.status with
    | finished => exact absurd hm hf
    | running => exact hi
    | failed => exact hi
  have ended : ∀ {r x}, DhtManager.andThen r = .ok x → (∀ y, r = .ok y → y.1.status = .running) →
      x.1.status ≠ .finished := by
    intro r x h hr
    simp only [DhtManager.andThen, DhtManager.Manager.endTurn] at h
    obtain ⟨⟨m1, o1⟩, h1, h⟩ := Res.bind_eq_ok.mp h
    obtain ⟨⟨m2, o2⟩, h2, h⟩ := Res.bind_eq_ok.mp h
    have e1 := hr _ h1
    simp only [Res.ok.injEq] at h
    subst h
    simp only at h2 e1 ⊢
    split at h2
    · obtain ⟨o, _, h2⟩ := Res.bind_eq_ok.mp h2
      cases o <;> simp only [Res.ok.injEq, Prod.mk.injEq] at h2 <;> rw [← h2.1] <;> simp [e1]
    · simp only [Res.ok.injEq, Prod.mk.injEq] at h2
      rw [← h2.1]
      simp [e1]
  have turn : ∀ {me m'}, DhtManager.Step pause a.man me m' → me.event ≠ .shutdown → ¬ DhtSystem.Outside me.event →
      a.man.status = .running ∧ m'.status ≠ .finished := by
    intro me m' h hne ho
    cases h with
    | shutdown => exact absurd rfl hne
    | others => exact absurd trivial ho
    | pass => exact absurd trivial ho
    | reorder => exact absurd trivial ho
    | peersGone hr => exact ⟨hr, by simp⟩
    | conGone hr => exact ⟨hr, by simp⟩
    | refresh hr _ _ h4 => exact ⟨hr, ended h4 (by rintro y h; cases h; exact hr)⟩
    | peerNode hr h4 => exact ⟨hr, ended h4 (by rintro y h; cases h; exact hr)⟩
    | @query m' shuffle q outs hr _ h4 =>
      refine ⟨hr, ended h4 (fun y h => ?_)⟩
      rw [processQuery_status h, hr]
    | @resp m' r outs hr h4 =>
      refine ⟨hr, ended h4 (fun y h => ?_)⟩
      rw [processResp_status h, hr]
  cases hs with
  | @direct ev outs man' h1 h2 h3 =>
    simp only [Option.toList, List.append_nil]
    by_cases hsd : ev = .shutdown
    · subst hsd
      cases h3 with
      | shutdown hr =>
        simp only [StoredInv, hr] at hi
        exact .inl ⟨rfl, hi⟩
    · have := turn h3 hsd (by cases ev <;> first | exact fun h => h | exact absurd h2 id)
      exact same man' this.1 _ rfl this.2
  | @takeQuery q rest outs man' h1 h2 h3 =>
    simp only [Option.toList, List.append_nil]
    have := turn h3 (by simp) (fun h => h)
    exact same man' this.1 _ rfl this.2
  | @takeAnswer r rest outs man' h1 h2 h3 =>
    simp only [Option.toList, List.append_nil]
    have := turn h3 (by simp) (fun h => h)
    exact same man' this.1 _ rfl this.2
  | @conGone man' h1 h2 h3 h4 =>
    simp only [Option.toList, List.append_nil]
    have := turn h4 (by simp) (fun h => h)
    exact same man' this.1 _ rfl this.2
  | @putFails c rest man' h1 h2 h4 =>
    simp only [Option.toList, List.append_nil]
    have := turn h4 (by simp) (fun h => h)
    exact same man' this.1 _ rfl this.2
  | @outside ev man' h1 h2 =>
    simp only [Option.toList, List.append_nil]
    cases h2 with
    | others => exact hi
    | pass => exact hi
    | reorder => exact hi
    | _ => exact absurd h1 id
  | @putCommand c rest h1 h2 h3 h4 =>
    simp only [Option.toList, List.append_nil]
    exact same a.man h1 _ rfl (by simp [h1])
  | @spawns ns rest h1 h2 =>
    simp only [Option.toList, List.append_nil]
    exact same a.man h1 _ rfl (by simp [h1])
  | @stores t rest h1 h2 =>
    simp only [StoredInv, h1] at hi ⊢
    rcases hi with ⟨h3, rfl⟩ | ⟨h3, _⟩
    · rw [h2] at h3
      cases h3
      exact .inr ⟨rfl, rfl⟩
    · rw [h2] at h3; cases h3
  | _ => simp only [Option.toList, List.append_nil]; exact hi

theorem dht_ends {env : Env} {pause : Nat → Nat} {a b : DhtSystem.State} {x : DhtSystem.Entry}
    (hs : DhtSystem.Step env pause a x b) :
    (a.man.status ≠ .running → b.man.status ≠ .running) ∧
    (b.conAlive = false → a.conAlive = false ∨ x.fatal.isSome = true ∨ a.man.status ≠ .running) ∧
    (b.man.status = .failed → a.man.status = .failed ∨ (a.conAlive = false ∧ a.man.status = .running) ∨
      ∃ outs, x.man = some ⟨.peersGone, outs⟩) ∧
    (b.man.status = .finished → a.man.status = .finished ∨ ∃ outs, x.man = some ⟨.shutdown, outs⟩) ∧
    (a.man.status ≠ .running → ¬ a.ManagerThere → ¬ b.ManagerThere) := by
  have man : ∀ {me m'}, DhtManager.Step pause a.man me m' → a.man.status ≠ .running → m'.status ≠ .running :=
    fun h => man_ended h
  have turn : ∀ {me m'}, DhtManager.Step pause a.man me m' →
      (a.man.status = .running ∧ (m'.status = .running ∨ (m'.status = .failed ∧ (me.event = .peersGone ∨ me.event = .conGone))
        ∨ (m'.status = .finished ∧ me.event = .shutdown))) ∨ (m'.status = a.man.status ∧ DhtSystem.Outside me.event) := by
    have ended : ∀ {r x}, DhtManager.andThen r = .ok x → (∀ y, r = .ok y → y.1.status = .running) →
        x.1.status = .running := by
      intro r x h hr
      simp only [DhtManager.andThen, DhtManager.Manager.endTurn] at h
      obtain ⟨⟨m1, o1⟩, h1, h⟩ := Res.bind_eq_ok.mp h
      obtain ⟨⟨m2, o2⟩, h2, h⟩ := Res.bind_eq_ok.mp h
      have e1 := hr _ h1
      simp only [Res.ok.injEq] at h
      subst h
      simp only at h2 e1 ⊢
      split at h2
      · obtain ⟨o, _, h2⟩ := Res.bind_eq_ok.mp h2
        cases o <;> simp only [Res.ok.injEq, Prod.mk.injEq] at h2 <;> rw [← h2.1] <;> simp [e1]
      · simp only [Res.ok.injEq, Prod.mk.injEq] at h2
        rw [← h2.1]
        simp [e1]
    intro me m' h
    cases h with
    | shutdown hr => exact .inl ⟨hr, .inr (.inr ⟨rfl, rfl⟩)⟩
    | others => exact .inr ⟨rfl, trivial⟩
    | pass => exact .inr ⟨rfl, trivial⟩
    | reorder => exact .inr ⟨rfl, trivial⟩
    | peersGone hr => exact .inl ⟨hr, .inr (.inl ⟨rfl, .inl rfl⟩)⟩
    | conGone hr => exact .inl ⟨hr, .inr (.inl ⟨rfl, .inr rfl⟩)⟩
    | refresh hr _ _ h4 => exact .inl ⟨hr, .inl (ended h4 (by rintro y h; cases h; exact hr))⟩
    | peerNode hr h4 => exact .inl ⟨hr, .inl (ended h4 (by rintro y h; cases h; exact hr))⟩
    | @query m' shuffle q outs hr _ h4 =>
      exact .inl ⟨hr, .inl (ended h4 (fun y h => by rw [processQuery_status h, hr]))⟩
    | @resp m' r outs hr h4 => exact .inl ⟨hr, .inl (ended h4 (fun y h => by rw [processResp_status h, hr]))⟩
  cases hs with
  | panics => exact ⟨id, fun _ => .inr (.inl rfl), .inl, .inl, fun _ h => h⟩
  | noListener h1 h2 h3 h4 =>
    exact ⟨id, fun _ => .inr (.inr fun h => h4 (.inl h)), .inl, .inl, fun _ h => h⟩
  | @direct ev outs man' h1 h2 h3 =>
    refine ⟨man h3, .inl, fun hf => ?_, fun hf => ?_, fun hn => ?_⟩
    · rcases turn h3 with ⟨t1, t2 | ⟨_, t3 | t3⟩ | ⟨t2, _⟩⟩ | ⟨_, t⟩
      · rw [t2] at hf; cases hf
      · simp only at t3; subst t3; exact .inr (.inr ⟨outs, rfl⟩)
      · simp only at t3; subst t3; exact absurd h2 id
      · rw [t2] at hf; cases hf
      · cases ev <;> first | exact absurd h2 id | exact absurd t id
    · rcases turn h3 with ⟨t1, t2 | ⟨t2, t3 | t3⟩ | ⟨t2, t3⟩⟩ | ⟨_, t⟩
      · rw [t2] at hf; cases hf
      · rw [t2] at hf; cases hf
      · rw [t2] at hf; cases hf
      · simp only at t3; subst t3; exact .inr ⟨outs, rfl⟩
      · cases ev <;> first | exact absurd h2 id | exact absurd t id
    · rcases turn h3 with ⟨t1, _⟩ | ⟨_, t⟩
      · exact absurd t1 hn
      · cases ev <;> first | exact absurd h2 id | exact absurd t id
  | @takeQuery q rest outs man' h1 h2 h3 =>
    have t : a.man.status = .running ∧ man'.status = .running := by
      rcases turn h3 with ⟨t1, t2 | ⟨t2, t3 | t3⟩ | ⟨t2, t3⟩⟩ | ⟨_, t⟩
      · exact ⟨t1, t2⟩
      · cases t3
      · cases t3
      · cases t3
      · exact absurd t id
    refine ⟨man h3, .inl, fun hf => ?_, fun hf => ?_, fun hn => absurd t.1 hn⟩
    · rw [t.2] at hf; cases hf
    · rw [t.2] at hf; cases hf
  | @takeAnswer r rest outs man' h1 h2 h3 =>
    have t : a.man.status = .running ∧ man'.status = .running := by
      rcases turn h3 with ⟨t1, t2 | ⟨t2, t3 | t3⟩ | ⟨t2, t3⟩⟩ | ⟨_, t⟩
      · exact ⟨t1, t2⟩
      · cases t3
      · cases t3
      · cases t3
      · exact absurd t id
    refine ⟨man h3, .inl, fun hf => ?_, fun hf => ?_, fun hn => absurd t.1 hn⟩
    · rw [t.2] at hf; cases hf
    · rw [t.2] at hf; cases hf
  | @conGone man' h1 h2 h3 h4 =>
    cases h4 with
    | conGone hr =>
      exact ⟨fun hn => absurd hr hn, .inl, fun _ => .inr (.inl ⟨h2, hr⟩), (by simp), fun hn => absurd hr hn⟩
  | @putFails c rest man' h1 h2 h4 =>
    cases h4 with
    | conGone hr =>
      exact ⟨fun hn => absurd hr hn, .inl, fun _ => .inr (.inl ⟨h2, hr⟩), (by simp), fun hn => absurd hr hn⟩
  | @outside ev man' h1 h2 =>
    rcases turn h2 with ⟨t1, t2⟩ | ⟨t, _⟩
    · cases h2 with
      | others => exact ⟨id, .inl, .inl, .inl, fun _ h => h⟩
      | pass => exact ⟨id, .inl, .inl, .inl, fun _ h => h⟩
      | reorder => exact ⟨id, .inl, .inl, .inl, fun _ h => h⟩
      | _ => exact absurd h1 id
    · refine ⟨man h2, .inl, fun h => .inl ?_, fun h => .inl ?_, fun _ h => ?_⟩
      · rw [← t]; exact h
      · rw [← t]; exact h
      · simp only [DhtSystem.State.ManagerThere, t] at h ⊢; exact h
  | @putCommand c rest h1 => exact ⟨id, .inl, .inl, .inl, fun h => absurd h1 h⟩
  | @spawns ns rest h1 => exact ⟨id, .inl, .inl, .inl, fun h => absurd h1 h⟩
  | @stores t rest h1 h2 =>
    refine ⟨id, .inl, .inl, .inl, fun _ h => absurd ?_ h⟩
    exact .inr ⟨h1, by simp [h2]⟩
  | _ => exact ⟨id, .inl, .inl, .inl, fun _ h => h⟩

/-- A step is one of the DHT, or leaves it as it is. -/
theorem turn_dhtStep (h : Turn w s e s') :
    (dhtEvents [e] = [] ∧ s'.dht = s.dht) ∨
    ∃ x, dhtEvents [e] = [x] ∧ DhtSystem.Step w.env w.refreshPause s.nodes x s'.dht ∧
      (∀ outs, x.man = some ⟨.peersGone, outs⟩ → s.NodesClosed) ∧
      ∀ outs, x.man = some ⟨.shutdown, outs⟩ → e = .tableNotices outs := by
  cases h with
  | @dht x d h1 h2 =>
    refine .inr ⟨x, rfl, h2, fun outs h => ?_, fun outs h => ?_⟩
    · exact absurd (h1.table _ h) id
    · exact absurd (h1.table _ h) id
  | node h1 h2 => exact .inr ⟨_, rfl, h2, (by simp), (by simp)⟩
  | nodesGone h1 h2 => exact .inr ⟨_, rfl, h2, fun _ _ => h1, (by simp)⟩
  | tableNotices h1 h2 =>
    refine .inr ⟨_, rfl, h2, (by simp), fun outs h => ?_⟩
    simp only [Option.some.injEq, DhtManager.Entry.mk.injEq, true_and] at h
    rw [h]
  | lookup h1 h2 => exact .inr ⟨_, rfl, h2, (by simp), (by simp)⟩
  | asks h1 h2 h3 h4 => exact .inr ⟨_, rfl, h4, (by simp), (by simp)⟩
  | hears h1 h2 h3 h4 => exact .inr ⟨_, rfl, h4, (by simp), (by simp)⟩
  | _ => exact .inl ⟨rfl, rfl⟩

theorem fatal_snoc (h : FatalDatagram es) : FatalDatagram (es ++ [e]) := by
  obtain ⟨x, hx, hf⟩ := h
  exact ⟨x, by rw [dhtEvents_snoc]; exact List.mem_append_left _ hx, hf⟩

/-- What the table task does at its end. -/
structure TableInv (es : List Event) (s : State) : Prop where
  stored : StoredInv s.dht (storedTables (dhtEvents es))
  gone : s.dht.conAlive = false → s.dht.man.status ≠ .running ∨ FatalDatagram es
  dead : s.swarm.man = .dead → .torrent .manDies ∈ es
  failed : s.dht.man.status = .failed → FatalDatagram es ∨ .torrent .manDies ∈ es
  finished : s.dht.man.status = .finished → ∃ outs, .tableNotices outs ∈ es
  ended : .tableEnds ∈ es → s.dht.man.status ≠ .running ∧ ¬ s.dht.ManagerThere

theorem swarm_dead {c : Swarm.Cfg} {a b : Swarm.State} {x : Swarm.Event} (hs : Swarm.Step c a x b) (hd : b.man = .dead) :
    a.man = .dead ∨ x = .manDies := by
  cases hs <;> first | exact .inl hd | exact .inr rfl | (cases hd; done)

theorem table_step (hi : TableInv es s) (ht : Turn w s e s') : TableInv (es ++ [e]) s' := by
  have hdead : s'.swarm.man = .dead → .torrent .manDies ∈ es ++ [e] := by
    intro hd
    cases ht with
    | torrent h1 h2 =>
      rcases swarm_dead h2 hd with h | rfl
      · exact List.mem_append_left _ (hi.dead h)
      · simp
    | node h1 =>
      rcases swarm_dead h1 hd with h | h
      · exact List.mem_append_left _ (hi.dead h)
      · cases h
    | tableEnds h1 h2 h3 h4 =>
      rcases swarm_dead h4 hd with h | h
      · exact List.mem_append_left _ (hi.dead h)
      · cases h
    | _ => exact List.mem_append_left _ (hi.dead hd)
  have hends : .tableEnds ∈ es ++ [e] → (.tableEnds ∈ es) ∨ (s.dht.man.status ≠ .running ∧ ¬ s.dht.ManagerThere) := by
    intro h
    rcases List.mem_append.mp h with h | h
    · exact .inl h
    · simp only [List.mem_singleton] at h
      subst h
      cases ht with
      | tableEnds h1 h2 => exact .inr ⟨h1, h2⟩
  have hends' : .tableEnds ∈ es ++ [e] → s.dht.man.status ≠ .running ∧ ¬ s.dht.ManagerThere := fun h =>
    (hends h).elim hi.ended id
  rcases turn_dhtStep ht with ⟨h1, h2⟩ | ⟨x, h1, h2, h3, h4⟩
  · refine ⟨?_, ?_, hdead, ?_, ?_, ?_⟩
    · rw [h2, dhtEvents_snoc, h1, List.append_nil]; exact hi.stored
    · rw [h2]; exact fun h => (hi.gone h).imp id fatal_snoc
    · rw [h2]; exact fun h => (hi.failed h).imp fatal_snoc (List.mem_append_left _)
    · rw [h2]; exact fun h => (hi.finished h).imp fun _ => List.mem_append_left _
    · rw [h2]; exact hends'
  · obtain ⟨d1, d2, d3, d4, d5⟩ := dht_ends h2
    refine ⟨?_, fun h => ?_, hdead, fun h => ?_, fun h => ?_, fun h => ?_⟩
    · have := stored_step (tables := storedTables (dhtEvents es)) (show StoredInv s.nodes _ from hi.stored) h2
      rw [dhtEvents_snoc, h1]
      simp only [storedTables, List.filterMap_append] at this ⊢
      cases hx : x.stored with
      | none => simp only [hx, Option.toList, List.append_nil, List.filterMap_cons, List.filterMap_nil] at this ⊢; exact this
      | some t => simp only [hx, Option.toList, List.filterMap_cons, List.filterMap_nil] at this ⊢; exact this
    · rcases d2 h with h | h | h
      · rcases hi.gone h with h | h
        · exact .inl (d1 h)
        · exact .inr (fatal_snoc h)
      · exact .inr ⟨x, by rw [dhtEvents_snoc, h1]; simp, h⟩
      · exact .inl (d1 h)
    · rcases d3 h with h | ⟨h, hr⟩ | ⟨outs, h⟩
      · exact (hi.failed h).imp fatal_snoc (List.mem_append_left _)
      · rcases hi.gone h with h | h
        · exact absurd hr h
        · exact .inl (fatal_snoc h)
      · exact .inr (List.mem_append_left _ (hi.dead (h3 outs h).1))
    · rcases d4 h with h | ⟨outs, h⟩
      · exact (hi.finished h).imp fun _ => List.mem_append_left _
      · exact ⟨outs, by rw [h4 outs h]; simp⟩
    · obtain ⟨e1, e2⟩ := hends' h
      exact ⟨d1 e1, d5 e1 e2⟩

theorem table_inv (h0 : Started w u s0) (h : Run w s0 es s) : TableInv es s := by
  induction h with
  | nil =>
    refine ⟨?_, ?_, ?_, ?_, ?_, by simp⟩
    · rw [h0.dht]; rfl
    · rw [h0.dht]; intro h; cases h
    · have h := h0.swarm
      simp only [Swarm.State.start] at h
      obtain ⟨tm, _, h⟩ := Res.bind_eq_ok.mp h
      obtain ⟨pend, _, h⟩ := Res.bind_eq_ok.mp h
      rw [← Res.ok.inj h]
      intro h; cases h
    · rw [h0.dht]; intro h; cases h
    · rw [h0.dht]; intro h; cases h
  | snoc _ hs ih => exact table_step ih hs.2

theorem exit_said {t t' : TrackerTask} (hr : t.Reachable) (hp : t.phase ≠ .exited) (hs : t.step (.shutdown 0) = .ok t') :
    ToldStopped t'.log ∨ LeftUnanswered t'.log := by
  have hi := reachable_inv hr
  have pend : (t.phase = .calling ∨ t.phase = .inFlight ∨ t.phase = .backoff) → LeftUnanswered t.log := by
    intro h
    have hpend := hi.pending h
    have hns := hi.noneStopped hp
    obtain ⟨l1, n, l2, h1, h2⟩ : ∃ l1 n l2, t.log = l1 ++ .loaded n :: l2 ∧ ¬ Answered l2 := by
      by_cases ha : Answered t.log
      · obtain ⟨p, r, m, hl, hm⟩ : ∃ p r m, t.log = p ++ .answered r :: m ∧ ¬ Answered m := by
          clear hpend hns h hp hs hi
          generalize t.log = log at ha
          induction log with
          | nil => obtain ⟨r, h⟩ := ha; cases h
          | cons x log ih =>
            by_cases hx : Answered log
            · obtain ⟨p, r, m, h1, h2⟩ := ih hx
              exact ⟨x :: p, r, m, by rw [h1]; rfl, h2⟩
            · obtain ⟨r, h⟩ := ha
              rcases List.mem_cons.mp h with h | h
              · exact ⟨[], r, log, by rw [← h]; rfl, hx⟩
              · exact absurd ⟨r, h⟩ hx
        obtain ⟨n, hn⟩ := hpend.fresh p r m hl
        obtain ⟨m1, m2, rfl⟩ := List.append_of_mem hn
        refine ⟨p ++ .answered r :: m1, n, m2, by rw [hl]; simp, fun ⟨r', h⟩ => hm ⟨r', by simp [h]⟩⟩
      · obtain ⟨n, hn, _⟩ := hpend.left
        simp only [lastProgress] at hn
        obtain ⟨x, hx, hxn⟩ := List.mem_filterMap.mp (List.mem_of_getLast? hn)
        cases x with
        | loaded k =>
          obtain ⟨m1, m2, hl⟩ := List.append_of_mem hx
          exact ⟨m1, k, m2, hl, fun ⟨r', h⟩ => ha ⟨r', by rw [hl]; simp [h]⟩⟩
        | _ => cases hxn
    exact ⟨l1, n, l2, h1, h2, fun a ha => hns a (by rw [h1]; simp [ha])⟩
  cases hph : t.phase with
  | calling =>
    simp only [TrackerTask.step, hph, Res.ok.injEq] at hs
    subst hs
    exact .inr (pend (.inl hph))
  | inFlight =>
    simp only [TrackerTask.step, hph, Res.ok.injEq] at hs
    subst hs
    exact .inr (pend (.inr (.inl hph)))
  | backoff =>
    simp only [TrackerTask.step, hph, Res.ok.injEq] at hs
    subst hs
    exact .inr (pend (.inr (.inr hph)))
  | waiting k =>
    simp only [TrackerTask.step, hph] at hs
    obtain ⟨left, _, hs'⟩ := Res.bind_eq_ok.mp hs
    clear hs
    simp only [Res.ok.injEq] at hs'
    subst hs'
    exact .inl ⟨{ t.announce with event := some .stopped, left := left }, by simp, rfl⟩
  | exited => exact absurd hph hp

theorem started_trackers (h0 : Started w u s0) : s0.trackers.length = u.urls.length ∧
    ∀ (i : Nat) (t : TrackerTask), s0.trackers[i]? = some t → ∃ url, u.urls[i]? = some url ∧
      TrackerTask.start url u.infoHash u.peerId u.pieces.length u.pieceLength 0 w.port = .ok t := by
  have h := h0.trackers
  refine ⟨by simpa using (congrArg List.length h).symm, fun i t ht => ?_⟩
  have := congrArg (fun l => l[i]?) h
  simp only [List.getElem?_map, ht, Option.map_some] at this
  cases hu : u.urls[i]? with
  | none => rw [hu] at this; cases this
  | some url =>
    rw [hu] at this
    exact ⟨url, rfl, by simpa using this⟩

/-- Every tracker task of the program is one that can be reached by its own inputs. -/
theorem tracker_reachable (h0 : Started w u s0) (h : Run w s0 es s) {i : Nat} {t : TrackerTask}
    (ht : s.trackers[i]? = some t) : t.Reachable := by
  obtain ⟨t0, h1, h2⟩ := run_tracker h ht
  obtain ⟨url, _, h3⟩ := (started_trackers h0).2 i t0 h1
  exact ⟨_, _, _, _, _, _, _, _, t0, h3, h2⟩

/-- What is known about the tracker tasks that have ended. -/
structure TrackersInv (es : List Event) (s : State) : Prop where
  over : ∀ (i : Nat) (t : TrackerTask), s.trackers[i]? = some t → t.phase = .exited →
    .trackerNotices i ∈ es ∧ (ToldStopped t.log ∨ LeftUnanswered t.log)
  ends : ∀ i, .trackerEnds i ∈ es → ∃ t, s.trackers[i]? = some t ∧ t.phase = .exited

theorem exited_step {t : TrackerTask} {i : TrackerInput} (h : t.phase = .exited) : t.step i = .ok t := by
  unfold TrackerTask.step
  rw [h]

theorem own_exited {t t' : TrackerTask} {i : TrackerInput} (hi : OwnTracker i ∨ ∃ r, i = .answers r) (hp : t.phase ≠ .exited)
    (hs : t.step i = .ok t') : t'.phase ≠ .exited := by
  intro he
  unfold TrackerTask.step at hs
  split at hs
  all_goals first
    | (rcases hi with hi | ⟨r, hi⟩ <;> first | exact absurd hi id | (cases hi; done))
    | (cases hs; cases he; done)
    | (cases hs; exact hp he)
    | skip
  all_goals
    simp only [TrackerTask.again] at hs
    obtain ⟨left, _, hs⟩ := Res.bind_eq_ok.mp hs
    cases hs; cases he

theorem trackers_step (hi : TrackersInv es s) (hreach : ∀ (i : Nat) (t : TrackerTask), s.trackers[i]? = some t → t.Reachable)
    (ht : Turn w s e s') : TrackersInv (es ++ [e]) s' := by
  have same : s'.trackers = s.trackers → (∀ i, e ≠ .trackerEnds i) → TrackersInv (es ++ [e]) s' := by
    intro h1 h2
    refine ⟨fun i t h hp => ?_, fun i h => ?_⟩
    · rw [h1] at h
      exact (hi.over i t h hp).imp_left (List.mem_append_left _)
    · rw [h1]
      rcases List.mem_append.mp h with h | h
      · exact hi.ends i h
      · exact absurd (List.mem_singleton.mp h).symm (h2 i)
  have set : ∀ (i : Nat) (t t' : TrackerTask), s.trackers[i]? = some t → s'.trackers = s.trackers.set i t' →
      (t.phase = .exited → t' = t) →
      (t.phase ≠ .exited → t'.phase = .exited → .trackerNotices i ∈ es ++ [e] ∧ (ToldStopped t'.log ∨ LeftUnanswered t'.log)) →
      (∀ k, e ≠ .trackerEnds k) → TrackersInv (es ++ [e]) s' := by
    intro i t t' h1 h2 h3 h4 h5
    have hlt : i < s.trackers.length := (List.getElem?_eq_some_iff.mp h1).1
    refine ⟨fun k tk h hp => ?_, fun k h => ?_⟩
    · rw [h2, List.getElem?_set] at h
      split at h
      · next hk =>
        subst hk
        simp only [hlt, if_true, Option.some.injEq] at h
        subst h
        by_cases hp0 : t.phase = .exited
        · rw [h3 hp0]
          exact (hi.over i t h1 hp0).imp_left (List.mem_append_left _)
        · exact h4 hp0 hp
      · exact (hi.over k tk h hp).imp_left (List.mem_append_left _)
    · have h := (List.mem_append.mp h).resolve_right fun h => absurd (List.mem_singleton.mp h).symm (h5 k)
      obtain ⟨tk, g1, g2⟩ := hi.ends k h
      rw [h2, List.getElem?_set]
      split
      · next hk =>
        subst hk
        rw [h1] at g1
        cases g1
        exact ⟨_, rfl, by rw [h3 g2]; exact g2⟩
      · exact ⟨tk, g1, g2⟩
  cases ht with
  | @answered i t t' r h1 h2 h3 =>
    refine set i t t' h1 rfl (fun h => ?_) (fun h h' => absurd h' (own_exited (.inr ⟨r, rfl⟩) h h3)) (by simp)
    rw [exited_step h] at h3; exact (Res.ok.inj h3).symm
  | @tracker i t t' inp h1 h2 h3 =>
    refine set i t t' h1 rfl (fun h => ?_) (fun h h' => absurd h' (own_exited (.inl h2) h h3)) (by simp)
    rw [exited_step h] at h3; exact (Res.ok.inj h3).symm
  | @trackerNotices i t t' x h1 h2 h3 h4 =>
    refine set i t t' h1 rfl (fun h => absurd h h2) (fun _ _ => ⟨by simp, exit_said (hreach i t h1) h2 h4⟩) (by simp)
  | @trackerEnds i t x h1 h2 h3 =>
    refine ⟨fun k tk h hp => (hi.over k tk h hp).imp_left (List.mem_append_left _), fun k h => ?_⟩
    rcases List.mem_append.mp h with h | h
    · exact hi.ends k h
    · simp only [List.mem_singleton, Event.trackerEnds.injEq] at h
      subst h
      exact ⟨t, h1, h2⟩
  | _ => exact same rfl (by simp)

theorem trackers_inv (h0 : Started w u s0) (h : Run w s0 es s) : TrackersInv es s := by
  induction h with
  | nil =>
    refine ⟨fun i t ht hp => ?_, by simp⟩
    obtain ⟨url, _, h3⟩ := (started_trackers h0).2 i t ht
    simp only [TrackerTask.start] at h3
    obtain ⟨left, _, h3⟩ := Res.bind_eq_ok.mp h3
    cases h3; cases hp
  | snoc hr hs ih => exact trackers_step ih (fun _ _ ht => tracker_reachable h0 hr ht) hs.2

theorem made_startup (n r : Nat) : Made (startupEvents n) r ↔ r < n + 3 := by
  have clones : ∀ n k r old, Shutdown.Event.clone old r ∈ clonesMade k n ↔ old = 2 ∧ k ≤ r ∧ r < k + n := by
    intro n
    induction n with
    | zero => intro k r old; simp [clonesMade]
    | succ n ih =>
      intro k r old
      simp only [clonesMade, List.mem_cons, Shutdown.Event.clone.injEq, ih]
      omega
  simp only [Made, startupEvents, List.cons_append, List.mem_cons, List.mem_append, Shutdown.Event.clone.injEq, clones,
    List.not_mem_nil, or_false, reduceCtorEq]
  constructor
  · rintro (h | ⟨old, h | h | h⟩) <;> omega
  · intro h
    by_cases h0 : r = 0
    · exact .inl h0
    · by_cases h1 : r = 1
      · exact .inr ⟨0, .inl ⟨rfl, h1⟩⟩
      · by_cases h2 : r = 2
        · exact .inr ⟨0, .inr (.inl ⟨rfl, h2⟩)⟩
        · exact .inr ⟨2, .inr (.inr ⟨rfl, by omega, by omega⟩)⟩

theorem drop_startup (n r : Nat) : Shutdown.Event.drop r ∈ startupEvents n ↔ r = 0 ∨ r = 2 := by
  have clones : ∀ n k, Shutdown.Event.drop r ∉ clonesMade k n := by
    intro n
    induction n with
    | zero => intro k; simp [clonesMade]
    | succ n ih => intro k; simp [clonesMade, ih]
  simp only [startupEvents, List.cons_append, List.mem_cons, List.mem_append, clones, List.not_mem_nil, or_false,
    reduceCtorEq, false_or, Shutdown.Event.drop.injEq]
  omega

theorem send_startup (n : Nat) : Shutdown.Event.send ∉ startupEvents n := by
  have clones : ∀ n k, Shutdown.Event.send ∉ clonesMade k n := by
    intro n
    induction n with
    | zero => intro k; simp [clonesMade]
    | succ n ih => intro k; simp [clonesMade, ih]
  simp [startupEvents, clones]

theorem mem_down {x : Shutdown.Event} (h : x ∈ downEvents es) :
    ((∃ outs, .tableNotices outs ∈ es) ∧ x = .recv 1) ∨ (.tableEnds ∈ es ∧ x = .drop 1) ∨
    (∃ i, .trackerNotices i ∈ es ∧ x = .recv (i + 3)) ∨ (∃ i, .trackerEnds i ∈ es ∧ x = .drop (i + 3)) ∨
    (.signal ∈ es ∧ x = .send) ∨ (.exits ∈ es ∧ x = .waited) := by
  obtain ⟨e, he, hx⟩ := List.mem_filterMap.mp h
  cases e <;> simp only [Option.some.injEq, reduceCtorEq] at hx <;> subst hx
  · exact .inl ⟨⟨_, he⟩, rfl⟩
  · exact .inr (.inl ⟨he, rfl⟩)
  · exact .inr (.inr (.inl ⟨_, he, rfl⟩))
  · exact .inr (.inr (.inr (.inl ⟨_, he, rfl⟩)))
  · exact .inr (.inr (.inr (.inr (.inl ⟨he, rfl⟩))))
  · exact .inr (.inr (.inr (.inr (.inr ⟨he, rfl⟩))))

/-- When the process ends: the signal was given and all tasks that hold a receiver of it have returned. -/
theorem exit_ends (h0 : Started w u s0) (h : Run w s0 es s) (hx : .exits ∈ es) :
    .signal ∈ es ∧ .tableEnds ∈ es ∧ ∀ i, i < u.urls.length → .trackerEnds i ∈ es := by
  induction h with
  | nil => simp at hx
  | @snoc s1 s2 es e hr hs ih =>
    rcases List.mem_append.mp hx with hx | hx
    · obtain ⟨i1, i2, i3⟩ := ih hx
      exact ⟨List.mem_append_left _ i1, List.mem_append_left _ i2, fun i hi => List.mem_append_left _ (i3 i hi)⟩
    · simp only [List.mem_singleton] at hx
      subst hx
      cases hs.2 with
      | exits hw =>
        have hd := started_down h0 hr
        have hall := (Shutdown.C82_wait _ _ hd).1 _ hw
        have made : ∀ r, r < u.urls.length + 3 → .drop r ∈ startupEvents u.urls.length ++ downEvents es := by
          intro r hr'
          refine hall r ?_
          rcases (made_startup _ r).mpr hr' with h | ⟨old, h⟩
          · exact .inl h
          · exact .inr ⟨old, List.mem_append_left _ h⟩
        have drops : ∀ r, r < u.urls.length + 3 → r ≠ 0 → r ≠ 2 → Shutdown.Event.drop r ∈ downEvents es := by
          intro r h1 h2 h3
          rcases List.mem_append.mp (made r h1) with h | h
          · exact absurd ((drop_startup _ r).mp h) (by omega)
          · exact h
        refine ⟨?_, ?_, fun i hi => ?_⟩
        · refine List.mem_append_left _ ?_
          have hsend : .send ∈ startupEvents u.urls.length ++ downEvents es := by
            have hi := Shutdown.Inv.run hd
            cases hw with
            | waited h1 h2 => exact (hi.waiting.mp h1).1
          rcases List.mem_append.mp hsend with h | h
          · exact absurd h (send_startup _)
          · rcases mem_down h with ⟨_, h⟩ | ⟨_, h⟩ | ⟨_, _, h⟩ | ⟨_, _, h⟩ | ⟨h, _⟩ | ⟨_, h⟩
            all_goals first | exact h | cases h
        · refine List.mem_append_left _ ?_
          rcases mem_down (drops 1 (by omega) (by omega) (by omega)) with ⟨_, h⟩ | ⟨h, _⟩ | ⟨_, _, h⟩ | ⟨i, _, h⟩ | ⟨_, h⟩ | ⟨_, h⟩
          all_goals first | exact h | (cases h; done) | (simp only [Shutdown.Event.drop.injEq] at h; omega)
        · refine List.mem_append_left _ ?_
          rcases mem_down (drops (i + 3) (by omega) (by omega) (by omega)) with
            ⟨_, h⟩ | ⟨_, h⟩ | ⟨_, _, h⟩ | ⟨k, hk, h⟩ | ⟨_, h⟩ | ⟨_, h⟩
          · cases h
          · simp only [Shutdown.Event.drop.injEq] at h; omega
          · cases h
          · simp only [Shutdown.Event.drop.injEq] at h
            have : i = k := by omega
            rw [this]; exact hk
          · cases h
          · cases h

theorem trackers_length (h : Run w s0 es s) : s.trackers.length = s0.trackers.length := by
  induction h with
  | nil => rfl
  | snoc _ hs ih =>
    rw [← ih]
    cases hs.2 <;> first | rfl | exact List.length_set ..

/-- C119, the part that holds: if the process ends, then Ctrl-C was pressed, every tracker task has noticed it, and each has
either announced 'stopped' or was without an answer to its last announce; and the routing table was written, once, with
the contents it had at the end, or it was not written, and then the socket task had panicked at a datagram or the torrent
manager had panicked. Missing: that the table is written in these two cases as well, and that 'stopped' is announced
also by a task that waits for an answer. -/
theorem C119_exit_partial (w : World) (u : Setup) (s0 s : State) (es : List Event) (h0 : Started w u s0)
    (h : Run w s0 es s) (hx : .exits ∈ es) :
    .signal ∈ es ∧
    (∀ i, i < u.urls.length → .trackerNotices i ∈ es ∧
      ∃ t, s.trackers[i]? = some t ∧ t.phase = .exited ∧ (ToldStopped t.log ∨ LeftUnanswered t.log)) ∧
    ((∃ outs, .tableNotices outs ∈ es) ∧ storedTables (dhtEvents es) = [s.dht.man.table] ∨
      storedTables (dhtEvents es) = [] ∧ (FatalDatagram es ∨ .torrent .manDies ∈ es)) := by
  obtain ⟨e1, e2, e3⟩ := exit_ends h0 h hx
  have ht := trackers_inv h0 h
  have hi := table_inv h0 h
  refine ⟨e1, fun i hlt => ?_, ?_⟩
  · obtain ⟨t, g1, g2⟩ := ht.ends i (e3 i hlt)
    exact ⟨(ht.over i t g1 g2).1, t, g1, g2, (ht.over i t g1 g2).2⟩
  · obtain ⟨g1, g2⟩ := hi.ended e2
    have hst := hi.stored
    simp only [StoredInv] at hst
    cases hs : s.dht.man.status with
    | running => exact absurd hs g1
    | failed =>
      rw [hs] at hst
      exact .inr ⟨hst, hi.failed hs⟩
    | finished =>
      rw [hs] at hst
      rcases hst with ⟨h1, _⟩ | ⟨_, h2⟩
      · exact absurd (.inr ⟨hs, by simp [h1]⟩) g2
      · exact .inl ⟨hi.finished hs, h2⟩

/-- Nobody notices a signal that was not given. -/
theorem notices_signal (h0 : Started w u s0) (h : Run w s0 es s)
    (hx : (∃ outs, .tableNotices outs ∈ es) ∨ ∃ i, .trackerNotices i ∈ es) : .signal ∈ es := by
  induction h with
  | nil => simp at hx
  | @snoc s1 s2 es e hr hs ih =>
    have said : ∀ {r x}, Shutdown.Step s1.down (.recv r) x → .signal ∈ es := by
      intro r x hrecv
      have hd := started_down h0 hr
      have hl : Live (startupEvents u.urls.length ++ downEvents es) r := by
        refine ((Shutdown.Inv.run hd).live r).mp ?_
        cases hrecv with
        | recv hx =>
          unfold Shutdown.State.recv at hx
          split at hx
          · cases hx
          · next hg =>
            refine Classical.byContradiction fun hn => ?_
            rw [Map.get?_eq_none.mpr hn] at hg
            cases hg
      have hsig := (Shutdown.C82_notified _ _ hd r hl).1.mp ⟨_, hrecv⟩
      obtain ⟨b, a, he, _⟩ := hsig
      have hm : Shutdown.Event.send ∈ startupEvents u.urls.length ++ downEvents es := by rw [he]; simp
      rcases List.mem_append.mp hm with h | h
      · exact absurd h (send_startup _)
      · rcases mem_down h with ⟨_, h⟩ | ⟨_, h⟩ | ⟨_, _, h⟩ | ⟨_, _, h⟩ | ⟨h, _⟩ | ⟨_, h⟩
        · cases h
        · cases h
        · cases h
        · cases h
        · exact h
        · cases h
    cases hs.2 with
    | tableNotices h1 => exact List.mem_append_left _ (said h1)
    | trackerNotices _ _ h1 => exact List.mem_append_left _ (said h1)
    | _ =>
      refine List.mem_append_left _ (ih ?_)
      simpa using hx

/-- C122, the part that holds: whatever peers, trackers and other nodes send, the table task fails only if the socket task
had panicked at a datagram or the torrent manager had panicked; it finishes only after Ctrl-C; and the socket task ends only
at such a datagram or after the table task. Missing: that no message of a peer can make the manager panic. -/
theorem C122_survives_partial (w : World) (u : Setup) (s0 s : State) (es : List Event) (h0 : Started w u s0)
    (h : Run w s0 es s) :
    (s.dht.man.status = .failed → FatalDatagram es ∨ .torrent .manDies ∈ es) ∧
    (s.dht.man.status = .finished → .signal ∈ es) ∧
    (s.dht.conAlive = false → s.dht.man.status ≠ .running ∨ FatalDatagram es) := by
  have hi := table_inv h0 h
  exact ⟨hi.failed, fun hf => notices_signal h0 h (.inl (hi.finished hf)), hi.gone⟩

/-- The tasks of these peers end once the manager is dead. -/
theorem all_leave (c : Swarm.Cfg) (l : List Peer) : ∀ a : Swarm.State, a.man = .dead →
    (∀ k ∈ l, a.Spawned k) → (∀ k, a.Spawned k → AtRest (a.links k)) →
    ∃ es b, Swarm.Run c a es b ∧ (∀ x ∈ es, ∃ k, x = .dlDies k ∨ x = .conLeaves k) ∧ b.tm = a.tm ∧ b.man = .dead ∧
      b.dht = a.dht ∧ b.dhtOpen = a.dhtOpen ∧ (∀ k ∈ l, (b.links k).con = .ended) ∧
      (∀ k, (a.links k).con = .ended → (b.links k).con = .ended) ∧ (∀ k, a.Spawned k → AtRest (b.links k)) := by
  induction l with
  | nil => intro a hd _ hr; exact ⟨[], a, .nil, by simp, rfl, hd, rfl, rfl, by simp, fun _ h => h, hr⟩
  | cons q l ih =>
    intro a hd hsp hr
    have hq := hsp q (by simp)
    -- the downloader ends
    obtain ⟨es1, a1, r1, o1, tm1, d1, n1, p1, alive1, con1, rest1⟩ : ∃ es1 a1, Swarm.Run c a es1 a1 ∧
        (∀ x ∈ es1, ∃ k, x = .dlDies k ∨ x = .conLeaves k) ∧ a1.tm = a.tm ∧ a1.man = .dead ∧ a1.dht = a.dht ∧
        a1.dhtOpen = a.dhtOpen ∧ (a1.links q).dlAlive = false ∧ (∀ k, (a1.links k).con = (a.links k).con) ∧
        (∀ k, a.Spawned k → AtRest (a1.links k)) := by
      cases ha : (a.links q).dlAlive with
      | false => exact ⟨[], a, .nil, by simp, rfl, hd, rfl, rfl, ha, fun _ => rfl, hr⟩
      | true =>
        obtain ⟨g1, g2, g3⟩ := (hr q hq).2 ha
        refine ⟨_, _, .snoc .nil (.noCommands hq ha g1 g2 g3 hd), ?_, rfl, hd, rfl, rfl, ?_, ?_, ?_⟩
        · intro x hx; simp only [List.nil_append, List.mem_singleton] at hx; exact ⟨q, .inl hx⟩
        · simp [Swarm.State.setLink, Swarm.Link.dlEnds]
        · intro k
          simp only [Swarm.State.setLink]
          split
          · next h => subst h; rfl
          · rfl
        · intro k hk
          simp only [Swarm.State.setLink]
          split
          · next h =>
            subst h
            exact ⟨(hr k hk).1, fun h => by cases h⟩
          · exact hr k hk
    -- the connection ends
    obtain ⟨es2, a2, r2, o2, tm2, d2, n2, p2, end2, con2, rest2⟩ : ∃ es2 a2, Swarm.Run c a1 es2 a2 ∧
        (∀ x ∈ es2, ∃ k, x = .dlDies k ∨ x = .conLeaves k) ∧ a2.tm = a.tm ∧ a2.man = .dead ∧ a2.dht = a.dht ∧
        a2.dhtOpen = a.dhtOpen ∧ (a2.links q).con = .ended ∧ (∀ k, (a.links k).con = .ended → (a2.links k).con = .ended) ∧
        (∀ k, a.Spawned k → AtRest (a2.links k)) := by
      have hq1 : a1.Spawned q := by simp only [Swarm.State.Spawned, tm1]; exact hq
      rcases (rest1 q hq).1 with he | ⟨hu, hs⟩
      · exact ⟨[], a1, .nil, by simp, tm1, d1, n1, p1, he, fun k h => by rw [con1]; exact h, rest1⟩
      · refine ⟨_, _, .snoc .nil (.conLeaves hq1 hu hs alive1 d1), ?_, tm1, d1, n1, p1, ?_, ?_, ?_⟩
        · intro x hx; simp only [List.nil_append, List.mem_singleton] at hx; exact ⟨q, .inr hx⟩
        · simp [Swarm.State.setLink, Swarm.Link.conEnds]
        · intro k h
          simp only [Swarm.State.setLink]
          split
          · rfl
          · rw [con1]; exact h
        · intro k hk
          simp only [Swarm.State.setLink]
          split
          · next h =>
            subst h
            exact ⟨.inl rfl, (rest1 k hk).2⟩
          · exact rest1 k hk
    have sp2 : ∀ k, a2.Spawned k ↔ a.Spawned k := fun k => by simp only [Swarm.State.Spawned, tm2]
    obtain ⟨es3, a3, r3, o3, tm3, d3, n3, p3, end3, con3, rest3⟩ := ih a2 d2
      (fun k hk => (sp2 k).mpr (hsp k (List.mem_cons_of_mem _ hk))) (fun k hk => rest2 k ((sp2 k).mp hk))
    refine ⟨es1 ++ (es2 ++ es3), a3, r1.append (r2.append r3), ?_, tm3.trans tm2, d3, n3.trans n2, p3.trans p2, ?_, ?_, ?_⟩
    · intro x hx
      rcases List.mem_append.mp hx with hx | hx
      · exact o1 x hx
      · rcases List.mem_append.mp hx with hx | hx
        · exact o2 x hx
        · exact o3 x hx
    · intro k hk
      rcases List.mem_cons.mp hk with rfl | hk
      · exact con3 _ end2
      · exact end3 k hk
    · exact fun k h => con3 k (con2 k h)
    · exact fun k hk => rest3 k ((sp2 k).mpr hk)

/-- Steps of the torrent side are steps of the program. -/
theorem lift_torrent {a : Swarm.State} {l : List Swarm.Event} (hp : s.down.phase ≠ .done)
    (h : Swarm.Run w.cfg s.torrent l a) (ho : ∀ x ∈ l, OwnTorrent x) :
    ∃ s', Run w s (l.map .torrent) s' ∧ s'.torrent = a ∧ s'.dht = s.dht ∧ s'.down = s.down ∧ s'.trackers = s.trackers ∧
      s'.swarm.man = a.man ∧ s'.lookup = s.lookup := by
  induction h with
  | nil => exact ⟨s, .nil, rfl, rfl, rfl, rfl, rfl, rfl⟩
  | @snoc a1 a2 l x hr hs ih =>
    obtain ⟨s1, r1, t1, d1, dn1, tr1, _, lk1⟩ := ih (fun x hx => ho x (List.mem_append_left _ hx))
    subst t1
    refine ⟨{ s1 with swarm := a2, peers := a2.tm.peers }, ?_, rfl, d1, dn1, tr1, rfl, lk1⟩
    rw [List.map_append]
    exact .snoc r1 ⟨by rw [dn1]; exact hp, .torrent (ho x (by simp)) hs⟩

/-- The bytes read from peers, and from whom. -/
def readsOf (es : List Event) : List (Peer × Bytes) :=
  es.filterMap fun e => match e with
    | .torrent (.read q b) => some (q, b)
    | _ => none

/-- C122 is false of the program: whenever the tasks of all peers are at rest, the manager is at its `select!` with nothing
to do, and the table task as well, one `request` message of one peer can end all connections and the table task: a
schedule leads to a state in which the table task has failed and the manager is dead; from then on, whatever happens, no
routing table is stored and no peer is connected to. -/
theorem C122_one_peer_violated (w : World) (u : Setup) (s0 s : State) (es : List Event) (_ : Started w u s0)
    (_ : Run w s0 es s) (hp : s.down.phase ≠ .done) (hm : s.swarm.man = .loop) (hslots : s.swarm.tm.slots = 0)
    (hin : s.swarm.inbox = []) (hdht : s.swarm.dht = []) (hrest : ∀ k, s.swarm.Spawned k → AtRest (s.swarm.links k))
    (hrun : s.dht.man.status = .running) (htodo : s.dht.manTodo = []) (q : Peer) (hq : s.swarm.Spawned q)
    (hc : (s.swarm.links q).con = .reading) (chunk : Bytes) (r r' : RecvState) (rq : Request)
    (hcap : chunk.length ≤ (s.swarm.links q).recv.capacity) (hread : (s.swarm.links q).recv.onRead chunk = .ok r)
    (hdrain : r.drain 1 = .ok (r', [.request rq])) :
    ∃ es' s', Run w s es' s' ∧ readsOf es' = [(q, chunk)] ∧ s'.dht.man.status = .failed ∧ s'.swarm.man = .dead ∧
      ∀ es'' s'', Run w s' es'' s'' → storedTables (dhtEvents es'') = [] ∧ connectedTo (torrentEvents es'') = [] := by
  -- the message reaches the manager
  have hsp : s.torrent.Spawned q := hq
  have st1 : Swarm.Step w.cfg s.torrent (.read q chunk) _ := .read hsp hc hcap hread
  generalize hs1 : s.torrent.setLink q _ = a1 at st1
  have st2 : Swarm.Step w.cfg a1 (.parsed q (.request rq)) _ := .parsed (r := r')
    (by rw [← hs1]; exact hsp) (by rw [← hs1]; simp [Swarm.State.setLink])
    (by rw [← hs1]; simpa [Swarm.State.setLink] using hdrain)
  generalize hs2 : Swarm.State.setLink _ q _ = a2 at st2
  have hl2 : (a2.links q).con = .handing (.request rq) := by rw [← hs2]; simp [Swarm.State.setLink]
  have htm2 : a2.tm = s.torrent.tm := by rw [← hs2, ← hs1]; rfl
  have hm2 : a2.man = .loop := by rw [← hs2, ← hs1]; exact hm
  have hin2 : a2.inbox = [] := by rw [← hs2, ← hs1]; exact hin
  have hsp2 : a2.Spawned q := by simp only [Swarm.State.Spawned, htm2]; exact hsp
  have st3 : Swarm.Step w.cfg a2 (.handed q (.request rq)) _ :=
    .handOther hsp2 hl2 rfl (by rw [hm2]; simp) (by rw [hin2]; decide)
  generalize hs3 : ({ a2.setLink q { a2.links q with con := .parsing } with inbox := a2.inbox ++ [(q, .request rq)] } : Swarm.State)
    = a3 at st3
  have hin3 : a3.inbox = [(q, .request rq)] := by rw [← hs3]; simp [hin2]
  have htm3 : a3.tm = s.torrent.tm := by rw [← hs3]; exact htm2
  have hm3 : a3.man = .loop := by rw [← hs3]; exact hm2
  have st4 : Swarm.Step w.cfg a3 .manDies a3.manDies := .msgPanics hm3 (by rw [htm3]; exact hslots) hin3 rfl
  have hrest3 : ∀ k, a3.manDies.Spawned k → AtRest (a3.manDies.links k) := by
    intro k hk
    have hk' : s.swarm.Spawned k := by
      simp only [Swarm.State.Spawned, Swarm.State.manDies, htm3] at hk; exact hk
    have := hrest k hk'
    simp only [Swarm.State.manDies, ← hs3, ← hs2, ← hs1, Swarm.State.setLink]
    by_cases hkq : k = q
    · subst hkq
      simp only [if_true]
      refine ⟨.inr ⟨by simp [Swarm.Link.Up], ?_⟩, this.2⟩
      rcases this.1 with he | ⟨_, hs⟩
      · rw [hc] at he; cases he
      · exact hs
    · simp only [if_neg hkq]; exact this
  obtain ⟨es5, a5, r5, o5, tm5, d5, n5, p5, end5, -, -⟩ := all_leave w.cfg _ a3.manDies rfl (fun k hk => hk) hrest3
  have r4 : Swarm.Run w.cfg s.torrent ([.read q chunk, .parsed q (.request rq), .handed q (.request rq), .manDies] ++ es5) a5 :=
    Swarm.Run.append (.snoc (.snoc (.snoc (.snoc .nil st1) st2) st3) st4) r5
  obtain ⟨s6, r6, t6, dd6, dn6, -, m6, -⟩ := lift_torrent hp r4 (by
    intro x hx
    simp only [List.cons_append, List.nil_append, List.mem_cons] at hx
    rcases hx with rfl | rfl | rfl | rfl | hx
    · trivial
    · trivial
    · trivial
    · trivial
    · obtain ⟨k, rfl | rfl⟩ := o5 x hx <;> trivial)
  -- the table task fails
  have hclosed : s6.NodesClosed := by
    refine ⟨m6.trans d5, fun k hk => ?_, ?_⟩
    · have : s6.swarm.links = a5.links := by rw [← t6]; rfl
      rw [this]
      apply end5
      have : s6.swarm.tm.connection.spawned = a5.tm.connection.spawned := by rw [← t6]; rfl
      simp only [Swarm.State.Spawned, this, tm5] at hk
      exact hk
    · have : s6.swarm.dht = a5.dht := by rw [← t6]; rfl
      rw [this, n5]
      simp only [Swarm.State.manDies, ← hs3, ← hs2, ← hs1]
      exact hdht
  have st7 : DhtSystem.Step w.env w.refreshPause s6.nodes { man := some ⟨.peersGone, []⟩ }
      { s6.nodes with man := { s6.nodes.man with status := .failed }, manTodo := [] } :=
    .direct (by simp only [State.nodes, dd6]; exact htodo) trivial (.peersGone (by simp only [State.nodes, dd6]; exact hrun))
  refine ⟨_, _, .snoc r6 ⟨by rw [dn6]; exact hp, .nodesGone hclosed st7⟩, ?_, rfl, hclosed.1, fun es'' s'' hr'' => ⟨?_, ?_⟩⟩
  · have : ∀ l : List Swarm.Event, (∀ x ∈ l, ∃ k, x = .dlDies k ∨ x = .conLeaves k) → readsOf (l.map .torrent) = [] := by
      intro l
      induction l with
      | nil => intro _; rfl
      | cons x l ih =>
        intro hl
        have := ih fun y hy => hl y (List.mem_cons_of_mem _ hy)
        simp only [readsOf] at this ⊢
        obtain ⟨k, rfl | rfl⟩ := hl x (by simp) <;> simpa using this
    have := this _ o5
    simp only [readsOf] at this ⊢
    simp [this]
  · obtain ⟨l, rl, fl⟩ := run_dht hr''
    have := (failed_run (by rfl) rl).2
    rw [← fl]
    simp only [storedTables, List.filterMap_eq_nil_iff] at this ⊢
    exact fun x hx => this x ((List.mem_filter.mp hx).1)
  · obtain ⟨l, rl, fl⟩ := run_torrent hr''
    have := (Swarm.C115_dead_forever _ _ _ _ (by exact hclosed.1) rl).2.1
    rw [← fl]
    simp only [connectedTo, List.flatMap_eq_nil_iff] at this ⊢
    exact fun x hx => this x ((List.mem_filter.mp hx).1)

/-- A world for the examples. -/
def demoWorld : World := ⟨Swarm.written, demoEnv, fun _ => 0, fun _ => 0, 6887#16⟩

/-- A torrent of two pieces with one tracker. -/
def demoSetup : Setup := ⟨Swarm.hash1, twoPieces, 3, [ascii "http://a"], .default (exId 0#8), exId 1#8, exId 2#8, 0⟩

/-- The answer of a tracker that names one peer. -/
def namesA : TrackerResponse := ⟨none, 1800, none, none, 1, 0, [peerA]⟩

/-- The tracker names a peer, the manager connects to it. -/
def joinsA : List Event := [.tracker 0 .sends, .answered 0 namesA, .torrent (.man (.tick [peerA])),
  .torrent (.man .nothing), .torrent (.shake peerA true)]

/-- An orderly end. -/
def orderly : List Event := joinsA ++ [.signal, .trackerNotices 0,
  .tableNotices [.stored (.default (exId 0#8))], .trackerEnds 0, .dht { stored := some (.default (exId 0#8)) }, .tableEnds,
  .exits]

example : demo demoWorld demoSetup orderly (fun s => s.down.phase) = some .done := by decide +kernel

/-- A routing table with one node. -/
def oneNode : RoutingTable :=
  match (RoutingTable.default (exId 0#8)).touchNode 5 (exId 7#8) (exAddr 1) with
  | .ok t => t
  | _ => .default (exId 0#8)

/-- The ping the table task sends at the start. -/
def firstPing : Event := .dht { put := some (.manager, .query DhtManager.OWN_CHANNEL (exAddr 1) .ping) }

/-- The tracker names A, the manager connects to A, A sends a `request`, the manager dies, and with it the rest. -/
def oneRequest : List Event := joinsA ++ [firstPing,
  .torrent (.read peerA (wire (.request ⟨0#32, 0#32, 16384#32⟩))),
  .torrent (.parsed peerA (.request ⟨0#32, 0#32, 16384#32⟩)), .torrent (.handed peerA (.request ⟨0#32, 0#32, 16384#32⟩)),
  .torrent (.parsedAll peerA), .torrent .manDies, .torrent (.dlDies peerA), .torrent (.conLeaves peerA), .nodesGone,
  .tableEnds]

/-- C119 is false of the program, for the table: the routing table holds a node, every datagram was harmless, the process
ends after Ctrl-C, and the table was never written. -/
theorem C119_table_lost_violated :
    ∃ w u s0 s es, Started w u s0 ∧ Run w s0 es s ∧ .exits ∈ es ∧ u.table.iterNodes ≠ [] ∧ ¬ FatalDatagram es ∧
      storedTables (dhtEvents es) = [] := by
  have : demo demoWorld { demoSetup with table := oneNode }
      (oneRequest ++ [.signal, .trackerNotices 0, .trackerEnds 0, .exits]) (fun s => s.down.phase) = some .done := by
    decide +kernel
  obtain ⟨s0, s, h0, h, _⟩ := demo_sound this
  refine ⟨_, _, s0, s, _, h0, h, by simp, by decide +kernel, ?_, rfl⟩
  rintro ⟨e, he, hf⟩
  revert he hf
  simp only [dhtEvents, oneRequest, joinsA, firstPing]
  simp only [List.cons_append, List.nil_append, List.filterMap_cons, List.filterMap_nil, List.mem_cons, List.not_mem_nil,
    or_false]
  rintro (rfl | rfl) hf <;> cases hf

/-- C119 is false of the program, for the trackers: a tracker that has answered an announce is left without 'stopped', as
the task waits for the answer to the second announce when Ctrl-C is pressed. -/
theorem C119_not_told_violated :
    ∃ w u s0 s es t, Started w u s0 ∧ Run w s0 es s ∧ .exits ∈ es ∧ s.trackers = [t] ∧ Answered t.log ∧
      ¬ ToldStopped t.log := by
  have : demo demoWorld demoSetup (joinsA ++ [.tracker 0 (.intervalTimer 0), .tracker 0 .sends, .signal, .trackerNotices 0,
      .tableNotices [.stored (.default (exId 0#8))], .trackerEnds 0, .dht { stored := some (.default (exId 0#8)) },
      .tableEnds, .exits]) (fun s => (s.trackers.map fun t => t.log.map fun e => match e with
        | .sent a => (a.event, false)
        | .answered _ => (none, true)
        | _ => (some .completed, false))) = some [[(some .completed, false), (some .started, false), (none, true),
          (some .completed, false), (some .completed, false), (some .completed, false), (none, false)]] := by
    decide +kernel
  obtain ⟨s0, s, h0, h, hf⟩ := demo_sound this
  have hlen : s.trackers.length = 1 := by have := congrArg List.length hf; simpa using this
  obtain ⟨t, ht⟩ := List.length_eq_one_iff.mp hlen
  rw [ht] at hf
  simp only [List.map_cons, List.map_nil, List.cons.injEq, and_true] at hf
  refine ⟨_, _, s0, s, _, t, h0, h, by simp [joinsA], ht, ?_, ?_⟩
  · have h2 : (none, true) ∈ t.log.map fun e => match e with
        | .sent a => (a.event, false)
        | .answered _ => (none, true)
        | _ => (some .completed, false) := by rw [hf]; simp
    obtain ⟨e, he, h3⟩ := List.mem_map.mp h2
    cases e with
    | answered r => exact ⟨r, he⟩
    | _ => simp at h3
  · rintro ⟨a, h1, h2⟩
    have h3 := congrArg List.getLast? hf
    rw [List.getLast?_map, h1] at h3
    simp [h2] at h3

/-- The hypotheses of `C122_one_peer_violated` are met. -/
example : demo demoWorld { demoSetup with table := oneNode } (joinsA ++ [firstPing]) (fun s =>
    decide (s.swarm.man = .loop) && decide (s.swarm.tm.slots = 0) && decide (s.swarm.inbox = []) &&
    decide (s.swarm.dht = []) && decide (s.swarm.tm.connection.spawned = [peerA]) &&
    decide ((s.swarm.links peerA).con = .reading) && decide ((s.swarm.links peerA).sends = []) &&
    decide ((s.swarm.links peerA).commands = []) && decide ((s.swarm.links peerA).report = none) &&
    decide (s.dht.man.status = .running) && decide (s.dht.manTodo = [])) = some true := by decide +kernel

end Nargun.Program
