import Verif.Spec.Ready
import Verif.Props.Program

/-! # C159: a task that is not busy responds to whatever it waits for

What a task can do by itself it can do in the program: nothing else stands in its way. -/

namespace Nargun

open Spec Program

theorem head_cons {α} {l : List α} {a : α} (h : l.head? = some a) : ∃ r, l = a :: r := by
  cases l with
  | nil => cases h
  | cons b r => cases h; exact ⟨r, rfl⟩

/-- C159: whatever the table task would do by itself, it does in the DHT, unless it is busy. -/
theorem C159_dht (env : Dht.Env) (pause : Nat → Nat) (s : DhtSystem.State) (e : DhtManager.Entry) (m : DhtManager.Manager)
    (hb : s.manTodo = [] ∨ Aside e.event) (ho : DhtOffers s e.event) (hm : DhtManager.Step pause s.man e m) :
    ∃ s', DhtSystem.Step env pause s { man := some e } s' ∧ s'.man = m := by
  cases hm with
  | shutdown h =>
    have hb := hb.resolve_right (fun h => h)
    exact ⟨_, .direct hb trivial (.shutdown h), rfl⟩
  | refresh h1 h2 h3 h4 =>
    have hb := hb.resolve_right (fun h => h)
    exact ⟨_, .direct hb trivial (.refresh h1 h2 h3 h4), rfl⟩
  | peerNode h1 h2 =>
    have hb := hb.resolve_right (fun h => h)
    exact ⟨_, .direct hb trivial (.peerNode h1 h2), rfl⟩
  | peersGone h =>
    have hb := hb.resolve_right (fun h => h)
    exact ⟨_, .direct hb trivial (.peersGone h), rfl⟩
  | query h1 h2 h3 =>
    have hb := hb.resolve_right (fun h => h)
    obtain ⟨r, hr⟩ := head_cons ho
    exact ⟨_, .takeQuery hb hr (.query h1 h2 h3), rfl⟩
  | resp h1 h2 =>
    have hb := hb.resolve_right (fun h => h)
    obtain ⟨r, hr⟩ := head_cons ho
    exact ⟨_, .takeAnswer hb hr (.resp h1 h2), rfl⟩
  | conGone h =>
    have hb := hb.resolve_right (fun h => h)
    exact ⟨_, .conGone hb ho.1 ho.2 (.conGone h), rfl⟩
  | others h => exact ⟨_, .outside trivial (.others h), rfl⟩
  | pass => exact ⟨_, .outside trivial .pass, rfl⟩
  | reorder h => exact ⟨_, .outside trivial (.reorder h), rfl⟩

/-- C159: whatever the table task would do by itself, it does in the program, unless it is busy. -/
theorem C159_table (w : World) (s : State) (e : DhtManager.Entry) (m : DhtManager.Manager) (hd : s.down.phase ≠ .done)
    (hb : s.dht.manTodo = [] ∨ Aside e.event) (ho : TableOffers s e.event)
    (hm : DhtManager.Step w.refreshPause { s.dht.man with peers := s.peers } e m) :
    ∃ ev s', Step w s ev s' ∧ s'.dht.man = m := by
  have hof : DhtOffers s.nodes e.event := by
    cases hm <;> first | exact ho | trivial
  obtain ⟨d, h1, h2⟩ := C159_dht w.env w.refreshPause s.nodes e m hb hof hm
  obtain ⟨ev, outs⟩ := e
  have own : OwnTable ev → ∃ ev s', Step w s ev s' ∧ s'.dht.man = m := fun h =>
    have hown : OwnDht { man := some ⟨ev, outs⟩ } :=
      ⟨fun m hx => (Option.some.inj hx) ▸ h, fun c hx => (nomatch hx), rfl, rfl⟩
    ⟨_, _, ⟨hd, .dht hown h1⟩, h2⟩
  cases ev with
  | shutdown =>
    obtain ⟨x, hx⟩ := ho
    exact ⟨_, _, ⟨hd, .tableNotices (.recv hx) h1⟩, h2⟩
  | peerNode a =>
    obtain ⟨hq, hx⟩ := ho
    obtain ⟨r, hr⟩ := head_cons hq
    exact ⟨_, _, ⟨hd, .node (.dhtTakes hr hx) h1⟩, h2⟩
  | peersGone =>
    cases hm
    exact ⟨_, _, ⟨hd, .nodesGone ho h1⟩, h2⟩
  | others op => exact ho.elim
  | refresh rb rt => exact own trivial
  | query q => exact own trivial
  | resp r => exact own trivial
  | conGone => exact own trivial
  | pass d => exact own trivial
  | reorder => exact own trivial

/-- C159: whatever the task of the socket would do by itself, it does in the program, unless it is busy. (That a queue is
closed is not an event of its own here but follows from the state of the table task.) -/
theorem C159_socket (w : World) (s : State) (e : Dht.Entry) (c : Dht.Con) (hd : s.down.phase ≠ .done)
    (ha : s.dht.conAlive = true) (hb : s.dht.conTodo = [])
    (ho : ∀ tid cmd, e.event = .command tid cmd → s.dht.commands.head? = some cmd) (hc : ∀ ch, e.event ≠ .closed ch)
    (hm : Dht.Con.Step w.env s.dht.con e c) : ∃ ev s', Step w s ev s' ∧ s'.dht.con = c := by
  have own : ∀ x : DhtSystem.Entry, x.man = none → x.put = none → x.heard = none → x.spawned = none → OwnDht x := by
    intro x h1 h2 h3 h4
    refine ⟨fun m hx => ?_, fun c hx => ?_, h3, h4⟩
    · rw [h1] at hx; cases hx
    · rw [h2] at hx; cases hx
  cases hm with
  | datagram h => exact ⟨_, _, ⟨hd, .dht (own _ rfl rfl rfl rfl) (.datagram ha hb (.datagram h))⟩, rfl⟩
  | command h h2 =>
    obtain ⟨r, hr⟩ := head_cons (ho _ _ rfl)
    exact ⟨_, _, ⟨hd, .dht (own _ rfl rfl rfl rfl) (.command ha hb hr (.command h h2))⟩, rfl⟩
  | closed => exact absurd rfl (hc _)
  | reorder h => exact ⟨_, _, ⟨hd, .dht (own _ rfl rfl rfl rfl) (.reorder (.reorder h))⟩, rfl⟩

/-- C159: whatever the torrent side would do by itself, it does in the program, apart from what the DHT takes part in. -/
theorem C159_torrent (w : World) (s : State) (e : Swarm.Event) (sw : Swarm.State) (hd : s.down.phase ≠ .done)
    (ho : (∀ op, e ≠ .man (.peers op)) ∧ (∀ a, e ≠ .dhtTakes a) ∧ e ≠ .dhtEnds)
    (hm : Swarm.Step w.cfg { s.swarm with tm := { s.swarm.tm with peers := s.peers } } e sw) :
    ∃ s', Step w s (.torrent e) s' ∧ s'.swarm = sw ∧ s'.peers = sw.tm.peers := by
  have own : OwnTorrent e := by
    unfold OwnTorrent
    split
    · exact ho.1 _ rfl
    · exact ho.2.1 _ rfl
    · exact ho.2.2 rfl
    · trivial
  exact ⟨_, ⟨hd, .torrent own hm⟩, rfl, rfl⟩

/-- C159: whatever the lookup task would do by itself, it does in the program, unless it is busy. -/
theorem C159_lookup (w : World) (s : State) (l : Lookup) (e : Fetch.Entry) (f : Fetch.Fetcher) (hd : s.down.phase ≠ .done)
    (hl : s.lookup = some l) (hb : (l.alive = true ∧ l.todo = []) ∨ e.event = .reorder ∨ ∃ d, e.event = .pass d)
    (ho : LookupOffers s e.event) (hm : Fetch.Step w.lookupPause { l.task with peers := s.peers } e f) :
    ∃ ev s' l', Step w s ev s' ∧ s'.lookup = some l' ∧ l'.task = f ∧ l'.alive = l.alive := by
  have res : (e.event ≠ .reorder ∧ ∀ d, e.event ≠ .pass d) → l.alive = true ∧ l.todo = [] := by
    rintro ⟨h1, h2⟩
    rcases hb with h | h | ⟨d, h⟩
    · exact h
    · exact absurd h h1
    · exact absurd h (h2 d)
  cases hm with
  | tick h1 h2 =>
    obtain ⟨ha, ht⟩ := res ⟨by simp, by simp⟩
    exact ⟨_, _, _, ⟨hd, .look hl ha ht (show LookTurn .tick from trivial) (.tick h1 h2)⟩, rfl, rfl, rfl⟩
  | answer h1 =>
    obtain ⟨ha, ht⟩ := res ⟨by simp, by simp⟩
    obtain ⟨r, hr⟩ := head_cons ho
    exact ⟨_, _, _, ⟨hd, .hears hl ha ht (.hear (by decide) hr) (.answer h1)⟩, rfl, rfl, rfl⟩
  | timeout h1 h2 =>
    obtain ⟨ha, ht⟩ := res ⟨by simp, by simp⟩
    exact ⟨_, _, _, ⟨hd, .look hl ha ht (show LookTurn .timeout from trivial) (.timeout h1 h2)⟩, rfl, rfl, rfl⟩
  | others h => exact ho.elim
  | @pass d => exact ⟨_, _, _, ⟨hd, .lookIdle hl (show LookIdle (.pass d) from trivial) .pass⟩, rfl, rfl, rfl⟩
  | reorder h => exact ⟨_, _, _, ⟨hd, .lookIdle hl (show LookIdle .reorder from trivial) (.reorder h)⟩, rfl, rfl, rfl⟩

/-- C159: whatever the task of a tracker would do by itself, it does in the program. -/
theorem C159_tracker (w : World) (s : State) (i : Nat) (t t' : TrackerTask) (inp : TrackerInput) (hd : s.down.phase ≠ .done)
    (hi : s.trackers[i]? = some t) (ho : TrackerOffers s i inp) (hm : t.step inp = .ok t') :
    ∃ ev s', Step w s ev s' ∧ s'.trackers[i]? = some t' := by
  have hlt : i < s.trackers.length := by
    rcases Nat.lt_or_ge i s.trackers.length with h | h
    · exact h
    · rw [List.getElem?_eq_none h] at hi; cases hi
  have hset : (s.trackers.set i t')[i]? = some t' := by
    rw [List.getElem?_set_self hlt]
  cases inp with
  | sends => exact ⟨_, _, ⟨hd, .tracker hi (show OwnTracker .sends from trivial) hm⟩, hset⟩
  | fails => exact ⟨_, _, ⟨hd, .tracker hi (show OwnTracker .fails from trivial) hm⟩, hset⟩
  | retryTimer => exact ⟨_, _, ⟨hd, .tracker hi (show OwnTracker .retryTimer from trivial) hm⟩, hset⟩
  | intervalTimer n => exact ⟨_, _, ⟨hd, .tracker hi (show OwnTracker (.intervalTimer n) from ho) hm⟩, hset⟩
  | completed n => exact ho.elim
  | completionClosed => exact ho.elim
  | answers r =>
    obtain ⟨u, hu, hp⟩ := ho
    rw [hi] at hu
    cases hu
    exact ⟨_, _, ⟨hd, .answered hi hp hm⟩, hset⟩
  | shutdown n =>
    obtain ⟨rfl, ⟨u, hu, hp⟩, x, hx⟩ := ho
    rw [hi] at hu
    cases hu
    exact ⟨_, _, ⟨hd, .trackerNotices hi hp (.recv hx) hm⟩, hset⟩

/-- `C159_dht`: the table task at the start, when the signal comes; a routing table without nodes. -/
example (env : Dht.Env) (pause : Nat → Nat) (h sec own : ID) :
    ∃ s', DhtSystem.Step env pause (.start h sec (.default own) (.new h) 0)
      { man := some ⟨.shutdown, [.stored (.default own)]⟩ } s' ∧ s'.man.status = .finished :=
  have ⟨s', h1, h2⟩ := C159_dht env pause (.start h sec (.default own) (.new h) 0)
    ⟨.shutdown, [.stored (.default own)]⟩ _ (.inl rfl) trivial (.shutdown rfl)
  ⟨s', h1, by rw [h2]⟩

/-- `C159_table` and `C159_tracker`: after a peer was named and connected to and Ctrl-C was pressed, neither task is busy
and the signal reaches both. -/
example : demo demoWorld demoSetup (joinsA ++ [.signal]) (fun s => decide (s.down.phase ≠ .done) &&
    decide (s.dht.manTodo = []) && decide (s.dht.man.status = .running) &&
    (match s.down.recv 1 with | some (.ok _) => true | _ => false) &&
    (match s.down.recv 3 with | some (.ok _) => true | _ => false) &&
    decide ((s.trackers[0]?.map TrackerTask.phase) ≠ some .exited)) = some true := by decide +kernel

end Nargun
