import Verif.Props.ProgramTargets

/-! # The end of the program: C120 -/

set_option linter.unusedSimpArgs false

namespace Nargun.Program

open Nargun Dht Krpc Spec DhtManager DhtSystem

variable {w : World} {u : Setup} {s0 s s' : State} {e : Event} {es : List Event}

/-! ## Steps of the DHT as steps of the program -/

/-- The nodes of the lookup that is started in this step of the DHT. -/
def startedIn (e : DhtSystem.Entry) : Option (List Node) := if e.man.isSome then none else e.spawned

/-- The lookups that were started and those that the table task is about to start. -/
theorem spawned_count {env : Env} {pause : Nat → Nat} {infoHash secret : ID} {table : RoutingTable} {peers : Peers} {now : Nat}
    {h : List DhtSystem.Entry} {d : DhtSystem.State}
    (hr : DhtSystem.Run env pause (DhtSystem.State.start infoHash secret table peers now) h d) :
    (h.filterMap startedIn).length + (lookups d.manTodo).length ≤ (lookups (allOutputs (manHistory h))).length := by
  generalize h0 : DhtSystem.State.start infoHash secret table peers now = d0 at hr
  induction hr with
  | nil =>
    subst h0
    have : lookups (startOutputs table) = [] := by
      simp [lookups, startOutputs, List.filterMap_eq_nil_iff, ping]
    show 0 + (lookups (startOutputs table)).length ≤ _
    rw [this]; simp
  | @snoc d1 d2 h e hr hs ih =>
    have app : ∀ me, allOutputs (manHistory h ++ [me]) = allOutputs (manHistory h) ++ me.outputs := by
      intro me; simp [allOutputs]
    have lapp : ∀ a b : List Out, lookups (a ++ b) = lookups a ++ lookups b := fun a b => List.filterMap_append
    have man : ∀ me : DhtManager.Entry, manHistory (h ++ [{ man := some me }]) = manHistory h ++ [me] := by
      intro me; simp [manHistory]
    have nman : ∀ e : DhtSystem.Entry, e.man = none → manHistory (h ++ [e]) = manHistory h := by
      intro e he; simp [manHistory, he]
    have nsp : ∀ e : DhtSystem.Entry, startedIn e = none → (h ++ [e]).filterMap startedIn = h.filterMap startedIn := by
      intro e he; simp [he]
    cases hs with
    | direct h1 | takeQuery h1 | takeAnswer h1 =>
      rw [man, app, lapp, nsp _ rfl, List.length_append]
      simp only [h1, lookups, List.filterMap_nil, List.length_nil] at ih ⊢
      omega
    | conGone | outside | putFails =>
      rw [man, app, lapp, nsp _ rfl, List.length_append]
      simp only [lookups, List.filterMap_nil, List.length_nil] at ih ⊢
      omega
    | putCommand _ h2 | stores _ h2 =>
      rw [nman _ rfl, nsp _ rfl]
      simp only [h2, lookups, List.filterMap_cons] at ih ⊢
      exact ih
    | spawns _ h2 =>
      rw [nman _ rfl, List.filterMap_append, List.length_append]
      simp only [h2, lookups, startedIn, List.filterMap_cons, List.length_cons, List.filterMap_nil, List.length_nil,
        Option.isSome, Bool.false_eq_true, if_false] at ih ⊢
      omega
    | _ => rw [nman _ rfl, nsp _ rfl]; exact ih

theorem lookup_spawned (h0 : s0.lookup = none) (h : Run w s0 es s) :
    s.lookup = none ∨ (dhtEvents es).filterMap startedIn ≠ [] := by
  induction h with
  | nil => exact .inl h0
  | @snoc s1 s2 es e hr hs ih =>
    have keep : (dhtEvents es).filterMap startedIn ≠ [] → (dhtEvents (es ++ [e])).filterMap startedIn ≠ [] := by
      intro h1 h2
      rw [dhtEvents_snoc, List.filterMap_append] at h2
      exact h1 (List.append_eq_nil_iff.mp h2).1
    have absurd' : ∀ {l : Lookup}, s1.lookup = some l → (dhtEvents es).filterMap startedIn ≠ [] := by
      intro l hl
      rcases ih with h | h
      · rw [hl] at h; cases h
      · exact h
    cases hs.2 with
    | lookup => right; rw [dhtEvents_snoc, List.filterMap_append]; simp [dhtEvents, startedIn]
    | look h1 => exact .inr (keep (absurd' h1))
    | lookIdle h1 => exact .inr (keep (absurd' h1))
    | asks h1 => exact .inr (keep (absurd' h1))
    | asksNobody h1 => exact .inr (keep (absurd' h1))
    | hears h1 => exact .inr (keep (absurd' h1))
    | _ => exact ih.imp id keep

/-- When a lookup is about to be started there is none yet. -/
theorem lookup_none (ht : Reachable u.table) (h0 : Started w u s0) (h : Run w s0 es s) {ns : List Node} {rest : List Out}
    (hm : s.dht.manTodo = .lookups ns :: rest) : s.lookup = none := by
  rcases lookup_spawned h0.lookup h with h1 | h1
  · exact h1
  · obtain ⟨l, hl, hf⟩ := started_dht h0 h
    have hc := spawned_count hl
    have h2 := (C99_lookups ht .nil (Flow.run hl).man).1
    have h3 : l.filterMap startedIn = (dhtEvents es).filterMap startedIn := by
      refine filterMap_others _ (fun e he => ?_) hf
      unfold isOthers at he
      split at he
      · next hm' =>
        simp [startedIn, hm']
      · cases he
    rw [h3] at hc
    have h4 : 0 < ((dhtEvents es).filterMap startedIn).length := List.length_pos_iff.mpr h1
    have h5 : (lookups s.nodes.manTodo).length = (lookups rest).length + 1 := by
      show (lookups s.dht.manTodo).length = _
      rw [hm]; simp [lookups]
    omega

/-- What the tasks of the DHT do by themselves, the program does. -/
theorem lift_dht (ht : Reachable u.table) (h0 : Started w u s0) (h : Run w s0 es s) (hp : s.down.phase ≠ .done)
    {l : List DhtSystem.Entry} {d : DhtSystem.State} (hl : DhtSystem.Run w.env w.refreshPause s.nodes l d)
    (ha : ∀ e ∈ l, Alone e ∨ e.man = some ⟨.conGone, []⟩) :
    ∃ es' s', Run w s es' s' ∧ dhtEvents es' = l ∧ s'.nodes = d ∧ s'.down = s.down ∧ s'.trackers = s.trackers ∧
      ∀ e ∈ es', (∃ x ∈ l, e = .dht x) ∨ ∃ ns now, e = .lookup ns now := by
  generalize hn : s.nodes = n at hl
  induction hl with
  | nil => exact ⟨[], s, .nil, rfl, hn, rfl, rfl, by simp⟩
  | @snoc d1 d2 l x hl hs ih =>
    obtain ⟨es1, s1, r1, e1, n1, p1, t1, o1⟩ := ih (fun e he => ha e (List.mem_append_left _ he))
    have hx := ha x (by simp)
    subst n1
    have o1' : ∀ e ∈ es1, (∃ y ∈ l ++ [x], e = .dht y) ∨ ∃ ns now, e = .lookup ns now := fun e he =>
      (o1 e he).imp (fun ⟨y, hy, h⟩ => ⟨y, List.mem_append_left _ hy, h⟩) id
    by_cases hsp : x.spawned = none
    · have own : OwnDht x := by
        rcases hx with hx | hx
        · refine ⟨fun m hm => ?_, hx.put, hx.heard, hsp⟩
          rcases hx.man m hm with ⟨q, h⟩ | ⟨q, h⟩ <;> rw [h] <;> trivial
        · cases hs with
          | conGone | putFails => exact ⟨by rintro m h; cases h; trivial, by simp, rfl, rfl⟩
          | outside h1 => cases hx; exact absurd h1 id
          | direct _ h1 => cases hx; exact absurd h1 id
          | _ => cases hx
      refine ⟨es1 ++ [.dht x], { s1 with dht := d2, peers := d2.man.peers }, r1.snoc ⟨by rw [p1]; exact hp, .dht own hs⟩, ?_, rfl, p1, t1, ?_⟩
      · rw [dhtEvents_snoc, e1]; rfl
      · intro e he
        rcases List.mem_append.mp he with he | he
        · exact o1' e he
        · exact .inl ⟨x, by simp, by simpa using he⟩
    · cases hs with
      | @spawns ns rest h1 h2 =>
        have hnone := lookup_none ht h0 (h.trans r1) (show s1.dht.manTodo = _ from h2)
        have hturn := Turn.lookup (w := w) (now := 0) hnone (.spawns h1 h2)
        have r2 := r1.snoc ⟨by rw [p1]; exact hp, hturn⟩
        refine ⟨_, _, r2, ?_, rfl, p1, t1, ?_⟩
        · rw [dhtEvents_snoc, e1]; rfl
        · intro e he
          rcases List.mem_append.mp he with he | he
          · exact o1' e he
          · exact .inr ⟨ns, 0, by simpa using he⟩
      | _ => exact absurd rfl hsp

/-! ## The program that does not end -/

theorem dropSender_startup (n : Nat) : Shutdown.Event.dropSender ∉ startupEvents n := by
  have clones : ∀ n k, Shutdown.Event.dropSender ∉ clonesMade k n := by
    intro n
    induction n with
    | zero => intro k; simp [clonesMade]
    | succ n ih => intro k; simp [clonesMade, ih]
  simp [startupEvents, clones]

theorem send_mem : Shutdown.Event.send ∈ startupEvents u.urls.length ++ downEvents es ↔ .signal ∈ es := by
  constructor
  · intro hm
    rcases List.mem_append.mp hm with hm | hm
    · exact absurd hm (send_startup _)
    · rcases mem_down hm with ⟨_, h⟩ | ⟨_, h⟩ | ⟨_, _, h⟩ | ⟨_, _, h⟩ | ⟨h, _⟩ | ⟨_, h⟩
      all_goals first | exact h | cases h
  · intro h
    exact List.mem_append_right _ (List.mem_filterMap.mpr ⟨_, h, rfl⟩)

theorem dropSender_mem : Shutdown.Event.dropSender ∉ startupEvents u.urls.length ++ downEvents es := by
  intro hm
  rcases List.mem_append.mp hm with hm | hm
  · exact dropSender_startup _ hm
  · rcases mem_down hm with ⟨_, h⟩ | ⟨_, h⟩ | ⟨_, _, h⟩ | ⟨_, _, h⟩ | ⟨_, h⟩ | ⟨_, h⟩ <;> cases h

theorem waited_mem (hx : .exits ∉ es) : Shutdown.Event.waited ∉ startupEvents u.urls.length ++ downEvents es := by
  have clones : ∀ n k, Shutdown.Event.waited ∉ clonesMade k n := by
    intro n
    induction n with
    | zero => intro k; simp [clonesMade]
    | succ n ih => intro k; simp [clonesMade, ih]
  intro hm
  rcases List.mem_append.mp hm with hm | hm
  · simp [startupEvents, clones] at hm
  · rcases mem_down hm with ⟨_, h⟩ | ⟨_, h⟩ | ⟨_, _, h⟩ | ⟨_, _, h⟩ | ⟨_, h⟩ | ⟨h, _⟩
    all_goals first | exact hx h | cases h

theorem phase_holding (h0 : Started w u s0) (h : Run w s0 es s) (hs : .signal ∉ es) : s.down.phase = .holding :=
  (Shutdown.Inv.run (started_down h0 h)).holding.mpr ⟨fun hm => hs (send_mem.mp hm), dropSender_mem⟩

theorem not_done (h0 : Started w u s0) (h : Run w s0 es s) (hx : .exits ∉ es) : s.down.phase ≠ .done := by
  by_cases hs : .signal ∈ es
  · rw [(Shutdown.Inv.run (started_down h0 h)).waiting.mpr ⟨send_mem.mpr hs, dropSender_mem, waited_mem hx⟩]; simp
  · rw [phase_holding h0 h hs]; simp

/-- C120 is violated: whenever Ctrl-C was not pressed yet, the tasks of the DHT are at the beginning of their loops, no query
of another node waits and the table holds a node, copies of one small datagram that asks for this node, at most 1282 of
them, can bring the program into a state in which Ctrl-C does not end it: whatever happens afterwards, the process
does not end, no datagram leaves and the routing table is not written. -/
theorem C120_hangs_violated (w : World) (u : Setup) (s0 s : State) (es : List Event) (ht : Reachable u.table)
    (hint : ∀ n : Nat, n < 2 ^ 32 → w.env.lib.intOk n = true) (hu : w.env.lib.utf8 (ascii "find_node") = true)
    (h0 : Started w u s0) (h : Run w s0 es s) (hsig : .signal ∉ es)
    (halive : s.dht.conAlive = true) (hrun : s.dht.man.status = .running) (hcon : s.dht.conTodo = [])
    (hman : s.dht.manTodo = []) (hq : s.dht.queries = []) (x : Node) (hx : x ∈ s.dht.man.table.iterNodes)
    (a : SockAddr) (id : ID) (t : Bytes) (hb : (Message.findNodesQuery id x.id t).intoBytes.length ≤ 2 * 1300) :
    ∃ es1 s1 s2, Run w s es1 s1 ∧
      arrivals (dhtEvents es1) = List.replicate (2 ^ 10 - s.dht.commands.length + 2 ^ 8 + 2)
        (some a, (Message.findNodesQuery id x.id t).intoBytes) ∧
      (∀ e ∈ es1, (∃ y, e = .dht y) ∨ ∃ ns now, e = .lookup ns now) ∧
      Step w s1 .signal s2 ∧ ∀ es3 s3, Run w s2 es3 s3 → .exits ∉ es3 ∧ sent (dhtEvents es3) = [] ∧
        storedTables (dhtEvents es3) = [] := by
  have hhold := phase_holding h0 h hsig
  obtain ⟨l, hl, _⟩ := started_dht h0 h
  obtain ⟨l1, d1, r1, a1, _, st1, al1⟩ := flood_stuck ht .nil hint hu hl halive hrun hcon hman hq x hx a id t hb
  obtain ⟨es1, s1, q1, e1, n1, p1, _, o1⟩ := lift_dht ht h0 h (by rw [hhold]; simp) r1 (fun e he => .inl (al1 e he))
  have hsend : Step w s1 .signal { s1 with down := s1.down.send } :=
    ⟨by rw [p1, hhold]; simp, .signal (.send (by rw [p1]; exact hhold))⟩
  refine ⟨es1, s1, _, q1, by rw [e1]; exact a1, fun e he => (o1 e he).imp (fun ⟨y, _, h⟩ => ⟨y, h⟩) _root_.id, hsend,
    fun es3 s3 r3 => ?_⟩
  have q3 := ((h.trans q1).snoc hsend).trans r3
  obtain ⟨l3, k3, f3⟩ := run_dht r3
  obtain ⟨st3, g1, g2, _⟩ := stuck_run (s := d1) st1 (by rw [← n1]; exact k3)
  have hsub : ∀ e ∈ dhtEvents es3, e ∈ l3 := fun e he => (List.mem_filter.mp (f3 ▸ he)).1
  refine ⟨fun hm => ?_, ?_, ?_⟩
  · exact ((table_inv h0 q3).ended (exit_ends h0 q3 (by simp [hm])).2.1).1 st3.running
  · exact List.filterMap_eq_nil_iff.mpr fun e he => List.filterMap_eq_nil_iff.mp g1 e (hsub e he)
  · exact List.filterMap_eq_nil_iff.mpr fun e he => List.filterMap_eq_nil_iff.mp g2 e (hsub e he)

/-! ## The program that ends -/

/-- Nobody has noticed the signal while the table task is running, and it holds its end of the queue of nodes. -/
structure HoldsInv (es : List Event) (s : State) : Prop where
  unnoticed : s.dht.man.status = .running → ∀ outs, .tableNotices outs ∉ es
  opened : .tableEnds ∉ es → s.swarm.dhtOpen = true

theorem holds_inv (h0 : Started w u s0) (h : Run w s0 es s) : HoldsInv es s := by
  induction h with
  | nil =>
    refine ⟨by simp, fun _ => ?_⟩
    have h := h0.swarm
    simp only [Swarm.State.start] at h
    obtain ⟨tm, _, h⟩ := Res.bind_eq_ok.mp h
    obtain ⟨pend, _, h⟩ := Res.bind_eq_ok.mp h
    rw [← Res.ok.inj h]
  | @snoc s1 s2 es e hr hs ih =>
    have swarm : ∀ {x sw}, Swarm.Step w.cfg s1.torrent x sw → x ≠ .dhtEnds → sw.dhtOpen = s1.swarm.dhtOpen := by
      intro x sw hx hne
      cases hx <;> first | rfl | exact absurd rfl hne
    refine ⟨fun hrun outs hm => ?_, fun hn => ?_⟩
    · have keep : s1.dht.man.status = .running := by
        refine Classical.byContradiction fun hne => ?_
        rcases turn_dhtStep hs.2 with ⟨_, h2⟩ | ⟨x, _, h2, _⟩
        · rw [h2] at hrun; exact hne hrun
        · exact (dht_ends h2).1 hne hrun
      rcases List.mem_append.mp hm with hm | hm
      · exact ih.unnoticed keep outs hm
      · simp only [List.mem_singleton] at hm
        subst hm
        cases hs.2 with
        | tableNotices _ h2 =>
          cases h2 with
          | direct _ _ h3 => cases h3; cases hrun
          | outside h1 => exact absurd h1 id
    · have hn1 : .tableEnds ∉ es := fun h => hn (List.mem_append_left _ h)
      have := ih.opened hn1
      cases hs.2 with
      | @torrent x sw h1 h2 =>
        exact (swarm h2 (by rintro rfl; exact h1)).trans this
      | node h1 => exact (swarm h1 (by simp)).trans this
      | tableEnds => simp at hn
      | _ => exact this

theorem shutdown_exits {t t' : TrackerTask} {n : Nat} (h : t.step (.shutdown n) = .ok t') : t'.phase = .exited := by
  cases hp : t.phase with
  | waiting secs =>
    simp only [TrackerTask.step, hp] at h
    obtain ⟨_, _, h⟩ := Res.bind_eq_ok.mp h
    rw [← Res.ok.inj h]
  | exited => rw [exited_step hp] at h; rw [← Res.ok.inj h]; exact hp
  | _ => simp only [TrackerTask.step, hp] at h; rw [← Res.ok.inj h]

theorem run_exits : ∀ {is : List TrackerInput} {t t' : TrackerTask} {n : Nat}, t.run is = .ok t' → .shutdown n ∈ is →
    t'.phase = .exited := by
  have stays : ∀ (is : List TrackerInput) {t t' : TrackerTask}, t.phase = .exited → t.run is = .ok t' → t' = t := by
    intro is
    induction is with
    | nil => intro t t' _ h; exact (Res.ok.inj h).symm
    | cons i is ih =>
      intro t t' hp h
      simp only [TrackerTask.run, exited_step hp, Res.ok_bind] at h
      exact ih hp h
  intro is
  induction is with
  | nil => intro t t' n _ h; simp at h
  | cons i is ih =>
    intro t t' n h hm
    simp only [TrackerTask.run] at h
    obtain ⟨t1, h1, h2⟩ := Res.bind_eq_ok.mp h
    rcases List.mem_cons.mp hm with hm | hm
    · subst hm
      have := shutdown_exits h1
      rw [stays is this h2]; exact this
    · exact ih h2 hm

theorem step_consts {t t' : TrackerTask} {i : TrackerInput} (h : t.step i = .ok t') :
    t'.pieceCount = t.pieceCount ∧ t'.pieceLength = t.pieceLength := by
  unfold TrackerTask.step TrackerTask.again at h
  split at h
  all_goals first
    | (rw [← Res.ok.inj h]; exact ⟨rfl, rfl⟩)
    | (obtain ⟨_, _, h⟩ := Res.bind_eq_ok.mp h; rw [← Res.ok.inj h]; exact ⟨rfl, rfl⟩)

theorem run_consts : ∀ {is : List TrackerInput} {t t' : TrackerTask}, t.run is = .ok t' →
    t'.pieceCount = t.pieceCount ∧ t'.pieceLength = t.pieceLength := by
  intro is
  induction is with
  | nil => intro t t' h; rw [← Res.ok.inj h]; exact ⟨rfl, rfl⟩
  | cons i is ih =>
    intro t t' h
    simp only [TrackerTask.run] at h
    obtain ⟨t1, h1, h2⟩ := Res.bind_eq_ok.mp h
    obtain ⟨a1, a2⟩ := ih h2
    obtain ⟨b1, b2⟩ := step_consts h1
    exact ⟨a1.trans b1, a2.trans b2⟩

/-- The task of a tracker can always follow the signal. -/
theorem shutdown_ok (h0 : Started w u s0) (h : Run w s0 es s) {i : Nat} {t : TrackerTask} (ht : s.trackers[i]? = some t) :
    ∃ t', t.step (.shutdown 0) = .ok t' := by
  obtain ⟨t0, g1, g2⟩ := run_tracker h ht
  obtain ⟨url, _, g3⟩ := (started_trackers h0).2 i t0 g1
  obtain ⟨c1, c2⟩ := run_consts g2
  simp only [TrackerTask.start] at g3
  obtain ⟨left, hl, g3⟩ := Res.bind_eq_ok.mp g3
  have d1 : t0.pieceCount = u.pieces.length := by rw [← Res.ok.inj g3]
  have d2 : t0.pieceLength = u.pieceLength := by rw [← Res.ok.inj g3]
  cases hp : t.phase with
  | waiting secs =>
    refine ⟨{ t with
      announce := { t.announce with event := some .stopped, left := left }, phase := .exited
      log := t.log ++ [.loaded 0, .sent { t.announce with event := some .stopped, left := left }] }, ?_⟩
    simp only [TrackerTask.step, hp]
    rw [c1, c2, d1, d2, hl]
    rfl
  | exited => exact ⟨_, exited_step hp⟩
  | _ => simp only [TrackerTask.step, hp]; exact ⟨_, rfl⟩

/-! ### The signal reaches everybody -/

/-- A task that holds a receiver of the signal and has not noticed it can do so once it is given. -/
theorem can_notice (h0 : Started w u s0) (h : Run w s0 es s) (hs : .signal ∈ es) {r : Nat} (hr : r < u.urls.length + 3)
    (h2 : r ≠ 0 ∧ r ≠ 2) (hd : Shutdown.Event.drop r ∉ downEvents es) (hn : Shutdown.Event.recv r ∉ downEvents es) :
    ∃ x, Shutdown.Step s.down (.recv r) x := by
  have hdown := started_down h0 h
  have hsend : Shutdown.Event.send ∈ downEvents es := List.mem_filterMap.mpr ⟨_, hs, rfl⟩
  obtain ⟨b, a, he⟩ := List.append_of_mem hsend
  rw [he, ← List.append_assoc] at hdown
  rw [he] at hd hn
  simp only [List.mem_append, List.mem_cons, not_or] at hd hn
  refine Shutdown.C83_early_partial _ _ _ hdown r ⟨?_, ?_⟩ hd.2.2 hn.2.2
  · rcases (made_startup _ r).mpr hr with h | ⟨old, h⟩
    · exact .inl h
    · exact .inr ⟨old, List.mem_append_left _ h⟩
  · intro hm
    rcases List.mem_append.mp hm with hm | hm
    · have := (drop_startup _ r).mp hm; omega
    · exact hd.1 hm

/-- A receiver that was not dropped can be dropped. -/
theorem can_drop (h0 : Started w u s0) (h : Run w s0 es s) {r : Nat} (hr : r < u.urls.length + 3)
    (h2 : r ≠ 0 ∧ r ≠ 2) (hd : Shutdown.Event.drop r ∉ downEvents es) : ∃ x, Shutdown.Step s.down (.drop r) x := by
  have hi := Shutdown.Inv.run (started_down h0 h)
  refine ⟨_, .drop (Map.contains_iff.mpr ((hi.live r).mpr ⟨?_, ?_⟩))⟩
  · rcases (made_startup _ r).mpr hr with h | ⟨old, h⟩
    · exact .inl h
    · exact .inr ⟨old, List.mem_append_left _ h⟩
  · intro hm
    rcases List.mem_append.mp hm with hm | hm
    · have := (drop_startup _ r).mp hm; omega
    · exact hd hm

/-- A continuation without anything from outside and before the end of the process. -/
def Goes (w : World) (s : State) (es : List Event) (s' : State) : Prop :=
  Run w s es s' ∧ ∀ e ∈ es, Unaided e ∧ e ≠ .exits

theorem Goes.nil : Goes w s [] s := ⟨.nil, by simp⟩

theorem Goes.trans {s1 s2 : State} {a b : List Event} (h1 : Goes w s a s1) (h2 : Goes w s1 b s2) : Goes w s (a ++ b) s2 :=
  ⟨h1.1.trans h2.1, fun e he => (List.mem_append.mp he).elim (h1.2 e) (h2.2 e)⟩

theorem Goes.one (hp : s.down.phase ≠ .done) (h : Turn w s e s') (hu : Unaided e) (hx : e ≠ .exits) : Goes w s [e] s' :=
  ⟨.snoc (es := []) .nil ⟨hp, h⟩, by simpa using ⟨hu, hx⟩⟩

theorem Goes.no_exit {es' : List Event} (h : Goes w s es' s') (hx : .exits ∉ es) : .exits ∉ es ++ es' := by
  intro hm
  rcases List.mem_append.mp hm with hm | hm
  · exact hx hm
  · exact (h.2 _ hm).2 rfl

/-- When the table task no longer runs, it returns. -/
theorem table_over_ended (h0 : Started w u s0) (h : Run w s0 es s) (hx : .exits ∉ es) (hn : s.dht.man.status ≠ .running) :
    ∃ es' s', Goes w s es' s' ∧ .tableEnds ∈ es ++ es' := by
  by_cases he : .tableEnds ∈ es
  · exact ⟨[], s, .nil, by simpa using he⟩
  · have hp := not_done h0 h hx
    have ends : ∀ {es s}, Run w s0 es s → .exits ∉ es → .tableEnds ∉ es → s.dht.man.status ≠ .running →
        ¬ s.dht.ManagerThere → ∃ s', Goes w s [.tableEnds] s' := by
      intro es s h hx he hn hm
      obtain ⟨x, hd⟩ := can_drop h0 h (r := 1) (by omega) (by omega) (fun hm => by
        rcases mem_down hm with ⟨_, h⟩ | ⟨h, _⟩ | ⟨_, _, h⟩ | ⟨_, _, h⟩ | ⟨_, h⟩ | ⟨_, h⟩
        all_goals first | exact he h | (cases h; done) | (simp only [Shutdown.Event.drop.injEq] at h; omega))
      have hopen := (holds_inv h0 h).opened he
      exact ⟨_, .one (not_done h0 h hx) (.tableEnds hn hm hd (.dhtEnds hopen)) trivial (by simp)⟩
    have hst := (table_inv h0 h).stored
    simp only [StoredInv] at hst
    cases hs : s.dht.man.status with
    | running => exact absurd hs hn
    | failed =>
      obtain ⟨s', hg⟩ := ends h hx he hn (by simp [DhtSystem.State.ManagerThere, hs])
      exact ⟨_, _, hg, by simp⟩
    | finished =>
      rw [hs] at hst
      rcases hst with ⟨h1, _⟩ | ⟨h1, _⟩
      · have g1 : Goes w s [.dht { stored := some s.dht.man.table }] _ :=
          .one hp (.dht ⟨by simp, by simp, rfl, rfl⟩ (.stores (s := s.nodes) hs h1)) (.inl rfl) (by simp)
        obtain ⟨s', g2⟩ := ends (h.trans g1.1) (g1.no_exit hx) (by simpa using he)
          (by show s.dht.man.status ≠ _; exact hn) (by simp [DhtSystem.State.ManagerThere, hs, State.nodes])
        exact ⟨_, _, g1.trans g2, by simp⟩
      · obtain ⟨s', hg⟩ := ends h hx he hn (by simp [DhtSystem.State.ManagerThere, hs, h1])
        exact ⟨_, _, hg, by simp⟩

/-- When the table task is at the beginning of its loop, it notices the signal and returns. -/
theorem table_over_free (h0 : Started w u s0) (h : Run w s0 es s) (hx : .exits ∉ es) (hs : .signal ∈ es)
    (hr : s.dht.man.status = .running) (hm : s.dht.manTodo = []) : ∃ es' s', Goes w s es' s' ∧ .tableEnds ∈ es ++ es' := by
  have he : .tableEnds ∉ es := fun he => ((table_inv h0 h).ended he).1 hr
  obtain ⟨x, hrecv⟩ := can_notice h0 h hs (r := 1) (by omega) (by omega) (fun hm => by
      rcases mem_down hm with ⟨_, h⟩ | ⟨h, _⟩ | ⟨_, _, h⟩ | ⟨_, _, h⟩ | ⟨_, h⟩ | ⟨_, h⟩
      all_goals first | exact he h | (cases h; done) | (simp only [Shutdown.Event.drop.injEq] at h; omega)) (fun hm => by
      rcases mem_down hm with ⟨⟨o, k⟩, _⟩ | ⟨_, k⟩ | ⟨_, _, k⟩ | ⟨_, _, k⟩ | ⟨_, k⟩ | ⟨_, k⟩
      all_goals first | exact (holds_inv h0 h).unnoticed hr _ k | (cases k; done) |
        (simp only [Shutdown.Event.recv.injEq] at k; omega))
  have g1 : Goes w s [.tableNotices [.stored s.dht.man.table]] _ :=
    .one (not_done h0 h hx) (.tableNotices hrecv (.direct (s := s.nodes) (ev := .shutdown) hm trivial (.shutdown hr))) trivial (by simp)
  obtain ⟨es2, s2, g2, m2⟩ := table_over_ended h0 (h.trans g1.1) (g1.no_exit hx)
    (by show DhtManager.Status.finished ≠ _; simp)
  exact ⟨_, _, g1.trans g2, by rw [← List.append_assoc]; exact m2⟩

/-- When the socket task is gone, the table task fails or notices the signal. -/
theorem table_over_alone (ht : Reachable u.table) (h0 : Started w u s0) (h : Run w s0 es s) (hx : .exits ∉ es) (hs : .signal ∈ es)
    (hr : s.dht.man.status = .running) (hc : s.dht.conAlive = false) :
    ∃ es' s', Goes w s es' s' ∧ .tableEnds ∈ es ++ es' := by
  generalize hm : s.dht.manTodo = todo
  induction todo generalizing s es with
  | nil => exact table_over_free h0 h hx hs hr hm
  | cons o rest ih =>
    cases o with
    | send c =>
      have g1 : Goes w s [.dht { man := some ⟨.conGone, []⟩ }] _ :=
        .one (not_done h0 h hx) (.dht ⟨by rintro m h; cases h; trivial, by simp, rfl, rfl⟩
          (.putFails (s := s.nodes) hm hc (.conGone hr))) (.inr rfl) (by simp)
      obtain ⟨es2, s2, g2, m2⟩ := table_over_ended h0 (h.trans g1.1) (g1.no_exit hx)
        (by show DhtManager.Status.failed ≠ _; simp)
      exact ⟨_, _, g1.trans g2, by rw [← List.append_assoc]; exact m2⟩
    | lookups ns =>
      have g1 : Goes w s [.lookup ns 0] _ :=
        .one (not_done h0 h hx) (.lookup (now := 0) (lookup_none ht h0 h hm) (.spawns (s := s.nodes) hr hm)) trivial (by simp)
      obtain ⟨es2, s2, g2, m2⟩ := ih (h.trans g1.1) (g1.no_exit hx) (List.mem_append_left _ hs) hr hc rfl
      exact ⟨_, _, g1.trans g2, by rw [← List.append_assoc]; exact m2⟩
    | stored t =>
      obtain ⟨l, hl, _⟩ := started_dht h0 h
      exact absurd (show Out.stored t ∈ s.nodes.manTodo by show _ ∈ s.dht.manTodo; rw [hm]; simp)
        ((shape_run ht .nil hl).man hr t)

theorem internal_alone {x : DhtSystem.Entry} (h : isInternal x = true) : Alone x := by
  simp only [isInternal, Bool.and_eq_true] at h
  obtain ⟨⟨⟨⟨h1, h2⟩, h3⟩, h4⟩, h5⟩ := h
  refine ⟨fun m hm => ?_, fun c hc => ?_, by simpa using h2⟩
  · rw [hm] at h4
    obtain ⟨ev, o⟩ := m
    cases ev <;> simp at h4 ⊢
  · rw [hc] at h5
    cases h5

/-- The task of a tracker returns. -/
theorem tracker_over (h0 : Started w u s0) (h : Run w s0 es s) (hx : .exits ∉ es) (hs : .signal ∈ es) {i : Nat}
    (hi : i < u.urls.length) : ∃ es' s', Goes w s es' s' ∧ .trackerEnds i ∈ es ++ es' := by
  by_cases he : .trackerEnds i ∈ es
  · exact ⟨[], s, .nil, by simpa using he⟩
  · have ends : ∀ {es s t}, Run w s0 es s → .exits ∉ es → .trackerEnds i ∉ es → s.trackers[i]? = some t → t.phase = .exited →
        ∃ s', Goes w s [.trackerEnds i] s' := by
      intro es s t h hx he ht hp
      obtain ⟨x, hd⟩ := can_drop h0 h (r := i + 3) (by omega) (by omega) (fun hm => by
        rcases mem_down hm with ⟨_, h⟩ | ⟨_, h⟩ | ⟨_, _, h⟩ | ⟨k, hk, h⟩ | ⟨_, h⟩ | ⟨_, h⟩
        · cases h
        · simp only [Shutdown.Event.drop.injEq] at h; omega
        · cases h
        · simp only [Shutdown.Event.drop.injEq] at h
          exact he (by rw [show i = k by omega]; exact hk)
        · cases h
        · cases h)
      exact ⟨_, .one (not_done h0 h hx) (.trackerEnds ht hp hd) trivial (by simp)⟩
    have hlen : i < s.trackers.length := by rw [trackers_length h, (started_trackers h0).1]; exact hi
    have ht : s.trackers[i]? = some s.trackers[i] := List.getElem?_eq_getElem hlen
    by_cases hp : s.trackers[i].phase = .exited
    · obtain ⟨s', g⟩ := ends h hx he ht hp
      exact ⟨_, _, g, by simp⟩
    · have hnot : .trackerNotices i ∉ es := by
        intro hm
        obtain ⟨t0, _, hr⟩ := run_tracker h ht
        exact hp (run_exits (n := 0) hr (List.mem_filterMap.mpr ⟨_, hm, by simp⟩))
      obtain ⟨x, hrecv⟩ := can_notice h0 h hs (r := i + 3) (by omega) (by omega) (fun hm => by
          rcases mem_down hm with ⟨_, h⟩ | ⟨_, h⟩ | ⟨_, _, h⟩ | ⟨k, hk, h⟩ | ⟨_, h⟩ | ⟨_, h⟩
          · cases h
          · simp only [Shutdown.Event.drop.injEq] at h; omega
          · cases h
          · simp only [Shutdown.Event.drop.injEq] at h
            exact he (by rw [show i = k by omega]; exact hk)
          · cases h
          · cases h) (fun hm => by
          rcases mem_down hm with ⟨_, h⟩ | ⟨_, h⟩ | ⟨k, hk, h⟩ | ⟨_, _, h⟩ | ⟨_, h⟩ | ⟨_, h⟩
          · simp only [Shutdown.Event.recv.injEq] at h; omega
          · cases h
          · simp only [Shutdown.Event.recv.injEq] at h
            exact hnot (by rw [show i = k by omega]; exact hk)
          · cases h
          · cases h
          · cases h)
      obtain ⟨t', hst⟩ := shutdown_ok h0 h ht
      have g1 : Goes w s [.trackerNotices i] _ :=
        .one (not_done h0 h hx) (.trackerNotices ht hp hrecv hst) trivial (by simp)
      obtain ⟨s', g2⟩ := ends (t := t') (h.trans g1.1) (g1.no_exit hx) (by simpa using he)
        (by show (s.trackers.set i t')[i]? = _; rw [List.getElem?_set_self hlen]) (shutdown_exits hst)
      exact ⟨_, _, g1.trans g2, by simp⟩

/-- When the table task can return, everything else can as well. -/
theorem ends_after_table (h0 : Started w u s0) (h : Run w s0 es s) (hx : .exits ∉ es)
    (htable : ∀ es' s', Goes w s es' s' → .signal ∈ es ++ es' → s'.dht = s.dht → s'.lookup = s.lookup →
      ∃ es2 s2, Goes w s' es2 s2 ∧ .tableEnds ∈ (es ++ es') ++ es2) :
    ∃ es' s', Run w s (es' ++ [.exits]) s' ∧ ∀ e ∈ es', Unaided e := by
  obtain ⟨es1, s1, g1, sig1, d1, d2⟩ : ∃ es' s', Goes w s es' s' ∧ .signal ∈ es ++ es' ∧ s'.dht = s.dht ∧
      s'.lookup = s.lookup := by
    by_cases hs : .signal ∈ es
    · exact ⟨[], s, .nil, by simpa using hs, rfl, rfl⟩
    · exact ⟨_, _, .one (e := .signal) (not_done h0 h hx) (.signal (.send (phase_holding h0 h hs))) trivial (by simp), by simp, rfl, rfl⟩
  have x1 := g1.no_exit hx
  have r1 := h.trans g1.1
  obtain ⟨es2, s2, g2, m2⟩ := htable es1 s1 g1 sig1 d1 d2
  have x2 := g2.no_exit x1
  have r2 := r1.trans g2.1
  have all : ∀ n, n ≤ u.urls.length → ∃ es' s', Goes w s2 es' s' ∧
      ∀ i, i < n → .trackerEnds i ∈ (es ++ es1) ++ es2 ++ es' := by
    intro n
    induction n with
    | zero => exact fun _ => ⟨[], s2, .nil, by omega⟩
    | succ n ih =>
      intro hn
      obtain ⟨es3, s3, g3, m3⟩ := ih (by omega)
      obtain ⟨es4, s4, g4, m4⟩ := tracker_over h0 (r2.trans g3.1) (g3.no_exit x2)
        (List.mem_append_left _ (List.mem_append_left _ sig1)) (i := n) (by omega)
      refine ⟨_, _, g3.trans g4, fun i hi => ?_⟩
      rw [← List.append_assoc]
      by_cases h : i = n
      · rw [h]; exact m4
      · exact List.mem_append_left _ (m3 i (by omega))
  obtain ⟨es3, s3, g3, m3⟩ := all u.urls.length (Nat.le_refl _)
  have r3 := r2.trans g3.1
  have x3 := g3.no_exit x2
  have hd := started_down h0 r3
  obtain ⟨x, hw⟩ := (Shutdown.C82_wait _ _ hd).2
    (send_mem.mpr (List.mem_append_left _ (List.mem_append_left _ sig1))) (waited_mem x3) dropSender_mem (by
      intro r hmade
      have hlt : r < u.urls.length + 3 := by
        rcases hmade with h | ⟨old, h⟩
        · omega
        · rcases List.mem_append.mp h with h | h
          · exact (made_startup _ r).mp (.inr ⟨old, h⟩)
          · rcases mem_down h with ⟨_, h⟩ | ⟨_, h⟩ | ⟨_, _, h⟩ | ⟨_, _, h⟩ | ⟨_, h⟩ | ⟨_, h⟩ <;> cases h
      by_cases h02 : r = 0 ∨ r = 2
      · exact List.mem_append_left _ ((drop_startup _ r).mpr h02)
      · refine List.mem_append_right _ (List.mem_filterMap.mpr ?_)
        by_cases h1 : r = 1
        · subst h1
          exact ⟨.tableEnds, List.mem_append_left _ m2, rfl⟩
        · obtain ⟨k, rfl⟩ : ∃ k, r = k + 3 := ⟨r - 3, by omega⟩
          exact ⟨.trackerEnds k, m3 k (by omega), rfl⟩)
  refine ⟨es1 ++ es2 ++ es3, _, ((g1.trans g2).trans g3).1.snoc ⟨not_done h0 r3 x3, .exits hw⟩, fun e he => ?_⟩
  exact (((g1.trans g2).trans g3).2 e he).1

/-! ## The hypotheses can be met -/

theorem oneNode_reachable : Reachable oneNode := by
  unfold oneNode
  split
  · next h => exact .sighting _ _ _ _ _ (.fresh _) h
  · exact .fresh _

/-- A state of a program that was started with a node in its table, in which a peer has joined and the node was pinged. -/
theorem ex_end : ∃ s0 s, Started demoWorld { demoSetup with table := oneNode } s0 ∧
    Run demoWorld s0 (joinsA ++ [firstPing]) s ∧ s.dht.conAlive = true ∧ s.dht.man.status = .running ∧ s.dht.conTodo = [] ∧
    s.dht.manTodo = [] ∧ s.dht.queries = [] ∧ s.dht.commands.length = 1 ∧
    s.dht.man.table.iterNodes = [⟨exId 7#8, exAddr 1, some 5⟩] := by
  have : demo demoWorld { demoSetup with table := oneNode } (joinsA ++ [firstPing]) (fun s =>
      decide (s.dht.conAlive = true) && decide (s.dht.man.status = .running) && s.dht.conTodo.isEmpty &&
      decide (s.dht.manTodo = []) && s.dht.queries.isEmpty && decide (s.dht.commands.length = 1) &&
      decide (s.dht.man.table.iterNodes = [⟨exId 7#8, exAddr 1, some 5⟩])) = some true := by decide +kernel
  obtain ⟨s0, s, h0, h, hf⟩ := demo_sound this
  simp only [Bool.and_eq_true, decide_eq_true_eq, List.isEmpty_iff] at hf
  obtain ⟨⟨⟨⟨⟨⟨f1, f2⟩, f3⟩, f4⟩, f5⟩, f6⟩, f7⟩ := hf
  exact ⟨s0, s, h0, h, f1, f2, f3, f4, f5, f6, f7⟩

end Nargun.Program
