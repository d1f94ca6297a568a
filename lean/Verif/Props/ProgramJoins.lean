import Verif.Props.ProgramFairTable
import Verif.Props.ProgramTargets
import Verif.Spec.Joins

/-! # C151: the client finds its way into the DHT -/

namespace Nargun.Program

open Nargun Dht Krpc Spec DhtSystem DhtManager

variable {w : World} {u : Setup} {σ : Nat → State} {ev : Nat → Option Event}

/-- Either the table task still waits for a good node, or the lookup has been started, or is about to be. -/
def Awaits (s : State) : Prop :=
  s.dht.man.waitForGood = false → s.lookup ≠ none ∨ lookups s.dht.manTodo ≠ []

/-- A step of the DHT that starts no lookup. -/
theorem awaits_dht {env : Env} {pause : Nat → Nat} {a b : DhtSystem.State} {x : DhtSystem.Entry} (hr : Reachable a.man.table)
    {infoHash : ID} (hb : Base infoHash a.man) (h : DhtSystem.Step env pause a x b) (hx : x.spawned = none)
    (ha : a.man.waitForGood = false → lookups a.manTodo ≠ []) : b.man.waitForGood = false → lookups b.manTodo ≠ [] := by
  have turn : ∀ {m : Manager} {y : DhtManager.Entry}, a.manTodo = [] → DhtManager.Step pause a.man y m →
      m.waitForGood = false → lookups y.outputs ≠ [] := by
    intro m y h1 hs hw
    have hold : a.man.waitForGood ≠ false := fun hc => by
      have := ha hc
      rw [h1] at this
      exact this rfl
    cases hs.kind hr with
    | @turn ev mm o1 w o2 hrun hm hl =>
      have hmm : mm.waitForGood = a.man.waitForGood := hm.spec.2.2.2.2.1
      rcases hl with ⟨_, _, _, ns, rfl, _⟩ | ⟨_, rfl, _⟩
      · simp [lookups]
      · exact absurd (hmm.symm.trans hw) hold
    | _ => exact absurd hw hold
  have same : ∀ {m : Manager} {y : DhtManager.Entry}, DhtManager.Step pause a.man y m → isTurn y = false ∨ y.event = .conGone →
      m.waitForGood = a.man.waitForGood := by
    intro m y hs hy
    cases hs.kind hr with
    | turn _ hm => cases hm <;> (rcases hy with hy | hy <;> cases hy)
    | _ => rfl
  cases h with
  | direct h1 _ h2 => exact turn h1 h2
  | takeQuery h1 _ h2 => exact turn h1 h2
  | takeAnswer h1 _ h2 => exact turn h1 h2
  | conGone h1 _ _ h2 => exact fun hw => ha (by rw [← same h2 (.inr rfl)]; exact hw)
  | putFails h1 _ h2 => exact fun hw => ha (by rw [← same h2 (.inr rfl)]; exact hw)
  | @outside ev m hd h2 =>
    have hi : isTurn ⟨ev, []⟩ = false := by cases ev <;> first | rfl | exact absurd hd id
    exact fun hw => ha (by rw [← same h2 (.inl hi)]; exact hw)
  | putCommand _ h1 => intro hw; have := ha hw; rw [h1] at this; exact this
  | stores _ h1 => intro hw; have := ha hw; rw [h1] at this; exact this
  | spawns => cases hx
  | _ => exact ha

theorem awaited_step {s s' : State} {e : Event} {infoHash : ID} (hb : Base infoHash s.nodes.man) (hs : Step w s e s')
    (ha : Awaits s) : Awaits s' := by
  have keep : s.lookup ≠ none → s'.lookup ≠ none := by
    intro hl
    cases hs.2 with
    | lookup h => exact absurd h hl
    | look | lookIdle | asks | asksNobody | hears => simp
    | _ => exact hl
  intro hw
  by_cases hl : s.lookup = none
  · rcases turn_dhtStep hs.2 with ⟨_, h2⟩ | ⟨x, h1, h2, _⟩
    · rw [h2] at hw ⊢
      rcases ha hw with h | h
      · exact absurd hl h
      · exact .inr h
    · by_cases hx : x.spawned = none
      · exact .inr (awaits_dht hb.reach hb h2 hx (fun hc => by
          rcases ha hc with h | h
          · exact absurd hl h
          · exact h) hw)
      · left
        cases hs.2 with
        | lookup => simp
        | dht ho =>
          simp only [dhtEvents, List.filterMap_cons, List.filterMap_nil, List.cons.injEq, and_true] at h1
          subst h1
          exact absurd ho.spawned hx
        | _ =>
          simp only [dhtEvents, List.filterMap_cons, List.filterMap_nil, List.cons.injEq, and_true] at h1
          first
            | (subst h1; exact absurd rfl hx)
            | cases h1
  · exact .inl (keep hl)

/-- Whoever answers: afterwards some stored node is good. -/
theorem answered_good {t t' : RoutingTable} (ht : Reachable t) {now : Nat} {id : ID} {a : SockAddr}
    (he : t.touchNode now id a = .ok t') : ∃ n ∈ t'.iterNodes, Good now n := by
  have good : ∀ {n : Node}, n.lastSeen = some now → Good now n := fun h => ⟨now, h, by rw [Nat.sub_self]; decide⟩
  by_cases hk : Known t id
  · obtain ⟨t1, h1, _, h2⟩ := C65_refresh t ht now id a hk
    rw [h1] at he; cases he
    obtain ⟨n, hn, hid⟩ := hk
    exact ⟨_, by rw [h2]; exact List.mem_map_of_mem hn, by rw [if_pos hid]; exact good rfl⟩
  · rcases C67_stored_partial t t' ht now id a hk he with h | ⟨b, h1, h2, h3, _⟩
    · exact ⟨_, h, good rfl⟩
    · cases hb : b.nodes with
      | nil => rw [hb] at h2; cases h2
      | cons n ns =>
        refine ⟨n, ?_, h3 n (by rw [hb]; simp)⟩
        exact RoutingTable.mem_iterNodes.2 ⟨_, b, h1, by rw [hb]; simp⟩

/-- Once it has started the lookup the table task waits no more. -/
theorem waited_step {s s' : State} {e : Event} {infoHash : ID} (hb : Base infoHash s.nodes.man) (hs : Step w s e s')
    (h : s.dht.man.waitForGood = false) : s'.dht.man.waitForGood = false := by
  have turn : ∀ {m : Manager} {y : DhtManager.Entry}, DhtManager.Step w.refreshPause s.nodes.man y m →
      m.waitForGood = false := by
    intro m y hst
    cases hst.kind hb.reach with
    | @turn ev mm o1 w o2 hrun hm hl =>
      have hmm : mm.waitForGood = s.dht.man.waitForGood := hm.spec.2.2.2.2.1
      rcases hl with ⟨_, _, rfl, _⟩ | ⟨_, rfl, _⟩
      · rfl
      · exact hmm.trans h
    | _ => exact h
  rcases turn_dhtStep hs.2 with ⟨_, h2⟩ | ⟨x, _, h2, _⟩
  · rw [h2]; exact h
  · generalize s'.dht = d at h2
    cases h2 with
    | direct _ _ h2 => exact turn h2
    | takeQuery _ _ h2 => exact turn h2
    | takeAnswer _ _ h2 => exact turn h2
    | conGone _ _ _ h2 => exact turn h2
    | putFails _ _ h2 => exact turn h2
    | outside _ h2 => exact turn h2
    | _ => exact h

theorem answer_ends_wait {pause : Nat → Nat} {infoHash : ID} {m m' : Manager} {r : FromConResp} {outs : List Out}
    (hb : Base infoHash m) (hs : DhtManager.Step pause m ⟨.resp r, outs⟩ m') (hr : OfNode r) : m'.waitForGood = false := by
  obtain ⟨m1, o1, w, o2, he, rfl, hl, rfl⟩ := resp_step hb hs
  have hg : ∃ n ∈ m1.table.iterNodes, Good m1.now n := by
    cases r with
    | touch id a =>
      simp only [Manager.processResp, Res.bind_eq_ok] at he
      obtain ⟨t, h1, he⟩ := he
      cases he
      exact answered_good hb.reach h1
    | newNodes ns a id =>
      simp only [Manager.processResp, Res.bind_eq_ok] at he
      obtain ⟨t, h1, u, h2, he⟩ := he
      cases he
      exact answered_good hb.reach h1
    | getPeers => exact absurd hr id
  rcases hl with ⟨_, _, rfl, _⟩ | ⟨h1 | h1, rfl, _⟩
  · rfl
  · exact h1
  · exact absurd hg h1

/-- C151, the part that holds, for every execution in which no task is passed over for ever: once the connection has handed to
the table task an answer of any node to one of its own pings or searches, the lookup of peers is started. All this unless the
process ends, the socket task panics (C105), the table task ends, or the tasks wait for each other in a circle at some moment
(C92). How the lookup goes on is `C96_always_partial`; that it is started only once is `C99_lookups`. -/
theorem C151_starts_partial (w : World) (u : Setup) (σ : Nat → State) (ev : Nat → Option Event) (ht : Reachable u.table)
    (h0 : Started w u (σ 0)) (hx : Execution w σ ev) (hf : FairDht w σ ev) (n : Nat) (r : FromConResp)
    (hr : r ∈ handedAnswers OWN_CHANNEL (allEffects (conHistory (dhtEvents (upto ev n))))) (hk : OfNode r) :
    (∃ n, ev n = some .exits) ∨ (∃ n, (σ n).dht.conAlive = false) ∨ (∃ n, (σ n).dht.man.status ≠ .running) ∨
    (∃ n, TableJam (σ n) ∨ LookupJam (σ n)) ∨
    ∃ m ns now, ev m = some (.lookup ns now) := by
  refine smooth_or σ ev fun hn hal hrun hj => ?_
  have base : ∀ m, Base u.infoHash (σ m).nodes.man := by
    intro m
    obtain ⟨l, hl, _⟩ := started_dht h0 (exec_run hx m)
    exact (Base.start (now := u.now) ht .nil).run (Flow.run hl).man
  have aw : ∀ m, Awaits (σ m) := by
    intro m
    induction m with
    | zero => intro h; rw [h0.dht] at h; cases h
    | succ m ih =>
      cases he : ev m with
      | none => rw [hx.idle m he]; exact ih
      | some e => exact awaited_step (base m) (hx.step m e he) ih
  have stays : ∀ {a b}, a ≤ b → (σ a).dht.man.waitForGood = false → (σ b).dht.man.waitForGood = false := by
    intro a b hab
    induction hab with
    | refl => exact id
    | @step b _ ih =>
      intro h
      cases he : ev b with
      | none => rw [Nat.succ_eq_add_one, hx.idle b he]; exact ih h
      | some e => exact waited_step (base b) (hx.step b e he) (ih h)
  obtain ⟨m, _, hm⟩ := answers_reach ht h0 hx hf hn hal hrun hj n
  have ht1 := hm.subset hr
  have ended : ∃ k, (σ k).dht.man.waitForGood = false := by
    simp only [takenByManager, manHistory, List.mem_filterMap] at ht1
    obtain ⟨y, ⟨x, hx1, hx2⟩, hy⟩ := ht1
    obtain ⟨me, rfl⟩ : ∃ outs, y = ⟨.resp r, outs⟩ := by
      obtain ⟨e, outs⟩ := y
      cases e <;> simp at hy
      subst hy; exact ⟨_, rfl⟩
    obtain ⟨e, he1, he2⟩ := List.mem_filterMap.mp hx1
    obtain ⟨k, _, hk1⟩ := List.mem_filterMap.mp he1
    have he3 : dhtEvents [e] = [x] := by rw [dhtEvents, List.filterMap_cons, he2]; rfl
    refine ⟨k + 1, ?_⟩
    rcases turn_dhtStep (hx.step k e hk1).2 with ⟨h1, _⟩ | ⟨x', h1, h2, _⟩
    · rw [he3] at h1; cases h1
    · rw [he3] at h1
      cases h1
      have hb := base k
      generalize (σ (k + 1)).dht = d at h2
      cases h2 with
      | takeAnswer _ _ h3 => cases hx2; exact answer_ends_wait hb h3 hk
      | direct _ hd _ => cases hx2; exact absurd hd id
      | outside hd _ => cases hx2; exact absurd hd id
      | _ => cases hx2
  obtain ⟨k, hk⟩ := ended
  obtain ⟨m', hm', hidle⟩ := table_returns_always ht h0 hx hf hn hrun hj k
  have hl : (σ m').lookup ≠ none := by
    rcases aw m' (stays hm' hk) with h | h
    · exact h
    · rw [hidle] at h; exact absurd rfl h
  have first : ∀ m, (σ m).lookup ≠ none → ∃ m ns now, ev m = some (.lookup ns now) := by
    intro m
    induction m with
    | zero => intro h; exact absurd h0.lookup h
    | succ m ih =>
      intro h
      by_cases hs : (σ m).lookup = none
      · cases he : ev m with
        | none => rw [hx.idle m he] at h; exact absurd hs h
        | some e =>
          have hstep := hx.step m e he
          generalize σ (m + 1) = s' at hstep h
          cases hstep.2 with
          | lookup => exact ⟨m, _, _, he⟩
          | look h1 | lookIdle h1 | asks h1 | asksNobody h1 | hears h1 => rw [hs] at h1; cases h1
          | _ => exact absurd hs h
      · exact ih hs
  exact first m' hl

/-- The hypotheses of `C151_starts_partial` are met by an execution in which none of the exceptions applies. -/
example : ∃ u σ ev n r, Reachable u.table ∧ Started demoWorld u (σ 0) ∧ Execution demoWorld σ ev ∧ FairDht demoWorld σ ev ∧
    r ∈ handedAnswers OWN_CHANNEL (allEffects (conHistory (dhtEvents (upto ev n)))) ∧ OfNode r ∧
    (∀ n, ev n ≠ some .exits) ∧ (∀ n, (σ n).dht.conAlive = true) ∧ (∀ n, (σ n).dht.man.status = .running) ∧
    ∀ n, ¬ (TableJam (σ n) ∨ LookupJam (σ n)) := by
  obtain ⟨u, σ, ev, n0, ht, h0, hx, hf, _, _, hr, hn, hal, hrun, hj, _⟩ := quiet_execution
  exact ⟨u, σ, ev, n0, _, ht, h0, hx, hf.toFairDht, hr, trivial, hn, hal, hrun, hj⟩

/-- A query taken from the queue of commands becomes a datagram. -/
theorem taken_query {env : Env} {own secret : ID} {ch : List Dht.Entry} {c : Con} (hr : Con.Run env (Con.start own secret) ch c)
    {k : Nat} {a : SockAddr} {v : ToConQuery} (h : .query k a v ∈ takenCommands ch) :
    ∃ t, (a, (v.intoMessage own t).intoBytes) ∈ datagrams (allEffects ch) := by
  generalize hs0 : Con.start own secret = s0 at hr
  induction hr with
  | nil => simp [takenCommands] at h
  | @snoc s1 s2 ch e hr hs ih =>
    subst hs0
    rw [takenCommands, List.filterMap_append] at h
    rcases List.mem_append.mp h with h | h
    · obtain ⟨t, ht⟩ := ih h
      exact ⟨t, by rw [allEffects_append, datagrams_append]; exact List.mem_append_left _ ht⟩
    · cases hs with
      | @command _ tid c effs _ h1 =>
        simp only [List.filterMap_cons, List.filterMap_nil, List.mem_singleton] at h
        subst h
        rw [send_query_eq, ((Inv.start own secret).run hr).own] at h1
        cases h1
        exact ⟨tid, by rw [allEffects_append, datagrams_append]; exact List.mem_append_right _ (by simp [allEffects, datagrams])⟩
      | _ => simp at h

section
variable (ht : Reachable u.table) (h0 : Started w u (σ 0)) (hx : Execution w σ ev) (hf : FairDht w σ ev)
  (hn : ∀ n, ev n ≠ some .exits) (hal : ∀ n, (σ n).dht.conAlive = true) (hrun : ∀ n, (σ n).dht.man.status = .running)
  (hj : ∀ n, ¬ (TableJam (σ n) ∨ LookupJam (σ n)))
include ht h0 hx hf hn hrun hj hal

/-- A query put into the queue of commands leaves. -/
theorem put_leaves {n k : Nat} {a : SockAddr} {v : ToConQuery} (h : .query k a v ∈ puts (dhtEvents (upto ev n))) :
    ∃ m, HasLeft u.table.ownId (dhtEvents (upto ev m)) a v := by
  obtain ⟨m1, _, p1⟩ := puts_taken ht h0 hx hf hn hal hrun hj n
  obtain ⟨l, hl, he⟩ := started_dht h0 (exec_run hx m1)
  have g1 : conHistory l = conHistory (dhtEvents (upto ev m1)) := by
    rw [← he]; exact filterMap_run hl _ (fun _ => rfl) (List.append_nil l).symm
  obtain ⟨t, h2⟩ := taken_query (g1 ▸ (Flow.run hl).con) (p1.subset h)
  obtain ⟨m2, _, p2⟩ := datagrams_sent ht h0 hx hf hn hal hrun hj m1
  exact ⟨m2, t, _, p2.subset h2, query_datagram _ _ _⟩

/-- A query the table task decides on leaves. -/
theorem output_leaves {n k : Nat} {a : SockAddr} {v : ToConQuery}
    (h : .query k a v ∈ sends (startOutputs u.table ++ allOutputs (manHistory (dhtEvents (upto ev n))))) :
    ∃ m, HasLeft u.table.ownId (dhtEvents (upto ev m)) a v := by
  obtain ⟨m1, _, p1⟩ := outputs_put ht h0 hx hf hn hal hrun hj n
  refine put_leaves ht h0 hx hf hn hal hrun hj (n := m1) (k := k) ?_
  have := p1.subset h
  simp only [putsOfManager, puts, List.mem_filterMap] at this ⊢
  obtain ⟨y, h1, h2⟩ := this
  refine ⟨y, h1, ?_⟩
  cases hy : y.put with
  | none => rw [hy] at h2; cases h2
  | some sc =>
    obtain ⟨src, c⟩ := sc
    rw [hy] at h2
    cases src <;> cases h2
    rfl

end

/-- C151, the part that holds, for every execution in which no task is passed over for ever: every node in the stored table is
sent a ping, and every query the table task decides on and every query the lookup hands over leaves: to nodes that peers tell
of, to nodes that other nodes name, and those of the refreshes. All this unless the process ends, the socket task panics
(C105), the table task ends, or the tasks wait for each other in a circle at some moment (C92). Missing: that there is a node to
ask when none is stored (`C151_alone_violated`). -/
theorem C151_asks_partial (w : World) (u : Setup) (σ : Nat → State) (ev : Nat → Option Event) (ht : Reachable u.table)
    (h0 : Started w u (σ 0)) (hx : Execution w σ ev) (hf : FairDht w σ ev) :
    (∃ n, ev n = some .exits) ∨ (∃ n, (σ n).dht.conAlive = false) ∨ (∃ n, (σ n).dht.man.status ≠ .running) ∨
    (∃ n, TableJam (σ n) ∨ LookupJam (σ n)) ∨
    ((∀ nd ∈ u.table.iterNodes, ∃ m, HasLeft u.table.ownId (dhtEvents (upto ev m)) nd.addr .ping) ∧
      (∀ n a v, (a, v) ∈ queries (allOutputs (manHistory (dhtEvents (upto ev n)))) →
        ∃ m, HasLeft u.table.ownId (dhtEvents (upto ev m)) a v) ∧
      ∀ n a v, (a, v) ∈ lookupAsked (upto ev n) → ∃ m, HasLeft u.table.ownId (dhtEvents (upto ev m)) a v) := by
  refine smooth_or σ ev fun hn hal hrun hj => ⟨fun nd hnd => ?_, fun n a v h => ?_, fun n a v h => ?_⟩
  · refine output_leaves ht h0 hx hf hn hal hrun hj (n := 0) (k := OWN_CHANNEL) ?_
    rw [sends_append]
    refine List.mem_append_left _ (List.mem_filterMap.mpr ⟨ping nd.addr, List.mem_map_of_mem hnd, rfl⟩)
  · obtain ⟨o, h1, h2⟩ := List.mem_filterMap.mp h
    obtain ⟨k, rfl⟩ : ∃ k, o = .send (.query k a v) := by
      cases o with
      | send c => cases c <;> cases h2; exact ⟨_, rfl⟩
      | _ => cases h2
    refine output_leaves ht h0 hx hf hn hal hrun hj (n := n) (k := k) ?_
    rw [sends_append]
    exact List.mem_append_right _ (List.mem_filterMap.mpr ⟨_, h1, rfl⟩)
  · obtain ⟨e, h1, h2⟩ := List.mem_filterMap.mp h
    have he : e = .asks a v := by
      cases e <;> cases h2; rfl
    subst he
    refine put_leaves ht h0 hx hf hn hal hrun hj (n := n) (k := LOOKUP_CHANNEL) ?_
    exact List.mem_filterMap.mpr ⟨_, List.mem_filterMap.mpr ⟨_, h1, rfl⟩, rfl⟩

/-- The part of a history before something in it is also before its last event. -/
theorem prefix_snoc {α : Type} {a b c : List α} {x y : α} (h : a ++ [x] = b ++ y :: c) : b <+: a := by
  rcases List.eq_nil_or_concat c with rfl | ⟨c', z, rfl⟩
  · obtain ⟨h1, _⟩ := List.append_inj' h rfl
    exact ⟨[], by rw [h1, List.append_nil]⟩
  · have h' : a ++ [x] = (b ++ y :: c') ++ [z] := by rw [h]; simp
    exact ⟨y :: c', (List.append_inj' h' rfl).1.symm⟩

/-- Without a stored node and without a peer that tells of one, nobody is ever asked. -/
theorem nobody_asked {s0 s : State} {es : List Event} (ht : Reachable u.table) (h0 : Began u s0) (h : Run w s0 es s)
    (hempty : u.table.iterNodes = []) (hq : ∀ q port, (q, Nargun.Message.port port) ∉ handedOver (torrentEvents es)) :
    ∀ own a v, ¬ HasLeft own (dhtEvents es) a v := by
  induction h with
  | nil => rintro own a v ⟨t, b, hm, _⟩; simp [dhtEvents, sent] at hm
  | @snoc s1 s2 es e hr hs ih =>
    have ih := ih (fun q port hm => hq q port (by
      rw [torrentEvents_snoc, Swarm.handedOver_append]
      exact List.mem_append_left _ hm))
    rintro own a v ⟨t, b, hm, hb⟩
    have early : ∀ {h1 h2 : List DhtSystem.Entry} {y : DhtSystem.Entry}, dhtEvents (es ++ [e]) = h1 ++ y :: h2 →
        ∀ {d : SockAddr × Bytes}, d ∈ sent h1 → d ∈ sent (dhtEvents es) := by
      intro h1 h2 y hd d hd1
      rw [dhtEvents_snoc] at hd
      have : h1 <+: dhtEvents es := by
        rcases hx : dhtEvents [e] with _ | ⟨x, _ | ⟨x', l⟩⟩
        · rw [hx, List.append_nil] at hd
          exact ⟨_, hd.symm⟩
        · rw [hx] at hd
          exact prefix_snoc hd
        · exfalso
          have h3 : (dhtEvents [e]).length ≤ [e].length := List.length_filterMap_le _ _
          rw [hx] at h3
          simp at h3
      exact List.IsPrefix.subset (List.IsPrefix.filterMap _ this) hd1
    rcases targets h0 ht (hr.snoc hs) hm hb with ⟨n, hn, _⟩ | ⟨id, h1, y, h2, t', y', r, e1, e2, e3, target, v', b', g1, g2, _⟩ |
      ⟨h1, y, h2, sender, t', y', r, e1, e2, e3, target, v', b', g1, g2, _⟩ | ⟨q, port, g1, _⟩
    · rw [hempty] at hn; cases hn
    · exact ih _ _ _ ⟨_, _, early e1 g1, g2⟩
    · exact ih _ _ _ ⟨_, _, early e1 g1, g2⟩
    · exact hq q port g1

/-- C151 is violated: the program knows no node to begin with. When no node is stored, as at the first start, then in every
history in which no connected peer tells of its node, whatever else happens, no query ever leaves, no node gets into the table,
and the lookup of peers is never started. -/
theorem C151_alone_violated (w : World) (u : Setup) (s0 s : State) (es : List Event) (ht : Reachable u.table)
    (h0 : Started w u s0) (h : Run w s0 es s) (hempty : u.table.iterNodes = [])
    (hq : ∀ q port, (q, Nargun.Message.port port) ∉ handedOver (torrentEvents es)) :
    (∀ a v, ¬ HasLeft u.table.ownId (dhtEvents es) a v) ∧ s.dht.man.table.iterNodes = [] ∧ s.lookup = none := by
  have asked := nobody_asked ht h0.began h hempty hq u.table.ownId
  refine ⟨asked, ?_⟩
  have empty : ∀ {es s}, Run w s0 es s → (∀ a v, ¬ HasLeft u.table.ownId (dhtEvents es) a v) →
      s.dht.man.table.iterNodes = [] := by
    intro es s h hno
    refine List.eq_nil_iff_forall_not_mem.mpr fun n hn => ?_
    obtain ⟨l, hl, he⟩ := started_dht h0 h
    rcases C103_table ht .nil hl n hn with ⟨n0, hn0, _⟩ | ⟨h1, e, h2, t, y, r, e1, e2, e3, target, v, b, g1, g2, _⟩
    · rw [hempty] at hn0; cases hn0
    · refine hno target v ⟨t, b, ?_, g2⟩
      have g3 : sent l = sent (dhtEvents es) := by
        rw [← he]; exact filterMap_run hl _ (fun _ => rfl) (List.append_nil l).symm
      rw [← g3, e1, sent, List.filterMap_append]
      exact List.mem_append_left _ g1
  refine ⟨empty h asked, ?_⟩
  suffices hs : s.lookup = none ∧ s.dht.man.waitForGood = true ∧ lookups s.dht.manTodo = [] from hs.1
  clear hq
  induction h with
  | nil =>
    refine ⟨h0.lookup, by rw [h0.dht]; rfl, ?_⟩
    rw [h0.dht]
    show lookups (startOutputs u.table) = []
    rw [startOutputs, hempty]; rfl
  | @snoc s1 s2 es e hr hs ih =>
    obtain ⟨i1, i2, i3⟩ := ih (fun a v ⟨t, b, g1, g2⟩ => asked a v ⟨t, b, by
      rw [dhtEvents_snoc, sent, List.filterMap_append]; exact List.mem_append_left _ g1, g2⟩)
    have hnone := empty (hr.snoc hs) asked
    obtain ⟨l, hl, _⟩ := started_dht h0 hr
    have hb : Base u.infoHash s1.nodes.man := (Base.start (now := u.now) ht .nil).run (Flow.run hl).man
    have hd : s2.dht.man.waitForGood = true ∧ lookups s2.dht.manTodo = [] := by
      rcases turn_dhtStep hs.2 with ⟨_, h2⟩ | ⟨x, _, h2, _⟩
      · rw [h2]; exact ⟨i2, i3⟩
      · have turn : ∀ {m : Manager} {y : DhtManager.Entry}, DhtManager.Step w.refreshPause s1.nodes.man y m →
            m.table.iterNodes = [] → m.waitForGood = true ∧ lookups y.outputs = [] := by
          intro m y hst hm
          cases hst.kind hb.reach with
          | @turn ev mm o1 w o2 hrun hm1 hl =>
            have hmm : mm.waitForGood = s1.dht.man.waitForGood := hm1.spec.2.2.2.2.1
            rcases hl with ⟨_, ⟨n, hn, _⟩, _⟩ | ⟨_, rfl, rfl⟩
            · rw [show mm.table.iterNodes = [] from hm] at hn; cases hn
            · exact ⟨hmm.trans i2, by rw [List.append_nil]; exact (mid_only hb hm1).1⟩
          | _ => exact ⟨i2, rfl⟩
        generalize s2.dht = d at h2 hnone
        cases h2 with
        | direct _ _ h2 => exact turn h2 hnone
        | takeQuery _ _ h2 => exact turn h2 hnone
        | takeAnswer _ _ h2 => exact turn h2 hnone
        | conGone _ _ _ h2 => exact ⟨(turn h2 hnone).1, i3⟩
        | putFails _ _ h2 => exact ⟨(turn h2 hnone).1, i3⟩
        | outside _ h2 => exact ⟨(turn h2 hnone).1, i3⟩
        | putCommand _ h1 => refine ⟨i2, ?_⟩; rw [show s1.dht.manTodo = _ from h1] at i3; exact i3
        | stores _ h1 => refine ⟨i2, ?_⟩; rw [show s1.dht.manTodo = _ from h1] at i3; exact i3
        | spawns _ h1 => rw [show s1.dht.manTodo = _ from h1] at i3; cases i3
        | _ => exact ⟨i2, i3⟩
    refine ⟨?_, hd⟩
    cases hs.2 with
    | lookup _ h1 =>
      cases h1 with
      | spawns _ h1 => rw [show s1.dht.manTodo = _ from h1] at i3; cases i3
    | look h1 | lookIdle h1 | asks h1 | asksNobody h1 | hears h1 => rw [i1] at h1; cases h1
    | _ => exact i1

/-- The hypotheses of `C151_alone_violated` are met: a tracker names a peer, another node asks and is told of it. -/
example : ∃ u s0 s es, Reachable u.table ∧ Started demoWorld u s0 ∧ Run demoWorld s0 es s ∧ u.table.iterNodes = [] ∧
    (∀ q port, (q, Nargun.Message.port port) ∉ handedOver (torrentEvents es)) ∧ (sent (dhtEvents es)).length = 1 := by
  have hplay : play demoWorld demoSetup answersNine (fun es _ =>
      decide (handedOver (torrentEvents es) = [] ∧ (sent (dhtEvents es)).length = 1)) = some true := by decide +kernel
  obtain ⟨s0, es, s, h0, h, hf⟩ := play_sound hplay
  obtain ⟨f1, f2⟩ := of_decide_eq_true hf
  exact ⟨demoSetup, s0, s, es, .fresh _, h0, h, by decide +kernel, by rw [f1]; simp, f2⟩

/-- The hypotheses of `C151_asks_partial` are met by an execution in which none of the exceptions applies, and a node is
stored. -/
example : ∃ u σ ev, Reachable u.table ∧ Started demoWorld u (σ 0) ∧ Execution demoWorld σ ev ∧ FairDht demoWorld σ ev ∧
    (∀ n, ev n ≠ some .exits) ∧ (∀ n, (σ n).dht.conAlive = true) ∧ (∀ n, (σ n).dht.man.status = .running) ∧
    (∀ n, ¬ (TableJam (σ n) ∨ LookupJam (σ n))) ∧ ∃ n a v, (a, v) ∈ lookupAsked (upto ev n) := by
  obtain ⟨u, σ, ev, n0, ht, h0, hx, hf, _, ha, _, hn, hal, hrun, hj, _⟩ := quiet_execution
  exact ⟨u, σ, ev, ht, h0, hx, hf.toFairDht, hn, hal, hrun, hj, n0, _, _, ha⟩

end Nargun.Program
