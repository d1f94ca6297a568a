import Verif.Props.ProgramAnnounce

/-! # Where queries go: C126 -/

namespace Nargun

open Dht Krpc Spec DhtManager

section
variable {pause : Nat → Nat} {infoHash : ID} {table : RoutingTable} {peers : Peers} {os : List Peers.Op} {now : Nat}
  {h : List DhtManager.Entry} {m m' : Manager} {e : DhtManager.Entry}

/-- Where the queries of one turn of the table task go. -/
theorem step_target (hb : Base infoHash m) (hs : DhtManager.Step pause m e m') {c : Nat} {a : SockAddr} {q : ToConQuery}
    (hq : Out.send (.query c a q) ∈ e.outputs) :
    (∃ n ∈ m.table.iterNodes, n.addr = a) ∨
    (∃ nodes b id, e.event = .resp (.newNodes nodes b id) ∧ a ∈ nodes.list.map (·.addr)) ∨ e.event = .peerNode a := by
  cases hs.kind hb.reach with
  | @turn ev mm o1 w o2 hrun hm hl =>
    rcases List.mem_append.mp hq with hz | hz
    · cases hm with
      | @refresh rb rt _ _ he =>
        obtain ⟨ids, h1, _⟩ := C69_targets m.table hb.reach fun k => ⟨m.now, rb k, rt k⟩
        simp only [Manager.refresh, h1, Res.ok_bind] at he
        rcases refreshQueries_spec hb.reach m.now
          (ids ++ if m.table.data.length ≤ 160 ∨ FullOfGood m.table (m.table.data.length - 1) m.now
            then [m.table.ownId] else []) with ⟨_, h3⟩ | ⟨_, addrs, _, h5, h3⟩
        · rw [h3] at he; cases he; simp at hz
        · rw [h3] at he
          cases he
          obtain ⟨x, hx, he⟩ := List.mem_map.mp hz
          cases he
          obtain ⟨n, hn, _, hn'⟩ := h5 x.1 (List.of_mem_zip (a := x.1) (b := x.2) hx).1
          exact .inl ⟨n, hn, hn'⟩
      | peerNode =>
        rw [List.mem_singleton] at hz
        cases hz
        exact .inr (.inr rfl)
      | @query shuffle q _ _ _ he =>
        cases q with
        | findNode target qid =>
          simp only [Manager.processQuery, Res.bind_eq_ok] at he
          obtain ⟨o, _, he⟩ := he
          cases he
          cases o <;> simp at hz
        | getPeers k qid =>
          simp only [Manager.processQuery] at he
          split at he
          · cases he; simp at hz
          · simp only [Res.bind_eq_ok] at he
            obtain ⟨o, _, he⟩ := he
            cases he
            cases o <;> simp at hz
        | newPeer => cases he; simp at hz
      | @resp r _ _ he =>
        cases r with
        | touch id a =>
          simp only [Manager.processResp, Res.bind_eq_ok] at he
          obtain ⟨t, ht, he⟩ := he
          cases he
          simp at hz
        | newNodes ns b id =>
          simp only [Manager.processResp, Res.bind_eq_ok] at he
          obtain ⟨t, ht, u, hu, he⟩ := he
          cases he
          obtain ⟨x, hx, hxe⟩ := List.mem_map.mp hz
          cases hxe
          classical
          rw [unknownAddresses_spec (.sighting _ _ _ _ _ hb.reach ht)] at hu
          cases hu
          refine .inr (.inl ⟨ns, b, id, rfl, ?_⟩)
          obtain ⟨n, hn, rfl⟩ := List.mem_map.mp hx
          exact List.mem_map.mpr ⟨n, (List.mem_filter.mp hn).1, rfl⟩
        | getPeers => cases he; simp at hz
    · rcases hl with ⟨_, _, _, ns, rfl, _⟩ | ⟨_, _, rfl⟩ <;> simp at hz
  | shutdown => simp at hq
  | gone => simp at hq
  | others => simp at hq
  | pass => simp at hq
  | reorder => simp at hq

/-- Where the queries of the table task go, and which nodes lookups begin with. -/
theorem run_target (ht : Reachable table) (hp : Peers.Run (.new infoHash) os peers)
    (hr : DhtManager.Run pause (start infoHash table peers now) h m) (e : DhtManager.Entry) (he : e ∈ h) :
    (∀ c a q, Out.send (.query c a q) ∈ e.outputs →
      (∃ n0 ∈ table.iterNodes, n0.addr = a) ∨ (∃ e' ∈ h, ∃ id, AnswerOf id a e') ∨
      (∃ e' ∈ h, ∃ nodes b id, e'.event = .resp (.newNodes nodes b id) ∧ a ∈ nodes.list.map (·.addr)) ∨
      ∃ e' ∈ h, e'.event = .peerNode a) ∧
    ∀ ns, Out.lookups ns ∈ e.outputs → ∀ n ∈ ns,
      (∃ n0 ∈ table.iterNodes, n0.addr = n.addr) ∨ ∃ e' ∈ h, ∃ id, AnswerOf id n.addr e' := by
  induction hr with
  | nil => simp at he
  | @snoc m1 m2 h e1 hr1 hs ih =>
    rcases List.mem_append.mp he with he | he
    · obtain ⟨i1, i2⟩ := ih he
      refine ⟨fun c a q hq => ?_, fun ns hns n hn => ?_⟩
      · rcases i1 c a q hq with h1 | ⟨e', h1, h2⟩ | ⟨e', h1, h2⟩ | ⟨e', h1, h2⟩
        · exact .inl h1
        · exact .inr (.inl ⟨e', List.mem_append_left _ h1, h2⟩)
        · exact .inr (.inr (.inl ⟨e', List.mem_append_left _ h1, h2⟩))
        · exact .inr (.inr (.inr ⟨e', List.mem_append_left _ h1, h2⟩))
      · rcases i2 ns hns n hn with h1 | ⟨e', h1, h2⟩
        · exact .inl h1
        · exact .inr ⟨e', List.mem_append_left _ h1, h2⟩
    · rw [List.mem_singleton] at he
      subst he
      refine ⟨fun c a q hq => ?_, fun ns hns n hn => ?_⟩
      · rcases step_target ((Base.start (now := now) ht hp).run hr1) hs hq with ⟨n, h1, rfl⟩ | h1 | h1
        · rcases (C98_only_answering ht hp hr1 n h1).1 with ⟨n0, h2, _, h3⟩ | ⟨e', h2, h3⟩
          · exact .inl ⟨n0, h2, h3⟩
          · exact .inr (.inl ⟨e', List.mem_append_left _ h2, _, h3⟩)
        · exact .inr (.inr (.inl ⟨e, by simp, h1⟩))
        · exact .inr (.inr (.inr ⟨e, by simp, h1⟩))
      · have hmem : n ∈ m2.table.iterNodes := by
          rcases ((C99_lookups ht hp hr1).2 e m2 hs).1 ns (List.mem_filterMap.mpr ⟨_, hns, rfl⟩) with h1 | h1
          · exact (h1.2.2.2.2.1 n hn).1
          · exact (h1.2.2 n hn).1
        rcases (C98_only_answering ht hp (hr1.snoc hs) n hmem).1 with ⟨n0, h2, _, h3⟩ | ⟨e', h2, h3⟩
        · exact .inl ⟨n0, h2, h3⟩
        · exact .inr ⟨e', h2, _, h3⟩

end

section
variable {env : Env} {pause : Nat → Nat} {infoHash secret : ID} {table : RoutingTable} {peers : Peers} {os : List Peers.Op}
  {now : Nat} {h : List DhtSystem.Entry} {s : DhtSystem.State}

/-- What the table task took as an answer was one. -/
theorem answered_own (hr : DhtSystem.Run env pause (DhtSystem.State.start infoHash secret table peers now) h s)
    {e : DhtManager.Entry} (he : e ∈ manHistory h) {id : ID} {a : SockAddr} (ha : AnswerOf id a e) :
    AnsweredUs table.ownId h id a := by
  have hmem : ∃ r, e.event = .resp r ∧ ∀ b resp, r = told b resp → b = a ∧ responder resp = id := by
    rcases ha with ha | ⟨nodes, ha⟩
    · refine ⟨_, ha, fun a resp h => ?_⟩
      cases resp <;> cases h <;> exact ⟨rfl, rfl⟩
    · refine ⟨_, ha, fun a resp h => ?_⟩
      cases resp <;> cases h <;> exact ⟨rfl, rfl⟩
  obtain ⟨r, hev, hr'⟩ := hmem
  have hin : r ∈ takenAnswers OWN_CHANNEL h := by
    rw [takenAnswers, if_pos rfl]
    refine List.mem_filterMap.mpr ⟨e, he, ?_⟩
    rw [hev]
  obtain ⟨h1, e', h2, a, t, y, resp, e1, e2, e3, target, v, bytes, e4, e5, e6, _⟩ := (C107_routed hr OWN_CHANNEL).1 r hin
  obtain ⟨rfl, e7⟩ := hr' a resp e3
  exact ⟨h1, e', h2, t, y, resp, e1, e2, e7, target, v, bytes, e4, e5, e6⟩

/-- The nodes of an answer the table task took were named. -/
theorem named_own (hr : DhtSystem.Run env pause (DhtSystem.State.start infoHash secret table peers now) h s)
    {e : DhtManager.Entry} (he : e ∈ manHistory h) {nodes : Nodes} {b : SockAddr} {id : ID}
    (hev : e.event = .resp (.newNodes nodes b id)) {a : SockAddr} (ha : a ∈ nodes.list.map (·.addr)) :
    NamedAddress table.ownId h a := by
  have hin : FromConResp.newNodes nodes b id ∈ takenAnswers OWN_CHANNEL h := by
    rw [takenAnswers, if_pos rfl]
    refine List.mem_filterMap.mpr ⟨e, he, ?_⟩
    rw [hev]
  obtain ⟨h1, e', h2, b', t, y, resp, e1, e2, e3, target, v, bytes, e4, e5, e6, _⟩ := (C107_routed hr OWN_CHANNEL).1 _ hin
  refine ⟨h1, e', h2, b', t, y, resp, e1, e2, ?_, target, v, bytes, e4, e5, e6⟩
  cases resp <;> cases e3
  exact ha

/-- What the table task has yet to do, and the lookups that were started, were outputs of it. -/
theorem todo_outputs (hr : DhtSystem.Run env pause (DhtSystem.State.start infoHash secret table peers now) h s) :
    (∀ o ∈ s.manTodo, o ∈ startOutputs table ++ allOutputs (manHistory h)) ∧
    ∀ e ∈ h, ∀ ns, e.spawned = some ns → Out.lookups ns ∈ startOutputs table ++ allOutputs (manHistory h) := by
  induction hr with
  | nil => exact ⟨fun o ho => List.mem_append_left _ ho, by simp⟩
  | @snoc s1 s2 h e hr hs ih =>
    obtain ⟨i1, i2⟩ := ih
    have hmono : ∀ o, o ∈ startOutputs table ++ allOutputs (manHistory h) →
        o ∈ startOutputs table ++ allOutputs (manHistory (h ++ [e])) := by
      intro o ho
      rw [manHistory, List.filterMap_append, allOutputs, List.flatMap_append, ← List.append_assoc]
      exact List.mem_append_left _ ho
    have hnew : ∀ me, e.man = some me → ∀ o ∈ me.outputs,
        o ∈ startOutputs table ++ allOutputs (manHistory (h ++ [e])) := by
      intro me hme o ho
      refine List.mem_append_right _ (List.mem_flatMap.mpr ⟨me, ?_, ho⟩)
      exact List.mem_filterMap.mpr ⟨e, by simp, hme⟩
    refine ⟨?_, ?_⟩
    · intro o ho
      cases hs with
      | direct => exact hnew _ rfl o ho
      | takeQuery => exact hnew _ rfl o ho
      | takeAnswer => exact hnew _ rfl o ho
      | putCommand _ h2 => exact hmono o (i1 o (by rw [h2]; exact List.mem_cons_of_mem _ ho))
      | spawns _ h2 => exact hmono o (i1 o (by rw [h2]; exact List.mem_cons_of_mem _ ho))
      | stores _ h2 => exact hmono o (i1 o (by rw [h2]; exact List.mem_cons_of_mem _ ho))
      | _ => exact hmono o (i1 o ho)
    · intro e' he' ns hns
      rcases List.mem_append.mp he' with he' | he'
      · exact hmono _ (i2 e' he' ns hns)
      · rw [List.mem_singleton] at he'
        subst he'
        cases hs with
        | spawns _ h2 => cases hns; exact hmono _ (i1 _ (by rw [h2]; simp))
        | _ => cases hns

end

namespace Program

variable {w : World} {u : Setup} {s s' s0 s1 : State} {es es' : List Event} {e : Event}

theorem answeredUs_down {env : Env} {pause : Nat → Nat} {a b : DhtSystem.State} {l : List DhtSystem.Entry}
    (h : DhtSystem.Run env pause a l b) {d : List DhtSystem.Entry} (hd : l.filter (fun x => !isOthers x) = d) {own id : ID}
    {addr : SockAddr} (ha : AnsweredUs own l id addr) : AnsweredUs own d id addr := by
  obtain ⟨h1, e, h2, t, y, r, e1, e2, e3, tg, v, b, e4, e5, e6⟩ := ha
  obtain ⟨d1, d2, f1, f2, _⟩ := heard_split h e1 e2 hd
  exact ⟨d1, e, d2, t, y, r, f1, e2, e3, tg, v, b, by rw [f2]; exact e4, e5, e6⟩

theorem named_down {env : Env} {pause : Nat → Nat} {a b : DhtSystem.State} {l : List DhtSystem.Entry}
    (h : DhtSystem.Run env pause a l b) {d : List DhtSystem.Entry} (hd : l.filter (fun x => !isOthers x) = d) {own : ID}
    {addr : SockAddr} (ha : NamedAddress own l addr) : NamedAddress own d addr := by
  obtain ⟨h1, e, h2, sender, t, y, r, e1, e2, e3, tg, v, b, e4, e5, e6⟩ := ha
  obtain ⟨d1, d2, f1, f2, _⟩ := heard_split h e1 e2 hd
  exact ⟨d1, e, d2, sender, t, y, r, f1, e2, e3, tg, v, b, by rw [f2]; exact e4, e5, e6⟩

/-- The part of a history up to an event. -/
theorem run_upto (h : Run w s0 es s) : ∀ {l1 l2 : List Event} {ev : Event}, es = l1 ++ ev :: l2 →
    ∃ a b, Run w s0 l1 a ∧ Step w a ev b := by
  induction h with
  | nil => intro l1 l2 ev hd; simp at hd
  | @snoc s1 s2 es e hr hs ih =>
    intro l1 l2 ev hd
    rcases List.eq_nil_or_concat l2 with rfl | ⟨l2', y, rfl⟩
    · obtain ⟨rfl, he⟩ := List.append_inj' hd rfl
      cases he
      exact ⟨_, _, hr, hs⟩
    · have hd' : es ++ [e] = (l1 ++ ev :: l2') ++ [y] := by rw [hd]; simp
      exact ih (List.append_inj' hd' rfl).1

theorem targets (h0 : Began u s0) (ht : Reachable u.table) (h : Run w s0 es s) {target : SockAddr}
    {bytes t : Bytes} {own : ID} {v : ToConQuery} (hs : (target, bytes) ∈ sent (dhtEvents es))
    (hq : IsQueryDatagram own t v bytes) :
    (∃ n ∈ u.table.iterNodes, n.addr = target) ∨ (∃ id, AnsweredUs u.table.ownId (dhtEvents es) id target) ∨
    NamedAddress u.table.ownId (dhtEvents es) target ∨ ToldByPeer es target := by
  obtain ⟨l, hr, hl⟩ := began_dht h0 h
  have hf := DhtSystem.Flow.run hr
  have hs' : (target, bytes) ∈ sent l := by
    rw [← hl] at hs
    obtain ⟨x, hx, he⟩ := List.mem_filterMap.mp hs
    exact List.mem_filterMap.mpr ⟨x, (List.mem_filter.mp hx).1, he⟩
  obtain ⟨c, hp⟩ := sent_query hr hs' hq
  obtain ⟨x, hx, hput⟩ := List.mem_filterMap.mp hp
  obtain ⟨⟨who, cmd⟩, h1, h2⟩ := Option.map_eq_some_iff.mp hput
  cases h2
  cases who with
  | manager =>
    have hm : ToCon.query c target v ∈ putsOfManager l := List.mem_filterMap.mpr ⟨x, hx, by rw [h1]⟩
    have : ToCon.query c target v ∈ sends (DhtManager.startOutputs u.table ++ allOutputs (manHistory l)) := by
      rw [hf.outputs]; exact List.mem_append_left _ hm
    obtain ⟨o, ho, hoe⟩ := List.mem_filterMap.mp this
    have ho' : o = .send (.query c target v) := by
      cases o <;> first | (cases hoe; rfl) | cases hoe
    subst ho'
    rcases List.mem_append.mp ho with ho | ho
    · simp only [DhtManager.startOutputs, List.mem_map] at ho
      obtain ⟨n, hn, ho⟩ := ho
      cases ho
      exact .inl ⟨n, hn, rfl⟩
    · obtain ⟨me, hme, ho⟩ := List.mem_flatMap.mp ho
      rcases (run_target ht .nil hf.man me hme).1 _ _ _ ho with h3 | ⟨e', h3, id, h4⟩ |
          ⟨e', h3, nodes, b, id, h4, h5⟩ | ⟨e', h3, h4⟩
      · exact .inl h3
      · exact .inr (.inl ⟨id, answeredUs_down hr hl (answered_own hr h3 h4)⟩)
      · exact .inr (.inr (.inl (named_down hr hl (named_own hr h3 h4 h5))))
      · refine .inr (.inr (.inr ?_))
        obtain ⟨y, hy, hye⟩ := List.mem_filterMap.mp h3
        have hno : isOthers y = false := by
          rcases e' with ⟨ev, outs⟩
          cases h4
          simp only [isOthers, hye]
        have hy' : y ∈ dhtEvents es := by
          rw [← hl]; exact List.mem_filter.mpr ⟨hy, by rw [hno]; rfl⟩
        obtain ⟨ev, hev, he⟩ := List.mem_filterMap.mp hy'
        obtain ⟨outs, hnode⟩ : ∃ outs, .node target outs ∈ es := by
          cases ev with
          | dht z =>
            cases he
            have := (own_dht h hev).table _ hye
            rw [h4] at this
            exact absurd this id
          | node a outs => cases he; cases hye; cases h4; exact ⟨outs, hev⟩
          | nodesGone => cases he; cases hye; cases h4
          | tableNotices => cases he; cases hye; cases h4
          | lookup => cases he; cases hye
          | asks => cases he; cases hye
          | hears => cases he; cases hye
          | _ => cases he
        obtain ⟨k, hk, hkf⟩ := began_torrent h0 h
        have hd := (Swarm.run_node hk h0.noNodes).1
        have hin : Swarm.Event.dhtTakes target ∈ k := by
          have : Swarm.Event.dhtTakes target ∈ torrentEvents es := List.mem_filterMap.mpr ⟨_, hnode, rfl⟩
          rw [← hkf] at this
          exact (List.mem_filter.mp this).1
        have hin2 : target ∈ dhtHeard k := List.mem_filterMap.mpr ⟨_, hin, rfl⟩
        obtain ⟨⟨q, msg⟩, g1, g2⟩ := List.mem_filterMap.mp (hd.subset (List.mem_append_left _ hin2))
        unfold asNode at g2
        split at g2
        · next q' port heq =>
          cases heq
          cases g2
          refine ⟨q, port, ?_, rfl⟩
          obtain ⟨te, g3, g4⟩ := List.mem_filterMap.mp g1
          have : te ∈ torrentEvents es := by
            rw [← hkf]
            refine List.mem_filter.mpr ⟨g3, ?_⟩
            cases te with
            | handed => rfl
            | _ => cases g4
          exact List.mem_filterMap.mpr ⟨te, this, g4⟩
        · cases g2
  | other =>
    have hno : isOthers x = false := by
      cases ho : isOthers x with
      | false => rfl
      | true =>
        obtain ⟨o, rfl⟩ := others_entry hr hx ho
        cases h1
    have hx' : x ∈ dhtEvents es := by
      rw [← hl]; exact List.mem_filter.mpr ⟨hx, by rw [hno]; rfl⟩
    obtain ⟨ev, hev, he⟩ := List.mem_filterMap.mp hx'
    have ha : .asks target v ∈ es := by
      cases ev with
      | dht y => cases he; exact absurd h1 ((own_dht h hev).put _)
      | asks a' v' => cases he; cases h1; exact hev
      | _ => first | (cases he; done) | (cases he; cases h1)
    have hm : (target, v) ∈ lookupAsked es := List.mem_filterMap.mpr ⟨_, ha, rfl⟩
    rcases run_lookup h0.lookup h with ⟨_, _, h3⟩ | ⟨lk, ns, hist, _, hi⟩
    · rw [h3] at hm; simp at hm
    · obtain ⟨es1, tm, es2, s1, j1, j2, j3⟩ := hi.origin
      obtain ⟨fe, hfe, hin⟩ := List.mem_flatMap.mp (hi.asked.subset hm)
      have key : target ∈ ns.map (·.addr) ∨ ∃ fe' ∈ hist, ∃ sender token nodes,
          fe'.event = .answer (.getPeers sender token (.nodes nodes)) ∧ target ∈ nodes.list.map (·.addr) := by
        clear hi hm
        generalize s.looking lk = f at j3
        induction j3 with
        | nil => simp at hfe
        | @snoc f1 f2 hh e' hr hs ih' =>
          rcases List.mem_append.mp hfe with hfe | hfe
          · rcases ih' hfe with g | ⟨fe', g1, g2⟩
            · exact .inl g
            · exact .inr ⟨fe', by simp [g1], g2⟩
          · rw [List.mem_singleton] at hfe
            subst hfe
            rcases (Fetch.C81_learned _ _ _ _ _ _ _ _ _ _ hr hs).1 _ hin with
              g | ⟨b, fe', aft, sender, token, nodes, g1, g2, _, g3⟩
            · exact .inl g
            · exact .inr ⟨fe', by rw [g1]; simp, sender, token, nodes, g2, g3⟩
      rcases key with g | ⟨fe', g1, sender, token, nodes, g2, g3⟩
      · obtain ⟨n, hn, rfl⟩ := List.mem_map.mp g
        have hsp : ({ spawned := some ns } : DhtSystem.Entry) ∈ l := by
          have : ({ spawned := some ns } : DhtSystem.Entry) ∈ dhtEvents es :=
            List.mem_filterMap.mpr ⟨.lookup ns tm, by rw [j1]; simp, rfl⟩
          rw [← hl] at this
          exact (List.mem_filter.mp this).1
        rcases List.mem_append.mp ((todo_outputs hr).2 _ hsp ns rfl) with g | g
        · simp [DhtManager.startOutputs, DhtManager.ping] at g
        · obtain ⟨me, hme, ho⟩ := List.mem_flatMap.mp g
          rcases (run_target ht .nil hf.man me hme).2 ns ho n hn with h3 | ⟨e', h3, id, h4⟩
          · exact .inl h3
          · exact .inr (.inl ⟨id, answeredUs_down hr hl (answered_own hr h3 h4)⟩)
      · refine .inr (.inr (.inl ?_))
        have g4 : fe' ∈ lookupEvents es := by
          rw [← hi.events]
          exact List.mem_filter.mpr ⟨g1, by simp [isForeign, g2]⟩
        obtain ⟨ev', k1, k2⟩ := List.mem_filterMap.mp g4
        have : ∃ snt, .hears (.getPeers sender token (.nodes nodes)) snt ∈ es := by
          cases ev' with
          | look y =>
            cases k2
            rcases own_look h k1 with k | k <;> rw [g2] at k <;> exact absurd k id
          | hears r snt => cases k2; cases g2; exact ⟨snt, k1⟩
          | _ => cases k2
        obtain ⟨snt, hh⟩ := this
        obtain ⟨d1, y, d2, a', t', yy, resp, e1, e2, e3, tg, v', b, e4, e5, e6, _⟩ := hears_own h0 ht h hh
        refine ⟨d1, y, d2, a', t', yy, resp, e1, e2, ?_, tg, v', b, e4, e5, e6⟩
        cases resp <;> cases e3
        exact g3

/-- C126: queries go only to addresses this program had a reason to ask: the address was in the table at the start, an
answer to an earlier query came from it, an answer to an earlier query named it, or a connected peer told of it, which
can do so only for its own IP address. -/
theorem C126_targets (w : World) (u : Setup) (s0 s : State) (before after : List Event) (x : DhtSystem.Entry)
    (h0 : Started w u s0) (ht : Reachable u.table) (h : Run w s0 (before ++ .dht x :: after) s) (target : SockAddr)
    (bytes t : Bytes) (v : ToConQuery) (hs : x.sent = some (target, bytes))
    (hq : IsQueryDatagram u.table.ownId t v bytes) :
    (∃ n ∈ u.table.iterNodes, n.addr = target) ∨ (∃ id, AnsweredUs u.table.ownId (dhtEvents before) id target) ∨
    NamedAddress u.table.ownId (dhtEvents before) target ∨ ToldByPeer before target := by
  obtain ⟨a, b, hr, hst⟩ := run_upto h rfl
  have hev : dhtEvents (before ++ [.dht x]) = dhtEvents before ++ [x] := by rw [dhtEvents_snoc]; rfl
  have hno : heardBy x = none := by
    cases hst.2 with
    | dht _ hds => cases hds <;> first | (cases hs; done) | rfl
  have drop : ∀ {h1 h2 : List DhtSystem.Entry} {y : DhtSystem.Entry} {m}, dhtEvents before ++ [x] = h1 ++ y :: h2 →
      heardBy y = some m → ∃ h2', dhtEvents before = h1 ++ y :: h2' := by
    intro h1 h2 y m hd hm
    rcases List.eq_nil_or_concat h2 with rfl | ⟨h2', z, rfl⟩
    · obtain ⟨_, he⟩ := List.append_inj' hd rfl
      cases he
      rw [hno] at hm
      cases hm
    · have hd' : dhtEvents before ++ [x] = (h1 ++ y :: h2') ++ [z] := by rw [hd]; simp
      exact ⟨h2', (List.append_inj' hd' rfl).1⟩
  rcases targets h0.began ht (hr.snoc hst) (target := target) (bytes := bytes)
    (by rw [hev, sent, List.filterMap_append]; simp [hs]) hq with
    g | ⟨id, h1, e, h2, t, y, r, e1, e2, e3⟩ | ⟨h1, e, h2, sender, t, y, r, e1, e2, e3⟩ | ⟨q, port, g1, g2⟩
  · exact .inl g
  · rw [hev] at e1
    obtain ⟨h2', e1⟩ := drop e1 e2
    exact .inr (.inl ⟨id, h1, e, h2', t, y, r, e1, e2, e3⟩)
  · rw [hev] at e1
    obtain ⟨h2', e1⟩ := drop e1 e2
    exact .inr (.inr (.inl ⟨h1, e, h2', sender, t, y, r, e1, e2, e3⟩))
  · refine .inr (.inr (.inr ⟨q, port, ?_, g2⟩))
    rw [torrentEvents_snoc] at g1
    simpa [torrentEvents] using g1

/-- A connected peer tells the port of its DHT node, and the table task asks this node. -/
def portTold : List Act := joinsA.map .ev ++ [.ev (.torrent (.read peerA (wire (.port 7000#16)))),
  .ev (.torrent (.parsed peerA (.port 7000#16))), .ev (.torrent (.handed peerA (.port 7000#16))), .node, .putCommand,
  .command (tidOf 1#8), .sends]

/-- The hypotheses of `C126_targets` are met: a query leaves for a node that a peer told of, and is not in the table. -/
example : ∃ s0 s before x after bytes, Started demoWorld demoSetup s0 ∧ Reachable demoSetup.table ∧
    Run demoWorld s0 (before ++ .dht x :: after) s ∧ x.sent = some (⟨peerA.addr.ip, 7000#16⟩, bytes) ∧
    IsQueryDatagram demoSetup.table.ownId (tidOf 1#8) .ping bytes ∧ demoSetup.table.iterNodes = [] := by
  have : play demoWorld demoSetup portTold (fun es _ => sent (dhtEvents es)) =
      some [(⟨peerA.addr.ip, 7000#16⟩, (ToConQuery.ping.intoMessage (exId 0#8) (tidOf 1#8)).intoBytes)] := by
    decide +kernel
  obtain ⟨s0, es, s, h0, h, hf⟩ := play_sound this
  have hm : (⟨peerA.addr.ip, 7000#16⟩, (ToConQuery.ping.intoMessage (exId 0#8) (tidOf 1#8)).intoBytes) ∈
      sent (dhtEvents es) := by rw [hf]; simp
  obtain ⟨x, hx, hs⟩ := List.mem_filterMap.mp hm
  obtain ⟨ev, hev, he⟩ := List.mem_filterMap.mp hx
  have : ev = .dht x := by
    cases ev with
    | dht y => cases he; rfl
    | _ => first | (cases he; done) | (cases he; cases hs)
  subst this
  obtain ⟨before, after, rfl⟩ := List.append_of_mem hev
  exact ⟨s0, s, before, x, after, _, h0, .fresh _, h, hs, query_datagram _ _ _, by decide +kernel⟩

end Program

end Nargun
