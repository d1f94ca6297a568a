import Verif.Lemmas.DhtManager
import Verif.Props.DhtConnection

/-! # Properties of the task that owns the routing table -/

namespace Nargun

open Dht Krpc Spec DhtManager RoutingTable

section

variable {infoHash : ID} {table : RoutingTable} {peers : Peers} {os : List Peers.Op} {now : Nat}
  {pause : Nat → Nat} {h : List DhtManager.Entry} {m m' : Manager} {outs : List Out}

theorem lookups_only {m1 : Manager} {w : Bool} {o : List Out} (hl : DhtManager.Lookups m1 w o) :
    answers o = [] ∧ queries o = [] ∧ stored o = [] := by
  rcases hl with ⟨_, _, _, ns, rfl, _⟩ | ⟨_, _, rfl⟩ <;> exact ⟨rfl, rfl, rfl⟩

theorem answers_append (a b : List Out) : answers (a ++ b) = answers a ++ answers b := List.filterMap_append
theorem queries_append (a b : List Out) : queries (a ++ b) = queries a ++ queries b := List.filterMap_append
theorem lookups_append (a b : List Out) : lookups (a ++ b) = lookups a ++ lookups b := List.filterMap_append
theorem stored_append (a b : List Out) : stored (a ++ b) = stored a ++ stored b := List.filterMap_append

/-- A step of the task in which it gets a query. -/
theorem query_step (hb : Base infoHash m) {q : FromConQuery}
    (hs : DhtManager.Step pause m ⟨.query q, outs⟩ m') :
    ∃ shuffle m1 o1 w o2, (∀ l : List Peer, (shuffle l).Perm l) ∧ m.processQuery shuffle q = .ok (m1, o1) ∧
      outs = o1 ++ o2 ∧ DhtManager.Lookups m1 w o2 ∧ m' = { m1 with since := m1.now, waitForGood := w } := by
  have hk := hs.kind hb.reach
  generalize hev : Event.query q = ev at hk
  cases hk with
  | turn _ hm hl =>
    subst hev
    cases hm with
    | query hp he => exact ⟨_, _, _, _, _, hp, he, rfl, hl, rfl⟩
  | gone _ h => subst hev; rcases h with h | h <;> cases h
  | _ => cases hev

theorem nodesFor_findNode {t : RoutingTable} (ht : Reachable t) (now : Nat) (id : ID) :
    (∃ nodes, t.findNode now id = .ok (some nodes) ∧ NodesFor t now id nodes) ∨
    (¬ Known t id ∧ (∀ n ∈ t.iterNodes, ¬ Good now n) ∧ t.findNode now id = .ok none) := by
  rcases findNode_spec ht now id with ⟨n, hn, hi, he⟩ | ⟨hk, hg, ns, he, h1, h2, h3⟩ | ⟨hk, hg, he⟩
  · exact .inl ⟨_, he, hn, hi⟩
  · refine .inl ⟨_, he, hk, h1, ?_⟩
    obtain ⟨o, ho, _, hsp⟩ := C68_closest_partial t ht now id
    rw [h3] at ho
    cases ho
    obtain ⟨g1, g2, g3, _, _, g6⟩ := hsp ns rfl
    exact ⟨g3, g2, g1, g6⟩
  · exact .inr ⟨hk, fun n hn hgn => hg ⟨n, hn, hgn⟩, he⟩

/-- C97, partial: a find_node query is answered exactly once, to the node that asked and under its transaction, with the
node asked for if it is stored and with good stored nodes otherwise; nothing else is sent. Missing: an answer when the
node asked for is not stored and no stored node is good; then there is none. -/
theorem C97_find_node_partial (ht : Reachable table) (hp : Peers.Run (.new infoHash) os peers)
    (hr : DhtManager.Run pause (start infoHash table peers now) h m) (target : ID) (qid : QueryId)
    (hs : DhtManager.Step pause m ⟨.query (.findNode target qid), outs⟩ m') :
    queries outs = [] ∧ m'.table = m.table ∧ m'.peers = m.peers ∧
    ((∃ nodes, answers outs = [(qid, .findNode nodes)] ∧ NodesFor m.table m.now target nodes) ∨
     (answers outs = [] ∧ ¬ Known m.table target ∧ ∀ n ∈ m.table.iterNodes, ¬ Good m.now n)) := by
  have hb := (Base.start (now := now) ht hp).run hr
  obtain ⟨shuffle, m1, o1, w, o2, _, he, rfl, hl, rfl⟩ := query_step hb hs
  obtain ⟨l1, l2, _⟩ := lookups_only hl
  rw [queries_append, answers_append, l1, l2]
  simp only [Manager.processQuery] at he
  rcases nodesFor_findNode hb.reach m.now target with ⟨nodes, hf, hn⟩ | ⟨hk, hg, hf⟩
  · rw [hf] at he
    cases he
    exact ⟨rfl, rfl, rfl, .inl ⟨nodes, rfl, hn⟩⟩
  · rw [hf] at he
    cases he
    exact ⟨rfl, rfl, rfl, .inr ⟨rfl, hk, hg⟩⟩

theorem findPeers_other {shuffle : List Peer → List Peer} {k : ID} (hk : k ≠ m.peers.infoHash) :
    m.findPeers shuffle k = (m, (m.peerMap.get? k).map fun ps => (shuffle ps).take PEERS_PER_ANSWER) := by
  simp [Manager.findPeers, Peers.serve, hk]

theorem per_answer : PEERS_PER_ANSWER = 216 := by decide

/-- A list that contains what was chosen from another. -/
theorem chosen {good : List Peer} (hn : good.Nodup) (k : Nat) :
    (good.take k).Nodup ∧ (good.take k).length ≤ k ∧ (∀ p ∈ good.take k, p ∈ good) ∧
    ((∀ p ∈ good, p ∈ good.take k) ∨ (good.take k).length = k) := by
  refine ⟨(List.take_sublist _ _).nodup hn, by rw [List.length_take]; omega, fun p hp => List.mem_of_mem_take hp, ?_⟩
  by_cases hl : good.length ≤ k
  · left; intro p hp; rwa [List.take_of_length_le hl]
  · right; rw [List.length_take]; omega

/-- C78: a get_peers query for another torrent of which a peer was announced is answered exactly once, to the node that
asked and under its transaction, with distinct peers, only with peers that were announced for that torrent, and with all
of them unless the answer holds 216. -/
theorem C78_served (ht : Reachable table) (hp : Peers.Run (.new infoHash) os peers)
    (hr : DhtManager.Run pause (start infoHash table peers now) h m) (k : ID) (hk : k ≠ infoHash) (qid : QueryId)
    (hs : DhtManager.Step pause m ⟨.query (.getPeers k qid), outs⟩ m') (p0 : Peer) (ha : Announced h k p0) :
    queries outs = [] ∧ ∃ vs, answers outs = [(qid, .getPeers (.values vs))] ∧ vs.Nodup ∧ vs ≠ [] ∧ vs.length ≤ 216 ∧
      (∀ p ∈ vs, Announced h k p) ∧ ((∀ p, Announced h k p → p ∈ vs) ∨ vs.length = 216) := by
  have hb0 := Base.start (now := now) ht hp
  have hb := hb0.run hr
  obtain ⟨shuffle, m1, o1, w, o2, hsh, he, rfl, hl, rfl⟩ := query_step hb hs
  obtain ⟨l1, l2, _⟩ := lookups_only hl
  obtain ⟨hst, _⟩ := stored_iff hb0 hr k hk
  rw [queries_append, answers_append, l1, l2]
  simp only [Manager.processQuery, findPeers_other (hb.own ▸ hk)] at he
  cases hg : m.peerMap.get? k with
  | none =>
    have := (hst p0).mpr ha
    rw [hg] at this
    simp at this
  | some ps =>
    rw [hg] at he hst
    simp only [Option.getD_some] at hst
    cases he
    obtain ⟨c1, c2, c3, c4⟩ := chosen ((hsh ps).nodup_iff.mpr (hb.nodup k ps hg)) PEERS_PER_ANSWER
    rw [per_answer] at c1 c2 c3 c4
    simp only [per_answer]
    have hmem : ∀ p, p ∈ shuffle ps ↔ Announced h k p := fun p => (hsh ps).mem_iff.trans (hst p)
    refine ⟨rfl, _, rfl, c1, ?_, c2, fun p hp => (hmem p).mp (c3 p hp), ?_⟩
    · intro hnil
      rcases c4 with c4 | c4
      · have := c4 p0 ((hmem p0).mpr ha)
        rw [hnil] at this
        simp at this
      · rw [hnil] at c4
        simp at c4
    · rcases c4 with c4 | c4
      · exact .inl fun p hp => c4 p ((hmem p).mpr hp)
      · exact .inr c4

/-- C78: a get_peers query for the torrent that is being downloaded, of which a peer is known, is answered exactly once,
to the node that asked and under its transaction, with distinct peers of the torrent, none of which could not be connected
to, and with all of them unless the answer holds 216. -/
theorem C78_own (ht : Reachable table) (hp : Peers.Run (.new infoHash) os peers)
    (hr : DhtManager.Run pause (start infoHash table peers now) h m) (qid : QueryId)
    (hs : DhtManager.Step pause m ⟨.query (.getPeers infoHash qid), outs⟩ m') (p0 : Peer) (ha : Tellable m.peers p0) :
    queries outs = [] ∧ ∃ vs, answers outs = [(qid, .getPeers (.values vs))] ∧ vs.Nodup ∧ vs ≠ [] ∧ vs.length ≤ 216 ∧
      (∀ p ∈ vs, Tellable m.peers p) ∧ ((∀ p, Tellable m.peers p → p ∈ vs) ∨ vs.length = 216) := by
  have hb := (Base.start (now := now) ht hp).run hr
  obtain ⟨shuffle, m1, o1, w, o2, hsh, he, rfl, hl, rfl⟩ := query_step hb hs
  obtain ⟨l1, l2, _⟩ := lookups_only hl
  rw [queries_append, answers_append, l1, l2]
  obtain ⟨good, g0, g1, g2, _, _⟩ := good_eq hb.wf 216
  obtain ⟨c1, c2, c3, c4⟩ := chosen g0 216
  have hne : good.take 216 ≠ [] := by
    intro hnil
    rcases List.take_eq_nil_iff.mp hnil with h1 | h1
    · omega
    · have := (g2 p0).mpr ha
      rw [h1] at this
      simp at this
  rw [if_neg hne] at g1
  simp only [Manager.processQuery, Manager.findPeers, Peers.serve, hb.own, decide_true, if_true, per_answer, g1] at he
  cases he
  refine ⟨rfl, _, rfl, c1, hne, c2, fun p hp => (g2 p).mp (c3 p hp), ?_⟩
  rcases c4 with c4 | c4
  · exact .inl fun p hp => c4 p ((g2 p).mpr hp)
  · exact .inr c4

/-- C97, partial: a get_peers query for a torrent of which no peer can be told is answered like a find_node query, exactly
once and to the node that asked. Missing: an answer when no stored node is good. -/
theorem C97_get_peers_partial (ht : Reachable table) (hp : Peers.Run (.new infoHash) os peers)
    (hr : DhtManager.Run pause (start infoHash table peers now) h m) (k : ID) (qid : QueryId)
    (hs : DhtManager.Step pause m ⟨.query (.getPeers k qid), outs⟩ m')
    (hn : if k = infoHash then ∀ p, ¬ Tellable m.peers p else ∀ p, ¬ Announced h k p) :
    queries outs = [] ∧
    ((∃ nodes, answers outs = [(qid, .getPeers (.nodes nodes))] ∧ NodesFor m.table m.now k nodes) ∨
     (answers outs = [] ∧ ¬ Known m.table k ∧ ∀ n ∈ m.table.iterNodes, ¬ Good m.now n)) := by
  have hb0 := Base.start (now := now) ht hp
  have hb := hb0.run hr
  obtain ⟨shuffle, m1, o1, w, o2, hsh, he, rfl, hl, rfl⟩ := query_step hb hs
  obtain ⟨l1, l2, _⟩ := lookups_only hl
  rw [queries_append, answers_append, l1, l2]
  have hfp : ∃ m2, m.findPeers shuffle k = (m2, none) ∧ m2.table = m.table ∧ m2.now = m.now := by
    split at hn
    · rename_i hk
      subst hk
      obtain ⟨good, g0, g1, g2, _, _⟩ := good_eq hb.wf 216
      have hnil : good = [] := List.eq_nil_iff_forall_not_mem.mpr fun p hp => hn p ((g2 p).mp hp)
      rw [hnil] at g1
      simp only [List.take_nil, if_true] at g1
      simp only [Manager.findPeers, Peers.serve, hb.own, decide_true, if_true, per_answer, g1]
      exact ⟨_, rfl, rfl, rfl⟩
    · rename_i hk
      obtain ⟨hst, hne⟩ := stored_iff hb0 hr k hk
      rw [findPeers_other (hb.own ▸ hk)]
      cases hg : m.peerMap.get? k with
      | none => exact ⟨m, rfl, rfl, rfl⟩
      | some ps =>
        cases ps with
        | nil => exact absurd hg hne
        | cons p ps =>
          rw [hg] at hst
          exact absurd ((hst p).mp (by simp)) (hn p)
  obtain ⟨m2, hf, e1, e2⟩ := hfp
  simp only [Manager.processQuery, hf] at he
  rw [e1, e2] at he
  rcases nodesFor_findNode hb.reach m.now k with ⟨nodes, hf, hn⟩ | ⟨hk, hg, hf⟩
  · rw [hf] at he
    cases he
    exact ⟨rfl, .inl ⟨nodes, rfl, hn⟩⟩
  · rw [hf] at he
    cases he
    exact ⟨rfl, .inr ⟨rfl, hk, hg⟩⟩

theorem processQuery_total (hb : Base infoHash m) (shuffle : List Peer → List Peer) (q : FromConQuery) :
    ∃ x, m.processQuery shuffle q = .ok x ∧ Reachable x.1.table := by
  cases q with
  | findNode target qid =>
    simp only [Manager.processQuery]
    rcases nodesFor_findNode hb.reach m.now target with ⟨nodes, hf, _⟩ | ⟨_, _, hf⟩ <;>
      (rw [hf]; exact ⟨_, rfl, hb.reach⟩)
  | getPeers k qid =>
    have key : (m.findPeers shuffle k).1.table = m.table := by
      unfold Manager.findPeers; split <;> rfl
    simp only [Manager.processQuery]
    cases hf : m.findPeers shuffle k with
    | mk m2 r =>
      rw [hf] at key
      have hr2 : Reachable m2.table := by rw [show m2.table = m.table from key]; exact hb.reach
      cases r with
      | some ps => exact ⟨_, rfl, hr2⟩
      | none =>
        simp only
        rcases nodesFor_findNode hr2 m2.now k with ⟨nodes, hf, _⟩ | ⟨_, _, hf⟩ <;>
          (rw [hf]; exact ⟨_, rfl, hr2⟩)
  | newPeer p k =>
    refine ⟨_, rfl, ?_⟩
    simp only [Manager.storeNewPeer]
    split
    · exact hb.reach
    · split <;> exact hb.reach

theorem processResp_total (hb : Base infoHash m) (r : FromConResp) :
    ∃ x, m.processResp r = .ok x ∧ Reachable x.1.table := by
  cases r with
  | touch id a =>
    obtain ⟨t, h1, _⟩ := C64_sighting_total m.table hb.reach m.now id a
    refine ⟨({ m with table := t }, []), by simp only [Manager.processResp, h1, Res.ok_bind], ?_⟩
    exact .sighting _ _ _ _ _ hb.reach h1
  | newNodes ns a id =>
    obtain ⟨t, h1, _⟩ := C64_sighting_total m.table hb.reach m.now id a
    have ht : Reachable t := .sighting _ _ _ _ _ hb.reach h1
    exact ⟨({ m with table := t }, ((ns.list.filter fun n => decide (¬ Known t n.id)).map (·.addr)).map ping),
      by simp only [Manager.processResp, h1, Res.ok_bind, unknownAddresses_spec ht], ht⟩
  | getPeers => exact ⟨_, rfl, hb.reach⟩

theorem refresh_total (hb : Base infoHash m) (rb : Nat → Nat → Byte) (rt : Nat → Nat → Bool) :
    ∃ o, m.refresh rb rt = .ok o := by
  obtain ⟨ids, h1, _⟩ := C69_targets m.table hb.reach fun k => ⟨m.now, rb k, rt k⟩
  simp only [Manager.refresh, h1, Res.ok_bind]
  rcases refreshQueries_spec hb.reach m.now
    (ids ++ if m.table.data.length ≤ 160 ∨ FullOfGood m.table (m.table.data.length - 1) m.now then [m.table.ownId] else [])
    with ⟨_, h⟩ | ⟨_, _, _, _, h⟩ <;> exact ⟨_, h⟩

/-- C99: nothing that is sent to the task makes it panic: whatever query, answer or port of a peer's DHT node it is
handed, and when it refreshes its table, the turn ends and the task goes on. -/
theorem C99_total (ht : Reachable table) (hp : Peers.Run (.new infoHash) os peers)
    (hr : DhtManager.Run pause (start infoHash table peers now) h m) :
    (∀ shuffle q, ∃ m' outs, andThen (m.processQuery shuffle q) = .ok (m', outs) ∧ m'.status = m.status) ∧
    (∀ r, ∃ m' outs, andThen (m.processResp r) = .ok (m', outs) ∧ m'.status = m.status) ∧
    (∀ addr, ∃ m' outs, andThen (.ok (m, [ping addr])) = .ok (m', outs) ∧ m'.status = m.status) ∧
    (∀ rb rt, ∃ o1 m' outs, m.refresh rb rt = .ok o1 ∧
      andThen (.ok ({ m with refreshes := m.refreshes + 1 }, o1)) = .ok (m', outs) ∧ m'.status = m.status) := by
  have hb := (Base.start (now := now) ht hp).run hr
  refine ⟨?_, ?_, ?_, ?_⟩
  · intro shuffle q
    obtain ⟨⟨m1, o1⟩, h1, h2⟩ := processQuery_total hb shuffle q
    obtain ⟨w, o, he, _⟩ := andThen_spec h2 o1
    refine ⟨_, _, by rw [h1]; exact he, ?_⟩
    exact (congrArg Manager.status (peers_mid h1).1).trans rfl
  · intro r
    obtain ⟨⟨m1, o1⟩, h1, h2⟩ := processResp_total hb r
    obtain ⟨w, o, he, _⟩ := andThen_spec h2 o1
    refine ⟨_, _, by rw [h1]; exact he, ?_⟩
    exact (Mid.resp (pause := pause) h1).spec.2.2.2.1
  · intro addr
    obtain ⟨w, o, he, _⟩ := andThen_spec hb.reach [ping addr]
    exact ⟨_, _, he, rfl⟩
  · intro rb rt
    obtain ⟨o1, h1⟩ := refresh_total hb rb rt
    obtain ⟨w, o, he, _⟩ := andThen_spec (m := { m with refreshes := m.refreshes + 1 }) hb.reach o1
    exact ⟨o1, _, _, h1, he, rfl⟩

theorem allOutputs_snoc (h : List DhtManager.Entry) (e : DhtManager.Entry) :
    allOutputs (h ++ [e]) = allOutputs h ++ e.outputs := by simp [allOutputs]

/-- Before its end a turn starts no lookup and stores nothing. -/
theorem mid_only {ev : DhtManager.Event} {m1 : Manager} {o : List Out} (hb : Base infoHash m) (hm : Mid pause m ev m1 o) :
    lookups o = [] ∧ stored o = [] := by
  cases hm with
  | @refresh rb rt _ _ he =>
    obtain ⟨ids, h1, _⟩ := C69_targets m.table hb.reach fun k => ⟨m.now, rb k, rt k⟩
    simp only [Manager.refresh, h1, Res.ok_bind] at he
    rcases refreshQueries_spec hb.reach m.now
      (ids ++ if m.table.data.length ≤ 160 ∨ FullOfGood m.table (m.table.data.length - 1) m.now then [m.table.ownId]
        else []) with ⟨_, h2⟩ | ⟨_, addrs, _, _, h2⟩
    · rw [h2] at he
      cases he
      exact ⟨rfl, rfl⟩
    · rw [h2] at he
      cases he
      constructor
      · simp only [lookups, List.filterMap_map]
        exact List.filterMap_eq_nil_iff.mpr fun x _ => rfl
      · simp only [stored, List.filterMap_map]
        exact List.filterMap_eq_nil_iff.mpr fun x _ => rfl
  | peerNode => exact ⟨rfl, rfl⟩
  | @query shuffle q _ _ _ he =>
    cases q with
    | findNode target qid =>
      simp only [Manager.processQuery] at he
      rcases nodesFor_findNode hb.reach m.now target with ⟨nodes, hf, _⟩ | ⟨_, _, hf⟩ <;>
        (rw [hf] at he; cases he; exact ⟨rfl, rfl⟩)
    | getPeers k qid =>
      simp only [Manager.processQuery] at he
      split at he
      · cases he; exact ⟨rfl, rfl⟩
      · simp only [Res.bind_eq_ok] at he
        obtain ⟨o, _, he⟩ := he
        cases he
        cases o <;> exact ⟨rfl, rfl⟩
    | newPeer => cases he; exact ⟨rfl, rfl⟩
  | @resp r _ _ he =>
    cases r with
    | touch id a =>
      simp only [Manager.processResp, Res.bind_eq_ok] at he
      obtain ⟨t, ht, he⟩ := he
      cases he
      exact ⟨rfl, rfl⟩
    | newNodes ns a id =>
      simp only [Manager.processResp, Res.bind_eq_ok] at he
      obtain ⟨t, ht, u, _, he⟩ := he
      cases he
      constructor
      · simp only [lookups, List.filterMap_map]
        exact List.filterMap_eq_nil_iff.mpr fun x _ => rfl
      · simp only [stored, List.filterMap_map]
        exact List.filterMap_eq_nil_iff.mpr fun x _ => rfl
    | getPeers => cases he; exact ⟨rfl, rfl⟩

/-- Whether the lookups were started is what the task remembers. -/
theorem lookups_wait (hb : Base infoHash (start infoHash table peers now))
    (hr : DhtManager.Run pause (start infoHash table peers now) h m) :
    (lookups (allOutputs h)).length = if m.waitForGood then 0 else 1 := by
  generalize hs0 : start infoHash table peers now = s0 at hr hb
  induction hr with
  | nil => subst hs0; rfl
  | @snoc m1 m2 h e hr1 hs ih =>
    have hbm := hb.run hr1
    rw [allOutputs_snoc, lookups_append, List.length_append, ih]
    cases hs.kind hbm.reach with
    | @turn ev mm o1 w o2 hrun hm hl =>
      simp only [lookups_append, (mid_only hbm hm).1, List.nil_append]
      have hw : mm.waitForGood = m1.waitForGood := hm.spec.2.2.2.2.1
      rcases hl with ⟨h1, _, rfl, ns, rfl, _⟩ | ⟨_, rfl, rfl⟩
      · rw [← hw, h1]; rfl
      · rw [← hw]; simp [lookups]
    | shutdown => rfl
    | gone => rfl
    | others => rfl
    | pass => rfl
    | reorder => rfl

/-- C99: the lookups for the torrent are started at most once, with good stored nodes, at least one, none of which is
farther from the torrent than a good node left out; and they have been started at the end of every turn at which a stored
node is good. -/
theorem C99_lookups (ht : Reachable table) (hp : Peers.Run (.new infoHash) os peers)
    (hr : DhtManager.Run pause (start infoHash table peers now) h m) :
    (lookups (allOutputs h)).length ≤ 1 ∧
    ∀ e m', DhtManager.Step pause m e m' →
      (∀ ns ∈ lookups e.outputs, NodesFor m'.table m'.now infoHash (.closest ns) ∨
        (ns ≠ [] ∧ Known m'.table infoHash ∧ ∀ n ∈ ns, n ∈ m'.table.iterNodes ∧ Good m'.now n)) ∧
      (isTurn e = true → m'.status = .running → (∃ n ∈ m'.table.iterNodes, Good m'.now n) →
        (lookups (allOutputs (h ++ [e]))).length = 1) := by
  have hb0 := Base.start (now := now) ht hp
  have hb := hb0.run hr
  refine ⟨by rw [lookups_wait hb0 hr]; split <;> omega, ?_⟩
  intro e m' hs
  have hall := lookups_wait hb0 (hr.snoc hs)
  cases hs.kind hb.reach with
  | @turn ev mm o1 w o2 hrun hm hl =>
    have hreach : Reachable mm.table := hm.reachable hb.reach
    have hih : mm.infoHash = infoHash := hm.spec.1.trans hb.ih
    constructor
    · intro ns hns
      simp only [lookups_append, (mid_only hb hm).1, List.nil_append] at hns
      rcases hl with ⟨_, _, _, ns', rfl, h1, h2, h3⟩ | ⟨_, _, rfl⟩
      · simp only [lookups, List.filterMap_cons, List.filterMap_nil, List.mem_singleton] at hns
        subst hns
        rw [hih] at h3
        by_cases hk : Known mm.table infoHash
        · exact .inr ⟨h1, hk, h2⟩
        · left
          obtain ⟨o, ho, _, hsp⟩ := C68_closest_partial mm.table hreach mm.now infoHash
          rw [h3] at ho
          cases ho
          obtain ⟨g1, g2, g3, _, _, g6⟩ := hsp ns rfl
          exact ⟨hk, h1, g3, g2, g1, g6⟩
      · simp [lookups] at hns
    · intro _ _ hg
      rw [hall]
      rcases hl with ⟨_, _, rfl, _⟩ | ⟨h1, rfl, _⟩
      · rfl
      · rcases h1 with h1 | h1
        · simp [h1]
        · exact absurd hg h1
  | shutdown => exact ⟨by simp [lookups], fun _ hc => by cases hc⟩
  | gone => exact ⟨by simp [lookups], fun _ hc => by cases hc⟩
  | others => exact ⟨by simp [lookups], fun hc => by cases hc⟩
  | pass => exact ⟨by simp [lookups], fun hc => by cases hc⟩
  | reorder => exact ⟨by simp [lookups], fun hc => by cases hc⟩

/-- C100: the shutdown signal is heard in every state in which the task still runs, and the table is stored as it is then;
the task ends. -/
theorem C100_stored (hrun : m.status = .running) :
    (∃ outs m', DhtManager.Step pause m ⟨.shutdown, outs⟩ m') ∧
    ∀ outs m', DhtManager.Step pause m ⟨.shutdown, outs⟩ m' → outs = [.stored m.table] ∧ m'.status = .finished := by
  refine ⟨⟨_, _, .shutdown hrun⟩, ?_⟩
  intro outs m' hs
  cases hs with
  | shutdown => exact ⟨rfl, rfl⟩

/-- Once the task has ended it does nothing more. -/
theorem ended (hend : m.status ≠ .running) (hr : DhtManager.Run pause m h m') :
    m'.status ≠ .running ∧ allOutputs h = [] := by
  induction hr with
  | nil => exact ⟨hend, rfl⟩
  | snoc _ hs ih =>
    obtain ⟨i1, i2⟩ := ih
    rw [allOutputs_snoc, i2]
    cases hs with
    | others => exact ⟨i1, rfl⟩
    | pass => exact ⟨i1, rfl⟩
    | reorder => exact ⟨i1, rfl⟩
    | shutdown h => exact absurd h i1
    | refresh h => exact absurd h i1
    | peerNode h => exact absurd h i1
    | peersGone h => exact absurd h i1
    | query h => exact absurd h i1
    | resp h => exact absurd h i1
    | conGone h => exact absurd h i1

/-- The table is stored at most once, and only at shutdown. -/
theorem C100_once (ht : Reachable table) (hp : Peers.Run (.new infoHash) os peers)
    (hr : DhtManager.Run pause (start infoHash table peers now) h m) :
    (stored (allOutputs h)).length = if m.status = .finished then 1 else 0 := by
  have hb0 := Base.start (now := now) ht hp
  generalize hs0 : start infoHash table peers now = s0 at hr hb0
  induction hr with
  | nil => subst hs0; rfl
  | @snoc m1 m2 h e hr1 hs ih =>
    have hbm := hb0.run hr1
    rw [allOutputs_snoc, stored_append, List.length_append, ih]
    cases hs.kind hbm.reach with
    | @turn ev mm o1 w o2 hrun hm hl =>
      simp only [stored_append, (mid_only hbm hm).2, (lookups_only hl).2.2, hm.spec.2.2.2.1]
      simp
    | shutdown hrun => simp [hrun, stored]
    | gone hrun => simp [hrun, stored]
    | others => simp [stored]
    | pass => simp [stored]
    | reorder => simp [stored]

/-- C100, violated: if the tasks of the torrent or the connection end before the shutdown signal comes (a panic ends
them), the task ends with an error at any time, whatever the table holds, and the table is never stored, whatever
happens afterwards. -/
theorem C100_lost_violated (ht : Reachable table) (hp : Peers.Run (.new infoHash) os peers)
    (hr : DhtManager.Run pause (start infoHash table peers now) h m) (hrun : m.status = .running) (ev : DhtManager.Event)
    (hev : ev = .peersGone ∨ ev = .conGone) :
    ∃ m1, DhtManager.Step pause m ⟨ev, []⟩ m1 ∧ m1.table = m.table ∧
      ∀ h' m2, DhtManager.Run pause m1 h' m2 → stored (allOutputs (h ++ ⟨ev, []⟩ :: h')) = [] := by
  refine ⟨{ m with status := .failed }, ?_, rfl, ?_⟩
  · rcases hev with rfl | rfl
    · exact .peersGone hrun
    · exact .conGone hrun
  · intro h' m2 hr2
    have h1 := C100_once ht hp hr
    rw [hrun] at h1
    have h2 : stored (allOutputs h) = [] := by simpa using h1
    have h3 := (ended (m := { m with status := .failed }) (by simp) hr2).2
    have : allOutputs (h ++ ⟨ev, []⟩ :: h') = allOutputs h ++ allOutputs h' := by simp [allOutputs]
    rw [this, stored_append, h2, h3]
    rfl

/-! ## Who gets into the table -/

theorem elapsed_snoc (h : List DhtManager.Entry) (e : DhtManager.Entry) :
    elapsed (h ++ [e]) = elapsed h + match e.event with | .pass d => d | _ => 0 := by
  simp only [elapsed, List.map_append, List.sum_append, List.map_cons, List.map_nil, List.sum_cons, List.sum_nil]
  rfl

theorem now_eq (hb : Base infoHash m) (hr : DhtManager.Run pause m h m') : m'.now = m.now + elapsed h := by
  induction hr with
  | nil => rfl
  | @snoc m1 m2 h e hr1 hs ih =>
    rw [elapsed_snoc, ← Nat.add_assoc, ← ih]
    cases hs.kind (hb.run hr1).reach with
    | @turn ev mm o1 w o2 hrun hm hl =>
      simp only [hm.spec.2.1]
      cases hm <;> rfl
    | gone _ h => rcases h with rfl | rfl <;> rfl
    | _ => rfl

theorem sighting_answer {e : DhtManager.Entry} {id : ID} {a : SockAddr} (h : sighting e.event = some (id, a)) :
    AnswerOf id a e := by
  unfold sighting at h
  split at h
  · rename_i he
    cases h
    exact .inl he
  · rename_i ns _ _ he
    cases h
    exact .inr ⟨ns, he⟩
  · cases h

/-- What a sighting does to the nodes. -/
theorem touched {t t' : RoutingTable} (ht : Reachable t) {now : Nat} {id : ID} {a : SockAddr}
    (he : t.touchNode now id a = .ok t') (n : Node) (hn : n ∈ t'.iterNodes) :
    n ∈ t.iterNodes ∨ n = ⟨id, a, some now⟩ ∨ (n.id = id ∧ n.lastSeen = some now ∧ ∃ n0 ∈ t.iterNodes, n0.id = n.id ∧
      n0.addr = n.addr) := by
  obtain ⟨t1, h1, _, _, h2⟩ := (RoutingTable.Inv.of_reachable ht).touchNode now id a
  rw [h1] at he
  cases he
  rcases h2 with ⟨_, h3, _⟩ | ⟨_, h3⟩
  · rw [h3] at hn
    obtain ⟨n0, hn0, rfl⟩ := List.mem_map.mp hn
    by_cases hid : n0.id = id
    · rw [if_pos hid]
      exact .inr (.inr ⟨hid, rfl, n0, hn0, rfl, rfl⟩)
    · rw [if_neg hid]
      exact .inl hn0
  · cases h3 with
    | stored old rest p1 p2 _ =>
      rcases List.mem_cons.mp (p2.mem_iff.mp hn) with rfl | hr
      · exact .inr (.inl rfl)
      · exact .inl (p1.mem_iff.mpr (List.mem_append_right _ hr))
    | refused b p1 => exact .inl (p1.mem_iff.mp hn)

/-- C98: every node in the table was there at the start, or has answered a query of this program from the address it is
stored with; and the time it was last seen is that of the start, or the moment at which a node with its id answered. -/
theorem C98_only_answering (ht : Reachable table) (hp : Peers.Run (.new infoHash) os peers)
    (hr : DhtManager.Run pause (start infoHash table peers now) h m) (n : Node) (hn : n ∈ m.table.iterNodes) :
    ((∃ n0 ∈ table.iterNodes, n0.id = n.id ∧ n0.addr = n.addr) ∨ ∃ e ∈ h, AnswerOf n.id n.addr e) ∧
    ((∃ n0 ∈ table.iterNodes, n0 = n) ∨
      ∃ h1 e h2 addr, h = h1 ++ e :: h2 ∧ AnswerOf n.id addr e ∧ n.lastSeen = some (now + elapsed h1)) := by
  have hb0 := Base.start (now := now) ht hp
  generalize hs0 : start infoHash table peers now = s0 at hr hb0
  induction hr generalizing n with
  | nil => subst hs0; exact ⟨.inl ⟨n, hn, rfl, rfl⟩, .inl ⟨n, hn, rfl⟩⟩
  | @snoc m1 m2 h e hr1 hs ih =>
    have hbm := hb0.run hr1
    have hnow := now_eq hb0 hr1
    have hold : ∀ n ∈ m1.table.iterNodes,
        ((∃ n0 ∈ table.iterNodes, n0.id = n.id ∧ n0.addr = n.addr) ∨ ∃ x ∈ h ++ [e], AnswerOf n.id n.addr x) ∧
        ((∃ n0 ∈ table.iterNodes, n0 = n) ∨
          ∃ h1 x h2 addr, h ++ [e] = h1 ++ x :: h2 ∧ AnswerOf n.id addr x ∧ n.lastSeen = some (now + elapsed h1)) := by
      intro n hn
      obtain ⟨i1, i2⟩ := ih n hn
      constructor
      · rcases i1 with i1 | ⟨x, hx, hx2⟩
        · exact .inl i1
        · exact .inr ⟨x, List.mem_append_left _ hx, hx2⟩
      · rcases i2 with i2 | ⟨h1, x, h2, addr, rfl, hx, hl⟩
        · exact .inl i2
        · exact .inr ⟨h1, x, h2 ++ [e], addr, by simp, hx, hl⟩
    cases hs.kind hbm.reach with
    | @turn ev mm o1 w o2 hrun hm hl =>
      have hsp := hm.spec.2.2.2.2.2.2
      simp only at hn
      split at hsp
      · rw [hsp] at hn; exact hold n hn
      · rename_i id a hsi
        have hans : AnswerOf id a ⟨ev, o1 ++ o2⟩ := sighting_answer hsi
        have hnow0 : m1.now = now + elapsed h := by rw [hnow, ← hs0]; rfl
        rcases touched hbm.reach hsp n hn with h1 | rfl | ⟨rfl, hls, n0, hn0, hid, had⟩
        · exact hold n h1
        · exact ⟨.inr ⟨_, by simp, hans⟩, .inr ⟨h, _, [], a, rfl, hans, by rw [hnow0]⟩⟩
        · refine ⟨?_, .inr ⟨h, _, [], a, rfl, hans, by rw [hls, hnow0]⟩⟩
          have := (hold n0 hn0).1
          rw [hid, had] at this
          exact this
    | shutdown => exact hold n hn
    | gone => exact hold n hn
    | others => exact hold n hn
    | pass => exact hold n hn
    | reorder => exact hold n hn

/-- A step of the task in which it gets an answer. -/
theorem resp_step (hb : Base infoHash m) {r : FromConResp}
    (hs : DhtManager.Step pause m ⟨.resp r, outs⟩ m') :
    ∃ m1 o1 w o2, m.processResp r = .ok (m1, o1) ∧
      outs = o1 ++ o2 ∧ DhtManager.Lookups m1 w o2 ∧ m' = { m1 with since := m1.now, waitForGood := w } := by
  have hk := hs.kind hb.reach
  generalize hev : DhtManager.Event.resp r = ev at hk
  cases hk with
  | turn _ hm hl =>
    subst hev
    cases hm with
    | resp he => exact ⟨_, _, _, _, he, rfl, hl, rfl⟩
  | gone _ h => subst hev; rcases h with h | h <;> cases h
  | _ => cases hev

/-- C98: a node that is merely named by another is not stored but pinged, at the address given, if it is not in the
table; nothing else is sent. The node that answered is treated as seen now. -/
theorem C98_named_are_pinged (ht : Reachable table) (hp : Peers.Run (.new infoHash) os peers)
    (hr : DhtManager.Run pause (start infoHash table peers now) h m) (nodes : Nodes) (addr : SockAddr) (id : ID)
    (hs : DhtManager.Step pause m ⟨.resp (.newNodes nodes addr id), outs⟩ m') :
    queries outs = (nodes.list.filter fun n => decide (¬ Known m'.table n.id)).map (fun n => (n.addr, .ping)) ∧
    answers outs = [] ∧ m.table.touchNode m.now id addr = .ok m'.table := by
  have hb := (Base.start (now := now) ht hp).run hr
  obtain ⟨m1, o1, w, o2, he, rfl, hl, rfl⟩ := resp_step hb hs
  obtain ⟨l1, l2, _⟩ := lookups_only hl
  rw [queries_append, answers_append, l1, l2, List.append_nil, List.append_nil]
  simp only [Manager.processResp, Res.bind_eq_ok] at he
  obtain ⟨t, h1, u, h2, he⟩ := he
  have hrt : Reachable t := .sighting _ _ _ _ _ hb.reach h1
  rw [unknownAddresses_spec hrt] at h2
  cases h2
  cases he
  refine ⟨?_, ?_, h1⟩
  · simp only [queries, List.filterMap_map, List.map_map]
    exact congrFun List.filterMap_eq_map' _
  · simp only [answers, List.filterMap_map]
    exact List.filterMap_eq_nil_iff.mpr fun x _ => rfl

/-- C98: an answer to a ping makes its sender seen now; nothing is sent. -/
theorem C98_touch (ht : Reachable table) (hp : Peers.Run (.new infoHash) os peers)
    (hr : DhtManager.Run pause (start infoHash table peers now) h m) (addr : SockAddr) (id : ID)
    (hs : DhtManager.Step pause m ⟨.resp (.touch id addr), outs⟩ m') :
    queries outs = [] ∧ answers outs = [] ∧ m.table.touchNode m.now id addr = .ok m'.table := by
  have hb := (Base.start (now := now) ht hp).run hr
  obtain ⟨m1, o1, w, o2, he, rfl, hl, rfl⟩ := resp_step hb hs
  obtain ⟨l1, l2, _⟩ := lookups_only hl
  rw [queries_append, answers_append, l1, l2, List.append_nil, List.append_nil]
  simp only [Manager.processResp, Res.bind_eq_ok] at he
  obtain ⟨t, h1, he⟩ := he
  cases he
  exact ⟨rfl, rfl, h1⟩

/-- C98: a peer that tells the port of its DHT node makes the program ping that node, once; it is not stored before it
answers. -/
theorem C98_port_message (ht : Reachable table) (hp : Peers.Run (.new infoHash) os peers)
    (hr : DhtManager.Run pause (start infoHash table peers now) h m) (addr : SockAddr)
    (hs : DhtManager.Step pause m ⟨.peerNode addr, outs⟩ m') :
    queries outs = [(addr, .ping)] ∧ answers outs = [] ∧ m'.table = m.table := by
  have hb := (Base.start (now := now) ht hp).run hr
  have hk := hs.kind hb.reach
  generalize hev : DhtManager.Event.peerNode addr = ev at hk
  cases hk with
  | turn _ hm hl =>
    subst hev
    obtain ⟨l1, l2, _⟩ := lookups_only hl
    rw [queries_append, answers_append, l1, l2, List.append_nil, List.append_nil]
    cases hm with
    | peerNode => exact ⟨rfl, rfl, rfl⟩
  | gone _ h => subst hev; rcases h with h | h <;> cases h
  | _ => cases hev

/-- C91: when the program starts, every node of the stored table is pinged, once, and nothing else is sent. -/
theorem C91_start (table : RoutingTable) :
    queries (startOutputs table) = table.iterNodes.map (fun n => (n.addr, .ping)) ∧
    (startOutputs table).length = table.iterNodes.length := by
  refine ⟨?_, by simp [startOutputs]⟩
  simp only [queries, startOutputs, List.filterMap_map]
  exact congrFun List.filterMap_eq_map' _

/-- C98: every query of this task asks for the answer to be returned to this task. -/
theorem C98_channel (ht : Reachable table) (hp : Peers.Run (.new infoHash) os peers)
    (hr : DhtManager.Run pause (start infoHash table peers now) h m) (e : DhtManager.Entry) (he : e ∈ h) (c : Nat)
    (a : SockAddr) (q : ToConQuery) (hq : Out.send (.query c a q) ∈ e.outputs) :
    c = OWN_CHANNEL ∧ (q = .ping ∨ ∃ id, q = .findNode id) := by
  have hb0 := Base.start (now := now) ht hp
  generalize hs0 : start infoHash table peers now = s0 at hr hb0
  induction hr with
  | nil => simp at he
  | @snoc m1 m2 h e1 hr1 hs ih =>
    rcases List.mem_append.mp he with he | he
    · exact ih he
    · rw [List.mem_singleton] at he
      subst he
      have hbm := hb0.run hr1
      cases hs.kind hbm.reach with
      | @turn ev mm o1 w o2 hrun hm hl =>
        rcases List.mem_append.mp hq with hz | hz
        · cases hm with
          | @refresh rb rt _ _ he =>
            obtain ⟨ids, h1, _⟩ := C69_targets m1.table hbm.reach fun k => ⟨m1.now, rb k, rt k⟩
            simp only [Manager.refresh, h1, Res.ok_bind] at he
            rcases refreshQueries_spec hbm.reach m1.now
              (ids ++ if m1.table.data.length ≤ 160 ∨ FullOfGood m1.table (m1.table.data.length - 1) m1.now
                then [m1.table.ownId] else []) with ⟨_, h3⟩ | ⟨_, addrs, _, _, h3⟩
            · rw [h3] at he; cases he; simp at hz
            · rw [h3] at he
              cases he
              obtain ⟨x, _, hx⟩ := List.mem_map.mp hz
              cases hx
              exact ⟨rfl, .inr ⟨_, rfl⟩⟩
          | peerNode =>
            rw [List.mem_singleton] at hz
            cases hz
            exact ⟨rfl, .inl rfl⟩
          | @query shuffle q _ _ _ he =>
            cases q with
            | findNode target qid =>
              simp only [Manager.processQuery, Res.bind_eq_ok] at he
              obtain ⟨o, _, he⟩ := he
              cases he
              cases o <;> simp at hz
            | getPeers k qid =>
              simp only [Manager.processQuery] at he
              split at he
              · cases he; simp at hz
              · simp only [Res.bind_eq_ok] at he
                obtain ⟨o, _, he⟩ := he
                cases he
                cases o <;> simp at hz
            | newPeer => cases he; simp at hz
          | @resp r _ _ he =>
            cases r with
            | touch id a =>
              simp only [Manager.processResp, Res.bind_eq_ok] at he
              obtain ⟨t, ht, he⟩ := he
              cases he
              simp at hz
            | newNodes ns a id =>
              simp only [Manager.processResp, Res.bind_eq_ok] at he
              obtain ⟨t, ht, u, _, he⟩ := he
              cases he
              obtain ⟨x, _, hx⟩ := List.mem_map.mp hz
              cases hx
              exact ⟨rfl, .inl rfl⟩
            | getPeers => cases he; simp at hz
        · rcases hl with ⟨_, _, _, ns, rfl, _⟩ | ⟨_, _, rfl⟩ <;> simp at hz
      | shutdown => simp at hq
      | gone => simp at hq
      | others => simp at hq
      | pass => simp at hq
      | reorder => simp at hq

/-- C98, violated: a stored node need not answer itself to count as good. Anyone who answers with its id, from any address,
makes the stored node count as seen now, at its stored address. -/
theorem C98_wrong_address_violated (ht : Reachable table) (hp : Peers.Run (.new infoHash) os peers)
    (hr : DhtManager.Run pause (start infoHash table peers now) h m) (hrun : m.status = .running) (n : Node)
    (hn : n ∈ m.table.iterNodes) (addr : SockAddr) :
    ∃ outs m', DhtManager.Step pause m ⟨.resp (.touch n.id addr), outs⟩ m' ∧
      (⟨n.id, n.addr, some m.now⟩ : Node) ∈ m'.table.iterNodes := by
  have hb := (Base.start (now := now) ht hp).run hr
  obtain ⟨m', outs, h1, _⟩ := (C99_total ht hp hr).2.1 (.touch n.id addr)
  have hs : DhtManager.Step pause m ⟨.resp (.touch n.id addr), outs⟩ m' := .resp hrun h1
  refine ⟨outs, m', hs, ?_⟩
  have h2 := (C98_touch ht hp hr addr n.id hs).2.2
  obtain ⟨t', h3, _, h4⟩ := C65_refresh m.table hb.reach m.now n.id addr ⟨n, hn, rfl⟩
  rw [h3] at h2
  cases h2
  rw [h4]
  exact List.mem_map.mpr ⟨n, hn, by simp⟩

/-! ## Refreshing the table -/

theorem sinceTurn_snoc (b : Nat) (h : List DhtManager.Entry) (e : DhtManager.Entry) :
    sinceTurn b (h ++ [e]) =
      if isTurn e then 0 else sinceTurn b h + match e.event with | .pass d => d | _ => 0 := by
  induction h generalizing b with
  | nil => simp only [List.nil_append, sinceTurn]; rfl
  | cons x h ih =>
    simp only [List.cons_append, sinceTurn]
    split <;> exact ih _

theorem since_eq (hb : Base infoHash (start infoHash table peers now))
    (hr : DhtManager.Run pause (start infoHash table peers now) h m) (hrun : m.status = .running) :
    m.now = m.since + sinceTurn 0 h := by
  generalize hs0 : start infoHash table peers now = s0 at hr hb
  induction hr with
  | nil => subst hs0; rfl
  | @snoc m1 m2 h e hr1 hs ih =>
    rw [sinceTurn_snoc]
    cases hs.kind (hb.run hr1).reach with
    | @turn ev mm o1 w o2 hrun1 hm hl =>
      have : isTurn ⟨ev, o1 ++ o2⟩ = true := by cases hm <;> rfl
      simp [this]
    | shutdown => cases hrun
    | gone => cases hrun
    | others => have := ih hrun; simp only [isTurn]; simpa using this
    | pass => have := ih hrun; simp only [isTurn, Bool.false_eq_true, if_false]; omega
    | reorder => have := ih hrun; simp only [isTurn]; simpa using this

theorem refreshes_eq (hb : Base infoHash (start infoHash table peers now))
    (hr : DhtManager.Run pause (start infoHash table peers now) h m) : m.refreshes = h.countP isRefresh := by
  generalize hs0 : start infoHash table peers now = s0 at hr hb
  induction hr with
  | nil => subst hs0; rfl
  | @snoc m1 m2 h e hr1 hs ih =>
    rw [List.countP_append, ← ih]
    cases hs.kind (hb.run hr1).reach with
    | @turn ev mm o1 w o2 hrun1 hm hl =>
      cases hm with
      | refresh => rfl
      | peerNode => rfl
      | query _ he => exact (congrArg Manager.refreshes (peers_mid he).1).trans rfl
      | @resp r _ _ he =>
        cases r with
        | touch id a =>
          simp only [Manager.processResp, Res.bind_eq_ok] at he
          obtain ⟨t, ht, he⟩ := he
          cases he
          rfl
        | newNodes ns a id =>
          simp only [Manager.processResp, Res.bind_eq_ok] at he
          obtain ⟨t, ht, u, _, he⟩ := he
          cases he
          rfl
        | getPeers => cases he; rfl
    | shutdown => rfl
    | gone _ h => rcases h with rfl | rfl <;> rfl
    | others => rfl
    | pass => rfl
    | reorder => rfl

/-- C91: a refresh never comes before its pause is over; the pause of refresh `k` is counted from the last turn. -/
theorem C91_paced (ht : Reachable table) (hp : Peers.Run (.new infoHash) os peers)
    (hr : DhtManager.Run pause (start infoHash table peers now) h m) (e : DhtManager.Entry) (he : isRefresh e = true)
    (hs : DhtManager.Step pause m e m') : pause (h.countP isRefresh) ≤ sinceTurn 0 h := by
  have hb0 := Base.start (now := now) ht hp
  rw [← refreshes_eq hb0 hr]
  cases hs with
  | refresh hrun h1 => have := since_eq hb0 hr hrun; omega
  | _ => cases he

/-- C91, partial: once the task has been left alone for the length of the pause (that of the number of refreshes so far),
it can refresh the table, with any random
draws; then, if some stored node is good, it sends one find_node to a good stored node for each bucket but the last that is
not full of good nodes, for an id of that bucket, and one more for its own id (if the table is not as deep as it can
be, or its last bucket is full of good nodes). Missing: that it does so although it is not left alone, and that
something is sent although no stored node is good. -/
theorem C91_refresh_partial (ht : Reachable table) (hp : Peers.Run (.new infoHash) os peers)
    (hr : DhtManager.Run pause (start infoHash table peers now) h m) (hrun : m.status = .running)
    (hq : pause (h.countP isRefresh) ≤ sinceTurn 0 h) (rb : Nat → Nat → Byte) (rt : Nat → Nat → Bool) :
    (∃ outs m', DhtManager.Step pause m ⟨.refresh rb rt, outs⟩ m') ∧
    ∀ outs m', DhtManager.Step pause m ⟨.refresh rb rt, outs⟩ m' → m'.table = m.table ∧ answers outs = [] ∧
      ((∃ n ∈ m.table.iterNodes, Good m.now n) →
        ∃ (ids : List ID) (last : List ID) (addrs : List SockAddr),
          queries outs = (addrs.zip (ids ++ last)).map (fun x => (x.1, .findNode x.2)) ∧
          addrs.length = (ids ++ last).length ∧
          (∀ a ∈ addrs, ∃ n ∈ m.table.iterNodes, Good m.now n ∧ n.addr = a) ∧
          ids.map (responsible m.table) = (List.range (m.table.data.length - 1)).filter
            (fun i => decide (¬ FullOfGood m.table i m.now)) ∧
          last = if m.table.data.length ≤ 160 ∨ FullOfGood m.table (m.table.data.length - 1) m.now
            then [m.table.ownId] else []) := by
  have hb0 := Base.start (now := now) ht hp
  have hb := hb0.run hr
  have hsince := since_eq hb0 hr hrun
  have hcount := refreshes_eq hb0 hr
  constructor
  · obtain ⟨o1, m', outs, h1, h2, _⟩ := (C99_total ht hp hr).2.2.2 rb rt
    exact ⟨outs, m', .refresh hrun (by rw [hcount]; omega) h1 h2⟩
  · intro outs m' hs
    have hk := hs.kind hb.reach
    generalize hev : DhtManager.Event.refresh rb rt = ev at hk
    cases hk with
    | @turn _ mm o1 w o2 _ hm hl =>
      subst hev
      obtain ⟨l1, l2, _⟩ := lookups_only hl
      rw [queries_append, answers_append, l1, l2, List.append_nil, List.append_nil]
      cases hm with
      | refresh _ he =>
        obtain ⟨ids, h1, h2⟩ := C69_targets m.table hb.reach fun k => ⟨m.now, rb k, rt k⟩
        simp only [Manager.refresh, h1, Res.ok_bind] at he
        rcases refreshQueries_spec hb.reach m.now
          (ids ++ if m.table.data.length ≤ 160 ∨ FullOfGood m.table (m.table.data.length - 1) m.now then [m.table.ownId]
            else []) with ⟨hg, h3⟩ | ⟨_, addrs, h4, h5, h3⟩
        · rw [h3] at he
          cases he
          exact ⟨rfl, rfl, fun hc => absurd hc hg⟩
        · rw [h3] at he
          cases he
          refine ⟨rfl, ?_, fun _ => ⟨ids, _, addrs, ?_, h4, h5, h2, rfl⟩⟩
          · simp only [answers, List.filterMap_map]
            exact List.filterMap_eq_nil_iff.mpr fun x _ => rfl
          · simp only [queries, List.filterMap_map]
            exact congrFun List.filterMap_eq_map' _
    | gone _ h => subst hev; rcases h with h | h <;> cases h
    | _ => cases hev

/-- Without a good node a refresh sends nothing. -/
theorem refresh_silent (hb : Base infoHash m) (hg : ¬ HasGood m.table m.now) {rb : Nat → Nat → Byte} {rt : Nat → Nat → Bool}
    {o : List Out} (he : m.refresh rb rt = .ok o) : o = [] := by
  obtain ⟨ids, h1, _⟩ := C69_targets m.table hb.reach fun k => ⟨m.now, rb k, rt k⟩
  simp only [Manager.refresh, h1, Res.ok_bind] at he
  rcases refreshQueries_spec hb.reach m.now
    (ids ++ if m.table.data.length ≤ 160 ∨ FullOfGood m.table (m.table.data.length - 1) m.now then [m.table.ownId]
      else []) with ⟨_, h3⟩ | ⟨hc, _⟩
  · rw [h3] at he; cases he; rfl
  · exact absurd hc hg

/-- C91, violated: once no stored node is good, the table never comes back on its own: as long as no node answers and no
peer tells the port of its DHT node, the task sends no query at all, however long it runs and however often it refreshes.
(It pings the stored nodes only when the program starts.) -/
theorem C91_no_recovery_violated (ht : Reachable table) (hp : Peers.Run (.new infoHash) os peers)
    (hr : DhtManager.Run pause (start infoHash table peers now) h m) (hg : ∀ n ∈ m.table.iterNodes, ¬ Good m.now n)
    (h' : List DhtManager.Entry) (hr' : DhtManager.Run pause m h' m')
    (hno : ∀ e ∈ h', (∀ r, e.event ≠ .resp r) ∧ ∀ a, e.event ≠ .peerNode a) :
    queries (allOutputs h') = [] ∧ m'.table = m.table ∧ ∀ n ∈ m'.table.iterNodes, ¬ Good m'.now n := by
  have hb := (Base.start (now := now) ht hp).run hr
  clear hr
  induction hr' with
  | nil => exact ⟨rfl, rfl, hg⟩
  | @snoc m1 m2 h1 e hr1 hs ih =>
    obtain ⟨i1, i2, i3⟩ := ih fun e he => hno e (List.mem_append_left _ he)
    have hbm := hb.run hr1
    obtain ⟨hn1, hn2⟩ := hno e (by simp)
    rw [allOutputs_snoc, queries_append, i1]
    have hng : ¬ HasGood m1.table m1.now := fun ⟨n, hn, hgn⟩ => i3 n hn hgn
    cases hs.kind hbm.reach with
    | @turn ev mm o1 w o2 hrun hm hl =>
      obtain ⟨_, l2, _⟩ := lookups_only hl
      simp only [queries_append, l2, List.nil_append, List.append_nil]
      have hsp := hm.spec
      have hnow : mm.now = m1.now := hsp.2.1
      simp only at hn1 hn2
      have htab : mm.table = m1.table := by
        have h7 := hsp.2.2.2.2.2.2
        split at h7
        · exact h7
        · rename_i id a hsi
          unfold sighting at hsi
          split at hsi
          · exact absurd rfl (hn1 _)
          · exact absurd rfl (hn1 _)
          · cases hsi
      rw [htab, hnow]
      refine ⟨?_, i2, i3⟩
      cases hm with
      | refresh _ he => rw [refresh_silent hbm hng he]; rfl
      | peerNode => exact absurd rfl (hn2 _)
      | @query shuffle q _ _ _ he =>
        cases q with
        | findNode target qid =>
          simp only [Manager.processQuery] at he
          rcases nodesFor_findNode hbm.reach m1.now target with ⟨nodes, hf, _⟩ | ⟨_, _, hf⟩ <;>
            (rw [hf] at he; cases he; rfl)
        | getPeers k qid =>
          simp only [Manager.processQuery] at he
          split at he
          · cases he; rfl
          · simp only [Res.bind_eq_ok] at he
            obtain ⟨o, _, he⟩ := he
            cases he
            cases o <;> rfl
        | newPeer => cases he; rfl
      | resp => exact absurd rfl (hn1 _)
    | shutdown => exact ⟨rfl, i2, i3⟩
    | gone => exact ⟨rfl, i2, i3⟩
    | others => exact ⟨rfl, i2, i3⟩
    | pass =>
      refine ⟨rfl, i2, ?_⟩
      intro n hn ⟨seen, hs1, hs2⟩
      refine i3 n hn ⟨seen, hs1, ?_⟩
      simp only at hs2
      omega
    | reorder => exact ⟨rfl, i2, i3⟩

/-- C91, violated: as long as something is sent to the task again and again before the pause is over, it cannot refresh the
table, however long that lasts. -/
theorem C91_starved_violated (ht : Reachable table) (hp : Peers.Run (.new infoHash) os peers) (least : Nat)
    (hleast : ∀ k, least ≤ pause k) (hr : DhtManager.Run pause (start infoHash table peers now) h m)
    (hq : sinceTurn 0 h < least) (rb : Nat → Nat → Byte) (rt : Nat → Nat → Bool) :
    ¬ ∃ outs m', DhtManager.Step pause m ⟨.refresh rb rt, outs⟩ m' := by
  rintro ⟨outs, m', hs⟩
  have hb0 := Base.start (now := now) ht hp
  have hb := hb0.run hr
  cases hs with
  | refresh hrun hp1 =>
    have := since_eq hb0 hr hrun
    have := hleast m.refreshes
    omega

/-- C91, violated: there are histories of any length and duration in which that is so: a single remote node that sends a
query now and then is enough. -/
theorem C91_starving_histories_violated (ht : Reachable table) (hp : Peers.Run (.new infoHash) os peers) (d : Nat)
    (target : ID) (qid : QueryId) (n : Nat) :
    ∃ h m, DhtManager.Run pause (start infoHash table peers now) h m ∧ m.status = .running ∧ elapsed h = n * d ∧
      (∀ e ∈ h, e.event = .pass d ∨ e.event = .query (.findNode target qid)) ∧
      ∀ h1 h2, h = h1 ++ h2 → sinceTurn 0 h1 ≤ d := by
  suffices ∃ h m, DhtManager.Run pause (start infoHash table peers now) h m ∧ m.status = .running ∧ elapsed h = n * d ∧
      sinceTurn 0 h = 0 ∧ (∀ e ∈ h, e.event = .pass d ∨ e.event = .query (.findNode target qid)) ∧
      ∀ h1 h2, h = h1 ++ h2 → sinceTurn 0 h1 ≤ d by
    obtain ⟨h, m, a, b, c, _, e, f⟩ := this
    exact ⟨h, m, a, b, c, e, f⟩
  induction n with
  | zero =>
    refine ⟨[], _, .nil, rfl, by simp [elapsed], rfl, by simp, ?_⟩
    intro h1 h2 he
    obtain ⟨rfl, _⟩ := List.append_eq_nil_iff.mp he.symm
    simp [sinceTurn]
  | succ n ih =>
    obtain ⟨h, m, hr, hrun, hel, hz, hev, hpre⟩ := ih
    have hr1 := hr.snoc (.pass (d := d))
    obtain ⟨m2, outs, h2, h3⟩ := (C99_total ht hp hr1).1 id (.findNode target qid)
    have hr2 := hr1.snoc (.query (shuffle := id) hrun (fun l => .refl _) h2)
    have hz2 : sinceTurn 0 (h ++ [⟨.pass d, []⟩]) = d := by
      rw [sinceTurn_snoc, hz]; simp [isTurn]
    have hz3 : sinceTurn 0 (h ++ [⟨.pass d, []⟩] ++ [⟨.query (.findNode target qid), outs⟩]) = 0 := by
      rw [sinceTurn_snoc]; rfl
    refine ⟨_, m2, hr2, h3.trans hrun, ?_, hz3, ?_, ?_⟩
    · rw [elapsed_snoc, elapsed_snoc, hel, Nat.succ_mul]; rfl
    · intro e he
      simp only [List.mem_append, List.mem_singleton] at he
      rcases he with (he | rfl) | rfl
      · exact hev e he
      · exact .inl rfl
      · exact .inr rfl
    · intro h1 h2 he
      rcases List.eq_nil_or_concat h2 with rfl | ⟨h2, x, rfl⟩
      · rw [List.append_nil] at he
        rw [← he, hz3]
        exact Nat.zero_le _
      · rw [List.concat_eq_append, ← List.append_assoc] at he
        have he := (List.append_inj' he rfl).1
        rcases List.eq_nil_or_concat h2 with rfl | ⟨h2, y, rfl⟩
        · rw [List.append_nil] at he
          rw [← he, hz2]
          exact Nat.le_refl _
        · rw [List.concat_eq_append, ← List.append_assoc] at he
          exact hpre h1 h2 (List.append_inj' he rfl).1

/-! ## What is kept -/

theorem storedPairs_length (mp : PeerMap) :
    (mp.flatMap fun e => e.2.map fun p => (e.1, p)).length = (mp.map fun e => e.2.length).sum := by
  induction mp with
  | nil => rfl
  | cons e mp ih => simp [ih]

/-- C93, violated: what others announce is never dropped: after any history, the number of peers kept is at least the
number of distinct peers announced for other torrents, however long ago. -/
theorem C93_never_dropped_violated (ht : Reachable table) (hp : Peers.Run (.new infoHash) os peers)
    (hr : DhtManager.Run pause (start infoHash table peers now) h m) (l : List (ID × Peer)) (hl : l.Nodup)
    (ha : ∀ x ∈ l, x.1 ≠ infoHash ∧ Announced h x.1 x.2) : l.length ≤ storedPeers m := by
  have hb0 := Base.start (now := now) ht hp
  rw [storedPeers, ← storedPairs_length]
  apply nodup_subset_length hl
  intro x hx
  obtain ⟨h1, h2⟩ := ha x hx
  have := ((stored_iff hb0 hr x.1 h1).1 x.2).mpr h2
  cases hg : m.peerMap.get? x.1 with
  | none => rw [hg] at this; simp at this
  | some ps =>
    rw [hg] at this
    exact List.mem_flatMap.mpr ⟨_, Map.mem_of_get? hg, List.mem_map.mpr ⟨x.2, this, rfl⟩⟩

/-- C93, violated: anyone can announce any number of peers: each announcement is accepted in every state of the task, so
what is kept grows without limit. -/
theorem C93_unbounded_violated (ht : Reachable table) (hp : Peers.Run (.new infoHash) os peers) (l : List (ID × Peer))
    (hl : l.Nodup) (ho : ∀ x ∈ l, x.1 ≠ infoHash) :
    ∃ h m, DhtManager.Run pause (start infoHash table peers now) h m ∧ h.length = l.length ∧ l.length ≤ storedPeers m := by
  suffices ∃ h m, DhtManager.Run pause (start infoHash table peers now) h m ∧ m.status = .running ∧
      h.map (·.event) = l.map (fun x => DhtManager.Event.query (.newPeer x.2 x.1)) by
    obtain ⟨h, m, hr, _, he⟩ := this
    refine ⟨h, m, hr, by simpa using congrArg List.length he, C93_never_dropped_violated ht hp hr l hl ?_⟩
    intro x hx
    refine ⟨ho x hx, ?_⟩
    have : DhtManager.Event.query (.newPeer x.2 x.1) ∈ h.map (·.event) := by
      rw [he]; exact List.mem_map.mpr ⟨x, hx, rfl⟩
    obtain ⟨e, h1, h2⟩ := List.mem_map.mp this
    exact ⟨e, h1, h2⟩
  clear hl ho
  generalize hk : l.length = k
  induction k generalizing l with
  | zero =>
    rw [List.length_eq_zero_iff] at hk
    subst hk
    exact ⟨[], _, .nil, rfl, rfl⟩
  | succ k ih =>
    rcases List.eq_nil_or_concat l with rfl | ⟨l, x, rfl⟩
    · simp at hk
    · rw [List.concat_eq_append, List.length_append, List.length_singleton] at hk
      obtain ⟨h, m, hr, hrun, he⟩ := ih l (by omega)
      obtain ⟨m2, outs, h2, h3⟩ := (C99_total ht hp hr).1 id (.newPeer x.2 x.1)
      exact ⟨_, m2, hr.snoc (.query (shuffle := id) hrun (fun l => .refl _) h2), h3.trans hrun,
        by rw [List.map_append, he, List.concat_eq_append, List.map_append]; rfl⟩

theorem sum_insert (mp : PeerMap) (k : ID) (p : Peer) :
    ((mp.insert k (addPeer p (mp.get? k))).map fun e => e.2.length).sum ≤ (mp.map fun e => e.2.length).sum + 1 := by
  have hadd : ∀ o : Option (List Peer), (addPeer p o).length ≤ (o.getD []).length + 1 := by
    intro o
    unfold addPeer
    split <;> simp
  induction mp with
  | nil => have := hadd none; simpa [Map.insert] using this
  | cons e mp ih =>
    unfold Map.insert
    rw [Map.get?_cons]
    by_cases he : e.1 = k
    · have := hadd (some e.2)
      simp only [he, if_true, List.map_cons, List.sum_cons, Option.getD_some] at this ⊢
      omega
    · simp only [he, if_false, List.map_cons, List.sum_cons]
      omega

/-- The announcements in a history. -/
def isAnnouncement (e : DhtManager.Entry) : Bool :=
  match e.event with
  | .query (.newPeer _ _) => true
  | _ => false

/-- C93, partial: the task keeps at most as many peers of other torrents as were announced (and the peers known when it
started). Missing: a bound that does not grow with what others send. -/
theorem C93_bound_partial (ht : Reachable table) (hp : Peers.Run (.new infoHash) os peers)
    (hr : DhtManager.Run pause (start infoHash table peers now) h m) :
    storedPeers m ≤ peers.peerAddresses.length + h.countP isAnnouncement := by
  have hb0 := Base.start (now := now) ht hp
  generalize hs0 : start infoHash table peers now = s0 at hr hb0
  induction hr with
  | nil => subst hs0; simp [storedPeers, start]
  | @snoc m1 m2 h e hr1 hs ih =>
    have hbm := hb0.run hr1
    rw [List.countP_append]
    cases hs.kind hbm.reach with
    | @turn ev mm o1 w o2 hrun hm hl =>
      have hpm := hm.peerMap
      simp only [storedPeers] at ih ⊢
      rw [hpm]
      cases ha : announcement m1.peers.infoHash ev with
      | none => simp only; omega
      | some x =>
        have : isAnnouncement ⟨ev, o1 ++ o2⟩ = true := by
          unfold announcement at ha
          split at ha
          · rfl
          · cases ha
        have hi := sum_insert m1.peerMap x.2 x.1
        simp only [List.countP_cons, List.countP_nil, this, if_true]
        omega
    | shutdown => exact Nat.le_trans ih (by omega)
    | gone => exact Nat.le_trans ih (by omega)
    | others => exact Nat.le_trans ih (by omega)
    | pass => exact Nat.le_trans ih (by omega)
    | reorder hpm =>
      have : storedPeers { m1 with peerMap := _ } = storedPeers m1 := ((hpm.map _).sum_nat).symm
      rw [this]
      omega

/-! ## Telling others about the peers of the torrent -/

/-- C101, violated: telling a remote node about the peers of the torrent takes them out of the candidates for a
connection: no batch of candidates contains a peer that was just told, although nobody tried to connect to it. -/
theorem C101_consumed_violated (ht : Reachable table) (hp : Peers.Run (.new infoHash) os peers)
    (hr : DhtManager.Run pause (start infoHash table peers now) h m) (qid : QueryId)
    (hs : DhtManager.Step pause m ⟨.query (.getPeers infoHash qid), outs⟩ m') (vs : List Peer)
    (hv : answers outs = [(qid, .getPeers (.values vs))]) (p : Peer) (hpv : p ∈ vs) (limit : Nat) :
    p ∉ (m'.peers.returnBatch [] limit).2 := by
  have hb := (Base.start (now := now) ht hp).run hr
  have hb' := hb.step hs
  obtain ⟨shuffle, m1, o1, w, o2, hsh, he, rfl, hl, rfl⟩ := query_step hb hs
  obtain ⟨l1, _, _⟩ := lookups_only hl
  rw [answers_append, l1, List.append_nil] at hv
  obtain ⟨good, g0, g1, g2, g3, g4⟩ := good_eq hb.wf 216
  simp only [Manager.processQuery, Manager.findPeers, Peers.serve, hb.own, decide_true, if_true, per_answer] at he
  have hact : statusOf m1.peers p = some .active := by
    split at he
    · rename_i m2 ps hf
      simp only [Prod.mk.injEq] at hf
      obtain ⟨rfl, hf⟩ := hf
      cases he
      simp only [answers, List.filterMap_cons, List.filterMap_nil, List.cons.injEq, Prod.mk.injEq, ToConResp.getPeers.injEq,
        ValuesOrNodes.values.injEq, true_and, and_true] at hv
      subst hv
      rw [g1] at hf
      split at hf
      · cases hf
      · cases hf
        rw [g4, if_pos hpv]
    · rename_i m2 hf
      simp only [Res.bind_eq_ok] at he
      obtain ⟨o, _, he⟩ := he
      cases he
      cases o <;> simp [answers] at hv
  obtain ⟨cands, c1, _, c3, _⟩ := batch_eq hb'.wf [] limit
  intro hc
  rw [c1] at hc
  obtain ⟨st, h5, h6⟩ := (c3 p).mp (List.mem_of_mem_take hc)
  have h5' : statusOf m1.peers p = some st := h5
  rw [hact] at h5'
  cases h5'
  exact h6 rfl

/-- C101, partial: a query of a remote node neither adds nor removes peers of the torrent, and changes nothing about
those that are not told. Missing: that nothing changes about those that are told, which is false. -/
theorem C101_others_partial (ht : Reachable table) (hp : Peers.Run (.new infoHash) os peers)
    (hr : DhtManager.Run pause (start infoHash table peers now) h m) (k : ID) (qid : QueryId)
    (hs : DhtManager.Step pause m ⟨.query (.getPeers k qid), outs⟩ m') :
    (∀ p, p ∈ m'.peers.peerAddresses ↔ p ∈ m.peers.peerAddresses) ∧ (k ≠ infoHash → m'.peers = m.peers) ∧
    ∀ p, (∀ vs, (qid, ToConResp.getPeers (.values vs)) ∈ answers outs → p ∉ vs) →
      statusOf m'.peers p = statusOf m.peers p := by
  have hb := (Base.start (now := now) ht hp).run hr
  obtain ⟨shuffle, m1, o1, w, o2, hsh, he, rfl, hl, rfl⟩ := query_step hb hs
  obtain ⟨l1, _, _⟩ := lookups_only hl
  rw [answers_append, l1, List.append_nil]
  simp only [Manager.processQuery] at he
  by_cases hk : k = infoHash
  · subst hk
    obtain ⟨good, g0, g1, g2, g3, g4⟩ := good_eq hb.wf 216
    simp only [Manager.findPeers, Peers.serve, hb.own, decide_true, if_true, per_answer] at he
    split at he
    · rename_i m2 ps hf
      simp only [Prod.mk.injEq] at hf
      obtain ⟨rfl, hf⟩ := hf
      cases he
      refine ⟨fun p => by simp only [Peers.peerAddresses]; rw [g3], fun hc => absurd rfl hc, ?_⟩
      intro p hno
      have := hno ps (by simp [answers])
      rw [g1] at hf
      split at hf
      · cases hf
      · cases hf
        rw [g4, if_neg this]
    · rename_i m2 hf
      simp only [Prod.mk.injEq] at hf
      obtain ⟨rfl, hf⟩ := hf
      simp only [Res.bind_eq_ok] at he
      obtain ⟨o, _, he⟩ := he
      cases he
      refine ⟨fun p => by simp only [Peers.peerAddresses]; rw [g3], fun hc => absurd rfl hc, ?_⟩
      intro p _
      rw [g1] at hf
      split at hf
      · rename_i hnil
        rw [g4, hnil, if_neg (by simp)]
      · cases hf
  · rw [findPeers_other (hb.own ▸ hk)] at he
    have : m1.peers = m.peers := by
      cases hg : m.peerMap.get? k with
      | some ps => rw [hg] at he; cases he; rfl
      | none =>
        rw [hg] at he
        simp only [Option.map_none, Res.bind_eq_ok] at he
        obtain ⟨o, _, he⟩ := he
        cases he
        rfl
    simp [this]

/-- C97: an announcement is not answered by this task (the connection has answered it) and sends nothing; a peer of the
torrent that is being downloaded becomes a candidate for a connection. -/
theorem C97_announcement (ht : Reachable table) (hp : Peers.Run (.new infoHash) os peers)
    (hr : DhtManager.Run pause (start infoHash table peers now) h m) (k : ID) (p : Peer)
    (hs : DhtManager.Step pause m ⟨.query (.newPeer p k), outs⟩ m') :
    queries outs = [] ∧ answers outs = [] ∧ m'.table = m.table ∧ (k = infoHash → statusOf m'.peers p = some .unknown) ∧
    ∀ q, q ≠ p ∨ k ≠ infoHash → statusOf m'.peers q = statusOf m.peers q := by
  have hb := (Base.start (now := now) ht hp).run hr
  obtain ⟨shuffle, m1, o1, w, o2, hsh, he, rfl, hl, rfl⟩ := query_step hb hs
  obtain ⟨l1, l2, _⟩ := lookups_only hl
  rw [answers_append, queries_append, l1, l2, List.append_nil, List.append_nil]
  simp only [Manager.processQuery, Res.ok.injEq, Prod.mk.injEq] at he
  obtain ⟨rfl, rfl⟩ := he
  by_cases hk : k = infoHash
  · subst hk
    simp only [Manager.storeNewPeer, Peers.serve, hb.own, decide_true, if_true, statusOf, Peers.insert, Map.get?_insert]
    refine ⟨rfl, rfl, trivial, fun _ => trivial, fun q hq => ?_⟩
    rw [if_neg (hq.resolve_right (fun hc => hc rfl))]
  · have : (m.storeNewPeer p k).peers = m.peers ∧ (m.storeNewPeer p k).table = m.table := by
      simp only [Manager.storeNewPeer, Peers.serve, hb.own, hk, decide_false, Bool.false_eq_true, if_false]
      split <;> exact ⟨rfl, rfl⟩
    simp only [this]
    exact ⟨rfl, rfl, trivial, fun hc => absurd hc hk, fun _ _ => trivial⟩

/-- The reason that is logged when a question stays unanswered tells an empty table from one whose nodes are all not good:
`is_empty` is true exactly if no node is stored. -/
theorem C97_empty_exactly (t : RoutingTable) : t.isEmpty = true ↔ ∀ n, n ∉ t.iterNodes := by
  simp [RoutingTable.isEmpty, RoutingTable.countNodes, List.eq_nil_iff_forall_not_mem]

/-- C97, violated: while the table has no good node, a query for an id that is not stored is not answered at all. The first
queries after a first start of the program are like that, whatever they ask. -/
theorem C97_silent_violated (hp : Peers.Run (.new infoHash) os peers) (own target : ID) (qid : QueryId) :
    ∃ outs m', DhtManager.Step pause (start infoHash (.default own) peers now) ⟨.query (.findNode target qid), outs⟩ m' ∧
      outs = [] := by
  have ht : Reachable (RoutingTable.default own) := .fresh own
  have hempty : (RoutingTable.default own).iterNodes = [] := by
    simp [RoutingTable.default, iterNodes, Bucket.nodes, Bucket.new, K_NODE_PER_BUCKET]
  obtain ⟨m', outs, h1, h2⟩ := (C99_total (now := now) (pause := pause) ht hp .nil).1 id (.findNode target qid)
  have hs : DhtManager.Step pause (start infoHash (.default own) peers now) ⟨.query (.findNode target qid), outs⟩ m' :=
    .query (shuffle := id) rfl (fun l => .refl _) h1
  refine ⟨outs, m', hs, ?_⟩
  obtain ⟨shuffle, m1, o1, w, o2, hsh, he, rfl, hl, rfl⟩ := query_step (Base.start ht hp) hs
  simp only [Manager.processQuery] at he
  have hg : ∀ nw, ¬ HasGood (RoutingTable.default own) nw := by
    rintro nw ⟨n, hn, _⟩; rw [hempty] at hn; simp at hn
  rcases findNode_spec ht now target with ⟨n, hn, _⟩ | ⟨_, hc, _⟩ | ⟨_, _, hf⟩
  · rw [hempty] at hn; simp at hn
  · exact absurd hc (hg _)
  · rw [show (start infoHash (.default own) peers now).table.findNode (start infoHash (.default own) peers now).now target =
      .ok none from hf] at he
    cases he
    rcases hl with ⟨_, hc, _⟩ | ⟨_, _, rfl⟩
    · exact absurd hc (hg _)
    · rfl

/-! ## The size of an answer -/

theorem values_length (vs : List Peer) : (bencodeItems (vs.map fun p => .str p.compact)).length = 8 * vs.length + 1 := by
  induction vs with
  | nil => rfl
  | cons p vs ih =>
    have : (bencode (.str p.compact)).length = 8 := by
      simp only [bencode, bencodeStr, Peer.compact, SockAddr.compact_length, List.length_append, List.length_cons]
      decide
    simp only [List.map_cons, bencodeItems, List.length_append, this, ih, List.length_cons]
    omega

/-- What the connection sends for an answer with peers takes more than 8 bytes for each peer. -/
theorem answer_length (env : Env) (tid : Bytes) (s : Con) (qid : QueryId) (vs : List Peer) :
    ∃ bytes, Con.send env tid s (.resp qid (.getPeers (.values vs))) = .ok (s, [.datagram qid.target bytes]) ∧
      8 * vs.length < bytes.length := by
  refine ⟨_, rfl, ?_⟩
  simp only [ToConResp.intoMessage, Krpc.Message.getPeersResp, Krpc.Message.intoBytes, Krpc.Message.val, Response.val, bencode,
    bencodePairs, List.length_cons, List.length_append, values_length]
  omega

/-- C78, violated: an answer may hold 216 peers, because the code divides the 1300 bytes it wants to keep to by the 6
bytes of a peer, but an answer takes 8 bytes for each peer and more: whoever announces 216 peers for a torrent (and anyone
can) makes the program answer the next query for that torrent with a datagram of more than 1728 bytes. -/
theorem C78_datagram_violated (ht : Reachable table) (hp : Peers.Run (.new infoHash) os peers) (k : ID) (hk : k ≠ infoHash)
    (l : List Peer) (hl : l.Nodup) (hlen : 216 ≤ l.length) (qid : QueryId) :
    ∃ h m outs m' vs, DhtManager.Run pause (start infoHash table peers now) h m ∧
      DhtManager.Step pause m ⟨.query (.getPeers k qid), outs⟩ m' ∧ answers outs = [(qid, .getPeers (.values vs))] ∧
      ∀ (env : Env) (tid : Bytes) (s : Con), ∃ bytes,
        Con.send env tid s (.resp qid (.getPeers (.values vs))) = .ok (s, [.datagram qid.target bytes]) ∧
        1728 < bytes.length := by
  suffices ∃ h m, DhtManager.Run pause (start infoHash table peers now) h m ∧ m.status = .running ∧
      h.map (·.event) = l.map (fun x => DhtManager.Event.query (.newPeer x k)) by
    obtain ⟨h, m, hr, hrun, he⟩ := this
    obtain ⟨m', outs, h1, h2⟩ := (C99_total ht hp hr).1 id (.getPeers k qid)
    have hs : DhtManager.Step pause m ⟨.query (.getPeers k qid), outs⟩ m' :=
      .query (shuffle := id) hrun (fun l => .refl _) h1
    have hann : ∀ p ∈ l, Announced h k p := by
      intro p hpl
      have : DhtManager.Event.query (.newPeer p k) ∈ h.map (·.event) := by
        rw [he]; exact List.mem_map.mpr ⟨p, hpl, rfl⟩
      obtain ⟨e, h1, h2⟩ := List.mem_map.mp this
      exact ⟨e, h1, h2⟩
    obtain ⟨p0, hp0⟩ := List.exists_mem_of_length_pos (l := l) (by omega)
    obtain ⟨_, vs, v1, v2, _, v3, v4, v5⟩ := C78_served ht hp hr k hk qid hs p0 (hann p0 hp0)
    refine ⟨h, m, outs, m', vs, hr, hs, v1, ?_⟩
    intro env tid s
    obtain ⟨bytes, b1, b2⟩ := answer_length env tid s qid vs
    refine ⟨bytes, b1, ?_⟩
    have : 216 ≤ vs.length := by
      rcases v5 with v5 | v5
      · have := nodup_subset_length hl (fun p hp => v5 p (hann p hp))
        omega
      · omega
    omega
  clear hl hlen
  generalize hn : l.length = n
  induction n generalizing l with
  | zero =>
    rw [List.length_eq_zero_iff] at hn
    subst hn
    exact ⟨[], _, .nil, rfl, rfl⟩
  | succ n ih =>
    rcases List.eq_nil_or_concat l with rfl | ⟨l, x, rfl⟩
    · simp at hn
    · rw [List.concat_eq_append, List.length_append, List.length_singleton] at hn
      obtain ⟨h, m, hr, hrun, he⟩ := ih l (by omega)
      obtain ⟨m2, outs, h2, h3⟩ := (C99_total ht hp hr).1 id (.newPeer x k)
      exact ⟨_, m2, hr.snoc (.query (shuffle := id) hrun (fun l => .refl _) h2), h3.trans hrun,
        by rw [List.map_append, he, List.concat_eq_append, List.map_append]; rfl⟩

end

/-! ## The hypotheses can be met -/

/-- An id for examples. -/
def exId (k : Byte) : ID := ⟨List.replicate 20 k, by simp [ID_LEN]⟩

/-- An address for examples. -/
def exAddr (k : U16) : SockAddr := ⟨⟨127#8, 0#8, 0#8, 1#8⟩, k⟩

/-- Any number of distinct peers up to 65536. -/
def exPeers (n : Nat) : List Peer := (List.range n).map fun i => ⟨exAddr (BitVec.ofNat 16 i)⟩

theorem exPeers_nodup (n : Nat) (hn : n ≤ 65536) : (exPeers n).Nodup := by
  unfold exPeers
  rw [List.Nodup, List.pairwise_map]
  refine (List.Pairwise.and_mem.mp List.nodup_range).imp ?_
  intro a b ⟨ha, hb, hne⟩ he
  simp only [exAddr, Peer.mk.injEq, SockAddr.mk.injEq, true_and] at he
  have := congrArg BitVec.toNat he
  simp only [List.mem_range, BitVec.toNat_ofNat] at ha hb this
  omega

/-- A start of the program with an empty table. -/
def exStart (now : Nat) : Manager := start (exId 1#8) (.default (exId 0#8)) (.new (exId 1#8)) now

/-- The hypotheses of `C78_served`: a peer is announced and asked for. -/
example (pause : Nat → Nat) (p : Peer) (qid : QueryId) : ∃ h m outs m',
    DhtManager.Run pause (exStart 5) h m ∧ Announced h (exId 9#8) p ∧ exId 9#8 ≠ exId 1#8 ∧
    DhtManager.Step pause m ⟨.query (.getPeers (exId 9#8) qid), outs⟩ m' := by
  have ht : Reachable (.default (exId 0#8)) := .fresh _
  have hp : Peers.Run (.new (exId 1#8)) [] (.new (exId 1#8)) := .nil
  obtain ⟨m1, o1, h1, s1⟩ := (C99_total (pause := pause) (now := 5) ht hp .nil).1 id (.newPeer p (exId 9#8))
  have hr1 := DhtManager.Run.nil.snoc (.query (pause := pause) (shuffle := id) rfl (fun l => .refl _) h1)
  obtain ⟨m2, o2, h2, s2⟩ := (C99_total ht hp hr1).1 id (.getPeers (exId 9#8) qid)
  exact ⟨_, _, _, _, hr1, ⟨_, List.mem_singleton.mpr rfl, rfl⟩, by decide, .query (shuffle := id) (s1.trans rfl) (fun l => .refl _) h2⟩

/-- The hypotheses of `C78_own`: a peer of the torrent is announced and asked for. -/
example (pause : Nat → Nat) (p : Peer) (qid : QueryId) : ∃ h m outs m',
    DhtManager.Run pause (exStart 5) h m ∧ Tellable m.peers p ∧
    DhtManager.Step pause m ⟨.query (.getPeers (exId 1#8) qid), outs⟩ m' := by
  have ht : Reachable (.default (exId 0#8)) := .fresh _
  have hp : Peers.Run (.new (exId 1#8)) [] (.new (exId 1#8)) := .nil
  obtain ⟨m1, o1, h1, s1⟩ := (C99_total (pause := pause) (now := 5) ht hp .nil).1 id (.newPeer p (exId 1#8))
  have st : DhtManager.Step pause _ _ m1 := .query (shuffle := id) rfl (fun l => .refl _) h1
  have hr1 := DhtManager.Run.nil.snoc st
  obtain ⟨m2, o2, h2, s2⟩ := (C99_total ht hp hr1).1 id (.getPeers (exId 1#8) qid)
  exact ⟨_, _, _, _, hr1, ⟨_, (C97_announcement ht hp .nil _ _ st).2.2.2.1 rfl, by decide⟩,
    .query (shuffle := id) (s1.trans rfl) (fun l => .refl _) h2⟩

/-- The hypotheses of `C78_datagram_violated`: there are 216 distinct peers. -/
example : (exPeers 216).Nodup ∧ 216 ≤ (exPeers 216).length := ⟨exPeers_nodup 216 (by decide), by simp [exPeers]⟩

/-- A node answers: it is stored and good, and the lookups start with it. -/
theorem ex_answer (pause : Nat → Nat) : ∃ outs m',
    DhtManager.Step pause (exStart 5) ⟨.resp (.touch (exId 7#8) (exAddr 1)), outs⟩ m' ∧ m'.status = .running ∧
    m'.table.iterNodes = [⟨exId 7#8, exAddr 1, some 5⟩] ∧ (lookups outs).length = 1 := by
  have ht : Reachable (.default (exId 0#8)) := .fresh _
  have hp : Peers.Run (.new (exId 1#8)) [] (.new (exId 1#8)) := .nil
  obtain ⟨m1, o1, h1, s1⟩ := (C99_total (pause := pause) (now := 5) ht hp .nil).2.1 (.touch (exId 7#8) (exAddr 1))
  have st : DhtManager.Step pause (exStart 5) ⟨.resp (.touch (exId 7#8) (exAddr 1)), o1⟩ m1 := .resp rfl h1
  have h2 := (C98_touch ht hp .nil _ _ st).2.2
  have h3 : (match (RoutingTable.default (exId 0#8)).touchNode 5 (exId 7#8) (exAddr 1) with
    | .ok t => decide (t.iterNodes = [⟨exId 7#8, exAddr 1, some 5⟩])
    | _ => false) = true := by decide +kernel
  have h4 : m1.table.iterNodes = [⟨exId 7#8, exAddr 1, some 5⟩] := by
    rw [show (RoutingTable.default (exId 0#8)).touchNode 5 (exId 7#8) (exAddr 1) = .ok m1.table from h2] at h3
    simpa using h3
  have hnow : m1.now = 5 := now_eq (Base.start ht hp) (DhtManager.Run.nil.snoc st)
  refine ⟨o1, m1, st, s1.trans rfl, h4, ?_⟩
  have := ((C99_lookups ht hp .nil).2 _ _ st).2 rfl (s1.trans rfl)
    ⟨⟨exId 7#8, exAddr 1, some 5⟩, by rw [h4]; simp, 5, rfl, by rw [hnow]; decide⟩
  simpa [allOutputs] using this

/-- The hypotheses of `C91_refresh_partial`, with a good node: the task is left alone for a pause of 3 seconds. -/
example : ∃ h m, DhtManager.Run (fun _ => 3000000000) (exStart 5) h m ∧ m.status = .running ∧
    3000000000 ≤ sinceTurn 0 h ∧ ∃ n ∈ m.table.iterNodes, Good m.now n := by
  obtain ⟨outs, m, hs, h1, h2, _⟩ := ex_answer fun _ => 3000000000
  have ht : Reachable (.default (exId 0#8)) := .fresh _
  have hp : Peers.Run (.new (exId 1#8)) [] (.new (exId 1#8)) := .nil
  have hr := (DhtManager.Run.nil.snoc hs).snoc (.pass (d := 3000000000))
  refine ⟨_, _, hr, h1, by simp [sinceTurn, isTurn], ⟨exId 7#8, exAddr 1, some 5⟩, by simp only [h2]; simp, 5, rfl, ?_⟩
  have hnow : m.now = 5 := now_eq (Base.start ht hp) (DhtManager.Run.nil.snoc hs)
  simp only [hnow]
  decide

/-- The hypotheses of `C91_no_recovery_violated` with a node in the table: it has been silent for 15 minutes. -/
example (pause : Nat → Nat) : ∃ h m, DhtManager.Run pause (exStart 5) h m ∧ m.status = .running ∧ m.table.iterNodes ≠ [] ∧
    ∀ n ∈ m.table.iterNodes, ¬ Good m.now n := by
  obtain ⟨outs, m, hs, h1, h2, _⟩ := ex_answer pause
  have ht : Reachable (.default (exId 0#8)) := .fresh _
  have hp : Peers.Run (.new (exId 1#8)) [] (.new (exId 1#8)) := .nil
  have hr := (DhtManager.Run.nil.snoc hs).snoc (.pass (d := fifteenMinutes))
  have hnow : m.now = 5 := now_eq (Base.start ht hp) (DhtManager.Run.nil.snoc hs)
  refine ⟨_, _, hr, h1, by simp only [h2]; simp, ?_⟩
  intro n hn ⟨seen, g1, g2⟩
  simp only [h2, List.mem_singleton] at hn
  subst hn
  cases g1
  simp only [hnow] at g2
  omega

/-- The hypotheses of `C98_wrong_address_violated` and of `C100_lost_violated`: a running task with a node. -/
example (pause : Nat → Nat) : ∃ h m, DhtManager.Run pause (exStart 5) h m ∧ m.status = .running ∧
    ⟨exId 7#8, exAddr 1, some 5⟩ ∈ m.table.iterNodes := by
  obtain ⟨outs, m, hs, h1, h2, _⟩ := ex_answer pause
  exact ⟨_, _, DhtManager.Run.nil.snoc hs, h1, by rw [h2]; simp⟩

/-- The hypotheses of `C93_unbounded_violated`: any number of announcements for one torrent, up to the number of ports. -/
example (n : Nat) (hn : n ≤ 65536) : ((exPeers n).map fun p => (exId 9#8, p)).Nodup ∧
    ((exPeers n).map fun p => (exId 9#8, p)).length = n := by
  refine ⟨?_, by simp [exPeers]⟩
  rw [List.Nodup, List.pairwise_map]
  exact (exPeers_nodup n hn).imp fun h he => h (Prod.mk.inj he).2

/-- The hypotheses of `C97_find_node_partial` and `C97_get_peers_partial`, with a stored node that is good: both queries are
answered with nodes. -/
example (pause : Nat → Nat) (qid : QueryId) : ∃ h m o1 m1 o2 m2,
    DhtManager.Run pause (exStart 5) h m ∧
    DhtManager.Step pause m ⟨.query (.findNode (exId 3#8) qid), o1⟩ m1 ∧
    (∃ nodes, answers o1 = [(qid, .findNode nodes)] ∧ NodesFor m.table m.now (exId 3#8) nodes) ∧
    DhtManager.Step pause m ⟨.query (.getPeers (exId 9#8) qid), o2⟩ m2 ∧ (∀ p, ¬ Announced h (exId 9#8) p) ∧
    ∃ nodes, answers o2 = [(qid, .getPeers (.nodes nodes))] ∧ NodesFor m.table m.now (exId 9#8) nodes := by
  obtain ⟨outs, m, hs, h1, h2, _⟩ := ex_answer pause
  have ht : Reachable (.default (exId 0#8)) := .fresh _
  have hp : Peers.Run (.new (exId 1#8)) [] (.new (exId 1#8)) := .nil
  have hr := DhtManager.Run.nil.snoc hs
  have hnow : m.now = 5 := now_eq (Base.start ht hp) hr
  have hg : ¬ ∀ n ∈ m.table.iterNodes, ¬ Good m.now n := by
    intro hg
    exact hg ⟨exId 7#8, exAddr 1, some 5⟩ (by rw [h2]; simp) ⟨5, rfl, by rw [hnow]; decide⟩
  obtain ⟨m1, o1, q1, _⟩ := (C99_total ht hp hr).1 id (.findNode (exId 3#8) qid)
  obtain ⟨m2, o2, q2, _⟩ := (C99_total ht hp hr).1 id (.getPeers (exId 9#8) qid)
  have st1 : DhtManager.Step pause m ⟨.query (.findNode (exId 3#8) qid), o1⟩ m1 :=
    .query (shuffle := id) h1 (fun l => .refl _) q1
  have st2 : DhtManager.Step pause m ⟨.query (.getPeers (exId 9#8) qid), o2⟩ m2 :=
    .query (shuffle := id) h1 (fun l => .refl _) q2
  have hno : ∀ p, ¬ Announced ([] ++ [⟨.resp (.touch (exId 7#8) (exAddr 1)), outs⟩]) (exId 9#8) p := by
    rintro p ⟨e, he, hq⟩
    simp only [List.nil_append, List.mem_singleton] at he
    subst he
    cases hq
  refine ⟨_, m, o1, m1, o2, m2, hr, st1, ?_, st2, hno, ?_⟩
  · exact (C97_find_node_partial ht hp hr _ qid st1).2.2.2.resolve_right fun h => hg h.2.2
  · refine (C97_get_peers_partial ht hp hr _ qid st2 ?_).2.resolve_right fun h => hg h.2.2
    rw [if_neg (by decide)]
    exact hno

/-- The hypotheses of `C98_port_message` and `C98_named_are_pinged` (and of `C98_only_answering`, with the node that answered):
a peer tells the port of its node, and the stored node names itself and another. -/
example (pause : Nat → Nat) : ∃ h m o1 m1 o2 m2,
    DhtManager.Run pause (exStart 5) h m ∧ m.table.iterNodes = [⟨exId 7#8, exAddr 1, some 5⟩] ∧
    DhtManager.Step pause m ⟨.peerNode (exAddr 2), o1⟩ m1 ∧ queries o1 = [(exAddr 2, .ping)] ∧
    DhtManager.Step pause m ⟨.resp (.newNodes (.closest [⟨exId 7#8, exAddr 1, none⟩, ⟨exId 8#8, exAddr 3, none⟩])
      (exAddr 1) (exId 7#8)), o2⟩ m2 := by
  obtain ⟨outs, m, hs, h1, h2, _⟩ := ex_answer pause
  have ht : Reachable (.default (exId 0#8)) := .fresh _
  have hp : Peers.Run (.new (exId 1#8)) [] (.new (exId 1#8)) := .nil
  have hr := DhtManager.Run.nil.snoc hs
  obtain ⟨m1, o1, q1, _⟩ := (C99_total ht hp hr).2.2.1 (exAddr 2)
  obtain ⟨m2, o2, q2, _⟩ := (C99_total ht hp hr).2.1
    (.newNodes (.closest [⟨exId 7#8, exAddr 1, none⟩, ⟨exId 8#8, exAddr 3, none⟩]) (exAddr 1) (exId 7#8))
  have st1 : DhtManager.Step pause m ⟨.peerNode (exAddr 2), o1⟩ m1 := .peerNode h1 q1
  exact ⟨_, m, o1, m1, o2, m2, hr, h2, st1, (C98_port_message ht hp hr _ st1).1, .resp h1 q2⟩

/-- The hypotheses of `C101_consumed_violated`: a peer of the torrent that was announced is told, and is no candidate then. -/
example (pause : Nat → Nat) (p : Peer) (qid : QueryId) : ∃ h m outs m' vs,
    DhtManager.Run pause (exStart 5) h m ∧ DhtManager.Step pause m ⟨.query (.getPeers (exId 1#8) qid), outs⟩ m' ∧
    answers outs = [(qid, .getPeers (.values vs))] ∧ vs ≠ [] := by
  have ht : Reachable (.default (exId 0#8)) := .fresh _
  have hp : Peers.Run (.new (exId 1#8)) [] (.new (exId 1#8)) := .nil
  obtain ⟨m1, o1, h1, s1⟩ := (C99_total (pause := pause) (now := 5) ht hp .nil).1 id (.newPeer p (exId 1#8))
  have st : DhtManager.Step pause _ _ m1 := .query (shuffle := id) rfl (fun l => .refl _) h1
  have hr1 := DhtManager.Run.nil.snoc st
  obtain ⟨m2, o2, h2, s2⟩ := (C99_total ht hp hr1).1 id (.getPeers (exId 1#8) qid)
  have st2 : DhtManager.Step pause m1 ⟨.query (.getPeers (exId 1#8) qid), o2⟩ m2 :=
    .query (shuffle := id) (s1.trans rfl) (fun l => .refl _) h2
  obtain ⟨_, vs, v1, _, v2, _⟩ := C78_own ht hp hr1 qid st2 p ⟨_, (C97_announcement ht hp .nil _ _ st).2.2.2.1 rfl, by decide⟩
  exact ⟨_, _, _, _, vs, hr1, st2, v1, v2⟩

/-- The hypotheses of `C91_paced`: after a pause of 3 seconds the table is refreshed. -/
example (rb : Nat → Nat → Byte) (rt : Nat → Nat → Bool) : ∃ h m outs m',
    DhtManager.Run (fun _ => 3000000000) (exStart 5) h m ∧
    DhtManager.Step (fun _ => 3000000000) m ⟨.refresh rb rt, outs⟩ m' := by
  obtain ⟨outs, m, hs, h1, h2, _⟩ := ex_answer fun _ => 3000000000
  have ht : Reachable (.default (exId 0#8)) := .fresh _
  have hp : Peers.Run (.new (exId 1#8)) [] (.new (exId 1#8)) := .nil
  have hr := (DhtManager.Run.nil.snoc hs).snoc (.pass (d := 3000000000))
  obtain ⟨o, m', st⟩ := (C91_refresh_partial ht hp hr h1 (by simp [sinceTurn, isTurn]) rb rt).1
  exact ⟨_, _, o, m', hr, st⟩

end Nargun
