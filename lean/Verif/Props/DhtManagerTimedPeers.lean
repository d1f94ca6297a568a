import Verif.Props.DhtManagerTimed

/-! # C157, continued: what the table task tells, stores and pings while the clock runs -/

namespace Nargun

open Dht Krpc Spec DhtManager RoutingTable

/-- What a turn does to the known peers does not depend on the clock. -/
theorem MidAt.peerMap {clk : TurnClock} {shuffle : List Peer → List Peer} {m m1 : Manager} {ev : DhtManager.Event} {o : List Out}
    (h : MidAt clk shuffle m ev m1 o) :
    (m1.peers = m.peers ∨ ∃ op, Peers.Step m.peers op m1.peers) ∧
    m1.peerMap = match announcement m.peers.infoHash ev with
      | none => m.peerMap
      | some (p, ih) => m.peerMap.insert ih (addPeer p (m.peerMap.get? ih)) := by
  cases h with
  | refresh => exact ⟨.inl rfl, rfl⟩
  | peerNode => exact ⟨.inl rfl, rfl⟩
  | @query q _ _ h =>
    cases q with
    | findNode =>
      simp only [Manager.processQueryAt, Res.bind_eq_ok] at h
      obtain ⟨_, _, h⟩ := h
      cases h
      exact ⟨.inl rfl, rfl⟩
    | getPeers ih qid =>
      have key : ∀ m2 r, m.findPeers shuffle ih = (m2, r) →
          (m2.peers = m.peers ∨ ∃ op, Peers.Step m.peers op m2.peers) ∧ m2.peerMap = m.peerMap := by
        intro m2 r hf
        unfold Manager.findPeers at hf
        split at hf
        · cases hf; exact ⟨.inr ⟨_, Peers.Step.good⟩, rfl⟩
        · cases hf; exact ⟨.inl rfl, rfl⟩
      simp only [Manager.processQueryAt] at h
      split at h
      · rename_i m2 ps hf
        cases h
        exact key _ _ hf
      · rename_i m2 hf
        simp only [Res.bind_eq_ok] at h
        obtain ⟨_, _, h⟩ := h
        cases h
        exact key _ _ hf
    | newPeer p ih =>
      simp only [Manager.processQueryAt, Res.ok.injEq, Prod.mk.injEq] at h
      obtain ⟨rfl, _⟩ := h
      rw [storeNewPeer_map]
      constructor
      · unfold Manager.storeNewPeer
        split
        · exact .inr ⟨_, Peers.Step.insert⟩
        · split <;> exact .inl rfl
      · simp only [announcement]
        by_cases hc : ih = m.peers.infoHash <;> simp [hc]
  | @resp r _ _ h =>
    cases r with
    | touch id a =>
      simp only [Manager.processRespAt, Res.bind_eq_ok] at h
      obtain ⟨t, ht, h⟩ := h
      cases h
      exact ⟨.inl rfl, rfl⟩
    | newNodes ns a id =>
      simp only [Manager.processRespAt, Res.bind_eq_ok] at h
      obtain ⟨t, ht, u, _, h⟩ := h
      cases h
      exact ⟨.inl rfl, rfl⟩
    | getPeers =>
      simp only [Manager.processRespAt] at h
      cases h
      exact ⟨.inl rfl, rfl⟩

/-- What always holds about the known peers. -/
structure PeersBase (infoHash : ID) (m : Manager) : Prop where
  reach : TimedReachable m.table
  wf : m.peers.data.WF
  own : m.peers.infoHash = infoHash
  mapWf : m.peerMap.WF
  nodup : ∀ k ps, m.peerMap.get? k = some ps → ps.Nodup

section

variable {pause : Nat → Nat} {infoHash : ID} {table : RoutingTable} {peers : Peers} {now : Nat} {os : List Peers.Op}
  {h : List DhtManager.Entry} {m m' : Manager} {outs : List Out}

theorem PeersBase.step {e : DhtManager.Entry} (hb : PeersBase infoHash m) (hs : TimedStep pause m e m') :
    PeersBase infoHash m' ∧ ∀ k, m'.peerMap.get? k =
      match announcement infoHash e.event with
      | none => m.peerMap.get? k
      | some (p, ih) => if k = ih then some (addPeer p (m.peerMap.get? ih)) else m.peerMap.get? k := by
  obtain ⟨h1, h2, h3, h4, h5⟩ := hb
  cases hs with
  | @turn _ clk shuffle ev _ _ _ hc _ he =>
    obtain ⟨m1, o1, w, o2, k0, k1, _, _, _, _, _, rfl, rfl, _⟩ := turn_kind h1 hc he
    obtain ⟨g1, g2⟩ := k0.peerMap
    rw [h3] at g2
    have hmap : ∀ k, m1.peerMap.get? k = match announcement infoHash ev with
        | none => m.peerMap.get? k
        | some (p, ih) => if k = ih then some (addPeer p (m.peerMap.get? ih)) else m.peerMap.get? k := by
      intro k
      rw [g2]
      cases announcement infoHash ev with
      | none => rfl
      | some x => exact Map.get?_insert _ _ _ _
    refine ⟨⟨k1, ?_, ?_, ?_, ?_⟩, hmap⟩
    · rcases g1 with g1 | ⟨op, g1⟩
      · simp only [g1]; exact h2
      · exact Peers.step_wf g1 h2
    · rcases g1 with g1 | ⟨op, g1⟩
      · simp only [g1]; exact h3
      · exact (DhtManager.Peers.Step.infoHash g1).trans h3
    · simp only [g2]
      cases announcement infoHash ev with
      | none => exact h4
      | some x => exact Map.wf_insert h4 _ _
    · intro k ps hg
      rw [hmap] at hg
      split at hg
      · exact h5 k ps hg
      · rename_i p ih _
        split at hg
        · cases hg
          apply nodup_addPeer
          cases hg : m.peerMap.get? ih with
          | none => exact List.nodup_nil
          | some qs => exact h5 _ _ hg
        · exact h5 k ps hg
  | shutdown => exact ⟨⟨h1, h2, h3, h4, h5⟩, fun k => rfl⟩
  | peersGone => exact ⟨⟨h1, h2, h3, h4, h5⟩, fun k => rfl⟩
  | conGone => exact ⟨⟨h1, h2, h3, h4, h5⟩, fun k => rfl⟩
  | pass => exact ⟨⟨h1, h2, h3, h4, h5⟩, fun k => rfl⟩
  | others ho =>
    exact ⟨⟨h1, Peers.step_wf ho h2, (DhtManager.Peers.Step.infoHash ho).trans h3, h4, h5⟩, fun k => rfl⟩
  | reorder hp =>
    refine ⟨⟨h1, h2, h3, Map.wf_perm h4 hp, fun k ps hg => h5 k ps ?_⟩, fun k => (Map.get?_perm h4 hp k).symm⟩
    rwa [Map.get?_perm h4 hp k]

theorem PeersBase.start (ht : TimedReachable table) (hp : Peers.Run (.new infoHash) os peers) :
    PeersBase infoHash (start infoHash table peers now) := by
  obtain ⟨_, h2, h3, _, h5, h6⟩ := Base.start (table := .default infoHash) (now := now) (.fresh infoHash) hp
  exact ⟨ht, h2, h3, h5, h6⟩

theorem PeersBase.run (hb : PeersBase infoHash m) (hr : TimedRun pause m h m') : PeersBase infoHash m' := by
  induction hr with
  | nil => exact hb
  | snoc _ hs ih => exact (ih.step hs).1

/-- What is kept is what was announced. -/
theorem timed_stored_iff (ht : TimedReachable table) (hp : Peers.Run (.new infoHash) os peers)
    (hr : TimedRun pause (start infoHash table peers now) h m) (k : ID) (hk : k ≠ infoHash) :
    (∀ p, p ∈ (m.peerMap.get? k).getD [] ↔ Announced h k p) ∧ m.peerMap.get? k ≠ some [] := by
  have hb := PeersBase.start (now := now) ht hp
  generalize hs0 : start infoHash table peers now = s0 at hr hb
  induction hr with
  | nil =>
    subst hs0
    have : (start infoHash table peers now).peerMap.get? k = none := by
      apply Map.get?_eq_none.mpr
      simp [DhtManager.start, Map.keys, hk]
    rw [this]
    simp [Announced]
  | @snoc m1 m2 h e hr1 hs ih =>
    have h6 := ((hb.run hr1).step hs).2 k
    obtain ⟨i1, i2⟩ := ih
    have hann : ∀ p, Announced (h ++ [e]) k p ↔ Announced h k p ∨ e.event = .query (.newPeer p k) := by
      intro p
      simp only [Announced, List.mem_append, List.mem_singleton]
      constructor
      · rintro ⟨x, hx | rfl, he⟩
        · exact .inl ⟨x, hx, he⟩
        · exact .inr he
      · rintro (⟨x, hx, he⟩ | he)
        · exact ⟨x, .inl hx, he⟩
        · exact ⟨e, .inr rfl, he⟩
    by_cases hex : ∃ p, e.event = .query (.newPeer p k)
    · obtain ⟨p, he⟩ := hex
      have : m2.peerMap.get? k = some (addPeer p (m1.peerMap.get? k)) := by
        rw [h6, he]
        simp [announcement, hk]
      rw [this]
      refine ⟨fun q => ?_, ?_⟩
      · simp only [Option.getD_some, mem_addPeer, hann, i1, he, DhtManager.Event.query.injEq, FromConQuery.newPeer.injEq,
          and_true]
        constructor
        · rintro (rfl | h1)
          · exact .inr rfl
          · exact .inl h1
        · rintro (h1 | rfl)
          · exact .inr h1
          · exact .inl rfl
      · intro hc
        have : p ∈ addPeer p (m1.peerMap.get? k) := mem_addPeer.mpr (.inl rfl)
        simp only [Option.some.injEq] at hc
        rw [hc] at this
        simp at this
    · have hne : ∀ p, e.event ≠ .query (.newPeer p k) := fun p hp => hex ⟨p, hp⟩
      have : m2.peerMap.get? k = m1.peerMap.get? k := by
        rw [h6]
        split
        · rfl
        · rename_i p ih' ha
          rw [if_neg]
          rintro rfl
          unfold announcement at ha
          split at ha
          · rename_i p' ih'' he
            split at ha
            · cases ha
            · cases ha
              exact hne _ he
          · cases ha
      rw [this]
      refine ⟨fun q => ?_, i2⟩
      rw [hann, i1]
      exact ⟨.inl, fun h => h.resolve_right (hne q)⟩

/-- C157: a get_peers query for another torrent of which a peer was announced is answered exactly once, to the node that
asked, with distinct peers announced for that torrent, and with all of them unless the answer holds 216, however long the
turn takes. -/
theorem C157_served (ht : TimedReachable table) (hp : Peers.Run (.new infoHash) os peers)
    (hr : TimedRun pause (start infoHash table peers now) h m) (k : ID) (hk : k ≠ infoHash) (qid : QueryId)
    (hs : TimedStep pause m ⟨.query (.getPeers k qid), outs⟩ m') (p0 : Peer) (ha : Announced h k p0) :
    m'.table = m.table ∧ queries outs = [] ∧
    ∃ vs, answers outs = [(qid, .getPeers (.values vs))] ∧ vs.Nodup ∧ vs ≠ [] ∧ vs.length ≤ 216 ∧
      (∀ p ∈ vs, Announced h k p) ∧ ((∀ p, Announced h k p → p ∈ vs) ∨ vs.length = 216) := by
  have hb := (PeersBase.start (now := now) ht hp).run hr
  obtain ⟨hst, _⟩ := timed_stored_iff ht hp hr k hk
  cases hs with
  | @turn _ clk shuffle _ _ hrun hsh hc _ he =>
    obtain ⟨m1, o1, w, o2, hm, _, _, _, _, _, _, rfl, rfl, hl⟩ := turn_kind hb.reach hc he
    obtain ⟨l1, l2⟩ := only_lookups hl
    rw [queries_append, answers_append, l1, l2, List.append_nil, List.append_nil]
    cases hm with
    | query he =>
      simp only [Manager.processQueryAt, findPeers_other (hb.own ▸ hk)] at he
      cases hg : m.peerMap.get? k with
      | none =>
        have := (hst p0).mpr ha
        rw [hg] at this
        simp at this
      | some ps =>
        rw [hg] at he hst
        simp only [Option.getD_some] at hst
        cases he
        obtain ⟨c1, c2, c3, c4⟩ := chosen ((hsh ps).nodup_iff.mpr (hb.nodup k ps hg)) PEERS_PER_ANSWER
        rw [per_answer] at c1 c2 c3 c4
        simp only [per_answer]
        have hmem : ∀ p, p ∈ shuffle ps ↔ Announced h k p := fun p => (hsh ps).mem_iff.trans (hst p)
        refine ⟨trivial, rfl, _, rfl, c1, ?_, c2, fun p hp => (hmem p).mp (c3 p hp), ?_⟩
        · intro hnil
          rcases c4 with c4 | c4
          · have := c4 p0 ((hmem p0).mpr ha)
            rw [hnil] at this
            simp at this
          · rw [hnil] at c4
            simp at c4
        · rcases c4 with c4 | c4
          · exact .inl fun p hp => c4 p ((hmem p).mpr hp)
          · exact .inr c4

/-- C157: a get_peers query for the torrent that is being downloaded, of which a peer can be told, is answered exactly
once, to the node that asked, with distinct such peers, and with all of them unless the answer holds 216. -/
theorem C157_own (ht : TimedReachable table) (hp : Peers.Run (.new infoHash) os peers)
    (hr : TimedRun pause (start infoHash table peers now) h m) (qid : QueryId)
    (hs : TimedStep pause m ⟨.query (.getPeers infoHash qid), outs⟩ m') (p0 : Peer) (ha : Tellable m.peers p0) :
    m'.table = m.table ∧ queries outs = [] ∧
    ∃ vs, answers outs = [(qid, .getPeers (.values vs))] ∧ vs.Nodup ∧ vs ≠ [] ∧ vs.length ≤ 216 ∧
      (∀ p ∈ vs, Tellable m.peers p) ∧ ((∀ p, Tellable m.peers p → p ∈ vs) ∨ vs.length = 216) := by
  have hb := (PeersBase.start (now := now) ht hp).run hr
  cases hs with
  | @turn _ clk shuffle _ _ hrun hsh hc _ he =>
    obtain ⟨m1, o1, w, o2, hm, _, _, _, _, _, _, rfl, rfl, hl⟩ := turn_kind hb.reach hc he
    obtain ⟨l1, l2⟩ := only_lookups hl
    rw [queries_append, answers_append, l1, l2, List.append_nil, List.append_nil]
    obtain ⟨good, g0, g1, g2, _, _⟩ := good_eq hb.wf 216
    obtain ⟨c1, c2, c3, c4⟩ := chosen g0 216
    have hne : good.take 216 ≠ [] := by
      intro hnil
      rcases List.take_eq_nil_iff.mp hnil with h1 | h1
      · omega
      · have := (g2 p0).mpr ha
        rw [h1] at this
        simp at this
    rw [if_neg hne] at g1
    cases hm with
    | query he =>
      simp only [Manager.processQueryAt, Manager.findPeers, Peers.serve, hb.own, decide_true, if_true, per_answer, g1] at he
      cases he
      refine ⟨rfl, rfl, _, rfl, c1, hne, c2, fun p hp => (g2 p).mp (c3 p hp), ?_⟩
      rcases c4 with c4 | c4
      · exact .inl fun p hp => c4 p ((g2 p).mpr hp)
      · exact .inr c4

/-- C157: a get_peers query for a torrent of which no peer can be told is answered like a find_node query: exactly once
with the node asked for or with nodes that were good when the turn began, and not at all only if no node is good at its
end. -/
theorem C157_get_peers (ht : TimedReachable table) (hp : Peers.Run (.new infoHash) os peers)
    (hr : TimedRun pause (start infoHash table peers now) h m) (k : ID) (qid : QueryId)
    (hs : TimedStep pause m ⟨.query (.getPeers k qid), outs⟩ m')
    (hn : if k = infoHash then ∀ p, ¬ Tellable m.peers p else ∀ p, ¬ Announced h k p) :
    m'.table = m.table ∧ queries outs = [] ∧
    ((∃ n ∈ m.table.iterNodes, n.id = k ∧ answers outs = [(qid, .getPeers (.nodes (.exact n)))]) ∨
     (¬ Known m.table k ∧ ∃ ns, answers outs = [(qid, .getPeers (.nodes (.closest ns)))] ∧
       NearestMeanwhile m.table m.now m'.now k ns) ∨
     (¬ Known m.table k ∧ answers outs = [] ∧ ∀ n ∈ m.table.iterNodes, ¬ Good m'.now n)) := by
  have hb := (PeersBase.start (now := now) ht hp).run hr
  cases hs with
  | @turn _ clk shuffle _ _ hrun hsh hc _ he =>
    obtain ⟨m1, o1, w, o2, hm, _, _, _, _, _, _, rfl, rfl, hl⟩ := turn_kind hb.reach hc he
    obtain ⟨l1, l2⟩ := only_lookups hl
    rw [queries_append, answers_append, l1, l2, List.append_nil, List.append_nil]
    have hfp : ∃ m2, m.findPeers shuffle k = (m2, none) ∧ m2.table = m.table := by
      split at hn
      · rename_i hk
        subst hk
        obtain ⟨good, g0, g1, g2, _, _⟩ := good_eq hb.wf 216
        have hnil : good = [] := List.eq_nil_iff_forall_not_mem.mpr fun p hp => hn p ((g2 p).mp hp)
        rw [hnil] at g1
        simp only [List.take_nil, if_true] at g1
        simp only [Manager.findPeers, Peers.serve, hb.own, decide_true, if_true, per_answer, g1]
        exact ⟨_, rfl, rfl⟩
      · rename_i hk
        obtain ⟨hst, hne⟩ := timed_stored_iff ht hp hr k hk
        rw [findPeers_other (hb.own ▸ hk)]
        cases hg : m.peerMap.get? k with
        | none => exact ⟨m, rfl, rfl⟩
        | some ps =>
          cases ps with
          | nil => exact absurd hg hne
          | cons p ps =>
            rw [hg] at hst
            exact absurd ((hst p).mp (by simp)) (hn p)
    obtain ⟨m2, hf, e1⟩ := hfp
    cases hm with
    | query he =>
      simp only [Manager.processQueryAt, hf] at he
      rw [e1] at he
      rcases findNodeAt_spec hb.reach hc.find k with ⟨n, k1, k2, k3⟩ | ⟨k1, ns, k2, k3⟩ | ⟨k1, k2, k3⟩
      · rw [k3] at he
        cases he
        exact ⟨e1, rfl, .inl ⟨n, k1, k2, rfl⟩⟩
      · rw [k2] at he
        cases he
        exact ⟨e1, rfl, .inr (.inl ⟨k1, ns, rfl, k3⟩)⟩
      · rw [k3] at he
        cases he
        exact ⟨e1, rfl, .inr (.inr ⟨k1, rfl, k2⟩)⟩

/-- C157: a node that answers is stored, with a time of the turn: a known one under the address it is known with, a new
one under the address it answered from, unless its bucket was full of nodes good when the turn began and cannot be
split further. -/
theorem C157_noted (ht : TimedReachable table) (hr : TimedRun pause (start infoHash table peers now) h m) (id : ID)
    (addr : SockAddr) (e : DhtManager.Entry) (ha : AnswerOf id addr e) (hs : TimedStep pause m e m') :
    ∃ at_, m.now ≤ at_ ∧ at_ ≤ m'.now ∧
      ((∃ n ∈ m.table.iterNodes, n.id = id ∧ (⟨id, n.addr, some at_⟩ : Node) ∈ m'.table.iterNodes) ∨
       (¬ Known m.table id ∧ ((⟨id, addr, some at_⟩ : Node) ∈ m'.table.iterNodes ∨
        ∃ b, m'.table.data[responsible m'.table id]? = some b ∧ b.nodes.length = 8 ∧ (∀ n ∈ b.nodes, Good m.now n) ∧
          (responsible m'.table id + 1 < m'.table.data.length ∨
            sharedPrefix m'.table.ownId id ≤ m'.table.data.length - 1)))) := by
  obtain ⟨hb, _⟩ := timed_base (m0 := start infoHash table peers now) ht hr
  obtain ⟨ev, outs⟩ := e
  have hev : sighting ev = some (id, addr) := by
    rcases ha with rfl | ⟨ns, rfl⟩ <;> rfl
  cases hs with
  | @turn _ clk shuffle _ _ hrun hsh hc _ he =>
    obtain ⟨m1, o1, w, o2, _, _, _, _, _, _, k6, rfl, rfl, _⟩ := turn_kind hb hc he
    rw [hev] at k6
    simp only at k6 ⊢
    refine ⟨clk.touch.stamp, hc.stamp.1, hc.stamp.2, ?_⟩
    by_cases hk : Known m.table id
    · left
      obtain ⟨n, hn, hid⟩ := hk
      refine ⟨n, hn, hid, ?_⟩
      obtain ⟨t2, h1, _, _, h2⟩ := (Inv.of_timedReachable hb).touchNodeAt clk.touch id addr
      rw [k6] at h1
      cases h1
      rcases h2 with ⟨_, h3, _⟩ | ⟨hu, _⟩
      · rw [h3]
        refine List.mem_map.2 ⟨n, hn, ?_⟩
        rw [if_pos hid, ← hid]; rfl
      · exact absurd ⟨n, hn, hid⟩ hu
    · exact .inr ⟨hk, C155_stored m.table m1.table hb clk.touch m.now clk.done ⟨hc.stamp, hc.exam⟩ id addr hk k6⟩
  | _ => cases hev

theorem unknownAddresses_inv {t : RoutingTable} (hi : Inv t) [∀ id, Decidable (Known t id)] (ns : List Node) :
    unknownAddresses t ns = .ok ((ns.filter fun n => decide (¬ Known t n.id)).map (·.addr)) := by
  induction ns with
  | nil => rfl
  | cons n ns ih =>
    obtain ⟨b, hb, hgb⟩ := hi.getBucket n.id
    have hk : b.contains n.id = true ↔ Known t n.id := by
      unfold Bucket.contains
      rw [Option.isSome_iff_ne_none, ne_eq, Bucket.getNode_eq_none]
      constructor
      · intro hc
        simp only [Classical.not_forall, Classical.not_not] at hc
        obtain ⟨x, hx, he⟩ := hc
        exact ⟨x, mem_iterNodes.2 ⟨_, _, hb, hx⟩, he⟩
      · rintro ⟨x, hx, he⟩ hc
        exact hc x (hi.mem_bucket hb hx he) he
    simp only [unknownAddresses, containsNode, hgb, ih, Res.ok_bind, List.filter_cons]
    by_cases hka : Known t n.id
    · simp [hka, hk.mpr hka]
    · have : b.contains n.id = false := by simpa using fun hc => hka (hk.mp hc)
      simp [hka, this]

/-- C157: the nodes that an answer names and that are not stored after the turn are pinged at the address named, each
once per mention and in that order; nothing else is asked. -/
theorem C157_named_are_pinged (ht : TimedReachable table) (hr : TimedRun pause (start infoHash table peers now) h m)
    (nodes : Nodes) (addr : SockAddr) (id : ID) (hs : TimedStep pause m ⟨.resp (.newNodes nodes addr id), outs⟩ m') :
    queries outs = (nodes.list.filter fun n => decide (¬ Known m'.table n.id)).map (fun n => (n.addr, .ping)) ∧
    answers outs = [] := by
  obtain ⟨hb, _⟩ := timed_base (m0 := start infoHash table peers now) ht hr
  obtain ⟨clk, shuffle, hc, hn, m1, o1, w, o2, hm, ht1, _, _, _, _, _, rfl, rfl, hl⟩ :=
    step_turn hb hs (.inr (.inr (.inr ⟨_, rfl⟩)))
  obtain ⟨l1, l2⟩ := only_lookups hl
  rw [queries_append, answers_append, l1, l2, List.append_nil, List.append_nil]
  cases hm with
  | resp he =>
    simp only [Manager.processRespAt, Res.bind_eq_ok] at he
    obtain ⟨t, h1, u, h2, he⟩ := he
    have hrt : TimedReachable t := .sighting _ _ _ _ _ hb h1
    rw [unknownAddresses_inv (Inv.of_timedReachable hrt)] at h2
    cases h2
    cases he
    constructor
    · simp only [queries, List.filterMap_map, List.map_map]
      exact congrFun List.filterMap_eq_map' _
    · simp only [answers, List.filterMap_map]
      exact List.filterMap_eq_nil_iff.mpr fun x _ => rfl

/-- C157: a peer that tells the port of its DHT node makes the program ping that node, once; it is not stored before it
answers. -/
theorem C157_port_message (ht : TimedReachable table) (hr : TimedRun pause (start infoHash table peers now) h m)
    (addr : SockAddr) (hs : TimedStep pause m ⟨.peerNode addr, outs⟩ m') :
    queries outs = [(addr, .ping)] ∧ answers outs = [] ∧ m'.table = m.table := by
  obtain ⟨hb, _⟩ := timed_base (m0 := start infoHash table peers now) ht hr
  obtain ⟨clk, shuffle, hc, hn, m1, o1, w, o2, hm, _, _, _, _, _, _, rfl, rfl, hl⟩ :=
    step_turn hb hs (.inr (.inl ⟨_, rfl⟩))
  obtain ⟨l1, l2⟩ := only_lookups hl
  rw [queries_append, answers_append, l1, l2, List.append_nil, List.append_nil]
  cases hm with
  | peerNode => exact ⟨rfl, rfl, rfl⟩

theorem timed_refreshes {m0 : Manager} (ht : TimedReachable m0.table) (hr : TimedRun pause m0 h m) :
    m.refreshes = m0.refreshes + h.countP isRefresh := by
  induction hr with
  | nil => simp
  | @snoc ma mb h e hr1 hs ih =>
    rw [List.countP_append, ← Nat.add_assoc, ← ih]
    cases hs with
    | turn _ _ hc _ he =>
      obtain ⟨m1, o1, w, o2, hm, _, _, _, _, _, _, rfl, rfl, _⟩ := turn_kind (timed_base ht hr1).1 hc he
      cases hm with
      | refresh => simp [isRefresh]
      | peerNode => simp [isRefresh]
      | @query q _ _ he =>
        obtain ⟨m2, _, h1, h2, _⟩ := processQueryAt_spec (timed_base ht hr1).1 hc _ q
        rw [he] at h1
        cases h1
        rw [h2]
        simp [isRefresh]
      | @resp r _ _ he =>
        obtain ⟨t, _, h1, _⟩ := processRespAt_spec (timed_base ht hr1).1 _ r
        rw [he] at h1
        cases h1
        simp [isRefresh]
    | _ => simp [isRefresh]

/-- C157: between the end of a turn and a refresh without another turn in between there is at least the pause that belongs
to the number of refreshes so far. -/
theorem C157_paced {m0 m1 : Manager} {h1 h2 : List DhtManager.Entry} {e : DhtManager.Entry} (ht : TimedReachable table)
    (hr : TimedRun pause (start infoHash table peers now) h1 m0) (he : TimedStep pause m0 e m1) (hturn : isTurn e = true)
    (hr2 : TimedRun pause m1 h2 m) (hno : ∀ x ∈ h2, isTurn x = false) (rb : Nat → Nat → Byte) (rt : Nat → Nat → Bool)
    (hs : TimedStep pause m ⟨.refresh rb rt, outs⟩ m') :
    m1.now + pause ((h1 ++ [e]).countP isRefresh) ≤ m.now := by
  have hcount := timed_refreshes ht (hr.snoc he)
  have hquiet : m.since = m1.since ∧ m.refreshes = m1.refreshes ∧ m.status = m1.status := by
    clear hs hcount
    induction hr2 with
    | nil => exact ⟨rfl, rfl, rfl⟩
    | snoc _ hs ih =>
      obtain ⟨i1, i2, i3⟩ := ih fun x hx => hno x (List.mem_append_left _ hx)
      have hx := hno _ (List.mem_append_right _ (List.mem_singleton.mpr rfl))
      cases hs with
      | @turn _ _ _ ev _ _ _ _ _ h => cases ev <;> first | (cases hx; done) | (cases h; done)
      | shutdown => cases hx
      | peersGone => cases hx
      | conGone => cases hx
      | _ => exact ⟨i1, i2, i3⟩
  obtain ⟨q1, q2, q3⟩ := hquiet
  cases hs with
  | turn hrun _ _ hwait _ =>
    have hw := hwait ⟨_, _, rfl⟩
    rw [q1, q2, hcount] at hw
    have h0 : (start infoHash table peers now).refreshes = 0 := rfl
    rw [h0, Nat.zero_add] at hw
    have : m1.since = m1.now := by
      cases he with
      | turn _ _ hc _ he =>
        obtain ⟨_, _, _, _, _, _, _, _, _, _, _, rfl, rfl, _⟩ := turn_kind (timed_base ht hr).1 hc he
        rfl
      | shutdown => rw [q3] at hrun; cases hrun
      | peersGone => rw [q3] at hrun; cases hrun
      | conGone => rw [q3] at hrun; cases hrun
      | _ => cases hturn
    rw [← this]
    exact hw

end

/-! ## The hypotheses can be met -/

/-- `C157_served`, `C157_noted`, `C157_named_are_pinged`, `C157_paced`: a peer of another torrent is announced, a node answers
and names another one, and somebody asks for the other torrent; each turn takes fifteen minutes. The peer is told, the
node is stored, the other one is pinged, and the next refresh comes three units of time later. -/
theorem C157_peers_case : ∃ o1 m1 o2 m2 o3 m3 o4 m4, TimedStep (fun _ => 3) exEmpty ⟨.query (.newPeer ⟨exAddr 5⟩ (exId 9#8)), o1⟩ m1 ∧
    TimedStep (fun _ => 3) m1 ⟨.resp (.newNodes (.closest [⟨exId 8#8, exAddr 2, none⟩]) (exAddr 1) (exId 7#8)), o2⟩ m2 ∧
    TimedStep (fun _ => 3) m2 ⟨.query (.getPeers (exId 9#8) ⟨exAddr 3, [1#8]⟩), o3⟩ m3 ∧
    TimedStep (fun _ => 3) { m3 with now := m3.now + 3 } ⟨.refresh (fun _ _ => 0#8) (fun _ _ => false), o4⟩ m4 ∧
    queries o2 = [(exAddr 2, .ping)] ∧ m2.table.iterNodes.map (fun n => (n.id, n.addr)) = [(exId 7#8, exAddr 1)] ∧
    answers o3 = [(⟨exAddr 3, [1#8]⟩, .getPeers (.values [⟨exAddr 5⟩]))] ∧ m3.now = 3 * fifteenMinutes := by
  obtain ⟨m1, o1, h1, p1⟩ := okWith_true (r := exEmpty.turnAt (slowTurn 0 fifteenMinutes) id (.query (.newPeer ⟨exAddr 5⟩ (exId 9#8))))
    (p := fun m _ => decide (m.status = .running ∧ m.now = fifteenMinutes) &&
      okWith (m.turnAt (slowTurn fifteenMinutes fifteenMinutes) id
          (.resp (.newNodes (.closest [⟨exId 8#8, exAddr 2, none⟩]) (exAddr 1) (exId 7#8)))) fun m o =>
        decide (m.status = .running ∧ m.now = 2 * fifteenMinutes) && decide (queries o = [(exAddr 2, .ping)]) &&
        decide (m.table.iterNodes.map (fun n => (n.id, n.addr)) = [(exId 7#8, exAddr 1)]) &&
        okWith (m.turnAt (slowTurn (2 * fifteenMinutes) fifteenMinutes) id (.query (.getPeers (exId 9#8) ⟨exAddr 3, [1#8]⟩))) fun m o =>
          decide (m.status = .running ∧ m.now = 3 * fifteenMinutes ∧ m.since = m.now) &&
          decide (answers o = [(⟨exAddr 3, [1#8]⟩, .getPeers (.values [⟨exAddr 5⟩]))]) &&
          okWith (Manager.turnAt { m with now := m.now + 3 } (slowTurn (3 * fifteenMinutes + 3) 1) id
            (.refresh (fun _ _ => 0#8) (fun _ _ => false))) fun _ _ => true) (by decide +kernel)
  simp only [Bool.and_eq_true, decide_eq_true_eq] at p1
  obtain ⟨⟨a1, a2⟩, p2⟩ := p1
  obtain ⟨m2, o2, h2, p2⟩ := okWith_true p2
  simp only [Bool.and_eq_true, decide_eq_true_eq] at p2
  obtain ⟨⟨⟨⟨b1, b2⟩, b3⟩, b4⟩, p3⟩ := p2
  obtain ⟨m3, o3, h3, p3⟩ := okWith_true p3
  simp only [Bool.and_eq_true, decide_eq_true_eq] at p3
  obtain ⟨⟨⟨c1, c2, c3⟩, c4⟩, p4⟩ := p3
  obtain ⟨m4, o4, h4, _⟩ := okWith_true p4
  refine ⟨o1, m1, o2, m2, o3, m3, o4, m4, ?_, ?_, ?_, ?_, b3, b4, c4, c2⟩
  · exact .turn rfl (fun _ => .refl _) (slowTurn_during 0 _) (fun h => by simp at h) h1
  · exact .turn a1 (fun _ => .refl _) (by rw [a2]; exact slowTurn_during _ _) (fun h => by simp at h) h2
  · exact .turn b1 (fun _ => .refl _) (by rw [b2]; exact slowTurn_during _ _) (fun h => by simp at h) h3
  · refine .turn c1 (fun _ => .refl _) ?_ (fun _ => ?_) h4
    · simp only [c2]; exact slowTurn_during _ _
    · simp only [c3]; exact Nat.le_refl _

end Nargun
