import Verif.Spec.DhtManager
import Verif.Props.RoutingTable
import Verif.Props.Peers

/-! # Lemmas about the task that owns the routing table -/

namespace Nargun.DhtManager

open Nargun Dht Krpc Spec RoutingTable

/-- The table knows a node that is good. -/
def HasGood (t : RoutingTable) (now : Nat) : Prop := ∃ n ∈ t.iterNodes, Good now n

theorem sum_pos_iff (l : List Nat) : 0 < l.sum ↔ ∃ x ∈ l, 0 < x := by
  induction l with
  | nil => simp
  | cons a l ih =>
    simp only [List.sum_cons, List.mem_cons]
    constructor
    · intro h
      by_cases ha : 0 < a
      · exact ⟨a, .inl rfl, ha⟩
      · obtain ⟨x, hx, h0⟩ := ih.mp (by omega)
        exact ⟨x, .inr hx, h0⟩
    · rintro ⟨x, rfl | hx, h0⟩
      · omega
      · have := ih.mpr ⟨x, hx, h0⟩; omega

theorem countGood_pos (t : RoutingTable) (now : Nat) : t.countGoodNodes now > 0 ↔ HasGood t now := by
  unfold countGoodNodes HasGood
  rw [gt_iff_lt, sum_pos_iff]
  simp only [List.mem_map, RoutingTable.iterNodes, List.mem_flatMap]
  constructor
  · rintro ⟨x, ⟨b, hb, rfl⟩, h0⟩
    obtain ⟨n, hn⟩ := List.exists_mem_of_length_pos h0
    rw [Bucket.goods_eq, List.mem_filter] at hn
    exact ⟨n, ⟨b, hb, hn.1⟩, by simpa using hn.2⟩
  · rintro ⟨n, ⟨b, hb, hn⟩, hg⟩
    refine ⟨_, ⟨b, hb, rfl⟩, List.length_pos_of_mem (a := n) ?_⟩
    rw [Bucket.goods_eq, List.mem_filter]
    exact ⟨hn, by simpa using hg⟩

theorem closest_spec {t : RoutingTable} (h : Reachable t) (now : Nat) (id : ID) :
    (HasGood t now ∧ ∃ n ns, t.getClosestNodes now id = .ok (some (n :: ns)) ∧
      ∀ x ∈ n :: ns, x ∈ t.iterNodes ∧ Good now x) ∨
    (¬ HasGood t now ∧ t.getClosestNodes now id = .ok none) := by
  obtain ⟨o, ho, hn, hs⟩ := C68_closest_partial t h now id
  cases o with
  | none => exact .inr ⟨fun ⟨n, hm, hg⟩ => hn.mp rfl n hm hg, ho⟩
  | some ns =>
    obtain ⟨h1, _, _, h4, _⟩ := hs ns rfl
    have hg : HasGood t now := by
      have : ¬ ∀ n ∈ t.iterNodes, ¬ Good now n := fun hc => by simpa using hn.mpr hc
      simp only [Classical.not_forall, Classical.not_not] at this
      obtain ⟨n, hm, hg⟩ := this
      exact ⟨n, hm, hg⟩
    cases ns with
    | nil =>
      obtain ⟨n, hm, hgn⟩ := hg
      exact absurd (h4 (by simp) n hm hgn) (by simp)
    | cons n ns => exact .inl ⟨hg, n, ns, ho, h1⟩

/-- What the end of a turn does. -/
theorem endTurn_spec {m : Manager} (h : Reachable m.table) :
    ∃ w o, m.endTurn = .ok ({ m with since := m.now, waitForGood := w }, o) ∧
      ((m.waitForGood = true ∧ HasGood m.table m.now ∧ w = false ∧
          ∃ ns, o = [.lookups ns] ∧ ns ≠ [] ∧ (∀ x ∈ ns, x ∈ m.table.iterNodes ∧ Good m.now x) ∧
            m.table.getClosestNodes m.now m.infoHash = .ok (some ns)) ∨
       ((m.waitForGood = false ∨ ¬ HasGood m.table m.now) ∧ w = m.waitForGood ∧ o = [])) := by
  unfold Manager.endTurn
  by_cases hc : (m.waitForGood && decide (m.table.countGoodNodes m.now > 0)) = true
  · simp only [hc, if_true]
    simp only [Bool.and_eq_true, decide_eq_true_eq, countGood_pos] at hc
    rcases closest_spec h m.now m.infoHash with ⟨_, n, ns, he, hs⟩ | ⟨hn, _⟩
    · refine ⟨false, [.lookups (n :: ns)], ?_, .inl ⟨hc.1, hc.2, rfl, _, rfl, by simp, hs, he⟩⟩
      simp only [he, Res.ok_bind]
    · exact absurd hc.2 hn
  · rw [if_neg hc]
    refine ⟨m.waitForGood, [], rfl, .inr ⟨?_, rfl, rfl⟩⟩
    simp only [Bool.and_eq_true, decide_eq_true_eq, countGood_pos] at hc
    by_cases hw : m.waitForGood = true
    · exact .inr fun hg => hc ⟨hw, hg⟩
    · exact .inl (by simpa using hw)

/-- What a turn does after its event. -/
theorem andThen_spec {m : Manager} (h : Reachable m.table) (o1 : List Out) :
    ∃ w o, andThen (.ok (m, o1)) = .ok ({ m with since := m.now, waitForGood := w }, o1 ++ o) ∧
      ((m.waitForGood = true ∧ HasGood m.table m.now ∧ w = false ∧
          ∃ ns, o = [.lookups ns] ∧ ns ≠ [] ∧ (∀ x ∈ ns, x ∈ m.table.iterNodes ∧ Good m.now x) ∧
            m.table.getClosestNodes m.now m.infoHash = .ok (some ns)) ∨
       ((m.waitForGood = false ∨ ¬ HasGood m.table m.now) ∧ w = m.waitForGood ∧ o = [])) := by
  obtain ⟨w, o, he, hs⟩ := endTurn_spec h
  exact ⟨w, o, by simp only [andThen, Res.ok_bind, he], hs⟩

theorem andThen_ok {r : Res (Manager × List Out)} {x : Manager × List Out} (h : andThen r = .ok x) :
    ∃ m1 o1, r = .ok (m1, o1) := by
  unfold andThen at h
  cases r with
  | ok v => exact ⟨v.1, v.2, rfl⟩
  | err => exact absurd h (by intro h; cases h)
  | panic => exact absurd h (by intro h; cases h)

/-- What a node is told about an id. -/
theorem findNode_spec {t : RoutingTable} (h : Reachable t) (now : Nat) (id : ID) :
    (∃ n ∈ t.iterNodes, n.id = id ∧ t.findNode now id = .ok (some (.exact n))) ∨
    (¬ Known t id ∧ HasGood t now ∧ ∃ ns, t.findNode now id = .ok (some (.closest ns)) ∧ ns ≠ [] ∧
      (∀ x ∈ ns, x ∈ t.iterNodes ∧ Good now x) ∧ t.getClosestNodes now id = .ok (some ns)) ∨
    (¬ Known t id ∧ ¬ HasGood t now ∧ t.findNode now id = .ok none) := by
  by_cases hk : Known t id
  · obtain ⟨n, hn, rfl⟩ := hk
    exact .inl ⟨n, hn, rfl, C65_find_exact t h now n hn⟩
  · rw [C68_find_unknown t h now id hk]
    rcases closest_spec h now id with ⟨hg, n, ns, he, hs⟩ | ⟨hg, he⟩
    · refine .inr (.inl ⟨hk, hg, n :: ns, ?_, by simp, hs, he⟩)
      rw [he]; rfl
    · refine .inr (.inr ⟨hk, hg, ?_⟩)
      rw [he]; rfl

theorem unknownAddresses_spec {t : RoutingTable} (h : Reachable t) [∀ id, Decidable (Known t id)] (ns : List Node) :
    unknownAddresses t ns = .ok ((ns.filter fun n => decide (¬ Known t n.id)).map (·.addr)) := by
  induction ns with
  | nil => rfl
  | cons n ns ih =>
    obtain ⟨a, ha, hk⟩ := C65_contains t h n.id
    simp only [unknownAddresses, ha, ih, Res.ok_bind, List.filter_cons]
    by_cases hka : Known t n.id
    · simp [hka, hk.mpr hka]
    · have : a = false := by simpa using fun hc => hka (hk.mp hc)
      simp [hka, this]

theorem refreshQueries_spec {t : RoutingTable} (h : Reachable t) (now : Nat) (ids : List ID) :
    (¬ HasGood t now ∧ refreshQueries t now ids = .ok []) ∨
    (HasGood t now ∧ ∃ addrs : List SockAddr, addrs.length = ids.length ∧
      (∀ a ∈ addrs, ∃ n ∈ t.iterNodes, Good now n ∧ n.addr = a) ∧
      refreshQueries t now ids = .ok ((addrs.zip ids).map fun x => Out.send (.query OWN_CHANNEL x.1 (.findNode x.2)))) := by
  induction ids with
  | nil =>
    by_cases hg : HasGood t now
    · exact .inr ⟨hg, [], rfl, by simp, rfl⟩
    · exact .inl ⟨hg, rfl⟩
  | cons id ids ih =>
    rcases closest_spec h now id with ⟨hg, n, ns, he, hs⟩ | ⟨hg, he⟩
    · rcases ih with ⟨hg', _⟩ | ⟨_, addrs, h1, h2, h3⟩
      · exact absurd hg hg'
      · refine .inr ⟨hg, n.addr :: addrs, by simp [h1], ?_, ?_⟩
        · intro a ha
          rcases List.mem_cons.mp ha with rfl | ha
          · exact ⟨n, (hs n (by simp)).1, (hs n (by simp)).2, rfl⟩
          · exact h2 a ha
        · simp [refreshQueries, getClosestNode, he, h3]
    · rcases ih with ⟨_, h3⟩ | ⟨hg', _⟩
      · refine .inl ⟨hg, ?_⟩
        simp [refreshQueries, getClosestNode, he, h3]
      · exact absurd hg' hg

/-- What a turn does before its end. -/
inductive Mid (pause : Nat → Nat) (m : Manager) : Event → Manager → List Out → Prop
  | refresh {rb rt o} : m.since + pause m.refreshes ≤ m.now → m.refresh rb rt = .ok o →
      Mid pause m (.refresh rb rt) { m with refreshes := m.refreshes + 1 } o
  | peerNode {addr} : Mid pause m (.peerNode addr) m [ping addr]
  | query {shuffle q m1 o} : (∀ l, (shuffle l).Perm l) → m.processQuery shuffle q = .ok (m1, o) →
      Mid pause m (.query q) m1 o
  | resp {r m1 o} : m.processResp r = .ok (m1, o) → Mid pause m (.resp r) m1 o

/-- What happened to the table of known peers in a turn. -/
theorem peers_mid {m m1 : Manager} {shuffle : List Peer → List Peer} {q : FromConQuery} {o : List Out}
    (h : m.processQuery shuffle q = .ok (m1, o)) :
    m1 = { m with peers := m1.peers, peerMap := m1.peerMap } ∧
    (m1.peers = m.peers ∨ ∃ op, Peers.Step m.peers op m1.peers) := by
  cases q with
  | findNode target qid =>
    simp only [Manager.processQuery, Res.bind_eq_ok] at h
    obtain ⟨_, _, h⟩ := h
    cases h
    exact ⟨rfl, .inl rfl⟩
  | getPeers ih qid =>
    have key : ∀ m2 r, m.findPeers shuffle ih = (m2, r) → m2 = { m with peers := m2.peers, peerMap := m2.peerMap } ∧
        (m2.peers = m.peers ∨ ∃ op, Peers.Step m.peers op m2.peers) := by
      intro m2 r hf
      unfold Manager.findPeers at hf
      split at hf
      · cases hf
        exact ⟨rfl, .inr ⟨_, Peers.Step.good⟩⟩
      · cases hf
        exact ⟨rfl, .inl rfl⟩
    simp only [Manager.processQuery] at h
    split at h
    · rename_i m2 ps hf
      cases h
      exact key _ _ hf
    · rename_i m2 hf
      simp only [Res.bind_eq_ok] at h
      obtain ⟨_, _, h⟩ := h
      cases h
      exact key _ _ hf
  | newPeer p ih =>
    simp only [Manager.processQuery, Res.ok.injEq, Prod.mk.injEq] at h
    obtain ⟨rfl, _⟩ := h
    unfold Manager.storeNewPeer
    split
    · exact ⟨rfl, .inr ⟨_, Peers.Step.insert⟩⟩
    · split <;> exact ⟨rfl, .inl rfl⟩

/-- What the task is told about a node in this event. -/
def sighting : Event → Option (ID × SockAddr)
  | .resp (.touch id a) => some (id, a)
  | .resp (.newNodes _ a id) => some (id, a)
  | _ => none

theorem Mid.spec {pause : Nat → Nat} {m m1 : Manager} {ev : Event} {o : List Out} (h : Mid pause m ev m1 o) :
    m1.infoHash = m.infoHash ∧ m1.now = m.now ∧ m1.since = m.since ∧ m1.status = m.status ∧
    m1.waitForGood = m.waitForGood ∧
    (m1.peers = m.peers ∨ ∃ op, Peers.Step m.peers op m1.peers) ∧
    (match sighting ev with
      | none => m1.table = m.table
      | some (id, a) => m.table.touchNode m.now id a = .ok m1.table) := by
  cases h with
  | refresh => exact ⟨rfl, rfl, rfl, rfl, rfl, .inl rfl, rfl⟩
  | peerNode => exact ⟨rfl, rfl, rfl, rfl, rfl, .inl rfl, rfl⟩
  | query hp h =>
    obtain ⟨h1, h2⟩ := peers_mid h
    rw [h1]
    exact ⟨rfl, rfl, rfl, rfl, rfl, h2, rfl⟩
  | @resp r _ _ h =>
    cases r with
    | touch id a =>
      simp only [Manager.processResp, Res.bind_eq_ok] at h
      obtain ⟨t, ht, h⟩ := h
      cases h
      exact ⟨rfl, rfl, rfl, rfl, rfl, .inl rfl, ht⟩
    | newNodes ns a id =>
      simp only [Manager.processResp, Res.bind_eq_ok] at h
      obtain ⟨t, ht, u, _, h⟩ := h
      cases h
      exact ⟨rfl, rfl, rfl, rfl, rfl, .inl rfl, ht⟩
    | getPeers =>
      simp only [Manager.processResp] at h
      cases h
      exact ⟨rfl, rfl, rfl, rfl, rfl, .inl rfl, rfl⟩

theorem Mid.reachable {pause : Nat → Nat} {m m1 : Manager} {ev : Event} {o : List Out} (h : Mid pause m ev m1 o)
    (hr : Reachable m.table) : Reachable m1.table := by
  have := h.spec.2.2.2.2.2.2
  split at this
  · rw [this]; exact hr
  · exact .sighting _ _ _ _ _ hr this

/-- The lookups are started if they were not before and there is a good node. -/
def Lookups (m : Manager) (w : Bool) (o : List Out) : Prop :=
  (m.waitForGood = true ∧ HasGood m.table m.now ∧ w = false ∧
    ∃ ns, o = [.lookups ns] ∧ ns ≠ [] ∧ (∀ x ∈ ns, x ∈ m.table.iterNodes ∧ Good m.now x) ∧
      m.table.getClosestNodes m.now m.infoHash = .ok (some ns)) ∨
  ((m.waitForGood = false ∨ ¬ HasGood m.table m.now) ∧ w = m.waitForGood ∧ o = [])

/-- The kinds of steps. -/
inductive Kind (pause : Nat → Nat) (m : Manager) : Entry → Manager → Prop
  | turn {ev m1 o1 w o2} : m.status = .running → Mid pause m ev m1 o1 → Lookups m1 w o2 →
      Kind pause m ⟨ev, o1 ++ o2⟩ { m1 with since := m1.now, waitForGood := w }
  | shutdown : m.status = .running → Kind pause m ⟨.shutdown, [.stored m.table]⟩ { m with status := .finished }
  | gone {ev} : m.status = .running → ev = .peersGone ∨ ev = .conGone →
      Kind pause m ⟨ev, []⟩ { m with status := .failed }
  | others {op p} : Peers.Step m.peers op p → Kind pause m ⟨.others op, []⟩ { m with peers := p }
  | pass {d} : Kind pause m ⟨.pass d, []⟩ { m with now := m.now + d }
  | reorder {p} : m.peerMap.Perm p → Kind pause m ⟨.reorder, []⟩ { m with peerMap := p }

theorem Kind.turn' {pause : Nat → Nat} {m m1 m' : Manager} {ev : Event} {o1 outs : List Out}
    (hr : Reachable m.table) (hs : m.status = .running) (hm : Mid pause m ev m1 o1)
    (h : andThen (.ok (m1, o1)) = .ok (m', outs)) : Kind pause m ⟨ev, outs⟩ m' := by
  obtain ⟨w, o, he, hl⟩ := andThen_spec (hm.reachable hr) o1
  rw [he] at h
  cases h
  exact .turn hs hm hl

theorem Step.kind {pause : Nat → Nat} {m m' : Manager} {e : Entry} (h : Step pause m e m') (hr : Reachable m.table) :
    Kind pause m e m' := by
  cases h with
  | shutdown hs => exact .shutdown hs
  | refresh hs hp h1 h2 => exact .turn' hr hs (.refresh hp h1) h2
  | peerNode hs h2 => exact .turn' hr hs .peerNode h2
  | peersGone hs => exact .gone hs (.inl rfl)
  | query hs hp h2 =>
    obtain ⟨m1, o1, h1⟩ := andThen_ok h2
    rw [h1] at h2
    exact .turn' hr hs (.query hp h1) h2
  | resp hs h2 =>
    obtain ⟨m1, o1, h1⟩ := andThen_ok h2
    rw [h1] at h2
    exact .turn' hr hs (.resp h1) h2
  | conGone hs => exact .gone hs (.inr rfl)
  | others h => exact .others h
  | pass => exact .pass
  | reorder h => exact .reorder h

theorem Peers.Step.infoHash {s s' : Peers} {op : Peers.Op} (h : Peers.Step s op s') : s'.infoHash = s.infoHash := by
  cases h <;> rfl

/-- What always holds. -/
structure Base (infoHash : ID) (m : Manager) : Prop where
  reach : Reachable m.table
  wf : m.peers.data.WF
  own : m.peers.infoHash = infoHash
  ih : m.infoHash = infoHash
  mapWf : m.peerMap.WF
  nodup : ∀ k ps, m.peerMap.get? k = some ps → ps.Nodup

/-- Everything but the announced peers after a step. -/
theorem Kind.frame {pause : Nat → Nat} {infoHash : ID} {m m' : Manager} {e : Entry} (h : Kind pause m e m')
    (hb : Base infoHash m) : Reachable m'.table ∧ m'.peers.data.WF ∧ m'.peers.infoHash = infoHash ∧
      m'.infoHash = infoHash := by
  cases h with
  | turn hs hm hl =>
    have := hm.spec
    refine ⟨hm.reachable hb.reach, ?_, ?_, this.1.trans hb.ih⟩
    · rcases this.2.2.2.2.2.1 with h1 | ⟨op, h1⟩
      · simp only [h1]; exact hb.wf
      · exact Peers.step_wf h1 hb.wf
    · rcases this.2.2.2.2.2.1 with h1 | ⟨op, h1⟩
      · simp only [h1]; exact hb.own
      · exact (Peers.Step.infoHash h1).trans hb.own
  | shutdown => exact ⟨hb.reach, hb.wf, hb.own, hb.ih⟩
  | gone => exact ⟨hb.reach, hb.wf, hb.own, hb.ih⟩
  | others h => exact ⟨hb.reach, Peers.step_wf h hb.wf, (Peers.Step.infoHash h).trans hb.own, hb.ih⟩
  | pass => exact ⟨hb.reach, hb.wf, hb.own, hb.ih⟩
  | reorder => exact ⟨hb.reach, hb.wf, hb.own, hb.ih⟩

/-- Adding to a set. -/
def addPeer (p : Peer) (o : Option (List Peer)) : List Peer :=
  if p ∈ o.getD [] then o.getD [] else p :: o.getD []

theorem mem_addPeer {p q : Peer} {o : Option (List Peer)} : q ∈ addPeer p o ↔ q = p ∨ q ∈ o.getD [] := by
  unfold addPeer
  split
  · rename_i h
    constructor
    · exact .inr
    · rintro (rfl | h1)
      · exact h
      · exact h1
  · simp

theorem nodup_addPeer {p : Peer} {o : Option (List Peer)} (h : (o.getD []).Nodup) : (addPeer p o).Nodup := by
  unfold addPeer
  split
  · exact h
  · rename_i h1
    exact List.nodup_cons.mpr ⟨h1, h⟩

/-- The announcement of a peer of another torrent in this event. -/
def announcement (own : ID) : Event → Option (Peer × ID)
  | .query (.newPeer p ih) => if ih = own then none else some (p, ih)
  | _ => none

theorem storeNewPeer_map (m : Manager) (p : Peer) (ih : ID) :
    (m.storeNewPeer p ih).peerMap =
      if ih = m.peers.infoHash then m.peerMap else m.peerMap.insert ih (addPeer p (m.peerMap.get? ih)) := by
  unfold Manager.storeNewPeer Peers.serve
  by_cases h : ih = m.peers.infoHash
  · simp [h]
  · simp only [h, decide_false, Bool.false_eq_true, if_false]
    cases hg : m.peerMap.get? ih with
    | none => simp [addPeer]
    | some ps => simp [addPeer]

theorem Mid.peerMap {pause : Nat → Nat} {m m1 : Manager} {ev : Event} {o : List Out} (h : Mid pause m ev m1 o) :
    m1.peerMap = match announcement m.peers.infoHash ev with
      | none => m.peerMap
      | some (p, ih) => m.peerMap.insert ih (addPeer p (m.peerMap.get? ih)) := by
  cases h with
  | refresh => rfl
  | peerNode => rfl
  | @query shuffle q _ _ hp h =>
    cases q with
    | findNode =>
      simp only [Manager.processQuery, Res.bind_eq_ok] at h
      obtain ⟨_, _, h⟩ := h
      cases h
      rfl
    | getPeers ih qid =>
      have key : ∀ m2 r, m.findPeers shuffle ih = (m2, r) → m2.peerMap = m.peerMap := by
        intro m2 r hf
        unfold Manager.findPeers at hf
        split at hf <;> (cases hf; rfl)
      simp only [Manager.processQuery] at h
      split at h
      · rename_i m2 ps hf
        cases h
        exact key _ _ hf
      · rename_i m2 hf
        simp only [Res.bind_eq_ok] at h
        obtain ⟨_, _, h⟩ := h
        cases h
        exact key _ _ hf
    | newPeer p ih =>
      simp only [Manager.processQuery, Res.ok.injEq, Prod.mk.injEq] at h
      obtain ⟨rfl, _⟩ := h
      rw [storeNewPeer_map]
      simp only [announcement]
      by_cases hc : ih = m.peers.infoHash <;> simp [hc]
  | @resp r _ _ h =>
    cases r with
    | touch id a =>
      simp only [Manager.processResp, Res.bind_eq_ok] at h
      obtain ⟨t, ht, h⟩ := h
      cases h
      rfl
    | newNodes ns a id =>
      simp only [Manager.processResp, Res.bind_eq_ok] at h
      obtain ⟨t, ht, u, _, h⟩ := h
      cases h
      rfl
    | getPeers =>
      simp only [Manager.processResp] at h
      cases h
      rfl

/-- What is kept about announced peers after a step. -/
theorem Kind.peerMap {pause : Nat → Nat} {infoHash : ID} {m m' : Manager} {e : Entry} (h : Kind pause m e m')
    (hb : Base infoHash m) : m'.peerMap.WF ∧ ∀ k, m'.peerMap.get? k =
      match announcement infoHash e.event with
      | none => m.peerMap.get? k
      | some (p, ih) => if k = ih then some (addPeer p (m.peerMap.get? ih)) else m.peerMap.get? k := by
  cases h with
  | @turn ev m1 o1 w o2 hs hm hl =>
    have := hm.peerMap
    rw [hb.own] at this
    simp only
    rw [this]
    cases ha : announcement infoHash ev with
    | none => exact ⟨hb.mapWf, fun k => rfl⟩
    | some x => exact ⟨Map.wf_insert hb.mapWf _ _, fun k => Map.get?_insert _ _ _ _⟩
  | shutdown => exact ⟨hb.mapWf, fun k => rfl⟩
  | gone _ h => rcases h with rfl | rfl <;> exact ⟨hb.mapWf, fun k => rfl⟩
  | others h => exact ⟨hb.mapWf, fun k => rfl⟩
  | pass => exact ⟨hb.mapWf, fun k => rfl⟩
  | reorder h => exact ⟨Map.wf_perm hb.mapWf h, fun k => (Map.get?_perm hb.mapWf h k).symm⟩

theorem Base.step {pause : Nat → Nat} {infoHash : ID} {m m' : Manager} {e : Entry} (hb : Base infoHash m)
    (h : Step pause m e m') : Base infoHash m' := by
  have hk := h.kind hb.reach
  obtain ⟨h1, h2, h3, h4⟩ := hk.frame hb
  obtain ⟨h5, h6⟩ := hk.peerMap hb
  refine ⟨h1, h2, h3, h4, h5, ?_⟩
  intro k ps hg
  rw [h6] at hg
  split at hg
  · exact hb.nodup k ps hg
  · rename_i p ih _
    split at hg
    · cases hg
      apply nodup_addPeer
      cases hg : m.peerMap.get? ih with
      | none => exact List.nodup_nil
      | some qs => exact hb.nodup _ _ hg
    · exact hb.nodup k ps hg

theorem Base.start {infoHash : ID} {table : RoutingTable} {peers : Peers} {now : Nat} (hr : Reachable table)
    {os : List Peers.Op} (hp : Peers.Run (.new infoHash) os peers) :
    Base infoHash (start infoHash table peers now) := by
  have hwf := Peers.run_wf hp (show (Peers.new infoHash).data.WF from List.nodup_nil)
  refine ⟨hr, hwf, ?_, rfl, by simp [DhtManager.start, Map.WF, Map.keys], ?_⟩
  · show peers.infoHash = infoHash
    have : ∀ s os s', Peers.Run s os s' → s'.infoHash = s.infoHash := by
      intro s os s' h
      induction h with
      | nil => rfl
      | cons hs _ ih => exact ih.trans (Peers.Step.infoHash hs)
    exact this _ _ _ hp
  · intro k ps hg
    have := Map.mem_of_get? hg
    simp only [DhtManager.start, List.mem_singleton, Prod.mk.injEq] at this
    rw [this.2]
    exact hwf

theorem Base.run {pause : Nat → Nat} {infoHash : ID} {m m' : Manager} {h : List Entry} (hb : Base infoHash m)
    (hr : Run pause m h m') : Base infoHash m' := by
  induction hr with
  | nil => exact hb
  | snoc _ hs ih => exact ih.step hs

/-- What is kept is what was announced. -/
theorem stored_iff {pause : Nat → Nat} {infoHash : ID} {table : RoutingTable} {peers : Peers} {now : Nat}
    {h : List Entry} {m : Manager} (hb : Base infoHash (DhtManager.start infoHash table peers now))
    (hr : Run pause (DhtManager.start infoHash table peers now) h m) (k : ID) (hk : k ≠ infoHash) :
    (∀ p, p ∈ (m.peerMap.get? k).getD [] ↔ Announced h k p) ∧ m.peerMap.get? k ≠ some [] := by
  generalize hs0 : DhtManager.start infoHash table peers now = s0 at hr hb
  induction hr with
  | nil =>
    subst hs0
    have : (DhtManager.start infoHash table peers now).peerMap.get? k = none := by
      apply Map.get?_eq_none.mpr
      simp [DhtManager.start, Map.keys, hk]
    rw [this]
    simp [Announced]
  | @snoc m1 m2 h e hr1 hs ih =>
    have hbm := hb.run hr1
    obtain ⟨_, h6⟩ := (hs.kind hbm.reach).peerMap hbm
    obtain ⟨i1, i2⟩ := ih
    have hann : ∀ p, Announced (h ++ [e]) k p ↔ Announced h k p ∨ e.event = .query (.newPeer p k) := by
      intro p
      simp only [Announced, List.mem_append, List.mem_singleton]
      constructor
      · rintro ⟨x, hx | rfl, he⟩
        · exact .inl ⟨x, hx, he⟩
        · exact .inr he
      · rintro (⟨x, hx, he⟩ | he)
        · exact ⟨x, .inl hx, he⟩
        · exact ⟨e, .inr rfl, he⟩
    have hno : (∀ p, e.event ≠ .query (.newPeer p k)) → m2.peerMap.get? k = m1.peerMap.get? k := by
      intro hne
      rw [h6]
      split
      · rfl
      · rename_i p ih' ha
        rw [if_neg]
        rintro rfl
        unfold announcement at ha
        split at ha
        · rename_i p' ih'' he
          split at ha
          · cases ha
          · cases ha
            exact hne _ he
        · cases ha
    by_cases hex : ∃ p, e.event = .query (.newPeer p k)
    · obtain ⟨p, he⟩ := hex
      have : m2.peerMap.get? k = some (addPeer p (m1.peerMap.get? k)) := by
        rw [h6, he]
        simp [announcement, hk]
      rw [this]
      refine ⟨fun q => ?_, ?_⟩
      · simp only [Option.getD_some, mem_addPeer, hann, i1, he, Event.query.injEq, FromConQuery.newPeer.injEq, and_true]
        constructor
        · rintro (rfl | h1)
          · exact .inr rfl
          · exact .inl h1
        · rintro (h1 | rfl)
          · exact .inr h1
          · exact .inl rfl
      · intro hc
        have : p ∈ addPeer p (m1.peerMap.get? k) := mem_addPeer.mpr (.inl rfl)
        simp only [Option.some.injEq] at hc
        rw [hc] at this
        simp at this
    · have hne : ∀ p, e.event ≠ .query (.newPeer p k) := fun p hp => hex ⟨p, hp⟩
      rw [hno hne]
      refine ⟨fun q => ?_, i2⟩
      rw [hann, i1]
      exact ⟨.inl, fun h => h.resolve_right (hne q)⟩

end Nargun.DhtManager
