import Verif.Spec.DhtManagerTimed
import Verif.Props.RoutingTimed
import Verif.Props.DhtManager

/-! # C157: the table task while the clock runs -/

namespace Nargun

open Dht Krpc Spec DhtManager RoutingTable

theorem slotGood_earlier {a b : Nat} (hab : a ≤ b) {s : Option Node} (h : slotGood b s = true) : slotGood a s = true := by
  cases s with
  | none => exact h
  | some n =>
    rw [slotGood_some] at h ⊢
    exact Good.earlier h hab

theorem firstBadAt_all {exam : Nat → Nat} {l : List (Option Node)} (h : ∀ s ∈ l, ∀ i, slotGood (exam i) s = true) :
    ∀ k, firstBadAt exam k l = none := by
  induction l with
  | nil => intro k; rfl
  | cons s l ih =>
    intro k
    simp only [firstBadAt, h s (by simp) k, if_true]
    exact ih (fun x hx => h x (by simp [hx])) _

/-- A bucket that is full at the end of the readings is found full; one that is found full was so at their beginning. -/
theorem isFullAt_between (b : Bucket) (exam : Nat → Nat) (t0 t1 : Nat) (hc : ∀ i, t0 ≤ exam i ∧ exam i ≤ t1) :
    (b.isFull t1 = true → b.isFullAt exam = true) ∧ (b.isFullAt exam = true → b.isFull t0 = true) := by
  have all : ∀ now, firstBadAt (fun _ => now) 0 b.data = none ↔ ∀ s ∈ b.data, slotGood now s = true := by
    intro now
    refine ⟨fun h s hs => ?_, fun h => firstBadAt_all (fun s hs _ => h s hs) 0⟩
    obtain ⟨_, hi⟩ := firstBadAt_none h s hs
    exact hi
  unfold Bucket.isFullAt Bucket.isFull
  rw [← Bucket.findReplaceableAt_still, ← Bucket.findReplaceableAt_still]
  unfold Bucket.findReplaceableAt
  cases b.data.findIdx? (fun s => s.isNone) with
  | some i => simp
  | none =>
    simp only [Option.isNone_iff_eq_none, all]
    exact ⟨fun h => firstBadAt_all (fun s hs i => slotGood_earlier (hc i).2 (h s hs)) 0,
      fun h s hs => let ⟨i, hi⟩ := firstBadAt_none h s hs; slotGood_earlier (hc i).1 hi⟩

theorem isFullAt_still (b : Bucket) (now : Nat) : b.isFullAt (fun _ => now) = b.isFull now := by
  unfold Bucket.isFullAt Bucket.isFull
  rw [Bucket.findReplaceableAt_still]

theorem refreshTargetAt_eq (own : ID) (exam : Nat → Nat) (rb : Nat → Byte) (rt : Nat → Bool) (b : Bucket) (now : Nat)
    (h : b.isFullAt exam = b.isFull now) : refreshTargetAt own exam rb rt b = refreshTarget own ⟨now, rb, rt⟩ b := by
  unfold refreshTargetAt refreshTarget
  rw [h]

theorem closestAt_spec {t : RoutingTable} (ht : TimedReachable t) {exam : Nat → Nat → Nat} {t0 t1 : Nat}
    (hc : ∀ k i, t0 ≤ exam k i ∧ exam k i ≤ t1) (id : ID) :
    (t.getClosestNodesAt exam id = .ok none ∧ ∀ n ∈ t.iterNodes, ¬ Good t1 n) ∨
    ∃ ns, t.getClosestNodesAt exam id = .ok (some ns) ∧ NearestMeanwhile t t0 t1 id ns := by
  obtain ⟨o, h1, h2, h3⟩ := C155_closest t ht exam t0 t1 hc id
  cases o with
  | none => exact .inl ⟨h1, h2 rfl⟩
  | some ns =>
    obtain ⟨g1, g2, g3, g4, _, _, g7⟩ := h3 ns rfl
    exact .inr ⟨ns, h1, g1, g4, g3, g2, g7⟩

theorem askClosestAt_spec {t : RoutingTable} (ht : TimedReachable t) {exam : Nat → Nat → Nat} {t0 t1 : Nat}
    (hc : ∀ k i, t0 ≤ exam k i ∧ exam k i ≤ t1) (id : ID) :
    (askClosestAt t exam id = .ok [] ∧ ∀ n ∈ t.iterNodes, ¬ Good t1 n) ∨
    ∃ a, askClosestAt t exam id = .ok [.send (.query OWN_CHANNEL a (.findNode id))] ∧
      AsksNearest t t0 t1 id (a, .findNode id) := by
  obtain ⟨o, h1, h2, h3⟩ := C155_closest t ht exam t0 t1 hc id
  unfold askClosestAt
  rw [h1, Res.ok_bind]
  cases o with
  | none => exact .inl ⟨rfl, h2 rfl⟩
  | some ns =>
    obtain ⟨g1, g2, _, _, _, g6, g7⟩ := h3 ns rfl
    cases ns with
    | nil => exact absurd rfl g1
    | cons n ns =>
      refine .inr ⟨n.addr, rfl, n, (g2 n (by simp)).1, (g2 n (by simp)).2, rfl, fun m hm hg => ?_⟩
      by_cases hin : m ∈ n :: ns
      · rcases List.mem_cons.mp hin with rfl | hin
        · exact Nat.le_refl _
        · exact (List.pairwise_cons.mp g6).1 m hin
      · exact g7 n (by simp) m hm hg hin

/-- What the loop over the buckets before the last one does. -/
theorem refreshLoopAt_spec {t : RoutingTable} (ht : TimedReachable t) {clk : TurnClock} {t0 : Nat} (hc : clk.During t0)
    (rb : Nat → Nat → Byte) (rt : Nat → Nat → Bool) (l : List Bucket) :
    ∀ k, (∀ j (b : Bucket), l[j]? = some b → t.data[k + j]? = some b ∧ k + j + 1 < t.data.length) →
    ∃ outs, refreshLoopAt t clk rb rt k l = .ok outs ∧ outs.length ≤ l.length ∧
      (∀ o ∈ outs, ∃ a id i, o = .send (.query OWN_CHANNEL a (.findNode id)) ∧ AsksNearest t t0 clk.done id (a, .findNode id) ∧
        i + 1 < t.data.length ∧ responsible t id = i ∧ ¬ FullOfGood t i clk.done) ∧
      ((∃ n ∈ t.iterNodes, Good clk.done n) → ∀ i, k ≤ i → i < k + l.length → ¬ FullOfGood t i t0 →
        ∃ a id, Out.send (.query OWN_CHANNEL a (.findNode id)) ∈ outs ∧ responsible t id = i) := by
  induction l with
  | nil => intro k _; exact ⟨[], rfl, by simp, by simp, fun _ i h1 h2 => by simp at h2; omega⟩
  | cons b l ih =>
    intro k hk
    have h0 := hk 0 b rfl
    rw [Nat.add_zero] at h0
    obtain ⟨outs, h1, h2, h3, h4⟩ := ih (k + 1) (fun j c hc => by
      have := hk (j + 1) c (by simpa using hc)
      rw [show k + 1 + j = k + (j + 1) by omega]
      exact this)
    have hbt := isFullAt_between b (clk.full k) t0 clk.done (hc.full k)
    have hfull : ∀ now, FullOfGood t k now ↔ b.isFull now = true := by
      intro now
      rw [fullOfGood_iff, h0.1]
      simp
    have later : ∀ i, k ≤ i → i ≠ k → i < k + (b :: l).length → k + 1 ≤ i ∧ i < k + 1 + l.length := by
      intro i a b c
      simp only [List.length_cons] at c
      omega
    cases hf : b.isFullAt (clk.full k) with
    | true =>
      have e1 : refreshTargetAt t.ownId (clk.full k) (rb k) (rt k) b = .ok none := by
        unfold refreshTargetAt
        rw [if_pos hf]
      refine ⟨outs, by simp only [refreshLoopAt, e1, Res.ok_bind, h1, List.nil_append], by simp; omega, h3, ?_⟩
      intro hg i hi1 hi2 hnf
      by_cases hik : i = k
      · subst hik
        exact absurd ((hfull t0).mpr (hbt.2 hf)) hnf
      · obtain ⟨l1, l2⟩ := later i hi1 hik hi2
        exact h4 hg i l1 l2 hnf
    | false =>
      have hnd : b.isFull clk.done = false := by
        cases hd : b.isFull clk.done with
        | false => rfl
        | true => rw [hbt.1 hd] at hf; cases hf
      obtain ⟨id, e1, e2⟩ := (refreshTarget_spec (Inv.of_timedReachable ht) ⟨clk.done, rb k, rt k⟩ h0.1 h0.2).2 hnd
      rw [← refreshTargetAt_eq t.ownId (clk.full k) (rb k) (rt k) b clk.done (by rw [hf, hnd])] at e1
      rcases askClosestAt_spec ht (hc.look k) id with ⟨q1, q2⟩ | ⟨a, q1, q2⟩
      · refine ⟨outs, by simp only [refreshLoopAt, e1, Res.ok_bind, q1, h1, List.nil_append], by simp; omega, h3, ?_⟩
        rintro ⟨n, hn, hg⟩
        exact absurd hg (q2 n hn)
      · refine ⟨_, by simp only [refreshLoopAt, e1, Res.ok_bind, q1, h1]; rfl, by simp; omega, ?_, ?_⟩
        · intro o ho
          rcases List.mem_cons.mp ho with rfl | ho
          · refine ⟨a, id, k, rfl, q2, h0.2, e2, ?_⟩
            rw [hfull, hnd]
            simp
          · exact h3 o ho
        · intro hg i hi1 hi2 hnf
          by_cases hik : i = k
          · subst hik
            exact ⟨a, id, by simp, e2⟩
          · obtain ⟨l1, l2⟩ := later i hi1 hik hi2
            obtain ⟨a', id', m1, m2⟩ := h4 hg i l1 l2 hnf
            exact ⟨a', id', by simp [m1], m2⟩

theorem refreshAt_spec {t : RoutingTable} (ht : TimedReachable t) {clk : TurnClock} {t0 : Nat} (hc : clk.During t0)
    (rb : Nat → Nat → Byte) (rt : Nat → Nat → Bool) :
    ∃ outs, refreshAt t clk rb rt = .ok outs ∧ outs.length ≤ t.data.length ∧
      (∀ o ∈ outs, ∃ a id, o = .send (.query OWN_CHANNEL a (.findNode id)) ∧ AsksNearest t t0 clk.done id (a, .findNode id) ∧
        (id = t.ownId ∨ ∃ i, i + 1 < t.data.length ∧ responsible t id = i ∧ ¬ FullOfGood t i clk.done)) ∧
      ((∃ n ∈ t.iterNodes, Good clk.done n) →
        (∀ i, i + 1 < t.data.length → ¬ FullOfGood t i t0 →
          ∃ a id, Out.send (.query OWN_CHANNEL a (.findNode id)) ∈ outs ∧ responsible t id = i) ∧
        (t.data.length ≤ 160 → ∃ a, Out.send (.query OWN_CHANNEL a (.findNode t.ownId)) ∈ outs)) := by
  have hpos := (Inv.of_timedReachable ht).pos
  obtain ⟨outs, h1, h2, h3, h4⟩ := refreshLoopAt_spec ht hc rb rt (t.data.take (t.data.length - 1)) 0 (by
    intro j b hb
    have hj := (List.getElem?_eq_some_iff.1 hb).1
    rw [List.length_take] at hj
    rw [List.getElem?_take_of_lt (by omega)] at hb
    rw [Nat.zero_add]
    exact ⟨hb, by omega⟩)
  have hne : t.data ≠ [] := by intro hn; rw [hn] at hpos; simp at hpos
  rw [List.length_take, Nat.min_eq_left (by omega)] at h2 h4
  have h3' : ∀ o ∈ outs, ∃ a id, o = .send (.query OWN_CHANNEL a (.findNode id)) ∧
      AsksNearest t t0 clk.done id (a, .findNode id) ∧
      (id = t.ownId ∨ ∃ i, i + 1 < t.data.length ∧ responsible t id = i ∧ ¬ FullOfGood t i clk.done) := by
    intro o ho
    obtain ⟨a, id, i, p1, p2, p3, p4, p5⟩ := h3 o ho
    exact ⟨a, id, p1, p2, .inr ⟨i, p3, p4, p5⟩⟩
  unfold refreshAt
  rw [usub, if_pos hpos, Res.ok_bind, h1, Res.ok_bind, List.getLast?_eq_some_getLast hne]
  simp only
  have hbc : ID_BIT_COUNT = 160 := rfl
  rw [hbc]
  split
  · rcases askClosestAt_spec ht (hc.look (t.data.length - 1)) t.ownId with ⟨q1, q2⟩ | ⟨a, q1, q2⟩
    · rw [q1, Res.ok_bind, List.append_nil]
      refine ⟨outs, rfl, by omega, h3', ?_⟩
      rintro ⟨n, hn, hg⟩
      exact absurd hg (q2 n hn)
    · rw [q1, Res.ok_bind]
      refine ⟨_, rfl, by simp; omega, ?_, fun hg => ⟨fun i hi hnf => ?_, fun _ => ⟨a, by simp⟩⟩⟩
      · intro o ho
        rcases List.mem_append.mp ho with ho | ho
        · exact h3' o ho
        · rw [List.mem_singleton] at ho
          exact ⟨a, t.ownId, ho, q2, .inl rfl⟩
      · obtain ⟨a', id', m1, m2⟩ := h4 hg i (Nat.zero_le _) (by omega) hnf
        exact ⟨a', id', by simp [m1], m2⟩
  · rename_i hn
    rw [Res.ok_bind, List.append_nil]
    refine ⟨outs, rfl, by omega, h3', fun hg => ⟨fun i hi hnf => h4 hg i (Nat.zero_le _) (by omega) hnf, fun hl => ?_⟩⟩
    exact absurd (Or.inl hl) hn

/-! ## Turns -/

theorem findNodeAt_spec {t : RoutingTable} (ht : TimedReachable t) {exam : Nat → Nat → Nat} {t0 t1 : Nat}
    (hc : ∀ k i, t0 ≤ exam k i ∧ exam k i ≤ t1) (id : ID) :
    (∃ n ∈ t.iterNodes, n.id = id ∧ t.findNodeAt exam id = .ok (some (.exact n))) ∨
    (¬ Known t id ∧ ∃ ns, t.findNodeAt exam id = .ok (some (.closest ns)) ∧ NearestMeanwhile t t0 t1 id ns) ∨
    (¬ Known t id ∧ (∀ n ∈ t.iterNodes, ¬ Good t1 n) ∧ t.findNodeAt exam id = .ok none) := by
  have hi := Inv.of_timedReachable ht
  obtain ⟨b, hb, hgb⟩ := hi.getBucket id
  unfold findNodeAt
  rw [hgb, Res.ok_bind]
  cases hg : b.getNode id with
  | some n =>
    obtain ⟨h1, h2⟩ := Bucket.getNode_some hg
    exact .inl ⟨n, mem_iterNodes.2 ⟨_, _, hb, h1⟩, h2, rfl⟩
  | none =>
    have hu : ¬ Known t id := fun ⟨n, hn, he⟩ => Bucket.getNode_eq_none.1 hg n (hi.mem_bucket hb hn he) he
    rcases closestAt_spec ht hc id with ⟨h1, h2⟩ | ⟨ns, h1, h2⟩
    · exact .inr (.inr ⟨hu, h2, by simp only [h1, Res.ok_bind]; rfl⟩)
    · exact .inr (.inl ⟨hu, ns, by simp only [h1, Res.ok_bind]; rfl, h2⟩)

theorem unknownAddresses_total {t : RoutingTable} (hi : Inv t) (ns : List Node) : ∃ l, unknownAddresses t ns = .ok l := by
  induction ns with
  | nil => exact ⟨[], rfl⟩
  | cons n ns ih =>
    obtain ⟨l, hl⟩ := ih
    obtain ⟨b, _, hgb⟩ := hi.getBucket n.id
    exact ⟨_, by simp only [unknownAddresses, containsNode, hgb, hl, Res.ok_bind]; rfl⟩

/-- What the end of a turn does. -/
theorem endTurnAt_spec {m : Manager} (ht : TimedReachable m.table) {clk : TurnClock} {t0 : Nat} (hc : clk.During t0) :
    ∃ w o, m.endTurnAt clk = .ok ({ m with since := clk.done, now := clk.done, waitForGood := w }, o) ∧
      ((m.waitForGood = true ∧ w = false ∧
          ∃ ns, o = [.lookups ns] ∧ NearestMeanwhile m.table t0 clk.done m.infoHash ns) ∨
       ((m.waitForGood = false ∨ ∀ n ∈ m.table.iterNodes, ¬ Good clk.done n) ∧ w = m.waitForGood ∧ o = [])) := by
  unfold Manager.endTurnAt
  by_cases hq : (m.waitForGood && decide (m.table.countGoodNodesAt clk.count > 0)) = true
  · simp only [hq, if_true]
    simp only [Bool.and_eq_true, decide_eq_true_eq] at hq
    rcases closestAt_spec ht hc.spawn m.infoHash with ⟨h1, h2⟩ | ⟨ns, h1, h2⟩
    · simp only [h1, Res.ok_bind]
      exact ⟨m.waitForGood, [], rfl, .inr ⟨.inr h2, rfl, rfl⟩⟩
    · simp only [h1, Res.ok_bind]
      exact ⟨false, _, rfl, .inl ⟨hq.1, rfl, ns, rfl, h2⟩⟩
  · simp only [hq]
    refine ⟨m.waitForGood, [], rfl, .inr ⟨?_, rfl, rfl⟩⟩
    simp only [Bool.and_eq_true, decide_eq_true_eq] at hq
    by_cases hw : m.waitForGood = true
    · refine .inr fun n hn hg => hq ⟨hw, ?_⟩
      have := (C155_count m.table clk.count t0 clk.done hc.count).1
      have : 0 < (m.table.iterNodes.filter (fun n => decide (Good clk.done n))).length :=
        List.length_pos_of_mem (a := n) (List.mem_filter.mpr ⟨hn, by simpa using hg⟩)
      omega
    · exact .inl (by simpa using hw)

/-- What a turn does before its end. -/
inductive MidAt (clk : TurnClock) (shuffle : List Peer → List Peer) (m : Manager) : DhtManager.Event → Manager → List Out → Prop
  | refresh {rb rt o} : refreshAt m.table clk rb rt = .ok o →
      MidAt clk shuffle m (.refresh rb rt) { m with refreshes := m.refreshes + 1 } o
  | peerNode {addr} : MidAt clk shuffle m (.peerNode addr) m [ping addr]
  | query {q m1 o} : m.processQueryAt clk shuffle q = .ok (m1, o) → MidAt clk shuffle m (.query q) m1 o
  | resp {r m1 o} : m.processRespAt clk r = .ok (m1, o) → MidAt clk shuffle m (.resp r) m1 o

theorem processQueryAt_spec {m : Manager} (ht : TimedReachable m.table) {clk : TurnClock} {t0 : Nat} (hc : clk.During t0)
    (shuffle : List Peer → List Peer) (q : FromConQuery) :
    ∃ m1 o, m.processQueryAt clk shuffle q = .ok (m1, o) ∧ m1 = { m with peers := m1.peers, peerMap := m1.peerMap } ∧
      lookups o = [] := by
  have key : ∀ k, (m.findPeers shuffle k).1 = { m with peers := (m.findPeers shuffle k).1.peers, peerMap := (m.findPeers shuffle k).1.peerMap } := by
    intro k
    unfold Manager.findPeers
    split <;> rfl
  cases q with
  | findNode target qid =>
    rcases findNodeAt_spec ht hc.find target with ⟨n, _, _, h⟩ | ⟨_, ns, h, _⟩ | ⟨_, _, h⟩ <;>
      exact ⟨m, _, by simp only [Manager.processQueryAt, h, Res.ok_bind]; rfl, rfl, rfl⟩
  | getPeers k qid =>
    have hk := key k
    simp only [Manager.processQueryAt]
    generalize m.findPeers shuffle k = x at hk
    obtain ⟨m1, o⟩ := x
    cases o with
    | some ps => exact ⟨m1, _, rfl, hk, rfl⟩
    | none =>
      have ht1 : TimedReachable m1.table := by
        simp only at hk
        rw [hk]
        exact ht
      rcases findNodeAt_spec ht1 hc.find k with ⟨n, _, _, h⟩ | ⟨_, ns, h, _⟩ | ⟨_, _, h⟩ <;>
        exact ⟨m1, _, by simp only [h, Res.ok_bind]; rfl, hk, rfl⟩
  | newPeer p k =>
    refine ⟨_, _, rfl, ?_, rfl⟩
    unfold Manager.storeNewPeer
    split
    · rfl
    · split <;> rfl

theorem lookups_pings (l : List SockAddr) : lookups (l.map ping) = [] := by
  induction l with
  | nil => rfl
  | cons a l ih => exact ih

theorem processRespAt_spec {m : Manager} (ht : TimedReachable m.table) (clk : TurnClock) (r : FromConResp) :
    ∃ t o, m.processRespAt clk r = .ok ({ m with table := t }, o) ∧ TimedReachable t ∧ lookups o = [] ∧
      (match sighting (.resp r) with
        | none => t = m.table
        | some (id, a) => m.table.touchNodeAt clk.touch id a = .ok t) := by
  cases r with
  | touch id a =>
    obtain ⟨t, h1, _⟩ := C155_total m.table ht clk.touch id a
    exact ⟨t, [], by simp only [Manager.processRespAt, h1, Res.ok_bind], .sighting _ _ _ _ _ ht h1, rfl, h1⟩
  | newNodes ns a id =>
    obtain ⟨t, h1, _⟩ := C155_total m.table ht clk.touch id a
    have ht' : TimedReachable t := .sighting _ _ _ _ _ ht h1
    obtain ⟨l, h2⟩ := unknownAddresses_total (Inv.of_timedReachable ht') ns.list
    exact ⟨t, _, by simp only [Manager.processRespAt, h1, h2, Res.ok_bind]; rfl, ht', lookups_pings _, h1⟩
  | getPeers _ _ _ => exact ⟨m.table, _, rfl, ht, rfl, rfl⟩

/-- What a turn does. -/
inductive TurnKind (clk : TurnClock) (shuffle : List Peer → List Peer) (m : Manager) (ev : DhtManager.Event) (m' : Manager)
    (outs : List Out) : Prop
  | mk (m1 : Manager) (o1 : List Out) (w : Bool) (o2 : List Out) : MidAt clk shuffle m ev m1 o1 → TimedReachable m1.table →
      m1.infoHash = m.infoHash → m1.status = m.status → m1.waitForGood = m.waitForGood → lookups o1 = [] →
      (match sighting ev with
        | none => m1.table = m.table
        | some (id, a) => m.table.touchNodeAt clk.touch id a = .ok m1.table) →
      outs = o1 ++ o2 → m' = { m1 with since := clk.done, now := clk.done, waitForGood := w } →
      ((m1.waitForGood = true ∧ w = false ∧
          ∃ ns, o2 = [.lookups ns] ∧ NearestMeanwhile m1.table m.now clk.done m1.infoHash ns) ∨
       ((m1.waitForGood = false ∨ ∀ n ∈ m1.table.iterNodes, ¬ Good clk.done n) ∧ w = m1.waitForGood ∧ o2 = [])) →
      TurnKind clk shuffle m ev m' outs

theorem turn_of_mid {m : Manager} {clk : TurnClock} (hc : clk.During m.now) {shuffle : List Peer → List Peer}
    {ev : DhtManager.Event} {m1 : Manager} {o1 : List Out} (hm : MidAt clk shuffle m ev m1 o1) (ht : TimedReachable m1.table)
    (h1 : m1.infoHash = m.infoHash) (h2 : m1.status = m.status) (h3 : m1.waitForGood = m.waitForGood) (h4 : lookups o1 = [])
    (h5 : match sighting ev with
        | none => m1.table = m.table
        | some (id, a) => m.table.touchNodeAt clk.touch id a = .ok m1.table) :
    ∃ m' outs, andThenAt clk (.ok (m1, o1)) = .ok (m', outs) ∧ TurnKind clk shuffle m ev m' outs := by
  obtain ⟨w, o2, e1, e2⟩ := endTurnAt_spec ht hc
  exact ⟨_, _, by simp only [andThenAt, Res.ok_bind, e1], .mk m1 o1 w o2 hm ht h1 h2 h3 h4 h5 rfl rfl e2⟩

theorem turnAt_spec {m : Manager} (ht : TimedReachable m.table) {clk : TurnClock} (hc : clk.During m.now)
    (shuffle : List Peer → List Peer) (ev : DhtManager.Event) :
    m.turnAt clk shuffle ev = .err ∨ ∃ m' outs, m.turnAt clk shuffle ev = .ok (m', outs) ∧ TurnKind clk shuffle m ev m' outs := by
  cases ev with
  | refresh rb rt =>
    right
    obtain ⟨o, h1, _, h3, _⟩ := refreshAt_spec ht hc rb rt
    simp only [Manager.turnAt, h1, Res.ok_bind]
    refine turn_of_mid hc (.refresh h1) ht rfl rfl rfl ?_ rfl
    refine List.filterMap_eq_nil_iff.mpr fun x hx => ?_
    obtain ⟨a, id, rfl, _⟩ := h3 x hx
    rfl
  | peerNode addr => exact .inr (turn_of_mid hc .peerNode ht rfl rfl rfl rfl rfl)
  | query q =>
    right
    obtain ⟨m1, o, h1, h2, h3⟩ := processQueryAt_spec ht hc shuffle q
    simp only [Manager.turnAt, h1]
    refine turn_of_mid hc (.query h1) ?_ ?_ ?_ ?_ h3 ?_ <;> rw [h2]
    · exact ht
    · rfl
  | resp r =>
    right
    obtain ⟨t, o, h1, h2, h3, h4⟩ := processRespAt_spec ht clk r
    simp only [Manager.turnAt, h1]
    exact turn_of_mid hc (.resp h1) h2 rfl rfl rfl h3 h4
  | _ => exact .inl rfl

theorem turn_kind {m m' : Manager} (ht : TimedReachable m.table) {clk : TurnClock} (hc : clk.During m.now)
    {shuffle : List Peer → List Peer} {ev : DhtManager.Event} {outs : List Out} (h : m.turnAt clk shuffle ev = .ok (m', outs)) :
    TurnKind clk shuffle m ev m' outs := by
  rcases turnAt_spec ht hc shuffle ev with h1 | ⟨_, _, h1, h2⟩
  · rw [h1] at h; cases h
  · rw [h1] at h; cases h; exact h2

section

variable {pause : Nat → Nat} {infoHash : ID} {table : RoutingTable} {peers : Peers} {now : Nat}
  {h : List DhtManager.Entry} {m m' : Manager} {outs : List Out}

/-- What holds in every history. -/
theorem timed_base {m0 : Manager} (ht : TimedReachable m0.table) (hr : TimedRun pause m0 h m) :
    TimedReachable m.table ∧ m.infoHash = m0.infoHash := by
  induction hr with
  | nil => exact ⟨ht, rfl⟩
  | snoc _ hs ih =>
    obtain ⟨i1, i2⟩ := ih
    cases hs with
    | turn _ _ hc _ he =>
      obtain ⟨m1, o1, w, o2, _, k1, k2, _, _, _, _, _, rfl, _⟩ := turn_kind i1 hc he
      exact ⟨k1, k2.trans i2⟩
    | _ => exact ⟨i1, i2⟩

/-- C157: whatever the clock does during a turn, nothing that is sent to the task makes it panic, and it goes on. -/
theorem C157_total (ht : TimedReachable table) (hr : TimedRun pause (start infoHash table peers now) h m)
    (clk : TurnClock) (hc : clk.During m.now) (shuffle : List Peer → List Peer) :
    (∀ rb rt, ∃ m' outs, m.turnAt clk shuffle (.refresh rb rt) = .ok (m', outs) ∧ m'.status = m.status) ∧
    (∀ addr, ∃ m' outs, m.turnAt clk shuffle (.peerNode addr) = .ok (m', outs) ∧ m'.status = m.status) ∧
    (∀ q, ∃ m' outs, m.turnAt clk shuffle (.query q) = .ok (m', outs) ∧ m'.status = m.status) ∧
    (∀ r, ∃ m' outs, m.turnAt clk shuffle (.resp r) = .ok (m', outs) ∧ m'.status = m.status) := by
  obtain ⟨hb, _⟩ := timed_base (m0 := start infoHash table peers now) ht hr
  have key : ∀ ev, m.turnAt clk shuffle ev ≠ .err →
      ∃ m' outs, m.turnAt clk shuffle ev = .ok (m', outs) ∧ m'.status = m.status := by
    intro ev hne
    rcases turnAt_spec hb hc shuffle ev with h1 | ⟨m', outs, h1, k⟩
    · exact absurd h1 hne
    · obtain ⟨m1, o1, w, o2, _, _, _, k3, _, _, _, _, rfl, _⟩ := k
      exact ⟨_, _, h1, k3⟩
  refine ⟨fun rb rt => key _ ?_, fun addr => key _ ?_, fun q => key _ ?_, fun r => key _ ?_⟩
  · obtain ⟨o, h1, _⟩ := refreshAt_spec hb hc rb rt
    obtain ⟨w, o2, e1, _⟩ := endTurnAt_spec (m := { m with refreshes := m.refreshes + 1 }) hb hc
    simp [Manager.turnAt, h1, andThenAt, e1]
  · obtain ⟨w, o2, e1, _⟩ := endTurnAt_spec (m := m) hb hc
    simp [Manager.turnAt, andThenAt, e1]
  · obtain ⟨m1, o, h1, h2, _⟩ := processQueryAt_spec hb hc shuffle q
    obtain ⟨w, o2, e1, _⟩ := endTurnAt_spec (m := m1) (by rw [h2]; exact hb) hc
    simp [Manager.turnAt, h1, andThenAt, e1]
  · obtain ⟨t, o, h1, h2, _⟩ := processRespAt_spec hb clk r
    obtain ⟨w, o2, e1, _⟩ := endTurnAt_spec (m := { m with table := t }) h2 hc
    simp [Manager.turnAt, h1, andThenAt, e1]

/-- What a step of a turn does. -/
theorem step_turn (ht : TimedReachable m.table) {ev : DhtManager.Event} (hs : TimedStep pause m ⟨ev, outs⟩ m')
    (hev : (∃ rb rt, ev = .refresh rb rt) ∨ (∃ a, ev = .peerNode a) ∨ (∃ q, ev = .query q) ∨ ∃ r, ev = .resp r) :
    ∃ clk shuffle, clk.During m.now ∧ m'.now = clk.done ∧ TurnKind clk shuffle m ev m' outs := by
  cases hs with
  | @turn _ clk shuffle _ _ _ _ hc _ he =>
    have k := turn_kind ht hc he
    refine ⟨clk, shuffle, hc, ?_, k⟩
    obtain ⟨m1, o1, w, o2, _, _, _, _, _, _, _, _, rfl, _⟩ := k
    rfl
  | _ => simp at hev

/-- The lookups started at the end of a turn are neither queries nor answers. -/
theorem only_lookups {m1 : Manager} {t0 t1 : Nat} {w : Bool} {o2 : List Out}
    (h : (m1.waitForGood = true ∧ w = false ∧
          ∃ ns, o2 = [.lookups ns] ∧ NearestMeanwhile m1.table t0 t1 m1.infoHash ns) ∨
       ((m1.waitForGood = false ∨ ∀ n ∈ m1.table.iterNodes, ¬ Good t1 n) ∧ w = m1.waitForGood ∧ o2 = [])) :
    queries o2 = [] ∧ answers o2 = [] := by
  rcases h with ⟨_, _, ns, rfl, _⟩ | ⟨_, _, rfl⟩ <;> exact ⟨rfl, rfl⟩

/-- C157: a refresh, however long it takes, leaves the table as it is and asks at most once per bucket. Every query goes
to a stored node that was good when the turn began, such that no node still good at its end is nearer to the id asked for;
this id is the own one or belongs to a bucket that does not hold eight nodes still good at the end. If a node is still good
at the end, every bucket before the last one that was not full of good nodes at the beginning was asked for, and so was the own
id as long as there are at most 160 buckets. -/
theorem C157_refresh (ht : TimedReachable table) (hr : TimedRun pause (start infoHash table peers now) h m)
    (rb : Nat → Nat → Byte) (rt : Nat → Nat → Bool) (hs : TimedStep pause m ⟨.refresh rb rt, outs⟩ m') :
    m'.table = m.table ∧ answers outs = [] ∧ (queries outs).length ≤ m.table.data.length ∧
    (∀ q ∈ queries outs, ∃ id, AsksNearest m.table m.now m'.now id q ∧
      (id = m.table.ownId ∨ ∃ i, i + 1 < m.table.data.length ∧ responsible m.table id = i ∧
        ¬ FullOfGood m.table i m'.now)) ∧
    ((∃ n ∈ m.table.iterNodes, Good m'.now n) →
      (∀ i, i + 1 < m.table.data.length → ¬ FullOfGood m.table i m.now →
        ∃ a id, (a, ToConQuery.findNode id) ∈ queries outs ∧ responsible m.table id = i) ∧
      (m.table.data.length ≤ 160 → ∃ a, (a, ToConQuery.findNode m.table.ownId) ∈ queries outs)) := by
  obtain ⟨hb, _⟩ := timed_base (m0 := start infoHash table peers now) ht hr
  obtain ⟨clk, shuffle, hc, hn, m1, o1, w, o2, hm, _, _, _, _, _, _, rfl, rfl, hl⟩ := step_turn hb hs (.inl ⟨_, _, rfl⟩)
  obtain ⟨l1, l2⟩ := only_lookups hl
  rw [queries_append, answers_append, l1, l2, List.append_nil, List.append_nil]
  cases hm with
  | refresh he =>
    obtain ⟨outs, h1, h2, h3, h4⟩ := refreshAt_spec hb hc rb rt
    rw [h1] at he
    cases he
    have mem : ∀ a id, Out.send (.query OWN_CHANNEL a (.findNode id)) ∈ o1 → (a, ToConQuery.findNode id) ∈ queries o1 :=
      fun a id hx => List.mem_filterMap.mpr ⟨_, hx, rfl⟩
    refine ⟨rfl, ?_, Nat.le_trans (List.length_filterMap_le _ _) h2, ?_, ?_⟩
    · refine List.filterMap_eq_nil_iff.mpr fun x hx => ?_
      obtain ⟨a, id, rfl, _⟩ := h3 x hx
      rfl
    · intro q hq
      obtain ⟨x, hx, hxq⟩ := List.mem_filterMap.mp hq
      obtain ⟨a, id, rfl, k1, k2⟩ := h3 x hx
      cases hxq
      exact ⟨id, k1, k2⟩
    · intro hg
      obtain ⟨k1, k2⟩ := h4 hg
      refine ⟨fun i hi hnf => ?_, fun hl => ?_⟩
      · obtain ⟨a, id, k3, k4⟩ := k1 i hi hnf
        exact ⟨a, id, mem a id k3, k4⟩
      · obtain ⟨a, k3⟩ := k2 hl
        exact ⟨a, mem _ _ k3⟩

/-- C157: a query for a node, however long the turn takes, is answered at most once: with the stored node that has this
id; otherwise with nodes that were good when the turn began, none farther than a node left out that is still good at its end;
and if there is no answer, no stored node is good any more at the end of the turn. -/
theorem C157_find_node (ht : TimedReachable table) (hr : TimedRun pause (start infoHash table peers now) h m)
    (target : ID) (qid : QueryId) (hs : TimedStep pause m ⟨.query (.findNode target qid), outs⟩ m') :
    m'.table = m.table ∧ queries outs = [] ∧
    ((∃ n ∈ m.table.iterNodes, n.id = target ∧ answers outs = [(qid, .findNode (.exact n))]) ∨
     (¬ Known m.table target ∧ ∃ ns, answers outs = [(qid, .findNode (.closest ns))] ∧
       NearestMeanwhile m.table m.now m'.now target ns) ∨
     (¬ Known m.table target ∧ answers outs = [] ∧ ∀ n ∈ m.table.iterNodes, ¬ Good m'.now n)) := by
  obtain ⟨hb, _⟩ := timed_base (m0 := start infoHash table peers now) ht hr
  obtain ⟨clk, shuffle, hc, hn, m1, o1, w, o2, hm, _, _, _, _, _, _, rfl, rfl, hl⟩ :=
    step_turn hb hs (.inr (.inr (.inl ⟨_, rfl⟩)))
  obtain ⟨l1, l2⟩ := only_lookups hl
  rw [queries_append, answers_append, l1, l2, List.append_nil, List.append_nil]
  cases hm with
  | query he =>
    rcases findNodeAt_spec hb hc.find target with ⟨n, k1, k2, k3⟩ | ⟨k1, ns, k2, k3⟩ | ⟨k1, k2, k3⟩
    · simp only [Manager.processQueryAt, k3, Res.ok_bind] at he
      cases he
      exact ⟨rfl, rfl, .inl ⟨n, k1, k2, rfl⟩⟩
    · simp only [Manager.processQueryAt, k2, Res.ok_bind] at he
      cases he
      exact ⟨rfl, rfl, .inr (.inl ⟨k1, ns, rfl, k3⟩)⟩
    · simp only [Manager.processQueryAt, k3, Res.ok_bind] at he
      cases he
      exact ⟨rfl, rfl, .inr (.inr ⟨k1, rfl, k2⟩)⟩

/-- How many lookups were started. -/
theorem timed_lookups_wait (ht : TimedReachable table) (hr : TimedRun pause (start infoHash table peers now) h m) :
    (lookups (allOutputs h)).length = if m.waitForGood then 0 else 1 := by
  generalize hs0 : start infoHash table peers now = s0 at hr
  have ht0 : TimedReachable s0.table := by subst hs0; exact ht
  induction hr with
  | nil => subst hs0; rfl
  | snoc hr1 hs ih =>
    rw [allOutputs_snoc, lookups_append, List.length_append, ih]
    cases hs with
    | turn _ _ hc _ he =>
      obtain ⟨m1, o1, w, o2, _, _, _, _, k4, k5, _, rfl, rfl, hl⟩ := turn_kind (timed_base ht0 hr1).1 hc he
      simp only [lookups_append, k5, List.nil_append]
      rcases hl with ⟨h1, rfl, ns, rfl, _⟩ | ⟨_, rfl, rfl⟩
      · rw [← k4, h1]; rfl
      · rw [← k4]; rfl
    | _ => rfl

/-- C157: however the clock runs, the lookups are started at most once; with nodes that were good when the turn
began; and they have been started at the end of every turn at which a stored node is still good. -/
theorem C157_lookups (ht : TimedReachable table) (hr : TimedRun pause (start infoHash table peers now) h m) :
    (lookups (allOutputs h)).length ≤ 1 ∧
    ∀ e m', TimedStep pause m e m' →
      (∀ ns ∈ lookups e.outputs, NearestMeanwhile m'.table m.now m'.now infoHash ns) ∧
      (isTurn e = true → m'.status = .running → (∃ n ∈ m'.table.iterNodes, Good m'.now n) →
        (lookups (allOutputs (h ++ [e]))).length = 1) := by
  obtain ⟨hb, hih⟩ := timed_base (m0 := start infoHash table peers now) ht hr
  refine ⟨by rw [timed_lookups_wait ht hr]; split <;> omega, fun e m' hs => ?_⟩
  have hall := timed_lookups_wait ht (hr.snoc hs)
  cases hs with
  | turn _ _ hc _ he =>
    obtain ⟨m1, o1, w, o2, _, _, k2, _, _, k5, _, rfl, rfl, hl⟩ := turn_kind hb hc he
    constructor
    · intro ns hns
      simp only [lookups_append, k5, List.nil_append] at hns
      rcases hl with ⟨_, _, ns', rfl, h1⟩ | ⟨_, _, rfl⟩
      · simp only [lookups, List.filterMap_cons, List.filterMap_nil, List.mem_singleton] at hns
        subst hns
        rw [k2.trans hih] at h1
        exact h1
      · simp [lookups] at hns
    · rintro _ _ ⟨n, hn, hg⟩
      rw [hall]
      rcases hl with ⟨_, rfl, _⟩ | ⟨h1 | h1, rfl, _⟩
      · rfl
      · simp [h1]
      · exact absurd hg (h1 n hn)
  | shutdown => exact ⟨by simp [lookups], fun _ hc => by cases hc⟩
  | peersGone => exact ⟨by simp [lookups], fun _ hc => by cases hc⟩
  | conGone => exact ⟨by simp [lookups], fun _ hc => by cases hc⟩
  | others => exact ⟨by simp [lookups], fun hc => by cases hc⟩
  | pass => exact ⟨by simp [lookups], fun hc => by cases hc⟩
  | reorder => exact ⟨by simp [lookups], fun hc => by cases hc⟩

/-- C157: however the clock runs, no step loses a node that is still good at its end. -/
theorem C157_good_stay (ht : TimedReachable table) (hr : TimedRun pause (start infoHash table peers now) h m)
    (e : DhtManager.Entry) (hs : TimedStep pause m e m') (n : Node) (hn : n ∈ m.table.iterNodes) (hg : Good m'.now n) :
    ∃ n' ∈ m'.table.iterNodes, n'.id = n.id ∧ n'.addr = n.addr := by
  obtain ⟨hb, hih⟩ := timed_base (m0 := start infoHash table peers now) ht hr
  cases hs with
  | @turn _ clk _ ev _ _ _ hc _ he =>
    obtain ⟨m1, o1, w, o2, _, _, _, _, _, _, k6, rfl, rfl, _⟩ := turn_kind hb hc he
    simp only at hg ⊢
    cases hsi : sighting ev with
    | none =>
      rw [hsi] at k6
      exact ⟨n, by rw [show m1.table = m.table from k6]; exact hn, rfl, rfl⟩
    | some x =>
      rw [hsi] at k6
      rcases C155_good_stay m.table m1.table hb clk.touch m.now clk.done ⟨hc.stamp, hc.exam⟩ x.1 x.2 k6 n hn hg with
        ⟨_, h1⟩ | ⟨_, h1⟩
      · exact ⟨n, h1, rfl, rfl⟩
      · exact ⟨_, h1, rfl, rfl⟩
  | _ => exact ⟨n, hn, rfl, rfl⟩

/-- C157: however the clock runs, every node in the table was there at the start or answered from its address. -/
theorem C157_only_answering (ht : TimedReachable table) (hr : TimedRun pause (start infoHash table peers now) h m) (n : Node)
    (hn : n ∈ m.table.iterNodes) :
    (∃ n0 ∈ table.iterNodes, n0.id = n.id ∧ n0.addr = n.addr) ∨ ∃ e ∈ h, AnswerOf n.id n.addr e := by
  generalize hs0 : start infoHash table peers now = s0 at hr
  have ht0 : TimedReachable s0.table := by subst hs0; exact ht
  induction hr generalizing n with
  | nil => subst hs0; exact .inl ⟨n, hn, rfl, rfl⟩
  | @snoc ma mb h e hr1 hs ih =>
    have lift : ∀ n0 ∈ ma.table.iterNodes, n0.id = n.id → n0.addr = n.addr →
        (∃ n1 ∈ table.iterNodes, n1.id = n.id ∧ n1.addr = n.addr) ∨ ∃ e' ∈ h ++ [e], AnswerOf n.id n.addr e' := by
      intro n0 h0 h1 h2
      have h3 := ih n0 h0
      rw [h1, h2] at h3
      rcases h3 with h3 | ⟨e, h3, h4⟩
      · exact .inl h3
      · exact .inr ⟨e, List.mem_append_left _ h3, h4⟩
    cases hs with
    | @turn _ clk _ ev outs _ _ hc _ he =>
      have hb := (timed_base ht0 hr1).1
      obtain ⟨m1, o1, w, o2, _, _, _, _, _, _, k6, rfl, rfl, _⟩ := turn_kind hb hc he
      simp only at hn
      cases hsi : sighting ev with
      | none =>
        rw [hsi] at k6
        rw [show m1.table = ma.table from k6] at hn
        exact lift n hn rfl rfl
      | some x =>
        rw [hsi] at k6
        obtain ⟨t2, h1, _, _, h2⟩ := (Inv.of_timedReachable hb).touchNodeAt clk.touch x.1 x.2
        rw [show ma.table.touchNodeAt clk.touch x.1 x.2 = .ok m1.table from k6] at h1
        cases h1
        rcases h2 with ⟨_, h3, _⟩ | ⟨_, h3⟩
        · rw [h3] at hn
          obtain ⟨n0, h4, h5⟩ := List.mem_map.mp hn
          have : n0.id = n.id ∧ n0.addr = n.addr := by
            rw [← h5]
            split <;> exact ⟨rfl, rfl⟩
          exact lift n0 h4 this.1 this.2
        · cases h3 with
          | stored old rest p1 p2 p3 =>
            rcases List.mem_cons.1 (p2.mem_iff.1 hn) with rfl | hr
            · exact .inr ⟨⟨ev, o1 ++ o2⟩, by simp, sighting_answer hsi⟩
            · exact lift n (p1.mem_iff.2 (List.mem_append_right _ hr)) rfl rfl
          | refused b p1 => exact lift n (p1.mem_iff.1 hn) rfl rfl
    | shutdown => exact lift n hn rfl rfl
    | peersGone => exact lift n hn rfl rfl
    | conGone => exact lift n hn rfl rfl
    | others => exact lift n hn rfl rfl
    | pass => exact lift n hn rfl rfl
    | reorder => exact lift n hn rfl rfl

/-! ## The clock that stands still -/

theorem still_during (now : Nat) : (TurnClock.still now).During now :=
  ⟨fun _ _ => ⟨Nat.le_refl _, Nat.le_refl _⟩, fun _ _ _ => ⟨Nat.le_refl _, Nat.le_refl _⟩,
    fun _ _ => ⟨Nat.le_refl _, Nat.le_refl _⟩, fun _ _ => ⟨Nat.le_refl _, Nat.le_refl _⟩, ⟨Nat.le_refl _, Nat.le_refl _⟩,
    fun _ _ => ⟨Nat.le_refl _, Nat.le_refl _⟩, fun _ _ => ⟨Nat.le_refl _, Nat.le_refl _⟩⟩

theorem closestAt_still (t : RoutingTable) (now : Nat) (id : ID) :
    t.getClosestNodesAt (fun _ _ => now) id = t.getClosestNodes now id := (C155_still t now id ⟨⟨0, 0, 0, 0⟩, 0⟩).2.1

theorem findNodeAt_still (t : RoutingTable) (now : Nat) (id : ID) :
    t.findNodeAt (fun _ _ => now) id = t.findNode now id := by
  unfold findNodeAt findNode
  simp only [closestAt_still]
  rfl

theorem refreshQueries_append (t : RoutingTable) (now : Nat) (a b : List ID) (o : List Out)
    (h : refreshQueries t now (a ++ b) = .ok o) :
    ∃ o1 o2, refreshQueries t now a = .ok o1 ∧ refreshQueries t now b = .ok o2 ∧ o = o1 ++ o2 := by
  induction a generalizing o with
  | nil => exact ⟨[], o, rfl, h, rfl⟩
  | cons x a ih =>
    simp only [List.cons_append, refreshQueries, Res.bind_eq_ok] at h
    obtain ⟨n, h1, r, h2, h3⟩ := h
    obtain ⟨o1, o2, i1, i2, rfl⟩ := ih r h2
    cases h3
    refine ⟨_, o2, ?_, i2, (List.append_assoc ..).symm⟩
    simp only [refreshQueries, h1, i1, Res.ok_bind]

theorem askClosestAt_still (t : RoutingTable) (now : Nat) (id : ID) (o : List Out)
    (h : refreshQueries t now [id] = .ok o) : askClosestAt t (fun _ _ => now) id = .ok o := by
  simp only [refreshQueries, getClosestNode, Res.bind_eq_ok] at h
  obtain ⟨n, ⟨c, h1, h2⟩, r, h3, h4⟩ := h
  cases h2
  cases h3
  cases h4
  simp only [askClosestAt, closestAt_still, h1, Res.ok_bind, List.append_nil]

theorem refreshLoopAt_still (t : RoutingTable) (now : Nat) (rb : Nat → Nat → Byte) (rt : Nat → Nat → Bool) (l : List Bucket) :
    ∀ k ids o, refreshTargets t.ownId (fun k => ⟨now, rb k, rt k⟩) k l = .ok ids → refreshQueries t now ids = .ok o →
      refreshLoopAt t (.still now) rb rt k l = .ok o := by
  induction l with
  | nil =>
    intro k ids o h1 h2
    cases h1
    exact h2
  | cons b l ih =>
    intro k ids o h1 h2
    simp only [refreshTargets, Res.bind_eq_ok] at h1
    obtain ⟨x, h3, r, h4, h5⟩ := h1
    cases h5
    obtain ⟨o1, o2, q1, q2, rfl⟩ := refreshQueries_append t now _ _ o h2
    have h6 : refreshTargetAt t.ownId ((TurnClock.still now).full k) (rb k) (rt k) b = .ok x := by
      rw [← h3]
      exact refreshTargetAt_eq _ _ _ _ _ _ (isFullAt_still b now)
    have h7 := ih (k + 1) r o2 h4 q2
    simp only [refreshLoopAt, h6, Res.ok_bind]
    cases x with
    | none =>
      cases q1
      simp only [h7, Res.ok_bind, List.nil_append]
    | some id =>
      have := askClosestAt_still t now id o1 q1
      simp only [TurnClock.still] at this h7 ⊢
      simp only [this, h7, Res.ok_bind]

theorem refreshAt_still (m : Manager) (rb : Nat → Nat → Byte) (rt : Nat → Nat → Bool) (o : List Out)
    (h : m.refresh rb rt = .ok o) : refreshAt m.table (.still m.now) rb rt = .ok o := by
  simp only [Manager.refresh, fillableIds, Res.bind_eq_ok] at h
  obtain ⟨ids, ⟨n, h1, r, h2, h3⟩, h4⟩ := h
  cases h3
  obtain ⟨o1, o2, q1, q2, rfl⟩ := refreshQueries_append _ _ _ _ o h4
  have h5 := refreshLoopAt_still _ _ _ _ _ _ _ _ h2 q1
  simp only [refreshAt, h1, h5, Res.ok_bind]
  cases hg : m.table.data.getLast? with
  | none =>
    rw [hg] at q2
    cases q2
    rfl
  | some b =>
    rw [hg] at q2
    have hf : b.isFullAt ((TurnClock.still m.now).full n) = b.isFull m.now := isFullAt_still b m.now
    simp only [Option.bind_some, hf] at q2 ⊢
    split at q2
    · rename_i hq
      rw [if_pos hq, show (TurnClock.still m.now).look n = fun _ _ => m.now from rfl, askClosestAt_still _ _ _ _ q2]
      rfl
    · rename_i hq
      rw [if_neg hq]
      cases q2
      rfl

theorem andThenAt_still (m : Manager) (o : List Out) : andThenAt (.still m.now) (.ok (m, o)) = andThen (.ok (m, o)) := by
  have hc : m.table.countGoodNodesAt (TurnClock.still m.now).count = m.table.countGoodNodes m.now :=
    (C155_still m.table m.now m.infoHash ⟨⟨0, 0, 0, 0⟩, 0⟩).2.2.1
  have hs : m.table.getClosestNodesAt (TurnClock.still m.now).spawn m.infoHash = m.table.getClosestNodes m.now m.infoHash :=
    closestAt_still _ _ _
  simp only [andThenAt, andThen, Res.ok_bind, Manager.endTurnAt, Manager.endTurn, hc, hs]
  rfl

/-- C157: the histories in which the clock is read once per turn are among those considered here. -/
theorem C157_covers {m0 : Manager} (ht : Reachable m0.table) (hr : DhtManager.Run pause m0 h m) : TimedRun pause m0 h m := by
  have reach : ∀ {h m}, DhtManager.Run pause m0 h m → Reachable m.table := by
    intro h m hr
    induction hr with
    | nil => exact ht
    | snoc _ hs ih =>
      cases hs.kind ih with
      | turn _ hm _ => exact hm.reachable ih
      | _ => exact ih
  induction hr with
  | nil => exact .nil
  | @snoc ma mb h e hr1 hs ih =>
    refine ih.snoc ?_
    cases hs with
    | shutdown h1 => exact .shutdown h1
    | refresh h1 h2 h3 h4 =>
      refine .turn (clk := .still ma.now) (shuffle := id) h1 (fun _ => .refl _) (still_during _) (fun _ => h2) ?_
      simp only [Manager.turnAt, refreshAt_still ma _ _ _ h3, Res.ok_bind]
      rw [← h4]
      exact andThenAt_still { ma with refreshes := ma.refreshes + 1 } _
    | peerNode h1 h2 =>
      refine .turn (clk := .still ma.now) (shuffle := id) h1 (fun _ => .refl _) (still_during _) (fun h => by simp at h) ?_
      rw [← h2]
      exact andThenAt_still ma _
    | peersGone h1 => exact .peersGone h1
    | @query _ shuffle q _ h1 h2 h3 =>
      refine .turn (clk := .still ma.now) (shuffle := shuffle) h1 h2 (still_during _) (fun h => by simp at h) ?_
      obtain ⟨m1, o1, h4⟩ := andThen_ok h3
      have h5 : ma.processQueryAt (.still ma.now) shuffle q = .ok (m1, o1) := by
        rw [← h4]
        cases q with
        | findNode target qid => simp only [Manager.processQueryAt, Manager.processQuery, TurnClock.still, findNodeAt_still]
        | getPeers k qid =>
          have : (ma.findPeers shuffle k).1.now = ma.now := by
            unfold Manager.findPeers
            split <;> rfl
          simp only [Manager.processQueryAt, Manager.processQuery, TurnClock.still, findNodeAt_still]
          generalize ma.findPeers shuffle k = x at this
          obtain ⟨m1, o⟩ := x
          cases o with
          | some ps => rfl
          | none => simp only at this; simp only [this]
        | newPeer p k => rfl
      have h6 : m1.now = ma.now := by
        have := (peers_mid h4).1
        rw [this]
      simp only [Manager.turnAt, h5]
      rw [h4] at h3
      rw [← h3, ← h6]
      exact andThenAt_still m1 _
    | @resp _ r _ h1 h3 =>
      refine .turn (clk := .still ma.now) (shuffle := id) h1 (fun _ => .refl _) (still_during _) (fun h => by simp at h) ?_
      obtain ⟨m1, o1, h4⟩ := andThen_ok h3
      have touch : ∀ id a, ma.table.touchNodeAt (TurnClock.still ma.now).touch id a = ma.table.touchNode ma.now id a :=
        fun id a => (C155_still ma.table ma.now id a).1
      have h5 : ma.processRespAt (.still ma.now) r = .ok (m1, o1) := by
        rw [← h4]
        cases r with
        | touch id a => simp only [Manager.processRespAt, Manager.processResp, touch]
        | newNodes ns a id => simp only [Manager.processRespAt, Manager.processResp, touch]
        | getPeers _ _ _ => rfl
      have h6 : m1.now = ma.now := (Mid.resp (pause := pause) h4).spec.2.1
      simp only [Manager.turnAt, h5]
      rw [h4] at h3
      rw [← h3, ← h6]
      exact andThenAt_still m1 _
    | conGone h1 => exact .conGone h1
    | others h1 => exact .others h1
    | pass => exact .pass
    | reorder h1 => exact .reorder h1

end

/-! ## The hypotheses can be met -/

/-- A turn that begins at `t` and takes `d`; only the choice of the nodes for the lookups comes at its end. -/
def slowTurn (t d : Nat) : TurnClock :=
  ⟨fun _ _ => t, fun _ _ _ => t, fun _ _ => t, .still t, fun _ _ => t, fun _ _ => t + d, t + d⟩

theorem slowTurn_during (t d : Nat) : (slowTurn t d).During t :=
  ⟨fun _ _ => ⟨Nat.le_refl _, Nat.le_add_right _ _⟩, fun _ _ _ => ⟨Nat.le_refl _, Nat.le_add_right _ _⟩,
    fun _ _ => ⟨Nat.le_refl _, Nat.le_add_right _ _⟩, fun _ _ => ⟨Nat.le_refl _, Nat.le_add_right _ _⟩,
    ⟨Nat.le_refl _, Nat.le_add_right _ _⟩, fun _ _ => ⟨Nat.le_refl _, Nat.le_add_right _ _⟩,
    fun _ _ => ⟨Nat.le_add_right _ _, Nat.le_refl _⟩⟩

/-- The task at its start, with an empty table. -/
def exEmpty : Manager := start (exId 1#8) (.default (exId 0#8)) (.new (exId 1#8)) 0

/-- A result with outputs and a state that satisfy a test. -/
def okWith (r : Res (Manager × List Out)) (p : Manager → List Out → Bool) : Bool :=
  match r with
  | .ok (m, o) => p m o
  | _ => false

theorem okWith_true {r : Res (Manager × List Out)} {p : Manager → List Out → Bool} (h : okWith r p = true) :
    ∃ m o, r = .ok (m, o) ∧ p m o = true := by
  unfold okWith at h
  split at h
  · exact ⟨_, _, rfl, h⟩
  · cases h

/-- `C157_lookups`, `C157_good_stay`: a node answers in a turn that takes fifteen minutes. When the good nodes are counted it is
good, when the nodes for the lookups are chosen it is not any more, so no lookup is started. In the model with one reading
per turn this does not happen (C99). The next answer, in a quick turn, starts them. -/
theorem C157_missed (pause : Nat → Nat) : ∃ o1 m1 o2 m2,
    TimedStep pause exEmpty ⟨.resp (.touch (exId 7#8) (exAddr 1)), o1⟩ m1 ∧
    TimedStep pause m1 ⟨.resp (.touch (exId 7#8) (exAddr 1)), o2⟩ m2 ∧
    m1.table.countGoodNodesAt (slowTurn 0 fifteenMinutes).count = 1 ∧ lookups o1 = [] ∧
    (lookups o2).map (·.map (·.id)) = [[exId 7#8]] := by
  obtain ⟨m1, o1, h1, p1⟩ := okWith_true (r := exEmpty.turnAt (slowTurn 0 fifteenMinutes) id (.resp (.touch (exId 7#8) (exAddr 1))))
    (p := fun m o => decide (m.status = .running ∧ m.now = fifteenMinutes ∧ m.table.countGoodNodesAt (slowTurn 0 fifteenMinutes).count = 1) &&
      decide (lookups o = []) &&
      okWith (m.turnAt (slowTurn fifteenMinutes 1) id (.resp (.touch (exId 7#8) (exAddr 1)))) fun _ o =>
        decide ((lookups o).map (·.map (·.id)) = [[exId 7#8]])) (by decide +kernel)
  simp only [Bool.and_eq_true, decide_eq_true_eq] at p1
  obtain ⟨⟨⟨a1, a2, a3⟩, a4⟩, a5⟩ := p1
  obtain ⟨m2, o2, h2, p2⟩ := okWith_true a5
  refine ⟨o1, m1, o2, m2, ?_, ?_, a3, a4, by simpa using p2⟩
  · exact .turn rfl (fun _ => .refl _) (slowTurn_during 0 _) (fun h => by simp at h) h1
  · exact .turn a1 (fun _ => .refl _) (by rw [a2]; exact slowTurn_during _ _) (fun h => by simp at h) h2

/-- `C157_refresh`: a refresh that begins when a node is good and ends fifteen minutes later asks this node for the own id. -/
example : ∃ h m outs m', TimedRun (fun _ => 3) exEmpty h m ∧
    TimedStep (fun _ => 3) m ⟨.refresh (fun _ _ => 0#8) (fun _ _ => false), outs⟩ m' ∧
    queries outs = [(exAddr 1, .findNode (exId 0#8))] ∧ m'.now = m.now + fifteenMinutes := by
  obtain ⟨m1, o1, h1, p1⟩ := okWith_true (r := exEmpty.turnAt (slowTurn 0 1) id (.resp (.touch (exId 7#8) (exAddr 1))))
    (p := fun m _ => decide (m.status = .running ∧ m.now = 1 ∧ m.since = 1) &&
      okWith (Manager.turnAt { m with now := m.now + 3 } (slowTurn 4 fifteenMinutes) id (.refresh (fun _ _ => 0#8) (fun _ _ => false)))
        fun m' o => decide (m'.now = 4 + fifteenMinutes) && decide (queries o = [(exAddr 1, .findNode (exId 0#8))]))
    (by decide +kernel)
  simp only [Bool.and_eq_true, decide_eq_true_eq] at p1
  obtain ⟨⟨a1, a2, a3⟩, a4⟩ := p1
  obtain ⟨m2, o2, h2, p2⟩ := okWith_true a4
  simp only [Bool.and_eq_true, decide_eq_true_eq] at p2
  refine ⟨_, { m1 with now := m1.now + 3 }, o2, m2,
    (TimedRun.nil.snoc (.turn rfl (fun _ => .refl _) (slowTurn_during 0 1) (fun h => by simp at h) h1)).snoc .pass, ?_, p2.2, ?_⟩
  · refine .turn a1 (fun _ => .refl _) ?_ (fun _ => ?_) h2
    · simp only [a2]; exact slowTurn_during _ _
    · simp only [a2, a3]; exact Nat.le_refl _
  · simp only [a2, p2.1]

end Nargun
