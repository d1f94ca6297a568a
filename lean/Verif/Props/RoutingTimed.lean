import Verif.Lemmas.RoutingTimed
import Verif.Props.RoutingTable

/-! # C155: the routing table while the clock runs -/

namespace Nargun.RoutingTable

open Nargun Spec

/-- With a clock that stands still during each call, the calls are those of the model with one reading per call, so that
`TimedReachable` extends `Reachable`. -/
theorem C155_still (t : RoutingTable) (now : Nat) (id : ID) (addr : SockAddr) :
    t.touchNodeAt (.still now) id addr = t.touchNode now id addr ∧
    t.getClosestNodesAt (fun _ _ => now) id = t.getClosestNodes now id ∧
    t.countGoodNodesAt (fun _ _ => now) = t.countGoodNodes now ∧
    (Reachable t → TimedReachable t) := by
  have touch : ∀ (t : RoutingTable) now id addr, t.touchNodeAt (.still now) id addr = t.touchNode now id addr := by
    intro t now id addr
    unfold touchNodeAt touchNode
    simp only [insertNewGoodAt_still]
    rfl
  refine ⟨touch t now id addr, ?_, ?_, fun h => ?_⟩
  · unfold getClosestNodesAt getClosestNodes
    simp only [collectGoodsAt_still]
  · have : ∀ (L : List Bucket) k, countsAt (fun _ _ => now) k L = L.map (fun b => (b.goods now).length) := by
      intro L
      induction L with
      | nil => intro k; rfl
      | cons b L ih => intro k; rw [countsAt, ih, Bucket.goodsAt_still, List.map_cons]
    unfold countGoodNodesAt countGoodNodes
    rw [this]
  · induction h with
    | fresh own => exact .fresh own
    | sighting t t' now id addr _ he ih => exact .sighting t t' (.still now) id addr ih (by rw [touch]; exact he)
    | restart t t' fresh _ he ih => exact .restart t t' fresh ih he

/-- C155: whatever the clock shows at each reading, the table keeps its shape: at most 161 buckets of at most eight nodes,
every node in the bucket responsible for it, no id twice. -/
theorem C155_shape (t : RoutingTable) (h : TimedReachable t) :
    1 ≤ t.data.length ∧ t.data.length ≤ 161 ∧
    (∀ (i : Nat) (b : Bucket), t.data[i]? = some b → b.nodes.length ≤ 8 ∧
      ∀ n ∈ b.nodes, min (sharedPrefix t.ownId n.id) (t.data.length - 1) = i) ∧
    (t.iterNodes.map (·.id)).Nodup := by
  have hi := Inv.of_timedReachable h
  exact ⟨hi.pos, hi.bound, fun i b hb => ⟨b.nodes_length_le, hi.place i b hb⟩, hi.nodup⟩

/-- C155: a sighting never crashes, whatever the clock shows. -/
theorem C155_total (t : RoutingTable) (h : TimedReachable t) (clk : TouchClock) (id : ID) (addr : SockAddr) :
    ∃ t', t.touchNodeAt clk id addr = .ok t' ∧ t'.ownId = t.ownId := by
  obtain ⟨t', h1, _, h2, _⟩ := (Inv.of_timedReachable h).touchNodeAt clk id addr
  exact ⟨t', h1, h2⟩

/-- C155: during a sighting whose readings of the clock are between `t0` and `t1`, a node that is still good at `t1` is not
lost: it is kept as it was or, if it is the node seen, with its address and the time it was touched. -/
theorem C155_good_stay (t t' : RoutingTable) (h : TimedReachable t) (clk : TouchClock) (t0 t1 : Nat)
    (hc : TouchClock.Within clk t0 t1) (id : ID) (addr : SockAddr) (he : t.touchNodeAt clk id addr = .ok t') (n : Node)
    (hn : n ∈ t.iterNodes) (hg : Good t1 n) :
    (n.id ≠ id ∧ n ∈ t'.iterNodes) ∨ (n.id = id ∧ (⟨n.id, n.addr, some clk.stamp⟩ : Node) ∈ t'.iterNodes) := by
  obtain ⟨t2, h1, _, _, h2⟩ := (Inv.of_timedReachable h).touchNodeAt clk id addr
  rw [h1] at he; cases he
  rcases h2 with ⟨_, h3, _⟩ | ⟨hu, h3⟩
  · by_cases hid : n.id = id
    · refine Or.inr ⟨hid, ?_⟩
      rw [h3]
      refine List.mem_map.2 ⟨n, hn, ?_⟩
      rw [if_pos hid]; rfl
    · refine Or.inl ⟨hid, ?_⟩
      rw [h3]
      refine List.mem_map.2 ⟨n, hn, ?_⟩
      rw [if_neg hid]
  · refine Or.inl ⟨fun hid => hu ⟨n, hn, hid⟩, ?_⟩
    cases h3 with
    | stored old rest p1 p2 p3 =>
      rcases List.mem_append.1 (p1.mem_iff.1 hn) with ho | hr
      · obtain ⟨k, i, hb⟩ := p3 n (by simpa using ho)
        exact absurd (Good.earlier hg (hc.2 k i).2) hb
      · exact p2.mem_iff.2 (List.mem_cons_of_mem _ hr)
    | refused b p1 => exact p1.mem_iff.2 hn

/-- C155: such a sighting displaces at most one node, and one that is not good at its end; the table afterwards holds nothing
but nodes it held before and the node seen. -/
theorem C155_one_displaced (t t' : RoutingTable) (h : TimedReachable t) (clk : TouchClock) (t0 t1 : Nat)
    (hc : TouchClock.Within clk t0 t1) (id : ID) (addr : SockAddr) (he : t.touchNodeAt clk id addr = .ok t') :
    (∃ lost : Option Node, (∀ o, lost = some o → ¬ Good t1 o) ∧ ∀ n ∈ t.iterNodes, lost = some n ∨ Known t' n.id) ∧
    ∀ n ∈ t'.iterNodes, n ∈ t.iterNodes ∨ n.id = id ∧ n.lastSeen = some clk.stamp := by
  obtain ⟨t2, h1, _, _, h2⟩ := (Inv.of_timedReachable h).touchNodeAt clk id addr
  rw [h1] at he; cases he
  rcases h2 with ⟨_, h3, _⟩ | ⟨_, h3⟩
  · constructor
    · refine ⟨none, by simp, fun n hn => Or.inr ⟨_, by rw [h3]; exact List.mem_map_of_mem hn, ?_⟩⟩
      split <;> rfl
    · intro n hn
      rw [h3] at hn
      obtain ⟨m, hm, rfl⟩ := List.mem_map.1 hn
      by_cases hid : m.id = id
      · rw [if_pos hid]; exact Or.inr ⟨hid, rfl⟩
      · rw [if_neg hid]; exact Or.inl hm
  · cases h3 with
    | stored old rest p1 p2 p3 =>
      constructor
      · refine ⟨old, fun o ho hg => ?_, fun n hn => ?_⟩
        · obtain ⟨k, i, hb⟩ := p3 o ho
          exact hb (Good.earlier hg (hc.2 k i).2)
        · rcases List.mem_append.1 (p1.mem_iff.1 hn) with ho | hr
          · left; simpa using ho
          · right; exact ⟨n, p2.mem_iff.2 (List.mem_cons_of_mem _ hr), rfl⟩
      · intro n hn
        rcases List.mem_cons.1 (p2.mem_iff.1 hn) with rfl | hr
        · exact Or.inr ⟨rfl, rfl⟩
        · exact Or.inl (p1.mem_iff.2 (List.mem_append_right _ hr))
    | refused b p1 =>
      exact ⟨⟨none, by simp, fun n hn => Or.inr ⟨n, p1.mem_iff.2 hn, rfl⟩⟩, fun n hn => Or.inl (p1.mem_iff.1 hn)⟩

/-- C155: an unknown node is stored with its address and the time of the sighting, unless the bucket responsible for it
holds eight nodes that were all good when the sighting began, and is not to be split (as in C67). -/
theorem C155_stored (t t' : RoutingTable) (h : TimedReachable t) (clk : TouchClock) (t0 t1 : Nat)
    (hc : TouchClock.Within clk t0 t1) (id : ID) (addr : SockAddr) (hu : ¬ Known t id)
    (he : t.touchNodeAt clk id addr = .ok t') :
    (⟨id, addr, some clk.stamp⟩ : Node) ∈ t'.iterNodes ∨
    ∃ b, t'.data[responsible t' id]? = some b ∧ b.nodes.length = 8 ∧ (∀ n ∈ b.nodes, Good t0 n) ∧
      (responsible t' id + 1 < t'.data.length ∨ sharedPrefix t'.ownId id ≤ t'.data.length - 1) := by
  obtain ⟨t2, h1, _, _, h2⟩ := (Inv.of_timedReachable h).touchNodeAt clk id addr
  rw [h1] at he; cases he
  rcases h2 with ⟨h3, _⟩ | ⟨_, h3⟩
  · exact absurd h3 hu
  · cases h3 with
    | stored old rest p1 p2 p3 => left; exact p2.mem_iff.2 (by simp [Node.newGood])
    | refused b p1 p2 p3 p4 p5 =>
      refine Or.inr ⟨b, p2, p3, fun n hn => ?_, p5⟩
      obtain ⟨k, i, hg⟩ := p4 n hn
      exact Good.earlier hg (hc.2 k i).1

theorem collectGoodsAt_spec (exam : Nat → Nat → Nat) (L : List Bucket) : ∀ (k : Nat) (acc : List Node),
    ∃ L1 L2 res, L = L1 ++ L2 ∧ collectGoodsAt exam k acc L = acc ++ res ∧ res.Sublist (L1.flatMap Bucket.nodes) ∧
      (∀ n ∈ res, ∃ j i, Good (exam j i) n) ∧
      (∀ n ∈ L1.flatMap Bucket.nodes, n ∉ res → ∃ j i, ¬ Good (exam j i) n) ∧
      (L2 = [] ∨ 8 ≤ (collectGoodsAt exam k acc L).length) ∧
      (acc.length < 8 → (collectGoodsAt exam k acc L).length ≤ 15) := by
  induction L with
  | nil =>
    intro k acc
    exact ⟨[], [], [], rfl, by simp [collectGoodsAt], .slnil, by simp, by simp, Or.inl rfl,
      fun h => by simp [collectGoodsAt]; omega⟩
  | cons b L ih =>
    intro k acc
    obtain ⟨g1, g2, g3⟩ := b.goodsAt_spec (exam k)
    have hg : (b.goodsAt (exam k)).length ≤ 8 := Nat.le_trans g1.length_le b.nodes_length_le
    have hk : K_NODE_PER_BUCKET = 8 := rfl
    simp only [collectGoodsAt]
    rw [hk]
    by_cases hc : (acc ++ b.goodsAt (exam k)).length ≥ 8
    · rw [if_pos hc]
      refine ⟨[b], L, b.goodsAt (exam k), rfl, rfl, by simpa using g1, fun n hn => ⟨k, g2 n hn⟩,
        fun n hn hnot => ⟨k, g3 n (by simpa using hn) hnot⟩, Or.inr hc, fun h => ?_⟩
      rw [List.length_append]; omega
    · rw [if_neg hc]
      obtain ⟨L1, L2, res, e1, e2, e3, e4, e5, e6, e7⟩ := ih (k + 1) (acc ++ b.goodsAt (exam k))
      refine ⟨b :: L1, L2, b.goodsAt (exam k) ++ res, by rw [e1]; rfl, by rw [e2, List.append_assoc], ?_, ?_, ?_, e6,
        fun _ => e7 (by omega)⟩
      · rw [List.flatMap_cons]; exact g1.append e3
      · intro n hn
        rcases List.mem_append.1 hn with hn | hn
        · exact ⟨k, g2 n hn⟩
        · exact e4 n hn
      · intro n hn hnot
        rw [List.mem_append, not_or] at hnot
        rw [List.flatMap_cons] at hn
        rcases List.mem_append.1 hn with hn | hn
        · exact ⟨k, g3 n hn hnot.1⟩
        · exact e5 n hn hnot.2

/-- C155: a query for the closest nodes whose readings of the clock are between `t0` and `t1` returns only stored nodes that
were good when it began, each once, at most 15, ordered as in C68; a node that is good even at its end is left out only if
eight or more are returned, none of which is of a farther class. If nothing is returned, no node is good at its end. -/
theorem C155_closest (t : RoutingTable) (h : TimedReachable t) (exam : Nat → Nat → Nat) (t0 t1 : Nat)
    (hc : ∀ k i, t0 ≤ exam k i ∧ exam k i ≤ t1) (id : ID) :
    ∃ o, t.getClosestNodesAt exam id = .ok o ∧ (o = none → ∀ n ∈ t.iterNodes, ¬ Good t1 n) ∧
      ∀ ns, o = some ns →
        ns ≠ [] ∧ (∀ n ∈ ns, n ∈ t.iterNodes ∧ Good t0 n) ∧ (ns.map (·.id)).Nodup ∧ ns.length ≤ 15 ∧
        (ns.length < 8 → ∀ n ∈ t.iterNodes, Good t1 n → n ∈ ns) ∧
        ns.Pairwise (fun a b => sharedPrefix b.id id ≤ sharedPrefix a.id id) ∧
        ∀ n ∈ ns, ∀ m ∈ t.iterNodes, Good t1 m → m ∉ ns → sharedPrefix m.id id ≤ sharedPrefix n.id id := by
  have hi := Inv.of_timedReachable h
  have hr : responsible t id ≤ t.data.length := by unfold responsible; omega
  unfold getClosestNodesAt
  rw [findBucketIdx_eq hi.pos hi.bound, Res.ok_bind, sliceFrom, if_pos hr, Res.ok_bind]
  obtain ⟨L1, L2, res, hL, hcol, hsub, hgood, hbad, hlen, hmax⟩ := collectGoodsAt_spec exam
    (t.data.drop (responsible t id) ++ (t.data.take (responsible t id)).reverse) 0 []
  have hord := visit_order hi id
  have hLp : (L1 ++ L2).Perm t.data := by
    rw [← hL]
    refine List.perm_append_comm.trans ?_
    refine ((List.reverse_perm _).append_right _).trans ?_
    rw [List.take_append_drop]
  rw [hcol, List.nil_append] at hlen hmax ⊢
  rw [hL] at hord
  have hmem : ∀ n, n ∈ t.iterNodes ↔ n ∈ L1.flatMap Bucket.nodes ∨ n ∈ L2.flatMap Bucket.nodes := by
    intro n
    unfold iterNodes
    rw [← List.mem_append, ← List.flatMap_append]
    exact (hLp.flatMap_right _).mem_iff.symm
  have hnd : (res.map (·.id)).Nodup := by
    have h1 : ((L1.flatMap Bucket.nodes ++ L2.flatMap Bucket.nodes).map (·.id)).Nodup := by
      rw [← List.flatMap_append]
      exact perm_nodup_ids (hLp.flatMap_right Bucket.nodes).symm hi.nodup
    exact ((hsub.trans (List.sublist_append_left _ _)).map _).nodup h1
  have hin : ∀ n ∈ res, n ∈ t.iterNodes ∧ Good t0 n := by
    intro n hn
    obtain ⟨j, i, hg⟩ := hgood n hn
    exact ⟨(hmem n).2 (Or.inl (hsub.subset hn)), Good.earlier hg (hc j i).1⟩
  have hout : ∀ n ∈ t.iterNodes, Good t1 n → n ∉ res → n ∈ L2.flatMap Bucket.nodes := by
    intro n hn hg hnot
    rcases (hmem n).1 hn with hm | hm
    · obtain ⟨j, i, hb⟩ := hbad n hm hnot
      exact absurd (Good.earlier hg (hc j i).2) hb
    · exact hm
  by_cases hne : res = []
  · rw [if_neg (by simpa using hne)]
    refine ⟨none, rfl, fun _ n hn hg => ?_, by simp⟩
    rcases hlen with h2 | h8
    · have := hout n hn hg (by rw [hne]; simp)
      rw [h2] at this; simp at this
    · rw [hne] at h8; simp at h8
  · rw [if_pos hne]
    refine ⟨_, rfl, by simp, ?_⟩
    intro ns hns
    have hns := (Option.some.inj hns).symm
    have hperm : ns.Perm res := by rw [hns]; exact stableSort_perm _ _
    refine ⟨fun hc => hne ?_, fun n hn => hin n (hperm.mem_iff.1 hn), perm_nodup_ids hperm.symm hnd, ?_, ?_, ?_, ?_⟩
    · rw [hc] at hperm; exact hperm.nil_eq.symm
    · rw [hperm.length_eq]; exact hmax (by simp)
    · intro hlt n hn hg
      rw [hperm.mem_iff]
      rw [hperm.length_eq] at hlt
      rcases hlen with h2 | h8
      · refine Classical.byContradiction fun hnot => ?_
        have := hout n hn hg hnot
        rw [h2] at this; simp at this
      · omega
    · have := stableSort_pairwise (le := fun a b : Node => decide (a.cmpByDistance b id ≠ .gt))
        (by intro a b c; rw [cmpByDistance_le, cmpByDistance_le, cmpByDistance_le]; omega)
        (by intro a b; rw [Bool.or_eq_true, cmpByDistance_le, cmpByDistance_le]; omega) res
      rw [← hns] at this
      exact this.imp (fun {a b} hab => (cmpByDistance_le a b id).1 hab)
    · intro n hn m hm hgm hnot
      have hn1 := hsub.subset (hperm.mem_iff.1 hn)
      have hm2 := hout m hm hgm (fun hc => hnot (hperm.mem_iff.2 hc))
      obtain ⟨b, hb, hnb⟩ := List.mem_flatMap.1 hn1
      obtain ⟨c, hcc, hmc⟩ := List.mem_flatMap.1 hm2
      exact (List.pairwise_append.1 hord).2.2 b hb c hcc n hnb m hmc

/-- C155: the number of good nodes, counted with readings of the clock between `t0` and `t1`, is at least the number of nodes
that are good at `t1` and at most the number of those that are good at `t0`. -/
theorem C155_count (t : RoutingTable) (exam : Nat → Nat → Nat) (t0 t1 : Nat) (hc : ∀ k i, t0 ≤ exam k i ∧ exam k i ≤ t1) :
    (t.iterNodes.filter (fun n => decide (Good t1 n))).length ≤ t.countGoodNodesAt exam ∧
    t.countGoodNodesAt exam ≤ (t.iterNodes.filter (fun n => decide (Good t0 n))).length := by
  have slots : ∀ (e : Nat → Nat) (_ : ∀ i, t0 ≤ e i ∧ e i ≤ t1) (l : List (Option Node)) (k : Nat),
      ((l.filterMap _root_.id).filter (fun n => decide (Good t1 n))).length ≤ (goodSlotsAt e k l).length ∧
      (goodSlotsAt e k l).length ≤ ((l.filterMap _root_.id).filter (fun n => decide (Good t0 n))).length := by
    intro e he l
    induction l with
    | nil => intro k; simp [goodSlotsAt]
    | cons s l ih =>
      intro k
      have ih := ih (k + 1)
      simp only [goodSlotsAt]
      cases s with
      | none => simpa [slotGood] using ih
      | some n =>
        simp only [List.filterMap_cons, _root_.id, List.filter_cons, List.length_append, Option.toList_some]
        have up : slotGood (e k) (some n) = true → Good t0 n := fun hg => Good.earlier (slotGood_some.1 hg) (he k).1
        have low : Good t1 n → slotGood (e k) (some n) = true := fun hg => slotGood_some.2 (Good.earlier hg (he k).2)
        by_cases h1 : Good t1 n
        · have h2 := low h1
          have h3 := up h2
          simp only [h1, h2, h3, decide_true, if_true, List.length_cons, List.length_nil]
          omega
        · by_cases h2 : slotGood (e k) (some n) = true
          · have h3 := up h2
            simp only [h1, h2, h3, decide_true, decide_false, if_true, Bool.false_eq_true, if_false, List.length_cons,
              List.length_nil]
            omega
          · simp only [h1, h2, decide_false, Bool.false_eq_true, if_false, List.length_nil]
            split
            · rw [List.length_cons]; omega
            · omega
  have buckets : ∀ (L : List Bucket) (k : Nat),
      ((L.flatMap Bucket.nodes).filter (fun n => decide (Good t1 n))).length ≤ (countsAt exam k L).sum ∧
      (countsAt exam k L).sum ≤ ((L.flatMap Bucket.nodes).filter (fun n => decide (Good t0 n))).length := by
    intro L
    induction L with
    | nil => intro k; simp [countsAt]
    | cons b L ih =>
      intro k
      have ih := ih (k + 1)
      have hb := slots (exam k) (hc k) b.data 0
      simp only [countsAt, List.flatMap_cons, List.filter_append, List.length_append, List.sum_cons]
      show _ ≤ (goodSlotsAt (exam k) 0 b.data).length + _ ∧ (goodSlotsAt (exam k) 0 b.data).length + _ ≤ _
      unfold Bucket.nodes at *
      omega
  exact buckets t.data 0

/-! ## Concrete cases -/

/-- A clock that runs while the slots are looked at, from 15 minutes onwards, in steps of `k`. -/
def runningClock (k : Nat) : TouchClock := ⟨fun _ i => fifteenMinutes + k * (i % 8), fifteenMinutes + k * 8⟩

theorem runningClock_within (k : Nat) : TouchClock.Within (runningClock k) fifteenMinutes (fifteenMinutes + k * 8) := by
  refine ⟨⟨Nat.le_add_right _ _, Nat.le_refl _⟩, fun _ i => ⟨Nat.le_add_right _ _, Nat.add_le_add_left ?_ _⟩⟩
  exact Nat.mul_le_mul_left _ (by omega)

/-- The hypotheses of `C155_good_stay`, `C155_one_displaced` and `C155_stored` are met, by a table of eight nodes seen at the
times 1 to 8 and a ninth one. If the clock runs slowly, every node is good when it is looked at, and the ninth is refused,
although the first is no longer good at the end. If it runs faster, the second node is displaced, although it was good
at the beginning. -/
theorem C155_meanwhile : ∃ (t slow fast : RoutingTable) (n1 n2 : Node), TimedReachable t ∧ n1 ∈ t.iterNodes ∧
    n2 ∈ t.iterNodes ∧ Good fifteenMinutes n1 ∧ Good fifteenMinutes n2 ∧ ¬ Known t (demoId 0x80#8 0#8) ∧
    t.touchNodeAt (runningClock 1) (demoId 0x80#8 0#8) (demoAddr 9) = .ok slow ∧ ¬ Known slow (demoId 0x80#8 0#8) ∧
    ¬ Good (fifteenMinutes + 1 * 8) n1 ∧
    t.touchNodeAt (runningClock 3) (demoId 0x80#8 0#8) (demoAddr 9) = .ok fast ∧ Known fast (demoId 0x80#8 0#8) ∧
    ¬ Known fast n2.id ∧ ¬ Good (fifteenMinutes + 3 * 8) n2 := by
  have h : (match sightings (default (demoId 0#8 0#8)) eightNear with
    | .ok t => match t.touchNodeAt (runningClock 1) (demoId 0x80#8 0#8) (demoAddr 9) with
      | .ok slow => match t.touchNodeAt (runningClock 3) (demoId 0x80#8 0#8) (demoAddr 9) with
        | .ok fast => decide ((⟨demoId 1#8 0#8, demoAddr 1, some 1⟩ : Node) ∈ t.iterNodes ∧
            (⟨demoId 2#8 0#8, demoAddr 2, some 2⟩ : Node) ∈ t.iterNodes ∧ ¬ Known t (demoId 0x80#8 0#8) ∧
            ¬ Known slow (demoId 0x80#8 0#8) ∧ Known fast (demoId 0x80#8 0#8) ∧ ¬ Known fast (demoId 2#8 0#8))
        | _ => false
      | _ => false
    | _ => false) = true := by decide +kernel
  split at h
  · rename_i t ht
    split at h
    · rename_i slow hslow
      split at h
      · rename_i fast hfast
        obtain ⟨h1, h2, h3, h4, h5, h6⟩ := of_decide_eq_true h
        exact ⟨t, slow, fast, _, _, (C155_still t 0 (demoId 0#8 0#8) (demoAddr 0)).2.2.2 (reachable_sightings _ _ _ (.fresh _) ht), h1, h2,
          by decide +kernel, by decide +kernel, h3, hslow, h4, by decide +kernel, hfast, h5, h6, by decide +kernel⟩
      · cases h
    · cases h
  · cases h

/-- The hypotheses of `C155_closest` and `C155_count` are met: all eight nodes are returned by a slow clock, one by a faster
one. -/
example : ∃ (t : RoutingTable) (slow fast : List Node), TimedReachable t ∧
    t.getClosestNodesAt (runningClock 1).exam (demoId 3#8 0#8) = .ok (some slow) ∧ slow.length = 8 ∧
    t.getClosestNodesAt (runningClock 3).exam (demoId 3#8 0#8) = .ok (some fast) ∧ fast.length = 1 ∧
    t.countGoodNodesAt (runningClock 1).exam = 8 ∧ t.countGoodNodesAt (runningClock 3).exam = 1 := by
  have h : (match sightings (default (demoId 0#8 0#8)) eightNear with
    | .ok t => match t.getClosestNodesAt (runningClock 1).exam (demoId 3#8 0#8) with
      | .ok (some slow) => match t.getClosestNodesAt (runningClock 3).exam (demoId 3#8 0#8) with
        | .ok (some fast) => decide (slow.length = 8 ∧ fast.length = 1 ∧ t.countGoodNodesAt (runningClock 1).exam = 8 ∧
            t.countGoodNodesAt (runningClock 3).exam = 1)
        | _ => false
      | _ => false
    | _ => false) = true := by decide +kernel
  split at h
  · rename_i t ht
    split at h
    · rename_i slow hslow
      split at h
      · rename_i fast hfast
        obtain ⟨h1, h2, h3, h4⟩ := of_decide_eq_true h
        exact ⟨t, slow, fast, (C155_still t 0 (demoId 0#8 0#8) (demoAddr 0)).2.2.2 (reachable_sightings _ _ _ (.fresh _) ht), hslow, h1,
          hfast, h2, h3, h4⟩
      · cases h
    · cases h
  · cases h

end Nargun.RoutingTable
