import Verif.Spec.RoutingTimed
import Verif.Lemmas.TableFile

/-! # Lemmas about the routing table while the clock runs -/

namespace Nargun

open Spec

/-- A node that is good at some time was good before. -/
theorem Good.earlier {a b : Nat} {n : Node} (h : Good b n) (hab : a ≤ b) : Good a n := by
  obtain ⟨s, h1, h2⟩ := h
  exact ⟨s, h1, by omega⟩

theorem firstBadAt_some {exam : Nat → Nat} {l : List (Option Node)} : ∀ {k i : Nat}, firstBadAt exam k l = some i →
    ∃ s, k ≤ i ∧ l[i - k]? = some s ∧ slotGood (exam i) s = false := by
  induction l with
  | nil => intro k i h; cases h
  | cons s l ih =>
    intro k i h
    simp only [firstBadAt] at h
    split at h
    · obtain ⟨s', h1, h2, h3⟩ := ih h
      refine ⟨s', by omega, ?_, h3⟩
      rw [show i - k = i - (k + 1) + 1 by omega, List.getElem?_cons_succ]
      exact h2
    · next hg =>
      cases h
      exact ⟨s, Nat.le_refl _, by simp, by simpa using hg⟩

theorem firstBadAt_none {exam : Nat → Nat} {l : List (Option Node)} : ∀ {k : Nat}, firstBadAt exam k l = none →
    ∀ s ∈ l, ∃ i, slotGood (exam i) s = true := by
  induction l with
  | nil => intro k _ s hs; cases hs
  | cons s l ih =>
    intro k h x hx
    simp only [firstBadAt] at h
    split at h
    · next hg =>
      rcases List.mem_cons.mp hx with rfl | hx
      · exact ⟨k, hg⟩
      · exact ih h x hx
    · cases h

/-- The nodes found good were good when they were looked at; the others were not. -/
theorem goodSlotsAt_spec (exam : Nat → Nat) (l : List (Option Node)) : ∀ k,
    (goodSlotsAt exam k l).Sublist (l.filterMap id) ∧
    (∀ n ∈ goodSlotsAt exam k l, ∃ i, Good (exam i) n) ∧
    ∀ n, some n ∈ l → n ∉ goodSlotsAt exam k l → ∃ i, ¬ Good (exam i) n := by
  induction l with
  | nil => intro k; exact ⟨.slnil, fun n hn => by simp [goodSlotsAt] at hn, fun n hn => by simp at hn⟩
  | cons s l ih =>
    intro k
    obtain ⟨h1, h2, h3⟩ := ih (k + 1)
    simp only [goodSlotsAt]
    cases s with
    | none =>
      simp only [slotGood, Bool.false_eq_true, if_false, List.nil_append, List.filterMap_cons, _root_.id]
      refine ⟨h1, h2, fun n hn => h3 n ?_⟩
      simpa using hn
    | some m =>
      simp only [List.filterMap_cons, _root_.id]
      by_cases hg : slotGood (exam k) (some m) = true
      · rw [if_pos hg]
        simp only [Option.toList_some, List.cons_append, List.nil_append]
        refine ⟨h1.cons_cons _, fun n hn => ?_, fun n hn hnot => ?_⟩
        · rcases List.mem_cons.mp hn with rfl | hn
          · exact ⟨k, slotGood_some.1 hg⟩
          · exact h2 n hn
        · rw [List.mem_cons, not_or] at hnot
          refine h3 n ?_ hnot.2
          rcases List.mem_cons.mp hn with he | hn
          · exact absurd (Option.some.inj he) hnot.1
          · exact hn
      · rw [if_neg hg, List.nil_append]
        refine ⟨h1.cons _, h2, fun n hn hnot => ?_⟩
        rcases List.mem_cons.mp hn with he | hn
        · cases he; exact ⟨k, fun hc => hg (slotGood_some.2 hc)⟩
        · exact h3 n hn hnot

theorem firstBadAt_const (now : Nat) (l : List (Option Node)) : ∀ k,
    firstBadAt (fun _ => now) k l = (l.findIdx? (fun s => !slotGood now s)).map (· + k) := by
  induction l with
  | nil => intro k; rfl
  | cons s l ih =>
    intro k
    simp only [firstBadAt, List.findIdx?_cons]
    cases slotGood now s with
    | true =>
      simp only [if_true, ih, Bool.not_true, Bool.false_eq_true, if_false, Option.map_map]
      congr 1
      funext x
      simp only [Function.comp_apply]
      omega
    | false => simp

theorem goodSlotsAt_const (now : Nat) (l : List (Option Node)) : ∀ k,
    goodSlotsAt (fun _ => now) k l = (l.filter (slotGood now)).filterMap id := by
  induction l with
  | nil => intro k; rfl
  | cons s l ih =>
    intro k
    simp only [goodSlotsAt, ih, List.filter_cons]
    cases hg : slotGood now s with
    | true =>
      cases s with
      | none => simp [slotGood] at hg
      | some n => simp
    | false => simp

namespace Bucket

/-- Inserting a node with an unknown id: either it takes a vacant slot or that of a node that was not good when it was looked
at, or all eight slots hold nodes that were good when they were looked at. -/
theorem tryInsertAt_spec {b : Bucket} {exam : Nat → Nat} {stamp : Nat} {id : ID} {addr : SockAddr}
    (hu : ∀ n ∈ b.nodes, n.id ≠ id) :
    (∃ b' rest, ∃ old : Option Node, b.tryInsertAt exam stamp id addr = .ok b' ∧ b'.depth = b.depth ∧
        b.nodes.Perm (old.toList ++ rest) ∧ b'.nodes.Perm (Node.newGood stamp id addr :: rest) ∧
        (∀ o ∈ old, ∃ i, ¬ Good (exam i) o) ∧ (old ≠ none → b.nodes.length = 8)) ∨
    (b.tryInsertAt exam stamp id addr = .err ∧ b.nodes.length = 8 ∧ ∀ n ∈ b.nodes, ∃ i, Good (exam i) n) := by
  have ht := (touch_none_iff (now := stamp)).2 hu
  have hdec : ∀ (i : Nat) (s : Option Node), i < 8 → b.data[i]? = some s →
      ∃ b' rest, b.setSlot i (some (Node.newGood stamp id addr)) = .ok b' ∧ b'.depth = b.depth ∧
        b.nodes.Perm (s.toList ++ rest) ∧ b'.nodes.Perm (Node.newGood stamp id addr :: rest) := by
    intro i s hi hs
    obtain ⟨pre, post, h1, h2, _⟩ := set_decomp _ _ _ (some (Node.newGood stamp id addr)) hs
    refine ⟨{ b with data := b.data.set i (some (Node.newGood stamp id addr)), len_eq := by simp [b.len_eq] },
      pre.filterMap _root_.id ++ post.filterMap _root_.id, by
      unfold setSlot; rw [if_pos (show i < K_NODE_PER_BUCKET from hi)], rfl, ?_, ?_⟩
    · unfold nodes
      rw [h1]
      cases s with
      | none => simp
      | some n =>
        simp only [List.filterMap_append, List.filterMap_cons, _root_.id, Option.toList_some]
        exact List.perm_middle
    · unfold nodes
      simp only [h2, List.filterMap_append, List.filterMap_cons, _root_.id]
      exact List.perm_middle
  unfold tryInsertAt
  rw [ht]
  simp only
  unfold findReplaceableAt
  cases hv : b.data.findIdx? (fun s => s.isNone) with
  | some i =>
    left
    rw [List.findIdx?_eq_some_iff_getElem] at hv
    obtain ⟨hi, hp, _⟩ := hv
    have hi8 : i < 8 := by have := b.len_eq; unfold K_NODE_PER_BUCKET at this; omega
    have hs : b.data[i] = none := by simpa using hp
    obtain ⟨b', rest, h1, h2, h3, h4⟩ := hdec i none hi8 (by rw [List.getElem?_eq_getElem hi, hs])
    exact ⟨b', rest, none, h1, h2, h3, h4, by simp, by simp⟩
  | none =>
    simp only
    rw [List.findIdx?_eq_none_iff] at hv
    have hall : b.nodes.length = 8 := by
      have hm : ∀ l : List (Option Node), (∀ s ∈ l, s.isNone = false) → (l.filterMap _root_.id).length = l.length := by
        intro l
        induction l with
        | nil => intro _; rfl
        | cons s l ih =>
          intro h
          cases s with
          | none => have := h none (by simp); cases this
          | some n => simp [ih (fun s hs => h s (by simp [hs]))]
      have := hm b.data (fun s hs => by simpa using hv s hs)
      rw [b.len_eq] at this
      exact this
    cases hb : firstBadAt exam 0 b.data with
    | some i =>
      left
      obtain ⟨s, -, hi, hp⟩ := firstBadAt_some hb
      rw [Nat.sub_zero] at hi
      have hi8 : i < 8 := by
        have := b.len_eq; unfold K_NODE_PER_BUCKET at this
        have := (List.getElem?_eq_some_iff.1 hi).1
        omega
      obtain ⟨b', rest, h1, h2, h3, h4⟩ := hdec i s hi8 hi
      refine ⟨b', rest, s, h1, h2, h3, h4, ?_, fun _ => hall⟩
      intro o ho
      refine ⟨i, fun hg => ?_⟩
      have : s = some o := ho
      rw [this, slotGood_some.2 hg] at hp
      cases hp
    | none =>
      right
      refine ⟨rfl, hall, fun n hn => ?_⟩
      obtain ⟨i, hi⟩ := firstBadAt_none hb _ (mem_nodes.1 hn)
      exact ⟨i, slotGood_some.1 hi⟩

theorem findReplaceableAt_still (b : Bucket) (now : Nat) : b.findReplaceableAt (fun _ => now) = b.findReplaceable now := by
  unfold findReplaceableAt findReplaceable
  rw [firstBadAt_const]
  simp only [Nat.add_zero, Option.map_id']
  cases b.data.findIdx? (fun s => s.isNone) <;> rfl

theorem goodsAt_still (b : Bucket) (now : Nat) : b.goodsAt (fun _ => now) = b.goods now := goodSlotsAt_const now b.data 0

theorem goodsAt_spec (b : Bucket) (exam : Nat → Nat) :
    (b.goodsAt exam).Sublist b.nodes ∧ (∀ n ∈ b.goodsAt exam, ∃ i, Good (exam i) n) ∧
    ∀ n ∈ b.nodes, n ∉ b.goodsAt exam → ∃ i, ¬ Good (exam i) n := by
  obtain ⟨h1, h2, h3⟩ := goodSlotsAt_spec exam b.data 0
  exact ⟨h1, h2, fun n hn => h3 n (mem_nodes.1 hn)⟩

end Bucket

namespace RoutingTable

/-- What happens to a table when an unknown node is seen. -/
inductive InsertedAt (t t' : RoutingTable) (clk : TouchClock) (id : ID) (addr : SockAddr) : Prop where
  | stored (old : Option Node) (rest : List Node) :
      t.iterNodes.Perm (old.toList ++ rest) → t'.iterNodes.Perm (Node.newGood clk.stamp id addr :: rest) →
      (∀ o ∈ old, ∃ k i, ¬ Good (clk.exam k i) o) → InsertedAt t t' clk id addr
  | refused (b : Bucket) : t'.iterNodes.Perm t.iterNodes →
      t'.data[responsible t' id]? = some b → b.nodes.length = 8 → (∀ n ∈ b.nodes, ∃ k i, Good (clk.exam k i) n) →
      (responsible t' id + 1 < t'.data.length ∨ sharedPrefix t'.ownId id ≤ t'.data.length - 1) →
      InsertedAt t t' clk id addr

theorem insertNewGoodAt_spec (clk : TouchClock) (id : ID) (addr : SockAddr) (fuel : Nat) : ∀ t : RoutingTable,
    Inv t → (∀ n ∈ t.iterNodes, n.id ≠ id) → 162 ≤ fuel + t.data.length →
    ∃ t', insertNewGoodAt clk id addr fuel t = .ok t' ∧ Inv t' ∧ t'.ownId = t.ownId ∧ InsertedAt t t' clk id addr := by
  induction fuel with
  | zero => intro t h _ hf; have := h.bound; omega
  | succ fuel ih =>
    intro t h hu hf
    obtain ⟨b, hb, hgb⟩ := h.getBucket id
    have hub : ∀ n ∈ b.nodes, n.id ≠ id := fun n hn => hu n (mem_iterNodes.2 ⟨_, _, hb, hn⟩)
    simp only [insertNewGoodAt]
    rcases Bucket.tryInsertAt_spec (exam := clk.exam t.data.length) (stamp := clk.stamp) (addr := addr) hub with
      ⟨b', rest, old, he, hd, hp, hp', hold, _⟩ | ⟨he, hlen, hgood⟩
    · obtain ⟨rest', hr1, hr2⟩ := set_bucket_perm (b' := b') hb
      have htry : t.tryInsertAt clk id addr = .ok { t with data := t.data.set (responsible t id) b' } := by
        unfold RoutingTable.tryInsertAt setBucket
        rw [hgb, Res.ok_bind, he, Res.ok_bind, findBucketIdx_eq h.pos h.bound, Res.ok_bind]
      rw [htry]
      have q1 : t.iterNodes.Perm (old.toList ++ (rest ++ rest')) := by
        rw [← List.append_assoc]; exact hr1.trans (hp.append_right _)
      have q2 : ({ t with data := t.data.set (responsible t id) b' } : RoutingTable).iterNodes.Perm
          (Node.newGood clk.stamp id addr :: (rest ++ rest')) := by
        rw [← List.cons_append]; exact hr2.trans (hp'.append_right _)
      refine ⟨_, rfl, ?_, rfl, .stored old (rest ++ rest') q1 q2 (fun o ho => let ⟨i, hi⟩ := hold o ho; ⟨_, i, hi⟩)⟩
      apply h.set_bucket hb hd
      · intro n hn
        have := hp'.mem_iff.1 hn
        rcases List.mem_cons.1 this with rfl | hm
        · left; rfl
        · right; exact ⟨n, hp.mem_iff.2 (List.mem_append_right _ hm), rfl⟩
      · apply perm_nodup_ids q2.symm
        have hnd := perm_nodup_ids q1 h.nodup
        rw [List.map_append] at hnd
        have hnd2 := (List.nodup_append.1 hnd).2.1
        rw [List.map_cons, List.nodup_cons]
        refine ⟨?_, hnd2⟩
        intro hc
        obtain ⟨m, hm, hme⟩ := List.mem_map.1 hc
        exact hu m (q1.mem_iff.2 (List.mem_append_right _ hm)) hme
    · have htry : t.tryInsertAt clk id addr = .err := by
        unfold RoutingTable.tryInsertAt
        rw [hgb, Res.ok_bind, he, Res.err_bind]
      rw [htry]
      simp only
      have hpos := h.pos
      have hne : t.data ≠ [] := by intro hc; rw [hc] at hpos; simp at hpos
      have hlastq : t.data.getLast? = some (t.data.getLast hne) := List.getLast?_eq_some_getLast hne
      have hlasti : t.data[t.data.length - 1]? = some (t.data.getLast hne) := by
        rw [← List.getLast?_eq_getElem?]; exact hlastq
      have hld : (t.data.getLast hne).depth = t.data.length - 1 := by
        rw [h.depth _ _ hlasti, if_neg (by omega)]
      have hwithin : t.idWithinSplittable id = .ok (decide (t.data.length - 1 < sharedPrefix t.ownId id)) := by
        unfold idWithinSplittable
        rw [hlastq]
        simp only [Res.unwrap_some, Res.ok_bind]
        unfold Bucket.idWithinRange
        cases hd : t.ownId.firstDiffBitIdx id with
        | none =>
          have hid := ID.firstDiff_eq_none.1 hd
          have hsp := sharedPrefix_of_none hd
          rw [hsp]
          -- a table of 161 buckets has no full last bucket: it can hold only the own id
          have : t.data.length - 1 < 160 := by
            have hb1 := h.bound
            by_cases hc : t.data.length - 1 < 160
            · exact hc
            · exfalso
              have hri : responsible t id = t.data.length - 1 := by unfold responsible; omega
              have hall : ∀ n ∈ b.nodes, n.id = id := by
                intro n hn
                have := h.place _ _ hb n hn
                unfold responsible at this hri
                have h160 := sharedPrefix_le t.ownId n.id
                have : sharedPrefix t.ownId n.id = 160 := by omega
                rw [← sharedPrefix_eq_160.1 this, hid]
              match hbn : b.nodes, hlen with
              | n :: _, _ =>
                have hm : n ∈ b.nodes := by rw [hbn]; simp
                exact hub n hm (hall n hm)
          simp [this]
        | some r =>
          simp only [sharedPrefix_of_some hd, hld]
      rw [hwithin, Res.ok_bind]
      by_cases hw : t.data.length - 1 < sharedPrefix t.ownId id
      · have hsp := sharedPrefix_le t.ownId id
        have hmax : t.maxDepthReached = false := by
          unfold maxDepthReached
          have := h.bound
          simp; omega
        simp only [hw, decide_true, Bool.true_eq_false, if_false, hmax, Bool.false_eq_true]
        obtain ⟨t1, hs, hi, ho, hl, hp⟩ := h.split (by omega)
        rw [hs, Res.ok_bind]
        obtain ⟨t', e1, e2, e3, e4⟩ := ih t1 hi (fun n hn => hu n (hp.mem_iff.1 hn)) (by omega)
        refine ⟨t', e1, e2, e3.trans ho, ?_⟩
        cases e4 with
        | stored old rest p1 p2 p3 => exact .stored old rest (hp.symm.trans p1) p2 p3
        | refused b p1 p2 p3 p4 p5 => exact .refused b (p1.trans hp) p2 p3 p4 p5
      · simp only [hw, decide_false, if_true]
        exact ⟨t, rfl, h, rfl, .refused b (.refl _) hb hlen (fun n hn => let ⟨i, hi⟩ := hgood n hn; ⟨_, i, hi⟩) (Or.inr (by omega))⟩

/-- What one sighting does to a table that satisfies the invariant. -/
theorem Inv.touchNodeAt {t : RoutingTable} (h : Inv t) (clk : TouchClock) (id : ID) (addr : SockAddr) :
    ∃ t', t.touchNodeAt clk id addr = .ok t' ∧ Inv t' ∧ t'.ownId = t.ownId ∧
      ((Known t id ∧ t'.iterNodes = t.iterNodes.map (fun m => if m.id = id then m.touch clk.stamp else m) ∧
          t'.data.length = t.data.length) ∨
       (¬ Known t id ∧ InsertedAt t t' clk id addr)) := by
  obtain ⟨b, hb, hgb⟩ := h.getBucket id
  cases hto : b.touch clk.stamp id with
  | some b' =>
    have heq : t.touchNodeAt clk id addr = t.touchNode clk.stamp id addr := by
      unfold RoutingTable.touchNodeAt RoutingTable.touchNode
      rw [hgb, Res.ok_bind, Res.ok_bind, hto]
    have hknown : Known t id := by
      have : ¬ ∀ n ∈ b.nodes, n.id ≠ id := by
        intro hc; rw [(Bucket.touch_none_iff (now := clk.stamp)).2 hc] at hto; cases hto
      simp only [Classical.not_forall, Classical.not_not] at this
      obtain ⟨n, hn, he⟩ := this
      exact ⟨n, mem_iterNodes.2 ⟨_, _, hb, hn⟩, he⟩
    rw [heq]
    obtain ⟨t', h1, h2, h3, h4⟩ := h.touchNode clk.stamp id addr
    refine ⟨t', h1, h2, h3, ?_⟩
    rcases h4 with h4 | ⟨h4, _⟩
    · exact Or.inl h4
    · exact absurd hknown h4
  | none =>
    have hu : ∀ n ∈ t.iterNodes, n.id ≠ id := by
      intro n hn he
      exact Bucket.touch_none_iff.1 hto n (h.mem_bucket hb hn he) he
    obtain ⟨t', h1, h2, h3, h4⟩ := insertNewGoodAt_spec clk id addr 162 t h hu (by have := h.pos; omega)
    refine ⟨t', ?_, h2, h3, Or.inr ⟨fun ⟨n, hn, he⟩ => hu n hn he, h4⟩⟩
    unfold RoutingTable.touchNodeAt
    rw [hgb, Res.ok_bind, hto]
    exact h1

theorem Inv.of_timedReachable {t : RoutingTable} (h : TimedReachable t) : Inv t := by
  induction h with
  | fresh own => exact Inv.default own
  | sighting t t' clk id addr _ he ih =>
    obtain ⟨t1, h1, h2, _⟩ := ih.touchNodeAt clk id addr
    rw [h1] at he
    cases he
    exact h2
  | restart t t' fresh _ he ih =>
    rw [newTable_afterStore ih] at he
    cases he
    exact ih.forgetSeen

theorem tryInsertAt_still (t : RoutingTable) (now : Nat) (id : ID) (addr : SockAddr) :
    t.tryInsertAt (.still now) id addr = t.tryInsert now id addr := by
  unfold RoutingTable.tryInsertAt RoutingTable.tryInsert Bucket.tryInsertAt Bucket.tryInsert TouchClock.still
  simp only [Bucket.findReplaceableAt_still]
  rfl

theorem insertNewGoodAt_still (now : Nat) (id : ID) (addr : SockAddr) (fuel : Nat) : ∀ t : RoutingTable,
    insertNewGoodAt (.still now) id addr fuel t = insertNewGood now id addr fuel t := by
  induction fuel with
  | zero => intro t; rfl
  | succ fuel ih =>
    intro t
    simp only [insertNewGoodAt, insertNewGood, tryInsertAt_still, ih]
    rfl

theorem collectGoodsAt_still (now : Nat) (L : List Bucket) : ∀ (k : Nat) (acc : List Node),
    collectGoodsAt (fun _ _ => now) k acc L = collectGoods now acc L := by
  induction L with
  | nil => intro k acc; rfl
  | cons b L ih => intro k acc; simp only [collectGoodsAt, collectGoods, Bucket.goodsAt_still, ih]

end RoutingTable
end Nargun
