import Verif.Lemmas.TableFile

/-! # C64–C70, C90: the routing table -/

namespace Nargun
open Spec RoutingTable

/-- C64: between 1 and 161 buckets; at most 8 nodes in each; every node is in the bucket given by the length of the
prefix it shares with the own id (capped at the last bucket); no id occurs twice. -/
theorem C64_shape (t : RoutingTable) (h : Reachable t) :
    1 ≤ t.data.length ∧ t.data.length ≤ 161 ∧
    (∀ (i : Nat) (b : Bucket), t.data[i]? = some b → b.nodes.length ≤ 8 ∧
      ∀ n ∈ b.nodes, min (sharedPrefix t.ownId n.id) (t.data.length - 1) = i) ∧
    (t.iterNodes.map (·.id)).Nodup := by
  have hi := Inv.of_reachable h
  exact ⟨hi.pos, hi.bound, fun i b hb => ⟨b.nodes_length_le, hi.place i b hb⟩, hi.nodup⟩

/-- C64: a sighting never crashes, whatever the node, its address and the time. -/
theorem C64_sighting_total (t : RoutingTable) (h : Reachable t) (now : Nat) (id : ID) (addr : SockAddr) :
    ∃ t', t.touchNode now id addr = .ok t' ∧ t'.ownId = t.ownId := by
  obtain ⟨t', h1, _, h2, _⟩ := (Inv.of_reachable h).touchNode now id addr
  exact ⟨t', h1, h2⟩

/-- C65: `contains_node` answers whether the node is stored. -/
theorem C65_contains (t : RoutingTable) (h : Reachable t) (id : ID) :
    ∃ a, t.containsNode id = .ok a ∧ (a = true ↔ Known t id) := by
  have hi := Inv.of_reachable h
  obtain ⟨b, hb, hgb⟩ := hi.getBucket id
  refine ⟨b.contains id, by unfold containsNode; rw [hgb, Res.ok_bind], ?_⟩
  unfold Bucket.contains
  rw [Option.isSome_iff_ne_none, ne_eq, Bucket.getNode_eq_none]
  constructor
  · intro hc
    simp only [Classical.not_forall, Classical.not_not] at hc
    obtain ⟨n, hn, he⟩ := hc
    exact ⟨n, mem_iterNodes.2 ⟨_, _, hb, hn⟩, he⟩
  · rintro ⟨n, hn, he⟩ hc
    exact hc n (hi.mem_bucket hb hn he) he

theorem nodup_ids_inj {l : List Node} (h : (l.map (·.id)).Nodup) {a b : Node} (ha : a ∈ l) (hb : b ∈ l)
    (he : a.id = b.id) : a = b := by
  induction l with
  | nil => cases ha
  | cons x l ih =>
    rw [List.map_cons, List.nodup_cons] at h
    rcases List.mem_cons.1 ha with rfl | ha' <;> rcases List.mem_cons.1 hb with rfl | hb'
    · rfl
    · exact absurd (he ▸ List.mem_map_of_mem hb') h.1
    · exact absurd (he ▸ List.mem_map_of_mem ha') h.1
    · exact ih h.2 ha' hb'

/-- C65: a find for a stored id returns exactly the stored node, at any time. -/
theorem C65_find_exact (t : RoutingTable) (h : Reachable t) (now : Nat) (n : Node) (hn : n ∈ t.iterNodes) :
    t.findNode now n.id = .ok (some (.exact n)) := by
  have hi := Inv.of_reachable h
  obtain ⟨b, hb, hgb⟩ := hi.getBucket n.id
  unfold findNode
  rw [hgb, Res.ok_bind]
  have hm := hi.mem_bucket hb hn rfl
  cases hg : b.getNode n.id with
  | none => exact absurd rfl (Bucket.getNode_eq_none.1 hg n hm)
  | some m =>
    have := Bucket.getNode_some hg
    rw [nodup_ids_inj (hi.bucket_nodup hb) this.1 hm this.2]

/-- C65: a sighting of a stored node refreshes that node, keeps its address, and changes nothing else. -/
theorem C65_refresh (t : RoutingTable) (h : Reachable t) (now : Nat) (id : ID) (addr : SockAddr) (hk : Known t id) :
    ∃ t', t.touchNode now id addr = .ok t' ∧ t'.data.length = t.data.length ∧
      t'.iterNodes = t.iterNodes.map (fun m => if m.id = id then ⟨m.id, m.addr, some now⟩ else m) := by
  obtain ⟨t', h1, _, _, h2⟩ := (Inv.of_reachable h).touchNode now id addr
  rcases h2 with ⟨_, h3, h4⟩ | ⟨h3, _⟩
  · exact ⟨t', h1, h4, h3⟩
  · exact absurd hk h3

/-- C66: whoever is seen, every node that is good at that time stays in the table, with its address, and still
good. -/
theorem C66_good_stay (t t' : RoutingTable) (h : Reachable t) (now : Nat) (id : ID) (addr : SockAddr)
    (he : t.touchNode now id addr = .ok t') (n : Node) (hn : n ∈ t.iterNodes) (hg : Good now n) :
    ∃ n' ∈ t'.iterNodes, n'.id = n.id ∧ n'.addr = n.addr ∧ Good now n' := by
  obtain ⟨t1, h1, _, _, h2⟩ := (Inv.of_reachable h).touchNode now id addr
  rw [h1] at he; cases he
  rcases h2 with ⟨_, h3, _⟩ | ⟨_, h3⟩
  · refine ⟨_, by rw [h3]; exact List.mem_map_of_mem hn, ?_⟩
    by_cases hid : n.id = id
    · rw [if_pos hid]
      exact ⟨rfl, rfl, now, rfl, by rw [Nat.sub_self]; decide⟩
    · rw [if_neg hid]; exact ⟨rfl, rfl, hg⟩
  · cases h3 with
    | stored old rest p1 p2 p3 =>
      rcases List.mem_append.1 (p1.mem_iff.1 hn) with ho | hr
      · exact absurd hg (p3 n (by simpa using ho))
      · exact ⟨n, p2.mem_iff.2 (List.mem_cons_of_mem _ hr), rfl, rfl, hg⟩
    | refused b p1 => exact ⟨n, p1.mem_iff.2 hn, rfl, rfl, hg⟩

/-- C66: one sighting displaces at most one node, and one that is not good; and the table afterwards holds nothing
but nodes it held before and the node seen. -/
theorem C66_one_displaced (t t' : RoutingTable) (h : Reachable t) (now : Nat) (id : ID) (addr : SockAddr)
    (he : t.touchNode now id addr = .ok t') :
    (∃ lost : Option Node, (∀ o, lost = some o → ¬ Good now o) ∧
      ∀ n ∈ t.iterNodes, lost = some n ∨ Known t' n.id) ∧
    ∀ n ∈ t'.iterNodes, n ∈ t.iterNodes ∨ n.id = id ∧ n.lastSeen = some now := by
  obtain ⟨t1, h1, _, _, h2⟩ := (Inv.of_reachable h).touchNode now id addr
  rw [h1] at he; cases he
  rcases h2 with ⟨_, h3, _⟩ | ⟨_, h3⟩
  · constructor
    · refine ⟨none, by simp, fun n hn => Or.inr ⟨_, by rw [h3]; exact List.mem_map_of_mem hn, ?_⟩⟩
      split <;> rfl
    · intro n hn
      rw [h3] at hn
      obtain ⟨m, hm, rfl⟩ := List.mem_map.1 hn
      by_cases hid : m.id = id
      · rw [if_pos hid]; exact Or.inr ⟨hid, rfl⟩
      · rw [if_neg hid]; exact Or.inl hm
  · cases h3 with
    | stored old rest p1 p2 p3 =>
      constructor
      · refine ⟨old, fun o ho => p3 o ho, fun n hn => ?_⟩
        rcases List.mem_append.1 (p1.mem_iff.1 hn) with ho | hr
        · left; simpa using ho
        · right; exact ⟨n, p2.mem_iff.2 (List.mem_cons_of_mem _ hr), rfl⟩
      · intro n hn
        rcases List.mem_cons.1 (p2.mem_iff.1 hn) with rfl | hr
        · exact Or.inr ⟨rfl, rfl⟩
        · exact Or.inl (p1.mem_iff.2 (List.mem_append_right _ hr))
    | refused b p1 =>
      exact ⟨⟨none, by simp, fun n hn => Or.inr ⟨n, p1.mem_iff.2 hn, rfl⟩⟩, fun n hn => Or.inl (p1.mem_iff.1 hn)⟩

/-- C67 (partial): an unknown node is stored with its address and the time of the sighting, unless (after any
splitting) the bucket responsible for it holds 8 good nodes and is either not the last bucket — the one that covers
the own id — or is the last bucket and the node shares with the own id no more than the bucket's own prefix.

The full claim has no second exception: a last bucket that is full can be split to make room.  See
`C67_refused_violated`. -/
theorem C67_stored_partial (t t' : RoutingTable) (h : Reachable t) (now : Nat) (id : ID) (addr : SockAddr)
    (hu : ¬ Known t id) (he : t.touchNode now id addr = .ok t') :
    (⟨id, addr, some now⟩ : Node) ∈ t'.iterNodes ∨
    ∃ b, t'.data[responsible t' id]? = some b ∧ b.nodes.length = 8 ∧ (∀ n ∈ b.nodes, Good now n) ∧
      (responsible t' id + 1 < t'.data.length ∨ sharedPrefix t'.ownId id ≤ t'.data.length - 1) := by
  obtain ⟨t1, h1, _, _, h2⟩ := (Inv.of_reachable h).touchNode now id addr
  rw [h1] at he; cases he
  rcases h2 with ⟨h3, _⟩ | ⟨_, h3⟩
  · exact absurd h3 hu
  · cases h3 with
    | stored old rest p1 p2 p3 => left; exact p2.mem_iff.2 (by simp [Node.newGood])
    | refused b p1 p2 p3 p4 p5 => exact Or.inr ⟨b, p2, p3, p4, p5⟩

/-- A sequence of sightings, one after another. -/
def sightings (t : RoutingTable) : List (Nat × ID × SockAddr) → Res RoutingTable
  | [] => .ok t
  | (now, id, addr) :: l => do
    let t' ← t.touchNode now id addr
    sightings t' l

theorem reachable_sightings (l : List (Nat × ID × SockAddr)) : ∀ t t', Reachable t → sightings t l = .ok t' →
    Reachable t' := by
  induction l with
  | nil => intro t t' h he; cases he; exact h
  | cons a l ih =>
    intro t t' h he
    obtain ⟨now, id, addr⟩ := a
    simp only [sightings] at he
    obtain ⟨t1, h1, h2⟩ := Res.bind_eq_ok.1 he
    exact ih t1 t' (.sighting t t1 now id addr h h1) h2

/-- An id with two given leading bytes, for concrete cases. -/
def demoId (x y : Byte) : ID := ⟨x :: y :: List.replicate 18 0#8, by simp [ID_LEN]⟩
/-- An address for concrete cases. -/
def demoAddr (p : Nat) : SockAddr := ⟨⟨10#8, 0#8, 0#8, 1#8⟩, BitVec.ofNat 16 p⟩

instance (t : RoutingTable) (id : ID) : Decidable (Known t id) :=
  decidable_of_iff (t.iterNodes.any (fun n => decide (n.id = id)) = true) (by simp [Known])

/-- Eight nodes in the half of the id space that contains the own id `0…`. -/
def eightNear : List (Nat × ID × SockAddr) :=
  [1, 2, 3, 4, 5, 6, 7, 8].map (fun k => (k, demoId (BitVec.ofNat 8 k) 0#8, demoAddr k))

/-- C67 is violated: with one bucket — which covers the own id, so it can be split — full of 8 nodes that share the
own id's first bit, an unknown node with the other first bit is dropped although splitting would leave its half of
the bucket empty. -/
theorem C67_refused_violated :
    ∃ (t t' : RoutingTable) (now : Nat) (id : ID) (addr : SockAddr), Reachable t ∧ ¬ Known t id ∧
      t.touchNode now id addr = .ok t' ∧ ¬ Known t' id ∧ t.data.length = 1 ∧
      ∀ n ∈ t.iterNodes, sharedPrefix t.ownId n.id ≠ sharedPrefix t.ownId id := by
  have h : (match sightings (default (demoId 0#8 0#8)) eightNear with
    | .ok t => match t.touchNode 9 (demoId 0x80#8 0#8) (demoAddr 9) with
      | .ok t' => decide (¬ Known t (demoId 0x80#8 0#8) ∧ ¬ Known t' (demoId 0x80#8 0#8) ∧ t.data.length = 1 ∧
          ∀ n ∈ t.iterNodes, sharedPrefix t.ownId n.id ≠ sharedPrefix t.ownId (demoId 0x80#8 0#8))
      | _ => false
    | _ => false) = true := by decide +kernel
  split at h
  · rename_i t ht
    split at h
    · rename_i t' ht'
      obtain ⟨h1, h2, h3, h4⟩ := of_decide_eq_true h
      exact ⟨t, t', 9, _, _, reachable_sightings _ _ _ (.fresh _) ht, h1, ht', h2, h3, h4⟩
    · cases h
  · cases h


/-! ### Closest nodes -/

theorem insertSorted_perm {α} (le : α → α → Bool) (x : α) (l : List α) : (insertSorted le x l).Perm (x :: l) := by
  induction l with
  | nil => exact .refl _
  | cons y l ih =>
    simp only [insertSorted]
    split
    · exact .refl _
    · exact (ih.cons y).trans (.swap x y l)

theorem stableSort_perm {α} (le : α → α → Bool) (l : List α) : (stableSort le l).Perm l := by
  induction l with
  | nil => exact .refl _
  | cons x l ih => exact (insertSorted_perm le x _).trans (ih.cons x)

theorem stableSort_pairwise {α} {le : α → α → Bool} (ht : ∀ a b c, le a b = true → le b c = true → le a c = true)
    (hc : ∀ a b, (le a b || le b a) = true) (l : List α) : (stableSort le l).Pairwise (fun a b => le a b = true) := by
  have ins : ∀ (x : α) (l : List α), l.Pairwise (fun a b => le a b = true) →
      (insertSorted le x l).Pairwise (fun a b => le a b = true) := by
    intro x l
    induction l with
    | nil => intro _; simp [insertSorted]
    | cons y l ih =>
      intro h
      rw [List.pairwise_cons] at h
      simp only [insertSorted]
      by_cases hxy : le x y = true
      · rw [if_pos hxy, List.pairwise_cons, List.pairwise_cons]
        refine ⟨fun z hz => ?_, h.1, h.2⟩
        rcases List.mem_cons.1 hz with rfl | hz
        · exact hxy
        · exact ht x y z hxy (h.1 z hz)
      · rw [if_neg hxy, List.pairwise_cons]
        refine ⟨fun z hz => ?_, ih h.2⟩
        rcases List.mem_cons.1 ((insertSorted_perm le x l).mem_iff.1 hz) with rfl | hz
        · have := hc z y
          rw [Bool.or_eq_true] at this
          rcases this with h1 | h1
          · exact absurd h1 hxy
          · exact h1
        · exact h.1 z hz
  induction l with
  | nil => exact .nil
  | cons x l ih => exact ins x _ ih

theorem collectGoods_spec (now : Nat) (L : List Bucket) : ∀ acc : List Node,
    ∃ L1 L2, L = L1 ++ L2 ∧ collectGoods now acc L = acc ++ L1.flatMap (fun b => b.goods now) ∧
      (L2 = [] ∨ 8 ≤ (collectGoods now acc L).length) ∧ (acc.length < 8 → (collectGoods now acc L).length ≤ 15) := by
  induction L with
  | nil => intro acc; exact ⟨[], [], rfl, by simp [collectGoods], Or.inl rfl, fun h => by simp [collectGoods]; omega⟩
  | cons b L ih =>
    intro acc
    have hg : (b.goods now).length ≤ 8 := by
      rw [Bucket.goods_eq]
      exact Nat.le_trans (List.length_filter_le _ _) b.nodes_length_le
    have hk : K_NODE_PER_BUCKET = 8 := rfl
    simp only [collectGoods]
    rw [hk]
    by_cases hc : (acc ++ b.goods now).length ≥ 8
    · rw [if_pos hc]
      refine ⟨[b], L, rfl, by simp, Or.inr hc, fun h => ?_⟩
      rw [List.length_append]; omega
    · rw [if_neg hc]
      obtain ⟨L1, L2, h1, h2, h3, h4⟩ := ih (acc ++ b.goods now)
      exact ⟨b :: L1, L2, by rw [h1]; rfl, by rw [h2]; simp, h3, fun _ => h4 (by omega)⟩

theorem sp_bits {a b : ID} {k : Nat} (h : k ≤ sharedPrefix a b) (i : Nat) (hi : i < k) : idBit a i = idBit b i :=
  (le_sharedPrefix (Nat.le_trans h (sharedPrefix_le a b))).1 h i hi

/-- Two ids that share at least `k` bits with a third share at least `k` bits. -/
theorem sp_trans {o a b : ID} {k : Nat} (ha : k ≤ sharedPrefix o a) (hb : k ≤ sharedPrefix o b) :
    k ≤ sharedPrefix a b := by
  rw [le_sharedPrefix (Nat.le_trans ha (sharedPrefix_le o a))]
  intro i hi
  rw [← sp_bits ha i hi, sp_bits hb i hi]

/-- If `a` shares more with `o` than `b` does, then `a` and `b` share what `o` and `b` share. -/
theorem sp_lt {o a b : ID} (h : sharedPrefix o b < sharedPrefix o a) : sharedPrefix a b = sharedPrefix o b := by
  apply Nat.le_antisymm
  · apply Nat.le_of_not_lt
    intro hc
    have h1 : sharedPrefix o b + 1 ≤ sharedPrefix a o := by rw [sharedPrefix_comm a o]; omega
    have h2 : sharedPrefix o b + 1 ≤ sharedPrefix a b := hc
    have := sp_trans h1 h2
    omega
  · exact sp_trans (o := o) (Nat.le_of_lt h) (Nat.le_refl _)

/-- Two ids whose first difference from `o` is at the same bit agree there. -/
theorem sp_eq {o a b : ID} (h : sharedPrefix o a = sharedPrefix o b) (hlt : sharedPrefix o a < 160) :
    sharedPrefix o a + 1 ≤ sharedPrefix a b := by
  rw [le_sharedPrefix (by omega)]
  intro i hi
  by_cases hie : i = sharedPrefix o a
  · have ha : idBit o i ≠ idBit a i := by
      intro hc
      have : sharedPrefix o a + 1 ≤ sharedPrefix o a := by
        rw [le_sharedPrefix (by omega)]
        intro j hj
        by_cases hje : j = i
        · rw [hje]; exact hc
        · exact sp_bits (Nat.le_refl _) j (by omega)
      omega
    have hb : idBit o i ≠ idBit b i := by
      intro hc
      have : sharedPrefix o b + 1 ≤ sharedPrefix o b := by
        rw [le_sharedPrefix (by omega)]
        intro j hj
        by_cases hje : j = i
        · rw [hje]; exact hc
        · exact sp_bits (Nat.le_refl _) j (by omega)
      omega
    revert ha hb
    cases idBit o i <;> cases idBit a i <;> cases idBit b i <;> simp
  · rw [← sp_bits (Nat.le_refl (sharedPrefix o a)) i (by omega), sp_bits (a := o) (b := b) (Nat.le_refl _) i (by omega)]

/-- How much a node of bucket `k` shares with the target. -/
theorem bucket_class {t : RoutingTable} (h : Inv t) {k : Nat} {b : Bucket} (hb : t.data[k]? = some b) {n : Node}
    (hn : n ∈ b.nodes) (id : ID) :
    (k = responsible t id → responsible t id ≤ sharedPrefix n.id id) ∧
    (responsible t id < k → sharedPrefix n.id id = responsible t id) ∧
    (k < responsible t id → sharedPrefix n.id id = k) := by
  have hp := h.place k b hb n hn
  have hk := (List.getElem?_eq_some_iff.1 hb).1
  unfold responsible at hp ⊢
  refine ⟨?_, ?_, ?_⟩
  · intro hk2
    exact sp_trans (o := t.ownId) (by omega) (by omega)
  · intro hlt
    have h1 : sharedPrefix t.ownId id < sharedPrefix t.ownId n.id := by omega
    rw [sp_lt h1]; omega
  · intro hlt
    have h1 : sharedPrefix t.ownId n.id < sharedPrefix t.ownId id := by omega
    rw [sharedPrefix_comm, sp_lt h1]; omega

/-- The order in which the buckets are visited is by decreasing length of the prefix shared with the target. -/
theorem visit_order {t : RoutingTable} (h : Inv t) (id : ID) :
    (t.data.drop (responsible t id) ++ (t.data.take (responsible t id)).reverse).Pairwise
      (fun b c => ∀ n ∈ b.nodes, ∀ m ∈ c.nodes, sharedPrefix m.id id ≤ sharedPrefix n.id id) := by
  generalize hr : responsible t id = r
  have cls : ∀ (k : Nat) (b : Bucket), t.data[k]? = some b → ∀ n ∈ b.nodes,
      (k = r → r ≤ sharedPrefix n.id id) ∧ (r < k → sharedPrefix n.id id = r) ∧ (k < r → sharedPrefix n.id id = k) := by
    intro k b hb n hn
    have := bucket_class h hb hn id
    rw [hr] at this
    exact this
  rw [List.pairwise_append]
  refine ⟨?_, ?_, ?_⟩
  · rw [List.pairwise_iff_getElem]
    intro i j hi hj hij n hn m hm
    simp only [List.length_drop] at hi hj
    rw [List.getElem_drop] at hn hm
    have c1 := cls (r + i) _ (List.getElem?_eq_getElem (by omega)) n hn
    have c2 := cls (r + j) _ (List.getElem?_eq_getElem (by omega)) m hm
    have := c2.2.1 (by omega)
    by_cases h0 : i = 0
    · have := c1.1 (by omega); omega
    · have := c1.2.1 (by omega); omega
  · rw [List.pairwise_reverse, List.pairwise_iff_getElem]
    intro i j hi hj hij n hn m hm
    simp only [List.length_take] at hi hj
    rw [List.getElem_take] at hn hm
    have c1 := (cls j _ (List.getElem?_eq_getElem (by omega)) n hn).2.2 (by omega)
    have c2 := (cls i _ (List.getElem?_eq_getElem (by omega)) m hm).2.2 (by omega)
    omega
  · intro b hb c hc n hn m hm
    rw [List.mem_reverse] at hc
    obtain ⟨i, hi, hib⟩ := List.getElem_of_mem hb
    obtain ⟨j, hj, hjc⟩ := List.getElem_of_mem hc
    simp only [List.length_drop, List.length_take] at hi hj
    rw [List.getElem_drop] at hib
    rw [List.getElem_take] at hjc
    have c1 := cls (r + i) b (by rw [List.getElem?_eq_getElem (by omega), hib]) n hn
    have c2 := (cls j c (by rw [List.getElem?_eq_getElem (by omega), hjc]) m hm).2.2 (by omega)
    by_cases h0 : i = 0
    · have := c1.1 (by omega); omega
    · have := c1.2.1 (by omega); omega

theorem cmpByDistance_le (a b : Node) (id : ID) :
    decide (a.cmpByDistance b id ≠ .gt) = true ↔ sharedPrefix b.id id ≤ sharedPrefix a.id id := by
  have hx : ∀ n : Node, bitLen (idNat (n.id.sub id)) = 160 - sharedPrefix n.id id := by
    intro n
    have h1 := (C07_xor_metric n.id id id).1
    rw [h1]
    unfold sharedPrefix
    have : bitLen (dist n.id id) ≤ 160 := by
      apply ID.bitLen_le
      have := (dist_lt_iff n.id id 0 (by omega)).2 (by intro i hi; omega)
      simpa using this
    omega
  unfold Node.cmpByDistance
  rw [ID.cmp_eq_bitLen, hx, hx, decide_eq_true_iff, Nat.compare_ne_gt]
  have := sharedPrefix_le a.id id
  have := sharedPrefix_le b.id id
  omega

/-- C68 (partial): a closest-node query returns good nodes of the table only, each once; all of them if there are
fewer than 8, otherwise at least 8 and at most 15; longer prefixes shared with the target come first; and no good node
that is left out shares a longer prefix with the target than one that is returned.  It returns nothing exactly if the
table has no good node.

The full claim demands exactly 8, ordered by distance, none closer left out; see the `C68_*_violated` theorems. -/
theorem C68_closest_partial (t : RoutingTable) (h : Reachable t) (now : Nat) (id : ID) :
    ∃ o, t.getClosestNodes now id = .ok o ∧ (o = none ↔ ∀ n ∈ t.iterNodes, ¬ Good now n) ∧
      ∀ ns, o = some ns →
        (∀ n ∈ ns, n ∈ t.iterNodes ∧ Good now n) ∧ (ns.map (·.id)).Nodup ∧ ns.length ≤ 15 ∧
        (ns.length < 8 → ∀ n ∈ t.iterNodes, Good now n → n ∈ ns) ∧
        ns.Pairwise (fun a b => sharedPrefix b.id id ≤ sharedPrefix a.id id) ∧
        ∀ n ∈ ns, ∀ m ∈ t.iterNodes, Good now m → m ∉ ns → sharedPrefix m.id id ≤ sharedPrefix n.id id := by
  have hi := Inv.of_reachable h
  have hr : responsible t id ≤ t.data.length := by unfold responsible; omega
  unfold getClosestNodes
  rw [findBucketIdx_eq hi.pos hi.bound, Res.ok_bind, sliceFrom, if_pos hr, Res.ok_bind]
  obtain ⟨L1, L2, hL, hc, hlen, hmax⟩ := collectGoods_spec now
    (t.data.drop (responsible t id) ++ (t.data.take (responsible t id)).reverse) []
  have hord := visit_order hi id
  have hLp : (L1 ++ L2).Perm t.data := by
    rw [← hL]
    refine List.perm_append_comm.trans ?_
    refine ((List.reverse_perm _).append_right _).trans ?_
    rw [List.take_append_drop]
  rw [hL] at hord hc hlen hmax ⊢
  generalize collectGoods now [] (L1 ++ L2) = res at hc hlen hmax ⊢
  rw [List.nil_append] at hc
  have hmem : ∀ n, n ∈ t.iterNodes ↔ n ∈ L1.flatMap Bucket.nodes ∨ n ∈ L2.flatMap Bucket.nodes := by
    intro n
    unfold iterNodes
    rw [← List.mem_append, ← List.flatMap_append]
    exact (hLp.flatMap_right _).mem_iff.symm
  have hres : ∀ n, n ∈ res ↔ n ∈ L1.flatMap Bucket.nodes ∧ Good now n := by
    intro n
    rw [hc]
    simp only [List.mem_flatMap, Bucket.goods_eq, List.mem_filter, decide_eq_true_iff]
    constructor
    · rintro ⟨b, hb, hn, hg⟩; exact ⟨⟨b, hb, hn⟩, hg⟩
    · rintro ⟨⟨b, hb, hn⟩, hg⟩; exact ⟨b, hb, hn, hg⟩
  have hsub : List.Sublist res (L1.flatMap Bucket.nodes) := by
    rw [hc]
    clear hL hc hlen hmax hord hLp hmem hres
    induction L1 with
    | nil => exact .slnil
    | cons b L ih =>
      simp only [List.flatMap_cons]
      apply List.Sublist.append _ ih
      rw [Bucket.goods_eq]
      exact List.filter_sublist
  have hnd : (res.map (·.id)).Nodup := by
    have h1 : ((L1.flatMap Bucket.nodes ++ L2.flatMap Bucket.nodes).map (·.id)).Nodup := by
      rw [← List.flatMap_append]
      exact perm_nodup_ids (hLp.flatMap_right Bucket.nodes).symm hi.nodup
    exact ((hsub.trans (List.sublist_append_left _ _)).map _).nodup h1
  by_cases hne : res = []
  · rw [if_neg (by simpa using hne)]
    refine ⟨none, rfl, ⟨fun _ n hn hg => ?_, fun _ => rfl⟩, by simp⟩
    rcases hlen with h2 | h8
    · subst h2
      rcases (hmem n).1 hn with hm | hm
      · have := (hres n).2 ⟨hm, hg⟩
        rw [hne] at this; cases this
      · simp at hm
    · rw [hne] at h8; simp at h8
  · rw [if_pos hne]
    refine ⟨_, rfl, ⟨by simp, fun hall => ?_⟩, ?_⟩
    · exfalso
      match hq : res, hne with
      | n :: _, _ =>
        have hn : n ∈ res := by rw [hq]; simp
        have := (hres n).1 hn
        exact hall n ((hmem n).2 (Or.inl this.1)) this.2
    · intro ns hns
      have hns := (Option.some.inj hns).symm
      have hperm : ns.Perm res := by rw [hns]; exact stableSort_perm _ _
      refine ⟨fun n hn => ?_, perm_nodup_ids hperm.symm hnd, ?_, ?_, ?_, ?_⟩
      · have := (hres n).1 (hperm.mem_iff.1 hn)
        exact ⟨(hmem n).2 (Or.inl this.1), this.2⟩
      · rw [hperm.length_eq]; exact hmax (by simp)
      · intro hlt n hn hg
        rw [hperm.mem_iff, hres]
        rw [hperm.length_eq] at hlt
        rcases hlen with h2 | h8
        · subst h2
          rcases (hmem n).1 hn with hm | hm
          · exact ⟨hm, hg⟩
          · simp at hm
        · omega
      · have := stableSort_pairwise (le := fun a b : Node => decide (a.cmpByDistance b id ≠ .gt))
          (by intro a b c; rw [cmpByDistance_le, cmpByDistance_le, cmpByDistance_le]; omega)
          (by intro a b; rw [Bool.or_eq_true, cmpByDistance_le, cmpByDistance_le]; omega) res
        rw [← hns] at this
        exact this.imp (fun {a b} hab => (cmpByDistance_le a b id).1 hab)
      · intro n hn m hm hgm hnot
        have hn1 := ((hres n).1 (hperm.mem_iff.1 hn)).1
        have hm2 : m ∈ L2.flatMap Bucket.nodes := by
          rcases (hmem m).1 hm with hm1 | hm2
          · exact absurd (hperm.mem_iff.2 ((hres m).2 ⟨hm1, hgm⟩)) hnot
          · exact hm2
        obtain ⟨b, hb, hnb⟩ := List.mem_flatMap.1 hn1
        obtain ⟨c, hcc, hmc⟩ := List.mem_flatMap.1 hm2
        exact (List.pairwise_append.1 hord).2.2 b hb c hcc n hnb m hmc

/-- C68: a find for an id that is not stored is answered by the closest-node query. -/
theorem C68_find_unknown (t : RoutingTable) (h : Reachable t) (now : Nat) (id : ID) (hu : ¬ Known t id) :
    t.findNode now id = (do let o ← t.getClosestNodes now id; .ok (o.map .closest)) := by
  have hi := Inv.of_reachable h
  obtain ⟨b, hb, hgb⟩ := hi.getBucket id
  unfold findNode
  rw [hgb, Res.ok_bind]
  have : b.getNode id = none := by
    rw [Bucket.getNode_eq_none]
    intro n hn he
    exact hu ⟨n, mem_iterNodes.2 ⟨_, _, hb, hn⟩, he⟩
  rw [this]

/-- Own id `0…`; eight nodes close to it, a ninth that splits the table (and is refused), and seven in the other
half. -/
def manyNodes : List (Nat × ID × SockAddr) :=
  eightNear ++ [(9, demoId 9#8 0#8, demoAddr 9)] ++
  [0x87, 0x86, 0x85, 0x84, 0x83, 0x82, 0x81].map (fun k => (10, demoId (BitVec.ofNat 8 k) 0#8, demoAddr k))

/-- C68 is violated: a closest-node query can return 15 nodes. -/
theorem C68_too_many_violated :
    ∃ (t : RoutingTable) (now : Nat) (id : ID) (ns : List Node), Reachable t ∧
      t.getClosestNodes now id = .ok (some ns) ∧ ns.length = 15 := by
  have h : (match sightings (default (demoId 0#8 0#8)) manyNodes with
    | .ok t => match t.getClosestNodes 11 (demoId 0x80#8 0#8) with
      | .ok (some ns) => decide (ns.length = 15)
      | _ => false
    | _ => false) = true := by decide +kernel
  split at h
  · rename_i t ht
    split at h
    · rename_i ns hns
      exact ⟨t, 11, _, ns, reachable_sightings _ _ _ (.fresh _) ht, hns, of_decide_eq_true h⟩
    · cases h
  · cases h

/-- C68 is violated: the nodes returned are not ordered by distance. -/
theorem C68_order_violated :
    ∃ (t : RoutingTable) (now : Nat) (id : ID) (ns : List Node), Reachable t ∧
      t.getClosestNodes now id = .ok (some ns) ∧
      ¬ ns.Pairwise (fun a b => dist a.id id ≤ dist b.id id) := by
  have h : (match sightings (default (demoId 0#8 0#8)) manyNodes with
    | .ok t => match t.getClosestNodes 11 (demoId 0x80#8 0#8) with
      | .ok (some ns) => decide (¬ ns.Pairwise (fun a b => dist a.id (demoId 0x80#8 0#8) ≤ dist b.id (demoId 0x80#8 0#8)))
      | _ => false
    | _ => false) = true := by decide +kernel
  split at h
  · rename_i t ht
    split at h
    · rename_i ns hns
      exact ⟨t, 11, _, ns, reachable_sightings _ _ _ (.fresh _) ht, hns, of_decide_eq_true h⟩
    · cases h
  · cases h

/-- Eight nodes that differ from the own id `0…` at the second bit and one that differs at the third. -/
def twoClasses : List (Nat × ID × SockAddr) :=
  [0x40, 0x41, 0x42, 0x43, 0x44, 0x45, 0x46, 0x47, 0x20].map
    (fun k => (k, demoId (BitVec.ofNat 8 k) 0#8, demoAddr k))

/-- C68 is violated: a good node can be left out although it is closer to the target than all nodes returned. -/
theorem C68_left_out_violated :
    ∃ (t : RoutingTable) (now : Nat) (id : ID) (ns : List Node), Reachable t ∧
      t.getClosestNodes now id = .ok (some ns) ∧
      ∃ m ∈ t.iterNodes, Good now m ∧ m ∉ ns ∧ ∀ n ∈ ns, dist m.id id < dist n.id id := by
  have h : (match sightings (default (demoId 0#8 0#8)) twoClasses with
    | .ok t => match t.getClosestNodes 100 (demoId 0x80#8 0#8) with
      | .ok (some ns) => decide (∃ m ∈ t.iterNodes, Good 100 m ∧ m ∉ ns ∧
          ∀ n ∈ ns, dist m.id (demoId 0x80#8 0#8) < dist n.id (demoId 0x80#8 0#8))
      | _ => false
    | _ => false) = true := by decide +kernel
  split at h
  · rename_i t ht
    split at h
    · rename_i ns hns
      exact ⟨t, 100, _, ns, reachable_sightings _ _ _ (.fresh _) ht, hns, of_decide_eq_true h⟩
    · cases h
  · cases h

/-! ### Refreshing -/

theorem refreshTarget_spec {t : RoutingTable} (h : Inv t) (d : RefreshDraw) {i : Nat} {b : Bucket}
    (hb : t.data[i]? = some b) (hi : i + 1 < t.data.length) :
    (b.isFull d.now = true → refreshTarget t.ownId d b = .ok none) ∧
    (b.isFull d.now = false → ∃ id, refreshTarget t.ownId d b = .ok (some id) ∧ responsible t id = i) := by
  unfold refreshTarget
  refine ⟨fun hf => by rw [if_pos hf], fun hf => ?_⟩
  rw [if_neg (by simp [hf])]
  have hd := h.depth i b hb
  rw [if_pos hi] at hd
  have hbound := h.bound
  rw [hd, usub, if_pos (by omega), Res.ok_bind, Nat.add_sub_cancel]
  obtain ⟨x, hx, hbits⟩ := t.ownId.flipBit_spec i (by omega)
  rw [hx, Res.ok_bind]
  obtain ⟨y, hy, hyb⟩ := ID.randomizeAfterBit_spec d.rndByte d.rndBit x i (by omega)
  rw [hy, Res.ok_bind]
  refine ⟨y, rfl, ?_⟩
  have hsp : sharedPrefix t.ownId y = i := by
    have : t.ownId.firstDiffBitIdx y = some i := by
      rw [ID.firstDiff_eq_some]
      refine ⟨by omega, ?_, fun j hj => ?_⟩
      · rw [hyb i (by omega), if_pos (Nat.le_refl _), hbits i, if_pos rfl]
        cases idBit t.ownId i <;> simp
      · rw [hyb j (by omega), if_pos (by omega), hbits j, if_neg (by omega)]
    exact sharedPrefix_of_some this
  unfold responsible
  omega

theorem refreshTargets_spec {t : RoutingTable} (h : Inv t) (draws : Nat → RefreshDraw) (l : List Bucket) :
    ∀ k, (∀ j (b : Bucket), l[j]? = some b → t.data[k + j]? = some b ∧ k + j + 1 < t.data.length) →
    ∃ ids, refreshTargets t.ownId draws k l = .ok ids ∧
      ids.map (responsible t) = (List.range' k l.length).filter
        (fun i => !((t.data[i]?.map (fun b => b.isFull (draws i).now)).getD false)) := by
  induction l with
  | nil => intro k _; exact ⟨[], rfl, rfl⟩
  | cons b l ih =>
    intro k hk
    have h0 := hk 0 b rfl
    rw [Nat.add_zero] at h0
    obtain ⟨ids, h1, h2⟩ := ih (k + 1) (fun j c hc => by
      have := hk (j + 1) c (by simpa using hc)
      rw [show k + 1 + j = k + (j + 1) by omega]
      exact this)
    have hs := refreshTarget_spec h (draws k) h0.1 h0.2
    simp only [refreshTargets, List.length_cons, List.range'_succ, List.filter_cons, h0.1, Option.map_some, Option.getD_some]
    cases hf : b.isFull (draws k).now with
    | true =>
      rw [hs.1 hf, Res.ok_bind, h1, Res.ok_bind]
      exact ⟨_, rfl, by simpa using h2⟩
    | false =>
      obtain ⟨id, e1, e2⟩ := hs.2 hf
      rw [e1, Res.ok_bind, h1, Res.ok_bind]
      exact ⟨_, rfl, by simp [e2, h2]⟩

theorem fullOfGood_iff (t : RoutingTable) (i now : Nat) :
    FullOfGood t i now ↔ (t.data[i]?.map (fun b => b.isFull now)).getD false = true := by
  unfold FullOfGood
  cases t.data[i]? with
  | none => simp
  | some b => simp [Bucket.isFull_iff]

instance (t : RoutingTable) (i now : Nat) : Decidable (FullOfGood t i now) :=
  decidable_of_iff _ (fullOfGood_iff t i now).symm

theorem fullOfGood_eq (t : RoutingTable) (i now : Nat) :
    decide (FullOfGood t i now) = (t.data[i]?.map (fun b => b.isFull now)).getD false := by
  rw [Bool.eq_iff_iff, decide_eq_true_iff]
  exact fullOfGood_iff t i now

/-- C69: the ids generated for refreshing are, in order, one for each bucket before the last one that does not hold 8
good nodes, each lying in that very bucket; and then the own id for the last bucket. -/
theorem C69_targets (t : RoutingTable) (h : Reachable t) (draws : Nat → RefreshDraw) :
    ∃ ids, t.fillableIds draws =
        .ok (ids ++ if t.data.length ≤ 160 ∨ FullOfGood t (t.data.length - 1) (draws (t.data.length - 1)).now
          then [t.ownId] else []) ∧
      ids.map (responsible t) =
        (List.range (t.data.length - 1)).filter (fun i => decide (¬ FullOfGood t i (draws i).now)) := by
  have hi := Inv.of_reachable h
  have hpos := hi.pos
  obtain ⟨ids, h1, h2⟩ := refreshTargets_spec hi draws (t.data.take (t.data.length - 1)) 0 (by
    intro j b hb
    have hj := (List.getElem?_eq_some_iff.1 hb).1
    rw [List.length_take] at hj
    rw [List.getElem?_take_of_lt (by omega)] at hb
    rw [Nat.zero_add]
    exact ⟨hb, by omega⟩)
  refine ⟨ids, ?_, ?_⟩
  · unfold fillableIds
    rw [usub, if_pos hpos, Res.ok_bind, h1, Res.ok_bind]
    have hne : t.data ≠ [] := by intro hc; rw [hc] at hpos; simp at hpos
    have hl : t.data[t.data.length - 1]? = some (t.data.getLast hne) := by
      rw [← List.getLast?_eq_getElem?]; exact List.getLast?_eq_some_getLast hne
    rw [List.getLast?_eq_some_getLast hne]
    simp only [Option.bind_some]
    have hbc : ID_BIT_COUNT = 160 := rfl
    rw [hbc]
    have hiff : ((t.data.getLast hne).isFull (draws (t.data.length - 1)).now = true) ↔
        FullOfGood t (t.data.length - 1) (draws (t.data.length - 1)).now := by
      have := fullOfGood_eq t (t.data.length - 1) (draws (t.data.length - 1)).now
      rw [hl] at this
      simp only [Option.map_some, Option.getD_some] at this
      rw [← this, decide_eq_true_iff]
    by_cases hc : t.data.length ≤ 160 ∨ FullOfGood t (t.data.length - 1) (draws (t.data.length - 1)).now
    · rw [if_pos hc, if_pos (by rw [hiff]; exact hc)]; rfl
    · rw [if_neg hc, if_neg (by rw [hiff]; exact hc)]; rfl
  · rw [h2, List.length_take, Nat.min_eq_left (by omega), List.range_eq_range']
    apply List.filter_congr
    intro i _
    rw [← fullOfGood_eq, decide_not]

/-- C69: every id in the range of a bucket that is refreshed can be drawn. -/
theorem C69_any_target (t : RoutingTable) (h : Reachable t) (now i : Nat) (b : Bucket)
    (hb : t.data[i]? = some b) (hi : i + 1 < t.data.length) (hf : b.isFull now = false) (target : ID)
    (ht : responsible t target = i) :
    ∃ rndByte rndBit, refreshTarget t.ownId ⟨now, rndByte, rndBit⟩ b = .ok (some target) := by
  have hinv := Inv.of_reachable h
  have hd := hinv.depth i b hb
  rw [if_pos hi] at hd
  have hbound := hinv.bound
  have hsp : sharedPrefix t.ownId target = i := by unfold responsible at ht; omega
  obtain ⟨x, hx, hbits⟩ := t.ownId.flipBit_spec i (by omega)
  have hfd : t.ownId.firstDiffBitIdx target = some i := by
    cases hq : t.ownId.firstDiffBitIdx target with
    | none => rw [sharedPrefix_of_none hq] at hsp; omega
    | some r => rw [sharedPrefix_of_some hq] at hsp; rw [hsp]
  rw [ID.firstDiff_eq_some] at hfd
  obtain ⟨rb, rt, hr⟩ := (C10_randomize x i).2 target (by
    intro j hj
    rw [ID.getBit_of_lt _ _ (by omega), ID.getBit_of_lt _ _ (by omega), hbits j]
    by_cases hje : j = i
    · rw [if_pos hje, hje]
      have := hfd.2.1
      revert this
      cases idBit t.ownId i <;> cases idBit target i <;> simp
    · rw [if_neg hje, hfd.2.2 j (by omega)])
  refine ⟨rb, rt, ?_⟩
  unfold refreshTarget
  rw [if_neg (by simp [hf]), hd, usub, if_pos (by omega), Res.ok_bind, Nat.add_sub_cancel, hx, Res.ok_bind]
  simp only
  rw [hr, Res.ok_bind]

/-! ### The file -/

/-- C70: loading what was stored returns the same own id, buckets, slots, ids and addresses; only the times of the last
sightings are forgotten. -/
theorem C70_restored (t : RoutingTable) (h : Reachable t) (fresh : ID) :
    TableFile.newTable fresh (TableFile.afterStore t) = .ok (tableForgetSeen t) ∧
    (tableForgetSeen t).ownId = t.ownId ∧
    (tableForgetSeen t).data.map (·.depth) = t.data.map (·.depth) ∧
    (tableForgetSeen t).data.map (fun b => b.data.map (Option.map (fun n => (n.id, n.addr)))) =
      t.data.map (fun b => b.data.map (Option.map (fun n => (n.id, n.addr)))) := by
  refine ⟨newTable_afterStore (Inv.of_reachable h) fresh, rfl, ?_, ?_⟩
  · simp only [tableForgetSeen, List.map_map]
    rfl
  · simp only [tableForgetSeen, List.map_map]
    apply List.map_congr_left
    intro b _
    simp only [Function.comp_def, Spec.Bucket.forgetSeen, List.map_map]
    apply List.map_congr_left
    intro s _
    cases s <;> rfl

/-- C70: if the process dies while storing the table, the next start loads the previous file as it was, or the whole new
table, or refuses the file and starts with an empty table. -/
theorem C70_crash (t : RoutingTable) (h : Reachable t) (old file : Option Bytes)
    (hs : TableFile.DuringStore old t file) (fresh : ID) :
    file = old ∨ TableFile.newTable fresh file = .ok (tableForgetSeen t) ∨
      TableFile.newTable fresh file = .ok (default fresh) := by
  have hi := Inv.of_reachable h
  rcases hs with ho | ⟨k, hk, hf⟩
  · exact Or.inl ho
  · right
    by_cases hke : k < (TableFile.encTable t).length
    · right
      rw [hf]
      simp only [TableFile.newTable, TableFile.load, TableFile.decTable_prefix t hi.small.1 hi.small.2 k hke]
    · left
      rw [hf, List.take_of_length_le (by omega)]
      exact newTable_afterStore hi fresh

/-- C70: after a crash between creating the file and the end of writing it, the previously stored table is gone. -/
theorem C70_old_table_lost (old t : RoutingTable) (fresh : ID) :
    ∃ file, TableFile.DuringStore (TableFile.afterStore old) t file ∧
      TableFile.newTable fresh file = .ok (default fresh) := by
  refine ⟨some [], Or.inr ⟨0, Nat.zero_le _, rfl⟩, ?_⟩
  rfl

/-- C90 is violated: a file with an identifier of another length than 20 crashes the program at start instead of being
refused. -/
theorem C90_id_length_violated : ∃ file : Bytes, ∀ fresh, TableFile.newTable fresh (some file) = .panic :=
  ⟨TableFile.encU64 1 ++ [7#8], fun fresh => by rfl⟩

/-- C90 is violated: a file that describes a table without buckets is accepted, and the first sighting crashes. -/
theorem C90_no_buckets_violated : ∃ file t, (∀ fresh, TableFile.newTable fresh (some file) = .ok t) ∧
    ∀ now id addr, t.touchNode now id addr = .panic := by
  refine ⟨TableFile.encTable ⟨demoId 0#8 0#8, []⟩, ⟨demoId 0#8 0#8, []⟩, fun fresh => ?_, fun now id addr => ?_⟩
  · have := TableFile.decTable_encTable ⟨demoId 0#8 0#8, []⟩ (by simp) (by simp) []
    rw [List.append_nil] at this
    simp only [TableFile.newTable, TableFile.load, this]
    rfl
  · unfold touchNode getBucket findBucketIdx
    cases (⟨demoId 0#8 0#8, []⟩ : RoutingTable).ownId.firstDiffBitIdx id <;> rfl

/-- C90 (partial): a file is either refused, crashes the program, or begins with the encoding of exactly the table that
is used; bytes of another meaning are never made up or skipped. -/
theorem C90_accepted_partial (file : Bytes) (fresh : ID) (t : RoutingTable)
    (h : TableFile.newTable fresh (some file) = .ok t) :
    t = default fresh ∨ ∃ rest, file = TableFile.encTable t ++ rest := by
  simp only [TableFile.newTable, TableFile.load] at h
  cases hd : TableFile.decTable file with
  | ok t' =>
    rw [hd] at h
    simp only [Res.ok.injEq] at h
    subst h
    exact .inr (TableFile.decTable_only _ _ hd)
  | err =>
    rw [hd] at h
    simp only [Res.ok.injEq] at h
    exact .inl h.symm
  | panic =>
    rw [hd] at h
    simp at h

/-- C90 (partial): a file that ends anywhere inside what was stored, or that is shorter than a length field, is refused
and the program starts with an empty table. -/
theorem C90_truncated_partial (file : Bytes) (fresh : ID)
    (h : file.length < 8 ∨ ∃ t, Reachable t ∧ ∃ k < (TableFile.encTable t).length, file = (TableFile.encTable t).take k) :
    TableFile.newTable fresh (some file) = .ok (default fresh) := by
  rcases h with h | ⟨t, ht, k, hk, rfl⟩
  · have : TableFile.decTable file = .err := by
      unfold TableFile.decTable TableFile.decId TableFile.decU64 TableFile.takeN
      rw [if_neg (by omega)]
      rfl
    simp only [TableFile.newTable, TableFile.load, this]
  · have hi := Inv.of_reachable ht
    simp only [TableFile.newTable, TableFile.load, TableFile.decTable_prefix t hi.small.1 hi.small.2 k hk]

/-! ### Concrete cases -/

/-- A reachable table with several buckets, nodes that are good and known, and a refused one. -/
example : ∃ t, Reachable t ∧ t.data.length = 5 ∧ t.countNodes = 15 ∧ t.countGoodNodes 11 = 15 ∧
    Known t (demoId 0x83#8 0#8) ∧ ¬ Known t (demoId 9#8 0#8) := by
  have h : (match sightings (default (demoId 0#8 0#8)) manyNodes with
    | .ok t => decide (t.data.length = 5 ∧ t.countNodes = 15 ∧ t.countGoodNodes 11 = 15 ∧
        Known t (demoId 0x83#8 0#8) ∧ ¬ Known t (demoId 9#8 0#8))
    | _ => false) = true := by decide +kernel
  split at h
  · rename_i t ht
    exact ⟨t, reachable_sightings _ _ _ (.fresh _) ht, of_decide_eq_true h⟩
  · cases h

/-- Sixteen minutes later none of the eight nodes is good; the unknown node displaces one. -/
example : ∃ t t', Reachable t ∧ ¬ Known t (demoId 0x80#8 0#8) ∧
    t.touchNode 960000000000 (demoId 0x80#8 0#8) (demoAddr 9) = .ok t' ∧ Known t' (demoId 0x80#8 0#8) ∧
    t'.countNodes = 8 := by
  have h : (match sightings (default (demoId 0#8 0#8)) eightNear with
    | .ok t => match t.touchNode 960000000000 (demoId 0x80#8 0#8) (demoAddr 9) with
      | .ok t' => decide (¬ Known t (demoId 0x80#8 0#8) ∧ Known t' (demoId 0x80#8 0#8) ∧ t'.countNodes = 8)
      | _ => false
    | _ => false) = true := by decide +kernel
  split at h
  · rename_i t ht
    split at h
    · rename_i t' ht'
      obtain ⟨h1, h2, h3⟩ := of_decide_eq_true h
      exact ⟨t, t', reachable_sightings _ _ _ (.fresh _) ht, h1, ht', h2, h3⟩
    · cases h
  · cases h

/-- The hypotheses of `C65_find_exact`, `C65_refresh`, `C66_good_stay`, `C66_one_displaced` and `C68_find_unknown`: a table
with a good node; another node, or this one again, is seen. -/
example : ∃ t t' t'', Reachable t ∧ ⟨demoId 3#8 0#8, demoAddr 3, some 3⟩ ∈ t.iterNodes ∧
    Good 20 ⟨demoId 3#8 0#8, demoAddr 3, some 3⟩ ∧ Known t (demoId 3#8 0#8) ∧ ¬ Known t (demoId 0x80#8 0#8) ∧
    t.touchNode 20 (demoId 0x80#8 0#8) (demoAddr 9) = .ok t' ∧ t.touchNode 20 (demoId 3#8 0#8) (demoAddr 9) = .ok t'' := by
  have h : (match sightings (default (demoId 0#8 0#8)) eightNear with
    | .ok t => decide (⟨demoId 3#8 0#8, demoAddr 3, some 3⟩ ∈ t.iterNodes ∧ ¬ Known t (demoId 0x80#8 0#8))
    | _ => false) = true := by decide +kernel
  split at h
  · rename_i t ht
    obtain ⟨h1, h2⟩ := of_decide_eq_true h
    have hr := reachable_sightings _ _ _ (.fresh _) ht
    obtain ⟨t1, ht1, _⟩ := C64_sighting_total t hr 20 (demoId 0x80#8 0#8) (demoAddr 9)
    obtain ⟨t2, ht2, _⟩ := C64_sighting_total t hr 20 (demoId 3#8 0#8) (demoAddr 9)
    exact ⟨t, t1, t2, hr, h1, ⟨3, rfl, by decide⟩, ⟨_, h1, rfl⟩, h2, ht1, ht2⟩
  · cases h

/-- The hypotheses of `C69_any_target`: in a table of five buckets the second is not full, and an id lies in it. -/
example : ∃ t b, Reachable t ∧ t.data[1]? = some b ∧ 1 + 1 < t.data.length ∧ b.isFull 11 = false ∧
    responsible t (demoId 0x40#8 0#8) = 1 := by
  have h : (match sightings (default (demoId 0#8 0#8)) manyNodes with
    | .ok t => match t.data[1]? with
      | some b => decide (1 + 1 < t.data.length ∧ b.isFull 11 = false ∧ responsible t (demoId 0x40#8 0#8) = 1)
      | none => false
    | _ => false) = true := by decide +kernel
  split at h
  · rename_i t ht
    split at h
    · rename_i b hb
      exact ⟨t, b, reachable_sightings _ _ _ (.fresh _) ht, hb, of_decide_eq_true h⟩
    · cases h
  · cases h

/-- The hypotheses of `C70_crash` and of `C90_truncated_partial`: a table of eight nodes, of which 100 bytes were
written; and those of `C90_accepted_partial`: the table that is stored completely. -/
example (old : Option Bytes) (fresh : ID) : ∃ t, Reachable t ∧
    TableFile.DuringStore old t (some ((TableFile.encTable t).take 100)) ∧
    100 < (TableFile.encTable t).length ∧ TableFile.newTable fresh (some (TableFile.encTable t)) = .ok (tableForgetSeen t) ∧
    (tableForgetSeen t).countNodes = 8 := by
  have h : (match sightings (default (demoId 0#8 0#8)) eightNear with
    | .ok t => decide (100 < (TableFile.encTable t).length ∧ (tableForgetSeen t).countNodes = 8)
    | _ => false) = true := by decide +kernel
  split at h
  · rename_i t ht
    obtain ⟨h1, h2⟩ := of_decide_eq_true h
    have hr := reachable_sightings _ _ _ (.fresh _) ht
    exact ⟨t, hr, .inr ⟨100, Nat.le_of_lt h1, rfl⟩, h1, (C70_restored t hr fresh).1, h2⟩
  · cases h

end Nargun
