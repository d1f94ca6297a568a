import Verif.Spec.RoutingTable
import Verif.Props.Id
import Verif.Lemmas.Lists

/-! # Lemmas about the routing table -/

namespace Nargun
open Spec

/-! ### Shared prefixes -/

theorem dist_lt_iff (a b : ID) (k : Nat) (hk : k ≤ 160) :
    dist a b < 2 ^ (160 - k) ↔ ∀ i < k, idBit a i = idBit b i := by
  have h := (C07_xor_metric a b a)
  rw [← h.1, h.2.2.2.2.2 k hk]
  constructor
  · intro h i hi
    have := h i hi
    rw [ID.getBit_of_lt a i (by omega), ID.getBit_of_lt b i (by omega)] at this
    exact Res.ok.inj this
  · intro h i hi
    rw [ID.getBit_of_lt a i (by omega), ID.getBit_of_lt b i (by omega), h i hi]

theorem sharedPrefix_of_some {a b : ID} {r : Nat} (h : a.firstDiffBitIdx b = some r) : sharedPrefix a b = r := by
  rw [ID.firstDiff_eq_some] at h
  obtain ⟨hr, hd, he⟩ := h
  have h1 := (dist_lt_iff a b r (by omega)).2 he
  have h2 : ¬ dist a b < 2 ^ (160 - (r + 1)) := fun hl =>
    hd ((dist_lt_iff a b (r + 1) (by omega)).1 hl r (by omega))
  have := ID.bitLen_eq (x := dist a b) (n := 159 - r)
    (by rw [show 159 - r = 160 - (r + 1) by omega]; omega) (by rw [show 159 - r + 1 = 160 - r by omega]; exact h1)
  unfold sharedPrefix
  omega

theorem sharedPrefix_self (a : ID) : sharedPrefix a a = 160 := by
  unfold sharedPrefix dist
  rw [Nat.xor_self]
  rfl

theorem sharedPrefix_of_none {a b : ID} (h : a.firstDiffBitIdx b = none) : sharedPrefix a b = 160 := by
  rw [ID.firstDiff_eq_none] at h; subst h; exact sharedPrefix_self a

theorem sharedPrefix_le (a b : ID) : sharedPrefix a b ≤ 160 := by unfold sharedPrefix; omega

theorem le_sharedPrefix {a b : ID} {k : Nat} (hk : k ≤ 160) :
    k ≤ sharedPrefix a b ↔ ∀ i < k, idBit a i = idBit b i := by
  cases h : a.firstDiffBitIdx b with
  | none =>
    rw [sharedPrefix_of_none h]
    rw [ID.firstDiff_eq_none] at h; subst h; simp [hk]
  | some r =>
    rw [sharedPrefix_of_some h]
    rw [ID.firstDiff_eq_some] at h
    constructor
    · intro hkr i hi; exact h.2.2 i (by omega)
    · intro ha
      by_cases hc : k ≤ r
      · exact hc
      · exact absurd (ha r (by omega)) h.2.1

theorem sharedPrefix_eq_160 {a b : ID} : sharedPrefix a b = 160 ↔ a = b := by
  constructor
  · intro h
    cases h' : a.firstDiffBitIdx b with
    | none => exact ID.firstDiff_eq_none.1 h'
    | some r =>
      have := sharedPrefix_of_some h'
      rw [ID.firstDiff_eq_some] at h'
      omega
  · rintro rfl; exact sharedPrefix_self a

theorem sharedPrefix_comm (a b : ID) : sharedPrefix a b = sharedPrefix b a := by
  unfold sharedPrefix dist; rw [Nat.xor_comm]

/-! ### Slots -/

theorem slotGood_some {now : Nat} {n : Node} : slotGood now (some n) = true ↔ Good now n := by
  have hv : NODE_VALIDITY = fifteenMinutes := by decide
  unfold slotGood Good
  rw [hv]
  cases hl : n.lastSeen <;> simp [hl]

instance (now : Nat) (n : Node) : Decidable (Good now n) := decidable_of_iff _ slotGood_some

theorem slotHasId_some {id : ID} {n : Node} : slotHasId id (some n) = true ↔ n.id = id := by
  simp [slotHasId]

namespace Bucket

theorem mem_nodes {b : Bucket} {n : Node} : n ∈ b.nodes ↔ some n ∈ b.data := by
  simp [nodes, List.mem_filterMap]

theorem goods_eq (b : Bucket) (now : Nat) : b.goods now = b.nodes.filter (fun n => decide (Good now n)) := by
  unfold goods nodes
  induction b.data with
  | nil => rfl
  | cons s l ih =>
    cases s with
    | none => simp [slotGood, ih]
    | some n =>
      by_cases h : Good now n
      · simp [slotGood_some.2 h, h, ih]
      · have : slotGood now (some n) = false := by
          cases hs : slotGood now (some n) with
          | false => rfl
          | true => exact absurd (slotGood_some.1 hs) h
        simp [this, h, ih]

theorem nodes_length_le (b : Bucket) : b.nodes.length ≤ 8 := by
  have := List.length_filterMap_le id b.data
  rw [b.len_eq] at this
  exact this

theorem new_nodes (d : Nat) : (Bucket.new d).nodes = [] := by
  simp [new, nodes, K_NODE_PER_BUCKET, List.replicate]

theorem getNode_eq_none {b : Bucket} {id : ID} : b.getNode id = none ↔ ∀ n ∈ b.nodes, n.id ≠ id := by
  unfold getNode
  constructor
  · intro h n hn he
    cases hf : b.data.find? (slotHasId id) with
    | none =>
      have := List.find?_eq_none.1 hf (some n) (mem_nodes.1 hn)
      exact this (slotHasId_some.2 he)
    | some s =>
      rw [hf] at h
      have := List.find?_some hf
      cases s with
      | none => simp [slotHasId] at this
      | some m => simp at h
  · intro h
    have : b.data.find? (slotHasId id) = none := by
      rw [List.find?_eq_none]
      intro s hs hc
      cases s with
      | none => simp [slotHasId] at hc
      | some m => exact h m (mem_nodes.2 hs) (slotHasId_some.1 hc)
    rw [this]; rfl

theorem getNode_some {b : Bucket} {id : ID} {n : Node} (h : b.getNode id = some n) : n ∈ b.nodes ∧ n.id = id := by
  unfold getNode at h
  cases hf : b.data.find? (slotHasId id) with
  | none => rw [hf] at h; simp at h
  | some s =>
    rw [hf] at h
    cases s with
    | none => simp at h
    | some m =>
      simp at h; subst h
      exact ⟨mem_nodes.2 (List.mem_of_find?_eq_some hf), slotHasId_some.1 (List.find?_some hf)⟩

theorem touch_none_iff {b : Bucket} {now : Nat} {id : ID} :
    b.touch now id = none ↔ ∀ n ∈ b.nodes, n.id ≠ id := by
  unfold touch
  cases h : b.data.findIdx? (slotHasId id) with
  | none =>
    simp only [true_iff]
    rw [List.findIdx?_eq_none_iff] at h
    intro n hn he
    have := h _ (mem_nodes.1 hn)
    rw [slotHasId_some.2 he] at this
    cases this
  | some i =>
    simp only [reduceCtorEq, false_iff]
    intro hc
    rw [List.findIdx?_eq_some_iff_getElem] at h
    obtain ⟨hi, hp, _⟩ := h
    cases hs : b.data[i] with
    | none => rw [hs] at hp; simp [slotHasId] at hp
    | some n =>
      rw [hs] at hp
      exact hc n (mem_nodes.2 (hs ▸ List.getElem_mem hi)) (slotHasId_some.1 hp)

/-- Refreshing one node of a list of slots. -/
theorem touch_slots (now : Nat) (id : ID) (l : List (Option Node)) : ∀ i,
    l.findIdx? (slotHasId id) = some i → ((l.filterMap _root_.id).map (·.id)).Nodup →
    (l.set i ((l.getD i none).map (Node.touch now))).filterMap _root_.id =
      (l.filterMap _root_.id).map (fun m => if m.id = id then m.touch now else m) := by
  induction l with
  | nil => intro i h; simp at h
  | cons s l ih =>
    intro i h hn
    rw [List.findIdx?_cons] at h
    cases s with
    | none =>
      simp only [slotHasId, Bool.false_eq_true, if_false] at h
      cases hf : l.findIdx? (slotHasId id) with
      | none => rw [hf] at h; simp at h
      | some j =>
        rw [hf] at h; simp at h; subst h
        simpa using ih j hf (by simpa using hn)
    | some n =>
      by_cases hid : n.id = id
      · rw [if_pos (slotHasId_some.2 hid)] at h
        simp at h; subst h
        have hno : ∀ m ∈ l.filterMap _root_.id, m.id ≠ id := by
          intro m hm he
          simp only [List.filterMap_cons, _root_.id, List.map_cons, List.nodup_cons] at hn
          apply hn.1
          rw [hid, ← he]
          exact List.mem_map_of_mem hm
        have : (l.filterMap _root_.id).map (fun m => if m.id = id then m.touch now else m) = l.filterMap _root_.id := by
          rw [List.map_congr_left (g := _root_.id) (fun m hm => by rw [if_neg (hno m hm)]; rfl), List.map_id]
        simp [hid, this]
      · have hf' : slotHasId id (some n) = false := by simp [slotHasId, hid]
        rw [hf'] at h
        simp only [Bool.false_eq_true, if_false] at h
        cases hf : l.findIdx? (slotHasId id) with
        | none => rw [hf] at h; simp at h
        | some j =>
          rw [hf] at h; simp at h; subst h
          have := ih j hf (by
            simp only [List.filterMap_cons, _root_.id, List.map_cons, List.nodup_cons] at hn
            exact hn.2)
          simp [hid] at this ⊢
          exact this

theorem touch_some {b b' : Bucket} {now : Nat} {id : ID} (h : b.touch now id = some b')
    (hn : (b.nodes.map (·.id)).Nodup) :
    b'.depth = b.depth ∧ b'.nodes = b.nodes.map (fun m => if m.id = id then m.touch now else m) := by
  unfold touch at h
  cases hf : b.data.findIdx? (slotHasId id) with
  | none => rw [hf] at h; cases h
  | some i =>
    rw [hf] at h
    simp only [Option.some.injEq] at h
    subst h
    exact ⟨rfl, touch_slots now id b.data i hf hn⟩

theorem set_decomp {α} (l : List α) (i : Nat) (s x : α) (h : l[i]? = some s) :
    ∃ pre post, l = pre ++ s :: post ∧ l.set i x = pre ++ x :: post ∧ pre.length = i := by
  induction l generalizing i with
  | nil => simp at h
  | cons a l ih =>
    cases i with
    | zero =>
      simp at h; subst h
      exact ⟨[], l, rfl, rfl, rfl⟩
    | succ i =>
      simp at h
      obtain ⟨pre, post, h1, h2, h3⟩ := ih i h
      exact ⟨a :: pre, post, by rw [h1]; rfl, by simp [h2], by simp [h3]⟩

/-- Inserting a node with an unknown id: either it takes a vacant slot or that of a node that is not good, or all
eight slots hold good nodes. -/
theorem tryInsert_spec {b : Bucket} {now : Nat} {id : ID} {addr : SockAddr} (hu : ∀ n ∈ b.nodes, n.id ≠ id) :
    (∃ b' rest, ∃ old : Option Node, b.tryInsert now id addr = .ok b' ∧ b'.depth = b.depth ∧
        b.nodes.Perm (old.toList ++ rest) ∧ b'.nodes.Perm (Node.newGood now id addr :: rest) ∧
        (∀ o ∈ old, ¬ Good now o) ∧ (old ≠ none → b.nodes.length = 8)) ∨
    (b.tryInsert now id addr = .err ∧ b.nodes.length = 8 ∧ ∀ n ∈ b.nodes, Good now n) := by
  have ht := (touch_none_iff (now := now)).2 hu
  have hdec : ∀ (i : Nat) (s : Option Node), i < 8 → b.data[i]? = some s →
      ∃ b' rest, b.setSlot i (some (Node.newGood now id addr)) = .ok b' ∧ b'.depth = b.depth ∧
        b.nodes.Perm (s.toList ++ rest) ∧ b'.nodes.Perm (Node.newGood now id addr :: rest) := by
    intro i s hi hs
    obtain ⟨pre, post, h1, h2, _⟩ := set_decomp _ _ _ (some (Node.newGood now id addr)) hs
    refine ⟨{ b with data := b.data.set i (some (Node.newGood now id addr)), len_eq := by simp [b.len_eq] },
      pre.filterMap _root_.id ++ post.filterMap _root_.id, by
      unfold setSlot; rw [if_pos (show i < K_NODE_PER_BUCKET from hi)], rfl, ?_, ?_⟩
    · unfold nodes
      rw [h1]
      cases s with
      | none => simp
      | some n =>
        simp only [List.filterMap_append, List.filterMap_cons, _root_.id, Option.toList_some]
        exact List.perm_middle
    · unfold nodes
      simp only [h2, List.filterMap_append, List.filterMap_cons, _root_.id]
      exact List.perm_middle
  unfold tryInsert
  rw [ht]
  simp only
  unfold findReplaceable
  cases hv : b.data.findIdx? (fun s => s.isNone) with
  | some i =>
    left
    rw [List.findIdx?_eq_some_iff_getElem] at hv
    obtain ⟨hi, hp, _⟩ := hv
    have hi8 : i < 8 := by have := b.len_eq; unfold K_NODE_PER_BUCKET at this; omega
    have hs : b.data[i] = none := by simpa using hp
    obtain ⟨b', rest, h1, h2, h3, h4⟩ := hdec i none hi8 (by rw [List.getElem?_eq_getElem hi, hs])
    exact ⟨b', rest, none, h1, h2, h3, h4, by simp, by simp⟩
  | none =>
    simp only
    rw [List.findIdx?_eq_none_iff] at hv
    have hall : b.nodes.length = 8 := by
      have hm : ∀ l : List (Option Node), (∀ s ∈ l, s.isNone = false) → (l.filterMap _root_.id).length = l.length := by
        intro l
        induction l with
        | nil => intro _; rfl
        | cons s l ih =>
          intro h
          cases s with
          | none => have := h none (by simp); cases this
          | some n => simp [ih (fun s hs => h s (by simp [hs]))]
      have := hm b.data (fun s hs => by simpa using hv s hs)
      rw [b.len_eq] at this
      exact this
    cases hb : b.data.findIdx? (fun s => !slotGood now s) with
    | some i =>
      left
      rw [List.findIdx?_eq_some_iff_getElem] at hb
      obtain ⟨hi, hp, _⟩ := hb
      have hi8 : i < 8 := by have := b.len_eq; unfold K_NODE_PER_BUCKET at this; omega
      obtain ⟨b', rest, h1, h2, h3, h4⟩ := hdec i b.data[i] hi8 (List.getElem?_eq_getElem hi)
      refine ⟨b', rest, b.data[i], h1, h2, h3, h4, ?_, fun _ => hall⟩
      intro o ho hg
      have : b.data[i] = some o := ho
      rw [this, slotGood_some.2 hg] at hp
      cases hp
    | none =>
      right
      rw [List.findIdx?_eq_none_iff] at hb
      refine ⟨rfl, hall, fun n hn => ?_⟩
      have := hb _ (mem_nodes.1 hn)
      exact slotGood_some.1 (by simpa using this)

theorem isFull_iff {b : Bucket} {now : Nat} :
    b.isFull now = true ↔ b.nodes.length = 8 ∧ ∀ n ∈ b.nodes, Good now n := by
  have key : ∀ l : List (Option Node), ((l.filterMap _root_.id).length = l.length ∧ ∀ n, some n ∈ l → Good now n) ↔
      ∀ s ∈ l, slotGood now s = true := by
    intro l
    induction l with
    | nil => simp
    | cons s l ih =>
      cases s with
      | none =>
        constructor
        · intro ⟨h, _⟩
          have := List.length_filterMap_le _root_.id l
          simp at h; omega
        · intro h; have := h none (by simp); simp [slotGood] at this
      | some n =>
        simp only [List.filterMap_cons, _root_.id, List.length_cons, Nat.add_right_cancel_iff, List.mem_cons,
          Option.some.injEq, forall_eq_or_imp]
        have := ih
        rw [slotGood_some]
        constructor
        · intro ⟨h1, h2⟩; exact ⟨h2.1, ih.1 ⟨h1, h2.2⟩⟩
        · intro ⟨h1, h2⟩
          have := ih.2 h2
          exact ⟨this.1, h1, this.2⟩
  have hlen := b.len_eq
  unfold K_NODE_PER_BUCKET at hlen
  have key' := key b.data
  rw [hlen] at key'
  have : (b.nodes.length = 8 ∧ ∀ n ∈ b.nodes, Good now n) ↔ ∀ s ∈ b.data, slotGood now s = true := by
    rw [← key']
    unfold nodes
    simp [List.mem_filterMap]
  rw [this]
  unfold isFull findReplaceable
  cases hv : b.data.findIdx? (fun s => s.isNone) with
  | some i =>
    simp only [Option.isNone_some, Bool.false_eq_true, false_iff]
    intro hc
    rw [List.findIdx?_eq_some_iff_getElem] at hv
    obtain ⟨hi, hp, _⟩ := hv
    have := hc _ (List.getElem_mem hi)
    have hs : b.data[i] = none := by simpa using hp
    rw [hs] at this
    simp [slotGood] at this
  | none =>
    simp only [Option.isNone_iff_eq_none, List.findIdx?_eq_none_iff]
    simp

/-! ### Splitting a bucket -/

/-- The occupied slots come first and hold `xs`. -/
def Packed (b : Bucket) (xs : List Node) : Prop :=
  xs.length ≤ 8 ∧ b.data = xs.map some ++ List.replicate (8 - xs.length) none

theorem Packed.nodes {b : Bucket} {xs : List Node} (h : Packed b xs) : b.nodes = xs := by
  unfold Bucket.nodes
  rw [h.2, List.filterMap_append, List.filterMap_map]
  have : (List.replicate (8 - xs.length) (none : Option Node)).filterMap _root_.id = [] := by
    simp
  rw [this]
  simp [Function.comp_def]

theorem packed_new (d : Nat) : Packed (new d) [] := ⟨by simp, rfl⟩

theorem setSlot_packed {b : Bucket} {xs : List Node} (h : Packed b xs) (hl : xs.length < 8) (n : Node) :
    ∃ b', b.setSlot xs.length (some n) = .ok b' ∧ b'.depth = b.depth ∧ Packed b' (xs ++ [n]) := by
  refine ⟨{ b with data := b.data.set xs.length (some n), len_eq := by simp [b.len_eq] },
    by unfold setSlot; rw [if_pos (show xs.length < K_NODE_PER_BUCKET from hl)], rfl, by simp; omega, ?_⟩
  simp only
  rw [h.2, List.set_append_right _ _ (by simp)]
  simp only [List.length_map, Nat.sub_self, List.map_append, List.map_cons, List.map_nil, List.append_assoc,
    List.length_append, List.length_cons, List.length_nil]
  congr 1
  rw [show 8 - xs.length = (8 - (xs.length + 1)) + 1 by omega, List.replicate_succ]
  rfl

theorem splitLoop_spec (depth : Nat) (hd : depth < 160) (ns : List Node) : ∀ (zero one : Bucket) (zs os : List Node),
    Packed zero zs → Packed one os →
    zs.length + ns.length ≤ 8 → os.length + ns.length ≤ 8 →
    ∃ z o, splitLoop depth ns zero one zs.length os.length = .ok (z, o) ∧ z.depth = zero.depth ∧ o.depth = one.depth ∧
      Packed z (zs ++ ns.filter (fun n => !idBit n.id depth)) ∧ Packed o (os ++ ns.filter (fun n => idBit n.id depth)) := by
  induction ns with
  | nil => intro zero one zs os hz ho _ _; exact ⟨zero, one, rfl, rfl, rfl, by simpa using hz, by simpa using ho⟩
  | cons n ns ih =>
    intro zero one zs os hz ho hlz hlo
    simp only [List.length_cons] at hlz hlo
    simp only [splitLoop]
    rw [ID.getBit_of_lt _ _ hd, Res.ok_bind]
    cases hb : idBit n.id depth with
    | true =>
      simp only [if_true]
      obtain ⟨one', h1, h2, h3⟩ := setSlot_packed ho (by omega) n
      rw [h1, Res.ok_bind]
      obtain ⟨z, o, e1, e2, e3, e4, e5⟩ := ih zero one' zs (os ++ [n]) hz h3 (by omega) (by simp; omega)
      rw [List.length_append] at e1
      refine ⟨z, o, e1, e2, e3.trans h2, ?_, ?_⟩
      · simpa [hb] using e4
      · simpa [hb] using e5
    | false =>
      simp only [Bool.false_eq_true, if_false]
      obtain ⟨zero', h1, h2, h3⟩ := setSlot_packed hz (by omega) n
      rw [h1, Res.ok_bind]
      obtain ⟨z, o, e1, e2, e3, e4, e5⟩ := ih zero' one (zs ++ [n]) os h3 ho (by simp; omega) (by omega)
      rw [List.length_append] at e1
      refine ⟨z, o, e1, e2.trans h2, e3, ?_, ?_⟩
      · simpa [hb] using e4
      · simpa [hb] using e5

theorem split_spec (b : Bucket) (hd : b.depth < 160) :
    ∃ z o, b.split = .ok (z, o) ∧ z.depth = b.depth + 1 ∧ o.depth = b.depth + 1 ∧
      z.nodes = b.nodes.filter (fun n => !idBit n.id b.depth) ∧
      o.nodes = b.nodes.filter (fun n => idBit n.id b.depth) := by
  have hl := b.nodes_length_le
  obtain ⟨z, o, h1, h2, h3, h4, h5⟩ := splitLoop_spec b.depth hd b.nodes (new (b.depth + 1)) (new (b.depth + 1))
    [] [] (packed_new _) (packed_new _) (by simpa using hl) (by simpa using hl)
  exact ⟨z, o, h1, h2, h3, by rw [h4.nodes]; rfl, by rw [h5.nodes]; rfl⟩

end Bucket

/-! ### The table -/

namespace RoutingTable

/-- The invariant of reachable tables. -/
structure Inv (t : RoutingTable) : Prop where
  pos : 1 ≤ t.data.length
  bound : t.data.length ≤ 161
  depth : ∀ i b, t.data[i]? = some b → b.depth = if i + 1 < t.data.length then i + 1 else i
  place : ∀ i b, t.data[i]? = some b → ∀ n ∈ b.nodes, responsible t n.id = i
  nodup : (t.iterNodes.map (·.id)).Nodup

theorem findBucketIdx_eq {t : RoutingTable} (h : 1 ≤ t.data.length) (h' : t.data.length ≤ 161) (id : ID) :
    t.findBucketIdx id = .ok (responsible t id) := by
  unfold findBucketIdx responsible
  cases hd : t.ownId.firstDiffBitIdx id with
  | none =>
    rw [sharedPrefix_of_none hd]
    simp only [usub, if_pos h]
    congr 1; omega
  | some r =>
    rw [sharedPrefix_of_some hd]
    simp only [usub, if_pos h]
    split
    · congr 1; omega
    · congr 1; omega

theorem Inv.getBucket {t : RoutingTable} (h : Inv t) (id : ID) :
    ∃ b, t.data[responsible t id]? = some b ∧ t.getBucket id = .ok b := by
  have hlt : responsible t id < t.data.length := by unfold responsible; have := h.pos; omega
  refine ⟨t.data[responsible t id], List.getElem?_eq_getElem hlt, ?_⟩
  unfold RoutingTable.getBucket
  rw [findBucketIdx_eq h.pos h.bound, Res.ok_bind, index, List.getElem?_eq_getElem hlt]
  rfl

theorem mem_iterNodes {t : RoutingTable} {n : Node} : n ∈ t.iterNodes ↔ ∃ i : Nat, ∃ b : Bucket, t.data[i]? = some b ∧ n ∈ b.nodes := by
  unfold iterNodes
  rw [List.mem_flatMap]
  constructor
  · rintro ⟨b, hb, hn⟩
    obtain ⟨i, hi⟩ := List.getElem?_of_mem hb
    exact ⟨i, b, hi, hn⟩
  · rintro ⟨i, b, hb, hn⟩
    exact ⟨b, List.mem_of_getElem? hb, hn⟩

theorem Inv.mem_bucket {t : RoutingTable} (h : Inv t) {b : Bucket} {id : ID}
    (hb : t.data[responsible t id]? = some b) {n : Node} (hn : n ∈ t.iterNodes) (hid : n.id = id) : n ∈ b.nodes := by
  obtain ⟨i, b', hb', hn'⟩ := mem_iterNodes.1 hn
  have := h.place i b' hb' n hn'
  rw [hid] at this
  rw [← this, hb] at hb'
  cases hb'
  exact hn'

theorem Inv.bucket_nodup {t : RoutingTable} (h : Inv t) {i : Nat} {b : Bucket} (hb : t.data[i]? = some b) :
    (b.nodes.map (·.id)).Nodup := by
  have hsub : List.Sublist b.nodes t.iterNodes := by
    unfold iterNodes
    obtain ⟨pre, post, h1, _, _⟩ := Bucket.set_decomp _ _ _ b hb
    rw [h1]
    simp only [List.flatMap_append, List.flatMap_cons]
    exact (List.sublist_append_left _ _).trans (List.sublist_append_right _ _)
  exact (hsub.map _).nodup h.nodup

/-- Replacing the bucket at index `i`. -/
theorem set_bucket_perm {t : RoutingTable} {i : Nat} {b b' : Bucket} (hb : t.data[i]? = some b) :
    ∃ rest, t.iterNodes.Perm (b.nodes ++ rest) ∧
      ({ t with data := t.data.set i b' } : RoutingTable).iterNodes.Perm (b'.nodes ++ rest) := by
  obtain ⟨pre, post, h1, h2, _⟩ := Bucket.set_decomp _ _ _ b' hb
  refine ⟨pre.flatMap Bucket.nodes ++ post.flatMap Bucket.nodes, ?_, ?_⟩
  · unfold iterNodes
    rw [h1]
    simp only [List.flatMap_append, List.flatMap_cons]
    rw [← List.append_assoc, ← List.append_assoc]
    exact List.Perm.append_right _ List.perm_append_comm
  · unfold iterNodes
    simp only [h2, List.flatMap_append, List.flatMap_cons]
    rw [← List.append_assoc, ← List.append_assoc]
    exact List.Perm.append_right _ List.perm_append_comm

/-- Replacing the bucket responsible for `id` by one whose other nodes were there before. -/
theorem Inv.set_bucket {t : RoutingTable} (h : Inv t) {id : ID} {b b' : Bucket}
    (hb : t.data[responsible t id]? = some b) (hd : b'.depth = b.depth)
    (hn : ∀ n ∈ b'.nodes, n.id = id ∨ ∃ m ∈ b.nodes, m.id = n.id)
    (hnd : (({ t with data := t.data.set (responsible t id) b' } : RoutingTable).iterNodes.map (·.id)).Nodup) :
    Inv { t with data := t.data.set (responsible t id) b' } := by
  have hlt : responsible t id < t.data.length := by unfold responsible; have := h.pos; omega
  have hresp : ∀ x, responsible { t with data := t.data.set (responsible t id) b' } x = responsible t x := by
    intro x; simp [responsible]
  refine ⟨by simpa using h.pos, by simpa using h.bound, ?_, ?_, hnd⟩
  · intro i c hc
    simp only [List.getElem?_set, List.length_set] at hc ⊢
    by_cases hi : responsible t id = i
    · rw [if_pos hi, if_pos hlt] at hc
      cases hc
      rw [hd]
      exact h.depth i b (hi ▸ hb)
    · rw [if_neg hi] at hc
      exact h.depth i c hc
  · intro i c hc n hnc
    rw [hresp]
    simp only [List.getElem?_set] at hc
    by_cases hi : responsible t id = i
    · rw [if_pos hi, if_pos hlt] at hc
      cases hc
      rcases hn n hnc with he | ⟨m, hm, he⟩
      · rw [he, hi]
      · rw [← he]; exact h.place i b (hi ▸ hb) m hm
    · rw [if_neg hi] at hc
      exact h.place i c hc n hnc

theorem flatMap_congr' {α β} {f g : α → List β} {l : List α} (h : ∀ a ∈ l, f a = g a) : l.flatMap f = l.flatMap g := by
  rw [List.flatMap_def, List.flatMap_def, List.map_congr_left h]

theorem perm_nodup_ids {l l' : List Node} (h : l.Perm l') (hn : (l.map (·.id)).Nodup) : (l'.map (·.id)).Nodup :=
  (h.map _).nodup_iff.1 hn

theorem filter_perm_split {α} (p q : α → Bool) (hpq : ∀ x, q x = !p x) (l : List α) :
    (l.filter p ++ l.filter q).Perm l := by
  induction l with
  | nil => exact .refl _
  | cons a l ih =>
    cases hp : p a with
    | true =>
      have : q a = false := by rw [hpq, hp]; rfl
      simp only [List.filter_cons, hp, this, if_true, Bool.false_eq_true, if_false, List.cons_append]
      exact ih.cons a
    | false =>
      have : q a = true := by rw [hpq, hp]; rfl
      simp only [List.filter_cons, hp, this, if_true, Bool.false_eq_true, if_false]
      exact List.perm_middle.trans (ih.cons a)

/-- Splitting the last bucket keeps the nodes and the invariant. -/
theorem Inv.split {t : RoutingTable} (h : Inv t) (hlt : t.data.length < 161) :
    ∃ t', t.split = .ok t' ∧ Inv t' ∧ t'.ownId = t.ownId ∧ t'.data.length = t.data.length + 1 ∧
      t'.iterNodes.Perm t.iterNodes := by
  have hpos := h.pos
  have hne : t.data ≠ [] := by intro hc; rw [hc] at hpos; simp at hpos
  have hdata : t.data = t.data.dropLast ++ [t.data.getLast hne] := (List.dropLast_concat_getLast hne).symm
  have hdl : t.data.dropLast.length = t.data.length - 1 := by simp
  generalize t.data.dropLast = init at hdata hdl
  generalize hlast : t.data.getLast hne = last at hdata
  have hlen : t.data.length = init.length + 1 := by rw [hdata]; simp
  have hget : t.data[init.length]? = some last := by rw [hdata]; simp
  have hdepth : last.depth = init.length := by
    rw [h.depth _ _ hget, if_neg (by omega)]
  obtain ⟨z, o, hs, hdz, hdo, hz, ho⟩ := last.split_spec (by omega)
  -- the own half and the other half
  let own := if idBit t.ownId last.depth then o else z
  let other := if idBit t.ownId last.depth then z else o
  have hown : own.nodes = last.nodes.filter (fun n => idBit n.id last.depth == idBit t.ownId last.depth) := by
    show (if _ then o else z).nodes = _
    cases idBit t.ownId last.depth with
    | true => rw [if_pos rfl, ho]; congr 1; funext n; cases idBit n.id last.depth <;> rfl
    | false =>
      rw [if_neg (by simp), hz]; congr 1; funext n; cases idBit n.id last.depth <;> rfl
  have hother : other.nodes = last.nodes.filter (fun n => !(idBit n.id last.depth == idBit t.ownId last.depth)) := by
    show (if _ then z else o).nodes = _
    cases idBit t.ownId last.depth with
    | true => rw [if_pos rfl, hz]; congr 1; funext n; cases idBit n.id last.depth <;> rfl
    | false =>
      rw [if_neg (by simp), ho]; congr 1; funext n; cases idBit n.id last.depth <;> rfl
  have hownd : own.depth = init.length + 1 := by
    show (if _ then o else z).depth = _
    split <;> omega
  have hotherd : other.depth = init.length + 1 := by
    show (if _ then z else o).depth = _
    split <;> omega
  have hperm : (other.nodes ++ own.nodes).Perm last.nodes := by
    rw [hown, hother]
    exact filter_perm_split _ _ (by intro n; simp) _
  have hsplit : t.split = .ok { t with data := init ++ [other, own] } := by
    unfold RoutingTable.split
    have : t.data.getLast? = some last := by rw [hdata]; simp
    rw [this]
    simp only [Res.unwrap_some, Res.ok_bind, hs, ID.bitBasedOrder]
    rw [ID.getBit_of_lt _ _ (by omega)]
    simp only [Res.ok_bind]
    have hdrop : t.data.dropLast = init := by rw [hdata]; simp
    rw [hdrop]
    show _ = Res.ok { t with data := init ++ [if _ then z else o, if _ then o else z] }
    cases idBit t.ownId last.depth <;> rfl
  have hiter : ({ t with data := init ++ [other, own] } : RoutingTable).iterNodes.Perm t.iterNodes := by
    unfold iterNodes
    rw [hdata]
    simp only [List.flatMap_append, List.flatMap_cons, List.flatMap_nil, List.append_nil]
    exact hperm.append_left _
  have hcases : ∀ i (c : Bucket), (init ++ [other, own])[i]? = some c →
      (i < init.length ∧ t.data[i]? = some c) ∨ (i = init.length ∧ c = other) ∨ (i = init.length + 1 ∧ c = own) := by
    intro i c hc
    by_cases hi : i < init.length
    · left
      rw [List.getElem?_append_left hi] at hc
      refine ⟨hi, ?_⟩
      rw [hdata, List.getElem?_append_left hi]; exact hc
    · right
      rw [List.getElem?_append_right (by omega)] at hc
      match hk : i - init.length, hc with
      | 0, hc => left; simp at hc; exact ⟨by omega, hc.symm⟩
      | 1, hc => right; simp at hc; exact ⟨by omega, hc.symm⟩
      | k + 2, hc => simp at hc
  refine ⟨_, hsplit, ⟨by simp, by simp; omega, ?_, ?_, ?_⟩, rfl, by simp; omega, hiter⟩
  · intro i c hc
    rw [show ({ t with data := init ++ [other, own] } : RoutingTable).data.length = init.length + 2 by simp]
    rcases hcases i c hc with ⟨hi, hc'⟩ | ⟨hi, rfl⟩ | ⟨hi, rfl⟩
    · have := h.depth i c hc'
      rw [if_pos (by omega)] at this ⊢
      exact this
    · rw [if_pos (by omega), hotherd]; omega
    · rw [if_neg (by omega), hownd]; omega
  · intro i c hc n hn
    have hlen' : ({ t with data := init ++ [other, own] } : RoutingTable).data.length = init.length + 2 := by simp
    unfold responsible
    rw [hlen']
    show min (sharedPrefix t.ownId n.id) (init.length + 2 - 1) = i
    rcases hcases i c hc with ⟨hi, hc'⟩ | ⟨hi, rfl⟩ | ⟨hi, rfl⟩
    · have := h.place i c hc' n hn
      unfold responsible at this
      omega
    · rw [hother] at hn
      simp only [List.mem_filter, Bool.not_eq_true', beq_eq_false_iff_ne] at hn
      have h1 := h.place _ _ hget n hn.1
      unfold responsible at h1
      have h2 : ¬ init.length + 1 ≤ sharedPrefix t.ownId n.id := by
        intro hc2
        have := (le_sharedPrefix (by omega)).1 hc2 init.length (by omega)
        rw [← hdepth] at this
        exact hn.2 this.symm
      omega
    · rw [hown] at hn
      simp only [List.mem_filter, beq_iff_eq] at hn
      have h1 := h.place _ _ hget n hn.1
      unfold responsible at h1
      have h2 : init.length + 1 ≤ sharedPrefix t.ownId n.id := by
        rw [le_sharedPrefix (by omega)]
        intro j hj
        by_cases hje : j = init.length
        · rw [hje, ← hdepth]; exact hn.2.symm
        · exact (le_sharedPrefix (k := init.length) (by omega)).1 (by omega) j (by omega)
      omega
  · exact perm_nodup_ids hiter.symm h.nodup

/-- What happens to a table when an unknown node is seen. -/
inductive Inserted (t t' : RoutingTable) (now : Nat) (id : ID) (addr : SockAddr) : Prop where
  | stored (old : Option Node) (rest : List Node) :
      t.iterNodes.Perm (old.toList ++ rest) → t'.iterNodes.Perm (Node.newGood now id addr :: rest) →
      (∀ o ∈ old, ¬ Good now o) → Inserted t t' now id addr
  | refused (b : Bucket) : t'.iterNodes.Perm t.iterNodes →
      t'.data[responsible t' id]? = some b → b.nodes.length = 8 → (∀ n ∈ b.nodes, Good now n) →
      (responsible t' id + 1 < t'.data.length ∨ sharedPrefix t'.ownId id ≤ t'.data.length - 1) →
      Inserted t t' now id addr

theorem insertNewGood_spec (now : Nat) (id : ID) (addr : SockAddr) (fuel : Nat) : ∀ t : RoutingTable,
    Inv t → (∀ n ∈ t.iterNodes, n.id ≠ id) → 162 ≤ fuel + t.data.length →
    ∃ t', insertNewGood now id addr fuel t = .ok t' ∧ Inv t' ∧ t'.ownId = t.ownId ∧ Inserted t t' now id addr := by
  induction fuel with
  | zero => intro t h _ hf; have := h.bound; omega
  | succ fuel ih =>
    intro t h hu hf
    obtain ⟨b, hb, hgb⟩ := h.getBucket id
    have hub : ∀ n ∈ b.nodes, n.id ≠ id := fun n hn => hu n (mem_iterNodes.2 ⟨_, _, hb, hn⟩)
    simp only [insertNewGood]
    rcases Bucket.tryInsert_spec (now := now) (addr := addr) hub with
      ⟨b', rest, old, he, hd, hp, hp', hold, _⟩ | ⟨he, hlen, hgood⟩
    · obtain ⟨rest', hr1, hr2⟩ := set_bucket_perm (b' := b') hb
      have htry : t.tryInsert now id addr = .ok { t with data := t.data.set (responsible t id) b' } := by
        unfold RoutingTable.tryInsert setBucket
        rw [hgb, Res.ok_bind, he, Res.ok_bind, findBucketIdx_eq h.pos h.bound, Res.ok_bind]
      rw [htry]
      have q1 : t.iterNodes.Perm (old.toList ++ (rest ++ rest')) := by
        rw [← List.append_assoc]; exact hr1.trans (hp.append_right _)
      have q2 : ({ t with data := t.data.set (responsible t id) b' } : RoutingTable).iterNodes.Perm
          (Node.newGood now id addr :: (rest ++ rest')) := by
        rw [← List.cons_append]; exact hr2.trans (hp'.append_right _)
      refine ⟨_, rfl, ?_, rfl, .stored old (rest ++ rest') q1 q2 hold⟩
      apply h.set_bucket hb hd
      · intro n hn
        have := hp'.mem_iff.1 hn
        rcases List.mem_cons.1 this with rfl | hm
        · left; rfl
        · right; exact ⟨n, hp.mem_iff.2 (List.mem_append_right _ hm), rfl⟩
      · apply perm_nodup_ids q2.symm
        have hnd := perm_nodup_ids q1 h.nodup
        rw [List.map_append] at hnd
        have hnd2 := (List.nodup_append.1 hnd).2.1
        rw [List.map_cons, List.nodup_cons]
        refine ⟨?_, hnd2⟩
        intro hc
        obtain ⟨m, hm, hme⟩ := List.mem_map.1 hc
        exact hu m (q1.mem_iff.2 (List.mem_append_right _ hm)) hme
    · have htry : t.tryInsert now id addr = .err := by
        unfold RoutingTable.tryInsert
        rw [hgb, Res.ok_bind, he, Res.err_bind]
      rw [htry]
      simp only
      have hpos := h.pos
      have hne : t.data ≠ [] := by intro hc; rw [hc] at hpos; simp at hpos
      have hlastq : t.data.getLast? = some (t.data.getLast hne) := List.getLast?_eq_some_getLast hne
      have hlasti : t.data[t.data.length - 1]? = some (t.data.getLast hne) := by
        rw [← List.getLast?_eq_getElem?]; exact hlastq
      have hld : (t.data.getLast hne).depth = t.data.length - 1 := by
        rw [h.depth _ _ hlasti, if_neg (by omega)]
      have hwithin : t.idWithinSplittable id = .ok (decide (t.data.length - 1 < sharedPrefix t.ownId id)) := by
        unfold idWithinSplittable
        rw [hlastq]
        simp only [Res.unwrap_some, Res.ok_bind]
        unfold Bucket.idWithinRange
        cases hd : t.ownId.firstDiffBitIdx id with
        | none =>
          have hid := ID.firstDiff_eq_none.1 hd
          have hsp := sharedPrefix_of_none hd
          rw [hsp]
          -- a table of 161 buckets has no full last bucket: it can hold only the own id
          have : t.data.length - 1 < 160 := by
            have hb1 := h.bound
            by_cases hc : t.data.length - 1 < 160
            · exact hc
            · exfalso
              have hri : responsible t id = t.data.length - 1 := by unfold responsible; omega
              have hall : ∀ n ∈ b.nodes, n.id = id := by
                intro n hn
                have := h.place _ _ hb n hn
                unfold responsible at this hri
                have h160 := sharedPrefix_le t.ownId n.id
                have : sharedPrefix t.ownId n.id = 160 := by omega
                rw [← sharedPrefix_eq_160.1 this, hid]
              match hbn : b.nodes, hlen with
              | n :: _, _ =>
                have hm : n ∈ b.nodes := by rw [hbn]; simp
                exact hub n hm (hall n hm)
          simp [this]
        | some r =>
          simp only [sharedPrefix_of_some hd, hld]
      rw [hwithin, Res.ok_bind]
      by_cases hw : t.data.length - 1 < sharedPrefix t.ownId id
      · have hsp := sharedPrefix_le t.ownId id
        have hmax : t.maxDepthReached = false := by
          unfold maxDepthReached
          have := h.bound
          simp; omega
        simp only [hw, decide_true, Bool.true_eq_false, if_false, hmax, Bool.false_eq_true]
        obtain ⟨t1, hs, hi, ho, hl, hp⟩ := h.split (by omega)
        rw [hs, Res.ok_bind]
        obtain ⟨t', e1, e2, e3, e4⟩ := ih t1 hi (fun n hn => hu n (hp.mem_iff.1 hn)) (by omega)
        refine ⟨t', e1, e2, e3.trans ho, ?_⟩
        cases e4 with
        | stored old rest p1 p2 p3 => exact .stored old rest (hp.symm.trans p1) p2 p3
        | refused b p1 p2 p3 p4 p5 => exact .refused b (p1.trans hp) p2 p3 p4 p5
      · simp only [hw, decide_false, if_true]
        exact ⟨t, rfl, h, rfl, .refused b (.refl _) hb hlen hgood (Or.inr (by omega))⟩

/-- What one sighting does to a table that satisfies the invariant. -/
theorem Inv.touchNode {t : RoutingTable} (h : Inv t) (now : Nat) (id : ID) (addr : SockAddr) :
    ∃ t', t.touchNode now id addr = .ok t' ∧ Inv t' ∧ t'.ownId = t.ownId ∧
      ((Known t id ∧ t'.iterNodes = t.iterNodes.map (fun m => if m.id = id then m.touch now else m) ∧
          t'.data.length = t.data.length) ∨
       (¬ Known t id ∧ Inserted t t' now id addr)) := by
  obtain ⟨b, hb, hgb⟩ := h.getBucket id
  unfold RoutingTable.touchNode
  rw [hgb, Res.ok_bind]
  cases hto : b.touch now id with
  | some b' =>
    simp only
    have hknown : Known t id := by
      have : ¬ ∀ n ∈ b.nodes, n.id ≠ id := by
        intro hc; rw [(Bucket.touch_none_iff (now := now)).2 hc] at hto; cases hto
      simp only [Classical.not_forall, Classical.not_not] at this
      obtain ⟨n, hn, he⟩ := this
      exact ⟨n, mem_iterNodes.2 ⟨_, _, hb, hn⟩, he⟩
    obtain ⟨hd, hnodes⟩ := Bucket.touch_some hto (h.bucket_nodup hb)
    have hset : t.setBucket id b' = .ok { t with data := t.data.set (responsible t id) b' } := by
      unfold setBucket; rw [findBucketIdx_eq h.pos h.bound, Res.ok_bind]
    rw [hset]
    have hiter : ({ t with data := t.data.set (responsible t id) b' } : RoutingTable).iterNodes =
        t.iterNodes.map (fun m => if m.id = id then m.touch now else m) := by
      obtain ⟨pre, post, h1, h2, h3⟩ := Bucket.set_decomp _ _ _ b' hb
      have hother : ∀ i c, t.data[i]? = some c → i ≠ responsible t id →
          c.nodes.map (fun m => if m.id = id then m.touch now else m) = c.nodes := by
        intro i c hc hi
        rw [List.map_congr_left (g := _root_.id), List.map_id]
        intro m hm
        have := h.place i c hc m hm
        rw [if_neg (by intro he; rw [he] at this; exact hi this.symm)]
        rfl
      unfold iterNodes
      rw [show ({ t with data := t.data.set (responsible t id) b' } : RoutingTable).data = pre ++ b' :: post from h2, h1]
      simp only [List.flatMap_append, List.flatMap_cons, List.map_append, List.map_flatMap, hnodes]
      congr 1
      · apply flatMap_congr'
        intro c hc
        obtain ⟨i, hi⟩ := List.getElem?_of_mem hc
        have hil : i < pre.length := (List.getElem?_eq_some_iff.1 hi).1
        exact (hother i c (by rw [h1, List.getElem?_append_left hil]; exact hi) (by omega)).symm
      · congr 1
        apply flatMap_congr'
        intro c hc
        obtain ⟨i, hi⟩ := List.getElem?_of_mem hc
        refine (hother (pre.length + 1 + i) c ?_ (by omega)).symm
        rw [h1, List.getElem?_append_right (by omega), show pre.length + 1 + i - pre.length = i + 1 by omega,
          List.getElem?_cons_succ]
        exact hi
    refine ⟨_, rfl, ?_, rfl, Or.inl ⟨hknown, hiter, by simp⟩⟩
    apply h.set_bucket hb hd
    · intro n hn
      rw [hnodes] at hn
      obtain ⟨m, hm, rfl⟩ := List.mem_map.1 hn
      right
      refine ⟨m, hm, ?_⟩
      split <;> rfl
    · rw [hiter, List.map_map]
      have : (fun m : Node => m.id) ∘ (fun m => if m.id = id then m.touch now else m) = (fun m : Node => m.id) := by
        funext m
        show (if m.id = id then m.touch now else m).id = m.id
        split <;> rfl
      rw [this]
      exact h.nodup
  | none =>
    simp only
    have hu : ∀ n ∈ t.iterNodes, n.id ≠ id := by
      intro n hn he
      exact Bucket.touch_none_iff.1 hto n (h.mem_bucket hb hn he) he
    obtain ⟨t', h1, h2, h3, h4⟩ := insertNewGood_spec now id addr 162 t h hu (by have := h.pos; omega)
    exact ⟨t', h1, h2, h3, Or.inr ⟨fun ⟨n, hn, he⟩ => hu n hn he, h4⟩⟩

theorem Inv.default (own : ID) : Inv (RoutingTable.default own) := by
  refine ⟨by simp [RoutingTable.default], by simp [RoutingTable.default], ?_, ?_, ?_⟩
  · intro i b hb
    match i, hb with
    | 0, hb => simp [RoutingTable.default] at hb ⊢; rw [← hb]; rfl
    | i + 1, hb => simp [RoutingTable.default] at hb
  · intro i b hb n hn
    match i, hb with
    | 0, hb =>
      simp [RoutingTable.default] at hb
      rw [← hb, Bucket.new_nodes] at hn
      simp at hn
    | i + 1, hb => simp [RoutingTable.default] at hb
  · simp [RoutingTable.default, iterNodes, Bucket.new_nodes]

end RoutingTable
end Nargun
