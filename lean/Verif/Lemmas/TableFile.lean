import Verif.Lemmas.RoutingTable

/-! # Lemmas about the routing table's file format -/

namespace Nargun.TableFile
open Spec

/-- The decoder accepts exactly the byte string `e` in front of anything, yielding `a`, and reports an error on every
proper prefix of it. -/
def Codes {α} (d : Dec α) (e : Bytes) (a : α) : Prop :=
  (∀ rest, d (e ++ rest) = .ok (a, rest)) ∧ ∀ k < e.length, d (e.take k) = .err

theorem Codes.pure {α} (a : α) : Codes (fun bs => .ok (a, bs)) [] a :=
  ⟨fun _ => rfl, fun _ h => by simp at h⟩

theorem Codes.bind {α β} {d1 : Dec α} {e1 : Bytes} {a : α} {d2 : α → Dec β} {e2 : Bytes} {b : β}
    (h1 : Codes d1 e1 a) (h2 : Codes (d2 a) e2 b) :
    Codes (fun bs => d1 bs >>= fun r => d2 r.1 r.2) (e1 ++ e2) b := by
  constructor
  · intro rest
    simp only [List.append_assoc]
    rw [h1.1, Res.ok_bind]
    exact h2.1 rest
  · intro k hk
    rw [List.length_append] at hk
    by_cases hke : k < e1.length
    · simp only [List.take_append_of_le_length (Nat.le_of_lt hke)]
      rw [h1.2 k hke, Res.err_bind]
    · simp only [List.take_append]
      rw [List.take_of_length_le (by omega), h1.1, Res.ok_bind]
      exact h2.2 _ (by omega)

theorem Codes.map {α β} {d : Dec α} {e : Bytes} {a : α} (f : α → β) (h : Codes d e a) :
    Codes (fun bs => d bs >>= fun r => .ok (f r.1, r.2)) e (f a) := by
  have := Codes.bind (d2 := fun a bs => .ok (f a, bs)) h (Codes.pure (f a))
  simpa using this

theorem codes_takeN (e : Bytes) : Codes (takeN e.length) e e := by
  constructor
  · intro rest
    simp [takeN]
  · intro k hk
    simp only [takeN, List.length_take]
    rw [if_neg (by omega)]

theorem length_le (k n : Nat) : (le k n).length = k := by
  induction k generalizing n with
  | zero => rfl
  | succ k ih => simp [le, ih]

theorem ofLe_le (k n : Nat) (h : n < 256 ^ k) : ofLe (le k n) = n := by
  induction k generalizing n with
  | zero => simp at h; subst h; rfl
  | succ k ih =>
    have : n / 256 < 256 ^ k := by
      rw [Nat.div_lt_iff_lt_mul (by decide)]; rw [Nat.pow_succ] at h; exact h
    simp only [le, ofLe, ih _ this, BitVec.toNat_ofNat]
    omega

theorem codes_u64 {n : Nat} (h : n < 2 ^ 64) : Codes decU64 (encU64 n) n := by
  have h1 := codes_takeN (le 8 n)
  rw [length_le] at h1
  have h2 := h1.map ofLe
  rw [ofLe_le 8 n (by have : (256 : Nat) ^ 8 = 2 ^ 64 := by decide
                      omega)] at h2
  exact h2

theorem codes_id (id : ID) : Codes decId (encId id) id := by
  have hlen : id.bytes.length = 20 := id.len_eq
  unfold encId
  have h1 := codes_u64 (n := id.bytes.length) (by rw [hlen]; decide)
  have h2 : Codes (fun bs => takeN id.bytes.length bs >>= fun v => ID.visitBytes v.1 >>= fun i => .ok (i, v.2))
      id.bytes id := by
    have := Codes.bind (d2 := fun v bs => ID.visitBytes v >>= fun i => .ok (i, bs)) (codes_takeN id.bytes)
      (e2 := []) (b := id) ⟨fun rest => by
        simp only [ID.visitBytes, dif_pos id.len_eq, Res.ok_bind, List.nil_append], fun k hk => by simp at hk⟩
    simpa using this
  exact Codes.bind (d2 := fun n bs => takeN n bs >>= fun v => ID.visitBytes v.1 >>= fun i => .ok (i, v.2)) h1 h2

theorem codes_addr (a : SockAddr) : Codes decAddr (encAddr a) a := by
  unfold encAddr
  have h1 := codes_takeN a.ip.octets
  have h2 := codes_takeN (le 2 a.port.toNat)
  rw [length_le] at h2
  have h3 := h2.map (fun p => (⟨a.ip, BitVec.ofNat 16 (ofLe p)⟩ : SockAddr))
  have hp : (⟨a.ip, BitVec.ofNat 16 (ofLe (le 2 a.port.toNat))⟩ : SockAddr) = a := by
    rw [ofLe_le 2 _ (by have := a.port.isLt; omega), BitVec.ofNat_toNat, BitVec.setWidth_eq]
  rw [hp] at h3
  exact Codes.bind (d2 := fun ip bs => takeN 2 bs >>= fun port =>
    .ok ((⟨⟨ip.getD 0 0, ip.getD 1 0, ip.getD 2 0, ip.getD 3 0⟩, BitVec.ofNat 16 (ofLe port.1)⟩ : SockAddr), port.2))
    h1 h3

theorem codes_node (n : Node) : Codes decNode (encNode n) (forgetSeen n) :=
  Codes.bind (d2 := fun id bs => decAddr bs >>= fun addr => .ok ((⟨id, addr.1, none⟩ : Node), addr.2))
    (codes_id n.id) ((codes_addr n.addr).map (fun a => (⟨n.id, a, none⟩ : Node)))

theorem codes_slot (s : Option Node) : Codes decSlot (encSlot s) (s.map forgetSeen) := by
  cases s with
  | none =>
    constructor
    · intro rest; simp [encSlot, decSlot, takeN]
    · intro k hk
      simp only [encSlot, List.length_cons, List.length_nil] at hk
      have : k = 0 := by omega
      subst this
      rfl
  | some n =>
    have h1 : Codes (takeN 1) [1#8] [1#8] := codes_takeN [1#8]
    have h2 := (codes_node n).map some
    have h3 := Codes.bind (d2 := fun (_ : Bytes) bs => decNode bs >>= fun n => .ok (some n.1, n.2)) h1 h2
    show Codes decSlot ([1#8] ++ encNode n) (some (forgetSeen n))
    constructor
    · intro rest
      rw [← h3.1 rest]
      simp only [decSlot, List.append_assoc]
      rw [h1.1, Res.ok_bind, Res.ok_bind]
      rw [if_neg (by simp), if_pos rfl]
    · intro k hk
      by_cases h0 : k = 0
      · subst h0; rfl
      · obtain ⟨j, rfl⟩ : ∃ j, k = j + 1 := ⟨k - 1, by omega⟩
        have e : ([1#8] ++ encNode n).take (j + 1) = [1#8] ++ (encNode n).take j := rfl
        rw [e]
        simp only [decSlot]
        rw [h1.1, Res.ok_bind, if_neg (by simp), if_pos rfl]
        exact h2.2 j (by simp at hk; omega)

theorem codes_many {α β} (d : Dec β) (enc : α → Bytes) (f : α → β) (l : List α)
    (h : ∀ a ∈ l, Codes d (enc a) (f a)) : Codes (decMany d l.length) (l.flatMap enc) (l.map f) := by
  induction l with
  | nil => exact Codes.pure []
  | cons a l ih =>
    exact Codes.bind (d2 := fun x bs => decMany d l.length bs >>= fun xs => .ok (x :: xs.1, xs.2))
      (h a (by simp)) ((ih (fun b hb => h b (by simp [hb]))).map (fun xs => f a :: xs))

theorem codes_bucket (b : Bucket) (hd : b.depth < 2 ^ 64) : Codes decBucket (encBucket b) (Bucket.forgetSeen b) := by
  have h1 := codes_u64 hd
  have h2 := codes_many decSlot encSlot (Option.map forgetSeen) b.data (fun s _ => codes_slot s)
  rw [b.len_eq] at h2
  have h3 : Codes (fun bs => decMany decSlot K_NODE_PER_BUCKET bs >>= fun slots =>
      if h : slots.1.length = K_NODE_PER_BUCKET then .ok ((⟨b.depth, slots.1, h⟩ : Bucket), slots.2) else .err)
      (b.data.flatMap encSlot) (Bucket.forgetSeen b) := by
    have := Codes.bind (d2 := fun slots bs => if h : slots.length = K_NODE_PER_BUCKET then
        .ok ((⟨b.depth, slots, h⟩ : Bucket), bs) else .err) h2 (e2 := []) (b := Bucket.forgetSeen b)
      ⟨fun rest => by
        have hl : (b.data.map (Option.map forgetSeen)).length = K_NODE_PER_BUCKET := by simp [b.len_eq]
        simp only [dif_pos hl, List.nil_append]
        rfl, fun k hk => by simp at hk⟩
    simpa using this
  exact Codes.bind (d2 := fun depth bs => decMany decSlot K_NODE_PER_BUCKET bs >>= fun slots =>
      if h : slots.1.length = K_NODE_PER_BUCKET then .ok ((⟨depth, slots.1, h⟩ : Bucket), slots.2) else .err) h1 h3

/-- The table decoder with the rest of the input. -/
def decTable' : Dec RoutingTable := fun bs => do
  let own ← decId bs
  let n ← decU64 own.2
  let buckets ← decMany decBucket n.1 n.2
  .ok (⟨own.1, buckets.1⟩, buckets.2)

theorem decTable_eq (bs : Bytes) : decTable bs = decTable' bs >>= fun r => .ok r.1 := by
  unfold decTable decTable'
  simp only [bind_assoc]
  rfl

theorem codes_table (t : RoutingTable) (hl : t.data.length < 2 ^ 64) (hd : ∀ b ∈ t.data, b.depth < 2 ^ 64) :
    Codes decTable' (encTable t) (tableForgetSeen t) := by
  have h1 := codes_id t.ownId
  have h2 := codes_u64 hl
  have h3 := codes_many decBucket encBucket Bucket.forgetSeen t.data (fun b hb => codes_bucket b (hd b hb))
  have h4 := h3.map (fun bs => (⟨t.ownId, bs⟩ : RoutingTable))
  have h5 := Codes.bind (d2 := fun n bs => decMany decBucket n bs >>= fun buckets =>
    .ok ((⟨t.ownId, buckets.1⟩ : RoutingTable), buckets.2)) h2 h4
  exact Codes.bind (d2 := fun own bs => decU64 bs >>= fun n => decMany decBucket n.1 n.2 >>= fun buckets =>
    .ok ((⟨own, buckets.1⟩ : RoutingTable), buckets.2)) h1 h5

theorem decTable_encTable (t : RoutingTable) (hl : t.data.length < 2 ^ 64) (hd : ∀ b ∈ t.data, b.depth < 2 ^ 64)
    (rest : Bytes) : decTable (encTable t ++ rest) = .ok (tableForgetSeen t) := by
  rw [decTable_eq, (codes_table t hl hd).1 rest, Res.ok_bind]

theorem decTable_prefix (t : RoutingTable) (hl : t.data.length < 2 ^ 64) (hd : ∀ b ∈ t.data, b.depth < 2 ^ 64)
    (k : Nat) (hk : k < (encTable t).length) : decTable ((encTable t).take k) = .err := by
  rw [decTable_eq, (codes_table t hl hd).2 k hk, Res.err_bind]

/-! ## Whatever is accepted was written by the encoder -/

/-- The decoder accepts only encodings. -/
def Only {α} (d : Dec α) (enc : α → Bytes) : Prop := ∀ bs a rest, d bs = .ok (a, rest) → bs = enc a ++ rest

theorem takeN_inv {k : Nat} {bs v rest : Bytes} (h : takeN k bs = .ok (v, rest)) : bs = v ++ rest ∧ v.length = k := by
  simp only [takeN] at h
  split at h
  · injection h with h
    injection h with h1 h2
    subst h1; subst h2
    exact ⟨(List.take_append_drop k bs).symm, by simp; omega⟩
  · simp at h

theorem le_ofLe (bs : Bytes) : le bs.length (ofLe bs) = bs := by
  induction bs with
  | nil => rfl
  | cons b bs ih =>
    have hb := b.isLt
    have h1 : (b.toNat + 256 * ofLe bs) % 256 = b.toNat := by omega
    have h2 : (b.toNat + 256 * ofLe bs) / 256 = ofLe bs := by omega
    simp only [List.length_cons, le, ofLe, h1, h2, ih]
    simp

theorem only_u64 : Only decU64 encU64 := by
  intro bs a rest h
  simp only [decU64, Res.bind_eq_ok] at h
  obtain ⟨⟨v, r⟩, h1, h2⟩ := h
  injection h2 with h2
  injection h2 with h3 h4
  simp only at h3 h4
  subst h3; subst h4
  obtain ⟨h5, h6⟩ := takeN_inv h1
  rw [h5, encU64, ← h6, le_ofLe]

theorem only_id : Only decId encId := by
  intro bs a rest h
  simp only [decId, Res.bind_eq_ok] at h
  obtain ⟨⟨n, r⟩, h1, ⟨v, r'⟩, h2, id, h3, h4⟩ := h
  injection h4 with h4
  injection h4 with h5 h6
  simp only at h5 h6 h2 h3
  subst h5; subst h6
  obtain ⟨h7, h8⟩ := takeN_inv h2
  have h9 : id.bytes = v := by
    simp only [ID.visitBytes] at h3
    split at h3
    · injection h3 with h3; rw [← h3]
    · simp at h3
  rw [only_u64 _ _ _ h1, encId, h9, h7, h8, List.append_assoc]

theorem only_addr : Only decAddr encAddr := by
  intro bs a rest h
  simp only [decAddr, Res.bind_eq_ok] at h
  obtain ⟨⟨ip, r⟩, h1, ⟨port, r'⟩, h2, h4⟩ := h
  injection h4 with h4
  injection h4 with h5 h6
  simp only at h5 h6 h2
  subst h5; subst h6
  obtain ⟨h7, h8⟩ := takeN_inv h1
  obtain ⟨h9, h10⟩ := takeN_inv h2
  match ip, h8 with
  | [x, y, z, w], _ =>
    match port, h10 with
    | [lo, hi], _ =>
      have hl := lo.isLt
      have hh := hi.isLt
      have := le_ofLe [lo, hi]
      have h11 : (BitVec.ofNat 16 (ofLe [lo, hi])).toNat = ofLe [lo, hi] := by
        simp only [ofLe, BitVec.toNat_ofNat]
        omega
      simp only [encAddr, h11]
      simp only [List.length_cons, List.length_nil, Nat.zero_add, Nat.reduceAdd] at this
      rw [this, h7, h9]
      simp [Ipv4.octets]

theorem only_node : Only decNode encNode := by
  intro bs a rest h
  simp only [decNode, Res.bind_eq_ok] at h
  obtain ⟨⟨id, r⟩, h1, ⟨addr, r'⟩, h2, h4⟩ := h
  injection h4 with h4
  injection h4 with h5 h6
  simp only at h5 h6 h2
  subst h5; subst h6
  rw [only_id _ _ _ h1, only_addr _ _ _ h2, encNode, List.append_assoc]

theorem only_slot : Only decSlot encSlot := by
  intro bs a rest h
  simp only [decSlot, Res.bind_eq_ok] at h
  obtain ⟨⟨tag, r⟩, h1, h2⟩ := h
  obtain ⟨h3, _⟩ := takeN_inv h1
  simp only at h2
  split at h2
  · rename_i ht
    injection h2 with h2
    injection h2 with h4 h5
    subst h4; subst h5
    rw [h3, ht]; rfl
  · split at h2
    · rename_i ht
      rw [Res.bind_eq_ok] at h2
      obtain ⟨⟨n, r'⟩, h4, h5⟩ := h2
      injection h5 with h5
      injection h5 with h6 h7
      subst h6; subst h7
      rw [h3, ht, only_node _ _ _ h4]; rfl
    · simp at h2

theorem only_many {α} {d : Dec α} {enc : α → Bytes} (hd : Only d enc) (k : Nat) (bs : Bytes) (as : List α)
    (rest : Bytes) (h : decMany d k bs = .ok (as, rest)) : bs = as.flatMap enc ++ rest ∧ as.length = k := by
  induction k generalizing bs as with
  | zero =>
    simp only [decMany, Res.ok.injEq, Prod.mk.injEq] at h
    obtain ⟨rfl, rfl⟩ := h
    simp
  | succ k ih =>
    simp only [decMany, Res.bind_eq_ok] at h
    obtain ⟨⟨x, r⟩, h1, ⟨xs, r'⟩, h2, h3⟩ := h
    injection h3 with h3
    injection h3 with h4 h5
    simp only at h4 h5 h2
    subst h4; subst h5
    obtain ⟨h6, h7⟩ := ih _ _ h2
    rw [hd _ _ _ h1, h6]
    simp [h7]

theorem only_bucket : Only decBucket encBucket := by
  intro bs a rest h
  simp only [decBucket, Res.bind_eq_ok] at h
  obtain ⟨⟨depth, r⟩, h1, ⟨slots, r'⟩, h2, h4⟩ := h
  simp only at h4 h2
  split at h4
  · injection h4 with h4
    injection h4 with h5 h6
    subst h5; subst h6
    rw [only_u64 _ _ _ h1, (only_many only_slot _ _ _ _ h2).1, encBucket, List.append_assoc]
  · simp at h4

theorem decTable_only (bs : Bytes) (t : RoutingTable) (h : decTable bs = .ok t) :
    ∃ rest, bs = encTable t ++ rest := by
  simp only [decTable, Res.bind_eq_ok] at h
  obtain ⟨⟨own, r⟩, h1, ⟨n, r'⟩, h2, ⟨buckets, r''⟩, h3, h4⟩ := h
  simp only [Res.ok.injEq] at h4
  subst h4
  obtain ⟨h5, h6⟩ := only_many only_bucket _ _ _ _ h3
  simp only at h6 h2 h5
  refine ⟨r'', ?_⟩
  rw [only_id _ _ _ h1, only_u64 _ _ _ h2, h5, encTable, h6]
  simp only [List.append_assoc]

end Nargun.TableFile

namespace Nargun.RoutingTable
open Spec

theorem Inv.small {t : RoutingTable} (h : Inv t) : t.data.length < 2 ^ 64 ∧ ∀ b ∈ t.data, b.depth < 2 ^ 64 := by
  have hb := h.bound
  refine ⟨by omega, fun b hm => ?_⟩
  obtain ⟨i, hi⟩ := List.getElem?_of_mem hm
  have hil := (List.getElem?_eq_some_iff.1 hi).1
  rw [h.depth i b hi]
  split <;> omega

theorem forgetSeen_nodes (b : Bucket) : (Spec.Bucket.forgetSeen b).nodes = b.nodes.map forgetSeen := by
  unfold Bucket.nodes Spec.Bucket.forgetSeen
  simp only
  induction b.data with
  | nil => rfl
  | cons s l ih => cases s <;> simp [ih]

theorem forgetSeen_iterNodes (t : RoutingTable) : (tableForgetSeen t).iterNodes = t.iterNodes.map forgetSeen := by
  unfold iterNodes tableForgetSeen
  simp only [List.flatMap_map, List.map_flatMap]
  exact flatMap_congr' (fun b _ => forgetSeen_nodes b)

theorem Inv.forgetSeen {t : RoutingTable} (h : Inv t) : Inv (tableForgetSeen t) := by
  have hlen : (tableForgetSeen t).data.length = t.data.length := by simp [tableForgetSeen]
  refine ⟨by rw [hlen]; exact h.pos, by rw [hlen]; exact h.bound, ?_, ?_, ?_⟩
  · intro i c hc
    rw [hlen]
    simp only [tableForgetSeen, List.getElem?_map] at hc
    obtain ⟨b, hb, rfl⟩ := Option.map_eq_some_iff.1 hc
    exact h.depth i b hb
  · intro i c hc n hn
    simp only [tableForgetSeen, List.getElem?_map] at hc
    obtain ⟨b, hb, rfl⟩ := Option.map_eq_some_iff.1 hc
    rw [forgetSeen_nodes] at hn
    obtain ⟨m, hm, rfl⟩ := List.mem_map.1 hn
    have := h.place i b hb m hm
    unfold responsible at this ⊢
    rw [hlen]
    exact this
  · rw [forgetSeen_iterNodes, List.map_map]
    exact h.nodup

theorem newTable_afterStore {t : RoutingTable} (h : Inv t) (fresh : ID) :
    TableFile.newTable fresh (TableFile.afterStore t) = .ok (tableForgetSeen t) := by
  have := TableFile.decTable_encTable t h.small.1 h.small.2 []
  rw [List.append_nil] at this
  simp only [TableFile.newTable, TableFile.afterStore, TableFile.load, this]

theorem Inv.of_reachable {t : RoutingTable} (h : Reachable t) : Inv t := by
  induction h with
  | fresh own => exact Inv.default own
  | sighting t t' now id addr _ he ih =>
    obtain ⟨t1, h1, h2, _⟩ := ih.touchNode now id addr
    rw [h1] at he
    cases he
    exact h2
  | restart t t' fresh _ he ih =>
    rw [newTable_afterStore ih] at he
    cases he
    exact ih.forgetSeen

end Nargun.RoutingTable
