import Verif.Spec.Krpc
import Verif.Lemmas.Addr
import Verif.Props.Addr
import Verif.Props.TrackerResponse
import Verif.Props.Metainfo

/-! # Lemmas about the decoder of DHT messages -/

set_option linter.unusedSimpArgs false

namespace Nargun.Krpc

open Nargun Spec

/-! ## Visitors -/

theorem orElse_ok {α} {a : Res α} {b : Unit → Res α} {x : α} :
    orElse a b = .ok x ↔ a = .ok x ∨ (a = .err ∧ b () = .ok x) := by
  cases a <;> simp [orElse]

theorem orElse_panic {α} {a : Res α} {b : Unit → Res α} (ha : a ≠ .panic) (hb : b () ≠ .panic) :
    orElse a b ≠ .panic := by
  cases a <;> simp_all [orElse]

theorem bind_no_panic {α β} {x : Res α} {f : α → Res β} (hx : x ≠ .panic) (hf : ∀ a, x = .ok a → f a ≠ .panic) :
    (x >>= f) ≠ .panic := by
  cases x with
  | ok a => simpa using hf a rfl
  | err => simp
  | panic => exact absurd rfl hx

theorem ofOption_ok {α} {o : Option α} {a : α} : Res.ofOption o = .ok a ↔ o = some a := by
  cases o <;> simp [Res.ofOption]

theorem ofOption_no_panic {α} (o : Option α) : Res.ofOption o ≠ .panic := by
  cases o <;> simp [Res.ofOption]

/-- The keys a visitor reads. -/
def Visitor.Reads {σ} (p : Visitor σ) (ks : List Bytes) : Prop := ∀ s k v, k ∉ ks → p.field s k v = none

theorem Visitor.one_reads {α} (key : String) (read : BVal → Res α) :
    (Visitor.one key read).Reads [ascii key] := by
  intro s k v h
  simp only [List.mem_singleton] at h
  simp [Visitor.one, h]

theorem Visitor.and_reads {σ τ} {p : Visitor σ} {q : Visitor τ} {ks ls : List Bytes} (hp : p.Reads ks)
    (hq : q.Reads ls) : (p.and q).Reads (ks ++ ls) := by
  intro s k v h
  simp only [List.mem_append, not_or] at h
  simp [Visitor.and, hp _ _ _ h.1, hq _ _ _ h.2]

theorem Visitor.one_loop {α} (key : String) (read : BVal → Res α) (s : Option α) (pairs : List (Bytes × BVal))
    (hn : (pairs.map (·.1)).Nodup) :
    (Visitor.one key read).loop s pairs =
      match pairs.lookup (ascii key) with
      | none => .ok s
      | some v => read v >>= fun x => .ok (some x) := by
  induction pairs generalizing s with
  | nil => rfl
  | cons kv ps ih =>
    obtain ⟨k, v⟩ := kv
    simp only [List.map_cons, List.nodup_cons] at hn
    simp only [Visitor.loop]
    by_cases hk : k = ascii key
    · subst hk
      have hf : (Visitor.one key read).field s (ascii key) v = some (read v >>= fun x => .ok (some x)) := by
        simp [Visitor.one]
      rw [hf, List.lookup_cons_self]
      simp only
      cases hr : read v with
      | ok x => simp only [Res.ok_bind]; rw [ih _ hn.2, lookup_not_mem hn.1]
      | err => rfl
      | panic => rfl
    · have hf : (Visitor.one key read).field s k v = none := by simp [Visitor.one, hk]
      rw [hf, ih _ hn.2, lookup_cons_ne hk]

theorem Visitor.and_loop_ok {σ τ} {p : Visitor σ} {q : Visitor τ} {ks ls : List Bytes} (hp : p.Reads ks)
    (hq : q.Reads ls) (hd : ∀ k ∈ ks, k ∉ ls) (pairs : List (Bytes × BVal)) (s : σ × τ) (s' : σ × τ) :
    (p.and q).loop s pairs = .ok s' ↔ p.loop s.1 pairs = .ok s'.1 ∧ q.loop s.2 pairs = .ok s'.2 := by
  induction pairs generalizing s with
  | nil => simp [Visitor.loop, Prod.ext_iff]
  | cons kv ps ih =>
    obtain ⟨k, v⟩ := kv
    simp only [Visitor.loop]
    cases hpf : p.field s.1 k v with
    | some r =>
      have hk : k ∈ ks := Classical.byContradiction fun h => by rw [hp _ _ _ h] at hpf; simp at hpf
      have hqf : ∀ t, q.field t k v = none := fun t => hq _ _ _ (hd k hk)
      have : (p.and q).field s k v = some (r >>= fun a => .ok (a, s.2)) := by simp [Visitor.and, hpf]
      rw [this, hqf]
      cases r with
      | ok a => simp [ih]
      | err => simp
      | panic => simp
    | none =>
      cases hqf : q.field s.2 k v with
      | some r =>
        have : (p.and q).field s k v = some (r >>= fun b => .ok (s.1, b)) := by simp [Visitor.and, hpf, hqf]
        rw [this]
        cases r with
        | ok a => simp [ih]
        | err => simp
        | panic => simp
      | none =>
        have : (p.and q).field s k v = none := by simp [Visitor.and, hpf, hqf]
        rw [this]; simp [ih]

theorem Visitor.and_loop_panic {σ τ} {p : Visitor σ} {q : Visitor τ} {ks ls : List Bytes} (hp : p.Reads ks)
    (hq : q.Reads ls) (hd : ∀ k ∈ ks, k ∉ ls) (pairs : List (Bytes × BVal)) (s : σ × τ)
    (h1 : p.loop s.1 pairs ≠ .panic) (h2 : q.loop s.2 pairs ≠ .panic) : (p.and q).loop s pairs ≠ .panic := by
  induction pairs generalizing s with
  | nil => simp [Visitor.loop]
  | cons kv ps ih =>
    obtain ⟨k, v⟩ := kv
    simp only [Visitor.loop] at h1 h2 ⊢
    cases hpf : p.field s.1 k v with
    | some r =>
      have hk : k ∈ ks := Classical.byContradiction fun h => by rw [hp _ _ _ h] at hpf; simp at hpf
      have hqf : ∀ t, q.field t k v = none := fun t => hq _ _ _ (hd k hk)
      have : (p.and q).field s k v = some (r >>= fun a => .ok (a, s.2)) := by simp [Visitor.and, hpf]
      rw [this]
      rw [hqf] at h2
      rw [hpf] at h1
      cases r with
      | ok a => exact ih (a, s.2) h1 h2
      | err => simp
      | panic => simp at h1
    | none =>
      rw [hpf] at h1
      cases hqf : q.field s.2 k v with
      | some r =>
        have : (p.and q).field s k v = some (r >>= fun b => .ok (s.1, b)) := by simp [Visitor.and, hpf, hqf]
        rw [this]
        rw [hqf] at h2
        cases r with
        | ok a => exact ih (s.1, a) h1 h2
        | err => simp
        | panic => simp at h2
      | none =>
        have : (p.and q).field s k v = none := by simp [Visitor.and, hpf, hqf]
        rw [this]
        rw [hqf] at h2
        exact ih s h1 h2

/-- A field that was seen. -/
theorem Visitor.one_some {α} (key : String) (read : BVal → Res α) (pairs : List (Bytes × BVal))
    (hn : (pairs.map (·.1)).Nodup) (x : α) :
    (Visitor.one key read).loop none pairs = .ok (some x) ↔ ∃ v, Spec.field pairs key = some v ∧ read v = .ok x := by
  rw [Visitor.one_loop _ _ _ _ hn, Spec.field]
  cases pairs.lookup (ascii key) with
  | none => simp
  | some v => simp [Res.bind_eq_ok]

theorem Visitor.one_panic {α} (key : String) (read : BVal → Res α) (s : Option α) (pairs : List (Bytes × BVal))
    (hn : (pairs.map (·.1)).Nodup) (h : ∀ v, Spec.field pairs key = some v → read v ≠ .panic) :
    (Visitor.one key read).loop s pairs ≠ .panic := by
  rw [Visitor.one_loop _ _ _ _ hn]
  rw [Spec.field] at h
  cases hl : pairs.lookup (ascii key) with
  | none => simp
  | some v => exact bind_no_panic (h v hl) (by simp)

/-! ## Readers -/

theorem readId_ok {v : BVal} {x : ID} : readId v = .ok x ↔ v = .str x.bytes := by
  cases v with
  | str s =>
    simp only [readId, ID.visitBytes, BVal.str.injEq]
    split
    · rename_i h
      simp only [Res.ok.injEq]
      constructor
      · rintro rfl; rfl
      · rintro rfl; rfl
    · rename_i h
      simp only [reduceCtorEq, false_iff]
      rintro rfl
      exact h x.len_eq
  | _ => simp [readId]

theorem readBuf_ok {v : BVal} {x : Bytes} : readBuf v = .ok x ↔ v = .str x := by
  cases v <;> simp [readBuf]

theorem readType_ok {v : BVal} {y : Byte} : readType v = .ok y ↔ IsType (some v) y := by
  have hq : ascii "qre" = [typeQ, typeR, typeE] := by decide +kernel
  rw [IsType, hq]
  cases v with
  | str s =>
    match s with
    | [] => simp [readType]
    | [b] =>
      simp only [readType, Option.some.injEq, BVal.str.injEq, List.cons.injEq, and_true, List.mem_cons,
        List.not_mem_nil, or_false]
      split
      · rename_i h
        simp only [Res.ok.injEq]
        constructor
        · rintro rfl; exact ⟨rfl, h⟩
        · exact fun h => h.1
      · rename_i h
        simp only [reduceCtorEq, false_iff, not_and]
        rintro rfl; exact h
    | _ :: _ :: _ => simp [readType]
  | _ => simp [readType]

theorem readString_ok {lib : Lib} {v : BVal} {s : Bytes} :
    readString lib v = .ok s ↔ v = .str s ∧ lib.utf8 s = true := by
  cases v with
  | str t =>
    simp only [readString, BVal.str.injEq]
    split
    · rename_i h
      simp only [Res.ok.injEq]
      exact ⟨by rintro rfl; exact ⟨rfl, h⟩, fun h => h.1⟩
    · rename_i h
      simp only [reduceCtorEq, false_iff, not_and]
      rintro rfl; exact h
  | _ => simp [readString]

theorem readU16_ok {v : BVal} {n : U16} : readU16 v = .ok n ↔ v = .int n.toNat := by
  cases v with
  | int m =>
    simp only [readU16, BVal.int.injEq]
    have := n.isLt
    split
    · rename_i h
      simp only [Res.ok.injEq]
      constructor
      · rintro rfl; rw [BitVec.toNat_ofNat, Nat.mod_eq_of_lt (by omega)]; omega
      · rintro rfl; simp
    · rename_i h
      simp only [reduceCtorEq, false_iff]
      rintro rfl; exact h (by omega)
  | _ => simp [readU16]

theorem readU32_ok {v : BVal} {n : U32} : readU32 v = .ok n ↔ v = .int n.toNat := by
  cases v with
  | int m =>
    simp only [readU32, BVal.int.injEq]
    have := n.isLt
    split
    · rename_i h
      simp only [Res.ok.injEq]
      constructor
      · rintro rfl; rw [BitVec.toNat_ofNat, Nat.mod_eq_of_lt (by omega)]; omega
      · rintro rfl; simp
    · rename_i h
      simp only [reduceCtorEq, false_iff]
      rintro rfl; exact h (by omega)
  | _ => simp [readU32]

theorem readItems_iff {α} (read : BVal → Res α) (vs : List BVal) (as : List α) :
    readItems read vs = .ok as ↔
      vs.length = as.length ∧ ∀ i (h : i < vs.length) (h' : i < as.length), read vs[i] = .ok as[i] := by
  have : readItems read vs = decodeVec read vs := by
    induction vs with
    | nil => rfl
    | cons v vs ih => simp only [readItems, decodeVec, ih]
  rw [this, decodeVec_iff]

theorem nodes_received (ns : Nodes) : Nodes.visitBytes ns.compact = .ok (nodesReceived ns) := by
  obtain ⟨ns', h, hl⟩ := C20_nodes_roundtrip ns
  rw [h]
  have hx : (∃ n, ns' = .exact n) ↔ ns.list.length = 1 := by
    rw [Nodes.compact_eq] at h
    have hc := nodes_compact_length ns.list
    unfold Nodes.visitBytes at h
    rw [if_neg (by rw [hc]; omega), hc] at h
    split at h
    · rename_i h1
      rw [Res.bind_eq_ok] at h
      obtain ⟨n, _, hn⟩ := h
      cases hn
      have : 26 * ns.list.length / 26 = 1 := h1
      simp; omega
    · rename_i h1
      rw [Res.bind_eq_ok] at h
      obtain ⟨n, _, hn⟩ := h
      cases hn
      have : ¬ 26 * ns.list.length / 26 = 1 := h1
      simp; omega
  unfold nodesReceived
  cases ns' with
  | exact n =>
    have h1 : ns.list.length = 1 := hx.mp ⟨n, rfl⟩
    obtain ⟨m, hm⟩ := List.length_eq_one_iff.mp h1
    rw [hm] at hl ⊢
    simp only [Nodes.list, List.map_cons, List.map_nil, List.cons.injEq, and_true] at hl
    rw [hl]
  | closest l =>
    have h1 : ns.list.length ≠ 1 := fun h => by
      obtain ⟨n, hn⟩ := hx.mpr h
      simp at hn
    have hl' : l = ns.list.map fun n => { n with lastSeen := none } := hl
    rw [hl']
    generalize ns.list = m at h1
    match m, h1 with
    | [], _ => rfl
    | [_], h1 => simp at h1
    | _ :: _ :: _, _ => rfl

theorem readNodes_ok {v : BVal} {ns : Nodes} : readNodes v = .ok ns ↔ ∃ s, v = .str s ∧ IsNodes s ns := by
  have key : ∀ s, Nodes.visitBytes s = .ok ns ↔ IsNodes s ns := by
    intro s
    constructor
    · intro h
      by_cases hm : s.length % 26 = 0
      · obtain ⟨ns', h', hc⟩ := (C20_nodes_accepts s).2 hm
        rw [h] at h'
        cases h'
        have hr := nodes_received ns
        rw [hc, h] at hr
        injection hr with hr
        refine ⟨?_, ?_, ?_⟩
        · rw [← hc, Nodes.compact_eq]; rfl
        · intro n hn
          rw [hr] at hn
          unfold nodesReceived at hn
          split at hn
          · simp only [Nodes.list, List.mem_singleton] at hn; rw [hn]
          · simp only [Nodes.list, List.mem_map] at hn
            obtain ⟨m, _, rfl⟩ := hn
            rfl
        · cases ns with
          | exact n => simp [Nodes.list]
          | closest l =>
            simp only [reduceCtorEq, exists_false, false_iff, Nodes.list]
            intro h1
            obtain ⟨n, hn⟩ := List.length_eq_one_iff.mp h1
            simp [nodesReceived, Nodes.list, hn] at hr
      · rw [(C20_nodes_accepts s).1 hm] at h; simp at h
    · rintro ⟨rfl, h1, h2⟩
      have : ns.list.flatMap (fun n => n.id.bytes ++ n.addr.compact) = ns.compact := by
        rw [Nodes.compact_eq]; rfl
      rw [this, nodes_received]
      congr 1
      have hmap : ns.list.map (fun n => { n with lastSeen := none }) = ns.list := by
        conv => rhs; rw [← List.map_id ns.list]
        apply List.map_congr_left
        intro n hn
        have := h1 n hn
        obtain ⟨_, _, _⟩ := n
        simp only at this
        subst this; rfl
      unfold nodesReceived
      cases ns with
      | exact n =>
        simp only [Nodes.list, List.map_cons, List.map_nil, List.cons.injEq, and_true] at hmap ⊢
        rw [hmap]
      | closest l =>
        simp only [Nodes.list, reduceCtorEq, exists_false, false_iff] at h2 hmap ⊢
        match l, h2, hmap with
        | [], _, _ => rfl
        | [_], h2, _ => simp at h2
        | _ :: _ :: _, _, hmap => simp only [hmap]
  cases v with
  | str s => simp only [readNodes, key, BVal.str.injEq, exists_eq_left']
  | _ => simp [readNodes]

theorem readPeer_ok {v : BVal} {p : Peer} : readPeer v = .ok p ↔ v = .str p.addr.compact := by
  cases v with
  | str s =>
    simp only [readPeer, BVal.str.injEq]
    obtain ⟨a⟩ := p
    constructor
    · intro h
      by_cases hl : s.length = 6
      · obtain ⟨a', _, h1, h2⟩ := (C20_addr_accepts s).2 hl
        rw [h] at h1
        cases h1
        exact h2.symm
      · rw [Peer.visitBytes, if_neg (by exact hl)] at h; simp at h
    · rintro rfl
      exact (C20_addr_roundtrip a).2
  | _ => simp [readPeer]

theorem readPeers_ok {v : BVal} {ps : List Peer} :
    readVec readPeer v = .ok ps ↔ v = .list (ps.map fun p => .str p.addr.compact) := by
  cases v with
  | list vs =>
    simp only [readVec, readItems_iff, readPeer_ok, BVal.list.injEq]
    constructor
    · rintro ⟨h1, h2⟩
      apply List.ext_getElem
      · simpa using h1
      · intro i a b
        rw [h2 i a (by omega)]; simp
    · rintro rfl
      simp
  | _ => simp [readVec]

theorem readError_ok {lib : Lib} {v : BVal} {e : Error} : readError lib v = .ok e ↔ IsError lib.utf8 v e := by
  simp only [readError, orElse_ok, Res.bind_eq_ok, Res.ok.injEq, readU32_ok, readString_ok]
  constructor
  · rintro (⟨n, h, rfl⟩ | ⟨_, s, h, rfl⟩)
    · exact h
    · exact h
  · cases e with
    | code n => exact fun h => .inl ⟨n, h, rfl⟩
    | desc s =>
      rintro ⟨rfl, h⟩
      exact .inr ⟨by simp [readU32], s, ⟨rfl, h⟩, rfl⟩

theorem readErrors_ok {lib : Lib} {v : BVal} {es : List Error} :
    readVec (readError lib) v = .ok es ↔ ∃ items, v = .list items ∧ IsErrors lib.utf8 items es := by
  cases v with
  | list vs => simp only [readVec, readItems_iff, readError_ok, BVal.list.injEq, exists_eq_left', IsErrors]
  | _ => simp [readVec]

/-! ## No reader but the identifiers' panics -/

theorem readId_no_panic {v : BVal} (h : ∀ s, v = .str s → s.length = 20) : readId v ≠ .panic := by
  cases v with
  | str s => simp [readId, ID.visitBytes, ID_LEN, h s rfl]
  | _ => simp [readId]

theorem readBuf_no_panic (v : BVal) : readBuf v ≠ .panic := by cases v <;> simp [readBuf]

theorem readType_no_panic (v : BVal) : readType v ≠ .panic := by
  unfold readType; split
  · split <;> simp
  · simp

theorem readString_no_panic (lib : Lib) (v : BVal) : readString lib v ≠ .panic := by
  unfold readString; split
  · split <;> simp
  · simp

theorem readU16_no_panic (v : BVal) : readU16 v ≠ .panic := by
  unfold readU16; split
  · split <;> simp
  · simp

theorem readU32_no_panic (v : BVal) : readU32 v ≠ .panic := by
  unfold readU32; split
  · split <;> simp
  · simp

theorem readNodes_no_panic (v : BVal) : readNodes v ≠ .panic := by
  cases v with
  | str s =>
    simp only [readNodes]
    by_cases hm : s.length % 26 = 0
    · obtain ⟨ns', h', _⟩ := (C20_nodes_accepts s).2 hm
      rw [h']; simp
    · rw [(C20_nodes_accepts s).1 hm]; simp
  | _ => simp [readNodes]

theorem readPeer_no_panic (v : BVal) : readPeer v ≠ .panic := by
  cases v with
  | str s =>
    simp only [readPeer]
    by_cases hl : s.length = 6
    · obtain ⟨a', _, h1, _⟩ := (C20_addr_accepts s).2 hl
      rw [h1]; simp
    · rw [Peer.visitBytes, if_neg (by exact hl)]; simp
  | _ => simp [readPeer]

theorem readVec_no_panic {α} {read : BVal → Res α} (h : ∀ v, read v ≠ .panic) (v : BVal) :
    readVec read v ≠ .panic := by
  cases v with
  | list vs =>
    simp only [readVec]
    induction vs with
    | nil => simp [readItems]
    | cons v vs ih =>
      simp only [readItems]
      exact bind_no_panic (h v) fun _ _ => bind_no_panic ih (by simp)
  | _ => simp [readVec]

theorem readError_no_panic (lib : Lib) (v : BVal) : readError lib v ≠ .panic :=
  orElse_panic (bind_no_panic (readU32_no_panic v) (by simp))
    (bind_no_panic (readString_no_panic lib v) (by simp))

/-! ## Structs of one to four fields -/

theorem read_one {α β} (key : String) (read : BVal → Res α) (f : α → β) (pairs : List (Bytes × BVal))
    (hn : (pairs.map (·.1)).Nodup) (b : β) :
    ((Visitor.one key read).read (.dict pairs) >>= fun o => Res.ofOption o >>= fun a => .ok (f a)) = .ok b ↔
      ∃ v a, Spec.field pairs key = some v ∧ read v = .ok a ∧ f a = b := by
  simp only [Visitor.read, Res.bind_eq_ok, ofOption_ok, Res.ok.injEq]
  constructor
  · rintro ⟨o, h, a, rfl, rfl⟩
    obtain ⟨v, h1, h2⟩ := (Visitor.one_some key read pairs hn a).mp h
    exact ⟨v, a, h1, h2, rfl⟩
  · rintro ⟨v, a, h1, h2, rfl⟩
    exact ⟨some a, (Visitor.one_some key read pairs hn a).mpr ⟨v, h1, h2⟩, a, rfl, rfl⟩

theorem two_ok {α β} {k1 k2 : String} {r1 : BVal → Res α} {r2 : BVal → Res β}
    (hd : ascii k1 ≠ ascii k2) (pairs : List (Bytes × BVal)) (hn : (pairs.map (·.1)).Nodup) (a : α) (b : β) :
    ((Visitor.one k1 r1).and (Visitor.one k2 r2)).loop (none, none) pairs = .ok (some a, some b) ↔
      (∃ v, Spec.field pairs k1 = some v ∧ r1 v = .ok a) ∧ ∃ v, Spec.field pairs k2 = some v ∧ r2 v = .ok b := by
  rw [Visitor.and_loop_ok (Visitor.one_reads k1 r1) (Visitor.one_reads k2 r2) (by simpa using hd)]
  simp only [Visitor.one_some _ _ _ hn]

theorem three_ok {α β γ} {k1 k2 k3 : String} {r1 : BVal → Res α} {r2 : BVal → Res β} {r3 : BVal → Res γ}
    (h12 : ascii k1 ≠ ascii k2) (h13 : ascii k1 ≠ ascii k3) (h23 : ascii k2 ≠ ascii k3)
    (pairs : List (Bytes × BVal)) (hn : (pairs.map (·.1)).Nodup) (a : α) (b : β) (c : γ) :
    ((Visitor.one k1 r1).and ((Visitor.one k2 r2).and (Visitor.one k3 r3))).loop (none, none, none) pairs
        = .ok (some a, some b, some c) ↔
      (∃ v, Spec.field pairs k1 = some v ∧ r1 v = .ok a) ∧ (∃ v, Spec.field pairs k2 = some v ∧ r2 v = .ok b) ∧
      ∃ v, Spec.field pairs k3 = some v ∧ r3 v = .ok c := by
  rw [Visitor.and_loop_ok (Visitor.one_reads k1 r1)
    (Visitor.and_reads (Visitor.one_reads k2 r2) (Visitor.one_reads k3 r3)) (by simp [h12, h13])]
  simp only [two_ok h23 _ hn, Visitor.one_some _ _ _ hn]

theorem four_ok {α β γ δ} {k1 k2 k3 k4 : String} {r1 : BVal → Res α} {r2 : BVal → Res β} {r3 : BVal → Res γ}
    {r4 : BVal → Res δ}
    (h12 : ascii k1 ≠ ascii k2) (h13 : ascii k1 ≠ ascii k3) (h14 : ascii k1 ≠ ascii k4) (h23 : ascii k2 ≠ ascii k3)
    (h24 : ascii k2 ≠ ascii k4) (h34 : ascii k3 ≠ ascii k4)
    (pairs : List (Bytes × BVal)) (hn : (pairs.map (·.1)).Nodup) (a : α) (b : β) (c : γ) (d : δ) :
    ((Visitor.one k1 r1).and ((Visitor.one k2 r2).and ((Visitor.one k3 r3).and (Visitor.one k4 r4)))).loop
        (none, none, none, none) pairs = .ok (some a, some b, some c, some d) ↔
      (∃ v, Spec.field pairs k1 = some v ∧ r1 v = .ok a) ∧ (∃ v, Spec.field pairs k2 = some v ∧ r2 v = .ok b) ∧
      (∃ v, Spec.field pairs k3 = some v ∧ r3 v = .ok c) ∧ ∃ v, Spec.field pairs k4 = some v ∧ r4 v = .ok d := by
  rw [Visitor.and_loop_ok (Visitor.one_reads k1 r1) (Visitor.and_reads (Visitor.one_reads k2 r2)
    (Visitor.and_reads (Visitor.one_reads k3 r3) (Visitor.one_reads k4 r4))) (by simp [h12, h13, h14])]
  simp only [three_ok h23 h24 h34 _ hn, Visitor.one_some _ _ _ hn]

theorem announceArgs_ok {pairs : List (Bytes × BVal)} (hn : (pairs.map (·.1)).Nodup) {a : Arguments} :
    readAnnouncePeerArgs (.dict pairs) = .ok a ↔ ∃ id ih port token, Offers pairs a ∧ a = .announcePeer id ih port token := by
  simp only [readAnnouncePeerArgs, Visitor.read, Res.bind_eq_ok, ofOption_ok, Res.ok.injEq]
  constructor
  · rintro ⟨⟨i, h, p, t⟩, h1, id, rfl, ih, rfl, port, rfl, token, rfl, rfl⟩
    have := (four_ok (by decide +kernel) (by decide +kernel) (by decide +kernel) (by decide +kernel) (by decide +kernel)
      (by decide +kernel) pairs hn _ _ _ _).mp h1
    simp only [readId_ok, readU16_ok, readBuf_ok, exists_eq_right] at this
    exact ⟨id, ih, port, token, this, rfl⟩
  · rintro ⟨id, ih, port, token, h, rfl⟩
    refine ⟨(some id, some ih, some port, some token), (four_ok (by decide +kernel) (by decide +kernel)
      (by decide +kernel) (by decide +kernel) (by decide +kernel) (by decide +kernel) pairs hn _ _ _ _).mpr ?_,
      id, rfl, ih, rfl, port, rfl, token, rfl, rfl⟩
    simp only [readId_ok, readU16_ok, readBuf_ok, exists_eq_right]
    exact h
theorem findArgs_ok {pairs : List (Bytes × BVal)} (hn : (pairs.map (·.1)).Nodup) {a : Arguments} :
    readFindNodeArgs (.dict pairs) = .ok a ↔ ∃ id target, Offers pairs a ∧ a = .findNode id target := by
  simp only [readFindNodeArgs, Visitor.read, Res.bind_eq_ok, ofOption_ok, Res.ok.injEq]
  constructor
  · rintro ⟨⟨i, h⟩, h1, id, rfl, ih, rfl, rfl⟩
    have := (two_ok (by decide +kernel) pairs hn _ _).mp h1
    simp only [readId_ok, exists_eq_right] at this
    exact ⟨id, ih, this, rfl⟩
  · rintro ⟨id, ih, h, rfl⟩
    refine ⟨(some id, some ih), (two_ok (by decide +kernel) pairs hn _ _).mpr ?_, id, rfl, ih, rfl, rfl⟩
    simp only [readId_ok, exists_eq_right]
    exact h

theorem getArgs_ok {pairs : List (Bytes × BVal)} (hn : (pairs.map (·.1)).Nodup) {a : Arguments} :
    readGetPeersArgs (.dict pairs) = .ok a ↔ ∃ id ih, Offers pairs a ∧ a = .getPeers id ih := by
  simp only [readGetPeersArgs, Visitor.read, Res.bind_eq_ok, ofOption_ok, Res.ok.injEq]
  constructor
  · rintro ⟨⟨i, h⟩, h1, id, rfl, ih, rfl, rfl⟩
    have := (two_ok (by decide +kernel) pairs hn _ _).mp h1
    simp only [readId_ok, exists_eq_right] at this
    exact ⟨id, ih, this, rfl⟩
  · rintro ⟨id, ih, h, rfl⟩
    refine ⟨(some id, some ih), (two_ok (by decide +kernel) pairs hn _ _).mpr ?_, id, rfl, ih, rfl, rfl⟩
    simp only [readId_ok, exists_eq_right]
    exact h

theorem pingArgs_ok {pairs : List (Bytes × BVal)} (hn : (pairs.map (·.1)).Nodup) {a : Arguments} :
    readPingArgs (.dict pairs) = .ok a ↔ ∃ id, Offers pairs a ∧ a = .ping id := by
  simp only [readPingArgs]
  rw [read_one "id" readId Arguments.ping pairs hn a]
  simp only [readId_ok]
  constructor
  · rintro ⟨v, id, h, rfl, rfl⟩; exact ⟨id, h, rfl⟩
  · rintro ⟨id, h, rfl⟩; exact ⟨_, id, h, rfl, rfl⟩

theorem idField_no_panic {pairs : List (Bytes × BVal)} (hn : (pairs.map (·.1)).Nodup) {key : String}
    (h : IdSized pairs key) (s : Option ID) : (Visitor.one key readId).loop s pairs ≠ .panic :=
  Visitor.one_panic key readId s pairs hn fun v hv => readId_no_panic fun t ht => h t (by rw [hv, ht])

theorem announceArgs_no_panic {pairs : List (Bytes × BVal)} (hn : (pairs.map (·.1)).Nodup)
    (h1 : IdSized pairs "id") (h2 : IdSized pairs "info_hash") : readAnnouncePeerArgs (.dict pairs) ≠ .panic := by
  apply bind_no_panic
  · refine Visitor.and_loop_panic (Visitor.one_reads _ _) (Visitor.and_reads (Visitor.one_reads _ _)
      (Visitor.and_reads (Visitor.one_reads _ _) (Visitor.one_reads _ _))) (by decide +kernel) _ _
      (idField_no_panic hn h1 _) ?_
    refine Visitor.and_loop_panic (Visitor.one_reads _ _) (Visitor.and_reads (Visitor.one_reads _ _)
      (Visitor.one_reads _ _)) (by decide +kernel) _ _ (idField_no_panic hn h2 _) ?_
    exact Visitor.and_loop_panic (Visitor.one_reads _ _) (Visitor.one_reads _ _) (by decide +kernel) _ _
      (Visitor.one_panic _ _ _ _ hn fun v _ => readU16_no_panic v)
      (Visitor.one_panic _ _ _ _ hn fun v _ => readBuf_no_panic v)
  · rintro ⟨i, h, p, t⟩ _
    exact bind_no_panic (ofOption_no_panic _) fun _ _ => bind_no_panic (ofOption_no_panic _) fun _ _ =>
      bind_no_panic (ofOption_no_panic _) fun _ _ => bind_no_panic (ofOption_no_panic _) (by simp)

theorem findArgs_no_panic {pairs : List (Bytes × BVal)} (hn : (pairs.map (·.1)).Nodup)
    (h1 : IdSized pairs "id") (h2 : IdSized pairs "target") : readFindNodeArgs (.dict pairs) ≠ .panic := by
  apply bind_no_panic
  · exact Visitor.and_loop_panic (Visitor.one_reads _ _) (Visitor.one_reads _ _) (by decide +kernel) _ _
      (idField_no_panic hn h1 _) (idField_no_panic hn h2 _)
  · rintro ⟨i, h⟩ _
    exact bind_no_panic (ofOption_no_panic _) fun _ _ => bind_no_panic (ofOption_no_panic _) (by simp)

theorem getArgs_no_panic {pairs : List (Bytes × BVal)} (hn : (pairs.map (·.1)).Nodup)
    (h1 : IdSized pairs "id") (h2 : IdSized pairs "info_hash") : readGetPeersArgs (.dict pairs) ≠ .panic := by
  apply bind_no_panic
  · exact Visitor.and_loop_panic (Visitor.one_reads _ _) (Visitor.one_reads _ _) (by decide +kernel) _ _
      (idField_no_panic hn h1 _) (idField_no_panic hn h2 _)
  · rintro ⟨i, h⟩ _
    exact bind_no_panic (ofOption_no_panic _) fun _ _ => bind_no_panic (ofOption_no_panic _) (by simp)

theorem pingArgs_no_panic {pairs : List (Bytes × BVal)} (hn : (pairs.map (·.1)).Nodup)
    (h1 : IdSized pairs "id") : readPingArgs (.dict pairs) ≠ .panic :=
  bind_no_panic (idField_no_panic hn h1 _) fun _ _ => bind_no_panic (ofOption_no_panic _) (by simp)

theorem readArguments_dict {v : BVal} {a : Arguments} (h : readArguments v = .ok a) : ∃ pairs, v = .dict pairs := by
  cases v with
  | dict pairs => exact ⟨pairs, rfl⟩
  | _ =>
    simp [readArguments, orElse, readAnnouncePeerArgs, readFindNodeArgs, readGetPeersArgs, readPingArgs,
      Visitor.read] at h

theorem eq_err {α} {x : Res α} (h1 : ∀ a, x ≠ .ok a) (h2 : x ≠ .panic) : x = .err := by
  cases x with
  | ok a => exact absurd rfl (h1 a)
  | err => rfl
  | panic => exact absurd rfl h2

theorem readArguments_taken {pairs : List (Bytes × BVal)} (hn : (pairs.map (·.1)).Nodup) {a : Arguments}
    (h : readArguments (.dict pairs) = .ok a) : TakenFor pairs a := by
  simp only [readArguments, orElse_ok] at h
  have no : ∀ {r : Res Arguments}, r = .err → ∀ b, r ≠ .ok b := by rintro r rfl b; simp
  rcases h with h | ⟨e1, h | ⟨e2, h | ⟨e3, h⟩⟩⟩
  · obtain ⟨_, _, _, _, ho, rfl⟩ := (announceArgs_ok hn).mp h
    exact ⟨ho, fun b hb => by simp [argRank] at hb⟩
  · obtain ⟨_, _, ho, rfl⟩ := (findArgs_ok hn).mp h
    refine ⟨ho, fun b hb hob => ?_⟩
    cases b <;> simp only [argRank] at hb
    · exact no e1 _ ((announceArgs_ok hn).mpr ⟨_, _, _, _, hob, rfl⟩)
    all_goals omega
  · obtain ⟨_, _, ho, rfl⟩ := (getArgs_ok hn).mp h
    refine ⟨ho, fun b hb hob => ?_⟩
    cases b <;> simp only [argRank] at hb
    · exact no e1 _ ((announceArgs_ok hn).mpr ⟨_, _, _, _, hob, rfl⟩)
    · exact no e2 _ ((findArgs_ok hn).mpr ⟨_, _, hob, rfl⟩)
    all_goals omega
  · obtain ⟨_, ho, rfl⟩ := (pingArgs_ok hn).mp h
    refine ⟨ho, fun b hb hob => ?_⟩
    cases b <;> simp only [argRank] at hb
    · exact no e1 _ ((announceArgs_ok hn).mpr ⟨_, _, _, _, hob, rfl⟩)
    · exact no e2 _ ((findArgs_ok hn).mpr ⟨_, _, hob, rfl⟩)
    · exact no e3 _ ((getArgs_ok hn).mpr ⟨_, _, hob, rfl⟩)
    all_goals omega

theorem taken_readArguments {pairs : List (Bytes × BVal)} (hn : (pairs.map (·.1)).Nodup) {a : Arguments}
    (h1 : IdSized pairs "id") (h2 : IdSized pairs "info_hash") (h3 : IdSized pairs "target")
    (h : TakenFor pairs a) : readArguments (.dict pairs) = .ok a := by
  obtain ⟨ho, hb⟩ := h
  have e1 : 0 < argRank a → readAnnouncePeerArgs (.dict pairs) = .err := fun hr =>
    eq_err (fun b hk => by
      obtain ⟨_, _, _, _, hob, rfl⟩ := (announceArgs_ok hn).mp hk
      exact hb _ (by simpa only [argRank, respRank] using hr) hob) (announceArgs_no_panic hn h1 h2)
  have e2 : 1 < argRank a → readFindNodeArgs (.dict pairs) = .err := fun hr =>
    eq_err (fun b hk => by
      obtain ⟨_, _, hob, rfl⟩ := (findArgs_ok hn).mp hk
      exact hb _ (by simpa only [argRank, respRank] using hr) hob) (findArgs_no_panic hn h1 h3)
  have e3 : 2 < argRank a → readGetPeersArgs (.dict pairs) = .err := fun hr =>
    eq_err (fun b hk => by
      obtain ⟨_, _, hob, rfl⟩ := (getArgs_ok hn).mp hk
      exact hb _ (by simpa only [argRank, respRank] using hr) hob) (getArgs_no_panic hn h1 h2)
  simp only [readArguments, orElse_ok]
  cases a with
  | announcePeer id ih port token => exact .inl ((announceArgs_ok hn).mpr ⟨_, _, _, _, ho, rfl⟩)
  | findNode id target => exact .inr ⟨e1 (by simp [argRank, respRank]), .inl ((findArgs_ok hn).mpr ⟨_, _, ho, rfl⟩)⟩
  | getPeers id ih =>
    exact .inr ⟨e1 (by simp [argRank, respRank]), .inr ⟨e2 (by simp [argRank, respRank]), .inl ((getArgs_ok hn).mpr ⟨_, _, ho, rfl⟩)⟩⟩
  | ping id =>
    exact .inr ⟨e1 (by simp [argRank, respRank]), .inr ⟨e2 (by simp [argRank, respRank]), .inr ⟨e3 (by simp [argRank, respRank]), (pingArgs_ok hn).mpr ⟨_, ho, rfl⟩⟩⟩⟩

theorem readArguments_no_panic {v : BVal} (h : ∀ pairs, v = .dict pairs → (pairs.map (·.1)).Nodup ∧
    IdSized pairs "id" ∧ IdSized pairs "info_hash" ∧ IdSized pairs "target") : readArguments v ≠ .panic := by
  cases v with
  | dict pairs =>
    obtain ⟨hn, h1, h2, h3⟩ := h pairs rfl
    exact orElse_panic (announceArgs_no_panic hn h1 h2) (orElse_panic (findArgs_no_panic hn h1 h3)
      (orElse_panic (getArgs_no_panic hn h1 h2) (pingArgs_no_panic hn h1)))
  | _ =>
    simp [readArguments, orElse, readAnnouncePeerArgs, readFindNodeArgs, readGetPeersArgs, readPingArgs,
      Visitor.read]

/-! ## Answers -/

/-- The pairs left for the flattened field. -/
def restPairs (pairs : List (Bytes × BVal)) : List (Bytes × BVal) :=
  pairs.filter fun kv => kv.1 ≠ ascii "id" ∧ kv.1 ≠ ascii "token"

theorem restPairs_nodup {pairs : List (Bytes × BVal)} (hn : (pairs.map (·.1)).Nodup) :
    ((restPairs pairs).map (·.1)).Nodup :=
  hn.sublist ((List.filter_sublist).map _)

theorem restPairs_field (pairs : List (Bytes × BVal)) (key : String) (h1 : ascii key ≠ ascii "id")
    (h2 : ascii key ≠ ascii "token") : Spec.field (restPairs pairs) key = Spec.field pairs key := by
  simp only [Spec.field, restPairs]
  induction pairs with
  | nil => rfl
  | cons kv ps ih =>
    obtain ⟨k, v⟩ := kv
    rw [List.filter_cons]
    by_cases hk : k = ascii key
    · subst hk
      rw [if_pos (by simp [h1, h2]), List.lookup_cons_self, List.lookup_cons_self]
    · rw [lookup_cons_ne hk]
      split
      · rw [lookup_cons_ne hk, ih]
      · exact ih

theorem values_ok {pairs : List (Bytes × BVal)} (hn : (pairs.map (·.1)).Nodup) (r : ValuesOrNodes) :
    ((Visitor.one "values" (readVec readPeer)).read (.dict pairs) >>= fun o => Res.ofOption o >>= fun a =>
      (.ok (.values a) : Res ValuesOrNodes)) = .ok r ↔
      ∃ vs, Spec.field pairs "values" = some (.list (vs.map fun p => .str p.addr.compact)) ∧ r = .values vs := by
  rw [read_one "values" (readVec readPeer) ValuesOrNodes.values pairs hn r]
  simp only [readPeers_ok]
  constructor
  · rintro ⟨_, vs, h, rfl, rfl⟩; exact ⟨vs, h, rfl⟩
  · rintro ⟨vs, h, rfl⟩; exact ⟨_, vs, h, rfl, rfl⟩

theorem nodes_ok {pairs : List (Bytes × BVal)} (hn : (pairs.map (·.1)).Nodup) (r : ValuesOrNodes) :
    ((Visitor.one "nodes" readNodes).read (.dict pairs) >>= fun o => Res.ofOption o >>= fun a =>
      (.ok (.nodes a) : Res ValuesOrNodes)) = .ok r ↔
      ∃ ns, (∃ s, Spec.field pairs "nodes" = some (.str s) ∧ IsNodes s ns) ∧ r = .nodes ns := by
  rw [read_one "nodes" readNodes ValuesOrNodes.nodes pairs hn r]
  simp only [readNodes_ok]
  constructor
  · rintro ⟨_, ns, h, ⟨s, rfl, hs⟩, rfl⟩; exact ⟨ns, ⟨s, h, hs⟩, rfl⟩
  · rintro ⟨ns, ⟨s, h, hs⟩, rfl⟩; exact ⟨_, ns, h, ⟨s, rfl, hs⟩, rfl⟩

theorem values_no_panic {pairs : List (Bytes × BVal)} (hn : (pairs.map (·.1)).Nodup) :
    ((Visitor.one "values" (readVec readPeer)).read (.dict pairs) >>= fun o => Res.ofOption o >>= fun a =>
      (.ok (.values a) : Res ValuesOrNodes)) ≠ .panic :=
  bind_no_panic (Visitor.one_panic _ _ _ _ hn fun v _ => readVec_no_panic readPeer_no_panic v) fun _ _ =>
    bind_no_panic (ofOption_no_panic _) (by simp)

theorem nodes_no_panic {pairs : List (Bytes × BVal)} (hn : (pairs.map (·.1)).Nodup) :
    ((Visitor.one "nodes" readNodes).read (.dict pairs) >>= fun o => Res.ofOption o >>= fun a =>
      (.ok (.nodes a) : Res ValuesOrNodes)) ≠ .panic :=
  bind_no_panic (Visitor.one_panic _ _ _ _ hn fun v _ => readNodes_no_panic v) fun _ _ =>
    bind_no_panic (ofOption_no_panic _) (by simp)

/-- What `ValuesOrNodes` is read as. -/
def VN (pairs : List (Bytes × BVal)) : ValuesOrNodes → Prop
  | .values vs => Spec.field pairs "values" = some (.list (vs.map fun p => .str p.addr.compact))
  | .nodes ns => (∃ s, Spec.field pairs "nodes" = some (.str s) ∧ IsNodes s ns) ∧
    ∀ vs : List Peer, Spec.field pairs "values" ≠ some (.list (vs.map fun p => .str p.addr.compact))

theorem readValuesOrNodes_ok {pairs : List (Bytes × BVal)} (hn : (pairs.map (·.1)).Nodup) (r : ValuesOrNodes) :
    readValuesOrNodes (.dict pairs) = .ok r ↔ VN pairs r := by
  simp only [readValuesOrNodes, orElse_ok]
  rw [values_ok hn r, nodes_ok hn r]
  constructor
  · rintro (⟨vs, h, rfl⟩ | ⟨he, ns, h, rfl⟩)
    · exact h
    · refine ⟨h, fun vs hv => ?_⟩
      have := (values_ok hn (.values vs)).mpr ⟨vs, hv, rfl⟩
      rw [he] at this
      simp at this
  · cases r with
    | values vs => exact fun h => .inl ⟨vs, h, rfl⟩
    | nodes ns =>
      rintro ⟨h, h'⟩
      refine .inr ⟨eq_err (fun b hb => ?_) (values_no_panic hn), ns, h, rfl⟩
      obtain ⟨vs, hv, _⟩ := (values_ok hn b).mp hb
      exact h' vs hv

theorem readValuesOrNodes_no_panic {pairs : List (Bytes × BVal)} (hn : (pairs.map (·.1)).Nodup) :
    readValuesOrNodes (.dict pairs) ≠ .panic :=
  orElse_panic (values_no_panic hn) (nodes_no_panic hn)

theorem VN_rest (pairs : List (Bytes × BVal)) (r : ValuesOrNodes) : VN (restPairs pairs) r ↔ VN pairs r := by
  have h1 := restPairs_field pairs "values" (by decide +kernel) (by decide +kernel)
  have h2 := restPairs_field pairs "nodes" (by decide +kernel) (by decide +kernel)
  cases r <;> simp only [VN, h1, h2]

theorem getResp_ok {pairs : List (Bytes × BVal)} (hn : (pairs.map (·.1)).Nodup) {a : Response} :
    readGetPeersResp (.dict pairs) = .ok a ↔ ∃ id token vn, Spec.field pairs "id" = some (.str id.bytes) ∧
      Spec.field pairs "token" = some (.str token) ∧ VN pairs vn ∧ a = .getPeers id token vn := by
  simp only [readGetPeersResp, Visitor.read, Res.bind_eq_ok, ofOption_ok, Res.ok.injEq]
  have hr : ∀ vn, readValuesOrNodes (.dict (restPairs pairs)) = .ok vn ↔ VN pairs vn := fun vn => by
    rw [readValuesOrNodes_ok (restPairs_nodup hn), VN_rest]
  constructor
  · rintro ⟨⟨i, h⟩, h1, id, rfl, token, rfl, vn, h2, rfl⟩
    have := (two_ok (by decide +kernel) pairs hn _ _).mp h1
    simp only [readId_ok, readBuf_ok, exists_eq_right] at this
    exact ⟨id, token, vn, this.1, this.2, (hr vn).mp h2, rfl⟩
  · rintro ⟨id, token, vn, h1, h2, h3, rfl⟩
    refine ⟨(some id, some token), (two_ok (by decide +kernel) pairs hn _ _).mpr ?_, id, rfl, token, rfl, vn,
      (hr vn).mpr h3, rfl⟩
    simp only [readId_ok, readBuf_ok, exists_eq_right]
    exact ⟨h1, h2⟩

theorem findResp_ok {pairs : List (Bytes × BVal)} (hn : (pairs.map (·.1)).Nodup) {a : Response} :
    readFindNodeResp (.dict pairs) = .ok a ↔ ∃ id ns, OffersResponse pairs a ∧ a = .findNode id ns := by
  simp only [readFindNodeResp, Visitor.read, Res.bind_eq_ok, ofOption_ok, Res.ok.injEq]
  constructor
  · rintro ⟨⟨i, h⟩, h1, id, rfl, ns, rfl, rfl⟩
    obtain ⟨h2, v, h3, h4⟩ := (two_ok (by decide +kernel) pairs hn _ _).mp h1
    simp only [readId_ok, exists_eq_right] at h2
    obtain ⟨s, rfl, h5⟩ := readNodes_ok.mp h4
    exact ⟨id, ns, ⟨h2, s, h3, h5⟩, rfl⟩
  · rintro ⟨id, ns, ho, rfl⟩
    obtain ⟨h2, s, h3, h5⟩ := ho
    refine ⟨(some id, some ns), (two_ok (by decide +kernel) pairs hn _ _).mpr ⟨?_, _, h3, readNodes_ok.mpr ⟨s, rfl, h5⟩⟩,
      id, rfl, ns, rfl, rfl⟩
    simp only [readId_ok, exists_eq_right]
    exact h2

theorem pingResp_ok {pairs : List (Bytes × BVal)} (hn : (pairs.map (·.1)).Nodup) {a : Response} :
    readPingResp (.dict pairs) = .ok a ↔ ∃ id, OffersResponse pairs a ∧ a = .ping id := by
  simp only [readPingResp]
  rw [read_one "id" readId Response.ping pairs hn a]
  simp only [readId_ok]
  constructor
  · rintro ⟨v, id, h, rfl, rfl⟩; exact ⟨id, h, rfl⟩
  · rintro ⟨id, h, rfl⟩; exact ⟨_, id, h, rfl, rfl⟩

theorem announceResp_ok {pairs : List (Bytes × BVal)} (hn : (pairs.map (·.1)).Nodup) {a : Response} :
    readAnnouncePeerResp (.dict pairs) = .ok a ↔ ∃ id, OffersResponse pairs a ∧ a = .announcePeer id := by
  simp only [readAnnouncePeerResp]
  rw [read_one "id" readId Response.announcePeer pairs hn a]
  simp only [readId_ok]
  constructor
  · rintro ⟨v, id, h, rfl, rfl⟩; exact ⟨id, h, rfl⟩
  · rintro ⟨id, h, rfl⟩; exact ⟨_, id, h, rfl, rfl⟩

theorem getResp_no_panic {pairs : List (Bytes × BVal)} (hn : (pairs.map (·.1)).Nodup)
    (h1 : IdSized pairs "id") : readGetPeersResp (.dict pairs) ≠ .panic := by
  apply bind_no_panic
  · exact Visitor.and_loop_panic (Visitor.one_reads _ _) (Visitor.one_reads _ _) (by decide +kernel) _ _
      (idField_no_panic hn h1 _) (Visitor.one_panic _ _ _ _ hn fun v _ => readBuf_no_panic v)
  · rintro ⟨i, h⟩ _
    exact bind_no_panic (ofOption_no_panic _) fun _ _ => bind_no_panic (ofOption_no_panic _) fun _ _ =>
      bind_no_panic (readValuesOrNodes_no_panic (restPairs_nodup hn)) (by simp)

theorem findResp_no_panic {pairs : List (Bytes × BVal)} (hn : (pairs.map (·.1)).Nodup)
    (h1 : IdSized pairs "id") : readFindNodeResp (.dict pairs) ≠ .panic := by
  apply bind_no_panic
  · exact Visitor.and_loop_panic (Visitor.one_reads _ _) (Visitor.one_reads _ _) (by decide +kernel) _ _
      (idField_no_panic hn h1 _) (Visitor.one_panic _ _ _ _ hn fun v _ => readNodes_no_panic v)
  · rintro ⟨i, h⟩ _
    exact bind_no_panic (ofOption_no_panic _) fun _ _ => bind_no_panic (ofOption_no_panic _) (by simp)

theorem pingResp_no_panic {pairs : List (Bytes × BVal)} (hn : (pairs.map (·.1)).Nodup)
    (h1 : IdSized pairs "id") : readPingResp (.dict pairs) ≠ .panic :=
  bind_no_panic (idField_no_panic hn h1 _) fun _ _ => bind_no_panic (ofOption_no_panic _) (by simp)

theorem announceResp_no_panic {pairs : List (Bytes × BVal)} (hn : (pairs.map (·.1)).Nodup)
    (h1 : IdSized pairs "id") : readAnnouncePeerResp (.dict pairs) ≠ .panic :=
  bind_no_panic (idField_no_panic hn h1 _) fun _ _ => bind_no_panic (ofOption_no_panic _) (by simp)

theorem readResponse_dict {v : BVal} {a : Response} (h : readResponse v = .ok a) : ∃ pairs, v = .dict pairs := by
  cases v with
  | dict pairs => exact ⟨pairs, rfl⟩
  | _ =>
    simp [readResponse, orElse, readGetPeersResp, readFindNodeResp, readPingResp, readAnnouncePeerResp,
      Visitor.read] at h

/-- What `GetPeers` answers offer, in terms of `OffersResponse`. -/
theorem getResp_offers {pairs : List (Bytes × BVal)} (hn : (pairs.map (·.1)).Nodup) {a : Response} :
    readGetPeersResp (.dict pairs) = .ok a ↔ respRank a < 2 ∧ TakenForResponse pairs a := by
  rw [getResp_ok hn]
  constructor
  · rintro ⟨id, token, vn, h1, h2, h3, rfl⟩
    cases vn with
    | values vs => exact ⟨by simp [respRank], ⟨h1, h2, h3⟩, fun r' hr => by simp [respRank] at hr⟩
    | nodes ns =>
      obtain ⟨h4, h5⟩ := h3
      refine ⟨by simp [respRank], ⟨h1, h2, h4⟩, fun r' hr => ?_⟩
      match r' with
      | .getPeers _ _ (.values vs) => exact fun ho => h5 vs ho.2.2
      | .getPeers _ _ (.nodes _) => simp [respRank] at hr
      | .findNode _ _ => simp [respRank] at hr
      | .ping _ => simp [respRank] at hr
      | .announcePeer _ => simp [respRank] at hr
  · rintro ⟨hr, ho, hb⟩
    match a with
    | .getPeers id token (.values vs) => exact ⟨id, token, .values vs, ho.1, ho.2.1, ho.2.2, rfl⟩
    | .getPeers id token (.nodes ns) =>
      exact ⟨id, token, .nodes ns, ho.1, ho.2.1, ⟨ho.2.2, fun vs hv =>
        hb (.getPeers id token (.values vs)) (by simp [respRank]) ⟨ho.1, ho.2.1, hv⟩⟩, rfl⟩
    | .findNode _ _ => simp [respRank] at hr
    | .ping _ => simp [respRank] at hr
    | .announcePeer _ => simp [respRank] at hr

/-- If the first variant does not convert, neither of its two forms is offered. -/
theorem getResp_err {pairs : List (Bytes × BVal)} (hn : (pairs.map (·.1)).Nodup)
    (h : readGetPeersResp (.dict pairs) = .err) (r : Response) (hr : respRank r < 2) :
    ¬ OffersResponse pairs r := by
  intro ho
  have no : ∀ a, readGetPeersResp (.dict pairs) ≠ .ok a := fun a => by rw [h]; simp
  match r with
  | .getPeers id token (.values vs) =>
    exact no _ ((getResp_ok hn).mpr ⟨id, token, .values vs, ho.1, ho.2.1, ho.2.2, rfl⟩)
  | .getPeers id token (.nodes ns) =>
    by_cases hv : ∃ vs : List Peer, Spec.field pairs "values" = some (.list (vs.map fun p => .str p.addr.compact))
    · obtain ⟨vs, hv⟩ := hv
      exact no _ ((getResp_ok hn).mpr ⟨id, token, .values vs, ho.1, ho.2.1, hv, rfl⟩)
    · exact no _ ((getResp_ok hn).mpr ⟨id, token, .nodes ns, ho.1, ho.2.1,
        ⟨ho.2.2, fun vs h => hv ⟨vs, h⟩⟩, rfl⟩)
  | .findNode _ _ => simp [respRank] at hr
  | .ping _ => simp [respRank] at hr
  | .announcePeer _ => simp [respRank] at hr

theorem readResponse_taken {pairs : List (Bytes × BVal)} (hn : (pairs.map (·.1)).Nodup) {a : Response}
    (h : readResponse (.dict pairs) = .ok a) : TakenForResponse pairs a := by
  simp only [readResponse, orElse_ok] at h
  have no : ∀ {r : Res Response}, r = .err → ∀ b, r ≠ .ok b := by rintro r rfl b; simp
  have rank_cases : ∀ r : Response, respRank r < 2 ∨ (∃ id ns, r = .findNode id ns) ∨ (∃ id, r = .ping id) ∨
      ∃ id, r = .announcePeer id := by
    intro r
    match r with
    | .getPeers id token (.values vs) => exact .inl (by simp [respRank])
    | .getPeers id token (.nodes ns) => exact .inl (by simp [respRank])
    | .findNode id ns => exact .inr (.inl ⟨id, ns, rfl⟩)
    | .ping id => exact .inr (.inr (.inl ⟨id, rfl⟩))
    | .announcePeer id => exact .inr (.inr (.inr ⟨id, rfl⟩))
  rcases h with h | ⟨e1, h | ⟨e2, h | ⟨e3, h⟩⟩⟩
  · exact ((getResp_offers hn).mp h).2
  · obtain ⟨_, _, ho, rfl⟩ := (findResp_ok hn).mp h
    exact ⟨ho, fun b hb => getResp_err hn e1 b hb⟩
  · obtain ⟨_, ho, rfl⟩ := (pingResp_ok hn).mp h
    refine ⟨ho, fun b hb hob => ?_⟩
    rcases rank_cases b with hr | ⟨id, ns, rfl⟩ | ⟨id, rfl⟩ | ⟨id, rfl⟩
    · exact getResp_err hn e1 b hr hob
    · exact no e2 _ ((findResp_ok hn).mpr ⟨_, _, hob, rfl⟩)
    · simp [respRank] at hb
    · simp [respRank] at hb
  · obtain ⟨_, ho, rfl⟩ := (announceResp_ok hn).mp h
    refine ⟨ho, fun b hb hob => ?_⟩
    rcases rank_cases b with hr | ⟨id, ns, rfl⟩ | ⟨id, rfl⟩ | ⟨id, rfl⟩
    · exact getResp_err hn e1 b hr hob
    · exact no e2 _ ((findResp_ok hn).mpr ⟨_, _, hob, rfl⟩)
    · exact no e3 _ ((pingResp_ok hn).mpr ⟨_, hob, rfl⟩)
    · simp [respRank] at hb

theorem taken_readResponse {pairs : List (Bytes × BVal)} (hn : (pairs.map (·.1)).Nodup) {a : Response}
    (h1 : IdSized pairs "id") (h : TakenForResponse pairs a) : readResponse (.dict pairs) = .ok a := by
  have h' := h
  obtain ⟨ho, hb⟩ := h'
  have e1 : 2 ≤ respRank a → readGetPeersResp (.dict pairs) = .err := fun hr =>
    eq_err (fun b hk => by
      have := (getResp_offers hn).mp hk
      exact hb b (by omega) this.2.1) (getResp_no_panic hn h1)
  have e2 : 2 < respRank a → readFindNodeResp (.dict pairs) = .err := fun hr =>
    eq_err (fun b hk => by
      obtain ⟨_, _, hob, rfl⟩ := (findResp_ok hn).mp hk
      exact hb _ (by simpa only [argRank, respRank] using hr) hob) (findResp_no_panic hn h1)
  have e3 : 3 < respRank a → readPingResp (.dict pairs) = .err := fun hr =>
    eq_err (fun b hk => by
      obtain ⟨_, hob, rfl⟩ := (pingResp_ok hn).mp hk
      exact hb _ (by simpa only [argRank, respRank] using hr) hob) (pingResp_no_panic hn h1)
  simp only [readResponse, orElse_ok]
  match a with
  | .getPeers id token (.values vs) => exact .inl ((getResp_offers hn).mpr ⟨by simp [respRank], h⟩)
  | .getPeers id token (.nodes ns) => exact .inl ((getResp_offers hn).mpr ⟨by simp [respRank], h⟩)
  | .findNode id target => exact .inr ⟨e1 (by simp [argRank, respRank]), .inl ((findResp_ok hn).mpr ⟨_, _, ho, rfl⟩)⟩
  | .ping id =>
    exact .inr ⟨e1 (by simp [argRank, respRank]), .inr ⟨e2 (by simp [argRank, respRank]), .inl ((pingResp_ok hn).mpr ⟨_, ho, rfl⟩)⟩⟩
  | .announcePeer id =>
    exact .inr ⟨e1 (by simp [argRank, respRank]), .inr ⟨e2 (by simp [argRank, respRank]), .inr ⟨e3 (by simp [argRank, respRank]), (announceResp_ok hn).mpr ⟨_, ho, rfl⟩⟩⟩⟩

theorem readResponse_no_panic {v : BVal} (h : ∀ pairs, v = .dict pairs → (pairs.map (·.1)).Nodup ∧
    IdSized pairs "id") : readResponse v ≠ .panic := by
  cases v with
  | dict pairs =>
    obtain ⟨hn, h1⟩ := h pairs rfl
    exact orElse_panic (getResp_no_panic hn h1) (orElse_panic (findResp_no_panic hn h1)
      (orElse_panic (pingResp_no_panic hn h1) (announceResp_no_panic hn h1)))
  | _ =>
    simp [readResponse, orElse, readGetPeersResp, readFindNodeResp, readPingResp, readAnnouncePeerResp,
      Visitor.read]

end Nargun.Krpc
