import Verif.Props.ProgramAnnounce
import Verif.Spec.DhtSizes

/-! # How large the datagrams are: C136 -/

namespace Nargun.Program

open Nargun Dht Krpc Spec

variable {w : World} {u : Setup} {s s0 : State} {es : List Event}

/-! ## The size of what is written -/

theorem decimal_length : ∀ (k n : Nat), n < 10 ^ (k + 1) → (decimal n).length ≤ k + 1
  | 0, n, h => by rw [decimal_lt n (by omega)]; simp
  | k + 1, n, h => by
    by_cases hn : n < 10
    · rw [decimal_lt n hn]; simp
    · rw [decimal_ge n (by omega), List.length_append]
      have := decimal_length k (n / 10) (by rw [Nat.pow_succ] at h; omega)
      simp; omega

theorem str_length {s : Bytes} (k : Nat) (h : s.length < 10 ^ (k + 1)) : (bencode (.str s)).length ≤ s.length + k + 2 := by
  have := decimal_length k _ h
  simp only [bencode, bencodeStr, List.length_append, List.length_cons]
  omega

theorem key_length {s : Bytes} (h : s.length < 10) : (bencodeStr s).length = s.length + 2 := by
  simp only [bencodeStr, List.length_append, List.length_cons, decimal_lt _ h, List.length_nil]
  omega

theorem field_length {pairs : List (Bytes × BVal)} {key : String} {v : BVal} (h : Spec.field pairs key = some v) :
    (bencode v).length ≤ (bencode (.dict pairs)).length := by
  have hm := lookup_mem h
  have : ∀ l : List (Bytes × BVal), (ascii key, v) ∈ l → (bencode v).length ≤ (bencodePairs l).length := by
    intro l
    induction l with
    | nil => simp
    | cons x l ih =>
      obtain ⟨k, x⟩ := x
      intro hm
      simp only [bencodePairs, List.length_append]
      rcases List.mem_cons.mp hm with hm | hm
      · cases hm; omega
      · have := ih hm; omega
  have := this pairs hm
  simp only [bencode, List.length_cons]
  omega

theorem str_le (s : Bytes) : s.length ≤ (bencode (.str s)).length := by
  simp only [bencode, bencodeStr, List.length_append, List.length_cons]
  omega

/-- What is in a message was in the bytes. -/
theorem heard_length {lib : Lib} {buf : Bytes} {m : Krpc.Message} (h : Krpc.Message.fromBytes lib buf = .ok m) :
    m.tid.length ≤ buf.length ∧
      ∀ t y id token vn, m = .response t y (.getPeers id token vn) → token.length ≤ buf.length := by
  obtain ⟨pairs, rest, hb, ho⟩ := C72_offered lib buf m h
  have hle : (bencode (.dict pairs)).length ≤ buf.length := by rw [hb, List.length_append]; omega
  have hf : ∀ key s, Spec.field pairs key = some (.str s) → s.length ≤ buf.length := fun key s hs =>
    Nat.le_trans (str_le s) (Nat.le_trans (field_length hs) hle)
  constructor
  · cases m with
    | query => exact hf "t" _ ho.1
    | response => exact hf "t" _ ho.1
    | error => exact hf "t" _ ho.1
  · rintro t y id token vn rfl
    obtain ⟨_, _, rp, hr, htk, _⟩ := ho
    have ht : Spec.field rp "token" = some (.str token) := by
      cases vn with
      | values => exact htk.2.1
      | nodes => exact htk.2.1
    exact Nat.le_trans (str_le token) (Nat.le_trans (field_length ht) (Nat.le_trans (field_length hr) hle))

/-- What is heard fits the buffer. -/
theorem heardBy_length {env : Env} {pause : Nat → Nat} {ih secret : ID} {table : RoutingTable} {peers : Peers} {now : Nat}
    {h : List DhtSystem.Entry} {d : DhtSystem.State}
    (hr : DhtSystem.Run env pause (DhtSystem.State.start ih secret table peers now) h d) {e : DhtSystem.Entry} (he : e ∈ h)
    {a : SockAddr} {m : Krpc.Message} (hm : heardBy e = some (a, m)) :
    m.tid.length ≤ 2600 ∧ ∀ t y id token vn, m = .response t y (.getPeers id token vn) → token.length ≤ 2600 := by
  have hf := DhtSystem.Flow.run hr
  unfold heardBy at hm
  split at hm
  · rename_i a' bytes m' effs hec
    cases hm
    have hce : _ ∈ conHistory h := List.mem_filterMap.mpr ⟨e, he, hec⟩
    obtain ⟨ch1, c1, c2, hcr, hcs⟩ := con_mem hf.con hce
    have hi := ((Inv.start table.ownId secret).run hcr).step hcs
    generalize hx : (⟨.datagram (some a) bytes, some m, effs⟩ : Dht.Entry) = x at hcs
    cases hcs with
    | datagram hrec =>
      simp only [Dht.Entry.mk.injEq] at hx
      obtain ⟨-, hh, -⟩ := hx
      replace hh := hh.symm
      unfold heardIn at hh
      split at hh
      · next hb =>
        cases hh
        have := heard_length hb
        rwa [hi.buf] at this
      · cases hh
    | command => cases hx
    | closed => cases hx
    | reorder => cases hx
  · cases hm

theorem values_length (vs : List Peer) :
    (bencode (.list (vs.map fun p => BVal.str p.addr.compact))).length = 8 * vs.length + 2 := by
  have : ∀ l : List Peer, (bencodeItems (l.map fun p => BVal.str p.addr.compact)).length = 8 * l.length + 1 := by
    intro l
    induction l with
    | nil => rfl
    | cons p l ih =>
      simp only [List.map_cons, bencodeItems, List.length_append, ih, bencode, List.length_cons]
      rw [key_length (by rw [SockAddr.compact_length]; omega), SockAddr.compact_length]
      omega
  simp only [bencode, List.length_cons, this]

theorem id_length (x : ID) : (bencode (.str x.bytes)).length = 23 := by
  have := x.len_eq
  simp only [ID_LEN] at this
  simp only [bencode, bencodeStr, List.length_append, List.length_cons, this]
  rw [decimal_ge 20 (by omega), decimal_lt (20 / 10) (by omega)]
  rfl

theorem lookup_known {k : Bytes} {x v : BVal} {l : List (Bytes × BVal)} (h : ((k, x) :: l).lookup k = some v) : x = v := by
  simpa using h

theorem lookup_other {k k' : Bytes} {x v : BVal} {l : List (Bytes × BVal)} (hk : k' ≠ k)
    (h : ((k, x) :: l).lookup k' = some v) : l.lookup k' = some v := by
  have : (k' == k) = false := by simpa using hk
  simpa [List.lookup, this] using h

theorem dict1 {p : List (Bytes × BVal)} {a : String} (h : p.map (·.1) = [a].map ascii) : ∃ x, p = [(ascii a, x)] := by
  match p, h with
  | [(_, x)], h => simp only [List.map_cons, List.map_nil, List.cons.injEq, and_true] at h; exact ⟨x, by rw [h]⟩

theorem dict2 {p : List (Bytes × BVal)} {a b : String} (h : p.map (·.1) = [a, b].map ascii) :
    ∃ x y, p = [(ascii a, x), (ascii b, y)] := by
  match p, h with
  | [(_, x), (_, y)], h =>
    simp only [List.map_cons, List.map_nil, List.cons.injEq, and_true] at h; exact ⟨x, y, by rw [h.1, h.2]⟩

theorem dict3 {p : List (Bytes × BVal)} {a b c : String} (h : p.map (·.1) = [a, b, c].map ascii) :
    ∃ x y z, p = [(ascii a, x), (ascii b, y), (ascii c, z)] := by
  match p, h with
  | [(_, x), (_, y), (_, z)], h =>
    simp only [List.map_cons, List.map_nil, List.cons.injEq, and_true] at h; exact ⟨x, y, z, by rw [h.1, h.2.1, h.2.2]⟩

theorem dict4 {p : List (Bytes × BVal)} {a b c d : String} (h : p.map (·.1) = [a, b, c, d].map ascii) :
    ∃ x y z t, p = [(ascii a, x), (ascii b, y), (ascii c, z), (ascii d, t)] := by
  match p, h with
  | [(_, x), (_, y), (_, z), (_, t)], h =>
    simp only [List.map_cons, List.map_nil, List.cons.injEq, and_true] at h
    exact ⟨x, y, z, t, by rw [h.1, h.2.1, h.2.2.1, h.2.2.2]⟩

theorem dict_length (p : List (Bytes × BVal)) :
    (bencode (.dict p)).length = 2 + (p.map fun x => (bencodeStr x.1).length + (bencode x.2).length).sum := by
  have : ∀ l : List (Bytes × BVal),
      (bencodePairs l).length = 1 + (l.map fun x => (bencodeStr x.1).length + (bencode x.2).length).sum := by
    intro l
    induction l with
    | nil => rfl
    | cons x l ih =>
      obtain ⟨k, x⟩ := x
      simp only [bencodePairs, List.length_append, ih, List.map_cons, List.sum_cons]
      omega
  simp only [bencode, List.length_cons, this]
  omega

theorem ascii_length_a : (bencodeStr (ascii "a")).length = 3 ∧ (bencodeStr (ascii "q")).length = 3 ∧
    (bencodeStr (ascii "t")).length = 3 ∧ (bencodeStr (ascii "y")).length = 3 ∧ (bencodeStr (ascii "r")).length = 3 ∧
    (bencodeStr (ascii "id")).length = 4 ∧ (bencodeStr (ascii "target")).length = 8 ∧
    (bencodeStr (ascii "info_hash")).length = 11 ∧ (bencodeStr (ascii "port")).length = 6 ∧
    (bencodeStr (ascii "token")).length = 7 ∧ (bencodeStr (ascii "nodes")).length = 7 ∧
    (bencodeStr (ascii "values")).length = 8 ∧ (bencode (.str (ascii "q"))).length = 3 ∧
    (bencode (.str (ascii "r"))).length = 3 ∧ (bencode (.str (ascii "ping"))).length = 6 ∧
    (bencode (.str (ascii "find_node"))).length = 11 ∧ (bencode (.str (ascii "get_peers"))).length = 11 ∧
    (bencode (.str (ascii "announce_peer"))).length = 16 := by
  decide +kernel

theorem port_length (p : U16) : (bencode (.int p.toNat)).length ≤ 7 := by
  have := decimal_length 4 p.toNat (by have := p.isLt; omega)
  have hd : decimalInt (p.toNat : Int) = decimal p.toNat := rfl
  simp only [bencode, hd, List.length_cons, List.length_append, List.length_nil]
  omega

/-- The length of a query. -/
theorem query_length {own : ID} {t b : Bytes} {v : ToConQuery} (h : IsQueryDatagram own t v b) (ht : t.length = 5) :
    match v with
    | .ping => b.length = 59
    | .findNode _ => b.length = 95
    | .getPeers _ => b.length = 98
    | .announcePeer _ _ token => token.length < 10000 → b.length ≤ 128 + token.length := by
  obtain ⟨pairs, args, rfl, hk, hka, -, -, h1, h2, h3, h4, h5⟩ := h
  obtain ⟨va, vq, vt, vy, rfl⟩ := dict4 hk
  obtain ⟨l1, l2, l3, l4, l5, l6, l7, l8, l9, l10, l11, l12, l13, l14, l15, l16, l17, l18⟩ := ascii_length_a
  have e1 := lookup_known (lookup_other (by decide) (lookup_other (by decide) h1))
  have e2 := lookup_known (lookup_other (by decide) (lookup_other (by decide) (lookup_other (by decide) h2)))
  have e3 := lookup_known h3
  subst e1 e2 e3
  have ht' : (bencode (.str t)).length = 7 := by
    have := key_length (s := t) (by omega)
    simp only [bencode, this, ht]
  cases v with
  | ping =>
    obtain ⟨x, rfl⟩ := dict1 hka
    have e4 := lookup_known h4
    have e5 := lookup_known (lookup_other (by decide) h5)
    subst e4 e5
    simp only [dict_length, List.map_cons, List.map_nil, List.sum_cons, List.sum_nil, id_length, ht', *]
    rfl
  | findNode target =>
    obtain ⟨x, y, rfl⟩ := dict2 hka
    have e4 := lookup_known h4
    have e5 := lookup_known (lookup_other (by decide) h5.1)
    have e6 := lookup_known (lookup_other (by decide) h5.2)
    subst e4 e5 e6
    simp only [dict_length, List.map_cons, List.map_nil, List.sum_cons, List.sum_nil, id_length, ht', *]
    rfl
  | getPeers ih =>
    obtain ⟨x, y, rfl⟩ := dict2 hka
    have e4 := lookup_known h4
    have e5 := lookup_known (lookup_other (by decide) h5.1)
    have e6 := lookup_known (lookup_other (by decide) h5.2)
    subst e4 e5 e6
    simp only [dict_length, List.map_cons, List.map_nil, List.sum_cons, List.sum_nil, id_length, ht', *]
    rfl
  | announcePeer ih port token =>
    intro htk
    obtain ⟨x, y, z, x', rfl⟩ := dict4 hka
    have e4 := lookup_known h4
    have e5 := lookup_known (lookup_other (by decide) h5.1)
    have e6 := lookup_known (lookup_other (by decide) h5.2.1)
    have e7 := lookup_known (lookup_other (by decide) (lookup_other (by decide) h5.2.2.1))
    have e8 := lookup_known (lookup_other (by decide) (lookup_other (by decide) (lookup_other (by decide) h5.2.2.2)))
    subst e4 e5 e6 e7 e8
    have hp := port_length port
    have hk := str_length (s := token) 3 (by omega)
    simp only [dict_length, List.map_cons, List.map_nil, List.sum_cons, List.sum_nil, id_length, ht', *]
    omega

/-- The length of an answer. -/
theorem answer_length {own : ID} {t tok b : Bytes} {v : ToConResp} (h : IsAnswerDatagram own t tok v b)
    (ht : t.length < 10000) (htok : tok.length = 20) (hn : (answerNodes v).length ≤ 15) (hp : (answerPeers v).length ≤ 216) :
    b.length ≤ 1816 + t.length ∧ b.length ≤ 479 + t.length + 8 * (answerPeers v).length := by
  obtain ⟨pairs, r, rfl, hk, hkr, -, -, h1, h2, h3, h4, h5⟩ := h
  obtain ⟨vr, vt, vy, rfl⟩ := dict3 hk
  obtain ⟨l1, l2, l3, l4, l5, l6, l7, l8, l9, l10, l11, l12, l13, l14, l15, l16, l17, l18⟩ := ascii_length_a
  have e1 := lookup_known (lookup_other (by decide) h1)
  have e2 := lookup_known (lookup_other (by decide) (lookup_other (by decide) h2))
  have e3 := lookup_known h3
  subst e1 e2 e3
  have ht' := str_length (s := t) 3 (by omega)
  have htok' := str_length (s := tok) 1 (by omega)
  rw [htok] at htok'
  have hns : ∀ l : List Node, l.length ≤ 15 → (bencode (.str (l.flatMap Node.compact))).length ≤ 394 := by
    intro l hl
    have := str_length (s := l.flatMap Node.compact) 2 (by rw [nodes_compact_length]; omega)
    rw [nodes_compact_length] at this
    omega
  cases v with
  | ping =>
    obtain ⟨x, rfl⟩ := dict1 hkr
    have e4 := lookup_known h4
    subst e4
    simp only [dict_length, List.map_cons, List.map_nil, List.sum_cons, List.sum_nil, id_length, *]
    omega
  | announcePeer =>
    obtain ⟨x, rfl⟩ := dict1 hkr
    have e4 := lookup_known h4
    subst e4
    simp only [dict_length, List.map_cons, List.map_nil, List.sum_cons, List.sum_nil, id_length, *]
    omega
  | findNode nodes =>
    obtain ⟨x, y, rfl⟩ := dict2 hkr
    have e4 := lookup_known h4
    have e5 := lookup_known (lookup_other (by decide) h5)
    subst e4 e5
    have := hns nodes.list hn
    simp only [dict_length, List.map_cons, List.map_nil, List.sum_cons, List.sum_nil, id_length, *]
    omega
  | getPeers vn =>
    cases vn with
    | values vs =>
      obtain ⟨x, y, z, rfl⟩ := dict3 hkr
      have e4 := lookup_known h4
      have e5 := lookup_known (lookup_other (by decide) h5.1)
      have e6 := lookup_known (lookup_other (by decide) (lookup_other (by decide) h5.2))
      subst e4 e5 e6
      have hp' : vs.length ≤ 216 := hp
      simp only [answerPeers]
      simp only [dict_length, List.map_cons, List.map_nil, List.sum_cons, List.sum_nil, id_length, values_length, *]
      omega
    | nodes nodes =>
      obtain ⟨x, y, z, rfl⟩ := dict3 hkr
      have e4 := lookup_known h4
      have e5 := lookup_known (lookup_other (by decide) (lookup_other (by decide) h5.1))
      have e6 := lookup_known (lookup_other (by decide) h5.2)
      subst e4 e5 e6
      have := hns nodes.list hn
      simp only [dict_length, List.map_cons, List.map_nil, List.sum_cons, List.sum_nil, id_length, *]
      omega

/-- C136: whatever arrived, every datagram the DHT sends is small enough. No query but `announce_peer` has more than 98
bytes, and that has at most 128 more than the token the node gave. An answer has at most 1816 bytes more than the
transaction id of the query, so that an answer to another instance of this program (whose transaction ids have five
bytes) fits its buffer of 2600 bytes. No datagram has more than 4416 bytes, far from the 65507 that UDP over IPv4 can
carry. -/
theorem C136_sizes (w : World) (u : Setup) (s0 s : State) (es : List Event) (h0 : Started w u s0)
    (ht : Reachable u.table) (hsha : ∀ x, (w.env.sha1 x).length = 20) (h : Run w s0 es s) (a : SockAddr) (b : Bytes)
    (hm : (a, b) ∈ sent (dhtEvents es)) :
    b.length ≤ 4416 ∧ b.length ≤ UDP_LIMIT ∧
    ((∃ t v, IsQueryDatagram u.table.ownId t v b ∧ b.length ≤ queryLimit v) ∨
      ∃ t v, IsAnswerDatagram u.table.ownId t (tokenFor w.env.sha1 u.secret a.ip) v b ∧
        b.length ≤ 1816 + t.length ∧ b.length ≤ 479 + t.length + 8 * (answerPeers v).length ∧
        (t.length = 5 → b.length ≤ RECEIVE_LIMIT)) := by
  obtain ⟨l, hr, hl⟩ := started_dht h0 h
  have hs' : (a, b) ∈ sent l := by
    rw [← hl] at hm
    obtain ⟨x, hx, he⟩ := List.mem_filterMap.mp hm
    exact List.mem_filterMap.mpr ⟨x, (List.mem_filter.mp hx).1, he⟩
  rcases Nargun.C104_first_hand ht .nil hr a b hs' with ⟨t, v, ht5, hq⟩ | ⟨t, v, ha, hn, hp, _, e, he, y, q, args, hh, _⟩
  · have hb := query_length hq ht5
    have : b.length ≤ 4416 ∧ b.length ≤ queryLimit v := by
      cases v with
      | ping => simp only [queryLimit] at hb ⊢; omega
      | findNode => simp only [queryLimit] at hb ⊢; omega
      | getPeers => simp only [queryLimit] at hb ⊢; omega
      | announcePeer ih port token =>
        simp only [queryLimit] at hb ⊢
        obtain ⟨_, _, h1, e, h2, t', y, id, vn, g1, g2, _⟩ := announces h0 ht h hm hq
        have he : e ∈ l := by
          have : e ∈ dhtEvents es := by rw [g1]; simp
          rw [← hl] at this
          exact (List.mem_filter.mp this).1
        have := (heardBy_length hr he g2).2 _ _ _ _ _ rfl
        omega
    exact ⟨this.1, by simp only [UDP_LIMIT]; omega, .inl ⟨t, v, hq, this.2⟩⟩
  · have h1 := (heardBy_length hr he hh).1
    have := answer_length ha (by simp only [Krpc.Message.tid] at h1; omega) (hsha _) hn hp
    simp only [Krpc.Message.tid] at h1
    simp only [UDP_LIMIT, RECEIVE_LIMIT]
    exact ⟨by omega, by omega, .inr ⟨t, v, ha, this.1, this.2, by omega⟩⟩

/-- A world whose hash function has values of 20 bytes. -/
def hashWorld : World := { demoWorld with env := ⟨fun b => (b ++ List.replicate 20 0#8).take 20, anyLib⟩ }

/-- The hypotheses of `C136_sizes` are met: queries of 59 and 98 bytes and an announcement of 127 are sent. -/
example : ∃ u s0 s es, Started hashWorld u s0 ∧ Reachable u.table ∧ (∀ x, (hashWorld.env.sha1 x).length = 20) ∧
    Run hashWorld s0 es s ∧ (sent (dhtEvents es)).map (fun x => x.2.length) = [59, 98, 127] := by
  have : play hashWorld { demoSetup with table := oneNode } announcesItself
      (fun es _ => (sent (dhtEvents es)).map (fun x => x.2.length)) = some [59, 98, 127] := by decide +kernel
  obtain ⟨s0, es, s, h0, h, hf⟩ := play_sound this
  refine ⟨_, s0, s, es, h0, ?_, ?_, h, hf⟩
  · exact .sighting _ _ _ _ _ (.fresh _) (by decide +kernel : (RoutingTable.default (exId 0#8)).touchNode 5 (exId 7#8)
      (exAddr 1) = .ok oneNode)
  · intro x
    simp only [hashWorld, List.length_take, List.length_append, List.length_replicate]
    omega

/-- C137, as far as it is true: every datagram is within the packet size, but for announcements with tokens and answers
to queries with transaction ids of more than 100 bytes (both the choice of the other node), and answers that name more
than 90 peers. -/
theorem C137_packet_partial (w : World) (u : Setup) (s0 s : State) (es : List Event) (h0 : Started w u s0)
    (ht : Reachable u.table) (hsha : ∀ x, (w.env.sha1 x).length = 20) (h : Run w s0 es s) (a : SockAddr) (b : Bytes)
    (hm : (a, b) ∈ sent (dhtEvents es)) :
    b.length ≤ PACKET_SIZE ∨
    (∃ t ih port token, IsQueryDatagram u.table.ownId t (.announcePeer ih port token) b ∧ 100 < token.length) ∨
    ∃ t v, IsAnswerDatagram u.table.ownId t (tokenFor w.env.sha1 u.secret a.ip) v b ∧
      (100 < t.length ∨ 90 < (answerPeers v).length) := by
  simp only [PACKET_SIZE]
  obtain ⟨_, _, ⟨t, v, h1, h2⟩ | ⟨t, v, h1, _, h2, _⟩⟩ := C136_sizes w u s0 s es h0 ht hsha h a b hm
  · cases v with
    | announcePeer ih port token =>
      by_cases hk : 100 < token.length
      · exact .inr (.inl ⟨t, ih, port, token, h1, hk⟩)
      · simp only [queryLimit] at h2; omega
    | _ => simp only [queryLimit] at h2; omega
  · by_cases hk : 100 < t.length ∨ 90 < (answerPeers v).length
    · exact .inr (.inr ⟨t, v, h1, hk⟩)
    · omega

/-- The answer of a tracker that names 160 peers. -/
def namesMany : TrackerResponse :=
  ⟨none, 1800, none, none, 1, 0, (List.range 160).map fun k => ⟨⟨⟨10#8, 0#8, 0#8, BitVec.ofNat 8 k⟩, 6881#16⟩⟩⟩

/-- A tracker names 160 peers, then another node asks for the peers of the torrent. -/
def tellsMany : List Act := [.ev (.tracker 0 .sends), .ev (.answered 0 namesMany),
  .datagram (some (exAddr 9)) (Krpc.Message.getPeersQuery (exId 9#8) Swarm.hash1 (tidOf 9#8)).intoBytes, .putQuery,
  .takeQuery, .putCommand, .command (tidOf 1#8), .sends]

/-- C137 is false: the number of peers in an answer is the packet size divided by the 6 bytes of a peer, but every peer
takes 8 bytes in the answer, and there are other fields. A tracker names 160 peers, another node asks for the peers, with
a transaction id of five bytes, and gets an answer that is larger than the packet size. -/
theorem C137_packet_violated :
    ∃ w u s0 s es b, Started w u s0 ∧ Reachable u.table ∧ (∀ x, (w.env.sha1 x).length = 20) ∧ Run w s0 es s ∧
      (exAddr 9, b) ∈ sent (dhtEvents es) ∧ PACKET_SIZE < b.length ∧ arrivals (dhtEvents es) =
        [(some (exAddr 9), (Krpc.Message.getPeersQuery (exId 9#8) u.infoHash (tidOf 9#8)).intoBytes)] := by
  have : play hashWorld demoSetup tellsMany (fun es _ => ((sent (dhtEvents es)).map (fun x => (x.1, x.2.length)),
      arrivals (dhtEvents es))) = some ([(exAddr 9, 1370)],
        [(some (exAddr 9), (Krpc.Message.getPeersQuery (exId 9#8) Swarm.hash1 (tidOf 9#8)).intoBytes)]) := by
    decide +kernel
  obtain ⟨s0, es, s, h0, h, hf⟩ := play_sound this
  obtain ⟨h1, h2⟩ := Prod.mk.inj hf
  have hm : (exAddr 9, 1370) ∈ (sent (dhtEvents es)).map (fun x => (x.1, x.2.length)) := by rw [h1]; simp
  obtain ⟨⟨x, b⟩, hx, hb⟩ := List.mem_map.mp hm
  obtain ⟨rfl, hb⟩ := Prod.mk.inj hb
  refine ⟨_, _, s0, s, es, b, h0, .fresh _, fun x => ?_, h, hx, ?_, h2⟩
  · simp only [hashWorld, List.length_take, List.length_append, List.length_replicate]
    omega
  · simp only [PACKET_SIZE]
    have : b.length = 1370 := hb
    omega

end Nargun.Program
