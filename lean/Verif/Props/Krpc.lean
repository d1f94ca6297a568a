import Verif.Lemmas.Krpc

/-! # C71–C73: DHT messages -/

set_option linter.unusedSimpArgs false

namespace Nargun.Krpc

open Nargun Spec

/-! ## Dictionaries inside dictionaries -/

theorem field_canonical {d : Nat} {pairs : List (Bytes × BVal)} (hc : CanonicalPairs d pairs) {key : String} {v : BVal}
    (h : Spec.field pairs key = some v) : Canonical d v :=
  canonicalPairs_mem hc _ (lookup_mem h)

theorem dict_nodup {d : Nat} {pairs : List (Bytes × BVal)} (h : Canonical d (.dict pairs)) :
    (pairs.map (·.1)).Nodup ∧ ∃ d', CanonicalPairs d' pairs := by
  cases d with
  | zero => simp [Canonical] at h
  | succ d => simp only [Canonical] at h; exact ⟨keys_nodup h.2, d, h.1⟩

/-! ## Messages -/

theorem query_ok {lib : Lib} {d : Nat} {pairs : List (Bytes × BVal)} (hc : Canonical d (.dict pairs)) {m : Message}
    (h : readQuery lib (.dict pairs) = .ok m) : OffersMessage lib.utf8 pairs m ∧ msgRank m = 0 := by
  obtain ⟨hn, d', hp⟩ := dict_nodup hc
  simp only [readQuery, Visitor.read, Res.bind_eq_ok, ofOption_ok, Res.ok.injEq] at h
  obtain ⟨⟨t, y, q, a⟩, h1, t, rfl, y, rfl, q, rfl, a, rfl, rfl⟩ := h
  obtain ⟨⟨v1, h2, h3⟩, ⟨v2, h4, h5⟩, ⟨v3, h6, h7⟩, v4, h8, h9⟩ := (four_ok (by decide +kernel) (by decide +kernel)
    (by decide +kernel) (by decide +kernel) (by decide +kernel) (by decide +kernel) pairs hn _ _ _ _).mp h1
  obtain ⟨args, rfl⟩ := readArguments_dict h9
  have hn' := (dict_nodup (field_canonical hp h8)).1
  rw [readBuf_ok] at h3
  subst h3
  rw [readString_ok] at h7
  obtain ⟨rfl, h7⟩ := h7
  refine ⟨⟨h2, ?_, h6, h7, args, h8, readArguments_taken hn' h9⟩, rfl⟩
  rw [h4]; exact readType_ok.mp h5

theorem query_mpr {lib : Lib} {d : Nat} {pairs : List (Bytes × BVal)} (hc : Canonical d (.dict pairs))
    (hs : ∀ args, Spec.field pairs "a" = some (.dict args) →
      IdSized args "id" ∧ IdSized args "info_hash" ∧ IdSized args "target")
    {m : Message} (h : OffersMessage lib.utf8 pairs m) (hr : msgRank m = 0) :
    readQuery lib (.dict pairs) = .ok m := by
  obtain ⟨hn, d', hp⟩ := dict_nodup hc
  cases m with
  | query t y q a =>
    obtain ⟨h1, h2, h3, h4, args, h5, h6⟩ := h
    have hn' := (dict_nodup (field_canonical hp h5)).1
    obtain ⟨s1, s2, s3⟩ := hs args h5
    simp only [readQuery, Visitor.read, Res.bind_eq_ok, ofOption_ok, Res.ok.injEq]
    refine ⟨(some t, some y, some q, some a), (four_ok (by decide +kernel) (by decide +kernel)
      (by decide +kernel) (by decide +kernel) (by decide +kernel) (by decide +kernel) pairs hn _ _ _ _).mpr ?_,
      t, rfl, y, rfl, q, rfl, a, rfl, rfl⟩
    refine ⟨⟨_, h1, rfl⟩, ⟨_, h2.1, readType_ok.mpr ⟨rfl, h2.2⟩⟩, ⟨_, h3, readString_ok.mpr ⟨rfl, h4⟩⟩,
      _, h5, taken_readArguments hn' s1 s2 s3 h6⟩
  | response t y r => simp [msgRank] at hr
  | error t y e => simp [msgRank] at hr

theorem responseMessage_ok {utf8 : Bytes → Bool} {d : Nat} {pairs : List (Bytes × BVal)}
    (hc : Canonical d (.dict pairs)) {m : Message}
    (h : readResponseMessage (.dict pairs) = .ok m) : OffersMessage utf8 pairs m ∧ msgRank m = 1 := by
  obtain ⟨hn, d', hp⟩ := dict_nodup hc
  simp only [readResponseMessage, Visitor.read, Res.bind_eq_ok, ofOption_ok, Res.ok.injEq] at h
  obtain ⟨⟨t, y, a⟩, h1, t, rfl, y, rfl, a, rfl, rfl⟩ := h
  obtain ⟨⟨v1, h2, h3⟩, ⟨v2, h4, h5⟩, v4, h8, h9⟩ := (three_ok (by decide +kernel) (by decide +kernel)
    (by decide +kernel) pairs hn _ _ _).mp h1
  obtain ⟨args, rfl⟩ := readResponse_dict h9
  have hn' := (dict_nodup (field_canonical hp h8)).1
  rw [readBuf_ok] at h3
  subst h3
  refine ⟨⟨h2, ?_, args, h8, readResponse_taken hn' h9⟩, rfl⟩
  rw [h4]; exact readType_ok.mp h5

theorem responseMessage_mpr {utf8 : Bytes → Bool} {d : Nat} {pairs : List (Bytes × BVal)}
    (hc : Canonical d (.dict pairs)) (hs : Sized pairs) {m : Message} (h : OffersMessage utf8 pairs m)
    (hr : msgRank m = 1) : readResponseMessage (.dict pairs) = .ok m := by
  obtain ⟨hn, d', hp⟩ := dict_nodup hc
  cases m with
  | response t y r =>
    obtain ⟨h1, h2, args, h5, h6⟩ := h
    have hn' := (dict_nodup (field_canonical hp h5)).1
    simp only [readResponseMessage, Visitor.read, Res.bind_eq_ok, ofOption_ok, Res.ok.injEq]
    refine ⟨(some t, some y, some r), (three_ok (by decide +kernel) (by decide +kernel)
      (by decide +kernel) pairs hn _ _ _).mpr ?_, t, rfl, y, rfl, r, rfl, rfl⟩
    exact ⟨⟨_, h1, rfl⟩, ⟨_, h2.1, readType_ok.mpr ⟨rfl, h2.2⟩⟩, _, h5,
      taken_readResponse hn' (hs.2 args h5) h6⟩
  | query t y q a => simp [msgRank] at hr
  | error t y e => simp [msgRank] at hr

theorem errorMessage_ok {lib : Lib} {d : Nat} {pairs : List (Bytes × BVal)} (hc : Canonical d (.dict pairs))
    {m : Message} :
    readErrorMessage lib (.dict pairs) = .ok m ↔ OffersMessage lib.utf8 pairs m ∧ msgRank m = 2 := by
  obtain ⟨hn, d', hp⟩ := dict_nodup hc
  simp only [readErrorMessage, Visitor.read, Res.bind_eq_ok, ofOption_ok, Res.ok.injEq]
  constructor
  · rintro ⟨⟨t, y, a⟩, h1, t, rfl, y, rfl, a, rfl, rfl⟩
    obtain ⟨⟨v1, h2, h3⟩, ⟨v2, h4, h5⟩, v4, h8, h9⟩ := (three_ok (by decide +kernel) (by decide +kernel)
      (by decide +kernel) pairs hn _ _ _).mp h1
    obtain ⟨items, rfl, hi⟩ := readErrors_ok.mp h9
    rw [readBuf_ok] at h3
    subst h3
    refine ⟨⟨h2, ?_, items, h8, hi⟩, rfl⟩
    rw [h4]; exact readType_ok.mp h5
  · rintro ⟨h, hr⟩
    cases m with
    | error t y e =>
      obtain ⟨h1, h2, items, h5, h6⟩ := h
      refine ⟨(some t, some y, some e), (three_ok (by decide +kernel) (by decide +kernel)
        (by decide +kernel) pairs hn _ _ _).mpr ?_, t, rfl, y, rfl, e, rfl, rfl⟩
      exact ⟨⟨_, h1, rfl⟩, ⟨_, h2.1, readType_ok.mpr ⟨rfl, h2.2⟩⟩, _, h5, readErrors_ok.mpr ⟨items, rfl, h6⟩⟩
    | query t y q a => simp [msgRank] at hr
    | response t y r => simp [msgRank] at hr

theorem query_no_panic {lib : Lib} {d : Nat} {pairs : List (Bytes × BVal)} (hc : Canonical d (.dict pairs))
    (hs : Sized pairs) : readQuery lib (.dict pairs) ≠ .panic := by
  obtain ⟨hn, d', hp⟩ := dict_nodup hc
  apply bind_no_panic
  · refine Visitor.and_loop_panic (Visitor.one_reads _ _) (Visitor.and_reads (Visitor.one_reads _ _)
      (Visitor.and_reads (Visitor.one_reads _ _) (Visitor.one_reads _ _))) (by decide +kernel) _ _
      (Visitor.one_panic _ _ _ _ hn fun v _ => readBuf_no_panic v) ?_
    refine Visitor.and_loop_panic (Visitor.one_reads _ _) (Visitor.and_reads (Visitor.one_reads _ _)
      (Visitor.one_reads _ _)) (by decide +kernel) _ _
      (Visitor.one_panic _ _ _ _ hn fun v _ => readType_no_panic v) ?_
    refine Visitor.and_loop_panic (Visitor.one_reads _ _) (Visitor.one_reads _ _) (by decide +kernel) _ _
      (Visitor.one_panic _ _ _ _ hn fun v _ => readString_no_panic lib v)
      (Visitor.one_panic _ _ _ _ hn fun v hv => readArguments_no_panic fun args ha => ?_)
    subst ha
    exact ⟨(dict_nodup (field_canonical hp hv)).1, hs.1 args hv⟩
  · rintro ⟨i, h, p, t⟩ _
    exact bind_no_panic (ofOption_no_panic _) fun _ _ => bind_no_panic (ofOption_no_panic _) fun _ _ =>
      bind_no_panic (ofOption_no_panic _) fun _ _ => bind_no_panic (ofOption_no_panic _) (by simp)

theorem responseMessage_no_panic {d : Nat} {pairs : List (Bytes × BVal)} (hc : Canonical d (.dict pairs))
    (hs : Sized pairs) : readResponseMessage (.dict pairs) ≠ .panic := by
  obtain ⟨hn, d', hp⟩ := dict_nodup hc
  apply bind_no_panic
  · refine Visitor.and_loop_panic (Visitor.one_reads _ _) (Visitor.and_reads (Visitor.one_reads _ _)
      (Visitor.one_reads _ _)) (by decide +kernel) _ _
      (Visitor.one_panic _ _ _ _ hn fun v _ => readBuf_no_panic v) ?_
    refine Visitor.and_loop_panic (Visitor.one_reads _ _) (Visitor.one_reads _ _) (by decide +kernel) _ _
      (Visitor.one_panic _ _ _ _ hn fun v _ => readType_no_panic v)
      (Visitor.one_panic _ _ _ _ hn fun v hv => readResponse_no_panic fun args ha => ?_)
    subst ha
    exact ⟨(dict_nodup (field_canonical hp hv)).1, hs.2 args hv⟩
  · rintro ⟨i, h, p⟩ _
    exact bind_no_panic (ofOption_no_panic _) fun _ _ => bind_no_panic (ofOption_no_panic _) fun _ _ =>
      bind_no_panic (ofOption_no_panic _) (by simp)

theorem errorMessage_no_panic {lib : Lib} {d : Nat} {pairs : List (Bytes × BVal)} (hc : Canonical d (.dict pairs)) :
    readErrorMessage lib (.dict pairs) ≠ .panic := by
  obtain ⟨hn, d', hp⟩ := dict_nodup hc
  apply bind_no_panic
  · refine Visitor.and_loop_panic (Visitor.one_reads _ _) (Visitor.and_reads (Visitor.one_reads _ _)
      (Visitor.one_reads _ _)) (by decide +kernel) _ _
      (Visitor.one_panic _ _ _ _ hn fun v _ => readBuf_no_panic v) ?_
    exact Visitor.and_loop_panic (Visitor.one_reads _ _) (Visitor.one_reads _ _) (by decide +kernel) _ _
      (Visitor.one_panic _ _ _ _ hn fun v _ => readType_no_panic v)
      (Visitor.one_panic _ _ _ _ hn fun v hv => readVec_no_panic (readError_no_panic lib) v)
  · rintro ⟨i, h, p⟩ _
    exact bind_no_panic (ofOption_no_panic _) fun _ _ => bind_no_panic (ofOption_no_panic _) fun _ _ =>
      bind_no_panic (ofOption_no_panic _) (by simp)

theorem readMessage_dict {lib : Lib} {v : BVal} {m : Message} (h : readMessage lib v = .ok m) :
    ∃ pairs, v = .dict pairs := by
  cases v with
  | dict pairs => exact ⟨pairs, rfl⟩
  | _ => simp [readMessage, orElse, readQuery, readResponseMessage, readErrorMessage, Visitor.read] at h

theorem readMessage_taken {lib : Lib} {d : Nat} {pairs : List (Bytes × BVal)} (hc : Canonical d (.dict pairs))
    (hs : Sized pairs) {m : Message} :
    readMessage lib (.dict pairs) = .ok m ↔ TakenForMessage lib.utf8 pairs m := by
  simp only [readMessage, orElse_ok]
  constructor
  · rintro (h | ⟨e1, h | ⟨e2, h⟩⟩)
    · obtain ⟨ho, hr⟩ := query_ok hc h
      exact ⟨ho, fun m' h' => by omega⟩
    · obtain ⟨ho, hr⟩ := responseMessage_ok (utf8 := lib.utf8) hc h
      refine ⟨ho, fun m' h' ho' => ?_⟩
      have := query_mpr hc hs.1 ho' (by omega)
      rw [e1] at this; simp at this
    · obtain ⟨ho, hr⟩ := (errorMessage_ok hc).mp h
      refine ⟨ho, fun m' h' ho' => ?_⟩
      have : msgRank m' = 0 ∨ msgRank m' = 1 := by omega
      rcases this with hm | hm
      · have := query_mpr hc hs.1 ho' hm
        rw [e1] at this; simp at this
      · have := responseMessage_mpr hc hs ho' hm
        rw [e2] at this; simp at this
  · rintro ⟨ho, hb⟩
    have e1 : 0 < msgRank m → readQuery lib (.dict pairs) = .err := fun hr =>
      eq_err (fun b hk => by
        obtain ⟨hob, h0⟩ := query_ok hc hk
        exact hb b (by omega) hob) (query_no_panic hc hs)
    have e2 : 1 < msgRank m → readResponseMessage (.dict pairs) = .err := fun hr =>
      eq_err (fun b hk => by
        obtain ⟨hob, h0⟩ := responseMessage_ok (utf8 := lib.utf8) hc hk
        exact hb b (by omega) hob) (responseMessage_no_panic hc hs)
    cases m with
    | query t y q a => exact .inl (query_mpr hc hs.1 ho rfl)
    | response t y r => exact .inr ⟨e1 (by simp [msgRank]), .inl (responseMessage_mpr hc hs ho rfl)⟩
    | error t y e =>
      exact .inr ⟨e1 (by simp [msgRank]), .inr ⟨e2 (by simp [msgRank]), (errorMessage_ok hc).mpr ⟨ho, rfl⟩⟩⟩

theorem readMessage_no_panic {lib : Lib} {d : Nat} {v : BVal} (hc : Canonical d v)
    (hs : ∀ pairs, v = .dict pairs → Sized pairs) : readMessage lib v ≠ .panic := by
  cases v with
  | dict pairs =>
    have := hs pairs rfl
    exact orElse_panic (query_no_panic hc this) (orElse_panic (responseMessage_no_panic hc this)
      (errorMessage_no_panic hc))
  | _ => simp [readMessage, orElse, readQuery, readResponseMessage, readErrorMessage, Visitor.read]

/-! ## C72, C73 -/

/-- C72: what a datagram is taken for. It is a dictionary, possibly followed by other bytes, and the message is one the
dictionary offers: transaction id under `t`, type under `y`, and under `a`, `r` or `e` what the message says. -/
theorem C72_offered (lib : Lib) (bs : Bytes) (m : Message) (h : Message.fromBytes lib bs = .ok m) :
    ∃ pairs rest, bs = bencode (.dict pairs) ++ rest ∧ OffersMessage lib.utf8 pairs m := by
  simp only [Message.fromBytes, Res.bind_eq_ok] at h
  obtain ⟨⟨v, rest⟩, h1, h2⟩ := h
  obtain ⟨h3, hc⟩ := C62_decode_canonical _ _ _ _ h1
  simp only at h2
  split at h2
  · obtain ⟨pairs, rfl⟩ := readMessage_dict h2
    refine ⟨pairs, rest, h3, ?_⟩
    simp only [readMessage, orElse_ok] at h2
    rcases h2 with h | ⟨_, h | ⟨_, h⟩⟩
    · exact (query_ok hc h).1
    · exact (responseMessage_ok hc h).1
    · exact ((errorMessage_ok hc).mp h).1
  · simp at h2

/-- C72: for dictionaries whose identifiers have the right size, the message is exactly the first one offered, in the
order query, response, error; arguments: `announce_peer`, `find_node`, `get_peers`, `ping`; answers: peers, nodes with a
token, nodes, identifier only. -/
theorem C72_taken (lib : Lib) (pairs : List (Bytes × BVal)) (rest : Bytes)
    (hc : Canonical BENDY_DEFAULT_DEPTH (.dict pairs)) (hi : intsOk lib.intOk (.dict pairs) = true)
    (hs : Sized pairs) (m : Message) :
    Message.fromBytes lib (bencode (.dict pairs) ++ rest) = .ok m ↔ TakenForMessage lib.utf8 pairs m := by
  simp only [Message.fromBytes, C62_decode_encode _ _ hc rest, Res.ok_bind, hi, if_true]
  exact readMessage_taken hc hs

/-- C72 (partial): a query that conforms to BEP 5 is taken for the kind its method names, with its own arguments,
whatever other keys it has and whatever bytes follow. -/
theorem C72_conforming_partial (lib : Lib) (pairs args : List (Bytes × BVal)) (rest t : Bytes) (a : Arguments)
    (hc : Canonical BENDY_DEFAULT_DEPTH (.dict pairs)) (hi : intsOk lib.intOk (.dict pairs) = true)
    (ht : Spec.field pairs "t" = some (.str t)) (hy : Spec.field pairs "y" = some (.str (ascii "q")))
    (hq : Spec.field pairs "q" = some (.str (methodName a))) (hu : lib.utf8 (methodName a) = true)
    (ha : Spec.field pairs "a" = some (.dict args)) (hf : Conforming args a) :
    Message.fromBytes lib (bencode (.dict pairs) ++ rest) = .ok (.query t 0x71#8 (methodName a) a) := by
  simp only [Message.fromBytes, C62_decode_encode _ _ hc rest, Res.ok_bind, hi, if_true, readMessage, orElse_ok]
  refine .inl (query_mpr hc ?_ ⟨ht, ?_, hq, hu, args, ha, ?_⟩ rfl)
  · intro args' ha'
    rw [ha] at ha'
    cases ha'
    obtain ⟨ho, hk⟩ := hf
    have sz : ∀ {key} {id : ID}, Spec.field args key = some (.str id.bytes) → IdSized args key := by
      intro key id h s hs
      rw [h] at hs
      cases hs
      exact id.len_eq
    have no : ∀ {key}, Spec.field args key = none → IdSized args key := by
      intro key h s hs
      rw [h] at hs
      simp at hs
    cases a with
    | announcePeer id ih port token => exact ⟨sz ho.1, sz ho.2.1, no (hk _ (by decide) (by simp [keysOf]))⟩
    | findNode id target => exact ⟨sz ho.1, no (hk _ (by decide) (by simp [keysOf])), sz ho.2⟩
    | getPeers id ih => exact ⟨sz ho.1, sz ho.2, no (hk _ (by decide) (by simp [keysOf]))⟩
    | ping id =>
      exact ⟨sz ho, no (hk _ (by decide) (by simp [keysOf])), no (hk _ (by decide) (by simp [keysOf]))⟩
  · have hqq : ascii "q" = [0x71#8] := by decide +kernel
    rw [hy, hqq]
    exact ⟨rfl, by decide +kernel⟩
  · obtain ⟨ho, hk⟩ := hf
    refine ⟨ho, fun b hb hob => ?_⟩
    cases a <;> cases b <;> simp only [argRank] at hb <;> try omega
    · have := hk "info_hash" (by decide) (by simp [keysOf])
      have h2 := hob.2.1
      rw [this] at h2
      simp at h2
    · have := hk "port" (by decide) (by simp [keysOf])
      have h2 := hob.2.2.1
      rw [this] at h2
      simp at h2
    · have := hk "target" (by decide) (by simp [keysOf])
      have h2 := hob.2
      rw [this] at h2
      simp at h2
    · have := hk "port" (by decide) (by simp [keysOf])
      have h2 := hob.2.2.1
      rw [this] at h2
      simp at h2
    · have := hk "target" (by decide) (by simp [keysOf])
      have h2 := hob.2
      rw [this] at h2
      simp at h2
    · have := hk "info_hash" (by decide) (by simp [keysOf])
      have h2 := hob.2
      rw [this] at h2
      simp at h2

/-- C73 (partial): a datagram whose identifiers (`id`, `info_hash` and `target` under `a`, `id` under `r`) have 20 bytes
if they are strings at all is decoded or refused, never a crash. In particular everything that is not a bencoded
dictionary is. -/
theorem C73_sized_partial (lib : Lib) (bs : Bytes)
    (h : ∀ pairs rest, bs = bencode (.dict pairs) ++ rest → Canonical BENDY_DEFAULT_DEPTH (.dict pairs) → Sized pairs) :
    Message.fromBytes lib bs ≠ .panic := by
  unfold Message.fromBytes
  refine bind_no_panic (C62_no_panic _ _) ?_
  rintro ⟨v, rest⟩ hv
  obtain ⟨h1, hc⟩ := C62_decode_canonical _ _ _ _ hv
  simp only
  split
  · refine readMessage_no_panic hc ?_
    rintro pairs rfl
    exact h pairs rest h1 hc
  · simp

/-- Sorted literal keys. -/
theorem sorted_keys {ks : List Bytes} (h : ks.Pairwise fun a b => bytesLt a b = true) : ks.Pairwise RawLt :=
  h.imp fun {a b} hab => (bytesLt_iff a b).mp hab

/-- C73 is violated: a ping whose identifier has one byte crashes the decoder. -/
theorem C73_short_id_violated (lib : Lib) (rest : Bytes) :
    Message.fromBytes lib (ascii "d1:ad2:id1:xe1:q4:ping1:t2:aa1:y1:qe" ++ rest) = .panic := by
  have he : ascii "d1:ad2:id1:xe1:q4:ping1:t2:aa1:y1:qe" =
      bencode (.dict [(ascii "a", .dict [(ascii "id", .str [0x78#8])]), (ascii "q", .str (ascii "ping")),
        (ascii "t", .str (ascii "aa")), (ascii "y", .str (ascii "q"))]) := by decide +kernel
  have hc : Canonical BENDY_DEFAULT_DEPTH
      (.dict [(ascii "a", .dict [(ascii "id", .str [0x78#8])]), (ascii "q", .str (ascii "ping")),
        (ascii "t", .str (ascii "aa")), (ascii "y", .str (ascii "q"))]) := by
    show Canonical (2046 + 2) _
    simp only [Canonical, CanonicalPairs, and_true]
    exact ⟨⟨by decide +kernel, ⟨⟨by decide +kernel, by decide +kernel⟩, sorted_keys (by simp only [List.map_cons, List.map_nil]; decide +kernel)⟩,
      by decide +kernel, by decide +kernel, by decide +kernel, by decide +kernel, by decide +kernel, by decide +kernel⟩,
      sorted_keys (by simp only [List.map_cons, List.map_nil]; decide +kernel)⟩
  rw [he]
  simp only [Message.fromBytes, C62_decode_encode _ _ hc rest, Res.ok_bind, intsOk, intsOkPairs, Bool.and_true, if_true]
  have ha : readArguments (.dict [(ascii "id", .str [0x78#8])]) = .panic := by decide +kernel
  have h1 : ascii "a" ≠ ascii "t" := by decide +kernel
  have h2 : ascii "a" ≠ ascii "y" := by decide +kernel
  have h3 : ascii "a" ≠ ascii "q" := by decide +kernel
  simp only [readMessage, readQuery, Visitor.read, Visitor.loop, Visitor.and, Visitor.one, ha, h1, h2, h3, if_true,
    if_false, Res.panic_bind, orElse]

/-- Twenty equal bytes. -/
def sameId (b : Byte) : ID := ⟨List.replicate 20 b, by simp [ID_LEN]⟩

/-- A library for which every byte string is text and every integer can be buffered. -/
def anyLib : Lib := ⟨fun _ => true, fun _ => true⟩

/-- C72 is violated: a query with method `ping` and a `target` is taken for a `find_node`, and a query with an unknown
method for a `ping`. -/
theorem C72_method_violated :
    Message.fromBytes anyLib
        (ascii "d1:ad2:id20:xxxxxxxxxxxxxxxxxxxx6:target20:yyyyyyyyyyyyyyyyyyyye1:q4:ping1:t2:aa1:y1:qe") =
      .ok (.query (ascii "aa") 0x71#8 (ascii "ping") (.findNode (sameId 0x78#8) (sameId 0x79#8))) ∧
    Message.fromBytes anyLib (ascii "d1:ad2:id20:xxxxxxxxxxxxxxxxxxxxe1:q4:vote1:t2:aa1:y1:qe") =
      .ok (.query (ascii "aa") 0x71#8 (ascii "vote") (.ping (sameId 0x78#8))) := by
  decide +kernel

/-- C72 is violated: a message of type `r` with an `a` is handled as a query. -/
theorem C72_type_violated :
    Message.fromBytes anyLib (ascii "d1:ad2:id20:xxxxxxxxxxxxxxxxxxxxe1:q4:ping1:rd2:id20:zzzzzzzzzzzzzzzzzzzze1:t2:aa1:y1:re") =
      .ok (.query (ascii "aa") 0x72#8 (ascii "ping") (.ping (sameId 0x78#8))) := by
  decide +kernel

/-! ## C71 -/

theorem lookup_cons_if {key k : Bytes} {v : BVal} {l : List (Bytes × BVal)} :
    List.lookup key ((k, v) :: l) = if key = k then some v else List.lookup key l := by
  by_cases h : key = k
  · subst h; rw [List.lookup_cons_self, if_pos rfl]
  · rw [lookup_cons_ne (fun e => h e.symm), if_neg h]

/-- The keys of messages are different. -/
theorem outer_keys : (ascii "a" = ascii "e") = False ∧
    (ascii "a" = ascii "q") = False ∧
    (ascii "a" = ascii "r") = False ∧
    (ascii "a" = ascii "t") = False ∧
    (ascii "a" = ascii "y") = False ∧
    (ascii "e" = ascii "a") = False ∧
    (ascii "e" = ascii "q") = False ∧
    (ascii "e" = ascii "r") = False ∧
    (ascii "e" = ascii "t") = False ∧
    (ascii "e" = ascii "y") = False ∧
    (ascii "q" = ascii "a") = False ∧
    (ascii "q" = ascii "e") = False ∧
    (ascii "q" = ascii "r") = False ∧
    (ascii "q" = ascii "t") = False ∧
    (ascii "q" = ascii "y") = False ∧
    (ascii "r" = ascii "a") = False ∧
    (ascii "r" = ascii "e") = False ∧
    (ascii "r" = ascii "q") = False ∧
    (ascii "r" = ascii "t") = False ∧
    (ascii "r" = ascii "y") = False ∧
    (ascii "t" = ascii "a") = False ∧
    (ascii "t" = ascii "e") = False ∧
    (ascii "t" = ascii "q") = False ∧
    (ascii "t" = ascii "r") = False ∧
    (ascii "t" = ascii "y") = False ∧
    (ascii "y" = ascii "a") = False ∧
    (ascii "y" = ascii "e") = False ∧
    (ascii "y" = ascii "q") = False ∧
    (ascii "y" = ascii "r") = False ∧
    (ascii "y" = ascii "t") = False := by
  refine ⟨?_, ?_, ?_, ?_, ?_, ?_, ?_, ?_, ?_, ?_, ?_, ?_, ?_, ?_, ?_, ?_, ?_, ?_, ?_, ?_, ?_, ?_, ?_, ?_, ?_, ?_, ?_, ?_, ?_, ?_⟩ <;> exact eq_false (by decide +kernel)

/-- The keys of arguments and answers are different. -/
theorem inner_keys : (ascii "id" = ascii "info_hash") = False ∧
    (ascii "id" = ascii "nodes") = False ∧
    (ascii "id" = ascii "port") = False ∧
    (ascii "id" = ascii "target") = False ∧
    (ascii "id" = ascii "token") = False ∧
    (ascii "id" = ascii "values") = False ∧
    (ascii "info_hash" = ascii "id") = False ∧
    (ascii "info_hash" = ascii "nodes") = False ∧
    (ascii "info_hash" = ascii "port") = False ∧
    (ascii "info_hash" = ascii "target") = False ∧
    (ascii "info_hash" = ascii "token") = False ∧
    (ascii "info_hash" = ascii "values") = False ∧
    (ascii "nodes" = ascii "id") = False ∧
    (ascii "nodes" = ascii "info_hash") = False ∧
    (ascii "nodes" = ascii "port") = False ∧
    (ascii "nodes" = ascii "target") = False ∧
    (ascii "nodes" = ascii "token") = False ∧
    (ascii "nodes" = ascii "values") = False ∧
    (ascii "port" = ascii "id") = False ∧
    (ascii "port" = ascii "info_hash") = False ∧
    (ascii "port" = ascii "nodes") = False ∧
    (ascii "port" = ascii "target") = False ∧
    (ascii "port" = ascii "token") = False ∧
    (ascii "port" = ascii "values") = False ∧
    (ascii "target" = ascii "id") = False ∧
    (ascii "target" = ascii "info_hash") = False ∧
    (ascii "target" = ascii "nodes") = False ∧
    (ascii "target" = ascii "port") = False ∧
    (ascii "target" = ascii "token") = False ∧
    (ascii "target" = ascii "values") = False ∧
    (ascii "token" = ascii "id") = False ∧
    (ascii "token" = ascii "info_hash") = False ∧
    (ascii "token" = ascii "nodes") = False ∧
    (ascii "token" = ascii "port") = False ∧
    (ascii "token" = ascii "target") = False ∧
    (ascii "token" = ascii "values") = False ∧
    (ascii "values" = ascii "id") = False ∧
    (ascii "values" = ascii "info_hash") = False ∧
    (ascii "values" = ascii "nodes") = False ∧
    (ascii "values" = ascii "port") = False ∧
    (ascii "values" = ascii "target") = False ∧
    (ascii "values" = ascii "token") = False := by
  refine ⟨?_, ?_, ?_, ?_, ?_, ?_, ?_, ?_, ?_, ?_, ?_, ?_, ?_, ?_, ?_, ?_, ?_, ?_, ?_, ?_, ?_, ?_, ?_, ?_, ?_, ?_, ?_, ?_, ?_, ?_, ?_, ?_, ?_, ?_, ?_, ?_, ?_, ?_, ?_, ?_, ?_, ?_⟩ <;> exact eq_false (by decide +kernel)

/-- Looks a literal key up in a literal dictionary. -/
local macro "fld" : tactic =>
  `(tactic| simp only [Spec.field, lookup_cons_if, outer_keys, inner_keys, if_true, if_false, List.lookup_nil])

theorem arguments_taken (a : Arguments) : ∃ pairs, a.val = .dict pairs ∧ TakenFor pairs a := by
  cases a with
  | announcePeer id ih port token =>
    refine ⟨_, rfl, ⟨?_, ?_, ?_, ?_⟩, fun b hb => by simp [argRank] at hb⟩ <;> fld <;> rfl
  | findNode id target =>
    refine ⟨_, rfl, ⟨?_, ?_⟩, fun b hb hob => ?_⟩
    · fld; rfl
    · fld; rfl
    · cases b <;> simp only [argRank] at hb <;> try omega
      have h := hob.2.1
      revert h
      fld
      simp
  | getPeers id ih =>
    refine ⟨_, rfl, ⟨?_, ?_⟩, fun b hb hob => ?_⟩
    · fld; rfl
    · fld; rfl
    · cases b <;> simp only [argRank] at hb <;> try omega
      · have h := hob.2.2.1
        revert h
        fld
        simp
      · have h := hob.2
        revert h
        fld
        simp
  | ping id =>
    refine ⟨_, rfl, ?_, fun b hb hob => ?_⟩
    · show Spec.field _ _ = _
      fld; rfl
    · cases b <;> simp only [argRank] at hb <;> try omega
      · have h := hob.2.2.1
        revert h
        fld
        simp
      · have h := hob.2
        revert h
        fld
        simp
      · have h := hob.2
        revert h
        fld
        simp

theorem nodes_isNodes (ns : Nodes) : IsNodes ns.compact (nodesReceived ns) := by
  obtain ⟨s, h1, h2⟩ := readNodes_ok (v := .str ns.compact).mp (nodes_received ns)
  cases h1
  exact h2

theorem response_taken (r : Response) : ∃ pairs, r.val = .dict pairs ∧ TakenForResponse pairs (responseReceived r) := by
  match r with
  | .getPeers id token (.values vs) =>
    refine ⟨_, rfl, ⟨?_, ?_, ?_⟩, fun b hb => by simp [respRank, responseReceived] at hb⟩ <;> fld <;> rfl
  | .getPeers id token (.nodes ns) =>
    refine ⟨_, rfl, ⟨?_, ?_, ns.compact, ?_, nodes_isNodes ns⟩, fun b hb hob => ?_⟩
    · fld; rfl
    · fld
    · fld
    · match b with
      | .getPeers _ _ (.values vs) =>
        have h := hob.2.2
        revert h
        fld
        simp
      | .getPeers _ _ (.nodes _) => simp [respRank, responseReceived] at hb
      | .findNode _ _ => simp [respRank, responseReceived] at hb
      | .ping _ => simp [respRank, responseReceived] at hb
      | .announcePeer _ => simp [respRank, responseReceived] at hb
  | .findNode id ns =>
    refine ⟨_, rfl, ⟨?_, ns.compact, ?_, nodes_isNodes ns⟩, fun b hb hob => ?_⟩
    · fld; rfl
    · fld
    · match b with
      | .getPeers _ _ (.values vs) =>
        have h := hob.2.1
        revert h
        fld
        simp
      | .getPeers _ _ (.nodes _) =>
        have h := hob.2.1
        revert h
        fld
        simp
      | .findNode _ _ => simp [respRank, responseReceived] at hb
      | .ping _ => simp [respRank, responseReceived] at hb
      | .announcePeer _ => simp [respRank, responseReceived] at hb
  | .ping id =>
    refine ⟨_, rfl, ?_, fun b hb hob => ?_⟩
    · show Spec.field _ _ = _
      fld; rfl
    · match b with
      | .getPeers _ _ (.values vs) =>
        have h := hob.2.1
        revert h
        fld
        simp
      | .getPeers _ _ (.nodes _) =>
        have h := hob.2.1
        revert h
        fld
        simp
      | .findNode _ _ =>
        obtain ⟨_, s, h, _⟩ := hob
        revert h
        fld
        simp
      | .ping _ => simp [respRank, responseReceived] at hb
      | .announcePeer _ => simp [respRank, responseReceived] at hb
  | .announcePeer id =>
    refine ⟨_, rfl, ?_, fun b hb hob => ?_⟩
    · show Spec.field _ _ = _
      fld; rfl
    · match b with
      | .getPeers _ _ (.values vs) =>
        have h := hob.2.1
        revert h
        fld
        simp
      | .getPeers _ _ (.nodes _) =>
        have h := hob.2.1
        revert h
        fld
        simp
      | .findNode _ _ =>
        obtain ⟨_, s, h, _⟩ := hob
        revert h
        fld
        simp
      | .ping _ => simp [respRank, responseReceived] at hb
      | .announcePeer _ => simp [respRank, responseReceived] at hb

theorem typeVal_eq {y : Byte} (h : y ∈ ascii "qre") : typeVal y = .str [y] := by
  have hq : ascii "qre" = [typeQ, typeR, typeE] := by decide +kernel
  have h1 : ascii "q" = [typeQ] := by decide +kernel
  have h2 : ascii "r" = [typeR] := by decide +kernel
  have h3 : ascii "e" = [typeE] := by decide +kernel
  rw [hq] at h
  simp only [List.mem_cons, List.not_mem_nil, or_false] at h
  rcases h with rfl | rfl | rfl
  · rw [typeVal, if_pos rfl, h1]
  · rw [typeVal, if_neg (by decide), if_pos rfl, h2]
  · rw [typeVal, if_neg (by decide), if_neg (by decide), h3]

/-- The dictionary of a message. -/
def Message.pairs : Message → List (Bytes × BVal)
  | .query t y m a =>
    [(ascii "a", a.val), (ascii "q", .str m), (ascii "t", .str t), (ascii "y", typeVal y)]
  | .response t y r => [(ascii "r", r.val), (ascii "t", .str t), (ascii "y", typeVal y)]
  | .error t y e =>
    [(ascii "e", .list (e.map Error.val)), (ascii "t", .str t), (ascii "y", typeVal y)]

theorem message_taken {utf8 : Bytes → Bool} (m : Message) (h : Sendable utf8 m) :
    TakenForMessage utf8 m.pairs (received m) := by
  cases m with
  | query t y q a =>
    obtain ⟨_, hy, hu, _⟩ := h
    obtain ⟨args, ha, hta⟩ := arguments_taken a
    refine ⟨⟨?_, ⟨?_, hy⟩, ?_, hu, args, ?_, hta⟩, fun b hb => by simp [msgRank, received] at hb⟩
    · simp only [Message.pairs]; fld
    · simp only [Message.pairs]; fld; rw [typeVal_eq hy]
    · simp only [Message.pairs]; fld
    · simp only [Message.pairs]; fld; rw [ha]
  | response t y r =>
    obtain ⟨_, hy, _⟩ := h
    obtain ⟨rp, ha, hta⟩ := response_taken r
    refine ⟨⟨?_, ⟨?_, hy⟩, rp, ?_, hta⟩, fun b hb hob => ?_⟩
    · simp only [Message.pairs]; fld
    · simp only [Message.pairs]; fld; rw [typeVal_eq hy]
    · simp only [Message.pairs]; fld; rw [ha]
    · cases b with
      | query t' y' q' a' =>
        obtain ⟨_, _, h, _⟩ := hob
        revert h
        simp only [Message.pairs]; fld
        simp
      | response t' y' r' => simp [msgRank, received] at hb
      | error t' y' r' => simp [msgRank, received] at hb
  | error t y e =>
    obtain ⟨_, hy, hd⟩ := h
    refine ⟨⟨?_, ⟨?_, hy⟩, e.map Error.val, ?_, ?_⟩, fun b hb hob => ?_⟩
    · simp only [Message.pairs]; fld
    · simp only [Message.pairs]; fld; rw [typeVal_eq hy]
    · simp only [Message.pairs]; fld
    · refine ⟨by simp, fun i h h' => ?_⟩
      rw [List.getElem_map]
      cases he : e[i] with
      | code n => rfl
      | desc s => exact ⟨rfl, (hd s (he ▸ List.getElem_mem h')).2⟩
    · cases b with
      | query t' y' q' a' =>
        obtain ⟨_, _, h, _⟩ := hob
        revert h
        simp only [Message.pairs]; fld
        simp
      | response t' y' r' =>
        obtain ⟨_, _, rp, h, _⟩ := hob
        revert h
        simp only [Message.pairs]; fld
        simp
      | error t' y' r' => simp [msgRank, received] at hb

theorem idSized_val {pairs : List (Bytes × BVal)} {key : String} {id : ID}
    (h : Spec.field pairs key = some (.str id.bytes)) : IdSized pairs key := by
  intro s hs
  rw [h] at hs
  cases hs
  exact id.len_eq

theorem idSized_none {pairs : List (Bytes × BVal)} {key : String}
    (h : Spec.field pairs key = none) : IdSized pairs key := by
  intro s hs
  rw [h] at hs
  simp at hs

theorem arguments_sized (a : Arguments) (args : List (Bytes × BVal)) (h : a.val = .dict args) :
    IdSized args "id" ∧ IdSized args "info_hash" ∧ IdSized args "target" := by
  cases a with
  | announcePeer id ih port token =>
    cases h
    exact ⟨idSized_val (id := id) (by fld; rfl), idSized_val (id := ih) (by fld; rfl), idSized_none (by fld)⟩
  | findNode id target =>
    cases h
    exact ⟨idSized_val (id := id) (by fld; rfl), idSized_none (by fld), idSized_val (id := target) (by fld; rfl)⟩
  | getPeers id ih =>
    cases h
    exact ⟨idSized_val (id := id) (by fld; rfl), idSized_val (id := ih) (by fld; rfl), idSized_none (by fld)⟩
  | ping id =>
    cases h
    exact ⟨idSized_val (id := id) (by fld; rfl), idSized_none (by fld), idSized_none (by fld)⟩

theorem response_sized (r : Response) (rp : List (Bytes × BVal)) (h : r.val = .dict rp) : IdSized rp "id" := by
  match r with
  | .getPeers id token (.values vs) => cases h; exact idSized_val (id := id) (by fld; rfl)
  | .getPeers id token (.nodes ns) => cases h; exact idSized_val (id := id) (by fld; rfl)
  | .findNode id ns => cases h; exact idSized_val (id := id) (by fld; rfl)
  | .ping id => cases h; exact idSized_val (id := id) (by fld; rfl)
  | .announcePeer id => cases h; exact idSized_val (id := id) (by fld; rfl)

theorem message_sized (m : Message) : Sized m.pairs := by
  cases m with
  | query t y q a =>
    constructor
    · intro args h
      refine arguments_sized a args ?_
      revert h
      simp only [Message.pairs]; fld
      exact fun h => Option.some.inj h
    · intro rp h
      revert h
      simp only [Message.pairs]; fld
      simp
  | response t y r =>
    constructor
    · intro args h
      revert h
      simp only [Message.pairs]; fld
      simp
    · intro rp h
      refine response_sized r rp ?_
      revert h
      simp only [Message.pairs]; fld
      exact fun h => Option.some.inj h
  | error t y e =>
    constructor
    · intro args h
      revert h
      simp only [Message.pairs]; fld
      simp
    · intro rp h
      revert h
      simp only [Message.pairs]; fld
      simp

theorem canonicalItems_of {d : Nat} {vs : List BVal} (h : ∀ v ∈ vs, Canonical d v) : CanonicalItems d vs := by
  induction vs with
  | nil => simp [CanonicalItems]
  | cons v vs ih =>
    simp only [CanonicalItems]
    exact ⟨h v (by simp), ih fun w hw => h w (by simp [hw])⟩

theorem arguments_canonical (a : Arguments) (d : Nat) (h : ∀ id ih port token, a = .announcePeer id ih port token →
    token.length < 2 ^ 64) : Canonical (d + 1) a.val := by
  have hid : ∀ id : ID, id.bytes.length < 2 ^ 64 := fun id => by rw [id.len_eq]; decide
  cases a with
  | announcePeer id ih port token =>
    simp only [Arguments.val, Canonical, CanonicalPairs, idVal, hid, h _ _ _ _ rfl, true_and, and_true]
    exact ⟨⟨by decide +kernel, by decide +kernel, by decide +kernel, by decide +kernel⟩,
      sorted_keys (by simp only [List.map_cons, List.map_nil]; decide +kernel)⟩
  | findNode id target =>
    simp only [Arguments.val, Canonical, CanonicalPairs, idVal, hid, true_and, and_true]
    exact ⟨⟨by decide +kernel, by decide +kernel⟩,
      sorted_keys (by simp only [List.map_cons, List.map_nil]; decide +kernel)⟩
  | getPeers id ih =>
    simp only [Arguments.val, Canonical, CanonicalPairs, idVal, hid, true_and, and_true]
    exact ⟨⟨by decide +kernel, by decide +kernel⟩,
      sorted_keys (by simp only [List.map_cons, List.map_nil]; decide +kernel)⟩
  | ping id =>
    simp only [Arguments.val, Canonical, CanonicalPairs, idVal, hid, true_and, and_true]
    exact ⟨by decide +kernel, sorted_keys (by simp only [List.map_cons, List.map_nil]; decide +kernel)⟩

theorem compact_len (ns : Nodes) : ns.compact.length = 26 * ns.list.length := by
  rw [Nodes.compact_eq, nodes_compact_length]

theorem message_canonical {utf8 : Bytes → Bool} (m : Message) (h : Sendable utf8 m) (d : Nat) :
    Canonical (d + 3) (.dict m.pairs) := by
  have hid : ∀ id : ID, id.bytes.length < 2 ^ 64 := fun id => by rw [id.len_eq]; decide
  have ht : ∀ y d, Canonical d (typeVal y) := by
    intro y d
    unfold typeVal
    split
    · cases d <;> simp only [Canonical] <;> decide +kernel
    · split <;> cases d <;> simp only [Canonical] <;> decide +kernel
  cases m with
  | query t y q a =>
    obtain ⟨h1, _, _, h2, h3⟩ := h
    have ha := arguments_canonical a (d + 1) (by rintro id ih port token rfl; exact h3)
    simp only [Message.pairs, Canonical, CanonicalPairs, ht, ha, h1, h2, true_and, and_true]
    exact ⟨⟨by decide +kernel, by decide +kernel, by decide +kernel, by decide +kernel⟩,
      sorted_keys (by simp only [List.map_cons, List.map_nil]; decide +kernel)⟩
  | response t y r =>
    obtain ⟨h1, _, h3⟩ := h
    have hr : Canonical (d + 2) r.val := by
      match r, h3 with
      | .getPeers id token (.values vs), h3 =>
        have hv : CanonicalItems d (vs.map fun p => BVal.str p.compact) := canonicalItems_of (by
          intro v hv
          obtain ⟨p, _, rfl⟩ := List.mem_map.mp hv
          have : p.compact.length < 2 ^ 64 := by
            show p.addr.compact.length < 2 ^ 64
            rw [SockAddr.compact_length]; decide
          cases d <;> simpa only [Canonical] using this)
        simp only [Response.val, Canonical, CanonicalPairs, idVal, hid, hv, true_and, and_true]
        exact ⟨⟨by decide +kernel, by decide +kernel, h3, by decide +kernel⟩,
          sorted_keys (by simp only [List.map_cons, List.map_nil]; decide +kernel)⟩
      | .getPeers id token (.nodes ns), h3 =>
        have h4 : ns.compact.length < 2 ^ 64 := by rw [compact_len]; exact h3.2
        simp only [Response.val, Canonical, CanonicalPairs, idVal, hid, h4, h3.1, true_and, and_true]
        exact ⟨⟨by decide +kernel, by decide +kernel, by decide +kernel⟩,
          sorted_keys (by simp only [List.map_cons, List.map_nil]; decide +kernel)⟩
      | .findNode id ns, h3 =>
        have h4 : ns.compact.length < 2 ^ 64 := by rw [compact_len]; exact h3
        simp only [Response.val, Canonical, CanonicalPairs, idVal, hid, h4, true_and, and_true]
        exact ⟨⟨by decide +kernel, by decide +kernel⟩,
          sorted_keys (by simp only [List.map_cons, List.map_nil]; decide +kernel)⟩
      | .ping id, _ =>
        simp only [Response.val, Canonical, CanonicalPairs, idVal, hid, true_and, and_true]
        exact ⟨by decide +kernel, sorted_keys (by simp only [List.map_cons, List.map_nil]; decide +kernel)⟩
      | .announcePeer id, _ =>
        simp only [Response.val, Canonical, CanonicalPairs, idVal, hid, true_and, and_true]
        exact ⟨by decide +kernel, sorted_keys (by simp only [List.map_cons, List.map_nil]; decide +kernel)⟩
    simp only [Message.pairs, Canonical, CanonicalPairs, ht, hr, h1, true_and, and_true]
    exact ⟨⟨by decide +kernel, by decide +kernel, by decide +kernel⟩,
      sorted_keys (by simp only [List.map_cons, List.map_nil]; decide +kernel)⟩
  | error t y e =>
    obtain ⟨h1, _, h3⟩ := h
    have hv : CanonicalItems (d + 1) (e.map Error.val) := canonicalItems_of (by
      intro v hv
      obtain ⟨p, hp, rfl⟩ := List.mem_map.mp hv
      cases p with
      | code n => simp [Error.val, Canonical]
      | desc s => simpa only [Error.val, Canonical] using (h3 s hp).1)
    simp only [Message.pairs, Canonical, CanonicalPairs, ht, hv, h1, true_and, and_true]
    exact ⟨⟨by decide +kernel, by decide +kernel, by decide +kernel⟩,
      sorted_keys (by simp only [List.map_cons, List.map_nil]; decide +kernel)⟩

theorem intsOkItems_of {p : Int → Bool} {vs : List BVal} (h : ∀ v ∈ vs, intsOk p v = true) :
    intsOkItems p vs = true := by
  induction vs with
  | nil => simp [intsOkItems]
  | cons v vs ih =>
    simp only [intsOkItems, Bool.and_eq_true]
    exact ⟨h v (by simp), ih fun w hw => h w (by simp [hw])⟩

theorem message_ints (lib : Lib) (hint : ∀ n : Nat, n < 2 ^ 32 → lib.intOk n = true) (m : Message) :
    intsOk lib.intOk (.dict m.pairs) = true := by
  have ht : ∀ y, intsOk lib.intOk (typeVal y) = true := by
    intro y
    unfold typeVal
    split
    · simp [intsOk]
    · split <;> simp [intsOk]
  cases m with
  | query t y q a =>
    simp only [Message.pairs, intsOk, intsOkPairs, ht, Bool.and_true]
    cases a with
    | announcePeer id ih port token =>
      simp only [Arguments.val, idVal, intsOk, intsOkPairs, Bool.and_true, Bool.true_and]
      exact hint _ (by have := port.isLt; omega)
    | _ => simp [Arguments.val, idVal, intsOk, intsOkPairs]
  | response t y r =>
    simp only [Message.pairs, intsOk, intsOkPairs, ht, Bool.and_true]
    match r with
    | .getPeers id token (.values vs) =>
      simp only [Response.val, idVal, intsOk, intsOkPairs, Bool.and_true, Bool.true_and]
      refine intsOkItems_of fun v hv => ?_
      obtain ⟨p, _, rfl⟩ := List.mem_map.mp hv
      simp [intsOk]
    | .getPeers id token (.nodes ns) => simp [Response.val, idVal, intsOk, intsOkPairs]
    | .findNode id ns => simp [Response.val, idVal, intsOk, intsOkPairs]
    | .ping id => simp [Response.val, idVal, intsOk, intsOkPairs]
    | .announcePeer id => simp [Response.val, idVal, intsOk, intsOkPairs]
  | error t y e =>
    simp only [Message.pairs, intsOk, intsOkPairs, ht, Bool.and_true]
    refine intsOkItems_of fun v hv => ?_
    obtain ⟨p, _, rfl⟩ := List.mem_map.mp hv
    cases p with
    | code n => exact hint _ n.isLt
    | desc s => simp [Error.val, intsOk]

/-- C71 (partial): decoding the encoding of a message, with anything after it, returns the message as the receiver
sees it: the same message, except that an answer to an announcement reads as an answer to a ping, that a list of one
node reads as a single node, and that nodes come without the time they were seen. -/
theorem C71_round_trip_partial (lib : Lib) (hint : ∀ n : Nat, n < 2 ^ 32 → lib.intOk n = true) (m : Message)
    (h : Sendable lib.utf8 m) (rest : Bytes) :
    Message.fromBytes lib (m.intoBytes ++ rest) = .ok (received m) := by
  have hv : m.val = .dict m.pairs := by cases m <;> rfl
  have hc : Canonical BENDY_DEFAULT_DEPTH (.dict m.pairs) := message_canonical m h 2045
  rw [Message.intoBytes, hv]
  exact (C72_taken lib m.pairs rest hc (message_ints lib hint m) (message_sized m) _).mpr (message_taken m h)

/-- C71: queries and errors come back exactly. -/
theorem C71_queries_errors (lib : Lib) (hint : ∀ n : Nat, n < 2 ^ 32 → lib.intOk n = true) (rest t m : Bytes) (y : Byte)
    (a : Arguments) (e : List Error) :
    (Sendable lib.utf8 (.query t y m a) →
      Message.fromBytes lib ((Message.query t y m a).intoBytes ++ rest) = .ok (.query t y m a)) ∧
    (Sendable lib.utf8 (.error t y e) →
      Message.fromBytes lib ((Message.error t y e).intoBytes ++ rest) = .ok (.error t y e)) :=
  ⟨fun h => C71_round_trip_partial lib hint _ h rest, fun h => C71_round_trip_partial lib hint _ h rest⟩

/-- C71 is violated: whatever identifier and transaction, an answer to an announcement is not read as one. -/
theorem C71_announce_answer_violated (lib : Lib) (hint : ∀ n : Nat, n < 2 ^ 32 → lib.intOk n = true) (id : ID)
    (tid : Bytes) (ht : tid.length < 2 ^ 64) :
    Message.fromBytes lib (Message.announcePeerResp id tid).intoBytes = .ok (Message.pingResp id tid) ∧
    Message.pingResp id tid ≠ Message.announcePeerResp id tid := by
  constructor
  · have := C71_round_trip_partial lib hint (Message.announcePeerResp id tid) ⟨ht, by decide +kernel, trivial⟩ []
    rw [List.append_nil] at this
    exact this
  · simp [Message.pingResp, Message.announcePeerResp]

/-! ### Concrete cases -/

/-- An announcement of port 6881 for some torrent. -/
def demoAnnounce : Message :=
  .announcePeerQuery (sameId 1#8) (sameId 2#8) 6881#16 (ascii "secret") (ascii "abcde")

/-- C71: it is sendable, and its bytes with a tail decode to it. -/
example : Sendable anyLib.utf8 demoAnnounce ∧
    Message.fromBytes anyLib (demoAnnounce.intoBytes ++ ascii "junk") = .ok demoAnnounce :=
  ⟨by refine ⟨?_, ?_, rfl, ?_, ?_⟩ <;> decide +kernel,
    C71_round_trip_partial anyLib (fun _ _ => rfl) demoAnnounce
      (by refine ⟨?_, ?_, rfl, ?_, ?_⟩ <;> decide +kernel) (ascii "junk")⟩

/-- The bytes of a message are those of BEP 5. -/
example : (Message.pingResp (sameId 0x7a#8) (ascii "aa")).intoBytes =
    ascii "d1:rd2:id20:zzzzzzzzzzzzzzzzzzzze1:t2:aa1:y1:re" := by decide +kernel

/-- An answer with one node in a list: it comes back as a single node. -/
example : Message.fromBytes anyLib
      (Message.findNodesResp (sameId 1#8) (.closest [⟨sameId 2#8, ⟨⟨1#8, 2#8, 3#8, 4#8⟩, 80#16⟩, some 5⟩]) (ascii "aa")).intoBytes
    = .ok (Message.findNodesResp (sameId 1#8) (.exact ⟨sameId 2#8, ⟨⟨1#8, 2#8, 3#8, 4#8⟩, 80#16⟩, none⟩) (ascii "aa")) := by
  decide +kernel

/-- C72: the hypotheses of the conforming case are met by a `get_peers` with keys BEP 5 does not know. -/
example : Message.fromBytes anyLib
      (ascii "d1:ad2:id20:xxxxxxxxxxxxxxxxxxxx9:info_hash20:yyyyyyyyyyyyyyyyyyyy6:noseedi1ee1:q9:get_peers2:roi1e1:t2:aa1:y1:qe")
    = .ok (.query (ascii "aa") 0x71#8 (ascii "get_peers") (.getPeers (sameId 0x78#8) (sameId 0x79#8))) := by
  decide +kernel

/-- C72: what is not a dictionary, or lacks a transaction id, is refused. -/
example : Message.fromBytes anyLib (ascii "4:ping") = .err ∧
    Message.fromBytes anyLib (ascii "d1:ad2:id20:xxxxxxxxxxxxxxxxxxxxe1:q4:ping1:y1:qe") = .err := by
  decide +kernel

end Nargun.Krpc
