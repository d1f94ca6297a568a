import Verif.Lemmas.DhtConnection

/-! # C74-C77, C94, C95: the DHT connection -/

namespace Nargun.Dht

open Krpc Spec

/-! ## Outstanding queries -/

theorem outstanding_snoc {h : List Entry} {e : Entry} {t : Bytes} {k : RequestType} {c : Nat} :
    Outstanding (h ++ [e]) t k c ↔
      Asks e t k c ∨ (Outstanding h t k c ∧ (∀ k' c', ¬ Asks e t k' c') ∧ ¬ Delivers e t) := by
  constructor
  · rintro ⟨before, q, after, heq, hq, ha⟩
    rcases List.eq_nil_or_concat after with rfl | ⟨after', e', rfl⟩
    · have := List.append_inj' heq rfl
      obtain ⟨_, h2⟩ := this
      cases h2
      exact .inl hq
    · rw [List.concat_eq_append] at heq ha
      have : h ++ [e] = (before ++ q :: after') ++ [e'] := by rw [heq]; simp
      obtain ⟨h1, h2⟩ := List.append_inj' this rfl
      cases h2
      refine .inr ⟨⟨before, q, after', h1, hq, fun x hx => ha x (by simp [hx])⟩, ?_⟩
      exact ha e (by simp)
  · rintro (hq | ⟨⟨before, q, after, rfl, hq, ha⟩, h1, h2⟩)
    · exact ⟨h, e, [], rfl, hq, by simp⟩
    · refine ⟨before, q, after ++ [e], by simp, hq, fun x hx => ?_⟩
      rcases List.mem_append.mp hx with hx | hx
      · exact ha x hx
      · simp only [List.mem_singleton] at hx
        subst hx
        exact ⟨h1, h2⟩

theorem queryEffects_noRequester {env : Env} {s : Con} {a : SockAddr} {t : Bytes} {args : Arguments}
    {effs : List Effect} (h : QueryEffects env s a t args effs) (c : Nat) (m : FromConResp) :
    Effect.toRequester c m ∉ effs := by
  cases args with
  | ping id => simp only [QueryEffects] at h; subst h; simp
  | findNode id target => obtain ⟨rfl, _⟩ := h; simp
  | getPeers id ih => obtain ⟨rfl, _⟩ := h; simp
  | announcePeer id ih port token =>
    simp only [QueryEffects] at h
    split at h
    · obtain ⟨rfl, _⟩ := h; simp
    · subst h; simp

theorem not_asks_datagram {a : Option SockAddr} {bytes : Bytes} {m : Option Krpc.Message} {effs : List Effect}
    {t : Bytes} {k : RequestType} {c : Nat} : ¬ Asks ⟨.datagram a bytes, m, effs⟩ t k c := by
  rintro ⟨_, _, h, _⟩
  simp at h

/-- The table holds exactly the outstanding queries. -/
theorem pending_outstanding {env : Env} {own secret : ID} {h : List Entry} {s : Con}
    (hr : Con.Run env (Con.start own secret) h s) (t : Bytes) (k : RequestType) (c : Nat) :
    s.pending.get? t = some (k, c) ↔ Outstanding h t k c := by
  generalize hs0 : Con.start own secret = s0 at hr
  induction hr generalizing t k c with
  | nil =>
    subst hs0
    constructor
    · intro h; simp [Con.start] at h
    · rintro ⟨before, q, after, h, _⟩; simp at h
  | @snoc s1 s2 h e hr hs ih =>
    subst hs0
    have hi := (Inv.start own secret).run hr
    rw [outstanding_snoc, ← ih]
    cases hs with
    | @datagram _ sender bytes effs hrec =>
      obtain ⟨h1, h2⟩ := receive_ok hrec
      have hb : s2.buf = bufAfter s1 bytes := by rw [h1]
      rw [hb]
      have hna : ∀ t k c, ¬ Asks ⟨.datagram sender bytes, heardIn env (bufAfter s1 bytes), effs⟩ t k c :=
        fun _ _ _ => not_asks_datagram
      simp only [hna, false_or, not_false_eq_true, implies_true, true_and]
      have quiet : s2.pending = s1.pending → (∀ c m, Effect.toRequester c m ∉ effs) →
          (s2.pending.get? t = some (k, c) ↔ s1.pending.get? t = some (k, c) ∧
            ¬ Delivers ⟨.datagram sender bytes, heardIn env (bufAfter s1 bytes), effs⟩ t) := by
        intro hp he
        rw [hp]
        refine ⟨fun h => ⟨h, ?_⟩, fun h => h.1⟩
        rintro ⟨_, _, c, m, _, hm⟩
        exact he c m hm
      revert h2
      split
      · rename_i a t' y q args hh
        rintro ⟨hp, hq⟩
        exact quiet hp (queryEffects_noRequester hq)
      · rename_i a t' y r _ hh
        rintro (⟨c', hg, hp, rfl, _⟩ | ⟨_, hp, rfl⟩)
        · rw [hp, Map.get?_erase]
          by_cases ht : t = t'
          · subst ht
            simp only [if_true]
            constructor
            · intro h; simp at h
            · rintro ⟨_, hd⟩
              exact absurd ⟨y, r, c', told a r, hh, by simp⟩ hd
          · simp only [ht, if_false]
            refine ⟨fun h => ⟨h, ?_⟩, fun h => h.1⟩
            rintro ⟨y', r', c'', m, hh', _⟩
            simp only [hh, Option.some.injEq, Krpc.Message.response.injEq] at hh'
            exact ht hh'.1.symm
        · exact quiet hp (by simp)
      · rintro ⟨hp, rfl⟩
        exact quiet hp (by simp)
    | @command _ tid cmd effs htid hc =>
      have hnd : ∀ t, ¬ Delivers ⟨.command tid cmd, none, effs⟩ t := by
        rintro t ⟨_, _, _, _, h, _⟩
        simp at h
      cases cmd with
      | query c' target v =>
        rw [send_query_eq] at hc
        simp only [Res.ok.injEq, Prod.mk.injEq] at hc
        obtain ⟨rfl, rfl⟩ := hc
        simp only [Map.get?_insert, hnd, not_false_eq_true, and_true]
        have hasks : ∀ t k c, Asks ⟨.command tid (.query c' target v), none,
            [Effect.datagram target (v.intoMessage s1.ownId tid).intoBytes]⟩ t k c ↔ tid = t ∧ kindOf v = k ∧ c' = c := by
          intro t k c
          constructor
          · rintro ⟨tg, v', h, hk⟩
            simp only [Event.command.injEq, ToCon.query.injEq] at h
            obtain ⟨rfl, rfl, rfl, rfl⟩ := h
            exact ⟨rfl, hk, rfl⟩
          · rintro ⟨rfl, rfl, rfl⟩
            exact ⟨target, v, rfl, rfl⟩
        simp only [hasks]
        by_cases ht : t = tid
        · subst ht
          simp
        · simp [ht, Ne.symm ht]
      | resp qid v =>
        rw [send_resp_eq] at hc
        simp only [Res.ok.injEq, Prod.mk.injEq] at hc
        obtain ⟨rfl, rfl⟩ := hc
        have hna : ∀ t k c, ¬ Asks ⟨.command tid (.resp qid v), none, [Effect.datagram qid.target
            (v.intoMessage s1.ownId qid.tid (tokenFor env.sha1 s1.secret qid.target.ip)).intoBytes]⟩ t k c := by
          rintro t k c ⟨_, _, h, _⟩
          simp at h
        simp [hna, hnd]
    | @closed ch =>
      have hna : ∀ t k c, ¬ Asks ⟨.closed ch, none, []⟩ t k c := by
        rintro t k c ⟨_, _, h, _⟩
        simp at h
      have hnd : ∀ t, ¬ Delivers ⟨.closed ch, none, []⟩ t := by
        rintro t ⟨_, _, _, _, h, _⟩
        simp at h
      simp [hna, hnd]
    | @reorder p hp =>
      have hna : ∀ t k c, ¬ Asks ⟨.reorder, none, []⟩ t k c := by
        rintro t k c ⟨_, _, h, _⟩
        simp at h
      have hnd : ∀ t, ¬ Delivers ⟨.reorder, none, []⟩ t := by
        rintro t ⟨_, _, _, _, h, _⟩
        simp at h
      simp [hna, hnd, ← Map.get?_perm hi.wf hp]

/-! ## C75 -/

/-- C75 (partial): after any history, a datagram taken for an answer is told to exactly those tasks that have a query
of its transaction id and kind outstanding, once, with what the answer says. The address it comes from is not looked
at, so the full property fails (`C75_source_violated`). -/
theorem C75_delivery_partial (env : Env) (own secret : ID) (h : List Entry) (s s' : Con)
    (hr : Con.Run env (Con.start own secret) h s) (a : SockAddr) (bytes t : Bytes) (y : Byte) (r : Response)
    (effs : List Effect)
    (hs : Con.Step env s ⟨.datagram (some a) bytes, some (.response t y r), effs⟩ s') :
    (∀ c, Outstanding h t (answersKind r) c → effs = [.toRequester c (told a r)]) ∧
    ((∀ c, ¬ Outstanding h t (answersKind r) c) → effs = []) ∧
    ∀ k c, effs ≠ [] → ¬ Outstanding (h ++ [⟨.datagram (some a) bytes, some (.response t y r), effs⟩]) t k c := by
  have hp := pending_outstanding hr
  have key : AnswerEffects s a t r s'.pending effs := by
    generalize he : (⟨.datagram (some a) bytes, some (.response t y r), effs⟩ : Entry) = e at hs
    cases hs with
    | datagram hrec =>
      simp only [Entry.mk.injEq, Event.datagram.injEq] at he
      obtain ⟨⟨rfl, rfl⟩, hh, rfl⟩ := he
      obtain ⟨h1, h2⟩ := receive_ok hrec
      have hb : s'.buf = bufAfter s bytes := by rw [h1]
      rw [hb] at hh
      rw [← hh] at h2
      exact h2
    | command => simp at he
    | closed => simp at he
    | reorder => simp at he
  rcases key with ⟨c, hg, _, rfl, _⟩ | ⟨hn, _, rfl⟩
  · refine ⟨?_, ?_, ?_⟩
    · intro c' hc'
      rw [← hp, hg] at hc'
      simp only [Option.some.injEq, Prod.mk.injEq, true_and] at hc'
      rw [hc']
    · intro hno
      exact absurd ((hp _ _ _).mp hg) (hno c)
    · intro k c' _ ho
      rcases outstanding_snoc.mp ho with ha | ⟨_, _, hd⟩
      · exact not_asks_datagram ha
      · exact hd ⟨y, r, c, told a r, rfl, by simp⟩
  · refine ⟨?_, fun _ => rfl, fun _ _ hne => absurd rfl hne⟩
    intro c hc
    exact absurd ((hp _ _ _).mpr hc) (hn c)

/-- C75: nothing else is ever told to a task: whatever a task is told was an IPv4 datagram taken for an answer. -/
theorem C75_only_answers (env : Env) (own secret : ID) (h : List Entry) (s : Con)
    (hr : Con.Run env (Con.start own secret) h s) (e : Entry) (he : e ∈ h) (c : Nat) (m : FromConResp)
    (hm : Effect.toRequester c m ∈ e.effects) :
    ∃ a bytes t y r, e.event = .datagram (some a) bytes ∧ e.heard = some (.response t y r) ∧ m = told a r := by
  induction hr with
  | nil => simp at he
  | @snoc s1 s2 h e' hr hs ih =>
    rcases List.mem_append.mp he with he | he
    · exact ih he
    · simp only [List.mem_singleton] at he
      subst he
      cases hs with
      | @datagram _ sender bytes effs hrec =>
        obtain ⟨h1, h2⟩ := receive_ok hrec
        have hb : s2.buf = bufAfter s1 bytes := by rw [h1]
        revert h2
        split
        · rename_i a t' y q args hh
          rintro ⟨_, hq⟩
          exact absurd hm (queryEffects_noRequester hq c m)
        · rename_i a t' y r _ hh
          rintro (⟨c', _, _, rfl, _⟩ | ⟨_, _, rfl⟩)
          · simp only [List.mem_singleton, Effect.toRequester.injEq] at hm
            exact ⟨a, bytes, t', y, r, rfl, by rw [hb]; exact hh, hm.2⟩
          · simp at hm
        · rintro ⟨_, rfl⟩
          simp at hm
      | @command _ tid cmd effs htid hc =>
        cases cmd with
        | query c' target v =>
          rw [send_query_eq] at hc
          simp only [Res.ok.injEq, Prod.mk.injEq] at hc
          obtain ⟨rfl, rfl⟩ := hc
          simp at hm
        | resp qid v =>
          rw [send_resp_eq] at hc
          simp only [Res.ok.injEq, Prod.mk.injEq] at hc
          obtain ⟨rfl, rfl⟩ := hc
          simp at hm
      | closed => simp at hm
      | reorder => simp at hm

/-! ## C76 -/

/-- C76 (partial): at any time the table has exactly one entry for every transaction id with an outstanding query, and
entries together with delivered answers are at most as many as queries. Answers to announcements are never delivered,
so the full property fails (`C76_announce_violated`). -/
theorem C76_bounded_partial (env : Env) (own secret : ID) (h : List Entry) (s : Con)
    (hr : Con.Run env (Con.start own secret) h s) :
    (s.pending.map (·.1)).Nodup ∧
    (∀ t k c, (t, k, c) ∈ s.pending ↔ Outstanding h t k c) ∧
    s.pending.length + h.countP isDelivery ≤ h.countP isQuery := by
  have hi := (Inv.start own secret).run hr
  refine ⟨hi.wf, fun t k c => ?_, ?_⟩
  · rw [← pending_outstanding hr]
    exact ⟨fun hm => Map.get?_of_mem hi.wf hm, Map.mem_of_get?⟩
  clear hi
  generalize hs0 : Con.start own secret = s0 at hr
  induction hr with
  | nil => subst hs0; simp [Con.start]
  | @snoc s1 s2 h e hr hs ih =>
    subst hs0
    have hi := (Inv.start own secret).run hr
    rw [List.countP_append, List.countP_append, List.countP_singleton, List.countP_singleton]
    cases hs with
    | @datagram _ sender bytes effs hrec =>
      have hq : isQuery ⟨.datagram sender bytes, heardIn env s2.buf, effs⟩ = false := rfl
      rw [hq]
      obtain ⟨h1, h2⟩ := receive_ok hrec
      have quiet : s2.pending = s1.pending → (∀ c m, Effect.toRequester c m ∉ effs) →
          s2.pending.length + (h.countP isDelivery +
            if isDelivery ⟨.datagram sender bytes, heardIn env s2.buf, effs⟩ = true then 1 else 0) ≤
          h.countP isQuery + if (false = true) then 1 else 0 := by
        intro hp he
        have hd : isDelivery ⟨.datagram sender bytes, heardIn env s2.buf, effs⟩ = false := by
          rw [isDelivery, List.any_eq_false]
          intro f hf
          cases f with
          | toRequester c m => exact absurd hf (he c m)
          | datagram => simp
          | toManager => simp
        rw [hp, hd]
        simpa using ih
      revert h2
      split
      · rintro ⟨hp, hq⟩
        exact quiet hp (queryEffects_noRequester hq)
      · rename_i a t' y r _ hh
        rintro (⟨c', hg, hp, rfl, _⟩ | ⟨_, hp, rfl⟩)
        · have hlt : (s1.pending.erase t').length < s1.pending.length := by
            unfold Map.erase
            apply List.length_filter_lt_length_iff_exists.mpr
            exact ⟨(t', answersKind r, c'), Map.mem_of_get? hg, by simp⟩
          rw [hp]
          simp only [isDelivery, List.any_cons, List.any_nil, Bool.or_false, if_true]
          simp only [Bool.false_eq_true, if_false]
          omega
        · exact quiet hp (by simp)
      · rintro ⟨hp, rfl⟩
        exact quiet hp (by simp)
    | @command _ tid cmd effs htid hc =>
      cases cmd with
      | query c' target v =>
        rw [send_query_eq] at hc
        simp only [Res.ok.injEq, Prod.mk.injEq] at hc
        obtain ⟨rfl, rfl⟩ := hc
        have := Map.length_insert (m := s1.pending) tid (kindOf v, c')
        simp only [isDelivery, isQuery, List.any_cons, List.any_nil, Bool.or_false, if_true, Bool.false_eq_true, if_false]
        split at this <;> omega
      | resp qid v =>
        rw [send_resp_eq] at hc
        simp only [Res.ok.injEq, Prod.mk.injEq] at hc
        obtain ⟨rfl, rfl⟩ := hc
        simpa [isDelivery, isQuery] using ih
    | closed => simpa [isDelivery, isQuery] using ih
    | @reorder p hp =>
      simp only [isDelivery, isQuery, List.any_nil, Bool.false_eq_true, if_false, Nat.add_zero, ← hp.length_eq]
      exact ih

/-- The buffer after a datagram that begins with a value that fits. -/
theorem bufAfter_prefix {s : Con} {v : BVal} {rest : Bytes} (hb : s.buf.length = 2 * MTU)
    (hl : (bencode v).length ≤ 2 * 1300) : ∃ tail, bufAfter s (bencode v ++ rest) = bencode v ++ tail := by
  refine ⟨rest.take (s.buf.length - (bencode v).length) ++ s.buf.drop (bencode v ++ rest).length, ?_⟩
  have h : (bencode v).length ≤ s.buf.length := by rw [hb]; exact hl
  rw [bufAfter, List.take_append, List.take_of_length_le h, List.append_assoc]

theorem fromBytes_tail (lib : Lib) {v : BVal} (hc : Canonical BENDY_DEFAULT_DEPTH v) (r1 r2 : Bytes) :
    Message.fromBytes lib (bencode v ++ r1) = Message.fromBytes lib (bencode v ++ r2) := by
  simp only [Message.fromBytes, C62_decode_encode _ _ hc, Res.ok_bind]

/-- C75 is violated: whoever answers first with the transaction id is believed; an answer from any address is told to
the task that asked some other node. -/
theorem C75_source_violated (env : Env) (hint : ∀ n : Nat, n < 2 ^ 32 → env.lib.intOk n = true)
    (own secret : ID) (h : List Entry) (s : Con) (hr : Con.Run env (Con.start own secret) h s)
    (t : Bytes) (c : Nat) (ho : Outstanding h t .ping c) (hl : s.listening (some c) = true) (a : SockAddr) (id : ID)
    (hb : (Message.pingResp id t).intoBytes.length ≤ 2 * 1300) :
    ∃ s' e, Con.Step env s e s' ∧ e.event = .datagram (some a) (Message.pingResp id t).intoBytes ∧
      e.effects = [.toRequester c (.touch id a)] := by
  have hg := (pending_outstanding hr t .ping c).mpr ho
  have hi := (Inv.start own secret).run hr
  have ht : t.length < 2 ^ 64 := by
    have : t.length ≤ (Message.pingResp id t).intoBytes.length := by
      simp only [Krpc.Message.intoBytes, Krpc.Message.pingResp, Krpc.Message.val, bencode, bencodePairs,
        bencodeStr, List.length_append, List.length_cons]
      omega
    exact Nat.lt_of_le_of_lt (Nat.le_trans this hb) (by decide)
  have hdec : Message.fromBytes env.lib (bufAfter s (Message.pingResp id t).intoBytes) =
      .ok (Message.pingResp id t) := by
    obtain ⟨tail, hb⟩ := bufAfter_prefix (s := s) (v := (Message.pingResp id t).val) (rest := []) hi.buf hb
    rw [List.append_nil] at hb
    rw [Krpc.Message.intoBytes, hb]
    exact C71_round_trip_partial env.lib hint (Message.pingResp id t) ⟨ht, by decide +kernel, trivial⟩ tail
  have hrec : s.receive env (some a) (Message.pingResp id t).intoBytes =
      .ok ({ s with buf := bufAfter s (Message.pingResp id t).intoBytes, pending := s.pending.erase t },
        [.toRequester c (.touch id a)]) := by
    simp only [Con.receive, Con.handleReceived]
    change (match Message.fromBytes env.lib (bufAfter s (Message.pingResp id t).intoBytes) with
      | .panic => _
      | .err => _
      | .ok (.query tid _ _ arguments) => _
      | .ok (.response tid _ response) => _
      | .ok (.error _ _ _) => _) = _
    rw [hdec]
    simp only [Message.pingResp, Con.handleResp, Pending.get, hg, RequestType.ofResponse, if_true, Con.into, hl]
    rfl
  exact ⟨_, _, .datagram hrec, rfl, rfl⟩

/-- C76 is violated: when an announcement is outstanding and is answered as BEP 5 says, the requesting task is told
nothing and the entry stays. -/
theorem C76_announce_violated (env : Env) (hint : ∀ n : Nat, n < 2 ^ 32 → env.lib.intOk n = true)
    (own secret : ID) (h : List Entry) (s : Con) (hr : Con.Run env (Con.start own secret) h s)
    (t : Bytes) (c : Nat) (ho : Outstanding h t .announcePeer c) (a : SockAddr) (id : ID)
    (hl : (Message.announcePeerResp id t).intoBytes.length ≤ 2 * 1300) :
    ∃ s' e, Con.Step env s e s' ∧ e.event = .datagram (some a) (Message.announcePeerResp id t).intoBytes ∧
      e.effects = [] ∧ Outstanding (h ++ [e]) t .announcePeer c := by
  have hg := (pending_outstanding hr t .announcePeer c).mpr ho
  have hi := (Inv.start own secret).run hr
  have ht : t.length < 2 ^ 64 := by
    have : t.length ≤ (Message.announcePeerResp id t).intoBytes.length := by
      simp only [Krpc.Message.intoBytes, Krpc.Message.announcePeerResp, Krpc.Message.val, bencode, bencodePairs,
        bencodeStr, List.length_append, List.length_cons]
      omega
    exact Nat.lt_of_le_of_lt (Nat.le_trans this hl) (by decide)
  have hdec : Message.fromBytes env.lib (bufAfter s (Message.announcePeerResp id t).intoBytes) =
      .ok (Message.pingResp id t) := by
    obtain ⟨tail, hb⟩ := bufAfter_prefix (s := s) (v := (Message.announcePeerResp id t).val) (rest := []) hi.buf hl
    rw [List.append_nil] at hb
    rw [Krpc.Message.intoBytes, hb]
    exact C71_round_trip_partial env.lib hint (Message.announcePeerResp id t) ⟨ht, by decide +kernel, trivial⟩ tail
  have hrec : s.receive env (some a) (Message.announcePeerResp id t).intoBytes =
      .ok ({ s with buf := bufAfter s (Message.announcePeerResp id t).intoBytes }, []) := by
    simp only [Con.receive, Con.handleReceived]
    change (match Message.fromBytes env.lib (bufAfter s (Message.announcePeerResp id t).intoBytes) with
      | .panic => _
      | .err => _
      | .ok (.query tid _ _ arguments) => _
      | .ok (.response tid _ response) => _
      | .ok (.error _ _ _) => _) = _
    rw [hdec]
    simp only [Message.pingResp, Con.handleResp, Pending.get, hg, RequestType.ofResponse]
    rfl
  refine ⟨_, _, .datagram hrec, rfl, rfl, ?_⟩
  refine outstanding_snoc.mpr (.inr ⟨ho, fun _ _ => not_asks_datagram, ?_⟩)
  rintro ⟨_, _, _, _, _, hm⟩
  simp at hm

/-! ## C74 -/

/-- C74 (partial): a datagram that begins with a complete bencoded value is understood the same way whatever earlier
datagrams left in the buffer. -/
theorem C74_self_contained_partial (env : Env) (s : Con) (b1 b2 : Bytes) (h1 : b1.length = 2 * 1300)
    (h2 : b2.length = 2 * 1300) (sender : Option SockAddr) (bytes : Bytes) (hs : SelfContained bytes) :
    observe (({ s with buf := b1 } : Con).receive env sender bytes) =
      observe (({ s with buf := b2 } : Con).receive env sender bytes) := by
  obtain ⟨v, rest, hc, rfl, hl⟩ := hs
  obtain ⟨t1, e1⟩ := bufAfter_prefix (s := { s with buf := b1 }) (v := v) (rest := rest) h1 hl
  obtain ⟨t2, e2⟩ := bufAfter_prefix (s := { s with buf := b2 }) (v := v) (rest := rest) h2 hl
  have key : ∀ (b t : Bytes), b.length = 2 * 1300 → bufAfter { s with buf := b } (bencode v ++ rest) = bencode v ++ t →
      observe (({ s with buf := b } : Con).receive env sender (bencode v ++ rest)) =
        observe (({ s with buf := [] } : Con).handleReceived env sender (bencode v)) := by
    intro b t hb e
    have : ({ s with buf := b } : Con).receive env sender (bencode v ++ rest) =
        ({ s with buf := bencode v ++ t } : Con).handleReceived env sender (bencode v ++ t) := by
      simp only [Con.receive]
      have e' := e
      rw [bufAfter] at e'
      simp only at e'
      rw [e']
    rw [this]
    cases sender with
    | none => rfl
    | some a =>
      simp only [Con.handleReceived]
      have hf := fromBytes_tail env.lib hc t []
      rw [List.append_nil] at hf
      rw [hf]
      cases Message.fromBytes env.lib (bencode v) with
      | panic => rfl
      | err => rfl
      | ok m =>
        cases m with
        | query tid y q args =>
          cases args with
          | ping id => rfl
          | findNode id target =>
            simp only [Con.handleQuery, Con.into]
            split <;> rfl
          | getPeers id ih =>
            simp only [Con.handleQuery, Con.into]
            split <;> rfl
          | announcePeer id ih port token =>
            simp only [Con.handleQuery, Con.into, Con.tokenIsValid]
            by_cases ht : token = ID.hashWithSecret env.sha1 s.secret a.ip.octets
            · by_cases hl : s.listening none = true
              · simp only [ht, hl, decide_true, if_true]
                rfl
              · simp only [ht, hl, decide_true, if_true]
                rfl
            · simp only [ht, decide_false, Bool.false_eq_true, if_false]
              rfl
        | response tid y r =>
          simp only [Con.handleResp]
          cases s.pending.get tid (RequestType.ofResponse r) with
          | mk o p =>
            cases o with
            | none => rfl
            | some c =>
              simp only [Con.into]
              split <;> rfl
        | error tid y e => rfl
  rw [key b1 t1 h1 e1, key b2 t2 h2 e2]

/-- The effects of a datagram from `a` after the datagrams `earlier` from elsewhere. -/
def effectsAfter (env : Env) (s : Con) (a : SockAddr) : List Bytes → Bytes → Option (List Effect)
  | [], bytes => match s.receive env (some a) bytes with
    | .ok (_, effs) => some effs
    | _ => none
  | e :: es, bytes => match s.receive env none e with
    | .ok (s', _) => effectsAfter env s' a es bytes
    | _ => none

/-- An environment for examples. -/
def demoEnv : Env := ⟨fun b => b.take 20, anyLib⟩

/-- An address for examples. -/
def demoSender : SockAddr := ⟨⟨10#8, 0#8, 0#8, 7#8⟩, 6881#16⟩

/-- C74 is violated: twelve bytes that mean nothing by themselves are answered as a ping if the ping of another node
came before. -/
theorem C74_stale_violated :
    effectsAfter demoEnv (Con.start (sameId 1#8) (sameId 2#8)) demoSender [] (ascii "d1:ad2:id20:") = some [] ∧
    effectsAfter demoEnv (Con.start (sameId 1#8) (sameId 2#8)) demoSender
        [ascii "d1:ad2:id20:xxxxxxxxxxxxxxxxxxxxe1:q4:ping1:t2:aa1:y1:qe"] (ascii "d1:ad2:id20:") =
      some [.datagram demoSender (Message.pingResp (sameId 1#8) (ascii "aa")).intoBytes] := by
  decide +kernel

/-! ## C77 -/

/-- C77: after any history, an announcement is accepted if and only if its token is the one of the address it comes
from; then the peer with that address and the announced port is handed over for the announced torrent and the
announcement is answered, otherwise nothing happens. -/
theorem C77_announce (env : Env) (own secret : ID) (h : List Entry) (s s' : Con)
    (hr : Con.Run env (Con.start own secret) h s) (a : SockAddr) (bytes t q : Bytes) (y : Byte) (id ih : ID) (port : U16)
    (token : Bytes) (effs : List Effect)
    (hs : Con.Step env s ⟨.datagram (some a) bytes, some (.query t y q (.announcePeer id ih port token)), effs⟩ s') :
    (token = tokenFor env.sha1 secret a.ip →
      effs = [.toManager (.newPeer ⟨⟨a.ip, port⟩⟩ ih), .datagram a (Message.announcePeerResp own t).intoBytes]) ∧
    (token ≠ tokenFor env.sha1 secret a.ip → effs = []) := by
  have hi := (Inv.start own secret).run hr
  generalize he : (⟨.datagram (some a) bytes, some (.query t y q (.announcePeer id ih port token)), effs⟩ : Entry) = e
    at hs
  cases hs with
  | datagram hrec =>
    simp only [Entry.mk.injEq, Event.datagram.injEq] at he
    obtain ⟨⟨rfl, rfl⟩, hh, rfl⟩ := he
    obtain ⟨h1, h2⟩ := receive_ok hrec
    have hb : s'.buf = bufAfter s bytes := by rw [h1]
    rw [hb] at hh
    rw [← hh] at h2
    obtain ⟨_, h3⟩ := h2
    simp only [QueryEffects, hi.own, hi.secret] at h3
    constructor
    · intro htok
      rw [if_pos htok] at h3
      exact h3.1
    · intro htok
      rw [if_neg htok] at h3
      exact h3
  | command => simp at he
  | closed => simp at he
  | reorder => simp at he

/-- C77: a peer is handed over only for an announcement with the token of its address. -/
theorem C77_only_valid (env : Env) (own secret : ID) (h : List Entry) (s : Con)
    (hr : Con.Run env (Con.start own secret) h s) (e : Entry) (he : e ∈ h) (p : Peer) (ih : ID)
    (hm : Effect.toManager (.newPeer p ih) ∈ e.effects) :
    ∃ a bytes t y q id port, e.event = .datagram (some a) bytes ∧
      e.heard = some (.query t y q (.announcePeer id ih port (tokenFor env.sha1 secret a.ip))) ∧
      p = ⟨⟨a.ip, port⟩⟩ := by
  generalize hs0 : Con.start own secret = s0 at hr
  induction hr with
  | nil => simp at he
  | @snoc s1 s2 h e' hr hs ih' =>
    subst hs0
    rcases List.mem_append.mp he with he | he
    · exact ih' he
    · simp only [List.mem_singleton] at he
      subst he
      have hi := (Inv.start own secret).run hr
      cases hs with
      | @datagram _ sender bytes effs hrec =>
        obtain ⟨h1, h2⟩ := receive_ok hrec
        have hb : s2.buf = bufAfter s1 bytes := by rw [h1]
        revert h2
        split
        · rename_i a t' y q args _ hh
          rintro ⟨_, hq⟩
          cases args with
          | ping id => simp only [QueryEffects] at hq; subst hq; simp at hm
          | findNode id target => obtain ⟨rfl, _⟩ := hq; simp at hm
          | getPeers id ih => obtain ⟨rfl, _⟩ := hq; simp at hm
          | announcePeer id ih2 port token =>
            simp only [QueryEffects, hi.secret] at hq
            split at hq
            · rename_i htok
              obtain ⟨rfl, _⟩ := hq
              simp only [List.mem_cons, Effect.toManager.injEq, FromConQuery.newPeer.injEq, reduceCtorEq,
                List.not_mem_nil, or_false] at hm
              obtain ⟨rfl, rfl⟩ := hm
              refine ⟨a, bytes, t', y, q, id, port, rfl, ?_, rfl⟩
              simp only [hb, hh, ← htok]
            · subst hq; simp at hm
        · rintro (⟨c', _, _, rfl, _⟩ | ⟨_, _, rfl⟩) <;> simp at hm
        · rintro ⟨_, rfl⟩
          simp at hm
      | @command _ tid cmd effs htid hc =>
        cases cmd with
        | query c' target v =>
          rw [send_query_eq] at hc
          simp only [Res.ok.injEq, Prod.mk.injEq] at hc
          obtain ⟨rfl, rfl⟩ := hc
          simp at hm
        | resp qid v =>
          rw [send_resp_eq] at hc
          simp only [Res.ok.injEq, Prod.mk.injEq] at hc
          obtain ⟨rfl, rfl⟩ := hc
          simp at hm
      | closed => simp at hm
      | reorder => simp at hm

/-- C77: the token handed out with every answer to `get_peers` is the one of the asking address, so that an
announcement from that address, whatever its port, is accepted with it. -/
theorem C77_handed_out (env : Env) (own secret : ID) (h : List Entry) (s s' : Con)
    (hr : Con.Run env (Con.start own secret) h s) (tid : Bytes) (qid : QueryId) (vn : ValuesOrNodes) (e : Entry)
    (hs : Con.Step env s e s') (he : e.event = .command tid (.resp qid (.getPeers vn))) :
    e.effects = [.datagram qid.target
      (Message.getPeersResp own (tokenFor env.sha1 secret qid.target.ip) vn qid.tid).intoBytes] := by
  have hi := (Inv.start own secret).run hr
  cases hs with
  | datagram => simp at he
  | command htid hc =>
    simp only [Event.command.injEq] at he
    obtain ⟨rfl, rfl⟩ := he
    rw [send_resp_eq] at hc
    simp only [Res.ok.injEq, Prod.mk.injEq] at hc
    obtain ⟨_, rfl⟩ := hc
    simp only [hi.own, hi.secret]
    rfl
  | closed => simp at he
  | reorder => simp at he

/-! ## C94 -/

theorem rawLt_keys {ks : List Bytes} (h : ks.Pairwise fun a b => bytesLt a b = true) : ks.Pairwise RawLt :=
  sorted_keys h

/-- Looks a literal key up in a literal dictionary. -/
local macro "fld" : tactic =>
  `(tactic| simp only [Spec.field, lookup_cons_if, outer_keys, inner_keys, if_true, if_false, List.lookup_nil, idVal])

theorem typeVal_q : typeVal typeQ = .str (ascii "q") := rfl

theorem typeVal_r : typeVal typeR = .str (ascii "r") := rfl

theorem query_datagram (own : ID) (tid : Bytes) (v : ToConQuery) :
    IsQueryDatagram own tid v (v.intoMessage own tid).intoBytes := by
  cases v with
  | ping =>
    refine ⟨_, [(ascii "id", idVal own)], rfl, rfl, rfl, rawLt_keys ?_, rawLt_keys ?_, ?_, ?_, ?_, ?_, ?_⟩
    all_goals first
      | (fld; done)
      | (fld; rfl)
      | (simp only [List.map_cons, List.map_nil]; decide +kernel)
  | findNode target =>
    refine ⟨_, [(ascii "id", idVal own), (ascii "target", idVal target)], rfl, rfl, rfl, rawLt_keys ?_, rawLt_keys ?_, ?_, ?_, ?_, ?_, ?_, ?_⟩
    all_goals first
      | (fld; done)
      | (fld; rfl)
      | (simp only [List.map_cons, List.map_nil]; decide +kernel)
  | getPeers ih =>
    refine ⟨_, [(ascii "id", idVal own), (ascii "info_hash", idVal ih)], rfl, rfl, rfl, rawLt_keys ?_, rawLt_keys ?_, ?_, ?_, ?_, ?_, ?_, ?_⟩
    all_goals first
      | (fld; done)
      | (fld; rfl)
      | (simp only [List.map_cons, List.map_nil]; decide +kernel)
  | announcePeer ih port token =>
    refine ⟨_, [(ascii "id", idVal own), (ascii "info_hash", idVal ih), (ascii "port", .int port.toNat),
      (ascii "token", .str token)], rfl, rfl, rfl, rawLt_keys ?_, rawLt_keys ?_, ?_, ?_, ?_, ?_, ?_, ?_, ?_, ?_⟩
    all_goals first
      | (fld; done)
      | (fld; rfl)
      | (simp only [List.map_cons, List.map_nil]; decide +kernel)

theorem answer_datagram (own : ID) (tid token : Bytes) (v : ToConResp) :
    IsAnswerDatagram own tid token v (v.intoMessage own tid token).intoBytes := by
  match v with
  | .ping =>
    refine ⟨_, [(ascii "id", idVal own)], rfl, rfl, rfl, rawLt_keys ?_, rawLt_keys ?_, ?_, ?_, ?_, ?_, trivial⟩
    all_goals first
      | (fld; done)
      | (fld; rfl)
      | (simp only [List.map_cons, List.map_nil]; decide +kernel)
  | .findNode nodes =>
    refine ⟨_, [(ascii "id", idVal own), (ascii "nodes", .str nodes.compact)], rfl, rfl, rfl, rawLt_keys ?_, rawLt_keys ?_, ?_, ?_, ?_, ?_, ?_⟩
    all_goals first
      | (fld; done)
      | (fld; rfl)
      | (fld; rw [Nodes.compact_eq]; done)
      | (simp only [List.map_cons, List.map_nil]; decide +kernel)
  | .getPeers (.values vs) =>
    refine ⟨_, [(ascii "id", idVal own), (ascii "token", .str token),
      (ascii "values", .list (vs.map fun p => .str p.compact))], rfl, rfl, rfl, rawLt_keys ?_, rawLt_keys ?_, ?_, ?_, ?_, ?_, ?_, ?_⟩
    all_goals first
      | (fld; done)
      | (fld; rfl)
      | (simp only [List.map_cons, List.map_nil]; decide +kernel)
  | .getPeers (.nodes nodes) =>
    refine ⟨_, [(ascii "id", idVal own), (ascii "nodes", .str nodes.compact), (ascii "token", .str token)], rfl, rfl, rfl, rawLt_keys ?_, rawLt_keys ?_, ?_, ?_, ?_, ?_, ?_, ?_⟩
    all_goals first
      | (fld; done)
      | (fld; rfl)
      | (fld; rw [Nodes.compact_eq]; done)
      | (simp only [List.map_cons, List.map_nil]; decide +kernel)
  | .announcePeer =>
    refine ⟨_, [(ascii "id", idVal own)], rfl, rfl, rfl, rawLt_keys ?_, rawLt_keys ?_, ?_, ?_, ?_, ?_, trivial⟩
    all_goals first
      | (fld; done)
      | (fld; rfl)
      | (simp only [List.map_cons, List.map_nil]; decide +kernel)

/-- C94: a query that a task wants sent becomes exactly one datagram, to the node asked, with the query of BEP 5 and a
transaction id of five bytes. -/
theorem C94_queries (env : Env) (own secret : ID) (h : List Entry) (s s' : Con)
    (hr : Con.Run env (Con.start own secret) h s) (tid : Bytes) (c : Nat) (target : SockAddr) (v : ToConQuery) (e : Entry)
    (hs : Con.Step env s e s') (he : e.event = .command tid (.query c target v)) :
    tid.length = 5 ∧ ∃ bytes, e.effects = [.datagram target bytes] ∧ IsQueryDatagram own tid v bytes := by
  have hi := (Inv.start own secret).run hr
  cases hs with
  | datagram => simp at he
  | command htid hc =>
    simp only [Event.command.injEq] at he
    obtain ⟨rfl, rfl⟩ := he
    rw [send_query_eq] at hc
    simp only [Res.ok.injEq, Prod.mk.injEq] at hc
    obtain ⟨_, rfl⟩ := hc
    rw [hi.own]
    exact ⟨htid, _, rfl, query_datagram own _ v⟩
  | closed => simp at he
  | reorder => simp at he

/-- C94: an answer becomes exactly one datagram, to the node that asked, with its transaction id, the own identifier
and, for `get_peers`, the token of the asking address. -/
theorem C94_answers (env : Env) (own secret : ID) (h : List Entry) (s s' : Con)
    (hr : Con.Run env (Con.start own secret) h s) (tid : Bytes) (qid : QueryId) (v : ToConResp) (e : Entry)
    (hs : Con.Step env s e s') (he : e.event = .command tid (.resp qid v)) :
    ∃ bytes, e.effects = [.datagram qid.target bytes] ∧
      IsAnswerDatagram own qid.tid (tokenFor env.sha1 secret qid.target.ip) v bytes := by
  have hi := (Inv.start own secret).run hr
  cases hs with
  | datagram => simp at he
  | command htid hc =>
    simp only [Event.command.injEq] at he
    obtain ⟨rfl, rfl⟩ := he
    rw [send_resp_eq] at hc
    simp only [Res.ok.injEq, Prod.mk.injEq] at hc
    obtain ⟨_, rfl⟩ := hc
    rw [hi.own, hi.secret]
    exact ⟨_, rfl, answer_datagram _ _ _ _⟩
  | closed => simp at he
  | reorder => simp at he

/-- C94: what is done about a query that is heard: a ping is answered at once, `find_node` and `get_peers` are handed
over with asker and transaction id, and an accepted announcement is answered. -/
theorem C94_heard (env : Env) (own secret : ID) (h : List Entry) (s s' : Con)
    (hr : Con.Run env (Con.start own secret) h s) (a : SockAddr) (bytes t q : Bytes) (y : Byte) (args : Arguments)
    (effs : List Effect)
    (hs : Con.Step env s ⟨.datagram (some a) bytes, some (.query t y q args), effs⟩ s') :
    (∀ id, args = .ping id → ∃ b, effs = [.datagram a b] ∧ IsAnswerDatagram own t [] .ping b) ∧
    (∀ id target, args = .findNode id target → effs = [.toManager (.findNode target ⟨a, t⟩)]) ∧
    (∀ id ih, args = .getPeers id ih → effs = [.toManager (.getPeers ih ⟨a, t⟩)]) ∧
    (∀ id ih port token, args = .announcePeer id ih port token → token = tokenFor env.sha1 secret a.ip →
      ∃ b, effs = [.toManager (.newPeer ⟨⟨a.ip, port⟩⟩ ih), .datagram a b] ∧ IsAnswerDatagram own t [] .announcePeer b) := by
  have hi := (Inv.start own secret).run hr
  have key : QueryEffects env s a t args effs := by
    generalize he : (⟨.datagram (some a) bytes, some (.query t y q args), effs⟩ : Entry) = e at hs
    cases hs with
    | datagram hrec =>
      simp only [Entry.mk.injEq, Event.datagram.injEq] at he
      obtain ⟨⟨rfl, rfl⟩, hh, rfl⟩ := he
      obtain ⟨h1, h2⟩ := receive_ok hrec
      have hb : s'.buf = bufAfter s bytes := by rw [h1]
      rw [hb] at hh
      rw [← hh] at h2
      exact h2.2
    | command => simp at he
    | closed => simp at he
    | reorder => simp at he
  refine ⟨?_, ?_, ?_, ?_⟩
  · rintro id rfl
    simp only [QueryEffects, hi.own] at key
    exact ⟨_, key, answer_datagram own t [] .ping⟩
  · rintro id target rfl
    exact key.1
  · rintro id ih rfl
    exact key.1
  · rintro id ih port token rfl htok
    simp only [QueryEffects, hi.own, hi.secret, if_pos htok] at key
    exact ⟨_, key.1, answer_datagram own t [] .announcePeer⟩

/-- C94: nothing is done about datagrams from IPv6 addresses, datagrams that are not understood and error messages. -/
theorem C94_ignored (env : Env) (s s' : Con) (a : Option SockAddr) (bytes : Bytes) (m : Option Krpc.Message)
    (effs : List Effect) (hs : Con.Step env s ⟨.datagram a bytes, m, effs⟩ s')
    (hm : a = none ∨ m = none ∨ ∃ t y e, m = some (.error t y e)) : effs = [] := by
  generalize he : (⟨.datagram a bytes, m, effs⟩ : Entry) = e at hs
  cases hs with
  | datagram hrec =>
    simp only [Entry.mk.injEq, Event.datagram.injEq] at he
    obtain ⟨⟨rfl, rfl⟩, hh, rfl⟩ := he
    obtain ⟨h1, h2⟩ := receive_ok hrec
    have hb : s'.buf = bufAfter s bytes := by rw [h1]
    rw [hb] at hh
    rw [← hh] at h2
    rcases hm with rfl | rfl | ⟨t, y, e, rfl⟩
    · exact h2.2
    · cases a <;> exact h2.2
    · cases a <;> exact h2.2
  | command => simp at he
  | closed => simp at he
  | reorder => simp at he

/-! ## C95 -/

/-- C95 (partial): as long as the other tasks listen, no datagram stops the task, unless the buffer then holds a
dictionary with an identifier that is a string of another length than 20. Commands never stop it. -/
theorem C95_survives_partial (env : Env) (s : Con) (hl : ∀ c, s.listening c = true) (sender : Option SockAddr)
    (bytes : Bytes)
    (hz : ∀ pairs rest, bytes.take s.buf.length ++ s.buf.drop bytes.length = bencode (.dict pairs) ++ rest →
      Canonical BENDY_DEFAULT_DEPTH (.dict pairs) → Sized pairs) (tid : Bytes) (cmd : ToCon) :
    (∃ s' effs, s.receive env sender bytes = .ok (s', effs)) ∧ (∃ s' effs, s.send env tid cmd = .ok (s', effs)) := by
  constructor
  · simp only [Con.receive, Con.handleReceived]
    cases sender with
    | none => exact ⟨_, _, rfl⟩
    | some a =>
      have hnp := C73_sized_partial env.lib _ hz
      simp only
      cases hm : Message.fromBytes env.lib (bytes.take s.buf.length ++ s.buf.drop bytes.length) with
      | panic => exact absurd hm hnp
      | err => exact ⟨_, _, rfl⟩
      | ok m =>
        cases m with
        | query t y q args =>
          simp only
          cases args with
          | ping id => exact ⟨_, _, rfl⟩
          | findNode id target => simp only [Con.handleQuery, Con.into, hl, if_true]; exact ⟨_, _, rfl⟩
          | getPeers id ih => simp only [Con.handleQuery, Con.into, hl, if_true]; exact ⟨_, _, rfl⟩
          | announcePeer id ih port token =>
            simp only [Con.handleQuery, Con.into, hl, if_true]
            split
            · exact ⟨_, _, rfl⟩
            · exact ⟨_, _, rfl⟩
        | response t y r =>
          simp only [Con.handleResp]
          cases s.pending.get t (RequestType.ofResponse r) with
          | mk o p =>
            cases o with
            | none => exact ⟨_, _, rfl⟩
            | some c => simp only [Con.into, hl, if_true]; exact ⟨_, _, rfl⟩
        | error t y e => exact ⟨_, _, rfl⟩
  · cases cmd with
    | query c target v => rw [send_query_eq]; exact ⟨_, _, rfl⟩
    | resp qid v => exact ⟨_, _, rfl⟩

/-- C95 is violated: after any history one small datagram from any IPv4 address stops the task. -/
theorem C95_short_id_violated (env : Env) (own secret : ID) (h : List Entry) (s : Con)
    (hr : Con.Run env (Con.start own secret) h s) (a : SockAddr) :
    s.receive env (some a) (ascii "d1:ad2:id1:xe1:q4:ping1:t2:aa1:y1:qe") = .panic := by
  have hi := (Inv.start own secret).run hr
  have hlen : (ascii "d1:ad2:id1:xe1:q4:ping1:t2:aa1:y1:qe").length ≤ s.buf.length := by
    rw [hi.buf]; decide +kernel
  simp only [Con.receive, Con.handleReceived, List.take_of_length_le hlen, C73_short_id_violated]

/-! ## Concrete cases -/

/-- A ping that is sent for task 3. -/
def demoPing : Entry :=
  ⟨.command (ascii "abcde") (.query 3 demoSender .ping), none,
    [.datagram demoSender (Message.pingQuery (sameId 1#8) (ascii "abcde")).intoBytes]⟩

/-- The state after it. -/
def demoCon : Con :=
  { Con.start (sameId 1#8) (sameId 2#8) with pending := [(ascii "abcde", .ping, 3)] }

theorem demoRun : Con.Run demoEnv (Con.start (sameId 1#8) (sameId 2#8)) [demoPing] demoCon :=
  .snoc (h := []) .nil (.command rfl rfl)

theorem demoOutstanding : Outstanding [demoPing] (ascii "abcde") .ping 3 :=
  ⟨[], demoPing, [], rfl, ⟨demoSender, .ping, rfl, rfl⟩, by simp⟩

/-- C75: the hypotheses are met; the pong is told to task 3. -/
example : ∃ s' e, Con.Step demoEnv demoCon e s' ∧ e.effects = [.toRequester 3 (.touch (sameId 9#8) demoSender)] := by
  obtain ⟨s', e, hs, _, he⟩ := C75_source_violated demoEnv (fun _ _ => rfl) _ _ _ _ demoRun (ascii "abcde") 3
    demoOutstanding rfl demoSender (sameId 9#8) (by decide +kernel)
  exact ⟨s', e, hs, he⟩

/-- C74: a ping as sent by this program is self-contained. -/
example : SelfContained (Message.pingQuery (sameId 1#8) (ascii "abcde")).intoBytes :=
  ⟨_, [], message_canonical (utf8 := fun _ => true) (Message.pingQuery (sameId 1#8) (ascii "abcde"))
    (by refine ⟨?_, ?_, rfl, ?_, ?_⟩ <;> decide +kernel) 2045, by rw [List.append_nil]; rfl, by decide +kernel⟩

/-- C77: an announcement with the token of the address is accepted, with that of another address it is not. -/
example :
    effectsAfter demoEnv demoCon demoSender []
      (Message.announcePeerQuery (sameId 5#8) (sameId 6#8) 51413#16 (tokenFor demoEnv.sha1 (sameId 2#8) demoSender.ip)
        (ascii "aa")).intoBytes =
      some [.toManager (.newPeer ⟨⟨demoSender.ip, 51413#16⟩⟩ (sameId 6#8)),
        .datagram demoSender (Message.announcePeerResp (sameId 1#8) (ascii "aa")).intoBytes] ∧
    effectsAfter demoEnv demoCon demoSender []
      (Message.announcePeerQuery (sameId 5#8) (sameId 6#8) 51413#16 (ascii "guess") (ascii "aa")).intoBytes = some [] := by
  decide +kernel

/-- C94: a `get_peers` is handed over. -/
example :
    effectsAfter demoEnv demoCon demoSender [] (Message.getPeersQuery (sameId 5#8) (sameId 6#8) (ascii "aa")).intoBytes =
      some [.toManager (.getPeers (sameId 6#8) ⟨demoSender, ascii "aa"⟩)] := by
  decide +kernel

/-- The hypotheses of `C73_sized_partial` and `C95_survives_partial` are met by the ping of another node, whatever follows it in
the buffer: its only dictionary is the ping itself, and the identifier in it has 20 bytes. -/
theorem demo_sized (behind : Bytes) (pairs : List (Bytes × BVal)) (rest : Bytes)
    (h : (Message.pingQuery (sameId 5#8) (ascii "aa")).intoBytes ++ behind = bencode (.dict pairs) ++ rest)
    (hc : Canonical BENDY_DEFAULT_DEPTH (.dict pairs)) : Sized pairs := by
  have h1 := C62_decode_encode BENDY_DEFAULT_DEPTH _ hc rest
  have h2 := C62_decode_encode BENDY_DEFAULT_DEPTH _ (message_canonical (utf8 := fun _ => true)
    (Message.pingQuery (sameId 5#8) (ascii "aa")) (by refine ⟨?_, ?_, rfl, ?_, ?_⟩ <;> decide +kernel) 2045) behind
  rw [show bencode (.dict (Message.pingQuery (sameId 5#8) (ascii "aa")).pairs) =
    (Message.pingQuery (sameId 5#8) (ascii "aa")).intoBytes from rfl, h, h1] at h2
  simp only [Res.ok.injEq, Prod.mk.injEq, BVal.dict.injEq] at h2
  rw [h2.1]
  have ha : field (Message.pingQuery (sameId 5#8) (ascii "aa")).pairs "a" =
      some (.dict [(ascii "id", .str (sameId 5#8).bytes)]) := rfl
  have hr : field (Message.pingQuery (sameId 5#8) (ascii "aa")).pairs "r" = none := rfl
  refine ⟨fun args he => ?_, fun rp he => by rw [hr] at he; cases he⟩
  rw [ha] at he
  cases he
  refine ⟨fun s hs => ?_, fun s hs => ?_, fun s hs => ?_⟩ <;> cases hs
  exact (sameId 5#8).len_eq

/-- C95 applies: the ping is received by a task that has a query outstanding, and the task goes on. -/
example (tid : Bytes) (cmd : ToCon) :
    (∃ s' effs, demoCon.receive demoEnv (some demoSender) (Message.pingQuery (sameId 5#8) (ascii "aa")).intoBytes =
      .ok (s', effs)) ∧ ∃ s' effs, demoCon.send demoEnv tid cmd = .ok (s', effs) := by
  refine C95_survives_partial demoEnv demoCon (fun _ => rfl) _ _ (fun pairs rest h hc => ?_) tid cmd
  rw [List.take_of_length_le (by decide +kernel)] at h
  exact demo_sized _ pairs rest h hc

/-- C94: what the task does about a ping, a datagram that is not understood and one from an IPv6 address, and about an answer
it is to send. -/
example :
    effectsAfter demoEnv demoCon demoSender [] (Message.pingQuery (sameId 5#8) (ascii "aa")).intoBytes =
      some [.datagram demoSender (Message.pingResp (sameId 1#8) (ascii "aa")).intoBytes] ∧
    effectsAfter demoEnv demoCon demoSender [] (ascii "hello") = some [] ∧
    (∃ s', demoCon.receive demoEnv none (ascii "hello") = .ok (s', [])) ∧
    ∃ s' bytes, Con.Step demoEnv demoCon ⟨.command (ascii "xxxxx") (.resp ⟨demoSender, ascii "aa"⟩ .ping), none,
      [.datagram demoSender bytes]⟩ s' :=
  ⟨by decide +kernel, by decide +kernel, ⟨_, rfl⟩, _, _, .command rfl rfl⟩

/-- C76 applies: after one query the table has one entry, and it is that of the query. -/
example : demoCon.pending.length = 1 ∧ [demoPing].countP isQuery = 1 ∧ [demoPing].countP isDelivery = 0 ∧
    Outstanding [demoPing] (ascii "abcde") .ping 3 := ⟨rfl, by decide +kernel, by decide +kernel, demoOutstanding⟩

end Nargun.Dht
