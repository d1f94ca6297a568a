import Verif.Props.DhtConnection
import Verif.Props.ProgramSize
import Verif.Spec.Bep5

/-! # Announcements with an implied port (C152) and errors (C153) -/

namespace Nargun.Dht

open Nargun Krpc Spec

/-- A self-contained datagram is heard as what it holds. -/
theorem heard_self {env : Env} {own secret : ID} {h : List Entry} {s s' : Con} {a : SockAddr} {pairs : List (Bytes × BVal)}
    {rest : Bytes} {m : Krpc.Message} {heard : Option Krpc.Message} {effs : List Effect}
    (hr : Con.Run env (Con.start own secret) h s) (hl : (bencode (.dict pairs)).length ≤ 2 * 1300)
    (hd : ∀ tail, Message.fromBytes env.lib (bencode (.dict pairs) ++ tail) = .ok m)
    (hs : Con.Step env s ⟨.datagram (some a) (bencode (.dict pairs) ++ rest), heard, effs⟩ s') : heard = some m := by
  have hi := (Inv.start own secret).run hr
  generalize he : (⟨.datagram (some a) (bencode (.dict pairs) ++ rest), heard, effs⟩ : Entry) = e at hs
  cases hs with
  | datagram hrec =>
    simp only [Entry.mk.injEq, Event.datagram.injEq] at he
    obtain ⟨⟨rfl, rfl⟩, hh, rfl⟩ := he
    obtain ⟨h1, _⟩ := receive_ok hrec
    have hb : s'.buf = bufAfter s (bencode (.dict pairs) ++ rest) := by rw [h1]
    obtain ⟨tail, ht⟩ := bufAfter_prefix (s := s) (v := .dict pairs) (rest := rest) hi.buf hl
    rw [hb, ht] at hh
    rw [hh, heardIn, hd]
  | command => simp at he
  | closed => simp at he
  | reorder => simp at he

/-- What an announcement that conforms to BEP 5 and has the right token leads to, whatever other arguments it has. -/
theorem announce_effects {env : Env} {own secret : ID} {h : List Entry} {s s' : Con}
    (hr : Con.Run env (Con.start own secret) h s) {pairs args : List (Bytes × BVal)} {rest t : Bytes} {id ih : ID}
    {port : U16} {a : SockAddr} {heard : Option Krpc.Message} {effs : List Effect}
    (hc : Canonical BENDY_DEFAULT_DEPTH (.dict pairs)) (hi : intsOk env.lib.intOk (.dict pairs) = true)
    (hl : (bencode (.dict pairs)).length ≤ 2 * 1300)
    (ht : field pairs "t" = some (.str t)) (hy : field pairs "y" = some (.str (ascii "q")))
    (hq : field pairs "q" = some (.str (ascii "announce_peer"))) (hu : env.lib.utf8 (ascii "announce_peer") = true)
    (ha : field pairs "a" = some (.dict args))
    (hf : Conforming args (.announcePeer id ih port (tokenFor env.sha1 secret a.ip)))
    (hs : Con.Step env s ⟨.datagram (some a) (bencode (.dict pairs) ++ rest), heard, effs⟩ s') :
    effs = [.toManager (.newPeer ⟨⟨a.ip, port⟩⟩ ih), .datagram a (Message.announcePeerResp own t).intoBytes] := by
  have hd := fun tail => C72_conforming_partial env.lib pairs args tail t
    (.announcePeer id ih port (tokenFor env.sha1 secret a.ip)) hc hi ht hy hq hu ha hf
  have hh := heard_self hr hl hd hs
  subst hh
  exact (C77_announce env own secret h s s' hr a _ t _ _ id ih port _ effs hs).1 rfl

/-- C152 (partial): after any history, an announcement of BEP 5 with the right token in which the port is not implied
makes the peer it is about known for the announced torrent, and nothing else but the answer happens. -/
theorem C152_explicit_partial (env : Env) (own secret : ID) (h : List Entry) (s s' : Con)
    (hr : Con.Run env (Con.start own secret) h s) (pairs args : List (Bytes × BVal)) (rest t : Bytes) (id ih : ID)
    (port : U16) (a : SockAddr) (heard : Option Krpc.Message) (effs : List Effect)
    (hc : Canonical BENDY_DEFAULT_DEPTH (.dict pairs)) (hi : intsOk env.lib.intOk (.dict pairs) = true)
    (hl : (bencode (.dict pairs)).length ≤ 2 * 1300)
    (ht : field pairs "t" = some (.str t)) (hy : field pairs "y" = some (.str (ascii "q")))
    (hq : field pairs "q" = some (.str (ascii "announce_peer"))) (hu : env.lib.utf8 (ascii "announce_peer") = true)
    (ha : field pairs "a" = some (.dict args))
    (hf : Conforming args (.announcePeer id ih port (tokenFor env.sha1 secret a.ip)))
    (hp : ¬ PortImplied args)
    (hs : Con.Step env s ⟨.datagram (some a) (bencode (.dict pairs) ++ rest), heard, effs⟩ s') :
    ∃ p answer, effs = [.toManager (.newPeer p ih), .datagram a answer] ∧ AnnouncedPeer args a p ∧
      IsAnswerDatagram own t [] .announcePeer answer := by
  have he := announce_effects hr hc hi hl ht hy hq hu ha hf hs
  exact ⟨_, _, he, ⟨rfl, fun h => absurd h hp, fun _ => hf.1.2.2.1⟩, answer_datagram own t [] .announcePeer⟩

/-- C152 is violated: after any history, an announcement of BEP 5 with the right token in which the port is implied and
another port stands under `port` (a node behind a gateway does not know its own port) makes a peer known that it is not
about: the announced peer is never reached, and others are sent to the wrong port. -/
theorem C152_implied_violated (env : Env) (own secret : ID) (h : List Entry) (s s' : Con)
    (hr : Con.Run env (Con.start own secret) h s) (pairs args : List (Bytes × BVal)) (rest t : Bytes) (id ih : ID)
    (port : U16) (a : SockAddr) (heard : Option Krpc.Message) (effs : List Effect)
    (hc : Canonical BENDY_DEFAULT_DEPTH (.dict pairs)) (hi : intsOk env.lib.intOk (.dict pairs) = true)
    (hl : (bencode (.dict pairs)).length ≤ 2 * 1300)
    (ht : field pairs "t" = some (.str t)) (hy : field pairs "y" = some (.str (ascii "q")))
    (hq : field pairs "q" = some (.str (ascii "announce_peer"))) (hu : env.lib.utf8 (ascii "announce_peer") = true)
    (ha : field pairs "a" = some (.dict args))
    (hf : Conforming args (.announcePeer id ih port (tokenFor env.sha1 secret a.ip)))
    (hp : PortImplied args) (hne : port ≠ a.port)
    (hs : Con.Step env s ⟨.datagram (some a) (bencode (.dict pairs) ++ rest), heard, effs⟩ s') :
    (∃ p, Effect.toManager (.newPeer p ih) ∈ effs) ∧
    ∀ p ih', Effect.toManager (.newPeer p ih') ∈ effs → ¬ AnnouncedPeer args a p := by
  have he := announce_effects hr hc hi hl ht hy hq hu ha hf hs
  subst he
  refine ⟨⟨_, List.mem_cons_self⟩, fun p ih' hm hap => ?_⟩
  simp only [List.mem_cons, Effect.toManager.injEq, List.not_mem_nil, or_false, reduceCtorEq] at hm
  cases hm
  exact hne (hap.2.1 hp)

/-! ## C153 -/

/-- C153 (partial): after any history, a datagram that holds no message, and an announcement with a wrong token, change
nothing that lasts and make nobody do anything. -/
theorem C153_harmless_partial (env : Env) (own secret : ID) (h : List Entry) (s s' : Con)
    (hr : Con.Run env (Con.start own secret) h s) (a : SockAddr) (bytes : Bytes) (heard : Option Krpc.Message)
    (effs : List Effect) (hs : Con.Step env s ⟨.datagram (some a) bytes, heard, effs⟩ s')
    (hm : heard = none ∨ ∃ t y q id ih port token, heard = some (.query t y q (.announcePeer id ih port token)) ∧
      token ≠ tokenFor env.sha1 secret a.ip) :
    effs = [] ∧ s' = { s with buf := s'.buf } := by
  have h0 : effs = [] := by
    rcases hm with rfl | ⟨t, y, q, id, ih, port, token, rfl, hne⟩
    · exact C94_ignored env s s' (some a) bytes none effs hs (.inr (.inl rfl))
    · exact (C77_announce env own secret h s s' hr a bytes t q y id ih port token effs hs).2 hne
  refine ⟨h0, ?_⟩
  generalize he : (⟨.datagram (some a) bytes, heard, effs⟩ : Entry) = e at hs
  cases hs with
  | datagram hrec =>
    simp only [Entry.mk.injEq, Event.datagram.injEq] at he
    obtain ⟨⟨rfl, rfl⟩, hh, rfl⟩ := he
    obtain ⟨h1, h2⟩ := receive_ok hrec
    have hb : s'.buf = bufAfter s bytes := by rw [h1]
    rw [hb] at hh
    rw [← hh] at h2
    have hp : s'.pending = s.pending := by
      rcases hm with rfl | ⟨t, y, q, id, ih, port, token, rfl, hne⟩
      · exact h2.1
      · exact h2.1
    rw [h1, hp]
  | command => simp at he
  | closed => simp at he
  | reorder => simp at he

/-- C153 is violated: after any history, a query with a method that BEP 5 does not know is not refused; if its arguments
are those of a `ping`, it is answered as a `ping`. -/
theorem C153_unknown_violated (env : Env) (own secret : ID) (h : List Entry) (s s' : Con)
    (hr : Con.Run env (Con.start own secret) h s) (pairs args : List (Bytes × BVal)) (rest t method : Bytes) (id : ID)
    (a : SockAddr) (heard : Option Krpc.Message) (effs : List Effect)
    (hc : Canonical BENDY_DEFAULT_DEPTH (.dict pairs)) (hi : intsOk env.lib.intOk (.dict pairs) = true)
    (hz : Sized pairs) (hl : (bencode (.dict pairs)).length ≤ 2 * 1300) (hm : UnknownMethod pairs t method)
    (hu : env.lib.utf8 method = true) (ha : field pairs "a" = some (.dict args)) (hf : Conforming args (.ping id))
    (hs : Con.Step env s ⟨.datagram (some a) (bencode (.dict pairs) ++ rest), heard, effs⟩ s') :
    ∃ answer, effs = [.datagram a answer] ∧ IsAnswerDatagram own t [] .ping answer := by
  have hqq : ascii "q" = [0x71#8] := by decide +kernel
  have hd : ∀ tail, Message.fromBytes env.lib (bencode (.dict pairs) ++ tail) = .ok (.query t 0x71#8 method (.ping id)) := by
    intro tail
    refine (C72_taken env.lib pairs tail hc hi hz _).mpr ⟨⟨hm.1, ⟨?_, by decide +kernel⟩, hm.2.2.1, hu, args, ha, hf.1, ?_⟩, ?_⟩
    · rw [hm.2.1, hqq]
    · intro b _ hob
      cases b with
      | announcePeer id' ih port token =>
        have := hf.2 "port" (by decide) (by simp [keysOf])
        have h2 := hob.2.2.1
        rw [this] at h2
        simp at h2
      | findNode id' target =>
        have := hf.2 "target" (by decide) (by simp [keysOf])
        have h2 := hob.2
        rw [this] at h2
        simp at h2
      | getPeers id' ih =>
        have := hf.2 "info_hash" (by decide) (by simp [keysOf])
        have h2 := hob.2
        rw [this] at h2
        simp at h2
      | ping id' => rename_i h; simp [argRank] at h
    · intro m' h'
      simp [msgRank] at h'
  have hh := heard_self hr hl hd hs
  subst hh
  exact (C94_heard env own secret h s s' hr a _ t method _ _ effs hs).1 id rfl

/-! ## Concrete cases -/

/-- The arguments of the announcement of `krpc_message.rs:914-945`, which implies the port: it names port 51413 and has
the token of 10.0.0.7. -/
def impliedArgs : List (Bytes × BVal) :=
  [(ascii "id", .str (sameId 5#8).bytes), (ascii "implied_port", .int 1), (ascii "info_hash", .str (sameId 6#8).bytes),
    (ascii "port", .int 51413), (ascii "token", .str (tokenFor demoEnv.sha1 (sameId 2#8) demoSender.ip))]

/-- The same without `implied_port`. -/
def explicitArgs : List (Bytes × BVal) :=
  [(ascii "id", .str (sameId 5#8).bytes), (ascii "info_hash", .str (sameId 6#8).bytes),
    (ascii "port", .int 51413), (ascii "token", .str (tokenFor demoEnv.sha1 (sameId 2#8) demoSender.ip))]

/-- A query. -/
def queryPairs (method : String) (args : List (Bytes × BVal)) : List (Bytes × BVal) :=
  [(ascii "a", .dict args), (ascii "q", .str (ascii method)), (ascii "t", .str (ascii "aa")),
    (ascii "y", .str (ascii "q"))]

theorem implied_canonical : Canonical BENDY_DEFAULT_DEPTH (.dict (queryPairs "announce_peer" impliedArgs)) := by
  show Canonical (2046 + 2) _
  simp only [queryPairs, impliedArgs, Canonical, CanonicalPairs, and_true, true_and]
  exact ⟨⟨by decide +kernel, ⟨⟨by decide +kernel, by decide +kernel, by decide +kernel, by decide +kernel, by decide +kernel, by decide +kernel, by decide +kernel, by decide +kernel⟩, sorted_keys (by simp only [List.map_cons, List.map_nil]; decide +kernel)⟩,
    by decide +kernel, by decide +kernel, by decide +kernel, by decide +kernel, by decide +kernel, by decide +kernel⟩, sorted_keys (by simp only [List.map_cons, List.map_nil]; decide +kernel)⟩

theorem explicit_canonical : Canonical BENDY_DEFAULT_DEPTH (.dict (queryPairs "announce_peer" explicitArgs)) := by
  show Canonical (2046 + 2) _
  simp only [queryPairs, explicitArgs, Canonical, CanonicalPairs, and_true, true_and]
  exact ⟨⟨by decide +kernel, ⟨⟨by decide +kernel, by decide +kernel, by decide +kernel, by decide +kernel, by decide +kernel, by decide +kernel, by decide +kernel⟩, sorted_keys (by simp only [List.map_cons, List.map_nil]; decide +kernel)⟩,
    by decide +kernel, by decide +kernel, by decide +kernel, by decide +kernel, by decide +kernel, by decide +kernel⟩, sorted_keys (by simp only [List.map_cons, List.map_nil]; decide +kernel)⟩

theorem vote_canonical :
    Canonical BENDY_DEFAULT_DEPTH (.dict (queryPairs "vote" [(ascii "id", .str (sameId 5#8).bytes)])) := by
  show Canonical (2046 + 2) _
  simp only [queryPairs, Canonical, CanonicalPairs, and_true, true_and]
  exact ⟨⟨by decide +kernel, ⟨⟨by decide +kernel, by decide +kernel⟩, sorted_keys (by simp only [List.map_cons, List.map_nil]; decide +kernel)⟩,
    by decide +kernel, by decide +kernel, by decide +kernel, by decide +kernel, by decide +kernel, by decide +kernel⟩, sorted_keys (by simp only [List.map_cons, List.map_nil]; decide +kernel)⟩

/-- The step of the demonstration connection on a datagram from 10.0.0.7:6881. -/
theorem demo_step (bytes : Bytes) (effs : List Effect) (h : effectsAfter demoEnv demoCon demoSender [] bytes = some effs) :
    ∃ s' heard, Con.Step demoEnv demoCon ⟨.datagram (some demoSender) bytes, heard, effs⟩ s' := by
  simp only [effectsAfter] at h
  split at h
  · rename_i s' effs' he
    cases h
    exact ⟨s', _, .datagram he⟩
  · simp at h

/-- C152: the hypotheses are met: 10.0.0.7 announces itself from port 6881 and implies the port; 10.0.0.7:51413 becomes
known. -/
example : ∃ s' heard effs, Con.Step demoEnv demoCon
      ⟨.datagram (some demoSender) (bencode (.dict (queryPairs "announce_peer" impliedArgs)) ++ []), heard, effs⟩ s' ∧
    effs = [.toManager (.newPeer ⟨⟨demoSender.ip, 51413#16⟩⟩ (sameId 6#8)),
      .datagram demoSender (Message.announcePeerResp (sameId 1#8) (ascii "aa")).intoBytes] ∧
    ∀ p ih, Effect.toManager (.newPeer p ih) ∈ effs → ¬ AnnouncedPeer impliedArgs demoSender p := by
  obtain ⟨s', heard, hs⟩ := demo_step (bencode (.dict (queryPairs "announce_peer" impliedArgs)) ++ [])
    [.toManager (.newPeer ⟨⟨demoSender.ip, 51413#16⟩⟩ (sameId 6#8)),
      .datagram demoSender (Message.announcePeerResp (sameId 1#8) (ascii "aa")).intoBytes] (by decide +kernel)
  refine ⟨s', heard, _, hs, rfl, ?_⟩
  exact (C152_implied_violated demoEnv _ _ _ _ _ demoRun _ impliedArgs [] (ascii "aa") (sameId 5#8) (sameId 6#8) 51413#16
    demoSender heard _ implied_canonical (by decide +kernel) (by decide +kernel) rfl rfl rfl rfl rfl
    ⟨⟨rfl, rfl, rfl, rfl⟩, by decide +kernel⟩ ⟨1, by decide, rfl⟩ (by decide) hs).2

theorem not_implied : ¬ PortImplied explicitArgs := by
  rintro ⟨n, _, h⟩
  rw [show field explicitArgs "implied_port" = none from rfl] at h
  simp at h

/-- C152: and if it does not imply the port, 10.0.0.7:51413 is the peer it is about. -/
example : ∃ s' heard effs p, Con.Step demoEnv demoCon
      ⟨.datagram (some demoSender) (bencode (.dict (queryPairs "announce_peer" explicitArgs)) ++ []), heard, effs⟩ s' ∧
    Effect.toManager (.newPeer p (sameId 6#8)) ∈ effs ∧ AnnouncedPeer explicitArgs demoSender p := by
  obtain ⟨s', heard, hs⟩ := demo_step (bencode (.dict (queryPairs "announce_peer" explicitArgs)) ++ [])
    [.toManager (.newPeer ⟨⟨demoSender.ip, 51413#16⟩⟩ (sameId 6#8)),
      .datagram demoSender (Message.announcePeerResp (sameId 1#8) (ascii "aa")).intoBytes] (by decide +kernel)
  obtain ⟨p, answer, he, hp, _⟩ := C152_explicit_partial demoEnv _ _ _ _ _ demoRun _ explicitArgs [] (ascii "aa")
    (sameId 5#8) (sameId 6#8) 51413#16 demoSender heard _ explicit_canonical (by decide +kernel) (by decide +kernel) rfl rfl
    rfl rfl rfl ⟨⟨rfl, rfl, rfl, rfl⟩, by decide +kernel⟩ not_implied hs
  exact ⟨s', heard, _, p, hs, by rw [he]; exact List.mem_cons_self, hp⟩

/-- C153: the hypotheses are met: a query with the method `vote` is answered as a `ping`. -/
example : ∃ s' heard effs answer, Con.Step demoEnv demoCon ⟨.datagram (some demoSender)
      (bencode (.dict (queryPairs "vote" [(ascii "id", .str (sameId 5#8).bytes)])) ++ []), heard, effs⟩ s' ∧
    effs = [.datagram demoSender answer] ∧ IsAnswerDatagram (sameId 1#8) (ascii "aa") [] .ping answer := by
  obtain ⟨s', heard, hs⟩ := demo_step
    (bencode (.dict (queryPairs "vote" [(ascii "id", .str (sameId 5#8).bytes)])) ++ [])
    [.datagram demoSender (Message.pingResp (sameId 1#8) (ascii "aa")).intoBytes] (by decide +kernel)
  have hz : Sized (queryPairs "vote" [(ascii "id", .str (sameId 5#8).bytes)]) := by
    refine ⟨fun args h => ?_, fun rp h => ?_⟩
    · have : args = [(ascii "id", .str (sameId 5#8).bytes)] := by cases h; rfl
      subst this
      refine ⟨fun x h => ?_, fun x h => ?_, fun x h => ?_⟩
      · cases h; exact (sameId 5#8).len_eq
      · exact absurd h (by rw [show field [(ascii "id", BVal.str (sameId 5#8).bytes)] "info_hash" = none from rfl]; simp)
      · exact absurd h (by rw [show field [(ascii "id", BVal.str (sameId 5#8).bytes)] "target" = none from rfl]; simp)
    · exact absurd h (by
        rw [show field (queryPairs "vote" [(ascii "id", .str (sameId 5#8).bytes)]) "r" = none from rfl]; simp)
  obtain ⟨answer, he, ha⟩ := C153_unknown_violated demoEnv _ _ _ _ _ demoRun
    (queryPairs "vote" [(ascii "id", .str (sameId 5#8).bytes)]) [(ascii "id", .str (sameId 5#8).bytes)] [] (ascii "aa")
    (ascii "vote") (sameId 5#8) demoSender heard _ vote_canonical (by decide +kernel) hz (by decide +kernel)
    ⟨rfl, rfl, rfl, by decide +kernel⟩ rfl rfl ⟨rfl, by decide +kernel⟩ hs
  exact ⟨s', heard, _, answer, hs, he, ha⟩

/-- C153: the hypotheses of the partial theorem are met by a datagram that is no message, and by an announcement with a
guessed token. -/
example : effectsAfter demoEnv demoCon demoSender [] (ascii "i1e") = some [] ∧
    effectsAfter demoEnv demoCon demoSender []
      (Message.announcePeerQuery (sameId 5#8) (sameId 6#8) 51413#16 (ascii "guess") (ascii "aa")).intoBytes = some [] := by
  decide +kernel

end Nargun.Dht

namespace Nargun.Program

open Nargun Dht Krpc Spec

/-- Queries and answers are no errors. -/
theorem no_error {own : ID} {t t' token b : Bytes} (h : (∃ v, IsQueryDatagram own t v b) ∨ ∃ v, IsAnswerDatagram own t token v b) :
    ¬ IsErrorDatagram t' b := by
  rintro ⟨pairs', code, text, hb, hk', -⟩
  obtain ⟨x, y, z, rfl⟩ := dict3 hk'
  have e4 : b.take 4 = ascii "d1:e" := by
    rw [hb]
    simp only [bencode, bencodePairs]
    have : bencodeStr (ascii "e") = ascii "1:e" := by decide +kernel
    rw [this]
    rfl
  rcases h with ⟨v, pairs, args, hb2, hk, -⟩ | ⟨v, pairs, r, hb2, hk, -⟩
  · obtain ⟨va, vq, vt, vy, rfl⟩ := dict4 hk
    have : b.take 4 = ascii "d1:a" := by
      rw [hb2]
      simp only [bencode, bencodePairs]
      have : bencodeStr (ascii "a") = ascii "1:a" := by decide +kernel
      rw [this]
      rfl
    rw [this] at e4
    exact absurd e4 (by decide +kernel)
  · obtain ⟨va, vq, vt, rfl⟩ := dict3 hk
    have : b.take 4 = ascii "d1:r" := by
      rw [hb2]
      simp only [bencode, bencodePairs]
      have : bencodeStr (ascii "r") = ascii "1:r" := by decide +kernel
      rw [this]
      rfl
    rw [this] at e4
    exact absurd e4 (by decide +kernel)

/-- C153 is violated: whatever arrives, the program never sends an error. -/
theorem C153_never_violated (w : World) (u : Setup) (s0 s : State) (es : List Event) (h0 : Started w u s0)
    (ht : Reachable u.table) (h : Run w s0 es s) (a : SockAddr) (b : Bytes) (hm : (a, b) ∈ sent (dhtEvents es)) (t : Bytes) :
    ¬ IsErrorDatagram t b := by
  obtain ⟨l, hr, hl⟩ := started_dht h0 h
  have hs' : (a, b) ∈ sent l := by
    rw [← hl] at hm
    obtain ⟨x, hx, he⟩ := List.mem_filterMap.mp hm
    exact List.mem_filterMap.mpr ⟨x, (List.mem_filter.mp hx).1, he⟩
  obtain ⟨L, l1, l2, _⟩ := Nargun.C102_answers ht .nil hr
  rw [← l1] at hs'
  obtain ⟨⟨d, q⟩, hd, he⟩ := List.mem_map.mp hs'
  have h2 := l2 d q hd
  have he' : d = (a, b) := he
  subst he'
  cases q with
  | none =>
    obtain ⟨t', v, hq⟩ := h2
    exact no_error (token := []) (.inl ⟨v, hq⟩)
  | some x =>
    obtain ⟨_, token, v, _, hq⟩ := h2
    exact no_error (.inr ⟨v, hq⟩)

end Nargun.Program
