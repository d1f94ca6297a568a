import Verif.Props.ProgramPeers
import Verif.Lemmas.BencodeInj
import Verif.Lemmas.ProgramActs

/-! # What other nodes are told: C123 -/

namespace Nargun.Program

open Nargun Dht Krpc Spec

variable {w : World} {u : Setup} {s s' s0 s1 : State} {es es' : List Event} {e : Event}

/-! ## Datagrams determine what they ask -/

theorem query_inj {own own' : ID} {t t' : Bytes} {v v' : ToConQuery} {b : Bytes} (h : IsQueryDatagram own t v b)
    (h' : IsQueryDatagram own' t' v' b) : t = t' ∧ v = v' := by
  obtain ⟨p, a, e1, _, _, _, _, e2, _, e3, _, e4⟩ := h
  obtain ⟨p', a', f1, _, _, _, _, f2, _, f3, _, f4⟩ := h'
  have hp : p = p' := by
    have := bencode_inj (e1.symm.trans f1)
    cases this; rfl
  subst hp
  have ha : a = a' := by
    have := e3.symm.trans f3
    cases this; rfl
  subst ha
  have ht : t = t' := by
    have := e2.symm.trans f2
    cases this; rfl
  refine ⟨ht, ?_⟩
  cases v with
  | ping =>
    cases v' with
    | ping => rfl
    | findNode => exact absurd (e4.symm.trans f4.1) (by simp [ascii]; try decide)
    | getPeers => exact absurd (e4.symm.trans f4.1) (by simp [ascii]; try decide)
    | announcePeer => exact absurd (e4.symm.trans f4.1) (by simp [ascii]; try decide)
  | findNode x =>
    cases v' with
    | ping => exact absurd (f4.symm.trans e4.1) (by simp [ascii]; try decide)
    | findNode x' =>
      have := e4.2.symm.trans f4.2
      simp only [Option.some.injEq, BVal.str.injEq] at this
      cases x; cases x'; cases this; rfl
    | getPeers => exact absurd (e4.1.symm.trans f4.1) (by simp [ascii]; try decide)
    | announcePeer => exact absurd (e4.1.symm.trans f4.1) (by simp [ascii]; try decide)
  | getPeers x =>
    cases v' with
    | ping => exact absurd (f4.symm.trans e4.1) (by simp [ascii]; try decide)
    | findNode => exact absurd (e4.1.symm.trans f4.1) (by simp [ascii]; try decide)
    | getPeers x' =>
      have := e4.2.symm.trans f4.2
      simp only [Option.some.injEq, BVal.str.injEq] at this
      cases x; cases x'; cases this; rfl
    | announcePeer => exact absurd (e4.1.symm.trans f4.1) (by simp [ascii]; try decide)
  | announcePeer x port token =>
    cases v' with
    | ping => exact absurd (f4.symm.trans e4.1) (by simp [ascii]; try decide)
    | findNode => exact absurd (e4.1.symm.trans f4.1) (by simp [ascii]; try decide)
    | getPeers => exact absurd (e4.1.symm.trans f4.1) (by simp [ascii]; try decide)
    | announcePeer x' port' token' =>
      obtain ⟨_, g1, g2, g3⟩ := e4
      obtain ⟨_, k1, k2, k3⟩ := f4
      have a1 := g1.symm.trans k1
      have a2 := g2.symm.trans k2
      have a3 := g3.symm.trans k3
      simp only [Option.some.injEq, BVal.str.injEq, BVal.int.injEq] at a1 a2 a3
      have a2 : port = port' := by
        apply BitVec.eq_of_toNat_eq
        omega
      cases x; cases x'; cases a1; subst a2; subst a3; rfl

theorem query_not_answer {own own' : ID} {t t' k : Bytes} {v : ToConQuery} {r : ToConResp} {b : Bytes}
    (h : IsQueryDatagram own t v b) (h' : IsAnswerDatagram own' t' k r b) : False := by
  obtain ⟨p, a, e1, _, _, _, _, _, e2, _⟩ := h
  obtain ⟨p', a', f1, _, _, _, _, _, f2, _⟩ := h'
  have hp : p = p' := by
    have := bencode_inj (e1.symm.trans f1)
    cases this; rfl
  subst hp
  exact absurd (e2.symm.trans f2) (by simp [ascii]; try decide)

/-- A query that left was put into the queue of the connection by some task. -/
theorem sent_query {env : Env} {pause : Nat → Nat} {ih secret : ID} {table : RoutingTable} {peers : Peers} {now : Nat}
    {h : List DhtSystem.Entry} {d : DhtSystem.State}
    (hr : DhtSystem.Run env pause (DhtSystem.State.start ih secret table peers now) h d) {target : SockAddr} {bytes : Bytes}
    (hs : (target, bytes) ∈ sent h) {own : ID} {t : Bytes} {v : ToConQuery} (hq : IsQueryDatagram own t v bytes) :
    ∃ c, ToCon.query c target v ∈ puts h := by
  have hf := DhtSystem.Flow.run hr
  have hm : (target, bytes) ∈ datagrams (allEffects (conHistory h)) := by
    rw [hf.sent]; exact List.mem_append_left _ hs
  obtain ⟨eff, he, hk⟩ := List.mem_filterMap.mp hm
  obtain ⟨ce, hce, heff⟩ := List.mem_flatMap.mp he
  have heff : Effect.datagram target bytes ∈ ce.effects := by
    cases eff with
    | datagram => cases hk; exact heff
    | toManager => cases hk
    | toRequester => cases hk
  obtain ⟨ch1, c1, c2, hcr, hcs⟩ := con_mem hf.con hce
  obtain ⟨L, l1, l2, l3⟩ := tags_step hcs
  have hd : (target, bytes) ∈ datagrams ce.effects := List.mem_filterMap.mpr ⟨_, heff, rfl⟩
  rw [← l1] at hd
  obtain ⟨⟨d', tag⟩, hx, hd⟩ := List.mem_map.mp hd
  simp only at hd
  subst hd
  cases tag with
  | some q =>
    obtain ⟨_, token, r, _, ha⟩ := l3 _ hx
    exact absurd ha fun ha => query_not_answer hq ha
  | none =>
    have htag : (none : Option Question) ∈ tagsOf ce := by rw [← l2]; exact List.mem_map.mpr ⟨_, hx, rfl⟩
    unfold tagsOf at htag
    split at htag
    · next tid cmd hev =>
      cases cmd with
      | resp qid r => simp [cmdQuestion] at htag
      | query c target' v' =>
        obtain ⟨_, b, hb1, hb2⟩ := C94_queries env _ secret _ _ _ hcr tid c target' v' ce hcs hev
        rw [hb1] at heff
        simp only [List.mem_singleton, Effect.datagram.injEq] at heff
        obtain ⟨rfl, rfl⟩ := heff
        obtain ⟨_, rfl⟩ := query_inj hq hb2
        refine ⟨c, ?_⟩
        rw [hf.commands]
        refine List.mem_append_left _ (List.mem_filterMap.mpr ⟨ce, hce, ?_⟩)
        rw [hev]
    · simp at htag
    · simp at htag

/-! ## C123 -/

theorem own_look (h : Run w s0 es s) {x : Fetch.Entry} (hx : .look x ∈ es) : LookTurn x.event ∨ LookIdle x.event := by
  induction h with
  | nil => simp at hx
  | @snoc s1 s2 es e hr hs ih =>
    rcases List.mem_append.mp hx with hx | hx
    · exact ih hx
    · rw [List.mem_singleton] at hx
      subst hx
      cases hs.2 with
      | look _ _ _ ho _ => exact .inl ho
      | lookIdle _ ho _ => exact .inr ho

/-- The queries of the table task are no announcements. -/
theorem puts_announce (ht : Reachable u.table) (h : Run w s0 es s) {l : List DhtSystem.Entry}
    (hr : DhtSystem.Run w.env w.refreshPause
        (DhtSystem.State.start u.infoHash u.secret u.table (.new u.infoHash) u.now) l s.nodes)
    (hl : l.filter (fun x => !isOthers x) = dhtEvents es) {c : Nat} {a : SockAddr} {ih : ID} {port : U16} {token : Bytes}
    (hp : ToCon.query c a (.announcePeer ih port token) ∈ puts l) : .asks a (.announcePeer ih port token) ∈ es := by
  obtain ⟨x, hx, hput⟩ := List.mem_filterMap.mp hp
  obtain ⟨⟨who, cmd⟩, h1, h2⟩ := Option.map_eq_some_iff.mp hput
  cases h2
  have hf := DhtSystem.Flow.run hr
  cases who with
  | manager =>
    exfalso
    have hm : ToCon.query c a (.announcePeer ih port token) ∈ putsOfManager l :=
      List.mem_filterMap.mpr ⟨x, hx, by rw [h1]⟩
    have : ToCon.query c a (.announcePeer ih port token) ∈
        sends (DhtManager.startOutputs u.table ++ allOutputs (manHistory l)) := by
      rw [hf.outputs]; exact List.mem_append_left _ hm
    obtain ⟨o, ho, hoe⟩ := List.mem_filterMap.mp this
    have ho' : o = .send (.query c a (.announcePeer ih port token)) := by
      cases o <;> first | (cases hoe; rfl) | cases hoe
    subst ho'
    rcases List.mem_append.mp ho with ho | ho
    · simp only [DhtManager.startOutputs, List.mem_map] at ho
      obtain ⟨n, _, ho⟩ := ho
      cases ho
    · obtain ⟨me, hme, ho⟩ := List.mem_flatMap.mp ho
      rcases (C98_channel ht .nil hf.man me hme _ _ _ ho).2 with h3 | ⟨_, h3⟩ <;> cases h3
  | other =>
    have hno : isOthers x = false := by
      cases ho : isOthers x with
      | false => rfl
      | true =>
        obtain ⟨o, rfl⟩ := others_entry hr hx ho
        cases h1
    have hx' : x ∈ dhtEvents es := by
      rw [← hl]; exact List.mem_filter.mpr ⟨hx, by rw [hno]; rfl⟩
    obtain ⟨ev, hev, he⟩ := List.mem_filterMap.mp hx'
    cases ev with
    | dht y => cases he; exact absurd h1 ((own_dht h hev).put _)
    | asks a' v' => cases he; cases h1; exact hev
    | _ => first | (cases he; done) | (cases he; cases h1)

/-- An announcement the lookup task hands over has the token of an answer it heard from that address. -/
theorem asks_token (h0 : Started w u s0) (h : Run w s0 es s) {a : SockAddr} {ih : ID} {port : U16} {token : Bytes}
    (hx : .asks a (.announcePeer ih port token) ∈ es) : ∃ vn snt, .hears (.getPeers a token vn) snt ∈ es := by
  have hm : (a, ToConQuery.announcePeer ih port token) ∈ lookupAsked es := List.mem_filterMap.mpr ⟨_, hx, rfl⟩
  rcases run_lookup h0.lookup h with ⟨_, _, h3⟩ | ⟨l, ns, hist, _, hi⟩
  · rw [h3] at hm; simp at hm
  · obtain ⟨es1, now, es2, s1, _, j2, j3⟩ := hi.origin
    obtain ⟨fe, hfe, hin⟩ := List.mem_flatMap.mp (hi.asked.subset hm)
    have key : ∃ fe' ∈ hist, ∃ b, answerFrom a fe' = some (token, b) := by
      clear hi hm
      generalize s.looking l = f at j3
      induction j3 with
      | nil => simp at hfe
      | @snoc f1 f2 hh e' hr hs ih' =>
        rcases List.mem_append.mp hfe with hfe | hfe
        · obtain ⟨fe', g1, g2⟩ := ih' hfe
          exact ⟨fe', by simp [g1], g2⟩
        · rw [List.mem_singleton] at hfe
          subst hfe
          have hann : (a, token) ∈ announcements fe.sent :=
            List.mem_filterMap.mpr ⟨(a, .announcePeer ih port token), hin, rfl⟩
          obtain ⟨b, hb⟩ := (Fetch.C79_announce _ _ _ _ _ _ _ _ _ _ hr hs).2.2.2.2.1 _ hann
          obtain ⟨fe', g1, g2⟩ := List.exists_of_findSome?_eq_some hb
          exact ⟨fe', List.mem_reverse.mp g1, b, g2⟩
    obtain ⟨fe', g1, b, g2⟩ := key
    obtain ⟨vn, hev⟩ : ∃ vn, fe'.event = .answer (.getPeers a token vn) := by
      unfold answerFrom at g2
      split at g2
      · next hev =>
        split at g2
        · next hb => subst hb; cases g2; exact ⟨_, hev⟩
        · cases g2
      · next hev =>
        split at g2
        · next hb => subst hb; cases g2; exact ⟨_, hev⟩
        · cases g2
      · cases g2
    have g3 : fe' ∈ lookupEvents es := by
      rw [← hi.events]
      exact List.mem_filter.mpr ⟨g1, by simp [isForeign, hev]⟩
    obtain ⟨ev, k1, k2⟩ := List.mem_filterMap.mp g3
    cases ev with
    | look x =>
      cases k2
      rcases own_look h k1 with k | k <;> rw [hev] at k <;> exact absurd k id
    | hears r snt => cases k2; cases hev; exact ⟨vn, snt, k1⟩
    | _ => cases k2

theorem announces {es : List Event} (h0 : Started w u s0) (ht : Reachable u.table) (h : Run w s0 es s) {target : SockAddr}
    {bytes t : Bytes} {ih : ID} {port : U16} {token : Bytes} (hs : (target, bytes) ∈ sent (dhtEvents es))
    (hq : IsQueryDatagram u.table.ownId t (.announcePeer ih port token) bytes) :
    ih = u.infoHash ∧ port = w.port ∧ GaveToken u.table.ownId u.infoHash (dhtEvents es) target token := by
  obtain ⟨l, hr, hl⟩ := started_dht h0 h
  have hs' : (target, bytes) ∈ sent l := by
    rw [← hl] at hs
    obtain ⟨x, hx, he⟩ := List.mem_filterMap.mp hs
    exact List.mem_filterMap.mpr ⟨x, (List.mem_filter.mp hx).1, he⟩
  obtain ⟨c, hp⟩ := sent_query hr hs' hq
  have ha := puts_announce ht h hr hl hp
  obtain ⟨vn, snt, hh⟩ := asks_token h0 h ha
  obtain ⟨d1, x, d2, a', t', y, resp, e1, e2, e3, tg, v, b, e4, e5, e6, e7⟩ := hears_own h0.began ht h hh
  refine ⟨?_, ?_, ?_⟩
  · rcases asks_own h0.began ht h ha with h1 | ⟨_, h1⟩ <;> cases h1; rfl
  · rcases asks_own h0.began ht h ha with h1 | ⟨_, h1⟩ <;> cases h1; rfl
  · cases resp with
    | getPeers id tok vn' =>
      cases e3
      rcases e7 with rfl | ⟨tok, rfl⟩
      · exact ⟨d1, x, d2, t', y, id, _, e1, e2, tg, b, e4, e5⟩
      · cases e6
    | _ => cases e3

/-- The part of a history up to an event of the DHT. -/
theorem dht_prefix (h : Run w s0 es s) : ∀ {d1 d2 : List DhtSystem.Entry} {x : DhtSystem.Entry},
    dhtEvents es = d1 ++ x :: d2 → ∃ es1 s1, Run w s0 es1 s1 ∧ dhtEvents es1 = d1 ++ [x] := by
  induction h with
  | nil => intro d1 d2 x hd; simp [dhtEvents] at hd
  | @snoc s1 s2 es e hr hs ih =>
    intro d1 d2 x hd
    rw [dhtEvents_snoc] at hd
    rcases List.eq_nil_or_concat d2 with rfl | ⟨d2', y, rfl⟩
    · exact ⟨es ++ [e], s2, hr.snoc hs, by rw [dhtEvents_snoc]; exact hd⟩
    · have hlen : (dhtEvents [e]).length ≤ 1 := by
        simp only [dhtEvents, List.filterMap_cons, List.filterMap_nil]; split <;> simp
      cases he : dhtEvents [e] with
      | nil => rw [he, List.append_nil] at hd; exact ih hd
      | cons z zs =>
        have : zs = [] := by rw [he] at hlen; simpa using hlen
        subst this
        rw [he] at hd
        have hd' : dhtEvents es ++ [z] = (d1 ++ x :: d2') ++ [y] := by rw [hd]; simp
        exact ih (List.append_inj' hd' rfl).1

/-- C123: this client is announced only to nodes that gave a token for it: every `announce_peer` that leaves is for the
torrent and the port of this program, and carries a token that the very address it goes to gave before, in an answer to a
query of this program for the peers of this torrent. -/
theorem C123_announces (w : World) (u : Setup) (s0 s : State) (es : List Event) (h0 : Started w u s0)
    (ht : Reachable u.table) (h : Run w s0 es s) (before after : List DhtSystem.Entry) (x : DhtSystem.Entry)
    (hx : dhtEvents es = before ++ x :: after) (target : SockAddr) (bytes t : Bytes) (hs : x.sent = some (target, bytes))
    (ih : ID) (port : U16) (token : Bytes)
    (hq : IsQueryDatagram u.table.ownId t (.announcePeer ih port token) bytes) :
    ih = u.infoHash ∧ port = w.port ∧ GaveToken u.table.ownId u.infoHash before target token := by
  obtain ⟨es1, s1, hr, hd⟩ := dht_prefix h hx
  obtain ⟨g1, g2, h1, e, h2, t', y, id, vn, g3, g4, g5⟩ := announces h0 ht hr (target := target) (bytes := bytes)
    (by rw [hd, sent, List.filterMap_append]; simp [hs]) hq
  refine ⟨g1, g2, ?_⟩
  rw [hd] at g3
  rcases List.eq_nil_or_concat h2 with rfl | ⟨h2', y', rfl⟩
  · obtain ⟨rfl, he⟩ := List.append_inj' g3 rfl
    cases he
    exfalso
    obtain ⟨ev, hev, hex⟩ : ∃ ev ∈ es1, (match ev with | .dht y => some y | _ => none) = some x := by
      have : x ∈ dhtEvents es1 := by rw [hd]; simp
      obtain ⟨ev, k1, k2⟩ := List.mem_filterMap.mp this
      refine ⟨ev, k1, ?_⟩
      cases ev with
      | dht y => exact k2
      | _ => first | (cases k2; done) | (cases k2; cases hs)
    cases ev with
    | dht y =>
      cases hex
      clear hd g5 hx
      induction hr with
      | nil => simp at hev
      | @snoc a b l e hr hst ih' =>
        rcases List.mem_append.mp hev with hev | hev
        · exact ih' hev
        · rw [List.mem_singleton] at hev
          subst hev
          cases hst.2 with
          | dht _ hds => cases hds <;> first | (cases hs; done) | simp [heardBy] at g4
    | _ => cases hex
  · have hd' : before ++ [x] = (h1 ++ e :: h2') ++ [y'] := by rw [g3]; simp
    exact ⟨h1, e, h2', t', y, id, vn, (List.append_inj' hd' rfl).1, g4, g5⟩

/-- A transaction id. -/
def tidOf (k : Byte) : Bytes := [k, k, k, k, k]

/-- The one node of the table answers the ping, is asked for peers, and says that it knows one and which token is to be
used. -/
def asksNode : List Act := [.putCommand, .command (tidOf 1#8), .sends,
  .datagram (some (exAddr 1)) (Krpc.Message.response (tidOf 1#8) typeR (.ping (exId 7#8))).intoBytes, .putAnswer, .takeAnswer,
  .spawns 0, .tick, .asks, .command (tidOf 2#8), .sends,
  .datagram (some (exAddr 1))
    (Krpc.Message.getPeersResp (exId 7#8) (ascii "tok") (.values [peerA]) (tidOf 2#8)).intoBytes, .putAnswer, .hears]

/-- Nobody else answers; the client is announced. -/
def announcesItself : List Act := asksNode ++ [.lookPass 3000, .timeout, .asks, .command (tidOf 3#8), .sends]

/-- The hypotheses of `C123_announces` are met. -/
example : ∃ u s0 s es before x after bytes, Started demoWorld u s0 ∧ Reachable u.table ∧ Run demoWorld s0 es s ∧
    dhtEvents es = before ++ x :: after ∧ x.sent = some (exAddr 1, bytes) ∧
    IsQueryDatagram u.table.ownId (tidOf 3#8) (.announcePeer Swarm.hash1 6887#16 (ascii "tok")) bytes := by
  have : play demoWorld { demoSetup with table := oneNode } announcesItself (fun es _ => sent (dhtEvents es)) =
      some [(exAddr 1, (ToConQuery.ping.intoMessage (exId 0#8) (tidOf 1#8)).intoBytes),
        (exAddr 1, ((ToConQuery.getPeers Swarm.hash1).intoMessage (exId 0#8) (tidOf 2#8)).intoBytes),
        (exAddr 1, ((ToConQuery.announcePeer Swarm.hash1 6887#16 (ascii "tok")).intoMessage (exId 0#8)
          (tidOf 3#8)).intoBytes)] := by decide +kernel
  obtain ⟨s0, es, s, h0, h, hf⟩ := play_sound this
  have hm : (exAddr 1, ((ToConQuery.announcePeer Swarm.hash1 6887#16 (ascii "tok")).intoMessage (exId 0#8)
      (tidOf 3#8)).intoBytes) ∈ sent (dhtEvents es) := by rw [hf]; simp
  obtain ⟨x, hx, hs⟩ := List.mem_filterMap.mp hm
  obtain ⟨before, after, hsplit⟩ := List.append_of_mem hx
  refine ⟨_, s0, s, es, before, x, after, _, h0, ?_, h, hsplit, hs, query_datagram _ _ _⟩
  exact .sighting _ _ _ _ _ (.fresh _) (by decide +kernel : (RoutingTable.default (exId 0#8)).touchNode 5 (exId 7#8)
    (exAddr 1) = .ok oneNode)

end Nargun.Program
