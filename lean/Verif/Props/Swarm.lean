import Verif.Lemmas.SwarmDemo
import Verif.Props.Receiver
import Verif.Props.TorrentManager

/-! # C108–C113: the torrent side as a whole -/

namespace Nargun

open Spec

namespace Swarm

/-! ## Examples used below -/

/-- The hash of the first of `twoPieces`. -/
def hash1 : ID := ⟨List.replicate 20 1#8, by decide⟩
/-- The hash of the second of `twoPieces`. -/
def hash2 : ID := ⟨List.replicate 20 2#8, by decide⟩

/-- The program as written. (For the examples, every piece hashes to the hash of the first one.) -/
def written : Cfg := ⟨.debug, fun _ => hash1, fun _ => none⟩

/-- The program with an owner set in every clone of the structure of pending pieces. -/
def repaired : Cfg := ⟨.release, fun _ => hash1, some⟩

/-- Two peers join. -/
def twoJoin : List Event := [.man (.peers (.insert peerA)), .man (.peers (.insert peerB)),
  .man (.tick [peerA, peerB]), .man .nothing, .shake peerA true, .shake peerB true]

/-- A sends a bitfield and an `unchoke` cut into two reads, B meanwhile a port and a `have`; A's `unchoke` is handed over
after B's `have`. -/
def twoTalk : List Event := twoJoin ++ [
  .read peerA (wire (.bitfield [0xc0]) ++ [0, 0, 0]), .parsed peerA (.bitfield [0xc0]), .handed peerA (.bitfield [0xc0]),
  .parsedAll peerA,
  .read peerB (wire (.port 6881#16) ++ wire (.have_ 1#32)), .parsed peerB (.port 6881#16), .handed peerB (.port 6881#16),
  .read peerA [1, 1], .parsed peerA .unchoke,
  .parsed peerB (.have_ 1#32), .handed peerB (.have_ 1#32), .handed peerA .unchoke, .parsedAll peerA, .parsedAll peerB,
  .man (.msg peerA (.bitfield [0xc0])), .man (.msg peerB (.have_ 1#32)), .man (.msg peerA .unchoke),
  .dhtTakes ⟨⟨10#8, 0#8, 0#8, 2#8⟩, 6881#16⟩]

/-! ## C108 -/

/-- C108: whatever all the other peers, the manager, the DHT and the downloaders do, and however the bytes of peer `q` are
cut into reads: if they are the beginning of the wire form of a sequence of messages that fit the receive buffer, then
what is recognised is the beginning of that sequence, and whenever the connection turns to reading again it is exactly
those messages whose last byte has been read. -/
theorem C108_stream_to_messages (c : Cfg) (pieces : List ID) (pl : Nat) (s0 s : State) (es : List Event)
    (h0 : Started pieces pl s0) (h : Run c s0 es s) (q : Peer)
    (ms : List Message) (hw : ∀ m ∈ ms, (wire m).length ≤ MAX_MESSAGE_BYTES) (hb : bytesFrom q es <+: wireAll ms) :
    messagesFrom q es <+: ms ∧
    ((s.links q).con = .reading →
      ∃ k, messagesFrom q es = ms.take k ∧ DeliveredExactly ms k (bytesFrom q es).length) := by
  obtain ⟨_, _, _, hl, _⟩ := h0.parts
  have hr := run_read h hl q
  obtain ⟨rest, hrest⟩ := hb
  obtain ⟨k, s', rest', h1, h2, h3, _⟩ := C14_framing ms hw ((readsFrom q es).map List.length)
  refine ⟨?_, fun hc => ⟨k, ?_⟩⟩
  · have := hr.prefix rest _ (by rw [hrest]; exact h1)
    exact this.trans (List.take_prefix _ _)
  · simp only [ReadInv, hc] at hr
    have := hr rest
    rw [hrest, h1] at this
    simp only [Res.ok.injEq, Prod.mk.injEq] at this
    obtain ⟨_, rfl, h5⟩ := this
    refine ⟨h5.symm, ?_⟩
    rw [← hrest] at h3
    simp only [List.length_append, Nat.add_sub_cancel] at h3
    exact h3

/-- C108, for arbitrary bytes: what is recognised from a peer depends on the bytes read from that peer and nothing else.
If in two histories, of whatever torrents, the same reads were made from two peers, and both are at their next read, the same
messages have been recognised. -/
theorem C108_only_own_bytes (c c' : Cfg) (pieces pieces' : List ID) (pl pl' : Nat) (s0 s0' s s' : State)
    (es es' : List Event) (h0 : Started pieces pl s0) (h0' : Started pieces' pl' s0') (h : Run c s0 es s)
    (h' : Run c' s0' es' s') (q q' : Peer) (hr : readsFrom q es = readsFrom q' es')
    (hc : (s.links q).con = .reading) (hc' : (s'.links q').con = .reading) :
    messagesFrom q es = messagesFrom q' es' := by
  have h1 := run_read h h0.parts.2.2.2.1 q
  have h2 := run_read h' h0'.parts.2.2.2.1 q'
  simp only [ReadInv, hc] at h1
  simp only [ReadInv, hc'] at h2
  have a := h1 []
  have b := h2 []
  simp only [bytesFrom, hr] at a b
  rw [a] at b
  simp only [Res.ok.injEq, Prod.mk.injEq] at b
  exact b.2.2

/-- Two peers at once, their messages interleaved. -/
example : demo written twoPieces 3 twoTalk (fun s => (decide ((s.links peerA).con = .reading),
      decide ((s.links peerB).con = .reading))) = some (true, true) ∧
    bytesFrom peerA twoTalk = wireAll [.bitfield [0xc0], .unchoke] ∧
    messagesFrom peerA twoTalk = [.bitfield [0xc0], .unchoke] ∧
    bytesFrom peerB twoTalk = wireAll [.port 6881#16, .have_ 1#32] ∧
    messagesFrom peerB twoTalk = [.port 6881#16, .have_ 1#32] := by decide +kernel

/-! ## C109 -/

/-- C109: in every state of every history: what was recognised from a peer has been handed over, in order and once, except
the one message in hand (and except the last one, if the connection has ended); what was handed over and is not a block or
a port is what the manager took from its queue followed by what is still in it, in order and with the peer it is from
(unless the manager is dead); blocks are with the downloader of the same peer, ports with the DHT together with the IP
address of the peer. -/
theorem C109_delivery (c : Cfg) (pieces : List ID) (pl : Nat) (s0 s : State) (es : List Event)
    (h0 : Started pieces pl s0) (h : Run c s0 es s) :
    (∀ q, ofPeer q (handedOver es) ++ inHand (s.links q) <+: messagesFrom q es ∧
      ((s.links q).con ≠ .ended → ofPeer q (handedOver es) ++ inHand (s.links q) = messagesFrom q es)) ∧
    (fromWire (managerHeard es) ++ fromWire s.inbox <+: (handedOver es).filter (fun x => forManager x.2) ∧
      (s.man ≠ .dead →
        fromWire (managerHeard es) ++ fromWire s.inbox = (handedOver es).filter (fun x => forManager x.2))) ∧
    (∀ q, blocksHeard q es ++ (s.links q).blocks <+: (ofPeer q (handedOver es)).filterMap asBlock ∧
      ((s.links q).dlAlive = true →
        blocksHeard q es ++ (s.links q).blocks = (ofPeer q (handedOver es)).filterMap asBlock)) ∧
    (dhtHeard es ++ s.dht <+: (handedOver es).filterMap asNode ∧
      (s.dhtOpen = true → dhtHeard es ++ s.dht = (handedOver es).filterMap asNode)) := by
  obtain ⟨_, _, _, hl, _, hb, hd, _⟩ := h0.parts
  exact ⟨run_hand h hl, run_box h hb, run_block h hl, run_node h hd⟩

example : (∃ s, demo written twoPieces 3 twoTalk id = some s) ∧
    handedOver twoTalk = [(peerA, .bitfield [0xc0]), (peerB, .port 6881#16), (peerB, .have_ 1#32), (peerA, .unchoke)] ∧
    managerHeard twoTalk = [(peerA, .bitfield [0xc0]), (peerB, .have_ 1#32), (peerA, .unchoke)] ∧
    dhtHeard twoTalk = [⟨⟨10#8, 0#8, 0#8, 2#8⟩, 6881#16⟩] := by
  refine ⟨Option.isSome_iff_exists.mp (by decide +kernel), by decide +kernel⟩

/-! ## C110 -/

/-- C110: whenever a downloader is told to download a piece, the piece is one of the torrent and comes with the hash the
torrent has for it; and its peer itself has sent an `unchoke`, not followed by a `choke` in what the manager has heard,
and has announced that very piece, by a `have` or in a bitfield of the right size. -/
theorem C110_commands_justified (c : Cfg) (pieces : List ID) (pl : Nat) (s0 s : State) (es : List Event)
    (q : Peer) (i : Nat) (hash : ID) (h0 : Started pieces pl s0) (h : Run c s0 (es ++ [.command q i hash]) s) :
    pieces[i]? = some hash ∧
    (∃ a b rest, a ++ .unchoke :: b ++ rest = (messagesFrom q es).filter forManager ∧ .choke ∉ b ∧
      a ++ .unchoke :: b = ofPeer q (fromWire (managerHeard es))) ∧
    ((∃ j : U32, j.toNat = i ∧ .have_ j ∈ messagesFrom q es) ∨
      ∃ b, .bitfield b ∈ messagesFrom q es ∧ b.length = (pieces.length + 7) / 8 ∧ bitAt b i = true) := by
  obtain ⟨_, _, hm, hl, _, hb, _⟩ := h0.parts
  obtain ⟨i0, i1, _, i3⟩ := h0.tm_inv
  generalize hes : es ++ [Event.command q i hash] = es' at h
  cases h with
  | nil => simp at hes
  | @snoc s1 _ es1 e hr hs =>
    obtain ⟨rfl, he⟩ := List.append_inj' hes rfl
    cases he
    cases hs with
    | put h1 h2 h3 =>
      obtain ⟨t1, t2⟩ := tm_run hr hm
      have hsel := (t2 _ _ _ (.inl h1)).1
      obtain ⟨hi, hp, hv⟩ := TM.run_inv t1 i0 i1
      obtain ⟨⟨f1, f2, info, f3, f4, f5⟩, _⟩ := TM.select_feasible hi hsel
      rw [hp, i3] at f1
      have hidx : i < pieces.length := (List.getElem?_eq_some_iff.mp f1).1
      have hio := TM.get?_infoOk hi f3
      have hb' := TM.bytes_of_wf hio.2.1
      rw [hio.1] at hb'
      rw [Bitmap.get_of_lt _ _ (by show i / 8 < _; omega)] at f5
      obtain ⟨v1, v2⟩ := view_heard pieces.length q _ (TM.viewOf info) (by rw [hv, f3]; rfl)
      rw [← managerHeard_eq] at v1 v2
      have hpre := heard_prefix hr hl hb q
      refine ⟨f1, ?_, ?_⟩
      · obtain ⟨a, b, h5, h6⟩ := v1 f4
        obtain ⟨rest, hrest⟩ := hpre
        exact ⟨a, b, rest, by rw [← h5]; exact hrest, h6, h5.symm⟩
      · rcases v2 i (Res.ok.inj f5) with ⟨j, h5, h6⟩ | ⟨b, h5, h6⟩
        · exact .inl ⟨j, h5, (List.mem_filter.mp (prefix_mem hpre h6)).1⟩
        · exact .inr ⟨b, (List.mem_filter.mp (prefix_mem hpre h5)).1, h6⟩

/-- After the talk above, A is told to download the first piece. -/
example : (demo written twoPieces 3 (twoTalk ++ [.man (.tick []), .choose peerA 0 hash1, .command peerA 0 hash1])
    (fun s => (s.links peerA).commands)) = some [(hash1, 0)] := by decide +kernel

/-! ## C111 -/

/-- C111: whenever a downloader completes a piece, the piece has as many blocks as its size asks for, they hash to the hash
the torrent has for it, and each of them came in a message of some connected peer for exactly that piece and that place. -/
theorem C111_completed_pieces (c : Cfg) (pieces : List ID) (pl : Nat) (s0 s : State) (es : List Event)
    (q : Peer) (b : Piece) (i : Nat) (bs : List Bytes) (h0 : Started pieces pl s0)
    (h : Run c s0 (es ++ [.dl q (.block b (.finished i bs))]) s) :
    pieces[i]? = some (c.hash bs.flatten) ∧ bs.length = blockCount pl ∧
    ∀ k x, bs[k]? = some x → ∃ q' b', .piece b' ∈ messagesFrom q' es ∧ b'.index.toNat = i ∧
      b'.begin_.toNat = k * 16384 ∧ b'.block = x := by
  obtain ⟨_, hn, hm, hl, _, hb, _⟩ := h0.parts
  obtain ⟨n1, n2, n3⟩ := PendingPieces.new_inv hn
  have hempty : s0.pend.data = [] := by
    simp only [PendingPieces.new] at hn
    obtain ⟨_, _, hn⟩ := Res.bind_eq_ok.mp hn
    rw [← Res.ok.inj hn]
  generalize hes : es ++ [Event.dl q (.block b (.finished i bs))] = es' at h
  cases h with
  | nil => simp at hes
  | @snoc s1 _ es1 e hr hs =>
    obtain ⟨rfl, he⟩ := List.append_inj' hes rfl
    cases he
    cases hs with
    | @dlBlock _ _ _ rest d' pend' h1 h2 h3 h4 h5 h6 =>
      have hpi := run_pend_inv hr n1
      cases h6 with
      | block _ hf =>
        rcases Dl.foo_cases hf with ⟨e1, _⟩ | ⟨hash, l, a, r, res, hmod, hg, _, _, hadd, hres⟩
        · simp at e1
        · rcases hres with ⟨_, e1, _⟩ | ⟨_, _, _, _, e1, _⟩ | ⟨idx', blocks', rfl, hh, e1, _⟩
          · simp at e1
          · simp at e1
          · simp only [Dl.BlockOut.finished.injEq] at e1
            obtain ⟨rfl, rfl⟩ := e1
            rcases PendingPieces.addBlock_cases hpi hadd with ⟨_, _, e2⟩ | ⟨_, _, _, _, _, _, e2, _⟩ |
              ⟨hacc, piece, pend, bl, hgp, _, _, e2, e3, _⟩
            · simp at e2
            · simp at e2
            · simp only [AddBlockRes.addedLast.injEq] at e2
              obtain ⟨rfl, rfl⟩ := e2
              have hbp := hpi.count
              rw [run_pieceLength hr n1, n2] at hbp
              have hdl := hpi.len _ _ hgp
              have hlen : bs.length = piece.data.length := by
                have := congrArg List.length e3
                simpa only [List.length_set, List.length_map] using this.symm
              refine ⟨by rw [hh]; exact (run_hash h0 hr q).2 _ _ hg, by rw [hlen, hdl, hbp], fun k x hx => ?_⟩
              have e4 := congrArg (fun z : List Block => z[k]?) e3
              simp only [List.getElem?_map, hx, Option.map_some, List.getElem?_set] at e4
              split at e4
              · next hk =>
                subst hk
                split at e4
                · simp only [Option.some.injEq, Block.downloaded.injEq] at e4
                  exact ⟨q, b, queued_block hr hl (by rw [h4]; exact List.mem_cons_self ..), rfl, by omega, e4⟩
                · cases e4
              · exact run_prov hr hl n1 hempty _ _ _ (by simp only [blockAt, hgp, Option.bind_some]; exact e4)

theorem step_report {c : Cfg} {s s' : State} {es : List Event} {e : Event} (h : ReportInv es s) (hs : Step c s e s') :
    ReportInv (es ++ [e]) s' := by
  have hm : ∀ x, x ∈ completedPieces es → x ∈ completedPieces (es ++ [e]) := fun x hx => by
    rw [completedPieces_append]; exact List.mem_append_left _ hx
  have h1 : ∀ q i bs, (q, .finishedPiece i bs) ∈ s.inbox → (i, bs) ∈ completedPieces (es ++ [e]) :=
    fun q i bs hq => hm _ (h.1 q i bs hq)
  have h2 : ∀ q i bs, (s.links q).report = some (i, bs) → (i, bs) ∈ completedPieces (es ++ [e]) :=
    fun q i bs hq => hm _ (h.2 q i bs hq)
  have key : ∀ (k : Peer) (l : Link), l.report = none ∨ l.report = (s.links k).report →
      ∀ q i bs, ((s.setLink k l).links q).report = some (i, bs) → (i, bs) ∈ completedPieces (es ++ [e]) := by
    intro k l hl q i bs hq
    simp only [setLink_links] at hq
    split at hq
    · rcases hl with hl | hl
      · rw [hl] at hq; cases hq
      · rw [hl] at hq; exact h2 _ _ _ hq
    · exact h2 _ _ _ hq
  cases hs with
  | @dlBlock k b out rest d' pend' e1 e2 e3 e4 e5 e6 =>
    refine ⟨h1, fun q i bs hq => ?_⟩
    simp only [setLink_links] at hq
    split at hq
    · simp only at hq
      rw [completedPieces_append]
      cases out <;> simp only [reportOf, reduceCtorEq, Option.some.injEq, Prod.mk.injEq] at hq
      obtain ⟨rfl, rfl⟩ := hq
      exact List.mem_append_right _ (by simp [completedPieces])
    · exact h2 _ _ _ hq
  | @reported k i bs e1 e2 e3 e4 e5 =>
    refine ⟨fun q i' bs' hq => ?_, key _ _ (.inl rfl)⟩
    rcases List.mem_append.mp hq with hq | hq
    · exact h1 _ _ _ hq
    · simp only [List.mem_singleton, Prod.mk.injEq, ConMessageType.finishedPiece.injEq] at hq
      obtain ⟨_, rfl, rfl⟩ := hq
      exact h2 _ _ _ e3
  | @msg k m rest tm' e1 e2 e3 => exact ⟨fun q i bs hq => h1 q i bs (by rw [e2]; exact List.mem_cons_of_mem _ hq), h2⟩
  | @unreachable k e1 e2 e3 e4 =>
    refine ⟨fun q i' bs' hq => ?_, key _ _ (.inr rfl)⟩
    rcases List.mem_append.mp hq with hq | hq
    · exact h1 _ _ _ hq
    · simp at hq
  | @handOther k m t e1 e2 e3 e4 e5 =>
    refine ⟨fun q i' bs' hq => ?_, key _ _ (.inr rfl)⟩
    rcases List.mem_append.mp hq with hq | hq
    · exact h1 _ _ _ hq
    · simp only [List.mem_singleton, Prod.mk.injEq] at hq
      obtain ⟨_, rfl⟩ := hq
      have := (toPeers_wire e3).1
      simp [wireMessage] at this
  | addPoisoned | addPanics | msgPanics | tickPanics | choosePanics => exact ⟨by simp, h2⟩
  | _ =>
    refine ⟨h1, ?_⟩
    first
      | exact h2
      | exact key _ _ (.inr rfl)
      | exact key _ _ (.inl rfl)

/-- C111, at the manager: every piece the manager is told to be finished was completed in this sense. -/
theorem C111_reports (c : Cfg) (pieces : List ID) (pl : Nat) (s0 s : State) (es : List Event)
    (h0 : Started pieces pl s0) (h : Run c s0 es s) (q : Peer) (i : Nat) (bs : List Bytes)
    (hq : (q, .finishedPiece i bs) ∈ s.inbox) : (i, bs) ∈ completedPieces es := by
  obtain ⟨_, _, _, hl, _, hb, _⟩ := h0.parts
  suffices hr : ReportInv es s from hr.1 q i bs hq
  clear hq
  induction h with
  | nil => exact ⟨by simp [hb], by simp [hl, Link.fresh]⟩
  | snoc hr hs ih => exact step_report ih hs

/-- With an owner set, A is asked for the only block of the first piece and sends it: the piece is complete, and the manager
is told. -/
def oneBlock : List Event := twoTalk ++ [.man (.tick []), .choose peerA 0 hash1, .command peerA 0 hash1,
  .man (.start peerA 0 hash1 true), .dl peerA (.start hash1 0), .dl peerA (.take [.new 0 0]),
  .dl peerA (.request (.new 0 0) ⟨0#32, 0#32, 16384#32⟩), .dl peerA .loop, .wrote peerA (.request ⟨0#32, 0#32, 16384#32⟩),
  .read peerA (wire (.piece ⟨0#32, 0#32, [7, 8, 9]⟩)), .parsed peerA (.piece ⟨0#32, 0#32, [7, 8, 9]⟩),
  .handed peerA (.piece ⟨0#32, 0#32, [7, 8, 9]⟩), .dl peerA (.block ⟨0#32, 0#32, [7, 8, 9]⟩ (.finished 0 [[7, 8, 9]])),
  .reported peerA 0 [[7, 8, 9]]]

example : demo repaired twoPieces 3 oneBlock (fun s => s.inbox) = some [(peerA, .finishedPiece 0 [[7, 8, 9]])] ∧
    completedPieces oneBlock = [(0, [[7, 8, 9]])] := by decide +kernel

/-! ## C112 -/

/-- Nothing has been asked of a peer, nothing is to be sent, nothing is to be reported. -/
def Idle (l : Link) : Prop := l.dl.currentBlocks = [] ∧ l.sends = [] ∧ l.report = none

theorem step_idle {c : Cfg} (hw : c.AsWritten) {s s' : State} {e : Event} (hi : s.pend.Inv) (h : ∀ q, Idle (s.links q))
    (hs : Step c s e s') :
    (∀ q, Idle (s'.links q)) ∧ (∀ q m, e ≠ .wrote q m) ∧ (∀ q i bs, e ≠ .reported q i bs) ∧
      ∀ q x, e = .dl q x → (∀ a r, x ≠ .request a r) ∧ ∀ b o, x = .block b o → o = .ignored := by
  have key : ∀ (k : Peer) (l : Link), Idle l → ∀ q, Idle ((s.setLink k l).links q) := by
    intro k l hl q
    simp only [setLink_links]
    split
    · exact hl
    · exact h q
  have none_sent : ∀ q, Dl.sendNext (s.links q).dl.currentBlocks = none := by
    intro q; rw [(h q).1]; rfl
  cases hs with
  | @wrote k m rest h1 h2 h3 => rw [(h k).2.1] at h3; cases h3
  | @dlStart k h' i rest d' pend' h1 h2 h3 h4 h5 =>
    refine ⟨key _ _ ⟨?_, (h k).2⟩, by simp, by simp, by rintro q x ⟨⟩; simp⟩
    cases h5; exact (h k).1
  | @dlBlock k b out rest d' pend' h1 h2 h3 h4 h5 h6 =>
    cases h6 with
    | block _ hf =>
      rcases Dl.foo_cases hf with ⟨rfl, rfl, _⟩ | ⟨hash, l, a, r, res, hmod, hg, hc, _⟩
      · exact ⟨key _ _ ⟨(h k).1, (h k).2.1, rfl⟩, by simp, by simp, by rintro q x ⟨⟩; simp⟩
      · rw [(h k).1] at hc; simp at hc
  | @dlReadd k i d' pend' h1 h2 h3 h4 h5 =>
    refine ⟨key _ _ ⟨?_, (h k).2⟩, by simp, by simp, by rintro q x ⟨⟩; simp⟩
    cases h5 with
    | readd _ hr =>
      simp only [Dl.readd] at hr
      split at hr <;> cases hr <;> exact (h k).1
  | @dlTake k got d' pend' h1 h2 h3 h4 h5 =>
    refine ⟨key _ _ ⟨?_, (h k).2⟩, by simp, by simp, by rintro q x ⟨⟩; simp⟩
    cases h5 with
    | take _ ht =>
      obtain ⟨rfl, _, _, hn⟩ := Dl.take_cases hi ht
      show _ ++ _ = _
      rw [(hn (hw k)).1, (h k).1]
      rfl
  | @dlRequest k a r d' pend' h1 h2 h3 h4 h5 h6 =>
    cases h6 with
    | request _ hn => rw [none_sent] at hn; cases hn
  | @dlRequestLost k a r d' pend' h1 h2 h3 h4 h6 =>
    cases h6 with
    | request _ hn => rw [none_sent] at hn; cases hn
  | @dlLoop k d' pend' h1 h2 h3 h5 =>
    refine ⟨key _ _ ⟨?_, (h k).2⟩, by simp, by simp, by rintro q x ⟨⟩; simp⟩
    cases h5; exact (h k).1
  | @reported k i bs h1 h2 h3 => rw [(h k).2.2] at h3; cases h3
  | @reportedLost k i bs h1 h2 h3 => rw [(h k).2.2] at h3; cases h3
  | _ =>
    refine ⟨?_, by simp, by simp, by simp⟩
    first
      | exact h
      | exact key _ _ ⟨(h _).1, (h _).2.1, (h _).2.2⟩
      | exact key _ _ ⟨(h _).1, rfl, (h _).2.2⟩
      | exact key _ _ ⟨(h _).1, (h _).2.1, rfl⟩

/-- C112 is false of the program: whatever the peers offer, in no history is anything ever requested from any peer, in no
history is any message written to any peer, and no piece is ever completed. -/
theorem C112_nothing_requested_violated (c : Cfg) (hw : c.AsWritten) (pieces : List ID) (pl : Nat) (s0 s : State)
    (es : List Event) (h0 : Started pieces pl s0) (h : Run c s0 es s) :
    (∀ q a r, .dl q (.request a r) ∉ es) ∧ (∀ q, writtenTo q es = []) ∧ completedPieces es = [] := by
  obtain ⟨_, hn, _, hl, _⟩ := h0.parts
  have n1 := (PendingPieces.new_inv hn).1
  suffices hr : (∀ q, Idle (s.links q)) ∧ (∀ q a r, .dl q (.request a r) ∉ es) ∧ (∀ q, writtenTo q es = []) ∧
      completedPieces es = [] from hr.2
  induction h with
  | nil => exact ⟨by intro q; rw [hl q]; exact ⟨rfl, rfl, rfl⟩, by simp, by simp [writtenTo], rfl⟩
  | @snoc s1 s2 es e hr hs ih =>
    obtain ⟨i1, i2, i3, i4⟩ := ih
    obtain ⟨j1, j2, j3, j4⟩ := step_idle hw (run_pend_inv hr n1) i1 hs
    refine ⟨j1, fun q a r hm => ?_, fun q => ?_, ?_⟩
    · rcases List.mem_append.mp hm with hm | hm
      · exact i2 q a r hm
      · simp only [List.mem_singleton] at hm
        exact (j4 q _ hm.symm).1 a r rfl
    · have := i3 q
      simp only [writtenTo, List.filterMap_append, this, List.filterMap_cons, List.filterMap_nil, List.nil_append] at this ⊢
      rw [this]
      cases e with
      | wrote k m => exact absurd rfl (j2 k m)
      | _ => rfl
    · rw [completedPieces_append, i4]
      cases e with
      | dl k x =>
        cases x with
        | block b o => rw [(j4 k _ rfl).2 b o rfl]; rfl
        | _ => rfl
      | _ => rfl

/-- This is so although peer A has all pieces, has unchoked us, and has been chosen for the first one: its downloader dies
instead of requesting the block. -/
example : demo written twoPieces 3 (twoTalk ++ [.man (.tick []), .choose peerA 0 hash1, .command peerA 0 hash1,
      .man (.start peerA 0 hash1 true), .dl peerA (.start hash1 0), .dlDies peerA])
    (fun s => ((s.links peerA).dlAlive, s.poisoned)) = some (false, true) := by decide +kernel

theorem run_split {c : Cfg} {s0 s : State} {es : List Event} (h : Run c s0 es s) {e : Event} (he : e ∈ es) :
    ∃ pre post s1, es = pre ++ e :: post ∧ Run c s0 (pre ++ [e]) s1 := by
  induction h with
  | nil => cases he
  | @snoc s1 s2 es e' hr hs ih =>
    rcases List.mem_append.mp he with he | he
    · obtain ⟨pre, post, s1, h1, h2⟩ := ih he
      exact ⟨pre, post ++ [e'], s1, by rw [h1]; simp, h2⟩
    · simp only [List.mem_singleton] at he
      subst he
      exact ⟨es, [], s2, rfl, hr.snoc hs⟩

/-- Whatever a peer is or will be asked for belongs to a piece that its downloader was told to download. -/
structure AskInv (q : Peer) (es : List Event) (l : Link) : Prop where
  commands : ∀ h i, (h, i) ∈ l.commands → ∃ h', .command q i h' ∈ es
  pieces : ∀ i ∈ l.dl.currentPieces.keys, ∃ h, .command q i h ∈ es
  blocks : ∀ a ∈ l.dl.currentBlocks, ∃ h, .command q a.pieceIdx h ∈ es
  sends : ∀ m ∈ l.sends, ∃ a h, m = .request (.ofBlockAddress a) ∧ .command q a.pieceIdx h ∈ es

theorem AskInv.mono {q : Peer} {es : List Event} {l : Link} (h : AskInv q es l) (e : Event) : AskInv q (es ++ [e]) l :=
  ⟨fun a b hm => (h.commands a b hm).imp fun _ => List.mem_append_left _,
   fun a hm => (h.pieces a hm).imp fun _ => List.mem_append_left _,
   fun a hm => (h.blocks a hm).imp fun _ => List.mem_append_left _,
   fun m hm => by
    obtain ⟨a, h', h1, h2⟩ := h.sends m hm
    exact ⟨a, h', h1, List.mem_append_left _ h2⟩⟩

theorem keys_insert {α β : Type} [DecidableEq α] {m : Map α β} {k x : α} {v : β} (h : x ∈ (m.insert k v).keys) :
    x = k ∨ x ∈ m.keys := by
  simp only [Map.keys, List.mem_map] at h ⊢
  obtain ⟨e, he, rfl⟩ := h
  rcases Map.mem_insert he with he | he
  · exact .inr ⟨e, he, rfl⟩
  · exact .inl (by rw [he])

theorem step_ask {c : Cfg} {s s' : State} {es : List Event} {e : Event} (hi : s.pend.Inv)
    (h : ∀ q, AskInv q es (s.links q)) (hs : Step c s e s') (q : Peer) : AskInv q (es ++ [e]) (s'.links q) := by
  have key : ∀ (k : Peer) (l : Link), AskInv k (es ++ [e]) l → AskInv q (es ++ [e]) ((s.setLink k l).links q) := by
    intro k l hl
    simp only [setLink_links]
    split
    · next hk => rw [hk]; exact hl
    · exact (h q).mono e
  cases hs with
  | @put k i hash h1 h2 h3 =>
    refine key _ _ { ((h k).mono _) with commands := ?_ }
    intro h' i' hm
    rcases List.mem_append.mp hm with hm | hm
    · exact ((h k).mono _).commands _ _ hm
    · simp only [List.mem_singleton, Prod.mk.injEq] at hm
      obtain ⟨_, rfl⟩ := hm
      exact ⟨hash, List.mem_append_right _ (by simp)⟩
  | @dlStart k h' i rest d' pend' h1 h2 h3 h4 h5 =>
    have hk := (h k).mono (.dl k (.start h' i))
    refine key _ _ ⟨fun a b hm => hk.commands a b (by rw [h4]; exact List.mem_cons_of_mem _ hm), ?_, ?_, hk.sends⟩
    · cases h5
      intro x hx
      rcases keys_insert hx with rfl | hx
      · exact hk.commands h' x (by rw [h4]; exact List.mem_cons_self ..)
      · exact hk.pieces x hx
    · cases h5; exact hk.blocks
  | @dlBlock k b out rest d' pend' h1 h2 h3 h4 h5 h6 =>
    have hk := (h k).mono (.dl k (.block b out))
    have hp := dl_pieces h6
    simp only at hp
    refine key _ _ ⟨hk.commands, by simp only [hp]; exact hk.pieces, ?_, hk.sends⟩
    cases h6 with
    | block _ hf =>
      rcases Dl.foo_cases hf with ⟨rfl, rfl, _⟩ | ⟨hash, l, a, r, res, hmod, hg, hc, _, _, hres⟩
      · exact hk.blocks
      · have hb := hk.blocks
        rw [hc] at hb
        have hb' : ∀ x ∈ l ++ r, ∃ h, Event.command k x.pieceIdx h ∈ es ++ [.dl k (.block b out)] := fun x hx =>
          hb x (by rcases List.mem_append.mp hx with hx | hx <;> simp [hx])
        rcases hres with ⟨_, _, rfl⟩ | ⟨_, _, _, _, _, rfl⟩ | ⟨_, _, _, _, _, rfl⟩
        · intro x hx
          simp only at hx
          rcases List.mem_append.mp hx with hx | hx
          · exact hb' x hx
          · simp only [List.mem_singleton] at hx
            subst hx
            exact hb a (by simp)
        · exact hb'
        · exact hb'
  | @dlReadd k i d' pend' h1 h2 h3 h4 h5 =>
    have hk := (h k).mono (.dl k (.readd i))
    have hp := dl_pieces h5
    simp only at hp
    refine key _ _ ⟨hk.commands, by simp only [hp]; exact hk.pieces, ?_, hk.sends⟩
    cases h5 with
    | readd _ hr =>
      simp only [Dl.readd] at hr
      split at hr <;> cases hr <;> exact hk.blocks
  | @dlTake k got d' pend' h1 h2 h3 h4 h5 =>
    have hk := (h k).mono (.dl k (.take got))
    have hp := dl_pieces h5
    simp only at hp
    refine key _ _ ⟨hk.commands, by simp only [hp]; exact hk.pieces, ?_, hk.sends⟩
    cases h5 with
    | take _ ht =>
      obtain ⟨rfl, hg, _⟩ := Dl.take_cases hi ht
      intro x hx
      rcases List.mem_append.mp hx with hx | hx
      · exact hk.blocks x hx
      · exact hk.pieces _ (hg x hx).1
  | @dlRequest k a r d' pend' h1 h2 h3 h4 h5 h6 =>
    have hk := (h k).mono (.dl k (.request a r))
    have hp := dl_pieces h6
    simp only at hp
    cases h6 with
    | request _ hn =>
      obtain ⟨l, r, hc, _, rfl⟩ := Dl.sendNext_some hn
      have hb := hk.blocks
      rw [hc] at hb
      refine key _ _ ⟨hk.commands, hk.pieces, ?_, ?_⟩
      · intro x hx
        simp only at hx
        rcases List.mem_append.mp hx with hx | hx
        · exact hb x (by simp [hx])
        · rcases List.mem_cons.mp hx with rfl | hx
          · exact hb a (by simp)
          · exact hb x (by simp [hx])
      · intro m hm
        simp only at hm
        rcases List.mem_append.mp hm with hm | hm
        · exact hk.sends m hm
        · simp only [List.mem_singleton] at hm
          obtain ⟨h', hh⟩ := hb a (by simp)
          exact ⟨a, h', hm, hh⟩
  | @dlRequestLost k a r d' pend' h1 h2 h3 h4 h6 =>
    have hk := (h k).mono (.dl k (.request a r))
    cases h6 with
    | request _ hn =>
      obtain ⟨l, r, hc, _, rfl⟩ := Dl.sendNext_some hn
      have hb := hk.blocks
      rw [hc] at hb
      refine key _ _ ⟨hk.commands, hk.pieces, ?_, hk.sends⟩
      intro x hx
      simp only at hx
      rcases List.mem_append.mp hx with hx | hx
      · exact hb x (by simp [hx])
      · rcases List.mem_cons.mp hx with rfl | hx
        · exact hb a (by simp)
        · exact hb x (by simp [hx])
  | @dlLoop k d' pend' h1 h2 h3 h5 =>
    have hk := (h k).mono (.dl k .loop)
    cases h5 with
    | loop => exact key _ _ ⟨hk.commands, hk.pieces, hk.blocks, hk.sends⟩
  | @wrote k m rest h1 h2 h3 =>
    have hk := (h k).mono (.wrote k m)
    exact key _ _ ⟨hk.commands, hk.pieces, hk.blocks, fun m hm => hk.sends m (by rw [h3]; exact List.mem_cons_of_mem _ hm)⟩
  | _ =>
    first
      | exact (h q).mono _
      | exact key _ _ ⟨((h _).mono _).commands, ((h _).mono _).pieces, ((h _).mono _).blocks, ((h _).mono _).sends⟩
      | exact key _ _ ⟨((h _).mono _).commands, ((h _).mono _).pieces, ((h _).mono _).blocks, by simp [Link.conEnds]⟩
      | exact key _ _ ⟨by simp [Link.dlEnds], ((h _).mono _).pieces, ((h _).mono _).blocks, ((h _).mono _).sends⟩

/-- C112, the part that holds, also if an owner were set: whatever is written to a peer is a request for a block of a piece
of the torrent which that peer itself has announced, by a `have` or in a bitfield, and the peer has sent an `unchoke`. -/
theorem C112_requests_justified_partial (c : Cfg) (pieces : List ID) (pl : Nat) (s0 s : State) (es : List Event)
    (h0 : Started pieces pl s0) (h : Run c s0 es s) (q : Peer) (m : Message) (hm : m ∈ writtenTo q es) :
    ∃ a : BlockAddress, m = .request (.ofBlockAddress a) ∧ a.pieceIdx < pieces.length ∧ .unchoke ∈ messagesFrom q es ∧
      ((∃ j : U32, j.toNat = a.pieceIdx ∧ .have_ j ∈ messagesFrom q es) ∨
        ∃ b, .bitfield b ∈ messagesFrom q es ∧ bitAt b a.pieceIdx = true) := by
  obtain ⟨_, hn, _, hl, _⟩ := h0.parts
  have n1 := (PendingPieces.new_inv hn).1
  have hask : ∀ {es s}, Run c s0 es s → (∀ q, AskInv q es (s.links q)) ∧
      ∀ q, ∀ m ∈ writtenTo q es, ∃ a h, m = .request (.ofBlockAddress a) ∧ .command q a.pieceIdx h ∈ es := by
    intro es s h
    induction h with
    | nil => exact ⟨by intro q; rw [hl q]; constructor <;> simp [Link.fresh, Dl.init, Map.keys], by simp [writtenTo]⟩
    | @snoc s1 s2 es e hr hs ih =>
      refine ⟨step_ask (run_pend_inv hr n1) ih.1 hs, fun q m hm => ?_⟩
      simp only [writtenTo, List.filterMap_append, List.mem_append] at hm
      rcases hm with hm | hm
      · obtain ⟨a, h', h1, h2⟩ := ih.2 q m hm
        exact ⟨a, h', h1, List.mem_append_left _ h2⟩
      · cases hs with
        | @wrote k m' rest h1 h2 h3 =>
          simp only [List.filterMap_cons, List.filterMap_nil] at hm
          split at hm
          · cases hm
          · next hk =>
            split at hk
            · next hk' =>
              cases hk
              simp only [List.mem_singleton] at hm
              subst hm; subst hk'
              obtain ⟨a, h', h4, h5⟩ := (ih.1 k).sends m (by rw [h3]; exact List.mem_cons_self ..)
              exact ⟨a, h', h4, List.mem_append_left _ h5⟩
            · cases hk
        | _ => simp at hm
  obtain ⟨a, h', h1, h2⟩ := (hask h).2 q m hm
  obtain ⟨pre, post, s1, rfl, hr⟩ := run_split h h2
  obtain ⟨f1, ⟨x, y, rest, f2, _⟩, f3⟩ := C110_commands_justified c pieces pl s0 s1 pre q a.pieceIdx h' h0 hr
  have hsub : ∀ {z}, z ∈ messagesFrom q pre → z ∈ messagesFrom q (pre ++ .command q a.pieceIdx h' :: post) := by
    intro z hz; rw [messagesFrom_append]; exact List.mem_append_left _ hz
  refine ⟨a, h1, (List.getElem?_eq_some_iff.mp f1).1, hsub ?_, ?_⟩
  · have : .unchoke ∈ (messagesFrom q pre).filter forManager := by rw [← f2]; simp
    exact (List.mem_filter.mp this).1
  · rcases f3 with ⟨j, g1, g2⟩ | ⟨b, g1, _, g2⟩
    · exact .inl ⟨j, g1, hsub g2⟩
    · exact .inr ⟨b, hsub g1, g2⟩

example : writtenTo peerA oneBlock = [.request ⟨0#32, 0#32, 16384#32⟩] := by decide +kernel

/-! ## C113 -/

/-- C113: in every state of every history no queue of the torrent side is longer than 32: neither the one of the manager, nor
the one to the DHT, nor any of the three of a peer. So however much peers send, memory for it is bounded; a peer that sends
more is not read from. -/
theorem C113_queues_bounded (c : Cfg) (pieces : List ID) (pl : Nat) (s0 s : State) (es : List Event)
    (h0 : Started pieces pl s0) (h : Run c s0 es s) :
    s.inbox.length ≤ 32 ∧ s.dht.length ≤ 32 ∧
    ∀ q, (s.links q).commands.length ≤ 32 ∧ (s.links q).blocks.length ≤ 32 ∧ (s.links q).sends.length ≤ 32 := by
  obtain ⟨_, _, _, hl, _, hb, hd, _⟩ := h0.parts
  suffices hr : Bounded s from ⟨hr.inbox, hr.dht, hr.link⟩
  induction h with
  | nil => exact ⟨by simp [hb], by simp [hd], by simp [hl, Link.fresh]⟩
  | snoc hr hs ih => exact step_bounded ih hs

/-- The bound is reached: a peer can fill the queue of the manager with 32 messages, and then waits. -/
example : demo written twoPieces 3 (twoJoin ++ [.read peerA (wireAll (List.replicate 33 .interested))] ++
      (List.replicate 32 [.parsed peerA .interested, .handed peerA .interested]).flatten ++ [.parsed peerA .interested])
    (fun s => (s.inbox.length, (attempt written s (.handed peerA .interested)).isSome)) = some (32, false) := by
  decide +kernel

end Swarm

end Nargun
