import Verif.Props.Launch
import Verif.Props.SwarmOut
import Verif.Props.ProgramTrackers

/-! # What becomes of the download: C133 -/

namespace Nargun

open Dht Krpc Spec

/-- Nothing happens on a torrent side without manager and connections, except that other tasks use the table of peers and
that the DHT ends. -/
theorem deserted_quiet {c : Swarm.Cfg} {a b : Swarm.State} {x : Swarm.Event} (hd : Deserted a) (hs : Swarm.Step c a x b) :
    (∃ o, x = .man (.peers o)) ∨ x = .dhtEnds ∨ x = .reorder := by
  have noLoop : ∀ {p}, a.man = p → p ≠ .dead → False := fun h hp => hp (h.symm.trans hd.man)
  have noPeer : ∀ {q}, a.Spawned q → False := fun h => by
    simp only [Swarm.State.Spawned, hd.spawned] at h; cases h
  cases hs with
  | shared h => cases h with | peers h => exact .inl ⟨_, rfl⟩
  | dhtTakes h => rw [hd.dht] at h; cases h
  | dhtEnds => exact .inr (.inl rfl)
  | pendReorder => exact .inr (.inr rfl)
  | _ =>
    first
      | exact (noPeer ‹_›).elim
      | exact (noLoop ‹_› (by simp)).elim

theorem deserted_silent {c : Swarm.Cfg} {a b : Swarm.State} {es : List Swarm.Event} (hd : Deserted a)
    (hr : Swarm.Run c a es b) : ∀ x ∈ es, (∃ o, x = .man (.peers o)) ∨ x = .dhtEnds ∨ x = .reorder := by
  induction hr with
  | nil => simp
  | snoc h hs ih =>
    intro x hx
    rcases List.mem_append.mp hx with hx | hx
    · exact ih x hx
    · rw [List.mem_singleton.mp hx]; exact deserted_quiet (deserted_run hd h) hs

/-- The manager is gone, or a report of a finished piece is next in its queue. -/
def Doomed (s : Swarm.State) : Prop :=
  s.man = .dead ∨ ∃ q i bs rest, s.inbox = (q, .finishedPiece i bs) :: rest

theorem doomed_step {c : Swarm.Cfg} {a b : Swarm.State} {x : Swarm.Event} (hd : Doomed a) (hs : Swarm.Step c a x b) :
    Doomed b ∧ ∀ q m, x ≠ .man (.msg q m) := by
  rcases hd with hd | ⟨q, i, bs, rest, hb⟩
  · obtain ⟨h1, h2, -⟩ := Swarm.step_dead hd hs
    refine ⟨.inl h1, fun q m hx => ?_⟩
    obtain ⟨o, ho⟩ := h2 _ hx
    cases ho
  · have more : ∀ y, ∃ q i bs rest, a.inbox ++ [y] = (q, .finishedPiece i bs) :: rest :=
      fun y => ⟨q, i, bs, rest ++ [y], by rw [hb]; rfl⟩
    cases hs with
    | @msg q' m rest' tm' h1 h2 h3 =>
      rw [hb] at h2
      cases h2
      cases h3 with
      | msg _ h => cases h
    | shared h => cases h with | peers h => exact ⟨.inr ⟨q, i, bs, rest, hb⟩, by simp⟩
    | addPoisoned => exact ⟨.inl rfl, by simp⟩
    | addPanics => exact ⟨.inl rfl, by simp⟩
    | msgPanics => exact ⟨.inl rfl, by simp⟩
    | tickPanics => exact ⟨.inl rfl, by simp⟩
    | choosePanics => exact ⟨.inl rfl, by simp⟩
    | unreachable => exact ⟨.inr (more _), by simp⟩
    | handOther => exact ⟨.inr (more _), by simp⟩
    | reported => exact ⟨.inr (more _), by simp⟩
    | _ => exact ⟨.inr ⟨q, i, bs, rest, hb⟩, by simp⟩

theorem doomed_run {c : Swarm.Cfg} {a b : Swarm.State} {es : List Swarm.Event} (hd : Doomed a) (hr : Swarm.Run c a es b) :
    Doomed b ∧ managerHeard es = [] := by
  induction hr with
  | nil => exact ⟨hd, rfl⟩
  | @snoc _ _ es e _ hs ih =>
    obtain ⟨i1, i2⟩ := ih
    obtain ⟨j1, j2⟩ := doomed_step i1 hs
    refine ⟨j1, ?_⟩
    rw [Swarm.managerHeard_append, i2]
    cases e with
    | man t => cases t with
      | msg q m => exact absurd rfl (j2 q m)
      | _ => rfl
    | _ => rfl

theorem unheard_run {c : Swarm.Cfg} {a b : Swarm.State} {es : List Swarm.Event} (hr : Swarm.Run c a es b) :
    reportsIn (managerHeard es) = [] := by
  induction hr with
  | nil => rfl
  | @snoc _ _ es e _ hs ih =>
    rw [Swarm.managerHeard_append]
    simp only [reportsIn, List.filterMap_append] at ih ⊢
    rw [ih, List.nil_append]
    simp only [List.filterMap_eq_nil_iff]
    rintro ⟨q, m⟩ hm
    simp only [managerHeard, List.filterMap_cons, List.filterMap_nil] at hm
    cases hs with
    | msg _ _ h =>
      simp only [List.mem_singleton, Prod.mk.injEq] at hm
      obtain ⟨rfl, rfl⟩ := hm
      cases h with
      | msg _ h => cases m <;> first | rfl | cases h
    | shared h => cases h with | peers h => simp at hm
    | _ => simp at hm

namespace Program

variable {sha1 : Bytes → ID} {utf8 : Bytes → Bool} {w : World} {m : Machine} {c : Chance} {u : Setup} {s s' s0 : State}
  {es : List Event} {t : Torrent}

/-- After the start, either the manager works on the torrent or nothing ever happens on the torrent side. -/
theorem launch_torrent {tree : Tree} (h : launch sha1 utf8 w m c = (tree, .ok s0)) :
    ∃ buf t, m.metainfo = some buf ∧ Torrent.fromBuf sha1 utf8 buf = .ok t ∧
      (Swarm.Started t.info.pieces t.info.pieceLength s0.torrent ∨ Deserted s0.torrent) := by
  obtain ⟨buf, t, table, e1, e2, -, -, rfl, -⟩ := launch_ok h
  refine ⟨buf, t, e1, e2, ?_⟩
  have hp := (C61_shape_partial sha1 utf8 buf t e2).1
  show Swarm.Started _ _ ({ (startManager m.allowed c.order t.info (.new t.infoHash) m.tree).2 with
      tm := { (startManager m.allowed c.order t.info (.new t.infoHash) m.tree).2.tm with peers := .new t.infoHash } }) ∨ _
  have hgone : Deserted (launched w m c t table).swarm → Deserted (launched w m c t table).torrent :=
    fun hd => ⟨hd.man, hd.spawned, hd.dht⟩
  by_cases hd : Deserted (launched w m c t table).swarm
  · exact .inr (hgone hd)
  · left
    have hne : (startManager m.allowed c.order t.info (.new t.infoHash) m.tree).2 ≠ managerGone t.info.pieces (.new t.infoHash) := by
      intro he
      apply hd
      show Deserted (startManager m.allowed c.order t.info (.new t.infoHash) m.tree).2
      rw [he]; exact gone_deserted _ _
    have hs : Swarm.State.start t.info.pieces t.info.pieceLength (.new t.infoHash) =
        .ok (startManager m.allowed c.order t.info (.new t.infoHash) m.tree).2 := by
      unfold startManager at hne ⊢
      split at hne
      · split at hne
        · split at hne
          · next h3 => simp only [h3]
          · exact absurd rfl hne
        · exact absurd rfl hne
      · exact absurd rfl hne
    refine ⟨by intro h0; rw [h0] at hp; simp at hp, t.infoHash, ?_⟩
    have hpe : (startManager m.allowed c.order t.info (.new t.infoHash) m.tree).2.tm.peers = .new t.infoHash := by
      simp only [Swarm.State.start] at hs
      obtain ⟨tm, h1, hs⟩ := Res.bind_eq_ok.mp hs
      obtain ⟨pend, h2, hs⟩ := Res.bind_eq_ok.mp hs
      simp only [TM.init] at h1
      obtain ⟨_, _, h1⟩ := Res.bind_eq_ok.mp h1
      cases h1
      rw [← Res.ok.inj hs]
    rw [hs]
    generalize (startManager m.allowed c.order t.info (.new t.infoHash) m.tree).2 = x at hpe
    cases x with | mk tm _ _ _ _ _ _ _ => cases tm; simp only at hpe; subst hpe; rfl

theorem completed_shared {l l' : List Swarm.Event} (h : l.filter (fun x => !isShared x) = l') :
    completedPieces l = completedPieces l' := filterMap_shared _ (fun _ => rfl) h

theorem messages_shared {q : Peer} {l l' : List Swarm.Event} (h : l.filter (fun x => !isShared x) = l') :
    messagesFrom q l = messagesFrom q l' := filterMap_shared _ (fun _ => rfl) h

theorem written_shared {q : Peer} {l l' : List Swarm.Event} (h : l.filter (fun x => !isShared x) = l') :
    writtenTo q l = writtenTo q l' := filterMap_shared _ (fun _ => rfl) h

theorem heard_shared {l l' : List Swarm.Event} (h : l.filter (fun x => !isShared x) = l') :
    managerHeard l = managerHeard l' := filterMap_shared _ (fun _ => rfl) h

/-- C133 is false of the program: however it is started, with whatever torrent, and whatever peers it finds and whatever
they offer, no message is ever written to any peer after the handshake and no piece is ever completed. -/
theorem C133_nothing_violated (sha1 : Bytes → ID) (utf8 : Bytes → Bool) (w : World) (m : Machine) (c : Chance) (tree : Tree)
    (s0 s : State) (es : List Event) (hw : w.cfg.AsWritten) (h : launch sha1 utf8 w m c = (tree, .ok s0))
    (hr : Run w s0 es s) :
    (∀ q, writtenTo q (torrentEvents es) = []) ∧ completedPieces (torrentEvents es) = [] := by
  obtain ⟨l, hl, hf⟩ := run_torrent hr
  obtain ⟨_, t, -, -, h0 | h0⟩ := launch_torrent h
  · obtain ⟨-, h1, h2⟩ := Swarm.C112_nothing_requested_violated w.cfg hw _ _ _ _ _ h0 hl
    exact ⟨fun q => written_shared hf ▸ h1 q, completed_shared hf ▸ h2⟩
  · have hq := deserted_silent h0 hl
    refine ⟨fun q => written_shared hf ▸ ?_, completed_shared hf ▸ ?_⟩
    · simp only [writtenTo, List.filterMap_eq_nil_iff]
      intro x hx
      rcases hq x hx with ⟨o, rfl⟩ | rfl | rfl <;> rfl
    · simp only [completedPieces, List.filterMap_eq_nil_iff]
      intro x hx
      rcases hq x hx with ⟨o, rfl⟩ | rfl | rfl <;> rfl

/-- C133 would be false even if the downloaders were told the owner of their requests: in no history does the manager take
note of a finished piece. When the report of one is next in its queue, the manager takes nothing from the queue any more, and
between two ticks it can panic at any time. -/
theorem C133_first_piece_violated (w : World) (s0 s : State) (es : List Event) (hr : Run w s0 es s) :
    reportsIn (managerHeard (torrentEvents es)) = [] ∧
    ∀ q i bs rest, s.swarm.inbox = (q, .finishedPiece i bs) :: rest →
      (∀ es' s', Run w s es' s' → managerHeard (torrentEvents es') = []) ∧
      (s.down.phase ≠ .done → s.swarm.man = .loop → s.swarm.tm.slots = 0 →
        ∃ s1, Step w s (.torrent .manDies) s1 ∧ s1.swarm.man = .dead) := by
  obtain ⟨l, hl, hf⟩ := run_torrent hr
  refine ⟨heard_shared hf ▸ unheard_run hl, fun q i bs rest hb => ⟨fun es' s' hr' => ?_, fun h1 h2 h3 => ?_⟩⟩
  · obtain ⟨l', hl', hf'⟩ := run_torrent hr'
    exact heard_shared hf' ▸ (doomed_run (a := s.torrent) (.inr ⟨q, i, bs, rest, hb⟩) hl').2
  · have hst : Swarm.Step w.cfg s.torrent .manDies s.torrent.manDies :=
      .msgPanics h2 h3 (show s.torrent.inbox = _ from hb) rfl
    exact ⟨_, ⟨h1, .torrent trivial hst⟩, rfl⟩

/-- C133, what holds: whatever is completed is a piece of the torrent file that the program was started with. Its hash is the
one in the torrent file, it has as many blocks as a piece has, and every block was received from a peer as that block of
that piece. Missing: pieces are never completed (above); the manager never stores one. -/
theorem C133_verified_partial (sha1 : Bytes → ID) (utf8 : Bytes → Bool) (w : World) (m : Machine) (c : Chance) (tree : Tree)
    (s0 s : State) (es : List Event) (buf : Bytes) (t : Torrent) (hm : m.metainfo = some buf)
    (ht : Torrent.fromBuf sha1 utf8 buf = .ok t) (h : launch sha1 utf8 w m c = (tree, .ok s0)) (hr : Run w s0 es s)
    (i : Nat) (bs : List Bytes) (hi : (i, bs) ∈ completedPieces (torrentEvents es)) :
    t.info.pieces[i]? = some (w.cfg.hash bs.flatten) ∧ bs.length = blockCount t.info.pieceLength ∧
    ∀ k x, bs[k]? = some x → ∃ q b, .piece b ∈ messagesFrom q (torrentEvents es) ∧ b.index.toNat = i ∧
      b.begin_.toNat = k * 16384 ∧ b.block = x := by
  obtain ⟨l, hl, hf⟩ := run_torrent hr
  obtain ⟨buf', t', e1, e2, h0⟩ := launch_torrent h
  obtain rfl : buf = buf' := Option.some.inj (hm.symm.trans e1)
  obtain rfl : t = t' := Res.ok.inj (ht.symm.trans e2)
  rw [← completed_shared hf] at hi
  simp only [completedPieces, List.mem_filterMap] at hi
  obtain ⟨e, he, hi⟩ := hi
  rcases h0 with h0 | h0
  · split at hi
    · simp only [Option.some.injEq, Prod.mk.injEq] at hi
      obtain ⟨rfl, rfl⟩ := hi
      obtain ⟨pre, post, s1, h1, h2⟩ := Swarm.run_split hl he
      obtain ⟨k1, k2, k3⟩ := Swarm.C111_completed_pieces _ _ _ _ _ _ _ _ _ _ h0 h2
      refine ⟨k1, k2, fun k x hk => ?_⟩
      obtain ⟨q, b, hb, hrest⟩ := k3 k x hk
      refine ⟨q, b, ?_, hrest⟩
      rw [← messages_shared hf, h1]
      simp only [messagesFrom, List.filterMap_append] at hb ⊢
      exact List.mem_append_left _ hb
    · cases hi
  · rcases deserted_silent h0 hl e he with ⟨o, rfl⟩ | rfl | rfl <;> cases hi

/-- C143 is violated: however the program is started and whatever happens, and even if the downloaders were told the owner
of their requests, nothing but requests for blocks is ever written to a peer after the handshake. So no peer is told that
the client is interested, no peer is unchoked or told of a piece, no block is given to anybody, and no connection is kept
alive, also when a peer has asked for a block and pieces have been completed. -/
theorem C143_nothing_told_violated (sha1 : Bytes → ID) (utf8 : Bytes → Bool) (w : World) (m : Machine) (c : Chance)
    (tree : Tree) (s0 s : State) (es : List Event) (h : launch sha1 utf8 w m c = (tree, .ok s0)) (hr : Run w s0 es s)
    (q : Peer) :
    .keepAlive ∉ writtenTo q (torrentEvents es) ∧ .interested ∉ writtenTo q (torrentEvents es) ∧
    .unchoke ∉ writtenTo q (torrentEvents es) ∧ (∀ i, .have_ i ∉ writtenTo q (torrentEvents es)) ∧
    (∀ b, .bitfield b ∉ writtenTo q (torrentEvents es)) ∧ (∀ b, .piece b ∉ writtenTo q (torrentEvents es)) := by
  have key : ∀ x ∈ writtenTo q (torrentEvents es), ∃ r, x = .request r := by
    intro x hx
    obtain ⟨l, hl, hf⟩ := run_torrent hr
    rw [← written_shared hf] at hx
    obtain ⟨_, t, -, -, h0 | h0⟩ := launch_torrent h
    · obtain ⟨a, h1, -⟩ := Swarm.C112_requests_justified_partial _ _ _ _ _ _ h0 hl q x hx
      exact ⟨_, h1⟩
    · obtain ⟨y, hy, hx⟩ := List.mem_filterMap.mp hx
      rcases deserted_silent h0 hl y hy with ⟨o, rfl⟩ | rfl | rfl <;> cases hx
  refine ⟨fun hx => ?_, fun hx => ?_, fun hx => ?_, fun _ hx => ?_, fun _ hx => ?_, fun _ hx => ?_⟩ <;>
    obtain ⟨r, hr⟩ := key _ hx <;> cases hr

/-! ## Examples -/

/-- The hash of the first piece of `demoMulti`. -/
def hashA : ID := ⟨List.replicate 20 0x61#8, by decide⟩

/-- The tracker names A, which has the first piece and unchokes us; A is chosen for it. -/
def choosesA : List Event := joinsA ++ [
  .torrent (.read peerA (wire (.bitfield [0x80]) ++ wire .unchoke)), .torrent (.parsed peerA (.bitfield [0x80])),
  .torrent (.handed peerA (.bitfield [0x80])), .torrent (.parsed peerA .unchoke), .torrent (.handed peerA .unchoke),
  .torrent (.parsedAll peerA), .torrent (.man (.msg peerA (.bitfield [0x80]))), .torrent (.man (.msg peerA .unchoke)),
  .torrent (.man (.tick [])), .torrent (.choose peerA 0 hashA), .torrent (.command peerA 0 hashA),
  .torrent (.man (.start peerA 0 hashA true)), .torrent (.dl peerA (.start hashA 0))]

/-- A is chosen for the first piece in the other iterations of the tick as well, and sends its only block. -/
def completesA : List Event := choosesA ++ (List.replicate 8 [Event.torrent (.choose peerA 0 hashA),
  .torrent (.command peerA 0 hashA), .torrent (.man (.start peerA 0 hashA true))]).flatten ++ [
  .torrent (.dl peerA (.take [.new 0 0])), .torrent (.dl peerA (.request (.new 0 0) ⟨0#32, 0#32, 16384#32⟩)),
  .torrent (.dl peerA .loop), .torrent (.wrote peerA (.request ⟨0#32, 0#32, 16384#32⟩)),
  .torrent (.read peerA (wire (.piece ⟨0#32, 0#32, [7, 8, 9, 10]⟩))),
  .torrent (.parsed peerA (.piece ⟨0#32, 0#32, [7, 8, 9, 10]⟩)), .torrent (.handed peerA (.piece ⟨0#32, 0#32, [7, 8, 9, 10]⟩)),
  .torrent (.dl peerA (.block ⟨0#32, 0#32, [7, 8, 9, 10]⟩ (.finished 0 [[7, 8, 9, 10]]))),
  .torrent (.reported peerA 0 [[7, 8, 9, 10]])]

/-- The program as it is, and with an owner set. -/
def pieceWorld (owner : Peer → Option Peer) : World := { demoWorld with cfg := ⟨.release, fun _ => hashA, owner⟩ }

/-- The hypotheses of `C133_nothing_violated` are met, by a session in which a peer offers what is needed. -/
example : ∃ tree s0 es s, launch demoSha1 (fun _ => true) (pieceWorld fun _ => none)
      (demoMachine demoMulti none demoHome true) (demoChance 0#8) = (tree, .ok s0) ∧
    Run (pieceWorld fun _ => none) s0 es s ∧ (pieceWorld fun _ => none).cfg.AsWritten ∧
    messagesFrom peerA (torrentEvents es) = [.bitfield [0x80], .unchoke] ∧ (s.swarm.links peerA).dlAlive = false := by
  have : session (pieceWorld fun _ => none) (demoMachine demoMulti none demoHome true) (demoChance 0#8)
      ((choosesA ++ [Event.torrent (.dlDies peerA)]).map .ev) (fun _ es s =>
        (messagesFrom peerA (torrentEvents es), (s.swarm.links peerA).dlAlive)) =
      some ([.bitfield [0x80], .unchoke], false) := by decide +kernel
  obtain ⟨tree, s0, es, s, h1, h2, h3⟩ := session_sound this
  simp only [Prod.mk.injEq] at h3
  exact ⟨tree, s0, es, s, h1, h2, fun _ => rfl, h3.1, h3.2⟩

/-- With an owner set, a piece is completed and the report is next in the queue of the manager, between two ticks: the
hypotheses of `C133_first_piece_violated` and `C133_verified_partial` are met. -/
example : ∃ tree s0 es s, launch demoSha1 (fun _ => true) (pieceWorld some)
      (demoMachine demoMulti none demoHome true) (demoChance 0#8) = (tree, .ok s0) ∧
    Run (pieceWorld some) s0 es s ∧ completedPieces (torrentEvents es) = [(0, [[7, 8, 9, 10]])] ∧
    s.swarm.inbox = [(peerA, .finishedPiece 0 [[7, 8, 9, 10]])] ∧ s.swarm.man = .loop ∧ s.swarm.tm.slots = 0 ∧
    s.down.phase = .holding := by
  have : session (pieceWorld some) (demoMachine demoMulti none demoHome true) (demoChance 0#8)
      (completesA.map .ev) (fun _ es s => (decide (completedPieces (torrentEvents es) = [(0, [[7, 8, 9, 10]])] ∧
        s.swarm.inbox = [(peerA, .finishedPiece 0 [[7, 8, 9, 10]])] ∧ s.swarm.tm.slots = 0 ∧ s.down.phase = .holding),
        (match s.swarm.man with | .loop => true | _ => false))) = some (true, true) := by decide +kernel
  obtain ⟨tree, s0, es, s, h1, h2, h3⟩ := session_sound this
  simp only [Prod.mk.injEq] at h3
  obtain ⟨f1, f2⟩ := h3
  obtain ⟨f3, f4, f5, f6⟩ := of_decide_eq_true f1
  refine ⟨tree, s0, es, s, h1, h2, f3, f4, ?_, f5, f6⟩
  split at f2
  · assumption
  · cases f2

/-- The hypotheses of `C143_nothing_told_violated` are met by a session in which a request is written, a piece is completed, and
the peer has asked for a block. -/
example : ∃ tree s0 es s, launch demoSha1 (fun _ => true) (pieceWorld some)
      (demoMachine demoMulti none demoHome true) (demoChance 0#8) = (tree, .ok s0) ∧
    Run (pieceWorld some) s0 es s ∧ completedPieces (torrentEvents es) = [(0, [[7, 8, 9, 10]])] ∧
    writtenTo peerA (torrentEvents es) = [.request ⟨0#32, 0#32, 16384#32⟩] ∧
    .request ⟨0#32, 0#32, 4#32⟩ ∈ messagesFrom peerA (torrentEvents es) := by
  have : session (pieceWorld some) (demoMachine demoMulti none demoHome true) (demoChance 0#8)
      ((completesA ++ [Event.torrent (.parsedAll peerA), .torrent (.read peerA (wire (.request ⟨0#32, 0#32, 4#32⟩))),
        .torrent (.parsed peerA (.request ⟨0#32, 0#32, 4#32⟩)),
        .torrent (.handed peerA (.request ⟨0#32, 0#32, 4#32⟩))]).map .ev) (fun _ es _ =>
        decide (completedPieces (torrentEvents es) = [(0, [[7, 8, 9, 10]])]) &&
        decide (writtenTo peerA (torrentEvents es) = [.request ⟨0#32, 0#32, 16384#32⟩]) &&
        decide (.request ⟨0#32, 0#32, 4#32⟩ ∈ messagesFrom peerA (torrentEvents es))) = some true := by decide +kernel
  obtain ⟨tree, s0, es, s, h1, h2, h3⟩ := session_sound this
  simp only [Bool.and_eq_true, decide_eq_true_eq] at h3
  exact ⟨tree, s0, es, s, h1, h2, h3.1.1, h3.1.2, h3.2⟩

end Program

end Nargun
