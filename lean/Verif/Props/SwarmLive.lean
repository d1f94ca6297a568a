import Verif.Props.Swarm

/-! # C114–C118: what keeps the torrent side going, and what stops it -/

set_option linter.unusedSimpArgs false

namespace Nargun

open Spec

namespace Swarm

/-! ## C114 -/

theorem step_pc {c : Cfg} (hw : c.AsWritten) {s s' : State} {e : Event} (hi : s.pend.Inv) (h : ∀ q, Idle (s.links q))
    (hp : ∀ q i, (s.links q).dl.pc ≠ .readd i) (hs : Step c s e s') : ∀ q i, (s'.links q).dl.pc ≠ .readd i := by
  have key : ∀ (k : Peer) (l : Link), (∀ i, l.dl.pc ≠ .readd i) → ∀ q i, ((s.setLink k l).links q).dl.pc ≠ .readd i := by
    intro k l hl q i
    simp only [setLink_links]
    split
    · exact hl i
    · exact hp q i
  cases hs with
  | @dlStart k h' i rest d' pend' h1 h2 h3 h4 h5 => cases h5; exact key _ _ (by simp [Dl.start])
  | @dlBlock k b out rest d' pend' h1 h2 h3 h4 h5 h6 =>
    cases h6 with
    | block _ hf =>
      rcases Dl.foo_cases hf with ⟨rfl, rfl, _⟩ | ⟨hash, l, a, r, res, hmod, hg, hc, _⟩
      · exact key _ _ (by simp)
      · rw [(h k).1] at hc; simp at hc
  | @dlReadd k i d' pend' h1 h2 h3 h4 h5 =>
    cases h5 with
    | readd hpc _ => exact absurd hpc (hp k i)
  | @dlTake k got d' pend' h1 h2 h3 h4 h5 =>
    cases h5 with
    | take _ ht =>
      obtain ⟨rfl, _⟩ := Dl.take_cases hi ht
      exact key _ _ (by simp)
  | @dlRequest k a r d' pend' h1 h2 h3 h4 h5 h6 => cases h6; exact key _ _ (hp k)
  | @dlRequestLost k a r d' pend' h1 h2 h3 h4 h6 => cases h6; exact key _ _ (hp k)
  | @dlLoop k d' pend' h1 h2 h3 h5 => cases h5; exact key _ _ (by simp)
  | _ =>
    first
      | exact hp
      | exact key _ _ (hp _)

theorem run_idle {c : Cfg} (hw : c.AsWritten) {pieces : List ID} {pl : Nat} {s0 s : State} {es : List Event}
    (h0 : Started pieces pl s0) (h : Run c s0 es s) :
    (∀ q, Idle (s.links q)) ∧ ∀ q i, (s.links q).dl.pc ≠ .readd i := by
  obtain ⟨_, hn, _, hl, _⟩ := h0.parts
  have n1 := (PendingPieces.new_inv hn).1
  induction h with
  | nil => exact ⟨by intro q; rw [hl q]; exact ⟨rfl, rfl, rfl⟩, by simp [hl, Link.fresh, Dl.init]⟩
  | snoc hr hs ih =>
    have hi := run_pend_inv hr n1
    exact ⟨(step_idle hw hi ih.1 hs).1, step_pc hw hi ih.1 ih.2 hs⟩

theorem take_not_err (d : Dl.State) (pend : PendingPieces) (now cap : Nat) :
    Dl.take d pend none now cap = .panic ∨ ∃ r, Dl.take d pend none now cap = .ok r := by
  simp only [Dl.take, PendingPieces.takeNotGoodBlocks, takeFiltered]
  split
  · split
    · simp only [Res.ok_bind]
      split
      · simp
      · split
        · simp
        · exact .inl rfl
    · exact .inl rfl
  · exact .inr ⟨_, rfl⟩

/-- C114: in the program as written, the manager never waits for a downloader for ever: whenever it waits to put a command
into the queue of the downloader of `q`, at most three steps of that very downloader alone make room in the queue or end the
task, and then the manager goes on (the command is put, or the manager learns that the task is gone). -/
theorem C114_manager_wait_ends (c : Cfg) (hw : c.AsWritten) (pieces : List ID) (pl : Nat) (s0 s : State) (es : List Event)
    (h0 : Started pieces pl s0) (h : Run c s0 es s) (q : Peer) (i : Nat) (hash : ID) (hm : s.man = .sending q i hash) :
    ∃ es' s', Run c s es' s' ∧ es'.length ≤ 3 ∧ (∀ e ∈ es', e = .dlDies q ∨ ∃ x, e = .dl q x) ∧
      s'.man = .sending q i hash ∧ ∃ e s'', Step c s' e s'' ∧ (e = .command q i hash ∨ e = .man (.start q i hash false)) := by
  obtain ⟨t1, t2⟩ := tm_run h h0.parts.2.2.1
  obtain ⟨w1, w2, w3⟩ := t2 q i hash (.inl hm)
  have hconn := run_conn h h0.parts.2.2.1 (started_conn h0)
  have hsp : s.Spawned q := by simp only [State.Spawned, ← hconn.table]; exact w2
  obtain ⟨hidle, hpc⟩ := run_idle hw h0 h
  -- the manager's step once there is room or the task is gone
  have room : ∀ s' : State, s'.tm = s.tm → s'.man = .sending q i hash →
      ((s'.links q).dlAlive = false ∨ (s'.links q).commands.length < 32) →
      ∃ e s'', Step c s' e s'' ∧ (e = .command q i hash ∨ e = .man (.start q i hash false)) := by
    intro s' ht hm' hroom
    cases ha : (s'.links q).dlAlive with
    | true =>
      rcases hroom with hroom | hroom
      · rw [ha] at hroom; cases hroom
      · exact ⟨_, _, .put hm' ha hroom, .inl rfl⟩
    | false =>
      obtain ⟨k, hk⟩ := Nat.exists_eq_succ_of_ne_zero (Nat.pos_iff_ne_zero.mp w3)
      refine ⟨_, _, .putFails (k := k) (tm' := s'.tm) hm' ha (by rw [ht]; exact hk) ?_, .inr rfl⟩
      simp only [TM.startDownloadingPiece, Connection.downloadPiece, ht]
      rw [if_pos w2]
  by_cases hroom : (s.links q).dlAlive = false ∨ (s.links q).commands.length < 32
  · exact ⟨[], s, .nil, by simp, by simp, hm, room s rfl hm hroom⟩
  have ha : (s.links q).dlAlive = true := by
    cases hd : (s.links q).dlAlive with
    | true => rfl
    | false => exact absurd (.inl hd) hroom
  have hlen : 32 ≤ (s.links q).commands.length := by omega
  obtain ⟨i1, i2, i3⟩ := hidle q
  -- from `select`, one step
  have fromSelect : ∀ s' : State, s'.tm = s.tm → s'.man = .sending q i hash → (s'.links q).dlAlive = true →
      (s'.links q).report = none → (s'.links q).commands = (s.links q).commands → (s'.links q).dl.pc = .select →
      (s.links q).commands.length ≤ 32 →
      ∃ e s'', Step c s' e s'' ∧ (e = .dlDies q ∨ ∃ x, e = .dl q x) ∧ s''.tm = s.tm ∧ s''.man = .sending q i hash ∧
        ((s''.links q).dlAlive = false ∨ (s''.links q).commands.length < 32) := by
    intro s' ht hm' ha' hr hc hp hle
    cases hcs : (s.links q).commands with
    | nil => rw [hcs] at hlen; simp at hlen
    | cons x rest =>
      obtain ⟨h', i'⟩ := x
      refine ⟨_, _, .dlStart (q := q) (by simp only [State.Spawned, ht]; exact hsp) ha' hr (by rw [hc, hcs])
        (pend' := s'.pend) (.start hp), .inr ⟨_, rfl⟩, ht, hm', .inr ?_⟩
      simp only [setLink_links, if_true]
      rw [hcs] at hle
      simp only [List.length_cons] at hle
      omega
  have hle : (s.links q).commands.length ≤ 32 := (C113_queues_bounded c pieces pl s0 s es h0 h).2.2 q |>.1
  -- from `send`, one step to `select`
  have fromSend : ∀ s' : State, s'.tm = s.tm → s'.man = .sending q i hash → (s'.links q).dlAlive = true →
      (s'.links q).report = none → (s'.links q).commands = (s.links q).commands → (s'.links q).dl.pc = .send →
      (s'.links q).dl.currentBlocks = [] →
      ∃ es' s'', Run c s' es' s'' ∧ es'.length = 2 ∧ (∀ e ∈ es', e = .dlDies q ∨ ∃ x, e = .dl q x) ∧ s''.tm = s.tm ∧
        s''.man = .sending q i hash ∧ ((s''.links q).dlAlive = false ∨ (s''.links q).commands.length < 32) := by
    intro s' ht hm' ha' hr hc hp hb
    have st : Step c s' (.dl q .loop) _ := .dlLoop (q := q) (by simp only [State.Spawned, ht]; exact hsp) ha' hr
      (pend' := s'.pend) (.loop hp (by rw [hb]; rfl))
    obtain ⟨e, s'', h1, h2, h3, h4, h5⟩ := fromSelect (s'.setLink q { s'.links q with
        dl := { (s'.links q).dl with pc := .select, counter := (s'.links q).dl.counter + 1 } }) ht hm'
      (by simpa using ha') (by simpa using hr) (by simpa using hc) (by simp) hle
    refine ⟨[.dl q .loop, e], s'', .cons st (.cons h1 .nil), rfl, ?_, h3, h4, h5⟩
    intro e' he'
    simp only [List.mem_cons, List.not_mem_nil, or_false] at he'
    rcases he' with rfl | rfl
    · exact .inr ⟨_, rfl⟩
    · exact h2
  cases hp : (s.links q).dl.pc with
  | select =>
    obtain ⟨e, s', h1, h2, h3, h4, h5⟩ := fromSelect s rfl hm ha i3 rfl hp hle
    exact ⟨[e], s', .cons h1 .nil, by simp, by simpa using h2, h4, room s' h3 h4 h5⟩
  | readd i' => exact absurd hp (hpc q i')
  | send =>
    obtain ⟨es', s', h1, h2, h3, h4, h5, h6⟩ := fromSend s rfl hm ha i3 rfl hp i1
    exact ⟨es', s', h1, by omega, h3, h5, room s' h4 h5 h6⟩
  | take =>
    by_cases hpois : s.poisoned = true ∧ (s.links q).dl.counter % (16 / 3) = 0
    · have st : Step c s (.dlDies q) _ := .takePoisoned (q := q) hsp ha i3 hp hpois.2 hpois.1
      exact ⟨[.dlDies q], _, .cons st .nil, by simp, by simp, hm, room _ rfl hm (.inl (by simp [Link.dlEnds]))⟩
    · have hfree : s.poisoned = false ∨ (s.links q).dl.counter % (16 / 3) ≠ 0 := by
        cases hb : s.poisoned with
        | false => exact .inl rfl
        | true => exact .inr fun hc => hpois ⟨hb, hc⟩
      rcases take_not_err (s.links q).dl s.pend 0 16 with ht | ⟨⟨d', pend', got⟩, ht⟩
      · have hnp : s.poisoned = false := by
          rcases hfree with hf | hf
          · exact hf
          · simp only [Dl.take, if_neg hf] at ht; cases ht
        have st : Step c s (.dlDies q) _ := .takePanics (q := q) (now := 0) (cap := 16) hsp ha i3 hp hnp
          (by rw [hw q]; exact ht)
        exact ⟨[.dlDies q], _, .cons st .nil, by simp, by simp, hm, room _ rfl hm (.inl (by simp [Link.dlEnds]))⟩
      · have st : Step c s (.dl q (.take got)) _ := .dlTake (q := q) hsp ha i3 hfree
          (.take (now := 0) (cap := 16) hp (by rw [hw q]; exact ht))
        have hi := run_pend_inv h (PendingPieces.new_inv h0.parts.2.1).1
        obtain ⟨hd, _, _, hg⟩ := Dl.take_cases hi ht
        obtain ⟨es', s', h1, h2, h3, h4, h5, h6⟩ := fromSend
            { s.setLink q { s.links q with dl := d' } with pend := pend' } rfl hm (by simpa using ha) (by simpa using i3)
          (by simp) (by simp [hd]) (by simp [hd, i1, (hg rfl).1])
        refine ⟨.dl q (.take got) :: es', s', .cons st h1, by simp [h2], ?_, h5, room s' h4 h5 h6⟩
        intro e he
        rcases List.mem_cons.mp he with rfl | he
        · exact .inr ⟨_, rfl⟩
        · exact h3 e he

/-- The manager waits for the downloader of A. -/
example : (demo written twoPieces 3 (twoTalk ++ [.man (.tick []), .choose peerA 0 hash1]) (fun s => decide (s.man =
    .sending peerA 0 hash1))) = some true := by decide +kernel

/-! ## C115 -/

theorem step_dead {c : Cfg} {s s' : State} {e : Event} (h : s.man = .dead) (hs : Step c s e s') :
    s'.man = .dead ∧ (∀ t, e = .man t → ∃ o, t = .peers o) ∧ (∀ q i h, e ≠ .command q i h) ∧ (∀ q i h, e ≠ .choose q i h) := by
  cases hs with
  | reorder e1 | tick e1 | nothing e1 | choose e1 | refused e1 | put e1 | putFails e1 | add e1 | addPoisoned e1
  | addPanics e1 | msg e1 | msgPanics e1 | tickPanics e1 | choosePanics e1 => rw [h] at e1; cases e1
  | _ => exact ⟨h, by simp, by simp, by simp⟩

/-- C115, what a dead manager means: it stays dead, no peer is ever connected to again, no message of any peer is ever
handled, no download is ever started. -/
theorem C115_dead_forever (c : Cfg) (s s' : State) (es : List Event) (h : s.man = .dead) (hr : Run c s es s') :
    s'.man = .dead ∧ connectedTo es = [] ∧ managerHeard es = [] ∧ (∀ q i h, .command q i h ∉ es) := by
  induction hr with
  | nil => exact ⟨h, rfl, rfl, by simp⟩
  | @snoc s1 s2 es e hr hs ih =>
    obtain ⟨i1, i2, i3, i4⟩ := ih
    obtain ⟨j1, j2, j3, _⟩ := step_dead i1 hs
    refine ⟨j1, ?_, ?_, ?_⟩
    · simp only [connectedTo, List.flatMap_append] at i2 ⊢
      rw [i2]
      cases e with
      | man t => obtain ⟨o, rfl⟩ := j2 t rfl; rfl
      | _ => rfl
    · rw [managerHeard_append, i3]
      cases e with
      | man t => obtain ⟨o, rfl⟩ := j2 t rfl; rfl
      | _ => rfl
    · intro q i h hm
      rcases List.mem_append.mp hm with hm | hm
      · exact i4 q i h hm
      · simp only [List.mem_singleton] at hm
        exact j3 q i h hm.symm

/-- C115 is false of the program: once a `request` (or `cancel`) of a peer is at the head of the queue of the manager, the
manager never gets past it: it handles nothing else until it dies. -/
theorem C115_one_message_violated (c : Cfg) (s s' : State) (es : List Event) (q : Peer) (m : ConMessageType)
    (rest : List (Peer × ConMessageType)) (hm : (∃ r, m = .request r) ∨ ∃ r, m = .cancel r)
    (hi : s.inbox = (q, m) :: rest) (hr : Run c s es s') :
    s'.man = .dead ∨ (managerHeard es = [] ∧ ∃ t, s'.inbox = (q, m) :: t) := by
  induction hr with
  | nil => exact .inr ⟨rfl, rest, hi⟩
  | @snoc s1 s2 es e hr hs ih =>
    rcases ih with hd | ⟨hh, t, ht⟩
    · exact .inl (step_dead hd hs).1
    · cases hs with
      | msg e1 e2 e3 =>
        rw [ht] at e2
        simp only [List.cons.injEq, Prod.mk.injEq] at e2
        obtain ⟨⟨rfl, rfl⟩, _⟩ := e2
        cases e3 with
        | msg _ hp => rcases hm with ⟨r, rfl⟩ | ⟨r, rfl⟩ <;> cases hp
      | addPoisoned | addPanics | msgPanics | tickPanics | choosePanics => exact .inl rfl
      | _ =>
        refine .inr ⟨by rw [managerHeard_append, hh]; rfl, ?_⟩
        first
          | exact ⟨t, ht⟩
          | exact ⟨_, by simp only [setLink_inbox, ht]; rfl⟩

/-- How it goes: A sends a single `request`, as peers do. The manager dies; thereupon the downloaders of both peers die and both
connections are closed. -/
def oneRequest : List Event := twoJoin ++ [.read peerA (wire (.request ⟨0#32, 0#32, 16384#32⟩)),
  .parsed peerA (.request ⟨0#32, 0#32, 16384#32⟩), .handed peerA (.request ⟨0#32, 0#32, 16384#32⟩), .parsedAll peerA]

example : demo written twoPieces 3 oneRequest (fun s => s.inbox) = some [(peerA, .request ⟨0#32, 0#32, 16384#32⟩)] := by
  decide +kernel

example : demo written twoPieces 3
      (oneRequest ++ [.manDies, .dlDies peerA, .dlDies peerB, .conLeaves peerA, .conLeaves peerB])
      (fun s => (decide (s.man = .dead), decide ((s.links peerA).con = .ended), decide ((s.links peerB).con = .ended))) =
    some (true, true, true) := by decide +kernel

theorem Started.manager {pieces : List ID} {pl : Nat} {s : State} (h : Started pieces pl s) : Nargun.Started pieces s.tm :=
  ⟨h.some, h.parts.1⟩

/-- What is in the queue of the manager: messages of the wire that were recognised, reports of unreachable peers, and
reports of finished pieces. -/
theorem inbox_source {c : Cfg} {pieces : List ID} {pl : Nat} {s0 s : State} {es : List Event} (h0 : Started pieces pl s0)
    (h : Run c s0 es s) {q : Peer} {m : ConMessageType} (hq : (q, m) ∈ s.inbox) :
    (∃ w, wireMessage m = some w ∧ w ∈ messagesFrom q es) ∨ m = .unreachable ∨
      ∃ i bs, m = .finishedPiece i bs ∧ (i, bs) ∈ completedPieces es := by
  obtain ⟨_, _, _, hl, _, hb, _⟩ := h0.parts
  cases hw : wireMessage m with
  | some w =>
    refine .inl ⟨w, rfl, ?_⟩
    have h1 : (q, w) ∈ fromWire s.inbox := List.mem_filterMap.mpr ⟨(q, m), hq, by simp [hw]⟩
    have h2 := prefix_mem (run_box h hb).1 (List.mem_append_right _ h1)
    have h3 := (List.mem_filter.mp h2).1
    exact prefix_mem (run_hand h hl q).1 (List.mem_append_left _ (mem_ofPeer.mpr h3))
  | none =>
    cases m with
    | unreachable => exact .inr (.inl rfl)
    | finishedPiece i bs => exact .inr (.inr ⟨i, bs, rfl, C111_reports c pieces pl s0 s es h0 h q i bs hq⟩)
    | disconnected =>
      exfalso
      revert hq
      clear hw
      induction h with
      | nil => simp [hb]
      | @snoc s1 s2 es e hr hs ih =>
        intro hq
        cases hs with
        | @unreachable k e1 e2 e3 e4 =>
          rcases List.mem_append.mp hq with hq | hq
          · exact ih hq
          · simp at hq
        | @handOther k m t e1 e2 e3 e4 e5 =>
          rcases List.mem_append.mp hq with hq | hq
          · exact ih hq
          · simp only [List.mem_singleton, Prod.mk.injEq] at hq
            obtain ⟨_, rfl⟩ := hq
            have := (toPeers_wire e3).1
            simp [wireMessage] at this
        | @reported k i bs e1 e2 e3 e4 e5 =>
          rcases List.mem_append.mp hq with hq | hq
          · exact ih hq
          · simp at hq
        | @msg k m rest tm' e1 e2 e3 => exact ih (by rw [e2]; exact List.mem_cons_of_mem _ hq)
        | addPoisoned | addPanics | msgPanics | tickPanics | choosePanics => simp at hq
        | _ => exact ih hq
    | _ => simp [wireMessage] at hw

/-- A poisoned lock stays poisoned. -/
theorem run_unpoisoned {c : Cfg} {s s' : State} {e : Event} (hs : Step c s e s') (h : s'.poisoned = false) :
    s.poisoned = false := by
  cases hs <;> first | exact h | assumption | (simp at h; done)

/-- C115, the part that holds (and of C116): the manager is alive as long as the lock is not poisoned, no piece has been
completed, and all messages recognised so far are of the kinds that are implemented, with piece numbers of the torrent;
whatever else the peers send, in whatever order, and however the tasks are scheduled. A debug build also dies when a
counter overflows, for which holders of a piece have to be connected to again 65525 times (`C39_overflow_partial`). -/
theorem C115_survival_partial (c : Cfg) (pieces : List ID) (pl : Nat) (s0 s : State) (es : List Event)
    (h0 : Started pieces pl s0) (h : Run c s0 es s) (hp : s.poisoned = false) (hc : completedPieces es = [])
    (hn : c.p = .debug → ∀ i < pieces.length, rejoined pieces.length (managerEvents es) i < 65525)
    (hm : ∀ q, ∀ m ∈ messagesFrom q es, (∀ r, m ≠ .request r) ∧ (∀ r, m ≠ .cancel r) ∧
      ∀ i, m = .have_ i → i.toNat < pieces.length) :
    s.man ≠ .dead := by
  induction h with
  | nil => rw [h0.parts.2.2.1]; simp
  | @snoc s1 s2 es e hr hs ih =>
    have hn' : c.p = .debug → ∀ i < pieces.length, rejoined pieces.length (managerEvents es) i < 65525 := by
      intro hd i hi
      have := hn hd i hi
      rw [show managerEvents (es ++ [e]) = managerEvents es ++ managerEvents [e] from List.filterMap_append ..] at this
      exact Nat.lt_of_le_of_lt (TM.rejoined_mono _ _ _ _) this
    have hm' : ∀ q, ∀ m ∈ messagesFrom q es, (∀ r, m ≠ .request r) ∧ (∀ r, m ≠ .cancel r) ∧
        ∀ i, m = .have_ i → i.toNat < pieces.length := fun q m hq =>
      hm q m (by rw [messagesFrom_append]; exact List.mem_append_left _ hq)
    have hc' : completedPieces es = [] := by
      rw [completedPieces_append] at hc
      exact (List.append_eq_nil_iff.mp hc).1
    have hp' := run_unpoisoned hs hp
    have hi := ih hp' hc' hn' hm'
    obtain ⟨t1, t2⟩ := tm_run hr h0.parts.2.2.1
    obtain ⟨_, _, _, l1, l2, l3⟩ := C35_limits c.p pieces s0.tm s1.tm _ h0.manager t1
    cases hs with
    | addPoisoned e1 e2 => rw [hp'] at e2; cases e2
    | addPanics e1 e2 e3 =>
      obtain ⟨w1, _, w3⟩ := t2 _ _ _ (.inr e1)
      obtain ⟨r, hr'⟩ := l3 _ _ _ (.ok ()) w3 w1 (by simp)
      rw [e3] at hr'; cases hr'
    | tickPanics e1 e2 e3 => obtain ⟨r, hr'⟩ := l1; rw [e3] at hr'; cases hr'
    | choosePanics e1 e2 e3 => obtain ⟨r, hr'⟩ := l2; rw [e3] at hr'; cases hr'
    | @msgPanics q m rest e1 e2 e3 e4 =>
      have hq : (q, m) ∈ s1.inbox := by rw [e3]; exact List.mem_cons_self ..
      have hh : handled pieces.length m := by
        rcases inbox_source h0 hr hq with ⟨w, hw, hmw⟩ | rfl | ⟨i, bs, rfl, hcm⟩
        · obtain ⟨a1, a2, a3⟩ := hm' q w hmw
          cases m with
          | request r => simp only [wireMessage, Option.some.injEq] at hw; exact absurd hw.symm (a1 r)
          | cancel r => simp only [wireMessage, Option.some.injEq] at hw; exact absurd hw.symm (a2 r)
          | have_ i => simp only [wireMessage, Option.some.injEq] at hw; exact a3 i hw.symm
          | finishedPiece i bs => simp [wireMessage] at hw
          | _ => trivial
        · trivial
        · rw [hc'] at hcm; cases hcm
      obtain ⟨s', hs'⟩ := C39_no_crash_partial c.p pieces s0.tm s1.tm _ h0.manager t1 hn' q m hh
      rw [e4] at hs'; cases hs'
    | _ => first | exact hi | simp

/-- The talk above meets the conditions. -/
example : (∃ s, demo written twoPieces 3 twoTalk id = some s) ∧ completedPieces twoTalk = [] ∧
    (∀ m ∈ messagesFrom peerA twoTalk ++ messagesFrom peerB twoTalk, (match m with
      | .request _ => False | .cancel _ => False | .have_ i => i.toNat < 2 | _ => True)) := by
  refine ⟨Option.isSome_iff_exists.mp (by decide +kernel), by decide +kernel, ?_⟩
  have h : messagesFrom peerA twoTalk ++ messagesFrom peerB twoTalk =
    [.bitfield [0xc0], .unchoke, .port 6881#16, .have_ 1#32] := by decide +kernel
  rw [h]
  simp

/-! ## C116 -/

/-- C116, the part that holds: the lock is poisoned only by the death of a downloader; as long as none has died, it is not. -/
theorem C116_poisoned_by_death_partial (c : Cfg) (pieces : List ID) (pl : Nat) (s0 s : State) (es : List Event)
    (h0 : Started pieces pl s0) (h : Run c s0 es s) (hp : s.poisoned = true) : ∃ q, .dlDies q ∈ es := by
  induction h with
  | nil => rw [h0.parts.2.2.2.2.1] at hp; cases hp
  | @snoc s1 s2 es e hr hs ih =>
    cases hs with
    | @blockPanics q => exact ⟨q, List.mem_append_right _ (by simp)⟩
    | @takePanics q => exact ⟨q, List.mem_append_right _ (by simp)⟩
    | _ =>
      obtain ⟨q, hq⟩ := ih hp
      exact ⟨q, List.mem_append_left _ hq⟩

/-- C116 is false of the program: once the lock is poisoned, it stays so, and then the manager dies as soon as it has told any
further downloader to start a piece. -/
theorem C116_poison_violated (c : Cfg) (s s' : State) (es : List Event) (hp : s.poisoned = true) (hr : Run c s es s')
    (q : Peer) (i : Nat) (hash : ID) :
    s'.poisoned = true ∧ (∀ q i hash, .man (.start q i hash true) ∉ es) ∧
    (s'.man = .adding q i hash → ∀ e s'', Step c s' e s'' →
      s''.man = .adding q i hash ∨ (e = .manDies ∧ s''.man = .dead)) := by
  have main : s'.poisoned = true ∧ (∀ q i hash, .man (.start q i hash true) ∉ es) := by
    induction hr with
    | nil => exact ⟨hp, by simp⟩
    | @snoc s1 s2 es e hr hs ih =>
      refine ⟨?_, fun q i hash hm => ?_⟩
      · cases hb : s2.poisoned with
        | true => rfl
        | false => rw [run_unpoisoned hs hb] at ih; exact absurd ih.1 (by simp)
      · rcases List.mem_append.mp hm with hm | hm
        · exact ih.2 _ _ _ hm
        · simp only [List.mem_singleton] at hm
          subst hm
          cases hs with
          | add e1 e2 => rw [ih.1] at e2; cases e2
  refine ⟨main.1, main.2, fun hm e s'' hs => ?_⟩
  cases hs <;> first
    | exact .inl hm
    | exact .inr ⟨rfl, rfl⟩
    | (simp_all; done)

/-- C116 is false of the program: a downloader that dies while it looks for blocks to request leaves the lock poisoned. -/
theorem C116_take_poisons_violated (c : Cfg) (s s' : State) (q : Peer) (hpc : (s.links q).dl.pc = .take)
    (hs : Step c s (.dlDies q) s') : s'.poisoned = true := by
  cases hs <;> simp_all

/-- C116, what a peer's blocks can do: as long as the connection and the manager are there, a downloader that waits for
blocks and commands dies only of a block at a multiple of 16384 bytes, of a piece it was told to download, at a place where it
has asked for a block, and of the length of the blocks at this place. Blocks it has not asked for do not kill it, even when
the lock is poisoned. -/
theorem C116_dies_of_block_partial (c : Cfg) (s s' : State) (q : Peer) (hpc : (s.links q).dl.pc = .select)
    (hcon : (s.links q).con ≠ .ended) (hman : s.man ≠ .dead) (hs : Step c s (.dlDies q) s') :
    ∃ b rest, (s.links q).blocks = b :: rest ∧ 16384 ∣ b.begin_.toNat ∧
      (s.links q).dl.currentPieces.get? b.index.toNat ≠ none ∧
      (∃ a ∈ (s.links q).dl.currentBlocks, a.blockIdx * 16384 = b.begin_.toNat) ∧
      b.begin_.toNat / 16384 < s.pend.blocksPerPiece ∧
      b.block.length = (if b.begin_.toNat / 16384 + 1 = s.pend.blocksPerPiece then s.pend.pieceLength % 16384 else 16384) := by
  have bounds : ∀ (i : Nat) (x : Bytes), s.pend.checkBlockBounds i x = .ok () →
      i < s.pend.blocksPerPiece ∧ x.length = (if i + 1 = s.pend.blocksPerPiece then s.pend.pieceLength % 16384 else 16384) := by
    intro i x h
    simp only [PendingPieces.checkBlockBounds] at h
    split at h
    · cases h
    · next hlt =>
      refine ⟨Nat.lt_of_not_le hlt, ?_⟩
      split at h
      · cases h
      · cases h
      · next he => exact (Nat.compare_eq_eq.mp he).symm
  cases hs with
  | @blockPoisoned _ b rest h1 h2 h3 h4 h5 h6 h7 =>
    simp only [reachesLock, Bool.and_eq_true, decide_eq_true_eq, List.any_eq_true] at h7
    obtain ⟨⟨⟨k1, k2⟩, a, k3, k4⟩, k5⟩ := h7
    obtain ⟨k6, k7⟩ := bounds _ _ k5
    refine ⟨b, rest, h5, Nat.dvd_of_mod_eq_zero k1, (by rintro h; rw [h] at k2; cases k2), ⟨a, k3, ?_⟩, k6, k7⟩
    rw [k4]; exact Nat.div_mul_cancel (Nat.dvd_of_mod_eq_zero k1)
  | @blockPanics _ b rest h1 h2 h3 h4 h5 h6 h7 =>
    simp only [Dl.foo] at h7
    split at h7
    · cases h7
    · next k1 =>
      have k1 : b.begin_.toNat % 16384 = 0 := Nat.eq_zero_of_not_pos k1
      split at h7
      · cases h7
      · next hash k2 =>
        split at h7
        · cases h7
        · next i k3 =>
          obtain ⟨hlt, hi, _⟩ := List.findIdx?_eq_some_iff_getElem.mp k3
          have hi : ((s.links q).dl.currentBlocks[i]).blockIdx = b.begin_.toNat / BLOCK_SIZE := by simpa using hi
          have hb : s.pend.checkBlockBounds (b.begin_.toNat / 16384) b.block = .ok () := by
            refine Classical.byContradiction fun hn => ?_
            have : s.pend.addBlockData c.p b.index.toNat (b.begin_.toNat / 16384) b.block = .ok (s.pend, .failed) := by
              simp only [PendingPieces.addBlockData]
            rw [show (BLOCK_SIZE : Nat) = 16384 from rfl, this] at h7
            simp [index, hlt] at h7
          obtain ⟨k6, k7⟩ := bounds _ _ hb
          refine ⟨b, rest, h5, Nat.dvd_of_mod_eq_zero k1, by rw [k2]; simp, ⟨_, List.getElem_mem hlt, ?_⟩, k6, k7⟩
          rw [hi]; exact Nat.div_mul_cancel (Nat.dvd_of_mod_eq_zero k1)
  | readdPoisoned _ _ _ h => rw [h] at hpc; cases hpc
  | takePoisoned _ _ _ h => rw [h] at hpc; cases hpc
  | takePanics _ _ _ h => rw [h] at hpc; cases hpc
  | noBlocks _ _ _ _ _ h => exact absurd h hcon
  | noCommands _ _ _ _ _ h => exact absurd h hman

/-- In a debug build no block has ever been counted as stored. -/
theorem run_pending_zero {c : Cfg} (hd : c.p = .debug) {s0 s : State} {es : List Event} (h : Run c s0 es s)
    (h0 : s0.pend.Inv) (hz : ∀ k q, s0.pend.data.get? k = some q → q.pending = 0) :
    ∀ k q, s.pend.data.get? k = some q → q.pending = 0 := by
  induction h with
  | nil => exact hz
  | @snoc s1 s2 es e hr hs ih =>
    have hi := run_pend_inv hr h0
    have one : ∀ {e' p'}, PendingPieces.Step c.p s1.pend e' p' → ∀ k q, p'.data.get? k = some q → q.pending = 0 := by
      intro e' p' st
      rw [hd] at st
      exact debug_pending_zero hi ih (.cons st .nil)
    cases hs with
    | @add k q i h tm' h1 h2 h3 h4 =>
      simp only [addPieceAnyway]
      split
      · next ha => exact one (.added ha)
      · exact ih
    | @dlBlock q b out rest d' pend' h1 h2 h3 h4 h5 h6 =>
      cases h6 with
      | block _ h =>
        rcases Dl.foo_cases h with ⟨_, _, rfl⟩ | ⟨_, _, _, _, _, e1, _, _, _, e2, _⟩
        · exact ih
        · exact one (.block e2)
    | @dlReadd q i d' pend' h1 h2 h3 h4 h5 =>
      cases h5 with
      | readd _ h =>
        simp only [Dl.readd] at h
        split at h
        · next ha => cases h; exact one (.added ha)
        · cases h; exact ih
        · cases h
    | @dlTake q got d' pend' h1 h2 h3 h4 h5 =>
      cases h5 with
      | take _ h =>
        simp only [Dl.take] at h
        split at h
        · obtain ⟨⟨p1, buf⟩, ht, h⟩ := Res.bind_eq_ok.mp h
          cases h
          obtain ⟨_, _, _, _, _, hsz, _⟩ := take_spec hi.wf ht
          intro k x hx
          have := hsz k
          have hx : p1.data.get? k = some x := hx
          rw [hx] at this
          cases hg : s1.pend.data.get? k with
          | none => rw [hg] at this; simp at this
          | some q0 =>
            rw [hg] at this
            simp only [Option.map_some, Option.some.injEq, Prod.mk.injEq] at this
            rw [this.1]; exact ih k q0 hg
        · cases h; exact ih
    | @blockPanics q b rest h1 h2 h3 h4 h5 h6 h7 =>
      simp only [leftBehind]
      cases ha : s1.pend.addBlockData c.p b.index.toNat (b.begin_.toNat / BLOCK_SIZE) b.block with
      | ok r => exact one (.block ha)
      | err => exact ih
      | panic => exact ih
    | @pendReorder m hm => exact one (.reorder hm)
    | _ => exact ih

/-- C116 is false of the program: in a debug build, a downloader that dies of a block it has asked for leaves the lock
poisoned, so that by `C116_poison_violated` the manager dies as soon as it starts a piece with anybody else. -/
theorem C116_block_poisons_violated (c : Cfg) (hd : c.p = .debug) (pieces : List ID) (pl : Nat) (s0 s s' : State)
    (es : List Event) (h0 : Started pieces pl s0) (h : Run c s0 es s) (q : Peer) (hpc : (s.links q).dl.pc = .select)
    (hcon : (s.links q).con ≠ .ended) (hman : s.man ≠ .dead) (hs : Step c s (.dlDies q) s') : s'.poisoned = true := by
  have n1 := PendingPieces.new_inv h0.parts.2.1
  have hi := run_pend_inv h n1.1
  have hz := run_pending_zero hd h n1.1 (by intro k q hq; rw [n1.2.2] at hq; simp at hq)
  cases hs with
  | blockPoisoned _ _ _ _ _ h6 => exact h6
  | @blockPanics _ b rest h1 h2 h3 h4 h5 h6 h7 =>
    simp only [leftBehind]
    cases ha : s.pend.addBlockData c.p b.index.toNat (b.begin_.toNat / BLOCK_SIZE) b.block with
    | err => rfl
    | panic => rfl
    | ok r =>
      rw [hd] at ha h7
      rcases PendingPieces.addBlock_cases hi ha with ⟨_, _, hr⟩ | ⟨_, piece, pend, hg, hp, _⟩ | ⟨_, piece, pend, bl, hg, hp, _⟩
      · simp only [Dl.foo] at h7
        split at h7
        · cases h7
        · split at h7
          · cases h7
          · split at h7
            · cases h7
            · next i k3 =>
              obtain ⟨hlt, _, _⟩ := List.findIdx?_eq_some_iff_getElem.mp k3
              rw [ha] at h7
              simp [index, hlt, hr] at h7
      · rw [hz _ _ hg] at hp; simp [usizeSub] at hp
      · rw [hz _ _ hg] at hp; simp [usizeSub] at hp
  | readdPoisoned _ _ _ h => simp_all
  | takePoisoned _ _ _ h => rw [h] at hpc; cases hpc
  | takePanics => rfl
  | noBlocks _ _ _ _ _ h => exact absurd h hcon
  | noCommands _ _ _ _ _ h => exact absurd h hman

/-- With an owner set and pieces of two blocks, A is asked for both blocks of the first piece and sends the second one. -/
def halfPiece : List Event := twoTalk ++ [.man (.tick []), .choose peerA 0 hash1, .command peerA 0 hash1,
  .man (.start peerA 0 hash1 true), .dl peerA (.start hash1 0), .dl peerA (.take [.new 0 0, .new 0 1]),
  .dl peerA (.request (.new 0 0) ⟨0#32, 0#32, 16384#32⟩), .dl peerA (.request (.new 0 1) ⟨0#32, 16384#32, 16384#32⟩),
  .dl peerA .loop, .read peerA (wire (.piece ⟨0#32, 16384#32, [7]⟩)), .parsed peerA (.piece ⟨0#32, 16384#32, [7]⟩),
  .handed peerA (.piece ⟨0#32, 16384#32, [7]⟩)]

/-- The situation of `C116_dies_of_block_partial`: the downloader of A dies of the block it has asked for. -/
example : ∃ s0 s s', Started twoPieces 16385 s0 ∧ Run repaired s0 halfPiece s ∧ (s.links peerA).dl.pc = .select ∧
    (s.links peerA).con ≠ .ended ∧ s.man ≠ .dead ∧ Step repaired s (.dlDies peerA) s' := by
  have h1 : demo repaired twoPieces 16385 halfPiece (fun s => (decide ((s.links peerA).dl.pc = .select),
      decide ((s.links peerA).con ≠ .ended), decide (s.man ≠ .dead), (attempt repaired s (.dlDies peerA)).isSome)) =
    some (true, true, true, true) := by decide +kernel
  obtain ⟨s0, s, h0, h, hf⟩ := run_of_demo (by decide) h1
  simp only [Prod.mk.injEq, decide_eq_true_eq, Option.isSome_iff_exists] at hf
  obtain ⟨f1, f2, f3, s', f4⟩ := hf
  exact ⟨s0, s, s', h0, h, f1, f2, f3, attempt_sound f4⟩

/-- The situation of `C116_block_poisons_violated`, in a debug build. -/
example : demo { repaired with p := .debug } twoPieces 16385 (halfPiece ++ [.dlDies peerA]) (fun s => s.poisoned) =
    some true := by decide +kernel

/-- In a release build the same block kills the downloader at a `todo!()`, but does not poison the lock. -/
example : demo repaired twoPieces 16385 (halfPiece ++ [.dlDies peerA]) (fun s => s.poisoned) = some false := by
  decide +kernel

/-- The first peer sends a bitfield and `unchoke`, the second a bitfield and `unchoke`: all anybody ever does. The downloader
of the first one dies on its first block and poisons the lock; the manager dies when it turns to the second one. -/
def twoSeeds : List Event := twoJoin ++ [
  .read peerA (wireAll [.bitfield [0xc0], .unchoke]), .parsed peerA (.bitfield [0xc0]), .handed peerA (.bitfield [0xc0]),
  .parsed peerA .unchoke, .handed peerA .unchoke, .parsedAll peerA,
  .read peerB (wireAll [.bitfield [0xc0], .unchoke]), .parsed peerB (.bitfield [0xc0]), .handed peerB (.bitfield [0xc0]),
  .parsed peerB .unchoke, .handed peerB .unchoke, .parsedAll peerB,
  .man (.msg peerA (.bitfield [0xc0])), .man (.msg peerA .unchoke), .man (.msg peerB (.bitfield [0xc0])),
  .man (.msg peerB .unchoke), .man (.tick []), .choose peerA 0 hash1, .command peerA 0 hash1,
  .man (.start peerA 0 hash1 true), .dl peerA (.start hash1 0), .dlDies peerA,
  .choose peerB 0 hash1, .command peerB 0 hash1]

example : demo written twoPieces 3 twoSeeds (fun s => (s.poisoned, decide (s.man = .adding peerB 0 hash1))) =
    some (true, true) := by decide +kernel

example : demo written twoPieces 3 (twoSeeds ++ [.manDies]) (fun s => decide (s.man = .dead)) = some true := by
  decide +kernel

/-! ## C117 -/

/-- The connection of `q` is beyond its handshake, and no report that would free its place is on the way. -/
structure Settled (q : Peer) (s : State) : Prop where
  con : (s.links q).con ≠ .handshake ∧ (s.links q).con ≠ .unreachable
  inbox : (q, .unreachable) ∉ s.inbox ∧ (q, .disconnected) ∉ s.inbox

theorem step_settled {c : Cfg} {s s' : State} {e : Event} {q : Peer} (h : Settled q s) (hs : Step c s e s') :
    Settled q s' := by
  obtain ⟨⟨c1, c2⟩, i1, i2⟩ := h
  have key : ∀ (k : Peer) (l : Link), (k = q → l.con ≠ .handshake ∧ l.con ≠ .unreachable) →
      ((s.setLink k l).links q).con ≠ .handshake ∧ ((s.setLink k l).links q).con ≠ .unreachable := by
    intro k l hl
    simp only [setLink_links]
    split
    · next e => exact hl e.symm
    · exact ⟨c1, c2⟩
  cases hs with
  | @shakeOk k h1 h2 => exact ⟨key _ _ (fun _ => by simp), i1, i2⟩
  | @shakeFails k h1 h2 => exact ⟨key _ _ (fun e => by subst e; exact absurd h2 c1), i1, i2⟩
  | @unreachable k h1 h2 h3 h4 =>
    have hk : k ≠ q := fun e => by subst e; exact c2 h2
    exact ⟨key _ _ (fun e => absurd e hk), by simp [i1, Ne.symm hk], by simp [i2]⟩
  | @unreachableLost k h1 h2 h3 => exact ⟨key _ _ (fun _ => by simp [Link.conEnds]), i1, i2⟩
  | @handOther k m t h1 h2 h3 h4 h5 =>
    have hw := (toPeers_wire h3).1
    refine ⟨key _ _ (fun _ => by simp), ?_, ?_⟩
    · intro hm
      rcases List.mem_append.mp hm with hm | hm
      · exact i1 hm
      · simp only [List.mem_singleton, Prod.mk.injEq] at hm
        rw [← hm.2] at hw; simp [wireMessage] at hw
    · intro hm
      rcases List.mem_append.mp hm with hm | hm
      · exact i2 hm
      · simp only [List.mem_singleton, Prod.mk.injEq] at hm
        rw [← hm.2] at hw; simp [wireMessage] at hw
  | @reported k i bs h1 h2 h3 h4 h5 =>
    exact ⟨key _ _ (fun e => by subst e; exact ⟨c1, c2⟩), by simp [i1], by simp [i2]⟩
  | @msg k m rest tm' e1 e2 e3 =>
    rw [e2] at i1 i2
    exact ⟨⟨c1, c2⟩, fun h => i1 (List.mem_cons_of_mem _ h), fun h => i2 (List.mem_cons_of_mem _ h)⟩
  | addPoisoned | addPanics | msgPanics | tickPanics | choosePanics => exact ⟨⟨c1, c2⟩, by simp, by simp⟩
  | _ =>
    refine ⟨?_, i1, i2⟩
    first
      | exact ⟨c1, c2⟩
      | exact key _ _ (fun e => by subst e; exact ⟨c1, c2⟩)
      | exact key _ _ (fun _ => by simp [Link.conEnds])

theorem run_settled {c : Cfg} {s s' : State} {es : List Event} {q : Peer} (h : Settled q s) (hr : Run c s es s') :
    Settled q s' := by
  induction hr with
  | nil => exact h
  | snoc _ hs ih => exact step_settled ih hs

/-- After a successful handshake the connection is settled. -/
theorem shaken_settled {c : Cfg} {pieces : List ID} {pl : Nat} {s0 s : State} {es : List Event} (h0 : Started pieces pl s0)
    (h : Run c s0 es s) {q : Peer} (hq : .shake q true ∈ es) : Settled q s := by
  obtain ⟨_, _, _, hl, _, hb, _⟩ := h0.parts
  have hdisc : ∀ {es s}, Run c s0 es s → (q, ConMessageType.disconnected) ∉ s.inbox := by
    intro es s h hm
    rcases inbox_source h0 h hm with ⟨w, hw, _⟩ | hw | ⟨_, _, hw, _⟩
    · simp [wireMessage] at hw
    · cases hw
    · cases hw
  suffices hi : ((s.links q).con = .handshake ∨ (s.links q).con = .unreachable → (q, .unreachable) ∉ s.inbox) ∧
      (.shake q true ∈ es → Settled q s) from hi.2 hq
  clear hq
  induction h with
  | nil => exact ⟨by simp [hb], by simp⟩
  | @snoc s1 s2 es e hr hs ih =>
    obtain ⟨j1, j2⟩ := ih
    refine ⟨?_, fun hm => ?_⟩
    · have key : ∀ (k : Peer) (l : Link), (k = q → (l.con = .handshake ∨ l.con = .unreachable →
          (s1.links q).con = .handshake ∨ (s1.links q).con = .unreachable)) →
          ((s1.setLink k l).links q).con = .handshake ∨ ((s1.setLink k l).links q).con = .unreachable →
          (q, .unreachable) ∉ s1.inbox := by
        intro k l hl hc
        simp only [setLink_links] at hc
        split at hc
        · next e => exact j1 (hl e.symm hc)
        · exact j1 hc
      cases hs with
      | @shakeFails k h1 h2 => exact key _ _ (fun e _ => by subst e; exact .inl h2)
      | @unreachable k h1 h2 h3 h4 =>
        intro hc
        have hk : k ≠ q := fun e => by subst e; simp [Link.conEnds] at hc
        have := key _ _ (fun e => absurd e hk) hc
        simp [this, Ne.symm hk]
      | @handOther k m t h1 h2 h3 h4 h5 =>
        intro hc hm
        have := key _ _ (fun _ h => by simp at h) hc
        rcases List.mem_append.mp hm with hm | hm
        · exact this hm
        · simp only [List.mem_singleton, Prod.mk.injEq] at hm
          have hw := (toPeers_wire h3).1
          rw [← hm.2] at hw; simp [wireMessage] at hw
      | @reported k i bs h1 h2 h3 h4 h5 =>
        intro hc hm
        have := key k { s1.links k with report := none } (fun e h => by subst e; exact h) hc
        rcases List.mem_append.mp hm with hm | hm
        · exact this hm
        · simp at hm
      | @msg k m rest tm' e1 e2 e3 =>
        intro hc hm
        exact j1 hc (by rw [e2]; exact List.mem_cons_of_mem _ hm)
      | addPoisoned | addPanics | msgPanics | tickPanics | choosePanics => intro _; simp
      | _ =>
        first
          | exact j1
          | exact key _ _ (fun e h => by subst e; exact h)
          | exact key _ _ (fun e h => by simp [Link.conEnds] at h)
    · rcases List.mem_append.mp hm with hm | hm
      · exact step_settled (j2 hm) hs
      · simp only [List.mem_singleton] at hm
        subst hm
        cases hs with
        | shakeOk h1 h2 => exact ⟨by simp, j1 (.inl h2), fun h => hdisc hr h⟩

/-- A settled peer that the manager counts as active stays so. -/
theorem settled_active {c : Cfg} {pieces : List ID} {pl : Nat} {s0 s s' : State} {es es' : List Event}
    (h0 : Started pieces pl s0) (h : Run c s0 es s) {q : Peer} (hq : Settled q s) (ha : q ∈ s.tm.activePeers.keys)
    (hr : Run c s es' s') : q ∈ s'.tm.activePeers.keys := by
  obtain ⟨i0, i1, _, _⟩ := h0.tm_inv
  have active : ∀ {es s}, Run c s0 es s →
      (q ∈ s.tm.activePeers.keys ↔ (view pieces.length q (managerEvents es)).isSome = true) := by
    intro es s h
    rw [(TM.run_inv (tm_run h h0.parts.2.2.1).1 i0 i1).2.2 q, Option.isSome_map]
    cases hg : s.tm.activePeers.get? q with
    | none => simp [Map.get?_eq_none.mp hg]
    | some v => simp; exact List.mem_map.mpr ⟨_, Map.mem_of_get? hg, rfl⟩
  rw [active h] at ha
  rw [active (h.append hr)]
  induction hr with
  | nil => simpa using ha
  | @snoc s1 s2 es2 e hr hs ih =>
    have hset := run_settled hq hr
    rw [← List.append_assoc, managerEvents_snoc]
    cases e with
    | man t =>
      simp only
      have hv : view pieces.length q (managerEvents (es ++ es2) ++ [t]) =
          viewStep pieces.length q (view pieces.length q (managerEvents (es ++ es2))) t := by
        simp only [view, List.foldl_append, List.foldl_cons, List.foldl_nil]
      rw [hv]
      obtain ⟨v, hv⟩ := Option.isSome_iff_exists.mp ih
      rw [hv]
      cases t with
      | msg k m =>
        simp only [viewStep]
        split
        · next hk =>
          subst hk
          have hm : (k, m) ∈ s1.inbox := by
            cases hs with
            | msg _ e2 _ => rw [e2]; exact List.mem_cons_self ..
          cases m with
          | unreachable => exact absurd hm hset.inbox.1
          | disconnected => exact absurd hm hset.inbox.2
          | bitfield d => simp only [Option.bind_some, PeerView.hear]; split <;> rfl
          | _ => rfl
        · rfl
      | tick batch => simp only [viewStep]; split <;> rfl
      | _ => rfl
    | _ => simpa using ih

/-- C117 is false of the program: once the handshake with a peer has succeeded and the manager counts it as active, it does
so for ever, whatever happens: also after the connection is lost. -/
theorem C117_never_freed_violated (c : Cfg) (pieces : List ID) (pl : Nat) (s0 s s' : State) (es es' : List Event)
    (h0 : Started pieces pl s0) (h : Run c s0 es s) (q : Peer) (hq : .shake q true ∈ es)
    (ha : q ∈ s.tm.activePeers.keys) (hr : Run c s es' s') : q ∈ s'.tm.activePeers.keys :=
  settled_active h0 h (shaken_settled h0 h hq) ha hr

theorem tick_full {p : Profile} {s s' : TM} {batch : List Peer} (hl : s.activePeers.length = 10)
    (h : s.beginTick p = .ok (s', batch)) : batch = [] := by
  simp only [TM.beginTick, TM.refreshPeerList, hl] at h
  obtain ⟨⟨s1, b⟩, h1, h⟩ := Res.bind_eq_ok.mp h
  simp only at h
  obtain ⟨n, _, h⟩ := Res.bind_eq_ok.mp h
  simp only [Res.ok.injEq, Prod.mk.injEq] at h
  obtain ⟨free, hf, h1⟩ := Res.bind_eq_ok.mp h1
  have hz : free = 0 := by
    simpa [usizeSub] using hf.symm
  rw [if_pos hz] at h1
  cases h1
  exact h.2.symm

/-- ... so that after ten handshakes no other peer is ever connected to, even if all ten connections are lost. -/
theorem C117_ten_lost_violated (c : Cfg) (pieces : List ID) (pl : Nat) (s0 s s' : State) (es es' : List Event)
    (h0 : Started pieces pl s0) (h : Run c s0 es s) (qs : List Peer) (hn : qs.Nodup) (h10 : qs.length = 10)
    (hq : ∀ q ∈ qs, .shake q true ∈ es ∧ q ∈ s.tm.activePeers.keys) (hr : Run c s es' s') :
    connectedTo es' = [] := by
  induction hr with
  | nil => rfl
  | @snoc s1 s2 es2 e hr hs ih =>
    simp only [connectedTo, List.flatMap_append] at ih ⊢
    rw [ih]
    have hall : ∀ q ∈ qs, q ∈ s1.tm.activePeers.keys := fun q hm =>
      C117_never_freed_violated c pieces pl s0 s s1 es es2 h0 h q (hq q hm).1 (hq q hm).2 hr
    have hlen : s1.tm.activePeers.length = 10 := by
      have h1 := hn.length_le_of_subset hall
      have h2 := (C35_limits c.p pieces s0.tm s1.tm _ h0.manager (tm_run (h.append hr) h0.parts.2.2.1).1).1
      simp only [Map.keys, List.length_map] at h1
      omega
    cases e with
    | man t =>
      cases t with
      | tick batch =>
        cases hs with
        | tick _ ht =>
          cases ht with
          | tick _ hb => simp [tick_full hlen hb]
      | _ => rfl
    | _ => rfl

/-- Ten peers of which nothing is known but their addresses. -/
def tenPeers : List Peer := (List.range 10).map fun i => ⟨⟨⟨10#8, 0#8, 1#8, BitVec.ofNat 8 i⟩, 6881#16⟩⟩

/-- They are connected to, the handshakes succeed, and all ten connections are lost. -/
def tenLost : List Event := tenPeers.map (fun q => .man (.peers (.insert q))) ++ [.man (.tick tenPeers), .man .nothing] ++
  tenPeers.map (fun q => .shake q true) ++ tenPeers.map (fun q => .readFails q)

/-- Afterwards there is an eleventh peer to connect to, and the next tick does not. -/
example : (∀ q ∈ tenPeers, Event.shake q true ∈ tenLost) ∧ tenPeers.Nodup ∧
    demo written twoPieces 3 (tenLost ++ [.man (.peers (.insert peerA)), .man (.tick [])])
      (fun s => (decide (∀ q ∈ tenPeers, q ∈ s.tm.activePeers.keys ∧ (s.links q).con = .ended),
        s.tm.peers.data.get? peerA)) = some (true, some .unknown) := by decide +kernel

theorem view_snoc (n : Nat) (q : Peer) (es : List TM.Event) (t : TM.Event) :
    view n q (es ++ [t]) = viewStep n q (view n q es) t := by
  simp only [view, List.foldl_append, List.foldl_cons, List.foldl_nil]

theorem active_iff {c : Cfg} {pieces : List ID} {pl : Nat} {s0 s : State} {es : List Event} (h0 : Started pieces pl s0)
    (h : Run c s0 es s) (q : Peer) :
    q ∈ s.tm.activePeers.keys ↔ (view pieces.length q (managerEvents es)).isSome = true := by
  obtain ⟨i0, i1, _, _⟩ := h0.tm_inv
  rw [(TM.run_inv (tm_run h h0.parts.2.2.1).1 i0 i1).2.2 q, Option.isSome_map]
  cases hg : s.tm.activePeers.get? q with
  | none => simp [Map.get?_eq_none.mp hg]
  | some v => simp; exact List.mem_map.mpr ⟨_, Map.mem_of_get? hg, rfl⟩

/-- The failed handshake of a peer is reported once. -/
def budget (q : Peer) (s : State) : Nat :=
  if (s.links q).con = .handshake ∨ (s.links q).con = .unreachable then 1 else 0

structure OnceInv (q : Peer) (es : List Event) (s : State) : Prop where
  once : (managerHeard es).count (q, .unreachable) + s.inbox.count (q, .unreachable) + budget q s ≤ 1
  ended : (q, .unreachable) ∈ managerHeard es ++ s.inbox → (s.links q).con = .ended
  kept : s.man ≠ .dead → .unreachable q ∈ es → (q, .unreachable) ∈ managerHeard es ++ s.inbox

theorem run_once {c : Cfg} {pieces : List ID} {pl : Nat} {s0 s : State} {es : List Event} (h0 : Started pieces pl s0)
    (h : Run c s0 es s) (q : Peer) : OnceInv q es s := by
  obtain ⟨_, _, _, hl, _, hb, _⟩ := h0.parts
  induction h with
  | nil => exact ⟨by simp [hb, managerHeard, budget, hl, Link.fresh], by simp [hb, managerHeard], by simp⟩
  | @snoc s1 s2 es e hr hs ih =>
    obtain ⟨o, n, k⟩ := ih
    -- steps that touch neither the queue nor the manager
    have plain : ∀ (x : Peer) (l : Link) (s2 : State) (e : Event), managerHeard (es ++ [e]) = managerHeard es → s2.inbox = s1.inbox →
        s2.links = (s1.setLink x l).links → s2.man = s1.man → e ≠ .unreachable q →
        (x = q → ((s1.links q).con = .ended → l.con = .ended) ∧ (l.con = .handshake ∨ l.con = .unreachable →
          (s1.links q).con = .handshake ∨ (s1.links q).con = .unreachable)) → OnceInv q (es ++ [e]) s2 := by
      intro x l s2 e hh hi hlk hm he hl
      refine ⟨?_, ?_, ?_⟩
      · rw [hh, hi]
        have : budget q s2 ≤ budget q s1 := by
          by_cases hx : q = x
          · have := (hl hx.symm).2
            have hl' : s2.links q = l := by rw [hlk, setLink_links, if_pos hx]
            simp only [budget, hl']
            split
            · next h => rw [if_pos (this h)]; exact Nat.le_refl _
            · exact Nat.zero_le _
          · have hl' : s2.links q = s1.links q := by rw [hlk, setLink_links, if_neg hx]
            simp only [budget, hl']
            exact Nat.le_refl _
        omega
      · rw [hh, hi]
        intro hq
        have := n hq
        simp only [hlk, setLink_links]
        split
        · next hx => exact (hl hx.symm).1 this
        · exact this
      · rw [hh, hi, hm]
        intro hd hq
        refine k hd ?_
        rcases List.mem_append.mp hq with hq | hq
        · exact hq
        · exact absurd (List.mem_singleton.mp hq).symm he
    have heard : ∀ e, (∀ q m, e ≠ Event.man (.msg q m)) → managerHeard (es ++ [e]) = managerHeard es := by
      intro e he
      rw [managerHeard_append]
      cases e with
      | man t => cases t with
        | msg q m => exact absurd rfl (he q m)
        | _ => simp [managerHeard]
      | _ => simp [managerHeard]
    have same : ∀ (s2 : State) (e : Event), (∀ q m, e ≠ Event.man (.msg q m)) → s2.inbox = s1.inbox → s2.links = s1.links →
        (s2.man = .dead ↔ s1.man = .dead) → e ≠ .unreachable q → OnceInv q (es ++ [e]) s2 := by
      intro s2 e hh hi hlk hm he
      refine ⟨?_, ?_, ?_⟩
      · rw [heard e hh, hi, show budget q s2 = budget q s1 by simp only [budget, hlk]]; exact o
      · rw [heard e hh, hi, hlk]; exact n
      · rw [heard e hh, hi]
        intro hd hq
        refine k (fun h => hd (hm.mpr h)) ?_
        rcases List.mem_append.mp hq with hq | hq
        · exact hq
        · exact absurd (List.mem_singleton.mp hq).symm he
    have dies : OnceInv q (es ++ [.manDies]) s1.manDies := by
      refine ⟨?_, ?_, ?_⟩
      · rw [heard _ (by simp)]
        show _ + ([] : List (Peer × ConMessageType)).count (q, ConMessageType.unreachable) + budget q s1 ≤ 1
        rw [List.count_nil]
        omega
      · rw [heard _ (by simp)]
        intro hq
        have hq : (q, ConMessageType.unreachable) ∈ managerHeard es := by simpa [State.manDies] using hq
        exact n (List.mem_append_left _ hq)
      · intro h; exact absurd rfl h
    have offered : ∀ (x : Peer) (l : Link) (m : ConMessageType) (e : Event), (∀ q m, e ≠ Event.man (.msg q m)) →
        m ≠ .unreachable → e ≠ .unreachable q →
        (x = q → ((s1.links q).con = .ended → l.con = .ended) ∧ (l.con = .handshake ∨ l.con = .unreachable →
          (s1.links q).con = .handshake ∨ (s1.links q).con = .unreachable)) →
        OnceInv q (es ++ [e]) { s1.setLink x l with inbox := s1.inbox ++ [(x, m)] } := by
      intro x l m e hh hm he hl
      obtain ⟨p1, p2, p3⟩ := plain x l (s1.setLink x l) e (heard e hh) rfl rfl rfl he hl
      have hc : (s1.inbox ++ [(x, m)]).count (q, ConMessageType.unreachable) = s1.inbox.count (q, .unreachable) := by
        rw [List.count_append, List.count_singleton]
        simp [hm]
      have hmem : (q, ConMessageType.unreachable) ∈ s1.inbox ++ [(x, m)] ↔ (q, ConMessageType.unreachable) ∈ s1.inbox := by
        simp [Ne.symm hm]
      refine ⟨?_, ?_, ?_⟩
      · show _ + (s1.inbox ++ [(x, m)]).count (q, ConMessageType.unreachable) + budget q (s1.setLink x l) ≤ 1
        rw [hc]; exact p1
      · intro hq
        refine p2 ?_
        rcases List.mem_append.mp hq with hq | hq
        · exact List.mem_append_left _ hq
        · exact List.mem_append_right _ (hmem.mp hq)
      · intro hd hq
        rcases List.mem_append.mp (p3 hd hq) with hq | hq
        · exact List.mem_append_left _ hq
        · exact List.mem_append_right _ (hmem.mpr hq)
    cases hs with
    | @msg x m rest tm' e1 e2 e3 =>
      have hh : managerHeard (es ++ [.man (.msg x m)]) = managerHeard es ++ [(x, m)] := by rw [managerHeard_append]; rfl
      have hperm : managerHeard es ++ s1.inbox = (managerHeard es ++ [(x, m)]) ++ rest := by rw [e2]; simp
      refine ⟨?_, ?_, ?_⟩
      · rw [hh]
        show (managerHeard es ++ [(x, m)]).count _ + rest.count _ + budget q s1 ≤ 1
        rw [← List.count_append] at o ⊢
        rw [← hperm]; exact o
      · rw [hh]
        show _ ∈ (managerHeard es ++ [(x, m)]) ++ rest → (s1.links q).con = _
        rw [← hperm]; exact n
      · rw [hh]
        show s1.man ≠ _ → _ → _ ∈ (managerHeard es ++ [(x, m)]) ++ rest
        rw [← hperm]
        intro hd hq
        exact k hd (by simpa using hq)
    | @unreachable x h1 h2 h3 h4 =>
      by_cases hx : x = q
      · subst hx
        have hnot : (x, ConMessageType.unreachable) ∉ managerHeard es ++ s1.inbox := fun hq => by
          have := n hq; rw [h2] at this; cases this
        rw [List.mem_append, not_or] at hnot
        refine ⟨?_, ?_, ?_⟩
        · rw [heard _ (by simp)]
          simp only [budget, setLink_links, if_true, Link.conEnds, List.count_append]
          rw [List.count_eq_zero.mpr hnot.1, List.count_eq_zero.mpr hnot.2]
          simp
        · intro _; simp [Link.conEnds]
        · intro _ _
          exact List.mem_append_right _ (List.mem_append_right _ (by simp))
      · obtain ⟨p1, p2, p3⟩ := plain x (s1.links x).conEnds (s1.setLink x (s1.links x).conEnds) (.unreachable x)
          (heard _ (by simp)) rfl rfl rfl (by simpa using hx) (fun e => absurd e hx)
        have hmem : (q, ConMessageType.unreachable) ∈ s1.inbox ++ [(x, .unreachable)] ↔
            (q, ConMessageType.unreachable) ∈ s1.inbox := by simp [Ne.symm hx]
        refine ⟨?_, ?_, ?_⟩
        · show _ + (s1.inbox ++ [(x, ConMessageType.unreachable)]).count (q, ConMessageType.unreachable) +
            budget q (s1.setLink x (s1.links x).conEnds) ≤ 1
          rw [List.count_append, List.count_singleton]
          simpa [hx] using p1
        · intro hq
          refine p2 ?_
          rcases List.mem_append.mp hq with hq | hq
          · exact List.mem_append_left _ hq
          · exact List.mem_append_right _ (hmem.mp hq)
        · intro hd hq
          rcases List.mem_append.mp (p3 hd hq) with hq | hq
          · exact List.mem_append_left _ hq
          · exact List.mem_append_right _ (hmem.mpr hq)
    | @unreachableLost x h1 h2 h3 =>
      by_cases hx : x = q
      · subst hx
        have hb : budget x (s1.setLink x (s1.links x).conEnds) = 0 := by simp [budget, Link.conEnds]
        refine ⟨?_, ?_, ?_⟩
        · rw [heard _ (by simp), hb]
          show _ + s1.inbox.count _ + 0 ≤ 1
          omega
        · intro _; simp [Link.conEnds]
        · intro hd; exact absurd h3 hd
      · exact plain x _ _ _ (heard _ (by simp)) rfl rfl rfl (by simpa using hx) (fun e => absurd e hx)
    | addPoisoned | addPanics | msgPanics | tickPanics | choosePanics => exact dies
    | @handOther x m t h1 h2 h3 h4 h5 =>
      refine offered x _ t _ (by simp) ?_ (by simp) (fun e => by subst e; simp [h2])
      intro e
      have hw := (toPeers_wire h3).1
      rw [e] at hw; simp [wireMessage] at hw
    | @reported x i bs h1 h2 h3 h4 h5 =>
      exact offered x _ _ _ (by simp) (by simp) (by simp) (fun e => by subst e; simp)
    | shakeOk h1 h2 | shakeFails h1 h2 =>
      exact plain _ _ _ _ (heard _ (by simp)) rfl rfl rfl (by simp) (fun e => by subst e; simp [h2])
    | read h1 h2 | parsed h1 h2 | parsedAll h1 h2 | handBlock h1 h2 | handBlockLost h1 h2 | handPort h1 h2
    | handPortLost h1 h2 | handOtherLost h1 h2 =>
      exact plain _ _ _ _ (heard _ (by simp)) rfl rfl rfl (by simp) (fun e => by subst e; simp [h2])
    | readFails | conDies | conLeaves =>
      exact plain _ _ _ _ (heard _ (by simp)) rfl rfl rfl (by simp) (fun e => by subst e; simp [Link.conEnds])
    | choose h1 | putFails h1 | add h1 | tick h1 | nothing h1 | refused h1 =>
      exact same _ _ (by simp) rfl rfl (by simp [h1]) (by simp)
    | @put x i hash h1 h2 h3 =>
      have := plain x { s1.links x with commands := (s1.links x).commands ++ [(hash, i)] }
        (s1.setLink x { s1.links x with commands := (s1.links x).commands ++ [(hash, i)] })
        (.command x i hash) (heard _ (by simp)) rfl rfl rfl (by simp) (fun e => by subst e; simp)
      refine ⟨?_, ?_, ?_⟩
      · exact this.once
      · exact this.ended
      · intro hd; exact this.kept (by rw [setLink_man, h1]; simp)
    | _ =>
      first
        | exact same _ _ (by simp) rfl rfl Iff.rfl (by simp)
        | exact plain _ _ _ _ (heard _ (by simp)) rfl rfl rfl (by simp) (fun e => by subst e; simp)
        | exact plain _ _ _ _ (heard _ (by simp)) rfl rfl rfl (by simp) (fun e => by subst e; simp [Link.dlEnds])

/-- C117, the part that holds: a peer with which the handshake fails is reported to the manager (unless that is dead), once;
and when the manager hears of it, the peer is no longer active. -/
theorem C117_unreachable_freed_partial (c : Cfg) (pieces : List ID) (pl : Nat) (s0 s : State) (es : List Event)
    (h0 : Started pieces pl s0) (h : Run c s0 es s) (q : Peer) :
    (s.man ≠ .dead → .unreachable q ∈ es → (q, .unreachable) ∈ managerHeard es ++ s.inbox) ∧
    (managerHeard es ++ s.inbox).count (q, .unreachable) ≤ 1 ∧
    ∀ s', Step c s (.man (.msg q .unreachable)) s' → q ∉ s'.tm.activePeers.keys := by
  have hi := run_once h0 h q
  refine ⟨hi.kept, by rw [List.count_append]; have := hi.once; omega, fun s' hs => ?_⟩
  rw [active_iff h0 (.snoc h hs), managerEvents_snoc]
  simp only [view_snoc, viewStep]
  cases view pieces.length q (managerEvents es) <;> simp [PeerView.hear]

/-- A peer whose handshake fails. -/
def unreachableA : List Event := [.man (.peers (.insert peerA)), .man (.tick [peerA]), .man .nothing, .shake peerA false,
  .unreachable peerA]

example : demo written twoPieces 3 unreachableA (fun s => (s.inbox, decide (peerA ∈ s.tm.activePeers.keys))) =
    some ([(peerA, .unreachable)], true) := by decide +kernel

example : demo written twoPieces 3 (unreachableA ++ [.man (.msg peerA .unreachable)])
    (fun s => (s.inbox, decide (peerA ∈ s.tm.activePeers.keys))) = some ([], false) := by decide +kernel

/-! ## C118 -/

theorem step_ended {c : Cfg} {s s' : State} {e : Event} {q : Peer} (h : (s.links q).con = .ended) (hs : Step c s e s') :
    (s'.links q).con = .ended ∧ (∀ b, e ≠ .shake q b) ∧ (∀ b, e ≠ .read q b) ∧ (∀ m, e ≠ .parsed q m) ∧
      (∀ m, e ≠ .wrote q m) := by
  have key : ∀ (k : Peer) (l : Link), (k = q → l.con = .ended) → ((s.setLink k l).links q).con = .ended := by
    intro k l hl
    simp only [setLink_links]
    split
    · next e => exact hl e.symm
    · exact h
  cases hs with
  | @shakeOk k h1 h2 | @shakeFails k h1 h2 | @parsed k _ _ h1 h2 | @read k _ _ h1 h2 =>
    have hk : k ≠ q := fun e => by subst e; rw [h] at h2; cases h2
    exact ⟨key _ _ (fun e => absurd e hk), by simp [hk], by simp [hk], by simp [hk], by simp [hk]⟩
  | @wrote k m rest h1 h2 h3 =>
    have hk : k ≠ q := fun e => by subst e; simp [Link.Up, h] at h2
    exact ⟨key _ _ (fun e => absurd e hk), by simp, by simp, by simp, by simp [hk]⟩
  | @parsedAll k _ h1 h2 | @handBlock k _ h1 h2 | @handBlockLost k _ h1 h2 | @handPort k _ _ h1 h2
  | @handPortLost k _ h1 h2 | @handOther k _ _ h1 h2 | @handOtherLost k _ _ h1 h2 =>
    have hk : k ≠ q := fun e => by subst e; rw [h] at h2; cases h2
    exact ⟨key _ _ (fun e => absurd e hk), by simp, by simp, by simp, by simp⟩
  | _ =>
    refine ⟨?_, by simp, by simp, by simp, by simp⟩
    first
      | exact h
      | exact key _ _ (fun e => by subst e; exact h)
      | exact key _ _ (fun _ => by simp [Link.conEnds])

theorem run_ended {c : Cfg} {s s' : State} {es : List Event} {q : Peer} (h : (s.links q).con = .ended)
    (hr : Run c s es s') : (s'.links q).con = .ended ∧ (∀ b, .shake q b ∉ es) ∧ bytesFrom q es = [] ∧
      messagesFrom q es = [] ∧ writtenTo q es = [] := by
  induction hr with
  | nil => exact ⟨h, by simp, rfl, rfl, rfl⟩
  | @snoc s1 s2 es e hr hs ih =>
    obtain ⟨i1, i2, i3, i4, i5⟩ := ih
    obtain ⟨j1, j2, j3, j4, j5⟩ := step_ended i1 hs
    refine ⟨j1, fun b hb => ?_, ?_, ?_, ?_⟩
    · rcases List.mem_append.mp hb with hb | hb
      · exact i2 b hb
      · exact j2 b (List.mem_singleton.mp hb).symm
    · simp only [bytesFrom, readsFrom, List.filterMap_append, List.flatten_append] at i3 ⊢
      rw [i3]
      cases e with
      | read k b =>
        have hk : k ≠ q := fun e => j3 b (by rw [e])
        simp [hk]
      | _ => rfl
    · rw [messagesFrom_append, i4]
      cases e with
      | parsed k b =>
        have hk : k ≠ q := fun e => j4 b (by rw [e])
        simp [messagesFrom, hk]
      | _ => rfl
    · simp only [writtenTo, List.filterMap_append] at i5 ⊢
      rw [i5]
      cases e with
      | wrote k b =>
        have hk : k ≠ q := fun e => j5 b (by rw [e])
        simp [hk]
      | _ => rfl

/-- C118 is false of the program: when the manager has been told that a peer is unreachable and later chooses it for a
second try, no second try is made: in every continuation there is no handshake with it, nothing is read from it and nothing
written to it; and yet it counts as active for ever. -/
theorem C118_retry_violated (c : Cfg) (pieces : List ID) (pl : Nat) (s0 s1 s2 s' : State) (es es' : List Event)
    (h0 : Started pieces pl s0) (h : Run c s0 es s1) (q : Peer) (hu : (q, .unreachable) ∈ managerHeard es)
    (batch : List Peer) (hb : q ∈ batch) (hs : Step c s1 (.man (.tick batch)) s2) (hr : Run c s2 es' s') :
    (∀ b, .shake q b ∉ es') ∧ bytesFrom q es' = [] ∧ writtenTo q es' = [] ∧ q ∈ s'.tm.activePeers.keys := by
  have hi := run_once h0 h q
  have he := hi.ended (List.mem_append_left _ hu)
  have he2 := (step_ended he hs).1
  obtain ⟨_, r1, r2, _, r3⟩ := run_ended he2 hr
  refine ⟨r1, r2, r3, ?_⟩
  have h2 : Run c s0 (es ++ [.man (.tick batch)]) s2 := .snoc h hs
  have hset : Settled q s1 := by
    refine ⟨by simp [he], ?_, ?_⟩
    · have := hi.once
      have hp : 0 < (managerHeard es).count (q, ConMessageType.unreachable) := List.count_pos_iff.mpr hu
      exact List.count_eq_zero.mp (by omega)
    · intro hm
      rcases inbox_source h0 h hm with ⟨w, hw, _⟩ | hw | ⟨_, _, hw, _⟩
      · simp [wireMessage] at hw
      · cases hw
      · cases hw
  refine settled_active h0 h2 (step_settled hset hs) ?_ hr
  rw [active_iff h0 h2, managerEvents_snoc]
  simp only [view_snoc, viewStep, hb, if_true]
  rfl

/-- C118, the part that holds: the first time a peer is chosen, a connection to it is tried: its tasks are spawned, and the
handshake is what they do next. -/
theorem C118_first_try_partial (c : Cfg) (pieces : List ID) (pl : Nat) (s0 s1 s2 : State) (es : List Event)
    (h0 : Started pieces pl s0) (h : Run c s0 es s1) (q : Peer) (hn : q ∉ connectedTo es) (batch : List Peer)
    (hb : q ∈ batch) (hs : Step c s1 (.man (.tick batch)) s2) (ok : Bool) :
    ∃ s3, Step c s2 (.shake q ok) s3 := by
  have hc := run_conn h h0.parts.2.2.1 (started_conn h0)
  have hns : ¬ s1.Spawned q := by
    have h0s : ¬ s0.Spawned q := by
      obtain ⟨⟨ih, h1⟩, _⟩ := h0.parts
      simp only [TM.init] at h1
      obtain ⟨b, _, h1⟩ := Res.bind_eq_ok.mp h1
      simp only [Res.ok.injEq] at h1
      simp [State.Spawned, ← h1, Connection.new]
    clear hs hc
    induction h with
    | nil => exact h0s
    | @snoc s1 s2 es e hr hs ih =>
      simp only [connectedTo, List.flatMap_append, List.mem_append, not_or] at hn ih
      rw [step_spawned (run_conn hr h0.parts.2.2.1 (started_conn h0)) hs q, not_or]
      refine ⟨ih hn.1, fun hq => hn.2 ?_⟩
      cases e with
      | man t => cases t <;> first | (simpa [joinedBy, joined] using hq) | (simp [joinedBy, joined] at hq)
      | _ => simp [joinedBy] at hq
  have hf := hc.fresh q hns
  have hsp : s2.Spawned q := (step_spawned hc hs q).mpr (.inr hb)
  have hl : s2.links q = s1.links q := by cases hs; rfl
  have hcon : (s2.links q).con = .handshake := by rw [hl, hf]; rfl
  cases ok with
  | true => exact ⟨_, .shakeOk hsp hcon⟩
  | false => exact ⟨_, .shakeFails hsp hcon⟩

/-- The second try for A; it ends up as a ghost: active, its connection ended. -/
example : demo written twoPieces 3 (unreachableA ++ [.man (.msg peerA .unreachable), .man (.tick [peerA])])
    (fun s => (decide (peerA ∈ s.tm.activePeers.keys), decide ((s.links peerA).con = .ended))) = some (true, true) := by
  decide +kernel

end Swarm

end Nargun
