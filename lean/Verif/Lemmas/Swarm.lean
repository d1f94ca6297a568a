import Verif.Spec.Swarm
import Verif.Lemmas.Receiver
import Verif.Lemmas.Downloader
import Verif.Lemmas.TorrentManager

/-! # Lemmas about the torrent side as a whole -/

namespace Nargun

open Spec

/-! ## The inner loop of the receiver, message by message -/

open RecvState in
theorem RecvState.drain_one_some {s r : RecvState} {m : Message} (h : s.drain 1 = .ok (r, [m])) :
    s.drain (s.dataLen + 1) = (do
      let x ← r.drain (r.dataLen + 1)
      .ok (x.1, m :: x.2)) := by
  unfold drain at h ⊢
  split at h
  · simp at h
  rename_i h4
  rw [if_neg h4]
  obtain ⟨tail, ht, h⟩ := Res.bind_eq_ok.mp h
  obtain ⟨l, hl, h⟩ := Res.bind_eq_ok.mp h
  simp only [ht, hl, Res.ok_bind]
  simp only [] at h
  split at h
  · rename_i hle
    rw [if_pos hle]
    obtain ⟨o, ho, h⟩ := Res.bind_eq_ok.mp h
    simp only [ho, Res.ok_bind]
    cases o with
    | none => simp at h
    | some m' =>
      simp only at h ⊢
      obtain ⟨buf, hb, h⟩ := Res.bind_eq_ok.mp h
      simp only [hb, Res.ok_bind]
      simp only [drain, Res.ok_bind, Res.ok.injEq, Prod.mk.injEq, List.cons.injEq, and_true] at h
      obtain ⟨rfl, rfl⟩ := h
      have e : (BYTES_IN_LEN_PREFIX : Nat) = 4 := rfl
      rw [RecvState.drain_fuel s.dataLen (s.dataLen - (l + BYTES_IN_LEN_PREFIX) + 1) _ (by simp only; omega) (by simp only; omega)]
      rfl
  · simp at h

open RecvState in
theorem RecvState.drain_one_none {s r : RecvState} (h : s.drain 1 = .ok (r, [])) :
    s.drain (s.dataLen + 1) = .ok (r, []) := by
  unfold drain at h ⊢
  split at h
  · rename_i h4; rw [if_pos h4]; exact h
  rename_i h4
  rw [if_neg h4]
  obtain ⟨tail, ht, h⟩ := Res.bind_eq_ok.mp h
  obtain ⟨l, hl, h⟩ := Res.bind_eq_ok.mp h
  simp only [ht, hl, Res.ok_bind]
  simp only [] at h
  split at h
  · rename_i hle
    rw [if_pos hle]
    obtain ⟨o, ho, h⟩ := Res.bind_eq_ok.mp h
    simp only [ho, Res.ok_bind]
    cases o with
    | none => exact h
    | some m' =>
      simp only at h ⊢
      obtain ⟨buf, hb, h⟩ := Res.bind_eq_ok.mp h
      simp [drain] at h
  · rename_i hle; rw [if_neg hle]; exact h

theorem RecvState.run_snoc (s : RecvState) (stream : Bytes) (sched : List Nat) (n : Nat) :
    s.run stream (sched ++ [n]) = (do
      let x ← s.run stream sched
      let y ← x.1.iterate (x.2.1.take (min n x.1.capacity))
      .ok (y.1, x.2.1.drop (min n x.1.capacity), x.2.2 ++ y.2)) := by
  induction sched generalizing s stream with
  | nil =>
    simp only [List.nil_append, RecvState.run, Res.ok_bind]
    cases s.iterate (stream.take (min n s.capacity)) <;> simp
  | cons k sched ih =>
    simp only [List.cons_append, RecvState.run]
    cases s.iterate (stream.take (min k s.capacity)) with
    | ok y =>
      simp only [Res.ok_bind, ih]
      cases y.1.run (stream.drop (min k s.capacity)) sched with
      | ok x =>
        simp only [Res.ok_bind]
        cases x.1.iterate (x.2.1.take (min n x.1.capacity)) <;> simp
      | err => simp
      | panic => simp
    | err => simp
    | panic => simp

namespace Swarm

open TM

@[simp] theorem setLink_links (s : State) (q k : Peer) (l : Link) :
    (s.setLink q l).links k = if k = q then l else s.links k := rfl
@[simp] theorem setLink_tm (s : State) (q : Peer) (l : Link) : (s.setLink q l).tm = s.tm := rfl
@[simp] theorem setLink_man (s : State) (q : Peer) (l : Link) : (s.setLink q l).man = s.man := rfl
@[simp] theorem setLink_pend (s : State) (q : Peer) (l : Link) : (s.setLink q l).pend = s.pend := rfl
@[simp] theorem setLink_poisoned (s : State) (q : Peer) (l : Link) : (s.setLink q l).poisoned = s.poisoned := rfl
@[simp] theorem setLink_inbox (s : State) (q : Peer) (l : Link) : (s.setLink q l).inbox = s.inbox := rfl
@[simp] theorem setLink_dht (s : State) (q : Peer) (l : Link) : (s.setLink q l).dht = s.dht := rfl
@[simp] theorem setLink_dhtOpen (s : State) (q : Peer) (l : Link) : (s.setLink q l).dhtOpen = s.dhtOpen := rfl
@[simp] theorem manDies_man (s : State) : s.manDies.man = .dead := rfl
@[simp] theorem manDies_tm (s : State) : s.manDies.tm = s.tm := rfl
@[simp] theorem manDies_links (s : State) : s.manDies.links = s.links := rfl
@[simp] theorem manDies_pend (s : State) : s.manDies.pend = s.pend := rfl
@[simp] theorem manDies_poisoned (s : State) : s.manDies.poisoned = s.poisoned := rfl
@[simp] theorem manDies_inbox (s : State) : s.manDies.inbox = [] := rfl
@[simp] theorem manDies_dht (s : State) : s.manDies.dht = s.dht := rfl
@[simp] theorem manDies_dhtOpen (s : State) : s.manDies.dhtOpen = s.dhtOpen := rfl

/-- The program has just started. -/
structure Started (pieces : List ID) (pieceLength : Nat) (s : State) : Prop where
  some : pieces ≠ []
  start : ∃ ih, State.start pieces pieceLength (.new ih) = .ok s

theorem Started.parts {pieces : List ID} {pl : Nat} {s : State} (h : Started pieces pl s) :
    (∃ ih, TM.init pieces (.new ih) = .ok s.tm) ∧ PendingPieces.new pl = .ok s.pend ∧ s.man = .loop ∧
    (∀ q, s.links q = .fresh) ∧ s.poisoned = false ∧ s.inbox = [] ∧ s.dht = [] ∧ s.dhtOpen = true := by
  obtain ⟨ih, h⟩ := h.start
  simp only [State.start] at h
  obtain ⟨tm, h1, h⟩ := Res.bind_eq_ok.mp h
  obtain ⟨pend, h2, h⟩ := Res.bind_eq_ok.mp h
  cases h
  exact ⟨⟨ih, h1⟩, h2, rfl, fun _ => rfl, rfl, rfl, rfl, rfl⟩

/-! ## The manager inside the whole -/

theorem findAssigned_peers (s : TM) (p : Peers) (k : Nat) (it : List (Nat × Nat × Nat)) :
    TM.findAssigned { s with peers := p } k it = TM.findAssigned s k it := by
  induction it with
  | nil => rfl
  | cons x xs ih => simp only [TM.findAssigned, ih]

theorem selectLoop_peers (s : TM) (p : Peers) (it : List (Nat × Nat × Nat)) (fuel k : Nat) :
    TM.selectLoop { s with peers := p } it fuel k = TM.selectLoop s it fuel k := by
  induction fuel generalizing k with
  | zero => rfl
  | succ n ih => simp only [TM.selectLoop, findAssigned_peers, ih]

theorem selectPiece_peers (s : TM) (p : Peers) :
    TM.selectPiece { s with peers := p } = TM.selectPiece s := by
  simp only [TM.selectPiece, TM.sequentialSelectPiece, TM.remaining, selectLoop_peers]

/-- What the manager waits for is what it has chosen. -/
def Waiting (s : State) : Prop :=
  ∀ q i h, s.man = .sending q i h ∨ s.man = .adding q i h →
    s.tm.selectPiece = .ok (some (q, i, h)) ∧ q ∈ s.tm.connection.peers ∧ 0 < s.tm.slots

theorem step_waiting {c : Cfg} {s s' : State} {e : Event} (hw : Waiting s) (hs : Step c s e s') : Waiting s' := by
  cases hs with
  | shared ht =>
    cases ht with
    | peers hp =>
      intro q i h hm
      obtain ⟨h1, h2, h3⟩ := hw q i h hm
      exact ⟨by rw [selectPiece_peers]; exact h1, h2, h3⟩
  | choose h1 h2 h3 h4 =>
    intro q i h hm
    rcases hm with hm | hm <;> cases hm
    exact ⟨h3, h4, by show 0 < s.tm.slots; omega⟩
  | put h1 h2 h3 =>
    intro q i h hm
    rcases hm with hm | hm <;> cases hm
    exact hw _ _ _ (.inl h1)
  | _ =>
    intro q i h hm
    first
      | exact hw q i h hm
      | (simp_all; done)
      | (simp only [setLink_man, manDies_man, reduceCtorEq, or_self] at hm)

theorem managerEvents_snoc (es : List Event) (e : Event) :
    managerEvents (es ++ [e]) = managerEvents es ++ (match e with | .man t => [t] | _ => []) := by
  simp only [managerEvents, List.filterMap_append, List.filterMap_cons, List.filterMap_nil]
  cases e <;> rfl

/-- Every history of the whole contains a history of the manager. -/
theorem tm_run {c : Cfg} {s0 s : State} {es : List Event} (h : Run c s0 es s) (h0 : s0.man = .loop) :
    TM.Run c.p s0.tm (managerEvents es) s.tm ∧ Waiting s := by
  induction h with
  | nil =>
    refine ⟨.nil, ?_⟩
    intro q i h hm
    rw [h0] at hm
    rcases hm with hm | hm <;> cases hm
  | @snoc s1 s2 es e hr hs ih =>
    obtain ⟨hrun, hw⟩ := ih
    refine ⟨?_, step_waiting hw hs⟩
    rw [managerEvents_snoc]
    cases hs with
    | shared ht => exact hrun.snoc ht
    | reorder _ ht => exact hrun.snoc ht
    | tick _ ht => exact hrun.snoc ht
    | nothing _ ht => exact hrun.snoc ht
    | refused _ _ ht => exact hrun.snoc ht
    | msg _ _ ht => exact hrun.snoc ht
    | putFails h1 h2 h3 h4 => exact hrun.snoc (.start h3 (hw _ _ _ (.inl h1)).1 h4)
    | add h1 h2 h3 h4 => exact hrun.snoc (.start h3 (hw _ _ _ (.inr h1)).1 h4)
    | _ => simpa using hrun

/-! ## The table of connections -/

/-- The peers an event of the manager connects to. -/
def joined : TM.Event → List Peer
  | .tick batch => batch
  | _ => []

theorem addPeers_connection {ps : List Peer} {a b : TM} (h : TM.addPeers ps a = .ok b) :
    b.connection = ps.foldl Connection.connect a.connection := by
  induction ps generalizing a with
  | nil => cases h; rfl
  | cons r ps ih =>
    simp only [TM.addPeers] at h
    obtain ⟨_, _, h⟩ := Res.bind_eq_ok.mp h
    exact ih h

theorem startDownloading_connection {s s' : TM} {i : Nat} {q : Peer} {sent : Res Unit} {acc : Bool}
    (h : s.startDownloadingPiece i q sent = .ok (s', acc)) : s'.connection = s.connection := by
  simp only [TM.startDownloadingPiece] at h
  split at h
  · obtain ⟨_, h1, h⟩ := Res.bind_eq_ok.mp h
    cases h
    simp only [TM.markPieceAsOngoing] at h1
    obtain ⟨_, _, h1⟩ := Res.bind_eq_ok.mp h1
    obtain ⟨_, _, h1⟩ := Res.bind_eq_ok.mp h1
    obtain ⟨_, _, h1⟩ := Res.bind_eq_ok.mp h1
    cases h1; rfl
  · cases h; rfl
  · cases h

theorem tm_connection {p : Profile} {s s' : TM} {e : TM.Event} (h : TM.Step p s e s') :
    s'.connection = (joined e).foldl Connection.connect s.connection := by
  cases h with
  | peers => rfl
  | reorder => rfl
  | nothing => rfl
  | start _ _ h => have := startDownloading_connection h; exact this
  | msg _ h => exact (TM.handle_slots h).2
  | tick _ h =>
    simp only [TM.beginTick] at h
    obtain ⟨⟨s1, b⟩, h1, h⟩ := Res.bind_eq_ok.mp h
    obtain ⟨n, _, h⟩ := Res.bind_eq_ok.mp h
    cases h
    simp only [TM.refreshPeerList] at h1
    obtain ⟨free, _, h1⟩ := Res.bind_eq_ok.mp h1
    split at h1
    · cases h1; rfl
    · obtain ⟨s2, h2, h1⟩ := Res.bind_eq_ok.mp h1
      cases h1
      have := addPeers_connection h2
      exact this

theorem foldl_connect {ps : List Peer} {c : Connection} (h : c.peers = c.spawned ∧ c.spawned.Nodup) :
    (ps.foldl Connection.connect c).peers = (ps.foldl Connection.connect c).spawned ∧
    (ps.foldl Connection.connect c).spawned.Nodup ∧
    ∀ q, q ∈ (ps.foldl Connection.connect c).spawned ↔ q ∈ c.spawned ∨ q ∈ ps := by
  induction ps generalizing c with
  | nil => simpa using h
  | cons r ps ih =>
    have h' : (c.connect r).peers = (c.connect r).spawned ∧ (c.connect r).spawned.Nodup ∧
        ∀ q, q ∈ (c.connect r).spawned ↔ q ∈ c.spawned ∨ q = r := by
      simp only [Connection.connect]
      split
      · next hr =>
        refine ⟨h.1, h.2, fun q => ⟨.inl, ?_⟩⟩
        rintro (h' | rfl)
        · exact h'
        · rw [← h.1]; exact hr
      · next hr =>
        refine ⟨by rw [h.1], ?_, fun q => by simp⟩
        rw [h.1] at hr
        exact List.nodup_append.mpr ⟨h.2, by simp, by intro a ha b hb; simp at hb; subst hb; rintro rfl; exact hr ha⟩
    obtain ⟨i1, i2, i3⟩ := ih ⟨h'.1, h'.2.1⟩
    refine ⟨i1, i2, fun q => ?_⟩
    simp only [List.foldl_cons]
    rw [i3, h'.2.2]
    simp [or_assoc]

/-- The peers a step connects to. -/
def joinedBy : Event → List Peer
  | .man t => joined t
  | _ => []

/-- What a step does to the table of connections. -/
theorem step_connection {c : Cfg} {s s' : State} {e : Event} (hs : Step c s e s') :
    s'.tm.connection = (joinedBy e).foldl Connection.connect
      s.tm.connection := by
  cases hs with
  | shared ht => exact tm_connection ht
  | reorder _ ht => exact tm_connection ht
  | tick _ ht => exact tm_connection ht
  | nothing _ ht => exact tm_connection ht
  | refused _ _ ht => exact tm_connection ht
  | msg _ _ ht => exact tm_connection ht
  | putFails h1 h2 h3 h4 => have := startDownloading_connection h4; exact this
  | add h1 h2 h3 h4 => have := startDownloading_connection h4; exact this
  | _ => rfl

/-- The table of connections and the spawned tasks agree, no task is spawned twice, and a peer without tasks has
had nothing happen to it. -/
structure ConnInv (s : State) : Prop where
  table : s.tm.connection.peers = s.tm.connection.spawned
  once : s.tm.connection.spawned.Nodup
  fresh : ∀ q, ¬ s.Spawned q → s.links q = .fresh

theorem step_spawned {c : Cfg} {s s' : State} {e : Event} (hi : ConnInv s) (hs : Step c s e s') (q : Peer) :
    s'.Spawned q ↔ s.Spawned q ∨ q ∈ joinedBy e := by
  simp only [State.Spawned]
  rw [step_connection hs]
  exact (foldl_connect ⟨hi.table, hi.once⟩).2.2 q

theorem step_conn {c : Cfg} {s s' : State} {e : Event} (hw : Waiting s) (hi : ConnInv s) (hs : Step c s e s') :
    ConnInv s' := by
  have hc := step_connection hs
  obtain ⟨f1, f2, f3⟩ := foldl_connect (ps := joinedBy e) ⟨hi.table, hi.once⟩
  refine ⟨by rw [hc]; exact f1, by rw [hc]; exact f2, fun q hq => ?_⟩
  have hq' : ¬ s.Spawned q := fun h => hq ((step_spawned hi hs q).mpr (.inl h))
  have hf := hi.fresh q hq'
  cases hs with
  | put h1 h2 h3 =>
    have := (hw _ _ _ (.inl h1)).2.1
    rw [hi.table] at this
    simp only [setLink_links]
    rw [if_neg (by rintro rfl; exact hq' this)]
    exact hf
  | _ =>
    first
      | exact hf
      | (simp only [setLink_links]
         rw [if_neg (by rintro rfl; exact hq' ‹_›)]
         exact hf)

theorem started_conn {pieces : List ID} {pl : Nat} {s : State} (h : Started pieces pl s) : ConnInv s := by
  obtain ⟨⟨ih, h1⟩, _, _, hl, _⟩ := h.parts
  simp only [TM.init] at h1
  obtain ⟨b, _, h1⟩ := Res.bind_eq_ok.mp h1
  have hc : s.tm.connection = .new := by simp only [Res.ok.injEq] at h1; rw [← h1]
  exact ⟨by rw [hc]; rfl, by rw [hc]; exact List.nodup_nil, fun q _ => hl q⟩

theorem run_conn {c : Cfg} {s0 s : State} {es : List Event} (h : Run c s0 es s) (h0 : s0.man = .loop)
    (hi : ConnInv s0) : ConnInv s := by
  induction h with
  | nil => exact hi
  | snoc hr hs ih => exact step_conn (tm_run hr h0).2 ih hs

theorem run_spawned {c : Cfg} {s0 s : State} {es : List Event} (h : Run c s0 es s) (h0 : s0.man = .loop)
    (hi : ConnInv s0) {q : Peer} (hq : s0.Spawned q) : s.Spawned q := by
  induction h with
  | nil => exact hq
  | snoc hr hs ih => exact (step_spawned (run_conn hr h0 hi) hs q).mpr (.inl ih)

/-! ## What is read and recognised -/

/-- The receiver of peer `q` has worked off what was read from it. -/
def ReadInv (q : Peer) (es : List Event) (l : Link) : Prop :=
  match l.con with
  | .handshake => readsFrom q es = [] ∧ messagesFrom q es = [] ∧ l.recv = .init
  | .unreachable => readsFrom q es = [] ∧ messagesFrom q es = [] ∧ l.recv = .init
  | .reading => ∀ rest, RecvState.init.run (bytesFrom q es ++ rest) ((readsFrom q es).map List.length) =
      .ok (l.recv, rest, messagesFrom q es)
  | .ended => ∀ rest x, RecvState.init.run (bytesFrom q es ++ rest) ((readsFrom q es).map List.length) = .ok x →
      messagesFrom q es <+: x.2.2
  | _ => ∀ rest, RecvState.init.run (bytesFrom q es ++ rest) ((readsFrom q es).map List.length) = (do
      let x ← l.recv.drain (l.recv.dataLen + 1)
      .ok (x.1, rest, messagesFrom q es ++ x.2))

theorem ReadInv.prefix {q : Peer} {es : List Event} {l : Link} (h : ReadInv q es l) (rest : Bytes)
    (x : RecvState × Bytes × List Message)
    (hx : RecvState.init.run (bytesFrom q es ++ rest) ((readsFrom q es).map List.length) = .ok x) :
    messagesFrom q es <+: x.2.2 := by
  simp only [ReadInv] at h
  split at h
  · rw [h.2.1]; exact List.nil_prefix
  · rw [h.2.1]; exact List.nil_prefix
  · rw [h rest] at hx; cases hx; exact List.prefix_refl _
  · exact h rest x hx
  · rw [h rest] at hx
    obtain ⟨y, _, hx⟩ := Res.bind_eq_ok.mp hx
    cases hx
    exact List.prefix_append _ _

theorem ReadInv.of_eq {q : Peer} {es es' : List Event} {l l' : Link} (h : ReadInv q es l) (hc : l'.con = l.con)
    (hr : l'.recv = l.recv) (h1 : readsFrom q es' = readsFrom q es) (h2 : messagesFrom q es' = messagesFrom q es) :
    ReadInv q es' l' := by
  simp only [ReadInv, bytesFrom, hc, hr, h1, h2] at h ⊢
  exact h

theorem ReadInv.ends {q : Peer} {es es' : List Event} {l l' : Link} (h : ReadInv q es l) (hc : l'.con = .ended)
    (h1 : readsFrom q es' = readsFrom q es) (h2 : messagesFrom q es' = messagesFrom q es) : ReadInv q es' l' := by
  have := h.prefix
  simp only [ReadInv, hc, bytesFrom, h1, h2]
  exact this

theorem step_read {c : Cfg} {s s' : State} {es : List Event} {e : Event} (q : Peer) (h : ReadInv q es (s.links q))
    (hs : Step c s e s') : ReadInv q (es ++ [e]) (s'.links q) := by
  cases hs with
  | @shakeOk k h1 h2 =>
    by_cases hk : q = k
    · subst hk
      simp only [ReadInv, h2] at h
      obtain ⟨a1, a2, a3⟩ := h
      simp only [ReadInv, setLink_links, if_pos, bytesFrom]
      intro rest
      have e1 : readsFrom q (es ++ [Event.shake q true]) = [] := by simpa [readsFrom] using a1
      have e2 : messagesFrom q (es ++ [Event.shake q true]) = [] := by simpa [messagesFrom] using a2
      rw [e1, e2, a3]
      rfl
    · exact h.of_eq (by simp [hk]) (by simp [hk]) (by simp [readsFrom]) (by simp [messagesFrom])
  | @shakeFails k h1 h2 =>
    by_cases hk : q = k
    · subst hk
      simp only [ReadInv, h2] at h
      obtain ⟨a1, a2, a3⟩ := h
      simp only [ReadInv, setLink_links, if_pos]
      exact ⟨by simpa [readsFrom] using a1, by simpa [messagesFrom] using a2, a3⟩
    · exact h.of_eq (by simp [hk]) (by simp [hk]) (by simp [readsFrom]) (by simp [messagesFrom])
  | @read k chunk r h1 h2 h3 h4 =>
    by_cases hk : q = k
    · subst hk
      simp only [ReadInv, h2] at h
      simp only [ReadInv, setLink_links, if_pos]
      intro rest
      have e1 : readsFrom q (es ++ [Event.read q chunk]) = readsFrom q es ++ [chunk] := by simp [readsFrom]
      have e2 : messagesFrom q (es ++ [Event.read q chunk]) = messagesFrom q es := by simp [messagesFrom]
      have e3 : bytesFrom q (es ++ [Event.read q chunk]) ++ rest = bytesFrom q es ++ (chunk ++ rest) := by
        simp [bytesFrom, e1]
      rw [e3, e2, e1, List.map_append, List.map_cons, List.map_nil, RecvState.run_snoc, h]
      simp only [Res.ok_bind]
      rw [Nat.min_eq_left h3]
      simp only [List.take_left', List.drop_left', RecvState.iterate, h4, Res.ok_bind]
    · exact h.of_eq (by simp [hk]) (by simp [hk]) (by simp [readsFrom, Ne.symm hk]) (by simp [messagesFrom])
  | @parsed k m r h1 h2 h3 =>
    by_cases hk : q = k
    · subst hk
      simp only [ReadInv, h2] at h
      simp only [ReadInv, setLink_links, if_pos, bytesFrom] at h ⊢
      intro rest
      have e1 : readsFrom q (es ++ [Event.parsed q m]) = readsFrom q es := by simp [readsFrom]
      have e2 : messagesFrom q (es ++ [Event.parsed q m]) = messagesFrom q es ++ [m] := by simp [messagesFrom]
      rw [e1, e2, h, RecvState.drain_one_some h3]
      cases r.drain (r.dataLen + 1) <;> simp
    · exact h.of_eq (by simp [hk]) (by simp [hk]) (by simp [readsFrom]) (by simp [messagesFrom, Ne.symm hk])
  | @parsedAll k r h1 h2 h3 =>
    by_cases hk : q = k
    · subst hk
      simp only [ReadInv, h2] at h
      simp only [ReadInv, setLink_links, if_pos, bytesFrom] at h ⊢
      intro rest
      have e1 : readsFrom q (es ++ [Event.parsedAll q]) = readsFrom q es := by simp [readsFrom]
      have e2 : messagesFrom q (es ++ [Event.parsedAll q]) = messagesFrom q es := by simp [messagesFrom]
      rw [e1, e2, h, RecvState.drain_one_none h3]
      simp
    · exact h.of_eq (by simp [hk]) (by simp [hk]) (by simp [readsFrom]) (by simp [messagesFrom])
  | @unreachable k h1 h2 _ _ =>
    by_cases hk : q = k
    · exact h.ends (by simp [hk, Link.conEnds]) (by simp [readsFrom]) (by simp [messagesFrom])
    · exact h.of_eq (by simp [hk]) (by simp [hk]) (by simp [readsFrom]) (by simp [messagesFrom])
  | @unreachableLost k h1 h2 _ =>
    by_cases hk : q = k
    · exact h.ends (by simp [hk, Link.conEnds]) (by simp [readsFrom]) (by simp [messagesFrom])
    · exact h.of_eq (by simp [hk]) (by simp [hk]) (by simp [readsFrom]) (by simp [messagesFrom])
  | @readFails k h1 h2 =>
    by_cases hk : q = k
    · exact h.ends (by simp [hk, Link.conEnds]) (by simp [readsFrom]) (by simp [messagesFrom])
    · exact h.of_eq (by simp [hk]) (by simp [hk]) (by simp [readsFrom]) (by simp [messagesFrom])
  | @conDies k h1 h2 _ =>
    by_cases hk : q = k
    · exact h.ends (by simp [hk, Link.conEnds]) (by simp [readsFrom]) (by simp [messagesFrom])
    · exact h.of_eq (by simp [hk]) (by simp [hk]) (by simp [readsFrom]) (by simp [messagesFrom])
  | @conLeaves k h1 h2 _ _ _ =>
    by_cases hk : q = k
    · exact h.ends (by simp [hk, Link.conEnds]) (by simp [readsFrom]) (by simp [messagesFrom])
    · exact h.of_eq (by simp [hk]) (by simp [hk]) (by simp [readsFrom]) (by simp [messagesFrom])
  | @handBlock k _ h1 h2 _ _ | @handBlockLost k _ h1 h2 _ | @handPort k _ _ h1 h2 _ _ _ | @handPortLost k _ h1 h2 _
  | @handOther k _ _ h1 h2 _ _ _ | @handOtherLost k _ _ h1 h2 _ _ =>
    by_cases hk : q = k
    · subst hk
      simp only [ReadInv, h2, bytesFrom] at h
      simp only [ReadInv, setLink_links, if_pos, bytesFrom]
      simpa [readsFrom, messagesFrom] using h
    · exact h.of_eq (by simp [hk]) (by simp [hk]) (by simp [readsFrom]) (by simp [messagesFrom])
  | _ =>
    refine h.of_eq ?_ ?_ (by simp [readsFrom]) (by simp [messagesFrom])
    all_goals first
      | rfl
      | (simp only [setLink_links]; split <;> simp_all [Link.dlEnds])

theorem run_read {c : Cfg} {s0 s : State} {es : List Event} (h : Run c s0 es s) (h0 : ∀ q, s0.links q = .fresh)
    (q : Peer) : ReadInv q es (s.links q) := by
  induction h with
  | nil => rw [h0 q]; exact ⟨rfl, rfl, rfl⟩
  | snoc _ hs ih => exact step_read q ih hs

/-! ## What is handed over -/

/-- What was recognised from `q` has been handed over, except what is in hand; if the connection has ended, the last
message may be missing. -/
def HandInv (q : Peer) (es : List Event) (l : Link) : Prop :=
  ofPeer q (handedOver es) ++ inHand l <+: messagesFrom q es ∧
    (l.con ≠ .ended → ofPeer q (handedOver es) ++ inHand l = messagesFrom q es)

theorem ofPeer_append (q : Peer) (a b : List (Peer × Message)) : ofPeer q (a ++ b) = ofPeer q a ++ ofPeer q b := by
  simp [ofPeer]

theorem handedOver_append (a b : List Event) : handedOver (a ++ b) = handedOver a ++ handedOver b := by
  simp [handedOver]

theorem messagesFrom_append (q : Peer) (a b : List Event) : messagesFrom q (a ++ b) = messagesFrom q a ++ messagesFrom q b := by
  simp [messagesFrom]

theorem HandInv.of_eq {q : Peer} {es es' : List Event} {l l' : Link} (h : HandInv q es l) (hc : l'.con = l.con)
    (h1 : ofPeer q (handedOver es') = ofPeer q (handedOver es)) (h2 : messagesFrom q es' = messagesFrom q es) :
    HandInv q es' l' := by
  simp only [HandInv, inHand, hc, h1, h2] at h ⊢
  exact h

theorem HandInv.ends {q : Peer} {es es' : List Event} {l l' : Link} (h : HandInv q es l) (hc : l'.con = .ended)
    (h1 : ofPeer q (handedOver es') = ofPeer q (handedOver es)) (h2 : messagesFrom q es' = messagesFrom q es) :
    HandInv q es' l' := by
  refine ⟨?_, fun h' => absurd hc h'⟩
  rw [h1, h2]
  simp only [inHand, hc, List.append_nil]
  exact (List.prefix_append _ _).trans h.1

theorem step_hand {c : Cfg} {s s' : State} {es : List Event} {e : Event} (q : Peer) (h : HandInv q es (s.links q))
    (hs : Step c s e s') : HandInv q (es ++ [e]) (s'.links q) := by
  cases hs with
  | @shakeOk k h1 h2 | @shakeFails k h1 h2 =>
    by_cases hk : q = k
    · subst hk
      have h' := h.2 (by rw [h2]; simp)
      simp only [inHand, h2, List.append_nil] at h'
      simp only [HandInv, setLink_links, if_pos, inHand, List.append_nil, handedOver_append, ofPeer_append,
        messagesFrom_append, h']
      simp [messagesFrom, handedOver, ofPeer]
    · exact h.of_eq (by simp [hk]) (by simp [handedOver]) (by simp [messagesFrom])
  | @read k chunk r h1 h2 h3 h4 =>
    by_cases hk : q = k
    · subst hk
      have h' := h.2 (by rw [h2]; simp)
      simp only [inHand, h2, List.append_nil] at h'
      simp only [HandInv, setLink_links, if_pos, inHand, List.append_nil, handedOver_append, ofPeer_append,
        messagesFrom_append, h']
      simp [messagesFrom, handedOver, ofPeer]
    · exact h.of_eq (by simp [hk]) (by simp [handedOver]) (by simp [messagesFrom])
  | @parsed k m r h1 h2 h3 =>
    by_cases hk : q = k
    · subst hk
      have h' := h.2 (by rw [h2]; simp)
      simp only [inHand, h2, List.append_nil] at h'
      simp only [HandInv, setLink_links, if_pos, inHand, handedOver_append, ofPeer_append,
        messagesFrom_append, h']
      simp [messagesFrom, handedOver, ofPeer]
    · exact h.of_eq (by simp [hk]) (by simp [handedOver]) (by simp [messagesFrom, Ne.symm hk])
  | @parsedAll k r h1 h2 h3 =>
    by_cases hk : q = k
    · subst hk
      have h' := h.2 (by rw [h2]; simp)
      simp only [inHand, h2, List.append_nil] at h'
      simp only [HandInv, setLink_links, if_pos, inHand, List.append_nil, handedOver_append, ofPeer_append,
        messagesFrom_append, h']
      simp [messagesFrom, handedOver, ofPeer]
    · exact h.of_eq (by simp [hk]) (by simp [handedOver]) (by simp [messagesFrom])
  | @unreachable k | @unreachableLost k | @readFails k | @conDies k | @conLeaves k =>
    by_cases hk : q = k
    · exact h.ends (by simp [hk, Link.conEnds]) (by simp [handedOver]) (by simp [messagesFrom])
    · exact h.of_eq (by simp [hk]) (by simp [handedOver]) (by simp [messagesFrom])
  | @handBlock k _ h1 h2 _ _ | @handBlockLost k _ h1 h2 _ | @handPort k _ _ h1 h2 _ _ _ | @handPortLost k _ h1 h2 _
  | @handOther k _ _ h1 h2 _ _ _ | @handOtherLost k _ _ h1 h2 _ _ =>
    by_cases hk : q = k
    · subst hk
      have h' := h.2 (by rw [h2]; simp)
      simp only [inHand, h2] at h'
      simp only [HandInv, setLink_links, if_pos, inHand, List.append_nil, handedOver_append, ofPeer_append,
        messagesFrom_append, ← h']
      simp [messagesFrom, handedOver, ofPeer]
    · refine h.of_eq (by simp [hk]) ?_ (by simp [messagesFrom])
      rw [handedOver_append, ofPeer_append]
      simp [handedOver, ofPeer, Ne.symm hk]
  | _ =>
    refine h.of_eq ?_ (by simp [handedOver]) (by simp [messagesFrom])
    first
      | rfl
      | (simp only [setLink_links]; split <;> simp_all [Link.dlEnds])

theorem run_hand {c : Cfg} {s0 s : State} {es : List Event} (h : Run c s0 es s) (h0 : ∀ q, s0.links q = .fresh)
    (q : Peer) : HandInv q es (s.links q) := by
  induction h with
  | nil => rw [h0 q]; exact ⟨List.prefix_refl _, fun _ => rfl⟩
  | snoc _ hs ih => exact step_hand q ih hs

theorem toPeers_wire {q : Peer} {m : Message} {t : ConMessageType} (h : handleMessage q m = [.toPeers q t]) :
    wireMessage t = some m ∧ forManager m = true ∧ asBlock m = none ∧ asNode (q, m) = none := by
  cases m <;> simp only [handleMessage, ConMessageType.tryFrom, List.cons.injEq, Dispatch.toPeers.injEq, reduceCtorEq,
    true_and, and_true, false_and] at h
  all_goals (subst h; exact ⟨rfl, rfl, rfl, rfl⟩)

/-- What was handed over to the manager has been taken by it or is in its queue. -/
def BoxInv (es : List Event) (s : State) : Prop :=
  fromWire (managerHeard es) ++ fromWire s.inbox <+: (handedOver es).filter (fun x => forManager x.2) ∧
  (s.man ≠ .dead → fromWire (managerHeard es) ++ fromWire s.inbox = (handedOver es).filter (fun x => forManager x.2))

theorem fromWire_append (a b : List (Peer × ConMessageType)) : fromWire (a ++ b) = fromWire a ++ fromWire b := by
  simp [fromWire]

theorem managerHeard_append (a b : List Event) : managerHeard (a ++ b) = managerHeard a ++ managerHeard b := by
  simp [managerHeard]

theorem BoxInv.of_eq {es es' : List Event} {s s' : State} (h : BoxInv es s) (hm : s'.man = .dead ↔ s.man = .dead)
    (hb : fromWire s'.inbox = fromWire s.inbox) (h1 : managerHeard es' = managerHeard es)
    (h2 : (handedOver es').filter (fun x => forManager x.2) = (handedOver es).filter (fun x => forManager x.2)) :
    BoxInv es' s' := by
  simp only [BoxInv, ne_eq, hm, hb, h1, h2] at h ⊢
  exact h

theorem BoxInv.dies {es es' : List Event} {s s' : State} (h : BoxInv es s) (hm : s'.man = .dead) (hb : s'.inbox = [])
    (h1 : managerHeard es' = managerHeard es) (h2 : handedOver es' = handedOver es) : BoxInv es' s' := by
  refine ⟨?_, fun h' => absurd hm h'⟩
  rw [hb, h1, h2]
  rw [show fromWire [] = [] from rfl, List.append_nil]
  exact (List.prefix_append _ _).trans h.1

theorem step_box {c : Cfg} {s s' : State} {es : List Event} {e : Event} (h : BoxInv es s) (hs : Step c s e s') :
    BoxInv (es ++ [e]) s' := by
  cases hs with
  | @shared o tm' ht | @reorder tm' _ ht | @nothing tm' _ ht | @tick _ tm' _ ht | @refused _ _ _ tm' _ _ ht =>
    exact h.of_eq Iff.rfl rfl (by simp [managerHeard]) (by simp [handedOver])
  | choose h1 | put h1 | putFails h1 | add h1 =>
    exact h.of_eq (by simp [h1]) rfl (by simp [managerHeard]) (by simp [handedOver])
  | addPoisoned | addPanics | msgPanics | tickPanics | choosePanics =>
    exact h.dies rfl rfl (by simp [managerHeard]) (by simp [handedOver])
  | @msg k m rest tm' h1 h2 h3 =>
    have h' := h.2 (by rw [h1]; simp)
    rw [h2] at h'
    have e1 : managerHeard (es ++ [Event.man (.msg k m)]) = managerHeard es ++ [(k, m)] := by simp [managerHeard]
    have e2 : handedOver (es ++ [Event.man (.msg k m)]) = handedOver es := by simp [handedOver]
    have e3 : fromWire (managerHeard es ++ [(k, m)]) ++ fromWire rest =
        fromWire (managerHeard es) ++ fromWire ((k, m) :: rest) := by
      rw [show (k, m) :: rest = [(k, m)] ++ rest from rfl, fromWire_append, fromWire_append, List.append_assoc]
    simp only [BoxInv, e1, e2, e3, h']
    exact ⟨List.prefix_refl _, fun _ => trivial⟩
  | @handOther k m t h1 h2 h3 h4 h5 =>
    have h' := h.2 h4
    obtain ⟨w1, w2, _, _⟩ := toPeers_wire h3
    have e1 : managerHeard (es ++ [Event.handed k m]) = managerHeard es := by simp [managerHeard]
    have e2 : handedOver (es ++ [Event.handed k m]) = handedOver es ++ [(k, m)] := by simp [handedOver]
    have e3 : fromWire [(k, t)] = [(k, m)] := by simp [fromWire, w1]
    simp only [BoxInv, e1, e2, fromWire_append, e3, List.filter_append, ← h']
    simp [w2]
  | @handOtherLost k m t h1 h2 h3 h4 =>
    refine ⟨?_, fun h' => absurd h4 h'⟩
    refine List.IsPrefix.trans ?_ (List.IsPrefix.filter _ (by rw [handedOver_append]; exact List.prefix_append _ _))
    have e1 : managerHeard (es ++ [Event.handed k m]) = managerHeard es := by simp [managerHeard]
    rw [e1]
    exact h.1
  | handBlock | handBlockLost | handPort | handPortLost =>
    exact h.of_eq (by simp) rfl (by simp [managerHeard]) (by simp [handedOver, forManager])
  | @unreachable k h1 h2 h3 h4 =>
    refine h.of_eq (by simp) ?_ (by simp [managerHeard]) (by simp [handedOver])
    simp [fromWire, wireMessage]
  | @reported k i bs h1 h2 h3 h4 =>
    refine h.of_eq (by simp) ?_ (by simp [managerHeard]) (by simp [handedOver])
    simp [fromWire, wireMessage]
  | _ =>
    refine h.of_eq ?_ ?_ (by simp [managerHeard]) (by simp [handedOver])
    all_goals first
      | rfl
      | simp

theorem run_box {c : Cfg} {s0 s : State} {es : List Event} (h : Run c s0 es s) (h0 : s0.inbox = []) : BoxInv es s := by
  induction h with
  | nil => rw [BoxInv, h0]; exact ⟨List.prefix_refl _, fun _ => rfl⟩
  | snoc _ hs ih => exact step_box ih hs

/-- Blocks handed over to the downloader of `q` have been taken by it or are in its queue. -/
def BlockInv (q : Peer) (es : List Event) (l : Link) : Prop :=
  blocksHeard q es ++ l.blocks <+: (ofPeer q (handedOver es)).filterMap asBlock ∧
  (l.dlAlive = true → blocksHeard q es ++ l.blocks = (ofPeer q (handedOver es)).filterMap asBlock)

theorem BlockInv.of_eq {q : Peer} {es es' : List Event} {l l' : Link} (h : BlockInv q es l) (hd : l'.dlAlive = l.dlAlive)
    (hb : l'.blocks = l.blocks) (h1 : blocksHeard q es' = blocksHeard q es)
    (h2 : (ofPeer q (handedOver es')).filterMap asBlock = (ofPeer q (handedOver es)).filterMap asBlock) :
    BlockInv q es' l' := by
  simp only [BlockInv, hd, hb, h1, h2] at h ⊢
  exact h

theorem BlockInv.dies {q : Peer} {es es' : List Event} {l l' : Link} (h : BlockInv q es l) (hd : l'.dlAlive = false)
    (hb : l'.blocks = []) (h1 : blocksHeard q es' = blocksHeard q es) (h2 : handedOver es' = handedOver es) :
    BlockInv q es' l' := by
  refine ⟨?_, fun h' => by rw [hd] at h'; cases h'⟩
  rw [hb, h1, h2, List.append_nil]
  exact (List.prefix_append _ _).trans h.1

theorem step_block {c : Cfg} {s s' : State} {es : List Event} {e : Event} (q : Peer) (h : BlockInv q es (s.links q))
    (hs : Step c s e s') : BlockInv q (es ++ [e]) (s'.links q) := by
  cases hs with
  | @handBlock k b h1 h2 h3 h4 =>
    by_cases hk : q = k
    · subst hk
      have h' := h.2 h3
      have e1 : blocksHeard q (es ++ [Event.handed q (.piece b)]) = blocksHeard q es := by simp [blocksHeard]
      have e2 : ofPeer q (handedOver (es ++ [Event.handed q (.piece b)])) = ofPeer q (handedOver es) ++ [.piece b] := by
        rw [handedOver_append, ofPeer_append]; simp [handedOver, ofPeer]
      simp only [BlockInv, setLink_links, if_pos, e1, e2, List.filterMap_append, ← List.append_assoc, h']
      simp [asBlock]
    · refine h.of_eq (by simp [hk]) (by simp [hk]) (by simp [blocksHeard]) ?_
      rw [handedOver_append, ofPeer_append]; simp [handedOver, ofPeer, Ne.symm hk]
  | @handBlockLost k b h1 h2 h3 =>
    by_cases hk : q = k
    · subst hk
      have e1 : blocksHeard q (es ++ [Event.handed q (.piece b)]) = blocksHeard q es := by simp [blocksHeard]
      refine ⟨?_, by intro h'; simp only [setLink_links, if_pos] at h'; rw [h3] at h'; cases h'⟩
      rw [e1, handedOver_append, ofPeer_append, List.filterMap_append]
      simp only [setLink_links, if_pos]
      exact h.1.trans (List.prefix_append _ _)
    · refine h.of_eq (by simp [hk]) (by simp [hk]) (by simp [blocksHeard]) ?_
      rw [handedOver_append, ofPeer_append]; simp [handedOver, ofPeer, Ne.symm hk]
  | @handPort k _ _ h1 h2 | @handPortLost k _ h1 h2 =>
    refine h.of_eq ?_ ?_ (by simp [blocksHeard]) ?_
    · simp only [setLink_links]; split <;> simp_all
    · simp only [setLink_links]; split <;> simp_all
    · rw [handedOver_append, ofPeer_append, List.filterMap_append]
      simp only [handedOver, ofPeer, List.filterMap_cons, List.filterMap_nil]
      split <;> simp_all [asBlock]
      split at * <;> simp_all
  | @handOther k m t h1 h2 h3 h4 | @handOtherLost k m t h1 h2 h3 h4 =>
    obtain ⟨_, _, w3, _⟩ := toPeers_wire h3
    refine h.of_eq ?_ ?_ (by simp [blocksHeard]) ?_
    · simp only [setLink_links]; split <;> simp_all
    · simp only [setLink_links]; split <;> simp_all
    · rw [handedOver_append, ofPeer_append, List.filterMap_append]
      by_cases hk : k = q <;> simp [handedOver, ofPeer, hk, w3]
  | @dlBlock k b out rest d' pend' h1 h2 h3 h4 h5 h6 =>
    by_cases hk : q = k
    · subst hk
      have h' := h.2 h2
      rw [h4] at h'
      have e1 : blocksHeard q (es ++ [Event.dl q (.block b out)]) = blocksHeard q es ++ [b] := by simp [blocksHeard]
      have e2 : handedOver (es ++ [Event.dl q (.block b out)]) = handedOver es := by simp [handedOver]
      simp only [BlockInv, setLink_links, if_pos, e1, e2, ← h']
      simp
    · exact h.of_eq (by simp [hk]) (by simp [hk]) (by simp [blocksHeard, Ne.symm hk]) (by simp [handedOver])
  | @blockPoisoned k | @blockPanics k | @readdPoisoned k | @takePoisoned k | @takePanics k | @noBlocks k | @noCommands k =>
    by_cases hk : q = k
    · exact h.dies (by simp [hk, Link.dlEnds]) (by simp [hk, Link.dlEnds]) (by simp [blocksHeard]) (by simp [handedOver])
    · exact h.of_eq (by simp [hk]) (by simp [hk]) (by simp [blocksHeard]) (by simp [handedOver])
  | _ =>
    refine h.of_eq ?_ ?_ (by simp [blocksHeard]) (by simp [handedOver])
    all_goals first
      | rfl
      | (simp only [setLink_links]; split <;> simp_all [Link.conEnds])

theorem run_block {c : Cfg} {s0 s : State} {es : List Event} (h : Run c s0 es s) (h0 : ∀ q, s0.links q = .fresh)
    (q : Peer) : BlockInv q es (s.links q) := by
  induction h with
  | nil => rw [h0 q]; exact ⟨List.prefix_refl _, fun _ => rfl⟩
  | snoc _ hs ih => exact step_block q ih hs

/-- Nodes handed over to the DHT have been taken by it or are in its queue. -/
def NodeInv (es : List Event) (s : State) : Prop :=
  dhtHeard es ++ s.dht <+: (handedOver es).filterMap asNode ∧
  (s.dhtOpen = true → dhtHeard es ++ s.dht = (handedOver es).filterMap asNode)

theorem NodeInv.of_eq {es es' : List Event} {s s' : State} (h : NodeInv es s) (hd : s'.dhtOpen = s.dhtOpen)
    (hb : s'.dht = s.dht) (h1 : dhtHeard es' = dhtHeard es)
    (h2 : (handedOver es').filterMap asNode = (handedOver es).filterMap asNode) : NodeInv es' s' := by
  simp only [NodeInv, hd, hb, h1, h2] at h ⊢
  exact h

theorem step_node {c : Cfg} {s s' : State} {es : List Event} {e : Event} (h : NodeInv es s)
    (hs : Step c s e s') : NodeInv (es ++ [e]) s' := by
  cases hs with
  | @handPort k port a h1 h2 h3 h4 h5 =>
    have h' := h.2 h3
    have ha : a = ⟨k.addr.ip, port⟩ := by
      simp only [handleMessage, List.cons.injEq, Dispatch.toDht.injEq, and_true] at h4
      exact h4.symm
    subst ha
    have e1 : dhtHeard (es ++ [Event.handed k (.port port)]) = dhtHeard es := by simp [dhtHeard]
    have e2 : handedOver (es ++ [Event.handed k (.port port)]) = handedOver es ++ [(k, .port port)] := by simp [handedOver]
    simp only [NodeInv, e1, e2, List.filterMap_append, ← h']
    simp [asNode]
  | @handPortLost k port h1 h2 h3 =>
    refine ⟨?_, by intro h'; simp only [setLink_dhtOpen] at h'; rw [h3] at h'; cases h'⟩
    have e1 : dhtHeard (es ++ [Event.handed k (.port port)]) = dhtHeard es := by simp [dhtHeard]
    rw [e1, handedOver_append, List.filterMap_append]
    exact h.1.trans (List.prefix_append _ _)
  | @handOther k m t h1 h2 h3 h4 | @handOtherLost k m t h1 h2 h3 h4 =>
    obtain ⟨_, _, _, w4⟩ := toPeers_wire h3
    exact h.of_eq (by simp) (by simp) (by simp [dhtHeard]) (by simp [handedOver, w4])
  | @handBlock k b | @handBlockLost k b =>
    exact h.of_eq (by simp) (by simp) (by simp [dhtHeard]) (by simp [handedOver, asNode])
  | @dhtTakes a rest h1 h2 =>
    have h' := h.2 h2
    rw [h1] at h'
    have e1 : dhtHeard (es ++ [Event.dhtTakes a]) = dhtHeard es ++ [a] := by simp [dhtHeard]
    have e2 : handedOver (es ++ [Event.dhtTakes a]) = handedOver es := by simp [handedOver]
    simp only [NodeInv, e1, e2, ← h']
    simp
  | dhtEnds h1 =>
    refine ⟨?_, by simp⟩
    have e1 : dhtHeard (es ++ [Event.dhtEnds]) = dhtHeard es := by simp [dhtHeard]
    have e2 : handedOver (es ++ [Event.dhtEnds]) = handedOver es := by simp [handedOver]
    rw [e1, e2, List.append_nil]
    exact (List.prefix_append _ _).trans h.1
  | _ =>
    refine h.of_eq ?_ ?_ (by simp [dhtHeard]) (by simp [handedOver])
    all_goals first
      | rfl
      | simp

theorem run_node {c : Cfg} {s0 s : State} {es : List Event} (h : Run c s0 es s) (h0 : s0.dht = []) : NodeInv es s := by
  induction h with
  | nil => rw [NodeInv, h0]; exact ⟨List.prefix_refl _, fun _ => rfl⟩
  | snoc _ hs ih => exact step_node ih hs

/-! ## Bounds -/

/-- No queue holds more than its capacity. -/
structure Bounded (s : State) : Prop where
  inbox : s.inbox.length ≤ 32
  dht : s.dht.length ≤ 32
  link : ∀ q, (s.links q).commands.length ≤ 32 ∧ (s.links q).blocks.length ≤ 32 ∧ (s.links q).sends.length ≤ 32

theorem step_bounded {c : Cfg} {s s' : State} {e : Event} (h : Bounded s) (hs : Step c s e s') : Bounded s' := by
  have hc : MESSAGE_CHANNEL_BUFFER = 32 := rfl
  have hd : DHT_CAP = 32 := rfl
  obtain ⟨h1, h2, h3⟩ := h
  cases hs
  all_goals
    refine ⟨?_, ?_, ?_⟩
    · first
        | exact h1
        | (simp only [setLink_inbox, manDies_inbox, List.length_append, List.length_cons, List.length_nil]; omega)
        | (simp_all; omega)
    · first
        | exact h2
        | (simp only [setLink_dht, manDies_dht, List.length_append, List.length_cons, List.length_nil]; omega)
        | (simp_all; omega)
    · intro k
      have h3k := h3 k
      first
        | exact h3k
        | (simp only [setLink_links]
           split
           · subst_vars
             simp only [Link.conEnds, Link.dlEnds, List.length_append, List.length_cons, List.length_nil]
             simp_all
             try omega
           · exact h3k)

/-! ## Commands carry the hash of the torrent -/

/-- Whatever a downloader was told or will be told to download has the hash of that piece in the torrent. -/
def HashInv (pieces : List ID) (l : Link) : Prop :=
  (∀ h i, (h, i) ∈ l.commands → pieces[i]? = some h) ∧
  (∀ i h, l.dl.currentPieces.get? i = some h → pieces[i]? = some h)

theorem dl_pieces {p : Profile} {H : Bytes → ID} {o : Option Peer} {d d' : Dl.State} {pend pend' : PendingPieces}
    {e : Dl.Event} (h : Dl.Step p H o (d, pend) e (d', pend')) :
    d'.currentPieces = match e with
      | .start h i => d.currentPieces.insert i h
      | .stop i => d.currentPieces.erase i
      | _ => d.currentPieces := by
  cases h with
  | env => rfl
  | start => rfl
  | stop => rfl
  | block _ h =>
    rcases Dl.foo_cases h with ⟨_, rfl, _⟩ | ⟨_, _, _, _, _, _, _, _, _, _, h⟩
    · rfl
    · rcases h with ⟨_, _, rfl⟩ | ⟨_, _, _, _, _, rfl⟩ | ⟨_, _, _, _, _, rfl⟩ <;> rfl
  | readd _ h =>
    simp only [Dl.readd] at h
    split at h <;> cases h <;> rfl
  | take _ h =>
    simp only [Dl.take] at h
    split at h
    · obtain ⟨_, _, h⟩ := Res.bind_eq_ok.mp h
      cases h; rfl
    · cases h; rfl
  | request => rfl
  | loop => rfl

theorem step_hash {c : Cfg} {pieces : List ID} {s s' : State} {e : Event} (hp : s.tm.pieces = pieces) (hw : Waiting s)
    (h : ∀ q, HashInv pieces (s.links q)) (hs : Step c s e s') (q : Peer) : HashInv pieces (s'.links q) := by
  have hq := h q
  cases hs with
  | @put k i hash h1 h2 h3 =>
    simp only [setLink_links]
    split
    · next hk =>
      subst hk
      refine ⟨?_, hq.2⟩
      intro h' i' hm
      rcases List.mem_append.mp hm with hm | hm
      · exact hq.1 _ _ hm
      · simp only [List.mem_singleton, Prod.mk.injEq] at hm
        obtain ⟨rfl, rfl⟩ := hm
        have := (TM.select_some (hw _ _ _ (.inl h1)).1).2
        rw [hp] at this
        exact this
    · exact hq
  | @dlStart k h' i' rest d' pend' h1 h2 h3 h4 h5 =>
    simp only [setLink_links]
    split
    · next hk =>
      subst hk
      have hm : ∀ x ∈ (h', i') :: rest, pieces[x.2]? = some x.1 := fun x hx => hq.1 _ _ (by rw [h4]; exact hx)
      refine ⟨fun a b hm' => hm (a, b) (List.mem_cons_of_mem _ hm'), ?_⟩
      intro a b hg
      have := dl_pieces h5
      simp only at this
      simp only [this, Map.get?_insert] at hg
      split at hg
      · next e => simp only [Option.some.injEq] at hg; subst hg; subst e; exact hm (h', a) (List.mem_cons_self ..)
      · exact hq.2 _ _ hg
    · exact hq
  | @dlBlock k _ _ _ _ _ _ _ _ _ _ h5 | @dlReadd k _ _ _ _ _ _ _ h5 | @dlTake k _ _ _ _ _ _ _ h5
  | @dlRequest k _ _ _ _ _ _ _ _ _ h5 | @dlRequestLost k _ _ _ _ _ _ _ _ h5 | @dlLoop k _ _ _ _ _ h5 =>
    simp only [setLink_links]
    split
    · next hk =>
      subst hk
      have := dl_pieces h5
      simp only at this
      exact ⟨hq.1, by simp only [this]; exact hq.2⟩
    · exact hq
  | _ =>
    first
      | exact hq
      | (simp only [setLink_links]
         split
         · subst_vars
           first
             | exact hq
             | exact ⟨by simp [Link.dlEnds], hq.2⟩
         · exact hq)

/-! ## Where stored blocks come from -/

theorem addBlock_downloaded {p : Profile} {s s' : PendingPieces} (hi : s.Inv) {pi bi : Nat} {d : Bytes} {r : AddBlockRes}
    (h : s.addBlockData p pi bi d = .ok (s', r)) {pi' bi' : Nat} {x : Bytes}
    (hx : blockAt s' pi' bi' = some (.downloaded x)) :
    blockAt s pi' bi' = some (.downloaded x) ∨ (pi' = pi ∧ bi' = bi ∧ x = d) := by
  rcases PendingPieces.addBlock_cases hi h with ⟨_, rfl, _⟩ | ⟨ha, piece, pend, hg, _, _, _, rfl⟩ | ⟨_, piece, pend, bl, hg, _, _, _, _, rfl⟩
  · exact .inl hx
  · have hl := hi.len _ _ hg
    rw [PendingPieces.blockAt_modify hg _ _ _ _ _ _ (by rw [hl]; exact ha.2.1)] at hx
    split at hx
    · next he =>
      simp only [Option.some.injEq, Block.downloaded.injEq] at hx
      exact .inr ⟨he.1, he.2, hx.symm⟩
    · exact .inl hx
  · rw [PendingPieces.blockAt_erase] at hx
    split at hx
    · cases hx
    · exact .inl hx

theorem addPiece_downloaded {s s' : PendingPieces} (hi : s.Inv) {idx : Nat} (h : s.addPiece idx = .ok s') {pi bi : Nat}
    {x : Bytes} (hx : blockAt s' pi bi = some (.downloaded x)) : blockAt s pi bi = some (.downloaded x) := by
  rw [PendingPieces.blockAt_addPiece hi h] at hx
  split at hx
  · split at hx <;> cases hx
  · exact hx

theorem foo_panic {p : Profile} {H : Bytes → ID} {d : Dl.State} {pend : PendingPieces} {b : Piece}
    (h : Dl.foo p H d pend b = .panic) : b.begin_.toNat % 16384 = 0 ∧ d.currentBlocks ≠ [] := by
  have hb : BLOCK_SIZE = 16384 := rfl
  simp only [Dl.foo, hb] at h
  split at h
  · cases h
  · next h1 =>
    refine ⟨by omega, ?_⟩
    split at h
    · cases h
    · split at h
      · cases h
      · next hf =>
        intro he
        rw [he] at hf
        simp at hf

/-- What one step does to the structure of pending pieces: it stays consistent, and a block that is newly stored is one
that the downloader of a peer took from its queue. -/
def PendStep (s s' : State) : Prop :=
  s'.pend.Inv ∧ ∀ pi bi x, blockAt s'.pend pi bi = some (.downloaded x) →
    blockAt s.pend pi bi = some (.downloaded x) ∨
    ∃ q b, b ∈ (s.links q).blocks ∧ b.index.toNat = pi ∧ b.begin_.toNat = bi * 16384 ∧ b.block = x

theorem step_pend {c : Cfg} {s s' : State} {e : Event} (hi : s.pend.Inv) (hs : Step c s e s') : PendStep s s' := by
  cases hs with
  | @add k q i h tm' h1 h2 h3 h4 =>
    simp only [PendStep, addPieceAnyway]
    split
    · next ha => exact ⟨PendingPieces.addPiece_inv hi ha, fun pi bi x hx => .inl (addPiece_downloaded hi ha hx)⟩
    · exact ⟨hi, fun _ _ _ hx => .inl hx⟩
  | @dlBlock q b out rest d' pend' h1 h2 h3 h4 h5 h6 =>
    refine ⟨(Dl.step_inv (s := ((s.links q).dl, s.pend)) hi h6).1, fun pi bi x hx => ?_⟩
    simp only [setLink_pend] at hx
    cases h6 with
    | block _ h =>
      rcases Dl.foo_cases h with ⟨_, _, rfl⟩ | ⟨_, _, _, _, _, e1, _, _, _, e2, _⟩
      · exact .inl hx
      · rcases addBlock_downloaded hi e2 hx with hx | ⟨rfl, rfl, rfl⟩
        · exact .inl hx
        · exact .inr ⟨q, b, by rw [h4]; exact List.mem_cons_self .., rfl, by omega, rfl⟩
  | @dlReadd q i d' pend' h1 h2 h3 h4 h5 =>
    refine ⟨(Dl.step_inv (s := ((s.links q).dl, s.pend)) hi h5).1, fun pi bi x hx => .inl ?_⟩
    simp only [setLink_pend] at hx
    cases h5 with
    | readd _ h =>
      simp only [Dl.readd] at h
      split at h
      · next ha => cases h; exact addPiece_downloaded hi ha hx
      · cases h; exact hx
      · cases h
  | @dlTake q got d' pend' h1 h2 h3 h4 h5 =>
    refine ⟨(Dl.step_inv (s := ((s.links q).dl, s.pend)) hi h5).1, fun pi bi x hx => .inl ?_⟩
    simp only [setLink_pend] at hx
    cases h5 with
    | take _ h =>
      simp only [Dl.take] at h
      split at h
      · obtain ⟨⟨p1, buf⟩, ht, h⟩ := Res.bind_eq_ok.mp h
        cases h
        obtain ⟨new, _, _, _, _, _, _, _, _, hb, _⟩ := take_spec hi.wf ht
        simp only [hb] at hx
        split at hx
        · cases ho : c.owner q with
          | none => rw [ho] at hx; cases hx
          | some o => rw [ho] at hx; cases hx
        · exact hx
      · cases h; exact hx
  | @blockPanics q b rest h1 h2 h3 h4 h5 h6 h7 =>
    obtain ⟨hm, _⟩ := foo_panic h7
    have hb : BLOCK_SIZE = 16384 := rfl
    simp only [PendStep, leftBehind, hb]
    cases ha : s.pend.addBlockData c.p b.index.toNat (b.begin_.toNat / 16384) b.block with
    | ok r =>
      refine ⟨PendingPieces.addBlock_inv hi ha, fun pi bi x hx => ?_⟩
      rcases addBlock_downloaded hi ha hx with hx | ⟨rfl, rfl, rfl⟩
      · exact .inl hx
      · exact .inr ⟨q, b, by rw [h5]; exact List.mem_cons_self .., rfl, by omega, rfl⟩
    | err => exact ⟨hi, fun _ _ _ hx => .inl hx⟩
    | panic => exact ⟨hi, fun _ _ _ hx => .inl hx⟩
  | @pendReorder m hm =>
    refine ⟨?_, fun pi bi x hx => .inl ?_⟩
    · exact PendingPieces.step_inv (p := c.p) (e := .reorder) hi (.reorder hm)
    · rw [← PendingPieces.blockAt_perm hi hm]; exact hx
  | _ => exact ⟨hi, fun _ _ _ hx => .inl hx⟩

theorem run_pend_inv {c : Cfg} {s0 s : State} {es : List Event} (h : Run c s0 es s) (h0 : s0.pend.Inv) : s.pend.Inv := by
  induction h with
  | nil => exact h0
  | snoc _ hs ih => exact (step_pend ih hs).1

/-! ## Where messages come from -/

theorem mem_ofPeer {q : Peer} {l : List (Peer × Message)} {m : Message} : m ∈ ofPeer q l ↔ (q, m) ∈ l := by
  simp only [ofPeer, List.mem_filterMap]
  constructor
  · rintro ⟨⟨k, m'⟩, hm, h⟩
    simp only at h
    split at h
    · next e => simp only [Option.some.injEq] at h; rw [← e, ← h]; exact hm
    · cases h
  · intro hm
    exact ⟨_, hm, by simp⟩

theorem prefix_mem {α : Type} {a b : List α} (h : a <+: b) {x : α} (hx : x ∈ a) : x ∈ b := by
  obtain ⟨t, rfl⟩ := h
  exact List.mem_append_left _ hx

/-- A block in the queue of a downloader came from its peer. -/
theorem queued_block {c : Cfg} {s0 s : State} {es : List Event} (h : Run c s0 es s) (h0 : ∀ q, s0.links q = .fresh)
    {q : Peer} {b : Piece} (hb : b ∈ (s.links q).blocks) : .piece b ∈ messagesFrom q es := by
  have h1 := prefix_mem (run_block h h0 q).1 (List.mem_append_right _ hb)
  simp only [List.mem_filterMap] at h1
  obtain ⟨m, hm, hmb⟩ := h1
  cases m <;> simp only [asBlock, reduceCtorEq, Option.some.injEq] at hmb
  subst hmb
  exact prefix_mem (run_hand h h0 q).1 (List.mem_append_left _ hm)

/-- What the manager heard of `q` is the beginning of what `q` sent it. -/
theorem heard_prefix {c : Cfg} {s0 s : State} {es : List Event} (h : Run c s0 es s) (h0 : ∀ q, s0.links q = .fresh)
    (hb : s0.inbox = []) (q : Peer) :
    ofPeer q (fromWire (managerHeard es)) <+: (messagesFrom q es).filter forManager := by
  have h1 : fromWire (managerHeard es) <+: (handedOver es).filter (fun x => forManager x.2) :=
    (List.prefix_append _ _).trans (run_box h hb).1
  have h2 : ofPeer q (handedOver es) <+: messagesFrom q es := (List.prefix_append _ _).trans (run_hand h h0 q).1
  have h3 : ofPeer q ((handedOver es).filter (fun x => forManager x.2)) = (ofPeer q (handedOver es)).filter forManager := by
    generalize handedOver es = l
    induction l with
    | nil => rfl
    | cons x l ih =>
      simp only [ofPeer] at ih ⊢
      by_cases hx : forManager x.2 <;> by_cases hk : x.1 = q <;> simp [List.filter_cons, List.filterMap_cons, hx, hk, ih]
  have h4 : ofPeer q (fromWire (managerHeard es)) <+: ofPeer q ((handedOver es).filter (fun x => forManager x.2)) := by
    obtain ⟨t, ht⟩ := h1
    rw [← ht, ofPeer_append]
    exact List.prefix_append _ _
  rw [h3] at h4
  obtain ⟨t, ht⟩ := h2
  rw [← ht, List.filter_append]
  exact h4.trans (List.prefix_append _ _)

/-- What is known of a peer, in terms of what was heard of it. -/
theorem view_heard (n : Nat) (q : Peer) (es : List TM.Event) (v : PeerView) (hv : view n q es = some v) :
    (v.choking = false → ∃ a b, ofPeer q (fromWire (es.filterMap fun e => match e with | .msg k m => some (k, m) | _ => none)) =
        a ++ .unchoke :: b ∧ .choke ∉ b) ∧
    ∀ i, v.announced i = true →
      (∃ j : U32, j.toNat = i ∧
        .have_ j ∈ ofPeer q (fromWire (es.filterMap fun e => match e with | .msg k m => some (k, m) | _ => none))) ∨
      ∃ b, .bitfield b ∈ ofPeer q (fromWire (es.filterMap fun e => match e with | .msg k m => some (k, m) | _ => none)) ∧
        b.length = (n + 7) / 8 ∧ bitAt b i = true := by
  obtain ⟨r, hr⟩ : ∃ r, r = es.reverse := ⟨_, rfl⟩
  have he : es = r.reverse := by rw [hr, List.reverse_reverse]
  clear hr
  subst he
  induction r generalizing v with
  | nil => simp [view] at hv
  | cons e r ih =>
    simp only [List.reverse_cons] at hv ⊢
    have hs : view n q (r.reverse ++ [e]) = viewStep n q (view n q r.reverse) e := by
      simp only [view, List.foldl_append, List.foldl_cons, List.foldl_nil]
    rw [hs] at hv
    simp only [List.filterMap_append, fromWire_append, ofPeer_append, List.mem_append]
    have same : view n q r.reverse = some v → ∀ t : List Message, .choke ∉ t →
        (v.choking = false → ∃ a b, ofPeer q (fromWire (r.reverse.filterMap fun e => match e with
            | .msg k m => some (k, m) | _ => none)) ++ t = a ++ .unchoke :: b ∧ .choke ∉ b) := by
      intro h t ht hc
      obtain ⟨a, b, h1, h2⟩ := (ih v h).1 hc
      exact ⟨a, b ++ t, by rw [h1]; simp, by simp only [List.mem_append]; exact fun h => h.elim h2 ht⟩
    have same' : ∀ t : List Message, view n q r.reverse = some v → ∀ i, v.announced i = true →
      (∃ j : U32, j.toNat = i ∧
        (.have_ j ∈ ofPeer q (fromWire (r.reverse.filterMap fun e => match e with | .msg k m => some (k, m) | _ => none)) ∨
          .have_ j ∈ t)) ∨
      ∃ b, (.bitfield b ∈ ofPeer q (fromWire (r.reverse.filterMap fun e => match e with | .msg k m => some (k, m) | _ => none)) ∨
          .bitfield b ∈ t) ∧ b.length = (n + 7) / 8 ∧ bitAt b i = true := by
      intro t h i hi
      rcases (ih v h).2 i hi with ⟨j, h1, h2⟩ | ⟨b, h1, h2⟩
      · exact .inl ⟨j, h1, .inl h2⟩
      · exact .inr ⟨b, .inl h1, h2⟩
    cases e with
    | msg k m =>
      simp only [viewStep] at hv
      split at hv
      · next hk =>
        subst hk
        cases hw : view n k r.reverse with
        | none => rw [hw] at hv; simp at hv
        | some w =>
          rw [hw] at hv same same'
          simp only [Option.bind_some] at hv
          have hw' := ih w hw
          cases m with
          | unreachable => simp [PeerView.hear] at hv
          | disconnected => simp [PeerView.hear] at hv
          | choke =>
            simp only [PeerView.hear, Option.some.injEq] at hv
            subst hv
            refine ⟨(by intro h; cases h), fun i hi => ?_⟩
            rcases hw'.2 i hi with ⟨j, h1, h2⟩ | ⟨b, h1, h2⟩
            · exact .inl ⟨j, h1, .inl h2⟩
            · exact .inr ⟨b, .inl h1, h2⟩
          | unchoke =>
            simp only [PeerView.hear, Option.some.injEq] at hv
            subst hv
            refine ⟨fun _ => ⟨_, [], by simp [fromWire, wireMessage, ofPeer]; rfl, by simp⟩, fun i hi => ?_⟩
            rcases hw'.2 i hi with ⟨j, h1, h2⟩ | ⟨b, h1, h2⟩
            · exact .inl ⟨j, h1, .inl h2⟩
            · exact .inr ⟨b, .inl h1, h2⟩
          | have_ j =>
            simp only [PeerView.hear, Option.some.injEq] at hv
            subst hv
            refine ⟨fun hc => ?_, fun i hi => ?_⟩
            · obtain ⟨a, b, h1, h2⟩ := hw'.1 hc
              exact ⟨a, b ++ [.have_ j], by rw [h1]; simp [fromWire, wireMessage, ofPeer], by simpa using h2⟩
            · simp only [Bool.or_eq_true, decide_eq_true_eq] at hi
              rcases hi with hi | hi
              · rcases hw'.2 i hi with ⟨j, h1, h2⟩ | ⟨b, h1, h2⟩
                · exact .inl ⟨j, h1, .inl h2⟩
                · exact .inr ⟨b, .inl h1, h2⟩
              · exact .inl ⟨j, hi.symm, .inr (by simp [fromWire, wireMessage, ofPeer])⟩
          | bitfield d =>
            simp only [PeerView.hear] at hv
            split at hv
            · next hd =>
              simp only [Option.some.injEq] at hv
              subst hv
              refine ⟨fun hc => ?_, fun i hi => ?_⟩
              · obtain ⟨a, b, h1, h2⟩ := hw'.1 hc
                exact ⟨a, b ++ [.bitfield d], by rw [h1]; simp [fromWire, wireMessage, ofPeer], by simpa using h2⟩
              · exact .inr ⟨d, .inr (by simp [fromWire, wireMessage, ofPeer]), hd.1, hi⟩
            · exact ⟨same hv _ (by simp [fromWire, wireMessage, ofPeer]), same' _ hv⟩
          | _ => exact ⟨same hv _ (by simp [fromWire, wireMessage, ofPeer]), same' _ hv⟩
      · next hk =>
        refine ⟨same hv _ ?_, same' _ hv⟩
        simp only [List.filterMap_cons, List.filterMap_nil, fromWire]
        cases wireMessage m <;> simp [ofPeer, hk]
    | tick batch =>
      simp only [viewStep] at hv
      split at hv
      · simp only [Option.some.injEq] at hv
        subst hv
        exact ⟨(by intro h; cases h), (by intro i h; cases h)⟩
      · exact ⟨same hv _ (by simp [fromWire, ofPeer]), same' _ hv⟩
    | _ => exact ⟨same hv _ (by simp [fromWire, ofPeer]), same' _ hv⟩

theorem managerHeard_eq (es : List Event) :
    managerHeard es = (managerEvents es).filterMap fun e => match e with | .msg k m => some (k, m) | _ => none := by
  induction es with
  | nil => rfl
  | cons e es ih =>
    simp only [managerHeard, managerEvents, List.filterMap_cons] at ih ⊢
    cases e with
    | man t => cases t <;> simp [ih]
    | _ => simp [ih]

/-! ## Where finished pieces come from -/

/-- Every stored block came in a message of some peer, for that piece and that place. -/
def ProvInv (es : List Event) (s : State) : Prop :=
  ∀ pi bi x, blockAt s.pend pi bi = some (.downloaded x) →
    ∃ q b, .piece b ∈ messagesFrom q es ∧ b.index.toNat = pi ∧ b.begin_.toNat = bi * 16384 ∧ b.block = x

theorem run_prov {c : Cfg} {s0 s : State} {es : List Event} (h : Run c s0 es s) (h0 : ∀ q, s0.links q = .fresh)
    (hi : s0.pend.Inv) (hp : s0.pend.data = []) : ProvInv es s := by
  induction h with
  | nil => intro pi bi x hx; simp [blockAt, hp] at hx
  | @snoc s1 s2 es e hr hs ih =>
    intro pi bi x hx
    rcases (step_pend (run_pend_inv hr hi) hs).2 pi bi x hx with hx | ⟨q, b, hb, h1, h2, h3⟩
    · obtain ⟨q, b, hb, hq⟩ := ih pi bi x hx
      exact ⟨q, b, by rw [messagesFrom_append]; exact List.mem_append_left _ hb, hq⟩
    · exact ⟨q, b, by rw [messagesFrom_append]; exact List.mem_append_left _ (queued_block hr h0 hb), h1, h2, h3⟩

theorem step_pieceLength {c : Cfg} {s s' : State} {e : Event} (hi : s.pend.Inv) (hs : Step c s e s') :
    s'.pend.pieceLength = s.pend.pieceLength := by
  cases hs with
  | @add k q i h tm' h1 h2 h3 h4 =>
    simp only [addPieceAnyway]
    split
    · next ha =>
      simp only [PendingPieces.addPiece] at ha
      split at ha
      · cases ha; rfl
      · split at ha
        · cases ha
        · obtain ⟨_, _, ha⟩ := Res.bind_eq_ok.mp ha
          cases ha; rfl
    · rfl
  | @dlBlock q b out rest d' pend' h1 h2 h3 h4 h5 h6 => exact (Dl.step_inv (s := ((s.links q).dl, s.pend)) hi h6).2
  | @dlReadd q i d' pend' h1 h2 h3 h4 h5 => exact (Dl.step_inv (s := ((s.links q).dl, s.pend)) hi h5).2
  | @dlTake q got d' pend' h1 h2 h3 h4 h5 => exact (Dl.step_inv (s := ((s.links q).dl, s.pend)) hi h5).2
  | @blockPanics q b rest h1 h2 h3 h4 h5 h6 h7 =>
    simp only [leftBehind]
    split
    · next r ha =>
      obtain ⟨p', r'⟩ := r
      rcases PendingPieces.addBlock_cases hi ha with ⟨_, rfl, _⟩ | ⟨_, _, _, _, _, _, _, rfl⟩ | ⟨_, _, _, _, _, _, _, _, _, rfl⟩ <;> rfl
    · rfl
  | _ => rfl

theorem run_pieceLength {c : Cfg} {s0 s : State} {es : List Event} (h : Run c s0 es s) (hi : s0.pend.Inv) :
    s.pend.pieceLength = s0.pend.pieceLength := by
  induction h with
  | nil => rfl
  | snoc hr hs ih => rw [step_pieceLength (run_pend_inv hr hi) hs, ih]

theorem Started.tm_inv {pieces : List ID} {pl : Nat} {s : State} (h : Started pieces pl s) :
    TM.Inv pieces.length s.tm ∧ s.tm.activePeers = [] ∧ s.tm.frequencyMap = List.replicate pieces.length 0 ∧
      s.tm.pieces = pieces := by
  obtain ⟨⟨ih, h1⟩, _⟩ := h.parts
  obtain ⟨s1, h2, h3⟩ := TM.init_inv (peers := .new ih) h.some List.nodup_nil
  rw [h1] at h2
  cases h2
  exact h3

theorem started_pieces {c : Cfg} {pieces : List ID} {pl : Nat} {s0 s : State} {es : List Event}
    (h0 : Started pieces pl s0) (h : Run c s0 es s) : s.tm.pieces = pieces := by
  obtain ⟨i0, i1, _, i3⟩ := h0.tm_inv
  rw [(TM.run_inv (tm_run h h0.parts.2.2.1).1 i0 i1).2.1, i3]

theorem run_hash {c : Cfg} {pieces : List ID} {pl : Nat} {s0 s : State} {es : List Event} (h0 : Started pieces pl s0)
    (h : Run c s0 es s) (q : Peer) : HashInv pieces (s.links q) := by
  obtain ⟨_, _, hm, hl, _⟩ := h0.parts
  induction h generalizing q with
  | nil => rw [hl q]; exact ⟨by simp [Link.fresh], by simp [Link.fresh, Dl.init]⟩
  | snoc hr hs ih => exact step_hash (started_pieces h0 hr) (tm_run hr hm).2 ih hs q

/-! ## Reports of finished pieces -/

/-- What is reported finished was completed. -/
def ReportInv (es : List Event) (s : State) : Prop :=
  (∀ q i bs, (q, .finishedPiece i bs) ∈ s.inbox → (i, bs) ∈ completedPieces es) ∧
  ∀ q i bs, (s.links q).report = some (i, bs) → (i, bs) ∈ completedPieces es

theorem completedPieces_append (a b : List Event) : completedPieces (a ++ b) = completedPieces a ++ completedPieces b := by
  simp only [completedPieces, List.filterMap_append]

end Swarm

end Nargun
