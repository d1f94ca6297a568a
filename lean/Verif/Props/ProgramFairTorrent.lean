import Verif.Props.ProgramAnswered
import Verif.Lemmas.SwarmFair

/-! # Everything a peer says is heard, in every fair execution: C148 -/

set_option linter.unusedSimpArgs false

namespace Nargun.Program

open Nargun Dht Krpc Spec DhtManager DhtSystem

variable {w : World} {u : Setup} {σ : Nat → State} {ev : Nat → Option Event}

/-- What has happened on the torrent side before a moment. -/
abbrev torrentUpto (ev : Nat → Option Event) (n : Nat) : List Swarm.Event := torrentEvents (upto ev n)

theorem torrentUpto_succ (n : Nat) : torrentUpto ev (n + 1) = torrentUpto ev n ++ torrentEvents (ev n).toList := by
  rw [torrentUpto, upto_succ]; exact List.filterMap_append

theorem torrentUpto_prefix {n m : Nat} (h : n ≤ m) : torrentUpto ev n <+: torrentUpto ev m := by
  induction h with
  | refl => exact List.prefix_refl _
  | step _ ih => rw [Nat.succ_eq_add_one, torrentUpto_succ]; exact ih.trans (List.prefix_append _ _)

theorem swarm_started (h0 : Started w u (σ 0)) : Swarm.Started u.pieces u.pieceLength (σ 0).swarm := by
  refine ⟨fun hp => ?_, ⟨u.infoHash, h0.swarm⟩⟩
  have := h0.swarm
  rw [hp] at this
  simp [Swarm.State.start, TM.init, Bitmap.new, unsignedCeilDiv, usub] at this

/-- One moment to the next, on the torrent side. -/
theorem torrent_next (hx : Execution w σ ev) (m : Nat) :
    ((σ (m + 1)).swarm = (σ m).swarm ∧ torrentEvents (ev m).toList = []) ∨
    ∃ e x, ev m = some e ∧ torrentEvents (ev m).toList = [x] ∧ Swarm.Step w.cfg (σ m).torrent x (σ (m + 1)).swarm := by
  cases he : ev m with
  | none => exact .inl ⟨by rw [hx.idle m he], rfl⟩
  | some e =>
    have hs := hx.step m e he
    generalize σ (m + 1) = s' at hs
    cases hs.2 with
    | torrent _ h => exact .inr ⟨_, _, rfl, rfl, h⟩
    | node h => exact .inr ⟨_, _, rfl, rfl, h⟩
    | tableEnds _ _ _ h => exact .inr ⟨_, _, rfl, rfl, h⟩
    | _ => exact .inl ⟨rfl, rfl⟩

section
variable (h0 : Started w u (σ 0)) (hx : Execution w σ ev)
include h0 hx

/-- What is known of the torrent side at every moment. -/
theorem torrent_known (n : Nat) : ∃ l, Swarm.Run w.cfg (σ 0).swarm l (σ n).torrent ∧
    l.filter (fun x => !isShared x) = torrentUpto ev n := started_torrent h0 (exec_run hx n)

theorem torrent_delivery (n : Nat) :
    (∀ q, (((σ n).swarm.links q).con ≠ .ended →
      ofPeer q (handedOver (torrentUpto ev n)) ++ inHand ((σ n).swarm.links q) = messagesFrom q (torrentUpto ev n))) ∧
    ((σ n).swarm.man ≠ .dead → fromWire (managerHeard (torrentUpto ev n)) ++ fromWire (σ n).swarm.inbox =
      (handedOver (torrentUpto ev n)).filter (fun x => forManager x.2)) ∧
    (∀ q, blocksHeard q (torrentUpto ev n) ++ ((σ n).swarm.links q).blocks <+:
        (ofPeer q (handedOver (torrentUpto ev n))).filterMap asBlock ∧
      (((σ n).swarm.links q).dlAlive = true → blocksHeard q (torrentUpto ev n) ++ ((σ n).swarm.links q).blocks =
        (ofPeer q (handedOver (torrentUpto ev n))).filterMap asBlock)) ∧
    (dhtHeard (torrentUpto ev n) ++ (σ n).swarm.dht <+: (handedOver (torrentUpto ev n)).filterMap asNode ∧
      ((σ n).swarm.dhtOpen = true →
        dhtHeard (torrentUpto ev n) ++ (σ n).swarm.dht = (handedOver (torrentUpto ev n)).filterMap asNode)) := by
  obtain ⟨l, hl, hf⟩ := torrent_known h0 hx n
  have e1 : handedOver l = handedOver (torrentUpto ev n) := filterMap_shared _ (fun _ => rfl) hf
  have e2 : managerHeard l = managerHeard (torrentUpto ev n) := filterMap_shared _ (fun _ => rfl) hf
  have e3 : ∀ q, blocksHeard q l = blocksHeard q (torrentUpto ev n) := fun q => filterMap_shared _ (fun _ => rfl) hf
  have e4 : dhtHeard l = dhtHeard (torrentUpto ev n) := filterMap_shared _ (fun _ => rfl) hf
  have e5 : ∀ q, messagesFrom q l = messagesFrom q (torrentUpto ev n) := fun q => filterMap_shared _ (fun _ => rfl) hf
  obtain ⟨d1, d2, d3, d4⟩ := Swarm.C109_delivery _ _ _ _ _ _ (swarm_started h0) hl
  rw [e1] at d1 d2 d3 d4
  rw [e2] at d2
  rw [e4] at d4
  refine ⟨fun q => ?_, d2.2, fun q => ?_, d4⟩
  · have := (d1 q).2
    rw [e5] at this
    exact this
  · have := d3 q
    rw [e3] at this
    exact this

theorem torrent_bounded (n : Nat) : (σ n).swarm.inbox.length ≤ 32 ∧ (σ n).swarm.dht.length ≤ 32 ∧
    ∀ q, ((σ n).swarm.links q).commands.length ≤ 32 ∧ ((σ n).swarm.links q).blocks.length ≤ 32 := by
  obtain ⟨l, hl, _⟩ := torrent_known h0 hx n
  obtain ⟨h1, h2, h3⟩ := Swarm.C113_queues_bounded _ _ _ _ _ _ (swarm_started h0) hl
  exact ⟨h1, h2, fun q => ⟨(h3 q).1, (h3 q).2.1⟩⟩

theorem torrent_waiting (n : Nat) : Swarm.Waiting (σ n).torrent ∧ Swarm.ConnInv (σ n).torrent ∧ (σ n).torrent.pend.Inv := by
  obtain ⟨l, hl, _⟩ := torrent_known h0 hx n
  have hs := swarm_started h0
  exact ⟨(Swarm.tm_run hl hs.parts.2.2.1).2, Swarm.run_conn hl hs.parts.2.2.1 (Swarm.started_conn hs),
    Swarm.run_pend_inv hl (PendingPieces.new_inv hs.parts.2.1).1⟩

theorem torrent_idle (hw : w.cfg.AsWritten) (n : Nat) :
    (∀ q, Swarm.Idle ((σ n).torrent.links q)) ∧ ∀ q i, ((σ n).torrent.links q).dl.pc ≠ .readd i := by
  obtain ⟨l, hl, _⟩ := torrent_known h0 hx n
  exact Swarm.run_idle hw (swarm_started h0) hl

theorem spawned_of {n : Nat} {q : Peer} (h : (σ n).torrent.links q ≠ .fresh) : (σ n).torrent.Spawned q :=
  Classical.byContradiction fun hs => h ((torrent_waiting h0 hx n).2.1.fresh q hs)

variable (hn : ∀ n, ev n ≠ some .exits)
include hn

theorem torrent_possible {n : Nat} {A : Event → Prop}
    (h : ∃ x b, OwnTorrent x ∧ A (.torrent x) ∧ Swarm.Step w.cfg (σ n).torrent x b) : Possible w (σ n) A := by
  obtain ⟨x, b, h1, h2, h3⟩ := h
  exact ⟨.torrent x, _, h2, alive_exec h0 hx hn n, .torrent h1 h3⟩

/-! ## The downloaders -/

variable (hw : w.cfg.AsWritten) (hf : FairTorrent w σ ev)
include hw hf

/-- A downloader comes back to waiting. -/
theorem downloader_returns {q : Peer} {n : Nat} (hal : ∀ m, n ≤ m → ((σ m).swarm.links q).dlAlive = true)
    (hsp : ∀ m, n ≤ m → (σ m).torrent.Spawned q) : ∃ m, n ≤ m ∧ ((σ m).swarm.links q).dl.pc = .select := by
  refine Classical.byContradiction fun hc => ?_
  have hno : ∀ m, n ≤ m → ((σ m).swarm.links q).dl.pc ≠ .select := fun m hm h => hc ⟨m, hm, h⟩
  have key : ∀ m, n ≤ m → Swarm.dlRank ((σ (m + 1)).swarm.links q) ≤ Swarm.dlRank ((σ m).swarm.links q) ∧
      ∀ e, ev m = some e → DownloaderWorks q e →
        Swarm.dlRank ((σ (m + 1)).swarm.links q) < Swarm.dlRank ((σ m).swarm.links q) := by
    intro m hm
    rcases torrent_next hx m with ⟨h1, h2⟩ | ⟨e, x, h1, h2, h3⟩
    · refine ⟨by rw [h1]; exact Nat.le_refl _, fun e he hwk => ?_⟩
      rw [he] at h2
      cases e <;> first | exact absurd hwk id | cases h2
    · obtain ⟨i1, i2⟩ := torrent_idle h0 hx hw m
      obtain ⟨r1, r2⟩ := Swarm.dl_rank hw (torrent_waiting h0 hx m).2.2 i1 i2 h3 (hal (m + 1) (by omega)) (hno m hm)
        (hno (m + 1) (by omega))
      refine ⟨r1, fun e' he' hwk => ?_⟩
      rw [he'] at h2
      cases e' with
      | torrent y => cases h2; exact r2 hwk
      | _ => exact absurd hwk id
  obtain ⟨k, hk, hset⟩ := settles (fun m => Swarm.dlRank ((σ m).swarm.links q)) n (fun m hm => (key m hm).1)
  obtain ⟨m, e, q1, q2, q3⟩ := happens (hf.downloaderWorks q) (n := k) (fun m hm => torrent_possible h0 hx hn
    (Swarm.dl_works hw (torrent_idle h0 hx hw m).1 (torrent_idle h0 hx hw m).2 (hsp m (by omega)) (hal m (by omega))
      (hno m (by omega))))
  have := (key m (by omega)).2 e q2 q3
  have := hset m q1
  omega

/-- A full queue of commands does not stay full. -/
theorem commands_free {q : Peer} {n : Nat} (hal : ∀ m, n ≤ m → ((σ m).swarm.links q).dlAlive = true)
    (hsp : ∀ m, n ≤ m → (σ m).torrent.Spawned q) : ∃ m, n ≤ m ∧ ((σ m).swarm.links q).commands.length < 32 := by
  refine Classical.byContradiction fun hc => ?_
  have hfull : ∀ m, n ≤ m → ¬ ((σ m).swarm.links q).commands.length < 32 := fun m hm h => hc ⟨m, hm, h⟩
  obtain ⟨m, e, q1, q2, q3⟩ := hf.downloaderTakesCommand q (fun k => by
    obtain ⟨m, hm, hs⟩ := downloader_returns h0 hx hn hw hf (q := q) (n := max k n) (fun m hm => hal m (by omega))
      (fun m hm => hsp m (by omega))
    refine ⟨m, by omega, torrent_possible h0 hx hn (Swarm.dl_takes_command (torrent_idle h0 hx hw m).1 (hsp m (by omega))
      (hal m (by omega)) hs ?_)⟩
    intro h
    have h : ((σ m).swarm.links q).commands = [] := h
    exact hfull m (by omega) (by rw [h]; simp)) n
  rcases torrent_next hx m with ⟨_, h2⟩ | ⟨e', x, h1, h2, h3⟩
  · rw [q2] at h2
    cases e <;> first | exact absurd q3 id | cases h2
  · rw [q2] at h2
    cases e with
    | torrent y =>
      cases h2
      have := Swarm.command_taken h3 q3
      have hb : ((σ m).torrent.links q).commands.length ≤ 32 := ((torrent_bounded h0 hx m).2.2 q).1
      exact hfull (m + 1) (by omega) (by omega)
    | _ => exact absurd q3 id

/-- The downloader takes blocks again and again as long as there are any. -/
theorem blocks_often {q : Peer} {n : Nat} (hal : ∀ m, n ≤ m → ((σ m).swarm.links q).dlAlive = true)
    (hne : ∀ m, n ≤ m → ((σ m).swarm.links q).blocks ≠ []) (k : Nat) : ∃ m, k ≤ m ∧ n ≤ m ∧
      ((σ (m + 1)).swarm.links q).blocks.length + 1 = ((σ m).swarm.links q).blocks.length ∧
      (blocksHeard q (torrentEvents (ev m).toList)).length = 1 := by
  have hsp : ∀ m, n ≤ m → (σ m).torrent.Spawned q := fun m hm => spawned_of h0 hx fun h => by
    have h : (σ m).swarm.links q = .fresh := h
    exact hne m hm (by rw [h]; rfl)
  obtain ⟨m, e, q1, q2, q3⟩ := hf.downloaderTakesBlock q (fun k => by
    obtain ⟨m, hm, hs⟩ := downloader_returns h0 hx hn hw hf (q := q) (n := max k n) (fun m hm => hal m (by omega))
      (fun m hm => hsp m (by omega))
    exact ⟨m, by omega, torrent_possible h0 hx hn (Swarm.dl_takes_block (torrent_idle h0 hx hw m).1 (hsp m (by omega))
      (hal m (by omega)) hs (hne m (by omega)))⟩) (max k n)
  refine ⟨m, by omega, by omega, ?_⟩
  rcases torrent_next hx m with ⟨_, h2⟩ | ⟨e', x, h1, h2, h3⟩
  · rw [q2] at h2
    cases e <;> first | exact absurd q3 id | cases h2
  · rw [h2]
    rw [q2] at h2
    cases e with
    | torrent y =>
      cases h2
      rcases Swarm.block_taken h3 q3 with h | h
      · rw [hal (m + 1) (by omega)] at h; cases h
      · exact h
    | _ => exact absurd q3 id

/-! ## The manager -/

variable (hd : ∀ n, (σ n).swarm.man ≠ .dead)
include hd

/-- The manager comes back to waiting. -/
theorem manager_returns (n : Nat) : ∃ m, n ≤ m ∧ (σ m).torrent.Selects := by
  refine Classical.byContradiction fun hc => ?_
  have hno : ∀ m, n ≤ m → ¬ (σ m).torrent.Selects := fun m hm h => hc ⟨m, hm, h⟩
  have key : ∀ m, n ≤ m → Swarm.manRank (σ (m + 1)).swarm ≤ Swarm.manRank (σ m).swarm ∧
      ∀ e, ev m = some e → ManagerWorks e → Swarm.manRank (σ (m + 1)).swarm < Swarm.manRank (σ m).swarm := by
    intro m hm
    rcases torrent_next hx m with ⟨h1, h2⟩ | ⟨e, x, h1, h2, h3⟩
    · refine ⟨by rw [h1]; exact Nat.le_refl _, fun e he hwk => ?_⟩
      rw [he] at h2
      cases e <;> first | exact absurd hwk id | cases h2
    · obtain ⟨r1, r2⟩ := Swarm.man_rank h3 (hd (m + 1)) (hno m hm)
      refine ⟨r1, fun e' he' hwk => ?_⟩
      rw [he'] at h2
      cases e' with
      | torrent y => cases h2; exact r2 hwk
      | _ => exact absurd hwk id
  obtain ⟨k, hk, hset⟩ := settles (fun m => Swarm.manRank (σ m).swarm) n (fun m hm => (key m hm).1)
  have quiet : ∀ m e, k ≤ m → ev m = some e → ¬ ManagerWorks e := fun m e hm he hwk => by
    have := (key m (by omega)).2 e he hwk
    have := hset m hm
    omega
  obtain ⟨k2, hk2, hstop⟩ := fair_stops hf.managerWorks quiet
  -- so it waits for a downloader
  obtain ⟨q, i, h, hs⟩ : ∃ q i h, (σ k2).swarm.man = .sending q i h := by
    refine Classical.byContradiction fun hs => hstop k2 (Nat.le_refl _) (torrent_possible h0 hx hn
      (Swarm.man_works (torrent_waiting h0 hx k2).1 (hd k2) (hno k2 (by omega)) ?_))
    intro q i h hm
    exact absurd ⟨q, i, h, hm⟩ hs
  have hstay : ∀ m, k2 ≤ m → (σ m).swarm.man = .sending q i h := by
    intro m hm
    induction hm with
    | refl => exact hs
    | @step m hm ih =>
      have hm : k2 ≤ m := hm
      rcases torrent_next hx m with ⟨h1, _⟩ | ⟨e, x, h1, h2, h3⟩
      · rw [Nat.succ_eq_add_one, h1]; exact ih
      · rcases Swarm.sending_next h3 ih with h4 | h4
        · rw [Nat.succ_eq_add_one, h4]; exact ih
        · rw [h1] at h2
          cases e with
          | torrent y => cases h2; exact absurd h4 (quiet m _ (by omega) h1)
          | node => cases h2; exact absurd h4 id
          | tableEnds => cases h2; exact absurd h4 id
          | _ => cases h2
  have hroom : ∀ m, k2 ≤ m → ¬ (((σ m).swarm.links q).dlAlive = false ∨ ((σ m).swarm.links q).commands.length < 32) := by
    intro m hm hr
    refine hstop m hm (torrent_possible h0 hx hn
      (Swarm.man_works (torrent_waiting h0 hx m).1 (hd m) (hno m (by omega)) ?_))
    intro q' i' h' hm'
    have := hstay m hm
    rw [show (σ m).swarm.man = _ from hm'] at this
    cases this
    exact hr
  obtain ⟨m, hm, hlt⟩ := commands_free h0 hx hn hw hf (q := q) (n := k2)
    (fun m hm => by
      cases hal : ((σ m).swarm.links q).dlAlive with
      | true => rfl
      | false => exact absurd (.inl hal) (hroom m hm))
    (fun m hm => by
      obtain ⟨w1, w2, w3⟩ := torrent_waiting h0 hx m
      have := (w1 q i h (.inl (hstay m hm))).2.1
      rw [w2.table] at this
      exact this)
  exact hroom m hm (.inr hlt)

/-- The manager takes messages again and again as long as there are any. -/
theorem hears_often {n : Nat} (hne : ∀ m, n ≤ m → (σ m).swarm.inbox ≠ []) (k : Nat) : ∃ m, k ≤ m ∧ n ≤ m ∧
      (σ (m + 1)).swarm.inbox.length + 1 = (σ m).swarm.inbox.length ∧
      (managerHeard (torrentEvents (ev m).toList)).length = 1 := by
  obtain ⟨m, e, q1, q2, q3⟩ := hf.managerHears (fun k => by
    obtain ⟨m, hm, hs⟩ := manager_returns h0 hx hn hw hf hd (max k n)
    exact ⟨m, by omega, torrent_possible h0 hx hn (Swarm.man_hears hs (hne m (by omega)))⟩) (max k n)
  refine ⟨m, by omega, by omega, ?_⟩
  rcases torrent_next hx m with ⟨_, h2⟩ | ⟨e', x, h1, h2, h3⟩
  · rw [q2] at h2
    cases e <;> first | exact absurd q3 id | cases h2
  · rw [h2]
    rw [q2] at h2
    cases e with
    | torrent y =>
      cases h2
      rcases Swarm.man_heard h3 q3 with h | h
      · exact absurd h (hd (m + 1))
      · exact h
    | _ => exact absurd q3 id

end

/-! ## The queue of nodes -/

theorem dhtOpen_next {s s' : State} {e : Event} (hs : Step w s e s') (h : s.swarm.dhtOpen = false) :
    s'.swarm.dhtOpen = false := by
  have key : ∀ {x : Swarm.Event} {b : Swarm.State}, Swarm.Step w.cfg s.torrent x b → b.dhtOpen = false := by
    intro x b hs
    cases hs with
    | dhtEnds => rfl
    | _ => exact h
  cases hs.2 with
  | torrent _ h => exact key h
  | node h => exact key h
  | tableEnds _ _ _ h => exact key h
  | _ => exact h

section
variable (ht : Reachable u.table) (h0 : Started w u (σ 0)) (hx : Execution w σ ev) (hf : FairTorrent w σ ev)
  (hn : ∀ n, ev n ≠ some .exits) (hj : ∀ n, ¬ (TableJam (σ n) ∨ LookupJam (σ n)))
include ht h0 hx hf hn hj

/-- The table task takes nodes again and again as long as there are any. -/
theorem nodes_often {n : Nat} (hop : ∀ m, n ≤ m → (σ m).swarm.dhtOpen = true) (hne : ∀ m, n ≤ m → (σ m).swarm.dht ≠ [])
    (k : Nat) : ∃ m, k ≤ m ∧ n ≤ m ∧ (σ (m + 1)).swarm.dht.length + 1 = (σ m).swarm.dht.length ∧
      (dhtHeard (torrentEvents (ev m).toList)).length = 1 := by
  have nx := no_exit_upto h0 hx hn
  by_cases hrun : ∀ m, (σ m).dht.man.status = .running
  · obtain ⟨m, e, q1, q2, q3⟩ := hf.tableTakesNode (fun k => by
      obtain ⟨m, hm, hs⟩ := table_returns_always ht h0 hx hf.toFairDht hn hrun hj (max k n)
      refine ⟨m, by omega, ?_⟩
      obtain ⟨l, hl, _⟩ := started_dht h0 (exec_run hx m)
      cases hds : (σ m).swarm.dht with
      | nil => exact absurd hds (hne m (by omega))
      | cons ad ads =>
        obtain ⟨m', outs, j1, j2⟩ := (C99_total ht .nil (Flow.run hl).man).2.2.1 ad
        exact ⟨.node ad outs, _, trivial, alive_exec h0 hx hn m,
          .node (.dhtTakes (s := (σ m).torrent) hds (hop m (by omega)))
            (.direct (s := (σ m).nodes) hs trivial (.peerNode (hrun m) j1))⟩) (max k n)
    refine ⟨m, by omega, by omega, ?_⟩
    cases e with
    | node ad outs =>
      have hs := hx.step m _ q2
      rw [q2]
      generalize σ (m + 1) = s' at hs
      cases hs.2 with
      | node h =>
        cases h with
        | dhtTakes h => exact ⟨by rw [show (σ m).swarm.dht = _ from h]; rfl, rfl⟩
    | _ => exact absurd q3 id
  · obtain ⟨m0, hm0⟩ := Classical.not_forall.mp hrun
    have c1 : ∀ m, m0 ≤ m → (σ m).dht.man.status ≠ .running := fun m hm =>
      exec_keeps hx (P := fun s => s.dht.man.status ≠ .running) (fun _ _ _ => table_ended) hm hm0
    obtain ⟨k2, hk2, c2⟩ := table_writes h0 hx hf.toFair hn c1
    have hclosed : ∀ j m, ev j = some .tableEnds → j < m → (σ m).swarm.dhtOpen = false := by
      intro j m hjv hm
      refine exec_keeps hx (P := fun s => s.swarm.dhtOpen = false) (fun _ _ _ => dhtOpen_next) (show j + 1 ≤ m from hm) ?_
      have hs := hx.step j _ hjv
      generalize σ (j + 1) = s' at hs
      cases hs.2 with
      | tableEnds _ _ _ h => cases h; rfl
    have hno : ∀ j, ev j ≠ some .tableEnds := fun j hjv => by
      have := hop (max n (j + 1)) (by omega)
      rw [hclosed j _ hjv (by omega)] at this
      cases this
    obtain ⟨m, e, _, q2, q3⟩ := happens hf.tableEnds (n := k2) (fun m hm =>
      end_possible h0 (exec_run hx m) (nx m) (fun he => by
        obtain ⟨k, _, hk⟩ := List.mem_filterMap.mp he
        exact hno k hk) (c1 m (by omega)) (c2 m hm))
    exact absurd (q3 ▸ q2) (hno m)

end

/-! ## The connections -/

section
variable (hw : w.cfg.AsWritten) (ht : Reachable u.table) (h0 : Started w u (σ 0)) (hx : Execution w σ ev)
  (hf : FairTorrent w σ ev) (hn : ∀ n, ev n ≠ some .exits) (hd : ∀ n, (σ n).swarm.man ≠ .dead)
  (hj : ∀ n, ¬ (TableJam (σ n) ∨ LookupJam (σ n)))
include hw ht h0 hx hf hn hd hj

/-- A connection works off what it has read. -/
theorem connection_returns (q : Peer) (n : Nat) : ∃ m, n ≤ m ∧ ¬ ((σ m).swarm.links q).Busy := by
  refine Classical.byContradiction fun hc => ?_
  have hb : ∀ m, n ≤ m → ((σ m).swarm.links q).Busy := fun m hm => Classical.byContradiction fun h => hc ⟨m, hm, h⟩
  have hsp : ∀ m, n ≤ m → (σ m).torrent.Spawned q := fun m hm => spawned_of h0 hx fun h => by
    have h : (σ m).swarm.links q = .fresh := h
    have := hb m hm
    rw [h] at this
    rcases this with h | ⟨_, h⟩ <;> cases h
  have key : ∀ m, n ≤ m → Swarm.conRank ((σ (m + 1)).swarm.links q) ≤ Swarm.conRank ((σ m).swarm.links q) ∧
      (∀ e, ev m = some e → ConnectionParses q e ∨ ConnectionHands q e →
        Swarm.conRank ((σ (m + 1)).swarm.links q) < Swarm.conRank ((σ m).swarm.links q)) ∧
      ((∀ e, ev m = some e → ¬ (ConnectionParses q e ∨ ConnectionHands q e)) →
        ((σ (m + 1)).swarm.links q).con = ((σ m).swarm.links q).con) := by
    intro m hm
    rcases torrent_next hx m with ⟨h1, h2⟩ | ⟨e, x, h1, h2, h3⟩
    · refine ⟨by rw [h1]; exact Nat.le_refl _, fun e he hwk => ?_, fun _ => by rw [h1]⟩
      rw [he] at h2
      cases e <;> first | (rcases hwk with h | h <;> exact absurd h id) | cases h2
    · obtain ⟨r1, r2, r3⟩ := Swarm.con_rank h3 (hb m hm) (hb (m + 1) (by omega))
      rw [h1] at h2
      refine ⟨r1, fun e' he' hwk => ?_, fun hno => ?_⟩
      · rw [h1] at he'
        cases he'
        cases e with
        | torrent y => cases h2; exact r2 hwk
        | _ => rcases hwk with h | h <;> exact absurd h id
      · rcases r3 with h | h
        · exact h
        · cases e with
          | torrent y => cases h2; exact absurd h (hno _ h1)
          | node => cases h2; rcases h with h | h <;> exact absurd h id
          | tableEnds => cases h2; rcases h with h | h <;> exact absurd h id
          | _ => cases h2
  obtain ⟨k, hk, hset⟩ := settles (fun m => Swarm.conRank ((σ m).swarm.links q)) n (fun m hm => (key m hm).1)
  have quiet : ∀ m e, k ≤ m → ev m = some e → ¬ (ConnectionParses q e ∨ ConnectionHands q e) := fun m e hm he hwk => by
    have := (key m (by omega)).2.1 e he hwk
    have := hset m hm
    omega
  obtain ⟨k1, hk1, hstop1⟩ := fair_stops (hf.connectionParses q) (fun m e hm he h => quiet m e hm he (.inl h))
  obtain ⟨k2, hk2, hstop2⟩ := fair_stops (hf.connectionHands q) (fun m e hm he h => quiet m e hm he (.inr h))
  -- so it has a message in hand for ever
  obtain ⟨msg, hmsg⟩ : ∃ msg, ((σ (max k1 k2)).swarm.links q).con = .handing msg := by
    rcases hb (max k1 k2) (by omega) with h | h
    · exact absurd (torrent_possible h0 hx hn (Swarm.con_parses (hsp _ (by omega)) h)) (hstop1 _ (by omega))
    · exact h
  have hstay : ∀ m, max k1 k2 ≤ m → ((σ m).swarm.links q).con = .handing msg := by
    intro m hm
    induction hm with
    | refl => exact hmsg
    | @step m hm ih =>
      have hm : max k1 k2 ≤ m := hm
      rw [Nat.succ_eq_add_one, (key m (by omega)).2.2 (fun e he => quiet m e (by omega) he)]; exact ih
  -- and nobody makes room for it
  have hno : ∀ m, max k1 k2 ≤ m →
      ¬ (((asBlock msg).isSome → ((σ m).swarm.links q).dlAlive = false ∨ ((σ m).swarm.links q).blocks.length < 32) ∧
        ((asNode (q, msg)).isSome → (σ m).swarm.dhtOpen = false ∨ (σ m).swarm.dht.length < 32) ∧
        (forManager msg = true → (σ m).swarm.inbox.length < 32)) := by
    rintro m hm ⟨a1, a2, a3⟩
    exact hstop2 m (by omega) (torrent_possible h0 hx hn (Swarm.con_hands (hsp m (by omega)) (hstay m hm) a1 a2
      (fun h => .inr (a3 h))))
  cases hkind : asBlock msg with
  | some bl =>
    obtain rfl : msg = .piece bl := by cases msg <;> simp [asBlock] at hkind; rw [hkind]
    have hfull : ∀ m, max k1 k2 ≤ m → ¬ (((σ m).swarm.links q).dlAlive = false ∨ ((σ m).swarm.links q).blocks.length < 32) :=
      fun m hm h => hno m hm ⟨fun _ => h, by simp [asNode], by simp [forManager]⟩
    obtain ⟨m, _, hm, h1, _⟩ := blocks_often h0 hx hn hw hf (q := q) (n := max k1 k2)
      (fun m hm => by
        cases hal : ((σ m).swarm.links q).dlAlive with
        | true => rfl
        | false => exact absurd (.inl hal) (hfull m hm))
      (fun m hm h => hfull m hm (.inr (by rw [h]; simp))) 0
    have := ((torrent_bounded h0 hx m).2.2 q).2
    exact hfull (m + 1) (by omega) (.inr (by omega))
  | none =>
    cases hnode : asNode (q, msg) with
    | some ad =>
      obtain ⟨pt, rfl⟩ : ∃ pt, msg = .port pt := by cases msg <;> simp [asNode] at hnode; exact ⟨_, rfl⟩
      have hfull : ∀ m, max k1 k2 ≤ m → ¬ ((σ m).swarm.dhtOpen = false ∨ (σ m).swarm.dht.length < 32) :=
        fun m hm h => hno m hm ⟨by simp [asBlock], fun _ => h, by simp [forManager]⟩
      obtain ⟨m, _, hm, h1, _⟩ := nodes_often ht h0 hx hf hn hj (n := max k1 k2)
        (fun m hm => by
          cases hal : (σ m).swarm.dhtOpen with
          | true => rfl
          | false => exact absurd (.inl hal) (hfull m hm))
        (fun m hm h => hfull m hm (.inr (by rw [h]; simp))) 0
      have := (torrent_bounded h0 hx m).2.1
      exact hfull (m + 1) (by omega) (.inr (by omega))
    | none =>
      have hfull : ∀ m, max k1 k2 ≤ m → ¬ (σ m).swarm.inbox.length < 32 :=
        fun m hm h => hno m hm ⟨by simp [hkind], by simp [hnode], fun _ => h⟩
      obtain ⟨m, _, hm, h1, _⟩ := hears_often h0 hx hn hw hf hd (n := max k1 k2)
        (fun m hm h => hfull m hm (by rw [h]; simp)) 0
      have := (torrent_bounded h0 hx m).1
      exact hfull (m + 1) (by omega) (by omega)

/-- What was read from a peer is recognised and handed over. -/
theorem handed_over (q : Peer) (n : Nat) : ∃ m, n ≤ m ∧ (((σ m).swarm.links q).con = .ended ∨
    ∀ ms : List Message, (∀ x ∈ ms, (wire x).length ≤ MAX_MESSAGE_BYTES) → bytesFrom q (torrentUpto ev m) <+: wireAll ms →
      ∃ k, ofPeer q (handedOver (torrentUpto ev m)) = ms.take k ∧
        DeliveredExactly ms k (bytesFrom q (torrentUpto ev m)).length) := by
  obtain ⟨m, hm, hb⟩ := connection_returns hw ht h0 hx hf hn hd hj q n
  refine ⟨m, hm, ?_⟩
  obtain ⟨l, hl, hfl⟩ := torrent_known h0 hx m
  have e1 : readsFrom q l = readsFrom q (torrentUpto ev m) := filterMap_shared _ (fun _ => rfl) hfl
  have e2 : messagesFrom q l = messagesFrom q (torrentUpto ev m) := filterMap_shared _ (fun _ => rfl) hfl
  have hs := swarm_started h0
  have hread := Swarm.run_read hl hs.parts.2.2.2.1 q
  have hdel := (torrent_delivery h0 hx m).1 q
  by_cases hend : ((σ m).swarm.links q).con = .ended
  · exact .inl hend
  refine .inr fun ms hfit hpre => ?_
  have hin : inHand ((σ m).swarm.links q) = [] := by
    unfold inHand
    split
    · next msg h => exact absurd (.inr ⟨msg, h⟩) hb
    · rfl
  have hd' := hdel hend
  rw [hin, List.append_nil] at hd'
  rw [hd']
  have start : ∀ {cc : Swarm.ConPc}, ((σ m).torrent.links q).con = cc → (cc = .handshake ∨ cc = .unreachable) →
      ∃ k, messagesFrom q (torrentUpto ev m) = ms.take k ∧ DeliveredExactly ms k (bytesFrom q (torrentUpto ev m)).length := by
    intro cc hcc hor
    have hrd : readsFrom q (torrentUpto ev m) = [] ∧ messagesFrom q (torrentUpto ev m) = [] := by
      rw [← e1, ← e2]
      rcases hor with rfl | rfl <;> (simp only [Swarm.ReadInv, hcc] at hread; exact ⟨hread.1, hread.2.1⟩)
    refine ⟨0, by simp [hrd.2], Nat.zero_le _, by simp [bytesFrom, hrd.1, wireAll], fun hlt => ?_⟩
    simp only [bytesFrom, hrd.1, List.flatten_nil, List.length_nil]
    cases ms with
    | nil => simp at hlt
    | cons x xs => have := wire_length_ge x; simp [wireAll]; omega
  cases hcon : ((σ m).swarm.links q).con with
  | ended => exact absurd hcon hend
  | handing msg => exact absurd (.inr ⟨msg, hcon⟩) hb
  | parsing => exact absurd (.inl hcon) hb
  | handshake => exact start hcon (.inl rfl)
  | unreachable => exact start hcon (.inr rfl)
  | reading =>
    have h8 := (Swarm.C108_stream_to_messages _ _ _ _ _ _ hs hl q ms hfit (by rw [bytesFrom, e1]; exact hpre)).2 hcon
    rw [e2, bytesFrom, e1] at h8
    exact h8

end

/-! ## What was handed over is taken -/

theorem fromWire_prefix {a b : List (Peer × ConMessageType)} (h : a <+: b) : fromWire a <+: fromWire b := h.filterMap _

section
variable (h0 : Started w u (σ 0)) (hx : Execution w σ ev) (hn : ∀ n, ev n ≠ some .exits) (hw : w.cfg.AsWritten)
  (hf : FairTorrent w σ ev)
include h0 hx hn hw hf

theorem manager_took (hd : ∀ n, (σ n).swarm.man ≠ .dead) (n : Nat) : ∃ m, n ≤ m ∧
    (handedOver (torrentUpto ev n)).filter (fun x => forManager x.2) <+: fromWire (managerHeard (torrentUpto ev m)) := by
  have hG : ∀ m, n ≤ m → managerHeard (torrentUpto ev n) ++ (σ n).swarm.inbox <+:
      managerHeard (torrentUpto ev m) ++ (σ m).swarm.inbox := by
    intro m hm
    induction hm with
    | refl => exact List.prefix_refl _
    | @step m hm ih =>
      refine ih.trans ?_
      rw [Nat.succ_eq_add_one, torrentUpto_succ, Swarm.managerHeard_append, List.append_assoc]
      refine (List.prefix_append_right_inj _).mpr ?_
      rcases torrent_next hx m with ⟨h1, h2⟩ | ⟨e, x, h1, h2, h3⟩
      · rw [h1, h2]; exact List.prefix_refl _
      · have hb : (σ m).torrent.inbox <+: _ := Swarm.box_next h3 (hd (m + 1))
        rw [h2]; exact hb
  have hgoal : ∀ m, n ≤ m → managerHeard (torrentUpto ev n) ++ (σ n).swarm.inbox <+: managerHeard (torrentUpto ev m) →
      (handedOver (torrentUpto ev n)).filter (fun x => forManager x.2) <+: fromWire (managerHeard (torrentUpto ev m)) := by
    intro m hm hp
    rw [← (torrent_delivery h0 hx n).2.1 (hd n)]
    have := fromWire_prefix hp
    rwa [fromWire, List.filterMap_append] at this
  refine Classical.byContradiction fun hc => ?_
  have hlt : ∀ m, n ≤ m → (managerHeard (torrentUpto ev m)).length <
      (managerHeard (torrentUpto ev n) ++ (σ n).swarm.inbox).length := fun m hm => Nat.not_le.mp fun h =>
    hc ⟨m, hm, hgoal m hm (List.prefix_of_prefix_length_le (hG m hm) (List.prefix_append _ _) h)⟩
  have hne : ∀ m, n ≤ m → (σ m).swarm.inbox ≠ [] := fun m hm h => by
    have h1 := (hG m hm).length_le
    rw [h, List.append_nil] at h1
    have := hlt m hm
    omega
  obtain ⟨m, h1, h2⟩ := reaches (fun m => (managerHeard (torrentUpto ev m)).length)
    (fun m => by simp only [torrentUpto_succ, Swarm.managerHeard_append, List.length_append]; omega)
    (fun k => by
      obtain ⟨m, k1, _, _, k2⟩ := hears_often h0 hx hn hw hf hd hne k
      refine ⟨m, k1, ?_⟩
      simp only [torrentUpto_succ, Swarm.managerHeard_append, List.length_append, k2]; omega)
    (managerHeard (torrentUpto ev n) ++ (σ n).swarm.inbox).length n
  exact absurd (hlt m h1) (Nat.not_lt.mpr h2)

theorem blocks_took (q : Peer) (n : Nat) : ∃ m, n ≤ m ∧ (((σ m).swarm.links q).dlAlive = false ∨
    (ofPeer q (handedOver (torrentUpto ev n))).filterMap asBlock <+: blocksHeard q (torrentUpto ev m)) := by
  refine Classical.byContradiction fun hc => ?_
  have hal : ∀ m, n ≤ m → ((σ m).swarm.links q).dlAlive = true := fun m hm => by
    cases h : ((σ m).swarm.links q).dlAlive with
    | true => rfl
    | false => exact absurd ⟨m, hm, .inl h⟩ hc
  have happ : ∀ a b : List Swarm.Event, blocksHeard q (a ++ b) = blocksHeard q a ++ blocksHeard q b :=
    fun a b => List.filterMap_append
  have hF : ∀ m, n ≤ m → (ofPeer q (handedOver (torrentUpto ev n))).filterMap asBlock <+:
      blocksHeard q (torrentUpto ev m) ++ ((σ m).swarm.links q).blocks := fun m hm => by
    rw [((torrent_delivery h0 hx m).2.2.1 q).2 (hal m hm)]
    exact (((torrentUpto_prefix hm).filterMap _).filterMap _).filterMap _
  have hlt : ∀ m, n ≤ m → (blocksHeard q (torrentUpto ev m)).length <
      ((ofPeer q (handedOver (torrentUpto ev n))).filterMap asBlock).length := fun m hm => Nat.not_le.mp fun h =>
    hc ⟨m, hm, .inr (List.prefix_of_prefix_length_le (hF m hm) (List.prefix_append _ _) h)⟩
  have hne : ∀ m, n ≤ m → ((σ m).swarm.links q).blocks ≠ [] := fun m hm h => by
    have h1 := (hF m hm).length_le
    rw [h, List.append_nil] at h1
    have := hlt m hm
    omega
  obtain ⟨m, h1, h2⟩ := reaches (fun m => (blocksHeard q (torrentUpto ev m)).length)
    (fun m => by simp only [torrentUpto_succ, happ, List.length_append]; omega)
    (fun k => by
      obtain ⟨m, k1, _, _, k2⟩ := blocks_often h0 hx hn hw hf hal hne k
      refine ⟨m, k1, ?_⟩
      simp only [torrentUpto_succ, happ, List.length_append, k2]; omega)
    ((ofPeer q (handedOver (torrentUpto ev n))).filterMap asBlock).length n
  exact absurd (hlt m h1) (Nat.not_lt.mpr h2)

omit hw in
theorem nodes_took (ht : Reachable u.table) (hj : ∀ n, ¬ (TableJam (σ n) ∨ LookupJam (σ n))) (n : Nat) : ∃ m, n ≤ m ∧
    ((σ m).swarm.dhtOpen = false ∨ (handedOver (torrentUpto ev n)).filterMap asNode <+: dhtHeard (torrentUpto ev m)) := by
  refine Classical.byContradiction fun hc => ?_
  have hal : ∀ m, n ≤ m → (σ m).swarm.dhtOpen = true := fun m hm => by
    cases h : (σ m).swarm.dhtOpen with
    | true => rfl
    | false => exact absurd ⟨m, hm, .inl h⟩ hc
  have happ : ∀ a b : List Swarm.Event, dhtHeard (a ++ b) = dhtHeard a ++ dhtHeard b := fun a b => List.filterMap_append
  have hF : ∀ m, n ≤ m → (handedOver (torrentUpto ev n)).filterMap asNode <+:
      dhtHeard (torrentUpto ev m) ++ (σ m).swarm.dht := fun m hm => by
    rw [(torrent_delivery h0 hx m).2.2.2.2 (hal m hm)]
    exact ((torrentUpto_prefix hm).filterMap _).filterMap _
  have hlt : ∀ m, n ≤ m → (dhtHeard (torrentUpto ev m)).length <
      ((handedOver (torrentUpto ev n)).filterMap asNode).length := fun m hm => Nat.not_le.mp fun h =>
    hc ⟨m, hm, .inr (List.prefix_of_prefix_length_le (hF m hm) (List.prefix_append _ _) h)⟩
  have hne : ∀ m, n ≤ m → (σ m).swarm.dht ≠ [] := fun m hm h => by
    have h1 := (hF m hm).length_le
    rw [h, List.append_nil] at h1
    have := hlt m hm
    omega
  obtain ⟨m, h1, h2⟩ := reaches (fun m => (dhtHeard (torrentUpto ev m)).length)
    (fun m => by simp only [torrentUpto_succ, happ, List.length_append]; omega)
    (fun k => by
      obtain ⟨m, k1, _, _, k2⟩ := nodes_often ht h0 hx hf hn hj hal hne k
      refine ⟨m, k1, ?_⟩
      simp only [torrentUpto_succ, happ, List.length_append, k2]; omega)
    ((handedOver (torrentUpto ev n)).filterMap asNode).length n
  exact absurd (hlt m h1) (Nat.not_lt.mpr h2)

end

/-! ## C148 -/

/-- C148, the part that holds: in every execution in which no task is passed over for ever, everything peers say is heard.
What has been read from a peer is recognised and handed over, down to the last byte that completes a message (unless the
connection ends first); what has been handed over and is meant for the manager is taken by the manager, in order; blocks are
taken by the downloader of the peer (unless it ends first), nodes by the DHT (unless it ends first). No peer can keep the
messages of another from being heard, whatever it sends and in whatever order the tasks get their turns. Excepted are
executions in which the process ends, the manager dies, or tasks of the DHT wait for each other. Missing: that this does not
happen (`C148_deaf_violated`). -/
theorem C148_heard_partial (w : World) (u : Setup) (σ : Nat → State) (ev : Nat → Option Event) (hw : w.cfg.AsWritten)
    (ht : Reachable u.table) (h0 : Started w u (σ 0)) (hx : Execution w σ ev) (hf : FairTorrent w σ ev) :
    (∃ n, ev n = some .exits) ∨ (∃ n, (σ n).swarm.man = .dead) ∨ (∃ n, TableJam (σ n) ∨ LookupJam (σ n)) ∨
    ∀ n,
      (∀ q, ∃ m, n ≤ m ∧ (((σ m).swarm.links q).con = .ended ∨
        ∀ ms : List Message, (∀ x ∈ ms, (wire x).length ≤ MAX_MESSAGE_BYTES) →
          bytesFrom q (torrentEvents (upto ev m)) <+: wireAll ms →
          ∃ k, ofPeer q (handedOver (torrentEvents (upto ev m))) = ms.take k ∧
            DeliveredExactly ms k (bytesFrom q (torrentEvents (upto ev m))).length)) ∧
      (∃ m, n ≤ m ∧ (handedOver (torrentEvents (upto ev n))).filter (fun x => forManager x.2) <+:
        fromWire (managerHeard (torrentEvents (upto ev m)))) ∧
      (∀ q, ∃ m, n ≤ m ∧ (((σ m).swarm.links q).dlAlive = false ∨
        (ofPeer q (handedOver (torrentEvents (upto ev n)))).filterMap asBlock <+: blocksHeard q (torrentEvents (upto ev m)))) ∧
      (∃ m, n ≤ m ∧ ((σ m).swarm.dhtOpen = false ∨
        (handedOver (torrentEvents (upto ev n))).filterMap asNode <+: dhtHeard (torrentEvents (upto ev m)))) := by
  by_cases h1 : ∃ n, ev n = some .exits
  · exact .inl h1
  by_cases h2 : ∃ n, (σ n).swarm.man = .dead
  · exact .inr (.inl h2)
  by_cases h3 : ∃ n, TableJam (σ n) ∨ LookupJam (σ n)
  · exact .inr (.inr (.inl h3))
  have hn : ∀ n, ev n ≠ some .exits := fun n h => h1 ⟨n, h⟩
  have hd : ∀ n, (σ n).swarm.man ≠ .dead := fun n h => h2 ⟨n, h⟩
  have hj : ∀ n, ¬ (TableJam (σ n) ∨ LookupJam (σ n)) := fun n h => h3 ⟨n, h⟩
  exact .inr (.inr (.inr fun n => ⟨fun q => handed_over hw ht h0 hx hf hn hd hj q n, manager_took h0 hx hn hw hf hd n,
    fun q => blocks_took h0 hx hn hw hf q n, nodes_took h0 hx hn hf ht hj n⟩))

/-! ## One message makes the program deaf -/

/-- Nothing but the manager's own turns makes it hear anything, and nothing is heard while a message it dies of is the first
in its queue, or after that. -/
theorem deaf_next (hx : Execution w σ ev) {q : Peer} {m : ConMessageType}
    (hm : (∃ r, m = .request r) ∨ ∃ r, m = .cancel r) (n : Nat)
    (hi : (σ n).swarm.man = .dead ∨ ∃ t, (σ n).swarm.inbox = (q, m) :: t) :
    managerHeard (torrentUpto ev (n + 1)) = managerHeard (torrentUpto ev n) ∧
    ((σ (n + 1)).swarm.man = .dead ∨ ∃ t, (σ (n + 1)).swarm.inbox = (q, m) :: t) := by
  rw [torrentUpto_succ, Swarm.managerHeard_append]
  rcases torrent_next hx n with ⟨h1, h2⟩ | ⟨e, x, h1, h2, h3⟩
  · rw [h1, h2]; exact ⟨List.append_nil _, hi⟩
  · rw [h2]
    have r : Swarm.Run w.cfg (σ n).torrent ([] ++ [x]) (σ (n + 1)).swarm := .snoc .nil h3
    rcases hi with hi | ⟨t, hi⟩
    · obtain ⟨j1, _, j3, _⟩ := Swarm.C115_dead_forever _ _ _ _ (by exact hi) r
      rw [List.nil_append] at j3
      rw [j3]
      exact ⟨List.append_nil _, .inl j1⟩
    · have h := Swarm.C115_one_message_violated _ _ _ _ q m t hm (by exact hi) r
      rcases h with h | ⟨h, t', ht'⟩
      · refine ⟨?_, .inl h⟩
        generalize (σ (n + 1)).swarm = sw at h h3
        have : managerHeard [x] = [] := by
          cases h3 with
          | msg e1 e2 e3 => exact absurd (h.symm.trans e1) (by simp)
          | _ => rfl
        rw [this, List.append_nil]
      · rw [List.nil_append] at h
        rw [h]
        exact ⟨List.append_nil _, .inr ⟨t', ht'⟩⟩

/-- C148 is false of the program: once a `request` or a `cancel` of any peer is the first in the queue of the manager, nothing
that any peer says is heard any more, in any execution; in particular not what is already in the queue behind it. -/
theorem C148_deaf_violated (w : World) (σ : Nat → State) (ev : Nat → Option Event) (hx : Execution w σ ev) (n : Nat)
    (q : Peer) (m : ConMessageType) (rest : List (Peer × ConMessageType))
    (hm : (∃ r, m = .request r) ∨ ∃ r, m = .cancel r) (hi : (σ n).swarm.inbox = (q, m) :: rest) (k : Nat) (hk : n ≤ k) :
    managerHeard (torrentEvents (upto ev k)) = managerHeard (torrentEvents (upto ev n)) := by
  have : managerHeard (torrentUpto ev k) = managerHeard (torrentUpto ev n) ∧
      ((σ k).swarm.man = .dead ∨ ∃ t, (σ k).swarm.inbox = (q, m) :: t) := by
    induction hk with
    | refl => exact ⟨rfl, .inr ⟨rest, hi⟩⟩
    | @step k hk ih =>
      have := deaf_next hx hm k ih.2
      exact ⟨this.1.trans ih.1, this.2⟩
  exact this.1

/-! ## A concrete case -/

/-- Nothing is left to do on the torrent side, except for the timer of the manager. -/
def CalmTorrent (w : World) (s : State) : Prop :=
  s.swarm.inbox = [] ∧ s.swarm.dht = [] ∧
  (s.swarm.man = .dead ∨ s.swarm.man = .loop ∧ (s.swarm.tm.slots = 0 → s.torrent.tm.beginTick w.cfg.p ≠ .panic) ∧
    (s.swarm.tm.slots ≠ 0 → s.torrent.tm.selectPiece ≠ .panic)) ∧
  ∀ q ∈ s.swarm.tm.connection.spawned, ¬ (s.swarm.links q).Busy ∧ ((s.swarm.links q).dlAlive = false ∨
      (s.swarm.man ≠ .dead ∧ (s.swarm.links q).con ≠ .ended ∧ (s.swarm.links q).report = none ∧
        (s.swarm.links q).dl.pc = .select ∧ (s.swarm.links q).commands = [] ∧ (s.swarm.links q).blocks = []))

/-- What is not possible in such a state. -/
theorem CalmTorrent.impossible {s : State} (hs : CalmTorrent w s) :
    (∀ q, ¬ Possible w s (ConnectionParses q) ∧ ¬ Possible w s (ConnectionHands q) ∧
      ¬ Possible w s (DownloaderTakesCommand q) ∧ ¬ Possible w s (DownloaderTakesBlock q) ∧
      ¬ Possible w s (DownloaderWorks q)) ∧ ¬ Possible w s ManagerHears ∧
    (s.swarm.tm.slots = 0 → ¬ Possible w s ManagerWorks) ∧ ¬ Possible w s TableTakesNode := by
  obtain ⟨h1, h2, h3, h4⟩ := hs
  have parse : ∀ {q}, s.torrent.Spawned q → (s.torrent.links q).con ≠ .parsing := fun hq h => (h4 _ hq).1 (.inl h)
  have hand : ∀ {q m}, s.torrent.Spawned q → (s.torrent.links q).con ≠ .handing m := fun hq h => (h4 _ hq).1 (.inr ⟨_, h⟩)
  have dl : ∀ {q}, s.torrent.Spawned q → (s.torrent.links q).dlAlive = true →
      s.torrent.man ≠ .dead ∧ (s.torrent.links q).con ≠ .ended ∧ (s.torrent.links q).report = none ∧
        (s.torrent.links q).dl.pc = .select ∧ (s.torrent.links q).commands = [] ∧ (s.torrent.links q).blocks = [] := by
    intro q hq hal
    rcases (h4 q hq).2 with h | h
    · rw [show (s.torrent.links q).dlAlive = (s.swarm.links q).dlAlive from rfl, h] at hal; cases hal
    · exact h
  have hin : s.torrent.inbox = [] := h1
  have man : ∀ {x sw}, Swarm.Step w.cfg s.torrent x sw → ¬ ManagerHears (.torrent x) ∧
      (s.torrent.tm.slots = 0 → ¬ ManagerWorks (.torrent x)) := by
    intro x sw h
    have h3' : s.torrent.man = .dead ∨ s.torrent.man = .loop ∧ (s.torrent.tm.slots = 0 → s.torrent.tm.beginTick w.cfg.p ≠ .panic) ∧
      (s.torrent.tm.slots ≠ 0 → s.torrent.tm.selectPiece ≠ .panic) := h3
    rcases h3' with h3' | ⟨m1, m3, m4⟩
    · refine ⟨fun ha => ?_, fun _ ha => ?_⟩ <;>
      · cases h <;> first | exact ha | (rename_i g _ _ _; rw [h3'] at g; cases g) | (rename_i g _ _; rw [h3'] at g; cases g) |
          (rename_i g _; rw [h3'] at g; cases g)
    · refine ⟨fun ha => ?_, fun m2 ha => ?_⟩
      · cases h with
        | addPoisoned g => rw [m1] at g; cases g
        | addPanics g => rw [m1] at g; cases g
        | msg _ g => rw [hin] at g; cases g
        | msgPanics _ _ g => rw [hin] at g; cases g
        | tickPanics _ g1 g => exact m3 g1 g
        | choosePanics _ g1 g => exact m4 (by rw [g1]; simp) g
        | _ => exact ha
      · cases h with
        | nothing _ g => cases g with | nothing g _ => rw [m2] at g; cases g
        | choose _ g => rw [m2] at g; cases g
        | refused _ _ g => cases g with | start g => rw [m2] at g; cases g
        | put g => rw [m1] at g; cases g
        | putFails g => rw [m1] at g; cases g
        | add g => rw [m1] at g; cases g
        | addPoisoned g => rw [m1] at g; cases g
        | addPanics g => rw [m1] at g; cases g
        | msgPanics _ _ g => rw [hin] at g; cases g
        | tickPanics _ g1 g => exact m3 g1 g
        | choosePanics _ g => rw [m2] at g; cases g
        | _ => exact ha
  have dls : ∀ {q x sw}, Swarm.Step w.cfg s.torrent x sw → ¬ DownloaderTakesCommand q (.torrent x) ∧
      ¬ DownloaderTakesBlock q (.torrent x) ∧ ¬ DownloaderWorks q (.torrent x) := by
    intro q x sw h
    refine ⟨fun ha => ?_, fun ha => ?_, fun ha => ?_⟩ <;>
    · cases h with
      | dlStart hq hl _ g => rw [(dl hq hl).2.2.2.2.1] at g; cases g
      | dlBlock hq hl _ g => rw [(dl hq hl).2.2.2.2.2] at g; cases g
      | dlReadd hq hl _ _ g => cases g with | readd g => rw [(dl hq hl).2.2.2.1] at g; cases g
      | dlTake hq hl _ _ g => cases g with | take g => rw [(dl hq hl).2.2.2.1] at g; cases g
      | dlRequest hq hl _ _ _ g => cases g with | request g => rw [(dl hq hl).2.2.2.1] at g; cases g
      | dlRequestLost hq hl _ _ g => cases g with | request g => rw [(dl hq hl).2.2.2.1] at g; cases g
      | dlLoop hq hl _ g => cases g with | loop g => rw [(dl hq hl).2.2.2.1] at g; cases g
      | reported hq hl g => rw [(dl hq hl).2.2.1] at g; cases g
      | reportedLost hq hl g => rw [(dl hq hl).2.2.1] at g; cases g
      | blockPoisoned hq hl _ _ g => rw [(dl hq hl).2.2.2.2.2] at g; cases g
      | blockPanics hq hl _ _ g => rw [(dl hq hl).2.2.2.2.2] at g; cases g
      | readdPoisoned hq hl _ g => rw [(dl hq hl).2.2.2.1] at g; cases g
      | takePoisoned hq hl _ g => rw [(dl hq hl).2.2.2.1] at g; cases g
      | takePanics hq hl _ g => rw [(dl hq hl).2.2.2.1] at g; cases g
      | noBlocks hq hl _ _ _ g => exact (dl hq hl).2.1 g
      | noCommands hq hl _ _ _ g => exact (dl hq hl).1 g
      | _ => exact ha
  have own : ∀ {A : Event → Prop} (_ : ∀ e, A e → ∃ x, e = .torrent x)
      (_ : ∀ {x sw}, Swarm.Step w.cfg s.torrent x sw → ¬ A (.torrent x)), ¬ Possible w s A := by
    rintro A hA hno ⟨e, s', ha, _, ht⟩
    obtain ⟨x, rfl⟩ := hA e ha
    cases ht with
    | torrent _ h => exact hno h ha
  refine ⟨fun q => ⟨?_, ?_, ?_, ?_, ?_⟩, ?_, fun h => ?_, ?_⟩
  · refine own (fun e he => by cases e <;> first | exact ⟨_, rfl⟩ | exact absurd he id) fun {x sw} h ha => ?_
    cases h with
    | parsed hq g => exact parse hq g
    | parsedAll hq g => exact parse hq g
    | conDies hq g => exact parse hq g
    | _ => exact ha
  · refine own (fun e he => by cases e <;> first | exact ⟨_, rfl⟩ | exact absurd he id) fun {x sw} h ha => ?_
    cases h with
    | handBlock hq g => exact hand hq g
    | handBlockLost hq g => exact hand hq g
    | handPort hq g => exact hand hq g
    | handPortLost hq g => exact hand hq g
    | handOther hq g => exact hand hq g
    | handOtherLost hq g => exact hand hq g
    | _ => exact ha
  · exact own (fun e he => by cases e <;> first | exact ⟨_, rfl⟩ | exact absurd he id) fun h => (dls h).1
  · exact own (fun e he => by cases e <;> first | exact ⟨_, rfl⟩ | exact absurd he id) fun h => (dls h).2.1
  · exact own (fun e he => by cases e <;> first | exact ⟨_, rfl⟩ | exact absurd he id) fun h => (dls h).2.2
  · exact own (fun e he => by cases e <;> first | exact ⟨_, rfl⟩ | exact absurd he id) fun h => (man h).1
  · exact own (fun e he => by cases e <;> first | exact ⟨_, rfl⟩ | exact absurd he id) fun h' => (man h').2 h
  · rintro ⟨e, s', ha, _, ht⟩
    cases ht with
    | node g _ => cases g with | dhtTakes g => rw [show s.torrent.dht = _ from h2] at g; cases g
    | _ => exact ha

/-- An execution in which nothing is left to do on the torrent side, except for the timer of the manager, is fair. -/
theorem fair_of_calm_torrent {n : Nat} (hd : FairDht w σ ev) (hs : ∀ m, n ≤ m → CalmTorrent w (σ m))
    (hm : FairTo w σ ev ManagerWorks) : FairTorrent w σ ev := by
  have fair : ∀ A, (∀ s, CalmTorrent w s → ¬ Possible w s A) → FairTo w σ ev A := fun A hno hp => by
    obtain ⟨m, hm, h⟩ := hp n
    exact absurd h (hno _ (hs m hm))
  exact ⟨hd, fun q => fair _ fun s h => (h.impossible.1 q).1, fun q => fair _ fun s h => (h.impossible.1 q).2.1,
    fun q => fair _ fun s h => (h.impossible.1 q).2.2.1, fun q => fair _ fun s h => (h.impossible.1 q).2.2.2.1,
    fun q => fair _ fun s h => (h.impossible.1 q).2.2.2.2, fair _ fun s h => h.impossible.2.1, hm,
    fair _ fun s h => h.impossible.2.2.2⟩

/-- Nothing is left to do on the torrent side. -/
def quietTorrent (w : World) (s : State) : Bool :=
  s.swarm.inbox.isEmpty && s.swarm.dht.isEmpty &&
  (decide (s.swarm.man = .dead) || (decide (s.swarm.man = .loop) && decide (s.swarm.tm.slots = 0) &&
    (match s.torrent.tm.beginTick w.cfg.p with | .panic => false | _ => true))) &&
  s.swarm.tm.connection.spawned.all fun q =>
    (match (s.swarm.links q).con with | .parsing => false | .handing _ => false | _ => true) &&
    (!(s.swarm.links q).dlAlive || (!decide (s.swarm.man = .dead) &&
      (match (s.swarm.links q).con with | .ended => false | _ => true) && (s.swarm.links q).report.isNone &&
      (match (s.swarm.links q).dl.pc with | .select => true | _ => false) && (s.swarm.links q).commands.isEmpty &&
      (s.swarm.links q).blocks.isEmpty))

/-- A sends a message to keep the connection, says `unchoke` and names the port of its DHT node; the manager and the table task
hear of it. -/
def hearsA : List Act := joinsA.map .ev ++ [.ev (.torrent (.read peerA (wire .unchoke ++ wire (.port 7000#16)))),
  .ev (.torrent (.parsed peerA .unchoke)), .ev (.torrent (.handed peerA .unchoke)),
  .ev (.torrent (.parsed peerA (.port 7000#16))), .ev (.torrent (.handed peerA (.port 7000#16))),
  .ev (.torrent (.parsedAll peerA)), .ev (.torrent (.man (.msg peerA .unchoke))), .node, .putCommand,
  .command (tidOf 1#8), .sends]

/-- A says `request` and then `unchoke`. The manager dies of the first. -/
def deafToA : List Act := joinsA.map .ev ++ [
  .ev (.torrent (.read peerA (wire (.request ⟨0#32, 0#32, 16384#32⟩) ++ wire .unchoke))),
  .ev (.torrent (.parsed peerA (.request ⟨0#32, 0#32, 16384#32⟩))),
  .ev (.torrent (.handed peerA (.request ⟨0#32, 0#32, 16384#32⟩))),
  .ev (.torrent (.parsed peerA .unchoke)), .ev (.torrent (.handed peerA .unchoke)),
  .ev (.torrent (.parsedAll peerA)), .ev (.torrent .manDies), .ev (.torrent (.dlDies peerA))]

theorem calm_torrent_of_quiet {s : State} (h : quietTorrent w s = true) :
    CalmTorrent w s ∧ (s.swarm.man = .dead ∨ s.swarm.tm.slots = 0) := by
  simp only [quietTorrent, Bool.and_eq_true, Bool.or_eq_true, Bool.not_eq_true', decide_eq_true_eq, decide_eq_false_iff_not,
    List.isEmpty_iff, Option.isNone_iff_eq_none, List.all_eq_true] at h
  obtain ⟨⟨⟨t1, t2⟩, t3⟩, t4⟩ := h
  refine ⟨⟨t1, t2, ?_, fun q hq => ?_⟩, t3.imp_right fun h => h.1.2⟩
  · rcases t3 with h | ⟨⟨h1, h2⟩, h3⟩
    · exact .inl h
    · refine .inr ⟨h1, fun _ hp => ?_, fun hno => absurd h2 hno⟩
      rw [hp] at h3
      cases h3
  · obtain ⟨c1, c2⟩ := t4 q hq
    refine ⟨?_, ?_⟩
    · rintro (h | ⟨m, h⟩) <;> (rw [h] at c1; cases c1)
    · rcases c2 with h | ⟨⟨⟨⟨⟨h1, h2⟩, h3⟩, h4⟩, h5⟩, h6⟩
      · exact .inl h
      · refine .inr ⟨h1, fun hc => ?_, h3, ?_, h5, h6⟩
        · rw [hc] at h2; cases h2
        · cases hpc : (s.swarm.links q).dl.pc with
          | select => rfl
          | _ => rw [hpc] at h4; cases h4

/-- A dead manager does nothing. -/
theorem dead_rests {s : State} (h : s.swarm.man = .dead) : ¬ Possible w s ManagerWorks := by
  have hm : s.torrent.man = .dead := h
  rintro ⟨e, s', ha, _, ht⟩
  cases ht with
  | torrent _ h =>
    cases h with
    | nothing g => rw [hm] at g; cases g
    | choose g => rw [hm] at g; cases g
    | refused g => rw [hm] at g; cases g
    | put g => rw [hm] at g; cases g
    | putFails g => rw [hm] at g; cases g
    | add g => rw [hm] at g; cases g
    | addPoisoned g => rw [hm] at g; cases g
    | addPanics g => rw [hm] at g; cases g
    | msgPanics g => rw [hm] at g; cases g
    | tickPanics g => rw [hm] at g; cases g
    | choosePanics g => rw [hm] at g; cases g
    | _ => exact ha
  | _ => exact ha

/-- From a history that ends in a quiet state to a fair execution. -/
theorem fair_of_play {s0 s : State} {es : List Event} (h : Run w s0 es s) (hq : quietNow s = true)
    (ht : quietTorrent w s = true) : ∃ σ : Nat → State, σ 0 = s0 ∧ (∀ m, es.length ≤ m → σ m = s) ∧
      Execution w σ (fun n => es[n]?) ∧ FairTorrent w σ (fun n => es[n]?) ∧ ∀ n : Nat, es[n]? ≠ some Event.exits := by
  have calm := calm_of_quiet hq
  obtain ⟨ct, hsl⟩ := calm_torrent_of_quiet ht
  obtain ⟨σ, z1, z2, z3⟩ := exec_of_run h
  refine ⟨σ, z1, z2, z3, fair_of_calm_torrent (fair_of_calm fun m hm => by rw [z2 m hm]; exact calm)
    (fun m hm => by rw [z2 m hm]; exact ct) (fun hp => ?_), fun n hn => ?_⟩
  · obtain ⟨m, hm, hp⟩ := hp es.length
    rw [z2 m hm] at hp
    rcases hsl with h | h
    · exact absurd hp (dead_rests h)
    · exact absurd hp (ct.impossible.2.2.1 h)
  · have hdone : s.down.phase = .done := by
      exact done_of_exits h (List.mem_of_getElem? hn)
    have g9 := calm.2.2.2.2.2.2.2.2.1
    rw [hdone] at g9; cases g9

/-- The hypotheses of `C148_heard_partial` are met by an execution in which the process does not end, the manager does not die
in the end, and a peer says something to the manager and to the DHT. -/
example : ∃ (σ : Nat → State) (ev : Nat → Option Event) (n : Nat), demoWorld.cfg.AsWritten ∧
    Started demoWorld demoSetup (σ 0) ∧ Reachable demoSetup.table ∧ Execution demoWorld σ ev ∧
    FairTorrent demoWorld σ ev ∧ (∀ n, ev n ≠ some .exits) ∧ (∀ m, n ≤ m → (σ m).swarm.man = .loop) ∧
    handedOver (torrentEvents (upto ev n)) = [(peerA, .unchoke), (peerA, .port 7000#16)] ∧
    fromWire (managerHeard (torrentEvents (upto ev n))) = [(peerA, .unchoke)] ∧
    dhtHeard (torrentEvents (upto ev n)) = [⟨peerA.addr.ip, 7000#16⟩] := by
  have : play demoWorld demoSetup hearsA (fun es s =>
      decide (s.swarm.man = .loop) &&
      decide (handedOver (torrentEvents es) = [(peerA, .unchoke), (peerA, .port 7000#16)]) &&
      decide (fromWire (managerHeard (torrentEvents es)) = [(peerA, .unchoke)]) &&
      decide (dhtHeard (torrentEvents es) = [⟨peerA.addr.ip, 7000#16⟩]) && (quietNow s && quietTorrent demoWorld s)) =
      some true := by decide +kernel
  obtain ⟨s0, es, s, h0, h, hf⟩ := play_sound this
  simp only [Bool.and_eq_true, decide_eq_true_eq] at hf
  obtain ⟨⟨⟨⟨f1, f2⟩, f3⟩, f4⟩, q1, q2⟩ := hf
  obtain ⟨σ, z1, z2, z3, z4, z5⟩ := fair_of_play h q1 q2
  exact ⟨σ, _, es.length, fun _ => rfl, by rw [z1]; exact h0, .fresh _, z3, z4, z5, fun m hm => by rw [z2 m hm]; exact f1,
    by rw [upto_length]; exact f2, by rw [upto_length]; exact f3, by rw [upto_length]; exact f4⟩

/-- The hypotheses of `C148_deaf_violated` are met, with a message behind the fatal one. -/
example : ∃ (σ : Nat → State) (ev : Nat → Option Event) (n : Nat) (r : Request), Started demoWorld demoSetup (σ 0) ∧
    Execution demoWorld σ ev ∧ (σ n).swarm.inbox = [(peerA, .request r), (peerA, .unchoke)] := by
  have : play demoWorld demoSetup (deafToA.take 10) (fun _ s =>
      decide (s.swarm.inbox = [(peerA, .request ⟨0#32, 0#32, 16384#32⟩), (peerA, .unchoke)])) = some true := by decide +kernel
  obtain ⟨s0, es, s, h0, h, hf⟩ := play_sound this
  obtain ⟨σ, z1, z2, z3⟩ := exec_of_run h
  exact ⟨σ, _, es.length, _, by rw [z1]; exact h0, z3, by rw [z2 _ (Nat.le_refl _)]; exact of_decide_eq_true hf⟩

/-- C148 is false of the program also if no task is passed over for ever and the process does not end: a peer has said
`unchoke`, its connection has handed it over, and the manager never hears it. -/
theorem C148_fair_violated : ∃ (w : World) (u : Setup) (σ : Nat → State) (ev : Nat → Option Event) (n : Nat),
    Started w u (σ 0) ∧ Execution w σ ev ∧ FairTorrent w σ ev ∧ (∀ n, ev n ≠ some .exits) ∧
    (peerA, .unchoke) ∈ handedOver (torrentEvents (upto ev n)) ∧
    ∀ m, (peerA, .unchoke) ∉ fromWire (managerHeard (torrentEvents (upto ev m))) := by
  have : play demoWorld demoSetup deafToA (fun es s =>
      decide ((peerA, .unchoke) ∈ handedOver (torrentEvents es)) &&
      decide (fromWire (managerHeard (torrentEvents es)) = []) && (quietNow s && quietTorrent demoWorld s)) =
      some true := by decide +kernel
  obtain ⟨s0, es, s, h0, h, hf⟩ := play_sound this
  simp only [Bool.and_eq_true, decide_eq_true_eq] at hf
  obtain ⟨⟨f1, f2⟩, q1, q2⟩ := hf
  obtain ⟨σ, z1, z2, z3, z4, z5⟩ := fair_of_play h q1 q2
  refine ⟨_, _, σ, _, es.length, by rw [z1]; exact h0, z3, z4, z5, by rw [upto_length]; exact f1, fun m hm => ?_⟩
  have hall : ∀ k, upto (fun n => es[n]?) (es.length + k) = es := by
    intro k
    induction k with
    | zero => exact upto_length es
    | succ k ih => rw [← Nat.add_assoc, upto_succ, ih, List.getElem?_eq_none (by omega)]; exact List.append_nil _
  have hp : fromWire (managerHeard (torrentUpto (fun n => es[n]?) m)) <+:
      fromWire (managerHeard (torrentUpto (fun n => es[n]?) (es.length + m))) :=
    fromWire_prefix ((torrentUpto_prefix (Nat.le_add_left _ _)).filterMap _)
  rw [torrentUpto, torrentUpto, hall, f2, List.prefix_nil] at hp
  rw [hp] at hm
  cases hm

end Nargun.Program
