import Verif.Props.ProgramFairTorrent
import Verif.Props.ProgramForgotten

/-! # A peer that was named is tried, in every fair execution: C125 -/

set_option linter.unusedSimpArgs false

namespace Nargun.Program

open Nargun Dht Krpc Spec DhtManager DhtSystem

variable {w : World} {u : Setup} {σ : Nat → State} {ev : Nat → Option Event}

/-- What has happened before a moment is what had happened before an earlier one, and what came since. -/
theorem upto_split {n : Nat} {e : Event} (he : ev n = some e) {m : Nat} (hm : n < m) :
    ∃ es, upto ev m = upto ev n ++ e :: es := by
  induction hm with
  | refl => exact ⟨[], by rw [Nat.succ_eq_add_one, upto_succ, he]; rfl⟩
  | @step m hm ih =>
    obtain ⟨es, ih⟩ := ih
    exact ⟨es ++ (ev m).toList, by rw [Nat.succ_eq_add_one, upto_succ, ih]; simp⟩

/-- The timer fires again and again, as long as the manager lives. -/
theorem ticks_often (hw : w.cfg.AsWritten) (h0 : Started w u (σ 0)) (hx : Execution w σ ev) (hf : FairTorrent w σ ev)
    (hticks : FairTo w σ ev ManagerTicks) (hn : ∀ n, ev n ≠ some .exits) (hd : ∀ n, (σ n).swarm.man ≠ .dead) (k : Nat) :
    ∃ m, k ≤ m ∧ ∃ batch, ev m = some (.torrent (.man (.tick batch))) := by
  obtain ⟨m, e, q1, q2, q3⟩ := hticks (fun k => by
    obtain ⟨m, hm, hs⟩ := manager_returns h0 hx hn hw hf hd k
    obtain ⟨l, hl, _⟩ := torrent_known h0 hx m
    have hst := swarm_started h0
    obtain ⟨r, hr⟩ := TM.tick_ok (p := w.cfg.p)
      (TM.run_inv (Swarm.tm_run hl hst.parts.2.2.1).1 hst.tm_inv.1 hst.tm_inv.2.1).1
    exact ⟨m, hm, torrent_possible h0 hx hn ⟨.man (.tick r.2), _, trivial, trivial, .tick hs.1 (.tick hs.2 hr)⟩⟩) k
  refine ⟨m, q1, ?_⟩
  cases e with
  | torrent x =>
    cases x with
    | man y =>
      cases y with
      | tick batch => exact ⟨batch, q2⟩
      | _ => exact absurd q3 id
    | _ => exact absurd q3 id
  | _ => exact absurd q3 id

/-- C125 in every execution in which no task is passed over for ever and the timer of the manager goes on firing: a peer that a
tracker names, that announces itself, or that is named in an answer of a node the lookup has asked, is connected to sooner or
later. Excepted are executions in which the process ends, the manager dies, the program tells another node of the peer, the
lookup asks 512 nodes, or all ten places are taken at every later tick (of which there are infinitely many). Missing: that
these do not happen; the third one is false as it stands (`C125_forgotten_violated`), for the last one see C117. -/
theorem C125_always_partial (w : World) (u : Setup) (σ : Nat → State) (ev : Nat → Option Event) (hw : w.cfg.AsWritten)
    (h0 : Started w u (σ 0)) (hx : Execution w σ ev) (hf : FairTorrent w σ ev) (hticks : FairTo w σ ev ManagerTicks)
    (n : Nat) (e : Event) (he : ev n = some e) (p : Peer)
    (hname : NamedByTracker [e] p ∨ Announced (manHistory (dhtEvents [e])) u.infoHash p ∨
      ∃ sender token vs sent v, e = .hears (.getPeers sender token (.values vs)) sent ∧ p ∈ vs ∧ .asks sender v ∈ upto ev n) :
    (∃ n, ev n = some .exits) ∨ (∃ n, (σ n).swarm.man = .dead) ∨
    (∃ m es, upto ev m = upto ev n ++ e :: es ∧ ToldOthers es p) ∨
    (∃ m, ∃ l : List SockAddr, l.Nodup ∧ l ⊆ askedNodes (upto ev m) ∧ 512 ≤ l.length) ∨
    (∃ m, p ∈ connectedTo (torrentEvents (upto ev m))) ∨
    ((∀ k, ∃ m, k ≤ m ∧ ∃ batch, ev m = some (.torrent (.man (.tick batch)))) ∧
      ∀ m batch, n < m → ev m = some (.torrent (.man (.tick batch))) →
        10 ≤ (σ m).swarm.tm.activePeers.length + batch.length) := by
  by_cases h1 : ∃ n, ev n = some .exits
  · exact .inl h1
  by_cases h2 : ∃ n, (σ n).swarm.man = .dead
  · exact .inr (.inl h2)
  by_cases h3 : ∃ m es, upto ev m = upto ev n ++ e :: es ∧ ToldOthers es p
  · exact .inr (.inr (.inl h3))
  by_cases h4 : ∃ m, ∃ l : List SockAddr, l.Nodup ∧ l ⊆ askedNodes (upto ev m) ∧ 512 ≤ l.length
  · exact .inr (.inr (.inr (.inl h4)))
  by_cases h5 : ∃ m, p ∈ connectedTo (torrentEvents (upto ev m))
  · exact .inr (.inr (.inr (.inr (.inl h5))))
  refine .inr (.inr (.inr (.inr (.inr ⟨ticks_often hw h0 hx hf hticks (fun n h => h1 ⟨n, h⟩) fun n h => h2 ⟨n, h⟩,
    fun m batch hm ht => ?_⟩))))
  refine Nat.not_lt.mp fun hroom => ?_
  obtain ⟨es, hes⟩ := upto_split he hm
  have hrun := exec_run hx m
  rw [hes] at hrun
  rcases C125_tried_partial w u _ _ _ _ es e h0 hrun p hname (fun h => h3 ⟨m, es, hes, h⟩)
    (fun l hl hsub => Nat.not_le.mp fun hle => h4 ⟨m, l, hl, by rw [hes]; exact hsub, hle⟩) batch (hx.step m _ ht) hroom with h | h
  · refine h5 ⟨m, ?_⟩
    rw [hes, show torrentEvents (upto ev n ++ e :: es) = torrentEvents (upto ev n ++ [e]) ++ torrentEvents es by
      simp [torrentEvents, ← List.filterMap_append]]
    simp only [connectedTo, List.flatMap_append, List.mem_append] at h ⊢
    exact .inr h
  · refine h5 ⟨m + 1, ?_⟩
    rw [← torrentUpto, torrentUpto_succ, ht]
    simp only [connectedTo, List.flatMap_append, List.mem_append]
    exact .inr (by simp [torrentEvents, h])

/-! ## A concrete case -/

/-- A history, and then two steps again and again that lead back to where they began. -/
theorem exec_of_cycle {s0 s s1 : State} {es : List Event} {e1 e2 : Event} (h : Run w s0 es s) (h1 : Step w s e1 s1)
    (h2 : Step w s1 e2 s) : ∃ (σ : Nat → State) (ev : Nat → Option Event), σ 0 = s0 ∧ Execution w σ ev ∧
      (∀ m, m < es.length → ev m = es[m]?) ∧
      (∀ k, σ (es.length + 2 * k) = s ∧ ev (es.length + 2 * k) = some e1 ∧ σ (es.length + 2 * k + 1) = s1 ∧
        ev (es.length + 2 * k + 1) = some e2) := by
  obtain ⟨σ, z1, z2, z3⟩ := exec_of_run h
  have beyond : ∀ k, (¬ es.length + 2 * k < es.length) ∧ (¬ es.length + 2 * k + 1 < es.length) ∧
      (es.length + 2 * k - es.length) % 2 = 0 ∧ (es.length + 2 * k + 1 - es.length) % 2 = 1 := fun k => by omega
  let σ' : Nat → State := fun m => if m < es.length then σ m else if (m - es.length) % 2 = 0 then s else s1
  let ev' : Nat → Option Event := fun m => if m < es.length then es[m]? else if (m - es.length) % 2 = 0 then some e1 else some e2
  have a1 : ∀ m, m < es.length → σ' m = σ m := fun m hm => if_pos hm
  have a2 : ∀ m, m < es.length → ev' m = es[m]? := fun m hm => if_pos hm
  have a3 : ∀ m, ¬ m < es.length → (m - es.length) % 2 = 0 → σ' m = s ∧ ev' m = some e1 := fun m hm h => by
    simp only [σ', ev', if_neg hm, if_pos h, and_self]
  have a4 : ∀ m, ¬ m < es.length → (m - es.length) % 2 = 1 → σ' m = s1 ∧ ev' m = some e2 := fun m hm h => by
    simp only [σ', ev', if_neg hm, h, Nat.one_ne_zero, if_false, and_self]
  have a5 : ∀ m, m ≤ es.length → σ' m = σ m := fun m hm => by
    by_cases hlt : m < es.length
    · exact a1 m hlt
    · rw [(a3 m hlt (by omega)).1, z2 m (by omega)]
  refine ⟨σ', ev', (a5 0 (Nat.zero_le _)).trans z1, ⟨fun m e he => ?_, fun m he => ?_⟩, a2, fun k => ?_⟩
  · by_cases hlt : m < es.length
    · rw [a5 m (by omega), a5 (m + 1) (by omega)]
      exact z3.step m e (by rw [← a2 m hlt]; exact he)
    · by_cases hev : (m - es.length) % 2 = 0
      · rw [(a3 m hlt hev).1, (a4 (m + 1) (by omega) (by omega)).1]
        rw [(a3 m hlt hev).2] at he
        cases he; exact h1
      · rw [(a4 m hlt (by omega)).1, (a3 (m + 1) (by omega) (by omega)).1]
        rw [(a4 m hlt (by omega)).2] at he
        cases he; exact h2
  · by_cases hlt : m < es.length
    · rw [a2 m hlt, List.getElem?_eq_getElem hlt] at he; cases he
    · by_cases hev : (m - es.length) % 2 = 0
      · rw [(a3 m hlt hev).2] at he; cases he
      · rw [(a4 m hlt (by omega)).2] at he; cases he
  · obtain ⟨b1, b2, b3, b4⟩ := beyond k
    exact ⟨(a3 _ b1 b3).1, (a3 _ b1 b3).2, (a4 _ b2 b4).1, (a4 _ b2 b4).2⟩

/-- The timer fires, there is nothing to do, and everything is as before. -/
def ticksInVain (w : World) (s : State) : Bool :=
  decide (s.swarm.tm = s.torrent.tm) && decide (s.swarm.man = .loop) && decide (s.swarm.tm.slots = 0) &&
  decide (s.down.phase ≠ .done) &&
  match s.torrent.tm.beginTick w.cfg.p with
  | .ok (t, []) => decide (t.slots ≠ 0) && decide (t.selectPiece = .ok none) && decide ({ t with slots := 0 } = s.torrent.tm)
  | _ => false

/-- What such a state allows. -/
theorem ticks_in_vain {s : State} (h : ticksInVain w s = true) : ∃ s1,
    Step w s (.torrent (.man (.tick []))) s1 ∧ Step w s1 (.torrent (.man .nothing)) s ∧
    (Calm s → Calm s1) ∧ (CalmTorrent w s → CalmTorrent w s1) ∧ s.swarm.man = .loop ∧ s1.swarm.man = .loop := by
  simp only [ticksInVain, Bool.and_eq_true, decide_eq_true_eq] at h
  obtain ⟨⟨⟨⟨h1, h2⟩, h3⟩, h4⟩, h5⟩ := h
  have hm : s.torrent.man = .loop := h2
  have hsl : s.torrent.tm.slots = 0 := h3
  split at h5
  · next t heq =>
    simp only [Bool.and_eq_true, decide_eq_true_eq] at h5
    obtain ⟨⟨h5, h6⟩, h7⟩ := h5
    have hp : t.peers = s.peers := by have := congrArg TM.peers h7; exact this
    obtain ⟨k, hk⟩ := Nat.exists_eq_succ_of_ne_zero h5
    refine ⟨{ s with swarm := { s.torrent with tm := t }, peers := t.peers }, ⟨h4, .torrent (e := .man (.tick [])) trivial (.tick hm (.tick hsl heq))⟩,
      ⟨h4, ?_⟩, fun h => h, ?_, h2, hm⟩
    · have st : Swarm.Step w.cfg { s.torrent with tm := t } (.man .nothing) { s.torrent with tm := { t with slots := 0 } } :=
        .nothing hm (.nothing hk h6)
      have tt := Turn.torrent (w := w) (s := { s with swarm := { s.torrent with tm := t }, peers := t.peers }) (e := .man .nothing) trivial st
      have e : ({ s with swarm := { s.torrent with tm := { t with slots := 0 } }, peers := t.peers } : State) = s := by
        rw [h7, hp, ← h1]
        rfl
      rw [← e]
      exact tt
    · rintro ⟨c1, c2, c3, c4⟩
      refine ⟨c1, c2, .inr ⟨hm, fun hz => absurd hz h5, fun _ hpn => ?_⟩, fun q hq => ?_⟩
      · have : t.selectPiece = .panic := hpn
        rw [h6] at this; cases this
      · refine c4 q ?_
        have := congrArg (fun x : TM => x.connection.spawned) (h7.trans h1.symm)
        rw [← this]; exact hq
  · cases h5

/-- The hypotheses of `C125_always_partial` are met by an execution in which the process does not end, the timer of the manager
fires for ever, a tracker names a peer, and the peer is connected to. -/
example : ∃ (σ : Nat → State) (ev : Nat → Option Event) (m : Nat) (e : Event), demoWorld.cfg.AsWritten ∧
    Started demoWorld demoSetup (σ 0) ∧ Execution demoWorld σ ev ∧ FairTorrent demoWorld σ ev ∧
    FairTo demoWorld σ ev ManagerTicks ∧ ev 1 = some e ∧ NamedByTracker [e] peerA ∧
    (∀ k, ∃ j, k ≤ j ∧ ev j = some (.torrent (.man (.tick [])))) ∧ (∀ n, ev n ≠ some .exits) ∧
    (∀ n, m ≤ n → (σ n).swarm.man = .loop) ∧ peerA ∈ connectedTo (torrentEvents (upto ev m)) := by
  have : demo demoWorld demoSetup joinsA (fun s => quietNow s && quietTorrent demoWorld s && ticksInVain demoWorld s) =
      some true := by decide +kernel
  obtain ⟨s0, s, h0, h, hf⟩ := demo_sound this
  simp only [Bool.and_eq_true] at hf
  obtain ⟨⟨q1, q2⟩, q3⟩ := hf
  have f1 : peerA ∈ connectedTo (torrentEvents joinsA) := by decide +kernel
  have f2 : joinsA[1]? = some (.answered 0 namesA) := rfl
  generalize joinsA = es at h f1 f2
  have calm := calm_of_quiet q1
  obtain ⟨ct, _⟩ := calm_torrent_of_quiet q2
  obtain ⟨s1, t1, t2, t3, t4, t5, t6⟩ := ticks_in_vain q3
  obtain ⟨σ, ev, z1, z2, z3, z4⟩ := exec_of_cycle h t1 t2
  have later : ∀ m, es.length ≤ m → (σ m = s ∨ σ m = s1) ∧
      (ev m = some (.torrent (.man (.tick []))) ∨ ev m = some (.torrent (.man .nothing))) := by
    intro m hm
    obtain ⟨k, hk⟩ : ∃ k, m = es.length + 2 * k ∨ m = es.length + 2 * k + 1 := ⟨(m - es.length) / 2, by omega⟩
    obtain ⟨a1, a2, a3, a4⟩ := z4 k
    rcases hk with rfl | rfl
    · exact ⟨.inl a1, .inl a2⟩
    · exact ⟨.inr a3, .inr a4⟩
  have hup : upto ev es.length = es := by
    have : ∀ n, n ≤ es.length → upto ev n = es.take n := by
      intro n
      induction n with
      | zero => exact fun _ => rfl
      | succ n ih =>
        intro hn
        rw [upto_succ, ih (by omega), z3 n (by omega), List.getElem?_eq_getElem (by omega), Option.toList_some,
          List.take_append_getElem]
    rw [this _ (Nat.le_refl _), List.take_length]
  have hlen : 1 < es.length := by
    refine Nat.not_le.mp fun hle => ?_
    rw [List.getElem?_eq_none hle] at f2; cases f2
  refine ⟨σ, ev, es.length, .answered 0 namesA, fun _ => rfl, by rw [z1]; exact h0, z2, ?_, fun _ k => ?_, ?_, ?_, fun k => ?_,
    fun n hn => ?_, fun n hn => ?_, by rw [hup]; exact f1⟩
  · refine fair_of_calm_torrent (n := es.length) (fair_of_calm (n := es.length) fun m hm => ?_) (fun m hm => ?_) fun _ k => ?_
    · rcases (later m hm).1 with h | h <;> rw [h]
      · exact calm
      · exact t3 calm
    · rcases (later m hm).1 with h | h <;> rw [h]
      · exact ct
      · exact t4 ct
    · exact ⟨es.length + 2 * k + 1, _, by omega, (z4 k).2.2.2, trivial⟩
  · exact ⟨es.length + 2 * k, _, by omega, (z4 k).2.1, trivial⟩
  · rw [z3 1 hlen]; exact f2
  · exact ⟨0, namesA, by simp, by decide +kernel⟩
  · exact ⟨es.length + 2 * k, by omega, (z4 k).2.1⟩
  · by_cases hlt : n < es.length
    · rw [z3 n hlt] at hn
      have hdone : s.down.phase = .done := by exact done_of_exits h (List.mem_of_getElem? hn)
      have g9 := calm.2.2.2.2.2.2.2.2.1
      rw [hdone] at g9; cases g9
    · rcases (later n (by omega)).2 with h | h <;> (rw [h] at hn; cases hn)
  · rcases (later n hn).1 with h | h <;> rw [h]
    · exact t5
    · exact t6

end Nargun.Program
