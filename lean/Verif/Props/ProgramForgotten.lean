import Verif.Props.ProgramPeers
import Verif.Props.ProgramAnnounce

/-! # Whether the peers that were named are tried: C125 -/

namespace Nargun.Program

open Nargun Dht Krpc Spec

variable {w : World} {u : Setup} {s s' s0 s1 : State} {es es' : List Event} {e : Event}

/-! ## What a step does with the table of peers -/

/-- What the table task does with the table of peers when it is asked for the peers of the torrent. -/
theorem man_answers {pause : Nat → Nat} {m m' : DhtManager.Manager} {ih : ID} {qid : QueryId} {outs : List DhtManager.Out}
    (h : DhtManager.Step pause m ⟨.query (.getPeers ih qid), outs⟩ m') (hi : ih = m.peers.infoHash) :
    m'.peers = (m.peers.getGoodPeers 216).1 ∧
    ∀ vs, .send (.resp qid (.getPeers (.values vs))) ∈ outs ↔ (m.peers.getGoodPeers 216).2 = some vs := by
  have ext : ∀ {m1 : DhtManager.Manager} {o : List DhtManager.Out} {x : DhtManager.Manager × List DhtManager.Out},
      DhtManager.andThen (.ok (m1, o)) = .ok x → ∀ c, .send c ∈ x.2 ↔ .send c ∈ o := by
    intro m1 o x h c
    simp only [DhtManager.andThen, Res.ok_bind] at h
    obtain ⟨⟨m2, o2⟩, h2, h⟩ := Res.bind_eq_ok.mp h
    cases h
    have : .send c ∉ o2 := by
      simp only [DhtManager.Manager.endTurn] at h2
      split at h2
      · obtain ⟨o, _, h2⟩ := Res.bind_eq_ok.mp h2
        cases o with
        | none => cases h2; simp
        | some ns => cases h2; simp
      · cases h2; simp
    simp [this]
  cases h with
  | @query _ shuffle _ _ _ _ h =>
    obtain ⟨m1, o1, h1⟩ := DhtManager.andThen_ok h
    rw [h1] at h
    have hp := andThen_peers h
    have hx := ext h
    simp only at hp hx
    rw [hp]
    clear h
    subst hi
    have hf : m.findPeers shuffle m.peers.infoHash =
        ({ m with peers := (m.peers.getGoodPeers 216).1 }, (m.peers.getGoodPeers 216).2) := by
      simp only [DhtManager.Manager.findPeers, Peers.serve, decide_true, if_true]; rfl
    simp only [DhtManager.Manager.processQuery, hf] at h1
    refine ⟨?_, ?_⟩
    · split at h1
      · next heq => cases h1; rw [← (Prod.mk.inj heq).1]
      · next heq =>
        obtain ⟨_, _, h1⟩ := Res.bind_eq_ok.mp h1
        cases h1; rw [← (Prod.mk.inj heq).1]
    · intro vs
      rw [hx]
      split at h1
      · next heq => cases h1; rw [(Prod.mk.inj heq).2]; simp [eq_comm]
      · next heq =>
        obtain ⟨o, _, h1⟩ := Res.bind_eq_ok.mp h1
        cases h1; rw [(Prod.mk.inj heq).2]
        cases o <;> simp

/-- What the table task does with the table of peers when a peer announces itself for the torrent. -/
theorem man_announced {pause : Nat → Nat} {m m' : DhtManager.Manager} {ih : ID} {q : Peer} {outs : List DhtManager.Out}
    (h : DhtManager.Step pause m ⟨.query (.newPeer q ih), outs⟩ m') (hi : ih = m.peers.infoHash) :
    m'.peers = m.peers.insert q := by
  cases h with
  | @query _ shuffle _ _ _ _ h =>
    obtain ⟨m1, o1, h1⟩ := DhtManager.andThen_ok h
    rw [h1] at h
    have hp := andThen_peers h
    simp only at hp
    rw [hp]
    simp only [DhtManager.Manager.processQuery] at h1
    cases h1
    have : m.peers.serve ih = true := by simp [Peers.serve, hi]
    simp only [DhtManager.Manager.storeNewPeer, this, if_true]

/-- What the table task does with the table of peers. -/
theorem man_does {pause : Nat → Nat} {m m' : DhtManager.Manager} {me : DhtManager.Entry}
    (h : DhtManager.Step pause m me m') (ho : ∀ o, me.event ≠ .others o) :
    m'.peers = m.peers ∨
    (∃ qid, me.event = .query (.getPeers m.peers.infoHash qid) ∧ m'.peers = (m.peers.getGoodPeers 216).1 ∧
      ∀ vs, .send (.resp qid (.getPeers (.values vs))) ∈ me.outputs ↔ (m.peers.getGoodPeers 216).2 = some vs) ∨
    (∃ q, me.event = .query (.newPeer q m.peers.infoHash) ∧ m'.peers = m.peers.insert q) := by
  have hst := h
  cases h with
  | shutdown => exact .inl rfl
  | refresh _ _ _ h => exact .inl (andThen_peers h)
  | peerNode _ h => exact .inl (andThen_peers h)
  | peersGone => exact .inl rfl
  | @query _ shuffle fq outs _ _ h =>
    obtain ⟨m1, o1, h1⟩ := DhtManager.andThen_ok h
    rw [h1] at h
    have hp := andThen_peers h
    simp only at hp
    clear h
    cases fq with
    | findNode target qid =>
      simp only [DhtManager.Manager.processQuery] at h1
      obtain ⟨_, _, h1⟩ := Res.bind_eq_ok.mp h1
      cases h1
      exact .inl hp
    | getPeers ih qid =>
      by_cases hs : m.peers.serve ih = true
      · have hih : ih = m.peers.infoHash := by simpa [Peers.serve] using hs
        subst hih
        exact .inr (.inl ⟨qid, rfl, man_answers hst rfl⟩)
      · have hf : (m.findPeers shuffle ih).1 = m := by simp only [DhtManager.Manager.findPeers, hs]; rfl
        simp only [DhtManager.Manager.processQuery] at h1
        refine .inl ?_
        split at h1
        · next heq => cases h1; rw [heq] at hf; rw [hp, ← hf]
        · next heq =>
          obtain ⟨_, _, h1⟩ := Res.bind_eq_ok.mp h1
          cases h1; rw [heq] at hf; rw [hp, ← hf]
    | newPeer p ih =>
      simp only [DhtManager.Manager.processQuery] at h1
      cases h1
      by_cases hs : m.peers.serve ih = true
      · have hih : ih = m.peers.infoHash := by simpa [Peers.serve] using hs
        subst hih
        refine .inr (.inr ⟨p, rfl, hp.trans ?_⟩)
        simp only [DhtManager.Manager.storeNewPeer, hs, if_true]
      · refine .inl (hp.trans ?_)
        simp only [DhtManager.Manager.storeNewPeer, hs]
        split
        · next h => cases h
        · split <;> rfl
  | @resp _ r _ _ h =>
    obtain ⟨m1, o1, h1⟩ := DhtManager.andThen_ok h
    rw [h1] at h
    rw [andThen_peers h]
    refine .inl ?_
    cases r with
    | touch =>
      simp only [DhtManager.Manager.processResp] at h1
      obtain ⟨_, _, h1⟩ := Res.bind_eq_ok.mp h1
      cases h1; rfl
    | newNodes =>
      simp only [DhtManager.Manager.processResp] at h1
      obtain ⟨_, _, h1⟩ := Res.bind_eq_ok.mp h1
      obtain ⟨_, _, h1⟩ := Res.bind_eq_ok.mp h1
      cases h1; rfl
    | getPeers => cases h1; rfl
  | conGone => exact .inl rfl
  | others => exact absurd rfl (ho _)
  | pass => exact .inl rfl
  | reorder => exact .inl rfl

theorem dht_does {env : Env} {pause : Nat → Nat} {a b : DhtSystem.State} {x : DhtSystem.Entry}
    (h : DhtSystem.Step env pause a x b) (ho : ∀ me, x.man = some me → ∀ o, me.event ≠ .others o) :
    b.man.peers = a.man.peers ∨
    (∃ me qid, x.man = some me ∧ me.event = .query (.getPeers a.man.peers.infoHash qid) ∧
      b.man.peers = (a.man.peers.getGoodPeers 216).1 ∧
      ∀ vs, .send (.resp qid (.getPeers (.values vs))) ∈ me.outputs ↔ (a.man.peers.getGoodPeers 216).2 = some vs) ∨
    (∃ me q, x.man = some me ∧ me.event = .query (.newPeer q a.man.peers.infoHash) ∧
      b.man.peers = a.man.peers.insert q) := by
  have man : ∀ {me m'}, x.man = some me → DhtManager.Step pause a.man me m' → b.man = m' →
      (b.man.peers = a.man.peers ∨
      (∃ me qid, x.man = some me ∧ me.event = .query (.getPeers a.man.peers.infoHash qid) ∧
        b.man.peers = (a.man.peers.getGoodPeers 216).1 ∧
        ∀ vs, .send (.resp qid (.getPeers (.values vs))) ∈ me.outputs ↔ (a.man.peers.getGoodPeers 216).2 = some vs) ∨
      (∃ me q, x.man = some me ∧ me.event = .query (.newPeer q a.man.peers.infoHash) ∧
        b.man.peers = a.man.peers.insert q)) := by
    intro me m' hx hm hb
    subst hb
    rcases man_does hm (ho me hx) with h | ⟨qid, h1, h2, h3⟩ | ⟨q, h1, h2⟩
    · exact .inl h
    · exact .inr (.inl ⟨me, qid, hx, h1, h2, h3⟩)
    · exact .inr (.inr ⟨me, q, hx, h1, h2⟩)
  cases h with
  | direct _ _ h => exact man rfl h rfl
  | takeQuery _ _ h => exact man rfl h rfl
  | takeAnswer _ _ h => exact man rfl h rfl
  | conGone _ _ _ h => exact man rfl h rfl
  | outside _ h => exact man rfl h rfl
  | putFails _ _ h => exact man rfl h rfl
  | _ => exact .inl rfl

/-! ## The peers the manager has -/

/-- The manager has the peer among the active ones or among those it is going to give back. -/
def Held (t : TM) (q : Peer) : Prop := q ∈ t.activePeers.keys ∨ q ∈ t.inactivePeers.map (·.1)

theorem handle_inactive {p : Profile} {s s' : TM} {peer : Peer} {m : ConMessageType}
    (hm : s.handleCommand p peer m = .ok s') : ∀ x ∈ s'.inactivePeers, x ∈ s.inactivePeers ∨ x.2 ≠ .active := by
  have mark : ∀ {st : Status}, st ≠ .active → s.markPeerAsInactive p peer st = .ok s' →
      ∀ x ∈ s'.inactivePeers, x ∈ s.inactivePeers ∨ x.2 ≠ .active := by
    intro st hst h x hx
    simp only [TM.markPeerAsInactive] at h
    split at h
    · cases h; exact .inl hx
    · obtain ⟨_, _, h⟩ := Res.bind_eq_ok.mp h
      obtain ⟨_, _, h⟩ := Res.bind_eq_ok.mp h
      cases h
      rcases List.mem_append.mp hx with hx | hx
      · exact .inl hx
      · rw [List.mem_singleton] at hx; subst hx; exact .inr hst
  have same : s'.inactivePeers = s.inactivePeers → ∀ x ∈ s'.inactivePeers, x ∈ s.inactivePeers ∨ x.2 ≠ .active :=
    fun h x hx => .inl (h ▸ hx)
  cases m with
  | unreachable => exact mark (by simp) hm
  | disconnected => exact mark (by simp) hm
  | have_ i =>
    refine same ?_
    simp only [TM.handleCommand, TM.handleHave] at hm
    split at hm
    · cases hm; rfl
    · obtain ⟨⟨_, _⟩, _, hm⟩ := Res.bind_eq_ok.mp hm
      split at hm
      · cases hm; rfl
      · obtain ⟨_, _, hm⟩ := Res.bind_eq_ok.mp hm
        obtain ⟨_, _, hm⟩ := Res.bind_eq_ok.mp hm
        cases hm; rfl
  | bitfield b =>
    refine same ?_
    simp only [TM.handleCommand, TM.acceptBitfield] at hm
    split at hm
    · cases hm; rfl
    · split at hm
      · cases hm; rfl
      · split at hm
        · obtain ⟨_, _, hm⟩ := Res.bind_eq_ok.mp hm
          obtain ⟨_, _, hm⟩ := Res.bind_eq_ok.mp hm
          cases hm; rfl
        · cases hm; rfl
        · cases hm
  | _ =>
    first
      | (cases hm; done)
      | (refine same ?_; cases hm; rfl)

/-- What a step of the manager does with the peers it has. -/
theorem tm_held {p : Profile} {t t' : TM} {e : TM.Event} (h : TM.Step p t e t') :
    (∀ q, Held t' q → Held t q ∨ ∃ batch, e = .tick batch ∧ q ∈ batch) ∧
    ∀ x ∈ t'.inactivePeers, x ∈ t.inactivePeers ∨ x.2 ≠ .active := by
  cases h with
  | peers => exact ⟨fun q h => .inl h, fun x h => .inl h⟩
  | reorder hp => exact ⟨fun q h => .inl (h.imp (hp.map (·.1)).mem_iff.mpr id), fun x h => .inl h⟩
  | start _ h1 h2 =>
    obtain ⟨_, i2, i3⟩ := startDownloading_peers h2
    refine ⟨fun q h => .inl ?_, fun x h => .inl (by have h' := h; simp only at h'; rwa [i2] at h')⟩
    rcases h with h | h
    · rcases i3 q h with h | rfl
      · exact .inl h
      · exact .inl (selected_active h1)
    · right; simp only at h; rwa [i2] at h
  | nothing => exact ⟨fun q h => .inl h, fun x h => .inl h⟩
  | msg _ h =>
    obtain ⟨_, i2, i3⟩ := handle_peers h
    refine ⟨fun q hq => .inl ?_, handle_inactive h⟩
    rcases hq with hq | hq
    · exact .inl (i2 q hq)
    · exact (i3 q hq).symm
  | @tick _ batch h0 h =>
    rcases tick_peers h with ⟨h1, h2, h3, h4⟩ | ⟨limit, h1, h2, h3, h4⟩
    · exact ⟨fun q hq => .inl (by simpa only [Held, h3, h4] using hq), fun x hx => .inl (by rwa [h4] at hx)⟩
    · refine ⟨fun q hq => ?_, fun x hx => by rw [h3] at hx; simp at hx⟩
      rcases hq with hq | hq
      · rcases h4 q hq with h | h
        · exact .inl (.inl h)
        · exact .inr ⟨_, rfl, h⟩
      · rw [h3] at hq; simp at hq

theorem swarm_held {c : Swarm.Cfg} {a b : Swarm.State} {e : Swarm.Event} (hw : Swarm.Waiting a)
    (h : Swarm.Step c a e b) : (∀ q, Held b.tm q → Held a.tm q ∨ q ∈ connectedTo [e]) ∧
    ∀ x ∈ b.tm.inactivePeers, x ∈ a.tm.inactivePeers ∨ x.2 ≠ .active := by
  have man : ∀ {te t'}, e = .man te → TM.Step c.p a.tm te t' →
      (∀ q, Held t' q → Held a.tm q ∨ q ∈ connectedTo [e]) ∧
      ∀ x ∈ t'.inactivePeers, x ∈ a.tm.inactivePeers ∨ x.2 ≠ .active := by
    intro te t' he ht
    subst he
    refine ⟨fun q hq => ?_, (tm_held ht).2⟩
    rcases (tm_held ht).1 q hq with hb | ⟨batch, rfl, hb⟩
    · exact .inl hb
    · exact .inr (by simpa [connectedTo] using hb)
  have sd : ∀ {tm' : TM} {i q hh sent acc k}, a.tm.selectPiece = .ok (some (q, i, hh)) →
      a.tm.startDownloadingPiece i q sent = .ok (tm', acc) →
      (∀ q, Held { tm' with slots := k } q → Held a.tm q ∨ q ∈ connectedTo [e]) ∧
      ∀ x ∈ tm'.inactivePeers, x ∈ a.tm.inactivePeers ∨ x.2 ≠ .active := by
    intro tm' i q hh sent acc k h1 h2
    obtain ⟨_, i2, i3⟩ := startDownloading_peers h2
    refine ⟨fun q h => .inl ?_, fun x h => .inl (by rwa [i2] at h)⟩
    rcases h with h | h
    · rcases i3 q h with h | rfl
      · exact .inl h
      · exact .inl (selected_active h1)
    · right; simp only at h; rwa [i2] at h
  cases h with
  | shared h => exact man rfl h
  | reorder _ h => exact man rfl h
  | tick _ h => exact man rfl h
  | nothing _ h => exact man rfl h
  | refused _ _ h => exact man rfl h
  | msg _ _ h => exact man rfl h
  | putFails h1 _ _ h => exact sd (hw _ _ _ (.inl h1)).1 h
  | add h1 _ _ h => exact sd (hw _ _ _ (.inr h1)).1 h
  | _ => exact ⟨fun q h => .inl h, fun x h => .inl h⟩

/-! ## One step of the program -/

theorem statusOf_extend {p : Peers} {ps : List Peer} {q : Peer} :
    statusOf (p.extend ps) q = if q ∈ ps then some .unknown else statusOf p q := Peers.extend_get? p.data ps q

theorem statusOf_insert {p : Peers} {r q : Peer} :
    statusOf (p.insert r) q = if q = r then some .unknown else statusOf p q := by
  simp only [statusOf, Peers.insert, Map.get?_insert]

/-- The step of a task on the table of peers. -/
inductive Does (s : State) (s' : State) : Event → Prop
  | nothing (e : Event) : s'.peers = s.peers → connectedTo (torrentEvents [e]) = [] → Does s s' e
  | answered {i r} : s'.peers = s.peers.extend r.peers → Does s s' (.answered i r)
  | told {x me qid} : x.man = some me → me.event = .query (.getPeers s.peers.infoHash qid) →
      s'.peers = (s.peers.getGoodPeers 216).1 →
      (∀ vs, .send (.resp qid (.getPeers (.values vs))) ∈ me.outputs ↔ (s.peers.getGoodPeers 216).2 = some vs) →
      Does s s' (.dht x)
  | announced {x me q} : x.man = some me → me.event = .query (.newPeer q s.peers.infoHash) →
      s'.peers = s.peers.insert q → Does s s' (.dht x)
  | heard {r l since} : s.lookup = some l → l.alive = true → l.todo = [] → l.task.phase = .fetching since →
      s'.peers = ((s.looking l).receive r).1.peers → Does s s' (.hears r ((s.looking l).receive r).2)
  | tick {batch limit} : s'.peers = (s.peers.returnBatch s.swarm.tm.inactivePeers limit).1 →
      batch = (s.peers.returnBatch s.swarm.tm.inactivePeers limit).2 →
      (s.swarm.tm.activePeers.length ≤ 10 → limit = 10 - s.swarm.tm.activePeers.length) →
      Does s s' (.torrent (.man (.tick batch)))

theorem tick_limit {p : Profile} {s s' : TM} {batch : List Peer} (h : s.beginTick p = .ok (s', batch)) :
    (s'.peers = s.peers ∧ batch = [] ∧ 10 ≤ s.activePeers.length) ∨
    (∃ limit, s'.peers = (s.peers.returnBatch s.inactivePeers limit).1 ∧
      batch = (s.peers.returnBatch s.inactivePeers limit).2 ∧
      (s.activePeers.length ≤ 10 → limit = 10 - s.activePeers.length)) := by
  simp only [TM.beginTick] at h
  obtain ⟨⟨s1, b⟩, h1, h⟩ := Res.bind_eq_ok.mp h
  obtain ⟨n, _, h⟩ := Res.bind_eq_ok.mp h
  cases h
  simp only [TM.refreshPeerList] at h1
  obtain ⟨free, hf, h1⟩ := Res.bind_eq_ok.mp h1
  have hfree : s.activePeers.length ≤ 10 → free = 10 - s.activePeers.length := by
    intro hle
    simp only [usizeSub, hle, if_true] at hf
    exact (Res.ok.inj hf).symm
  split at h1
  · cases h1
    refine .inl ⟨rfl, rfl, ?_⟩
    apply Classical.byContradiction
    intro hlt
    have := hfree (by omega)
    omega
  · obtain ⟨s2, h2, h1⟩ := Res.bind_eq_ok.mp h1
    cases h1
    obtain ⟨i1, _, _⟩ := addPeers_peers h2
    exact .inr ⟨free, i1, rfl, hfree⟩

theorem swarm_does {c : Swarm.Cfg} {a b : Swarm.State} {e : Swarm.Event} (ho : ∀ o, e ≠ .man (.peers o))
    (h : Swarm.Step c a e b) : (b.tm.peers = a.tm.peers ∧ connectedTo [e] = []) ∨
    ∃ batch limit, e = .man (.tick batch) ∧ b.tm.peers = (a.tm.peers.returnBatch a.tm.inactivePeers limit).1 ∧
      batch = (a.tm.peers.returnBatch a.tm.inactivePeers limit).2 ∧
      (a.tm.activePeers.length ≤ 10 → limit = 10 - a.tm.activePeers.length) := by
  cases h with
  | shared => exact absurd rfl (ho _)
  | reorder _ h => cases h; exact .inl ⟨rfl, rfl⟩
  | nothing _ h => cases h; exact .inl ⟨rfl, rfl⟩
  | refused _ _ h =>
    cases h with
    | start _ _ h => exact .inl ⟨(startDownloading_peers h).1, rfl⟩
  | msg _ _ h =>
    cases h with
    | msg _ h => exact .inl ⟨(handle_peers h).1, rfl⟩
  | putFails _ _ _ h => exact .inl ⟨(startDownloading_peers h).1, rfl⟩
  | add _ _ _ h => exact .inl ⟨(startDownloading_peers h).1, rfl⟩
  | @tick batch _ _ h =>
    cases h with
    | tick _ h =>
      rcases tick_limit h with ⟨h1, h2, _⟩ | ⟨limit, h1, h2, h3⟩
      · exact .inl ⟨h1, by simp [connectedTo, h2]⟩
      · exact .inr ⟨_, limit, rfl, h1, h2, h3⟩
  | _ => exact .inl ⟨rfl, rfl⟩

theorem turn_does (h : Turn w s e s') : Does s s' e := by
  cases h with
  | @torrent e sw ho h =>
    rcases swarm_does (fun o he => by rw [he] at ho; exact ho) h with ⟨h1, h2⟩ | ⟨batch, limit, rfl, h1, h2, h3⟩
    · exact .nothing _ h1 h2
    · exact .tick h1 h2 h3
  | @dht x d ho h =>
    rcases dht_does h (fun me hme o he => by have := ho.table me hme; rw [he] at this; exact this) with
      h1 | ⟨me, qid, h1, h2, h3, h4⟩ | ⟨me, q, h1, h2, h3⟩
    · exact .nothing _ h1 rfl
    · exact .told h1 h2 h3 h4
    · exact .announced h1 h2 h3
  | @hears l r sent f d h1 h2 h3 _ h =>
    cases h with
    | answer hp => exact .heard h1 h2 h3 hp rfl
  | answered => exact .answered rfl
  | _ => exact .nothing _ rfl rfl

/-! ## A peer that was told to others is not tried -/

/-- The peer is no candidate for a connection, and will not be unless it is named. -/
structure Out (s : State) (q : Peer) : Prop where
  wf : s.peers.data.WF
  table : ∀ st, statusOf s.peers q = some st → st = .active
  held : ¬ Held s.swarm.tm q

theorem turn_held (hw : Swarm.Waiting s.torrent) (h : Turn w s e s') :
    (∀ q, Held s'.swarm.tm q → Held s.swarm.tm q ∨ q ∈ connectedTo (torrentEvents [e])) ∧
    ∀ x ∈ s'.swarm.tm.inactivePeers, x ∈ s.swarm.tm.inactivePeers ∨ x.2 ≠ .active := by
  cases h with
  | torrent _ h => have := swarm_held hw h; exact this
  | node h => cases h; exact ⟨fun q h => .inl h, fun x h => .inl h⟩
  | tableEnds _ _ _ h => cases h; exact ⟨fun q h => .inl h, fun x h => .inl h⟩
  | _ => exact ⟨fun q h => .inl h, fun x h => .inl h⟩

theorem good_status {p : Peers} (hw : p.data.WF) {n : Nat} {q : Peer} {st : Status}
    (h : statusOf (p.getGoodPeers n).1 q = some st) : statusOf p q = some st ∨ st = .active := by
  obtain ⟨good, _, _, _, _, g⟩ := good_eq hw n
  rw [g] at h
  split at h
  · cases h; exact .inr rfl
  · exact .inl h

theorem receive_status {f : Fetch.Fetcher} (hw : f.peers.data.WF) {r : FromConResp} {q : Peer} {st : Status}
    (hn : ∀ sender token vs, r = .getPeers sender token (.values vs) → q ∉ vs)
    (h : statusOf (f.receive r).1.peers q = some st) : statusOf f.peers q = some st ∨ st = .active := by
  by_cases ha : f.accepts r = true
  · rw [(Fetch.receive_accepted ha).1] at h
    obtain ⟨sender, token, vn, node, rfl, hg⟩ := Fetch.accepts_iff.mp ha
    have hs : statusOf (f.answer (.getPeers sender token vn)).1.peers q = statusOf f.peers q := by
      simp only [Fetch.Fetcher.answer, hg]
      cases vn with
      | values vs => rw [statusOf_extend, if_neg (hn _ _ _ rfl)]
      | nodes => rfl
    have hwa : (f.answer (.getPeers sender token vn)).1.peers.data.WF := by
      simp only [Fetch.Fetcher.answer, hg]
      cases vn with
      | values vs => exact Peers.step_wf (.extend (ps := vs)) hw
      | nodes => exact hw
    simp only at h
    split at h
    · rw [← hs]; exact good_status hwa h
    · rw [← hs]; exact .inl h
  · rw [Fetch.receive_ignored (by simpa using ha)] at h
    exact .inl h

theorem batch_out {p : Peers} (hw : p.data.WF) {bad : List (Peer × Status)} {limit : Nat} {q : Peer}
    (ht : ∀ st, statusOf p q = some st → st = .active) (hb : q ∉ bad.map (·.1)) :
    q ∉ (p.returnBatch bad limit).2 ∧ ∀ st, statusOf (p.returnBatch bad limit).1 q = some st → st = .active := by
  obtain ⟨cands, h1, _, h3, _, h5⟩ := batch_eq hw bad limit
  have har : afterReports p bad q = statusOf p q := by
    simp only [afterReports]
    cases hf : bad.reverse.find? (fun e => e.1 = q) with
    | none => rfl
    | some x =>
      have h1 := List.mem_of_find?_eq_some hf
      have h2 := List.find?_some hf
      exact absurd (List.mem_map.mpr ⟨x, List.mem_reverse.mp h1, by simpa using h2⟩) hb
  have hno : q ∉ cands.take limit := by
    intro hm
    obtain ⟨st, h6, h7⟩ := (h3 q).mp (List.mem_of_mem_take hm)
    rw [har] at h6
    exact h7 (ht st h6)
  refine ⟨by rw [h1]; exact hno, fun st h => ?_⟩
  rw [h5, if_neg hno, har] at h
  exact ht st h

theorem Out.step {q : Peer} (ho : Out s q) (hw : Swarm.Waiting s.torrent) (hi : s.peers.infoHash = u.infoHash)
    (h : Turn w s e s') (hn : ¬ Source u [e] q) : Out s' q ∧ q ∉ connectedTo (torrentEvents [e]) := by
  have hwf : s'.peers.data.WF := by
    obtain ⟨ops, ho'⟩ := turn_peers h
    exact Peers.run_wf ho' ho.wf
  have key : (∀ st, statusOf s'.peers q = some st → st = .active) ∧ q ∉ connectedTo (torrentEvents [e]) := by
    cases turn_does h with
    | nothing _ h1 h2 => rw [h1, h2]; exact ⟨ho.table, by simp⟩
    | @answered i r h1 =>
      refine ⟨fun st hst => ho.table st ?_, by simp [torrentEvents, connectedTo]⟩
      rw [h1, statusOf_extend, if_neg (fun hq => hn (.inl ⟨i, r, by simp, hq⟩))] at hst
      exact hst
    | told _ _ h1 =>
      refine ⟨fun st hst => ?_, by simp [torrentEvents, connectedTo]⟩
      rw [h1] at hst
      rcases good_status ho.wf hst with h | h
      · exact ho.table st h
      · exact h
    | @announced x me r h1 h2 h3 =>
      refine ⟨fun st hst => ho.table st ?_, by simp [torrentEvents, connectedTo]⟩
      rw [h3, statusOf_insert, if_neg ?_] at hst
      · exact hst
      · rintro rfl
        refine hn (.inr (.inl ⟨me, ?_, by rw [h2, hi]⟩))
        show me ∈ manHistory [x]
        rw [DhtSystem.manHistory_single, h1]; simp
    | @heard r l since _ _ _ _ h1 =>
      refine ⟨fun st hst => ?_, by simp [torrentEvents, connectedTo]⟩
      rw [h1] at hst
      rcases receive_status (f := s.looking l) ho.wf (fun sender token vs hr hq => by
        subst hr
        exact hn (.inr (.inr ⟨sender, token, vs, _, List.mem_singleton.mpr rfl, hq⟩))) hst with h | h
      · exact ho.table st h
      · exact h
    | @tick batch limit h1 h2 h3 =>
      obtain ⟨k1, k2⟩ := batch_out (limit := limit) ho.wf ho.table (fun hm => ho.held (.inr hm))
      rw [h1]
      refine ⟨k2, ?_⟩
      simp only [torrentEvents, connectedTo, List.filterMap_cons, List.filterMap_nil, List.flatMap_cons,
        List.flatMap_nil, List.append_nil]
      rw [h2]; exact k1
  refine ⟨⟨hwf, key.1, fun hh => ?_⟩, key.2⟩
  rcases (turn_held hw h).1 q hh with h | h
  · exact ho.held h
  · exact key.2 h

theorem source_last {q : Peer} (h : Source u [e] q) : Source u (es ++ [e]) q := by
  rcases h with ⟨i, r, h1, h2⟩ | ⟨me, h1, h2⟩ | ⟨a, t, vs, snt, h1, h2⟩
  · exact .inl ⟨i, r, List.mem_append_right _ h1, h2⟩
  · refine .inr (.inl ⟨me, ?_, h2⟩)
    rw [dhtEvents_snoc, DhtSystem.manHistory_append]
    exact List.mem_append_right _ h1
  · exact .inr (.inr ⟨a, t, vs, snt, List.mem_append_right _ h1, h2⟩)

theorem connectedTo_snoc :
    connectedTo (torrentEvents (es ++ [e])) = connectedTo (torrentEvents es) ++ connectedTo (torrentEvents [e]) := by
  rw [torrentEvents_snoc, connectedTo, List.flatMap_append]; rfl

/-- The peers the manager has are those it connected to, and none is given back as active. -/
theorem run_held (h0 : Started w u s0) (h : Run w s0 es s) :
    (∀ q, Held s.swarm.tm q → q ∈ connectedTo (torrentEvents es)) ∧ ∀ x ∈ s.swarm.tm.inactivePeers, x.2 ≠ .active := by
  induction h with
  | nil =>
    have hs := h0.swarm
    simp only [Swarm.State.start] at hs
    obtain ⟨tm, h1, hs⟩ := Res.bind_eq_ok.mp hs
    obtain ⟨pend, h2, hs⟩ := Res.bind_eq_ok.mp hs
    simp only [TM.init] at h1
    obtain ⟨_, _, h1⟩ := Res.bind_eq_ok.mp h1
    have hs := Res.ok.inj hs
    have h1 := Res.ok.inj h1
    rw [← hs, ← h1]
    exact ⟨fun q h => by rcases h with h | h <;> simp [Map.keys] at h, by simp⟩
  | snoc hr hs ih =>
    obtain ⟨k1, k2⟩ := turn_held (run_waiting h0 hr) hs.2
    refine ⟨fun q hq => ?_, fun x hx => ?_⟩
    · rw [connectedTo_snoc, List.mem_append]
      exact (k1 q hq).imp (ih.1 q) id
    · rcases k2 x hx with h | h
      · exact ih.2 x h
      · exact h

theorem Out.run {q : Peer} (h0 : Started w u s0) (h : Run w s0 es s) (ho : Out s q) (h' : Run w s es' s')
    (hn : ¬ Source u es' q) : Out s' q ∧ q ∉ connectedTo (torrentEvents es') := by
  induction h' with
  | nil => exact ⟨ho, by simp [connectedTo, torrentEvents]⟩
  | snoc hr hs ih =>
    obtain ⟨i1, i2⟩ := ih fun hc => hn hc.snoc
    obtain ⟨j1, j2⟩ := i1.step (run_waiting h0 (h.trans hr)) (run_known h0 (h.trans hr)).own hs.2
      fun hc => hn (source_last hc)
    refine ⟨j1, ?_⟩
    rw [connectedTo_snoc, List.mem_append]
    exact fun hc => hc.elim i2 j2

/-- C125 is violated: a peer that is known but was not connected to yet, and that the program names in an answer to a query
of another node for the peers of this torrent, is never connected to afterwards, whatever happens, unless a tracker,
the peer itself or a node names it again. -/
theorem C125_forgotten_violated (w : World) (u : Setup) (s0 s s1 : State) (es : List Event) (h0 : Started w u s0)
    (h : Run w s0 es s) (p : Peer) (hp : p ∉ connectedTo (torrentEvents es)) (x : DhtSystem.Entry)
    (me : DhtManager.Entry) (qid : QueryId) (vs : List Peer) (hs : Step w s (.dht x) s1) (hx : x.man = some me)
    (hq : me.event = .query (.getPeers u.infoHash qid)) (hv : (qid, .getPeers (.values vs)) ∈ answers me.outputs)
    (hpv : p ∈ vs) :
    ∀ es' s', Run w s1 es' s' → ¬ Source u es' p → p ∉ connectedTo (torrentEvents es') := by
  have hk := run_known h0 h
  have hsend : DhtManager.Out.send (.resp qid (.getPeers (.values vs))) ∈ me.outputs := by
    obtain ⟨o, ho, he⟩ := List.mem_filterMap.mp hv
    cases o with
    | send c =>
      cases c with
      | resp q r => cases he; exact ho
      | _ => cases he
    | _ => cases he
  have hout : Out s1 p := by
    have hwf : s1.peers.data.WF := by
      obtain ⟨ops, ho'⟩ := turn_peers hs.2
      exact Peers.run_wf ho' hk.known.wf
    refine ⟨hwf, ?_, fun hh => ?_⟩
    · obtain ⟨_, hst⟩ := hs
      have hne : s1.peers = (s.peers.getGoodPeers 216).1 ∧ (s.peers.getGoodPeers 216).2 = some vs := by
        cases hst with
        | @dht _ d ho hd =>
          have hi : s.nodes.man.peers.infoHash = u.infoHash := hk.own
          have key : ∀ {m'}, DhtManager.Step w.refreshPause s.nodes.man me m' → d.man = m' →
              d.man.peers = (s.peers.getGoodPeers 216).1 ∧ (s.peers.getGoodPeers 216).2 = some vs := by
            intro m' hm hd
            subst hd
            obtain ⟨ev, outs⟩ := me
            cases hq
            obtain ⟨h1, h2⟩ := man_answers hm hi.symm
            exact ⟨h1, (h2 vs).mp hsend⟩
          cases hd with
          | direct _ _ h => cases hx; exact key h rfl
          | takeQuery _ _ h => cases hx; exact key h rfl
          | takeAnswer _ _ h => cases hx; exact key h rfl
          | conGone _ _ _ h => cases hx; exact key h rfl
          | outside _ h => cases hx; exact key h rfl
          | putFails _ _ h => cases hx; exact key h rfl
          | _ => cases hx
      obtain ⟨good, _, g1, _, _, g4⟩ := good_eq hk.known.wf 216
      intro st hst'
      have hin : p ∈ good.take 216 := by
        have h2 := hne.2
        rw [show s.torrent.tm.peers = s.peers from rfl] at g1
        rw [g1] at h2
        split at h2
        · cases h2
        · cases h2; exact hpv
      rw [hne.1] at hst'
      have := g4 p
      rw [show s.torrent.tm.peers = s.peers from rfl, if_pos hin] at this
      rw [this] at hst'
      exact (Option.some.inj hst').symm
    · have hsw : s1.swarm = s.swarm := by cases hs.2; rfl
      rw [hsw] at hh
      exact hp ((run_held h0 h).1 p hh)
  exact fun es' s' h' hn => (hout.run h0 (h.snoc hs) h' hn).2

/-! ## A peer that was named is tried -/

/-- The peer is a candidate for a connection. -/
def Candidate (p : Peers) (q : Peer) : Prop := ∃ st, statusOf p q = some st ∧ st ≠ .active

theorem newNodes_keys (ih : ID) (ns : List Node) : ∀ (m : Fetch.NodeMap) (a : SockAddr),
    a ∈ (Fetch.getPeersFromNewNodes ih ns m).1.keys → a ∈ m.keys ∨ a ∈ (Fetch.getPeersFromNewNodes ih ns m).2.map (·.1) := by
  induction ns with
  | nil => exact fun m a h => .inl h
  | cons n ns ihn =>
    intro m a h
    simp only [Fetch.getPeersFromNewNodes] at h ⊢
    split at h
    · next hc => rw [if_pos hc]; exact ihn m a h
    · next hc =>
      rw [if_neg hc]
      rcases ihn _ a h with h | h
      · rcases Map.mem_keys_insert.mp h with rfl | h
        · exact .inr (by simp)
        · exact .inl h
      · exact .inr (List.mem_cons_of_mem _ h)

theorem answer_keys {f : Fetch.Fetcher} {r : FromConResp} {a : SockAddr} (h : a ∈ (f.answer r).1.nodes.keys) :
    a ∈ f.nodes.keys ∨ a ∈ (f.answer r).2.map (·.1) := by
  cases r with
  | getPeers sender token vn =>
    simp only [Fetch.Fetcher.answer] at h ⊢
    cases hg : f.nodes.get? sender with
    | none => rw [hg] at h; exact .inl h
    | some node =>
      have hk : sender ∈ f.nodes.keys := Classical.byContradiction fun hc => by rw [Map.get?_eq_none.mpr hc] at hg; cases hg
      rw [hg] at h
      cases vn with
      | values vs =>
        rcases Map.mem_keys_insert.mp h with rfl | h
        · exact .inl hk
        · exact .inl h
      | nodes ns =>
        rcases newNodes_keys _ _ _ _ h with h | h
        · rcases Map.mem_keys_insert.mp h with rfl | h
          · exact .inl hk
          · exact .inl h
        · exact .inr h
  | _ => exact .inl h

theorem newNodes_keeps (ih : ID) : ∀ (ns : List Node) (m : Fetch.NodeMap) (a : SockAddr),
    a ∈ m.keys ∨ a ∈ (Fetch.getPeersFromNewNodes ih ns m).2.map (·.1) →
    a ∈ (Fetch.getPeersFromNewNodes ih ns m).1.keys := by
  intro ns
  induction ns with
  | nil => intro m a h; simpa [Fetch.getPeersFromNewNodes] using h
  | cons n ns ihn =>
    intro m a h
    simp only [Fetch.getPeersFromNewNodes] at h ⊢
    split at h
    · next hc => rw [if_pos hc]; exact ihn m a h
    · next hc =>
      rw [if_neg hc]
      refine ihn _ a ?_
      rcases h with h | h
      · exact .inl (Map.mem_keys_insert.mpr (.inr h))
      · rw [List.map_cons, List.mem_cons] at h
        rcases h with rfl | h
        · exact .inl (Map.mem_keys_insert.mpr (.inl rfl))
        · exact .inr h

theorem answer_keeps {f : Fetch.Fetcher} {r : FromConResp} {a : SockAddr} (h : a ∈ f.nodes.keys) :
    a ∈ (f.answer r).1.nodes.keys := by
  cases r with
  | getPeers sender token vn =>
    simp only [Fetch.Fetcher.answer]
    cases hg : f.nodes.get? sender with
    | none => exact h
    | some node =>
      cases vn with
      | values vs => exact Map.mem_keys_insert.mpr (.inr h)
      | nodes ns => exact newNodes_keeps _ _ _ _ (.inl (Map.mem_keys_insert.mpr (.inr h)))
  | _ => exact h

theorem answer_asks {f : Fetch.Fetcher} {r : FromConResp} {x : Fetch.Sent} (h : x ∈ (f.answer r).2) :
    x.1 ∈ (f.answer r).1.nodes.keys := by
  cases r with
  | getPeers sender token vn =>
    simp only [Fetch.Fetcher.answer] at h ⊢
    cases hg : f.nodes.get? sender with
    | none => rw [hg] at h; simp at h
    | some node =>
      rw [hg] at h
      cases vn with
      | values vs => simp at h
      | nodes ns => exact newNodes_keeps _ _ _ _ (.inr (List.mem_map_of_mem h))
  | _ => simp [Fetch.Fetcher.answer] at h

theorem mem_askedNodes_asks {a : SockAddr} {v : ToConQuery} (h : (a, v) ∈ lookupAsked es) : a ∈ askedNodes es := by
  obtain ⟨ev, hev, he⟩ := List.mem_filterMap.mp h
  refine List.mem_flatMap.mpr ⟨ev, hev, ?_⟩
  cases ev with
  | asks a' v' => cases he; simp
  | _ => cases he

/-- The nodes the lookup has after an answer were all asked or are going to be. -/
theorem lookup_nodes (h0 : Started w u s0) (h : Run w s0 es s) {l : Lookup} {since : Nat} (hl : s.lookup = some l)
    (ha : l.alive = true) (ht : l.todo = []) (hp : l.task.phase = .fetching since) (r : FromConResp)
    (hacc : (s.looking l).accepts r = true) :
    ((s.looking l).answer r).1.nodes.keys.Nodup ∧
    ((s.looking l).answer r).1.nodes.keys ⊆ askedNodes (es ++ [.hears r ((s.looking l).receive r).2]) := by
  rcases run_lookup h0.lookup h with ⟨h1, _⟩ | ⟨l', ns, hist, h1, hi⟩
  · rw [hl] at h1; cases h1
  · rw [hl] at h1
    cases h1
    obtain ⟨es1, now, es2, s1, _, _, hr⟩ := hi.origin
    have hinv := Fetch.Inv.run hr
    refine ⟨Fetch.answer_wf hinv.wf r, fun a hm => ?_⟩
    rw [askedNodes, List.flatMap_append, List.mem_append]
    rcases answer_keys hm with hm | hm
    · left
      obtain ⟨n, hn⟩ : ∃ n, (s.looking l).nodes.get? a = some n := by
        cases hg : (s.looking l).nodes.get? a with
        | none => exact absurd hm (Map.get?_eq_none.mp hg)
        | some n => exact ⟨n, rfl⟩
      obtain ⟨x, hx, ih, hs⟩ := hinv.queried (hinv.fetching since hp) a n hn
      have : (a, ToConQuery.getPeers ih) ∈ hist.flatMap (·.sent) := List.mem_flatMap.mpr ⟨x, hx, hs⟩
      rw [hi.todo ha, ht, List.append_nil] at this
      exact mem_askedNodes_asks this
    · right
      simp only [List.flatMap_cons, List.flatMap_nil, List.append_nil]
      rw [(Fetch.receive_accepted hacc).2, List.map_append]
      exact List.mem_append_left _ hm

theorem after_reports {p : Peers} {bad : List (Peer × Status)} (hb : ∀ x ∈ bad, x.2 ≠ .active) {q : Peer}
    (h : Candidate p q) : ∃ st, afterReports p bad q = some st ∧ st ≠ .active := by
  simp only [afterReports]
  cases hf : bad.reverse.find? (fun e => e.1 = q) with
  | none => exact h
  | some x => exact ⟨x.2, rfl, hb x (List.mem_reverse.mp (List.mem_of_find?_eq_some hf))⟩

/-- A candidate stays one, until it is connected to or told to another node. -/
theorem Candidate.step {q : Peer} (hc : Candidate s.peers q) (h0 : Started w u s0) (h : Run w s0 es s)
    (hs : Step w s e s') (hfew : ∀ l : List SockAddr, l.Nodup → l ⊆ askedNodes (es ++ [e]) → l.length < 512)
    (ht : ¬ ToldOthers [e] q) : Candidate s'.peers q ∨ q ∈ connectedTo (torrentEvents [e]) := by
  have hk := run_known h0 h
  have hwf : s.peers.data.WF := hk.known.wf
  obtain ⟨st, hst, hne⟩ := hc
  cases turn_does hs.2 with
  | nothing _ h1 h2 => rw [h1]; exact .inl ⟨st, hst, hne⟩
  | @answered i r h1 =>
    rw [h1]
    refine .inl ?_
    by_cases hq : q ∈ r.peers
    · exact ⟨.unknown, by rw [statusOf_extend, if_pos hq], by simp⟩
    · exact ⟨st, by rw [statusOf_extend, if_neg hq]; exact hst, hne⟩
  | @told x me qid h1 h2 h3 h4 =>
    obtain ⟨good, _, g1, _, _, g4⟩ := good_eq hwf 216
    by_cases hq : q ∈ good.take 216
    · exfalso
      refine ht ⟨me, ?_, qid, good.take 216, ?_, hq⟩
      · show me ∈ manHistory [x]
        rw [DhtSystem.manHistory_single, h1]; simp
      · rw [if_neg (fun hc => by rw [hc] at hq; simp at hq)] at g1
        exact List.mem_filterMap.mpr ⟨_, (h4 _).mpr g1, rfl⟩
    · rw [h3]
      exact .inl ⟨st, by rw [g4, if_neg hq]; exact hst, hne⟩
  | @announced x me r h1 h2 h3 =>
    rw [h3]
    refine .inl ?_
    by_cases hq : q = r
    · exact ⟨.unknown, by rw [statusOf_insert, if_pos hq], by simp⟩
    · exact ⟨st, by rw [statusOf_insert, if_neg hq]; exact hst, hne⟩
  | @heard r l since h1 h2 h3 h4 h5 =>
    rw [h5]
    refine .inl ?_
    by_cases hacc : (s.looking l).accepts r = true
    · obtain ⟨n1, n2⟩ := lookup_nodes h0 h h1 h2 h3 h4 r hacc
      have hlen := hfew _ n1 n2
      rw [(Fetch.receive_accepted hacc).1]
      have hlt : ¬ ((s.looking l).answer r).1.nodes.length ≥ 512 := by
        rw [show ((s.looking l).answer r).1.nodes.length = ((s.looking l).answer r).1.nodes.keys.length by simp [Map.keys]]
        omega
      simp only [hlt, if_false]
      obtain ⟨sender, token, vn, node, rfl, hg⟩ := Fetch.accepts_iff.mp hacc
      simp only [Fetch.Fetcher.answer, hg]
      cases vn with
      | values vs =>
        by_cases hq : q ∈ vs
        · exact ⟨.unknown, by rw [statusOf_extend, if_pos hq], by simp⟩
        · exact ⟨st, by rw [statusOf_extend, if_neg hq]; exact hst, hne⟩
      | nodes => exact ⟨st, hst, hne⟩
    · rw [Fetch.receive_ignored (by simpa using hacc)]
      exact ⟨st, hst, hne⟩
  | @tick batch limit h1 h2 h3 =>
    obtain ⟨cands, c1, _, c3, _, c5⟩ := batch_eq hwf s.swarm.tm.inactivePeers limit
    obtain ⟨st', a1, a2⟩ := after_reports (run_held h0 h).2 ⟨st, hst, hne⟩
    by_cases hq : q ∈ cands.take limit
    · right
      simp only [torrentEvents, connectedTo, List.filterMap_cons, List.filterMap_nil, List.flatMap_cons,
        List.flatMap_nil, List.append_nil]
      rw [h2, c1]; exact hq
    · left
      rw [h1]
      exact ⟨st', by rw [c5, if_neg hq]; exact a1, a2⟩

/-- Nobody the lookup has asked is forgotten, as long as they are fewer than 512. -/
theorem keeps_asked {pause : Nat → Nat} {init : List Node} {ih : ID} {port : U16} {peers : Peers} {now : Nat}
    {hist : List Fetch.Entry} {f : Fetch.Fetcher} (hr : Fetch.Run pause (Fetch.start ih port init peers now) hist f)
    (hfew : ∀ l : List SockAddr, l.Nodup → l ⊆ (hist.flatMap (·.sent)).map (·.1) → l.length < 512) :
    ∀ x ∈ hist.flatMap (·.sent), x.1 ∈ f.nodes.keys := by
  generalize hs0 : Fetch.start ih port init peers now = f0 at hr
  induction hr with
  | nil => simp
  | @snoc f1 f2 hist e hr hs ihx =>
    subst hs0
    have hinv := Fetch.Inv.run hr
    rw [List.flatMap_append, List.flatMap_cons, List.flatMap_nil, List.append_nil] at hfew ⊢
    have old := ihx (fun l h1 h2 => hfew l h1 fun a ha => by
      rw [List.map_append]; exact List.mem_append_left _ (h2 ha))
    have said : ∀ (g : Fetch.Fetcher), ∀ x ∈ Fetch.announcePeer g.port g.infoHash g.nodes, x.1 ∈ g.nodes.keys := by
      intro g x hx
      simp only [Fetch.announcePeer, List.mem_map] at hx
      obtain ⟨y, hy, rfl⟩ := hx
      obtain ⟨z, hz, he⟩ := List.mem_filterMap.mp (List.mem_of_mem_take hy)
      obtain ⟨t, _, rfl⟩ := Option.map_eq_some_iff.mp he
      exact List.mem_map.mpr ⟨z, (Fetch.sortedNodes_perm _ _).mem_iff.mp hz, rfl⟩
    intro x hx
    rw [List.mem_append] at hx
    cases hs with
    | tick =>
      rcases hx with hx | hx
      · exact old x hx
      · obtain ⟨a, ha, rfl⟩ := List.mem_map.mp hx
        exact ha
    | @answer since r hp =>
      by_cases hacc : f1.accepts r = true
      · obtain ⟨h1, h2⟩ := Fetch.receive_accepted hacc
        have hlt : ¬ (f1.answer r).1.nodes.length ≥ 512 := by
          have := hfew _ (Fetch.answer_wf hinv.wf r) (fun a ha => by
            rw [List.map_append, List.mem_append]
            rcases answer_keys ha with ha | ha
            · obtain ⟨n, hn⟩ : ∃ n, f1.nodes.get? a = some n := by
                cases hg : f1.nodes.get? a with
                | none => exact absurd ha (Map.get?_eq_none.mp hg)
                | some n => exact ⟨n, rfl⟩
              obtain ⟨y, hy, ih, hs⟩ := hinv.queried (hinv.fetching since hp) a n hn
              exact .inl (List.mem_map.mpr ⟨_, List.mem_flatMap.mpr ⟨y, hy, hs⟩, rfl⟩)
            · right
              simp only [h2, List.map_append]
              exact List.mem_append_left _ ha)
          rw [show (f1.answer r).1.nodes.length = (f1.answer r).1.nodes.keys.length by simp [Map.keys]]
          omega
        have hcut : (f1.receive r).1.nodes = (f1.answer r).1.nodes := by
          rw [h1]; simp only [Fetch.cut, hlt, if_false]
        rw [hcut]
        simp only [h2, hlt, decide_false, Bool.false_and, Bool.false_eq_true, if_false, List.append_nil] at hx
        rcases hx with hx | hx
        · exact answer_keeps (old x hx)
        · exact answer_asks hx
      · rw [Fetch.receive_ignored (by simpa using hacc)] at hx ⊢
        rcases hx with hx | hx
        · exact old x hx
        · simp at hx
    | timeout =>
      rcases hx with hx | hx
      · exact old x hx
      · exact said f1 x hx
    | others => rcases hx with hx | hx
                · exact old x hx
                · simp at hx
    | pass => rcases hx with hx | hx
              · exact old x hx
              · simp at hx
    | reorder hm =>
      rcases hx with hx | hx
      · exact (hm.map _).mem_iff.mp (old x hx)
      · simp at hx

/-- A peer that a tracker names or that announces itself is a candidate from then on. -/
theorem named_candidate {q : Peer} (h0 : Started w u s0) (h : Run w s0 es s) (hs : Step w s e s')
    (hn : NamedByTracker [e] q ∨ Announced (manHistory (dhtEvents [e])) u.infoHash q) : Candidate s'.peers q := by
  have hk := run_known h0 h
  rcases hn with ⟨i, r, h1, h2⟩ | ⟨me, h1, h2⟩
  · rw [List.mem_singleton] at h1
    subst h1
    cases hs.2 with
    | answered => exact ⟨.unknown, by rw [statusOf_extend, if_pos h2], by simp⟩
  · obtain ⟨x, hx, hm⟩ := List.mem_filterMap.mp h1
    have key : ∀ d, DhtSystem.Step w.env w.refreshPause s.nodes x d → Candidate d.man.peers q := by
      intro d hd
      have man : ∀ {m'}, DhtManager.Step w.refreshPause s.nodes.man me m' → Candidate m'.peers q := by
        intro m' hst
        obtain ⟨ev, outs⟩ := me
        cases h2
        rw [man_announced hst hk.own.symm]
        exact ⟨.unknown, by rw [statusOf_insert, if_pos rfl], by simp⟩
      cases hd with
      | direct _ _ h => cases hm; exact man h
      | takeQuery _ _ h => cases hm; exact man h
      | takeAnswer _ _ h => cases hm; exact man h
      | conGone _ _ _ h => cases hm; exact man h
      | outside _ h => cases hm; exact man h
      | putFails _ _ h => cases hm; exact man h
      | _ => cases hm
    obtain ⟨ev, hev, hxe⟩ := List.mem_filterMap.mp hx
    rw [List.mem_singleton] at hev
    subst hev
    cases ev with
    | dht y =>
      cases hxe
      cases hs.2 with
      | dht _ hd => exact key _ hd
    | _ => first | (cases hxe; done) | (cases hxe; cases hm; done) | (cases hxe; cases hm; cases h2)

/-- A peer that a node names which the lookup had asked is a candidate from then on. -/
theorem looked_candidate {q : Peer} (h0 : Started w u s0) (h : Run w s0 es s) {sender : SockAddr} {token : Bytes}
    {vs : List Peer} {sent : List Fetch.Sent} (hs : Step w s (.hears (.getPeers sender token (.values vs)) sent) s')
    (hq : q ∈ vs) {v : ToConQuery} (hasked : .asks sender v ∈ es)
    (hfew : ∀ l : List SockAddr, l.Nodup → l ⊆ askedNodes (es ++ [.hears (.getPeers sender token (.values vs)) sent]) →
      l.length < 512) : Candidate s'.peers q := by
  cases hs.2 with
  | hears hl ha ht hd hf =>
    rename_i l f d
    cases hf with
    | @answer since _ hp =>
      rcases run_lookup h0.lookup h with ⟨h1, _⟩ | ⟨l', ns, hist, h1, hi⟩
      · rw [hl] at h1; cases h1
      rw [hl] at h1
      cases h1
      obtain ⟨es1, now, es2, s1, _, _, hr⟩ := hi.origin
      have htodo := hi.todo ha
      rw [ht, List.append_nil] at htodo
      have hmem : (sender, v) ∈ hist.flatMap (·.sent) := by
        rw [htodo]; exact List.mem_filterMap.mpr ⟨_, hasked, rfl⟩
      have hin := keeps_asked hr (fun l h1 h2 => hfew l h1 fun a ha => by
        have := h2 ha
        rw [htodo] at this
        obtain ⟨x, hx, rfl⟩ := List.mem_map.mp this
        rw [askedNodes, List.flatMap_append]
        exact List.mem_append_left _ (mem_askedNodes_asks hx)) _ hmem
      have hg : ∃ n, (s.looking l).nodes.get? sender = some n := by
        cases hg : (s.looking l).nodes.get? sender with
        | none => exact absurd hin (Map.get?_eq_none.mp hg)
        | some n => exact ⟨n, rfl⟩
      obtain ⟨n, hg⟩ := hg
      have hacc : (s.looking l).accepts (.getPeers sender token (.values vs)) = true := Fetch.accepts_iff.mpr ⟨_, _, _, n, rfl, hg⟩
      obtain ⟨n1, n2⟩ := lookup_nodes h0 h hl ha ht hp _ hacc
      have hlen := hfew _ n1 n2
      have hlt : ¬ ((s.looking l).answer (.getPeers sender token (.values vs))).1.nodes.length ≥ 512 := by
        rw [show ((s.looking l).answer (.getPeers sender token (.values vs))).1.nodes.length =
          ((s.looking l).answer (.getPeers sender token (.values vs))).1.nodes.keys.length by simp [Map.keys]]
        omega
      show Candidate ((s.looking l).receive (.getPeers sender token (.values vs))).1.peers q
      rw [(Fetch.receive_accepted hacc).1]
      simp only [hlt, if_false]
      simp only [Fetch.Fetcher.answer, hg]
      exact ⟨.unknown, by rw [statusOf_extend, if_pos hq], by simp⟩

/-- C125, the part that holds: a peer that a tracker names, that announces itself, or that is named in an answer of a node
the lookup has asked, is connected to at a later tick of the manager that leaves room for further peers, or before, provided that the program did not tell another node of it in
the meantime and that its lookup has not asked 512 nodes. Missing: the same without these two exceptions, the first of
which is false (`C125_forgotten_violated`); that a tick with room comes, which depends on the peers that occupy the
places (C117). -/
theorem C125_tried_partial (w : World) (u : Setup) (s0 s s' : State) (es1 es2 : List Event) (e : Event)
    (h0 : Started w u s0) (h : Run w s0 (es1 ++ e :: es2) s) (p : Peer)
    (hn : NamedByTracker [e] p ∨ Announced (manHistory (dhtEvents [e])) u.infoHash p ∨
      ∃ sender token vs sent v, e = .hears (.getPeers sender token (.values vs)) sent ∧ p ∈ vs ∧ .asks sender v ∈ es1)
    (htold : ¬ ToldOthers es2 p)
    (hfew : ∀ l : List SockAddr, l.Nodup → l ⊆ askedNodes (es1 ++ e :: es2) → l.length < 512)
    (batch : List Peer) (hs : Step w s (.torrent (.man (.tick batch))) s')
    (hroom : s.swarm.tm.activePeers.length + batch.length < 10) :
    p ∈ connectedTo (torrentEvents es2) ∨ p ∈ batch := by
  have key : p ∈ connectedTo (torrentEvents es2) ∨ Candidate s.peers p := by
    clear hs hroom
    generalize hes : es1 ++ e :: es2 = es at h hfew
    induction h generalizing es2 with
    | nil => simp at hes
    | @snoc s1 s2 es e' hr hs ih =>
      rcases List.eq_nil_or_concat es2 with rfl | ⟨es3, e3, rfl⟩
      · obtain ⟨rfl, h2⟩ := List.append_inj' hes rfl
        cases h2
        rcases hn with hn | hn | ⟨sender, token, vs, sent, v, rfl, h1, h2⟩
        · exact .inr (named_candidate h0 hr hs (.inl hn))
        · exact .inr (named_candidate h0 hr hs (.inr hn))
        · exact .inr (looked_candidate h0 hr hs h1 h2 hfew)
      · rw [List.concat_eq_append] at hes htold ⊢
        obtain ⟨rfl, h2⟩ := List.append_inj' (s₁ := es1 ++ e :: es3) (t₁ := [e3]) (s₂ := es) (t₂ := [e']) (by simpa using hes) rfl
        cases h2
        rw [connectedTo_snoc, List.mem_append]
        have hfew' : ∀ l : List SockAddr, l.Nodup → l ⊆ askedNodes (es1 ++ e :: es3) → l.length < 512 := by
          intro l h1 h2
          refine hfew l h1 fun a ha => ?_
          rw [askedNodes, List.flatMap_append]
          exact List.mem_append_left _ (h2 ha)
        have told : ∀ {l l' : List Event}, ToldOthers l p ∨ ToldOthers l' p → ToldOthers (l ++ l') p := by
          intro l l' ht
          rcases ht with ⟨me, h1, h2⟩ | ⟨me, h1, h2⟩
          · refine ⟨me, ?_, h2⟩
            rw [show dhtEvents (l ++ l') = dhtEvents l ++ dhtEvents l' from List.filterMap_append,
              DhtSystem.manHistory_append]
            exact List.mem_append_left _ h1
          · refine ⟨me, ?_, h2⟩
            rw [show dhtEvents (l ++ l') = dhtEvents l ++ dhtEvents l' from List.filterMap_append,
              DhtSystem.manHistory_append]
            exact List.mem_append_right _ h1
        rcases ih es3 (fun hc => htold (told (.inl hc))) rfl hfew' with h1 | h1
        · exact .inl (.inl h1)
        · rcases h1.step h0 hr hs hfew (fun hc => htold (told (.inr hc))) with h1 | h1
          · exact .inr h1
          · exact .inl (.inr h1)
  rcases key with hk | hk
  · exact .inl hk
  · right
    cases hs.2 with
    | torrent _ hsw =>
      cases hsw with
      | tick _ htm =>
        cases htm with
        | tick _ hb =>
          have hwf : s.peers.data.WF := (run_known h0 h).known.wf
          have e1 : s.torrent.tm.activePeers = s.swarm.tm.activePeers := rfl
          have e2 : s.torrent.tm.inactivePeers = s.swarm.tm.inactivePeers := rfl
          have e3 : s.torrent.tm.peers = s.peers := rfl
          rcases tick_limit hb with ⟨_, _, h3⟩ | ⟨limit, _, h2, h3⟩
          · rw [e1] at h3; omega
          · rw [e1] at h3
            rw [e2, e3] at h2
            have hlim := h3 (by omega)
            obtain ⟨cands, c1, _, c3, _, _⟩ := batch_eq hwf s.swarm.tm.inactivePeers limit
            have hin : p ∈ cands := (c3 p).mpr (after_reports (run_held h0 h).2 hk)
            rw [h2, c1]
            rw [h2, c1, List.length_take] at hroom
            rw [List.take_of_length_le (by omega)]
            exact hin

/-- The query for peers that was answered last, and the answers. -/
def lastAsked : Event → Option (ID × QueryId × List (QueryId × ToConResp))
  | .dht x => x.man.bind fun me => match me.event with
    | .query (.getPeers ih qid) => some (ih, qid, answers me.outputs)
    | _ => none
  | _ => none

/-- A tracker names A, then another node asks for the peers of the torrent. -/
def tellsA : List Act := [.ev (.tracker 0 .sends), .ev (.answered 0 namesA),
  .datagram (some (exAddr 9)) (Krpc.Message.getPeersQuery (exId 9#8) Swarm.hash1 (tidOf 9#8)).intoBytes, .putQuery, .takeQuery]

/-- The hypotheses of `C125_forgotten_violated` are met. -/
example : ∃ s0 s s1 es x me qid, Started demoWorld demoSetup s0 ∧ Run demoWorld s0 es s ∧
    peerA ∉ connectedTo (torrentEvents es) ∧ Step demoWorld s (.dht x) s1 ∧ x.man = some me ∧
    me.event = .query (.getPeers demoSetup.infoHash qid) ∧
    (qid, .getPeers (.values [peerA])) ∈ answers me.outputs ∧
    ∀ es' s', Run demoWorld s1 es' s' → ¬ Source demoSetup es' peerA → peerA ∉ connectedTo (torrentEvents es') := by
  have : play demoWorld demoSetup tellsA (fun es _ => if connectedTo (torrentEvents es) = [] then
      es.getLast?.bind lastAsked else none) =
      some (some (Swarm.hash1, ⟨exAddr 9, tidOf 9#8⟩, [(⟨exAddr 9, tidOf 9#8⟩, .getPeers (.values [peerA]))])) := by
    decide +kernel
  obtain ⟨s0, es, s, h0, h, hf⟩ := play_sound this
  split at hf
  case isFalse => cases hf
  rename_i h2
  obtain ⟨e, h3, h4⟩ := Option.bind_eq_some_iff.mp hf
  cases h with
  | nil => simp at h3
  | @snoc sa _ es e' hr hs =>
    simp only [List.getLast?_append, List.getLast?_singleton, Option.some_or, Option.some.injEq] at h3
    subst h3
    rw [connectedTo_snoc] at h2
    have hno : peerA ∉ connectedTo (torrentEvents es) := by rw [(List.append_eq_nil_iff.mp h2).1]; simp
    cases e' with
    | dht x =>
      obtain ⟨me, h5, h6⟩ := Option.bind_eq_some_iff.mp h4
      split at h6
      · next ih qid heq =>
        obtain ⟨rfl, h7⟩ := Prod.mk.inj (Option.some.inj h6)
        obtain ⟨rfl, h8⟩ := Prod.mk.inj h7
        have hm : ((⟨exAddr 9, tidOf 9#8⟩ : QueryId), ToConResp.getPeers (.values [peerA])) ∈ answers me.outputs := by
          rw [h8]; simp
        refine ⟨s0, sa, s, es, x, me, _, h0, hr, hno, hs, h5, heq, hm, ?_⟩
        exact C125_forgotten_violated _ _ _ _ _ _ h0 hr _ hno x me _ _ hs h5 heq hm (by simp)
      · cases h6
    | _ => cases h4

/-- The hypotheses of `C125_tried_partial` are met. -/
example : ∃ s0 s s', Started demoWorld demoSetup s0 ∧
    Run demoWorld s0 ([.tracker 0 .sends] ++ .answered 0 namesA :: []) s ∧
    NamedByTracker [.answered 0 namesA] peerA ∧ ¬ ToldOthers [] peerA ∧
    (∀ l : List SockAddr, l.Nodup → l ⊆ askedNodes [.tracker 0 .sends, .answered 0 namesA] → l.length < 512) ∧
    Step demoWorld s (.torrent (.man (.tick [peerA]))) s' ∧ s.swarm.tm.activePeers.length + 1 < 10 := by
  have : demo demoWorld demoSetup [.tracker 0 .sends, .answered 0 namesA] (fun s => (s.swarm.tm.activePeers.length,
      s.down.phase, (attempt demoWorld s (.torrent (.man (.tick [peerA])))).isSome)) = some (0, .holding, true) := by
    decide +kernel
  obtain ⟨s0, s, h0, h, hf⟩ := demo_sound this
  obtain ⟨h1, h2⟩ := Prod.mk.inj hf
  obtain ⟨h2, h3⟩ := Prod.mk.inj h2
  obtain ⟨s', h3⟩ := Option.isSome_iff_exists.mp h3
  refine ⟨s0, s, s', h0, h, ⟨0, namesA, by simp, by simp [namesA]⟩, fun ⟨_, h, _⟩ => by simp [dhtEvents, manHistory] at h,
    fun l _ hl => ?_, ⟨by rw [h2]; simp, attempt_turn h3⟩, by rw [h1]; decide⟩
  cases l with
  | nil => simp
  | cons a l => exact absurd (hl (List.mem_cons_self ..)) (by simp [askedNodes])

/-- The peer an event of the lookup names, and by whom. -/
def namedLast (es : List Event) : Option (SockAddr × List Peer) :=
  match es.getLast? with
  | some (.hears (.getPeers sender _ (.values vs)) _) => some (sender, vs)
  | _ => none

/-- The hypotheses of `C125_tried_partial` are met by a peer that a node names. -/
example : ∃ u s0 s s' es1 sender token vs sent v, Started demoWorld u s0 ∧
    Run demoWorld s0 (es1 ++ .hears (.getPeers sender token (.values vs)) sent :: []) s ∧
    peerA ∈ vs ∧ .asks sender v ∈ es1 ∧ ¬ ToldOthers [] peerA ∧
    (∀ l : List SockAddr, l.Nodup → l ⊆ askedNodes (es1 ++ [.hears (.getPeers sender token (.values vs)) sent]) →
      l.length < 512) ∧
    Step demoWorld s (.torrent (.man (.tick [peerA]))) s' ∧ s.swarm.tm.activePeers.length + 1 < 10 := by
  have : play demoWorld { demoSetup with table := oneNode } asksNode (fun es s =>
      decide (namedLast es = some (exAddr 1, [peerA])) && decide ((lookupAsked es.dropLast).map (·.1) = [exAddr 1]) &&
      decide (askedNodes es = [exAddr 1]) && decide (s.swarm.tm.activePeers.length = 0) && decide (s.down.phase = .holding) &&
      (attempt demoWorld s (.torrent (.man (.tick [peerA])))).isSome) = some true := by
    decide +kernel
  obtain ⟨s0, es, s, h0, h, hf⟩ := play_sound this
  simp only [Bool.and_eq_true, decide_eq_true_eq] at hf
  obtain ⟨⟨⟨⟨⟨h1, h3⟩, h4⟩, h5⟩, h6⟩, h7⟩ := hf
  obtain ⟨s', h7⟩ := Option.isSome_iff_exists.mp h7
  rcases List.eq_nil_or_concat es with rfl | ⟨es1, e, rfl⟩
  · cases h1
  rw [List.concat_eq_append] at h h1 h3 h4
  have last : (es1 ++ [e]).getLast? = some e := by simp
  obtain ⟨token, sent, rfl⟩ : ∃ token sent, e = .hears (.getPeers (exAddr 1) token (.values [peerA])) sent := by
    rw [namedLast, last] at h1
    split at h1
    · next he => cases he; cases h1; exact ⟨_, _, rfl⟩
    · cases h1
  rw [List.dropLast_concat] at h3
  obtain ⟨⟨a, v⟩, hv, ha⟩ := List.mem_map.mp (show exAddr 1 ∈ (lookupAsked es1).map (·.1) by rw [h3]; simp)
  obtain ⟨ev, k1, k2⟩ := List.mem_filterMap.mp hv
  refine ⟨_, s0, s, s', es1, _, token, _, sent, v, h0, h, List.mem_singleton.mpr rfl, ?_,
    fun ⟨_, h, _⟩ => by simp [dhtEvents, manHistory] at h, fun l n hl => ?_, ⟨by rw [h6]; simp, attempt_turn h7⟩,
    by rw [h5]; decide⟩
  · cases ev with
    | asks => cases k2; rw [← show a = exAddr 1 from ha]; exact k1
    | _ => cases k2
  · rw [h4] at hl
    match l, n, hl with
    | [], _, _ => simp
    | [_], _, _ => simp
    | x :: y :: _, n, hl =>
      have h1 := hl (List.mem_cons_self ..)
      have h2 := hl (List.mem_cons_of_mem _ (List.mem_cons_self ..))
      rw [List.mem_singleton] at h1 h2
      rw [h1, h2] at n
      simp at n

end Nargun.Program
