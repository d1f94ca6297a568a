import Verif.Spec.Program
import Verif.Lemmas.Swarm
import Verif.Lemmas.DhtSystem
import Verif.Lemmas.Fetcher
import Verif.Lemmas.Peers

/-! # The parts of the program: every history of the program is one of each part -/

namespace Nargun.Program

open Nargun Dht Krpc Spec

/-! ## What the parts do with the table of peers -/

theorem peers_run_append {p p1 p2 : Peers} {a b : List Peers.Op} (h1 : Peers.Run p a p1) (h2 : Peers.Run p1 b p2) :
    Peers.Run p (a ++ b) p2 := by
  induction h1 with
  | nil => exact h2
  | cons h _ ih => exact .cons h (ih h2)

theorem addPeers_peers {ps : List Peer} {a b : TM} (h : TM.addPeers ps a = .ok b) :
    b.peers = a.peers ∧ b.inactivePeers = a.inactivePeers ∧
    ∀ q, q ∈ b.activePeers.keys → q ∈ a.activePeers.keys ∨ q ∈ ps := by
  induction ps generalizing a with
  | nil => cases h; exact ⟨rfl, rfl, fun q h => .inl h⟩
  | cons r ps ih =>
    simp only [TM.addPeers] at h
    obtain ⟨_, _, h⟩ := Res.bind_eq_ok.mp h
    obtain ⟨i1, i2, i3⟩ := ih h
    refine ⟨i1, i2, fun q hq => ?_⟩
    rcases i3 q hq with h | h
    · rcases Map.mem_keys_insert.mp h with rfl | h
      · exact .inr (by simp)
      · exact .inl h
    · exact .inr (List.mem_cons_of_mem _ h)

theorem startDownloading_peers {s s' : TM} {i : Nat} {q : Peer} {sent : Res Unit} {acc : Bool}
    (h : s.startDownloadingPiece i q sent = .ok (s', acc)) :
    s'.peers = s.peers ∧ s'.inactivePeers = s.inactivePeers ∧
    ∀ k, k ∈ s'.activePeers.keys → k ∈ s.activePeers.keys ∨ k = q := by
  simp only [TM.startDownloadingPiece] at h
  split at h
  · obtain ⟨_, h1, h⟩ := Res.bind_eq_ok.mp h
    cases h
    simp only [TM.markPieceAsOngoing] at h1
    obtain ⟨_, _, h1⟩ := Res.bind_eq_ok.mp h1
    obtain ⟨_, _, h1⟩ := Res.bind_eq_ok.mp h1
    obtain ⟨_, _, h1⟩ := Res.bind_eq_ok.mp h1
    cases h1
    refine ⟨rfl, rfl, fun k hk => ?_⟩
    rcases Map.mem_keys_insert.mp hk with rfl | h
    · exact .inr rfl
    · exact .inl h
  · cases h; exact ⟨rfl, rfl, fun k h => .inl h⟩
  · cases h

theorem handle_peers {p : Profile} {s s' : TM} {peer : Peer} {m : ConMessageType}
    (hm : s.handleCommand p peer m = .ok s') :
    s'.peers = s.peers ∧ (∀ k, k ∈ s'.activePeers.keys → k ∈ s.activePeers.keys) ∧
    ∀ k, k ∈ s'.inactivePeers.map (·.1) → k ∈ s.inactivePeers.map (·.1) ∨ k ∈ s.activePeers.keys := by
  cases m <;> simp only [TM.handleCommand] at hm
  all_goals first
    | (cases hm; exact ⟨rfl, fun k h => h, fun k h => .inl h⟩)
    | (cases hm; exact ⟨rfl, fun k h => by simpa only [Map.keys_modify] using h, fun k h => .inl h⟩)
    | (cases hm; done)
    | (simp only [TM.markPeerAsInactive] at hm
       split at hm
       · cases hm; exact ⟨rfl, fun k h => h, fun k h => .inl h⟩
       · next hg =>
         obtain ⟨_, _, hm⟩ := Res.bind_eq_ok.mp hm
         obtain ⟨_, _, hm⟩ := Res.bind_eq_ok.mp hm
         cases hm
         refine ⟨rfl, fun k h => by rw [Map.keys_erase] at h; exact (List.mem_filter.mp h).1, fun k h => ?_⟩
         simp only [List.map_append, List.map_cons, List.map_nil, List.mem_append, List.mem_singleton] at h
         rcases h with h | rfl
         · exact .inl h
         · exact .inr (Classical.byContradiction fun h => by rw [Map.get?_eq_none.mpr h] at hg; cases hg))
    | (simp only [TM.handleHave] at hm
       split at hm
       · cases hm; exact ⟨rfl, fun k h => h, fun k h => .inl h⟩
       · obtain ⟨⟨_, _⟩, _, hm⟩ := Res.bind_eq_ok.mp hm
         split at hm
         · cases hm; exact ⟨rfl, fun k h => by simpa only [Map.keys_modify] using h, fun k h => .inl h⟩
         · obtain ⟨_, _, hm⟩ := Res.bind_eq_ok.mp hm
           obtain ⟨_, _, hm⟩ := Res.bind_eq_ok.mp hm
           cases hm; exact ⟨rfl, fun k h => by simpa only [Map.keys_modify] using h, fun k h => .inl h⟩)
    | (simp only [TM.acceptBitfield] at hm
       split at hm
       · cases hm; exact ⟨rfl, fun k h => h, fun k h => .inl h⟩
       · split at hm
         · cases hm; exact ⟨rfl, fun k h => h, fun k h => .inl h⟩
         · split at hm
           · obtain ⟨_, _, hm⟩ := Res.bind_eq_ok.mp hm
             obtain ⟨_, _, hm⟩ := Res.bind_eq_ok.mp hm
             cases hm; exact ⟨rfl, fun k h => by simpa only [Map.keys_modify] using h, fun k h => .inl h⟩
           · cases hm; exact ⟨rfl, fun k h => h, fun k h => .inl h⟩
           · cases hm)

/-- What a tick does with the table of peers. -/
theorem tick_peers {p : Profile} {s s' : TM} {batch : List Peer} (h : s.beginTick p = .ok (s', batch)) :
    (s'.peers = s.peers ∧ batch = [] ∧ s'.activePeers = s.activePeers ∧ s'.inactivePeers = s.inactivePeers) ∨
    (∃ limit, s'.peers = (s.peers.returnBatch s.inactivePeers limit).1 ∧
      batch = (s.peers.returnBatch s.inactivePeers limit).2 ∧ s'.inactivePeers = [] ∧
      ∀ q, q ∈ s'.activePeers.keys → q ∈ s.activePeers.keys ∨ q ∈ batch) := by
  simp only [TM.beginTick] at h
  obtain ⟨⟨s1, b⟩, h1, h⟩ := Res.bind_eq_ok.mp h
  obtain ⟨n, _, h⟩ := Res.bind_eq_ok.mp h
  cases h
  simp only [TM.refreshPeerList] at h1
  obtain ⟨free, _, h1⟩ := Res.bind_eq_ok.mp h1
  split at h1
  · cases h1; exact .inl ⟨rfl, rfl, rfl, rfl⟩
  · obtain ⟨s2, h2, h1⟩ := Res.bind_eq_ok.mp h1
    cases h1
    obtain ⟨i1, i2, i3⟩ := addPeers_peers h2
    exact .inr ⟨free, i1, rfl, i2, i3⟩

theorem tm_peers {p : Profile} {t t' : TM} {e : TM.Event} (h : TM.Step p t e t') :
    ∃ ops, Peers.Run t.peers ops t'.peers := by
  cases h with
  | @peers o q h => exact ⟨[o], .cons h .nil⟩
  | reorder => exact ⟨[], .nil⟩
  | nothing => exact ⟨[], .nil⟩
  | @start k peer idx hash sent s2 acc _ _ h =>
    refine ⟨[], ?_⟩
    show Peers.Run t.peers [] s2.peers
    rw [(startDownloading_peers h).1]; exact .nil
  | msg _ h => rw [(handle_peers h).1]; exact ⟨[], .nil⟩
  | tick _ h =>
    rcases tick_peers h with ⟨h, _⟩ | ⟨limit, h, _⟩
    · rw [h]; exact ⟨[], .nil⟩
    · rw [h]; exact ⟨[_], .cons .batch .nil⟩

theorem swarm_peers {c : Swarm.Cfg} {a b : Swarm.State} {e : Swarm.Event} (h : Swarm.Step c a e b) :
    ∃ ops, Peers.Run a.tm.peers ops b.tm.peers := by
  have sd : ∀ {tm' : TM} {i q sent acc}, a.tm.startDownloadingPiece i q sent = .ok (tm', acc) →
      Peers.Run a.tm.peers [] tm'.peers := by
    intro tm' i q sent acc h
    rw [(startDownloading_peers h).1]; exact .nil
  cases h with
  | shared h => exact tm_peers h
  | reorder _ h => exact tm_peers h
  | tick _ h => exact tm_peers h
  | nothing _ h => exact tm_peers h
  | refused _ _ h => exact tm_peers h
  | putFails _ _ _ h => exact ⟨[], by have := sd h; exact this⟩
  | add _ _ _ h => exact ⟨[], by have := sd h; exact this⟩
  | msg _ _ h => exact tm_peers h
  | _ => exact ⟨[], .nil⟩

theorem andThen_peers {m1 : DhtManager.Manager} {o : List DhtManager.Out} {x : DhtManager.Manager × List DhtManager.Out}
    (h : DhtManager.andThen (.ok (m1, o)) = .ok x) : x.1.peers = m1.peers := by
  simp only [DhtManager.andThen, Res.ok_bind] at h
  obtain ⟨⟨m2, o2⟩, h2, h⟩ := Res.bind_eq_ok.mp h
  cases h
  simp only [DhtManager.Manager.endTurn] at h2
  split at h2
  · obtain ⟨o, _, h2⟩ := Res.bind_eq_ok.mp h2
    cases o with
    | none => cases h2; rfl
    | some ns => cases h2; rfl
  · cases h2; rfl

/-- What a turn of the table task does with the table of peers. -/
theorem man_peers {pause : Nat → Nat} {m m' : DhtManager.Manager} {me : DhtManager.Entry}
    (h : DhtManager.Step pause m me m') : ∃ ops, Peers.Run m.peers ops m'.peers := by
  cases h with
  | shutdown => exact ⟨[], .nil⟩
  | refresh _ _ _ h => rw [andThen_peers h]; exact ⟨[], .nil⟩
  | peerNode _ h => rw [andThen_peers h]; exact ⟨[], .nil⟩
  | peersGone => exact ⟨[], .nil⟩
  | query _ _ h =>
    obtain ⟨m1, o1, h1⟩ := DhtManager.andThen_ok h
    rw [h1] at h
    rw [andThen_peers h]
    rcases (DhtManager.peers_mid h1).2 with h2 | ⟨op, h2⟩
    · rw [h2]; exact ⟨[], .nil⟩
    · exact ⟨[op], .cons h2 .nil⟩
  | @resp _ r _ _ h =>
    obtain ⟨m1, o1, h1⟩ := DhtManager.andThen_ok h
    rw [h1] at h
    rw [andThen_peers h]
    have : m1.peers = m.peers := by
      cases r with
      | touch =>
        simp only [DhtManager.Manager.processResp] at h1
        obtain ⟨_, _, h1⟩ := Res.bind_eq_ok.mp h1
        cases h1; rfl
      | newNodes =>
        simp only [DhtManager.Manager.processResp] at h1
        obtain ⟨_, _, h1⟩ := Res.bind_eq_ok.mp h1
        obtain ⟨_, _, h1⟩ := Res.bind_eq_ok.mp h1
        cases h1; rfl
      | getPeers => cases h1; rfl
    rw [this]; exact ⟨[], .nil⟩
  | conGone => exact ⟨[], .nil⟩
  | others h => exact ⟨[_], .cons h .nil⟩
  | pass => exact ⟨[], .nil⟩
  | reorder => exact ⟨[], .nil⟩

theorem dht_peers {env : Env} {pause : Nat → Nat} {a b : DhtSystem.State} {e : DhtSystem.Entry}
    (h : DhtSystem.Step env pause a e b) : ∃ ops, Peers.Run a.man.peers ops b.man.peers := by
  cases h with
  | direct _ _ h => exact man_peers h
  | takeQuery _ _ h => exact man_peers h
  | takeAnswer _ _ h => exact man_peers h
  | conGone _ _ _ h => exact man_peers h
  | outside _ h => exact man_peers h
  | putFails _ _ h => exact man_peers h
  | _ => exact ⟨[], .nil⟩

/-- The steps the DHT makes together with other parts. -/
def Joint (e : DhtSystem.Entry) : Prop :=
  (∃ a outs, e = { man := some ⟨.peerNode a, outs⟩ }) ∨ e = { man := some ⟨.peersGone, []⟩ } ∨
  (∃ outs, e = { man := some ⟨.shutdown, outs⟩ }) ∨ (∃ ns, e = { spawned := some ns }) ∨
  (∃ c, e = { put := some (.other, c) }) ∨ ∃ c r, e = { heard := some (c, r) }

/-- The steps the DHT makes together with other parts do not change the table of peers. -/
theorem joint_peers {env : Env} {pause : Nat → Nat} {a b : DhtSystem.State} {e : DhtSystem.Entry} (he : Joint e)
    (h : DhtSystem.Step env pause a e b) : b.man.peers = a.man.peers := by
  cases h with
  | direct _ _ h =>
    rcases he with ⟨_, _, h1⟩ | h1 | ⟨_, h1⟩ | ⟨_, h1⟩ | ⟨_, h1⟩ | ⟨_, _, h1⟩ <;> cases h1
    · cases h with | peerNode _ h => exact andThen_peers h
    · cases h; rfl
    · cases h; rfl
  | takeQuery => rcases he with ⟨_, _, h1⟩ | h1 | ⟨_, h1⟩ | ⟨_, h1⟩ | ⟨_, h1⟩ | ⟨_, _, h1⟩ <;> cases h1
  | takeAnswer => rcases he with ⟨_, _, h1⟩ | h1 | ⟨_, h1⟩ | ⟨_, h1⟩ | ⟨_, h1⟩ | ⟨_, _, h1⟩ <;> cases h1
  | conGone => rcases he with ⟨_, _, h1⟩ | h1 | ⟨_, h1⟩ | ⟨_, h1⟩ | ⟨_, h1⟩ | ⟨_, _, h1⟩ <;> cases h1
  | putFails => rcases he with ⟨_, _, h1⟩ | h1 | ⟨_, h1⟩ | ⟨_, h1⟩ | ⟨_, h1⟩ | ⟨_, _, h1⟩ <;> cases h1
  | outside ho =>
    rcases he with ⟨_, _, h1⟩ | h1 | ⟨_, h1⟩ | ⟨_, h1⟩ | ⟨_, h1⟩ | ⟨_, _, h1⟩ <;> cases h1 <;> exact absurd ho id
  | _ => rfl

theorem fetch_peers {pause : Nat → Nat} {a b : Fetch.Fetcher} {e : Fetch.Entry} (h : Fetch.Step pause a e b) :
    ∃ ops, Peers.Run a.peers ops b.peers := by
  cases h with
  | tick => exact ⟨[], .nil⟩
  | timeout => exact ⟨[], .nil⟩
  | others h => exact ⟨[_], .cons h .nil⟩
  | pass => exact ⟨[], .nil⟩
  | reorder => exact ⟨[], .nil⟩
  | @answer since r hp =>
    have ha : ∃ ops, Peers.Run a.peers ops (({ a with phase := .fetching a.now } : Fetch.Fetcher).answer r).1.peers := by
      cases r with
      | getPeers sender token vn =>
        simp only [Fetch.Fetcher.answer]
        split
        · exact ⟨[], .nil⟩
        · cases vn with
          | values => exact ⟨[_], .cons .extend .nil⟩
          | nodes => exact ⟨[], .nil⟩
      | _ => exact ⟨[], .nil⟩
    have ht : ∀ f : Fetch.Fetcher, ∃ ops, Peers.Run f.peers ops f.trim.1.peers := by
      intro f
      simp only [Fetch.Fetcher.trim]
      split
      · exact ⟨[_], .cons .enough .nil⟩
      · exact ⟨[], .nil⟩
    simp only [Fetch.Fetcher.receive]
    split
    · obtain ⟨o1, h1⟩ := ha
      obtain ⟨o2, h2⟩ := ht (({ a with phase := .fetching a.now } : Fetch.Fetcher).answer r).1
      split <;> exact ⟨_, peers_run_append h1 h2⟩
    · exact ⟨[], .nil⟩

/-! ## Keeping a part up to date with what the others do to the table of peers -/

theorem swarm_append {c : Swarm.Cfg} {a b d : Swarm.State} {h1 h2 : List Swarm.Event} (r1 : Swarm.Run c a h1 b)
    (r2 : Swarm.Run c b h2 d) : Swarm.Run c a (h1 ++ h2) d := by
  induction r2 with
  | nil => simpa using r1
  | snoc _ hs ih => rw [← List.append_assoc]; exact .snoc ih hs

theorem dht_append {env : Env} {pause : Nat → Nat} {a b d : DhtSystem.State} {h1 h2 : List DhtSystem.Entry}
    (r1 : DhtSystem.Run env pause a h1 b) (r2 : DhtSystem.Run env pause b h2 d) :
    DhtSystem.Run env pause a (h1 ++ h2) d := by
  induction r2 with
  | nil => simpa using r1
  | snoc _ hs ih => rw [← List.append_assoc]; exact .snoc ih hs

theorem fetch_append {pause : Nat → Nat} {a b d : Fetch.Fetcher} {h1 h2 : List Fetch.Entry}
    (r1 : Fetch.Run pause a h1 b) (r2 : Fetch.Run pause b h2 d) : Fetch.Run pause a (h1 ++ h2) d := by
  induction r2 with
  | nil => simpa using r1
  | snoc _ hs ih => rw [← List.append_assoc]; exact .snoc ih hs

theorem swarm_others {c : Swarm.Cfg} {a : Swarm.State} {ops : List Peers.Op} {p p' : Peers} (h : Peers.Run p ops p') :
    Swarm.Run c { a with tm := { a.tm with peers := p } } (ops.map fun o => .man (.peers o))
      { a with tm := { a.tm with peers := p' } } := by
  induction h with
  | nil => exact .nil
  | @cons p0 p1 p2 o os h _ ih =>
    refine swarm_append (h1 := [.man (.peers o)]) (.snoc (es := []) .nil ?_) ih
    exact .shared (tm' := { a.tm with peers := p1 }) (TM.Step.peers (s := { a.tm with peers := p0 }) h)

theorem dht_others {env : Env} {pause : Nat → Nat} {a : DhtSystem.State} {ops : List Peers.Op} {p p' : Peers}
    (h : Peers.Run p ops p') :
    DhtSystem.Run env pause { a with man := { a.man with peers := p } }
      (ops.map fun o => { man := some ⟨.others o, []⟩ }) { a with man := { a.man with peers := p' } } := by
  induction h with
  | nil => exact .nil
  | @cons p0 p1 p2 o os h _ ih =>
    refine dht_append (h1 := [{ man := some ⟨.others o, []⟩ }]) (.snoc (h := []) .nil ?_) ih
    exact .outside (man' := { a.man with peers := p1 }) trivial (DhtManager.Step.others (m := { a.man with peers := p0 }) h)

theorem fetch_others {pause : Nat → Nat} {a : Fetch.Fetcher} {ops : List Peers.Op} {p p' : Peers}
    (h : Peers.Run p ops p') :
    Fetch.Run pause { a with peers := p } (ops.map fun o => ⟨.others o, []⟩) { a with peers := p' } := by
  induction h with
  | nil => exact .nil
  | @cons p0 p1 p2 o os h _ ih =>
    refine fetch_append (h1 := [⟨.others o, []⟩]) (.snoc (h := []) .nil ?_) ih
    exact Fetch.Step.others (s := { a with peers := p0 }) h

/-! ## The parts -/

variable {w : World} {u : Setup} {s s' s0 s1 : State} {es es' : List Event} {e : Event}

/-- Every step does something with the table of peers that other tasks may do. -/
theorem turn_peers (h : Turn w s e s') : ∃ ops, Peers.Run s.peers ops s'.peers := by
  cases h with
  | torrent _ h => exact swarm_peers h
  | dht _ h => exact dht_peers h
  | hears _ _ _ _ h => exact fetch_peers h
  | answered => exact ⟨[_], .cons .extend .nil⟩
  | _ => exact ⟨[], .nil⟩

/-- The step of another task on the table of peers. -/
def isShared : Swarm.Event → Bool
  | .man (.peers _) => true
  | _ => false

/-- The step of another task on the table of peers. -/
def isOthers (e : DhtSystem.Entry) : Bool :=
  match e.man with
  | some ⟨.others _, _⟩ => true
  | _ => false

/-- The step of another task on the table of peers. -/
def isForeign (e : Fetch.Entry) : Bool :=
  match e.event with
  | .others _ => true
  | _ => false

theorem torrentEvents_snoc : torrentEvents (es ++ [e]) = torrentEvents es ++ torrentEvents [e] := List.filterMap_append

theorem dhtEvents_snoc : dhtEvents (es ++ [e]) = dhtEvents es ++ dhtEvents [e] := List.filterMap_append

theorem lookupEvents_snoc : lookupEvents (es ++ [e]) = lookupEvents es ++ lookupEvents [e] := List.filterMap_append

theorem downEvents_snoc : downEvents (es ++ [e]) = downEvents es ++ downEvents [e] := List.filterMap_append

theorem filter_shared (ops : List Peers.Op) :
    (ops.map fun o => Swarm.Event.man (.peers o)).filter (fun x => !isShared x) = [] := by
  induction ops with
  | nil => rfl
  | cons o os ih => simp [isShared]

theorem filter_others (ops : List Peers.Op) :
    (ops.map fun o => ({ man := some ⟨.others o, []⟩ } : DhtSystem.Entry)).filter (fun x => !isOthers x) = [] := by
  induction ops with
  | nil => rfl
  | cons o os ih => simp [isOthers]

theorem filter_foreign (ops : List Peers.Op) :
    (ops.map fun o => (⟨.others o, []⟩ : Fetch.Entry)).filter (fun x => !isForeign x) = [] := by
  induction ops with
  | nil => rfl
  | cons o os ih => simp [isForeign]

/-- One step of the program is, for the torrent side, one of its own or some of other tasks on the table of peers. -/
theorem turn_torrent (h : Turn w s e s') :
    ∃ l, Swarm.Run w.cfg s.torrent l s'.torrent ∧ l.filter (fun x => !isShared x) = torrentEvents [e] := by
  have other : ∀ {s' : State}, s'.swarm = s.swarm → (∃ ops, Peers.Run s.peers ops s'.peers) →
      ∃ l, Swarm.Run w.cfg s.torrent l s'.torrent ∧ l.filter (fun x => !isShared x) = [] := by
    intro s' hs ⟨ops, ho⟩
    refine ⟨_, ?_, filter_shared ops⟩
    have := swarm_others (c := w.cfg) (a := s.swarm) ho
    rw [State.torrent, State.torrent, hs]
    exact this
  have hp := turn_peers h
  cases h with
  | @torrent e sw ho h =>
    refine ⟨[e], .snoc (es := []) .nil h, ?_⟩
    cases e with
    | man t => cases t with
      | peers => exact absurd ho id
      | _ => rfl
    | _ => rfl
  | @node a outs sw d h1 h2 =>
    refine ⟨[.dhtTakes a], .snoc (es := []) .nil ?_, rfl⟩
    cases h1; exact .dhtTakes ‹_› ‹_›
  | @tableEnds sw x h1 h2 h3 h4 =>
    refine ⟨[.dhtEnds], .snoc (es := []) .nil ?_, rfl⟩
    cases h4; exact .dhtEnds ‹_›
  | _ => exact other rfl hp

/-- One step of the program is, for the DHT, one of its own or some of other tasks on the table of peers. -/
theorem turn_dht (h : Turn w s e s') :
    ∃ l, DhtSystem.Run w.env w.refreshPause s.nodes l s'.nodes ∧
      l.filter (fun x => !isOthers x) = dhtEvents [e] := by
  have other : ∀ {s' : State}, s'.dht = s.dht → (∃ ops, Peers.Run s.peers ops s'.peers) →
      ∃ l, DhtSystem.Run w.env w.refreshPause s.nodes l s'.nodes ∧ l.filter (fun x => !isOthers x) = [] := by
    intro s' hs ⟨ops, ho⟩
    refine ⟨_, ?_, filter_others ops⟩
    have := dht_others (env := w.env) (pause := w.refreshPause) (a := s.dht) ho
    rw [State.nodes, State.nodes, hs]
    exact this
  have joint : ∀ {x : DhtSystem.Entry} {d : DhtSystem.State} {s' : State} {l : List DhtSystem.Entry}, Joint x →
      DhtSystem.Step w.env w.refreshPause s.nodes x d → s'.dht = d → s'.peers = s.peers → l = [x] →
      ∃ l', DhtSystem.Run w.env w.refreshPause s.nodes l' s'.nodes ∧ l'.filter (fun x => !isOthers x) = l := by
    intro x d s' l hj hs h1 h2 h3
    have hd : s'.nodes = d := by
      rw [State.nodes, h1, h2, show s.peers = s.nodes.man.peers from rfl, ← joint_peers hj hs]
    refine ⟨[x], hd ▸ .snoc (h := []) .nil hs, ?_⟩
    subst h3
    rcases hj with ⟨_, _, h1⟩ | h1 | ⟨_, h1⟩ | ⟨_, h1⟩ | ⟨_, h1⟩ | ⟨_, _, h1⟩ <;> subst h1 <;> rfl
  have hp := turn_peers h
  cases h with
  | @dht e d ho h =>
    refine ⟨[e], .snoc (h := []) .nil h, ?_⟩
    have : isOthers e = false := by
      have := ho.table
      unfold isOthers
      split
      · next hm => exact absurd (this _ hm) id
      · rfl
    simp [this, dhtEvents]
  | @node a outs sw d h1 h2 =>
    exact joint (.inl ⟨_, _, rfl⟩) h2 rfl rfl rfl
  | nodesGone _ h => exact joint (.inr (.inl rfl)) h rfl rfl rfl
  | tableNotices _ h => exact joint (.inr (.inr (.inl ⟨_, rfl⟩))) h rfl rfl rfl
  | lookup _ h => exact joint (.inr (.inr (.inr (.inl ⟨_, rfl⟩)))) h rfl rfl rfl
  | asks _ _ _ h => exact joint (.inr (.inr (.inr (.inr (.inl ⟨_, rfl⟩))))) h rfl rfl rfl
  | @hears l r sent f d _ _ _ h hf =>
    obtain ⟨ops, ho⟩ := fetch_peers hf
    have hj := joint_peers (.inr (.inr (.inr (.inr (.inr ⟨_, _, rfl⟩))))) h
    refine ⟨_, .snoc (dht_others (env := w.env) (pause := w.refreshPause) (a := s.dht) ho) (e := { heard := some (LOOKUP_CHANNEL, r) }) ?_, ?_⟩
    · cases h with
      | hear h1 h2 => exact .hear h1 h2
    · rw [List.filter_append, filter_others]; rfl
  | _ => exact other rfl hp

/-- Every history of the program is one of the torrent side. -/
theorem run_torrent (h : Run w s0 es s) :
    ∃ l, Swarm.Run w.cfg s0.torrent l s.torrent ∧ l.filter (fun x => !isShared x) = torrentEvents es := by
  induction h with
  | nil => exact ⟨[], .nil, rfl⟩
  | snoc _ hs ih =>
    obtain ⟨l1, r1, f1⟩ := ih
    obtain ⟨l2, r2, f2⟩ := turn_torrent hs.2
    exact ⟨l1 ++ l2, swarm_append r1 r2, by rw [List.filter_append, f1, f2, torrentEvents_snoc]⟩

/-- Every history of the program is one of the DHT. -/
theorem run_dht (h : Run w s0 es s) :
    ∃ l, DhtSystem.Run w.env w.refreshPause s0.nodes l s.nodes ∧ l.filter (fun x => !isOthers x) = dhtEvents es := by
  induction h with
  | nil => exact ⟨[], .nil, rfl⟩
  | snoc _ hs ih =>
    obtain ⟨l1, r1, f1⟩ := ih
    obtain ⟨l2, r2, f2⟩ := turn_dht hs.2
    exact ⟨l1 ++ l2, dht_append r1 r2, by rw [List.filter_append, f1, f2, dhtEvents_snoc]⟩

/-- Every history of the program is one of the task of each tracker. -/
theorem run_tracker (h : Run w s0 es s) {i : Nat} {t : TrackerTask} (ht : s.trackers[i]? = some t) :
    ∃ t0, s0.trackers[i]? = some t0 ∧ t0.run (trackerInputs i es) = .ok t := by
  have runSnoc : ∀ (l : List TrackerInput) (t0 t1 t2 : TrackerTask) (x : TrackerInput), t0.run l = .ok t1 →
      t1.step x = .ok t2 → t0.run (l ++ [x]) = .ok t2 := by
    intro l
    induction l with
    | nil => intro t0 t1 t2 x h1 h2; cases h1; simp [TrackerTask.run, h2, Res.ok_bind]
    | cons y l ih =>
      intro t0 t1 t2 x h1 h2
      simp only [TrackerTask.run] at h1
      obtain ⟨t3, h3, h1⟩ := Res.bind_eq_ok.mp h1
      simp only [List.cons_append, TrackerTask.run, h3, Res.ok_bind]
      exact ih _ _ _ _ h1 h2
  induction h generalizing t with
  | nil => exact ⟨t, ht, rfl⟩
  | @snoc s1 s2 es e hr hs ih =>
    have own : ∀ {k : Nat} {x : TrackerInput} {t1 t2 : TrackerTask}, s1.trackers[k]? = some t1 → t1.step x = .ok t2 →
        s2.trackers = s1.trackers.set k t2 → (∀ j, trackerInputs j [e] = if k = j then [x] else []) →
        ∃ t0, s0.trackers[i]? = some t0 ∧ t0.run (trackerInputs i (es ++ [e])) = .ok t := by
      intro k x t1 t2 h1 h2 h3 h4
      rw [h3, List.getElem?_set] at ht
      have : trackerInputs i (es ++ [e]) = trackerInputs i es ++ trackerInputs i [e] := List.filterMap_append
      rw [this, h4]
      split at ht
      · next hk =>
        subst hk
        split at ht
        · cases ht
          obtain ⟨t0, i1, i2⟩ := ih h1
          rw [if_pos rfl]
          exact ⟨t0, i1, runSnoc _ _ _ _ _ i2 h2⟩
        · cases ht
      · next hk =>
        obtain ⟨t0, i1, i2⟩ := ih ht
        rw [if_neg hk, List.append_nil]
        exact ⟨t0, i1, i2⟩
    have other : s2.trackers = s1.trackers → (∀ j, trackerInputs j [e] = []) →
        ∃ t0, s0.trackers[i]? = some t0 ∧ t0.run (trackerInputs i (es ++ [e])) = .ok t := by
      intro h3 h4
      have : trackerInputs i (es ++ [e]) = trackerInputs i es ++ trackerInputs i [e] := List.filterMap_append
      rw [this, h4, List.append_nil]
      rw [h3] at ht
      exact ih ht
    have key : ∀ (k j : Nat) (x : TrackerInput), ((if k = j then some x else none : Option TrackerInput).toList) =
        if k = j then [x] else [] := by intro k j x; split <;> rfl
    cases hs.2 with
    | answered h1 h2 h3 =>
      refine own h1 h3 rfl (fun j => ?_)
      rw [← key]
      simp only [trackerInputs, List.filterMap_cons, List.filterMap_nil]
      split <;> simp_all
    | tracker h1 h2 h3 =>
      refine own h1 h3 rfl (fun j => ?_)
      rw [← key]
      simp only [trackerInputs, List.filterMap_cons, List.filterMap_nil]
      split <;> simp_all
    | trackerNotices h1 h2 h3 h4 =>
      refine own h1 h4 rfl (fun j => ?_)
      rw [← key]
      simp only [trackerInputs, List.filterMap_cons, List.filterMap_nil]
      split <;> simp_all
    | _ => exact other rfl (fun _ => rfl)

theorem shutdown_append {a b d : Shutdown.State} {h1 h2 : List Shutdown.Event} (r1 : Shutdown.Run a h1 b)
    (r2 : Shutdown.Run b h2 d) : Shutdown.Run a (h1 ++ h2) d := by
  induction r2 with
  | nil => simpa using r1
  | snoc _ hs ih => rw [← List.append_assoc]; exact .snoc ih hs

/-- Every history of the program is one of the shutdown channel. -/
theorem run_down (h : Run w s0 es s) : Shutdown.Run s0.down (downEvents es) s.down := by
  induction h with
  | nil => exact .nil
  | snoc _ hs ih =>
    rw [downEvents_snoc]
    refine shutdown_append ih ?_
    cases hs.2 with
    | tableNotices h => exact .snoc (h := []) .nil h
    | tableEnds _ _ h => exact .snoc (h := []) .nil h
    | trackerNotices _ _ h => exact .snoc (h := []) .nil h
    | trackerEnds _ _ h => exact .snoc (h := []) .nil h
    | signal h => exact .snoc (h := []) .nil h
    | exits h => exact .snoc (h := []) .nil h
    | _ => exact .nil

/-- The clones for the trackers. -/
theorem clones_run (n : Nat) {s : Shutdown.State} (h2 : s.receivers.contains 2 = true) (hw : s.receivers.WF) :
    Shutdown.Run s (clonesMade s.made n) (clones n s) ∧ ∀ r, s.receivers.contains r = true →
      (clones n s).receivers.contains r = true := by
  induction n generalizing s with
  | zero => exact ⟨.nil, fun r h => h⟩
  | succ n ih =>
    have keep : ∀ r, s.receivers.contains r = true → s.clone.receivers.contains r = true := by
      intro r hr
      rw [Map.contains_iff] at hr ⊢
      exact Map.mem_keys_insert.mpr (.inr hr)
    obtain ⟨i1, i2⟩ := ih (s := s.clone) (keep 2 h2) (Map.wf_insert hw _ _)
    exact ⟨shutdown_append (h1 := [.clone 2 s.made]) (.snoc (h := []) .nil (.clone h2)) i1,
      fun r hr => i2 r (keep r hr)⟩

/-- The start of the program is a history of the shutdown channel. -/
theorem startup_run (n : Nat) : Shutdown.Run Shutdown.channel (startupEvents n) (startDown n) := by
  have r1 : Shutdown.Run Shutdown.channel [.clone 0 1, .clone 0 2] Shutdown.channel.clone.clone :=
    .snoc (h := [.clone 0 1]) (.snoc (h := []) .nil (.clone rfl)) (.clone rfl)
  obtain ⟨r2, k⟩ := clones_run n (s := Shutdown.channel.clone.clone) rfl (by unfold Map.WF; decide)
  have r3 : Shutdown.Run (clones n Shutdown.channel.clone.clone) [.drop 2, .drop 0] (startDown n) := by
    refine .snoc (h := [.drop 2]) (.snoc (h := []) .nil (.drop (k 2 rfl))) (.drop ?_)
    have := k 0 rfl
    rw [Map.contains_iff] at this ⊢
    simp only [Shutdown.State.drop, Map.keys_erase, List.mem_filter]
    exact ⟨this, by decide⟩
  have := shutdown_append r1 (shutdown_append r2 r3)
  exact this

/-- Every history of a program with `n` trackers, from its start, is one of the shutdown channel. -/
theorem started_down (h0 : Started w u s0) (h : Run w s0 es s) :
    Shutdown.Run Shutdown.channel (startupEvents u.urls.length ++ downEvents es) s.down := by
  have := run_down h
  rw [h0.down] at this
  exact shutdown_append (startup_run _) this

theorem Started.torrent (h0 : Started w u s0) : s0.torrent = s0.swarm := by
  have h := h0.swarm
  simp only [Swarm.State.start] at h
  obtain ⟨tm, h1, h⟩ := Res.bind_eq_ok.mp h
  obtain ⟨pend, h2, h⟩ := Res.bind_eq_ok.mp h
  have hp : s0.swarm.tm.peers = s0.peers := by
    rw [h0.peers]
    simp only [TM.init] at h1
    obtain ⟨_, _, h1⟩ := Res.bind_eq_ok.mp h1
    cases h1
    rw [← Res.ok.inj h]
  rw [State.torrent, ← hp]

theorem Started.nodes (h0 : Started w u s0) :
    s0.nodes = DhtSystem.State.start u.infoHash u.secret u.table (.new u.infoHash) u.now := by
  rw [State.nodes, h0.dht, h0.peers]; rfl

/-- The program at its start, as far as it matters to the DHT: whatever has become of the manager and the trackers. -/
structure Began (u : Setup) (s : State) : Prop where
  peers : s.peers = .new u.infoHash
  torrent : s.torrent = s.swarm
  noNodes : s.swarm.dht = []
  dht : s.dht = DhtSystem.State.start u.infoHash u.secret u.table (.new u.infoHash) u.now
  lookup : s.lookup = none

theorem Began.nodes (h0 : Began u s0) :
    s0.nodes = DhtSystem.State.start u.infoHash u.secret u.table (.new u.infoHash) u.now := by
  rw [State.nodes, h0.dht, h0.peers]; rfl

theorem began_torrent (h0 : Began u s0) (h : Run w s0 es s) :
    ∃ l, Swarm.Run w.cfg s0.swarm l s.torrent ∧ l.filter (fun x => !isShared x) = torrentEvents es := by
  have := run_torrent h
  rwa [h0.torrent] at this

theorem began_dht (h0 : Began u s0) (h : Run w s0 es s) :
    ∃ l, DhtSystem.Run w.env w.refreshPause
        (DhtSystem.State.start u.infoHash u.secret u.table (.new u.infoHash) u.now) l s.nodes ∧
      l.filter (fun x => !isOthers x) = dhtEvents es := by
  have := run_dht h
  rwa [h0.nodes] at this

theorem Started.noNodes (h0 : Started w u s0) : s0.swarm.dht = [] := by
  have h := h0.swarm
  simp only [Swarm.State.start] at h
  obtain ⟨tm, _, h⟩ := Res.bind_eq_ok.mp h
  obtain ⟨pend, _, h⟩ := Res.bind_eq_ok.mp h
  rw [← Res.ok.inj h]

theorem Started.began (h0 : Started w u s0) : Began u s0 := ⟨h0.peers, h0.torrent, h0.noNodes, h0.dht, h0.lookup⟩

/-- The torrent side of a program, from its start. -/
theorem started_torrent (h0 : Started w u s0) (h : Run w s0 es s) :
    ∃ l, Swarm.Run w.cfg s0.swarm l s.torrent ∧ l.filter (fun x => !isShared x) = torrentEvents es := by
  have := run_torrent h
  rwa [h0.torrent] at this

/-- The DHT of a program, from its start. -/
theorem started_dht (h0 : Started w u s0) (h : Run w s0 es s) :
    ∃ l, DhtSystem.Run w.env w.refreshPause
        (DhtSystem.State.start u.infoHash u.secret u.table (.new u.infoHash) u.now) l s.nodes ∧
      l.filter (fun x => !isOthers x) = dhtEvents es := by
  have := run_dht h
  rwa [h0.nodes] at this

/-- What is read off the history of the torrent side without the steps of other tasks on the table of peers. -/
theorem filterMap_shared {β : Type} (f : Swarm.Event → Option β) (hf : ∀ o, f (.man (.peers o)) = none)
    {l l' : List Swarm.Event} (h : l.filter (fun x => !isShared x) = l') : l.filterMap f = l'.filterMap f := by
  subst h
  induction l with
  | nil => rfl
  | cons x l ih =>
    by_cases hx : isShared x = true
    · rw [List.filter_cons_of_neg (by simp [hx]), ← ih]
      have : f x = none := by
        unfold isShared at hx
        split at hx
        · exact hf _
        · cases hx
      rw [List.filterMap_cons, this]
    · rw [List.filter_cons_of_pos (by simp [hx]), List.filterMap_cons, List.filterMap_cons, ih]

/-- What is read off the history of the DHT without the steps of other tasks on the table of peers. -/
theorem filterMap_others {β : Type} (f : DhtSystem.Entry → Option β) (hf : ∀ e, isOthers e = true → f e = none)
    {l l' : List DhtSystem.Entry} (h : l.filter (fun x => !isOthers x) = l') : l.filterMap f = l'.filterMap f := by
  subst h
  induction l with
  | nil => rfl
  | cons x l ih =>
    by_cases hx : isOthers x = true
    · rw [List.filter_cons_of_neg (by simp [hx]), ← ih, List.filterMap_cons, hf x hx]
    · rw [List.filter_cons_of_pos (by simp [hx]), List.filterMap_cons, List.filterMap_cons, ih]

/-- What is known about the lookup task. -/
structure LookInv (w : World) (s0 : State) (es : List Event) (s : State) (l : Lookup) (ns : List Node)
    (hist : List Fetch.Entry) : Prop where
  origin : ∃ es1 now es2 s1, es = es1 ++ .lookup ns now :: es2 ∧ Run w s0 es1 s1 ∧
    Fetch.Run w.lookupPause (Fetch.start s1.dht.man.infoHash w.port ns s1.peers now) hist (s.looking l)
  events : hist.filter (fun x => !isForeign x) = lookupEvents es
  todo : l.alive = true → hist.flatMap (·.sent) = lookupAsked es ++ l.todo
  asked : lookupAsked es <+: hist.flatMap (·.sent)

theorem lookupAsked_snoc : lookupAsked (es ++ [e]) = lookupAsked es ++ lookupAsked [e] := List.filterMap_append

theorem sent_foreign (ops : List Peers.Op) :
    (ops.map fun o => (⟨.others o, []⟩ : Fetch.Entry)).flatMap (·.sent) = [] := by
  induction ops with
  | nil => rfl
  | cons o os ih => simpa using ih

/-- Every history of the program is one of the lookup task, once it was started. -/
theorem run_lookup (h0 : s0.lookup = none) (h : Run w s0 es s) :
    (s.lookup = none ∧ lookupEvents es = [] ∧ lookupAsked es = []) ∨
    ∃ l ns hist, s.lookup = some l ∧ LookInv w s0 es s l ns hist := by
  induction h with
  | nil => exact .inl ⟨h0, rfl, rfl⟩
  | @snoc s1 s2 es e hr hs ih =>
    have other : s2.lookup = s1.lookup → lookupEvents [e] = [] → lookupAsked [e] = [] →
        (s2.lookup = none ∧ lookupEvents (es ++ [e]) = [] ∧ lookupAsked (es ++ [e]) = []) ∨
        ∃ l ns hist, s2.lookup = some l ∧ LookInv w s0 (es ++ [e]) s2 l ns hist := by
      intro h1 h2 h3
      rw [lookupEvents_snoc, lookupAsked_snoc, h2, h3, List.append_nil, List.append_nil]
      rcases ih with ⟨i1, i2, i3⟩ | ⟨l, ns, hist, i1, i2⟩
      · exact .inl ⟨by rw [h1, i1], i2, i3⟩
      · obtain ⟨ops, ho⟩ := turn_peers hs.2
        obtain ⟨es1, now, es2, s3, j1, j2, j3⟩ := i2.origin
        refine .inr ⟨l, ns, hist ++ ops.map fun o => ⟨.others o, []⟩, by rw [h1, i1], ?_, ?_, ?_, ?_⟩
        · exact ⟨es1, now, es2 ++ [e], s3, by rw [j1]; simp, j2, fetch_append j3 (fetch_others ho)⟩
        · rw [List.filter_append, filter_foreign, List.append_nil, i2.events, lookupEvents_snoc, h2, List.append_nil]
        · rw [List.flatMap_append, sent_foreign, List.append_nil, lookupAsked_snoc, h3, List.append_nil]
          exact i2.todo
        · rw [List.flatMap_append, sent_foreign, List.append_nil, lookupAsked_snoc, h3, List.append_nil]
          exact i2.asked
    cases hs.2 with
    | @lookup ns d now h1 h2 =>
      right
      rcases ih with ⟨i1, i2, i3⟩ | ⟨l, ns, hist, i1, i2⟩
      · refine ⟨_, ns, [], rfl, ⟨es, now, [], s1, rfl, hr, .nil⟩, ?_, ?_, ?_⟩
        · rw [lookupEvents_snoc, i2]; rfl
        · intro _; rw [lookupAsked_snoc, i3]; rfl
        · rw [lookupAsked_snoc, i3]; exact List.nil_prefix
      · rw [h1] at i1; cases i1
    | @look l e f h1 h2 h3 h4 h5 =>
      right
      rcases ih with ⟨i1, _⟩ | ⟨l', ns, hist, i1, i2⟩
      · rw [h1] at i1; cases i1
      · rw [h1] at i1; cases i1
        obtain ⟨es1, now, es2, s3, j1, j2, j3⟩ := i2.origin
        have hp : f.peers = s1.peers := by cases h5 <;> first | rfl | exact absurd h4 id
        have hf : isForeign e = false := by
          cases e with | mk ev snt => cases ev <;> first | rfl | exact absurd h4 id
        refine ⟨_, ns, hist ++ [e], rfl, ⟨es1, now, es2 ++ [.look e], s3, by rw [j1]; simp, j2, ?_⟩, ?_, ?_, ?_⟩
        · rw [State.looking]
          show Fetch.Run _ _ _ { f with peers := s1.peers }
          rw [← hp]
          exact .snoc j3 h5
        · rw [List.filter_append, i2.events, lookupEvents_snoc]; simp [hf, lookupEvents]
        · intro _
          have := i2.todo h2
          rw [h3, List.append_nil] at this
          rw [List.flatMap_append, this, lookupAsked_snoc]
          simp [lookupAsked]
        · rw [lookupAsked_snoc, List.flatMap_append]
          simp only [lookupAsked, List.filterMap_cons, List.filterMap_nil, List.append_nil]
          exact i2.asked.trans (List.prefix_append _ _)
    | @lookIdle l e f h1 h4 h5 =>
      right
      rcases ih with ⟨i1, _⟩ | ⟨l', ns, hist, i1, i2⟩
      · rw [h1] at i1; cases i1
      · rw [h1] at i1; cases i1
        obtain ⟨es1, now, es2, s3, j1, j2, j3⟩ := i2.origin
        have hp : f.peers = s1.peers := by cases h5 <;> first | rfl | exact absurd h4 id
        have hn : e.sent = [] := by cases h5 <;> first | rfl | exact absurd h4 id
        have hf : isForeign e = false := by
          cases e with | mk ev snt => cases ev <;> first | rfl | exact absurd h4 id
        refine ⟨_, ns, hist ++ [e], rfl, ⟨es1, now, es2 ++ [.look e], s3, by rw [j1]; simp, j2, ?_⟩, ?_, ?_, ?_⟩
        · rw [State.looking]
          show Fetch.Run _ _ _ { f with peers := s1.peers }
          rw [← hp]
          exact .snoc j3 h5
        · rw [List.filter_append, i2.events, lookupEvents_snoc]; simp [hf, lookupEvents]
        · intro ha
          rw [List.flatMap_append, i2.todo ha, lookupAsked_snoc]
          simp [lookupAsked, hn]
        · rw [lookupAsked_snoc, List.flatMap_append]
          simp only [lookupAsked, List.filterMap_cons, List.filterMap_nil, List.append_nil]
          exact i2.asked.trans (List.prefix_append _ _)
    | @asks l a v rest d h1 h2 h3 h4 =>
      right
      rcases ih with ⟨i1, _⟩ | ⟨l', ns, hist, i1, i2⟩
      · rw [h1] at i1; cases i1
      · rw [h1] at i1; cases i1
        obtain ⟨es1, now, es2, s3, j1, j2, j3⟩ := i2.origin
        have ht := i2.todo h2
        rw [h3] at ht
        refine ⟨_, ns, hist, rfl, ⟨es1, now, es2 ++ [.asks a v], s3, by rw [j1]; simp, j2, j3⟩, ?_, ?_, ?_⟩
        · rw [i2.events, lookupEvents_snoc]; simp [lookupEvents]
        · intro _
          rw [ht, lookupAsked_snoc]
          simp [lookupAsked]
        · rw [lookupAsked_snoc, ht]
          exact ⟨rest, by simp [lookupAsked]⟩
    | @asksNobody l a v rest h1 h2 h3 h4 =>
      right
      rcases ih with ⟨i1, _⟩ | ⟨l', ns, hist, i1, i2⟩
      · rw [h1] at i1; cases i1
      · rw [h1] at i1; cases i1
        obtain ⟨es1, now, es2, s3, j1, j2, j3⟩ := i2.origin
        refine ⟨_, ns, hist, rfl, ⟨es1, now, es2 ++ [.asksNobody], s3, by rw [j1]; simp, j2, j3⟩, ?_, ?_, ?_⟩
        · rw [i2.events, lookupEvents_snoc]; simp [lookupEvents]
        · intro h; cases h
        · rw [lookupAsked_snoc]
          simp only [lookupAsked, List.filterMap_cons, List.filterMap_nil, List.append_nil]
          exact i2.asked
    | @hears l r sent f d h1 h2 h3 h4 h5 =>
      right
      rcases ih with ⟨i1, _⟩ | ⟨l', ns, hist, i1, i2⟩
      · rw [h1] at i1; cases i1
      · rw [h1] at i1; cases i1
        obtain ⟨es1, now, es2, s3, j1, j2, j3⟩ := i2.origin
        refine ⟨_, ns, hist ++ [⟨.answer r, sent⟩], rfl,
          ⟨es1, now, es2 ++ [.hears r sent], s3, by rw [j1]; simp, j2, .snoc j3 h5⟩, ?_, ?_, ?_⟩
        · rw [List.filter_append, i2.events, lookupEvents_snoc]; simp [isForeign, lookupEvents]
        · intro _
          have := i2.todo h2
          rw [h3, List.append_nil] at this
          rw [List.flatMap_append, this, lookupAsked_snoc]
          simp [lookupAsked]
        · rw [lookupAsked_snoc, List.flatMap_append]
          simp only [lookupAsked, List.filterMap_cons, List.filterMap_nil, List.append_nil]
          exact i2.asked.trans (List.prefix_append _ _)
    | _ => exact other rfl rfl rfl

end Nargun.Program
