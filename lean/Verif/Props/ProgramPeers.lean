import Verif.Props.Program
import Verif.Props.Peers
import Verif.Props.Fetcher
import Verif.Props.DhtSystem

/-! # Where the peers come from, and what others are told: C121, C123 -/

namespace Nargun.Program

open Nargun Dht Krpc Spec

variable {w : World} {u : Setup} {s s' s0 s1 : State} {es es' : List Event} {e : Event}

/-! ## Keys of the table of peers -/

theorem mem_extend {p : Peers} {ps : List Peer} {q : Peer} (h : q ∈ (p.extend ps).peerAddresses) :
    q ∈ p.peerAddresses ∨ q ∈ ps := by
  obtain ⟨st, hst⟩ := Peers.status_of_mem h
  simp only [Peers.extend] at hst
  rw [Peers.extend_get?] at hst
  split at hst
  · exact .inr ‹_›
  · exact .inl (Peers.mem_of_status hst)

theorem mem_enough {p : Peers} (hw : p.data.WF) {q : Peer} (h : q ∈ p.enoughPeers.1.peerAddresses) :
    q ∈ p.peerAddresses := by
  simp only [Peers.peerAddresses, Peers.enoughPeers, Peers.getGoodPeers] at h ⊢
  rw [(Peers.activate_spec _ Peers.goodOrder [] p.data hw Peers.goodOrder_ok.1 Peers.goodOrder_ok.2).2.1] at h
  exact h

theorem mem_good {p : Peers} (hw : p.data.WF) {q : Peer} {n : Nat} (h : q ∈ (p.getGoodPeers n).1.peerAddresses) :
    q ∈ p.peerAddresses := by
  simp only [Peers.peerAddresses, Peers.getGoodPeers] at h ⊢
  rw [(Peers.activate_spec _ Peers.goodOrder [] p.data hw Peers.goodOrder_ok.1 Peers.goodOrder_ok.2).2.1] at h
  exact h

theorem mem_updateBad {m : Map Peer Status} {bad : List (Peer × Status)} {q : Peer}
    (h : q ∈ (Peers.updateBad m bad).keys) : q ∈ m.keys ∨ q ∈ bad.map (·.1) := by
  induction bad generalizing m with
  | nil => exact .inl h
  | cons b bad ih =>
    rcases ih (m := m.insert b.1 b.2) h with h | h
    · rcases Map.mem_keys_insert.mp h with rfl | h
      · exact .inr (by simp)
      · exact .inl h
    · exact .inr (List.mem_cons_of_mem _ h)

theorem mem_batch {p : Peers} (hw : p.data.WF) {bad : List (Peer × Status)} {n : Nat} {q : Peer}
    (h : q ∈ (p.returnBatch bad n).1.peerAddresses ∨ q ∈ (p.returnBatch bad n).2) :
    q ∈ p.peerAddresses ∨ q ∈ bad.map (·.1) := by
  have hw' := Peers.updateBad_wf hw bad
  obtain ⟨h1, h2, -⟩ := Peers.activate_spec n Peers.batchOrder [] _ hw' Peers.batchOrder_ok.1 Peers.batchOrder_ok.2
  simp only [Peers.peerAddresses, Peers.returnBatch] at h
  rw [h1, h2] at h
  refine mem_updateBad ?_
  rcases h with h | h
  · exact h
  · have := List.mem_of_mem_take (by simpa using h)
    obtain ⟨st, _, h⟩ := List.mem_flatMap.mp this
    exact (Peers.keysWith_sublist st _).subset h

theorem mem_receive {f : Fetch.Fetcher} (hw : f.peers.data.WF) {r : FromConResp} {q : Peer}
    (h : q ∈ (f.receive r).1.peers.peerAddresses) :
    q ∈ f.peers.peerAddresses ∨ ∃ sender token vs, r = .getPeers sender token (.values vs) ∧ q ∈ vs := by
  simp only [Fetch.Fetcher.receive] at h
  split at h
  · have trim : ∀ g : Fetch.Fetcher, g.peers.data.WF → q ∈ g.trim.1.peers.peerAddresses → q ∈ g.peers.peerAddresses := by
      intro g hg hq
      simp only [Fetch.Fetcher.trim] at hq
      split at hq
      · exact mem_enough hg hq
      · exact hq
    have key : q ∈ (({ f with phase := .fetching f.now } : Fetch.Fetcher).answer r).1.trim.1.peers.peerAddresses := by
      split at h
      · exact h
      · exact h
    have hwa : (({ f with phase := .fetching f.now } : Fetch.Fetcher).answer r).1.peers.data.WF := by
      cases r with
      | getPeers sender token vn =>
        simp only [Fetch.Fetcher.answer]
        split
        · exact hw
        · cases vn with
          | values => exact Peers.step_wf .extend hw
          | nodes => exact hw
      | _ => exact hw
    have := trim _ hwa key
    cases r with
    | getPeers sender token vn =>
      simp only [Fetch.Fetcher.answer] at this
      split at this
      · exact .inl this
      · cases vn with
        | values vs =>
          rcases mem_extend this with h | h
          · exact .inl h
          · exact .inr ⟨_, _, _, rfl, h⟩
        | nodes => exact .inl this
    | _ => exact .inl this
  · exact .inl h

theorem man_known {pause : Nat → Nat} {m m' : DhtManager.Manager} {me : DhtManager.Entry} (hw : m.peers.data.WF)
    (h : DhtManager.Step pause m me m') (ho : ∀ o, me.event ≠ .others o) {q : Peer} (hq : q ∈ m'.peers.peerAddresses) :
    q ∈ m.peers.peerAddresses ∨ me.event = .query (.newPeer q m.peers.infoHash) := by
  cases h with
  | shutdown => exact .inl hq
  | refresh _ _ _ h => rw [andThen_peers h] at hq; exact .inl hq
  | peerNode _ h => rw [andThen_peers h] at hq; exact .inl hq
  | peersGone => exact .inl hq
  | @query _ shuffle fq outs _ _ h =>
    obtain ⟨m1, o1, h1⟩ := DhtManager.andThen_ok h
    rw [h1] at h
    rw [andThen_peers h] at hq
    clear h
    cases fq with
    | findNode target qid =>
      simp only [DhtManager.Manager.processQuery] at h1
      obtain ⟨_, _, h1⟩ := Res.bind_eq_ok.mp h1
      cases h1
      exact .inl hq
    | getPeers ih qid =>
      have hfind : (m.findPeers shuffle ih).1.peers.peerAddresses ⊆ m.peers.peerAddresses := by
        intro k hk
        simp only [DhtManager.Manager.findPeers] at hk
        split at hk
        · exact mem_good hw hk
        · exact hk
      simp only [DhtManager.Manager.processQuery] at h1
      split at h1
      · next heq => cases h1; exact .inl (hfind (by rw [heq]; exact hq))
      · next heq =>
        obtain ⟨_, _, h1⟩ := Res.bind_eq_ok.mp h1
        cases h1
        exact .inl (hfind (by rw [heq]; exact hq))
    | newPeer p ih =>
      simp only [DhtManager.Manager.processQuery] at h1
      cases h1
      simp only [DhtManager.Manager.storeNewPeer] at hq
      split at hq
      · next hs =>
        have : ih = m.peers.infoHash := by simpa [Peers.serve] using hs
        rcases Map.mem_keys_insert.mp hq with rfl | h
        · rw [this]; exact .inr rfl
        · exact .inl h
      · split at hq <;> exact .inl hq
  | @resp _ r _ _ h =>
    obtain ⟨m1, o1, h1⟩ := DhtManager.andThen_ok h
    rw [h1] at h
    rw [andThen_peers h] at hq
    refine .inl ?_
    cases r with
    | touch =>
      simp only [DhtManager.Manager.processResp] at h1
      obtain ⟨_, _, h1⟩ := Res.bind_eq_ok.mp h1
      cases h1; exact hq
    | newNodes =>
      simp only [DhtManager.Manager.processResp] at h1
      obtain ⟨_, _, h1⟩ := Res.bind_eq_ok.mp h1
      obtain ⟨_, _, h1⟩ := Res.bind_eq_ok.mp h1
      cases h1; exact hq
    | getPeers => cases h1; exact hq
  | conGone => exact .inl hq
  | others => exact absurd rfl (ho _)
  | pass => exact .inl hq
  | reorder => exact .inl hq

theorem dht_known {env : Env} {pause : Nat → Nat} {a b : DhtSystem.State} {x : DhtSystem.Entry} (hw : a.man.peers.data.WF)
    (h : DhtSystem.Step env pause a x b) (ho : ∀ me, x.man = some me → ∀ o, me.event ≠ .others o) {q : Peer}
    (hq : q ∈ b.man.peers.peerAddresses) :
    q ∈ a.man.peers.peerAddresses ∨ ∃ me, x.man = some me ∧ me.event = .query (.newPeer q a.man.peers.infoHash) := by
  have man : ∀ {me m'}, x.man = some me → DhtManager.Step pause a.man me m' → q ∈ m'.peers.peerAddresses →
      q ∈ a.man.peers.peerAddresses ∨ ∃ me, x.man = some me ∧ me.event = .query (.newPeer q a.man.peers.infoHash) := by
    intro me m' hx hm hq
    rcases man_known hw hm (ho me hx) hq with h | h
    · exact .inl h
    · exact .inr ⟨me, hx, h⟩
  cases h with
  | direct _ _ h => exact man rfl h hq
  | takeQuery _ _ h => exact man rfl h hq
  | takeAnswer _ _ h => exact man rfl h hq
  | conGone _ _ _ h => exact man rfl h hq
  | outside _ h => exact man rfl h hq
  | putFails _ _ h => exact man rfl h hq
  | _ => exact .inl hq

/-! ## The peers the torrent side knows -/

/-- Every peer the torrent side knows satisfies `P`. -/
structure Knows (P : Peer → Prop) (t : TM) : Prop where
  wf : t.peers.data.WF
  table : ∀ q ∈ t.peers.peerAddresses, P q
  active : ∀ q ∈ t.activePeers.keys, P q
  inactive : ∀ q ∈ t.inactivePeers.map (·.1), P q

theorem Knows.mono {P Q : Peer → Prop} {t : TM} (h : Knows P t) (hpq : ∀ q, P q → Q q) : Knows Q t :=
  ⟨h.wf, fun q hq => hpq _ (h.table q hq), fun q hq => hpq _ (h.active q hq), fun q hq => hpq _ (h.inactive q hq)⟩

theorem selected_active {t : TM} {q : Peer} {i : Nat} {h : ID} (hs : t.selectPiece = .ok (some (q, i, h))) :
    q ∈ t.activePeers.keys := by
  have h1 := (TM.select_some hs).1
  simp only [TM.sequentialSelectPiece] at h1
  obtain ⟨_, _, h1⟩ := Res.bind_eq_ok.mp h1
  obtain ⟨_, _, _, _, h4, _⟩ := TM.selectLoop_some h1
  obtain ⟨info, h5, _⟩ := TM.findPeer_some h4
  exact List.mem_map.mpr ⟨_, h5, rfl⟩

theorem started_knows {P : Peer → Prop} {s s' : TM} {i : Nat} {q : Peer} {h : ID} {sent : Res Unit} {acc : Bool}
    (hk : Knows P s) (hsel : s.selectPiece = .ok (some (q, i, h)))
    (hs : s.startDownloadingPiece i q sent = .ok (s', acc)) : Knows P s' := by
  obtain ⟨h1, h2, h3⟩ := startDownloading_peers hs
  refine ⟨by rw [h1]; exact hk.wf, by rw [h1]; exact hk.table, fun k hk' => ?_, by rw [h2]; exact hk.inactive⟩
  rcases h3 k hk' with h | rfl
  · exact hk.active _ h
  · exact hk.active _ (selected_active hsel)

theorem tm_knows {P : Peer → Prop} {p : Profile} {t t' : TM} {e : TM.Event} (hk : Knows P t) (ho : ∀ o, e ≠ .peers o)
    (h : TM.Step p t e t') : Knows P t' ∧ ∀ batch, e = .tick batch → ∀ q ∈ batch, P q := by
  cases h with
  | peers => exact absurd rfl (ho _)
  | reorder hp =>
    exact ⟨⟨hk.wf, hk.table, fun q hq => hk.active q ((hp.map (·.1)).mem_iff.mpr hq), hk.inactive⟩, fun _ h => by cases h⟩
  | start _ h1 h2 =>
    have := started_knows hk h1 h2
    exact ⟨⟨this.wf, this.table, this.active, this.inactive⟩, fun _ h => by cases h⟩
  | nothing => exact ⟨⟨hk.wf, hk.table, hk.active, hk.inactive⟩, fun _ h => by cases h⟩
  | msg _ h =>
    obtain ⟨h1, h2, h3⟩ := handle_peers h
    refine ⟨⟨by rw [h1]; exact hk.wf, by rw [h1]; exact hk.table, fun q hq => hk.active q (h2 q hq), fun q hq => ?_⟩,
      fun _ h => by cases h⟩
    rcases h3 q hq with h | h
    · exact hk.inactive q h
    · exact hk.active q h
  | @tick _ batch h0 h =>
    rcases tick_peers h with ⟨h1, h2, h3, h4⟩ | ⟨limit, h1, h2, h3, h4⟩
    · refine ⟨⟨by rw [h1]; exact hk.wf, by rw [h1]; exact hk.table, by rw [h3]; exact hk.active,
        by rw [h4]; exact hk.inactive⟩, fun b hb => ?_⟩
      cases hb
      rw [h2]
      simp
    · have key : ∀ q, q ∈ t'.peers.peerAddresses ∨ q ∈ batch → P q := by
        intro q hq
        rw [h1, h2] at hq
        rcases mem_batch hk.wf hq with h | h
        · exact hk.table q h
        · exact hk.inactive q h
      refine ⟨⟨by rw [h1]; exact Peers.step_wf .batch hk.wf, fun q hq => key q (.inl hq), fun q hq => ?_,
        by rw [h3]; simp⟩, fun b hb => ?_⟩
      · rcases h4 q hq with h | h
        · exact hk.active q h
        · exact key q (.inr h)
      · cases hb
        exact fun q hq => key q (.inr hq)

theorem swarm_knows {P : Peer → Prop} {c : Swarm.Cfg} {a b : Swarm.State} {e : Swarm.Event} (hw : Swarm.Waiting a)
    (hk : Knows P a.tm) (ho : ∀ o, e ≠ .man (.peers o)) (h : Swarm.Step c a e b) :
    Knows P b.tm ∧ ∀ q ∈ connectedTo [e], P q := by
  have man : ∀ {te t'}, e = .man te → TM.Step c.p a.tm te t' → Knows P t' ∧ ∀ q ∈ connectedTo [e], P q := by
    intro te t' he ht
    subst he
    obtain ⟨h1, h2⟩ := tm_knows hk (fun o h => ho o (by rw [h])) ht
    refine ⟨h1, fun q hq => ?_⟩
    cases te with
    | tick batch => exact h2 batch rfl q (by simpa [connectedTo] using hq)
    | _ => simp [connectedTo] at hq
  cases h with
  | shared h => exact man rfl h
  | reorder _ h => exact man rfl h
  | tick _ h => exact man rfl h
  | nothing _ h => exact man rfl h
  | refused _ _ h => exact man rfl h
  | msg _ _ h => exact man rfl h
  | putFails h1 _ _ h =>
    have := started_knows hk (hw _ _ _ (.inl h1)).1 h
    exact ⟨⟨this.wf, this.table, this.active, this.inactive⟩, by simp [connectedTo]⟩
  | add h1 _ _ h =>
    have := started_knows hk (hw _ _ _ (.inr h1)).1 h
    exact ⟨⟨this.wf, this.table, this.active, this.inactive⟩, by simp [connectedTo]⟩
  | _ => exact ⟨hk, by simp [connectedTo]⟩

theorem _root_.Nargun.Spec.Source.snoc {q : Peer} (h : Source u es q) : Source u (es ++ [e]) q := by
  rcases h with ⟨i, r, h1, h2⟩ | ⟨me, h1, h2⟩ | ⟨a, t, vs, snt, h1, h2⟩
  · exact .inl ⟨i, r, List.mem_append_left _ h1, h2⟩
  · refine .inr (.inl ⟨me, ?_, h2⟩)
    rw [dhtEvents_snoc, DhtSystem.manHistory_append]
    exact List.mem_append_left _ h1
  · exact .inr (.inr ⟨a, t, vs, snt, List.mem_append_left _ h1, h2⟩)

theorem peers_infoHash {p p' : Peers} {ops : List Peers.Op} (h : Peers.Run p ops p') : p'.infoHash = p.infoHash := by
  induction h with
  | nil => rfl
  | cons h _ ih => exact ih.trans (DhtManager.Peers.Step.infoHash h)

/-- What is known about the peers the program knows. -/
structure KnownInv (u : Setup) (es : List Event) (s : State) : Prop where
  own : s.peers.infoHash = u.infoHash
  known : Knows (Source u es) s.torrent.tm
  joined : ∀ q ∈ connectedTo (torrentEvents es), Source u es q

theorem KnownInv.step (hk : KnownInv u es s) (hw : Swarm.Waiting s.torrent) (h : Turn w s e s') :
    KnownInv u (es ++ [e]) s' := by
  have hown : s'.peers.infoHash = u.infoHash := by
    obtain ⟨ops, ho⟩ := turn_peers h
    exact (peers_infoHash ho).trans hk.own
  have hwf : s'.peers.data.WF := by
    obtain ⟨ops, ho⟩ := turn_peers h
    exact Peers.run_wf ho hk.known.wf
  have hj : ∀ q ∈ connectedTo (torrentEvents es), Source u (es ++ [e]) q := fun q hq => (hk.joined q hq).snoc
  have hn := hk.known.mono (fun q hq => Source.snoc (e := e) hq)
  have other : s'.swarm = s.swarm → torrentEvents [e] = [] → (∀ q ∈ s'.peers.peerAddresses, Source u (es ++ [e]) q) →
      KnownInv u (es ++ [e]) s' := by
    intro h1 h2 h3
    refine ⟨hown, ⟨hwf, h3, ?_, ?_⟩, ?_⟩
    · have := hn.active
      rw [State.torrent] at this ⊢
      rw [h1]; exact this
    · have := hn.inactive
      rw [State.torrent] at this ⊢
      rw [h1]; exact this
    · rw [torrentEvents_snoc, h2, List.append_nil]; exact hj
  cases h with
  | @torrent e sw ho h =>
    obtain ⟨k1, k2⟩ := swarm_knows hw hn (fun o he => by rw [he] at ho; exact ho) h
    refine ⟨hown, k1, ?_⟩
    rw [torrentEvents_snoc]
    intro q hq
    rw [connectedTo, List.flatMap_append, List.mem_append] at hq
    rcases hq with hq | hq
    · exact hj q hq
    · exact k2 q hq
  | @dht x d ho h =>
    refine other rfl rfl (fun q hq => ?_)
    rcases dht_known hk.known.wf h (fun me hme o he => by have := ho.table me hme; rw [he] at this; exact this) hq with
      h1 | ⟨me, h1, h2⟩
    · exact hn.table q h1
    · refine .inr (.inl ⟨me, ?_, ?_⟩)
      · rw [dhtEvents_snoc, DhtSystem.manHistory_append]
        refine List.mem_append_right _ ?_
        show me ∈ manHistory [x]
        rw [DhtSystem.manHistory_single, h1]; simp
      · rw [h2, ← hk.own]; rfl
  | @hears l r sent f d _ _ _ h1 h2 =>
    refine other rfl rfl (fun q hq => ?_)
    cases h2 with
    | answer =>
      rcases mem_receive (f := s.looking l) hk.known.wf hq with h | ⟨a, t, vs, rfl, h⟩
      · exact hn.table q h
      · exact .inr (.inr ⟨a, t, vs, _, List.mem_append_right _ (List.mem_singleton.mpr rfl), h⟩)
  | @answered i t t' r =>
    refine other rfl rfl (fun q hq => ?_)
    rcases mem_extend hq with h | h
    · exact hn.table q h
    · exact .inl ⟨i, r, by simp, h⟩
  | node h1 h2 =>
    cases h1
    refine ⟨hown, hn, ?_⟩
    rw [torrentEvents_snoc]
    intro q hq
    rw [connectedTo, List.flatMap_append, List.mem_append] at hq
    rcases hq with hq | hq
    · exact hj q hq
    · simp [torrentEvents] at hq
  | tableEnds _ _ _ h =>
    cases h
    refine ⟨hown, hn, ?_⟩
    rw [torrentEvents_snoc]
    intro q hq
    rw [connectedTo, List.flatMap_append, List.mem_append] at hq
    rcases hq with hq | hq
    · exact hj q hq
    · simp [torrentEvents] at hq
  | _ => exact other rfl rfl hn.table

theorem started_loop (h0 : Started w u s0) : s0.torrent.man = .loop := by
  rw [h0.torrent]
  have h := h0.swarm
  simp only [Swarm.State.start] at h
  obtain ⟨tm, h1, h⟩ := Res.bind_eq_ok.mp h
  obtain ⟨pend, h2, h⟩ := Res.bind_eq_ok.mp h
  rw [← Res.ok.inj h]

theorem run_waiting (h0 : Started w u s0) (h : Run w s0 es s) : Swarm.Waiting s.torrent := by
  obtain ⟨l, hl, _⟩ := run_torrent h
  exact (Swarm.tm_run hl (started_loop h0)).2

theorem run_known (h0 : Started w u s0) (h : Run w s0 es s) : KnownInv u es s := by
  induction h with
  | nil =>
    have hp := h0.peers
    have hs := h0.swarm
    simp only [Swarm.State.start] at hs
    obtain ⟨tm, h1, hs⟩ := Res.bind_eq_ok.mp hs
    obtain ⟨pend, h2, hs⟩ := Res.bind_eq_ok.mp hs
    simp only [TM.init] at h1
    obtain ⟨_, _, h1⟩ := Res.bind_eq_ok.mp h1
    have hs := Res.ok.inj hs
    have h1 := Res.ok.inj h1
    refine ⟨by rw [hp]; rfl, ⟨?_, ?_, ?_, ?_⟩, by simp [connectedTo, torrentEvents]⟩
    · show Map.WF s0.peers.data
      rw [hp]; exact List.nodup_nil
    · show ∀ q ∈ s0.peers.peerAddresses, _
      rw [hp]; exact fun q hq => by simp [Peers.peerAddresses, Peers.new, Map.keys] at hq
    · rw [h0.torrent, ← hs, ← h1]; intro q hq; simp [Map.keys] at hq
    · rw [h0.torrent, ← hs, ← h1]; simp
  | snoc hr hs ih => exact ih.step (run_waiting h0 hr) hs.2

/-! ## Answers the lookup hears -/

theorem own_dht (h : Run w s0 es s) {x : DhtSystem.Entry} (hx : .dht x ∈ es) : OwnDht x := by
  induction h with
  | nil => simp at hx
  | @snoc s1 s2 es e hr hs ih =>
    rcases List.mem_append.mp hx with hx | hx
    · exact ih hx
    · rw [List.mem_singleton] at hx
      subst hx
      cases hs.2 with
      | dht ho _ => exact ho

/-- The steps of other tasks on the table of peers are nothing else. -/
theorem others_entry {env : Env} {pause : Nat → Nat} {a b : DhtSystem.State} {l : List DhtSystem.Entry}
    (h : DhtSystem.Run env pause a l b) {x : DhtSystem.Entry} (hx : x ∈ l) (ho : isOthers x = true) :
    ∃ o, x = { man := some ⟨.others o, []⟩ } := by
  induction h with
  | nil => simp at hx
  | @snoc s1 s2 l x' hr hs ih =>
    rcases List.mem_append.mp hx with hx | hx
    · exact ih hx
    · rw [List.mem_singleton] at hx
      subst hx
      unfold isOthers at ho
      split at ho
      · next o os hm =>
        cases hs with
        | outside _ h => cases hm; exact ⟨_, rfl⟩
        | direct _ h _ => cases hm; exact absurd h id
        | _ => cases hm
      · cases ho

/-- What is read off a history without the steps of other tasks on the table of peers. -/
theorem filterMap_run {β : Type} {env : Env} {pause : Nat → Nat} {a b : DhtSystem.State} {l : List DhtSystem.Entry}
    (h : DhtSystem.Run env pause a l b) (f : DhtSystem.Entry → Option β)
    (hf : ∀ o, f { man := some ⟨.others o, []⟩ } = none) {l1 l2 : List DhtSystem.Entry} (hl : l = l1 ++ l2) :
    l1.filterMap f = (l1.filter fun x => !isOthers x).filterMap f := by
  have key : ∀ x ∈ l1, isOthers x = true → f x = none := by
    intro x hx ho
    obtain ⟨o, rfl⟩ := others_entry h (hl ▸ List.mem_append_left _ hx) ho
    exact hf o
  clear hl
  induction l1 with
  | nil => rfl
  | cons x l1 ih =>
    have ih' := ih fun y hy => key y (List.mem_cons_of_mem _ hy)
    by_cases hx : isOthers x = true
    · rw [List.filter_cons_of_neg (by simp [hx]), ← ih', List.filterMap_cons, key x (by simp) hx]
    · rw [List.filter_cons_of_pos (by simp [hx]), List.filterMap_cons, List.filterMap_cons, ih']

/-- The place of a message taken from the socket in the history of the program. -/
theorem heard_split {env : Env} {pause : Nat → Nat} {a b : DhtSystem.State} {l h1 h2 : List DhtSystem.Entry}
    {x : DhtSystem.Entry} (h : DhtSystem.Run env pause a l b) (hl : l = h1 ++ x :: h2) {m : SockAddr × Krpc.Message}
    (hx : heardBy x = some m) {d : List DhtSystem.Entry} (hd : l.filter (fun x => !isOthers x) = d) :
    ∃ d1 d2, d = d1 ++ x :: d2 ∧ sent d1 = sent h1 ∧ h1.filter (fun x => !isOthers x) = d1 := by
  refine ⟨h1.filter (fun x => !isOthers x), h2.filter (fun x => !isOthers x), ?_, ?_, rfl⟩
  · rw [← hd, hl, List.filter_append, List.filter_cons_of_pos]
    cases ho : isOthers x with
    | false => rfl
    | true =>
      obtain ⟨o, rfl⟩ := others_entry h (by rw [hl]; simp) ho
      simp [heardBy] at hx
  · exact (filterMap_run h (·.sent) (fun o => rfl) hl).symm

/-- The task asks for the peers of its torrent, or announces this client for it. -/
theorem lookup_asks {pause : Nat → Nat} {ih : ID} {port : U16} {init : List Node} {peers : Peers} {now : Nat}
    {h : List Fetch.Entry} {f : Fetch.Fetcher} (hr : Fetch.Run pause (Fetch.start ih port init peers now) h f)
    {x : Fetch.Sent} (hx : x ∈ h.flatMap (·.sent)) :
    x.2 = .getPeers ih ∨ ∃ token, x.2 = .announcePeer ih port token := by
  induction hr with
  | nil => simp at hx
  | @snoc f1 f2 h e hr hs ih' =>
    rw [List.flatMap_append, List.mem_append] at hx
    rcases hx with hx | hx
    · exact ih' hx
    · exact (Fetch.C79_announce pause ih port init peers now h f1 f2 e hr hs).2.2.2.1 x (by simpa using hx)

/-- What the lookup task hands to the connection concerns the torrent of the program. -/
theorem asks_own (h0 : Began u s0) (ht : Reachable u.table) (h : Run w s0 es s) {a : SockAddr} {v : ToConQuery}
    (hx : .asks a v ∈ es) : v = .getPeers u.infoHash ∨ ∃ token, v = .announcePeer u.infoHash w.port token := by
  have hm : (a, v) ∈ lookupAsked es := List.mem_filterMap.mpr ⟨_, hx, rfl⟩
  rcases run_lookup h0.lookup h with ⟨_, _, h3⟩ | ⟨l, ns, hist, _, hi⟩
  · rw [h3] at hm; simp at hm
  · obtain ⟨es1, now, es2, s1, _, j2, j3⟩ := hi.origin
    have hih : s1.dht.man.infoHash = u.infoHash := by
      obtain ⟨l1, r1, _⟩ := began_dht h0 j2
      have := ((DhtManager.Base.start (now := u.now) ht .nil).run (DhtSystem.Flow.run r1).man).ih
      exact this
    rw [hih] at j3
    exact lookup_asks j3 (x := (a, v)) (hi.asked.subset hm)

/-- The queries in the queue of the connection that are to be answered to the lookup task are those it asked. -/
theorem puts_lookup (h0 : Began u s0) (ht : Reachable u.table) (h : Run w s0 es s) {l : List DhtSystem.Entry}
    (hr : DhtSystem.Run w.env w.refreshPause
        (DhtSystem.State.start u.infoHash u.secret u.table (.new u.infoHash) u.now) l s.nodes)
    (hl : l.filter (fun x => !isOthers x) = dhtEvents es) {a : SockAddr} {v : ToConQuery}
    (hp : ToCon.query LOOKUP_CHANNEL a v ∈ puts l) : .asks a v ∈ es := by
  obtain ⟨x, hx, hput⟩ := List.mem_filterMap.mp hp
  obtain ⟨⟨who, c⟩, h1, h2⟩ := Option.map_eq_some_iff.mp hput
  cases h2
  have hf := DhtSystem.Flow.run hr
  cases who with
  | manager =>
    exfalso
    have hm : ToCon.query LOOKUP_CHANNEL a v ∈ putsOfManager l := List.mem_filterMap.mpr ⟨x, hx, by rw [h1]⟩
    have : ToCon.query LOOKUP_CHANNEL a v ∈ sends (DhtManager.startOutputs u.table ++ allOutputs (manHistory l)) := by
      rw [hf.outputs]; exact List.mem_append_left _ hm
    obtain ⟨o, ho, hoe⟩ := List.mem_filterMap.mp this
    have ho' : o = .send (.query LOOKUP_CHANNEL a v) := by
      cases o <;> first | (cases hoe; rfl) | cases hoe
    subst ho'
    rcases List.mem_append.mp ho with ho | ho
    · simp only [DhtManager.startOutputs, List.mem_map] at ho
      obtain ⟨n, _, ho⟩ := ho
      cases ho
    · obtain ⟨me, hme, ho⟩ := List.mem_flatMap.mp ho
      have := (C98_channel ht .nil hf.man me hme _ _ _ ho).1
      cases this
  | other =>
    have hno : isOthers x = false := by
      cases ho : isOthers x with
      | false => rfl
      | true =>
        obtain ⟨o, rfl⟩ := others_entry hr hx ho
        cases h1
    have hx' : x ∈ dhtEvents es := by
      rw [← hl]; exact List.mem_filter.mpr ⟨hx, by rw [hno]; rfl⟩
    obtain ⟨ev, hev, he⟩ := List.mem_filterMap.mp hx'
    cases ev with
    | dht y => cases he; exact absurd h1 ((own_dht h hev).put _)
    | asks a' v' => cases he; cases h1; exact hev
    | _ => first | (cases he; done) | (cases he; cases h1)

/-- An answer the lookup task hears is one to a query of its own. -/
theorem hears_own (h0 : Began u s0) (ht : Reachable u.table) (h : Run w s0 es s) {r : FromConResp}
    {snt : List Fetch.Sent} (hx : .hears r snt ∈ es) :
    ∃ d1 x d2 a t y resp, dhtEvents es = d1 ++ x :: d2 ∧ heardBy x = some (a, .response t y resp) ∧ r = told a resp ∧
      ∃ target v bytes, (target, bytes) ∈ sent d1 ∧ IsQueryDatagram u.table.ownId t v bytes ∧
        kindOf v = answersKind resp ∧ (v = .getPeers u.infoHash ∨ ∃ token, v = .announcePeer u.infoHash w.port token) := by
  obtain ⟨l, hr, hl⟩ := began_dht h0 h
  have hin : ({ heard := some (LOOKUP_CHANNEL, r) } : DhtSystem.Entry) ∈ l := by
    have : ({ heard := some (LOOKUP_CHANNEL, r) } : DhtSystem.Entry) ∈ dhtEvents es :=
      List.mem_filterMap.mpr ⟨_, hx, rfl⟩
    rw [← hl] at this
    exact (List.mem_filter.mp this).1
  have hta : r ∈ takenAnswers LOOKUP_CHANNEL l := by
    rw [takenAnswers, if_neg (by decide)]
    exact List.mem_filterMap.mpr ⟨_, hin, by simp⟩
  obtain ⟨h1, x, h2, a, t, y, resp, e1, e2, e3, target, v, bytes, e4, e5, e6, e7⟩ :=
    (C107_routed hr LOOKUP_CHANNEL).1 r hta
  obtain ⟨d1, d2, f1, f2, _⟩ := heard_split hr e1 e2 hl
  refine ⟨d1, x, d2, a, t, y, resp, f1, e2, e3, target, v, bytes, by rw [f2]; exact e4, e5, e6, ?_⟩
  refine asks_own h0 ht h (a := target) (puts_lookup h0 ht h hr hl ?_)
  rw [e1, puts, List.filterMap_append]
  exact List.mem_append_left _ e7

/-- C121: the program connects only to peers that a tracker named in an answer, that announced themselves to it for this
torrent with the token it had for their address, or that were named in an answer to a query of its own for the peers of this
torrent. -/
theorem C121_sources (h0 : Started w u s0) (ht : Reachable u.table) (h : Run w s0 es s) (q : Peer)
    (hq : q ∈ connectedTo (torrentEvents es)) :
    NamedByTracker es q ∨ AnnouncedItself w.env.sha1 u.secret (dhtEvents es) u.infoHash q ∨
    NamedByNode u.table.ownId u.infoHash (dhtEvents es) q := by
  rcases (run_known h0 h).joined q hq with h1 | h1 | ⟨a, token, vs, snt, h1, h2⟩
  · exact .inl h1
  · refine .inr (.inl ?_)
    obtain ⟨l, hr, hl⟩ := started_dht h0 h
    have ha : Announced (manHistory l) u.infoHash q := by
      obtain ⟨me, hme, hev⟩ := h1
      refine ⟨me, ?_, hev⟩
      obtain ⟨x, hx, he⟩ := List.mem_filterMap.mp hme
      rw [← hl] at hx
      exact List.mem_filterMap.mpr ⟨x, (List.mem_filter.mp hx).1, he⟩
    obtain ⟨x, hx, a, t, y, p, id, port, hb, he⟩ := announced_itself hr ha
    refine ⟨x, ?_, a, t, y, p, id, port, hb, he⟩
    obtain ⟨h1, h2, hs⟩ := List.append_of_mem hx
    obtain ⟨d1, d2, f1, _⟩ := heard_split hr hs hb hl
    rw [f1]; simp
  · refine .inr (.inr ?_)
    obtain ⟨d1, x, d2, a', t, y, resp, e1, e2, e3, target, v, bytes, e4, e5, e6, e7⟩ := hears_own h0.began ht h h1
    cases resp with
    | getPeers id tok vn =>
      cases e3
      rcases e7 with rfl | ⟨tok, rfl⟩
      · exact ⟨d1, x, d2, _, t, y, id, _, vs, e1, e2, h2, target, bytes, e4, e5⟩
      · cases e6
    | _ => cases e3

/-- The hypotheses of `C121_sources` are met: a peer named by the tracker is connected to. -/
example : ∃ s0 s, Started demoWorld demoSetup s0 ∧ Reachable demoSetup.table ∧ Run demoWorld s0 joinsA s ∧
    peerA ∈ connectedTo (torrentEvents joinsA) := by
  have : demo demoWorld demoSetup joinsA (fun s => s.swarm.tm.connection.spawned) = some [peerA] := by decide +kernel
  obtain ⟨s0, s, h0, h, _⟩ := demo_sound this
  exact ⟨s0, s, h0, .fresh _, h, by simp [joinsA, torrentEvents, connectedTo]⟩

end Nargun.Program
