import Verif.Lemmas.DhtSystem
import Verif.Props.DhtManager

/-! # Properties of the DHT as a whole -/

namespace Nargun

open Dht Krpc Spec DhtManager DhtSystem RoutingTable

section

variable {env : Env} {pause : Nat → Nat} {infoHash secret : ID} {table : RoutingTable} {peers : Peers}
  {os : List Peers.Op} {now : Nat} {h : List DhtSystem.Entry} {s : DhtSystem.State}

/-! ## C106 -/

/-- C106: at every moment of every history, the queries the connection has handed over are those the table task has
taken, then those in the queue, then the one it is about to put into the queue, in this order; likewise the answers for each
task, the commands of the table task, the commands taken by the connection, and the datagrams sent. Nothing is lost,
invented, duplicated or overtaken, and no queue is longer than its capacity. -/
theorem C106_queues (hr : DhtSystem.Run env pause (State.start infoHash secret table peers now) h s) :
    handedQueries (allEffects (conHistory h)) = takenQueries (manHistory h) ++ s.queries ++ handedQueries s.conTodo ∧
    (∀ c, handedAnswers c (allEffects (conHistory h)) = takenAnswers c h ++ s.answers c ++ handedAnswers c s.conTodo) ∧
    sends (startOutputs table ++ allOutputs (manHistory h)) = putsOfManager h ++ sends s.manTodo ∧
    puts h = takenCommands (conHistory h) ++ s.commands ∧
    datagrams (allEffects (conHistory h)) = sent h ++ datagrams s.conTodo ∧
    s.queries.length ≤ 256 ∧ s.commands.length ≤ 1024 ∧ (s.answers OWN_CHANNEL).length ≤ 1024 ∧
    ∀ c, c ≠ OWN_CHANNEL → (s.answers c).length ≤ 64 := by
  have hf := Flow.run hr
  refine ⟨hf.queries, hf.answers, hf.outputs, hf.commands, hf.sent, ?_⟩
  have key : s.queries.length ≤ QUERIES_CAP ∧ s.commands.length ≤ COMMANDS_CAP ∧
      ∀ c, (s.answers c).length ≤ answersCap c := by
    clear hf
    generalize hs0 : State.start infoHash secret table peers now = s0 at hr
    induction hr with
    | nil => subst hs0; simp [State.start]
    | @snoc s1 s2 h e hr hs ih =>
      obtain ⟨i1, i2, i3⟩ := ih
      cases hs with
      | putQuery _ _ _ hl => exact ⟨by rw [List.length_append]; exact hl, i2, i3⟩
      | putAnswer _ _ _ hl =>
        refine ⟨i1, i2, fun k => ?_⟩
        simp only
        split
        · rename_i hk; subst hk; rw [List.length_append]; exact hl
        · exact i3 k
      | command _ _ hq _ => rw [hq] at i2; exact ⟨i1, Nat.le_of_succ_le i2, i3⟩
      | takeQuery _ hq _ => rw [hq] at i1; exact ⟨Nat.le_of_succ_le i1, i2, i3⟩
      | takeAnswer _ hq _ =>
        refine ⟨i1, i2, fun k => ?_⟩
        simp only
        split
        · rename_i hk; subst hk
          have := i3 OWN_CHANNEL
          rw [hq, List.length_cons] at this
          omega
        · exact i3 k
      | @hear c r rest hc hq =>
        refine ⟨i1, i2, fun k => ?_⟩
        simp only
        split
        · rename_i hk; subst hk
          have := i3 k
          rw [hq, List.length_cons] at this
          omega
        · exact i3 k
      | putCommand _ _ _ hl => exact ⟨i1, by rw [List.length_append]; exact hl, i3⟩
      | ask _ _ hl => exact ⟨i1, by rw [List.length_append]; exact hl, i3⟩
      | _ => exact ⟨i1, i2, i3⟩
  obtain ⟨k1, k2, k3⟩ := key
  refine ⟨k1, k2, k3 OWN_CHANNEL, fun c hc => ?_⟩
  have := k3 c
  rw [answersCap, if_neg hc] at this
  exact this

/-! ## C102 -/

/-- The query the connection answers by itself in this entry. -/
def dirTag (e : Dht.Entry) : Option Question :=
  match e.event, e.heard with
  | .datagram (some a) _, some (.query t _ _ (.ping _)) => some (a, t, .ping)
  | .datagram (some a) _, some (.query t _ _ (.announcePeer _ _ _ _)) =>
    if e.effects = [] then none else some (a, t, .announcePeer)
  | _, _ => none

/-- The query a command answers. -/
def cmdQuestion : ToCon → Option Question
  | .resp qid v => some (qid.target, qid.tid, respKind v)
  | .query _ _ _ => none

/-- The query the table task is to answer. -/
def fromQuestion : FromConQuery → Option Question
  | .findNode _ qid => some (qid.target, qid.tid, .findNode)
  | .getPeers _ qid => some (qid.target, qid.tid, .getPeers)
  | .newPeer _ _ => none

/-- For each datagram of an entry the query it answers, if any. -/
def tagsOf (e : Dht.Entry) : List (Option Question) :=
  match e.event with
  | .command _ c => [cmdQuestion c]
  | .datagram _ _ => (dirTag e).toList.map some
  | _ => []

/-- The datagram is a query, or the answer to the query. -/
def IsTagged (own : ID) (d : SockAddr × Bytes) : Option Question → Prop
  | none => ∃ t v, IsQueryDatagram own t v d.2
  | some (a, t, k) => d.1 = a ∧ ∃ token v, respKind v = k ∧ IsAnswerDatagram own t token v d.2

theorem tags_step {c c' : Con} {e : Dht.Entry} (hs : Con.Step env c e c') :
    ∃ L : List ((SockAddr × Bytes) × Option Question), L.map (·.1) = datagrams e.effects ∧ L.map (·.2) = tagsOf e ∧
      ∀ x ∈ L, IsTagged c.ownId x.1 x.2 := by
  cases hs with
  | @command _ tid cmd effs htid hc =>
    cases cmd with
    | query ret target v =>
      rw [send_query_eq] at hc
      cases hc
      refine ⟨[((target, _), none)], rfl, rfl, ?_⟩
      intro x hx
      rw [List.mem_singleton.mp hx]
      exact ⟨tid, v, query_datagram _ _ _⟩
    | resp qid v =>
      rw [send_resp_eq] at hc
      cases hc
      refine ⟨[((qid.target, _), some (qid.target, qid.tid, respKind v))], rfl, rfl, ?_⟩
      intro x hx
      rw [List.mem_singleton.mp hx]
      exact ⟨rfl, _, v, rfl, answer_datagram _ _ _ _⟩
  | closed => exact ⟨[], rfl, rfl, by simp⟩
  | reorder _ => exact ⟨[], rfl, rfl, by simp⟩
  | @datagram _ sender bytes effs hc =>
    obtain ⟨h1, h2⟩ := receive_ok hc
    have hb : c'.buf = bufAfter c bytes := by rw [h1]
    rw [hb]
    cases sender with
    | none =>
      obtain ⟨_, rfl⟩ := h2
      exact ⟨[], rfl, rfl, by simp⟩
    | some a =>
      cases hm : heardIn env (bufAfter c bytes) with
      | none =>
        rw [hm] at h2
        obtain ⟨_, rfl⟩ := h2
        exact ⟨[], rfl, rfl, by simp⟩
      | some m =>
        rw [hm] at h2
        cases m with
        | response t y r =>
          refine ⟨[], ?_, rfl, by simp⟩
          rcases h2 with ⟨ch, _, _, rfl, _⟩ | ⟨_, _, rfl⟩ <;> rfl
        | error t y er =>
          obtain ⟨_, rfl⟩ := h2
          exact ⟨[], rfl, rfl, by simp⟩
        | query t y q args =>
          obtain ⟨_, h2⟩ := h2
          cases args with
          | ping id =>
            simp only [QueryEffects] at h2
            subst h2
            refine ⟨[((a, _), some (a, t, .ping))], rfl, rfl, ?_⟩
            intro x hx
            rw [List.mem_singleton.mp hx]
            exact ⟨rfl, [], .ping, rfl, answer_datagram c.ownId t [] .ping⟩
          | findNode id target => obtain ⟨rfl, _⟩ := h2; exact ⟨[], rfl, rfl, by simp⟩
          | getPeers id ih => obtain ⟨rfl, _⟩ := h2; exact ⟨[], rfl, rfl, by simp⟩
          | announcePeer id ih port token =>
            simp only [QueryEffects] at h2
            split at h2
            · obtain ⟨rfl, _⟩ := h2
              refine ⟨[((a, _), some (a, t, .announcePeer))], rfl, by simp [tagsOf, dirTag], ?_⟩
              intro x hx
              rw [List.mem_singleton.mp hx]
              exact ⟨rfl, [], .announcePeer, rfl, answer_datagram c.ownId t [] .announcePeer⟩
            · subst h2
              exact ⟨[], rfl, rfl, by simp⟩

theorem tags_run {own : ID} {ch : List Dht.Entry} {c : Con} (hr : Con.Run env (Con.start own secret) ch c) :
    ∃ L : List ((SockAddr × Bytes) × Option Question), L.map (·.1) = datagrams (allEffects ch) ∧
      L.map (·.2) = ch.flatMap tagsOf ∧ ∀ x ∈ L, IsTagged own x.1 x.2 := by
  generalize hs0 : Con.start own secret = s0 at hr
  induction hr with
  | nil => exact ⟨[], rfl, rfl, by simp⟩
  | @snoc s1 s2 h e hr hs ih =>
    obtain ⟨L, l1, l2, l3⟩ := ih
    subst hs0
    obtain ⟨L', k1, k2, k3⟩ := tags_step hs
    rw [((Inv.start own secret).run hr).own] at k3
    refine ⟨L ++ L', ?_, ?_, ?_⟩
    · rw [List.map_append, l1, k1, allEffects_append, datagrams_append]
      simp [allEffects]
    · rw [List.map_append, l2, k2, List.flatMap_append]; simp
    · intro x hx
      rcases List.mem_append.mp hx with hx | hx
      · exact l3 x hx
      · exact k3 x hx

/-- The query taken from the socket in this entry. -/
def entryQuestion (e : Dht.Entry) : Option Question :=
  match e.event, e.heard with
  | .datagram (some a) _, some m => question (a, m)
  | _, _ => none

theorem asked_eq (h : List DhtSystem.Entry) : asked h = (conHistory h).filterMap entryQuestion := by
  unfold asked heard conHistory
  rw [List.filterMap_filterMap, List.filterMap_filterMap]
  congr 1
  funext e
  unfold heardBy
  cases hc : e.con with
  | none => rfl
  | some x =>
    obtain ⟨ev, m, effs⟩ := x
    cases ev with
    | datagram a b => cases a <;> cases m <;> rfl
    | _ => rfl

/-- What the table task does about a question: it answers at most once. -/
theorem outs_question {infoHash : ID} {m m' : Manager} {e : DhtManager.Entry} (hb : Base infoHash m)
    (hs : DhtManager.Step pause m e m') :
    ((sends e.outputs).filterMap cmdQuestion).Sublist
      ((match e.event with | .query q => some q | _ => none).toList.filterMap fromQuestion) := by
  have hk := hs.kind hb.reach
  have hsend : ∀ w (m1 : Manager) o, DhtManager.Lookups m1 w o → sends o = [] := by
    intro w m1 o hl
    rcases hl with ⟨_, _, _, ns, rfl, _⟩ | ⟨_, _, rfl⟩ <;> rfl
  cases hk with
  | @turn ev m1 o1 w o2 hr hm hl =>
    simp only [sends_append, hsend _ _ _ hl, List.append_nil]
    cases hm with
    | @refresh rb rt o hp he =>
      have : (sends o1).filterMap cmdQuestion = [] := by
        simp only [Manager.refresh, Res.bind_eq_ok] at he
        obtain ⟨ids, _, he⟩ := he
        rcases refreshQueries_spec hb.reach m.now ids with ⟨_, h0⟩ | ⟨_, addrs, _, _, h0⟩
        · rw [h0] at he; cases he; rfl
        · rw [h0] at he; cases he
          simp only [sends, List.filterMap_map, List.filterMap_filterMap]
          exact List.filterMap_eq_nil_iff.mpr fun x _ => rfl
      rw [this]; exact List.nil_sublist _
    | peerNode => exact List.nil_sublist _
    | @resp r m1 o he =>
      have : (sends o1).filterMap cmdQuestion = [] := by
        cases r with
        | touch id a =>
          simp only [Manager.processResp, Res.bind_eq_ok] at he
          obtain ⟨_, _, he⟩ := he; cases he; rfl
        | newNodes ns a id =>
          simp only [Manager.processResp, Res.bind_eq_ok] at he
          obtain ⟨_, _, us, _, he⟩ := he; cases he
          simp only [sends, List.filterMap_map, List.filterMap_filterMap]
          exact List.filterMap_eq_nil_iff.mpr fun x _ => rfl
        | getPeers a t vn => simp only [Manager.processResp] at he; cases he; rfl
      rw [this]; exact List.nil_sublist _
    | @query shuffle q m1 o hsh he =>
      cases q with
      | findNode target qid =>
        simp only [Manager.processQuery, Res.bind_eq_ok] at he
        obtain ⟨o, _, he⟩ := he
        cases he
        cases o with
        | none => exact List.nil_sublist _
        | some n => exact List.Sublist.refl _
      | getPeers ih qid =>
        simp only [Manager.processQuery] at he
        split at he
        · cases he; exact List.Sublist.refl _
        · simp only [Res.bind_eq_ok] at he
          obtain ⟨o, _, he⟩ := he
          cases he
          cases o with
          | none => exact List.nil_sublist _
          | some n => exact List.Sublist.refl _
      | newPeer p ih =>
        simp only [Manager.processQuery] at he
        cases he; exact List.nil_sublist _
  | _ => exact List.nil_sublist _

theorem filterMap_congr' {α β : Type} {f g : α → Option β} {l : List α} (h : ∀ x ∈ l, f x = g x) :
    l.filterMap f = l.filterMap g := by
  induction l with
  | nil => rfl
  | cons a l ih =>
    rw [List.filterMap_cons, List.filterMap_cons, h a List.mem_cons_self, ih fun x hx => h x (List.mem_cons_of_mem _ hx)]

theorem outs_questions {infoHash : ID} {m0 m : Manager} {mh : List DhtManager.Entry} (hb : Base infoHash m0)
    (hr : DhtManager.Run pause m0 mh m) :
    ((sends (allOutputs mh)).filterMap cmdQuestion).Sublist ((takenQueries mh).filterMap fromQuestion) := by
  induction hr with
  | nil => exact List.Sublist.refl _
  | @snoc m1 m2 h e hr hs ih =>
    have hq := outs_question (hb.run hr) hs
    rw [allOutputs_append, sends_append, List.filterMap_append, takenQueries_append, List.filterMap_append]
    refine List.Sublist.append ih ?_
    have e1 : allOutputs [e] = e.outputs := by simp [allOutputs]
    have e2 : takenQueries [e] = (match e.event with | .query q => some q | _ => none).toList := by
      obtain ⟨ev, o⟩ := e
      cases ev <;> rfl
    rw [e1, e2]
    exact hq

/-- What the connection hands over was asked. -/
theorem handed_asked {own : ID} {ch : List Dht.Entry} {c : Con} (hr : Con.Run env (Con.start own secret) ch c) :
    ((handedQueries (allEffects ch)).filterMap fromQuestion).Sublist
      ((ch.filterMap entryQuestion).filter fun x => x.2.2 = .findNode ∨ x.2.2 = .getPeers) ∧
    (ch.filterMap dirTag).Sublist
      ((ch.filterMap entryQuestion).filter fun x => x.2.2 = .ping ∨ x.2.2 = .announcePeer) := by
  induction hr with
  | nil => exact ⟨List.Sublist.refl _, List.Sublist.refl _⟩
  | @snoc s1 s2 h e hr hs ih =>
    have key : ((handedQueries e.effects).filterMap fromQuestion).Sublist
        ((entryQuestion e).toList.filter fun x => x.2.2 = .findNode ∨ x.2.2 = .getPeers) ∧
        (dirTag e).toList.Sublist
        ((entryQuestion e).toList.filter fun x => x.2.2 = .ping ∨ x.2.2 = .announcePeer) := by
      cases hs with
      | @command _ tid cmd effs htid hc =>
        cases cmd with
        | query ret target v => rw [send_query_eq] at hc; cases hc; exact ⟨List.nil_sublist _, List.nil_sublist _⟩
        | resp qid v => rw [send_resp_eq] at hc; cases hc; exact ⟨List.nil_sublist _, List.nil_sublist _⟩
      | closed => exact ⟨List.nil_sublist _, List.nil_sublist _⟩
      | reorder _ => exact ⟨List.nil_sublist _, List.nil_sublist _⟩
      | @datagram _ sender bytes effs hc =>
        obtain ⟨h1, h2⟩ := receive_ok hc
        have hb : s2.buf = bufAfter s1 bytes := by rw [h1]
        rw [hb]
        cases sender with
        | none => obtain ⟨_, rfl⟩ := h2; exact ⟨List.nil_sublist _, List.nil_sublist _⟩
        | some a =>
          cases hm : heardIn env (bufAfter s1 bytes) with
          | none => rw [hm] at h2; obtain ⟨_, rfl⟩ := h2; exact ⟨List.nil_sublist _, List.nil_sublist _⟩
          | some m =>
            rw [hm] at h2
            cases m with
            | response t y r =>
              rcases h2 with ⟨ch, _, _, rfl, _⟩ | ⟨_, _, rfl⟩ <;> exact ⟨List.nil_sublist _, List.nil_sublist _⟩
            | error t y er => obtain ⟨_, rfl⟩ := h2; exact ⟨List.nil_sublist _, List.nil_sublist _⟩
            | query t y q args =>
              obtain ⟨_, h2⟩ := h2
              cases args with
              | ping id => simp only [QueryEffects] at h2; subst h2; exact ⟨List.nil_sublist _, List.Sublist.refl _⟩
              | findNode id target => obtain ⟨rfl, _⟩ := h2; exact ⟨List.Sublist.refl _, List.nil_sublist _⟩
              | getPeers id ih => obtain ⟨rfl, _⟩ := h2; exact ⟨List.Sublist.refl _, List.nil_sublist _⟩
              | announcePeer id ih port token =>
                simp only [QueryEffects] at h2
                split at h2
                · obtain ⟨rfl, _⟩ := h2
                  exact ⟨List.nil_sublist _, List.Sublist.refl _⟩
                · subst h2
                  exact ⟨List.nil_sublist _, List.nil_sublist _⟩
    have e1 : allEffects [e] = e.effects := by simp [allEffects]
    have e2 : ([e].filterMap entryQuestion) = (entryQuestion e).toList := by
      cases hq : entryQuestion e <;> simp [hq]
    have e3 : ([e].filterMap dirTag) = (dirTag e).toList := by
      cases hq : dirTag e <;> simp [hq]
    rw [allEffects_append, handedQueries_append, List.filterMap_append, List.filterMap_append, List.filter_append,
      List.filterMap_append, List.filter_append, e1, e2, e3]
    exact ⟨ih.1.append key.1, ih.2.append key.2⟩

theorem tags_count (ch : List Dht.Entry) (x : Question) :
    ((ch.flatMap tagsOf).filterMap id).count x =
      ((takenCommands ch).filterMap cmdQuestion).count x + (ch.filterMap dirTag).count x := by
  induction ch with
  | nil => rfl
  | cons e ch ih =>
    have e1 : takenCommands (e :: ch) = takenCommands [e] ++ takenCommands ch := takenCommands_append [e] ch
    have e2 : (e :: ch).filterMap dirTag = [e].filterMap dirTag ++ ch.filterMap dirTag :=
      List.filterMap_append (l := [e]) (l' := ch)
    have key : ((tagsOf e).filterMap id) = (takenCommands [e]).filterMap cmdQuestion ++ [e].filterMap dirTag := by
      obtain ⟨ev, m, effs⟩ := e
      cases ev with
      | command tid c =>
        cases c <;> simp [tagsOf, takenCommands, dirTag, cmdQuestion]
      | datagram a b =>
        have : takenCommands [⟨.datagram a b, m, effs⟩] = [] := rfl
        rw [this]
        generalize hd : dirTag ⟨.datagram a b, m, effs⟩ = d
        cases d <;> simp [tagsOf, hd]
      | closed c => simp [tagsOf, takenCommands, dirTag]
      | reorder => simp [tagsOf, takenCommands, dirTag]
    rw [List.flatMap_cons, List.filterMap_append, List.count_append, key, ih, e1, e2, List.filterMap_append,
      List.count_append, List.count_append, List.count_append]
    omega

/-- C102: in every history, whatever the tasks and queues do, every datagram that leaves is a query of this program or
answers a query that was taken from the socket, goes to the address that query came from, carries its transaction id and is
of its kind; and no query is answered twice. -/
theorem C102_answers (ht : Reachable table) (hp : Peers.Run (.new infoHash) os peers)
    (hr : DhtSystem.Run env pause (State.start infoHash secret table peers now) h s) :
    ∃ L : List ((SockAddr × Bytes) × Option Question), L.map (·.1) = sent h ∧
      (∀ d q, (d, q) ∈ L → match q with
        | none => ∃ t v, IsQueryDatagram table.ownId t v d.2
        | some (a, t, k) => d.1 = a ∧ ∃ token v, respKind v = k ∧ IsAnswerDatagram table.ownId t token v d.2) ∧
      ∀ x, ((L.map (·.2)).filterMap id).count x ≤ (asked h).count x := by
  have hf := Flow.run hr
  obtain ⟨L, l1, l2, l3⟩ := tags_run hf.con
  refine ⟨L.take (sent h).length, ?_, ?_, fun x => ?_⟩
  · rw [List.map_take, l1, hf.sent, List.take_left']; rfl
  · intro d q hm
    have := l3 _ (List.mem_of_mem_take hm)
    cases q <;> exact this
  · have h1 : (((L.take (sent h).length).map (·.2)).filterMap id).count x ≤ ((L.map (·.2)).filterMap id).count x := by
      apply List.Sublist.count_le
      apply List.Sublist.filterMap
      apply List.Sublist.map
      exact List.take_sublist _ _
    refine Nat.le_trans h1 ?_
    rw [l2, tags_count, asked_eq]
    obtain ⟨a1, a2⟩ := handed_asked hf.con
    have b1 : ((takenCommands (conHistory h)).filterMap cmdQuestion).Sublist
        ((handedQueries (allEffects (conHistory h))).filterMap fromQuestion) := by
      have c1 : ((takenCommands (conHistory h)).filterMap cmdQuestion).Sublist ((puts h).filterMap cmdQuestion) := by
        rw [hf.commands, List.filterMap_append]; exact List.sublist_append_left _ _
      have c2 : (puts h).filterMap cmdQuestion = (putsOfManager h).filterMap cmdQuestion := by
        unfold puts putsOfManager
        rw [List.filterMap_filterMap, List.filterMap_filterMap]
        refine filterMap_congr' fun e he => ?_
        cases hput : e.put with
        | none => rfl
        | some sc =>
          obtain ⟨src, c⟩ := sc
          cases src with
          | manager => rfl
          | other =>
            obtain ⟨k, a, v, rfl, _⟩ := hf.others e he c hput
            rfl
      have c3 : ((putsOfManager h).filterMap cmdQuestion).Sublist
          ((sends (startOutputs table ++ allOutputs (manHistory h))).filterMap cmdQuestion) := by
        rw [hf.outputs, List.filterMap_append]; exact List.sublist_append_left _ _
      have c4 : (sends (startOutputs table ++ allOutputs (manHistory h))).filterMap cmdQuestion =
          (sends (allOutputs (manHistory h))).filterMap cmdQuestion := by
        rw [sends_append, List.filterMap_append]
        have : (sends (startOutputs table)).filterMap cmdQuestion = [] := by
          simp only [sends, startOutputs, List.filterMap_map, List.filterMap_filterMap]
          exact List.filterMap_eq_nil_iff.mpr fun x _ => rfl
        rw [this]; rfl
      have c5 := outs_questions (Base.start (now := now) ht hp) hf.man
      have c6 : ((takenQueries (manHistory h)).filterMap fromQuestion).Sublist
          ((handedQueries (allEffects (conHistory h))).filterMap fromQuestion) := by
        rw [hf.queries, List.append_assoc, List.filterMap_append]; exact List.sublist_append_left _ _
      rw [c2] at c1
      rw [c4] at c3
      exact ((c1.trans c3).trans c5).trans c6
    have b2 := (b1.trans a1).count_le x
    have b3 := a2.count_le x
    have b4 : List.count x (((conHistory h).filterMap entryQuestion).filter
          fun x => x.2.2 = .findNode ∨ x.2.2 = .getPeers) +
        List.count x (((conHistory h).filterMap entryQuestion).filter
          fun x => x.2.2 = .ping ∨ x.2.2 = .announcePeer) ≤ ((conHistory h).filterMap entryQuestion).count x := by
      obtain ⟨xa, xt, xk⟩ := x
      cases xk with
      | ping =>
        rw [List.count_eq_zero_of_not_mem (a := (xa, xt, RequestType.ping))
          (l := List.filter (fun x => decide (x.2.2 = .findNode ∨ x.2.2 = .getPeers)) _) (by simp)]
        have := (List.filter_sublist (p := fun x : Question => decide (x.2.2 = .ping ∨ x.2.2 = .announcePeer))
          (l := (conHistory h).filterMap entryQuestion)).count_le (xa, xt, RequestType.ping)
        omega
      | announcePeer =>
        rw [List.count_eq_zero_of_not_mem (a := (xa, xt, RequestType.announcePeer))
          (l := List.filter (fun x => decide (x.2.2 = .findNode ∨ x.2.2 = .getPeers)) _) (by simp)]
        have := (List.filter_sublist (p := fun x : Question => decide (x.2.2 = .ping ∨ x.2.2 = .announcePeer))
          (l := (conHistory h).filterMap entryQuestion)).count_le (xa, xt, RequestType.announcePeer)
        omega
      | findNode =>
        rw [List.count_eq_zero_of_not_mem (a := (xa, xt, RequestType.findNode))
          (l := List.filter (fun x => decide (x.2.2 = .ping ∨ x.2.2 = .announcePeer)) _) (by simp)]
        have := (List.filter_sublist (p := fun x : Question => decide (x.2.2 = .findNode ∨ x.2.2 = .getPeers))
          (l := (conHistory h).filterMap entryQuestion)).count_le (xa, xt, RequestType.findNode)
        omega
      | getPeers =>
        rw [List.count_eq_zero_of_not_mem (a := (xa, xt, RequestType.getPeers))
          (l := List.filter (fun x => decide (x.2.2 = .ping ∨ x.2.2 = .announcePeer)) _) (by simp)]
        have := (List.filter_sublist (p := fun x : Question => decide (x.2.2 = .findNode ∨ x.2.2 = .getPeers))
          (l := (conHistory h).filterMap entryQuestion)).count_le (xa, xt, RequestType.getPeers)
        omega
    omega

/-! ## C107, C103 -/

theorem run_split {s0 : DhtSystem.State} {h1 h2 : List DhtSystem.Entry} {e : DhtSystem.Entry}
    (hr : DhtSystem.Run env pause s0 (h1 ++ e :: h2) s) :
    ∃ s1 s2, DhtSystem.Run env pause s0 h1 s1 ∧ DhtSystem.Step env pause s1 e s2 := by
  generalize hl : h1 ++ e :: h2 = l at hr
  induction hr generalizing h2 with
  | nil => simp at hl
  | snoc hr hs ih =>
    rcases List.eq_nil_or_concat h2 with rfl | ⟨l', x, rfl⟩
    · obtain ⟨rfl, h⟩ := List.append_inj' hl rfl
      cases h
      exact ⟨_, _, hr, hs⟩
    · rw [List.concat_eq_append, ← List.cons_append, ← List.append_assoc] at hl
      obtain ⟨rfl, h⟩ := List.append_inj' hl rfl
      exact ih rfl

theorem man_split {m0 m : Manager} {h1 h2 : List DhtManager.Entry} {e : DhtManager.Entry}
    (hr : DhtManager.Run pause m0 (h1 ++ e :: h2) m) :
    ∃ m1 m2, DhtManager.Run pause m0 h1 m1 ∧ DhtManager.Step pause m1 e m2 := by
  generalize hl : h1 ++ e :: h2 = l at hr
  induction hr generalizing h2 with
  | nil => simp at hl
  | snoc hr hs ih =>
    rcases List.eq_nil_or_concat h2 with rfl | ⟨l', x, rfl⟩
    · obtain ⟨rfl, h⟩ := List.append_inj' hl rfl
      cases h
      exact ⟨_, _, hr, hs⟩
    · rw [List.concat_eq_append, ← List.cons_append, ← List.append_assoc] at hl
      obtain ⟨rfl, h⟩ := List.append_inj' hl rfl
      exact ih rfl

theorem con_mem {ch : List Dht.Entry} {c0 c : Con} (hr : Con.Run env c0 ch c) {e : Dht.Entry} (he : e ∈ ch) :
    ∃ ch1 c1 c2, Con.Run env c0 ch1 c1 ∧ Con.Step env c1 e c2 := by
  induction hr with
  | nil => simp at he
  | @snoc s1 s2 h e' hr hs ih =>
    rcases List.mem_append.mp he with he | he
    · exact ih he
    · rw [List.mem_singleton.mp he]; exact ⟨_, _, _, hr, hs⟩

/-- An answer handed to a task: where it came from and which query it answers. -/
theorem answered (hr : DhtSystem.Run env pause (State.start infoHash secret table peers now) h s) {c : Nat}
    {r : FromConResp} (hm : r ∈ handedAnswers c (allEffects (conHistory h))) :
    ∃ h1 e h2 a t y resp, h = h1 ++ e :: h2 ∧ heardBy e = some (a, .response t y resp) ∧ r = told a resp ∧
      ∃ target v bytes, (target, bytes) ∈ sent h1 ∧ IsQueryDatagram table.ownId t v bytes ∧
        kindOf v = answersKind resp ∧ ToCon.query c target v ∈ puts h1 := by
  obtain ⟨eff, he, hk⟩ := List.mem_filterMap.mp hm
  obtain ⟨ce, hce, heff⟩ := List.mem_flatMap.mp he
  obtain ⟨e, heh, hec⟩ := List.mem_filterMap.mp hce
  have heff' : Effect.toRequester c r ∈ ce.effects := by
    cases eff with
    | toRequester k r' =>
      simp only at hk
      split at hk
      · rename_i hkc; subst hkc; cases hk; exact heff
      · cases hk
    | datagram => cases hk
    | toManager => cases hk
  have hf := Flow.run hr
  obtain ⟨a, bytes, t, y, resp, hev, hh, rfl⟩ := C75_only_answers env _ secret _ _ hf.con ce hce c r heff'
  obtain ⟨h1, h2, rfl⟩ := List.append_of_mem heh
  refine ⟨h1, e, h2, a, t, y, resp, rfl, ?_, rfl, ?_⟩
  · unfold heardBy
    rw [hec]
    obtain ⟨ev, hd, effs⟩ := ce
    cases hev
    cases hh
    rfl
  obtain ⟨s1, s2, hr1, hs⟩ := run_split hr
  have hf1 := Flow.run hr1
  have hstep : s1.conTodo = [] ∧ ∃ con', Con.Step env s1.con ce con' := by
    have hev' : e.con = some ce := hec
    cases hs with
    | datagram _ ht hc => cases hev'; exact ⟨ht, _, hc⟩
    | command _ ht _ hc => cases hev'; exact ⟨ht, _, hc⟩
    | reorder hc => cases hev'; cases hev
    | _ => cases hev'
  obtain ⟨htodo, con', hc⟩ := hstep
  have hpend : s1.con.pending.get? t = some (answersKind resp, c) := by
    obtain ⟨ev, hd, effs⟩ := ce
    cases hev
    cases hh
    have hd : some (Message.response t y resp) = heardIn env con'.buf ∧
        s1.con.receive env (some a) bytes = .ok (con', effs) := by
      generalize hx : some (Message.response t y resp) = x at hc
      cases hc with
      | datagram hrec => exact ⟨rfl, hrec⟩
    obtain ⟨g1, g2⟩ := receive_ok hd.2
    have hb : con'.buf = bufAfter s1.con bytes := by rw [g1]
    rw [hb] at hd
    rw [← hd.1] at g2
    rcases g2 with ⟨ch, hg, _, rfl, _⟩ | ⟨_, _, rfl⟩
    · simp only [List.mem_singleton] at heff'
      cases heff'
      exact hg
    · simp at heff'
  rw [pending_outstanding hf1.con] at hpend
  obtain ⟨before, q, after, hch, ⟨target, v, hq, hkind⟩, _⟩ := hpend
  have hqm : q ∈ conHistory h1 := by rw [hch]; simp
  obtain ⟨ch1, c1, c2, hcr, hcs⟩ := con_mem hf1.con hqm
  obtain ⟨_, b, hb1, hb2⟩ := C94_queries env _ secret _ _ _ hcr t c target v q hcs hq
  refine ⟨target, v, b, ?_, hb2, hkind, ?_⟩
  · have : (target, b) ∈ datagrams (allEffects (conHistory h1)) := by
      refine List.mem_filterMap.mpr ⟨.datagram target b, List.mem_flatMap.mpr ⟨q, hqm, by rw [hb1]; simp⟩, rfl⟩
    rw [hf1.sent, htodo] at this
    simpa [datagrams] using this
  · rw [hf1.commands]
    refine List.mem_append_left _ (List.mem_filterMap.mpr ⟨q, hqm, ?_⟩)
    rw [hq]

theorem countP_insert {κ α : Type} [DecidableEq κ] (p : κ × α → Bool) (m : Map κ α) (k : κ) (v : α) :
    (m.insert k v).countP p ≤ m.countP p + if p (k, v) then 1 else 0 := by
  induction m with
  | nil => simp [Map.insert, List.countP_cons]
  | cons e m ih =>
    unfold Map.insert
    split
    · simp only [List.countP_cons]
      omega
    · rw [show (e.1, e.2) = e from rfl, List.countP_cons, List.countP_cons]
      omega

theorem countP_erase {κ α : Type} [DecidableEq κ] (p : κ × α → Bool) {m : Map κ α} {k : κ} {v : α}
    (hg : m.get? k = some v) : (m.erase k).countP p + (if p (k, v) then 1 else 0) ≤ m.countP p := by
  induction m with
  | nil => simp at hg
  | cons e m ih =>
    rw [Map.get?_cons] at hg
    unfold Map.erase at ih ⊢
    split at hg
    · rename_i he
      cases hg
      have h1 : (List.filter (fun x : κ × α => decide (x.1 ≠ k)) m).countP p ≤ m.countP p :=
        List.Sublist.countP_le List.filter_sublist
      have h2 : e = (k, e.2) := by rw [← he]
      rw [List.filter_cons_of_neg (by simp [he]), List.countP_cons, ← h2]
      omega
    · rename_i he
      have := ih hg
      rw [List.filter_cons_of_pos (by simp [he]), List.countP_cons, List.countP_cons]
      omega

theorem handed_count {own : ID} {ch : List Dht.Entry} {x : Con} (hr : Con.Run env (Con.start own secret) ch x) (c : Nat) :
    x.pending.countP (fun e => e.2.2 = c) + (handedAnswers c (allEffects ch)).length ≤
      (takenCommands ch).countP (isQueryOf c) := by
  generalize hs0 : Con.start own secret = s0 at hr
  induction hr with
  | nil => subst hs0; simp [Con.start, allEffects, handedAnswers, takenCommands]
  | @snoc s1 s2 h e hr hs ih =>
    rw [allEffects_append, handedAnswers_append, List.length_append, takenCommands_append, List.countP_append]
    have e1 : allEffects [e] = e.effects := by simp [allEffects]
    rw [e1]
    have key : s2.pending.countP (fun e => e.2.2 = c) + (handedAnswers c e.effects).length ≤
        s1.pending.countP (fun e => e.2.2 = c) + (takenCommands [e]).countP (isQueryOf c) := by
      cases hs with
      | @command _ tid cmd effs htid hc =>
        cases cmd with
        | query ret target v =>
          rw [send_query_eq] at hc
          cases hc
          have := countP_insert (fun e : Bytes × RequestType × Nat => decide (e.2.2 = c)) s1.pending tid (kindOf v, ret)
          have e2 : takenCommands [⟨.command tid (.query ret target v), none,
            [.datagram target (v.intoMessage s1.ownId tid).intoBytes]⟩] = [.query ret target v] := rfl
          rw [e2, List.countP_singleton]
          simp only [isQueryOf]
          simpa [handedAnswers] using this
        | resp qid v =>
          rw [send_resp_eq] at hc
          cases hc
          simp [handedAnswers, takenCommands, isQueryOf]
      | closed => simp [handedAnswers, takenCommands]
      | @reorder p hp => simp [handedAnswers, takenCommands, hp.countP_eq]
      | @datagram _ sender bytes effs hrec =>
        have e2 : takenCommands [⟨.datagram sender bytes, heardIn env s2.buf, effs⟩] = [] := rfl
        rw [e2]
        obtain ⟨h1, h2⟩ := receive_ok hrec
        have quiet : s2.pending = s1.pending → (∀ k m, Effect.toRequester k m ∉ effs) →
            s2.pending.countP (fun e => e.2.2 = c) + (handedAnswers c effs).length ≤
            s1.pending.countP (fun e => e.2.2 = c) + List.countP (isQueryOf c) [] := by
          intro hp he
          have : handedAnswers c effs = [] := by
            refine List.filterMap_eq_nil_iff.mpr fun f hf => ?_
            cases f with
            | toRequester k m => exact absurd hf (he k m)
            | datagram => rfl
            | toManager => rfl
          rw [hp, this]
          simp
        revert h2
        split
        · rintro ⟨hp, hq⟩
          exact quiet hp (queryEffects_noRequester hq)
        · rename_i a t' y r _ hh
          rintro (⟨c', hg, hp, rfl, _⟩ | ⟨_, hp, rfl⟩)
          · have := countP_erase (fun e : Bytes × RequestType × Nat => decide (e.2.2 = c)) hg
            rw [hp]
            by_cases hc : c' = c
            · subst hc
              simpa [handedAnswers] using this
            · simpa [handedAnswers, hc] using this
          · exact quiet hp (by simp)
        · rintro ⟨hp, rfl⟩
          exact quiet hp (by simp)
    omega

/-- C107: every answer a task takes from its queue came from the socket, as an answer of the right kind to a query which
that task itself had put into the queue of the connection and which had been sent before with the same transaction id; and a
task takes at most as many answers as it put queries. -/
theorem C107_routed (hr : DhtSystem.Run env pause (State.start infoHash secret table peers now) h s) (c : Nat) :
    (∀ r ∈ takenAnswers c h, ∃ h1 e h2 a t y resp, h = h1 ++ e :: h2 ∧ heardBy e = some (a, .response t y resp) ∧
      r = told a resp ∧ ∃ target v bytes, (target, bytes) ∈ sent h1 ∧ IsQueryDatagram table.ownId t v bytes ∧
        kindOf v = answersKind resp ∧ ToCon.query c target v ∈ puts h1) ∧
    (takenAnswers c h).length ≤ (puts h).countP (isQueryOf c) := by
  have hf := Flow.run hr
  have ha := hf.answers c
  constructor
  · intro r hm
    refine answered hr ?_
    rw [ha, List.append_assoc]
    exact List.mem_append_left _ hm
  · have h1 := handed_count hf.con c
    rw [ha, List.length_append, List.length_append] at h1
    rw [hf.commands, List.countP_append]
    omega

/-- C103: every node in the table was there at the start or answered this program: a message from its address with its id
was taken from the socket, as an answer of the right kind to a query sent before with the same transaction id. -/
theorem C103_table (ht : Reachable table) (hp : Peers.Run (.new infoHash) os peers)
    (hr : DhtSystem.Run env pause (State.start infoHash secret table peers now) h s) (n : Node)
    (hn : n ∈ s.man.table.iterNodes) :
    (∃ n0 ∈ table.iterNodes, n0.id = n.id ∧ n0.addr = n.addr) ∨ AnsweredUs table.ownId h n.id n.addr := by
  have hf := Flow.run hr
  rcases (C98_only_answering ht hp hf.man n hn).1 with h0 | ⟨e, he, ha⟩
  · exact .inl h0
  · refine .inr ?_
    have hmem : ∃ r, e.event = .resp r ∧ ∀ a resp, r = told a resp → a = n.addr ∧ responder resp = n.id := by
      rcases ha with ha | ⟨nodes, ha⟩
      · refine ⟨_, ha, fun a resp h => ?_⟩
        cases resp <;> cases h <;> exact ⟨rfl, rfl⟩
      · refine ⟨_, ha, fun a resp h => ?_⟩
        cases resp <;> cases h <;> exact ⟨rfl, rfl⟩
    obtain ⟨r, hev, hr'⟩ := hmem
    have hin : r ∈ takenAnswers OWN_CHANNEL h := by
      rw [takenAnswers, if_pos rfl]
      refine List.mem_filterMap.mpr ⟨e, he, ?_⟩
      rw [hev]
    obtain ⟨h1, e', h2, a, t, y, resp, e1, e2, e3, target, v, bytes, e4, e5, e6, _⟩ := (C107_routed hr OWN_CHANNEL).1 r hin
    obtain ⟨rfl, e7⟩ := hr' a resp e3
    exact ⟨h1, e', h2, t, y, resp, e1, e2, e7, target, v, bytes, e4, e5, e6⟩

/-! ## C104 -/

theorem answeredUs_mono {own : ID} {h h' : List DhtSystem.Entry} {id : ID} {a : SockAddr} (ha : AnsweredUs own h id a) :
    AnsweredUs own (h ++ h') id a := by
  obtain ⟨h1, e, h2, t, y, r, rfl, rest⟩ := ha
  exact ⟨h1, e, h2 ++ h', t, y, r, by simp, rest⟩

/-- What the table task took as an announcement was one. -/
theorem announced_itself (hr : DhtSystem.Run env pause (State.start infoHash secret table peers now) h s) {ih : ID}
    {p : Peer} (ha : Announced (manHistory h) ih p) : AnnouncedItself env.sha1 secret h ih p := by
  have hf := Flow.run hr
  obtain ⟨me, hme, hev⟩ := ha
  have h1 : FromConQuery.newPeer p ih ∈ handedQueries (allEffects (conHistory h)) := by
    rw [hf.queries, List.append_assoc]
    refine List.mem_append_left _ (List.mem_filterMap.mpr ⟨me, hme, ?_⟩)
    rw [hev]
  obtain ⟨eff, he, hk⟩ := List.mem_filterMap.mp h1
  obtain ⟨ce, hce, heff⟩ := List.mem_flatMap.mp he
  obtain ⟨e, heh, hec⟩ := List.mem_filterMap.mp hce
  have heff' : Effect.toManager (.newPeer p ih) ∈ ce.effects := by
    cases eff with
    | toManager q => cases hk; exact heff
    | datagram => cases hk
    | toRequester => cases hk
  obtain ⟨a, bytes, t, y, q, id, port, hev', hh, rfl⟩ := C77_only_valid env _ secret _ _ hf.con ce hce p ih heff'
  refine ⟨e, heh, a, t, y, q, id, port, ?_, rfl⟩
  unfold heardBy
  rw [hec]
  obtain ⟨ev, hd, effs⟩ := ce
  cases hev'
  cases hh
  rfl

/-- What the table task tells others, step by step. -/
theorem told_by_manager (ht : Reachable table) (hp : Peers.Run (.new infoHash) os peers) {mh : List DhtManager.Entry}
    {m m' : Manager} {me : DhtManager.Entry} (hr : DhtManager.Run pause (DhtManager.start infoHash table peers now) mh m)
    (hs : DhtManager.Step pause m me m') {qid : QueryId} {v : ToConResp} (hv : Out.send (.resp qid v) ∈ me.outputs) :
    (∃ target nodes, me.event = .query (.findNode target qid) ∧ v = .findNode nodes ∧ nodes.list.length ≤ 15 ∧
      ∀ n ∈ nodes.list, n ∈ m.table.iterNodes) ∨
    (∃ ih nodes, me.event = .query (.getPeers ih qid) ∧ v = .getPeers (.nodes nodes) ∧ nodes.list.length ≤ 15 ∧
      ∀ n ∈ nodes.list, n ∈ m.table.iterNodes) ∨
    (∃ ih vs, me.event = .query (.getPeers ih qid) ∧ v = .getPeers (.values vs) ∧ vs.length ≤ 216 ∧
      (ih ≠ infoHash → ∀ p ∈ vs, Announced mh ih p)) := by
  have hb0 := Base.start (now := now) ht hp
  have hb := hb0.run hr
  have hnodes : ∀ (t : RoutingTable) now id o, Reachable t → t.findNode now id = .ok (some o) →
      o.list.length ≤ 15 ∧ ∀ n ∈ o.list, n ∈ t.iterNodes := by
    intro t now id o hrt hf
    rcases nodesFor_findNode hrt now id with ⟨nodes, hf', hn⟩ | ⟨_, _, hf'⟩
    · rw [hf'] at hf
      cases hf
      cases o with
      | exact x =>
        refine ⟨by simp [Nodes.list], ?_⟩
        intro n hn'
        simp only [Nodes.list, List.mem_singleton] at hn'
        subst hn'
        exact hn.1
      | closest ns => exact ⟨hn.2.2.1, fun n hn' => (hn.2.2.2.2.1 n hn').1⟩
    · rw [hf'] at hf; cases hf
  have hk := hs.kind hb.reach
  cases hk with
  | @turn ev m1 o1 w o2 hrun hm hl =>
    have hv1 : Out.send (.resp qid v) ∈ o1 := by
      rcases List.mem_append.mp hv with hv | hv
      · exact hv
      · rcases hl with ⟨_, _, _, ns, rfl, _⟩ | ⟨_, _, rfl⟩ <;> simp at hv
    clear hv hs hl
    revert hv1
    intro hv
    cases hm with
    | @refresh rb rt o hpz he =>
      simp only [Manager.refresh, Res.bind_eq_ok] at he
      obtain ⟨ids, _, he⟩ := he
      rcases refreshQueries_spec hb.reach m.now ids with ⟨_, h0⟩ | ⟨_, addrs, _, _, h0⟩
      · rw [h0] at he; cases he; simp at hv
      · rw [h0] at he; cases he; simp at hv
    | peerNode => simp [ping] at hv
    | @resp r m1 o he =>
      cases r with
      | touch id a =>
        simp only [Manager.processResp, Res.bind_eq_ok] at he
        obtain ⟨_, _, he⟩ := he; cases he; simp at hv
      | newNodes ns a id =>
        simp only [Manager.processResp, Res.bind_eq_ok] at he
        obtain ⟨_, _, us, _, he⟩ := he; cases he; simp [ping] at hv
      | getPeers a t vn => simp only [Manager.processResp] at he; cases he; simp at hv
    | @query shuffle q m1 o hsh he =>
      cases q with
      | findNode target qid' =>
        simp only [Manager.processQuery, Res.bind_eq_ok] at he
        obtain ⟨o, hfn, he⟩ := he
        cases he
        cases o with
        | none => simp at hv
        | some n =>
          simp at hv
          obtain ⟨rfl, rfl⟩ := hv
          exact .inl ⟨target, n, rfl, rfl, hnodes _ _ _ _ hb.reach hfn⟩
      | getPeers ih qid' =>
        have htab : ∀ m2 o, m.findPeers shuffle ih = (m2, o) → m2.table = m.table := by
          intro m2 o hfp
          unfold Manager.findPeers at hfp
          split at hfp <;> (rw [Prod.mk.injEq] at hfp; rw [← hfp.1])
        simp only [Manager.processQuery] at he
        split at he
        · rename_i m2 ps hfp
          cases he
          simp at hv
          obtain ⟨rfl, rfl⟩ := hv
          refine .inr (.inr ⟨ih, ps, rfl, rfl, ?_, fun hne p hpm => ?_⟩)
          · by_cases hne : ih = infoHash
            · obtain ⟨good, _, g1, _⟩ := good_eq hb.wf 216
              simp only [Manager.findPeers, Peers.serve, hb.own, hne, decide_true, if_true, per_answer, g1,
                Prod.mk.injEq] at hfp
              obtain ⟨_, hfp⟩ := hfp
              split at hfp
              · cases hfp
              · cases hfp
                rw [List.length_take]; omega
            · rw [findPeers_other (hb.own ▸ hne)] at hfp
              simp only [Prod.mk.injEq, Option.map_eq_some_iff] at hfp
              obtain ⟨_, l, _, rfl⟩ := hfp
              rw [List.length_take, per_answer]; omega
          rw [findPeers_other (hb.own ▸ hne)] at hfp
          simp only [Prod.mk.injEq] at hfp
          obtain ⟨_, hfp⟩ := hfp
          cases hg : m.peerMap.get? ih with
          | none => rw [hg] at hfp; cases hfp
          | some l =>
            rw [hg] at hfp
            cases hfp
            have := (stored_iff hb0 hr ih hne).1 p
            rw [hg] at this
            exact this.mp ((hsh l).mem_iff.mp (List.mem_of_mem_take hpm))
        · rename_i m2 hfp
          have htab := htab _ _ hfp
          simp only [Res.bind_eq_ok] at he
          obtain ⟨o, hfn, he⟩ := he
          cases he
          cases o with
          | none => simp at hv
          | some n =>
            simp at hv
            obtain ⟨rfl, rfl⟩ := hv
            rw [htab] at hfn
            exact .inr (.inl ⟨ih, n, rfl, rfl, hnodes _ _ _ _ hb.reach hfn⟩)
      | newPeer p ih =>
        simp only [Manager.processQuery] at he
        cases he; simp at hv
  | shutdown => simp at hv
  | _ => simp at hv

theorem man_of_step {s s' : DhtSystem.State} {e : DhtSystem.Entry} {me : DhtManager.Entry}
    (hs : DhtSystem.Step env pause s e s') (he : e.man = some me) : DhtManager.Step pause s.man me s'.man := by
  cases hs with
  | direct _ _ hd => cases he; exact hd
  | takeQuery _ _ hd => cases he; exact hd
  | takeAnswer _ _ hd => cases he; exact hd
  | conGone _ _ _ hd => cases he; exact hd
  | outside _ hd => cases he; exact hd
  | putFails _ _ hd => cases he; exact hd
  | _ => cases he

/-- Where a query comes from that the connection hands over. -/
theorem handed_heard (hr : DhtSystem.Run env pause (State.start infoHash secret table peers now) h s) {q : FromConQuery}
    {qid : QueryId} (hm : q ∈ handedQueries (allEffects (conHistory h))) :
    (∀ target, q = .findNode target qid → ∃ e ∈ h, ∃ y m id,
      heardBy e = some (qid.target, .query qid.tid y m (.findNode id target))) ∧
    (∀ ih, q = .getPeers ih qid → ∃ e ∈ h, ∃ y m id,
      heardBy e = some (qid.target, .query qid.tid y m (.getPeers id ih))) := by
  have hf := Flow.run hr
  obtain ⟨eff, he, hk⟩ := List.mem_filterMap.mp hm
  obtain ⟨ce, hce, heff⟩ := List.mem_flatMap.mp he
  obtain ⟨e, heh, hec⟩ := List.mem_filterMap.mp hce
  have heff' : Effect.toManager q ∈ ce.effects := by
    cases eff with
    | toManager q => cases hk; exact heff
    | datagram => cases hk
    | toRequester => cases hk
  obtain ⟨ch1, c1, c2, hcr, hcs⟩ := con_mem hf.con hce
  cases hcs with
  | @datagram _ sender bytes effs hrec =>
    obtain ⟨h1, h2⟩ := receive_ok hrec
    have hb : c2.buf = bufAfter c1 bytes := by rw [h1]
    revert h2
    split
    · rename_i a t' y m args _ hh
      rintro ⟨_, hq⟩
      rw [hb, hh] at hec
      have hhb : heardBy e = some (a, .query t' y m args) := by unfold heardBy; rw [hec]
      cases args with
      | ping id => simp only [QueryEffects] at hq; subst hq; simp at heff'
      | findNode id target =>
        obtain ⟨rfl, _⟩ := hq
        simp only [List.mem_singleton] at heff'
        cases heff'
        exact ⟨fun _ h => by cases h; exact ⟨e, heh, y, m, id, hhb⟩, fun _ h => by cases h⟩
      | getPeers id ih =>
        obtain ⟨rfl, _⟩ := hq
        simp only [List.mem_singleton] at heff'
        cases heff'
        exact ⟨fun _ h => by (cases h), fun _ h => by cases h; exact ⟨e, heh, y, m, id, hhb⟩⟩
      | announcePeer id ih2 port token =>
        simp only [QueryEffects] at hq
        split at hq
        · obtain ⟨rfl, _⟩ := hq
          simp at heff'
          subst heff'
          exact ⟨fun _ h => by (cases h), fun _ h => by (cases h)⟩
        · subst hq; simp at heff'
    · rintro (⟨c', _, _, rfl, _⟩ | ⟨_, _, rfl⟩) <;> simp at heff'
    · rintro ⟨_, rfl⟩
      simp at heff'
  | @command _ tid cmd effs htid hc =>
    cases cmd with
    | query c' target v => rw [send_query_eq] at hc; cases hc; simp at heff'
    | resp qid v => rw [send_resp_eq] at hc; cases hc; simp at heff'
  | closed => simp at heff'
  | reorder => simp at heff'

/-- C104: in every history, every datagram that leaves is a query of this program, or an answer to a query that was taken
from the socket, with at most 15 nodes or 216 peers. Every node named in an answer was in the table at the start or answered this program itself; every peer
named in an answer about a torrent other than the own announced itself, with the token for its address. So nodes and peers
that are only known from what others say are never passed on. -/
theorem C104_first_hand (ht : Reachable table) (hp : Peers.Run (.new infoHash) os peers)
    (hr : DhtSystem.Run env pause (State.start infoHash secret table peers now) h s) (a : SockAddr) (b : Bytes)
    (hm : (a, b) ∈ sent h) :
    (∃ t v, t.length = 5 ∧ IsQueryDatagram table.ownId t v b) ∨
    ∃ t v, IsAnswerDatagram table.ownId t (tokenFor env.sha1 secret a.ip) v b ∧
      (answerNodes v).length ≤ 15 ∧ (answerPeers v).length ≤ 216 ∧
      (∀ n ∈ answerNodes v, (∃ n0 ∈ table.iterNodes, n0.id = n.id ∧ n0.addr = n.addr) ∨
        AnsweredUs table.ownId h n.id n.addr) ∧
      ∃ e ∈ h, ∃ y q args, heardBy e = some (a, .query t y q args) ∧ argsKind args = respKind v ∧
        ∀ id ih, args = .getPeers id ih → ih ≠ infoHash → ∀ p ∈ answerPeers v,
          AnnouncedItself env.sha1 secret h ih p := by
  have hf := Flow.run hr
  have hm' : (a, b) ∈ datagrams (allEffects (conHistory h)) := by rw [hf.sent]; exact List.mem_append_left _ hm
  obtain ⟨eff, he, hk⟩ := List.mem_filterMap.mp hm'
  obtain ⟨ce, hce, heff⟩ := List.mem_flatMap.mp he
  obtain ⟨e, heh, hec⟩ := List.mem_filterMap.mp hce
  have heff' : Effect.datagram a b ∈ ce.effects := by
    cases eff with
    | toManager q => cases hk
    | datagram => cases hk; exact heff
    | toRequester => cases hk
  obtain ⟨ch1, c1, c2, hcr, hcs⟩ := con_mem hf.con hce
  have hi := (Inv.start table.ownId secret).run hcr
  cases hcs with
  | @datagram _ sender bytes effs hrec =>
    obtain ⟨h1, h2⟩ := receive_ok hrec
    have hb : c2.buf = bufAfter c1 bytes := by rw [h1]
    revert h2
    split
    · rename_i a' t' y m args _ hh
      rintro ⟨_, hq⟩
      rw [hb, hh] at hec
      have hhb : heardBy e = some (a', .query t' y m args) := by unfold heardBy; rw [hec]
      cases args with
      | ping id =>
        simp only [QueryEffects] at hq
        subst hq
        simp only [List.mem_singleton] at heff'
        cases heff'
        rw [hi.own]
        exact .inr ⟨t', .ping, answer_datagram table.ownId t' _ .ping, by simp [answerNodes], by simp [answerPeers], by simp [answerNodes],
          e, heh, y, m, .ping id, hhb, rfl, fun _ _ h => by cases h⟩
      | findNode id target => obtain ⟨rfl, _⟩ := hq; simp at heff'
      | getPeers id ih => obtain ⟨rfl, _⟩ := hq; simp at heff'
      | announcePeer id ih port token =>
        simp only [QueryEffects] at hq
        split at hq
        · obtain ⟨rfl, _⟩ := hq
          simp at heff'
          obtain ⟨rfl, rfl⟩ := heff'
          rw [hi.own]
          exact .inr ⟨t', .announcePeer, answer_datagram table.ownId t' _ .announcePeer, by simp [answerNodes],
            by simp [answerPeers], by simp [answerNodes],
            e, heh, y, m, .announcePeer id ih port token, hhb, rfl, fun _ _ h => by cases h⟩
        · subst hq; simp at heff'
    · rintro (⟨c', _, _, rfl, _⟩ | ⟨_, _, rfl⟩) <;> simp at heff'
    · rintro ⟨_, rfl⟩
      simp at heff'
  | @command _ tid cmd effs htid hc =>
    cases cmd with
    | query c' target v =>
      obtain ⟨hlen, b', hb1, hb2⟩ := C94_queries env _ secret _ _ _ hcr tid c' target v _ (.command htid hc) rfl
      rw [hb1] at heff'
      simp only [List.mem_singleton] at heff'
      cases heff'
      exact .inl ⟨tid, v, hlen, hb2⟩
    | resp qid v =>
      obtain ⟨b', hb1, hb2⟩ := C94_answers env _ secret _ _ _ hcr tid qid v _ (.command htid hc) rfl
      rw [hb1] at heff'
      simp only [List.mem_singleton] at heff'
      cases heff'
      have hput : ToCon.resp qid v ∈ puts h := by
        rw [hf.commands]
        exact List.mem_append_left _ (List.mem_filterMap.mpr ⟨_, hce, rfl⟩)
      have hman : ToCon.resp qid v ∈ putsOfManager h := by
        obtain ⟨e', he', hpe⟩ := List.mem_filterMap.mp hput
        refine List.mem_filterMap.mpr ⟨e', he', ?_⟩
        cases hq : e'.put with
        | none => rw [hq] at hpe; cases hpe
        | some x =>
          obtain ⟨src, cmd⟩ := x
          rw [hq] at hpe
          cases hpe
          cases src with
          | manager => rfl
          | other => obtain ⟨_, _, _, hx, _⟩ := hf.others e' he' _ hq; cases hx
      have hout : ToCon.resp qid v ∈ sends (startOutputs table ++ allOutputs (manHistory h)) := by
        rw [hf.outputs]; exact List.mem_append_left _ hman
      obtain ⟨o, ho, hk⟩ := List.mem_filterMap.mp hout
      have ho' : Out.send (.resp qid v) ∈ startOutputs table ++ allOutputs (manHistory h) := by
        cases o with
        | send c => cases hk; exact ho
        | _ => cases hk
      have ho'' : Out.send (.resp qid v) ∈ allOutputs (manHistory h) := by
        rcases List.mem_append.mp ho' with h0 | h0
        · simp [startOutputs, ping] at h0
        · exact h0
      obtain ⟨me, hme, hmo⟩ := List.mem_flatMap.mp ho''
      obtain ⟨e2, he2, hem⟩ := List.mem_filterMap.mp hme
      obtain ⟨h1, h2, rfl⟩ := List.append_of_mem he2
      obtain ⟨s1, s2, hr1, hs⟩ := run_split hr
      have hf1 := Flow.run hr1
      have hnodes : ∀ l : List Node, (∀ n ∈ l, n ∈ s1.man.table.iterNodes) → ∀ n ∈ l,
          (∃ n0 ∈ table.iterNodes, n0.id = n.id ∧ n0.addr = n.addr) ∨
            AnsweredUs table.ownId (h1 ++ e2 :: h2) n.id n.addr := by
        intro l hl n hn
        rcases C103_table ht hp hr1 n (hl n hn) with h0 | h0
        · exact .inl h0
        · exact .inr (answeredUs_mono h0)
      have htaken : ∀ q, me.event = .query q → q ∈ handedQueries (allEffects (conHistory (h1 ++ e2 :: h2))) := by
        intro q hq
        rw [hf.queries, List.append_assoc]
        refine List.mem_append_left _ (List.mem_filterMap.mpr ⟨me, hme, ?_⟩)
        rw [hq]
      rcases told_by_manager ht hp hf1.man (man_of_step hs hem) hmo with
        ⟨target, nodes, hev, rfl, hlen, hn⟩ | ⟨ih, nodes, hev, rfl, hlen, hn⟩ | ⟨ih, vs, hev, rfl, hlen, hvs⟩
      · obtain ⟨e3, he3, y, m, id, hh⟩ := (handed_heard (qid := qid) hr (htaken _ hev)).1 _ rfl
        exact .inr ⟨qid.tid, _, hb2, hlen, by simp [answerPeers], hnodes _ hn, e3, he3, y, m, _, hh, rfl, fun _ _ h => by cases h⟩
      · obtain ⟨e3, he3, y, m, id, hh⟩ := (handed_heard (qid := qid) hr (htaken _ hev)).2 _ rfl
        exact .inr ⟨qid.tid, _, hb2, hlen, by simp [answerPeers], hnodes _ hn, e3, he3, y, m, _, hh, rfl, fun _ _ _ _ p hp => by simp [answerPeers] at hp⟩
      · obtain ⟨e3, he3, y, m, id, hh⟩ := (handed_heard (qid := qid) hr (htaken _ hev)).2 _ rfl
        refine .inr ⟨qid.tid, _, hb2, by simp [answerNodes], hlen, by simp [answerNodes], e3, he3, y, m, _, hh, rfl, fun _ ih' h hne p hpm => ?_⟩
        cases h
        obtain ⟨e4, he4, rest⟩ := announced_itself hr1 (hvs hne p hpm)
        exact ⟨e4, List.mem_append_left _ he4, rest⟩
  | closed => simp at heff'
  | reorder => simp at heff'

end

end Nargun
