import Verif.Props.ProgramEnd

/-! # The pauses of the lookup and the DHT: C124 -/

set_option linter.unusedSimpArgs false

namespace Nargun.Program

open Nargun Dht Krpc Spec DhtManager DhtSystem

variable {w : World} {u : Setup} {s0 s s' : State} {e : Event} {es : List Event}

/-! ## How many answers can be on their way to the lookup -/

/-- The effect is an answer for the task behind channel `k`. -/
def isAnswer (k : Nat) : Effect → Bool
  | .toRequester c _ => c == k
  | _ => false

/-- The command is a query of the task behind channel `k`. -/
def isAsked (k : Nat) : ToCon → Bool
  | .query c _ _ => c == k
  | _ => false

/-- The answers for the task behind channel `k` that are there, are handed over, or may come. -/
def owed (k : Nat) (s : DhtSystem.State) : Nat :=
  (s.answers k).length + s.conTodo.countP (isAnswer k) + s.con.pending.countP (fun e => e.2.2 == k) +
    s.commands.countP (isAsked k)

theorem countP_insert {κ α : Type} [DecidableEq κ] (m : Map κ α) (k : κ) (v : α) (p : κ × α → Bool) :
    (m.insert k v).countP p ≤ m.countP p + if p (k, v) then 1 else 0 := by
  induction m with
  | nil => simp [Map.insert, List.countP_cons]
  | cons x m ih =>
    simp only [Map.insert]
    split
    · simp only [List.countP_cons]; omega
    · have : (x.1, x.2) = x := rfl
      simp only [List.countP_cons, this]; omega

theorem countP_erase {κ α : Type} [DecidableEq κ] {m : Map κ α} {k : κ} {v : α} {p : κ × α → Bool} (h : m.get? k = some v) :
    (m.erase k).countP p + (if p (k, v) then 1 else 0) ≤ m.countP p := by
  induction m with
  | nil => simp [Map.get?] at h
  | cons x m ih =>
    have hle : ∀ m : Map κ α, (m.erase k).countP p ≤ m.countP p := fun m => List.Sublist.countP_le List.filter_sublist
    simp only [Map.get?, List.find?_cons] at h
    by_cases hk : x.1 = k
    · simp only [hk, decide_true, Option.map_some, Option.some.injEq] at h
      have : Map.erase (x :: m) k = Map.erase m k := by simp [Map.erase, hk]
      rw [this, List.countP_cons]
      have : x = (k, v) := by cases x; simp_all
      rw [this]
      have := hle m
      omega
    · simp only [hk, decide_false] at h
      have h1 : Map.erase (x :: m) k = x :: Map.erase m k := by simp [Map.erase, hk]
      rw [h1, List.countP_cons, List.countP_cons]
      have := ih h
      omega

theorem receive_owed {k : Nat} {env : Env} {c c' : Con} {sender : Option SockAddr} {bytes : Bytes} {effs : List Effect}
    (h : c.receive env sender bytes = .ok (c', effs)) :
    effs.countP (isAnswer k) + c'.pending.countP (fun e => e.2.2 == k) ≤
      c.pending.countP (fun e => e.2.2 == k) := by
  have into : ∀ {c c' : Con} {e effs}, c.into e = .ok (c', effs) → c' = c ∧ effs = [e] := by
    intro c c' e effs h
    cases e with
    | datagram => cases h; exact ⟨rfl, rfl⟩
    | toManager => simp only [Con.into] at h; split at h <;> cases h; exact ⟨rfl, rfl⟩
    | toRequester => simp only [Con.into] at h; split at h <;> cases h; exact ⟨rfl, rfl⟩
  simp only [Con.receive, Con.handleReceived] at h
  split at h
  · cases h; simp
  · split at h
    · cases h
    · cases h; simp
    · next args _ =>
      cases args with
      | ping => cases h; simp [isAnswer]
      | findNode => simp only [Con.handleQuery] at h; obtain ⟨rfl, rfl⟩ := into h; simp [isAnswer]
      | getPeers => simp only [Con.handleQuery] at h; obtain ⟨rfl, rfl⟩ := into h; simp [isAnswer]
      | announcePeer =>
        simp only [Con.handleQuery] at h
        split at h
        · obtain ⟨⟨s1, e1⟩, h1, h⟩ := Res.bind_eq_ok.mp h
          obtain ⟨⟨s2, e2⟩, h2, h⟩ := Res.bind_eq_ok.mp h
          obtain ⟨rfl, rfl⟩ := into h1
          cases h2; cases h; simp [isAnswer]
        · cases h; simp
    · next t y r _ =>
      simp only [Con.handleResp, Pending.get] at h
      cases hg : c.pending.get? t with
      | none => simp only [hg] at h; cases h; simp
      | some v =>
        obtain ⟨ty, ch⟩ := v
        simp only [hg] at h
        split at h
        · next he =>
          split at he
          · cases he
          · cases he; cases h; simp
        · next he =>
          split at he
          · cases he
            obtain ⟨rfl, rfl⟩ := into h
            have := countP_erase (p := fun e => e.2.2 == k) hg
            simpa [isAnswer, List.countP_cons, Nat.add_comm] using this
          · cases he
    · cases h; simp

theorem command_owed {k : Nat} {env : Env} {c c' : Con} {tid : Bytes} {x : ToCon} {effs : List Effect}
    (h : c.send env tid x = .ok (c', effs)) :
    effs.countP (isAnswer k) + c'.pending.countP (fun e => e.2.2 == k) ≤
      c.pending.countP (fun e => e.2.2 == k) + if isAsked k x then 1 else 0 := by
  cases x with
  | resp => cases h; simp [isAnswer]
  | query ch a v =>
    obtain ⟨ty, _, h⟩ := Res.bind_eq_ok.mp h
    cases h
    have := countP_insert c.pending (v.intoMessage c.ownId tid).tid (ty, ch) (fun e => e.2.2 == k)
    simpa [isAnswer, isAsked] using this

/-- The table task asks for itself. -/
theorem sends_own {k : Nat} (hk : k ≠ OWN_CHANNEL) {env : Env} {pause : Nat → Nat} {infoHash secret : ID} {table : RoutingTable} {peers : Peers} {now : Nat}
    {os : List Peers.Op} {h : List DhtSystem.Entry} {d : DhtSystem.State} (ht : Reachable table)
    (hp : Peers.Run (.new infoHash) os peers)
    (hr : DhtSystem.Run env pause (DhtSystem.State.start infoHash secret table peers now) h d) (c : ToCon) (rest : List Out)
    (hd : d.manTodo = .send c :: rest) : isAsked k c = false := by
  have hf := Flow.run hr
  have hc : c ∈ sends (startOutputs table ++ allOutputs (manHistory h)) := by
    rw [hf.outputs]
    exact List.mem_append_right _ (List.mem_filterMap.mpr ⟨.send c, by rw [hd]; simp, rfl⟩)
  obtain ⟨o, ho, hoe⟩ := List.mem_filterMap.mp hc
  have ho' : o = .send c := by cases o <;> first | (cases hoe; rfl) | cases hoe
  subst ho'
  cases c with
  | resp => rfl
  | query ch a v =>
    rcases List.mem_append.mp ho with ho | ho
    · simp only [startOutputs, List.mem_map] at ho
      obtain ⟨n, _, ho⟩ := ho
      cases ho
      simpa [isAsked] using fun h => hk h.symm
    · obtain ⟨me, hme, ho⟩ := List.mem_flatMap.mp ho
      rw [(C98_channel ht hp hf.man me hme _ _ _ ho).1]
      simpa [isAsked] using fun h => hk h.symm

/-- What a step of the DHT adds. -/
theorem owed_step {k : Nat} (hk : k ≠ OWN_CHANNEL) {env : Env} {pause : Nat → Nat} {a b : DhtSystem.State} {x : DhtSystem.Entry}
    (hown : ∀ c rest, a.manTodo = .send c :: rest → isAsked k c = false) (h : DhtSystem.Step env pause a x b) :
    owed k b + (match x.heard with | some (c, _) => if c = k then 1 else 0 | none => 0) ≤
      owed k a + (match x.put with | some (.other, c) => if isAsked k c then 1 else 0 | _ => 0) := by
  cases h with
  | datagram _ h2 h3 =>
    cases h3 with
    | datagram h3 =>
      have := receive_owed (k := k) h3
      simp only [owed, h2, List.countP_nil]; omega
  | command _ h2 h3 h4 =>
    cases h4 with
    | command _ h4 =>
      have := command_owed (k := k) h4
      simp only [owed, h2, h3, List.countP_nil, List.countP_cons]; omega
  | reorder h =>
    cases h with
    | reorder h => simp only [owed, h.countP_eq]; omega
  | sends _ h => simp only [owed, h, List.countP_cons, isAnswer]; omega
  | putQuery _ h => simp only [owed, h, List.countP_cons, isAnswer]; omega
  | @putAnswer c r rest _ h =>
    simp only [owed, h, List.countP_cons, isAnswer]
    by_cases hc : c = k
    · subst hc; simp; omega
    · have : ¬ k = c := fun h => hc h.symm
      simp [hc, this]
  | takeAnswer =>
    simp [owed, hk]
  | putCommand _ h =>
    have := hown _ _ h
    simp only [owed, List.countP_append, List.countP_cons, List.countP_nil, this]
    simp
  | ask => simp only [owed, List.countP_append, List.countP_cons, List.countP_nil]; omega
  | @hear c r rest hc h =>
    simp only [owed]
    by_cases hc : c = k
    · subst hc; simp [h]; omega
    · have : ¬ k = c := fun h => hc h.symm
      simp [hc, this]
  | _ => simp only [owed]; omega

/-- No more answers are on their way to the lookup than it has asked and not yet heard; nobody but the table task and the
lookup is answered. -/
theorem owed_run (ht : Reachable u.table) (h0 : Started w u s0) (h : Run w s0 es s) {k : Nat} (hk : k ≠ OWN_CHANNEL) :
    owed k s.dht + (if LOOKUP_CHANNEL = k then (lookupHeard es).length else 0) ≤
      if LOOKUP_CHANNEL = k then (lookupAsked es).length else 0 := by
  have same : ∀ {s1 : State} {es : List Event} {e : Event}, owed k s1.dht + (if LOOKUP_CHANNEL = k then (lookupHeard es).length else 0) ≤
      (if LOOKUP_CHANNEL = k then (lookupAsked es).length else 0) →
      ∀ {d : DhtSystem.State}, owed k d + (if LOOKUP_CHANNEL = k then (lookupHeard [e]).length else 0) ≤
        owed k s1.dht + (if LOOKUP_CHANNEL = k then (lookupAsked [e]).length else 0) →
      owed k d + (if LOOKUP_CHANNEL = k then (lookupHeard (es ++ [e])).length else 0) ≤
        if LOOKUP_CHANNEL = k then (lookupAsked (es ++ [e])).length else 0 := by
    intro s1 es e h1 d h2
    simp only [lookupHeard, lookupAsked, List.filterMap_append, List.length_append] at *
    by_cases hk : LOOKUP_CHANNEL = k
    · simp only [hk, if_true] at *; omega
    · simp only [hk, if_false] at *; omega
  induction h with
  | nil =>
    have : owed k s0.nodes = 0 := by rw [h0.nodes]; simp [owed, DhtSystem.State.start, Con.start]
    have h1 : owed k s0.dht = 0 := this
    simp [h1, lookupHeard, lookupAsked]
  | @snoc s1 s2 es e hr hs ih =>
    obtain ⟨l, hl, _⟩ := started_dht h0 hr
    have hown := sends_own hk ht .nil hl
    refine same (e := e) ih ?_
    cases hs.2 with
    | @dht x d h1 h2 =>
      have := owed_step hk hown h2
      have hput := h1.put
      have hheard := h1.heard
      rw [hheard] at this
      have hp : (match x.put with | some (Source.other, c) => if isAsked k c then 1 else 0 | _ => 0) = 0 := by
        split
        · next c hc => exact absurd hc (hput c)
        · rfl
      rw [hp] at this
      have h3 : owed k d ≤ owed k s1.dht := this
      simp only [lookupHeard, lookupAsked, List.filterMap_cons, List.filterMap_nil, List.length_nil, ite_self]
      exact h3
    | node _ h | nodesGone _ h | tableNotices _ h | lookup _ h =>
      have h3 : _ ≤ owed k s1.dht := owed_step hk hown h
      simp only [lookupHeard, lookupAsked, List.filterMap_cons, List.filterMap_nil, List.length_nil, ite_self]
      exact h3
    | asks _ _ _ h =>
      have h3 := owed_step hk hown h
      simp only [isAsked, beq_iff_eq] at h3
      simp only [lookupHeard, lookupAsked, List.filterMap_cons, List.filterMap_nil, List.length_nil, List.length_cons,
        ite_self]
      exact h3
    | hears _ _ _ h =>
      have h3 := owed_step hk hown h
      simp only [lookupHeard, lookupAsked, List.filterMap_cons, List.filterMap_nil, List.length_nil, List.length_cons,
        ite_self]
      exact h3
    | _ =>
      simp only [lookupHeard, lookupAsked, List.filterMap_cons, List.filterMap_nil, List.length_nil, ite_self]
      exact Nat.le_refl _

/-- C124, the part that holds: as long as the lookup has not asked 65 queries more than it has heard answers, and unless the
socket task waits for the table task (256 queries of others, 1024 answers), everything that waits in the DHT is done without
the lookup: it may pause, and all the same the socket task comes back to the socket with nothing left over. -/
theorem C124_room_partial (w : World) (u : Setup) (s0 s : State) (es : List Event) (ht : Reachable u.table)
    (h0 : Started w u s0) (h : Run w s0 es s) (hx : .exits ∉ es) (halive : s.dht.conAlive = true)
    (hrun : s.dht.man.status = .running) (hasked : (lookupAsked es).length ≤ (lookupHeard es).length + 64)
    (hq : ∀ q rest, s.dht.conTodo = .toManager q :: rest → s.dht.queries.length < 256)
    (han : ∀ r rest, s.dht.conTodo = .toRequester OWN_CHANNEL r :: rest → (s.dht.answers OWN_CHANNEL).length < 1024) :
    ∃ es' s', Run w s es' s' ∧ Spec.Quiet s'.dht ∧ s'.dht.conAlive = true ∧ s'.dht.man.status = .running ∧
      ∀ e ∈ es', (∃ x, e = .dht x ∧ isInternal x = true) ∨ ∃ ns now, e = .lookup ns now := by
  obtain ⟨l, hl, _⟩ := started_dht h0 h
  obtain ⟨l', d, r1, i1, q1, al1, run1⟩ := C92_drain_partial ht .nil hl halive hrun hq (fun c r rest hc => by
    by_cases hco : c = OWN_CHANNEL
    · subst hco; rw [if_pos rfl]; exact han r rest hc
    · have h1 := owed_run ht h0 h hco
      have h2 : s.dht.conTodo.countP (isAnswer c) = rest.countP (isAnswer c) + 1 := by
        rw [show s.dht.conTodo = _ from hc]; simp [List.countP_cons, isAnswer]
      simp only [owed, h2] at h1
      rw [if_neg hco]
      show (s.dht.answers c).length < 64
      split at h1 <;> omega)
  obtain ⟨es1, s1, k1, k2, k3, _, _, k4⟩ := lift_dht ht h0 h (not_done h0 h hx) r1
    (fun e he => .inl (internal_alone (i1 e he)))
  refine ⟨es1, s1, k1, ?_, ?_, ?_, fun e he => ?_⟩
  · have : Spec.Quiet s1.nodes := by rw [k3]; exact q1
    exact ⟨this.conTodo, this.manTodo, this.commands, this.queries, this.answers⟩
  · show s1.nodes.conAlive = _; rw [k3]; exact al1
  · show s1.nodes.man.status = _; rw [k3]; exact run1
  · exact (k4 e he).imp (fun ⟨x, hx, h⟩ => ⟨x, h, i1 x hx⟩) id

/-! ## The queue of a lookup that sleeps is filled -/

/-- The lookup sleeps, and the socket task waits for room in its queue. -/
structure Halted (s : State) (l : Lookup) (since : Nat) : Prop where
  alive : s.dht.conAlive = true
  waits : ∃ r rest, s.dht.conTodo = .toRequester LOOKUP_CHANNEL r :: rest
  full : 64 ≤ (s.dht.answers LOOKUP_CHANNEL).length
  lookup : s.lookup = some l
  looks : l.alive = true
  todo : l.todo = []
  sleeps : l.task.phase = .sleeping since

theorem halted_dht {env : Env} {pause : Nat → Nat} {a b : DhtSystem.State} {x : DhtSystem.Entry}
    (h : DhtSystem.Step env pause a x b) (hput : ∀ c, x.put ≠ some (.other, c)) (hheard : x.heard = none)
    (alive : a.conAlive = true) (waits : ∃ r rest, a.conTodo = .toRequester LOOKUP_CHANNEL r :: rest)
    (full : 64 ≤ (a.answers LOOKUP_CHANNEL).length) :
    b.conAlive = true ∧ b.conTodo = a.conTodo ∧ b.answers LOOKUP_CHANNEL = a.answers LOOKUP_CHANNEL ∧
      arrivals [x] = [] ∧ sent [x] = [] := by
  obtain ⟨r, rest, hw⟩ := waits
  cases h with
  | datagram _ h => rw [hw] at h; cases h
  | panics _ h => rw [hw] at h; cases h
  | command _ h => rw [hw] at h; cases h
  | sends _ h => rw [hw] at h; cases h
  | putQuery _ h => rw [hw] at h; cases h
  | @putAnswer c _ _ _ h _ hc =>
    rw [hw] at h; cases h
    exact absurd full (Nat.not_le.mpr hc)
  | noListener _ h h1 =>
    rw [hw] at h; cases h
    rcases h1 with ⟨_, h1⟩ | ⟨_, h1⟩ <;> cases h1
  | ask => exact absurd rfl (hput _)
  | hear => cases hheard
  | takeAnswer => exact ⟨alive, rfl, rfl, rfl, rfl⟩
  | _ => exact ⟨alive, rfl, rfl, rfl, rfl⟩

theorem halted_step {l : Lookup} {since : Nat} (hs : Step w s e s') (hh : Halted s l since)
    (ht : l.task.now < since + w.lookupPause l.task.rounds) :
    ∃ l', Halted s' l' since ∧ l'.task.now = l.task.now + lookTime [e] ∧ l'.task.rounds = l.task.rounds ∧
      arrivals (dhtEvents [e]) = [] ∧ sent (dhtEvents [e]) = [] := by
  obtain ⟨h1, h2, h3, h4, h5, h6, h7⟩ := hh
  have dht : ∀ {x : DhtSystem.Entry} {d : DhtSystem.State}, DhtSystem.Step w.env w.refreshPause s.nodes x d →
      (∀ c, x.put ≠ some (.other, c)) → x.heard = none → s'.dht = d → s'.lookup = s.lookup → dhtEvents [e] = [x] →
      lookTime [e] = 0 → ∃ l', Halted s' l' since ∧ l'.task.now = l.task.now + lookTime [e] ∧
        l'.task.rounds = l.task.rounds ∧ arrivals (dhtEvents [e]) = [] ∧ sent (dhtEvents [e]) = [] := by
    intro x d hx hput hheard e1 e2 e3 e4
    obtain ⟨k1, k2, k3, k4, k5⟩ := halted_dht hx hput hheard h1 h2 h3
    refine ⟨l, ⟨by rw [e1]; exact k1, by rw [e1, k2]; exact h2, by rw [e1, k3]; exact h3, by rw [e2]; exact h4, h5, h6, h7⟩,
      by rw [e4]; rfl, rfl, by rw [e3]; exact k4, by rw [e3]; exact k5⟩
  have same : s'.dht = s.dht → s'.lookup = s.lookup → dhtEvents [e] = [] → lookTime [e] = 0 →
      ∃ l', Halted s' l' since ∧ l'.task.now = l.task.now + lookTime [e] ∧
        l'.task.rounds = l.task.rounds ∧ arrivals (dhtEvents [e]) = [] ∧ sent (dhtEvents [e]) = [] := by
    intro e1 e2 e3 e4
    exact ⟨l, ⟨by rw [e1]; exact h1, by rw [e1]; exact h2, by rw [e1]; exact h3, by rw [e2]; exact h4, h5, h6, h7⟩,
      by rw [e4]; rfl, rfl, by rw [e3]; rfl, by rw [e3]; rfl⟩
  cases hs.2 with
  | dht ho h => exact dht h ho.put ho.heard rfl rfl rfl rfl
  | node _ h => exact dht h (by simp) rfl rfl rfl rfl rfl
  | nodesGone _ h => exact dht h (by simp) rfl rfl rfl rfl rfl
  | tableNotices _ h => exact dht h (by simp) rfl rfl rfl rfl rfl
  | lookup h => rw [h4] at h; cases h
  | look k1 _ _ k4 k5 =>
    rw [h4] at k1; cases k1
    cases k5 with
    | tick j1 j2 =>
      have : (s.looking l).phase = l.task.phase := rfl
      rw [this, h7] at j1
      cases j1
      exact absurd j2 (Nat.not_le.mpr ht)
    | timeout j1 =>
      have : (s.looking l).phase = l.task.phase := rfl
      rw [this, h7] at j1; cases j1
    | _ => exact absurd k4 id
  | lookIdle k1 k4 k5 =>
    rw [h4] at k1; cases k1
    cases k5 with
    | pass => exact ⟨_, ⟨h1, h2, h3, rfl, h5, h6, h7⟩, by simp [lookTime, State.looking], rfl, rfl, rfl⟩
    | reorder => exact ⟨_, ⟨h1, h2, h3, rfl, h5, h6, h7⟩, by simp [lookTime, State.looking], rfl, rfl, rfl⟩
    | _ => exact absurd k4 id
  | asks k1 _ k3 => rw [h4] at k1; cases k1; rw [h6] at k3; cases k3
  | asksNobody k1 _ k3 => rw [h4] at k1; cases k1; rw [h6] at k3; cases k3
  | hears k1 _ _ _ k5 =>
    rw [h4] at k1; cases k1
    cases k5 with
    | answer j1 =>
      have : (s.looking l).phase = l.task.phase := rfl
      rw [this, h7] at j1; cases j1
  | _ => exact same rfl rfl rfl rfl

theorem lookTime_snoc : lookTime (es ++ [e]) = lookTime es + lookTime [e] := by simp [lookTime]

theorem halted_run {l : Lookup} {since : Nat} (hr : Run w s es s') (hh : Halted s l since)
    (ht : l.task.now + lookTime es < since + w.lookupPause l.task.rounds) :
    (∃ l', Halted s' l' since ∧ l'.task.now = l.task.now + lookTime es ∧ l'.task.rounds = l.task.rounds) ∧
      arrivals (dhtEvents es) = [] ∧ sent (dhtEvents es) = [] := by
  induction hr with
  | nil => exact ⟨⟨l, hh, rfl, rfl⟩, rfl, rfl⟩
  | @snoc s1 s2 es e hr hs ih =>
    rw [lookTime_snoc] at ht
    obtain ⟨⟨l1, k1, k2, k3⟩, k4, k5⟩ := ih (by omega)
    obtain ⟨l2, j1, j2, j3, j4, j5⟩ := halted_step hs k1 (by rw [k3]; omega)
    refine ⟨⟨l2, j1, by rw [lookTime_snoc]; omega, j3.trans k3⟩, ?_, ?_⟩
    · rw [dhtEvents_snoc, arrivals_append, k4, j4]; rfl
    · rw [dhtEvents_snoc, sent, List.filterMap_append]
      exact List.append_eq_nil_iff.mpr ⟨k5, j5⟩

/-- What an answer to a query for peers does to an idle connection. -/
theorem recv_peers {env : Env} (hint : ∀ n : Nat, n < 2 ^ 32 → env.lib.intOk n = true) {own secret : ID} {c : Con}
    (hi : Inv own secret c) (x : PeersAnswer) {k : Nat} (hl : c.listening (some k) = true)
    (hg : c.pending.get? x.tid = some (.getPeers, k)) (hs : Sendable env.lib.utf8 x.message)
    (hb : x.message.intoBytes.length ≤ 2 * 1300) :
    ∃ hd c' r, Con.Step env c ⟨.datagram (some x.sender) x.message.intoBytes, hd, [.toRequester k r]⟩ c' ∧
      c'.pending = c.pending.erase x.tid := by
  have hdec : Message.fromBytes env.lib (bufAfter c x.message.intoBytes) = .ok (received x.message) := by
    obtain ⟨tail, hb⟩ := bufAfter_prefix (s := c) (v := x.message.val) (rest := []) hi.buf hb
    rw [List.append_nil] at hb
    rw [Krpc.Message.intoBytes, hb]
    exact C71_round_trip_partial env.lib hint x.message hs tail
  have hrec : ∃ vn, c.receive env (some x.sender) x.message.intoBytes =
      .ok ({ c with buf := bufAfter c x.message.intoBytes, pending := c.pending.erase x.tid },
        [.toRequester k (.getPeers x.sender x.token vn)]) := by
    have hm : ∃ vn y, received x.message = .response x.tid y (.getPeers x.id x.token vn) := by
      obtain ⟨a, id, token, found, tid⟩ := x
      cases found <;> exact ⟨_, _, rfl⟩
    obtain ⟨vn, y, hm⟩ := hm
    refine ⟨vn, ?_⟩
    simp only [Con.receive, Con.handleReceived]
    change (match Message.fromBytes env.lib (bufAfter c x.message.intoBytes) with
      | .panic => _
      | .err => _
      | .ok (.query tid _ _ arguments) => _
      | .ok (.response tid _ response) => _
      | .ok (.error _ _ _) => _) = _
    rw [hdec, hm]
    simp only [Con.handleResp, Pending.get, hg, RequestType.ofResponse, if_true, Con.into, hl]
    rfl
  obtain ⟨vn, hrec⟩ := hrec
  exact ⟨_, _, _, .datagram hrec, rfl⟩

/-- The answers go into the queue of the lookup, until the one that does not. -/
theorem fill_lookup {env : Env} {pause : Nat → Nat} {infoHash secret : ID} {table : RoutingTable} {peers : Peers} {now : Nat}
    (hint : ∀ n : Nat, n < 2 ^ 32 → env.lib.intOk n = true) (late : List PeersAnswer) :
    ∀ {h : List DhtSystem.Entry} {d : DhtSystem.State},
    DhtSystem.Run env pause (DhtSystem.State.start infoHash secret table peers now) h d → d.conAlive = true → d.conTodo = [] →
    late ≠ [] → (d.answers LOOKUP_CHANNEL).length + late.length = 65 → (late.map (·.tid)).Nodup →
    (∀ x ∈ late, d.con.pending.get? x.tid = some (.getPeers, LOOKUP_CHANNEL) ∧ Sendable env.lib.utf8 x.message ∧
      x.message.intoBytes.length ≤ 2 * 1300) →
    ∃ h' d', DhtSystem.Run env pause d h' d' ∧ arrivals h' = late.map (fun x => (some x.sender, x.message.intoBytes)) ∧
      (∀ e ∈ h', Alone e ∧ e.spawned = none) ∧ d'.conAlive = true ∧
      (∃ r rest, d'.conTodo = .toRequester LOOKUP_CHANNEL r :: rest) ∧ 64 ≤ (d'.answers LOOKUP_CHANNEL).length ∧
      d'.man = d.man ∧ d'.manTodo = d.manTodo := by
  induction late with
  | nil => intro _ _ _ _ _ h; exact absurd rfl h
  | cons x late ih =>
    intro h d hr ha hc _ hn hd hx
    obtain ⟨g1, g2, g3⟩ := hx x (by simp)
    have hf := Flow.run hr
    obtain ⟨hd', c', r, hs1, hp⟩ := recv_peers hint ((Inv.start _ _).run hf.con) x (hf.listening _) g1 g2 g3
    have r1 := (DhtSystem.Run.nil (env := env) (pause := pause) (s := d)).snoc (.datagram ha hc hs1)
    rcases late with _ | ⟨y, late⟩
    · refine ⟨_, _, r1, rfl, by simpa using alone_con, ha, ⟨r, [], rfl⟩, ?_, rfl, rfl⟩
      show 64 ≤ (d.answers LOOKUP_CHANNEL).length
      simp only [List.length_cons, List.length_nil] at hn; omega
    · have hroom : (d.answers LOOKUP_CHANNEL).length < answersCap LOOKUP_CHANNEL := by
        show _ < 64
        simp only [List.length_cons] at hn; omega
      have r2 := r1.snoc (.putAnswer ha rfl (by intro h; cases h) hroom)
      obtain ⟨h3, d3, q1, q2, q3, q4⟩ := ih (system_append hr r2) ha rfl (by simp)
        (by simp only [if_true, List.length_append, List.length_cons, List.length_nil] at hn ⊢; omega)
        (List.nodup_cons.mp hd).2 (fun z hz => by
          obtain ⟨k1, k2⟩ := hx z (List.mem_cons_of_mem _ hz)
          refine ⟨?_, k2⟩
          show c'.pending.get? z.tid = _
          rw [hp, Map.get?_erase, if_neg]
          · exact k1
          · intro he
            exact (List.nodup_cons.mp hd).1 (by
              show x.tid ∈ _
              rw [← he]; exact List.mem_map_of_mem hz))
      refine ⟨_, d3, system_append r2 q1, ?_, ?_, q4⟩
      · rw [arrivals_append, q2]; rfl
      · intro e he
        rcases List.mem_append.mp he with he | he
        · simp only [List.nil_append, List.cons_append, List.mem_cons, List.not_mem_nil, or_false] at he
          rcases he with rfl | rfl <;> exact ⟨alone_con, rfl⟩
        · exact q3 e he

/-- The state that late answers bring about. -/
theorem late_halts (ht : Reachable u.table)
    (hint : ∀ n : Nat, n < 2 ^ 32 → w.env.lib.intOk n = true) (h0 : Started w u s0) (h : Run w s0 es s) (hx : .exits ∉ es)
    (halive : s.dht.conAlive = true) (hcon : s.dht.conTodo = []) (l : Lookup) (since : Nat) (hl : s.lookup = some l)
    (hla : l.alive = true) (hlt : l.todo = []) (hsl : l.task.phase = .sleeping since) (late : List PeersAnswer)
    (hne : late ≠ []) (hn : (s.dht.answers LOOKUP_CHANNEL).length + late.length = 2 ^ 6 + 1) (hd : (late.map (·.tid)).Nodup)
    (hlate : ∀ x ∈ late, Outstanding (conHistory (dhtEvents es)) x.tid .getPeers LOOKUP_CHANNEL ∧
      Sendable w.env.lib.utf8 x.message ∧ x.message.intoBytes.length ≤ 2 * 1300) :
    ∃ es1 s1, Run w s es1 s1 ∧ (∀ e ∈ es1, ∃ y, e = .dht y) ∧
      arrivals (dhtEvents es1) = late.map (fun x => (some x.sender, x.message.intoBytes)) ∧ Halted s1 l since ∧
      s1.dht.man.status = s.dht.man.status ∧ s1.dht.manTodo = s.dht.manTodo ∧ s1.swarm = s.swarm := by
  obtain ⟨k, hk, hf⟩ := started_dht h0 h
  have hcon' : conHistory k = conHistory (dhtEvents es) := by
    have := filterMap_run hk (·.con) (fun o => rfl) (l1 := k) (l2 := []) (by simp)
    rw [hf] at this
    exact this
  have hflow := Flow.run hk
  obtain ⟨l1, d1, r1, a1, o1, k1, k2, k3, k5, k6⟩ := fill_lookup hint late hk halive hcon hne hn hd (fun x hx => by
    obtain ⟨j1, j2⟩ := hlate x hx
    exact ⟨(pending_outstanding hflow.con _ _ _).mpr (by rw [hcon']; exact j1), j2⟩)
  have lift : ∀ {l1 : List DhtSystem.Entry} {d1 : DhtSystem.State}, DhtSystem.Run w.env w.refreshPause s.nodes l1 d1 →
      (∀ e ∈ l1, Alone e ∧ e.spawned = none) → ∃ es1 s1, Run w s es1 s1 ∧ s1.nodes = d1 ∧ dhtEvents es1 = l1 ∧
        (∀ e ∈ es1, ∃ y, e = .dht y) ∧ s1.down = s.down ∧ s1.lookup = s.lookup ∧ s1.swarm = s.swarm := by
    intro l1 d1 hr ha
    generalize hn : s.nodes = n at hr
    induction hr with
    | nil => exact ⟨[], s, .nil, hn, rfl, by simp, rfl, rfl, rfl⟩
    | @snoc d2 d3 l2 x hr hs ih =>
      obtain ⟨es2, s2, j1, j2, j3, j4, j5, j6, j7⟩ := ih (fun e he => ha e (List.mem_append_left _ he))
      obtain ⟨g1, g2⟩ := ha x (by simp)
      subst j2
      have own : OwnDht x := by
        refine ⟨fun m hm => ?_, g1.put, g1.heard, g2⟩
        rcases g1.man m hm with ⟨q, h⟩ | ⟨q, h⟩ <;> rw [h] <;> trivial
      refine ⟨es2 ++ [.dht x], { s2 with dht := d3, peers := d3.man.peers },
        j1.snoc ⟨by rw [j5]; exact not_done h0 h hx, .dht own hs⟩, rfl, ?_, ?_, j5, j6, j7⟩
      · rw [dhtEvents_snoc, j3]; rfl
      · intro e he
        rcases List.mem_append.mp he with he | he
        · exact j4 e he
        · exact ⟨x, by simpa using he⟩
  obtain ⟨es1, s1, j1, j2, j3, j4, _, j6, j7⟩ := lift r1 o1
  have hh : Halted s1 l since := by
    refine ⟨?_, ?_, ?_, j6.trans hl, hla, hlt, hsl⟩
    · show s1.nodes.conAlive = _; rw [j2]; exact k1
    · obtain ⟨r, rest, k2⟩ := k2
      exact ⟨r, rest, by show s1.nodes.conTodo = _; rw [j2]; exact k2⟩
    · show 64 ≤ (s1.nodes.answers _).length; rw [j2]; exact k3
  exact ⟨es1, s1, j1, j4, by rw [j3]; exact a1, hh, by rw [show s1.dht.man.status = s1.nodes.man.status from rfl, j2, k5]; rfl,
    by rw [show s1.dht.manTodo = s1.nodes.manTodo from rfl, j2, k6]; rfl, j7⟩

/-- C124 is violated: whenever the lookup sleeps between two rounds, the socket task is at the beginning of its loop, and
more queries of the lookup are still unanswered than its queue of 64 has room for, answers to them that come now, late, bring
the DHT to a halt: until the pause of the lookup is over, whatever happens, nothing is taken from the socket and nothing
is sent. -/
theorem C124_stalls_violated (w : World) (u : Setup) (s0 s : State) (es : List Event) (ht : Reachable u.table)
    (hint : ∀ n : Nat, n < 2 ^ 32 → w.env.lib.intOk n = true) (h0 : Started w u s0) (h : Run w s0 es s) (hx : .exits ∉ es)
    (halive : s.dht.conAlive = true) (hcon : s.dht.conTodo = []) (l : Lookup) (since : Nat) (hl : s.lookup = some l)
    (hla : l.alive = true) (hlt : l.todo = []) (hsl : l.task.phase = .sleeping since) (late : List PeersAnswer)
    (hne : late ≠ []) (hn : (s.dht.answers LOOKUP_CHANNEL).length + late.length = 2 ^ 6 + 1) (hd : (late.map (·.tid)).Nodup)
    (hlate : ∀ x ∈ late, Outstanding (conHistory (dhtEvents es)) x.tid .getPeers LOOKUP_CHANNEL ∧
      Sendable w.env.lib.utf8 x.message ∧ x.message.intoBytes.length ≤ 2 * 1300) :
    ∃ es1 s1, Run w s es1 s1 ∧ (∀ e ∈ es1, ∃ y, e = .dht y) ∧
      arrivals (dhtEvents es1) = late.map (fun x => (some x.sender, x.message.intoBytes)) ∧
      ∀ es2 s2, Run w s1 es2 s2 → l.task.now + lookTime es2 < since + w.lookupPause l.task.rounds →
        arrivals (dhtEvents es2) = [] ∧ sent (dhtEvents es2) = [] := by
  obtain ⟨es1, s1, j1, j2, j3, hh, _⟩ := late_halts ht hint h0 h hx halive hcon l since hl hla hlt hsl late hne hn hd hlate
  exact ⟨es1, s1, j1, j2, j3, fun es2 s2 r2 hlt => (halted_run r2 hh hlt).2⟩

/-! ## The hypotheses can be met -/

/-- Two minutes between two rounds of the lookup. -/
def slowWorld : World := { demoWorld with lookupPause := fun k => if k = 0 then 0 else 120000 }

/-- The one node of the table answers the ping; a lookup is started. -/
def joinsNode : List Act := [.putCommand, .command (tidOf 1#8), .sends,
  .datagram (some (exAddr 1)) (Krpc.Message.response (tidOf 1#8) typeR (.ping (exId 7#8))).intoBytes, .putAnswer, .takeAnswer,
  .spawns 0]

/-- A round of the lookup in which the node is asked and does not answer in time. -/
def unansweredRound (k : Nat) : List Act := [.lookPass 120000, .tick, .asks, .command (tidOf (BitVec.ofNat 8 (k + 2))), .sends,
  .lookPass 3000, .timeout]

/-- The answer to the query of a round. -/
def lateAnswer (k : Nat) : PeersAnswer := ⟨exAddr 1, exId 7#8, ascii "tok", .values [peerA], tidOf (BitVec.ofNat 8 (k + 2))⟩

/-- The answers to the queries of all rounds. -/
def lateAnswers : List PeersAnswer := (List.range 65).map lateAnswer

/-- It is not the end of the program. -/
def goesOn : Event → Bool
  | .exits => false
  | _ => true

/-- After 65 rounds in which the only node known did not answer in time, its answers can stop the DHT for the two minutes of
the pause. -/
example : ∃ u s0 s es l since, Started slowWorld u s0 ∧ Run slowWorld s0 es s ∧ s.lookup = some l ∧
    l.task.phase = .sleeping since ∧ l.task.now = since ∧ ∃ es1 s1, Run slowWorld s es1 s1 ∧ (arrivals (dhtEvents es1)).length = 65 ∧
      ∀ es2 s2, Run slowWorld s1 es2 s2 → lookTime es2 < 120000 → arrivals (dhtEvents es2) = [] ∧ sent (dhtEvents es2) = [] := by
  have : play slowWorld { demoSetup with table := oneNode } (joinsNode ++ (List.range 65).flatMap unansweredRound) (fun es s =>
      es.all goesOn && s.dht.conAlive && s.dht.conTodo.isEmpty && (s.dht.answers LOOKUP_CHANNEL).isEmpty &&
      (match s.lookup with
        | some l => l.alive && l.todo.isEmpty && decide (l.task.phase = .sleeping l.task.now) && decide (l.task.rounds = 65)
        | none => false) &&
      lateAnswers.all (fun x => decide (s.dht.con.pending.get? x.tid = some (.getPeers, LOOKUP_CHANNEL)) &&
        decide (x.message.intoBytes.length ≤ 2 * 1300))) = some true := by decide +kernel
  obtain ⟨s0, es, s, h0, h, hf⟩ := play_sound this
  simp only [Bool.and_eq_true, List.isEmpty_iff, List.all_eq_true] at hf
  obtain ⟨⟨⟨⟨⟨f1, f2⟩, f3⟩, f4⟩, f5⟩, f6⟩ := hf
  split at f5
  · next l hl =>
    simp only [Bool.and_eq_true, List.isEmpty_iff, decide_eq_true_eq] at f5
    obtain ⟨⟨⟨g1, g2⟩, g3⟩, g4⟩ := f5
    obtain ⟨k, hk, hd⟩ := started_dht h0 h
    have hcon : conHistory k = conHistory (dhtEvents es) := by
      have := filterMap_run hk (·.con) (fun o => rfl) (l1 := k) (l2 := []) (by simp)
      rw [hd] at this
      exact this
    obtain ⟨es1, s1, r1, _, a1, hall⟩ := C124_stalls_violated slowWorld _ s0 s es oneNode_reachable (fun _ _ => rfl) h0 h
      (fun hm => by cases f1 _ hm) f2 f3 l l.task.now hl g1 g2 g3 lateAnswers (by decide) (by rw [f4]; rfl) (by decide +kernel)
      (fun x hx => by
        have := f6 x hx
        simp only [decide_eq_true_eq] at this
        refine ⟨?_, ?_, this.2⟩
        · rw [← hcon]; exact (pending_outstanding (Flow.run hk).con _ _ _).mp this.1
        · obtain ⟨i, _, rfl⟩ := List.mem_map.mp hx
          exact ⟨by show 5 < _; decide, by decide, by show (ascii "tok").length < 2 ^ 64; decide⟩)
    refine ⟨_, s0, s, es, l, _, h0, h, hl, g3, rfl, es1, s1, r1, by rw [a1]; rfl, fun es2 s2 r2 ht => hall es2 s2 r2 ?_⟩
    rw [g4]
    exact Nat.add_lt_add_left ht _
  · cases f5

/-- The hypotheses of `C124_room_partial` are met in a state in which the answer for the lookup is on its way. -/
example : ∃ u s0 s es, Started slowWorld u s0 ∧ Run slowWorld s0 es s ∧ s.dht.conTodo.length = 1 ∧ (lookupAsked es).length = 1 ∧
    ∃ es' s', Run slowWorld s es' s' ∧ s'.dht.conTodo = [] := by
  have : play slowWorld { demoSetup with table := oneNode } (joinsNode ++ unansweredRound 0 ++
      [.datagram (some (exAddr 1)) (lateAnswer 0).message.intoBytes]) (fun es s =>
      es.all goesOn && s.dht.conAlive && decide (s.dht.man.status = .running) && decide ((lookupAsked es).length = 1) &&
      (match s.dht.conTodo with | [.toRequester c _] => c == LOOKUP_CHANNEL | _ => false)) = some true := by decide +kernel
  obtain ⟨s0, es, s, h0, h, hf⟩ := play_sound this
  simp only [Bool.and_eq_true, List.all_eq_true, decide_eq_true_eq] at hf
  obtain ⟨⟨⟨⟨f1, f2⟩, f3⟩, f4⟩, f5⟩ := hf
  split at f5
  · next c r hc =>
    have hcl : c = LOOKUP_CHANNEL := by simpa using f5
    subst hcl
    obtain ⟨es', s', r1, q1, _⟩ := C124_room_partial slowWorld _ s0 s es oneNode_reachable h0 h (fun hm => by cases f1 _ hm) f2 f3
      (by omega) (fun q rest hq => by rw [hc] at hq; cases hq) (fun q rest hq => by rw [hc] at hq; cases hq)
    exact ⟨_, s0, s, es, h0, h, by rw [hc]; rfl, f4, es', s', r1, q1.conTodo⟩
  · cases f5

end Nargun.Program
