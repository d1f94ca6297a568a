import Verif.Props.ProgramPause
import Verif.Spec.Jam

/-! # When the tasks of the DHT wait for each other for ever: C92 and C120 exactly -/

set_option linter.unusedSimpArgs false

namespace Nargun.Program

open Nargun Dht Krpc Spec DhtManager DhtSystem

variable {w : World} {u : Setup} {s0 s s' : State} {e : Event} {es : List Event}

/-! ## Waiting tasks wait on -/

section
variable {env : Env} {pause : Nat → Nat} {a b : DhtSystem.State} {x : DhtSystem.Entry}

/-- A table task that has more to hand over than there is room for comes to no end while the socket task waits. -/
theorem owes_step (h : DhtSystem.Step env pause a x b) (hc : a.conTodo ≠ []) (ha : a.conAlive = true)
    (hr : a.man.status = .running) (ho : 1024 - a.commands.length < (sends a.manTodo).length) :
    b.man.status = .running ∧ 1024 - b.commands.length < (sends b.manTodo).length ∧ x.stored = none ∧ turns [x] = [] := by
  have hm : a.manTodo ≠ [] := by intro h; rw [h] at ho; simp [sends] at ho
  cases h with
  | datagram _ h => exact absurd h hc
  | panics _ h => exact absurd h hc
  | command _ h => exact absurd h hc
  | direct h => exact absurd h hm
  | takeQuery h => exact absurd h hm
  | takeAnswer h => exact absurd h hm
  | conGone h => exact absurd h hm
  | outside ho' h =>
    cases h with
    | others h => exact ⟨hr, ho, rfl, rfl⟩
    | pass => exact ⟨hr, ho, rfl, rfl⟩
    | reorder h => exact ⟨hr, ho, rfl, rfl⟩
    | _ => exact absurd ho' id
  | putCommand _ h _ hl =>
    refine ⟨hr, ?_, rfl, rfl⟩
    have hl : a.commands.length < 1024 := hl
    rw [h] at ho
    simp only [sends, List.filterMap_cons, List.length_cons, List.length_append, List.length_nil] at ho ⊢
    omega
  | putFails _ h => rw [ha] at h; cases h
  | spawns _ h =>
    refine ⟨hr, ?_, rfl, rfl⟩
    rw [h] at ho
    simpa [sends] using ho
  | stores h => rw [hr] at h; cases h
  | ask _ _ hl =>
    refine ⟨hr, ?_, rfl, rfl⟩
    have hl : a.commands.length < 1024 := hl
    simp only [List.length_append, List.length_cons, List.length_nil]
    omega
  | _ => exact ⟨hr, ho, rfl, rfl⟩

/-- The socket task waits for the table task. -/
def WaitsForTable (d : DhtSystem.State) : Prop :=
  (∃ q rest, d.conTodo = .toManager q :: rest ∧ 256 ≤ d.queries.length) ∨
    ∃ r rest, d.conTodo = .toRequester OWN_CHANNEL r :: rest ∧ 1024 ≤ (d.answers OWN_CHANNEL).length

theorem WaitsForTable.todo (h : WaitsForTable a) : a.conTodo ≠ [] := by
  rcases h with ⟨_, _, h, _⟩ | ⟨_, _, h, _⟩ <;> rw [h] <;> simp

/-- A socket task that waits for a table task that does not look at its queues waits on. -/
theorem waits_step (h : DhtSystem.Step env pause a x b) (hw : WaitsForTable a) (ha : a.conAlive = true)
    (hr : a.man.status = .running) (hm : a.manTodo ≠ []) :
    WaitsForTable b ∧ b.conAlive = true ∧ arrivals [x] = [] ∧ sent [x] = [] := by
  have hc := hw.todo
  cases h with
  | datagram _ h => exact absurd h hc
  | panics _ h => exact absurd h hc
  | command _ h => exact absurd h hc
  | sends _ h => rcases hw with ⟨_, _, hw, _⟩ | ⟨_, _, hw, _⟩ <;> rw [h] at hw <;> cases hw
  | putQuery _ h _ hl =>
    rcases hw with ⟨_, _, hw, hq⟩ | ⟨_, _, hw, _⟩ <;> rw [h] at hw <;> cases hw
    exact absurd hl (Nat.not_lt.mpr hq)
  | putAnswer _ h _ hl =>
    rcases hw with ⟨_, _, hw, _⟩ | ⟨_, _, hw, hq⟩ <;> rw [h] at hw <;> cases hw
    exact absurd hl (Nat.not_lt.mpr hq)
  | noListener _ _ _ h => exact absurd (.inl hr) h
  | direct h => exact absurd h hm
  | takeQuery h => exact absurd h hm
  | takeAnswer h => exact absurd h hm
  | conGone h => exact absurd h hm
  | @hear c r rest hco h =>
    refine ⟨?_, ha, rfl, rfl⟩
    rcases hw with hw | ⟨r', rest', hw, hq⟩
    · exact .inl hw
    · refine .inr ⟨r', rest', hw, ?_⟩
      have : ¬ OWN_CHANNEL = c := fun h => hco h.symm
      simpa [this] using hq
  | _ => exact ⟨hw, ha, rfl, rfl⟩

/-- The queue of commands only gets longer while the socket task waits. -/
theorem commands_step (h : DhtSystem.Step env pause a x b) (hc : a.conTodo ≠ []) :
    1024 - b.commands.length ≤ 1024 - a.commands.length ∧
      ∀ c, x.put = some (.other, c) → 1024 - b.commands.length + 1 = 1024 - a.commands.length := by
  cases h with
  | command _ h => exact absurd h hc
  | putCommand => exact ⟨by simp; omega, by simp⟩
  | ask _ _ hl =>
    have hl : a.commands.length < 1024 := hl
    exact ⟨by simp; omega, fun _ _ => by simp; omega⟩
  | _ => exact ⟨Nat.le_refl _, by simp⟩

end

/-! ## A jam lasts for ever -/

theorem jam_step (hs : Step w s e s') (hj : TableJam s ∨ LookupJam s) :
    ((TableJam s → TableJam s') ∧ (LookupJam s → LookupJam s')) ∧
      (s.dht.man.status = .running → freeCommands s < tableOwes s → s'.dht.man.status = .running ∧
        freeCommands s' < tableOwes s' ∧ storedTables (dhtEvents [e]) = [] ∧ turns (dhtEvents [e]) = []) ∧
      arrivals (dhtEvents [e]) = [] ∧ sent (dhtEvents [e]) = [] := by
  have hcon : s.dht.conAlive = true := hj.elim (·.1) (·.1)
  have htodo : s.dht.conTodo ≠ [] := by
    rcases hj with ⟨_, _, _, h⟩ | ⟨_, _, _, _, h, _⟩
    · exact WaitsForTable.todo (a := s.dht) h
    · rw [h]; simp
  -- a step of the DHT, after which the lookup may have less to do
  have dht : ∀ {x : DhtSystem.Entry} {d : DhtSystem.State}, DhtSystem.Step w.env w.refreshPause s.nodes x d →
      x.heard = none → s'.dht = d → (LookupJam s → lookupOwes s ≤ lookupOwes s' + (if x.put.any (·.1 = .other) then 1 else 0)) →
      dhtEvents [e] = [x] →
      ((TableJam s → TableJam s') ∧ (LookupJam s → LookupJam s')) ∧
      (s.dht.man.status = .running → freeCommands s < tableOwes s → s'.dht.man.status = .running ∧
        freeCommands s' < tableOwes s' ∧ storedTables (dhtEvents [e]) = [] ∧ turns (dhtEvents [e]) = []) ∧
      arrivals (dhtEvents [e]) = [] ∧ sent (dhtEvents [e]) = [] := by
    intro x d hx hheard hd hl he
    have own : s.dht.man.status = .running → freeCommands s < tableOwes s → s'.dht.man.status = .running ∧
        freeCommands s' < tableOwes s' ∧ storedTables (dhtEvents [e]) = [] ∧ turns (dhtEvents [e]) = [] := by
      intro hr ho
      obtain ⟨k1, k2, k3, k4⟩ := owes_step hx htodo hcon hr ho
      refine ⟨by rw [hd]; exact k1, ?_, ?_, by rw [he]; exact k4⟩
      · simp only [freeCommands, tableOwes, hd]; exact k2
      · rw [he]; simp [storedTables, k3]
    have table : TableJam s → TableJam s' ∧ arrivals (dhtEvents [e]) = [] ∧ sent (dhtEvents [e]) = [] := by
      intro ⟨h1, h2, h3, h4⟩
      obtain ⟨k1, k2, _⟩ := own h2 h3
      have hm : s.dht.manTodo ≠ [] := by
        intro h; simp only [tableOwes, h, sends, List.filterMap_nil, List.length_nil] at h3; omega
      obtain ⟨q1, q2, q3, q4⟩ := waits_step hx (show WaitsForTable s.nodes from h4) h1 h2 hm
      refine ⟨⟨by rw [hd]; exact q2, k1, k2, ?_⟩, by rw [he]; exact q3, by rw [he]; exact q4⟩
      rw [hd]; exact q1
    have look : LookupJam s → LookupJam s' ∧ arrivals (dhtEvents [e]) = [] ∧ sent (dhtEvents [e]) = [] := by
      intro hjl
      obtain ⟨h1, h2, r, rest, h3, h4⟩ := id hjl
      have halted : d.conAlive = true ∧ d.conTodo = s.dht.conTodo ∧
          d.answers LOOKUP_CHANNEL = s.dht.answers LOOKUP_CHANNEL ∧ arrivals [x] = [] ∧ sent [x] = [] := by
        by_cases hput : ∃ c, x.put = some (.other, c)
        · obtain ⟨c, hput⟩ := hput
          cases hx with
          | ask => exact ⟨h1, rfl, rfl, rfl, rfl⟩
          | _ => simp at hput
        · exact halted_dht (a := s.nodes) hx (fun c hc => hput ⟨c, hc⟩) hheard h1 ⟨r, rest, h3⟩ h4
      obtain ⟨k1, k2, k3, k4, k5⟩ := halted
      refine ⟨⟨by rw [hd]; exact k1, ?_, r, rest, by rw [hd, k2]; exact h3, by rw [hd, k3]; exact h4⟩,
        by rw [he]; exact k4, by rw [he]; exact k5⟩
      obtain ⟨c1, c2⟩ := commands_step hx htodo
      have hl := hl hjl
      have c1 : freeCommands s' ≤ freeCommands s := by simp only [freeCommands, hd]; exact c1
      split at hl
      · next hp =>
        obtain ⟨c, hc⟩ : ∃ c, x.put = some (.other, c) := by
          cases hx : x.put with
          | none => rw [hx] at hp; simp at hp
          | some y =>
            obtain ⟨y1, y2⟩ := y
            rw [hx] at hp
            simp at hp
            exact ⟨y2, by rw [hp]⟩
        have : freeCommands s' + 1 = freeCommands s := by simp only [freeCommands, hd]; exact c2 c hc
        omega
      · omega
    refine ⟨⟨fun h => (table h).1, fun h => (look h).1⟩, own, ?_⟩
    exact hj.elim (fun h => (table h).2) (fun h => (look h).2)
  have same : s'.dht = s.dht → (LookupJam s → lookupOwes s ≤ lookupOwes s') → dhtEvents [e] = [] →
      ((TableJam s → TableJam s') ∧ (LookupJam s → LookupJam s')) ∧
      (s.dht.man.status = .running → freeCommands s < tableOwes s → s'.dht.man.status = .running ∧
        freeCommands s' < tableOwes s' ∧ storedTables (dhtEvents [e]) = [] ∧ turns (dhtEvents [e]) = []) ∧
      arrivals (dhtEvents [e]) = [] ∧ sent (dhtEvents [e]) = [] := by
    intro hd hl he
    have f : freeCommands s' = freeCommands s := by simp only [freeCommands, hd]
    have o : tableOwes s' = tableOwes s := by simp only [tableOwes, hd]
    rw [he, f, o, hd]
    refine ⟨⟨fun ⟨h1, h2, h3, h4⟩ => ⟨by rw [hd]; exact h1, by rw [hd]; exact h2, by rw [f, o]; exact h3, by rw [hd]; exact h4⟩,
      fun hjl => ?_⟩, fun h1 h2 => ⟨h1, h2, rfl, rfl⟩, rfl, rfl⟩
    obtain ⟨h1, h2, h3⟩ := id hjl
    exact ⟨by rw [hd]; exact h1, by rw [f]; exact Nat.lt_of_lt_of_le h2 (hl hjl), by rw [hd]; exact h3⟩
  have keep : s'.lookup = s.lookup → lookupOwes s ≤ lookupOwes s' := fun h => by simp only [lookupOwes, h]; exact Nat.le_refl _
  cases hs.2 with
  | dht ho h => exact dht h ho.heard rfl (fun _ => Nat.le_trans (keep rfl) (Nat.le_add_right _ _)) rfl
  | node _ h | nodesGone _ h | tableNotices _ h =>
    exact dht h rfl rfl (fun _ => Nat.le_trans (keep rfl) (Nat.le_add_right _ _)) rfl
  | lookup hn h =>
    refine dht h rfl rfl (fun _ => ?_) rfl
    simp only [lookupOwes, hn]; omega
  | @look l ev f k1 k2 k3 k4 k5 =>
    refine same rfl (fun hjl => ?_) rfl
    have hlt := hjl.2.1
    simp only [lookupOwes, k1, k3, List.length_nil] at hlt ⊢
    cases k5 with
    | tick j1 j2 =>
      have j1 : l.task.phase = _ := j1
      simp only [j1, Fetch.Fetcher.askAll, State.looking, List.length_map, Map.keys]; omega
    | timeout j1 =>
      have j1 : l.task.phase = _ := j1
      rw [j1] at hlt
      simp at hlt
    | _ => exact absurd k4 id
  | @lookIdle l ev f k1 k4 k5 =>
    refine same rfl (fun hjl => ?_) rfl
    simp only [lookupOwes, k1]
    cases k5 with
    | pass => exact Nat.le_refl _
    | reorder hp =>
      have : l.task.nodes.length = _ := hp.length_eq
      simp only [State.looking, this]; exact Nat.le_refl _
    | _ => exact absurd k4 id
  | asks k1 _ k3 h =>
    refine dht h rfl rfl (fun _ => ?_) rfl
    simp only [lookupOwes, k1, k3, List.length_cons, Option.any_some, decide_true, if_true]; omega
  | asksNobody _ _ _ k => rw [hcon] at k; cases k
  | @hears l r sent f d k1 k2 k3 k4 k5 =>
    -- a lookup that can take an answer is not jammed
    cases k5 with
    | answer j1 =>
    have j1 : l.task.phase = _ := j1
    have nj : ¬ LookupJam s := by
      intro hjl
      have hlt := hjl.2.1
      simp only [lookupOwes, k1, k3, j1, List.length_nil] at hlt
      omega
    have tj : TableJam s := hj.resolve_right nj
    obtain ⟨h1, h2, h3, h4⟩ := id tj
    have hm : s.dht.manTodo ≠ [] := by
      intro h; simp only [tableOwes, h, sends, List.filterMap_nil, List.length_nil] at h3; omega
    obtain ⟨o1, o2, o3, o4⟩ := owes_step k4 htodo hcon h2 h3
    obtain ⟨q1, q2, q3, q4⟩ := waits_step k4 (show WaitsForTable s.nodes from h4) h1 h2 hm
    exact ⟨⟨fun _ => ⟨q2, o1, o2, q1⟩, fun h => absurd h nj⟩, fun _ _ => ⟨o1, o2, rfl, o4⟩, q3, q4⟩
  | _ => exact same rfl (fun _ => keep rfl) rfl

theorem jam_run (hr : Run w s es s') (hj : TableJam s ∨ LookupJam s) :
    ((TableJam s → TableJam s') ∧ (LookupJam s → LookupJam s')) ∧
      (s.dht.man.status = .running → freeCommands s < tableOwes s → s'.dht.man.status = .running ∧
        freeCommands s' < tableOwes s' ∧ storedTables (dhtEvents es) = [] ∧ turns (dhtEvents es) = []) ∧
      arrivals (dhtEvents es) = [] ∧ sent (dhtEvents es) = [] := by
  induction hr with
  | nil => exact ⟨⟨id, id⟩, fun h1 h2 => ⟨h1, h2, rfl, rfl⟩, rfl, rfl⟩
  | @snoc s1 s2 es e hr hs ih =>
    obtain ⟨⟨i1, i2⟩, i3, i4, i5⟩ := ih
    obtain ⟨⟨k1, k2⟩, k3, k4, k5⟩ := jam_step hs (hj.imp i1 i2)
    refine ⟨⟨k1 ∘ i1, k2 ∘ i2⟩, fun h1 h2 => ?_, ?_, ?_⟩
    · obtain ⟨a1, a2, a3, a4⟩ := i3 h1 h2
      obtain ⟨b1, b2, b3, b4⟩ := k3 a1 a2
      refine ⟨b1, b2, ?_, ?_⟩
      · rw [dhtEvents_snoc, storedTables, List.filterMap_append]
        exact List.append_eq_nil_iff.mpr ⟨a3, b3⟩
      · have : ∀ h1 h2 : List DhtSystem.Entry, turns (h1 ++ h2) = turns h1 ++ turns h2 := by
          intro h1 h2; simp [turns, manHistory, List.filterMap_append]
        rw [dhtEvents_snoc, this]
        exact List.append_eq_nil_iff.mpr ⟨a4, b4⟩
    · rw [dhtEvents_snoc, arrivals_append, i4, k4]; rfl
    · rw [dhtEvents_snoc, sent, List.filterMap_append]
      exact List.append_eq_nil_iff.mpr ⟨i5, k5⟩

/-! ## Without a jam everything is worked off -/

/-- The lookup is there as soon as it has asked something, and it goes on as long as the socket task is there. -/
theorem looks_inv (h0 : Started w u s0) (h : Run w s0 es s) :
    (lookupAsked es ≠ [] → s.lookup ≠ none) ∧ ∀ l, s.lookup = some l → s.dht.conAlive = true → l.alive = true := by
  induction h with
  | nil =>
    refine ⟨fun h => absurd rfl h, fun l hl => ?_⟩
    rw [h0.lookup] at hl; cases hl
  | @snoc s1 s2 es e hr hs ih =>
    obtain ⟨i1, i2⟩ := ih
    have app : lookupAsked (es ++ [e]) = lookupAsked es ++ lookupAsked [e] := List.filterMap_append
    have back : ∀ {x : DhtSystem.Entry} {d : DhtSystem.State}, DhtSystem.Step w.env w.refreshPause s1.nodes x d →
        d.conAlive = true → s1.dht.conAlive = true := by
      intro x d hx hd
      cases hc : s1.dht.conAlive with
      | true => rfl
      | false =>
        have := (dead_run (show s1.nodes.conAlive = false from hc) (.snoc (h := []) .nil hx)).1
        rw [hd] at this; cases this
    have same : s2.lookup = s1.lookup → (s2.dht.conAlive = true → s1.dht.conAlive = true) → lookupAsked [e] = [] →
        (lookupAsked (es ++ [e]) ≠ [] → s2.lookup ≠ none) ∧
          ∀ l, s2.lookup = some l → s2.dht.conAlive = true → l.alive = true := by
      intro e1 e2 e3
      refine ⟨fun h => ?_, fun l hl hc => i2 l (e1 ▸ hl) (e2 hc)⟩
      rw [app, e3, List.append_nil] at h
      rw [e1]; exact i1 h
    cases hs.2 with
    | dht _ h | node _ h | nodesGone _ h | tableNotices _ h => exact same rfl (back h) rfl
    | lookup _ h => exact ⟨fun _ => by simp, fun l hl _ => by cases hl; rfl⟩
    | look _ k2 => exact ⟨fun _ => by simp, fun l hl _ => by cases hl; exact k2⟩
    | @lookIdle l1 _ _ k1 => exact ⟨fun _ => by simp, fun l hl hc => by cases hl; exact i2 l1 k1 hc⟩
    | asks _ k2 => exact ⟨fun _ => by simp, fun l hl _ => by cases hl; exact k2⟩
    | asksNobody _ _ _ k4 => exact ⟨fun _ => by simp, fun l hl hc => by rw [show s1.dht.conAlive = true from hc] at k4; cases k4⟩
    | hears _ k2 => exact ⟨fun _ => by simp, fun l hl _ => by cases hl; exact k2⟩
    | _ => exact same rfl id rfl

/-- The table task hands over what it has, if there is room for it. -/
theorem flush_table {env : Env} {pause : Nat → Nat} {infoHash secret : ID} {table : RoutingTable} {peers : Peers} {now : Nat}
    {os : List Peers.Op} {h : List DhtSystem.Entry} {d : DhtSystem.State} (ht : Reachable table)
    (hp : Peers.Run (.new infoHash) os peers)
    (hr : DhtSystem.Run env pause (DhtSystem.State.start infoHash secret table peers now) h d) (ha : d.conAlive = true)
    (hrun : d.man.status = .running) (ho : (sends d.manTodo).length ≤ 1024 - d.commands.length) :
    ∃ l d', DhtSystem.Run env pause d l d' ∧ (∀ e ∈ l, isInternal e = true) ∧ d'.manTodo = [] ∧ d'.conTodo = d.conTodo ∧
      d'.queries = d.queries ∧ d'.answers = d.answers ∧ d'.conAlive = true ∧ d'.man.status = .running := by
  generalize hm : d.manTodo = todo
  induction todo generalizing d h with
  | nil => exact ⟨[], d, .nil, by simp, hm, rfl, rfl, rfl, ha, hrun⟩
  | cons o rest ih =>
    cases o with
    | send c =>
      rw [hm] at ho
      simp only [sends, List.filterMap_cons, List.length_cons] at ho
      have hs := DhtSystem.Step.putCommand (env := env) (pause := pause) hrun hm ha (show d.commands.length < 1024 by omega)
      obtain ⟨l, d', k1, k2, k3⟩ := ih (hr.snoc hs) ha hrun
        (by simp only [List.length_append, List.length_cons, List.length_nil]
            change List.length (List.filterMap _ rest) ≤ _
            omega) rfl
      refine ⟨_, d', system_append (.snoc (h := []) .nil hs) k1, fun e he => ?_, k3⟩
      rcases List.mem_append.mp he with he | he
      · rw [List.mem_singleton.mp he]; rfl
      · exact k2 e he
    | lookups ns =>
      rw [hm] at ho
      simp only [sends, List.filterMap_cons] at ho
      have hs := DhtSystem.Step.spawns (env := env) (pause := pause) hrun hm
      obtain ⟨l, d', k1, k2, k3⟩ := ih (hr.snoc hs) ha hrun ho rfl
      refine ⟨_, d', system_append (.snoc (h := []) .nil hs) k1, fun e he => ?_, k3⟩
      rcases List.mem_append.mp he with he | he
      · rw [List.mem_singleton.mp he]; rfl
      · exact k2 e he
    | stored t => exact absurd (by rw [hm]; simp) ((shape_run ht hp hr).man hrun t)

/-- What the tasks of the DHT do without anything from outside. -/
theorem goes_dht (ht : Reachable u.table) (h0 : Started w u s0) (h : Run w s0 es s) (hx : .exits ∉ es)
    {l : List DhtSystem.Entry} {d : DhtSystem.State} (hl : DhtSystem.Run w.env w.refreshPause s.nodes l d)
    (hi : ∀ e ∈ l, isInternal e = true) : ∃ es' s', Goes w s es' s' ∧ s'.nodes = d := by
  obtain ⟨es1, s1, k1, _, k3, _, _, k4⟩ := lift_dht ht h0 h (not_done h0 h hx) hl (fun e he => .inl (internal_alone (hi e he)))
  refine ⟨es1, s1, ⟨k1, fun e he => ?_⟩, k3⟩
  rcases k4 e he with ⟨x, hx', rfl⟩ | ⟨ns, now, rfl⟩
  · exact ⟨.inl (hi x hx'), by simp⟩
  · exact ⟨trivial, by simp⟩

/-- The lookup hands over what it has, if there is room for it. -/
theorem flush_lookup (h0 : Started w u s0) (h : Run w s0 es s) (hx : .exits ∉ es) {l : Lookup} (hl : s.lookup = some l)
    (hla : l.alive = true) (ha : s.dht.conAlive = true) (ho : l.todo.length ≤ freeCommands s) :
    ∃ es' s', Goes w s es' s' ∧ s'.lookup = some { l with todo := [] } ∧ s'.dht.conAlive = true ∧
      s'.dht.conTodo = s.dht.conTodo ∧ s'.dht.answers = s.dht.answers ∧ s'.dht.man.status = s.dht.man.status ∧
      freeCommands s' + l.todo.length = freeCommands s := by
  obtain ⟨task, todo, alive⟩ := l
  induction todo generalizing s es with
  | nil => exact ⟨[], s, .nil, hl, ha, rfl, rfl, rfl, rfl⟩
  | cons t rest ih =>
    obtain ⟨a, v⟩ := t
    simp only [freeCommands, List.length_cons] at ho
    have hc : s.dht.commands.length < 1024 := by omega
    have g1 : Goes w s [.asks a v] _ :=
      .one (not_done h0 h hx) (.asks hl hla rfl (.ask (s := s.nodes) (by decide) ha hc)) trivial (by simp)
    obtain ⟨es2, s2, g2, q1, q2, q3, q4, q5, q6⟩ := ih (h.trans g1.1) (g1.no_exit hx) ha rfl hla (by
      simp only [freeCommands, State.nodes, List.length_append, List.length_cons, List.length_nil]; omega)
    refine ⟨_, s2, g1.trans g2, q1, q2, q3, q4, q5, ?_⟩
    simp only [freeCommands, State.nodes, List.length_append, List.length_cons, List.length_nil] at q6 ⊢
    omega

/-- The lookup takes an answer from its queue, if there is room for what it has to hand over before. -/
theorem takes_answer (h0 : Started w u s0) (h : Run w s0 es s) (hx : .exits ∉ es) {l : Lookup} (hl : s.lookup = some l)
    (hla : l.alive = true) (ha : s.dht.conAlive = true) (ho : lookupOwes s ≤ freeCommands s) {r : FromConResp}
    {rest : List FromConResp} (hr : s.dht.answers LOOKUP_CHANNEL = r :: rest) :
    ∃ es' s', Goes w s es' s' ∧ s'.dht.conAlive = true ∧ s'.dht.conTodo = s.dht.conTodo ∧
      s'.dht.answers LOOKUP_CHANNEL = rest ∧ s'.dht.man.status = s.dht.man.status := by
  -- in the middle of a round
  have hears : ∀ {es s l since}, Run w s0 es s → .exits ∉ es → s.lookup = some l → l.alive = true → l.todo = [] →
      l.task.phase = .fetching since → s.dht.answers LOOKUP_CHANNEL = r :: rest → s.dht.conAlive = true →
      ∃ es' s', Goes w s es' s' ∧ s'.dht.conAlive = true ∧ s'.dht.conTodo = s.dht.conTodo ∧
        s'.dht.answers LOOKUP_CHANNEL = rest ∧ s'.dht.man.status = s.dht.man.status := by
    intro es s l since h hx hl hla htodo hph hr ha
    have g : Goes w s [.hears r _] _ := .one (not_done h0 h hx)
      (.hears hl hla htodo (.hear (s := s.nodes) (by decide) hr) (.answer (show (s.looking l).phase = _ from hph))) trivial (by simp)
    exact ⟨_, _, g, ha, rfl, by simp [State.nodes], rfl⟩
  simp only [lookupOwes, hl] at ho
  obtain ⟨es1, s1, g1, l1, a1, c1, an1, st1, f1⟩ := flush_lookup h0 h hx hl hla ha (by omega)
  have r1 := h.trans g1.1
  have x1 := g1.no_exit hx
  cases hph : l.task.phase with
  | fetching since =>
    obtain ⟨es2, s2, g2, k1, k2, k3, k4⟩ := hears r1 x1 l1 hla rfl hph (by rw [an1]; exact hr) a1
    exact ⟨_, s2, g1.trans g2, k1, k2.trans c1, k3, k4.trans st1⟩
  | sleeping since =>
    rw [hph] at ho
    -- time passes
    have g2 : Goes w s1 [.look ⟨.pass (since + w.lookupPause l.task.rounds), []⟩] _ :=
      .one (not_done h0 r1 x1) (.lookIdle l1 trivial .pass) trivial (by simp)
    have r2 := r1.trans g2.1
    have x2 := g2.no_exit x1
    -- the next round begins
    have g3 : Goes w _ [.look ⟨.tick, _⟩] _ :=
      .one (not_done h0 r2 x2) (.look rfl hla rfl trivial (.tick (since := since) (by exact hph)
        (by simp only [State.looking]; exact Nat.le_add_left _ _))) trivial (by simp)
    have r3 := r2.trans g3.1
    have x3 := g3.no_exit x2
    obtain ⟨es4, s4, g4, l4, a4, c4, an4, st4, f4⟩ := flush_lookup h0 r3 x3 rfl hla a1 (by
      have : freeCommands s1 + l.todo.length = freeCommands s := f1
      simp only [freeCommands, Fetch.Fetcher.askAll, State.looking, List.length_map, Map.keys] at this ho ⊢
      omega)
    obtain ⟨es5, s5, g5, k1, k2, k3, k4⟩ := hears (r3.trans g4.1) (g4.no_exit x3) l4 hla rfl rfl
      (by rw [an4]; show s1.dht.answers _ = _; rw [an1]; exact hr) a4
    exact ⟨_, s5, (((g1.trans g2).trans g3).trans g4).trans g5, k1, k2.trans (c4.trans c1), k3, k4.trans (st4.trans st1)⟩

/-- Without a jam, everything that waits is done. -/
theorem unjammed (ht : Reachable u.table) (h0 : Started w u s0) (h : Run w s0 es s) (hx : .exits ∉ es)
    (ha : s.dht.conAlive = true) (hr : s.dht.man.status = .running) (h1 : ¬ TableJam s) (h2 : ¬ LookupJam s) :
    ∃ es' s', Goes w s es' s' ∧ Spec.Quiet s'.dht ∧ s'.dht.conAlive = true ∧ s'.dht.man.status = .running := by
  -- from a state in which the socket task has room
  have room : ∀ {es s}, Run w s0 es s → .exits ∉ es → s.dht.conAlive = true → s.dht.man.status = .running → Room s.dht →
      ∃ es' s', Goes w s es' s' ∧ Spec.Quiet s'.dht ∧ s'.dht.conAlive = true ∧ s'.dht.man.status = .running := by
    intro es s h hx ha hr hroom
    obtain ⟨l, hl, _⟩ := started_dht h0 h
    obtain ⟨l', d, r1, i1, q1, al1, run1⟩ := C92_drain_partial ht .nil hl ha hr hroom.1 hroom.2
    obtain ⟨es1, s1, g1, k1⟩ := goes_dht ht h0 h hx r1 i1
    refine ⟨es1, s1, g1, ?_, ?_, ?_⟩
    · have : Spec.Quiet s1.nodes := by rw [k1]; exact q1
      exact ⟨this.conTodo, this.manTodo, this.commands, this.queries, this.answers⟩
    · show s1.nodes.conAlive = _; rw [k1]; exact al1
    · show s1.nodes.man.status = _; rw [k1]; exact run1
  obtain ⟨l, hl, _⟩ := started_dht h0 h
  have hcaps := C106_queues hl
  have quiet : s.dht.conTodo = [] → Room s.dht := fun h => room_datagrams (by rw [h]; simp)
  cases hc : s.dht.conTodo with
  | nil => exact room h hx ha hr (quiet hc)
  | cons f rest =>
    -- the table task hands over what it has and takes something from its queue
    have table : freeCommands s ≥ tableOwes s → ((∃ q, f = .toManager q ∧ 256 ≤ s.dht.queries.length) ∨
        (∃ r, f = .toRequester OWN_CHANNEL r ∧ 1024 ≤ (s.dht.answers OWN_CHANNEL).length)) →
        ∃ es' s', Goes w s es' s' ∧ Spec.Quiet s'.dht ∧ s'.dht.conAlive = true ∧ s'.dht.man.status = .running := by
      intro ho hf
      obtain ⟨l1, d1, r1, i1, m1, c1, q1, an1, al1, run1⟩ := flush_table ht .nil hl ha hr ho
      obtain ⟨l2, d2, r2, i2, al2, run2, room2⟩ : ∃ l2 d2, DhtSystem.Run w.env w.refreshPause d1 l2 d2 ∧
          (∀ e ∈ l2, isInternal e = true) ∧ d2.conAlive = true ∧ d2.man.status = .running ∧ Room d2 := by
        have hflow := Flow.run (system_append hl r1)
        have c1 : d1.conTodo = f :: rest := c1.trans hc
        rcases hf with ⟨q, rfl, hq⟩ | ⟨r, rfl, hq⟩
        · have hlen : s.dht.queries.length ≤ 256 := hcaps.2.2.2.2.2.1
          have q1 : d1.queries = s.dht.queries := q1
          cases hqs : d1.queries with
          | nil => rw [q1] at hqs; rw [hqs] at hq; simp at hq
          | cons q' qs =>
            obtain ⟨m', outs, j1, j2⟩ := (C99_total ht .nil hflow.man).1 id q'
            refine ⟨_, _, .snoc (h := []) .nil (.takeQuery m1 hqs (.query run1 (fun l => .refl _) j1)), ?_, al1,
              j2.trans run1, ?_, ?_⟩
            · intro e he; rw [List.mem_singleton.mp he]; rfl
            · intro q'' rest' _
              show qs.length < 256
              have : (q' :: qs).length ≤ 256 := by rw [← hqs, q1]; exact hlen
              simp only [List.length_cons] at this; omega
            · intro c r rest' hh
              have hh : d1.conTodo = _ := hh
              rw [c1] at hh; cases hh
        · have hlen : (s.dht.answers OWN_CHANNEL).length ≤ 1024 := hcaps.2.2.2.2.2.2.2.1
          have q1 : d1.answers OWN_CHANNEL = s.dht.answers OWN_CHANNEL := by rw [an1]; rfl
          cases hqs : d1.answers OWN_CHANNEL with
          | nil => rw [q1] at hqs; rw [hqs] at hq; simp at hq
          | cons r' rs =>
            obtain ⟨m', outs, j1, j2⟩ := (C99_total ht .nil hflow.man).2.1 r'
            refine ⟨_, _, .snoc (h := []) .nil (.takeAnswer m1 hqs (.resp run1 j1)), ?_, al1,
              j2.trans run1, ?_, ?_⟩
            · intro e he; rw [List.mem_singleton.mp he]; rfl
            · intro q rest' hh
              have hh : d1.conTodo = _ := hh
              rw [c1] at hh; cases hh
            · intro c r rest' hh
              have hh : d1.conTodo = _ := hh
              rw [c1] at hh; cases hh
              have : (r' :: rs).length ≤ 1024 := by rw [← hqs, q1]; exact hlen
              simp only [List.length_cons] at this
              simp only [if_true]; omega
      obtain ⟨es1, s1, g1, k1⟩ := goes_dht ht h0 h hx (system_append r1 r2) (fun e he =>
        (List.mem_append.mp he).elim (i1 e) (i2 e))
      have e1 : s1.dht.conAlive = true := by show s1.nodes.conAlive = _; rw [k1]; exact al2
      have e2 : s1.dht.man.status = .running := by show s1.nodes.man.status = _; rw [k1]; exact run2
      have e3 : Room s1.nodes := by rw [k1]; exact room2
      obtain ⟨es2, s2, g2, k2⟩ := room (h.trans g1.1) (g1.no_exit hx) e1 e2 e3
      exact ⟨_, s2, g1.trans g2, k2⟩
    cases f with
    | datagram a b =>
      refine room h hx ha hr ⟨fun q rest' hh => ?_, fun c r rest' hh => ?_⟩ <;> rw [hc] at hh <;> cases hh
    | toManager q =>
      by_cases hq : 256 ≤ s.dht.queries.length
      · refine table ?_ (.inl ⟨q, rfl, hq⟩)
        exact Nat.not_lt.mp fun ho => h1 ⟨ha, hr, ho, .inl ⟨q, rest, hc, hq⟩⟩
      · refine room h hx ha hr ⟨fun q rest' hh => by omega, fun c r rest' hh => ?_⟩
        rw [hc] at hh; cases hh
    | toRequester c r =>
      by_cases hco : c = OWN_CHANNEL
      · subst hco
        by_cases hq : 1024 ≤ (s.dht.answers OWN_CHANNEL).length
        · refine table ?_ (.inr ⟨r, rfl, hq⟩)
          exact Nat.not_lt.mp fun ho => h1 ⟨ha, hr, ho, .inr ⟨r, rest, hc, hq⟩⟩
        · refine room h hx ha hr ⟨fun q rest' hh => ?_, fun c r rest' hh => ?_⟩
          · rw [hc] at hh; cases hh
          · rw [hc] at hh; cases hh
            simp only [if_true]; omega
      · by_cases hq : 64 ≤ (s.dht.answers c).length
        · -- the lookup takes an answer from its queue
          have howed := owed_run ht h0 h hco
          by_cases hcl : LOOKUP_CHANNEL = c
          · subst hcl
            simp only [if_true] at howed
            have hasked : lookupAsked es ≠ [] := by
              intro hn
              rw [hn] at howed
              simp only [owed, List.length_nil] at howed
              omega
            obtain ⟨i1, i2⟩ := looks_inv h0 h
            cases hlook : s.lookup with
            | none => exact absurd hlook (i1 hasked)
            | some lk =>
              cases hans : s.dht.answers LOOKUP_CHANNEL with
              | nil => rw [hans] at hq; simp at hq
              | cons r' rs =>
                obtain ⟨es1, s1, g1, k1, k2, k3, k4⟩ := takes_answer h0 h hx hlook (i2 lk hlook ha) ha
                  (Nat.not_lt.mp fun ho => h2 ⟨ha, ho, r, rest, hc, hq⟩) hans
                have hlen : (s.dht.answers LOOKUP_CHANNEL).length ≤ 64 := hcaps.2.2.2.2.2.2.2.2 _ (by decide)
                rw [hans, List.length_cons] at hlen
                have hroom : Room s1.dht := by
                  constructor
                  · intro q rest' hh
                    rw [k2, hc] at hh; cases hh
                  · intro c r rest' hh
                    rw [k2, hc] at hh; cases hh
                    rw [k3, if_neg (by decide)]; omega
                obtain ⟨es2, s2, g2, k5⟩ := room (h.trans g1.1) (g1.no_exit hx) k1 (k4.trans hr) hroom
                exact ⟨_, s2, g1.trans g2, k5⟩
          · simp only [hcl, if_false, owed] at howed
            omega
        · refine room h hx ha hr ⟨fun q rest' hh => ?_, fun c r rest' hh => ?_⟩
          · rw [hc] at hh; cases hh
          · rw [hc] at hh; cases hh
            rw [if_neg hco]; omega

/-! ## C92 and C120, exactly -/

/-- C92, exactly: as long as the process, the socket task and the table task are there, one of two things is the case. Either
the socket task waits for room in the full queue of the table task or of the lookup while that task has more to hand over to
the socket task than there is room for; then, whatever happens, it waits for ever, and no datagram is sent or received any
more. Or everything that waits in the DHT can be worked off, without anything from other nodes. Missing: that the first is
never the case (`C92_deadlock_violated`). -/
theorem C92_exact_partial (w : World) (u : Setup) (s0 s : State) (es : List Event) (ht : Reachable u.table)
    (h0 : Started w u s0) (h : Run w s0 es s) (hx : .exits ∉ es) (ha : s.dht.conAlive = true)
    (hr : s.dht.man.status = .running) :
    ((TableJam s ∨ LookupJam s) → ∀ es' s', Run w s es' s' →
      (TableJam s' ∨ LookupJam s') ∧ arrivals (dhtEvents es') = [] ∧ sent (dhtEvents es') = []) ∧
    (¬ (TableJam s ∨ LookupJam s) → ∃ es' s', Run w s es' s' ∧ (∀ e ∈ es', Unaided e) ∧ Spec.Quiet s'.dht ∧
      s'.dht.conAlive = true ∧ s'.dht.man.status = .running) := by
  constructor
  · intro hj es' s' hr'
    obtain ⟨⟨k1, k2⟩, _, k4, k5⟩ := jam_run hr' hj
    exact ⟨hj.imp k1 k2, k4, k5⟩
  · intro hj
    obtain ⟨es', s', g, k⟩ := unjammed ht h0 h hx ha hr (fun h => hj (.inl h)) (fun h => hj (.inr h))
    exact ⟨es', s', g.1, fun e he => (g.2 e he).1, k⟩

/-- The table task returns. -/
theorem table_over (ht : Reachable u.table) (h0 : Started w u s0) (h : Run w s0 es s) (hx : .exits ∉ es) (hs : .signal ∈ es)
    (hh : ¬ TableHangs s) : ∃ es' s', Goes w s es' s' ∧ .tableEnds ∈ es ++ es' := by
  by_cases hr : s.dht.man.status = .running
  · cases hc : s.dht.conAlive with
    | false => exact table_over_alone ht h0 h hx hs hr hc
    | true =>
      obtain ⟨es1, s1, g1, m1, st1⟩ : ∃ es' s', Goes w s es' s' ∧ s'.dht.manTodo = [] ∧ s'.dht.man.status = .running := by
        by_cases hj : LookupJam s
        · obtain ⟨l, hl, _⟩ := started_dht h0 h
          obtain ⟨l1, d1, r1, i1, m1, _, _, _, _, run1⟩ := flush_table ht .nil hl hc hr
            (Nat.not_lt.mp fun ho => hh (.inr ⟨hj, hr, ho⟩))
          obtain ⟨es1, s1, g1, k1⟩ := goes_dht ht h0 h hx r1 i1
          refine ⟨es1, s1, g1, ?_, ?_⟩
          · show s1.nodes.manTodo = _; rw [k1]; exact m1
          · show s1.nodes.man.status = _; rw [k1]; exact run1
        · obtain ⟨es1, s1, g1, q1, _, run1⟩ := unjammed ht h0 h hx hc hr (fun h => hh (.inl h)) hj
          exact ⟨es1, s1, g1, q1.manTodo, run1⟩
      obtain ⟨es2, s2, g2, m2⟩ := table_over_free h0 (h.trans g1.1) (g1.no_exit hx) (List.mem_append_left _ hs) st1 m1
      exact ⟨_, _, g1.trans g2, by rw [← List.append_assoc]; exact m2⟩
  · exact table_over_ended h0 h hx hr

theorem hangs_congr (hd : s'.dht = s.dht) (hl : s'.lookup = s.lookup) (h : TableHangs s') : TableHangs s := by
  have f : freeCommands s' = freeCommands s := by simp only [freeCommands, hd]
  have o : tableOwes s' = tableOwes s := by simp only [tableOwes, hd]
  have l : lookupOwes s' = lookupOwes s := by simp only [lookupOwes, hl]
  simpa only [TableHangs, TableJam, LookupJam, hd, f, o, l] using h

/-- C120, exactly: as long as the process has not ended, one of two things is the case. Either the table task hangs: it has
more to hand over to the socket task than there is room for, while the socket task waits for room in the full queue of the
table task or of a lookup that in turn has more to hand over than there is room for; then, whatever happens and however often
Ctrl-C is pressed, the process does not end and the routing table is not written. Or the process can end, without anything
from other nodes, peers or trackers: Ctrl-C is pressed if it was not yet, what waits in the DHT is worked off as far as
needed, all tasks notice the signal and return. Missing: that the first is never the case (`C120_hangs_violated`). -/
theorem C120_exact_partial (w : World) (u : Setup) (s0 s : State) (es : List Event) (ht : Reachable u.table)
    (h0 : Started w u s0) (h : Run w s0 es s) (hx : .exits ∉ es) :
    (TableHangs s → ∀ es' s', Run w s es' s' → .exits ∉ es' ∧ storedTables (dhtEvents es') = [] ∧
      arrivals (dhtEvents es') = [] ∧ sent (dhtEvents es') = []) ∧
    (¬ TableHangs s → ∃ es' s', Run w s (es' ++ [.exits]) s' ∧ ∀ e ∈ es', Unaided e) := by
  constructor
  · intro hh es' s' hr'
    have hj : TableJam s ∨ LookupJam s := hh.imp id (·.1)
    have ho : s.dht.man.status = .running ∧ freeCommands s < tableOwes s := by
      rcases hh with ⟨_, h1, h2, _⟩ | ⟨_, h1, h2⟩ <;> exact ⟨h1, h2⟩
    obtain ⟨_, k3, k4, k5⟩ := jam_run hr' hj
    obtain ⟨q1, _, q3, _⟩ := k3 ho.1 ho.2
    refine ⟨fun hex => ?_, q3, k4, k5⟩
    have hr2 := h.trans hr'
    exact ((table_inv h0 hr2).ended (exit_ends h0 hr2 (List.mem_append_right _ hex)).2.1).1 q1
  · intro hh
    exact ends_after_table h0 h hx fun es' s' g sig hd hl =>
      table_over ht h0 (h.trans g.1) (g.no_exit hx) sig fun hh' => hh (hangs_congr hd hl hh')

/-- C120, the part that holds, in terms of the socket task alone: unless the table task runs while the socket task waits for
room in a full queue, the process can end. -/
theorem C120_ends_partial (w : World) (u : Setup) (s0 s : State) (es : List Event) (ht : Reachable u.table)
    (h0 : Started w u s0) (h : Run w s0 es s) (hx : .exits ∉ es)
    (hq : s.dht.conAlive = true → s.dht.man.status = .running →
      ∀ q rest, s.dht.conTodo = .toManager q :: rest → s.dht.queries.length < 256)
    (han : s.dht.conAlive = true → s.dht.man.status = .running → ∀ c r rest, s.dht.conTodo = .toRequester c r :: rest →
      (s.dht.answers c).length < if c = OWN_CHANNEL then 1024 else 64) :
    ∃ es' s', Run w s (es' ++ [.exits]) s' ∧ ∀ e ∈ es', Unaided e := by
  refine (C120_exact_partial w u s0 s es ht h0 h hx).2 fun hh => ?_
  rcases hh with ⟨h1, h2, _, h4⟩ | ⟨⟨h1, _, r, rest, h3, h4⟩, h2, _⟩
  · rcases h4 with ⟨q, rest, h4, h5⟩ | ⟨r, rest, h4, h5⟩
    · exact absurd (hq h1 h2 q rest h4) (Nat.not_lt.mpr h5)
    · exact absurd (han h1 h2 _ r rest h4) (by rw [if_pos rfl]; omega)
  · exact absurd (han h1 h2 _ r rest h3) (by rw [if_neg (by decide)]; omega)

/-! ## The end of the pause need not help -/

/-- A peer from which complete messages were read, if any, and of whose nodes the table task has heard. -/
structure Talks (s : State) (q : Peer) : Prop where
  spawned : s.swarm.Spawned q
  reading : (s.swarm.links q).con = .reading
  inv : (s.swarm.links q).recv.Inv
  empty : (s.swarm.links q).recv.dataLen = 0
  taken : s.swarm.dht = []

/-- A message that arrives in one piece. -/
theorem read_one {r : RecvState} (hi : r.Inv) (h0 : r.dataLen = 0) (m : Message) (hm : (wire m).length ≤ MAX_MESSAGE_BYTES) :
    (wire m).length ≤ r.capacity ∧ ∃ r1 r2, r.onRead (wire m) = .ok r1 ∧ r1.drain 1 = .ok (r2, [m]) ∧ r2.Inv ∧ r2.dataLen = 0 := by
  have hcap : (wire m).length ≤ r.capacity := by
    simp only [RecvState.capacity, hi.start, hi.size, h0]; omega
  obtain ⟨r1, k1, k2, k3, k4⟩ := onRead_spec hi _ hcap
  have hd : r.data = [] := by simp [RecvState.data, h0]
  rw [hd, List.nil_append] at k3
  have hb : r1.buf = wire m ++ r1.buf.drop r1.dataLen := by rw [← k3]; exact k2.buf_eq
  have hlen : r1.dataLen = (wire m).length := by omega
  have hge := wire_length_ge m
  have hf := fits_of_wire hm
  have hp := wire_length m
  refine ⟨hcap, r1, ⟨r1.buf, 0, 0⟩, k1, ?_, ⟨rfl, k2.size, by simp⟩, rfl⟩
  have e1 : Message.len r1.buf = .ok (payload m).length := by
    rw [hb, wire, List.append_assoc]
    exact fromBuf_prefix _ hf _
  have e2 : Message.fromBuf r1.buf = .ok (some m) := by rw [hb]; exact fromBuf_wire m hf _
  unfold RecvState.drain
  rw [if_neg (by omega), k2.start, sliceFrom_ok (by omega), List.drop_zero]
  simp only [Res.ok_bind, e1, e2]
  rw [if_pos (by omega)]
  have : r1.dataLen - ((payload m).length + 4) = 0 := by omega
  simp only [this]
  rfl

/-- A peer tells of a node: the table task has a ping to hand over. -/
theorem tells_node (ht : Reachable u.table) (h0 : Started w u s0) (h : Run w s0 es s) (hx : .exits ∉ es) {l : Lookup} {since : Nat}
    {q : Peer} (hh : Halted s l since) (hq : Talks s q) (hr : s.dht.man.status = .running) (hm : s.dht.manTodo = [])
    (hf : 0 < freeCommands s) (p : U16) :
    ∃ es' s', Run w s es' s' ∧ .exits ∉ es' ∧ Halted s' l since ∧ Talks s' q ∧ s'.dht.man.status = .running ∧
      s'.dht.manTodo = [] ∧ freeCommands s' + 1 = freeCommands s ∧ lookTime es' = 0 ∧ arrivals (dhtEvents es') = [] ∧
      readsFrom q (torrentEvents es') = [wire (.port p)] := by
  obtain ⟨h1, h2, h3, h4, h5, h6, h7⟩ := hh
  obtain ⟨q1, q2, q3, q4, q5⟩ := hq
  have hopen : s.swarm.dhtOpen = true := (holds_inv h0 h).opened fun he => ((table_inv h0 h).ended he).1 hr
  obtain ⟨hcap, r1, r2, j1, j2, j3, j4⟩ := read_one q3 q4 (.port p) (by show 7 ≤ _; decide)
  have hp := not_done h0 h hx
  -- the message is read
  obtain ⟨s1, t1, e1, e2, e3, e4⟩ : ∃ s1, Turn w s (.torrent (.read q (wire (.port p)))) s1 ∧ s1.dht = s.dht ∧ s1.lookup = s.lookup ∧
      s1.down = s.down ∧ s1.swarm.Spawned q ∧ s1.swarm.dht = [] ∧ s1.swarm.dhtOpen = true ∧
      (s1.swarm.links q).con = .parsing ∧ (s1.swarm.links q).recv = r1 :=
    ⟨_, .torrent trivial (.read (s := s.torrent) q1 q2 hcap j1), rfl, rfl, rfl, q1, q5, hopen,
      by simp [State.torrent, Swarm.State.setLink], by simp [State.torrent, Swarm.State.setLink]⟩
  obtain ⟨a1, a2, a3, a4, a5⟩ := e4
  obtain ⟨s2, t2, f1, f2, f3, b1, b2, b3, b4, b5⟩ : ∃ s2, Turn w s1 (.torrent (.parsed q (.port p))) s2 ∧ s2.dht = s1.dht ∧
      s2.lookup = s1.lookup ∧ s2.down = s1.down ∧ s2.swarm.Spawned q ∧ s2.swarm.dht = [] ∧ s2.swarm.dhtOpen = true ∧
      (s2.swarm.links q).con = .handing (.port p) ∧ (s2.swarm.links q).recv = r2 :=
    ⟨_, .torrent trivial (.parsed (s := s1.torrent) (m := .port p) (r := r2) a1 a4
        (by show (s1.swarm.links q).recv.drain 1 = _; rw [a5]; exact j2)), rfl, rfl, rfl, a1, a2, a3,
      by simp [State.torrent, Swarm.State.setLink], by simp [State.torrent, Swarm.State.setLink]⟩
  obtain ⟨s3, t3, g1, g2, g3, c1, c2, c3, c4, c5⟩ : ∃ s3, Turn w s2 (.torrent (.handed q (.port p))) s3 ∧ s3.dht = s2.dht ∧
      s3.lookup = s2.lookup ∧ s3.down = s2.down ∧ s3.swarm.Spawned q ∧ s3.swarm.dht = [{ q.addr with port := p }] ∧
      s3.swarm.dhtOpen = true ∧ (s3.swarm.links q).con = .parsing ∧ (s3.swarm.links q).recv = r2 :=
    ⟨_, .torrent trivial (.handPort (s := s2.torrent) b1 b4 b3 rfl (by show s2.swarm.dht.length < 32; rw [b2]; decide)),
      rfl, rfl, rfl, b1, by show s2.swarm.dht ++ _ = _; rw [b2]; rfl, b3,
      by simp [State.torrent, Swarm.State.setLink], by simpa [State.torrent, Swarm.State.setLink] using b5⟩
  obtain ⟨s4, t4, k1, k2, k3, d1, d2, d3, d4, d5⟩ : ∃ s4, Turn w s3 (.torrent (.parsedAll q)) s4 ∧ s4.dht = s3.dht ∧
      s4.lookup = s3.lookup ∧ s4.down = s3.down ∧ s4.swarm.Spawned q ∧ s4.swarm.dht = [{ q.addr with port := p }] ∧
      s4.swarm.dhtOpen = true ∧ (s4.swarm.links q).con = .reading ∧ (s4.swarm.links q).recv = r2 :=
    ⟨_, .torrent trivial (.parsedAll (s := s3.torrent) (r := r2) c1 c4
        (by show (s3.swarm.links q).recv.drain 1 = _; rw [c5]; exact drain_empty (by omega) 1)), rfl, rfl, rfl, c1, c2, c3,
      by simp [State.torrent, Swarm.State.setLink], by simp [State.torrent, Swarm.State.setLink]⟩
  have hd4 : s4.dht = s.dht := by rw [k1, g1, f1, e1]
  have hl4 : s4.lookup = s.lookup := by rw [k2, g2, f2, e2]
  have hdn4 : s4.down = s.down := by rw [k3, g3, f3, e3]
  have run4 : Run w s ([.torrent (.read q (wire (.port p)))] ++ [.torrent (.parsed q (.port p))] ++ [.torrent (.handed q (.port p))] ++
      [.torrent (.parsedAll q)]) s4 :=
    (((Run.snoc (es := []) .nil ⟨hp, t1⟩).snoc ⟨by rw [e3]; exact hp, t2⟩).snoc ⟨by rw [f3, e3]; exact hp, t3⟩).snoc
      ⟨by rw [g3, f3, e3]; exact hp, t4⟩
  -- the table task takes the node
  obtain ⟨kk, hkk, _⟩ := started_dht h0 (h.trans run4)
  have hb := (Base.start (now := u.now) ht .nil).run (Flow.run hkk).man
  obtain ⟨wg, o, hat, ho⟩ := andThen_spec hb.reach [ping { q.addr with port := p }]
  have hrun4 : s4.nodes.man.status = .running := by show s4.dht.man.status = _; rw [hd4]; exact hr
  have hm4 : s4.nodes.manTodo = [] := by show s4.dht.manTodo = _; rw [hd4]; exact hm
  obtain ⟨s5, t5, m1, m2, m3, m4, m5, m6, m7, m8⟩ : ∃ s5, Turn w s4 (.node { q.addr with port := p } (ping { q.addr with port := p } :: o)) s5 ∧
      s5.lookup = s4.lookup ∧ s5.down = s4.down ∧ s5.swarm = { s4.torrent with dht := [] } ∧ s5.dht.manTodo = ping { q.addr with port := p } :: o ∧
      s5.dht.man.status = .running ∧ s5.dht.conAlive = s4.dht.conAlive ∧ s5.dht.conTodo = s4.dht.conTodo ∧
      s5.dht.answers = s4.dht.answers ∧ s5.dht.commands = s4.dht.commands :=
    ⟨_, .node (.dhtTakes (s := s4.torrent) d2 d3) (.direct (s := s4.nodes) (ev := .peerNode _) hm4 trivial (.peerNode hrun4 hat)),
      rfl, rfl, rfl, rfl, hrun4, rfl, rfl, rfl, rfl⟩
  have run5 := run4.snoc ⟨by rw [hdn4]; exact hp, t5⟩
  -- it hands over the ping
  have hc5 : s5.dht.commands.length < 1024 := by
    rw [m8.2, hd4]; simp only [freeCommands] at hf; omega
  have hal5 : s5.dht.conAlive = true := by rw [m6, hd4]; exact h1
  obtain ⟨s6, t6, n1, n2, n3, n4, n5, n6, n7, n8, n9⟩ : ∃ s6, Turn w s5 (.dht { put := some (.manager, .query OWN_CHANNEL { q.addr with port := p } .ping) }) s6 ∧
      s6.lookup = s5.lookup ∧ s6.down = s5.down ∧ s6.swarm = s5.swarm ∧ s6.dht.manTodo = o ∧
      s6.dht.man.status = .running ∧ s6.dht.conAlive = s5.dht.conAlive ∧ s6.dht.conTodo = s5.dht.conTodo ∧
      s6.dht.answers = s5.dht.answers ∧ s6.dht.commands.length = s5.dht.commands.length + 1 :=
    ⟨_, .dht ⟨by simp, by simp, rfl, rfl⟩ (.putCommand (s := s5.nodes) m5 m4 hal5 hc5),
      rfl, rfl, rfl, rfl, m5, rfl, rfl, rfl, by simp [State.nodes]⟩
  have run6 := run5.snoc ⟨by rw [m2, hdn4]; exact hp, t6⟩
  have ho' : o = [] := by
    rcases ho with ⟨_, _, _, ns, ho, _⟩ | ⟨_, _, ho⟩
    · have := lookup_none ht h0 (h.trans run6) (ns := ns) (rest := []) (by rw [n4, ho])
      rw [n1, m1, hl4, h4] at this; cases this
    · exact ho
  subst ho'
  obtain ⟨m8, m9⟩ := m8
  refine ⟨_, s6, run6, by simp, ⟨?_, ?_, ?_, ?_, h5, h6, h7⟩, ⟨?_, ?_, ?_, ?_, ?_⟩, n5, n4, ?_, by simp [lookTime], by
    simp [dhtEvents, arrivals], by simp [readsFrom, torrentEvents]⟩
  · rw [n6]; exact hal5
  · rw [n7, m7, hd4]; exact h2
  · rw [n8, m8, hd4]; exact h3
  · rw [n1, m1, hl4]; exact h4
  · rw [n3, m3]; exact d1
  · rw [n3, m3]; exact d4
  · rw [n3, m3]; show (s4.swarm.links q).recv.Inv; rw [d5]; exact j3
  · rw [n3, m3]; show (s4.swarm.links q).recv.dataLen = 0; rw [d5]; exact j4
  · rw [n3, m3]
  · simp only [freeCommands] at hf ⊢
    rw [n9, m9, hd4]; omega

/-- A peer fills the queue of commands. -/
theorem tells_nodes (ht : Reachable u.table) (h0 : Started w u s0) {l : Lookup} {since : Nat} {q : Peer} (p : U16) (n : Nat) :
    ∀ {es s}, Run w s0 es s → .exits ∉ es → Halted s l since → Talks s q → s.dht.man.status = .running → s.dht.manTodo = [] →
    freeCommands s = n →
    ∃ es' s', Run w s es' s' ∧ Halted s' l since ∧ freeCommands s' = 0 ∧ lookTime es' = 0 ∧ arrivals (dhtEvents es') = [] ∧
      readsFrom q (torrentEvents es') = List.replicate n (wire (.port p)) := by
  induction n with
  | zero => intro es s _ _ hh _ _ _ hn; exact ⟨[], s, .nil, hh, hn, rfl, rfl, rfl⟩
  | succ n ih =>
    intro es s h hx hh hq hr hm hn
    obtain ⟨es1, s1, k1, k2, k3, k4, k5, k6, k7, k8, k9, k10⟩ := tells_node ht h0 h hx hh hq hr hm (by omega) p
    obtain ⟨es2, s2, j1, j2, j3, j4, j5, j6⟩ := ih (h.trans k1) (by simp [hx, k2]) k3 k4 k5 k6 (by omega)
    refine ⟨_, s2, k1.trans j1, j2, j3, ?_, ?_, ?_⟩
    · simp only [lookTime, List.map_append, List.sum_append] at *; omega
    · rw [dhtEvents, List.filterMap_append]
      exact (arrivals_append _ _).trans (by rw [← dhtEvents, ← dhtEvents, k9, j5]; rfl)
    · have : readsFrom q (torrentEvents (es1 ++ es2)) = readsFrom q (torrentEvents es1) ++ readsFrom q (torrentEvents es2) := by
        simp [readsFrom, torrentEvents, List.filterMap_append]
      rw [this, k10, j6]; rfl

/-- Where nothing has been read yet, the receive buffer is the initial one. -/
theorem nothing_read (h0 : Started w u s0) (h : Run w s0 es s) (q : Peer) (hc : (s.swarm.links q).con = .reading)
    (hn : readsFrom q (torrentEvents es) = []) : (s.swarm.links q).recv = .init := by
  obtain ⟨k, hk, hf⟩ := started_torrent h0 h
  have hn' : readsFrom q k = [] := by
    rw [← hn, ← hf]
    simp only [readsFrom, List.filterMap_filter]
    congr 1
    funext e
    cases e <;> try rfl
    next x => cases x <;> rfl
  have := Swarm.run_read hk (fun q => by
    have h := h0.swarm
    simp only [Swarm.State.start] at h
    obtain ⟨tm, _, h⟩ := Res.bind_eq_ok.mp h
    obtain ⟨pend, _, h⟩ := Res.bind_eq_ok.mp h
    rw [← Res.ok.inj h]) q
  have hc' : (s.torrent.links q).con = .reading := hc
  simp only [Swarm.ReadInv, hc', hn'] at this
  have := this []
  simp [RecvState.run] at this
  exact this.1.symm

/-- C124 is violated for ever: in the situation of `C124_stalls_violated`, if the lookup knows some node and a peer has just
shaken hands, at most 1024 messages of this peer about a DHT node of its own make the halt permanent: the end of the
pause does not help, whatever happens, nothing is taken from the socket and nothing is sent any more. -/
theorem C124_forever_violated (w : World) (u : Setup) (s0 s : State) (es : List Event) (ht : Reachable u.table)
    (hint : ∀ n : Nat, n < 2 ^ 32 → w.env.lib.intOk n = true) (h0 : Started w u s0) (h : Run w s0 es s) (hx : .exits ∉ es)
    (halive : s.dht.conAlive = true) (hcon : s.dht.conTodo = []) (l : Lookup) (since : Nat) (hl : s.lookup = some l)
    (hla : l.alive = true) (hlt : l.todo = []) (hsl : l.task.phase = .sleeping since) (late : List PeersAnswer)
    (hne : late ≠ []) (hn : (s.dht.answers LOOKUP_CHANNEL).length + late.length = 2 ^ 6 + 1) (hd : (late.map (·.tid)).Nodup)
    (hlate : ∀ x ∈ late, Outstanding (conHistory (dhtEvents es)) x.tid .getPeers LOOKUP_CHANNEL ∧
      Sendable w.env.lib.utf8 x.message ∧ x.message.intoBytes.length ≤ 2 * 1300)
    (hnodes : l.task.nodes ≠ []) (hrun : s.dht.man.status = .running) (hman : s.dht.manTodo = []) (hdht : s.swarm.dht = [])
    (q : Peer) (hq : s.swarm.Spawned q) (hread : (s.swarm.links q).con = .reading)
    (hnew : readsFrom q (torrentEvents es) = []) (p : U16) :
    ∃ es1 s1 n, Run w s es1 s1 ∧ lookTime es1 = 0 ∧ n ≤ 1024 ∧ readsFrom q (torrentEvents es1) = List.replicate n (wire (.port p)) ∧
      arrivals (dhtEvents es1) = late.map (fun x => (some x.sender, x.message.intoBytes)) ∧
      ∀ es2 s2, Run w s1 es2 s2 → arrivals (dhtEvents es2) = [] ∧ sent (dhtEvents es2) = [] := by
  have hrecv := nothing_read h0 h q hread hnew
  obtain ⟨es1, s1, j1, j2, j3, hh, st, mt, sw⟩ := late_halts ht hint h0 h hx halive hcon l since hl hla hlt hsl late hne hn hd hlate
  have hx1 : .exits ∉ es ++ es1 := by
    intro hm
    rcases List.mem_append.mp hm with hm | hm
    · exact hx hm
    · obtain ⟨y, hy⟩ := j2 _ hm; cases hy
  obtain ⟨es2, s2, k1, k2, k3, k4, k5, k6⟩ := tells_nodes ht h0 (q := q) p _ (h.trans j1) hx1 hh
    ⟨by rw [sw]; exact hq, by rw [sw]; exact hread, by rw [sw, hrecv]; exact RecvState.init_inv, by rw [sw, hrecv]; rfl,
      by rw [sw]; exact hdht⟩ (st.trans hrun) (mt.trans hman) rfl
  have hdhts : ∀ e ∈ es1, ∃ y, e = .dht y := j2
  have hjam : LookupJam s2 := by
    obtain ⟨r, rest, hw⟩ := k2.waits
    refine ⟨k2.alive, ?_, r, rest, hw, k2.full⟩
    rw [k3]
    simp only [lookupOwes, k2.lookup, k2.sleeps]
    have := List.length_pos_iff.mpr hnodes
    exact Nat.lt_of_lt_of_le this (Nat.le_add_left _ _)
  refine ⟨es1 ++ es2, s2, freeCommands s1, j1.trans k1, ?_, by simp only [freeCommands]; omega, ?_, ?_, fun es3 s3 r3 => ?_⟩
  · have : lookTime es1 = 0 := by
      clear j3 j1 hx1
      induction es1 with
      | nil => rfl
      | cons e es1 ih =>
        obtain ⟨y, rfl⟩ := j2 e (by simp)
        have := ih (fun e he => j2 e (List.mem_cons_of_mem _ he)) (fun e he => j2 e (List.mem_cons_of_mem _ he))
        simpa [lookTime] using this
    simp only [lookTime, List.map_append, List.sum_append] at *; omega
  · have : readsFrom q (torrentEvents es1) = [] := by
      have : torrentEvents es1 = [] := by
        rw [torrentEvents, List.filterMap_eq_nil_iff]
        intro e he
        obtain ⟨y, rfl⟩ := j2 e he
        rfl
      rw [this]; rfl
    have app : readsFrom q (torrentEvents (es1 ++ es2)) = readsFrom q (torrentEvents es1) ++ readsFrom q (torrentEvents es2) := by
      simp [readsFrom, torrentEvents, List.filterMap_append]
    rw [app, this, k6]; rfl
  · rw [dhtEvents, List.filterMap_append]
    refine (arrivals_append _ _).trans ?_
    rw [← dhtEvents, ← dhtEvents, j3, k5, List.append_nil]
  · exact (jam_run r3 (.inr hjam)).2.2

/-! ## The hypotheses can be met -/

/-- After the end of the process nothing happens. -/
theorem done_of_exits (h : Run w s es s') (hx : .exits ∈ es) : s'.down.phase = .done := by
  induction h with
  | nil => cases hx
  | snoc hr hs ih =>
    rcases List.mem_append.mp hx with hx | hx
    · exact absurd (ih hx) hs.1
    · cases List.mem_singleton.mp hx
      cases hs.2 with
      | exits h => cases h; rfl

/-- Both parts of C120 apply to this state: it can end, and 1281 datagrams can prevent this; then the table task hangs. -/
example : ∃ w u s0 s es, Started w u s0 ∧ Run w s0 es s ∧
    (∃ es' s', Run w s (es' ++ [.exits]) s' ∧ ∀ e ∈ es', Unaided e) ∧
    ∃ es1 s1 s2, Run w s es1 s1 ∧ (arrivals (dhtEvents es1)).length = 1281 ∧ Step w s1 .signal s2 ∧
      TableHangs s2 := by
  obtain ⟨s0, s, h0, h, f1, f2, f3, f4, f5, f6, f7⟩ := ex_end
  refine ⟨_, _, s0, s, _, h0, h, ?_, ?_⟩
  · exact C120_ends_partial _ _ _ _ _ oneNode_reachable h0 h (by simp [joinsA, firstPing]) (fun _ _ q rest hq => by rw [f3] at hq; cases hq)
      (fun _ _ c r rest hq => by rw [f3] at hq; cases hq)
  · obtain ⟨es1, s1, s2, r1, a1, _, st, hall⟩ := C120_hangs_violated _ _ _ _ _ oneNode_reachable (fun _ _ => rfl) rfl h0 h
      (by simp [joinsA, firstPing]) f1 f2 f3 f4 f5 ⟨exId 7#8, exAddr 1, some 5⟩ (by rw [f7]; simp) (exAddr 9) (exId 8#8)
      (ascii "aa") (by decide +kernel)
    refine ⟨es1, s1, s2, r1, by rw [a1, List.length_replicate, f6], st, Classical.byContradiction fun hn => ?_⟩
    have r2 := (h.trans r1).snoc st
    have hx : .exits ∉ (joinsA ++ [firstPing]) ++ es1 ++ [.signal] := fun hx => by
      have := done_of_exits r2 hx
      cases st.2 with
      | signal hd => cases hd; cases this
    obtain ⟨es3, s3, r3, _⟩ := (C120_exact_partial _ _ _ _ _ oneNode_reachable h0 r2 hx).2 hn
    exact (hall _ _ r3).1 (by simp)

/-- The situation of `C124_forever_violated` is reached: one peer, one node, and 65 rounds in which the node did not answer in
time. -/
example : ∃ u s0 s es, Started slowWorld u s0 ∧ Run slowWorld s0 es s ∧ ∃ es1 s1, Run slowWorld s es1 s1 ∧
    (arrivals (dhtEvents es1)).length = 65 ∧
      ∀ es2 s2, Run slowWorld s1 es2 s2 → arrivals (dhtEvents es2) = [] ∧ sent (dhtEvents es2) = [] := by
  have : play slowWorld { demoSetup with table := oneNode } (joinsA.map .ev ++ joinsNode ++ (List.range 65).flatMap unansweredRound) (fun es s =>
      es.all goesOn && s.dht.conAlive && s.dht.conTodo.isEmpty && (s.dht.answers LOOKUP_CHANNEL).isEmpty &&
      (match s.lookup with
        | some l => l.alive && l.todo.isEmpty && decide (l.task.phase = .sleeping l.task.now) && decide (l.task.nodes ≠ [])
        | none => false) &&
      lateAnswers.all (fun x => decide (s.dht.con.pending.get? x.tid = some (.getPeers, LOOKUP_CHANNEL)) &&
        decide (x.message.intoBytes.length ≤ 2 * 1300)) &&
      decide (s.dht.man.status = .running) && decide (s.dht.manTodo = []) && s.swarm.dht.isEmpty &&
      decide (peerA ∈ s.swarm.tm.connection.spawned) && decide ((s.swarm.links peerA).con = .reading) &&
      (readsFrom peerA (torrentEvents es)).isEmpty) = some true := by decide +kernel
  obtain ⟨s0, es, s, h0, h, hf⟩ := play_sound this
  simp only [Bool.and_eq_true, List.isEmpty_iff, List.all_eq_true, decide_eq_true_eq] at hf
  obtain ⟨⟨⟨⟨⟨⟨⟨⟨⟨⟨⟨f1, f2⟩, f3⟩, f4⟩, f5⟩, f6⟩, f7⟩, f8⟩, f9⟩, f10⟩, f11⟩, f12⟩ := hf
  split at f5
  · next l hl =>
    simp only [Bool.and_eq_true, List.isEmpty_iff, decide_eq_true_eq] at f5
    obtain ⟨⟨⟨g1, g2⟩, g3⟩, g4⟩ := f5
    obtain ⟨k, hk, hd⟩ := started_dht h0 h
    have hcon : conHistory k = conHistory (dhtEvents es) := by
      have := filterMap_run hk (·.con) (fun o => rfl) (l1 := k) (l2 := []) (by simp)
      rw [hd] at this
      exact this
    obtain ⟨es1, s1, n, r1, _, _, _, a1, hall⟩ := C124_forever_violated slowWorld _ s0 s es oneNode_reachable (fun _ _ => rfl) h0 h
      (fun hm => by cases f1 _ hm) f2 f3 l l.task.now hl g1 g2 g3 lateAnswers (by decide) (by rw [f4]; rfl) (by decide +kernel)
      (fun x hx => by
        have := f6 x hx
        refine ⟨?_, ?_, this.2⟩
        · rw [← hcon]; exact (pending_outstanding (Flow.run hk).con _ _ _).mp this.1
        · obtain ⟨i, _, rfl⟩ := List.mem_map.mp hx
          exact ⟨by show 5 < _; decide, by decide, by show (ascii "tok").length < 2 ^ 64; decide⟩)
      g4 f7 f8 f9 peerA f10 f11 f12 7#16
    exact ⟨_, s0, s, es, h0, h, es1, s1, r1, by rw [a1]; rfl, hall⟩
  · cases f5

end Nargun.Program
