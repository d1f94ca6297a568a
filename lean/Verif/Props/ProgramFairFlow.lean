import Verif.Props.ProgramFair

/-! # Everything that waits in the DHT is worked off, in every fair execution: C92 -/

set_option linter.unusedSimpArgs false

namespace Nargun.Program

open Nargun Dht Krpc Spec DhtManager DhtSystem

variable {w : World} {u : Setup} {σ : Nat → State} {ev : Nat → Option Event}

/-- A number that gets larger again and again passes every bound. -/
theorem reaches (f : Nat → Nat) (hm : ∀ n, f n ≤ f (n + 1)) (ho : ∀ n, ∃ m, n ≤ m ∧ f m < f (m + 1)) (N n : Nat) :
    ∃ m, n ≤ m ∧ N ≤ f m := by
  induction N with
  | zero => exact ⟨n, Nat.le_refl _, Nat.zero_le _⟩
  | succ N ih =>
    obtain ⟨m, h1, h2⟩ := ih
    obtain ⟨k, h3, h4⟩ := ho m
    have : f m ≤ f k := by
      clear h4
      induction h3 with
      | refl => exact Nat.le_refl _
      | step _ ih => exact Nat.le_trans ih (hm _)
    exact ⟨k + 1, by omega, by omega⟩

/-! ## Steps -/

section
variable {env : Env} {pause : Nat → Nat} {a b : DhtSystem.State} {x : DhtSystem.Entry}

theorem conTodo_step (h : DhtSystem.Step env pause a x b) (hc : a.conTodo ≠ []) :
    b.conTodo = a.conTodo ∨ b.conTodo.length < a.conTodo.length := by
  cases h with
  | datagram _ h | panics _ h | command _ h => exact absurd h hc
  | sends _ h | putQuery _ h | putAnswer _ h => rw [h]; simp
  | _ => exact .inl rfl

theorem takenQueries_step (h : DhtSystem.Step env pause a x b) :
    a.queries.length ≤ (takenQueries (manHistory [x])).length + b.queries.length := by
  cases h with
  | putQuery => simp; omega
  | takeQuery _ h => rw [h]; simp [takenQueries, manHistory]; omega
  | _ => exact Nat.le_add_left _ _

theorem takenAnswers_step (h : DhtSystem.Step env pause a x b) :
    (a.answers OWN_CHANNEL).length ≤ (takenByManager (manHistory [x])).length + (b.answers OWN_CHANNEL).length := by
  cases h with
  | @putAnswer c r =>
    by_cases hc : OWN_CHANNEL = c
    · subst hc; simp; omega
    · simp [hc]
  | takeAnswer _ h => rw [h]; simp [takenByManager, manHistory]; omega
  | @hear c r rest hco h =>
    have : ¬ OWN_CHANNEL = c := fun h => hco h.symm
    simp [this]
  | _ => exact Nat.le_add_left _ _

end

section
variable (ht : Reachable u.table) (h0 : Started w u (σ 0)) (hx : Execution w σ ev) (hf : FairDht w σ ev)
  (hn : ∀ n, ev n ≠ some .exits) (hal : ∀ n, (σ n).dht.conAlive = true) (hrun : ∀ n, (σ n).dht.man.status = .running)
  (hj : ∀ n, ¬ (TableJam (σ n) ∨ LookupJam (σ n)))
include ht h0 hx hf hn hrun hj

theorem table_returns_always (n : Nat) : ∃ m, n ≤ m ∧ (σ m).dht.manTodo = [] := by
  refine Classical.byContradiction fun hc => ?_
  obtain ⟨m, _, h⟩ := table_returns ht h0 hx hf.toFair hn (n := n) (fun m _ => hrun m) (fun m hm h => hc ⟨m, hm, h⟩)
  rcases h with h | ⟨h, _⟩
  · exact hj m (.inl h)
  · exact hj m (.inr h)

omit hf hj in
/-- The table task can take a query whenever it is in its loop and there is one. -/
theorem takes_query_possible {m : Nat} (hm : (σ m).dht.manTodo = []) (hq : (σ m).dht.queries ≠ []) :
    Possible w (σ m) TableTakesQuery := by
  obtain ⟨l, hl, _⟩ := started_dht h0 (exec_run hx m)
  cases hqs : (σ m).dht.queries with
  | nil => exact absurd hqs hq
  | cons q qs =>
    obtain ⟨m', outs, j1, j2⟩ := (C99_total ht .nil (Flow.run hl).man).1 id q
    exact ⟨.dht { man := some ⟨.query q, outs⟩ }, _, ⟨q, outs, rfl⟩, alive_exec h0 hx hn m,
      .dht ⟨by rintro _ ⟨⟩; trivial, by simp, rfl, rfl⟩
        (.takeQuery (s := (σ m).nodes) hm hqs (.query (hrun m) (fun l => .refl _) j1))⟩

omit hf hj in
/-- The table task can take an answer whenever it is in its loop and there is one. -/
theorem takes_answer_possible {m : Nat} (hm : (σ m).dht.manTodo = []) (hq : (σ m).dht.answers OWN_CHANNEL ≠ []) :
    Possible w (σ m) TableTakesAnswer := by
  obtain ⟨l, hl, _⟩ := started_dht h0 (exec_run hx m)
  cases hqs : (σ m).dht.answers OWN_CHANNEL with
  | nil => exact absurd hqs hq
  | cons r rs =>
    obtain ⟨m', outs, j1, j2⟩ := (C99_total ht .nil (Flow.run hl).man).2.1 r
    exact ⟨.dht { man := some ⟨.resp r, outs⟩ }, _, ⟨r, outs, rfl⟩, alive_exec h0 hx hn m,
      .dht ⟨by rintro _ ⟨⟩; trivial, by simp, rfl, rfl⟩
        (.takeAnswer (s := (σ m).nodes) hm hqs (.resp (hrun m) j1))⟩

include hal

/-- The lookup takes an answer from its queue when it is full. -/
theorem lookup_hears {n : Nat} {r : FromConResp} {rest : List Effect}
    (hc : ∀ m, n ≤ m → (σ m).dht.conTodo = .toRequester LOOKUP_CHANNEL r :: rest)
    (hq : ∀ m, n ≤ m → 64 ≤ ((σ m).dht.answers LOOKUP_CHANNEL).length) : False := by
  -- the lookup is there, and there is room for what it has to hand over
  have look : ∀ m, n ≤ m → ∃ l, (σ m).lookup = some l ∧ l.alive = true ∧ lookupOwes (σ m) ≤ freeCommands (σ m) := by
    intro m hm
    obtain ⟨i1, i2⟩ := looks_inv h0 (exec_run hx m)
    have howed := owed_run ht h0 (exec_run hx m) (k := LOOKUP_CHANNEL) (by decide)
    simp only [if_true] at howed
    have hasked : lookupAsked (upto ev m) ≠ [] := by
      intro hn'
      rw [hn'] at howed
      simp only [owed, List.length_nil] at howed
      have := hq m hm
      omega
    cases hl : (σ m).lookup with
    | none => exact absurd hl (i1 hasked)
    | some l =>
      exact ⟨l, rfl, i2 l hl (hal m), Nat.not_lt.mp fun h => hj m (.inr ⟨hal m, h, r, rest, hc m hm, hq m hm⟩)⟩
  -- it takes no answer
  obtain ⟨k1, hk1, c1⟩ := fair_stops hf.lookupHears (n := n) (fun m e hm' he hw => by
    cases e with
    | hears r sent =>
      have hstep := hx.step m _ he
      have q2 := hq (m + 1) (by omega)
      obtain ⟨l, hl, _⟩ := started_dht h0 (exec_run hx m)
      have h5 : ((σ m).dht.answers LOOKUP_CHANNEL).length ≤ 64 := (C106_queues hl).2.2.2.2.2.2.2.2 _ (by decide)
      generalize σ (m + 1) = s' at hstep q2
      cases hstep.2 with
      | hears _ _ _ k4 =>
        cases k4 with
        | hear _ h =>
          have h : (σ m).dht.answers LOOKUP_CHANNEL = _ := h
          rw [h] at h5
          simp only [if_true, List.length_cons] at q2 h5
          omega
    | _ => exact hw)
  -- so it is handing over queries, or sleeps
  have busy : ∀ m, k1 ≤ m → ∃ l, (σ m).lookup = some l ∧ l.alive = true ∧
      (l.todo ≠ [] ∨ ∃ since, l.task.phase = .sleeping since) := by
    intro m hm
    obtain ⟨l, q1, q2, _⟩ := look m (by omega)
    refine ⟨l, q1, q2, ?_⟩
    cases hp : l.task.phase with
    | sleeping since => exact .inr ⟨since, rfl⟩
    | fetching since =>
      refine .inl fun htodo => ?_
      have j2 := hq m (by omega)
      cases han : (σ m).dht.answers LOOKUP_CHANNEL with
      | nil => rw [han] at j2; simp at j2
      | cons r' rs =>
        exact absurd ⟨.hears r' _, _, trivial, alive_exec h0 hx hn m,
          .hears q1 q2 htodo (.hear (s := (σ m).nodes) (by decide) han) (.answer (show ((σ m).looking l).phase = _ from hp))⟩
          (c1 m (by omega))
  -- how it goes on
  have next : ∀ m l, k1 ≤ m → (σ m).lookup = some l → l.alive = true → ∃ l', (σ (m + 1)).lookup = some l' ∧
      ((∃ since, l.task.phase = .fetching since) → ∃ since, l'.task.phase = .fetching since) ∧
      ((∃ since, l'.task.phase = .fetching since) ∨ l'.todo.length ≤ l.todo.length) ∧
      (l.todo ≠ [] → l'.todo.length ≤ l.todo.length) ∧
      (∀ e, ev m = some e → LookupAsks e → l'.todo.length < l.todo.length) := by
    intro m l hm hl hla
    obtain ⟨l', hl', _⟩ := look (m + 1) (by omega)
    refine ⟨l', hl', ?_⟩
    cases he : ev m with
    | none =>
      rw [hx.idle m he, hl] at hl'
      cases hl'
      exact ⟨id, .inr (Nat.le_refl _), fun _ => Nat.le_refl _, by simp⟩
    | some e =>
      have hstep := hx.step m e he
      have hbusy := busy m hm
      have hheard : ¬ LookupHears e := fun h => by
        cases e with
        | hears r' sent => exact c1 m hm ⟨_, _, h, hstep⟩
        | _ => exact h
      have same : (σ m).lookup = some l' → ¬ LookupAsks e → ((∃ since, l.task.phase = .fetching since) →
            ∃ since, l'.task.phase = .fetching since) ∧
          ((∃ since, l'.task.phase = .fetching since) ∨ l'.todo.length ≤ l.todo.length) ∧
          (l.todo ≠ [] → l'.todo.length ≤ l.todo.length) ∧
          (∀ e', some e = some e' → LookupAsks e' → l'.todo.length < l.todo.length) := by
        intro h hno
        rw [hl] at h; cases h
        exact ⟨id, .inr (Nat.le_refl _), fun _ => Nat.le_refl _, by rintro _ ⟨⟩ h; exact absurd h hno⟩
      generalize σ (m + 1) = s' at hstep hl'
      cases hstep.2 with
      | lookup h => rw [hl] at h; cases h
      | look h1 _ h3 h4 h5 =>
        rw [hl] at h1; cases h1
        cases hl'
        cases h5 with
        | tick => exact ⟨fun _ => ⟨_, rfl⟩, .inl ⟨_, rfl⟩, fun h => absurd h3 h, by rintro _ ⟨⟩ h; exact absurd h id⟩
        | timeout h =>
          obtain ⟨l2, b1, _, b3⟩ := hbusy
          rw [hl] at b1; cases b1
          rcases b3 with b3 | ⟨since, b3⟩
          · exact absurd h3 b3
          · rw [show l.task.phase = _ from h] at b3; cases b3
        | _ => exact absurd h4 id
      | lookIdle h1 h4 h5 =>
        rw [hl] at h1; cases h1
        cases hl'
        cases h5 with
        | pass => exact ⟨id, .inr (Nat.le_refl _), fun _ => Nat.le_refl _, by rintro _ ⟨⟩ h; exact absurd h id⟩
        | reorder => exact ⟨id, .inr (Nat.le_refl _), fun _ => Nat.le_refl _, by rintro _ ⟨⟩ h; exact absurd h id⟩
        | _ => exact absurd h4 id
      | asks h1 _ h3 =>
        rw [hl] at h1; cases h1
        cases hl'
        rw [h3]
        exact ⟨id, .inr (by simp), fun _ => by simp, by rintro _ ⟨⟩ _; simp⟩
      | asksNobody _ _ _ h4 => rw [hal m] at h4; cases h4
      | hears => exact absurd trivial hheard
      | _ => exact same hl' id
  -- the length of what it has to hand over
  let todo : Nat → Nat := fun m => match (σ m).lookup with | some l => l.todo.length | none => 0
  have todo_eq : ∀ m l, (σ m).lookup = some l → todo m = l.todo.length := fun m l h => by simp only [todo, h]
  have asks_possible : ∀ m l, k1 ≤ m → (σ m).lookup = some l → l.alive = true → l.todo ≠ [] →
      Possible w (σ m) LookupAsks := by
    intro m l hm hl hla hne
    obtain ⟨l', q1, _, q3⟩ := look m (by omega)
    rw [hl] at q1; cases q1
    cases htd : l.todo with
    | nil => exact absurd htd hne
    | cons t rest =>
      obtain ⟨a, v⟩ := t
      simp only [lookupOwes, hl, htd, List.length_cons, freeCommands] at q3
      have hroom : (σ m).dht.commands.length < 1024 := by omega
      exact ⟨.asks a v, _, trivial, alive_exec h0 hx hn m, .asks hl hla htd
        (.ask (s := (σ m).nodes) (by decide) (hal m) hroom)⟩
  -- in a round: it hands over its queries and then takes an answer
  by_cases hfetch : ∃ k, k1 ≤ k ∧ ∃ l since, (σ k).lookup = some l ∧ l.task.phase = .fetching since
  · obtain ⟨k, hk, l0, since0, f1, f2⟩ := hfetch
    have fetching : ∀ m, k ≤ m → ∃ l, (σ m).lookup = some l ∧ l.alive = true ∧ l.todo ≠ [] := by
      intro m hm
      have : ∃ l since, (σ m).lookup = some l ∧ l.task.phase = .fetching since := by
        induction hm with
        | refl => exact ⟨l0, since0, f1, f2⟩
        | @step m hm ih =>
          have hm : k ≤ m := hm
          obtain ⟨l, since, g1, g2⟩ := ih
          obtain ⟨l2, g3, g4, _⟩ := busy m (by omega)
          rw [g1] at g3; cases g3
          obtain ⟨l', p1, p2, _⟩ := next m l (by omega) g1 g4
          obtain ⟨since', p3⟩ := p2 ⟨since, g2⟩
          exact ⟨l', since', p1, p3⟩
      obtain ⟨l, since, g1, g2⟩ := this
      obtain ⟨l2, g3, g4, g5⟩ := busy m (by omega)
      rw [g1] at g3; cases g3
      refine ⟨l, g1, g4, g5.resolve_right ?_⟩
      rintro ⟨since', g6⟩
      rw [g2] at g6; cases g6
    obtain ⟨k2, hk2, c2⟩ := settles todo k (fun m hm => by
      obtain ⟨l, g1, g2, g3⟩ := fetching m hm
      obtain ⟨l', p1, _, _, p4, _⟩ := next m l (by omega) g1 g2
      rw [todo_eq m l g1, todo_eq _ l' p1]
      exact p4 g3)
    obtain ⟨k3, hk3, c3⟩ := fair_stops hf.lookupAsks (n := k2) (fun m e hm' he hw => by
      obtain ⟨l, g1, g2, g3⟩ := fetching m (by omega)
      obtain ⟨l', p1, _, _, _, p5⟩ := next m l (by omega) g1 g2
      have := c2 m hm'
      rw [todo_eq m l g1, todo_eq _ l' p1] at this
      have := p5 e he hw
      omega)
    obtain ⟨l, g1, g2, g3⟩ := fetching k3 (by omega)
    exact c3 k3 (Nat.le_refl _) (asks_possible k3 l (by omega) g1 g2 g3)
  -- between two rounds: it hands over its queries, and then begins a round
  · have sleeping : ∀ m, k1 ≤ m → ∃ l since, (σ m).lookup = some l ∧ l.alive = true ∧ l.task.phase = .sleeping since := by
      intro m hm
      obtain ⟨l, g1, g2, _⟩ := busy m hm
      cases hp : l.task.phase with
      | sleeping since => exact ⟨l, since, g1, g2, hp⟩
      | fetching since => exact absurd ⟨m, hm, l, since, g1, hp⟩ hfetch
    have shorter : ∀ m l, k1 ≤ m → (σ m).lookup = some l → l.alive = true → ∃ l', (σ (m + 1)).lookup = some l' ∧
        l'.todo.length ≤ l.todo.length ∧ (∀ e, ev m = some e → LookupAsks e → l'.todo.length < l.todo.length) := by
      intro m l hm g1 g2
      obtain ⟨l', p1, _, p3, _, p5⟩ := next m l hm g1 g2
      refine ⟨l', p1, p3.resolve_left ?_, p5⟩
      rintro ⟨since, g⟩
      exact hfetch ⟨m + 1, by omega, l', since, p1, g⟩
    obtain ⟨k2, hk2, c2⟩ := settles todo k1 (fun m hm => by
      obtain ⟨l, _, g1, g2, _⟩ := sleeping m hm
      obtain ⟨l', p1, p2, _⟩ := shorter m l hm g1 g2
      rw [todo_eq m l g1, todo_eq _ l' p1]
      exact p2)
    obtain ⟨k3, hk3, c3⟩ := fair_stops hf.lookupAsks (n := k2) (fun m e hm' he hw => by
      obtain ⟨l, _, g1, g2, _⟩ := sleeping m (by omega)
      obtain ⟨l', p1, _, p3⟩ := shorter m l (by omega) g1 g2
      have := c2 m hm'
      rw [todo_eq m l g1, todo_eq _ l' p1] at this
      have := p3 e he hw
      omega)
    refine wakes h0 hx hf.toFair hn (k6 := k3) fun m hm => ?_
    obtain ⟨l, since, g1, g2, g3⟩ := sleeping m (by omega)
    refine ⟨l, since, g1, g2, ?_, g3⟩
    exact Classical.byContradiction fun hne => c3 m hm (asks_possible m l (by omega) g1 g2 hne)

/-- The socket task comes back to its loop. -/
theorem socket_returns (n : Nat) : ∃ m, n ≤ m ∧ (σ m).dht.conTodo = [] := by
  refine Classical.byContradiction fun hc => ?_
  have busy : ∀ m, n ≤ m → (σ m).dht.conTodo ≠ [] := fun m hm h => hc ⟨m, hm, h⟩
  obtain ⟨k1, hk1, c1⟩ := settles (fun m => (σ m).dht.conTodo.length) n (fun m hm' => by
    rcases dht_next hx m with ⟨h1, _⟩ | ⟨e, x, _, _, h3⟩
    · rw [h1]; exact Nat.le_refl _
    · exact (socket_todo_step h3 (busy m hm')).1)
  obtain ⟨k2, hk2, c2⟩ := fair_stops hf.socketWorks (n := k1) (fun m e hm' he hw => by
    rcases dht_next hx m with ⟨_, h2⟩ | ⟨e', x, h1, h2, h3⟩
    · have := h2 e he
      cases e <;> first | exact hw | simp [dhtEvents] at this
    · rw [he] at h1
      cases h1
      cases e with
      | dht y =>
        simp only [dhtEvents, List.filterMap_cons, List.filterMap_nil, List.cons.injEq, and_true] at h2
        subst h2
        have c1 : (σ (m + 1)).dht.conTodo.length = (σ m).dht.conTodo.length := c1 m hm'
        rcases (socket_todo_step h3 (busy m (by omega))).2.1 hw with h | h
        · have h : (σ (m + 1)).dht.conTodo.length < (σ m).dht.conTodo.length := h
          omega
        · rw [hal (m + 1)] at h; cases h
      | _ => exact hw)
  have same : ∀ m, k2 ≤ m → (σ m).dht.conTodo = (σ k2).dht.conTodo := by
    intro m hm
    induction hm with
    | refl => rfl
    | @step m hm ih =>
      have hm : k2 ≤ m := hm
      rw [← ih]
      rcases dht_next hx m with ⟨h1, _⟩ | ⟨e, x, _, _, h3⟩
      · rw [h1]
      · rcases conTodo_step h3 (busy m (by omega)) with h | h
        · exact h
        · have c1 : (σ (m + 1)).dht.conTodo.length = (σ m).dht.conTodo.length := c1 m (by omega)
          have h : (σ (m + 1)).dht.conTodo.length < (σ m).dht.conTodo.length := h
          omega
  have caps : ∀ m, (σ m).dht.queries.length ≤ 256 ∧ ((σ m).dht.answers OWN_CHANNEL).length ≤ 1024 := by
    intro m
    obtain ⟨l, hl, _⟩ := started_dht h0 (exec_run hx m)
    exact ⟨(C106_queues hl).2.2.2.2.2.1, (C106_queues hl).2.2.2.2.2.2.2.1⟩
  cases hc2 : (σ k2).dht.conTodo with
  | nil => exact busy k2 (by omega) hc2
  | cons f rest =>
    have todo : ∀ m, k2 ≤ m → (σ m).dht.conTodo = f :: rest := fun m hm => (same m hm).trans hc2
    cases f with
    | datagram a b =>
      exact c2 k2 (Nat.le_refl _) ⟨.dht { sent := some (a, b) }, _, .inr ⟨_, rfl⟩, alive_exec h0 hx hn k2,
        .dht ⟨by simp, by simp, rfl, rfl⟩ (.sends (s := (σ k2).nodes) (hal k2) hc2)⟩
    | toManager q =>
      have full : ∀ m, k2 ≤ m → 256 ≤ (σ m).dht.queries.length := fun m hm => Nat.not_lt.mp fun hlt =>
        c2 m hm ⟨.dht {}, _, .inl rfl, alive_exec h0 hx hn m, .dht ⟨by simp, by simp, rfl, rfl⟩
          (.putQuery (s := (σ m).nodes) (hal m) (todo m hm) (.inl (hrun m)) hlt)⟩
      obtain ⟨k3, hk3, c3⟩ := fair_stops hf.tableTakesQuery (n := k2) (fun m e hm' he hw => by
        have hstep := hx.step m e he
        have f1 := full (m + 1) (by omega)
        have f2 := (caps m).1
        cases e with
        | dht y =>
          obtain ⟨q', outs, hw⟩ := hw
          generalize σ (m + 1) = s' at hstep f1
          cases hstep.2 with
          | dht _ h =>
            cases h with
            | takeQuery _ h =>
              have h : (σ m).dht.queries = _ := h
              rw [h, List.length_cons] at f2
              simp only at f1
              omega
            | direct _ h _ => cases hw; exact absurd h id
            | outside h _ => cases hw; exact absurd h id
            | _ => cases hw
        | _ => exact hw)
      obtain ⟨m, hm, hm0⟩ := table_returns_always ht h0 hx hf hn hrun hj k3
      refine c3 m hm (takes_query_possible ht h0 hx hn hrun hm0 fun h => ?_)
      have := full m (by omega)
      rw [h] at this; simp at this
    | toRequester c r =>
      have full : ∀ m, k2 ≤ m → answersCap c ≤ ((σ m).dht.answers c).length := fun m hm => Nat.not_lt.mp fun hlt =>
        c2 m hm ⟨.dht {}, _, .inl rfl, alive_exec h0 hx hn m, .dht ⟨by simp, by simp, rfl, rfl⟩
          (.putAnswer (s := (σ m).nodes) (hal m) (todo m hm) (fun _ => .inl (hrun m)) hlt)⟩
      by_cases hco : c = OWN_CHANNEL
      · subst hco
        have full : ∀ m, k2 ≤ m → 1024 ≤ ((σ m).dht.answers OWN_CHANNEL).length := full
        obtain ⟨k3, hk3, c3⟩ := fair_stops hf.tableTakesAnswer (n := k2) (fun m e hm' he hw => by
          have hstep := hx.step m e he
          have f1 := full (m + 1) (by omega)
          have f2 := (caps m).2
          cases e with
          | dht y =>
            obtain ⟨r', outs, hw⟩ := hw
            generalize σ (m + 1) = s' at hstep f1
            cases hstep.2 with
            | dht _ h =>
              cases h with
              | takeAnswer _ h =>
                have h : (σ m).dht.answers OWN_CHANNEL = _ := h
                rw [h, List.length_cons] at f2
                simp only [if_true] at f1
                omega
              | direct _ h _ => cases hw; exact absurd h id
              | outside h _ => cases hw; exact absurd h id
              | _ => cases hw
          | _ => exact hw)
        obtain ⟨m, hm, hm0⟩ := table_returns_always ht h0 hx hf hn hrun hj k3
        refine c3 m hm (takes_answer_possible ht h0 hx hn hrun hm0 fun h => ?_)
        have := full m (by omega)
        rw [h] at this; simp at this
      · have full : ∀ m, k2 ≤ m → 64 ≤ ((σ m).dht.answers c).length := fun m hm => by
          have := full m hm
          rw [answersCap, if_neg hco] at this
          exact this
        by_cases hcl : c = LOOKUP_CHANNEL
        · subst hcl
          exact lookup_hears ht h0 hx hf hn hal hrun hj todo full
        · have howed := owed_run ht h0 (exec_run hx k2) hco
          rw [if_neg fun h => hcl h.symm, if_neg fun h => hcl h.symm] at howed
          simp only [owed] at howed
          have := full k2 (Nat.le_refl _)
          omega

end

/-! ## What is handed over is taken -/

section
variable (h0 : Started w u (σ 0)) (hx : Execution w σ ev)
include hx

omit hx in
theorem hist_succ (n : Nat) : dhtEvents (upto ev (n + 1)) = dhtEvents (upto ev n) ++ dhtEvents (ev n).toList := by
  rw [upto_succ]; exact List.filterMap_append

omit hx in
theorem hist_prefix {n m : Nat} (h : n ≤ m) : dhtEvents (upto ev n) <+: dhtEvents (upto ev m) := by
  induction h with
  | refl => exact List.prefix_refl _
  | step _ ih => exact ih.trans (by rw [Nat.succ_eq_add_one, hist_succ]; exact List.prefix_append _ _)

omit hx in
/-- The steps of other tasks on the table of peers have no outputs. -/
theorem outputs_run {env : Env} {pause : Nat → Nat} {a b : DhtSystem.State} {l : List DhtSystem.Entry}
    (h : DhtSystem.Run env pause a l b) :
    allOutputs (manHistory l) = allOutputs (manHistory (l.filter fun x => !isOthers x)) := by
  have key : ∀ x ∈ l, isOthers x = true → ∃ o, x = { man := some ⟨.others o, []⟩ } := fun x hx ho => others_entry h hx ho
  clear h
  induction l with
  | nil => rfl
  | cons x l ih =>
    have ih := ih fun y hy => key y (List.mem_cons_of_mem _ hy)
    have app : ∀ y : List DhtSystem.Entry, allOutputs (manHistory (x :: y)) = allOutputs (manHistory [x]) ++ allOutputs (manHistory y) := by
      intro y
      rw [← allOutputs_append, ← manHistory_append]; rfl
    by_cases hx : isOthers x = true
    · rw [List.filter_cons_of_neg (by simp [hx]), app, ih]
      obtain ⟨o, rfl⟩ := key x (by simp) hx
      rfl
    · rw [List.filter_cons_of_pos (by simp [hx]), app l, app (l.filter _), ih]

include h0

/-- The queues at every moment of an execution. -/
theorem exec_flow (n : Nat) :
    handedQueries (allEffects (conHistory (dhtEvents (upto ev n)))) =
      takenQueries (manHistory (dhtEvents (upto ev n))) ++ (σ n).dht.queries ++ handedQueries (σ n).dht.conTodo ∧
    handedAnswers OWN_CHANNEL (allEffects (conHistory (dhtEvents (upto ev n)))) =
      takenByManager (manHistory (dhtEvents (upto ev n))) ++ (σ n).dht.answers OWN_CHANNEL ++
        handedAnswers OWN_CHANNEL (σ n).dht.conTodo ∧
    sends (startOutputs u.table ++ allOutputs (manHistory (dhtEvents (upto ev n)))) =
      putsOfManager (dhtEvents (upto ev n)) ++ sends (σ n).dht.manTodo ∧
    puts (dhtEvents (upto ev n)) = takenCommands (conHistory (dhtEvents (upto ev n))) ++ (σ n).dht.commands ∧
    datagrams (allEffects (conHistory (dhtEvents (upto ev n)))) =
      sent (dhtEvents (upto ev n)) ++ datagrams (σ n).dht.conTodo := by
  obtain ⟨l, hl, he⟩ := started_dht h0 (exec_run hx n)
  obtain ⟨f1, f2, f3, f4, f5, _⟩ := C106_queues hl
  have g : ∀ {β : Type} (f : DhtSystem.Entry → Option β), (∀ o, f { man := some ⟨.others o, []⟩ } = none) →
      l.filterMap f = (dhtEvents (upto ev n)).filterMap f := fun f hf => by
    rw [← he]; exact filterMap_run hl f hf (List.append_nil l).symm
  have g1 : conHistory l = conHistory (dhtEvents (upto ev n)) := g _ (fun _ => rfl)
  have g2 : sent l = sent (dhtEvents (upto ev n)) := g _ (fun _ => rfl)
  have g3 : puts l = puts (dhtEvents (upto ev n)) := g _ (fun _ => rfl)
  have g4 : putsOfManager l = putsOfManager (dhtEvents (upto ev n)) := g _ (fun _ => rfl)
  have g5 : takenQueries (manHistory l) = takenQueries (manHistory (dhtEvents (upto ev n))) := by
    simp only [takenQueries, manHistory, List.filterMap_filterMap]
    exact g _ (fun _ => rfl)
  have g6 : takenByManager (manHistory l) = takenByManager (manHistory (dhtEvents (upto ev n))) := by
    simp only [takenByManager, manHistory, List.filterMap_filterMap]
    exact g _ (fun _ => rfl)
  have g7 : allOutputs (manHistory l) = allOutputs (manHistory (dhtEvents (upto ev n))) := by
    rw [← he]; exact outputs_run hl
  have f2 := f2 OWN_CHANNEL
  rw [takenAnswers, if_pos rfl] at f2
  rw [g1, g5] at f1
  rw [g1, g6] at f2
  rw [g7, g4] at f3
  rw [g3, g1] at f4
  rw [g1, g2] at f5
  exact ⟨f1, f2, f3, f4, f5⟩

end

/-- What has been handed over at one moment has been taken when as much has been taken. -/
theorem handed_taken {α : Type} {F T : Nat → List α} (hF : ∀ n m, n ≤ m → F n <+: F m) (hT : ∀ n, T n <+: F n) {n m : Nat}
    (hm : n ≤ m) (hl : (F n).length ≤ (T m).length) : F n <+: T m :=
  List.prefix_of_prefix_length_le (hF n m hm) (hT m) hl

section
variable (ht : Reachable u.table) (h0 : Started w u (σ 0)) (hx : Execution w σ ev) (hf : FairDht w σ ev)
  (hn : ∀ n, ev n ≠ some .exits) (hal : ∀ n, (σ n).dht.conAlive = true) (hrun : ∀ n, (σ n).dht.man.status = .running)
  (hj : ∀ n, ¬ (TableJam (σ n) ∨ LookupJam (σ n)))
include ht h0 hx hf hn hrun hj hal

/-- The commands in the queue of the socket task are taken. -/
theorem commands_taken (n : Nat) : ∃ m, n ≤ m ∧
    (puts (dhtEvents (upto ev n))).length ≤ (takenCommands (conHistory (dhtEvents (upto ev m)))).length := by
  refine Classical.byContradiction fun hc => ?_
  have hlt : ∀ m, n ≤ m → (takenCommands (conHistory (dhtEvents (upto ev m)))).length < (puts (dhtEvents (upto ev n))).length :=
    fun m hm => Nat.not_le.mp fun h => hc ⟨m, hm, h⟩
  have hne : ∀ m, n ≤ m → (σ m).dht.commands ≠ [] := by
    intro m hm h
    have h1 := (exec_flow h0 hx m).2.2.2.1
    rw [h, List.append_nil] at h1
    have h2 : puts (dhtEvents (upto ev n)) <+: puts (dhtEvents (upto ev m)) := (hist_prefix hm).filterMap _
    have := h2.length_le
    have := hlt m hm
    rw [← h1] at this
    omega
  have often := hf.socketTakes (fun k => by
    obtain ⟨m, hm, hm0⟩ := socket_returns ht h0 hx hf hn hal hrun hj (max k n)
    refine ⟨m, by omega, ?_⟩
    have hd := alive_exec h0 hx hn m
    cases hcm : (σ m).dht.commands with
    | nil => exact absurd hcm (hne m (by omega))
    | cons c cs =>
      cases c with
      | query ret target v =>
        exact ⟨.dht _, _, ⟨_, _, _, rfl⟩, hd, .dht ⟨by simp, by simp, rfl, rfl⟩
          (.command (s := (σ m).nodes) (tid := List.replicate 5 0#8) (hal m) hm0 hcm (.command rfl (send_query_eq ..)))⟩
      | resp qid v =>
        exact ⟨.dht _, _, ⟨_, _, _, rfl⟩, hd, .dht ⟨by simp, by simp, rfl, rfl⟩
          (.command (s := (σ m).nodes) (tid := List.replicate 5 0#8) (hal m) hm0 hcm (.command rfl (send_resp_eq ..)))⟩)
  obtain ⟨m, h1, h2⟩ := reaches (fun m => (takenCommands (conHistory (dhtEvents (upto ev m)))).length)
    (fun m => by
      simp only [hist_succ, conHistory_append, takenCommands_append, List.length_append]; omega)
    (fun k => by
      obtain ⟨m, e, k1, k2, k3⟩ := often k
      refine ⟨m, k1, ?_⟩
      cases e with
      | dht x =>
        obtain ⟨tid, c, effs, k3⟩ := k3
        simp only [hist_succ, k2, conHistory_append, takenCommands_append, List.length_append]
        have : takenCommands (conHistory (dhtEvents (some (Event.dht x)).toList)) = [c] := by
          simp [dhtEvents, conHistory, takenCommands, k3]
        rw [this]; simp
      | _ => exact absurd k3 id) (puts (dhtEvents (upto ev n))).length n
  exact absurd (hlt m h1) (Nat.not_lt.mpr h2)

/-- The queries in the queue of the table task are taken. -/
theorem queries_taken (n : Nat) : ∃ m, n ≤ m ∧ (handedQueries (allEffects (conHistory (dhtEvents (upto ev n))))).length ≤
    (takenQueries (manHistory (dhtEvents (upto ev m)))).length := by
  obtain ⟨n1, hn1, hc1⟩ := socket_returns ht h0 hx hf hn hal hrun hj n
  have hle : (handedQueries (allEffects (conHistory (dhtEvents (upto ev n))))).length ≤
      (takenQueries (manHistory (dhtEvents (upto ev n1)))).length + (σ n1).dht.queries.length := by
    have h1 := (exec_flow h0 hx n1).1
    rw [hc1] at h1
    simp only [handedQueries, List.filterMap_nil, List.append_nil] at h1
    rw [← List.length_append, ← h1]
    have h2 : allEffects (conHistory (dhtEvents (upto ev n))) <+: allEffects (conHistory (dhtEvents (upto ev n1))) := by
      obtain ⟨t, ht⟩ := hist_prefix (ev := ev) hn1
      rw [← ht, conHistory_append, allEffects_append]; exact List.prefix_append _ _
    exact (h2.filterMap _).length_le
  refine Classical.byContradiction fun hc => ?_
  have hlt : ∀ m, n ≤ m → (takenQueries (manHistory (dhtEvents (upto ev m)))).length <
      (handedQueries (allEffects (conHistory (dhtEvents (upto ev n))))).length :=
    fun m hm => Nat.not_le.mp fun h => hc ⟨m, hm, h⟩
  have hne : ∀ m, n1 ≤ m → (σ m).dht.queries ≠ [] := by
    intro m hm h
    have h1 : (takenQueries (manHistory (dhtEvents (upto ev n1)))).length + (σ n1).dht.queries.length ≤
        (takenQueries (manHistory (dhtEvents (upto ev m)))).length + (σ m).dht.queries.length := by
      clear h
      induction hm with
      | refl => exact Nat.le_refl _
      | @step m hm ih =>
        refine Nat.le_trans ih ?_
        simp only [Nat.succ_eq_add_one, hist_succ, manHistory_append, takenQueries_append, List.length_append]
        rcases dht_next hx m with ⟨h1, h2⟩ | ⟨e, x, h1, h2, h3⟩
        · rw [h1]; omega
        · have h4 := takenQueries_step h3
          have h4 : (σ m).dht.queries.length ≤ _ := h4
          rw [h1]
          simp only [Option.toList_some]
          rw [h2]
          omega
    have := hlt m (by omega)
    rw [h] at h1
    simp only [List.length_nil] at h1
    omega
  have often := hf.tableTakesQuery (fun k => by
    obtain ⟨m, hm, hm0⟩ := table_returns_always ht h0 hx hf hn hrun hj (max k n1)
    exact ⟨m, by omega, takes_query_possible ht h0 hx hn hrun hm0 (hne m (by omega))⟩)
  obtain ⟨m, h1, h2⟩ := reaches (fun m => (takenQueries (manHistory (dhtEvents (upto ev m)))).length)
    (fun m => by
      simp only [hist_succ, manHistory_append, takenQueries_append, List.length_append]; omega)
    (fun k => by
      obtain ⟨m, e, k1, k2, k3⟩ := often k
      refine ⟨m, k1, ?_⟩
      cases e with
      | dht x =>
        obtain ⟨q, outs, k3⟩ := k3
        simp only [hist_succ, k2, manHistory_append, takenQueries_append, List.length_append]
        have : takenQueries (manHistory (dhtEvents (some (Event.dht x)).toList)) = [q] := by
          simp [dhtEvents, manHistory, takenQueries, k3]
        rw [this]; simp
      | _ => exact absurd k3 id) (handedQueries (allEffects (conHistory (dhtEvents (upto ev n))))).length n
  exact absurd (hlt m h1) (Nat.not_lt.mpr h2)

/-- The answers in the queue of the table task are taken. -/
theorem answers_taken (n : Nat) : ∃ m, n ≤ m ∧
    (handedAnswers OWN_CHANNEL (allEffects (conHistory (dhtEvents (upto ev n))))).length ≤
    (takenByManager (manHistory (dhtEvents (upto ev m)))).length := by
  obtain ⟨n1, hn1, hc1⟩ := socket_returns ht h0 hx hf hn hal hrun hj n
  have hle : (handedAnswers OWN_CHANNEL (allEffects (conHistory (dhtEvents (upto ev n))))).length ≤
      (takenByManager (manHistory (dhtEvents (upto ev n1)))).length + ((σ n1).dht.answers OWN_CHANNEL).length := by
    have h1 := (exec_flow h0 hx n1).2.1
    rw [hc1] at h1
    simp only [handedAnswers, List.filterMap_nil, List.append_nil] at h1
    rw [← List.length_append, ← h1]
    have h2 : allEffects (conHistory (dhtEvents (upto ev n))) <+: allEffects (conHistory (dhtEvents (upto ev n1))) := by
      obtain ⟨t, ht⟩ := hist_prefix (ev := ev) hn1
      rw [← ht, conHistory_append, allEffects_append]; exact List.prefix_append _ _
    exact (h2.filterMap _).length_le
  refine Classical.byContradiction fun hc => ?_
  have hlt : ∀ m, n ≤ m → (takenByManager (manHistory (dhtEvents (upto ev m)))).length <
      (handedAnswers OWN_CHANNEL (allEffects (conHistory (dhtEvents (upto ev n))))).length :=
    fun m hm => Nat.not_le.mp fun h => hc ⟨m, hm, h⟩
  have hne : ∀ m, n1 ≤ m → (σ m).dht.answers OWN_CHANNEL ≠ [] := by
    intro m hm h
    have h1 : (takenByManager (manHistory (dhtEvents (upto ev n1)))).length + ((σ n1).dht.answers OWN_CHANNEL).length ≤
        (takenByManager (manHistory (dhtEvents (upto ev m)))).length + ((σ m).dht.answers OWN_CHANNEL).length := by
      clear h
      induction hm with
      | refl => exact Nat.le_refl _
      | @step m hm ih =>
        refine Nat.le_trans ih ?_
        simp only [Nat.succ_eq_add_one, hist_succ, manHistory_append, takenByManager_append, List.length_append]
        rcases dht_next hx m with ⟨h1, h2⟩ | ⟨e, x, h1, h2, h3⟩
        · rw [h1]; omega
        · have h4 := takenAnswers_step h3
          have h4 : ((σ m).dht.answers OWN_CHANNEL).length ≤ _ := h4
          rw [h1]
          simp only [Option.toList_some]
          rw [h2]
          omega
    have := hlt m (by omega)
    rw [h] at h1
    simp only [List.length_nil] at h1
    omega
  have often := hf.tableTakesAnswer (fun k => by
    obtain ⟨m, hm, hm0⟩ := table_returns_always ht h0 hx hf hn hrun hj (max k n1)
    exact ⟨m, by omega, takes_answer_possible ht h0 hx hn hrun hm0 (hne m (by omega))⟩)
  obtain ⟨m, h1, h2⟩ := reaches (fun m => (takenByManager (manHistory (dhtEvents (upto ev m)))).length)
    (fun m => by
      simp only [hist_succ, manHistory_append, takenByManager_append, List.length_append]; omega)
    (fun k => by
      obtain ⟨m, e, k1, k2, k3⟩ := often k
      refine ⟨m, k1, ?_⟩
      cases e with
      | dht x =>
        obtain ⟨q, outs, k3⟩ := k3
        simp only [hist_succ, k2, manHistory_append, takenByManager_append, List.length_append]
        have : takenByManager (manHistory (dhtEvents (some (Event.dht x)).toList)) = [q] := by
          simp [dhtEvents, manHistory, takenByManager, k3]
        rw [this]; simp
      | _ => exact absurd k3 id) (handedAnswers OWN_CHANNEL (allEffects (conHistory (dhtEvents (upto ev n))))).length n
  exact absurd (hlt m h1) (Nat.not_lt.mpr h2)

end

end Nargun.Program
