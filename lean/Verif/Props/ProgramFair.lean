import Verif.Props.ProgramDeadlock
import Verif.Spec.Fair

/-! # Ctrl-C in every fair execution: C92 and C120 -/

set_option linter.unusedSimpArgs false

namespace Nargun.Program

open Nargun Dht Krpc Spec DhtManager DhtSystem

/-! ## Sequences -/

theorem often_or_never (A : Nat → Prop) : (∀ n, ∃ m, n ≤ m ∧ A m) ∨ ∃ n, ∀ m, n ≤ m → ¬ A m := by
  by_cases h : ∀ n, ∃ m, n ≤ m ∧ A m
  · exact .inl h
  · refine .inr ?_
    obtain ⟨n, hn⟩ := Classical.not_forall.mp h
    exact ⟨n, fun m hm ha => hn ⟨m, hm, ha⟩⟩

/-- A number that only gets smaller does not change for ever. -/
theorem settles (f : Nat → Nat) (n : Nat) (h : ∀ m, n ≤ m → f (m + 1) ≤ f m) :
    ∃ k, n ≤ k ∧ ∀ m, k ≤ m → f (m + 1) = f m := by
  generalize hv : f n = v
  induction v using Nat.strongRecOn generalizing n with
  | _ v ih =>
    by_cases hs : ∃ m, n ≤ m ∧ f (m + 1) < f m
    · obtain ⟨m, hm, hlt⟩ := hs
      have hle : f m ≤ f n := by
        clear hlt hv ih
        induction hm with
        | refl => exact Nat.le_refl _
        | step hm ih => exact Nat.le_trans (h _ hm) ih
      obtain ⟨k, hk, hc⟩ := ih (f (m + 1)) (by omega) (m + 1) (fun m' hm' => h m' (by omega)) rfl
      exact ⟨k, by omega, hc⟩
    · refine ⟨n, Nat.le_refl _, fun m hm => ?_⟩
      have := h m hm
      have : ¬ f (m + 1) < f m := fun hlt => hs ⟨m, hm, hlt⟩
      omega

variable {w : World} {u : Setup} {σ : Nat → State} {ev : Nat → Option Event}

/-- What has happened before a moment. -/
def upto (ev : Nat → Option Event) (n : Nat) : List Event := (List.range n).filterMap ev

theorem upto_succ (n : Nat) : upto ev (n + 1) = upto ev n ++ (ev n).toList := by
  simp only [upto, List.range_succ, List.filterMap_append]
  cases h : ev n <;> simp [h]

theorem mem_upto {n m : Nat} {e : Event} (h : ev m = some e) (hm : m < n) : e ∈ upto ev n :=
  List.mem_filterMap.mpr ⟨m, List.mem_range.mpr hm, h⟩

theorem exec_run (hx : Execution w σ ev) (n : Nat) : Run w (σ 0) (upto ev n) (σ n) := by
  induction n with
  | zero => exact .nil
  | succ n ih =>
    rw [upto_succ]
    cases h : ev n with
    | none => rw [hx.idle n h]; simpa using ih
    | some e => exact ih.snoc (hx.step n e h)

/-- What no step changes stays. -/
theorem exec_keeps (hx : Execution w σ ev) {P : State → Prop} (hp : ∀ s e s', Step w s e s' → P s → P s') {n m : Nat}
    (hm : n ≤ m) (h : P (σ n)) : P (σ m) := by
  induction hm with
  | refl => exact h
  | @step m hm ih =>
    cases he : ev m with
    | none => rw [Nat.succ_eq_add_one, hx.idle m he]; exact ih
    | some e => exact hp _ _ _ (hx.step m e he) ih

/-- What stops happening stops being possible. -/
theorem fair_stops {A : Event → Prop} (hf : FairTo w σ ev A) {n : Nat} (hn : ∀ m e, n ≤ m → ev m = some e → ¬ A e) :
    ∃ k, n ≤ k ∧ ∀ m, k ≤ m → ¬ Possible w (σ m) A := by
  rcases often_or_never fun m => Possible w (σ m) A with h | ⟨k, hk⟩
  · obtain ⟨m, e, h1, h2, h3⟩ := hf h n
    exact absurd h3 (hn m e h1 h2)
  · exact ⟨max n k, by omega, fun m hm => hk m (by omega)⟩

/-! ## What the tasks have to work off -/

section
variable {env : Env} {pause : Nat → Nat} {a b : DhtSystem.State} {x : DhtSystem.Entry}

theorem table_todo_step (h : DhtSystem.Step env pause a x b) (hm : a.manTodo ≠ []) :
    b.manTodo.length ≤ a.manTodo.length ∧
      (((∃ c, x = { put := some (.manager, c) }) ∨ (∃ t, x = { stored := some t }) ∨ ∃ ns, x = { spawned := some ns }) →
        b.manTodo.length < a.manTodo.length) ∧
      (x = { man := some ⟨.conGone, []⟩ } → b.man.status ≠ .running) := by
  cases h with
  | direct h | takeQuery h | takeAnswer h | conGone h => exact absurd h hm
  | putCommand _ h | spawns _ h | stores _ h => rw [h]; simp
  | putFails _ _ h => cases h; simp
  | outside h1 h =>
    refine ⟨Nat.le_refl _, by simp, fun he => ?_⟩
    cases he; exact absurd h1 id
  | _ => simp

theorem socket_todo_step (h : DhtSystem.Step env pause a x b) (hc : a.conTodo ≠ []) :
    b.conTodo.length ≤ a.conTodo.length ∧
      ((x = {} ∨ ∃ d, x = { sent := some d }) → b.conTodo.length < a.conTodo.length ∨ b.conAlive = false) ∧
      ∀ tid c effs, x.con ≠ some ⟨.command tid c, none, effs⟩ := by
  cases h with
  | datagram _ h | panics _ h | command _ h => exact absurd h hc
  | sends _ h | putQuery _ h | putAnswer _ h => rw [h]; simp
  | noListener => simp
  | _ => simp

theorem takes_step (h : DhtSystem.Step env pause a x b) {tid : Bytes} {c : ToCon} {effs : List Effect}
    (hx : x.con = some ⟨.command tid c, none, effs⟩) : b.commands.length + 1 = a.commands.length := by
  cases h with
  | command _ _ h => rw [h]; rfl
  | _ => cases hx

end

/-! ## The table task comes back to its loop -/

section
variable (ht : Reachable u.table) (h0 : Started w u (σ 0)) (hx : Execution w σ ev) (hf : Fair w σ ev)
  (hn : ∀ n, ev n ≠ some .exits)
include h0 hx hn

theorem no_exit_upto (n : Nat) : .exits ∉ upto ev n := by
  intro hm
  obtain ⟨m, _, h⟩ := List.mem_filterMap.mp hm
  exact hn m h

theorem alive_exec (n : Nat) : (σ n).down.phase ≠ .done := not_done h0 (exec_run hx n) (no_exit_upto h0 hx hn n)

omit h0 hn in
theorem dht_next (m : Nat) :
    ((σ (m + 1)).dht = (σ m).dht ∧ ∀ e, ev m = some e → dhtEvents [e] = []) ∨
    ∃ e x, ev m = some e ∧ dhtEvents [e] = [x] ∧ DhtSystem.Step w.env w.refreshPause (σ m).nodes x (σ (m + 1)).dht := by
  cases he : ev m with
  | none => exact .inl ⟨by rw [hx.idle m he], by simp⟩
  | some e =>
    rcases turn_dhtStep (hx.step m e he).2 with ⟨h1, h2⟩ | ⟨x, h1, h2, _⟩
    · exact .inl ⟨h2, by rintro _ ⟨⟩; exact h1⟩
    · exact .inr ⟨e, x, rfl, h1, h2⟩

include hf

/-- A lookup that sleeps wakes up. -/
theorem wakes {k6 : Nat} (sleeps : ∀ m, k6 ≤ m → ∃ l since, (σ m).lookup = some l ∧ l.alive = true ∧ l.todo = [] ∧
    l.task.phase = .sleeping since) : False := by
  obtain ⟨l, since, q1, q2, q3, q4⟩ := sleeps k6 (Nat.le_refl _)
  -- for ever
  have still : ∀ m, k6 ≤ m → ∃ l', (σ m).lookup = some l' ∧ l'.alive = true ∧ l'.todo = [] ∧
      l'.task.phase = .sleeping since ∧ l'.task.rounds = l.task.rounds := by
    intro m hm'
    induction hm' with
    | refl => exact ⟨l, q1, q2, q3, q4, rfl⟩
    | @step m hm' ih =>
      obtain ⟨l1, a1, a2, a3, a4, a5⟩ := ih
      have hm' : k6 ≤ m := hm'
      obtain ⟨l2, since2, b1, b2, b3, b4⟩ := sleeps (m + 1) (by omega)
      refine ⟨l2, b1, b2, b3, ?_⟩
      cases he : ev m with
      | none =>
        rw [hx.idle m he, a1] at b1
        cases b1
        exact ⟨a4, a5⟩
      | some e =>
        have hstep := hx.step m e he
        generalize σ (m + 1) = s' at hstep b1
        cases hstep.2 with
        | lookup h => rw [a1] at h; cases h
        | look h1 _ _ h4 h5 =>
          rw [a1] at h1; cases h1
          cases b1
          cases h5 with
          | tick => cases b4
          | timeout h => rw [show l1.task.phase = _ from h] at a4; cases a4
          | _ => exact absurd h4 id
        | lookIdle h1 h4 h5 =>
          rw [a1] at h1; cases h1
          cases b1
          cases h5 with
          | pass => exact ⟨a4, a5⟩
          | reorder => exact ⟨a4, a5⟩
          | _ => exact absurd h4 id
        | asks h1 _ h3 => rw [a1] at h1; cases h1; rw [a3] at h3; cases h3
        | asksNobody h1 _ h3 => rw [a1] at h1; cases h1; rw [a3] at h3; cases h3
        | hears h1 _ _ _ h5 =>
          rw [a1] at h1; cases h1
          cases h5 with
          | answer h => rw [show l1.task.phase = _ from h] at a4; cases a4
        | _ => have b1 : (σ m).lookup = some l2 := b1; rw [a1] at b1; cases b1; exact ⟨a4, a5⟩
  -- but time passes
  obtain ⟨k7, hk7, c7⟩ := fair_stops hf.lookupBegins (n := k6) (fun m e hm' he hw => by
    obtain ⟨l2, since2, b1, b2, b3, b4⟩ := sleeps (m + 1) (by omega)
    cases e with
    | look y =>
      have hw : y.event = .tick := hw
      have hstep := hx.step m _ he
      generalize σ (m + 1) = s' at hstep b1
      cases hstep.2 with
      | look h1 _ _ _ h5 =>
        cases b1
        cases h5 with
        | tick => cases b4
        | _ => cases hw
      | lookIdle _ h4 h5 => rw [hw] at h4; exact h4
    | _ => exact hw)
  obtain ⟨m, hm', hd | hnow⟩ := hf.lookupTime k7 (since + w.lookupPause l.task.rounds)
  · exact alive_exec h0 hx hn m hd
  · obtain ⟨l', b1, b2, b3, b4, b5⟩ := still m (by omega)
    exact c7 m hm' ⟨.look ⟨.tick, _⟩, _, rfl, alive_exec h0 hx hn m, .look b1 b2 b3 trivial
      (.tick (since := since) b4 (by show since + w.lookupPause l'.task.rounds ≤ l'.task.now; rw [b5]; exact hnow l' b1))⟩

include ht

/-- A table task that never comes back to its loop hangs. -/
theorem table_returns {n : Nat} (hr : ∀ m, n ≤ m → (σ m).dht.man.status = .running)
    (hm : ∀ m, n ≤ m → (σ m).dht.manTodo ≠ []) : ∃ m, n ≤ m ∧ TableHangs (σ m) := by
  -- it hands over nothing any more
  obtain ⟨k1, hk1, c1⟩ := settles (fun m => (σ m).dht.manTodo.length) n (fun m hm' => by
    rcases dht_next hx m with ⟨h1, _⟩ | ⟨e, x, _, _, h3⟩
    · rw [h1]; exact Nat.le_refl _
    · exact (table_todo_step h3 (hm m hm')).1)
  obtain ⟨k2, hk2, c2⟩ := fair_stops hf.tableWorks (n := k1) (fun m e hm' he hw => by
    rcases dht_next hx m with ⟨_, h2⟩ | ⟨e', x, h1, h2, h3⟩
    · have := h2 e he
      cases e <;> first | exact hw | simp [dhtEvents] at this
    · rw [he] at h1
      cases h1
      obtain ⟨_, q2, q3⟩ := table_todo_step h3 (hm m (by omega))
      have c1 : (σ (m + 1)).dht.manTodo.length = (σ m).dht.manTodo.length := c1 m hm'
      have q2 : _ → (σ (m + 1)).dht.manTodo.length < (σ m).dht.manTodo.length := q2
      cases e with
      | dht y =>
        simp only [dhtEvents, List.filterMap_cons, List.filterMap_nil, List.cons.injEq, and_true] at h2
        subst h2
        rcases hw with h | h | h
        · have := q2 (.inl h); omega
        · exact q3 h (hr (m + 1) (by omega))
        · have := q2 (.inr (.inl h)); omega
      | lookup ns now =>
        simp only [dhtEvents, List.filterMap_cons, List.filterMap_nil, List.cons.injEq, and_true] at h2
        have := q2 (.inr (.inr ⟨ns, h2.symm⟩)); omega
      | _ => exact hw)
  -- so the queue of commands is full
  have full : ∀ m, k2 ≤ m → (σ m).dht.conAlive = true ∧ 1024 ≤ (σ m).dht.commands.length ∧ 0 < tableOwes (σ m) := by
    intro m hm'
    have hrun := hr m (by omega)
    have hd := alive_exec h0 hx hn m
    obtain ⟨l, hl, _⟩ := started_dht h0 (exec_run hx m)
    cases hh : (σ m).dht.manTodo with
    | nil => exact absurd hh (hm m (by omega))
    | cons o rest =>
      cases o with
      | send c =>
        cases hc : (σ m).dht.conAlive with
        | false =>
          exact absurd ⟨.dht { man := some ⟨.conGone, []⟩ }, _, .inr (.inl rfl), hd,
            .dht ⟨by rintro m h; cases h; trivial, by simp, rfl, rfl⟩ (.putFails (s := (σ m).nodes) hh hc (.conGone hrun))⟩
            (c2 m hm')
        | true =>
          refine ⟨rfl, ?_, by simp [tableOwes, hh, sends]⟩
          refine Nat.not_lt.mp fun hlt => c2 m hm' ?_
          exact ⟨.dht { put := some (.manager, c) }, _, .inl ⟨c, rfl⟩, hd,
            .dht ⟨by simp, by simp, rfl, rfl⟩ (.putCommand (s := (σ m).nodes) hrun hh hc hlt)⟩
      | lookups ns =>
        exact absurd ⟨.lookup ns 0, _, trivial, hd,
          .lookup (now := 0) (lookup_none ht h0 (exec_run hx m) hh) (.spawns (s := (σ m).nodes) hrun hh)⟩ (c2 m hm')
      | stored t =>
        exact absurd (show Out.stored t ∈ (σ m).nodes.manTodo by show _ ∈ (σ m).dht.manTodo; rw [hh]; simp)
          ((shape_run ht .nil hl).man hrun t)
  -- the socket task takes nothing from it
  obtain ⟨k3, hk3, c3⟩ := fair_stops hf.socketTakes (n := k2) (fun m e hm' he hw => by
    rcases dht_next hx m with ⟨_, h2⟩ | ⟨e', x, h1, h2, h3⟩
    · have := h2 e he
      cases e <;> first | exact hw | simp [dhtEvents] at this
    · rw [he] at h1
      cases h1
      cases e with
      | dht y =>
        simp only [dhtEvents, List.filterMap_cons, List.filterMap_nil, List.cons.injEq, and_true] at h2
        subst h2
        obtain ⟨tid, c, effs, hw⟩ := hw
        have h4 : (σ (m + 1)).dht.commands.length + 1 = (σ m).dht.commands.length := takes_step (a := (σ m).nodes) h3 hw
        obtain ⟨l, hl, _⟩ := started_dht h0 (exec_run hx m)
        have h5 : (σ m).dht.commands.length ≤ 1024 := (C106_queues hl).2.2.2.2.2.2.1
        have := (full (m + 1) (by omega)).2.1
        omega
      | _ => exact hw)
  have busy : ∀ m, k3 ≤ m → (σ m).dht.conTodo ≠ [] := by
    intro m hm' hc
    obtain ⟨f1, f2, _⟩ := full m (by omega)
    have hd := alive_exec h0 hx hn m
    cases hcm : (σ m).dht.commands with
    | nil => rw [hcm] at f2; simp at f2
    | cons c cs =>
      cases c with
      | query ret target v =>
        exact c3 m hm' ⟨.dht _, _, ⟨_, _, _, rfl⟩, hd, .dht ⟨by simp, by simp, rfl, rfl⟩
          (.command (s := (σ m).nodes) (tid := List.replicate 5 0#8) f1 hc hcm (.command rfl (send_query_eq ..)))⟩
      | resp qid v =>
        exact c3 m hm' ⟨.dht _, _, ⟨_, _, _, rfl⟩, hd, .dht ⟨by simp, by simp, rfl, rfl⟩
          (.command (s := (σ m).nodes) (tid := List.replicate 5 0#8) f1 hc hcm (.command rfl (send_resp_eq ..)))⟩
  -- because it waits itself
  obtain ⟨k4, hk4, c4⟩ := settles (fun m => (σ m).dht.conTodo.length) k3 (fun m hm' => by
    rcases dht_next hx m with ⟨h1, _⟩ | ⟨e, x, _, _, h3⟩
    · rw [h1]; exact Nat.le_refl _
    · exact (socket_todo_step h3 (busy m hm')).1)
  obtain ⟨k5, hk5, c5⟩ := fair_stops hf.socketWorks (n := k4) (fun m e hm' he hw => by
    rcases dht_next hx m with ⟨_, h2⟩ | ⟨e', x, h1, h2, h3⟩
    · have := h2 e he
      cases e <;> first | exact hw | simp [dhtEvents] at this
    · rw [he] at h1
      cases h1
      cases e with
      | dht y =>
        simp only [dhtEvents, List.filterMap_cons, List.filterMap_nil, List.cons.injEq, and_true] at h2
        subst h2
        have c4 : (σ (m + 1)).dht.conTodo.length = (σ m).dht.conTodo.length := c4 m hm'
        rcases (socket_todo_step h3 (busy m (by omega))).2.1 hw with h | h
        · have h : (σ (m + 1)).dht.conTodo.length < (σ m).dht.conTodo.length := h
          omega
        · rw [(full (m + 1) (by omega)).1] at h; cases h
      | _ => exact hw)
  -- for room in the queue of the table task, or in that of the lookup
  have waits : ∀ m, k5 ≤ m → TableHangs (σ m) ∨ ∃ r rest, (σ m).dht.conTodo = .toRequester LOOKUP_CHANNEL r :: rest ∧
      64 ≤ ((σ m).dht.answers LOOKUP_CHANNEL).length := by
    intro m hm'
    obtain ⟨f1, f2, f3⟩ := full m (by omega)
    have hrun := hr m (by omega)
    have hd := alive_exec h0 hx hn m
    have hfree : freeCommands (σ m) < tableOwes (σ m) := by simp only [freeCommands]; omega
    cases hc : (σ m).dht.conTodo with
    | nil => exact absurd hc (busy m (by omega))
    | cons f rest =>
      cases f with
      | datagram a b =>
        exact absurd ⟨.dht { sent := some (a, b) }, _, .inr ⟨_, rfl⟩, hd, .dht ⟨by simp, by simp, rfl, rfl⟩
          (.sends (s := (σ m).nodes) f1 hc)⟩ (c5 m hm')
      | toManager q =>
        by_cases hq : 256 ≤ (σ m).dht.queries.length
        · exact .inl (.inl ⟨f1, hrun, hfree, .inl ⟨q, rest, hc, hq⟩⟩)
        · exact absurd ⟨.dht {}, _, .inl rfl, hd, .dht ⟨by simp, by simp, rfl, rfl⟩
            (.putQuery (s := (σ m).nodes) f1 hc (.inl hrun) (Nat.not_le.mp hq))⟩ (c5 m hm')
      | toRequester c r =>
        by_cases hco : c = OWN_CHANNEL
        · subst hco
          by_cases hq : 1024 ≤ ((σ m).dht.answers OWN_CHANNEL).length
          · exact .inl (.inl ⟨f1, hrun, hfree, .inr ⟨r, rest, hc, hq⟩⟩)
          · exact absurd ⟨.dht {}, _, .inl rfl, hd, .dht ⟨by simp, by simp, rfl, rfl⟩
              (.putAnswer (s := (σ m).nodes) f1 hc (fun _ => .inl hrun) (Nat.not_le.mp hq))⟩ (c5 m hm')
        · by_cases hq : 64 ≤ ((σ m).dht.answers c).length
          · by_cases hcl : c = LOOKUP_CHANNEL
            · subst hcl
              exact .inr ⟨r, rest, rfl, hq⟩
            · have howed := owed_run ht h0 (exec_run hx m) hco
              rw [if_neg fun h => hcl h.symm, if_neg fun h => hcl h.symm] at howed
              simp only [owed] at howed
              omega
          · exact absurd ⟨.dht {}, _, .inl rfl, hd, .dht ⟨by simp, by simp, rfl, rfl⟩
              (.putAnswer (s := (σ m).nodes) f1 hc (fun h => absurd h hco)
                (by rw [answersCap, if_neg hco]; exact Nat.not_le.mp hq))⟩ (c5 m hm')
  refine Classical.byContradiction fun hno => ?_
  have nh : ∀ m, k5 ≤ m → ¬ TableHangs (σ m) := fun m hm' hh => hno ⟨m, by omega, hh⟩
  -- the lookup is there and has nothing to hand over
  have look : ∀ m, k5 ≤ m → ∃ l, (σ m).lookup = some l ∧ l.alive = true ∧ l.todo = [] ∧
      (∀ since, l.task.phase = .sleeping since → l.task.nodes = []) := by
    intro m hm'
    obtain ⟨f1, f2, f3⟩ := full m (by omega)
    obtain ⟨r, rest, q1, q2⟩ := (waits m hm').resolve_left (nh m hm')
    obtain ⟨i1, i2⟩ := looks_inv h0 (exec_run hx m)
    have howed := owed_run ht h0 (exec_run hx m) (k := LOOKUP_CHANNEL) (by decide)
    simp only [if_true] at howed
    have hasked : lookupAsked (upto ev m) ≠ [] := by
      intro hn'
      rw [hn'] at howed
      simp only [owed, List.length_nil] at howed
      omega
    cases hl : (σ m).lookup with
    | none => exact absurd hl (i1 hasked)
    | some l =>
      have hz : lookupOwes (σ m) = 0 := by
        refine Nat.eq_zero_of_not_pos fun hpos => nh m hm' (.inr ⟨⟨f1, ?_, r, rest, q1, q2⟩, hr m (by omega), ?_⟩)
        · simp only [freeCommands]; omega
        · simp only [freeCommands]; omega
      simp only [lookupOwes, hl] at hz
      refine ⟨l, rfl, i2 l hl f1, List.length_eq_zero_iff.mp (by omega), fun since hs => ?_⟩
      rw [hs] at hz
      exact List.length_eq_zero_iff.mp (by simp only at hz; omega)
  -- it takes no answer
  obtain ⟨k6, hk6, c6⟩ := fair_stops hf.lookupHears (n := k5) (fun m e hm' he hw => by
    cases e with
    | hears r sent =>
      have hstep := hx.step m _ he
      obtain ⟨r', rest, q1, q2⟩ := (waits (m + 1) (by omega)).resolve_left (nh (m + 1) (by omega))
      obtain ⟨l, hl, _⟩ := started_dht h0 (exec_run hx m)
      have h5 : ((σ m).dht.answers LOOKUP_CHANNEL).length ≤ 64 := (C106_queues hl).2.2.2.2.2.2.2.2 _ (by decide)
      generalize σ (m + 1) = s' at hstep q2
      cases hstep.2 with
      | hears _ _ _ k4 =>
        cases k4 with
        | hear _ h =>
          have h : (σ m).dht.answers LOOKUP_CHANNEL = _ := h
          rw [h] at h5
          simp only [if_true, List.length_cons] at q2 h5
          omega
    | _ => exact hw)
  -- so it sleeps
  have sleeps : ∀ m, k6 ≤ m → ∃ l since, (σ m).lookup = some l ∧ l.alive = true ∧ l.todo = [] ∧
      l.task.phase = .sleeping since := by
    intro m hm'
    obtain ⟨l, q1, q2, q3, _⟩ := look m (by omega)
    cases hp : l.task.phase with
    | sleeping since => exact ⟨l, since, q1, q2, q3, hp⟩
    | fetching since =>
      obtain ⟨r, rest, j1, j2⟩ := (waits m (by omega)).resolve_left (nh m (by omega))
      cases han : (σ m).dht.answers LOOKUP_CHANNEL with
      | nil => rw [han] at j2; simp at j2
      | cons r' rs =>
        exact absurd ⟨.hears r' _, _, trivial, alive_exec h0 hx hn m,
          .hears q1 q2 q3 (.hear (s := (σ m).nodes) (by decide) han) (.answer (show ((σ m).looking l).phase = _ from hp))⟩
          (c6 m (by omega))
  exact wakes h0 hx hf hn sleeps

end

/-! ## Everybody follows the signal -/

theorem happens {A : Event → Prop} (hf : FairTo w σ ev A) {n : Nat} (hp : ∀ m, n ≤ m → Possible w (σ m) A) :
    ∃ m e, n ≤ m ∧ ev m = some e ∧ A e :=
  hf (fun k => ⟨max n k, by omega, hp _ (by omega)⟩) n

section
variable {s0 s : State} {es : List Event}

theorem notice_possible (h0 : Started w u s0) (h : Run w s0 es s) (hx : .exits ∉ es) (hs : .signal ∈ es)
    (hr : s.dht.man.status = .running) (hm : s.dht.manTodo = []) : Possible w s TableNotices := by
  have he : .tableEnds ∉ es := fun he => ((table_inv h0 h).ended he).1 hr
  obtain ⟨x, hrecv⟩ := can_notice h0 h hs (r := 1) (by omega) (by omega) (fun hm => by
      rcases mem_down hm with ⟨_, h⟩ | ⟨h, _⟩ | ⟨_, _, h⟩ | ⟨_, _, h⟩ | ⟨_, h⟩ | ⟨_, h⟩
      all_goals first | exact he h | (cases h; done) | (simp only [Shutdown.Event.drop.injEq] at h; omega)) (fun hm => by
      rcases mem_down hm with ⟨⟨o, k⟩, _⟩ | ⟨_, k⟩ | ⟨_, _, k⟩ | ⟨_, _, k⟩ | ⟨_, k⟩ | ⟨_, k⟩
      all_goals first | exact (holds_inv h0 h).unnoticed hr _ k | (cases k; done) |
        (simp only [Shutdown.Event.recv.injEq] at k; omega))
  exact ⟨.tableNotices [.stored s.dht.man.table], _, trivial, not_done h0 h hx,
    .tableNotices hrecv (.direct (s := s.nodes) (ev := .shutdown) hm trivial (.shutdown hr))⟩

theorem end_possible (h0 : Started w u s0) (h : Run w s0 es s) (hx : .exits ∉ es) (he : .tableEnds ∉ es)
    (hn : s.dht.man.status ≠ .running) (hm : ¬ s.dht.ManagerThere) : Possible w s (· = .tableEnds) := by
  obtain ⟨x, hd⟩ := can_drop h0 h (r := 1) (by omega) (by omega) (fun hm => by
    rcases mem_down hm with ⟨_, h⟩ | ⟨h, _⟩ | ⟨_, _, h⟩ | ⟨_, _, h⟩ | ⟨_, h⟩ | ⟨_, h⟩
    all_goals first | exact he h | (cases h; done) | (simp only [Shutdown.Event.drop.injEq] at h; omega))
  exact ⟨_, _, rfl, not_done h0 h hx, .tableEnds hn hm hd (.dhtEnds ((holds_inv h0 h).opened he))⟩

theorem tracker_possible (h0 : Started w u s0) (h : Run w s0 es s) (hx : .exits ∉ es) (hs : .signal ∈ es) {i : Nat}
    (hi : i < u.urls.length) (he : .trackerEnds i ∉ es) {t : TrackerTask} (ht : s.trackers[i]? = some t) :
    (t.phase ≠ .exited → Possible w s (· = .trackerNotices i)) ∧ (t.phase = .exited → Possible w s (· = .trackerEnds i)) := by
  have hdrop : Shutdown.Event.drop (i + 3) ∉ downEvents es := fun hm => by
    rcases mem_down hm with ⟨_, h⟩ | ⟨_, h⟩ | ⟨_, _, h⟩ | ⟨k, hk, h⟩ | ⟨_, h⟩ | ⟨_, h⟩
    · cases h
    · simp only [Shutdown.Event.drop.injEq] at h; omega
    · cases h
    · simp only [Shutdown.Event.drop.injEq] at h
      exact he (by rw [show i = k by omega]; exact hk)
    · cases h
    · cases h
  constructor
  · intro hp
    have hnot : .trackerNotices i ∉ es := by
      intro hm
      obtain ⟨t0, _, hr⟩ := run_tracker h ht
      exact hp (run_exits (n := 0) hr (List.mem_filterMap.mpr ⟨_, hm, by simp⟩))
    obtain ⟨x, hrecv⟩ := can_notice h0 h hs (r := i + 3) (by omega) (by omega) hdrop (fun hm => by
        rcases mem_down hm with ⟨_, h⟩ | ⟨_, h⟩ | ⟨k, hk, h⟩ | ⟨_, _, h⟩ | ⟨_, h⟩ | ⟨_, h⟩
        · simp only [Shutdown.Event.recv.injEq] at h; omega
        · cases h
        · simp only [Shutdown.Event.recv.injEq] at h
          exact hnot (by rw [show i = k by omega]; exact hk)
        · cases h
        · cases h
        · cases h)
    obtain ⟨t', hst⟩ := shutdown_ok h0 h ht
    exact ⟨_, _, rfl, not_done h0 h hx, .trackerNotices ht hp hrecv hst⟩
  · intro hp
    obtain ⟨x, hd⟩ := can_drop h0 h (r := i + 3) (by omega) (by omega) hdrop
    exact ⟨_, _, rfl, not_done h0 h hx, .trackerEnds ht hp hd⟩

theorem exit_possible (h0 : Started w u s0) (h : Run w s0 es s) (hx : .exits ∉ es) (hs : .signal ∈ es)
    (ht : .tableEnds ∈ es) (hi : ∀ i, i < u.urls.length → .trackerEnds i ∈ es) : Possible w s (· = .exits) := by
  obtain ⟨x, hw⟩ := (Shutdown.C82_wait _ _ (started_down h0 h)).2 (send_mem.mpr hs) (waited_mem hx) dropSender_mem (by
    intro r hmade
    have hlt : r < u.urls.length + 3 := by
      rcases hmade with h | ⟨old, h⟩
      · omega
      · rcases List.mem_append.mp h with h | h
        · exact (made_startup _ r).mp (.inr ⟨old, h⟩)
        · rcases mem_down h with ⟨_, h⟩ | ⟨_, h⟩ | ⟨_, _, h⟩ | ⟨_, _, h⟩ | ⟨_, h⟩ | ⟨_, h⟩ <;> cases h
    by_cases h02 : r = 0 ∨ r = 2
    · exact List.mem_append_left _ ((drop_startup _ r).mpr h02)
    · refine List.mem_append_right _ (List.mem_filterMap.mpr ?_)
      by_cases h1 : r = 1
      · subst h1
        exact ⟨.tableEnds, ht, rfl⟩
      · obtain ⟨k, rfl⟩ : ∃ k, r = k + 3 := ⟨r - 3, by omega⟩
        exact ⟨.trackerEnds k, hi k (by omega), rfl⟩)
  exact ⟨_, _, rfl, not_done h0 h hx, .exits hw⟩

theorem exited_stays {s' : State} {e : Event} {i : Nat} (hs : Step w s e s')
    (h : ∃ t, s.trackers[i]? = some t ∧ t.phase = .exited) : ∃ t, s'.trackers[i]? = some t ∧ t.phase = .exited := by
  obtain ⟨t, h1, h2⟩ := h
  have set : ∀ {k : Nat} {t1 t2 : TrackerTask} {x : TrackerInput}, s.trackers[k]? = some t1 → t1.step x = .ok t2 →
      ∃ t, (s.trackers.set k t2)[i]? = some t ∧ t.phase = .exited := by
    intro k t1 t2 x q1 q2
    by_cases hk : k = i
    · subst hk
      rw [h1] at q1
      cases q1
      rw [exited_step h2] at q2
      cases q2
      exact ⟨t, by rw [List.getElem?_set_self (List.getElem?_eq_some_iff.mp h1).1], h2⟩
    · exact ⟨t, by rw [List.getElem?_set_ne hk]; exact h1, h2⟩
  cases hs.2 with
  | answered q1 _ q3 => exact set q1 q3
  | tracker q1 _ q3 => exact set q1 q3
  | trackerNotices q1 _ _ q4 => exact set q1 q4
  | _ => exact ⟨t, h1, h2⟩

end

/-- A table task that has ended does not run again. -/
theorem table_ended {s s' : State} {e : Event} (hs : Step w s e s') (hr : s.dht.man.status ≠ .running) :
    s'.dht.man.status ≠ .running := by
  rcases turn_dhtStep hs.2 with ⟨_, h2⟩ | ⟨x, _, h2, _⟩
  · rw [h2]; exact hr
  · exact (dht_ends h2).1 hr

/-- When the table task no longer runs, it writes the table, if it has to, and returns. -/
theorem table_writes (h0 : Started w u (σ 0)) (hx : Execution w σ ev) (hf : Fair w σ ev) (hn : ∀ n, ev n ≠ some .exits)
    {k1 : Nat} (c1 : ∀ m, k1 ≤ m → (σ m).dht.man.status ≠ .running) :
    ∃ k, k1 ≤ k ∧ ∀ m, k ≤ m → ¬ (σ m).dht.ManagerThere := by
  refine Classical.byContradiction fun hc => ?_
  have hthere : ∀ m, k1 ≤ m → (σ m).dht.man.status = .finished ∧ (σ m).dht.manTodo = [.stored (σ m).dht.man.table] := by
    intro m hm
    have hm' : (σ m).dht.ManagerThere := Classical.byContradiction fun hr => hc ⟨m, hm, fun k hk =>
      (exec_keeps hx (P := fun s => s.dht.man.status ≠ .running ∧ ¬ s.dht.ManagerThere) (fun s e s' hs hp => by
        rcases turn_dhtStep hs.2 with ⟨_, h2⟩ | ⟨x, _, h2, _⟩
        · rw [h2]; exact hp
        · exact ⟨(dht_ends h2).1 hp.1, (dht_ends h2).2.2.2.2 hp.1 hp.2⟩) hk ⟨c1 m hm, hr⟩).2⟩
    have hst := (table_inv h0 (exec_run hx m)).stored
    rcases hm' with h | ⟨h, h2⟩
    · exact absurd h (c1 m hm)
    · simp only [StoredInv, h] at hst
      rcases hst with ⟨h3, _⟩ | ⟨h3, _⟩
      · exact ⟨h, h3⟩
      · exact absurd h3 h2
  obtain ⟨m, e, q1, q2, q3⟩ := happens hf.tableWorks (n := k1) (fun m hm => by
    obtain ⟨h1, h2⟩ := hthere m hm
    exact ⟨.dht { stored := some (σ m).dht.man.table }, _, .inr (.inr ⟨_, rfl⟩), alive_exec h0 hx hn m,
      .dht ⟨by simp, by simp, rfl, rfl⟩ (.stores (s := (σ m).nodes) h1 h2)⟩)
  obtain ⟨h1, h2⟩ := hthere m q1
  obtain ⟨_, h3⟩ := hthere (m + 1) (by omega)
  rcases dht_next hx m with ⟨_, j2⟩ | ⟨e', x, j1, j2, j3⟩
  · have := j2 e q2
    cases e <;> first | exact q3 | simp [dhtEvents] at this
  · rw [q2] at j1
    cases j1
    have hne : (σ m).nodes.manTodo ≠ [] := by show (σ m).dht.manTodo ≠ []; rw [h2]; simp
    have hlen : (σ (m + 1)).dht.manTodo.length = 1 := by rw [h3]; rfl
    have hlen' : (σ m).nodes.manTodo.length = 1 := by show (σ m).dht.manTodo.length = 1; rw [h2]; rfl
    obtain ⟨_, p2, _⟩ := table_todo_step j3 hne
    cases e with
    | dht y =>
      simp only [dhtEvents, List.filterMap_cons, List.filterMap_nil, List.cons.injEq, and_true] at j2
      subst j2
      rcases q3 with h | h | h
      · have := p2 (.inl h); omega
      · subst h
        generalize (σ (m + 1)).dht = d at j3
        cases j3 with
        | direct h => exact absurd h hne
        | conGone h => exact absurd h hne
        | outside h => exact absurd h id
        | putFails _ _ h => cases h with | conGone h => rw [show (σ m).dht.man.status = _ from h] at h1; cases h1
      · have := p2 (.inr (.inl h)); omega
    | lookup ns now =>
      simp only [dhtEvents, List.filterMap_cons, List.filterMap_nil, List.cons.injEq, and_true] at j2
      have := p2 (.inr (.inr ⟨ns, j2.symm⟩)); omega
    | _ => exact q3

/-- C120, the part that holds, for every execution: when Ctrl-C is pressed, the process ends, whatever other nodes, peers and
trackers do and in whatever order the tasks get their turns, as long as none of them is passed over for ever; unless at some
moment the table task hangs (then it never ends, `C120_exact_partial`). Missing: that it never hangs
(`C120_hangs_violated`). -/
theorem C120_always_partial (w : World) (u : Setup) (σ : Nat → State) (ev : Nat → Option Event) (ht : Reachable u.table)
    (h0 : Started w u (σ 0)) (hx : Execution w σ ev) (hf : Fair w σ ev) (n0 : Nat) (hs : ev n0 = some .signal) :
    (∃ n, ev n = some .exits) ∨ ∃ n, TableHangs (σ n) := by
  refine Classical.byContradiction fun hno => ?_
  have hn : ∀ n, ev n ≠ some .exits := fun n h => hno (.inl ⟨n, h⟩)
  have hh : ∀ n, ¬ TableHangs (σ n) := fun n h => hno (.inr ⟨n, h⟩)
  have hsig : ∀ m, n0 < m → .signal ∈ upto ev m := fun m hm => mem_upto hs hm
  have nx := no_exit_upto h0 hx hn
  -- the table task notices the signal, or has ended before
  obtain ⟨k1, hk1, c1⟩ : ∃ k, n0 < k ∧ ∀ m, k ≤ m → (σ m).dht.man.status ≠ .running := by
    refine Classical.byContradiction fun hc => ?_
    have hrun : ∀ m, n0 < m → (σ m).dht.man.status = .running := fun m hm =>
      Classical.byContradiction fun hr => hc ⟨m, hm, fun k hk =>
        exec_keeps hx (P := fun s => s.dht.man.status ≠ .running) (fun _ _ _ => table_ended) hk hr⟩
    rcases often_or_never fun m => (σ m).dht.manTodo = [] with h | ⟨k, h⟩
    · obtain ⟨m, e, q1, q2, q3⟩ := hf.tableNotices (fun n => by
        obtain ⟨m, hm, he⟩ := h (max n (n0 + 1))
        exact ⟨m, by omega, notice_possible h0 (exec_run hx m) (nx m) (hsig m (by omega)) (hrun m (by omega)) he⟩) (n0 + 1)
      have hstep := hx.step m e q2
      have hr := hrun (m + 1) (by omega)
      generalize σ (m + 1) = s' at hstep hr
      cases e with
      | tableNotices outs =>
        cases hstep.2 with
        | tableNotices _ q =>
          cases q with
          | direct _ _ q => cases q; cases hr
          | outside q => exact absurd q id
      | _ => exact q3
    · obtain ⟨m, _, hm⟩ := table_returns ht h0 hx hf hn (n := max k (n0 + 1)) (fun m hm => hrun m (by omega))
        (fun m hm => h m (by omega))
      exact hh m hm
  -- it writes the table
  obtain ⟨k2, hk2, c2⟩ := table_writes h0 hx hf hn c1
  -- and returns
  obtain ⟨k3, hk3⟩ : ∃ k, ev k = some .tableEnds := by
    refine Classical.byContradiction fun hc => ?_
    obtain ⟨m, e, _, q2, q3⟩ := happens hf.tableEnds (n := k2) (fun m hm =>
      end_possible h0 (exec_run hx m) (nx m) (fun he => by
        obtain ⟨k, _, hk⟩ := List.mem_filterMap.mp he
        exact hc ⟨k, hk⟩) (c1 m (by omega)) (c2 m hm))
    exact hc ⟨m, q3 ▸ q2⟩
  -- and so do the tasks of the trackers
  have trackers : ∀ i, i < u.urls.length → ∃ k, ev k = some (.trackerEnds i) := by
    intro i hi
    refine Classical.byContradiction fun hc => ?_
    have he : ∀ m, .trackerEnds i ∉ upto ev m := fun m he => by
      obtain ⟨k, _, hk⟩ := List.mem_filterMap.mp he
      exact hc ⟨k, hk⟩
    have hlen : ∀ m, i < (σ m).trackers.length := fun m => by
      rw [trackers_length (exec_run hx m), (started_trackers h0).1]; exact hi
    have hget : ∀ m, (σ m).trackers[i]? = some ((σ m).trackers[i]'(hlen m)) := fun m => List.getElem?_eq_getElem (hlen m)
    have poss := fun m (hm : n0 < m) => tracker_possible h0 (exec_run hx m) (nx m) (hsig m hm) hi (he m) (hget m)
    obtain ⟨k, hk, hp⟩ : ∃ k, n0 < k ∧ ∃ t, (σ k).trackers[i]? = some t ∧ t.phase = .exited := by
      refine Classical.byContradiction fun hc' => ?_
      obtain ⟨m, e, q1, q2, q3⟩ := happens (hf.trackerNotices i) (n := n0 + 1) (fun m hm =>
        (poss m (by omega)).1 fun hp => hc' ⟨m, by omega, _, hget m, hp⟩)
      subst q3
      obtain ⟨t0, _, hr⟩ := run_tracker (exec_run hx (m + 1)) (hget (m + 1))
      exact hc' ⟨m + 1, by omega, _, hget (m + 1),
        run_exits (n := 0) hr (List.mem_filterMap.mpr ⟨_, mem_upto q2 (Nat.lt_succ_self m), by simp⟩)⟩
    obtain ⟨m, e, _, q2, q3⟩ := happens (hf.trackerEnds i) (n := k) (fun m hm => by
      obtain ⟨t, j1, j2⟩ := exec_keeps hx (fun _ _ _ => exited_stays (i := i)) hm hp
      exact (tracker_possible h0 (exec_run hx m) (nx m) (hsig m (by omega)) hi (he m) j1).2 j2)
    exact hc ⟨m, q3 ▸ q2⟩
  -- so that `main` can return
  obtain ⟨k4, hk4⟩ : ∃ k, ∀ i, i < u.urls.length → ∃ j, j < k ∧ ev j = some (.trackerEnds i) := by
    have : ∀ n, n ≤ u.urls.length → ∃ k, ∀ i, i < n → ∃ j, j < k ∧ ev j = some (.trackerEnds i) := by
      intro n
      induction n with
      | zero => exact fun _ => ⟨0, by omega⟩
      | succ n ih =>
        intro hle
        obtain ⟨k, hk⟩ := ih (by omega)
        obtain ⟨j, hj⟩ := trackers n (by omega)
        refine ⟨max k (j + 1), fun i hi => ?_⟩
        by_cases h : i = n
        · exact ⟨j, by omega, h ▸ hj⟩
        · obtain ⟨j', h1, h2⟩ := hk i (by omega)
          exact ⟨j', by omega, h2⟩
    exact this _ (Nat.le_refl _)
  obtain ⟨m, e, _, q2, q3⟩ := happens hf.exits (n := max (n0 + 1) (max (k3 + 1) k4)) (fun m hm =>
    exit_possible h0 (exec_run hx m) (nx m) (hsig m (by omega)) (mem_upto hk3 (by omega)) (fun i hi => by
      obtain ⟨j, h1, h2⟩ := hk4 i hi
      exact mem_upto h2 (by omega)))
  exact hn m (q3 ▸ q2)

/-! ## A concrete case -/

/-- A history as an execution after which nothing happens any more. -/
theorem exec_of_run {s0 s : State} {es : List Event} (h : Run w s0 es s) :
    ∃ σ, σ 0 = s0 ∧ (∀ n, es.length ≤ n → σ n = s) ∧ Execution w σ (fun n => es[n]?) := by
  induction h with
  | nil => exact ⟨fun _ => s0, rfl, fun _ _ => rfl, by simp, fun _ _ => rfl⟩
  | @snoc s1 s2 es e hr hs ih =>
    obtain ⟨σ, z1, z2, z3⟩ := ih
    refine ⟨fun n => if n ≤ es.length then σ n else s2, by simpa using z1, fun n hn => ?_, fun n x hx => ?_, fun n hn => ?_⟩
    · simp only [List.length_append, List.length_cons, List.length_nil] at hn
      exact if_neg (by omega)
    · obtain ⟨hlt, hx⟩ := List.getElem?_eq_some_iff.mp hx
      simp only [List.length_append, List.length_cons, List.length_nil] at hlt
      by_cases hn : n < es.length
      · rw [List.getElem_append_left hn] at hx
        rw [if_pos (by omega), if_pos (by omega)]
        exact z3.step n x (List.getElem?_eq_some_iff.mpr ⟨hn, hx⟩)
      · obtain rfl : n = es.length := by omega
        rw [List.getElem_append_right (Nat.le_refl _)] at hx
        simp only [Nat.sub_self, List.getElem_cons_zero] at hx
        subst hx
        rw [if_pos (Nat.le_refl _), if_neg (by omega), z2 _ (Nat.le_refl _)]
        exact hs
    · have hn := List.getElem?_eq_none_iff.mp hn
      simp only [List.length_append, List.length_cons, List.length_nil] at hn
      rw [if_neg (by omega), if_neg (by omega)]

/-- An execution in which the process ends is fair. -/
theorem fair_of_done {n : Nat} (h : ∀ m, n ≤ m → (σ m).down.phase = .done) : Fair w σ ev := by
  have fair : ∀ A, FairTo w σ ev A := fun A hp => by
    obtain ⟨m, hm, e, s', _, hs⟩ := hp n
    exact absurd (h m hm) hs.1
  exact ⟨fair _, fair _, fair _, fair _, fair _, fair _, fair _, fun k t => ⟨max n k, by omega, .inl (h _ (by omega))⟩,
    fun i => fair _, fun i => fair _, fair _⟩

/-- There are fair executions in which Ctrl-C is pressed: that of the orderly session, in which a tracker answered and a peer
joined before. -/
example : ∃ (σ : Nat → State) (n0 : Nat), Started demoWorld demoSetup (σ 0) ∧ Execution demoWorld σ (fun n => orderly[n]?) ∧
    Fair demoWorld σ (fun n => orderly[n]?) ∧ orderly[n0]? = some Event.signal := by
  have : demo demoWorld demoSetup orderly (fun s => decide (s.down.phase = .done)) = some true := by decide +kernel
  obtain ⟨s0, s, h0, h, hf⟩ := demo_sound this
  obtain ⟨σ, z1, z2, z3⟩ := exec_of_run h
  refine ⟨σ, joinsA.length, by rw [z1]; exact h0, z3, fair_of_done (n := orderly.length) fun m hm => ?_, rfl⟩
  rw [z2 m hm]
  simpa using hf

end Nargun.Program
