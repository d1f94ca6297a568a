import Verif.Props.ProgramAnswered
import Verif.Props.ProgramFairExists

/-! # C96 in the long run -/

namespace Nargun.Program

open Nargun Dht Krpc Spec DhtSystem DhtManager

variable {w : World} {u : Setup} {σ : Nat → State} {ev : Nat → Option Event}

section
variable (h0 : Started w u (σ 0)) (hx : Execution w σ ev) (hal : ∀ n, (σ n).dht.conAlive = true)
include hx hal

/-- How the lookup goes on. -/
theorem look_next {m : Nat} {l : Lookup} (hl : (σ m).lookup = some l) : ∃ l', (σ (m + 1)).lookup = some l' ∧
    ((l'.todo = l.todo ∧ l'.task.phase = l.task.phase ∧ (∀ e, ev m = some e → ¬ LookupAsks e ∧ lookupWants e = [])) ∨
     (∃ a v, ev m = some (.asks a v) ∧ l.todo = (a, v) :: l'.todo ∧ l'.task.phase = l.task.phase) ∨
     (∃ e, ev m = some e ∧ ¬ LookupAsks e ∧ l'.todo = lookupWants e ∧ l.todo = [] ∧
       (LookupHears e ∨ LookupBegins e ∨
         (LookupTimesOut e ∧ (∃ since, l.task.phase = .fetching since) ∧ ∃ since, l'.task.phase = .sleeping since)))) := by
  cases he : ev m with
  | none => exact ⟨l, by rw [hx.idle m he, hl], .inl ⟨rfl, rfl, by simp⟩⟩
  | some e =>
    have hstep := hx.step m e he
    have same : (σ (m + 1)).lookup = (σ m).lookup → ¬ LookupAsks e → lookupWants e = [] →
        ∃ l', (σ (m + 1)).lookup = some l' ∧
        ((l'.todo = l.todo ∧ l'.task.phase = l.task.phase ∧ (∀ e', some e = some e' → ¬ LookupAsks e' ∧ lookupWants e' = [])) ∨
         (∃ a v, some e = some (.asks a v) ∧ l.todo = (a, v) :: l'.todo ∧ l'.task.phase = l.task.phase) ∨
         (∃ e', some e = some e' ∧ ¬ LookupAsks e' ∧ l'.todo = lookupWants e' ∧ l.todo = [] ∧
           (LookupHears e' ∨ LookupBegins e' ∨
             (LookupTimesOut e' ∧ (∃ since, l.task.phase = .fetching since) ∧ ∃ since, l'.task.phase = .sleeping since)))) := by
      intro h h1 h2
      exact ⟨l, by rw [h, hl], .inl ⟨rfl, rfl, by rintro _ ⟨⟩; exact ⟨h1, h2⟩⟩⟩
    generalize σ (m + 1) = s' at hstep same
    cases hstep.2 with
    | lookup h => rw [hl] at h; cases h
    | look h1 _ h3 h4 h5 =>
      rw [hl] at h1; cases h1
      refine ⟨_, rfl, .inr (.inr ⟨_, rfl, id, rfl, h3, ?_⟩)⟩
      cases h5 with
      | tick => exact .inr (.inl rfl)
      | timeout h => exact .inr (.inr ⟨rfl, ⟨_, h⟩, _, rfl⟩)
      | _ => exact absurd h4 id
    | lookIdle h1 h4 h5 =>
      rw [hl] at h1; cases h1
      refine ⟨_, rfl, .inl ?_⟩
      cases h5 with
      | pass => exact ⟨rfl, rfl, by rintro _ ⟨⟩; exact ⟨id, rfl⟩⟩
      | reorder => exact ⟨rfl, rfl, by rintro _ ⟨⟩; exact ⟨id, rfl⟩⟩
      | _ => exact absurd h4 id
    | asks h1 _ h3 =>
      rw [hl] at h1; cases h1
      exact ⟨_, rfl, .inr (.inl ⟨_, _, rfl, h3, rfl⟩)⟩
    | asksNobody _ _ _ h4 => rw [hal m] at h4; cases h4
    | hears h1 _ h3 =>
      rw [hl] at h1; cases h1
      exact ⟨_, rfl, .inr (.inr ⟨_, rfl, id, rfl, h3, .inl trivial⟩)⟩
    | _ => exact same rfl id rfl

omit hx hal in
theorem asked_succ {ev : Nat → Option Event} (n : Nat) :
    lookupAsked (upto ev (n + 1)) = lookupAsked (upto ev n) ++ lookupAsked (ev n).toList := by
  rw [upto_succ]; exact List.filterMap_append

omit hx hal in
theorem asked_none {e : Option Event} (h : ∀ e', e = some e' → ¬ LookupAsks e') : lookupAsked e.toList = [] := by
  cases e with
  | none => rfl
  | some e => cases e <;> first | rfl | exact absurd trivial (h _ rfl)

end

section
variable (ht : Reachable u.table) (h0 : Started w u (σ 0)) (hx : Execution w σ ev) (hf : FairDht w σ ev)
  (hn : ∀ n, ev n ≠ some .exits) (hal : ∀ n, (σ n).dht.conAlive = true) (hrun : ∀ n, (σ n).dht.man.status = .running)
  (hj : ∀ n, ¬ (TableJam (σ n) ∨ LookupJam (σ n)))
include ht h0 hx hf hn hrun hj hal

/-- There is room in the queue of commands again and again. -/
theorem room_again (n : Nat) : ∃ m, n ≤ m ∧ (σ m).dht.commands.length < 1024 := by
  refine Classical.byContradiction fun hc => ?_
  have full : ∀ m, n ≤ m → 1024 ≤ (σ m).dht.commands.length := fun m hm => Nat.not_lt.mp fun h => hc ⟨m, hm, h⟩
  obtain ⟨m, e, k1, k2, k3⟩ := hf.socketTakes (fun k => by
    obtain ⟨m, hm, hm0⟩ := socket_returns ht h0 hx hf hn hal hrun hj (max k n)
    refine ⟨m, by omega, ?_⟩
    have hd := alive_exec h0 hx hn m
    have f2 := full m (by omega)
    cases hcm : (σ m).dht.commands with
    | nil => rw [hcm] at f2; simp at f2
    | cons c cs =>
      cases c with
      | query ret target v =>
        exact ⟨.dht _, _, ⟨_, _, _, rfl⟩, hd, .dht ⟨by simp, by simp, rfl, rfl⟩
          (.command (s := (σ m).nodes) (tid := List.replicate 5 0#8) (hal m) hm0 hcm (.command rfl (send_query_eq ..)))⟩
      | resp qid v =>
        exact ⟨.dht _, _, ⟨_, _, _, rfl⟩, hd, .dht ⟨by simp, by simp, rfl, rfl⟩
          (.command (s := (σ m).nodes) (tid := List.replicate 5 0#8) (hal m) hm0 hcm (.command rfl (send_resp_eq ..)))⟩) n
  rcases dht_next hx m with ⟨_, h2⟩ | ⟨e', x, h1, h2, h3⟩
  · have := h2 e k2
    cases e <;> first | exact k3 | simp [dhtEvents] at this
  · rw [k2] at h1
    cases h1
    cases e with
    | dht y =>
      simp only [dhtEvents, List.filterMap_cons, List.filterMap_nil, List.cons.injEq, and_true] at h2
      subst h2
      obtain ⟨tid, c, effs, hw⟩ := k3
      have h4 : (σ (m + 1)).dht.commands.length + 1 = (σ m).dht.commands.length := takes_step (a := (σ m).nodes) h3 hw
      obtain ⟨l, hl, _⟩ := started_dht h0 (exec_run hx m)
      have h5 : (σ m).dht.commands.length ≤ 1024 := (C106_queues hl).2.2.2.2.2.2.1
      have := full (m + 1) (by omega)
      omega
    | _ => exact k3

/-- The lookup hands over what it has to hand over, in its order. -/
theorem lookup_hands (k : Nat) : ∀ (n : Nat) (l : Lookup), (σ n).lookup = some l → l.todo.length = k →
    ∃ m, n ≤ m ∧ lookupAsked (upto ev m) = lookupAsked (upto ev n) ++ l.todo ∧
      ∃ l', (σ m).lookup = some l' ∧ l'.todo = [] ∧ l'.task.phase = l.task.phase := by
  induction k with
  | zero =>
    intro n l hl hk
    have hk := List.length_eq_zero_iff.mp hk
    exact ⟨n, Nat.le_refl _, by rw [hk, List.append_nil], l, hl, hk, rfl⟩
  | succ k ih =>
    intro n l hl hk
    -- it hands over the next one
    have next : ∃ m l1 l2 a v, n ≤ m ∧ (σ m).lookup = some l1 ∧ l1.todo = l.todo ∧ l1.task.phase = l.task.phase ∧
        lookupAsked (upto ev m) = lookupAsked (upto ev n) ∧ (σ (m + 1)).lookup = some l2 ∧
        ev m = some (.asks a v) ∧ l1.todo = (a, v) :: l2.todo ∧ l2.task.phase = l1.task.phase := by
      refine Classical.byContradiction fun hc => ?_
      have still : ∀ m, n ≤ m → ∃ l1, (σ m).lookup = some l1 ∧ l1.todo = l.todo ∧ l1.task.phase = l.task.phase ∧
          lookupAsked (upto ev m) = lookupAsked (upto ev n) := by
        intro m hm
        induction hm with
        | refl => exact ⟨l, hl, rfl, rfl, rfl⟩
        | @step m hm ih =>
          obtain ⟨l1, a1, a2, a3, a4⟩ := ih
          obtain ⟨l2, b1, ⟨b2, b3, b4⟩ | ⟨a, v, b2, b3, b4⟩ | ⟨e, _, _, _, b2, _⟩⟩ := look_next hx hal a1
          · refine ⟨l2, b1, by rw [b2, a2], by rw [b3, a3], ?_⟩
            rw [Nat.succ_eq_add_one, asked_succ, asked_none (fun e he => (b4 e he).1), List.append_nil, a4]
          · exact absurd ⟨m, l1, l2, a, v, hm, a1, a2, a3, a4, b1, b2, b3, b4⟩ hc
          · rw [a2] at b2; rw [b2] at hk; cases hk
      obtain ⟨k1, hk1, c1⟩ := fair_stops hf.lookupAsks (n := n) (fun m e hm he hw => by
        obtain ⟨l1, a1, a2, a3, a4⟩ := still m hm
        obtain ⟨l2, b1, ⟨_, _, b4⟩ | ⟨a, v, b2, b3, b4⟩ | ⟨e', b2, b3, _⟩⟩ := look_next hx hal a1
        · exact (b4 e he).1 hw
        · exact hc ⟨m, l1, l2, a, v, hm, a1, a2, a3, a4, b1, b2, b3, b4⟩
        · rw [he] at b2; cases b2; exact b3 hw)
      obtain ⟨m, hm, hroom⟩ := room_again ht h0 hx hf hn hal hrun hj k1
      obtain ⟨l1, a1, a2, _⟩ := still m (by omega)
      cases htd : l.todo with
      | nil => rw [htd] at hk; cases hk
      | cons t rest =>
        obtain ⟨a, v⟩ := t
        exact c1 m hm ⟨.asks a v, _, trivial, alive_exec h0 hx hn m,
          .asks a1 ((looks_inv h0 (exec_run hx m)).2 l1 a1 (hal m)) (a2.trans htd)
            (.ask (s := (σ m).nodes) (by decide) (hal m) hroom)⟩
    obtain ⟨m, l1, l2, a, v, c1, c2, c3, c4, c5, c6, c7, c8, c9⟩ := next
    obtain ⟨m', d1, d2, l3, d3, d4, d5⟩ := ih (m + 1) l2 c6 (by
      rw [← c3, c8, List.length_cons] at hk; omega)
    refine ⟨m', by omega, ?_, l3, d3, d4, by rw [d5, c9, c4]⟩
    rw [d2, asked_succ, c5, c7, ← c3, c8]
    show (_ ++ [(a, v)]) ++ _ = _
    simp

end

/-- C96, the part that holds, for every execution in which no task is passed over for ever: whatever other nodes answer and in
whatever order, once the lookup of peers has started, every query and every announcement it decides on is handed to the
connection, in its order; and it begins a new round again and again, unless from some moment on no round ends because answers
keep arriving. All this unless the process ends, the socket task panics (C105), the table task ends, or the tasks wait for each
other in a circle at some moment (C92). Missing: that a round ends although answers keep arriving (`C96_unbounded_violated`). -/
theorem C96_always_partial (w : World) (u : Setup) (σ : Nat → State) (ev : Nat → Option Event) (ht : Reachable u.table)
    (h0 : Started w u (σ 0)) (hx : Execution w σ ev) (hf : FairLookup w σ ev) (n0 : Nat) (hl0 : (σ n0).lookup ≠ none) :
    (∃ n, ev n = some .exits) ∨ (∃ n, (σ n).dht.conAlive = false) ∨ (∃ n, (σ n).dht.man.status ≠ .running) ∨
    (∃ n, TableJam (σ n) ∨ LookupJam (σ n)) ∨
    ((∀ n e, ev n = some e → ∃ m, n ≤ m ∧ lookupAsked (upto ev m) = lookupAsked (upto ev (n + 1)) ++ lookupWants e) ∧
      ((∀ n, ∃ m e, n ≤ m ∧ ev m = some e ∧ LookupBegins e) ∨
        (∃ k, ∀ m e, k ≤ m → ev m = some e → ¬ LookupBegins e) ∧
          ∀ n, ∃ m e, n ≤ m ∧ ev m = some e ∧ LookupHears e)) := by
  refine smooth_or σ ev fun hn hal hrun hj => ⟨?_, ?_⟩
  · intro n e he
    by_cases hw : lookupWants e = []
    · exact ⟨n + 1, by omega, by rw [hw, List.append_nil]⟩
    have hlook : ∃ l, (σ n).lookup = some l := by
      have hstep := hx.step n e he
      generalize σ (n + 1) = s' at hstep
      cases hstep.2 with
      | look h => exact ⟨_, h⟩
      | lookIdle h => exact ⟨_, h⟩
      | hears h => exact ⟨_, h⟩
      | _ => exact absurd rfl hw
    obtain ⟨l, hl⟩ := hlook
    obtain ⟨l', b1, ⟨_, _, b4⟩ | ⟨a, v, b2, _⟩ | ⟨e', b2, _, b3, _⟩⟩ := look_next hx hal hl
    · exact absurd (b4 e he).2 hw
    · rw [he] at b2; cases b2; exact absurd rfl hw
    · rw [he] at b2; cases b2
      obtain ⟨m, d1, d2, _⟩ := lookup_hands ht h0 hx hf.toFairDht hn hal hrun hj _ (n + 1) l' b1 rfl
      exact ⟨m, by omega, by rw [d2, b3]⟩
  · obtain ⟨l0, hl0⟩ := Option.ne_none_iff_exists'.mp hl0
    rcases often_or_never fun m => ∃ e, ev m = some e ∧ LookupBegins e with h | ⟨k, hk⟩
    · exact .inl fun n => by obtain ⟨m, h1, e, h2, h3⟩ := h n; exact ⟨m, e, h1, h2, h3⟩
    refine .inr ⟨⟨k, fun m e hm he hb => hk m hm ⟨e, he, hb⟩⟩, ?_⟩
    rcases often_or_never fun m => ∃ e, ev m = some e ∧ LookupHears e with h | ⟨k', hk'⟩
    · exact fun n => by obtain ⟨m, h1, e, h2, h3⟩ := h n; exact ⟨m, e, h1, h2, h3⟩
    exfalso
    have there : ∀ m, n0 ≤ m → ∃ l, (σ m).lookup = some l := fun m hm =>
      exec_keeps hx (P := fun s => ∃ l, s.lookup = some l) (fun s e s' hs ⟨l, hl⟩ => by
        obtain ⟨l', q, _⟩ := time_goes hs hl
        exact ⟨l', q⟩) hm ⟨l0, hl0⟩
    let K := max n0 (max k k')
    -- a lookup that sleeps never wakes up
    have noSleep : ∀ m l since, K ≤ m → (σ m).lookup = some l → l.task.phase = .sleeping since → False := by
      intro m l since hm hl hp
      obtain ⟨m1, d1, _, l1, d3, d4, d5⟩ := lookup_hands ht h0 hx hf.toFairDht hn hal hrun hj _ m l hl rfl
      refine wakes h0 hx hf.toFair hn (k6 := m1) fun m2 hm2 => ?_
      have : ∃ l, (σ m2).lookup = some l ∧ l.todo = [] ∧ l.task.phase = .sleeping since := by
        induction hm2 with
        | refl => exact ⟨l1, d3, d4, d5.trans hp⟩
        | @step m2 hm2 ih =>
          have hm2 : m1 ≤ m2 := hm2
          obtain ⟨l2, a1, a2, a3⟩ := ih
          obtain ⟨l3, b1, ⟨b2, b3, _⟩ | ⟨a, v, _, b3, _⟩ | ⟨e, b2, _, _, _, b3⟩⟩ := look_next hx hal a1
          · exact ⟨l3, b1, by rw [b2, a2], by rw [b3, a3]⟩
          · rw [a2] at b3; cases b3
          · rcases b3 with b3 | b3 | ⟨_, ⟨x, b3⟩, _⟩
            · exact absurd ⟨e, b2, b3⟩ (hk' m2 (by omega))
            · exact absurd ⟨e, b2, b3⟩ (hk m2 (by omega))
            · rw [a3] at b3; cases b3
      obtain ⟨l2, a1, a2, a3⟩ := this
      exact ⟨l2, since, a1, (looks_inv h0 (exec_run hx m2)).2 l2 a1 (hal m2), a2, a3⟩
    obtain ⟨l, hl⟩ := there K (by omega)
    obtain ⟨m1, d1, _, l1, d3, d4, d5⟩ := lookup_hands ht h0 hx hf.toFairDht hn hal hrun hj _ K l hl rfl
    cases hp : l1.task.phase with
    | sleeping since => exact noSleep m1 l1 since d1 d3 hp
    | fetching since =>
      -- it waits, and no answer comes
      have waits : ∀ m, m1 ≤ m → ∃ l, (σ m).lookup = some l ∧ l.todo = [] ∧ l.task.phase = .fetching since := by
        intro m hm
        induction hm with
        | refl => exact ⟨l1, d3, d4, hp⟩
        | @step m2 hm2 ih =>
          have hm2 : m1 ≤ m2 := hm2
          obtain ⟨l2, a1, a2, a3⟩ := ih
          obtain ⟨l3, b1, ⟨b2, b3, _⟩ | ⟨a, v, _, b3, _⟩ | ⟨e, b2, _, _, _, b3⟩⟩ := look_next hx hal a1
          · exact ⟨l3, b1, by rw [b2, a2], by rw [b3, a3]⟩
          · rw [a2] at b3; cases b3
          · rcases b3 with b3 | b3 | ⟨_, _, x, b3⟩
            · exact absurd ⟨e, b2, b3⟩ (hk' m2 (by omega))
            · exact absurd ⟨e, b2, b3⟩ (hk m2 (by omega))
            · exact absurd b3 fun h => noSleep (m2 + 1) l3 x (by omega) b1 h
      obtain ⟨k7, hk7, c7⟩ := fair_stops hf.lookupTimesOut (n := m1) (fun m e hm he hw => by
        obtain ⟨l2, a1, a2, a3⟩ := waits m hm
        obtain ⟨l3, b1, ⟨_, _, b4⟩ | ⟨a, v, b2, _⟩ | ⟨e', b2, _, _, _, b3⟩⟩ := look_next hx hal a1
        · obtain ⟨l4, g1, _, g3⟩ := waits (m + 1) (by omega)
          have hstep := hx.step m e he
          generalize σ (m + 1) = s' at hstep g1
          cases e with
          | look y =>
            have hw : y.event = .timeout := hw
            cases hstep.2 with
            | look _ _ _ _ h5 =>
              cases h5 with
              | timeout => cases g1; cases g3
              | _ => cases hw
            | lookIdle _ h4 h5 => rw [hw] at h4; exact h4
          | _ => exact hw
        · rw [he] at b2; cases b2; exact hw
        · rw [he] at b2; cases b2
          rcases b3 with b3 | b3 | ⟨_, _, x, b3⟩
          · exact hk' m (by omega) ⟨e, he, b3⟩
          · exact hk m (by omega) ⟨e, he, b3⟩
          · exact noSleep (m + 1) l3 x (by omega) b1 b3)
      obtain ⟨m, hm, hd | hnow⟩ := hf.lookupTime k7 (since + Fetch.ANSWER_TIMEOUT)
      · exact alive_exec h0 hx hn m hd
      · obtain ⟨l2, a1, a2, a3⟩ := waits m (by omega)
        exact c7 m hm ⟨.look ⟨.timeout, _⟩, _, rfl, alive_exec h0 hx hn m,
          .look a1 ((looks_inv h0 (exec_run hx m)).2 l2 a1 (hal m)) a2 trivial
            (.timeout (s := (σ m).looking l2) (since := since) a3 (hnow l2 a1))⟩

/-! ## A concrete case: nobody answers any more -/

/-- Nothing waits in the queues of the table task and the lookup, and nothing is on its way to them. -/
def Silent (d : DhtSystem.State) : Prop :=
  d.conAlive = true ∧ d.man.status = .running ∧ d.queries = [] ∧ d.answers OWN_CHANNEL = [] ∧ d.answers LOOKUP_CHANNEL = [] ∧
  ∀ x ∈ d.conTodo, ∃ a b, x = .datagram a b

theorem kind_entry {c i : Nat} {s s' : State} {e : Event} {x : DhtSystem.Entry} (hs : Turn w s e s') (h : kind c i e)
    (hx : dhtEvents [e] = [x]) : x.fatal = none ∧ (∀ y, x.con = some y → ∃ tid c effs, y = ⟨.command tid c, none, effs⟩) ∧
      ∀ outs, x.man ≠ some ⟨.peersGone, outs⟩ := by
  cases hs with
  | @dht y d hd hstep =>
    simp only [dhtEvents, List.filterMap_cons, List.filterMap_nil, List.cons.injEq, and_true] at hx
    subst hx
    have bad : ∀ {p : Prop}, (∀ tid c effs, y.con ≠ some ⟨.command tid c, none, effs⟩) → y ≠ {} → y.sent = none → y.put = none →
        y.man = none → y.stored = none → p := by
      intro p b1 b2 b3 b4 b5 b6
      exfalso
      unfold kind at h
      split at h
      · obtain ⟨tid, c, effs, h⟩ := h; exact b1 _ _ _ h
      · rcases h with h | ⟨d, h⟩
        · exact b2 h
        · rw [h] at b3; cases b3
      · rcases h with ⟨c, h⟩ | h | ⟨t, h⟩
        · rw [h] at b4; cases b4
        · rw [h] at b5; cases b5
        · rw [h] at b6; cases b6
      all_goals first
        | exact h
        | (cases h; done)
        | (obtain ⟨q, outs, h⟩ := h; rw [b5] at h; cases h; done)
        | (obtain ⟨rb, rt, outs, h⟩ := h; rw [b5] at h; cases h)
        | (cases h; cases b5)
    cases hstep with
    | datagram => exact bad (by simp) (by simp) rfl rfl rfl rfl
    | panics => exact bad (by simp) (by simp) rfl rfl rfl rfl
    | reorder => exact bad (by simp) (by simp) rfl rfl rfl rfl
    | command => exact ⟨rfl, by rintro _ ⟨⟩; exact ⟨_, _, _, rfl⟩, by simp⟩
    | @direct ev outs man' _ _ hm =>
      refine ⟨rfl, by simp, fun outs h => ?_⟩
      cases h
      exact absurd (hd.table _ rfl) id
    | outside ho => refine ⟨rfl, by simp, fun outs h => ?_⟩; cases h; exact ho
    | _ => exact ⟨rfl, by simp, by simp⟩
  | node => cases hx; exact ⟨rfl, by simp, by simp⟩
  | nodesGone =>
    unfold kind at h
    split at h <;> first | exact absurd h id | cases h
  | _ => first | (cases hx; exact ⟨rfl, by simp, by simp⟩) | cases hx

theorem silent_step {s s' : State} {e : Event} (hs : Step w s e s') {c i : Nat} (hk : kind c i e)
    (hn : ∀ outs, e ≠ .tableNotices outs) (h : Silent s.dht) : Silent s'.dht := by
  rcases turn_dhtStep hs.2 with ⟨_, h2⟩ | ⟨x, h1, h2, _, h4⟩
  · rw [h2]; exact h
  obtain ⟨k1, k2, k3⟩ := kind_entry hs.2 hk h1
  obtain ⟨a1, a2, a3, a4, a5, a6⟩ := h
  obtain ⟨_, e2, e3, e4, _⟩ := dht_ends h2
  have hal : s'.dht.conAlive = true := by
    cases hc : s'.dht.conAlive with
    | true => rfl
    | false =>
      rcases e2 hc with h | h | h
      · rw [show s.nodes.conAlive = _ from a1] at h; cases h
      · rw [k1] at h; cases h
      · exact absurd a2 h
  have hrun : s'.dht.man.status = .running := by
    cases hc : s'.dht.man.status with
    | running => rfl
    | failed =>
      rcases e3 hc with h | ⟨h, _⟩ | ⟨outs, h⟩
      · rw [show s.nodes.man.status = _ from a2] at h; cases h
      · rw [show s.nodes.conAlive = _ from a1] at h; cases h
      · exact absurd h (k3 outs)
    | finished =>
      rcases e4 hc with h | ⟨outs, h⟩
      · rw [show s.nodes.man.status = _ from a2] at h; cases h
      · exact absurd (h4 outs h) (hn outs)
  refine ⟨hal, hrun, ?_⟩
  generalize s'.dht = d at h2
  cases h2 with
  | datagram => obtain ⟨_, _, _, h⟩ := k2 _ rfl; cases h
  | panics => cases k1
  | @command _ _ cmd _ _ _ _ _ hstep =>
    refine ⟨a3, a4, a5, ?_⟩
    cases hstep with
    | command _ hsend =>
      cases cmd with
      | query ret target v => rw [send_query_eq] at hsend; cases hsend; simp
      | resp qid v => rw [send_resp_eq] at hsend; cases hsend; simp
  | reorder => obtain ⟨_, _, _, h⟩ := k2 _ rfl; cases h
  | sends _ h => exact ⟨a3, a4, a5, fun x hx => a6 x (by rw [show s.dht.conTodo = _ from h]; exact List.mem_cons_of_mem _ hx)⟩
  | putQuery _ h => obtain ⟨a, b, hc⟩ := a6 _ (by rw [show s.dht.conTodo = _ from h]; exact List.mem_cons_self); cases hc
  | putAnswer _ h => obtain ⟨a, b, hc⟩ := a6 _ (by rw [show s.dht.conTodo = _ from h]; exact List.mem_cons_self); cases hc
  | noListener => exact ⟨a3, a4, a5, a6⟩
  | takeQuery _ h => rw [show s.nodes.queries = _ from a3] at h; cases h
  | takeAnswer _ h => rw [show s.nodes.answers OWN_CHANNEL = _ from a4] at h; cases h
  | @hear ch r rest _ h =>
    refine ⟨a3, ?_, ?_, a6⟩
    · show (if OWN_CHANNEL = ch then rest else s.dht.answers OWN_CHANNEL) = []
      split
      · next hc => subst hc; rw [show s.nodes.answers OWN_CHANNEL = _ from a4] at h; cases h
      · exact a4
    · show (if LOOKUP_CHANNEL = ch then rest else s.dht.answers LOOKUP_CHANNEL) = []
      split
      · next hc => subst hc; rw [show s.nodes.answers LOOKUP_CHANNEL = _ from a5] at h; cases h
      · exact a5
  | _ => exact ⟨a3, a4, a5, a6⟩

theorem silent_no_jam {s : State} (h : Silent s.dht) : ¬ (TableJam s ∨ LookupJam s) := by
  obtain ⟨_, _, a3, a4, a5, _⟩ := h
  rintro (⟨_, _, _, ⟨_, _, _, h⟩ | ⟨_, _, _, h⟩⟩ | ⟨_, _, _, _, _, h⟩)
  · rw [a3] at h; simp at h
  · rw [a4] at h; simp at h
  · rw [a5] at h; simp at h

/-- Every step puts at most one entry into the queues. -/
theorem queues_grow {s0 s : State} {es : List Event} (h0 : Started w u s0) (h : Run w s0 es s) :
    s.dht.queries.length + (s.dht.answers OWN_CHANNEL).length + (s.dht.answers LOOKUP_CHANNEL).length ≤ es.length := by
  induction h with
  | nil => rw [h0.dht]; exact Nat.le_refl _
  | @snoc s1 s2 es e hr hs ih =>
    rw [List.length_append, List.length_singleton]
    rcases turn_dhtStep hs.2 with ⟨_, h2⟩ | ⟨x, h1, h2, _⟩
    · rw [h2]; omega
    generalize s2.dht = d at h2
    have ih : s1.nodes.queries.length + (s1.nodes.answers OWN_CHANNEL).length + (s1.nodes.answers LOOKUP_CHANNEL).length ≤
      es.length := ih
    cases h2 with
    | putQuery => simp only [List.length_append, List.length_singleton]; omega
    | @putAnswer ch =>
      have : OWN_CHANNEL ≠ LOOKUP_CHANNEL := by decide
      by_cases h1 : OWN_CHANNEL = ch
      · have h2 : LOOKUP_CHANNEL ≠ ch := fun h => this (h1.trans h.symm)
        subst h1
        simp only [if_true, if_neg h2, List.length_append, List.length_singleton]; omega
      · by_cases h2 : LOOKUP_CHANNEL = ch
        · subst h2
          simp only [if_true, if_neg h1, List.length_append, List.length_singleton]; omega
        · simp only [if_neg h1, if_neg h2]; omega
    | takeQuery _ h => rw [h, List.length_cons] at ih; show _ ≤ _; simp only; omega
    | takeAnswer _ h =>
      have : LOOKUP_CHANNEL ≠ OWN_CHANNEL := by decide
      rw [h, List.length_cons] at ih
      simp only [if_true, if_neg this]; omega
    | @hear ch r rest _ h =>
      have : OWN_CHANNEL ≠ LOOKUP_CHANNEL := by decide
      by_cases h1 : OWN_CHANNEL = ch
      · have h2 : LOOKUP_CHANNEL ≠ ch := fun h => this (h1.trans h.symm)
        subst h1
        rw [h, List.length_cons] at ih
        simp only [if_true, if_neg h2]; omega
      · by_cases h2 : LOOKUP_CHANNEL = ch
        · subst h2
          rw [h, List.length_cons] at ih
          simp only [if_true, if_neg h1]; omega
        · simp only [if_neg h1, if_neg h2]; omega
    | _ => show _ ≤ _; simp only; omega

/-- Nobody answers and nothing arrives any more after the client was announced once; no task is passed over for ever. -/
theorem quiet_execution : ∃ u σ ev n0, Reachable u.table ∧ Started demoWorld u (σ 0) ∧ Execution demoWorld σ ev ∧
    FairAll demoWorld σ ev ∧ (σ n0).lookup ≠ none ∧
    (exAddr 1, .announcePeer Swarm.hash1 6887#16 (ascii "tok")) ∈ lookupAsked (upto ev n0) ∧
    .touch (exId 7#8) (exAddr 1) ∈ handedAnswers OWN_CHANNEL (allEffects (conHistory (dhtEvents (upto ev n0)))) ∧
    (∀ n, ev n ≠ some .exits) ∧ (∀ n, (σ n).dht.conAlive = true) ∧ (∀ n, (σ n).dht.man.status = .running) ∧
    (∀ n, ¬ (TableJam (σ n) ∨ LookupJam (σ n))) ∧ ∀ n, n0 ≤ n → Silent (σ n).dht := by
  have hplay : play demoWorld { demoSetup with table := oneNode } announcesItself (fun es s =>
      decide (es.length < 64) && (es.all fun e => match e with | .signal => false | _ => true) &&
      s.dht.conAlive && decide (s.dht.man.status = .running) && s.dht.queries.isEmpty &&
      (s.dht.answers OWN_CHANNEL).isEmpty && (s.dht.answers LOOKUP_CHANNEL).isEmpty && s.dht.conTodo.isEmpty &&
      s.lookup.isSome && decide (lookupAsked es = [(exAddr 1, .getPeers Swarm.hash1),
        (exAddr 1, .announcePeer Swarm.hash1 6887#16 (ascii "tok"))]) &&
      decide (handedAnswers OWN_CHANNEL (allEffects (conHistory (dhtEvents es))) = [.touch (exId 7#8) (exAddr 1)])) =
      some true := by decide +kernel
  obtain ⟨s0, es, s, h0, h, hf⟩ := play_sound hplay
  simp only [Bool.and_eq_true, decide_eq_true_eq, List.isEmpty_iff, List.all_eq_true] at hf
  obtain ⟨⟨⟨⟨⟨⟨⟨⟨⟨⟨f1, f2⟩, f3⟩, f4⟩, f5⟩, f6⟩, f7⟩, f8⟩, f9⟩, f10⟩, f11⟩ := hf
  have ht : Reachable ({ demoSetup with table := oneNode } : Setup).table :=
    .sighting _ _ _ _ _ (.fresh _) (by decide +kernel : (RoutingTable.default (exId 0#8)).touchNode 5 (exId 7#8)
      (exAddr 1) = .ok oneNode)
  obtain ⟨σ, ev, z1, z2, z3, hx, hfair, later⟩ := every_history_goes_on_fairly ht h0 h
  subst z1
  have hup : upto ev es.length = es := by
    have : ∀ n, n ≤ es.length → upto ev n = es.take n := by
      intro n
      induction n with
      | zero => exact fun _ => rfl
      | succ n ih =>
        intro hn
        rw [upto_succ, ih (by omega), z2 n (by omega), List.getElem?_eq_getElem (by omega), Option.toList_some,
          List.take_append_getElem]
    rw [this _ (Nat.le_refl _), List.take_length]
  have nosig : ∀ n, .signal ∉ upto ev n := by
    intro n hm
    obtain ⟨m, _, hm⟩ := List.mem_filterMap.mp hm
    by_cases hlt : m < es.length
    · rw [z2 m hlt] at hm
      cases f2 _ (List.mem_of_getElem? hm)
    · obtain ⟨c, i, hk⟩ := later m _ (by omega) hm
      unfold kind at hk
      split at hk <;> first | exact hk | cases hk
  have silent : ∀ m, es.length ≤ m → Silent (σ m).dht := by
    intro m hm
    induction hm with
    | refl => rw [z3]; exact ⟨f3, f4, f5, f6, f7, by rw [f8]; simp⟩
    | @step m hm ih =>
      cases he : ev m with
      | none => rw [Nat.succ_eq_add_one, hx.idle m he]; exact ih
      | some e =>
        obtain ⟨c, i, hk⟩ := later m e hm he
        refine silent_step (hx.step m e he) hk (fun outs ho => ?_) ih
        subst ho
        exact nosig (m + 1) (notices_signal h0 (exec_run hx (m + 1)) (.inl ⟨outs, mem_upto he (Nat.lt_succ_self m)⟩))
  refine ⟨_, σ, ev, es.length, ht, h0, hx, hfair, ?_, ?_, ?_, fun n g => ?_, fun n => ?_, fun n => ?_, fun n g => ?_,
    silent⟩
  · rw [z3]; intro hnone; rw [hnone] at f9; cases f9
  · rw [hup, f10]; simp
  · rw [hup, f11]; simp
  · exact nosig _ (exit_ends h0 (exec_run hx (n + 1)) (mem_upto g (Nat.lt_succ_self n))).1
  · cases g : (σ n).dht.conAlive with
    | true => rfl
    | false =>
      have := exec_keeps hx (P := fun s => s.dht.conAlive = false) (fun s e s' hs hd => by
        rcases turn_dhtStep hs.2 with ⟨_, h2⟩ | ⟨x, _, h2, _⟩
        · rw [h2]; exact hd
        · exact (dead_run (show s.nodes.conAlive = false from hd) (.snoc (h := []) .nil h2)).1)
        (show n ≤ max n es.length by omega) g
      rw [(silent (max n es.length) (by omega)).1] at this; cases this
  · refine Classical.byContradiction fun g => ?_
    have := exec_keeps hx (P := fun s => s.dht.man.status ≠ .running) (fun s e s' hs hd => table_ended hs hd)
      (show n ≤ max n es.length by omega) g
    exact absurd (silent (max n es.length) (by omega)).2.1 this
  · by_cases hlt : n < es.length
    · have hq := queues_grow h0 (exec_run hx n)
      have hlen : (upto ev n).length ≤ n := by
        have := List.length_filterMap_le ev (List.range n)
        rwa [List.length_range] at this
      rcases g with ⟨_, _, _, ⟨_, _, _, g⟩ | ⟨_, _, _, g⟩⟩ | ⟨_, _, _, _, _, g⟩ <;> omega
    · exact absurd g (silent_no_jam (silent n (by omega)))

/-- The hypotheses of `C96_always_partial` are met, none of the exceptions applies, and rounds begin again and again. -/
example : ∃ u σ ev n0, Reachable u.table ∧ Started demoWorld u (σ 0) ∧ Execution demoWorld σ ev ∧ FairLookup demoWorld σ ev ∧
    (σ n0).lookup ≠ none ∧ (exAddr 1, .announcePeer Swarm.hash1 6887#16 (ascii "tok")) ∈ lookupAsked (upto ev n0) ∧
    ∀ n, ∃ m e, n ≤ m ∧ ev m = some e ∧ LookupBegins e := by
  obtain ⟨u, σ, ev, n0, ht, h0, hx, hf, hl, ha, _, hn, hal, hrun, hj, silent⟩ := quiet_execution
  refine ⟨u, σ, ev, n0, ht, h0, hx, ⟨hf.toFairDht, hf.lookupTimesOut⟩, hl, ha, ?_⟩
  rcases C96_always_partial _ _ σ ev ht h0 hx ⟨hf.toFairDht, hf.lookupTimesOut⟩ n0 hl with
    ⟨n, g⟩ | ⟨n, g⟩ | ⟨n, g⟩ | ⟨n, g⟩ | ⟨_, g | ⟨_, g⟩⟩
  · exact absurd g (hn n)
  · rw [hal n] at g; cases g
  · exact absurd (hrun n) g
  · exact absurd g (hj n)
  · exact g
  · obtain ⟨m, e, k1, k2, k3⟩ := g n0
    have hq := (silent m k1).2.2.2.2.1
    have hstep := hx.step m e k2
    generalize σ (m + 1) = s' at hstep
    cases e with
    | hears r sent =>
      cases hstep.2 with
      | hears _ _ _ k4 =>
        cases k4 with
        | hear _ h => rw [show (σ m).nodes.answers LOOKUP_CHANNEL = _ from hq] at h; cases h
    | _ => exact absurd k3 id

end Nargun.Program
