import Verif.Spec.Trouble
import Verif.Props.ProgramDeadlock
import Verif.Props.ProgramAnswers
import Verif.Lemmas.ProgramActs

/-! # Errors that the operating system reports: C140, and once more C119 -/

namespace Nargun.Trouble

open Nargun Dht Krpc Spec
open Nargun.Program (World Setup State)

variable {w : World} {u : Setup} {s0 s s' s1 s2 : State} {e : Trouble.Event} {es es' : List Trouble.Event}

/-- Steps of the DHT alone. -/
theorem dht_turn {x : DhtSystem.Entry} {d : DhtSystem.State} (ho : Program.OwnDht x)
    (hs : DhtSystem.Step w.env w.refreshPause s.nodes x d) (hp : d.man.peers = s.peers) :
    Program.Turn w s (.dht x) { s with dht := d } := by
  have := Program.Turn.dht ho hs
  rwa [hp] at this

/-- The counterpart of a step. -/
theorem likened_step {ps : List Program.Event} (h0 : Program.Started w u s0) (hr : Program.Run w s0 ps s)
    (hs : Step w s e s') (hn : e ≠ .noSignal) : Program.Step w s (likened e) s' := by
  cases hs with
  | normal h => exact h
  | refused hp ha hc =>
    exact ⟨hp, dht_turn ⟨by simp, by simp, rfl, rfl⟩ (.sends (s := s.nodes) ha hc) rfl⟩
  | recvFails hp ha hc =>
    obtain ⟨l, hl, _⟩ := Program.started_dht h0 hr
    have hf := DhtSystem.Flow.run hl
    have := Dht.C95_short_id_violated w.env _ u.secret _ _ hf.con ⟨⟨0#8, 0#8, 0#8, 0#8⟩, 0#16⟩
    exact ⟨hp, dht_turn ⟨by simp, by simp, rfl, rfl⟩ (.panics (s := s.nodes) ha hc this) rfl⟩
  | noSignal => exact absurd rfl hn

/-- C140, for the states: whatever errors of the socket are reported, the program is at every moment in a state that it could
also have reached without any: with the refused datagrams sent and lost on their way, and with one more datagram received
instead of the error on reading. So everything that is proved of the states of the program holds in spite of errors. -/
theorem C140_states_partial (w : World) (u : Setup) (s0 s : State) (es : List Trouble.Event) (h0 : Program.Started w u s0)
    (h : Run w s0 es s) (hn : .noSignal ∉ es) : Program.Run w s0 (es.map likened) s := by
  induction h with
  | nil => exact .nil
  | snoc hr hs ih =>
    rw [List.map_append]
    have := ih fun hm => hn (List.mem_append_left _ hm)
    refine .snoc this (likened_step h0 this hs fun he => hn ?_)
    subst he; simp

/-- Events of the counterpart. -/
theorem likened_mem {x : Program.Event} (hx : ∀ d, x ≠ .dht d) (hn : .noSignal ∉ es) (h : x ∈ es.map likened) :
    .normal x ∈ es := by
  obtain ⟨e, he, rfl⟩ := List.mem_map.mp h
  cases e with
  | normal y => exact he
  | refused a b => exact absurd rfl (hx _)
  | recvFails => exact absurd rfl (hx _)
  | noSignal => exact absurd he hn

theorem mem_likened {x : Program.Event} (h : .normal x ∈ es) : x ∈ es.map likened := List.mem_map.mpr ⟨_, h, rfl⟩

/-- The tables written are those written in the counterpart. -/
theorem likened_stored : storedTables (dhtEvents (es.map likened)) = storedTables (dhtEvents (normalEvents es)) := by
  induction es with
  | nil => rfl
  | cons e es ih =>
    cases e with
    | normal x =>
      have h1 : dhtEvents (x :: es.map likened) = dhtEvents [x] ++ dhtEvents (es.map likened) := by
        simp only [dhtEvents, ← List.filterMap_append]; rfl
      have h2 : dhtEvents (x :: normalEvents es) = dhtEvents [x] ++ dhtEvents (normalEvents es) := by
        simp only [dhtEvents, ← List.filterMap_append]; rfl
      have h3 : normalEvents (.normal x :: es) = x :: normalEvents es := rfl
      rw [List.map_cons, h3]
      show storedTables (dhtEvents (x :: es.map likened)) = _
      rw [h1, h2]
      simp only [storedTables, List.filterMap_append] at ih ⊢
      rw [ih]
    | refused a b => exact ih
    | recvFails => exact ih
    | noSignal => exact ih

/-- A fatal datagram in the counterpart is one that was received, or the error on reading. -/
theorem likened_fatal (h : FatalDatagram (es.map likened)) : FatalDatagram (normalEvents es) ∨ .recvFails ∈ es := by
  obtain ⟨x, hx, hf⟩ := h
  simp only [dhtEvents, List.mem_filterMap, List.mem_map] at hx
  obtain ⟨y, ⟨e, he, rfl⟩, hy⟩ := hx
  cases e with
  | normal z => exact .inl ⟨x, List.mem_filterMap.mpr ⟨z, List.mem_filterMap.mpr ⟨_, he, rfl⟩, hy⟩, hf⟩
  | refused a b => simp only [likened, Option.some.injEq] at hy; subst hy; cases hf
  | recvFails => exact .inr he
  | noSignal => cases hy

/-- C140, what errors on sending can do: nothing. As long as reading from the socket does not fail, the tasks of the DHT end
only for the reasons for which they end without errors: a datagram at which the socket task panics, the end of the torrent
side, Ctrl-C. -/
theorem C140_sends_partial (w : World) (u : Setup) (s0 s : State) (es : List Trouble.Event) (h0 : Program.Started w u s0)
    (h : Run w s0 es s) (hn : .noSignal ∉ es) (hf : .recvFails ∉ es) :
    (s.dht.man.status = .failed → FatalDatagram (normalEvents es) ∨ .normal (.torrent .manDies) ∈ es) ∧
    (s.dht.man.status = .finished → .normal .signal ∈ es) ∧
    (s.dht.conAlive = false → s.dht.man.status ≠ .running ∨ FatalDatagram (normalEvents es)) ∧
    (∀ l, s.lookup = some l → l.alive = false → s.dht.conAlive = false) := by
  have hr := C140_states_partial w u s0 s es h0 h hn
  obtain ⟨h1, h2, h3⟩ := Program.C122_survives_partial w u s0 s _ h0 hr
  refine ⟨fun hs => ?_, fun hs => likened_mem (by simp) hn (h2 hs), fun hs => ?_, fun l hl hd => ?_⟩
  · rcases h1 hs with g | g
    · exact .inl ((likened_fatal g).resolve_right hf)
    · exact .inr (likened_mem (by simp) hn g)
  · exact (h3 hs).imp_right fun g => (likened_fatal g).resolve_right hf
  · exact (Program.C122_lookups_partial w u s0 s _ h0 hr l hl hd).1

/-- The socket task does not come back. -/
theorem dead_step (ha : s.dht.conAlive = false) (hs : Step w s e s') :
    s'.dht.conAlive = false ∧ (∀ x, e = .normal x → sent (dhtEvents [x]) = [] ∧ arrivals (dhtEvents [x]) = []) ∧
      (∀ a b, e ≠ .refused a b) ∧ e ≠ .recvFails := by
  cases hs with
  | @normal x _ h =>
    obtain ⟨l, hl, hfl⟩ := Program.run_dht (Program.Run.snoc .nil h)
    obtain ⟨g1, g2, g3⟩ := dead_run (by exact ha) hl
    refine ⟨g1, fun y hy => ?_, by simp, by simp⟩
    cases hy
    rw [List.nil_append] at hfl
    rw [← hfl]
    simp only [sent, arrivals, List.filterMap_eq_nil_iff] at g2 g3 ⊢
    exact ⟨fun x hx => g2 x (List.mem_filter.mp hx).1, fun x hx => g3 x (List.mem_filter.mp hx).1⟩
  | refused _ h => rw [ha] at h; cases h
  | recvFails _ h => rw [ha] at h; cases h
  | noSignal => exact ⟨ha, by simp, by simp, by simp⟩

/-- Nothing is sent or received after the end of the socket task. -/
theorem dead_all (ha : s.dht.conAlive = false) (h : Run w s es s') :
    s'.dht.conAlive = false ∧ sent (dhtEvents (normalEvents es)) = [] ∧ arrivals (dhtEvents (normalEvents es)) = [] ∧
      refusedDatagrams es = [] ∧ .recvFails ∉ es := by
  induction h with
  | nil => exact ⟨ha, rfl, rfl, rfl, by simp⟩
  | @snoc s1 s2 es e hr hs ih =>
    obtain ⟨i1, i2, i3, i4, i5⟩ := ih
    obtain ⟨g1, g2, g3, g4⟩ := dead_step i1 hs
    refine ⟨g1, ?_, ?_, ?_, ?_⟩
    · cases e with
      | normal x =>
        have : normalEvents (es ++ [.normal x]) = normalEvents es ++ [x] := by simp [normalEvents]
        rw [this]
        have h2 := (g2 x rfl).1
        simp only [dhtEvents, sent, List.filterMap_append] at h2 i2 ⊢
        rw [i2, h2]; rfl
      | _ =>
        simp only [normalEvents, List.filterMap_append] at i2 ⊢
        simpa using i2
    · cases e with
      | normal x =>
        have : normalEvents (es ++ [.normal x]) = normalEvents es ++ [x] := by simp [normalEvents]
        rw [this]
        have h2 := (g2 x rfl).2
        simp only [dhtEvents, arrivals, List.filterMap_append] at h2 i3 ⊢
        rw [i3, h2]; rfl
      | _ =>
        simp only [normalEvents, List.filterMap_append] at i3 ⊢
        simpa using i3
    · cases e with
      | refused a b => exact absurd rfl (g3 a b)
      | _ => simp only [refusedDatagrams, List.filterMap_append] at i4 ⊢; simpa using i4
    · intro hm
      rcases List.mem_append.mp hm with hm | hm
      · exact i5 hm
      · exact g4 (List.mem_singleton.mp hm).symm

/-- Before and after an event. -/
theorem Run.split {e : Trouble.Event} (h : Run w s es s') (he : e ∈ es) :
    ∃ as bs a b, es = as ++ e :: bs ∧ Run w s as a ∧ Step w a e b ∧ Run w b bs s' := by
  induction h with
  | nil => cases he
  | @snoc s1 s2 es e' hr hs ih =>
    rcases List.mem_append.mp he with hm | hm
    · obtain ⟨as, bs, a, b, rfl, h1, h2, h3⟩ := ih hm
      exact ⟨as, bs ++ [e'], a, b, by simp, h1, h2, .snoc h3 hs⟩
    · cases List.mem_singleton.mp hm
      exact ⟨es, [], s1, s2, rfl, hr, hs, .nil⟩

/-- C140, what remains after an error on reading. Whatever happens on the torrent side, with the trackers and with Ctrl-C from
the moment before it can happen in the same way after it. -/
theorem C140_others_partial (w : World) (s s1 : State) (hs : Step w s .recvFails s1) (ps : List Program.Event) (s2 : State)
    (h : Program.Run w s ps s2) (hb : ∀ e ∈ ps, BesidesDht e) :
    ∃ s3, Program.Run w s1 ps s3 ∧ s3.swarm = s2.swarm ∧ s3.peers = s2.peers ∧ s3.trackers = s2.trackers ∧
      s3.down = s2.down := by
  have h1 : s1.swarm = s.swarm ∧ s1.peers = s.peers ∧ s1.trackers = s.trackers ∧ s1.down = s.down := by
    cases hs with
    | recvFails => exact ⟨rfl, rfl, rfl, rfl⟩
  clear hs
  induction h with
  | nil => exact ⟨s1, .nil, h1.1, h1.2.1, h1.2.2.1, h1.2.2.2⟩
  | @snoc b c ps e hr hs ih =>
    obtain ⟨s3, r3, g1, g2, g3, g4⟩ := ih (fun x hx => hb x (List.mem_append_left _ hx))
    have he := hb e (by simp)
    obtain ⟨hp, ht⟩ := hs
    rw [← g4] at hp
    have htor : b.torrent = s3.torrent := by simp only [State.torrent, g1, g2]
    cases ht with
    | torrent ho h => exact ⟨_, .snoc r3 ⟨hp, .torrent ho (htor ▸ h)⟩, rfl, rfl, g3, g4⟩
    | answered h1 h2 h3 =>
      exact ⟨_, .snoc r3 ⟨hp, .answered (g3 ▸ h1) h2 h3⟩, g1, by simp only [g2], by simp only [g3], g4⟩
    | tracker h1 h2 h3 => exact ⟨_, .snoc r3 ⟨hp, .tracker (g3 ▸ h1) h2 h3⟩, g1, g2, by simp only [g3], g4⟩
    | trackerNotices h1 h2 h3 h4 =>
      exact ⟨_, .snoc r3 ⟨hp, .trackerNotices (g3 ▸ h1) h2 (g4 ▸ h3) h4⟩, g1, g2, by simp only [g3], rfl⟩
    | @trackerEnds i t x h1 h2 h3 =>
      exact ⟨_, .snoc r3 ⟨hp, .trackerEnds (x := x) (g3 ▸ h1) h2 (by rw [g4]; exact h3)⟩, g1, g2, g3, rfl⟩
    | @signal x h1 => exact ⟨_, .snoc r3 ⟨hp, .signal (x := x) (by rw [g4]; exact h1)⟩, g1, g2, g3, rfl⟩
    | @exits x h1 => exact ⟨_, .snoc r3 ⟨hp, .exits (x := x) (by rw [g4]; exact h1)⟩, g1, g2, g3, rfl⟩
    | _ => exact absurd he (by simp [BesidesDht])

/-- C140, the end of the program: after an error on reading Ctrl-C can always end the process, in any circumstances, without
anything from other nodes, peers or trackers. -/
theorem C140_ends_partial (w : World) (u : Setup) (s0 s : State) (es : List Trouble.Event) (ht : Reachable u.table)
    (h0 : Program.Started w u s0) (h : Run w s0 es s) (hn : .noSignal ∉ es) (hf : .recvFails ∈ es) (hx : .normal .exits ∉ es) :
    ∃ ps s', Program.Run w s (ps ++ [.exits]) s' ∧ ∀ e ∈ ps, Unaided e := by
  obtain ⟨as, bs, a, b, rfl, h1, h2, h3⟩ := h.split hf
  have hd : s.dht.conAlive = false := by
    refine (dead_all ?_ h3).1
    cases h2 with
    | recvFails => rfl
  refine Program.C120_ends_partial w u s0 s _ ht h0 (C140_states_partial w u s0 s _ h0 h hn)
    (fun hm => hx (likened_mem (by simp) hn hm)) ?_ ?_
  · rw [hd]; intro hc; cases hc
  · rw [hd]; intro hc; cases hc

/-- C140, the end of the program: when the process has ended after Ctrl-C, every tracker that can be told was told, and the
routing table was written, except if the table task had ended before: because reading from the socket failed or for one of
the reasons for which it ends without errors. -/
theorem C140_exit_partial (w : World) (u : Setup) (s0 s : State) (es : List Trouble.Event) (h0 : Program.Started w u s0)
    (h : Run w s0 es s) (hn : .noSignal ∉ es) (hx : .normal .exits ∈ es) :
    .normal .signal ∈ es ∧
    (∀ i, i < u.urls.length → .normal (.trackerNotices i) ∈ es ∧
      ∃ t, s.trackers[i]? = some t ∧ t.phase = .exited ∧ (ToldStopped t.log ∨ LeftUnanswered t.log)) ∧
    (storedTables (dhtEvents (normalEvents es)) = [s.dht.man.table] ∨
      storedTables (dhtEvents (normalEvents es)) = [] ∧
        (.recvFails ∈ es ∨ FatalDatagram (normalEvents es) ∨ .normal (.torrent .manDies) ∈ es)) := by
  have hr := C140_states_partial w u s0 s es h0 h hn
  obtain ⟨h1, h2, h3⟩ := Program.C119_exit_partial w u s0 s _ h0 hr (mem_likened hx)
  refine ⟨likened_mem (by simp) hn h1, fun i hi => ⟨likened_mem (by simp) hn (h2 i hi).1, (h2 i hi).2⟩, ?_⟩
  rw [likened_stored] at h3
  rcases h3 with ⟨_, g⟩ | ⟨g1, g2⟩
  · exact .inl g
  · refine .inr ⟨g1, ?_⟩
    rcases g2 with g2 | g2
    · exact (likened_fatal g2).symm.imp_right .inl
    · exact .inr (.inr (likened_mem (by simp) hn g2))

/-- C140 is violated: whenever the socket task waits for a datagram, one error on reading ends the part of the program that
works for the DHT for good. Whatever happens afterwards, no datagram leaves or arrives; and when the table task has nothing to
do at that moment, then it can end as well, and its table is not written, whatever happens afterwards. -/
theorem C140_receive_violated (w : World) (u : Setup) (s0 s : State) (es : List Trouble.Event) (_ : Program.Started w u s0)
    (_ : Run w s0 es s) (hp : s.down.phase ≠ .done) (ha : s.dht.conAlive = true) (hc : s.dht.conTodo = []) :
    ∃ s1, Step w s .recvFails s1 ∧
      (∀ es' s2, Run w s1 es' s2 → sent (dhtEvents (normalEvents es')) = [] ∧
        arrivals (dhtEvents (normalEvents es')) = [] ∧ refusedDatagrams es' = []) ∧
      (s.dht.man.status = .running → s.dht.manTodo = [] → s.dht.queries = [] →
        ∃ e s2, Step w s1 (.normal e) s2 ∧ s2.dht.man.table = s.dht.man.table ∧
          ∀ es' s3, Run w s2 es' s3 → storedTables (dhtEvents (normalEvents es')) = []) := by
  refine ⟨_, .recvFails hp ha hc, fun es' s2 hr => ?_, fun hrun hm hq => ?_⟩
  · obtain ⟨_, g2, g3, g4, _⟩ := dead_all rfl hr
    exact ⟨g2, g3, g4⟩
  · refine ⟨_, _, .normal ⟨hp, dht_turn ⟨by rintro m ⟨⟩; trivial, by simp, rfl, rfl⟩ (.conGone hm rfl hq (.conGone hrun)) rfl⟩,
      rfl, fun es' s3 hr => ?_⟩
    have key : ∀ {a b : State} {es : List Trouble.Event}, a.dht.man.status = .failed → Run w a es b →
        b.dht.man.status = .failed ∧ storedTables (dhtEvents (normalEvents es)) = [] := by
      intro a b es hf h
      induction h with
      | nil => exact ⟨hf, rfl⟩
      | @snoc b c es e _ hs ih =>
        obtain ⟨i1, i2⟩ := ih
        cases hs with
        | @normal x _ h =>
          obtain ⟨l, hl, hfl⟩ := Program.run_dht (Program.Run.snoc .nil h)
          obtain ⟨g1, g2⟩ := failed_run (by exact i1) hl
          refine ⟨g1, ?_⟩
          have : normalEvents (es ++ [.normal x]) = normalEvents es ++ [x] := by simp [normalEvents]
          have hx : storedTables (dhtEvents [x]) = [] := by
            rw [List.nil_append] at hfl
            rw [← hfl]
            simp only [storedTables, List.filterMap_eq_nil_iff] at g2 ⊢
            exact fun x hx => g2 x (List.mem_filter.mp hx).1
          rw [this]
          simp only [dhtEvents, storedTables, List.filterMap_append] at hx i2 ⊢
          rw [i2, hx]; rfl
        | _ =>
          refine ⟨i1, ?_⟩
          simp only [normalEvents, List.filterMap_append] at i2 ⊢
          simpa using i2
    exact (key rfl hr).2

/-! ## Concrete cases -/

/-- What the examples are made of. -/
inductive Try where
  | does (a : Program.Act)
  | conGone
  | refused
  | recvFails
  | noSignal

/-- Do this. -/
def try1 (w : World) (s : State) : Try → Option (Trouble.Event × State)
  | .does a => if s.down.phase = .done then none else (Program.act w s a).map fun r => (.normal r.1, r.2)
  | .conGone =>
    if s.down.phase ≠ .done ∧ s.dht.manTodo = [] ∧ s.dht.conAlive = false ∧ s.dht.queries = [] ∧
        s.dht.man.status = .running then
      some (.normal (.dht { man := some ⟨.conGone, []⟩ }),
        { s with dht := { s.nodes with man := { s.nodes.man with status := .failed } } })
    else none
  | .refused =>
    match s.dht.conTodo with
    | .datagram a b :: rest =>
      if s.down.phase ≠ .done ∧ s.dht.conAlive = true then
        some (.refused a b, { s with dht := { s.nodes with conTodo := rest } })
      else none
    | _ => none
  | .recvFails =>
    if s.down.phase ≠ .done ∧ s.dht.conAlive = true ∧ s.dht.conTodo = [] then
      some (.recvFails, { s with dht := { s.nodes with conAlive := false } })
    else none
  | .noSignal =>
    if s.down.phase = .holding then some (.noSignal, { s with down := { s.down with phase := .done } }) else none

theorem try1_step {t : Try} (h : try1 w s t = some (e, s')) : Step w s e s' := by
  cases t with
  | does a =>
    simp only [try1] at h
    split at h
    · cases h
    · next hp =>
      obtain ⟨⟨x, y⟩, h1, h2⟩ := Option.map_eq_some_iff.mp h
      cases h2
      exact .normal ⟨hp, Program.act_turn h1⟩
  | conGone =>
    simp only [try1] at h
    split at h
    · next hc =>
      cases h
      exact .normal ⟨hc.1, dht_turn ⟨by rintro m ⟨⟩; trivial, by simp, rfl, rfl⟩
        (.conGone hc.2.1 hc.2.2.1 hc.2.2.2.1 (.conGone hc.2.2.2.2)) rfl⟩
    · cases h
  | refused =>
    simp only [try1] at h
    split at h
    · next hc =>
      split at h
      · next hp => cases h; exact .refused hp.1 hp.2 hc
      · cases h
    · cases h
  | recvFails =>
    simp only [try1] at h
    split at h
    · next hc => cases h; exact .recvFails hc.1 hc.2.1 hc.2.2
    · cases h
  | noSignal =>
    simp only [try1] at h
    split at h
    · next hc => cases h; exact .noSignal hc
    · cases h

/-- Do all of these. -/
def tries (w : World) (s : State) : List Try → Option (List Trouble.Event × State)
  | [] => some ([], s)
  | t :: ts => (try1 w s t).bind fun r => (tries w r.2 ts).map fun q => (r.1 :: q.1, q.2)

theorem Run.append (h1 : Run w s es s1) (h2 : Run w s1 es' s2) : Run w s (es ++ es') s2 := by
  induction h2 with
  | nil => simpa using h1
  | @snoc _ _ _ e _ hs ih => rw [← List.append_assoc]; exact .snoc ih hs

theorem tries_run {ts : List Try} : ∀ {s s' : State} {es}, tries w s ts = some (es, s') → Run w s es s' := by
  induction ts with
  | nil => intro s s' es h; cases h; exact .nil
  | cons a as ih =>
    intro s s' es h
    obtain ⟨⟨e1, s1⟩, h1, h2⟩ := Option.bind_eq_some_iff.mp h
    obtain ⟨⟨es2, s2⟩, h3, h4⟩ := Option.map_eq_some_iff.mp h2
    cases h4
    exact (Run.snoc .nil (try1_step h1)).append (ih h3)

/-- What `f` says about a session with errors. -/
def troubled {α : Type} (w : World) (u : Setup) (ts : List Try) (f : List Trouble.Event → State → α) : Option α :=
  (Program.startOf w u).bind fun s => (tries w s ts).map fun r => f r.1 r.2

theorem troubled_sound {α : Type} {ts : List Try} {f : List Trouble.Event → State → α} {a : α}
    (h : troubled w u ts f = some a) : ∃ s0 es s, Program.Started w u s0 ∧ Run w s0 es s ∧ f es s = a := by
  obtain ⟨s0, h0, h⟩ := Option.bind_eq_some_iff.mp h
  obtain ⟨⟨es, s⟩, h1, h2⟩ := Option.map_eq_some_iff.mp h
  exact ⟨s0, es, s, Program.startOf_started h0, tries_run h1, h2⟩

/-- Which kind of event this is. -/
def kind : Trouble.Event → Nat
  | .normal .exits => 0
  | .normal .signal => 1
  | .normal _ => 2
  | .refused _ _ => 3
  | .recvFails => 4
  | .noSignal => 5

theorem kind_recvFails {e : Trouble.Event} (h : kind e = 4) : e = .recvFails := by
  unfold kind at h; split at h <;> first | rfl | cases h

theorem kind_exits {e : Trouble.Event} (h : kind e = 0) : e = .normal .exits := by
  unfold kind at h; split at h <;> first | rfl | cases h

/-- The ping to the node of the stored table is refused; the session ends in order. -/
def refusedPing : List Try := [.does .putCommand, .does (.command (ascii "abcde")), .refused,
  .does (.ev (.tracker 0 .sends)), .does (.ev (.answered 0 Program.namesA)), .does (.ev .signal),
  .does (.ev (.trackerNotices 0)), .does (.ev (.tableNotices [.stored Program.oneNode])),
  .does (.ev (.dht { stored := some Program.oneNode })), .does (.ev (.trackerEnds 0)), .does (.ev .tableEnds),
  .does (.ev .exits)]

/-- A refused datagram, and yet the table is written at the end. -/
example : ∃ s0 es s, Program.Started Program.demoWorld { Program.demoSetup with table := Program.oneNode } s0 ∧
    Run Program.demoWorld s0 es s ∧ (refusedDatagrams es).length = 1 ∧ es.map kind = [2, 2, 3, 2, 2, 1, 2, 2, 2, 2, 2, 0] ∧
    (storedTables (dhtEvents (normalEvents es))).length = 1 := by
  have : troubled Program.demoWorld { Program.demoSetup with table := Program.oneNode } refusedPing
      (fun es _ => ((refusedDatagrams es).length, es.map kind, (storedTables (dhtEvents (normalEvents es))).length)) =
      some (1, [2, 2, 3, 2, 2, 1, 2, 2, 2, 2, 2, 0], 1) := by decide +kernel
  obtain ⟨s0, es, s, h0, h, hf⟩ := troubled_sound this
  simp only [Prod.mk.injEq] at hf
  exact ⟨s0, es, s, h0, h, hf.1, hf.2.1, hf.2.2⟩

/-- Reading fails, the table task ends, Ctrl-C. -/
def deafSession : List Try := [.does .putCommand, .does (.command (ascii "abcde")), .does .sends, .recvFails, .conGone,
  .does (.ev (.tracker 0 .sends)), .does (.ev (.answered 0 Program.namesA)), .does (.ev .signal),
  .does (.ev (.trackerNotices 0)), .does (.ev (.trackerEnds 0)), .does (.ev .tableEnds), .does (.ev .exits)]

/-- C140 is violated, an example: the program was started with a routing table that holds a node, no datagram was received at
all, reading from the socket fails once, and the process ends after Ctrl-C without writing the table. -/
theorem C140_table_lost_violated : ∃ w u s0 es s, Program.Started w u s0 ∧ Run w s0 es s ∧
    es.map kind = [2, 2, 2, 4, 2, 2, 2, 1, 2, 2, 2, 0] ∧ u.table.iterNodes ≠ [] ∧
    arrivals (dhtEvents (normalEvents es)) = [] ∧ storedTables (dhtEvents (normalEvents es)) = [] := by
  have : troubled Program.demoWorld { Program.demoSetup with table := Program.oneNode } deafSession
      (fun es _ => (es.map kind, (arrivals (dhtEvents (normalEvents es))).length,
        (storedTables (dhtEvents (normalEvents es))).length)) =
      some ([2, 2, 2, 4, 2, 2, 2, 1, 2, 2, 2, 0], 0, 0) := by decide +kernel
  obtain ⟨s0, es, s, h0, h, hf⟩ := troubled_sound this
  simp only [Prod.mk.injEq] at hf
  exact ⟨_, _, s0, es, s, h0, h, hf.1, by decide +kernel, List.length_eq_zero_iff.mp hf.2.1,
    List.length_eq_zero_iff.mp hf.2.2⟩

/-- The hypotheses of `C140_states_partial`, `C140_exit_partial` and `C140_others_partial` are met by this session:
waiting for Ctrl-C does not fail, reading from the socket does, and the process ends. -/
example : ∃ s0 es s, Program.Started Program.demoWorld { Program.demoSetup with table := Program.oneNode } s0 ∧
    Run Program.demoWorld s0 es s ∧ .noSignal ∉ es ∧ .recvFails ∈ es ∧ .normal .exits ∈ es ∧
    ∃ a b, Step Program.demoWorld a .recvFails b := by
  have : troubled Program.demoWorld { Program.demoSetup with table := Program.oneNode } deafSession
      (fun es _ => es.map kind) = some [2, 2, 2, 4, 2, 2, 2, 1, 2, 2, 2, 0] := by decide +kernel
  obtain ⟨s0, es, s, h0, h, hf⟩ := troubled_sound this
  have hk : ∀ x, x ∈ es.map kind ↔ x ∈ [2, 2, 2, 4, 2, 2, 2, 1, 2, 2, 2, 0] := by rw [hf]; exact fun _ => Iff.rfl
  have h4 : .recvFails ∈ es := by
    obtain ⟨e, he, hx⟩ := List.mem_map.mp ((hk 4).mpr (by decide))
    rwa [← kind_recvFails hx]
  obtain ⟨_, _, a, b, _, _, h2, _⟩ := h.split h4
  refine ⟨s0, es, s, h0, h, fun hm => ?_, h4, ?_, a, b, h2⟩
  · exact absurd ((hk 5).mp (List.mem_map.mpr ⟨_, hm, rfl⟩)) (by decide)
  · obtain ⟨e, he, hx⟩ := List.mem_map.mp ((hk 0).mpr (by decide))
    rwa [← kind_exits hx]

/-- The hypotheses of `C140_ends_partial` are met after a failed reading, before Ctrl-C: the session can still be ended. -/
example : ∃ s0 es s, Program.Started Program.demoWorld Program.demoSetup s0 ∧
    Run Program.demoWorld s0 es s ∧ .noSignal ∉ es ∧ .recvFails ∈ es ∧ .normal .exits ∉ es ∧
    ∃ ps s', Program.Run Program.demoWorld s (ps ++ [.exits]) s' ∧ ∀ e ∈ ps, Unaided e := by
  have : troubled Program.demoWorld Program.demoSetup [.does (.ev (.tracker 0 .sends)), .recvFails, .conGone]
      (fun es _ => es.map kind) = some [2, 4, 2] := by decide +kernel
  obtain ⟨s0, es, s, h0, h, hf⟩ := troubled_sound this
  have hk : ∀ x, x ∈ es.map kind ↔ x ∈ [2, 4, 2] := by rw [hf]; exact fun _ => Iff.rfl
  have h4 : .recvFails ∈ es := by
    obtain ⟨e, he, hx⟩ := List.mem_map.mp ((hk 4).mpr (by decide))
    rwa [← kind_recvFails hx]
  have h5 : .noSignal ∉ es := fun hm => absurd ((hk 5).mp (List.mem_map.mpr ⟨_, hm, rfl⟩)) (by decide)
  have h6 : .normal .exits ∉ es := fun hm => absurd ((hk 0).mp (List.mem_map.mpr ⟨_, hm, rfl⟩)) (by decide)
  exact ⟨s0, es, s, h0, h, h5, h4, h6, C140_ends_partial _ _ s0 s es (.fresh _) h0 h h5 h4 h6⟩

/-- C119 is false of the program when waiting for Ctrl-C fails: at any time before Ctrl-C was pressed the process then ends at
once. The tasks of the trackers are not finished and have announced no 'stopped' since, and the table is not written. -/
theorem C119_no_signal_violated (w : World) (s : State) (hp : s.down.phase = .holding) :
    ∃ s1, Step w s .noSignal s1 ∧ s1.trackers = s.trackers ∧ s1.dht = s.dht ∧
      ∀ es s2, Run w s1 es s2 → es = [] ∧ s2 = s1 := by
  refine ⟨_, .noSignal hp, rfl, rfl, fun es s2 h => ?_⟩
  induction h with
  | nil => exact ⟨rfl, rfl⟩
  | snoc _ hs ih =>
    obtain ⟨-, rfl⟩ := ih
    cases hs with
    | normal h => exact absurd rfl h.1
    | refused h => exact absurd rfl h
    | recvFails h => exact absurd rfl h
    | noSignal h => cases h

/-- Which kind of entry in the log of a tracker task this is: `none` for an answer, otherwise whether it announced 'stopped'. -/
def logMark : TrackerEvent → Option Bool
  | .sent a => some (a.event == some .stopped)
  | .answered _ => none
  | _ => some false

/-- A tracker has answered and the table holds a node when waiting for Ctrl-C fails; nobody is told and nothing is written. -/
theorem C119_unannounced_violated : ∃ w u s0 es s t, Program.Started w u s0 ∧ Run w s0 es s ∧ es.map kind = [2, 2, 5] ∧
    s.down.phase = .done ∧ s.trackers = [t] ∧ Answered t.log ∧ (∀ a, .sent a ∈ t.log → a.event ≠ some .stopped) ∧
    s.dht.man.table.iterNodes ≠ [] ∧ storedTables (dhtEvents (normalEvents es)) = [] := by
  have : troubled Program.demoWorld { Program.demoSetup with table := Program.oneNode }
      [.does (.ev (.tracker 0 .sends)), .does (.ev (.answered 0 Program.namesA)), .noSignal]
      (fun es s => (es.map kind, (decide (s.down.phase = .done), (storedTables (dhtEvents (normalEvents es))).length,
        s.dht.man.table.iterNodes.length), s.trackers.map fun t => t.log.map logMark)) =
      some ([2, 2, 5], (true, 0, 1), [[some false, some false, none, some false]]) := by decide +kernel
  obtain ⟨s0, es, s, h0, h, hf⟩ := troubled_sound this
  simp only [Prod.mk.injEq] at hf
  obtain ⟨f1, ⟨f2, f3, f4⟩, f5⟩ := hf
  have hlen : s.trackers.length = 1 := by have := congrArg List.length f5; simpa using this
  obtain ⟨t, ht⟩ := List.length_eq_one_iff.mp hlen
  rw [ht] at f5
  simp only [List.map_cons, List.map_nil, List.cons.injEq, and_true] at f5
  refine ⟨_, _, s0, es, s, t, h0, h, f1, of_decide_eq_true f2, ht, ?_, ?_, ?_, List.length_eq_zero_iff.mp f3⟩
  · have : none ∈ t.log.map logMark := by rw [f5]; simp
    obtain ⟨x, hx, hn⟩ := List.mem_map.mp this
    cases x with
    | answered r => exact ⟨r, hx⟩
    | _ => cases hn
  · intro a ha hs
    have : some (a.event == some .stopped) ∈ t.log.map logMark := List.mem_map.mpr ⟨_, ha, rfl⟩
    rw [f5, hs] at this
    simp at this
  · intro hn; rw [hn] at f4; cases f4

end Nargun.Trouble
