import Verif.Lemmas.SwarmDemo
import Verif.Lemmas.Program

/-! # Running concrete histories of the whole program

`Program.attempt` does what an event says, if it can happen; used for examples only. -/

namespace Nargun.Program

open Nargun Dht Spec

/-- An executable version of some of the steps. -/
def attempt (w : World) (s : State) : Event → Option State
  | .torrent (.man (.peers _)) => none
  | .torrent (.dhtTakes _) => none
  | .torrent .dhtEnds => none
  | .torrent e => (Swarm.attempt w.cfg s.torrent e).map fun sw => { s with swarm := sw, peers := sw.tm.peers }
  | .dht ⟨none, none, none, none, none, some t, none, none⟩ =>
    if s.dht.man.status = .finished ∧ s.dht.manTodo.head? = some (.stored t) then
      some { s with dht := { s.nodes with manTodo := s.dht.manTodo.tail } }
    else none
  | .dht ⟨none, none, none, some (.manager, c), none, none, none, none⟩ =>
    if s.dht.man.status = .running ∧ s.dht.manTodo.head? = some (.send c) ∧ s.dht.conAlive = true ∧
        s.dht.commands.length < DhtSystem.COMMANDS_CAP then
      some { s with dht := { s.nodes with manTodo := s.dht.manTodo.tail, commands := s.dht.commands ++ [c] } }
    else none
  | .nodesGone =>
    if s.swarm.man = .dead ∧ (s.swarm.tm.connection.spawned.all fun q => decide ((s.swarm.links q).con = .ended)) = true ∧
        s.swarm.dht = [] ∧ s.dht.manTodo = [] ∧ s.dht.man.status = .running then
      some { s with dht := { s.nodes with man := { s.nodes.man with status := .failed }, manTodo := [] } }
    else none
  | .tableNotices [.stored t] =>
    if s.dht.manTodo = [] ∧ s.dht.man.status = .running ∧ t = s.dht.man.table then
      match s.down.recv TABLE_RECEIVER with
      | some (.ok x) =>
        some { s with down := x
                      dht := { s.nodes with man := { s.nodes.man with status := .finished }, manTodo := [.stored t] } }
      | _ => none
    else none
  | .tableEnds =>
    if (s.dht.man.status = .failed ∨ (s.dht.man.status = .finished ∧ s.dht.manTodo = [])) ∧
        s.down.receivers.contains TABLE_RECEIVER = true ∧ s.swarm.dhtOpen = true then
      some { s with swarm := { s.torrent with dhtOpen := false, dht := [] }, down := s.down.drop TABLE_RECEIVER }
    else none
  | .answered i r =>
    match s.trackers[i]? with
    | some t =>
      if t.phase = .inFlight then
        match t.step (.answers r) with
        | .ok t' => some { s with trackers := s.trackers.set i t', peers := s.peers.extend r.peers }
        | _ => none
      else none
    | none => none
  | .tracker i .sends =>
    match s.trackers[i]? with
    | some t =>
      match t.step .sends with
      | .ok t' => some { s with trackers := s.trackers.set i t' }
      | _ => none
    | none => none
  | .tracker i .fails =>
    match s.trackers[i]? with
    | some t =>
      match t.step .fails with
      | .ok t' => some { s with trackers := s.trackers.set i t' }
      | _ => none
    | none => none
  | .tracker i (.intervalTimer 0) =>
    match s.trackers[i]? with
    | some t =>
      match t.step (.intervalTimer 0) with
      | .ok t' => some { s with trackers := s.trackers.set i t' }
      | _ => none
    | none => none
  | .trackerNotices i =>
    match s.trackers[i]? with
    | some t =>
      if t.phase ≠ .exited then
        match s.down.recv (trackerReceiver i), t.step (.shutdown 0) with
        | some (.ok x), .ok t' => some { s with trackers := s.trackers.set i t', down := x }
        | _, _ => none
      else none
    | none => none
  | .trackerEnds i =>
    match s.trackers[i]? with
    | some t =>
      if t.phase = .exited ∧ s.down.receivers.contains (trackerReceiver i) = true then
        some { s with down := s.down.drop (trackerReceiver i) }
      else none
    | none => none
  | .signal => if s.down.phase = .holding then some { s with down := s.down.send } else none
  | .exits =>
    if s.down.phase = .waiting ∧ s.down.markers = 0 then some { s with down := { s.down with phase := .done } } else none
  | _ => none

theorem attempt_turn {w : World} {s s' : State} {e : Event} (h : attempt w s e = some s') : Turn w s e s' := by
  unfold attempt at h
  split at h
  · cases h
  · cases h
  · cases h
  · next e h1 h2 h3 =>
    obtain ⟨sw, hs, rfl⟩ := Option.map_eq_some_iff.mp h
    refine .torrent ?_ (Swarm.attempt_sound hs)
    unfold OwnTorrent
    split
    · exact h1 _ rfl
    · exact h2 _ rfl
    · exact h3 rfl
    · trivial
  · next t =>
    split at h
    · next hc =>
      cases h
      exact .dht ⟨by simp, by simp, rfl, rfl⟩ (.stores hc.1 (Swarm.head?_tail hc.2))
    · cases h
  · next c =>
    split at h
    · next hc =>
      cases h
      exact .dht ⟨by simp, by simp, rfl, rfl⟩ (.putCommand hc.1 (Swarm.head?_tail hc.2.1) hc.2.2.1 hc.2.2.2)
    · cases h
  · split at h
    · next hc =>
      cases h
      refine .nodesGone ⟨hc.1, fun q hq => ?_, hc.2.2.1⟩ (.direct hc.2.2.2.1 trivial (.peersGone hc.2.2.2.2))
      simpa using List.all_eq_true.mp hc.2.1 q hq
    · cases h
  · split at h
    · next hc =>
      split at h
      · next x hx =>
        cases h
        obtain ⟨h1, h2, rfl⟩ := hc
        exact .tableNotices (.recv hx) (.direct h1 trivial (.shutdown h2))
      · cases h
    · cases h
  · split at h
    · next hc =>
      cases h
      refine .tableEnds ?_ ?_ (.drop hc.2.1) (.dhtEnds hc.2.2)
      · rcases hc.1 with h | h
        · simp [h]
        · simp [h.1]
      · rcases hc.1 with h | h
        · simp [DhtSystem.State.ManagerThere, h]
        · simp [DhtSystem.State.ManagerThere, h.1, h.2]
    · cases h
  · split at h
    · next ht =>
      split at h
      · next hp =>
        split at h
        · next hs => cases h; exact .answered ht hp hs
        · cases h
      · cases h
    · cases h
  · split at h
    · next ht =>
      split at h
      · next hs => cases h; exact .tracker ht trivial hs
      · cases h
    · cases h
  · split at h
    · next ht =>
      split at h
      · next hs => cases h; exact .tracker ht trivial hs
      · cases h
    · cases h
  · split at h
    · next ht =>
      split at h
      · next hs => cases h; exact .tracker ht rfl hs
      · cases h
    · cases h
  · split at h
    · next ht =>
      split at h
      · next hp =>
        split at h
        · next hx hs => cases h; exact .trackerNotices ht hp (.recv hx) hs
        · cases h
      · cases h
    · cases h
  · split at h
    · next ht =>
      split at h
      · next hp => cases h; exact .trackerEnds ht hp.1 (.drop hp.2)
      · cases h
    · cases h
  · split at h
    · next hp => cases h; exact .signal (.send hp)
    · cases h
  · split at h
    · next hp => cases h; exact .exits (.waited hp.1 hp.2)
    · cases h
  · cases h

/-- Do all of these, as long as the process runs. -/
def attempts (w : World) (s : State) : List Event → Option State
  | [] => some s
  | e :: es => if s.down.phase = .done then none else (attempt w s e).bind fun s1 => attempts w s1 es

theorem Run.trans {w : World} {s s1 s2 : State} {a b : List Event} (h1 : Run w s a s1) (h2 : Run w s1 b s2) :
    Run w s (a ++ b) s2 := by
  induction h2 with
  | nil => simpa using h1
  | @snoc _ _ _ e _ hs ih => rw [← List.append_assoc]; exact .snoc ih hs

theorem attempts_run {w : World} {es : List Event} : ∀ {s s' : State}, attempts w s es = some s' → Run w s es s' := by
  induction es with
  | nil => intro s s' h; cases h; exact .nil
  | cons e es ih =>
    intro s s' h
    simp only [attempts] at h
    split at h
    · cases h
    · next hp =>
      obtain ⟨s1, h1, h2⟩ := Option.bind_eq_some_iff.mp h
      have : Run w s ([] ++ [e]) s1 := .snoc .nil ⟨hp, attempt_turn h1⟩
      exact this.trans (ih h2)

/-- The program at its start. -/
def startOf (w : World) (u : Setup) : Option State :=
  match Swarm.State.start u.pieces u.pieceLength (.new u.infoHash) with
  | .ok sw =>
    let ts := u.urls.map fun url => TrackerTask.start url u.infoHash u.peerId u.pieces.length u.pieceLength 0 w.port
    if ts.all (fun t => match t with | .ok _ => true | _ => false) = true then
      some { peers := .new u.infoHash, swarm := sw
             dht := DhtSystem.State.start u.infoHash u.secret u.table (.new u.infoHash) u.now
             lookup := none
             trackers := ts.filterMap fun t => match t with | .ok t => some t | _ => none
             down := startDown u.urls.length }
    else none
  | _ => none

theorem startOf_started {w : World} {u : Setup} {s : State} (h : startOf w u = some s) : Started w u s := by
  unfold startOf at h
  split at h
  · next sw hs =>
    simp only at h
    split at h
    · next ha =>
      cases h
      refine ⟨rfl, hs, rfl, rfl, ?_, rfl⟩
      generalize (u.urls.map fun url =>
        TrackerTask.start url u.infoHash u.peerId u.pieces.length u.pieceLength 0 w.port) = ts at ha ⊢
      induction ts with
      | nil => rfl
      | cons t ts ih =>
        simp only [List.all_cons, Bool.and_eq_true] at ha
        cases t with
        | ok t => simp [← ih ha.2]
        | err => cases ha.1
        | panic => cases ha.1
    · cases h
  · cases h

/-- What `f` says about the state after these events. -/
def demo {α : Type} (w : World) (u : Setup) (es : List Event) (f : State → α) : Option α :=
  (startOf w u).bind fun s => (attempts w s es).map f

theorem demo_sound {α : Type} {w : World} {u : Setup} {es : List Event} {f : State → α} {a : α}
    (h : demo w u es f = some a) : ∃ s0 s, Started w u s0 ∧ Run w s0 es s ∧ f s = a := by
  obtain ⟨s0, h0, h⟩ := Option.bind_eq_some_iff.mp h
  obtain ⟨s, h1, h2⟩ := Option.map_eq_some_iff.mp h
  exact ⟨s0, s, startOf_started h0, attempts_run h1, h2⟩

end Nargun.Program
