import Verif.Props.ProgramTrackers

/-! # Answers of trackers were asked for, and the lookups go on while they can: C121, C122 -/

namespace Nargun.Program

open Nargun Dht Krpc Spec

variable {w : World} {u : Setup} {s s' s0 s1 : State} {es es' : List Event} {e : Event}

/-- The answers of a tracker in a history. -/
def answersFrom (i : Nat) (es : List Event) : List TrackerResponse :=
  es.filterMap fun
    | .answered k r => if k = i then some r else none
    | _ => none

/-- The answers that the task of a tracker has seen. -/
def answersIn (log : List TrackerEvent) : List TrackerResponse :=
  log.filterMap fun
    | .answered r => some r
    | _ => none

/-- Before every answer, a request was sent that no other answer belongs to. -/
def EachAsked (log : List TrackerEvent) : Prop :=
  ∀ pre r post, log = pre ++ .answered r :: post → ∃ pre' a, pre = pre' ++ [.sent a]

/-- The invariant of the task of a tracker. -/
structure AnsInv (i : Nat) (es : List Event) (t : TrackerTask) : Prop where
  same : answersFrom i es = answersIn t.log
  sent : t.phase = .inFlight → ∃ l a, t.log = l ++ [.sent a]
  asked : EachAsked t.log

theorem EachAsked.snoc {l : List TrackerEvent} {x : TrackerEvent} (h : EachAsked l)
    (hx : ∀ r, x = .answered r → ∃ l' a, l = l' ++ [.sent a]) : EachAsked (l ++ [x]) := by
  intro pre r post he
  rcases List.eq_nil_or_concat post with rfl | ⟨post', y, rfl⟩
  · obtain ⟨rfl, h2⟩ := List.append_inj' he rfl
    exact hx r (List.cons.inj h2).1
  · refine h pre r post' ?_
    have : l ++ [x] = (pre ++ .answered r :: post') ++ [y] := by rw [he]; simp
    exact (List.append_inj' this rfl).1

theorem answersIn_snoc (l : List TrackerEvent) (x : TrackerEvent) : answersIn (l ++ [x]) = answersIn l ++ answersIn [x] :=
  List.filterMap_append

/-- A step of the task other than taking an answer. -/
theorem AnsInv.other {i : Nat} {t t' : TrackerTask} {x : TrackerInput} (h : AnsInv i es t) (hx : ∀ r, x ≠ .answers r)
    (hs : t.step x = .ok t') : AnsInv i es t' := by
  have quiet : ∀ (a : Announce) (p : TrackerPhase) (y : TrackerEvent), (∀ r, y ≠ .answered r) → p ≠ .inFlight →
      AnsInv i es { t with announce := a, phase := p, log := t.log ++ [y] } := by
    intro a p y hy hp
    refine ⟨?_, fun h => absurd h hp, h.asked.snoc fun r h => absurd h (hy r)⟩
    rw [h.same]
    show _ = answersIn (t.log ++ [y])
    rw [answersIn_snoc]
    cases y <;> first | exact absurd rfl (hy _) | exact (List.append_nil _).symm
  have again : ∀ {t1 : TrackerTask} {ev : Option AnnounceEvent} {n : Nat}, answersFrom i es = answersIn t1.log →
      EachAsked t1.log → t1.again ev n = .ok t' → AnsInv i es t' := by
    intro t1 ev n h1 h2 ha
    simp only [TrackerTask.again] at ha
    obtain ⟨left, hl, ha⟩ := Res.bind_eq_ok.mp ha
    cases ha
    refine ⟨?_, by simp, h2.snoc (by simp)⟩
    simp only
    rw [h1, answersIn_snoc]
    exact (List.append_nil _).symm
  have ends : AnsInv i es { t with phase := .exited } := ⟨h.same, by simp, h.asked⟩
  unfold TrackerTask.step at hs
  split at hs
  · cases hs
    refine ⟨?_, fun _ => ⟨_, _, rfl⟩, h.asked.snoc (by simp)⟩
    simp only
    rw [h.same, answersIn_snoc]
    exact (List.append_nil _).symm
  · cases hs; exact quiet _ _ _ (by simp) (by simp)
  · cases hs; exact ends
  · exact absurd rfl (hx _)
  · cases hs; exact quiet _ _ _ (by simp) (by simp)
  · cases hs; exact ends
  · cases hs; exact quiet _ _ _ (by simp) (by simp)
  · cases hs; exact ends
  · next pieces _ =>
    obtain ⟨left, hl, hs⟩ := Res.bind_eq_ok.mp hs
    cases hs
    refine ⟨?_, by simp, ?_⟩
    · simp only
      rw [h.same]
      simp [answersIn]
    · have : t.log ++ [TrackerEvent.loaded pieces, .sent { t.announce with event := some .stopped, left := left }] =
        (t.log ++ [.loaded pieces]) ++ [.sent { t.announce with event := some .stopped, left := left }] := by simp
      simp only
      rw [this]
      exact (h.asked.snoc (by simp)).snoc (by simp)
  · next secs pieces _ =>
    refine again (t1 := { t with log := t.log ++ [.slept secs] }) ?_ (h.asked.snoc (by simp)) hs
    simp only
    rw [h.same, answersIn_snoc]
    exact (List.append_nil _).symm
  · exact again h.same h.asked hs
  · cases hs; exact ends
  · cases hs; exact h

theorem ans_inv (h0 : Started w u s0) (h : Run w s0 es s) :
    ∀ i t, s.trackers[i]? = some t → AnsInv i es t := by
  induction h with
  | nil =>
    intro i t ht
    have h1 := congrArg (fun l => l[i]?) h0.trackers
    simp only [List.getElem?_map, ht, Option.map_some] at h1
    obtain ⟨url, hu, h1⟩ := Option.map_eq_some_iff.mp h1
    simp only [TrackerTask.start] at h1
    obtain ⟨left, hl, h1⟩ := Res.bind_eq_ok.mp h1
    have h1 := Res.ok.inj h1
    subst h1
    refine ⟨rfl, by simp, ?_⟩
    intro pre r post he
    cases pre with
    | nil => cases he
    | cons y pre => simp at he
  | @snoc s1 s2 es e hr hs ih =>
    have same : s2.trackers = s1.trackers → (∀ i, answersFrom i [e] = []) → ∀ i t, s2.trackers[i]? = some t →
        AnsInv i (es ++ [e]) t := by
      intro h1 h2 i t ht
      rw [h1] at ht
      have := ih i t ht
      refine ⟨?_, this.sent, this.asked⟩
      rw [← this.same, answersFrom, List.filterMap_append]
      exact (congrArg _ (h2 i)).trans (List.append_nil _)
    have set : ∀ k t t', s1.trackers[k]? = some t → s2.trackers = s1.trackers.set k t' →
        (∀ i, i ≠ k → answersFrom i [e] = []) → AnsInv k (es ++ [e]) t' → ∀ i t, s2.trackers[i]? = some t →
        AnsInv i (es ++ [e]) t := by
      intro k t t' h1 h2 h3 h4 i ti ht
      rw [h2, List.getElem?_set] at ht
      split at ht
      · next hk =>
        subst hk
        split at ht
        · cases ht; exact h4
        · cases ht
      · next hk =>
        have := ih i ti ht
        refine ⟨?_, this.sent, this.asked⟩
        rw [← this.same, answersFrom, List.filterMap_append]
        exact (congrArg _ (h3 i (fun h => hk h.symm))).trans (List.append_nil _)
    have ext : ∀ {i : Nat} {t : TrackerTask}, AnsInv i es t → answersFrom i [e] = [] → AnsInv i (es ++ [e]) t := by
      intro i t h1 h2
      refine ⟨?_, h1.sent, h1.asked⟩
      rw [← h1.same, answersFrom, List.filterMap_append]
      exact (congrArg _ h2).trans (List.append_nil _)
    cases hs.2 with
    | @answered k t t' r h1 h2 h3 =>
      refine set k t t' h1 rfl (fun i hi => by simp [answersFrom, Ne.symm hi]) ?_
      have hi := ih k t h1
      have h3' : t.step (.answers r) = .ok t' := h3
      unfold TrackerTask.step at h3'
      rw [h2] at h3'
      cases h3'
      refine ⟨?_, by simp, ?_⟩
      · rw [answersFrom, List.filterMap_append]
        have := hi.same
        unfold answersFrom at this
        rw [this]
        simp [answersIn]
      · have : t.log ++ [TrackerEvent.answered r, .found r.peers] = (t.log ++ [.answered r]) ++ [.found r.peers] := by simp
        simp only
        rw [this]
        exact (hi.asked.snoc fun _ _ => hi.sent h2).snoc (by simp)
    | @tracker k t t' x h1 h2 h3 =>
      refine set k t t' h1 rfl (fun i hi => rfl) (ext ((ih k t h1).other ?_ h3) rfl)
      intro r hx
      subst hx
      exact h2
    | @trackerNotices k t t' x h1 h2 h3 h4 =>
      exact set k t t' h1 rfl (fun i hi => rfl) (ext ((ih k t h1).other (by simp) h4) rfl)
    | _ => exact same rfl fun _ => rfl

/-- C121: what a tracker names, it names in answer to an announce of this program for this torrent, and every such announce
is answered at most once: the answers in the history of the program are those in the history of the tracker's task, where
each directly follows an announce sent to that tracker. -/
theorem C121_trackers_asked (w : World) (u : Setup) (s0 s : State) (es : List Event) (h0 : Started w u s0)
    (h : Run w s0 es s) (i : Nat) (t : TrackerTask) (ht : s.trackers[i]? = some t) :
    answersFrom i es = answersIn t.log ∧
    ∀ pre r post, t.log = pre ++ .answered r :: post → ∃ pre' a, pre = pre' ++ [.sent a] ∧
      u.urls[i]? = some a.trackerUrl ∧ a.infoHash = u.infoHash := by
  have hi := ans_inv h0 h i t ht
  refine ⟨hi.same, fun pre r post hl => ?_⟩
  obtain ⟨pre', a, hp⟩ := hi.asked pre r post hl
  refine ⟨pre', a, hp, ?_⟩
  have := C127_identity_partial w u s0 s es h0 h i t ht a (by
    rw [hl, hp]
    exact List.mem_filterMap.mpr ⟨.sent a, by simp, rfl⟩)
  exact ⟨this.1, this.2.1⟩

/-- C122: the task of the lookups ends only if the socket task is gone, for which there are the reasons of
`C122_survives_partial`. -/
theorem C122_lookups_partial (w : World) (u : Setup) (s0 s : State) (es : List Event) (h0 : Started w u s0)
    (h : Run w s0 es s) (l : Lookup) (hl : s.lookup = some l) (hd : l.alive = false) :
    s.dht.conAlive = false ∧ (s.dht.man.status ≠ .running ∨ FatalDatagram es) := by
  have hgone : s.dht.conAlive = false := by
    induction h generalizing l with
    | nil => rw [h0.lookup] at hl; cases hl
    | @snoc s1 s2 es e hr hs ih =>
      have keep : s1.dht.conAlive = false → s2.dht.conAlive = false := by
        intro hc
        obtain ⟨es', hr', -⟩ := turn_dht hs.2
        exact (dead_run (show s1.nodes.conAlive = false from hc) hr').1
      have old : ∀ l1, s1.lookup = some l1 → l1.alive = l.alive → s2.dht.conAlive = false :=
        fun l1 h1 h2 => keep (ih l1 h1 (h2.trans hd))
      cases hs.2 with
      | lookup h1 h2 => cases hl; cases hd
      | look h1 h2 h3 h4 h5 => cases hl; exact old _ h1 rfl
      | lookIdle h1 h2 h3 => cases hl; exact old _ h1 rfl
      | asks h1 h2 h3 h4 => cases hl; exact old _ h1 rfl
      | asksNobody h1 h2 h3 h4 => exact h4
      | hears h1 h2 h3 h4 h5 => cases hl; exact old _ h1 rfl
      | _ => exact old l hl rfl
  exact ⟨hgone, (C122_survives_partial w u s0 s es h0 h).2.2 hgone⟩

/-- The first statement is about something: the tracker named A when it was asked, and was asked again. -/
example : demo { demoWorld with cfg := Swarm.repaired } onePiece downloads (fun s =>
      s.trackers.map fun t => ((answersIn t.log).map (·.peers), (sentAnnounces t.log).length)) =
    some [([[peerA]], 2)] := by decide +kernel

/-- Before a lookup has asked the node it begins with, there comes a datagram. -/
def asksTooLate : List Act := asksNode.take 8

/-- The second one is, too: the datagram ends the socket task, and with it the lookup. -/
example : ∃ u s0 s es l, Started demoWorld u s0 ∧ Run demoWorld s0 es s ∧ s.lookup = some l ∧ l.alive = false := by
  have : play demoWorld { demoSetup with table := oneNode } asksTooLate (fun _ s =>
      s.dht.conAlive && s.dht.conTodo.isEmpty && decide (s.down.phase ≠ .done) &&
      (match s.lookup with | some l => l.alive && !l.todo.isEmpty | none => false) &&
      (match s.dht.con.receive demoWorld.env (some (exAddr 9)) (ascii "d1:ad2:id1:xe1:q4:ping1:t2:aa1:y1:qe") with
        | .panic => true | _ => false)) = some true := by decide +kernel
  obtain ⟨s0, es, s, h0, h, hf⟩ := play_sound this
  simp only [Bool.and_eq_true, decide_eq_true_eq] at hf
  obtain ⟨⟨⟨⟨f1, f2⟩, f3⟩, f4⟩, f5⟩ := hf
  split at f4
  · next l hl =>
    rw [Bool.and_eq_true] at f4
    have hp : s.nodes.con.receive demoWorld.env (some (exAddr 9)) (ascii "d1:ad2:id1:xe1:q4:ping1:t2:aa1:y1:qe") = .panic := by
      show s.dht.con.receive _ _ _ = _
      split at f5
      · assumption
      · cases f5
    have st1 : Step demoWorld s _ _ := ⟨f3, .dht ⟨by simp, by simp, rfl, rfl⟩
      (.panics (s := s.nodes) f1 (List.isEmpty_iff.mp f2) hp)⟩
    cases htodo : l.todo with
    | nil => simp [htodo] at f4
    | cons q rest =>
      refine ⟨_, s0, _, _, _, h0, (h.snoc st1).snoc ⟨f3, .asksNobody (l := l) (a := q.1) (v := q.2) (rest := rest) ?_ f4.1
        htodo rfl⟩, rfl, rfl⟩
      exact hl
  · cases f4

end Nargun.Program
