import Verif.Props.ProgramFair
import Verif.Props.ProgramTrackers
import Verif.Spec.FairTrackers

/-! # Every tracker is asked again and again: C149 -/

namespace Nargun.Program

open Nargun Dht Krpc Spec

variable {w : World} {u : Setup} {σ : Nat → State} {ev : Nat → Option Event}

/-- One step, seen by the task of a tracker. -/
theorem tracker_moves {s s' : State} {e : Event} {i : Nat} {t : TrackerTask} (hs : Step w s e s')
    (ht : s.trackers[i]? = some t) : ∃ t', s'.trackers[i]? = some t' ∧
      (t' = t ∨ e = .trackerNotices i ∨ ∃ x, t.step x = .ok t' ∧ (OwnTracker x ∨ ∃ r, x = .answers r)) := by
  have set : ∀ {k : Nat} {t1 t2 : TrackerTask}, s.trackers[k]? = some t1 →
      (k ≠ i ∧ (s.trackers.set k t2)[i]? = some t) ∨ (k = i ∧ t1 = t ∧ (s.trackers.set k t2)[i]? = some t2) := by
    intro k t1 t2 q1
    by_cases hk : k = i
    · subst hk
      rw [ht] at q1
      cases q1
      exact .inr ⟨rfl, rfl, by rw [List.getElem?_set_self (List.getElem?_eq_some_iff.mp ht).1]⟩
    · exact .inl ⟨hk, by rw [List.getElem?_set_ne hk]; exact ht⟩
  cases hs.2 with
  | @answered k t1 t2 r q1 q2 q3 =>
    rcases set (t2 := t2) q1 with ⟨_, h⟩ | ⟨_, rfl, h⟩
    · exact ⟨t, h, .inl rfl⟩
    · exact ⟨t2, h, .inr (.inr ⟨_, q3, .inr ⟨r, rfl⟩⟩)⟩
  | @tracker k t1 t2 x q1 q2 q3 =>
    rcases set (t2 := t2) q1 with ⟨_, h⟩ | ⟨_, rfl, h⟩
    · exact ⟨t, h, .inl rfl⟩
    · exact ⟨t2, h, .inr (.inr ⟨_, q3, .inl q2⟩)⟩
  | @trackerNotices k t1 t2 x q1 _ _ q4 =>
    rcases set (t2 := t2) q1 with ⟨_, h⟩ | ⟨rfl, rfl, h⟩
    · exact ⟨t, h, .inl rfl⟩
    · exact ⟨t2, h, .inr (.inl rfl)⟩
  | _ => exact ⟨t, ht, .inl rfl⟩

/-- Where a step of the task of a tracker leads when there is no shutdown. -/
theorem tracker_goes {t t' : TrackerTask} {x : TrackerInput} (hs : t.step x = .ok t')
    (hx : OwnTracker x ∨ ∃ r, x = .answers r) (hp : t'.phase ≠ t.phase) :
    (t.phase = .calling ∧ (t'.log = t.log ++ [.sent t.announce] ∨ t'.log = t.log ++ [.failed])) ∨
    (t.phase = .inFlight ∧ (t'.phase = .backoff ∨ ∃ k, t'.phase = .waiting k)) ∨
    ((t.phase = .backoff ∨ ∃ k, t.phase = .waiting k) ∧ t'.phase = .calling) := by
  have same : t' = t → False := fun h => hp (by rw [h])
  have again : ∀ {t1 : TrackerTask} {a : Option AnnounceEvent} {n : Nat}, t1.again a n = .ok t' → t'.phase = .calling := by
    intro t1 a n h
    simp only [TrackerTask.again] at h
    obtain ⟨left, _, h⟩ := Res.bind_eq_ok.mp h
    cases h
    rfl
  cases hph : t.phase with
  | calling =>
    refine .inl ⟨rfl, ?_⟩
    cases x <;> simp only [TrackerTask.step, hph, Res.ok.injEq] at hs
    case sends => subst hs; exact .inl rfl
    case fails => subst hs; exact .inr rfl
    case shutdown => rcases hx with hx | ⟨_, hx⟩ <;> cases hx
    all_goals exact (same hs.symm).elim
  | inFlight =>
    refine .inr (.inl ⟨rfl, ?_⟩)
    cases x <;> simp only [TrackerTask.step, hph, Res.ok.injEq] at hs
    case answers r => subst hs; exact .inr ⟨_, rfl⟩
    case fails => subst hs; exact .inl rfl
    case shutdown => rcases hx with hx | ⟨_, hx⟩ <;> cases hx
    all_goals exact (same hs.symm).elim
  | backoff =>
    refine .inr (.inr ⟨.inl rfl, ?_⟩)
    cases x <;> simp only [TrackerTask.step, hph, Res.ok.injEq] at hs
    case retryTimer => subst hs; rfl
    case shutdown => rcases hx with hx | ⟨_, hx⟩ <;> cases hx
    all_goals exact (same hs.symm).elim
  | waiting k =>
    refine .inr (.inr ⟨.inr ⟨k, rfl⟩, ?_⟩)
    cases x <;> simp only [TrackerTask.step, hph] at hs
    case intervalTimer n => exact again hs
    case completed => rcases hx with hx | ⟨_, hx⟩ <;> cases hx
    case completionClosed => rcases hx with hx | ⟨_, hx⟩ <;> cases hx
    case shutdown => rcases hx with hx | ⟨_, hx⟩ <;> cases hx
    all_goals exact (same (Res.ok.inj hs).symm).elim
  | exited => rw [exited_step hph] at hs; cases hs; exact (same rfl).elim

/-- What changes does so at some moment. -/
theorem changes {α : Type} (f : Nat → α) {n m : Nat} (hnm : n ≤ m) (h : f m ≠ f n) :
    ∃ k, n ≤ k ∧ f k = f n ∧ f (k + 1) ≠ f n := by
  induction hnm with
  | refl => exact absurd rfl h
  | @step m hm ih =>
    by_cases hk : f m = f n
    · exact ⟨m, hm, hk, h⟩
    · exact ih hk

/-- C149: in every execution in which Ctrl-C is not pressed and no request and no pause lasts for ever, every HTTP tracker of the
torrent file is asked again and again, for this torrent and with the peer id and the port of this program, unless there is
no connection to it; whatever it and the other trackers answer, whatever peers and nodes do and whatever became of
the other tasks. -/
theorem C149_asked (w : World) (u : Setup) (σ : Nat → State) (ev : Nat → Option Event) (h0 : Started w u (σ 0))
    (hx : Execution w σ ev) (hs : ∀ n, ev n ≠ some .signal) (i : Nat) (url : Bytes) (hi : u.urls[i]? = some url)
    (hw : WaitsEnd σ i) (n : Nat) :
    ∃ m, n ≤ m ∧ (UnsentAt σ i m ∨
      ∃ a, SentAt σ i m a ∧ a.trackerUrl = url ∧ a.infoHash = u.infoHash ∧ a.peerId = u.peerId ∧ a.port = w.port) := by
  have hlen : ∀ m, i < (σ m).trackers.length := fun m => by
    rw [trackers_length (exec_run hx m), (started_trackers h0).1]
    exact (List.getElem?_eq_some_iff.mp hi).1
  let f : Nat → TrackerTask := fun m => (σ m).trackers[i]'(hlen m)
  have hf : ∀ m, (σ m).trackers[i]? = some (f m) := fun m => List.getElem?_eq_getElem (hlen m)
  have hn : ∀ m, ev m ≠ some (.trackerNotices i) := fun m hm => by
    have := notices_signal h0 (exec_run hx (m + 1)) (.inr ⟨i, mem_upto hm (Nat.lt_succ_self m)⟩)
    obtain ⟨k, _, hk⟩ := List.mem_filterMap.mp this
    exact hs k hk
  have moves : ∀ m, (f (m + 1)).phase ≠ (f m).phase → ∃ x, (f m).step x = .ok (f (m + 1)) ∧
      (OwnTracker x ∨ ∃ r, x = .answers r) := by
    intro m hp
    cases he : ev m with
    | none =>
      have : some (f (m + 1)) = some (f m) := by rw [← hf, ← hf, hx.idle m he]
      exact absurd (by rw [Option.some.inj this]) hp
    | some e =>
      obtain ⟨t', j1, j2⟩ := tracker_moves (hx.step m e he) (hf m)
      rw [hf] at j1
      cases j1
      rcases j2 with j2 | j2 | j2
      · exact absurd (by rw [j2]) hp
      · exact absurd (by rw [he, j2]) (hn m)
      · exact j2
  have alive : ∀ m, (f m).phase ≠ .exited := by
    intro m
    induction m with
    | zero =>
      obtain ⟨url, _, h2⟩ := (started_trackers h0).2 i _ (hf 0)
      simp only [TrackerTask.start] at h2
      obtain ⟨left, _, h2⟩ := Res.bind_eq_ok.mp h2
      have := (Res.ok.inj h2).symm
      rw [this]
      simp
    | succ m ih =>
      intro hp
      obtain ⟨x, q1, q2⟩ := moves m (by rw [hp]; exact fun h => ih h.symm)
      rcases tracker_goes q1 q2 (by rw [hp]; exact fun h => ih h.symm) with ⟨j, _⟩ | ⟨_, j | ⟨_, j⟩⟩ | ⟨_, j⟩
      · rcases tracker_goes q1 q2 (by rw [hp]; exact fun h => ih h.symm) with ⟨_, k⟩ | ⟨k, _⟩ | ⟨k | ⟨_, k⟩, _⟩
        · cases x <;> simp only [TrackerTask.step, j, Res.ok.injEq] at q1 <;>
            first
              | (rw [← q1] at hp; simp [j] at hp; done)
              | (rcases q2 with q2 | ⟨_, q2⟩ <;> cases q2)
        · rw [j] at k; cases k
        · rw [j] at k; cases k
        · rw [j] at k; cases k
      · rw [hp] at j; cases j
      · rw [hp] at j; cases j
      · rw [hp] at j; cases j
  -- every wait ends
  have leaves : ∀ m, ∃ k x, m ≤ k ∧ (f k).phase = (f m).phase ∧ (f (k + 1)).phase ≠ (f k).phase ∧
      (f k).step x = .ok (f (k + 1)) ∧ (OwnTracker x ∨ ∃ r, x = .answers r) := by
    intro m
    obtain ⟨m', t', h1, h2, h3⟩ := hw m _ (hf m) (alive m)
    rw [hf] at h2
    cases h2
    obtain ⟨k, k1, k2, k3⟩ := changes (fun m => (f m).phase) h1 h3
    have k4 : (f (k + 1)).phase ≠ (f k).phase := fun h => k3 (h.trans k2)
    obtain ⟨x, q1, q2⟩ := moves k k4
    exact ⟨k, x, k1, k2, k4, q1, q2⟩
  -- a request that was begun is made
  have asked : ∀ m, (f m).phase = .calling → ∃ k, m ≤ k ∧ (UnsentAt σ i k ∨
      ∃ a, SentAt σ i k a ∧ a.trackerUrl = url ∧ a.infoHash = u.infoHash ∧ a.peerId = u.peerId ∧ a.port = w.port) := by
    intro m hm
    obtain ⟨k, x, k1, k2, k3, q1, q2⟩ := leaves m
    rw [hm] at k2
    refine ⟨k, k1, ?_⟩
    rcases tracker_goes q1 q2 k3 with ⟨_, j | j⟩ | ⟨j, _⟩ | ⟨j | ⟨_, j⟩, _⟩
    · refine .inr ⟨(f k).announce, ⟨_, _, hf k, hf (k + 1), j⟩, ?_⟩
      obtain ⟨g1, g2, g3, g4⟩ := C127_identity_partial w u _ _ _ h0 (exec_run hx (k + 1)) i _ (hf (k + 1)) (f k).announce
        (by rw [j]; simp [sentAnnounces])
      rw [hi] at g1
      exact ⟨(Option.some.inj g1).symm, g2, g3, g4⟩
    · exact .inl ⟨_, _, hf k, k2, hf (k + 1), j⟩
    · rw [k2] at j; cases j
    · rw [k2] at j; cases j
    · rw [k2] at j; cases j
  -- a pause is followed by a request
  have paused : ∀ m, ((f m).phase = .backoff ∨ ∃ k, (f m).phase = .waiting k) → ∃ k, m ≤ k ∧ (f k).phase = .calling := by
    intro m hm
    obtain ⟨k, x, k1, k2, k3, q1, q2⟩ := leaves m
    rw [← k2] at hm
    rcases tracker_goes q1 q2 k3 with ⟨j, _⟩ | ⟨j, _⟩ | ⟨_, j⟩
    · rcases hm with hm | ⟨_, hm⟩ <;> (rw [hm] at j; cases j)
    · rcases hm with hm | ⟨_, hm⟩ <;> (rw [hm] at j; cases j)
    · exact ⟨k + 1, by omega, j⟩
  obtain ⟨m, hm, hc⟩ : ∃ m, n ≤ m ∧ (f m).phase = .calling := by
    cases hp : (f n).phase with
    | calling => exact ⟨n, Nat.le_refl _, hp⟩
    | backoff => exact paused n (.inl hp)
    | waiting k => exact paused n (.inr ⟨k, hp⟩)
    | exited => exact absurd hp (alive n)
    | inFlight =>
      obtain ⟨k, x, k1, k2, k3, q1, q2⟩ := leaves n
      rw [hp] at k2
      rcases tracker_goes q1 q2 k3 with ⟨j, _⟩ | ⟨_, j⟩ | ⟨j | ⟨_, j⟩, _⟩
      · rw [k2] at j; cases j
      · obtain ⟨m, m1, m2⟩ := paused (k + 1) j
        exact ⟨m, by omega, m2⟩
      · rw [k2] at j; cases j
      · rw [k2] at j; cases j
  obtain ⟨k, k1, k2⟩ := asked m hc
  exact ⟨k, by omega, k2⟩

/-- C149: so a tracker to which there is a connection from some moment on gets announces for ever. -/
theorem C149_announced (w : World) (u : Setup) (σ : Nat → State) (ev : Nat → Option Event) (h0 : Started w u (σ 0))
    (hx : Execution w σ ev) (hs : ∀ n, ev n ≠ some .signal) (i : Nat) (url : Bytes) (hi : u.urls[i]? = some url)
    (hw : WaitsEnd σ i) (n0 : Nat) (hc : ∀ m, n0 ≤ m → ¬ UnsentAt σ i m) (n : Nat) :
    ∃ m a, n ≤ m ∧ SentAt σ i m a ∧ a.trackerUrl = url ∧ a.infoHash = u.infoHash := by
  obtain ⟨m, hm, h | ⟨a, h1, h2, h3, _⟩⟩ := C149_asked w u σ ev h0 hx hs i url hi hw (max n n0)
  · exact absurd h (hc m (by omega))
  · exact ⟨m, a, by omega, h1, h2, h3⟩

/-- A tracker that knows no peers. -/
def namesNobody : TrackerResponse := ⟨none, 1800, none, none, 0, 0, []⟩

/-- What happens to the task of a tracker that always answers. -/
def roundInput (n : Nat) : TrackerInput :=
  if n % 3 = 0 then .sends else if n % 3 = 1 then .answers namesNobody else .intervalTimer 0

/-- The task of a tracker that always answers. -/
def roundTask (t : TrackerTask) : Nat → TrackerTask
  | 0 => t
  | n + 1 => match (roundTask t n).step (roundInput n) with
    | .ok t' => t'
    | _ => roundTask t n

theorem roundTask_phase {t : TrackerTask} (hp : t.phase = .calling) (hc : t.pieceCount * t.pieceLength < 2 ^ 64) (n : Nat) :
    (roundTask t n).phase = (if n % 3 = 0 then .calling else if n % 3 = 1 then .inFlight else .waiting 1800) ∧
    (roundTask t n).pieceCount = t.pieceCount ∧ (roundTask t n).pieceLength = t.pieceLength ∧
    (roundTask t n).step (roundInput n) = .ok (roundTask t (n + 1)) := by
  have key : ∀ n, (roundTask t n).phase = (if n % 3 = 0 then .calling else if n % 3 = 1 then .inFlight else .waiting 1800) →
      (roundTask t n).pieceCount = t.pieceCount → (roundTask t n).pieceLength = t.pieceLength →
      ∃ t', (roundTask t n).step (roundInput n) = .ok t' ∧ t'.pieceCount = t.pieceCount ∧ t'.pieceLength = t.pieceLength ∧
        t'.phase = (if (n + 1) % 3 = 0 then .calling else if (n + 1) % 3 = 1 then .inFlight else .waiting 1800) := by
    intro n h1 h2 h3
    by_cases a : n % 3 = 0
    · rw [if_pos a] at h1
      refine ⟨{ roundTask t n with phase := .inFlight, log := (roundTask t n).log ++ [.sent (roundTask t n).announce] },
        by simp only [TrackerTask.step, h1, roundInput, if_pos a], h2, h3, ?_⟩
      rw [if_neg (by omega), if_pos (by omega)]
    · by_cases b : n % 3 = 1
      · rw [if_neg a, if_pos b] at h1
        simp only [TrackerTask.step, h1, roundInput, if_neg a, if_pos b]
        refine ⟨_, rfl, h2, h3, ?_⟩
        show TrackerPhase.waiting 1800 = _
        rw [if_neg (by omega), if_neg (by omega)]
      · rw [if_neg a, if_neg b] at h1
        simp only [TrackerTask.step, h1, roundInput, if_neg a, if_neg b, TrackerTask.again, leftBytes, usub, h2, h3,
          Nat.zero_le, if_true, Res.ok_bind, Nat.sub_zero, if_pos hc]
        refine ⟨_, rfl, rfl, rfl, ?_⟩
        rw [if_pos (by omega)]
  have : (roundTask t n).phase = (if n % 3 = 0 then .calling else if n % 3 = 1 then .inFlight else .waiting 1800) ∧
      (roundTask t n).pieceCount = t.pieceCount ∧ (roundTask t n).pieceLength = t.pieceLength := by
    induction n with
    | zero => exact ⟨hp, rfl, rfl⟩
    | succ n ih =>
      obtain ⟨t', k1, k2, k3, k4⟩ := key n ih.1 ih.2.1 ih.2.2
      have : roundTask t (n + 1) = t' := by simp only [roundTask, k1]
      rw [this]
      exact ⟨k4, k2, k3⟩
  refine ⟨this.1, this.2.1, this.2.2, ?_⟩
  obtain ⟨t', k1, _⟩ := key n this.1 this.2.1 this.2.2
  rw [k1]
  simp only [roundTask, k1]

/-- The hypotheses of both theorems are met: an execution in which a tracker answers every request. -/
example : ∃ (σ : Nat → State) (ev : Nat → Option Event), Started demoWorld demoSetup (σ 0) ∧ Execution demoWorld σ ev ∧
    (∀ n, ev n ≠ some .signal) ∧ demoSetup.urls[0]? = some (ascii "http://a") ∧ WaitsEnd σ 0 ∧ (∀ m, ¬ UnsentAt σ 0 m) ∧
    SentAt σ 0 0 ⟨ascii "http://a", Swarm.hash1, demoSetup.peerId, 6887#16, 0, 0, 6, true, true, some .started, none⟩ := by
  have : demo demoWorld demoSetup [] (fun s => match s.trackers with
      | [t] => decide (t.phase = .calling) && decide (t.pieceCount * t.pieceLength < 2 ^ 64) && decide (s.down.phase ≠ .done) &&
          decide (t.announce = ⟨ascii "http://a", Swarm.hash1, demoSetup.peerId, 6887#16, 0, 0, 6, true, true, some .started, none⟩)
      | _ => false) = some true := by decide +kernel
  obtain ⟨s0, s, h0, h, hf⟩ := demo_sound this
  have hs0 : s = s0 := by
    generalize hes : ([] : List Event) = es at h
    cases h with
    | nil => rfl
    | snoc => simp at hes
  subst hs0
  split at hf
  · next t ht =>
    simp only [Bool.and_eq_true, decide_eq_true_eq] at hf
    obtain ⟨⟨⟨hp, hc⟩, hd⟩, ha⟩ := hf
    let σ : Nat → State := fun n => { s with trackers := [roundTask t n] }
    have hσ : ∀ n, (σ n).trackers[0]? = some (roundTask t n) := fun n => rfl
    have key := fun n => roundTask_phase hp hc n
    refine ⟨σ, fun n => some (if n % 3 = 1 then .answered 0 namesNobody else .tracker 0 (roundInput n)), ?_, ⟨?_, ?_⟩, ?_, rfl,
      ?_, ?_, ?_⟩
    · have : σ 0 = s := by
        show ({ s with trackers := [t] } : State) = s
        rw [← ht]
      rw [this]; exact h0
    · intro n e he
      cases he
      refine ⟨hd, ?_⟩
      obtain ⟨k1, _, _, k4⟩ := key n
      by_cases b : n % 3 = 1
      · rw [if_pos b]
        rw [if_neg (by omega), if_pos b] at k1
        have : roundInput n = .answers namesNobody := by simp only [roundInput]; rw [if_neg (by omega), if_pos b]
        rw [this] at k4
        exact Turn.answered (s := σ n) (i := 0) (hσ n) k1 k4
      · rw [if_neg b]
        refine Turn.tracker (s := σ n) (i := 0) (hσ n) ?_ k4
        simp only [roundInput]
        by_cases a : n % 3 = 0
        · rw [if_pos a]; trivial
        · rw [if_neg a, if_neg b]; rfl
    · intro n hn; cases hn
    · intro n hn
      simp only [Option.some.injEq] at hn
      split at hn <;> cases hn
    · intro n t' ht' _
      rw [hσ] at ht'
      cases ht'
      refine ⟨n + 1, _, by omega, hσ (n + 1), ?_⟩
      rw [(key n).1, (key (n + 1)).1]
      by_cases a : n % 3 = 0
      · rw [if_neg (by omega), if_pos (by omega), if_pos a]; simp
      · by_cases b : n % 3 = 1
        · rw [if_neg (by omega), if_neg (by omega), if_neg a, if_pos b]; simp
        · rw [if_pos (by omega), if_neg a, if_neg b]; simp
    · rintro m ⟨t1, t2, q1, q2, q3, q4⟩
      rw [hσ] at q1 q3
      cases q1
      cases q3
      obtain ⟨k1, _, _, k4⟩ := key m
      have a : m % 3 = 0 := by
        by_cases a : m % 3 = 0
        · exact a
        · rw [q2, if_neg a] at k1
          split at k1 <;> cases k1
      simp only [roundInput, if_pos a, TrackerTask.step, q2, Res.ok.injEq] at k4
      rw [← k4] at q4
      simp at q4
    · refine ⟨_, _, hσ 0, hσ 1, ?_⟩
      have k4 := (key 0).2.2.2
      have hp' : (roundTask t 0).phase = .calling := hp
      simp only [roundInput, Nat.zero_mod, if_true, TrackerTask.step, hp', Res.ok.injEq] at k4
      rw [← k4]
      simp only [List.append_cancel_left_eq, List.cons.injEq, TrackerEvent.sent.injEq, and_true]
      exact ha
  · cases hf

end Nargun.Program
