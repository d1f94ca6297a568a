import Verif.Spec.Tracker
import Verif.Props.Announce
import Verif.Lemmas.Lists

/-! # C45–C48, C88, C89: the dialogue with a tracker -/

set_option linter.unusedSimpArgs false

namespace Nargun

open Spec

/-- A state the task of a tracker can be in. -/
def TrackerTask.Reachable (t : TrackerTask) : Prop :=
  ∃ url ih pid count length pieces port is t0,
    TrackerTask.start url ih pid count length pieces port = .ok t0 ∧ t0.run is = .ok t

theorem split_snoc {α} (l p m : List α) (e x : α) (h : l ++ [e] = p ++ x :: m) :
    (m = [] ∧ p = l ∧ x = e) ∨ ∃ m', m = m' ++ [e] ∧ l = p ++ x :: m' := by
  rcases List.eq_nil_or_concat m with rfl | ⟨m', y, hm⟩
  · left
    have := List.append_inj' h rfl
    exact ⟨rfl, this.1.symm, by simpa using this.2.symm⟩
  · right
    rw [List.concat_eq_append] at hm
    subst hm
    have h' : l ++ [e] = (p ++ x :: m') ++ [y] := by simpa using h
    have := List.append_inj' h' rfl
    have hy : e = y := by simpa using this.2
    subst hy
    exact ⟨m', rfl, this.1⟩

theorem everySent_snoc {log : List TrackerEvent} {Q : List TrackerEvent → Announce → Prop} {e : TrackerEvent}
    (h : EverySent log Q) (he : ∀ a, e = .sent a → Q log a) : EverySent (log ++ [e]) Q := by
  intro pre a post hs
  rcases split_snoc _ _ _ _ _ hs with ⟨_, rfl, hx⟩ | ⟨m', rfl, hl⟩
  · exact he a hx.symm
  · exact h _ _ _ hl

/-- What holds of every announce. -/
structure SentOk (count length : Nat) (pre : List TrackerEvent) (a : Announce) : Prop where
  started : a.event = some .started ↔ ¬ Answered pre
  noneStopped : ∀ b, .sent b ∈ pre → b.event ≠ some .stopped
  trackerId : a.trackerId = firstTrackerId pre
  left : ∃ n, lastProgress pre = some n ∧ n ≤ count ∧ a.left = (count - n) * length
  retry : ∀ p b m, pre = p ++ .sent b :: m → ¬ Answered m → a = b
  fresh : ∀ p r m, pre = p ++ .answered r :: m → ∃ n, .loaded n ∈ m
  backoff : ∀ p m, pre = p ++ .failed :: m → .slept RETRY_SECS ∈ m
  pace : ∀ p r m, pre = p ++ .answered r :: m → ¬ Answered m → a.event = none → .slept r.interval ∈ m

/-- What the announce about to be sent satisfies while the task has not got its answer. -/
structure PendingOk (count length : Nat) (log : List TrackerEvent) (a : Announce) : Prop where
  started : a.event = some .started ↔ ¬ Answered log
  notStopped : a.event ≠ some .stopped
  left : ∃ n, lastProgress log = some n ∧ n ≤ count ∧ a.left = (count - n) * length
  retry : ∀ p b m, log = p ++ .sent b :: m → ¬ Answered m → a = b
  fresh : ∀ p r m, log = p ++ .answered r :: m → ∃ n, .loaded n ∈ m
  pace : ∀ p r m, log = p ++ .answered r :: m → ¬ Answered m → a.event = none → .slept r.interval ∈ m

/-- Every failure was followed by the pause. -/
def Paused (log : List TrackerEvent) : Prop := ∀ p m, log = p ++ .failed :: m → .slept RETRY_SECS ∈ m

/-- Invariant of the task. -/
structure TrackerInv (t : TrackerTask) : Prop where
  sent : EverySent t.log (SentOk t.pieceCount t.pieceLength)
  trackerId : t.announce.trackerId = firstTrackerId t.log
  noneStopped : t.phase ≠ .exited → ∀ b, .sent b ∈ t.log → b.event ≠ some .stopped
  pending : (t.phase = .calling ∨ t.phase = .inFlight ∨ t.phase = .backoff) →
    PendingOk t.pieceCount t.pieceLength t.log t.announce
  paused : t.phase ≠ .exited → t.phase ≠ .backoff → Paused t.log
  pausedBackoff : t.phase = .backoff → ∃ l, t.log = l ++ [.failed] ∧ Paused l
  waiting : ∀ i, t.phase = .waiting i → ∃ l r, t.log = l ++ [.answered r, .found r.peers] ∧ i = r.interval
  found : ∀ p r m, t.log = p ++ .answered r :: m → ∃ m', m = .found r.peers :: m'

theorem answered_snoc (log : List TrackerEvent) (e : TrackerEvent) (he : ∀ r, e ≠ .answered r) :
    Answered (log ++ [e]) ↔ Answered log := by
  constructor
  · rintro ⟨r, h⟩
    rw [List.mem_append, List.mem_singleton] at h
    rcases h with h | h
    · exact ⟨r, h⟩
    · exact absurd h.symm (he r)
  · rintro ⟨r, h⟩
    exact ⟨r, List.mem_append_left _ h⟩

theorem firstTrackerId_snoc (log : List TrackerEvent) (e : TrackerEvent) (he : ∀ r, e ≠ .answered r) :
    firstTrackerId (log ++ [e]) = firstTrackerId log := by
  unfold firstTrackerId
  rw [List.filterMap_append]
  cases e <;> simp at he ⊢

theorem firstTrackerId_sent (log : List TrackerEvent) (a : Announce) :
    firstTrackerId (log ++ [.sent a]) = firstTrackerId log := firstTrackerId_snoc _ _ (by simp)

theorem firstTrackerId_failed (log : List TrackerEvent) :
    firstTrackerId (log ++ [.failed]) = firstTrackerId log := firstTrackerId_snoc _ _ (by simp)

theorem firstTrackerId_loaded (log : List TrackerEvent) (n : Nat) :
    firstTrackerId (log ++ [.loaded n]) = firstTrackerId log := firstTrackerId_snoc _ _ (by simp)

theorem firstTrackerId_found (log : List TrackerEvent) (ps : List Peer) :
    firstTrackerId (log ++ [.found ps]) = firstTrackerId log := firstTrackerId_snoc _ _ (by simp)

theorem firstTrackerId_slept (log : List TrackerEvent) (n : Nat) :
    firstTrackerId (log ++ [.slept n]) = firstTrackerId log := firstTrackerId_snoc _ _ (by simp)

theorem lastProgress_snoc (log : List TrackerEvent) (e : TrackerEvent) (he : ∀ n, e ≠ .loaded n) :
    lastProgress (log ++ [e]) = lastProgress log := by
  unfold lastProgress
  rw [List.filterMap_append]
  cases e <;> simp at he ⊢

theorem lastProgress_loaded (log : List TrackerEvent) (n : Nat) : lastProgress (log ++ [.loaded n]) = some n := by
  unfold lastProgress
  rw [List.filterMap_append]
  simp

theorem leftBytes_ok {count pieces length l : Nat} (h : leftBytes count pieces length = .ok l) :
    pieces ≤ count ∧ l = (count - pieces) * length := by
  unfold leftBytes at h
  obtain ⟨n, h1, h2⟩ := Res.bind_eq_ok.mp h
  unfold usub at h1
  split at h1
  · cases h1
    split at h2
    · cases h2; exact ⟨by assumption, rfl⟩
    · cases h2
  · cases h1

theorem paused_snoc {log : List TrackerEvent} {e : TrackerEvent} (h : Paused log) (he : e ≠ .failed) :
    Paused (log ++ [e]) := by
  intro p m hs
  rcases split_snoc _ _ _ _ _ hs with ⟨_, _, hx⟩ | ⟨m', rfl, hl⟩
  · exact absurd hx.symm he
  · exact List.mem_append_left _ (h _ _ hl)

theorem found_snoc {log : List TrackerEvent} {e : TrackerEvent} (he : ∀ r, e ≠ .answered r)
    (h : ∀ p r m, log = p ++ .answered r :: m → ∃ m', m = .found r.peers :: m') :
    ∀ p r m, log ++ [e] = p ++ .answered r :: m → ∃ m', m = .found r.peers :: m' := by
  intro p r m hs
  rcases split_snoc _ _ _ _ _ hs with ⟨_, _, hx⟩ | ⟨m', rfl, hl⟩
  · exact absurd hx.symm (he r)
  · obtain ⟨m'', rfl⟩ := h _ _ _ hl
    exact ⟨m'' ++ [e], rfl⟩

theorem pending_snoc {count length : Nat} {log : List TrackerEvent} {a : Announce} {e : TrackerEvent}
    (h : PendingOk count length log a) (h1 : ∀ r, e ≠ .answered r) (h2 : ∀ n, e ≠ .loaded n)
    (h3 : ∀ b, e = .sent b → b = a) : PendingOk count length (log ++ [e]) a := by
  refine ⟨?_, h.notStopped, ?_, ?_, ?_, ?_⟩
  · rw [answered_snoc _ _ h1]; exact h.started
  · rw [lastProgress_snoc _ _ h2]; exact h.left
  · intro p b m hs hm
    rcases split_snoc _ _ _ _ _ hs with ⟨_, _, hx⟩ | ⟨m', rfl, hl⟩
    · exact (h3 b hx.symm).symm
    · exact h.retry _ _ _ hl (fun ⟨r, hr⟩ => hm ⟨r, List.mem_append_left _ hr⟩)
  · intro p r m hs
    rcases split_snoc _ _ _ _ _ hs with ⟨_, _, hx⟩ | ⟨m', rfl, hl⟩
    · exact absurd hx.symm (h1 r)
    · obtain ⟨n, hn⟩ := h.fresh _ _ _ hl
      exact ⟨n, List.mem_append_left _ hn⟩
  · intro p r m hs hm hev
    rcases split_snoc _ _ _ _ _ hs with ⟨_, _, hx⟩ | ⟨m', rfl, hl⟩
    · exact absurd hx.symm (h1 r)
    · exact List.mem_append_left _ (h.pace _ _ _ hl (fun ⟨r, hr⟩ => hm ⟨r, List.mem_append_left _ hr⟩) hev)

theorem sent_mem_snoc {log : List TrackerEvent} {e : TrackerEvent} {b : Announce} (he : ∀ a, e ≠ .sent a)
    (h : .sent b ∈ log ++ [e]) : .sent b ∈ log := by
  rw [List.mem_append, List.mem_singleton] at h
  rcases h with h | h
  · exact h
  · exact absurd h.symm (he b)

/-- The last answer of a log that ends in an answer and later events `tail`. -/
theorem last_answer (l tail : List TrackerEvent) (r : TrackerResponse) (ht : ∀ r', .answered r' ∉ tail)
    (p m : List TrackerEvent) (r' : TrackerResponse) (h : l ++ .answered r :: tail = p ++ .answered r' :: m)
    (hm : ¬ Answered m) : p = l ∧ r' = r ∧ m = tail := by
  induction tail using snoc_induction generalizing m with
  | nil =>
    rcases split_snoc _ _ _ _ _ h with ⟨rfl, rfl, hx⟩ | ⟨m', rfl, hl⟩
    · exact ⟨rfl, by simpa using hx, rfl⟩
    · exact absurd ⟨r, by simp⟩ hm
  | snoc tail e ih =>
    have h' : (l ++ .answered r :: tail) ++ [e] = p ++ .answered r' :: m := by simpa using h
    rcases split_snoc _ _ _ _ _ h' with ⟨_, _, hx⟩ | ⟨m', rfl, hl⟩
    · exact absurd (by rw [hx]; simp) (ht r')
    · obtain ⟨h1, h2, h3⟩ := ih (fun r'' h => ht r'' (List.mem_append_left _ h)) m' hl
        (fun ⟨r, hr⟩ => hm ⟨r, List.mem_append_left _ hr⟩)
      exact ⟨h1, h2, by rw [h3]⟩

theorem answered_last {l tail : List TrackerEvent} {r : TrackerResponse}
    (p m : List TrackerEvent) (x : TrackerEvent) (h : l ++ .answered r :: tail = p ++ x :: m)
    (hx : ∀ r, x ≠ .answered r) (hm : ¬ Answered m) : ∃ m1 m2, tail = m1 ++ x :: m2 ∧ m = m2 := by
  rcases List.append_eq_append_iff.mp h with ⟨c, hc1, hc2⟩ | ⟨c, hc1, hc2⟩
  · cases c with
    | nil =>
      simp only [List.nil_append, List.cons.injEq] at hc2
      exact absurd hc2.1.symm (hx r)
    | cons y ys =>
      simp only [List.cons_append, List.cons.injEq] at hc2
      exact ⟨ys, m, hc2.2, rfl⟩
  · cases c with
    | nil =>
      simp only [List.nil_append, List.cons.injEq] at hc2
      exact absurd hc2.1 (hx r)
    | cons y ys =>
      simp only [List.cons_append, List.cons.injEq] at hc2
      exact absurd ⟨r, by rw [hc2.2]; simp⟩ hm

theorem start_inv {url ih pid count length pieces port t}
    (h : TrackerTask.start url ih pid count length pieces port = .ok t) : TrackerInv t := by
  unfold TrackerTask.start at h
  obtain ⟨l, hl, h⟩ := Res.bind_eq_ok.mp h
  cases h
  obtain ⟨h1, h2⟩ := leftBytes_ok hl
  have hno : ∀ (x : TrackerEvent) p m, [TrackerEvent.loaded pieces] = p ++ x :: m → x = .loaded pieces := by
    intro x p m h
    rcases split_snoc [] _ _ _ _ (by simpa using h) with ⟨_, _, hx⟩ | ⟨m', _, hl⟩
    · exact hx
    · simp at hl
  refine ⟨?_, rfl, ?_, ?_, ?_, ?_, ?_, ?_⟩
  · intro pre a post h; exact absurd (hno _ _ _ h) (by simp)
  · intro _ b hb; simp at hb
  · intro _
    refine ⟨?_, by simp, ⟨pieces, rfl, h1, h2⟩, ?_, ?_, ?_⟩
    · simp [Answered]
    · intro p b m h; exact absurd (hno _ _ _ h) (by simp)
    · intro p r m h; exact absurd (hno _ _ _ h) (by simp)
    · intro p r m h; exact absurd (hno _ _ _ h) (by simp)
  · intro _ _ p m h; exact absurd (hno _ _ _ h) (by simp)
  · intro h; cases h
  · intro i h; cases h
  · intro p r m h; exact absurd (hno _ _ _ h) (by simp)

/-- Asking again after an answer. -/
theorem again_pending {count length pieces left : Nat} {l tail : List TrackerEvent} {r : TrackerResponse}
    {a : Announce} {ev : Option AnnounceEvent} (hleft : leftBytes count pieces length = .ok left)
    (ht : ¬ Answered tail) (hs : ∀ b, .sent b ∉ tail)
    (hev : ev ≠ some .started) (hev' : ev ≠ some .stopped) (hp : ev = none → .slept r.interval ∈ tail) :
    PendingOk count length (l ++ .answered r :: tail ++ [.loaded pieces]) { a with event := ev, left := left } := by
  obtain ⟨h1, h2⟩ := leftBytes_ok hleft
  have hans : Answered (l ++ .answered r :: tail ++ [.loaded pieces]) := ⟨r, by simp⟩
  refine ⟨?_, hev', ⟨pieces, lastProgress_loaded _ _, h1, h2⟩, ?_, ?_, ?_⟩
  · constructor
    · intro h; exact absurd h hev
    · intro h; exact absurd hans h
  · intro p b m hsp hm
    exfalso
    obtain ⟨m1, m2, h3, _⟩ := answered_last (l := l) (r := r) (tail := tail ++ [.loaded pieces])
      p m (.sent b) (by simpa using hsp) (by simp) hm
    have : TrackerEvent.sent b ∈ tail ++ [.loaded pieces] := by rw [h3]; simp
    rcases List.mem_append.mp this with h | h
    · exact hs b h
    · simp at h
  · intro p r' m hsp
    rcases split_snoc _ _ _ _ _ hsp with ⟨_, _, hx⟩ | ⟨m', rfl, hl⟩
    · cases hx
    · exact ⟨pieces, by simp⟩
  · intro p r' m hsp hm he
    have hsp' : l ++ .answered r :: (tail ++ [.loaded pieces]) = p ++ .answered r' :: m := by simpa using hsp
    obtain ⟨_, rfl, rfl⟩ := last_answer l (tail ++ [.loaded pieces]) r (by
      intro r' hr
      rcases List.mem_append.mp hr with h | h
      · exact ht ⟨r', h⟩
      · simp at h) p m r' hsp' hm
    exact List.mem_append_left _ (hp he)

theorem step_inv {t t' : TrackerTask} {i : TrackerInput} (h : TrackerInv t) (hs : t.step i = .ok t') :
    TrackerInv t' ∧ t'.pieceCount = t.pieceCount ∧ t'.pieceLength = t.pieceLength := by
  unfold TrackerTask.step at hs
  split at hs
  · -- the request goes out
    rename_i hph
    cases hs
    have hp := h.pending (.inl hph)
    refine ⟨⟨?_, ?_, ?_, ?_, ?_, ?_, ?_, ?_⟩, rfl, rfl⟩
    · refine everySent_snoc h.sent ?_
      intro a ha
      cases ha
      exact ⟨hp.started, h.noneStopped (by simp [hph]), h.trackerId, hp.left, hp.retry, hp.fresh,
        h.paused (by simp [hph]) (by simp [hph]), hp.pace⟩
    · simp only [firstTrackerId_sent, firstTrackerId_failed, firstTrackerId_loaded, firstTrackerId_found, firstTrackerId_slept]; exact h.trackerId
    · intro _ b hb
      rw [List.mem_append, List.mem_singleton] at hb
      rcases hb with hb | hb
      · exact h.noneStopped (by simp [hph]) b hb
      · cases hb; exact hp.notStopped
    · intro _; exact pending_snoc hp (by simp) (by simp) (by simp)
    · intro _ _; exact paused_snoc (h.paused (by simp [hph]) (by simp [hph])) (by simp)
    · intro hh; cases hh
    · intro i hh; cases hh
    · exact found_snoc (by simp) h.found
  · -- the request fails before it goes out
    rename_i hph
    cases hs
    have hp := h.pending (.inl hph)
    refine ⟨⟨?_, ?_, ?_, ?_, ?_, ?_, ?_, ?_⟩, rfl, rfl⟩
    · exact everySent_snoc h.sent (by simp)
    · simp only [firstTrackerId_sent, firstTrackerId_failed, firstTrackerId_loaded, firstTrackerId_found, firstTrackerId_slept]; exact h.trackerId
    · intro _ b hb; exact h.noneStopped (by simp [hph]) b (sent_mem_snoc (by simp) hb)
    · intro _; exact pending_snoc hp (by simp) (by simp) (by simp)
    · intro _ hh; exact absurd rfl hh
    · intro _; exact ⟨_, rfl, h.paused (by simp [hph]) (by simp [hph])⟩
    · intro i hh; cases hh
    · exact found_snoc (by simp) h.found
  · cases hs
    refine ⟨⟨h.sent, h.trackerId, ?_, ?_, ?_, ?_, ?_, h.found⟩, rfl, rfl⟩ <;> simp
  · -- the tracker answers
    rename_i r hph
    cases hs
    have hp := h.pending (.inr (.inl hph))
    have hpa := h.paused (by simp [hph]) (by simp [hph])
    have happ : t.log ++ [TrackerEvent.answered r, .found r.peers] = (t.log ++ [.answered r]) ++ [.found r.peers] := by simp
    refine ⟨⟨?_, ?_, ?_, ?_, ?_, ?_, ?_, ?_⟩, rfl, rfl⟩
    · simp only [happ]
      exact everySent_snoc (everySent_snoc h.sent (by simp)) (by simp)
    · simp only [happ, firstTrackerId_sent, firstTrackerId_failed, firstTrackerId_loaded, firstTrackerId_found, firstTrackerId_slept]
      have hf : firstTrackerId (t.log ++ [.answered r]) =
          match firstTrackerId t.log with
          | some x => some x
          | none => r.trackerId := by
        unfold firstTrackerId
        rw [List.filterMap_append, List.head?_append]
        cases hh : (List.filterMap (fun e => match e with
          | TrackerEvent.answered r => r.trackerId
          | _ => none) t.log).head? <;> cases hr : r.trackerId <;> simp [hr]
      rw [hf, ← h.trackerId]
      cases htid : t.announce.trackerId with
      | none =>
        cases hr : r.trackerId with
        | none => simp [htid, hr]
        | some x => simp [htid, hr]
      | some x => simp [htid]
    · intro _ b hb
      simp only [happ] at hb
      exact h.noneStopped (by simp [hph]) b (sent_mem_snoc (by simp) (sent_mem_snoc (by simp) hb))
    · intro hh; rcases hh with hh | hh | hh <;> cases hh
    · intro _ _
      simp only [happ]
      exact paused_snoc (paused_snoc hpa (by simp)) (by simp)
    · intro hh; cases hh
    · intro i hh; cases hh; exact ⟨_, r, rfl, rfl⟩
    · simp only [happ]
      intro p r' m hsp
      rcases split_snoc _ _ _ _ _ hsp with ⟨_, _, hx⟩ | ⟨m', rfl, hl⟩
      · cases hx
      · rcases split_snoc _ _ _ _ _ hl with ⟨rfl, rfl, hx⟩ | ⟨m'', rfl, hl2⟩
        · cases hx; exact ⟨[], rfl⟩
        · obtain ⟨m3, rfl⟩ := h.found _ _ _ hl2
          exact ⟨m3 ++ [.answered r] ++ [.found r.peers], by simp⟩
  · -- the request fails
    rename_i hph
    cases hs
    have hp := h.pending (.inr (.inl hph))
    refine ⟨⟨?_, ?_, ?_, ?_, ?_, ?_, ?_, ?_⟩, rfl, rfl⟩
    · exact everySent_snoc h.sent (by simp)
    · simp only [firstTrackerId_sent, firstTrackerId_failed, firstTrackerId_loaded, firstTrackerId_found, firstTrackerId_slept]; exact h.trackerId
    · intro _ b hb; exact h.noneStopped (by simp [hph]) b (sent_mem_snoc (by simp) hb)
    · intro _; exact pending_snoc hp (by simp) (by simp) (by simp)
    · intro _ hh; exact absurd rfl hh
    · intro _; exact ⟨_, rfl, h.paused (by simp [hph]) (by simp [hph])⟩
    · intro i hh; cases hh
    · exact found_snoc (by simp) h.found
  · cases hs
    refine ⟨⟨h.sent, h.trackerId, ?_, ?_, ?_, ?_, ?_, h.found⟩, rfl, rfl⟩ <;> simp
  · -- the retry pause ends
    rename_i hph
    cases hs
    have hp := h.pending (.inr (.inr hph))
    obtain ⟨l, hl, hpa⟩ := h.pausedBackoff hph
    refine ⟨⟨?_, ?_, ?_, ?_, ?_, ?_, ?_, ?_⟩, rfl, rfl⟩
    · exact everySent_snoc h.sent (by simp)
    · simp only [firstTrackerId_sent, firstTrackerId_failed, firstTrackerId_loaded, firstTrackerId_found, firstTrackerId_slept]; exact h.trackerId
    · intro _ b hb; exact h.noneStopped (by simp [hph]) b (sent_mem_snoc (by simp) hb)
    · intro _; exact pending_snoc hp (by simp) (by simp) (by simp)
    · intro _ _ p m hsp
      simp only at hsp
      rcases split_snoc _ _ _ _ _ hsp with ⟨_, _, hx⟩ | ⟨m', rfl, hl'⟩
      · cases hx
      · simp
    · intro hh; cases hh
    · intro i hh; cases hh
    · exact found_snoc (by simp) h.found
  · cases hs
    refine ⟨⟨h.sent, h.trackerId, ?_, ?_, ?_, ?_, ?_, h.found⟩, rfl, rfl⟩ <;> simp
  · -- shutdown while waiting
    rename_i i pieces hph
    obtain ⟨left, hleft, hs⟩ := Res.bind_eq_ok.mp hs
    cases hs
    obtain ⟨h1, h2⟩ := leftBytes_ok hleft
    obtain ⟨l, r, hl, rfl⟩ := h.waiting _ hph
    have happ : ∀ a, t.log ++ [TrackerEvent.loaded pieces, .sent a] = (t.log ++ [.loaded pieces]) ++ [.sent a] := by simp
    refine ⟨⟨?_, ?_, ?_, ?_, ?_, ?_, ?_, ?_⟩, rfl, rfl⟩
    · simp only [happ]
      refine everySent_snoc (everySent_snoc h.sent (by simp)) ?_
      intro a ha
      cases ha
      have hans : Answered (t.log ++ [.loaded pieces]) := ⟨r, by rw [hl]; simp⟩
      refine ⟨?_, ?_, ?_, ⟨pieces, lastProgress_loaded _ _, h1, h2⟩, ?_, ?_, ?_, ?_⟩
      · constructor
        · intro hh; cases hh
        · intro hh; exact absurd hans hh
      · intro b hb; exact h.noneStopped (by simp [hph]) b (sent_mem_snoc (by simp) hb)
      · rw [firstTrackerId_snoc _ _ (by simp)]; exact h.trackerId
      · intro p b m hsp hm
        rw [hl] at hsp
        obtain ⟨m1, m2, h3, _⟩ := answered_last (l := l) (r := r) (tail := [.found r.peers, .loaded pieces])
          p m (.sent b) (by simpa using hsp) (by simp) hm
        have : TrackerEvent.sent b ∈ [TrackerEvent.found r.peers, .loaded pieces] := by rw [h3]; simp
        simp at this
      · intro p r' m hsp
        rcases split_snoc _ _ _ _ _ hsp with ⟨_, _, hx⟩ | ⟨m', rfl, hl⟩
        · cases hx
        · exact ⟨pieces, by simp⟩
      · exact paused_snoc (h.paused (by simp [hph]) (by simp [hph])) (by simp)
      · intro _ _ _ _ _ hh; cases hh
    · simp only [happ, firstTrackerId_sent, firstTrackerId_failed, firstTrackerId_loaded, firstTrackerId_found, firstTrackerId_slept]
      exact h.trackerId
    · intro hh; exact absurd rfl hh
    · intro hh; rcases hh with hh | hh | hh <;> cases hh
    · intro hh; exact absurd rfl hh
    · intro hh; cases hh
    · intro i hh; cases hh
    · simp only [happ]; exact found_snoc (by simp) (found_snoc (by simp) h.found)
  · -- the interval has passed
    rename_i secs pieces hph
    unfold TrackerTask.again at hs
    obtain ⟨left, hleft, hs⟩ := Res.bind_eq_ok.mp hs
    cases hs
    obtain ⟨l, r, hl, rfl⟩ := h.waiting _ hph
    simp only at hleft
    refine ⟨⟨?_, ?_, ?_, ?_, ?_, ?_, ?_, ?_⟩, rfl, rfl⟩
    · exact everySent_snoc (everySent_snoc h.sent (by simp)) (by simp)
    · simp only [firstTrackerId_sent, firstTrackerId_failed, firstTrackerId_loaded, firstTrackerId_found, firstTrackerId_slept]
      exact h.trackerId
    · intro _ b hb
      exact h.noneStopped (by simp [hph]) b (sent_mem_snoc (by simp) (sent_mem_snoc (by simp) hb))
    · intro _
      have := again_pending (l := l) (r := r) (tail := [.found r.peers, .slept r.interval]) (a := t.announce)
        (ev := none) hleft (by rintro ⟨r', hr'⟩; simp at hr') (by simp) (by simp) (by simp) (by simp)
      simp only [hl, List.append_assoc, List.cons_append, List.nil_append] at this ⊢
      exact this
    · intro _ _
      exact paused_snoc (paused_snoc (h.paused (by simp [hph]) (by simp [hph])) (by simp)) (by simp)
    · intro hh; cases hh
    · intro i hh; cases hh
    · exact found_snoc (by simp) (found_snoc (by simp) h.found)
  · -- the download is complete
    rename_i secs pieces hph
    unfold TrackerTask.again at hs
    obtain ⟨left, hleft, hs⟩ := Res.bind_eq_ok.mp hs
    cases hs
    obtain ⟨l, r, hl, rfl⟩ := h.waiting _ hph
    refine ⟨⟨?_, ?_, ?_, ?_, ?_, ?_, ?_, ?_⟩, rfl, rfl⟩
    · exact everySent_snoc h.sent (by simp)
    · simp only [firstTrackerId_sent, firstTrackerId_failed, firstTrackerId_loaded, firstTrackerId_found, firstTrackerId_slept]
      exact h.trackerId
    · intro _ b hb
      exact h.noneStopped (by simp [hph]) b (sent_mem_snoc (by simp) hb)
    · intro _
      have := again_pending (l := l) (r := r) (tail := [.found r.peers]) (a := t.announce)
        (ev := some .completed) hleft (by rintro ⟨r', hr'⟩; simp at hr') (by simp) (by simp) (by simp) (by simp)
      simp only [hl, List.append_assoc, List.cons_append, List.nil_append] at this ⊢
      exact this
    · intro _ _
      exact paused_snoc (h.paused (by simp [hph]) (by simp [hph])) (by simp)
    · intro hh; cases hh
    · intro i hh; cases hh
    · exact found_snoc (by simp) h.found
  · cases hs
    refine ⟨⟨h.sent, h.trackerId, ?_, ?_, ?_, ?_, ?_, h.found⟩, rfl, rfl⟩ <;> simp
  · cases hs; exact ⟨h, rfl, rfl⟩

theorem run_inv {t t' : TrackerTask} {is : List TrackerInput} (h : TrackerInv t) (hs : t.run is = .ok t') :
    TrackerInv t' ∧ t'.pieceCount = t.pieceCount ∧ t'.pieceLength = t.pieceLength := by
  induction is generalizing t with
  | nil => simp only [TrackerTask.run] at hs; cases hs; exact ⟨h, rfl, rfl⟩
  | cons i is ih =>
    simp only [TrackerTask.run] at hs
    obtain ⟨t1, h1, h2⟩ := Res.bind_eq_ok.mp hs
    obtain ⟨i1, c1, l1⟩ := step_inv h h1
    obtain ⟨i2, c2, l2⟩ := ih i1 h2
    exact ⟨i2, c2.trans c1, l2.trans l1⟩

theorem reachable_inv {t : TrackerTask} (h : t.Reachable) : TrackerInv t := by
  obtain ⟨_, _, _, _, _, _, _, is, t0, h0, h1⟩ := h
  exact (run_inv (start_inv h0) h1).1

/-! ## C45 -/

/-- C45: an announce says 'started' exactly as long as the tracker has not answered; in particular the first one
does, and all later ones are regular, 'completed' or 'stopped'. -/
theorem C45_started (t : TrackerTask) (h : t.Reachable) :
    EverySent t.log fun pre a => (a.event = some .started ↔ ¬ Answered pre) :=
  fun pre a post hs => ((reachable_inv h).sent pre a post hs).started

/-- C45: a request that was not answered is repeated unchanged: no other announce is sent before the tracker
answers. -/
theorem C45_repeated (t : TrackerTask) (h : t.Reachable) (p m post : List TrackerEvent) (b a : Announce)
    (hs : t.log = p ++ .sent b :: m ++ .sent a :: post) (hm : ¬ Answered m) : a = b :=
  ((reachable_inv h).sent _ a post hs).retry p b m rfl hm

/-- C45: nothing is sent after 'stopped'. -/
theorem C45_stopped_last (t : TrackerTask) (h : t.Reachable) (p post : List TrackerEvent) (a : Announce)
    (hs : t.log = p ++ .sent a :: post) (ha : a.event = some .stopped) : sentAnnounces post = [] := by
  rw [sentAnnounces, List.filterMap_eq_nil_iff]
  intro e he
  cases e with
  | sent b =>
    exfalso
    obtain ⟨m, post', rfl⟩ := List.append_of_mem he
    have hs' : t.log = (p ++ .sent a :: m) ++ .sent b :: post' := by simpa using hs
    exact ((reachable_inv h).sent _ b post' hs').noneStopped a (by simp) ha
  | _ => rfl

/-! ## C46 -/

theorem run_append (t : TrackerTask) (is js : List TrackerInput) :
    t.run (is ++ js) = (t.run is >>= fun t' => t'.run js) := by
  induction is generalizing t with
  | nil => simp [TrackerTask.run]
  | cons i is ih =>
    simp only [List.cons_append, TrackerTask.run]
    cases h : t.step i with
    | ok t1 => simp only [Res.ok_bind]; exact ih t1
    | err => rfl
    | panic => rfl

theorem exited_run (t : TrackerTask) (h : t.phase = .exited) (is : List TrackerInput) : t.run is = .ok t := by
  induction is with
  | nil => rfl
  | cons i is ih =>
    have : t.step i = .ok t := by
      unfold TrackerTask.step
      rw [h]
    simp only [TrackerTask.run, this, Res.ok_bind]
    exact ih

/-- C46, the part that holds: if the shutdown signal comes while the task is pausing after an answer, 'stopped'
is sent, no 'stopped' was sent before, and nothing follows whatever happens later. Missing: shutdown while a
request is under way or is to be repeated (`C46_stopped_violated`), and the end of the task because the
completion channel closed (`C46_channel_violated`). -/
theorem C46_stopped_partial (t : TrackerTask) (h : t.Reachable) (secs pieces : Nat) (hw : t.phase = .waiting secs)
    (hp : pieces ≤ t.pieceCount) (hb : t.pieceCount * t.pieceLength < 2 ^ 64) (later : List TrackerInput) :
    ∃ t' a, t.run (.shutdown pieces :: later) = .ok t' ∧ t'.phase = .exited ∧ a.event = some .stopped ∧
      sentAnnounces t'.log = sentAnnounces t.log ++ [a] ∧ ∀ b ∈ sentAnnounces t.log, b.event ≠ some .stopped := by
  have hlt : (t.pieceCount - pieces) * t.pieceLength < 2 ^ 64 :=
    Nat.lt_of_le_of_lt (Nat.mul_le_mul_right _ (Nat.sub_le _ _)) hb
  have hl : leftBytes t.pieceCount pieces t.pieceLength = .ok ((t.pieceCount - pieces) * t.pieceLength) := by
    unfold leftBytes usub
    rw [if_pos hp]
    simp only [Res.ok_bind]
    rw [if_pos hlt]
  let a : Announce := { t.announce with event := some .stopped, left := (t.pieceCount - pieces) * t.pieceLength }
  let t1 : TrackerTask := { t with announce := a, phase := .exited, log := t.log ++ [.loaded pieces, .sent a] }
  have hstep : t.step (.shutdown pieces) = .ok t1 := by
    unfold TrackerTask.step
    rw [hw]
    simp only [hl, Res.ok_bind]
    rfl
  refine ⟨t1, a, ?_, rfl, rfl, ?_, ?_⟩
  · simp only [TrackerTask.run, hstep, Res.ok_bind]
    exact exited_run t1 rfl later
  · simp [t1, sentAnnounces, List.filterMap_append]
  · intro b hb
    simp only [sentAnnounces, List.mem_filterMap] at hb
    obtain ⟨e, he, hbe⟩ := hb
    cases e with
    | sent b' =>
      simp only [Option.some.injEq] at hbe
      subst hbe
      exact (reachable_inv h).noneStopped (by simp [hw]) b' he
    | _ => simp at hbe

/-- An answer. -/
def demoResponse : TrackerResponse := ⟨none, 1800, none, some (ascii "id1"), 5, 1, [⟨⟨⟨1, 2, 3, 4⟩, 6881⟩⟩]⟩

/-- A task as started for two pieces of 4 bytes. -/
def demoStart : TrackerTask where
  pieceCount := 2
  pieceLength := 4
  announce := { demoAnnounce with left := 8, downloaded := 0, trackerId := none }
  phase := .calling
  log := [.loaded 0]

theorem demoStart_start : TrackerTask.start demoAnnounce.trackerUrl demoAnnounce.infoHash demoAnnounce.peerId 2 4 0
    6887 = .ok demoStart := rfl

/-- Evaluation of a concrete history. -/
theorem demo_exists (is : List TrackerInput) (P : TrackerTask → Prop)
    (h : match demoStart.run is with
      | .ok t => P t
      | _ => False) : ∃ t, t.Reachable ∧ demoStart.run is = .ok t ∧ P t := by
  cases hr : demoStart.run is with
  | ok t =>
    rw [hr] at h
    exact ⟨t, ⟨_, _, _, _, _, _, _, is, demoStart, demoStart_start, hr⟩, rfl, h⟩
  | err => rw [hr] at h; exact h.elim
  | panic => rw [hr] at h; exact h.elim

/-- A history in which the first request fails, the second is answered, and a third follows after the interval:
two 'started', one regular announce carrying the tracker id. -/
example : ∃ t, t.Reachable ∧ demoStart.run [.sends, .fails, .retryTimer, .sends, .answers demoResponse,
      .intervalTimer 1, .sends, .answers demoResponse] = .ok t ∧ t.phase = .waiting 1800 ∧
      (sentAnnounces t.log).map (·.event) = [some .started, some .started, none] ∧
      (sentAnnounces t.log).map (·.trackerId) = [none, none, some (ascii "id1")] ∧
      (sentAnnounces t.log).map (·.left) = [8, 8, 4] :=
  demo_exists _ (fun t => t.phase = .waiting 1800 ∧
      (sentAnnounces t.log).map (·.event) = [some .started, some .started, none] ∧
      (sentAnnounces t.log).map (·.trackerId) = [none, none, some (ascii "id1")] ∧
      (sentAnnounces t.log).map (·.left) = [8, 8, 4]) ⟨rfl, rfl, rfl, rfl⟩

/-- C46 fails: a tracker that was told 'started' and answered is not told 'stopped' if shutdown comes while the
next request is under way: the announces sent are 'started' and a regular one. -/
theorem C46_stopped_violated : ∃ t, t.Reachable ∧
    demoStart.run [.sends, .answers demoResponse, .intervalTimer 0, .sends, .shutdown 0] = .ok t ∧
    t.phase = .exited ∧ (sentAnnounces t.log).map (·.event) = [some .started, none] :=
  demo_exists _ (fun t => t.phase = .exited ∧ (sentAnnounces t.log).map (·.event) = [some .started, none]) ⟨rfl, rfl⟩

/-- C46 fails: likewise if the completion channel is closed. -/
theorem C46_channel_violated : ∃ t, t.Reachable ∧
    demoStart.run [.sends, .answers demoResponse, .completionClosed, .shutdown 0] = .ok t ∧
    t.phase = .exited ∧ (sentAnnounces t.log).map (·.event) = [some .started] :=
  demo_exists _ (fun t => t.phase = .exited ∧ (sentAnnounces t.log).map (·.event) = [some .started]) ⟨rfl, rfl⟩

/-! ## C47 -/

/-- C47: every announce carries the first tracker id the tracker has supplied so far, none if there is none. -/
theorem C47_tracker_id (t : TrackerTask) (h : t.Reachable) :
    EverySent t.log fun pre a => a.trackerId = firstTrackerId pre :=
  fun pre a post hs => ((reachable_inv h).sent pre a post hs).trackerId

/-! ## C48 -/

theorem missing_exact (total length : Nat) (have_ : Nat → Bool) (n : Nat) (h : n * length ≤ total) :
    missingBytes total length have_ n = (n - countHave have_ n) * length ∧ countHave have_ n ≤ n := by
  induction n with
  | zero => simp [missingBytes, countHave]
  | succ n ih =>
    have hn : n * length ≤ total := by rw [Nat.succ_mul] at h; omega
    obtain ⟨h1, h2⟩ := ih hn
    simp only [missingBytes, countHave]
    cases have_ n with
    | true =>
      simp only [if_true, Nat.add_zero]
      rw [h1]
      exact ⟨by congr 1; omega, by omega⟩
    | false =>
      simp only [Bool.false_eq_true, if_false, Nat.add_zero]
      have : pieceBytes total length n = length := by
        unfold pieceBytes; rw [Nat.succ_mul] at h; omega
      rw [h1, this]
      refine ⟨?_, by omega⟩
      have : n + 1 - countHave have_ n = (n - countHave have_ n) + 1 := by omega
      rw [this, Nat.succ_mul]

/-- C48, the part that holds: if the torrent is a whole number of pieces long and the counter last read gives the
number of pieces present, the announced `left` is the number of bytes missing; the counter is read anew after
every answer. Missing: torrents with a short last piece (`C48_left_violated`); that the counter is kept up to
date is not so in the repository (nothing increments it), see DESIGN.md. -/
theorem C48_left_partial (t : TrackerTask) (h : t.Reachable) (have_ : Nat → Bool) :
    EverySent t.log fun pre a =>
      (lastProgress pre = some (countHave have_ t.pieceCount) →
        a.left = missingBytes (t.pieceCount * t.pieceLength) t.pieceLength have_ t.pieceCount) ∧
      (∀ p r m, pre = p ++ .answered r :: m → ∃ n, .loaded n ∈ m) := by
  intro pre a post hs
  have hq := (reachable_inv h).sent pre a post hs
  refine ⟨?_, hq.fresh⟩
  intro hl
  obtain ⟨n, h1, _, h3⟩ := hq.left
  rw [hl] at h1
  cases h1
  rw [h3, (missing_exact _ _ _ _ (Nat.le_refl _)).1]

/-- C48 fails: 5 bytes in pieces of 4, none present. The announce says 8 bytes are left. -/
theorem C48_left_violated : ∃ t, t.Reachable ∧ demoStart.run [.sends] = .ok t ∧ t.pieceCount = 2 ∧
    t.pieceLength = 4 ∧ (sentAnnounces t.log).map (·.left) = [8] ∧ missingBytes 5 4 (fun _ => false) 2 = 5 :=
  demo_exists _ (fun t => t.pieceCount = 2 ∧ t.pieceLength = 4 ∧ (sentAnnounces t.log).map (·.left) = [8] ∧
    missingBytes 5 4 (fun _ => false) 2 = 5) ⟨rfl, rfl, rfl, rfl⟩

/-! ## C88 -/

/-- C88: after a failed request the next one follows only after a pause of 64 seconds, and a regular announce
follows only after a pause of the interval the tracker last asked for. -/
theorem C88_pacing (t : TrackerTask) (h : t.Reachable) :
    EverySent t.log fun pre a =>
      (∀ p m, pre = p ++ .failed :: m → .slept 64 ∈ m) ∧
      (∀ p r m, pre = p ++ .answered r :: m → ¬ Answered m → a.event = none → .slept r.interval ∈ m) :=
  fun pre a post hs => ⟨((reachable_inv h).sent pre a post hs).backoff, ((reachable_inv h).sent pre a post hs).pace⟩

/-! ## C89 -/

/-- C89: every answer's peers are handed to the table of known peers right away. -/
theorem C89_peers_found (t : TrackerTask) (h : t.Reachable) (p m : List TrackerEvent) (r : TrackerResponse)
    (hs : t.log = p ++ .answered r :: m) : ∃ m', m = .found r.peers :: m' :=
  (reachable_inv h).found p r m hs

/-! ## The hypotheses can be met -/

/-- The hypotheses of `C45_repeated`, `C88_pacing` and `C45_started`: a first request fails and is sent again. -/
example : ∃ t, t.Reachable ∧ demoStart.run [.sends, .fails, .retryTimer, .sends] = .ok t ∧
    ∃ p m post b a, t.log = p ++ .sent b :: m ++ .sent a :: post ∧ ¬ Answered m ∧ TrackerEvent.failed ∈ m := by
  refine demo_exists _ (fun t => ∃ p m post b a, t.log = p ++ .sent b :: m ++ .sent a :: post ∧ ¬ Answered m ∧ TrackerEvent.failed ∈ m) ?_
  exact ⟨[.loaded 0], [.failed, .slept 64], [], demoStart.announce, demoStart.announce, rfl, by simp [Answered], by simp⟩

/-- The hypotheses of `C45_stopped_last`: the program is ended while the task is pausing after an answer. -/
example : ∃ t, t.Reachable ∧ demoStart.run [.sends, .answers demoResponse, .shutdown 1] = .ok t ∧
    ∃ p a post, t.log = p ++ .sent a :: post ∧ a.event = some .stopped := by
  refine demo_exists _ (fun t => ∃ p a post, t.log = p ++ .sent a :: post ∧ a.event = some .stopped) ?_
  exact ⟨[.loaded 0, .sent demoStart.announce, .answered demoResponse, .found demoResponse.peers, .loaded 1],
    { demoStart.announce with trackerId := some (ascii "id1"), event := some .stopped, left := 4 }, [], rfl, rfl⟩

/-- The hypotheses of `C46_stopped_partial` and of `C89_peers_found`: an answer has come and the task is pausing. -/
example : ∃ t, t.Reachable ∧ demoStart.run [.sends, .answers demoResponse] = .ok t ∧ t.phase = .waiting 1800 ∧
    1 ≤ t.pieceCount ∧ t.pieceCount * t.pieceLength < 2 ^ 64 ∧ ∃ p m, t.log = p ++ .answered demoResponse :: m := by
  refine demo_exists _ (fun t => t.phase = .waiting 1800 ∧ 1 ≤ t.pieceCount ∧ t.pieceCount * t.pieceLength < 2 ^ 64 ∧
    ∃ p m, t.log = p ++ .answered demoResponse :: m) ?_
  exact ⟨rfl, by decide, by decide, [.loaded 0, .sent demoStart.announce], _, rfl⟩

/-- The hypotheses of `C48_left_partial` and of `C47_tracker_id`: one of two pieces is present when the second announce
is sent. -/
example : ∃ t, t.Reachable ∧ demoStart.run [.sends, .answers demoResponse, .intervalTimer 1, .sends] = .ok t ∧
    ∃ pre a post, t.log = pre ++ .sent a :: post ∧ lastProgress pre = some (countHave (fun i => i == 0) t.pieceCount) ∧
      a.left = 4 ∧ firstTrackerId pre = some (ascii "id1") := by
  refine demo_exists _ (fun t => ∃ pre a post, t.log = pre ++ .sent a :: post ∧
      lastProgress pre = some (countHave (fun i => i == 0) t.pieceCount) ∧
      a.left = 4 ∧ firstTrackerId pre = some (ascii "id1")) ?_
  exact ⟨_, _, [], rfl, rfl, rfl, rfl⟩

end Nargun
