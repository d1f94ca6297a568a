import Verif.Props.ProgramAnnounce

/-! # What the trackers are told: C127 -/

namespace Nargun.Program

open Nargun Dht Krpc Spec

variable {w : World} {u : Setup} {s s' s0 s1 : State} {es es' : List Event} {e : Event}

/-- An announce of a client that has nothing. -/
structure Nothing (u : Setup) (w : World) (i : Nat) (a : Announce) : Prop where
  url : u.urls[i]? = some a.trackerUrl
  infoHash : a.infoHash = u.infoHash
  peerId : a.peerId = u.peerId
  port : a.port = w.port
  left : a.left = u.pieces.length * u.pieceLength
  downloaded : a.downloaded = 0
  uploaded : a.uploaded = 0
  event : a.event ≠ some .completed

/-- The inputs the task of a tracker gets in this program. -/
def Given : TrackerInput → Prop
  | .completed _ => False
  | .completionClosed => False
  | .intervalTimer n => n = 0
  | .shutdown n => n = 0
  | _ => True

/-- The invariant of the task of a tracker in this program. -/
structure TellInv (u : Setup) (w : World) (i : Nat) (t : TrackerTask) : Prop where
  count : t.pieceCount = u.pieces.length
  length : t.pieceLength = u.pieceLength
  announce : Nothing u w i t.announce
  sent : ∀ a ∈ sentAnnounces t.log, Nothing u w i a

theorem leftBytes_zero {c l n : Nat} (h : leftBytes c 0 l = .ok n) : n = c * l := by
  simp only [leftBytes, usub, Nat.zero_le, if_true, Res.ok_bind, Nat.sub_zero] at h
  split at h
  · exact (Res.ok.inj h).symm
  · cases h

theorem TellInv.step {i : Nat} {t t' : TrackerTask} {x : TrackerInput} (h : TellInv u w i t) (hx : Given x)
    (hs : t.step x = .ok t') : TellInv u w i t' := by
  have hsent : ∀ (l : List TrackerEvent) (y : TrackerEvent), sentAnnounces (l ++ [y]) =
      sentAnnounces l ++ sentAnnounces [y] := fun l y => List.filterMap_append
  have again : ∀ {t1 : TrackerTask} {ev : Option AnnounceEvent}, TellInv u w i t1 → ev ≠ some .completed →
      t1.again ev 0 = .ok t' → TellInv u w i t' := by
    intro t1 ev h1 hev ha
    simp only [TrackerTask.again] at ha
    obtain ⟨left, hl, ha⟩ := Res.bind_eq_ok.mp ha
    cases ha
    have hl := leftBytes_zero hl
    rw [h1.count, h1.length] at hl
    refine ⟨h1.count, h1.length, ⟨h1.announce.url, h1.announce.infoHash, h1.announce.peerId, h1.announce.port, hl,
      h1.announce.downloaded, h1.announce.uploaded, hev⟩, ?_⟩
    intro a ha
    simp only at ha
    rw [hsent] at ha
    exact h1.sent a (by simpa [sentAnnounces] using ha)
  have quiet : ∀ (p : TrackerPhase) (y : TrackerEvent), (∀ a, y ≠ .sent a) →
      TellInv u w i { t with phase := p, log := t.log ++ [y] } := by
    intro p y hy
    refine ⟨h.count, h.length, h.announce, ?_⟩
    intro a ha
    simp only at ha
    rw [hsent] at ha
    rcases List.mem_append.mp ha with ha | ha
    · exact h.sent a ha
    · obtain ⟨z, hz, he⟩ := List.mem_filterMap.mp ha
      rw [List.mem_singleton] at hz
      subst hz
      cases z with
      | sent b => exact absurd rfl (hy b)
      | _ => cases he
  unfold TrackerTask.step at hs
  split at hs
  · cases hs
    refine ⟨h.count, h.length, h.announce, ?_⟩
    intro a ha
    simp only at ha
    rw [hsent] at ha
    rcases List.mem_append.mp ha with ha | ha
    · exact h.sent a ha
    · simp only [sentAnnounces, List.filterMap_cons, List.filterMap_nil, List.mem_singleton] at ha
      subst ha
      exact h.announce
  · cases hs; exact quiet _ _ (by simp)
  · cases hs; exact ⟨h.count, h.length, h.announce, h.sent⟩
  · next r _ =>
    cases hs
    refine ⟨h.count, h.length, ?_, ?_⟩
    · simp only
      split
      · exact ⟨h.announce.url, h.announce.infoHash, h.announce.peerId, h.announce.port, h.announce.left,
          h.announce.downloaded, h.announce.uploaded, h.announce.event⟩
      · exact h.announce
    · intro a ha
      exact h.sent a (by simpa [sentAnnounces] using ha)
  · cases hs; exact quiet _ _ (by simp)
  · cases hs; exact ⟨h.count, h.length, h.announce, h.sent⟩
  · cases hs; exact quiet _ _ (by simp)
  · cases hs; exact ⟨h.count, h.length, h.announce, h.sent⟩
  · next pieces _ =>
    have hx : pieces = 0 := hx
    subst hx
    obtain ⟨left, hl, hs⟩ := Res.bind_eq_ok.mp hs
    cases hs
    have hl := leftBytes_zero hl
    rw [h.count, h.length] at hl
    have hn : Nothing u w i { t.announce with event := some .stopped, left := left } :=
      ⟨h.announce.url, h.announce.infoHash, h.announce.peerId, h.announce.port, hl,
        h.announce.downloaded, h.announce.uploaded, by simp⟩
    refine ⟨h.count, h.length, hn, ?_⟩
    intro a ha
    have ha : a ∈ sentAnnounces t.log ∨ a = { t.announce with event := some .stopped, left := left } := by
      simpa [sentAnnounces] using ha
    rcases ha with ha | rfl
    · exact h.sent a ha
    · exact hn
  · next secs pieces _ =>
    have hx : pieces = 0 := hx
    subst hx
    exact again (t1 := { t with log := t.log ++ [.slept secs] }) (quiet t.phase (.slept secs) (by simp)) (by simp) hs
  · exact absurd hx id
  · exact absurd hx id
  · cases hs; exact h

theorem inputs_given (h : Run w s0 es s) (i : Nat) : ∀ x ∈ trackerInputs i es, Given x := by
  intro x hx
  obtain ⟨ev, hev, he⟩ := List.mem_filterMap.mp hx
  cases ev with
  | answered k r => simp only at he; split at he <;> cases he; trivial
  | trackerNotices k => simp only at he; split at he <;> cases he; rfl
  | tracker k y =>
    simp only at he
    split at he
    · cases he
      obtain ⟨l1, l2, rfl⟩ := List.append_of_mem hev
      clear hx
      suffices ∀ {es s}, Run w s0 es s → .tracker k x ∈ es → Given x from this h (by simp)
      intro es s h hm
      induction h with
      | nil => simp at hm
      | snoc _ hs ih =>
        rcases List.mem_append.mp hm with hm | hm
        · exact ih hm
        · rw [List.mem_singleton] at hm
          subst hm
          cases hs.2 with
          | tracker _ ho _ => cases x <;> first | exact ho | trivial
    · cases he
  | _ => cases he

theorem tell_inv (h0 : Started w u s0) (h : Run w s0 es s) {i : Nat} {t : TrackerTask} (ht : s.trackers[i]? = some t) :
    TellInv u w i t := by
  obtain ⟨t0, ht0, hr⟩ := run_tracker h ht
  have hstart : TellInv u w i t0 := by
    have h1 := congrArg (fun l => l[i]?) h0.trackers
    simp only [List.getElem?_map, ht0, Option.map_some] at h1
    obtain ⟨url, hu, h1⟩ := Option.map_eq_some_iff.mp h1
    simp only [TrackerTask.start] at h1
    obtain ⟨left, hl, h1⟩ := Res.bind_eq_ok.mp h1
    have hl := leftBytes_zero hl
    have h1 := Res.ok.inj h1
    subst h1
    exact ⟨rfl, rfl, ⟨hu, rfl, rfl, rfl, hl, rfl, rfl, by simp⟩, by simp [sentAnnounces]⟩
  have hg := inputs_given h i
  generalize trackerInputs i es = is at hr hg
  clear ht0 ht h
  induction is generalizing t0 with
  | nil => cases hr; exact hstart
  | cons x xs ih =>
    simp only [TrackerTask.run] at hr
    obtain ⟨t1, h1, h2⟩ := Res.bind_eq_ok.mp hr
    exact ih t1 (hstart.step (hg x (by simp)) h1) h2 fun y hy => hg y (by simp [hy])

/-- C127, partial: every announce to a tracker goes to the address of that tracker in the torrent file and is for this
torrent, with the peer id and the TCP port of this program. -/
theorem C127_identity_partial (w : World) (u : Setup) (s0 s : State) (es : List Event) (h0 : Started w u s0)
    (h : Run w s0 es s) (i : Nat) (t : TrackerTask) (ht : s.trackers[i]? = some t) (a : Announce)
    (ha : a ∈ sentAnnounces t.log) :
    u.urls[i]? = some a.trackerUrl ∧ a.infoHash = u.infoHash ∧ a.peerId = u.peerId ∧ a.port = w.port :=
  let n := (tell_inv h0 h ht).sent a ha
  ⟨n.url, n.infoHash, n.peerId, n.port⟩

/-- C127, violated: whatever is downloaded, every announce to every tracker says that everything is missing and nothing was
downloaded, and none says that the download is complete. -/
theorem C127_progress_violated (w : World) (u : Setup) (s0 s : State) (es : List Event) (h0 : Started w u s0)
    (h : Run w s0 es s) (i : Nat) (t : TrackerTask) (ht : s.trackers[i]? = some t) (a : Announce)
    (ha : a ∈ sentAnnounces t.log) :
    a.left = u.pieces.length * u.pieceLength ∧ a.downloaded = 0 ∧ a.event ≠ some .completed :=
  let n := (tell_inv h0 h ht).sent a ha
  ⟨n.left, n.downloaded, n.event⟩

/-- A torrent of one piece with one tracker. -/
def onePiece : Setup := { demoSetup with pieces := [Swarm.hash1] }

/-- The tracker names A; the one piece of the torrent is downloaded from A; then the tracker is told again. -/
def downloads : List Event := joinsA ++ [
  .torrent (.read peerA (wire (.bitfield [0x80]) ++ wire .unchoke)), .torrent (.parsed peerA (.bitfield [0x80])),
  .torrent (.handed peerA (.bitfield [0x80])), .torrent (.parsed peerA .unchoke), .torrent (.handed peerA .unchoke),
  .torrent (.parsedAll peerA), .torrent (.man (.msg peerA (.bitfield [0x80]))), .torrent (.man (.msg peerA .unchoke)),
  .torrent (.man (.tick [])), .torrent (.choose peerA 0 Swarm.hash1), .torrent (.command peerA 0 Swarm.hash1),
  .torrent (.man (.start peerA 0 Swarm.hash1 true)), .torrent (.dl peerA (.start Swarm.hash1 0)),
  .torrent (.dl peerA (.take [.new 0 0])), .torrent (.dl peerA (.request (.new 0 0) ⟨0#32, 0#32, 16384#32⟩)),
  .torrent (.dl peerA .loop), .torrent (.wrote peerA (.request ⟨0#32, 0#32, 16384#32⟩)),
  .torrent (.read peerA (wire (.piece ⟨0#32, 0#32, [7, 8, 9]⟩))),
  .torrent (.parsed peerA (.piece ⟨0#32, 0#32, [7, 8, 9]⟩)), .torrent (.handed peerA (.piece ⟨0#32, 0#32, [7, 8, 9]⟩)),
  .torrent (.dl peerA (.block ⟨0#32, 0#32, [7, 8, 9]⟩ (.finished 0 [[7, 8, 9]]))),
  .torrent (.reported peerA 0 [[7, 8, 9]]), .tracker 0 (.intervalTimer 0), .tracker 0 .sends]

/-- The hypotheses of `C127_progress_violated` are met: all pieces of the torrent have been downloaded, and the tracker has
been told since then; the announces say that 3 bytes are left. -/
example : demo { demoWorld with cfg := Swarm.repaired } onePiece downloads (fun s =>
      s.trackers.map fun t => (sentAnnounces t.log).map fun a => (a.left, a.downloaded, a.event)) =
    some [[(3, 0, some .started), (3, 0, none)]] ∧
    (allReported (torrentEvents downloads)).length = onePiece.pieces.length := by decide +kernel

end Nargun.Program
