import Verif.Props.SwarmLive
import Verif.Lemmas.NoErr
import Verif.Spec.FairTorrent
import Verif.Lemmas.Program

/-! # What the tasks on the torrent side can do, and what it leads to -/

set_option linter.unusedSimpArgs false

namespace Nargun.Swarm

open Nargun Spec
open Nargun.Program (OwnTorrent)

variable {c : Cfg} {a b : State} {x : Event}

/-! ## The manager -/

/-- The manager waits for something to happen, `torrent_manager.rs:120-126`. -/
def State.Selects (s : State) : Prop := s.man = .loop ∧ s.tm.slots = 0

/-- What is left of the manager's turn. -/
def manRank (s : State) : Nat :=
  3 * s.tm.slots + match s.man with | .loop => 2 | .sending _ _ _ => 1 | _ => 0

theorem start_keeps {s t : TM} {i : Nat} {q : Peer} {r : Res Unit} {acc : Bool}
    (h : s.startDownloadingPiece i q r = .ok (t, acc)) : t.slots = s.slots := by
  simp only [TM.startDownloadingPiece] at h
  split at h
  · obtain ⟨t', h1, h⟩ := Res.bind_eq_ok.mp h
    cases h
    simp only [TM.markPieceAsOngoing] at h1
    obtain ⟨_, _, h1⟩ := Res.bind_eq_ok.mp h1
    obtain ⟨⟨_, _⟩, _, h1⟩ := Res.bind_eq_ok.mp h1
    obtain ⟨⟨_, _⟩, _, h1⟩ := Res.bind_eq_ok.mp h1
    cases h1
    rfl
  · cases h; rfl
  · cases h

theorem man_rank (h : Step c a x b) (hb : b.man ≠ .dead) (hs : ¬ a.Selects) :
    manRank b ≤ manRank a ∧ (ManagerWorks (.torrent x) → manRank b < manRank a) := by
  cases h with
  | shared ht => cases ht; exact ⟨Nat.le_refl _, fun h => absurd h id⟩
  | reorder _ ht => cases ht; exact ⟨Nat.le_refl _, fun h => absurd h id⟩
  | tick h1 ht => cases ht with | tick h2 => exact absurd ⟨h1, h2⟩ hs
  | nothing h1 ht => cases ht with | nothing h2 => simp only [manRank, h1, h2]; omega
  | choose h1 h2 => simp only [manRank, h1, h2]; omega
  | refused h1 _ ht =>
    cases ht with | start h2 => simp only [manRank, h1, h2]; omega
  | put h1 => simp only [manRank, h1, setLink_tm]; omega
  | putFails h1 _ h2 => simp only [manRank, h1, h2]; omega
  | add h1 _ h2 => simp only [manRank, h1, h2]; omega
  | msg h1 _ ht => cases ht with | msg h2 => exact absurd ⟨h1, h2⟩ hs
  | addPoisoned | addPanics | msgPanics | tickPanics | choosePanics => exact absurd rfl hb
  | _ => exact ⟨Nat.le_refl _, fun h => absurd h id⟩

/-- The manager can go on unless it waits for room in the queue of a downloader. -/
theorem man_works (hw : Waiting a) (hd : a.man ≠ .dead) (hs : ¬ a.Selects)
    (hroom : ∀ q i h, a.man = .sending q i h → (a.links q).dlAlive = false ∨ (a.links q).commands.length < 32) :
    ∃ x b, OwnTorrent x ∧ ManagerWorks (.torrent x) ∧ Step c a x b := by
  cases hm : a.man with
  | dead => exact absurd hm hd
  | loop =>
    have hk : a.tm.slots ≠ 0 := fun h => hs ⟨hm, h⟩
    obtain ⟨k, hk⟩ := Nat.exists_eq_succ_of_ne_zero hk
    cases hsel : a.tm.selectPiece with
    | err => exact absurd hsel (TM.selectPiece_ne_err _)
    | panic => exact ⟨.manDies, _, trivial, trivial, .choosePanics hm hk hsel⟩
    | ok o =>
      cases o with
      | none => exact ⟨.man .nothing, _, trivial, trivial, .nothing hm (.nothing hk hsel)⟩
      | some y =>
        obtain ⟨q, i, h⟩ := y
        by_cases hq : q ∈ a.tm.connection.peers
        · exact ⟨.choose q i h, _, trivial, trivial, .choose hm hk hsel hq⟩
        · refine ⟨.man (.start q i h false), _, trivial, trivial,
            .refused hm hq (.start (sent := .ok ()) (s' := a.tm) hk hsel ?_)⟩
          simp only [TM.startDownloadingPiece, Connection.downloadPiece]
          rw [if_neg hq]
  | sending q i h =>
    obtain ⟨w1, w2, w3⟩ := hw q i h (.inl hm)
    cases hal : (a.links q).dlAlive with
    | true =>
      rcases hroom q i h hm with h' | h'
      · rw [hal] at h'; cases h'
      · exact ⟨.command q i h, _, trivial, trivial, .put hm hal h'⟩
    | false =>
      obtain ⟨k, hk⟩ := Nat.exists_eq_succ_of_ne_zero (Nat.pos_iff_ne_zero.mp w3)
      refine ⟨.man (.start q i h false), _, trivial, trivial, .putFails (k := k) (tm' := a.tm) hm hal hk ?_⟩
      simp only [TM.startDownloadingPiece, Connection.downloadPiece]
      rw [if_pos w2]
  | adding q i h =>
    obtain ⟨w1, w2, w3⟩ := hw q i h (.inr hm)
    obtain ⟨k, hk⟩ := Nat.exists_eq_succ_of_ne_zero (Nat.pos_iff_ne_zero.mp w3)
    cases hp : a.poisoned with
    | true => exact ⟨.manDies, _, trivial, trivial, .addPoisoned hm hp⟩
    | false =>
      have he : a.tm.startDownloadingPiece i q (.ok ()) = (do
          let s' ← a.tm.markPieceAsOngoing q i
          .ok (s', true)) := by
        simp only [TM.startDownloadingPiece, Connection.downloadPiece]
        rw [if_pos w2]
      cases hmk : a.tm.markPieceAsOngoing q i with
      | err => exact absurd hmk (TM.markPieceAsOngoing_ne_err _ _ _)
      | panic => exact ⟨.manDies, _, trivial, trivial, .addPanics hm hp (by rw [he, hmk]; rfl)⟩
      | ok t =>
        exact ⟨.man (.start q i h true), _, trivial, trivial, .add (k := k) (tm' := t) hm hp hk (by rw [he, hmk]; rfl)⟩

/-- The manager can take a message whenever it waits and there is one. -/
theorem man_hears (hs : a.Selects) (hi : a.inbox ≠ []) : ∃ x b, OwnTorrent x ∧ ManagerHears (.torrent x) ∧ Step c a x b := by
  cases hin : a.inbox with
  | nil => exact absurd hin hi
  | cons y rest =>
    obtain ⟨q, m⟩ := y
    cases hh : a.tm.handleCommand c.p q m with
    | err => exact absurd hh (TM.handleCommand_ne_err _ _ _ _)
    | panic => exact ⟨.manDies, _, trivial, trivial, .msgPanics hs.1 hs.2 hin hh⟩
    | ok t => exact ⟨.man (.msg q m), _, trivial, trivial, .msg hs.1 hin (.msg hs.2 hh)⟩

/-- What is in the queue of the manager stays there, in order, until it is taken. -/
theorem box_next (h : Step c a x b) (hb : b.man ≠ .dead) : a.inbox <+: managerHeard [x] ++ b.inbox := by
  cases h with
  | msg _ h => rw [h]; exact ⟨[], by simp [managerHeard]⟩
  | unreachable | handOther | reported => exact ⟨_, rfl⟩
  | addPoisoned | addPanics | msgPanics | tickPanics | choosePanics => exact absurd rfl hb
  | _ => exact List.prefix_refl _

/-- The manager stays as it is while it waits for room in the queue of a downloader. -/
theorem sending_next (h : Step c a x b) {q : Peer} {i : Nat} {hash : ID} (hm : a.man = .sending q i hash) :
    b.man = a.man ∨ ManagerWorks (.torrent x) := by
  cases h with
  | tick h1 | nothing h1 | choose h1 | refused h1 | msg h1 | reorder h1 | add h1 | addPoisoned h1 | addPanics h1 | msgPanics h1
  | tickPanics h1 | choosePanics h1 => rw [hm] at h1; cases h1
  | put | putFails => exact .inr trivial
  | _ => exact .inl rfl

/-! ## The downloaders -/

/-- What is left of the downloader's turn. -/
def dlRank (l : Link) : Nat := match l.dl.pc with | .take => 1 | _ => 0

theorem dl_rank (hw : c.AsWritten) (hi : a.pend.Inv) (hid : ∀ q, Idle (a.links q)) (hp : ∀ q i, (a.links q).dl.pc ≠ .readd i)
    (h : Step c a x b) {q : Peer} (hal : (b.links q).dlAlive = true) (ha : (a.links q).dl.pc ≠ .select)
    (hb : (b.links q).dl.pc ≠ .select) :
    dlRank (b.links q) ≤ dlRank (a.links q) ∧ (DownloaderWorks q (.torrent x) → dlRank (b.links q) < dlRank (a.links q)) := by
  obtain ⟨_, _, n1, n2⟩ := step_idle hw hi hid h
  have key : ∀ {k : Peer} {l : Link} {s' : State}, b.links = (a.setLink k l).links → l.dl = (a.links k).dl →
      dlRank (b.links q) ≤ dlRank (a.links q) := by
    intro k l s' h1 h2
    rw [h1]
    by_cases hk : q = k
    · subst hk; simp [dlRank, h2]
    · simp [hk]
  cases h with
  | @dlStart k h' i rest d' pend' h1 h2 h3 h4 h5 =>
    by_cases hk : q = k
    · subst hk; cases h5 with | start h => exact absurd h ha
    · exact ⟨by simp [hk], fun h => absurd h id⟩
  | @dlBlock k bl out rest d' pend' h1 h2 h3 h4 h5 h6 =>
    by_cases hk : q = k
    · subst hk; cases h6 with | block h => exact absurd h ha
    · exact ⟨by simp [hk], fun h => absurd h id⟩
  | @dlReadd k i d' pend' h1 h2 h3 h4 h5 => cases h5 with | readd h => exact absurd h (hp k i)
  | @dlTake k got d' pend' h1 h2 h3 h4 h5 =>
    by_cases hk : q = k
    · subst hk
      cases h5 with
      | take h ht =>
        obtain ⟨rfl, _⟩ := Dl.take_cases hi ht
        simp [dlRank, h]
    · exact ⟨by simp [hk], fun h => absurd h.symm hk⟩
  | @dlRequest k a' r d' pend' => exact absurd rfl ((n2 _ _ rfl).1 a' r)
  | @dlRequestLost k a' r d' pend' => exact absurd rfl ((n2 _ _ rfl).1 a' r)
  | @dlLoop k d' pend' h1 h2 h3 h5 =>
    by_cases hk : q = k
    · subst hk; cases h5; exact absurd (by simp) hb
    · exact ⟨by simp [hk], fun h => absurd h.symm hk⟩
  | reported => exact absurd rfl (n1 _ _ _)
  | reportedLost => exact absurd rfl (n1 _ _ _)
  | @blockPoisoned k | @blockPanics k | @readdPoisoned k | @takePoisoned k | @takePanics k | @noBlocks k | @noCommands k =>
    by_cases hk : q = k
    · subst hk; simp [Link.dlEnds] at hal
    · exact ⟨by simp [hk], fun h => absurd h.symm hk⟩
  | @put k => exact ⟨key (k := k) (s' := a) rfl rfl, fun h => absurd h id⟩
  | @shakeOk k => exact ⟨key (k := k) (s' := a) rfl rfl, fun h => absurd h id⟩
  | @shakeFails k => exact ⟨key (k := k) (s' := a) rfl rfl, fun h => absurd h id⟩
  | @unreachable k => exact ⟨key (k := k) (s' := a) rfl rfl, fun h => absurd h id⟩
  | @unreachableLost k => exact ⟨key (k := k) (s' := a) rfl rfl, fun h => absurd h id⟩
  | @read k => exact ⟨key (k := k) (s' := a) rfl rfl, fun h => absurd h id⟩
  | @readFails k => exact ⟨key (k := k) (s' := a) rfl rfl, fun h => absurd h id⟩
  | @parsed k => exact ⟨key (k := k) (s' := a) rfl rfl, fun h => absurd h id⟩
  | @parsedAll k => exact ⟨key (k := k) (s' := a) rfl rfl, fun h => absurd h id⟩
  | @conDies k => exact ⟨key (k := k) (s' := a) rfl rfl, fun h => absurd h id⟩
  | @handBlock k => exact ⟨key (k := k) (s' := a) rfl rfl, fun h => absurd h id⟩
  | @handBlockLost k => exact ⟨key (k := k) (s' := a) rfl rfl, fun h => absurd h id⟩
  | @handPort k => exact ⟨key (k := k) (s' := a) rfl rfl, fun h => absurd h id⟩
  | @handPortLost k => exact ⟨key (k := k) (s' := a) rfl rfl, fun h => absurd h id⟩
  | @handOther k => exact ⟨key (k := k) (s' := a) rfl rfl, fun h => absurd h id⟩
  | @handOtherLost k => exact ⟨key (k := k) (s' := a) rfl rfl, fun h => absurd h id⟩
  | @wrote k => exact ⟨key (k := k) (s' := a) rfl rfl, fun h => absurd h id⟩
  | @conLeaves k => exact ⟨key (k := k) (s' := a) rfl rfl, fun h => absurd h id⟩
  | _ => exact ⟨Nat.le_refl _, fun h => absurd h id⟩

/-- A downloader that is not waiting can go on. -/
theorem dl_works (hw : c.AsWritten) (hid : ∀ q, Idle (a.links q)) (hp : ∀ q i, (a.links q).dl.pc ≠ .readd i) {q : Peer}
    (hsp : a.Spawned q) (hal : (a.links q).dlAlive = true) (ha : (a.links q).dl.pc ≠ .select) :
    ∃ x b, OwnTorrent x ∧ DownloaderWorks q (.torrent x) ∧ Step c a x b := by
  obtain ⟨i1, i2, i3⟩ := hid q
  cases hpc : (a.links q).dl.pc with
  | select => exact absurd hpc ha
  | readd i => exact absurd hpc (hp q i)
  | send => exact ⟨.dl q .loop, _, trivial, rfl, .dlLoop hsp hal i3 (pend' := a.pend) (.loop hpc (by rw [i1]; rfl))⟩
  | take =>
    by_cases hpois : a.poisoned = true ∧ (a.links q).dl.counter % (16 / 3) = 0
    · exact ⟨.dlDies q, _, trivial, rfl, .takePoisoned hsp hal i3 hpc hpois.2 hpois.1⟩
    · have hfree : a.poisoned = false ∨ (a.links q).dl.counter % (16 / 3) ≠ 0 := by
        cases hb : a.poisoned with
        | false => exact .inl rfl
        | true => exact .inr fun hc => hpois ⟨hb, hc⟩
      rcases take_not_err (a.links q).dl a.pend 0 16 with ht | ⟨⟨d', pend', got⟩, ht⟩
      · have hnp : a.poisoned = false := by
          rcases hfree with hf | hf
          · exact hf
          · simp only [Dl.take, if_neg hf] at ht; cases ht
        exact ⟨.dlDies q, _, trivial, rfl, .takePanics (now := 0) (cap := 16) hsp hal i3 hpc hnp (by rw [hw q]; exact ht)⟩
      · exact ⟨.dl q (.take got), _, trivial, rfl, .dlTake hsp hal i3 hfree
          (.take (now := 0) (cap := 16) hpc (by rw [hw q]; exact ht))⟩

theorem dl_takes_command (hid : ∀ q, Idle (a.links q)) {q : Peer} (hsp : a.Spawned q) (hal : (a.links q).dlAlive = true)
    (ha : (a.links q).dl.pc = .select) (hne : (a.links q).commands ≠ []) :
    ∃ x b, OwnTorrent x ∧ DownloaderTakesCommand q (.torrent x) ∧ Step c a x b := by
  cases hcs : (a.links q).commands with
  | nil => exact absurd hcs hne
  | cons y rest =>
    exact ⟨.dl q (.start y.1 y.2), _, trivial, rfl, .dlStart hsp hal (hid q).2.2 hcs (pend' := a.pend) (.start ha)⟩

theorem dl_takes_block (hid : ∀ q, Idle (a.links q)) {q : Peer} (hsp : a.Spawned q) (hal : (a.links q).dlAlive = true)
    (ha : (a.links q).dl.pc = .select) (hne : (a.links q).blocks ≠ []) :
    ∃ x b, OwnTorrent x ∧ DownloaderTakesBlock q (.torrent x) ∧ Step c a x b := by
  obtain ⟨i1, i2, i3⟩ := hid q
  cases hcs : (a.links q).blocks with
  | nil => exact absurd hcs hne
  | cons y rest =>
    refine ⟨.dl q (.block y .ignored), _, trivial, rfl, .dlBlock hsp hal i3 hcs (.inr ?_)
      (.block (d' := { (a.links q).dl with pc := .take }) (pend' := a.pend) ha ?_)⟩
    · simp [reachesLock, i1]
    · simp only [Dl.foo, i1]
      split
      · rfl
      · split <;> rfl

theorem command_taken (h : Step c a x b) {q : Peer} (hx : DownloaderTakesCommand q (.torrent x)) :
    (b.links q).commands.length + 1 = (a.links q).commands.length := by
  cases h with
  | @dlStart k h' i rest d' pend' h1 h2 h3 h4 h5 =>
    have : k = q := hx
    subst this
    simp [h4]
  | dlBlock | dlReadd | dlTake | dlRequest | dlRequestLost | dlLoop => exact absurd hx id
  | _ => exact absurd hx id

theorem block_taken (h : Step c a x b) {q : Peer} (hx : DownloaderTakesBlock q (.torrent x)) :
    (b.links q).dlAlive = false ∨
      ((b.links q).blocks.length + 1 = (a.links q).blocks.length ∧ (blocksHeard q [x]).length = 1) := by
  cases h with
  | @dlBlock k bl out rest d' pend' h1 h2 h3 h4 h5 h6 =>
    have : k = q := hx
    subst this
    exact .inr ⟨by simp [h4], by simp [blocksHeard]⟩
  | @blockPoisoned k | @blockPanics k | @readdPoisoned k | @takePoisoned k | @takePanics k | @noBlocks k | @noCommands k =>
    have : k = q := hx
    subst this
    exact .inl (by simp [Link.dlEnds])
  | _ => exact absurd hx id

theorem man_heard (h : Step c a x b) (hx : ManagerHears (.torrent x)) :
    b.man = .dead ∨ (b.inbox.length + 1 = a.inbox.length ∧ (managerHeard [x]).length = 1) := by
  cases h with
  | msg _ h => exact .inr ⟨by rw [h]; rfl, rfl⟩
  | addPoisoned | addPanics | msgPanics | tickPanics | choosePanics => exact .inl rfl
  | _ => exact absurd hx id

theorem dl_dead_next (h : Step c a x b) {q : Peer} (hd : (a.links q).dlAlive = false) : (b.links q).dlAlive = false := by
  have key : ∀ {k : Peer} {l : Link}, b.links = (a.setLink k l).links → (l.dlAlive = false ∨ l.dlAlive = (a.links k).dlAlive) →
      (b.links q).dlAlive = false := by
    intro k l h1 h2
    rw [h1]
    by_cases hk : q = k
    · subst hk; rcases h2 with h2 | h2 <;> simp [h2, hd]
    · simp [hk, hd]
  cases h with
  | put | shakeOk | shakeFails | unreachable | unreachableLost | read | readFails | parsed | parsedAll | conDies | handBlock
  | handBlockLost | handPort | handPortLost | handOther | handOtherLost | wrote | conLeaves | dlStart | dlBlock | dlReadd
  | dlTake | dlRequest | dlRequestLost | dlLoop | reported | reportedLost => exact key rfl (.inr rfl)
  | blockPoisoned | blockPanics | readdPoisoned | takePoisoned | takePanics | noBlocks | noCommands => exact key rfl (.inl rfl)
  | _ => exact hd

/-! ## The connections -/

/-- What is left of the connection's turn. -/
def conRank (l : Link) : Nat := 2 * l.recv.dataLen + match l.con with | .handing _ => 1 | _ => 0

/-- The connection works off what it has read. -/
def Link.Busy (l : Link) : Prop := l.con = .parsing ∨ ∃ m, l.con = .handing m

theorem con_rank (h : Step c a x b) {q : Peer} (ha : (a.links q).Busy) (hb : (b.links q).Busy) :
    conRank (b.links q) ≤ conRank (a.links q) ∧
      (ConnectionParses q (.torrent x) ∨ ConnectionHands q (.torrent x) → conRank (b.links q) < conRank (a.links q)) ∧
      ((b.links q).con = (a.links q).con ∨ ConnectionParses q (.torrent x) ∨ ConnectionHands q (.torrent x)) := by
  have key : ∀ {k : Peer} {l : Link}, b.links = (a.setLink k l).links → l.recv = (a.links k).recv → l.con = (a.links k).con →
      ¬ (ConnectionParses q (.torrent x) ∨ ConnectionHands q (.torrent x)) →
      conRank (b.links q) ≤ conRank (a.links q) ∧
      (ConnectionParses q (.torrent x) ∨ ConnectionHands q (.torrent x) → conRank (b.links q) < conRank (a.links q)) ∧
      ((b.links q).con = (a.links q).con ∨ ConnectionParses q (.torrent x) ∨ ConnectionHands q (.torrent x)) := by
    intro k l h1 h2 h3 h4
    rw [h1]
    by_cases hk : q = k
    · subst hk
      refine ⟨?_, fun h => absurd h h4, .inl (by simp [h3])⟩
      simp only [setLink_links, if_pos, conRank, h2, h3]; exact Nat.le_refl _
    · exact ⟨by simp [hk], fun h => absurd h h4, .inl (by simp [hk])⟩
  have other : ∀ {k : Peer} {l : Link}, b.links = (a.setLink k l).links → q ≠ k →
      (ConnectionParses q (.torrent x) ∨ ConnectionHands q (.torrent x) → k = q) →
      conRank (b.links q) ≤ conRank (a.links q) ∧
      (ConnectionParses q (.torrent x) ∨ ConnectionHands q (.torrent x) → conRank (b.links q) < conRank (a.links q)) ∧
      ((b.links q).con = (a.links q).con ∨ ConnectionParses q (.torrent x) ∨ ConnectionHands q (.torrent x)) := by
    intro k l h1 hk h4
    rw [h1]
    exact ⟨by simp [hk], fun h => absurd (h4 h).symm hk, .inl (by simp [hk])⟩
  have no : ¬ (False ∨ False) := by simp
  cases h with
  | @put k | @dlStart k | @dlBlock k | @dlReadd k | @dlTake k | @dlRequest k | @dlRequestLost k | @dlLoop k | @reported k
  | @reportedLost k | @wrote k | @blockPoisoned k | @blockPanics k | @readdPoisoned k | @takePoisoned k | @takePanics k
  | @noBlocks k | @noCommands k => exact key (k := k) rfl rfl rfl no
  | @shakeOk k _ h | @shakeFails k _ h | @unreachable k _ h | @unreachableLost k _ h | @read k _ _ _ h | @readFails k _ h =>
    by_cases hk : q = k
    · subst hk; rcases ha with ha | ⟨_, ha⟩ <;> (rw [h] at ha; cases ha)
    · exact other (k := k) rfl hk (fun h => absurd h no)
  | @conLeaves k =>
    by_cases hk : q = k
    · subst hk; rcases hb with hb | ⟨_, hb⟩ <;> simp [Link.conEnds] at hb
    · exact other (k := k) rfl hk (fun h => absurd h no)
  | @parsed k m r _ h1 h2 =>
    by_cases hk : q = k
    · subst hk
      have : r.dataLen < (a.links q).recv.dataLen := by
        rcases RecvState.drain_one (a.links q).recv with h | ⟨_, h⟩ | ⟨_, _, h, hl⟩
        · rw [h] at h2; cases h2
        · rw [h] at h2; cases h2
        · rw [h] at h2; cases h2; exact hl
      refine ⟨?_, fun _ => ?_, .inr (.inl rfl)⟩ <;> simp only [setLink_links, if_pos, conRank, h1] <;> omega
    · exact other (k := k) rfl hk (by rintro (h | h); exact h; exact absurd h id)
  | @parsedAll k =>
    by_cases hk : q = k
    · subst hk; rcases hb with hb | ⟨_, hb⟩ <;> simp at hb
    · exact other (k := k) rfl hk (by rintro (h | h); exact h; exact absurd h id)
  | @conDies k =>
    by_cases hk : q = k
    · subst hk; rcases hb with hb | ⟨_, hb⟩ <;> simp [Link.conEnds] at hb
    · exact other (k := k) rfl hk (by rintro (h | h); exact h; exact absurd h id)
  | @handBlock k _ _ h | @handBlockLost k _ _ h | @handPort k _ _ _ h | @handPortLost k _ _ h | @handOther k _ _ _ h
  | @handOtherLost k _ _ _ h =>
    by_cases hk : q = k
    · subst hk
      refine ⟨?_, fun _ => ?_, .inr (.inr rfl)⟩ <;> simp only [setLink_links, if_pos, conRank, h] <;> omega
    · exact other (k := k) rfl hk (by rintro (h | h); exact absurd h id; exact h)
  | _ => exact ⟨Nat.le_refl _, fun h => absurd h no, .inl rfl⟩

theorem con_parses {q : Peer} (hsp : a.Spawned q) (hc : (a.links q).con = .parsing) :
    ∃ x b, OwnTorrent x ∧ ConnectionParses q (.torrent x) ∧ Step c a x b := by
  rcases RecvState.drain_one (a.links q).recv with h | ⟨_, h⟩ | ⟨_, m, h, _⟩
  · exact ⟨.conDies q, _, trivial, rfl, .conDies hsp hc h⟩
  · exact ⟨.parsedAll q, _, trivial, rfl, .parsedAll hsp hc h⟩
  · exact ⟨.parsed q m, _, trivial, rfl, .parsed hsp hc h⟩

/-- A message in hand can be handed over when there is room for it, or nobody to take it. -/
theorem con_hands {q : Peer} {m : Message} (hsp : a.Spawned q) (hc : (a.links q).con = .handing m)
    (hb : (asBlock m).isSome → (a.links q).dlAlive = false ∨ (a.links q).blocks.length < 32)
    (hn : (asNode (q, m)).isSome → a.dhtOpen = false ∨ a.dht.length < 32)
    (hm : forManager m = true → a.man = .dead ∨ a.inbox.length < 32) :
    ∃ x b, OwnTorrent x ∧ ConnectionHands q (.torrent x) ∧ Step c a x b := by
  have toMan : ∀ t, handleMessage q m = [.toPeers q t] → forManager m = true →
      ∃ x b, OwnTorrent x ∧ ConnectionHands q (.torrent x) ∧ Step c a x b := by
    intro t ht hf
    by_cases hd : a.man = .dead
    · exact ⟨.handed q m, _, trivial, rfl, .handOtherLost hsp hc ht hd⟩
    · rcases hm hf with h | h
      · exact absurd h hd
      · exact ⟨.handed q m, _, trivial, rfl, .handOther hsp hc ht hd h⟩
  cases m with
  | piece p =>
    cases hal : (a.links q).dlAlive with
    | false => exact ⟨.handed q _, _, trivial, rfl, .handBlockLost hsp hc hal⟩
    | true =>
      rcases hb rfl with h | h
      · rw [hal] at h; cases h
      · exact ⟨.handed q _, _, trivial, rfl, .handBlock hsp hc hal h⟩
  | port p =>
    cases ho : a.dhtOpen with
    | false => exact ⟨.handed q _, _, trivial, rfl, .handPortLost hsp hc ho⟩
    | true =>
      rcases hn rfl with h | h
      · rw [ho] at h; cases h
      · exact ⟨.handed q _, _, trivial, rfl, .handPort hsp hc ho rfl h⟩
  | _ => exact toMan _ rfl rfl

end Nargun.Swarm
