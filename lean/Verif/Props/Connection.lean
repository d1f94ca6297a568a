import Verif.Model.Connection
import Verif.Props.PendingPieces
import Verif.Props.TorrentManager
import Verif.Lemmas.Lists

/-! # C41–C42: the table of connections and the choke lock -/

namespace Nargun

open Connection

/-! ## C41 -/

/-- What users of the handle can do, and what the tasks of a connection can do by themselves. -/
inductive ConnOp where
  | connect (p : Peer)
  | disconnect (p : Peer)
  /-- the connection could not be made, broke, or was closed by the peer: its tasks end. Nobody touches the table
  (`connection_manager.rs` only reports to the torrent manager). -/
  | taskEnded (p : Peer)

/-- Executes the operations; only the first two act on the table. -/
def Connection.apply (c : Connection) : ConnOp → Connection
  | .connect p => c.connect p
  | .disconnect p => c.disconnect p
  | .taskEnded _ => c

/-- A history. -/
def Connection.run (ops : List ConnOp) : Connection := ops.foldl Connection.apply .new

/-- Specification: the table holds `p` iff the last `connect`/`disconnect` of `p` was `connect`. -/
def Spec.tabled (p : Peer) (ops : List ConnOp) : Bool :=
  ops.foldl (fun b o => match o with
    | .connect q => if q = p then true else b
    | .disconnect q => if q = p then false else b
    | .taskEnded _ => b) false

theorem run_snoc (ops : List ConnOp) (o : ConnOp) : Connection.run (ops ++ [o]) = (Connection.run ops).apply o := by
  simp [Connection.run]

theorem tabled_snoc (p : Peer) (ops : List ConnOp) (o : ConnOp) :
    Spec.tabled p (ops ++ [o]) = (match o with
    | .connect q => if q = p then true else Spec.tabled p ops
    | .disconnect q => if q = p then false else Spec.tabled p ops
    | .taskEnded _ => Spec.tabled p ops) := by
  simp [Spec.tabled]

theorem mem_run (p : Peer) (ops : List ConnOp) : p ∈ (Connection.run ops).peers ↔ Spec.tabled p ops = true := by
  induction ops using snoc_induction with
  | nil => simp [Connection.run, Connection.new, Spec.tabled]
  | snoc ops o ih =>
    rw [run_snoc, tabled_snoc]
    cases o with
    | connect q =>
      simp only [Connection.apply, connect]
      by_cases hq : q = p
      · subst hq
        simp only [if_true, iff_true]
        split
        · assumption
        · simp
      · have hq' : ¬ p = q := fun e => hq e.symm
        simp only [hq, if_false]
        split
        · exact ih
        · simp [hq', ih]
    | disconnect q =>
      simp only [Connection.apply, disconnect]
      by_cases hq : q = p
      · subst hq; simp
      · have hq' : ¬ p = q := fun e => hq e.symm
        simp [hq, hq', ih]
    | taskEnded q => simpa [Connection.apply] using ih

/-- C41, part: in every history, `connect` starts a connection iff the last call for this peer was not `connect`,
i.e. it is idempotent, and after an explicit `disconnect` it connects anew; other peers are not affected. -/
theorem C41_connect_partial (ops : List ConnOp) (p : Peer) :
    (Connection.run (ops ++ [.connect p])).spawned =
      if Spec.tabled p ops then (Connection.run ops).spawned else (Connection.run ops).spawned ++ [p] := by
  rw [run_snoc]
  simp only [Connection.apply, connect]
  by_cases h : p ∈ (Connection.run ops).peers
  · rw [if_pos h, if_pos ((mem_run p ops).mp h)]
  · rw [if_neg h, if_neg (fun h' => h ((mem_run p ops).mpr h'))]

/-- Connecting twice spawns once; after `disconnect` again. -/
example : (Connection.run [.connect peerA, .connect peerA, .connect peerB, .disconnect peerA, .connect peerA]).spawned =
    [peerA, peerB, peerA] := by decide

/-- C41 is false of the program: once a connection has ended by itself, no number of later `connect` calls (with
anything else happening in between, short of an explicit `disconnect`) starts another one. -/
theorem C41_reconnect_violated (ops later : List ConnOp) (p : Peer) (hl : ∀ o ∈ later, o ≠ .disconnect p) :
    (Connection.run (ops ++ [.connect p, .taskEnded p] ++ later)).spawned.count p =
    (Connection.run (ops ++ [.connect p])).spawned.count p := by
  have hin : Spec.tabled p (ops ++ [.connect p, .taskEnded p]) = true := by
    rw [show ops ++ [ConnOp.connect p, .taskEnded p] = (ops ++ [.connect p]) ++ [.taskEnded p] by simp,
      tabled_snoc, tabled_snoc]
    simp
  have hbase : (Connection.run (ops ++ [.connect p, .taskEnded p])).spawned =
      (Connection.run (ops ++ [.connect p])).spawned := by
    rw [show ops ++ [ConnOp.connect p, .taskEnded p] = (ops ++ [.connect p]) ++ [.taskEnded p] by simp, run_snoc]
    rfl
  rw [← hbase]
  suffices h : Spec.tabled p (ops ++ [.connect p, .taskEnded p] ++ later) = true ∧
      (Connection.run (ops ++ [.connect p, .taskEnded p] ++ later)).spawned.count p =
      (Connection.run (ops ++ [.connect p, .taskEnded p])).spawned.count p from h.2
  induction later using snoc_induction with
  | nil => simpa using hin
  | snoc later o ih =>
    obtain ⟨i1, i2⟩ := ih (fun o h => hl o (by simp [h]))
    rw [← List.append_assoc, tabled_snoc, run_snoc]
    cases o with
    | connect q =>
      refine ⟨by simp only [i1, ite_self], ?_⟩
      rw [← i2]
      simp only [Connection.apply, connect]
      split
      · rfl
      · next hn =>
        have : q ≠ p := by rintro rfl; exact hn ((mem_run q _).mpr i1)
        simp [List.count_append, this]
    | disconnect q =>
      have : q ≠ p := by rintro rfl; exact hl (.disconnect q) (by simp) rfl
      exact ⟨by simp only [this, if_false, i1], by rw [← i2]; rfl⟩
    | taskEnded q => exact ⟨i1, by rw [← i2]; rfl⟩

/-- The torrent manager never disconnects: along its histories no peer ever leaves the table, so by the above a
peer that was dropped and is connected to again stays without a connection for good. -/
theorem C41_manager_keeps_violated {p : Profile} {s s' : TM} {es : List TM.Event} (h : TM.Run p s es s') (q : Peer)
    (hq : q ∈ s.connection.peers) : q ∈ s'.connection.peers := by
  induction h with
  | nil => exact hq
  | @snoc s1 s2 es e hr hs ih =>
    have hadd : ∀ (ps : List Peer) (a b : TM), TM.addPeers ps a = .ok b → q ∈ a.connection.peers → q ∈ b.connection.peers := by
      intro ps
      induction ps with
      | nil => intro a b h h'; cases h; exact h'
      | cons r ps ih =>
        intro a b h h'
        simp only [TM.addPeers] at h
        obtain ⟨i, _, h⟩ := Res.bind_eq_ok.mp h
        refine ih _ _ h ?_
        show q ∈ (a.connection.connect r).peers
        simp only [connect]
        split
        · exact h'
        · simp [h']
    cases hs with
    | peers _ => exact ih
    | reorder _ => exact ih
    | nothing _ _ => exact ih
    | @tick _ batch _ ht =>
      simp only [TM.beginTick] at ht
      obtain ⟨⟨s3, b⟩, h1, ht⟩ := Res.bind_eq_ok.mp ht
      simp only at ht
      obtain ⟨k, _, ht⟩ := Res.bind_eq_ok.mp ht
      cases ht
      show q ∈ s3.connection.peers
      simp only [TM.refreshPeerList] at h1
      obtain ⟨f, _, h1⟩ := Res.bind_eq_ok.mp h1
      split at h1
      · cases h1; exact ih
      · obtain ⟨s5, h5, h1⟩ := Res.bind_eq_ok.mp h1
        cases h1
        exact hadd _ _ _ h5 ih
    | @start k peer idx hash sent s' acc hk hsel h1 =>
      have : s'.connection = s1.connection := by
        simp only [TM.startDownloadingPiece] at h1
        split at h1
        · simp only [TM.markPieceAsOngoing] at h1
          obtain ⟨s3, h3, h1⟩ := Res.bind_eq_ok.mp h1
          cases h1
          obtain ⟨i0, _, h3⟩ := Res.bind_eq_ok.mp h3
          obtain ⟨⟨a1, _⟩, _, h3⟩ := Res.bind_eq_ok.mp h3
          obtain ⟨⟨w1, _⟩, _, h3⟩ := Res.bind_eq_ok.mp h3
          cases h3; rfl
        · cases h1; rfl
        · cases h1
      show q ∈ s'.connection.peers
      rw [this]; exact ih
    | msg _ hm => rw [(TM.handle_slots hm).2]; exact ih

/-! ## C42 -/

/-- Specification: the state most recently reported (`choke` before any report). -/
def Spec.lastReport (rs : List ChokingStatus) : ChokingStatus := rs.getLast?.getD .choke

/-- The waiting side, as a history: reports arrive in the queue, and the task calls `wait_if_choking` (a call that
does not return stays suspended; what it has taken from the queue is gone). -/
inductive LockOp where
  | deliver (m : ChokingStatus)
  | wait

/-- Executes one operation. -/
def ChokeLock.apply (l : ChokeLock) : LockOp → ChokeLock
  | .deliver m => l.deliver m
  | .wait => (l.waitIfChoking).1

theorem drain_spec (q : List ChokingStatus) (c : Bool) :
    ChokeLock.drain q c = decide (q.getLast?.getD (if c then .choke else .unchoke) = .choke) := by
  induction q generalizing c with
  | nil => cases c <;> simp [ChokeLock.drain]
  | cons m q ih =>
    have hl : (m :: q).getLast?.getD (if c then ChokingStatus.choke else .unchoke) = q.getLast?.getD m := by
      cases q with
      | nil => rfl
      | cons a q => simp [List.getLast?_cons]
    rw [hl]
    cases m with
    | choke => simpa [ChokeLock.drain] using ih true
    | unchoke => simpa [ChokeLock.drain] using ih false

/-- The reports of a history. -/
def Spec.reports (ops : List LockOp) : List ChokingStatus :=
  ops.filterMap (fun o => match o with
    | .deliver m => some m
    | .wait => none)

theorem lock_inv (ops : List LockOp) : let l := ops.foldl ChokeLock.apply .new
    l.queue.getLast?.getD (if l.choking then .choke else .unchoke) = Spec.lastReport (Spec.reports ops) := by
  induction ops using snoc_induction with
  | nil => rfl
  | snoc ops o ih =>
    simp only [List.foldl_append, List.foldl_cons, List.foldl_nil] at ih ⊢
    cases o with
    | deliver m =>
      simp [ChokeLock.apply, ChokeLock.deliver, Spec.reports, Spec.lastReport]
    | wait =>
      have hr : Spec.reports (ops ++ [.wait]) = Spec.reports ops := by simp [Spec.reports]
      rw [hr, ← ih]
      simp only [ChokeLock.apply, ChokeLock.waitIfChoking, drain_spec, List.getLast?_nil, Option.getD_none]
      generalize (List.getLast? _).getD _ = x
      cases x <;> simp

/-- C42, part: if the reports reached the queue, then after any history of reports and waits a waiting task would
proceed exactly when the last report is `unchoke`. -/
theorem C42_waiter_partial (ops : List LockOp) :
    (ops.foldl ChokeLock.apply .new).waitIfChoking.2 = true ↔ Spec.lastReport (Spec.reports ops) = .unchoke := by
  rw [← lock_inv]
  simp only [ChokeLock.waitIfChoking, drain_spec]
  generalize (List.getLast? _).getD _ = x
  cases x <;> simp

/-- C42 is false of the program: whatever is reported, nothing is delivered, and a waiting task never proceeds. -/
theorem C42_never_unchoked_violated (rs : List ChokingStatus) :
    (rs.foldl ChokeLock.report .new).waitIfChoking.2 = false := by
  have h : ∀ (rs : List ChokingStatus) (l : ChokeLock), rs.foldl ChokeLock.report l = l := by
    intro rs
    induction rs with
    | nil => intro l; rfl
    | cons r rs ih => intro l; rw [List.foldl_cons, ih]; rfl
  simp only [h]
  rfl

/-- The waiting side on a queue of three reports, on two, and on none. -/
example : (ChokeLock.waitIfChoking ⟨[.unchoke, .choke, .unchoke], true⟩).2 = true ∧
    (ChokeLock.waitIfChoking ⟨[.unchoke, .choke], true⟩).2 = false ∧
    (ChokeLock.waitIfChoking ⟨[], true⟩).2 = false ∧
    (ChokeLock.waitIfChoking ⟨[], false⟩).2 = true := by decide

end Nargun
