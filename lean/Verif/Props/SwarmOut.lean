import Verif.Props.SwarmLive

/-! # What leaves the downloaders: C111 and C112, continued -/

namespace Nargun.Swarm

open Nargun Spec

/-- What the downloader of `q` has asked for and completed is written and reported in order. -/
structure OutInv (q : Peer) (es : List Event) (l : Link) : Prop where
  sends : l.con ≠ .ended → requestedOf q es = writtenTo q es ++ l.sends
  written : writtenTo q es <+: requestedOf q es
  report : l.dlAlive = true → completedBy q es = reportedBy q es ++ l.report.toList
  reported : reportedBy q es <+: completedBy q es

theorem requestedOf_snoc (q : Peer) (es : List Event) (e : Event) :
    requestedOf q (es ++ [e]) = requestedOf q es ++ requestedOf q [e] := List.filterMap_append

theorem writtenTo_snoc (q : Peer) (es : List Event) (e : Event) :
    writtenTo q (es ++ [e]) = writtenTo q es ++ writtenTo q [e] := List.filterMap_append

theorem completedBy_snoc (q : Peer) (es : List Event) (e : Event) :
    completedBy q (es ++ [e]) = completedBy q es ++ completedBy q [e] := List.filterMap_append

theorem reportedBy_snoc (q : Peer) (es : List Event) (e : Event) :
    reportedBy q (es ++ [e]) = reportedBy q es ++ reportedBy q [e] := List.filterMap_append

/-- Nothing of it happens in this step. -/
structure Silent (q : Peer) (e : Event) : Prop where
  requested : requestedOf q [e] = []
  written : writtenTo q [e] = []
  completed : completedBy q [e] = []
  reported : reportedBy q [e] = []

theorem OutInv.silent {q : Peer} {es : List Event} {l l' : Link} {e : Event} (h : OutInv q es l) (hs : Silent q e)
    (h1 : l'.con ≠ .ended → l.con ≠ .ended ∧ l'.sends = l.sends)
    (h2 : l'.dlAlive = true → l.dlAlive = true ∧ l'.report = l.report) : OutInv q (es ++ [e]) l' := by
  constructor <;> simp only [requestedOf_snoc, writtenTo_snoc, completedBy_snoc, reportedBy_snoc, hs.requested, hs.written,
    hs.completed, hs.reported, List.append_nil]
  · intro hc; rw [(h1 hc).2]; exact h.sends (h1 hc).1
  · exact h.written
  · intro hd; rw [(h2 hd).2]; exact h.report (h2 hd).1
  · exact h.reported

theorem silent_other {q k : Peer} (hk : k ≠ q) {x : Dl.Event} : Silent q (.dl k x) := by
  constructor
  · cases x <;> simp [requestedOf, hk]
  · simp [writtenTo]
  · cases x with
    | block b o => cases o <;> simp [completedBy, hk]
    | _ => simp [completedBy]
  · simp [reportedBy]

theorem step_out {c : Cfg} {s s' : State} {es : List Event} {e : Event} (q : Peer) (h : OutInv q es (s.links q))
    (hs : Step c s e s') : OutInv q (es ++ [e]) (s'.links q) := by
  have same : Silent q e → (s'.links q).con = (s.links q).con → (s'.links q).sends = (s.links q).sends →
      (s'.links q).dlAlive = (s.links q).dlAlive → (s'.links q).report = (s.links q).report →
      OutInv q (es ++ [e]) (s'.links q) := by
    intro h0 h1 h2 h3 h4
    exact h.silent h0 (fun hc => ⟨by rwa [← h1], h2⟩) (fun hd => ⟨by rwa [← h3], h4⟩)
  have off : ∀ (k : Peer) (l : Link), k ≠ q → Silent q e → s'.links = (s.setLink k l).links →
      OutInv q (es ++ [e]) (s'.links q) := by
    intro k l hk h0 hl
    have hl' : s'.links q = s.links q := by rw [hl]; simp [Ne.symm hk]
    exact same h0 (by rw [hl']) (by rw [hl']) (by rw [hl']) (by rw [hl'])
  have upd : ∀ (k : Peer) (l : Link), Silent q e → s'.links = (s.setLink k l).links →
      (l.con ≠ .ended → (s.links k).con ≠ .ended ∧ l.sends = (s.links k).sends) →
      (l.dlAlive = true → (s.links k).dlAlive = true ∧ l.report = (s.links k).report) →
      OutInv q (es ++ [e]) (s'.links q) := by
    intro k l h0 hl h1 h2
    by_cases hk : k = q
    · subst hk
      have hl' : s'.links k = l := by rw [hl]; simp
      rw [hl']
      exact h.silent h0 h1 h2
    · exact off k l hk h0 hl
  have quiet : (∀ k m, e ≠ .wrote k m) → (∀ k x, e ≠ .dl k x) → (∀ k i bs, e ≠ .reported k i bs) → Silent q e := by
    intro h1 h2 h3
    cases e with
    | wrote k m => exact absurd rfl (h1 k m)
    | dl k x => exact absurd rfl (h2 k x)
    | reported k i bs => exact absurd rfl (h3 k i bs)
    | _ => exact ⟨rfl, rfl, rfl, rfl⟩
  cases hs with
  | @wrote k m rest h1 h2 h3 =>
    by_cases hk : k = q
    · subst hk
      have hne : (s.links k).con ≠ .ended := by intro he; simp only [Link.Up, he] at h2; simp at h2
      have hi := h.sends hne
      have e1 : requestedOf k [Event.wrote k m] = [] := rfl
      have e2 : writtenTo k [Event.wrote k m] = [m] := by simp [writtenTo]
      have e3 : completedBy k [Event.wrote k m] = [] := rfl
      have e4 : reportedBy k [Event.wrote k m] = [] := rfl
      constructor <;> simp only [requestedOf_snoc, writtenTo_snoc, completedBy_snoc, reportedBy_snoc, e1, e2, e3, e4,
        List.append_nil, setLink_links, if_true]
      · intro _; rw [hi, h3]; simp
      · rw [hi, h3]; exact ⟨rest, by simp⟩
      · exact h.report
      · exact h.reported
    · exact off k _ hk ⟨rfl, by simp [writtenTo, hk], rfl, rfl⟩ rfl
  | @dlBlock k b out rest d' pend' h1 h2 h3 h4 h5 h6 =>
    by_cases hk : k = q
    · subst hk
      have hi := h.report h2
      rw [h3, Option.toList_none, List.append_nil] at hi
      have e1 : requestedOf k [Event.dl k (.block b out)] = [] := rfl
      have e2 : writtenTo k [Event.dl k (.block b out)] = [] := rfl
      have e3 : completedBy k [Event.dl k (.block b out)] = (reportOf out).toList := by
        cases out <;> simp [completedBy, reportOf]
      have e4 : reportedBy k [Event.dl k (.block b out)] = [] := rfl
      constructor <;> simp only [requestedOf_snoc, writtenTo_snoc, completedBy_snoc, reportedBy_snoc, e1, e2, e3, e4,
        List.append_nil, setLink_links, if_true]
      · exact h.sends
      · exact h.written
      · intro _; rw [hi]
      · exact h.reported.trans (List.prefix_append _ _)
    · exact off k _ hk (silent_other hk) rfl
  | @dlRequest k a r d' pend' h1 h2 h3 h4 h5 h6 =>
    by_cases hk : k = q
    · subst hk
      have e1 : requestedOf k [Event.dl k (.request a r)] = [.request r] := by simp [requestedOf]
      have e2 : writtenTo k [Event.dl k (.request a r)] = [] := rfl
      have e3 : completedBy k [Event.dl k (.request a r)] = [] := rfl
      have e4 : reportedBy k [Event.dl k (.request a r)] = [] := rfl
      constructor <;> simp only [requestedOf_snoc, writtenTo_snoc, completedBy_snoc, reportedBy_snoc, e1, e2, e3, e4,
        List.append_nil, setLink_links, if_true]
      · intro _; rw [h.sends h4]; simp
      · exact h.written.trans (List.prefix_append _ _)
      · exact h.report
      · exact h.reported
    · exact off k _ hk (silent_other hk) rfl
  | @dlRequestLost k a r d' pend' h1 h2 h3 h4 h5 =>
    by_cases hk : k = q
    · subst hk
      have e1 : requestedOf k [Event.dl k (.request a r)] = [.request r] := by simp [requestedOf]
      have e2 : writtenTo k [Event.dl k (.request a r)] = [] := rfl
      have e3 : completedBy k [Event.dl k (.request a r)] = [] := rfl
      have e4 : reportedBy k [Event.dl k (.request a r)] = [] := rfl
      constructor <;> simp only [requestedOf_snoc, writtenTo_snoc, completedBy_snoc, reportedBy_snoc, e1, e2, e3, e4,
        List.append_nil, setLink_links, if_true]
      · intro hc; exact absurd h4 hc
      · exact h.written.trans (List.prefix_append _ _)
      · exact h.report
      · exact h.reported
    · exact off k _ hk (silent_other hk) rfl
  | @reported k i bs h1 h2 h3 h4 h5 =>
    by_cases hk : k = q
    · subst hk
      have hi := h.report h2
      rw [h3] at hi
      have e1 : requestedOf k [Event.reported k i bs] = [] := rfl
      have e2 : writtenTo k [Event.reported k i bs] = [] := rfl
      have e3 : completedBy k [Event.reported k i bs] = [] := rfl
      have e4 : reportedBy k [Event.reported k i bs] = [(i, bs)] := by simp [reportedBy]
      constructor <;> simp only [requestedOf_snoc, writtenTo_snoc, completedBy_snoc, reportedBy_snoc, e1, e2, e3, e4,
        List.append_nil, setLink_links, if_true]
      · exact h.sends
      · exact h.written
      · intro _; rw [hi]; simp
      · rw [hi]; exact List.prefix_refl _
    · exact off k _ hk ⟨rfl, rfl, rfl, by simp [reportedBy, hk]⟩ rfl
  | @reportedLost k i bs h1 h2 h3 h4 =>
    by_cases hk : k = q
    · subst hk
      have hi := h.report h2
      rw [h3] at hi
      have e1 : requestedOf k [Event.reported k i bs] = [] := rfl
      have e2 : writtenTo k [Event.reported k i bs] = [] := rfl
      have e3 : completedBy k [Event.reported k i bs] = [] := rfl
      have e4 : reportedBy k [Event.reported k i bs] = [(i, bs)] := by simp [reportedBy]
      constructor <;> simp only [requestedOf_snoc, writtenTo_snoc, completedBy_snoc, reportedBy_snoc, e1, e2, e3, e4,
        List.append_nil, setLink_links, if_true]
      · exact h.sends
      · exact h.written
      · intro _; rw [hi]; simp
      · rw [hi]; exact List.prefix_refl _
    · exact off k _ hk ⟨rfl, rfl, rfl, by simp [reportedBy, hk]⟩ rfl
  | dlStart _ h1 h2 =>
    exact upd _ _ ⟨rfl, rfl, rfl, rfl⟩ rfl (fun hc => ⟨hc, rfl⟩) (fun hd => ⟨hd, rfl⟩)
  | dlReadd _ h1 h2 =>
    exact upd _ _ ⟨rfl, rfl, rfl, rfl⟩ rfl (fun hc => ⟨hc, rfl⟩) (fun hd => ⟨hd, rfl⟩)
  | dlTake _ h1 h2 =>
    exact upd _ _ ⟨rfl, rfl, rfl, rfl⟩ rfl (fun hc => ⟨hc, rfl⟩) (fun hd => ⟨hd, rfl⟩)
  | dlLoop _ h1 h2 =>
    exact upd _ _ ⟨rfl, rfl, rfl, rfl⟩ rfl (fun hc => ⟨hc, rfl⟩) (fun hd => ⟨hd, rfl⟩)
  | shakeOk _ h1 => exact upd _ _ ⟨rfl, rfl, rfl, rfl⟩ rfl (fun _ => ⟨by simp [h1], rfl⟩) (fun hd => ⟨hd, rfl⟩)
  | shakeFails _ h1 => exact upd _ _ ⟨rfl, rfl, rfl, rfl⟩ rfl (fun _ => ⟨by simp [h1], rfl⟩) (fun hd => ⟨hd, rfl⟩)
  | read _ h1 => exact upd _ _ ⟨rfl, rfl, rfl, rfl⟩ rfl (fun _ => ⟨by simp [h1], rfl⟩) (fun hd => ⟨hd, rfl⟩)
  | parsed _ h1 => exact upd _ _ ⟨rfl, rfl, rfl, rfl⟩ rfl (fun _ => ⟨by simp [h1], rfl⟩) (fun hd => ⟨hd, rfl⟩)
  | parsedAll _ h1 => exact upd _ _ ⟨rfl, rfl, rfl, rfl⟩ rfl (fun _ => ⟨by simp [h1], rfl⟩) (fun hd => ⟨hd, rfl⟩)
  | handBlock _ h1 => exact upd _ _ ⟨rfl, rfl, rfl, rfl⟩ rfl (fun _ => ⟨by simp [h1], rfl⟩) (fun hd => ⟨hd, rfl⟩)
  | handBlockLost _ h1 => exact upd _ _ ⟨rfl, rfl, rfl, rfl⟩ rfl (fun _ => ⟨by simp [h1], rfl⟩) (fun hd => ⟨hd, rfl⟩)
  | handPort _ h1 => exact upd _ _ ⟨rfl, rfl, rfl, rfl⟩ rfl (fun _ => ⟨by simp [h1], rfl⟩) (fun hd => ⟨hd, rfl⟩)
  | handPortLost _ h1 => exact upd _ _ ⟨rfl, rfl, rfl, rfl⟩ rfl (fun _ => ⟨by simp [h1], rfl⟩) (fun hd => ⟨hd, rfl⟩)
  | handOther _ h1 => exact upd _ _ ⟨rfl, rfl, rfl, rfl⟩ rfl (fun _ => ⟨by simp [h1], rfl⟩) (fun hd => ⟨hd, rfl⟩)
  | handOtherLost _ h1 => exact upd _ _ ⟨rfl, rfl, rfl, rfl⟩ rfl (fun _ => ⟨by simp [h1], rfl⟩) (fun hd => ⟨hd, rfl⟩)
  | put _ h1 h2 => exact upd _ _ ⟨rfl, rfl, rfl, rfl⟩ rfl (fun hc => ⟨hc, rfl⟩) (fun hd => ⟨hd, rfl⟩)
  | unreachable _ h1 => exact upd _ _ ⟨rfl, rfl, rfl, rfl⟩ rfl (fun hc => absurd rfl hc) (fun hd => ⟨hd, rfl⟩)
  | unreachableLost _ h1 => exact upd _ _ ⟨rfl, rfl, rfl, rfl⟩ rfl (fun hc => absurd rfl hc) (fun hd => ⟨hd, rfl⟩)
  | readFails _ h1 => exact upd _ _ ⟨rfl, rfl, rfl, rfl⟩ rfl (fun hc => absurd rfl hc) (fun hd => ⟨hd, rfl⟩)
  | conDies _ h1 => exact upd _ _ ⟨rfl, rfl, rfl, rfl⟩ rfl (fun hc => absurd rfl hc) (fun hd => ⟨hd, rfl⟩)
  | conLeaves _ h1 => exact upd _ _ ⟨rfl, rfl, rfl, rfl⟩ rfl (fun hc => absurd rfl hc) (fun hd => ⟨hd, rfl⟩)
  | blockPoisoned => exact upd _ _ ⟨rfl, rfl, rfl, rfl⟩ rfl (fun hc => ⟨hc, rfl⟩) (fun hd => absurd hd (by simp [Link.dlEnds]))
  | blockPanics => exact upd _ _ ⟨rfl, rfl, rfl, rfl⟩ rfl (fun hc => ⟨hc, rfl⟩) (fun hd => absurd hd (by simp [Link.dlEnds]))
  | readdPoisoned => exact upd _ _ ⟨rfl, rfl, rfl, rfl⟩ rfl (fun hc => ⟨hc, rfl⟩) (fun hd => absurd hd (by simp [Link.dlEnds]))
  | takePoisoned => exact upd _ _ ⟨rfl, rfl, rfl, rfl⟩ rfl (fun hc => ⟨hc, rfl⟩) (fun hd => absurd hd (by simp [Link.dlEnds]))
  | takePanics => exact upd _ _ ⟨rfl, rfl, rfl, rfl⟩ rfl (fun hc => ⟨hc, rfl⟩) (fun hd => absurd hd (by simp [Link.dlEnds]))
  | noBlocks => exact upd _ _ ⟨rfl, rfl, rfl, rfl⟩ rfl (fun hc => ⟨hc, rfl⟩) (fun hd => absurd hd (by simp [Link.dlEnds]))
  | noCommands => exact upd _ _ ⟨rfl, rfl, rfl, rfl⟩ rfl (fun hc => ⟨hc, rfl⟩) (fun hd => absurd hd (by simp [Link.dlEnds]))
  | _ => exact same (quiet (by simp) (by simp) (by simp)) rfl rfl rfl rfl

theorem run_out {c : Cfg} {s0 s : State} {es : List Event} (h : Run c s0 es s) (h0 : ∀ q, s0.links q = Link.fresh) (q : Peer) :
    OutInv q es (s.links q) := by
  induction h with
  | nil =>
    rw [h0 q]
    exact ⟨fun _ => rfl, List.prefix_refl _, fun _ => rfl, List.prefix_refl _⟩
  | snoc _ hs ih => exact step_out q ih hs

/-- The reports in the queue of the manager and those it has taken are all that were made. -/
def ReportsInv (es : List Event) (s : State) : Prop :=
  reportsIn (managerHeard es) ++ reportsIn s.inbox <+: allReported es ∧
  (s.man ≠ .dead → reportsIn (managerHeard es) ++ reportsIn s.inbox = allReported es)

theorem reportsIn_append (a b : List (Peer × ConMessageType)) : reportsIn (a ++ b) = reportsIn a ++ reportsIn b :=
  List.filterMap_append

theorem ReportsInv.of_eq {es es' : List Event} {s s' : State} (h : ReportsInv es s) (hm : s'.man = .dead ↔ s.man = .dead)
    (hb : reportsIn s'.inbox = reportsIn s.inbox) (h1 : managerHeard es' = managerHeard es)
    (h2 : allReported es' = allReported es) : ReportsInv es' s' := by
  simp only [ReportsInv, ne_eq, hm, hb, h1, h2] at h ⊢
  exact h

theorem ReportsInv.dies {es es' : List Event} {s s' : State} (h : ReportsInv es s) (hm : s'.man = .dead) (hb : s'.inbox = [])
    (h1 : managerHeard es' = managerHeard es) (h2 : allReported es' = allReported es) : ReportsInv es' s' := by
  refine ⟨?_, fun h' => absurd hm h'⟩
  rw [hb, h1, h2]
  simp only [reportsIn, List.filterMap_nil, List.append_nil]
  exact (List.prefix_append _ _).trans h.1

theorem step_reports {c : Cfg} {s s' : State} {es : List Event} {e : Event} (h : ReportsInv es s) (hs : Step c s e s') :
    ReportsInv (es ++ [e]) s' := by
  cases hs with
  | @shared o tm' ht | @reorder tm' _ ht | @nothing tm' _ ht | @tick _ tm' _ ht | @refused _ _ _ tm' _ _ ht =>
    exact h.of_eq Iff.rfl rfl (by simp [managerHeard]) (by simp [allReported])
  | choose h1 | put h1 | putFails h1 | add h1 =>
    exact h.of_eq (by simp [h1]) rfl (by simp [managerHeard]) (by simp [allReported])
  | addPoisoned | addPanics | msgPanics | tickPanics | choosePanics =>
    exact h.dies rfl rfl (by simp [managerHeard]) (by simp [allReported])
  | @msg k m rest tm' h1 h2 h3 =>
    have h' := h.2 (by rw [h1]; simp)
    rw [h2] at h'
    have e1 : managerHeard (es ++ [Event.man (.msg k m)]) = managerHeard es ++ [(k, m)] := by simp [managerHeard]
    have e2 : allReported (es ++ [Event.man (.msg k m)]) = allReported es := by simp [allReported]
    have e3 : reportsIn (managerHeard es ++ [(k, m)]) ++ reportsIn rest =
        reportsIn (managerHeard es) ++ reportsIn ((k, m) :: rest) := by
      rw [show (k, m) :: rest = [(k, m)] ++ rest from rfl, reportsIn_append, reportsIn_append, List.append_assoc]
    simp only [ReportsInv, e1, e2, e3, h']
    exact ⟨List.prefix_refl _, fun _ => trivial⟩
  | @handOther k m t h1 h2 h3 h4 h5 =>
    obtain ⟨w1, _⟩ := toPeers_wire h3
    refine h.of_eq (by simp) ?_ (by simp [managerHeard]) (by simp [allReported])
    rw [show reportsIn (s.inbox ++ [(k, t)]) = _ from reportsIn_append _ _]
    have : reportsIn [(k, t)] = [] := by cases t <;> simp [wireMessage] at w1 <;> rfl
    simp [this]
  | @unreachable k h1 h2 h3 h4 =>
    refine h.of_eq (by simp) ?_ (by simp [managerHeard]) (by simp [allReported])
    simp [reportsIn]
  | @reported k i bs h1 h2 h3 h4 =>
    have h' := h.2 h4
    have e1 : managerHeard (es ++ [Event.reported k i bs]) = managerHeard es := by simp [managerHeard]
    have e2 : allReported (es ++ [Event.reported k i bs]) = allReported es ++ [(k, i, bs)] := by simp [allReported]
    have e3 : reportsIn [(k, ConMessageType.finishedPiece i bs)] = [(k, i, bs)] := rfl
    simp only [ReportsInv, e1, e2, reportsIn_append, e3, ← h', List.append_assoc]
    exact ⟨List.prefix_refl _, fun _ => trivial⟩
  | @reportedLost k i bs h1 h2 h3 h4 =>
    have e1 : managerHeard (es ++ [Event.reported k i bs]) = managerHeard es := by simp [managerHeard]
    have e2 : allReported (es ++ [Event.reported k i bs]) = allReported es ++ [(k, i, bs)] := by simp [allReported]
    refine ⟨?_, fun h' => absurd h4 h'⟩
    rw [e1, e2]
    exact h.1.trans (List.prefix_append _ _)
  | _ =>
    refine h.of_eq ?_ ?_ (by simp [managerHeard]) (by simp [allReported])
    all_goals first
      | rfl
      | simp

/-- C111, continued: no completed piece is forgotten, doubled or reported out of order. What the downloader of a peer has
reported is, in order, what it has completed; at most one completed piece is still to be reported while it runs. The manager
takes the reports of all downloaders in the order in which they were made, and while it runs those it has not taken are in
its queue. -/
theorem C111_reported (c : Cfg) (pieces : List ID) (pl : Nat) (s0 s : State) (es : List Event)
    (h0 : Started pieces pl s0) (h : Run c s0 es s) :
    (∀ q, reportedBy q es <+: completedBy q es ∧
      ((s.links q).dlAlive = true → (completedBy q es).length ≤ (reportedBy q es).length + 1)) ∧
    reportsIn (managerHeard es) <+: allReported es ∧
    (s.man ≠ .dead → reportsIn (managerHeard es) ++ reportsIn s.inbox = allReported es) := by
  obtain ⟨_, _, _, hl, _, hb, _⟩ := h0.parts
  have hr : ReportsInv es s := by
    induction h with
    | nil => exact ⟨by simp [hb, reportsIn, managerHeard, allReported], by simp [hb, reportsIn, managerHeard, allReported]⟩
    | snoc _ hs ih => exact step_reports ih hs
  refine ⟨fun q => ⟨(run_out h hl q).reported, fun hd => ?_⟩, (List.prefix_append _ _).trans hr.1, hr.2⟩
  rw [(run_out h hl q).report hd]
  cases (s.links q).report <;> simp

/-- The report of the completed piece is in the queue of the manager. -/
example : demo repaired twoPieces 3 oneBlock (fun s => s.inbox) = some [(peerA, .finishedPiece 0 [[7, 8, 9]])] ∧
    completedBy peerA oneBlock = [(0, [[7, 8, 9]])] ∧ reportedBy peerA oneBlock = [(0, [[7, 8, 9]])] := by decide +kernel

example : (allReported oneBlock).length = 1 := by decide +kernel

/-- C112, continued: what is written to a peer is, in order and without repetition, what its downloader asked for: the
requests written are the first ones made, and those not yet written wait in the queue as long as the connection lasts. -/
theorem C112_written_in_order_partial (c : Cfg) (pieces : List ID) (pl : Nat) (s0 s : State) (es : List Event)
    (h0 : Started pieces pl s0) (h : Run c s0 es s) (q : Peer) :
    writtenTo q es <+: requestedOf q es ∧
    ((s.links q).con ≠ .ended → requestedOf q es = writtenTo q es ++ (s.links q).sends) := by
  obtain ⟨_, _, _, hl, _⟩ := h0.parts
  exact ⟨(run_out h hl q).written, (run_out h hl q).sends⟩

example : requestedOf peerA oneBlock = [.request ⟨0#32, 0#32, 16384#32⟩] ∧
    writtenTo peerA oneBlock = [.request ⟨0#32, 0#32, 16384#32⟩] := by decide +kernel

/-- C112, continued: a piece whose download is started with a peer is from then on among the pieces in progress, and no other
piece changes, unless ten pieces are in progress already. -/
theorem C112_in_progress_partial (c : Cfg) (pieces : List ID) (pl : Nat) (s0 s s' : State) (es : List Event)
    (h0 : Started pieces pl s0) (h : Run c s0 es s) (q : Peer) (i : Nat) (hash : ID)
    (hs : Step c s (.man (.start q i hash true)) s') :
    (∀ j, j ≠ i → s'.pend.data.get? j = s.pend.data.get? j) ∧
    (i ∈ s'.pend.data.keys ∨ s.pend.data.length = 10) := by
  obtain ⟨_, hn, _⟩ := h0.parts
  have hi := run_pend_inv h (PendingPieces.new_inv hn).1
  cases hs with
  | add =>
    rcases PendingPieces.addPiece_cases hi i with ⟨h1, h2⟩ | ⟨h1, h2, h3⟩ | ⟨h1, h2, h3⟩
    · simp only [addPieceAnyway, h2]
      exact ⟨fun _ _ => trivial, .inl h1⟩
    · simp only [addPieceAnyway, h3]
      exact ⟨fun _ _ => trivial, .inr h2⟩
    · simp only [addPieceAnyway, h3]
      refine ⟨fun j hj => ?_, .inl (by simp [Map.keys])⟩
      rw [PendingPieces.get?_append _ _ _ h1, if_neg hj]

end Nargun.Swarm
