import Verif.Props.ProgramFairFlow
import Verif.Spec.Answered

/-! # Everything that waits is worked off and every query is answered, in every fair execution: C92, C147 -/

set_option linter.unusedSimpArgs false

namespace Nargun

open Dht Krpc Spec DhtManager DhtSystem

section
variable {env : Env} {pause : Nat → Nat}

/-- What is asked is handed over, answered at once, or a refused announcement. -/
theorem asked_handed {own secret : ID} {ch : List Dht.Entry} {c : Con} (hr : Con.Run env (Con.start own secret) ch c)
    (x : Question) : (ch.filterMap entryQuestion).count x ≤ ((handedQueries (allEffects ch)).filterMap fromQuestion).count x +
      (ch.filterMap dirTag).count x + (ch.filterMap refusedAnnouncement).count x := by
  induction hr with
  | nil => exact Nat.zero_le _
  | @snoc s1 s2 h e hr hs ih =>
    have key : (entryQuestion e).toList.count x ≤ ((handedQueries e.effects).filterMap fromQuestion).count x +
        (dirTag e).toList.count x + (refusedAnnouncement e).toList.count x := by
      cases hs with
      | command => exact Nat.zero_le _
      | closed => exact Nat.zero_le _
      | reorder _ => exact Nat.zero_le _
      | @datagram _ sender bytes effs hc =>
        obtain ⟨h1, h2⟩ := receive_ok hc
        have hb : s2.buf = bufAfter s1 bytes := by rw [h1]
        rw [hb]
        cases sender with
        | none => exact Nat.zero_le _
        | some a =>
          cases hm : heardIn env (bufAfter s1 bytes) with
          | none => exact Nat.zero_le _
          | some m =>
            rw [hm] at h2
            cases m with
            | response t y r => exact Nat.zero_le _
            | error t y er => exact Nat.zero_le _
            | query t y q args =>
              obtain ⟨_, h2⟩ := h2
              cases args with
              | ping id =>
                have : dirTag ⟨.datagram (some a) bytes, some (.query t y q (.ping id)), effs⟩ = some (a, t, .ping) := rfl
                rw [this]
                have : entryQuestion ⟨.datagram (some a) bytes, some (.query t y q (.ping id)), effs⟩ = some (a, t, .ping) := rfl
                rw [this]; omega
              | findNode id target =>
                obtain ⟨rfl, _⟩ := h2
                have : entryQuestion ⟨.datagram (some a) bytes, some (.query t y q (.findNode id target)),
                  [.toManager (.findNode target ⟨a, t⟩)]⟩ = some (a, t, .findNode) := rfl
                rw [this]
                simp only [handedQueries, List.filterMap_cons, List.filterMap_nil, fromQuestion, Option.toList_some]
                omega
              | getPeers id ih' =>
                obtain ⟨rfl, _⟩ := h2
                have : entryQuestion ⟨.datagram (some a) bytes, some (.query t y q (.getPeers id ih')),
                  [.toManager (.getPeers ih' ⟨a, t⟩)]⟩ = some (a, t, .getPeers) := rfl
                rw [this]
                simp only [handedQueries, List.filterMap_cons, List.filterMap_nil, fromQuestion, Option.toList_some]
                omega
              | announcePeer id ih' port token =>
                have : entryQuestion ⟨.datagram (some a) bytes, some (.query t y q (.announcePeer id ih' port token)), effs⟩ =
                  some (a, t, .announcePeer) := rfl
                rw [this]
                simp only [dirTag, refusedAnnouncement]
                cases effs with
                | nil => simp
                | cons f fs => simp
    have e1 : allEffects [e] = e.effects := by simp [allEffects]
    have e2 : ([e].filterMap entryQuestion) = (entryQuestion e).toList := by
      cases hq : entryQuestion e <;> simp [hq]
    have e3 : ([e].filterMap dirTag) = (dirTag e).toList := by
      cases hq : dirTag e <;> simp [hq]
    have e4 : ([e].filterMap refusedAnnouncement) = (refusedAnnouncement e).toList := by
      cases hq : refusedAnnouncement e <;> simp [hq]
    rw [allEffects_append, handedQueries_append, List.filterMap_append, List.filterMap_append, List.filterMap_append,
      List.filterMap_append, List.count_append, List.count_append, List.count_append, List.count_append, e1, e2, e3, e4]
    omega

/-- What the table task has taken it answers, unless it has nothing to say. -/
theorem taken_answered {infoHash : ID} {m0 m : Manager} {mh : List DhtManager.Entry} (hb : Base infoHash m0)
    (hr : DhtManager.Run pause m0 mh m) (x : Question) : ((takenQueries mh).filterMap fromQuestion).count x ≤
      ((sends (allOutputs mh)).filterMap cmdQuestion).count x + (mh.filterMap silentTurn).count x := by
  induction hr with
  | nil => exact Nat.zero_le _
  | @snoc m1 m2 h e hr hs ih =>
    have hq := outs_question (hb.run hr) hs
    have e1 : allOutputs [e] = e.outputs := by simp [allOutputs]
    have e2 : takenQueries [e] = (match e.event with | .query q => some q | _ => none).toList := by
      obtain ⟨ev, o⟩ := e
      cases ev <;> rfl
    have e3 : [e].filterMap silentTurn = (silentTurn e).toList := by
      cases hq : silentTurn e <;> simp [hq]
    have key : ((takenQueries [e]).filterMap fromQuestion).count x ≤
        ((sends e.outputs).filterMap cmdQuestion).count x + (silentTurn e).toList.count x := by
      rw [e2]
      obtain ⟨ev, o⟩ := e
      have hans : ∀ y, ((sends o).filterMap cmdQuestion).Sublist [y] → (answers o).isEmpty = false →
          (sends o).filterMap cmdQuestion = [y] := by
        intro y hsub hne
        refine hsub.eq_of_length_le ?_
        have : (sends o).filterMap cmdQuestion ≠ [] := by
          intro h
          cases ha : answers o with
          | nil => rw [ha] at hne; cases hne
          | cons qr rest =>
            obtain ⟨out, hm, hout⟩ := List.mem_filterMap.mp (show qr ∈ answers o by rw [ha]; simp)
            have hm2 : ToCon.resp qr.1 qr.2 ∈ sends o := by
              refine List.mem_filterMap.mpr ⟨out, hm, ?_⟩
              split at hout
              · cases hout; rfl
              · cases hout
            have := List.filterMap_eq_nil_iff.mp h _ hm2
            cases this
        cases hl : (sends o).filterMap cmdQuestion with
        | nil => exact absurd hl this
        | cons => simp
      cases ev with
      | query q =>
        cases q with
        | findNode target qid =>
          simp only [Option.toList_some, List.filterMap_cons, List.filterMap_nil, fromQuestion] at hq ⊢
          cases he : (answers o).isEmpty with
          | true => simp [silentTurn, he]
          | false => rw [hans _ hq he]; omega
        | getPeers target qid =>
          simp only [Option.toList_some, List.filterMap_cons, List.filterMap_nil, fromQuestion] at hq ⊢
          cases he : (answers o).isEmpty with
          | true => simp [silentTurn, he]
          | false => rw [hans _ hq he]; omega
        | newPeer p ih' => exact Nat.zero_le _
      | _ => exact Nat.zero_le _
    rw [allOutputs_append, sends_append, List.filterMap_append, takenQueries_append, List.filterMap_append,
      List.filterMap_append, List.count_append, List.count_append, List.count_append, e1, e3]
    omega

end

end Nargun

namespace Nargun.Program

open Nargun Dht Krpc Spec DhtManager DhtSystem

variable {w : World} {u : Setup} {σ : Nat → State} {ev : Nat → Option Event}

/-- Nothing stands in the way of the DHT: the process does not end, the task that owns the socket does not panic, the table
task does not end, and the tasks do not wait for each other in a circle. -/
theorem smooth_or (σ : Nat → State) (ev : Nat → Option Event) {P : Prop} (h : (∀ n, ev n ≠ some .exits) →
    (∀ n, (σ n).dht.conAlive = true) → (∀ n, (σ n).dht.man.status = .running) →
    (∀ n, ¬ (TableJam (σ n) ∨ LookupJam (σ n))) → P) :
    (∃ n, ev n = some .exits) ∨ (∃ n, (σ n).dht.conAlive = false) ∨ (∃ n, (σ n).dht.man.status ≠ .running) ∨
      (∃ n, TableJam (σ n) ∨ LookupJam (σ n)) ∨ P := by
  by_cases h1 : ∃ n, ev n = some .exits
  · exact .inl h1
  by_cases h2 : ∃ n, (σ n).dht.conAlive = false
  · exact .inr (.inl h2)
  by_cases h3 : ∃ n, (σ n).dht.man.status ≠ .running
  · exact .inr (.inr (.inl h3))
  by_cases h4 : ∃ n, TableJam (σ n) ∨ LookupJam (σ n)
  · exact .inr (.inr (.inr (.inl h4)))
  · refine .inr (.inr (.inr (.inr (h (fun n h => h1 ⟨n, h⟩) (fun n => ?_) (fun n => ?_) (fun n h => h4 ⟨n, h⟩)))))
    · cases hc : (σ n).dht.conAlive with
      | true => rfl
      | false => exact absurd ⟨n, hc⟩ h2
    · exact Classical.byContradiction fun h => h3 ⟨n, h⟩

section
variable (ht : Reachable u.table) (h0 : Started w u (σ 0)) (hx : Execution w σ ev) (hf : FairDht w σ ev)
  (hn : ∀ n, ev n ≠ some .exits) (hal : ∀ n, (σ n).dht.conAlive = true) (hrun : ∀ n, (σ n).dht.man.status = .running)
  (hj : ∀ n, ¬ (TableJam (σ n) ∨ LookupJam (σ n)))
include ht h0 hx hf hn hrun hj hal

omit ht h0 hx hf hn hrun hj hal in
theorem effects_prefix {n m : Nat} (h : n ≤ m) :
    allEffects (conHistory (dhtEvents (upto ev n))) <+: allEffects (conHistory (dhtEvents (upto ev m))) := by
  obtain ⟨t, ht⟩ := hist_prefix (ev := ev) h
  rw [← ht, conHistory_append, allEffects_append]; exact List.prefix_append _ _

omit ht h0 hx hf hn hrun hj hal in
theorem outputs_prefix {n m : Nat} (h : n ≤ m) :
    allOutputs (manHistory (dhtEvents (upto ev n))) <+: allOutputs (manHistory (dhtEvents (upto ev m))) := by
  obtain ⟨t, ht⟩ := hist_prefix (ev := ev) h
  rw [← ht, manHistory_append, allOutputs_append]; exact List.prefix_append _ _

theorem datagrams_sent (n : Nat) : ∃ m, n ≤ m ∧
    datagrams (allEffects (conHistory (dhtEvents (upto ev n)))) <+: sent (dhtEvents (upto ev m)) := by
  obtain ⟨m, hm, hc⟩ := socket_returns ht h0 hx hf hn hal hrun hj n
  refine ⟨m, hm, ?_⟩
  have h1 := (exec_flow h0 hx m).2.2.2.2
  rw [hc] at h1
  simp only [datagrams, List.filterMap_nil, List.append_nil] at h1
  rw [← h1]
  exact (effects_prefix hm).filterMap _

theorem outputs_put (n : Nat) : ∃ m, n ≤ m ∧ sends (startOutputs u.table ++ allOutputs (manHistory (dhtEvents (upto ev n)))) <+:
    putsOfManager (dhtEvents (upto ev m)) := by
  obtain ⟨m, hm, hc⟩ := table_returns_always ht h0 hx hf hn hrun hj n
  refine ⟨m, hm, ?_⟩
  have h1 := (exec_flow h0 hx m).2.2.1
  rw [hc] at h1
  simp only [sends, List.filterMap_nil, List.append_nil] at h1
  rw [← h1]
  exact ((List.prefix_append_right_inj _).mpr (outputs_prefix hm)).filterMap _

theorem puts_taken (n : Nat) : ∃ m, n ≤ m ∧
    puts (dhtEvents (upto ev n)) <+: takenCommands (conHistory (dhtEvents (upto ev m))) := by
  obtain ⟨m, hm, hl⟩ := commands_taken ht h0 hx hf hn hal hrun hj n
  exact ⟨m, hm, handed_taken (F := fun n => puts (dhtEvents (upto ev n)))
    (T := fun n => takenCommands (conHistory (dhtEvents (upto ev n)))) (fun _ _ h => (hist_prefix h).filterMap _)
    (fun n => ⟨_, (exec_flow h0 hx n).2.2.2.1.symm⟩) hm hl⟩

theorem queries_reach (n : Nat) : ∃ m, n ≤ m ∧ handedQueries (allEffects (conHistory (dhtEvents (upto ev n)))) <+:
    takenQueries (manHistory (dhtEvents (upto ev m))) := by
  obtain ⟨m, hm, hl⟩ := queries_taken ht h0 hx hf hn hal hrun hj n
  exact ⟨m, hm, handed_taken (F := fun n => handedQueries (allEffects (conHistory (dhtEvents (upto ev n)))))
    (T := fun n => takenQueries (manHistory (dhtEvents (upto ev n)))) (fun _ _ h => (effects_prefix h).filterMap _)
    (fun n => ⟨_, (by rw [(exec_flow h0 hx n).1, List.append_assoc])⟩) hm hl⟩

theorem answers_reach (n : Nat) : ∃ m, n ≤ m ∧ handedAnswers OWN_CHANNEL (allEffects (conHistory (dhtEvents (upto ev n)))) <+:
    takenByManager (manHistory (dhtEvents (upto ev m))) := by
  obtain ⟨m, hm, hl⟩ := answers_taken ht h0 hx hf hn hal hrun hj n
  exact ⟨m, hm, handed_taken (F := fun n => handedAnswers OWN_CHANNEL (allEffects (conHistory (dhtEvents (upto ev n)))))
    (T := fun n => takenByManager (manHistory (dhtEvents (upto ev n)))) (fun _ _ h => (effects_prefix h).filterMap _)
    (fun n => ⟨_, (by rw [(exec_flow h0 hx n).2.1, List.append_assoc])⟩) hm hl⟩

end

/-- C92, the part that holds, for every execution: whatever other nodes, peers and trackers do and in whatever order the tasks
get their turns, as long as none of them is passed over for ever, everything is worked off: every datagram the socket task has
to send is sent, every query of another node and every answer it has read is taken by the table task, every command of the
table task gets into the queue, and every command in the queue is taken, all of them in their order; unless the process ends,
the socket task panics (C105), the table task ends, or the tasks wait for each other in a circle at some moment. Missing: that
they never do (`C92_deadlock_violated`). -/
theorem C92_always_partial (w : World) (u : Setup) (σ : Nat → State) (ev : Nat → Option Event) (ht : Reachable u.table)
    (h0 : Started w u (σ 0)) (hx : Execution w σ ev) (hf : FairDht w σ ev) :
    (∃ n, ev n = some .exits) ∨ (∃ n, (σ n).dht.conAlive = false) ∨ (∃ n, (σ n).dht.man.status ≠ .running) ∨
    (∃ n, TableJam (σ n) ∨ LookupJam (σ n)) ∨
    ∀ n, ∃ m, n ≤ m ∧
      datagrams (allEffects (conHistory (dhtEvents (upto ev n)))) <+: sent (dhtEvents (upto ev m)) ∧
      handedQueries (allEffects (conHistory (dhtEvents (upto ev n)))) <+: takenQueries (manHistory (dhtEvents (upto ev m))) ∧
      handedAnswers OWN_CHANNEL (allEffects (conHistory (dhtEvents (upto ev n)))) <+:
        takenByManager (manHistory (dhtEvents (upto ev m))) ∧
      sends (startOutputs u.table ++ allOutputs (manHistory (dhtEvents (upto ev n)))) <+:
        putsOfManager (dhtEvents (upto ev m)) ∧
      puts (dhtEvents (upto ev n)) <+: takenCommands (conHistory (dhtEvents (upto ev m))) := by
  refine smooth_or σ ev fun hn hal hrun hj n => ?_
  obtain ⟨m1, l1, p1⟩ := datagrams_sent ht h0 hx hf hn hal hrun hj n
  obtain ⟨m2, l2, p2⟩ := queries_reach ht h0 hx hf hn hal hrun hj n
  obtain ⟨m3, l3, p3⟩ := answers_reach ht h0 hx hf hn hal hrun hj n
  obtain ⟨m4, l4, p4⟩ := outputs_put ht h0 hx hf hn hal hrun hj n
  obtain ⟨m5, l5, p5⟩ := puts_taken ht h0 hx hf hn hal hrun hj n
  let m := max m1 (max m2 (max m3 (max m4 m5)))
  have man : ∀ {k}, k ≤ m → manHistory (dhtEvents (upto ev k)) <+: manHistory (dhtEvents (upto ev m)) :=
    fun h => (hist_prefix h).filterMap _
  have con : ∀ {k}, k ≤ m → conHistory (dhtEvents (upto ev k)) <+: conHistory (dhtEvents (upto ev m)) :=
    fun h => (hist_prefix h).filterMap _
  refine ⟨m, by omega, p1.trans ((hist_prefix (by omega)).filterMap _), p2.trans ((man (by omega)).filterMap _),
    p3.trans ((man (by omega)).filterMap _), p4.trans ((hist_prefix (by omega)).filterMap _),
    p5.trans ((con (by omega)).filterMap _)⟩

/-- C147, the part that holds: in every execution in which no task is passed over for ever, every query of another node that
is taken from the socket is answered: at some later moment the datagrams sent contain, for every node, transaction id and
kind of query, as many answers as such queries had been taken before, apart from those that are to get none, because the
table task has nothing to say or the token of an announcement is wrong; unless the process ends, the socket task panics, the
table task ends, or the tasks wait for each other in a circle at some moment. Missing: that none of this happens through what
other nodes send (`C147_flood_violated`, `C105_one_datagram_violated`). -/
theorem C147_answered_partial (w : World) (u : Setup) (σ : Nat → State) (ev : Nat → Option Event) (ht : Reachable u.table)
    (h0 : Started w u (σ 0)) (hx : Execution w σ ev) (hf : FairDht w σ ev) :
    (∃ n, ev n = some .exits) ∨ (∃ n, (σ n).dht.conAlive = false) ∨ (∃ n, (σ n).dht.man.status ≠ .running) ∨
    (∃ n, TableJam (σ n) ∨ LookupJam (σ n)) ∨
    ∀ n, ∃ m, n ≤ m ∧ ∃ L : List ((SockAddr × Bytes) × Option Question), L.map (·.1) = sent (dhtEvents (upto ev m)) ∧
      (∀ d q, (d, q) ∈ L → Answers u.table.ownId d q) ∧
      ∀ x, (asked (dhtEvents (upto ev n))).count x ≤
        (L.filterMap (·.2)).count x + (leftUnanswered (dhtEvents (upto ev m))).count x := by
  refine smooth_or σ ev fun hn hal hrun hj n => ?_
  obtain ⟨m1, l1, p1⟩ := queries_reach ht h0 hx hf hn hal hrun hj n
  obtain ⟨m2, l2, p2⟩ := outputs_put ht h0 hx hf hn hal hrun hj m1
  obtain ⟨m3, l3, p3⟩ := puts_taken ht h0 hx hf hn hal hrun hj m2
  obtain ⟨m4, l4, p4⟩ := datagrams_sent ht h0 hx hf hn hal hrun hj m3
  have con : ∀ n, ∃ c, Con.Run w.env (Con.start u.table.ownId u.secret) (conHistory (dhtEvents (upto ev n))) c := by
    intro n
    obtain ⟨l, hl, he⟩ := started_dht h0 (exec_run hx n)
    have g1 : conHistory l = conHistory (dhtEvents (upto ev n)) := by
      rw [← he]; exact filterMap_run hl _ (fun _ => rfl) (List.append_nil l).symm
    exact ⟨_, g1 ▸ (Flow.run hl).con⟩
  obtain ⟨cn, rn⟩ := con n
  obtain ⟨c3, r3⟩ := con m3
  obtain ⟨c4, r4⟩ := con m4
  obtain ⟨L3, a1, a2, _⟩ := tags_run r3
  obtain ⟨L, b1, b2, b3⟩ := tags_run r4
  have hlen3 : (datagrams (allEffects (conHistory (dhtEvents (upto ev m3))))).length =
      ((conHistory (dhtEvents (upto ev m3))).flatMap tagsOf).length := by
    rw [← a1, ← a2, List.length_map, List.length_map]
  have hsent4 : sent (dhtEvents (upto ev m4)) <+: datagrams (allEffects (conHistory (dhtEvents (upto ev m4)))) :=
    ⟨_, (exec_flow h0 hx m4).2.2.2.2.symm⟩
  refine ⟨m4, by omega, L.take (sent (dhtEvents (upto ev m4))).length, ?_, ?_, fun x => ?_⟩
  · rw [List.map_take, b1]
    exact (List.prefix_iff_eq_take.mp hsent4).symm
  · intro d q hm
    have := b3 _ (List.mem_of_mem_take hm)
    cases q <;> exact this
  · -- the answers sent
    have s1 : (((conHistory (dhtEvents (upto ev m3))).flatMap tagsOf).filterMap id).count x ≤
        ((L.take (sent (dhtEvents (upto ev m4))).length).filterMap (·.2)).count x := by
      have e1 : (L.take (sent (dhtEvents (upto ev m4))).length).filterMap (·.2) =
          ((L.map (·.2)).take (sent (dhtEvents (upto ev m4))).length).filterMap id := by
        rw [← List.map_take, List.filterMap_map]; rfl
      rw [e1, b2]
      refine List.Sublist.count_le _ (List.Sublist.filterMap _ (List.IsPrefix.sublist ?_))
      have e2 : (conHistory (dhtEvents (upto ev m3))).flatMap tagsOf <+: (conHistory (dhtEvents (upto ev m4))).flatMap tagsOf := by
        obtain ⟨t, ht⟩ := hist_prefix (ev := ev) l4
        rw [← ht, conHistory_append, List.flatMap_append]; exact List.prefix_append _ _
      refine List.prefix_of_prefix_length_le e2 (List.take_prefix _ _) ?_
      have e3 := p4.length_le
      have e4 := e2.length_le
      rw [List.length_take, ← hlen3]
      rw [← hlen3] at e4
      exact Nat.le_min.mpr ⟨e3, e4⟩
    rw [tags_count] at s1
    -- the commands taken
    have s2 : ((putsOfManager (dhtEvents (upto ev m2))).filterMap cmdQuestion).count x ≤
        ((takenCommands (conHistory (dhtEvents (upto ev m3)))).filterMap cmdQuestion).count x := by
      refine List.Sublist.count_le _ ?_
      refine List.Sublist.trans ?_ (List.Sublist.filterMap _ p3.sublist)
      refine List.Sublist.filterMap _ ?_
      unfold puts putsOfManager
      generalize dhtEvents (upto ev m2) = d
      induction d with
      | nil => exact List.Sublist.refl _
      | cons y d ih =>
        rw [List.filterMap_cons, List.filterMap_cons]
        cases hy : y.put with
        | none => exact ih
        | some sc =>
          obtain ⟨src, c⟩ := sc
          cases src with
          | manager => exact ih.cons_cons _
          | other => exact ih.cons _
    have s3 : ((sends (allOutputs (manHistory (dhtEvents (upto ev m1))))).filterMap cmdQuestion).count x ≤
        ((putsOfManager (dhtEvents (upto ev m2))).filterMap cmdQuestion).count x := by
      refine List.Sublist.count_le _ (List.Sublist.filterMap _ ?_)
      refine List.Sublist.trans ?_ p2.sublist
      rw [sends_append]
      exact List.sublist_append_right _ _
    -- the queries taken
    have s4 : ((takenQueries (manHistory (dhtEvents (upto ev m1)))).filterMap fromQuestion).count x ≤
        ((sends (allOutputs (manHistory (dhtEvents (upto ev m1))))).filterMap cmdQuestion).count x +
          ((manHistory (dhtEvents (upto ev m1))).filterMap silentTurn).count x := by
      obtain ⟨l, hl, he⟩ := started_dht h0 (exec_run hx m1)
      have g : ∀ {β : Type} (f : DhtSystem.Entry → Option β), (∀ o, f { man := some ⟨.others o, []⟩ } = none) →
          l.filterMap f = (dhtEvents (upto ev m1)).filterMap f := fun f hf => by
        rw [← he]; exact filterMap_run hl f hf (List.append_nil l).symm
      have g5 : takenQueries (manHistory l) = takenQueries (manHistory (dhtEvents (upto ev m1))) := by
        simp only [takenQueries, manHistory, List.filterMap_filterMap]
        exact g _ (fun _ => rfl)
      have g6 : (manHistory l).filterMap silentTurn = (manHistory (dhtEvents (upto ev m1))).filterMap silentTurn := by
        simp only [manHistory, List.filterMap_filterMap]
        exact g _ (fun _ => rfl)
      have g7 : allOutputs (manHistory l) = allOutputs (manHistory (dhtEvents (upto ev m1))) := by
        rw [← he]; exact outputs_run hl
      have := taken_answered (Base.start (now := u.now) ht .nil) (Flow.run hl).man x
      rwa [g5, g6, g7] at this
    have s5 : ((handedQueries (allEffects (conHistory (dhtEvents (upto ev n))))).filterMap fromQuestion).count x ≤
        ((takenQueries (manHistory (dhtEvents (upto ev m1)))).filterMap fromQuestion).count x :=
      List.Sublist.count_le _ (List.Sublist.filterMap _ p1.sublist)
    -- what was asked
    have s6 := asked_handed rn x
    have s7 : ((conHistory (dhtEvents (upto ev n))).filterMap dirTag).count x ≤
        ((conHistory (dhtEvents (upto ev m3))).filterMap dirTag).count x := by
      refine List.Sublist.count_le _ (List.Sublist.filterMap _ (List.IsPrefix.sublist ?_))
      exact (hist_prefix (by omega)).filterMap _
    have s8 : ((conHistory (dhtEvents (upto ev n))).filterMap refusedAnnouncement).count x ≤
        ((conHistory (dhtEvents (upto ev m4))).filterMap refusedAnnouncement).count x := by
      refine List.Sublist.count_le _ (List.Sublist.filterMap _ (List.IsPrefix.sublist ?_))
      exact (hist_prefix (by omega)).filterMap _
    have s9 : ((manHistory (dhtEvents (upto ev m1))).filterMap silentTurn).count x ≤
        ((manHistory (dhtEvents (upto ev m4))).filterMap silentTurn).count x := by
      refine List.Sublist.count_le _ (List.Sublist.filterMap _ (List.IsPrefix.sublist ?_))
      exact (hist_prefix (by omega)).filterMap _
    rw [asked_eq, leftUnanswered, List.count_append]
    omega

/-- C147 is violated: whenever Ctrl-C was not pressed yet, the tasks of the DHT are at the beginning of their loops, no query
of another node waits and the table holds a node, copies of one small datagram that asks for this node, at most 1282 of
them, can bring the program into a state in which none of them is ever answered, and no other query either: the program does
not end, and whatever happens, no datagram leaves. -/
theorem C147_flood_violated (w : World) (u : Setup) (s0 s : State) (es : List Event) (ht : Reachable u.table)
    (hint : ∀ n : Nat, n < 2 ^ 32 → w.env.lib.intOk n = true) (hu : w.env.lib.utf8 (ascii "find_node") = true)
    (h0 : Started w u s0) (h : Run w s0 es s) (hsig : .signal ∉ es)
    (halive : s.dht.conAlive = true) (hrun : s.dht.man.status = .running) (hcon : s.dht.conTodo = [])
    (hman : s.dht.manTodo = []) (hq : s.dht.queries = []) (x : Node) (hx : x ∈ s.dht.man.table.iterNodes)
    (a : SockAddr) (id : ID) (t : Bytes) (hb : (Message.findNodesQuery id x.id t).intoBytes.length ≤ 2 * 1300) :
    ∃ es1 s1, Run w s es1 s1 ∧
      arrivals (dhtEvents es1) = List.replicate (2 ^ 10 - s.dht.commands.length + 2 ^ 8 + 2)
        (some a, (Message.findNodesQuery id x.id t).intoBytes) ∧
      ∀ es2 s2, Run w s1 es2 s2 → .exits ∉ es2 ∧ sent (dhtEvents (es1 ++ es2)) = [] := by
  have hhold := phase_holding h0 h hsig
  obtain ⟨l, hl, _⟩ := started_dht h0 h
  obtain ⟨l1, d1, r1, a1, b1, st1, al1⟩ := flood_stuck ht .nil hint hu hl halive hrun hcon hman hq x hx a id t hb
  obtain ⟨es1, s1, q1, e1, n1, p1, _, o1⟩ := lift_dht ht h0 h (by rw [hhold]; simp) r1 (fun e he => .inl (al1 e he))
  refine ⟨es1, s1, q1, by rw [e1]; exact a1, fun es2 s2 r2 => ?_⟩
  have q3 := (h.trans q1).trans r2
  obtain ⟨l3, k3, f3⟩ := run_dht r2
  obtain ⟨st3, g1, g2, _⟩ := stuck_run (s := d1) st1 (by rw [← n1]; exact k3)
  have hsub : ∀ e ∈ dhtEvents es2, e ∈ l3 := fun e he => (List.mem_filter.mp (f3 ▸ he)).1
  refine ⟨fun hm => ?_, ?_⟩
  · exact ((table_inv h0 q3).ended (exit_ends h0 q3 (by simp [hm])).2.1).1 st3.running
  · rw [show dhtEvents (es1 ++ es2) = dhtEvents es1 ++ dhtEvents es2 from List.filterMap_append, sent_append, e1, b1]
    exact List.filterMap_eq_nil_iff.mpr fun e he => List.filterMap_eq_nil_iff.mp g1 e (hsub e he)

/-! ## A concrete case -/

/-- Nothing is left to do on the side of the DHT and of the trackers, and no lookup was started. -/
def Calm (s : State) : Prop :=
  s.dht.commands = [] ∧ s.dht.conTodo = [] ∧ s.dht.manTodo = [] ∧ s.dht.queries = [] ∧ s.dht.answers OWN_CHANNEL = [] ∧
  s.lookup = none ∧ s.dht.conAlive = true ∧ s.dht.man.status = .running ∧ s.down.phase = .holding ∧
  (∀ r, s.down.recv r = none) ∧ ∀ t ∈ s.trackers, t.phase ≠ .exited

/-- An execution in which nothing is left to do after some moment and no lookup was started is fair. -/
theorem fair_of_calm {n : Nat} (hs : ∀ m, n ≤ m → Calm (σ m)) : FairDht w σ ev := by
  have fair : ∀ A, (∀ s, Calm s → ¬ Possible w s A) → FairTo w σ ev A := fun A hno hp => by
    obtain ⟨m, hm, h⟩ := hp n
    exact absurd h (hno _ (hs m hm))
  have norecv : ∀ {s : State} {r x}, (∀ r, s.down.recv r = none) → ¬ Shutdown.Step s.down (.recv r) x := fun h10 h => by
    cases h with | recv h => rw [h10] at h; cases h
  constructor
  · constructor
    · refine fair _ ?_
      rintro s ⟨h1, h2, h3, h4, h5, h6, h7, h8, h9, h10, h11⟩ ⟨e, s', ha, _, ht⟩
      cases ht with
      | dht _ ht =>
        obtain ⟨tid, c, effs, hc⟩ := ha
        cases ht with
        | command _ _ h => rw [show s.nodes.commands = _ from h1] at h; cases h
        | _ => cases hc
      | _ => exact ha
    · refine fair _ ?_
      rintro s ⟨h1, h2, h3, h4, h5, h6, h7, h8, h9, h10, h11⟩ ⟨e, s', ha, _, ht⟩
      cases ht with
      | dht _ ht =>
        cases ht with
        | sends _ h => rw [show s.nodes.conTodo = _ from h2] at h; cases h
        | putQuery _ h => rw [show s.nodes.conTodo = _ from h2] at h; cases h
        | putAnswer _ h => rw [show s.nodes.conTodo = _ from h2] at h; cases h
        | noListener _ h => rw [show s.nodes.conTodo = _ from h2] at h; cases h
        | _ => rcases ha with ha | ⟨d, ha⟩ <;> cases ha
      | _ => exact ha
    · refine fair _ ?_
      rintro s ⟨h1, h2, h3, h4, h5, h6, h7, h8, h9, h10, h11⟩ ⟨e, s', ha, _, ht⟩
      cases ht with
      | dht _ ht =>
        cases ht with
        | putCommand _ h => rw [show s.nodes.manTodo = _ from h3] at h; cases h
        | putFails h => rw [show s.nodes.manTodo = _ from h3] at h; cases h
        | stores _ h => rw [show s.nodes.manTodo = _ from h3] at h; cases h
        | conGone _ h => rw [show s.nodes.conAlive = _ from h7] at h; cases h
        | direct _ hd =>
          rcases ha with ⟨c, ha⟩ | ha | ⟨t, ha⟩
          · cases ha
          · cases ha; exact hd
          · cases ha
        | outside hd =>
          rcases ha with ⟨c, ha⟩ | ha | ⟨t, ha⟩
          · cases ha
          · cases ha; exact hd
          · cases ha
        | _ => rcases ha with ⟨c, ha⟩ | ha | ⟨t, ha⟩ <;> cases ha
      | lookup _ h => cases h with | spawns _ h => rw [show s.nodes.manTodo = _ from h3] at h; cases h
      | _ => exact ha
    · refine fair _ ?_
      rintro s ⟨h1, h2, h3, h4, h5, h6, h7, h8, h9, h10, h11⟩ ⟨e, s', ha, _, ht⟩
      cases ht with
      | tableNotices h => exact norecv h10 h
      | _ => exact ha
    · refine fair _ ?_
      rintro s ⟨h1, h2, h3, h4, h5, h6, h7, h8, h9, h10, h11⟩ ⟨e, s', rfl, _, ht⟩
      cases ht with
      | tableEnds h => exact h h8
    · refine fair _ ?_
      rintro s ⟨h1, h2, h3, h4, h5, h6, h7, h8, h9, h10, h11⟩ ⟨e, s', ha, _, ht⟩
      cases ht with
      | hears h => rw [h6] at h; cases h
      | _ => exact ha
    · refine fair _ ?_
      rintro s ⟨h1, h2, h3, h4, h5, h6, h7, h8, h9, h10, h11⟩ ⟨e, s', ha, _, ht⟩
      cases ht with
      | look h => rw [h6] at h; cases h
      | lookIdle h => rw [h6] at h; cases h
      | _ => exact ha
    · exact fun k t => ⟨max n k, by omega, .inr fun l hl => by rw [(hs _ (by omega)).2.2.2.2.2.1] at hl; cases hl⟩
    · intro i
      refine fair _ ?_
      rintro s ⟨h1, h2, h3, h4, h5, h6, h7, h8, h9, h10, h11⟩ ⟨e, s', rfl, _, ht⟩
      cases ht with
      | trackerNotices _ _ h => exact norecv h10 h
    · intro i
      refine fair _ ?_
      rintro s ⟨h1, h2, h3, h4, h5, h6, h7, h8, h9, h10, h11⟩ ⟨e, s', rfl, _, ht⟩
      cases ht with
      | trackerEnds h hx => exact h11 _ (List.mem_of_getElem? h) hx
    · refine fair _ ?_
      rintro s ⟨h1, h2, h3, h4, h5, h6, h7, h8, h9, h10, h11⟩ ⟨e, s', rfl, _, ht⟩
      cases ht with
      | exits h => cases h with | waited h => rw [h9] at h; cases h
  · refine fair _ ?_
    rintro s ⟨h1, h2, h3, h4, h5, h6, h7, h8, h9, h10, h11⟩ ⟨e, s', ha, _, ht⟩
    cases ht with
    | dht ho ht =>
      obtain ⟨q, outs, hc⟩ := ha
      cases ht with
      | takeQuery _ h => rw [show s.nodes.queries = _ from h4] at h; cases h
      | direct _ hd => cases hc; exact hd
      | outside hd => cases hc; exact hd
      | _ => cases hc
    | _ => exact ha
  · refine fair _ ?_
    rintro s ⟨h1, h2, h3, h4, h5, h6, h7, h8, h9, h10, h11⟩ ⟨e, s', ha, _, ht⟩
    cases ht with
    | dht ho ht =>
      obtain ⟨q, outs, hc⟩ := ha
      cases ht with
      | takeAnswer _ h => rw [show s.nodes.answers _ = _ from h5] at h; cases h
      | direct _ hd => cases hc; exact hd
      | outside hd => cases hc; exact hd
      | _ => cases hc
    | _ => exact ha
  · refine fair _ ?_
    rintro s ⟨h1, h2, h3, h4, h5, h6, h7, h8, h9, h10, h11⟩ ⟨e, s', ha, _, ht⟩
    cases ht with
    | asks h => rw [h6] at h; cases h
    | _ => exact ha

/-- A history as an execution: what happened in all of it. -/
theorem upto_length (es : List Event) : upto (fun n => es[n]?) es.length = es := by
  have : ∀ (n : Nat), n ≤ es.length → upto (fun n => es[n]?) n = es.take n := by
    intro n
    induction n with
    | zero => exact fun _ => rfl
    | succ n ih =>
      intro hn
      rw [upto_succ, ih (by omega), List.getElem?_eq_getElem (by omega), Option.toList_some, List.take_append_getElem]
  rw [this _ (Nat.le_refl _), List.take_length]

/-- A tracker names A, then another node asks for the peers of the torrent and gets its answer. -/
def answersNine : List Act := [.ev (.tracker 0 .sends), .ev (.answered 0 namesA),
  .datagram (some (exAddr 9)) (Krpc.Message.getPeersQuery (exId 9#8) Swarm.hash1 (tidOf 9#8)).intoBytes, .putQuery, .takeQuery,
  .putCommand, .command (tidOf 1#8), .sends]

/-- Nothing is left to do, and the shutdown channel is as at the start. -/
def quietNow (s : State) : Bool :=
  s.dht.commands.isEmpty && s.dht.conTodo.isEmpty && s.dht.manTodo.isEmpty && s.dht.queries.isEmpty &&
  (s.dht.answers OWN_CHANNEL).isEmpty && s.lookup.isNone && s.dht.conAlive && decide (s.dht.man.status = .running) &&
  decide (s.down.phase = .holding) && decide (s.down.tail = 0) && decide (s.down.broadcastSenders ≠ 0) &&
  s.down.receivers.all (fun r => decide (r.2 = 0)) && s.trackers.all (fun t => decide (t.phase ≠ .exited))

theorem calm_of_quiet {s : State} (h : quietNow s = true) : Calm s := by
  simp only [quietNow, Bool.and_eq_true, decide_eq_true_eq, List.isEmpty_iff, Option.isNone_iff_eq_none, List.all_eq_true] at h
  obtain ⟨⟨⟨⟨⟨⟨⟨⟨⟨⟨⟨⟨g1, g2⟩, g3⟩, g4⟩, g5⟩, g6⟩, g7⟩, g8⟩, g9⟩, g10⟩, g11⟩, g12⟩, g13⟩ := h
  refine ⟨g1, g2, g3, g4, g5, g6, g7, g8, g9, fun r => ?_, g13⟩
  unfold Shutdown.State.recv
  cases hr : s.down.receivers.get? r with
  | none => rfl
  | some k =>
    have : k = 0 := g12 _ (Map.mem_of_get? hr)
    simp only [this, g10, if_pos, if_neg g11]

/-- The hypotheses of `C92_always_partial` and `C147_answered_partial` are met by an execution in which nothing stands in the
way, a query arrives and a datagram is sent to the node it came from. -/
example : ∃ (σ : Nat → State) (ev : Nat → Option Event) (n : Nat), Started demoWorld demoSetup (σ 0) ∧
    Reachable demoSetup.table ∧ Execution demoWorld σ ev ∧ FairDht demoWorld σ ev ∧ (∀ n, ev n ≠ some .exits) ∧
    asked (dhtEvents (upto ev n)) = [(exAddr 9, tidOf 9#8, .getPeers)] ∧
    (sent (dhtEvents (upto ev n))).map (·.1) = [exAddr 9] := by
  have : play demoWorld demoSetup answersNine (fun es s =>
      decide (asked (dhtEvents es) = [(exAddr 9, tidOf 9#8, .getPeers)]) &&
      decide ((sent (dhtEvents es)).map (·.1) = [exAddr 9]) && quietNow s) =
      some true := by decide +kernel
  obtain ⟨s0, es, s, h0, h, hf⟩ := play_sound this
  simp only [Bool.and_eq_true, decide_eq_true_eq] at hf
  obtain ⟨⟨f1, f2⟩, hq⟩ := hf
  have calm := calm_of_quiet hq
  have g9 := calm.2.2.2.2.2.2.2.2.1
  obtain ⟨σ, z1, z2, z3⟩ := exec_of_run h
  refine ⟨σ, _, es.length, by rw [z1]; exact h0, .fresh _, z3, fair_of_calm fun m hm => by rw [z2 m hm]; exact calm, fun n hn => ?_,
    by rw [upto_length]; exact f1, by rw [upto_length]; exact f2⟩
  · have hdone : s.down.phase = .done := by
      exact done_of_exits h (List.mem_of_getElem? hn)
    rw [hdone] at g9; cases g9

/-- The hypotheses of `C147_flood_violated` are met: 1281 queries remain unanswered. -/
example : ∃ w u s0 s es es1 s1, Started w u s0 ∧ Run w s0 es s ∧ Run w s es1 s1 ∧
    (arrivals (dhtEvents es1)).length = 1281 ∧
    ∀ es2 s2, Run w s1 es2 s2 → sent (dhtEvents (es1 ++ es2)) = [] := by
  obtain ⟨s0, s, h0, h, f1, f2, f3, f4, f5, f6, f7⟩ := ex_end
  obtain ⟨es1, s1, r1, a1, hall⟩ := C147_flood_violated _ _ _ _ _ oneNode_reachable (fun _ _ => rfl) rfl h0 h
    (by simp [joinsA, firstPing]) f1 f2 f3 f4 f5 ⟨exId 7#8, exAddr 1, some 5⟩ (by rw [f7]; simp) (exAddr 9) (exId 8#8)
    (ascii "aa") (by decide +kernel)
  exact ⟨_, _, s0, s, _, es1, s1, h0, h, r1, by rw [a1, List.length_replicate, f6], fun es2 s2 r2 => (hall es2 s2 r2).2⟩

end Nargun.Program
