import Verif.Spec.DhtSystem
import Verif.Lemmas.DhtConnection
import Verif.Lemmas.DhtManager

/-! # Lemmas about the DHT as a whole -/

namespace Nargun.DhtSystem

open Nargun Dht Krpc Spec DhtManager RoutingTable

section append

theorem sent_append (a b : List DhtSystem.Entry) : sent (a ++ b) = sent a ++ sent b := List.filterMap_append
theorem heard_append (a b : List DhtSystem.Entry) : heard (a ++ b) = heard a ++ heard b := List.filterMap_append
theorem asked_append (a b : List DhtSystem.Entry) : asked (a ++ b) = asked a ++ asked b := by
  simp only [asked, heard_append, List.filterMap_append]
theorem conHistory_append (a b : List DhtSystem.Entry) : conHistory (a ++ b) = conHistory a ++ conHistory b :=
  List.filterMap_append
theorem manHistory_append (a b : List DhtSystem.Entry) : manHistory (a ++ b) = manHistory a ++ manHistory b :=
  List.filterMap_append
theorem handedQueries_append (a b : List Effect) : handedQueries (a ++ b) = handedQueries a ++ handedQueries b :=
  List.filterMap_append
theorem handedAnswers_append (c : Nat) (a b : List Effect) :
    handedAnswers c (a ++ b) = handedAnswers c a ++ handedAnswers c b := List.filterMap_append
theorem datagrams_append (a b : List Effect) : datagrams (a ++ b) = datagrams a ++ datagrams b :=
  List.filterMap_append
theorem allEffects_append (a b : List Dht.Entry) : allEffects (a ++ b) = allEffects a ++ allEffects b :=
  List.flatMap_append
theorem takenCommands_append (a b : List Dht.Entry) : takenCommands (a ++ b) = takenCommands a ++ takenCommands b :=
  List.filterMap_append
theorem takenQueries_append (a b : List DhtManager.Entry) :
    takenQueries (a ++ b) = takenQueries a ++ takenQueries b := List.filterMap_append
theorem takenByManager_append (a b : List DhtManager.Entry) :
    takenByManager (a ++ b) = takenByManager a ++ takenByManager b := List.filterMap_append
theorem takenAnswers_append (c : Nat) (a b : List DhtSystem.Entry) :
    takenAnswers c (a ++ b) = takenAnswers c a ++ takenAnswers c b := by
  unfold takenAnswers
  split
  · rw [manHistory_append, takenByManager_append]
  · exact List.filterMap_append
theorem sends_append (a b : List Out) : sends (a ++ b) = sends a ++ sends b := List.filterMap_append
theorem puts_append (a b : List DhtSystem.Entry) : puts (a ++ b) = puts a ++ puts b := List.filterMap_append
theorem putsOfManager_append (a b : List DhtSystem.Entry) :
    putsOfManager (a ++ b) = putsOfManager a ++ putsOfManager b := List.filterMap_append
theorem allOutputs_append (a b : List DhtManager.Entry) : allOutputs (a ++ b) = allOutputs a ++ allOutputs b :=
  List.flatMap_append
theorem storedTables_append (a b : List DhtSystem.Entry) :
    storedTables (a ++ b) = storedTables a ++ storedTables b := List.filterMap_append

end append

/-- How what the tasks hand to each other adds up. -/
structure Flow (env : Env) (pause : Nat → Nat) (infoHash secret : ID) (table : RoutingTable) (peers : Peers) (now : Nat)
    (h : List DhtSystem.Entry) (s : State) : Prop where
  con : Con.Run env (Con.start table.ownId secret) (conHistory h) s.con
  man : DhtManager.Run pause (DhtManager.start infoHash table peers now) (manHistory h) s.man
  listening : ∀ c, s.con.listening c = true
  queries : handedQueries (allEffects (conHistory h)) =
    takenQueries (manHistory h) ++ s.queries ++ handedQueries s.conTodo
  answers : ∀ c, handedAnswers c (allEffects (conHistory h)) =
    takenAnswers c h ++ s.answers c ++ handedAnswers c s.conTodo
  commands : puts h = takenCommands (conHistory h) ++ s.commands
  outputs : sends (startOutputs table ++ allOutputs (manHistory h)) = putsOfManager h ++ sends s.manTodo
  sent : datagrams (allEffects (conHistory h)) = sent h ++ datagrams s.conTodo
  others : ∀ e ∈ h, ∀ c, e.put = some (.other, c) → ∃ k a v, c = .query k a v ∧ k ≠ OWN_CHANNEL

theorem listening_step {env : Env} {s s' : Con} {e : Dht.Entry} (h : Con.Step env s e s') (hc : ∀ c, e.event ≠ .closed c) :
    s'.listening = s.listening := by
  cases h with
  | datagram h => rw [(receive_ok h).1]
  | @command _ tid c effs _ h =>
    cases c with
    | query ret target v => rw [send_query_eq] at h; cases h; rfl
    | resp qid v => rw [send_resp_eq] at h; cases h; rfl
  | closed => exact absurd rfl (hc _)
  | reorder _ => rfl

theorem Flow.start (env : Env) (pause : Nat → Nat) (infoHash secret : ID) (table : RoutingTable) (peers : Peers)
    (now : Nat) : Flow env pause infoHash secret table peers now [] (State.start infoHash secret table peers now) where
  con := .nil
  man := .nil
  listening _ := rfl
  queries := rfl
  answers c := by simp [takenAnswers, takenByManager, manHistory, conHistory, allEffects, handedAnswers, State.start]
  commands := rfl
  outputs := by simp [allOutputs, manHistory, putsOfManager, State.start]
  sent := rfl
  others := by simp

theorem event_ne_closed {ev : Dht.Event} {m : Option Krpc.Message} {effs : List Effect}
    (h : ∀ c, ev ≠ .closed c) : ∀ c, (⟨ev, m, effs⟩ : Dht.Entry).event ≠ .closed c := h

theorem others_snoc {h : List DhtSystem.Entry} {e : DhtSystem.Entry}
    (h1 : ∀ x ∈ h, ∀ c, x.put = some (.other, c) → ∃ k a v, c = .query k a v ∧ k ≠ OWN_CHANNEL)
    (h2 : ∀ c, e.put = some (.other, c) → ∃ k a v, c = .query k a v ∧ k ≠ OWN_CHANNEL) :
    ∀ x ∈ h ++ [e], ∀ c, x.put = some (.other, c) → ∃ k a v, c = .query k a v ∧ k ≠ OWN_CHANNEL := by
  intro x hx
  rcases List.mem_append.mp hx with hx | hx
  · exact h1 x hx
  · rw [List.mem_singleton.mp hx]; exact h2

/-- Adds up one more entry. -/
local macro "flow" : tactic =>
  `(tactic| simp_all [sent_append, conHistory_append, manHistory_append, handedQueries_append, handedAnswers_append,
      datagrams_append, allEffects_append, takenCommands_append, takenQueries_append, takenByManager_append,
      takenAnswers_append, sends_append, puts_append, putsOfManager_append, allOutputs_append,
      Spec.sent, conHistory, manHistory, handedQueries, handedAnswers, datagrams, allEffects, takenCommands,
      takenQueries, takenByManager, takenAnswers, sends, puts, putsOfManager, allOutputs])

theorem conHistory_single (e : DhtSystem.Entry) : conHistory [e] = e.con.toList := by
  cases h : e.con <;> simp [conHistory, h]

theorem manHistory_single (e : DhtSystem.Entry) : manHistory [e] = e.man.toList := by
  cases h : e.man <;> simp [manHistory, h]

theorem outputs_snoc (o : List Out) (h : List DhtSystem.Entry) (ev : DhtManager.Event) (outs : List Out) :
    sends (o ++ allOutputs (manHistory (h ++ [{ man := some ⟨ev, outs⟩ }]))) =
      sends (o ++ allOutputs (manHistory h)) ++ sends outs := by
  rw [manHistory_append, allOutputs_append, ← List.append_assoc, sends_append]
  simp [manHistory_single, allOutputs]

theorem putsOfManager_man (h : List DhtSystem.Entry) (x : DhtManager.Entry) :
    putsOfManager (h ++ [{ man := some x }]) = putsOfManager h := by
  rw [putsOfManager_append]; simp [putsOfManager]

theorem takenQueries_other (h : List DhtManager.Entry) {ev : DhtManager.Event} (outs : List Out)
    (hq : ∀ q, ev ≠ .query q) : takenQueries (h ++ [⟨ev, outs⟩]) = takenQueries h := by
  rw [takenQueries_append]
  cases ev <;> simp [takenQueries] at hq ⊢

theorem takenByManager_other (h : List DhtManager.Entry) {ev : DhtManager.Event} (outs : List Out)
    (hq : ∀ q, ev ≠ .resp q) : takenByManager (h ++ [⟨ev, outs⟩]) = takenByManager h := by
  rw [takenByManager_append]
  cases ev <;> simp [takenByManager] at hq ⊢

theorem takenAnswers_man (c : Nat) (h : List DhtSystem.Entry) {ev : DhtManager.Event} (outs : List Out)
    (hq : ∀ q, ev ≠ .resp q) : takenAnswers c (h ++ [{ man := some ⟨ev, outs⟩ }]) = takenAnswers c h := by
  unfold takenAnswers
  split
  · rw [manHistory_append, manHistory_single]
    exact takenByManager_other _ _ hq
  · rw [List.filterMap_append]; simp

theorem conHistory_man (h : List DhtSystem.Entry) (x : DhtManager.Entry) :
    conHistory (h ++ [{ man := some x }]) = conHistory h := by
  rw [conHistory_append, conHistory_single]; simp

theorem manHistory_man (h : List DhtSystem.Entry) (x : DhtManager.Entry) :
    manHistory (h ++ [{ man := some x }]) = manHistory h ++ [x] := by
  rw [manHistory_append, manHistory_single]; simp

theorem puts_man (h : List DhtSystem.Entry) (x : DhtManager.Entry) :
    puts (h ++ [{ man := some x }]) = puts h := by
  rw [puts_append]; simp [puts]

theorem sent_man (h : List DhtSystem.Entry) (x : DhtManager.Entry) :
    Spec.sent (h ++ [{ man := some x }]) = Spec.sent h := by
  rw [sent_append]; simp [Spec.sent]

theorem Flow.step {env : Env} {pause : Nat → Nat} {infoHash secret : ID} {table : RoutingTable} {peers : Peers}
    {now : Nat} {h : List DhtSystem.Entry} {s s' : State} {e : DhtSystem.Entry}
    (hf : Flow env pause infoHash secret table peers now h s) (hs : Step env pause s e s') :
    Flow env pause infoHash secret table peers now (h ++ [e]) s' := by
  obtain ⟨f1, f2, f3, f4, f5, f6, f7, f8, f9⟩ := hf
  cases hs with
  | @datagram con' sender bytes heard effs ha ht hc =>
    have hl := listening_step hc (fun c h => by cases h)
    rw [ht] at f4 f5 f8
    constructor
    · rw [conHistory_append]; exact f1.snoc hc
    · rw [manHistory_append]; simpa [manHistory] using f2
    · simpa [hl] using f3
    · flow
    · intro c; have := f5 c; flow
    · flow
    · flow
    · flow
    · exact others_snoc f9 (by simp)
  | @panics sender bytes ha ht hp =>
    constructor
    · rw [conHistory_append]; simpa [conHistory] using f1
    · rw [manHistory_append]; simpa [manHistory] using f2
    · exact f3
    · flow
    · intro c; have := f5 c; flow
    · flow
    · flow
    · flow
    · exact others_snoc f9 (by simp)
  | @command con' tid c rest effs ha ht hq hc =>
    have hl := listening_step hc (fun c h => by cases h)
    rw [ht] at f4 f5 f8
    rw [hq] at f6
    constructor
    · rw [conHistory_append]; exact f1.snoc hc
    · rw [manHistory_append]; simpa [manHistory] using f2
    · simpa [hl] using f3
    · flow
    · intro c; have := f5 c; flow
    · flow
    · flow
    · flow
    · exact others_snoc f9 (by simp)
  | @reorder con' hc =>
    have hl := listening_step hc (fun c h => by cases h)
    constructor
    · rw [conHistory_append]; exact f1.snoc hc
    · rw [manHistory_append]; simpa [manHistory] using f2
    · simpa [hl] using f3
    · flow
    · intro c; have := f5 c; flow
    · flow
    · flow
    · flow
    · exact others_snoc f9 (by simp)
  | @sends a b rest ha ht =>
    rw [ht] at f4 f5 f8
    constructor
    · rw [conHistory_append]; simpa [conHistory] using f1
    · rw [manHistory_append]; simpa [manHistory] using f2
    · exact f3
    · flow
    · intro c; have := f5 c; flow
    · flow
    · flow
    · flow
    · exact others_snoc f9 (by simp)
  | @putQuery q rest ha ht hm hl =>
    rw [ht] at f4 f5 f8
    constructor
    · rw [conHistory_append]; simpa [conHistory] using f1
    · rw [manHistory_append]; simpa [manHistory] using f2
    · exact f3
    · flow
    · intro c; have := f5 c; flow
    · flow
    · flow
    · flow
    · exact others_snoc f9 (by simp)
  | @putAnswer c r rest ha ht hm hl =>
    rw [ht] at f4 f5 f8
    constructor
    · rw [conHistory_append]; simpa [conHistory] using f1
    · rw [manHistory_append]; simpa [manHistory] using f2
    · exact f3
    · flow
    · intro k
      have f := f5 k
      have e1 : conHistory (h ++ [({} : DhtSystem.Entry)]) = conHistory h := by rw [conHistory_append, conHistory_single]; simp
      have e2 : takenAnswers k (h ++ [({} : DhtSystem.Entry)]) = takenAnswers k h := by
        rw [takenAnswers_append]; unfold takenAnswers; split <;> simp [manHistory_single, takenByManager]
      rw [e1, e2, f]
      by_cases hk : k = c
      · subst hk; simp [handedAnswers]
      · have hk' : ¬ c = k := fun h => hk h.symm
        simp [handedAnswers, hk, hk']
    · flow
    · flow
    · flow
    · exact others_snoc f9 (by simp)
  | @noListener ef rest ha ht hk hm =>
    constructor
    · rw [conHistory_append]; simpa [conHistory] using f1
    · rw [manHistory_append]; simpa [manHistory] using f2
    · exact f3
    · flow
    · intro c; have := f5 c; flow
    · flow
    · flow
    · flow
    · exact others_snoc f9 (by simp)
  | @direct ev outs man' ht hd hm =>
    have hq : ∀ q, ev ≠ .query q := by rintro q rfl; exact hd
    have ha : ∀ q, ev ≠ .resp q := by rintro q rfl; exact hd
    rw [ht] at f7
    refine ⟨by rwa [conHistory_man], by rw [manHistory_man]; exact f2.snoc hm, f3, ?_, fun c => ?_, ?_, ?_, ?_,
      others_snoc f9 (by simp)⟩
    · rw [conHistory_man, manHistory_man, takenQueries_other _ _ hq]; exact f4
    · rw [conHistory_man, takenAnswers_man _ _ _ ha]; exact f5 c
    · rw [conHistory_man, puts_man]; exact f6
    · rw [outputs_snoc, putsOfManager_man, f7]; simp [sends]
    · rw [conHistory_man, sent_man]; exact f8
  | @takeQuery q rest outs man' ht hq hm =>
    rw [ht] at f7
    rw [hq] at f4
    refine ⟨by rwa [conHistory_man], by rw [manHistory_man]; exact f2.snoc hm, f3, ?_, fun c => ?_, ?_, ?_, ?_,
      others_snoc f9 (by simp)⟩
    · rw [conHistory_man, manHistory_man, takenQueries_append, f4]; simp [takenQueries]
    · rw [conHistory_man, takenAnswers_man _ _ _ (by intro q; simp)]; exact f5 c
    · rw [conHistory_man, puts_man]; exact f6
    · rw [outputs_snoc, putsOfManager_man, f7]; simp [sends]
    · rw [conHistory_man, sent_man]; exact f8
  | @takeAnswer r rest outs man' ht hq hm =>
    rw [ht] at f7
    refine ⟨by rwa [conHistory_man], by rw [manHistory_man]; exact f2.snoc hm, f3, ?_, fun c => ?_, ?_, ?_, ?_,
      others_snoc f9 (by simp)⟩
    · rw [conHistory_man, manHistory_man, takenQueries_other _ _ (by intro q; simp)]; exact f4
    · rw [conHistory_man, f5 c]
      unfold takenAnswers
      split
      · rename_i hc
        subst hc
        rw [manHistory_man, takenByManager_append, hq]
        simp [takenByManager]
      · rename_i hc
        rw [List.filterMap_append]; simp [hc]
    · rw [conHistory_man, puts_man]; exact f6
    · rw [outputs_snoc, putsOfManager_man, f7]; simp [sends]
    · rw [conHistory_man, sent_man]; exact f8
  | @conGone man' ht ha hq hm =>
    refine ⟨by rwa [conHistory_man], by rw [manHistory_man]; exact f2.snoc hm, f3, ?_, fun c => ?_, ?_, ?_, ?_,
      others_snoc f9 (by simp)⟩
    · rw [conHistory_man, manHistory_man, takenQueries_other _ _ (by intro q; simp)]; exact f4
    · rw [conHistory_man, takenAnswers_man _ _ _ (by intro q; simp)]; exact f5 c
    · rw [conHistory_man, puts_man]; exact f6
    · rw [outputs_snoc, putsOfManager_man, f7]; simp [sends]
    · rw [conHistory_man, sent_man]; exact f8
  | @outside ev man' ho hm =>
    have hq : ∀ q, ev ≠ .query q := by rintro q rfl; exact ho
    have ha : ∀ q, ev ≠ .resp q := by rintro q rfl; exact ho
    refine ⟨by rwa [conHistory_man], by rw [manHistory_man]; exact f2.snoc hm, f3, ?_, fun c => ?_, ?_, ?_, ?_,
      others_snoc f9 (by simp)⟩
    · rw [conHistory_man, manHistory_man, takenQueries_other _ _ hq]; exact f4
    · rw [conHistory_man, takenAnswers_man _ _ _ ha]; exact f5 c
    · rw [conHistory_man, puts_man]; exact f6
    · rw [outputs_snoc, putsOfManager_man, f7]; simp [sends]
    · rw [conHistory_man, sent_man]; exact f8
  | @putCommand c rest hr ht ha hl =>
    rw [ht] at f7
    constructor
    · rw [conHistory_append]; simpa [conHistory] using f1
    · rw [manHistory_append]; simpa [manHistory] using f2
    · exact f3
    · flow
    · intro c; have := f5 c; flow
    · flow
    · flow
    · flow
    · exact others_snoc f9 (by simp)
  | @putFails c rest man' ht ha hm =>
    refine ⟨by rwa [conHistory_man], by rw [manHistory_man]; exact f2.snoc hm, f3, ?_, fun c => ?_, ?_, ?_, ?_,
      others_snoc f9 (by simp)⟩
    · rw [conHistory_man, manHistory_man, takenQueries_other _ _ (by intro q; simp)]; exact f4
    · rw [conHistory_man, takenAnswers_man _ _ _ (by intro q; simp)]; exact f5 c
    · rw [conHistory_man, puts_man]; exact f6
    · rw [outputs_snoc, putsOfManager_man, f7]; simp [sends]
    · rw [conHistory_man, sent_man]; exact f8
  | @spawns ns rest hr ht =>
    rw [ht] at f7
    constructor
    · rw [conHistory_append]; simpa [conHistory] using f1
    · rw [manHistory_append]; simpa [manHistory] using f2
    · exact f3
    · flow
    · intro c; have := f5 c; flow
    · flow
    · flow
    · flow
    · exact others_snoc f9 (by simp)
  | @stores t rest hr ht =>
    rw [ht] at f7
    constructor
    · rw [conHistory_append]; simpa [conHistory] using f1
    · rw [manHistory_append]; simpa [manHistory] using f2
    · exact f3
    · flow
    · intro c; have := f5 c; flow
    · flow
    · flow
    · flow
    · exact others_snoc f9 (by simp)
  | @ask c target v hc0 ha hl =>
    constructor
    · rw [conHistory_append]; simpa [conHistory] using f1
    · rw [manHistory_append]; simpa [manHistory] using f2
    · exact f3
    · flow
    · intro c; have := f5 c; flow
    · flow
    · flow
    · flow
    · refine others_snoc f9 ?_; intro x hx; cases hx; exact ⟨_, _, _, rfl, hc0⟩
  | @hear c r rest hc0 hq =>
    constructor
    · rw [conHistory_append]; simpa [conHistory] using f1
    · rw [manHistory_append]; simpa [manHistory] using f2
    · exact f3
    · flow
    · intro k
      have f := f5 k
      have e1 : conHistory (h ++ [{ heard := some (c, r) }]) = conHistory h := by
        rw [conHistory_append, conHistory_single]; simp
      rw [e1, f, takenAnswers_append]
      by_cases hk : k = c
      · subst hk; simp [takenAnswers, hc0, hq]
      · have hk' : ¬ c = k := fun h => hk h.symm
        simp only [hk, if_false, List.append_cancel_right_eq]
        unfold takenAnswers
        split <;> simp [manHistory_single, takenByManager, hk']
    · flow
    · flow
    · flow
    · exact others_snoc f9 (by simp)

theorem Flow.run {env : Env} {pause : Nat → Nat} {infoHash secret : ID} {table : RoutingTable} {peers : Peers}
    {now : Nat} {h : List DhtSystem.Entry} {s : State}
    (hr : Run env pause (State.start infoHash secret table peers now) h s) :
    Flow env pause infoHash secret table peers now h s := by
  generalize hs0 : State.start infoHash secret table peers now = s0 at hr
  induction hr with
  | nil => subst hs0; exact .start ..
  | snoc _ hs ih => exact ih.step hs

end Nargun.DhtSystem
