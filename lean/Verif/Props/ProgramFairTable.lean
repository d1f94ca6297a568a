import Verif.Props.ProgramFairLookup

/-! # C91 in the long run -/

namespace Nargun.Program

open Nargun Dht Krpc Spec DhtSystem DhtManager

/-- C91, the part that holds, for every execution in which no task is passed over for ever: the table is refreshed again and
again, unless from some moment on it never is because the table task takes queries, answers or nodes named by peers again and
again. All this unless the process ends, the socket task panics (C105), the table task ends, or the tasks wait for each other in
a circle at some moment (C92). Whom a refresh asks is `C91_refresh_partial`; that the queries leave is `C92_always_partial`.
Missing: that it is refreshed although the task is kept busy (`C91_starved_violated`). -/
theorem C91_always_partial (w : World) (u : Setup) (σ : Nat → State) (ev : Nat → Option Event) (ht : Reachable u.table)
    (h0 : Started w u (σ 0)) (hx : Execution w σ ev) (hf : FairTable w σ ev) :
    (∃ n, ev n = some .exits) ∨ (∃ n, (σ n).dht.conAlive = false) ∨ (∃ n, (σ n).dht.man.status ≠ .running) ∨
    (∃ n, TableJam (σ n) ∨ LookupJam (σ n)) ∨
    (∀ n, ∃ m e, n ≤ m ∧ ev m = some e ∧ TableRefreshes e) ∨
      (∃ k, ∀ m e, k ≤ m → ev m = some e → ¬ TableRefreshes e) ∧
        ∀ n, ∃ m e, n ≤ m ∧ ev m = some e ∧ (TableTakesQuery e ∨ TableTakesAnswer e ∨ TableTakesNode e) := by
  refine smooth_or σ ev fun hn hal hrun hj => ?_
  rcases often_or_never fun m => ∃ e, ev m = some e ∧ TableRefreshes e with h | ⟨k, hk⟩
  · exact .inl fun n => by obtain ⟨m, h1, e, h2, h3⟩ := h n; exact ⟨m, e, h1, h2, h3⟩
  refine .inr ⟨⟨k, fun m e hm he hb => hk m hm ⟨e, he, hb⟩⟩, ?_⟩
  rcases often_or_never fun m => ∃ e, ev m = some e ∧ (TableTakesQuery e ∨ TableTakesAnswer e ∨ TableTakesNode e) with
    h | ⟨k', hk'⟩
  · exact fun n => by obtain ⟨m, h1, e, h2, h3⟩ := h n; exact ⟨m, e, h1, h2, h3⟩
  exfalso
  have base : ∀ m, ∃ l, DhtManager.Run w.refreshPause (DhtManager.start u.infoHash u.table (.new u.infoHash) u.now) l
      (σ m).nodes.man := by
    intro m
    obtain ⟨l, hl, _⟩ := started_dht h0 (exec_run hx m)
    exact ⟨_, (Flow.run hl).man⟩
  have reach : ∀ m, Reachable (σ m).dht.man.table := by
    intro m
    obtain ⟨l, hl⟩ := base m
    exact ((Base.start (now := u.now) ht .nil).run hl).reach
  obtain ⟨m1, hm1, hidle⟩ := table_returns_always ht h0 hx hf.toFairDht hn hrun hj (max k k')
  have still : ∀ m, m1 ≤ m → (σ m).dht.manTodo = [] ∧ (σ m).dht.man.since = (σ m1).dht.man.since ∧
      (σ m).dht.man.refreshes = (σ m1).dht.man.refreshes := by
    intro m hm
    induction hm with
    | refl => exact ⟨hidle, rfl, rfl⟩
    | @step m hm ih =>
      have hm : m1 ≤ m := hm
      cases he : ev m with
      | none => rw [Nat.succ_eq_add_one, hx.idle m he]; exact ih
      | some e =>
        rcases (table_next (reach m) (hx.step m e he)).2.2 with ⟨g1, g2, g3⟩ | g | g | g
        · exact ⟨g3 ih.1, g1.trans ih.2.1, g2.trans ih.2.2⟩
        · exact absurd (hrun (m + 1)) g
        · exact absurd ⟨e, he, g⟩ (hk m (by omega))
        · exact absurd ⟨e, he, g⟩ (hk' m (by omega))
  obtain ⟨k7, hk7, c7⟩ := fair_stops hf.tableRefreshes (n := k) (fun m e hm he hw => hk m hm ⟨e, he, hw⟩)
  obtain ⟨m, hm, hd | hnow⟩ := hf.tableTime (max m1 k7) ((σ m1).dht.man.since + w.refreshPause (σ m1).dht.man.refreshes)
  · exact alive_exec h0 hx hn m hd
  · obtain ⟨g1, g2, g3⟩ := still m (by omega)
    obtain ⟨l, hl⟩ := base m
    obtain ⟨o1, m', outs, j1, j2, _⟩ := (C99_total ht .nil hl).2.2.2 (fun _ _ => 0#8) (fun _ _ => false)
    exact c7 m (by omega) ⟨.dht { man := some ⟨.refresh (fun _ _ => 0#8) (fun _ _ => false), outs⟩ }, _, ⟨_, _, _, rfl⟩,
      alive_exec h0 hx hn m, .dht ⟨by rintro _ ⟨⟩; trivial, by simp, rfl, rfl⟩
        (.direct (s := (σ m).nodes) g1 trivial (.refresh (hrun m) (by
          show (σ m).dht.man.since + w.refreshPause (σ m).dht.man.refreshes ≤ (σ m).dht.man.now
          rw [g2, g3]; exact hnow) j1 j2))⟩

/-- The hypotheses of `C91_always_partial` are met by an execution in which none of the exceptions applies and no query or
answer is taken any more. -/
example : ∃ u σ ev n0, Reachable u.table ∧ Started demoWorld u (σ 0) ∧ Execution demoWorld σ ev ∧ FairTable demoWorld σ ev ∧
    (∀ n, ev n ≠ some .exits) ∧ (∀ n, (σ n).dht.conAlive = true) ∧ (∀ n, (σ n).dht.man.status = .running) ∧
    (∀ n, ¬ (TableJam (σ n) ∨ LookupJam (σ n))) ∧
    ∀ m e, n0 ≤ m → ev m = some e → ¬ (TableTakesQuery e ∨ TableTakesAnswer e) := by
  obtain ⟨u, σ, ev, n0, ht, h0, hx, hf, hl, ha, _, hn, hal, hrun, hj, silent⟩ := quiet_execution
  refine ⟨u, σ, ev, n0, ht, h0, hx, ⟨hf.toFairDht, hf.tableRefreshes, hf.tableTime⟩, hn, hal, hrun, hj, fun m e hm he hw => ?_⟩
  obtain ⟨_, _, a3, a4, _⟩ := silent m hm
  have hstep := hx.step m e he
  generalize σ (m + 1) = s' at hstep
  cases e with
  | dht y =>
    cases hstep.2 with
    | dht _ h =>
      cases h with
      | takeQuery _ h => rw [show (σ m).nodes.queries = _ from a3] at h; cases h
      | takeAnswer _ h => rw [show (σ m).nodes.answers OWN_CHANNEL = _ from a4] at h; cases h
      | direct _ hd => rcases hw with ⟨_, _, h⟩ | ⟨_, _, h⟩ <;> (cases h; exact hd)
      | outside hd => rcases hw with ⟨_, _, h⟩ | ⟨_, _, h⟩ <;> (cases h; exact hd)
      | _ => rcases hw with ⟨_, _, h⟩ | ⟨_, _, h⟩ <;> cases h
  | _ => rcases hw with h | h <;> exact h

end Nargun.Program
