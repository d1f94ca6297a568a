import Verif.Spec.Shutdown

/-! # C82, C83 -/

namespace Nargun.Shutdown

open Nargun Spec

/-- Invariant of all histories. -/
structure Inv (h : List Event) (s : State) : Prop where
  wf : s.receivers.WF
  live : ∀ r, r ∈ s.receivers.keys ↔ Live h r
  markers : s.markers = s.receivers.length
  senders : s.broadcastSenders = s.receivers.length + if s.phase = .holding then 1 else 0
  fresh : ∀ r, Made h r → r < s.made
  dropped : ∀ r, .drop r ∈ h → r < s.made
  unseen : ∀ r, .recv r ∈ h → r < s.made
  holding : s.phase = .holding ↔ .send ∉ h ∧ .dropSender ∉ h
  waiting : s.phase = .waiting ↔ .send ∈ h ∧ .dropSender ∉ h ∧ .waited ∉ h
  order : .waited ∈ h → .send ∈ h
  once : h.count .send ≤ 1
  tail : s.tail ≤ h.count .send
  next : ∀ r n, s.receivers.get? r = some n → n ≤ s.tail ∧ (n < s.tail ↔ Signalled h r) ∧ h.count (.recv r) ≤ n
  atMostOnce : ∀ r, h.count (.recv r) ≤ 1

theorem made_snoc {h : List Event} {e : Event} {r : Nat} :
    Made (h ++ [e]) r ↔ Made h r ∨ ∃ old, e = .clone old r := by
  simp only [Made, List.mem_append, List.mem_singleton]
  constructor
  · rintro (h | ⟨old, h | h⟩)
    · exact .inl (.inl h)
    · exact .inl (.inr ⟨old, h⟩)
    · exact .inr ⟨old, h.symm⟩
  · rintro ((h | ⟨old, h⟩) | ⟨old, h⟩)
    · exact .inl h
    · exact .inr ⟨old, .inl h⟩
    · exact .inr ⟨old, .inr h.symm⟩

theorem live_snoc {h : List Event} {e : Event} {r : Nat} :
    Live (h ++ [e]) r ↔ (Made h r ∨ ∃ old, e = .clone old r) ∧ .drop r ∉ h ∧ e ≠ .drop r := by
  simp only [Live, made_snoc, List.mem_append, List.mem_singleton, not_or]
  constructor
  · rintro ⟨h1, h2, h3⟩; exact ⟨h1, h2, fun h => h3 h.symm⟩
  · rintro ⟨h1, h2, h3⟩; exact ⟨h1, h2, fun h => h3 h.symm⟩

theorem signalled_snoc {h : List Event} {e : Event} {r : Nat} :
    Signalled (h ++ [e]) r ↔ (e = .send ∧ Live h r) ∨ (Signalled h r ∧ e ≠ .recv r) := by
  constructor
  · rintro ⟨a, b, heq, hl, hn⟩
    rcases List.eq_nil_or_concat b with rfl | ⟨b', x, rfl⟩
    · have := List.append_inj' heq (by simp)
      obtain ⟨rfl, h2⟩ := this
      simp only [List.cons.injEq, and_true] at h2
      exact .inl ⟨h2, hl⟩
    · rw [List.concat_eq_append, ← List.cons_append, ← List.append_assoc] at heq
      have := List.append_inj' heq (by simp)
      obtain ⟨rfl, h2⟩ := this
      simp only [List.cons.injEq, and_true] at h2
      subst h2
      simp only [List.concat_eq_append, List.mem_append, List.mem_singleton, not_or] at hn
      exact .inr ⟨⟨a, b', rfl, hl, hn.1⟩, fun h => hn.2 h.symm⟩
  · rintro (⟨rfl, hl⟩ | ⟨⟨a, b, rfl, hl, hn⟩, hne⟩)
    · exact ⟨h, [], rfl, hl, by simp⟩
    · refine ⟨a, b ++ [e], by simp, hl, ?_⟩
      simp only [List.mem_append, List.mem_singleton, not_or]
      exact ⟨hn, fun h => hne h.symm⟩

theorem signalled_send {h : List Event} {r : Nat} (hs : Signalled h r) : .send ∈ h ∧ Made h r := by
  obtain ⟨a, b, rfl, hl, _⟩ := hs
  refine ⟨by simp, ?_⟩
  rcases hl.1 with h | ⟨old, h⟩
  · exact .inl h
  · exact .inr ⟨old, by simp [h]⟩

theorem Inv.start : Inv [] channel where
  wf := by simp [channel, Map.WF, Map.keys]
  live r := by simp [channel, Map.keys, Live, Made]
  markers := rfl
  senders := rfl
  fresh r h := by simp only [Made] at h; simp at h; subst h; decide
  dropped r h := by simp at h
  unseen r h := by simp at h
  holding := by simp [channel]
  waiting := by simp [channel]
  order h := by simp at h
  once := by simp
  tail := by simp [channel]
  next r n h := by
    simp only [channel, Map.get?_cons, Map.get?_nil] at h
    split at h
    · simp only [Option.some.injEq] at h; subst h
      refine ⟨Nat.le_refl _, ?_, by simp⟩
      constructor
      · intro h; simp [channel] at h
      · intro h; have := (signalled_send h).1; simp at this
    · simp at h
  atMostOnce r := by simp

theorem length_erase_mem {m : Map Nat Nat} (hw : m.WF) {k : Nat} (hk : k ∈ m.keys) :
    (m.erase k).length + 1 = m.length := by
  induction m with
  | nil => simp [Map.keys] at hk
  | cons e m ih =>
    simp only [Map.WF, Map.keys, List.map_cons, List.nodup_cons] at hw
    by_cases he : e.1 = k
    · have : Map.erase m k = m := by
        rw [Map.erase, List.filter_eq_self]
        intro x hx
        simp only [ne_eq, decide_eq_true_eq]
        intro hxk
        exact hw.1 (List.mem_map.mpr ⟨x, hx, by rw [hxk, he]⟩)
      rw [show Map.erase (e :: m) k = Map.erase m k by simp [Map.erase, he], this]
      rfl
    · have hk' : k ∈ Map.keys m := by
        simp only [Map.keys, List.map_cons, List.mem_cons] at hk
        exact hk.resolve_left fun h => he h.symm
      have := ih hw.2 hk'
      rw [show Map.erase (e :: m) k = e :: Map.erase m k by simp [Map.erase, he], List.length_cons,
        List.length_cons, this]

theorem Inv.step {h : List Event} {s s' : State} {e : Event} (hi : Inv h s) (hs : Step s e s') :
    Inv (h ++ [e]) s' := by
  obtain ⟨wf, live, markers, senders, fresh, dropped, unseen, holding, waiting, order, once, tail, next, amo⟩ := hi
  have nosend : .send ∉ h → s.tail = 0 := by
    intro hn; rw [List.count_eq_zero.mpr hn] at tail; omega
  cases hs with
  | @clone r hr =>
    have hnew : s.made ∉ s.receivers.keys := by
      intro hm
      exact Nat.lt_irrefl _ (fresh _ ((live _).mp hm).1)
    refine ⟨Map.wf_insert wf _ _, ?_, ?_, ?_, ?_, ?_, ?_, ?_, ?_, ?_, ?_, ?_, ?_, ?_⟩
    · intro r'
      rw [State.clone, Map.mem_keys_insert, live, live_snoc]
      constructor
      · rintro (rfl | ⟨h1, h2⟩)
        · exact ⟨.inr ⟨r, rfl⟩, fun hd => Nat.lt_irrefl _ (dropped _ hd), by simp⟩
        · exact ⟨.inl h1, h2, by simp⟩
      · rintro ⟨h1 | ⟨old, h1⟩, h2, _⟩
        · exact .inr ⟨h1, h2⟩
        · simp only [Event.clone.injEq] at h1
          exact .inl h1.2.symm
    · simp only [State.clone, Map.length_insert, hnew, if_false, markers]
    · simp only [State.clone, Map.length_insert, hnew, if_false, senders]; omega
    · intro r' h1
      rcases made_snoc.mp h1 with h1 | ⟨old, h1⟩
      · exact Nat.lt_succ_of_lt (fresh _ h1)
      · simp only [Event.clone.injEq] at h1
        simp only [State.clone, ← h1.2]; omega
    · intro r' h1
      simp only [List.mem_append, List.mem_singleton, reduceCtorEq, or_false] at h1
      exact Nat.lt_succ_of_lt (dropped _ h1)
    · intro r' h1
      simp only [List.mem_append, List.mem_singleton, reduceCtorEq, or_false] at h1
      exact Nat.lt_succ_of_lt (unseen _ h1)
    · simpa [State.clone] using holding
    · simpa [State.clone] using waiting
    · simpa using order
    · simpa [List.count_append] using once
    · simpa [State.clone, List.count_append] using tail
    · intro r' n hg
      simp only [State.clone, Map.get?_insert] at hg ⊢
      split at hg
      · rename_i hr'
        subst hr'
        simp only [Option.some.injEq] at hg
        subst hg
        refine ⟨Nat.le_refl _, ?_, ?_⟩
        · constructor
          · intro h; omega
          · intro h
            rcases signalled_snoc.mp h with ⟨h, _⟩ | ⟨h, _⟩
            · cases h
            · exact absurd (fresh _ (signalled_send h).2) (Nat.lt_irrefl _)
        · rw [List.count_eq_zero.mpr]
          · omega
          · simp only [List.mem_append, List.mem_singleton, reduceCtorEq, or_false]
            intro h; exact Nat.lt_irrefl _ (unseen _ h)
      · obtain ⟨h1, h2, h3⟩ := next r' n hg
        refine ⟨h1, ?_, by simpa [List.count_append] using h3⟩
        rw [h2, signalled_snoc]; simp
    · intro r'; simpa [List.count_append] using amo r'
  | @drop r hr =>
    have hmem := Map.contains_iff.mp hr
    have hlen := length_erase_mem wf hmem
    have hmade := fresh r ((live r).mp hmem).1
    refine ⟨Map.wf_erase wf _, ?_, ?_, ?_, ?_, ?_, ?_, ?_, ?_, ?_, ?_, ?_, ?_, ?_⟩
    · intro r'
      rw [State.drop, Map.keys_erase, List.mem_filter, live, live_snoc, Live]
      simp only [ne_eq, decide_eq_true_eq, reduceCtorEq, exists_false, or_false, Event.drop.injEq]
      constructor
      · rintro ⟨⟨h1, h2⟩, h3⟩; exact ⟨h1, h2, fun h => h3 h.symm⟩
      · rintro ⟨h1, h2, h3⟩; exact ⟨⟨h1, h2⟩, fun h => h3 h.symm⟩
    · simp only [State.drop, markers]; omega
    · simp only [State.drop, senders]; omega
    · intro r' h1
      rcases made_snoc.mp h1 with h1 | ⟨old, h1⟩
      · exact fresh _ h1
      · cases h1
    · intro r' h1
      simp only [List.mem_append, List.mem_singleton, Event.drop.injEq] at h1
      rcases h1 with h1 | rfl
      · exact dropped _ h1
      · exact hmade
    · intro r' h1
      simp only [List.mem_append, List.mem_singleton, reduceCtorEq, or_false] at h1
      exact unseen _ h1
    · simpa [State.drop] using holding
    · simpa [State.drop] using waiting
    · simpa using order
    · simpa [List.count_append] using once
    · simpa [State.drop, List.count_append] using tail
    · intro r' n hg
      simp only [State.drop, Map.get?_erase] at hg ⊢
      split at hg
      · simp at hg
      · obtain ⟨h1, h2, h3⟩ := next r' n hg
        refine ⟨h1, ?_, by simpa [List.count_append] using h3⟩
        rw [h2, signalled_snoc]; simp
    · intro r'; simpa [List.count_append] using amo r'
  | send hp =>
    have hh := holding.mp hp
    have ht := nosend hh.1
    refine ⟨wf, ?_, markers, ?_, ?_, ?_, ?_, ?_, ?_, ?_, ?_, ?_, ?_, ?_⟩
    · intro r'
      simp only [State.send]
      rw [live, live_snoc, Live]; simp
    · simp only [State.send, senders, hp]; simp
    · intro r' h1
      rcases made_snoc.mp h1 with h1 | ⟨old, h1⟩
      · exact fresh _ h1
      · cases h1
    · intro r' h1
      simp only [List.mem_append, List.mem_singleton, reduceCtorEq, or_false] at h1
      exact dropped _ h1
    · intro r' h1
      simp only [List.mem_append, List.mem_singleton, reduceCtorEq, or_false] at h1
      exact unseen _ h1
    · simp [State.send]
    · simp only [State.send, List.mem_append, List.mem_singleton, reduceCtorEq, or_false, or_true, true_and, true_iff]
      refine ⟨hh.2, ?_⟩
      intro hw
      exact hh.1 (order hw)
    · simp
    · simp [List.count_append, List.count_eq_zero.mpr hh.1]
    · simp only [State.send, List.count_append, List.count_eq_zero.mpr hh.1, ht]; split <;> simp
    · intro r' n hg
      simp only [State.send] at hg ⊢
      obtain ⟨h1, h2, h3⟩ := next r' n hg
      have hne : s.receivers ≠ [] := by rintro he; simp [he] at hg
      have hl : Live h r' := by
        rw [← live]
        exact List.mem_map.mpr ⟨_, Map.mem_of_get? hg, rfl⟩
      refine ⟨by simp [hne]; omega, ?_, by simpa [List.count_append] using h3⟩
      rw [signalled_snoc]
      simp only [hne, if_false, hl, and_self, true_or, iff_true]
      omega
    · intro r'; simpa [List.count_append] using amo r'
  | @recv _ r hr =>
    simp only [State.recv] at hr
    split at hr
    · simp at hr
    · rename_i n hg
      split at hr
      · split at hr <;> simp at hr
      · split at hr
        · simp at hr
        · rename_i hne hcap
          simp only [Option.some.injEq, Res.ok.injEq] at hr
          subst hr
          obtain ⟨h1, h2, h3⟩ := next r n hg
          have hmem : r ∈ s.receivers.keys := List.mem_map.mpr ⟨_, Map.mem_of_get? hg, rfl⟩
          have htail : s.tail ≤ 1 := Nat.le_trans tail once
          have hn0 : n = 0 ∧ s.tail = 1 := by omega
          refine ⟨Map.wf_insert wf _ _, ?_, ?_, ?_, ?_, ?_, ?_, ?_, ?_, ?_, ?_, ?_, ?_, ?_⟩
          · intro r'
            rw [Map.keys_insert_of_mem hmem, live, live_snoc, Live]; simp
          · simp only [Map.length_insert, hmem, if_true, markers]
          · simp only [Map.length_insert, hmem, if_true, senders]
          · intro r' h1
            rcases made_snoc.mp h1 with h1 | ⟨old, h1⟩
            · exact fresh _ h1
            · cases h1
          · intro r' h1
            simp only [List.mem_append, List.mem_singleton, reduceCtorEq, or_false] at h1
            exact dropped _ h1
          · intro r' h1
            simp only [List.mem_append, List.mem_singleton, Event.recv.injEq] at h1
            rcases h1 with h1 | rfl
            · exact unseen _ h1
            · exact fresh _ ((live _).mp hmem).1
          · simpa using holding
          · simpa using waiting
          · simpa using order
          · simpa [List.count_append] using once
          · simpa [List.count_append] using tail
          · intro r' n' hg'
            simp only [Map.get?_insert] at hg'
            split at hg'
            · rename_i hr'
              subst hr'
              simp only [Option.some.injEq] at hg'
              subst hg'
              refine ⟨by simp only []; omega, ?_, by simp [List.count_append]; omega⟩
              rw [signalled_snoc]
              simp only [reduceCtorEq, false_and, ne_eq, not_true_eq_false, and_false, or_self, iff_false]
              omega
            · rename_i hr'
              obtain ⟨k1, k2, k3⟩ := next r' n' hg'
              have hne' : Event.recv r ≠ Event.recv r' := by
                intro h; simp only [Event.recv.injEq] at h; exact hr' h.symm
              refine ⟨k1, ?_, ?_⟩
              · rw [signalled_snoc, ← k2]; simp [hne']
              · rw [List.count_append, List.count_singleton]; simp [hne', k3]
          · intro r'
            by_cases hr' : r' = r
            · subst hr'
              simp [List.count_append]; omega
            · have hne' : Event.recv r ≠ Event.recv r' := by
                intro h; simp only [Event.recv.injEq] at h; exact hr' h.symm
              rw [List.count_append, List.count_singleton]
              simp [hne', amo r']
  | waited hp hm =>
    refine ⟨wf, ?_, markers, ?_, ?_, ?_, ?_, ?_, ?_, ?_, ?_, ?_, ?_, ?_⟩
    · intro r'
      simp only []
      rw [live, live_snoc, Live]; simp
    · simp only [senders, hp]; simp
    · intro r' h1
      rcases made_snoc.mp h1 with h1 | ⟨old, h1⟩
      · exact fresh _ h1
      · cases h1
    · intro r' h1
      simp only [List.mem_append, List.mem_singleton, reduceCtorEq, or_false] at h1
      exact dropped _ h1
    · intro r' h1
      simp only [List.mem_append, List.mem_singleton, reduceCtorEq, or_false] at h1
      exact unseen _ h1
    · have := (waiting.mp hp).1
      simp [this]
    · simp
    · intro _; simp [(waiting.mp hp).1]
    · simpa [List.count_append] using once
    · simpa [List.count_append] using tail
    · intro r' n hg
      obtain ⟨h1, h2, h3⟩ := next r' n hg
      refine ⟨h1, ?_, by simpa [List.count_append] using h3⟩
      rw [h2, signalled_snoc]; simp
    · intro r'; simpa [List.count_append] using amo r'
  | dropSender hp =>
    refine ⟨wf, ?_, markers, ?_, ?_, ?_, ?_, ?_, ?_, ?_, ?_, ?_, ?_, ?_⟩
    · intro r'
      simp only []
      rw [live, live_snoc, Live]; simp
    · simp only [senders, hp]; simp
    · intro r' h1
      rcases made_snoc.mp h1 with h1 | ⟨old, h1⟩
      · exact fresh _ h1
      · cases h1
    · intro r' h1
      simp only [List.mem_append, List.mem_singleton, reduceCtorEq, or_false] at h1
      exact dropped _ h1
    · intro r' h1
      simp only [List.mem_append, List.mem_singleton, reduceCtorEq, or_false] at h1
      exact unseen _ h1
    · simp
    · simp
    · simpa using order
    · simpa [List.count_append] using once
    · simpa [List.count_append] using tail
    · intro r' n hg
      obtain ⟨h1, h2, h3⟩ := next r' n hg
      refine ⟨h1, ?_, by simpa [List.count_append] using h3⟩
      rw [h2, signalled_snoc]; simp
    · intro r'; simpa [List.count_append] using amo r'
  | dropWaiter hp =>
    refine ⟨wf, ?_, markers, ?_, ?_, ?_, ?_, ?_, ?_, ?_, ?_, ?_, ?_, ?_⟩
    · intro r'
      simp only []
      rw [live, live_snoc, Live]; simp
    · simp only [senders, hp]; simp
    · intro r' h1
      rcases made_snoc.mp h1 with h1 | ⟨old, h1⟩
      · exact fresh _ h1
      · cases h1
    · intro r' h1
      simp only [List.mem_append, List.mem_singleton, reduceCtorEq, or_false] at h1
      exact dropped _ h1
    · intro r' h1
      simp only [List.mem_append, List.mem_singleton, reduceCtorEq, or_false] at h1
      exact unseen _ h1
    · simp
    · simp
    · simpa using order
    · simpa [List.count_append] using once
    · simpa [List.count_append] using tail
    · intro r' n hg
      obtain ⟨h1, h2, h3⟩ := next r' n hg
      refine ⟨h1, ?_, by simpa [List.count_append] using h3⟩
      rw [h2, signalled_snoc]; simp
    · intro r'; simpa [List.count_append] using amo r'

theorem Inv.run {h : List Event} {s : State} (hr : Run channel h s) : Inv h s := by
  generalize hs0 : channel = s0 at hr
  induction hr with
  | nil => subst hs0; exact .start
  | snoc _ hs ih => exact ih.step hs

/-- C82: the final wait returns only when every receiver ever made was dropped; and when the signal was given and all
receivers were dropped, it does return. -/
theorem C82_wait (h : List Event) (s : State) (hr : Run channel h s) :
    (∀ s', Step s .waited s' → ∀ r, Made h r → .drop r ∈ h) ∧
    (.send ∈ h → .waited ∉ h → .dropSender ∉ h → (∀ r, Made h r → .drop r ∈ h) → ∃ s', Step s .waited s') := by
  have hi := Inv.run hr
  constructor
  · intro s' hs r hm
    cases hs with
    | waited _ h0 =>
      rw [hi.markers, List.length_eq_zero_iff] at h0
      apply Classical.byContradiction
      intro hn
      have := (hi.live r).mpr ⟨hm, hn⟩
      rw [h0] at this
      simp [Map.keys] at this
  · intro h1 h2 h3 hall
    refine ⟨_, .waited (hi.waiting.mpr ⟨h1, h3, h2⟩) ?_⟩
    rw [hi.markers, List.length_eq_zero_iff]
    apply List.eq_nil_iff_forall_not_mem.mpr
    intro e he
    have := (hi.live e.1).mp (List.mem_map.mpr ⟨e, he, rfl⟩)
    exact this.2 (hall _ this.1)

/-- C82: a live receiver notices the signal exactly if it was there when the signal was given and did not notice it
before; it never panics, and nobody notices twice. -/
theorem C82_notified (h : List Event) (s : State) (hr : Run channel h s) (r : Nat) (hl : Live h r) :
    ((∃ s', Step s (.recv r) s') ↔ Signalled h r) ∧ s.recv r ≠ some .panic ∧ h.count (.recv r) ≤ 1 := by
  have hi := Inv.run hr
  have hmem := (hi.live r).mpr hl
  obtain ⟨n, hg⟩ : ∃ n, s.receivers.get? r = some n := by
    cases hg : s.receivers.get? r with
    | none => exact absurd hmem (Map.get?_eq_none.mp hg)
    | some n => exact ⟨n, rfl⟩
  obtain ⟨h1, h2, h3⟩ := hi.next r n hg
  have ht : s.tail ≤ 1 := Nat.le_trans hi.tail hi.once
  have hpos : s.broadcastSenders ≠ 0 := by
    rw [hi.senders]
    have : 0 < s.receivers.length := List.length_pos_of_mem (Map.mem_of_get? hg)
    omega
  refine ⟨?_, ?_, hi.atMostOnce r⟩
  · rw [← h2]
    constructor
    · rintro ⟨s', hs⟩
      cases hs with
      | recv hr =>
        simp only [State.recv, hg, hpos, if_false] at hr
        split at hr
        · simp at hr
        · omega
    · intro hlt
      refine ⟨{ s with receivers := s.receivers.insert r (n + 1) }, .recv ?_⟩
      have hne : n ≠ s.tail := by omega
      have hcap : ¬ s.tail - n > CAPACITY := by simp only [CAPACITY]; omega
      simp only [State.recv, hg, hne, hcap, if_false]
  · have hcap : ¬ s.tail - n > CAPACITY := by simp only [CAPACITY]; omega
    simp only [State.recv, hg, hpos, hcap, if_false]
    split <;> simp

/-- C83 (partial): a receiver cloned before the signal is given can notice it from then on until it does. Receivers
cloned afterwards never notice it (`C83_late_violated`). -/
theorem C83_early_partial (before after : List Event) (s : State) (hr : Run channel (before ++ .send :: after) s)
    (r : Nat) (hl : Live before r) (hd : .drop r ∉ after) (hn : .recv r ∉ after) : ∃ s', Step s (.recv r) s' := by
  refine (C82_notified _ _ hr r ?_).1.mpr ⟨before, after, rfl, hl, hn⟩
  refine ⟨?_, ?_⟩
  · rcases hl.1 with h | ⟨old, h⟩
    · exact .inl h
    · exact .inr ⟨old, by simp [h]⟩
  · simp only [List.mem_append, List.mem_cons, reduceCtorEq, false_or, not_or]
    exact ⟨hl.2, hd⟩

/-- C83 is violated: a receiver that is cloned after the signal was given never notices it, whatever happens later. -/
theorem C83_late_violated (before after : List Event) (old r : Nat) (s s' : State)
    (hr : Run channel (before ++ .clone old r :: after) s) (hsend : .send ∈ before) :
    ¬ Step s (.recv r) s' ∧ .recv r ∉ after := by
  have key : ∀ (h : List Event) (s : State), Run channel h s → ∀ after, h = before ++ .clone old r :: after →
      ¬ Signalled h r ∧ .recv r ∉ after := by
    intro h s hr
    generalize hs0 : channel = s0 at hr
    induction hr with
    | nil => intro after h; simp at h
    | @snoc s1 s2 h e hr hs ih =>
      subst hs0
      intro after heq
      have hi := Inv.run hr
      rcases List.eq_nil_or_concat after with rfl | ⟨b, x, rfl⟩
      · obtain ⟨rfl, h2⟩ := List.append_inj' heq (by simp)
        simp only [List.cons.injEq, and_true] at h2
        subst h2
        refine ⟨?_, by simp⟩
        intro hsig
        rcases signalled_snoc.mp hsig with ⟨h, _⟩ | ⟨h, _⟩
        · cases h
        · have hm := hi.fresh r (signalled_send h).2
          cases hs with
          | clone => exact absurd hm (Nat.lt_irrefl _)
      · rw [List.concat_eq_append, ← List.cons_append, ← List.append_assoc] at heq
        obtain ⟨rfl, h2⟩ := List.append_inj' heq (by simp)
        simp only [List.cons.injEq, and_true] at h2
        subst h2
        obtain ⟨i1, i2⟩ := ih b rfl
        constructor
        · intro hsig
          rcases signalled_snoc.mp hsig with ⟨rfl, _⟩ | ⟨h, _⟩
          · have := (Inv.run (hr.snoc hs)).once
            rw [List.count_append, List.count_append] at this
            have h1 : 0 < List.count Event.send before := List.count_pos_iff.mpr hsend
            simp at this
            omega
          · exact i1 h
        · rw [List.concat_eq_append]
          simp only [List.mem_append, List.mem_singleton, not_or]
          refine ⟨i2, ?_⟩
          rintro rfl
          have hlive : Live (before ++ .clone old r :: b) r := by
            rw [← hi.live]
            cases hs with
            | recv hrec =>
              simp only [State.recv] at hrec
              split at hrec
              · simp at hrec
              · rename_i n hg
                exact List.mem_map.mpr ⟨_, Map.mem_of_get? hg, rfl⟩
          exact i1 ((C82_notified _ _ hr r hlive).1.mp ⟨_, hs⟩)
  obtain ⟨k1, k2⟩ := key _ _ hr after rfl
  refine ⟨?_, k2⟩
  intro hs
  have hi := Inv.run hr
  have hlive : Live (before ++ .clone old r :: after) r := by
    rw [← hi.live]
    cases hs with
    | recv hrec =>
      simp only [State.recv] at hrec
      split at hrec
      · simp at hrec
      · rename_i n hg
        exact List.mem_map.mpr ⟨_, Map.mem_of_get? hg, rfl⟩
  exact k1 ((C82_notified _ _ hr r hlive).1.mp ⟨_, hs⟩)

/-- What `main` does: two clones, the original is dropped, the signal is given, both notice and end, the wait returns. -/
example : ∃ s, Run channel [.clone 0 1, .clone 0 2, .drop 0, .send, .recv 1, .recv 2, .drop 1, .drop 2, .waited] s ∧
    s.phase = .done := by
  refine ⟨_, .snoc (h := [.clone 0 1, .clone 0 2, .drop 0, .send, .recv 1, .recv 2, .drop 1, .drop 2])
    (.snoc (h := [.clone 0 1, .clone 0 2, .drop 0, .send, .recv 1, .recv 2, .drop 1])
    (.snoc (h := [.clone 0 1, .clone 0 2, .drop 0, .send, .recv 1, .recv 2])
    (.snoc (h := [.clone 0 1, .clone 0 2, .drop 0, .send, .recv 1])
    (.snoc (h := [.clone 0 1, .clone 0 2, .drop 0, .send])
    (.snoc (h := [.clone 0 1, .clone 0 2, .drop 0])
    (.snoc (h := [.clone 0 1, .clone 0 2])
    (.snoc (h := [.clone 0 1])
    (.snoc (h := []) .nil (.clone rfl)) (.clone rfl)) (.drop rfl)) (.send rfl)) (.recv rfl)) (.recv rfl)) (.drop rfl))
    (.drop rfl)) (.waited rfl rfl), rfl⟩

/-- A receiver cloned after the signal is left waiting. -/
example : ∃ s, Run channel [.send, .clone 0 1] s ∧ s.recv 1 = none :=
  ⟨_, .snoc (h := [.send]) (.snoc (h := []) .nil (.send rfl)) (.clone rfl), rfl⟩

end Nargun.Shutdown
