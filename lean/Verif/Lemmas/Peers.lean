import Verif.Spec.Peers

/-! # Lemmas about the table of known peers -/

namespace Nargun.Peers

open Spec

/-- The peers with a given status, in iteration order. -/
def keysWith (st : Status) (m : Map Peer Status) : List Peer := (m.filter (fun e => e.2 = st)).map (·.1)

theorem mem_keysWith {st : Status} {m : Map Peer Status} (hm : m.WF) {p : Peer} :
    p ∈ keysWith st m ↔ m.get? p = some st := by
  simp only [keysWith, List.mem_map, List.mem_filter, decide_eq_true_eq]
  constructor
  · rintro ⟨⟨q, s⟩, ⟨h1, rfl⟩, rfl⟩
    exact Map.get?_of_mem hm h1
  · intro h
    exact ⟨(p, st), ⟨Map.mem_of_get? h, rfl⟩, rfl⟩

theorem keysWith_sublist (st : Status) (m : Map Peer Status) : (keysWith st m).Sublist m.keys :=
  (List.filter_sublist).map _

theorem keysWith_nodup (st : Status) {m : Map Peer Status} (hm : m.WF) : (keysWith st m).Nodup :=
  (keysWith_sublist st m).nodup hm

/-- One pass in closed form. -/
theorem pass_spec (st : Status) (n : Nat) (m : Map Peer Status) (hm : m.WF) :
    (pass st n m).2 = (keysWith st m).take n ∧ (pass st n m).1.keys = m.keys ∧
    (∀ st', st' ≠ st → st' ≠ .active → keysWith st' (pass st n m).1 = keysWith st' m) ∧
    (∀ p, (pass st n m).1.get? p = if p ∈ (pass st n m).2 then some .active else m.get? p) := by
  induction m generalizing n with
  | nil => cases n <;> simp [pass, keysWith, Map.keys]
  | cons e m ih =>
    obtain ⟨q, s⟩ := e
    have hm' : Map.WF m := (List.nodup_cons.mp hm).2
    have hq : q ∉ Map.keys m := (List.nodup_cons.mp hm).1
    cases n with
    | zero => simp [pass]
    | succ n =>
      by_cases hs : s = st
      · obtain ⟨h1, h2, h3, h4⟩ := ih n hm'
        subst hs
        simp only [pass, if_true]
        refine ⟨?_, ?_, ?_, ?_⟩
        · rw [h1]; simp [keysWith]
        · simp only [Map.keys, List.map_cons]; rw [← Map.keys, ← Map.keys, h2]
        · intro st' hne hna
          have e1 : ¬ Status.active = st' := fun h => hna h.symm
          have e2 : ¬ s = st' := fun h => hne h.symm
          have := h3 st' hne hna
          simp only [keysWith, List.filter_cons, e1, e2, decide_false, Bool.false_eq_true, if_false] at this ⊢
          exact this
        · intro p
          simp only [Map.get?_cons, List.mem_cons]
          by_cases hp : p = q
          · simp [hp]
          · have hp' : ¬ q = p := fun h => hp h.symm
            rw [h4 p]
            simp [hp, hp']
      · obtain ⟨h1, h2, h3, h4⟩ := ih (n + 1) hm'
        simp only [pass, hs, if_false]
        have hnot : q ∉ (pass st (n + 1) m).2 := by
          rw [h1]
          intro h
          exact hq ((keysWith_sublist st m).subset (List.mem_of_mem_take h))
        refine ⟨?_, ?_, ?_, ?_⟩
        · rw [h1]; simp [keysWith, hs]
        · simp only [Map.keys, List.map_cons]; rw [← Map.keys, ← Map.keys, h2]
        · intro st' hne hna
          have := h3 st' hne hna
          simp only [keysWith, List.filter_cons] at this ⊢
          split
          · simp only [List.map_cons]; rw [this]
          · exact this
        · intro p
          simp only [Map.get?_cons]
          by_cases hp : q = p
          · subst hp; simp [hnot]
          · simp only [hp, if_false]; exact h4 p

/-- All passes in closed form. -/
theorem activate_spec (limit : Nat) (order : List Status) (acc : List Peer) (m : Map Peer Status) (hm : m.WF)
    (hnd : order.Nodup) (hna : Status.active ∉ order.tail) :
    (activate limit order acc m).2 = acc ++ (order.flatMap (fun st => keysWith st m)).take (limit - acc.length) ∧
    (activate limit order acc m).1.keys = m.keys ∧
    (∀ p, (activate limit order acc m).1.get? p =
      if p ∈ (order.flatMap (fun st => keysWith st m)).take (limit - acc.length) then some .active else m.get? p) := by
  induction order generalizing acc m with
  | nil => simp [activate]
  | cons st order ih =>
    obtain ⟨h1, h2, h3, h4⟩ := pass_spec st (limit - acc.length) m hm
    have hm1 : (pass st (limit - acc.length) m).1.WF := by rw [Map.WF, h2]; exact hm
    simp only [List.tail_cons] at hna
    have hna' : Status.active ∉ order.tail := fun h => hna (List.mem_of_mem_tail h)
    obtain ⟨i1, i2, i3⟩ := ih (acc ++ (pass st (limit - acc.length) m).2) _ hm1 (List.nodup_cons.mp hnd).2 hna'
    have hfm : order.flatMap (fun s => keysWith s (pass st (limit - acc.length) m).1) =
        order.flatMap (fun s => keysWith s m) := by
      rw [List.flatMap_def, List.flatMap_def]
      congr 1
      apply List.map_congr_left
      intro s hs
      exact h3 s (fun h => (List.nodup_cons.mp hnd).1 (h ▸ hs)) (fun h => hna (h ▸ hs))
    have hlen : limit - (acc ++ (pass st (limit - acc.length) m).2).length =
        limit - acc.length - (keysWith st m).length := by
      rw [List.length_append, h1, List.length_take]; omega
    simp only [hfm, hlen] at i1 i3
    simp only [activate, List.flatMap_cons, List.take_append]
    refine ⟨?_, ?_, ?_⟩
    · rw [i1, h1, List.append_assoc]
    · rw [i2, h2]
    · intro p
      rw [i3 p, h4 p, h1]
      simp only [List.mem_append]
      by_cases c1 : p ∈ (keysWith st m).take (limit - acc.length)
      · simp [c1]
      · simp only [c1, if_false, false_or]

theorem updateBad_get? (m : Map Peer Status) (bad : List (Peer × Status)) (p : Peer) :
    (updateBad m bad).get? p = match bad.reverse.find? (fun e => e.1 = p) with
      | some e => some e.2
      | none => m.get? p := by
  induction bad generalizing m with
  | nil => rfl
  | cons e bad ih =>
    simp only [updateBad, List.foldl_cons] at ih ⊢
    rw [ih]
    simp only [List.reverse_cons, List.find?_append]
    cases h : bad.reverse.find? (fun e => e.1 = p) with
    | some x => simp
    | none =>
      simp only [Option.none_or, Map.get?_insert, List.find?_cons, List.find?_nil]
      by_cases hp : e.1 = p
      · subst hp; simp
      · have : ¬ p = e.1 := fun h => hp h.symm
        simp [hp, this]

theorem updateBad_wf {m : Map Peer Status} (hm : m.WF) (bad : List (Peer × Status)) : (updateBad m bad).WF := by
  induction bad generalizing m with
  | nil => exact hm
  | cons e bad ih => exact ih (Map.wf_insert hm _ _)

theorem updateBad_keys (m : Map Peer Status) (bad : List (Peer × Status)) {p : Peer} (h : p ∈ m.keys) :
    p ∈ (updateBad m bad).keys := by
  induction bad generalizing m with
  | nil => exact h
  | cons e bad ih => exact ih _ (Map.mem_keys_insert.mpr (.inr h))

theorem extend_get? (m : Map Peer Status) (ps : List Peer) (p : Peer) :
    (ps.foldl (fun m p => m.insert p .unknown) m).get? p = if p ∈ ps then some .unknown else m.get? p := by
  induction ps generalizing m with
  | nil => simp
  | cons q ps ih =>
    simp only [List.foldl_cons, ih, Map.get?_insert, List.mem_cons]
    by_cases h1 : p ∈ ps <;> by_cases h2 : p = q <;> simp [h1, h2]

theorem extend_wf {m : Map Peer Status} (hm : m.WF) (ps : List Peer) :
    Map.WF (ps.foldl (fun m p => m.insert p .unknown) m) := by
  induction ps generalizing m with
  | nil => exact hm
  | cons e bad ih => exact ih (Map.wf_insert hm _ _)

theorem goodOrder_ok : goodOrder.Nodup ∧ Status.active ∉ goodOrder.tail := by decide
theorem batchOrder_ok : batchOrder.Nodup ∧ Status.active ∉ batchOrder.tail := by decide

theorem step_wf {s s' : Peers} {o : Op} (h : Step s o s') (hm : s.data.WF) : s'.data.WF := by
  cases h with
  | insert => exact Map.wf_insert hm _ _
  | extend => exact extend_wf hm _
  | good =>
    simp only [getGoodPeers, Map.WF]
    rw [(activate_spec _ goodOrder [] s.data hm goodOrder_ok.1 goodOrder_ok.2).2.1]; exact hm
  | enough =>
    simp only [enoughPeers, getGoodPeers, Map.WF]
    rw [(activate_spec _ goodOrder [] s.data hm goodOrder_ok.1 goodOrder_ok.2).2.1]; exact hm
  | batch =>
    simp only [returnBatch, Map.WF]
    rw [(activate_spec _ batchOrder [] _ (updateBad_wf hm _) batchOrder_ok.1 batchOrder_ok.2).2.1]
    exact updateBad_wf hm _
  | reorder hp => exact Map.wf_perm hm hp

theorem run_wf {s s' : Peers} {os : List Op} (h : Run s os s') (hm : s.data.WF) : s'.data.WF := by
  induction h with
  | nil => exact hm
  | cons hs _ ih => exact ih (step_wf hs hm)

theorem mem_of_status {m : Map Peer Status} {p : Peer} {st : Status} (h : m.get? p = some st) : p ∈ m.keys := by
  cases Classical.em (p ∈ m.keys) with
  | inl h1 => exact h1
  | inr h1 => rw [Map.get?_eq_none.mpr h1] at h; simp at h

theorem status_of_mem {m : Map Peer Status} {p : Peer} (h : p ∈ m.keys) : ∃ st, m.get? p = some st := by
  cases hg : m.get? p with
  | some st => exact ⟨st, rfl⟩
  | none => exact absurd h (Map.get?_eq_none.mp hg)

end Nargun.Peers
