import Verif.Lemmas.Peers
import Verif.Lemmas.Lists
import Verif.Props.PendingPieces

/-! # C31–C34: the table of known peers -/

set_option linter.unusedSimpArgs false

namespace Nargun

open Spec Peers

/-- The candidate list behind a batch: the connectable peers, best status first. -/
theorem batch_eq {s : Peers} (hm : s.data.WF) (bad : List (Peer × Status)) (limit : Nat) :
    ∃ cands : List Peer, (s.returnBatch bad limit).2 = cands.take limit ∧ cands.Nodup ∧
      (∀ p, p ∈ cands ↔ ∃ st, afterReports s bad p = some st ∧ st ≠ .active) ∧
      cands.Pairwise (fun p q => ∀ a b, afterReports s bad p = some a → afterReports s bad q = some b → rank a ≤ rank b) ∧
      ∀ p, statusOf (s.returnBatch bad limit).1 p =
        if p ∈ cands.take limit then some .active else afterReports s bad p := by
  have hw := updateBad_wf hm bad
  obtain ⟨h1, _, h3⟩ := activate_spec limit batchOrder [] (updateBad s.data bad) hw batchOrder_ok.1 batchOrder_ok.2
  simp only [List.nil_append, List.length_nil, Nat.sub_zero] at h1 h3
  have har : ∀ p, (updateBad s.data bad).get? p = afterReports s bad p := by
    intro p; rw [updateBad_get?]; rfl
  have hmem : ∀ st p, p ∈ keysWith st (updateBad s.data bad) ↔ afterReports s bad p = some st := by
    intro st p; rw [mem_keysWith hw, har]
  have hdis : ∀ a b p, a ≠ b → p ∈ keysWith a (updateBad s.data bad) → p ∉ keysWith b (updateBad s.data bad) := by
    intro a b p hab h4 h5
    rw [hmem] at h4 h5
    rw [h4] at h5
    exact hab (Option.some.inj h5)
  refine ⟨_, h1, ?_, ?_, ?_, ?_⟩
  · simp only [List.Nodup, List.pairwise_flatMap]
    refine ⟨fun st _ => keysWith_nodup st hw, ?_⟩
    refine batchOrder_ok.1.imp ?_
    intro a b hab p hp q hq e
    subst e
    exact hdis a b p hab hp hq
  · intro p
    simp only [List.mem_flatMap, hmem]
    constructor
    · rintro ⟨st, h4, h5⟩
      refine ⟨st, h5, ?_⟩
      rintro rfl
      simp [batchOrder] at h4
    · rintro ⟨st, h4, h5⟩
      refine ⟨st, ?_, h4⟩
      cases st <;> simp [batchOrder] at h5 ⊢
  · rw [List.pairwise_flatMap]
    constructor
    · intro st _
      refine pairwise_of_forall_mem ?_
      intro p hp q hq a b ha hb
      rw [hmem] at hp hq
      rw [hp] at ha; rw [hq] at hb
      cases ha; cases hb; exact Nat.le_refl _
    · have : batchOrder.Pairwise (fun a b => rank a ≤ rank b) := by decide
      refine this.imp ?_
      intro st st' hr p hp q hq a b ha hb
      rw [hmem] at hp hq
      rw [hp] at ha; rw [hq] at hb
      cases ha; cases hb; exact hr
  · intro p
    simp only [statusOf, returnBatch]
    rw [h3 p, har]

/-! ## C31 -/

/-- C31: a batch is no longer than asked, has no duplicates, contains only known peers that (after the reports)
were not active, and afterwards exactly these are newly active; everything else is as reported. The state is
that after any history of calls, with the entries in any order. -/
theorem C31_batch_well_formed (infoHash : ID) (os : List Op) (s : Peers) (h : Run (.new infoHash) os s)
    (bad : List (Peer × Status)) (limit : Nat) :
    let batch := (s.returnBatch bad limit).2
    batch.length ≤ limit ∧ batch.Nodup ∧
    (∀ p ∈ batch, ∃ st, afterReports s bad p = some st ∧ st ≠ .active) ∧
    ∀ p, statusOf (s.returnBatch bad limit).1 p = if p ∈ batch then some .active else afterReports s bad p := by
  have hm := run_wf h (show (Peers.new infoHash).data.WF from List.nodup_nil)
  obtain ⟨cands, h1, h2, h3, _, h5⟩ := batch_eq hm bad limit
  simp only [h1]
  refine ⟨by rw [List.length_take]; omega, (List.take_sublist _ _).nodup h2, ?_, h5⟩
  intro p hp
  exact (h3 p).mp (List.mem_of_mem_take hp)

/-! ## C32 -/

/-- C32: no connectable peer is left out in favour of one with a worse status, and a batch that is shorter than
asked contains every connectable peer. -/
theorem C32_batch_prefers_better (infoHash : ID) (os : List Op) (s : Peers) (h : Run (.new infoHash) os s)
    (bad : List (Peer × Status)) (limit : Nat) :
    let batch := (s.returnBatch bad limit).2
    (∀ p ∈ batch, ∀ q, q ∉ batch → ∀ a b, afterReports s bad p = some a → afterReports s bad q = some b →
      b ≠ .active → rank a ≤ rank b) ∧
    (batch.length < limit → ∀ q st, afterReports s bad q = some st → st ≠ .active → q ∈ batch) := by
  have hm := run_wf h (show (Peers.new infoHash).data.WF from List.nodup_nil)
  obtain ⟨cands, h1, h2, h3, h4, _⟩ := batch_eq hm bad limit
  simp only [h1]
  constructor
  · intro p hp q hq a b ha hb hna
    have hqc : q ∈ cands := (h3 q).mpr ⟨b, hb, hna⟩
    rw [← List.take_append_drop limit cands] at hqc h4
    rcases List.mem_append.mp hqc with hc | hc
    · exact absurd hc hq
    · exact (List.pairwise_append.mp h4).2.2 p hp q hc a b ha hb
  · intro hlt q st hq hna
    rw [List.length_take] at hlt
    rw [List.take_of_length_le (by omega)]
    exact (h3 q).mpr ⟨st, hq, hna⟩

/-- Five peers, one of each status: reporting A as choked and asking for two yields the unknown and the useless
one, not the choked ones. -/
example : let P := fun n : Byte => (⟨⟨⟨10#8, 0#8, 0#8, n⟩, 6881#16⟩⟩ : Peer)
    let s : Peers := ⟨⟨List.replicate 20 0#8, by decide⟩,
      [(P 1, .active), (P 2, .chokedForTooLong), (P 3, .noUsefulPieces), (P 4, .unknown), (P 5, .unableToConnect)]⟩
    (s.returnBatch [(P 1, .chokedForTooLong)] 2).2 = [P 4, P 3] ∧ (s.returnBatch [] 9).2 = [P 4, P 3, P 2, P 5] := by
  decide

/-! ## C33 -/

theorem good_eq {s : Peers} (hm : s.data.WF) (limit : Nat) :
    ∃ good : List Peer, good.Nodup ∧
      (s.getGoodPeers limit).2 = (if good.take limit = [] then none else some (good.take limit)) ∧
      (∀ p, p ∈ good ↔ ∃ st, statusOf s p = some st ∧ st ≠ .unableToConnect) ∧
      (s.getGoodPeers limit).1.data.keys = s.data.keys ∧
      ∀ p, statusOf (s.getGoodPeers limit).1 p = if p ∈ good.take limit then some .active else statusOf s p := by
  obtain ⟨h1, h2, h3⟩ := activate_spec limit goodOrder [] s.data hm goodOrder_ok.1 goodOrder_ok.2
  simp only [List.nil_append, List.length_nil, Nat.sub_zero] at h1 h3
  refine ⟨goodOrder.flatMap (fun st => keysWith st s.data), ?_, by simp only [getGoodPeers, h1], ?_, by simp only [getGoodPeers]; exact h2, ?_⟩
  · simp only [List.Nodup, List.pairwise_flatMap]
    refine ⟨fun st _ => keysWith_nodup st hm, ?_⟩
    refine goodOrder_ok.1.imp ?_
    intro a b hab p hp q hq e
    subst e
    rw [mem_keysWith hm] at hp hq
    rw [hp] at hq
    exact hab (Option.some.inj hq)
  · intro p
    simp only [List.mem_flatMap, mem_keysWith hm]
    constructor
    · rintro ⟨st, h4, h5⟩
      refine ⟨st, h5, ?_⟩
      rintro rfl
      simp [goodOrder] at h4
    · rintro ⟨st, h4, h5⟩
      refine ⟨st, ?_, h4⟩
      cases st <;> simp [goodOrder] at h5 ⊢
  · intro p
    simp only [statusOf, getGoodPeers]
    exact h3 p

/-- C33, the part that holds: a query returns at most the asked number of distinct peers, all known and none
that could not be connected to; which peers are known does not change, nor does the status of any peer that is
not in the answer; "enough" is answered correctly. Missing: that the peers in the answer stay connectable,
which is false. -/
theorem C33_queries_partial (infoHash : ID) (os : List Op) (s : Peers) (h : Run (.new infoHash) os s) (limit : Nat) :
    (∀ ps, (s.getGoodPeers limit).2 = some ps → ps.length ≤ limit ∧ ps.Nodup ∧ ps ≠ [] ∧
      ∀ p ∈ ps, ∃ st, statusOf s p = some st ∧ st ≠ .unableToConnect) ∧
    ((s.getGoodPeers limit).2 = none → limit = 0 ∨ ∀ p st, statusOf s p = some st → st = .unableToConnect) ∧
    (∀ p, p ∈ (s.getGoodPeers limit).1.peerAddresses ↔ p ∈ s.peerAddresses) ∧
    (∀ p, (∀ ps, (s.getGoodPeers limit).2 = some ps → p ∉ ps) →
      statusOf (s.getGoodPeers limit).1 p = statusOf s p) ∧
    (s.enoughPeers.2 = true ↔
      ∃ ps : List Peer, ps.Nodup ∧ ps.length = 128 ∧ ∀ p ∈ ps, ∃ st, statusOf s p = some st ∧ st ≠ .unableToConnect) := by
  have hm := run_wf h (show (Peers.new infoHash).data.WF from List.nodup_nil)
  obtain ⟨good, h0, h1, h2, h3, h4⟩ := good_eq hm limit
  refine ⟨?_, ?_, ?_, ?_, ?_⟩
  · intro ps hps
    rw [h1] at hps
    split at hps
    · simp at hps
    · rename_i hne
      simp only [Option.some.injEq] at hps
      subst hps
      refine ⟨by rw [List.length_take]; omega, (List.take_sublist _ _).nodup h0, hne, ?_⟩
      intro p hp
      exact (h2 p).mp (List.mem_of_mem_take hp)
  · intro hn
    rw [h1] at hn
    split at hn
    · rename_i he
      rcases List.take_eq_nil_iff.mp he with h5 | h5
      · exact .inl h5
      · right
        intro p st hst
        cases Classical.em (st = .unableToConnect) with
        | inl h6 => exact h6
        | inr h6 =>
          have := (h2 p).mpr ⟨st, hst, h6⟩
          rw [h5] at this; simp at this
    · simp at hn
  · intro p
    simp only [peerAddresses, h3]
  · intro p hp
    rw [h4 p, if_neg]
    intro hmem
    rw [h1] at hp
    have hne : good.take limit ≠ [] := by intro e; rw [e] at hmem; simp at hmem
    simp only [hne, if_false, Option.some.injEq] at hp
    exact hp _ rfl hmem
  · obtain ⟨good', g0, g1, g2, _⟩ := good_eq hm (2 ^ 64 - 1)
    have hl : ((s.getGoodPeers (2 ^ 64 - 1)).2.map List.length).getD 0 = min (2 ^ 64 - 1) good'.length := by
      rw [g1]
      split
      · rename_i he
        have := congrArg List.length he
        simp only [List.length_take, List.length_nil] at this
        simp [this]
      · simp
    simp only [enoughPeers, decide_eq_true_eq, hl]
    constructor
    · intro hge
      refine ⟨good'.take 128, (List.take_sublist _ _).nodup g0, by rw [List.length_take]; omega, ?_⟩
      intro p hp
      exact (g2 p).mp (List.mem_of_mem_take hp)
    · rintro ⟨ps, hnd, hlen, hall⟩
      have hsub : ps ⊆ good' := fun p hp => (g2 p).mpr (hall p hp)
      have : ps.length ≤ good'.length := nodup_subset_length hnd hsub
      omega

/-- C33 is violated: after the check for enough peers (run by the DHT before looking for more), no known peer
can be connected to any more, except those that already failed: every later batch is made of these. -/
theorem C33_enough_peers_consumes_violated (infoHash : ID) (os : List Op) (s : Peers)
    (h : Run (.new infoHash) os s) (hlen : s.data.length < 2 ^ 64) (limit : Nat) :
    ∀ p ∈ (s.enoughPeers.1.returnBatch [] limit).2, statusOf s p = some .unableToConnect := by
  have hm := run_wf h (show (Peers.new infoHash).data.WF from List.nodup_nil)
  obtain ⟨good, h0, h1, h2, h3, h4⟩ := good_eq hm (2 ^ 64 - 1)
  have hm1 : s.enoughPeers.1.data.WF := by
    simp only [enoughPeers, Map.WF, h3]; exact hm
  obtain ⟨cands, c1, _, c3, _⟩ := batch_eq hm1 [] limit
  intro p hp
  rw [c1] at hp
  obtain ⟨st, h5, h6⟩ := (c3 p).mp (List.mem_of_mem_take hp)
  have h5' : statusOf (s.getGoodPeers (2 ^ 64 - 1)).1 p = some st := h5
  have hgl : good.length ≤ s.data.length := by
    have hsub : good ⊆ s.data.keys := by
      intro q hq
      obtain ⟨st, hst, _⟩ := (h2 q).mp hq
      exact mem_of_status hst
    have := nodup_subset_length h0 hsub
    simpa [Map.keys] using this
  rw [h4 p, List.take_of_length_le (by omega)] at h5'
  split at h5'
  · simp at h5'; exact absurd h5'.symm h6
  · rename_i hng
    cases Classical.em (st = .unableToConnect) with
    | inl h7 => rw [h5', h7]
    | inr h7 => exact absurd ((h2 p).mpr ⟨st, h5', h7⟩) hng

/-- The concrete effect: a fresh peer is in the next batch, but not if the DHT asked first. -/
example (infoHash : ID) : let s := (Peers.new infoHash).insert peerA
    (s.returnBatch [] 10).2 = [peerA] ∧ ((s.getGoodPeers 1).1.returnBatch [] 10).2 = [] := by
  simp [Peers.new, Peers.insert, Peers.extend, Map.insert, Map.get?, Map.contains, statusOf, returnBatch, updateBad, activate, batchOrder, pass, getGoodPeers, goodOrder, peerAddresses, Map.keys]

/-! ## C34 -/

/-- C34, first half: a known peer stays known, through any history. -/
theorem C34_known_forever (s s' : Peers) (os : List Op) (h : Run s os s') (hm : s.data.WF) (p : Peer)
    (hp : p ∈ s.peerAddresses) : p ∈ s'.peerAddresses := by
  induction h with
  | nil => exact hp
  | @cons s s1 s2 o os hs _ ih =>
    refine ih (step_wf hs hm) ?_
    cases hs with
    | insert => exact Map.mem_keys_insert.mpr (.inr hp)
    | @extend ps =>
      obtain ⟨st, hst⟩ := status_of_mem hp
      have := extend_get? s.data ps p
      split at this
      · exact mem_of_status this
      · rw [hst] at this; exact mem_of_status this
    | good => rw [peerAddresses, (good_eq hm _).choose_spec.2.2.2.1]; exact hp
    | enough =>
      simp only [peerAddresses, enoughPeers]
      rw [(good_eq hm (2 ^ 64 - 1)).choose_spec.2.2.2.1]; exact hp
    | @batch bad limit =>
      obtain ⟨st, hst⟩ := status_of_mem (updateBad_keys _ bad hp)
      have := (activate_spec limit batchOrder [] _ (updateBad_wf hm bad) batchOrder_ok.1 batchOrder_ok.2).2.1
      simp only [peerAddresses, returnBatch, this]
      exact updateBad_keys _ bad hp
    | reorder hperm => exact (hperm.map _).mem_iff.mp hp

/-- Every reported peer is known from then on. -/
theorem C34_reported_is_known (s s' : Peers) (o : Op) (h : Step s o s') (hm : s.data.WF) (p : Peer)
    (ha : announces p o ∨ reportsBad p o) : p ∈ s'.peerAddresses := by
  cases h with
  | insert =>
    rcases ha with ha | ha
    · exact Map.mem_keys_insert.mpr (.inl ha.symm)
    · exact ha.elim
  | @extend ps =>
    rcases ha with ha | ha
    · have := extend_get? s.data ps p
      rw [if_pos (show p ∈ ps from ha)] at this
      exact mem_of_status this
    · exact ha.elim
  | good => rcases ha with ha | ha <;> exact ha.elim
  | enough => rcases ha with ha | ha <;> exact ha.elim
  | @batch bad limit =>
    rcases ha with ha | ha
    · exact ha.elim
    · have hk := (activate_spec limit batchOrder [] _ (updateBad_wf hm bad) batchOrder_ok.1 batchOrder_ok.2).2.1
      simp only [peerAddresses, returnBatch, hk]
      obtain ⟨e, he, rfl⟩ := List.mem_map.mp ha
      have := updateBad_get? s.data bad e.1
      cases hf : bad.reverse.find? (fun x => x.1 = e.1) with
      | some x => rw [hf] at this; exact mem_of_status this
      | none =>
        rw [List.find?_eq_none] at hf
        have := hf e (List.mem_reverse.mpr he)
        simp at this
  | reorder => rcases ha with ha | ha <;> exact ha.elim

/-! ## C86 -/

/-- C86: a peer that has just been announced is in the next batch, unless the batch is filled with peers that
have not been tried either. -/
theorem C86_announced_is_offered (infoHash : ID) (os : List Op) (s s' : Peers) (h : Run (.new infoHash) os s)
    (o : Op) (ho : Step s o s') (p : Peer) (ha : announces p o) (bad : List (Peer × Status))
    (hb : p ∉ bad.map (·.1)) (limit : Nat) :
    let batch := (s'.returnBatch bad limit).2
    statusOf s' p = some .unknown ∧
    (p ∈ batch ∨ (batch.length = limit ∧ ∀ q ∈ batch, afterReports s' bad q = some .unknown)) := by
  have hm := run_wf h (show (Peers.new infoHash).data.WF from List.nodup_nil)
  have hm' := step_wf ho hm
  have hst : statusOf s' p = some .unknown := by
    cases ho with
    | @insert q =>
      have : q = p := ha
      simp only [statusOf, Peers.insert, Map.get?_insert, this, if_true]
    | @extend ps =>
      simp only [statusOf, Peers.extend, extend_get?]
      rw [if_pos (show p ∈ ps from ha)]
    | good => exact ha.elim
    | enough => exact ha.elim
    | batch => exact ha.elim
    | reorder => exact ha.elim
  have har : afterReports s' bad p = some .unknown := by
    have : bad.reverse.find? (fun e => e.1 = p) = none := by
      rw [List.find?_eq_none]
      intro e he heq
      apply hb
      simp only [decide_eq_true_eq] at heq
      exact List.mem_map.mpr ⟨e, List.mem_reverse.mp he, heq⟩
    simp only [afterReports, this]
    exact hst
  refine ⟨hst, ?_⟩
  obtain ⟨cands, h1, h2, h3, h4, _⟩ := batch_eq hm' bad limit
  rw [h1]
  have hpc : p ∈ cands := (h3 p).mpr ⟨_, har, by simp⟩
  by_cases hin : p ∈ cands.take limit
  · exact .inl hin
  · right
    have hpd : p ∈ cands.drop limit := by
      rw [← List.take_append_drop limit cands] at hpc
      rcases List.mem_append.mp hpc with hc | hc
      · exact absurd hc hin
      · exact hc
    have hlen : limit < cands.length := by
      apply Nat.lt_of_not_le
      intro hle
      rw [List.drop_eq_nil_of_le hle] at hpd
      cases hpd
    refine ⟨by rw [List.length_take]; omega, ?_⟩
    intro q hq
    obtain ⟨st, hs, hna⟩ := (h3 q).mp (List.mem_of_mem_take hq)
    rw [← List.take_append_drop limit cands] at h4
    have := (List.pairwise_append.mp h4).2.2 q hq p hpd st .unknown hs har
    rw [hs]
    cases st <;> simp [rank] at this ⊢

/-- A known active peer that is announced again, and one that was never seen, are both in the next batch. -/
example (infoHash : ID) : ∃ s, Run (.new infoHash) [.insert peerA, .batch [] 10] s ∧
    statusOf s peerA = some .active ∧ ((s.extend [peerA, peerB]).returnBatch [] 10).2 = [peerA, peerB] := by
  refine ⟨_, .cons .insert (.cons .batch .nil), ?_, ?_⟩
  · simp [Peers.new, Peers.insert, Map.insert, Map.get?, Map.contains, statusOf, returnBatch, updateBad, activate, batchOrder, pass]
  · simp [Peers.new, Peers.insert, Peers.extend, Map.insert, Map.get?, Map.contains, returnBatch, updateBad, activate, batchOrder, pass, peerA, peerB, Map.modify]

/-! ## C34, continued -/

/-- C34, second half, the part that holds: a connected peer stays connected through every operation that neither
reports it bad nor announces it again. Missing: announcements, which reset it (see below). -/
theorem C34_active_stays_partial (s s' : Peers) (os : List Op) (h : Run s os s') (hm : s.data.WF) (p : Peer)
    (hp : statusOf s p = some .active) (hn : ∀ o ∈ os, ¬ announces p o ∧ ¬ reportsBad p o) :
    statusOf s' p = some .active := by
  induction h with
  | nil => exact hp
  | @cons s s1 s2 o os hs _ ih =>
    refine ih (step_wf hs hm) ?_ (fun o ho => hn o (List.mem_cons_of_mem _ ho))
    obtain ⟨n1, n2⟩ := hn o (List.mem_cons_self ..)
    cases hs with
    | @insert q =>
      have : ¬ p = q := fun e => n1 e.symm
      simp only [statusOf, Peers.insert, Map.get?_insert, this, if_false]; exact hp
    | @extend ps =>
      simp only [statusOf, Peers.extend, extend_get?]
      rw [if_neg (show ¬ p ∈ ps from n1)]; exact hp
    | good =>
      obtain ⟨_, _, _, _, _, h4⟩ := good_eq hm _
      rw [h4 p]; split
      · rfl
      · exact hp
    | enough =>
      obtain ⟨_, _, _, _, _, h4⟩ := good_eq hm (2 ^ 64 - 1)
      have := h4 p
      simp only [enoughPeers]
      rw [this]; split
      · rfl
      · exact hp
    | @batch bad limit =>
      obtain ⟨_, _, _, _, _, h4⟩ := batch_eq hm bad limit
      rw [h4 p]; split
      · rfl
      · simp only [afterReports]
        have : bad.reverse.find? (fun e => e.1 = p) = none := by
          rw [List.find?_eq_none]
          intro e he heq
          apply n2
          simp only [decide_eq_true_eq] at heq
          exact List.mem_map.mpr ⟨e, List.mem_reverse.mp he, heq⟩
        rw [this]; exact hp
    | reorder hperm =>
      simp only [statusOf, ← Map.get?_perm hm hperm]; exact hp

/-- C34 is violated: an announcement of a connected peer (every tracker or DHT answer repeats known peers) makes
it a fresh peer again, and the next batch contains it although it is connected. -/
theorem C34_reannounce_violated (infoHash : ID) : ∃ s s' : Peers, Run (.new infoHash)
      [.insert peerA, .batch [] 10] s ∧ statusOf s peerA = some .active ∧
    Step s (.extend [peerA]) s' ∧ statusOf s' peerA = some .unknown ∧ (s'.returnBatch [] 10).2 = [peerA] := by
  refine ⟨_, _, .cons .insert (.cons .batch .nil), ?_, .extend, ?_, ?_⟩ <;>
  simp [Peers.new, Peers.insert, Peers.extend, Map.insert, Map.get?, Map.contains, statusOf, returnBatch, updateBad, activate, batchOrder, pass, getGoodPeers, goodOrder, peerAddresses, Map.keys]

/-- The first two theorems apply to every reachable table. -/
example (infoHash : ID) : (Peers.new infoHash).data.WF ∧ ∃ s, Run (.new infoHash) [.insert peerA, .good 5] s ∧
    peerA ∈ s.peerAddresses :=
  ⟨List.nodup_nil, _, .cons .insert (.cons .good .nil), by
    simp [Peers.new, Peers.insert, Peers.extend, Map.insert, Map.get?, Map.contains, statusOf, returnBatch, updateBad, activate, batchOrder, pass, getGoodPeers, goodOrder, peerAddresses, Map.keys]⟩

end Nargun
