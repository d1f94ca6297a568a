import Verif.Lemmas.PendingTimed
import Verif.Props.PendingPieces

/-! # C154: handing out blocks while the clock runs -/

namespace Nargun

open Spec PendingPieces

theorem unbegun_iff {b : Block} : b.isUnbegun = true ↔ b = .unbegun := by
  cases b <;> simp [Block.isUnbegun]

theorem expired_iff {now : Nat} {b : Block} :
    b.isExpiredPending now = true ↔ ∃ q t, b = .pending q t ∧ now - t > 7 * 10 ^ 9 := by
  cases b with
  | unbegun => simp [Block.isExpiredPending]
  | downloaded d => simp [Block.isExpiredPending]
  | pending q t =>
    constructor
    · intro h
      exact ⟨q, t, rfl, by simpa [Block.isExpiredPending, REQUEST_TIMEOUT] using h⟩
    · rintro ⟨q', t', h, hlt⟩
      simp only [Block.pending.injEq] at h
      obtain ⟨rfl, rfl⟩ := h
      simpa [Block.isExpiredPending, REQUEST_TIMEOUT] using hlt

/-- What a call does, whatever the clock reads. -/
theorem timed_take_spec {s s' : PendingPieces} (hi : s.Inv) {o : Peer} {now cap : Nat} {exam : Nat → Nat → Nat}
    {pieces : List Nat} {got : List BlockAddress} (ht : s.takeTimed (some o) now exam pieces cap [] = .ok (s', got)) :
    (∀ a ∈ got, a.status = .queued ∧ a.pieceIdx ∈ pieces ∧
      (blockAt s a.pieceIdx a.blockIdx = some .unbegun ∨ ∃ q t, blockAt s a.pieceIdx a.blockIdx = some (.pending q t) ∧
        exam a.pieceIdx a.blockIdx - t > 7 * 10 ^ 9)) ∧
    (∀ pi bi, pi ∈ pieces → blockAt s pi bi = some .unbegun → .new pi bi ∈ got) ∧
    (∀ pi bi, blockAt s' pi bi = if .new pi bi ∈ got then some (.pending o now) else blockAt s pi bi) ∧
    (got.length ≠ cap → ∀ pi bi q t, pi ∈ pieces → blockAt s pi bi = some (.pending q t) →
      exam pi bi - t > 7 * 10 ^ 9 → .new pi bi ∈ got) ∧
    ((∀ k i, exam k i ≤ now + 7 * 10 ^ 9) → got.Nodup) := by
  obtain ⟨s1, a1, p1, h2⟩ := takeTimed_cases hi.wf ht
  have m1 : ∀ a, a ∈ a1 ↔ a.pieceIdx ∈ pieces ∧ a.status = .queued ∧
      blockAt s a.pieceIdx a.blockIdx = some .unbegun := by
    intro a; rw [p1.mem]
    constructor
    · rintro ⟨x, y, b, hb, hu⟩; rw [unbegun_iff.mp hu] at hb; exact ⟨x, y, hb⟩
    · rintro ⟨x, y, hb⟩; exact ⟨x, y, _, hb, rfl⟩
  have b1 : ∀ pi bi, blockAt s1 pi bi = if .new pi bi ∈ a1 then some (.pending o now) else blockAt s pi bi := by
    intro pi bi
    rw [p1.block]
    by_cases h : BlockAddress.new pi bi ∈ a1
    · have := (m1 _).mp h
      simp only [BlockAddress.new] at this
      simp [h, this, Block.isUnbegun]
    · rw [if_neg h]
      cases hb : blockAt s pi bi with
      | none => rfl
      | some b =>
        simp only [Option.map_some, Option.some.injEq]
        rw [if_neg]
        rintro ⟨h1, h2⟩
        rw [unbegun_iff.mp h2] at hb
        exact h ((m1 _).mpr ⟨h1, rfl, hb⟩)
  rcases h2 with ⟨hlen, rfl, rfl⟩ | ⟨a2, p2, rfl⟩
  · exact ⟨fun a ha => ⟨((m1 a).mp ha).2.1, ((m1 a).mp ha).1, .inl ((m1 a).mp ha).2.2⟩,
      fun pi bi hp hb => (m1 _).mpr ⟨hp, rfl, hb⟩, b1, fun h => absurd hlen h, fun _ => p1.nodup⟩
  · have m2 : ∀ a, a ∈ a2 ↔ a.pieceIdx ∈ pieces ∧ a.status = .queued ∧
        ∃ q t, blockAt s1 a.pieceIdx a.blockIdx = some (.pending q t) ∧
          exam a.pieceIdx a.blockIdx - t > 7 * 10 ^ 9 := by
      intro a; rw [p2.mem]
      constructor
      · rintro ⟨x, y, b, hb, hu⟩
        obtain ⟨q, t, rfl, hlt⟩ := expired_iff.mp hu
        exact ⟨x, y, q, t, hb, hlt⟩
      · rintro ⟨x, y, q, t, hb, hlt⟩; exact ⟨x, y, _, hb, expired_iff.mpr ⟨q, t, rfl, hlt⟩⟩
    have hnew : ∀ a : BlockAddress, a.status = .queued → a = .new a.pieceIdx a.blockIdx := by
      intro a h; cases a; simp only [BlockAddress.new] at h ⊢; simp [h]
    refine ⟨?_, ?_, ?_, ?_, ?_⟩
    · intro a ha
      rcases List.mem_append.mp ha with ha | ha
      · exact ⟨((m1 a).mp ha).2.1, ((m1 a).mp ha).1, .inl ((m1 a).mp ha).2.2⟩
      · obtain ⟨hp, hq, q, t, hb, hlt⟩ := (m2 a).mp ha
        refine ⟨hq, hp, ?_⟩
        rw [b1] at hb
        split at hb
        · rename_i hin
          exact .inl ((m1 _).mp hin).2.2
        · exact .inr ⟨q, t, hb, hlt⟩
    · intro pi bi hp hb
      exact List.mem_append.mpr (.inl ((m1 _).mpr ⟨hp, rfl, hb⟩))
    · intro pi bi
      rw [p2.block, b1]
      by_cases h1 : BlockAddress.new pi bi ∈ a1
      · simp only [h1, if_true, Option.map_some, List.mem_append, true_or]
        split <;> rfl
      · simp only [h1, if_false, List.mem_append, false_or]
        by_cases h2 : BlockAddress.new pi bi ∈ a2
        · obtain ⟨hp, _, q, t, hb, hlt⟩ := (m2 _).mp h2
          simp only [BlockAddress.new] at hp hb hlt
          rw [b1, if_neg h1] at hb
          rw [if_pos h2, hb]
          simp only [Option.map_some, Option.some.injEq]
          rw [if_pos ⟨hp, expired_iff.mpr ⟨q, t, rfl, hlt⟩⟩]
        · rw [if_neg h2]
          cases hb : blockAt s pi bi with
          | none => rfl
          | some b =>
            simp only [Option.map_some, Option.some.injEq]
            rw [if_neg]
            rintro ⟨h3, h4⟩
            obtain ⟨q, t, rfl, hlt⟩ := expired_iff.mp h4
            exact h2 ((m2 _).mpr ⟨h3, rfl, q, t, by simp only [BlockAddress.new]; rw [b1, if_neg h1]; exact hb, hlt⟩)
    · intro _ pi bi q t hp hb hlt
      refine List.mem_append.mpr (.inr ((m2 _).mpr ⟨hp, rfl, q, t, ?_, hlt⟩))
      simp only [BlockAddress.new]
      rw [b1, if_neg]
      · exact hb
      · intro h1
        have := ((m1 _).mp h1).2.2
        simp only [BlockAddress.new] at this
        rw [hb] at this; simp at this
    · intro hslow
      rw [List.nodup_append]
      refine ⟨p1.nodup, p2.nodup, ?_⟩
      intro a ha b hb heq
      subst heq
      obtain ⟨_, hq, q, t, hb, hlt⟩ := (m2 a).mp hb
      rw [b1, ← hnew a hq, if_pos ha] at hb
      simp only [Option.some.injEq, Block.pending.injEq] at hb
      have := hslow a.pieceIdx a.blockIdx
      omega

/-- C154, one call, with a reading of the clock of its own for every block it looks at: the blocks handed out belong to
the asked pieces and were not begun or had been requested more than seven seconds before the moment they were looked at;
they are now pending at the caller, and no other block changes. Every asked block that was not begun is handed out and,
unless that alone fills the buffer exactly, every block that was requested more than seven seconds before it was looked
at. If the call takes no longer than seven seconds, no block is handed out twice. -/
theorem C154_take (p : Profile) (pl : Nat) (s0 s : PendingPieces) (h0 : PendingPieces.new pl = .ok s0)
    (es : List TimedEvent) (h : TimedRun p s0 es s) (o : Peer) (now cap : Nat) (exam : Nat → Nat → Nat)
    (pieces : List Nat) (s' : PendingPieces) (got : List BlockAddress)
    (ht : s.takeTimed (some o) now exam pieces cap [] = .ok (s', got)) :
    (∀ a ∈ got, a.pieceIdx ∈ pieces ∧
      (blockAt s a.pieceIdx a.blockIdx = some .unbegun ∨
        ∃ q t, blockAt s a.pieceIdx a.blockIdx = some (.pending q t) ∧
          exam a.pieceIdx a.blockIdx - t > 7 * 10 ^ 9)) ∧
    (∀ pi bi, pi ∈ pieces → blockAt s pi bi = some .unbegun → ∃ a ∈ got, a.pieceIdx = pi ∧ a.blockIdx = bi) ∧
    (got.length ≠ cap → ∀ pi bi q t, pi ∈ pieces → blockAt s pi bi = some (.pending q t) →
      exam pi bi - t > 7 * 10 ^ 9 → ∃ a ∈ got, a.pieceIdx = pi ∧ a.blockIdx = bi) ∧
    (∀ pi bi, blockAt s' pi bi = if ∃ a ∈ got, a.pieceIdx = pi ∧ a.blockIdx = bi then some (.pending o now)
      else blockAt s pi bi) ∧
    ((∀ k i, exam k i ≤ now + 7 * 10 ^ 9) → (got.map fun a => (a.pieceIdx, a.blockIdx)).Nodup) := by
  obtain ⟨h1, h2, h3, h4, h5⟩ := timed_take_spec (timed_run_inv (new_inv h0).1 h) ht
  have hq : ∀ a ∈ got, a = .new a.pieceIdx a.blockIdx := by
    intro a ha
    have := (h1 a ha).1
    cases a; simp only [BlockAddress.new] at this ⊢; simp [this]
  have hmem : ∀ pi bi, (∃ a ∈ got, a.pieceIdx = pi ∧ a.blockIdx = bi) ↔ BlockAddress.new pi bi ∈ got := by
    intro pi bi
    constructor
    · rintro ⟨a, ha, rfl, rfl⟩; rw [← hq a ha]; exact ha
    · intro ha; exact ⟨_, ha, rfl, rfl⟩
  refine ⟨fun a ha => (h1 a ha).2, ?_, ?_, ?_, ?_⟩
  · intro pi bi hp hb; rw [hmem]; exact h2 pi bi hp hb
  · intro hc pi bi q t hp hb hlt; rw [hmem]; exact h4 hc pi bi q t hp hb hlt
  · intro pi bi
    rw [h3]
    simp only [hmem]
  · intro hs
    have hnd := h5 hs
    rw [List.nodup_iff_pairwise_ne] at hnd ⊢
    rw [List.pairwise_map]
    refine List.Pairwise.imp_of_mem ?_ hnd
    intro a b ha hb hne heq
    simp only [Prod.mk.injEq] at heq
    apply hne
    rw [hq a ha, hq b hb, heq.1, heq.2]

/-- The call hands out the block. -/
def HandsOutAt (pi bi : Nat) : TimedEvent → Prop
  | .take _ _ _ _ got => ∃ a ∈ got, a.pieceIdx = pi ∧ a.blockIdx = bi
  | .call _ => False

theorem timed_step_keeps {p : Profile} {s s' : PendingPieces} {e : TimedEvent} (hi : s.Inv) (h : TimedStep p s e s')
    {pi bi t1 : Nat} {o : Peer}
    (t : ∀ ow now exam ps got, e = .take ow now exam ps got → exam pi bi ≤ t1 + 7 * 10 ^ 9)
    (hc : e ≠ .call (.cancel o)) (hf : ∀ bi' d idx bl, e ≠ .call (.addBlock pi bi' d (.addedLast idx bl)))
    (hb : blockAt s pi bi = some (.pending o t1) ∨ ∃ d, blockAt s pi bi = some (.downloaded d)) :
    ¬ HandsOutAt pi bi e ∧
    (blockAt s' pi bi = some (.pending o t1) ∨ ∃ d, blockAt s' pi bi = some (.downloaded d)) := by
  cases h with
  | @call _ e h hne =>
    exact ⟨id, (step_keeps_pending hi h (fun ow now ps got he => absurd he (hne ow now ps got))
      (fun he => hc (by rw [he])) (fun b d idx bl he => hf b d idx bl (by rw [he])) hb).2⟩
  | @take _ ow now exam ps cap got h =>
    have ht := t _ _ _ _ _ rfl
    cases ow with
    | none =>
      obtain ⟨rfl, rfl⟩ := takeTimed_none h
      exact ⟨by rintro ⟨a, ha, _⟩; simp at ha, hb⟩
    | some ow =>
      obtain ⟨h1, _, h3, _⟩ := timed_take_spec hi h
      have hnot : ¬ HandsOutAt pi bi (.take (some ow) now exam ps got) := by
        rintro ⟨a, ha, rfl, rfl⟩
        obtain ⟨_, _, hu⟩ := h1 a ha
        rcases hb with hb | ⟨d, hb⟩
        · rw [hb] at hu
          rcases hu with hu | ⟨q, t, hu, hlt⟩
          · simp at hu
          · simp only [Option.some.injEq, Block.pending.injEq] at hu; omega
        · rw [hb] at hu
          rcases hu with hu | ⟨q, t, hu, hlt⟩ <;> simp at hu
      refine ⟨hnot, ?_⟩
      rw [h3, if_neg]
      · exact hb
      · intro hin; exact hnot ⟨_, hin, rfl, rfl⟩

/-- C154, histories: once a block has been handed out by a call begun at time `t1`, no call that looks at it up to seven
seconds later hands it out again, to anyone, however long the calls last, unless the peer it was assigned to was cancelled
or the piece completed in between. -/
theorem C154_no_double_handout (p : Profile) (pl : Nat) (s0 s s1 s2 : PendingPieces)
    (h0 : PendingPieces.new pl = .ok s0) (es : List TimedEvent) (h : TimedRun p s0 es s)
    (o : Peer) (t1 cap : Nat) (exam : Nat → Nat → Nat) (pieces : List Nat) (got : List BlockAddress)
    (ht : s.takeTimed (some o) t1 exam pieces cap [] = .ok (s1, got))
    (pi bi : Nat) (hgot : ∃ a ∈ got, a.pieceIdx = pi ∧ a.blockIdx = bi)
    (later : List TimedEvent) (hl : TimedRun p s1 later s2)
    (htime : ∀ ow now ex ps g, .take ow now ex ps g ∈ later → ex pi bi ≤ t1 + 7 * 10 ^ 9)
    (hcancel : .call (.cancel o) ∉ later)
    (hdone : ∀ b d idx bl, .call (.addBlock pi b d (.addedLast idx bl)) ∉ later) :
    ∀ e ∈ later, ¬ HandsOutAt pi bi e := by
  have hi1 := takeTimed_inv (timed_run_inv (new_inv h0).1 h) ht
  have hb : blockAt s1 pi bi = some (.pending o t1) ∨ ∃ d, blockAt s1 pi bi = some (.downloaded d) := by
    left
    rw [(C154_take p pl s0 s h0 es h o t1 cap exam pieces s1 got ht).2.2.2.1, if_pos hgot]
  clear ht hgot
  induction hl with
  | nil => simp
  | @cons s s' s'' e es' hs _ ih =>
    have hk := timed_step_keeps hi1 hs (pi := pi) (bi := bi) (t1 := t1) (o := o)
      (fun ow now ex ps g he => htime ow now ex ps g (by rw [he]; exact List.mem_cons_self))
      (fun he => hcancel (by rw [he]; exact List.mem_cons_self))
      (fun b d idx bl he => hdone b d idx bl (by rw [he]; exact List.mem_cons_self)) hb
    intro e' he'
    rcases List.mem_cons.mp he' with rfl | he'
    · exact hk.1
    · exact ih (fun ow now ex ps g hm => htime ow now ex ps g (List.mem_cons_of_mem _ hm))
        (fun hm => hcancel (List.mem_cons_of_mem _ hm))
        (fun b d idx bl hm => hdone b d idx bl (List.mem_cons_of_mem _ hm))
        (timed_step_inv hi1 hs) hk.2 e' he'

/-- C154: a call during which the clock stands still is the call of C22 and C85. -/
theorem C154_still (s : PendingPieces) (o : Option Peer) (now cap : Nat) (pieces : List Nat) (buf : List BlockAddress) :
    s.takeTimed o now (fun _ _ => now) pieces cap buf = s.takeNotGoodBlocks o now pieces cap buf :=
  takeTimed_const s o now pieces cap buf

/-- C154: the bound on the duration of a call is needed. A call that is interrupted for more than seven seconds between
its two passes hands the blocks it has just taken out a second time. -/
theorem C154_slow_call : ∃ s0 s s' : PendingPieces, PendingPieces.new 20000 = .ok s0 ∧
    TimedRun .release s0 [.call (.addPiece 3 true)] s ∧
    s.takeTimed (some peerA) 0 (fun _ _ => 7 * 10 ^ 9 + 1) [3] 16 [] =
      .ok (s', [.new 3 0, .new 3 1, .new 3 0, .new 3 1]) := by
  refine ⟨_, ⟨20000, 2, [(3, ⟨0, 0, [.unbegun, .unbegun]⟩)]⟩,
    ⟨20000, 2, [(3, ⟨0, 0, [.pending peerA 0, .pending peerA 0]⟩)]⟩, new_ok (by decide),
    .cons (.call (.added rfl) (by intros; simp)) .nil, by decide⟩

/-- Peer A takes both blocks of piece 3 in a call lasting a second. A call of peer B that begins six seconds later reaches
the first block before the request is seven seconds old, and the second after that: it gets the second only. -/
example : ∃ s0 s s1 s2 : PendingPieces, PendingPieces.new 20000 = .ok s0 ∧
    TimedRun .release s0 [.call (.addPiece 3 true)] s ∧
    s.takeTimed (some peerA) 0 (fun _ _ => 10 ^ 9) [3] 16 [] = .ok (s1, [.new 3 0, .new 3 1]) ∧
    s1.takeTimed (some peerB) (6 * 10 ^ 9) (fun _ i => 7 * 10 ^ 9 + i) [3] 16 [] = .ok (s2, [.new 3 1]) := by
  refine ⟨_, ⟨20000, 2, [(3, ⟨0, 0, [.unbegun, .unbegun]⟩)]⟩,
    ⟨20000, 2, [(3, ⟨0, 0, [.pending peerA 0, .pending peerA 0]⟩)]⟩,
    ⟨20000, 2, [(3, ⟨0, 0, [.pending peerA 0, .pending peerB (6 * 10 ^ 9)]⟩)]⟩, new_ok (by decide),
    .cons (.call (.added rfl) (by intros; simp)) .nil, by decide, by decide⟩

/-- The second hypothesis of the theorem on histories is met as well: nobody takes the first block again. -/
example : ∃ s0 s s1 s2 : PendingPieces, PendingPieces.new 20000 = .ok s0 ∧
    TimedRun .release s0 [.call (.addPiece 3 true)] s ∧
    s.takeTimed (some peerA) 0 (fun _ _ => 10 ^ 9) [3] 16 [] = .ok (s1, [.new 3 0, .new 3 1]) ∧
    TimedRun .release s1 [.take (some peerB) (6 * 10 ^ 9) (fun _ i => 7 * 10 ^ 9 + i) [3] [.new 3 1]] s2 ∧
    (fun _ i => 7 * 10 ^ 9 + i : Nat → Nat → Nat) 3 0 ≤ 0 + 7 * 10 ^ 9 := by
  refine ⟨_, ⟨20000, 2, [(3, ⟨0, 0, [.unbegun, .unbegun]⟩)]⟩,
    ⟨20000, 2, [(3, ⟨0, 0, [.pending peerA 0, .pending peerA 0]⟩)]⟩,
    ⟨20000, 2, [(3, ⟨0, 0, [.pending peerA 0, .pending peerB (6 * 10 ^ 9)]⟩)]⟩, new_ok (by decide),
    .cons (.call (.added rfl) (by intros; simp)) .nil, by decide, .cons (.take (cap := 16) (by decide)) .nil, by decide⟩

end Nargun
