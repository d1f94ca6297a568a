import Verif.Lemmas.PendingPieces

/-! # C21–C27: the pieces in progress -/

namespace Nargun

open Spec PendingPieces

/-- A peer used in the examples. -/
def peerA : Peer := ⟨⟨⟨10#8, 0#8, 0#8, 1#8⟩, 6881#16⟩⟩
/-- Another peer used in the examples. -/
def peerB : Peer := ⟨⟨⟨10#8, 0#8, 0#8, 2#8⟩, 6881#16⟩⟩

theorem run_pieceLength {p : Profile} {pl : Nat} {s0 s : PendingPieces} (h0 : PendingPieces.new pl = .ok s0)
    {es : List Event} (h : Run p s0 es s) : s.pieceLength = pl := by
  rw [← (new_inv h0).2.1]
  clear h0
  induction h with
  | nil => rfl
  | cons hs _ ih =>
    rw [ih]
    cases hs with
    | added h =>
      unfold addPiece at h
      split at h
      · simp at h; subst h; rfl
      · split at h
        · simp at h
        · obtain ⟨q, _, h2⟩ := Res.bind_eq_ok.mp h
          simp at h2; subst h2; rfl
    | refused => rfl
    | block h =>
      unfold addBlockData at h
      split at h
      · split at h
        · simp at h; rw [← h.1]
        · obtain ⟨q, _, h2⟩ := Res.bind_eq_ok.mp h
          split at h2
          · obtain ⟨q, _, h2⟩ := Res.bind_eq_ok.mp h2
            simp at h2; rw [← h2.1]
          · simp at h2; rw [← h2.1]
      · simp at h; rw [← h.1]
    | cancel => rfl
    | take h =>
      simp only [takeNotGoodBlocks] at h
      obtain ⟨x, _, h2⟩ := Res.bind_eq_ok.mp h
      split at h2
      · simp at h2; rw [← h2.1]
      · obtain ⟨y, _, h3⟩ := Res.bind_eq_ok.mp h2
        simp at h3; rw [← h3.1]
    | reorder => rfl

/-! ## C21 -/

/-- C21: at most ten pieces are in progress after any history of calls, and none twice. -/
theorem C21_at_most_ten (p : Profile) (pl : Nat) (s0 s : PendingPieces) (h0 : PendingPieces.new pl = .ok s0)
    (es : List Event) (h : Run p s0 es s) : (inProgress s).length ≤ 10 ∧ (inProgress s).Nodup := by
  have hi := run_inv (new_inv h0).1 h
  exact ⟨by simpa [inProgress, Map.keys] using hi.le, hi.wf⟩

/-- C21: adding a piece that is in progress changes nothing; adding an eleventh is refused (and, as an error,
changes nothing); adding any other puts it in progress with no block begun and leaves every other block. -/
theorem C21_add_piece (p : Profile) (pl : Nat) (s0 s : PendingPieces) (h0 : PendingPieces.new pl = .ok s0)
    (es : List Event) (h : Run p s0 es s) (idx : Nat) :
    (idx ∈ inProgress s → s.addPiece idx = .ok s) ∧
    (idx ∉ inProgress s → (inProgress s).length = 10 → s.addPiece idx = .err) ∧
    (idx ∉ inProgress s → (inProgress s).length < 10 → ∃ s', s.addPiece idx = .ok s' ∧
      inProgress s' = inProgress s ++ [idx] ∧
      (∀ b, blockAt s' idx b = if b < blockCount pl then some .unbegun else none) ∧
      ∀ k b, k ≠ idx → blockAt s' k b = blockAt s k b) := by
  have hn := new_inv h0
  have hi := run_inv hn.1 h
  have hpl : s.pieceLength = pl := run_pieceLength h0 h
  have hbp : s.blocksPerPiece = blockCount pl := by rw [hi.count, hpl]
  have hlen : (inProgress s).length = s.data.length := by simp [inProgress, Map.keys]
  have hcases := addPiece_cases hi idx
  refine ⟨?_, ?_, ?_⟩
  · intro hk
    rcases hcases with ⟨_, h1⟩ | ⟨h1, _⟩ | ⟨h1, _⟩
    · exact h1
    · exact absurd hk h1
    · exact absurd hk h1
  · intro hk hl
    rcases hcases with ⟨h1, _⟩ | ⟨_, _, h1⟩ | ⟨_, h1, _⟩
    · exact absurd h1 hk
    · exact h1
    · omega
  · intro hk hl
    rcases hcases with ⟨h1, _⟩ | ⟨_, h1, _⟩ | ⟨_, _, h1⟩
    · exact absurd h1 hk
    · omega
    · refine ⟨_, h1, by simp [inProgress, Map.keys], ?_, ?_⟩
      · intro b
        rw [blockAt_addPiece hi h1]
        have : idx ∉ s.data.keys := hk
        simp [this, hbp]
      · intro k b hne
        rw [blockAt_addPiece hi h1]
        simp [hne]

/-- A history exists that fills the table: ten pieces of one block each. -/
example : ∃ s0 s, PendingPieces.new 20000 = .ok s0 ∧
    Run .release s0 ((List.range 10).map fun i => .addPiece i true) s ∧ (inProgress s).length = 10 := by
  refine ⟨_, ⟨20000, 2, (List.range 10).map fun i => (i, ⟨0, 0, [.unbegun, .unbegun]⟩)⟩,
    new_ok (by decide), ?_, ?_⟩
  · repeat (refine Run.cons (.added rfl) ?_)
    exact Run.nil
  · decide

/-! ## C22 -/

/-- C22, one call: the blocks handed out are distinct, belong to the asked pieces, were not begun or had been
requested more than seven seconds before; they are now pending at the caller, and no other block changes. Every
asked block that was not begun is handed out. -/
theorem C22_take (p : Profile) (pl : Nat) (s0 s : PendingPieces) (h0 : PendingPieces.new pl = .ok s0)
    (es : List Event) (h : Run p s0 es s) (o : Peer) (now cap : Nat) (pieces : List Nat)
    (s' : PendingPieces) (got : List BlockAddress)
    (ht : s.takeNotGoodBlocks (some o) now pieces cap [] = .ok (s', got)) :
    (got.map fun a => (a.pieceIdx, a.blockIdx)).Nodup ∧
    (∀ a ∈ got, a.pieceIdx ∈ pieces ∧
      (blockAt s a.pieceIdx a.blockIdx = some .unbegun ∨
        ∃ q t, blockAt s a.pieceIdx a.blockIdx = some (.pending q t) ∧ now - t > 7 * 10 ^ 9)) ∧
    (∀ pi bi, pi ∈ pieces → blockAt s pi bi = some .unbegun → ∃ a ∈ got, a.pieceIdx = pi ∧ a.blockIdx = bi) ∧
    (∀ pi bi, blockAt s' pi bi = if ∃ a ∈ got, a.pieceIdx = pi ∧ a.blockIdx = bi then some (.pending o now)
      else blockAt s pi bi) := by
  have hi := run_inv (new_inv h0).1 h
  obtain ⟨new, hg, _, _, _, _, hnd, hall, hunb, hb, _⟩ := take_spec hi.wf ht
  simp only [List.nil_append] at hg
  subst hg
  have hq : ∀ a ∈ got, a = .new a.pieceIdx a.blockIdx := by
    intro a ha
    have := (hall a ha).2.1
    cases a; simp only [BlockAddress.new] at this ⊢; simp [this]
  have hmem : ∀ pi bi, (∃ a ∈ got, a.pieceIdx = pi ∧ a.blockIdx = bi) ↔ BlockAddress.new pi bi ∈ got := by
    intro pi bi
    constructor
    · rintro ⟨a, ha, rfl, rfl⟩; rw [← hq a ha]; exact ha
    · intro ha; exact ⟨_, ha, rfl, rfl⟩
  refine ⟨?_, ?_, ?_, ?_⟩
  · rw [List.nodup_iff_pairwise_ne] at hnd ⊢
    rw [List.pairwise_map]
    refine List.Pairwise.imp_of_mem ?_ hnd
    intro a b ha hb hne heq
    simp only [Prod.mk.injEq] at heq
    apply hne
    rw [hq a ha, hq b hb, heq.1, heq.2]
  · intro a ha
    obtain ⟨h1, _, b, h3, h4⟩ := hall a ha
    refine ⟨h1, ?_⟩
    rw [h3]
    cases b with
    | unbegun => exact .inl rfl
    | pending q t =>
      right
      refine ⟨q, t, rfl, ?_⟩
      rcases h4 with h4 | h4
      · simp [Block.isUnbegun] at h4
      · simpa [Block.isExpiredPending, REQUEST_TIMEOUT] using h4
    | downloaded d =>
      rcases h4 with h4 | h4
      · simp [Block.isUnbegun] at h4
      · simp [Block.isExpiredPending] at h4
  · intro pi bi hp hb
    rw [hmem]; exact hunb pi bi hp hb
  · intro pi bi
    rw [hb]
    simp only [hmem, Option.map_some]

/-- The call of the history event `e` hands out the block. -/
def HandsOut (pi bi : Nat) : Event → Prop
  | .take _ _ _ got => ∃ a ∈ got, a.pieceIdx = pi ∧ a.blockIdx = bi
  | _ => False

/-- The blocks a step leaves alone: pending ones stay pending unless cancelled, re-handed out, delivered or
completed. -/
theorem step_keeps_pending {p : Profile} {s s' : PendingPieces} {e : Event} (hi : s.Inv) (h : Step p s e s')
    {pi bi t1 : Nat} {o : Peer} (t : ∀ ow now ps got, e = .take ow now ps got → now ≤ t1 + 7 * 10 ^ 9)
    (hc : e ≠ .cancel o) (hf : ∀ bi' d idx bl, e ≠ .addBlock pi bi' d (.addedLast idx bl))
    (hb : blockAt s pi bi = some (.pending o t1) ∨ ∃ d, blockAt s pi bi = some (.downloaded d)) :
    ¬ HandsOut pi bi e ∧
    (blockAt s' pi bi = some (.pending o t1) ∨ ∃ d, blockAt s' pi bi = some (.downloaded d)) := by
  cases h with
  | @added _ idx h =>
    refine ⟨id, ?_⟩
    rw [blockAt_addPiece hi h]
    have : ¬ (idx ∉ s.data.keys ∧ pi = idx) := by
      rintro ⟨h1, rfl⟩
      have hnone : blockAt s pi bi = none := by simp [blockAt, Map.get?_eq_none.mpr h1]
      rw [hnone] at hb; simp at hb
    rw [if_neg this]; exact hb
  | refused h => exact ⟨id, hb⟩
  | @block _ pi' bi' d r h =>
    refine ⟨id, ?_⟩
    rcases addBlock_cases hi h with ⟨_, rfl, _⟩ | ⟨ha, piece, pend, hg, _, _, _, rfl⟩ |
      ⟨_, piece, pend, bl, hg, _, _, rfl, _, rfl⟩
    · exact hb
    · rw [blockAt_modify hg _ _ _ _ _ _ (by rw [hi.len _ _ hg]; exact ha.2.1)]
      split
      · exact .inr ⟨d, rfl⟩
      · exact hb
    · rw [blockAt_erase]
      have : ¬ pi = pi' := by rintro rfl; exact hf _ _ _ _ rfl
      rw [if_neg this]; exact hb
  | @cancel f =>
    refine ⟨id, ?_⟩
    rw [blockAt_cancel]
    have hne : o ≠ f := fun e => hc (by rw [e])
    rcases hb with hb | ⟨d, hb⟩
    · rw [hb]; simp [Block.isExpectedFrom, hne]
    · rw [hb]; simp [Block.isExpectedFrom]
  | @take _ ow now ps cap got h =>
    have ht := t _ _ _ _ rfl
    obtain ⟨new, hg, _, _, _, _, hnd, hall, _, hb', _⟩ := take_spec hi.wf h
    simp only [List.nil_append] at hg
    subst hg
    have hnot : ¬ HandsOut pi bi (.take ow now ps got) := by
      rintro ⟨a, ha, rfl, rfl⟩
      obtain ⟨_, _, b, h3, h4⟩ := hall a ha
      rw [h3] at hb
      rcases hb with hb | ⟨d, hb⟩
      · simp only [Option.some.injEq] at hb; subst hb
        rcases h4 with h4 | h4
        · simp [Block.isUnbegun] at h4
        · have h4 := of_decide_eq_true h4; simp only [REQUEST_TIMEOUT] at h4; omega
      · simp only [Option.some.injEq] at hb; subst hb
        rcases h4 with h4 | h4
        · simp [Block.isUnbegun] at h4
        · simp [Block.isExpiredPending] at h4
    refine ⟨hnot, ?_⟩
    rw [hb', if_neg]
    · exact hb
    · intro hin; exact hnot ⟨_, hin, rfl, rfl⟩
  | reorder h => exact ⟨id, by rw [blockAt_perm hi h]; exact hb⟩

/-- C22, histories: once a block has been handed out at time `t1`, no call up to seven seconds later hands it
out again, to anyone, unless the peer it was assigned to was cancelled or the piece completed in between. -/
theorem C22_no_double_handout (p : Profile) (pl : Nat) (s0 s s1 s2 : PendingPieces)
    (h0 : PendingPieces.new pl = .ok s0) (es : List Event) (h : Run p s0 es s)
    (o : Peer) (t1 cap : Nat) (pieces : List Nat) (got : List BlockAddress)
    (ht : s.takeNotGoodBlocks (some o) t1 pieces cap [] = .ok (s1, got))
    (pi bi : Nat) (hgot : ∃ a ∈ got, a.pieceIdx = pi ∧ a.blockIdx = bi)
    (later : List Event) (hl : Run p s1 later s2)
    (htime : ∀ ow now ps g, .take ow now ps g ∈ later → now ≤ t1 + 7 * 10 ^ 9)
    (hcancel : .cancel o ∉ later)
    (hdone : ∀ b d idx bl, .addBlock pi b d (.addedLast idx bl) ∉ later) :
    ∀ e ∈ later, ¬ HandsOut pi bi e := by
  have hi1 := take_inv (run_inv (new_inv h0).1 h) ht
  have hb : blockAt s1 pi bi = some (.pending o t1) ∨ ∃ d, blockAt s1 pi bi = some (.downloaded d) := by
    left
    rw [(C22_take p pl s0 s h0 es h o t1 cap pieces s1 got ht).2.2.2, if_pos hgot]
  clear ht hgot
  induction hl with
  | nil => simp
  | @cons s s' s'' e es' hs _ ih =>
    have hk := step_keeps_pending hi1 hs (pi := pi) (bi := bi) (t1 := t1) (o := o)
      (fun ow now ps g he => htime ow now ps g (by rw [he]; exact List.mem_cons_self))
      (fun he => hcancel (by rw [he]; exact List.mem_cons_self))
      (fun b d idx bl he => hdone b d idx bl (by rw [he]; exact List.mem_cons_self)) hb
    intro e' he'
    rcases List.mem_cons.mp he' with rfl | he'
    · exact hk.1
    · exact ih (fun ow now ps g hm => htime ow now ps g (List.mem_cons_of_mem _ hm))
        (fun hm => hcancel (List.mem_cons_of_mem _ hm))
        (fun b d idx bl hm => hdone b d idx bl (List.mem_cons_of_mem _ hm))
        (step_inv hi1 hs) hk.2 e' he'

/-- C22: a downloaded block is not handed out by any later call, however late, until its piece completes. -/
theorem C22_downloaded_not_handed_out (p : Profile) (pl : Nat) (s0 s s2 : PendingPieces)
    (h0 : PendingPieces.new pl = .ok s0) (es : List Event) (h : Run p s0 es s)
    (pi bi : Nat) (d : Bytes) (hd : blockAt s pi bi = some (.downloaded d))
    (later : List Event) (hl : Run p s later s2)
    (hdone : ∀ b d idx bl, .addBlock pi b d (.addedLast idx bl) ∉ later) :
    ∀ e ∈ later, ¬ HandsOut pi bi e := by
  have hi := run_inv (new_inv h0).1 h
  have hb : ∃ d, blockAt s pi bi = some (.downloaded d) := ⟨d, hd⟩
  clear hd h
  induction hl with
  | nil => simp
  | @cons s s' s'' e es' hs _ ih =>
    have hk : ¬ HandsOut pi bi e ∧ ∃ d, blockAt s' pi bi = some (.downloaded d) := by
      obtain ⟨d, hd⟩ := hb
      have hf : ∀ b d idx bl, e ≠ .addBlock pi b d (.addedLast idx bl) :=
        fun b d idx bl he => hdone b d idx bl (by rw [he]; exact List.mem_cons_self)
      cases hs with
      | @added _ idx h =>
        refine ⟨id, d, ?_⟩
        rw [blockAt_addPiece hi h, if_neg, hd]
        rintro ⟨h1, rfl⟩
        simp [blockAt, Map.get?_eq_none.mpr h1] at hd
      | refused h => exact ⟨id, d, hd⟩
      | @block _ pi' bi' d' r h =>
        refine ⟨id, ?_⟩
        rcases addBlock_cases hi h with ⟨_, rfl, _⟩ | ⟨ha, piece, pend, hg, _, _, _, rfl⟩ |
          ⟨_, piece, pend, bl, hg, _, _, rfl, _, rfl⟩
        · exact ⟨d, hd⟩
        · rw [blockAt_modify hg _ _ _ _ _ _ (by rw [hi.len _ _ hg]; exact ha.2.1)]
          split
          · exact ⟨_, rfl⟩
          · exact ⟨d, hd⟩
        · rw [blockAt_erase, if_neg]
          · exact ⟨d, hd⟩
          · rintro rfl; exact hf _ _ _ _ rfl
      | cancel =>
        refine ⟨id, d, ?_⟩
        rw [blockAt_cancel, hd]; rfl
      | @take _ ow now ps cap got h =>
        obtain ⟨new, hg, _, _, _, _, hnd, hall, _, hb', _⟩ := take_spec hi.wf h
        simp only [List.nil_append] at hg
        subst hg
        have hnot : ¬ ∃ a ∈ got, a.pieceIdx = pi ∧ a.blockIdx = bi := by
          rintro ⟨a, ha, rfl, rfl⟩
          obtain ⟨_, _, b, h3, h4⟩ := hall a ha
          rw [h3] at hd
          simp only [Option.some.injEq] at hd; subst hd
          rcases h4 with h4 | h4
          · simp [Block.isUnbegun] at h4
          · simp [Block.isExpiredPending] at h4
        refine ⟨hnot, d, ?_⟩
        rw [hb', if_neg, hd]
        intro hin; exact hnot ⟨_, hin, rfl, rfl⟩
      | reorder h => exact ⟨id, d, by rw [blockAt_perm hi h]; exact hd⟩
    intro e' he'
    rcases List.mem_cons.mp he' with rfl | he'
    · exact hk.1
    · exact ih (fun b d idx bl hm => hdone b d idx bl (List.mem_cons_of_mem _ hm)) (step_inv hi hs) hk.2 e' he'

/-- Peer A takes both blocks of piece 3; three seconds later peer B gets none of them; eight seconds later B
gets both. -/
example : ∃ s0 s1 s2 s3, PendingPieces.new 20000 = .ok s0 ∧ s0.addPiece 3 = .ok s1 ∧
    s1.takeNotGoodBlocks (some peerA) 0 [3, 4] 16 [] = .ok (s2, [.new 3 0, .new 3 1]) ∧
    s2.takeNotGoodBlocks (some peerB) 3000000000 [3] 16 [] = .ok (s2, []) ∧
    s2.takeNotGoodBlocks (some peerB) 8000000000 [3] 16 [] = .ok (s3, [.new 3 0, .new 3 1]) := by
  refine ⟨_, ⟨20000, 2, [(3, ⟨0, 0, [.unbegun, .unbegun]⟩)]⟩,
    ⟨20000, 2, [(3, ⟨0, 0, [.pending peerA 0, .pending peerA 0]⟩)]⟩,
    ⟨20000, 2, [(3, ⟨0, 0, [.pending peerB 8000000000, .pending peerB 8000000000]⟩)]⟩,
    new_ok (by decide), ?_, ?_, ?_, ?_⟩
  all_goals decide

/-! ## C85 -/

/-- C85: whoever asks for blocks of pieces in progress gets every block that nobody has been asked for, and,
unless that alone fills the buffer exactly, every block whose request is more than seven seconds old: afterwards
each block of the asked pieces is downloaded or requested no longer than seven seconds ago. -/
theorem C85_nothing_held_back (p : Profile) (pl : Nat) (s0 s : PendingPieces) (h0 : PendingPieces.new pl = .ok s0)
    (es : List Event) (h : Run p s0 es s) (o : Peer) (now cap : Nat) (pieces : List Nat)
    (s' : PendingPieces) (got : List BlockAddress)
    (ht : s.takeNotGoodBlocks (some o) now pieces cap [] = .ok (s', got)) (hcap : got.length ≠ cap)
    (pi bi : Nat) (hp : pi ∈ pieces) (b : Block) (hb : blockAt s pi bi = some b) :
    ((b = .unbegun ∨ ∃ q t, b = .pending q t ∧ now - t > 7 * 10 ^ 9) → .new pi bi ∈ got) ∧
    ((∃ d, blockAt s' pi bi = some (.downloaded d)) ∨
      ∃ q t, blockAt s' pi bi = some (.pending q t) ∧ now - t ≤ 7 * 10 ^ 9) := by
  have hi := run_inv (new_inv h0).1 h
  obtain ⟨new, hg, _, _, _, _, _, hall, hunb, hb', _, hexp⟩ := take_spec hi.wf ht
  simp only [List.nil_append] at hg
  subst hg
  have h1 : (b = .unbegun ∨ ∃ q t, b = .pending q t ∧ now - t > 7 * 10 ^ 9) → .new pi bi ∈ got := by
    rintro (rfl | ⟨q, t, rfl, ht⟩)
    · exact hunb pi bi hp hb
    · exact hexp (by simp) hcap pi bi _ hp hb (by simpa [Block.isExpiredPending, REQUEST_TIMEOUT] using ht)
  refine ⟨h1, ?_⟩
  rw [hb']
  by_cases hin : BlockAddress.new pi bi ∈ got
  · rw [if_pos hin]
    exact .inr ⟨o, now, rfl, by omega⟩
  · rw [if_neg hin, hb]
    cases b with
    | unbegun => exact absurd (h1 (.inl rfl)) hin
    | downloaded d => exact .inl ⟨d, rfl⟩
    | pending q t =>
      refine .inr ⟨q, t, rfl, ?_⟩
      apply Nat.le_of_not_lt
      intro hlt
      exact hin (h1 (.inr ⟨q, t, rfl, hlt⟩))

/-- The example above satisfies the hypotheses: two blocks, a buffer for sixteen. -/
example : ∃ s0 s, PendingPieces.new 20000 = .ok s0 ∧ Run .release s0 [.addPiece 3 true] s ∧
    ∃ s', s.takeNotGoodBlocks (some peerA) 0 [3] 16 [] = .ok (s', [.new 3 0, .new 3 1]) ∧
      blockAt s 3 1 = some .unbegun :=
  ⟨_, _, new_ok (by decide), .cons (.added rfl) .nil, _, rfl, rfl⟩

/-! ## C23 -/

/-- C23: cancelling makes exactly the blocks pending at that peer available again; no other block changes and
the same pieces stay in progress. -/
theorem C23_cancel (s : PendingPieces) (f : Peer) :
    inProgress (s.cancelPending f) = inProgress s ∧
    ∀ pi bi, blockAt (s.cancelPending f) pi bi =
      match blockAt s pi bi with
      | some (.pending q t) => if q = f then some .unbegun else some (.pending q t)
      | b => b := by
  refine ⟨keys_cancel s f, ?_⟩
  intro pi bi
  rw [blockAt_cancel]
  cases blockAt s pi bi with
  | none => rfl
  | some b =>
    cases b with
    | unbegun => rfl
    | downloaded d => rfl
    | pending q t =>
      simp only [Option.map_some, Block.isExpectedFrom, decide_eq_true_eq]
      split <;> rfl

/-- With one block pending at each of two peers, cancelling A frees only A's. -/
example : let s : PendingPieces := ⟨20000, 2, [(3, ⟨0, 0, [.pending peerA 1, .pending peerB 2]⟩)]⟩
    blockAt (s.cancelPending peerA) 3 0 = some .unbegun ∧
    blockAt (s.cancelPending peerA) 3 1 = some (.pending peerB 2) := by decide

/-! ## C24 -/

/-- The size the code asks for is the right one, except for the last block of a piece whose length is a
multiple of 16384. -/
theorem expectedSize_eq {s : PendingPieces} (hi : s.Inv) (hm : s.pieceLength % 16384 ≠ 0) {bi : Nat}
    (h : bi < blockCount s.pieceLength) : s.expectedSize bi = blockSize s.pieceLength bi := by
  have hb : BLOCK_SIZE = 16384 := rfl
  simp only [expectedSize, hi.count, hb, blockSize]
  by_cases hc : bi + 1 = blockCount s.pieceLength
  · rw [if_pos hc]; simp only [blockCount] at h hc; omega
  · rw [if_neg hc]; simp only [blockCount] at h hc; omega

/-- C24 for torrents whose piece length is no multiple of 16384: a block is refused exactly if its piece is not
in progress, its index is out of range, or its size is not the one the piece geometry prescribes; a refused
block changes nothing. Missing for the full property: piece lengths that are a multiple of 16384 (nearly all
real torrents), for which it is false, and the last piece of a torrent, which may be shorter. -/
theorem C24_block_acceptance_partial (p : Profile) (pl : Nat) (hpl : pl % 16384 ≠ 0) (s0 s : PendingPieces)
    (h0 : PendingPieces.new pl = .ok s0) (es : List Event) (h : Run p s0 es s)
    (pi bi : Nat) (d : Bytes) :
    (∀ s', s.addBlockData p pi bi d = .ok (s', .failed) → s' = s) ∧
    ((∃ s', s.addBlockData p pi bi d = .ok (s', .failed)) ↔
      ¬ (pi ∈ inProgress s ∧ bi < blockCount pl ∧ d.length = blockSize pl bi)) := by
  have hi := run_inv (new_inv h0).1 h
  have hlen := run_pieceLength h0 h
  have hacc : s.Accepts pi bi d ↔ (pi ∈ inProgress s ∧ bi < blockCount pl ∧ d.length = blockSize pl bi) := by
    unfold Accepts
    rw [hi.count, hlen]
    constructor
    · rintro ⟨h1, h2, h3⟩
      refine ⟨h1, h2, ?_⟩
      rw [h3, ← hlen]; exact expectedSize_eq hi (by rw [hlen]; exact hpl) (by rw [hlen]; exact h2)
    · rintro ⟨h1, h2, h3⟩
      refine ⟨h1, h2, ?_⟩
      rw [h3, ← hlen]; exact (expectedSize_eq hi (by rw [hlen]; exact hpl) (by rw [hlen]; exact h2)).symm
  rw [← hacc]
  refine ⟨?_, ?_, ?_⟩
  · intro s' hs
    rcases addBlock_cases hi hs with ⟨_, h2, _⟩ | ⟨_, _, _, _, _, _, h2, _⟩ | ⟨_, _, _, _, _, _, _, h2, _⟩
    · exact h2
    · simp at h2
    · simp at h2
  · rintro ⟨s', hs⟩
    rcases addBlock_cases hi hs with ⟨h2, _, _⟩ | ⟨_, _, _, _, _, _, h2, _⟩ | ⟨_, _, _, _, _, _, _, h2, _⟩
    · exact h2
    · simp at h2
    · simp at h2
  · intro ha
    exact ⟨s, addBlock_reject ha⟩

/-- C24 is violated for every piece length that is a multiple of 16384, in every reachable state: the last
block of a piece is refused when it has its proper size 16384. -/
theorem C24_last_block_violated (p : Profile) (n : Nat) (s0 s : PendingPieces)
    (h0 : PendingPieces.new (n * 16384) = .ok s0) (es : List Event) (h : Run p s0 es s)
    (pi : Nat) (d : Bytes) (hd : d.length = blockSize (n * 16384) (n - 1)) :
    d.length = 16384 ∧ s.addBlockData p pi (n - 1) d = .ok (s, .failed) := by
  have hi := run_inv (new_inv h0).1 h
  have hlen := run_pieceLength h0 h
  have hpos := hi.pos
  have hb : BLOCK_SIZE = 16384 := rfl
  have hd2 : d.length = 16384 := by rw [hd, blockSize]; omega
  refine ⟨hd2, addBlock_reject ?_⟩
  rintro ⟨_, h2, h3⟩
  simp only [expectedSize, hi.count, hb, hlen, blockCount] at h3 h2
  rw [if_pos (by omega)] at h3
  omega

/-- C24 is violated for the last piece of a torrent: whatever its real length `l`, its last block is refused
unless it happens to have the size of the last block of a full piece. Here: piece length 20000, last piece
5000 bytes. -/
theorem C24_short_piece_violated (p : Profile) : ∃ s0 s1,
    PendingPieces.new 20000 = .ok s0 ∧ s0.addPiece 7 = .ok s1 ∧
    ∀ d : Bytes, d.length = blockSize 5000 0 → s1.addBlockData p 7 0 d = .ok (s1, .failed) := by
  refine ⟨_, ⟨20000, 2, [(7, ⟨0, 0, [.unbegun, .unbegun]⟩)]⟩, new_ok (by decide), by decide, ?_⟩
  intro d hd
  apply addBlock_reject
  rintro ⟨_, _, h3⟩
  have : blockSize 5000 0 = 5000 := by decide
  have h4 : (PendingPieces.expectedSize ⟨20000, 2, [(7, ⟨0, 0, [.unbegun, .unbegun]⟩)]⟩ 0) = 16384 := by decide
  omega

/-- A reachable state with a block that is accepted. -/
example : ∃ s0 s1 s2, PendingPieces.new 20000 = .ok s0 ∧ s0.addPiece 7 = .ok s1 ∧ s1.pieceLength = 20000 ∧
    s1.addBlockData .release 7 1 (List.replicate 3616 0#8) = .ok (s2, .added) := by
  have e1 : (⟨20000, 2, []⟩ : PendingPieces).addPiece 7 =
      .ok ⟨20000, 2, [(7, ⟨0, 0, [.unbegun, .unbegun]⟩)]⟩ := by decide
  have hi := addPiece_inv (new_inv (new_ok (pl := 20000) (by decide))).1 e1
  have ha : PendingPieces.Accepts ⟨20000, 2, [(7, ⟨0, 0, [.unbegun, .unbegun]⟩)]⟩ 7 1 (List.replicate 3616 0#8) :=
    ⟨by decide, by decide, by rw [List.length_replicate]; decide⟩
  refine ⟨_, _, ⟨20000, 2, [(7, ⟨2 ^ 64 - 1, 1, [.unbegun, .downloaded (List.replicate 3616 0#8)]⟩)]⟩,
    new_ok (by decide), e1, rfl, ?_⟩
  · rw [addBlock_accept hi ha (piece := ⟨0, 0, [.unbegun, .unbegun]⟩) (by decide)]
    rfl

/-! ## C25 -/

/-- No block is accepted a second time before its piece completes. -/
def NoRedelivery (es : List Event) : Prop :=
  ∀ pre pi bi d r post, es = pre ++ .addBlock pi bi d r :: post → r ≠ .failed → delivered pi bi none pre = none

/-- The data of a downloaded block. -/
def dataOf : Option Block → Option Bytes
  | some (.downloaded d) => some d
  | _ => none

theorem delivered_cons (pi bi : Nat) (acc : Option Bytes) (e : Event) (es : List Event) :
    delivered pi bi acc (e :: es) = delivered pi bi (delivered pi bi acc [e]) es := by
  cases e with
  | addBlock a b d r => cases r <;> rfl
  | _ => rfl

theorem delivered_step {p : Profile} {s s' : PendingPieces} {e : Event} (hi : s.Inv) (h : Step p s e s')
    (pi bi : Nat) : delivered pi bi (dataOf (blockAt s pi bi)) [e] = dataOf (blockAt s' pi bi) := by
  cases h with
  | @added _ idx h =>
    rw [blockAt_addPiece hi h]
    split
    · rename_i hc
      obtain ⟨h1, rfl⟩ := hc
      have hnone : blockAt s pi bi = none := by simp [blockAt, Map.get?_eq_none.mpr h1]
      rw [hnone]
      split <;> rfl
    · rfl
  | refused h => rfl
  | @block _ pi' bi' d r h =>
    rcases addBlock_cases hi h with ⟨_, rfl, rfl⟩ | ⟨ha, piece, pend, hg, _, _, rfl, rfl⟩ |
      ⟨_, piece, pend, bl, hg, _, _, rfl, _, rfl⟩
    · rfl
    · rw [blockAt_modify hg _ _ _ _ _ _ (by rw [hi.len _ _ hg]; exact ha.2.1)]
      simp only [delivered]
      by_cases hc : pi' = pi ∧ bi' = bi
      · have hc' : pi = pi' ∧ bi = bi' := ⟨hc.1.symm, hc.2.symm⟩
        rw [if_pos hc, if_pos hc']; rfl
      · have hc' : ¬ (pi = pi' ∧ bi = bi') := fun h => hc ⟨h.1.symm, h.2.symm⟩
        rw [if_neg hc, if_neg hc']
    · rw [blockAt_erase]
      simp only [delivered]
      by_cases hc : pi' = pi
      · rw [if_pos hc, if_pos hc.symm]; rfl
      · rw [if_neg hc, if_neg (fun h => hc h.symm)]
  | @cancel f =>
    rw [blockAt_cancel]
    cases blockAt s pi bi with
    | none => rfl
    | some b =>
      cases b with
      | unbegun => rfl
      | downloaded d => rfl
      | pending q t =>
        simp only [Option.map_some, Block.isExpectedFrom, decide_eq_true_eq]
        split <;> rfl
  | @take _ ow now ps cap got h =>
    obtain ⟨new, hg, _, _, _, _, hnd, hall, _, hb', hnone⟩ := take_spec hi.wf h
    rw [hb']
    split
    · rename_i hin
      obtain ⟨_, _, b, h3, h4⟩ := hall _ hin
      simp only [BlockAddress.new] at h3
      rw [h3]
      have : dataOf (some b) = none := by
        cases b with
        | unbegun => rfl
        | pending q t => rfl
        | downloaded d =>
          rcases h4 with h4 | h4
          · simp [Block.isUnbegun] at h4
          · simp [Block.isExpiredPending] at h4
      rw [this]
      cases ow with
      | none => rfl
      | some o => rfl
    · rfl
  | reorder h => rw [blockAt_perm hi h]; rfl

/-- In every reachable state the downloaded blocks are exactly the delivered ones, with their data. -/
theorem delivered_run {p : Profile} {s s' : PendingPieces} {es : List Event} (hi : s.Inv) (h : Run p s es s')
    (pi bi : Nat) : delivered pi bi (dataOf (blockAt s pi bi)) es = dataOf (blockAt s' pi bi) := by
  induction h with
  | nil => rfl
  | cons hs _ ih =>
    rw [delivered_cons, delivered_step hi hs]
    exact ih (step_inv hi hs)

/-- Number of downloaded blocks of a piece. -/
def dlCount (s : PendingPieces) (k : Nat) : Nat :=
  (List.range s.blocksPerPiece).countP fun j => (dataOf (blockAt s k j)).isSome

/-- Changing a predicate at one index from false to true adds one. -/
theorem countP_range_update (n i : Nat) (f g : Nat → Bool) (hi : i < n) (hf : f i = false) (hg : g i = true)
    (h : ∀ j, j ≠ i → f j = g j) : (List.range n).countP g = (List.range n).countP f + 1 := by
  induction n with
  | zero => omega
  | succ n ih =>
    rw [List.range_succ, List.countP_append, List.countP_append]
    simp only [List.countP_singleton]
    by_cases hn : i = n
    · subst hn
      rw [hf, hg]
      have : (List.range i).countP g = (List.range i).countP f := by
        apply List.countP_congr
        intro x hx
        simp only [List.mem_range] at hx
        rw [h x (by omega)]
      simp [this]
    · rw [ih (by omega), h n (fun e => hn e.symm)]
      omega

theorem countP_range_full (n : Nat) (f : Nat → Bool) : (List.range n).countP f = n ↔ ∀ j < n, f j = true := by
  have := List.countP_eq_length (p := f) (l := List.range n)
  simp only [List.length_range, List.mem_range] at this
  exact this

theorem countP_range_le (n : Nat) (f : Nat → Bool) : (List.range n).countP f ≤ n := by
  have := List.countP_le_length (p := f) (l := List.range n)
  simpa using this

/-- The counter of downloaded blocks is exact. -/
def CountInv (s : PendingPieces) : Prop :=
  ∀ k q, s.data.get? k = some q → q.downloaded = dlCount s k ∧ q.downloaded < s.blocksPerPiece

theorem countInv_step {p : Profile} {s s' : PendingPieces} {e : Event} (hi : s.Inv) (hc : CountInv s)
    (h : Step p s e s')
    (hf : ∀ pi bi d r, e = .addBlock pi bi d r → r ≠ .failed → dataOf (blockAt s pi bi) = none) :
    CountInv s' := by
  have same : ∀ (s' : PendingPieces), s'.blocksPerPiece = s.blocksPerPiece →
      (∀ k b, dataOf (blockAt s' k b) = dataOf (blockAt s k b)) → ∀ k, dlCount s' k = dlCount s k := by
    intro s' h1 h2 k
    simp only [dlCount, h1, h2]
  cases h with
  | @added _ idx h =>
    rcases addPiece_cases hi idx with ⟨hk, h1⟩ | ⟨_, _, h1⟩ | ⟨hk, hl, h1⟩
    · rw [h1] at h; simp only [Res.ok.injEq] at h; subst h; exact hc
    · rw [h1] at h; simp at h
    · have hb := fun k b => delivered_step hi (Step.added (p := p) h) k b
      simp only [delivered] at hb
      rw [h1] at h; simp only [Res.ok.injEq] at h
      have hbp : s'.blocksPerPiece = s.blocksPerPiece := by rw [← h]
      intro k q hq
      rw [same s' hbp (fun k b => (hb k b).symm) k, hbp]
      rw [← h] at hq
      simp only [get?_append _ _ _ hk] at hq
      split at hq
      · rename_i he
        simp only [Option.some.injEq] at hq
        subst hq; subst he
        have hz : dlCount s k = 0 := by
          simp only [dlCount]
          rw [List.countP_eq_zero]
          intro j _
          simp [blockAt, Map.get?_eq_none.mpr hk, dataOf]
        exact ⟨hz.symm, hi.count_pos⟩
      · exact hc k q hq
  | refused h => exact hc
  | @block _ pi bi d r h =>
    have hst := addBlock_cases hi h
    rcases hst with ⟨_, rfl, _⟩ | ⟨ha, piece, pend, hg, _, hne, rfl, rfl⟩ |
      ⟨_, piece, pend, bl, hg, _, _, rfl, _, rfl⟩
    · exact hc
    · have hfr := hf _ _ _ _ rfl (by simp)
      obtain ⟨hc1, hc2⟩ := hc pi piece hg
      have hbi : bi < piece.data.length := by rw [hi.len _ _ hg]; exact ha.2.1
      intro k q hq
      simp only [Map.get?_modify] at hq
      split at hq
      · rename_i he
        subst he
        rw [hg] at hq
        simp only [Option.map_some, Option.some.injEq] at hq
        subst hq
        constructor
        · simp only [dlCount]
          rw [countP_range_update s.blocksPerPiece bi (fun j => (dataOf (blockAt s k j)).isSome) _ ha.2.1]
          · rw [hc1]; rfl
          · simp [hfr]
          · simp [blockAt_modify hg _ _ _ _ _ _ hbi, dataOf]
          · intro j hj
            simp [blockAt_modify hg _ _ _ _ _ _ hbi, hj]
        · simp only; omega
      · rename_i he
        have hck := hc k q hq
        refine ⟨?_, hck.2⟩
        rw [hck.1]
        simp only [dlCount]
        apply List.countP_congr
        intro j _
        rw [blockAt_modify hg _ _ _ _ _ _ hbi]
        simp [he]
    · intro k q hq
      simp only [Map.get?_erase] at hq
      split at hq
      · simp at hq
      · rename_i he
        have hck := hc k q hq
        refine ⟨?_, hck.2⟩
        rw [hck.1]
        simp only [dlCount]
        apply List.countP_congr
        intro j _
        rw [blockAt_erase]
        simp [he]
  | @cancel f =>
    have hb := fun k b => delivered_step hi (Step.cancel (p := p) (s := s) (f := f)) k b
    simp only [delivered] at hb
    intro k q hq
    rw [same (s.cancelPending f) rfl (fun k b => (hb k b).symm) k]
    rw [get?_cancel] at hq
    cases hg : s.data.get? k with
    | none => rw [hg] at hq; simp at hq
    | some q0 =>
      rw [hg] at hq
      simp only [Option.map_some, Option.some.injEq] at hq
      subst hq
      exact hc k q0 hg
  | @take _ ow now ps cap got h =>
    have hb := fun k b => delivered_step hi (Step.take (p := p) h) k b
    simp only [delivered] at hb
    obtain ⟨_, _, _, _, hbp, hsz, _⟩ := take_spec hi.wf h
    intro k q hq
    rw [same s' hbp (fun k b => (hb k b).symm) k, hbp]
    have := hsz k
    rw [hq] at this
    cases hg : s.data.get? k with
    | none => rw [hg] at this; simp at this
    | some q0 =>
      rw [hg] at this
      simp only [Option.map_some, Option.some.injEq, Prod.mk.injEq] at this
      rw [this.2.1]
      exact hc k q0 hg
  | reorder h =>
    intro k q hq
    simp only [← Map.get?_perm hi.wf h] at hq
    refine ⟨?_, (hc k q hq).2⟩
    rw [(hc k q hq).1]
    simp only [dlCount, blockAt_perm hi h]

theorem countInv_run {p : Profile} {s s' : PendingPieces} {es : List Event} (hi : s.Inv) (hc : CountInv s)
    (h : Run p s es s')
    (hf : ∀ pre pi bi d r post, es = pre ++ .addBlock pi bi d r :: post → r ≠ .failed →
      delivered pi bi (dataOf (blockAt s pi bi)) pre = none) : CountInv s' := by
  induction h with
  | nil => exact hc
  | @cons s s1 s2 e es hs _ ih =>
    refine ih (step_inv hi hs) (countInv_step hi hc hs ?_) ?_
    · intro pi bi d r he hr
      have := hf [] pi bi d r es (by simp [he]) hr
      simpa [delivered] using this
    · intro pre pi bi d r post he hr
      have := hf (e :: pre) pi bi d r post (by simp [he]) hr
      rwa [delivered_cons, delivered_step hi hs] at this

theorem countInv_new {pl : Nat} {s0 : PendingPieces} (h0 : PendingPieces.new pl = .ok s0) : CountInv s0 := by
  intro k q hq
  rw [(new_inv h0).2.2] at hq
  simp at hq

theorem dataOf_new {pl : Nat} {s0 : PendingPieces} (h0 : PendingPieces.new pl = .ok s0) (pi bi : Nat) :
    dataOf (blockAt s0 pi bi) = none := by
  simp [blockAt, (new_inv h0).2.2, dataOf]

/-- The release build's subtraction never panics. -/
theorem usizeSub_release (a b : Nat) : ∃ r, usizeSub .release a b = .ok r := by
  unfold usizeSub; split <;> exact ⟨_, rfl⟩

/-- C25, release build, for histories in which no block is accepted twice: a block of a piece in progress that
passes the size check is never lost, and completion is reported exactly if every other block of the piece has
been delivered; the reported piece consists of the delivered blocks in index order. Missing for the full
property: repeated blocks (see `C25_duplicate_violated`) and debug builds (see `C26_debug_violated`). -/
theorem C25_completion_partial (pl : Nat) (s0 s : PendingPieces) (h0 : PendingPieces.new pl = .ok s0)
    (es : List Event) (h : Run .release s0 es s) (hnr : NoRedelivery es)
    (pi bi : Nat) (d : Bytes) (hpi : pi ∈ inProgress s) (hbi : bi < s.blocksPerPiece)
    (hsz : d.length = s.expectedSize bi) (hnew : delivered pi bi none es = none) :
    ∃ s' r, s.addBlockData .release pi bi d = .ok (s', r) ∧ r ≠ .failed ∧
      ((∃ idx blocks, r = .addedLast idx blocks) ↔
        ∀ j < s.blocksPerPiece, j ≠ bi → delivered pi j none es ≠ none) ∧
      ∀ idx blocks, r = .addedLast idx blocks → idx = pi ∧ pi ∉ inProgress s' ∧
        blocks.length = s.blocksPerPiece ∧
        ∀ j < s.blocksPerPiece, blocks[j]? = if j = bi then some d else delivered pi j none es := by
  have hi0 := (new_inv h0).1
  have hi := run_inv hi0 h
  have hc : CountInv s := countInv_run hi0 (countInv_new h0) h (by
    intro pre pi bi d r post he hr
    rw [dataOf_new h0]; exact hnr pre pi bi d r post he hr)
  have hdel : ∀ j, delivered pi j none es = dataOf (blockAt s pi j) := by
    intro j
    rw [← dataOf_new h0 pi j]; exact delivered_run hi0 h pi j
  have ha : s.Accepts pi bi d := ⟨hpi, hbi, hsz⟩
  obtain ⟨piece, hg⟩ := get?_of_mem_keys ha.1
  obtain ⟨hcd, hlt⟩ := hc pi piece hg
  have hlen := hi.len pi piece hg
  obtain ⟨pend, hpend⟩ := usizeSub_release piece.pending 1
  have hbat : ∀ j, blockAt s pi j = piece.data[j]? := by intro j; simp [blockAt, hg]
  have hfull : piece.downloaded + 1 = s.blocksPerPiece ↔
      ∀ j < s.blocksPerPiece, j ≠ bi → delivered pi j none es ≠ none := by
    have hup := countP_range_update s.blocksPerPiece bi (fun j => (dataOf (blockAt s pi j)).isSome)
      (fun j => if j = bi then true else (dataOf (blockAt s pi j)).isSome) hbi
      (by rw [← hdel, hnew]; rfl) (by simp) (by intro j hj; simp [hj])
    have hcd' : piece.downloaded = (List.range s.blocksPerPiece).countP fun j => (dataOf (blockAt s pi j)).isSome := hcd
    rw [hcd', ← hup, countP_range_full]
    constructor
    · intro hall j hj hne
      have := hall j hj
      simp only [hne, if_false] at this
      rw [hdel]
      exact Option.isSome_iff_ne_none.mp this
    · intro hall j hj
      by_cases hne : j = bi
      · simp [hne]
      · simp only [hne, if_false]
        rw [Option.isSome_iff_ne_none, ← hdel]
        exact hall j hj hne
  rw [addBlock_accept hi ha hg, hpend]
  simp only [Res.ok_bind]
  by_cases hdone : s.blocksPerPiece = piece.downloaded + 1
  · rw [if_pos hdone]
    have hall := hfull.mp hdone.symm
    -- all blocks are downloaded
    have hex : ∃ blocks : List Bytes, piece.data.set bi (.downloaded d) = blocks.map .downloaded := by
      refine ⟨(List.range s.blocksPerPiece).map fun j => if j = bi then d else (dataOf (blockAt s pi j)).getD [], ?_⟩
      apply List.ext_getElem?
      intro j
      simp only [List.map_map, List.getElem?_map]
      by_cases hj : j < s.blocksPerPiece
      · rw [List.getElem?_range hj]
        simp only [Option.map_some, Function.comp, List.getElem?_set]
        by_cases hjb : bi = j
        · subst hjb; simp [hlen, hj]
        · have hne : ¬ j = bi := fun e => hjb e.symm
          simp only [hjb, if_false, hne]
          have hd := hall j hj hne
          rw [hdel, hbat] at hd
          rw [hbat]
          cases hx : piece.data[j]? with
          | none => rw [hx] at hd; simp [dataOf] at hd
          | some b =>
            rw [hx] at hd
            cases b <;> simp_all [dataOf]
      · rw [List.getElem?_eq_none (by simp; omega), List.getElem?_eq_none (by simp; omega)]
        rfl
    obtain ⟨blocks, hbl⟩ := hex
    rw [blocksIntoVecs_iff.mpr hbl]
    simp only [Res.ok_bind]
    refine ⟨_, _, rfl, by simp, ?_, ?_⟩
    · exact ⟨fun _ => hall, fun _ => ⟨_, _, rfl⟩⟩
    · intro idx bl he
      simp only [AddBlockRes.addedLast.injEq] at he
      obtain ⟨rfl, rfl⟩ := he
      refine ⟨rfl, ?_, ?_, ?_⟩
      · simp only [inProgress, Map.keys_erase, List.mem_filter]; simp
      · have := congrArg List.length hbl
        simp only [List.length_set, List.length_map] at this
        omega
      · intro j hj
        have hx := congrArg (fun l => dataOf l[j]?) hbl
        simp only [List.getElem?_set, List.getElem?_map] at hx
        have hy : dataOf (Option.map Block.downloaded blocks[j]?) = blocks[j]? := by
          cases blocks[j]? <;> rfl
        rw [hy] at hx
        rw [← hx]
        by_cases hjb : bi = j
        · subst hjb; simp [hlen, hj, dataOf]
        · have hne : ¬ j = bi := fun e => hjb e.symm
          simp only [hjb, if_false, hne]
          rw [hdel, hbat]
  · rw [if_neg hdone]
    refine ⟨_, _, rfl, by simp, ?_, ?_⟩
    · constructor
      · rintro ⟨_, _, he⟩; simp at he
      · intro hall; exact absurd (hfull.mpr hall).symm hdone
    · intro idx bl he; simp at he

/-- Delivering block 0 and then block 1 of a two-block piece completes it. -/
example : ∃ s0 s1 s2 s3, PendingPieces.new 20000 = .ok s0 ∧
    s0.addPiece 7 = .ok s1 ∧ s1.addBlockData .release 7 0 (List.replicate 16384 1#8) = .ok (s2, .added) ∧
    s2.addBlockData .release 7 1 (List.replicate 3616 2#8) =
      .ok (s3, .addedLast 7 [List.replicate 16384 1#8, List.replicate 3616 2#8]) := by
  generalize hx : (List.replicate 16384 1#8 : Bytes) = x
  generalize hy : (List.replicate 3616 2#8 : Bytes) = y
  have hxl : x.length = 16384 := by rw [← hx, List.length_replicate]
  have hyl : y.length = 3616 := by rw [← hy, List.length_replicate]
  have e1 : (⟨20000, 2, []⟩ : PendingPieces).addPiece 7 =
      .ok ⟨20000, 2, [(7, ⟨0, 0, [.unbegun, .unbegun]⟩)]⟩ := by decide
  have hi := addPiece_inv (new_inv (new_ok (pl := 20000) (by decide))).1 e1
  have e2 : (⟨20000, 2, [(7, ⟨0, 0, [.unbegun, .unbegun]⟩)]⟩ : PendingPieces).addBlockData .release 7 0 x =
      .ok (⟨20000, 2, [(7, ⟨2 ^ 64 - 1, 1, [.downloaded x, .unbegun]⟩)]⟩, .added) := by
    rw [addBlock_accept hi (piece := ⟨0, 0, [.unbegun, .unbegun]⟩) ⟨by decide, by decide, by rw [hxl]; decide⟩ (by decide)]
    rfl
  have hi2 := addBlock_inv hi e2
  refine ⟨_, _, _, ⟨20000, 2, []⟩, new_ok (by decide), e1, e2, ?_⟩
  rw [addBlock_accept hi2 (piece := ⟨2 ^ 64 - 1, 1, [.downloaded x, .unbegun]⟩)
    ⟨by simp [Map.keys], by simp, by rw [hyl]; simp [expectedSize, BLOCK_SIZE]⟩ rfl]
  rfl

/-- C25 is violated: a block that arrives twice (for instance because its request timed out and was repeated)
is counted twice. With three blocks per piece, block 0 twice and block 1 once is taken for a complete piece and
assembling it panics, in every build. -/
theorem C25_duplicate_violated (x : Bytes) (hx : x.length = 16384) : ∃ s0 s1 s2 s3,
    PendingPieces.new 40000 = .ok s0 ∧ s0.addPiece 7 = .ok s1 ∧
    s1.addBlockData .release 7 0 x = .ok (s2, .added) ∧
    s2.addBlockData .release 7 0 x = .ok (s3, .added) ∧
    blockAt s3 7 2 = some .unbegun ∧
    s3.addBlockData .release 7 1 x = .panic := by
  have e1 : (⟨40000, 3, []⟩ : PendingPieces).addPiece 7 =
      .ok ⟨40000, 3, [(7, ⟨0, 0, [.unbegun, .unbegun, .unbegun]⟩)]⟩ := by decide
  have hi := addPiece_inv (new_inv (new_ok (pl := 40000) (by decide))).1 e1
  have e2 : (⟨40000, 3, [(7, ⟨0, 0, [.unbegun, .unbegun, .unbegun]⟩)]⟩ : PendingPieces).addBlockData .release 7 0 x =
      .ok (⟨40000, 3, [(7, ⟨2 ^ 64 - 1, 1, [.downloaded x, .unbegun, .unbegun]⟩)]⟩, .added) := by
    rw [addBlock_accept hi (piece := ⟨0, 0, [.unbegun, .unbegun, .unbegun]⟩) ⟨by simp [Map.keys], by simp, by rw [hx]; simp [expectedSize, BLOCK_SIZE]⟩ rfl]
    rfl
  have hi2 := addBlock_inv hi e2
  have e3 : (⟨40000, 3, [(7, ⟨2 ^ 64 - 1, 1, [.downloaded x, .unbegun, .unbegun]⟩)]⟩ : PendingPieces).addBlockData
      .release 7 0 x = .ok (⟨40000, 3, [(7, ⟨2 ^ 64 - 2, 2, [.downloaded x, .unbegun, .unbegun]⟩)]⟩, .added) := by
    rw [addBlock_accept hi2 (piece := ⟨2 ^ 64 - 1, 1, [.downloaded x, .unbegun, .unbegun]⟩)
      ⟨by simp [Map.keys], by simp, by rw [hx]; simp [expectedSize, BLOCK_SIZE]⟩ rfl]
    rfl
  have hi3 := addBlock_inv hi2 e3
  refine ⟨_, _, _, _, new_ok (by decide), e1, e2, e3, rfl, ?_⟩
  rw [addBlock_accept hi3 (piece := ⟨2 ^ 64 - 2, 2, [.downloaded x, .unbegun, .unbegun]⟩)
    ⟨by simp [Map.keys], by simp, by rw [hx]; simp [expectedSize, BLOCK_SIZE]⟩ rfl]
  rfl

/-! ## C26 -/

/-- C26, the part that holds: in the release build, while no block is accepted twice, the counter of
downloaded blocks of every piece in progress is the number of its blocks that have been delivered. Missing: the
counter of pending blocks, which is wrong as soon as one block was accepted, and debug builds. -/
theorem C26_downloaded_counter_partial (pl : Nat) (s0 s : PendingPieces) (h0 : PendingPieces.new pl = .ok s0)
    (es : List Event) (h : Run .release s0 es s) (hnr : NoRedelivery es) (k : Nat) (q : PieceState)
    (hq : s.data.get? k = some q) :
    q.downloaded = ((List.range s.blocksPerPiece).filter fun j => (delivered k j none es).isSome).length ∧
    q.downloaded < s.blocksPerPiece := by
  have hi0 := (new_inv h0).1
  have hc : CountInv s := countInv_run hi0 (countInv_new h0) h (by
    intro pre pi bi d r post he hr
    rw [dataOf_new h0]; exact hnr pre pi bi d r post he hr)
  refine ⟨?_, (hc k q hq).2⟩
  rw [(hc k q hq).1, dlCount, List.countP_eq_length_filter]
  congr 1
  apply List.filter_congr
  intro j _
  have := delivered_run hi0 h k j
  rw [dataOf_new h0] at this
  rw [this]

/-- No block has ever been accepted in a debug build: all pending counters are still zero. -/
theorem debug_pending_zero {s s' : PendingPieces} {es : List Event} (hi : s.Inv)
    (hz : ∀ k q, s.data.get? k = some q → q.pending = 0) (h : Run .debug s es s') :
    ∀ k q, s'.data.get? k = some q → q.pending = 0 := by
  induction h with
  | nil => exact hz
  | @cons s s1 s2 e es hs _ ih =>
    refine ih (step_inv hi hs) ?_
    cases hs with
    | @added _ idx h =>
      rcases addPiece_cases hi idx with ⟨hk, h1⟩ | ⟨_, _, h1⟩ | ⟨hk, hl, h1⟩
      · rw [h1] at h; simp only [Res.ok.injEq] at h; subst h; exact hz
      · rw [h1] at h; simp at h
      · rw [h1] at h; simp only [Res.ok.injEq] at h; subst h
        intro k q hq
        simp only [get?_append _ _ _ hk] at hq
        split at hq
        · simp only [Option.some.injEq] at hq; subst hq; rfl
        · exact hz k q hq
    | refused h => exact hz
    | @block _ pi bi d r h =>
      rcases addBlock_cases hi h with ⟨_, rfl, _⟩ | ⟨ha, piece, pend, hg, hp, _⟩ | ⟨ha, piece, pend, bl, hg, hp, _⟩
      · exact hz
      · rw [hz _ _ hg] at hp; simp [usizeSub] at hp
      · rw [hz _ _ hg] at hp; simp [usizeSub] at hp
    | @cancel f =>
      intro k q hq
      rw [get?_cancel] at hq
      cases hg : s.data.get? k with
      | none => rw [hg] at hq; simp at hq
      | some q0 =>
        rw [hg] at hq
        simp only [Option.map_some, Option.some.injEq] at hq
        subst hq; exact hz k q0 hg
    | take h =>
      obtain ⟨_, _, _, _, _, hsz, _⟩ := take_spec hi.wf h
      intro k q hq
      have := hsz k
      rw [hq] at this
      cases hg : s.data.get? k with
      | none => rw [hg] at this; simp at this
      | some q0 =>
        rw [hg] at this
        simp only [Option.map_some, Option.some.injEq, Prod.mk.injEq] at this
        rw [this.1]; exact hz k q0 hg
    | reorder h =>
      intro k q hq
      simp only [← Map.get?_perm hi.wf h] at hq
      exact hz k q hq

/-- C26 is violated in every debug build: in every reachable state, every block that passes the size check
makes the program panic, because the counter of pending blocks is never incremented. -/
theorem C26_debug_violated (pl : Nat) (s0 s : PendingPieces) (h0 : PendingPieces.new pl = .ok s0)
    (es : List Event) (h : Run .debug s0 es s) (pi bi : Nat) (d : Bytes)
    (hpi : pi ∈ inProgress s) (hbi : bi < s.blocksPerPiece) (hsz : d.length = s.expectedSize bi) :
    s.addBlockData .debug pi bi d = .panic := by
  have hi0 := (new_inv h0).1
  have hi := run_inv hi0 h
  have ha : s.Accepts pi bi d := ⟨hpi, hbi, hsz⟩
  obtain ⟨piece, hg⟩ := get?_of_mem_keys ha.1
  have hz := debug_pending_zero hi0 (by intro k q hq; rw [(new_inv h0).2.2] at hq; simp at hq) h pi piece hg
  rw [addBlock_accept hi ha hg, hz]
  rfl

/-- C26 is violated in release builds: after one accepted block the number of pending blocks is 2^64 - 1. -/
theorem C26_release_violated (x : Bytes) (hx : x.length = 16384) : ∃ s0 s1 s2 q,
    PendingPieces.new 40000 = .ok s0 ∧ s0.addPiece 7 = .ok s1 ∧
    s1.addBlockData .release 7 0 x = .ok (s2, .added) ∧ s2.data.get? 7 = some q ∧ q.pending = 2 ^ 64 - 1 := by
  have e1 : (⟨40000, 3, []⟩ : PendingPieces).addPiece 7 =
      .ok ⟨40000, 3, [(7, ⟨0, 0, [.unbegun, .unbegun, .unbegun]⟩)]⟩ := by decide
  have hi := addPiece_inv (new_inv (new_ok (pl := 40000) (by decide))).1 e1
  refine ⟨_, _, ⟨40000, 3, [(7, ⟨2 ^ 64 - 1, 1, [.downloaded x, .unbegun, .unbegun]⟩)]⟩, _, new_ok (by decide), e1, ?_, rfl, rfl⟩
  rw [addBlock_accept hi (piece := ⟨0, 0, [.unbegun, .unbegun, .unbegun]⟩) ⟨by simp [Map.keys], by simp, by rw [hx]; simp [expectedSize, BLOCK_SIZE]⟩ rfl]
  rfl

/-! ## C27 -/

/-- Every block handed out in a reachable state has an index below the number of blocks of a piece. -/
theorem handed_out_in_range {p : Profile} {pl : Nat} {s0 s s' : PendingPieces} (h0 : PendingPieces.new pl = .ok s0)
    {es : List Event} (h : Run p s0 es s) {o : Option Peer} {now cap : Nat} {pieces : List Nat}
    {got : List BlockAddress} (ht : s.takeNotGoodBlocks o now pieces cap [] = .ok (s', got)) {a : BlockAddress}
    (ha : a ∈ got) : a.blockIdx < s.blocksPerPiece := by
  have hi := run_inv (new_inv h0).1 h
  obtain ⟨new, hg, _, _, _, _, _, hall, _⟩ := take_spec hi.wf ht
  simp only [List.nil_append] at hg
  subst hg
  obtain ⟨_, _, b, h3, _⟩ := hall a ha
  simp only [blockAt] at h3
  cases hk : s.data.get? a.pieceIdx with
  | none => rw [hk] at h3; simp at h3
  | some q =>
    rw [hk] at h3
    simp only [Option.bind_some] at h3
    rw [← hi.len _ _ hk]
    exact (List.getElem?_eq_some_iff.mp h3).1

/-- The request sent for a block, as numbers, when nothing is truncated. -/
theorem request_of_block {pl : Nat} (hpl : pl ≤ 2 ^ 32) {a : BlockAddress} (hp : a.pieceIdx < 2 ^ 32)
    (hb : a.blockIdx < blockCount pl) :
    (Request.ofBlockAddress a).index.toNat = a.pieceIdx ∧
    (Request.ofBlockAddress a).begin_.toNat = a.blockIdx * 16384 ∧
    (Request.ofBlockAddress a).length.toNat = 16384 := by
  have hB : BLOCK_SIZE = 16384 := rfl
  simp only [Request.ofBlockAddress, hB, BitVec.toNat_ofNat]
  simp only [blockCount] at hb
  refine ⟨Nat.mod_eq_of_lt hp, Nat.mod_eq_of_lt (by omega), by decide⟩

/-- C27 for piece lengths that are a multiple of 16384 (up to 4 GiB): every request for a block handed out
names a byte range inside the piece, and the ranges of the blocks of a piece tile it: every byte of the piece
lies in exactly one. Missing: other piece lengths, and a last piece shorter than the others. -/
theorem C27_requests_tile_partial (p : Profile) (pl : Nat) (hpl : pl ≤ 2 ^ 32) (hdvd : pl % 16384 = 0)
    (s0 s s' : PendingPieces) (h0 : PendingPieces.new pl = .ok s0) (es : List Event) (h : Run p s0 es s)
    (o : Option Peer) (now cap : Nat) (pieces : List Nat) (hps : ∀ k ∈ pieces, k < 2 ^ 32) (got : List BlockAddress)
    (ht : s.takeNotGoodBlocks o now pieces cap [] = .ok (s', got)) :
    (∀ a ∈ got, (Request.ofBlockAddress a).index.toNat = a.pieceIdx ∧
      (Request.ofBlockAddress a).begin_.toNat + (Request.ofBlockAddress a).length.toNat ≤ pl) ∧
    ∀ k < 2 ^ 32, ∀ x < pl, ∃ i, i < s.blocksPerPiece ∧
      ((Request.ofBlockAddress (.new k i)).begin_.toNat ≤ x ∧
        x < (Request.ofBlockAddress (.new k i)).begin_.toNat + (Request.ofBlockAddress (.new k i)).length.toNat) ∧
      ∀ j < s.blocksPerPiece, (Request.ofBlockAddress (.new k j)).begin_.toNat ≤ x →
        x < (Request.ofBlockAddress (.new k j)).begin_.toNat + (Request.ofBlockAddress (.new k j)).length.toNat → j = i := by
  have hi := run_inv (new_inv h0).1 h
  have hlen := run_pieceLength h0 h
  have hbp : s.blocksPerPiece = blockCount pl := by rw [hi.count, hlen]
  constructor
  · intro a ha
    have hlt := handed_out_in_range h0 h ht ha
    rw [hbp] at hlt
    obtain ⟨new, hg, _, _, _, _, _, hall, _⟩ := take_spec hi.wf ht
    simp only [List.nil_append] at hg
    subst hg
    obtain ⟨h1, h2, h3⟩ := request_of_block hpl (hps _ (hall a ha).1) hlt
    rw [h1, h2, h3]
    simp only [blockCount] at hlt
    exact ⟨rfl, by omega⟩
  · intro k hk x hx
    have hr : ∀ j, j < s.blocksPerPiece → (Request.ofBlockAddress (.new k j)).begin_.toNat = j * 16384 ∧
        (Request.ofBlockAddress (.new k j)).length.toNat = 16384 := by
      intro j hj
      rw [hbp] at hj
      have := request_of_block hpl (a := .new k j) hk hj
      exact this.2
    have hlt : x / 16384 < s.blocksPerPiece := by rw [hbp, blockCount]; omega
    refine ⟨x / 16384, hlt, ?_, ?_⟩
    · rw [(hr _ hlt).1, (hr _ hlt).2]; omega
    · intro j hj h1 h2
      rw [(hr j hj).1] at h1 h2
      rw [(hr j hj).2] at h2
      omega

/-- C27 is violated for every piece length that is no multiple of 16384: the request for the last block
reaches past the end of the piece. -/
theorem C27_last_request_violated (pl k : Nat) (hpl : pl ≤ 2 ^ 32) (hk : k < 2 ^ 32) (hm : pl % 16384 ≠ 0)
    (s0 : PendingPieces) (h0 : PendingPieces.new pl = .ok s0) :
    ∃ s1 s2 got a, s0.addPiece k = .ok s1 ∧
      s1.takeNotGoodBlocks (some peerA) 0 [k] 16 [] = .ok (s2, got) ∧ a ∈ got ∧
      pl < (Request.ofBlockAddress a).begin_.toNat + (Request.ofBlockAddress a).length.toNat := by
  have hn := new_inv h0
  have hd := hn.2.2
  rcases addPiece_cases hn.1 k with ⟨h1, _⟩ | ⟨_, h1, _⟩ | ⟨_, _, h1⟩
  · rw [hd] at h1; simp [Map.keys] at h1
  · rw [hd] at h1; simp at h1
  · have hi1 := addPiece_inv hn.1 h1
    have hcount : s0.blocksPerPiece = blockCount pl := by rw [hn.1.count, hn.2.1]
    have htake : ∀ s : PendingPieces, ∃ s2 got, s.takeNotGoodBlocks (some peerA) 0 [k] 16 [] = .ok (s2, got) := by
      intro s
      simp only [takeNotGoodBlocks, takeFiltered, Res.ok_bind]
      split <;> exact ⟨_, _, rfl⟩
    obtain ⟨s2, got, ht⟩ := htake { s0 with data := s0.data ++ [(k, ⟨0, 0, List.replicate s0.blocksPerPiece .unbegun⟩)] }
    refine ⟨_, s2, got, .new k (blockCount pl - 1), h1, ht, ?_, ?_⟩
    · obtain ⟨new, hg, _, _, _, _, _, _, hunb, _⟩ := take_spec hi1.wf ht
      simp only [List.nil_append] at hg
      subst hg
      refine hunb k _ (by simp) ?_
      rw [blockAt_addPiece hn.1 h1]
      have hk' : k ∉ s0.data.keys := by rw [hd]; simp [Map.keys]
      rw [if_pos ⟨hk', rfl⟩, if_pos]
      rw [hcount]; simp only [blockCount]; omega
    · obtain ⟨_, h2, h3⟩ := request_of_block hpl (a := .new k (blockCount pl - 1)) hk
        (by simp only [BlockAddress.new, blockCount]; omega)
      rw [h2, h3]
      simp only [BlockAddress.new, blockCount]
      omega

/-- Both kinds of piece length occur. -/
example : (262144 : Nat) % 16384 = 0 ∧ (20000 : Nat) % 16384 ≠ 0 := by decide

end Nargun
