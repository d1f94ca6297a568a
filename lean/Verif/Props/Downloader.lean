import Verif.Lemmas.Downloader
import Verif.Props.PendingPieces

/-! # C28–C30: the downloader of one peer -/

namespace Nargun

open Spec Dl

/-! ## C28 -/

/-- A prefix of a history is a history. -/
theorem Dl.run_split {p : Profile} {H : Bytes → ID} {owner : Option Peer} {s s' : State × PendingPieces}
    {es pre post : List Event} {e : Event} (h : Run p H owner s es s') (he : es = pre ++ e :: post) :
    ∃ s1 s2, Run p H owner s pre s1 ∧ Step p H owner s1 e s2 ∧ Run p H owner s (pre ++ [e]) s2 := by
  induction h generalizing post with
  | nil => simp at he
  | @snoc s1 s2 es e' hr hs ih =>
    rcases List.eq_nil_or_concat post with rfl | ⟨post', y, rfl⟩
    · obtain ⟨rfl, he2⟩ := List.append_inj' he rfl
      simp only [List.cons.injEq, and_true] at he2
      subst he2
      exact ⟨s1, s2, hr, hs, .snoc hr hs⟩
    · have h1 : es = pre ++ e :: post' := by
        have : es ++ [e'] = (pre ++ e :: post') ++ [y] := by rw [he]; simp
        exact (List.append_inj' this rfl).1
      exact ih h1

/-- C28: whatever the peer sends and whatever the other tasks do, a piece is reported finished only if it is
assigned to this downloader and its blocks, concatenated, hash to the hash it was assigned with; the report
names that piece, has one entry per block, and contains the block just received at its place. -/
theorem C28_finished_pieces_verified (p : Profile) (H : Bytes → ID) (owner : Option Peer) (pl : Nat)
    (pend0 : PendingPieces) (h0 : PendingPieces.new pl = .ok pend0) (s : State × PendingPieces)
    (pre post : List Dl.Event) (b : Piece) (idx : Nat) (blocks : List Bytes)
    (h : Run p H owner (init, pend0) (pre ++ .block b (.finished idx blocks) :: post) s) :
    idx = b.index.toNat ∧ assigned idx pre = some (H blocks.flatten) ∧ blocks.length = blockCount pl ∧
    ∃ i, b.begin_.toNat = i * 16384 ∧ i < blockCount pl ∧ blocks[i]? = some b.block := by
  have hn := PendingPieces.new_inv h0
  obtain ⟨s1, s2, hr, hs, _⟩ := Dl.run_split h rfl
  have hi := run_inv (s := (init, pend0)) hn.1 hr
  have ha := assigned_eq hn.1 hr
  cases hs with
  | block _ hf =>
    rcases foo_cases hf with ⟨h1, _⟩ | ⟨hash, l, a, r, res, hmod, hg, _, _, hadd, hres⟩
    · simp at h1
    · rcases hres with ⟨_, h1, _⟩ | ⟨_, _, _, _, h1, _⟩ | ⟨idx', blocks', rfl, hh, h1, _⟩
      · simp at h1
      · simp at h1
      · simp only [BlockOut.finished.injEq] at h1
        obtain ⟨rfl, rfl⟩ := h1
        rcases PendingPieces.addBlock_cases hi.1 hadd with ⟨_, _, h2⟩ | ⟨_, _, _, _, _, _, h2, _⟩ |
          ⟨hacc, piece, pend, bl, hgp, _, _, h2, h3, _⟩
        · simp at h2
        · simp at h2
        · simp only [AddBlockRes.addedLast.injEq] at h2
          obtain ⟨rfl, rfl⟩ := h2
          have hbp := hi.1.count
          rw [hi.2, hn.2.1] at hbp
          have hlen : blocks.length = blockCount pl := by
            have := congrArg List.length h3
            simp only [List.length_set, List.length_map] at this
            rw [← this, hi.1.len _ _ hgp, hbp]
          refine ⟨rfl, ?_, hlen, b.begin_.toNat / 16384, by omega, by rw [← hbp]; exact hacc.2.1, ?_⟩
          · rw [← ha.2, hg, hh]
          · have h4 := congrArg (fun x : List Block => x[b.begin_.toNat / 16384]?) h3
            have hlt : b.begin_.toNat / 16384 < piece.data.length := by
              rw [hi.1.len _ _ hgp]; exact hacc.2.1
            simp only [List.getElem?_set_self hlt, List.getElem?_map] at h4
            cases hb : blocks[b.begin_.toNat / 16384]? with
            | none => rw [hb] at h4; simp at h4
            | some x => rw [hb] at h4; simp at h4; rw [h4]

/-- C28 in terms of the torrent: if every piece is assigned with the torrent's hash for it, only pieces with
the torrent's hash are reported. -/
theorem C28_only_torrent_pieces (p : Profile) (H : Bytes → ID) (owner : Option Peer) (pl : Nat)
    (pend0 : PendingPieces) (h0 : PendingPieces.new pl = .ok pend0) (s : State × PendingPieces)
    (torrentHash : Nat → ID) (pre post : List Dl.Event) (b : Piece) (idx : Nat) (blocks : List Bytes)
    (hstart : ∀ hash i, Dl.Event.start hash i ∈ pre → hash = torrentHash i)
    (h : Run p H owner (init, pend0) (pre ++ .block b (.finished idx blocks) :: post) s) :
    H blocks.flatten = torrentHash idx := by
  obtain ⟨_, ha, _⟩ := C28_finished_pieces_verified p H owner pl pend0 h0 s pre post b idx blocks h
  suffices hg : ∀ (es : List Dl.Event) (acc : Option ID),
      (∀ hash i, Dl.Event.start hash i ∈ es → hash = torrentHash i) →
      (∀ x, acc = some x → x = torrentHash idx) → ∀ x, es.foldl (fun acc e => match e with
        | .start h i => if i = idx then some h else acc
        | .stop i => if i = idx then none else acc
        | _ => acc) acc = some x → x = torrentHash idx from
    hg pre none hstart (by simp) _ ha
  intro es
  induction es with
  | nil => intro acc _ h2 x hx; exact h2 x hx
  | cons e es ih =>
    intro acc h1 h2 x hx
    refine ih _ (fun hash i hm => h1 hash i (List.mem_cons_of_mem _ hm)) ?_ x hx
    intro y hy
    cases e with
    | start hh i =>
      simp only at hy
      split at hy
      · rename_i hi; subst hi
        simp only [Option.some.injEq] at hy; subst hy
        exact h1 _ _ (List.mem_cons_self ..)
      · exact h2 y hy
    | stop i =>
      simp only at hy
      split at hy
      · simp at hy
      · exact h2 y hy
    | _ => exact h2 y hy

/-! ## C29 -/

/-- C29 is violated: the task's clone of the table of pieces in progress has no owner (`set_owner_peer` is never
called, `Connection::connect` passes a plain clone), and then the task never requests anything and never
reports a piece, in any history, whatever is assigned to it and whatever the peer does. -/
theorem C29_nothing_requested_violated (p : Profile) (H : Bytes → ID) (pl : Nat) (pend0 : PendingPieces)
    (h0 : PendingPieces.new pl = .ok pend0) (s : State × PendingPieces) (es : List Dl.Event)
    (h : Run p H none (init, pend0) es s) :
    (∀ a r, Dl.Event.request a r ∉ es) ∧ (∀ b idx blocks, Dl.Event.block b (.finished idx blocks) ∉ es) := by
  have hn := PendingPieces.new_inv h0
  suffices hk : s.1.currentBlocks = [] ∧ (∀ a r, Dl.Event.request a r ∉ es) ∧
      (∀ b idx blocks, Dl.Event.block b (.finished idx blocks) ∉ es) from hk.2
  induction h with
  | nil => simp [init]
  | @snoc s1 s2 es e hr hs ih =>
    have hi := (run_inv (s := (init, pend0)) hn.1 hr).1
    obtain ⟨ih1, ih2, ih3⟩ := ih
    simp only [List.mem_append, List.mem_singleton, not_or]
    cases hs with
    | env => exact ⟨ih1, fun a r => ⟨ih2 a r, by simp⟩, fun b i l => ⟨ih3 b i l, by simp⟩⟩
    | start => exact ⟨ih1, fun a r => ⟨ih2 a r, by simp⟩, fun b i l => ⟨ih3 b i l, by simp⟩⟩
    | stop => exact ⟨ih1, fun a r => ⟨ih2 a r, by simp⟩, fun b i l => ⟨ih3 b i l, by simp⟩⟩
    | block _ hf =>
      rcases foo_cases hf with ⟨rfl, rfl, _⟩ | ⟨_, l, a, r, _, _, _, hb, _⟩
      · exact ⟨ih1, fun a r => ⟨ih2 a r, by simp⟩, fun b i l => ⟨ih3 b i l, by simp⟩⟩
      · simp only at ih1; rw [ih1] at hb; simp at hb
    | readd _ hf =>
      refine ⟨?_, fun a r => ⟨ih2 a r, by simp⟩, fun b i l => ⟨ih3 b i l, by simp⟩⟩
      simp only [readd] at hf
      split at hf <;> simp at hf <;> rw [← hf.1] <;> exact ih1
    | take _ hf =>
      have := take_cases hi hf
      refine ⟨?_, fun a r => ⟨ih2 a r, by simp⟩, fun b i l => ⟨ih3 b i l, by simp⟩⟩
      rw [this.1, (this.2.2.2 rfl).1]; simpa using ih1
    | request _ hf => simp only at ih1; rw [ih1] at hf; simp [sendNext] at hf
    | loop => exact ⟨ih1, fun a r => ⟨ih2 a r, by simp⟩, fun b i l => ⟨ih3 b i l, by simp⟩⟩

/-- In that situation the first attempt to obtain a block of a piece in progress kills the task. -/
theorem C29_taking_panics_violated (pl idx : Nat) (pend0 pend1 : PendingPieces)
    (h0 : PendingPieces.new pl = .ok pend0) (h1 : pend0.addPiece idx = .ok pend1) (hash : ID) (now cap : Nat) :
    Dl.take (Dl.start init hash idx) pend1 none now cap = .panic := by
  have hn := PendingPieces.new_inv h0
  have hi := PendingPieces.addPiece_inv hn.1 h1
  simp only [Dl.take, Dl.start, init, Nat.zero_mod, if_true]
  cases ht : pend1.takeNotGoodBlocks none now (Map.insert [] idx hash).keys cap [] with
  | panic => rfl
  | err =>
    simp only [PendingPieces.takeNotGoodBlocks, takeFiltered] at ht
    split at ht
    · simp only [Res.ok_bind] at ht
      split at ht
      · simp at ht
      · split at ht <;> simp at ht
    · simp at ht
  | ok v =>
    obtain ⟨p2, got⟩ := v
    obtain ⟨new, _, _, _, _, _, _, _, hunb, _, hno, _⟩ := take_spec hi.wf ht
    have hk : idx ∉ pend0.data.keys := by rw [hn.2.2]; simp [Map.keys]
    have hb := PendingPieces.blockAt_addPiece hn.1 h1 idx 0
    rw [if_pos ⟨hk, rfl⟩, if_pos hn.1.count_pos] at hb
    have := hunb idx 0 (by simp [Map.insert, Map.keys]) hb
    rw [(hno rfl).1] at this
    simp at this

/-- Even with an owner, a piece of two or more blocks kills the task: the first accepted block that does not
complete its piece runs into a `todo!()`. -/
theorem C29_first_block_panics_violated (p : Profile) (H : Bytes → ID) (d : State) (pend pend' : PendingPieces)
    (b : Piece) (hash : ID) (ha : d.currentPieces.get? b.index.toNat = some hash)
    (hb : ∃ a ∈ d.currentBlocks, a.blockIdx = b.begin_.toNat / 16384) (hal : b.begin_.toNat % 16384 = 0)
    (hadd : pend.addBlockData p b.index.toNat (b.begin_.toNat / 16384) b.block = .ok (pend', .added)) :
    foo p H d pend b = .panic := by
  have hbs : BLOCK_SIZE = 16384 := rfl
  simp only [foo]
  rw [hbs, if_neg (by omega), ha]
  simp only
  cases hf : d.currentBlocks.findIdx? (fun a => decide (a.blockIdx = b.begin_.toNat / 16384)) with
  | none =>
    rw [List.findIdx?_eq_none_iff] at hf
    obtain ⟨a, h1, h2⟩ := hb
    have := hf a h1
    simp [h2] at this
  | some i =>
    obtain ⟨hlt, _⟩ := List.findIdx?_eq_some_iff_getElem.mp hf
    have hx : index d.currentBlocks i = .ok d.currentBlocks[i] := by
      simp [index, List.getElem?_eq_getElem hlt, Res.unwrap]
    simp only [hx, Res.ok_bind, hadd]

/-- Such a situation is reachable: a piece of 20000 bytes, its first block arriving in full. -/
example (H : Bytes → ID) (hash : ID) (x : Bytes) (hx : x.length = 16384) :
    foo .release H ⟨.select, [(7, hash)], [⟨7, 0, .requested⟩, ⟨7, 1, .requested⟩], 1⟩
      ⟨20000, 2, [(7, ⟨0, 0, [.pending peerA 0, .pending peerA 0]⟩)]⟩ ⟨7#32, 0#32, x⟩ = .panic := by
  refine C29_first_block_panics_violated .release H _ _
    ⟨20000, 2, [(7, ⟨2 ^ 64 - 1, 1, [.downloaded x, .pending peerA 0]⟩)]⟩ _ hash rfl ⟨⟨7, 0, .requested⟩, by simp, by simp⟩ rfl ?_
  have e : ((7#32).toNat) = 7 := rfl
  have e2 : ((0#32).toNat / 16384) = 0 := rfl
  simp only [e, e2]
  rw [PendingPieces.addBlock_accept (piece := ⟨0, 0, [.pending peerA 0, .pending peerA 0]⟩)
    ⟨by simp [Map.WF, Map.keys], by simp, by simp, by decide, by
      intro k q hq
      simp only [Map.get?_cons] at hq
      split at hq
      · simp only [Option.some.injEq] at hq; subst hq; rfl
      · simp at hq⟩
    ⟨by simp [Map.keys], by simp, by rw [hx]; simp [PendingPieces.expectedSize, BLOCK_SIZE]⟩ rfl]
  rfl

/-- C29, the part that holds: with an owner set (which the program never does) and in the release build, a
downloader that is assigned a piece of a single block which is in progress and not begun requests that block,
and when the peer answers with `pl` bytes of the right hash, it reports the piece finished. Missing: clones
without owner (the program as it is), pieces of more than one block, a piece put in progress after the
downloader has looked for blocks, and debug builds. -/
theorem C29_single_block_partial (H : Bytes → ID) (owner : Peer) (pl idx : Nat) (hpl : pl < 16384)
    (hidx : idx < 2 ^ 32) (pend0 pend1 : PendingPieces)
    (h0 : PendingPieces.new pl = .ok pend0) (h1 : pend0.addPiece idx = .ok pend1)
    (data : Bytes) (hd : data.length = pl) (now : Nat) :
    ∃ s, Run .release H (some owner) (init, pend0)
      [.env (.addPiece idx true), .start (H data) idx, .take [.new idx 0],
        .request (.new idx 0) ⟨BitVec.ofNat 32 idx, 0#32, 16384#32⟩, .loop,
        .block ⟨BitVec.ofNat 32 idx, 0#32, data⟩ (.finished idx [data])] s := by
  have hn := PendingPieces.new_inv h0
  have hbs : BLOCK_SIZE = 16384 := rfl
  have hcount : pend0.blocksPerPiece = 1 := by
    have := hn.1.pos
    rw [hn.1.count, blockCount, hn.2.1] at *; omega
  have hplpos : 0 < pl := by have := hn.1.pos; rw [hn.2.1] at this; exact this
  obtain ⟨l0, b0, m0⟩ := pend0
  obtain ⟨_, hl, hm⟩ := hn
  simp only at hcount hl hm
  subst hcount; subst hl; subst hm
  have h1' := h1
  have hi0 := (PendingPieces.new_inv h0).1
  rcases PendingPieces.addPiece_cases hi0 idx with ⟨hk, _⟩ | ⟨_, hk, _⟩ | ⟨_, _, h2⟩
  · simp [Map.keys] at hk
  · simp at hk
  rw [h2] at h1
  simp only [List.nil_append, List.replicate_one, Res.ok.injEq] at h1
  subst h1
  have hnat : (BitVec.ofNat 32 idx).toNat = idx := by simp; omega
  have hi1 := PendingPieces.addPiece_inv hi0 h1'
  have r0 : Run .release H (some owner) (init, (⟨l0, 1, []⟩ : PendingPieces)) [] (init, ⟨l0, 1, []⟩) := .nil
  have r1 := r0.snoc (.env (.added h1'))
  have r2 := r1.snoc (.start (h := H data) (idx := idx) rfl)
  have ht : Dl.take (Dl.start init (H data) idx) ⟨l0, 1, [(idx, ⟨0, 0, [.unbegun]⟩)]⟩ (some owner) now 16 =
      .ok (⟨.send, [(idx, H data)], [.new idx 0], 0⟩, ⟨l0, 1, [(idx, ⟨0, 0, [.pending owner now]⟩)]⟩, [.new idx 0]) := by
    simp [Dl.take, Dl.start, init, PendingPieces.takeNotGoodBlocks, takeFiltered, takeFromPieces, takeFromBlocks,
      Map.keys, Map.insert, Block.isUnbegun, Block.isExpiredPending, REQUEST_TIMEOUT]
  have r3 := r2.snoc (.take rfl ht)
  have r4 := r3.snoc (.request (a := .new idx 0) (bs := [⟨idx, 0, .requested⟩]) rfl rfl)
  have hreq : Request.ofBlockAddress (.new idx 0) = ⟨BitVec.ofNat 32 idx, 0#32, 16384#32⟩ := by
    simp [Request.ofBlockAddress, BlockAddress.new, BLOCK_SIZE]
  rw [hreq] at r4
  have r5 := r4.snoc (.loop rfl rfl)
  have hadd : (⟨l0, 1, [(idx, ⟨0, 0, [.pending owner now]⟩)]⟩ : PendingPieces).addBlockData .release idx 0 data =
      .ok (⟨l0, 1, []⟩, .addedLast idx [data]) := by
    have hi2 : (⟨l0, 1, [(idx, ⟨0, 0, [.pending owner now]⟩)]⟩ : PendingPieces).Inv := by
      refine ⟨by simp [Map.WF, Map.keys], by simp, hplpos, by simp only [blockCount]; omega, ?_⟩
      intro k q hq
      simp only [Map.get?_cons] at hq
      split at hq
      · simp only [Option.some.injEq] at hq; subst hq; rfl
      · simp at hq
    rw [PendingPieces.addBlock_accept (piece := ⟨0, 0, [.pending owner now]⟩) hi2
      ⟨by simp [Map.keys], by simp, by rw [hd, PendingPieces.expectedSize, hbs]; simp; omega⟩ (by simp [Map.get?_cons])]
    simp [usizeSub, blocksIntoVecs, Block.intoVec, Map.erase]
  refine ⟨_, r5.snoc (.block (b := ⟨BitVec.ofNat 32 idx, 0#32, data⟩)
    (d' := ⟨.take, [(idx, H data)], [], 1⟩) (pend' := ⟨l0, 1, []⟩) rfl ?_)⟩
  simp only [foo, hnat, hbs, BitVec.toNat_ofNat, Nat.zero_mod, gt_iff_lt, Nat.lt_irrefl, if_false, Nat.zero_div,
    Map.get?_cons, if_true, List.findIdx?_cons, decide_true, Res.ok_bind, index, List.getElem?_cons_zero, Res.unwrap,
    hadd, pieceHash]
  simp

/-- The hypotheses are met by a torrent with pieces of 100 bytes. -/
example : ∃ p0 p1, PendingPieces.new 100 = .ok p0 ∧ p0.addPiece 3 = .ok p1 ∧ (List.replicate 100 1#8).length = 100 :=
  ⟨_, _, rfl, rfl, rfl⟩

/-- A further way to lose a piece, with an owner: `download_piece` first sends the command and then puts the
piece in progress. If the downloader looks for blocks in between, it obtains nothing, and it waits for a
message that is not coming: no request is outstanding and its next look comes only after five more messages. -/
theorem C29_race_violated (p : Profile) (H : Bytes → ID) (owner : Option Peer) (pl idx : Nat) (hash : ID)
    (pend0 pend1 : PendingPieces) (h0 : PendingPieces.new pl = .ok pend0) (h1 : pend0.addPiece idx = .ok pend1) :
    Run p H owner (init, pend0) [.start hash idx, .take [], .loop, .env (.addPiece idx true)]
        (⟨.select, [(idx, hash)], [], 1⟩, pend1) ∧
      ∀ now cap, Dl.take ⟨.take, [(idx, hash)], [], 1⟩ pend1 owner now cap =
        .ok (⟨.send, [(idx, hash)], [], 1⟩, pend1, []) := by
  have hm := (PendingPieces.new_inv h0).2.2
  obtain ⟨l0, b0, m0⟩ := pend0
  simp only at hm; subst hm
  constructor
  · have r0 : Run p H owner (init, (⟨l0, b0, []⟩ : PendingPieces)) [] (init, ⟨l0, b0, []⟩) := .nil
    have r1 := r0.snoc (.start (h := hash) (idx := idx) rfl)
    have ht : Dl.take (Dl.start init hash idx) ⟨l0, b0, []⟩ owner 0 16 =
        .ok (⟨.send, [(idx, hash)], [], 0⟩, ⟨l0, b0, []⟩, []) := by
      cases owner <;>
      simp [Dl.take, Dl.start, init, PendingPieces.takeNotGoodBlocks, takeFiltered, takeFromPieces, Map.insert]
    have r2 := r1.snoc (.take rfl ht)
    have r3 := r2.snoc (.loop rfl rfl)
    exact r3.snoc (.env (.added h1))
  · intro now cap
    rfl

/-! ## C30 -/

/-- Queued entries for a block. -/
def queuedCount (pi bi : Nat) (bs : List BlockAddress) : Nat :=
  bs.countP fun a => isBlock pi bi a && a.status = .queued

theorem queuedCount_append (pi bi : Nat) (l r : List BlockAddress) :
    queuedCount pi bi (l ++ r) = queuedCount pi bi l + queuedCount pi bi r := List.countP_append ..

theorem queuedCount_cons (pi bi : Nat) (a : BlockAddress) (r : List BlockAddress) :
    queuedCount pi bi (a :: r) = (if isBlock pi bi a ∧ a.status = .queued then 1 else 0) + queuedCount pi bi r := by
  simp only [queuedCount, List.countP_cons, Bool.and_eq_true, decide_eq_true_eq]
  omega

theorem queuedCount_fresh (pi bi : Nat) (l : List BlockAddress) (h : ∀ a ∈ l, a.status = .queued) :
    queuedCount pi bi l = l.countP (isBlock pi bi) := by
  apply List.countP_congr
  intro a ha
  simp [h a ha]

theorem queuedCount_zero (pi bi : Nat) (l : List BlockAddress) (h : ∀ a ∈ l, a.status ≠ .queued) :
    queuedCount pi bi l = 0 := by
  apply List.countP_eq_zero.mpr
  intro a ha
  simp [h a ha]

theorem isBlock_status (pi bi : Nat) (a : BlockAddress) (st : BlockStatus) :
    isBlock pi bi { a with status := st } = isBlock pi bi a := rfl

/-- While the task is not sending, it has no queued block except the one it just put back or just obtained. -/
theorem c30_inv {p : Profile} {H : Bytes → ID} {owner : Option Peer} {pend0 : PendingPieces} (hi0 : pend0.Inv)
    {s : State × PendingPieces} {es : List Dl.Event} (h : Run p H owner (init, pend0) es s) (pi bi : Nat) :
    requested pi bi es + queuedCount pi bi s.1.currentBlocks = obtained pi bi es + requeued pi bi es ∧
    (s.1.pc = .select → ∀ a ∈ s.1.currentBlocks, a.status ≠ .queued) := by
  induction h with
  | nil => simp [init, requested, obtained, requeued, queuedCount]
  | @snoc s1 s2 es e hr hs ih =>
    have hi := (run_inv (s := (init, pend0)) hi0 hr).1
    obtain ⟨ih1, ih2⟩ := ih
    simp only [requested, obtained, requeued, List.map_append, List.map_cons, List.map_nil, List.sum_append,
      List.sum_cons, List.sum_nil] at ih1 ⊢
    cases hs with
    | env => exact ⟨by simpa using ih1, ih2⟩
    | start => exact ⟨by simpa [start] using ih1, by simp [start]⟩
    | stop => exact ⟨by simpa [stop] using ih1, by simp [stop]⟩
    | @block d pend b d' pend' out hpc hf =>
      have hnq := ih2 hpc
      rcases foo_cases hf with ⟨rfl, rfl, _⟩ | ⟨_, l, a, r, _, _, _, hb, _, _, hres⟩
      · exact ⟨by simpa using ih1, by simp⟩
      · simp only at hb hnq ih1
        have hq0 : ∀ x ∈ l ++ r, x.status ≠ .queued := by
          intro x hx
          apply hnq x
          rw [hb]
          rcases List.mem_append.mp hx with h | h
          · exact List.mem_append_left _ h
          · exact List.mem_append_right _ (List.mem_cons_of_mem _ h)
        have hz := queuedCount_zero pi bi _ hq0
        rw [queuedCount_zero pi bi _ hnq] at ih1
        rcases hres with ⟨_, rfl, rfl⟩ | ⟨_, _, _, _, rfl, rfl⟩ | ⟨_, _, _, _, rfl, rfl⟩
        · refine ⟨?_, by simp⟩
          rw [queuedCount_append, hz, queuedCount_cons]
          simp only [queuedCount, List.countP_nil, and_true, isBlock_status] at ih1 ⊢
          by_cases hib : isBlock pi bi a = true <;> simp only [hib, if_true] at ih1 ⊢ <;> omega
        · refine ⟨?_, by simp⟩
          rw [hz]; simpa using ih1
        · refine ⟨?_, by simp⟩
          rw [hz]; simpa using ih1
    | readd hpc hf =>
      simp only [readd] at hf
      split at hf <;> simp at hf <;> rw [← hf.1] <;> exact ⟨by simpa using ih1, by simp⟩
    | take _ hf =>
      obtain ⟨h1, h2, _⟩ := take_cases hi hf
      rw [h1]
      refine ⟨?_, by simp⟩
      rw [queuedCount_append, queuedCount_fresh _ _ _ (fun a ha => (h2 a ha).2)]
      simp only at ih1 ⊢
      omega
    | @request d pend a bs hpc hf =>
      obtain ⟨l, r, hb, hq, rfl⟩ := sendNext_some hf
      simp only at hb ih1 ⊢
      refine ⟨?_, by simp [hpc]⟩
      rw [hb, queuedCount_append, queuedCount_cons] at ih1
      rw [queuedCount_append, queuedCount_cons]
      simp only [hq, reduceCtorEq, and_false, if_false, and_true] at ih1 ⊢
      omega
    | loop hpc hf =>
      exact ⟨by simpa using ih1, fun _ => sendNext_none hf⟩

/-- C30, the part that holds without restriction: at any moment a block has been requested at most as often as
it was obtained or put back into the queue, and exactly as often whenever the task waits for input; the message
sent is the request for that block. Missing: that a block is put back only when it was itself refused, which
fails as soon as two pieces are assigned (see `C30_wrong_piece_violated`). -/
theorem C30_requests_partial (p : Profile) (H : Bytes → ID) (owner : Option Peer) (pl : Nat) (pend0 : PendingPieces)
    (h0 : PendingPieces.new pl = .ok pend0) (s : State × PendingPieces) (es : List Dl.Event)
    (h : Run p H owner (init, pend0) es s) (pi bi : Nat) :
    requested pi bi es ≤ obtained pi bi es + requeued pi bi es ∧
    (s.1.pc = .select → requested pi bi es = obtained pi bi es + requeued pi bi es) ∧
    ∀ a r, Dl.Event.request a r ∈ es →
      r.index.toNat = a.pieceIdx % 2 ^ 32 ∧ r.begin_.toNat = a.blockIdx * 16384 % 2 ^ 32 ∧ r.length.toNat = 16384 := by
  have hk := c30_inv (PendingPieces.new_inv h0).1 h pi bi
  refine ⟨by omega, ?_, ?_⟩
  · intro hpc
    have := queuedCount_zero pi bi _ (hk.2 hpc)
    omega
  · intro a r hm
    obtain ⟨pre, post, rfl⟩ := List.append_of_mem hm
    obtain ⟨s1, s2, _, hs, _⟩ := Dl.run_split h rfl
    cases hs with
    | request => simp [Request.ofBlockAddress, BLOCK_SIZE]

/-- C30 for a downloader to which only one piece is ever assigned: every block it obtained is requested exactly
once, and again only after it was itself refused; nothing else is requested. Missing: two or more pieces. -/
theorem C30_single_piece_partial (p : Profile) (H : Bytes → ID) (owner : Option Peer) (pl : Nat)
    (pend0 : PendingPieces) (h0 : PendingPieces.new pl = .ok pend0) (s : State × PendingPieces) (es : List Dl.Event)
    (h : Run p H owner (init, pend0) es s) (hpc : s.1.pc = .select) (k : Nat)
    (hk : ∀ hash i, Dl.Event.start hash i ∈ es → i = k) (pi bi : Nat) :
    requested pi bi es = obtained pi bi es + refused pi bi es := by
  rw [(C30_requests_partial p H owner pl pend0 h0 s es h pi bi).2.1 hpc]
  have hi0 := (PendingPieces.new_inv h0).1
  suffices hr : requeued pi bi es = refused pi bi es ∧ (∀ i ∈ s.1.currentPieces.keys, i = k) ∧
      ∀ a ∈ s.1.currentBlocks, a.pieceIdx = k by omega
  clear hpc
  induction h with
  | nil => simp [requeued, refused, init, Map.keys]
  | @snoc s1 s2 es e hr hs ih =>
    have hi := (run_inv (s := (init, pend0)) hi0 hr).1
    obtain ⟨ih1, ih2, ih3⟩ := ih (fun hash i hm => hk hash i (List.mem_append_left _ hm))
    have hke := fun hash i => hk hash i
    simp only [requeued, refused, List.map_append, List.map_cons, List.map_nil, List.sum_append,
      List.sum_cons, List.sum_nil] at ih1 ⊢
    cases hs with
    | env => exact ⟨by simpa using ih1, ih2, ih3⟩
    | @start d pend hh i _ =>
      refine ⟨by simpa using ih1, ?_, ih3⟩
      intro j hj
      simp only [Dl.start, Map.mem_keys_insert] at hj
      rcases hj with rfl | hj
      · exact hk hh _ (by simp)
      · exact ih2 j hj
    | stop =>
      refine ⟨by simpa using ih1, ?_, ih3⟩
      intro j hj
      simp only [Dl.stop, Map.keys_erase, List.mem_filter] at hj
      exact ih2 j hj.1
    | @block d pend b d' pend' out hpc hf =>
      rcases foo_cases hf with ⟨rfl, rfl, _⟩ | ⟨hash, l, a, r, _, hmod, hg, hb, hbi, _, hres⟩
      · exact ⟨by simpa using ih1, ih2, ih3⟩
      · simp only at hb ih2 ih3
        have hidx : b.index.toNat = k := ih2 _ (PendingPieces.mem_keys_of_get? hg)
        have hak : a.pieceIdx = k := ih3 a (by rw [hb]; simp)
        have hlr : ∀ x ∈ l ++ r, x.pieceIdx = k := by
          intro x hx
          apply ih3 x
          rw [hb]
          rcases List.mem_append.mp hx with h | h
          · exact List.mem_append_left _ h
          · exact List.mem_append_right _ (List.mem_cons_of_mem _ h)
        rcases hres with ⟨_, rfl, rfl⟩ | ⟨_, _, _, _, rfl, rfl⟩ | ⟨_, _, _, _, rfl, rfl⟩
        · refine ⟨?_, ih2, ?_⟩
          · have hc : (isBlock pi bi { a with status := .queued } = true) ↔
                (b.index.toNat = pi ∧ b.begin_.toNat = bi * 16384) := by
              simp only [isBlock, Bool.and_eq_true, decide_eq_true_eq, hak, hidx, hbi]
              constructor
              · rintro ⟨h1, h2⟩; exact ⟨h1, by omega⟩
              · rintro ⟨h1, h2⟩; exact ⟨h1, by omega⟩
            simp only [hc]
            omega
          · intro x hx
            rcases List.mem_append.mp hx with h | h
            · exact hlr x h
            · simp only [List.mem_singleton] at h; subst h; exact hak
        · exact ⟨by simpa using ih1, ih2, hlr⟩
        · exact ⟨by simpa using ih1, ih2, hlr⟩
    | readd hpc hf =>
      simp only [readd] at hf
      split at hf <;> simp at hf <;> rw [← hf.1] <;> exact ⟨by simpa using ih1, ih2, ih3⟩
    | take _ hf =>
      obtain ⟨h1, h2, _⟩ := take_cases hi hf
      rw [h1]
      refine ⟨by simpa using ih1, ih2, ?_⟩
      intro x hx
      rcases List.mem_append.mp hx with h | h
      · exact ih3 x h
      · exact ih2 _ (h2 x h).1
    | @request d pend a bs hpc hf =>
      obtain ⟨l, r, hb, hq, rfl⟩ := sendNext_some hf
      simp only at hb ih3
      refine ⟨by simpa using ih1, ih2, ?_⟩
      intro x hx
      have ha := ih3 a (by rw [hb]; simp)
      rcases List.mem_append.mp hx with h | h
      · exact ih3 x (by rw [hb]; exact List.mem_append_left _ h)
      · rcases List.mem_cons.mp h with rfl | h
        · exact ha
        · exact ih3 x (by rw [hb]; exact List.mem_append_right _ (List.mem_cons_of_mem _ h))
    | loop => exact ⟨by simpa using ih1, ih2, ih3⟩

/-- C30 is violated with two assigned pieces: blocks are looked up by their index within the piece only. After
a bad block 0 of piece 1, block 0 of piece 0 is requested a second time although nothing arrived for it. -/
theorem C30_wrong_piece_violated (H : Bytes → ID) (hash0 hash1 : ID) : ∃ pend0 s es,
    PendingPieces.new 100 = .ok pend0 ∧ Run .release H (some peerA) (init, pend0) es s ∧
    requested 0 0 es = 2 ∧ obtained 0 0 es = 1 ∧ refused 0 0 es = 0 ∧
    (∀ b out, Dl.Event.block b out ∈ es → b.index = 1#32) := by
  have a0 : (⟨100, 1, []⟩ : PendingPieces).addPiece 0 = .ok ⟨100, 1, [(0, ⟨0, 0, [.unbegun]⟩)]⟩ := by decide
  have r0 : Run .release H (some peerA) (init, (⟨100, 1, []⟩ : PendingPieces)) [] (init, ⟨100, 1, []⟩) := .nil
  have r1 := r0.snoc (.env (.added a0))
  have r2 := r1.snoc (.start (h := hash0) (idx := 0) rfl)
  have r3 := r2.snoc (.take (now := 0) (cap := 16) (got := [.new 0 0]) (d' := ⟨.send, [(0, hash0)], [.new 0 0], 0⟩)
    (pend' := ⟨100, 1, [(0, ⟨0, 0, [.pending peerA 0]⟩)]⟩) rfl rfl)
  have r4 := r3.snoc (.request (a := .new 0 0) (bs := [⟨0, 0, .requested⟩]) rfl rfl)
  have r5 := r4.snoc (.loop rfl rfl)
  have r6 := r5.snoc (.start (h := hash1) (idx := 1) rfl)
  have r7 := r6.snoc (.take (now := 0) (cap := 16) (got := []) (d' := ⟨.send, [(0, hash0), (1, hash1)], [⟨0, 0, .requested⟩], 1⟩)
    (pend' := ⟨100, 1, [(0, ⟨0, 0, [.pending peerA 0]⟩)]⟩) rfl rfl)
  have r8 := r7.snoc (.loop rfl rfl)
  have r9 := r8.snoc (.block (b := ⟨1#32, 0#32, []⟩) (out := .requeued ⟨0, 0, .queued⟩)
    (d' := ⟨.take, [(0, hash0), (1, hash1)], [⟨0, 0, .queued⟩], 2⟩)
    (pend' := ⟨100, 1, [(0, ⟨0, 0, [.pending peerA 0]⟩)]⟩) rfl rfl)
  have r10 := r9.snoc (.take (now := 0) (cap := 16) (got := []) (d' := ⟨.send, [(0, hash0), (1, hash1)], [⟨0, 0, .queued⟩], 2⟩)
    (pend' := ⟨100, 1, [(0, ⟨0, 0, [.pending peerA 0]⟩)]⟩) rfl rfl)
  have r11 := r10.snoc (.request (a := .new 0 0) (bs := [⟨0, 0, .requested⟩]) rfl rfl)
  refine ⟨_, _, _, PendingPieces.new_ok (by decide), r11, rfl, rfl, rfl, ?_⟩
  intro b out hm
  simp at hm
  rw [hm.1]

/-! ## The hypotheses can be met -/

/-- The hypotheses of `C28_finished_pieces_verified` and of `C28_only_torrent_pieces`: piece 3 of 100 bytes is assigned with
its hash and finished with its only block. -/
example (H : Bytes → ID) : ∃ pend0 s pre, PendingPieces.new 100 = .ok pend0 ∧
    (∀ hash i, Dl.Event.start hash i ∈ pre → hash = H (List.replicate 100 1#8)) ∧
    Run .release H (some peerA) (init, pend0)
      (pre ++ .block ⟨BitVec.ofNat 32 3, 0#32, List.replicate 100 1#8⟩ (.finished 3 [List.replicate 100 1#8]) :: []) s := by
  have h0 : PendingPieces.new 100 = .ok ⟨100, 1, []⟩ := PendingPieces.new_ok (by decide)
  have a0 : (⟨100, 1, []⟩ : PendingPieces).addPiece 3 = .ok ⟨100, 1, [(3, ⟨0, 0, [.unbegun]⟩)]⟩ := by decide
  obtain ⟨s, h⟩ := C29_single_block_partial H peerA 100 3 (by decide) (by decide) _ _ h0 a0 (List.replicate 100 1#8)
    (by decide) 0
  refine ⟨_, s, [_, _, _, _, _], h0, ?_, h⟩
  intro hash i hm
  simp at hm
  exact hm.1

/-- The hypotheses of `C30_requests_partial` and of `C30_single_piece_partial`: piece 0 is assigned, its block is obtained and
requested, refused once and requested again; the task then waits for the next block. -/
example (H : Bytes → ID) (hash : ID) : ∃ pend0 s es, PendingPieces.new 100 = .ok pend0 ∧
    Run .release H (some peerA) (init, pend0) es s ∧ s.1.pc = .select ∧ (∀ h i, Dl.Event.start h i ∈ es → i = 0) ∧
    requested 0 0 es = 2 ∧ obtained 0 0 es = 1 ∧ refused 0 0 es = 1 := by
  have a0 : (⟨100, 1, []⟩ : PendingPieces).addPiece 0 = .ok ⟨100, 1, [(0, ⟨0, 0, [.unbegun]⟩)]⟩ := by decide
  have r0 : Run .release H (some peerA) (init, (⟨100, 1, []⟩ : PendingPieces)) [] (init, ⟨100, 1, []⟩) := .nil
  have r1 := r0.snoc (.env (.added a0))
  have r2 := r1.snoc (.start (h := hash) (idx := 0) rfl)
  have r3 := r2.snoc (.take (now := 0) (cap := 16) (got := [.new 0 0]) (d' := ⟨.send, [(0, hash)], [.new 0 0], 0⟩)
    (pend' := ⟨100, 1, [(0, ⟨0, 0, [.pending peerA 0]⟩)]⟩) rfl rfl)
  have r4 := r3.snoc (.request (a := .new 0 0) (bs := [⟨0, 0, .requested⟩]) rfl rfl)
  have r5 := r4.snoc (.loop rfl rfl)
  have r6 := r5.snoc (.block (b := ⟨0#32, 0#32, []⟩) (out := .requeued ⟨0, 0, .queued⟩)
    (d' := ⟨.take, [(0, hash)], [⟨0, 0, .queued⟩], 1⟩)
    (pend' := ⟨100, 1, [(0, ⟨0, 0, [.pending peerA 0]⟩)]⟩) rfl rfl)
  have r7 := r6.snoc (.take (now := 0) (cap := 16) (got := []) (d' := ⟨.send, [(0, hash)], [⟨0, 0, .queued⟩], 1⟩)
    (pend' := ⟨100, 1, [(0, ⟨0, 0, [.pending peerA 0]⟩)]⟩) rfl rfl)
  have r8 := r7.snoc (.request (a := .new 0 0) (bs := [⟨0, 0, .requested⟩]) rfl rfl)
  have r9 := r8.snoc (.loop rfl rfl)
  refine ⟨_, _, _, PendingPieces.new_ok (by decide), r9, rfl, ?_, rfl, rfl, rfl⟩
  intro h i hm
  simp at hm
  exact hm.2

end Nargun
