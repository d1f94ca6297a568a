import Verif.Lemmas.PendingPieces
import Verif.Spec.Downloader

/-! # Lemmas about the downloader -/

namespace Nargun.Dl

open Spec

theorem foo_cases {p : Profile} {H : Bytes → ID} {d d' : State} {pend pend' : PendingPieces} {b : Piece}
    {out : BlockOut} (h : foo p H d pend b = .ok (d', pend', out)) :
    (out = .ignored ∧ d' = { d with pc := .take } ∧ pend' = pend) ∨
    ∃ hash l a r res, b.begin_.toNat % 16384 = 0 ∧ d.currentPieces.get? b.index.toNat = some hash ∧
      d.currentBlocks = l ++ a :: r ∧ a.blockIdx = b.begin_.toNat / 16384 ∧
      pend.addBlockData p b.index.toNat (b.begin_.toNat / 16384) b.block = .ok (pend', res) ∧
      ((res = .failed ∧ out = .requeued { a with status := .queued } ∧
          d' = { d with pc := .take, currentBlocks := l ++ r ++ [{ a with status := .queued }] }) ∨
       (∃ idx blocks, res = .addedLast idx blocks ∧ H blocks.flatten ≠ hash ∧ out = .mismatch idx ∧
          d' = { d with pc := .readd b.index.toNat, currentBlocks := l ++ r }) ∨
       (∃ idx blocks, res = .addedLast idx blocks ∧ H blocks.flatten = hash ∧ out = .finished idx blocks ∧
          d' = { d with pc := .take, currentBlocks := l ++ r })) := by
  have hb : BLOCK_SIZE = 16384 := rfl
  simp only [foo] at h
  rw [hb] at h
  split at h
  · simp only [Res.ok.injEq, Prod.mk.injEq] at h
    exact .inl ⟨h.2.2.symm, h.1.symm, h.2.1.symm⟩
  · rename_i h1
    split at h
    · simp only [Res.ok.injEq, Prod.mk.injEq] at h
      exact .inl ⟨h.2.2.symm, h.1.symm, h.2.1.symm⟩
    · rename_i hash hh
      split at h
      · simp only [Res.ok.injEq, Prod.mk.injEq] at h
        exact .inl ⟨h.2.2.symm, h.1.symm, h.2.1.symm⟩
      · rename_i i hf
        right
        obtain ⟨hlt, hp, _⟩ := List.findIdx?_eq_some_iff_getElem.mp hf
        have hx : index d.currentBlocks i = .ok d.currentBlocks[i] := by
          simp [index, List.getElem?_eq_getElem hlt, Res.unwrap]
        rw [hx] at h
        simp only [Res.ok_bind] at h
        obtain ⟨⟨pend1, res⟩, h2, h3⟩ := Res.bind_eq_ok.mp h
        refine ⟨hash, d.currentBlocks.take i, d.currentBlocks[i], d.currentBlocks.drop (i + 1), res, by omega, hh,
          by simp, by simpa using hp, ?_⟩
        have he : d.currentBlocks.eraseIdx i = d.currentBlocks.take i ++ d.currentBlocks.drop (i + 1) :=
          List.eraseIdx_eq_take_drop_succ ..
        rw [he] at h3
        simp only at h3
        cases res with
        | added => simp at h3
        | failed =>
          simp only [Res.ok.injEq, Prod.mk.injEq] at h3
          rw [← h3.2.1]
          exact ⟨h2, .inl ⟨rfl, h3.2.2.symm, h3.1.symm⟩⟩
        | addedLast idx blocks =>
          by_cases hne : pieceHash H blocks = hash
          · simp only [hne, ne_eq, not_true_eq_false, if_false, Res.ok.injEq, Prod.mk.injEq] at h3
            rw [← h3.2.1]
            exact ⟨h2, .inr (.inr ⟨idx, blocks, rfl, hne, h3.2.2.symm, h3.1.symm⟩)⟩
          · simp only [hne, ne_eq, not_false_eq_true, if_true, Res.ok.injEq, Prod.mk.injEq] at h3
            rw [← h3.2.1]
            exact ⟨h2, .inr (.inl ⟨idx, blocks, rfl, hne, h3.2.2.symm, h3.1.symm⟩)⟩

theorem sendNext_some {bs bs' : List BlockAddress} {a : BlockAddress} (h : sendNext bs = some (a, bs')) :
    ∃ l r, bs = l ++ a :: r ∧ a.status = .queued ∧ bs' = l ++ { a with status := .requested } :: r := by
  induction bs generalizing bs' with
  | nil => simp [sendNext] at h
  | cons x xs ih =>
    simp only [sendNext] at h
    split at h
    · rename_i hq
      simp only [Option.some.injEq, Prod.mk.injEq] at h
      obtain ⟨rfl, rfl⟩ := h
      exact ⟨[], xs, rfl, hq, rfl⟩
    · cases hs : sendNext xs with
      | none => rw [hs] at h; simp at h
      | some v =>
        rw [hs] at h
        simp only [Option.map_some, Option.some.injEq, Prod.mk.injEq] at h
        obtain ⟨rfl, rfl⟩ := h
        obtain ⟨l, r, rfl, h2, h3⟩ := ih (bs' := v.2) (by rw [hs])
        exact ⟨x :: l, r, rfl, h2, by rw [h3]; rfl⟩

theorem sendNext_none {bs : List BlockAddress} (h : sendNext bs = none) : ∀ a ∈ bs, a.status ≠ .queued := by
  induction bs with
  | nil => simp
  | cons x xs ih =>
    simp only [sendNext] at h
    split at h
    · simp at h
    · rename_i hq
      intro a ha
      rcases List.mem_cons.mp ha with rfl | ha
      · exact hq
      · exact ih (by simpa using h) a ha

/-- Everything a step of the task takes from the shared structure is a step of the shared structure or leaves
its invariant. -/
theorem step_inv {p : Profile} {H : Bytes → ID} {owner : Option Peer} {s s' : State × PendingPieces} {e : Event}
    (hi : s.2.Inv) (h : Step p H owner s e s') : s'.2.Inv ∧ s'.2.pieceLength = s.2.pieceLength := by
  cases h with
  | env h =>
    refine ⟨PendingPieces.step_inv hi h, ?_⟩
    cases h with
    | added h =>
      rcases PendingPieces.addPiece_cases hi _ with ⟨_, h1⟩ | ⟨_, _, h1⟩ | ⟨_, _, h1⟩ <;> rw [h1] at h <;> simp at h <;>
        subst h <;> rfl
    | refused => rfl
    | block h =>
      rcases PendingPieces.addBlock_cases hi h with ⟨_, rfl, _⟩ | ⟨_, _, _, _, _, _, _, rfl⟩ | ⟨_, _, _, _, _, _, _, _, _, rfl⟩ <;> rfl
    | cancel => rfl
    | take h => obtain ⟨_, _, _, h1, _⟩ := take_spec hi.wf h; exact h1
    | reorder => rfl
  | start => exact ⟨hi, rfl⟩
  | stop => exact ⟨hi, rfl⟩
  | block _ h =>
    rcases foo_cases h with ⟨_, _, rfl⟩ | ⟨_, _, _, _, _, _, _, _, _, h1, _⟩
    · exact ⟨hi, rfl⟩
    · refine ⟨PendingPieces.addBlock_inv hi h1, ?_⟩
      rcases PendingPieces.addBlock_cases hi h1 with ⟨_, rfl, _⟩ | ⟨_, _, _, _, _, _, _, rfl⟩ | ⟨_, _, _, _, _, _, _, _, _, rfl⟩ <;> rfl
  | @readd d pend idx d' pend' _ h =>
    simp only [readd] at h
    split at h
    · rename_i h1
      simp only [Res.ok.injEq, Prod.mk.injEq] at h
      rw [← h.2]
      refine ⟨PendingPieces.addPiece_inv hi h1, ?_⟩
      rcases PendingPieces.addPiece_cases hi idx with ⟨_, h2⟩ | ⟨_, _, h2⟩ | ⟨_, _, h2⟩ <;> rw [h2] at h1 <;> simp at h1 <;>
        subst h1 <;> rfl
    · simp only [Res.ok.injEq, Prod.mk.injEq] at h
      rw [← h.2]; exact ⟨hi, rfl⟩
    · simp at h
  | take _ h =>
    simp only [take] at h
    split at h
    · obtain ⟨⟨p1, b1⟩, h1, h2⟩ := Res.bind_eq_ok.mp h
      simp only [Res.ok.injEq, Prod.mk.injEq] at h2
      rw [← h2.2.1]
      obtain ⟨_, _, _, h3, _⟩ := take_spec hi.wf h1
      exact ⟨PendingPieces.take_inv hi h1, h3⟩
    · simp only [Res.ok.injEq, Prod.mk.injEq] at h
      rw [← h.2.1]; exact ⟨hi, rfl⟩
  | request => exact ⟨hi, rfl⟩
  | loop => exact ⟨hi, rfl⟩

theorem run_inv {p : Profile} {H : Bytes → ID} {owner : Option Peer} {s s' : State × PendingPieces} {es : List Event}
    (hi : s.2.Inv) (h : Run p H owner s es s') : s'.2.Inv ∧ s'.2.pieceLength = s.2.pieceLength := by
  induction h with
  | nil => exact ⟨hi, rfl⟩
  | snoc _ hs ih => exact ⟨(step_inv ih.1 hs).1, by rw [(step_inv ih.1 hs).2, ih.2]⟩

/-- What a successful `take` section does. -/
theorem take_cases {d d' : State} {pend pend' : PendingPieces} (hi : pend.Inv) {owner : Option Peer} {now cap : Nat}
    {got : List BlockAddress} (h : take d pend owner now cap = .ok (d', pend', got)) :
    d' = { d with pc := .send, currentBlocks := d.currentBlocks ++ got } ∧
    (∀ a ∈ got, a.pieceIdx ∈ d.currentPieces.keys ∧ a.status = .queued) ∧ got.Nodup ∧
    (owner = none → got = [] ∧ pend' = pend) := by
  simp only [take] at h
  split at h
  · obtain ⟨⟨p1, b1⟩, h1, h2⟩ := Res.bind_eq_ok.mp h
    simp only [Res.ok.injEq, Prod.mk.injEq] at h2
    obtain ⟨new, hg, _, _, _, _, hnd, hall, _, _, hno, _⟩ := take_spec hi.wf h1
    subst hg
    simp only [List.drop_left] at h2
    obtain ⟨rfl, rfl, rfl⟩ := h2
    exact ⟨rfl, fun a ha => ⟨(hall a ha).1, (hall a ha).2.1⟩, hnd, hno⟩
  · simp only [Res.ok.injEq, Prod.mk.injEq] at h
    obtain ⟨rfl, rfl, rfl⟩ := h
    simp

/-- The task's table of pieces is what the commands say. -/
theorem assigned_eq {p : Profile} {H : Bytes → ID} {owner : Option Peer} {pend0 : PendingPieces}
    {s : State × PendingPieces} {es : List Event} (hi : pend0.Inv) (h : Run p H owner (init, pend0) es s) :
    s.1.currentPieces.WF ∧ ∀ idx, s.1.currentPieces.get? idx = assigned idx es := by
  generalize hs0 : (init, pend0) = s0 at h
  induction h with
  | nil => subst hs0; exact ⟨List.nodup_nil, fun _ => rfl⟩
  | @snoc s1 s2 es e hr hs ih =>
    subst hs0
    have hinv := (run_inv (s := (init, pend0)) hi hr).1
    simp only [assigned, List.foldl_append, List.foldl_cons, List.foldl_nil] at ih ⊢
    cases hs with
    | env => exact ih
    | @start d pend hh i _ =>
      refine ⟨Map.wf_insert ih.1 _ _, fun idx => ?_⟩
      simp only [start, Map.get?_insert, ih.2]
      by_cases hc : idx = i
      · subst hc; simp
      · have : ¬ i = idx := fun e => hc e.symm
        simp [hc, this]
    | @stop d pend i _ =>
      refine ⟨Map.wf_erase ih.1 _, fun idx => ?_⟩
      simp only [stop, Map.get?_erase, ih.2]
      by_cases hc : idx = i
      · subst hc; simp
      · have : ¬ i = idx := fun e => hc e.symm
        simp [hc, this]
    | block _ h =>
      rcases foo_cases h with ⟨_, rfl, _⟩ | ⟨_, _, _, _, _, _, _, _, _, _, h1⟩
      · exact ih
      · rcases h1 with ⟨_, _, rfl⟩ | ⟨_, _, _, _, _, rfl⟩ | ⟨_, _, _, _, _, rfl⟩ <;> exact ih
    | readd _ h =>
      simp only [readd] at h
      split at h <;> simp at h <;> rw [← h.1] <;> exact ih
    | take _ h => rw [(take_cases hinv h).1]; exact ih
    | request => exact ih
    | loop => exact ih

end Nargun.Dl
