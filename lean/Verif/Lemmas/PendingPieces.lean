import Verif.Spec.Pending

/-! # Lemmas about the set of pieces in progress -/

namespace Nargun

open Spec

/-! ## Taking blocks -/

theorem Block.not_expired_of_unbegun {b : Block} {now : Nat} (h : b.isUnbegun = true) :
    b.isExpiredPending now = false := by
  cases b with
  | unbegun => rfl
  | pending t n => simp [Block.isUnbegun] at h
  | downloaded d => rfl

theorem takeFromBlocks_fst (f : Block → Bool) (desc : Block) (k i : Nat) (bs : List Block) :
    (takeFromBlocks f desc k i bs).1 = bs.map fun b => if f b then desc else b := by
  induction bs generalizing i with
  | nil => rfl
  | cons b bs ih => unfold takeFromBlocks; simp only [List.map_cons]; split <;> simp [ih]

theorem mem_takeFromBlocks {f : Block → Bool} {desc : Block} {k i : Nat} {bs : List Block} {a : BlockAddress} :
    a ∈ (takeFromBlocks f desc k i bs).2 ↔ ∃ j b, bs[j]? = some b ∧ f b = true ∧ a = .new k (i + j) := by
  induction bs generalizing i with
  | nil => simp [takeFromBlocks]
  | cons b bs ih =>
    have key : (∃ j b', (b :: bs)[j]? = some b' ∧ f b' = true ∧ a = .new k (i + j)) ↔
        ((f b = true ∧ a = .new k i) ∨ ∃ j b', bs[j]? = some b' ∧ f b' = true ∧ a = .new k (i + 1 + j)) := by
      constructor
      · rintro ⟨j, b', h1, h2, h3⟩
        cases j with
        | zero => simp at h1; subst h1; exact .inl ⟨h2, by simpa using h3⟩
        | succ j => exact .inr ⟨j, b', by simpa using h1, h2, by rw [h3]; congr 1; omega⟩
      · rintro (⟨h1, h2⟩ | ⟨j, b', h1, h2, h3⟩)
        · exact ⟨0, b, rfl, h1, by simpa using h2⟩
        · exact ⟨j + 1, b', by simpa using h1, h2, by rw [h3]; congr 1; omega⟩
    rw [key]
    unfold takeFromBlocks
    split
    · rename_i hf; simp [ih, hf]
    · rename_i hf; simp [ih, hf]

theorem nodup_takeFromBlocks (f : Block → Bool) (desc : Block) (k i : Nat) (bs : List Block) :
    (takeFromBlocks f desc k i bs).2.Nodup := by
  induction bs generalizing i with
  | nil => simp [takeFromBlocks]
  | cons b bs ih =>
    unfold takeFromBlocks
    split
    · simp only [List.nodup_cons]
      refine ⟨?_, ih _⟩
      rw [mem_takeFromBlocks]
      rintro ⟨j, b', _, _, h⟩
      simp only [BlockAddress.new, BlockAddress.mk.injEq] at h
      omega
    · exact ih _

/-- The effect of one filter on a piece. -/
def applyTake (f : Block → Bool) (desc : Block) (pieces : List Nat) (e : Nat × PieceState) : Nat × PieceState :=
  if pieces.contains e.1 then
    (e.1, { e.2 with data := e.2.data.map fun b => if f b then desc else b })
  else e

theorem takeFromPieces_fst (f : Block → Bool) (desc : Block) (pieces : List Nat) (m : Map Nat PieceState) :
    (takeFromPieces f desc pieces m).1 = m.map (applyTake f desc pieces) := by
  induction m with
  | nil => rfl
  | cons e m ih =>
    obtain ⟨k, p⟩ := e
    unfold takeFromPieces
    simp only [List.map_cons, applyTake]
    split
    · simp only [takeFromBlocks_fst, ih]
    · simp only [ih]

theorem mem_takeFromPieces {f : Block → Bool} {desc : Block} {pieces : List Nat} {m : Map Nat PieceState}
    {a : BlockAddress} :
    a ∈ (takeFromPieces f desc pieces m).2 ↔
      ∃ p b, (a.pieceIdx, p) ∈ m ∧ a.pieceIdx ∈ pieces ∧ p.data[a.blockIdx]? = some b ∧ f b = true ∧
        a.status = .queued := by
  induction m with
  | nil => simp [takeFromPieces]
  | cons e m ih =>
    obtain ⟨k, p⟩ := e
    unfold takeFromPieces
    split
    · rename_i hk
      simp only [List.mem_append, ih, mem_takeFromBlocks, Nat.zero_add]
      constructor
      · rintro (⟨j, b, h1, h2, rfl⟩ | ⟨p', b, h1, h2⟩)
        · exact ⟨p, b, by simp [BlockAddress.new], by simpa [BlockAddress.new] using hk, h1, h2, rfl⟩
        · exact ⟨p', b, List.mem_cons_of_mem _ h1, h2⟩
      · rintro ⟨p', b, h1, h2, h3, h4, h5⟩
        rcases List.mem_cons.mp h1 with h | h
        · simp only [Prod.mk.injEq] at h
          obtain ⟨rfl, rfl⟩ := h
          refine .inl ⟨a.blockIdx, b, h3, h4, ?_⟩
          cases a; simp only [BlockAddress.new] at h5 ⊢; simp [h5]
        · exact .inr ⟨p', b, h, h2, h3, h4, h5⟩
    · rename_i hk
      simp only [ih]
      constructor
      · rintro ⟨p', b, h1, h2⟩
        exact ⟨p', b, List.mem_cons_of_mem _ h1, h2⟩
      · rintro ⟨p', b, h1, h2, h3⟩
        rcases List.mem_cons.mp h1 with h | h
        · simp only [Prod.mk.injEq] at h
          obtain ⟨rfl, rfl⟩ := h
          simp at hk; exact absurd h2 hk
        · exact ⟨p', b, h, h2, h3⟩

theorem nodup_takeFromPieces (f : Block → Bool) (desc : Block) (pieces : List Nat) {m : Map Nat PieceState}
    (hm : m.WF) : (takeFromPieces f desc pieces m).2.Nodup := by
  induction m with
  | nil => simp [takeFromPieces]
  | cons e m ih =>
    obtain ⟨k, p⟩ := e
    simp only [Map.WF, Map.keys, List.map_cons, List.nodup_cons] at hm
    unfold takeFromPieces
    split
    · simp only
      rw [List.nodup_append]
      refine ⟨nodup_takeFromBlocks _ _ _ _ _, ih hm.2, ?_⟩
      intro a ha b hb heq
      subst heq
      rw [mem_takeFromBlocks] at ha
      obtain ⟨j, b, _, _, rfl⟩ := ha
      rw [mem_takeFromPieces] at hb
      obtain ⟨p', b', h1, _⟩ := hb
      exact hm.1 (List.mem_map.mpr ⟨_, h1, rfl⟩)
    · exact ih hm.2

theorem keys_applyTake (f : Block → Bool) (desc : Block) (pieces : List Nat) (m : Map Nat PieceState) :
    Map.keys (m.map (applyTake f desc pieces)) = m.keys := by
  simp only [Map.keys, List.map_map]
  apply List.map_congr_left
  intro e _
  simp only [Function.comp, applyTake]
  split <;> rfl

theorem get?_mapSnd {α β : Type} (m : Map Nat α) (g : Nat → α → β) (k : Nat) :
    Map.get? (m.map fun e => (e.1, g e.1 e.2)) k = (m.get? k).map (g k) := by
  induction m with
  | nil => rfl
  | cons e m ih =>
    simp only [List.map_cons, Map.get?_cons]
    split
    · rename_i h; simp [h]
    · exact ih

theorem get?_applyTake (f : Block → Bool) (desc : Block) (pieces : List Nat) (m : Map Nat PieceState) (k : Nat) :
    Map.get? (m.map (applyTake f desc pieces)) k =
      (m.get? k).map fun p => if k ∈ pieces then
        { p with data := p.data.map fun b => if f b then desc else b } else p := by
  have : m.map (applyTake f desc pieces) = m.map fun e => (e.1, (fun k p => if k ∈ pieces then
        ({ p with data := p.data.map fun b => if f b then desc else b } : PieceState) else p) e.1 e.2) := by
    apply List.map_congr_left
    intro e _
    simp only [applyTake, List.contains_iff_mem]
    split <;> rfl
  rw [this]
  exact get?_mapSnd m (fun k p => if k ∈ pieces then
        ({ p with data := p.data.map fun b => if f b then desc else b } : PieceState) else p) k

/-- The effect of a pass on a single block. -/
theorem blockAt_applyTake (s : PendingPieces) (f : Block → Bool) (desc : Block) (pieces : List Nat) (pi bi : Nat) :
    blockAt { s with data := s.data.map (applyTake f desc pieces) } pi bi =
      (blockAt s pi bi).map fun b => if pi ∈ pieces ∧ f b = true then desc else b := by
  simp only [blockAt, get?_applyTake]
  cases s.data.get? pi with
  | none => rfl
  | some p =>
    simp only [Option.map_some, Option.bind_some]
    by_cases h : pi ∈ pieces
    · simp [h]
    · simp only [h, if_false, false_and]
      cases p.data[bi]? <;> rfl

theorem mem_take_iff {s : PendingPieces} (hm : s.data.WF) {f : Block → Bool} {desc : Block} {pieces : List Nat}
    {a : BlockAddress} :
    a ∈ (takeFromPieces f desc pieces s.data).2 ↔
      a.pieceIdx ∈ pieces ∧ a.status = .queued ∧ ∃ b, blockAt s a.pieceIdx a.blockIdx = some b ∧ f b = true := by
  rw [mem_takeFromPieces]
  constructor
  · rintro ⟨p, b, h1, h2, h3, h4, h5⟩
    refine ⟨h2, h5, b, ?_, h4⟩
    simp [blockAt, Map.get?_of_mem hm h1, h3]
  · rintro ⟨h1, h2, b, h3, h4⟩
    simp only [blockAt] at h3
    cases hg : s.data.get? a.pieceIdx with
    | none => simp [hg] at h3
    | some p =>
      simp only [hg, Option.bind_some] at h3
      exact ⟨p, b, Map.mem_of_get? hg, h1, h3, h4, h2⟩

/-- What one call of `take_not_good_blocks` does, for a clone with owner `o`. -/
theorem take_spec {s s' : PendingPieces} (hm : s.data.WF) {owner : Option Peer} {now cap : Nat} {pieces : List Nat}
    {buf got : List BlockAddress} (h : s.takeNotGoodBlocks owner now pieces cap buf = .ok (s', got)) :
    ∃ new, got = buf ++ new ∧ s'.data.keys = s.data.keys ∧ s'.pieceLength = s.pieceLength ∧
      s'.blocksPerPiece = s.blocksPerPiece ∧
      (∀ k, (s'.data.get? k).map (fun p => (p.pending, p.downloaded, p.data.length)) =
        (s.data.get? k).map (fun p => (p.pending, p.downloaded, p.data.length))) ∧
      new.Nodup ∧
      (∀ a ∈ new, a.pieceIdx ∈ pieces ∧ a.status = .queued ∧
        ∃ b, blockAt s a.pieceIdx a.blockIdx = some b ∧ (b.isUnbegun = true ∨ b.isExpiredPending now = true)) ∧
      (∀ pi bi, pi ∈ pieces → blockAt s pi bi = some .unbegun → .new pi bi ∈ new) ∧
      (∀ pi bi, blockAt s' pi bi = if .new pi bi ∈ new then
          owner.map (fun o => .pending o now) else blockAt s pi bi) ∧
      (owner = none → new = [] ∧ s' = s) ∧
      (owner ≠ none → got.length ≠ cap → ∀ pi bi b, pi ∈ pieces → blockAt s pi bi = some b →
        b.isExpiredPending now = true → .new pi bi ∈ new) := by
  have hnew : ∀ a : BlockAddress, a.status = .queued → a = .new a.pieceIdx a.blockIdx := by
    intro a ha; cases a; simp only [BlockAddress.new] at ha ⊢; simp [ha]
  simp only [PendingPieces.takeNotGoodBlocks] at h
  cases owner with
  | none =>
    simp only [takeFiltered] at h
    split at h
    · rename_i h1
      simp only [Res.ok_bind, List.append_nil] at h
      have hnone : ∀ pi bi, pi ∈ pieces → blockAt s pi bi ≠ some .unbegun := by
        intro pi bi hp hb
        have : BlockAddress.new pi bi ∈ (takeFromPieces Block.isUnbegun .unbegun pieces s.data).2 :=
          (mem_take_iff hm).mpr ⟨hp, rfl, _, hb, rfl⟩
        rw [h1] at this; simp at this
      have hs : s' = s ∧ got = buf := by
        split at h
        · simp only [Res.ok.injEq, Prod.mk.injEq] at h; exact ⟨h.1.symm, h.2.symm⟩
        · split at h
          · simp only [Res.ok_bind, List.append_nil, Res.ok.injEq, Prod.mk.injEq] at h; exact ⟨h.1.symm, h.2.symm⟩
          · simp at h
      obtain ⟨rfl, rfl⟩ := hs
      refine ⟨[], by simp, rfl, rfl, rfl, fun _ => rfl, by simp, by simp, ?_, by simp, by simp, by simp⟩
      intro pi bi hp hb; exact absurd hb (hnone pi bi hp)
    · simp at h
  | some o =>
    simp only [takeFiltered, Res.ok_bind, takeFromPieces_fst] at h
    have hm1 : ({ s with data := s.data.map (applyTake Block.isUnbegun (.pending o now) pieces) } :
        PendingPieces).data.WF := by
      simp only [Map.WF, keys_applyTake]; exact hm
    generalize hs1 : ({ s with data := s.data.map (applyTake Block.isUnbegun (.pending o now) pieces) } :
        PendingPieces) = s1 at *
    have hb1 : ∀ pi bi, blockAt s1 pi bi = (blockAt s pi bi).map fun b =>
        if pi ∈ pieces ∧ b.isUnbegun = true then .pending o now else b := by
      intro pi bi; rw [← hs1]; exact blockAt_applyTake s _ _ _ pi bi
    have hd1 : s1.data = s.data.map (applyTake Block.isUnbegun (.pending o now) pieces) := by rw [← hs1]
    rw [← hd1] at h
    have hsz1 : ∀ k, (s1.data.get? k).map (fun p => (p.pending, p.downloaded, p.data.length)) =
        (s.data.get? k).map (fun p => (p.pending, p.downloaded, p.data.length)) := by
      intro k; rw [hd1, get?_applyTake]
      cases s.data.get? k with
      | none => rfl
      | some p => simp only [Option.map_some]; split <;> simp
    have hk1 : s1.data.keys = s.data.keys := by rw [hd1, keys_applyTake]
    have hpl : s1.pieceLength = s.pieceLength ∧ s1.blocksPerPiece = s.blocksPerPiece := by rw [← hs1]; exact ⟨rfl, rfl⟩
    generalize ha1 : (takeFromPieces Block.isUnbegun (.pending o now) pieces s.data).2 = a1 at h
    have hmem1 : ∀ a, a ∈ a1 ↔ a.pieceIdx ∈ pieces ∧ a.status = .queued ∧
        ∃ b, blockAt s a.pieceIdx a.blockIdx = some b ∧ b.isUnbegun = true := by
      intro a; rw [← ha1]; exact mem_take_iff hm
    have hnd1 : a1.Nodup := by rw [← ha1]; exact nodup_takeFromPieces _ _ _ hm
    have hunb : ∀ b : Block, b.isUnbegun = true ↔ b = .unbegun := by intro b; cases b <;> simp [Block.isUnbegun]
    split at h
    · rename_i hcap
      simp only [Res.ok.injEq, Prod.mk.injEq] at h
      obtain ⟨rfl, rfl⟩ := h
      refine ⟨a1, rfl, hk1, hpl.1, hpl.2, hsz1, hnd1, ?_, ?_, ?_, by simp, fun _ hne => absurd hcap.symm hne⟩
      · intro a ha
        obtain ⟨h1, h2, b, h3, h4⟩ := (hmem1 a).mp ha
        exact ⟨h1, h2, b, h3, .inl h4⟩
      · intro pi bi hp hb
        exact (hmem1 _).mpr ⟨hp, rfl, _, hb, rfl⟩
      · intro pi bi
        rw [hb1]
        split
        · rename_i hin
          obtain ⟨h1, _, b, h3, h4⟩ := (hmem1 _).mp hin
          simp only [BlockAddress.new] at h1 h3
          simp [h1, h3, h4]
        · rename_i hin
          cases hb : blockAt s pi bi with
          | none => rfl
          | some b =>
            have : ¬ (pi ∈ pieces ∧ b.isUnbegun = true) := by
              rintro ⟨h1, h2⟩
              exact hin ((hmem1 _).mpr ⟨h1, rfl, b, hb, h2⟩)
            simp [this]
    · simp only [Res.ok.injEq, Prod.mk.injEq] at h
      obtain ⟨rfl, rfl⟩ := h
      generalize hs2 : ({ s1 with data := s1.data.map (applyTake (Block.isExpiredPending now) (.pending o now) pieces) } :
        PendingPieces) = s2
      have hd2 : s2.data = s1.data.map (applyTake (Block.isExpiredPending now) (.pending o now) pieces) := by rw [← hs2]
      have hsd : ({ s with data := s2.data } : PendingPieces) = s2 := by
        rw [← hs2, ← hs1]
      rw [← hd2, hsd]
      have hb2 : ∀ pi bi, blockAt s2 pi bi = (blockAt s1 pi bi).map fun b =>
          if pi ∈ pieces ∧ b.isExpiredPending now = true then .pending o now else b := by
        intro pi bi; rw [← hs2]; exact blockAt_applyTake s1 _ _ _ pi bi
      generalize ha2 : (takeFromPieces (Block.isExpiredPending now) (.pending o now) pieces s1.data).2 = a2
      have hmem2 : ∀ a, a ∈ a2 ↔ a.pieceIdx ∈ pieces ∧ a.status = .queued ∧
          ∃ b, blockAt s a.pieceIdx a.blockIdx = some b ∧ b.isExpiredPending now = true := by
        intro a; rw [← ha2, mem_take_iff hm1, hb1]
        constructor
        · rintro ⟨h1, h2, b, h3, h4⟩
          refine ⟨h1, h2, b, ?_, h4⟩
          cases hb : blockAt s a.pieceIdx a.blockIdx with
          | none => rw [hb] at h3; simp at h3
          | some b' =>
            rw [hb] at h3
            simp only [Option.map_some, Option.some.injEq] at h3
            split at h3
            · subst h3; simp [Block.isExpiredPending] at h4
            · rw [h3]
        · rintro ⟨h1, h2, b, h3, h4⟩
          refine ⟨h1, h2, b, ?_, h4⟩
          rw [h3]
          have : ¬ b.isUnbegun = true := by
            intro hu; rw [Block.not_expired_of_unbegun hu] at h4; exact absurd h4 (by simp)
          simp [this]
      have hnd2 : a2.Nodup := by rw [← ha2]; exact nodup_takeFromPieces _ _ _ hm1
      refine ⟨a1 ++ a2, by simp, by rw [hd2, keys_applyTake, hk1], ?_, ?_, ?_, ?_, ?_, ?_, ?_, by simp, ?_⟩
      rotate_right 1
      · intro _ _ pi bi b hp hb hx
        exact List.mem_append.mpr (.inr ((hmem2 _).mpr ⟨hp, rfl, b, hb, hx⟩))
      · rw [← hs2]; exact hpl.1
      · rw [← hs2]; exact hpl.2
      · intro k
        rw [← hsz1 k, hd2, get?_applyTake]
        cases s1.data.get? k with
        | none => rfl
        | some p => simp only [Option.map_some]; split <;> simp
      · rw [List.nodup_append]
        refine ⟨hnd1, hnd2, ?_⟩
        rintro a h1 _ h2 rfl
        obtain ⟨_, _, b, h3, h4⟩ := (hmem1 a).mp h1
        obtain ⟨_, _, b', h3', h4'⟩ := (hmem2 a).mp h2
        rw [h3] at h3'
        simp only [Option.some.injEq] at h3'
        subst h3'
        rw [Block.not_expired_of_unbegun h4] at h4'
        exact absurd h4' (by simp)
      · intro a ha
        rcases List.mem_append.mp ha with ha | ha
        · obtain ⟨h1, h2, b, h3, h4⟩ := (hmem1 a).mp ha
          exact ⟨h1, h2, b, h3, .inl h4⟩
        · obtain ⟨h1, h2, b, h3, h4⟩ := (hmem2 a).mp ha
          exact ⟨h1, h2, b, h3, .inr h4⟩
      · intro pi bi hp hb
        exact List.mem_append.mpr (.inl ((hmem1 _).mpr ⟨hp, rfl, _, hb, rfl⟩))
      · intro pi bi
        rw [hb2, hb1]
        cases hb : blockAt s pi bi with
        | none =>
          have : BlockAddress.new pi bi ∉ a1 ++ a2 := by
            intro hin
            rcases List.mem_append.mp hin with hin | hin
            · obtain ⟨_, _, b, h3, _⟩ := (hmem1 _).mp hin
              simp only [BlockAddress.new] at h3; rw [hb] at h3; simp at h3
            · obtain ⟨_, _, b, h3, _⟩ := (hmem2 _).mp hin
              simp only [BlockAddress.new] at h3; rw [hb] at h3; simp at h3
          simp [this]
        | some b =>
          have e1 : BlockAddress.new pi bi ∈ a1 ↔ pi ∈ pieces ∧ b.isUnbegun = true := by
            rw [hmem1]; simp [BlockAddress.new, hb]
          have e2 : BlockAddress.new pi bi ∈ a2 ↔ pi ∈ pieces ∧ b.isExpiredPending now = true := by
            rw [hmem2]; simp [BlockAddress.new, hb]
          simp only [List.mem_append, e1, e2, Option.map_some]
          by_cases hp : pi ∈ pieces
          · cases b <;> simp [hp, Block.isUnbegun, Block.isExpiredPending]
            rename_i t tm
            split <;> simp
          · simp [hp]

/-! ## The other operations -/

theorem unsignedCeilDiv_ok {n d r : Nat} (h : unsignedCeilDiv n d = .ok r) : 0 < n ∧ 0 < d ∧ r = 1 + (n - 1) / d := by
  simp only [unsignedCeilDiv, usub] at h
  split at h
  · simp only [Res.ok_bind] at h
    split at h
    · simp at h
    · simp only [Res.ok.injEq] at h
      exact ⟨by omega, by omega, h.symm⟩
  · simp at h

theorem unsignedCeilDiv_of_pos {n d : Nat} (hn : 0 < n) (hd : 0 < d) : unsignedCeilDiv n d = .ok (1 + (n - 1) / d) := by
  simp only [unsignedCeilDiv, usub]
  rw [if_pos (by omega)]
  simp only [Res.ok_bind]
  rw [if_neg (by omega)]

theorem blockCount_eq {n : Nat} (h : 0 < n) : 1 + (n - 1) / BLOCK_SIZE = blockCount n := by
  have h1 : BLOCK_SIZE = 16384 := rfl
  rw [h1, blockCount]; omega

namespace PendingPieces

/-- What holds in every state reached from `new`. -/
structure Inv (s : PendingPieces) : Prop where
  wf : s.data.WF
  le : s.data.length ≤ 10
  pos : 0 < s.pieceLength
  count : s.blocksPerPiece = blockCount s.pieceLength
  len : ∀ k p, s.data.get? k = some p → p.data.length = s.blocksPerPiece

theorem Inv.count_pos {s : PendingPieces} (h : s.Inv) : 0 < s.blocksPerPiece := by
  have := h.pos
  rw [h.count, blockCount]; omega

theorem new_inv {pl : Nat} {s : PendingPieces} (h : PendingPieces.new pl = .ok s) :
    s.Inv ∧ s.pieceLength = pl ∧ s.data = [] := by
  simp only [new] at h
  obtain ⟨n, h1, h2⟩ := Res.bind_eq_ok.mp h
  obtain ⟨hp, _, rfl⟩ := unsignedCeilDiv_ok h1
  simp only [Res.ok.injEq] at h2
  subst h2
  exact ⟨⟨by simp [Map.WF, Map.keys], by simp, hp, blockCount_eq hp, by simp⟩, rfl, rfl⟩

theorem new_ok {pl : Nat} (h : 0 < pl) : PendingPieces.new pl = .ok ⟨pl, blockCount pl, []⟩ := by
  simp only [new, unsignedCeilDiv_of_pos h (by decide : 0 < BLOCK_SIZE), Res.ok_bind, blockCount_eq h]

theorem addPiece_cases {s : PendingPieces} (hi : s.Inv) (idx : Nat) :
    (idx ∈ s.data.keys ∧ s.addPiece idx = .ok s) ∨
    (idx ∉ s.data.keys ∧ s.data.length = 10 ∧ s.addPiece idx = .err) ∨
    (idx ∉ s.data.keys ∧ s.data.length < 10 ∧
      s.addPiece idx = .ok { s with data := s.data ++ [(idx, ⟨0, 0, List.replicate s.blocksPerPiece .unbegun⟩)] }) := by
  unfold addPiece
  by_cases h : idx ∈ s.data.keys
  · exact .inl ⟨h, by rw [if_pos (Map.contains_iff.mpr h)]⟩
  · right
    have hc : ¬ s.data.contains idx = true := by rw [Map.contains_iff]; exact h
    rw [if_neg hc]
    have hle := hi.le
    by_cases hl : s.data.length ≥ 10
    · left; exact ⟨h, by omega, by rw [if_pos hl]⟩
    · right
      refine ⟨h, by omega, ?_⟩
      rw [if_neg hl]
      simp only [PieceState.new, unsignedCeilDiv_of_pos hi.pos (by decide : 0 < BLOCK_SIZE), Res.ok_bind,
        blockCount_eq hi.pos, ← hi.count]
      rw [Map.insert_of_not_mem h]

theorem get?_append {κ α : Type} [DecidableEq κ] (m : Map κ α) (k : κ) (v : α) (h : k ∉ m.keys) (k' : κ) :
    Map.get? (m ++ [(k, v)]) k' = if k' = k then some v else m.get? k' := by
  rw [← Map.insert_of_not_mem h, Map.get?_insert]

theorem addPiece_inv {s s' : PendingPieces} (hi : s.Inv) {idx : Nat} (h : s.addPiece idx = .ok s') : s'.Inv := by
  rcases addPiece_cases hi idx with ⟨_, h1⟩ | ⟨_, _, h1⟩ | ⟨hk, hl, h1⟩
  · rw [h1] at h; simp only [Res.ok.injEq] at h; subst h; exact hi
  · rw [h1] at h; simp at h
  · rw [h1] at h; simp only [Res.ok.injEq] at h; subst h
    refine ⟨?_, by simp; omega, hi.pos, hi.count, ?_⟩
    · rw [← Map.insert_of_not_mem hk]; exact Map.wf_insert hi.wf _ _
    · intro k p hp
      simp only [get?_append _ _ _ hk] at hp
      split at hp
      · simp only [Option.some.injEq] at hp; subst hp; simp
      · exact hi.len k p hp

/-- The size check, in terms of the piece geometry. -/
theorem checkBlockBounds_iff (s : PendingPieces) (bi : Nat) (d : Bytes) :
    s.checkBlockBounds bi d = .ok () ↔ bi < s.blocksPerPiece ∧ d.length = s.expectedSize bi := by
  unfold checkBlockBounds
  by_cases h : bi ≥ s.blocksPerPiece
  · simp only [h, if_true]; simp; omega
  · simp only [h, if_false]
    cases hc : compare (s.expectedSize bi) d.length with
    | lt => rw [Nat.compare_eq_lt] at hc; simp; omega
    | eq => rw [Nat.compare_eq_eq] at hc; simp; omega
    | gt => rw [Nat.compare_eq_gt] at hc; simp; omega

theorem checkBlockBounds_ne_panic (s : PendingPieces) (bi : Nat) (d : Bytes) :
    s.checkBlockBounds bi d = .ok () ∨ s.checkBlockBounds bi d = .err := by
  unfold checkBlockBounds
  split
  · exact .inr rfl
  · split <;> simp

/-- A block passes the checks of `add_block_data`. -/
def Accepts (s : PendingPieces) (pi bi : Nat) (d : Bytes) : Prop :=
  pi ∈ s.data.keys ∧ bi < s.blocksPerPiece ∧ d.length = s.expectedSize bi

theorem addBlock_reject {p : Profile} {s : PendingPieces} {pi bi : Nat} {d : Bytes} (h : ¬ s.Accepts pi bi d) :
    s.addBlockData p pi bi d = .ok (s, .failed) := by
  unfold addBlockData
  rcases checkBlockBounds_ne_panic s bi d with hc | hc
  · rw [hc]
    simp only
    have := (checkBlockBounds_iff s bi d).mp hc
    have hk : pi ∉ s.data.keys := fun hk => h ⟨hk, this⟩
    rw [Map.get?_eq_none.mpr hk]
  · rw [hc]

theorem get?_of_mem_keys {κ α : Type} [DecidableEq κ] {m : Map κ α} {k : κ} (h : k ∈ m.keys) :
    ∃ v, m.get? k = some v := by
  cases hg : m.get? k with
  | none => exact absurd h (Map.get?_eq_none.mp hg)
  | some v => exact ⟨v, rfl⟩

theorem mem_keys_of_get? {κ α : Type} [DecidableEq κ] {m : Map κ α} {k : κ} {v : α} (h : m.get? k = some v) :
    k ∈ m.keys := List.mem_map.mpr ⟨_, Map.mem_of_get? h, rfl⟩

theorem addBlock_accept {p : Profile} {s : PendingPieces} (hi : s.Inv) {pi bi : Nat} {d : Bytes} {piece : PieceState}
    (h : s.Accepts pi bi d) (hg : s.data.get? pi = some piece) :
    s.addBlockData p pi bi d = (do
      let pending ← usizeSub p piece.pending 1
      let piece' : PieceState := ⟨pending, piece.downloaded + 1, piece.data.set bi (.downloaded d)⟩
      if s.blocksPerPiece = piece.downloaded + 1 then do
        let blocks ← blocksIntoVecs (piece.data.set bi (.downloaded d))
        .ok ({ s with data := s.data.erase pi }, .addedLast pi blocks)
      else .ok ({ s with data := s.data.modify pi (fun _ => piece') }, .added)) := by
  have hc := (checkBlockBounds_iff s bi d).mpr h.2
  unfold addBlockData
  rw [hc]
  simp only [hg]
  simp only [storeBlock]
  rw [if_pos (by rw [hi.len pi piece hg]; exact h.2.1)]
  cases usizeSub p piece.pending 1 <;> rfl

theorem blocksIntoVecs_iff {bs : List Block} {ds : List Bytes} :
    blocksIntoVecs bs = .ok ds ↔ bs = ds.map .downloaded := by
  induction bs generalizing ds with
  | nil => cases ds <;> simp [blocksIntoVecs]
  | cons b bs ih =>
    cases b with
    | downloaded d =>
      simp only [blocksIntoVecs, Block.intoVec, Res.ok_bind]
      cases ds with
      | nil =>
        simp only [List.map_nil, reduceCtorEq, iff_false]
        intro h
        obtain ⟨x, h1, h2⟩ := Res.bind_eq_ok.mp h
        simp at h2
      | cons e es =>
        simp only [List.map_cons, List.cons.injEq, Block.downloaded.injEq]
        rw [Res.bind_eq_ok]
        constructor
        · rintro ⟨x, h1, h2⟩
          simp only [Res.ok.injEq, List.cons.injEq] at h2
          obtain ⟨rfl, rfl⟩ := h2
          exact ⟨rfl, ih.mp h1⟩
        · rintro ⟨rfl, h⟩
          exact ⟨es, ih.mpr h, rfl⟩
    | unbegun => simp only [blocksIntoVecs, Block.intoVec, Res.panic_bind]; cases ds <;> simp
    | pending t n => simp only [blocksIntoVecs, Block.intoVec, Res.panic_bind]; cases ds <;> simp

theorem blocksIntoVecs_ne_err (bs : List Block) : blocksIntoVecs bs ≠ .err := by
  induction bs with
  | nil => simp [blocksIntoVecs]
  | cons b bs ih =>
    cases b <;> simp only [blocksIntoVecs, Block.intoVec, Res.panic_bind, Res.ok_bind, ne_eq, reduceCtorEq, not_false_eq_true]
    cases h : blocksIntoVecs bs <;> simp_all

/-- Everything a successful `add_block_data` can do. -/
theorem addBlock_cases {p : Profile} {s s' : PendingPieces} (hi : s.Inv) {pi bi : Nat} {d : Bytes} {r : AddBlockRes}
    (h : s.addBlockData p pi bi d = .ok (s', r)) :
    (¬ s.Accepts pi bi d ∧ s' = s ∧ r = .failed) ∨
    (s.Accepts pi bi d ∧ ∃ piece pend, s.data.get? pi = some piece ∧ usizeSub p piece.pending 1 = .ok pend ∧
      piece.downloaded + 1 ≠ s.blocksPerPiece ∧ r = .added ∧
      s' = { s with data := s.data.modify pi (fun _ => ⟨pend, piece.downloaded + 1, piece.data.set bi (.downloaded d)⟩) }) ∨
    (s.Accepts pi bi d ∧ ∃ piece pend blocks, s.data.get? pi = some piece ∧ usizeSub p piece.pending 1 = .ok pend ∧
      piece.downloaded + 1 = s.blocksPerPiece ∧ r = .addedLast pi blocks ∧
      piece.data.set bi (.downloaded d) = blocks.map .downloaded ∧ s' = { s with data := s.data.erase pi }) := by
  by_cases ha : s.Accepts pi bi d
  · right
    obtain ⟨piece, hg⟩ := get?_of_mem_keys ha.1
    rw [addBlock_accept hi ha hg] at h
    obtain ⟨pend, h1, h2⟩ := Res.bind_eq_ok.mp h
    simp only at h2
    split at h2
    · rename_i he
      obtain ⟨blocks, h3, h4⟩ := Res.bind_eq_ok.mp h2
      simp only [Res.ok.injEq, Prod.mk.injEq] at h4
      exact .inr ⟨ha, piece, pend, blocks, hg, h1, he.symm, h4.2.symm, blocksIntoVecs_iff.mp h3, h4.1.symm⟩
    · rename_i he
      simp only [Res.ok.injEq, Prod.mk.injEq] at h2
      exact .inl ⟨ha, piece, pend, hg, h1, fun e => he e.symm, h2.2.symm, h2.1.symm⟩
  · rw [addBlock_reject ha] at h
    simp only [Res.ok.injEq, Prod.mk.injEq] at h
    exact .inl ⟨ha, h.1.symm, h.2.symm⟩

theorem addBlock_inv {p : Profile} {s s' : PendingPieces} (hi : s.Inv) {pi bi : Nat} {d : Bytes} {r : AddBlockRes}
    (h : s.addBlockData p pi bi d = .ok (s', r)) : s'.Inv := by
  rcases addBlock_cases hi h with ⟨_, rfl, _⟩ | ⟨_, piece, pend, hg, _, _, _, rfl⟩ | ⟨_, piece, pend, bl, hg, _, _, _, _, rfl⟩
  · exact hi
  · refine ⟨by simp only [Map.WF, Map.keys_modify]; exact hi.wf, by simp [Map.modify]; exact hi.le, hi.pos, hi.count, ?_⟩
    intro k q hq
    simp only [Map.get?_modify] at hq
    split at hq
    · rename_i hk; subst hk
      rw [hg] at hq
      simp only [Option.map_some, Option.some.injEq] at hq
      subst hq
      simp only [List.length_set]; exact hi.len _ _ hg
    · exact hi.len k q hq
  · refine ⟨Map.wf_erase hi.wf _, Nat.le_trans (Map.length_erase_le _ _) hi.le, hi.pos, hi.count, ?_⟩
    intro k q hq
    simp only [Map.get?_erase] at hq
    split at hq
    · simp at hq
    · exact hi.len k q hq

theorem get?_cancel (s : PendingPieces) (f : Peer) (k : Nat) :
    (s.cancelPending f).data.get? k = (s.data.get? k).map fun q =>
      { q with data := q.data.map fun b => if b.isExpectedFrom f then .unbegun else b } :=
  get?_mapSnd s.data (fun _ q =>
    ({ q with data := q.data.map fun b => if b.isExpectedFrom f then .unbegun else b } : PieceState)) k

theorem keys_cancel (s : PendingPieces) (f : Peer) : (s.cancelPending f).data.keys = s.data.keys := by
  simp [cancelPending, Map.keys]

theorem cancel_inv {s : PendingPieces} (hi : s.Inv) (f : Peer) : (s.cancelPending f).Inv := by
  refine ⟨by rw [Map.WF, keys_cancel]; exact hi.wf, by simp [cancelPending]; exact hi.le, hi.pos, hi.count, ?_⟩
  intro k q hq
  rw [get?_cancel] at hq
  cases hg : s.data.get? k with
  | none => rw [hg] at hq; simp at hq
  | some q0 =>
    rw [hg] at hq
    simp only [Option.map_some, Option.some.injEq] at hq
    subst hq
    simp only [List.length_map]; exact hi.len _ _ hg

theorem length_eq_of_keys {m m' : Map Nat PieceState} (h : m.keys = m'.keys) : m.length = m'.length := by
  have := congrArg List.length h
  simpa [Map.keys] using this

theorem take_inv {s s' : PendingPieces} (hi : s.Inv) {owner : Option Peer} {now cap : Nat} {pieces : List Nat}
    {buf got : List BlockAddress} (h : s.takeNotGoodBlocks owner now pieces cap buf = .ok (s', got)) : s'.Inv := by
  obtain ⟨new, _, hk, hpl, hbp, hsz, _⟩ := take_spec hi.wf h
  refine ⟨by rw [Map.WF, hk]; exact hi.wf, by rw [length_eq_of_keys hk]; exact hi.le, by rw [hpl]; exact hi.pos,
    by rw [hpl, hbp]; exact hi.count, ?_⟩
  intro k q hq
  have := hsz k
  rw [hq] at this
  cases hg : s.data.get? k with
  | none => rw [hg] at this; simp at this
  | some q0 =>
    rw [hg] at this
    simp only [Option.map_some, Option.some.injEq, Prod.mk.injEq] at this
    rw [this.2.2, hbp]; exact hi.len _ _ hg

theorem step_inv {p : Profile} {s s' : PendingPieces} {e : Event} (hi : s.Inv) (h : Step p s e s') : s'.Inv := by
  cases h with
  | added h => exact addPiece_inv hi h
  | refused h => exact hi
  | block h => exact addBlock_inv hi h
  | cancel => exact cancel_inv hi _
  | take h => exact take_inv hi h
  | reorder h =>
    refine ⟨Map.wf_perm hi.wf h, by simp only [← h.length_eq]; exact hi.le, hi.pos, hi.count, ?_⟩
    intro k q hq
    simp only [← Map.get?_perm hi.wf h] at hq
    exact hi.len k q hq

theorem run_inv {p : Profile} {s s' : PendingPieces} {es : List Event} (hi : s.Inv) (h : Run p s es s') : s'.Inv := by
  induction h with
  | nil => exact hi
  | cons h _ ih => exact ih (step_inv hi h)

/-! ## Effects on a single block -/

theorem blockAt_addPiece {s s' : PendingPieces} (hi : s.Inv) {idx : Nat} (h : s.addPiece idx = .ok s') (pi bi : Nat) :
    blockAt s' pi bi = if idx ∉ s.data.keys ∧ pi = idx then
      (if bi < s.blocksPerPiece then some .unbegun else none) else blockAt s pi bi := by
  rcases addPiece_cases hi idx with ⟨hk, h1⟩ | ⟨_, _, h1⟩ | ⟨hk, hl, h1⟩
  · rw [h1] at h; simp only [Res.ok.injEq] at h; subst h; simp [hk]
  · rw [h1] at h; simp at h
  · rw [h1] at h; simp only [Res.ok.injEq] at h; subst h
    simp only [blockAt, get?_append _ _ _ hk, hk, not_false_eq_true, true_and]
    split
    · simp [List.getElem?_replicate]
    · rfl

theorem blockAt_modify {s : PendingPieces} {pi : Nat} {piece : PieceState} (hg : s.data.get? pi = some piece)
    (pend dl bi : Nat) (x : Block) (pi' bi' : Nat) (hb : bi < piece.data.length) :
    blockAt { s with data := s.data.modify pi (fun _ => ⟨pend, dl, piece.data.set bi x⟩) } pi' bi' =
      if pi' = pi ∧ bi' = bi then some x else blockAt s pi' bi' := by
  simp only [blockAt, Map.get?_modify]
  by_cases h : pi' = pi
  · subst h
    simp only [if_true, hg, Option.map_some, Option.bind_some, true_and, List.getElem?_set]
    by_cases h2 : bi = bi'
    · subst h2; simp [hb]
    · have : ¬ bi' = bi := fun e => h2 e.symm
      simp [h2, this]
  · simp [h]

theorem blockAt_erase (s : PendingPieces) (pi pi' bi' : Nat) :
    blockAt { s with data := s.data.erase pi } pi' bi' = if pi' = pi then none else blockAt s pi' bi' := by
  simp only [blockAt, Map.get?_erase]
  split <;> rfl

theorem blockAt_cancel (s : PendingPieces) (f : Peer) (pi bi : Nat) :
    blockAt (s.cancelPending f) pi bi = (blockAt s pi bi).map fun b => if b.isExpectedFrom f then .unbegun else b := by
  simp only [blockAt, get?_cancel]
  cases s.data.get? pi with
  | none => rfl
  | some q => simp

theorem blockAt_perm {s : PendingPieces} (hi : s.Inv) {m : Map Nat PieceState} (h : s.data.Perm m) (pi bi : Nat) :
    blockAt { s with data := m } pi bi = blockAt s pi bi := by
  simp only [blockAt, ← Map.get?_perm hi.wf h]

end PendingPieces

end Nargun
