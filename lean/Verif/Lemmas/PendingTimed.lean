import Verif.Lemmas.PendingPieces
import Verif.Model.PendingTimed

/-! # Lemmas about taking blocks with all readings of the clock -/

namespace Nargun

open Spec

theorem takeFromBlocksAt_const (f : Block → Bool) (desc : Block) (k i : Nat) (bs : List Block) :
    takeFromBlocksAt (fun _ => f) desc k i bs = takeFromBlocks f desc k i bs := by
  induction bs generalizing i with
  | nil => rfl
  | cons b bs ih => simp only [takeFromBlocksAt, takeFromBlocks, ih]

theorem takeFromPiecesAt_const (f : Block → Bool) (desc : Block) (pieces : List Nat) (m : Map Nat PieceState) :
    takeFromPiecesAt (fun _ _ => f) desc pieces m = takeFromPieces f desc pieces m := by
  induction m with
  | nil => rfl
  | cons e m ih => simp only [takeFromPiecesAt, takeFromPieces, ih, takeFromBlocksAt_const]

/-- With a clock that stands still during the call, this is the call with one reading. -/
theorem takeTimed_const (s : PendingPieces) (o : Option Peer) (now : Nat) (ps : List Nat) (cap : Nat)
    (buf : List BlockAddress) :
    s.takeTimed o now (fun _ _ => now) ps cap buf = s.takeNotGoodBlocks o now ps cap buf := by
  have : ∀ f m, takeFilteredAt (fun _ _ => f) o now ps m = takeFiltered f o now ps m := by
    intro f m
    simp only [takeFilteredAt, takeFiltered, takeFromPiecesAt_const]
    cases o <;> rfl
  simp only [PendingPieces.takeTimed, PendingPieces.takeNotGoodBlocks, this]

theorem takeFromBlocksAt_get (f : Nat → Block → Bool) (desc : Block) (k i : Nat) (bs : List Block) (j : Nat) :
    (takeFromBlocksAt f desc k i bs).1[j]? = bs[j]?.map fun b => if f (i + j) b then desc else b := by
  induction bs generalizing i j with
  | nil => rfl
  | cons b bs ih =>
    unfold takeFromBlocksAt
    cases j with
    | zero => simp only [Nat.add_zero]; split <;> simp [*]
    | succ j =>
      have := ih (i + 1) j
      rw [show i + 1 + j = i + (j + 1) by omega] at this
      split <;> simpa using this

theorem takeFromBlocksAt_length (f : Nat → Block → Bool) (desc : Block) (k i : Nat) (bs : List Block) :
    (takeFromBlocksAt f desc k i bs).1.length = bs.length := by
  induction bs generalizing i with
  | nil => rfl
  | cons b bs ih => unfold takeFromBlocksAt; split <;> simp [ih]

theorem mem_takeFromBlocksAt {f : Nat → Block → Bool} {desc : Block} {k i : Nat} {bs : List Block} {a : BlockAddress} :
    a ∈ (takeFromBlocksAt f desc k i bs).2 ↔ ∃ j b, bs[j]? = some b ∧ f (i + j) b = true ∧ a = .new k (i + j) := by
  induction bs generalizing i with
  | nil => simp [takeFromBlocksAt]
  | cons b bs ih =>
    have key : (∃ j b', (b :: bs)[j]? = some b' ∧ f (i + j) b' = true ∧ a = .new k (i + j)) ↔
        ((f i b = true ∧ a = .new k i) ∨
          ∃ j b', bs[j]? = some b' ∧ f (i + 1 + j) b' = true ∧ a = .new k (i + 1 + j)) := by
      constructor
      · rintro ⟨j, b', h1, h2, h3⟩
        cases j with
        | zero => simp at h1; subst h1; exact .inl ⟨h2, by simpa using h3⟩
        | succ j =>
          have e : i + (j + 1) = i + 1 + j := by omega
          exact .inr ⟨j, b', by simpa using h1, by rw [← e]; exact h2, by rw [← e]; exact h3⟩
      · rintro (⟨h1, h2⟩ | ⟨j, b', h1, h2, h3⟩)
        · exact ⟨0, b, rfl, h1, by simpa using h2⟩
        · have e : i + (j + 1) = i + 1 + j := by omega
          exact ⟨j + 1, b', by simpa using h1, by rw [e]; exact h2, by rw [e]; exact h3⟩
    rw [key]
    unfold takeFromBlocksAt
    split
    · rename_i hf; simp [ih, hf]
    · rename_i hf; simp [ih, hf]

theorem nodup_takeFromBlocksAt (f : Nat → Block → Bool) (desc : Block) (k i : Nat) (bs : List Block) :
    (takeFromBlocksAt f desc k i bs).2.Nodup := by
  induction bs generalizing i with
  | nil => simp [takeFromBlocksAt]
  | cons b bs ih =>
    unfold takeFromBlocksAt
    split
    · simp only [List.nodup_cons]
      refine ⟨?_, ih _⟩
      rw [mem_takeFromBlocksAt]
      rintro ⟨j, b', _, _, h⟩
      simp only [BlockAddress.new, BlockAddress.mk.injEq] at h
      omega
    · exact ih _

theorem mem_takeFromPiecesAt {f : Nat → Nat → Block → Bool} {desc : Block} {pieces : List Nat} {m : Map Nat PieceState}
    {a : BlockAddress} :
    a ∈ (takeFromPiecesAt f desc pieces m).2 ↔
      ∃ p b, (a.pieceIdx, p) ∈ m ∧ a.pieceIdx ∈ pieces ∧ p.data[a.blockIdx]? = some b ∧
        f a.pieceIdx a.blockIdx b = true ∧ a.status = .queued := by
  induction m with
  | nil => simp [takeFromPiecesAt]
  | cons e m ih =>
    obtain ⟨k, p⟩ := e
    unfold takeFromPiecesAt
    split
    · rename_i hk
      simp only [List.mem_append, ih, mem_takeFromBlocksAt, Nat.zero_add]
      constructor
      · rintro (⟨j, b, h1, h2, rfl⟩ | ⟨p', b, h1, h2⟩)
        · exact ⟨p, b, by simp [BlockAddress.new], by simpa [BlockAddress.new] using hk, h1, h2, rfl⟩
        · exact ⟨p', b, List.mem_cons_of_mem _ h1, h2⟩
      · rintro ⟨p', b, h1, h2, h3, h4, h5⟩
        rcases List.mem_cons.mp h1 with h | h
        · simp only [Prod.mk.injEq] at h
          obtain ⟨rfl, rfl⟩ := h
          refine .inl ⟨a.blockIdx, b, h3, h4, ?_⟩
          cases a; simp only [BlockAddress.new] at h5 ⊢; simp [h5]
        · exact .inr ⟨p', b, h, h2, h3, h4, h5⟩
    · rename_i hk
      simp only [ih]
      constructor
      · rintro ⟨p', b, h1, h2⟩
        exact ⟨p', b, List.mem_cons_of_mem _ h1, h2⟩
      · rintro ⟨p', b, h1, h2, h3⟩
        rcases List.mem_cons.mp h1 with h | h
        · simp only [Prod.mk.injEq] at h
          obtain ⟨rfl, rfl⟩ := h
          simp at hk; exact absurd h2 hk
        · exact ⟨p', b, h, h2, h3⟩

theorem nodup_takeFromPiecesAt (f : Nat → Nat → Block → Bool) (desc : Block) (pieces : List Nat) {m : Map Nat PieceState}
    (hm : m.WF) : (takeFromPiecesAt f desc pieces m).2.Nodup := by
  induction m with
  | nil => simp [takeFromPiecesAt]
  | cons e m ih =>
    obtain ⟨k, p⟩ := e
    simp only [Map.WF, Map.keys, List.map_cons, List.nodup_cons] at hm
    unfold takeFromPiecesAt
    split
    · simp only
      rw [List.nodup_append]
      refine ⟨nodup_takeFromBlocksAt _ _ _ _ _, ih hm.2, ?_⟩
      intro a ha b hb heq
      subst heq
      rw [mem_takeFromBlocksAt] at ha
      obtain ⟨j, b, _, _, rfl⟩ := ha
      rw [mem_takeFromPiecesAt] at hb
      obtain ⟨p', b', h1, _⟩ := hb
      exact hm.1 (List.mem_map.mpr ⟨_, h1, rfl⟩)
    · exact ih hm.2

theorem keys_takeAt (f : Nat → Nat → Block → Bool) (desc : Block) (pieces : List Nat) (m : Map Nat PieceState) :
    Map.keys (takeFromPiecesAt f desc pieces m).1 = m.keys := by
  induction m with
  | nil => rfl
  | cons e m ih =>
    obtain ⟨k, p⟩ := e
    unfold takeFromPiecesAt
    simp only [Map.keys, List.map_cons] at ih ⊢
    split <;> simp [ih]

theorem get?_takeAt (f : Nat → Nat → Block → Bool) (desc : Block) (pieces : List Nat) (m : Map Nat PieceState) (k : Nat) :
    Map.get? (takeFromPiecesAt f desc pieces m).1 k =
      (m.get? k).map fun p => if k ∈ pieces then
        { p with data := (takeFromBlocksAt (f k) desc k 0 p.data).1 } else p := by
  induction m with
  | nil => rfl
  | cons e m ih =>
    obtain ⟨k', p⟩ := e
    unfold takeFromPiecesAt
    by_cases hk : pieces.contains k' = true
    · have hk' : k' ∈ pieces := by simpa using hk
      simp only [hk, if_true, Map.get?_cons]
      split
      · rename_i h; subst h; simp [hk']
      · exact ih
    · have hk' : k' ∉ pieces := by simpa using hk
      simp only [hk, Bool.false_eq_true, if_false, Map.get?_cons]
      split
      · rename_i h; subst h; simp [hk']
      · exact ih

theorem blockAt_takeAt (s : PendingPieces) (f : Nat → Nat → Block → Bool) (desc : Block) (pieces : List Nat) (pi bi : Nat) :
    blockAt { s with data := (takeFromPiecesAt f desc pieces s.data).1 } pi bi =
      (blockAt s pi bi).map fun b => if pi ∈ pieces ∧ f pi bi b = true then desc else b := by
  simp only [blockAt, get?_takeAt]
  cases s.data.get? pi with
  | none => rfl
  | some p =>
    simp only [Option.map_some, Option.bind_some]
    by_cases h : pi ∈ pieces
    · simp [h, takeFromBlocksAt_get]
    · simp only [h, if_false, false_and]
      cases p.data[bi]? <;> rfl

theorem mem_takeAt_iff {s : PendingPieces} (hm : s.data.WF) {f : Nat → Nat → Block → Bool} {desc : Block}
    {pieces : List Nat} {a : BlockAddress} :
    a ∈ (takeFromPiecesAt f desc pieces s.data).2 ↔
      a.pieceIdx ∈ pieces ∧ a.status = .queued ∧
        ∃ b, blockAt s a.pieceIdx a.blockIdx = some b ∧ f a.pieceIdx a.blockIdx b = true := by
  rw [mem_takeFromPiecesAt]
  constructor
  · rintro ⟨p, b, h1, h2, h3, h4, h5⟩
    refine ⟨h2, h5, b, ?_, h4⟩
    simp [blockAt, Map.get?_of_mem hm h1, h3]
  · rintro ⟨h1, h2, b, h3, h4⟩
    simp only [blockAt] at h3
    cases hg : s.data.get? a.pieceIdx with
    | none => simp [hg] at h3
    | some p =>
      simp only [hg, Option.bind_some] at h3
      exact ⟨p, b, Map.mem_of_get? hg, h1, h3, h4, h2⟩

/-- One pass of a filter. -/
structure Pass (f : Nat → Nat → Block → Bool) (desc : Block) (pieces : List Nat) (s s' : PendingPieces)
    (new : List BlockAddress) : Prop where
  keys : s'.data.keys = s.data.keys
  pieceLength : s'.pieceLength = s.pieceLength
  blocksPerPiece : s'.blocksPerPiece = s.blocksPerPiece
  sizes : ∀ k, (s'.data.get? k).map (fun p => (p.pending, p.downloaded, p.data.length)) =
    (s.data.get? k).map (fun p => (p.pending, p.downloaded, p.data.length))
  nodup : new.Nodup
  mem : ∀ a, a ∈ new ↔ a.pieceIdx ∈ pieces ∧ a.status = .queued ∧
    ∃ b, blockAt s a.pieceIdx a.blockIdx = some b ∧ f a.pieceIdx a.blockIdx b = true
  block : ∀ pi bi, blockAt s' pi bi = (blockAt s pi bi).map fun b => if pi ∈ pieces ∧ f pi bi b = true then desc else b

theorem pass_some {s : PendingPieces} (hm : s.data.WF) (f : Nat → Nat → Block → Bool) (desc : Block) (pieces : List Nat) :
    Pass f desc pieces s { s with data := (takeFromPiecesAt f desc pieces s.data).1 }
      (takeFromPiecesAt f desc pieces s.data).2 where
  keys := keys_takeAt f desc pieces s.data
  pieceLength := rfl
  blocksPerPiece := rfl
  sizes k := by
    simp only [get?_takeAt]
    cases s.data.get? k with
    | none => rfl
    | some p => simp only [Option.map_some]; split <;> simp [takeFromBlocksAt_length]
  nodup := nodup_takeFromPiecesAt f desc pieces hm
  mem a := mem_takeAt_iff hm
  block pi bi := blockAt_takeAt s f desc pieces pi bi

namespace PendingPieces

/-- A call consists of one pass or two. -/
theorem takeTimed_cases {s s' : PendingPieces} (hm : s.data.WF) {o : Peer} {now cap : Nat} {exam : Nat → Nat → Nat}
    {pieces : List Nat} {got : List BlockAddress}
    (h : s.takeTimed (some o) now exam pieces cap [] = .ok (s', got)) :
    ∃ s1 a1, Pass (fun _ _ => Block.isUnbegun) (.pending o now) pieces s s1 a1 ∧
      ((got.length = cap ∧ s' = s1 ∧ got = a1) ∨
        ∃ a2, Pass (fun k i => Block.isExpiredPending (exam k i)) (.pending o now) pieces s1 s' a2 ∧ got = a1 ++ a2) := by
  simp only [takeTimed, takeFilteredAt, Res.ok_bind, List.nil_append] at h
  have p1 := pass_some hm (fun _ _ => Block.isUnbegun) (.pending o now) pieces
  refine ⟨_, _, p1, ?_⟩
  have hm1 : ({ s with data := (takeFromPiecesAt (fun _ _ => Block.isUnbegun) (.pending o now) pieces s.data).1 } :
      PendingPieces).data.WF := by
    rw [Map.WF, p1.keys]; exact hm
  split at h
  · rename_i hc
    simp only [Res.ok.injEq, Prod.mk.injEq] at h
    exact .inl ⟨by rw [← h.2]; exact hc.symm, h.1.symm, h.2.symm⟩
  · simp only [Res.ok.injEq, Prod.mk.injEq] at h
    have p2 := pass_some hm1 (fun k i => Block.isExpiredPending (exam k i)) (.pending o now) pieces
    refine .inr ⟨_, ?_, h.2.symm⟩
    rw [← h.1]
    exact p2

/-- Without an owner nothing is taken. -/
theorem takeTimed_none {s s' : PendingPieces} {now cap : Nat} {exam : Nat → Nat → Nat}
    {pieces : List Nat} {got : List BlockAddress}
    (h : s.takeTimed none now exam pieces cap [] = .ok (s', got)) : s' = s ∧ got = [] := by
  simp only [takeTimed, takeFilteredAt] at h
  split at h
  · simp only [Res.ok_bind, List.append_nil] at h
    split at h
    · simp only [Res.ok.injEq, Prod.mk.injEq] at h; exact ⟨h.1.symm, h.2.symm⟩
    · split at h
      · simp only [Res.ok_bind, List.append_nil, Res.ok.injEq, Prod.mk.injEq] at h; exact ⟨h.1.symm, h.2.symm⟩
      · simp at h
  · simp at h

theorem pass_inv {f : Nat → Nat → Block → Bool} {desc : Block} {pieces : List Nat} {s s' : PendingPieces}
    {new : List BlockAddress} (hi : s.Inv) (h : Pass f desc pieces s s' new) : s'.Inv := by
  refine ⟨by rw [Map.WF, h.keys]; exact hi.wf, by rw [length_eq_of_keys h.keys]; exact hi.le,
    by rw [h.pieceLength]; exact hi.pos, by rw [h.pieceLength, h.blocksPerPiece]; exact hi.count, ?_⟩
  intro k q hq
  have := h.sizes k
  rw [hq] at this
  cases hg : s.data.get? k with
  | none => rw [hg] at this; simp at this
  | some q0 =>
    rw [hg] at this
    simp only [Option.map_some, Option.some.injEq, Prod.mk.injEq] at this
    rw [this.2.2, h.blocksPerPiece]; exact hi.len _ _ hg

theorem takeTimed_inv {s s' : PendingPieces} (hi : s.Inv) {owner : Option Peer} {now cap : Nat} {exam : Nat → Nat → Nat}
    {pieces : List Nat} {got : List BlockAddress} (h : s.takeTimed owner now exam pieces cap [] = .ok (s', got)) :
    s'.Inv := by
  cases owner with
  | none => rw [(takeTimed_none h).1]; exact hi
  | some o =>
    obtain ⟨s1, a1, p1, ⟨_, rfl, _⟩ | ⟨a2, p2, _⟩⟩ := takeTimed_cases hi.wf h
    · exact pass_inv hi p1
    · exact pass_inv (pass_inv hi p1) p2

theorem timed_step_inv {p : Profile} {s s' : PendingPieces} {e : TimedEvent} (hi : s.Inv) (h : TimedStep p s e s') :
    s'.Inv := by
  cases h with
  | call h _ => exact step_inv hi h
  | take h => exact takeTimed_inv hi h

theorem timed_run_inv {p : Profile} {s s' : PendingPieces} {es : List TimedEvent} (hi : s.Inv)
    (h : TimedRun p s es s') : s'.Inv := by
  induction h with
  | nil => exact hi
  | cons h _ ih => exact ih (timed_step_inv hi h)

end PendingPieces

end Nargun
