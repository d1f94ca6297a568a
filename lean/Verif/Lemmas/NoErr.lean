import Verif.Lemmas.Swarm

/-! # Functions that either return a value or panic -/

namespace Nargun

open Spec

theorem Res.bind_ne_err {α β : Type} {x : Res α} {f : α → Res β} (hx : x ≠ .err) (hf : ∀ a, f a ≠ .err) :
    (x >>= f) ≠ .err := by
  cases x with
  | ok a => exact hf a
  | err => exact absurd rfl hx
  | panic => simp

theorem Res.ok_ne_err {α : Type} (a : α) : (Res.ok a) ≠ .err := by simp

theorem Res.panic_ne_err {α : Type} : (Res.panic : Res α) ≠ .err := by simp

theorem unwrap_ne_err {α : Type} (o : Option α) : Res.unwrap o ≠ .err := by cases o <;> simp

theorem index_ne_err {α : Type} (xs : List α) (i : Nat) : index xs i ≠ .err := unwrap_ne_err _

theorem sliceFrom_ne_err {α : Type} (xs : List α) (i : Nat) : sliceFrom xs i ≠ .err := by
  unfold sliceFrom; split <;> simp

theorem sliceR_ne_err {α : Type} (xs : List α) (i j : Nat) : sliceR xs i j ≠ .err := by
  unfold sliceR; split <;> simp

theorem u32FromBeSlice_ne_err (b : Bytes) : u32FromBeSlice b ≠ .err :=
  Res.bind_ne_err (index_ne_err _ _) fun _ => Res.bind_ne_err (index_ne_err _ _) fun _ =>
  Res.bind_ne_err (index_ne_err _ _) fun _ => Res.bind_ne_err (index_ne_err _ _) fun _ => Res.ok_ne_err _

theorem Message.len_ne_err (b : Bytes) : Message.len b ≠ .err :=
  Res.bind_ne_err (sliceR_ne_err _ _ _) fun _ => Res.bind_ne_err (u32FromBeSlice_ne_err _) fun _ => Res.ok_ne_err _

theorem Message.readRequest_ne_err (b : Bytes) : Message.readRequest b ≠ .err :=
  Res.bind_ne_err (sliceFrom_ne_err _ _) fun _ => Res.bind_ne_err (u32FromBeSlice_ne_err _) fun _ =>
  Res.bind_ne_err (sliceFrom_ne_err _ _) fun _ => Res.bind_ne_err (u32FromBeSlice_ne_err _) fun _ =>
  Res.bind_ne_err (sliceFrom_ne_err _ _) fun _ => Res.bind_ne_err (u32FromBeSlice_ne_err _) fun _ => Res.ok_ne_err _

theorem Message.fromBuf_ne_err (b : Bytes) : Message.fromBuf b ≠ .err := by
  refine Res.bind_ne_err (sliceR_ne_err _ _ _) fun _ => Res.bind_ne_err (u32FromBeSlice_ne_err _) fun _ => ?_
  simp only []
  split
  · exact Res.ok_ne_err _
  split
  · exact Res.ok_ne_err _
  refine Res.bind_ne_err (index_ne_err _ _) fun _ => ?_
  split
  · exact Res.ok_ne_err _
  · exact Res.ok_ne_err _
  · exact Res.ok_ne_err _
  · exact Res.ok_ne_err _
  · exact Res.bind_ne_err (sliceFrom_ne_err _ _) fun _ => Res.bind_ne_err (u32FromBeSlice_ne_err _) fun _ => Res.ok_ne_err _
  · exact Res.bind_ne_err (sliceR_ne_err _ _ _) fun _ => Res.ok_ne_err _
  · exact Res.bind_ne_err (Message.readRequest_ne_err _) fun _ => Res.ok_ne_err _
  · exact Res.bind_ne_err (sliceFrom_ne_err _ _) fun _ => Res.bind_ne_err (u32FromBeSlice_ne_err _) fun _ =>
      Res.bind_ne_err (sliceFrom_ne_err _ _) fun _ => Res.bind_ne_err (u32FromBeSlice_ne_err _) fun _ =>
      Res.bind_ne_err (sliceR_ne_err _ _ _) fun _ => Res.ok_ne_err _
  · exact Res.bind_ne_err (Message.readRequest_ne_err _) fun _ => Res.ok_ne_err _
  · exact Res.bind_ne_err (index_ne_err _ _) fun _ => Res.bind_ne_err (index_ne_err _ _) fun _ => Res.ok_ne_err _
  · exact Res.ok_ne_err _

/-- One turn of the inner loop of the receiver recognises nothing, one message that makes the data shorter, or panics. -/
theorem RecvState.drain_one (s : RecvState) : s.drain 1 = .panic ∨ (∃ r, s.drain 1 = .ok (r, [])) ∨
    ∃ r m, s.drain 1 = .ok (r, [m]) ∧ r.dataLen < s.dataLen := by
  have e : (BYTES_IN_LEN_PREFIX : Nat) = 4 := rfl
  unfold drain
  split
  · exact .inr (.inl ⟨_, rfl⟩)
  rename_i h4
  cases h1 : sliceFrom s.buf s.dataStart with
  | err => exact absurd h1 (sliceFrom_ne_err _ _)
  | panic => exact .inl rfl
  | ok tail =>
    simp only [Res.ok_bind]
    cases h2 : Message.len tail with
    | err => exact absurd h2 (Message.len_ne_err _)
    | panic => exact .inl rfl
    | ok l =>
      simp only [Res.ok_bind]
      split
      · rename_i hle
        cases h3 : Message.fromBuf s.buf with
        | err => exact absurd h3 (Message.fromBuf_ne_err _)
        | panic => exact .inl rfl
        | ok o =>
          cases o with
          | none => exact .inr (.inl ⟨_, rfl⟩)
          | some m =>
            simp only [Res.ok_bind]
            cases h4 : (if 0 < s.dataLen - (l + BYTES_IN_LEN_PREFIX) then
                copyToFront s.buf (s.dataStart + (l + BYTES_IN_LEN_PREFIX)) (s.dataLen - (l + BYTES_IN_LEN_PREFIX))
              else .ok s.buf : Res Bytes) with
            | err =>
              split at h4
              · unfold copyToFront at h4; split at h4 <;> cases h4
              · cases h4
            | panic => exact .inl rfl
            | ok buf => exact .inr (.inr ⟨_, m, rfl, by simp only; omega⟩)
      · exact .inr (.inl ⟨_, rfl⟩)

theorem u16Add_ne_err (p : Profile) (a b : Nat) : u16Add p a b ≠ .err := by
  unfold u16Add; split
  · simp
  · cases p <;> simp

theorem u16Sub_ne_err (p : Profile) (a b : Nat) : u16Sub p a b ≠ .err := by
  unfold u16Sub; split
  · simp
  · cases p <;> simp

theorem Bitmap.change_ne_err (b : Bitmap) (i : Nat) (v : Bool) : b.change i v ≠ .err :=
  Res.bind_ne_err (index_ne_err _ _) fun _ => Res.ok_ne_err _

theorem Bitmap.get_ne_err (b : Bitmap) (i : Nat) : b.get i ≠ .err :=
  Res.bind_ne_err (index_ne_err _ _) fun _ => Res.ok_ne_err _

theorem Bitmap.new_ne_err (n : Nat) : Bitmap.new n ≠ .err := by
  refine Res.bind_ne_err ?_ fun _ => Res.ok_ne_err _
  refine Res.bind_ne_err (by unfold usub; split <;> simp) fun _ => ?_
  split <;> simp

theorem Bitmap.Iter.next_ne_err (it : Bitmap.Iter) : it.next ≠ .err := by
  unfold Bitmap.Iter.next
  split
  · simp
  · refine Res.bind_ne_err ?_ fun _ => Res.ok_ne_err _
    split
    · exact index_ne_err _ _
    · simp

theorem Bitmap.Iter.collect_ne_err (n : Nat) (it : Bitmap.Iter) : Bitmap.Iter.collect n it ≠ .err := by
  induction n generalizing it with
  | zero => simp [Bitmap.Iter.collect]
  | succ n ih =>
    refine Res.bind_ne_err (Bitmap.Iter.next_ne_err _) fun ⟨x, _⟩ => ?_
    cases x
    · simp
    · exact Res.bind_ne_err (ih _) fun _ => Res.ok_ne_err _

theorem Bitmap.toBools_ne_err (b : Bitmap) : b.toBools ≠ .err := Bitmap.Iter.collect_ne_err _ _

namespace TM

theorem findAssigned_ne_err (s : TM) (k : Nat) (l : List (Nat × Nat × Nat)) : findAssigned s k l ≠ .err := by
  induction l with
  | nil => simp [findAssigned]
  | cons x xs ih =>
    refine Res.bind_ne_err (index_ne_err _ _) fun _ => ?_
    split
    · simp
    · exact ih

theorem findPeer_ne_err (i k : Nat) (m : Map Peer PeerInfo) : findPeer i k m ≠ .err := by
  induction m with
  | nil => simp [findPeer]
  | cons x xs ih =>
    unfold findPeer
    split
    · exact ih
    · refine Res.bind_ne_err (Bitmap.get_ne_err _ _) fun _ => ?_
      split
      · simp
      · exact ih

theorem selectLoop_ne_err (s : TM) (it : List (Nat × Nat × Nat)) (n k : Nat) : selectLoop s it n k ≠ .err := by
  induction n generalizing k with
  | zero => simp [selectLoop]
  | succ n ih =>
    refine Res.bind_ne_err (findAssigned_ne_err _ _ _) fun x => ?_
    split
    · exact ih _
    · refine Res.bind_ne_err (findPeer_ne_err _ _ _) fun y => ?_
      split
      · simp
      · exact ih _

theorem selectPiece_ne_err (s : TM) : s.selectPiece ≠ .err := by
  refine Res.bind_ne_err (Res.bind_ne_err (Bitmap.toBools_ne_err _) fun _ => selectLoop_ne_err _ _ _ _) fun x => ?_
  split
  · simp
  · exact Res.bind_ne_err (unwrap_ne_err _) fun _ => Res.ok_ne_err _

theorem markPieceAsOngoing_ne_err (s : TM) (q : Peer) (i : Nat) : s.markPieceAsOngoing q i ≠ .err :=
  Res.bind_ne_err (Res.bind_ne_err (Bitmap.new_ne_err _) fun _ => Res.ok_ne_err _) fun _ =>
    Res.bind_ne_err (Bitmap.change_ne_err _ _ _) fun _ => Res.bind_ne_err (Bitmap.change_ne_err _ _ _) fun _ => Res.ok_ne_err _

theorem addBits_ne_err (p : Profile) (f : List Nat) (b : List Bool) : addBits p f b ≠ .err := by
  induction b generalizing f with
  | nil => simp [addBits]
  | cons x b ih =>
    cases f with
    | nil =>
      cases x
      · exact ih _
      · simp [addBits]
    | cons y f =>
      simp only [addBits]
      refine Res.bind_ne_err ?_ fun _ => Res.bind_ne_err (ih _) fun _ => Res.ok_ne_err _
      split
      · exact u16Add_ne_err _ _ _
      · simp

theorem subBits_ne_err (p : Profile) (f : List Nat) (b : List Bool) : subBits p f b ≠ .err := by
  induction b generalizing f with
  | nil => simp [subBits]
  | cons x b ih =>
    cases f with
    | nil => simp [subBits]
    | cons y f =>
      refine Res.bind_ne_err ?_ fun _ => Res.bind_ne_err (ih _) fun _ => Res.ok_ne_err _
      split
      · exact u16Sub_ne_err _ _ _
      · simp

theorem markPeerAsInactive_ne_err (p : Profile) (s : TM) (q : Peer) (st : Status) : s.markPeerAsInactive p q st ≠ .err := by
  unfold markPeerAsInactive
  split
  · simp
  · exact Res.bind_ne_err (Bitmap.toBools_ne_err _) fun _ => Res.bind_ne_err (subBits_ne_err _ _ _) fun _ => Res.ok_ne_err _

theorem handleCommand_ne_err (p : Profile) (s : TM) (q : Peer) (m : ConMessageType) : s.handleCommand p q m ≠ .err := by
  cases m with
  | unreachable => exact markPeerAsInactive_ne_err _ _ _ _
  | disconnected => exact markPeerAsInactive_ne_err _ _ _ _
  | have_ i =>
    simp only [handleCommand, handleHave]
    split
    · simp
    · refine Res.bind_ne_err (Bitmap.change_ne_err _ _ _) fun x => ?_
      split
      · simp
      · exact Res.bind_ne_err (index_ne_err _ _) fun _ => Res.bind_ne_err (u16Add_ne_err _ _ _) fun _ => Res.ok_ne_err _
  | bitfield b =>
    simp only [handleCommand, acceptBitfield]
    split
    · simp
    · split
      · simp
      · split
        · exact Res.bind_ne_err (Bitmap.toBools_ne_err _) fun _ => Res.bind_ne_err (addBits_ne_err _ _ _) fun _ => Res.ok_ne_err _
        · simp
        · simp
  | _ => simp [handleCommand]

end TM

end Nargun
