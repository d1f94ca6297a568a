import Verif.Lemmas.Bitmap

/-! # Properties C01-C04: the piece bitmap -/

namespace Nargun
open Spec

/-- A bitmap as the API can produce it: it covers at least one piece and has `ceil(len / 8)` bytes. -/
def Bitmap.WF (b : Bitmap) : Prop := 0 < b.len ∧ b.data.length = (b.len + 7) / 8

instance (b : Bitmap) : Decidable b.WF := inferInstanceAs (Decidable (_ ∧ _))

/-- A sequence of `change` calls; the returned old values are collected. -/
def Bitmap.changes (b : Bitmap) : List (Nat × Bool) → Res (Bitmap × List Bool)
  | [] => .ok (b, [])
  | (i, v) :: ws => do
    let (b', old) ← b.change i v
    let (b'', olds) ← Bitmap.changes b' ws
    .ok (b'', old :: olds)

/-- Specification of a sequence of writes to a boolean array: the final array and the old values. -/
def Spec.writes (f : Nat → Bool) : List (Nat × Bool) → (Nat → Bool) × List Bool
  | [] => (f, [])
  | (i, v) :: ws =>
    let r := Spec.writes (fun j => if j = i then v else f j) ws
    (r.1, f i :: r.2)

/-- C01 (creation): `new n` succeeds for every `n > 0`, gives a bitmap of `n` pieces in `ceil(n/8)` bytes,
with no piece set; `new 0` panics. -/
theorem C01_bitmap_new (n : Nat) :
    (0 < n → ∃ b, Bitmap.new n = .ok b ∧ b.len = n ∧ b.WF ∧ ∀ i < n, b.get i = .ok false) ∧
    (n = 0 → Bitmap.new n = .panic) := by
  constructor
  · intro h
    have hl : (List.replicate (1 + (n - 1) / 8) (0 : Byte)).length = (n + 7) / 8 := by
      rw [List.length_replicate]; omega
    refine ⟨⟨List.replicate (1 + (n - 1) / 8) 0, n⟩, ?_, rfl, ⟨h, hl⟩, ?_⟩
    · simp [Bitmap.new, unsignedCeilDiv, usub, Nat.succ_le_of_lt h]
    · intro i hi
      have hlt : i / 8 < (List.replicate (1 + (n - 1) / 8) (0 : Byte)).length := by rw [hl]; omega
      rw [Bitmap.get_of_lt _ _ hlt]
      simp only [bitAt, List.getD, List.getElem?_eq_getElem hlt, List.getElem_replicate]
      simp
  · rintro rfl; rfl

/-- C01 (single write): writing piece `i` returns the previous value of piece `i`, then piece `i` reads as
written and every other piece reads as before; the size of the byte image is unchanged. -/
theorem C01_bitmap_change (b : Bitmap) (hb : b.WF) (i : Nat) (hi : i < b.len) (v : Bool) :
    ∃ b' old, b.change i v = .ok (b', old) ∧ b.get i = .ok old ∧ b'.get i = .ok v ∧
      (∀ j, j ≠ i → b'.get j = b.get j) ∧ b'.len = b.len ∧ b'.data.length = b.data.length := by
  have hlt : i / 8 < b.data.length := by rw [hb.2]; omega
  obtain ⟨b', h1, h2, h3, h4⟩ := b.change_of_lt i v hlt
  refine ⟨b', _, h1, Bitmap.get_of_lt _ _ hlt, ?_, ?_, h2, h3⟩
  · rw [Bitmap.get_of_lt _ _ (by rw [h3]; exact hlt), h4, if_pos rfl]
  · intro j hj
    by_cases hjl : j / 8 < b.data.length
    · rw [Bitmap.get_of_lt _ _ hjl, Bitmap.get_of_lt _ _ (by rw [h3]; exact hjl), h4, if_neg hj]
    · rw [Bitmap.get_of_ge _ _ (by omega), Bitmap.get_of_ge _ _ (by omega)]

theorem Bitmap.changes_spec (ws : List (Nat × Bool)) : ∀ (b : Bitmap) (f : Nat → Bool), b.WF →
    (∀ i < b.len, b.get i = .ok (f i)) → (∀ w ∈ ws, w.1 < b.len) →
    ∃ b', b.changes ws = .ok (b', (Spec.writes f ws).2) ∧ b'.WF ∧ b'.len = b.len ∧
      ∀ i < b.len, b'.get i = .ok ((Spec.writes f ws).1 i) := by
  induction ws with
  | nil => intro b f hb hf _; exact ⟨b, rfl, hb, rfl, hf⟩
  | cons w ws ih =>
    obtain ⟨i, v⟩ := w
    intro b f hb hf hw
    have hi : i < b.len := hw (i, v) (by simp)
    obtain ⟨b', old, h1, h2, h3, h4, h5, h6⟩ := C01_bitmap_change b hb i hi v
    have hold : old = f i := by rw [hf i hi] at h2; cases h2; rfl
    have hb' : b'.WF := by unfold Bitmap.WF at *; rw [h5, h6]; exact hb
    obtain ⟨b'', g1, g2, g3, g4⟩ := ih b' (fun j => if j = i then v else f j) hb'
      (by
        intro j hj
        by_cases e : j = i
        · subst e; rw [h3]; simp
        · rw [h4 j e, hf j (by omega)]; simp [e])
      (by intro w hw'; rw [h5]; exact hw w (by simp [hw']))
    refine ⟨b'', ?_, g2, by omega, ?_⟩
    · simp [Bitmap.changes, h1, g1, Spec.writes, hold]
    · intro j hj; rw [g4 j (by omega)]; rfl

/-- C01: for every number of pieces and every sequence of writes to pieces, every write returns the value the
piece had, and reading any piece afterwards returns its last written value (initially unset). -/
theorem C01_bitmap_history (n : Nat) (hn : 0 < n) (ws : List (Nat × Bool)) (hws : ∀ w ∈ ws, w.1 < n) :
    ∃ b b', Bitmap.new n = .ok b ∧ b.changes ws = .ok (b', (Spec.writes (fun _ => false) ws).2) ∧
      b'.len = n ∧ ∀ i < n, b'.get i = .ok ((Spec.writes (fun _ => false) ws).1 i) := by
  obtain ⟨b, h1, h2, h3, h4⟩ := (C01_bitmap_new n).1 hn
  obtain ⟨b', g1, g2, g3, g4⟩ := Bitmap.changes_spec ws b (fun _ => false) h3 (by rw [h2]; exact h4)
    (by rw [h2]; exact hws)
  exact ⟨b, b', h1, g1, by omega, by rw [h2] at g4; exact g4⟩

/-- C01 (bounds): reads and writes panic exactly when the index lies beyond the last byte; the up to seven
spare bits of the last byte are accessible. -/
theorem C01_bitmap_bounds (b : Bitmap) (i : Nat) (v : Bool) :
    (b.get i = .panic ↔ 8 * b.data.length ≤ i) ∧ (b.change i v = .panic ↔ 8 * b.data.length ≤ i) := by
  by_cases h : i / 8 < b.data.length
  · obtain ⟨b', h1, _⟩ := b.change_of_lt i v h
    rw [Bitmap.get_of_lt _ _ h, h1]
    constructor <;> constructor <;> intro h' <;> first | (exfalso; omega) | (nomatch h')
  · rw [Bitmap.get_of_ge _ _ (by omega), Bitmap.change_of_ge _ _ _ (by omega)]
    constructor <;> constructor <;> intro h' <;> first | rfl | omega

example : (do let b ← Bitmap.new 11; let (b, o) ← b.change 9 true; let x ← b.get 9; let y ← b.get 8
              .ok (b.data, o, x, y)) = .ok ([0, 0x40], false, true, false) := by decide

/-- Iterating from position `k` with a current byte whose top bits are the not yet yielded ones. -/
theorem Bitmap.Iter.yields_from (b : Bitmap) (hb : b.data.length = (b.len + 7) / 8) (m : Nat) :
    ∀ (k : Nat) (cb : Byte), k + m = b.len →
      (k % 8 ≠ 0 → cb = (b.data.getD (k / 8) 0) <<< (k % 8)) →
      Iter.Yields ⟨b, k, cb⟩ ((List.range m).map (fun j => bitAt b.data (k + j))) ∧
      Iter.collect (m + 1) ⟨b, k, cb⟩ = .ok ((List.range m).map (fun j => bitAt b.data (k + j))) := by
  induction m with
  | zero =>
    intro k cb hk _
    have : k = b.len := by omega
    have hn : Iter.next ⟨b, k, cb⟩ = .ok (none, ⟨b, k, cb⟩) := by simp [Iter.next, this]
    exact ⟨.done hn, by simp [Iter.collect, hn]⟩
  | succ m ih =>
    intro k cb hk hcb
    have hlt : k / 8 < b.data.length := by rw [hb]; omega
    have hne : ¬ k = b.len := by omega
    have hcur : (if k % 8 = 0 then index b.data (k / 8) else .ok cb)
        = .ok ((b.data.getD (k / 8) 0) <<< (k % 8)) := by
      split
      · rename_i h0; rw [index_lt hlt, h0]; simp [List.getD, hlt]
      · rename_i h0; rw [hcb h0]
    have hbit : decide (0x80#8 &&& ((b.data.getD (k / 8) 0) <<< (k % 8)) > 0#8) = bitAt b.data k :=
      byte_shl_msb ⟨k % 8, Nat.mod_lt _ (by decide)⟩ _
    have hnext : Iter.next ⟨b, k, cb⟩ = .ok (some (bitAt b.data k),
        ⟨b, k + 1, ((b.data.getD (k / 8) 0) <<< (k % 8)) <<< 1⟩) := by
      simp only [Iter.next, if_neg hne]
      rw [hcur]
      simp only [Res.ok_bind]
      rw [hbit]
    have hrest := ih (k + 1) (((b.data.getD (k / 8) 0) <<< (k % 8)) <<< 1) (by omega) (by
      intro h
      have e1 : (k + 1) / 8 = k / 8 := by omega
      have e2 : (k + 1) % 8 = k % 8 + 1 := by omega
      rw [e1, e2, BitVec.shiftLeft_add])
    have hlist : (List.range (m + 1)).map (fun j => bitAt b.data (k + j))
        = bitAt b.data k :: (List.range m).map (fun j => bitAt b.data (k + 1 + j)) := by
      rw [List.range_succ_eq_map]
      simp only [List.map_cons, List.map_map, Nat.add_zero]
      congr 1
      apply List.map_congr_left
      intro j _
      simp only [Function.comp]; congr 1; omega
    rw [hlist]
    refine ⟨.step hnext hrest.1, ?_⟩
    show (do let (x, it') ← Iter.next ⟨b, k, cb⟩; _) = _
    rw [hnext]
    simp only [Res.ok_bind, hrest.2]

/-- C02: iterating a bitmap over `n` pieces yields exactly the `n` reads of pieces `0..n-1`, in order, then
ends, whatever the bytes (including spare bits) are. -/
theorem C02_bitmap_iter (b : Bitmap) (hb : b.WF) :
    ∃ xs, b.iter.Yields xs ∧ b.toBools = .ok xs ∧ xs.length = b.len ∧
      ∀ i (h : i < xs.length), b.get i = .ok xs[i] := by
  have h := Bitmap.Iter.yields_from b hb.2 b.len 0 0 (by omega) (by simp)
  simp only [Nat.zero_add] at h
  refine ⟨_, h.1, h.2, by simp, ?_⟩
  intro i hi
  simp only [List.length_map, List.length_range] at hi
  rw [Bitmap.get_of_lt _ _ (by rw [hb.2]; omega)]
  simp

example : (Bitmap.mk [0x2C, 0xFF] 10).WF := by decide
example : (Bitmap.mk [0x2C, 0xFF] 10).toBools
    = .ok [false, false, true, false, true, true, false, false, true, true] := by decide

/-- Specification of C03: the number of pieces below `b.len` that read as set. -/
def Bitmap.heldPieces (b : Bitmap) : Nat := countBelow (fun i => decide (b.get i = .ok true)) b.len

/-- C03 (partial): the weight is the number of held pieces plus the number of spare bits that are set.
Missing for the full property: spare bits are not masked by `replace_data`, see the violation below. -/
theorem C03_bitmap_weight_partial (b : Bitmap) (hb : b.WF) :
    b.weight = b.heldPieces +
      countBelow (fun i => decide (b.get (b.len + i) = .ok true)) (8 * b.data.length - b.len) := by
  have hle : b.len ≤ 8 * b.data.length := by rw [hb.2]; omega
  have hw : b.weight = countBelow (fun i => decide (b.get i = .ok true)) (8 * b.data.length) := by
    rw [Bitmap.weight, Bitmap.sum_countOnes]
    apply Bitmap.countBelow_congr
    intro i hi
    rw [Bitmap.get_of_lt _ _ (by omega)]
    cases bitAt b.data i <;> simp
  rw [hw, Bitmap.heldPieces, ← Bitmap.countBelow_add]
  congr 1; omega

/-- C03 for bitmaps whose spare bits are clear (in particular for every bitmap that was only written through
`new` and `change` below `len`): the weight is exactly the number of held pieces. -/
theorem C03_bitmap_weight_clean_partial (b : Bitmap) (hb : b.WF)
    (hclean : ∀ i, b.len ≤ i → i < 8 * b.data.length → b.get i = .ok false) :
    b.weight = b.heldPieces := by
  rw [C03_bitmap_weight_partial b hb, Bitmap.countBelow_false, Nat.add_zero]
  intro i hi
  rw [hclean _ (by omega) (by omega)]; rfl

/-- C03 over histories: after any writes to pieces of a fresh bitmap, the weight is the number of held
pieces. -/
theorem C03_bitmap_weight_history_partial (n : Nat) (hn : 0 < n) (ws : List (Nat × Bool))
    (hws : ∀ w ∈ ws, w.1 < n) :
    ∃ b b' olds, Bitmap.new n = .ok b ∧ b.changes ws = .ok (b', olds) ∧ b'.weight = b'.heldPieces := by
  obtain ⟨b, h1, h2, h3, h4⟩ := (C01_bitmap_new n).1 hn
  have hb : ∀ i, b.get i = .ok false ∨ b.get i = .panic := by
    intro i
    by_cases h : i / 8 < b.data.length
    · left
      have e : b = ⟨List.replicate (1 + (n - 1) / 8) 0, n⟩ := by
        simp [Bitmap.new, unsignedCeilDiv, usub, Nat.succ_le_of_lt hn] at h1; exact h1.symm
      rw [Bitmap.get_of_lt _ _ h, e]
      subst e
      simp only [bitAt, List.getD, List.getElem?_eq_getElem h, List.getElem_replicate]
      simp
    · right; exact Bitmap.get_of_ge _ _ (by omega)
  -- invariant: a bit that is set lies below `n`
  have key : ∀ (ws : List (Nat × Bool)) (b : Bitmap), b.WF → b.len = n → (∀ w ∈ ws, w.1 < n) →
      (∀ i, n ≤ i → b.get i ≠ .ok true) →
      ∃ b' olds, b.changes ws = .ok (b', olds) ∧ b'.WF ∧ b'.len = n ∧ ∀ i, n ≤ i → b'.get i ≠ .ok true := by
    intro ws
    induction ws with
    | nil => intro b hb hl _ hc; exact ⟨b, [], rfl, hb, hl, hc⟩
    | cons w ws ih =>
      obtain ⟨i, v⟩ := w
      intro b hb hl hw hc
      obtain ⟨b', old, g1, g2, g3, g4, g5, g6⟩ :=
        C01_bitmap_change b hb i (by rw [hl]; exact hw (i, v) (by simp)) v
      obtain ⟨b'', olds, k1, k2, k3, k4⟩ := ih b' (by unfold Bitmap.WF at *; rw [g5, g6]; exact hb)
        (by omega) (fun w h => hw w (by simp [h])) (by
          intro j hj
          have : j ≠ i := by have := hw (i, v) (by simp); omega
          rw [g4 j this]; exact hc j hj)
      exact ⟨b'', old :: olds, by simp [Bitmap.changes, g1, k1], k2, k3, k4⟩
  obtain ⟨b', olds, k1, k2, k3, k4⟩ := key ws b h3 h2 hws
    (by intro i _; rcases hb i with h | h <;> rw [h] <;> simp)
  refine ⟨b, b', olds, h1, k1, C03_bitmap_weight_clean_partial b' k2 ?_⟩
  intro i hi hi2
  have hlt : i / 8 < b'.data.length := by omega
  have := k4 i (by omega)
  rw [Bitmap.get_of_lt _ _ hlt] at this ⊢
  cases h : bitAt b'.data i <;> simp_all

/-- C03 is violated by a bitfield with a spare bit set: the bitmap over 3 pieces reports one held piece
although it holds none.  (The torrent manager uses the weight to decide whether a bitfield was received.) -/
theorem C03_bitmap_weight_violated :
    ∃ b b', Bitmap.new 3 = .ok b ∧ b.replaceData [0x01] = .ok b' ∧ b'.weight = 1 ∧ b'.heldPieces = 0 :=
  ⟨⟨[0], 3⟩, ⟨[1], 3⟩, by decide, by decide, by decide, by decide⟩

/-- C04: a bitfield is accepted iff it has exactly `ceil(n/8)` bytes (a refusal leaves the bitmap as it was,
since no new bitmap is produced), and then piece `i` is held iff bit `7 - i mod 8` of byte `i / 8` is set. -/
theorem C04_bitfield (b : Bitmap) (hb : b.WF) (bytes : Bytes) :
    (bytes.length ≠ (b.len + 7) / 8 → b.replaceData bytes = .err) ∧
    (bytes.length = (b.len + 7) / 8 → ∃ b', b.replaceData bytes = .ok b' ∧ b'.WF ∧ b'.len = b.len ∧
      ∀ i < b.len, b'.get i = .ok ((bytes.getD (i / 8) 0).toNat.testBit (7 - i % 8))) := by
  constructor
  · intro h; simp only [Bitmap.replaceData, hb.2, if_pos h]
  · intro h
    refine ⟨{ b with data := bytes }, ?_, ⟨hb.1, h⟩, rfl, ?_⟩
    · simp only [Bitmap.replaceData, hb.2, h, ne_eq, not_true_eq_false, if_false]
    · intro i hi
      rw [Bitmap.get_of_lt _ _ (by show i / 8 < bytes.length; rw [h]; omega)]
      rfl

example : (Bitmap.mk [0, 0] 9).WF := by decide
example : (Bitmap.mk [0, 0] 9).replaceData [0xA0, 0x80] = .ok ⟨[0xA0, 0x80], 9⟩ := by decide
example : (Bitmap.mk [0, 0] 9).replaceData [0xA0] = .err := by decide

end Nargun
