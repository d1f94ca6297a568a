import Verif.Spec.IdText
import Verif.Props.Id

/-! # C158: the text of an id -/

namespace Nargun

open Spec

theorem hex2_read : ∀ b : Byte, hexCharValue (hexChar (b.toNat / 16)) = some (b.toNat / 16) ∧
    hexCharValue (hexChar (b.toNat % 16)) = some (b.toNat % 16) ∧ hexChar (b.toNat / 16) ≠ ' ' ∧
    hexChar (b.toNat % 16) ≠ ' ' := by decide +kernel

theorem readHex_flat (l : Bytes) : readHex (l.flatMap hex2) = some l := by
  induction l with
  | nil => rfl
  | cons b l ih =>
    obtain ⟨h1, h2, _⟩ := hex2_read b
    simp only [List.flatMap_cons, hex2, List.cons_append, List.nil_append, readHex, h1, h2]
    rw [ih]
    simp only [Option.some.injEq, List.cons.injEq, and_true]
    rw [Nat.div_add_mod]
    simp

theorem flat_no_blank (l : Bytes) : (l.flatMap hex2).filter (· != ' ') = l.flatMap hex2 := by
  rw [List.filter_eq_self]
  intro c hc
  obtain ⟨b, _, hb⟩ := List.mem_flatMap.mp hc
  obtain ⟨_, _, h3, h4⟩ := hex2_read b
  simp only [hex2, List.mem_cons, List.not_mem_nil, or_false] at hb
  rcases hb with rfl | rfl
  · simpa using h3
  · simpa using h4

theorem chunks_flat (l : Bytes) :
    ((chunks4 l).flatMap fun chunk => ' ' :: chunk.flatMap hex2).filter (· != ' ') = l.flatMap hex2 := by
  have key : ∀ c : Bytes, (' ' :: c.flatMap hex2).filter (· != ' ') = c.flatMap hex2 := by
    intro c
    rw [List.filter_cons_of_neg (by decide), flat_no_blank]
  induction l using chunks4.induct with
  | case1 => rfl
  | case2 a b c d rest ih =>
    rw [chunks4, List.flatMap_cons, List.filter_append, key, ih, ← List.flatMap_append]
    rfl
  | case3 l h1 h2 =>
    have : chunks4 l = [l] := by
      rw [chunks4]
      · exact h1
      · exact h2
    rw [this, List.flatMap_cons, List.flatMap_nil, List.append_nil, key]

theorem twenty (l : Bytes) (h : l.length = 20) : l = (List.range 20).map fun i => l.getD i 0 := by
  apply List.ext_getElem
  · simp [h]
  · intro i h1 h2
    simp [List.getD_eq_getElem?_getD, h1]

/-- What the text is. -/
theorem debugText_eq (id : ID) : id.debugText = .ok (bin8 (id.bytes.getD 0 0) ++ [' '] ++ (bin8 (id.bytes.getD 1 0) ++ [' ']) ++
    (chunks4 id.bytes).flatMap (fun chunk => ' ' :: chunk.flatMap hex2)) := by
  have hl : id.bytes.length = 20 := id.len_eq
  have h0 : index id.bytes 0 = .ok (id.bytes.getD 0 0) := by
    simp [index, List.getD_eq_getElem?_getD, hl]
  have h1 : index id.bytes 1 = .ok (id.bytes.getD 1 0) := by
    simp [index, List.getD_eq_getElem?_getD, hl]
  unfold ID.debugText
  rw [h0, Res.ok_bind, h1, Res.ok_bind, sliceFrom, if_pos (by simp)]
  rfl

/-- C158: writing an id to a log never fails; the text has 63 characters, all of them digits, letters from A to F or
blanks. -/
theorem C158_total (id : ID) : ∃ t, id.debugText = .ok t ∧ t.length = 63 ∧ ∀ c ∈ t, c ∈ " 0123456789ABCDEF".toList := by
  refine ⟨_, debugText_eq id, ?_, ?_⟩
  · have h := twenty id.bytes id.len_eq
    rw [h]
    rfl
  · have hb : ∀ b : Byte, ∀ c ∈ bin8 b, c ∈ " 0123456789ABCDEF".toList := by decide +kernel
    have hh : ∀ b : Byte, ∀ c ∈ hex2 b, c ∈ " 0123456789ABCDEF".toList := by decide +kernel
    intro c hc
    simp only [List.mem_append, List.mem_flatMap, List.mem_cons, List.not_mem_nil, or_false] at hc
    rcases hc with ((h | rfl) | h | rfl) | ⟨x, _, rfl | ⟨b, _, h⟩⟩
    · exact hb _ c h
    · decide
    · exact hb _ c h
    · decide
    · decide
    · exact hh b c h

/-- C158: the id can be read back from its text. -/
theorem C158_read (id : ID) (t : List Char) (h : id.debugText = .ok t) : idInText t = some id.bytes := by
  rw [debugText_eq] at h
  cases h
  unfold idInText
  rw [List.drop_append_of_le_length (by simp [bin8]), List.drop_of_length_le (by simp [bin8]), List.nil_append, chunks_flat,
    readHex_flat]

/-- C158: two ids have the same text only if they are equal. -/
theorem C158_identifies (a b : ID) (h : a.debugText = b.debugText) : a = b := by
  obtain ⟨t, h1, _⟩ := C158_total a
  have h2 := C158_read a t h1
  rw [C158_read b t (h ▸ h1)] at h2
  cases a; cases b
  simpa using h2.symm

/-- C158: the text begins with the first sixteen bits of the id, most significant first, in two groups of eight. -/
theorem C158_bits (id : ID) (t : List Char) (h : id.debugText = .ok t) (i : Nat) (hi : i < 8) :
    t[i]? = some (bitChar (idBit id i)) ∧ t[9 + i]? = some (bitChar (idBit id (8 + i))) := by
  rw [debugText_eq] at h
  cases h
  have key : ∀ b : Byte, ∀ j, j < 8 → (bin8 b)[j]? = some (bitChar (b.toNat.testBit (7 - j))) := by
    intro b j hj
    simp [bin8, bitChar, hj, BitVec.testBit_toNat]
  have hlen : ∀ b : Byte, (bin8 b).length = 8 := fun b => by simp [bin8]
  constructor
  · rw [List.append_assoc, List.append_assoc, List.getElem?_append_left (by rw [hlen]; exact hi), key _ _ hi]
    simp only [idBit, bitAt]
    rw [Nat.div_eq_of_lt hi, Nat.mod_eq_of_lt hi]
  · rw [List.append_assoc, List.getElem?_append_right (by simp [hlen]), List.append_assoc,
      List.getElem?_append_left (by simp [hlen]; omega)]
    rw [show 9 + i - (bin8 (id.bytes.getD 0 0) ++ [' ']).length = i by simp [hlen], key _ _ hi]
    simp only [idBit, bitAt]
    rw [show (8 + i) / 8 = 1 by omega, show (8 + i) % 8 = i by omega]

/-- `C158_read`: a text and the id in it. -/
example : (⟨List.replicate 19 0xA5#8 ++ [0x0F#8], rfl⟩ : ID).debugText =
    .ok "10100101 10100101  A5A5A5A5 A5A5A5A5 A5A5A5A5 A5A5A5A5 A5A5A50F".toList := by decide +kernel

end Nargun
