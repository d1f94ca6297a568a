import Verif.Lemmas.Bencode

/-! # Bencoding is injective and no encoding is a proper prefix of another -/

namespace Nargun

theorem bencodeStr_inj {s s' r r' : Bytes} (h : bencodeStr s ++ r = bencodeStr s' ++ r') : s = s' ∧ r = r' := by
  simp only [bencodeStr, List.append_assoc, List.cons_append] at h
  have h1 := takeNat_roundtrip 0x3a#8 (by decide) s.length (s ++ r)
  rw [h, takeNat_roundtrip 0x3a#8 (by decide) s'.length (s' ++ r')] at h1
  simp only [Res.ok.injEq, Prod.mk.injEq] at h1
  exact (List.append_inj h1.2 h1.1).imp Eq.symm Eq.symm

theorem bencodeStr_head (s : Bytes) : ∃ b bs, bencodeStr s = b :: bs ∧ isDigit b = true := by
  obtain ⟨b, bs, h1, h2⟩ := decimal_cons s.length
  exact ⟨b, bs ++ 0x3a#8 :: s, by rw [bencodeStr, h1]; rfl, h2⟩

/-- What an encoding begins with. -/
theorem bencode_head (v : BVal) : ∃ b bs, bencode v = b :: bs ∧ b ≠ 0x65#8 := by
  cases v with
  | int n => exact ⟨_, _, by rw [bencode], by decide⟩
  | list l => exact ⟨_, _, by rw [bencode], by decide⟩
  | dict l => exact ⟨_, _, by rw [bencode], by decide⟩
  | str s =>
    obtain ⟨b, bs, h1, h2⟩ := bencodeStr_head s
    exact ⟨b, bs, by rw [bencode, h1], isDigit_ne b _ h2 (by decide)⟩

theorem bencodeItems_inj (l : List BVal) (ih : ∀ v ∈ l, ∀ v' r r', bencode v ++ r = bencode v' ++ r' → v = v' ∧ r = r') :
    ∀ l' r r', bencodeItems l ++ r = bencodeItems l' ++ r' → l = l' ∧ r = r' := by
  induction l with
  | nil =>
    intro l' r r' h
    cases l' with
    | nil => simpa [bencodeItems] using h
    | cons v' vs' =>
      obtain ⟨b, bs, h1, h2⟩ := bencode_head v'
      rw [bencodeItems, bencodeItems, h1] at h
      simp only [List.cons_append, List.nil_append, List.cons.injEq] at h
      exact absurd h.1.symm h2
  | cons v vs ihl =>
    intro l' r r' h
    cases l' with
    | nil =>
      obtain ⟨b, bs, h1, h2⟩ := bencode_head v
      rw [bencodeItems, bencodeItems, h1] at h
      simp only [List.cons_append, List.nil_append, List.cons.injEq] at h
      exact absurd h.1 h2
    | cons v' vs' =>
      rw [bencodeItems, bencodeItems, List.append_assoc, List.append_assoc] at h
      obtain ⟨h1, h2⟩ := ih v (by simp) v' _ _ h
      obtain ⟨h3, h4⟩ := ihl (fun x hx => ih x (by simp [hx])) vs' r r' h2
      exact ⟨by rw [h1, h3], h4⟩

theorem bencodePairs_inj (l : List (Bytes × BVal))
    (ih : ∀ e ∈ l, ∀ v' r r', bencode e.2 ++ r = bencode v' ++ r' → e.2 = v' ∧ r = r') :
    ∀ l' r r', bencodePairs l ++ r = bencodePairs l' ++ r' → l = l' ∧ r = r' := by
  induction l with
  | nil =>
    intro l' r r' h
    cases l' with
    | nil => simpa [bencodePairs] using h
    | cons e' es' =>
      obtain ⟨k', v'⟩ := e'
      obtain ⟨b, bs, h1, h2⟩ := bencodeStr_head k'
      rw [bencodePairs, bencodePairs, h1] at h
      simp only [List.cons_append, List.nil_append, List.cons.injEq] at h
      exact absurd h.1.symm (isDigit_ne b _ h2 (by decide))
  | cons e es ihl =>
    obtain ⟨k, v⟩ := e
    intro l' r r' h
    cases l' with
    | nil =>
      obtain ⟨b, bs, h1, h2⟩ := bencodeStr_head k
      rw [bencodePairs, bencodePairs, h1] at h
      simp only [List.cons_append, List.nil_append, List.cons.injEq] at h
      exact absurd h.1 (isDigit_ne b _ h2 (by decide))
    | cons e' es' =>
      obtain ⟨k', v'⟩ := e'
      rw [bencodePairs, bencodePairs] at h
      simp only [List.append_assoc] at h
      obtain ⟨h1, h2⟩ := bencodeStr_inj h
      obtain ⟨h3, h4⟩ := ih (k, v) (by simp) v' _ _ h2
      obtain ⟨h5, h6⟩ := ihl (fun x hx => ih x (by simp [hx])) es' r r' h4
      exact ⟨by rw [h1, show v = v' from h3, h5], h6⟩

theorem decimalInt_head (n : Int) : ∃ b bs, decimalInt n = b :: bs := by
  unfold decimalInt
  split
  · exact ⟨_, _, rfl⟩
  · obtain ⟨b, bs, h, _⟩ := decimal_cons n.natAbs
    exact ⟨b, bs, h⟩

theorem bencode_prefix_inj : ∀ (v v' : BVal) (r r' : Bytes), bencode v ++ r = bencode v' ++ r' → v = v' ∧ r = r'
  | .int n, v', r, r', h => by
    cases v' with
    | int n' =>
      simp only [bencode, List.cons_append, List.append_assoc, List.nil_append, List.cons.injEq, true_and] at h
      have h1 := takeInt_roundtrip n r
      rw [h, takeInt_roundtrip n' r'] at h1
      simp only [Res.ok.injEq, Prod.mk.injEq] at h1
      exact ⟨by rw [h1.1], h1.2.symm⟩
    | str s =>
      obtain ⟨b, bs, h1, h2⟩ := bencodeStr_head s
      rw [bencode, bencode, h1] at h
      simp only [List.cons_append, List.cons.injEq] at h
      exact absurd h.1.symm (isDigit_ne b _ h2 (by decide))
    | list l => rw [bencode, bencode] at h; simp at h
    | dict l => rw [bencode, bencode] at h; simp at h
  | .str s, v', r, r', h => by
    cases v' with
    | str s' =>
      rw [bencode, bencode] at h
      obtain ⟨h1, h2⟩ := bencodeStr_inj h
      exact ⟨by rw [h1], h2⟩
    | int n =>
      obtain ⟨b, bs, h1, h2⟩ := bencodeStr_head s
      rw [bencode, bencode, h1] at h
      simp only [List.cons_append, List.cons.injEq] at h
      exact absurd h.1 (isDigit_ne b _ h2 (by decide))
    | list l =>
      obtain ⟨b, bs, h1, h2⟩ := bencodeStr_head s
      rw [bencode, bencode, h1] at h
      simp only [List.cons_append, List.cons.injEq] at h
      exact absurd h.1 (isDigit_ne b _ h2 (by decide))
    | dict l =>
      obtain ⟨b, bs, h1, h2⟩ := bencodeStr_head s
      rw [bencode, bencode, h1] at h
      simp only [List.cons_append, List.cons.injEq] at h
      exact absurd h.1 (isDigit_ne b _ h2 (by decide))
  | .list l, v', r, r', h => by
    cases v' with
    | list l' =>
      rw [bencode, bencode, List.cons_append, List.cons_append, List.cons.injEq] at h
      obtain ⟨h1, h2⟩ := bencodeItems_inj l (fun v hv v' r r' => bencode_prefix_inj v v' r r') l' r r' h.2
      exact ⟨by rw [h1], h2⟩
    | int n => rw [bencode, bencode] at h; simp at h
    | dict n => rw [bencode, bencode] at h; simp at h
    | str s =>
      obtain ⟨b, bs, h1, h2⟩ := bencodeStr_head s
      rw [bencode, bencode, h1] at h
      simp only [List.cons_append, List.cons.injEq] at h
      exact absurd h.1.symm (isDigit_ne b _ h2 (by decide))
  | .dict l, v', r, r', h => by
    cases v' with
    | dict l' =>
      rw [bencode, bencode, List.cons_append, List.cons_append, List.cons.injEq] at h
      obtain ⟨h1, h2⟩ := bencodePairs_inj l (fun e he v' r r' => bencode_prefix_inj e.2 v' r r') l' r r' h.2
      exact ⟨by rw [h1], h2⟩
    | int n => rw [bencode, bencode] at h; simp at h
    | list n => rw [bencode, bencode] at h; simp at h
    | str s =>
      obtain ⟨b, bs, h1, h2⟩ := bencodeStr_head s
      rw [bencode, bencode, h1] at h
      simp only [List.cons_append, List.cons.injEq] at h
      exact absurd h.1.symm (isDigit_ne b _ h2 (by decide))
termination_by v => sizeOf v
decreasing_by
  · have := List.sizeOf_lt_of_mem hv
    simp only [BVal.list.sizeOf_spec]; omega
  · have := List.sizeOf_lt_of_mem he
    obtain ⟨k, v⟩ := e
    simp only [BVal.dict.sizeOf_spec, Prod.mk.sizeOf_spec] at *; omega

theorem bencode_inj {v v' : BVal} (h : bencode v = bencode v') : v = v' :=
  (bencode_prefix_inj v v' [] [] (by rw [h])).1

end Nargun
