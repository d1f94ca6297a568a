import Verif.Model.Bencode

namespace Nargun

set_option linter.unusedSimpArgs false

theorem head?_append_ne {α} {l : List α} (l' : List α) (h : l ≠ []) : (l ++ l').head? = l.head? := by
  cases l with
  | nil => exact absurd rfl h
  | cons a l => rfl

theorem digitChar_byte : ∀ n < 10, BitVec.ofNat 8 (Nat.digitChar n).toNat = (BitVec.ofNat 8 (48 + n) : Byte) := by
  decide

theorem decimal_lt (n : Nat) (h : n < 10) : decimal n = [BitVec.ofNat 8 (48 + n)] := by
  unfold decimal
  rw [Nat.toDigits_of_lt_base h, List.map_singleton, digitChar_byte n h]

theorem decimal_ge (n : Nat) (h : 10 ≤ n) :
    decimal n = decimal (n / 10) ++ [BitVec.ofNat 8 (48 + n % 10)] := by
  have h1 : Nat.toDigits 10 n = Nat.toDigits 10 (n / 10) ++ [Nat.digitChar (n % 10)] := by
    rw [Nat.toDigits_of_base_le (by omega) h]
  unfold decimal
  rw [h1, List.map_append, List.map_singleton, digitChar_byte (n % 10) (by omega)]

theorem isDigit_ofNat (n : Nat) (h : n < 10) : isDigit (BitVec.ofNat 8 (48 + n)) = true := by
  unfold isDigit
  rw [BitVec.toNat_ofNat]
  simp; omega

theorem decimal_digits (n : Nat) : ∀ b ∈ decimal n, isDigit b = true := by
  induction n using Nat.strongRecOn with
  | _ n ih =>
    by_cases h : n < 10
    · rw [decimal_lt n h]
      intro b hb
      simp only [List.mem_singleton] at hb
      rw [hb]; exact isDigit_ofNat n h
    · rw [decimal_ge n (by omega)]
      intro b hb
      rcases List.mem_append.mp hb with hb | hb
      · exact ih (n / 10) (by omega) b hb
      · simp only [List.mem_singleton] at hb
        rw [hb]; exact isDigit_ofNat _ (by omega)

theorem decimal_ne_nil (n : Nat) : decimal n ≠ [] := by
  by_cases h : n < 10
  · rw [decimal_lt n h]; simp
  · rw [decimal_ge n (by omega)]; simp

theorem digitsValue_snoc (ds : Bytes) (d : Byte) : digitsValue (ds ++ [d]) = 10 * digitsValue ds + (d.toNat - 48) := by
  simp [digitsValue]

theorem digitsValue_decimal (n : Nat) : digitsValue (decimal n) = n := by
  induction n using Nat.strongRecOn with
  | _ n ih =>
    by_cases h : n < 10
    · rw [decimal_lt n h]
      simp only [digitsValue, List.foldl_cons, List.foldl_nil, BitVec.toNat_ofNat]; omega
    · rw [decimal_ge n (by omega), digitsValue_snoc, ih (n / 10) (by omega), BitVec.toNat_ofNat]; omega

theorem decimal_inj {a b : Nat} (h : decimal a = decimal b) : a = b := by
  rw [← digitsValue_decimal a, ← digitsValue_decimal b, h]

/-- A decimal starting with `0` is `0`. -/
theorem decimal_head (n : Nat) (h : (decimal n).head? = some 0x30#8) : n = 0 := by
  induction n using Nat.strongRecOn with
  | _ n ih =>
    by_cases hn : n < 10
    · rw [decimal_lt n hn] at h
      simp only [List.head?_cons, Option.some.injEq] at h
      have := congrArg BitVec.toNat h
      simp at this; omega
    · rw [decimal_ge n (by omega)] at h
      have hne := decimal_ne_nil (n / 10)
      rw [head?_append_ne _ hne] at h
      have := ih (n / 10) (by omega) h
      omega

theorem digit_byte (b : Byte) (h : isDigit b = true) : BitVec.ofNat 8 (48 + (b.toNat - 48)) = b := by
  unfold isDigit at h
  have h := of_decide_eq_true h
  rw [show 48 + (b.toNat - 48) = b.toNat by omega]
  simp

theorem digit_val (b : Byte) (h : isDigit b = true) : b.toNat - 48 < 10 := by
  unfold isDigit at h
  have h := of_decide_eq_true h
  omega

theorem digitsValue_pos (ds : Bytes) (hd : ∀ b ∈ ds, isDigit b = true) (hne : ds ≠ [])
    (hz : ds.head? ≠ some 0x30#8) : 0 < digitsValue ds := by
  induction h : ds.length using Nat.strongRecOn generalizing ds with
  | _ n ih =>
    have hs := List.dropLast_concat_getLast hne
    by_cases hi : ds.dropLast = []
    · rw [hi] at hs
      simp only [List.nil_append] at hs
      rw [← hs]
      have hdg := hd (ds.getLast hne) (List.getLast_mem hne)
      have hz' : ds.getLast hne ≠ 0x30#8 := by
        intro e; apply hz; rw [← hs, e]; rfl
      simp only [digitsValue, List.foldl_cons, List.foldl_nil]
      unfold isDigit at hdg
      have hdg := of_decide_eq_true hdg
      have : (ds.getLast hne).toNat ≠ 48 := by
        intro e; apply hz'; apply BitVec.eq_of_toNat_eq; rw [e]; rfl
      omega
    · rw [← hs, digitsValue_snoc]
      have hlt : ds.dropLast.length < n := by
        rw [List.length_dropLast, ← h]
        have := List.length_pos_iff.mpr hne
        omega
      have := ih _ hlt ds.dropLast (fun b hb => hd b (List.dropLast_subset _ hb)) hi
        (by rw [← hs, head?_append_ne _ hi] at hz; exact hz) rfl
      omega

theorem decimal_digitsValue (ds : Bytes) (hd : ∀ b ∈ ds, isDigit b = true) (hne : ds ≠ [])
    (hz : ¬ (ds.head? = some 0x30#8 ∧ ds.length ≠ 1)) : decimal (digitsValue ds) = ds := by
  induction h : ds.length using Nat.strongRecOn generalizing ds with
  | _ n ih =>
    have hs := List.dropLast_concat_getLast hne
    have hdg := hd (ds.getLast hne) (List.getLast_mem hne)
    by_cases hi : ds.dropLast = []
    · rw [hi] at hs
      simp only [List.nil_append] at hs
      rw [← hs]
      simp only [digitsValue, List.foldl_cons, List.foldl_nil, Nat.mul_zero, Nat.zero_add]
      rw [decimal_lt _ (digit_val _ hdg), digit_byte _ hdg]
    · have hpos := List.length_pos_iff.mpr hi
      have hz2 : ds.dropLast.head? ≠ some 0x30#8 := by
        intro e
        apply hz
        constructor
        · rw [← hs, head?_append_ne _ hi]; exact e
        · rw [List.length_dropLast] at hpos; omega
      have hlt : ds.dropLast.length < n := by
        rw [List.length_dropLast, ← h]
        have := List.length_pos_iff.mpr hne
        omega
      have hd' : ∀ b ∈ ds.dropLast, isDigit b = true := fun b hb => hd b (List.dropLast_subset _ hb)
      have e1 := ih _ hlt ds.dropLast hd' hi (fun h => hz2 h.1) rfl
      have e2 := digitsValue_pos ds.dropLast hd' hi hz2
      have hv := digit_val _ hdg
      rw [← hs, digitsValue_snoc, decimal_ge _ (by omega)]
      rw [show (10 * digitsValue ds.dropLast + ((ds.getLast hne).toNat - 48)) / 10 = digitsValue ds.dropLast by omega,
        show (10 * digitsValue ds.dropLast + ((ds.getLast hne).toNat - 48)) % 10 = (ds.getLast hne).toNat - 48 by omega,
        e1, digit_byte _ hdg]

theorem takeWhile_append_stop {α} (p : α → Bool) (l : List α) (t : α) (rest : List α) (hl : ∀ x ∈ l, p x = true)
    (ht : p t = false) : (l ++ t :: rest).takeWhile p = l := by
  induction l with
  | nil => simp [List.takeWhile, ht]
  | cons x xs ih =>
    rw [List.cons_append, List.takeWhile_cons, if_pos (hl x (by simp)), ih (fun y hy => hl y (by simp [hy]))]

theorem dropWhile_append_stop {α} (p : α → Bool) (l : List α) (t : α) (rest : List α) (hl : ∀ x ∈ l, p x = true)
    (ht : p t = false) : (l ++ t :: rest).dropWhile p = t :: rest := by
  induction l with
  | nil => simp [List.dropWhile, ht]
  | cons x xs ih =>
    rw [List.cons_append, List.dropWhile_cons, if_pos (hl x (by simp)), ih (fun y hy => hl y (by simp [hy]))]

theorem takeNat_roundtrip (t : Byte) (ht : isDigit t = false) (n : Nat) (rest : Bytes) :
    takeNat t (decimal n ++ t :: rest) = .ok (n, rest) := by
  unfold takeNat
  simp only [takeWhile_append_stop isDigit _ t rest (decimal_digits n) ht,
    dropWhile_append_stop isDigit _ t rest (decimal_digits n) ht]
  rw [if_neg (decimal_ne_nil n), if_neg, if_pos trivial, digitsValue_decimal]
  rintro ⟨h1, h2⟩
  have := decimal_head n h1
  subst this
  exact h2 (by rw [decimal_lt 0 (by omega)]; rfl)

theorem all_takeWhile {α} (p : α → Bool) (l : List α) : ∀ x ∈ l.takeWhile p, p x = true := by
  induction l with
  | nil => simp
  | cons a l ih =>
    intro x hx
    rw [List.takeWhile_cons] at hx
    by_cases h : p a = true
    · rw [if_pos h] at hx
      rcases List.mem_cons.mp hx with rfl | hx
      · exact h
      · exact ih x hx
    · rw [if_neg h] at hx; cases hx

theorem takeNat_inverse (t : Byte) (bs rest : Bytes) (n : Nat) (h : takeNat t bs = .ok (n, rest)) :
    bs = decimal n ++ t :: rest := by
  unfold takeNat at h
  simp only at h
  by_cases h1 : bs.takeWhile isDigit = []
  · rw [if_pos h1] at h; cases h
  rw [if_neg h1] at h
  by_cases h2 : (bs.takeWhile isDigit).head? = some 0x30#8 ∧ (bs.takeWhile isDigit).length ≠ 1
  · rw [if_pos h2] at h; cases h
  rw [if_neg h2] at h
  have hsplit := List.takeWhile_append_dropWhile (p := isDigit) (l := bs)
  cases hd : bs.dropWhile isDigit with
  | nil => rw [hd] at h; cases h
  | cons x xs =>
    rw [hd] at h hsplit
    simp only at h
    by_cases hx : x = t
    · rw [if_pos hx] at h
      injection h with h
      injection h with ha hb
      rw [← ha, decimal_digitsValue _ (all_takeWhile _ _) h1 h2, ← hb, ← hx]
      exact hsplit.symm
    · rw [if_neg hx] at h; cases h

theorem takeStr_roundtrip (s rest : Bytes) (hs : s.length < 2 ^ 64) :
    takeStr (bencodeStr s ++ rest) = .ok (s, rest) := by
  unfold takeStr bencodeStr
  rw [List.append_assoc, List.cons_append, takeNat_roundtrip _ (by decide)]
  simp [hs]

theorem takeStr_inverse (bs s rest : Bytes) (h : takeStr bs = .ok (s, rest)) :
    bs = bencodeStr s ++ rest ∧ s.length < 2 ^ 64 := by
  unfold takeStr at h
  obtain ⟨⟨n, r⟩, h1, h2⟩ := Res.bind_eq_ok.mp h
  simp only at h2
  by_cases hc : n < 2 ^ 64 ∧ n ≤ r.length
  · rw [if_pos hc] at h2
    injection h2 with h2
    injection h2 with ha hb
    have hl : s.length = n := by rw [← ha, List.length_take]; omega
    refine ⟨?_, by omega⟩
    rw [takeNat_inverse _ _ _ _ h1]
    unfold bencodeStr
    rw [hl, List.append_assoc, List.cons_append, ← ha, ← hb, List.take_append_drop]
  · rw [if_neg hc] at h2; cases h2

theorem decimal_cons (n : Nat) : ∃ b bs, decimal n = b :: bs ∧ isDigit b = true := by
  cases h : decimal n with
  | nil => exact absurd h (decimal_ne_nil n)
  | cons b bs => exact ⟨b, bs, rfl, decimal_digits n b (by rw [h]; simp)⟩

theorem isDigit_ne (b c : Byte) (h : isDigit b = true) (hc : isDigit c = false) : b ≠ c := by
  intro e; rw [e, hc] at h; cases h

theorem takeInt_roundtrip (n : Int) (rest : Bytes) :
    takeInt (decimalInt n ++ 0x65#8 :: rest) = .ok (n, rest) := by
  unfold decimalInt
  by_cases hn : n < 0
  · rw [if_pos hn]
    simp only [takeInt, List.cons_append]
    rw [if_pos trivial, takeNat_roundtrip _ (by decide)]
    simp only [Res.ok_bind]
    rw [if_neg (by omega), show -((n.natAbs : Nat) : Int) = n by omega]
  · rw [if_neg hn]
    obtain ⟨b, bs, hb, hd⟩ := decimal_cons n.natAbs
    have := takeNat_roundtrip 0x65#8 (by decide) n.natAbs rest
    rw [hb] at this ⊢
    simp only [takeInt, List.cons_append] at this ⊢
    rw [if_neg (isDigit_ne b 0x2d#8 hd (by decide)), this]
    simp only [Res.ok_bind]
    rw [show ((n.natAbs : Nat) : Int) = n by omega]

theorem takeInt_inverse (bs rest : Bytes) (n : Int) (h : takeInt bs = .ok (n, rest)) :
    bs = decimalInt n ++ 0x65#8 :: rest := by
  cases bs with
  | nil => cases h
  | cons b bs =>
    simp only [takeInt] at h
    by_cases hb : b = 0x2d#8
    · rw [if_pos hb] at h
      obtain ⟨⟨m, r⟩, h1, h2⟩ := Res.bind_eq_ok.mp h
      simp only at h2
      by_cases hm : m = 0
      · rw [if_pos hm] at h2; cases h2
      · rw [if_neg hm] at h2
        injection h2 with h2
        injection h2 with ha hr
        unfold decimalInt
        rw [if_pos (by omega), takeNat_inverse _ _ _ _ h1, hb, ← hr, show n.natAbs = m by omega]
        rfl
    · rw [if_neg hb] at h
      obtain ⟨⟨m, r⟩, h1, h2⟩ := Res.bind_eq_ok.mp h
      simp only at h2
      injection h2 with h2
      injection h2 with ha hr
      unfold decimalInt
      rw [if_neg (by omega), takeNat_inverse _ _ _ _ h1, ← hr, show n.natAbs = m by omega]

end Nargun
