import Verif.Spec.Id
import Verif.Lemmas.BeNat

namespace Nargun
open Spec

namespace ID

theorem bit_eq (a : ID) (i : Nat) : a.bit i = idBit a i := by
  unfold bit idBit bitAt
  rw [byte_get _ (Nat.mod_lt _ (by decide))]

theorem ext_bits {a b : ID} (h : ∀ i < 160, idBit a i = idBit b i) : a = b := by
  have : a.bytes = b.bytes := by
    apply bytes_ext (by rw [a.len_eq, b.len_eq])
    intro i hi
    rw [a.len_eq] at hi
    exact h i hi
  cases a; cases b; simp_all

theorem getBit_of_lt (a : ID) (i : Nat) (h : i < 160) : a.getBit i = .ok (idBit a i) := by
  have : i / 8 < ID_LEN := by unfold ID_LEN; omega
  simp [getBit, this, bit_eq]

theorem getBit_of_ge (a : ID) (i : Nat) (h : 160 ≤ i) : a.getBit i = .panic := by
  have : ¬ i / 8 < ID_LEN := by unfold ID_LEN; omega
  simp [getBit, this]

theorem idBit_of_ge (a : ID) (i : Nat) (h : 160 ≤ i) : idBit a i = false := by
  apply bitAt_of_ge; rw [a.len_eq]; unfold ID_LEN; omega

theorem idNat_testBit (a : ID) (i : Nat) (hi : i < 160) : (idNat a).testBit (159 - i) = idBit a i := by
  have := beNat_testBit a.bytes i (by rw [a.len_eq]; exact hi)
  rw [a.len_eq] at this
  exact this

theorem idNat_lt (a : ID) : idNat a < 2 ^ 160 := by
  have := beNat_lt a.bytes
  rw [a.len_eq] at this
  exact this

theorem idNat_inj {a b : ID} (h : idNat a = idNat b) : a = b := by
  have : a.bytes = b.bytes := beNat_inj (by rw [a.len_eq, b.len_eq]) h
  cases a; cases b; simp_all

theorem flipBit_spec (a : ID) (i : Nat) (h : i < 160) :
    ∃ a', a.flipBit i = .ok a' ∧ ∀ j, idBit a' j = if j = i then !idBit a j else idBit a j := by
  have hlt : i / 8 < ID_LEN := by unfold ID_LEN; omega
  have hl : i / 8 < a.bytes.length := by rw [a.len_eq]; exact hlt
  refine ⟨⟨a.bytes.set (i / 8) (a.bytes.getD (i / 8) 0 ^^^ (0x80#8 >>> (i % 8))), by simp [a.len_eq]⟩,
    by simp [flipBit, setByte, hlt], ?_⟩
  intro j
  simp only [idBit, bitAt, List.getD, List.getElem?_set]
  by_cases hj : i / 8 = j / 8
  · rw [if_pos hj, if_pos hl, Option.getD_some,
      byte_flip _ (Nat.mod_lt _ (by decide)) _ (Nat.mod_lt _ (by decide)), hj]
    have : (i % 8 = j % 8) ↔ j = i := by omega
    simp only [this]
  · have : j ≠ i := by rintro rfl; exact hj rfl
    simp [this, hj]

theorem flipBit_of_ge (a : ID) (i : Nat) (h : 160 ≤ i) : a.flipBit i = .panic := by
  have hlt : ¬ i / 8 < ID_LEN := by unfold ID_LEN; omega
  simp [flipBit, setByte, hlt]

theorem changeBit_spec (a : ID) (i : Nat) (v : Bool) (h : i < 160) :
    ∃ a', a.changeBit i v = .ok a' ∧ ∀ j, idBit a' j = if j = i then v else idBit a j := by
  have hlt : i / 8 < ID_LEN := by unfold ID_LEN; omega
  have hl : i / 8 < a.bytes.length := by rw [a.len_eq]; exact hlt
  refine ⟨⟨a.bytes.set (i / 8) ((~~~ (0x80#8 >>> (i % 8)) &&& a.bytes.getD (i / 8) 0) |||
    ((if v then 1#8 else 0#8) <<< (7 - i % 8))), by simp [a.len_eq]⟩,
    by simp [changeBit, setByte, hlt], ?_⟩
  intro j
  simp only [idBit, bitAt, List.getD, List.getElem?_set]
  by_cases hj : i / 8 = j / 8
  · rw [if_pos hj, if_pos hl, Option.getD_some,
      byte_change _ (Nat.mod_lt _ (by decide)) _ _ (Nat.mod_lt _ (by decide)), hj]
    have : (i % 8 = j % 8) ↔ j = i := by omega
    simp only [this]
  · have : j ≠ i := by rintro rfl; exact hj rfl
    simp [this, hj]

theorem changeBit_of_ge (a : ID) (i : Nat) (v : Bool) (h : 160 ≤ i) : a.changeBit i v = .panic := by
  have hlt : ¬ i / 8 < ID_LEN := by unfold ID_LEN; omega
  simp [changeBit, setByte, hlt]

theorem zip_bitIter (a b : ID) :
    a.bitIter.zip b.bitIter = (List.range 160).map (fun i => (idBit a i, idBit b i)) := by
  unfold bitIter
  rw [List.zip_map']
  simp only [bit_eq]
  rfl

/-! ### first_diff_bit_idx -/

theorem firstDiffLoop_some (f : Nat → Bool × Bool) (n : Nat) : ∀ (s r : Nat),
    firstDiffLoop ((List.range' s n).map f) s = some r ↔
      s ≤ r ∧ r < s + n ∧ (f r).1 ≠ (f r).2 ∧ ∀ j, s ≤ j → j < r → (f j).1 = (f j).2 := by
  induction n with
  | zero => intro s r; simp [firstDiffLoop]; omega
  | succ n ih =>
    intro s r
    rw [List.range'_succ, List.map_cons]
    simp only [firstDiffLoop]
    split
    · rename_i h
      constructor
      · intro e; cases e; exact ⟨Nat.le_refl _, by omega, h, fun j h1 h2 => by omega⟩
      · intro ⟨h1, h2, h3, h4⟩
        by_cases e : s = r
        · rw [e]
        · exact absurd (h4 s (Nat.le_refl _) (by omega)) h
    · rename_i h
      rw [ih]
      constructor
      · intro ⟨h1, h2, h3, h4⟩
        refine ⟨by omega, by omega, h3, fun j h5 h6 => ?_⟩
        by_cases e : j = s
        · subst e; simpa using h
        · exact h4 j (by omega) h6
      · intro ⟨h1, h2, h3, h4⟩
        have : s ≠ r := by rintro rfl; exact h (by simpa using h3)
        exact ⟨by omega, by omega, h3, fun j h5 h6 => h4 j (by omega) h6⟩

theorem firstDiff_eq_some {a b : ID} {r : Nat} :
    a.firstDiffBitIdx b = some r ↔
      r < 160 ∧ idBit a r ≠ idBit b r ∧ ∀ j < r, idBit a j = idBit b j := by
  unfold firstDiffBitIdx
  rw [zip_bitIter, List.range_eq_range', firstDiffLoop_some]
  simp

theorem firstDiff_eq_none {a b : ID} : a.firstDiffBitIdx b = none ↔ a = b := by
  constructor
  · intro h
    apply ext_bits
    intro i
    induction i using Nat.strongRecOn with
    | _ i ih =>
      intro hi
      apply Decidable.byContradiction
      intro hne
      have : a.firstDiffBitIdx b = some i :=
        firstDiff_eq_some.2 ⟨hi, hne, fun j hj => ih j hj (by omega)⟩
      simp [h] at this
  · rintro rfl
    cases h : a.firstDiffBitIdx a with
    | none => rfl
    | some r => exact absurd rfl (firstDiff_eq_some.1 h).2.1

theorem firstDiff_comm (a b : ID) : a.firstDiffBitIdx b = b.firstDiffBitIdx a := by
  cases h : a.firstDiffBitIdx b with
  | none => rw [firstDiff_eq_none] at h; subst h; exact (firstDiff_eq_none.2 rfl).symm
  | some r =>
    rw [firstDiff_eq_some] at h
    exact (firstDiff_eq_some.2 ⟨h.1, h.2.1.symm, fun j hj => (h.2.2 j hj).symm⟩).symm

/-! ### XOR -/

theorem idBit_xor (a b : ID) (i : Nat) : idBit (a.xor b) i = (idBit a i ^^ idBit b i) :=
  bitAt_zipWith_xor _ _ (by rw [a.len_eq, b.len_eq]) i

theorem idNat_xor (a b : ID) : idNat (a.xor b) = idNat a ^^^ idNat b :=
  beNat_xor _ _ (by rw [a.len_eq, b.len_eq])

theorem xor_self_inv (a b : ID) : a.xor (a.xor b) = b := by
  apply ext_bits
  intro i _
  rw [idBit_xor, idBit_xor]
  cases idBit a i <;> cases idBit b i <;> rfl

theorem xor_comm (a b : ID) : a.xor b = b.xor a := by
  apply ext_bits
  intro i _
  rw [idBit_xor, idBit_xor, Bool.xor_comm]

theorem xor_inj {a b c : ID} (h : a.xor b = a.xor c) : b = c := by
  rw [← xor_self_inv a b, h, xor_self_inv]

/-! ### Ord -/

theorem bitLen_eq {x n : Nat} (h1 : 2 ^ n ≤ x) (h2 : x < 2 ^ (n + 1)) : bitLen x = n + 1 := by
  have : x ≠ 0 := by have := Nat.two_pow_pos n; omega
  unfold bitLen
  rw [if_neg this, (Nat.log2_eq_iff this).2 ⟨h1, h2⟩]

theorem bitLen_le {x n : Nat} (h : x < 2 ^ n) : bitLen x ≤ n := by
  unfold bitLen
  split
  · omega
  · rename_i h0
    have := (Nat.log2_lt h0).2 h
    omega

theorem top_bit (n x : Nat) (hx : x < 2 ^ (n + 1)) : x.testBit n = decide (2 ^ n ≤ x) := by
  by_cases h : 2 ^ n ≤ x
  · have := Nat.testBit_two_pow_mul_add 1 (b := x - 2 ^ n) (i := n) (by rw [Nat.pow_succ] at hx; omega) n
    rw [show 2 ^ n * 1 + (x - 2 ^ n) = x by omega] at this
    rw [this]; simp [h]
  · rw [Nat.testBit_lt_two_pow (by omega)]; simp [h]

theorem cmpLoop_eq (n : Nat) : ∀ (x y : Nat), x < 2 ^ n → y < 2 ^ n →
    cmpLoop ((List.range n).map (fun i => (x.testBit (n - 1 - i), y.testBit (n - 1 - i))))
      = compare (bitLen x) (bitLen y) := by
  induction n with
  | zero => intro x y hx hy; simp at hx hy; subst hx; subst hy; rfl
  | succ n ih =>
    intro x y hx hy
    rw [List.range_succ_eq_map, List.map_cons, List.map_map]
    have e : ((fun i => (x.testBit (n + 1 - 1 - i), y.testBit (n + 1 - 1 - i))) ∘ Nat.succ)
        = fun i => (x.testBit (n - 1 - i), y.testBit (n - 1 - i)) := by
      funext i; simp only [Function.comp]; congr 2 <;> omega
    rw [e]
    simp only [Nat.add_sub_cancel, Nat.sub_zero, top_bit n x hx, top_bit n y hy]
    by_cases h1 : 2 ^ n ≤ x <;> by_cases h2 : 2 ^ n ≤ y
    · simp only [h1, h2, decide_true, cmpLoop, bitLen_eq h1 hx, bitLen_eq h2 hy]
      simp [compare, compareOfLessAndEq]
    · simp only [h1, h2, decide_true, decide_false, cmpLoop, bitLen_eq h1 hx]
      have := bitLen_le (Nat.lt_of_not_le h2)
      symm; rw [Nat.compare_eq_gt]; omega
    · simp only [h1, h2, decide_true, decide_false, cmpLoop, bitLen_eq h2 hy]
      have := bitLen_le (Nat.lt_of_not_le h1)
      symm; rw [Nat.compare_eq_lt]; omega
    · simp only [h1, h2, decide_false, cmpLoop]
      exact ih x y (by omega) (by omega)

theorem cmp_eq_bitLen (a b : ID) : a.cmp b = compare (bitLen (idNat a)) (bitLen (idNat b)) := by
  unfold cmp
  rw [zip_bitIter, ← cmpLoop_eq 160 _ _ (idNat_lt a) (idNat_lt b)]
  congr 1
  apply List.map_congr_left
  intro i hi
  rw [List.mem_range] at hi
  rw [← idNat_testBit a i hi, ← idNat_testBit b i hi]

theorem bitLen_mono {x y : Nat} (h : x ≤ y) : bitLen x ≤ bitLen y := by
  by_cases hy : y = 0
  · subst hy; simp at h; subst h; exact Nat.le_refl _
  · apply bitLen_le
    unfold bitLen
    rw [if_neg hy]
    exact Nat.lt_of_le_of_lt h Nat.lt_log2_self

/-! ### cmp_first_n_bits -/

theorem cmpBytes_eq (l : List (Byte × Byte)) :
    cmpBytes l = compare (beNat (l.map (·.1))) (beNat (l.map (·.2))) := by
  induction l with
  | nil => rfl
  | cons p l ih =>
    obtain ⟨a, b⟩ := p
    simp only [cmpBytes, List.map_cons, beNat_cons, List.length_map]
    have ha := beNat_lt (l.map (·.1))
    have hb := beNat_lt (l.map (·.2))
    rw [List.length_map] at ha hb
    rw [pow256]
    generalize hA : beNat (l.map (·.1)) = A at *
    generalize hB : beNat (l.map (·.2)) = B at *
    generalize 2 ^ (8 * l.length) = P at *
    by_cases hlt : a.toNat < b.toNat
    · have h1 : compare a.toNat b.toNat = .lt := Nat.compare_eq_lt.2 hlt
      simp only [h1]
      have : (a.toNat + 1) * P ≤ b.toNat * P := Nat.mul_le_mul_right _ hlt
      simp
      symm; rw [Nat.compare_eq_lt]; grind
    · by_cases hgt : b.toNat < a.toNat
      · have h1 : compare a.toNat b.toNat = .gt := Nat.compare_eq_gt.2 hgt
        simp only [h1]
        have : (b.toNat + 1) * P ≤ a.toNat * P := Nat.mul_le_mul_right _ hgt
        simp
        symm; rw [Nat.compare_eq_gt]; grind
      · have heq : a.toNat = b.toNat := by omega
        have h1 : compare a.toNat b.toNat = .eq := Nat.compare_eq_eq.2 heq
        simp only [h1, ne_eq, not_true_eq_false, if_false]
        rw [ih, heq]
        simp only [compare, compareOfLessAndEq, Nat.add_lt_add_iff_left, Nat.add_left_cancel_iff]

theorem shiftRight_step (x k : Nat) (h : 0 < k) :
    x / 2 ^ (k - 1) = x / 2 ^ k * 2 + (x.testBit (k - 1)).toNat := by
  obtain ⟨m, rfl⟩ : ∃ m, k = m + 1 := ⟨k - 1, by omega⟩
  rw [Nat.add_sub_cancel, Nat.toNat_testBit, Nat.pow_succ, ← Nat.div_div_eq_div_mul]
  omega

theorem cmpBits_eq (a b : ID) (m : Nat) : ∀ s, s + m ≤ 160 →
    idNat a / 2 ^ (160 - s) = idNat b / 2 ^ (160 - s) →
    cmpBits a b (List.range' s m) =
      .ok (compare (idNat a / 2 ^ (160 - (s + m))) (idNat b / 2 ^ (160 - (s + m)))) := by
  induction m with
  | zero => intro s hs h; simp only [List.range'_zero, cmpBits, Nat.add_zero]; rw [Nat.compare_eq_eq.2 h]
  | succ m ih =>
    intro s hs h
    rw [List.range'_succ]
    simp only [cmpBits]
    rw [getBit_of_lt a s (by omega), getBit_of_lt b s (by omega)]
    simp only [Res.ok_bind]
    have ha := shiftRight_step (idNat a) (160 - s) (by omega)
    have hb := shiftRight_step (idNat b) (160 - s) (by omega)
    rw [show 160 - s - 1 = 159 - s by omega, idNat_testBit a s (by omega)] at ha
    rw [show 160 - s - 1 = 159 - s by omega, idNat_testBit b s (by omega)] at hb
    have e1 : 160 - (s + 1) = 159 - s := by omega
    by_cases hab : idBit a s = idBit b s
    · have hc : compare (idBit a s) (idBit b s) = .eq := by rw [hab]; cases idBit b s <;> rfl
      rw [hc]
      simp only [ne_eq, not_true_eq_false, if_false]
      rw [ih (s + 1) (by omega) (by rw [e1, ha, hb, h, hab]), show s + 1 + m = s + (m + 1) by omega]
    · have hdiv : ∀ x : Nat, x / 2 ^ (160 - (s + (m + 1))) / 2 ^ m = x / 2 ^ (159 - s) := by
        intro x
        rw [Nat.div_div_eq_div_mul, ← Nat.pow_add]
        congr 2; omega
      have hA := hdiv (idNat a)
      have hB := hdiv (idNat b)
      rw [ha] at hA
      rw [hb] at hB
      rw [h] at hA
      generalize idNat a / 2 ^ (160 - (s + (m + 1))) = X at *
      generalize idNat b / 2 ^ (160 - (s + (m + 1))) = Y at *
      cases h1 : idBit a s <;> cases h2 : idBit b s <;> rw [h1, h2] at hab
      · exact absurd rfl hab
      · rw [h1] at hA; rw [h2] at hB
        simp at hA hB
        have : X < Y := by
          apply Decidable.byContradiction; intro hc
          have := Nat.div_le_div_right (c := 2 ^ m) (Nat.le_of_not_lt hc)
          omega
        rw [Nat.compare_eq_lt.2 this]; rfl
      · rw [h1] at hA; rw [h2] at hB
        simp at hA hB
        have : Y < X := by
          apply Decidable.byContradiction; intro hc
          have := Nat.div_le_div_right (c := 2 ^ m) (Nat.le_of_not_lt hc)
          omega
        rw [Nat.compare_eq_gt.2 this]; rfl
      · exact absurd rfl hab

theorem beNat_take (bs : Bytes) (k : Nat) :
    beNat (bs.take k) = beNat bs / 2 ^ (8 * (bs.length - k)) := by
  have h := beNat_append (bs.take k) (bs.drop k)
  rw [List.take_append_drop] at h
  have hlt := beNat_lt (bs.drop k)
  rw [pow256] at h
  rw [List.length_drop] at h hlt
  rw [h, Nat.mul_comm, Nat.mul_add_div (Nat.two_pow_pos _), Nat.div_eq_of_lt hlt, Nat.add_zero]

theorem cmpFirstNBits_eq (a b : ID) (n : Nat) (hn : n ≤ 160) :
    a.cmpFirstNBits b n = .ok (compare (idNat a / 2 ^ (160 - n)) (idNat b / 2 ^ (160 - n))) := by
  have hla : a.bytes.length = 20 := a.len_eq
  have hlb : b.bytes.length = 20 := b.len_eq
  have hta : ((a.bytes.zip b.bytes).take (n / 8)).map (·.1) = a.bytes.take (n / 8) := by
    rw [List.map_take, List.map_fst_zip (by omega)]
  have htb : ((a.bytes.zip b.bytes).take (n / 8)).map (·.2) = b.bytes.take (n / 8) := by
    rw [List.map_take, List.map_snd_zip (by omega)]
  simp only [cmpFirstNBits]
  rw [cmpBytes_eq, hta, htb, beNat_take, beNat_take, hla, hlb,
    show 8 * (20 - n / 8) = 160 - 8 * (n / 8) by omega]
  change (if compare (idNat a / _) (idNat b / _) ≠ .eq then Res.ok (compare (idNat a / _) (idNat b / _)) else _) = _
  have hr : (List.range (n % 8)).map (fun i => n / 8 * 8 + i) = List.range' (8 * (n / 8)) (n % 8) := by
    rw [List.range'_eq_map_range, Nat.mul_comm]
  rw [hr]
  have hdiv : ∀ x : Nat, x / 2 ^ (160 - n) / 2 ^ (n % 8) = x / 2 ^ (160 - 8 * (n / 8)) := by
    intro x
    rw [Nat.div_div_eq_div_mul, ← Nat.pow_add]
    congr 2; omega
  by_cases h : idNat a / 2 ^ (160 - 8 * (n / 8)) = idNat b / 2 ^ (160 - 8 * (n / 8))
  · rw [Nat.compare_eq_eq.2 h]
    simp only [ne_eq, not_true_eq_false, if_false]
    rw [cmpBits_eq a b _ _ (by omega) h, show 8 * (n / 8) + n % 8 = n by omega]
  · have hA := hdiv (idNat a)
    have hB := hdiv (idNat b)
    have hne : compare (idNat a / 2 ^ (160 - 8 * (n / 8))) (idNat b / 2 ^ (160 - 8 * (n / 8))) ≠ .eq := by
      rw [ne_eq, Nat.compare_eq_eq]; exact h
    rw [if_pos hne]
    congr 1
    rw [← hA, ← hB] at h ⊢
    generalize idNat a / 2 ^ (160 - n) = X at *
    generalize idNat b / 2 ^ (160 - n) = Y at *
    by_cases hlt : X / 2 ^ (n % 8) < Y / 2 ^ (n % 8)
    · rw [Nat.compare_eq_lt.2 hlt]; symm; rw [Nat.compare_eq_lt]
      apply Decidable.byContradiction; intro hc
      have := Nat.div_le_div_right (c := 2 ^ (n % 8)) (Nat.le_of_not_lt hc)
      omega
    · have hgt : Y / 2 ^ (n % 8) < X / 2 ^ (n % 8) := by omega
      rw [Nat.compare_eq_gt.2 hgt]; symm; rw [Nat.compare_eq_gt]
      apply Decidable.byContradiction; intro hc
      have := Nat.div_le_div_right (c := 2 ^ (n % 8)) (Nat.le_of_not_lt hc)
      omega

end ID
end Nargun
