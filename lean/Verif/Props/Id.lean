import Verif.Lemmas.Hamming

/-! # Properties C05-C10: 160-bit identifiers -/

namespace Nargun
open Spec

/-- C05 (reading): bit `i` of an ID is bit `159 - i` of the 160-bit big-endian number; reading past bit 159
panics. -/
theorem C05_get_bit (a : ID) (i : Nat) :
    (i < 160 → a.getBit i = .ok ((idNat a).testBit (159 - i))) ∧ (160 ≤ i → a.getBit i = .panic) :=
  ⟨fun h => by rw [ID.idNat_testBit a i h]; exact a.getBit_of_lt i h, a.getBit_of_ge i⟩

/-- C05 (flipping): flips bit `i`, and nothing else; panics past bit 159. -/
theorem C05_flip_bit (a : ID) (i : Nat) :
    (i < 160 → ∃ a', a.flipBit i = .ok a' ∧
      ∀ j, a'.getBit j = if j = i then (a.getBit j).bind (fun v => .ok !v) else a.getBit j) ∧
    (160 ≤ i → a.flipBit i = .panic) := by
  refine ⟨fun h => ?_, a.flipBit_of_ge i⟩
  obtain ⟨a', h1, h2⟩ := a.flipBit_spec i h
  refine ⟨a', h1, fun j => ?_⟩
  by_cases hj : j < 160
  · rw [ID.getBit_of_lt _ _ hj, ID.getBit_of_lt _ _ hj, h2]
    split <;> rfl
  · rw [ID.getBit_of_ge _ _ (by omega), ID.getBit_of_ge _ _ (by omega)]
    split <;> rfl

/-- C05 (writing): sets bit `i` to `v`, and nothing else; panics past bit 159. -/
theorem C05_change_bit (a : ID) (i : Nat) (v : Bool) :
    (i < 160 → ∃ a', a.changeBit i v = .ok a' ∧ ∀ j, a'.getBit j = if j = i then .ok v else a.getBit j) ∧
    (160 ≤ i → a.changeBit i v = .panic) := by
  refine ⟨fun h => ?_, a.changeBit_of_ge i v⟩
  obtain ⟨a', h1, h2⟩ := a.changeBit_spec i v h
  refine ⟨a', h1, fun j => ?_⟩
  by_cases hj : j < 160
  · rw [ID.getBit_of_lt _ _ hj, ID.getBit_of_lt _ _ hj, h2]
    split <;> rfl
  · rw [ID.getBit_of_ge _ _ (by omega), ID.getBit_of_ge _ _ (by omega), if_neg (by omega)]

/-- The ID whose first byte is `b` and whose other bytes are 0 (for examples). -/
def ID.ofFirst (b : Byte) : ID := ⟨b :: List.replicate 19 0, rfl⟩

example : (ID.ofFirst 0x40).getBit 1 = .ok true ∧ (ID.ofFirst 0x40).getBit 0 = .ok false := by decide
example : (ID.ofFirst 0x40).flipBit 3 = .ok (ID.ofFirst 0x50) := by decide
example : (ID.ofFirst 0x40).changeBit 1 false = .ok (ID.ofFirst 0) := by decide

/-- C06 (first difference): `some i` exactly for the least index at which the IDs differ, `none` exactly for
equal IDs. -/
theorem C06_first_diff (a b : ID) :
    (∀ i, a.firstDiffBitIdx b = some i ↔
      i < 160 ∧ a.getBit i ≠ b.getBit i ∧ ∀ j < i, a.getBit j = b.getBit j) ∧
    (a.firstDiffBitIdx b = none ↔ a = b) := by
  refine ⟨fun i => ?_, ID.firstDiff_eq_none⟩
  rw [ID.firstDiff_eq_some]
  constructor
  · rintro ⟨h1, h2, h3⟩
    refine ⟨h1, ?_, fun j hj => ?_⟩
    · rw [ID.getBit_of_lt _ _ h1, ID.getBit_of_lt _ _ h1]; simpa using h2
    · rw [ID.getBit_of_lt _ _ (by omega), ID.getBit_of_lt _ _ (by omega), h3 j hj]
  · rintro ⟨h1, h2, h3⟩
    rw [ID.getBit_of_lt _ _ h1, ID.getBit_of_lt _ _ h1] at h2
    refine ⟨h1, by simpa using h2, fun j hj => ?_⟩
    have := h3 j hj
    rw [ID.getBit_of_lt _ _ (by omega), ID.getBit_of_lt _ _ (by omega)] at this
    simpa using this

/-- C06 (prefix comparison): `cmp_first_n_bits` compares the numbers formed by the first `n` bits. -/
theorem C06_cmp_first_n_bits (a b : ID) (n : Nat) (hn : n ≤ 160) :
    a.cmpFirstNBits b n = .ok (compare (idNat a / 2 ^ (160 - n)) (idNat b / 2 ^ (160 - n))) :=
  ID.cmpFirstNBits_eq a b n hn

example : (ID.ofFirst 0x40).firstDiffBitIdx (ID.ofFirst 0x60) = some 2 := by decide +kernel
example : (ID.ofFirst 0x40).cmpFirstNBits (ID.ofFirst 0x60) 2 = .ok .eq ∧
    (ID.ofFirst 0x40).cmpFirstNBits (ID.ofFirst 0x60) 3 = .ok .lt := by decide +kernel

/-- C07: the distance of IDs is the XOR of their numbers; it is zero iff the IDs are equal, symmetric,
an involution (so for every ID and distance there is exactly one ID at that distance), satisfies the triangle
inequality, and is below `2^(160-k)` iff the IDs share their first `k` bits. -/
theorem C07_xor_metric (a b c : ID) :
    idNat (a.sub b) = dist a b ∧
    (idNat (a.sub b) = 0 ↔ a = b) ∧
    a.sub b = b.sub a ∧
    a.sub (a.sub b) = b ∧
    idNat (a.sub c) ≤ idNat (a.sub b) + idNat (b.sub c) ∧
    ∀ k ≤ 160, (idNat (a.sub b) < 2 ^ (160 - k) ↔ ∀ i < k, a.getBit i = b.getBit i) := by
  refine ⟨ID.idNat_xor a b, ?_, ID.xor_comm a b, ID.xor_self_inv a b, ?_, ?_⟩
  · show idNat (a.xor b) = 0 ↔ _
    rw [ID.idNat_xor]
    constructor
    · intro h; 
      apply ID.idNat_inj
      apply Nat.eq_of_testBit_eq
      intro i
      have := congrArg (fun n => n.testBit i) h
      simp only [Nat.testBit_xor, Nat.zero_testBit] at this
      simpa using this
    · rintro rfl; exact Nat.xor_self _
  · show idNat (a.xor c) ≤ idNat (a.xor b) + idNat (b.xor c)
    rw [ID.idNat_xor, ID.idNat_xor, ID.idNat_xor]
    have : idNat a ^^^ idNat c = (idNat a ^^^ idNat b) ^^^ (idNat b ^^^ idNat c) := by
      rw [Nat.xor_assoc, ← Nat.xor_assoc (idNat b), Nat.xor_self, Nat.zero_xor]
    rw [this]
    exact xor_le_add _ _
  · intro k hk
    show idNat (a.xor b) < _ ↔ _
    have hbit : ∀ i < 160, (a.getBit i = b.getBit i ↔ (idNat (a.xor b)).testBit (159 - i) = false) := by
      intro i hi
      rw [ID.getBit_of_lt _ _ hi, ID.getBit_of_lt _ _ hi, ID.idNat_testBit _ _ hi, ID.idBit_xor]
      cases idBit a i <;> cases idBit b i <;> simp
    constructor
    · intro h i hi
      rw [hbit i (by omega)]
      apply Nat.testBit_lt_two_pow
      exact Nat.lt_of_lt_of_le h (Nat.pow_le_pow_right (by decide) (by omega))
    · intro h
      apply Nat.lt_pow_two_of_testBit
      intro j hj
      by_cases hj2 : j < 160
      · have := (hbit (159 - j) (by omega)).1 (h (159 - j) (by omega))
        rwa [show 159 - (159 - j) = j by omega] at this
      · apply Nat.testBit_lt_two_pow
        exact Nat.lt_of_lt_of_le (ID.idNat_lt _) (Nat.pow_le_pow_right (by decide) (by omega))

example : idNat ((ID.ofFirst 0x40).sub (ID.ofFirst 0x60)) = 2 ^ 157 := by decide +kernel

/-- C08 (partial): comparing IDs compares the number of binary digits of their values (their logarithms), so
when it says "less"/"greater" the values are so ordered, and equal IDs compare equal.  Missing: values with
the same number of digits compare equal, see the violation. -/
theorem C08_id_order_partial (a b : ID) :
    a.cmp b = compare (bitLen (idNat a)) (bitLen (idNat b)) ∧
    (a.cmp b = .lt → idNat a < idNat b) ∧ (a.cmp b = .gt → idNat b < idNat a) ∧
    (a = b → a.cmp b = .eq) := by
  have h := ID.cmp_eq_bitLen a b
  refine ⟨h, ?_, ?_, ?_⟩
  · intro h1
    rw [h, Nat.compare_eq_lt] at h1
    apply Decidable.byContradiction
    intro hc
    have := ID.bitLen_mono (Nat.le_of_not_lt hc)
    omega
  · intro h1
    rw [h, Nat.compare_eq_gt] at h1
    apply Decidable.byContradiction
    intro hc
    have := ID.bitLen_mono (Nat.le_of_not_lt hc)
    omega
  · rintro rfl; rw [h]; exact Nat.compare_eq_eq.2 rfl

/-- C08 (partial): the comparison is a total preorder, so sorting by it is well defined (`sort_by` never sees
an inconsistent order): it is antisymmetric under swap, and transitive. -/
theorem C08_id_preorder_partial (a b c : ID) :
    a.cmp b = (b.cmp a).swap ∧ (a.cmp b ≠ .gt → b.cmp c ≠ .gt → a.cmp c ≠ .gt) ∧
    (a.cmp b = .eq → a.cmp c = b.cmp c) := by
  simp only [ID.cmp_eq_bitLen]
  refine ⟨?_, ?_, ?_⟩
  · rw [Nat.compare_swap]
  · intro h1 h2
    rw [ne_eq, Nat.compare_eq_gt] at *
    omega
  · intro h; rw [Nat.compare_eq_eq.1 h]

/-- C08 is violated: different IDs compare equal, and the numerically smaller one is not "less". -/
theorem C08_id_order_violated :
    ∃ a b : ID, a ≠ b ∧ idNat a < idNat b ∧ a.cmp b = .eq :=
  ⟨ID.ofFirst 0x80, ID.ofFirst 0xC0, by decide, by decide +kernel, by decide +kernel⟩

theorem sum_map_20 (f : Byte → Nat) (bs : Bytes) (h : bs.length = 20) :
    (bs.map f).sum = f (bs.getD 0 0) + f (bs.getD 1 0) + f (bs.getD 2 0) + f (bs.getD 3 0) + f (bs.getD 4 0) + f (bs.getD 5 0) + f (bs.getD 6 0) + f (bs.getD 7 0) + f (bs.getD 8 0) + f (bs.getD 9 0) + f (bs.getD 10 0) + f (bs.getD 11 0) + f (bs.getD 12 0) + f (bs.getD 13 0) + f (bs.getD 14 0) + f (bs.getD 15 0) + f (bs.getD 16 0) + f (bs.getD 17 0) + f (bs.getD 18 0) + f (bs.getD 19 0) := by
  match bs, h with
  | [b0, b1, b2, b3, b4, b5, b6, b7, b8, b9, b10, b11, b12, b13, b14, b15, b16, b17, b18, b19], _ =>
    simp only [List.map_cons, List.map_nil, List.sum_cons, List.sum_nil, List.getD_cons_zero, List.getD_cons_succ,
      Nat.add_assoc, Nat.add_zero]

theorem countBelow_rev (n : Nat) : ∀ (p : Nat → Bool), countBelow (fun i => p (n - 1 - i)) n = countBelow p n := by
  induction n with
  | zero => intro p; rfl
  | succ n ih =>
    intro p
    rw [show n + 1 = 1 + n by omega, Bitmap.countBelow_add]
    have e1 : countBelow (fun i => p (1 + n - 1 - (1 + i))) n = countBelow (fun i => p (n - 1 - i)) n := by
      apply Bitmap.countBelow_congr; intro i hi; congr 1; omega
    rw [e1, ih p]
    have e2 : countBelow (fun i => p (1 + n - 1 - i)) 1 = if p n then 1 else 0 := by
      simp [countBelow]
    rw [e2, show 1 + n = n + 1 by omega]
    simp only [countBelow]; omega

/-- C09: the weight of an ID is the number of its 160 bits that are set (and no intermediate sum overflows). -/
theorem C09_weight (a : ID) :
    a.weight = .ok (countBelow (fun i => (idNat a).testBit i) 160) := by
  have hsum : countBelow (fun i => (idNat a).testBit i) 160 = (a.bytes.map Bitmap.countOnes).sum := by
    rw [Bitmap.sum_countOnes, ← countBelow_rev 160, a.len_eq]
    apply Bitmap.countBelow_congr
    intro i hi
    exact ID.idNat_testBit a i hi
  rw [hsum, sum_map_20 _ _ a.len_eq]
  have hle : ∀ v : Byte, Bitmap.countOnes v ≤ 8 := by decide +kernel
  have add : ∀ (x y : BitVec 32) (n m : Nat), x.toNat = n → y.toNat = m → n + m < 2 ^ 32 →
      ∃ z, ID.addU32 x y = .ok z ∧ z.toNat = n + m := by
    intro x y n m hx hy h
    refine ⟨x + y, by simp only [ID.addU32, hx, hy, if_pos h], ?_⟩
    rw [BitVec.toNat_add_of_lt (by rw [hx, hy]; exact h), hx, hy]
  have hword : ∀ k, a.word k = ID.lanes (a.bytes.getD (4 * k + 3) 0) (a.bytes.getD (4 * k + 2) 0)
    (a.bytes.getD (4 * k + 1) 0) (a.bytes.getD (4 * k) 0) := fun _ => rfl
  have hw : ∀ k, ∃ w, ID.hammingWeight (a.word k) = .ok w ∧ w.toNat =
      Bitmap.countOnes (a.bytes.getD (4 * k + 3) 0) + Bitmap.countOnes (a.bytes.getD (4 * k + 2) 0) +
      Bitmap.countOnes (a.bytes.getD (4 * k + 1) 0) + Bitmap.countOnes (a.bytes.getD (4 * k) 0) ∧ w.toNat ≤ 32 := by
    intro k
    rw [hword]
    obtain ⟨w, h0, n0⟩ := ID.hammingWeight_lanes (a.bytes.getD (4 * k + 3) 0) (a.bytes.getD (4 * k + 2) 0)
      (a.bytes.getD (4 * k + 1) 0) (a.bytes.getD (4 * k) 0)
    refine ⟨w, h0, n0, ?_⟩
    rw [n0]
    have l0 := hle (a.bytes.getD (4 * k + 3) 0)
    have l1 := hle (a.bytes.getD (4 * k + 2) 0)
    have l2 := hle (a.bytes.getD (4 * k + 1) 0)
    have l3 := hle (a.bytes.getD (4 * k) 0)
    omega
  obtain ⟨w0, h0, n0, l0⟩ := hw 0
  obtain ⟨w1, h1, n1, l1⟩ := hw 1
  obtain ⟨w2, h2, n2, l2⟩ := hw 2
  obtain ⟨w3, h3, n3, l3⟩ := hw 3
  obtain ⟨w4, h4, n4, l4⟩ := hw 4
  obtain ⟨x1, g1, m1⟩ := add w0 w1 _ _ rfl rfl (by omega)
  obtain ⟨x2, g2, m2⟩ := add x1 w2 _ _ m1 rfl (by omega)
  obtain ⟨x3, g3, m3⟩ := add x2 w3 _ _ m2 rfl (by omega)
  obtain ⟨x4, g4, m4⟩ := add x3 w4 _ _ m3 rfl (by omega)
  simp only [Nat.reduceMul, Nat.reduceAdd] at n0 n1 n2 n3 n4
  simp only [ID.weight]
  rw [h0, h1, h2, h3, h4]
  simp only [Res.ok_bind, g1, g2, g3, g4, m4, n0, n1, n2, n3, n4]
  congr 1
  omega

example : (ID.ofFirst 0xB1).weight = .ok 4 := by decide +kernel

theorem ID.flipRandom_spec (rnd : Nat → Bool) (m : Nat) : ∀ (s : Nat) (a : ID), s + m ≤ 160 →
    ∃ a', ID.flipRandom rnd a (List.range' s m) = .ok a' ∧
      ∀ j, idBit a' j = if s ≤ j ∧ j < s + m then (idBit a j ^^ rnd j) else idBit a j := by
  induction m with
  | zero =>
    intro s a _
    refine ⟨a, rfl, fun j => ?_⟩
    rw [if_neg (by omega)]
  | succ m ih =>
    intro s a hs
    rw [List.range'_succ]
    simp only [ID.flipRandom]
    cases hr : rnd s
    · obtain ⟨a', h1, h2⟩ := ih (s + 1) a (by omega)
      refine ⟨a', by simpa using h1, fun j => ?_⟩
      rw [h2]
      by_cases hj : j = s
      · subst hj; simp [hr]
      · by_cases h : s + 1 ≤ j ∧ j < s + 1 + m
        · rw [if_pos h, if_pos (by omega)]
        · rw [if_neg h, if_neg (by omega)]
    · obtain ⟨b, g1, g2⟩ := a.flipBit_spec s (by omega)
      obtain ⟨a', h1, h2⟩ := ih (s + 1) b (by omega)
      refine ⟨a', by simp [g1, h1], fun j => ?_⟩
      rw [h2, g2]
      by_cases hj : j = s
      · subst hj; rw [if_neg (by omega), if_pos rfl, if_pos (by omega), hr]; simp
      · by_cases h : s + 1 ≤ j ∧ j < s + 1 + m
        · rw [if_neg hj, if_pos h, if_pos (by omega)]
        · rw [if_neg hj, if_neg h, if_neg (by omega)]

/-- What `randomize_after_bit` produces, for any random source. -/
theorem ID.randomizeAfterBit_spec (rndByte : Nat → Byte) (rndBit : Nat → Bool) (a : ID) (i : Nat) (hi : i < 160) :
    ∃ a', ID.randomizeAfterBit rndByte rndBit a i = .ok a' ∧
      ∀ j < 160, idBit a' j =
        if j ≤ i then idBit a j
        else if j < (i / 8 + 1) * 8 then (idBit a j ^^ rndBit j)
        else (rndByte (j / 8)).toNat.testBit (7 - j % 8) := by
  have hlen : (a.bytes.take (i / 8 + 1) ++
      (List.range (ID_LEN - (i / 8 + 1))).map (fun k => rndByte (i / 8 + 1 + k))).length = ID_LEN := by
    simp [a.len_eq, ID_LEN]; omega
  have hge : ¬ i ≥ ID_BIT_COUNT := by unfold ID_BIT_COUNT ID_LEN; omega
  have hr : (List.range ((i / 8 + 1) * 8 - (i + 1))).map (fun k => i + 1 + k)
      = List.range' (i + 1) ((i / 8 + 1) * 8 - (i + 1)) := by rw [List.range'_eq_map_range]
  obtain ⟨a', h1, h2⟩ := ID.flipRandom_spec rndBit ((i / 8 + 1) * 8 - (i + 1)) (i + 1) ⟨_, hlen⟩ (by omega)
  refine ⟨a', ?_, ?_⟩
  · simp only [ID.randomizeAfterBit, if_neg hge, dif_pos hlen, hr, h1]
  · intro j hj
    rw [h2]
    have hlt : a.bytes.length = 20 := a.len_eq
    have hb : idBit ⟨_, hlen⟩ j = if j / 8 < i / 8 + 1 then idBit a j
        else (rndByte (j / 8)).toNat.testBit (7 - j % 8) := by
      simp only [idBit, bitAt, List.getD, List.getElem?_append, List.length_take, hlt]
      rw [show min (i / 8 + 1) 20 = i / 8 + 1 by omega]
      by_cases hjb : j / 8 < i / 8 + 1
      · rw [if_pos hjb, if_pos hjb, List.getElem?_take_of_lt hjb]
      · rw [if_neg hjb, if_neg hjb, List.getElem?_map, List.getElem?_range (by unfold ID_LEN; omega)]
        simp only [Option.map_some, Option.getD_some]
        rw [show i / 8 + 1 + (j / 8 - (i / 8 + 1)) = j / 8 by omega]
    rw [hb]
    by_cases c1 : j ≤ i
    · rw [if_neg (by omega), if_pos (by omega), if_pos c1]
    · by_cases c2 : j < (i / 8 + 1) * 8
      · rw [if_pos (by omega), if_pos (by omega), if_neg c1, if_pos c2]
      · rw [if_neg (by omega), if_neg (by omega), if_neg c1, if_neg c2]

/-- C10: whatever the random source, `randomize_after_bit(i)` succeeds and keeps bits `0..=i`
(for `i ≥ 160` it changes nothing), and for every ID with that prefix some outcome of the random source
produces it. -/
theorem C10_randomize (a : ID) (i : Nat) :
    (∀ rndByte rndBit, ∃ a', ID.randomizeAfterBit rndByte rndBit a i = .ok a' ∧
      ∀ j ≤ i, a'.getBit j = a.getBit j) ∧
    (∀ t : ID, (∀ j ≤ i, t.getBit j = a.getBit j) →
      ∃ rndByte rndBit, ID.randomizeAfterBit rndByte rndBit a i = .ok t) := by
  by_cases hi : i < 160
  · constructor
    · intro rndByte rndBit
      obtain ⟨a', h1, h2⟩ := ID.randomizeAfterBit_spec rndByte rndBit a i hi
      refine ⟨a', h1, fun j hj => ?_⟩
      rw [ID.getBit_of_lt _ _ (by omega), ID.getBit_of_lt _ _ (by omega), h2 j (by omega), if_pos hj]
    · intro t ht
      refine ⟨fun k => t.bytes.getD k 0, fun j => (idBit a j ^^ idBit t j), ?_⟩
      obtain ⟨a', h1, h2⟩ := ID.randomizeAfterBit_spec (fun k => t.bytes.getD k 0)
        (fun j => (idBit a j ^^ idBit t j)) a i hi
      rw [h1]
      congr 1
      apply ID.ext_bits
      intro j hj
      rw [h2 j hj]
      split
      · rename_i hji
        have := ht j hji
        rw [ID.getBit_of_lt _ _ hj, ID.getBit_of_lt _ _ hj] at this
        simpa using this.symm
      · split
        · cases idBit a j <;> cases idBit t j <;> rfl
        · rfl
  · have hge : i ≥ ID_BIT_COUNT := by unfold ID_BIT_COUNT ID_LEN; omega
    constructor
    · intro _ _
      exact ⟨a, by simp [ID.randomizeAfterBit, hge], fun _ _ => rfl⟩
    · intro t ht
      refine ⟨fun _ => 0, fun _ => false, ?_⟩
      have : t = a := by
        apply ID.ext_bits
        intro j hj
        have := ht j (by omega)
        rw [ID.getBit_of_lt _ _ hj, ID.getBit_of_lt _ _ hj] at this
        simpa using this
      simp [ID.randomizeAfterBit, hge, this]

example : ID.randomizeAfterBit (fun _ => 0xAB) (fun j => j == 3) (ID.ofFirst 0x40) 1
    = .ok ⟨0x50 :: List.replicate 19 0xAB, rfl⟩ := by decide +kernel

end Nargun
