import Verif.Lemmas.Id

namespace Nargun
open Spec
namespace ID

/-- Four byte lanes. -/
def lanes (d c b a : BitVec 8) : BitVec 32 := (d ++ c ++ b ++ a : BitVec (8 + 8 + 8 + 8))

theorem toNat_lanes (d c b a : BitVec 8) :
    (lanes d c b a).toNat = d.toNat * 2 ^ 24 + c.toNat * 2 ^ 16 + b.toNat * 2 ^ 8 + a.toNat := by
  have app : ∀ (n : Nat) (x : BitVec n) (y : BitVec 8), (x ++ y).toNat = x.toNat * 256 + y.toNat := by
    intro n x y
    rw [BitVec.toNat_append, ← Nat.shiftLeft_add_eq_or_of_lt y.isLt, Nat.shiftLeft_eq]
  unfold lanes
  show ((d ++ c ++ b ++ a : BitVec (8 + 8 + 8 + 8))).toNat = _
  rw [app, app, app]
  omega

theorem lanes_and (d c b a d' c' b' a' : BitVec 8) :
    lanes d c b a &&& lanes d' c' b' a' = lanes (d &&& d') (c &&& c') (b &&& b') (a &&& a') := by
  unfold lanes
  show (d ++ c ++ b ++ a : BitVec (8 + 8 + 8 + 8)) &&& (d' ++ c' ++ b' ++ a' : BitVec (8 + 8 + 8 + 8)) = _
  rw [← BitVec.and_append, ← BitVec.and_append, ← BitVec.and_append]

theorem lanes_ushr (d c b a : BitVec 8) (k : Nat) (hk : k < 8) :
    (lanes d c b a) >>> k = lanes (d >>> k) ((c >>> k) ||| (d <<< (8 - k))) ((b >>> k) ||| (c <<< (8 - k)))
      ((a >>> k) ||| (b <<< (8 - k))) := by
  apply BitVec.eq_of_getLsbD_eq
  intro i hi
  unfold lanes
  show BitVec.getLsbD ((d ++ c ++ b ++ a : BitVec (8 + 8 + 8 + 8)) >>> k) i = BitVec.getLsbD (_ ++ _ ++ _ ++ _ : BitVec (8 + 8 + 8 + 8)) i
  simp only [BitVec.getLsbD_ushiftRight, BitVec.getLsbD_append, BitVec.getLsbD_or, BitVec.getLsbD_shiftLeft]
  by_cases h1 : i < 8
  · by_cases h2 : k + i < 8
    · have : i < 8 - k := by omega
      simp [h1, h2, this]
    · have h3 : k + i - 8 < 8 := by omega
      have h4 : ¬ i < 8 - k := by omega
      have h5 : a.getLsbD (k + i) = false := BitVec.getLsbD_of_ge _ _ (by omega)
      simp [h1, h2, h3, h4, h5, show i - (8 - k) = k + i - 8 by omega]
  · by_cases h6 : i < 16
    · by_cases h2 : k + i < 16
      · have : i - 8 < 8 - k := by omega
        simp [h1, show ¬ k + i < 8 by omega, show k + i - 8 < 8 by omega, show i - 8 < 8 by omega, this,
          show k + (i - 8) = k + i - 8 by omega]
      · have h4 : ¬ i - 8 < 8 - k := by omega
        have h5 : b.getLsbD (k + (i - 8)) = false := BitVec.getLsbD_of_ge _ _ (by omega)
        simp [h1, show ¬ k + i < 8 by omega, show ¬ k + i - 8 < 8 by omega, show i - 8 < 8 by omega, h4, h5,
          show k + i - 8 - 8 < 8 by omega, show i - 8 - (8 - k) = k + i - 8 - 8 by omega]
    · by_cases h7 : i < 24
      · by_cases h2 : k + i < 24
        · have : i - 8 - 8 < 8 - k := by omega
          simp [h1, show ¬ k + i < 8 by omega, show ¬ k + i - 8 < 8 by omega, show ¬ i - 8 < 8 by omega, this,
            show i - 8 - 8 < 8 by omega, show k + i - 8 - 8 < 8 by omega,
            show k + (i - 8 - 8) = k + i - 8 - 8 by omega]
        · have h4 : ¬ i - 8 - 8 < 8 - k := by omega
          have h5 : c.getLsbD (k + (i - 8 - 8)) = false := BitVec.getLsbD_of_ge _ _ (by omega)
          simp [h1, show ¬ k + i < 8 by omega, show ¬ k + i - 8 < 8 by omega, show ¬ i - 8 < 8 by omega, h4, h5,
            show i - 8 - 8 < 8 by omega, show ¬ k + i - 8 - 8 < 8 by omega,
            show i - 8 - 8 - (8 - k) = k + i - 8 - 8 - 8 by omega]
      · simp [h1, show ¬ k + i < 8 by omega, show ¬ k + i - 8 < 8 by omega, show ¬ i - 8 < 8 by omega,
            show ¬ i - 8 - 8 < 8 by omega, show ¬ k + i - 8 - 8 < 8 by omega,
            show k + (i - 8 - 8 - 8) = k + i - 8 - 8 - 8 by omega]

def s1 (v : BitVec 8) : BitVec 8 := v - ((v >>> 1) &&& 0x55#8)
def s2 (v : BitVec 8) : BitVec 8 := (v &&& 0x33#8) + ((v >>> 2) &&& 0x33#8)
def s3 (v : BitVec 8) : BitVec 8 := (v + (v >>> 4)) &&& 0x0f#8

theorem s1_mask : ∀ (v : BitVec 8), ((v >>> 1) &&& 0x55#8) ≤ v := by decide +kernel
theorem or_and_mask (x y m : BitVec 8) (h : y &&& m = 0#8) : (x ||| y) &&& m = x &&& m := by
  apply BitVec.eq_of_getLsbD_eq
  intro i hi
  have := congrArg (fun t => BitVec.getLsbD t i) h
  simp only [BitVec.getLsbD_and, BitVec.getLsbD_or, BitVec.getLsbD_zero] at this ⊢
  cases hx : x.getLsbD i <;> cases hy : y.getLsbD i <;> cases hm : m.getLsbD i <;> simp_all

theorem s2_le : ∀ v : BitVec 8, (s2 v).toNat = (v &&& 0x33#8).toNat + ((v >>> 2) &&& 0x33#8).toNat := by
  decide +kernel

/-- After the first two steps every nibble is at most 4. -/
theorem s12_nibbles : ∀ v : BitVec 8, (s2 (s1 v)).toNat % 16 ≤ 4 ∧ (s2 (s1 v)).toNat / 16 ≤ 4 := by
  decide +kernel

theorem s123 : ∀ v : BitVec 8, (s3 (s2 (s1 v))).toNat = Bitmap.countOnes v := by decide +kernel

theorem s3_nat (v : BitVec 8) (h1 : v.toNat % 16 ≤ 4) (h2 : v.toNat / 16 ≤ 4) :
    (s3 v).toNat = v.toNat % 16 + v.toNat / 16 := by
  have : ∀ v : BitVec 8, v.toNat % 16 ≤ 4 → v.toNat / 16 ≤ 4 → (s3 v).toNat = v.toNat % 16 + v.toNat / 16 := by
    decide +kernel
  exact this v h1 h2

theorem eq_lanes (x : BitVec 32) : ∃ d c b a, x = lanes d c b a := by
  refine ⟨BitVec.ofNat 8 (x.toNat / 2 ^ 24), BitVec.ofNat 8 (x.toNat / 2 ^ 16), BitVec.ofNat 8 (x.toNat / 2 ^ 8),
    BitVec.ofNat 8 x.toNat, ?_⟩
  apply BitVec.eq_of_toNat_eq
  rw [toNat_lanes]
  simp only [BitVec.toNat_ofNat]
  have := x.isLt
  omega

theorem nib (d c b a D C B A : Nat) (hd : d % 16 ≤ 4 ∧ d / 16 ≤ 4) (hc : c % 16 ≤ 4 ∧ c / 16 ≤ 4)
    (hb : b % 16 ≤ 4 ∧ b / 16 ≤ 4) (ha : a % 16 ≤ 4 ∧ a / 16 ≤ 4) (hD : D < 256) (hC : C < 256) (hB : B < 256)
    (hA : A < 256)
    (h : d * 16777216 + c * 65536 + b * 256 + a + (d * 16777216 + c * 65536 + b * 256 + a) / 16
      = D * 16777216 + C * 65536 + B * 256 + A) :
    D % 16 = d % 16 + d / 16 ∧ C % 16 = c % 16 + c / 16 ∧ B % 16 = b % 16 + b / 16 ∧ A % 16 = a % 16 + a / 16 := by
  have e : (d * 16777216 + c * 65536 + b * 256 + a) / 16 = d * 1048576 + c * 4096 + b * 16 + a / 16 := by omega
  rw [e] at h
  have key : ∀ d1 d0 c1 c0 b1 b0 a1 a0 : Nat, d1 ≤ 4 → d0 ≤ 4 → c1 ≤ 4 → c0 ≤ 4 → b1 ≤ 4 → b0 ≤ 4 → a1 ≤ 4 →
      a0 ≤ 4 →
      (16 * d1 + d0) * 16777216 + (16 * c1 + c0) * 65536 + (16 * b1 + b0) * 256 + (16 * a1 + a0) +
        ((16 * d1 + d0) * 1048576 + (16 * c1 + c0) * 4096 + (16 * b1 + b0) * 16 + a1)
        = D * 16777216 + C * 65536 + B * 256 + A →
      D % 16 = d0 + d1 ∧ C % 16 = c0 + c1 ∧ B % 16 = b0 + b1 ∧ A % 16 = a0 + a1 := by
    clear h e hd hc hb ha
    intro d1 d0 c1 c0 b1 b0 a1 a0 _ _ _ _ _ _ _ _ h
    have hA' : A = (a0 + a1) + 16 * (a1 + b0) := by omega
    have hB' : B = (b0 + b1) + 16 * (b1 + c0) := by omega
    have hC' : C = (c0 + c1) + 16 * (c1 + d0) := by omega
    have hD' : D = (d0 + d1) + 16 * d1 := by omega
    omega
  have := key (d / 16) (d % 16) (c / 16) (c % 16) (b / 16) (b % 16) (a / 16) (a % 16) hd.2 hd.1 hc.2 hc.1 hb.2 hb.1
    ha.2 ha.1 (by rw [Nat.div_add_mod, Nat.div_add_mod, Nat.div_add_mod, Nat.div_add_mod]; exact h)
  exact this

theorem mul_lanes (d c b a : Nat) (hd : d ≤ 8) (hc : c ≤ 8) (hb : b ≤ 8) (ha : a ≤ 8) :
    (d * 2 ^ 24 + c * 2 ^ 16 + b * 2 ^ 8 + a) * (16843009 % 2 ^ 32) % 2 ^ 32 / 2 ^ 24 = d + c + b + a := by
  have e : (d * 2 ^ 24 + c * 2 ^ 16 + b * 2 ^ 8 + a) * (16843009 % 2 ^ 32) =
      (a + 256 * (a + b) + 65536 * (a + b + c)) + 16777216 * (d + c + b + a)
        + 4294967296 * (b + c + d + 256 * (c + d) + 65536 * d) := by omega
  rw [e]
  rw [show (4294967296 : Nat) = 2 ^ 32 from rfl, Nat.add_mul_mod_self_left, Nat.mod_eq_of_lt (by omega),
    show (16777216 : Nat) = 2 ^ 24 from rfl, Nat.add_mul_div_left _ _ (by decide), Nat.div_eq_of_lt (by omega)]
  omega

theorem hammingWeight_lanes (d c b a : BitVec 8) :
    ∃ w, hammingWeight (lanes d c b a) = .ok w ∧
      w.toNat = Bitmap.countOnes d + Bitmap.countOnes c + Bitmap.countOnes b + Bitmap.countOnes a := by
  have hm5 : (0x55555555#32) = lanes 0x55#8 0x55#8 0x55#8 0x55#8 := rfl
  have hm3 : (0x33333333#32) = lanes 0x33#8 0x33#8 0x33#8 0x33#8 := rfl
  have hmf : (0x0f0f0f0f#32) = lanes 0x0f#8 0x0f#8 0x0f#8 0x0f#8 := rfl
  have hi1 : ∀ v : BitVec 8, (v <<< (8 - 1)) &&& 0x55#8 = 0#8 := by decide +kernel
  have hi2 : ∀ v : BitVec 8, (v <<< (8 - 2)) &&& 0x33#8 = 0#8 := by decide +kernel
  -- step 1
  have e1 : (lanes d c b a >>> 1) &&& 0x55555555#32 =
      lanes ((d >>> 1) &&& 0x55#8) ((c >>> 1) &&& 0x55#8) ((b >>> 1) &&& 0x55#8) ((a >>> 1) &&& 0x55#8) := by
    rw [lanes_ushr _ _ _ _ 1 (by decide), hm5, lanes_and, or_and_mask _ _ _ (hi1 d), or_and_mask _ _ _ (hi1 c),
      or_and_mask _ _ _ (hi1 b)]
  have ms : ∀ v : BitVec 8, ((v >>> 1) &&& 0x55#8).toNat ≤ v.toNat := fun v => s1_mask v
  have s1n : ∀ v : BitVec 8, (s1 v).toNat = v.toNat - ((v >>> 1) &&& 0x55#8).toNat := by
    intro v; unfold s1; rw [BitVec.toNat_sub_of_le (s1_mask v)]
  have st1 : subU32 (lanes d c b a) ((lanes d c b a >>> 1) &&& 0x55555555#32)
      = .ok (lanes (s1 d) (s1 c) (s1 b) (s1 a)) := by
    have hle : ((lanes d c b a >>> 1) &&& 0x55555555#32) ≤ lanes d c b a := by
      rw [e1, BitVec.le_def, toNat_lanes, toNat_lanes]
      have h1 := ms d; have h2 := ms c; have h3 := ms b; have h4 := ms a
      omega
    unfold subU32
    rw [if_pos hle]
    congr 1
    apply BitVec.eq_of_toNat_eq
    rw [BitVec.toNat_sub_of_le hle, e1, toNat_lanes, toNat_lanes, toNat_lanes, s1n, s1n, s1n, s1n]
    have h1 := ms d; have h2 := ms c; have h3 := ms b; have h4 := ms a
    omega
  -- step 2
  have e2 : ∀ d c b a : BitVec 8, (lanes d c b a >>> 2) &&& 0x33333333#32 =
      lanes ((d >>> 2) &&& 0x33#8) ((c >>> 2) &&& 0x33#8) ((b >>> 2) &&& 0x33#8) ((a >>> 2) &&& 0x33#8) := by
    intro d c b a
    rw [lanes_ushr _ _ _ _ 2 (by decide), hm3, lanes_and, or_and_mask _ _ _ (hi2 d), or_and_mask _ _ _ (hi2 c),
      or_and_mask _ _ _ (hi2 b)]
  have st2 : ∀ d c b a : BitVec 8,
      addU32 (lanes d c b a &&& 0x33333333#32) ((lanes d c b a >>> 2) &&& 0x33333333#32)
        = .ok (lanes (s2 d) (s2 c) (s2 b) (s2 a)) := by
    intro d c b a
    have hsum : (lanes d c b a &&& 0x33333333#32).toNat + ((lanes d c b a >>> 2) &&& 0x33333333#32).toNat
        = (lanes (s2 d) (s2 c) (s2 b) (s2 a)).toNat := by
      rw [e2, hm3, lanes_and, toNat_lanes, toNat_lanes, toNat_lanes, s2_le, s2_le, s2_le, s2_le]
      omega
    unfold addU32
    rw [if_pos (by rw [hsum]; exact (lanes (s2 d) (s2 c) (s2 b) (s2 a)).isLt)]
    congr 1
    apply BitVec.eq_of_toNat_eq
    rw [BitVec.toNat_add_of_lt (by rw [hsum]; exact (lanes (s2 d) (s2 c) (s2 b) (s2 a)).isLt), hsum]
  -- step 3
  have st3 : ∀ d c b a : BitVec 8, (d.toNat % 16 ≤ 4 ∧ d.toNat / 16 ≤ 4) → (c.toNat % 16 ≤ 4 ∧ c.toNat / 16 ≤ 4) →
      (b.toNat % 16 ≤ 4 ∧ b.toNat / 16 ≤ 4) → (a.toNat % 16 ≤ 4 ∧ a.toNat / 16 ≤ 4) →
      ∃ y, addU32 (lanes d c b a) (lanes d c b a >>> 4) = .ok y ∧
        y &&& 0x0f0f0f0f#32 = lanes (s3 d) (s3 c) (s3 b) (s3 a) := by
    intro d c b a hd hc hb ha
    have hshift : (lanes d c b a >>> 4).toNat = (lanes d c b a).toNat / 16 := by
      rw [BitVec.toNat_ushiftRight, Nat.shiftRight_eq_div_pow]
    have hsum : (lanes d c b a).toNat + (lanes d c b a >>> 4).toNat < 2 ^ 32 := by
      rw [hshift, toNat_lanes]
      have := d.isLt; have := c.isLt; have := b.isLt; have := a.isLt
      omega
    refine ⟨_, by unfold addU32; rw [if_pos hsum], ?_⟩
    -- the sum has lanes u with u % 16 = nibble sum
    obtain ⟨d', c', b', a', h⟩ := eq_lanes (lanes d c b a + lanes d c b a >>> 4)
    rw [h, hmf, lanes_and]
    have hn := congrArg BitVec.toNat h
    rw [BitVec.toNat_add_of_lt hsum, hshift, toNat_lanes, toNat_lanes] at hn
    have nb := nib d.toNat c.toNat b.toNat a.toNat d'.toNat c'.toNat b'.toNat a'.toNat hd hc hb ha d'.isLt c'.isLt
      b'.isLt a'.isLt (by simpa using hn)
    have hm : ∀ v : BitVec 8, (v &&& 0x0f#8).toNat = v.toNat % 16 := by decide +kernel
    have fin : ∀ v v' : BitVec 8, v.toNat % 16 ≤ 4 → v.toNat / 16 ≤ 4 →
        v'.toNat % 16 = v.toNat % 16 + v.toNat / 16 → v' &&& 0x0f#8 = s3 v := by
      intro v v' h1 h2 h3
      apply BitVec.eq_of_toNat_eq
      rw [hm, s3_nat v h1 h2, h3]
    rw [fin d d' hd.1 hd.2 nb.1, fin c c' hc.1 hc.2 nb.2.1,
      fin b b' hb.1 hb.2 nb.2.2.1, fin a a' ha.1 ha.2 nb.2.2.2]
  obtain ⟨y, hy1, hy2⟩ := st3 _ _ _ _ (s12_nibbles d) (s12_nibbles c) (s12_nibbles b) (s12_nibbles a)
  refine ⟨(lanes (s3 (s2 (s1 d))) (s3 (s2 (s1 c))) (s3 (s2 (s1 b))) (s3 (s2 (s1 a))) * 0x01010101#32) >>> 24, ?_, ?_⟩
  · simp only [hammingWeight]
    rw [st1]
    simp only [Res.ok_bind]
    rw [st2]
    simp only [Res.ok_bind]
    rw [hy1]
    simp only [Res.ok_bind]
    rw [hy2]
  · rw [BitVec.toNat_ushiftRight, Nat.shiftRight_eq_div_pow, BitVec.toNat_mul, toNat_lanes, s123, s123, s123, s123]
    have hle : ∀ v : BitVec 8, Bitmap.countOnes v ≤ 8 := by decide +kernel
    have h1 := hle d; have h2 := hle c; have h3 := hle b; have h4 := hle a
    simp only [BitVec.toNat_ofNat]
    exact mul_lanes _ _ _ _ h1 h2 h3 h4

end ID
end Nargun
