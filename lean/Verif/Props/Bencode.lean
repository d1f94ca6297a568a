import Verif.Lemmas.Bencode
import Verif.Spec.Bencode
import Verif.Spec.Ascii

/-! # C62: bencode is decoded canonically -/

set_option linter.unusedSimpArgs false

namespace Nargun

open Spec

theorem bytesLt_iff (a b : Bytes) : bytesLt a b = true ↔ RawLt a b := by
  induction a generalizing b with
  | nil =>
    cases b with
    | nil =>
      simp only [bytesLt, Bool.false_eq_true, false_iff]
      rintro ⟨c, ⟨x, xs, _, h⟩ | ⟨x, y, xs, ys, h, _⟩⟩
      · simp at h
      · simp at h
    | cons y ys =>
      simp only [bytesLt, true_iff]
      exact ⟨[], .inl ⟨y, ys, rfl, rfl⟩⟩
  | cons x xs ih =>
    cases b with
    | nil =>
      simp only [bytesLt, Bool.false_eq_true, false_iff]
      rintro ⟨c, ⟨x, xs, _, h⟩ | ⟨x, y, xs, ys, _, h, _⟩⟩
      · simp at h
      · simp at h
    | cons y ys =>
      simp only [bytesLt, Bool.or_eq_true, Bool.and_eq_true, decide_eq_true_eq, ih]
      constructor
      · rintro (h | ⟨rfl, c, h⟩)
        · exact ⟨[], .inr ⟨x, y, xs, ys, rfl, rfl, h⟩⟩
        · refine ⟨x :: c, ?_⟩
          rcases h with ⟨u, us, h1, h2⟩ | ⟨u, v, us, vs, h1, h2, h3⟩
          · exact .inl ⟨u, us, by rw [h1], by rw [h2]; rfl⟩
          · exact .inr ⟨u, v, us, vs, by rw [h1]; rfl, by rw [h2]; rfl, h3⟩
      · rintro ⟨c, h⟩
        cases c with
        | nil =>
          rcases h with ⟨u, us, h1, h2⟩ | ⟨u, v, us, vs, h1, h2, h3⟩
          · simp at h1
          · simp only [List.nil_append, List.cons.injEq] at h1 h2
            rw [h1.1, h2.1]; exact .inl h3
        | cons w ws =>
          right
          rcases h with ⟨u, us, h1, h2⟩ | ⟨u, v, us, vs, h1, h2, h3⟩
          · simp only [List.cons_append, List.cons.injEq] at h1 h2
            exact ⟨h1.1.trans h2.1.symm, ws, .inl ⟨u, us, h1.2, h2.2⟩⟩
          · simp only [List.cons_append, List.cons.injEq] at h1 h2
            exact ⟨h1.1.trans h2.1.symm, ws, .inr ⟨u, v, us, vs, h1.2, h2.2, h3⟩⟩

theorem bytesLt_trans (a b c : Bytes) (h1 : bytesLt a b = true) (h2 : bytesLt b c = true) : bytesLt a c = true := by
  induction a generalizing b c with
  | nil =>
    cases c with
    | nil => cases b <;> simp [bytesLt] at h2
    | cons z zs => rfl
  | cons x xs ih =>
    cases b with
    | nil => simp [bytesLt] at h1
    | cons y ys =>
      cases c with
      | nil => simp [bytesLt] at h2
      | cons z zs =>
        simp only [bytesLt, Bool.or_eq_true, Bool.and_eq_true, decide_eq_true_eq] at h1 h2 ⊢
        rcases h1 with h1 | ⟨rfl, h1⟩
        · rcases h2 with h2 | ⟨rfl, h2⟩
          · left; omega
          · exact .inl h1
        · rcases h2 with h2 | ⟨rfl, h2⟩
          · exact .inl h2
          · exact .inr ⟨rfl, ih _ _ h1 h2⟩

theorem bencodeStr_cons (s : Bytes) : ∃ b bs, bencodeStr s = b :: bs ∧ isDigit b = true := by
  obtain ⟨b, bs, h, hd⟩ := decimal_cons s.length
  exact ⟨b, bs ++ 0x3a#8 :: s, by unfold bencodeStr; rw [h]; rfl, hd⟩

theorem bencode_cons (v : BVal) : ∃ b bs, bencode v = b :: bs ∧ b ≠ 0x65#8 := by
  cases v with
  | int n => exact ⟨_, _, rfl, by decide⟩
  | str s =>
    obtain ⟨b, bs, h, hd⟩ := bencodeStr_cons s
    exact ⟨b, bs, by rw [bencode]; exact h, isDigit_ne _ _ hd (by decide)⟩
  | list l => exact ⟨_, _, rfl, by decide⟩
  | dict l => exact ⟨_, _, rfl, by decide⟩

theorem bencodeItems_pos (l : List BVal) : 0 < (bencodeItems l).length := by
  cases l with
  | nil => simp [bencodeItems]
  | cons v vs =>
    obtain ⟨b, bs, h, _⟩ := bencode_cons v
    simp [bencodeItems, h]

theorem bencodePairs_pos (l : List (Bytes × BVal)) : 0 < (bencodePairs l).length := by
  cases l with
  | nil => simp [bencodePairs]
  | cons v vs =>
    obtain ⟨b, bs, h, _⟩ := bencodeStr_cons v.1
    obtain ⟨k, v⟩ := v
    simp only at h
    simp [bencodePairs, h]

/-- The key list continues after `last` in increasing order. -/
def Follows (last : Option Bytes) (l : List (Bytes × BVal)) : Prop :=
  match l with
  | [] => True
  | (k, _) :: ps => keyFollows last k = true ∧ Follows (some k) ps

theorem follows_of_pairwise (last : Option Bytes) (l : List (Bytes × BVal)) (h : (l.map (·.1)).Pairwise RawLt)
    (hl : ∀ k ∈ l.map (·.1), keyFollows last k = true) : Follows last l := by
  induction l generalizing last with
  | nil => trivial
  | cons p ps ih =>
    obtain ⟨k, v⟩ := p
    simp only [List.map_cons, List.pairwise_cons] at h
    refine ⟨hl k (by simp), ih (some k) h.2 ?_⟩
    intro k' hk'
    exact (bytesLt_iff _ _).mpr (h.1 k' hk')

theorem pairwise_of_follows (last : Option Bytes) (l : List (Bytes × BVal)) (h : Follows last l) :
    (l.map (·.1)).Pairwise RawLt ∧ ∀ k ∈ l.map (·.1), keyFollows last k = true := by
  induction l generalizing last with
  | nil => exact ⟨.nil, by simp⟩
  | cons p ps ih =>
    obtain ⟨k, v⟩ := p
    obtain ⟨h1, h2⟩ := h
    obtain ⟨i1, i2⟩ := ih (some k) h2
    constructor
    · rw [List.map_cons, List.pairwise_cons]
      exact ⟨fun k' hk' => (bytesLt_iff _ _).mp (i2 k' hk'), i1⟩
    · intro k' hk'
      rw [List.map_cons, List.mem_cons] at hk'
      rcases hk' with rfl | hk'
      · exact h1
      · cases last with
        | none => rfl
        | some l => exact bytesLt_trans _ _ _ h1 (i2 k' hk')

mutual

theorem parseVal_roundtrip (v : BVal) (d : Nat) (hc : Canonical d v) (f : Nat) (hf : (bencode v).length ≤ f)
    (rest : Bytes) : parseVal f d (bencode v ++ rest) = .ok (v, rest) := by
  have hpos : 0 < (bencode v).length := by
    obtain ⟨b, bs, h, _⟩ := bencode_cons v
    rw [h]; simp
  obtain ⟨f, rfl⟩ : ∃ g, f = g + 1 := ⟨f - 1, by omega⟩
  cases v with
  | int n =>
    simp only [bencode, List.cons_append, List.append_assoc, List.nil_append, parseVal]
    rw [if_pos trivial, takeInt_roundtrip]; rfl
  | str s =>
    obtain ⟨b, bs, h, hd⟩ := bencodeStr_cons s
    have hs : s.length < 2 ^ 64 := by simpa [Canonical] using hc
    have ht := takeStr_roundtrip s rest hs
    rw [bencode]
    rw [h] at ht ⊢
    simp only [List.cons_append, parseVal] at ht ⊢
    rw [if_neg (isDigit_ne _ _ hd (by decide)), if_neg (isDigit_ne _ _ hd (by decide)),
      if_neg (isDigit_ne _ _ hd (by decide)), ht]
    rfl
  | list l =>
    cases d with
    | zero => simp [Canonical] at hc
    | succ d =>
      simp only [Canonical] at hc
      simp only [bencode, List.length_cons] at hf
      have := parseItems_roundtrip l d hc f (by omega) rest
      simp only [bencode, List.cons_append, parseVal]
      rw [if_neg (by decide), if_pos trivial, this]; rfl
  | dict l =>
    cases d with
    | zero => simp [Canonical] at hc
    | succ d =>
      simp only [Canonical] at hc
      simp only [bencode, List.length_cons] at hf
      have := parsePairs_roundtrip l d none hc.1 (follows_of_pairwise none l hc.2 (fun _ _ => rfl)) f (by omega) rest
      simp only [bencode, List.cons_append, parseVal]
      rw [if_neg (by decide), if_neg (by decide), if_pos trivial, this]; rfl
termination_by sizeOf v

theorem parseItems_roundtrip (l : List BVal) (d : Nat) (hc : CanonicalItems d l) (f : Nat)
    (hf : (bencodeItems l).length ≤ f) (rest : Bytes) :
    parseItems f d (bencodeItems l ++ rest) = .ok (l, rest) := by
  have hpos := bencodeItems_pos l
  obtain ⟨f, rfl⟩ : ∃ g, f = g + 1 := ⟨f - 1, by omega⟩
  cases l with
  | nil => simp [bencodeItems, parseItems]
  | cons v vs =>
    simp only [CanonicalItems] at hc
    obtain ⟨b, bs, h, hne⟩ := bencode_cons v
    have hl : (bencode v).length = bs.length + 1 := by rw [h]; rfl
    have hp := bencodeItems_pos vs
    simp only [bencodeItems, List.length_append] at hf
    have h1 := parseVal_roundtrip v d hc.1 f (by omega) (bencodeItems vs ++ rest)
    have h2 := parseItems_roundtrip vs d hc.2 f (by omega) rest
    rw [bencodeItems, List.append_assoc]
    rw [h] at h1 ⊢
    simp only [List.cons_append, parseItems] at h1 ⊢
    rw [if_neg hne, h1]
    simp only [Res.ok_bind]
    rw [h2]; rfl
termination_by sizeOf l

theorem parsePairs_roundtrip (l : List (Bytes × BVal)) (d : Nat) (last : Option Bytes) (hc : CanonicalPairs d l)
    (hl : Follows last l) (f : Nat) (hf : (bencodePairs l).length ≤ f) (rest : Bytes) :
    parsePairs f d last (bencodePairs l ++ rest) = .ok (l, rest) := by
  have hpos := bencodePairs_pos l
  obtain ⟨f, rfl⟩ : ∃ g, f = g + 1 := ⟨f - 1, by omega⟩
  cases l with
  | nil => simp [bencodePairs, parsePairs]
  | cons p ps =>
    cases p with | mk k v => ?_
    simp only [CanonicalPairs] at hc
    obtain ⟨b, bs, h, hd⟩ := bencodeStr_cons k
    have hlen : (bencodeStr k).length = bs.length + 1 := by rw [h]; rfl
    have hp := bencodePairs_pos ps
    simp only [bencodePairs, List.length_append] at hf
    have h0 := takeStr_roundtrip k (bencode v ++ bencodePairs ps ++ rest) hc.1
    have h1 := parseVal_roundtrip v d hc.2.1 f (by omega) (bencodePairs ps ++ rest)
    have h2 := parsePairs_roundtrip ps d (some k) hc.2.2 hl.2 f (by omega) rest
    rw [bencodePairs, List.append_assoc]
    rw [h] at h0 ⊢
    simp only [List.cons_append, parsePairs] at h0 ⊢
    rw [if_neg (isDigit_ne _ _ hd (by decide)), h0]
    simp only [Res.ok_bind]
    rw [if_pos hl.1, List.append_assoc, h1]
    simp only [Res.ok_bind]
    rw [h2]; rfl
termination_by sizeOf l

end

theorem parse_inverse (f : Nat) :
    (∀ d bs v rest, parseVal f d bs = .ok (v, rest) → bs = bencode v ++ rest ∧ Canonical d v) ∧
    (∀ d bs l rest, parseItems f d bs = .ok (l, rest) → bs = bencodeItems l ++ rest ∧ CanonicalItems d l) ∧
    (∀ d last bs l rest, parsePairs f d last bs = .ok (l, rest) →
      bs = bencodePairs l ++ rest ∧ CanonicalPairs d l ∧ Follows last l) := by
  induction f with
  | zero =>
    refine ⟨?_, ?_, ?_⟩
    · intro d bs v rest h; simp [parseVal] at h
    · intro d bs v rest h; simp [parseItems] at h
    · intro d last bs v rest h; simp [parsePairs] at h
  | succ f ih =>
    obtain ⟨ih1, ih2, ih3⟩ := ih
    refine ⟨?_, ?_, ?_⟩
    · intro d bs v rest h
      cases bs with
      | nil => simp [parseVal] at h
      | cons b bs =>
        simp only [parseVal] at h
        by_cases h1 : b = 0x69#8
        · rw [if_pos h1] at h
          obtain ⟨⟨n, r⟩, h2, h3⟩ := Res.bind_eq_ok.mp h
          cases h3
          rw [takeInt_inverse _ _ _ h2, h1]
          simp [bencode, Canonical]
        rw [if_neg h1] at h
        by_cases h2 : b = 0x6c#8
        · rw [if_pos h2] at h
          cases d with
          | zero => cases h
          | succ d =>
            obtain ⟨⟨l, r⟩, h3, h4⟩ := Res.bind_eq_ok.mp h
            cases h4
            obtain ⟨e1, e2⟩ := ih2 _ _ _ _ h3
            rw [e1, h2]
            simp [bencode, Canonical, e2]
        rw [if_neg h2] at h
        by_cases h3 : b = 0x64#8
        · rw [if_pos h3] at h
          cases d with
          | zero => cases h
          | succ d =>
            obtain ⟨⟨l, r⟩, h4, h5⟩ := Res.bind_eq_ok.mp h
            cases h5
            obtain ⟨e1, e2, e3⟩ := ih3 _ _ _ _ _ h4
            rw [e1, h3]
            simp only [bencode, Canonical, List.cons_append, true_and]
            exact ⟨e2, (pairwise_of_follows _ _ e3).1⟩
        rw [if_neg h3] at h
        obtain ⟨⟨s, r⟩, h4, h5⟩ := Res.bind_eq_ok.mp h
        cases h5
        obtain ⟨e1, e2⟩ := takeStr_inverse _ _ _ h4
        refine ⟨by rw [e1, bencode], ?_⟩
        cases d <;> simpa [Canonical] using e2
    · intro d bs l rest h
      cases bs with
      | nil => simp [parseItems] at h
      | cons b bs =>
        simp only [parseItems] at h
        by_cases h1 : b = 0x65#8
        · rw [if_pos h1] at h
          cases h
          exact ⟨by rw [h1]; simp [bencodeItems], by simp [CanonicalItems]⟩
        rw [if_neg h1] at h
        obtain ⟨⟨v, r⟩, h2, h3⟩ := Res.bind_eq_ok.mp h
        obtain ⟨⟨vs, r'⟩, h4, h5⟩ := Res.bind_eq_ok.mp h3
        cases h5
        obtain ⟨e1, e2⟩ := ih1 _ _ _ _ h2
        obtain ⟨e3, e4⟩ := ih2 _ _ _ _ h4
        refine ⟨by rw [e1, bencodeItems, List.append_assoc]; simp only at e3; rw [e3], ?_⟩
        simp only [CanonicalItems]
        exact ⟨e2, e4⟩
    · intro d last bs l rest h
      cases bs with
      | nil => simp [parsePairs] at h
      | cons b bs =>
        simp only [parsePairs] at h
        by_cases h1 : b = 0x65#8
        · rw [if_pos h1] at h
          cases h
          exact ⟨by rw [h1]; simp [bencodePairs], by simp [CanonicalPairs], trivial⟩
        rw [if_neg h1] at h
        obtain ⟨⟨k, r⟩, h2, h3⟩ := Res.bind_eq_ok.mp h
        simp only at h3
        by_cases hk : keyFollows last k = true
        · rw [if_pos hk] at h3
          obtain ⟨⟨v, r'⟩, h4, h5⟩ := Res.bind_eq_ok.mp h3
          obtain ⟨⟨ps, r''⟩, h6, h7⟩ := Res.bind_eq_ok.mp h5
          cases h7
          obtain ⟨e0, e0'⟩ := takeStr_inverse _ _ _ h2
          obtain ⟨e1, e2⟩ := ih1 _ _ _ _ h4
          obtain ⟨e3, e4, e5⟩ := ih3 _ _ _ _ _ h6
          simp only at e1 e3
          refine ⟨by rw [e0, e1, e3, bencodePairs, List.append_assoc, List.append_assoc], ?_, hk, e5⟩
          simp only [CanonicalPairs]
          exact ⟨e0', e2, e4⟩
        · rw [if_neg hk] at h3; cases h3

/-- C62: decoding the encoding of a canonical value, with anything after it, gives the value back and leaves
what follows. -/
theorem C62_decode_encode (depth : Nat) (v : BVal) (hv : Canonical depth v) (rest : Bytes) :
    bdecode depth (bencode v ++ rest) = .ok (v, rest) :=
  parseVal_roundtrip v depth hv _ (by simp) rest

/-- C62: whatever decodes was the canonical encoding of the result; in particular no two different inputs of the
same length decode to the same value, and unsorted or repeated keys, leading zeros, `-0` and over-deep nesting
are refused. -/
theorem C62_decode_canonical (depth : Nat) (bs rest : Bytes) (v : BVal) (h : bdecode depth bs = .ok (v, rest)) :
    bs = bencode v ++ rest ∧ Canonical depth v :=
  (parse_inverse bs.length).1 depth bs v rest h

/-- C62: no value's encoding is a proper prefix of another's, so the end of a value is determined by its bytes. -/
theorem C62_encoding_injective (depth : Nat) (v w : BVal) (hv : Canonical depth v) (hw : Canonical depth w)
    (r s : Bytes) (h : bencode v ++ r = bencode w ++ s) : v = w ∧ r = s := by
  have h1 := C62_decode_encode depth v hv r
  rw [h, C62_decode_encode depth w hw s] at h1
  injection h1 with h1
  injection h1 with h1 h2
  exact ⟨h1.symm, h2.symm⟩

/-- The decoder never panics. -/
theorem C62_no_panic (depth : Nat) (bs : Bytes) : bdecode depth bs ≠ .panic := by
  have hN : ∀ t bs, takeNat t bs ≠ .panic := by
    intro t bs; unfold takeNat; simp only; repeat' split
    all_goals simp
  have hI : ∀ bs, takeInt bs ≠ .panic := by
    intro bs
    cases bs with
    | nil => simp [takeInt]
    | cons b bs =>
      simp only [takeInt]
      split
      · cases h : takeNat 0x65#8 bs with
        | ok x => simp only [Res.ok_bind]; split <;> simp
        | err => simp
        | panic => exact absurd h (hN _ _)
      · cases h : takeNat 0x65#8 (b :: bs) with
        | ok x => simp
        | err => simp
        | panic => exact absurd h (hN _ _)
  have hS : ∀ bs, takeStr bs ≠ .panic := by
    intro bs
    unfold takeStr
    cases h : takeNat 0x3a#8 bs with
    | ok x => simp only [Res.ok_bind]; split <;> simp
    | err => simp
    | panic => exact absurd h (hN _ _)
  have key : ∀ f, (∀ d bs, parseVal f d bs ≠ .panic) ∧ (∀ d bs, parseItems f d bs ≠ .panic) ∧
      ∀ d last bs, parsePairs f d last bs ≠ .panic := by
    intro f
    induction f with
    | zero => simp [parseVal, parseItems, parsePairs]
    | succ f ih =>
      obtain ⟨ih1, ih2, ih3⟩ := ih
      refine ⟨?_, ?_, ?_⟩
      · intro d bs
        cases bs with
        | nil => simp [parseVal]
        | cons b bs =>
          simp only [parseVal]
          split
          · cases h : takeInt bs with
            | ok x => simp
            | err => simp
            | panic => exact absurd h (hI _)
          · split
            · cases d with
              | zero => simp
              | succ d =>
                cases h : parseItems f d bs with
                | ok x => simp [h]
                | err => simp [h]
                | panic => exact absurd h (ih2 _ _)
            · split
              · cases d with
                | zero => simp
                | succ d =>
                  cases h : parsePairs f d none bs with
                  | ok x => simp [h]
                  | err => simp [h]
                  | panic => exact absurd h (ih3 _ _ _)
              · cases h : takeStr (b :: bs) with
                | ok x => simp
                | err => simp
                | panic => exact absurd h (hS _)
      · intro d bs
        cases bs with
        | nil => simp [parseItems]
        | cons b bs =>
          simp only [parseItems]
          split
          · simp
          · cases h : parseVal f d (b :: bs) with
            | ok x =>
              simp only [Res.ok_bind]
              cases h' : parseItems f d x.2 with
              | ok y => simp
              | err => simp
              | panic => exact absurd h' (ih2 _ _)
            | err => simp
            | panic => exact absurd h (ih1 _ _)
      · intro d last bs
        cases bs with
        | nil => simp [parsePairs]
        | cons b bs =>
          simp only [parsePairs]
          split
          · simp
          · cases h : takeStr (b :: bs) with
            | ok x =>
              simp only [Res.ok_bind]
              split
              · cases h' : parseVal f d x.2 with
                | ok y =>
                  simp only [Res.ok_bind]
                  cases h'' : parsePairs f d (some x.1) y.2 with
                  | ok z => simp
                  | err => simp
                  | panic => exact absurd h'' (ih3 _ _ _)
                | err => simp
                | panic => exact absurd h' (ih1 _ _)
              · simp
            | err => simp
            | panic => exact absurd h (hS _)
  exact (key _).1 _ _

/-- A dictionary with a list, a negative number and a string decodes; its keys swapped do not, nor does a number
with a leading zero or a list nested deeper than allowed. -/
example : (bdecode 2 (ascii "d1:ali-12eei1ee3:xyz") matches .err) ∧
    bencode (.dict [(ascii "a", .list [.int (-12), .str (ascii "hi")]), (ascii "b", .int 0)]) =
      ascii "d1:ali-12e2:hie1:bi0ee" ∧
    Canonical 2 (.dict [(ascii "a", .list [.int (-12), .str (ascii "hi")]), (ascii "b", .int 0)]) ∧
    (bdecode 2 (ascii "d1:bi0e1:ai0ee") matches .err) ∧ (bdecode 2 (ascii "i012e") matches .err) ∧
    (bdecode 2 (ascii "llli1eeee") matches .err) ∧ (bdecode 3 (ascii "llli1eeee") matches .ok _) := by
  refine ⟨by decide +kernel, by decide +kernel, ?_, by decide +kernel, by decide +kernel, by decide +kernel, by decide +kernel⟩
  simp only [Canonical, CanonicalPairs, CanonicalItems]
  refine ⟨⟨by decide, ⟨trivial, by decide, trivial⟩, by decide, trivial, trivial⟩, ?_⟩
  simp only [List.map_cons, List.map_nil, List.pairwise_cons, List.mem_singleton, forall_eq, List.not_mem_nil,
    false_imp_iff, implies_true, List.Pairwise.nil, and_true]
  exact (bytesLt_iff _ _).mp (by decide)

end Nargun
