import Verif.Spec.TrackerResponse
import Verif.Props.Bencode
import Verif.Lemmas.Addr

/-! # C49: tracker responses -/

set_option linter.unusedSimpArgs false

namespace Nargun

open Spec

/-! ## The compact peer string -/

theorem chunksExact_spec {α} (k : Nat) (hk : 0 < k) (fuel : Nat) (bs : List α) (hf : bs.length ≤ fuel) :
    (chunksExact k fuel bs).length = bs.length / k ∧
    ∀ i (h : i < (chunksExact k fuel bs).length), (chunksExact k fuel bs)[i] = (bs.drop (k * i)).take k := by
  induction fuel generalizing bs with
  | zero =>
    have : bs = [] := List.length_eq_zero_iff.mp (by omega)
    subst this
    simp [chunksExact]
  | succ f ih =>
    unfold chunksExact
    by_cases hc : bs.length < k
    · simp only [hc, if_true]
      exact ⟨by rw [Nat.div_eq_of_lt hc]; rfl, by simp⟩
    · simp only [hc, if_false]
      obtain ⟨h1, h2⟩ := ih (bs.drop k) (by rw [List.length_drop]; omega)
      constructor
      · have hd := Nat.div_eq_sub_div hk (Nat.le_of_not_lt hc)
        rw [List.length_cons, h1, List.length_drop, hd]
      · intro i h
        cases i with
        | zero => simp
        | succ i =>
          simp only [List.getElem_cons_succ]
          rw [h2, List.drop_drop, Nat.mul_succ, Nat.add_comm]

theorem compact_port (hi lo : Byte) :
    ((hi.setWidth 16 <<< 8) ||| lo.setWidth 16 : U16).toNat = 256 * hi.toNat + lo.toNat := by
  have hx := hi.isLt; have hy := lo.isLt
  simp only [BitVec.toNat_or, BitVec.toNat_shiftLeft, BitVec.toNat_setWidth, Nat.shiftLeft_eq]
  rw [Nat.mod_eq_of_lt (show hi.toNat < 2 ^ 16 by omega), Nat.mod_eq_of_lt (show lo.toNat < 2 ^ 16 by omega),
    Nat.mod_eq_of_lt (by omega), Nat.mul_comm, ← Nat.two_pow_add_eq_or_of_lt hy]

theorem groups_of_six {bs : Bytes} {i : Nat} (h : i < bs.length / 6) :
    ∃ a b c d hi lo, (bs.drop (6 * i)).take 6 = [a, b, c, d, hi, lo] := by
  have hl : ((bs.drop (6 * i)).take 6).length = 6 := by
    rw [List.length_take, List.length_drop]; omega
  match (bs.drop (6 * i)).take 6, hl with
  | [a, b, c, d, hi, lo], _ => exact ⟨a, b, c, d, hi, lo, rfl⟩

theorem peersOf_spec (bs : Bytes) : IsPeers bs (peersOf bs) := by
  obtain ⟨h1, h2⟩ := chunksExact_spec 6 (by omega) bs.length bs (Nat.le_refl _)
  have hmap : ∀ cs : List Bytes, (∀ c ∈ cs, c.length = 6) →
      (cs.filterMap fun c => match sockAddrFromCompact c with
        | .ok a => some (⟨a⟩ : Peer)
        | _ => none).length = cs.length ∧
      ∀ i (h : i < (cs.filterMap fun c => match sockAddrFromCompact c with
          | .ok a => some (⟨a⟩ : Peer)
          | _ => none).length) (h' : i < cs.length),
        ∃ a, sockAddrFromCompact cs[i] = .ok a ∧ (cs.filterMap fun c => match sockAddrFromCompact c with
          | .ok a => some (⟨a⟩ : Peer)
          | _ => none)[i] = ⟨a⟩ := by
    intro cs
    induction cs with
    | nil => simp
    | cons c cs ih =>
      intro hc
      obtain ⟨a, ha, _⟩ := sockAddr_inverse c (hc c (by simp))
      obtain ⟨i1, i2⟩ := ih (fun c h => hc c (by simp [h]))
      rw [List.filterMap_cons_some (b := ⟨a⟩) (by simp only [ha])]
      refine ⟨by simp only [List.length_cons, i1], ?_⟩
      intro i h h'
      cases i with
      | zero => exact ⟨a, ha, rfl⟩
      | succ i =>
        simp only [List.getElem_cons_succ]
        exact i2 i (by simpa using h) (by simpa using h')
  have hall : ∀ c ∈ chunksExact 6 bs.length bs, c.length = 6 := by
    intro c hc
    obtain ⟨i, hi, rfl⟩ := List.mem_iff_getElem.mp hc
    rw [h2 i hi, List.length_take, List.length_drop]
    omega
  obtain ⟨m1, m2⟩ := hmap _ hall
  refine ⟨?_, ?_⟩
  · exact m1.trans h1
  · intro i h
    have h' : i < (chunksExact 6 bs.length bs).length := by rw [← m1]; exact h
    obtain ⟨sa, hsa, hget⟩ := m2 i h h'
    obtain ⟨a, b, c, d, hi, lo, hg⟩ := groups_of_six (bs := bs) (i := i) (by omega)
    refine ⟨a, b, c, d, hi, lo, hg, ?_⟩
    rw [h2, hg] at hsa
    have : sa = ⟨⟨a, b, c, d⟩, (hi.setWidth 16 <<< 8) ||| lo.setWidth 16⟩ := by
      have hr : sockAddrFromCompact [a, b, c, d, hi, lo] =
          .ok ⟨⟨a, b, c, d⟩, (hi.setWidth 16 <<< 8) ||| lo.setWidth 16⟩ := rfl
      rw [hr] at hsa
      exact (Res.ok.inj hsa).symm
    have hp : (peersOf bs)[i] = ⟨sa⟩ := hget
    rw [hp, this]
    exact ⟨rfl, compact_port hi lo⟩

theorem isPeers_unique (bs : Bytes) (ps qs : List Peer) (hp : IsPeers bs ps) (hq : IsPeers bs qs) : ps = qs := by
  apply List.ext_getElem
  · rw [hp.1, hq.1]
  · intro i h1 h2
    obtain ⟨a, b, c, d, hi, lo, e1, e2, e3⟩ := hp.2 i h1
    obtain ⟨a', b', c', d', hi', lo', f1, f2, f3⟩ := hq.2 i h2
    rw [e1] at f1
    simp only [List.cons.injEq, and_true] at f1
    obtain ⟨rfl, rfl, rfl, rfl, rfl, rfl⟩ := f1
    have hip : ps[i].addr.ip = qs[i].addr.ip := e2.trans f2.symm
    have hport : ps[i].addr.port = qs[i].addr.port := BitVec.eq_of_toNat_eq (e3.trans f3.symm)
    generalize ps[i] = x at hip hport
    generalize qs[i] = y at hip hport
    obtain ⟨⟨_, _⟩⟩ := x
    obtain ⟨⟨_, _⟩⟩ := y
    simp only at hip hport
    rw [hip, hport]

/-! ## The dictionary -/

/-- A local variable after the loop, given the key's value. -/
def FieldRel {α} (dec : BVal → Res α) (o : Option BVal) (x x' : Option α) : Prop :=
  (o = none ∧ x' = x) ∨ ∃ v y, o = some v ∧ dec v = .ok y ∧ x' = some y

theorem fieldRel_none {α} {dec : BVal → Res α} {x x' : Option α} : FieldRel dec none x x' ↔ x' = x := by
  simp [FieldRel]

theorem fieldRel_some {α} {dec : BVal → Res α} {v : BVal} {x x' : Option α} :
    FieldRel dec (some v) x x' ↔ ∃ y, dec v = .ok y ∧ x' = some y := by
  simp [FieldRel]

/-- The local variables after the loop. -/
structure AccRel (utf8 : Bytes → Bool) (pairs : List (Bytes × BVal)) (acc acc' : ResponseAcc) : Prop where
  warning : FieldRel (decodeString utf8) (pairs.lookup (ascii "warning message")) acc.warningMessage acc'.warningMessage
  interval : FieldRel decodeU64 (pairs.lookup (ascii "interval")) acc.interval acc'.interval
  minInterval : FieldRel decodeU64 (pairs.lookup (ascii "min interval")) acc.minInterval acc'.minInterval
  trackerId : FieldRel (decodeString utf8) (pairs.lookup (ascii "tracker id")) acc.trackerId acc'.trackerId
  complete : FieldRel decodeU64 (pairs.lookup (ascii "complete")) acc.complete acc'.complete
  incomplete : FieldRel decodeU64 (pairs.lookup (ascii "incomplete")) acc.incomplete acc'.incomplete
  peers : FieldRel (fun v => do let s ← decodeBytes v; .ok (peersOf s)) (pairs.lookup (ascii "peers")) acc.peers acc'.peers

theorem lookup_not_mem {k : Bytes} {ps : List (Bytes × BVal)} (h : k ∉ ps.map (·.1)) : ps.lookup k = none := by
  induction ps with
  | nil => rfl
  | cons p ps ih =>
    obtain ⟨a, b⟩ := p
    simp only [List.map_cons, List.mem_cons, not_or] at h
    rw [List.lookup_cons, ih h.2]
    have : (k == a) = false := by simp [h.1]
    rw [this]

theorem run_iff (utf8 : Bytes → Bool) (pairs : List (Bytes × BVal)) (hn : (pairs.map (·.1)).Nodup)
    (acc acc' : ResponseAcc) : ResponseAcc.run utf8 acc pairs = .ok acc' ↔ AccRel utf8 pairs acc acc' := by
  induction pairs generalizing acc with
  | nil =>
    simp only [ResponseAcc.run, Res.ok.injEq]
    constructor
    · rintro rfl
      refine ⟨?_, ?_, ?_, ?_, ?_, ?_, ?_⟩ <;> exact .inl ⟨rfl, rfl⟩
    · rintro ⟨h1, h2, h3, h4, h5, h6, h7⟩
      simp only [List.lookup_nil, fieldRel_none] at h1 h2 h3 h4 h5 h6 h7
      obtain ⟨_, _, _, _, _, _, _⟩ := acc
      obtain ⟨_, _, _, _, _, _, _⟩ := acc'
      simp only at h1 h2 h3 h4 h5 h6 h7
      rw [h1, h2, h3, h4, h5, h6, h7]
  | cons kv ps ih =>
    obtain ⟨k, v⟩ := kv
    simp only [List.map_cons, List.nodup_cons] at hn
    have hnone := lookup_not_mem hn.1
    simp only [ResponseAcc.run, Res.bind_eq_ok, ih hn.2]
    by_cases hk1 : k = ascii "warning message"
    · subst hk1
      simp only [ResponseAcc.pair, if_true, Res.bind_eq_ok, Res.ok.injEq]
      constructor
      · rintro ⟨_, ⟨y, hy, rfl⟩, h⟩
        obtain ⟨h1, h2, h3, h4, h5, h6, h7⟩ := h
        rw [hnone, fieldRel_none] at h1
        refine ⟨?_, h2, h3, h4, h5, h6, h7⟩
        rw [List.lookup_cons_self, fieldRel_some]
        exact ⟨y, hy, h1⟩
      · rintro ⟨h1, h2, h3, h4, h5, h6, h7⟩
        rw [List.lookup_cons_self, fieldRel_some] at h1
        obtain ⟨y, hy, hx⟩ := h1
        refine ⟨_, ⟨y, hy, rfl⟩, ?_, h2, h3, h4, h5, h6, h7⟩
        rw [hnone, fieldRel_none]; exact hx
    by_cases hk2 : k = ascii "interval"
    · subst hk2
      simp only [ResponseAcc.pair, hk1, if_true, if_false, Res.bind_eq_ok, Res.ok.injEq]
      constructor
      · rintro ⟨_, ⟨y, hy, rfl⟩, h⟩
        obtain ⟨h1, h2, h3, h4, h5, h6, h7⟩ := h
        rw [hnone, fieldRel_none] at h2
        refine ⟨h1, ?_, h3, h4, h5, h6, h7⟩
        rw [List.lookup_cons_self, fieldRel_some]
        exact ⟨y, hy, h2⟩
      · rintro ⟨h1, h2, h3, h4, h5, h6, h7⟩
        rw [List.lookup_cons_self, fieldRel_some] at h2
        obtain ⟨y, hy, hx⟩ := h2
        refine ⟨_, ⟨y, hy, rfl⟩, h1, ?_, h3, h4, h5, h6, h7⟩
        rw [hnone, fieldRel_none]; exact hx
    by_cases hk3 : k = ascii "min interval"
    · subst hk3
      simp only [ResponseAcc.pair, hk1, hk2, if_true, if_false, Res.bind_eq_ok, Res.ok.injEq]
      constructor
      · rintro ⟨_, ⟨y, hy, rfl⟩, h⟩
        obtain ⟨h1, h2, h3, h4, h5, h6, h7⟩ := h
        rw [hnone, fieldRel_none] at h3
        refine ⟨h1, h2, ?_, h4, h5, h6, h7⟩
        rw [List.lookup_cons_self, fieldRel_some]
        exact ⟨y, hy, h3⟩
      · rintro ⟨h1, h2, h3, h4, h5, h6, h7⟩
        rw [List.lookup_cons_self, fieldRel_some] at h3
        obtain ⟨y, hy, hx⟩ := h3
        refine ⟨_, ⟨y, hy, rfl⟩, h1, h2, ?_, h4, h5, h6, h7⟩
        rw [hnone, fieldRel_none]; exact hx
    by_cases hk4 : k = ascii "tracker id"
    · subst hk4
      simp only [ResponseAcc.pair, hk1, hk2, hk3, if_true, if_false, Res.bind_eq_ok, Res.ok.injEq]
      constructor
      · rintro ⟨_, ⟨y, hy, rfl⟩, h⟩
        obtain ⟨h1, h2, h3, h4, h5, h6, h7⟩ := h
        rw [hnone, fieldRel_none] at h4
        refine ⟨h1, h2, h3, ?_, h5, h6, h7⟩
        rw [List.lookup_cons_self, fieldRel_some]
        exact ⟨y, hy, h4⟩
      · rintro ⟨h1, h2, h3, h4, h5, h6, h7⟩
        rw [List.lookup_cons_self, fieldRel_some] at h4
        obtain ⟨y, hy, hx⟩ := h4
        refine ⟨_, ⟨y, hy, rfl⟩, h1, h2, h3, ?_, h5, h6, h7⟩
        rw [hnone, fieldRel_none]; exact hx
    by_cases hk5 : k = ascii "complete"
    · subst hk5
      simp only [ResponseAcc.pair, hk1, hk2, hk3, hk4, if_true, if_false, Res.bind_eq_ok, Res.ok.injEq]
      constructor
      · rintro ⟨_, ⟨y, hy, rfl⟩, h⟩
        obtain ⟨h1, h2, h3, h4, h5, h6, h7⟩ := h
        rw [hnone, fieldRel_none] at h5
        refine ⟨h1, h2, h3, h4, ?_, h6, h7⟩
        rw [List.lookup_cons_self, fieldRel_some]
        exact ⟨y, hy, h5⟩
      · rintro ⟨h1, h2, h3, h4, h5, h6, h7⟩
        rw [List.lookup_cons_self, fieldRel_some] at h5
        obtain ⟨y, hy, hx⟩ := h5
        refine ⟨_, ⟨y, hy, rfl⟩, h1, h2, h3, h4, ?_, h6, h7⟩
        rw [hnone, fieldRel_none]; exact hx
    by_cases hk6 : k = ascii "incomplete"
    · subst hk6
      simp only [ResponseAcc.pair, hk1, hk2, hk3, hk4, hk5, if_true, if_false, Res.bind_eq_ok, Res.ok.injEq]
      constructor
      · rintro ⟨_, ⟨y, hy, rfl⟩, h⟩
        obtain ⟨h1, h2, h3, h4, h5, h6, h7⟩ := h
        rw [hnone, fieldRel_none] at h6
        refine ⟨h1, h2, h3, h4, h5, ?_, h7⟩
        rw [List.lookup_cons_self, fieldRel_some]
        exact ⟨y, hy, h6⟩
      · rintro ⟨h1, h2, h3, h4, h5, h6, h7⟩
        rw [List.lookup_cons_self, fieldRel_some] at h6
        obtain ⟨y, hy, hx⟩ := h6
        refine ⟨_, ⟨y, hy, rfl⟩, h1, h2, h3, h4, h5, ?_, h7⟩
        rw [hnone, fieldRel_none]; exact hx
    by_cases hk7 : k = ascii "peers"
    · subst hk7
      simp only [ResponseAcc.pair, hk1, hk2, hk3, hk4, hk5, hk6, if_true, if_false, Res.bind_eq_ok, Res.ok.injEq]
      constructor
      · rintro ⟨_, ⟨y, hy, rfl⟩, h⟩
        obtain ⟨h1, h2, h3, h4, h5, h6, h7⟩ := h
        rw [hnone, fieldRel_none] at h7
        refine ⟨h1, h2, h3, h4, h5, h6, ?_⟩
        rw [List.lookup_cons_self, fieldRel_some]
        exact ⟨peersOf y, by simp only [hy, Res.ok_bind], h7⟩
      · rintro ⟨h1, h2, h3, h4, h5, h6, h7⟩
        rw [List.lookup_cons_self, fieldRel_some] at h7
        obtain ⟨y, hy, hx⟩ := h7
        obtain ⟨s, hs, hy⟩ := Res.bind_eq_ok.mp hy
        cases hy
        refine ⟨_, ⟨s, hs, rfl⟩, h1, h2, h3, h4, h5, h6, ?_⟩
        rw [hnone, fieldRel_none]; exact hx
    have hl : ∀ key, k ≠ key → List.lookup key ((k, v) :: ps) = List.lookup key ps := by
      intro key hne
      rw [List.lookup_cons]
      have : (key == k) = false := by simp [Ne.symm hne]
      rw [this]
    simp only [ResponseAcc.pair, hk1, hk2, hk3, hk4, hk5, hk6, hk7, if_false, Res.ok.injEq, exists_eq_left']
    constructor
    · rintro ⟨h1, h2, h3, h4, h5, h6, h7⟩
      exact ⟨by rw [hl _ hk1]; exact h1, by rw [hl _ hk2]; exact h2, by rw [hl _ hk3]; exact h3,
        by rw [hl _ hk4]; exact h4, by rw [hl _ hk5]; exact h5, by rw [hl _ hk6]; exact h6,
        by rw [hl _ hk7]; exact h7⟩
    · rintro ⟨h1, h2, h3, h4, h5, h6, h7⟩
      rw [hl _ hk1] at h1; rw [hl _ hk2] at h2; rw [hl _ hk3] at h3; rw [hl _ hk4] at h4
      rw [hl _ hk5] at h5; rw [hl _ hk6] at h6; rw [hl _ hk7] at h7
      exact ⟨h1, h2, h3, h4, h5, h6, h7⟩

theorem decodeU64_iff (v : BVal) (n : Nat) : decodeU64 v = .ok n ↔ v = .int n ∧ n < 2 ^ 64 := by
  cases v with
  | int i =>
    simp only [decodeU64, BVal.int.injEq]
    constructor
    · intro h
      split at h
      · cases h; rename_i hc; constructor <;> omega
      · cases h
    · rintro ⟨rfl, h⟩
      rw [if_pos (by omega)]; simp
  | _ => simp [decodeU64]

theorem decodeString_iff (utf8 : Bytes → Bool) (v : BVal) (s : Bytes) :
    decodeString utf8 v = .ok s ↔ v = .str s ∧ utf8 s = true := by
  cases v with
  | str t =>
    simp only [decodeString, BVal.str.injEq]
    constructor
    · intro h
      split at h
      · cases h; exact ⟨rfl, by assumption⟩
      · cases h
    · rintro ⟨rfl, h⟩
      rw [if_pos h]
  | _ => simp [decodeString]

theorem keys_nodup {pairs : List (Bytes × BVal)} (h : (pairs.map (·.1)).Pairwise RawLt) :
    (pairs.map (·.1)).Nodup := by
  refine h.imp ?_
  intro a b hab hab'
  subst hab'
  have := (bytesLt_iff a a).mpr hab
  have hirr : ∀ x : Bytes, bytesLt x x = false := by
    intro x
    induction x with
    | nil => rfl
    | cons y ys ih => simp [bytesLt, ih]
  rw [hirr] at this
  cases this

theorem ofBVal_iff (utf8 : Bytes → Bool) (pairs : List (Bytes × BVal)) (hn : (pairs.map (·.1)).Nodup)
    (r : TrackerResponse) : TrackerResponse.ofBVal utf8 (.dict pairs) = .ok r ↔ Means utf8 pairs r := by
  simp only [TrackerResponse.ofBVal, Res.bind_eq_ok, run_iff utf8 pairs hn]
  have hreq : ∀ (o : Option BVal) (x : Option Nat) (n : Nat), FieldRel decodeU64 o none x → Res.ofOption x = .ok n →
      IsNumber o n := by
    intro o x n h1 h2
    rcases h1 with ⟨_, rfl⟩ | ⟨v, y, rfl, hd, rfl⟩
    · cases h2
    · cases h2
      obtain ⟨rfl, h⟩ := (decodeU64_iff _ _).mp hd
      exact ⟨rfl, h⟩
  have hopt : ∀ (o : Option BVal) (x : Option Nat), FieldRel decodeU64 o none x ↔ IsOptNumber o x := by
    intro o x
    constructor
    · rintro (⟨rfl, rfl⟩ | ⟨v, y, rfl, hd, rfl⟩)
      · exact .inl ⟨rfl, rfl⟩
      · obtain ⟨rfl, h⟩ := (decodeU64_iff _ _).mp hd
        exact .inr ⟨y, ⟨rfl, h⟩, rfl⟩
    · rintro (⟨rfl, rfl⟩ | ⟨m, ⟨rfl, h⟩, rfl⟩)
      · exact .inl ⟨rfl, rfl⟩
      · exact .inr ⟨_, m, rfl, (decodeU64_iff _ _).mpr ⟨rfl, h⟩, rfl⟩
  have htext : ∀ (o : Option BVal) (x : Option Bytes), FieldRel (decodeString utf8) o none x ↔ IsOptText utf8 o x := by
    intro o x
    constructor
    · rintro (⟨rfl, rfl⟩ | ⟨v, y, rfl, hd, rfl⟩)
      · exact .inl ⟨rfl, rfl⟩
      · obtain ⟨rfl, h⟩ := (decodeString_iff _ _ _).mp hd
        exact .inr ⟨y, rfl, h, rfl⟩
    · rintro (⟨rfl, rfl⟩ | ⟨t, rfl, h, rfl⟩)
      · exact .inl ⟨rfl, rfl⟩
      · exact .inr ⟨_, t, rfl, (decodeString_iff _ _ _).mpr ⟨rfl, h⟩, rfl⟩
  constructor
  · rintro ⟨acc, ⟨h1, h2, h3, h4, h5, h6, h7⟩, n1, e1, n2, e2, n3, e3, ps, e4, hr⟩
    cases hr
    refine ⟨hreq _ _ _ h2 e1, hreq _ _ _ h5 e2, hreq _ _ _ h6 e3, ?_, (hopt _ _).mp h3, (htext _ _).mp h4,
      (htext _ _).mp h1⟩
    rcases h7 with ⟨_, hx⟩ | ⟨v, y, hv, hd, hx⟩
    · rw [hx] at e4; cases e4
    · rw [hx] at e4; cases e4
      obtain ⟨s, hs, hy⟩ := Res.bind_eq_ok.mp hd
      cases hy
      cases v with
      | str s' => cases hs; exact ⟨s, hv, peersOf_spec s⟩
      | _ => cases hs
  · rintro ⟨h1, h2, h3, ⟨bs, h4, h4'⟩, h5, h6, h7⟩
    have hnum : ∀ (o : Option BVal) (n : Nat), IsNumber o n → FieldRel decodeU64 o none (some n) := by
      rintro o n ⟨rfl, h⟩
      exact .inr ⟨_, n, rfl, (decodeU64_iff _ _).mpr ⟨rfl, h⟩, rfl⟩
    refine ⟨⟨r.warningMessage, some r.interval, r.minInterval, r.trackerId, some r.complete, some r.incomplete,
      some r.peers⟩, ⟨(htext _ _).mpr h7, hnum _ _ h1, (hopt _ _).mpr h5, (htext _ _).mpr h6, hnum _ _ h2, hnum _ _ h3,
      ?_⟩, r.interval, rfl, r.complete, rfl, r.incomplete, rfl, r.peers, rfl, rfl⟩
    refine .inr ⟨_, peersOf bs, h4, rfl, ?_⟩
    rw [isPeers_unique bs _ _ h4' (peersOf_spec bs)]

/-- C49: the body of an answer is understood iff it starts with a bencoded dictionary (nested at most 2048 deep)
that has the numbers `interval`, `complete`, `incomplete` and the string `peers`; what is returned is what these
and the optional keys say, the peers being the consecutive 6-byte groups. Other keys, and bytes after the
dictionary, do not matter. -/
theorem C49_decode_response (utf8 : Bytes → Bool) (body : Bytes) (r : TrackerResponse) :
    decodeTrackerBody utf8 body = .ok r ↔
      ∃ pairs rest, body = bencode (.dict pairs) ++ rest ∧ Canonical 2048 (.dict pairs) ∧ Means utf8 pairs r := by
  unfold decodeTrackerBody
  constructor
  · intro h
    obtain ⟨⟨v, rest⟩, h1, h2⟩ := Res.bind_eq_ok.mp h
    obtain ⟨hb, hc⟩ := C62_decode_canonical _ _ _ _ h1
    cases v with
    | dict pairs =>
      have hc' := hc
      simp only [BENDY_DEFAULT_DEPTH, Canonical] at hc'
      exact ⟨pairs, rest, hb, hc, (ofBVal_iff utf8 pairs (keys_nodup hc'.2) r).mp h2⟩
    | _ => cases h2
  · rintro ⟨pairs, rest, rfl, hc, hm⟩
    have hc' := hc
    simp only [Canonical] at hc'
    rw [show BENDY_DEFAULT_DEPTH = 2048 from rfl, C62_decode_encode _ _ hc]
    exact (ofBVal_iff utf8 pairs (keys_nodup hc'.2) r).mpr hm

/-- C49: no answer makes the client panic. -/
theorem C49_no_panic (utf8 : Bytes → Bool) (body : Bytes) : decodeTrackerBody utf8 body ≠ .panic := by
  unfold decodeTrackerBody
  have hu : ∀ v, decodeU64 v ≠ .panic := by
    intro v; unfold decodeU64; split
    · split <;> simp
    · simp
  have hs : ∀ v, decodeString utf8 v ≠ .panic := by
    intro v; unfold decodeString; split
    · split <;> simp
    · simp
  have hb : ∀ v, decodeBytes v ≠ .panic := by
    intro v; unfold decodeBytes; split <;> simp
  have hbind : ∀ {α β} (x : Res α) (f : α → Res β), x ≠ .panic → (∀ a, f a ≠ .panic) → (x >>= f) ≠ .panic := by
    intro α β x f hx hf
    cases x with
    | ok a => exact hf a
    | err => simp
    | panic => exact absurd rfl hx
  have hpair : ∀ acc kv, ResponseAcc.pair utf8 acc kv ≠ .panic := by
    intro acc kv
    unfold ResponseAcc.pair
    simp only
    repeat' split
    · exact hbind _ _ (hs _) (fun _ => by simp)
    · exact hbind _ _ (hu _) (fun _ => by simp)
    · exact hbind _ _ (hu _) (fun _ => by simp)
    · exact hbind _ _ (hs _) (fun _ => by simp)
    · exact hbind _ _ (hu _) (fun _ => by simp)
    · exact hbind _ _ (hu _) (fun _ => by simp)
    · exact hbind _ _ (hb _) (fun _ => by simp)
    · simp
  have hrun : ∀ kvs acc, ResponseAcc.run utf8 acc kvs ≠ .panic := by
    intro kvs
    induction kvs with
    | nil => intro acc; simp [ResponseAcc.run]
    | cons kv kvs ih => intro acc; exact hbind _ _ (hpair _ _) (fun _ => ih _)
  have hopt : ∀ {α} (o : Option α), Res.ofOption o ≠ .panic := by intro α o; cases o <;> simp
  refine hbind _ _ (C62_no_panic _ _) ?_
  rintro ⟨v, rest⟩
  cases v with
  | dict pairs =>
    show (ResponseAcc.run utf8 {} pairs >>= _) ≠ _
    refine hbind _ _ (hrun _ _) fun _ => ?_
    refine hbind _ _ (hopt _) fun _ => ?_
    refine hbind _ _ (hopt _) fun _ => ?_
    refine hbind _ _ (hopt _) fun _ => ?_
    refine hbind _ _ (hopt _) fun _ => by simp
  | _ => simp [TrackerResponse.ofBVal]

/-- A concrete answer with an unknown key and an incomplete last group. -/
example : decodeTrackerBody (fun _ => true)
    (ascii "d8:completei5e10:downloadedi53e10:incompletei1e8:intervali1800e5:peers8:ABCD\x1a\x2fxyetail") =
    .ok ⟨none, 1800, none, none, 5, 1, [⟨⟨⟨0x41, 0x42, 0x43, 0x44⟩, 0x1a2f⟩⟩]⟩ := by decide +kernel

end Nargun
