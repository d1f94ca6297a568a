import Verif.Spec.Metainfo
import Verif.Props.TrackerResponse
import Verif.Model.Downloader
import Verif.Lemmas.PendingPieces

/-! # C58–C61, C63: metainfo files -/

set_option linter.unusedSimpArgs false

namespace Nargun

open Spec

/-! ## C58 -/

theorem idsOf_chunks (cs : List Bytes) (h : ∀ c ∈ cs, c.length = ID_LEN) :
    ((cs.filterMap fun c => if h : c.length = ID_LEN then some (⟨c, h⟩ : ID) else none).flatMap (·.bytes)) =
      cs.flatten ∧
    (cs.filterMap fun c => if h : c.length = ID_LEN then some (⟨c, h⟩ : ID) else none).length = cs.length := by
  induction cs with
  | nil => simp
  | cons c cs ih =>
    obtain ⟨i1, i2⟩ := ih (fun x hx => h x (by simp [hx]))
    have hc := h c (by simp)
    rw [List.filterMap_cons_some (b := ⟨c, hc⟩) (by simp [hc])]
    exact ⟨by simp only [List.flatMap_cons, List.flatten_cons, i1], by simp only [List.length_cons, i2]⟩

theorem chunksExact_flatten {α} (k : Nat) (hk : 0 < k) (fuel : Nat) (bs : List α) (hf : bs.length ≤ fuel)
    (hm : bs.length % k = 0) : (chunksExact k fuel bs).flatten = bs := by
  induction fuel generalizing bs with
  | zero => simp [chunksExact, List.length_eq_zero_iff.mp (show bs.length = 0 by omega)]
  | succ f ih =>
    unfold chunksExact
    by_cases hc : bs.length < k
    · simp only [hc, if_true]
      rw [Nat.mod_eq_of_lt hc] at hm
      rw [List.length_eq_zero_iff.mp hm]; rfl
    · simp only [hc, if_false, List.flatten_cons]
      rw [ih (bs.drop k) (by rw [List.length_drop]; omega) (by
        rw [List.length_drop, ← Nat.mod_eq_sub_mod (by omega)]; exact hm)]
      exact List.take_append_drop k bs

theorem ids_flat_length (ids : List ID) : (ids.flatMap (·.bytes)).length = 20 * ids.length := by
  induction ids with
  | nil => rfl
  | cons i ids ih => simp only [List.flatMap_cons, List.length_append, List.length_cons, ih, i.len_eq, ID_LEN]; omega

theorem ids_flat_inj (a b : List ID) (h : a.flatMap (·.bytes) = b.flatMap (·.bytes)) : a = b := by
  induction a generalizing b with
  | nil =>
    cases b with
    | nil => rfl
    | cons y ys =>
      have := congrArg List.length h
      rw [ids_flat_length, ids_flat_length] at this
      simp at this
  | cons x xs ih =>
    cases b with
    | nil =>
      have := congrArg List.length h
      rw [ids_flat_length, ids_flat_length] at this
      simp at this
    | cons y ys =>
      simp only [List.flatMap_cons] at h
      obtain ⟨h1, h2⟩ := List.append_inj h (by rw [x.len_eq, y.len_eq])
      have hxy : x = y := by
        obtain ⟨_, _⟩ := x; obtain ⟨_, _⟩ := y
        simp only at h1
        subst h1; rfl
      rw [hxy, ih ys h2]

/-- C58: the string of piece hashes is understood iff it is not empty, and then it is the hashes one after the
other. -/
theorem C58_pieces (raw : Bytes) (ids : List ID) : deserializePieces raw = .ok ids ↔ IsHashes raw ids := by
  unfold deserializePieces IsHashes
  by_cases hc : raw = [] ∨ raw.length % ID_LEN > 0
  · rw [if_pos hc]
    refine ⟨fun h => (by cases h), ?_⟩
    rintro ⟨h1, h2⟩
    exfalso
    have : raw.length % ID_LEN = 0 := by rw [h2, ids_flat_length]; simp [ID_LEN]
    rcases hc with hc | hc
    · exact h1 hc
    · omega
  · rw [if_neg hc]
    simp only [not_or] at hc
    have hm : raw.length % ID_LEN = 0 := by omega
    have hlen : ∀ c ∈ chunksExact ID_LEN raw.length raw, c.length = ID_LEN := by
      obtain ⟨h1, h2⟩ := chunksExact_spec ID_LEN (by decide) raw.length raw (Nat.le_refl _)
      intro c hcm
      obtain ⟨i, hi, rfl⟩ := List.mem_iff_getElem.mp hcm
      rw [h2 i hi, List.length_take, List.length_drop]
      have : ID_LEN = 20 := rfl
      rw [this] at h1 ⊢
      rw [this, h1] at hi
      omega
    have hf := (idsOf_chunks _ hlen).1
    rw [chunksExact_flatten ID_LEN (by decide) _ _ (Nat.le_refl _) hm] at hf
    constructor
    · intro h; cases h; exact ⟨hc.1, hf.symm⟩
    · rintro ⟨_, h⟩
      rw [h] at hf
      congr 1
      rw [← h] at hf
      exact ids_flat_inj _ _ (hf.trans h)

/-- C58: which strings are accepted. -/
theorem C58_accepted (raw : Bytes) :
    (∃ ids, deserializePieces raw = .ok ids) ↔ raw ≠ [] ∧ raw.length % 20 = 0 := by
  constructor
  · rintro ⟨ids, h⟩
    obtain ⟨h1, h2⟩ := (C58_pieces raw ids).mp h
    refine ⟨h1, ?_⟩
    rw [h2, ids_flat_length]; omega
  · rintro ⟨h1, h2⟩
    unfold deserializePieces
    rw [if_neg (by rintro (h | h); exact h1 h; exact absurd h2 (by have : ID_LEN = 20 := rfl; rw [this] at h; omega))]
    exact ⟨_, rfl⟩

example : ∃ ids, deserializePieces (List.replicate 40 7#8) = .ok ids ∧ ids.length = 2 := by
  obtain ⟨ids, h⟩ := (C58_accepted (List.replicate 40 7#8)).mpr ⟨by simp, by simp⟩
  refine ⟨ids, h, ?_⟩
  have := congrArg List.length ((C58_pieces _ _).mp h).2
  rw [ids_flat_length, List.length_replicate] at this
  omega

/-! ## Lists of texts and files -/

theorem decodeVec_iff {α} (dec : BVal → Res α) (vs : List BVal) (as : List α) :
    decodeVec dec vs = .ok as ↔
      vs.length = as.length ∧ ∀ i (h : i < vs.length) (h' : i < as.length), dec vs[i] = .ok as[i] := by
  induction vs generalizing as with
  | nil =>
    cases as with
    | nil => simp [decodeVec]
    | cons a as => simp [decodeVec]
  | cons v vs ih =>
    simp only [decodeVec, Res.bind_eq_ok, ih]
    constructor
    · rintro ⟨a, ha, as', ⟨h1, h2⟩, he⟩
      cases he
      refine ⟨by simp [h1], ?_⟩
      intro i h h'
      cases i with
      | zero => exact ha
      | succ i => exact h2 i _ _
    · rintro ⟨h1, h2⟩
      cases as with
      | nil => simp at h1
      | cons a as =>
        refine ⟨a, h2 0 (by simp) (by simp), as, ⟨by simpa using h1, ?_⟩, rfl⟩
        intro i h h'
        exact h2 (i + 1) (by simpa using h) (by simpa using h')

theorem decodeTexts_iff (utf8 : Bytes → Bool) (v : BVal) (ss : List Bytes) :
    decodeList (decodeString utf8) v = .ok ss ↔ IsTexts utf8 v ss := by
  cases v with
  | list vs =>
    simp only [decodeList, decodeVec_iff, decodeString_iff, IsTexts, BVal.list.injEq]
    constructor
    · rintro ⟨h1, h2⟩
      constructor
      · apply List.ext_getElem
        · simpa using h1
        · intro i a b
          rw [(h2 i a (by omega)).1]; simp
      · intro s hs
        obtain ⟨i, hi, rfl⟩ := List.mem_iff_getElem.mp hs
        exact (h2 i (by omega) hi).2
    · rintro ⟨rfl, h⟩
      refine ⟨by simp, ?_⟩
      intro i a b
      exact ⟨by simp, h _ (List.getElem_mem _)⟩
  | _ => simp [decodeList, IsTexts]

theorem lookup_cons_ne {key k : Bytes} {v : BVal} {ps : List (Bytes × BVal)} (h : k ≠ key) :
    List.lookup key ((k, v) :: ps) = List.lookup key ps := by
  rw [List.lookup_cons]
  have : (key == k) = false := by simp [Ne.symm h]
  rw [this]

theorem fileLoop_iff (utf8 : Bytes → Bool) (pairs : List (Bytes × BVal)) (hn : (pairs.map (·.1)).Nodup)
    (p : Option (List Bytes)) (n : Option Nat) (p' : Option (List Bytes)) (n' : Option Nat) :
    fileLoop utf8 p n pairs = .ok (p', n') ↔
      FieldRel (decodeList (decodeString utf8)) (pairs.lookup (ascii "path")) p p' ∧
      FieldRel decodeU64 (pairs.lookup (ascii "length")) n n' := by
  induction pairs generalizing p n with
  | nil =>
    simp only [fileLoop, Res.ok.injEq, Prod.mk.injEq, List.lookup_nil, fieldRel_none]
    constructor
    · rintro ⟨rfl, rfl⟩; exact ⟨rfl, rfl⟩
    · rintro ⟨rfl, rfl⟩; exact ⟨rfl, rfl⟩
  | cons kv ps ih =>
    obtain ⟨k, v⟩ := kv
    simp only [List.map_cons, List.nodup_cons] at hn
    have hnone := lookup_not_mem hn.1
    by_cases h1 : k = ascii "path"
    · subst h1
      have hne : ascii "path" ≠ ascii "length" := by decide
      simp only [fileLoop, if_true, Res.bind_eq_ok, ih hn.2, hnone, fieldRel_none, List.lookup_cons_self,
        fieldRel_some, lookup_cons_ne hne]
      constructor
      · rintro ⟨y, hy, h, h'⟩; exact ⟨⟨y, hy, h⟩, h'⟩
      · rintro ⟨⟨y, hy, h⟩, h'⟩; exact ⟨y, hy, h, h'⟩
    by_cases h2 : k = ascii "length"
    · subst h2
      have hne : ascii "length" ≠ ascii "path" := by decide
      simp only [fileLoop, h1, if_true, if_false, Res.bind_eq_ok, ih hn.2, hnone, fieldRel_none, List.lookup_cons_self,
        fieldRel_some, lookup_cons_ne hne]
      constructor
      · rintro ⟨y, hy, h, h'⟩; exact ⟨h, ⟨y, hy, h'⟩⟩
      · rintro ⟨h, ⟨y, hy, h'⟩⟩; exact ⟨y, hy, h, h'⟩
    simp only [fileLoop, h1, h2, if_false, ih hn.2, lookup_cons_ne h1, lookup_cons_ne h2]

theorem fieldRel_required {α} {dec : BVal → Res α} {o : Option BVal} {x : Option α} {a : α}
    (h : FieldRel dec o none x) (hx : Res.ofOption x = .ok a) : ∃ v, o = some v ∧ dec v = .ok a := by
  rcases h with ⟨_, rfl⟩ | ⟨v, y, rfl, hd, rfl⟩
  · cases hx
  · cases hx; exact ⟨v, rfl, hd⟩

theorem file_iff (utf8 : Bytes → Bool) (d : Nat) (v : BVal) (hc : Canonical d v) (f : TorrentFile) :
    TorrentFile.ofBVal utf8 v = .ok f ↔ IsFile utf8 v f := by
  cases v with
  | dict pairs =>
    have hn : (pairs.map (·.1)).Nodup := by
      cases d with
      | zero => simp [Canonical] at hc
      | succ d => simp only [Canonical] at hc; exact keys_nodup hc.2
    simp only [TorrentFile.ofBVal, Res.bind_eq_ok, Prod.exists, fileLoop_iff utf8 pairs hn, IsFile, BVal.dict.injEq]
    constructor
    · rintro ⟨p, n, ⟨h1, h2⟩, p', hp, n', hn', he⟩
      cases he
      obtain ⟨v, hv, hd⟩ := fieldRel_required h1 hp
      obtain ⟨w, hw, hd'⟩ := fieldRel_required h2 hn'
      obtain ⟨rfl, hlt⟩ := (decodeU64_iff _ _).mp hd'
      exact ⟨pairs, v, rfl, hv, (decodeTexts_iff _ _ _).mp hd, hw, hlt⟩
    · rintro ⟨pairs', p, rfl, hp, ht, hw, hlt⟩
      exact ⟨some f.path, some f.length, ⟨.inr ⟨p, _, hp, (decodeTexts_iff _ _ _).mpr ht, rfl⟩,
        .inr ⟨_, _, hw, (decodeU64_iff _ _).mpr ⟨rfl, hlt⟩, rfl⟩⟩, f.path, rfl, f.length, rfl, rfl⟩
  | _ => simp [TorrentFile.ofBVal, IsFile]

theorem canonicalItems_mem {d : Nat} {vs : List BVal} (h : CanonicalItems d vs) : ∀ v ∈ vs, Canonical d v := by
  induction vs with
  | nil => simp
  | cons w ws ih =>
    simp only [CanonicalItems] at h
    intro v hv
    rcases List.mem_cons.mp hv with rfl | hv
    · exact h.1
    · exact ih h.2 v hv

theorem canonicalPairs_mem {d : Nat} {ps : List (Bytes × BVal)} (h : CanonicalPairs d ps) :
    ∀ kv ∈ ps, Canonical d kv.2 := by
  induction ps with
  | nil => simp
  | cons w ws ih =>
    obtain ⟨k, v⟩ := w
    simp only [CanonicalPairs] at h
    intro kv hv
    rcases List.mem_cons.mp hv with rfl | hv
    · exact h.2.1
    · exact ih h.2.2 kv hv

theorem files_iff (utf8 : Bytes → Bool) (d : Nat) (v : BVal) (hc : Canonical d v) (fs : List TorrentFile) :
    decodeList (TorrentFile.ofBVal utf8) v = .ok fs ↔ IsFiles utf8 v fs := by
  cases v with
  | list vs =>
    simp only [decodeList, decodeVec_iff, IsFiles, BVal.list.injEq]
    cases d with
    | zero => simp [Canonical] at hc
    | succ d =>
      simp only [Canonical] at hc
      have hm := canonicalItems_mem hc
      constructor
      · rintro ⟨h1, h2⟩
        refine ⟨vs, rfl, h1, fun i h h' => (file_iff utf8 d _ (hm _ (List.getElem_mem _)) _).mp (h2 i h h')⟩
      · rintro ⟨vs', rfl, h1, h2⟩
        exact ⟨h1, fun i h h' => (file_iff utf8 d _ (hm _ (List.getElem_mem _)) _).mpr (h2 i h h')⟩
  | _ => simp [decodeList, IsFiles]

/-! ## The info dictionary -/

/-- The variable `mode` after the loop. -/
def ModeRel (utf8 : Bytes → Bool) (files length : Option BVal) (x x' : Option TorrentMode) : Prop :=
  (∀ v, files = some v → ∃ fs, decodeList (TorrentFile.ofBVal utf8) v = .ok fs) ∧
  ((∃ v n, length = some v ∧ decodeU64 v = .ok n ∧ x' = some (.single n)) ∨
   (length = none ∧ ∃ v fs, files = some v ∧ decodeList (TorrentFile.ofBVal utf8) v = .ok fs ∧ x' = some (.multi fs)) ∨
   (length = none ∧ files = none ∧ x' = x))

/-- The local variables after the loop. -/
structure InfoRel (utf8 : Bytes → Bool) (pairs : List (Bytes × BVal)) (acc acc' : InfoAcc) : Prop where
  name : FieldRel (decodeString utf8) (pairs.lookup (ascii "name")) acc.name acc'.name
  pieceLength : FieldRel decodeU64 (pairs.lookup (ascii "piece length")) acc.pieceLength acc'.pieceLength
  pieces : FieldRel (fun v => do let s ← decodeBytes v; deserializePieces s) (pairs.lookup (ascii "pieces"))
    acc.pieces acc'.pieces
  mode : ModeRel utf8 (pairs.lookup (ascii "files")) (pairs.lookup (ascii "length")) acc.mode acc'.mode

theorem rawLt_irrefl (k : Bytes) : ¬ RawLt k k := by
  intro h
  have hn : ([(k, BVal.int 0), (k, BVal.int 0)].map (·.1)).Nodup := keys_nodup (by
    simp only [List.map_cons, List.map_nil, List.pairwise_cons, List.mem_singleton, forall_eq, List.not_mem_nil,
      false_imp_iff, implies_true, List.Pairwise.nil, and_true]
    exact h)
  simp at hn

theorem lookup_later {key k : Bytes} {ps : List (Bytes × BVal)} (h : ∀ a ∈ ps.map (·.1), RawLt k a)
    (hk : RawLt key k) : ps.lookup key = none := by
  apply lookup_not_mem
  intro hm
  have h1 := (bytesLt_iff _ _).mpr (h key hm)
  have h2 := (bytesLt_iff _ _).mpr hk
  exact rawLt_irrefl key ((bytesLt_iff _ _).mp (bytesLt_trans _ _ _ h2 h1))

theorem infoRun_iff (utf8 : Bytes → Bool) (pairs : List (Bytes × BVal)) (hs : (pairs.map (·.1)).Pairwise RawLt)
    (acc acc' : InfoAcc) : InfoAcc.run utf8 acc pairs = .ok acc' ↔ InfoRel utf8 pairs acc acc' := by
  induction pairs generalizing acc with
  | nil =>
    simp only [InfoAcc.run, Res.ok.injEq]
    constructor
    · rintro rfl
      exact ⟨.inl ⟨rfl, rfl⟩, .inl ⟨rfl, rfl⟩, .inl ⟨rfl, rfl⟩, by simp, .inr (.inr ⟨rfl, rfl, rfl⟩)⟩
    · rintro ⟨h1, h2, h3, _, h4⟩
      simp only [List.lookup_nil, fieldRel_none] at h1 h2 h3
      have h4' : acc'.mode = acc.mode := by
        rcases h4 with ⟨v, _, h, _⟩ | ⟨_, v, _, h, _⟩ | ⟨_, _, h⟩
        · cases h
        · cases h
        · exact h
      obtain ⟨_, _, _, _⟩ := acc
      obtain ⟨_, _, _, _⟩ := acc'
      simp only at h1 h2 h3 h4'
      rw [h1, h2, h3, h4']
  | cons kv ps ih =>
    obtain ⟨k, v⟩ := kv
    have hn := keys_nodup hs
    simp only [List.map_cons, List.nodup_cons] at hn
    simp only [List.map_cons, List.pairwise_cons] at hs
    have hnone := lookup_not_mem hn.1
    simp only [InfoAcc.run, Res.bind_eq_ok, ih hs.2]
    by_cases hk1 : k = ascii "name"
    · subst hk1
      have e1 := lookup_cons_ne (v := v) (ps := ps) (show ascii "name" ≠ ascii "piece length" by decide)
      have e2 := lookup_cons_ne (v := v) (ps := ps) (show ascii "name" ≠ ascii "pieces" by decide)
      have e3 := lookup_cons_ne (v := v) (ps := ps) (show ascii "name" ≠ ascii "files" by decide)
      have e4 := lookup_cons_ne (v := v) (ps := ps) (show ascii "name" ≠ ascii "length" by decide)
      simp only [InfoAcc.pair, if_true, Res.bind_eq_ok, Res.ok.injEq]
      constructor
      · rintro ⟨_, ⟨y, hy, rfl⟩, ⟨h1, h2, h3, h4⟩⟩
        rw [hnone, fieldRel_none] at h1
        exact ⟨by rw [List.lookup_cons_self, fieldRel_some]; exact ⟨y, hy, h1⟩, by rw [e1]; exact h2,
          by rw [e2]; exact h3, by rw [e3, e4]; exact h4⟩
      · rintro ⟨h1, h2, h3, h4⟩
        rw [List.lookup_cons_self, fieldRel_some] at h1
        obtain ⟨y, hy, hx⟩ := h1
        rw [e1] at h2; rw [e2] at h3; rw [e3, e4] at h4
        exact ⟨_, ⟨y, hy, rfl⟩, by rw [hnone, fieldRel_none]; exact hx, h2, h3, h4⟩
    by_cases hk2 : k = ascii "pieces"
    · subst hk2
      have e1 := lookup_cons_ne (v := v) (ps := ps) (show ascii "pieces" ≠ ascii "piece length" by decide)
      have e2 := lookup_cons_ne (v := v) (ps := ps) (show ascii "pieces" ≠ ascii "name" by decide)
      have e3 := lookup_cons_ne (v := v) (ps := ps) (show ascii "pieces" ≠ ascii "files" by decide)
      have e4 := lookup_cons_ne (v := v) (ps := ps) (show ascii "pieces" ≠ ascii "length" by decide)
      simp only [InfoAcc.pair, hk1, if_true, if_false, Res.bind_eq_ok, Res.ok.injEq]
      constructor
      · rintro ⟨_, ⟨s, hs, y, hy, rfl⟩, ⟨h1, h2, h3, h4⟩⟩
        rw [hnone, fieldRel_none] at h3
        exact ⟨by rw [e2]; exact h1, by rw [e1]; exact h2,
          by rw [List.lookup_cons_self, fieldRel_some]; exact ⟨y, by simp only [hs, Res.ok_bind]; exact hy, h3⟩,
          by rw [e3, e4]; exact h4⟩
      · rintro ⟨h1, h2, h3, h4⟩
        rw [List.lookup_cons_self, fieldRel_some] at h3
        obtain ⟨y, hy, hx⟩ := h3
        obtain ⟨s, hs, hy⟩ := Res.bind_eq_ok.mp hy
        rw [e1] at h2; rw [e2] at h1; rw [e3, e4] at h4
        exact ⟨_, ⟨s, hs, y, hy, rfl⟩, h1, h2, by rw [hnone, fieldRel_none]; exact hx, h4⟩
    by_cases hk3 : k = ascii "length"
    · subst hk3
      have e1 := lookup_cons_ne (v := v) (ps := ps) (show ascii "length" ≠ ascii "piece length" by decide)
      have e2 := lookup_cons_ne (v := v) (ps := ps) (show ascii "length" ≠ ascii "name" by decide)
      have e3 := lookup_cons_ne (v := v) (ps := ps) (show ascii "length" ≠ ascii "files" by decide)
      have e4 := lookup_cons_ne (v := v) (ps := ps) (show ascii "length" ≠ ascii "pieces" by decide)
      have hf : List.lookup (ascii "files") ps = none :=
        lookup_later hs.1 ((bytesLt_iff _ _).mp (by decide))
      simp only [InfoAcc.pair, hk1, hk2, if_true, if_false, Res.bind_eq_ok, Res.ok.injEq]
      constructor
      · rintro ⟨_, ⟨y, hy, rfl⟩, ⟨h1, h2, h3, _, h4⟩⟩
        rw [hnone, hf] at h4
        have hx : acc'.mode = some (.single y) := by
          rcases h4 with ⟨v, _, h, _⟩ | ⟨_, v, _, h, _⟩ | ⟨_, _, h⟩
          · cases h
          · cases h
          · exact h
        exact ⟨by rw [e2]; exact h1, by rw [e1]; exact h2, by rw [e4]; exact h3, by rw [e3, hf]; simp,
          .inl ⟨v, y, List.lookup_cons_self, hy, hx⟩⟩
      · rintro ⟨h1, h2, h3, _, h4⟩
        rw [List.lookup_cons_self, e3, hf] at h4
        rw [e1] at h2; rw [e2] at h1; rw [e4] at h3
        rcases h4 with ⟨w, y, hw, hy, hx⟩ | ⟨h, _⟩ | ⟨h, _⟩
        · cases hw
          exact ⟨_, ⟨y, hy, rfl⟩, h1, h2, h3, by rw [hf]; simp, .inr (.inr ⟨hnone, hf, hx⟩)⟩
        · cases h
        · cases h
    by_cases hk4 : k = ascii "piece length"
    · subst hk4
      have e1 := lookup_cons_ne (v := v) (ps := ps) (show ascii "piece length" ≠ ascii "name" by decide)
      have e2 := lookup_cons_ne (v := v) (ps := ps) (show ascii "piece length" ≠ ascii "pieces" by decide)
      have e3 := lookup_cons_ne (v := v) (ps := ps) (show ascii "piece length" ≠ ascii "files" by decide)
      have e4 := lookup_cons_ne (v := v) (ps := ps) (show ascii "piece length" ≠ ascii "length" by decide)
      simp only [InfoAcc.pair, hk1, hk2, hk3, if_true, if_false, Res.bind_eq_ok, Res.ok.injEq]
      constructor
      · rintro ⟨_, ⟨y, hy, rfl⟩, ⟨h1, h2, h3, h4⟩⟩
        rw [hnone, fieldRel_none] at h2
        exact ⟨by rw [e1]; exact h1, by rw [List.lookup_cons_self, fieldRel_some]; exact ⟨y, hy, h2⟩,
          by rw [e2]; exact h3, by rw [e3, e4]; exact h4⟩
      · rintro ⟨h1, h2, h3, h4⟩
        rw [List.lookup_cons_self, fieldRel_some] at h2
        obtain ⟨y, hy, hx⟩ := h2
        rw [e1] at h1; rw [e2] at h3; rw [e3, e4] at h4
        exact ⟨_, ⟨y, hy, rfl⟩, h1, by rw [hnone, fieldRel_none]; exact hx, h3, h4⟩
    by_cases hk5 : k = ascii "files"
    · subst hk5
      have e1 := lookup_cons_ne (v := v) (ps := ps) (show ascii "files" ≠ ascii "name" by decide)
      have e2 := lookup_cons_ne (v := v) (ps := ps) (show ascii "files" ≠ ascii "pieces" by decide)
      have e3 := lookup_cons_ne (v := v) (ps := ps) (show ascii "files" ≠ ascii "piece length" by decide)
      have e4 := lookup_cons_ne (v := v) (ps := ps) (show ascii "files" ≠ ascii "length" by decide)
      simp only [InfoAcc.pair, hk1, hk2, hk3, hk4, if_true, if_false, Res.bind_eq_ok, Res.ok.injEq]
      constructor
      · rintro ⟨_, ⟨y, hy, rfl⟩, ⟨h1, h2, h3, _, h4⟩⟩
        refine ⟨by rw [e1]; exact h1, by rw [e3]; exact h2, by rw [e2]; exact h3, ?_, ?_⟩
        · intro w hw; rw [List.lookup_cons_self] at hw; cases hw; exact ⟨y, hy⟩
        · rw [e4, List.lookup_cons_self]
          rcases h4 with ⟨w, n, h, h'⟩ | ⟨_, w, _, h, _⟩ | ⟨h, _, h'⟩
          · exact .inl ⟨w, n, h, h'⟩
          · rw [hnone] at h; cases h
          · exact .inr (.inl ⟨h, v, y, rfl, hy, h'⟩)
      · rintro ⟨h1, h2, h3, h5, h4⟩
        obtain ⟨y, hy⟩ := h5 v List.lookup_cons_self
        rw [e3] at h2; rw [e1] at h1; rw [e2] at h3
        rw [e4, List.lookup_cons_self] at h4
        refine ⟨_, ⟨y, hy, rfl⟩, h1, h2, h3, by rw [hnone]; simp, ?_⟩
        rcases h4 with ⟨w, n, h, h'⟩ | ⟨h, w, fs, hw, hd, hx⟩ | ⟨_, h, _⟩
        · exact .inl ⟨w, n, h, h'⟩
        · cases hw
          rw [hy] at hd; cases hd
          exact .inr (.inr ⟨h, hnone, hx⟩)
        · cases h
    simp only [InfoAcc.pair, hk1, hk2, hk3, hk4, hk5, if_false, Res.ok.injEq, exists_eq_left']
    constructor
    · rintro ⟨h1, h2, h3, h4⟩
      exact ⟨by rw [lookup_cons_ne hk1]; exact h1, by rw [lookup_cons_ne hk4]; exact h2,
        by rw [lookup_cons_ne hk2]; exact h3, by rw [lookup_cons_ne hk5, lookup_cons_ne hk3]; exact h4⟩
    · rintro ⟨h1, h2, h3, h4⟩
      rw [lookup_cons_ne hk1] at h1; rw [lookup_cons_ne hk4] at h2; rw [lookup_cons_ne hk2] at h3
      rw [lookup_cons_ne hk5, lookup_cons_ne hk3] at h4
      exact ⟨h1, h2, h3, h4⟩

theorem lookup_mem {k : Bytes} {v : BVal} {ps : List (Bytes × BVal)} (h : ps.lookup k = some v) : (k, v) ∈ ps := by
  induction ps with
  | nil => cases h
  | cons p ps ih =>
    obtain ⟨a, b⟩ := p
    by_cases hk : a = k
    · subst hk
      rw [List.lookup_cons_self] at h
      cases h; simp
    · rw [lookup_cons_ne hk] at h
      exact List.mem_cons_of_mem _ (ih h)

theorem info_iff (utf8 : Bytes → Bool) (d : Nat) (pairs : List (Bytes × BVal)) (hc : Canonical d (.dict pairs))
    (i : Info) : Info.ofBVal utf8 (.dict pairs) = .ok i ↔ InfoMeans utf8 pairs i := by
  cases d with
  | zero => simp [Canonical] at hc
  | succ d =>
  simp only [Canonical] at hc
  obtain ⟨hcp, hs⟩ := hc
  have hfiles : ∀ v, field pairs "files" = some v → ∀ fs, decodeList (TorrentFile.ofBVal utf8) v = .ok fs ↔
      IsFiles utf8 v fs := fun v hv fs => files_iff utf8 d v (canonicalPairs_mem hcp _ (lookup_mem hv)) fs
  simp only [Info.ofBVal, Res.bind_eq_ok, infoRun_iff utf8 pairs hs]
  constructor
  · rintro ⟨acc, ⟨h1, h2, h3, h5, h4⟩, n1, e1, n2, e2, n3, e3, m, e4, hi⟩
    cases hi
    obtain ⟨v1, f1, d1⟩ := fieldRel_required h2 e1
    obtain ⟨v2, f2, d2⟩ := fieldRel_required h3 e2
    obtain ⟨v3, f3, d3⟩ := fieldRel_required h1 e3
    obtain ⟨rfl, l1⟩ := (decodeU64_iff _ _).mp d1
    obtain ⟨rfl, l3⟩ := (decodeString_iff _ _ _).mp d3
    refine ⟨⟨f3, l3⟩, ⟨f1, l1⟩, ?_, ?_, ?_, ?_⟩
    · obtain ⟨s, hs, hd⟩ := Res.bind_eq_ok.mp d2
      cases v2 with
      | str s' => cases hs; exact ⟨s, f2, (C58_pieces _ _).mp hd⟩
      | _ => cases hs
    · intro n hn
      simp only at hn
      subst hn
      rcases h4 with ⟨v, n', hv, hd, hx⟩ | ⟨_, v, fs, _, _, hx⟩ | ⟨_, _, hx⟩
      · rw [hx] at e4; cases e4
        obtain ⟨rfl, hl⟩ := (decodeU64_iff _ _).mp hd
        exact ⟨hv, hl⟩
      · rw [hx] at e4; cases e4
      · rw [hx] at e4; cases e4
    · intro fs hn
      simp only at hn
      subst hn
      rcases h4 with ⟨v, n', hv, hd, hx⟩ | ⟨hl, v, fs', hv, hd, hx⟩ | ⟨_, _, hx⟩
      · rw [hx] at e4; cases e4
      · rw [hx] at e4; cases e4
        exact ⟨hl, v, hv, (hfiles v hv _).mp hd⟩
      · rw [hx] at e4; cases e4
    · intro v hv
      obtain ⟨fs, hfs⟩ := h5 v hv
      exact ⟨fs, (hfiles v hv fs).mp hfs⟩
  · rintro ⟨⟨f3, l3⟩, ⟨f1, l1⟩, ⟨raw, f2, hr⟩, hsing, hmul, hfs⟩
    refine ⟨⟨some i.pieceLength, some i.pieces, some i.mode, some i.name⟩, ⟨?_, ?_, ?_, ?_, ?_⟩, _, rfl, _, rfl, _,
      rfl, _, rfl, rfl⟩
    · exact .inr ⟨_, _, f3, (decodeString_iff _ _ _).mpr ⟨rfl, l3⟩, rfl⟩
    · exact .inr ⟨_, _, f1, (decodeU64_iff _ _).mpr ⟨rfl, l1⟩, rfl⟩
    · exact .inr ⟨_, _, f2, (C58_pieces _ _).mpr hr, rfl⟩
    · intro v hv
      obtain ⟨fs, h⟩ := hfs v hv
      exact ⟨fs, (hfiles v hv fs).mpr h⟩
    · cases hm : i.mode with
      | single n =>
        obtain ⟨hn, hl⟩ := hsing n hm
        exact .inl ⟨_, n, hn, (decodeU64_iff _ _).mpr ⟨rfl, hl⟩, rfl⟩
      | multi fs =>
        obtain ⟨hl, v, hv, hf⟩ := hmul fs hm
        exact .inr (.inl ⟨hl, v, fs, hv, (hfiles v hv fs).mpr hf, rfl⟩)

/-! ## The whole file -/

/-- The pairs with the bytes of their values. -/
def attachRaw (ps : List (Bytes × BVal)) : List (Bytes × BVal × Bytes) := ps.map fun kv => (kv.1, kv.2, bencode kv.2)

theorem rawPairs_eq (f d : Nat) (last : Option Bytes) (bs : Bytes) :
    rawPairs f d last bs = (parsePairs f d last bs >>= fun r => .ok (attachRaw r.1, r.2)) := by
  induction f generalizing last bs with
  | zero => simp [rawPairs, parsePairs]
  | succ f ih =>
    cases bs with
    | nil => simp [rawPairs, parsePairs]
    | cons b bs =>
      simp only [rawPairs, parsePairs]
      by_cases hb : b = 0x65#8
      · simp only [hb, if_true, Res.ok_bind]; rfl
      · simp only [hb, if_false]
        cases h1 : takeStr (b :: bs) with
        | ok kr =>
          obtain ⟨k, rest⟩ := kr
          simp only [Res.ok_bind]
          by_cases hk : keyFollows last k = true
          · simp only [hk, if_true]
            cases h2 : parseVal f d rest with
            | ok vr =>
              obtain ⟨v, rest'⟩ := vr
              simp only [Res.ok_bind, ih]
              obtain ⟨hr, _⟩ := (parse_inverse f).1 _ _ _ _ h2
              cases h3 : parsePairs f d (some k) rest' with
              | ok pr =>
                simp only [Res.ok_bind, attachRaw, List.map_cons]
                have : rest.take (rest.length - rest'.length) = bencode v := by
                  rw [hr, List.length_append, Nat.add_sub_cancel]; simp
                rw [this]
              | err => rfl
              | panic => rfl
            | err => rfl
            | panic => rfl
          · simp only [hk]; rfl
        | err => rfl
        | panic => rfl

mutual

theorem canonical_mono (v : BVal) (d e : Nat) (h : d ≤ e) (hc : Canonical d v) : Canonical e v := by
  cases v with
  | int n => simp [Canonical]
  | str s =>
    have : s.length < 2 ^ 64 := by simpa [Canonical] using hc
    simpa [Canonical] using this
  | list l =>
    cases d with
    | zero => simp [Canonical] at hc
    | succ d =>
      obtain ⟨e, rfl⟩ : ∃ e', e = e' + 1 := ⟨e - 1, by omega⟩
      simp only [Canonical] at hc ⊢
      exact canonicalItems_mono l d e (by omega) hc
  | dict l =>
    cases d with
    | zero => simp [Canonical] at hc
    | succ d =>
      obtain ⟨e, rfl⟩ : ∃ e', e = e' + 1 := ⟨e - 1, by omega⟩
      simp only [Canonical] at hc ⊢
      exact ⟨canonicalPairs_mono l d e (by omega) hc.1, hc.2⟩
termination_by sizeOf v

theorem canonicalItems_mono (l : List BVal) (d e : Nat) (h : d ≤ e) (hc : CanonicalItems d l) :
    CanonicalItems e l := by
  cases l with
  | nil => simp [CanonicalItems]
  | cons v vs =>
    simp only [CanonicalItems] at hc ⊢
    exact ⟨canonical_mono v d e h hc.1, canonicalItems_mono vs d e h hc.2⟩
termination_by sizeOf l

theorem canonicalPairs_mono (l : List (Bytes × BVal)) (d e : Nat) (h : d ≤ e) (hc : CanonicalPairs d l) :
    CanonicalPairs e l := by
  cases l with
  | nil => simp [CanonicalPairs]
  | cons p ps =>
    cases p with | mk k v => ?_
    simp only [CanonicalPairs] at hc ⊢
    exact ⟨hc.1, canonical_mono v d e h hc.2.1, canonicalPairs_mono ps d e h hc.2.2⟩
termination_by sizeOf l

end

/-- The URLs of the two keys. -/
def urlsOf (utf8 : Bytes → Bool) (a l : Option BVal) : Res (List Bytes) := do
  let us ← (match a with
    | none => .ok []
    | some v => do
      let u ← decodeString utf8 v
      .ok [u] : Res (List Bytes))
  let vs ← (match l with
    | none => .ok []
    | some v => do
      let l ← decodeList (decodeList (decodeString utf8)) v
      .ok l.flatten : Res (List Bytes))
  .ok (us ++ vs)

theorem addTrackers_append (a b : List Bytes) (s : List TrackerAddr) :
    addTrackers (a ++ b) s = addTrackers b (addTrackers a s) := by
  simp [addTrackers]

/-- The local variables after the loop. -/
structure TorrentRel (sha1 : Bytes → ID) (utf8 : Bytes → Bool) (pairs : List (Bytes × BVal))
    (acc acc' : TorrentAcc) : Prop where
  info : (pairs.lookup (ascii "info") = none ∧ acc'.info = acc.info ∧ acc'.infoHash = acc.infoHash) ∨
    ∃ ps i, pairs.lookup (ascii "info") = some (.dict ps) ∧ Info.ofBVal utf8 (.dict ps) = .ok i ∧
      acc'.info = some i ∧ acc'.infoHash = some (sha1 (bencode (.dict ps)))
  announce : ∃ us, urlsOf utf8 (pairs.lookup (ascii "announce")) (pairs.lookup (ascii "announce-list")) = .ok us ∧
    acc'.announce = addTrackers us acc.announce

theorem torrentRun_iff (sha1 : Bytes → ID) (utf8 : Bytes → Bool) (d : Nat) (hd : d ≤ 2048)
    (pairs : List (Bytes × BVal)) (hcp : CanonicalPairs d pairs)
    (hs : (pairs.map (·.1)).Pairwise RawLt) (acc acc' : TorrentAcc) :
    TorrentAcc.run sha1 utf8 acc (attachRaw pairs) = .ok acc' ↔ TorrentRel sha1 utf8 pairs acc acc' := by
  induction pairs generalizing acc with
  | nil =>
    simp only [attachRaw, List.map_nil, TorrentAcc.run, Res.ok.injEq]
    constructor
    · rintro rfl
      exact ⟨.inl ⟨rfl, rfl, rfl⟩, [], rfl, rfl⟩
    · rintro ⟨h1, us, hu, ha⟩
      cases hu
      rcases h1 with ⟨_, h1, h2⟩ | ⟨_, _, h, _⟩
      · obtain ⟨_, _, _⟩ := acc
        obtain ⟨_, _, _⟩ := acc'
        simp only at h1 h2 ha
        subst h1 h2
        simp [addTrackers] at ha
        rw [ha]
      · cases h
  | cons kv ps ih =>
    obtain ⟨k, v⟩ := kv
    have hn := keys_nodup hs
    simp only [List.map_cons, List.nodup_cons] at hn
    simp only [List.map_cons, List.pairwise_cons] at hs
    have hnone := lookup_not_mem hn.1
    simp only [CanonicalPairs] at hcp
    have hrun : ∀ acc, TorrentAcc.run sha1 utf8 acc (attachRaw ((k, v) :: ps)) =
        (acc.pair sha1 utf8 (k, v, bencode v) >>= fun a => a.run sha1 utf8 (attachRaw ps)) := fun _ => rfl
    rw [hrun]
    simp only [Res.bind_eq_ok, ih hcp.2.2 hs.2]
    by_cases hk1 : k = ascii "info"
    · subst hk1
      have e1 := lookup_cons_ne (v := v) (ps := ps) (show ascii "info" ≠ ascii "announce" by decide)
      have e2 := lookup_cons_ne (v := v) (ps := ps) (show ascii "info" ≠ ascii "announce-list" by decide)
      simp only [TorrentAcc.pair, if_true]
      cases v with
      | dict ips =>
        have hdec : bdecode BENDY_DEFAULT_DEPTH (bencode (.dict ips)) = .ok (.dict ips, []) := by
          have := C62_decode_encode 2048 (.dict ips) (canonical_mono _ _ _ hd hcp.2.1) []
          rw [List.append_nil] at this
          exact this
        simp only [hdec, Res.ok_bind, Res.bind_eq_ok, Res.ok.injEq]
        constructor
        · rintro ⟨_, ⟨i, hi, rfl⟩, h1, us, hu, ha⟩
          rcases h1 with ⟨_, h1, h2⟩ | ⟨_, _, h, _⟩
          · exact ⟨.inr ⟨ips, i, List.lookup_cons_self, hi, h1, h2⟩, us, by rw [e1, e2]; exact hu, ha⟩
          · rw [hnone] at h; cases h
        · rintro ⟨h1, us, hu, ha⟩
          rw [e1, e2] at hu
          rw [List.lookup_cons_self] at h1
          rcases h1 with ⟨h, _⟩ | ⟨ips', i, h, hi, h1, h2⟩
          · cases h
          · cases h
            exact ⟨_, ⟨i, hi, rfl⟩, .inl ⟨hnone, h1, h2⟩, us, hu, ha⟩
      | _ =>
        constructor
        · rintro ⟨_, h, _⟩; cases h
        · rintro ⟨h1, _⟩
          rw [List.lookup_cons_self] at h1
          rcases h1 with ⟨h, _⟩ | ⟨_, _, h, _⟩ <;> cases h
    by_cases hk2 : k = ascii "announce"
    · subst hk2
      have e1 := lookup_cons_ne (v := v) (ps := ps) (show ascii "announce" ≠ ascii "info" by decide)
      have e2 := lookup_cons_ne (v := v) (ps := ps) (show ascii "announce" ≠ ascii "announce-list" by decide)
      simp only [TorrentAcc.pair, hk1, if_true, if_false, Res.bind_eq_ok, Res.ok.injEq]
      constructor
      · rintro ⟨_, ⟨u, hu, rfl⟩, h1, us, hus, ha⟩
        refine ⟨by rw [e1]; exact h1, u :: us, ?_, ?_⟩
        · rw [hnone] at hus
          rw [List.lookup_cons_self, e2]
          simp only [urlsOf, hu, Res.ok_bind, List.nil_append] at hus ⊢
          obtain ⟨w, hw, hx⟩ := Res.bind_eq_ok.mp hus
          rw [hw]
          cases hx
          rfl
        · rw [ha]
          exact (addTrackers_append [u] us acc.announce).symm
      · rintro ⟨h1, us, hus, ha⟩
        rw [e1] at h1
        rw [List.lookup_cons_self, e2] at hus
        simp only [urlsOf] at hus
        obtain ⟨us1, hu1, hus⟩ := Res.bind_eq_ok.mp hus
        obtain ⟨u, hu, hx⟩ := Res.bind_eq_ok.mp hu1
        cases hx
        obtain ⟨w, hw, hx⟩ := Res.bind_eq_ok.mp hus
        cases hx
        refine ⟨_, ⟨u, hu, rfl⟩, h1, w, ?_, ?_⟩
        · rw [hnone]
          simp only [urlsOf, Res.ok_bind, List.nil_append]
          rw [hw]; rfl
        · rw [ha]
          exact addTrackers_append [u] w acc.announce
    by_cases hk3 : k = ascii "announce-list"
    · subst hk3
      have e1 := lookup_cons_ne (v := v) (ps := ps) (show ascii "announce-list" ≠ ascii "info" by decide)
      have e2 := lookup_cons_ne (v := v) (ps := ps) (show ascii "announce-list" ≠ ascii "announce" by decide)
      have hf : List.lookup (ascii "announce") ps = none :=
        lookup_later hs.1 ((bytesLt_iff _ _).mp (by decide))
      simp only [TorrentAcc.pair, hk1, hk2, if_true, if_false, Res.bind_eq_ok, Res.ok.injEq]
      constructor
      · rintro ⟨_, ⟨l, hl, rfl⟩, h1, us, hus, ha⟩
        rw [hnone, hf] at hus
        cases hus
        refine ⟨by rw [e1]; exact h1, l.flatten, ?_, ?_⟩
        · rw [List.lookup_cons_self, e2, hf]
          simp only [urlsOf, hl, Res.ok_bind, List.nil_append]
        · rw [ha]; rfl
      · rintro ⟨h1, us, hus, ha⟩
        rw [e1] at h1
        rw [List.lookup_cons_self, e2, hf] at hus
        simp only [urlsOf, Res.ok_bind, List.nil_append] at hus
        obtain ⟨w, hw, hx⟩ := Res.bind_eq_ok.mp hus
        cases hx
        obtain ⟨l, hl, hx⟩ := Res.bind_eq_ok.mp hw
        cases hx
        exact ⟨_, ⟨l, hl, rfl⟩, h1, [], by rw [hnone, hf]; rfl, by rw [ha]; rfl⟩
    simp only [TorrentAcc.pair, hk1, hk2, hk3, if_false, Res.ok.injEq, exists_eq_left']
    constructor
    · rintro ⟨h1, h2⟩
      exact ⟨by rw [lookup_cons_ne hk1]; exact h1, by rw [lookup_cons_ne hk2, lookup_cons_ne hk3]; exact h2⟩
    · rintro ⟨h1, h2⟩
      rw [lookup_cons_ne hk1] at h1
      rw [lookup_cons_ne hk2, lookup_cons_ne hk3] at h2
      exact ⟨h1, h2⟩

theorem urls_iff (utf8 : Bytes → Bool) (pairs : List (Bytes × BVal)) (us : List Bytes) :
    urlsOf utf8 (pairs.lookup (ascii "announce")) (pairs.lookup (ascii "announce-list")) = .ok us ↔
      IsUrls utf8 pairs us := by
  have hl : ∀ (v : BVal) (l : List (List Bytes)), decodeList (decodeList (decodeString utf8)) v = .ok l ↔
      ∃ vs, v = .list vs ∧ vs.length = l.length ∧
        ∀ i (h : i < vs.length) (h' : i < l.length), IsTexts utf8 vs[i] l[i] := by
    intro v l
    cases v with
    | list vs =>
      rw [show decodeList (decodeList (decodeString utf8)) (.list vs) = decodeVec (decodeList (decodeString utf8)) vs
        from rfl, decodeVec_iff]
      simp only [decodeTexts_iff, BVal.list.injEq, exists_eq_left']
    | _ => simp [decodeList]
  unfold IsUrls
  simp only [urlsOf, Res.bind_eq_ok]
  show _ ↔ ∃ first tiers, IsOptText utf8 (pairs.lookup (ascii "announce")) first ∧
    (pairs.lookup (ascii "announce-list") = none ∧ tiers = [] ∨
      ∃ vs, pairs.lookup (ascii "announce-list") = some (.list vs) ∧ vs.length = tiers.length ∧
        ∀ i (h : i < vs.length) (h' : i < tiers.length), IsTexts utf8 vs[i] tiers[i]) ∧
    us = first.toList ++ tiers.flatten
  generalize pairs.lookup (ascii "announce") = a
  generalize pairs.lookup (ascii "announce-list") = b
  constructor
  · rintro ⟨x, hx, y, hy, he⟩
    cases he
    have h1 : ∃ first, IsOptText utf8 a first ∧ x = first.toList := by
      cases a with
      | none => cases hx; exact ⟨none, .inl ⟨rfl, rfl⟩, rfl⟩
      | some v =>
        obtain ⟨u, hu, he⟩ := Res.bind_eq_ok.mp hx
        cases he
        obtain ⟨rfl, h⟩ := (decodeString_iff _ _ _).mp hu
        exact ⟨some u, .inr ⟨u, rfl, h, rfl⟩, rfl⟩
    have h2 : ∃ tiers, (b = none ∧ tiers = [] ∨ ∃ vs, b = some (.list vs) ∧ vs.length = tiers.length ∧
        ∀ i (h : i < vs.length) (h' : i < tiers.length), IsTexts utf8 vs[i] tiers[i]) ∧ y = tiers.flatten := by
      cases b with
      | none => cases hy; exact ⟨[], .inl ⟨rfl, rfl⟩, rfl⟩
      | some v =>
        obtain ⟨l, hl', he⟩ := Res.bind_eq_ok.mp hy
        cases he
        obtain ⟨vs, rfl, h⟩ := (hl _ _).mp hl'
        exact ⟨l, .inr ⟨vs, rfl, h⟩, rfl⟩
    obtain ⟨first, hf, rfl⟩ := h1
    obtain ⟨tiers, ht, rfl⟩ := h2
    exact ⟨first, tiers, hf, ht, rfl⟩
  · rintro ⟨first, tiers, hf, ht, rfl⟩
    refine ⟨first.toList, ?_, tiers.flatten, ?_, rfl⟩
    · rcases hf with ⟨rfl, rfl⟩ | ⟨t, rfl, h, rfl⟩
      · rfl
      · simp only [(decodeString_iff utf8 (.str t) t).mpr ⟨rfl, h⟩, Res.ok_bind]; rfl
    · rcases ht with ⟨rfl, rfl⟩ | ⟨vs, rfl, h⟩
      · rfl
      · simp only [(hl (.list vs) tiers).mpr ⟨vs, rfl, h⟩, Res.ok_bind]

theorem trackerNew_iff (u : Bytes) (t : TrackerAddr) : TrackerAddr.new u = .ok t ↔ Denotes u t := by
  unfold TrackerAddr.new Denotes
  by_cases h1 : (ascii "udp").isPrefixOf u = true
  · rw [if_pos h1]
    obtain ⟨r, hr⟩ := List.isPrefixOf_iff_prefix.mp h1
    constructor
    · intro h; cases h; exact .inr ⟨rfl, r, hr.symm⟩
    · rintro (⟨_, r', h⟩ | ⟨rfl, _⟩)
      · exfalso
        rw [h] at hr
        have := congrArg (List.take 1) hr
        rw [List.take_append_of_le_length (by decide), List.take_append_of_le_length (by decide)] at this
        exact absurd this (by decide)
      · rfl
  · rw [if_neg h1]
    by_cases h2 : (ascii "http").isPrefixOf u = true
    · rw [if_pos h2]
      obtain ⟨r, hr⟩ := List.isPrefixOf_iff_prefix.mp h2
      constructor
      · intro h; cases h; exact .inl ⟨rfl, r, hr.symm⟩
      · rintro (⟨rfl, _⟩ | ⟨_, r', h⟩)
        · rfl
        · exact absurd (List.isPrefixOf_iff_prefix.mpr ⟨r', h.symm⟩) h1
    · rw [if_neg h2]
      constructor
      · intro h; cases h
      · rintro (⟨_, r', h⟩ | ⟨_, r', h⟩)
        · exact absurd (List.isPrefixOf_iff_prefix.mpr ⟨r', h.symm⟩) h2
        · exact absurd (List.isPrefixOf_iff_prefix.mpr ⟨r', h.symm⟩) h1

theorem addTrackers_spec (us : List Bytes) (s : List TrackerAddr) (hs : s.Nodup) :
    (addTrackers us s).Nodup ∧ ∀ t, t ∈ addTrackers us s ↔ t ∈ s ∨ ∃ u ∈ us, Denotes u t := by
  induction us generalizing s with
  | nil => simp [addTrackers, hs]
  | cons u us ih =>
    have hcons : addTrackers (u :: us) s = addTrackers us (addTrackers [u] s) := addTrackers_append [u] us s
    have h1 : (addTrackers [u] s).Nodup ∧ ∀ t, t ∈ addTrackers [u] s ↔ t ∈ s ∨ Denotes u t := by
      cases h : TrackerAddr.new u with
      | ok a =>
        have ha : addTrackers [u] s = insertNew a s := by simp [addTrackers, h]
        rw [ha]
        unfold insertNew
        have hd : ∀ t, Denotes u t ↔ t = a := by
          intro t
          rw [← trackerNew_iff, h]
          constructor
          · intro e; cases e; rfl
          · rintro rfl; rfl
        by_cases hm : a ∈ s
        · rw [if_pos hm]
          refine ⟨hs, fun t => ?_⟩
          rw [hd]
          constructor
          · exact .inl
          · rintro (h | rfl)
            · exact h
            · exact hm
        · rw [if_neg hm]
          refine ⟨?_, fun t => ?_⟩
          · rw [List.nodup_append]
            refine ⟨hs, by simp, ?_⟩
            intro x hx y hy e
            simp only [List.mem_singleton] at hy
            subst hy; subst e
            exact hm hx
          · rw [hd]; simp
      | err =>
        have ha : addTrackers [u] s = s := by simp [addTrackers, h]
        rw [ha]
        refine ⟨hs, fun t => ⟨.inl, ?_⟩⟩
        rintro (h' | h')
        · exact h'
        · rw [← trackerNew_iff, h] at h'; cases h'
      | panic =>
        unfold TrackerAddr.new at h
        split at h
        · cases h
        · split at h <;> cases h
    obtain ⟨i1, i2⟩ := ih _ h1.1
    rw [hcons]
    refine ⟨i1, fun t => ?_⟩
    rw [i2, h1.2]
    simp only [List.mem_cons, exists_eq_or_imp, or_assoc]

theorem fromBuf_iff (sha1 : Bytes → ID) (utf8 : Bytes → Bool) (buf : Bytes) (t : Torrent) :
    Torrent.fromBuf sha1 utf8 buf = .ok t ↔
      ∃ pairs rest ips us, buf = bencode (.dict pairs) ++ rest ∧ Canonical 10 (.dict pairs) ∧
        field pairs "info" = some (.dict ips) ∧ InfoMeans utf8 ips t.info ∧
        t.infoHash = sha1 (bencode (.dict ips)) ∧ IsUrls utf8 pairs us ∧ t.announce = addTrackers us [] ∧
        t.announce ≠ [] := by
  have key : ∀ pairs, CanonicalPairs 9 pairs → (pairs.map (·.1)).Pairwise RawLt →
      ((do
        let acc ← TorrentAcc.run sha1 utf8 {} (attachRaw pairs)
        let announce ← Res.ofOption (if acc.announce ≠ [] then some acc.announce else none)
        let info ← Res.ofOption acc.info
        let infoHash ← Res.ofOption acc.infoHash
        .ok ⟨info, infoHash, announce⟩ : Res Torrent) = .ok t ↔
      ∃ ips us, field pairs "info" = some (.dict ips) ∧ InfoMeans utf8 ips t.info ∧
        t.infoHash = sha1 (bencode (.dict ips)) ∧ IsUrls utf8 pairs us ∧ t.announce = addTrackers us [] ∧
        t.announce ≠ []) := by
    intro pairs hcp hs
    simp only [Res.bind_eq_ok, torrentRun_iff sha1 utf8 9 (by omega) pairs hcp hs]
    constructor
    · rintro ⟨acc, ⟨h1, us, hu, ha⟩, an, e1, i, e2, ih, e3, ht⟩
      cases ht
      rcases h1 with ⟨_, h1, _⟩ | ⟨ips, i', hl, hi, h1, h2⟩
      · rw [h1] at e2; cases e2
      · rw [h1] at e2; cases e2
        rw [h2] at e3; cases e3
        split at e1
        · cases e1
          rename_i hne
          exact ⟨ips, us, hl, (info_iff utf8 9 ips (canonicalPairs_mem hcp _ (lookup_mem hl)) _).mp hi, rfl,
            (urls_iff _ _ _).mp hu, ha, hne⟩
        · cases e1
    · rintro ⟨ips, us, hl, hi, hh, hu, ha, hne⟩
      refine ⟨⟨some t.info, some t.infoHash, t.announce⟩, ⟨.inr ⟨ips, t.info, hl, ?_, rfl, by rw [hh]⟩, us, ?_, ha⟩,
        t.announce, ?_, t.info, rfl, t.infoHash, rfl, rfl⟩
      · exact (info_iff utf8 9 ips (canonicalPairs_mem hcp _ (lookup_mem hl)) _).mpr hi
      · exact (urls_iff _ _ _).mpr hu
      · simp only [hne, ne_eq, not_false_eq_true, if_true]; rfl
  constructor
  · intro h
    unfold Torrent.fromBuf at h
    split at h
    · rename_i bs
      rw [rawPairs_eq] at h
      obtain ⟨⟨rps, r⟩, h1, h2⟩ := Res.bind_eq_ok.mp h
      obtain ⟨⟨pairs, r'⟩, h3, h4⟩ := Res.bind_eq_ok.mp h1
      simp only [Res.ok.injEq, Prod.mk.injEq] at h4
      obtain ⟨rfl, rfl⟩ := h4
      have hp : bdecode 10 (0x64#8 :: bs) = .ok (.dict pairs, r') := by
        simp only [bdecode, List.length_cons, parseVal]
        rw [if_neg (by decide), if_neg (by decide), if_pos trivial]
        rw [show TORRENT_DEPTH - 1 = 9 from rfl] at h3
        rw [h3]; rfl
      obtain ⟨hb, hc⟩ := C62_decode_canonical _ _ _ _ hp
      have hc' := hc
      simp only [Canonical] at hc'
      obtain ⟨ips, us, hr⟩ := (key pairs hc'.1 hc'.2).mp h2
      exact ⟨pairs, r', ips, us, hb, hc, hr⟩
    · cases h
  · rintro ⟨pairs, rest, ips, us, rfl, hc, hr⟩
    have hd := C62_decode_encode 10 (.dict pairs) hc rest
    have hc' := hc
    simp only [Canonical] at hc'
    simp only [bencode, List.cons_append, bdecode, List.length_cons, parseVal] at hd ⊢
    rw [if_neg (by decide), if_neg (by decide), if_pos trivial] at hd
    obtain ⟨⟨ps, r⟩, h1, h2⟩ := Res.bind_eq_ok.mp hd
    simp only [Res.ok.injEq, Prod.mk.injEq, BVal.dict.injEq] at h2
    obtain ⟨h2, h2'⟩ := h2
    subst h2 h2'
    simp only [Torrent.fromBuf, rawPairs_eq]
    rw [show TORRENT_DEPTH - 1 = 9 from rfl, h1]
    simp only [Res.ok_bind]
    exact (key _ hc'.1 hc'.2).mpr ⟨ips, us, hr⟩

/-- C59: in an accepted file the key `info` has a dictionary as value, the identity of the torrent is the hash of
the bytes this value occupies in the file, and the file's meaning is that of this dictionary. -/
theorem C59_info_hash (sha1 : Bytes → ID) (utf8 : Bytes → Bool) (buf : Bytes) (t : Torrent)
    (h : Torrent.fromBuf sha1 utf8 buf = .ok t) :
    ∃ pre raw post pairs ips rest, buf = bencode (.dict pairs) ++ rest ∧ Canonical 10 (.dict pairs) ∧
      field pairs "info" = some (.dict ips) ∧ raw = bencode (.dict ips) ∧
      buf = pre ++ ascii "4:info" ++ raw ++ post ∧ t.infoHash = sha1 raw ∧ InfoMeans utf8 ips t.info := by
  obtain ⟨pairs, rest, ips, us, hb, hc, hl, hi, hh, _⟩ := (fromBuf_iff _ _ _ _).mp h
  have hsplit : ∀ ps : List (Bytes × BVal), ps.lookup (ascii "info") = some (.dict ips) →
      ∃ a b, bencodePairs ps = a ++ ascii "4:info" ++ bencode (.dict ips) ++ b := by
    intro ps
    induction ps with
    | nil => intro h; cases h
    | cons kv ps ih =>
      intro h
      obtain ⟨k, v⟩ := kv
      by_cases hk : k = ascii "info"
      · subst hk
        rw [List.lookup_cons_self] at h
        cases h
        refine ⟨[], bencodePairs ps, ?_⟩
        rw [bencodePairs, show bencodeStr (ascii "info") = ascii "4:info" by decide]
        simp
      · rw [lookup_cons_ne hk] at h
        obtain ⟨a, b, hab⟩ := ih h
        refine ⟨bencodeStr k ++ bencode v ++ a, b, ?_⟩
        rw [bencodePairs, hab]
        simp
  obtain ⟨a, b, hab⟩ := hsplit pairs hl
  refine ⟨0x64#8 :: a, _, b ++ rest, pairs, ips, rest, hb, hc, hl, rfl, ?_, hh, hi⟩
  rw [hb, bencode, hab]
  simp

/-- C59: the identity does not depend on anything else in the file. -/
theorem C59_only_info (sha1 : Bytes → ID) (utf8 : Bytes → Bool) (p q : List (Bytes × BVal)) (r s : Bytes)
    (hp : Canonical 10 (.dict p)) (hq : Canonical 10 (.dict q)) (t u : Torrent)
    (ht : Torrent.fromBuf sha1 utf8 (bencode (.dict p) ++ r) = .ok t)
    (hu : Torrent.fromBuf sha1 utf8 (bencode (.dict q) ++ s) = .ok u)
    (h : field p "info" = field q "info") : t.infoHash = u.infoHash := by
  obtain ⟨p', r', ips, _, hb, hc, hl, _, hh, _⟩ := (fromBuf_iff _ _ _ _).mp ht
  obtain ⟨q', s', iqs, _, hb', hc', hl', _, hh', _⟩ := (fromBuf_iff _ _ _ _).mp hu
  obtain ⟨e, _⟩ := C62_encoding_injective 10 _ _ hp hc _ _ hb
  obtain ⟨e', _⟩ := C62_encoding_injective 10 _ _ hq hc' _ _ hb'
  cases e; cases e'
  rw [hl, hl'] at h
  cases h
  rw [hh, hh']

/-- C60: the trackers are exactly the supported URLs of `announce` and `announce-list`, each once, and there is at
least one. -/
theorem C60_trackers (sha1 : Bytes → ID) (utf8 : Bytes → Bool) (buf : Bytes) (t : Torrent)
    (h : Torrent.fromBuf sha1 utf8 buf = .ok t) :
    ∃ pairs rest urls, buf = bencode (.dict pairs) ++ rest ∧ IsUrls utf8 pairs urls ∧
      (∀ a, a ∈ t.announce ↔ ∃ u ∈ urls, Denotes u a) ∧ t.announce.Nodup ∧ t.announce ≠ [] := by
  obtain ⟨pairs, rest, ips, us, hb, hc, hl, hi, hh, hu, ha, hne⟩ := (fromBuf_iff _ _ _ _).mp h
  have := addTrackers_spec us [] (by simp)
  refine ⟨pairs, rest, us, hb, hu, ?_, by rw [ha]; exact this.1, hne⟩
  intro a
  rw [ha, this.2]
  simp

/-- C60: which files are accepted: exactly those with an understandable info dictionary and at least one supported
tracker. -/
theorem C60_accepted (sha1 : Bytes → ID) (utf8 : Bytes → Bool) (buf : Bytes) :
    (∃ t, Torrent.fromBuf sha1 utf8 buf = .ok t) ↔
      ∃ pairs rest ips i urls, buf = bencode (.dict pairs) ++ rest ∧ Canonical 10 (.dict pairs) ∧
        field pairs "info" = some (.dict ips) ∧ InfoMeans utf8 ips i ∧ IsUrls utf8 pairs urls ∧
        ∃ u ∈ urls, ∃ a, Denotes u a := by
  constructor
  · rintro ⟨t, h⟩
    obtain ⟨pairs, rest, ips, us, hb, hc, hl, hi, hh, hu, ha, hne⟩ := (fromBuf_iff _ _ _ _).mp h
    refine ⟨pairs, rest, ips, t.info, us, hb, hc, hl, hi, hu, ?_⟩
    cases hx : t.announce with
    | nil => exact absurd hx hne
    | cons a as =>
      have hm : a ∈ addTrackers us [] := by rw [← ha, hx]; simp
      rw [(addTrackers_spec us [] (by simp)).2] at hm
      rcases hm with hm | ⟨u, hu, hd⟩
      · simp at hm
      · exact ⟨u, hu, a, hd⟩
  · rintro ⟨pairs, rest, ips, i, us, hb, hc, hl, hi, hu, u, hmem, a, hd⟩
    refine ⟨⟨i, sha1 (bencode (.dict ips)), addTrackers us []⟩, (fromBuf_iff _ _ _ _).mpr
      ⟨pairs, rest, ips, us, hb, hc, hl, hi, rfl, hu, rfl, ?_⟩⟩
    intro hnil
    have : a ∈ addTrackers us [] := ((addTrackers_spec us [] (by simp)).2 a).mpr (.inr ⟨u, hmem, hd⟩)
    simp only at hnil
    rw [hnil] at this
    simp at this

/-- C60: the URLs announced to over HTTP are those of the HTTP trackers. -/
theorem C60_http_trackers (t : Torrent) (u : Bytes) : u ∈ t.httpTrackers ↔ .http u ∈ t.announce := by
  unfold Torrent.httpTrackers
  rw [List.mem_filterMap]
  constructor
  · rintro ⟨a, ha, h⟩
    cases a with
    | http v => simp only [Option.some.injEq] at h; subst h; exact ha
    | udp v => cases h
  · intro h; exact ⟨_, h, rfl⟩

/-! ## Concrete files -/

/-- A hash function for the examples. -/
def demoSha1 (bs : Bytes) : ID := ⟨List.replicate 20 (BitVec.ofNat 8 bs.length), List.length_replicate⟩

/-- A single-file torrent of 5 bytes in pieces of 4, with an unsupported tracker besides an HTTP one. -/
def demoMetainfo : Bytes := ascii ("d8:announce7:wss://a13:announce-listll8:http://be8:" ++
  "http://bee4:infod6:lengthi5e4:name1:x12:piece lengthi4e6:pieces40:" ++
  "aaaaaaaaaaaaaaaaaaaabbbbbbbbbbbbbbbbbbbbee")

/-- The same with the second tier a proper list. -/
def demoMetainfo2 : Bytes := ascii ("d8:announce7:wss://a13:announce-listll8:http://belel8:http://bee4:" ++
  "infod6:lengthi5e4:name1:x12:piece lengthi4e6:pieces40:" ++
  "aaaaaaaaaaaaaaaaaaaabbbbbbbbbbbbbbbbbbbbee")

example : (Torrent.fromBuf demoSha1 (fun _ => true) demoMetainfo) = .err := by decide +kernel

/-- The second file is accepted, with one tracker. -/
theorem demo_accepted : ∃ t, Torrent.fromBuf demoSha1 (fun _ => true) demoMetainfo2 = .ok t ∧
    t.announce = [.http (ascii "http://b")] := by
  have h : (match Torrent.fromBuf demoSha1 (fun _ => true) demoMetainfo2 with
    | .ok t => decide (t.announce = [.http (ascii "http://b")])
    | _ => false) = true := by decide +kernel
  cases e : Torrent.fromBuf demoSha1 (fun _ => true) demoMetainfo2 with
  | ok t => rw [e] at h; exact ⟨t, rfl, of_decide_eq_true h⟩
  | err => rw [e] at h; cases h
  | panic => rw [e] at h; cases h

/-! ## C61 -/

/-- C61, what holds: an accepted torrent has at least one piece hash, as many pieces as hashes, and its numbers fit 64 bits. Missing: the
piece length may be zero and the number of hashes need not match the total length; nothing checks them. -/
theorem C61_shape_partial (sha1 : Bytes → ID) (utf8 : Bytes → Bool) (buf : Bytes) (t : Torrent)
    (h : Torrent.fromBuf sha1 utf8 buf = .ok t) :
    0 < t.info.pieces.length ∧ t.countPieces = t.info.pieces.length ∧ t.info.pieceLength < 2 ^ 64 := by
  obtain ⟨pairs, rest, ips, us, hb, hc, hl, hi, hh, hu, ha, hne⟩ := (fromBuf_iff _ _ _ _).mp h
  obtain ⟨raw, _, hr1, hr2⟩ := hi.pieces
  refine ⟨?_, rfl, hi.pieceLength.2⟩
  cases hp : t.info.pieces with
  | nil => rw [hp] at hr2; exact absurd hr2 hr1
  | cons a as => simp

/-- A metainfo file of 5 bytes with the given piece length and number of hashes. -/
def sizedMetainfo (pieceLength : String) (hashes : String) : Bytes :=
  ascii ("d8:announce8:http://b4:infod6:lengthi5e4:name1:x12:piece lengthi" ++ pieceLength ++ "e6:pieces" ++ hashes ++
    "ee")

/-- C61 fails: a piece length of zero is accepted. -/
theorem C61_zero_violated : ∃ t,
    Torrent.fromBuf demoSha1 (fun _ => true) (sizedMetainfo "0" "20:aaaaaaaaaaaaaaaaaaaa") = .ok t ∧
      t.info.pieceLength = 0 := by
  have h : (match Torrent.fromBuf demoSha1 (fun _ => true) (sizedMetainfo "0" "20:aaaaaaaaaaaaaaaaaaaa") with
    | .ok t => decide (t.info.pieceLength = 0)
    | _ => false) = true := by decide +kernel
  cases e : Torrent.fromBuf demoSha1 (fun _ => true) (sizedMetainfo "0" "20:aaaaaaaaaaaaaaaaaaaa") with
  | ok t => rw [e] at h; exact ⟨t, rfl, of_decide_eq_true h⟩
  | err => rw [e] at h; cases h
  | panic => rw [e] at h; cases h

/-- C61 fails: five bytes in pieces of four need two hashes, and one is accepted. -/
theorem C61_count_violated : ∃ t,
    Torrent.fromBuf demoSha1 (fun _ => true) (sizedMetainfo "4" "20:aaaaaaaaaaaaaaaaaaaa") = .ok t ∧
      t.info.length = .ok 5 ∧ t.info.pieceLength = 4 ∧ t.info.pieces.length = 1 := by
  have h : (match Torrent.fromBuf demoSha1 (fun _ => true) (sizedMetainfo "4" "20:aaaaaaaaaaaaaaaaaaaa") with
    | .ok t => decide (t.info.length = .ok 5 ∧ t.info.pieceLength = 4 ∧ t.info.pieces.length = 1)
    | _ => false) = true := by decide +kernel
  cases e : Torrent.fromBuf demoSha1 (fun _ => true) (sizedMetainfo "4" "20:aaaaaaaaaaaaaaaaaaaa") with
  | ok t => rw [e] at h; exact ⟨t, rfl, of_decide_eq_true h⟩
  | err => rw [e] at h; cases h
  | panic => rw [e] at h; cases h

/-! ## C63 -/

theorem hasher_fold (data : List Bytes) (h : Hasher) : (data.foldl Hasher.update h).fed = h.fed ++ data.flatten := by
  induction data generalizing h with
  | nil => simp
  | cons b bs ih => simp [ih, Hasher.update]

/-- C63: the hash of a piece is the hash of its bytes. -/
theorem C63_piece_hash (sha1 : Bytes → ID) (data : List Bytes) :
    Torrent.pieceHash sha1 data = sha1 data.flatten := by
  unfold Torrent.pieceHash Hasher.finish
  rw [hasher_fold]; rfl

/-- C63: however the same bytes are divided into blocks, the hash is the same. -/
theorem C63_division (sha1 : Bytes → ID) (a b : List Bytes) (h : a.flatten = b.flatten) :
    Torrent.pieceHash sha1 a = Torrent.pieceHash sha1 b := by rw [C63_piece_hash, C63_piece_hash, h]

/-- The function the downloader's model calls is this one. -/
theorem C63_downloader_hash (sha1 : Bytes → ID) (data : List Bytes) :
    Dl.pieceHash sha1 data = Torrent.pieceHash sha1 data := (C63_piece_hash sha1 data).symm

/-- C63: when a block completes a piece, the downloader takes the piece for good iff the hash of its bytes is the
hash the piece was assigned with. -/
theorem C63_verified (p : Profile) (sha1 : Bytes → ID) (d d' : Dl.State) (pend pend' pend'' : PendingPieces)
    (b : Piece) (out : Dl.BlockOut) (idx : Nat) (blocks : List Bytes)
    (h : Dl.foo p sha1 d pend b = .ok (d', pend', out)) (hout : out ≠ .ignored)
    (hadd : pend.addBlockData p b.index.toNat (b.begin_.toNat / 16384) b.block = .ok (pend'', .addedLast idx blocks)) :
    ∃ hash, d.currentPieces.get? b.index.toNat = some hash ∧
      (out = .finished idx blocks ↔ sha1 blocks.flatten = hash) ∧
      (out = .mismatch idx ↔ sha1 blocks.flatten ≠ hash) := by
  unfold Dl.foo at h
  have hbs : BLOCK_SIZE = 16384 := rfl
  split at h
  · cases h; exact absurd rfl hout
  · split at h
    · cases h; exact absurd rfl hout
    · rename_i hash hh
      simp only at h
      split at h
      · cases h; exact absurd rfl hout
      · rw [hbs, hadd] at h
        obtain ⟨r, _, h⟩ := Res.bind_eq_ok.mp h
        simp only [Res.ok_bind] at h
        rw [show sha1 blocks.flatten = Dl.pieceHash sha1 blocks from rfl]
        refine ⟨hash, hh, ?_⟩
        by_cases he : Dl.pieceHash sha1 blocks = hash
        · rw [if_neg (not_not_intro he)] at h
          cases h
          simp [he]
        · rw [if_pos he] at h
          cases h
          simp [he]

/-- C63 for the (unused) `_is_valid_piece`: on full blocks of the declared number its answer is the comparison of
hashes. Missing: a last piece that is shorter (see `C63_short_block_violated`). -/
theorem C63_is_valid_piece_partial (sha1 : Bytes → ID) (t : Torrent) (idx : Nat) (data : List Bytes)
    (hp : 0 < t.info.pieceLength) (hi : idx < t.info.pieces.length)
    (hd : data.length = 1 + (t.info.pieceLength - 1) / 16384) (hb : ∀ b ∈ data, b.length = 16384) :
    t.isValidPiece sha1 idx data = .ok true ↔ sha1 data.flatten = t.info.pieces[idx] := by
  unfold Torrent.isValidPiece
  rw [unsignedCeilDiv_of_pos hp (by decide)]
  simp only [Res.ok_bind, hd, if_true]
  have hall : (data.all fun b => decide (b.length = 16384)) = true := by
    rw [List.all_eq_true]
    intro b hm
    exact decide_eq_true (hb b hm)
  rw [if_pos hall]
  simp only [index, List.getElem?_eq_getElem hi, Res.unwrap, Res.ok_bind, C63_piece_hash, Res.ok.injEq,
    decide_eq_true_eq]
  exact eq_comm

/-- C63 fails for the (unused) `_is_valid_piece`: a last piece that ends inside a block is refused although its hash
is the recorded one. -/
theorem C63_short_block_violated (sha1 : Bytes → ID) : ∃ (t : Torrent) (data : List Bytes),
    t.info.length = .ok 1 ∧ t.info.pieces[0]? = some (sha1 data.flatten) ∧ data.flatten.length = 1 ∧
      t.isValidPiece sha1 0 data = .ok false :=
  ⟨⟨⟨[], 16384, [sha1 [7#8]], .single 1⟩, sha1 [], []⟩, [[7#8]], rfl, rfl, rfl, by
    unfold Torrent.isValidPiece
    rw [unsignedCeilDiv_of_pos (by show 0 < 16384; omega) (by omega)]
    simp⟩

/-- The hypotheses of `C63_is_valid_piece_partial` can be met. -/
example (sha1 : Bytes → ID) : ∃ (t : Torrent) (data : List Bytes), 0 < t.info.pieceLength ∧
    0 < t.info.pieces.length ∧ data.length = 1 + (t.info.pieceLength - 1) / 16384 ∧ ∀ b ∈ data, b.length = 16384 :=
  ⟨⟨⟨[], 16384, [sha1 [7#8]], .single 1⟩, sha1 [], []⟩, [List.replicate 16384 7#8], (by show 0 < 16384; omega),
    (by show 0 < [sha1 [7#8]].length; rw [List.length_singleton]; omega), (by rw [List.length_singleton]; show 1 = 1 + (16384 - 1) / 16384; omega),
    fun b hb => by rw [List.mem_singleton.mp hb, List.length_replicate]⟩

/-- The info dictionary of `demoMetainfo2`. -/
def demoInfoPairs : List (Bytes × BVal) := [(ascii "length", .int 5), (ascii "name", .str (ascii "x")),
  (ascii "piece length", .int 4), (ascii "pieces", .str (List.replicate 40 7#8))]

/-- The hypotheses of `C59_only_info`, `C59_info_hash`, `C60_trackers` and `C61_shape_partial`: two files with the same info
dictionary and different trackers. -/
example : ∃ t u,
    Canonical 10 (.dict [(ascii "announce", .str (ascii "http://a")), (ascii "info", .dict demoInfoPairs)]) ∧
    Canonical 10 (.dict [(ascii "announce", .str (ascii "http://b")), (ascii "info", .dict demoInfoPairs)]) ∧
    Torrent.fromBuf demoSha1 (fun _ => true)
      (bencode (.dict [(ascii "announce", .str (ascii "http://a")), (ascii "info", .dict demoInfoPairs)]) ++ []) = .ok t ∧
    Torrent.fromBuf demoSha1 (fun _ => true)
      (bencode (.dict [(ascii "announce", .str (ascii "http://b")), (ascii "info", .dict demoInfoPairs)]) ++ [1#8]) = .ok u ∧
    t.announce ≠ u.announce := by
  have h : (match Torrent.fromBuf demoSha1 (fun _ => true)
      (bencode (.dict [(ascii "announce", .str (ascii "http://a")), (ascii "info", .dict demoInfoPairs)]) ++ []),
    Torrent.fromBuf demoSha1 (fun _ => true)
      (bencode (.dict [(ascii "announce", .str (ascii "http://b")), (ascii "info", .dict demoInfoPairs)]) ++ [1#8]) with
    | .ok t, .ok u => decide (t.announce ≠ u.announce)
    | _, _ => false) = true := by decide +kernel
  have hc : ∀ a : Bytes, a.length < 2 ^ 64 →
      Canonical 10 (.dict [(ascii "announce", .str a), (ascii "info", .dict demoInfoPairs)]) := by
    intro a ha
    simp only [Canonical, CanonicalPairs, demoInfoPairs]
    refine ⟨⟨by decide, ha, by decide, ⟨⟨by decide, trivial, by decide, by decide, by decide, trivial, by decide, by simp,
      trivial⟩, ?_⟩, trivial⟩, ?_⟩
    · exact List.Pairwise.imp (fun h => (bytesLt_iff _ _).mp h)
        (by decide : [ascii "length", ascii "name", ascii "piece length", ascii "pieces"].Pairwise
          fun a b => bytesLt a b = true)
    · exact List.Pairwise.imp (fun h => (bytesLt_iff _ _).mp h)
        (by decide : [ascii "announce", ascii "info"].Pairwise fun a b => bytesLt a b = true)
  split at h
  · rename_i t u ht hu
    exact ⟨t, u, hc _ (by decide), hc _ (by decide), ht, hu, of_decide_eq_true h⟩
  · cases h

/-- The hypotheses of `C63_verified`: the only block of piece 3 arrives. -/
example (sha1 : Bytes → ID) (hash : ID) : ∃ d' pend' out,
    Dl.foo .release sha1 ⟨.select, [(3, hash)], [⟨3, 0, .requested⟩], 1⟩
      ⟨4, 1, [(3, ⟨0, 0, [.pending ⟨⟨⟨1, 2, 3, 4⟩, 80⟩⟩ 0]⟩)]⟩ ⟨3#32, 0#32, [1, 2, 3, 4]⟩ = .ok (d', pend', out) ∧
    out ≠ .ignored ∧
    (⟨4, 1, [(3, ⟨0, 0, [.pending ⟨⟨⟨1, 2, 3, 4⟩, 80⟩⟩ 0]⟩)]⟩ : PendingPieces).addBlockData .release 3 0 [1, 2, 3, 4] =
      .ok (⟨4, 1, []⟩, .addedLast 3 [[1, 2, 3, 4]]) := by
  have ha : (⟨4, 1, [(3, ⟨0, 0, [.pending ⟨⟨⟨1, 2, 3, 4⟩, 80⟩⟩ 0]⟩)]⟩ : PendingPieces).addBlockData .release 3 0 [1, 2, 3, 4] =
      .ok (⟨4, 1, []⟩, .addedLast 3 [[1, 2, 3, 4]]) := by decide
  have hf : Dl.foo .release sha1 ⟨.select, [(3, hash)], [⟨3, 0, .requested⟩], 1⟩
      ⟨4, 1, [(3, ⟨0, 0, [.pending ⟨⟨⟨1, 2, 3, 4⟩, 80⟩⟩ 0]⟩)]⟩ ⟨3#32, 0#32, [1, 2, 3, 4]⟩ =
      if Dl.pieceHash sha1 [[1, 2, 3, 4]] ≠ hash then
        .ok (⟨.readd 3, [(3, hash)], [], 1⟩, ⟨4, 1, []⟩, .mismatch 3)
      else .ok (⟨.take, [(3, hash)], [], 1⟩, ⟨4, 1, []⟩, .finished 3 [[1, 2, 3, 4]]) := rfl
  rw [hf]
  split
  · exact ⟨_, _, _, rfl, by simp, ha⟩
  · exact ⟨_, _, _, rfl, by simp, ha⟩

end Nargun
