import Verif.Spec.Announce
import Verif.Lemmas.Bencode

/-! # C43, C44: the announce URL -/

set_option linter.unusedSimpArgs false

namespace Nargun

open Spec

theorem forall_byte (P : Byte → Prop) [DecidablePred P] (h : ∀ n : Fin 256, P (BitVec.ofNat 8 n.val)) (b : Byte) :
    P b := by
  have := h ⟨b.toNat, b.isLt⟩
  simpa using this

theorem unreserved_iff (b : Byte) : urlUnreserved b = true ↔ Unreserved b := by
  unfold Unreserved
  revert b
  apply forall_byte
  decide +kernel

theorem encodeByte_cases (b : Byte) :
    (Unreserved b ∧ urlEncodeByte b = [b] ∧ b ≠ 0x25#8 ∧ b ≠ 0x2b#8) ∨
    ∃ h l, urlEncodeByte b = [0x25#8, h, l] ∧ h ∈ ascii "0123456789ABCDEF" ∧ l ∈ ascii "0123456789ABCDEF" ∧
      ∃ x y, hexValue h = some x ∧ hexValue l = some y ∧ BitVec.ofNat 8 (16 * x + y) = b := by
  by_cases hu : urlUnreserved b = true
  · refine .inl ⟨(unreserved_iff b).mp hu, by simp [urlEncodeByte, hu], ?_, ?_⟩
    · rintro rfl; simp [urlUnreserved] at hu
    · rintro rfl; simp [urlUnreserved] at hu
  · refine .inr ⟨_, _, by simp only [urlEncodeByte, if_neg hu]; rfl, ?_, ?_, b.toNat / 16, b.toNat % 16, ?_, ?_, ?_⟩
    · exact forall_byte (fun b => toHexDigit (b.toNat / 16) ∈ ascii "0123456789ABCDEF") (by decide +kernel) b
    · exact forall_byte (fun b => toHexDigit (b.toNat % 16) ∈ ascii "0123456789ABCDEF") (by decide +kernel) b
    · exact forall_byte (fun b => hexValue (toHexDigit (b.toNat / 16)) = some (b.toNat / 16)) (by decide +kernel) b
    · exact forall_byte (fun b => hexValue (toHexDigit (b.toNat % 16)) = some (b.toNat % 16)) (by decide +kernel) b
    · apply BitVec.eq_of_toNat_eq
      rw [BitVec.toNat_ofNat]
      have := b.isLt
      omega

/-- C43: the text of a binary value consists of unreserved characters and `%XX` escapes. -/
theorem C43_escaped (bs : Bytes) : Escaped (urlEncode bs) := by
  induction bs with
  | nil => exact .nil
  | cons b bs ih =>
    simp only [urlEncode, List.flatMap_cons] at ih ⊢
    rcases encodeByte_cases b with ⟨h1, h2, _⟩ | ⟨h, l, h1, h2, h3, _⟩
    · rw [h2]; exact .plain _ _ h1 ih
    · rw [h1]; exact .escape _ _ _ h2 h3 ih

theorem percentDecode_cons (b : Byte) (bs : Bytes) (h : b ≠ 0x25#8) : percentDecode (b :: bs) =
    match percentDecode bs with
      | some ds => some ((if b = 0x2b#8 then 0x20#8 else b) :: ds)
      | none => none := by
  rw [percentDecode.eq_def]
  simp only [h, if_false]
  rfl

/-- C43: it decodes to the original bytes. -/
theorem C43_decodes (bs : Bytes) : percentDecode (urlEncode bs) = some bs := by
  induction bs with
  | nil => rfl
  | cons b bs ih =>
    simp only [urlEncode, List.flatMap_cons] at ih ⊢
    rcases encodeByte_cases b with ⟨_, h2, h3, h4⟩ | ⟨h, l, h1, _, _, x, y, hx, hy, hb⟩
    · rw [h2]
      simp only [List.cons_append, List.nil_append]
      rw [percentDecode_cons _ _ h3, ih]
      simp only
      rw [if_neg h4]
    · rw [h1]
      simp only [List.cons_append, List.nil_append, percentDecode]
      rw [if_pos trivial, hx, hy, ih]
      simp only [hb]

/-- C43: different values give different text. -/
theorem C43_injective (a b : Bytes) (h : urlEncode a = urlEncode b) : a = b := by
  have h1 := C43_decodes a
  rw [h, C43_decodes b] at h1
  exact (Option.some.inj h1).symm

/-- `C43_escaped`, `C43_decodes`: bytes that stay as they are and bytes that are escaped; a lower-case escape is decoded as
well, a broken one is not. -/
example : urlEncode [0x41#8, 0x20#8, 0x7e#8, 0xff#8] = ascii "A%20~%FF" ∧
    percentDecode (ascii "A%20~%FF") = some [0x41#8, 0x20#8, 0x7e#8, 0xff#8] ∧ percentDecode (ascii "A%2") = none := by
  decide +kernel

theorem escaped_avoids (c : Byte) (hc : ¬ Unreserved c) (hp : c ≠ 0x25#8) (hx : c ∉ ascii "0123456789ABCDEF")
    (bs : Bytes) (h : Escaped bs) : c ∉ bs := by
  induction h with
  | nil => simp
  | plain b rest hu _ ih =>
    intro hm
    rcases List.mem_cons.mp hm with rfl | hm
    · exact hc hu
    · exact ih hm
  | escape h l rest hh hl _ ih =>
    intro hm
    simp only [List.mem_cons] at hm
    rcases hm with rfl | rfl | rfl | hm
    · exact hp rfl
    · exact hx hh
    · exact hx hl
    · exact ih hm

/-! ## Splitting -/

theorem splitAll_none (sep : Byte) (a : Bytes) (h : sep ∉ a) : splitAll sep a = [a] := by
  induction a with
  | nil => rfl
  | cons b bs ih =>
    simp only [List.mem_cons, not_or] at h
    simp only [splitAll, ih h.2]
    rw [if_neg (fun e => h.1 e.symm)]

theorem splitAll_cons (sep : Byte) (a rest : Bytes) (h : sep ∉ a) :
    splitAll sep (a ++ sep :: rest) = a :: splitAll sep rest := by
  induction a with
  | nil => simp [splitAll]
  | cons b bs ih =>
    simp only [List.mem_cons, not_or] at h
    simp only [List.cons_append, splitAll, ih h.2]
    rw [if_neg (fun e => h.1 e.symm)]

theorem splitFirst_mid (sep : Byte) (a rest : Bytes) (h : sep ∉ a) : splitFirst sep (a ++ sep :: rest) = (a, rest) := by
  induction a with
  | nil => simp [splitFirst]
  | cons b bs ih =>
    simp only [List.mem_cons, not_or] at h
    simp only [splitFirst, Prod.mk.injEq] at ih ⊢
    have hb : (b != sep) = true := by simp [Ne.symm h.1]
    obtain ⟨i1, i2⟩ := ih h.2
    constructor
    · simp only [List.cons_append, List.takeWhile_cons, hb, if_true, i1]
    · simp only [List.cons_append, List.dropWhile_cons, hb, if_true, i2]

theorem splitFirst_none (sep : Byte) (a : Bytes) (h : sep ∉ a) : (splitFirst sep a).1 = a := by
  induction a with
  | nil => simp [splitFirst]
  | cons b bs ih =>
    simp only [List.mem_cons, not_or] at h
    have hb : (b != sep) = true := by simp [Ne.symm h.1]
    simp only [splitFirst] at ih ⊢
    simp only [List.takeWhile_cons, hb, if_true, ih h.2]

/-- Parameters written one after the other. -/
def joinParams : List (Bytes × Bytes) → Bytes
  | [] => []
  | [(k, v)] => k ++ 0x3d#8 :: v
  | (k, v) :: kv :: rest => k ++ 0x3d#8 :: v ++ 0x26#8 :: joinParams (kv :: rest)

theorem rawParams_join (l : List (Bytes × Bytes)) (hne : l ≠ [])
    (h : ∀ kv ∈ l, 0x26#8 ∉ kv.1 ∧ 0x3d#8 ∉ kv.1 ∧ 0x26#8 ∉ kv.2) : rawParams (joinParams l) = l := by
  induction l with
  | nil => exact absurd rfl hne
  | cons kv rest ih =>
    obtain ⟨k, v⟩ := kv
    obtain ⟨h1, h2, h3⟩ := h (k, v) (by simp)
    have hkv : 0x26#8 ∉ k ++ 0x3d#8 :: v := by
      simp only [List.mem_append, List.mem_cons, not_or]
      exact ⟨h1, by decide, h3⟩
    cases rest with
    | nil =>
      simp only [joinParams, rawParams]
      rw [splitAll_none _ _ hkv]
      simp only [List.map_cons, List.map_nil, splitFirst_mid _ _ _ h2]
    | cons kv' rest' =>
      have := ih (by simp) (fun x hx => h x (by simp only [List.mem_cons] at hx ⊢; exact .inr hx))
      simp only [joinParams, rawParams] at this ⊢
      rw [splitAll_cons _ _ _ hkv]
      simp only [List.map_cons, splitFirst_mid _ _ _ h2]
      rw [this]

/-- The raw parameters of an announce. -/
def rawAnnounce (a : Announce) : List (Bytes × Bytes) :=
  [(ascii "info_hash", urlEncode a.infoHash.bytes), (ascii "peer_id", urlEncode a.peerId.bytes),
   (ascii "port", decimal a.port.toNat), (ascii "uploaded", decimal a.uploaded),
   (ascii "downloaded", decimal a.downloaded), (ascii "left", decimal a.left),
   (ascii "compact", decimal (if a.compact then 1 else 0))]
  ++ (if a.compact then [] else [(ascii "no_peer_id", decimal (if a.noPeerId then 1 else 0))])
  ++ (match a.event with
      | none => []
      | some e => [(ascii "event", e.text)])
  ++ (match a.trackerId with
      | none => []
      | some t => [(ascii "trackerid", t)])

theorem joinParams_append (l m : List (Bytes × Bytes)) (hl : l ≠ []) (hm : m ≠ []) :
    joinParams (l ++ m) = joinParams l ++ 0x26#8 :: joinParams m := by
  induction l with
  | nil => exact absurd rfl hl
  | cons kv rest ih =>
    obtain ⟨k, v⟩ := kv
    cases rest with
    | nil =>
      cases m with
      | nil => exact absurd rfl hm
      | cons x xs => simp [joinParams]
    | cons y ys =>
      have := ih (by simp)
      simp only [List.cons_append, joinParams] at this ⊢
      rw [this]
      simp

theorem asUrl_eq (a : Announce) : a.asUrl = a.trackerUrl ++ 0x3f#8 :: joinParams (rawAnnounce a) := by
  have e1 : ascii "?info_hash=" = 0x3f#8 :: (ascii "info_hash" ++ [0x3d#8]) := by decide
  have e2 : ascii "&peer_id=" = 0x26#8 :: (ascii "peer_id" ++ [0x3d#8]) := by decide
  have e3 : ascii "&port=" = 0x26#8 :: (ascii "port" ++ [0x3d#8]) := by decide
  have e4 : ascii "&uploaded=" = 0x26#8 :: (ascii "uploaded" ++ [0x3d#8]) := by decide
  have e5 : ascii "&downloaded=" = 0x26#8 :: (ascii "downloaded" ++ [0x3d#8]) := by decide
  have e6 : ascii "&left=" = 0x26#8 :: (ascii "left" ++ [0x3d#8]) := by decide
  have e7 : ascii "&compact=" = 0x26#8 :: (ascii "compact" ++ [0x3d#8]) := by decide
  have e8 : ascii "&no_peer_id=" = 0x26#8 :: (ascii "no_peer_id" ++ [0x3d#8]) := by decide
  have e9 : ascii "&event=" = 0x26#8 :: (ascii "event" ++ [0x3d#8]) := by decide
  have e10 : ascii "&trackerid=" = 0x26#8 :: (ascii "trackerid" ++ [0x3d#8]) := by decide
  unfold Announce.asUrl rawAnnounce
  rw [e1, e2, e3, e4, e5, e6, e7, e8, e9, e10]
  cases a.compact <;> cases a.event <;> cases a.trackerId <;>
    simp only [Bool.false_eq_true, if_false, if_true, List.append_nil, List.cons_append, List.nil_append,
      joinParams, List.append_assoc]

theorem decimal_eq_number (n : Nat) : decimal n = number n := by
  unfold decimal number ascii
  rw [show (toString n).toList = Nat.toDigits 10 n by
    show (String.ofList (Nat.toDigits 10 n)).toList = _
    simp]

theorem decimal_avoids (c : Byte) (hc : isDigit c = false) (n : Nat) : c ∉ decimal n := by
  intro h
  rw [decimal_digits n c h] at hc
  cases hc

theorem percentDecode_plain (bs : Bytes) (h1 : 0x25#8 ∉ bs) (h2 : 0x2b#8 ∉ bs) : percentDecode bs = some bs := by
  induction bs with
  | nil => rfl
  | cons b bs ih =>
    simp only [List.mem_cons, not_or] at h1 h2
    rw [percentDecode_cons _ _ (fun e => h1.1 e.symm), ih h1.2 h2.2]
    simp only
    rw [if_neg (fun e => h2.1 e.symm)]

theorem percentDecode_decimal (n : Nat) : percentDecode (decimal n) = some (number n) := by
  rw [percentDecode_plain _ (decimal_avoids _ (by decide) n) (decimal_avoids _ (by decide) n), decimal_eq_number]

theorem encode_avoids (c : Byte) (hc : urlUnreserved c = false) (hp : c ≠ 0x25#8)
    (hx : c ∉ ascii "0123456789ABCDEF") (bs : Bytes) : c ∉ urlEncode bs :=
  escaped_avoids c (fun h => by rw [(unreserved_iff c).mpr h] at hc; cases hc) hp hx _ (C43_escaped bs)

theorem event_avoids (e : AnnounceEvent) :
    0x26#8 ∉ e.text ∧ 0x23#8 ∉ e.text ∧ 0x25#8 ∉ e.text ∧ 0x2b#8 ∉ e.text := by
  cases e <;> decide

theorem joinParams_avoids (c : Byte) (hc1 : c ≠ 0x3d#8) (hc2 : c ≠ 0x26#8) (l : List (Bytes × Bytes))
    (h : ∀ kv ∈ l, c ∉ kv.1 ∧ c ∉ kv.2) : c ∉ joinParams l := by
  induction l with
  | nil => simp [joinParams]
  | cons kv rest ih =>
    obtain ⟨k, v⟩ := kv
    obtain ⟨h1, h2⟩ := h (k, v) (by simp)
    cases rest with
    | nil =>
      simp only [joinParams, List.mem_append, List.mem_cons, not_or]
      exact ⟨h1, hc1, h2⟩
    | cons kv' rest' =>
      have := ih (fun x hx => h x (by simp only [List.mem_cons] at hx ⊢; exact .inr hx))
      simp only [joinParams, List.mem_append, List.mem_cons, not_or]
      exact ⟨⟨h1, hc1, h2⟩, hc2, this⟩

theorem rawAnnounce_avoids (a : Announce) (c : Byte) (hu : urlUnreserved c = false) (hp : c ≠ 0x25#8)
    (hk : ∀ kv ∈ rawAnnounce { a with trackerId := some [] }, c ∉ kv.1) (ht : ∀ t, a.trackerId = some t → c ∉ t)
    (he : ∀ e : AnnounceEvent, c ∉ e.text) (hx : c ∉ ascii "0123456789ABCDEF") (hd : isDigit c = false) :
    ∀ kv ∈ rawAnnounce a, c ∉ kv.1 ∧ c ∉ kv.2 := by
  have hki : ∀ kv ∈ rawAnnounce a, c ∉ kv.1 := by
    intro kv hkv
    simp only [rawAnnounce, List.mem_append] at hk hkv
    rcases hkv with hkv | hkv
    · exact hk kv (.inl hkv)
    · cases htid : a.trackerId with
      | none => rw [htid] at hkv; simp at hkv
      | some t =>
        rw [htid] at hkv
        simp only [List.mem_singleton] at hkv
        subst hkv
        have := hk (ascii "trackerid", []) (.inr (by simp))
        exact this
  intro kv hkv
  refine ⟨hki kv hkv, ?_⟩
  have hn := fun n => decimal_avoids c hd n
  have henc := encode_avoids c hu hp hx
  simp only [rawAnnounce, List.mem_append, List.mem_cons, List.not_mem_nil, or_false] at hkv
  rcases hkv with ((hkv | hkv) | hkv) | hkv
  · rcases hkv with rfl | rfl | rfl | rfl | rfl | rfl | rfl
    · exact henc _
    · exact henc _
    · exact hn _
    · exact hn _
    · exact hn _
    · exact hn _
    · exact hn _
  · split at hkv
    · simp at hkv
    · simp only [List.mem_singleton] at hkv; subst hkv; exact hn _
  · split at hkv
    · simp at hkv
    · simp only [List.mem_singleton] at hkv; subst hkv; exact he _
  · split at hkv
    · simp at hkv
    · rename_i t ht'
      simp only [List.mem_singleton] at hkv; subst hkv; exact ht t ht'

theorem rawAnnounce_keys (a : Announce) (c : Byte) (hc : c = 0x26#8 ∨ c = 0x3d#8 ∨ c = 0x23#8) :
    ∀ kv ∈ rawAnnounce a, c ∉ kv.1 := by
  intro kv hkv
  simp only [rawAnnounce, List.mem_append, List.mem_cons, List.not_mem_nil, or_false] at hkv
  have key : kv.1 ∈ [ascii "info_hash", ascii "peer_id", ascii "port", ascii "uploaded", ascii "downloaded",
      ascii "left", ascii "compact", ascii "no_peer_id", ascii "event", ascii "trackerid"] := by
    rcases hkv with ((hkv | hkv) | hkv) | hkv
    · rcases hkv with rfl | rfl | rfl | rfl | rfl | rfl | rfl <;> simp
    · split at hkv
      · simp at hkv
      · simp only [List.mem_singleton] at hkv; subst hkv; simp
    · split at hkv
      · simp at hkv
      · simp only [List.mem_singleton] at hkv; subst hkv; simp
    · split at hkv
      · simp at hkv
      · simp only [List.mem_singleton] at hkv; subst hkv; simp
  have all : ∀ k ∈ [ascii "info_hash", ascii "peer_id", ascii "port", ascii "uploaded", ascii "downloaded",
      ascii "left", ascii "compact", ascii "no_peer_id", ascii "event", ascii "trackerid"],
      0x26#8 ∉ k ∧ 0x3d#8 ∉ k ∧ 0x23#8 ∉ k := by decide
  obtain ⟨h1, h2, h3⟩ := all _ key
  rcases hc with rfl | rfl | rfl
  · exact h1
  · exact h2
  · exact h3

/-- Two lists agree entry by entry. -/
inductive Entrywise {α β} (R : α → β → Prop) : List α → List β → Prop
  | nil : Entrywise R [] []
  | cons {x y xs ys} : R x y → Entrywise R xs ys → Entrywise R (x :: xs) (y :: ys)

theorem mapM_params (l : List (Bytes × Bytes)) (m : List (Bytes × Bytes))
    (h : Entrywise (fun x y => x.1 = y.1 ∧ percentDecode x.2 = some y.2) l m) :
    (l.mapM fun kv => do
      let v ← percentDecode kv.2
      pure (kv.1, v)) = some m := by
  induction h with
  | nil => rfl
  | cons hxy _ ih =>
    rw [List.mapM_cons, ih, hxy.2, hxy.1]
    rfl

/-- C44, the part that holds: if the tracker's URL has no query and no fragment yet and the tracker id contains
none of `&`, `#`, `%`, `+`, a tracker reads from the announce URL exactly the announced parameters, in order, and
the URL before them is the tracker's. Missing: tracker URLs with a query (`C44_query_url_violated`) and arbitrary
tracker ids (`C44_tracker_id_violated`). -/
theorem C44_params_partial (a : Announce) (hq : 0x3f#8 ∉ a.trackerUrl) (hf : 0x23#8 ∉ a.trackerUrl)
    (ht : ∀ t, a.trackerId = some t → 0x26#8 ∉ t ∧ 0x23#8 ∉ t ∧ 0x25#8 ∉ t ∧ 0x2b#8 ∉ t) :
    urlParams a.asUrl = some (announceParams a) ∧ urlBase a.asUrl = a.trackerUrl := by
  have hne : rawAnnounce a ≠ [] := by simp [rawAnnounce]
  have hamp := rawAnnounce_avoids a 0x26#8 (by decide) (by decide) (rawAnnounce_keys _ _ (by simp))
    (fun t h => (ht t h).1) (fun e => (event_avoids e).1) (by decide) (by decide)
  have hash := rawAnnounce_avoids a 0x23#8 (by decide) (by decide) (rawAnnounce_keys _ _ (by simp))
    (fun t h => (ht t h).2.1) (fun e => (event_avoids e).2.1) (by decide) (by decide)
  have heq := rawAnnounce_keys a 0x3d#8 (by simp)
  have hnohash : 0x23#8 ∉ a.asUrl := by
    rw [asUrl_eq]
    simp only [List.mem_append, List.mem_cons, not_or]
    exact ⟨hf, by decide, joinParams_avoids _ (by decide) (by decide) _ hash⟩
  have hsplit : splitFirst 0x3f#8 (splitFirst 0x23#8 a.asUrl).1 = (a.trackerUrl, joinParams (rawAnnounce a)) := by
    rw [splitFirst_none _ _ hnohash, asUrl_eq, splitFirst_mid _ _ _ hq]
  refine ⟨?_, by simp only [urlBase, hsplit]⟩
  simp only [urlParams, urlQuery, hsplit]
  rw [rawParams_join _ hne (fun kv h => ⟨(hamp kv h).1, heq kv h, (hamp kv h).2⟩)]
  apply mapM_params
  have hflag : ∀ b : Bool, percentDecode (decimal (if b then 1 else 0)) = some (flag b) := by
    intro b; cases b <;> decide
  have hev : ∀ e : AnnounceEvent, percentDecode e.text = some e.text := fun e =>
    percentDecode_plain _ (event_avoids e).2.2.1 (event_avoids e).2.2.2
  have htail : Entrywise (fun x y : Bytes × Bytes => x.1 = y.1 ∧ percentDecode x.2 = some y.2)
      (match a.trackerId with
      | none => []
      | some t => [(ascii "trackerid", t)])
      (match a.trackerId with
      | none => []
      | some t => [(ascii "trackerid", t)]) := by
    cases htid : a.trackerId with
    | none => exact .nil
    | some t => exact .cons ⟨rfl, percentDecode_plain _ (ht t htid).2.2.1 (ht t htid).2.2.2⟩ .nil
  have happ : ∀ {l m l' m' : List (Bytes × Bytes)},
      Entrywise (fun x y : Bytes × Bytes => x.1 = y.1 ∧ percentDecode x.2 = some y.2) l m →
      Entrywise (fun x y : Bytes × Bytes => x.1 = y.1 ∧ percentDecode x.2 = some y.2) l' m' →
      Entrywise (fun x y : Bytes × Bytes => x.1 = y.1 ∧ percentDecode x.2 = some y.2) (l ++ l') (m ++ m') := by
    intro l m l' m' h h'
    induction h with
    | nil => exact h'
    | cons hxy _ ih => exact .cons hxy ih
  unfold rawAnnounce announceParams
  refine happ (happ (happ ?_ ?_) ?_) htail
  · exact .cons ⟨rfl, C43_decodes _⟩ (.cons ⟨rfl, C43_decodes _⟩ (.cons ⟨rfl, percentDecode_decimal _⟩
      (.cons ⟨rfl, percentDecode_decimal _⟩ (.cons ⟨rfl, percentDecode_decimal _⟩
      (.cons ⟨rfl, percentDecode_decimal _⟩ (.cons ⟨rfl, hflag _⟩ .nil))))))
  · cases a.compact
    · exact .cons ⟨rfl, hflag _⟩ .nil
    · exact .nil
  · cases a.event with
    | none => exact .nil
    | some e =>
      cases e with
      | started => exact .cons ⟨rfl, hev .started⟩ .nil
      | stopped => exact .cons ⟨rfl, hev .stopped⟩ .nil
      | completed => exact .cons ⟨rfl, hev .completed⟩ .nil

/-- An announce to a tracker with ordinary URL. -/
def demoAnnounce : Announce where
  trackerUrl := ascii "http://example.com/announce"
  infoHash := ⟨List.replicate 20 0x26#8, List.length_replicate⟩
  peerId := ⟨List.replicate 20 0x41#8, List.length_replicate⟩
  port := 6887
  uploaded := 0
  downloaded := 12
  left := 78907
  compact := true
  noPeerId := true
  event := some .started
  trackerId := some (ascii "a=b")

/-- The hypotheses of `C44_params_partial` are met by an announce whose info hash consists of `&`. -/
example : 0x3f#8 ∉ demoAnnounce.trackerUrl ∧ 0x23#8 ∉ demoAnnounce.trackerUrl ∧
    ∀ t, demoAnnounce.trackerId = some t → 0x26#8 ∉ t ∧ 0x23#8 ∉ t ∧ 0x25#8 ∉ t ∧ 0x2b#8 ∉ t := by
  refine ⟨by decide, by decide, ?_⟩
  intro t h
  cases h
  decide

example : demoAnnounce.asUrl = ascii ("http://example.com/announce?info_hash=%26%26%26%26%26%26%26%26%26%26%26%26" ++
    "%26%26%26%26%26%26%26%26&peer_id=AAAAAAAAAAAAAAAAAAAA&port=6887&uploaded=0&downloaded=12&left=78907" ++
    "&compact=1&event=started&trackerid=a=b") := by decide +kernel

/-- C44 fails for a tracker URL that already has a query (trackers hand out URLs such as
`http://t.example/announce?passkey=k`): the tracker finds no `info_hash` parameter, but a `passkey` whose value
swallowed it. -/
theorem C44_query_url_violated :
    ∃ a : Announce, 0x23#8 ∉ a.trackerUrl ∧ a.trackerId = none ∧
      (urlParams a.asUrl).map (List.lookup (ascii "info_hash")) = some none ∧
      (urlParams a.asUrl).map (List.lookup (ascii "passkey")) =
        some (some (ascii "k?info_hash=&&&&&&&&&&&&&&&&&&&&")) := by
  refine ⟨{ demoAnnounce with trackerUrl := ascii "http://t.example/announce?passkey=k", trackerId := none },
    by decide, rfl, by decide +kernel, by decide +kernel⟩

/-- C44 fails for tracker ids that need escaping: the id `x&left=0` comes back as `x` with a second `left`
parameter. -/
theorem C44_tracker_id_violated :
    ∃ a : Announce, 0x3f#8 ∉ a.trackerUrl ∧ 0x23#8 ∉ a.trackerUrl ∧ a.trackerId = some (ascii "x&left=0") ∧
      (urlParams a.asUrl).map (List.lookup (ascii "trackerid")) = some (some (ascii "x")) ∧
      (urlParams a.asUrl).map (fun ps => (ps.filter (·.1 = ascii "left")).map (·.2)) =
        some [ascii "78907", ascii "0"] := by
  refine ⟨{ demoAnnounce with trackerId := some (ascii "x&left=0") }, by decide, by decide, rfl,
    by decide +kernel, by decide +kernel⟩

end Nargun
