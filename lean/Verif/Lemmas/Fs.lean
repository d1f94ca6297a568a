import Verif.Spec.Fs

/-! # Lemmas about the model of the file system modules -/

namespace Nargun

open Spec (InBlocks fileOf)

/-! ## Writing at a position -/

theorem writeAt_get? (f : Bytes) (pos : Nat) (bs : Bytes) (hb : bs ≠ []) (x : Nat) :
    (writeAt f pos bs)[x]? =
      if x < pos then (if x < f.length then f[x]? else some 0#8)
      else if x < pos + bs.length then bs[x - pos]? else f[x]? := by
  unfold writeAt
  rw [if_neg hb]
  have hl : ((f ++ List.replicate (pos - f.length) 0#8).take pos).length = pos := by
    rw [List.length_take, List.length_append, List.length_replicate]; omega
  by_cases h1 : x < pos
  · rw [if_pos h1, List.append_assoc, List.getElem?_append_left (by rw [hl]; exact h1), List.getElem?_take_of_lt h1]
    by_cases h2 : x < f.length
    · rw [if_pos h2, List.getElem?_append_left h2]
    · rw [if_neg h2, List.getElem?_append_right (by omega), List.getElem?_replicate, if_pos (by omega)]
  · rw [if_neg h1]
    by_cases h2 : x < pos + bs.length
    · rw [if_pos h2, List.getElem?_append_left (by rw [List.length_append, hl]; exact h2),
        List.getElem?_append_right (by rw [hl]; omega), hl]
    · rw [if_neg h2, List.getElem?_append_right (by rw [List.length_append, hl]; omega), List.length_append, hl,
        List.getElem?_drop]
      congr 1; omega

theorem writeAt_nil (f : Bytes) (pos : Nat) : writeAt f pos [] = f := by simp [writeAt]

theorem writeAt_length (f : Bytes) (pos : Nat) (bs : Bytes) (hb : bs ≠ []) :
    (writeAt f pos bs).length = max f.length (pos + bs.length) := by
  unfold writeAt
  rw [if_neg hb]
  simp only [List.length_append, List.length_take, List.length_replicate, List.length_drop]
  omega

theorem writeAt_append (f : Bytes) (pos : Nat) (a b : Bytes) :
    writeAt (writeAt f pos a) (pos + a.length) b = writeAt f pos (a ++ b) := by
  by_cases ha : a = []
  · subst ha; simp [writeAt_nil]
  by_cases hb : b = []
  · subst hb; simp [writeAt_nil]
  have hab : a ++ b ≠ [] := by simp [ha]
  have hla : 0 < a.length := List.length_pos_iff.mpr ha
  have hlb : 0 < b.length := List.length_pos_iff.mpr hb
  apply List.ext_getElem?
  intro x
  rw [writeAt_get? _ _ _ hb, writeAt_get? _ _ _ hab, writeAt_length _ _ _ ha, writeAt_get? _ _ _ ha,
    List.length_append]
  by_cases h1 : x < pos
  · rw [if_pos (show x < pos + a.length by omega), if_pos (show x < max f.length (pos + a.length) by omega), if_pos h1,
      if_pos h1]
  · rw [if_neg h1, if_neg h1]
    by_cases h2 : x < pos + a.length
    · rw [if_pos h2, if_pos (show x < max f.length (pos + a.length) by omega), if_pos h2,
        if_pos (show x < pos + (a.length + b.length) by omega), List.getElem?_append_left (by omega)]
    · rw [if_neg h2, if_neg h2]
      by_cases h3 : x < pos + a.length + b.length
      · rw [if_pos h3, if_pos (by omega), List.getElem?_append_right (by omega)]
        congr 1; omega
      · rw [if_neg h3, if_neg (by omega)]

theorem modify_id (d : Disk) (p : Bytes) (f : Bytes → Bytes) (hf : ∀ x, f x = x) : d.modify p f = d := by
  unfold Map.modify
  conv => rhs; rw [← List.map_id d]
  apply List.map_congr_left
  intro e _
  split
  · rw [hf]; rfl
  · rfl

theorem modify_modify (d : Disk) (p : Bytes) (f g : Bytes → Bytes) :
    (d.modify p f).modify p g = d.modify p (fun x => g (f x)) := by
  unfold Map.modify
  rw [List.map_map]
  apply List.map_congr_left
  intro e _
  simp only [Function.comp]
  split
  · simp [*]
  · simp [*]

theorem bind_eq {α β} (x : DiskM α) (f : α → DiskM β) (d : Disk) :
    (x >>= f) d = match x d with
      | (d', .ok a) => f a d'
      | (d', .err) => (d', .err)
      | (d', .panic) => (d', .panic) := rfl

theorem bind_ok {α β} {x : DiskM α} {f : α → DiskM β} {d d' : Disk} {a : α} (h : x d = (d', .ok a)) :
    (x >>= f) d = f a d' := by rw [bind_eq, h]

theorem bind_err {α β} {x : DiskM α} {f : α → DiskM β} {d d' : Disk} (h : x d = (d', .err)) :
    (x >>= f) d = (d', .err) := by rw [bind_eq, h]

theorem bind_panic {α β} {x : DiskM α} {f : α → DiskM β} {d d' : Disk} (h : x d = (d', .panic)) :
    (x >>= f) d = (d', .panic) := by rw [bind_eq, h]

theorem writeBlocks_eq (path : Bytes) (pos : Nat) (bs : List Bytes) (d : Disk) :
    writeBlocks path pos bs d = (d.modify path (fun f => writeAt f pos bs.flatten), .ok ()) := by
  induction bs generalizing pos d with
  | nil =>
    rw [modify_id _ _ _ (fun x => by rw [List.flatten_nil, writeAt_nil])]; rfl
  | cons b bs ih =>
    show (writeAll path pos b >>= fun _ => writeBlocks path (pos + b.length) bs) d = _
    rw [bind_ok (show writeAll path pos b d = _ from rfl), ih, modify_modify]
    simp only [writeAt_append, List.flatten_cons]

/-! ## Blocks -/

theorem inBlocks_tail {b : Bytes} {bs : List Bytes} (h : InBlocks (b :: bs)) : InBlocks bs :=
  ⟨fun i hi => h.1 (i + 1) (by simp only [List.length_cons]; omega), fun x hx => h.2 x (List.mem_cons_of_mem _ hx)⟩

theorem inBlocks_head {b : Bytes} {bs : List Bytes} (h : InBlocks (b :: bs)) (hn : bs ≠ []) :
    b.length = 16384 :=
  h.1 0 (by have := List.length_pos_iff.mpr hn; simp only [List.length_cons]; omega)

theorem lastLoop_eq (path : Bytes) (pos r : Nat) (data : List Bytes) (d : Disk) (hf : InBlocks data)
    (hr : r ≤ data.flatten.length) :
    SingleFile.lastLoop path pos r data d =
      (d.modify path (fun f => writeAt f pos (data.flatten.take r)), .ok ()) := by
  induction data generalizing pos r d with
  | nil =>
    have : r = 0 := by simpa using hr
    subst this
    rw [modify_id _ _ _ (fun x => by simp [writeAt_nil])]
    simp only [SingleFile.lastLoop]; rfl
  | cons b bs ih =>
    cases r with
    | zero =>
      rw [modify_id _ _ _ (fun x => by simp [writeAt_nil])]
      simp only [SingleFile.lastLoop]; rfl
    | succ r =>
      have hbs : BLOCK_SIZE = 16384 := rfl
      have hbl : b.length ≤ 16384 := hf.2 b (by simp)
      simp only [List.flatten_cons, List.length_append] at hr
      have hn : min (r + 1) BLOCK_SIZE ≤ b.length := by
        rw [hbs]
        by_cases hb : bs = []
        · subst hb; simp only [List.flatten_nil, List.length_nil] at hr; omega
        · rw [inBlocks_head hf hb]; omega
      simp only [SingleFile.lastLoop]
      have hs : sliceR b 0 (min (r + 1) BLOCK_SIZE) = .ok (b.take (min (r + 1) BLOCK_SIZE)) := by
        unfold sliceR
        rw [if_pos ⟨by omega, hn⟩]
        simp
      rw [bind_ok (show DiskM.lift (sliceR b 0 (min (r + 1) BLOCK_SIZE)) d = (d, .ok _) by unfold DiskM.lift; rw [hs]),
        bind_ok (show writeAll path pos _ d = _ from rfl)]
      have hle : r + 1 - min (r + 1) BLOCK_SIZE ≤ bs.flatten.length := by
        rw [hbs] at hn ⊢
        by_cases hb : bs = []
        · subst hb; simp only [List.flatten_nil, List.length_nil] at hr ⊢; omega
        · rw [inBlocks_head hf hb] at hr; omega
      rw [ih _ _ _ (inBlocks_tail hf) hle, modify_modify]
      congr 2
      funext f
      have hlen : (b.take (min (r + 1) BLOCK_SIZE)).length = min (r + 1) BLOCK_SIZE := by
        rw [List.length_take]; omega
      have hwa := writeAt_append f pos (b.take (min (r + 1) BLOCK_SIZE))
        (bs.flatten.take (r + 1 - min (r + 1) BLOCK_SIZE))
      rw [hlen] at hwa
      rw [hwa]
      congr 1
      rw [List.flatten_cons, List.take_append]
      by_cases hc : r + 1 ≤ BLOCK_SIZE
      · rw [Nat.min_eq_left hc]
        rw [Nat.min_eq_left hc] at hn
        rw [Nat.sub_self, List.take_zero, show r + 1 - b.length = 0 by omega, List.take_zero]
      · rw [Nat.min_eq_right (by omega)]
        rw [Nat.min_eq_right (by omega)] at hn
        have : b.length = BLOCK_SIZE := by rw [hbs] at hn ⊢; omega
        rw [← this, List.take_length, List.take_of_length_le (l := b) (by omega)]

/-- Blocks `i .. j` of a piece are its bytes from `16384·i` on. -/
theorem inBlocks_drop {data : List Bytes} (hf : InBlocks data) (i : Nat) (hi : i ≤ data.length)
    (hfl : 16384 * i ≤ data.flatten.length) :
    (data.drop i).flatten = data.flatten.drop (16384 * i) ∧ InBlocks (data.drop i) := by
  induction i generalizing data with
  | zero => simp [hf]
  | succ i ih =>
    cases data with
    | nil => simp at hi
    | cons b bs =>
      simp only [List.length_cons] at hi
      simp only [List.flatten_cons, List.length_append] at hfl
      have hbl : b.length = 16384 := by
        by_cases hb : bs = []
        · subst hb
          have := hf.2 b (by simp)
          simp at hfl
          omega
        · exact inBlocks_head hf hb
      have := ih (inBlocks_tail hf) (by omega) (by omega)
      simp only [List.drop_succ_cons]
      refine ⟨?_, this.2⟩
      rw [this.1, List.flatten_cons, List.drop_append, List.drop_of_length_le (l := b) (by omega), List.nil_append]
      congr 1; omega

theorem inBlocks_take_length {data : List Bytes} (hf : InBlocks data) (i : Nat) (hi : i < data.length) :
    (data.take i).flatten.length = 16384 * i := by
  induction i generalizing data with
  | zero => simp
  | succ i ih =>
    cases data with
    | nil => simp at hi
    | cons b bs =>
      simp only [List.length_cons] at hi
      have hne : bs ≠ [] := by rintro rfl; simp at hi
      simp only [List.take_succ_cons, List.flatten_cons, List.length_append, ih (inBlocks_tail hf) (by omega), inBlocks_head hf hne]
      omega

theorem inBlocks_length_le {data : List Bytes} (hf : InBlocks data) : data.flatten.length ≤ 16384 * data.length := by
  induction data with
  | nil => simp
  | cons b bs ih =>
    have h1 := ih (inBlocks_tail hf)
    have h2 := hf.2 b (by simp)
    simp only [List.flatten_cons, List.length_append, List.length_cons]
    omega

theorem writeChunk_eq (path : Bytes) (data : List Bytes) (w a b : Nat) (d : Disk) (hf : InBlocks data)
    (hab : a < b) (hb : b ≤ data.flatten.length) :
    MultiFile.writeChunk path data w a b d =
      (d.modify path (fun f => writeAt f w ((data.flatten.drop a).take (b - a))), .ok ()) := by
  have hbs : BLOCK_SIZE = 16384 := rfl
  have hlen := inBlocks_length_le hf
  unfold MultiFile.writeChunk
  rw [bind_ok (show DiskM.lift (usub b a) d = (d, .ok (b - a)) by
    unfold DiskM.lift usub; rw [if_pos (by omega)])]
  simp only
  rw [bind_ok (show DiskM.lift (usub b 1) d = (d, .ok (b - 1)) by
    unfold DiskM.lift usub; rw [if_pos (by omega)])]
  simp only [hbs]
  have hend : (b - 1) / 16384 + 1 ≤ data.length := by omega
  have hlt : a / 16384 < (b - 1) / 16384 + 1 := by omega
  rw [bind_ok (show DiskM.lift (sliceR data (a / 16384) ((b - 1) / 16384 + 1)) d = (d, .ok _) by
    unfold DiskM.lift sliceR; rw [if_pos ⟨by omega, hend⟩])]
  obtain ⟨hdrop, hfd⟩ := inBlocks_drop hf (a / 16384) (by omega) (by omega)
  -- the bytes relative to the first block
  have htarget : (data.flatten.drop a).take (b - a) =
      ((data.drop (a / 16384)).flatten.drop (a % 16384)).take (b - a) := by
    rw [hdrop, List.drop_drop]
    congr 2; omega
  rw [htarget]
  generalize hD : data.drop (a / 16384) = D at hdrop hfd
  have hDl : D.flatten.length = data.flatten.length - 16384 * (a / 16384) := by rw [hdrop, List.length_drop]
  have hDn : D.length = data.length - a / 16384 := by rw [← hD, List.length_drop]
  generalize hk : (b - 1) / 16384 + 1 - a / 16384 = k
  have hk1 : 1 ≤ k := by omega
  have hkD : k ≤ D.length := by omega
  cases D with
  | nil => simp at hkD; omega
  | cons b0 D =>
    obtain ⟨k, rfl⟩ : ∃ k', k = k' + 1 := ⟨k - 1, by omega⟩
    rw [List.take_succ_cons]
    simp only [List.flatten_cons, List.length_append] at hDl
    cases k with
    | zero =>
      rw [List.take_zero]
      simp only
      have hb0 : a % 16384 + (b - a) ≤ b0.length := by
        by_cases hDe : D = []
        · subst hDe; simp only [List.flatten_nil, List.length_nil] at hDl; omega
        · rw [inBlocks_head hfd hDe]; omega
      rw [bind_ok (show DiskM.lift (sliceR b0 (a % 16384) (a % 16384 + (b - a))) d = (d, .ok _) by
        unfold DiskM.lift sliceR; rw [if_pos ⟨by omega, hb0⟩])]
      show (d.modify path _, Res.ok ()) = _
      congr 2
      funext f
      congr 1
      rw [Nat.add_sub_cancel_left, List.flatten_cons, List.drop_append, List.take_append]
      have : b - a - (b0.drop (a % 16384)).length = 0 := by rw [List.length_drop]; omega
      rw [this, List.take_zero, List.append_nil]
    | succ k =>
      cases D with
      | nil => simp at hkD
      | cons b1 D =>
        rw [List.take_succ_cons]
        simp only
        have hb0 : b0.length = 16384 := inBlocks_head hfd (by simp)
        rw [bind_ok (show DiskM.lift (sliceFrom b0 (a % 16384)) d = (d, .ok (b0.drop (a % 16384))) by
          unfold DiskM.lift sliceFrom; rw [if_pos (by omega)])]
        rw [bind_ok (show writeAll path w _ d = _ from rfl), bind_ok (writeBlocks_eq _ _ _ _)]
        -- the blocks after the first
        have hT : (b1 :: D).take (k + 1) = b1 :: D.take k := by rw [List.take_succ_cons]
        have hTl : (b1 :: D.take k).length = k + 1 := by
          rw [← hT, List.length_take]; simp only [List.length_cons] at hkD ⊢; omega
        have hdl : (b1 :: D.take k).dropLast = (b1 :: D).take k := by
          rw [List.dropLast_eq_take, hTl, Nat.add_sub_cancel, ← hT, List.take_take, Nat.min_eq_left (by omega)]
        have hlast : (b1 :: D.take k).getLast (by simp) =
            (b1 :: D)[k]'(by simp only [List.length_cons] at hkD ⊢; omega) := by
          rw [List.getLast_eq_getElem]
          simp only [hTl, Nat.add_sub_cancel]
          simp only [← hT]
          rw [List.getElem_take]
        have hkD' : k < (b1 :: D).length := by simp only [List.length_cons] at hkD ⊢; omega
        have hfull : ((b1 :: D).take k).flatten.length = 16384 * k := inBlocks_take_length (inBlocks_tail hfd) k hkD'
        have hfl2 : (b1 :: D).flatten.length = data.flatten.length - 16384 * (a / 16384) - 16384 := by
          simp only [List.flatten_cons, List.length_append] at hDl ⊢
          omega
        have hsplit : (b1 :: D).flatten = ((b1 :: D).take k).flatten ++ ((b1 :: D).drop k).flatten := by
          rw [← List.flatten_append, List.take_append_drop]
        have hdk : (b1 :: D).drop k = (b1 :: D)[k]'hkD' :: (b1 :: D).drop (k + 1) := List.drop_eq_getElem_cons hkD'
        -- how much of the last block
        generalize he : (if b % 16384 = 0 then 16384 else b % 16384) = eb
        have heb : eb = b - 16384 * ((b - 1) / 16384) := by
          rw [← he]; split <;> omega
        have hk' : (b - 1) / 16384 = a / 16384 + 1 + k := by omega
        have hlb : eb ≤ ((b1 :: D)[k]'hkD').length := by
          have hlen2 : ((b1 :: D).drop k).flatten.length = data.flatten.length - 16384 * (a / 16384) - 16384 - 16384 * k := by
            have := congrArg List.length hsplit
            rw [List.length_append, hfull, hfl2] at this
            omega
          by_cases hlast' : k + 1 < (b1 :: D).length
          · rw [(inBlocks_tail hfd).1 k hlast']; omega
          · rw [hdk] at hlen2
            rw [List.drop_of_length_le (by omega)] at hlen2
            simp only [List.flatten_cons, List.flatten_nil, List.append_nil] at hlen2
            rw [hlen2]; omega
        simp only [hdl, hlast]
        have hsl : sliceR ((b1 :: D)[k]'hkD') 0 eb = .ok (((b1 :: D)[k]'hkD').take eb) := by
          unfold sliceR
          rw [if_pos ⟨by omega, hlb⟩]
          simp
        rw [bind_ok (show DiskM.lift (sliceR ((b1 :: D)[k]'hkD') 0 eb) _ = (_, .ok _) by
          unfold DiskM.lift; rw [hsl])]
        show (Map.modify _ path _, Res.ok ()) = _
        rw [modify_modify, modify_modify]
        congr 2
        funext f
        rw [Nat.add_assoc, writeAt_append]
        rw [show w + ((b0.drop (a % 16384)).length + ((b1 :: D).take k).flatten.length) =
          w + (b0.drop (a % 16384) ++ ((b1 :: D).take k).flatten).length by rw [List.length_append], writeAt_append]
        congr 1
        rw [List.flatten_cons, List.drop_append, hb0, show a % 16384 - 16384 = 0 by omega, List.drop_zero,
          List.take_append, List.length_drop, hb0,
          List.take_of_length_le (l := b0.drop (a % 16384)) (by rw [List.length_drop]; omega),
          List.append_assoc]
        congr 1
        rw [hsplit, List.take_append, hfull, List.take_of_length_le (l := ((b1 :: D).take k).flatten) (by rw [hfull]; omega)]
        congr 1
        rw [hdk, List.flatten_cons, List.take_append]
        rw [show b - a - (16384 - a % 16384) - 16384 * k = eb by omega,
          show eb - ((b1 :: D)[k]'hkD').length = 0 by omega, List.take_zero, List.append_nil]

/-- A chunk of nothing inside a block writes nothing. -/
theorem writeChunk_empty (path : Bytes) (data : List Bytes) (w a : Nat) (d : Disk) (hf : InBlocks data)
    (ha : a % 16384 ≠ 0) (hb : a ≤ data.flatten.length) : MultiFile.writeChunk path data w a a d = (d, .ok ()) := by
  have hbs : BLOCK_SIZE = 16384 := rfl
  have hlen := inBlocks_length_le hf
  unfold MultiFile.writeChunk
  rw [bind_ok (show DiskM.lift (usub a a) d = (d, .ok 0) by
    unfold DiskM.lift usub; rw [if_pos (by omega), Nat.sub_self])]
  simp only
  rw [bind_ok (show DiskM.lift (usub a 1) d = (d, .ok (a - 1)) by
    unfold DiskM.lift usub; rw [if_pos (by omega)])]
  simp only [hbs]
  have hi : a / 16384 < data.length := by omega
  rw [bind_ok (show DiskM.lift (sliceR data (a / 16384) ((a - 1) / 16384 + 1)) d = (d, .ok [data[a / 16384]]) by
    unfold DiskM.lift sliceR
    rw [if_pos ⟨by omega, by omega⟩, show (a - 1) / 16384 + 1 - a / 16384 = 1 by omega, List.drop_eq_getElem_cons hi]
    rfl)]
  simp only
  have hbl : a % 16384 ≤ (data[a / 16384]).length := by
    obtain ⟨hdrop, hfd⟩ := inBlocks_drop hf (a / 16384) (by omega) (by omega)
    by_cases hlast : a / 16384 + 1 < data.length
    · rw [hf.1 _ hlast]; omega
    · rw [List.drop_eq_getElem_cons hi, List.drop_of_length_le (by omega)] at hdrop
      simp only [List.flatten_cons, List.flatten_nil, List.append_nil] at hdrop
      rw [hdrop, List.length_drop]; omega
  rw [bind_ok (show DiskM.lift (sliceR data[a / 16384] (a % 16384) (a % 16384 + 0)) d = (d, .ok []) by
    unfold DiskM.lift sliceR
    rw [if_pos ⟨by omega, by omega⟩]
    simp)]
  show (d.modify path _, Res.ok ()) = _
  rw [modify_id _ _ _ (fun x => by rw [writeAt_nil])]

/-- A chunk of nothing at the beginning of a block fails. -/
theorem writeChunk_boundary (path : Bytes) (data : List Bytes) (w a : Nat) (d : Disk) (ha : a % 16384 = 0)
    (h0 : 0 < a) (hl : a / 16384 ≤ data.length) : MultiFile.writeChunk path data w a a d = (d, .err) := by
  have hbs : BLOCK_SIZE = 16384 := rfl
  unfold MultiFile.writeChunk
  rw [bind_ok (show DiskM.lift (usub a a) d = (d, .ok 0) by
    unfold DiskM.lift usub; rw [if_pos (by omega), Nat.sub_self])]
  simp only
  rw [bind_ok (show DiskM.lift (usub a 1) d = (d, .ok (a - 1)) by
    unfold DiskM.lift usub; rw [if_pos (by omega)])]
  simp only [hbs]
  rw [bind_ok (show DiskM.lift (sliceR data (a / 16384) ((a - 1) / 16384 + 1)) d = (d, .ok []) by
    unfold DiskM.lift sliceR
    rw [if_pos ⟨by omega, by omega⟩, show (a - 1) / 16384 + 1 - a / 16384 = 0 by omega]
    rfl)]
  rfl

/-- A chunk of nothing at the beginning of a piece panics. -/
theorem writeChunk_zero (path : Bytes) (data : List Bytes) (w : Nat) (d : Disk) :
    MultiFile.writeChunk path data w 0 0 d = (d, .panic) := rfl

/-! ## The files of a range -/

/-- The items, by recursion over the files. -/
def segsOf (s e : Nat) : Nat → List TorrentFile → List FileWithBounds
  | _, [] => []
  | off, f :: fs =>
    if FilesInBounds.touches s e off f then
      ⟨f, max s off - s, min e (off + f.length) - s, max s off - off, off + f.length - min e (off + f.length)⟩ ::
        segsOf s e (off + f.length) fs
    else segsOf s e (off + f.length) fs

theorem touches_iff (s e off : Nat) (f : TorrentFile) :
    FilesInBounds.touches s e off f = true ↔ off < e ∧ (s < off + f.length ∨ (f.length = 0 ∧ s ≤ off)) := by
  simp only [FilesInBounds.touches, Bool.and_eq_true, Bool.or_eq_true, decide_eq_true_eq, beq_iff_eq]
  omega

theorem segsOf_none (s e off : Nat) (fs : List TorrentFile) (h : e ≤ off) : segsOf s e off fs = [] := by
  induction fs generalizing off with
  | nil => rfl
  | cons f fs ih =>
    have : ¬ FilesInBounds.touches s e off f = true := by rw [touches_iff]; omega
    simp only [segsOf, this, ih (off + f.length) (by omega), Bool.false_eq_true, if_false]

theorem collect_eq (s e off : Nat) (hse : s ≤ e) (fs : List TorrentFile)
    (h : ∀ f fs', fs = f :: fs' → e ≤ off ∨ FilesInBounds.touches s e off f = true) :
    FilesInBounds.collect s e off fs = .ok (segsOf s e off fs) := by
  induction fs generalizing off with
  | nil => rfl
  | cons f fs ih =>
    simp only [FilesInBounds.collect, segsOf]
    rcases h f fs rfl with h1 | h1
    · have : ¬ FilesInBounds.touches s e off f = true := by rw [touches_iff]; omega
      rw [if_pos (by omega), if_neg this, segsOf_none s e _ fs (by omega)]
    · rw [if_pos h1]
      have ht := (touches_iff _ _ _ _).mp h1
      rw [if_neg (by omega)]
      have u1 : usub (max s off) s = .ok (max s off - s) := by unfold usub; rw [if_pos (by omega)]
      have u2 : usub (min e (off + f.length)) s = .ok (min e (off + f.length) - s) := by
        unfold usub; rw [if_pos (by omega)]
      have u3 : usub (max s off) off = .ok (max s off - off) := by unfold usub; rw [if_pos (by omega)]
      have u4 : usub (off + f.length) (min e (off + f.length)) = .ok (off + f.length - min e (off + f.length)) := by
        unfold usub; rw [if_pos (by omega)]
      rw [u1, u2, u3, u4, ih (off + f.length) (by
        intro g gs hg
        by_cases hx : e ≤ off + f.length
        · exact .inl hx
        · refine .inr ?_
          rw [touches_iff]
          omega)]
      rfl

theorem filesInBounds_eq (files : List TorrentFile) (s e : Nat) (hse : s ≤ e) :
    filesInBounds files s e = .ok (segsOf s e 0 files) := by
  unfold filesInBounds
  generalize 0 = off
  induction files generalizing off with
  | nil => rfl
  | cons f fs ih =>
    simp only [FilesInBounds.new]
    by_cases ht : FilesInBounds.touches s e off f = true
    · rw [if_pos ht]
      exact collect_eq s e off hse (f :: fs) (by intro g gs h; cases h; exact .inr ht)
    · rw [if_neg ht]
      simp only [segsOf, ht, Bool.false_eq_true, if_false]
      exact ih _

end Nargun
