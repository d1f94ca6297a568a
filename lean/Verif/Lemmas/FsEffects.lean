import Verif.Lemmas.Fs

/-! # What reads and writes do to the files -/

namespace Nargun

open Spec

theorem openFile_cases (openable : Bytes → Bool) (p : Bytes) (d : Disk) :
    (openable p = false ∧ openFile openable p d = (d, .err)) ∨
    (openable p = true ∧ ∃ d', openFile openable p d = (d', .ok ()) ∧ (d'.get? p).isSome ∧
      (∀ q, fileOf d' q = fileOf d q) ∧ (∀ q, q ≠ p → d'.get? q = d.get? q)) := by
  unfold openFile
  cases ho : openable p with
  | false => left; simp
  | true =>
    right
    refine ⟨rfl, ?_⟩
    simp only [if_true]
    cases hg : d.get? p with
    | some f => exact ⟨d, rfl, by rw [hg]; rfl, fun _ => rfl, fun _ _ => rfl⟩
    | none =>
      refine ⟨_, rfl, ?_, ?_, ?_⟩
      · rw [Map.get?_insert, if_pos rfl]; rfl
      · intro q
        unfold fileOf
        rw [Map.get?_insert]
        by_cases hq : q = p
        · subst hq; rw [if_pos rfl, hg]; rfl
        · rw [if_neg hq]
      · intro q hq
        rw [Map.get?_insert, if_neg hq]

theorem fileOf_modify (d : Disk) (p : Bytes) (g : Bytes → Bytes) (hp : (d.get? p).isSome) (q : Bytes) :
    fileOf (d.modify p g) q = if q = p then g (fileOf d q) else fileOf d q := by
  unfold fileOf
  rw [Map.get?_modify]
  by_cases hq : q = p
  · subst hq
    rw [if_pos rfl, if_pos rfl]
    cases h : d.get? q with
    | some f => rfl
    | none => rw [h] at hp; cases hp
  · rw [if_neg hq, if_neg hq]

theorem get?_modify_isSome (d : Disk) (p : Bytes) (g : Bytes → Bytes) (q : Bytes) :
    ((d.modify p g).get? q).isSome = (d.get? q).isSome := by
  rw [Map.get?_modify]
  split
  · simp
  · rfl

/-- The effect of writing bytes at a position, inside a range of the file. -/
theorem writeAt_effect (f : Bytes) (pos : Nat) (bs : Bytes) :
    (bs = [] ∨ (writeAt f pos bs).length = max f.length (pos + bs.length)) ∧
    (∀ x b, ¬ (pos ≤ x ∧ x < pos + bs.length) → f[x]? = some b → (writeAt f pos bs)[x]? = some b) ∧
    (∀ x, pos ≤ x → x < pos + bs.length → (writeAt f pos bs)[x]? = bs[x - pos]?) := by
  by_cases hb : bs = []
  · subst hb
    refine ⟨.inl rfl, ?_, ?_⟩
    · intro x b _ h; rw [writeAt_nil]; exact h
    · intro x h1 h2; simp at h2; omega
  · refine ⟨.inr (writeAt_length f pos bs hb), ?_, ?_⟩
    · intro x b hx h
      rw [writeAt_get? f pos bs hb]
      have hlt : x < f.length := by
        rcases Nat.lt_or_ge x f.length with h' | h'
        · exact h'
        · rw [List.getElem?_eq_none h'] at h; cases h
      by_cases h1 : x < pos
      · rw [if_pos h1, if_pos hlt, h]
      · rw [if_neg h1, if_neg (by omega), h]
    · intro x h1 h2
      rw [writeAt_get? f pos bs hb, if_neg (by omega), if_pos h2]

/-- What happened to one file in a write of the torrent's bytes `s .. e`; `o` is where the file starts. -/
structure FileEffect (bytes : Bytes) (s e o : Nat) (f : TorrentFile) (p : Bytes) (d d' : Disk) (ok : Prop) : Prop where
  size : (fileOf d' p).length ≤ max (fileOf d p).length f.length
  others : ∀ x b, ¬ (s ≤ o + x ∧ o + x < e) → (fileOf d p)[x]? = some b → (fileOf d' p)[x]? = some b
  exist : ok → FilesInBounds.touches s e o f = true → (d'.get? p).isSome
  written : ok → ∀ x, x < f.length → s ≤ o + x → o + x < e → (fileOf d' p)[x]? = bytes[o + x - s]?

theorem FileEffect.unchanged {bytes : Bytes} {s e o : Nat} {f : TorrentFile} {p : Bytes} {d d' : Disk} {ok : Prop}
    (h : fileOf d' p = fileOf d p) (hok : ¬ ok) : FileEffect bytes s e o f p d d' ok :=
  ⟨by rw [h]; omega, fun _ _ _ hx => by rw [h]; exact hx, fun h' => absurd h' hok, fun h' => absurd h' hok⟩

theorem fileStart_cons (f : TorrentFile) (fs : List TorrentFile) (i : Nat) :
    fileStart (f :: fs) (i + 1) = f.length + fileStart fs i := by
  simp [fileStart]

theorem fileOf_congr {d d' : Disk} {p : Bytes} (h : d'.get? p = d.get? p) : fileOf d' p = fileOf d p := by
  unfold fileOf; rw [h]

/-- One file of a piece. -/
theorem writeChunk_effect (p : Bytes) (data : List Bytes) (s e off : Nat) (f : TorrentFile) (d : Disk) (hse : s < e)
    (hf : InBlocks data) (hp : (d.get? p).isSome) (ht : FilesInBounds.touches s e off f = true)
    (hl : min e (off + f.length) - s ≤ data.flatten.length) (d' : Disk) (r : Res Unit)
    (h : MultiFile.writeChunk p data (max s off - off) (max s off - s) (min e (off + f.length) - s) d = (d', r)) :
    (∀ q, q ≠ p → d'.get? q = d.get? q) ∧ FileEffect data.flatten s e off f p d d' (r = .ok ()) ∧
    ((f.length = 0 → (off - s) % 16384 ≠ 0) → r = .ok ()) := by
  have hti := (touches_iff _ _ _ _).mp ht
  by_cases hz : f.length = 0
  · have hoff : max s off = off := by omega
    have hmin : min e (off + f.length) = off := by omega
    rw [hoff, hmin, Nat.sub_self] at h
    have hd : d' = d ∧ ((off - s) % 16384 ≠ 0 → r = .ok ()) := by
      by_cases h1 : (off - s) % 16384 = 0
      · by_cases h2 : off - s = 0
        · rw [h2, writeChunk_zero] at h
          cases h
          exact ⟨rfl, fun h' => absurd h1 h'⟩
        · have := inBlocks_length_le hf
          rw [writeChunk_boundary p data 0 (off - s) d h1 (by omega) (by omega)] at h
          cases h
          exact ⟨rfl, fun h' => absurd h1 h'⟩
      · rw [writeChunk_empty p data 0 (off - s) d hf h1 (by omega)] at h
        cases h
        exact ⟨rfl, fun _ => rfl⟩
    obtain ⟨rfl, hr⟩ := hd
    refine ⟨fun _ _ => rfl, ⟨by omega, fun _ _ _ h => h, fun _ _ => hp, ?_⟩, fun h' => hr (h' hz)⟩
    intro _ x hx
    omega
  · rw [writeChunk_eq p data _ _ _ d hf (by omega) hl] at h
    cases h
    refine ⟨fun q hq => by rw [Map.get?_modify, if_neg hq], ?_, fun _ => rfl⟩
    have hfile : ∀ g, fileOf (d.modify p g) p = g (fileOf d p) := fun g => by
      rw [fileOf_modify d p g hp, if_pos rfl]
    have hlen : ((data.flatten.drop (max s off - s)).take (min e (off + f.length) - s - (max s off - s))).length =
        min e (off + f.length) - s - (max s off - s) := by
      rw [List.length_take, List.length_drop]; omega
    obtain ⟨w1, w2, w3⟩ := writeAt_effect (fileOf d p) (max s off - off)
      ((data.flatten.drop (max s off - s)).take (min e (off + f.length) - s - (max s off - s)))
    rw [hlen] at w1 w2 w3
    refine ⟨?_, ?_, ?_, ?_⟩
    · rw [hfile]
      rcases w1 with w1 | w1
      · rw [w1, writeAt_nil]; omega
      · rw [w1]; omega
    · intro x b hx hb
      rw [hfile]
      exact w2 x b (by omega) hb
    · intro _ _; rw [get?_modify_isSome]; exact hp
    · intro _ x hx h1 h2
      rw [hfile, w3 x (by omega) (by omega), List.getElem?_take_of_lt (by omega), List.getElem?_drop]
      congr 1; omega

theorem writeFiles_effect (openable : Bytes → Bool) (base name : Bytes) (data : List Bytes) (s e : Nat) (hse : s < e)
    (hf : InBlocks data) (files : List TorrentFile) (off : Nat) (d : Disk)
    (hn : (files.map (MultiFile.path base name)).Nodup)
    (hl : min e (off + totalLength files) - s ≤ data.flatten.length) (d' : Disk) (r : Res Unit)
    (h : MultiFile.writeFiles openable base name data (segsOf s e off files) d = (d', r)) :
    (∀ q, q ∉ files.map (MultiFile.path base name) → d'.get? q = d.get? q) ∧
    (∀ i (hi : i < files.length), FileEffect data.flatten s e (off + fileStart files i) files[i]
      (MultiFile.path base name files[i]) d d' (r = .ok ())) ∧
    ((∀ f ∈ files, openable (MultiFile.path base name f) = true) →
      (∀ i (hi : i < files.length), files[i].length = 0 → s ≤ off + fileStart files i → off + fileStart files i < e →
        (off + fileStart files i - s) % 16384 ≠ 0) → r = .ok ()) := by
  induction files generalizing off d with
  | nil =>
    simp only [segsOf, MultiFile.writeFiles] at h
    cases h
    exact ⟨fun _ _ => rfl, fun i hi => by simp at hi, fun _ _ => rfl⟩
  | cons f fs ih =>
    simp only [List.map_cons, List.nodup_cons] at hn
    simp only [totalLength, List.map_cons, List.sum_cons] at hl
    have hl' : min e (off + f.length + totalLength fs) - s ≤ data.flatten.length := by
      simp only [totalLength]; omega
    have hz0 : fileStart (f :: fs) 0 = 0 := rfl
    have key : ∀ i, off + fileStart (f :: fs) (i + 1) = off + f.length + fileStart fs i := by
      intro i; rw [fileStart_cons]; omega
    -- combine the head (from `d` to `d1`) with the tail (from `d1` to `d'`)
    have combine : ∀ d1, (∀ q, q ≠ MultiFile.path base name f → d1.get? q = d.get? q) →
        FileEffect data.flatten s e off f (MultiFile.path base name f) d d1 True →
        MultiFile.writeFiles openable base name data (segsOf s e (off + f.length) fs) d1 = (d', r) →
        (∀ q, q ∉ MultiFile.path base name f :: fs.map (MultiFile.path base name) → d'.get? q = d.get? q) ∧
        (∀ i (hi : i < (f :: fs).length), FileEffect data.flatten s e (off + fileStart (f :: fs) i) (f :: fs)[i]
          (MultiFile.path base name (f :: fs)[i]) d d' (r = .ok ())) ∧
        ((∀ g ∈ f :: fs, openable (MultiFile.path base name g) = true) →
          (∀ i (hi : i < (f :: fs).length), (f :: fs)[i].length = 0 → s ≤ off + fileStart (f :: fs) i →
            off + fileStart (f :: fs) i < e → (off + fileStart (f :: fs) i - s) % 16384 ≠ 0) → r = .ok ()) := by
      intro d1 hq he hw
      obtain ⟨i1, i2, i3⟩ := ih (off + f.length) d1 hn.2 hl' hw
      refine ⟨?_, ?_, ?_⟩
      · intro q hqn
        simp only [List.mem_cons, not_or] at hqn
        rw [i1 q hqn.2, hq q hqn.1]
      · intro i hi
        cases i with
        | zero =>
          have hg := i1 _ hn.1
          have hfo := fileOf_congr hg
          rw [hz0, Nat.add_zero]
          simp only [List.getElem_cons_zero]
          exact ⟨by rw [hfo]; exact he.size, fun x b hx hb => by rw [hfo]; exact he.others x b hx hb,
            fun _ ht => by rw [hg]; exact he.exist trivial ht,
            fun _ x hx h1 h2 => by rw [hfo]; exact he.written trivial x hx h1 h2⟩
        | succ i =>
          simp only [List.getElem_cons_succ]
          have hi' : i < fs.length := by simpa using hi
          have hne : MultiFile.path base name fs[i] ≠ MultiFile.path base name f := by
            intro he'
            exact hn.1 (he' ▸ List.mem_map.mpr ⟨_, List.getElem_mem _, rfl⟩)
          have hfo := fileOf_congr (hq _ hne)
          have hh := i2 i hi'
          rw [key]
          exact ⟨by rw [← hfo]; exact hh.size, fun x b hx hb => hh.others x b hx (by rw [hfo]; exact hb),
            hh.exist, hh.written⟩
      · intro ho hzero
        refine i3 (fun g hg => ho g (List.mem_cons_of_mem _ hg)) ?_
        intro i hi h1 h2 h3
        have := hzero (i + 1) (by simpa using hi)
        rw [key] at this
        exact this (by simpa using h1) h2 h3
    simp only [segsOf] at h
    by_cases ht : FilesInBounds.touches s e off f = true
    · rw [if_pos ht] at h
      simp only [MultiFile.writeFiles] at h
      rcases openFile_cases openable (MultiFile.path base name f) d with ⟨ho, hopen⟩ | ⟨ho, d1, hopen, hs1, hs2, hs3⟩
      · rw [bind_err hopen] at h
        cases h
        refine ⟨fun _ _ => rfl, fun i hi => FileEffect.unchanged rfl (by simp), ?_⟩
        intro ho'
        rw [ho' f (by simp)] at ho; cases ho
      · rw [bind_ok hopen] at h
        have hlc : min e (off + f.length) - s ≤ data.flatten.length := by omega
        generalize hc : MultiFile.writeChunk (MultiFile.path base name f) data (max s off - off) (max s off - s)
          (min e (off + f.length) - s) d1 = out at h
        obtain ⟨d2, r2⟩ := out
        obtain ⟨c1, c2, c3⟩ := writeChunk_effect _ data s e off f d1 hse hf hs1 ht hlc d2 r2 hc
        have hq : ∀ q, q ≠ MultiFile.path base name f → d2.get? q = d.get? q := fun q hq => by
          rw [c1 q hq, hs3 q hq]
        have hhead : FileEffect data.flatten s e off f (MultiFile.path base name f) d d2 (r2 = .ok ()) :=
          ⟨by rw [← hs2 (MultiFile.path base name f)]; exact c2.size,
            fun x b hx hb => c2.others x b hx (by rw [hs2]; exact hb), c2.exist, c2.written⟩
        -- the chunk failed
        have hfail : r2 ≠ .ok () → d' = d2 → r ≠ .ok () →
            (∀ q, q ∉ MultiFile.path base name f :: fs.map (MultiFile.path base name) → d'.get? q = d.get? q) ∧
            (∀ i (hi : i < (f :: fs).length), FileEffect data.flatten s e (off + fileStart (f :: fs) i) (f :: fs)[i]
              (MultiFile.path base name (f :: fs)[i]) d d' (r = .ok ())) ∧
            ((∀ g ∈ f :: fs, openable (MultiFile.path base name g) = true) →
              (∀ i (hi : i < (f :: fs).length), (f :: fs)[i].length = 0 → s ≤ off + fileStart (f :: fs) i →
                off + fileStart (f :: fs) i < e → (off + fileStart (f :: fs) i - s) % 16384 ≠ 0) → r = .ok ()) := by
          intro hr2 hd hr
          subst hd
          refine ⟨?_, ?_, ?_⟩
          · intro q hqn
            simp only [List.mem_cons, not_or] at hqn
            exact hq q hqn.1
          · intro i hi
            cases i with
            | zero =>
              rw [hz0, Nat.add_zero]
              simp only [List.getElem_cons_zero]
              exact ⟨hhead.size, hhead.others, fun h' => absurd h' hr, fun h' => absurd h' hr⟩
            | succ i =>
              simp only [List.getElem_cons_succ]
              have hi' : i < fs.length := by simpa using hi
              have hne : MultiFile.path base name fs[i] ≠ MultiFile.path base name f := by
                intro he'
                exact hn.1 (he' ▸ List.mem_map.mpr ⟨_, List.getElem_mem _, rfl⟩)
              exact FileEffect.unchanged (fileOf_congr (hq _ hne)) hr
          · intro _ hzero
            refine absurd (c3 ?_) hr2
            intro hz
            have hti := (touches_iff _ _ _ _).mp ht
            have := hzero 0 (by simp)
            rw [hz0, Nat.add_zero] at this
            exact this hz (by omega) (by omega)
        cases r2 with
        | ok u =>
          rw [bind_ok hc] at h
          exact combine d2 hq ⟨hhead.size, hhead.others, fun _ => hhead.exist rfl, fun _ => hhead.written rfl⟩ h
        | err =>
          rw [bind_err hc] at h
          cases h
          exact hfail (by simp) rfl (by simp)
        | panic =>
          rw [bind_panic hc] at h
          cases h
          exact hfail (by simp) rfl (by simp)
    · rw [if_neg ht] at h
      refine combine d (fun _ _ => rfl) ⟨by omega, fun _ _ _ h => h, fun _ h' => absurd h' ht, ?_⟩ h
      intro _ x hx h1 h2
      rw [touches_iff] at ht
      omega

/-! ## Reading -/

theorem splice_get? (buf : Bytes) (a : Nat) (bs : Bytes) (h : a + bs.length ≤ buf.length) :
    (splice buf a bs).length = buf.length ∧
    ∀ i, (splice buf a bs)[i]? = if a ≤ i ∧ i < a + bs.length then bs[i - a]? else buf[i]? := by
  unfold splice
  have hl : (buf.take a).length = a := by rw [List.length_take]; omega
  refine ⟨by simp only [List.length_append, List.length_drop, hl]; omega, ?_⟩
  intro i
  by_cases h1 : i < a
  · rw [if_neg (by omega), List.append_assoc, List.getElem?_append_left (by rw [hl]; exact h1),
      List.getElem?_take_of_lt h1]
  · by_cases h2 : i < a + bs.length
    · rw [if_pos ⟨by omega, h2⟩, List.getElem?_append_left (by rw [List.length_append, hl]; exact h2),
        List.getElem?_append_right (by rw [hl]; omega), hl]
    · rw [if_neg (by omega), List.getElem?_append_right (by rw [List.length_append, hl]; omega), List.length_append, hl,
        List.getElem?_drop]
      congr 1; omega

theorem readExact_eq (d : Disk) (p : Bytes) (pos n : Nat) (g : Nat → Byte) (hp : (d.get? p).isSome)
    (h : ∀ x, pos ≤ x → x < pos + n → (fileOf d p)[x]? = some (g x)) :
    ∃ bs, readExact p pos n d = (d, .ok bs) ∧ bs.length = n ∧ ∀ i, i < n → bs[i]? = some (g (pos + i)) := by
  unfold readExact
  cases hg : d.get? p with
  | none => rw [hg] at hp; cases hp
  | some f =>
    have hfo : fileOf d p = f := by unfold fileOf; rw [hg]; rfl
    rw [hfo] at h
    by_cases hn : n = 0
    · subst hn
      refine ⟨[], ?_, rfl, fun i hi => by omega⟩
      simp
    · have hlen : pos + n ≤ f.length := by
        have h1 := h (pos + n - 1) (by omega) (by omega)
        rcases Nat.lt_or_ge (pos + n - 1) f.length with h' | h'
        · omega
        · rw [List.getElem?_eq_none h'] at h1; cases h1
      refine ⟨(f.drop pos).take n, ?_, ?_, ?_⟩
      · simp only [hlen, or_true, if_true]
      · rw [List.length_take, List.length_drop]; omega
      · intro i hi
        rw [List.getElem?_take_of_lt hi, List.getElem?_drop, h _ (by omega) (by omega)]

theorem readFiles_eq (openable : Bytes → Bool) (base name : Bytes) (s e : Nat) (hse : s ≤ e) (g : Nat → Byte)
    (files : List TorrentFile) (off : Nat) (d : Disk) (buf : Bytes)
    (ho : ∀ f ∈ files, openable (MultiFile.path base name f) = true)
    (hb : e - s ≤ buf.length)
    (h : ∀ i (hi : i < files.length) x, x < files[i].length → s ≤ off + fileStart files i + x →
      off + fileStart files i + x < e →
      (fileOf d (MultiFile.path base name files[i]))[x]? = some (g (off + fileStart files i + x))) :
    ∃ d' buf', MultiFile.readFiles openable base name (segsOf s e off files) buf d = (d', .ok buf') ∧
      buf'.length = buf.length ∧
      ∀ i, buf'[i]? = if s + i < e ∧ off ≤ s + i ∧ s + i < off + totalLength files then some (g (s + i)) else buf[i]? := by
  induction files generalizing off d buf with
  | nil =>
    refine ⟨d, buf, rfl, rfl, fun i => ?_⟩
    rw [if_neg (by simp only [totalLength, List.map_nil, List.sum_nil]; omega)]
  | cons f fs ih =>
    have key : ∀ i, off + fileStart (f :: fs) (i + 1) = off + f.length + fileStart fs i := by
      intro i; rw [fileStart_cons]; omega
    have hz0 : fileStart (f :: fs) 0 = 0 := rfl
    have htail : ∀ d1, (∀ q, fileOf d1 q = fileOf d q) → ∀ i (hi : i < fs.length) x, x < fs[i].length →
        s ≤ off + f.length + fileStart fs i + x → off + f.length + fileStart fs i + x < e →
        (fileOf d1 (MultiFile.path base name fs[i]))[x]? = some (g (off + f.length + fileStart fs i + x)) := by
      intro d1 hd1 i hi x hx h1 h2
      have := h (i + 1) (by simpa using hi) x
      rw [key] at this
      rw [hd1]
      exact this (by simpa using hx) h1 h2
    have htot : totalLength (f :: fs) = f.length + totalLength fs := by simp [totalLength]
    simp only [segsOf]
    by_cases ht : FilesInBounds.touches s e off f = true
    · rw [if_pos ht]
      have hti := (touches_iff _ _ _ _).mp ht
      simp only [MultiFile.readFiles]
      have hsl : sliceR buf (max s off - s) (min e (off + f.length) - s) =
          .ok ((buf.drop (max s off - s)).take (min e (off + f.length) - s - (max s off - s))) := by
        unfold sliceR; rw [if_pos ⟨by omega, by omega⟩]
      rw [bind_ok (show DiskM.lift (sliceR buf (max s off - s) (min e (off + f.length) - s)) d = (d, .ok _) by
        unfold DiskM.lift; rw [hsl])]
      have hlen : ((buf.drop (max s off - s)).take (min e (off + f.length) - s - (max s off - s))).length =
          min e (off + f.length) - s - (max s off - s) := by
        rw [List.length_take, List.length_drop]; omega
      rw [hlen]
      rcases openFile_cases openable (MultiFile.path base name f) d with ⟨hof, _⟩ | ⟨_, d1, hopen, hs1, hs2, _⟩
      · rw [ho f (by simp)] at hof; cases hof
      · rw [bind_ok hopen]
        obtain ⟨bs, hr, hbl, hbv⟩ := readExact_eq d1 (MultiFile.path base name f) (max s off - off)
          (min e (off + f.length) - s - (max s off - s)) (fun x => g (off + x)) hs1 (by
            intro x h1 h2
            rw [hs2]
            have := h 0 (by simp) x
            rw [hz0, Nat.add_zero] at this
            exact this (by simp only [List.getElem_cons_zero]; omega) (by omega) (by omega))
        rw [bind_ok hr]
        obtain ⟨sp1, sp2⟩ := splice_get? buf (max s off - s) bs (by rw [hbl]; omega)
        obtain ⟨d', buf', hd, hl', hv⟩ := ih (off + f.length) d1 (splice buf (max s off - s) bs)
          (fun q hq => ho q (List.mem_cons_of_mem _ hq)) (by rw [sp1]; exact hb) (htail d1 hs2)
        refine ⟨d', buf', hd, by rw [hl', sp1], ?_⟩
        intro i
        rw [hv i, sp2 i, hbl, htot]
        by_cases c1 : s + i < e ∧ off + f.length ≤ s + i ∧ s + i < off + f.length + totalLength fs
        · rw [if_pos c1, if_pos (by omega)]
        · rw [if_neg c1]
          by_cases c2 : max s off - s ≤ i ∧ i < max s off - s + (min e (off + f.length) - s - (max s off - s))
          · rw [if_pos c2, if_pos (by omega), hbv _ (by omega)]
            congr 2; omega
          · rw [if_neg c2, if_neg (by omega)]
    · rw [if_neg ht]
      rw [touches_iff] at ht
      obtain ⟨d', buf', hd, hl', hv⟩ := ih (off + f.length) d buf (fun q hq => ho q (List.mem_cons_of_mem _ hq)) hb
        (htail d (fun _ => rfl))
      refine ⟨d', buf', hd, hl', ?_⟩
      intro i
      rw [hv i, htot]
      by_cases c1 : s + i < e ∧ off + f.length ≤ s + i ∧ s + i < off + f.length + totalLength fs
      · rw [if_pos c1, if_pos (by omega)]
      · rw [if_neg c1, if_neg (by omega)]

theorem readExact_disk (p : Bytes) (pos n : Nat) (d : Disk) : (readExact p pos n d).1 = d := by
  unfold readExact
  split
  · split <;> rfl
  · rfl

theorem bind_disk {α β} (x : DiskM α) (f : α → DiskM β) (d : Disk) (P : Disk → Prop) (h1 : P (x d).1)
    (h2 : ∀ a d', x d = (d', .ok a) → P (f a d').1) : P ((x >>= f) d).1 := by
  rw [bind_eq]
  cases h : x d with
  | mk d' r =>
    rw [h] at h1
    cases r with
    | ok a => exact h2 a d' h
    | err => exact h1
    | panic => exact h1

/-- Reading changes no file's contents. -/
theorem readFiles_pure (openable : Bytes → Bool) (base name : Bytes) (segs : List FileWithBounds) (buf : Bytes)
    (d : Disk) (q : Bytes) : fileOf (MultiFile.readFiles openable base name segs buf d).1 q = fileOf d q := by
  induction segs generalizing buf d with
  | nil => rfl
  | cons seg segs ih =>
    simp only [MultiFile.readFiles]
    refine bind_disk _ _ d (fun d' => fileOf d' q = fileOf d q) rfl ?_
    intro t d1 h1
    have : d1 = d := (Prod.mk.inj h1).1.symm
    subst this
    rcases openFile_cases openable (MultiFile.path base name seg.file) d1 with ⟨_, ho⟩ | ⟨_, d2, ho, _, hs, _⟩
    · rw [bind_err ho]
    · rw [bind_ok ho]
      refine bind_disk _ _ d2 (fun d' => fileOf d' q = fileOf d1 q) ?_ ?_
      · rw [readExact_disk]; exact hs q
      · intro bs d3 h3
        have : d3 = d2 := by
          have := readExact_disk (MultiFile.path base name seg.file) seg.before t.length d2
          rw [h3] at this
          exact this
        subst this
        rw [ih, hs]

end Nargun
