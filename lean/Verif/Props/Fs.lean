import Verif.Lemmas.FsEffects
import Verif.Lemmas.Lists

/-! # C50–C53: the torrent's storage -/

namespace Nargun

open Spec

/-! ## C51: which files a range of the torrent touches -/

theorem segsOf_touched (s e off : Nat) (files : List TorrentFile) :
    ∀ seg, seg ∈ segsOf s e off files ↔ ∃ i, ∃ h : i < files.length,
      FilesInBounds.touches s e (off + fileStart files i) files[i] = true ∧
      seg = ⟨files[i], max s (off + fileStart files i) - s, min e (off + fileStart files i + files[i].length) - s,
        max s (off + fileStart files i) - (off + fileStart files i),
        off + fileStart files i + files[i].length - min e (off + fileStart files i + files[i].length)⟩ := by
  induction files generalizing off with
  | nil => intro seg; simp [segsOf]
  | cons f fs ih =>
    intro seg
    have key : ∀ i, off + fileStart (f :: fs) (i + 1) = off + f.length + fileStart fs i := by
      intro i; rw [fileStart_cons]; omega
    have hz0 : off + fileStart (f :: fs) 0 = off := rfl
    have hsplit : (∃ i, ∃ h : i < (f :: fs).length,
        FilesInBounds.touches s e (off + fileStart (f :: fs) i) (f :: fs)[i] = true ∧
        seg = ⟨(f :: fs)[i], max s (off + fileStart (f :: fs) i) - s,
          min e (off + fileStart (f :: fs) i + (f :: fs)[i].length) - s,
          max s (off + fileStart (f :: fs) i) - (off + fileStart (f :: fs) i),
          off + fileStart (f :: fs) i + (f :: fs)[i].length -
            min e (off + fileStart (f :: fs) i + (f :: fs)[i].length)⟩) ↔
        (FilesInBounds.touches s e off f = true ∧
          seg = ⟨f, max s off - s, min e (off + f.length) - s, max s off - off,
            off + f.length - min e (off + f.length)⟩) ∨ seg ∈ segsOf s e (off + f.length) fs := by
      rw [ih]
      constructor
      · rintro ⟨i, hi, h1, h2⟩
        cases i with
        | zero => left; rw [hz0] at h1 h2; exact ⟨h1, h2⟩
        | succ i => right; rw [key] at h1 h2; exact ⟨i, by simpa using hi, h1, h2⟩
      · rintro (⟨h1, h2⟩ | ⟨i, hi, h1, h2⟩)
        · exact ⟨0, by simp, by rw [hz0]; exact h1, by rw [hz0]; exact h2⟩
        · exact ⟨i + 1, by simpa using hi, by rw [key]; exact h1, by rw [key]; exact h2⟩
    rw [hsplit]
    simp only [segsOf]
    by_cases ht : FilesInBounds.touches s e off f = true
    · simp only [ht, if_true, List.mem_cons, true_and]
    · simp only [ht, if_false, false_and, false_or, Bool.false_eq_true]

theorem segsOf_order (s e off : Nat) (files : List TorrentFile) :
    ((segsOf s e off files).map (·.file)).Sublist files := by
  induction files generalizing off with
  | nil => simp [segsOf]
  | cons f fs ih =>
    simp only [segsOf]
    split
    · simp only [List.map_cons]; exact (ih _).cons_cons _
    · exact (ih _).cons _

theorem segsOf_adjacent (s e off : Nat) (hse : s ≤ e) (files : List TorrentFile) :
    (e ≤ off → Adjacent (e - s) (segsOf s e off files) (e - s)) ∧
    (off < e → Adjacent (max s off - s) (segsOf s e off files) (max (max s off) (min e (off + totalLength files)) - s)) := by
  induction files generalizing off with
  | nil =>
    refine ⟨fun _ => rfl, fun h => ?_⟩
    simp only [segsOf, Adjacent, totalLength, List.map_nil, List.sum_nil]
    omega
  | cons f fs ih =>
    have htot : totalLength (f :: fs) = f.length + totalLength fs := by simp [totalLength]
    refine ⟨fun h => by rw [segsOf_none s e off _ h]; rfl, fun h => ?_⟩
    obtain ⟨i1, i2⟩ := ih (off + f.length)
    simp only [segsOf, htot]
    by_cases ht : FilesInBounds.touches s e off f = true
    · rw [if_pos ht]
      have hti := (touches_iff _ _ _ _).mp ht
      refine ⟨rfl, ?_, ?_⟩
      · simp only; omega
      by_cases hc : e ≤ off + f.length
      · have hx := i1 hc
        have e1 : min e (off + f.length) - s = e - s := by omega
        have e2 : max (max s off) (min e (off + (f.length + totalLength fs))) - s = e - s := by omega
        simp only [e1, e2]; exact hx
      · have hx := i2 (by omega)
        have e1 : max s (off + f.length) - s = min e (off + f.length) - s := by omega
        have e2 : max (max s (off + f.length)) (min e (off + f.length + totalLength fs)) =
          max (max s off) (min e (off + (f.length + totalLength fs))) := by omega
        rw [e1, e2] at hx; exact hx
    · rw [if_neg ht]
      rw [touches_iff] at ht
      by_cases hc : e ≤ off + f.length
      · have hx := i1 hc
        have e1 : max s off - s = e - s := by omega
        have e2 : max (max s off) (min e (off + (f.length + totalLength fs))) - s = e - s := by omega
        rw [e1, e2]; exact hx
      have hx := i2 (by omega)
      have e1 : max s (off + f.length) - s = max s off - s := by omega
      have e2 : max (max s (off + f.length)) (min e (off + f.length + totalLength fs)) =
        max (max s off) (min e (off + (f.length + totalLength fs))) := by omega
      rw [e1, e2] at hx; exact hx

/-- C51: the items of a range are those of the touched files (those that have a byte in the range, and empty files
whose position is in it), in the order of the files, and each item says which part of the range and of the file it
is. Nothing panics. -/
theorem C51_items (files : List TorrentFile) (s e : Nat) (hse : s ≤ e) : ∃ segs,
    filesInBounds files s e = .ok segs ∧ (segs.map (·.file)).Sublist files ∧
    ∀ seg, seg ∈ segs ↔ ∃ i, ∃ h : i < files.length,
      fileStart files i < e ∧ (s < fileStart files i + files[i].length ∨ (files[i].length = 0 ∧ s ≤ fileStart files i)) ∧
      seg.file = files[i] ∧
      s + seg.start = max s (fileStart files i) ∧
      s + seg.end = min e (fileStart files i + files[i].length) ∧
      fileStart files i + seg.before = max s (fileStart files i) ∧
      seg.before + (seg.end - seg.start) + seg.after = files[i].length := by
  refine ⟨_, filesInBounds_eq files s e hse, segsOf_order s e 0 files, ?_⟩
  intro seg
  rw [segsOf_touched]
  constructor
  · rintro ⟨i, hi, ht, rfl⟩
    rw [touches_iff] at ht
    rw [Nat.zero_add] at ht
    refine ⟨i, hi, ht.1, ht.2, rfl, ?_, ?_, ?_, ?_⟩ <;> simp only [Nat.zero_add] <;> omega
  · rintro ⟨i, hi, h1, h2, h3, h4, h5, h6, h7⟩
    refine ⟨i, hi, ?_, ?_⟩
    · rw [touches_iff, Nat.zero_add]; exact ⟨h1, h2⟩
    · obtain ⟨a, b, c, d, e'⟩ := seg
      simp only [Nat.zero_add] at h3 h4 h5 h6 h7 ⊢
      subst h3
      congr 1 <;> omega

/-- C51: the parts of the range follow each other without gap or overlap, from its beginning to its end or the end
of the torrent, whichever comes first. -/
theorem C51_contiguous (files : List TorrentFile) (s e : Nat) (hse : s < e) (hs : s < totalLength files) : ∃ segs,
    filesInBounds files s e = .ok segs ∧ Adjacent 0 segs (min e (totalLength files) - s) := by
  refine ⟨_, filesInBounds_eq files s e (by omega), ?_⟩
  have := (segsOf_adjacent s e 0 (by omega) files).2 (by omega)
  have e1 : max s 0 - s = 0 := by omega
  have e2 : max (max s 0) (min e (0 + totalLength files)) - s = min e (totalLength files) - s := by omega
  rw [e1, e2] at this
  exact this

/-- C51: a range behind the end of the torrent has at most items of empty files. -/
theorem C51_behind (files : List TorrentFile) (s e : Nat) (hse : s ≤ e) (hs : totalLength files ≤ s) : ∃ segs,
    filesInBounds files s e = .ok segs ∧ Adjacent 0 segs 0 := by
  refine ⟨_, filesInBounds_eq files s e (by omega), ?_⟩
  by_cases h0 : 0 < e
  · have := (segsOf_adjacent s e 0 (by omega) files).2 h0
    have e1 : max s 0 - s = 0 := by omega
    have e2 : max (max s 0) (min e (0 + totalLength files)) - s = 0 := by omega
    rw [e1, e2] at this
    exact this
  · have := (segsOf_adjacent s e 0 (by omega) files).1 (by omega)
    have e1 : e - s = 0 := by omega
    rw [e1] at this
    exact this

/-- A directory of three files, the second empty. -/
def demoFiles : List TorrentFile := [⟨[ascii "a"], 3⟩, ⟨[ascii "b"], 0⟩, ⟨[ascii "c"], 4⟩]

example : (match filesInBounds demoFiles 2 5 with
    | .ok segs => segs.map fun s => (s.start, s.end, s.before)
    | _ => []) = [(0, 1, 2), (1, 1, 0), (1, 3, 0)] := by decide

/-! ## Histories -/

theorem lastWritten_write (ops : List FsOp) (i : Nat) (data : List Bytes) (idx : Nat) :
    lastWritten (ops ++ [.write i data]) idx = if i = idx then some data.flatten else lastWritten ops idx := by
  simp [lastWritten]

theorem lastWritten_read (ops : List FsOp) (i b l : Nat) (buf : Bytes) (idx : Nat) :
    lastWritten (ops ++ [.read i b l buf]) idx = lastWritten ops idx := by
  simp [lastWritten]

theorem lastWritten_isSome (ops : List FsOp) (idx : Nat) (data : List Bytes) (h : FsOp.write idx data ∈ ops) :
    (lastWritten ops idx).isSome := by
  induction ops using snoc_induction with
  | nil => simp at h
  | snoc ops op ih =>
    cases op with
    | write i dt =>
      rw [lastWritten_write]
      by_cases hi : i = idx
      · rw [if_pos hi]; rfl
      · rw [if_neg hi]
        apply ih
        rcases List.mem_append.mp h with h | h
        · exact h
        · simp only [List.mem_singleton, FsOp.write.injEq] at h; exact absurd h.1.symm hi
    | read i b l buf =>
      rw [lastWritten_read]
      apply ih
      rcases List.mem_append.mp h with h | h
      · exact h
      · simp at h

theorem lastWritten_mem (ops : List FsOp) (idx : Nat) (c : Bytes) (h : lastWritten ops idx = some c) :
    ∃ data, FsOp.write idx data ∈ ops ∧ data.flatten = c := by
  induction ops using snoc_induction with
  | nil => cases h
  | snoc ops op ih =>
    cases op with
    | write i dt =>
      rw [lastWritten_write] at h
      by_cases hi : i = idx
      · rw [if_pos hi] at h
        cases h
        exact ⟨dt, by simp [hi], rfl⟩
      · rw [if_neg hi] at h
        obtain ⟨data, h1, h2⟩ := ih h
        exact ⟨data, by simp [h1], h2⟩
    | read i b l buf =>
      rw [lastWritten_read] at h
      obtain ⟨data, h1, h2⟩ := ih h
      exact ⟨data, by simp [h1], h2⟩

/-- A property of the disk and the bytes written so far that writes and reads keep holds after every history. -/
theorem history_inv {write read valid} {P : List FsOp → Disk → Prop} {d0 d : Disk} {ops : List FsOp}
    (h : FsHistory write read valid d0 ops d) (h0 : P [] d0)
    (hw : ∀ ops d idx data d', P ops d → valid idx data → write idx data d = (d', .ok ()) →
      P (ops ++ [.write idx data]) d')
    (hr : ∀ ops d i b l buf d' r, P ops d → read i b l buf d = (d', r) → P (ops ++ [.read i b l buf]) d') : P ops d := by
  induction h with
  | nil => exact h0
  | write h1 h2 h3 ih => exact hw _ _ _ _ _ ih h2 h3
  | read h1 h2 ih => exact hr _ _ _ _ _ _ _ _ ih h2

theorem div_eq_iff_range {pl idx x : Nat} (hp : 0 < pl) : x / pl = idx ↔ idx * pl ≤ x ∧ x < (idx + 1) * pl := by
  rw [Nat.div_eq_iff hp]
  rw [Nat.add_mul, Nat.one_mul]
  omega

theorem mod_of_range {pl idx x : Nat} (_ : 0 < pl) (h : x / pl = idx) : x % pl = x - idx * pl := by
  rw [← h, Nat.mod_eq_sub_div_mul]

/-! ## Several files: C52, C53 -/

/-- The setting of the theorems about several files: as many pieces as needed, no two files with the same path, and
no empty file whose position is at the beginning of a block. -/
structure MultiSetting (base : Bytes) (info : Info) (files : List TorrentFile) : Prop where
  fits : EnoughPieces info.pieces.length info.pieceLength (totalLength files)
  paths : (files.map (MultiFile.path base info.name)).Nodup
  empty : ∀ i (h : i < files.length), files[i].length = 0 → fileStart files i % info.pieceLength % 16384 ≠ 0

/-- A history of calls on the storage of a torrent with several files. -/
abbrev MultiHistory (openable : Bytes → Bool) (base : Bytes) (info : Info) (files : List TorrentFile) :=
  FsHistory (MultiFile.writePiece openable base info files) (MultiFile.readBlock openable base info files)
    (ValidPiece info.pieces.length info.pieceLength (totalLength files))

theorem multi_write_unfold (openable : Bytes → Bool) (base : Bytes) (info : Info) (files : List TorrentFile) (idx : Nat)
    (data : List Bytes) (d : Disk) : MultiFile.writePiece openable base info files idx data d =
      MultiFile.writeFiles openable base info.name data
        (segsOf (idx * info.pieceLength) ((idx + 1) * info.pieceLength) 0 files) d := by
  unfold MultiFile.writePiece
  rw [bind_ok (show DiskM.lift (filesInBounds files (idx * info.pieceLength) ((idx + 1) * info.pieceLength)) d =
    (d, .ok _) by
      unfold DiskM.lift
      rw [filesInBounds_eq _ _ _ (by rw [Nat.add_mul]; omega)])]

theorem multi_write_effect (openable : Bytes → Bool) (base : Bytes) (info : Info) (files : List TorrentFile)
    (hpl : 0 < info.pieceLength) (hn : (files.map (MultiFile.path base info.name)).Nodup) (n idx : Nat)
    (data : List Bytes) (hv : ValidPiece n info.pieceLength (totalLength files) idx data) (d d' : Disk) (r : Res Unit)
    (h : MultiFile.writePiece openable base info files idx data d = (d', r)) :
    (∀ q, q ∉ files.map (MultiFile.path base info.name) → d'.get? q = d.get? q) ∧
    (∀ i (hi : i < files.length), FileEffect data.flatten (idx * info.pieceLength) ((idx + 1) * info.pieceLength)
      (fileStart files i) files[i] (MultiFile.path base info.name files[i]) d d' (r = .ok ())) ∧
    ((∀ f ∈ files, openable (MultiFile.path base info.name f) = true) →
      (∀ i (hi : i < files.length), files[i].length = 0 → fileStart files i / info.pieceLength = idx →
        fileStart files i % info.pieceLength % 16384 ≠ 0) → r = .ok ()) := by
  rw [multi_write_unfold] at h
  obtain ⟨_, hb, hs, hle⟩ := hv
  have hmul : (idx + 1) * info.pieceLength = idx * info.pieceLength + info.pieceLength := by rw [Nat.add_mul]; omega
  obtain ⟨w1, w2, w3⟩ := writeFiles_effect openable base info.name data (idx * info.pieceLength)
    ((idx + 1) * info.pieceLength) (by omega) hb files 0 d hn (by
      rw [Nat.zero_add]
      unfold pieceSize at hs
      omega) d' r h
  simp only [Nat.zero_add] at w2 w3
  refine ⟨w1, w2, fun ho hz => w3 ho ?_⟩
  intro i hi h1 h2 h3
  have hdiv : fileStart files i / info.pieceLength = idx := (div_eq_iff_range hpl).mpr ⟨h2, h3⟩
  have := hz i hi h1 hdiv
  rw [mod_of_range hpl hdiv] at this
  exact this

/-- C52: whatever the outcome, writing a piece changes no byte outside the piece and no other file. -/
theorem C52_isolated (openable : Bytes → Bool) (base : Bytes) (info : Info) (files : List TorrentFile)
    (hpl : 0 < info.pieceLength) (hn : (files.map (MultiFile.path base info.name)).Nodup) (idx : Nat)
    (data : List Bytes) (hv : ValidPiece info.pieces.length info.pieceLength (totalLength files) idx data) (d : Disk) :
    (∀ q, q ∉ files.map (MultiFile.path base info.name) →
      ((MultiFile.writePiece openable base info files idx data d).1).get? q = d.get? q) ∧
    ∀ i (hi : i < files.length) x b, (fileStart files i + x) / info.pieceLength ≠ idx →
      (fileOf d (MultiFile.path base info.name files[i]))[x]? = some b →
      (fileOf (MultiFile.writePiece openable base info files idx data d).1
        (MultiFile.path base info.name files[i]))[x]? = some b := by
  obtain ⟨w1, w2, _⟩ := multi_write_effect openable base info files hpl hn _ idx data hv d _ _ rfl
  refine ⟨w1, fun i hi x b hx hb => (w2 i hi).others x b ?_ hb⟩
  intro hc
  exact hx ((div_eq_iff_range hpl).mpr hc)

/-- C52: writing a valid piece succeeds when the files can be opened and no empty file sits at the beginning of a
block. -/
theorem C52_write_succeeds_partial (openable : Bytes → Bool) (base : Bytes) (info : Info) (files : List TorrentFile)
    (hset : MultiSetting base info files) (ho : ∀ f ∈ files, openable (MultiFile.path base info.name f) = true)
    (idx : Nat) (data : List Bytes)
    (hv : ValidPiece info.pieces.length info.pieceLength (totalLength files) idx data) (d : Disk) :
    (MultiFile.writePiece openable base info files idx data d).2 = .ok () :=
  (multi_write_effect openable base info files hset.fits.1 hset.paths _ idx data hv d _ _ rfl).2.2 ho
    (fun i hi h1 _ => hset.empty i hi h1)

/-- C52: reading changes no file's contents. -/
theorem C52_read_pure (openable : Bytes → Bool) (base : Bytes) (info : Info) (files : List TorrentFile)
    (i b l : Nat) (buf : Bytes) (d : Disk) (q : Bytes) :
    fileOf (MultiFile.readBlock openable base info files i b l buf d).1 q = fileOf d q := by
  unfold MultiFile.readBlock
  refine bind_disk _ _ d (fun d' => fileOf d' q = fileOf d q) rfl ?_
  intro segs d1 h1
  have : d1 = d := (Prod.mk.inj h1).1.symm
  subst this
  exact readFiles_pure openable base info.name segs buf d1 q

theorem multi_inv (openable : Bytes → Bool) (base : Bytes) (info : Info) (files : List TorrentFile)
    (hpl : 0 < info.pieceLength) (hn : (files.map (MultiFile.path base info.name)).Nodup)
    (d0 d : Disk) (ops : List FsOp) (h : MultiHistory openable base info files d0 ops d) :
    ∀ i (hi : i < files.length),
      (fileOf d (MultiFile.path base info.name files[i])).length ≤
        max (fileOf d0 (MultiFile.path base info.name files[i])).length files[i].length ∧
      ∀ x b, x < files[i].length → torrentByte info.pieceLength ops (fileStart files i + x) = some b →
        (fileOf d (MultiFile.path base info.name files[i]))[x]? = some b := by
  refine history_inv (P := fun ops d => ∀ i (hi : i < files.length),
      (fileOf d (MultiFile.path base info.name files[i])).length ≤
        max (fileOf d0 (MultiFile.path base info.name files[i])).length files[i].length ∧
      ∀ x b, x < files[i].length → torrentByte info.pieceLength ops (fileStart files i + x) = some b →
        (fileOf d (MultiFile.path base info.name files[i]))[x]? = some b) h ?_ ?_ ?_
  · intro i hi
    refine ⟨by omega, fun x b _ hb => ?_⟩
    cases hb
  · intro ops d idx data d' hP hv hw i hi
    obtain ⟨w1, w2, _⟩ := multi_write_effect openable base info files hpl hn _ idx data hv d d' _ hw
    have he := w2 i hi
    obtain ⟨p1, p2⟩ := hP i hi
    refine ⟨by have := he.size; omega, ?_⟩
    intro x b hx hb
    unfold torrentByte at hb
    rw [lastWritten_write] at hb
    by_cases hc : (fileStart files i + x) / info.pieceLength = idx
    · rw [if_pos hc.symm] at hb
      have hr := (div_eq_iff_range hpl).mp hc
      rw [he.written rfl x hx hr.1 hr.2, ← mod_of_range hpl hc]
      exact hb
    · rw [if_neg (fun e => hc e.symm)] at hb
      exact he.others x b (fun hr => hc ((div_eq_iff_range hpl).mpr hr)) (p2 x b hx hb)
  · intro ops d i' b l buf d' r hP hr i hi
    have hpure : ∀ q, fileOf d' q = fileOf d q := by
      intro q
      have := C52_read_pure openable base info files i' b l buf d q
      rw [hr] at this
      exact this
    obtain ⟨p1, p2⟩ := hP i hi
    rw [hpure]
    refine ⟨p1, fun x b hx hb => p2 x b hx ?_⟩
    unfold torrentByte at hb ⊢
    rw [lastWritten_read] at hb
    exact hb

theorem file_at (files : List TorrentFile) (y : Nat) (h : y < totalLength files) :
    ∃ i, ∃ hi : i < files.length, ∃ x, x < files[i].length ∧ fileStart files i + x = y := by
  induction files generalizing y with
  | nil => simp [totalLength] at h
  | cons f fs ih =>
    have htot : totalLength (f :: fs) = f.length + totalLength fs := by simp [totalLength]
    by_cases hy : y < f.length
    · exact ⟨0, by simp, y, hy, by simp [fileStart]⟩
    · obtain ⟨i, hi, x, hx, he⟩ := ih (y - f.length) (by omega)
      refine ⟨i + 1, by simpa using hi, x, by simpa using hx, ?_⟩
      rw [fileStart_cons]; omega

/-- C52: after any history of successful writes of valid pieces, and of reads, reading a range all of whose bytes
have been written returns the bytes last written, whichever pieces and files they lie in. Missing from the property:
writes of pieces with an empty file at the beginning of a block do not succeed (the `_violated` theorems). -/
theorem C52_read_back_partial (openable : Bytes → Bool) (base : Bytes) (info : Info) (files : List TorrentFile)
    (hpl : 0 < info.pieceLength) (hn : (files.map (MultiFile.path base info.name)).Nodup)
    (ho : ∀ f ∈ files, openable (MultiFile.path base info.name f) = true)
    (d0 d : Disk) (ops : List FsOp) (h : MultiHistory openable base info files d0 ops d)
    (index begin_ length : Nat) (buf : Bytes) (hbuf : length ≤ buf.length)
    (hin : index * info.pieceLength + begin_ + length ≤ totalLength files)
    (hwritten : ∀ i, i < length → (torrentByte info.pieceLength ops (index * info.pieceLength + begin_ + i)).isSome) :
    ∃ d' buf', MultiFile.readBlock openable base info files index begin_ length buf d = (d', .ok buf') ∧
      ReadsBack info.pieceLength ops (index * info.pieceLength + begin_) length buf buf' := by
  have hinv := multi_inv openable base info files hpl hn d0 d ops h
  unfold MultiFile.readBlock
  generalize hs : index * info.pieceLength + begin_ = s at hin hwritten
  have hval : ∀ y, s ≤ y → y < s + length → torrentByte info.pieceLength ops y =
      some ((torrentByte info.pieceLength ops y).getD 0#8) := by
    intro y h1 h2
    have := hwritten (y - s) (by omega)
    rw [show s + (y - s) = y by omega] at this
    cases hy : torrentByte info.pieceLength ops y with
    | none => rw [hy] at this; cases this
    | some b => rfl
  obtain ⟨d', buf', hr, hl, hv⟩ := readFiles_eq openable base info.name s (s + length) (by omega)
    (fun y => (torrentByte info.pieceLength ops y).getD 0#8) files 0 d buf ho (by omega) (by
      intro i hi x hx h1 h2
      rw [Nat.zero_add] at h1 h2 ⊢
      exact (hinv i hi).2 x _ hx (hval _ h1 h2))
  refine ⟨d', buf', ?_, hl, ?_⟩
  · rw [bind_ok (show DiskM.lift (filesInBounds files s (s + length)) d = (d, .ok _) by
      unfold DiskM.lift; rw [filesInBounds_eq _ _ _ (by omega)])]
    exact hr
  · intro i hi
    rw [hv i]
    by_cases hc : i < length
    · rw [if_pos hc, if_pos (by omega), ← hval (s + i) (by omega) (by omega)]
    · rw [if_neg hc, if_neg (by omega)]

/-! ### Empty files at the beginning of a block -/

/-- C52 fails for a torrent that begins with an empty file: writing the first piece panics, whatever the piece. -/
theorem C52_empty_first_file_violated (openable : Bytes → Bool) (base : Bytes) (info : Info) (f : TorrentFile)
    (files : List TorrentFile) (hf : f.length = 0) (hpl : 0 < info.pieceLength)
    (ho : openable (MultiFile.path base info.name f) = true) (data : List Bytes) (d : Disk) :
    (MultiFile.writePiece openable base info (f :: files) 0 data d).2 = .panic := by
  rw [multi_write_unfold]
  have ht : FilesInBounds.touches (0 * info.pieceLength) ((0 + 1) * info.pieceLength) 0 f = true := by
    rw [touches_iff]; simp; omega
  simp only [segsOf, ht, if_true]
  obtain ⟨h, _⟩ | ⟨_, d', h, _⟩ := openFile_cases openable (MultiFile.path base info.name f) d
  · rw [h] at ho; cases ho
  · simp only [MultiFile.writeFiles]
    rw [bind_ok h]
    have e1 : max (0 * info.pieceLength) 0 - 0 * info.pieceLength = 0 := by omega
    have e2 : min ((0 + 1) * info.pieceLength) (0 + f.length) - 0 * info.pieceLength = 0 := by omega
    simp only [e1, e2]
    rw [bind_panic (writeChunk_zero _ _ _ _)]

/-- C52 fails for an empty file behind a first file of exactly one block, too: the write of the piece fails, although
every file can be opened, and the files behind it are not written. -/
theorem C52_empty_file_at_block_violated (openable : Bytes → Bool) (base : Bytes) (info : Info) (f g : TorrentFile)
    (files : List TorrentFile) (hf : f.length = 16384) (hg : g.length = 0) (hpl : 16384 < info.pieceLength)
    (ho : ∀ f', openable f' = true) (data : List Bytes)
    (hv : ValidPiece info.pieces.length info.pieceLength (totalLength (f :: g :: files)) 0 data) (d : Disk) :
    (MultiFile.writePiece openable base info (f :: g :: files) 0 data d).2 = .err := by
  rw [multi_write_unfold]
  obtain ⟨_, hb, hs, _⟩ := hv
  have htot : totalLength (f :: g :: files) = f.length + (g.length + totalLength files) := by simp [totalLength]
  have hlen : 16384 ≤ data.flatten.length := by unfold pieceSize at hs; omega
  have ht1 : FilesInBounds.touches (0 * info.pieceLength) ((0 + 1) * info.pieceLength) 0 f = true := by
    rw [touches_iff]; omega
  have ht2 : FilesInBounds.touches (0 * info.pieceLength) ((0 + 1) * info.pieceLength) (0 + f.length) g = true := by
    rw [touches_iff]; omega
  simp only [segsOf, ht1, ht2, if_true, MultiFile.writeFiles]
  obtain ⟨h, _⟩ | ⟨_, d1, h1, _⟩ := openFile_cases openable (MultiFile.path base info.name f) d
  · rw [ho] at h; cases h
  rw [bind_ok h1]
  have e1 : max (0 * info.pieceLength) 0 - 0 * info.pieceLength = 0 := by omega
  have e2 : min ((0 + 1) * info.pieceLength) (0 + f.length) - 0 * info.pieceLength = 16384 := by omega
  have e3 : max (0 * info.pieceLength) (0 + f.length) - 0 * info.pieceLength = 16384 := by omega
  have e4 : min ((0 + 1) * info.pieceLength) (0 + f.length + g.length) - 0 * info.pieceLength = 16384 := by omega
  simp only [e1, e2, e3, e4]
  rw [bind_ok (writeChunk_eq _ data _ 0 16384 d1 hb (by omega) hlen)]
  obtain ⟨h, _⟩ | ⟨_, d2, h2, _⟩ := openFile_cases openable (MultiFile.path base info.name g)
    (d1.modify (MultiFile.path base info.name f) (fun x => writeAt x (max (0 * info.pieceLength) 0 - 0)
      ((data.flatten.drop 0).take (16384 - 0))))
  · rw [ho] at h; cases h
  rw [bind_ok h2]
  rw [bind_err (writeChunk_boundary _ data _ 16384 _ (by omega) (by omega) (by
    have := inBlocks_length_le hb; omega))]

/-- Reading behind the end of the torrent reports success and leaves the buffer as it was: the caller cannot tell. -/
theorem C52_read_past_end (openable : Bytes → Bool) (base : Bytes) (info : Info) (files : List TorrentFile)
    (hz : ∀ f ∈ files, 0 < f.length) (index begin_ length : Nat) (buf : Bytes)
    (hpast : totalLength files ≤ index * info.pieceLength + begin_) (d : Disk) :
    MultiFile.readBlock openable base info files index begin_ length buf d = (d, .ok buf) := by
  unfold MultiFile.readBlock
  rw [bind_ok (show DiskM.lift (filesInBounds files (index * info.pieceLength + begin_)
      (index * info.pieceLength + begin_ + length)) d = (d, .ok _) by
      unfold DiskM.lift; rw [filesInBounds_eq _ _ _ (by omega)])]
  have : ∀ off, off + totalLength files ≤ index * info.pieceLength + begin_ →
      segsOf (index * info.pieceLength + begin_) (index * info.pieceLength + begin_ + length) off files = [] := by
    clear hpast
    induction files with
    | nil => intros; rfl
    | cons f fs ih =>
      intro off h
      have htot : totalLength (f :: fs) = f.length + totalLength fs := by simp [totalLength]
      have := hz f (by simp)
      simp only [segsOf]
      rw [if_neg (by rw [touches_iff]; omega)]
      exact ih (fun x hx => hz x (by simp [hx])) _ (by omega)
  rw [this 0 (by omega)]
  rfl

/-! ## C53: complete downloads, several files -/

theorem torrentByte_content (n pl : Nat) (content : Bytes) (ops : List FsOp) (hpl : 0 < pl)
    (hn : content.length ≤ n * pl)
    (hfrom : AllFrom pl content ops) (hall : AllWritten n ops) (x : Nat) (hx : x < content.length) :
    torrentByte pl ops x = content[x]? := by
  have hidx : x / pl < n := by
    rw [Nat.div_lt_iff_lt_mul hpl]; omega
  obtain ⟨data, hd⟩ := hall _ hidx
  have hsome := lastWritten_isSome ops _ data hd
  cases hl : lastWritten ops (x / pl) with
  | none => rw [hl] at hsome; cases hsome
  | some c =>
    obtain ⟨data', hm, hc⟩ := lastWritten_mem ops _ c hl
    have hf := hfrom _ _ hm
    rw [hc] at hf
    unfold torrentByte
    rw [hl]
    show c[x % pl]? = _
    have hmod : x % pl < pl := Nat.mod_lt _ hpl
    have hdm : x / pl * pl + x % pl = x := by rw [Nat.mul_comm]; exact Nat.div_add_mod x pl
    have h1 : c[x % pl]? = (c.take (pieceSize pl content.length (x / pl)))[x % pl]? := by
      rw [List.getElem?_take_of_lt (by unfold pieceSize; omega)]
    rw [h1, hf, List.getElem?_take_of_lt hmod, List.getElem?_drop, hdm]

theorem writeAll_mono (p : Bytes) (pos : Nat) (bs : Bytes) (d : Disk) (q : Bytes) :
    (((writeAll p pos bs d).1).get? q).isSome = (d.get? q).isSome :=
  get?_modify_isSome d p (fun f => writeAt f pos bs) q

theorem writeAll_only (p : Bytes) (pos : Nat) (bs : Bytes) (d : Disk) (q : Bytes) (h : q ≠ p) :
    ((writeAll p pos bs d).1).get? q = d.get? q := by
  unfold writeAll
  rw [Map.get?_modify, if_neg h]

/-- Writing a chunk only touches its file, which does not disappear. -/
theorem writeChunk_only (p : Bytes) (data : List Bytes) (w a b : Nat) (d : Disk) (q : Bytes) :
    (q ≠ p → ((MultiFile.writeChunk p data w a b d).1).get? q = d.get? q) ∧
    (((MultiFile.writeChunk p data w a b d).1).get? q).isSome = (d.get? q).isSome := by
  have lift_disk : ∀ {α} (r : Res α) (d d' : Disk) (a : α), DiskM.lift r d = (d', .ok a) → d' = d :=
    fun r d d' a h => (Prod.mk.inj h).1.symm
  unfold MultiFile.writeChunk
  refine bind_disk _ _ d (fun d' => (q ≠ p → d'.get? q = d.get? q) ∧ (d'.get? q).isSome = (d.get? q).isSome)
    ⟨fun _ => rfl, rfl⟩ ?_
  intro len d1 h1
  obtain rfl := lift_disk _ _ _ _ h1
  refine bind_disk _ _ d1 (fun d' => (q ≠ p → d'.get? q = d1.get? q) ∧ (d'.get? q).isSome = (d1.get? q).isSome)
    ⟨fun _ => rfl, rfl⟩ ?_
  intro em d2 h2
  obtain rfl := lift_disk _ _ _ _ h2
  refine bind_disk _ _ d2 (fun d' => (q ≠ p → d'.get? q = d2.get? q) ∧ (d'.get? q).isSome = (d2.get? q).isSome)
    ⟨fun _ => rfl, rfl⟩ ?_
  intro sl d3 h3
  obtain rfl := lift_disk _ _ _ _ h3
  match sl with
  | [] => exact ⟨fun _ => rfl, rfl⟩
  | [b'] =>
    refine bind_disk _ _ d3 (fun d' => (q ≠ p → d'.get? q = d3.get? q) ∧ (d'.get? q).isSome = (d3.get? q).isSome)
      ⟨fun _ => rfl, rfl⟩ ?_
    intro part d4 h4
    obtain rfl := lift_disk _ _ _ _ h4
    exact ⟨writeAll_only _ _ _ _ _, writeAll_mono _ _ _ _ _⟩
  | first :: b' :: bs =>
    refine bind_disk _ _ d3 (fun d' => (q ≠ p → d'.get? q = d3.get? q) ∧ (d'.get? q).isSome = (d3.get? q).isSome)
      ⟨fun _ => rfl, rfl⟩ ?_
    intro part d4 h4
    obtain rfl := lift_disk _ _ _ _ h4
    rw [bind_ok (show writeAll p w part d4 = (_, .ok ()) from rfl)]
    rw [bind_ok (writeBlocks_eq _ _ _ _), modify_modify]
    have hstep : ∀ g : Bytes → Bytes, (q ≠ p → (d4.modify p g).get? q = d4.get? q) ∧
        ((d4.modify p g).get? q).isSome = (d4.get? q).isSome := by
      intro g
      exact ⟨fun h => by rw [Map.get?_modify, if_neg h], get?_modify_isSome _ _ _ _⟩
    refine bind_disk _ _ _ (fun d' => (q ≠ p → d'.get? q = d4.get? q) ∧ (d'.get? q).isSome = (d4.get? q).isSome)
      (hstep (fun x => writeAt (writeAt x w part) (w + part.length) (b' :: bs).dropLast.flatten)) ?_
    intro last d5 h5
    obtain rfl := lift_disk _ _ _ _ h5
    constructor
    · intro h
      rw [writeAll_only _ _ _ _ _ h]
      exact (hstep _).1 h
    · rw [writeAll_mono]
      exact (hstep _).2

theorem openFile_mono (openable : Bytes → Bool) (p : Bytes) (d : Disk) (q : Bytes) :
    (q ≠ p → ((openFile openable p d).1).get? q = d.get? q) ∧
    ((d.get? q).isSome → (((openFile openable p d).1).get? q).isSome) := by
  rcases openFile_cases openable p d with ⟨_, h⟩ | ⟨_, d', h, h1, _, h3⟩
  · rw [h]; exact ⟨fun _ => rfl, fun x => x⟩
  · rw [h]
    refine ⟨h3 q, fun hx => ?_⟩
    by_cases hq : q = p
    · subst hq; exact h1
    · show (d'.get? q).isSome; rw [h3 q hq]; exact hx

theorem writeFiles_only (openable : Bytes → Bool) (base name : Bytes) (data : List Bytes) (segs : List FileWithBounds)
    (d : Disk) (q : Bytes) :
    (q ∉ segs.map (fun s => MultiFile.path base name s.file) →
      ((MultiFile.writeFiles openable base name data segs d).1).get? q = d.get? q) ∧
    ((d.get? q).isSome → (((MultiFile.writeFiles openable base name data segs d).1).get? q).isSome) := by
  induction segs generalizing d with
  | nil => exact ⟨fun _ => rfl, fun x => x⟩
  | cons seg segs ih =>
    simp only [MultiFile.writeFiles]
    have ho := openFile_mono openable (MultiFile.path base name seg.file) d q
    constructor
    · intro hq
      simp only [List.map_cons, List.mem_cons, not_or] at hq
      refine bind_disk _ _ d (fun d' => d'.get? q = d.get? q) (ho.1 hq.1) ?_
      intro _ d1 h1
      rw [h1] at ho
      have hc := writeChunk_only (MultiFile.path base name seg.file) data seg.before seg.start seg.end d1 q
      refine bind_disk _ _ d1 (fun d' => d'.get? q = d.get? q) ((hc.1 hq.1).trans (ho.1 hq.1)) ?_
      intro _ d2 h2
      rw [h2] at hc
      exact ((ih d2).1 hq.2).trans ((hc.1 hq.1).trans (ho.1 hq.1))
    · intro hx
      refine bind_disk _ _ d (fun d' => (d'.get? q).isSome) (ho.2 hx) ?_
      intro _ d1 h1
      rw [h1] at ho
      have hc := writeChunk_only (MultiFile.path base name seg.file) data seg.before seg.start seg.end d1 q
      refine bind_disk _ _ d1 (fun d' => (d'.get? q).isSome) (by rw [hc.2]; exact ho.2 hx) ?_
      intro _ d2 h2
      rw [h2] at hc
      exact (ih d2).2 (by have := hc.2; rw [show (d2.get? q).isSome = (d1.get? q).isSome from this]; exact ho.2 hx)

theorem readFiles_mono (openable : Bytes → Bool) (base name : Bytes) (segs : List FileWithBounds) (buf : Bytes)
    (d : Disk) (q : Bytes) (h : (d.get? q).isSome) :
    (((MultiFile.readFiles openable base name segs buf d).1).get? q).isSome := by
  induction segs generalizing buf d with
  | nil => exact h
  | cons seg segs ih =>
    simp only [MultiFile.readFiles]
    refine bind_disk _ _ d (fun d' => (d'.get? q).isSome) h ?_
    intro t d1 h1
    have : d1 = d := (Prod.mk.inj h1).1.symm
    subst this
    have ho := (openFile_mono openable (MultiFile.path base name seg.file) d1 q).2 h
    refine bind_disk _ _ d1 (fun d' => (d'.get? q).isSome) ho ?_
    intro _ d2 h2
    rw [h2] at ho
    have hr := readExact_disk (MultiFile.path base name seg.file) seg.before t.length d2
    refine bind_disk _ _ d2 (fun d' => (d'.get? q).isSome) (by rw [hr]; exact ho) ?_
    intro bs d3 h3
    rw [h3] at hr
    have hr' : d3 = d2 := hr
    subst hr'
    exact ih _ d3 ho

theorem multi_exist (openable : Bytes → Bool) (base : Bytes) (info : Info) (files : List TorrentFile)
    (hpl : 0 < info.pieceLength) (hn : (files.map (MultiFile.path base info.name)).Nodup)
    (d0 d : Disk) (ops : List FsOp) (h : MultiHistory openable base info files d0 ops d) :
    ∀ i (hi : i < files.length) data, FsOp.write (fileStart files i / info.pieceLength) data ∈ ops →
      (d.get? (MultiFile.path base info.name files[i])).isSome := by
  refine history_inv (P := fun ops d => ∀ i (hi : i < files.length) data,
      FsOp.write (fileStart files i / info.pieceLength) data ∈ ops →
      (d.get? (MultiFile.path base info.name files[i])).isSome) h ?_ ?_ ?_
  · intro i hi data hm; cases hm
  · intro ops d idx data d' hP hv hw i hi data' hm
    have he := (multi_write_effect openable base info files hpl hn _ idx data hv d d' _ hw).2.1 i hi
    by_cases hc : fileStart files i / info.pieceLength = idx
    · apply he.exist rfl
      have := (div_eq_iff_range hpl).mp hc
      rw [touches_iff]; omega
    · have hold := hP i hi data' (by
        rcases List.mem_append.mp hm with hm | hm
        · exact hm
        · simp only [List.mem_singleton, FsOp.write.injEq] at hm; exact absurd hm.1 hc)
      have hmono := (writeFiles_only openable base info.name data
        (segsOf (idx * info.pieceLength) ((idx + 1) * info.pieceLength) 0 files) d
        (MultiFile.path base info.name files[i])).2 hold
      rw [← multi_write_unfold, hw] at hmono
      exact hmono
  · intro ops d i' b l buf d' r hP hr i hi data hm
    have hold := hP i hi data (by
      rcases List.mem_append.mp hm with hm | hm
      · exact hm
      · simp at hm)
    have hmono : (((MultiFile.readBlock openable base info files i' b l buf d).1).get?
        (MultiFile.path base info.name files[i])).isSome := by
      unfold MultiFile.readBlock
      refine bind_disk _ _ d (fun d' => (d'.get? (MultiFile.path base info.name files[i])).isSome) hold ?_
      intro segs d1 h1
      have : d1 = d := (Prod.mk.inj h1).1.symm
      subst this
      exact readFiles_mono _ _ _ _ _ _ _ hold
    rw [hr] at hmono
    exact hmono

theorem fileStart_le (files : List TorrentFile) (i : Nat) (hi : i < files.length) :
    fileStart files i + files[i].length ≤ totalLength files := by
  induction files generalizing i with
  | nil => simp at hi
  | cons f fs ih =>
    have htot : totalLength (f :: fs) = f.length + totalLength fs := by simp [totalLength]
    cases i with
    | zero => simp only [fileStart, List.take_zero, List.map_nil, List.sum_nil, List.getElem_cons_zero]; omega
    | succ i =>
      have := ih i (by simpa using hi)
      rw [fileStart_cons, List.getElem_cons_succ]; omega

/-- C53, several files: once every piece of the true contents has been written, in any order and any number of
times, with reads in between, every file exists and is exactly its part of the contents. Missing from the property:
torrents with an empty file at the beginning of a block (the `_violated` theorems). -/
theorem C53_complete_partial (openable : Bytes → Bool) (base : Bytes) (info : Info) (files : List TorrentFile)
    (hset : MultiSetting base info files) (content : Bytes) (hc : content.length = totalLength files)
    (d0 d : Disk) (ops : List FsOp) (h0 : ∀ f ∈ files, d0.get? (MultiFile.path base info.name f) = none)
    (h : MultiHistory openable base info files d0 ops d)
    (hfrom : AllFrom info.pieceLength content ops) (hall : AllWritten info.pieces.length ops)
    (i : Nat) (hi : i < files.length) :
    d.get? (MultiFile.path base info.name files[i]) = some (fileBytes files content i hi) := by
  obtain ⟨hpl, hn0, hn1, hn2⟩ := hset.fits
  obtain ⟨i1, i2⟩ := multi_inv openable base info files hpl hset.paths d0 d ops h i hi
  have hfl := fileStart_le files i hi
  have hd0 : fileOf d0 (MultiFile.path base info.name files[i]) = [] := by
    unfold fileOf; rw [h0 _ (List.getElem_mem hi)]; rfl
  rw [hd0] at i1
  have hidx : fileStart files i / info.pieceLength < info.pieces.length := by
    rw [Nat.div_lt_iff_lt_mul hpl]
    by_cases hz : files[i].length = 0
    · have := hset.empty i hi hz
      have hne : fileStart files i ≠ info.pieces.length * info.pieceLength := by
        intro he; rw [he, Nat.mul_mod_left] at this; simp at this
      omega
    · omega
  obtain ⟨data, hdata⟩ := hall _ hidx
  have hex := multi_exist openable base info files hpl hset.paths d0 d ops h i hi data hdata
  cases hg : d.get? (MultiFile.path base info.name files[i]) with
  | none => rw [hg] at hex; cases hex
  | some f =>
    have hfo : fileOf d (MultiFile.path base info.name files[i]) = f := by unfold fileOf; rw [hg]; rfl
    rw [hfo] at i1 i2
    congr 1
    unfold fileBytes
    apply List.ext_getElem?
    intro x
    by_cases hx : x < files[i].length
    · have hcx : fileStart files i + x < content.length := by omega
      rw [List.getElem?_take_of_lt hx, List.getElem?_drop]
      have hb := torrentByte_content info.pieces.length info.pieceLength content ops hpl (by omega) hfrom hall _ hcx
      rw [List.getElem?_eq_getElem hcx] at hb ⊢
      exact i2 x _ hx hb
    · rw [List.getElem?_eq_none (by simp only [List.length_nil] at i1; omega),
        List.getElem?_eq_none (by rw [List.length_take]; omega)]

/-- C53 fails for an empty file at the very end of a torrent that fills its last piece: it is never created. -/
theorem C53_empty_last_file_violated (openable : Bytes → Bool) (base : Bytes) (info : Info) (files : List TorrentFile)
    (hfull : totalLength files = info.pieces.length * info.pieceLength)
    (hn : (files.map (MultiFile.path base info.name)).Nodup)
    (i : Nat) (hi : i < files.length) (hz : files[i].length = 0) (hend : fileStart files i = totalLength files)
    (d0 d : Disk) (ops : List FsOp) (h0 : d0.get? (MultiFile.path base info.name files[i]) = none)
    (hw : ∀ j b l buf, FsOp.read j b l buf ∉ ops)
    (h : MultiHistory openable base info files d0 ops d) :
    d.get? (MultiFile.path base info.name files[i]) = none := by
  suffices H : (∀ j b l buf, FsOp.read j b l buf ∉ ops) → d.get? (MultiFile.path base info.name files[i]) = none from H hw
  refine history_inv (P := fun ops d => (∀ j b l buf, FsOp.read j b l buf ∉ ops) →
    d.get? (MultiFile.path base info.name files[i]) = none) h (fun _ => h0) ?_ ?_
  · intro ops d idx data d' hP hv hw hr
    have hold := hP (fun j b l buf hm => hr j b l buf (by simp [hm]))
    have honly := (writeFiles_only openable base info.name data
        (segsOf (idx * info.pieceLength) ((idx + 1) * info.pieceLength) 0 files) d
        (MultiFile.path base info.name files[i])).1 (by
      intro hm
      obtain ⟨seg, hseg, hpath⟩ := List.mem_map.mp hm
      rw [segsOf_touched] at hseg
      obtain ⟨j, hj, ht, rfl⟩ := hseg
      have hji : j = i := by
        have hp : (files.map (MultiFile.path base info.name))[j]'(by simpa using hj) =
            (files.map (MultiFile.path base info.name))[i]'(by simpa using hi) := by
          simp only [List.getElem_map]; exact hpath
        have hpw := List.pairwise_iff_getElem.mp hn
        rcases Nat.lt_trichotomy j i with h | h | h
        · exact absurd hp (hpw j i _ _ h)
        · exact h
        · exact absurd hp.symm (hpw i j _ _ h)
      subst hji
      rw [touches_iff, Nat.zero_add, hend, hfull] at ht
      have hlt := hv.1
      have : (idx + 1) * info.pieceLength ≤ info.pieces.length * info.pieceLength :=
        Nat.mul_le_mul_right _ hlt
      omega)
    rw [← multi_write_unfold, hw] at honly
    exact honly.trans hold
  · intro ops d j b l buf d' r hP _ hr
    exact absurd (by simp) (hr j b l buf)

/-! ## One file: C50, C53 -/

/-- A history of calls on the storage of a torrent with one file. -/
abbrev SingleHistory (openable : Bytes → Bool) (base : Bytes) (info : Info) (len : Nat) :=
  FsHistory (SingleFile.writePiece openable base info) (SingleFile.readBlock openable base info)
    (ValidPiece info.pieces.length info.pieceLength len)

theorem fits_mod {n pl len : Nat} (h : EnoughPieces n pl len) :
    (len % pl = 0 ∧ len = n * pl) ∨ (0 < len % pl ∧ len = (n - 1) * pl + len % pl) := by
  obtain ⟨h1, h2, h3, h4⟩ := h
  have hn : n * pl = (n - 1) * pl + pl := by
    conv => lhs; rw [show n = (n - 1) + 1 by omega]
    rw [Nat.add_mul, Nat.one_mul]
  have ht : len = (n - 1) * pl + (len - (n - 1) * pl) := by omega
  by_cases he : len - (n - 1) * pl = pl
  · left
    have : len = n * pl := by omega
    exact ⟨by rw [this]; exact Nat.mul_mod_left _ _, this⟩
  · right
    have : len % pl = len - (n - 1) * pl := by
      conv => lhs; rw [ht]
      rw [Nat.mul_add_mod_self_right, Nat.mod_eq_of_lt (by omega)]
    omega

/-- How far the code writes: the whole torrent, or all but the last piece when that piece is full. -/
def reach (info : Info) (len : Nat) : Nat := (info.pieces.length - 1) * info.pieceLength + len % info.pieceLength

theorem single_write_effect (openable : Bytes → Bool) (base : Bytes) (info : Info) (len : Nat)
    (hm : info.mode = .single len) (hf : EnoughPieces info.pieces.length info.pieceLength len) (idx : Nat) (data : List Bytes)
    (hv : ValidPiece info.pieces.length info.pieceLength len idx data) (d d' : Disk) (r : Res Unit)
    (h : SingleFile.writePiece openable base info idx data d = (d', r)) :
    (∀ q, q ≠ SingleFile.path base info → d'.get? q = d.get? q) ∧
    (fileOf d' (SingleFile.path base info)).length ≤
      max (fileOf d (SingleFile.path base info)).length (reach info len) ∧
    (∀ x b, x / info.pieceLength ≠ idx → (fileOf d (SingleFile.path base info))[x]? = some b →
      (fileOf d' (SingleFile.path base info))[x]? = some b) ∧
    (r = .ok () → (d'.get? (SingleFile.path base info)).isSome) ∧
    (r = .ok () → ∀ x, x / info.pieceLength = idx → x < reach info len →
      (fileOf d' (SingleFile.path base info))[x]? = data.flatten[x % info.pieceLength]?) ∧
    (openable (SingleFile.path base info) = true → r = .ok ()) ∧
    (∀ x b, reach info len ≤ x → (fileOf d (SingleFile.path base info))[x]? = some b →
      (fileOf d' (SingleFile.path base info))[x]? = some b) := by
  obtain ⟨hidx, hb, hs, hle⟩ := hv
  have hmod := fits_mod hf
  obtain ⟨h1, h2, h3, h4⟩ := hf
  have hmul : (idx + 1) * info.pieceLength = idx * info.pieceLength + info.pieceLength := by rw [Nat.add_mul]; omega
  have hn : info.pieces.length * info.pieceLength = (info.pieces.length - 1) * info.pieceLength + info.pieceLength := by
    conv => lhs; rw [show info.pieces.length = (info.pieces.length - 1) + 1 by omega]
    rw [Nat.add_mul, Nat.one_mul]
  have hlt := Nat.mod_lt len h1
  -- both cases: open, then write a part of the data at the start of the piece
  have key : ∃ part : Bytes, part.length ≤ data.flatten.length ∧ part = data.flatten.take part.length ∧
      idx * info.pieceLength + part.length ≤ reach info len ∧
      (∀ x, x / info.pieceLength = idx → x < reach info len → x < idx * info.pieceLength + part.length) ∧
      SingleFile.writePiece openable base info idx data d =
        (openFile openable (SingleFile.path base info) >>= fun _ =>
          writeAll (SingleFile.path base info) (idx * info.pieceLength) part) d := by
    unfold SingleFile.writePiece
    rw [bind_ok (show DiskM.lift (usub info.pieces.length 1) d = (d, .ok (info.pieces.length - 1)) by
      unfold DiskM.lift usub; rw [if_pos (by omega)])]
    by_cases hc : idx < info.pieces.length - 1
    · rw [if_pos hc]
      have hmm : (idx + 1) * info.pieceLength ≤ (info.pieces.length - 1) * info.pieceLength :=
        Nat.mul_le_mul_right _ hc
      have hdl : data.flatten.length = info.pieceLength := by unfold pieceSize at hs; omega
      refine ⟨data.flatten, Nat.le_refl _, by rw [List.take_length], ?_, ?_, ?_⟩
      · unfold reach; omega
      · intro x hx _
        have := (div_eq_iff_range h1).mp hx
        omega
      · unfold SingleFile.writeMiddle
        show (openFile openable (SingleFile.path base info) >>= fun _ => _) d = _
        rw [bind_eq, bind_eq]
        cases openFile openable (SingleFile.path base info) d with
        | mk d1 r1 => cases r1 with
          | ok _ => simp only; rw [writeBlocks_eq]; rfl
          | err => rfl
          | panic => rfl
    · have he : idx = info.pieces.length - 1 := by omega
      rw [if_neg hc, if_pos he]
      have hl : len % info.pieceLength ≤ data.flatten.length := by
        unfold pieceSize at hs; rw [he] at hs; omega
      have htl : (data.flatten.take (len % info.pieceLength)).length = len % info.pieceLength := by
        rw [List.length_take]; omega
      refine ⟨data.flatten.take (len % info.pieceLength), ?_, ?_, ?_, ?_, ?_⟩
      · rw [htl]; exact hl
      · rw [htl]
      · rw [htl, he]; exact Nat.le_refl _
      · intro x _ hx
        rw [htl, he]; exact hx
      · unfold SingleFile.writeLast
        show (openFile openable (SingleFile.path base info) >>= fun _ => _) d = _
        rw [bind_eq, bind_eq]
        cases openFile openable (SingleFile.path base info) d with
        | mk d1 r1 => cases r1 with
          | ok _ =>
            simp only
            rw [bind_ok (show DiskM.lift info.length d1 = (d1, .ok len) by
              unfold DiskM.lift Info.length; rw [hm])]
            rw [bind_ok (show DiskM.lift (if info.pieceLength = 0 then .panic else .ok (len % info.pieceLength) : Res Nat)
              d1 = (d1, .ok (len % info.pieceLength)) by unfold DiskM.lift; rw [if_neg (by omega)])]
            rw [lastLoop_eq _ _ _ _ _ hb hl]
            rfl
          | err => rfl
          | panic => rfl
  obtain ⟨part, hp1, hp2, hp3, hp4, hk⟩ := key
  rw [hk] at h
  rcases openFile_cases openable (SingleFile.path base info) d with ⟨ho, hop⟩ | ⟨ho, d1, hop, hex, hsame, hoth⟩
  · rw [bind_err hop] at h
    obtain ⟨rfl, rfl⟩ := Prod.mk.inj h
    exact ⟨fun _ _ => rfl, by omega, fun _ _ _ hx => hx, (fun h => by cases h), (fun h => by cases h),
      (fun h => by rw [ho] at h; cases h), fun _ _ _ hx => hx⟩
  · rw [bind_ok hop] at h
    obtain ⟨rfl, rfl⟩ := Prod.mk.inj h
    have hfo : fileOf (d1.modify (SingleFile.path base info) (fun f => writeAt f (idx * info.pieceLength) part))
        (SingleFile.path base info) = writeAt (fileOf d (SingleFile.path base info)) (idx * info.pieceLength) part := by
      rw [fileOf_modify _ _ _ hex, if_pos rfl, hsame]
    obtain ⟨e1, e2, e3⟩ := writeAt_effect (fileOf d (SingleFile.path base info)) (idx * info.pieceLength) part
    refine ⟨?_, ?_, ?_, ?_, ?_, fun _ => rfl, ?_⟩
    · intro q hq
      rw [Map.get?_modify, if_neg hq, hoth q hq]
    · rw [hfo]
      rcases e1 with e1 | e1
      · rw [e1, writeAt_nil]; omega
      · rw [e1]; omega
    · intro x b hx hxb
      rw [hfo]
      refine e2 x b ?_ hxb
      rintro ⟨l1, l2⟩
      exact hx ((div_eq_iff_range h1).mpr ⟨l1, by omega⟩)
    · intro _
      rw [get?_modify_isSome]; exact hex
    · intro _ x hx hr
      have hlt := hp4 x hx hr
      have hra := (div_eq_iff_range h1).mp hx
      rw [hfo, e3 x hra.1 hlt, hp2, List.getElem?_take_of_lt (by omega), mod_of_range h1 hx]
    · intro x b hx hxb
      rw [hfo]
      exact e2 x b (by omega) hxb

/-- C50: whatever the outcome, writing a piece changes no byte outside the piece and no other file. -/
theorem C50_isolated (openable : Bytes → Bool) (base : Bytes) (info : Info) (len : Nat)
    (hm : info.mode = .single len) (hf : EnoughPieces info.pieces.length info.pieceLength len) (idx : Nat) (data : List Bytes)
    (hv : ValidPiece info.pieces.length info.pieceLength len idx data) (d : Disk) :
    (∀ q, q ≠ SingleFile.path base info →
      ((SingleFile.writePiece openable base info idx data d).1).get? q = d.get? q) ∧
    ∀ x b, x / info.pieceLength ≠ idx → (fileOf d (SingleFile.path base info))[x]? = some b →
      (fileOf (SingleFile.writePiece openable base info idx data d).1 (SingleFile.path base info))[x]? = some b := by
  obtain ⟨w1, _, w2, _⟩ := single_write_effect openable base info len hm hf idx data hv d _ _ rfl
  exact ⟨w1, w2⟩

/-- C50: writing a valid piece succeeds when the file can be opened. -/
theorem C50_write_succeeds (openable : Bytes → Bool) (base : Bytes) (info : Info) (len : Nat)
    (hm : info.mode = .single len) (hf : EnoughPieces info.pieces.length info.pieceLength len)
    (ho : openable (SingleFile.path base info) = true) (idx : Nat) (data : List Bytes)
    (hv : ValidPiece info.pieces.length info.pieceLength len idx data) (d : Disk) :
    (SingleFile.writePiece openable base info idx data d).2 = .ok () :=
  (single_write_effect openable base info len hm hf idx data hv d _ _ rfl).2.2.2.2.2.1 ho

/-- C50: an index that is not one of the torrent's pieces is refused and changes nothing. -/
theorem C50_index_refused (openable : Bytes → Bool) (base : Bytes) (info : Info) (hn : 0 < info.pieces.length)
    (idx : Nat) (hidx : info.pieces.length ≤ idx) (data : List Bytes) (d : Disk) :
    SingleFile.writePiece openable base info idx data d = (d, .err) := by
  unfold SingleFile.writePiece
  rw [bind_ok (show DiskM.lift (usub info.pieces.length 1) d = (d, .ok (info.pieces.length - 1)) by
    unfold DiskM.lift usub; rw [if_pos (by omega)])]
  rw [if_neg (by omega), if_neg (by omega)]
  rfl

/-- C50: reading changes no file's contents. -/
theorem C50_read_pure (openable : Bytes → Bool) (base : Bytes) (info : Info) (i b l : Nat) (buf : Bytes) (d : Disk)
    (q : Bytes) : fileOf (SingleFile.readBlock openable base info i b l buf d).1 q = fileOf d q := by
  unfold SingleFile.readBlock
  rcases openFile_cases openable (SingleFile.path base info) d with ⟨_, hop⟩ | ⟨_, d1, hop, _, hsame, _⟩
  · rw [bind_err hop]
  · rw [bind_ok hop]
    refine bind_disk _ _ d1 (fun d' => fileOf d' q = fileOf d q) (hsame q) ?_
    intro t d2 h2
    have : d2 = d1 := (Prod.mk.inj h2).1.symm
    subst this
    have hr := readExact_disk (SingleFile.path base info) (i * info.pieceLength + b) l d2
    refine bind_disk _ _ d2 (fun d' => fileOf d' q = fileOf d q) (by rw [hr]; exact hsame q) ?_
    intro bs d3 h3
    rw [h3] at hr
    have hr' : d3 = d2 := hr
    subst hr'
    exact hsame q

theorem single_inv (openable : Bytes → Bool) (base : Bytes) (info : Info) (len : Nat)
    (hm : info.mode = .single len) (hf : EnoughPieces info.pieces.length info.pieceLength len)
    (d0 d : Disk) (ops : List FsOp) (h : SingleHistory openable base info len d0 ops d) :
    (fileOf d (SingleFile.path base info)).length ≤
      max (fileOf d0 (SingleFile.path base info)).length (reach info len) ∧
    (∀ x b, x < reach info len → torrentByte info.pieceLength ops x = some b →
        (fileOf d (SingleFile.path base info))[x]? = some b) ∧
    (∀ x b, reach info len ≤ x → (fileOf d0 (SingleFile.path base info))[x]? = some b →
        (fileOf d (SingleFile.path base info))[x]? = some b) := by
  refine history_inv (P := fun ops d => (fileOf d (SingleFile.path base info)).length ≤
      max (fileOf d0 (SingleFile.path base info)).length (reach info len) ∧
    (∀ x b, x < reach info len → torrentByte info.pieceLength ops x = some b →
        (fileOf d (SingleFile.path base info))[x]? = some b) ∧
    (∀ x b, reach info len ≤ x → (fileOf d0 (SingleFile.path base info))[x]? = some b →
        (fileOf d (SingleFile.path base info))[x]? = some b)) h ?_ ?_ ?_
  · exact ⟨by omega, (fun _ _ _ hb => by cases hb), fun _ _ _ hb => hb⟩
  · intro ops d idx data d' hP hv hw
    obtain ⟨w1, w2, w3, w4, w5, w6, w7⟩ := single_write_effect openable base info len hm hf idx data hv d d' _ hw
    refine ⟨by have := hP.1; omega, ?_, fun x b hx hb => w7 x b hx (hP.2.2 x b hx hb)⟩
    intro x b hx hb
    unfold torrentByte at hb
    rw [lastWritten_write] at hb
    by_cases hc : x / info.pieceLength = idx
    · rw [if_pos hc.symm] at hb
      rw [w5 rfl x hc hx]
      exact hb
    · rw [if_neg (fun e => hc e.symm)] at hb
      exact w3 x b hc (hP.2.1 x b hx hb)
  · intro ops d i' b l buf d' r hP hr
    have hpure : ∀ q, fileOf d' q = fileOf d q := by
      intro q
      have := C50_read_pure openable base info i' b l buf d q
      rw [hr] at this
      exact this
    rw [hpure]
    refine ⟨hP.1, fun x b hx hb => hP.2.1 x b hx ?_, hP.2.2⟩
    unfold torrentByte at hb ⊢
    rw [lastWritten_read] at hb
    exact hb

/-- C50: after any history of successful writes of valid pieces, and of reads, reading a range all of whose bytes
have been written returns the bytes last written. Missing from the property: the last piece of a torrent whose length
is a multiple of the piece length (`C50_full_last_piece_violated`). -/
theorem C50_read_back_partial (openable : Bytes → Bool) (base : Bytes) (info : Info) (len : Nat)
    (hm : info.mode = .single len) (hf : EnoughPieces info.pieces.length info.pieceLength len)
    (ho : openable (SingleFile.path base info) = true)
    (d0 d : Disk) (ops : List FsOp) (h : SingleHistory openable base info len d0 ops d)
    (index begin_ length : Nat) (buf : Bytes) (hbuf : length ≤ buf.length)
    (hin : index * info.pieceLength + begin_ + length ≤ len)
    (hlast : len % info.pieceLength = 0 →
      index * info.pieceLength + begin_ + length ≤ (info.pieces.length - 1) * info.pieceLength)
    (hwritten : ∀ i, i < length → (torrentByte info.pieceLength ops (index * info.pieceLength + begin_ + i)).isSome) :
    ∃ d' buf', SingleFile.readBlock openable base info index begin_ length buf d = (d', .ok buf') ∧
      ReadsBack info.pieceLength ops (index * info.pieceLength + begin_) length buf buf' := by
  obtain ⟨_, hinv, _⟩ := single_inv openable base info len hm hf d0 d ops h
  have hmod := fits_mod hf
  generalize hs : index * info.pieceLength + begin_ = s at hin hwritten hlast
  have hreach : s + length ≤ reach info len := by
    unfold reach
    rcases hmod with ⟨m1, _⟩ | ⟨_, m2⟩
    · have := hlast m1; omega
    · omega
  have hval : ∀ y, s ≤ y → y < s + length → torrentByte info.pieceLength ops y =
      some ((torrentByte info.pieceLength ops y).getD 0#8) := by
    intro y h1 h2
    have := hwritten (y - s) (by omega)
    rw [show s + (y - s) = y by omega] at this
    cases hy : torrentByte info.pieceLength ops y with
    | none => rw [hy] at this; cases this
    | some b => rfl
  unfold SingleFile.readBlock
  rcases openFile_cases openable (SingleFile.path base info) d with ⟨hno, _⟩ | ⟨_, d1, hop, hex, hsame, _⟩
  · rw [ho] at hno; cases hno
  rw [bind_ok hop]
  rw [bind_ok (show DiskM.lift (sliceR buf 0 length) d1 = (d1, .ok _) by
    unfold DiskM.lift sliceR; rw [if_pos (by omega)])]
  obtain ⟨bs, hr, hl, hv⟩ := readExact_eq d1 (SingleFile.path base info) s length
    (fun y => (torrentByte info.pieceLength ops y).getD 0#8) hex (by
      intro x h1 h2
      rw [hsame]
      exact hinv x _ (by omega) (hval x h1 h2))
  rw [hs, bind_ok hr]
  refine ⟨d1, splice buf 0 bs, rfl, ?_⟩
  obtain ⟨s1, s2⟩ := splice_get? buf 0 bs (by omega)
  refine ⟨s1, fun i hi => ?_⟩
  rw [s2]
  by_cases hc : i < length
  · rw [if_pos (by omega), if_pos hc, Nat.sub_zero, hv i hc, hval (s + i) (by omega) (by omega)]
    rfl
  · rw [if_neg (by omega), if_neg hc]

/-- C50 fails for the last piece of a torrent whose length is a multiple of the piece length: writing it reports
success, and every file is as before. -/
theorem C50_full_last_piece_violated (openable : Bytes → Bool) (base : Bytes) (info : Info) (len : Nat)
    (hm : info.mode = .single len) (hpl : 0 < info.pieceLength) (hn : 0 < info.pieces.length)
    (hfull : len = info.pieces.length * info.pieceLength)
    (ho : openable (SingleFile.path base info) = true) (data : List Bytes) (d : Disk) :
    (SingleFile.writePiece openable base info (info.pieces.length - 1) data d).2 = .ok () ∧
    ∀ q, fileOf (SingleFile.writePiece openable base info (info.pieces.length - 1) data d).1 q = fileOf d q := by
  unfold SingleFile.writePiece
  rw [bind_ok (show DiskM.lift (usub info.pieces.length 1) d = (d, .ok (info.pieces.length - 1)) by
    unfold DiskM.lift usub; rw [if_pos (by omega)])]
  rw [if_neg (by omega), if_pos rfl]
  unfold SingleFile.writeLast
  rcases openFile_cases openable (SingleFile.path base info) d with ⟨hno, _⟩ | ⟨_, d1, hop, hex, hsame, _⟩
  · rw [ho] at hno; cases hno
  rw [bind_ok hop]
  rw [bind_ok (show DiskM.lift info.length d1 = (d1, .ok len) by unfold DiskM.lift Info.length; rw [hm])]
  rw [bind_ok (show DiskM.lift (if info.pieceLength = 0 then .panic else .ok (len % info.pieceLength) : Res Nat)
    d1 = (d1, .ok 0) by unfold DiskM.lift; rw [if_neg (by omega), hfull, Nat.mul_mod_left])]
  have hloop : SingleFile.lastLoop (SingleFile.path base info) ((info.pieces.length - 1) * info.pieceLength) 0 data d1 =
      (d1, .ok ()) := by simp only [SingleFile.lastLoop]; rfl
  rw [hloop]
  exact ⟨rfl, hsame⟩

/-- C53, one file: once every piece of the true contents has been written, in any order and any number of times, with
reads in between, the file is exactly the contents. Missing from the property: a length that is a multiple of the
piece length (`C53_full_last_piece_violated`). -/
theorem C53_single_complete_partial (openable : Bytes → Bool) (base : Bytes) (info : Info) (len : Nat)
    (hm : info.mode = .single len) (hf : EnoughPieces info.pieces.length info.pieceLength len)
    (hmod : len % info.pieceLength ≠ 0) (content : Bytes) (hc : content.length = len)
    (d0 d : Disk) (ops : List FsOp) (h0 : d0.get? (SingleFile.path base info) = none)
    (h : SingleHistory openable base info len d0 ops d)
    (hfrom : AllFrom info.pieceLength content ops) (hall : AllWritten info.pieces.length ops) :
    d.get? (SingleFile.path base info) = some content := by
  obtain ⟨i1, i2, _⟩ := single_inv openable base info len hm hf d0 d ops h
  have hfm := fits_mod hf
  have hreach : reach info len = len := by unfold reach; omega
  rw [hreach] at i1 i2
  have hd0 : fileOf d0 (SingleFile.path base info) = [] := by unfold fileOf; rw [h0]; rfl
  rw [hd0] at i1
  obtain ⟨hpl, hn0, hn1, hn2⟩ := hf
  have hcon : fileOf d (SingleFile.path base info) = content := by
    apply List.ext_getElem?
    intro x
    by_cases hx : x < content.length
    · have hb := torrentByte_content info.pieces.length info.pieceLength content ops hpl (by omega) hfrom hall x hx
      rw [List.getElem?_eq_getElem hx] at hb ⊢
      exact i2 x _ (by omega) hb
    · rw [List.getElem?_eq_none (by simp only [List.length_nil] at i1; omega), List.getElem?_eq_none (by omega)]
  unfold fileOf at hcon
  cases hg : d.get? (SingleFile.path base info) with
  | none =>
    rw [hg] at hcon
    have : content.length = 0 := by rw [← hcon]; rfl
    omega
  | some f => rw [hg] at hcon; rw [← hcon]; rfl

/-- C53 fails for every torrent of one file whose length is a multiple of the piece length: whatever is written, the
file stays at least a whole piece too short. -/
theorem C53_full_last_piece_violated (openable : Bytes → Bool) (base : Bytes) (info : Info) (len : Nat)
    (hm : info.mode = .single len) (hpl : 0 < info.pieceLength) (hn : 0 < info.pieces.length)
    (hfull : len = info.pieces.length * info.pieceLength)
    (d0 d : Disk) (ops : List FsOp) (h0 : d0.get? (SingleFile.path base info) = none)
    (h : SingleHistory openable base info len d0 ops d) :
    (fileOf d (SingleFile.path base info)).length + info.pieceLength ≤ len := by
  have hmul : info.pieces.length * info.pieceLength = (info.pieces.length - 1) * info.pieceLength + info.pieceLength := by
    conv => lhs; rw [show info.pieces.length = (info.pieces.length - 1) + 1 by omega]
    rw [Nat.add_mul, Nat.one_mul]
  have hf : EnoughPieces info.pieces.length info.pieceLength len := ⟨hpl, hn, by omega, by omega⟩
  obtain ⟨i1, _⟩ := single_inv openable base info len hm hf d0 d ops h
  have hd0 : fileOf d0 (SingleFile.path base info) = [] := by unfold fileOf; rw [h0]; rfl
  have hmod : len % info.pieceLength = 0 := by rw [hfull]; exact Nat.mul_mod_left _ _
  unfold reach at i1
  rw [hd0, hmod] at i1
  simp only [List.length_nil] at i1
  omega

/-! ## Concrete cases -/

/-- Two pieces of four bytes for the seven bytes of `demoFiles`. -/
def demoInfo : Info :=
  ⟨ascii "t", 4, [⟨List.replicate 20 0#8, List.length_replicate⟩, ⟨List.replicate 20 1#8, List.length_replicate⟩],
    .multi demoFiles⟩

def demoData0 : List Bytes := [[1#8, 2#8, 3#8, 4#8]]
def demoData1 : List Bytes := [[5#8, 6#8, 7#8]]
def demoContent : Bytes := [1#8, 2#8, 3#8, 4#8, 5#8, 6#8, 7#8]

/-- The setting of C52 and C53 is met by a torrent with an empty file in the middle. -/
theorem demoSetting : MultiSetting (ascii "d") demoInfo demoFiles where
  fits := ⟨by decide, by decide, by decide, by decide⟩
  paths := by decide
  empty := by decide

theorem demoValid0 : ValidPiece demoInfo.pieces.length demoInfo.pieceLength (totalLength demoFiles) 0 demoData0 := by
  refine ⟨by decide, ⟨fun i h => ?_, by decide⟩, by decide, by decide⟩
  simp [demoData0] at h

theorem demoValid1 : ValidPiece demoInfo.pieces.length demoInfo.pieceLength (totalLength demoFiles) 1 demoData1 := by
  refine ⟨by decide, ⟨fun i h => ?_, by decide⟩, by decide, by decide⟩
  simp [demoData1] at h

/-- A complete download in descending order, with the first piece written twice. -/
theorem demoHistory : ∃ d, MultiHistory (fun _ => true) (ascii "d") demoInfo demoFiles []
    [.write 1 demoData1, .write 0 demoData0, .write 0 demoData0] d := by
  have w : ∀ idx data d, ValidPiece demoInfo.pieces.length demoInfo.pieceLength (totalLength demoFiles) idx data →
      ∃ d', MultiFile.writePiece (fun _ => true) (ascii "d") demoInfo demoFiles idx data d = (d', .ok ()) :=
    fun idx data d hv => ⟨_, Prod.ext rfl
      (C52_write_succeeds_partial (fun _ => true) (ascii "d") demoInfo demoFiles demoSetting (fun _ _ => rfl) idx data hv d)⟩
  obtain ⟨d1, h1⟩ := w 1 demoData1 [] demoValid1
  obtain ⟨d2, h2⟩ := w 0 demoData0 d1 demoValid0
  obtain ⟨d3, h3⟩ := w 0 demoData0 d2 demoValid0
  exact ⟨d3, ((FsHistory.nil []).write demoValid1 h1 |>.write demoValid0 h2).write demoValid0 h3⟩

theorem demoAllFrom : AllFrom demoInfo.pieceLength demoContent
    [.write 1 demoData1, .write 0 demoData0, .write 0 demoData0] := by
  intro idx data h
  simp only [List.mem_cons, FsOp.write.injEq, List.not_mem_nil, or_false, or_self] at h
  rcases h with ⟨rfl, rfl⟩ | ⟨rfl, rfl⟩ <;> decide

theorem demoAllWritten : AllWritten demoInfo.pieces.length
    [.write 1 demoData1, .write 0 demoData0, .write 0 demoData0] := by
  intro idx h
  have : idx = 0 ∨ idx = 1 := by
    have : demoInfo.pieces.length = 2 := rfl
    omega
  rcases this with rfl | rfl
  · exact ⟨demoData0, by simp⟩
  · exact ⟨demoData1, by simp⟩

/-- The three files after it: `[1, 2, 3]`, nothing, `[4, 5, 6, 7]`. -/
example : ∃ d, MultiHistory (fun _ => true) (ascii "d") demoInfo demoFiles []
      [.write 1 demoData1, .write 0 demoData0, .write 0 demoData0] d ∧
    d.get? (ascii "d/t/a") = some [1#8, 2#8, 3#8] ∧ d.get? (ascii "d/t/b") = some [] ∧
    d.get? (ascii "d/t/c") = some [4#8, 5#8, 6#8, 7#8] := by
  obtain ⟨d, h⟩ := demoHistory
  have hc := C53_complete_partial (fun _ => true) (ascii "d") demoInfo demoFiles demoSetting demoContent (by decide)
    [] d _ (fun _ _ => rfl) h demoAllFrom demoAllWritten
  refine ⟨d, h, ?_, ?_, ?_⟩
  · exact hc 0 (by decide)
  · exact hc 1 (by decide)
  · exact hc 2 (by decide)

/-- A torrent of one file of seven bytes in two pieces. -/
def demoSingle : Info := { demoInfo with mode := .single 7 }

example : EnoughPieces demoSingle.pieces.length demoSingle.pieceLength 7 ∧ 7 % demoSingle.pieceLength ≠ 0 :=
  ⟨⟨by decide, by decide, by decide, by decide⟩, by decide⟩

example : ∃ d, SingleHistory (fun _ => true) (ascii "d") demoSingle 7 [] [.write 1 demoData1, .write 0 demoData0] d ∧
    d.get? (ascii "d/t") = some demoContent := by
  have hf : EnoughPieces demoSingle.pieces.length demoSingle.pieceLength 7 := ⟨by decide, by decide, by decide, by decide⟩
  have w : ∀ idx data d, ValidPiece demoSingle.pieces.length demoSingle.pieceLength 7 idx data →
      ∃ d', SingleFile.writePiece (fun _ => true) (ascii "d") demoSingle idx data d = (d', .ok ()) :=
    fun idx data d hv => ⟨_, Prod.ext rfl
      (C50_write_succeeds (fun _ => true) (ascii "d") demoSingle 7 rfl hf rfl idx data hv d)⟩
  obtain ⟨d1, h1⟩ := w 1 demoData1 [] demoValid1
  obtain ⟨d2, h2⟩ := w 0 demoData0 d1 demoValid0
  have h : SingleHistory (fun _ => true) (ascii "d") demoSingle 7 [] [.write 1 demoData1, .write 0 demoData0] d2 :=
    (FsHistory.nil []).write demoValid1 h1 |>.write demoValid0 h2
  refine ⟨d2, h, C53_single_complete_partial (fun _ => true) (ascii "d") demoSingle 7 rfl hf (by decide) demoContent
    rfl [] d2 _ rfl h ?_ ?_⟩
  · intro idx data hm
    exact demoAllFrom idx data (by simp only [List.mem_cons, or_self, or_self_left] at hm ⊢; exact hm)
  · intro idx hi
    obtain ⟨data, hm⟩ := demoAllWritten idx hi
    exact ⟨data, by simp only [List.mem_cons, or_self] at hm ⊢; simpa using hm⟩

end Nargun
